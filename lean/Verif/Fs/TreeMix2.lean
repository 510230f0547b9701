/-
`copy_tree` with other requests in between (fs.py:504-638): what can go wrong.

Other requests run when a batch ends (fs.py:626-629), and while the blocks of an open file are flushed (`await
self.cache.start_flush(id_)`, fs.py:561-562), which is after the row was read and before its inode is copied.
-/
import Verif.Fs.Cases5

namespace Verif.Fs

/-- Where `copy_tree` is: between two iterations; at a row that was read, and whose inode is being flushed; at the end, or
ended by an exception. -/
inductive CpPc
  | walk (w : CpWalk)
  | row (w : CpWalk) (sd dd k id : Nat)
  | done
  | crashed

/-- `copy_tree(src, tgt)` at work, with other requests in between. -/
inductive Copying (repl fail : Bool) (src tgt : Nat) : St → (Nat → Int) → Nat → CpPc → Prop
  | start {s s' : St} {K : Nat → Int} {w : CpWalk} {now : Int} : Hist repl fail s K → copyStart s src tgt now = .ok (s', w) →
      Copying repl fail src tgt s' K (s.db.seq + 1) (.walk w)
  /-- The next directory (fs.py:547). -/
  | pop {s : St} {K : Nat → Int} {tmp : Nat} {t : Nat × Nat × Nat} {q : List (Nat × Nat × Nat)} {cache : List (Nat × Nat)} :
      Copying repl fail src tgt s K tmp (.walk ⟨none, t :: q, cache⟩) → Copying repl fail src tgt s K tmp (.walk ⟨some t, q, cache⟩)
  /-- The next row of the query (fs.py:557-559). -/
  | read {s : St} {K : Nat → Int} {tmp sd dd lo k id : Nat} {q : List (Nat × Nat × Nat)} {cache : List (Nat × Nat)} :
      Copying repl fail src tgt s K tmp (.walk ⟨some (sd, dd, lo), q, cache⟩) → s.db.nextRow sd lo = some (k, id) →
      Copying repl fail src tgt s K tmp (.row ⟨none, q, cache⟩ sd dd k id)
  /-- The query has no more rows. -/
  | over {s : St} {K : Nat → Int} {tmp sd dd lo : Nat} {q : List (Nat × Nat × Nat)} {cache : List (Nat × Nat)} :
      Copying repl fail src tgt s K tmp (.walk ⟨some (sd, dd, lo), q, cache⟩) → s.db.nextRow sd lo = none →
      Copying repl fail src tgt s K tmp (.walk ⟨none, q, cache⟩)
  /-- The row is handled (fs.py:560-624), as in `copyStep`. -/
  | handle {s s1 : St} {K : Nat → Int} {tmp sd dd k id new : Nat} {w : CpWalk} {q : List (Nat × Nat × Nat)} {cache : List (Nat × Nat)} {db : Db}
      (brk : Bool) (ups : List (Nat × Nat)) : Copying repl fail src tgt s K tmp (.row w sd dd k id) →
      copyRow (flushInode s w.cache id ups) w id = some (s1, new, q, cache) → s1.db.addCopy dd k new = some db →
      Copying repl fail src tgt { s1 with db := db } K tmp
        (.walk (if brk then ⟨none, (sd, dd, k + 1) :: q, cache⟩ else ⟨some (sd, dd, k + 1), q, cache⟩))
  | noInode {s : St} {K : Nat → Int} {tmp sd dd k id : Nat} {w : CpWalk} {ups : List (Nat × Nat)} :
      Copying repl fail src tgt s K tmp (.row w sd dd k id) → copyRow (flushInode s w.cache id ups) w id = none →
      Copying repl fail src tgt (flushInode s w.cache id ups) K tmp .crashed
  | finish {s s' : St} {K : Nat → Int} {tmp : Nat} {cache : List (Nat × Nat)} : Copying repl fail src tgt s K tmp (.walk ⟨none, [], cache⟩) →
      copyEnd s tgt tmp = some s' → Copying repl fail src tgt s' K tmp .done
  | clash {s : St} {K : Nat → Int} {tmp : Nat} {cache : List (Nat × Nat)} : Copying repl fail src tgt s K tmp (.walk ⟨none, [], cache⟩) →
      copyEnd s tgt tmp = none → Copying repl fail src tgt s K tmp .crashed
  | batch {s s' : St} {K K' : Nat → Int} {tmp : Nat} {w : CpWalk} : Copying repl fail src tgt s K tmp (.walk w) → w.cur = none →
      Other repl fail K s s' K' → Copying repl fail src tgt s' K' tmp (.walk w)
  | flush {s s' : St} {K K' : Nat → Int} {tmp sd dd k id : Nat} {w : CpWalk} : Copying repl fail src tgt s K tmp (.row w sd dd k id) →
      AL.get s.opened id ≠ none → Other repl fail K s s' K' → Copying repl fail src tgt s' K' tmp (.row w sd dd k id)

/-! #### Cases -/

/-- `mkdir /d; mknod /d/f; mkdir /t`. -/
def cmStory : List Op := [.mknod 1 nD 0o40755 0 7 7 10, .mknod 4 nF 0o100644 0 7 7 11, .mknod 1 nT 0o40755 0 7 7 12]
def cmSt : St := run s0 cmStory
def cmK : Nat → Int := runK s0 k0 cmStory
/-- `s3qlcp /d /t` has started; 7 is its temporary inode. -/
def cmSt1 : St := match copyStart cmSt 4 6 20 with | .ok (s, _) => s | .error _ => cmSt
/-- It has copied `/d/f`, as inode 8. -/
def cmSt2 : St := match copyStep true [] cmSt1 ⟨some (4, 7, 0), [], []⟩ with | some (s, _) => s | none => cmSt

theorem cm_hist : Hist false false cmSt cmK := hist0 cmStory (by decide +kernel)

theorem cm_row : Copying false false 4 6 cmSt1 cmK 7 (.row ⟨none, [], []⟩ 4 7 3 5) := by
  have h1 : Copying false false 4 6 cmSt1 cmK 7 (.walk ⟨none, [(4, 7, 0)], []⟩) := .start (now := 20) cm_hist rfl
  exact h1.pop.read (by decide +kernel)

theorem cm_batch : Copying false false 4 6 cmSt2 cmK 7 (.walk ⟨none, [(4, 7, 4)], []⟩) :=
  cm_row.handle true [] (new := 8) (q := []) (cache := []) (s1 := { cmSt1 with db := cmSt1.db.copyInode 5 ((AL.get cmSt1.db.inodes 5).getD ⟨0, 0, 0, 0, 0, 0, 0, 0, 0, false⟩) })
    (by rfl) (db := cmSt2.db) (by rfl)

theorem Copying.end_ {src tgt : Nat} {s : St} {K : Nat → Int} {tmp : Nat} {t : Nat × Nat × Nat} {cache : List (Nat × Nat)}
    (h : Copying false false src tgt s K tmp (.walk ⟨none, [t], cache⟩)) (hn : s.db.nextRow t.1 t.2.2 = none) :
    Copying false false src tgt s K tmp (.walk ⟨none, [], cache⟩) := h.pop.over hn

/-- C24 fails if the target is removed while `copy_tree` runs: the copies end up in a directory that does not exist. -/
theorem cptree_target_removed : ∃ s K tmp, Copying false false 4 6 s K tmp .done ∧ ¬EntriesValid s ∧
    seenAttr s 6 = none ∧ seenEntry s 6 nF = some 8 := by
  have h1 := cm_batch.batch rfl (.step (.rmdir 1 nT 21) (by decide +kernel) (by decide +kernel) (fun _ => by decide +kernel) (fun _ _ => okE (by decide +kernel)))
  have h2 := h1.batch rfl (.step (.forget [(6, 1)]) (by decide +kernel) trivial (fun _ h => h) (fun _ h => h.elim))
  have h3 := h2.end_ (by decide +kernel)
  refine ⟨_, _, _, h3.finish (s' := (copyEnd (step (step cmSt2 (.rmdir 1 nT 21)).2 (.forget [(6, 1)])).2 6 7).getD cmSt) ?_, ?_, ?_, ?_⟩
  · rfl
  · decide +kernel
  · decide +kernel
  · decide +kernel

/-- C24 fails if an entry is made in the target that the copy is going to have as well: `copy_tree` ends with an uncaught
exception (the uniqueness of entries is violated), and the temporary inode stays. -/
theorem cptree_target_clash : ∃ s K tmp, Copying false false 4 6 s K tmp .crashed ∧ seenAttr s tmp ≠ none ∧ entriesTo s tmp = 0 := by
  have h1 := cm_batch.batch rfl (.step (.mknod 6 nF 0o100644 0 7 7 21) (by decide +kernel) trivial (fun _ h => h) (fun _ h => h.elim))
  exact ⟨_, _, _, (h1.end_ (by decide +kernel)).clash (by decide +kernel), by decide +kernel, by decide +kernel⟩

/-- C24 fails if an open file is deleted and closed while its blocks are being flushed: its inode is not found any more. -/
theorem cptree_source_removed : ∃ s K tmp, Copying false false 4 6 s K tmp .crashed := by
  have h1 := cm_row.flush (by decide +kernel) (.step (.unlink 4 nF 21) (by decide +kernel) (by decide +kernel) (fun _ => by decide +kernel) (fun _ _ => okE (by decide +kernel)))
  have h2 := h1.flush (by decide +kernel) (.step (.forget [(5, 1)]) (by decide +kernel) trivial (fun _ h => h) (fun _ h => h.elim))
  exact ⟨_, _, _, h2.noInode (ups := []) (by decide +kernel)⟩

end Verif.Fs
