/-
`remove_tree` with other requests in between (fs.py:426-502).

`_remove` lets other requests run while it purges an inode (`await self._purge_inode`, fs.py:726, which waits for block
locks and for room in the upload and removal queues), and so does the end of a batch (fs.py:489-492).  In the model other
requests may run before every row and at every start of the outer loop; the purge itself is one piece.  Between the last
`_remove` and `forget` nothing runs, as `remove_tree` has looked the inode up, so that it is not purged by `_remove`.
-/
import Verif.Fs.Lock2
import Verif.Fs.TreeProps

namespace Verif.Fs

/-- Where `remove_tree` is: at the start of the outer loop with the stack of directories (fs.py:447), at the start of the
inner loop (fs.py:461) with the directory, the rows that were read and not yet handled, whether the query gave as many
rows as it was allowed to, `reinserted`, and the stack; or at the end. -/
inductive RmPc
  | top (queue : List Nat)
  | rows (p : Nat) (chunk : List (Bytes × Nat)) (full re : Bool) (queue : List Nat)
  | done (res : Except Err Unit)

/-- What `remove_tree` has read from the database and will rely on: the entry it was called for, and the rows. -/
def RmPc.pending (p0 : Nat) (n0 : Bytes) (a : Nat) : RmPc → List (Nat × Bytes × Nat)
  | .top _ => [(p0, n0, a)]
  | .rows p chunk _ _ _ => (p0, n0, a) :: chunk.map (fun r => (p, r.1, r.2))
  | .done _ => []

/-- What happens in between: other requests are handled, inodes are locked and entries removed by other tree commands, and
other trees are copied.  (The file system is not unmounted.) -/
inductive Other (repl fail : Bool) (K : Nat → Int) (s : St) : St → (Nat → Int) → Prop
  | step (op : Op) : Req K s op → Handled s op →
      (repl = false → ¬Replaces s op) → (fail = false → looksUp op → ∃ r, (Fs.step s op).1 = .ok r) →
      Other repl fail K s (Fs.step s op).2 (fun i => K i + kernelDelta op (Fs.step s op).1 i)
  | lock {s' : St} (id : Nat) : lockInode s id = some s' → Other repl fail K s s' K
  | rmrow {s' : St} {p id : Nat} {n : Bytes} {now : Int} {res : Except Err Unit} : n ≠ ctrlName → seenEntry s p n = some id →
      remove s p n id true now = (res, s') → Other repl fail K s s' K
  | cptree {s' : St} {src tgt : Nat} : NoLoop s src → Linked s tgt → CpTree s src tgt s' → Other repl fail K s s' K

/-- `remove_tree(p0, n0)` at work, with other requests in between.  `a` is the inode of the entry; `del` are the entries that
the command itself has removed so far.  `K` counts the lookups of the kernel and the one of the command; the kernel does
not forget the latter.  `ok` restricts what happens in between.  The kernel knows the directory of the entry, as
`s3qlrm` has asked for its inode number (remove.py:60-71). -/
inductive Removing (repl fail : Bool) (ok : RmPc → St → St → Prop) (p0 : Nat) (n0 : Bytes) (a : Nat) :
    St → (Nat → Int) → List (Nat × Bytes × Nat) → RmPc → Prop
  | start {s s' : St} {K : Nat → Int} {ip : Inode} : Hist repl fail s K → 0 < K p0 → n0 ≠ ctrlName → s.failsafe = false →
      AL.get s.db.inodes p0 = some ip → ip.locked = false → lookup s p0 n0 = (.ok a, s') → ok (.top [a]) s s' →
      Removing repl fail ok p0 n0 a s' (fun i => K i + if i = a then 1 else 0) [] (.top [a])
  | read {s : St} {K : Nat → Int} {p : Nat} {del : List (Nat × Bytes × Nat)} {q : List Nat} {batch : Nat} {chunk : List (Bytes × Nat × Int)} :
      Removing repl fail ok p0 n0 a s K del (.top (p :: q)) → 0 < batch → IsChunk s.db p batch chunk →
      Removing repl fail ok p0 n0 a s K del (.rows p (chunk.map (fun r => (r.1, r.2.1))) (decide (chunk.length = batch)) false q)
  | sub {s : St} {K : Nat → Int} {p id : Nat} {n : Bytes} {t : List (Bytes × Nat)} {full re : Bool} {del : List (Nat × Bytes × Nat)} {q : List Nat} :
      Removing repl fail ok p0 n0 a s K del (.rows p ((n, id) :: t) full re q) → s.db.hasChildren id = true →
      Removing repl fail ok p0 n0 a s K del (.rows p t full true (id :: if re then q else p :: q))
  | row {s s' : St} {K : Nat → Int} {p id : Nat} {n : Bytes} {t : List (Bytes × Nat)} {full re : Bool} {del : List (Nat × Bytes × Nat)} {q : List Nat}
      {now : Int} : Removing repl fail ok p0 n0 a s K del (.rows p ((n, id) :: t) full re q) → s.db.hasChildren id = false →
      remove s p n id true now = (.ok (), s') → Removing repl fail ok p0 n0 a s' K ((p, n, id) :: del) (.rows p t full re q)
  | rowFail {s s' : St} {K : Nat → Int} {p id : Nat} {n : Bytes} {t : List (Bytes × Nat)} {full re : Bool} {del : List (Nat × Bytes × Nat)} {q : List Nat}
      {now : Int} {e : Err} : Removing repl fail ok p0 n0 a s K del (.rows p ((n, id) :: t) full re q) → s.db.hasChildren id = false →
      remove s p n id true now = (.error e, s') → Removing repl fail ok p0 n0 a s' K del (.done (.error e))
  | next {s : St} {K : Nat → Int} {p : Nat} {full re : Bool} {del : List (Nat × Bytes × Nat)} {q : List Nat} :
      Removing repl fail ok p0 n0 a s K del (.rows p [] full re q) →
      Removing repl fail ok p0 n0 a s K del (.top (if full = true ∧ re = false then p :: q else q))
  | lastFail {s s' : St} {K : Nat → Int} {del : List (Nat × Bytes × Nat)} {now : Int} {e : Err} :
      Removing repl fail ok p0 n0 a s K del (.top []) → remove s p0 n0 a true now = (.error e, s') →
      Removing repl fail ok p0 n0 a s' K del (.done (.error e))
  | finish {s s' s'' : St} {K : Nat → Int} {del : List (Nat × Bytes × Nat)} {now : Int} {res : Except Err Unit} :
      Removing repl fail ok p0 n0 a s K del (.top []) → remove s p0 n0 a true now = (.ok (), s') → forget s' [(a, 1)] = (res, s'') →
      Removing repl fail ok p0 n0 a s'' (fun i => K i - if i = a then 1 else 0) ((p0, n0, a) :: del) (.done res)
  | other {s s' : St} {K K' : Nat → Int} {del : List (Nat × Bytes × Nat)} {pc : RmPc} : Removing repl fail ok p0 n0 a s K del pc →
      (∀ res, pc ≠ .done res) → Other repl fail K s s' K' → 1 ≤ K' a → ok pc s s' → Removing repl fail ok p0 n0 a s' K' del pc

/-! #### What is assumed of the other requests -/

/-- No entry that `remove_tree` has read, and will rely on, was removed or replaced. -/
def Unstale (p0 : Nat) (n0 : Bytes) (a : Nat) (pc : RmPc) (s : St) : Prop := ∀ e ∈ pc.pending p0 n0 a, seenEntry s e.1 e.2.1 = some e.2.2

/-- No entry leads out of the set `R`. -/
def Within (R : Nat → Prop) (s : St) : Prop := ∀ p n c, R p → n ≠ ctrlName → seenEntry s p n = some c → R c

/-- Other requests leave alone what `remove_tree` has read; and `R`, which contains the tree, stays closed. -/
def Careful (R : Nat → Prop) (p0 : Nat) (n0 : Bytes) (a : Nat) (pc : RmPc) (_ s' : St) : Prop := Unstale p0 n0 a pc s' ∧ Within R s'

/-! #### Proofs -/

theorem Other.hist {repl fail : Bool} {s s' : St} {K K' : Nat → Int} (h : Hist repl fail s K) (ho : Other repl fail K s s' K') : Hist repl fail s' K' := by
  cases ho with
  | step op h1 h2 h3 h4 => exact h.step op h1 h2 h3 h4
  | lock id h2 => exact h.lock id h2
  | rmrow h1 h2 h3 => exact h.rmrow h1 h2 h3
  | cptree h1 h2 h3 => exact h.cptree h1 h2 h3

theorem forgetOk_nonneg : ∀ (l : List (Nat × Int)) (K : Nat → Int), (∀ i, 0 ≤ K i) → ForgetOk K l → ∀ i, 0 ≤ K i - forgetSum l i
  | [], K, h, _, i => by have := h i; simp only [forgetSum]; omega
  | (id, n) :: t, K, h, hf, i => by
    have := forgetOk_nonneg t _ (fun j => by
      show 0 ≤ K j - if j = id then n else 0
      have := h j
      have := hf.2.1
      split
      · rename_i e; subst e; omega
      · omega) hf.2.2 i
    simp only [forgetSum]
    omega

/-- The kernel never forgets more than it knows. -/
theorem Hist.nonneg {repl fail : Bool} {s : St} {K : Nat → Int} (h : Hist repl fail s K) (i : Nat) : 0 ≤ K i := by
  induction h generalizing i with
  | init uid gid now m hm => dsimp only; split <;> omega
  | @step s K op _ hq hh h1 h2 ih =>
    have hK := ih i
    show 0 ≤ K i + kernelDelta op (Fs.step s op).1 i
    generalize (Fs.step s op).1 = r
    cases op with
    | forget l =>
      have := forgetOk_nonneg l K ih hq i
      cases r with
      | ok r => simp only [kernelDelta, ← forgetSum_eq]; omega
      | error e => simp only [kernelDelta]; omega
    | _ =>
      unfold kernelDelta
      split <;> (try split) <;> first | omega | contradiction
  | remount _ ih => dsimp only; split <;> omega
  | lock id _ hl ih => exact ih i
  | rmtree _ _ _ _ ih => exact ih i
  | rmrow _ _ _ _ ih => exact ih i
  | cptree _ _ _ _ ih => exact ih i

/-- The directories `remove_tree` is going to read. -/
def RmPc.dirs : RmPc → List Nat
  | .top q => q
  | .rows p _ _ _ q => p :: q
  | .done _ => []

/-- What holds while `remove_tree` runs. -/
structure MixInv (R : Nat → Prop) (p0 : Nat) (n0 : Bytes) (a : Nat) (s : St) (K : Nat → Int) (del : List (Nat × Bytes × Nat)) (pc : RmPc) : Prop where
  live : ∀ res, pc ≠ .done res
  dirs : ∀ d ∈ pc.dirs, R d
  closed : ∀ p n c, R p → s.db.child p n = some c → R c
  pend : ∀ e ∈ pc.pending p0 n0 a, s.db.child e.1 e.2.1 = some e.2.2
  nodup : ∀ p t full re q, pc = .rows p t full re q → (t.map (·.1)).Nodup
  dels : ∀ e ∈ del, R e.1
  hold : 1 ≤ K a

theorem chunk_rows {L : Nat → Int} {s : St} {p batch : Nat} {chunk : List (Bytes × Nat × Int)} (hinv : Inv NoT L s) (hc : IsChunk s.db p batch chunk) :
    (∀ r ∈ chunk, s.db.child p r.1 = some r.2.1) ∧ (chunk.map (·.1)).Nodup := by
  obtain ⟨rest, hperm, hlen⟩ := hc
  refine ⟨?_, ?_⟩
  · intro r hrm
    rw [← mem_entriesOf hinv.acc]
    exact hperm.subset (List.mem_append_left _ (List.mem_map.2 ⟨r, hrm, rfl⟩))
  · have := (hperm.map (·.1)).nodup_iff.2 (entriesOf_nodup hinv.acc p)
    rw [List.map_append, List.map_map] at this
    exact (List.nodup_append.1 this).1

/-- The command is at work and `MixInv` holds, or it has ended, in one of two ways. -/
theorem Removing.good {repl fail : Bool} {R : Nat → Prop} {p0 : Nat} {n0 : Bytes} {a : Nat} (hRa : R a) (hRp : ¬R p0)
    {s : St} {K : Nat → Int} {del : List (Nat × Bytes × Nat)} {pc : RmPc} (h : Removing repl fail (Careful R p0 n0 a) p0 n0 a s K del pc) :
    n0 ≠ ctrlName ∧ Hist repl fail s K ∧ (MixInv R p0 n0 a s K del pc ∨
      (∃ e, pc = .done (.error e) ∧ (∀ e ∈ del, R e.1) ∧ s.db.child p0 n0 = some a ∧ s.db.hasChildren a = true ∧ e = if s.db.getPathOk p0 then .ENOTEMPTY else .crash) ∨
      (pc = .done (.ok ()) ∧ (∀ e ∈ del, R e.1 ∨ e = (p0, n0, a)) ∧ s.db.child p0 n0 = none ∧ ∀ m, s.db.child a m = none)) := by
  induction h with
  | @start s s' K ip h1 hk h2 h3 h4 h5 h6 h7 =>
    obtain ⟨L, g⟩ := h1.good
    rcases lookup_spec g.inv p0 n0 with ⟨e, he, _⟩ | ⟨id, he, hex, _, hch, _⟩
    · rw [he] at h6; cases h6
    rw [he] at h6; cases h6
    obtain ⟨ia, hia⟩ := Option.ne_none_iff_exists'.1 hex
    have hs : step s (.lookup p0 n0) = (.ok (.entry a ia), s.addOpen a 1) := by
      show opLookup s p0 n0 = _
      unfold opLookup
      have hia' : AL.get (s.addOpen a 1).db.inodes a = some ia := hia
      simp only [he, hia']
    have hh := h1.step (.lookup p0 n0) hk trivial (fun _ h => h) (fun _ h => h.elim)
    rw [hs] at hh
    obtain ⟨L', g'⟩ := hh.good
    have hc := hch h2
    refine ⟨h2, hh, Or.inl ⟨fun _ => RmPc.noConfusion, ?_, ?_, ?_, ?_, ?_, ?_⟩⟩
    · intro d hd; rw [List.mem_singleton.1 hd]; exact hRa
    · intro p n c hp hc
      have hnn : n ≠ ctrlName := by rintro rfl; rw [g'.res.ctrl p] at hc; cases hc
      exact h7.2 p n c hp hnn (by rw [seenEntry_eq g'.inv, if_neg hnn]; exact hc)
    · intro e he; rw [List.mem_singleton.1 he]; exact hc
    · intro _ _ _ _ _ e; cases e
    · intro e he; cases he
    · have := h1.nonneg a
      simp only [if_true]
      omega
  | @read s K p del q batch chunk _ hb hc ih =>
    obtain ⟨hn, hh, hm | ⟨e, he, _⟩ | ⟨he, _⟩⟩ := ih
    · obtain ⟨L, g⟩ := hh.good
      obtain ⟨c1, c2⟩ := chunk_rows g.inv hc
      refine ⟨hn, hh, Or.inl ⟨fun _ => RmPc.noConfusion, hm.dirs, hm.closed, ?_, ?_, hm.dels, hm.hold⟩⟩
      · intro e he
        rcases List.mem_cons.1 he with rfl | he
        · exact hm.pend _ (List.mem_cons_self ..)
        · obtain ⟨r, hr, rfl⟩ := List.mem_map.1 he
          obtain ⟨r', hr', rfl⟩ := List.mem_map.1 hr
          exact c1 r' hr'
      · intro p' t full re q' e
        cases e
        rw [List.map_map]; exact c2
    · cases he
    · cases he
  | @sub s K p id n t full re del q _ hc ih =>
    obtain ⟨hn, hh, hm | ⟨e, he, _⟩ | ⟨he, _⟩⟩ := ih
    · refine ⟨hn, hh, Or.inl ⟨fun _ => RmPc.noConfusion, ?_, hm.closed, ?_, ?_, hm.dels, hm.hold⟩⟩
      · have hp := hm.dirs p (List.mem_cons_self ..)
        have hid : R id := hm.closed p n id hp (hm.pend (p, n, id) (List.mem_cons_of_mem _ (List.mem_cons_self ..)))
        intro d hd
        rcases List.mem_cons.1 hd with rfl | hd
        · exact hp
        · rcases List.mem_cons.1 hd with rfl | hd
          · exact hid
          · split at hd
            · exact hm.dirs d (List.mem_cons_of_mem _ hd)
            · rcases List.mem_cons.1 hd with rfl | hd
              · exact hp
              · exact hm.dirs d (List.mem_cons_of_mem _ hd)
      · intro e he
        rcases List.mem_cons.1 he with rfl | he
        · exact hm.pend _ (List.mem_cons_self ..)
        · exact hm.pend e (List.mem_cons_of_mem _ (List.mem_cons_of_mem _ he))
      · intro p' t' full' re' q' e
        cases e
        have := hm.nodup _ _ _ _ _ rfl
        rw [List.map_cons, List.nodup_cons] at this
        exact this.2
    · cases he
    · cases he
  | @row s s' K p id n t full re del q now _ hc hr ih =>
    obtain ⟨hn, hh, hm | ⟨e, he, _⟩ | ⟨he, _⟩⟩ := ih
    · obtain ⟨L, g⟩ := hh.good
      have hch : s.db.child p n = some id := hm.pend (p, n, id) (List.mem_cons_of_mem _ (List.mem_cons_self ..))
      have hnn : n ≠ ctrlName := by rintro rfl; rw [g.res.ctrl p] at hch; cases hch
      have hp := hm.dirs p (List.mem_cons_self ..)
      rcases remove_spec g.inv hch true now with ⟨e, he, _⟩ | ⟨s2, he, _, _, hinv, hrest, hop, hsq, hchild, hino⟩
      · rw [he] at hr; cases hr
      rw [he] at hr; cases hr
      have hnd := hm.nodup _ _ _ _ _ rfl
      rw [List.map_cons, List.nodup_cons] at hnd
      refine ⟨hn, hh.rmrow hnn (by rw [seenEntry_eq g.inv, if_neg hnn]; exact hch) he, Or.inl ⟨fun _ => RmPc.noConfusion, hm.dirs, ?_, ?_, ?_, ?_, hm.hold⟩⟩
      · intro p' n' c hp' h1
        rw [hchild] at h1
        split at h1
        · cases h1
        · exact hm.closed _ _ _ hp' h1
      · intro e he
        rw [hchild]
        rcases List.mem_cons.1 he with rfl | he
        · rw [if_neg (by rintro ⟨rfl, _⟩; exact hRp hp)]
          exact hm.pend _ (List.mem_cons_self ..)
        · have h1 := hm.pend e (List.mem_cons_of_mem _ (List.mem_cons_of_mem _ he))
          obtain ⟨r, hr, rfl⟩ := List.mem_map.1 he
          rw [if_neg]
          · exact h1
          · rintro ⟨_, h2⟩
            exact hnd.1 (List.mem_map.2 ⟨r, hr, h2⟩)
      · intro p' t' full' re' q' e
        cases e
        exact hnd.2
      · intro e he
        rcases List.mem_cons.1 he with rfl | he
        · exact hp
        · exact hm.dels e he
    · cases he
    · cases he
  | @rowFail s s' K p id n t full re del q now e _ hc hr ih =>
    obtain ⟨hn, hh, hm | ⟨e, he, _⟩ | ⟨he, _⟩⟩ := ih
    · obtain ⟨L, g⟩ := hh.good
      have hch : s.db.child p n = some id := hm.pend (p, n, id) (List.mem_cons_of_mem _ (List.mem_cons_self ..))
      obtain ⟨s2, h2⟩ := remove_ok g.inv hch now hc
      rw [h2] at hr; cases hr
    · cases he
    · cases he
  | @next s K p full re del q _ ih =>
    obtain ⟨hn, hh, hm | ⟨e, he, _⟩ | ⟨he, _⟩⟩ := ih
    · refine ⟨hn, hh, Or.inl ⟨fun _ => RmPc.noConfusion, ?_, hm.closed, ?_, ?_, hm.dels, hm.hold⟩⟩
      · intro d hd
        refine hm.dirs d ?_
        have hd' : d ∈ (if full = true ∧ re = false then p :: q else q) := hd
        split at hd'
        · exact hd'
        · exact List.mem_cons_of_mem _ hd'
      · intro e he
        rw [List.mem_singleton.1 he]
        exact hm.pend _ (List.mem_cons_self ..)
      · intro _ _ _ _ _ e; cases e
    · cases he
    · cases he
  | @lastFail s s' K del now e _ hr ih =>
    obtain ⟨hn, hh, hm | ⟨e, he, _⟩ | ⟨he, _⟩⟩ := ih
    · obtain ⟨L, g⟩ := hh.good
      have hch : s.db.child p0 n0 = some a := hm.pend (p0, n0, a) (List.mem_cons_self ..)
      rcases remove_spec g.inv hch true now with ⟨e, he, h1 | h1⟩ | ⟨s2, he, _⟩
      · rw [he] at hr; cases hr
        exact ⟨hn, hh, Or.inr (Or.inl ⟨_, rfl, hm.dels, hch, h1.1, h1.2⟩)⟩
      · cases h1.2.1
      · rw [he] at hr; cases hr
    · cases he
    · cases he
  | @finish s s' s'' K del now res _ hr hf ih =>
    obtain ⟨hn, hh, hm | ⟨e, he, _⟩ | ⟨he, _⟩⟩ := ih
    · obtain ⟨L, g⟩ := hh.good
      have hch : s.db.child p0 n0 = some a := hm.pend (p0, n0, a) (List.mem_cons_self ..)
      rcases remove_spec g.inv hch true now with ⟨e, he, _⟩ | ⟨s2, he, hnc, _, hinv, hrest, hop, hsq, hchild, hino⟩
      · rw [he] at hr; cases hr
      rw [he] at hr; cases hr
      have hh1 := hh.rmrow hn (by rw [seenEntry_eq g.inv, if_neg hn]; exact hch) he
      obtain ⟨L1, g1⟩ := hh1.good
      have hfo : ForgetOk s'.cnt [(a, 1)] := ⟨by omega, by have := g1.le a; have := hm.hold; omega, trivial⟩
      obtain ⟨s3, he3, hinv3, hF, hcnt3⟩ := forget_spec [(a, 1)] hinv hfo
      rw [he3] at hf; cases hf
      have hs : step s' (.forget [(a, 1)]) = (.ok .unit, s'') := by
        show Fs.finish (forget s' [(a, 1)]) = _
        rw [he3]; rfl
      have hh2 := hh1.step (.forget [(a, 1)]) (show ForgetOk K [(a, 1)] from ⟨by omega, hm.hold, trivial⟩) trivial (fun _ h => h) (fun _ h => h.elim)
      rw [hs] at hh2
      have hK : (fun i => K i + kernelDelta (.forget [(a, 1)]) (.ok .unit) i) = fun i => K i - if i = a then 1 else 0 := by
        funext i
        unfold kernelDelta
        dsimp only
        by_cases e : a = i
        · subst e; simp; omega
        · rw [List.filter_cons_of_neg (by simpa using e), if_neg (fun h => e h.symm)]; simp
      rw [hK] at hh2
      refine ⟨hn, hh2, Or.inr (Or.inr ⟨rfl, ?_, ?_, ?_⟩)⟩
      · intro e he
        rcases List.mem_cons.1 he with rfl | he
        · exact Or.inr rfl
        · exact Or.inl (hm.dels e he)
      · rw [hF.child, hchild, if_pos ⟨rfl, rfl⟩]
      · intro m
        rw [hF.child, hchild]
        split
        · rfl
        · cases hx : s.db.child a m with
          | none => rfl
          | some c => have := (hasChildren_iff_child g.inv a).2 ⟨m, c, hx⟩; rw [hnc] at this; cases this
    · cases he
    · cases he
  | @other s s' K K' del pc _ hpc ho hk hok ih =>
    obtain ⟨hn, hh, hm | ⟨e, he, _⟩ | ⟨he, _⟩⟩ := ih
    · have hh' := ho.hist hh
      obtain ⟨L, g⟩ := hh'.good
      refine ⟨hn, hh', Or.inl ⟨hpc, hm.dirs, ?_, ?_, hm.nodup, hm.dels, hk⟩⟩
      · intro p n c hp hc
        have hnn : n ≠ ctrlName := by rintro rfl; rw [g.res.ctrl p] at hc; cases hc
        exact hok.2 p n c hp hnn (by rw [seenEntry_eq g.inv, if_neg hnn]; exact hc)
      · intro e he
        have := hok.1 e he
        rw [seenEntry_eq g.inv] at this
        have hnn : e.2.1 ≠ ctrlName := by
          intro h0
          obtain ⟨_, g0⟩ := hh.good
          have h1 := hm.pend e he
          rw [h0, g0.res.ctrl] at h1; cases h1
        rw [if_neg hnn] at this
        exact this
    · exact absurd he (hpc _)
    · exact absurd he (hpc _)

/-! #### C23, with other requests in between -/

/-- C23: whatever other requests run while `remove_tree` is at work, as long as they leave alone the entries that it has
read, link counts and all other counts are exact all the time. -/
theorem rmtree_mixed_counts_partial {repl fail : Bool} {R : Nat → Prop} {p0 : Nat} {n0 : Bytes} {a : Nat} (hRa : R a) (hRp : ¬R p0)
    {s : St} {K : Nat → Int} {del : List (Nat × Bytes × Nat)} {pc : RmPc} (h : Removing repl fail (Careful R p0 n0 a) p0 n0 a s K del pc) :
    LinksExact s ∧ EntriesValid s ∧ NoDup s ∧ ObjectsExact s := by
  have h' := (h.good hRa hRp).2.1
  obtain ⟨a, b, c⟩ := links_exact_partial h'
  exact ⟨a, b, c, objects_exact_partial h'⟩

/-- C23: in the same situation `remove_tree` removes, apart from the entry it was called for, only entries of
directories in `R`: no entry outside of the tree is lost. -/
theorem rmtree_mixed_frame_partial {repl fail : Bool} {R : Nat → Prop} {p0 : Nat} {n0 : Bytes} {a : Nat} (hRa : R a) (hRp : ¬R p0)
    {s : St} {K : Nat → Int} {del : List (Nat × Bytes × Nat)} {pc : RmPc} (h : Removing repl fail (Careful R p0 n0 a) p0 n0 a s K del pc)
    {e : Nat × Bytes × Nat} (he : e ∈ del) : R e.1 ∨ e = (p0, n0, a) := by
  obtain ⟨_, _, hm | ⟨_, _, h1, _⟩ | ⟨_, h1, _⟩⟩ := h.good hRa hRp
  · exact Or.inl (hm.dels e he)
  · exact Or.inl (h1 e he)
  · exact h1 e he

/-- C23: when it succeeds, the entry is gone, and so is everything below it. -/
theorem rmtree_mixed_done_partial {repl fail : Bool} {R : Nat → Prop} {p0 : Nat} {n0 : Bytes} {a : Nat} (hRa : R a) (hRp : ¬R p0)
    {s : St} {K : Nat → Int} {del : List (Nat × Bytes × Nat)} (h : Removing repl fail (Careful R p0 n0 a) p0 n0 a s K del (.done (.ok ()))) :
    seenEntry s p0 n0 = none ∧ ∀ m, m ≠ ctrlName → seenEntry s a m = none := by
  obtain ⟨hn, hh, hm | ⟨_, h0, _⟩ | ⟨_, _, h1, h2⟩⟩ := h.good hRa hRp
  · exact absurd rfl (hm.live _)
  · cases h0
  · obtain ⟨L, g⟩ := hh.good
    refine ⟨by rw [seenEntry_eq g.inv, if_neg hn]; exact h1, fun m hm => by rw [seenEntry_eq g.inv, if_neg hm]; exact h2 m⟩

/-- C23: it fails only if the directory was filled again in the meantime.  Then the entry is still there, and the error is
`ENOTEMPTY` (or a crash, if the directory is nested so deeply that `get_path` gives up). -/
theorem rmtree_mixed_fails_partial {repl fail : Bool} {R : Nat → Prop} {p0 : Nat} {n0 : Bytes} {a : Nat} (hRa : R a) (hRp : ¬R p0)
    {s : St} {K : Nat → Int} {del : List (Nat × Bytes × Nat)} {e : Err} (h : Removing repl fail (Careful R p0 n0 a) p0 n0 a s K del (.done (.error e))) :
    seenEntry s p0 n0 = some a ∧ (∃ m c, m ≠ ctrlName ∧ seenEntry s a m = some c) ∧ (e = .ENOTEMPTY ∨ (e = .crash ∧ s.db.getPathOk p0 = false)) := by
  obtain ⟨hn, hh, hm | ⟨e', h0, _, h1, h2, h3⟩ | ⟨h0, _⟩⟩ := h.good hRa hRp
  · exact absurd rfl (hm.live _)
  · cases h0
    obtain ⟨L, g⟩ := hh.good
    obtain ⟨m, c, hc⟩ := (hasChildren_iff_child g.inv a).1 h2
    have hnn : m ≠ ctrlName := by rintro rfl; rw [g.res.ctrl a] at hc; cases hc
    refine ⟨by rw [seenEntry_eq g.inv, if_neg hn]; exact h1, ⟨m, c, hnn, by rw [seenEntry_eq g.inv, if_neg hnn]; exact hc⟩, ?_⟩
    cases hg : s.db.getPathOk p0 with
    | true => left; rw [h3, hg, if_pos rfl]
    | false => right; refine ⟨?_, rfl⟩; rw [h3, hg]; rfl
  · cases h0

end Verif.Fs
