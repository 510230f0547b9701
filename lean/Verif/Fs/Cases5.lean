/-
Cases for the theorems in `TreeMix`, and what goes wrong when other requests touch the entries that `remove_tree` has read.
-/
import Verif.Fs.Cases3
import Verif.Fs.TreeMix

namespace Verif.Fs

/-- Nothing is assumed of the other requests. -/
def anyway : RmPc → St → St → Prop := fun _ _ _ => True

def nH : Bytes := [104]

theorem Removing.req {ok : RmPc → St → St → Prop} {p0 : Nat} {n0 : Bytes} {a : Nat} {s : St} {K : Nat → Int} {del : List (Nat × Bytes × Nat)} {pc : RmPc}
    (h : Removing false false ok p0 n0 a s K del pc) (op : Op) (hpc : ∀ res, pc ≠ .done res) (hq : Req K s op) (hh : Handled s op) (hr : ¬Replaces s op)
    (hok : isOk (step s op).1 = true) (hk : 1 ≤ K a + kernelDelta op (step s op).1 a) (ho : ok pc s (step s op).2) :
    Removing false false ok p0 n0 a (step s op).2 (fun i => K i + kernelDelta op (step s op).1 i) del pc :=
  h.other hpc (.step op hq hh (fun _ => hr) (fun _ _ => okE hok)) hk ho

/-- `mkdir /d; mknod /d/f; mknod /d/g; mknod /h`, and the kernel has forgotten `/d/f`. -/
def mixStory : List Op := [
  .mknod 1 nD 0o40755 0 7 7 10, .mknod 4 nF 0o100644 0 7 7 11, .mknod 4 nG 0o100644 0 7 7 12, .mknod 1 nH 0o100644 0 7 7 13, .forget [(5, 1)]]

def mixSt : St := run s0 mixStory
def mixK : Nat → Int := runK s0 k0 mixStory
/-- `remove_tree` of `/d` has looked it up. -/
def mixSt1 : St := mixSt.addOpen 4 1
def mixK1 : Nat → Int := fun i => mixK i + if i = 4 then 1 else 0
/-- It has removed `/d/f`, the first of the two rows that it has read. -/
def mixSt2 : St := (remove mixSt1 4 nF 5 true 20).2

theorem mix_hist : Hist false false mixSt mixK := hist0 mixStory (by decide +kernel)

theorem mix_row {ok : RmPc → St → St → Prop} (h : ok (.top [4]) mixSt mixSt1) :
    Removing false false ok 1 nD 4 mixSt2 mixK1 [(4, nF, 5)] (.rows 4 [(nG, 6)] true false []) := by
  have h1 : Removing false false ok 1 nD 4 mixSt1 mixK1 [] (.top [4]) :=
    .start (ip := (AL.get mixSt.db.inodes 1).getD ⟨0, 0, 0, 0, 0, 0, 0, 0, 0, false⟩) mix_hist (by decide +kernel) (by decide) (by decide +kernel)
      (by decide +kernel) (by decide +kernel) (by decide +kernel) h
  have h2 := h1.read (batch := 2) (chunk := [(nF, 5, 20), (nG, 6, 22)]) (by decide) ⟨[], by decide +kernel, by decide +kernel⟩
  have h3 := h2.row (now := 20) (s' := mixSt2) (by decide +kernel) (by
    have : (remove mixSt1 4 nF 5 true 20).1 = .ok () := by decide +kernel
    rw [← this]; rfl)
  exact h3

/-- C23 fails if an entry that `remove_tree` has read is removed before it gets to it: the name is not found, which is an
uncaught exception in the file system process. -/
theorem rmtree_stale_crashes : ∃ s K del, Removing false false anyway 1 nD 4 s K del (.done (.error .crash)) := by
  have h := (mix_row (ok := anyway) trivial).req (.unlink 4 nG 21) (fun _ => RmPc.noConfusion) (by decide +kernel) (by decide +kernel) (by decide +kernel)
    (by decide +kernel) (by decide +kernel) trivial
  refine ⟨_, _, _, h.rowFail (now := 22) (s' := (remove (step mixSt2 (.unlink 4 nG 21)).2 4 nG 6 true 22).2) (by decide +kernel) ?_⟩
  have : (remove (step mixSt2 (.unlink 4 nG 21)).2 4 nG 6 true 22).1 = .error .crash := by decide +kernel
  rw [← this]

/-- C23 fails if such an entry is replaced: here `mv /h /d/g` comes between.  `remove_tree` removes the new entry, but counts
this as a link less of the old file.  The file that was `/h` is left without any entry although its link count is
one, and the link count of the old file, which is still open, becomes negative. -/
theorem rmtree_stale_loses_file : ∃ s K del pc, Removing false false anyway 1 nD 4 s K del pc ∧ ¬LinksExact s ∧
    entriesTo s 7 = 0 ∧ (seenAttr s 7).map (·.refcount) = some 1 ∧ (seenAttr s 6).map (·.refcount) = some (-1) := by
  have h := (mix_row (ok := anyway) trivial).req (.rename 1 nH 4 nG 0 21) (fun _ => RmPc.noConfusion)
    (by
      refine ⟨by decide +kernel, by decide +kernel, Or.inr ⟨1, nD, by decide, by decide +kernel⟩, fun _ _ b hb => ?_⟩
      have e : seenEntry mixSt2 1 nH = some 7 := by decide +kernel
      rw [e] at hb; cases hb; decide +kernel)
    (by decide +kernel) (by decide +kernel) (by decide +kernel) (by decide +kernel) trivial
  have h2 := h.row (now := 22) (s' := (remove (step mixSt2 (.rename 1 nH 4 nG 0 21)).2 4 nG 6 true 22).2) (by decide +kernel) (by
    have : (remove (step mixSt2 (.rename 1 nH 4 nG 0 21)).2 4 nG 6 true 22).1 = .ok () := by decide +kernel
    rw [← this])
  exact ⟨_, _, _, _, h2, by decide +kernel, by decide +kernel, by decide +kernel, by decide +kernel⟩

/-- C23 fails if the directory itself is renamed while `remove_tree` runs: at the end its old name is not found. -/
theorem rmtree_renamed_crashes : ∃ s K del, Removing false false anyway 1 nD 4 s K del (.done (.error .crash)) := by
  have h := (mix_row (ok := anyway) trivial).req (.rename 1 nD 1 nT 0 21) (fun _ => RmPc.noConfusion)
    (by
      refine ⟨by decide +kernel, by decide +kernel, Or.inl rfl, fun _ _ b hb => ?_⟩
      have e : seenEntry mixSt2 1 nT = none := by decide +kernel
      rw [e]; exact fun h => by cases h)
    (by decide +kernel) (by decide +kernel) (by decide +kernel) (by decide +kernel) trivial
  have h2 := h.row (now := 22) (s' := (remove (step mixSt2 (.rename 1 nD 1 nT 0 21)).2 4 nG 6 true 22).2) (by decide +kernel) (by
    have : (remove (step mixSt2 (.rename 1 nD 1 nT 0 21)).2 4 nG 6 true 22).1 = .ok () := by decide +kernel
    rw [← this])
  have h3 := h2.next.read (batch := 2) (chunk := []) (by decide) ⟨[], by decide +kernel, by decide +kernel⟩
  have h4 := h3.next
  refine ⟨_, _, _, h4.lastFail (now := 23)
    (s' := (remove (remove (step mixSt2 (.rename 1 nD 1 nT 0 21)).2 4 nG 6 true 22).2 1 nD 4 true 23).2) ?_⟩
  have : (remove (remove (step mixSt2 (.rename 1 nD 1 nT 0 21)).2 4 nG 6 true 22).2 1 nD 4 true 23).1 = .error .crash := by decide +kernel
  rw [← this]

/-! #### A directory that is moved out of the tree -/

/-- `mkdir /d; mkdir /d/g; mknod /d/g/f`. -/
def outStory : List Op := [.mknod 1 nD 0o40755 0 7 7 10, .mknod 4 nG 0o40755 0 7 7 11, .mknod 5 nF 0o100644 0 7 7 12]

def outSt : St := run s0 outStory
def outK : Nat → Int := runK s0 k0 outStory
def outSt1 : St := outSt.addOpen 4 1
/-- `mv /d/g /t`, then `touch /t/h`. -/
def outSt2 : St := (step outSt1 (.rename 4 nG 1 nT 0 20)).2
def outSt3 : St := (step outSt2 (.mknod 5 nH 0o100644 0 7 7 21)).2
def outSt4 : St := (remove outSt3 5 nH 7 true 22).2

/-- C23 fails if a directory is moved out of the tree while `remove_tree` has it on its stack: it is emptied all the same.
Here this hits `/t/h`, a file that was created when its directory had nothing to do with `/d` any more. -/
theorem rmtree_follows_moved : ∃ s K del pc, Removing false false anyway 1 nD 4 s K del pc ∧ (5, nH, 7) ∈ del ∧
    seenEntry outSt3 1 nT = some 5 ∧ seenEntry outSt3 5 nH = some 7 ∧ seenEntry outSt2 5 nH = none ∧ ¬Below outSt2 4 5 ∧ seenEntry s 5 nH = none := by
  have hist : Hist false false outSt outK := hist0 outStory (by decide +kernel)
  have h1 : Removing false false anyway 1 nD 4 outSt1 (fun i => outK i + if i = 4 then 1 else 0) [] (.top [4]) :=
    .start (ip := (AL.get outSt.db.inodes 1).getD ⟨0, 0, 0, 0, 0, 0, 0, 0, 0, false⟩) hist (by decide +kernel) (by decide) (by decide +kernel)
      (by decide +kernel) (by decide +kernel) (by decide +kernel) trivial
  have h2 := ((h1.read (batch := 3) (chunk := [(nG, 5, 20)]) (by decide) ⟨[], by decide +kernel, by decide +kernel⟩).sub (by decide +kernel)).next
  have h3 := h2.req (.rename 4 nG 1 nT 0 20) (fun _ => RmPc.noConfusion)
    (by
      refine ⟨by decide +kernel, by decide +kernel, Or.inl rfl, fun _ _ b hb => ?_⟩
      have e : seenEntry outSt1 1 nT = none := by decide +kernel
      rw [e]; exact fun h => by cases h)
    (by decide +kernel) (by decide +kernel) (by decide +kernel) (by decide +kernel) trivial
  have hh2 : Hist false false outSt2 _ := (hist.step (.lookup 1 nD) (by decide +kernel) trivial (fun _ h => h) (fun _ h => h.elim)).step (.rename 4 nG 1 nT 0 20)
    (by
      refine ⟨by decide +kernel, by decide +kernel, Or.inl rfl, fun _ _ b hb => ?_⟩
      have e : seenEntry (step outSt (.lookup 1 nD)).2 1 nT = none := by decide +kernel
      rw [e]; exact fun h => by cases h) trivial (fun _ h => h) (fun _ _ => okE (by decide +kernel))
  have h4 := h3.req (.mknod 5 nH 0o100644 0 7 7 21) (fun _ => RmPc.noConfusion) (by decide +kernel) (by decide +kernel) (by decide +kernel)
    (by decide +kernel) (by decide +kernel) trivial
  have h5 := h4.read (p := 5) (batch := 3) (chunk := [(nH, 7, 22), (nF, 6, 23)]) (by decide) ⟨[], by decide +kernel, by decide +kernel⟩
  have h6 := h5.row (now := 22) (s' := outSt4) (by decide +kernel) (by
    have : (remove outSt3 5 nH 7 true 22).1 = .ok () := by decide +kernel
    rw [← this]; rfl)
  refine ⟨_, _, _, _, h6, List.mem_cons_self .., by decide +kernel, by decide +kernel, by decide +kernel, ?_, by decide +kernel⟩
  intro hb
  have := below_sub hh2 [4] (by decide) (by decide +kernel) hb
  revert this; decide

/-! #### A case that meets the hypotheses -/

theorem within_of {repl fail : Bool} {s : St} {K : Nat → Int} (h : Hist repl fail s K) (l : List Nat)
    (hl : ∀ e ∈ s.db.contents, e.1.1 ∈ l → e.2 ∈ l) : Within (· ∈ l) s := by
  intro p n c hp hn hc
  obtain ⟨k, hk⟩ := entry_row h hn hc
  exact hl _ hk hp

/-- While `/d` is removed, another process creates `/d/h`; it is removed as well, and `remove_tree` succeeds. -/
example : ∃ s K del, Removing false false (Careful (· ∈ [4, 5, 6, 8]) 1 nD 4) 1 nD 4 s K del (.done (.ok ())) ∧ (4, nH, 8) ∈ del ∧ (4, nF, 5) ∈ del := by
  have hh1 := mix_hist.step (.lookup 1 nD) (by decide +kernel) trivial (fun _ h => h) (fun _ h => h.elim)
  have h := mix_row (ok := Careful (· ∈ [4, 5, 6, 8]) 1 nD 4) ⟨by unfold Unstale; decide +kernel, within_of hh1 _ (by decide +kernel)⟩
  obtain ⟨_, hh2, _⟩ := h.good (by decide) (by decide)
  have hh3 := hh2.step (.mknod 4 nH 0o100644 0 7 7 21) (by decide +kernel) trivial (fun _ h => h) (fun _ h => h.elim)
  have h2 := h.req (.mknod 4 nH 0o100644 0 7 7 21) (fun _ => RmPc.noConfusion) (by decide +kernel) (by decide +kernel) (by decide +kernel)
    (by decide +kernel) (by decide +kernel) ⟨by unfold Unstale; decide +kernel, within_of hh3 _ (by decide +kernel)⟩
  have h3 := h2.row (now := 22) (s' := (remove (step mixSt2 (.mknod 4 nH 0o100644 0 7 7 21)).2 4 nG 6 true 22).2) (by decide +kernel) (by
    have : (remove (step mixSt2 (.mknod 4 nH 0o100644 0 7 7 21)).2 4 nG 6 true 22).1 = .ok () := by decide +kernel
    rw [← this])
  generalize hs3 : (remove (step mixSt2 (.mknod 4 nH 0o100644 0 7 7 21)).2 4 nG 6 true 22).2 = s3 at h3
  have h4 := h3.next.read (batch := 2) (chunk := [(nH, 8, 23)]) (by decide) ⟨[], by rw [← hs3]; decide +kernel, by rw [← hs3]; decide +kernel⟩
  have h5 := h4.row (now := 23) (s' := (remove s3 4 nH 8 true 23).2) (by rw [← hs3]; decide +kernel) (by
    have : (remove s3 4 nH 8 true 23).1 = .ok () := by rw [← hs3]; decide +kernel
    rw [← this])
  generalize hs5 : (remove s3 4 nH 8 true 23).2 = s5 at h5
  have h6 := h5.next.finish (now := 24) (s' := (remove s5 1 nD 4 true 24).2) (res := .ok ()) (s'' := (forget (remove s5 1 nD 4 true 24).2 [(4, 1)]).2) (by
    have : (remove s5 1 nD 4 true 24).1 = .ok () := by rw [← hs5, ← hs3]; decide +kernel
    rw [← this]) (by
    have : (forget (remove s5 1 nD 4 true 24).2 [(4, 1)]).1 = .ok () := by rw [← hs5, ← hs3]; decide +kernel
    rw [← this])
  exact ⟨_, _, _, h6, by decide, by decide⟩

end Verif.Fs
