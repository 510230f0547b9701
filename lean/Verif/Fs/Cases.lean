/-
Concrete histories: cases that meet the hypotheses of the theorems in `Props`, and the cases in which the properties
C16-C20 and C60 fail.
-/
import Verif.Fs.Props

namespace Verif.Fs

deriving instance DecidableEq for Except

instance (s : St) : Decidable (NamesExact s) := by unfold NamesExact; infer_instance
instance (s : St) : Decidable (EntriesValid s) := by unfold EntriesValid; infer_instance
instance (s : St) : Decidable (LinksExact s) := by unfold LinksExact; infer_instance

/-! #### Deciding requests -/

instance decForget : (l : List (Nat × Int)) → (c : Nat → Int) → Decidable (ForgetOk c l)
  | [], _ => isTrue trivial
  | (id, n) :: t, c =>
    have := decForget t (fun i => c i - if i = id then n else 0)
    (inferInstance : Decidable (0 < n ∧ n ≤ c id ∧ ForgetOk (fun i => c i - if i = id then n else 0) t))

noncomputable instance (K : Nat → Int) (s : St) (op : Op) : Decidable (Req K s op) := by
  cases op
  case rename => exact Classical.propDecidable _
  all_goals (unfold Req; infer_instance)

instance (s : St) (op : Op) : Decidable (Handled s op) := by
  cases op <;> (unfold Handled; infer_instance)

instance (s : St) (op : Op) : Decidable (Replaces s op) := by
  cases op <;> (unfold Replaces; infer_instance)

instance (op : Op) : Decidable (looksUp op) := by
  cases op <;> (unfold looksUp; infer_instance)

def isOk : Except Err Reply → Bool
  | .ok _ => true
  | .error _ => false

/-- The requests are such as `Hist` admits. -/
def Fine (repl fail : Bool) : St → (Nat → Int) → List Op → Prop
  | _, _, [] => True
  | s, K, op :: t => (Req K s op ∧ Handled s op ∧ (repl = false → ¬Replaces s op) ∧ (fail = false → looksUp op → isOk (step s op).1 = true)) ∧
      Fine repl fail (step s op).2 (fun i => K i + kernelDelta op (step s op).1 i) t

noncomputable instance decFine (repl fail : Bool) : (l : List Op) → (s : St) → (K : Nat → Int) → Decidable (Fine repl fail s K l)
  | [], _, _ => isTrue trivial
  | op :: t, s, K =>
    have := decFine repl fail t (step s op).2 (fun i => K i + kernelDelta op (step s op).1 i)
    (inferInstance : Decidable ((Req K s op ∧ Handled s op ∧ (repl = false → ¬Replaces s op) ∧ (fail = false → looksUp op → isOk (step s op).1 = true)) ∧
      Fine repl fail (step s op).2 (fun i => K i + kernelDelta op (step s op).1 i) t))

/-- What the kernel knows after some requests. -/
def runK : St → (Nat → Int) → List Op → Nat → Int
  | _, K, [] => K
  | s, K, op :: t => runK (step s op).2 (fun i => K i + kernelDelta op (step s op).1 i) t

theorem Hist.run {repl fail : Bool} : ∀ (l : List Op) {s : St} {K : Nat → Int}, Hist repl fail s K → Fine repl fail s K l →
    Hist repl fail (Fs.run s l) (runK s K l)
  | [], _, _, h, _ => h
  | op :: t, s, K, h, hf => by
    refine Hist.run t (Hist.step op h hf.1.1 hf.1.2.1 hf.1.2.2.1 ?_) hf.2
    intro h1 h2
    have := hf.1.2.2.2 h1 h2
    cases hr : (Fs.step s op).1 with
    | ok r => exact ⟨r, rfl⟩
    | error e => rw [hr] at this; cases this

/-- A new file system, with small blocks. -/
def s0 : St := init 1000 100 5 10
def k0 : Nat → Int := fun i => if i = rootInode then 1 else 0

theorem hist0 {repl fail : Bool} (l : List Op) (h : Fine repl fail s0 k0 l) : Hist repl fail (run s0 l) (runK s0 k0 l) :=
  Hist.run l (Hist.init 1000 100 5 10 (by decide)) h

/-! #### A non-trivial history -/

def nD : Bytes := [100]
def nF : Bytes := [102]
def nG : Bytes := [103]
def nX : Bytes := [117, 115, 101, 114, 46, 120]

/-- `mkdir /d; mknod /d/f; ln /d/f /g; ln -s f /d/f2; write; setxattr; upload; listing; unlink /g; open file kept`. -/
def story : List Op := [
  .mknod 1 nD 0o40755 0 7 7 10, .mknod 4 nF 0o100644 0 7 7 11, .link 5 1 nG 12, .symlink 4 nX nF 7 7 13,
  .write 5 0 25 false 14, .upload 5 0 1, .upload 5 2 1, .setxattr 5 nX [1, 2] 15, .setattr 5 { size := some 12 } false false 16,
  .readdir 4 0 10 17, .unlink 1 nG 18, .unlink 4 nF 19, .read 5 false 20]

theorem story_fine : Fine false false s0 k0 story := by decide +kernel

theorem story_hist : Hist false false (run s0 story) (runK s0 k0 story) := hist0 story story_fine

/-- The file of the story is deleted, but open, and still has its attribute, its size and one of its blocks. -/
example : entriesTo (run s0 story) 5 = 0 ∧ 0 < runK s0 k0 story 5 ∧ seenXattr (run s0 story) 5 nX = some [1, 2] ∧
    (seenAttr (run s0 story) 5).map (·.size) = some 12 ∧ AL.get (run s0 story).db.blocks (5, 0) = some 1 ∧
    AL.get (run s0 story).db.blocks (5, 2) = none := by decide +kernel

/-- When the kernel forgets it, everything is gone. -/
example : Fine false false s0 k0 (story ++ [.forget [(5, 3)]]) ∧ seenAttr (run s0 (story ++ [.forget [(5, 3)]])) 5 = none ∧
    (run s0 (story ++ [.forget [(5, 3)]])).db.objects = [] := by decide +kernel

/-- A rename that replaces a file. -/
example : ∃ K op, Hist false false (run s0 [.mknod 1 nF 0o100644 0 7 7 10, .mknod 1 nG 0o100644 0 7 7 11]) K ∧
    Req K (run s0 [.mknod 1 nF 0o100644 0 7 7 10, .mknod 1 nG 0o100644 0 7 7 11]) op ∧
    isOk (step (run s0 [.mknod 1 nF 0o100644 0 7 7 10, .mknod 1 nG 0o100644 0 7 7 11]) op).1 = true ∧
    seenEntry (step (run s0 [.mknod 1 nF 0o100644 0 7 7 10, .mknod 1 nG 0o100644 0 7 7 11]) op).2 1 nG = some 4 :=
  ⟨_, .rename 1 nF 1 nG 0 12, hist0 _ (by decide +kernel),
    ⟨by decide +kernel, by decide +kernel, Or.inl rfl, fun _ _ a ha => by
      have h1 : seenEntry (run s0 [.mknod 1 nF 0o100644 0 7 7 10, .mknod 1 nG 0o100644 0 7 7 11]) 1 nF = some 4 := by decide +kernel
      have h2 : seenEntry (run s0 [.mknod 1 nF 0o100644 0 7 7 10, .mknod 1 nG 0o100644 0 7 7 11]) 1 nG = some 5 := by decide +kernel
      rw [h1] at ha; cases ha; rw [h2]; decide⟩, by decide +kernel, by decide +kernel⟩

/-! #### Removing an attribute that is not set (C16, C17, C18, C19 fail) -/

/-- Removing the attribute `lost+found` of any file, which fails with ENOATTR, destroys the directory of that name: its
entry refers to a name that is gone, and it cannot be looked up any more. -/
theorem removexattr_destroys_entry : ∃ s K op, Hist false false s K ∧ Req K s op ∧ (step s op).1 = .error .ENOATTR ∧
    seenEntry s 1 lostFound = some 3 ∧ seenEntry (step s op).2 1 lostFound = none ∧ ¬EntriesValid (step s op).2 := by
  refine ⟨s0, k0, .removexattr 1 lostFound 6, hist0 [] (by decide), ?_⟩
  decide +kernel

/-- It can also destroy an attribute of another file. -/
theorem removexattr_destroys_xattr : ∃ s K op, Hist false false s K ∧ Req K s op ∧ (step s op).1 = .error .ENOATTR ∧
    op = .removexattr 1 nX 20 ∧ seenXattr s 4 nX = some [1] ∧ seenXattr (step s op).2 4 nX = none := by
  refine ⟨run s0 [.mknod 1 nF 0o100644 0 7 7 10, .setxattr 4 nX [1] 11], _, .removexattr 1 nX 20, hist0 _ (by decide +kernel), by decide +kernel, by decide +kernel, rfl, ?_⟩
  decide +kernel

/-- And the count of a name with several uses becomes too small. -/
theorem removexattr_breaks_count : ∃ s K op, Hist false false s K ∧ Req K s op ∧ ¬NamesExact (step s op).2 := by
  refine ⟨run s0 [.mknod 1 nF 0o100644 0 7 7 10, .mknod 1 nD 0o40755 0 7 7 10, .mknod 5 nF 0o100644 0 7 7 11], _, .removexattr 1 nF 20, hist0 _ (by decide +kernel), ?_⟩
  decide +kernel

/-! #### Replacing an attribute (C17 fails) -/

/-- Setting an attribute twice and removing it leaves its name in the table, with a count of one and no use. -/
theorem setxattr_leaks_name : ∃ s K, Hist true false s K ∧ ¬NamesExact s ∧
    (∃ r ∈ s.db.names, r.2.1 = nX ∧ r.2.2 = 1 ∧ usesOf s r.1 = 0) := by
  refine ⟨run s0 [.setxattr 1 nX [1] 10, .setxattr 1 nX [2] 11, .removexattr 1 nX 12], _, hist0 _ (by decide +kernel), ?_⟩
  decide +kernel

/-! #### A failing request keeps a deleted directory (C20 fails) -/

/-- After a `rmdir` that fails because the directory is not empty, the inode of the directory stays in the database until
the file system is unmounted, although it has been removed and the kernel has forgotten it. -/
theorem rmdir_leaks_inode : ∃ s K, Hist false true s K ∧ (∀ i, i ≠ rootInode → K i = 0) ∧ entriesTo s 4 = 0 ∧ seenAttr s 4 ≠ none := by
  refine ⟨run s0 [.mknod 1 nD 0o40755 0 7 7 10, .mknod 4 nF 0o100644 0 7 7 11, .rmdir 1 nD 12, .unlink 4 nF 13, .rmdir 1 nD 14, .forget [(4, 1), (5, 1)]],
    _, hist0 _ (by decide +kernel), ?_, by decide +kernel, by decide +kernel⟩
  intro i hi
  have h1 : (step s0 (.mknod 1 nD 0o40755 0 7 7 10)).1 = .ok (.entry 4 ⟨0o40755, 7, 7, 10, 10, 10, 1, 0, 0, false⟩) := by decide +kernel
  have h2 : (step (step s0 (.mknod 1 nD 0o40755 0 7 7 10)).2 (.mknod 4 nF 0o100644 0 7 7 11)).1 = .ok (.entry 5 ⟨0o100644, 7, 7, 11, 11, 11, 1, 0, 0, false⟩) := by decide +kernel
  have h6 : (step (run s0 [.mknod 1 nD 0o40755 0 7 7 10, .mknod 4 nF 0o100644 0 7 7 11, .rmdir 1 nD 12, .unlink 4 nF 13, .rmdir 1 nD 14]) (.forget [(4, 1), (5, 1)])).1 = .ok .unit := by decide +kernel
  simp only [run, List.foldl_cons, List.foldl_nil] at h6
  simp only [runK, h1, h2, h6, kernelDelta, k0, if_neg hi]
  by_cases h4 : i = 4
  · subst h4; decide
  · by_cases h5 : i = 5
    · subst h5; decide
    · rw [if_neg h4, if_neg h5, List.filter_cons_of_neg (by simpa using fun e => h4 e.symm), List.filter_cons_of_neg (by simpa using fun e => h5 e.symm)]
      rfl

/-! #### Removing the control file (C60 fails) -/

/-- `rm .__s3ql__ctrl__`, in any directory, ends the file system process with an uncaught exception. -/
theorem unlink_ctrl_crashes : ∃ s K op, Hist false false s K ∧ Req K s op ∧ op = .unlink 1 ctrlName 6 ∧ (step s op).1 = .error .crash := by
  refine ⟨s0, k0, .unlink 1 ctrlName 6, hist0 [] (by decide), by decide +kernel, rfl, ?_⟩
  decide +kernel

/-- If an extended attribute has that name, the control file loses a link instead, and the name of the attribute goes. -/
theorem unlink_ctrl_breaks_links : ∃ s K op, Hist false false s K ∧ Req K s op ∧ op = .unlink 1 ctrlName 6 ∧
    (step s op).1 = .ok .unit ∧ ¬LinksExact (step s op).2 ∧ seenXattr s 1 ctrlName = some [1] ∧ seenXattr (step s op).2 1 ctrlName = none := by
  refine ⟨run s0 [.setxattr 1 ctrlName [1] 5], _, .unlink 1 ctrlName 6, hist0 _ (by decide +kernel), by decide +kernel, rfl, ?_⟩
  decide +kernel

end Verif.Fs
