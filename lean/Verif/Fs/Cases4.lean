/-
Cases that meet the hypotheses of the theorems in `Attrs`.
-/
import Verif.Fs.Cases
import Verif.Fs.Attrs

namespace Verif.Fs

def attrStory : List Op := [.mknod 1 nF 0o100644 0 7 7 10, .write 4 0 25 false 14, .read 4 false 15, .read 4 false 16, .link 4 1 nG 20]

/-- **C61** in a history: a file is created, written, read twice and linked.  The second read does not change the access
time; the unlinking of one name changes the link count and the change time. -/
example : ∃ s K r s' a b, Hist false false s K ∧ step s (.unlink 1 nF 30) = (.ok r, s') ∧ seenAttr s 4 = some a ∧ seenAttr s' 4 = some b ∧
    a.atime = 15 ∧ a.mtime = 14 ∧ a.ctime = 20 ∧ a.refcount = 2 ∧ b.refcount = 1 ∧ b.ctime = 30 ∧ b.mtime = 14 :=
  ⟨run s0 attrStory, _, _, _, _, _, hist0 _ (by decide +kernel), Prod.ext (show (step (run s0 attrStory) (.unlink 1 nF 30)).1 = .ok .unit by decide +kernel) rfl,
    (show seenAttr (run s0 attrStory) 4 = some ⟨0o100644, 7, 7, 14, 15, 20, 2, 25, 0, false⟩ by decide +kernel),
    (show seenAttr (step (run s0 attrStory) (.unlink 1 nF 30)).2 4 = some ⟨0o100644, 7, 7, 14, 15, 30, 1, 25, 0, false⟩ by decide +kernel),
    by decide, by decide, by decide, by decide, by decide, by decide, by decide⟩

/-- A file in a setgid directory gets the group of the directory. -/
example : ((step (run s0 [.mknod 1 nF 0o42755 0 7 9 10]) (.mknod 4 nG 0o100644 0 7 8 11)).1 =
    .ok (.entry 5 ⟨0o100644, 7, 9, 11, 11, 11, 1, 0, 0, false⟩)) ∧
    ((step (run s0 [.mknod 1 nF 0o42755 0 7 9 10]) (.mknod 4 nG 0o40644 0 7 8 11)).1 =
    .ok (.entry 5 ⟨0o42644, 7, 9, 11, 11, 11, 1, 0, 0, false⟩)) := by decide +kernel

end Verif.Fs
