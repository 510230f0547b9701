/-
Cases that meet the hypotheses of the theorems in `Props3` and `Listing`.
-/
import Verif.Fs.Cases
import Verif.Fs.Props3
import Verif.Fs.Listing

namespace Verif.Fs

/-! #### C21 -/

/-- Reading a damaged block turns the failsafe mode on; creating a file is refused then, and nothing changes. -/
example : ∃ s K, Hist false false s K ∧ s.failsafe = true ∧ modifying (.mknod 1 nG 0o100644 0 7 7 20) ∧
    plainArgs s (.mknod 1 nG 0o100644 0 7 7 20) ∧ seenEntry s 1 nF = some 4 :=
  ⟨run s0 [.mknod 1 nF 0o100644 0 7 7 10, .write 4 0 25 false 14, .read 4 true 15], _, hist0 _ (by decide +kernel),
    by decide +kernel, trivial, by simp [plainArgs], by decide +kernel⟩

/-- Before, it is not. -/
example : (step (run s0 [.mknod 1 nF 0o100644 0 7 7 10]) (.mknod 1 nG 0o100644 0 7 7 20)).1 ≠ .error .EPERM := by decide +kernel

/-! #### C56 -/

def openStory : List Op := [.mknod 1 nF 0o100644 0 7 7 10, .write 4 0 25 false 14, .upload 4 0 1, .upload 4 1 2]

/-- Opening a file of 25 bytes with `O_WRONLY | O_TRUNC` empties it. -/
example : (step (run s0 openStory) (.open 4 (1 + 512) 20)).1 = .ok (.fh 4) ∧ (seenAttr (run s0 openStory) 4).map (·.size) = some 25 ∧
    (seenAttr (step (run s0 openStory) (.open 4 (1 + 512) 20)).2 4).map (·.size) = some 0 ∧ (513 : Nat).testBit 9 = true := by decide +kernel

example : (step (run s0 openStory) (.open 4 512 20)).1 = .error .EINVAL := by decide +kernel

/-! #### C25 -/

/-- A listing in three parts: while it goes on, a file that has been listed is deleted and one is added. -/
theorem listing1 : ∃ s K off acc, Listing 1 nG s K off acc ∧ 0 < K 1 ∧ (step s (.readdir 1 off 5 30)).1 = .ok (.dir []) ∧
    acc.map (·.1) = [lostFound, nF, nG, nX] := by
  let s1 := run s0 [.mknod 1 nF 0o100644 0 7 7 10, .mknod 1 nG 0o100644 0 7 7 11]
  have h1 := hist0 (repl := false) (fail := false) [.mknod 1 nF 0o100644 0 7 7 10, .mknod 1 nG 0o100644 0 7 7 11] (by decide +kernel)
  have l1 : Listing 1 nG s1 _ 0 [] := Listing.start h1 (by decide +kernel)
  have r2 : (step s1 (.readdir 1 0 2 12)).1 = .ok (.dir [(lostFound, 3, 4), (nF, 4, 5)]) := by decide +kernel
  have l2 := Listing.part 2 12 l1 (by decide +kernel) r2
  have l3 := Listing.other (.unlink 1 nF 13) l2 (by decide +kernel) (by decide +kernel) (by decide +kernel)
  have l4 := Listing.other (.mknod 1 nX 0o100644 0 7 7 14) l3 (by decide +kernel) (by decide +kernel) (by decide +kernel)
  have r5 : (step (run s1 [.readdir 1 0 2 12, .unlink 1 nF 13, .mknod 1 nX 0o100644 0 7 7 14]) (.readdir 1 5 9 15)).1 =
      .ok (.dir [(nG, 5, 6), (nX, 6, 7)]) := by decide +kernel
  have l5 := Listing.part 9 15 l4 (by decide +kernel) r5
  exact ⟨_, _, _, _, l5, by decide +kernel, by decide +kernel, rfl⟩

end Verif.Fs
