import Verif.Fsck.Keep
/-!
C64: what `check_lof` creates (fsck.py:342-402).
-/
namespace Verif.Fsck
open Verif Verif.Fs

theorem moveRows_inodes {f : CRow → CRow} (l : List Nat) : ∀ {db db' : Db}, db.moveRows f l = some db' → db'.inodes = db.inodes := by
  induction l with
  | nil => intro db db' h; cases h; rfl
  | cons i t ih =>
    intro db db' h
    unfold Db.moveRows at h
    split at h
    · exact ih h
    · split at h
      · cases h
      · rename_i db1 h1
        rw [ih h, (putEntry_some h1).1]

theorem addName_inodes (db : Db) (x : Bool) (n : Bytes) : (db.addName x n).1.inodes = db.inodes := by
  unfold Db.addName
  split
  · split <;> rfl
  · rfl

/-- What a new inode must be: a directory that its owner can use and change, owned by whoever runs fsck. -/
def Usable (cfg : Cfg) (i : Inode) : Prop :=
  isDir i.mode = true ∧ i.mode % 512 = 0o700 ∧ i.locked = false ∧ i.uid = cfg.uid ∧ i.gid = cfg.gid

theorem lofInode_usable (cfg : Cfg) : Usable cfg (lofInode cfg) := ⟨by show isDir (0o040000 ||| 0o700) = true; decide, by show (0o040000 ||| 0o700) % 512 = 0o700; decide, rfl, rfl, rfl⟩

theorem findLof_new {cfg : Cfg} {s s' : St} {id nid : Nat} (h : findLof cfg s = some (s', id, nid)) {k : Nat} {i : Inode} (hk : AL.get s'.db.inodes k = some i) :
    AL.get s.db.inodes k = some i ∨ Usable cfg i := by
  unfold findLof at h
  split at h
  · cases h; exact Or.inl hk
  · split at h
    · split at h
      · cases h
      · rename_i hm
        cases h
        left
        rw [← moveRows_inodes _ hm]; exact hk
    · simp only at h
      split at h
      · cases h
      · rename_i hm
        cases h
        have e : AL.get (AL.set s.db.inodes (s.db.iseq + 1) (lofInode cfg)) k = some i := by
          have : (AL.set s.db.inodes (s.db.iseq + 1) (lofInode cfg)) = ((s.db.createLof cfg).1.addName false lofName).1.inodes := by rw [addName_inodes]; rfl
          rw [this]; rw [(insEntry_some hm).1] at hk; exact hk
        rw [AL.get_set] at e
        split at e
        · cases e; exact Or.inr (lofInode_usable cfg)
        · exact Or.inl e
    · cases h

/-- **C64 (what is created).** An inode that `check_lof` makes is a directory, not immutable, with the rights 0700 for the user that runs fsck; all other inodes are as before. -/
theorem C64_created_usable {cfg : Cfg} {s s' : St} (h : checkLof cfg s = some s') {k : Nat} {i : Inode} (hk : AL.get s'.db.inodes k = some i) :
    AL.get s.db.inodes k = some i ∨ Usable cfg i := by
  unfold checkLof at h
  split at h
  · cases h
  · rename_i s1 id nid hf
    split at h
    · cases h
    · split at h
      · cases h; exact findLof_new hf hk
      · have key : ∀ {k i}, AL.get (s1.db.createLof cfg).1.inodes k = some i → AL.get s.db.inodes k = some i ∨ Usable cfg i := by
          intro k i hk
          have e : AL.get (AL.set s1.db.inodes (s1.db.iseq + 1) (lofInode cfg)) k = some i := hk
          rw [AL.get_set] at e
          split at e
          · cases e; exact Or.inr (lofInode_usable cfg)
          · exact findLof_new hf e
        simp only at h
        split at h
        · cases h; exact key hk
        · cases h; exact key hk

-- The hypotheses can be met: `lost+found` is a file, and a new directory takes its place.
example : ∃ s', checkLof cfg0 stLofFile = some s' ∧ s'.db.inodes.length = stLofFile.db.inodes.length + 1 :=
  ⟨(checkLof cfg0 stLofFile).getD stLofFile, by decide +kernel, by decide +kernel⟩

end Verif.Fsck
