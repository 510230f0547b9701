/-
The invariant behind the properties of the directory tree: no loops, one entry per directory, and types that agree with
the tables.
-/
import Verif.Fs.ShapeSpec
import Verif.Fs.Attrs

namespace Verif.Fs

/-! #### Maps of entries -/

abbrev EMap := Nat → Bytes → Option Nat

/-- Numbers that grow along entries exist. -/
def Ranked (m : EMap) : Prop := ∃ r : Nat → Nat, ∀ p n c, m p n = some c → r p < r c

/-- Every inode of `D` has at most one entry. -/
def OneEntry (m : EMap) (D : Nat → Prop) : Prop :=
  ∀ p n q k c, D c → m p n = some c → m q k = some c → p = q ∧ n = k

inductive MBelow (m : EMap) (a : Nat) : Nat → Prop
  | refl : MBelow m a a
  | entry {b c : Nat} {n : Bytes} : MBelow m a b → m b n = some c → MBelow m a c

theorem Ranked.sub {m m' : EMap} (h : Ranked m) (hs : ∀ p n c, m' p n = some c → m p n = some c) : Ranked m' := by
  obtain ⟨r, hr⟩ := h
  exact ⟨r, fun p n c hc => hr p n c (hs p n c hc)⟩

theorem OneEntry.sub {m m' : EMap} {D D' : Nat → Prop} (h : OneEntry m D) (hs : ∀ p n c, m' p n = some c → m p n = some c)
    (hD : ∀ p n c, m' p n = some c → D' c → D c) : OneEntry m' D' := by
  intro p n q k c hc h1 h2
  exact h p n q k c (hD _ _ _ h1 hc) (hs _ _ _ h1) (hs _ _ _ h2)

theorem Ranked.leaf {m : EMap} (h : Ranked m) {p : Nat} {n : Bytes} {c : Nat} (hl : ∀ k, m c k = none) (hp : p ≠ c) :
    Ranked (fun p' n' => if p' = p ∧ n' = n then some c else m p' n') := by
  obtain ⟨r, hr⟩ := h
  refine ⟨fun x => if x = c then max (r c) (r p + 1) else r x, ?_⟩
  intro p' n' c' hc
  dsimp only at hc ⊢
  split at hc
  · rename_i h1
    obtain ⟨rfl, rfl⟩ := h1
    cases hc
    rw [if_neg hp, if_pos rfl]; omega
  · have h2 := hr _ _ _ hc
    have h3 : p' ≠ c := by rintro rfl; rw [hl] at hc; cases hc
    rw [if_neg h3]
    split
    · rename_i e; subst e; omega
    · exact h2

theorem Ranked.below {m : EMap} {r : Nat → Nat} (hr : ∀ p n c, m p n = some c → r p < r c) {a b : Nat} (h : MBelow m a b) : r a ≤ r b := by
  induction h with
  | refl => exact Nat.le_refl _
  | entry _ hc ih => have := hr _ _ _ hc; omega

theorem Ranked.noLoop {m : EMap} (h : Ranked m) {a b : Nat} {n : Bytes} (hb : MBelow m a b) : m b n ≠ some a := by
  obtain ⟨r, hr⟩ := h
  intro hc
  have := hr _ _ _ hc
  have := Ranked.below hr hb
  omega

open Classical in
theorem Ranked.move {m : EMap} (h : Ranked m) {po pn : Nat} {no nn : Bytes} {a : Nat} (ha : m po no = some a) (hb : ¬MBelow m a pn) :
    Ranked (fun p' n' => if p' = pn ∧ n' = nn then m po no else if p' = po ∧ n' = no then none else m p' n') := by
  have hno := h
  obtain ⟨r, hr⟩ := h
  refine ⟨fun x => if MBelow m a x then r x + r pn + 1 else r x, ?_⟩
  intro p' n' c' hc
  dsimp only at hc ⊢
  split at hc
  · rename_i h1
    obtain ⟨rfl, rfl⟩ := h1
    rw [ha] at hc; cases hc
    rw [if_neg hb, if_pos MBelow.refl]; omega
  · split at hc
    · cases hc
    · have h2 := hr _ _ _ hc
      by_cases h3 : MBelow m a p'
      · rw [if_pos h3, if_pos (h3.entry hc)]; omega
      · rw [if_neg h3]
        split <;> omega

theorem OneEntry.add {m : EMap} {D D' : Nat → Prop} (h : OneEntry m D) {p : Nat} {n : Bytes} {c : Nat} (hc : ∀ q k, D' c → m q k ≠ some c)
    (hD : ∀ q k x, m q k = some x → D' x → D x) : OneEntry (fun p' n' => if p' = p ∧ n' = n then some c else m p' n') D' := by
  intro p1 n1 p2 n2 x hx h1 h2
  dsimp only at h1 h2
  split at h1
  · rename_i e1
    cases h1
    split at h2
    · rename_i e2; exact ⟨e1.1.trans e2.1.symm, e1.2.trans e2.2.symm⟩
    · exact absurd h2 (hc _ _ hx)
  · split at h2
    · cases h2; exact absurd h1 (hc _ _ hx)
    · exact h _ _ _ _ _ (hD _ _ _ h1 hx) h1 h2

theorem OneEntry.move {m : EMap} {D D' : Nat → Prop} (h : OneEntry m D) {po pn : Nat} {no nn : Bytes} (hD : ∀ q k x, m q k = some x → D' x → D x) :
    OneEntry (fun p' n' => if p' = pn ∧ n' = nn then m po no else if p' = po ∧ n' = no then none else m p' n') D' := by
  intro p1 n1 p2 n2 x hx h1 h2
  dsimp only at h1 h2
  split at h1
  · rename_i e1
    split at h2
    · rename_i e2; exact ⟨e1.1.trans e2.1.symm, e1.2.trans e2.2.symm⟩
    · split at h2
      · cases h2
      · rename_i e3
        exact absurd (h _ _ _ _ _ (hD _ _ _ h1 hx) h2 h1) (by simpa using e3)
  · split at h1
    · cases h1
    · rename_i e3
      split at h2
      · exact absurd (h _ _ _ _ _ (hD _ _ _ h1 hx) h1 h2) (by simpa using e3)
      · split at h2
        · cases h2
        · exact h _ _ _ _ _ (hD _ _ _ h1 hx) h1 h2

/-! #### The invariant -/

structure TypeOk (s : St) (i : Nat) (a : Inode) : Prop where
  typed : a.mode &&& sIFMT ≠ 0
  lnk : isLnk a.mode = true ↔ AL.get s.db.symlinks i ≠ none
  len : ∀ t, AL.get s.db.symlinks i = some t → a.size = t.length
  empty : a.size ≠ 0 → isReg a.mode = true ∨ isLnk a.mode = true
  dev : a.rdev ≠ 0 → isBlk a.mode = true ∨ isChr a.mode = true
  kids : ∀ n c, s.db.child i n = some c → isDir a.mode = true
  blk : ∀ k o, AL.get s.db.blocks (i, k) = some o → isReg a.mode = true

def DirIn (s : St) (i : Nat) : Prop := ∃ a, AL.get s.db.inodes i = some a ∧ isDir a.mode = true

structure Shape (s : St) : Prop where
  rank : Ranked s.db.child
  noRoot : ∀ p n, s.db.child p n ≠ some rootInode
  one : OneEntry s.db.child (DirIn s)
  types : ∀ i a, AL.get s.db.inodes i = some a → TypeOk s i a
  rootDir : DirIn s rootInode
  ctrlReg : ∀ a, AL.get s.db.inodes ctrlInode = some a → isReg a.mode = true

/-- The types of two modes agree. -/
theorem type_eq {m m' : Nat} (h : m &&& sIFMT = m' &&& sIFMT) :
    isDir m = isDir m' ∧ isReg m = isReg m' ∧ isLnk m = isLnk m' ∧ isBlk m = isBlk m' ∧ isChr m = isChr m' := by
  unfold isDir isReg isLnk isBlk isChr
  rw [h]; exact ⟨rfl, rfl, rfl, rfl, rfl⟩

/-- What a step may do to an inode that exists before and after it. -/
structure Evolves (s s' : St) (i : Nat) (a b : Inode) : Prop where
  type : b.mode &&& sIFMT = a.mode &&& sIFMT
  rdev : b.rdev = a.rdev
  size : b.size = a.size ∨ isReg a.mode = true
  sym : AL.get s'.db.symlinks i = AL.get s.db.symlinks i
  blk : ∀ k o, AL.get s'.db.blocks (i, k) = some o → AL.get s.db.blocks (i, k) = some o ∨ isReg a.mode = true
  kids : ∀ n c, s'.db.child i n = some c → isDir a.mode = true

theorem reg_not_lnk {m : Nat} (h : isReg m = true) : isLnk m = false := by
  unfold isReg at h; unfold isLnk
  simp only [beq_iff_eq] at h
  rw [h]; decide

theorem dir_not_lnk {m : Nat} (h : isDir m = true) : isLnk m = false := by
  unfold isDir at h; unfold isLnk
  simp only [beq_iff_eq] at h
  rw [h]; decide

theorem dir_not_reg {m : Nat} (h : isDir m = true) : isReg m = false := by
  unfold isDir at h; unfold isReg
  simp only [beq_iff_eq] at h
  rw [h]; decide

theorem TypeOk.evolve {s s' : St} {i : Nat} {a b : Inode} (h : TypeOk s i a) (e : Evolves s s' i a b) : TypeOk s' i b := by
  obtain ⟨t1, t2, t3, t4, t5⟩ := type_eq e.type
  refine ⟨by rw [e.type]; exact h.typed, by rw [t3, e.sym]; exact h.lnk, ?_, ?_, ?_, ?_, ?_⟩
  · intro t ht
    rw [e.sym] at ht
    rcases e.size with h1 | h1
    · rw [h1]; exact h.len t ht
    · have h2 := h.lnk.2 (by rw [ht]; simp)
      rw [reg_not_lnk h1] at h2; cases h2
  · intro hz
    rw [t2, t3]
    rcases e.size with h1 | h1
    · exact h.empty (by rw [← h1]; exact hz)
    · exact Or.inl h1
  · rw [e.rdev, t4, t5]; exact h.dev
  · intro n c hc; rw [t1]; exact e.kids n c hc
  · intro k o ho
    rw [t2]
    rcases e.blk k o ho with h1 | h1
    · exact h.blk k o h1
    · exact h1

end Verif.Fs
