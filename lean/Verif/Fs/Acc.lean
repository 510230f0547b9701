/-
Bookkeeping of the reference counts of inodes, names and objects, with explicit slack while an operation is under way.
-/
import Verif.Fs.Model

namespace Verif.Fs

variable {T : Nat → Prop}

/-! #### Counting -/

/-- number of directory entries that refer to an inode -/
def Db.links (db : Db) (i : Nat) : Int := AL.sumBy (fun _ c => if c = i then 1 else 0) db.contents
/-- number of directory entries that use a name -/
def Db.usesC (db : Db) (k : Nat) : Int := AL.sumBy (fun e _ => if e.2 = k then 1 else 0) db.contents
/-- number of extended attributes that use a name -/
def Db.usesX (db : Db) (k : Nat) : Int := AL.sumBy (fun e _ => if e.2 = k then 1 else 0) db.xattrs
/-- number of blocks bound to an object -/
def Db.usesB (db : Db) (o : Nat) : Int := AL.sumBy (fun _ v => if v = o then 1 else 0) db.blocks

/-- stored reference counts; 0 for records that do not exist -/
def Db.rc (db : Db) (i : Nat) : Int := ((AL.get db.inodes i).map (·.refcount)).getD 0
def Db.nr (db : Db) (k : Nat) : Int := ((AL.get db.names k).map (·.2)).getD 0
def Db.orc (db : Db) (o : Nat) : Int := (AL.get db.objects o).getD 0

/-- The references that are not directory entries (mkfs.py:75-100): one for the root, 42 for the control file. -/
def base (i : Nat) : Int := if i = 1 then 1 else if i = 2 then 42 else 0

theorem links_nonneg (db : Db) (i : Nat) : 0 ≤ db.links i := AL.sumBy_nonneg _ _ (by intros; split <;> omega)
theorem usesC_nonneg (db : Db) (i : Nat) : 0 ≤ db.usesC i := AL.sumBy_nonneg _ _ (by intros; split <;> omega)
theorem usesX_nonneg (db : Db) (i : Nat) : 0 ≤ db.usesX i := AL.sumBy_nonneg _ _ (by intros; split <;> omega)
theorem usesB_nonneg (db : Db) (i : Nat) : 0 ≤ db.usesB i := AL.sumBy_nonneg _ _ (by intros; split <;> omega)

theorem links_pos {db : Db} {e : Nat × Nat} {c : Nat} (h : AL.get db.contents e = some c) : 0 < db.links c := by
  have := AL.le_sumBy (fun (_ : Nat × Nat) (c' : Nat) => if c' = c then (1 : Int) else 0) db.contents
    (by intros; split <;> omega) (AL.get_some_mem h)
  simp at this
  unfold Db.links; omega

theorem usesC_pos {db : Db} {p k c : Nat} (h : AL.get db.contents (p, k) = some c) : 0 < db.usesC k := by
  have := AL.le_sumBy (fun (e : Nat × Nat) (_ : Nat) => if e.2 = k then (1 : Int) else 0) db.contents
    (by intros; split <;> omega) (AL.get_some_mem h)
  simp at this
  unfold Db.usesC; omega

theorem usesX_pos {db : Db} {p k : Nat} {v : Bytes} (h : AL.get db.xattrs (p, k) = some v) : 0 < db.usesX k := by
  have := AL.le_sumBy (fun (e : Nat × Nat) (_ : Bytes) => if e.2 = k then (1 : Int) else 0) db.xattrs
    (by intros; split <;> omega) (AL.get_some_mem h)
  simp at this
  unfold Db.usesX; omega

theorem usesB_pos {db : Db} {e : Nat × Nat} {o : Nat} (h : AL.get db.blocks e = some o) : 0 < db.usesB o := by
  have := AL.le_sumBy (fun (_ : Nat × Nat) (c' : Nat) => if c' = o then (1 : Int) else 0) db.blocks
    (by intros; split <;> omega) (AL.get_some_mem h)
  simp at this
  unfold Db.usesB; omega

/-! #### The names table -/

theorem findName_some {l : List (Nat × (Bytes × Int))} (hn : AL.NK l) {n : Bytes} {i : Nat} {r : Int}
    (h : findName l n = some (i, r)) : AL.get l i = some (n, r) := by
  induction l with
  | nil => simp [findName] at h
  | cons e t ih =>
    obtain ⟨j, m, q⟩ := e
    simp only [findName] at h
    have hn' := AL.NK.cons_inv hn
    split at h
    · rename_i hm
      simp only [Option.some.injEq, Prod.mk.injEq] at h
      obtain ⟨rfl, rfl⟩ := h
      simp [AL.get, hm]
    · have := ih hn'.2 h
      have hne : j ≠ i := by
        rintro rfl
        rw [hn'.1] at this; cases this
      simp [AL.get, hne, this]

theorem findName_none {l : List (Nat × (Bytes × Int))} {n : Bytes} (h : findName l n = none) (i : Nat) (r : Int) :
    AL.get l i ≠ some (n, r) := by
  induction l with
  | nil => simp [AL.get]
  | cons e t ih =>
    obtain ⟨j, m, q⟩ := e
    simp only [findName] at h
    split at h
    · simp at h
    · rename_i hm
      simp only [AL.get]
      split
      · simp; intro h1; exact absurd h1 hm
      · exact ih h

/-- no two rows have the same name -/
def NUniq (l : List (Nat × (Bytes × Int))) : Prop :=
  ∀ i j n r q, AL.get l i = some (n, r) → AL.get l j = some (n, q) → i = j

theorem findName_iff {l : List (Nat × (Bytes × Int))} (hn : AL.NK l) (hu : NUniq l) {n : Bytes} {i : Nat} {r : Int} :
    findName l n = some (i, r) ↔ AL.get l i = some (n, r) := by
  constructor
  · exact findName_some hn
  · intro h
    cases h1 : findName l n with
    | none => exact absurd h (findName_none h1 i r)
    | some e =>
      obtain ⟨j, q⟩ := e
      have h2 := findName_some hn h1
      have := hu _ _ _ _ _ h h2
      subst this
      rw [h] at h2; simp at h2; rw [h2]

theorem le_maxKey {ν : Type} {l : List (Nat × ν)} {i : Nat} {v : ν} (h : AL.get l i = some v) : i ≤ maxKey l := by
  induction l with
  | nil => simp [AL.get] at h
  | cons e t ih =>
    obtain ⟨j, w⟩ := e
    simp only [AL.get] at h
    simp only [maxKey]
    split at h
    · omega
    · have := ih h; omega

theorem get_maxKey_succ {ν : Type} (l : List (Nat × ν)) : AL.get l (maxKey l + 1) = none := by
  cases h : AL.get l (maxKey l + 1) with
  | none => rfl
  | some v => have := le_maxKey h; omega

/-! #### Bookkeeping invariant

`δ` is the difference between the stored reference counts of inodes and the number of references, `L` that of names.  `T` are
the temporary inodes of running `copy_tree` commands, which have entries but no link. -/

/-- No `copy_tree` is running. -/
abbrev NoT : Nat → Prop := fun _ => False

structure Acc (T : Nat → Prop) (m : Nat) (db : Db) (δ L : Nat → Int) : Prop where
  nkI : AL.NK db.inodes
  nkN : AL.NK db.names
  nkC : AL.NK db.contents
  nkX : AL.NK db.xattrs
  nkS : AL.NK db.symlinks
  nkB : AL.NK db.blocks
  nkO : AL.NK db.objects
  nuniq : NUniq db.names
  rc : ∀ i, db.rc i = base i + db.links i + δ i
  nr : ∀ k, db.nr k = db.usesC k + db.usesX k + L k
  npos : ∀ k n r, AL.get db.names k = some (n, r) → 0 < r
  par : ∀ p k c, AL.get db.contents (p, k) = some c → 0 < db.rc p ∨ T p
  xin : ∀ i k v, AL.get db.xattrs (i, k) = some v → AL.get db.inodes i ≠ none
  sin : ∀ i v, AL.get db.symlinks i = some v → AL.get db.inodes i ≠ none
  bin : ∀ i b o, AL.get db.blocks (i, b) = some o → ∃ ino, AL.get db.inodes i = some ino ∧ b * m < ino.size
  orc : ∀ o, db.orc o = db.usesB o
  opos : ∀ o r, AL.get db.objects o = some r → 0 < r
  seq : ∀ i, AL.get db.inodes i ≠ none → i ≤ db.seq

theorem Acc.par0 {m : Nat} {db : Db} {δ L : Nat → Int} (h : Acc NoT m db δ L) (p k c : Nat)
    (hc : AL.get db.contents (p, k) = some c) : 0 < db.rc p := (h.par p k c hc).resolve_right id

theorem Acc.congr {m : Nat} {db : Db} {δ δ' L L' : Nat → Int} (h : Acc T m db δ L) (h1 : ∀ i, δ i = δ' i)
    (h2 : ∀ i, L i = L' i) : Acc T m db δ' L' := by
  have e1 : δ = δ' := funext h1
  have e2 : L = L' := funext h2
  subst e1 e2; exact h

/-- Adds to one value of a function. -/
def bump (f : Nat → Int) (i : Nat) (d : Int) : Nat → Int := fun j => f j + if j = i then d else 0

theorem rc_pos_ne {db : Db} {i : Nat} (h : 0 < db.rc i) : AL.get db.inodes i ≠ none := by
  intro h1; simp [Db.rc, h1] at h

/-- 1. Attributes other than the reference count; the size may only change if the blocks fit. -/
theorem Acc.modInode {m : Nat} {db : Db} {δ L : Nat → Int} (h : Acc T m db δ L) (id : Nat) (f : Inode → Inode)
    (hr : ∀ i, (f i).refcount = i.refcount)
    (hs : ∀ i, AL.get db.inodes id = some i → (i.size ≤ (f i).size ∨ ∀ b o, AL.get db.blocks (id, b) = some o → b * m < (f i).size)) :
    Acc T m (db.modInode id f) δ L := by
  unfold Db.modInode
  cases hi : AL.get db.inodes id with
  | none => exact h
  | some ino =>
    have hrc : ∀ i, ({ db with inodes := AL.set db.inodes id (f ino) } : Db).rc i = db.rc i := by
      intro i
      simp only [Db.rc, AL.get_set]
      split
      · rename_i h'; subst h'; simp [hi, hr]
      · rfl
    have hne : ∀ i, AL.get (AL.set db.inodes id (f ino)) i ≠ none ↔ AL.get db.inodes i ≠ none := by
      intro i
      rw [AL.get_set]
      split
      · rename_i h'; subst h'; simp [hi]
      · rfl
    refine { h with nkI := h.nkI.set _ _, rc := ?_, par := ?_, xin := ?_, sin := ?_, bin := ?_, seq := ?_ }
    · intro i; rw [hrc]; exact h.rc i
    · intro p k c hc; rw [hrc]; exact h.par p k c hc
    · intro i k v hx; exact (hne i).2 (h.xin i k v hx)
    · intro i v hx; exact (hne i).2 (h.sin i v hx)
    · intro i b o hb
      obtain ⟨j, hj, hjb⟩ := h.bin i b o hb
      simp only [AL.get_set]
      split
      · rename_i h'; subst h'
        refine ⟨_, rfl, ?_⟩
        rw [hi] at hj; cases hj
        rcases hs _ hi with h1 | h1
        · omega
        · exact h1 b o hb
      · exact ⟨j, hj, hjb⟩
    · intro i hi'; exact h.seq i ((hne i).1 hi')

/-- 2. A change of the reference count. -/
theorem Acc.modRc {m : Nat} {db : Db} {δ L : Nat → Int} (h : Acc T m db δ L) (id : Nat) (d : Int) (f : Inode → Inode)
    (hr : ∀ i, (f i).refcount = i.refcount + d) (hsz : ∀ i, (f i).size = i.size) (hex : AL.get db.inodes id ≠ none)
    (hp : 0 < db.rc id + d ∨ ∀ k, AL.get db.contents (id, k) = none) :
    Acc T m (db.modInode id f) (bump δ id d) L := by
  unfold Db.modInode
  cases hi : AL.get db.inodes id with
  | none => exact absurd hi hex
  | some ino =>
    have hrc : ∀ i, ({ db with inodes := AL.set db.inodes id (f ino) } : Db).rc i = db.rc i + if i = id then d else 0 := by
      intro i
      simp only [Db.rc, AL.get_set]
      split
      · rename_i h'; subst h'; simp [hi, hr]
      · simp
    have hne : ∀ i, AL.get (AL.set db.inodes id (f ino)) i ≠ none ↔ AL.get db.inodes i ≠ none := by
      intro i
      rw [AL.get_set]
      split
      · rename_i h'; subst h'; simp [hi]
      · rfl
    refine { h with nkI := h.nkI.set _ _, rc := ?_, par := ?_, xin := ?_, sin := ?_, bin := ?_, seq := ?_ }
    · intro i; rw [hrc]; have := h.rc i; simp only [bump]
      show _ = base i + db.links i + _
      omega
    · intro p k c hc; rw [hrc]; have := h.par p k c hc
      split
      · rename_i h'; subst h'
        rcases hp with hp | hp
        · exact Or.inl hp
        · rw [hp k] at hc; cases hc
      · simpa using this
    · intro i k v hx; exact (hne i).2 (h.xin i k v hx)
    · intro i v hx; exact (hne i).2 (h.sin i v hx)
    · intro i b o hb
      obtain ⟨j, hj, hjb⟩ := h.bin i b o hb
      simp only [AL.get_set]
      split
      · rename_i h'; subst h'
        refine ⟨_, rfl, ?_⟩
        rw [hi] at hj; cases hj
        rw [hsz]; exact hjb
      · exact ⟨j, hj, hjb⟩
    · intro i hi'; exact h.seq i ((hne i).1 hi')

/-- 3. `_add_name` -/
theorem Acc.addName {m : Nat} {db : Db} {δ L : Nat → Int} (h : Acc T m db δ L) (n : Bytes) :
    Acc T m (db.addName n).1 δ (bump L (db.addName n).2 1) ∧
    (∃ r, AL.get (db.addName n).1.names (db.addName n).2 = some (n, r)) ∧
    (∀ k, k ≠ (db.addName n).2 → AL.get (db.addName n).1.names k = AL.get db.names k) ∧
    (∀ k r, AL.get db.names k = some (n, r) → k = (db.addName n).2) ∧
    (AL.get db.names (db.addName n).2 = none ∨ ∃ r, AL.get db.names (db.addName n).2 = some (n, r)) := by
  unfold Db.addName
  cases hf : findName db.names n with
  | some e =>
    obtain ⟨i, r⟩ := e
    have hg := findName_some h.nkN hf
    refine ⟨?_, ⟨r + 1, by simp [AL.get_set]⟩, ?_, ?_, Or.inr ⟨r, hg⟩⟩
    · refine { h with nkN := h.nkN.set _ _, nuniq := ?_, nr := ?_, npos := ?_ }
      · intro a b x p q h1 h2
        simp only [AL.get_set] at h1 h2
        have := h.nuniq
        unfold NUniq at this
        split at h1 <;> split at h2
        · rename_i ha hb; omega
        · rename_i ha hb
          simp only [Option.some.injEq, Prod.mk.injEq] at h1
          rw [ha]; exact this _ _ _ _ _ hg (h1.1 ▸ h2)
        · rename_i ha hb
          simp only [Option.some.injEq, Prod.mk.injEq] at h2
          rw [hb]; exact this _ _ _ _ _ h1 (h2.1 ▸ hg)
        · exact this _ _ _ _ _ h1 h2
      · intro k
        have := h.nr k
        show ({ db with names := AL.set db.names i (n, r + 1) } : Db).nr k = db.usesC k + db.usesX k + _
        simp only [bump, Db.nr, AL.get_set] at this ⊢
        split
        · rename_i hk; subst hk; simp [hg] at this ⊢; omega
        · simpa using this
      · intro k x q hk
        simp only [AL.get_set] at hk
        split at hk
        · simp only [Option.some.injEq, Prod.mk.injEq] at hk; have := h.npos _ _ _ hg; omega
        · exact h.npos _ _ _ hk
    · intro k hk; simp only at hk; simp [AL.get_set, hk]
    · intro k q hk; exact h.nuniq _ _ _ _ _ hk hg
  | none =>
    have hnew := get_maxKey_succ db.names
    have hno := findName_none hf
    refine ⟨?_, ⟨1, by simp [AL.get_set]⟩, ?_, ?_, Or.inl hnew⟩
    · refine { h with nkN := h.nkN.set _ _, nuniq := ?_, nr := ?_, npos := ?_ }
      · intro a b x p q h1 h2
        simp only [AL.get_set] at h1 h2
        have := h.nuniq
        unfold NUniq at this
        split at h1 <;> split at h2
        · rename_i ha hb; omega
        · rename_i ha hb
          simp only [Option.some.injEq, Prod.mk.injEq] at h1
          exact absurd (h1.1 ▸ h2) (hno _ _)
        · rename_i ha hb
          simp only [Option.some.injEq, Prod.mk.injEq] at h2
          exact absurd (h2.1 ▸ h1) (hno _ _)
        · exact this _ _ _ _ _ h1 h2
      · intro k
        have := h.nr k
        show ({ db with names := AL.set db.names (maxKey db.names + 1) (n, 1) } : Db).nr k = db.usesC k + db.usesX k + _
        simp only [bump, Db.nr, AL.get_set] at this ⊢
        split
        · rename_i hk; subst hk; simp [hnew] at this ⊢; omega
        · simpa using this
      · intro k x q hk
        simp only [AL.get_set] at hk
        split at hk
        · simp only [Option.some.injEq, Prod.mk.injEq] at hk; omega
        · exact h.npos _ _ _ hk
    · intro k hk; simp only at hk; simp [AL.get_set, hk]
    · intro k q hk; exact absurd hk (hno _ _)

/-- 4. `_del_name` -/
theorem Acc.delName {m : Nat} {db db' : Db} {δ L : Nat → Int} (h : Acc T m db δ L) {n : Bytes} {i : Nat}
    (hd : db.delName n = some (db', i)) :
    Acc T m db' δ (bump L i (-1)) ∧ (∃ r, AL.get db.names i = some (n, r)) ∧
    (∀ k, k ≠ i → AL.get db'.names k = AL.get db.names k) ∧
    (∀ x r, AL.get db'.names i = some (x, r) → x = n) := by
  unfold Db.delName at hd
  cases hf : findName db.names n with
  | none => simp [hf] at hd
  | some e =>
    obtain ⟨j, r⟩ := e
    have hg := findName_some h.nkN hf
    simp only [hf] at hd
    split at hd
    · rename_i hr
      simp only [Option.some.injEq, Prod.mk.injEq] at hd
      obtain ⟨rfl, rfl⟩ := hd
      refine ⟨?_, ⟨r, hg⟩, ?_, ?_⟩
      · refine { h with nkN := h.nkN.set _ _, nuniq := ?_, nr := ?_, npos := ?_ }
        · intro a b x p q h1 h2
          simp only [AL.get_set] at h1 h2
          have := h.nuniq
          unfold NUniq at this
          split at h1 <;> split at h2
          · rename_i ha hb; omega
          · rename_i ha hb
            simp only [Option.some.injEq, Prod.mk.injEq] at h1
            rw [ha]; exact this _ _ _ _ _ hg (h1.1 ▸ h2)
          · rename_i ha hb
            simp only [Option.some.injEq, Prod.mk.injEq] at h2
            rw [hb]; exact this _ _ _ _ _ h1 (h2.1 ▸ hg)
          · exact this _ _ _ _ _ h1 h2
        · intro k
          have := h.nr k
          show ({ db with names := AL.set db.names j (n, r - 1) } : Db).nr k = db.usesC k + db.usesX k + _
          simp only [bump, Db.nr, AL.get_set] at this ⊢
          split
          · rename_i hk; subst hk; simp [hg] at this ⊢; omega
          · simpa using this
        · intro k x q hk
          simp only [AL.get_set] at hk
          split at hk
          · simp only [Option.some.injEq, Prod.mk.injEq] at hk; omega
          · exact h.npos _ _ _ hk
      · intro k hk; simp [AL.get_set, hk]
      · intro x q hx; simp [AL.get_set] at hx; exact hx.1.symm
    · rename_i hr
      have hp := h.npos _ _ _ hg
      simp only [Option.some.injEq, Prod.mk.injEq] at hd
      obtain ⟨rfl, rfl⟩ := hd
      refine ⟨?_, ⟨r, hg⟩, ?_, ?_⟩
      · refine { h with nkN := h.nkN.erase _, nuniq := ?_, nr := ?_, npos := ?_ }
        · intro a b x p q h1 h2
          simp only [AL.get_erase] at h1 h2
          split at h1
          · cases h1
          · split at h2
            · cases h2
            · exact h.nuniq _ _ _ _ _ h1 h2
        · intro k
          have := h.nr k
          show ({ db with names := AL.erase db.names j } : Db).nr k = db.usesC k + db.usesX k + _
          simp only [bump, Db.nr, AL.get_erase] at this ⊢
          split
          · rename_i hk; subst hk; simp [hg] at this ⊢; omega
          · simpa using this
        · intro k x q hk
          simp only [AL.get_erase] at hk
          split at hk
          · cases hk
          · exact h.npos _ _ _ hk
      · intro k hk; simp [AL.get_erase, hk]
      · intro x q hx; simp [AL.get_erase] at hx

/-- 5. a new directory entry -/
theorem Acc.insC {m : Nat} {db : Db} {δ L : Nat → Int} (h : Acc T m db δ L) {p k : Nat} (c : Nat)
    (hn : AL.get db.contents (p, k) = none) (hp : 0 < db.rc p ∨ T p) :
    Acc T m { db with contents := AL.set db.contents (p, k) c } (bump δ c (-1)) (bump L k (-1)) := by
  refine { h with nkC := h.nkC.set _ _, rc := ?_, nr := ?_, par := ?_ }
  · intro i
    have := h.rc i
    have e := AL.sumBy_set (fun _ (c : Nat) => if c = i then (1 : Int) else 0) h.nkC (p, k) c
    rw [hn] at e
    show db.rc i = base i + AL.sumBy _ _ + _
    rw [e]
    unfold Db.links at this
    simp only [bump]
    simp only [eq_comm (a := i)]
    split <;> simp_all <;> omega
  · intro i
    have := h.nr i
    have e := AL.sumBy_set (fun (e : Nat × Nat) (_ : Nat) => if e.2 = i then (1 : Int) else 0) h.nkC (p, k) c
    rw [hn] at e
    show db.nr i = AL.sumBy _ _ + db.usesX i + _
    rw [e]
    unfold Db.usesC at this
    simp only [bump]
    simp only [eq_comm (a := i)]
    split <;> simp_all <;> omega
  · intro p' k' c' hc
    simp only [AL.get_set] at hc
    show 0 < db.rc p' ∨ T p'
    split at hc
    · rename_i he; cases he; exact hp
    · exact h.par _ _ _ hc

/-- 6. removal of a directory entry -/
theorem Acc.delC {m : Nat} {db : Db} {δ L : Nat → Int} (h : Acc T m db δ L) {p k c : Nat}
    (hn : AL.get db.contents (p, k) = some c) :
    Acc T m { db with contents := AL.erase db.contents (p, k) } (bump δ c 1) (bump L k 1) := by
  refine { h with nkC := h.nkC.erase _, rc := ?_, nr := ?_, par := ?_ }
  · intro i
    have := h.rc i
    have e := AL.sumBy_erase (fun _ (c : Nat) => if c = i then (1 : Int) else 0) h.nkC (p, k)
    rw [hn] at e
    show db.rc i = base i + AL.sumBy _ _ + _
    rw [e]
    unfold Db.links at this
    simp only [bump]
    simp only [eq_comm (a := i)]
    split <;> simp_all <;> omega
  · intro i
    have := h.nr i
    have e := AL.sumBy_erase (fun (e : Nat × Nat) (_ : Nat) => if e.2 = i then (1 : Int) else 0) h.nkC (p, k)
    rw [hn] at e
    show db.nr i = AL.sumBy _ _ + db.usesX i + _
    rw [e]
    unfold Db.usesC at this
    simp only [bump]
    simp only [eq_comm (a := i)]
    split <;> simp_all <;> omega
  · intro p' k' c' hc
    simp only [AL.get_erase] at hc
    split at hc
    · cases hc
    · exact h.par _ _ _ hc

/-- 7. replacement of the inode of a directory entry -/
theorem Acc.repC {m : Nat} {db : Db} {δ L : Nat → Int} (h : Acc T m db δ L) {p k c : Nat} (c' : Nat)
    (hn : AL.get db.contents (p, k) = some c) :
    Acc T m { db with contents := AL.set db.contents (p, k) c' } (bump (bump δ c 1) c' (-1)) L := by
  refine { h with nkC := h.nkC.set _ _, rc := ?_, nr := ?_, par := ?_ }
  · intro i
    have := h.rc i
    have e := AL.sumBy_set (fun _ (c : Nat) => if c = i then (1 : Int) else 0) h.nkC (p, k) c'
    rw [hn] at e
    show db.rc i = base i + AL.sumBy _ _ + _
    rw [e]
    unfold Db.links at this
    simp only [bump]
    simp only [eq_comm (a := i)]
    split <;> split <;> simp_all <;> omega
  · intro i
    have := h.nr i
    have e := AL.sumBy_set (fun (e : Nat × Nat) (_ : Nat) => if e.2 = i then (1 : Int) else 0) h.nkC (p, k) c'
    rw [hn] at e
    show db.nr i = AL.sumBy _ _ + db.usesX i + _
    rw [e]
    unfold Db.usesC at this
    split <;> simp_all <;> omega
  · intro p' k' c'' hc
    simp only [AL.get_set] at hc
    show 0 < db.rc p' ∨ T p'
    split at hc
    · rename_i he; cases he; exact h.par _ _ _ hn
    · exact h.par _ _ _ hc

/-- 8. extended attributes -/
theorem Acc.setX {m : Nat} {db : Db} {δ L : Nat → Int} (h : Acc T m db δ L) {i k : Nat} (v : Bytes)
    (hi : AL.get db.inodes i ≠ none) :
    Acc T m { db with xattrs := AL.set db.xattrs (i, k) v } δ
      (bump L k (if (AL.get db.xattrs (i, k)).isSome then 0 else -1)) := by
  refine { h with nkX := h.nkX.set _ _, nr := ?_, xin := ?_ }
  · intro j
    have := h.nr j
    have e := AL.sumBy_set (fun (e : Nat × Nat) (_ : Bytes) => if e.2 = j then (1 : Int) else 0) h.nkX (i, k) v
    show db.nr j = db.usesC j + AL.sumBy _ _ + _
    rw [e]
    unfold Db.usesX at this
    simp only [bump]
    simp only [eq_comm (a := j)]
    cases AL.get db.xattrs (i, k) <;> split <;> simp_all <;> omega
  · intro i' k' v' hc
    simp only [AL.get_set] at hc
    split at hc
    · rename_i he; cases he; exact hi
    · exact h.xin _ _ _ hc

theorem Acc.delX {m : Nat} {db : Db} {δ L : Nat → Int} (h : Acc T m db δ L) {i k : Nat} {v : Bytes}
    (hn : AL.get db.xattrs (i, k) = some v) :
    Acc T m { db with xattrs := AL.erase db.xattrs (i, k) } δ (bump L k 1) := by
  refine { h with nkX := h.nkX.erase _, nr := ?_, xin := ?_ }
  · intro j
    have := h.nr j
    have e := AL.sumBy_erase (fun (e : Nat × Nat) (_ : Bytes) => if e.2 = j then (1 : Int) else 0) h.nkX (i, k)
    rw [hn] at e
    show db.nr j = db.usesC j + AL.sumBy _ _ + _
    rw [e]
    unfold Db.usesX at this
    simp only [bump]
    simp only [eq_comm (a := j)]
    split <;> simp_all <;> omega
  · intro i' k' v' hc
    simp only [AL.get_erase] at hc
    split at hc
    · cases hc
    · exact h.xin _ _ _ hc

/-- 9. a new inode -/
theorem Acc.newInode {m : Nat} {db : Db} {δ L : Nat → Int} (h : Acc T m db δ L) (ino : Inode) (hr : ino.refcount = 1) :
    Acc T m { db with seq := db.seq + 1, inodes := AL.set db.inodes (db.seq + 1) ino } (bump δ (db.seq + 1) 1) L := by
  have hnone : AL.get db.inodes (db.seq + 1) = none := by
    cases hg : AL.get db.inodes (db.seq + 1) with
    | none => rfl
    | some v => have := h.seq (db.seq + 1) (by simp [hg]); omega
  have hrc : ∀ i, ({ db with seq := db.seq + 1, inodes := AL.set db.inodes (db.seq + 1) ino } : Db).rc i =
      db.rc i + if i = db.seq + 1 then 1 else 0 := by
    intro i
    simp only [Db.rc, AL.get_set]
    split
    · rename_i h'; subst h'; simp [hnone, hr]
    · simp
  have hne : ∀ i, AL.get db.inodes i ≠ none → AL.get (AL.set db.inodes (db.seq + 1) ino) i ≠ none := by
    intro i hi; rw [AL.get_set]; split <;> simp_all
  refine { h with nkI := h.nkI.set _ _, rc := ?_, par := ?_, xin := ?_, sin := ?_, bin := ?_, seq := ?_ }
  · intro i; rw [hrc]; have := h.rc i
    show _ = base i + db.links i + _
    simp only [bump]; omega
  · intro p k c hc; rw [hrc]; rcases h.par p k c hc with h | h
    · left; split <;> omega
    · exact Or.inr h
  · intro i k v hx; exact hne _ (h.xin _ _ _ hx)
  · intro i v hx; exact hne _ (h.sin _ _ hx)
  · intro i b o hb
    obtain ⟨j, hj, hjb⟩ := h.bin i b o hb
    refine ⟨j, ?_, hjb⟩
    rw [AL.get_set_ne]
    · exact hj
    · rintro rfl; rw [hnone] at hj; cases hj
  · intro i hi
    simp only [AL.get_set] at hi
    show i ≤ db.seq + 1
    split at hi
    · omega
    · have := h.seq i hi; omega

/-- a new symlink target -/
theorem Acc.newSym {m : Nat} {db : Db} {δ L : Nat → Int} (h : Acc T m db δ L) {id : Nat} (t : Bytes)
    (hi : AL.get db.inodes id ≠ none) : Acc T m { db with symlinks := AL.set db.symlinks id t } δ L := by
  refine { h with nkS := h.nkS.set _ _, sin := ?_ }
  intro i v hv
  simp only [AL.get_set] at hv
  split at hv
  · rename_i he; subst he; exact hi
  · exact h.sin _ _ hv

/-! #### Blocks and objects -/

/-- Object counts match the blocks, without a database around them. -/
def OC (blocks : List ((Nat × Nat) × Nat)) (objs : List (Nat × Int)) : Prop :=
  AL.NK objs ∧ (∀ o, (AL.get objs o).getD 0 = AL.sumBy (fun _ v => if v = o then 1 else 0) blocks) ∧
  (∀ o r, AL.get objs o = some r → 0 < r)

/-- A dereference; `extra` are references of blocks that are not in the list. -/
theorem derefObj_spec {objs : List (Nat × Int)} (hn : AL.NK objs) (hp : ∀ o r, AL.get objs o = some r → 0 < r) (o : Nat) :
    AL.NK (derefObj objs o) ∧ (∀ x r, AL.get (derefObj objs o) x = some r → 0 < r) ∧
    ∀ x, (AL.get (derefObj objs o) x).getD 0 =
      (AL.get objs x).getD 0 - if x = o ∧ 0 < (AL.get objs o).getD 0 then 1 else 0 := by
  unfold derefObj
  cases hg : AL.get objs o with
  | none =>
    refine ⟨hn, hp, ?_⟩
    intro x; simp
  | some r =>
    have := hp _ _ hg
    simp only
    split
    · rename_i hr
      refine ⟨hn.erase _, ?_, ?_⟩
      · intro x q hq
        rw [AL.get_erase] at hq
        split at hq
        · cases hq
        · exact hp _ _ hq
      · intro x
        rw [AL.get_erase]
        split
        · rename_i h'; subst h'; simp [hg]; omega
        · rename_i h'; simp [h']
    · rename_i hr
      refine ⟨hn.set _ _, ?_, ?_⟩
      · intro x q hq
        rw [AL.get_set] at hq
        split at hq
        · simp only [Option.some.injEq] at hq; omega
        · exact hp _ _ hq
      · intro x
        rw [AL.get_set]
        split
        · rename_i h'; subst h'; simp [hg]; omega
        · rename_i h'; simp [h']

theorem removeBlocks_spec (id lo hi : Nat) : ∀ (bl : List ((Nat × Nat) × Nat)) (objs : List (Nat × Int)) (ex : Nat → Int),
    AL.NK bl → AL.NK objs → (∀ o r, AL.get objs o = some r → 0 < r) → (∀ o, 0 ≤ ex o) →
    (∀ o, (AL.get objs o).getD 0 = ex o + AL.sumBy (fun _ v => if v = o then 1 else 0) bl) →
    (removeBlocks id lo hi bl objs).1 = bl.filter (fun e => !(e.1.1 == id && decide (lo ≤ e.1.2) && decide (e.1.2 < hi))) ∧
    AL.NK (removeBlocks id lo hi bl objs).2 ∧
    (∀ o r, AL.get (removeBlocks id lo hi bl objs).2 o = some r → 0 < r) ∧
    (∀ o, (AL.get (removeBlocks id lo hi bl objs).2 o).getD 0 =
      ex o + AL.sumBy (fun _ v => if v = o then 1 else 0) (removeBlocks id lo hi bl objs).1) := by
  intro bl
  induction bl with
  | nil => intro objs ex _ h2 h3 _ h5; exact ⟨rfl, h2, h3, h5⟩
  | cons e t ih =>
    obtain ⟨⟨i, b⟩, o⟩ := e
    intro objs ex h1 h2 h3 h4 h5
    have h1' := AL.NK.cons_inv h1
    simp only [removeBlocks]
    split
    · rename_i hc
      have hd := derefObj_spec h2 h3 o
      have hpos : 0 < (AL.get objs o).getD 0 := by
        have := h5 o
        have h6 : 0 ≤ AL.sumBy (fun (_ : Nat × Nat) v => if v = o then (1 : Int) else 0) t :=
          AL.sumBy_nonneg _ _ (by intros; split <;> omega)
        have := h4 o
        simp only [AL.sumBy] at *
        simp at *; omega
      obtain ⟨r1, r2, r3, r4⟩ := ih (derefObj objs o) ex h1'.2 hd.1 hd.2.1 h4 (by
        intro x
        have hx := h5 x
        rw [hd.2.2 x]
        simp only [AL.sumBy] at hx
        by_cases hxo : x = o
        · subst hxo; simp [hpos] at hx ⊢; omega
        · simp [hxo, Ne.symm hxo] at hx ⊢; omega)
      refine ⟨?_, r2, r3, r4⟩
      rw [r1, List.filter_cons]
      simp [hc]
    · rename_i hc
      obtain ⟨r1, r2, r3, r4⟩ := ih objs (fun x => ex x + if o = x then 1 else 0) h1'.2 h2 h3
        (by intro x; have := h4 x; show 0 ≤ ex x + _; split <;> omega)
        (by intro x; have := h5 x; simp only [AL.sumBy] at this; omega)
      refine ⟨?_, r2, r3, ?_⟩
      · simp only [r1, List.filter_cons]
        rw [if_pos]
        have : ¬(i = id ∧ lo ≤ b ∧ b < hi) := hc
        simp only [Bool.not_eq_true', Bool.and_eq_false_iff, beq_eq_false_iff_ne, decide_eq_false_iff_not]
        omega
      · intro x
        have := r4 x
        simp only [AL.sumBy]
        omega

theorem NK_filter {κ ν : Type} {l : List (κ × ν)} (h : AL.NK l) (p : κ × ν → Bool) : AL.NK (l.filter p) := by
  unfold AL.NK at *
  exact List.Sublist.nodup (List.Sublist.map _ List.filter_sublist) h

theorem get_filter_key {κ ν : Type} [DecidableEq κ] (l : List (κ × ν)) (p : κ → Bool) (k : κ) :
    AL.get (l.filter (fun e => p e.1)) k = if p k then AL.get l k else none := by
  induction l with
  | nil => simp [AL.get]
  | cons e t ih =>
    obtain ⟨k', v⟩ := e
    rw [List.filter_cons]
    by_cases h : k' = k
    · subst h
      by_cases hp : p k'
      · simp [hp, AL.get]
      · simp [hp, ih]
    · by_cases hp : p k'
      · simp [hp, AL.get, h, ih]
      · simp [hp, AL.get, h, ih]

/-- 11. `cache.remove` -/
theorem Acc.cacheRemove {m : Nat} {db : Db} {δ L : Nat → Int} (h : Acc T m db δ L) (id lo hi : Nat) :
    Acc T m (db.cacheRemove id lo hi) δ L ∧
    (∀ i b, AL.get (db.cacheRemove id lo hi).blocks (i, b) =
      if i = id ∧ lo ≤ b ∧ b < hi then none else AL.get db.blocks (i, b)) := by
  obtain ⟨r1, r2, r3, r4⟩ := removeBlocks_spec id lo hi db.blocks db.objects (fun _ => 0) h.nkB h.nkO h.opos
    (by intros; omega) (by intro o; have := h.orc o; unfold Db.orc Db.usesB at this; omega)
  have hget : ∀ i b, AL.get (db.cacheRemove id lo hi).blocks (i, b) =
      if i = id ∧ lo ≤ b ∧ b < hi then none else AL.get db.blocks (i, b) := by
    intro i b
    show AL.get (removeBlocks id lo hi db.blocks db.objects).1 (i, b) = _
    rw [r1, get_filter_key db.blocks (fun e => !(e.1 == id && decide (lo ≤ e.2) && decide (e.2 < hi))) (i, b)]
    by_cases hc : i = id ∧ lo ≤ b ∧ b < hi
    · rw [if_pos hc, if_neg]; simp [hc]
    · rw [if_neg hc, if_pos]
      simp only [Bool.not_eq_true', Bool.and_eq_false_iff, beq_eq_false_iff_ne, decide_eq_false_iff_not]
      omega
  refine ⟨?_, hget⟩
  refine { h with nkB := ?_, nkO := r2, bin := ?_, orc := ?_, opos := r3 }
  · show AL.NK (removeBlocks id lo hi db.blocks db.objects).1
    rw [r1]; exact NK_filter h.nkB _
  · intro i b o hb
    rw [hget] at hb
    split at hb
    · cases hb
    · exact h.bin _ _ _ hb
  · intro o
    have := r4 o
    show (AL.get (removeBlocks id lo hi db.blocks db.objects).2 o).getD 0 = AL.sumBy _ (removeBlocks id lo hi db.blocks db.objects).1
    omega

/-- 12. the upload of a block -/
theorem Acc.upload {m : Nat} {db : Db} {δ L : Nat → Int} (h : Acc T m db δ L) {id b o : Nat} {ino : Inode}
    (hi : AL.get db.inodes id = some ino) (hb : b * m < ino.size) (hne : AL.get db.blocks (id, b) ≠ some o) :
    Acc T m { db with blocks := AL.set db.blocks (id, b) o, objects := (match AL.get db.blocks (id, b) with
      | some o' => derefObj (refObj db.objects o) o' | none => refObj db.objects o) } δ L := by
  have hr : AL.NK (refObj db.objects o) ∧ (∀ x r, AL.get (refObj db.objects o) x = some r → 0 < r) ∧
      ∀ x, (AL.get (refObj db.objects o) x).getD 0 = (AL.get db.objects x).getD 0 + if x = o then 1 else 0 := by
    unfold refObj
    refine ⟨h.nkO.set _ _, ?_, ?_⟩
    · intro x r hx
      rw [AL.get_set] at hx
      split at hx
      · simp only [Option.some.injEq] at hx
        have h1 := h.orc o
        have h2 := usesB_nonneg db o
        unfold Db.orc at h1
        omega
      · exact h.opos _ _ hx
    · intro x
      rw [AL.get_set]
      split
      · rename_i hx; subst hx; simp
      · simp
  have hd : ∀ o', AL.get db.blocks (id, b) = some o' → AL.NK (derefObj (refObj db.objects o) o') ∧
      (∀ x r, AL.get (derefObj (refObj db.objects o) o') x = some r → 0 < r) ∧
      ∀ x, (AL.get (derefObj (refObj db.objects o) o') x).getD 0 =
        (AL.get db.objects x).getD 0 + (if x = o then 1 else 0) - if x = o' then 1 else 0 := by
    intro o' ho'
    obtain ⟨a1, a2, a3⟩ := derefObj_spec hr.1 hr.2.1 o'
    refine ⟨a1, a2, ?_⟩
    intro x
    rw [a3, hr.2.2 x]
    have hpos : 0 < (AL.get (refObj db.objects o) o').getD 0 := by
      rw [hr.2.2]
      have h1 := h.orc o'
      have h2 := usesB_pos ho'
      unfold Db.orc at h1
      split <;> omega
    simp [hpos]
  have hsum := fun x => AL.sumBy_set (fun _ (v : Nat) => if v = x then (1 : Int) else 0) h.nkB (id, b) o
  refine { h with nkB := h.nkB.set _ _, nkO := ?_, bin := ?_, orc := ?_, opos := ?_ }
  · show AL.NK (match AL.get db.blocks (id, b) with
      | some o' => derefObj (refObj db.objects o) o' | none => refObj db.objects o)
    cases ho : AL.get db.blocks (id, b) with
    | none => exact hr.1
    | some o' => exact (hd o' ho).1
  · intro i b' o'' hb'
    simp only [AL.get_set] at hb'
    split at hb'
    · rename_i he; cases he; exact ⟨ino, hi, hb⟩
    · exact h.bin _ _ _ hb'
  · intro x
    show (AL.get (match AL.get db.blocks (id, b) with
      | some o' => derefObj (refObj db.objects o) o' | none => refObj db.objects o) x).getD 0 = AL.sumBy _ _
    rw [hsum x]
    have h1 := h.orc x
    unfold Db.orc Db.usesB at h1
    cases ho : AL.get db.blocks (id, b) with
    | none =>
      simp only [hr.2.2 x, eq_comm (a := x), Option.map_none, Option.getD_none]
      split <;> omega
    | some o' =>
      simp only [(hd o' ho).2.2 x, eq_comm (a := x), Option.map_some, Option.getD_some]
      split <;> split <;> omega
  · show ∀ x r, AL.get (match AL.get db.blocks (id, b) with
      | some o' => derefObj (refObj db.objects o) o' | none => refObj db.objects o) x = some r → 0 < r
    cases ho : AL.get db.blocks (id, b) with
    | none => exact hr.2.1
    | some o' => exact (hd o' ho).2.1

/-! #### Purging an inode -/

theorem lt_ceilDiv {b m size : Nat} (hm : 0 < m) (h : b * m < size) : b < ceilDiv size m := by
  unfold ceilDiv
  rw [Nat.lt_div_iff_mul_lt hm]
  have : b * m = m * b := Nat.mul_comm _ _
  omega

theorem sumBy_filter_key {κ ν : Type} (f : κ → ν → Int) (l : List (κ × ν)) (p : κ → Bool) :
    AL.sumBy f (l.filter (fun e => p e.1)) = AL.sumBy (fun k v => if p k then f k v else 0) l := by
  induction l with
  | nil => rfl
  | cons e t ih =>
    rw [List.filter_cons]
    by_cases hp : p e.1
    · simp [hp, AL.sumBy, ih]
    · simp [hp, AL.sumBy, ih]

theorem sumBy_add {κ ν : Type} (f g : κ → ν → Int) (l : List (κ × ν)) :
    AL.sumBy (fun k v => f k v + g k v) l = AL.sumBy f l + AL.sumBy g l := by
  induction l with
  | nil => rfl
  | cons e t ih => simp only [AL.sumBy, ih]; omega

theorem sumBy_congr' {κ ν : Type} (f g : κ → ν → Int) (l : List (κ × ν)) (h : ∀ k v, f k v = g k v) :
    AL.sumBy f l = AL.sumBy g l := by
  have : f = g := by funext k v; exact h k v
  rw [this]

/-- The number of rows with one given key is 1 or 0. -/
theorem sumBy_single {κ ν : Type} [DecidableEq κ] (l : List (κ × ν)) (hn : AL.NK l) (k : κ) :
    AL.sumBy (fun k' _ => if k' = k then 1 else 0) l = if (AL.get l k).isSome then 1 else 0 := by
  induction l with
  | nil => rfl
  | cons e t ih =>
    obtain ⟨k', v⟩ := e
    have h := AL.NK.cons_inv hn
    simp only [AL.sumBy, AL.get, ih h.2]
    by_cases he : k' = k
    · subst he; simp [h.1]
    · simp [he]

theorem mem_xattrNames {l : List ((Nat × Nat) × Bytes)} (hn : AL.NK l) (id k : Nat) :
    k ∈ xattrNames l id ↔ AL.get l (id, k) ≠ none := by
  unfold xattrNames
  simp only [List.mem_map, List.mem_filter, beq_iff_eq]
  constructor
  · rintro ⟨⟨⟨a, b⟩, v⟩, ⟨h1, h2⟩, h3⟩
    simp only at h2 h3; subst h2 h3
    rw [AL.mem_get_some hn h1]; simp
  · intro h
    cases hg : AL.get l (id, k) with
    | none => exact absurd hg h
    | some v => exact ⟨((id, k), v), ⟨AL.get_some_mem hg, rfl⟩, rfl⟩

theorem get_map_val {κ ν : Type} [DecidableEq κ] (l : List (κ × ν)) (f : κ → ν → ν) (k : κ) :
    AL.get (l.map (fun e => (e.1, f e.1 e.2))) k = (AL.get l k).map (f k) := by
  induction l with
  | nil => rfl
  | cons e t ih =>
    obtain ⟨k', v⟩ := e
    simp only [List.map_cons, AL.get]
    by_cases he : k' = k
    · subst he; simp
    · simp [he, ih]

theorem NK_map_val {κ ν : Type} {l : List (κ × ν)} (h : AL.NK l) (f : κ → ν → ν) :
    AL.NK (l.map (fun e => (e.1, f e.1 e.2))) := by
  unfold AL.NK at *
  rw [List.map_map]
  exact h

theorem get_filter_val {κ ν : Type} [DecidableEq κ] (l : List (κ × ν)) (hn : AL.NK l) (p : κ × ν → Bool) (k : κ) :
    AL.get (l.filter p) k = (AL.get l k).bind (fun v => if p (k, v) then some v else none) := by
  induction l with
  | nil => rfl
  | cons e t ih =>
    obtain ⟨k', v⟩ := e
    have h := AL.NK.cons_inv hn
    rw [List.filter_cons]
    by_cases he : k' = k
    · subst he
      by_cases hp : p (k', v)
      · simp [hp, AL.get]
      · simp [hp, AL.get, ih h.2, h.1]
    · by_cases hp : p (k', v)
      · simp [hp, AL.get, he, ih h.2]
      · simp [hp, AL.get, he, ih h.2]

/-- The names table after purging an inode. -/
def purgeNames (names : List (Nat × (Bytes × Int))) (xs : List Nat) : List (Nat × (Bytes × Int)) :=
  (names.map (fun e => if e.1 ∈ xs then (e.1, (e.2.1, e.2.2 - 1)) else e)).filter
    (fun e => !(decide (e.1 ∈ xs) && e.2.2 == 0))

theorem get_purgeNames (names : List (Nat × (Bytes × Int))) (hn : AL.NK names) (xs : List Nat) (k : Nat) :
    AL.NK (purgeNames names xs) ∧
    AL.get (purgeNames names xs) k = (AL.get names k).bind (fun v =>
      if k ∈ xs then (if v.2 = 1 then none else some (v.1, v.2 - 1)) else some v) := by
  have e : names.map (fun e => if e.1 ∈ xs then (e.1, (e.2.1, e.2.2 - 1)) else e) =
      names.map (fun e => (e.1, (fun (k : Nat) (v : Bytes × Int) => if k ∈ xs then (v.1, v.2 - 1) else v) e.1 e.2)) := by
    apply List.map_congr_left
    intro e _
    by_cases h : e.1 ∈ xs <;> simp [h]
  have hn' := NK_map_val hn (fun (k : Nat) (v : Bytes × Int) => if k ∈ xs then (v.1, v.2 - 1) else v)
  unfold purgeNames
  rw [e]
  refine ⟨NK_filter hn' _, ?_⟩
  rw [get_filter_val _ hn', get_map_val names (fun (k : Nat) (v : Bytes × Int) => if k ∈ xs then (v.1, v.2 - 1) else v)]
  cases AL.get names k with
  | none => rfl
  | some v =>
    obtain ⟨a, r⟩ := v
    simp only [Option.map_some, Option.bind_some]
    by_cases hk : k ∈ xs
    · simp only [hk, if_true, decide_true, Bool.true_and]
      by_cases hr : r = 1
      · subst hr; simp
      · rw [if_neg hr, if_pos]
        simp; omega
    · simp [hk]

theorem Acc.purge {m : Nat} {db : Db} {L : Nat → Int} (h : Acc T m db (fun _ => 0) L) (hL : ∀ k, 0 ≤ L k) (hm : 0 < m) {id : Nat} {ino : Inode}
    (hi : AL.get db.inodes id = some ino) (hr : ino.refcount = 0) :
    Acc T m (db.purge id ino.size m) (fun _ => 0) L := by
  have h0 : db.rc id = 0 := by simp [Db.rc, hi, hr]
  obtain ⟨h1, hb⟩ := h.cacheRemove id 0 (ceilDiv ino.size m)
  generalize hdb1 : db.cacheRemove id 0 (ceilDiv ino.size m) = db1 at h1 hb
  have hi1 : db1.inodes = db.inodes := by rw [← hdb1]; rfl
  have hdef : db.purge id ino.size m = { db1 with names := purgeNames db1.names (xattrNames db1.xattrs id), xattrs := db1.xattrs.filter (fun e => !(e.1.1 == id)), symlinks := AL.erase db1.symlinks id, inodes := AL.erase db1.inodes id } := by
    unfold Db.purge purgeNames
    rw [hdb1]
  have hrcid : db1.rc id = 0 := by simp [Db.rc, hi1, hi, hr]
  have hrc : ∀ i, (db.purge id ino.size m).rc i = db1.rc i := by
    intro i
    rw [hdef]
    simp only [Db.rc, AL.get_erase]
    split
    · rename_i he; subst he; unfold Db.rc at hrcid; rw [hrcid]; rfl
    · rfl
  have hlinks : ∀ i, (db.purge id ino.size m).links i = db1.links i := by intro i; rw [hdef]; rfl
  have hx : ∀ i k, AL.get (db.purge id ino.size m).xattrs (i, k) = if i = id then none else AL.get db1.xattrs (i, k) := by
    intro i k
    rw [hdef]
    show AL.get (db1.xattrs.filter (fun e => !(e.1.1 == id))) (i, k) = _
    rw [get_filter_key db1.xattrs (fun e => !(e.1 == id))]
    by_cases he : i = id <;> simp [he]
  have hnm : ∀ k, AL.get (db.purge id ino.size m).names k = (AL.get db1.names k).bind (fun v =>
      if k ∈ xattrNames db1.xattrs id then (if v.2 = 1 then none else some (v.1, v.2 - 1)) else some v) := by
    intro k; rw [hdef]; exact (get_purgeNames _ h1.nkN _ k).2
  have hne : ∀ i, i ≠ id → AL.get (db.purge id ino.size m).inodes i = AL.get db1.inodes i := by
    intro i hne; rw [hdef]; simp [AL.get_erase, hne]
  have hcont : (db.purge id ino.size m).contents = db1.contents := by rw [hdef]
  have hblk : (db.purge id ino.size m).blocks = db1.blocks := by rw [hdef]
  have hobj : (db.purge id ino.size m).objects = db1.objects := by rw [hdef]
  have hsq : (db.purge id ino.size m).seq = db1.seq := by rw [hdef]
  refine ⟨?_, ?_, ?_, ?_, ?_, ?_, ?_, ?_, ?_, ?_, ?_, ?_, ?_, ?_, ?_, ?_, ?_, ?_⟩
  · rw [hdef]; exact h1.nkI.erase _
  · rw [hdef]; exact (get_purgeNames _ h1.nkN _ 0).1
  · rw [hcont]; exact h1.nkC
  · rw [hdef]; exact NK_filter h1.nkX _
  · rw [hdef]; exact h1.nkS.erase _
  · rw [hblk]; exact h1.nkB
  · rw [hobj]; exact h1.nkO
  · intro a b n r q ha hb'
    rw [hnm] at ha hb'
    have key : ∀ x p, (AL.get db1.names x).bind (fun v => if x ∈ xattrNames db1.xattrs id then
        (if v.2 = 1 then none else some (v.1, v.2 - 1)) else some v) = some (n, p) →
        ∃ p', AL.get db1.names x = some (n, p') := by
      intro x p hx
      cases hg : AL.get db1.names x with
      | none => rw [hg] at hx; cases hx
      | some v =>
        rw [hg] at hx
        simp only [Option.bind_some] at hx
        split at hx
        · split at hx
          · cases hx
          · simp only [Option.some.injEq, Prod.mk.injEq] at hx
            exact ⟨v.2, by rw [← hx.1]⟩
        · simp only [Option.some.injEq] at hx
          exact ⟨p, by rw [hx]⟩
    obtain ⟨_, h3⟩ := key _ _ ha
    obtain ⟨_, h4⟩ := key _ _ hb'
    exact h1.nuniq _ _ _ _ _ h3 h4
  · intro i; rw [hrc, hlinks]; exact h1.rc i
  · intro k
    have e1 : (db.purge id ino.size m).usesC k = db1.usesC k := by unfold Db.usesC; rw [hcont]
    have e2 : (db.purge id ino.size m).usesX k = db1.usesX k - if k ∈ xattrNames db1.xattrs id then 1 else 0 := by
      unfold Db.usesX
      rw [hdef]
      show AL.sumBy _ (db1.xattrs.filter (fun e => !(e.1.1 == id))) = _
      rw [sumBy_filter_key (fun (e : Nat × Nat) (_ : Bytes) => if e.2 = k then (1 : Int) else 0) db1.xattrs (fun e => !(e.1 == id))]
      have e3 := sumBy_single db1.xattrs h1.nkX (id, k)
      have e4 := sumBy_add (fun (e : Nat × Nat) (_ : Bytes) => if (!(e.1 == id)) then (if e.2 = k then (1 : Int) else 0) else 0)
        (fun (e : Nat × Nat) (_ : Bytes) => if e = (id, k) then (1 : Int) else 0) db1.xattrs
      have e5 := sumBy_congr' (fun (e : Nat × Nat) (_ : Bytes) => (if (!(e.1 == id)) then (if e.2 = k then (1 : Int) else 0) else 0) + if e = (id, k) then (1 : Int) else 0)
        (fun (e : Nat × Nat) (_ : Bytes) => if e.2 = k then (1 : Int) else 0) db1.xattrs (by
          rintro ⟨a, b⟩ _
          by_cases h1 : a = id <;> by_cases h2 : b = k <;> simp [h1, h2])
      rw [e3] at e4
      rw [e5] at e4
      have e6 : (if (AL.get db1.xattrs (id, k)).isSome then (1 : Int) else 0) = if k ∈ xattrNames db1.xattrs id then 1 else 0 := by
        simp only [mem_xattrNames h1.nkX]
        cases AL.get db1.xattrs (id, k) <;> simp
      rw [e6] at e4
      omega
    have e3 : (db.purge id ino.size m).nr k = db1.nr k - if k ∈ xattrNames db1.xattrs id then
        (if (AL.get db1.names k).isSome then 1 else 0) else 0 := by
      unfold Db.nr
      rw [hnm]
      cases hg : AL.get db1.names k with
      | none => simp
      | some v =>
        simp only [Option.bind_some]
        split
        · split
          · rename_i hv; simp [hv]
          · simp
        · simp
    rw [e1, e2, e3]
    have := h1.nr k
    by_cases hk : k ∈ xattrNames db1.xattrs id
    · simp only [hk, if_true]
      cases hg : AL.get db1.names k with
      | some v => simp; omega
      | none =>
        have h3 : db1.nr k = 0 := by simp [Db.nr, hg]
        have h4 := usesC_nonneg db1 k
        have h5 := hL k
        obtain ⟨v, hv⟩ := Option.ne_none_iff_exists'.1 ((mem_xattrNames h1.nkX id k).1 hk)
        have h6 := usesX_pos hv
        omega
    · simp only [hk, if_false]; omega
  · intro k n r hk
    rw [hnm] at hk
    cases hg : AL.get db1.names k with
    | none => rw [hg] at hk; cases hk
    | some v =>
      have hp := h1.npos k v.1 v.2 hg
      rw [hg] at hk
      simp only [Option.bind_some] at hk
      split at hk
      · split at hk
        · cases hk
        · simp only [Option.some.injEq, Prod.mk.injEq] at hk; omega
      · simp only [Option.some.injEq] at hk; rw [hk] at hp; exact hp
  · intro p k c hc; rw [hrc]; rw [hcont] at hc; exact h1.par _ _ _ hc
  · intro i k v hv
    rw [hx] at hv
    split at hv
    · cases hv
    · rename_i he; rw [hne _ he]; exact h1.xin _ _ _ hv
  · intro i v hv
    rw [hdef] at hv
    simp only [AL.get_erase] at hv
    split at hv
    · cases hv
    · rename_i he; rw [hne _ he]; exact h1.sin _ _ hv
  · intro i b o hb'
    rw [hblk] at hb'
    by_cases he : i = id
    · subst he
      have hb2 := hb'
      rw [hb] at hb2
      obtain ⟨j, hj, hjs⟩ := h1.bin _ _ _ hb'
      rw [hi1, hi] at hj; cases hj
      rw [if_pos ⟨rfl, Nat.zero_le _, lt_ceilDiv hm hjs⟩] at hb2
      cases hb2
    · rw [hne _ he]; exact h1.bin _ _ _ hb'
  · intro o; unfold Db.orc Db.usesB; rw [hobj, hblk]; exact h1.orc o
  · rw [hobj]; exact h1.opos
  · intro i hi'
    rw [hsq]
    by_cases he : i = id
    · subst he; rw [hdef] at hi'; simp [AL.get_erase] at hi'
    · rw [hne _ he] at hi'; exact h1.seq _ hi'

end Verif.Fs
