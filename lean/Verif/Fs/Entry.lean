/-
The effect of the elementary updates on the directory entries, seen as a map from (directory, name) to inode.
-/
import Verif.Fs.Acc

namespace Verif.Fs

variable {T : Nat → Prop}

/-- the name stored under an id -/
def Db.nm (db : Db) (k : Nat) : Option Bytes := (AL.get db.names k).map (·.1)

theorem nm_some {db : Db} {k : Nat} {n : Bytes} : db.nm k = some n ↔ ∃ r, AL.get db.names k = some (n, r) := by
  unfold Db.nm
  cases AL.get db.names k with
  | none => simp
  | some v => obtain ⟨a, b⟩ := v; simp

theorem Acc.child_iff {m : Nat} {db : Db} {δ L : Nat → Int} (h : Acc T m db δ L) (p : Nat) (n : Bytes) (c : Nat) :
    db.child p n = some c ↔ ∃ k, db.nm k = some n ∧ AL.get db.contents (p, k) = some c := by
  unfold Db.child Db.nameId
  constructor
  · intro hc
    cases hf : findName db.names n with
    | none => simp [hf] at hc
    | some e =>
      obtain ⟨k, r⟩ := e
      simp only [hf, Option.map_some, Option.bind_some] at hc
      exact ⟨k, nm_some.2 ⟨r, findName_some h.nkN hf⟩, hc⟩
  · rintro ⟨k, hk, hc⟩
    obtain ⟨r, hr⟩ := nm_some.1 hk
    rw [(findName_iff h.nkN h.nuniq).2 hr]
    simpa using hc

theorem Acc.nameId_iff {m : Nat} {db : Db} {δ L : Nat → Int} (h : Acc T m db δ L) (n : Bytes) (k : Nat) :
    db.nameId n = some k ↔ db.nm k = some n := by
  unfold Db.nameId
  constructor
  · intro hc
    cases hf : findName db.names n with
    | none => simp [hf] at hc
    | some e =>
      obtain ⟨j, r⟩ := e
      simp only [hf, Option.map_some, Option.some.injEq] at hc
      subst hc
      exact nm_some.2 ⟨r, findName_some h.nkN hf⟩
  · intro hk
    obtain ⟨r, hr⟩ := nm_some.1 hk
    rw [(findName_iff h.nkN h.nuniq).2 hr]; rfl

theorem Acc.nm_inj {m : Nat} {db : Db} {δ L : Nat → Int} (h : Acc T m db δ L) {j k : Nat} {n : Bytes}
    (h1 : db.nm j = some n) (h2 : db.nm k = some n) : j = k := by
  obtain ⟨_, a⟩ := nm_some.1 h1
  obtain ⟨_, b⟩ := nm_some.1 h2
  exact h.nuniq _ _ _ _ _ a b

/-- a name in use is present -/
theorem Acc.nm_of_use {m : Nat} {db : Db} {δ L : Nat → Int} (h : Acc T m db δ L) {k : Nat} (hL : 0 ≤ L k)
    (hu : 0 < db.usesC k + db.usesX k) : ∃ n, db.nm k = some n := by
  have := h.nr k
  unfold Db.nm
  cases hg : AL.get db.names k with
  | none => simp [Db.nr, hg] at this; omega
  | some v => exact ⟨v.1, rfl⟩

theorem Acc.nm_of_C {m : Nat} {db : Db} {δ L : Nat → Int} (h : Acc T m db δ L) {p k c : Nat} (hL : 0 ≤ L k)
    (hc : AL.get db.contents (p, k) = some c) : ∃ n, db.nm k = some n :=
  h.nm_of_use hL (by have := usesC_pos hc; have := usesX_nonneg db k; omega)

theorem Acc.nm_of_X {m : Nat} {db : Db} {δ L : Nat → Int} (h : Acc T m db δ L) {p k : Nat} {v : Bytes} (hL : 0 ≤ L k)
    (hc : AL.get db.xattrs (p, k) = some v) : ∃ n, db.nm k = some n :=
  h.nm_of_use hL (by have := usesX_pos hc; have := usesC_nonneg db k; omega)

/-- an unused id has no entries -/
theorem no_C_of_fresh {m : Nat} {db : Db} {δ L : Nat → Int} (h : Acc T m db δ L) {k : Nat} (hL : 0 ≤ L k)
    (hk : db.nm k = none) (p : Nat) : AL.get db.contents (p, k) = none := by
  cases hc : AL.get db.contents (p, k) with
  | none => rfl
  | some c => obtain ⟨n, hn⟩ := h.nm_of_C hL hc; rw [hk] at hn; cases hn

theorem no_X_of_fresh {m : Nat} {db : Db} {δ L : Nat → Int} (h : Acc T m db δ L) {k : Nat} (hL : 0 ≤ L k)
    (hk : db.nm k = none) (p : Nat) : AL.get db.xattrs (p, k) = none := by
  cases hc : AL.get db.xattrs (p, k) with
  | none => rfl
  | some c => obtain ⟨n, hn⟩ := h.nm_of_X hL hc; rw [hk] at hn; cases hn

/-! #### What the updates of names leave alone -/

section
variable (db : Db) (n : Bytes)
theorem addName_rest : (db.addName n).1.inodes = db.inodes ∧ (db.addName n).1.contents = db.contents ∧
    (db.addName n).1.xattrs = db.xattrs ∧ (db.addName n).1.symlinks = db.symlinks ∧
    (db.addName n).1.blocks = db.blocks ∧ (db.addName n).1.objects = db.objects ∧ (db.addName n).1.seq = db.seq := by
  unfold Db.addName; split <;> exact ⟨rfl, rfl, rfl, rfl, rfl, rfl, rfl⟩
end

theorem delName_rest {db db' : Db} {n : Bytes} {k : Nat} (h : db.delName n = some (db', k)) :
    db'.inodes = db.inodes ∧ db'.contents = db.contents ∧ db'.xattrs = db.xattrs ∧ db'.symlinks = db.symlinks ∧
    db'.blocks = db.blocks ∧ db'.objects = db.objects ∧ db'.seq = db.seq := by
  unfold Db.delName at h
  split at h
  · split at h <;> cases h <;> exact ⟨rfl, rfl, rfl, rfl, rfl, rfl, rfl⟩
  · cases h

theorem Acc.nm_addName {m : Nat} {db : Db} {δ L : Nat → Int} (h : Acc T m db δ L) (n : Bytes) :
    (db.addName n).1.nm (db.addName n).2 = some n ∧
    (∀ k, k ≠ (db.addName n).2 → (db.addName n).1.nm k = db.nm k) ∧
    (db.nm (db.addName n).2 = none ∨ db.nm (db.addName n).2 = some n) ∧
    (∀ k, db.nm k = some n → k = (db.addName n).2) := by
  obtain ⟨_, h2, h3, h4, h5⟩ := h.addName n
  refine ⟨nm_some.2 h2, ?_, ?_, ?_⟩
  · intro k hk; unfold Db.nm; rw [h3 k hk]
  · rcases h5 with h5 | h5
    · left; simp [Db.nm, h5]
    · right; exact nm_some.2 h5
  · intro k hk; obtain ⟨r, hr⟩ := nm_some.1 hk; exact h4 k r hr

theorem Acc.nm_delName {m : Nat} {db db' : Db} {δ L : Nat → Int} (h : Acc T m db δ L) {n : Bytes} {i : Nat}
    (hd : db.delName n = some (db', i)) :
    db.nm i = some n ∧ (∀ k, k ≠ i → db'.nm k = db.nm k) ∧ (db'.nm i = some n ∨ db'.nm i = none) := by
  obtain ⟨_, h2, h3, h4⟩ := h.delName hd
  refine ⟨nm_some.2 h2, ?_, ?_⟩
  · intro k hk; unfold Db.nm; rw [h3 k hk]
  · cases hx : AL.get db'.names i with
    | none => right; simp [Db.nm, hx]
    | some v => left; rw [nm_some]; exact ⟨v.2, by rw [hx, ← h4 v.1 v.2 hx]⟩

theorem delName_some_iff (db : Db) (n : Bytes) (h : db.nameId n ≠ none) : ∃ db' i, db.delName n = some (db', i) := by
  unfold Db.delName
  unfold Db.nameId at h
  cases hf : findName db.names n with
  | none => simp [hf] at h
  | some e =>
    obtain ⟨j, r⟩ := e
    simp only
    split <;> exact ⟨_, _, rfl⟩

/-! #### Adding an entry -/

theorem Acc.addEntry {m : Nat} {db : Db} {δ L : Nat → Int} (h : Acc T m db δ L) (hL : ∀ k, 0 ≤ L k) {p : Nat} {n : Bytes} (c : Nat)
    (hp : 0 < db.rc p) (hn : db.child p n = none) :
    AL.get (db.addName n).1.contents (p, (db.addName n).2) = none ∧
    Acc T m { (db.addName n).1 with contents := AL.set (db.addName n).1.contents (p, (db.addName n).2) c } (bump δ c (-1)) L ∧
    ∀ p' n', ({ (db.addName n).1 with contents := AL.set (db.addName n).1.contents (p, (db.addName n).2) c } : Db).child p' n' =
      if p' = p ∧ n' = n then some c else db.child p' n' := by
  have ha := (h.addName n).1
  obtain ⟨h1, h2, h3, h4⟩ := h.nm_addName n
  have hrest := addName_rest db n
  generalize hdb : (db.addName n).1 = db1 at *
  generalize hk : (db.addName n).2 = k at *
  have hnone : AL.get db1.contents (p, k) = none := by
    rw [hrest.2.1]
    rcases h3 with h3 | h3
    · exact no_C_of_fresh h (hL k) h3 p
    · cases hc : AL.get db.contents (p, k) with
      | none => rfl
      | some c' => have := (h.child_iff p n c').2 ⟨k, h3, hc⟩; rw [hn] at this; cases this
  have hrc : db1.rc p = db.rc p := by unfold Db.rc; rw [hrest.1]
  have hA : Acc T m { db1 with contents := AL.set db1.contents (p, k) c } (bump δ c (-1)) L := by
    refine (ha.insC c hnone (by rw [hrc]; exact Or.inl hp)).congr (fun _ => rfl) ?_
    intro i; simp only [bump]; split <;> omega
  refine ⟨hnone, hA, ?_⟩
  intro p' n'
  apply Option.ext
  intro c'
  rw [hA.child_iff]
  show (∃ j, db1.nm j = some n' ∧ AL.get (AL.set db1.contents (p, k) c) (p', j) = some c') ↔ _
  simp only [AL.get_set]
  constructor
  · rintro ⟨j, hj, hj2⟩
    split at hj2
    · rename_i he
      cases he
      rw [h1] at hj; cases hj
      rw [if_pos ⟨rfl, rfl⟩]; exact hj2
    · rename_i he
      have hnm : db.nm j = some n' := by
        by_cases hjk : j = k
        · subst hjk
          rw [h1] at hj; cases hj
          rcases h3 with h3 | h3
          · rw [hrest.2.1, no_C_of_fresh h (hL _) h3] at hj2; cases hj2
          · exact h3
        · rw [← h2 j hjk]; exact hj
      rw [hrest.2.1] at hj2
      rw [if_neg]
      · exact (h.child_iff _ _ _).2 ⟨j, hnm, hj2⟩
      · rintro ⟨rfl, rfl⟩
        have := (h.child_iff _ _ _).2 ⟨j, hnm, hj2⟩
        rw [hn] at this; cases this
  · intro hc
    split at hc
    · rename_i he
      obtain ⟨rfl, rfl⟩ := he
      refine ⟨k, h1, ?_⟩
      simpa using hc
    · obtain ⟨j, hj, hj2⟩ := (h.child_iff _ _ _).1 hc
      refine ⟨j, ?_, ?_⟩
      · by_cases hjk : j = k
        · subst hjk
          rcases h3 with h3 | h3
          · rw [h3] at hj; cases hj
          · rw [h3] at hj; cases hj; exact h1
        · rw [h2 j hjk]; exact hj
      · rw [if_neg, hrest.2.1]
        · exact hj2
        · intro he; cases he
          rw [← hrest.2.1, hnone] at hj2; cases hj2

/-! #### Removing an entry -/

theorem Acc.delEntry {m : Nat} {db : Db} {δ L : Nat → Int} (h : Acc T m db δ L) (hL : ∀ k, 0 ≤ L k) {p : Nat} {n : Bytes} {c : Nat}
    (hc : db.child p n = some c) : ∃ db' k, db.delName n = some (db', k) ∧ AL.get db'.contents (p, k) = some c ∧
    Acc T m { db' with contents := AL.erase db'.contents (p, k) } (bump δ c 1) L ∧
    ∀ p' n', ({ db' with contents := AL.erase db'.contents (p, k) } : Db).child p' n' =
      if p' = p ∧ n' = n then none else db.child p' n' := by
  obtain ⟨k0, hk0, hk1⟩ := (h.child_iff _ _ _).1 hc
  obtain ⟨db', k, hd⟩ := delName_some_iff db n (by rw [(h.nameId_iff n k0).2 hk0]; simp)
  have ha := (h.delName hd).1
  obtain ⟨h1, h2, h3⟩ := h.nm_delName hd
  have hrest := delName_rest hd
  have hkk := h.nm_inj hk0 h1
  subst hkk
  have hc' : AL.get db'.contents (p, k0) = some c := by rw [hrest.2.1]; exact hk1
  have hA : Acc T m { db' with contents := AL.erase db'.contents (p, k0) } (bump δ c 1) L := by
    refine (ha.delC hc').congr (fun _ => rfl) ?_
    intro i; simp only [bump]; split <;> omega
  refine ⟨db', k0, hd, hc', hA, ?_⟩
  intro p' n'
  apply Option.ext
  intro c'
  rw [hA.child_iff]
  show (∃ j, db'.nm j = some n' ∧ AL.get (AL.erase db'.contents (p, k0)) (p', j) = some c') ↔ _
  simp only [AL.get_erase]
  constructor
  · rintro ⟨j, hj, hj2⟩
    split at hj2
    · cases hj2
    · rename_i he
      have hnm : db.nm j = some n' := by
        by_cases hjk : j = k0
        · subst hjk
          rcases h3 with h3 | h3
          · rw [h3] at hj; cases hj; exact h1
          · rw [h3] at hj; cases hj
        · rw [← h2 j hjk]; exact hj
      rw [hrest.2.1] at hj2
      rw [if_neg]
      · exact (h.child_iff _ _ _).2 ⟨j, hnm, hj2⟩
      · rintro ⟨rfl, rfl⟩
        exact he (by rw [h.nm_inj hnm h1])
  · intro hc2
    split at hc2
    · cases hc2
    · rename_i he
      obtain ⟨j, hj, hj2⟩ := (h.child_iff _ _ _).1 hc2
      have hne : ¬((p', j) = (p, k0)) := by
        intro he2; cases he2
        rw [h1] at hj; cases hj
        exact he ⟨rfl, rfl⟩
      have hrow : AL.get ({ db' with contents := AL.erase db'.contents (p, k0) } : Db).contents (p', j) = some c' := by
        simp only [AL.get_erase, if_neg hne, hrest.2.1]; exact hj2
      obtain ⟨x, hx⟩ := hA.nm_of_C (hL j) hrow
      refine ⟨j, ?_, by rw [if_neg hne, hrest.2.1]; exact hj2⟩
      have hx' : db'.nm j = some x := hx
      by_cases hjk : j = k0
      · subst hjk
        rcases h3 with h3 | h3
        · rw [h1] at hj; cases hj; exact h3
        · rw [h3] at hx'; cases hx'
      · rw [h2 j hjk]; exact hj

/-! #### Moving an entry -/

theorem modInode_rest (db : Db) (id : Nat) (f : Inode → Inode) : (db.modInode id f).names = db.names ∧
    (db.modInode id f).contents = db.contents ∧ (db.modInode id f).xattrs = db.xattrs ∧
    (db.modInode id f).symlinks = db.symlinks ∧ (db.modInode id f).blocks = db.blocks ∧
    (db.modInode id f).objects = db.objects ∧ (db.modInode id f).seq = db.seq := by
  unfold Db.modInode; split <;> exact ⟨rfl, rfl, rfl, rfl, rfl, rfl, rfl⟩

theorem modInode_child (db : Db) (id : Nat) (f : Inode → Inode) (p : Nat) (n : Bytes) :
    (db.modInode id f).child p n = db.child p n := by
  unfold Db.child Db.nameId
  rw [(modInode_rest db id f).1, (modInode_rest db id f).2.1]

theorem modInode_get (db : Db) (id : Nat) (f : Inode → Inode) (i : Nat) :
    AL.get (db.modInode id f).inodes i = if i = id then (AL.get db.inodes id).map f else AL.get db.inodes i := by
  unfold Db.modInode
  cases hg : AL.get db.inodes id with
  | none => split <;> simp_all
  | some v => simp only [AL.get_set, Option.map_some]

theorem Acc.moveEntry {m : Nat} {db : Db} {L : Nat → Int} (h : Acc T m db (fun _ => 0) L) (hL : ∀ k, 0 ≤ L k)
    {po pn : Nat} {no nn : Bytes} {c : Nat} (now : Int)
    (hc : db.child po no = some c) (hn : db.child pn nn = none) (hp : 0 < db.rc pn) :
    ∃ db', renameTo db po no pn nn now = some db' ∧ Acc T m db' (fun _ => 0) L ∧
      (∀ p' n', db'.child p' n' = if p' = pn ∧ n' = nn then some c else if p' = po ∧ n' = no then none else db.child p' n') ∧
      (∀ i, AL.get db'.inodes i = (AL.get db.inodes i).map (fun ino => if i = po ∨ i = pn then touchDir now ino else ino)) ∧
      db'.xattrs = db.xattrs ∧ db'.symlinks = db.symlinks ∧ db'.blocks = db.blocks ∧ db'.objects = db.objects ∧ db'.seq = db.seq ∧
      (∀ k, db.nm k = db'.nm k ∨ db.nm k = none ∨ db'.nm k = none) := by
  have ha := (h.addName nn).1
  obtain ⟨h1, h2, h3, h4⟩ := h.nm_addName nn
  have hrest := addName_rest db nn
  obtain ⟨ko, hko, hco⟩ := (h.child_iff _ _ _).1 hc
  unfold renameTo
  generalize hdb : db.addName nn = e at *
  obtain ⟨db1, kn⟩ := e
  simp only at *
  -- the old name is still there
  have hnn : db1.nm ko = some no := by
    by_cases hk : ko = kn
    · subst hk
      rcases h3 with h3 | h3
      · rw [hko] at h3; cases h3
      · rw [hko] at h3; cases h3; exact h1
    · rw [h2 _ hk]; exact hko
  obtain ⟨db2, k2, hd⟩ := delName_some_iff db1 no (by rw [(ha.nameId_iff no ko).2 hnn]; simp)
  rw [hd]
  have ha2 := (ha.delName hd).1
  obtain ⟨g1, g2, g3⟩ := ha.nm_delName hd
  have hrest2 := delName_rest hd
  have hkk := ha.nm_inj hnn g1
  subst hkk
  have hcon : db2.contents = db.contents := by rw [hrest2.2.1, hrest.2.1]
  simp only [hcon, hco]
  -- contents
  have hco2 : AL.get db2.contents (po, ko) = some c := by rw [hcon]; exact hco
  have ha3 := ha2.delC hco2
  have hknnone : AL.get db.contents (pn, kn) = none := by
    rcases h3 with h3 | h3
    · exact no_C_of_fresh h (hL _) h3 pn
    · cases hx : AL.get db.contents (pn, kn) with
      | none => rfl
      | some c' => have := (h.child_iff pn nn c').2 ⟨kn, h3, hx⟩; rw [hn] at this; cases this
  have hrc2 : ∀ i, ({ db2 with contents := AL.erase db2.contents (po, ko) } : Db).rc i = db.rc i := by
    intro i
    unfold Db.rc
    show ((AL.get db2.inodes i).map _).getD 0 = _
    rw [hrest2.1, hrest.1]
  have ha4 := ha3.insC c (p := pn) (k := kn) (by simp only [AL.get_erase, hcon, hknnone]; split <;> rfl) (by rw [hrc2]; exact Or.inl hp)
  have hA : Acc T m { db2 with contents := AL.set (AL.erase db.contents (po, ko)) (pn, kn) c } (fun _ => 0) L := by
    rw [← hcon]
    refine ha4.congr ?_ ?_
    · intro i; simp only [bump]; split <;> omega
    · intro i; simp only [bump]; split <;> split <;> omega
  refine ⟨_, rfl, ?_, ?_, ?_, ?_⟩
  · exact (hA.modInode po (touchDir now) (fun _ => rfl) (fun i _ => Or.inl (Nat.le_refl _))).modInode pn (touchDir now) (fun _ => rfl) (fun i _ => Or.inl (Nat.le_refl _))
  · intro p' n'
    rw [modInode_child, modInode_child]
    apply Option.ext
    intro c'
    rw [hA.child_iff]
    show (∃ j, db2.nm j = some n' ∧ AL.get (AL.set (AL.erase db.contents (po, ko)) (pn, kn) c) (p', j) = some c') ↔ _
    have hnmkn : db2.nm kn = some nn := by
      obtain ⟨x, hx⟩ := hA.nm_of_C (p := pn) (k := kn) (c := c) (hL kn) (by simp [AL.get_set])
      have hx' : db2.nm kn = some x := hx
      by_cases hk : kn = ko
      · subst hk
        rcases g3 with g3 | g3
        · rw [g3]; rw [g1] at h1; exact h1
        · rw [g3] at hx'; cases hx'
      · rw [g2 kn hk]; exact h1
    simp only [AL.get_set, AL.get_erase]
    constructor
    · rintro ⟨j, hj, hj2⟩
      split at hj2
      · rename_i he; cases he
        rw [hnmkn] at hj; cases hj
        rw [if_pos ⟨rfl, rfl⟩]; exact hj2
      · rename_i he
        split at hj2
        · cases hj2
        · rename_i he2
          have hnm1 : db1.nm j = some n' := by
            by_cases hjk : j = ko
            · subst hjk
              rcases g3 with g3 | g3
              · rw [g3] at hj; cases hj; exact g1
              · rw [g3] at hj; cases hj
            · rw [← g2 j hjk]; exact hj
          have hnm : db.nm j = some n' := by
            by_cases hjk : j = kn
            · subst hjk
              rw [h1] at hnm1; cases hnm1
              rcases h3 with h3 | h3
              · rw [no_C_of_fresh h (hL _) h3] at hj2; cases hj2
              · exact h3
            · rw [← h2 j hjk]; exact hnm1
          rw [if_neg, if_neg]
          · exact (h.child_iff _ _ _).2 ⟨j, hnm, hj2⟩
          · rintro ⟨rfl, rfl⟩
            exact he2 (by rw [h.nm_inj hnm hko])
          · rintro ⟨rfl, rfl⟩
            have := (h.child_iff _ _ _).2 ⟨j, hnm, hj2⟩
            rw [hn] at this; cases this
    · intro hc2
      split at hc2
      · rename_i he
        obtain ⟨rfl, rfl⟩ := he
        exact ⟨kn, hnmkn, by simpa using hc2⟩
      · rename_i he
        split at hc2
        · cases hc2
        · rename_i he2
          obtain ⟨j, hj, hj2⟩ := (h.child_iff _ _ _).1 hc2
          have hne2 : ¬((p', j) = (po, ko)) := by
            intro hx; cases hx
            rw [hko] at hj; cases hj
            exact he2 ⟨rfl, rfl⟩
          have hne1 : ¬((p', j) = (pn, kn)) := by
            intro hx; cases hx
            rw [hknnone] at hj2; cases hj2
          refine ⟨j, ?_, by rw [if_neg hne1, if_neg hne2]; exact hj2⟩
          obtain ⟨x, hx⟩ := hA.nm_of_C (p := p') (k := j) (c := c') (hL j) (by simp only [AL.get_set, AL.get_erase, if_neg hne1, if_neg hne2]; exact hj2)
          have hx' : db2.nm j = some x := hx
          have hj1 : db1.nm j = some n' := by
            by_cases hjk : j = kn
            · subst hjk
              rcases h3 with h3 | h3
              · rw [h3] at hj; cases hj
              · rw [h3] at hj; cases hj; exact h1
            · rw [h2 j hjk]; exact hj
          by_cases hjk : j = ko
          · subst hjk
            rcases g3 with g3 | g3
            · rw [g1] at hj1; cases hj1; exact g3
            · rw [g3] at hx'; cases hx'
          · rw [g2 j hjk]; exact hj1
  · intro i
    rw [modInode_get, modInode_get, modInode_get]
    show (if i = pn then (if pn = po then (AL.get db2.inodes po).map _ else AL.get db2.inodes pn).map _ else _) = _
    simp only [hrest2.1, hrest.1]
    by_cases e1 : i = pn
    · subst e1
      by_cases e2 : i = po
      · subst e2
        simp only [if_true, Option.map_map]
        cases AL.get db.inodes i <;> simp [touchDir]
      · simp [e2]
    · by_cases e2 : i = po
      · subst e2; simp [e1]
      · simp [e1, e2]
  · have r1 := modInode_rest (({ db2 with contents := AL.set (AL.erase db.contents (po, ko)) (pn, kn) c } : Db).modInode po (touchDir now)) pn (touchDir now)
    have r2 := modInode_rest ({ db2 with contents := AL.set (AL.erase db.contents (po, ko)) (pn, kn) c } : Db) po (touchDir now)
    refine ⟨?_, ?_, ?_, ?_, ?_, ?_⟩
    · rw [r1.2.2.1, r2.2.2.1]; show db2.xattrs = _; rw [hrest2.2.2.1, hrest.2.2.1]
    · rw [r1.2.2.2.1, r2.2.2.2.1]; show db2.symlinks = _; rw [hrest2.2.2.2.1, hrest.2.2.2.1]
    · rw [r1.2.2.2.2.1, r2.2.2.2.2.1]; show db2.blocks = _; rw [hrest2.2.2.2.2.1, hrest.2.2.2.2.1]
    · rw [r1.2.2.2.2.2.1, r2.2.2.2.2.2.1]; show db2.objects = _; rw [hrest2.2.2.2.2.2.1, hrest.2.2.2.2.2.1]
    · rw [r1.2.2.2.2.2.2, r2.2.2.2.2.2.2]; show db2.seq = _; rw [hrest2.2.2.2.2.2.2, hrest.2.2.2.2.2.2]
    · intro k
      have e : ∀ (x : Db), ((x.modInode po (touchDir now)).modInode pn (touchDir now)).nm k = x.nm k := by
        intro x; unfold Db.nm; rw [(modInode_rest _ _ _).1, (modInode_rest _ _ _).1]
      rw [e]
      show db.nm k = db2.nm k ∨ db.nm k = none ∨ db2.nm k = none
      have c1 : db.nm k = db1.nm k ∨ db.nm k = none := by
        by_cases hk : k = kn
        · rcases h3 with h3 | h3
          · right; rw [hk]; exact h3
          · left; rw [hk, h3, h1]
        · left; rw [h2 k hk]
      have c2 : db1.nm k = db2.nm k ∨ db2.nm k = none := by
        by_cases hk : k = ko
        · rcases g3 with g3 | g3
          · left; rw [hk, g1, g3]
          · right; rw [hk]; exact g3
        · left; rw [g2 k hk]
      rcases c1 with c1 | c1
      · rcases c2 with c2 | c2
        · left; rw [c1, c2]
        · right; right; exact c2
      · right; left; exact c1

/-! #### Replacing the inode of an entry -/

theorem Acc.repEntry {m : Nat} {db : Db} {δ L : Nat → Int} (h : Acc T m db δ L) {p k : Nat} {n : Bytes} {c : Nat} (c' : Nat)
    (hk : db.nm k = some n) (hc : AL.get db.contents (p, k) = some c) :
    Acc T m { db with contents := AL.set db.contents (p, k) c' } (bump (bump δ c 1) c' (-1)) L ∧
    ∀ p' n', ({ db with contents := AL.set db.contents (p, k) c' } : Db).child p' n' =
      if p' = p ∧ n' = n then some c' else db.child p' n' := by
  have hA := h.repC c' hc
  refine ⟨hA, ?_⟩
  intro p' n'
  apply Option.ext
  intro x
  rw [hA.child_iff]
  show (∃ j, db.nm j = some n' ∧ AL.get (AL.set db.contents (p, k) c') (p', j) = some x) ↔ _
  simp only [AL.get_set]
  constructor
  · rintro ⟨j, hj, hj2⟩
    split at hj2
    · rename_i he; cases he
      rw [hk] at hj; cases hj
      rw [if_pos ⟨rfl, rfl⟩]; exact hj2
    · rename_i he
      rw [if_neg]
      · exact (h.child_iff _ _ _).2 ⟨j, hj, hj2⟩
      · rintro ⟨rfl, rfl⟩
        exact he (by rw [h.nm_inj hj hk])
  · intro hc2
    split at hc2
    · rename_i he
      obtain ⟨rfl, rfl⟩ := he
      exact ⟨k, hk, by simpa using hc2⟩
    · rename_i he
      obtain ⟨j, hj, hj2⟩ := (h.child_iff _ _ _).1 hc2
      refine ⟨j, hj, ?_⟩
      rw [if_neg]
      · exact hj2
      · intro hx; cases hx
        rw [hk] at hj; cases hj
        exact he ⟨rfl, rfl⟩

/-! #### Purging an inode leaves the entries alone -/

theorem purge_rest (db : Db) (id size m : Nat) : (db.purge id size m).contents = db.contents ∧
    (db.purge id size m).seq = db.seq ∧ (∀ i, AL.get (db.purge id size m).inodes i = if i = id then none else AL.get db.inodes i) := by
  refine ⟨rfl, rfl, ?_⟩
  intro i
  show AL.get (AL.erase db.inodes id) i = _
  rw [AL.get_erase]

theorem purge_xattrs (db : Db) (id size m : Nat) (i k : Nat) :
    AL.get (db.purge id size m).xattrs (i, k) = if i = id then none else AL.get db.xattrs (i, k) := by
  show AL.get (db.xattrs.filter (fun e => !(e.1.1 == id))) (i, k) = _
  rw [get_filter_key db.xattrs (fun e => !(e.1 == id))]
  by_cases he : i = id <;> simp [he]

theorem purge_symlinks (db : Db) (id size m : Nat) (i : Nat) :
    AL.get (db.purge id size m).symlinks i = if i = id then none else AL.get db.symlinks i := by
  show AL.get (AL.erase db.symlinks id) i = _
  rw [AL.get_erase]

theorem Acc.purge_nm {m : Nat} {db : Db} {L : Nat → Int} (h : Acc T m db (fun _ => 0) L) (id size m' k : Nat) :
    (db.purge id size m').nm k = db.nm k ∨ (db.purge id size m').nm k = none := by
  have hn : (db.purge id size m').names = purgeNames db.names (xattrNames db.xattrs id) := rfl
  have := (get_purgeNames db.names h.nkN (xattrNames db.xattrs id) k).2
  unfold Db.nm
  rw [hn, this]
  cases AL.get db.names k with
  | none => left; rfl
  | some v =>
    simp only [Option.bind_some]
    split
    · split
      · right; rfl
      · left; rfl
    · left; rfl

theorem Acc.purge_child {m : Nat} {db : Db} {L : Nat → Int} (h : Acc T m db (fun _ => 0) L) (hL : ∀ k, 0 ≤ L k) (hm : 0 < m)
    {id : Nat} {ino : Inode} (hi : AL.get db.inodes id = some ino) (hr : ino.refcount = 0) (p : Nat) (n : Bytes) :
    (db.purge id ino.size m).child p n = db.child p n := by
  have h' := h.purge hL hm hi hr
  apply Option.ext
  intro c
  rw [h'.child_iff, h.child_iff]
  constructor
  · rintro ⟨k, hk, hc⟩
    refine ⟨k, ?_, hc⟩
    rcases h.purge_nm id ino.size m k with h1 | h1
    · rw [← h1]; exact hk
    · rw [h1] at hk; cases hk
  · rintro ⟨k, hk, hc⟩
    refine ⟨k, ?_, hc⟩
    obtain ⟨x, hx⟩ := h'.nm_of_C (p := p) (k := k) (c := c) (hL k) hc
    rcases h.purge_nm id ino.size m k with h1 | h1
    · rw [h1]; exact hk
    · rw [h1] at hx; cases hx

end Verif.Fs
