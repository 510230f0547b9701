/-
The checks of inodes, extended attributes and symlinks.
-/
import Verif.Fsck.Objects

namespace Verif.Fsck
open Verif.Fs (Bytes Inode rootInode ctrlInode)

theorem iCount_eq (db : Db) (k : Nat) : iCount db k = entriesTo db k := by
  unfold iCount entriesTo
  rw [List.countP_eq_length_filter]
  congr 2

theorem fixRef_some {w : Nat × Nat} {s s' : St} (h : fixRef w s = some s') :
    (s' = s ∧ (w.1 = rootInode ∨ w.1 = ctrlInode ∨ AL.get s.db.inodes w.1 = none)) ∨
    (∃ i, AL.get s.db.inodes w.1 = some i ∧
      ((w.2 = 0 ∧ ∃ n p n' db, s.db.resolveFree n = some (p, n') ∧
          (s.db.addName false n').1.insEntry ⟨p, (s.db.addName false n').2, w.1⟩ = some db ∧
          s' = { s.err with db := { db with inodes := AL.set db.inodes w.1 { i with refcount := 1 } } }) ∨
       (w.2 ≠ 0 ∧ s' = { s.err with db := { s.db with inodes := AL.set s.db.inodes w.1 { i with refcount := (w.2 : Int) } } }))) := by
  unfold fixRef at h
  by_cases hr : w.1 = rootInode ∨ w.1 = ctrlInode
  · rw [if_pos hr] at h; cases h
    rcases hr with hr | hr
    · exact Or.inl ⟨rfl, Or.inl hr⟩
    · exact Or.inl ⟨rfl, Or.inr (Or.inl hr)⟩
  · rw [if_neg hr] at h
    cases hg : AL.get s.db.inodes w.1 with
    | none => rw [hg] at h; cases h; exact Or.inl ⟨rfl, Or.inr (Or.inr rfl)⟩
    | some i =>
      rw [hg] at h
      dsimp only at h
      right
      refine ⟨i, rfl, ?_⟩
      by_cases h0 : w.2 = 0
      · rw [if_pos h0] at h
        left
        refine ⟨h0, ?_⟩
        cases hf : s.db.resolveFree ([105, 110, 111, 100, 101, 45] ++ dec w.1) with
        | none => rw [hf] at h; cases h
        | some x =>
          rw [hf] at h
          dsimp only at h
          cases hp : (s.db.addName false x.2).1.insEntry ⟨x.1, (s.db.addName false x.2).2, w.1⟩ with
          | none => rw [hp] at h; cases h
          | some db =>
            rw [hp] at h
            exact ⟨_, x.1, x.2, db, hf, hp, (Option.some.inj h).symm⟩
      · rw [if_neg h0] at h
        right
        refine ⟨h0, ?_⟩
        split at h
        · exact (Option.some.inj h).symm
        · cases h

theorem entries_ins {db : Db} (hs : Schema db) {r : CRow} (j : Nat) :
    entriesTo { db with contents := AL.set db.contents (db.cseq + 1) r, cseq := db.cseq + 1 } j =
      entriesTo db j + if r.inode = j then 1 else 0 := by
  unfold entriesTo
  dsimp only
  rw [countP_set_new _ (fresh_row hs)]
  simp

/-- What checks of inodes preserve. -/
structure Kept (db db' : Db) : Prop where
  blocks : db'.blocks = db.blocks
  objects : db'.objects = db.objects
  inodes : keys db'.inodes = keys db.inodes
  entries : EntriesHaveInode db → EntriesHaveInode db'
  parents : EntriesHaveInode db → EntriesHaveParent db → EntriesHaveParent db'

theorem Kept.refl (db : Db) : Kept db db := ⟨rfl, rfl, rfl, id, fun _ h => h⟩
theorem Kept.trans {a b c : Db} (h1 : Kept a b) (h2 : Kept b c) : Kept a c :=
  ⟨h2.blocks.trans h1.blocks, h2.objects.trans h1.objects, h2.inodes.trans h1.inodes, fun h => h2.entries (h1.entries h),
    fun h h' => h2.parents (h1.entries h) (h1.parents h h')⟩

theorem Kept.hasInode {a b : Db} (h : Kept a b) {k : Nat} : HasInode b k ↔ HasInode a k := by
  unfold HasInode
  rw [← mem_keys, ← mem_keys, h.inodes]

theorem Moved.kept {a b : Db} (h : Moved a b) : Kept a b := by
  refine ⟨?_, ?_, ?_, h.entriesHaveInode, h.entriesHaveParent⟩ <;> rw [h.1]

theorem Kept.setInodes {db : Db} {l : List (Nat × Inode)} (h : keys l = keys db.inodes) : Kept db { db with inodes := l } := by
  have hi : ∀ k, HasInode db k → HasInode { db with inodes := l } k := by
    intro k hk
    unfold HasInode at *
    rw [← mem_keys] at *
    dsimp only
    rw [h]; exact hk
  exact ⟨rfl, rfl, h, fun he e hm => hi _ (he e hm), fun _ hp e hm => hi _ (hp e hm)⟩

theorem Kept.ins {db db' : Db} (hs : Schema db) {r : CRow} (h : db.insEntry r = some db') (hi : HasInode db r.inode)
    (hp : ∃ e ∈ db.contents, e.2.inode = r.parent) : Kept db db' := by
  obtain ⟨hdb, _⟩ := insEntry_some h
  subst hdb
  refine ⟨rfl, rfl, rfl, ?_, ?_⟩
  · intro he e hm
    rcases (mem_set hs.contents).1 hm with rfl | ⟨h1, _⟩
    · exact hi
    · exact he e h1
  · intro he hpar e hm
    rcases (mem_set hs.contents).1 hm with rfl | ⟨h1, _⟩
    · obtain ⟨f, hf, hfp⟩ := hp
      show HasInode db r.parent
      rw [← hfp]; exact he f hf
    · exact hpar e h1

/-- State of the loop of check_inodes_refcount: the rest of the list, and the inodes done. -/
def RefInv (l : List (Nat × Nat)) (db : Db) : Prop :=
  ∀ e ∈ db.inodes, Plain e.1 →
    (∃ n, (e.1, n) ∈ l ∧ entriesTo db e.1 = n) ∨
    ((∀ n, (e.1, n) ∉ l) ∧ e.2.refcount = (entriesTo db e.1 : Nat) ∧ entriesTo db e.1 ≠ 0)

theorem fixRef_step {w : Nat × Nat} {l : List (Nat × Nat)} {s s' : St} (hs : Schema s.db) (h : fixRef w s = some s')
    (hw : ∀ n, (w.1, n) ∉ l) (hi : RefInv (w :: l) s.db) :
    Schema s'.db ∧ Kept s.db s'.db ∧ (NExact s.db → NExact s'.db) ∧ RefInv l s'.db ∧
      s'.db.xattrs = s.db.xattrs ∧ s'.db.symlinks = s.db.symlinks ∧ s'.backend = s.backend := by
  rcases fixRef_some h with ⟨rfl, hc⟩ | ⟨i, hg, ⟨h0, n, p, n', db, hf, hins, rfl⟩ | ⟨h0, rfl⟩⟩
  · refine ⟨hs, Kept.refl _, id, ?_, rfl, rfl, rfl⟩
    intro e he hpl
    have hne : e.1 ≠ w.1 := by
      intro hk
      rcases hc with hc | hc | hc
      · exact hpl.1 (hk.trans hc)
      · exact hpl.2 (hk.trans hc)
      · exact isNone_iff_mem.1 (by rw [hc]; rfl) ⟨e.2, by rw [← hk]; exact he⟩
    rcases hi e he hpl with ⟨n, hn, hc'⟩ | ⟨hn, hc'⟩
    · rcases List.mem_cons.1 hn with rfl | hn
      · exact absurd rfl hne
      · exact Or.inl ⟨n, hn, hc'⟩
    · exact Or.inr ⟨fun n hm => hn n (List.mem_cons_of_mem _ hm), hc'⟩
  · -- an entry is created
    have hs1 := hs.addName false n'
    have hs2 := hs1.insEntry hins
    have hk1 := (Moved.addName hs.names false n').kept
    have hent : HasInode s.db w.1 := ⟨i, AL.get_some_mem hg⟩
    have hpar : ∃ e ∈ (s.db.addName false n').1.contents, e.2.inode = p := by
      obtain ⟨e, he, hp⟩ := resolveFree_entry hf
      exact ⟨e, by rw [get_addName_contents hs.names]; exact he, hp⟩
    have hk2 := Kept.ins hs1 hins (hk1.hasInode.2 hent) hpar
    have hdb := (insEntry_some hins).1
    have hg2 : AL.get db.inodes w.1 = some i := by
      rw [hdb, addName_other hs.names]; exact hg
    have hk3 := Kept.setInodes (db := db) (l := AL.set db.inodes w.1 { i with refcount := 1 }) (keys_set _ hg2)
    have hcount : ∀ j, entriesTo db j = entriesTo s.db j + if w.1 = j then 1 else 0 := by
      intro j
      rw [hdb]
      have := entries_ins hs1 (r := ⟨p, (s.db.addName false n').2, w.1⟩) j
      rw [this]
      congr 1
      unfold entriesTo
      rw [get_addName_contents hs.names]
    refine ⟨hs2.setInode _ hg2, (hk1.trans hk2).trans hk3, ?_, ?_, ?_, ?_, rfl⟩
    · intro hn
      have h1 := NBal.addName hn hs.names false n'
      have h2 := h1.ins hs1 (r := ⟨p, (s.db.addName false n').2, w.1⟩)
      rw [← hdb] at h2
      exact h2.congr (fun k => by dsimp only; omega)
    · intro e he hpl
      have hcnt : ∀ j, entriesTo { db with inodes := AL.set db.inodes w.1 { i with refcount := 1 } } j = entriesTo db j := fun _ => rfl
      dsimp only at he ⊢
      rw [hcnt, hcount]
      rcases (mem_set hs2.inodes).1 he with rfl | ⟨h1, h2⟩
      · right
        have hz : entriesTo s.db w.1 = 0 := by
          rcases hi (w.1, i) (AL.get_some_mem hg) hpl with ⟨m, hm, hc⟩ | ⟨hn, _⟩
          · rcases List.mem_cons.1 hm with hm | hm
            · rw [hc]; have := (Prod.mk.inj hm.symm).2; dsimp only at *; rw [← h0]; exact congrArg Prod.snd hm
            · exact absurd hm (hw m)
          · exact absurd List.mem_cons_self (hn w.2)
        refine ⟨hw, ?_, ?_⟩
        · dsimp only; rw [hz, if_pos rfl]; rfl
        · dsimp only; rw [hz, if_pos rfl]; omega
      · have hne : ¬ w.1 = e.1 := fun hk => h2 hk.symm
        rw [if_neg hne, Nat.add_zero]
        have he' : e ∈ s.db.inodes := by rw [hdb, addName_other hs.names] at h1; exact h1
        rcases hi e he' hpl with ⟨m, hm, hc⟩ | ⟨hn, hc⟩
        · rcases List.mem_cons.1 hm with hm | hm
          · exact absurd (congrArg Prod.fst hm) h2
          · exact Or.inl ⟨m, hm, hc⟩
        · exact Or.inr ⟨fun m hm => hn m (List.mem_cons_of_mem _ hm), hc⟩
    · show db.xattrs = _; rw [hdb, addName_other hs.names]
    · show db.symlinks = _; rw [hdb, addName_other hs.names]
  · refine ⟨hs.setInode _ hg, Kept.setInodes (keys_set _ hg), id, ?_, rfl, rfl, rfl⟩
    intro e he hpl
    have hcnt : entriesTo { s.db with inodes := AL.set s.db.inodes w.1 { i with refcount := (w.2 : Int) } } e.1 = entriesTo s.db e.1 := rfl
    dsimp only at he ⊢
    rw [hcnt]
    rcases (mem_set hs.inodes).1 he with rfl | ⟨h1, h2⟩
    · right
      refine ⟨hw, ?_⟩
      rcases hi (w.1, i) (AL.get_some_mem hg) hpl with ⟨m, hm, hc⟩ | ⟨hn, _⟩
      · rcases List.mem_cons.1 hm with hm | hm
        · have : m = w.2 := congrArg Prod.snd hm
          subst this
          dsimp only at hc ⊢
          rw [hc]; exact ⟨rfl, h0⟩
        · exact absurd hm (hw m)
      · exact absurd List.mem_cons_self (hn w.2)
    · rcases hi e h1 hpl with ⟨m, hm, hc⟩ | ⟨hn, hc⟩
      · rcases List.mem_cons.1 hm with hm | hm
        · exact absurd (congrArg Prod.fst hm) h2
        · exact Or.inl ⟨m, hm, hc⟩
      · exact Or.inr ⟨fun m hm => hn m (List.mem_cons_of_mem _ hm), hc⟩

theorem iter_fixRef {l : List (Nat × Nat)} {s s' : St} (hs : Schema s.db) (hl : (l.map (·.1)).Nodup)
    (h : iter fixRef l s = some s') (hi : RefInv l s.db) :
    Schema s'.db ∧ Kept s.db s'.db ∧ (NExact s.db → NExact s'.db) ∧ RefInv [] s'.db ∧
      s'.db.xattrs = s.db.xattrs ∧ s'.db.symlinks = s.db.symlinks ∧ s'.backend = s.backend := by
  induction l generalizing s with
  | nil => cases h; exact ⟨hs, Kept.refl _, id, hi, rfl, rfl, rfl⟩
  | cons w t ih =>
    unfold iter at h
    obtain ⟨s1, h1, h⟩ := Option.bind_eq_some_iff.1 h
    rw [List.map_cons, List.nodup_cons] at hl
    have hw : ∀ n, (w.1, n) ∉ t := fun n hn => hl.1 (List.mem_map.2 ⟨(w.1, n), hn, rfl⟩)
    obtain ⟨a1, a2, a3, a4, a5, a6, a7⟩ := fixRef_step hs h1 hw hi
    obtain ⟨b1, b2, b3, b4, b5, b6, b7⟩ := ih a1 hl.2 h a4
    exact ⟨b1, a2.trans b2, fun x => b3 (a3 x), b4, b5.trans a5, b6.trans a6, b7.trans a7⟩

theorem wrongRefs_nodup {db : Db} (hs : Schema db) : ((wrongRefs db).map (·.1)).Nodup := by
  have : List.Sublist ((wrongRefs db).map (·.1)) (db.inodes.map (·.1)) := by
    unfold wrongRefs
    induction db.inodes with
    | nil => exact List.Sublist.refl _
    | cons e t ih =>
      rw [List.filterMap_cons]
      split
      · exact ih.cons _
      · rename_i b hb
        split at hb
        · cases hb; exact ih.cons_cons _
        · cases hb
  exact this.nodup hs.inodes

theorem wrongRefs_inv {db : Db} : RefInv (wrongRefs db) db := by
  intro e he _
  by_cases hc : e.2.refcount ≠ (iCount db e.1 : Int) ∨ iCount db e.1 = 0
  · left
    refine ⟨iCount db e.1, ?_, (iCount_eq db e.1).symm⟩
    unfold wrongRefs
    exact List.mem_filterMap.2 ⟨e, he, by rw [if_pos hc]⟩
  · by_cases hm : ∃ n, (e.1, n) ∈ wrongRefs db
    · obtain ⟨n, hn⟩ := hm
      left
      refine ⟨n, hn, ?_⟩
      unfold wrongRefs at hn
      obtain ⟨f, hf, hfe⟩ := List.mem_filterMap.1 hn
      split at hfe
      · have := Option.some.inj hfe
        have h1 := congrArg Prod.fst this
        have h2 := congrArg Prod.snd this
        dsimp only at h1 h2
        rw [← h2, h1, iCount_eq]
      · cases hfe
    · right
      refine ⟨fun n hn => hm ⟨n, hn⟩, ?_⟩
      rw [← iCount_eq]
      omega

/-- Counts of inodes are exact, and every plain inode has an entry. -/
def RefsOk (db : Db) : Prop := ∀ e ∈ db.inodes, Plain e.1 → e.2.refcount = (entriesTo db e.1 : Nat) ∧ entriesTo db e.1 ≠ 0

theorem checkInodesRefcount_step {s s' : St} (hs : Schema s.db) (h : checkInodesRefcount s = some s') :
    Schema s'.db ∧ Kept s.db s'.db ∧ (NExact s.db → NExact s'.db) ∧ RefsOk s'.db ∧
      s'.db.xattrs = s.db.xattrs ∧ s'.db.symlinks = s.db.symlinks ∧ s'.backend = s.backend := by
  obtain ⟨a1, a2, a3, a4, a5⟩ := iter_fixRef hs (wrongRefs_nodup hs) h wrongRefs_inv
  refine ⟨a1, a2, a3, ?_, a5⟩
  intro e he hp
  rcases a4 e he hp with ⟨n, hn, _⟩ | ⟨_, h⟩
  · cases hn
  · exact h

/-! #### Sizes -/

/-- Only sizes and modes of inodes change. -/
def SameInodes (a b : List (Nat × Inode)) : Prop := a.map (fun e => (e.1, e.2.refcount)) = b.map (fun e => (e.1, e.2.refcount))

theorem SameInodes.keys {a b : List (Nat × Inode)} (h : SameInodes a b) : keys a = keys b := by
  have := congrArg (List.map (·.1)) h
  rw [List.map_map, List.map_map] at this
  exact this

theorem SameInodes.set {l : List (Nat × Inode)} {k : Nat} {i j : Inode} (h : AL.get l k = some i) (hr : j.refcount = i.refcount) :
    SameInodes (AL.set l k j) l := by
  obtain ⟨a, b, h1, h2⟩ := set_existing j h
  unfold SameInodes
  rw [h2, h1]
  simp [hr]

/-- Only the table `inodes` changes, and not the reference counts. -/
def InoOnly (db db' : Db) : Prop := db' = { db with inodes := db'.inodes } ∧ SameInodes db'.inodes db.inodes

theorem InoOnly.refl (db : Db) : InoOnly db db := ⟨rfl, rfl⟩
theorem InoOnly.trans {a b c : Db} (h1 : InoOnly a b) (h2 : InoOnly b c) : InoOnly a c := by
  refine ⟨?_, h2.2.trans h1.2⟩
  have := h2.1
  rw [h1.1] at this
  rw [this]

theorem InoOnly.kept {a b : Db} (h : InoOnly a b) : Kept a b := by
  have := Kept.setInodes (db := a) h.2.keys
  rw [← h.1] at this
  exact this

theorem InoOnly.refs {a b : Db} (h : InoOnly a b) (hr : RefsOk a) : RefsOk b := by
  intro e he hp
  have hm : (e.1, e.2.refcount) ∈ a.inodes.map (fun e => (e.1, e.2.refcount)) := by
    rw [← h.2]; exact List.mem_map.2 ⟨e, he, rfl⟩
  obtain ⟨f, hf, hfe⟩ := List.mem_map.1 hm
  have h1 := congrArg Prod.fst hfe
  have h2 := congrArg Prod.snd hfe
  dsimp only at h1 h2
  have := hr f hf (by rw [h1]; exact hp)
  rw [h1, h2] at this
  rw [h.1]
  exact this

theorem InoOnly.exact {a b : Db} (h : InoOnly a b) (hn : NExact a) : NExact b := by
  rw [h.1]; exact hn

theorem fixSize_some {cfg : Cfg} {k : Nat} {s s' : St} (h : fixSize cfg k s = some s') :
    s' = s ∨ ∃ i, AL.get s.db.inodes k = some i ∧
      s' = { s.err with db := { s.db with inodes := AL.set s.db.inodes k { i with size := minSize cfg.blockSize s.db k } } } := by
  unfold fixSize at h
  cases hg : AL.get s.db.inodes k with
  | none => rw [hg] at h; cases h; exact Or.inl rfl
  | some i =>
    rw [hg] at h
    dsimp only at h
    split at h
    · split at h
      · exact Or.inr ⟨i, rfl, (Option.some.inj h).symm⟩
      · cases h
    · cases h; exact Or.inl rfl

theorem checkInodesSize_step {cfg : Cfg} {s s' : St} (hs : Schema s.db) (h : checkInodesSize cfg s = some s') :
    Schema s'.db ∧ InoOnly s.db s'.db ∧ s'.backend = s.backend := by
  refine iter_inv (f := fixSize cfg) (fun t => Schema t.db ∧ InoOnly s.db t.db ∧ t.backend = s.backend) ?_ h
    ⟨hs, InoOnly.refl _, rfl⟩
  intro k _ t t' ht hf
  rcases fixSize_some hf with rfl | ⟨i, hg, rfl⟩
  · exact ht
  · exact ⟨ht.1.setInode _ hg, ht.2.1.trans ⟨rfl, SameInodes.set hg rfl⟩, ht.2.2⟩

/-! #### Extended attributes -/

/-- Only names and extended attributes change. -/
def XOnly (db db' : Db) : Prop := db' = { db with names := db'.names, xattrs := db'.xattrs }

theorem XOnly.refl (db : Db) : XOnly db db := rfl
theorem XOnly.trans {a b c : Db} (h1 : XOnly a b) (h2 : XOnly b c) : XOnly a c := by
  unfold XOnly at *
  rw [h1] at h2
  rw [h2]

theorem XOnly.kept {a b : Db} (h : XOnly a b) : Kept a b := by
  rw [h]; exact ⟨rfl, rfl, rfl, id, fun _ h => h⟩

theorem XOnly.refs {a b : Db} (h : XOnly a b) (hr : RefsOk a) : RefsOk b := by rw [h]; exact hr

theorem Schema.setXattrs {db : Db} (hs : Schema db) {l : List (Nat × XRow)} (h : AL.NK l) : Schema { db with xattrs := l } :=
  { hs with xattrs := h }

theorem renameAttr_step {inode : Nat} {fuel rowid : Nat} {db db' : Db} (hs : Schema db)
    (h : renameAttr inode fuel rowid db = some db') : Schema db' ∧ XOnly db db' := by
  induction fuel generalizing rowid db with
  | zero => cases h
  | succ n ih =>
    unfold renameAttr at h
    dsimp only at h
    have hs1 := hs.addName true (xName rowid)
    have o1 : XOnly db (db.addName true (xName rowid)).1 := by
      unfold XOnly; rw [addName_other hs.names]
    split at h
    · obtain ⟨a, b⟩ := ih (hs1.delName _) h
      refine ⟨a, (o1.trans ?_).trans b⟩
      unfold XOnly; rw [delName_other]
    · split at h
      · cases h; exact ⟨hs1, o1⟩
      · split at h
        · cases h
        · cases h
          refine ⟨hs1.setXattrs (hs1.xattrs.set _ _), o1.trans rfl⟩

theorem fixAttrName_step {k : Nat} {s s' : St} (hs : Schema s.db) (h : fixAttrName k s = some s') :
    Schema s'.db ∧ XOnly s.db s'.db ∧ s'.backend = s.backend ∧ (XattrsHaveName s.db → s' = s) := by
  unfold fixAttrName at h
  cases hg : AL.get s.db.xattrs k with
  | none => rw [hg] at h; cases h; exact ⟨hs, XOnly.refl _, rfl, fun _ => rfl⟩
  | some x =>
    rw [hg] at h
    dsimp only at h
    split at h
    · cases h; exact ⟨hs, XOnly.refl _, rfl, fun _ => rfl⟩
    · rename_i hno
      split at h
      · split at h
        · cases h
        · rename_i db hr
          cases h
          obtain ⟨a, b⟩ := renameAttr_step hs hr
          refine ⟨a, b, rfl, ?_⟩
          intro hx
          exact absurd (isSome_iff_mem.2 (hx _ (AL.get_some_mem hg))) hno
      · cases h

theorem checkXattrName_step {s s' : St} (hs : Schema s.db) (h : checkXattrName s = some s') :
    Schema s'.db ∧ XOnly s.db s'.db ∧ s'.backend = s.backend ∧ (XattrsHaveName s.db → s' = s) := by
  refine iter_inv (f := fixAttrName) (fun t => Schema t.db ∧ XOnly s.db t.db ∧ t.backend = s.backend ∧
    (XattrsHaveName s.db → t = s)) ?_ h ⟨hs, XOnly.refl _, rfl, fun _ => rfl⟩
  intro k _ t t' ht hf
  obtain ⟨a, b, c, d⟩ := fixAttrName_step ht.1 hf
  refine ⟨a, ht.2.1.trans b, c.trans ht.2.2.1, fun hx => ?_⟩
  have hts := ht.2.2.2 hx
  exact (d (by rw [hts]; exact hx)).trans hts

theorem iter_dropAttr {l : List (Nat × XRow)} {s s' : St} (h : iter dropAttr l s = some s') :
    s'.db = dropAll s.db (l.map (·.2.nameId)) ∧ s'.backend = s.backend := by
  induction l generalizing s with
  | nil => cases h; exact ⟨rfl, rfl⟩
  | cons e t ih =>
    unfold iter dropAttr at h
    obtain ⟨h1, h2⟩ := ih h
    exact ⟨h1, h2⟩

theorem checkXattrInode_db {s s' : St} (h : checkXattrInode s = some s') :
    s'.db = { dropAll s.db ((s.db.xattrs.filter (fun e => (AL.get s.db.inodes e.2.inode).isNone)).map (·.2.nameId)) with xattrs := s.db.xattrs.filter (fun e => (AL.get s.db.inodes e.2.inode).isSome) } ∧
      s'.backend = s.backend := by
  unfold checkXattrInode at h
  obtain ⟨s1, h1, rfl⟩ := Option.map_eq_some_iff.1 h
  obtain ⟨h2, h3⟩ := iter_dropAttr h1
  refine ⟨?_, h3⟩
  dsimp only
  rw [h2, dropAll_other]

theorem checkXattrInode_step {s s' : St} (hs : Schema s.db) (h : checkXattrInode s = some s') :
    Schema s'.db ∧ XOnly s.db s'.db ∧ s'.backend = s.backend ∧ XattrsHaveInode s'.db ∧ (NExact s.db → NExact s'.db) := by
  obtain ⟨hdb, hb⟩ := checkXattrInode_db h
  refine ⟨?_, ?_, hb, ?_, ?_⟩
  · rw [hdb]
    exact (hs.dropAll _).setXattrs (NK.filter hs.xattrs _)
  · unfold XOnly
    rw [hdb, dropAll_other]
  · rw [hdb, dropAll_other]
    intro e he
    exact isSome_iff_mem.1 (List.mem_filter.1 he).2
  · intro hn
    rw [hdb]
    generalize hl : (s.db.xattrs.filter (fun e => (AL.get s.db.inodes e.2.inode).isNone)) = l
    have hle : ∀ k, ((l.map (·.2.nameId)).countP (fun j => decide (j = k)) : Int) ≤ usesOfName s.db k + 0 := by
      intro k
      rw [List.countP_map]
      have h3 : List.countP ((fun j => decide (j = k)) ∘ fun x : Nat × XRow => x.2.nameId) l =
        List.countP (fun e => decide (e.2.nameId = k)) l := rfl
      rw [h3, ← hl]
      have := countP_filter_not s.db.xattrs (fun e => decide (e.2.nameId = k)) (fun e => (AL.get s.db.inodes e.2.inode).isNone)
      unfold usesOfName
      omega
    have h1 := (hn.dropAll (l.map (·.2.nameId)) hle).filterX (fun e => (AL.get s.db.inodes e.2.inode).isSome)
    have hc : (dropAll s.db (l.map (·.2.nameId))).xattrs = s.db.xattrs := by rw [dropAll_other]
    rw [hc] at h1
    refine h1.congr ?_
    intro k
    have : (s.db.xattrs.filter (fun e => !(AL.get s.db.inodes e.2.inode).isSome)) = l := by
      rw [← hl]; congr 1; funext e; exact (isNone_not _).symm
    rw [this]
    omega

theorem checkSymlinks_step {s : St} (hs : Schema s.db) :
    Schema (checkSymlinks s).db ∧ SymlinksHaveInode (checkSymlinks s).db ∧ Kept s.db (checkSymlinks s).db := by
  refine ⟨{ hs with symlinks := NK.filter hs.symlinks _ }, ?_, ⟨rfl, rfl, rfl, id, fun _ h => h⟩⟩
  intro e he
  exact isSome_iff_mem.1 (List.mem_filter.1 he).2

end Verif.Fsck
