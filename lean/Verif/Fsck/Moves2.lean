/-
Deleting entries and attributes, and moving entries, with exact reference counts of names.
-/
import Verif.Fsck.Moves

namespace Verif.Fsck
open Verif.Fs (Bytes Inode rootInode ctrlInode)

/-- Names dropped in a loop. -/
def dropAll (db : Db) : List Nat → Db
  | [] => db
  | k :: t => dropAll (db.delName k) t

theorem dropAll_other (db : Db) (l : List Nat) : dropAll db l = { db with names := (dropAll db l).names } := by
  induction l generalizing db with
  | nil => rfl
  | cons k t ih =>
    unfold dropAll
    rw [ih, delName_other]

theorem Schema.dropAll {db : Db} (hs : Schema db) (l : List Nat) : Schema (dropAll db l) := by
  induction l generalizing db with
  | nil => exact hs
  | cons k t ih => exact ih (hs.delName k)

theorem NBal.dropAll {db : Db} {δ : Nat → Int} (h : NBal db δ) (l : List Nat)
    (hl : ∀ k, (l.countP (fun j => decide (j = k)) : Int) ≤ usesOfName db k + δ k) :
    NBal (dropAll db l) (fun k => δ k - l.countP (fun j => decide (j = k))) := by
  induction l generalizing db δ with
  | nil => exact h.congr (fun k => by simp)
  | cons a t ih =>
    unfold Fsck.dropAll
    have ha : HasName db a := by
      apply isSome_iff_mem.1
      have h1 := hl a
      have h2 := h a
      rw [List.countP_cons] at h1
      simp only [decide_true, if_true] at h1
      unfold nref at h2
      cases hg : AL.get db.names a with
      | none => rw [hg] at h2; simp only at h2; omega
      | some r => rfl
    refine (ih (h.delName ha) ?_).congr ?_
    · intro k
      have := hl k
      rw [List.countP_cons] at this
      rw [uses_delName]
      unfold one
      by_cases hk : k = a
      · subst hk; simp only [decide_true, if_true] at this ⊢; omega
      · have : ¬ a = k := fun h => hk h.symm
        simp only [hk, this, decide_false, if_false] at *
        simp at *
        omega
    · intro k
      rw [List.countP_cons]
      unfold one
      by_cases hk : k = a
      · subst hk; simp only [decide_true, if_true]; omega
      · have : ¬ a = k := fun h => hk h.symm
        simp [hk, this]

theorem countP_filter_not {α : Type} (l : List α) (p q : α → Bool) :
    (l.filter q).countP p + (l.filter (fun x => !q x)).countP p = l.countP p := by
  induction l with
  | nil => rfl
  | cons a t ih =>
    by_cases h : q a
    · rw [List.filter_cons_of_pos h, List.filter_cons_of_neg (by simp [h]), List.countP_cons, List.countP_cons]; omega
    · rw [List.filter_cons_of_neg h, List.filter_cons_of_pos (by simpa using h), List.countP_cons, List.countP_cons]; omega

theorem iter_dropEntry {l : List (Nat × CRow)} {s s' : St} (h : iter dropEntry l s = some s') :
    s'.db = dropAll s.db (l.map (·.2.nameId)) := by
  induction l generalizing s with
  | nil => cases h; rfl
  | cons e t ih =>
    unfold iter dropEntry at h
    cases hp : s.db.path e.2.inode with
    | deep => rw [hp] at h; cases h
    | ok x => rw [hp] at h; exact ih h
    | missing => rw [hp] at h; exact ih h

theorem checkContentsInode_db {s s' : St} (h : checkContentsInode s = some s') :
    s'.db = { dropAll s.db ((s.db.contents.filter (fun e => (AL.get s.db.inodes e.2.inode).isNone)).map (·.2.nameId)) with contents := s.db.contents.filter (fun e => (AL.get s.db.inodes e.2.inode).isSome) } := by
  unfold checkContentsInode at h
  obtain ⟨s1, h1, rfl⟩ := Option.map_eq_some_iff.1 h
  have h2 := iter_dropEntry h1
  dsimp only
  rw [h2]
  have : ∀ l, (dropAll s.db l).contents = s.db.contents := fun l => by rw [dropAll_other]
  rw [this]

theorem checkContentsInode_schema {s s' : St} (hs : Schema s.db) (h : checkContentsInode s = some s') : Schema s'.db := by
  rw [checkContentsInode_db h]
  have hd := hs.dropAll ((s.db.contents.filter (fun e => (AL.get s.db.inodes e.2.inode).isNone)).map (·.2.nameId))
  refine hd.sub ?_ (List.Sublist.refl _) (List.Sublist.refl _) (List.Sublist.refl _) (List.Sublist.refl _) rfl rfl rfl rfl rfl
  rw [dropAll_other]
  exact List.filter_sublist

theorem checkContentsInode_inodes {s s' : St} (h : checkContentsInode s = some s') : EntriesHaveInode s'.db := by
  rw [checkContentsInode_db h]
  intro e he
  have h1 := (List.mem_filter.1 he).2
  have : HasInode s.db e.2.inode := isSome_iff_mem.1 h1
  rw [dropAll_other]
  exact this

/-- Uses of names after entries were deleted. -/
theorem NBal.filterC {db : Db} {δ : Nat → Int} (h : NBal db δ) (q : Nat × CRow → Bool) :
    NBal { db with contents := db.contents.filter q }
      (fun k => δ k + ((db.contents.filter (fun e => !q e)).map (·.2.nameId)).countP (fun j => decide (j = k))) := by
  intro k
  have h1 := h k
  have h2 := countP_filter_not db.contents (fun e => decide (e.2.nameId = k)) q
  show _ = _ + (δ k + ((List.countP _ (List.map _ _) : Nat) : Int))
  rw [List.countP_map]
  unfold nref usesOfName at *
  dsimp only at *
  have h3 : List.countP ((fun j => decide (j = k)) ∘ fun x : Nat × CRow => x.2.nameId) (db.contents.filter (fun e => !q e)) =
    List.countP (fun e => decide (e.2.nameId = k)) (db.contents.filter (fun e => !q e)) := rfl
  rw [h3]
  omega

theorem NBal.filterX {db : Db} {δ : Nat → Int} (h : NBal db δ) (q : Nat × XRow → Bool) :
    NBal { db with xattrs := db.xattrs.filter q }
      (fun k => δ k + ((db.xattrs.filter (fun e => !q e)).map (·.2.nameId)).countP (fun j => decide (j = k))) := by
  intro k
  have h1 := h k
  have h2 := countP_filter_not db.xattrs (fun e => decide (e.2.nameId = k)) q
  show _ = _ + (δ k + ((List.countP _ (List.map _ _) : Nat) : Int))
  rw [List.countP_map]
  unfold nref usesOfName at *
  dsimp only at *
  have h3 : List.countP ((fun j => decide (j = k)) ∘ fun x : Nat × XRow => x.2.nameId) (db.xattrs.filter (fun e => !q e)) =
    List.countP (fun e => decide (e.2.nameId = k)) (db.xattrs.filter (fun e => !q e)) := rfl
  rw [h3]
  omega

theorem isNone_not (o : Option Inode) : o.isNone = !o.isSome := by cases o <;> rfl

theorem checkContentsInode_exact {s s' : St} (h : checkContentsInode s = some s') (hn : NExact s.db) : NExact s'.db := by
  rw [checkContentsInode_db h]
  generalize hl : (s.db.contents.filter (fun e => (AL.get s.db.inodes e.2.inode).isNone)) = l
  have hle : ∀ k, ((l.map (·.2.nameId)).countP (fun j => decide (j = k)) : Int) ≤ usesOfName s.db k + 0 := by
    intro k
    rw [List.countP_map]
    have h3 : List.countP ((fun j => decide (j = k)) ∘ fun x : Nat × CRow => x.2.nameId) l =
      List.countP (fun e => decide (e.2.nameId = k)) l := rfl
    rw [h3, ← hl]
    have := countP_filter_not s.db.contents (fun e => decide (e.2.nameId = k)) (fun e => (AL.get s.db.inodes e.2.inode).isNone)
    unfold usesOfName
    omega
  have h1 := (hn.dropAll (l.map (·.2.nameId)) hle).filterC (fun e => (AL.get s.db.inodes e.2.inode).isSome)
  have hc : (dropAll s.db (l.map (·.2.nameId))).contents = s.db.contents := by rw [dropAll_other]
  rw [hc] at h1
  refine h1.congr ?_
  intro k
  have : (s.db.contents.filter (fun e => !(AL.get s.db.inodes e.2.inode).isSome)) = l := by
    rw [← hl]; congr 1; funext e; exact (isNone_not _).symm
  rw [this]
  omega

/-! #### check_contents_parent_inode -/

theorem fixParent_some {cfg : Cfg} {k : Nat} {s s' : St} (h : fixParent cfg k s = some s') :
    (s' = s ∧ (∀ r, AL.get s.db.contents k = some r → HasInode s.db r.parent)) ∨
      ∃ r n0 p n db, AL.get s.db.contents k = some r ∧ ¬ HasInode s.db r.parent ∧ HasName s.db r.nameId ∧
        s.db.resolveFree n0 = some (p, n) ∧
        ((s.db.delName r.nameId).addName false n).1.putEntry k { r with nameId := ((s.db.delName r.nameId).addName false n).2, parent := p } = some db ∧
        s' = { s.err with db := db } := by
  unfold fixParent at h
  cases hg : AL.get s.db.contents k with
  | none => rw [hg] at h; cases h; exact Or.inl ⟨rfl, fun r hr => by cases hr⟩
  | some r =>
    rw [hg] at h
    dsimp only at h
    split at h
    · rename_i hn
      cases h
      refine Or.inl ⟨rfl, fun r' hr => ?_⟩
      cases hr
      exact isSome_iff_mem.1 hn
    · rename_i hn
      right
      split at h
      · cases h
      · rename_i nr hnr
        split at h
        · cases h
        · rename_i p n hr
          split at h
          · cases h
          · rename_i db hq
            exact ⟨r, _, p, n, db, rfl, fun hc => hn (isSome_iff_mem.2 hc), isSome_iff_mem.1 (by rw [hnr]; rfl), hr, hq,
              (Option.some.inj h).symm⟩

/-- Dropping a name, adding one and moving an entry there. -/
theorem relocate2 {db db' : Db} (hs : Schema db) {k : Nat} {r : CRow} {n0 n : Bytes} {p : Nat}
    (hg : AL.get db.contents k = some r) (hr : db.resolveFree n0 = some (p, n))
    (hq : ((db.delName r.nameId).addName false n).1.putEntry k { r with nameId := ((db.delName r.nameId).addName false n).2, parent := p } = some db') :
    Schema db' ∧ Moved db db' ∧
      db' = { ((db.delName r.nameId).addName false n).1 with contents := AL.set db.contents k { r with nameId := ((db.delName r.nameId).addName false n).2, parent := p } } := by
  have hs0 := hs.delName r.nameId
  have hs1 := hs0.addName false n
  have hc : ((db.delName r.nameId).addName false n).1.contents = db.contents := by
    rw [get_addName_contents hs0.names, delName_contents]
  have hg1 : AL.get ((db.delName r.nameId).addName false n).1.contents k = some r := by rw [hc]; exact hg
  refine ⟨hs1.putEntry (row_le hs1 hg1) hq, ?_, ?_⟩
  · refine ((Moved.delName db r.nameId).trans (Moved.addName hs0.names false n)).trans
      (Moved.put (r' := { r with nameId := ((db.delName r.nameId).addName false n).2, parent := p }) hs1 hg1 rfl ?_ hq)
    obtain ⟨f, hf, h⟩ := resolveFree_entry hr
    exact ⟨f, by rw [hc]; exact hf, Or.inl h⟩
  · obtain ⟨h1, _⟩ := putEntry_some hq
    rw [h1, hc]

theorem fixParent_step {cfg : Cfg} {k : Nat} {s s' : St} (hs : Schema s.db) (h : fixParent cfg k s = some s') :
    Schema s'.db ∧ Moved s.db s'.db := by
  rcases fixParent_some h with ⟨rfl, _⟩ | ⟨r, n0, p, n, db, hg, _, _, hr, hq, rfl⟩
  · exact ⟨hs, Moved.refl _⟩
  · obtain ⟨h1, h2, _⟩ := relocate2 hs hg hr hq
    exact ⟨h1, h2⟩

theorem fixParent_exact {cfg : Cfg} {k : Nat} {s s' : St} (hs : Schema s.db) (h : fixParent cfg k s = some s')
    (hn : NExact s.db) : NExact s'.db := by
  rcases fixParent_some h with ⟨rfl, _⟩ | ⟨r, n0, p, n, db, hg, _, hname, hr, hq, rfl⟩
  · exact hn
  · obtain ⟨_, _, h3⟩ := relocate2 hs hg hr hq
    subst h3
    have hs0 := hs.delName r.nameId
    have hc : ((s.db.delName r.nameId).addName false n).1.contents = s.db.contents := by
      rw [get_addName_contents hs0.names, delName_contents]
    have h1 := (hn.delName hname).addName hs0.names false n
    have h2 := h1.set (k := k) (r := r) (r' := { r with nameId := ((s.db.delName r.nameId).addName false n).2, parent := p }) (by rw [hc]; exact hg)
    rw [hc] at h2
    refine h2.congr (fun j => ?_)
    dsimp only
    omega

theorem checkContentsParent_step {cfg : Cfg} {s s' : St} (hs : Schema s.db) (h : checkContentsParent cfg s = some s') :
    Schema s'.db ∧ Moved s.db s'.db :=
  iter_inv (fun t => Schema t.db ∧ Moved s.db t.db)
    (fun _ _ t t' ht hf => by
      obtain ⟨a, b⟩ := fixParent_step ht.1 hf
      exact ⟨a, ht.2.trans b⟩) h ⟨hs, Moved.refl _⟩

theorem checkContentsParent_exact {cfg : Cfg} {s s' : St} (hs : Schema s.db) (h : checkContentsParent cfg s = some s')
    (hn : NExact s.db) : NExact s'.db :=
  (iter_inv (fun t => Schema t.db ∧ NExact t.db)
    (fun _ _ t t' ht hf => ⟨(fixParent_step ht.1 hf).1, fixParent_exact ht.1 hf ht.2⟩) h ⟨hs, hn⟩).2

theorem checkContentsParent_parents {cfg : Cfg} {s s' : St} (hs : Schema s.db) (hi : EntriesHaveInode s.db)
    (h : checkContentsParent cfg s = some s') : EntriesHaveParent s'.db := by
  have hm := checkContentsParent_step hs h
  have := iter_each (f := fixParent cfg) (fun t => Schema t.db ∧ EntriesHaveInode t.db)
    (fun k t => ∀ r, AL.get t.db.contents k = some r → HasInode t.db r.parent)
    (fun _ _ t t' ht hf => ⟨(fixParent_step ht.1 hf).1, (fixParent_step ht.1 hf).2.entriesHaveInode ht.2⟩)
    (fun k _ t t' ht hf r hr => by
      rcases fixParent_some hf with ⟨rfl, hv⟩ | ⟨r0, n0, p, n, db, hg, _, _, hrf, hq, rfl⟩
      · exact hv r hr
      · obtain ⟨_, hmv, h3⟩ := relocate2 ht.1 hg hrf hq
        obtain ⟨f, hf', hfp⟩ := resolveFree_entry hrf
        have : HasInode t.db p := by rw [← hfp]; exact ht.2 f hf'
        dsimp only at hr ⊢
        rw [hmv.1]
        rw [h3] at hr
        dsimp only at hr
        rw [AL.get_set_self] at hr
        cases hr
        exact this)
    (fun k _ j t t' ht hf hq r hr => by
      rcases fixParent_some hf with ⟨rfl, hv⟩ | ⟨r0, n0, p, n, db, hg, _, _, hrf, hpe, rfl⟩
      · exact hq r hr
      · obtain ⟨_, hmv, h3⟩ := relocate2 ht.1 hg hrf hpe
        obtain ⟨f, hf', hfp⟩ := resolveFree_entry hrf
        have : HasInode t.db p := by rw [← hfp]; exact ht.2 f hf'
        dsimp only at hr ⊢
        rw [hmv.1]
        rw [h3] at hr
        dsimp only at hr
        rw [AL.get_set] at hr
        split at hr
        · cases hr; exact this
        · exact hq r hr)
    h ⟨hs, hi⟩
  intro e he
  have hk : e.1 ∈ keys s.db.contents := by
    obtain ⟨f, hf, h1, _⟩ := col_mem hm.2.2.1 he
    exact mem_keys.2 ⟨f.2, by rw [← h1]; exact hf⟩
  exact this e.1 hk e.2 (AL.mem_get_some hm.1.contents he)

/-! #### check_inode_blocks_obj_id -/

theorem moveAffected_some {e : Bytes × CRow} {s s' : St} (hnk : AL.NK s.db.names) (h : moveAffected e s = some s') :
    ∃ n0 p n, s.db.resolveFree n0 = some (p, n) ∧
      ((findEntry s.db.contents e.2.parent e.2.nameId = none ∧
          s' = { s with db := (s.db.addName false n).1.delName e.2.nameId }) ∨
        ∃ k r db, findEntry s.db.contents e.2.parent e.2.nameId = some (k, r) ∧
          (s.db.addName false n).1.putEntry k { r with nameId := (s.db.addName false n).2, parent := p } = some db ∧
          s' = { s with db := db.delName e.2.nameId }) := by
  unfold moveAffected at h
  split at h
  · split at h
    · cases h
    · rename_i p n hr
      refine ⟨_, p, n, hr, ?_⟩
      have hc := get_addName_contents hnk false n
      dsimp only at h
      rw [hc] at h
      split at h
      · rename_i hf
        exact Or.inl ⟨hf, (Option.some.inj h).symm⟩
      · rename_i k r hf
        right
        split at h
        · cases h
        · rename_i db hq
          exact ⟨k, r, db, hf, hq, (Option.some.inj h).symm⟩
  · cases h

theorem moveAffected_step {e : Bytes × CRow} {s s' : St} (hs : Schema s.db) (h : moveAffected e s = some s') :
    Schema s'.db ∧ Moved s.db s'.db := by
  obtain ⟨n0, p, n, hr, h⟩ := moveAffected_some hs.names h
  rcases h with ⟨_, rfl⟩ | ⟨k, r, db, hf, hq, rfl⟩
  · exact ⟨(hs.addName false n).delName _, (Moved.addName hs.names false n).trans (Moved.delName _ _)⟩
  · obtain ⟨h1, h2, _⟩ := relocate hs (AL.mem_get_some hs.contents (findEntry_spec hf).1) hr hq
    exact ⟨h1.delName _, h2.trans (Moved.delName _ _)⟩

theorem moveAffected_other {e : Bytes × CRow} {s s' : St} (h : moveAffected e s = some s') :
    s' = { s with db := s'.db } := by
  unfold moveAffected at h
  split at h
  · split at h
    · cases h
    · dsimp only at h
      split at h
      · cases h; rfl
      · split at h
        · cases h
        · cases h; rfl
  · cases h

/-- Two rows are at different places. -/
def Apart (a b : CRow) : Prop := ¬ (a.parent = b.parent ∧ a.nameId = b.nameId)

theorem moveAffected_exact {e : Bytes × CRow} {s s' : St} (hs : Schema s.db) (he : ∃ k, (k, e.2) ∈ s.db.contents)
    (h : moveAffected e s = some s') (hn : NExact s.db) :
    NExact s'.db ∧ ∀ r, Apart e.2 r → (∃ k, (k, r) ∈ s.db.contents) → ∃ k, (k, r) ∈ s'.db.contents := by
  obtain ⟨n0, p, n, hr, h⟩ := moveAffected_some hs.names h
  obtain ⟨k0, hk0⟩ := he
  rcases h with ⟨hf, rfl⟩ | ⟨k, r, db, hf, hq, rfl⟩
  · exact absurd ⟨rfl, rfl⟩ (findEntry_none hf _ hk0)
  · obtain ⟨hm, h4, h5⟩ := findEntry_spec hf
    have heq := hs.entryUnique _ hm _ hk0 h4 h5
    obtain ⟨rfl, rfl⟩ := Prod.mk.inj heq
    have hg := AL.mem_get_some hs.contents hm
    obtain ⟨h1, h2, h3⟩ := relocate hs hg hr hq
    constructor
    · have a1 := hn.addName hs.names false n
      have a2 := a1.set (k := k) (r := e.2) (r' := { e.2 with nameId := (s.db.addName false n).2, parent := p })
        (by rw [get_addName_contents hs.names]; exact hg)
      have hnm : HasName db e.2.nameId := by
        have : HasName (s.db.addName false n).1 e.2.nameId := hasName_addName hs.names false n (hn.entries _ hm)
        rw [h3]
        exact this
      have a3 : NBal db (fun j => (0 + one (s.db.addName false n).2 j) + one e.2.nameId j - one (s.db.addName false n).2 j) := by
        have : db = { (s.db.addName false n).1 with contents := AL.set (s.db.addName false n).1.contents k { e.2 with nameId := (s.db.addName false n).2, parent := p } } :=
          (putEntry_some hq).1
        rw [this]
        exact a2
      refine (a3.delName hnm).congr (fun j => ?_)
      omega
    · intro r' ha ⟨k', hk'⟩
      refine ⟨k', ?_⟩
      dsimp only
      rw [delName_contents, h3]
      refine (mem_set hs.contents).2 (Or.inr ⟨hk', ?_⟩)
      intro hkk
      dsimp only at hkk
      subst hkk
      have := AL.mem_get_some hs.contents hk'
      rw [hg] at this
      cases this
      exact ha ⟨rfl, rfl⟩

theorem iter_moveAffected {l : List (Bytes × CRow)} {s s' : St} (hs : Schema s.db)
    (hl : l.Pairwise (fun a b => Apart a.2 b.2)) (hm : ∀ e ∈ l, ∃ k, (k, e.2) ∈ s.db.contents)
    (h : iter moveAffected l s = some s') (hn : NExact s.db) : NExact s'.db := by
  induction l generalizing s with
  | nil => cases h; exact hn
  | cons e t ih =>
    unfold iter at h
    cases hf : moveAffected e s with
    | none => rw [hf] at h; cases h
    | some s1 =>
      rw [hf] at h
      obtain ⟨h1, h2⟩ := moveAffected_exact hs (hm e List.mem_cons_self) hf hn
      have hp := List.pairwise_cons.1 hl
      exact ih (moveAffected_step hs hf).1 hp.2 (fun x hx => h2 _ (hp.1 x hx) (hm x (List.mem_cons_of_mem _ hx))) h h1

theorem contents_apart {db : Db} (hs : Schema db) : db.contents.Pairwise (fun a b => Apart a.2 b.2) := by
  have h1 : db.contents.Pairwise (fun a b => a.1 ≠ b.1) := by
    have := hs.contents
    unfold AL.NK List.Nodup at this
    exact List.pairwise_map.1 this
  refine h1.imp_of_mem ?_
  intro a b ha hb hab hc
  exact hab (congrArg (·.1) (hs.entryUnique a ha b hb hc.1 hc.2))

theorem entriesOf_mem {db : Db} {id : Nat} {x : Bytes × CRow} (h : x ∈ db.entriesOf id) :
    ∃ k nr, (k, x.2) ∈ db.contents ∧ x.2.inode = id ∧ AL.get db.names x.2.nameId = some nr ∧ nr.name = x.1 := by
  unfold Db.entriesOf at h
  obtain ⟨e, he, hx⟩ := List.mem_filterMap.1 h
  split at hx
  · rename_i hi
    obtain ⟨nr, h1, h2⟩ := Option.map_eq_some_iff.1 hx
    subst h2
    exact ⟨e.1, nr, he, hi, h1, rfl⟩
  · cases hx

theorem entriesOf_apart {db : Db} (hs : Schema db) (id : Nat) : (db.entriesOf id).Pairwise (fun a b => Apart a.2 b.2) := by
  unfold Db.entriesOf
  rw [List.pairwise_filterMap]
  refine (contents_apart hs).imp ?_
  intro a b hab x hx y hy
  split at hx
  · split at hy
    · obtain ⟨_, _, rfl⟩ := Option.map_eq_some_iff.1 hx
      obtain ⟨_, _, rfl⟩ := Option.map_eq_some_iff.1 hy
      exact hab
    · cases hy
  · cases hx

theorem badBlock_step {b : Nat × BRow} {s s' : St} (hs : Schema s.db) (h : badBlock b s = some s') :
    Schema s'.db ∧ Moved s.db s'.db := by
  unfold badBlock at h
  exact iter_inv (f := moveAffected) (fun t => Schema t.db ∧ Moved s.db t.db)
    (fun _ _ t t' ht hf => by
      obtain ⟨a, b⟩ := moveAffected_step ht.1 hf
      exact ⟨a, ht.2.trans b⟩) h ⟨hs, Moved.refl _⟩

theorem badBlock_exact {b : Nat × BRow} {s s' : St} (hs : Schema s.db) (h : badBlock b s = some s') (hn : NExact s.db) :
    NExact s'.db := by
  unfold badBlock at h
  exact iter_moveAffected (s := s.err) hs (entriesOf_apart hs _)
    (fun e he => by obtain ⟨k, _, h1, _⟩ := entriesOf_mem he; exact ⟨k, h1⟩) h hn

theorem checkBlocksObj_step {s s' : St} (hs : Schema s.db) (h : checkBlocksObj s = some s') :
    ∃ s1 : St, Schema s1.db ∧ Moved s.db s1.db ∧ (NExact s.db → NExact s1.db) ∧
      s'.db = { s1.db with blocks := s.db.blocks.filter (fun e => (AL.get s.db.objects e.2.obj).isSome) } := by
  unfold checkBlocksObj at h
  obtain ⟨s1, h1, rfl⟩ := Option.map_eq_some_iff.1 h
  have h2 := iter_inv (f := badBlock) (fun t => Schema t.db ∧ Moved s.db t.db ∧ (NExact s.db → NExact t.db))
    (fun _ _ t t' ht hf => by
      obtain ⟨a, b⟩ := badBlock_step ht.1 hf
      exact ⟨a, ht.2.1.trans b, fun hn => badBlock_exact ht.1 hf (ht.2.2 hn)⟩) h1 ⟨hs, Moved.refl _, id⟩
  refine ⟨s1, h2.1, h2.2.1, h2.2.2, ?_⟩
  dsimp only
  have : s1.db.blocks = s.db.blocks := by rw [h2.2.1.1]
  rw [this]

end Verif.Fsck
