/-
The checks of objects and blocks.
-/
import Verif.Fsck.Moves2

namespace Verif.Fsck
open Verif.Fs (Bytes Inode rootInode ctrlInode)

/-- Only the table `objects` changes. -/
def ObjOnly (db db' : Db) : Prop := db' = { db with objects := db'.objects }

theorem ObjOnly.refl (db : Db) : ObjOnly db db := rfl
theorem ObjOnly.trans {a b c : Db} (h1 : ObjOnly a b) (h2 : ObjOnly b c) : ObjOnly a c := by
  unfold ObjOnly at *
  rw [h1] at h2
  rw [h2]

theorem bCount_eq (db : Db) (k : Nat) : bCount db k = usesOfObj db k := by
  unfold bCount usesOfObj
  rw [List.countP_eq_length_filter]
  congr 2

theorem checkObjectsHash_schema {s : St} (hs : Schema s.db) : Schema (checkObjectsHash s).db :=
  hs.sub (List.Sublist.refl _) (List.Sublist.refl _) (List.Sublist.refl _) List.filter_sublist (List.Sublist.refl _)
    rfl rfl rfl rfl rfl

/-- The objects with references, with exact counts. -/
def refObjs (db : Db) : List (Nat × Obj) :=
  (db.objects.filter (fun e => bCount db e.1 != 0)).map (fun e => (e.1, { e.2 with refcount := (bCount db e.1 : Int) }))

theorem iter_delZero {l : List (Nat × Obj)} {s : St} (h : ∀ e ∈ l, e.2.refcount ≠ 0) : iter delZero l s = some s := by
  induction l with
  | nil => rfl
  | cons e t ih =>
    unfold iter delZero
    rw [if_neg (h e List.mem_cons_self)]
    exact ih (fun x hx => h x (List.mem_cons_of_mem _ hx))

theorem refObjs_mem {db : Db} {e : Nat × Obj} (h : e ∈ refObjs db) :
    e.2.refcount = (usesOfObj db e.1 : Nat) ∧ usesOfObj db e.1 ≠ 0 ∧ ∃ o, (e.1, o) ∈ db.objects ∧ e.2 = { o with refcount := e.2.refcount } := by
  unfold refObjs at h
  obtain ⟨f, hf, rfl⟩ := List.mem_map.1 h
  obtain ⟨h1, h2⟩ := List.mem_filter.1 hf
  refine ⟨?_, ?_, f.2, h1, rfl⟩
  · dsimp only; rw [bCount_eq]
  · rw [← bCount_eq]; simpa using h2

/-- check_objects_refcount never raises. -/
theorem checkObjectsRefcount_eq (s : St) :
    checkObjectsRefcount s = some { s with db := { s.db with objects := refObjs s.db }, found := s.found || s.db.objects.any (objReported s) } := by
  unfold checkObjectsRefcount
  dsimp only
  apply iter_delZero
  intro e he h0
  obtain ⟨h1, h2, _⟩ := refObjs_mem (db := s.db) (e := e) he
  omega

theorem refObjs_schema {db : Db} (hs : Schema db) : Schema { db with objects := refObjs db } := by
  have hsub : List.Sublist ((refObjs db).map (·.1)) (db.objects.map (·.1)) := by
    unfold refObjs
    rw [List.map_map]
    exact List.filter_sublist.map _
  refine { hs with objects := hsub.nodup hs.objects, oseq := ?_, hashUnique := ?_ }
  · intro e he
    obtain ⟨_, _, o, ho, _⟩ := refObjs_mem he
    exact hs.oseq (e.1, o) ho
  · intro e he f hf h1 h2
    obtain ⟨r1, _, o1, ho1, e1⟩ := refObjs_mem he
    obtain ⟨r2, _, o2, ho2, e2⟩ := refObjs_mem hf
    have hh1 : e.2.hash = o1.hash := by rw [e1]
    have hh2 : f.2.hash = o2.hash := by rw [e2]
    have heq := hs.hashUnique _ ho1 _ ho2 (by rw [← hh1]; exact h1) (by dsimp only; rw [← hh1, ← hh2]; exact h2)
    obtain ⟨hk, ho⟩ := Prod.mk.inj heq
    refine Prod.ext hk ?_
    rw [e1, e2, ho, r1, r2, hk]

theorem checkObjectsRefcount_step {s s' : St} (hs : Schema s.db) (h : checkObjectsRefcount s = some s') :
    Schema s'.db ∧ ObjOnly s.db s'.db ∧ ObjRefsExact s'.db ∧ (∀ e ∈ s'.db.objects, usesOfObj s'.db e.1 ≠ 0) ∧
      s'.backend = s.backend := by
  rw [checkObjectsRefcount_eq] at h
  cases h
  refine ⟨refObjs_schema hs, rfl, ?_, ?_, rfl⟩
  · intro e he
    exact (refObjs_mem (db := s.db) he).1
  · intro e he
    exact (refObjs_mem (db := s.db) he).2.1

/-- Spurious objects are removed from the storage. -/
theorem iter_delSpurious {l : List Nat} {s s' : St} (h : iter delSpurious l s = some s') :
    s'.db = s.db ∧ (∀ k, k ∉ l → AL.get s'.backend k = AL.get s.backend k) ∧ (∀ k ∈ l, AL.get s'.backend k = none) ∧
      s'.unlinked = s.unlinked := by
  induction l generalizing s with
  | nil => cases h; exact ⟨rfl, fun _ _ => rfl, (fun k hk => absurd hk List.not_mem_nil), rfl⟩
  | cons o t ih =>
    unfold iter at h
    cases hf : delSpurious o s with
    | none => rw [hf] at h; cases h
    | some s1 =>
      rw [hf] at h
      have h1 : s1.db = s.db ∧ s1.unlinked = s.unlinked ∧ AL.get s1.backend o = none ∧
          ∀ k, k ≠ o → AL.get s1.backend k = AL.get s.backend k := by
        unfold delSpurious at hf
        cases hg : AL.get s.backend o with
        | none => rw [hg] at hf; cases hf; exact ⟨rfl, rfl, hg, fun _ _ => rfl⟩
        | some d =>
          rw [hg] at hf
          dsimp only at hf
          have := (Option.some.inj hf).symm
          subst this
          split
          · exact ⟨rfl, rfl, AL.get_erase_self _ _, fun k hk => AL.get_erase_ne _ hk⟩
          · exact ⟨rfl, rfl, AL.get_erase_self _ _, fun k hk => AL.get_erase_ne _ hk⟩
      obtain ⟨a, b, c, d⟩ := ih h
      refine ⟨a.trans h1.1, ?_, ?_, d.trans h1.2.1⟩
      · intro k hk
        rw [b k (fun h => hk (List.mem_cons_of_mem _ h)), h1.2.2.2 k (fun h => hk (by rw [h]; exact List.mem_cons_self))]
      · intro k hk
        by_cases hkt : k ∈ t
        · exact c k hkt
        · rcases List.mem_cons.1 hk with rfl | hk
          · rw [b k hkt]; exact h1.2.2.1
          · exact absurd hk hkt

/-- The objects that the listing shows are in the storage. -/
def ListingSound (cfg : Cfg) : Prop := ∀ b, ∀ o ∈ cfg.list b, ∃ d, (o, d) ∈ b

theorem checkObjectsId_step {cfg : Cfg} {s s' : St} (hs : Schema s.db) (h : checkObjectsId cfg s = some s') :
    Schema s'.db ∧ ObjOnly s.db s'.db ∧ List.Sublist s'.db.objects s.db.objects ∧
      (ListingSound cfg → ObjsStored s') := by
  unfold checkObjectsId at h
  dsimp only at h
  split at h
  · cases h
  · rename_i s1 h1
    cases h
    obtain ⟨h2, h3, _, _⟩ := iter_delSpurious h1
    dsimp only
    refine ⟨?_, ?_, ?_, ?_⟩
    · rw [h2]
      exact hs.sub (List.Sublist.refl _) (List.Sublist.refl _) (List.Sublist.refl _) List.filter_sublist (List.Sublist.refl _)
        rfl rfl rfl rfl rfl
    · unfold ObjOnly; rw [h2]
    · rw [h2]; exact List.filter_sublist
    · intro hl e he
      dsimp only at he ⊢
      obtain ⟨he, hc⟩ := List.mem_filter.1 he
      rw [h2] at he
      have hin : (AL.get s1.backend e.1).isSome := by
        have hc' : (cfg.list s.backend).contains e.1 = true ∨ (AL.get s1.backend e.1).isSome := by
          cases hx : (cfg.list s.backend).contains e.1 with
          | true => exact Or.inl rfl
          | false =>
            right
            rw [hx] at hc
            cases hy : AL.get s1.backend e.1 with
            | some _ => rfl
            | none => rw [hy] at hc; cases hc
        rcases hc' with hx | hx
        · have hmem : e.1 ∈ cfg.list s.backend := by simpa using hx
          obtain ⟨d, hd⟩ := hl _ _ hmem
          rw [h3 e.1 ?_]
          · exact isSome_iff_mem.2 ⟨d, hd⟩
          · intro hbad
            have := (List.mem_filter.1 hbad).2
            exact isNone_iff_mem.1 this ⟨e.2, he⟩
        · exact hx
      exact isSome_iff_mem.1 hin

theorem fixPhys_some {cfg : Cfg} {k : Nat} {s s' : St} (h : fixPhys cfg k s = some s') :
    s' = s ∨ ∃ o d, AL.get s.db.objects k = some o ∧ o.phys = -1 ∧ AL.get s.backend k = some d ∧
      s' = { s.err with db := { s.db with objects := AL.set s.db.objects k { o with phys := cfg.physOf d } } } := by
  unfold fixPhys at h
  cases hg : AL.get s.db.objects k with
  | none => rw [hg] at h; cases h; exact Or.inl rfl
  | some o =>
    rw [hg] at h
    dsimp only at h
    split at h
    · rename_i hp
      split at h
      · cases h
      · rename_i d hd
        exact Or.inr ⟨o, d, rfl, hp, hd, (Option.some.inj h).symm⟩
    · cases h; exact Or.inl rfl

/-- Rows of objects agree except for the physical size. -/
def SameObjs (a b : List (Nat × Obj)) : Prop :=
  a.map (fun e => (e.1, e.2.refcount, e.2.hash, e.2.length)) = b.map (fun e => (e.1, e.2.refcount, e.2.hash, e.2.length))

theorem SameObjs.mem {a b : List (Nat × Obj)} (h : SameObjs a b) {e : Nat × Obj} (he : e ∈ a) :
    ∃ f ∈ b, f.1 = e.1 ∧ f.2.refcount = e.2.refcount ∧ f.2.hash = e.2.hash ∧ f.2.length = e.2.length := by
  have : (e.1, e.2.refcount, e.2.hash, e.2.length) ∈ b.map (fun e => (e.1, e.2.refcount, e.2.hash, e.2.length)) := by
    rw [← h]; exact List.mem_map.2 ⟨e, he, rfl⟩
  obtain ⟨f, hf, hh⟩ := List.mem_map.1 this
  simp only [Prod.mk.injEq] at hh
  exact ⟨f, hf, hh⟩

theorem checkObjectsPhys_step {cfg : Cfg} {s s' : St} (hs : Schema s.db) (h : checkObjectsPhys cfg s = some s') :
    Schema s'.db ∧ ObjOnly s.db s'.db ∧ SameObjs s'.db.objects s.db.objects ∧ s'.backend = s.backend := by
  refine iter_inv (f := fixPhys cfg) (fun t => Schema t.db ∧ ObjOnly s.db t.db ∧ SameObjs t.db.objects s.db.objects ∧
    t.backend = s.backend) ?_ h ⟨hs, rfl, rfl, rfl⟩
  intro k _ t t' ht hf
  rcases fixPhys_some hf with rfl | ⟨o, d, hg, _, hb, rfl⟩
  · exact ht
  · refine ⟨ht.1.setObj hg rfl, ht.2.1.trans rfl, ?_, ht.2.2.2⟩
    refine Eq.trans ?_ ht.2.2.1
    obtain ⟨a, b, h1, h2⟩ := set_existing { o with phys := cfg.physOf d } hg
    dsimp only
    rw [h2, h1]
    simp

theorem SameObjs.get {a b : List (Nat × Obj)} (h : SameObjs a b) (k : Nat) : (AL.get a k).isSome = (AL.get b k).isSome := by
  have h1 : (AL.get a k).isSome ↔ (AL.get b k).isSome := by
    rw [isSome_iff_mem, isSome_iff_mem]
    constructor
    · rintro ⟨v, hv⟩
      obtain ⟨f, hf, hk, _⟩ := h.mem hv
      exact ⟨f.2, by rw [show (k, f.2) = f from Prod.ext hk.symm rfl]; exact hf⟩
    · rintro ⟨v, hv⟩
      obtain ⟨f, hf, hk, _⟩ := SameObjs.mem (a := b) (b := a) (Eq.symm h) hv
      exact ⟨f.2, by rw [show (k, f.2) = f from Prod.ext hk.symm rfl]; exact hf⟩
  exact Bool.eq_iff_iff.2 h1

/-! #### check_inode_blocks_inode -/

theorem addRef_get {l : List (Nat × Obj)} {j k : Nat} {n : Int} :
    AL.get (addRef l j n) k = if k = j then (AL.get l j).map (fun o => { o with refcount := o.refcount + n }) else AL.get l k := by
  unfold addRef
  cases hg : AL.get l j with
  | none =>
    dsimp only [Option.map]
    split
    · rename_i h; rw [h, hg]
    · rfl
  | some o =>
    dsimp only [Option.map]
    rw [AL.get_set]

/-- Objects after `l` references to them were dropped. -/
def unref (objs : List (Nat × Obj)) : List Nat → List (Nat × Obj)
  | [] => objs
  | k :: t => unref (addRef objs k (-1)) t

theorem unref_get (objs : List (Nat × Obj)) (l : List Nat) (k : Nat) :
    AL.get (unref objs l) k = (AL.get objs k).map (fun o => { o with refcount := o.refcount - l.countP (fun j => decide (j = k)) }) := by
  induction l generalizing objs with
  | nil => simp [unref]
  | cons a t ih =>
    unfold unref
    rw [ih, addRef_get, List.countP_cons]
    by_cases h : k = a
    · subst h
      rw [if_pos rfl]
      cases AL.get objs k with
      | none => rfl
      | some o => simp only [Option.map, decide_true, if_true]; congr 2; omega
    · rw [if_neg h]
      have : ¬ a = k := fun h' => h h'.symm
      simp [this]

theorem unref_keys (objs : List (Nat × Obj)) (l : List Nat) : keys (unref objs l) = keys objs := by
  induction l generalizing objs with
  | nil => rfl
  | cons a t ih =>
    unfold unref
    rw [ih]
    unfold addRef
    cases h : AL.get objs a with
    | none => rfl
    | some o => exact keys_set _ h

theorem iter_unlinkBlock {l : List (Nat × BRow)} {s s' : St} (h : iter unlinkBlock l s = some s') :
    s'.db = { s.db with objects := unref s.db.objects (l.map (·.2.obj)) } ∧ s'.backend = s.backend := by
  induction l generalizing s with
  | nil => cases h; exact ⟨rfl, rfl⟩
  | cons e t ih =>
    unfold iter unlinkBlock at h
    obtain ⟨h1, h2⟩ := ih h
    exact ⟨h1, h2⟩

theorem checkBlocksInode_db {s s' : St} (h : checkBlocksInode s = some s') :
    s'.db = { s.db with objects := unref s.db.objects ((s.db.blocks.filter (fun e => (AL.get s.db.inodes e.2.inode).isNone)).map (·.2.obj)), blocks := s.db.blocks.filter (fun e => (AL.get s.db.inodes e.2.inode).isSome) } ∧
      s'.backend = s.backend := by
  unfold checkBlocksInode at h
  obtain ⟨s1, h1, rfl⟩ := Option.map_eq_some_iff.1 h
  obtain ⟨h2, h3⟩ := iter_unlinkBlock h1
  exact ⟨by dsimp only; rw [h2], h3⟩

theorem Schema.unref {db : Db} (hs : Schema db) (l : List Nat) : Schema { db with objects := unref db.objects l } := by
  induction l generalizing db with
  | nil => exact hs
  | cons a t ih => exact ih (hs.addRef a (-1))

theorem checkBlocksInode_step {s s' : St} (hs : Schema s.db) (h : checkBlocksInode s = some s') :
    Schema s'.db ∧ BlocksHaveInode s'.db ∧ (ObjRefsExact s.db → ObjRefsExact s'.db) ∧
      (BlocksHaveObj s.db → BlocksHaveObj s'.db) ∧ (ObjsStored s → ObjsStored s') ∧
      s'.db = { s.db with objects := s'.db.objects, blocks := s'.db.blocks } := by
  obtain ⟨hdb, hb⟩ := checkBlocksInode_db h
  have hobjs := hs.unref ((s.db.blocks.filter (fun e => (AL.get s.db.inodes e.2.inode).isNone)).map (·.2.obj))
  refine ⟨?_, ?_, ?_, ?_, ?_, by rw [hdb]⟩
  · rw [hdb]
    exact hobjs.sub (List.Sublist.refl _) (List.Sublist.refl _) List.filter_sublist (List.Sublist.refl _) (List.Sublist.refl _)
      rfl rfl rfl rfl rfl
  · rw [hdb]
    intro e he
    exact isSome_iff_mem.1 (List.mem_filter.1 he).2
  · intro hr
    rw [hdb]
    intro e he
    have hg := AL.mem_get_some hobjs.objects (k := e.1) (v := e.2) he
    dsimp only at hg
    rw [unref_get] at hg
    obtain ⟨o, ho, hoe⟩ := Option.map_eq_some_iff.1 hg
    have h1 := hr _ (AL.get_some_mem ho)
    have h2 := countP_filter_not s.db.blocks (fun x => decide (x.2.obj = e.1)) (fun x => (AL.get s.db.inodes x.2.inode).isSome)
    have h3 : (s.db.blocks.filter (fun x => !(AL.get s.db.inodes x.2.inode).isSome)) =
        s.db.blocks.filter (fun e => (AL.get s.db.inodes e.2.inode).isNone) := by
      congr 1; funext x; exact (isNone_not _).symm
    rw [h3] at h2
    rw [← hoe, List.countP_map]
    have h4 : List.countP ((fun j => decide (j = e.1)) ∘ fun x : Nat × BRow => x.2.obj) (s.db.blocks.filter (fun e => (AL.get s.db.inodes e.2.inode).isNone)) =
      List.countP (fun x => decide (x.2.obj = e.1)) (s.db.blocks.filter (fun e => (AL.get s.db.inodes e.2.inode).isNone)) := rfl
    rw [h4]
    unfold usesOfObj at h1 ⊢
    dsimp only at h1 ⊢
    omega
  · intro hr
    rw [hdb]
    intro e he
    obtain ⟨o, ho⟩ := hr e (List.mem_filter.1 he).1
    apply isSome_iff_mem.1
    dsimp only
    rw [unref_get]
    have := isSome_iff_mem.2 (⟨o, ho⟩ : ∃ v, (e.2.obj, v) ∈ s.db.objects)
    obtain ⟨x, hx⟩ := Option.isSome_iff_exists.1 this
    rw [hx]
    rfl
  · intro hr e he
    rw [hb]
    rw [hdb] at he
    have hk : e.1 ∈ keys s.db.objects := by
      rw [← unref_keys s.db.objects ((s.db.blocks.filter (fun e => (AL.get s.db.inodes e.2.inode).isNone)).map (·.2.obj))]
      exact mem_keys.2 ⟨e.2, he⟩
    obtain ⟨o, ho⟩ := mem_keys.1 hk
    exact hr (e.1, o) ho

/-- The state between check_contents_parent_inode and check_inodes_refcount. -/
theorem checkB_step {cfg : Cfg} {s s' : St} (hs : Schema s.db) (h : checkB cfg s = some s') :
    Schema s'.db ∧ ObjRefsExact s'.db ∧ BlocksHaveObj s'.db ∧ BlocksHaveInode s'.db ∧
      (ListingSound cfg → ObjsStored s') ∧ (NExact s.db → NExact s'.db) ∧
      (EntriesHaveInode s.db → EntriesHaveInode s'.db) ∧
      (EntriesHaveInode s.db → EntriesHaveParent s.db → EntriesHaveParent s'.db) ∧
      s'.db.inodes = s.db.inodes ∧ s'.db.xattrs = s.db.xattrs ∧ s'.db.symlinks = s.db.symlinks := by
  unfold checkB at h
  obtain ⟨s9, h9, h⟩ := Option.bind_eq_some_iff.1 h
  obtain ⟨s10, h10, h⟩ := Option.bind_eq_some_iff.1 h
  obtain ⟨s11, h11, h⟩ := Option.bind_eq_some_iff.1 h
  obtain ⟨s12, h12, h⟩ := Option.bind_eq_some_iff.1 h
  have hs8 : Schema (checkObjectsHash (checkObjectsTemp s)).db := checkObjectsHash_schema (s := checkObjectsTemp s) hs
  have o8 : ObjOnly s.db (checkObjectsHash (checkObjectsTemp s)).db := rfl
  obtain ⟨hs9, o9, r9, _, b9⟩ := checkObjectsRefcount_step hs8 h9
  obtain ⟨hs10, o10, sub10, st10⟩ := checkObjectsId_step hs9 h10
  obtain ⟨hs11, o11, same11, b11⟩ := checkObjectsPhys_step hs10 h11
  have oo : ObjOnly s.db s11.db := ((o8.trans o9).trans o10).trans o11
  obtain ⟨t, ht, mv, hx, h12'⟩ := checkBlocksObj_step hs11 h12
  have hs12 : Schema s12.db := by
    rw [h12']
    refine ht.sub (List.Sublist.refl _) (List.Sublist.refl _) ?_ (List.Sublist.refl _) (List.Sublist.refl _) rfl rfl rfl rfl rfl
    rw [mv.1]; exact List.filter_sublist
  obtain ⟨hs13, bi, rr, bo, st, d13⟩ := checkBlocksInode_step hs12 h
  -- reference counts of objects
  have hobj12 : s12.db.objects = s11.db.objects := by rw [h12', mv.1]
  have hblk12 : s12.db.blocks = s11.db.blocks.filter (fun e => (AL.get s11.db.objects e.2.obj).isSome) := by rw [h12']
  have r12 : ObjRefsExact s12.db := by
    intro e he
    rw [hobj12] at he
    obtain ⟨f, hf, f1, f2, _⟩ := same11.mem he
    have hu := r9 f (sub10.subset hf)
    have hb : s9.db.blocks = s11.db.blocks := by rw [o10.trans o11]
    unfold usesOfObj at hu ⊢
    rw [← f2, hu, hb, f1, hblk12, List.countP_filter]
    congr 1
    apply List.countP_congr
    intro x _
    simp only [Bool.and_eq_true, decide_eq_true_eq]
    constructor
    · intro hx
      exact ⟨hx, by rw [hx]; exact isSome_iff_mem.2 ⟨e.2, he⟩⟩
    · exact fun hx => hx.1
  have bo12 : BlocksHaveObj s12.db := by
    intro e he
    rw [hblk12] at he
    have := isSome_iff_mem.1 (List.mem_filter.1 he).2
    unfold HasObj
    rw [hobj12]
    exact this
  have st11 : ListingSound cfg → ObjsStored s11 := by
    intro hl e he
    obtain ⟨f, hf, f1, _⟩ := same11.mem he
    obtain ⟨d, hd⟩ := st10 hl f hf
    exact ⟨d, by rw [b11, ← f1]; exact hd⟩
  have hbk : s12.backend = s11.backend := by
    unfold checkBlocksObj at h12
    obtain ⟨s1, h1, rfl⟩ := Option.map_eq_some_iff.1 h12
    show s1.backend = s11.backend
    refine iter_inv (f := badBlock) (fun t => t.backend = s11.backend) ?_ h1 rfl
    intro b _ u u' hu hf
    refine iter_inv (f := moveAffected) (fun t => t.backend = s11.backend) ?_ hf hu
    intro e _ v v' hv hf'
    rw [moveAffected_other hf']
    exact hv
  have i12 : s12.db.inodes = s.db.inodes := by rw [h12', mv.1, oo]
  have x12 : s12.db.xattrs = s.db.xattrs := by rw [h12', mv.1, oo]
  have y12 : s12.db.symlinks = s.db.symlinks := by rw [h12', mv.1, oo]
  refine ⟨hs13, rr r12, bo bo12, bi, fun hl => st ?_, ?_, ?_, ?_, ?_, ?_, ?_⟩
  · intro e he
    rw [hobj12] at he
    obtain ⟨d, hd⟩ := st11 hl e he
    exact ⟨d, by rw [hbk]; exact hd⟩
  · intro hn
    have n11 : NExact s11.db := by rw [oo]; exact hn
    have n12 : NExact s12.db := by rw [h12']; exact hx n11
    rw [d13]; exact n12
  · intro he
    have e11 : EntriesHaveInode s11.db := by rw [oo]; exact he
    have e12 : EntriesHaveInode s12.db := by rw [h12']; exact mv.entriesHaveInode e11
    rw [d13]; exact e12
  · intro he hp
    have e11 : EntriesHaveInode s11.db := by rw [oo]; exact he
    have p11 : EntriesHaveParent s11.db := by rw [oo]; exact hp
    have e12 : EntriesHaveParent s12.db := by rw [h12']; exact mv.entriesHaveParent e11 p11
    rw [d13]; exact e12
  · rw [d13]; exact i12
  · rw [d13]; exact x12
  · rw [d13]; exact y12

end Verif.Fsck
