/-
What else holds after a completed run, and when a second run reports nothing.
-/
import Verif.Fsck.Clean

namespace Verif.Fsck
open Verif.Fs (Bytes Inode rootInode ctrlInode)

/-! #### Temporary files and the cache -/

/-- The temporary files and the cache are left alone. -/
def Side (s s' : St) : Prop := s'.temps = s.temps ∧ s'.cache = s.cache

theorem Side.refl (s : St) : Side s s := ⟨rfl, rfl⟩
theorem Side.trans {a b c : St} (h1 : Side a b) (h2 : Side b c) : Side a c := ⟨h2.1.trans h1.1, h2.2.trans h1.2⟩

theorem iter_side {α : Type} {f : α → St → Option St} (hf : ∀ a s s', f a s = some s' → Side s s') {l : List α} {s s' : St}
    (h : iter f l s = some s') : Side s s' :=
  iter_inv (f := f) (fun t => Side s t) (fun a _ t t' ht h => ht.trans (hf a t t' h)) h (Side.refl s)

theorem checkContentsName_side {s s' : St} (h : checkContentsName s = some s') : Side s s' :=
  iter_side (fun k t t' hk => by
    rcases fixName_some hk with ⟨rfl, _⟩ | ⟨r, n0, p, n, db, _, _, _, _, rfl⟩
    · exact Side.refl _
    · exact ⟨rfl, rfl⟩) h

theorem checkContentsInode_side {s s' : St} (h : checkContentsInode s = some s') : Side s s' := by
  unfold checkContentsInode at h
  obtain ⟨s1, h1, rfl⟩ := Option.map_eq_some_iff.1 h
  have := iter_side (f := dropEntry) (fun a t t' ht => by
    unfold dropEntry at ht
    split at ht
    · cases ht
    · cases ht; exact ⟨rfl, rfl⟩) h1
  exact ⟨this.1, this.2⟩

theorem checkContentsParent_side {cfg : Cfg} {s s' : St} (h : checkContentsParent cfg s = some s') : Side s s' :=
  iter_side (fun k t t' hk => by
    rcases fixParent_some hk with ⟨rfl, _⟩ | ⟨r, n0, p, n, db, _, _, _, _, _, rfl⟩
    · exact Side.refl _
    · exact ⟨rfl, rfl⟩) h

theorem checkObjectsRefcount_side {s s' : St} (h : checkObjectsRefcount s = some s') : Side s s' := by
  rw [checkObjectsRefcount_eq] at h
  cases h; exact ⟨rfl, rfl⟩

theorem checkObjectsId_side {cfg : Cfg} {s s' : St} (h : checkObjectsId cfg s = some s') : Side s s' := by
  unfold checkObjectsId at h
  dsimp only at h
  split at h
  · cases h
  · rename_i s1 h1
    cases h
    have := iter_side (f := delSpurious) (fun a t t' ht => by
      unfold delSpurious at ht
      split at ht
      · cases ht; exact Side.refl _
      · dsimp only at ht
        cases ht
        split <;> exact ⟨rfl, rfl⟩) h1
    exact ⟨this.1, this.2⟩

theorem checkObjectsPhys_side {cfg : Cfg} {s s' : St} (h : checkObjectsPhys cfg s = some s') : Side s s' :=
  iter_side (fun k t t' hk => by
    rcases fixPhys_some hk with rfl | ⟨o, d, _, _, _, rfl⟩
    · exact Side.refl _
    · exact ⟨rfl, rfl⟩) h

theorem checkBlocksObj_side {s s' : St} (h : checkBlocksObj s = some s') : Side s s' := by
  unfold checkBlocksObj at h
  obtain ⟨s1, h1, rfl⟩ := Option.map_eq_some_iff.1 h
  have := iter_side (f := badBlock) (fun a t t' ht => by
    unfold badBlock at ht
    have := iter_side (f := moveAffected) (fun e v v' hv => by
      rw [moveAffected_other hv]; exact ⟨rfl, rfl⟩) ht
    exact ⟨this.1, this.2⟩) h1
  exact ⟨this.1, this.2⟩

theorem checkBlocksInode_side {s s' : St} (h : checkBlocksInode s = some s') : Side s s' := by
  unfold checkBlocksInode at h
  obtain ⟨s1, h1, rfl⟩ := Option.map_eq_some_iff.1 h
  have := iter_side (f := unlinkBlock) (fun a t t' ht => by unfold unlinkBlock at ht; cases ht; exact ⟨rfl, rfl⟩) h1
  exact ⟨this.1, this.2⟩

theorem checkInodesRefcount_side {s s' : St} (h : checkInodesRefcount s = some s') : Side s s' :=
  iter_side (fun k t t' hk => by
    rcases fixRef_some hk with ⟨rfl, _⟩ | ⟨i, _, ⟨_, n, p, n', db, _, _, rfl⟩ | ⟨_, rfl⟩⟩
    · exact Side.refl _
    · exact ⟨rfl, rfl⟩
    · exact ⟨rfl, rfl⟩) h

theorem checkInodesSize_side {cfg : Cfg} {s s' : St} (h : checkInodesSize cfg s = some s') : Side s s' :=
  iter_side (fun k t t' hk => by
    rcases fixSize_some hk with rfl | ⟨i, _, rfl⟩
    · exact Side.refl _
    · exact ⟨rfl, rfl⟩) h

theorem checkXattrName_side {s s' : St} (h : checkXattrName s = some s') : Side s s' :=
  iter_side (fun k t t' hk => by
    unfold fixAttrName at hk
    split at hk
    · cases hk; exact Side.refl _
    · split at hk
      · cases hk; exact Side.refl _
      · split at hk
        · split at hk
          · cases hk
          · cases hk; exact ⟨rfl, rfl⟩
        · cases hk) h

theorem checkXattrInode_side {s s' : St} (h : checkXattrInode s = some s') : Side s s' := by
  unfold checkXattrInode at h
  obtain ⟨s1, h1, rfl⟩ := Option.map_eq_some_iff.1 h
  have := iter_side (f := dropAttr) (fun a t t' ht => by unfold dropAttr at ht; cases ht; exact ⟨rfl, rfl⟩) h1
  exact ⟨this.1, this.2⟩

theorem loopRun_side {depth : Nat} : ∀ {fuel : Nat} {root : Nat} {t : List (Nat × Option Nat)} {left : List Nat} {s s' : St},
    loopRun depth fuel root t left s = some s' → Side s s' := by
  intro fuel
  induction fuel with
  | zero => intro root t left s s' h; cases h
  | succ f ih =>
    intro root t left s s' h
    unfold loopRun at h
    split at h
    · cases h
    · dsimp only at h
      split at h
      · cases h; exact Side.refl _
      · split at h
        · cases h
        · rename_i s1 p hr
          refine Side.trans ?_ (ih h)
          unfold reanchor at hr
          split at hr
          · cases hr
          · split at hr
            · cases hr
            · dsimp only at hr
              split at hr
              · cases hr
              · cases hr; exact ⟨rfl, rfl⟩

theorem checkUnix_side {s s' : St} (h : checkUnix s = some s') : Side s s' := by
  unfold checkUnix at h
  split at h
  · cases h
  · rename_i s1 h1
    refine Side.trans (iter_side (f := unixInode) (fun k t t' hk => by
      rcases unixInode_some hk with rfl | ⟨i, _, rfl⟩
      · exact Side.refl _
      · exact ⟨rfl, rfl⟩) h1) (iter_side (f := unixName) (fun k t t' hk => by
      unfold unixName at hk
      split at hk
      · cases hk; exact ⟨rfl, rfl⟩
      · cases hk) h)

theorem checkForeign_side (s : St) : Side s (checkForeign s) := by
  unfold checkForeign; split <;> exact ⟨rfl, rfl⟩

theorem checkA_cache {cfg : Cfg} {c : CacheArg} {s s' : St} (h : checkA cfg c s = some s') (hc : c = .yes) : s'.cache = [] := by
  unfold checkA at h
  obtain ⟨s1, h1, h⟩ := Option.bind_eq_some_iff.1 h
  obtain ⟨s2, h2, h⟩ := Option.bind_eq_some_iff.1 h
  obtain ⟨s4, h4, h⟩ := Option.bind_eq_some_iff.1 h
  obtain ⟨s5, h5, h6⟩ := Option.bind_eq_some_iff.1 h
  have e := ((checkContentsName_side h4).trans (checkContentsInode_side h5)).trans (checkContentsParent_side h6)
  rw [e.2]
  show s2.cache = []
  subst hc
  unfold cachePart checkCache at h2
  obtain ⟨s3, _, rfl⟩ := Option.map_eq_some_iff.1 h2
  unfold cacheLeft
  apply nil_filter
  intro f _
  cases f <;> rfl

theorem checkB_side {cfg : Cfg} {s s' : St} (h : checkB cfg s = some s') : s'.temps = 0 ∧ s'.cache = s.cache := by
  unfold checkB at h
  obtain ⟨s9, h9, h⟩ := Option.bind_eq_some_iff.1 h
  obtain ⟨s10, h10, h⟩ := Option.bind_eq_some_iff.1 h
  obtain ⟨s11, h11, h⟩ := Option.bind_eq_some_iff.1 h
  obtain ⟨s12, h12, h13⟩ := Option.bind_eq_some_iff.1 h
  have e := ((((checkObjectsRefcount_side h9).trans (checkObjectsId_side h10)).trans (checkObjectsPhys_side h11)).trans
    (checkBlocksObj_side h12)).trans (checkBlocksInode_side h13)
  exact ⟨e.1, e.2⟩

theorem checkC_side {cfg : Cfg} {depth : Nat} {s s' : St} (h : checkC cfg depth s = some s') : Side s s' := by
  unfold checkC at h
  obtain ⟨s14, h14, h⟩ := Option.bind_eq_some_iff.1 h
  obtain ⟨s15, h15, h⟩ := Option.bind_eq_some_iff.1 h
  obtain ⟨s16, h16, h⟩ := Option.bind_eq_some_iff.1 h
  obtain ⟨s17, h17, h⟩ := Option.bind_eq_some_iff.1 h
  obtain ⟨s19, h19, h⟩ := Option.bind_eq_some_iff.1 h
  obtain ⟨s20, h20, h21⟩ := Option.bind_eq_some_iff.1 h
  replace h21 := (Option.some.inj h21).symm
  subst h21
  have e18 : Side s17 (checkSymlinks s17) := ⟨rfl, rfl⟩
  exact (((((((checkInodesRefcount_side h14).trans (checkInodesSize_side h15)).trans (checkXattrName_side h16)).trans
    (checkXattrInode_side h17)).trans e18).trans (loopRun_side h19)).trans (checkUnix_side h20)).trans (checkForeign_side _)

/-! #### Objects -/

theorem checkObjectsId_spurious {cfg : Cfg} {s s' : St} (hl : ListingExact cfg) (h : checkObjectsId cfg s = some s') :
    ∀ e ∈ s'.backend, HasObj s'.db e.1 := by
  unfold checkObjectsId at h
  dsimp only at h
  split at h
  · cases h
  · rename_i s1 h1
    cases h
    obtain ⟨h2, h3, h4, _⟩ := iter_delSpurious h1
    intro e he
    have hsome : (AL.get s1.backend e.1).isSome := isSome_iff_mem.2 ⟨e.2, he⟩
    have hnl : e.1 ∉ (cfg.list s.backend).filter (fun o => (AL.get s.db.objects o).isNone) := by
      intro hm
      rw [h4 _ hm] at hsome; cases hsome
    have hb := hsome
    rw [h3 _ hnl] at hb
    have hlist : e.1 ∈ cfg.list s.backend := (hl _ _).2 (isSome_iff_mem.1 hb)
    have ho : (AL.get s.db.objects e.1).isNone = false := by
      cases hx : (AL.get s.db.objects e.1).isNone with
      | false => rfl
      | true => exact absurd (List.mem_filter.2 ⟨hlist, hx⟩) hnl
    obtain ⟨o, ho⟩ := hasOf ho
    refine ⟨o, ?_⟩
    show (e.1, o) ∈ s1.db.objects.filter _
    rw [h2]
    refine List.mem_filter.2 ⟨ho, ?_⟩
    have : (cfg.list s.backend).contains e.1 = true := by simpa using hlist
    dsimp only
    rw [this]; rfl

theorem checkObjectsPhys_known {cfg : Cfg} {s s' : St} (hs : Schema s.db) (h : checkObjectsPhys cfg s = some s') :
    ∀ e ∈ s'.db.objects, e.2.phys ≠ -1 := by
  have hnk := (checkObjectsPhys_step hs h).1
  have hkeys : keys s'.db.objects = keys s.db.objects := by
    have := (checkObjectsPhys_step hs h).2.2.1
    have := congrArg (List.map (·.1)) this
    rw [List.map_map, List.map_map] at this
    exact this
  have key := iter_each (f := fixPhys cfg) (fun t => Schema t.db) (fun k t => ∀ o, AL.get t.db.objects k = some o → o.phys ≠ -1)
    (l := keys s.db.objects) (s := s) (s' := s')
    (fun k _ t t' ht hf => by
      rcases fixPhys_some hf with rfl | ⟨o, d, hg, _, hb, rfl⟩
      · exact ht
      · exact ht.setObj hg rfl)
    (fun k _ t t' ht hf o ho => by
      unfold fixPhys at hf
      cases hg : AL.get t.db.objects k with
      | none =>
        rw [hg] at hf; cases hf
        rw [hg] at ho; cases ho
      | some r =>
        rw [hg] at hf
        dsimp only at hf
        split at hf
        · split at hf
          · cases hf
          · cases hf
            dsimp only at ho
            rw [AL.get_set_self] at ho
            cases ho
            dsimp only
            omega
        · rename_i hp
          cases hf
          rw [hg] at ho
          cases ho; exact hp)
    (fun k _ b t t' ht hf hb o ho => by
      rcases fixPhys_some hf with rfl | ⟨r, d, hg, _, _, rfl⟩
      · exact hb o ho
      · dsimp only at ho
        by_cases hk : b = k
        · subst hk
          rw [AL.get_set_self] at ho
          cases ho
          dsimp only
          omega
        · rw [AL.get_set_ne _ _ hk] at ho
          exact hb o ho) h hs
  intro e he
  have hk : e.1 ∈ keys s.db.objects := by rw [← hkeys]; exact mem_keys.2 ⟨e.2, he⟩
  exact key e.1 hk e.2 (AL.mem_get_some hnk.objects he)

theorem unref_back {objs : List (Nat × Obj)} {l : List Nat} {e : Nat × Obj} (hu : AL.NK (unref objs l))
    (h : e ∈ unref objs l) : ∃ o, (e.1, o) ∈ objs ∧ o.hash = e.2.hash ∧ o.phys = e.2.phys := by
  have h1 := AL.mem_get_some hu (k := e.1) (v := e.2) h
  rw [unref_get] at h1
  obtain ⟨o, ho, he⟩ := Option.map_eq_some_iff.1 h1
  exact ⟨o, AL.get_some_mem ho, by rw [← he], by rw [← he]⟩

theorem checkB_more {cfg : Cfg} {s s' : St} (hs : Schema s.db) (h : checkB cfg s = some s') :
    (∀ e ∈ s'.db.objects, e.2.hash ≠ none) ∧ (∀ e ∈ s'.db.objects, e.2.phys ≠ -1) ∧
      (ListingExact cfg → ∀ e ∈ s'.backend, HasObj s'.db e.1) ∧
      (BlocksHaveInode s.db → ∀ e ∈ s'.db.objects, usesOfObj s'.db e.1 ≠ 0) := by
  unfold checkB at h
  obtain ⟨s9, h9, h⟩ := Option.bind_eq_some_iff.1 h
  obtain ⟨s10, h10, h⟩ := Option.bind_eq_some_iff.1 h
  obtain ⟨s11, h11, h⟩ := Option.bind_eq_some_iff.1 h
  obtain ⟨s12, h12, h13⟩ := Option.bind_eq_some_iff.1 h
  have hs8 : Schema (checkObjectsHash (checkObjectsTemp s)).db := checkObjectsHash_schema (s := checkObjectsTemp s) hs
  obtain ⟨hs9, o9, _, u9, _⟩ := checkObjectsRefcount_step hs8 h9
  obtain ⟨hs10, o10, sub10, _⟩ := checkObjectsId_step hs9 h10
  obtain ⟨hs11, o11, same11, b11⟩ := checkObjectsPhys_step hs10 h11
  obtain ⟨s1, hs1, m12, _, d12⟩ := checkBlocksObj_step hs11 h12
  have hs12 : Schema s12.db := by
    rw [d12]
    exact hs1.sub (List.Sublist.refl _) (List.Sublist.refl _) (by rw [m12.1]; exact List.filter_sublist) (List.Sublist.refl _) (List.Sublist.refl _)
      rfl rfl rfl rfl rfl
  obtain ⟨d13, b13⟩ := checkBlocksInode_db h13
  have hs13 := (checkBlocksInode_step hs12 h13).1
  have hash9 : ∀ e ∈ s9.db.objects, e.2.hash ≠ none := by
    intro e he
    rw [checkObjectsRefcount_eq] at h9
    cases h9
    obtain ⟨x, hx, hxe⟩ := List.mem_map.1 he
    have hx1 := (List.mem_filter.1 hx).1
    have hx2 := (List.mem_filter.1 hx1).2
    rw [← hxe]
    exact Option.isSome_iff_ne_none.1 hx2
  have hash11 : ∀ e ∈ s11.db.objects, e.2.hash ≠ none := by
    intro e he
    obtain ⟨f, hf, _, _, hh, _⟩ := same11.mem he
    rw [← hh]
    exact hash9 f (sub10.subset hf)
  have phys11 := checkObjectsPhys_known hs10 h11
  have objs12 : s12.db.objects = s11.db.objects := by rw [d12, m12.1]
  have keys13 : ∀ e ∈ s'.db.objects, ∃ o, (e.1, o) ∈ s11.db.objects ∧ o.hash = e.2.hash ∧ o.phys = e.2.phys := by
    intro e he
    have hnk := hs13.objects
    rw [d13] at he hnk
    obtain ⟨o, ho, h1, h2⟩ := unref_back hnk he
    rw [objs12] at ho
    exact ⟨o, ho, h1, h2⟩
  have back12 : s12.backend = s11.backend := by
    unfold checkBlocksObj at h12
    obtain ⟨t, ht, rfl⟩ := Option.map_eq_some_iff.1 h12
    show t.backend = s11.backend
    refine iter_inv (f := badBlock) (fun t => t.backend = s11.backend) ?_ ht rfl
    intro b _ v v' hv hb
    refine Eq.trans ?_ hv
    refine iter_inv (f := moveAffected) (fun t => t.backend = v.backend) ?_ hb rfl
    intro e _ w w' hw hm
    rw [moveAffected_other hm]; exact hw
  refine ⟨?_, ?_, ?_, ?_⟩
  · intro e he
    obtain ⟨o, ho, h1, _⟩ := keys13 e he
    rw [← h1]; exact hash11 _ ho
  · intro e he
    obtain ⟨o, ho, _, h2⟩ := keys13 e he
    rw [← h2]; exact phys11 _ ho
  · intro hl e he
    rw [b13, back12, b11] at he
    obtain ⟨o, ho⟩ := checkObjectsId_spurious hl h10 e he
    have : e.1 ∈ keys s11.db.objects := by
      have hk : keys s11.db.objects = keys s10.db.objects := by
        have := congrArg (List.map (·.1)) same11
        rw [List.map_map, List.map_map] at this
        exact this
      rw [hk]; exact mem_keys.2 ⟨o, ho⟩
    obtain ⟨o', ho'⟩ := mem_keys.1 this
    rw [← objs12] at ho'
    have h1 := AL.mem_get_some hs12.objects ho'
    refine isSome_iff_mem.1 ?_
    rw [d13]
    show (AL.get (unref s12.db.objects _) e.1).isSome = true
    rw [unref_get, h1]; rfl
  · intro hbi e he
    obtain ⟨o, ho, _, _⟩ := keys13 e he
    have b8 : (checkObjectsHash (checkObjectsTemp s)).db.blocks = s.db.blocks := rfl
    have i8 : (checkObjectsHash (checkObjectsTemp s)).db.inodes = s.db.inodes := rfl
    have b11' : s11.db.blocks = s9.db.blocks := by rw [o11, o10]
    have i11 : s11.db.inodes = s.db.inodes := by rw [o11, o10, o9]; exact i8
    have b9 : s9.db.blocks = s.db.blocks := by rw [o9]; exact b8
    have b12 : s12.db.blocks = s11.db.blocks.filter (fun e => (AL.get s11.db.objects e.2.obj).isSome) := by rw [d12]
    have i12 : s12.db.inodes = s.db.inodes := by rw [d12, m12.1]; exact i11
    have b13' : s'.db.blocks = s12.db.blocks := by
      rw [d13]
      show s12.db.blocks.filter _ = _
      rw [List.filter_eq_self]
      intro x hx
      have hx' : x ∈ s.db.blocks := by
        rw [b12] at hx
        have := (List.mem_filter.1 hx).1
        rw [b11', b9] at this
        exact this
      rw [i12]
      exact isSome_iff_mem.2 (hbi x hx')
    -- an object that is used before is still used
    obtain ⟨f, hf, hfe, _, _, _⟩ := same11.mem ho
    have hu := u9 f (sub10.subset hf)
    dsimp only at hfe
    rw [hfe] at hu
    unfold usesOfObj at hu ⊢
    obtain ⟨x, hx, hxo⟩ := List.countP_pos_iff.1 (Nat.pos_of_ne_zero hu)
    have hxo' : x.2.obj = e.1 := by simpa using hxo
    apply Nat.pos_iff_ne_zero.1
    apply List.countP_pos_iff.2
    refine ⟨x, ?_, hxo⟩
    rw [b13', b12]
    refine List.mem_filter.2 ⟨by rw [b11']; exact hx, ?_⟩
    rw [hxo']
    exact isSome_iff_mem.2 ⟨o, ho⟩

/-! #### Sizes -/

theorem checkInodesSize_sizes {cfg : Cfg} {s s' : St} (hs : Schema s.db) (h : checkInodesSize cfg s = some s') :
    SizesOk cfg.blockSize s'.db := by
  obtain ⟨hs', hio, _⟩ := checkInodesSize_step hs h
  have mono : ∀ k t t', fixSize cfg k t = some t' → t'.db = { t.db with inodes := t'.db.inodes } := by
    intro k t t' hf
    rcases fixSize_some hf with rfl | ⟨i, _, rfl⟩
    · rfl
    · rfl
  have key := iter_each (f := fixSize cfg) (fun t => t.db = { s.db with inodes := t.db.inodes })
    (fun k t => ∀ i, AL.get t.db.inodes k = some i → minSize cfg.blockSize s.db k ≤ i.size)
    (l := keys s.db.inodes) (s := s) (s' := s')
    (fun k _ t t' ht hf => by
      have := mono k t t' hf
      rw [ht] at this
      rw [this])
    (fun k _ t t' ht hf i hi => by
      have e : minSize cfg.blockSize s.db k = minSize cfg.blockSize t.db k := by rw [ht]; rfl
      rw [e]
      unfold fixSize at hf
      cases hg : AL.get t.db.inodes k with
      | none =>
        rw [hg] at hf; cases hf
        rw [hg] at hi; cases hi
      | some r =>
        rw [hg] at hf
        dsimp only at hf
        split at hf
        · split at hf
          · cases hf
            dsimp only at hi
            rw [AL.get_set_self] at hi
            cases hi
            exact Nat.le_refl _
          · cases hf
        · rename_i hp
          cases hf
          rw [hg] at hi
          cases hi; omega)
    (fun k _ b t t' ht hf hb i hi => by
      have e : minSize cfg.blockSize s.db k = minSize cfg.blockSize t.db k := by rw [ht]; rfl
      rcases fixSize_some hf with rfl | ⟨r, hg, rfl⟩
      · exact hb i hi
      · dsimp only at hi
        by_cases hk : b = k
        · subst hk
          rw [AL.get_set_self] at hi
          cases hi
          dsimp only
          omega
        · rw [AL.get_set_ne _ _ hk] at hi
          exact hb i hi) h rfl
  intro e he
  have hk : e.1 ∈ keys s.db.inodes := by rw [← hio.2.keys]; exact mem_keys.2 ⟨e.2, he⟩
  have := key e.1 hk e.2 (AL.mem_get_some hs'.inodes he)
  have e2 : minSize cfg.blockSize s.db e.1 = minSize cfg.blockSize s'.db e.1 := by rw [hio.1]; rfl
  rw [e2] at this
  exact (minSize_le hs').1 this

theorem SizesOk.kept {bs : Nat} {a b : Db} (h : SizesOk bs a) (hb : b.blocks = a.blocks) (ho : b.objects = a.objects)
    (hi : ∀ e ∈ b.inodes, ∃ f ∈ a.inodes, f.1 = e.1 ∧ f.2.size = e.2.size) : SizesOk bs b := by
  intro e he x hx hxe o hox
  obtain ⟨f, hf, h1, h2⟩ := hi e he
  rw [← h2]
  rw [hb] at hx
  rw [ho] at hox
  exact h f hf x hx (by rw [h1]; exact hxe) o hox

theorem checkUnix_sizes {s s' : St} (hs : Schema s.db) (h : checkUnix s = some s') :
    ∀ e ∈ s'.db.inodes, ∃ f ∈ s.db.inodes, f.1 = e.1 ∧ f.2.size = e.2.size := by
  have key : ∀ t : St, Schema t.db → ∀ k t', unixInode k t = some t' → Schema t'.db ∧ ∀ e ∈ t'.db.inodes, ∃ f ∈ t.db.inodes, f.1 = e.1 ∧ f.2.size = e.2.size := by
    intro t ht k t' hk
    rcases unixInode_some hk with rfl | ⟨i, hg, rfl⟩
    · exact ⟨ht, fun e he => ⟨e, he, rfl, rfl⟩⟩
    · refine ⟨ht.setInode _ hg, ?_⟩
      intro e he
      rcases (mem_set ht.inodes).1 he with rfl | ⟨he, _⟩
      · exact ⟨(k, i), AL.get_some_mem hg, rfl, rfl⟩
      · exact ⟨e, he, rfl, rfl⟩
  unfold checkUnix at h
  split at h
  · cases h
  · rename_i s1 h1
    have a := iter_inv (f := unixInode) (fun t => Schema t.db ∧ ∀ e ∈ t.db.inodes, ∃ f ∈ s.db.inodes, f.1 = e.1 ∧ f.2.size = e.2.size)
      (fun k _ t t' ht hf => by
        obtain ⟨p, q⟩ := key t ht.1 k t' hf
        refine ⟨p, fun e he => ?_⟩
        obtain ⟨f, hf, h1, h2⟩ := q e he
        obtain ⟨g, hg, h3, h4⟩ := ht.2 f hf
        exact ⟨g, hg, h3.trans h1, h4.trans h2⟩) h1 ⟨hs, fun e he => ⟨e, he, rfl, rfl⟩⟩
    have b := iter_inv (f := unixName) (fun t => t.db = s1.db) (fun e _ t t' ht hf => by
      unfold unixName at hf
      split at hf
      · cases hf; exact ht
      · cases hf) h rfl
    rw [b]; exact a.2

theorem checkC_more {cfg : Cfg} {depth : Nat} {s s' : St} (hs : Schema s.db) (h : checkC cfg depth s = some s') :
    s'.db.objects = s.db.objects ∧ s'.db.blocks = s.db.blocks ∧ s'.backend = s.backend ∧ SizesOk cfg.blockSize s'.db ∧ RefsOk s'.db := by
  unfold checkC at h
  obtain ⟨s14, h14, h⟩ := Option.bind_eq_some_iff.1 h
  obtain ⟨s15, h15, h⟩ := Option.bind_eq_some_iff.1 h
  obtain ⟨s16, h16, h⟩ := Option.bind_eq_some_iff.1 h
  obtain ⟨s17, h17, h⟩ := Option.bind_eq_some_iff.1 h
  obtain ⟨s19, h19, h⟩ := Option.bind_eq_some_iff.1 h
  obtain ⟨s20, h20, h21⟩ := Option.bind_eq_some_iff.1 h
  replace h21 := (Option.some.inj h21).symm
  subst h21
  obtain ⟨hs14, k14, n14, r14, _, _, b14⟩ := checkInodesRefcount_step hs h14
  obtain ⟨hs15, o15, b15⟩ := checkInodesSize_step hs14 h15
  have z15 := checkInodesSize_sizes hs14 h15
  obtain ⟨hs16, o16, b16, same16⟩ := checkXattrName_step hs15 h16
  obtain ⟨hs17, o17, b17, x17, n17⟩ := checkXattrInode_step hs16 h17
  obtain ⟨hs18, y18, k18⟩ := checkSymlinks_step hs17
  obtain ⟨hs19, m19, n19, b19, p19⟩ := checkLoops_step hs18 h19
  obtain ⟨hs20, o20, b20⟩ := checkUnix_step hs19 h20
  have kk : Kept s15.db s20.db := (((o16.kept.trans o17.kept).trans k18).trans m19.kept).trans o20.kept
  have kk0 : Kept s.db s15.db := k14.trans o15.kept
  have r17 : RefsOk s17.db := o17.refs (o16.refs (o15.refs r14))
  have r19 : RefsOk s19.db := m19.refs (a := (checkSymlinks s17).db) r17
  have r20 : RefsOk s20.db := o20.refs r19
  have hfdb : (checkForeign s20).db = s20.db := by unfold checkForeign; split <;> rfl
  have hfb : (checkForeign s20).backend = s20.backend := by unfold checkForeign; split <;> rfl
  have i19 : s19.db.inodes = s15.db.inodes := by
    rw [m19.1]
    show s17.db.inodes = _
    rw [o17, o16]
  rw [hfdb, hfb]
  refine ⟨kk.objects.trans kk0.objects, kk.blocks.trans kk0.blocks, ?_, ?_, r20⟩
  · rw [b20, b19]
    show s17.backend = _
    rw [b17, b16, b15, b14]
  · refine z15.kept kk.blocks kk.objects ?_
    intro e he
    obtain ⟨f, hf, h1, h2⟩ := checkUnix_sizes hs19 h20 e he
    rw [i19] at hf
    exact ⟨f, hf, h1, h2⟩

/-! #### Blocks of missing inodes -/

/-- The blocks in the cache belong to existing inodes. -/
def CacheInodes (s : St) : Prop := ∀ id b d, CFile.blk id b d ∈ s.cache → HasInode s.db id

theorem checkLof_keeps {cfg : Cfg} {s s' : St} (h : checkLof cfg s = some s') :
    s'.db.blocks = s.db.blocks ∧ s'.cache = s.cache ∧ ∀ i, HasInode s.db i → HasInode s'.db i := by
  have mr : ∀ (f : CRow → CRow) (l : List Nat) (db db' : Db), db.moveRows f l = some db' → db' = { db with contents := db'.contents } := by
    intro f l
    induction l with
    | nil => intro db db' h; cases h; rfl
    | cons a t ih =>
      intro db db' h
      unfold Db.moveRows at h
      split at h
      · exact ih db db' h
      · split at h
        · cases h
        · rename_i db1 h1
          have := ih db1 db' h
          unfold Db.putEntry at h1
          split at h1
          · cases h1
          · cases h1; rw [this]
  have ci : ∀ db : Db, (db.createLof cfg).1.blocks = db.blocks ∧ ∀ i, HasInode db i → HasInode (db.createLof cfg).1 i := by
    intro db
    refine ⟨rfl, fun i hi => ?_⟩
    apply isSome_iff_mem.1
    show (AL.get (AL.set db.inodes _ _) i).isSome = true
    rw [AL.get_set]
    split
    · rfl
    · exact isSome_iff_mem.2 hi
  have an : ∀ (db : Db) x n, (db.addName x n).1.blocks = db.blocks ∧ (db.addName x n).1.inodes = db.inodes := by
    intro db x n
    unfold Db.addName
    split
    · split <;> exact ⟨rfl, rfl⟩
    · exact ⟨rfl, rfl⟩
  have fl : ∀ s1 id nid, findLof cfg s = some (s1, id, nid) → s1.db.blocks = s.db.blocks ∧ s1.cache = s.cache ∧ ∀ i, HasInode s.db i → HasInode s1.db i := by
    intro s1 id nid h
    unfold findLof at h
    split at h
    · cases h; exact ⟨rfl, rfl, fun _ h => h⟩
    · split at h
      · split at h
        · cases h
        · rename_i db hdb
          cases h
          have := mr _ _ _ _ hdb
          refine ⟨?_, rfl, fun i hi => ?_⟩
          · show db.blocks = _; rw [this]
          · show HasInode db i; rw [this]; exact hi
      · dsimp only at h
        split at h
        · cases h
        · rename_i db hdb
          cases h
          have e := (insEntry_some hdb).1
          obtain ⟨c1, c2⟩ := ci s.db
          obtain ⟨a1, a2⟩ := an (s.db.createLof cfg).1 false lofName
          refine ⟨?_, rfl, fun i hi => ?_⟩
          · show db.blocks = _; rw [e]; exact a1.trans c1
          · show HasInode db i
            rw [e]
            show ∃ x, (i, x) ∈ (((s.db.createLof cfg).1.addName false lofName).1).inodes
            rw [a2]; exact c2 i hi
      · cases h
  unfold checkLof at h
  split at h
  · cases h
  · rename_i s1 id nid hx
    obtain ⟨p1, p2, p3⟩ := fl s1 id nid hx
    split at h
    · cases h
    · split at h
      · cases h; exact ⟨p1, p2, p3⟩
      · obtain ⟨c1, c2⟩ := ci s1.db
        dsimp only at h
        split at h
        · cases h; exact ⟨p1, p2, fun i hi => c2 i (p3 i hi)⟩
        · cases h; exact ⟨p1, p2, fun i hi => c2 i (p3 i hi)⟩

theorem cacheFile_inodes {cfg : Cfg} {f : CFile} {s s' : St} (h : cacheFile cfg f s = some s') (hb : BlocksHaveInode s.db)
    (hf : ∀ id b d, f = CFile.blk id b d → HasInode s.db id) (hn : AL.NK s.db.blocks) : BlocksHaveInode s'.db ∧ AL.NK s'.db.blocks ∧ s'.db.inodes = s.db.inodes := by
  have hi : s'.db.inodes = s.db.inodes := by rw [cacheFile_other h]
  cases f with
  | strange => cases h
  | tmp => cases h; exact ⟨hb, hn, rfl⟩
  | blk i b data =>
    simp only [cacheFile] at h
    split at h
    · cases h; exact ⟨hb, hn, rfl⟩
    · have h1 := objectFor_other cfg s.err data
      generalize objectFor cfg s.err data = x at h h1
      obtain ⟨s1, o⟩ := x
      dsimp only at h h1
      have e1 : s1.db.blocks = s.db.blocks := by rw [h1]; rfl
      have e2 : s1.db.inodes = s.db.inodes := by rw [h1]; rfl
      have hn1 : AL.NK s1.db.blocks := by rw [e1]; exact hn
      split at h
      · cases h
        refine ⟨?_, AL.NK.set hn1 _ _, hi⟩
        intro e he
        show ∃ j, (e.2.inode, j) ∈ s1.db.inodes
        rw [e2]
        rcases (mem_set hn1).1 he with rfl | ⟨he, _⟩
        · exact hf i b data rfl
        · rw [e1] at he; exact hb e he
      · rename_i rowid r hg
        cases h
        refine ⟨?_, AL.NK.set hn1 _ _, hi⟩
        intro e he
        show ∃ j, (e.2.inode, j) ∈ s1.db.inodes
        rw [e2]
        rcases (mem_set hn1).1 he with rfl | ⟨he, _⟩
        · have := (findBlock_spec hg).1
          rw [e1] at this
          exact hb (rowid, r) this
        · rw [e1] at he; exact hb e he

theorem checkA_blocks {cfg : Cfg} {c : CacheArg} {s s' : St} (hs : Schema s.db) (h : checkA cfg c s = some s')
    (hb : BlocksHaveInode s.db) (hc : c ≠ .no → CacheInodes s) : BlocksHaveInode s'.db := by
  unfold checkA at h
  obtain ⟨s1, h1, h⟩ := Option.bind_eq_some_iff.1 h
  obtain ⟨s2, h2, h⟩ := Option.bind_eq_some_iff.1 h
  obtain ⟨s4, h4, h⟩ := Option.bind_eq_some_iff.1 h
  obtain ⟨s5, h5, h6⟩ := Option.bind_eq_some_iff.1 h
  have hs1 := checkLof_schema hs h1
  have hs2 := cachePart_schema hs1 h2
  have hs3 := checkNamesRefcount_schema hs2
  obtain ⟨hs4, m4⟩ := checkContentsName_moved hs3 h4
  have hs5 := checkContentsInode_schema hs4 h5
  obtain ⟨hs6, m6⟩ := checkContentsParent_step hs5 h6
  obtain ⟨b1, c1, i1⟩ := checkLof_keeps h1
  have hb1 : BlocksHaveInode s1.db := by
    intro e he
    rw [b1] at he
    exact i1 _ (hb e he)
  have hb2 : BlocksHaveInode s2.db := by
    have aux : c ≠ .no → ∀ keep s', checkCache cfg keep s1 = some s' → BlocksHaveInode s'.db := by
      intro hcn keep s' h
      unfold checkCache at h
      obtain ⟨t, ht, rfl⟩ := Option.map_eq_some_iff.1 h
      show BlocksHaveInode t.db
      refine (iter_inv (f := cacheFile cfg) (fun t => BlocksHaveInode t.db ∧ AL.NK t.db.blocks ∧ t.db.inodes = s1.db.inodes) ?_ ht ⟨hb1, hs1.blocks, rfl⟩).1
      intro f hf u u' hu hcf
      obtain ⟨p, q, r⟩ := cacheFile_inodes hcf hu.1 (fun id b d hfe => by
        show ∃ j, (id, j) ∈ u.db.inodes
        rw [hu.2.2]
        rw [c1] at hf
        rw [hfe] at hf
        exact i1 _ (hc hcn id b d hf)) hu.2.1
      exact ⟨p, q, r.trans hu.2.2⟩
    cases c with
    | no => cases h2; exact hb1
    | yes => exact aux (by decide) _ _ h2
    | keep => exact aux (by decide) _ _ h2
  have e4 : s4.db.blocks = s2.db.blocks ∧ s4.db.inodes = s2.db.inodes := by rw [m4.1]; exact ⟨rfl, rfl⟩
  have e5 : s5.db.blocks = s4.db.blocks ∧ s5.db.inodes = s4.db.inodes := by
    unfold checkContentsInode at h5
    obtain ⟨t, ht, rfl⟩ := Option.map_eq_some_iff.1 h5
    show t.db.blocks = s4.db.blocks ∧ t.db.inodes = s4.db.inodes
    refine iter_inv (f := dropEntry) (fun t => t.db.blocks = s4.db.blocks ∧ t.db.inodes = s4.db.inodes) ?_ ht ⟨rfl, rfl⟩
    intro a _ u u' hu hd
    have dn : ∀ (db : Db) n, (db.delName n).blocks = db.blocks ∧ (db.delName n).inodes = db.inodes := by
      intro db n
      unfold Db.delName
      split
      · split <;> exact ⟨rfl, rfl⟩
      · exact ⟨rfl, rfl⟩
    unfold dropEntry at hd
    split at hd
    · cases hd
    · cases hd
      obtain ⟨p, q⟩ := dn u.db a.2.nameId
      exact ⟨p.trans hu.1, q.trans hu.2⟩
  have e6 : s'.db.blocks = s5.db.blocks ∧ s'.db.inodes = s5.db.inodes := by rw [m6.1]; exact ⟨rfl, rfl⟩
  intro e he
  show ∃ j, (e.2.inode, j) ∈ s'.db.inodes
  rw [e6.2, e5.2, e4.2]
  rw [e6.1, e5.1, e4.1] at he
  exact hb2 e he

/-! #### The second run -/

/-- The state in which a second run starts. -/
def again (s : St) : St := { s with found := false, uncorr := false, unlinked := [] }

theorem check_clean_of {cfg : Cfg} {depth : Nat} {c : CacheArg} {s s' : St} (hs : Schema s.db) (hl : ListingExact cfg)
    (h : check cfg depth c s = some s') (hu : s'.uncorr = false) (hn : NamesKnown s.db) (hb : BlocksHaveInode s.db)
    (hc : c ≠ .no → CacheInodes s) (h1 : LofOk s'.db) (h2 : TreeOk s'.db depth) (h3 : UnixOk s'.db) :
    Clean cfg depth (again s') ∧ (c = .yes → s'.cache = []) := by
  obtain ⟨good, gn, gs, gu⟩ := check_good hs h
  unfold check at h
  obtain ⟨s6, h6, h⟩ := Option.bind_eq_some_iff.1 h
  obtain ⟨s13, h13, h20⟩ := Option.bind_eq_some_iff.1 h
  have hs6 := (checkA_step hs h6).1
  have hb6 := checkA_blocks hs h6 hb hc
  obtain ⟨m1, m2, m3, m4⟩ := checkB_more hs6 h13
  have hs13 := (checkB_step hs6 h13).1
  obtain ⟨k1, k2, k3, k4, k5⟩ := checkC_more hs13 h20
  obtain ⟨t1, t2⟩ := checkB_side h13
  obtain ⟨t3, t4⟩ := checkC_side h20
  have used : ∀ e ∈ s'.db.objects, usesOfObj s'.db e.1 ≠ 0 := by
    intro e he
    rw [k1] at he
    have := m4 hb6 e he
    unfold usesOfObj at this ⊢
    rw [k2]; exact this
  refine ⟨⟨h1, (gn hn).refs good.schema.names, (gu hu).1, good.entriesInode, good.entriesParent, ?_, ?_, good.objRefs, used,
    gs hl.sound, ?_, ?_, good.blocksObj, good.blocksInode, good.inodeRefs, fun e he hp => (k5 e he hp).2, k4, (gu hu).2,
    good.xattrsInode, good.symlinksInode, h2, h3⟩, ?_⟩
  · exact t3.trans t1
  · intro e he; exact m1 e (by rw [← k1]; exact he)
  · intro e he
    have he' : e ∈ s'.backend := he
    rw [k3] at he'
    obtain ⟨o, ho⟩ := m3 hl e he'
    refine ⟨o, ?_⟩
    show (e.1, o) ∈ s'.db.objects
    rw [k1]; exact ho
  · intro e he; exact m2 e (by rw [← k1]; exact he)
  · intro hy
    rw [t4, t2]
    exact checkA_cache h6 hy

end Verif.Fsck
