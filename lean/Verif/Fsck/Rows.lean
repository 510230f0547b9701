/-
C92, the part of fsck: what a completed run leaves of all blocks, right or not.
-/
import Verif.Fsck.Crash
import Verif.Fsck.Quiet

namespace Verif.Fsck
open Verif.Fs (Bytes Inode rootInode ctrlInode isDir)

/-! #### Specification -/

/-- The hashes of objects are right. -/
def HashOk (cfg : Cfg) (s : St) : Prop := ∀ k o d h, (k, o) ∈ s.db.objects → AL.get s.backend k = some d → o.hash = some h → h = cfg.sha d

/-- The blocks in `P` have the contents `m`, or are missing in the storage. -/
def RightOn (m : Nat → Nat → Bytes) (P : Nat → Nat → Prop) (s : St) : Prop :=
  ∀ e ∈ s.db.blocks, P e.2.inode e.2.blockno → ∀ d, AL.get s.backend e.2.obj = some d → d = m e.2.inode e.2.blockno

/-! #### Lemmas -/

theorem objectFor_hashOk {cfg : Cfg} {s : St} (hs : Schema s.db) (hl : HashOk cfg s) (data : Bytes) : HashOk cfg (objectFor cfg s data).1 := by
  unfold objectFor
  cases hf : findHash s.db.objects (cfg.sha data) with
  | some i =>
    intro k o d h hk hd hh
    obtain ⟨o', h1, h2⟩ := (addRef_hash hs.objects).2 k o hk
    exact hl k o' d h h1 hd (h2.trans hh)
  | none =>
    intro k o d h hk hd hh
    dsimp only at hk hd
    rcases (mem_set hs.objects).1 hk with e | ⟨e, hne⟩
    · cases e
      rw [AL.get_set_self] at hd
      cases hd; cases hh; rfl
    · rw [AL.get_set_ne _ _ hne] at hd
      exact hl k o d h e hd hh

theorem cacheFile_right {cfg : Cfg} {f : CFile} {s s' : St} {m : Nat → Nat → Bytes} {P : Nat → Nat → Prop} (hs : Schema s.db) (hinj : Function.Injective cfg.sha)
    (hl : HashOk cfg s) (hb : BlocksHaveObj s.db) (hr : RightOn m P s) (hf : ∀ i n d, f = CFile.blk i n d → d = m i n) (h : cacheFile cfg f s = some s') :
    HashOk cfg s' ∧ BlocksHaveObj s'.db ∧ RightOn m (fun i n => P i n ∨ ∃ d, f = CFile.blk i n d) s' := by
  cases f with
  | strange => cases h
  | tmp =>
    cases h
    refine ⟨hl, hb, fun e he hp => ?_⟩
    rcases hp with hp | ⟨d, hd⟩
    · exact hr e he hp
    · cases hd
  | blk i n data =>
    have hdata := hf i n data rfl
    simp only [cacheFile] at h
    split at h
    · rename_i hst
      cases h
      refine ⟨hl, hb, fun e he hp d hd => ?_⟩
      rcases hp with hp | ⟨d', hd'⟩
      · exact hr e he hp d hd
      · cases hd'
        obtain ⟨g, o, h1, h2, h3, h4, h5⟩ := (storedSame_iff hs).1 hst
        have : e = g := hs.blockUnique e he g h1 h2.symm h3.symm
        subst this
        have := hl _ o d _ h4 hd h5
        rw [← hinj this]; exact hdata
    · obtain ⟨p1, _, p3⟩ := objectFor_spec (s := s.err) (cfg := cfg) hs data
      have hoth := objectFor_other cfg s.err data
      have hs1 := objectFor_schema (s := s.err) (cfg := cfg) hs data
      have hl1 := objectFor_hashOk (s := s.err) (cfg := cfg) hs hl data
      generalize objectFor cfg s.err data = x at h p1 p3 hoth hs1 hl1
      obtain ⟨s1, oid⟩ := x
      dsimp only at h p1 p3 hoth hs1 hl1
      have eb : s1.db.blocks = s.db.blocks := by rw [hoth]; rfl
      obtain ⟨o1, ho1, ho2⟩ := p1
      have hb1 : BlocksHaveObj s1.db := by
        intro e he
        rw [eb] at he
        obtain ⟨o, ho⟩ := hb e he
        obtain ⟨⟨o', ho', _⟩, _⟩ := p3 _ o ho
        exact ⟨o', ho'⟩
      have hr1 : RightOn m P s1 := by
        intro e he hp d hd
        rw [eb] at he
        obtain ⟨o, ho⟩ := hb e he
        rw [(p3 _ o ho).2] at hd
        exact hr e he hp d hd
      have new : ∀ d, AL.get s1.backend oid = some d → d = m i n := by
        intro d hd
        have := hl1 _ o1 d _ ho1 hd ho2
        rw [← hinj this]; exact hdata
      split at h
      · rename_i hnone
        cases h
        refine ⟨hl1, ?_, ?_⟩
        · intro e he
          rcases (mem_set hs1.blocks).1 he with rfl | ⟨he, _⟩
          · exact ⟨o1, ho1⟩
          · exact hb1 e he
        · intro e he hp d hd
          rcases (mem_set hs1.blocks).1 he with rfl | ⟨he1, _⟩
          · exact new d hd
          · rcases hp with hp | ⟨d', hd'⟩
            · exact hr1 e he1 hp d hd
            · cases hd'
              exact absurd ⟨rfl, rfl⟩ (findBlock_none hnone e he1)
      · rename_i rowid r hg
        cases h
        obtain ⟨q1, q2, q3⟩ := findBlock_spec hg
        dsimp only at q2 q3
        refine ⟨?_, ?_, ?_⟩
        · intro k o d h hk hd hh
          obtain ⟨o', h1, h2⟩ := (addRef_hash hs1.objects).2 k o hk
          exact hl1 k o' d h h1 hd (h2.trans hh)
        · intro e he
          have hx : ∀ k, HasObj s1.db k → ∃ o, (k, o) ∈ addRef s1.db.objects r.obj (-1) := by
            intro k ⟨o, ho⟩
            obtain ⟨o', h1, _⟩ := (addRef_hash hs1.objects (k := r.obj) (n := -1)).1 k o ho
            exact ⟨o', h1⟩
          rcases (mem_set hs1.blocks).1 he with rfl | ⟨he, _⟩
          · exact hx _ ⟨o1, ho1⟩
          · exact hx _ (hb1 e he)
        · intro e he hp d hd
          rcases (mem_set hs1.blocks).1 he with rfl | ⟨he, hne⟩
          · dsimp only at hd ⊢
            rw [q2, q3]
            exact new d hd
          · rcases hp with hp | ⟨d', hd'⟩
            · exact hr1 e he hp d hd
            · have e1 := congrArg (fun x => match x with | CFile.blk a _ _ => a | _ => 0) hd'
              have e2 := congrArg (fun x => match x with | CFile.blk _ a _ => a | _ => 0) hd'
              dsimp only at e1 e2
              have : e = (rowid, r) := hs1.blockUnique e he _ q1 (by rw [← e1]; exact q2.symm) (by rw [← e2]; exact q3.symm)
              rw [this] at hne
              exact absurd rfl hne

theorem iter_right {cfg : Cfg} {m : Nat → Nat → Bytes} (hinj : Function.Injective cfg.sha) : ∀ (l : List CFile) {s s' : St} {P : Nat → Nat → Prop}, Schema s.db → HashOk cfg s →
    BlocksHaveObj s.db → RightOn m P s → (∀ i n d, CFile.blk i n d ∈ l → d = m i n) → iter (cacheFile cfg) l s = some s' →
    HashOk cfg s' ∧ BlocksHaveObj s'.db ∧ RightOn m (fun i n => P i n ∨ ∃ d, CFile.blk i n d ∈ l) s'
  | [], s, s', P, _, hl, hb, hr, _, h => by
    cases h
    refine ⟨hl, hb, fun e he hp => ?_⟩
    rcases hp with hp | ⟨d, hd⟩
    · exact hr e he hp
    · cases hd
  | f :: l, s, s', P, hs, hl, hb, hr, hf, h => by
    unfold iter at h
    obtain ⟨s1, h1, h⟩ := Option.bind_eq_some_iff.1 h
    · obtain ⟨a1, a2, a3⟩ := cacheFile_right hs hinj hl hb hr (fun i n d e => hf i n d (by rw [e]; exact List.mem_cons_self)) h1
      obtain ⟨b1, b2, b3⟩ := iter_right hinj l (cacheFile_schema hs h1) a1 a2 a3 (fun i n d e => hf i n d (List.mem_cons_of_mem _ e)) h
      refine ⟨b1, b2, fun e he hp => b3 e he ?_⟩
      rcases hp with hp | ⟨d, hd⟩
      · exact Or.inl (Or.inl hp)
      · rcases List.mem_cons.1 hd with hd | hd
        · exact Or.inl (Or.inr ⟨d, hd.symm⟩)
        · exact Or.inr ⟨d, hd⟩

/-- checkB only removes rows and objects, from the storage too; and what is in the storage afterwards is known. -/
theorem checkB_rows {cfg : Cfg} {s s' : St} (hs : Schema s.db) (h : checkB cfg s = some s') :
    (∀ k d, AL.get s'.backend k = some d → AL.get s.backend k = some d) ∧ (HashOk cfg s → HashOk cfg s') ∧
      (ListingExact cfg → ∀ k d, AL.get s'.backend k = some d → HasObj s'.db k) := by
  have hs' := (checkB_step hs h).1
  unfold checkB at h
  obtain ⟨s9, h9, h⟩ := Option.bind_eq_some_iff.1 h
  obtain ⟨s10, h10, h⟩ := Option.bind_eq_some_iff.1 h
  obtain ⟨s11, h11, h⟩ := Option.bind_eq_some_iff.1 h
  obtain ⟨s12, h12, h13⟩ := Option.bind_eq_some_iff.1 h
  have hs8 : Schema (checkObjectsHash (checkObjectsTemp s)).db := checkObjectsHash_schema (s := checkObjectsTemp s) hs
  obtain ⟨hs9, o9, _, u9, b9⟩ := checkObjectsRefcount_step hs8 h9
  obtain ⟨hs10, o10, sub10, _⟩ := checkObjectsId_step hs9 h10
  obtain ⟨hs11, o11, same11, b11⟩ := checkObjectsPhys_step hs10 h11
  obtain ⟨s1, hs1, m12, _, d12⟩ := checkBlocksObj_step hs11 h12
  obtain ⟨d13, b13⟩ := checkBlocksInode_db h13
  have back12 : s12.backend = s11.backend := by
    unfold checkBlocksObj at h12
    obtain ⟨t, ht, rfl⟩ := Option.map_eq_some_iff.1 h12
    show t.backend = s11.backend
    refine iter_inv (f := badBlock) (fun t => t.backend = s11.backend) ?_ ht rfl
    intro b _ v v' hv hb
    refine Eq.trans ?_ hv
    refine iter_inv (f := moveAffected) (fun t => t.backend = v.backend) ?_ hb rfl
    intro e _ w w' hw hm
    rw [moveAffected_other hm]; exact hw
  have objs12 : s12.db.objects = s11.db.objects := by rw [d12, m12.1]
  have back9 : s9.backend = s.backend := by
    rw [checkObjectsRefcount_eq] at h9
    cases h9; rfl
  have spec10 : (∀ k d, AL.get s10.backend k = some d → AL.get s9.backend k = some d) ∧
      (∀ k, (AL.get s9.db.objects k).isSome → AL.get s10.backend k = AL.get s9.backend k) ∧
      (ListingExact cfg → ∀ k d, AL.get s10.backend k = some d → HasObj s10.db k) := by
    unfold checkObjectsId at h10
    dsimp only at h10
    split at h10
    · cases h10
    · rename_i v hv
      cases h10
      obtain ⟨w2, w3, w4, _⟩ := iter_delSpurious hv
      refine ⟨?_, ?_, ?_⟩
      · intro k d hd
        have hd : AL.get v.backend k = some d := hd
        by_cases hm : k ∈ (cfg.list s9.backend).filter (fun o => (AL.get s9.db.objects o).isNone)
        · rw [w4 k hm] at hd; cases hd
        · rw [← w3 k hm]; exact hd
      · intro k hk
        apply w3
        intro hm
        have := (List.mem_filter.1 hm).2
        cases hg : AL.get s9.db.objects k with
        | none => rw [hg] at hk; cases hk
        | some o => rw [hg] at this; cases this
      · intro hx k d hd
        have hd : AL.get v.backend k = some d := hd
        by_cases hm : k ∈ (cfg.list s9.backend).filter (fun o => (AL.get s9.db.objects o).isNone)
        · rw [w4 k hm] at hd; cases hd
        · have hd9 := hd
          rw [w3 k hm] at hd9
          have hin : k ∈ cfg.list s9.backend := (hx _ _).2 ⟨d, AL.get_some_mem hd9⟩
          cases hg : AL.get s9.db.objects k with
          | none => exact absurd (List.mem_filter.2 ⟨hin, by rw [hg]; rfl⟩) hm
          | some o =>
            refine ⟨o, List.mem_filter.2 ⟨by rw [w2]; exact AL.get_some_mem hg, ?_⟩⟩
            have : (cfg.list s9.backend).contains k = true := by simpa using hin
            simp only [this]
            rfl
  refine ⟨?_, ?_, ?_⟩
  · intro k d hd
    rw [b13, back12, b11] at hd
    have := spec10.1 k d hd
    rw [back9] at this; exact this
  · intro hl
    have l9 : HashOk cfg s9 := by
      rw [checkObjectsRefcount_eq] at h9
      cases h9
      intro k o d h hk hd hh
      unfold refObjs at hk
      obtain ⟨e, he, hek⟩ := List.mem_map.1 hk
      have he := (List.mem_filter.1 (List.mem_filter.1 he).1).1
      have h1 : e.1 = k := congrArg Prod.fst hek
      have h2 : e.2.hash = o.hash := congrArg (fun x => x.2.hash) hek
      refine hl k e.2 d h ?_ hd (h2.trans hh)
      rw [← h1]; exact he
    have l10 : HashOk cfg s10 := by
      intro k o d h hk hd hh
      exact l9 k o d h (sub10.subset hk) (spec10.1 k d hd) hh
    have l11 : HashOk cfg s11 := by
      intro k o d h hk hd hh
      obtain ⟨f, hf, h1, _, h3, h2⟩ := SameObjs.mem same11 hk
      have h1 : f.1 = k := h1
      refine l10 k f.2 d h ?_ (by rw [← b11]; exact hd) (h3.trans hh)
      rw [← h1]; exact hf
    intro k o d h hk hd hh
    rw [d13] at hk
    rw [b13] at hd
    rw [d13] at hs'
    have hg := AL.mem_get_some hs'.objects hk
    dsimp only at hg
    rw [unref_get] at hg
    obtain ⟨o', h1, rfl⟩ := Option.map_eq_some_iff.1 hg
    rw [back12] at hd
    have h1 := AL.get_some_mem h1
    rw [objs12] at h1
    exact l11 k o' d h h1 hd hh
  · intro hx k d hd
    rw [b13, back12, b11] at hd
    obtain ⟨o, ho⟩ := spec10.2.2 hx k d hd
    have hk : (AL.get s10.db.objects k).isSome = true := isSome_iff_mem.2 ⟨o, ho⟩
    rw [← same11.get k, ← objs12] at hk
    obtain ⟨o', ho'⟩ := Option.isSome_iff_exists.1 hk
    unfold HasObj
    rw [d13]
    exact ⟨_, AL.get_some_mem (by rw [unref_get, ho']; rfl)⟩

/-- C92, for fsck: after a completed run every block of every file has the contents `m` or is missing, if `m` are the contents of the files in the cache directory,
and of the objects of the other blocks. -/
theorem rows_after {cfg : Cfg} {depth : Nat} {c : CacheArg} {s s' : St} {m : Nat → Nat → Bytes} (hs : Schema s.db) (hinj : Function.Injective cfg.sha)
    (h : Completed cfg depth c s s') (hc : c ≠ .no) (hh : HashOk cfg s) (hb : BlocksHaveObj s.db)
    (hm : ∀ i n d, CFile.blk i n d ∈ s.cache → d = m i n)
    (hr : RightOn m (fun i n => ∀ d, CFile.blk i n d ∉ s.cache) s) :
    HashOk cfg s' ∧ (∀ i n, blockData s' i n = m i n ∨ blockData s' i n = []) ∧ (LenOk s → LenOk s') ∧
      SizesOk cfg.blockSize s'.db ∧ (ListingExact cfg → ∀ k d, AL.get s'.backend k = some d → HasObj s'.db k) := by
  have hck := h.1
  unfold check at hck
  obtain ⟨s6, h6, hck⟩ := Option.bind_eq_some_iff.1 hck
  obtain ⟨s13, h13, h20⟩ := Option.bind_eq_some_iff.1 hck
  have hs6 := (checkA_step hs h6).1
  have hs13 := (checkB_step hs6 h13).1
  obtain ⟨s1, s2, h1, h2, B, O, I, K⟩ := checkA_tail hs h6
  have hs1 := checkLof_schema hs h1
  obtain ⟨lb, lc, _⟩ := checkLof_keeps h1
  obtain ⟨lo, lk⟩ := checkLof_objects h1
  obtain ⟨fB, fL⟩ := checkB_frame hs6 h13
  obtain ⟨r1, r2, r3⟩ := checkB_rows hs6 h13
  obtain ⟨k1, k2, k3, k4, _⟩ := checkC_more hs13 h20
  have hh1 : HashOk cfg s1 := by
    intro k o d x hk hd hx
    rw [lo] at hk; rw [lk] at hd
    exact hh k o d x hk hd hx
  have hb1 : BlocksHaveObj s1.db := by
    intro e he
    rw [lb] at he
    obtain ⟨o, ho⟩ := hb e he
    exact ⟨o, by rw [lo]; exact ho⟩
  have hr1 : RightOn m (fun i n => ∀ d, CFile.blk i n d ∉ s.cache) s1 := by
    intro e he hp d hd
    rw [lb] at he; rw [lk] at hd
    exact hr e he hp d hd
  have aux : ∀ keep t2, checkCache cfg keep s1 = some t2 → HashOk cfg t2 ∧ RightOn m (fun _ _ => True) t2 := by
    intro keep t2 h2
    unfold checkCache at h2
    obtain ⟨t, ht, rfl⟩ := Option.map_eq_some_iff.1 h2
    rw [lc] at ht
    obtain ⟨a1, a2, a3⟩ := iter_right hinj s.cache hs1 hh1 hb1 hr1 hm ht
    refine ⟨a1, fun e he _ => a3 e he ?_⟩
    by_cases hx : ∃ d, CFile.blk e.2.inode e.2.blockno d ∈ s.cache
    · exact Or.inr hx
    · exact Or.inl (fun d hd => hx ⟨d, hd⟩)
  have hA2 : HashOk cfg s2 ∧ RightOn m (fun _ _ => True) s2 := by
    cases c with
    | no => exact absurd rfl hc
    | yes => exact aux _ _ h2
    | keep => exact aux _ _ h2
  have hh6 : HashOk cfg s6 := by
    intro k o d x hk hd hx
    rw [O] at hk; rw [K] at hd
    exact hA2.1 k o d x hk hd hx
  refine ⟨?_, ?_, ?_, k4, ?_⟩
  · intro k o d x hk hd hx
    rw [k1] at hk; rw [k3] at hd
    exact r2 hh6 k o d x hk hd hx
  · intro i n
    unfold blockData
    cases hf : s'.db.blocks.find? (fun e => e.2.inode == i && e.2.blockno == n) with
    | none => exact Or.inr rfl
    | some e =>
      dsimp only
      cases hd : AL.get s'.backend e.2.obj with
      | none => exact Or.inr rfl
      | some d =>
        left
        have he := List.mem_of_find?_eq_some hf
        have hp := List.find?_some hf
        simp only [Bool.and_eq_true, beq_iff_eq] at hp
        rw [k2] at he
        have he6 := fB e he
        rw [B] at he6
        rw [k3] at hd
        have hd6 := r1 _ _ hd
        rw [K] at hd6
        have := hA2.2 e he6 trivial d hd6
        rw [hp.1, hp.2] at this
        exact this
  · intro hl
    have hl1 : LenOk s1 := by
      intro k o d hk hd
      rw [lo] at hk; rw [lk] at hd
      exact hl k o d hk hd
    have hl2 := (cachePart_frame hs1 hl1 h2).1
    have hl6 : LenOk s6 := by
      intro k o d hk hd
      rw [O] at hk; rw [K] at hd
      exact hl2 k o d hk hd
    have hl13 := fL hl6
    intro k o d hk hd
    rw [k1] at hk; rw [k3] at hd
    exact hl13 k o d hk hd
  · intro hx k d hd
    rw [k3] at hd
    obtain ⟨o, ho⟩ := r3 hx k d hd
    exact ⟨o, by rw [k1]; exact ho⟩

end Verif.Fsck
