/-
C62: blocks that a crash left in the cache directory are in the storage after fsck.
-/
import Verif.Fsck.Props

namespace Verif.Fsck
open Verif.Fs (Bytes Inode rootInode ctrlInode)

/-- Block `b` of inode `id` refers to an object with hash `h`, which is in the storage with contents of that hash. -/
def BlockStored (cfg : Cfg) (s : St) (id b : Nat) (h : Bytes) : Prop :=
  ∃ e o d, e ∈ s.db.blocks ∧ e.2.inode = id ∧ e.2.blockno = b ∧ (e.2.obj, o) ∈ s.db.objects ∧ o.hash = some h ∧
    AL.get s.backend e.2.obj = some d ∧ cfg.sha d = h

/-- Every object with hash `h` is in the storage, with contents of that hash. -/
def HashStored (cfg : Cfg) (s : St) (h : Bytes) : Prop :=
  ∀ e ∈ s.db.objects, e.2.hash = some h → ∃ d, AL.get s.backend e.1 = some d ∧ cfg.sha d = h

/-- Names in the cache directory are unique. -/
def CacheNames (l : List CFile) : Prop :=
  l.Pairwise (fun f g => ∀ id b d id' b' d', f = CFile.blk id b d → g = CFile.blk id' b' d' → ¬ (id = id' ∧ b = b'))

theorem BlockStored.keep {cfg : Cfg} {s s' : St} {id b : Nat} {h : Bytes} (hst : BlockStored cfg s id b h)
    (hb : ∀ e ∈ s.db.blocks, e.2.inode = id → e.2.blockno = b → (∃ o, (e.2.obj, o) ∈ s.db.objects) → e ∈ s'.db.blocks)
    (ho : ∀ k o, (k, o) ∈ s.db.objects → (∃ e ∈ s.db.blocks, e.2.obj = k) → o.hash ≠ none → (AL.get s.backend k).isSome = true → ∃ o', (k, o') ∈ s'.db.objects ∧ o'.hash = o.hash)
    (hs : ∀ k o, (k, o) ∈ s.db.objects → AL.get s'.backend k = AL.get s.backend k) : BlockStored cfg s' id b h := by
  obtain ⟨e, o, d, h1, h2, h3, h4, h5, h6, h7⟩ := hst
  obtain ⟨o', h8, h9⟩ := ho _ _ h4 ⟨e, h1, rfl⟩ (by rw [h5]; exact fun h => by cases h) (by rw [h6]; rfl)
  exact ⟨e, o', d, hb e h1 h2 h3 ⟨o, h4⟩, h2, h3, h8, h9.trans h5, (hs _ _ h4).trans h6, h7⟩

theorem addRef_hash {objs : List (Nat × Obj)} (hn : AL.NK objs) {k : Nat} {n : Int} :
    (∀ i o, (i, o) ∈ objs → ∃ o', (i, o') ∈ addRef objs k n ∧ o'.hash = o.hash) ∧
      (∀ i o, (i, o) ∈ addRef objs k n → ∃ o', (i, o') ∈ objs ∧ o'.hash = o.hash) := by
  unfold addRef
  cases hg : AL.get objs k with
  | none => exact ⟨fun i o h => ⟨o, h, rfl⟩, fun i o h => ⟨o, h, rfl⟩⟩
  | some r =>
    dsimp only
    constructor
    · intro i o h
      by_cases hk : i = k
      · subst hk
        have := AL.mem_get_some hn h
        rw [hg] at this
        cases this
        exact ⟨_, (mem_set hn).2 (Or.inl rfl), rfl⟩
      · exact ⟨o, (mem_set hn).2 (Or.inr ⟨h, hk⟩), rfl⟩
    · intro i o h
      rcases (mem_set hn).1 h with h | ⟨h, _⟩
      · cases h
        exact ⟨r, AL.get_some_mem hg, rfl⟩
      · exact ⟨o, h, rfl⟩

/-- The object that is used for a dirty block. -/
theorem objectFor_spec {cfg : Cfg} {s : St} (hs : Schema s.db) (data : Bytes) :
    (∃ o, ((objectFor cfg s data).2, o) ∈ (objectFor cfg s data).1.db.objects ∧ o.hash = some (cfg.sha data)) ∧
    (∀ h, HashStored cfg s h → HashStored cfg (objectFor cfg s data).1 h) ∧
    (∀ k o, (k, o) ∈ s.db.objects → (∃ o', (k, o') ∈ (objectFor cfg s data).1.db.objects ∧ o'.hash = o.hash) ∧ AL.get (objectFor cfg s data).1.backend k = AL.get s.backend k) := by
  unfold objectFor
  cases hf : findHash s.db.objects (cfg.sha data) with
  | some i =>
    dsimp only
    obtain ⟨a1, a2⟩ := addRef_hash hs.objects (k := i) (n := 1)
    obtain ⟨o, ho, hoh⟩ : ∃ o, (i, o) ∈ s.db.objects ∧ o.hash = some (cfg.sha data) := findHash_spec hf
    refine ⟨?_, ?_, ?_⟩
    · obtain ⟨o', h1, h2⟩ := a1 i o ho
      exact ⟨o', h1, h2.trans hoh⟩
    · intro h hh e he heh
      obtain ⟨o', h1, h2⟩ := a2 e.1 e.2 he
      exact hh (e.1, o') h1 (h2.trans heh)
    · intro k o hk
      exact ⟨a1 k o hk, rfl⟩
  | none =>
    dsimp only
    refine ⟨⟨_, (mem_set hs.objects).2 (Or.inl rfl), rfl⟩, ?_, ?_⟩
    · intro h hh e he heh
      rcases (mem_set hs.objects).1 he with rfl | ⟨he, hne⟩
      · dsimp only at heh ⊢
        cases heh
        exact ⟨data, AL.get_set_self _ _ _, rfl⟩
      · obtain ⟨d, h1, h2⟩ := hh e he heh
        exact ⟨d, by rw [AL.get_set_ne _ _ hne]; exact h1, h2⟩
    · intro k o hk
      have := hs.oseq (k, o) hk
      have hne : k ≠ s.db.oseq + 1 := by dsimp only at this; omega
      exact ⟨⟨o, (mem_set hs.objects).2 (Or.inr ⟨hk, hne⟩), rfl⟩, AL.get_set_ne _ _ hne⟩

theorem cacheFile_stores {cfg : Cfg} {f : CFile} {s s' : St} (hs : Schema s.db)
    (h : cacheFile cfg f s = some s') :
    (∀ x, HashStored cfg s x → HashStored cfg s' x) ∧ (∀ id b d, f = CFile.blk id b d → HashStored cfg s (cfg.sha d) → BlockStored cfg s' id b (cfg.sha d)) ∧
      (∀ id b x, (∀ d, f ≠ CFile.blk id b d) → BlockStored cfg s id b x → BlockStored cfg s' id b x) := by
  cases f with
  | strange => cases h
  | tmp =>
    cases h
    exact ⟨fun x hx => hx, (fun id b d hf => by cases hf), fun id b x _ hb => hb⟩
  | blk i n data =>
    simp only [cacheFile] at h
    split at h
    · rename_i hst
      cases h
      refine ⟨fun x hx => hx, ?_, fun id b x _ hb => hb⟩
      intro id b d hf hh
      cases hf
      obtain ⟨e, o, h1, h2, h3, h4, h5⟩ := (storedSame_iff hs).1 hst
      obtain ⟨d', h6, h7⟩ := hh _ h4 h5
      exact ⟨e, o, d', h1, h2, h3, h4, h5, h6, h7⟩
    · obtain ⟨p1, p2, p3⟩ := objectFor_spec (s := s.err) (cfg := cfg) hs data
      have hoth := objectFor_other cfg s.err data
      have hs1 := objectFor_schema (s := s.err) (cfg := cfg) hs data
      generalize objectFor cfg s.err data = x at h p1 p2 p3 hoth hs1
      obtain ⟨s1, oid⟩ := x
      dsimp only at h p1 p2 p3 hoth hs1
      have eb : s1.db.blocks = s.db.blocks := by rw [hoth]; rfl
      obtain ⟨o1, ho1, ho2⟩ := p1
      have stored : HashStored cfg s (cfg.sha data) → ∃ d1, AL.get s1.backend oid = some d1 ∧ cfg.sha d1 = cfg.sha data :=
        fun hh => p2 _ hh _ ho1 ho2
      split at h
      · rename_i hnone
        cases h
        refine ⟨p2, ?_, ?_⟩
        · intro id b d hf hh
          cases hf
          obtain ⟨d1, hd1, hd2⟩ := stored hh
          exact ⟨(maxKey s1.db.blocks + 1, ⟨i, n, oid⟩), o1, d1, (mem_set hs1.blocks).2 (Or.inl rfl), rfl, rfl, ho1, ho2, hd1, hd2⟩
        · intro id b x hne hb
          refine hb.keep ?_ ?_ ?_
          · intro e he _ _ _
            have he1 : e ∈ s1.db.blocks := by rw [eb]; exact he
            refine (mem_set hs1.blocks).2 (Or.inr ⟨he1, ?_⟩)
            have := le_maxKey he1
            omega
          · intro k o hk _ _ _; exact (p3 k o hk).1
          · intro k o hk; exact (p3 k o hk).2
      · rename_i rowid r hg
        cases h
        obtain ⟨g1, g2, g3⟩ := findBlock_spec hg
        obtain ⟨a1, a2⟩ := addRef_hash hs1.objects (k := r.obj) (n := -1)
        refine ⟨?_, ?_, ?_⟩
        · intro y hh e he hy
          obtain ⟨o', h1, h2⟩ := a2 e.1 e.2 he
          exact p2 y hh (e.1, o') h1 (h2.trans hy)
        · intro id b d hf hh
          cases hf
          obtain ⟨d1, hd1, hd2⟩ := stored hh
          obtain ⟨o', h1, h2⟩ := a1 _ _ ho1
          exact ⟨(rowid, { r with obj := oid }), o', d1, (mem_set hs1.blocks).2 (Or.inl rfl), g2, g3, h1, h2.trans ho2, hd1, hd2⟩
        · intro id b x hne hb
          refine hb.keep ?_ ?_ ?_
          · intro e he hei heb _
            have he1 : e ∈ s1.db.blocks := by rw [eb]; exact he
            refine (mem_set hs1.blocks).2 (Or.inr ⟨he1, ?_⟩)
            intro hk
            have : e = (rowid, r) := by
              have q1 := AL.mem_get_some hs1.blocks (k := e.1) (v := e.2) he1
              have q2 := AL.mem_get_some hs1.blocks g1
              rw [hk, q2] at q1
              cases q1
              exact Prod.ext hk rfl
            rw [this] at hei heb
            refine hne data ?_
            dsimp only at g2 g3 hei heb
            rw [← g2, ← g3, hei, heb]
          · intro k o hk _ _ _
            obtain ⟨o', q1, q2⟩ := (p3 k o hk).1
            obtain ⟨o'', q3, q4⟩ := a1 _ _ q1
            exact ⟨o'', q3, q4.trans q2⟩
          · intro k o hk; exact (p3 k o hk).2

theorem iter_cacheFile {cfg : Cfg} {l : List CFile} : ∀ {s s' : St}, Schema s.db → CacheNames l →
    iter (cacheFile cfg) l s = some s' →
    (∀ id b d, CFile.blk id b d ∈ l → HashStored cfg s (cfg.sha d) → BlockStored cfg s' id b (cfg.sha d)) ∧
      (∀ id b x, (∀ d, CFile.blk id b d ∉ l) → BlockStored cfg s id b x → BlockStored cfg s' id b x) := by
  induction l with
  | nil =>
    intro s s' _ _ h
    cases h
    exact ⟨fun id b d hm => absurd hm List.not_mem_nil, fun id b x _ hb => hb⟩
  | cons a t ih =>
    intro s s' hs hn h
    unfold iter at h
    obtain ⟨s1, h1, h⟩ := Option.bind_eq_some_iff.1 h
    obtain ⟨q1, q2, q3⟩ := cacheFile_stores hs h1
    have hs1 := cacheFile_schema hs h1
    obtain ⟨hna, hnt⟩ := List.pairwise_cons.1 hn
    obtain ⟨r1, r2⟩ := ih hs1 hnt h
    constructor
    · intro id b d hm hh
      rcases List.mem_cons.1 hm with rfl | hm
      · refine r2 id b _ ?_ (q2 id b d rfl hh)
        intro d' hm'
        exact hna _ hm' id b d id b d' rfl rfl ⟨rfl, rfl⟩
      · exact r1 id b d hm (q1 _ hh)
    · intro id b x hni hb
      refine r2 id b x (fun d hm => hni d (List.mem_cons_of_mem _ hm)) (q3 id b x ?_ hb)
      intro d hd
      exact hni d (by rw [hd]; exact List.mem_cons_self)

theorem checkB_keeps {cfg : Cfg} {s s' : St} {id b : Nat} {x : Bytes} (hs : Schema s.db) (h : checkB cfg s = some s')
    (hid : HasInode s.db id) (hst : BlockStored cfg s id b x) : BlockStored cfg s' id b x := by
  unfold checkB at h
  obtain ⟨s9, h9, h⟩ := Option.bind_eq_some_iff.1 h
  obtain ⟨s10, h10, h⟩ := Option.bind_eq_some_iff.1 h
  obtain ⟨s11, h11, h⟩ := Option.bind_eq_some_iff.1 h
  obtain ⟨s12, h12, h13⟩ := Option.bind_eq_some_iff.1 h
  have hs8 : Schema (checkObjectsHash (checkObjectsTemp s)).db := checkObjectsHash_schema (s := checkObjectsTemp s) hs
  obtain ⟨hs9, o9, _, u9, b9⟩ := checkObjectsRefcount_step hs8 h9
  obtain ⟨hs10, o10, sub10, _⟩ := checkObjectsId_step hs9 h10
  obtain ⟨hs11, o11, same11, b11⟩ := checkObjectsPhys_step hs10 h11
  obtain ⟨s1, hs1, m12, _, d12⟩ := checkBlocksObj_step hs11 h12
  have hs12 : Schema s12.db := by
    rw [d12]
    exact hs1.sub (List.Sublist.refl _) (List.Sublist.refl _) (by rw [m12.1]; exact List.filter_sublist) (List.Sublist.refl _) (List.Sublist.refl _)
      rfl rfl rfl rfl rfl
  obtain ⟨d13, b13⟩ := checkBlocksInode_db h13
  -- after check_objects_hash
  have t8 : BlockStored cfg (checkObjectsHash (checkObjectsTemp s)) id b x := by
    refine hst.keep (fun e he _ _ _ => he) ?_ (fun _ _ _ => rfl)
    intro k o hk _ hne _
    exact ⟨o, List.mem_filter.2 ⟨hk, Option.isSome_iff_ne_none.2 hne⟩, rfl⟩
  -- after check_objects_refcount
  have t9 : BlockStored cfg s9 id b x := by
    rw [checkObjectsRefcount_eq] at h9
    cases h9
    refine t8.keep (fun e he _ _ _ => he) ?_ (fun _ _ _ => rfl)
    rintro k o hk ⟨e, he, hek⟩ _ _
    refine ⟨{ o with refcount := _ }, List.mem_map.2 ⟨(k, o), List.mem_filter.2 ⟨hk, ?_⟩, rfl⟩, rfl⟩
    rw [bCount_eq]
    have : 0 < usesOfObj (checkObjectsHash (checkObjectsTemp s)).db k := List.countP_pos_iff.2 ⟨e, he, by simpa using hek⟩
    simp only [bne_iff_ne]
    omega
  -- after check_objects_id
  have t10 : BlockStored cfg s10 id b x := by
    unfold checkObjectsId at h10
    dsimp only at h10
    split at h10
    · cases h10
    · rename_i v hv
      cases h10
      obtain ⟨w2, w3, w4, _⟩ := iter_delSpurious hv
      have keepb : ∀ k o, (k, o) ∈ s9.db.objects → AL.get v.backend k = AL.get s9.backend k := by
        intro k o hk
        apply w3
        intro hm
        have := (List.mem_filter.1 hm).2
        rw [AL.mem_get_some hs9.objects hk] at this
        cases this
      refine t9.keep ?_ ?_ keepb
      · intro e he _ _ _
        show e ∈ v.db.blocks
        rw [w2]; exact he
      · intro k o hk _ _ hb
        refine ⟨o, List.mem_filter.2 ⟨by rw [w2]; exact hk, ?_⟩, rfl⟩
        dsimp only
        rw [keepb k o hk]
        rw [optNot] at hb
        have hb' : (AL.get s9.backend k).isNone = false := by simpa using hb
        rw [hb', Bool.and_false]; rfl
  -- after check_objects_phys_size
  have t11 : BlockStored cfg s11 id b x := by
    refine t10.keep ?_ ?_ ?_
    · intro e he _ _ _; rw [o11]; exact he
    · intro k o hk _ _ _
      obtain ⟨f, hf, h1, _, h2, _⟩ := SameObjs.mem (a := s10.db.objects) (b := s11.db.objects) same11.symm hk
      refine ⟨f.2, ?_, h2⟩
      have : f = (k, f.2) := Prod.ext h1 rfl
      rw [← this]; exact hf
    · intro k o hk; rw [b11]
  have back12 : s12.backend = s11.backend := by
    unfold checkBlocksObj at h12
    obtain ⟨t, ht, rfl⟩ := Option.map_eq_some_iff.1 h12
    show t.backend = s11.backend
    refine iter_inv (f := badBlock) (fun t => t.backend = s11.backend) ?_ ht rfl
    intro b _ v v' hv hb
    refine Eq.trans ?_ hv
    refine iter_inv (f := moveAffected) (fun t => t.backend = v.backend) ?_ hb rfl
    intro e _ w w' hw hm
    rw [moveAffected_other hm]; exact hw
  have objs12 : s12.db.objects = s11.db.objects := by rw [d12, m12.1]
  have t12 : BlockStored cfg s12 id b x := by
    refine t11.keep ?_ ?_ ?_
    · intro e he _ _ ho
      rw [d12]
      exact List.mem_filter.2 ⟨he, isSome_iff_mem.2 ho⟩
    · intro k o hk _ _ _; exact ⟨o, by rw [objs12]; exact hk, rfl⟩
    · intro k o hk; rw [back12]
  have i12 : s12.db.inodes = s.db.inodes := by
    rw [d12, m12.1]
    show s11.db.inodes = _
    rw [o11, o10, o9]; rfl
  refine t12.keep ?_ ?_ ?_
  · intro e he hei _ _
    rw [d13]
    refine List.mem_filter.2 ⟨he, ?_⟩
    rw [i12, hei]
    exact isSome_iff_mem.2 hid
  · intro k o hk _ _ _
    have hg := unref_get s12.db.objects ((s12.db.blocks.filter (fun e => (AL.get s12.db.inodes e.2.inode).isNone)).map (·.2.obj)) k
    rw [AL.mem_get_some hs12.objects hk, Option.map_some] at hg
    have hm := AL.get_some_mem hg
    rw [d13]
    exact ⟨_, hm, rfl⟩
  · intro k o hk; rw [b13]

theorem checkLof_objects {cfg : Cfg} {s s' : St} (h : checkLof cfg s = some s') :
    s'.db.objects = s.db.objects ∧ s'.backend = s.backend := by
  have mr : ∀ (f : CRow → CRow) (l : List Nat) (db db' : Db), db.moveRows f l = some db' → db' = { db with contents := db'.contents } := by
    intro f l
    induction l with
    | nil => intro db db' h; cases h; rfl
    | cons a t ih =>
      intro db db' h
      unfold Db.moveRows at h
      split at h
      · exact ih db db' h
      · split at h
        · cases h
        · rename_i db1 h1
          have := ih db1 db' h
          unfold Db.putEntry at h1
          split at h1
          · cases h1
          · cases h1; rw [this]
  have an : ∀ (db : Db) x n, (db.addName x n).1.objects = db.objects := by
    intro db x n
    unfold Db.addName
    split
    · split <;> rfl
    · rfl
  have fl : ∀ s1 id nid, findLof cfg s = some (s1, id, nid) → s1.db.objects = s.db.objects ∧ s1.backend = s.backend := by
    intro s1 id nid h
    unfold findLof at h
    split at h
    · cases h; exact ⟨rfl, rfl⟩
    · split at h
      · split at h
        · cases h
        · rename_i db hdb
          cases h
          have := mr _ _ _ _ hdb
          refine ⟨?_, rfl⟩
          show db.objects = _; rw [this]
      · dsimp only at h
        split at h
        · cases h
        · rename_i db hdb
          cases h
          have e := (insEntry_some hdb).1
          refine ⟨?_, rfl⟩
          show db.objects = _; rw [e]; exact an (s.db.createLof cfg).1 false lofName
      · cases h
  unfold checkLof at h
  split at h
  · cases h
  · rename_i s1 id nid hx
    have p := fl s1 id nid hx
    split at h
    · cases h
    · split at h
      · cases h; exact p
      · dsimp only at h
        split at h
        · cases h; exact p
        · cases h; exact p

theorem checkContentsName_backend {s s' : St} (h : checkContentsName s = some s') : s'.backend = s.backend := by
  unfold checkContentsName at h
  refine iter_inv (f := fixName) (fun t => t.backend = s.backend) ?_ h rfl
  intro a _ u u' hu hd
  unfold fixName at hd
  split at hd
  · cases hd; exact hu
  · split at hd
    · cases hd; exact hu
    · dsimp only at hd
      split at hd
      · cases hd
      · split at hd
        · cases hd
        · split at hd
          · cases hd
          · cases hd; exact hu
      · split at hd
        · cases hd
        · split at hd
          · cases hd
          · cases hd; exact hu

theorem checkContentsParent_backend {cfg : Cfg} {s s' : St} (h : checkContentsParent cfg s = some s') : s'.backend = s.backend := by
  unfold checkContentsParent at h
  refine iter_inv (f := fixParent cfg) (fun t => t.backend = s.backend) ?_ h rfl
  intro a _ u u' hu hd
  unfold fixParent at hd
  split at hd
  · cases hd; exact hu
  · split at hd
    · cases hd; exact hu
    · split at hd
      · cases hd
      · split at hd
        · cases hd
        · dsimp only at hd
          split at hd
          · cases hd
          · cases hd; exact hu

/-- The rest of the first checks, after check_cache. -/
theorem checkA_tail {cfg : Cfg} {c : CacheArg} {s s6 : St} (hs : Schema s.db) (h6 : checkA cfg c s = some s6) :
    ∃ s1 s2, checkLof cfg s = some s1 ∧ cachePart cfg c s1 = some s2 ∧ s6.db.blocks = s2.db.blocks ∧ s6.db.objects = s2.db.objects ∧
      s6.db.inodes = s1.db.inodes ∧ s6.backend = s2.backend := by
  unfold checkA at h6
  obtain ⟨s1, h1, h6⟩ := Option.bind_eq_some_iff.1 h6
  obtain ⟨s2, h2, h6⟩ := Option.bind_eq_some_iff.1 h6
  obtain ⟨s4, h4, h6⟩ := Option.bind_eq_some_iff.1 h6
  obtain ⟨s5, h5, h6⟩ := Option.bind_eq_some_iff.1 h6
  have hs1 := checkLof_schema hs h1
  have hs2 := cachePart_schema hs1 h2
  have hs3 := checkNamesRefcount_schema hs2
  obtain ⟨hs4, m4⟩ := checkContentsName_moved hs3 h4
  have hs5 := checkContentsInode_schema hs4 h5
  obtain ⟨_, m6⟩ := checkContentsParent_step hs5 h6
  have bk4 : s4.backend = s2.backend := (checkContentsName_backend h4).trans rfl
  have e5 : s5.db.blocks = s4.db.blocks ∧ s5.db.inodes = s4.db.inodes ∧ s5.db.objects = s4.db.objects ∧ s5.backend = s4.backend := by
    unfold checkContentsInode at h5
    obtain ⟨t, ht, rfl⟩ := Option.map_eq_some_iff.1 h5
    show t.db.blocks = s4.db.blocks ∧ t.db.inodes = s4.db.inodes ∧ t.db.objects = s4.db.objects ∧ t.backend = s4.backend
    refine iter_inv (f := dropEntry) (fun t => t.db.blocks = s4.db.blocks ∧ t.db.inodes = s4.db.inodes ∧ t.db.objects = s4.db.objects ∧ t.backend = s4.backend) ?_ ht ⟨rfl, rfl, rfl, rfl⟩
    intro a _ u u' hu hd
    have dn : ∀ (db : Db) n, (db.delName n).blocks = db.blocks ∧ (db.delName n).inodes = db.inodes ∧ (db.delName n).objects = db.objects := by
      intro db n
      unfold Db.delName
      split
      · split <;> exact ⟨rfl, rfl, rfl⟩
      · exact ⟨rfl, rfl, rfl⟩
    unfold dropEntry at hd
    split at hd
    · cases hd
    · cases hd
      obtain ⟨p, q, r⟩ := dn u.db a.2.nameId
      exact ⟨p.trans hu.1, q.trans hu.2.1, r.trans hu.2.2.1, hu.2.2.2⟩
  have bk6 : s6.backend = s5.backend := checkContentsParent_backend h6
  have B : s6.db.blocks = s2.db.blocks := by rw [m6.1]; show s5.db.blocks = _; rw [e5.1, m4.1]; rfl
  have O : s6.db.objects = s2.db.objects := by rw [m6.1]; show s5.db.objects = _; rw [e5.2.2.1, m4.1]; rfl
  have I : s6.db.inodes = s1.db.inodes := by
    rw [m6.1]; show s5.db.inodes = _; rw [e5.2.1, m4.1]
    show s2.db.inodes = _
    rw [cachePart_other h2]
  have K : s6.backend = s2.backend := by rw [bk6, e5.2.2.2, bk4]
  exact ⟨s1, s2, h1, h2, B, O, I, K⟩

/-- What is stored after check_cache stays so. -/
theorem stored_after {cfg : Cfg} {depth : Nat} {c : CacheArg} {s s' : St} (hs : Schema s.db) (h : check cfg depth c s = some s')
    {id b : Nat} {x : Bytes} (hid : HasInode s.db id)
    (hcache : ∀ s1 s2 : St, checkLof cfg s = some s1 → cachePart cfg c s1 = some s2 → BlockStored cfg s2 id b x) :
    BlockStored cfg s' id b x := by
  unfold check at h
  obtain ⟨s6, h6, h⟩ := Option.bind_eq_some_iff.1 h
  obtain ⟨s13, h13, h20⟩ := Option.bind_eq_some_iff.1 h
  have hs6 := (checkA_step hs h6).1
  have hs13 := (checkB_step hs6 h13).1
  have t6 : BlockStored cfg s6 id b x ∧ HasInode s6.db id := by
    obtain ⟨s1, s2, h1, h2, B, O, I, K⟩ := checkA_tail hs h6
    obtain ⟨_, _, i1⟩ := checkLof_keeps h1
    have t2 := hcache s1 s2 h1 h2
    refine ⟨?_, ?_⟩
    · refine t2.keep ?_ ?_ ?_
      · intro e he _ _ _; rw [B]; exact he
      · intro k o hk _ _ _; exact ⟨o, by rw [O]; exact hk, rfl⟩
      · intro k o _; rw [K]
    · unfold HasInode
      rw [I]
      exact i1 _ hid
  have t13 := checkB_keeps hs6 h13 t6.2 t6.1
  obtain ⟨k1, k2, k3, _, _⟩ := checkC_more hs13 h20
  refine t13.keep ?_ ?_ ?_
  · intro e he _ _ _; rw [k2]; exact he
  · intro k o hk _ _ _; exact ⟨o, by rw [k1]; exact hk, rfl⟩
  · intro k o _; rw [k3]

/-- After a completed run, every block in the cache directory of a file that exists is in the storage, whether it was
stored before or not, if no object with the hash of the block was missing in the storage before.  Missing for the
full statement: an object with this hash that is not stored, see `C62_dirty_block_lost`. -/
theorem C62_dirty_blocks_stored_partial {cfg : Cfg} {depth : Nat} {c : CacheArg} {s s' : St} (hs : Schema s.db)
    (h : Completed cfg depth c s s') (hc : c ≠ .no) (hn : CacheNames s.cache)
    {id b : Nat} {data : Bytes} (hh : HashStored cfg s (cfg.sha data)) (hm : CFile.blk id b data ∈ s.cache) (hid : HasInode s.db id) :
    BlockStored cfg s' id b (cfg.sha data) := by
  refine stored_after hs h.1 hid ?_
  intro s1 s2 h1 h2
  have hs1 := checkLof_schema hs h1
  obtain ⟨_, c1, _⟩ := checkLof_keeps h1
  obtain ⟨lo, lb⟩ := checkLof_objects h1
  have hh1 : HashStored cfg s1 (cfg.sha data) := by
    intro e he hx
    rw [lo] at he
    rw [lb]; exact hh e he hx
  have aux : ∀ keep s2, checkCache cfg keep s1 = some s2 → BlockStored cfg s2 id b (cfg.sha data) := by
    intro keep s2 h2
    unfold checkCache at h2
    obtain ⟨t, ht, rfl⟩ := Option.map_eq_some_iff.1 h2
    rw [c1] at ht
    exact (iter_cacheFile hs1 hn ht).1 id b data hm hh1
  cases c with
  | no => exact absurd rfl hc
  | yes => exact aux _ _ h2
  | keep => exact aux _ _ h2

/-- The damaged file system of `stBad` without the object that is missing in the storage, and with more dirty blocks. -/
def stDirty : St :=
  { stBad with db := { dbBad with objects := [(1, ⟨4, some [1, 2, 3], 3, -1⟩)] }, cache := [CFile.blk 4 0 [8, 8], CFile.blk 5 0 [9], CFile.blk 5 7 [1, 2, 3]] }

example : Schema stDirty.db ∧ (∃ s', Completed cfg0 20 .yes stDirty s') ∧ CacheNames stDirty.cache ∧ (∀ h, HashStored cfg0 stDirty h) ∧
    HasInode stDirty.db 4 ∧ HasInode stDirty.db 5 := by
  refine ⟨schema_of (by decide +kernel), ⟨(check cfg0 20 .yes stDirty).getD stDirty, ?_⟩, ?_, ?_, ⟨fileI 1 0, by decide +kernel⟩, ⟨fileI 9 1, by decide +kernel⟩⟩
  · have : check cfg0 20 .yes stDirty = some ((check cfg0 20 .yes stDirty).getD stDirty) ∧ ((check cfg0 20 .yes stDirty).getD stDirty).uncorr = false := by decide +kernel
    exact this
  · unfold CacheNames stDirty
    simp
    grind
  · intro h e he hh
    have : e = (1, ⟨4, some [1, 2, 3], 3, -1⟩) := by
      have he' : e ∈ [((1, ⟨4, some [1, 2, 3], 3, -1⟩) : Nat × Obj)] := he
      simpa using he'
    subst this
    cases hh
    exact ⟨[1, 2, 3], by decide +kernel, rfl⟩

/-- A dirty block with the same hash as an object whose upload did not complete. -/
def stLost : St :=
  { st0 with db := { db0 with inodes := db0.inodes ++ [(4, fileI 1 1)], iseq := 4, names := db0.names ++ [(2, ⟨false, [97], 1⟩)], contents := db0.contents ++ [(2, ⟨1, 2, 4⟩)], cseq := 2, objects := [(1, ⟨1, some [5], 1, -1⟩)], oseq := 1 }, cache := [CFile.blk 4 0 [5]] }

/-- Data that is in the cache is neither in the storage nor in the cache after a completed run: the row of an object
that was not uploaded is taken for the object. -/
theorem C62_dirty_block_lost :
    ∃ s' : St, Schema stLost.db ∧ Completed cfg0 20 .yes stLost s' ∧ CFile.blk 4 0 [5] ∈ stLost.cache ∧ s'.backend = [] ∧
      s'.cache = [] ∧ s'.db.blocks = [] := by
  refine ⟨(check cfg0 20 .yes stLost).getD stLost, schema_of (by decide +kernel), ?_, by decide +kernel, by decide +kernel, by decide +kernel, by decide +kernel⟩
  have : check cfg0 20 .yes stLost = some ((check cfg0 20 .yes stLost).getD stLost) ∧ ((check cfg0 20 .yes stLost).getD stLost).uncorr = false := by decide +kernel
  exact this

end Verif.Fsck
