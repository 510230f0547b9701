/-
C76, the part of fsck: what a completed run makes of the blocks of a file, some of which are in the cache directory.
-/
import Verif.Fsck.Keep

namespace Verif.Fsck
open Verif.Fs (Bytes Inode rootInode ctrlInode isDir)

/-! #### Specification -/

/-- The contents of block `b` of inode `id` that the database and the storage have. -/
def blockData (s : St) (id b : Nat) : Bytes :=
  match s.db.blocks.find? (fun e => e.2.inode == id && e.2.blockno == b) with
  | some e => (AL.get s.backend e.2.obj).getD []
  | none => []

/-- Block `b` of inode `id` is in the database or in the cache directory. -/
def HasBlock (s : St) (id b : Nat) : Prop :=
  (∃ e ∈ s.db.blocks, e.2.inode = id ∧ e.2.blockno = b) ∨ ∃ d, CFile.blk id b d ∈ s.cache

/-- The lengths of objects are right. -/
def LenOk (s : St) : Prop := ∀ k o d, (k, o) ∈ s.db.objects → AL.get s.backend k = some d → o.length = d.length

/-! #### Lemmas -/

theorem cacheFile_rows {cfg : Cfg} {f : CFile} {s s' : St} (hs : Schema s.db) (h : cacheFile cfg f s = some s') :
    ∀ e ∈ s'.db.blocks, (∃ g ∈ s.db.blocks, g.2.inode = e.2.inode ∧ g.2.blockno = e.2.blockno) ∨ ∃ d, f = CFile.blk e.2.inode e.2.blockno d := by
  cases f with
  | strange => cases h
  | tmp => cases h; exact fun e he => Or.inl ⟨e, he, rfl, rfl⟩
  | blk i n data =>
    simp only [cacheFile] at h
    split at h
    · cases h; exact fun e he => Or.inl ⟨e, he, rfl, rfl⟩
    · have hoth := objectFor_other cfg s.err data
      have hs1 := objectFor_schema (s := s.err) (cfg := cfg) hs data
      generalize objectFor cfg s.err data = x at h hoth hs1
      obtain ⟨s1, oid⟩ := x
      dsimp only at h hoth hs1
      have eb : s1.db.blocks = s.db.blocks := by rw [hoth]; rfl
      split at h
      · cases h
        intro e he
        rcases (mem_set hs1.blocks).1 he with rfl | ⟨he, _⟩
        · exact Or.inr ⟨data, rfl⟩
        · exact Or.inl ⟨e, by rw [← eb]; exact he, rfl, rfl⟩
      · rename_i rowid r hg
        cases h
        intro e he
        rcases (mem_set hs1.blocks).1 he with rfl | ⟨he, _⟩
        · exact Or.inl ⟨(rowid, r), by rw [← eb]; exact (findBlock_spec hg).1, rfl, rfl⟩
        · exact Or.inl ⟨e, by rw [← eb]; exact he, rfl, rfl⟩

theorem addRef_len {objs : List (Nat × Obj)} (hn : AL.NK objs) {k : Nat} {n : Int} {i : Nat} {o : Obj} (h : (i, o) ∈ addRef objs k n) :
    ∃ o', (i, o') ∈ objs ∧ o'.length = o.length := by
  unfold addRef at h
  cases hg : AL.get objs k with
  | none => rw [hg] at h; exact ⟨o, h, rfl⟩
  | some r =>
    rw [hg] at h
    rcases (mem_set hn).1 h with h | ⟨h, _⟩
    · cases h; exact ⟨r, AL.get_some_mem hg, rfl⟩
    · exact ⟨o, h, rfl⟩

theorem objectFor_len {cfg : Cfg} {s : St} (hs : Schema s.db) (hl : LenOk s) (data : Bytes) : LenOk (objectFor cfg s data).1 := by
  unfold objectFor
  cases hf : findHash s.db.objects (cfg.sha data) with
  | some i =>
    intro k o d hk hd
    obtain ⟨o', h1, h2⟩ := addRef_len hs.objects hk
    rw [← h2]; exact hl k o' d h1 hd
  | none =>
    intro k o d hk hd
    dsimp only at hk hd
    rcases (mem_set hs.objects).1 hk with h | ⟨h, hne⟩
    · cases h
      rw [AL.get_set_self] at hd
      cases hd; rfl
    · rw [AL.get_set_ne _ _ hne] at hd
      exact hl k o d h hd

theorem cacheFile_len {cfg : Cfg} {f : CFile} {s s' : St} (hs : Schema s.db) (hl : LenOk s) (h : cacheFile cfg f s = some s') : LenOk s' := by
  cases f with
  | strange => cases h
  | tmp => cases h; exact hl
  | blk i n data =>
    simp only [cacheFile] at h
    split at h
    · cases h; exact hl
    · have hl1 := objectFor_len (s := s.err) (cfg := cfg) hs hl data
      have hs1 := objectFor_schema (s := s.err) (cfg := cfg) hs data
      generalize objectFor cfg s.err data = x at h hl1 hs1
      obtain ⟨s1, oid⟩ := x
      dsimp only at h hl1 hs1
      split at h
      · cases h; exact hl1
      · cases h
        intro k o d hk hd
        obtain ⟨o', h1, h2⟩ := addRef_len hs1.objects hk
        rw [← h2]; exact hl1 k o' d h1 hd

theorem cachePart_frame {cfg : Cfg} {c : CacheArg} {s s' : St} (hs : Schema s.db) (hl : LenOk s) (h : cachePart cfg c s = some s') :
    LenOk s' ∧ ∀ e ∈ s'.db.blocks, HasBlock s e.2.inode e.2.blockno := by
  have aux : ∀ keep s', checkCache cfg keep s = some s' → LenOk s' ∧ ∀ e ∈ s'.db.blocks, HasBlock s e.2.inode e.2.blockno := by
    intro keep s' h
    unfold checkCache at h
    obtain ⟨t, ht, rfl⟩ := Option.map_eq_some_iff.1 h
    show LenOk t ∧ ∀ e ∈ t.db.blocks, HasBlock s e.2.inode e.2.blockno
    have := iter_inv (f := cacheFile cfg) (fun t => Schema t.db ∧ LenOk t ∧ ∀ e ∈ t.db.blocks, HasBlock s e.2.inode e.2.blockno)
      (fun f hf t t' ht h1 => by
        refine ⟨cacheFile_schema ht.1 h1, cacheFile_len ht.1 ht.2.1 h1, fun e he => ?_⟩
        rcases cacheFile_rows ht.1 h1 e he with ⟨g, hg, h2, h3⟩ | ⟨d, rfl⟩
        · have := ht.2.2 g hg
          rw [h2, h3] at this; exact this
        · exact Or.inr ⟨d, hf⟩) ht ⟨hs, hl, fun e he => Or.inl ⟨e, he, rfl, rfl⟩⟩
    exact this.2
  cases c with
  | no => cases h; exact ⟨hl, fun e he => Or.inl ⟨e, he, rfl, rfl⟩⟩
  | yes => exact aux _ _ h
  | keep => exact aux _ _ h

theorem checkB_frame {cfg : Cfg} {s s' : St} (hs : Schema s.db) (h : checkB cfg s = some s') :
    (∀ e ∈ s'.db.blocks, e ∈ s.db.blocks) ∧ (LenOk s → LenOk s') := by
  have hs' := (checkB_step hs h).1
  unfold checkB at h
  obtain ⟨s9, h9, h⟩ := Option.bind_eq_some_iff.1 h
  obtain ⟨s10, h10, h⟩ := Option.bind_eq_some_iff.1 h
  obtain ⟨s11, h11, h⟩ := Option.bind_eq_some_iff.1 h
  obtain ⟨s12, h12, h13⟩ := Option.bind_eq_some_iff.1 h
  have hs8 : Schema (checkObjectsHash (checkObjectsTemp s)).db := checkObjectsHash_schema (s := checkObjectsTemp s) hs
  obtain ⟨hs9, o9, _, u9, b9⟩ := checkObjectsRefcount_step hs8 h9
  obtain ⟨hs10, o10, sub10, _⟩ := checkObjectsId_step hs9 h10
  obtain ⟨hs11, o11, same11, b11⟩ := checkObjectsPhys_step hs10 h11
  obtain ⟨s1, hs1, m12, _, d12⟩ := checkBlocksObj_step hs11 h12
  have hs12 : Schema s12.db := by
    rw [d12]
    exact hs1.sub (List.Sublist.refl _) (List.Sublist.refl _) (by rw [m12.1]; exact List.filter_sublist) (List.Sublist.refl _) (List.Sublist.refl _)
      rfl rfl rfl rfl rfl
  obtain ⟨d13, b13⟩ := checkBlocksInode_db h13
  have back12 : s12.backend = s11.backend := by
    unfold checkBlocksObj at h12
    obtain ⟨t, ht, rfl⟩ := Option.map_eq_some_iff.1 h12
    show t.backend = s11.backend
    refine iter_inv (f := badBlock) (fun t => t.backend = s11.backend) ?_ ht rfl
    intro b _ v v' hv hb
    refine Eq.trans ?_ hv
    refine iter_inv (f := moveAffected) (fun t => t.backend = v.backend) ?_ hb rfl
    intro e _ w w' hw hm
    rw [moveAffected_other hm]; exact hw
  have objs12 : s12.db.objects = s11.db.objects := by rw [d12, m12.1]
  constructor
  · intro e he
    rw [d13] at he
    have he := (List.mem_filter.1 he).1
    rw [d12] at he
    have he := (List.mem_filter.1 he).1
    rw [o11] at he
    have he : e ∈ s10.db.blocks := he
    rw [o10] at he
    have he : e ∈ s9.db.blocks := he
    rw [o9] at he
    exact he
  · intro hl
    have l9 : LenOk s9 := by
      rw [checkObjectsRefcount_eq] at h9
      cases h9
      intro k o d hk hd
      unfold refObjs at hk
      obtain ⟨e, he, hek⟩ := List.mem_map.1 hk
      have he := (List.mem_filter.1 (List.mem_filter.1 he).1).1
      have h1 : e.1 = k := congrArg Prod.fst hek
      have h2 : e.2.length = o.length := congrArg (fun x => x.2.length) hek
      rw [← h2]
      refine hl k e.2 d ?_ hd
      rw [← h1]; exact he
    have l10 : LenOk s10 := by
      intro k o d hk hd
      have hk9 := sub10.subset hk
      refine l9 k o d hk9 ?_
      unfold checkObjectsId at h10
      dsimp only at h10
      split at h10
      · cases h10
      · rename_i v hv
        cases h10
        obtain ⟨w2, w3, w4, _⟩ := iter_delSpurious hv
        rw [← hd]
        symm
        apply w3
        intro hm
        have := (List.mem_filter.1 hm).2
        rw [AL.mem_get_some hs9.objects hk9] at this
        cases this
    have l11 : LenOk s11 := by
      intro k o d hk hd
      obtain ⟨f, hf, h1, _, _, h2⟩ := SameObjs.mem same11 hk
      rw [← h2]
      refine l10 k f.2 d ?_ (by rw [← b11]; exact hd)
      have h1 : f.1 = k := h1
      rw [← h1]; exact hf
    have l12 : LenOk s12 := by
      intro k o d hk hd
      rw [objs12] at hk
      rw [back12] at hd
      exact l11 k o d hk hd
    intro k o d hk hd
    rw [d13] at hk
    rw [b13] at hd
    rw [d13] at hs'
    have hg := AL.mem_get_some hs'.objects hk
    dsimp only at hg
    rw [unref_get] at hg
    obtain ⟨o', h1, rfl⟩ := Option.map_eq_some_iff.1 hg
    exact l12 k o' d (AL.get_some_mem h1) hd

theorem checkLof_inodes {cfg : Cfg} {s s' : St} (hs : Schema s.db) (h : checkLof cfg s = some s') {id : Nat} (hid : HasInode s.db id) :
    ∀ i, (id, i) ∈ s'.db.inodes → (id, i) ∈ s.db.inodes := by
  have fresh : ∀ (db : Db), Schema db → HasInode db id → ∀ i, (id, i) ∈ (db.createLof cfg).1.inodes → (id, i) ∈ db.inodes := by
    intro db hd ⟨j, hj⟩ i hi
    rcases (mem_set hd.inodes).1 hi with h | ⟨h, _⟩
    · have := hd.iseq _ hj
      have h := congrArg Prod.fst h
      dsimp only at h this
      omega
    · exact h
  have fl : ∀ s1 id' nid, findLof cfg s = some (s1, id', nid) → ∀ i, (id, i) ∈ s1.db.inodes → (id, i) ∈ s.db.inodes := by
    intro s1 id' nid h i hi
    unfold findLof at h
    split at h
    · cases h; exact hi
    · split at h
      · split at h
        · cases h
        · rename_i db hdb
          cases h
          have := (moveRows_get (f := fun r => { r with parent := rootInode }) (fun r => rfl) hdb).1
          have hi : (id, i) ∈ db.inodes := hi
          rw [this] at hi; exact hi
      · dsimp only at h
        split at h
        · cases h
        · rename_i db hdb
          cases h
          have e := (insEntry_some hdb).1
          have hi : (id, i) ∈ db.inodes := hi
          rw [e] at hi
          have hi : (id, i) ∈ ((s.db.createLof cfg).1.addName false lofName).1.inodes := hi
          have : ((s.db.createLof cfg).1.addName false lofName).1.inodes = (s.db.createLof cfg).1.inodes := by
            unfold Db.addName
            split
            · split <;> rfl
            · rfl
          rw [this] at hi
          exact fresh s.db hs hid i hi
      · cases h
  unfold checkLof at h
  split at h
  · cases h
  · rename_i s1 id' nid hx
    have p := fl s1 id' nid hx
    have hs1 := findLof_schema hs hx
    have hid1 : HasInode s1.db id := (findLof_spec hs hx).1.has hid
    split at h
    · cases h
    · split at h
      · cases h; exact p
      · dsimp only at h
        split at h
        · cases h
          exact fun i hi => p i (fresh s1.db hs1 hid1 i hi)
        · cases h
          exact fun i hi => p i (fresh s1.db hs1 hid1 i hi)

/-- Sizes grow at most to what the blocks need. -/
theorem checkC_sizes {cfg : Cfg} {depth : Nat} {s s' : St} (hs : Schema s.db) (h : checkC cfg depth s = some s') {id n : Nat}
    (hz : ∀ i, (id, i) ∈ s.db.inodes → i.size ≤ n) (hm : minSize cfg.blockSize s.db id ≤ n) :
    ∀ i, (id, i) ∈ s'.db.inodes → i.size ≤ n := by
  unfold checkC at h
  obtain ⟨s14, h14, h⟩ := Option.bind_eq_some_iff.1 h
  obtain ⟨s15, h15, h⟩ := Option.bind_eq_some_iff.1 h
  obtain ⟨s16, h16, h⟩ := Option.bind_eq_some_iff.1 h
  obtain ⟨s17, h17, h⟩ := Option.bind_eq_some_iff.1 h
  obtain ⟨s19, h19, h⟩ := Option.bind_eq_some_iff.1 h
  obtain ⟨s20, h20, h21⟩ := Option.bind_eq_some_iff.1 h
  replace h21 := (Option.some.inj h21).symm
  subst h21
  obtain ⟨hs14, k14, n14, r14, _, _, b14⟩ := checkInodesRefcount_step hs h14
  obtain ⟨hs15, o15, b15⟩ := checkInodesSize_step hs14 h15
  obtain ⟨hs16, o16, b16, same16⟩ := checkXattrName_step hs15 h16
  obtain ⟨hs17, o17, b17, x17, n17⟩ := checkXattrInode_step hs16 h17
  obtain ⟨hs18, y18, k18⟩ := checkSymlinks_step hs17
  obtain ⟨hs19, m19, n19, b19, p19⟩ := checkLoops_step hs18 h19
  have z14 : ∀ i, (id, i) ∈ s14.db.inodes → i.size ≤ n := by
    have : Schema s14.db ∧ ∀ i, (id, i) ∈ s14.db.inodes → i.size ≤ n := by
      refine iter_inv (f := fixRef) (fun t => Schema t.db ∧ ∀ i, (id, i) ∈ t.db.inodes → i.size ≤ n) ?_ h14 ⟨hs, hz⟩
      intro w _ t t' ht hf
      refine ⟨(fixRef_keeps ht.1 hf).1, ?_⟩
      rcases fixRef_some hf with ⟨rfl, _⟩ | ⟨i, hg, ⟨_, nm, p, n', db, _, hi, rfl⟩ | ⟨_, rfl⟩⟩
      · exact ht.2
      · intro j hj
        have e := (insEntry_some hi).1
        have ei : db.inodes = t.db.inodes := by
          rw [e]
          show (t.db.addName false n').1.inodes = _
          unfold Db.addName
          split
          · split <;> rfl
          · rfl
        dsimp only at hj
        rw [ei] at hj
        rcases (mem_set ht.1.inodes).1 hj with h | ⟨h, _⟩
        · cases h
          exact ht.2 i (AL.get_some_mem hg)
        · exact ht.2 j h
      · intro j hj
        rcases (mem_set ht.1.inodes).1 hj with h | ⟨h, _⟩
        · cases h
          exact ht.2 i (AL.get_some_mem hg)
        · exact ht.2 j h
    exact this.2
  have hm14 : minSize cfg.blockSize s14.db id ≤ n := by
    have : minSize cfg.blockSize s14.db id = minSize cfg.blockSize s.db id := by
      unfold minSize
      rw [k14.blocks, k14.objects]
    rw [this]; exact hm
  have z15 : ∀ i, (id, i) ∈ s15.db.inodes → i.size ≤ n := by
    have : Schema s15.db ∧ minSize cfg.blockSize s15.db id ≤ n ∧ ∀ i, (id, i) ∈ s15.db.inodes → i.size ≤ n := by
      refine iter_inv (f := fixSize cfg) (fun t => Schema t.db ∧ minSize cfg.blockSize t.db id ≤ n ∧ ∀ i, (id, i) ∈ t.db.inodes → i.size ≤ n) ?_ h15 ⟨hs14, hm14, z14⟩
      intro k _ t t' ht hf
      rcases fixSize_some hf with rfl | ⟨i, hg, rfl⟩
      · exact ht
      · refine ⟨ht.1.setInode _ hg, ht.2.1, ?_⟩
        intro j hj
        rcases (mem_set ht.1.inodes).1 hj with h | ⟨h, _⟩
        · have e1 := congrArg Prod.fst h
          have e2 := congrArg (fun x => x.2.size) h
          dsimp only at e1 e2
          rw [e2, ← e1]; exact ht.2.1
        · exact ht.2.2 j h
    exact this.2.2
  have hfdb : (checkForeign s20).db = s20.db := by unfold checkForeign; split <;> rfl
  have i19 : s19.db.inodes = s15.db.inodes := by
    rw [m19.1]
    show s17.db.inodes = _
    rw [o17, o16]
  rw [hfdb]
  intro i hi
  obtain ⟨f, hf, h1, h2⟩ := checkUnix_sizes hs19 h20 _ hi
  rw [i19] at hf
  dsimp only at h1 h2
  rw [← h2]
  exact z15 f.2 (by rw [← h1]; exact hf)

theorem blockData_stored {cfg : Cfg} {s : St} {id b : Nat} {x : Bytes} (hs : Schema s.db) (hinj : Function.Injective cfg.sha)
    (h : BlockStored cfg s id b (cfg.sha x)) : blockData s id b = x := by
  obtain ⟨e, o, d, h1, h2, h3, h4, h5, h6, h7⟩ := h
  unfold blockData
  cases hf : s.db.blocks.find? (fun e => e.2.inode == id && e.2.blockno == b) with
  | none =>
    have := List.find?_eq_none.1 hf e h1
    simp [h2, h3] at this
  | some f =>
    have hm := List.mem_of_find?_eq_some hf
    have hp := List.find?_some hf
    simp only [Bool.and_eq_true, beq_iff_eq] at hp
    have : f = e := hs.blockUnique f hm e h1 (hp.1.trans h2.symm) (hp.2.trans h3.symm)
    subst this
    dsimp only
    rw [h6]
    exact hinj h7

theorem blockData_none {s : St} {id b : Nat} (h : ∀ e ∈ s.db.blocks, ¬ (e.2.inode = id ∧ e.2.blockno = b)) : blockData s id b = [] := by
  unfold blockData
  cases hf : s.db.blocks.find? (fun e => e.2.inode == id && e.2.blockno == b) with
  | none => rfl
  | some f =>
    have hm := List.mem_of_find?_eq_some hf
    have hp := List.find?_some hf
    simp only [Bool.and_eq_true, beq_iff_eq] at hp
    exact absurd hp (h f hm)

/-- What is known about the blocks of inode `id`, whose contents should be `m`: files in the cache directory have these contents,
and no object with this hash is missing in the storage; a block that is not in the cache directory is in the storage, or does not
exist. -/
structure Sound (cfg : Cfg) (s : St) (id : Nat) (m : Nat → Bytes) : Prop where
  cached : ∀ b d, CFile.blk id b d ∈ s.cache → d = m b ∧ HashStored cfg s (cfg.sha d)
  stored : ∀ b, (∀ d, CFile.blk id b d ∉ s.cache) →
    ((∀ e ∈ s.db.blocks, ¬ (e.2.inode = id ∧ e.2.blockno = b)) ∧ m b = []) ∨ BlockStored cfg s id b (cfg.sha (m b))

/-- After a completed run the blocks are what they should be, and the size of the file covers them, and is not more than
necessary. -/
theorem sound_after {cfg : Cfg} {depth : Nat} {c : CacheArg} {s s' : St} (hs : Schema s.db) (hinj : Function.Injective cfg.sha)
    (h : Completed cfg depth c s s') (hc : c ≠ .no) (hn : CacheNames s.cache) (hl : LenOk s) {id : Nat} {m : Nat → Bytes} {z : Inode}
    (hid : (id, z) ∈ s.db.inodes) (hsd : Sound cfg s id m) :
    (∀ b, blockData s' id b = m b) ∧ ∃ i, AL.get s'.db.inodes id = some i ∧ InodeKept z i ∧
      (∀ b, m b ≠ [] → b * cfg.blockSize + (m b).length ≤ i.size) ∧
      ∀ n, z.size ≤ n → (∀ b, HasBlock s id b → b * cfg.blockSize + (m b).length ≤ n) → i.size ≤ n := by
  have hhas : HasInode s.db id := ⟨z, hid⟩
  have hck := h.1
  have hkeep := C64_nothing_lost hs h
  obtain ⟨i, hi, hik⟩ := hkeep.inodes id z hid
  unfold check at hck
  obtain ⟨s6, h6, hck⟩ := Option.bind_eq_some_iff.1 hck
  obtain ⟨s13, h13, h20⟩ := Option.bind_eq_some_iff.1 hck
  have hs6 := (checkA_step hs h6).1
  have hB := checkB_step hs6 h13
  have hs13 := hB.1
  have hi13 : s13.db.inodes = s6.db.inodes := hB.2.2.2.2.2.2.2.2.1
  obtain ⟨s1, s2, h1, h2, B, O, I, K⟩ := checkA_tail hs h6
  have hs1 := checkLof_schema hs h1
  have hs2 := cachePart_schema hs1 h2
  obtain ⟨lb, lc, _⟩ := checkLof_keeps h1
  obtain ⟨lo, lk⟩ := checkLof_objects h1
  have hl1 : LenOk s1 := by
    intro k o d hk hd
    rw [lo] at hk; rw [lk] at hd
    exact hl k o d hk hd
  obtain ⟨hl2, hr2⟩ := cachePart_frame hs1 hl1 h2
  obtain ⟨fB, fL⟩ := checkB_frame hs6 h13
  have hl6 : LenOk s6 := by
    intro k o d hk hd
    rw [O] at hk; rw [K] at hd
    exact hl2 k o d hk hd
  have hl13 := fL hl6
  obtain ⟨k1, k2, k3, k4, _⟩ := checkC_more hs13 h20
  have hA := checkA_step hs h6
  have hs' := (checkC_step hs13 h20 hB.2.1 (hB.2.2.2.2.2.2.1 hA.2.1) (hB.2.2.2.2.2.2.2.1 hA.2.1 hA.2.2.1) hB.2.2.2.1 hB.2.2.1).1.schema
  have hl' : LenOk s' := by
    intro k o d hk hd
    rw [k1] at hk; rw [k3] at hd
    exact hl13 k o d hk hd
  -- the rows after the run
  have rows : ∀ e ∈ s13.db.blocks, HasBlock s e.2.inode e.2.blockno := by
    intro e he
    have he6 := fB e he
    rw [B] at he6
    have := hr2 e he6
    unfold HasBlock at this ⊢
    rw [lb, lc] at this
    exact this
  -- blocks
  have st : ∀ b, BlockStored cfg s' id b (cfg.sha (m b)) ∨ ((∀ e ∈ s'.db.blocks, ¬ (e.2.inode = id ∧ e.2.blockno = b)) ∧ m b = []) := by
    intro b
    by_cases hcd : ∃ d, CFile.blk id b d ∈ s.cache
    · obtain ⟨d, hd⟩ := hcd
      obtain ⟨q1, q2⟩ := hsd.cached b d hd
      have := C62_dirty_blocks_stored_partial hs h hc hn q2 hd hhas
      rw [q1] at this
      exact Or.inl this
    · have hnc : ∀ d, CFile.blk id b d ∉ s.cache := fun d hd => hcd ⟨d, hd⟩
      rcases hsd.stored b hnc with ⟨q1, q2⟩ | q
      · refine Or.inr ⟨?_, q2⟩
        intro e he ⟨e1, e2⟩
        rw [k2] at he
        rcases rows e he with ⟨g, hg, g1, g2⟩ | ⟨d, hd⟩
        · exact q1 g hg ⟨g1.trans e1, g2.trans e2⟩
        · rw [e1, e2] at hd
          exact hnc d hd
      · refine Or.inl (stored_after hs h.1 hhas ?_)
        intro t1 t2 g1 g2
        rw [h1] at g1
        cases g1
        have hq : BlockStored cfg s1 id b (cfg.sha (m b)) := by
          refine q.keep ?_ ?_ ?_
          · intro e he _ _ _; rw [lb]; exact he
          · intro k o hk _ _ _; exact ⟨o, by rw [lo]; exact hk, rfl⟩
          · intro k o _; rw [lk]
        have aux : ∀ keep t2, checkCache cfg keep s1 = some t2 → BlockStored cfg t2 id b (cfg.sha (m b)) := by
          intro keep t2 h2
          unfold checkCache at h2
          obtain ⟨t, ht, rfl⟩ := Option.map_eq_some_iff.1 h2
          rw [lc] at ht
          exact (iter_cacheFile hs1 hn ht).2 id b _ hnc hq
        cases c with
        | no => exact absurd rfl hc
        | yes => exact aux _ _ g2
        | keep => exact aux _ _ g2
  have bd : ∀ b, blockData s' id b = m b := by
    intro b
    rcases st b with q | ⟨q1, q2⟩
    · exact blockData_stored hs' hinj q
    · rw [blockData_none q1, q2]
  refine ⟨bd, i, AL.mem_get_some hs'.inodes hi, hik, ?_, ?_⟩
  · intro b hb
    rcases st b with q | ⟨_, q2⟩
    · obtain ⟨e, o, d, q1, q2, q3, q4, q5, q6, q7⟩ := q
      have hd : d = m b := hinj q7
      have := k4 _ hi e q1 q2 o q4
      rw [hl' _ o d q4 q6, hd, q3] at this
      exact this
    · exact absurd q2 hb
  · intro n hz hblocks
    refine checkC_sizes hs13 h20 (n := n) ?_ ?_ i hi
    · intro j hj
      rw [hi13, I] at hj
      have hj' := checkLof_inodes hs h1 hhas j hj
      have e1 := AL.mem_get_some hs.inodes hj'
      rw [AL.mem_get_some hs.inodes hid] at e1
      cases e1
      exact hz
    · refine (minSize_le hs13).2 ?_
      intro e he hei o ho
      have hb := rows e he
      rw [hei] at hb
      have he' : e ∈ s'.db.blocks := by rw [k2]; exact he
      rcases st e.2.blockno with q | ⟨q1, _⟩
      · obtain ⟨f, o', d, q1, q2, q3, q4, q5, q6, q7⟩ := q
        have : e = f := hs'.blockUnique e he' f q1 (hei.trans q2.symm) q3.symm
        subst this
        have hd : d = m e.2.blockno := hinj q7
        have ho' : (e.2.obj, o) ∈ s'.db.objects := by rw [k1]; exact ho
        rw [hl' _ o d ho' q6, hd]
        exact hblocks _ hb
      · exact absurd ⟨hei, rfl⟩ (q1 e he')

end Verif.Fsck
