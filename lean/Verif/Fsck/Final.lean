/-
The whole run of fsck: what holds after it.
-/
import Verif.Fsck.Loops

namespace Verif.Fsck
open Verif.Fs (Bytes Inode rootInode ctrlInode)

/-! #### check_unix and check_foreign_keys -/

theorem unixInode_some {k : Nat} {s s' : St} (h : unixInode k s = some s') :
    s' = s ∨ ∃ i, AL.get s.db.inodes k = some i ∧
      s' = { s.err with db := { s.db with inodes := AL.set s.db.inodes k { i with mode := fixMode s.db k i.mode } } } := by
  unfold unixInode at h
  cases hg : AL.get s.db.inodes k with
  | none => rw [hg] at h; cases h; exact Or.inl rfl
  | some i =>
    rw [hg] at h
    dsimp only at h
    split at h
    · split at h
      · exact Or.inr ⟨i, rfl, (Option.some.inj h).symm⟩
      · cases h
    · cases h; exact Or.inl rfl

theorem checkUnix_step {s s' : St} (hs : Schema s.db) (h : checkUnix s = some s') :
    Schema s'.db ∧ InoOnly s.db s'.db ∧ s'.backend = s.backend := by
  unfold checkUnix at h
  split at h
  · cases h
  · rename_i s1 h1
    have a := iter_inv (f := unixInode) (fun t => Schema t.db ∧ InoOnly s.db t.db ∧ t.backend = s.backend)
      (fun k _ t t' ht hf => by
        rcases unixInode_some hf with rfl | ⟨i, hg, rfl⟩
        · exact ht
        · exact ⟨ht.1.setInode _ hg, ht.2.1.trans ⟨rfl, SameInodes.set hg rfl⟩, ht.2.2⟩) h1 ⟨hs, InoOnly.refl _, rfl⟩
    refine iter_inv (f := unixName) (fun t => Schema t.db ∧ InoOnly s.db t.db ∧ t.backend = s.backend) ?_ h a
    intro e _ t t' ht hf
    unfold unixName at hf
    split at hf
    · cases hf; exact ht
    · cases hf

theorem dangling_false {db : Db} (h : db.dangling = false) :
    BlocksHaveInode db ∧ BlocksHaveObj db ∧ SymlinksHaveInode db ∧ EntriesHaveName db ∧ EntriesHaveInode db ∧
      EntriesHaveParent db ∧ XattrsHaveInode db ∧ XattrsHaveName db := by
  unfold Db.dangling at h
  simp only [Bool.or_eq_false_iff, List.any_eq_false, Bool.not_eq_true] at h
  obtain ⟨⟨⟨h1, h2⟩, h3⟩, h4⟩ := h
  have aux : ∀ {ν : Type} {l : List (Nat × ν)} {k : Nat}, (AL.get l k).isNone = false → ∃ v, (k, v) ∈ l := by
    intro ν l k hn
    apply isSome_iff_mem.1
    cases hg : AL.get l k with
    | none => rw [hg] at hn; cases hn
    | some v => rfl
  refine ⟨fun e he => aux (h1 e he).1, fun e he => aux (h1 e he).2, fun e he => aux (h2 e he),
    fun e he => aux (h3 e he).1.1, fun e he => aux (h3 e he).1.2, fun e he => aux (h3 e he).2,
    fun e he => aux (h4 e he).1, fun e he => aux (h4 e he).2⟩

theorem dangling_of {db : Db} (h1 : BlocksHaveInode db) (h2 : BlocksHaveObj db) (h3 : SymlinksHaveInode db)
    (h4 : EntriesHaveName db) (h5 : EntriesHaveInode db) (h6 : EntriesHaveParent db) (h7 : XattrsHaveInode db)
    (h8 : XattrsHaveName db) : db.dangling = false := by
  have aux : ∀ {ν : Type} {l : List (Nat × ν)} {k : Nat}, (∃ v, (k, v) ∈ l) → (AL.get l k).isNone = false := by
    intro ν l k h
    have := isSome_iff_mem.2 h
    cases hg : AL.get l k with
    | none => rw [hg] at this; cases this
    | some v => rfl
  unfold Db.dangling
  simp only [Bool.or_eq_false_iff, List.any_eq_false, Bool.not_eq_true]
  exact ⟨⟨⟨fun e he => ⟨aux (h1 e he), aux (h2 e he)⟩, fun e he => aux (h3 e he)⟩,
    fun e he => ⟨⟨aux (h4 e he), aux (h5 e he)⟩, aux (h6 e he)⟩⟩, fun e he => ⟨aux (h7 e he), aux (h8 e he)⟩⟩

/-! #### Names that do not exist -/

/-- Every extended attribute has a name, and names of entries that do not exist have no number above the largest one
in use: SQLite may give such a number to the next new name. -/
def NamesKnown (db : Db) : Prop := (∀ e ∈ db.contents, e.2.nameId ≤ maxKey db.names) ∧ XattrsHaveName db

theorem NamesKnown.uses {db : Db} (h : NamesKnown db) (k : Nat) (hk : 0 < usesOfName db k) : k ≤ maxKey db.names := by
  unfold usesOfName at hk
  by_cases h1 : 0 < db.contents.countP (fun e => decide (e.2.nameId = k))
  · obtain ⟨e, he, hek⟩ := List.countP_pos_iff.1 h1
    have hek : e.2.nameId = k := by simpa using hek
    rw [← hek]; exact h.1 e he
  · have h2 : 0 < db.xattrs.countP (fun e => decide (e.2.nameId = k)) := by omega
    obtain ⟨e, he, hek⟩ := List.countP_pos_iff.1 h2
    have hek : e.2.nameId = k := by simpa using hek
    obtain ⟨n, hn⟩ := h.2 e he
    rw [← hek]; exact le_maxKey hn

theorem moveRows_names {f : CRow → CRow} (hf : ∀ r, (f r).nameId = r.nameId) {l : List Nat} {db db' : Db} (hnk : AL.NK db.contents)
    (h : db.moveRows f l = some db') : db' = { db with contents := db'.contents } ∧
      ∀ e ∈ db'.contents, ∃ x ∈ db.contents, x.2.nameId = e.2.nameId := by
  induction l generalizing db with
  | nil => cases h; exact ⟨rfl, fun e he => ⟨e, he, rfl⟩⟩
  | cons k t ih =>
    unfold Db.moveRows at h
    cases hg : AL.get db.contents k with
    | none => rw [hg] at h; exact ih hnk h
    | some r =>
      rw [hg] at h
      dsimp only at h
      cases hp : db.putEntry k (f r) with
      | none => rw [hp] at h; cases h
      | some d =>
        rw [hp] at h
        obtain ⟨hd, _⟩ := putEntry_some hp
        have hnk' : AL.NK d.contents := by rw [hd]; exact hnk.set _ _
        obtain ⟨a, b⟩ := ih hnk' h
        refine ⟨by rw [a, hd], ?_⟩
        intro e he
        obtain ⟨x, hx, hxe⟩ := b e he
        rw [hd] at hx
        rcases (mem_set hnk).1 hx with rfl | ⟨hx, _⟩
        · exact ⟨(k, r), AL.get_some_mem hg, by rw [← hxe]; exact (hf r).symm⟩
        · exact ⟨x, hx, hxe⟩

theorem findLof_names {cfg : Cfg} {s s' : St} {id nid : Nat} (hs : Schema s.db)
    (h : findLof cfg s = some (s', id, nid)) (hn : NamesKnown s.db) : NamesKnown s'.db := by
  unfold findLof at h
  cases he : s.db.entry rootInode lofName with
  | some e => rw [he] at h; cases h; exact hn
  | none =>
    rw [he] at h
    dsimp only at h
    split at h
    · split at h
      · cases h
      · rename_i db hm
        cases h
        obtain ⟨a, b⟩ := moveRows_names (f := fun r => { r with parent := rootInode }) (fun _ => rfl) hs.contents hm
        refine ⟨?_, ?_⟩
        · intro e he
          obtain ⟨x, hx, hxe⟩ := b e he
          show _ ≤ maxKey db.names
          rw [← hxe, a]; exact hn.1 x hx
        · show XattrsHaveName db
          rw [a]; exact hn.2
    · split at h
      · cases h
      · rename_i db hm
        cases h
        obtain ⟨hdb, _⟩ := insEntry_some hm
        have hs1 := hs.createLof cfg
        have hs2 := hs1.addName false lofName
        have hmx := maxKey_addName hs1.names false lofName
        refine ⟨?_, ?_⟩
        · show ∀ e ∈ db.contents, e.2.nameId ≤ maxKey db.names
          rw [hdb]
          intro e he
          dsimp only at he ⊢
          rcases (mem_set hs2.contents).1 he with rfl | ⟨he, _⟩
          · exact hmx.2
          · rw [get_addName_contents hs1.names] at he
            exact Nat.le_trans (hn.1 e he) hmx.1
        · show XattrsHaveName db
          rw [hdb]
          intro e he
          dsimp only at he
          rw [addName_other hs1.names] at he
          exact hasName_addName hs1.names false lofName (hn.2 e he)
    · cases h

theorem checkLof_names {cfg : Cfg} {s s' : St} (hs : Schema s.db) (h : checkLof cfg s = some s') (hn : NamesKnown s.db) :
    NamesKnown s'.db := by
  unfold checkLof at h
  cases hf : findLof cfg s with
  | none => rw [hf] at h; cases h
  | some x =>
    obtain ⟨s1, id, nid⟩ := x
    rw [hf] at h
    have h1 := findLof_names hs hf hn
    have hs1 := findLof_schema hs hf
    dsimp only at h
    cases hg : AL.get s1.db.inodes id with
    | none => rw [hg] at h; cases h
    | some i =>
      rw [hg] at h
      dsimp only at h
      split at h
      · cases h; exact h1
      · split at h
        · rename_i rowid r hfe
          cases h
          obtain ⟨hm, _⟩ := findEntry_spec hfe
          refine ⟨?_, h1.2⟩
          intro e he
          rcases (mem_set hs1.contents).1 he with rfl | ⟨he, _⟩
          · exact h1.1 (rowid, r) hm
          · exact h1.1 e he
        · cases h; exact h1

theorem objectFor_other (cfg : Cfg) (s : St) (data : Bytes) :
    (objectFor cfg s data).1.db = { s.db with objects := (objectFor cfg s data).1.db.objects, oseq := (objectFor cfg s data).1.db.oseq } := by
  unfold objectFor
  split <;> rfl

/-- The cache check changes only blocks and objects. -/
theorem cacheFile_other {cfg : Cfg} {f : CFile} {s s' : St} (h : cacheFile cfg f s = some s') :
    s'.db = { s.db with blocks := s'.db.blocks, objects := s'.db.objects, oseq := s'.db.oseq } := by
  cases f with
  | strange => cases h
  | tmp => cases h; rfl
  | blk i b data =>
    simp only [cacheFile] at h
    split at h
    · cases h; rfl
    · have h1 := objectFor_other cfg s.err data
      generalize objectFor cfg s.err data = x at h h1
      obtain ⟨s1, o⟩ := x
      dsimp only at h h1
      split at h
      · cases h
        dsimp only
        rw [h1]
        rfl
      · cases h
        dsimp only
        rw [h1]
        rfl

theorem cachePart_other {cfg : Cfg} {c : CacheArg} {s s' : St} (h : cachePart cfg c s = some s') :
    s'.db = { s.db with blocks := s'.db.blocks, objects := s'.db.objects, oseq := s'.db.oseq } := by
  have aux : ∀ keep s', checkCache cfg keep s = some s' →
      s'.db = { s.db with blocks := s'.db.blocks, objects := s'.db.objects, oseq := s'.db.oseq } := by
    intro keep s' h
    unfold checkCache at h
    obtain ⟨s1, h1, rfl⟩ := Option.map_eq_some_iff.1 h
    show s1.db = { s.db with blocks := s1.db.blocks, objects := s1.db.objects, oseq := s1.db.oseq }
    refine iter_inv (f := cacheFile cfg) (fun t => t.db = { s.db with blocks := t.db.blocks, objects := t.db.objects, oseq := t.db.oseq }) ?_ h1 rfl
    intro f _ t t' ht hf
    rw [cacheFile_other hf, ht]
  cases c with
  | no => cases h; rfl
  | yes => exact aux _ _ h
  | keep => exact aux _ _ h

/-! #### The three parts -/

theorem checkA_step {cfg : Cfg} {c : CacheArg} {s s' : St} (hs : Schema s.db) (h : checkA cfg c s = some s') :
    Schema s'.db ∧ EntriesHaveInode s'.db ∧ EntriesHaveParent s'.db ∧ (NamesKnown s.db → NExact s'.db) := by
  unfold checkA at h
  obtain ⟨s1, h1, h⟩ := Option.bind_eq_some_iff.1 h
  obtain ⟨s2, h2, h⟩ := Option.bind_eq_some_iff.1 h
  obtain ⟨s4, h4, h⟩ := Option.bind_eq_some_iff.1 h
  obtain ⟨s5, h5, h⟩ := Option.bind_eq_some_iff.1 h
  have hs1 := checkLof_schema hs h1
  have hs2 := cachePart_schema hs1 h2
  have hs3 := checkNamesRefcount_schema hs2
  have hs4 := (checkContentsName_moved hs3 h4).1
  have hs5 := checkContentsInode_schema hs4 h5
  have hi5 := checkContentsInode_inodes h5
  obtain ⟨hs6, hm6⟩ := checkContentsParent_step hs5 h
  refine ⟨hs6, hm6.entriesHaveInode hi5, checkContentsParent_parents hs5 hi5 h, ?_⟩
  intro hn
  have hn1 := checkLof_names hs h1 hn
  have hn2 : NamesKnown s2.db := by rw [cachePart_other h2]; exact hn1
  have hn3 := checkNamesRefcount_NK1 hs2 hn2.uses
  have hx3 : XattrsHaveName (checkNamesRefcount s2).db := by
    intro e he
    obtain ⟨r, hr⟩ := hn2.2 e he
    exact ⟨_, List.mem_map.2 ⟨(e.2.nameId, r), hr, rfl⟩⟩
  have hn4 := checkContentsName_exact hs3 h4 hn3 hx3
  exact checkContentsParent_exact hs5 h (checkContentsInode_exact h5 hn4)

/-- The state after the last checks. -/
structure Good (s : St) : Prop where
  schema : Schema s.db
  inodeRefs : InodeRefsExact s.db
  objRefs : ObjRefsExact s.db
  entriesInode : EntriesHaveInode s.db
  entriesParent : EntriesHaveParent s.db
  blocksInode : BlocksHaveInode s.db
  blocksObj : BlocksHaveObj s.db
  xattrsInode : XattrsHaveInode s.db
  symlinksInode : SymlinksHaveInode s.db
  connected : Connected s.db

theorem checkC_step {cfg : Cfg} {depth : Nat} {s s' : St} (hs : Schema s.db) (h : checkC cfg depth s = some s')
    (ho : ObjRefsExact s.db) (hei : EntriesHaveInode s.db) (hep : EntriesHaveParent s.db) (hbi : BlocksHaveInode s.db)
    (hbo : BlocksHaveObj s.db) :
    Good s' ∧ (NExact s.db → NExact s'.db) ∧ (ObjsStored s → ObjsStored s') ∧
      (s'.uncorr = false → EntriesHaveName s'.db ∧ XattrsHaveName s'.db) := by
  unfold checkC at h
  obtain ⟨s14, h14, h⟩ := Option.bind_eq_some_iff.1 h
  obtain ⟨s15, h15, h⟩ := Option.bind_eq_some_iff.1 h
  obtain ⟨s16, h16, h⟩ := Option.bind_eq_some_iff.1 h
  obtain ⟨s17, h17, h⟩ := Option.bind_eq_some_iff.1 h
  obtain ⟨s19, h19, h⟩ := Option.bind_eq_some_iff.1 h
  obtain ⟨s20, h20, h⟩ := Option.bind_eq_some_iff.1 h
  cases h
  obtain ⟨hs14, k14, n14, r14, _, _, b14⟩ := checkInodesRefcount_step hs h14
  obtain ⟨hs15, o15, b15⟩ := checkInodesSize_step hs14 h15
  obtain ⟨hs16, o16, b16, same16⟩ := checkXattrName_step hs15 h16
  obtain ⟨hs17, o17, b17, x17, n17⟩ := checkXattrInode_step hs16 h17
  obtain ⟨hs18, y18, k18⟩ := checkSymlinks_step hs17
  obtain ⟨hs19, m19, n19, b19, p19⟩ := checkLoops_step hs18 h19
  obtain ⟨hs20, o20, b20⟩ := checkUnix_step hs19 h20
  have kk : Kept s.db s20.db :=
    (((((k14.trans o15.kept).trans o16.kept).trans o17.kept).trans k18).trans m19.kept).trans o20.kept
  have r17 : RefsOk s17.db := o17.refs (o16.refs (o15.refs r14))
  have r19 : RefsOk s19.db := m19.refs (a := (checkSymlinks s17).db) r17
  have r20 : RefsOk s20.db := o20.refs r19
  have hfdb : (checkForeign s20).db = s20.db := by unfold checkForeign; split <;> rfl
  have hfb : (checkForeign s20).backend = s20.backend := by unfold checkForeign; split <;> rfl
  have p20 : ∀ e ∈ s20.db.contents, Reach s20.db e.2.parent := by
    have : s20.db.contents = s19.db.contents := by rw [o20.1]
    intro e he
    rw [this] at he
    have hr := p19 e he
    generalize e.2.parent = q at hr
    induction hr with
    | root => exact Reach.root
    | step hm _ ih => exact Reach.step (by rw [this]; exact hm) ih
  have hx : ∀ e ∈ s20.db.xattrs, HasInode s20.db e.2.inode := by
    intro e he
    have e1 : s20.db.xattrs = s17.db.xattrs := by
      rw [o20.1]; show s19.db.xattrs = _; rw [m19.1]; rfl
    rw [e1] at he
    exact ((k18.trans m19.kept).trans o20.kept).hasInode.2 (x17 e he)
  have hy : ∀ e ∈ s20.db.symlinks, HasInode s20.db e.1 := by
    intro e he
    have e1 : s20.db.symlinks = (checkSymlinks s17).db.symlinks := by
      rw [o20.1]; show s19.db.symlinks = _; rw [m19.1]
    rw [e1] at he
    exact (m19.kept.trans o20.kept).hasInode.2 (y18 e he)
  have good : Good { s20 with } := by
    refine ⟨hs20, fun e he hp => (r20 e he hp).1, ?_, kk.entries hei, kk.parents hei hep, ?_, ?_, hx, hy,
      connected_of r20 p20⟩
    · intro e he
      unfold usesOfObj
      have := ho e (by rw [← kk.objects]; exact he)
      unfold usesOfObj at this
      rw [kk.blocks]; exact this
    · intro e he
      exact kk.hasInode.2 (hbi e (by rw [← kk.blocks]; exact he))
    · intro e he
      have := hbo e (by rw [← kk.blocks]; exact he)
      unfold HasObj at *
      rw [kk.objects]; exact this
  refine ⟨?_, ?_, ?_, ?_⟩
  · obtain ⟨g1, g2, g3, g4, g5, g6, g7, g8, g9, g10⟩ := good
    constructor <;> (first | rw [hfdb] | skip) <;> assumption
  · intro hn
    rw [hfdb]
    have h15' := o15.exact (n14 hn)
    have e16 : s16 = s15 := same16 h15'.xattrs
    have h17' : NExact s17.db := n17 (by rw [e16]; exact h15')
    exact o20.exact (n19 h17')
  · intro hst e he
    rw [hfb, b20, b19, show (checkSymlinks s17).backend = s17.backend from rfl, b17, b16, b15, b14]
    rw [hfdb, kk.objects] at he
    exact hst e he
  · intro hu
    have hd : s20.db.dangling = false := by
      unfold checkForeign at hu
      split at hu
      · cases hu
      · rename_i h; simpa using h
    obtain ⟨_, _, _, a, _, _, _, b⟩ := dangling_false hd
    rw [hfdb]
    exact ⟨a, b⟩

theorem check_good {cfg : Cfg} {depth : Nat} {c : CacheArg} {s s' : St} (hs : Schema s.db)
    (h : check cfg depth c s = some s') :
    Good s' ∧ (NamesKnown s.db → NExact s'.db) ∧ (ListingSound cfg → ObjsStored s') ∧
      (s'.uncorr = false → EntriesHaveName s'.db ∧ XattrsHaveName s'.db) := by
  unfold check at h
  obtain ⟨s1, h1, h⟩ := Option.bind_eq_some_iff.1 h
  obtain ⟨s2, h2, h⟩ := Option.bind_eq_some_iff.1 h
  obtain ⟨a1, a2, a3, a4⟩ := checkA_step hs h1
  obtain ⟨b1, b2, b3, b4, b5, b6, b7, b8, _⟩ := checkB_step a1 h2
  obtain ⟨c1, c2, c3, c4⟩ := checkC_step b1 h b2 (b7 a2) (b8 a2 a3) b4 b3
  exact ⟨c1, fun hn => c2 (b6 (a4 hn)), fun hl => c3 (b5 hl), c4⟩

end Verif.Fsck
