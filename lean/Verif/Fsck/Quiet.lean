/-
A check that reports no error changes nothing; it reports none if its condition holds.
-/
import Verif.Fsck.Final

namespace Verif.Fsck
open Verif.Fs (Bytes Inode rootInode ctrlInode)

theorem iter_quiet {α : Type} {f : α → St → Option St} (hf : ∀ a s s', f a s = some s' → s'.found = false → s' = s) :
    ∀ {l : List α} {s s' : St}, iter f l s = some s' → s'.found = false → s' = s ∧ ∀ a ∈ l, f a s = some s := by
  intro l
  induction l with
  | nil => intro s s' h _; cases h; exact ⟨rfl, fun a ha => absurd ha List.not_mem_nil⟩
  | cons a t ih =>
    intro s s' h hfalse
    unfold iter at h
    obtain ⟨s1, h1, h⟩ := Option.bind_eq_some_iff.1 h
    obtain ⟨he, hall⟩ := ih h hfalse
    subst he
    have h2 := hf a s s' h1 hfalse
    subst h2
    refine ⟨rfl, fun b hb => ?_⟩
    rcases List.mem_cons.1 hb with rfl | hb
    · exact h1
    · exact hall b hb

theorem iter_same {α : Type} {f : α → St → Option St} {l : List α} {s : St} (h : ∀ a ∈ l, f a s = some s) :
    iter f l s = some s := by
  induction l with
  | nil => rfl
  | cons a t ih =>
    unfold iter
    rw [h a List.mem_cons_self]
    exact ih (fun b hb => h b (List.mem_cons_of_mem _ hb))

/-- A body that always reports: a quiet loop has no element. -/
theorem iter_err {α : Type} {f : α → St → Option St} (hf : ∀ a s s', f a s = some s' → s'.found = true) :
    ∀ {l : List α} {s s' : St}, iter f l s = some s' → s'.found = false → l = [] ∧ s' = s := by
  intro l
  induction l with
  | nil => intro s s' h _; cases h; exact ⟨rfl, rfl⟩
  | cons a t ih =>
    intro s s' h hfalse
    unfold iter at h
    obtain ⟨s1, h1, h⟩ := Option.bind_eq_some_iff.1 h
    obtain ⟨_, he⟩ := ih h hfalse
    subst he
    rw [hf a s s' h1] at hfalse
    cases hfalse

theorem filter_nil {α : Type} {l : List α} {q q' : α → Bool} (h : l.filter q = []) (hq : ∀ a, q' a = !q a) : l.filter q' = l := by
  rw [List.filter_eq_self]
  intro a ha
  have := List.filter_eq_nil_iff.1 h a ha
  rw [hq]; simpa using this

theorem nil_filter {α : Type} {l : List α} {q : α → Bool} (h : ∀ a ∈ l, q a = false) : l.filter q = [] :=
  List.filter_eq_nil_iff.2 (fun a ha => by rw [h a ha]; decide)

theorem optNot {α : Type} (o : Option α) : o.isSome = !o.isNone := by cases o <;> rfl

theorem hasOf {ν : Type} {l : List (Nat × ν)} {k : Nat} (h : (AL.get l k).isNone = false) : ∃ v, (k, v) ∈ l := by
  apply isSome_iff_mem.1
  rw [optNot, h]; rfl

theorem ofHas {ν : Type} {l : List (Nat × ν)} {k : Nat} (h : ∃ v, (k, v) ∈ l) : (AL.get l k).isNone = false := by
  have := isSome_iff_mem.2 h
  rw [optNot] at this
  simpa using this

/-! #### lost+found -/

theorem lofOk_entry {db : Db} (hs : Schema db) (h : LofOk db) :
    ∃ e i, db.entry rootInode lofName = some e ∧ AL.get db.inodes e.2.inode = some i ∧ Fs.isDir i.mode = true := by
  obtain ⟨e, he, hp, ⟨r, hr, ht, hn⟩, i, hi, hd⟩ := h
  refine ⟨e, i, ?_, AL.mem_get_some hs.inodes hi, hd⟩
  have := entry_mem hs he hr ht
  rw [hp, hn] at this
  exact this

theorem lofOk_of {db : Db} {e : Nat × CRow} {i : Inode} (h : db.entry rootInode lofName = some e)
    (hi : AL.get db.inodes e.2.inode = some i) (hd : Fs.isDir i.mode = true) : LofOk db := by
  unfold Db.entry at h
  obtain ⟨j, h1, h2⟩ := Option.bind_eq_some_iff.1 h
  obtain ⟨r, hr, ht, hn⟩ := findName_spec h1
  obtain ⟨m1, m2, m3⟩ := findEntry_spec h2
  exact ⟨e, m1, m2, ⟨r, by rw [m3]; exact hr, ht, hn⟩, i, AL.get_some_mem hi, hd⟩

theorem checkLof_clean {cfg : Cfg} {s : St} (hs : Schema s.db) (h : LofOk s.db) : checkLof cfg s = some s := by
  obtain ⟨e, i, he, hi, hd⟩ := lofOk_entry hs h
  unfold checkLof findLof
  rw [he]
  dsimp only
  rw [hi]
  dsimp only
  rw [if_pos hd]

theorem checkLof_quiet {cfg : Cfg} {s s' : St} (h : checkLof cfg s = some s') (hf : s'.found = false) :
    s' = s ∧ LofOk s.db := by
  unfold checkLof at h
  cases hx : findLof cfg s with
  | none => rw [hx] at h; cases h
  | some x =>
    obtain ⟨s1, id, nid⟩ := x
    rw [hx] at h
    dsimp only at h
    cases hg : AL.get s1.db.inodes id with
    | none => rw [hg] at h; cases h
    | some i =>
      rw [hg] at h
      dsimp only at h
      split at h
      · rename_i hd
        cases h
        unfold findLof at hx
        cases he : s.db.entry rootInode lofName with
        | some e =>
          rw [he] at hx
          cases hx
          exact ⟨rfl, lofOk_of he hg hd⟩
        | none =>
          rw [he] at hx
          dsimp only at hx
          split at hx
          · split at hx
            · cases hx
            · cases hx; cases hf
          · split at hx
            · cases hx
            · cases hx; cases hf
          · cases hx
      · split at h
        · cases h; cases hf
        · cases h; cases hf

/-! #### The cache -/

theorem storedSame_iff {cfg : Cfg} {db : Db} (hs : Schema db) {id b : Nat} {data : Bytes} :
    storedSame cfg db id b data = true ↔ ∃ e o, e ∈ db.blocks ∧ e.2.inode = id ∧ e.2.blockno = b ∧ (e.2.obj, o) ∈ db.objects ∧ o.hash = some (cfg.sha data) := by
  unfold storedSame
  constructor
  · intro h
    split at h
    · cases h
    · rename_i e he
      obtain ⟨m1, m2, m3⟩ := findBlock_spec he
      split at h
      · cases h
      · rename_i o ho
        exact ⟨e, o, m1, m2, m3, AL.get_some_mem ho, by simpa using h⟩
  · rintro ⟨e, o, he, hi, hb, ho, hh⟩
    cases hf : findBlock db.blocks id b with
    | none => exact absurd ⟨hi, hb⟩ (findBlock_none hf e he)
    | some f =>
      obtain ⟨m1, m2, m3⟩ := findBlock_spec hf
      have : f = e := hs.blockUnique f m1 e he (m2.trans hi.symm) (m3.trans hb.symm)
      subst this
      dsimp only
      rw [AL.mem_get_some hs.objects ho]
      simp [hh]

theorem objectFor_found (cfg : Cfg) (s : St) (data : Bytes) : (objectFor cfg s data).1.found = s.found := by
  unfold objectFor; split <;> rfl

theorem cacheFile_quiet {cfg : Cfg} {f : CFile} {s s' : St} (h : cacheFile cfg f s = some s') (hf : s'.found = false) :
    s' = s ∧ ∃ id b data, f = CFile.blk id b data ∧ storedSame cfg s.db id b data = true := by
  cases f with
  | strange => cases h
  | tmp => cases h; cases hf
  | blk i b data =>
    simp only [cacheFile] at h
    split at h
    · rename_i hst
      cases h; exact ⟨rfl, i, b, data, rfl, hst⟩
    · have h1 := objectFor_found cfg s.err data
      generalize objectFor cfg s.err data = x at h h1
      obtain ⟨s1, o⟩ := x
      dsimp only at h h1
      split at h
      · cases h; dsimp only at hf; rw [h1] at hf; cases hf
      · cases h; dsimp only at hf; rw [h1] at hf; cases hf

/-- What the cache check leaves of the cache directory. -/
def cacheAfter (c : CacheArg) (s : St) : St :=
  match c with
  | .no => s
  | .yes => { s with cache := cacheLeft false s.cache }
  | .keep => { s with cache := cacheLeft true s.cache }

theorem cachePart_quiet {cfg : Cfg} {c : CacheArg} {s s' : St} (h : cachePart cfg c s = some s')
    (hf : s'.found = false) : s' = cacheAfter c s ∧ (Schema s.db → c ≠ .no → CacheOk cfg s) := by
  have aux : ∀ keep s', checkCache cfg keep s = some s' → s'.found = false →
      s' = { s with cache := cacheLeft keep s.cache } ∧ (Schema s.db → CacheOk cfg s) := by
    intro keep s' h hf
    unfold checkCache at h
    obtain ⟨s1, h1, rfl⟩ := Option.map_eq_some_iff.1 h
    obtain ⟨he, hall⟩ := iter_quiet (f := cacheFile cfg) (fun a t t' hc hf => (cacheFile_quiet hc hf).1) h1 hf
    subst he
    refine ⟨rfl, ?_⟩
    intro hs f hm
    obtain ⟨_, id, b, data, hfe, hst⟩ := cacheFile_quiet (hall f hm) hf
    obtain ⟨e, o, h⟩ := (storedSame_iff hs).1 hst
    exact ⟨id, b, data, e, o, hfe, h⟩
  cases c with
  | no => cases h; exact ⟨rfl, fun _ h => absurd rfl h⟩
  | yes => obtain ⟨a, b⟩ := aux _ _ h hf; exact ⟨a, fun hs _ => b hs⟩
  | keep => obtain ⟨a, b⟩ := aux _ _ h hf; exact ⟨a, fun hs _ => b hs⟩

theorem cachePart_clean {cfg : Cfg} {c : CacheArg} {s : St} (hs : Schema s.db) (h : c ≠ .no → CacheOk cfg s) :
    cachePart cfg c s = some (cacheAfter c s) := by
  have aux : CacheOk cfg s → ∀ keep, checkCache cfg keep s = some { s with cache := cacheLeft keep s.cache } := by
    intro hc keep
    unfold checkCache
    rw [iter_same (f := cacheFile cfg) (s := s)]
    · rfl
    · intro f hm
      obtain ⟨id, b, data, e, o, rfl, h⟩ := hc f hm
      unfold cacheFile
      dsimp only
      rw [if_pos ((storedSame_iff hs).2 ⟨e, o, h⟩)]
  cases c with
  | no => rfl
  | yes => exact aux (h (by decide)) false
  | keep => exact aux (h (by decide)) true

/-! #### Names and entries -/

theorem names_map_eq {db : Db} (h : NameRefsExact db) :
    db.names.map (fun e => (e.1, { e.2 with refcount := ((cCount db e.1 + xCount db e.1 : Nat) : Int) })) = db.names := by
  conv => rhs; rw [← List.map_id db.names]
  apply List.map_congr_left
  intro e he
  have := h e he
  unfold usesOfName at this
  rw [cCount_eq, xCount_eq, ← this]
  rfl

theorem checkNamesRefcount_clean {s : St} (h : NameRefsExact s.db) : checkNamesRefcount s = s := by
  unfold checkNamesRefcount
  dsimp only
  rw [names_map_eq h]
  have : s.db.names.any (fun e => e.2.refcount != ((cCount s.db e.1 + xCount s.db e.1 : Nat) : Int)) = false := by
    rw [List.any_eq_false]
    intro e he
    have h1 := h e he
    unfold usesOfName at h1
    rw [cCount_eq, xCount_eq, ← h1]
    simp
  rw [this, Bool.or_false]

theorem checkNamesRefcount_quiet {s : St} (h : (checkNamesRefcount s).found = false) :
    checkNamesRefcount s = s ∧ NameRefsExact s.db := by
  have hx : NameRefsExact s.db := by
    intro e he
    unfold checkNamesRefcount at h
    simp only [Bool.or_eq_false_iff, List.any_eq_false] at h
    have := h.2 e he
    unfold usesOfName
    rw [← cCount_eq, ← xCount_eq]
    simpa using this
  exact ⟨checkNamesRefcount_clean hx, hx⟩

theorem checkContentsName_quiet {s s' : St} (h : checkContentsName s = some s') (hf : s'.found = false) :
    s' = s ∧ (Schema s.db → EntriesHaveName s.db) := by
  obtain ⟨he, hall⟩ := iter_quiet (f := fixName) (fun k t t' hk hf => by
    rcases fixName_some hk with ⟨h, _⟩ | ⟨r, n0, p, n, db, _, _, _, _, rfl⟩
    · exact h
    · cases hf) h hf
  refine ⟨he, ?_⟩
  subst he
  intro hs e hm
  rcases fixName_some (hall e.1 (mem_keys.2 ⟨e.2, hm⟩)) with ⟨_, h2⟩ | ⟨r, n0, p, n, db, _, _, _, _, h2⟩
  · exact h2 e.2 (AL.mem_get_some hs.contents hm)
  · rw [h2] at hf; cases hf

theorem checkContentsName_clean {s : St} (h : EntriesHaveName s.db) : checkContentsName s = some s := by
  apply iter_same
  intro k hk
  unfold fixName
  split
  · rfl
  · rename_i r hr
    rw [if_pos (isSome_iff_mem.2 (h _ (AL.get_some_mem hr)))]

theorem checkContentsInode_quiet {s s' : St} (h : checkContentsInode s = some s') (hf : s'.found = false) :
    s' = s ∧ EntriesHaveInode s.db := by
  unfold checkContentsInode at h
  obtain ⟨s1, h1, rfl⟩ := Option.map_eq_some_iff.1 h
  obtain ⟨hnil, he⟩ := iter_err (f := dropEntry) (fun a t t' ht => by
    unfold dropEntry at ht
    split at ht
    · cases ht
    · cases ht; rfl) h1 hf
  subst he
  refine ⟨?_, ?_⟩
  · dsimp only
    rw [filter_nil hnil (fun a => optNot _)]
  · intro e he
    exact hasOf (Bool.eq_false_iff.2 (List.filter_eq_nil_iff.1 hnil e he))

theorem checkContentsInode_clean {s : St} (h : EntriesHaveInode s.db) : checkContentsInode s = some s := by
  have hnil : s.db.contents.filter (fun e => (AL.get s.db.inodes e.2.inode).isNone) = [] :=
    nil_filter (fun e he => ofHas (h e he))
  unfold checkContentsInode
  dsimp only
  rw [hnil]
  show some _ = some s
  dsimp only
  rw [filter_nil hnil (fun a => optNot _)]

theorem checkContentsParent_quiet {cfg : Cfg} {s s' : St} (h : checkContentsParent cfg s = some s')
    (hf : s'.found = false) : s' = s ∧ (Schema s.db → EntriesHaveParent s.db) := by
  obtain ⟨he, hall⟩ := iter_quiet (f := fixParent cfg) (fun k t t' hk hf => by
    rcases fixParent_some hk with ⟨h, _⟩ | ⟨r, n0, p, n, db, _, _, _, _, _, rfl⟩
    · exact h
    · cases hf) h hf
  refine ⟨he, ?_⟩
  subst he
  intro hs e hm
  rcases fixParent_some (hall e.1 (mem_keys.2 ⟨e.2, hm⟩)) with ⟨_, h2⟩ | ⟨r, n0, p, n, db, _, _, _, _, _, h2⟩
  · exact h2 e.2 (AL.mem_get_some hs.contents hm)
  · rw [h2] at hf; cases hf

theorem checkContentsParent_clean {cfg : Cfg} {s : St} (h : EntriesHaveParent s.db) : checkContentsParent cfg s = some s := by
  apply iter_same
  intro k hk
  unfold fixParent
  split
  · rfl
  · rename_i r hr
    rw [if_pos (isSome_iff_mem.2 (h _ (AL.get_some_mem hr)))]

/-! #### Objects -/

theorem checkObjectsTemp_quiet {s : St} (h : (checkObjectsTemp s).found = false) : checkObjectsTemp s = s ∧ s.temps = 0 := by
  unfold checkObjectsTemp at h
  simp only [Bool.or_eq_false_iff] at h
  have h0 : s.temps = 0 := by simpa using h.2
  refine ⟨?_, h0⟩
  unfold checkObjectsTemp
  cases s
  simp only at h0
  simp [h0]

theorem checkObjectsTemp_clean {s : St} (h0 : s.temps = 0) : checkObjectsTemp s = s := by
  unfold checkObjectsTemp
  cases s
  simp only at h0
  simp [h0]

theorem checkObjectsHash_quiet {s : St} (h : (checkObjectsHash s).found = false) :
    checkObjectsHash s = s ∧ ∀ e ∈ s.db.objects, e.2.hash ≠ none := by
  unfold checkObjectsHash at h
  simp only [Bool.or_eq_false_iff, List.any_eq_false] at h
  have h0 : ∀ e ∈ s.db.objects, e.2.hash ≠ none := by
    intro e he hn
    have := h.2 e he
    rw [hn] at this
    exact this rfl
  refine ⟨?_, h0⟩
  unfold checkObjectsHash
  have h1 : s.db.objects.filter (fun e => e.2.hash.isSome) = s.db.objects := by
    rw [List.filter_eq_self]
    intro e he
    exact Option.isSome_iff_ne_none.2 (h0 e he)
  have h2 : s.db.objects.any (fun e => e.2.hash.isNone) = false := by
    rw [List.any_eq_false]; exact h.2
  rw [h1, h2, Bool.or_false]

theorem checkObjectsHash_clean {s : St} (h0 : ∀ e ∈ s.db.objects, e.2.hash ≠ none) : checkObjectsHash s = s := by
  unfold checkObjectsHash
  have h1 : s.db.objects.filter (fun e => e.2.hash.isSome) = s.db.objects := by
    rw [List.filter_eq_self]
    intro e he
    exact Option.isSome_iff_ne_none.2 (h0 e he)
  have h2 : s.db.objects.any (fun e => e.2.hash.isNone) = false := by
    rw [List.any_eq_false]
    intro e he hn
    exact h0 e he (by simpa using hn)
  rw [h1, h2, Bool.or_false]

theorem refObjs_eq {db : Db} (h : ObjRefsExact db) (hu : ∀ e ∈ db.objects, usesOfObj db e.1 ≠ 0) : refObjs db = db.objects := by
  unfold refObjs
  have h1 : db.objects.filter (fun e => bCount db e.1 != 0) = db.objects := by
    rw [List.filter_eq_self]
    intro e he
    rw [bCount_eq]
    simpa using hu e he
  rw [h1]
  conv => rhs; rw [← List.map_id db.objects]
  apply List.map_congr_left
  intro e he
  rw [bCount_eq, ← h e he]
  rfl

theorem checkObjectsRefcount_clean {s : St} (h : ObjRefsExact s.db) (hu : ∀ e ∈ s.db.objects, usesOfObj s.db e.1 ≠ 0) :
    checkObjectsRefcount s = some s := by
  rw [checkObjectsRefcount_eq, refObjs_eq h hu]
  have : s.db.objects.any (objReported s) = false := by
    rw [List.any_eq_false]
    intro e he
    unfold objReported
    dsimp only
    rw [bCount_eq, if_neg (hu e he), h e he]
    simp
  rw [this, Bool.or_false]

theorem checkObjectsRefcount_quiet {s s' : St} (h : checkObjectsRefcount s = some s') (hf : s'.found = false)
    (hul : s.unlinked = []) : s' = s ∧ ObjRefsExact s.db ∧ ∀ e ∈ s.db.objects, usesOfObj s.db e.1 ≠ 0 := by
  have h' := h
  rw [checkObjectsRefcount_eq] at h
  cases h
  dsimp only at hf
  simp only [Bool.or_eq_false_iff, List.any_eq_false] at hf
  have key : ∀ e ∈ s.db.objects, usesOfObj s.db e.1 ≠ 0 ∧ e.2.refcount = (usesOfObj s.db e.1 : Nat) := by
    intro e he
    have hr := hf.2 e he
    unfold objReported at hr
    dsimp only at hr
    rw [bCount_eq, hul] at hr
    split at hr
    · exact absurd rfl hr
    · rename_i hn
      exact ⟨hn, by simpa using hr⟩
  have hx : ObjRefsExact s.db := fun e he => (key e he).2
  have hu : ∀ e ∈ s.db.objects, usesOfObj s.db e.1 ≠ 0 := fun e he => (key e he).1
  rw [checkObjectsRefcount_clean hx hu] at h'
  exact ⟨(Option.some.inj h').symm, hx, hu⟩

/-- The listing shows exactly the stored objects. -/
def ListingExact (cfg : Cfg) : Prop := ∀ b o, o ∈ cfg.list b ↔ ∃ d, (o, d) ∈ b

theorem ListingExact.sound {cfg : Cfg} (h : ListingExact cfg) : ListingSound cfg := fun b o ho => (h b o).1 ho

theorem delSpurious_quiet {o : Nat} {s s' : St} (h : delSpurious o s = some s') (hf : s'.found = false) (hul : s.unlinked = []) :
    s' = s ∧ AL.get s.backend o = none := by
  unfold delSpurious at h
  split at h
  · rename_i hg; cases h; exact ⟨rfl, hg⟩
  · dsimp only at h
    rw [hul] at h
    cases h
    cases hf

theorem iter_delSpurious_quiet {l : List Nat} {s s' : St} (h : iter delSpurious l s = some s') (hf : s'.found = false)
    (hul : s.unlinked = []) : s' = s ∧ ∀ o ∈ l, AL.get s.backend o = none := by
  induction l generalizing s with
  | nil => cases h; exact ⟨rfl, fun a ha => absurd ha List.not_mem_nil⟩
  | cons a t ih =>
    unfold iter at h
    obtain ⟨s1, h1, h⟩ := Option.bind_eq_some_iff.1 h
    have hul1 : s1.unlinked = [] := by
      have : iter delSpurious [a] s = some s1 := by unfold iter; rw [h1]; rfl
      rw [(iter_delSpurious this).2.2.2]; exact hul
    obtain ⟨he, hall⟩ := ih h hul1
    subst he
    obtain ⟨e2, h2⟩ := delSpurious_quiet h1 hf hul
    subst e2
    refine ⟨rfl, fun o ho => ?_⟩
    rcases List.mem_cons.1 ho with rfl | ho
    · exact h2
    · exact hall o ho

theorem checkObjectsId_quiet {cfg : Cfg} {s s' : St} (hl : ListingExact cfg) (h : checkObjectsId cfg s = some s')
    (hf : s'.found = false) (hul : s.unlinked = []) : s' = s ∧ ObjsStored s ∧ ∀ e ∈ s.backend, HasObj s.db e.1 := by
  unfold checkObjectsId at h
  dsimp only at h
  split at h
  · cases h
  · rename_i s1 h1
    cases h
    dsimp only at hf
    simp only [Bool.or_eq_false_iff, List.any_eq_false] at hf
    obtain ⟨he, hall⟩ := iter_delSpurious_quiet h1 hf.1 hul
    subst he
    have hst : ObjsStored s1 := by
      intro e he
      have := hf.2 e he
      simp only [Bool.and_eq_true, Bool.not_eq_true', not_and, Bool.not_eq_true] at this
      by_cases hc : (cfg.list s1.backend).contains e.1 = true
      · exact (hl _ _).1 (by simpa using hc)
      · exact hasOf (this (Bool.eq_false_iff.2 hc))
    refine ⟨?_, hst, ?_⟩
    · have h2 : ∀ e ∈ s1.db.objects, (!(cfg.list s1.backend).contains e.1 && (AL.get s1.backend e.1).isNone) = false := by
        intro e he; exact Bool.eq_false_iff.2 (hf.2 e he)
      have h3 : s1.db.objects.filter (fun e => !(!(cfg.list s1.backend).contains e.1 && (AL.get s1.backend e.1).isNone)) = s1.db.objects := by
        rw [List.filter_eq_self]
        intro e he; rw [h2 e he]; rfl
      have h4 : s1.db.objects.any (fun e => !(cfg.list s1.backend).contains e.1 && (AL.get s1.backend e.1).isNone) = false := by
        rw [List.any_eq_false]; exact hf.2
      rw [h3, h4, Bool.or_false]
    · intro e he
      by_cases ho : (AL.get s1.db.objects e.1).isNone = true
      · have := hall e.1 (List.mem_filter.2 ⟨(hl _ _).2 ⟨e.2, he⟩, ho⟩)
        exact absurd (isSome_iff_mem.2 ⟨e.2, he⟩) (by rw [this]; decide)
      · exact hasOf (Bool.eq_false_iff.2 ho)

theorem checkObjectsId_clean {cfg : Cfg} {s : St} (hl : ListingExact cfg) (hst : ObjsStored s)
    (hsp : ∀ e ∈ s.backend, HasObj s.db e.1) : checkObjectsId cfg s = some s := by
  unfold checkObjectsId
  dsimp only
  have h1 : (cfg.list s.backend).filter (fun o => (AL.get s.db.objects o).isNone) = [] := by
    apply nil_filter
    intro o ho
    obtain ⟨d, hd⟩ := (hl _ _).1 ho
    exact ofHas (hsp _ hd)
  rw [h1]
  show some _ = _
  have h2 : ∀ e ∈ s.db.objects, (!(cfg.list s.backend).contains e.1 && (AL.get s.backend e.1).isNone) = false := by
    intro e he
    rw [ofHas (hst e he), Bool.and_false]
  have h3 : s.db.objects.filter (fun e => !(!(cfg.list s.backend).contains e.1 && (AL.get s.backend e.1).isNone)) = s.db.objects := by
    rw [List.filter_eq_self]
    intro e he; rw [h2 e he]; rfl
  have h4 : s.db.objects.any (fun e => !(cfg.list s.backend).contains e.1 && (AL.get s.backend e.1).isNone) = false := by
    rw [List.any_eq_false]; intro e he; rw [h2 e he]; decide
  rw [h3, h4, Bool.or_false]

theorem checkObjectsPhys_quiet {cfg : Cfg} {s s' : St} (h : checkObjectsPhys cfg s = some s')
    (hf : s'.found = false) : s' = s ∧ (Schema s.db → ∀ e ∈ s.db.objects, e.2.phys ≠ -1) := by
  obtain ⟨he, hall⟩ := iter_quiet (f := fixPhys cfg) (fun k t t' hk hf => by
    rcases fixPhys_some hk with h | ⟨o, d, _, _, _, rfl⟩
    · exact h
    · cases hf) h hf
  refine ⟨he, ?_⟩
  subst he
  intro hs e hm hp
  have h1 := hall e.1 (mem_keys.2 ⟨e.2, hm⟩)
  unfold fixPhys at h1
  rw [AL.mem_get_some hs.objects (k := e.1) (v := e.2) hm] at h1
  dsimp only at h1
  rw [if_pos hp] at h1
  split at h1
  · cases h1
  · have := congrArg St.found (Option.some.inj h1)
    rw [hf] at this
    cases this

theorem checkObjectsPhys_clean {cfg : Cfg} {s : St} (h : ∀ e ∈ s.db.objects, e.2.phys ≠ -1) : checkObjectsPhys cfg s = some s := by
  apply iter_same
  intro k hk
  unfold fixPhys
  split
  · rfl
  · rename_i r hr
    rw [if_neg (h _ (AL.get_some_mem hr))]

/-! #### Blocks -/

theorem checkBlocksObj_quiet {s s' : St} (h : checkBlocksObj s = some s') (hf : s'.found = false) :
    s' = s ∧ BlocksHaveObj s.db := by
  unfold checkBlocksObj at h
  obtain ⟨s1, h1, rfl⟩ := Option.map_eq_some_iff.1 h
  obtain ⟨hnil, he⟩ := iter_err (f := badBlock) (fun a t t' ht => by
    refine iter_inv (f := moveAffected) (fun t => t.found = true) ?_ ht rfl
    intro e _ v v' hv hf'
    rw [moveAffected_other hf']
    exact hv) h1 hf
  subst he
  refine ⟨?_, ?_⟩
  · dsimp only
    rw [filter_nil hnil (fun a => optNot _)]
  · intro e he
    exact hasOf (Bool.eq_false_iff.2 (List.filter_eq_nil_iff.1 hnil e he))

theorem checkBlocksObj_clean {s : St} (h : BlocksHaveObj s.db) : checkBlocksObj s = some s := by
  have hnil : s.db.blocks.filter (fun e => (AL.get s.db.objects e.2.obj).isNone) = [] :=
    nil_filter (fun e he => ofHas (h e he))
  unfold checkBlocksObj
  dsimp only
  rw [hnil]
  show some _ = some s
  dsimp only
  rw [filter_nil hnil (fun a => optNot _)]

theorem checkBlocksInode_quiet {s s' : St} (h : checkBlocksInode s = some s') (hf : s'.found = false) :
    s' = s ∧ BlocksHaveInode s.db := by
  unfold checkBlocksInode at h
  obtain ⟨s1, h1, rfl⟩ := Option.map_eq_some_iff.1 h
  obtain ⟨hnil, he⟩ := iter_err (f := unlinkBlock) (fun a t t' ht => by
    unfold unlinkBlock at ht; cases ht; rfl) h1 hf
  subst he
  refine ⟨?_, ?_⟩
  · dsimp only
    rw [filter_nil hnil (fun a => optNot _)]
  · intro e he
    exact hasOf (Bool.eq_false_iff.2 (List.filter_eq_nil_iff.1 hnil e he))

theorem checkBlocksInode_clean {s : St} (h : BlocksHaveInode s.db) : checkBlocksInode s = some s := by
  have hnil : s.db.blocks.filter (fun e => (AL.get s.db.inodes e.2.inode).isNone) = [] :=
    nil_filter (fun e he => ofHas (h e he))
  unfold checkBlocksInode
  dsimp only
  rw [hnil]
  show some _ = some s
  dsimp only
  rw [filter_nil hnil (fun a => optNot _)]

/-! #### Inodes -/

theorem checkInodesRefcount_quiet {s s' : St} (h : checkInodesRefcount s = some s') (hf : s'.found = false) :
    s' = s ∧ (Schema s.db → RefsOk s.db) := by
  have hq := iter_quiet (f := fixRef) (fun k t t' hk hf => by
    rcases fixRef_some hk with ⟨h, _⟩ | ⟨i, _, ⟨_, n, p, n', db, _, _, rfl⟩ | ⟨_, rfl⟩⟩
    · exact h
    · cases hf
    · cases hf) h hf
  have he := hq.1
  subst he
  exact ⟨rfl, fun hs => (checkInodesRefcount_step hs h).2.2.2.1⟩

theorem checkInodesRefcount_clean {s : St} (h : RefsOk s.db) : checkInodesRefcount s = some s := by
  apply iter_same
  intro w hw
  unfold wrongRefs at hw
  obtain ⟨e, he, hwe⟩ := List.mem_filterMap.1 hw
  split at hwe
  · rename_i hc
    have hw1 := congrArg Prod.fst (Option.some.inj hwe)
    dsimp only at hw1
    unfold fixRef
    by_cases hp : w.1 = rootInode ∨ w.1 = ctrlInode
    · rw [if_pos hp]
    · exfalso
      rw [← hw1] at hp
      have := h e he ⟨fun h => hp (Or.inl h), fun h => hp (Or.inr h)⟩
      rw [iCount_eq] at hc
      rcases hc with hc | hc
      · exact hc this.1
      · exact this.2 hc
  · cases hwe

theorem minSize_le {bs : Nat} {db : Db} (hs : Schema db) {id m : Nat} :
    minSize bs db id ≤ m ↔ ∀ b ∈ db.blocks, b.2.inode = id → ∀ o, (b.2.obj, o) ∈ db.objects → b.2.blockno * bs + o.length ≤ m := by
  unfold minSize
  induction db.blocks with
  | nil => simp
  | cons a t ih =>
    rw [List.foldr_cons]
    by_cases ha : a.2.inode = id
    · rw [if_pos ha]
      cases hg : AL.get db.objects a.2.obj with
      | none =>
        dsimp only
        rw [ih]
        constructor
        · intro h b hb hbi o ho
          rcases List.mem_cons.1 hb with rfl | hb
          · exact absurd (isSome_iff_mem.2 ⟨o, ho⟩) (by rw [hg]; decide)
          · exact h b hb hbi o ho
        · exact fun h b hb => h b (List.mem_cons_of_mem _ hb)
      | some o' =>
        dsimp only
        rw [Nat.max_le, ih]
        constructor
        · intro h b hb hbi o ho
          rcases List.mem_cons.1 hb with rfl | hb
          · have := AL.mem_get_some hs.objects ho
            rw [hg] at this
            cases this
            exact h.1
          · exact h.2 b hb hbi o ho
        · exact fun h => ⟨h a List.mem_cons_self ha o' (AL.get_some_mem hg), fun b hb => h b (List.mem_cons_of_mem _ hb)⟩
    · rw [if_neg ha, ih]
      constructor
      · intro h b hb hbi
        rcases List.mem_cons.1 hb with rfl | hb
        · exact absurd hbi ha
        · exact h b hb hbi
      · exact fun h b hb => h b (List.mem_cons_of_mem _ hb)

theorem checkInodesSize_quiet {cfg : Cfg} {s s' : St} (h : checkInodesSize cfg s = some s')
    (hf : s'.found = false) : s' = s ∧ (Schema s.db → SizesOk cfg.blockSize s.db) := by
  obtain ⟨he, hall⟩ := iter_quiet (f := fixSize cfg) (fun k t t' hk hf => by
    rcases fixSize_some hk with h | ⟨o, _, rfl⟩
    · exact h
    · cases hf) h hf
  refine ⟨he, ?_⟩
  subst he
  intro hs e hm
  have h1 := hall e.1 (mem_keys.2 ⟨e.2, hm⟩)
  unfold fixSize at h1
  rw [AL.mem_get_some hs.inodes (k := e.1) (v := e.2) hm] at h1
  dsimp only at h1
  apply (minSize_le hs).1
  apply Nat.le_of_not_lt
  intro hlt
  rw [if_pos hlt] at h1
  split at h1
  · have := congrArg St.found (Option.some.inj h1)
    rw [hf] at this
    cases this
  · cases h1

theorem checkInodesSize_clean {cfg : Cfg} {s : St} (hs : Schema s.db) (h : SizesOk cfg.blockSize s.db) :
    checkInodesSize cfg s = some s := by
  apply iter_same
  intro k hk
  unfold fixSize
  split
  · rfl
  · rename_i i hi
    have := (minSize_le hs).2 (h (k, i) (AL.get_some_mem hi))
    rw [if_neg (Nat.not_lt.2 this)]

theorem checkXattrName_quiet {s s' : St} (h : checkXattrName s = some s') (hf : s'.found = false) :
    s' = s ∧ (Schema s.db → XattrsHaveName s.db) := by
  have key : ∀ k t t', fixAttrName k t = some t' → t'.found = false → t' = t ∧ ∀ x, AL.get t.db.xattrs k = some x → HasName t.db x.nameId := by
    intro k t t' hk hf
    unfold fixAttrName at hk
    split at hk
    · rename_i hg
      cases hk; exact ⟨rfl, fun x hx => by rw [hg] at hx; cases hx⟩
    · rename_i x hg
      split at hk
      · rename_i hn
        cases hk
        refine ⟨rfl, fun y hy => ?_⟩
        rw [hg] at hy; cases hy
        exact isSome_iff_mem.1 hn
      · split at hk
        · split at hk
          · cases hk
          · cases hk; cases hf
        · cases hk
  obtain ⟨he, hall⟩ := iter_quiet (f := fixAttrName) (fun k t t' hk hf => (key k t t' hk hf).1) h hf
  refine ⟨he, ?_⟩
  subst he
  intro hs e hm
  exact (key e.1 s' s' (hall e.1 (mem_keys.2 ⟨e.2, hm⟩)) hf).2 e.2 (AL.mem_get_some hs.xattrs hm)

theorem checkXattrName_clean {s : St} (h : XattrsHaveName s.db) : checkXattrName s = some s := by
  apply iter_same
  intro k hk
  unfold fixAttrName
  split
  · rfl
  · rename_i x hx
    rw [if_pos (isSome_iff_mem.2 (h _ (AL.get_some_mem hx)))]

theorem checkXattrInode_quiet {s s' : St} (h : checkXattrInode s = some s') (hf : s'.found = false) :
    s' = s ∧ XattrsHaveInode s.db := by
  unfold checkXattrInode at h
  obtain ⟨s1, h1, rfl⟩ := Option.map_eq_some_iff.1 h
  obtain ⟨hnil, he⟩ := iter_err (f := dropAttr) (fun a t t' ht => by
    unfold dropAttr at ht; cases ht; rfl) h1 hf
  subst he
  refine ⟨?_, ?_⟩
  · dsimp only
    rw [filter_nil hnil (fun a => optNot _)]
  · intro e he
    exact hasOf (Bool.eq_false_iff.2 (List.filter_eq_nil_iff.1 hnil e he))

theorem checkXattrInode_clean {s : St} (h : XattrsHaveInode s.db) : checkXattrInode s = some s := by
  have hnil : s.db.xattrs.filter (fun e => (AL.get s.db.inodes e.2.inode).isNone) = [] :=
    nil_filter (fun e he => ofHas (h e he))
  unfold checkXattrInode
  dsimp only
  rw [hnil]
  show some _ = some s
  dsimp only
  rw [filter_nil hnil (fun a => optNot _)]

theorem checkSymlinks_clean {s : St} (h : SymlinksHaveInode s.db) : checkSymlinks s = s := by
  have hnil : s.db.symlinks.filter (fun e => (AL.get s.db.inodes e.1).isNone) = [] :=
    nil_filter (fun e he => ofHas (h e he))
  unfold checkSymlinks
  rw [filter_nil hnil (fun a => optNot _)]
  have : s.db.symlinks.any (fun e => (AL.get s.db.inodes e.1).isNone) = false := by
    rw [List.any_eq_false]; intro e he; rw [ofHas (h e he)]; decide
  rw [this, Bool.or_false]

theorem checkSymlinks_quiet {s : St} (h : (checkSymlinks s).found = false) : checkSymlinks s = s ∧ SymlinksHaveInode s.db := by
  have hx : SymlinksHaveInode s.db := by
    intro e he
    unfold checkSymlinks at h
    simp only [Bool.or_eq_false_iff, List.any_eq_false] at h
    exact hasOf (Bool.eq_false_iff.2 (h.2 e he))
  exact ⟨checkSymlinks_clean hx, hx⟩

end Verif.Fsck
