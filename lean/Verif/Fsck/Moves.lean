/-
The checks that move directory entries to lost+found.
-/
import Verif.Fsck.Names

namespace Verif.Fsck
open Verif.Fs (Bytes Inode rootInode ctrlInode)

/-- The rowid and the inode of every entry. -/
def col (db : Db) : List (Nat × Nat) := db.contents.map (fun e => (e.1, e.2.inode))

/-- Only names and entries change; entries keep their inode, and go to another place only below an inode that has an
entry. -/
def Moved (db db' : Db) : Prop :=
  db' = { db with names := db'.names, contents := db'.contents } ∧ col db' = col db ∧
    ∀ e ∈ db'.contents, (∃ f ∈ db.contents, f.2.parent = e.2.parent) ∨ (∃ f ∈ db.contents, f.2.inode = e.2.parent)

theorem Moved.refl (db : Db) : Moved db db := ⟨rfl, rfl, fun e he => Or.inl ⟨e, he, rfl⟩⟩

theorem mem_col {db : Db} {k i : Nat} : (k, i) ∈ col db ↔ ∃ r, (k, r) ∈ db.contents ∧ r.inode = i := by
  unfold col
  rw [List.mem_map]
  constructor
  · rintro ⟨e, he, h⟩
    cases h
    exact ⟨e.2, he, rfl⟩
  · rintro ⟨r, hr, rfl⟩
    exact ⟨_, hr, rfl⟩

theorem col_mem {db db' : Db} (h : col db' = col db) {e : Nat × CRow} (he : e ∈ db'.contents) :
    ∃ f ∈ db.contents, f.1 = e.1 ∧ f.2.inode = e.2.inode := by
  have : (e.1, e.2.inode) ∈ col db' := mem_col.2 ⟨e.2, he, rfl⟩
  rw [h] at this
  obtain ⟨r, h1, h2⟩ := mem_col.1 this
  exact ⟨_, h1, rfl, h2⟩

theorem Moved.trans {a b c : Db} (h1 : Moved a b) (h2 : Moved b c) : Moved a c := by
  refine ⟨?_, h2.2.1.trans h1.2.1, ?_⟩
  · have := h2.1
    rw [h1.1] at this
    rw [this]
  · intro e he
    rcases h2.2.2 e he with ⟨f, hf, h⟩ | ⟨f, hf, h⟩
    · rw [← h]; exact h1.2.2 f hf
    · obtain ⟨g, hg, _, h3⟩ := col_mem h1.2.1 hf
      exact Or.inr ⟨g, hg, h3.trans h⟩

theorem Moved.entriesHaveInode {db db' : Db} (h : Moved db db') (hi : EntriesHaveInode db) : EntriesHaveInode db' := by
  intro e he
  obtain ⟨f, hf, _, h2⟩ := col_mem h.2.1 he
  have := hi f hf
  rw [h2] at this
  rw [h.1]
  exact this

theorem Moved.entriesHaveParent {db db' : Db} (h : Moved db db') (hi : EntriesHaveInode db)
    (hp : EntriesHaveParent db) : EntriesHaveParent db' := by
  intro e he
  have : HasInode db e.2.parent := by
    rcases h.2.2 e he with ⟨f, hf, h⟩ | ⟨f, hf, h⟩
    · rw [← h]; exact hp f hf
    · rw [← h]; exact hi f hf
  rw [h.1]
  exact this

theorem col_set {db : Db} {k : Nat} {r r' : CRow} (h : AL.get db.contents k = some r) (hi : r'.inode = r.inode) :
    col { db with contents := AL.set db.contents k r' } = col db := by
  obtain ⟨a, b, h1, h2⟩ := set_existing r' h
  unfold col
  dsimp only
  rw [h2, h1]
  simp [hi]

theorem Moved.names {db : Db} (names : List (Nat × NRow)) : Moved db { db with names := names } :=
  ⟨rfl, rfl, fun e he => Or.inl ⟨e, he, rfl⟩⟩

theorem Moved.addName {db : Db} (hn : AL.NK db.names) (x : Bool) (n : Bytes) : Moved db (db.addName x n).1 := by
  rw [addName_other hn]; exact Moved.names _

theorem Moved.delName (db : Db) (k : Nat) : Moved db (db.delName k) := by
  rw [delName_other]; exact Moved.names _

theorem Moved.put {db db' : Db} (hs : Schema db) {k : Nat} {r r' : CRow} (hg : AL.get db.contents k = some r)
    (hi : r'.inode = r.inode) (hp : ∃ f ∈ db.contents, f.2.inode = r'.parent ∨ f.2.parent = r'.parent)
    (h : db.putEntry k r' = some db') : Moved db db' := by
  obtain ⟨rfl, _⟩ := putEntry_some h
  refine ⟨rfl, col_set hg hi, ?_⟩
  intro e he
  rcases (mem_set hs.contents).1 he with rfl | ⟨he, _⟩
  · obtain ⟨f, hf, h | h⟩ := hp
    · exact Or.inr ⟨f, hf, h⟩
    · exact Or.inl ⟨f, hf, h⟩
  · exact Or.inl ⟨e, he, rfl⟩

theorem moveRows_moved {p nid : Nat} {l : List Nat} {db db' : Db} (hs : Schema db)
    (hp : ∃ f ∈ db.contents, f.2.inode = p)
    (h : db.moveRows (fun x => { x with parent := p, nameId := nid }) l = some db') : Moved db db' := by
  induction l generalizing db with
  | nil => cases h; exact Moved.refl _
  | cons k t ih =>
    unfold Db.moveRows at h
    cases hg : AL.get db.contents k with
    | none => rw [hg] at h; exact ih hs hp h
    | some r =>
      rw [hg] at h
      dsimp only at h
      cases hq : db.putEntry k { r with parent := p, nameId := nid } with
      | none => rw [hq] at h; cases h
      | some d =>
        rw [hq] at h
        have m : Moved db d := Moved.put (r' := { r with parent := p, nameId := nid }) hs hg rfl (hp.imp fun f hf => ⟨hf.1, Or.inl hf.2⟩) hq
        refine m.trans (ih (hs.putEntry (row_le hs hg) hq) ?_ h)
        obtain ⟨f, hf, hfp⟩ := hp
        obtain ⟨g, hg', _, h3⟩ := col_mem (m.2.1.symm) hf
        exact ⟨g, hg', h3.trans hfp⟩

theorem resolveFree_entry {db : Db} {n n' : Bytes} {p : Nat} (h : db.resolveFree n = some (p, n')) :
    ∃ f ∈ db.contents, f.2.inode = p := by
  obtain ⟨⟨e, he, h2⟩, _⟩ := resolveFree_spec h
  exact ⟨e, (entry_spec he).1, h2⟩

/-- The effect of the body of check_contents_name, if there is one. -/
theorem fixName_some {k : Nat} {s s' : St} (h : fixName k s = some s') :
    (s' = s ∧ (∀ r, AL.get s.db.contents k = some r → HasName s.db r.nameId)) ∨
      ∃ r n0 p n db, AL.get s.db.contents k = some r ∧ ¬ HasName s.db r.nameId ∧
        s.db.resolveFree n0 = some (p, n) ∧
        (s.db.addName false n).1.putEntry k { r with nameId := (s.db.addName false n).2, parent := p } = some db ∧
        s' = { s.err with db := db } := by
  unfold fixName at h
  cases hg : AL.get s.db.contents k with
  | none => rw [hg] at h; cases h; exact Or.inl ⟨rfl, fun r hr => by cases hr⟩
  | some r =>
    rw [hg] at h
    dsimp only at h
    split at h
    · rename_i hn
      cases h
      refine Or.inl ⟨rfl, fun r' hr => ?_⟩
      cases hr
      exact isSome_iff_mem.1 hn
    · rename_i hn
      right
      have key : ∀ n0, (match s.db.resolveFree n0 with
          | none => none
          | some (p, n) =>
            match (s.db.addName false n).1.putEntry k { r with nameId := (s.db.addName false n).2, parent := p } with
            | none => none
            | some db => some { s.err with db := db }) = some s' →
          ∃ r' n0 p n db, some r = some r' ∧ ¬ HasName s.db r'.nameId ∧ s.db.resolveFree n0 = some (p, n) ∧
            (s.db.addName false n).1.putEntry k { r' with nameId := (s.db.addName false n).2, parent := p } = some db ∧
            s' = { s.err with db := db } := by
        intro n0 hh
        cases hr : s.db.resolveFree n0 with
        | none => rw [hr] at hh; cases hh
        | some x =>
          obtain ⟨p, n⟩ := x
          rw [hr] at hh
          dsimp only at hh
          cases hq : (s.db.addName false n).1.putEntry k { r with nameId := (s.db.addName false n).2, parent := p } with
          | none => rw [hq] at hh; cases hh
          | some d =>
            rw [hq] at hh
            refine ⟨r, n0, p, n, d, rfl, fun hc => hn (isSome_iff_mem.2 hc), hr, hq, ?_⟩
            exact (Option.some.inj hh).symm
      split at h
      · cases h
      · exact key _ h
      · exact key _ h

theorem get_addName_contents {db : Db} (hn : AL.NK db.names) (x : Bool) (n : Bytes) :
    (db.addName x n).1.contents = db.contents := by rw [addName_other hn]

theorem addName_cseq {db : Db} (hn : AL.NK db.names) (x : Bool) (n : Bytes) :
    (db.addName x n).1.cseq = db.cseq := by rw [addName_other hn]

theorem delName_contents (db : Db) (k : Nat) : (db.delName k).contents = db.contents := by rw [delName_other]
theorem delName_cseq (db : Db) (k : Nat) : (db.delName k).cseq = db.cseq := by rw [delName_other]

/-- Adding a name and moving one entry there. -/
theorem relocate {db db' : Db} (hs : Schema db) {k : Nat} {r : CRow} {n0 n : Bytes} {p : Nat}
    (hg : AL.get db.contents k = some r) (hr : db.resolveFree n0 = some (p, n))
    (hq : (db.addName false n).1.putEntry k { r with nameId := (db.addName false n).2, parent := p } = some db') :
    Schema db' ∧ Moved db db' ∧
      db' = { db with names := (db.addName false n).1.names, contents := AL.set db.contents k { r with nameId := (db.addName false n).2, parent := p } } := by
  have hs1 := hs.addName false n
  have hg1 : AL.get (db.addName false n).1.contents k = some r := by rw [get_addName_contents hs.names]; exact hg
  refine ⟨hs1.putEntry (row_le hs1 hg1) hq, ?_, ?_⟩
  · refine (Moved.addName hs.names false n).trans (Moved.put (r' := { r with nameId := (db.addName false n).2, parent := p }) hs1 hg1 rfl ?_ hq)
    obtain ⟨f, hf, h⟩ := resolveFree_entry hr
    exact ⟨f, by rw [get_addName_contents hs.names]; exact hf, Or.inl h⟩
  · obtain ⟨h1, _⟩ := putEntry_some hq
    rw [h1, get_addName_contents hs.names, addName_other hs.names]

theorem fixName_step {k : Nat} {s s' : St} (hs : Schema s.db) (h : fixName k s = some s') :
    Schema s'.db ∧ Moved s.db s'.db := by
  rcases fixName_some h with ⟨rfl, _⟩ | ⟨r, n0, p, n, db, hg, _, hr, hq, rfl⟩
  · exact ⟨hs, Moved.refl _⟩
  · obtain ⟨h1, h2, _⟩ := relocate hs hg hr hq
    exact ⟨h1, h2⟩

theorem checkContentsName_moved {s s' : St} (hs : Schema s.db) (h : checkContentsName s = some s') :
    Schema s'.db ∧ Moved s.db s'.db :=
  iter_inv (fun t => Schema t.db ∧ Moved s.db t.db)
    (fun _ _ t t' ht hf => by
      obtain ⟨a, b⟩ := fixName_step ht.1 hf
      exact ⟨a, ht.2.trans b⟩) h ⟨hs, Moved.refl _⟩

/-- Reference counts are exact for existing names; no entry or attribute has a name id above the largest id. -/
def NK1 (db : Db) : Prop := ∀ k, HasName db k ∨ maxKey db.names < k → nref db k = (usesOfName db k : Nat)

theorem maxKey_set_ge (l : List (Nat × NRow)) (k : Nat) (v : NRow) : maxKey l ≤ maxKey (AL.set l k v) := by
  cases h : AL.get l k with
  | some old => rw [maxKey_keys (keys_set v h)]; exact Nat.le_refl _
  | none => rw [set_new v h, maxKey_append]; exact Nat.le_max_left _ _

theorem maxKey_addName {db : Db} (hn : AL.NK db.names) (x : Bool) (n : Bytes) :
    maxKey db.names ≤ maxKey (db.addName x n).1.names ∧ (db.addName x n).2 ≤ maxKey (db.addName x n).1.names := by
  constructor
  · rcases addName_get hn x n with ⟨r, h1, h2, h3, h4⟩ | ⟨h1, h2, h3⟩
    · rw [h4]; exact maxKey_set_ge _ _ _
    · rw [h3]; exact maxKey_set_ge _ _ _
  · obtain ⟨r, hr⟩ := hasName_added hn x n
    exact le_maxKey hr

/-- Names that exist after `_add_name`. -/
theorem hasName_of_added {db : Db} (hn : AL.NK db.names) {x : Bool} {n : Bytes} {k : Nat}
    (h : HasName (db.addName x n).1 k) : HasName db k ∨ (k = (db.addName x n).2 ∧ maxKey db.names < k) ∨
      (k = (db.addName x n).2 ∧ HasName db k) := by
  have h' := isSome_iff_mem.2 h
  rcases addName_get hn x n with ⟨r, h1, h2, h3, h4⟩ | ⟨h1, h2, h3⟩
  · rw [h4] at h'
    simp only [AL.get_set] at h'
    split at h'
    · rename_i hk
      exact Or.inr (Or.inr ⟨hk, isSome_iff_mem.1 (by rw [hk, h1]; rfl)⟩)
    · exact Or.inl (isSome_iff_mem.1 h')
  · rw [h3] at h'
    simp only [AL.get_set] at h'
    split at h'
    · rename_i hk
      exact Or.inr (Or.inl ⟨by rw [h2]; exact hk, by omega⟩)
    · exact Or.inl (isSome_iff_mem.1 h')

theorem fixName_NK1 {k : Nat} {s s' : St} (hs : Schema s.db) (h : fixName k s = some s') (hn : NK1 s.db) : NK1 s'.db := by
  rcases fixName_some h with ⟨rfl, _⟩ | ⟨r, n0, p, n, db, hg, hno, hr, hq, rfl⟩
  · exact hn
  · obtain ⟨_, _, h3⟩ := relocate hs hg hr hq
    subst h3
    intro j hj
    have hj' : HasName (s.db.addName false n).1 j ∨ maxKey (s.db.addName false n).1.names < j := hj
    obtain ⟨m1, m2⟩ := maxKey_addName hs.names false n
    have hold : HasName s.db j ∨ maxKey s.db.names < j := by
      rcases hj' with hj' | hj'
      · rcases hasName_of_added hs.names hj' with h | ⟨_, h⟩ | ⟨_, h⟩
        · exact Or.inl h
        · exact Or.inr h
        · exact Or.inl h
      · exact Or.inr (by omega)
    have h0 := hn j hold
    have hne : j ≠ r.nameId := by
      intro hc
      subst hc
      rcases hold with h | h
      · exact hno h
      · have h1 := hn r.nameId (Or.inr h)
        have hu : 0 < usesOfName s.db r.nameId := uses_pos_c (AL.get_some_mem hg)
        have : nref s.db r.nameId = 0 := by unfold nref; rw [get_fresh _ h]
        omega
    have hu := uses_set (db := s.db) (r' := { r with nameId := (s.db.addName false n).2, parent := p }) hg j
    have hr' : nref (s.db.addName false n).1 j = nref s.db j + one (s.db.addName false n).2 j := nref_addName hs.names false n j
    have e1 : one r.nameId j = 0 := if_neg hne
    unfold usesOfName at hu h0 ⊢
    unfold nref at hr' h0 ⊢
    dsimp only at hu hr' ⊢
    omega

theorem checkNamesRefcount_uses (s : St) (k : Nat) : usesOfName (checkNamesRefcount s).db k = usesOfName s.db k := rfl

theorem cCount_eq (db : Db) (k : Nat) : cCount db k = db.contents.countP (fun e => decide (e.2.nameId = k)) := by
  unfold cCount
  rw [List.countP_eq_length_filter]
  congr 2

theorem xCount_eq (db : Db) (k : Nat) : xCount db k = db.xattrs.countP (fun e => decide (e.2.nameId = k)) := by
  unfold xCount
  rw [List.countP_eq_length_filter]
  congr 2

/-- After check_names_refcount the counts of existing names are exact. -/
theorem checkNamesRefcount_exact (s : St) : NameRefsExact (checkNamesRefcount s).db := by
  intro e he
  unfold checkNamesRefcount at he ⊢
  dsimp only at he ⊢
  obtain ⟨f, hf, rfl⟩ := List.mem_map.1 he
  dsimp only
  unfold usesOfName
  rw [cCount_eq, xCount_eq]

theorem checkNamesRefcount_NK1 {s : St} (hs : Schema s.db)
    (hm : ∀ k, 0 < usesOfName s.db k → k ≤ maxKey s.db.names) : NK1 (checkNamesRefcount s).db := by
  have hs' := checkNamesRefcount_schema hs
  intro k hk
  have hmk : maxKey (checkNamesRefcount s).db.names = maxKey s.db.names := by
    apply maxKey_keys
    unfold checkNamesRefcount keys
    simp
  by_cases h : HasName (checkNamesRefcount s).db k
  · obtain ⟨r, hr⟩ := h
    have := checkNamesRefcount_exact s _ hr
    unfold nref
    rw [AL.mem_get_some hs'.names hr]
    exact this
  · have hgt : maxKey s.db.names < k := by
      rcases hk with hk | hk
      · exact absurd hk h
      · omega
    have h0 : usesOfName s.db k = 0 := by
      by_cases hp : 0 < usesOfName s.db k
      · have := hm k hp; omega
      · omega
    have : nref (checkNamesRefcount s).db k = 0 := by
      unfold nref
      rw [get_fresh _ (by omega)]
    rw [this, checkNamesRefcount_uses, h0]
    rfl

/-- After check_contents_name every entry has a name. -/
theorem checkContentsName_names {s s' : St} (hs : Schema s.db) (h : checkContentsName s = some s') :
    EntriesHaveName s'.db := by
  have hm := checkContentsName_moved hs h
  have := iter_each (f := fixName) (fun t => Schema t.db)
    (fun k t => ∀ r, AL.get t.db.contents k = some r → HasName t.db r.nameId)
    (fun _ _ t t' ht hf => (fixName_step ht hf).1)
    (fun k _ t t' ht hf r hr => by
      rcases fixName_some hf with ⟨rfl, hv⟩ | ⟨r0, n0, p, n, db, hg, _, hrf, hq, rfl⟩
      · exact hv r hr
      · obtain ⟨_, _, h3⟩ := relocate ht hg hrf hq
        subst h3
        dsimp only at hr ⊢
        rw [AL.get_set_self] at hr
        cases hr
        exact hasName_added ht.names false n)
    (fun k _ j t t' ht hf hq r hr => by
      rcases fixName_some hf with ⟨rfl, hv⟩ | ⟨r0, n0, p, n, db, hg, _, hrf, hpe, rfl⟩
      · exact hq r hr
      · obtain ⟨_, _, h3⟩ := relocate ht hg hrf hpe
        subst h3
        dsimp only at hr ⊢
        rw [AL.get_set] at hr
        split at hr
        · cases hr; exact hasName_added ht.names false n
        · exact hasName_addName ht.names false n (hq r hr))
    h hs
  intro e he
  have hk : e.1 ∈ keys s.db.contents := by
    obtain ⟨f, hf, h1, _⟩ := col_mem hm.2.2.1 he
    exact mem_keys.2 ⟨f.2, by rw [← h1]; exact hf⟩
  exact this e.1 hk e.2 (AL.mem_get_some hm.1.contents he)

theorem checkContentsName_exact {s s' : St} (hs : Schema s.db) (h : checkContentsName s = some s') (hn : NK1 s.db)
    (hx : XattrsHaveName s.db) : NExact s'.db := by
  have hm := checkContentsName_moved hs h
  have h2 := iter_inv (f := fixName) (fun t => Schema t.db ∧ NK1 t.db ∧ XattrsHaveName t.db)
    (fun k _ t t' ht hf => by
      refine ⟨(fixName_step ht.1 hf).1, fixName_NK1 ht.1 hf ht.2.1, ?_⟩
      rcases fixName_some hf with ⟨rfl, hv⟩ | ⟨r0, n0, p, n, db, hg, _, hrf, hpe, rfl⟩
      · exact ht.2.2
      · obtain ⟨_, _, h3⟩ := relocate ht.1 hg hrf hpe
        subst h3
        intro e he
        exact hasName_addName ht.1.names false n (ht.2.2 e he)) h ⟨hs, hn, hx⟩
  refine NExact.of ?_ (checkContentsName_names hs h) h2.2.2
  intro e he
  have := h2.2.1 e.1 (Or.inl ⟨e.2, he⟩)
  unfold nref at this
  rw [AL.mem_get_some h2.1.names (k := e.1) (v := e.2) he] at this
  exact this

end Verif.Fsck
