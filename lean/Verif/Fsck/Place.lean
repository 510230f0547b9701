/-
C79: what a run of fsck moves, what it leaves where it is, and how it names what it moves.
-/
import Verif.Fsck.Keep

namespace Verif.Fsck
open Verif.Fs (Bytes Inode rootInode ctrlInode isDir sIFMT)

/-! #### Specification -/

/-- A name that can be used in a path: not empty, without `/` and without the byte zero, and neither `.` nor `..`. -/
structure NameOk (n : Bytes) : Prop where
  some : n ≠ []
  slash : (47 : UInt8) ∉ n
  zero : (0 : UInt8) ∉ n
  dot : n ≠ [46]
  dots : n ≠ [46, 46]

/-- The number `j` of the table of names is the name `n`. -/
def NameIs (db : Db) (j : Nat) (x : Bool) (n : Bytes) : Prop := ∃ c, (j, (⟨x, n, c⟩ : NRow)) ∈ db.names

/-- All entries have usable names. -/
def NamesOk (db : Db) : Prop := ∀ e ∈ db.contents, ∀ x n, NameIs db e.2.nameId x n → NameOk n

/-- Conditions on one directory entry: the directory it is in, its name and the inode it leads to exist; all blocks of the
inode are stored, also those that are still in the cache; it is not an entry `lost+found` that leads to something else
than a directory; the inode is not in itself; a directory has no other entry. -/
structure EntryOk (cfg : Cfg) (s : St) (e : Nat × CRow) : Prop where
  row : e ∈ s.db.contents
  name : HasName s.db e.2.nameId
  parent : HasInode s.db e.2.parent
  inode : HasInode s.db e.2.inode
  stored : ∀ b ∈ s.db.blocks, b.2.inode = e.2.inode → ∃ x, BlockStored cfg s e.2.inode b.2.blockno x
  cached : ∀ b d, CFile.blk e.2.inode b d ∈ s.cache → HashStored cfg s (cfg.sha d)
  lof : ¬ FalseLof s.db e.2
  self : ∀ f ∈ s.db.contents, f.2.inode = e.2.inode → f.2.parent ≠ f.2.inode
  one : (∃ i, (e.2.inode, i) ∈ s.db.inodes ∧ isDir i.mode = true) ∨ (∃ f ∈ s.db.contents, f.2.parent = e.2.inode) →
    ∀ f ∈ s.db.contents, f.2.inode = e.2.inode → f = e

/-- The entry, and all entries on the path from the root to it, meet these conditions. -/
inductive InPlace (cfg : Cfg) (s : St) : Nat × CRow → Prop
  | top {e : Nat × CRow} : EntryOk cfg s e → e.2.parent = rootInode → InPlace cfg s e
  | under {e f : Nat × CRow} : EntryOk cfg s e → InPlace cfg s f → f.2.inode = e.2.parent → InPlace cfg s e

theorem InPlace.ok {cfg : Cfg} {s : St} {e : Nat × CRow} (h : InPlace cfg s e) : EntryOk cfg s e := by
  cases h <;> assumption

/-! #### Names in the tables -/

theorem NameIs.has {db : Db} {j : Nat} {x : Bool} {n : Bytes} (h : NameIs db j x n) : HasName db j := by
  obtain ⟨c, h⟩ := h; exact ⟨_, h⟩

theorem HasName.is {db : Db} {j : Nat} (h : HasName db j) : ∃ x n, NameIs db j x n := by
  obtain ⟨⟨x, n, c⟩, h⟩ := h; exact ⟨x, n, c, h⟩

theorem NameIs.unique {db : Db} (hn : AL.NK db.names) {j : Nat} {x y : Bool} {n m : Bytes} (h1 : NameIs db j x n) (h2 : NameIs db j y m) :
    x = y ∧ n = m := by
  obtain ⟨c, h1⟩ := h1
  obtain ⟨d, h2⟩ := h2
  have a := AL.mem_get_some hn h1
  rw [AL.mem_get_some hn h2] at a
  cases a
  exact ⟨rfl, rfl⟩

theorem NameIs.names {a b : Db} (h : b.names = a.names) {j : Nat} {x : Bool} {n : Bytes} : NameIs b j x n ↔ NameIs a j x n := by
  unfold NameIs; rw [h]

theorem nameIs_delName {db : Db} (hn : AL.NK db.names) {m j : Nat} {x : Bool} {n : Bytes} (h : NameIs (db.delName m) j x n) : NameIs db j x n := by
  obtain ⟨c, h⟩ := h
  obtain ⟨⟨y, n', c'⟩, h1, h2, h3⟩ := delName_mem hn h
  cases h2; cases h3
  exact ⟨c', h1⟩

theorem nameIs_dropAll {db : Db} (hs : Schema db) {l : List Nat} {j : Nat} {x : Bool} {n : Bytes} (h : NameIs (dropAll db l) j x n) : NameIs db j x n := by
  induction l generalizing db with
  | nil => exact h
  | cons k t ih => exact nameIs_delName hs.names (ih (hs.delName k) h)

theorem nameIs_add {db : Db} (hn : AL.NK db.names) {y : Bool} {m : Bytes} {j : Nat} {x : Bool} {n : Bytes} (h : NameIs db j x n) : NameIs (db.addName y m).1 j x n := by
  obtain ⟨c, h⟩ := h
  obtain ⟨⟨x', n', c'⟩, h1, h2, h3⟩ := addName_mem hn y m h
  cases h2; cases h3
  exact ⟨c', h1⟩

theorem nameIs_of_add {db : Db} (hn : AL.NK db.names) {y : Bool} {m : Bytes} {j : Nat} {x : Bool} {n : Bytes} (h : NameIs (db.addName y m).1 j x n) :
    NameIs db j x n ∨ (j = maxKey db.names + 1 ∧ (db.addName y m).2 = j ∧ x = y ∧ n = m) := by
  obtain ⟨c, h⟩ := h
  rcases addName_get hn y m with ⟨r, h1, h2, h3, h4⟩ | ⟨h1, h2, h3⟩
  · rw [h4] at h
    rcases (mem_set hn).1 h with h | ⟨h, _⟩
    · have a := (Prod.mk.inj h).1
      have b := (Prod.mk.inj h).2
      left
      have c1 := congrArg NRow.text b
      have c2 := congrArg NRow.name b
      dsimp only at c1 c2
      subst c1; subst c2
      refine ⟨r.refcount, ?_⟩
      rw [a]
      exact AL.get_some_mem h1
    · exact Or.inl ⟨c, h⟩
  · rw [h3] at h
    rcases (mem_set hn).1 h with h | ⟨h, _⟩
    · have a := (Prod.mk.inj h).1
      have b := (Prod.mk.inj h).2
      cases b
      exact Or.inr ⟨a, by rw [h2, a], rfl, rfl⟩
    · exact Or.inl ⟨c, h⟩

theorem nameIs_added {db : Db} (hn : AL.NK db.names) (m : Bytes) : NameIs (db.addName false m).1 (db.addName false m).2 false m := by
  obtain ⟨⟨x, n, c⟩, h1, h2, h3⟩ := addName_has hn false m
  cases h2; cases h3
  exact ⟨c, h1⟩

theorem lof_mem {db : Db} (hs : Schema db) {L : Nat} (h : Lof db L) {f : Nat × CRow} (hf : f ∈ db.contents) (hp : f.2.parent = rootInode)
    (hn : NameIs db f.2.nameId false lofName) : f.2.inode = L := by
  obtain ⟨c, hc⟩ := hn
  have := entry_mem hs hf hc rfl
  rw [hp] at this
  exact h f this

/-! #### Moving one entry -/

/-- Row `k` is moved to a free place in lost+found, or inserted there; all other rows keep their names. -/
structure Reloc (G : Prop) (a b : Db) (k : Nat) : Prop where
  row : ∃ r n0 n, a.resolveFree n0 = some (r.parent, n) ∧ b.contents = AL.set a.contents k r ∧ NameIs b r.nameId false n ∧
    (G → NamesOk a → NameOk n0) ∧ ((∃ q, (k, q) ∈ a.contents ∧ q.inode = r.inode) ∨ ∀ f ∈ a.contents, f.2.inode ≠ r.inode)
  same : ∀ f ∈ a.contents, f.1 ≠ k → ∀ x n, NameIs a f.2.nameId x n ↔ NameIs b f.2.nameId x n

/-- The places of entries during the run.  `a` are the tables after the first check. -/
structure Places (G : Prop) (fine : Nat × CRow → Prop) (a t : Db) (L : Nat) : Prop where
  lof : Lof t L
  names : G → NamesOk t
  place : ∀ f ∈ t.contents, (f ∈ a.contents ∧ ∀ x n, NameIs a f.2.nameId x n ↔ NameIs t f.2.nameId x n) ∨ f.2.parent = L
  stay : ∀ e, fine e → e ∈ t.contents ∧ ∀ x n, NameIs a e.2.nameId x n ↔ NameIs t e.2.nameId x n
  uniq : ∀ e, fine e → (∀ f ∈ a.contents, f.2.inode = e.2.inode → f.1 = e.1) → ∀ f ∈ t.contents, f.2.inode = e.2.inode → f.1 = e.1

theorem Places.keepRows {G : Prop} {fine : Nat × CRow → Prop} {a t t' : Db} {L : Nat} (h : Places G fine a t L) (hs : Schema t)
    (hc : ∀ f ∈ t'.contents, f ∈ t.contents) (hc' : ∀ e, fine e → e ∈ t'.contents)
    (hn : ∀ f ∈ t'.contents, ∀ x n, NameIs t f.2.nameId x n ↔ NameIs t' f.2.nameId x n) : Places G fine a t' L := by
  refine ⟨?_, ?_, ?_, ?_, ?_⟩
  · intro e he
    obtain ⟨h1, h2, ⟨x, n, c⟩, h3, h4, h5⟩ := entry_spec he
    cases h4; cases h5
    exact lof_mem hs h.lof (hc e h1) h2 ((hn e h1 _ _).2 ⟨c, h3⟩)
  · intro g e he x n hx
    exact h.names g e (hc e he) x n ((hn e he x n).2 hx)
  · intro f hf
    rcases h.place f (hc f hf) with ⟨h1, h2⟩ | h1
    · exact Or.inl ⟨h1, fun x n => (h2 x n).trans (hn f hf x n)⟩
    · exact Or.inr h1
  · intro e he
    exact ⟨hc' e he, fun x n => ((h.stay e he).2 x n).trans (hn e (hc' e he) x n)⟩
  · intro e he hu f hf
    exact h.uniq e he hu f (hc f hf)

/-! #### The names that fsck makes -/

theorem decRev_digits (fuel n : Nat) : ∀ c ∈ decRev fuel n, (48 : UInt8) ≤ c ∧ c ≤ 57 := by
  have key : ∀ m : Nat, m < 10 → (48 : UInt8) ≤ (48 + m).toUInt8 ∧ (48 + m).toUInt8 ≤ 57 := by decide
  induction fuel generalizing n with
  | zero => intro c hc; cases hc
  | succ f ih =>
    intro c hc
    unfold decRev at hc
    split at hc
    · rename_i h
      rw [List.mem_singleton.1 hc]
      exact key n h
    · rcases List.mem_cons.1 hc with rfl | hc
      · exact key (n % 10) (Nat.mod_lt _ (by decide))
      · exact ih _ c hc

theorem dec_digits (n : Nat) : ∀ c ∈ dec n, (48 : UInt8) ≤ c ∧ c ≤ 57 := by
  intro c hc
  exact decRev_digits _ _ c (List.mem_reverse.1 hc)

theorem dec_plain (n : Nat) : (47 : UInt8) ∉ dec n ∧ (0 : UInt8) ∉ dec n := by
  constructor <;> intro h <;> have := (dec_digits n _ h).1 <;> revert this <;> decide

theorem nameOk_of {n : Bytes} {c : UInt8} (hc : c ∈ n) (h46 : c ≠ 46) (h1 : (47 : UInt8) ∉ n) (h2 : (0 : UInt8) ∉ n) : NameOk n := by
  refine ⟨fun h => (by rw [h] at hc; cases hc), h1, h2, ?_, ?_⟩
  · rintro rfl; exact h46 (List.mem_singleton.1 hc)
  · rintro rfl
    rcases List.mem_cons.1 hc with h | h
    · exact h46 h
    · exact h46 (List.mem_singleton.1 h)

theorem shorten_ok {n : Bytes} (h : NameOk n) : NameOk (shorten n) := by
  unfold shorten
  split
  · refine nameOk_of (c := 32) ?_ (by decide) ?_ ?_
    · exact List.mem_append_left _ (List.mem_append_right _ List.mem_cons_self)
    · intro hm
      rcases List.mem_append.1 hm with hm | hm
      · rcases List.mem_append.1 hm with hm | hm
        · exact h.slash (List.mem_of_mem_take hm)
        · revert hm; decide
      · exact h.slash (List.mem_of_mem_drop hm)
    · intro hm
      rcases List.mem_append.1 hm with hm | hm
      · rcases List.mem_append.1 hm with hm | hm
        · exact h.zero (List.mem_of_mem_take hm)
        · revert hm; decide
      · exact h.zero (List.mem_of_mem_drop hm)
  · exact h

theorem candidate_ok {n : Bytes} (h : NameOk n) (i : Nat) : NameOk (candidate n i) := by
  unfold candidate
  split
  · exact h
  · have d := dec_plain i
    refine nameOk_of (c := 45) ?_ (by decide) ?_ ?_
    · exact List.mem_append_left _ (List.mem_append_right _ List.mem_cons_self)
    · intro hm
      rcases List.mem_append.1 hm with hm | hm
      · rcases List.mem_append.1 hm with hm | hm
        · exact h.slash hm
        · revert hm; decide
      · exact d.1 hm
    · intro hm
      rcases List.mem_append.1 hm with hm | hm
      · rcases List.mem_append.1 hm with hm | hm
        · exact h.zero hm
        · revert hm; decide
      · exact d.2 hm

theorem resolveFree_name {db : Db} {n n' : Bytes} {p : Nat} (h : db.resolveFree n = some (p, n')) :
    ∃ i, n' = candidate (shorten n) i ∧ i ≤ db.contents.length ∧ ∀ j, j < i → ∃ e, db.entry p (candidate (shorten n) j) = some e := by
  unfold Db.resolveFree at h
  cases he : db.entry rootInode lofName with
  | none => rw [he] at h; cases h
  | some e =>
    rw [he] at h
    dsimp only at h
    cases hf : (List.range (db.contents.length + 1)).find?
        (fun i => (db.entry e.2.inode (candidate (shorten n) i)).isNone) with
    | none => rw [hf] at h; cases h
    | some i =>
      rw [hf] at h
      cases h
      refine ⟨i, rfl, ?_, ?_⟩
      · have := List.mem_range.1 (List.mem_of_find?_eq_some hf)
        omega
      · intro j hj
        have hl := List.mem_range.1 (List.mem_of_find?_eq_some hf)
        have h3 := (List.find?_eq_some_iff_append.1 hf).2
        obtain ⟨as, bs, h4, h5⟩ := h3
        have hja : j ∈ as := by
          have hlen : as.length = i := by
            have h6 : (as ++ i :: bs)[as.length]? = some i := by simp
            rw [← h4] at h6
            rw [List.getElem?_range] at h6
            · exact (Option.some.inj h6)
            · by_cases hc : as.length < db.contents.length + 1
              · exact hc
              · have h7 := congrArg List.length h4
                rw [List.length_range, List.length_append, List.length_cons] at h7
                omega
          have h6 : (as ++ i :: bs)[j]? = some j := by
            rw [← h4, List.getElem?_range (by omega)]
          rw [List.getElem?_append_left (by omega)] at h6
          exact List.mem_of_getElem? h6
        have h8 := h5 j hja
        cases hx : db.entry e.2.inode (candidate (shorten n) j) with
        | none => rw [hx] at h8; simp at h8
        | some y => exact ⟨y, rfl⟩

theorem resolveFree_ok {db : Db} {n n' : Bytes} {p : Nat} (h : db.resolveFree n = some (p, n')) (hn : NameOk n) : NameOk n' := by
  obtain ⟨i, rfl, _⟩ := resolveFree_name h
  exact candidate_ok (shorten_ok hn) i

theorem escape_slash (p : Bytes) : (47 : UInt8) ∉ escape p := by
  unfold escape
  intro h
  obtain ⟨c, _, h⟩ := List.mem_flatMap.1 h
  split at h
  · revert h; decide
  · split at h
    · revert h; decide
    · rename_i h1 h2
      exact h2 (List.mem_singleton.1 h).symm

theorem escape_zero {p : Bytes} (hp : (0 : UInt8) ∉ p) : (0 : UInt8) ∉ escape p := by
  unfold escape
  intro h
  obtain ⟨c, hc, h⟩ := List.mem_flatMap.1 h
  split at h
  · revert h; decide
  · split at h
    · revert h; decide
    · have := List.mem_singleton.1 h
      rw [← this] at hc
      exact hp (List.mem_of_mem_drop hc)

theorem joinPath_zero {l : List Bytes} (h : ∀ c ∈ l, (0 : UInt8) ∉ c) : (0 : UInt8) ∉ joinPath l := by
  unfold joinPath
  intro hm
  obtain ⟨c, hc, hm⟩ := List.mem_flatMap.1 hm
  rcases List.mem_cons.1 hm with h1 | h1
  · revert h1; decide
  · exact h c hc h1

theorem pathLoop_names {db : Db} {fuel id : Nat} {acc l : List Bytes} (h : pathLoop db fuel id acc = .ok l) :
    ∀ c ∈ l, c ∈ acc ∨ ∃ e ∈ db.contents, ∃ x, NameIs db e.2.nameId x c := by
  induction fuel generalizing id acc with
  | zero => unfold pathLoop at h; cases h
  | succ f ih =>
    unfold pathLoop at h
    split at h
    · cases h; exact fun c hc => Or.inl hc
    · split at h
      · cases h
      · rename_i e he
        intro c hc
        rcases ih h c hc with h1 | h1
        · rcases List.mem_cons.1 h1 with rfl | h1
          · obtain ⟨k, nr, m1, _, m2, m3⟩ := entriesOf_mem (List.mem_of_mem_head? he)
            right
            refine ⟨_, m1, nr.text, nr.refcount, ?_⟩
            rw [← m3]
            exact AL.get_some_mem m2
          · exact Or.inl h1
        · exact Or.inr h1

theorem path_zero {db : Db} (hn : NamesOk db) {id : Nat} {l : List Bytes} (h : db.path id = .ok l) : ∀ c ∈ l, (0 : UInt8) ∉ c := by
  intro c hc
  rcases pathLoop_names h c hc with h1 | ⟨e, he, x, h1⟩
  · cases h1
  · exact (hn e he x c h1).zero

/-- The text that check_inode_blocks_obj_id makes of the path of a file. -/
theorem escape_ok {l : List Bytes} {n : Bytes} (hl : ∀ c ∈ l, (0 : UInt8) ∉ c) (hn : NameOk n) : NameOk (escape (joinPath (l ++ [n]))) := by
  have hz : (0 : UInt8) ∉ joinPath (l ++ [n]) := joinPath_zero (fun c hc => by
    rcases List.mem_append.1 hc with h | h
    · exact hl c h
    · rw [List.mem_singleton.1 h]; exact hn.zero)
  cases l with
  | nil =>
    have e1 : joinPath ([] ++ [n]) = 47 :: n := by simp [joinPath]
    rw [e1] at hz ⊢
    by_cases hc : ∃ c ∈ n, c ≠ 46
    · obtain ⟨c, hc, h46⟩ := hc
      by_cases h95 : c = 95
      · refine nameOk_of (c := 95) ?_ (by decide) (escape_slash _) (escape_zero hz)
        unfold escape
        exact List.mem_flatMap.2 ⟨c, hc, by rw [if_pos h95]; exact List.mem_cons_self⟩
      · refine nameOk_of (c := c) ?_ h46 (escape_slash _) (escape_zero hz)
        unfold escape
        refine List.mem_flatMap.2 ⟨c, hc, ?_⟩
        have h47 : c ≠ 47 := fun h => hn.slash (h ▸ hc)
        rw [if_neg h95, if_neg h47]; exact List.mem_cons_self
    · have hall : ∀ c ∈ n, c = 46 := fun c h => Classical.byContradiction (fun h' => hc ⟨c, h, h'⟩)
      have : escape (47 :: n) = n := by
        unfold escape
        show n.flatMap _ = n
        have hfl : ∀ m : Bytes, (∀ c ∈ m, c = 46) → m.flatMap (fun c => if c = 95 then [95, 95] else if c = 47 then [95] else [c]) = m := by
          intro m
          induction m with
          | nil => intro _; rfl
          | cons a t ih =>
            intro h
            have ha := h a List.mem_cons_self
            rw [List.flatMap_cons, ih (fun c hc => h c (List.mem_cons_of_mem _ hc)), ha]
            rfl
        exact hfl n hall
      rw [this]; exact hn
  | cons a t =>
    refine nameOk_of (c := 95) ?_ (by decide) (escape_slash _) (escape_zero hz)
    unfold escape
    refine List.mem_flatMap.2 ⟨47, ?_, by decide⟩
    have : (joinPath (a :: t ++ [n])).drop 1 = a ++ joinPath (t ++ [n]) := by
      unfold joinPath; simp
    rw [this]
    refine List.mem_append_right _ ?_
    unfold joinPath
    exact List.mem_flatMap.2 ⟨n, List.mem_append_right _ (List.mem_singleton.2 rfl), List.mem_cons_self⟩

/-! #### One move keeps the invariant -/

theorem Places.reloc {G : Prop} {fine : Nat × CRow → Prop} {a t t' : Db} {L k : Nat} (h : Places G fine a t L) (hs : Schema t) (hs' : Schema t')
    (hr : Reloc G t t' k) (hk : ∀ e, fine e → e.1 ≠ k) : Places G fine a t' L := by
  obtain ⟨r, n0, n, hf, hc, hn, hok, hcol⟩ := hr.row
  obtain ⟨⟨e0, he0, hp0⟩, hfree⟩ := resolveFree_spec hf
  have hL : r.parent = L := by rw [← hp0]; exact h.lof e0 he0
  have hmem : ∀ f, f ∈ t'.contents ↔ f = (k, r) ∨ (f ∈ t.contents ∧ f.1 ≠ k) := by
    intro f; rw [hc]; exact mem_set hs.contents
  have hstay : ∀ e, fine e → e ∈ t'.contents := fun e he => (hmem e).2 (Or.inr ⟨(h.stay e he).1, hk e he⟩)
  refine ⟨?_, ?_, ?_, ?_, ?_⟩
  · intro e he
    obtain ⟨h1, h2, ⟨x, m, c⟩, h3, h4, h5⟩ := entry_spec he
    cases h4; cases h5
    rcases (hmem e).1 h1 with rfl | ⟨h1, hne⟩
    · exfalso
      have hu := (NameIs.unique hs'.names ⟨c, h3⟩ hn).2
      have h2 : r.parent = rootInode := h2
      rw [← hu, h2] at hfree
      have hfree : t.entry rootInode lofName = none := hfree
      rw [he0] at hfree
      cases hfree
    · exact lof_mem hs h.lof h1 h2 ((hr.same e h1 hne _ _).2 ⟨c, h3⟩)
  · intro g e he x m hx
    rcases (hmem e).1 he with rfl | ⟨he, hne⟩
    · rw [(NameIs.unique hs'.names hx hn).2]
      exact resolveFree_ok hf (hok g (h.names g))
    · exact h.names g e he x m ((hr.same e he hne x m).2 hx)
  · intro f hf'
    rcases (hmem f).1 hf' with rfl | ⟨he, hne⟩
    · exact Or.inr hL
    · rcases h.place f he with ⟨h1, h2⟩ | h1
      · exact Or.inl ⟨h1, fun x m => (h2 x m).trans (hr.same f he hne x m)⟩
      · exact Or.inr h1
  · intro e he
    exact ⟨hstay e he, fun x m => ((h.stay e he).2 x m).trans (hr.same e (h.stay e he).1 (hk e he) x m)⟩
  · intro e he hu f hf'
    rcases (hmem f).1 hf' with rfl | ⟨hf', _⟩
    · intro hi
      rcases hcol with ⟨q, hq, hqi⟩ | hno
      · exact h.uniq e he hu (k, q) hq (hqi.trans hi)
      · exact absurd hi.symm (hno e (h.stay e he).1)
    · exact h.uniq e he hu f hf'

theorem same_of {a b : Db} (hna : AL.NK a.names) {j : Nat} (hb : HasName b j) (back : ∀ x n, NameIs b j x n → NameIs a j x n) (x : Bool) (n : Bytes) :
    NameIs a j x n ↔ NameIs b j x n := by
  refine ⟨fun h => ?_, back x n⟩
  obtain ⟨y, m, hy⟩ := hb.is
  obtain ⟨h1, h2⟩ := NameIs.unique hna h (back y m hy)
  rw [h1, h2]; exact hy

/-! #### check_contents_name -/

theorem fixName_made {k : Nat} {s s' : St} (h : fixName k s = some s') :
    s' = s ∨ ∃ r n0 p n db, AL.get s.db.contents k = some r ∧ ¬ HasName s.db r.nameId ∧ (NamesOk s.db → NameOk n0) ∧
        s.db.resolveFree n0 = some (p, n) ∧
        (s.db.addName false n).1.putEntry k { r with nameId := (s.db.addName false n).2, parent := p } = some db ∧
        s' = { s.err with db := db } := by
  unfold fixName at h
  cases hg : AL.get s.db.contents k with
  | none => rw [hg] at h; cases h; exact Or.inl rfl
  | some r =>
    rw [hg] at h
    dsimp only at h
    split at h
    · cases h
      exact Or.inl rfl
    · rename_i hn
      right
      have key : ∀ n0, (NamesOk s.db → NameOk n0) → (match s.db.resolveFree n0 with
          | none => none
          | some (p, n) =>
            match (s.db.addName false n).1.putEntry k { r with nameId := (s.db.addName false n).2, parent := p } with
            | none => none
            | some db => some { s.err with db := db }) = some s' →
          ∃ r' n0 p n db, some r = some r' ∧ ¬ HasName s.db r'.nameId ∧ (NamesOk s.db → NameOk n0) ∧ s.db.resolveFree n0 = some (p, n) ∧
            (s.db.addName false n).1.putEntry k { r' with nameId := (s.db.addName false n).2, parent := p } = some db ∧
            s' = { s.err with db := db } := by
        intro n0 hok hh
        cases hr : s.db.resolveFree n0 with
        | none => rw [hr] at hh; cases hh
        | some x =>
          obtain ⟨p, n⟩ := x
          rw [hr] at hh
          dsimp only at hh
          cases hq : (s.db.addName false n).1.putEntry k { r with nameId := (s.db.addName false n).2, parent := p } with
          | none => rw [hq] at hh; cases hh
          | some d =>
            rw [hq] at hh
            refine ⟨r, n0, p, n, d, rfl, fun hc => hn (isSome_iff_mem.2 hc), hok, hr, hq, ?_⟩
            exact (Option.some.inj hh).symm
      have d := dec_plain r.inode
      split at h
      · cases h
      · refine key _ (fun _ => nameOk_of (c := 45) List.mem_cons_self (by decide) ?_ ?_) h
        · intro hm
          rcases List.mem_cons.1 hm with hm | hm
          · revert hm; decide
          · exact d.1 hm
        · intro hm
          rcases List.mem_cons.1 hm with hm | hm
          · revert hm; decide
          · exact d.2 hm
      · rename_i l hl
        refine key _ (fun hno => nameOk_of (c := 45) (List.mem_append_right _ List.mem_cons_self) (by decide) ?_ ?_) h
        · intro hm
          rcases List.mem_append.1 hm with hm | hm
          · exact escape_slash _ hm
          · rcases List.mem_cons.1 hm with hm | hm
            · revert hm; decide
            · exact d.1 hm
        · intro hm
          rcases List.mem_append.1 hm with hm | hm
          · refine escape_zero ?_ hm
            exact fun hc => joinPath_zero (path_zero hno hl) (List.mem_of_mem_drop hc)
          · rcases List.mem_cons.1 hm with hm | hm
            · revert hm; decide
            · exact d.2 hm

/-- No entry has a name id above the largest one. -/
def Below (db : Db) : Prop := ∀ e ∈ db.contents, e.2.nameId ≤ maxKey db.names

theorem fixName_reloc {G : Prop} {k : Nat} {s s' : St} (hs : Schema s.db) (hb : Below s.db) (h : fixName k s = some s') :
    s' = s ∨ (Reloc G s.db s'.db k ∧ Below s'.db ∧ ∃ r, (k, r) ∈ s.db.contents ∧ ¬ HasName s.db r.nameId) := by
  rcases fixName_made h with rfl | ⟨r, n0, p, n, db, hg, hno, hok, hr, hq, rfl⟩
  · exact Or.inl rfl
  · right
    obtain ⟨h1, h2, h3⟩ := relocate hs hg hr hq
    have hmk := maxKey_addName hs.names false n
    have hnames : db.names = (s.db.addName false n).1.names := by rw [h3]
    refine ⟨⟨⟨{ r with nameId := (s.db.addName false n).2, parent := p }, n0, n, hr, by dsimp only; rw [h3], ?_, fun _ => hok, Or.inl ⟨r, AL.get_some_mem hg, rfl⟩⟩, ?_⟩, ?_, r, AL.get_some_mem hg, hno⟩
    · exact (NameIs.names hnames).2 (nameIs_added hs.names n)
    · intro f hf hne x m
      dsimp only
      rw [NameIs.names hnames]
      refine ⟨fun hx => nameIs_add hs.names hx, fun hx => ?_⟩
      rcases nameIs_of_add hs.names hx with hx | ⟨hx, _⟩
      · exact hx
      · have := hb f hf
        omega
    · intro e he
      dsimp only at he ⊢
      rw [hnames]
      rw [h3] at he
      rcases (mem_set hs.contents).1 he with rfl | ⟨he, _⟩
      · exact hmk.2
      · exact Nat.le_trans (hb e he) hmk.1

theorem checkContentsName_places {G : Prop} {fine : Nat × CRow → Prop} {a : Db} {L : Nat} {s s' : St} (hs : Schema s.db) (hb : Below s.db)
    (h : checkContentsName s = some s') (hp : Places G fine a s.db L) (hf : ∀ e, fine e → HasName a e.2.nameId) : Places G fine a s'.db L :=
  (iter_inv (f := fixName) (fun t => Schema t.db ∧ Below t.db ∧ Places G fine a t.db L)
    (fun k _ t t' ht hx => by
      obtain ⟨h1, h2, h3⟩ := ht
      rcases fixName_reloc h1 h2 hx with rfl | ⟨hr, hb', r, hk, hno⟩
      · exact ⟨h1, h2, h3⟩
      · have hs' := (fixName_step h1 hx).1
        refine ⟨hs', hb', h3.reloc h1 hs' hr ?_⟩
        intro e he hek
        obtain ⟨c1, c2⟩ := h3.stay e he
        obtain ⟨x, n, hxn⟩ := (hf e he).is
        have hr' : e.2 = r := by
          have g := AL.mem_get_some h1.contents (k := e.1) (v := e.2) c1
          rw [hek, AL.mem_get_some h1.contents hk] at g
          exact (Option.some.inj g).symm
        exact hno (hr' ▸ ((c2 x n).1 hxn).has)) h ⟨hs, hb, hp⟩).2.2

/-! #### check_contents_inode -/

theorem checkContentsInode_places {G : Prop} {fine : Nat × CRow → Prop} {a : Db} {L : Nat} {s s' : St} (hs : Schema s.db) (hn : NExact s.db)
    (h : checkContentsInode s = some s') (hp : Places G fine a s.db L) (hf : ∀ e, fine e → HasInode s.db e.2.inode) : Places G fine a s'.db L := by
  have hs' := checkContentsInode_schema hs h
  have hn' := checkContentsInode_exact h hn
  have hdb := checkContentsInode_db h
  have hc : s'.db.contents = s.db.contents.filter (fun e => (AL.get s.db.inodes e.2.inode).isSome) := by rw [hdb]
  refine hp.keepRows hs ?_ ?_ ?_
  · intro f hf'
    rw [hc] at hf'
    exact (List.mem_filter.1 hf').1
  · intro e he
    rw [hc]
    exact List.mem_filter.2 ⟨(hp.stay e he).1, isSome_iff_mem.2 (hf e he)⟩
  · intro f hf' x n
    refine same_of hs.names (hn'.entries f hf') (fun y m hy => ?_) x n
    have hy' : NameIs (dropAll s.db ((s.db.contents.filter (fun e => (AL.get s.db.inodes e.2.inode).isNone)).map (·.2.nameId))) f.2.nameId y m := by
      refine (NameIs.names ?_).1 hy
      rw [hdb]
    exact nameIs_dropAll hs hy'

/-! #### check_contents_parent_inode -/

/-- The text that `to_str` makes of a name has no `/` and no byte zero, if the name has none. -/
def StrOk (cfg : Cfg) : Prop := ∀ n, (47 : UInt8) ∉ n → (0 : UInt8) ∉ n → (47 : UInt8) ∉ cfg.toStr n ∧ (0 : UInt8) ∉ cfg.toStr n

theorem fixParent_made {cfg : Cfg} {k : Nat} {s s' : St} (h : fixParent cfg k s = some s') :
    s' = s ∨ ∃ r n0 p n db, AL.get s.db.contents k = some r ∧ ¬ HasInode s.db r.parent ∧ HasName s.db r.nameId ∧ (StrOk cfg → NamesOk s.db → NameOk n0) ∧
        s.db.resolveFree n0 = some (p, n) ∧
        ((s.db.delName r.nameId).addName false n).1.putEntry k { r with nameId := ((s.db.delName r.nameId).addName false n).2, parent := p } = some db ∧
        s' = { s.err with db := db } := by
  unfold fixParent at h
  cases hg : AL.get s.db.contents k with
  | none => rw [hg] at h; cases h; exact Or.inl rfl
  | some r =>
    rw [hg] at h
    dsimp only at h
    split at h
    · cases h
      exact Or.inl rfl
    · rename_i hn
      right
      split at h
      · cases h
      · rename_i nr hnr
        split at h
        · cases h
        · rename_i p n hr
          split at h
          · cases h
          · rename_i db hq
            refine ⟨r, _, p, n, db, rfl, fun hc => hn (isSome_iff_mem.2 hc), isSome_iff_mem.1 (by rw [hnr]; rfl), ?_, hr, hq,
              (Option.some.inj h).symm⟩
            intro hstr hno
            have hok : NameOk nr.name := hno _ (AL.get_some_mem hg) nr.text nr.name ⟨nr.refcount, AL.get_some_mem hnr⟩
            have d := dec_plain r.parent
            have t := hstr nr.name hok.slash hok.zero
            refine nameOk_of (c := 91) (by simp) (by decide) ?_ ?_
            · intro hm
              rcases List.mem_append.1 hm with hm | hm
              · rcases List.mem_append.1 hm with hm | hm
                · rcases List.mem_append.1 hm with hm | hm
                  · revert hm; decide
                  · exact d.1 hm
                · revert hm; decide
              · exact t.1 hm
            · intro hm
              rcases List.mem_append.1 hm with hm | hm
              · rcases List.mem_append.1 hm with hm | hm
                · rcases List.mem_append.1 hm with hm | hm
                  · revert hm; decide
                  · exact d.2 hm
                · revert hm; decide
              · exact t.2 hm

theorem uses_two {db : Db} {e f : Nat × CRow} (he : e ∈ db.contents) (hf : f ∈ db.contents) (hne : f.1 ≠ e.1)
    (hn : f.2.nameId = e.2.nameId) : 2 ≤ usesOfName db e.2.nameId := by
  have h1 : (db.contents.filter (fun g => decide (g.1 = e.1))).countP (fun g => decide (g.2.nameId = e.2.nameId)) ≥ 1 := by
    apply List.countP_pos_iff.2
    exact ⟨e, List.mem_filter.2 ⟨he, by simp⟩, by simp⟩
  have h2 : (db.contents.filter (fun g => !decide (g.1 = e.1))).countP (fun g => decide (g.2.nameId = e.2.nameId)) ≥ 1 := by
    apply List.countP_pos_iff.2
    exact ⟨f, List.mem_filter.2 ⟨hf, by simp [hne]⟩, by simp [hn]⟩
  have h3 := countP_filter_not db.contents (fun g => decide (g.2.nameId = e.2.nameId)) (fun g => decide (g.1 = e.1))
  unfold usesOfName
  omega

theorem fixParent_reloc {G : Prop} {cfg : Cfg} (hstr : G → StrOk cfg) {k : Nat} {s s' : St} (hs : Schema s.db) (hn : NExact s.db) (h : fixParent cfg k s = some s') :
    s' = s ∨ (Reloc G s.db s'.db k ∧ ∃ r, (k, r) ∈ s.db.contents ∧ ¬ HasInode s.db r.parent) := by
  have hs' := (fixParent_step hs h).1
  have hn' := fixParent_exact hs h hn
  rcases fixParent_made h with rfl | ⟨r, n0, p, n, db, hg, hno, hnm, hok, hr, hq, rfl⟩
  · exact Or.inl rfl
  · right
    obtain ⟨h1, h2, h3⟩ := relocate2 hs hg hr hq
    have hk := AL.get_some_mem hg
    have hs0 := hs.delName r.nameId
    have hnames : db.names = ((s.db.delName r.nameId).addName false n).1.names := by rw [h3]
    refine ⟨⟨⟨{ r with nameId := ((s.db.delName r.nameId).addName false n).2, parent := p }, n0, n, hr, by dsimp only; rw [h3], ?_, fun g => hok (hstr g), Or.inl ⟨r, hk, rfl⟩⟩, ?_⟩, r, hk, hno⟩
    · exact (NameIs.names hnames).2 (nameIs_added hs0.names n)
    · intro f hf hne x m
      have hf' : f ∈ db.contents := by
        rw [h3]; exact (mem_set hs.contents).2 (Or.inr ⟨hf, hne⟩)
      refine same_of hs.names (hn'.entries f hf') (fun y m hy => ?_) x m
      have hy : NameIs db f.2.nameId y m := hy
      rw [NameIs.names hnames] at hy
      rcases nameIs_of_add hs0.names hy with hy | ⟨hy, _⟩
      · exact nameIs_delName hs.names hy
      · exfalso
        have hhas : HasName (s.db.delName r.nameId) f.2.nameId := by
          have hu := uses_pos_c hf
          have h5 := nref_delName hnm f.2.nameId
          have h6 : nref s.db f.2.nameId = (usesOfName s.db f.2.nameId : Nat) + 0 := hn f.2.nameId
          have h7 : (0 : Int) < nref (s.db.delName r.nameId) f.2.nameId := by
            rw [h5, h6]
            by_cases hc : f.2.nameId = r.nameId
            · have := uses_two hk hf hne hc
              have h8 : usesOfName s.db r.nameId = usesOfName s.db f.2.nameId := by rw [hc]
              dsimp only at this
              unfold one
              rw [if_pos hc]
              omega
            · unfold one
              rw [if_neg hc]
              omega
          apply isSome_iff_mem.1
          unfold nref at h7
          cases hx : AL.get (s.db.delName r.nameId).names f.2.nameId with
          | none => rw [hx] at h7; simp at h7
          | some v => rfl
        obtain ⟨q, hq'⟩ := hhas
        have := le_maxKey hq'
        omega

theorem checkContentsParent_places {cfg : Cfg} {G : Prop} (hstr : G → StrOk cfg) {fine : Nat × CRow → Prop} {a : Db} {L : Nat} {s s' : St} (hs : Schema s.db) (hn : NExact s.db)
    (h : checkContentsParent cfg s = some s') (hp : Places G fine a s.db L) (hf : ∀ e, fine e → HasInode s.db e.2.parent) : Places G fine a s'.db L :=
  (iter_inv (f := fixParent cfg) (fun t => Schema t.db ∧ NExact t.db ∧ Moved s.db t.db ∧ Places G fine a t.db L)
    (fun k _ t t' ht hx => by
      obtain ⟨h1, h2, h3, h4⟩ := ht
      obtain ⟨hs', hm'⟩ := fixParent_step h1 hx
      refine ⟨hs', fixParent_exact h1 hx h2, h3.trans hm', ?_⟩
      rcases fixParent_reloc hstr h1 h2 hx with rfl | ⟨hr, r, hk, hno⟩
      · exact h4
      · refine h4.reloc h1 hs' hr ?_
        intro e he hek
        have c1 := (h4.stay e he).1
        have hr' : e.2 = r := by
          have g := AL.mem_get_some h1.contents (k := e.1) (v := e.2) c1
          rw [hek, AL.mem_get_some h1.contents hk] at g
          exact (Option.some.inj g).symm
        refine hno ?_
        rw [← hr', h3.1]
        exact hf e he) h ⟨hs, hn, Moved.refl _, hp⟩).2.2.2

/-! #### check_inode_blocks_obj_id -/

/-- Adding a name, moving an entry there and dropping its old name. -/
theorem reloc_add_del {G : Prop} {a b db : Db} (hs : Schema a) (hn : NExact a) {k : Nat} {r : CRow} {n0 n : Bytes} {p : Nat} (hk : (k, r) ∈ a.contents)
    (hr : a.resolveFree n0 = some (p, n)) (hq : (a.addName false n).1.putEntry k { r with nameId := (a.addName false n).2, parent := p } = some db)
    (hb : b = db.delName r.nameId) (hn' : NExact b) (hok : G → NamesOk a → NameOk n0) : Reloc G a b k := by
  obtain ⟨h1, h2, h3⟩ := relocate hs (AL.mem_get_some hs.contents hk) hr hq
  have hnames : db.names = (a.addName false n).1.names := by rw [h3]
  have hc : b.contents = AL.set a.contents k { r with nameId := (a.addName false n).2, parent := p } := by
    rw [hb, delName_contents, h3]
  have hback : ∀ j x m, NameIs b j x m → NameIs (a.addName false n).1 j x m := by
    intro j x m hx
    rw [hb] at hx
    have := nameIs_delName h1.names hx
    rwa [NameIs.names hnames] at this
  refine ⟨⟨{ r with nameId := (a.addName false n).2, parent := p }, n0, n, hr, hc, ?_, hok, Or.inl ⟨r, hk, rfl⟩⟩, ?_⟩
  · have hmem : (k, ({ r with nameId := (a.addName false n).2, parent := p } : CRow)) ∈ b.contents := by
      rw [hc]; exact (mem_set hs.contents).2 (Or.inl rfl)
    obtain ⟨x, m, hx⟩ := (hn'.entries _ hmem).is
    obtain ⟨e1, e2⟩ := NameIs.unique (hs.addName false n).names (hback _ _ _ hx) (nameIs_added hs.names n)
    rw [e1, e2] at hx
    exact hx
  · intro f hf hne x m
    have hf' : f ∈ b.contents := by rw [hc]; exact (mem_set hs.contents).2 (Or.inr ⟨hf, hne⟩)
    refine same_of hs.names (hn'.entries f hf') (fun y m hy => ?_) x m
    rcases nameIs_of_add hs.names (hback _ _ _ hy) with hy | ⟨hy, _⟩
    · exact hy
    · exfalso
      obtain ⟨q, hq'⟩ := hn.entries f hf
      have := le_maxKey hq'
      omega

theorem moveAffected_reloc {G : Prop} {e : Bytes × CRow} {s s' : St} (hs : Schema s.db) (hn : NExact s.db) (he : ∃ k, (k, e.2) ∈ s.db.contents)
    (hen : G → NamesOk s.db → NameOk e.1)
    (h : moveAffected e s = some s') : ∃ k, (k, e.2) ∈ s.db.contents ∧ Reloc G s.db s'.db k := by
  have hn' := (moveAffected_exact hs he h hn).1
  obtain ⟨k0, hk0⟩ := he
  have h0 := h
  unfold moveAffected at h
  split at h
  · rename_i l hl
    split at h
    · cases h
    · rename_i p n hr
      have hc := get_addName_contents hs.names false n
      dsimp only at h
      rw [hc] at h
      split at h
      · rename_i hf
        exact absurd ⟨rfl, rfl⟩ (findEntry_none hf _ hk0)
      · rename_i k r hf
        obtain ⟨hm, h4, h5⟩ := findEntry_spec hf
        have heq := hs.entryUnique _ hm _ hk0 h4 h5
        obtain ⟨rfl, rfl⟩ := Prod.mk.inj heq
        split at h
        · cases h
        · rename_i db hq
          refine ⟨k, hm, reloc_add_del hs hn hm hr hq ?_ hn' ?_⟩
          · rw [← Option.some.inj h]
          · intro g hno
            exact escape_ok (path_zero hno hl) (hen g hno)
  · cases h

theorem iter_moveAffected_places {G : Prop} {fine : Nat × CRow → Prop} {a : Db} {L : Nat} {l : List (Bytes × CRow)} {s s' : St} (hs : Schema s.db)
    (hl : l.Pairwise (fun a b => Apart a.2 b.2)) (hm : ∀ e ∈ l, ∃ k, (k, e.2) ∈ s.db.contents) (hok : G → ∀ e ∈ l, NameOk e.1)
    (hfine : ∀ e, fine e → ∀ x ∈ l, e.2.inode ≠ x.2.inode)
    (h : iter moveAffected l s = some s') (hn : NExact s.db) (hp : Places G fine a s.db L) : Places G fine a s'.db L := by
  induction l generalizing s with
  | nil => cases h; exact hp
  | cons e t ih =>
    unfold iter at h
    cases hf : moveAffected e s with
    | none => rw [hf] at h; cases h
    | some s1 =>
      rw [hf] at h
      obtain ⟨h1, h2⟩ := moveAffected_exact hs (hm e List.mem_cons_self) hf hn
      have hpw := List.pairwise_cons.1 hl
      have hs1 := (moveAffected_step hs hf).1
      obtain ⟨k, hk, hr⟩ := moveAffected_reloc hs hn (hm e List.mem_cons_self) (fun g _ => hok g e List.mem_cons_self) hf
      refine ih hs1 hpw.2 (fun x hx => h2 _ (hpw.1 x hx) (hm x (List.mem_cons_of_mem _ hx))) (fun g x hx => hok g x (List.mem_cons_of_mem _ hx))
        (fun e he x hx => hfine e he x (List.mem_cons_of_mem _ hx)) h h1 (hp.reloc hs hs1 hr ?_)
      intro g hg hgk
      have c1 := AL.mem_get_some hs.contents (k := g.1) (v := g.2) (hp.stay g hg).1
      rw [hgk, AL.mem_get_some hs.contents hk] at c1
      exact hfine g hg e List.mem_cons_self (congrArg CRow.inode (Option.some.inj c1).symm)

theorem badBlock_places {G : Prop} {fine : Nat × CRow → Prop} {a : Db} {L : Nat} {b : Nat × BRow} {s s' : St} (hs : Schema s.db) (h : badBlock b s = some s')
    (hn : NExact s.db) (hp : Places G fine a s.db L) (hfine : ∀ e, fine e → e.2.inode ≠ b.2.inode) : Places G fine a s'.db L := by
  unfold badBlock at h
  refine iter_moveAffected_places (s := s.err) hs (entriesOf_apart hs _)
    (fun e he => by obtain ⟨k, _, h1, _⟩ := entriesOf_mem he; exact ⟨k, h1⟩) ?_ ?_ h hn hp
  · intro g e he
    obtain ⟨k, nr, h1, _, h2, h3⟩ := entriesOf_mem he
    rw [← h3]
    exact hp.names g _ h1 nr.text nr.name ⟨nr.refcount, AL.get_some_mem h2⟩
  · intro e he x hx hc
    obtain ⟨k, nr, h1, h4, h2, h3⟩ := entriesOf_mem hx
    exact hfine e he (hc.trans h4)

theorem Places.sameTables {G : Prop} {fine : Nat × CRow → Prop} {a t t' : Db} {L : Nat} (h : Places G fine a t L) (hs : Schema t)
    (hc : t'.contents = t.contents) (hn : t'.names = t.names) : Places G fine a t' L :=
  h.keepRows hs (fun f hf => by rw [← hc]; exact hf) (fun e he => by rw [hc]; exact (h.stay e he).1) (fun _ _ _ _ => (NameIs.names hn).symm)

theorem checkBlocksObj_places {G : Prop} {fine : Nat × CRow → Prop} {a : Db} {L : Nat} {s s' : St} (hs : Schema s.db) (h : checkBlocksObj s = some s')
    (hn : NExact s.db) (hp : Places G fine a s.db L)
    (hfine : ∀ e, fine e → ∀ b ∈ s.db.blocks, b.2.inode = e.2.inode → HasObj s.db b.2.obj) : Places G fine a s'.db L := by
  unfold checkBlocksObj at h
  obtain ⟨s1, h1, rfl⟩ := Option.map_eq_some_iff.1 h
  have h2 := iter_inv (f := badBlock) (fun t => Schema t.db ∧ NExact t.db ∧ Places G fine a t.db L)
    (fun b hb t t' ht hf => by
      obtain ⟨a1, a2, a3⟩ := ht
      refine ⟨(badBlock_step a1 hf).1, badBlock_exact a1 hf a2, badBlock_places a1 hf a2 a3 ?_⟩
      intro e he hc
      obtain ⟨b1, b2⟩ := List.mem_filter.1 hb
      exact isNone_iff_mem.1 b2 (hfine e he b b1 hc.symm)) h1 ⟨hs, hn, hp⟩
  exact h2.2.2.sameTables h2.1 rfl rfl

/-! #### check_inodes_refcount -/

theorem fixRef_reloc {G : Prop} {w : Nat × Nat} {s s' : St} (hs : Schema s.db) (hn : NExact s.db) (h : fixRef w s = some s')
    (hw : w.2 = 0 → ∀ f ∈ s.db.contents, f.2.inode ≠ w.1) :
    (s'.db.contents = s.db.contents ∧ s'.db.names = s.db.names) ∨ Reloc G s.db s'.db (s.db.cseq + 1) := by
  unfold fixRef at h
  split at h
  · cases h; exact Or.inl ⟨rfl, rfl⟩
  · split at h
    · cases h; exact Or.inl ⟨rfl, rfl⟩
    · rename_i i hg
      split at h
      · rename_i h0
        split at h
        · cases h
        · rename_i p n hr
          dsimp only at h
          split at h
          · cases h
          · rename_i db hins
            right
            have hdb := (insEntry_some hins).1
            have hs1 := hs.addName false n
            have hc : s'.db.contents = AL.set s.db.contents (s.db.cseq + 1) ⟨p, (s.db.addName false n).2, w.1⟩ := by
              rw [← Option.some.inj h]
              show db.contents = _
              rw [hdb]
              dsimp only
              rw [get_addName_contents hs.names, addName_cseq hs.names]
            have hnames : s'.db.names = (s.db.addName false n).1.names := by
              rw [← Option.some.inj h]
              show db.names = _
              rw [hdb]
            refine ⟨⟨⟨p, (s.db.addName false n).2, w.1⟩, _, n, hr, hc, (NameIs.names hnames).2 (nameIs_added hs.names n), ?_, Or.inr (hw h0)⟩, ?_⟩
            · intro _ _
              have d := dec_plain w.1
              refine nameOk_of (c := 105) (List.mem_append_left _ List.mem_cons_self) (by decide) ?_ ?_
              · intro hm
                rcases List.mem_append.1 hm with hm | hm
                · revert hm; decide
                · exact d.1 hm
              · intro hm
                rcases List.mem_append.1 hm with hm | hm
                · revert hm; decide
                · exact d.2 hm
            · intro f hf _ x m
              rw [NameIs.names hnames]
              refine ⟨fun hx => nameIs_add hs.names hx, fun hx => ?_⟩
              rcases nameIs_of_add hs.names hx with hx | ⟨hx, _⟩
              · exact hx
              · exfalso
                obtain ⟨q, hq'⟩ := hn.entries f hf
                have := le_maxKey hq'
                omega
      · split at h
        · cases h; exact Or.inl ⟨rfl, rfl⟩
        · cases h

theorem iter_fixRef_places {G : Prop} {fine : Nat × CRow → Prop} {a : Db} {L : Nat} {l : List (Nat × Nat)} {s s' : St} (hs : Schema s.db) (hl : (l.map (·.1)).Nodup)
    (h : iter fixRef l s = some s') (hi : RefInv l s.db) (hn : NExact s.db) (hp : Places G fine a s.db L)
    (hz : ∀ w ∈ l, w.2 = 0 → ∀ f ∈ s.db.contents, f.2.inode ≠ w.1) : Places G fine a s'.db L := by
  induction l generalizing s with
  | nil => cases h; exact hp
  | cons w t ih =>
    unfold iter at h
    obtain ⟨s1, h1, h⟩ := Option.bind_eq_some_iff.1 h
    rw [List.map_cons, List.nodup_cons] at hl
    have hw : ∀ n, (w.1, n) ∉ t := fun n hn => hl.1 (List.mem_map.2 ⟨(w.1, n), hn, rfl⟩)
    obtain ⟨a1, a2, a3, a4, a5, a6, a7⟩ := fixRef_step hs h1 hw hi
    have hcont : ∀ f ∈ s1.db.contents, f ∈ s.db.contents ∨ f.2.inode = w.1 := by
      intro f hf
      rcases fixRef_some h1 with ⟨rfl, hc⟩ | ⟨i, hg, ⟨h0, n, p, n', db, hf', hins, rfl⟩ | ⟨h0, rfl⟩⟩
      · exact Or.inl hf
      · have hf : f ∈ db.contents := hf
        rw [(insEntry_some hins).1] at hf
        rcases (mem_set (hs.addName false n').contents).1 hf with rfl | ⟨hf, _⟩
        · exact Or.inr rfl
        · rw [get_addName_contents hs.names] at hf
          exact Or.inl hf
      · exact Or.inl hf
    refine ih a1 hl.2 h a4 (a3 hn) ?_ ?_
    · rcases fixRef_reloc hs hn h1 (hz w List.mem_cons_self) with ⟨c1, c2⟩ | hr
      · exact hp.sameTables hs c1 c2
      · refine hp.reloc hs a1 hr ?_
        intro e he hek
        have := hs.cseq e (hp.stay e he).1
        omega
    · intro x hx h0 f hf hc
      rcases hcont f hf with hf | hf
      · exact hz x (List.mem_cons_of_mem _ hx) h0 f hf hc
      · refine hw x.2 ?_
        rw [← hf, hc]; exact hx

theorem checkInodesRefcount_places {G : Prop} {fine : Nat × CRow → Prop} {a : Db} {L : Nat} {s s' : St} (hs : Schema s.db) (h : checkInodesRefcount s = some s')
    (hn : NExact s.db) (hp : Places G fine a s.db L) : Places G fine a s'.db L := by
  refine iter_fixRef_places hs (wrongRefs_nodup hs) h wrongRefs_inv hn hp ?_
  intro w hw h0 f hf hc
  unfold wrongRefs at hw
  obtain ⟨e, he, hew⟩ := List.mem_filterMap.1 hw
  split at hew
  · have := Option.some.inj hew
    have h1 := congrArg Prod.fst this
    have h2 := congrArg Prod.snd this
    dsimp only at h1 h2
    rw [h0, iCount_eq, h1] at h2
    unfold entriesTo at h2
    have := List.countP_eq_zero.1 h2 f hf
    simp [hc] at this
  · cases hew

/-! #### check_xattr_inode -/

theorem checkXattrInode_places {G : Prop} {fine : Nat × CRow → Prop} {a : Db} {L : Nat} {s s' : St} (hs : Schema s.db) (h : checkXattrInode s = some s')
    (hn : NExact s.db) (hp : Places G fine a s.db L) : Places G fine a s'.db L := by
  obtain ⟨hs', o, _, _, n'⟩ := checkXattrInode_step hs h
  have hn' := n' hn
  have hdb := (checkXattrInode_db h).1
  have hc : s'.db.contents = s.db.contents := by rw [o]
  refine hp.keepRows hs (fun f hf => by rw [← hc]; exact hf) (fun e he => by rw [hc]; exact (hp.stay e he).1) ?_
  intro f hf x n
  refine same_of hs.names (hn'.entries f hf) (fun y m hy => ?_) x n
  have hy' : NameIs (dropAll s.db ((s.db.xattrs.filter (fun e => (AL.get s.db.inodes e.2.inode).isNone)).map (·.2.nameId))) f.2.nameId y m := by
    refine (NameIs.names ?_).1 hy
    rw [hdb]
  exact nameIs_dropAll hs hy'

/-! #### check_loops -/

theorem reanchor_reloc {G : Prop} {inode : Nat} {s s' : St} {p : Nat} (hs : Schema s.db) (hn : NExact s.db) (h : reanchor inode s = some (s', p)) :
    ∃ k r, (k, r) ∈ s.db.contents ∧ r.inode = inode ∧ Reloc G s.db s'.db k := by
  have hn' := (reanchor_step hs h).2.2.1 hn
  obtain ⟨name, n', k, r, db, hk, hi, ⟨nr, hnr, hname⟩, hf, hput, hs'⟩ := reanchor_some hs h
  refine ⟨k, r, hk, hi, reloc_add_del hs hn hk hf hput (by rw [hs']) hn' ?_⟩
  intro _ hno
  rw [← hname]
  exact hno _ hk nr.text nr.name ⟨nr.refcount, AL.get_some_mem hnr⟩

theorem loopRun_places {G : Prop} {fine : Nat × CRow → Prop} {a : Db} {L depth : Nat} : ∀ {fuel : Nat} {root : Nat} {t : List (Nat × Option Nat)} {left : List Nat} {s s' : St},
    Schema s.db → NExact s.db → Places G fine a s.db L → (∀ e, fine e → e.2.inode ∈ left → Desc t root e.2.inode) →
    loopRun depth fuel root t left s = some s' → Places G fine a s'.db L := by
  intro fuel
  induction fuel with
  | zero => intro root t left s s' _ _ _ _ h; cases h
  | succ n ih =>
    intro root t left s s' hs hn hp hd h
    unfold loopRun at h
    split at h
    · cases h
    · rename_i del hdel
      dsimp only at h
      generalize hl' : left.filter (fun i => !del.contains i) = left' at h
      have hout : ∀ e, fine e → e.2.inode ∉ left' := by
        intro e he hm
        rw [← hl'] at hm
        obtain ⟨m1, m2⟩ := List.mem_filter.1 hm
        have := (deleteTree_iff hdel).2 (hd e he m1)
        simp [this] at m2
      split at h
      · cases h; exact hp
      · rename_i inode hc
        have hm := culprit_mem hc
        split at h
        · cases h
        · rename_i s1 p hr
          obtain ⟨a1, _, a3, _⟩ := reanchor_step hs hr
          obtain ⟨k, r, hk, hi, hrel⟩ := reanchor_reloc hs hn hr
          refine ih a1 (a3 hn) (hp.reloc hs a1 hrel ?_) (fun e he hm => absurd hm (hout e he)) h
          intro e he hek
          have c1 := AL.mem_get_some hs.contents (k := e.1) (v := e.2) (hp.stay e he).1
          rw [hek, AL.mem_get_some hs.contents hk] at c1
          have : e.2.inode = inode := by rw [← Option.some.inj c1]; exact hi
          exact hout e he (this ▸ hm)

/-! #### check_lof -/

/-- What the first check does. -/
structure LofStep (a b : Db) (L : Nat) : Prop where
  lof : Lof b L
  up : ∀ id i, (id, i) ∈ a.inodes → (id, i) ∈ b.inodes
  inodes : ∀ id i, (id, i) ∈ b.inodes → (id, i) ∈ a.inodes ∨ ¬ HasInode a id
  names : ∀ f ∈ a.contents, ∀ x n, NameIs a f.2.nameId x n ↔ NameIs b f.2.nameId x n
  rows : ∀ f ∈ b.contents, f ∈ a.contents ∨ (f.2.parent = rootInode ∧ ((f.2.inode = L ∧ ¬ HasInode a L) ∨ ∃ g ∈ a.contents, g.2.inode = f.2.inode ∧ g.2.parent = g.2.inode))
  newn : ∀ f ∈ b.contents, (∃ g ∈ a.contents, g.2.nameId = f.2.nameId) ∨ NameIs b f.2.nameId false lofName
  col : ∀ f ∈ b.contents, (∃ g ∈ a.contents, g.1 = f.1 ∧ g.2.inode = f.2.inode) ∨ ¬ HasInode a f.2.inode
  keep : ∀ e ∈ a.contents, ¬ FalseLof a e.2 → (∀ f ∈ a.contents, f.2.inode = e.2.inode → f.2.parent ≠ f.2.inode) → e ∈ b.contents

theorem findLof_places {cfg : Cfg} {s s1 : St} {id nid : Nat} (hs : Schema s.db) (hb : Below s.db) (h : findLof cfg s = some (s1, id, nid)) :
    LofStep s.db s1.db id := by
  unfold findLof at h
  cases he : s.db.entry rootInode lofName with
  | some e =>
    rw [he] at h
    cases h
    refine ⟨?_, fun _ _ h => h, fun _ _ h => Or.inl h, fun _ _ _ _ => Iff.rfl, fun f hf => Or.inl hf, fun f hf => Or.inl ⟨f, hf, rfl⟩, fun f hf => Or.inl ⟨f, hf, rfl, rfl⟩, fun e he _ _ => he⟩
    intro e' he'
    rw [he] at he'
    cases he'
    rfl
  | none =>
    rw [he] at h
    dsimp only at h
    have hnone : ∀ f ∈ s.db.contents, f.2.parent = rootInode → ¬ NameIs s.db f.2.nameId false lofName := by
      intro f hf hp ⟨c, hc⟩
      have := entry_mem hs hf hc rfl
      rw [hp] at this
      have this : s.db.entry rootInode lofName = some f := this
      rw [he] at this
      cases this
    split at h
    · rename_i e hself
      split at h
      · cases h
      · rename_i db hmv
        cases h
        obtain ⟨m1, m2⟩ := moveRows_get (f := fun r => { r with parent := rootInode }) (fun r => rfl) hmv
        have hmem : e ∈ s.db.selfLof := by rw [hself]; exact List.mem_singleton.2 rfl
        have hse : e ∈ s.db.contents ∧ e.2.parent = e.2.inode := by
          unfold Db.selfLof at hmem
          split at hmem
          · cases hmem
          · obtain ⟨e1, e2⟩ := List.mem_filter.1 hmem
            simp only [Bool.and_eq_true, beq_iff_eq] at e2
            exact ⟨e1, by rw [e2.2]⟩
        have hnk : AL.NK db.contents := (findLof_schema (cfg := cfg) (s := s) hs (id := e.2.inode) (nid := e.2.nameId) (s' := { s.err with db := db }) (by unfold findLof; rw [he]; dsimp only; rw [hself]; dsimp only; rw [hmv])).contents
        have hnames : db.names = s.db.names := by rw [m1]
        have hrow : ∀ f ∈ db.contents, (f ∈ s.db.contents ∧ f.2.inode ≠ e.2.inode) ∨
            (f.2.parent = rootInode ∧ f.2.inode = e.2.inode ∧ ∃ g ∈ s.db.contents, g.1 = f.1 ∧ g.2.inode = f.2.inode ∧ g.2.nameId = f.2.nameId) := by
          intro f hf
          have g1 := m2 f.1
          rw [AL.mem_get_some hnk (k := f.1) (v := f.2) hf] at g1
          split at g1
          · rename_i hk
            obtain ⟨v, hv⟩ := mem_keys.1 hk
            obtain ⟨v1, v2⟩ := List.mem_filter.1 hv
            rw [AL.mem_get_some hs.contents v1] at g1
            have g2 : f.2 = { v with parent := rootInode } := Option.some.inj g1
            have v3 : v.inode = e.2.inode := by simpa using v2
            right
            rw [g2]
            exact ⟨rfl, v3, (f.1, v), v1, rfl, rfl, rfl⟩
          · rename_i hk
            have hf0 := AL.get_some_mem g1.symm
            left
            refine ⟨hf0, fun hc => hk (mem_keys.2 ⟨f.2, List.mem_filter.2 ⟨hf0, by simp [hc]⟩⟩)⟩
        refine ⟨?_, fun id i hi => by show (id, i) ∈ db.inodes; rw [m1]; exact hi, fun id i hi => Or.inl (by have hi : (id, i) ∈ db.inodes := hi; rw [m1] at hi; exact hi), fun _ _ _ _ => (NameIs.names hnames).symm, ?_, ?_, ?_, ?_⟩
        · intro e' he'
          obtain ⟨h1, h2, ⟨x, n, c⟩, h3, h4, h5⟩ := entry_spec he'
          cases h4; cases h5
          rcases hrow e' h1 with ⟨h1, _⟩ | ⟨_, h6, _⟩
          · refine absurd ⟨c, ?_⟩ (hnone e' h1 h2)
            have h3 : (e'.2.nameId, _) ∈ db.names := h3
            rw [hnames] at h3; exact h3
          · exact h6
        · intro f hf
          rcases hrow f hf with ⟨h1, _⟩ | ⟨h1, h2, _⟩
          · exact Or.inl h1
          · exact Or.inr ⟨h1, Or.inr ⟨e, hse.1, h2.symm, hse.2⟩⟩
        · intro f hf
          rcases hrow f hf with ⟨h1, _⟩ | ⟨_, _, g, h3, h4, h5, h6⟩
          · exact Or.inl ⟨f, h1, rfl⟩
          · exact Or.inl ⟨g, h3, h6⟩
        · intro f hf
          rcases hrow f hf with ⟨h1, _⟩ | ⟨_, _, g, h3, h4, h5, h6⟩
          · exact Or.inl ⟨f, h1, rfl, rfl⟩
          · exact Or.inl ⟨g, h3, h4, h5⟩
        · intro g hg _ hself'
          have g1 := m2 g.1
          have hne : g.2.inode ≠ e.2.inode := fun hc => hself' e hse.1 hc.symm hse.2
          rw [if_neg, AL.mem_get_some hs.contents (k := g.1) (v := g.2) hg] at g1
          · exact AL.get_some_mem g1
          · intro hk
            obtain ⟨v, hv⟩ := mem_keys.1 hk
            obtain ⟨v1, v2⟩ := List.mem_filter.1 hv
            have v3 := AL.mem_get_some hs.contents v1
            rw [AL.mem_get_some hs.contents (k := g.1) (v := g.2) hg] at v3
            cases v3
            exact hne (by simpa using v2)
    · rename_i hself
      split at h
      · cases h
      · rename_i db hins
        cases h
        obtain ⟨i1, _⟩ := insEntry_some hins
        have hs1 : Schema (s.db.createLof cfg).1 := hs.createLof cfg
        have ao := addName_other hs1.names false lofName
        have hcs : ((s.db.createLof cfg).1.addName false lofName).1.contents = s.db.contents := by rw [ao]; rfl
        have hcq : ((s.db.createLof cfg).1.addName false lofName).1.cseq = s.db.cseq := by rw [ao]; rfl
        have hin : ((s.db.createLof cfg).1.addName false lofName).1.inodes = AL.set s.db.inodes (s.db.iseq + 1) (lofInode cfg) := by rw [ao]; rfl
        rw [hcs, hcq] at i1
        have hfresh : ¬ HasInode s.db (s.db.iseq + 1) := by
          rintro ⟨i, hi⟩
          have := hs.iseq _ hi
          dsimp only at this; omega
        have hmem : ∀ f, f ∈ db.contents ↔ f = (s.db.cseq + 1, (⟨rootInode, ((s.db.createLof cfg).1.addName false lofName).2, (s.db.createLof cfg).2⟩ : CRow)) ∨ (f ∈ s.db.contents ∧ f.1 ≠ s.db.cseq + 1) := by
          intro f; rw [i1]; exact mem_set hs.contents
        have hnames : db.names = ((s.db.createLof cfg).1.addName false lofName).1.names := by rw [i1]
        have hsame : ∀ f ∈ s.db.contents, ∀ x n, NameIs s.db f.2.nameId x n ↔ NameIs db f.2.nameId x n := by
          intro f hf x n
          rw [NameIs.names hnames]
          refine ⟨fun hx => nameIs_add (db := (s.db.createLof cfg).1) hs.names hx, fun hx => ?_⟩
          rcases nameIs_of_add hs1.names hx with hx | ⟨hx, _⟩
          · exact hx
          · have := hb f hf
            have hx : f.2.nameId = maxKey s.db.names + 1 := hx
            omega
        refine ⟨?_, ?_, ?_, hsame, ?_, ?_, ?_, ?_⟩
        · intro e' he'
          obtain ⟨h1, h2, ⟨x, n, c⟩, h3, h4, h5⟩ := entry_spec he'
          cases h4; cases h5
          rcases (hmem e').1 h1 with rfl | ⟨h1, _⟩
          · rfl
          · exact absurd ((hsame e' h1 _ _).2 ⟨c, h3⟩) (hnone e' h1 h2)
        · intro id i hi
          show (id, i) ∈ db.inodes
          rw [i1]
          show (id, i) ∈ ((s.db.createLof cfg).1.addName false lofName).1.inodes
          rw [hin]
          refine (mem_set hs.inodes).2 (Or.inr ⟨hi, fun hc => hfresh ⟨i, ?_⟩⟩)
          have hc : id = s.db.iseq + 1 := hc
          rw [← hc]; exact hi
        · intro id i hi
          have hi : (id, i) ∈ db.inodes := hi
          rw [i1] at hi
          have hi : (id, i) ∈ ((s.db.createLof cfg).1.addName false lofName).1.inodes := hi
          rw [hin] at hi
          rcases (mem_set hs.inodes).1 hi with hi | ⟨hi, _⟩
          · rw [(Prod.mk.inj hi).1]; exact Or.inr hfresh
          · exact Or.inl hi
        · intro f hf
          rcases (hmem f).1 hf with rfl | ⟨hf, _⟩
          · exact Or.inr ⟨rfl, Or.inl ⟨rfl, hfresh⟩⟩
          · exact Or.inl hf
        · intro f hf
          rcases (hmem f).1 hf with rfl | ⟨hf, _⟩
          · exact Or.inr ((NameIs.names hnames).2 (nameIs_added hs1.names lofName))
          · exact Or.inl ⟨f, hf, rfl⟩
        · intro f hf
          rcases (hmem f).1 hf with rfl | ⟨hf, _⟩
          · exact Or.inr hfresh
          · exact Or.inl ⟨f, hf, rfl, rfl⟩
        · intro e he _ _
          refine (hmem e).2 (Or.inr ⟨he, ?_⟩)
          have := hs.cseq _ he
          omega
    · cases h

theorem checkLof_places {cfg : Cfg} {s s' : St} (hs : Schema s.db) (hb : Below s.db) (h : checkLof cfg s = some s') :
    ∃ L, LofStep s.db s'.db L ∧ ∃ i, (L, i) ∈ s'.db.inodes ∧ isDir i.mode = true := by
  unfold checkLof at h
  cases hf : findLof cfg s with
  | none => rw [hf] at h; cases h
  | some x =>
    obtain ⟨s1, id, nid⟩ := x
    rw [hf] at h
    have hs1 := findLof_schema hs hf
    obtain ⟨k1, ⟨k, r, hk, hp, hn, hid, hold⟩, ⟨nx, nn, nc⟩, n1, n2, n3⟩ := findLof_spec hs hf
    have step := findLof_places hs hb hf
    cases n2; cases n3
    dsimp only at h
    cases hg : AL.get s1.db.inodes id with
    | none => rw [hg] at h; cases h
    | some i =>
      rw [hg] at h
      dsimp only at h
      have hi := AL.get_some_mem hg
      by_cases hd : isDir i.mode = true
      · rw [if_pos hd] at h
        cases h
        exact ⟨id, step, i, hi, hd⟩
      · rw [if_neg hd] at h
        have hfe : findEntry (s1.db.createLof cfg).1.contents rootInode nid = some (k, r) := by
          show findEntry s1.db.contents rootInode nid = some (k, r)
          cases hx : findEntry s1.db.contents rootInode nid with
          | none => exact absurd ⟨hp, hn⟩ (findEntry_none hx _ hk)
          | some e =>
            obtain ⟨c1, c2, c3⟩ := findEntry_spec hx
            rw [hs1.entryUnique e c1 (k, r) hk (c2.trans hp.symm) (c3.trans hn.symm)]
        rw [hfe] at h
        dsimp only at h
        cases h
        have hfresh1 : ∀ j, (s1.db.iseq + 1, j) ∉ s1.db.inodes := by
          intro j hj
          have := hs1.iseq _ hj
          dsimp only at this; omega
        have hfresh : ¬ HasInode s.db (s1.db.iseq + 1) := fun ⟨j, hj⟩ => hfresh1 j (step.up _ j hj)
        have hent : s1.db.entry rootInode lofName = some (k, r) := by
          have := entry_mem hs1 hk (r := ⟨false, lofName, nc⟩) (by rw [hn]; exact n1) rfl
          rw [hp] at this
          exact this
        refine ⟨s1.db.iseq + 1, ⟨?_, ?_, ?_, step.names, ?_, ?_, ?_, ?_⟩, lofInode cfg, ?_, by dsimp only [lofInode]; decide⟩
        · intro e' he'
          obtain ⟨h1, h2, ⟨x, n, c⟩, h3, h4, h5⟩ := entry_spec he'
          cases h4; cases h5
          rcases (mem_set hs1.contents).1 h1 with rfl | ⟨h1, hne⟩
          · rfl
          · exfalso
            have := entry_mem hs1 h1 h3 rfl
            rw [h2] at this
            have this : s1.db.entry rootInode lofName = some e' := this
            rw [hent] at this
            exact hne (congrArg (·.1) (Option.some.inj this).symm)
        · intro id j hj
          refine (mem_set hs1.inodes).2 (Or.inr ⟨step.up id j hj, fun hc => hfresh1 j ?_⟩)
          have hc : id = s1.db.iseq + 1 := hc
          rw [← hc]; exact step.up id j hj
        · intro id j hj
          rcases (mem_set hs1.inodes).1 hj with hj | ⟨hj, _⟩
          · rw [(Prod.mk.inj hj).1]; exact Or.inr hfresh
          · exact step.inodes id j hj
        · intro f hf'
          rcases (mem_set hs1.contents).1 hf' with rfl | ⟨hf', hne⟩
          · exact Or.inr ⟨hp, Or.inl ⟨rfl, hfresh⟩⟩
          · rcases step.rows f hf' with h1 | ⟨h1, ⟨_, h2⟩ | h2⟩
            · exact Or.inl h1
            · obtain ⟨_, _, _, _, h3, _⟩ := hold i hi (Bool.eq_false_iff.2 hd)
              exact absurd ⟨i, h3⟩ h2
            · exact Or.inr ⟨h1, Or.inr h2⟩
        · intro f hf'
          rcases (mem_set hs1.contents).1 hf' with rfl | ⟨hf', hne⟩
          · exact step.newn (k, r) hk
          · exact step.newn f hf'
        · intro f hf'
          rcases (mem_set hs1.contents).1 hf' with rfl | ⟨hf', hne⟩
          · exact Or.inr hfresh
          · exact step.col f hf'
        · intro e he hex hself
          have h1 := step.keep e he hex hself
          refine (mem_set hs1.contents).2 (Or.inr ⟨h1, ?_⟩)
          intro hek
          have hek : e.1 = k := hek
          have c1 := AL.mem_get_some hs1.contents (k := e.1) (v := e.2) h1
          rw [hek, AL.mem_get_some hs1.contents hk] at c1
          have c2 : r = e.2 := Option.some.inj c1
          obtain ⟨c, hc⟩ := (step.names e he false lofName).2 ⟨nc, by rw [← c2, hn]; exact n1⟩
          refine hex ⟨⟨_, hc, rfl, rfl⟩, ?_⟩
          intro j hj
          have := AL.mem_get_some hs1.inodes (step.up _ j hj)
          rw [← c2, hid, hg] at this
          cases this
          exact Bool.eq_false_iff.2 hd
        · exact (mem_set hs1.inodes).2 (Or.inl rfl)

/-! #### The blocks of a file whose blocks are all stored -/

theorem cacheFile_blocks {cfg : Cfg} {f : CFile} {s s' : St} (hs : Schema s.db) (h : cacheFile cfg f s = some s') :
    ∀ b ∈ s'.db.blocks, b ∈ s.db.blocks ∨ ∃ d, f = CFile.blk b.2.inode b.2.blockno d := by
  cases f with
  | strange => cases h
  | tmp => cases h; exact fun b hb => Or.inl hb
  | blk i n data =>
    intro b hb
    simp only [cacheFile] at h
    split at h
    · cases h; exact Or.inl hb
    · have hoth := objectFor_other cfg s.err data
      generalize objectFor cfg s.err data = y at h hoth
      obtain ⟨s1, oid⟩ := y
      dsimp only at h hoth
      have hbl : s1.db.blocks = s.db.blocks := by rw [hoth]; rfl
      have hnk : AL.NK s1.db.blocks := by rw [hbl]; exact hs.blocks
      split at h
      · cases h
        rcases (mem_set hnk).1 hb with rfl | ⟨hb, _⟩
        · exact Or.inr ⟨data, rfl⟩
        · rw [hbl] at hb; exact Or.inl hb
      · rename_i rowid r hfb
        cases h
        rcases (mem_set hnk).1 hb with rfl | ⟨hb, _⟩
        · have := findBlock_spec hfb
          obtain ⟨_, h2, h3⟩ := this
          dsimp only at h2 h3 ⊢
          exact Or.inr ⟨data, by rw [h2, h3]⟩
        · rw [hbl] at hb; exact Or.inl hb

theorem EntryOk.blocks {cfg : Cfg} {c : CacheArg} {s s1 s2 : St} (hs : Schema s.db) {e : Nat × CRow} (he : EntryOk cfg s e)
    (h1 : checkLof cfg s = some s1) (h2 : cachePart cfg c s1 = some s2) :
    ∀ b ∈ s2.db.blocks, b.2.inode = e.2.inode → ∃ x, BlockStored cfg s2 e.2.inode b.2.blockno x := by
  have hs1 := checkLof_schema hs h1
  obtain ⟨bl, c1, _⟩ := checkLof_keeps h1
  obtain ⟨lo, lb⟩ := checkLof_objects h1
  have hb1 : ∀ b ∈ s1.db.blocks, b.2.inode = e.2.inode → ∃ x, BlockStored cfg s1 e.2.inode b.2.blockno x := by
    intro b hb hi
    rw [bl] at hb
    obtain ⟨x, hx⟩ := he.stored b hb hi
    refine ⟨x, hx.keep ?_ ?_ ?_⟩
    · intro e he _ _ _; rw [bl]; exact he
    · intro k o hk _ _ _; exact ⟨o, by rw [lo]; exact hk, rfl⟩
    · intro k o _; rw [lb]
  have hh1 : ∀ b d, CFile.blk e.2.inode b d ∈ s.cache → HashStored cfg s1 (cfg.sha d) := by
    intro b d hd o ho hx
    rw [lb]
    exact he.cached b d hd o (by rw [← lo]; exact ho) hx
  have aux : ∀ keep s2, checkCache cfg keep s1 = some s2 → ∀ b ∈ s2.db.blocks, b.2.inode = e.2.inode → ∃ x, BlockStored cfg s2 e.2.inode b.2.blockno x := by
    intro keep s2 h2
    unfold checkCache at h2
    obtain ⟨t, ht, rfl⟩ := Option.map_eq_some_iff.1 h2
    rw [c1] at ht
    refine (iter_inv (f := cacheFile cfg) (fun t => Schema t.db ∧ (∀ b d, CFile.blk e.2.inode b d ∈ s.cache → HashStored cfg t (cfg.sha d)) ∧
      ∀ b ∈ t.db.blocks, b.2.inode = e.2.inode → ∃ x, BlockStored cfg t e.2.inode b.2.blockno x) ?_ ht ⟨hs1, hh1, hb1⟩).2.2
    intro f hf u u' ⟨hu, hh, hb⟩ hcf
    obtain ⟨k1, k2, k3⟩ := cacheFile_stores hu hcf
    refine ⟨cacheFile_schema hu hcf, fun b d hd => k1 _ (hh b d hd), ?_⟩
    intro b hbm hi
    by_cases hex : ∃ d, f = CFile.blk e.2.inode b.2.blockno d
    · obtain ⟨d, hd⟩ := hex
      exact ⟨_, k2 _ _ d hd (hh _ d (hd ▸ hf))⟩
    · rcases cacheFile_blocks hu hcf b hbm with hold | ⟨d, hd⟩
      · obtain ⟨x, hx⟩ := hb b hold hi
        exact ⟨x, k3 _ _ _ (fun d hd => hex ⟨d, hd⟩) hx⟩
      · exact absurd ⟨d, by rw [hd, hi]⟩ hex
  cases c with
  | no => cases h2; exact hb1
  | yes => exact aux _ _ h2
  | keep => exact aux _ _ h2

/-! #### The whole run -/

theorem checkA_places {cfg : Cfg} {c : CacheArg} {s s' : St} (hs : Schema s.db) (hk : NamesKnown s.db) (h : checkA cfg c s = some s') :
    ∃ (s1 s2 : St) (L : Nat), checkLof cfg s = some s1 ∧ cachePart cfg c s1 = some s2 ∧ s'.db.blocks = s2.db.blocks ∧ LofStep s.db s1.db L ∧ (∃ i, (L, i) ∈ s1.db.inodes ∧ isDir i.mode = true) ∧
      Places (StrOk cfg ∧ NamesOk s.db) (InPlace cfg s) s1.db s'.db L := by
  have h0 := h
  obtain ⟨s1', s2', t1, t2, tb, _⟩ := checkA_tail hs h0
  unfold checkA at h
  obtain ⟨s1, h1, h⟩ := Option.bind_eq_some_iff.1 h
  obtain ⟨s2, h2, h⟩ := Option.bind_eq_some_iff.1 h
  obtain ⟨s4, h4, h⟩ := Option.bind_eq_some_iff.1 h
  obtain ⟨s5, h5, h⟩ := Option.bind_eq_some_iff.1 h
  have hs1 := checkLof_schema hs h1
  have hs2 := cachePart_schema hs1 h2
  have hs3 := checkNamesRefcount_schema hs2
  obtain ⟨hs4, hm4⟩ := checkContentsName_moved hs3 h4
  have hs5 := checkContentsInode_schema hs4 h5
  have hn1 := checkLof_names hs h1 hk
  have hn2 : NamesKnown s2.db := by rw [cachePart_other h2]; exact hn1
  have hn3 := checkNamesRefcount_NK1 hs2 hn2.uses
  have hx3 : XattrsHaveName (checkNamesRefcount s2).db := by
    intro e he
    obtain ⟨r, hr⟩ := hn2.2 e he
    exact ⟨_, List.mem_map.2 ⟨(e.2.nameId, r), hr, rfl⟩⟩
  have hn4 := checkContentsName_exact hs3 h4 hn3 hx3
  have hn5 := checkContentsInode_exact h5 hn4
  obtain ⟨L, step, hdir⟩ := checkLof_places hs hk.1 h1
  rw [h1] at t1
  have e1 := Option.some.inj t1
  subst e1
  rw [h2] at t2
  have e2 := Option.some.inj t2
  subst e2
  refine ⟨s1, s2, L, h1, h2, tb, step, hdir, ?_⟩
  have p1 : Places (StrOk cfg ∧ NamesOk s.db) (InPlace cfg s) s1.db s1.db L := by
    refine ⟨step.lof, ?_, fun f hf => Or.inl ⟨hf, fun _ _ => Iff.rfl⟩, ?_, fun e he hu => hu⟩
    · intro g f hf x n hx
      rcases step.newn f hf with ⟨q, hq, hqn⟩ | hl
      · rw [← hqn] at hx
        exact g.2 q hq x n ((step.names q hq x n).2 hx)
      · rw [(NameIs.unique hs1.names hx hl).2]
        exact ⟨by decide, by decide, by decide, by decide, by decide⟩
    · intro e he
      exact ⟨step.keep e he.ok.row he.ok.lof he.ok.self, fun _ _ => Iff.rfl⟩
  have p2 : Places (StrOk cfg ∧ NamesOk s.db) (InPlace cfg s) s1.db s2.db L :=
    p1.sameTables hs1 (by rw [cachePart_other h2]) (by rw [cachePart_other h2])
  have hcnt : ∀ j x n, NameIs s2.db j x n ↔ NameIs (checkNamesRefcount s2).db j x n := by
    intro j x n
    constructor
    · rintro ⟨c, hc⟩
      exact ⟨_, List.mem_map.2 ⟨_, hc, rfl⟩⟩
    · rintro ⟨c, hc⟩
      obtain ⟨q, hq, hq'⟩ := List.mem_map.1 hc
      obtain ⟨j', x', n', c'⟩ := q
      cases hq'
      exact ⟨c', hq⟩
  have p3 : Places (StrOk cfg ∧ NamesOk s.db) (InPlace cfg s) s1.db (checkNamesRefcount s2).db L :=
    p2.keepRows hs2 (fun f hf => hf) (fun e he => (p2.stay e he).1) (fun f _ => hcnt f.2.nameId)
  have hb3 : Below (checkNamesRefcount s2).db := by
    intro e he
    have hmk : maxKey (checkNamesRefcount s2).db.names = maxKey s2.db.names := by
      apply maxKey_keys
      unfold checkNamesRefcount keys
      simp
    rw [hmk]
    exact hn2.1 e he
  have p4 := checkContentsName_places hs3 hb3 h4 p3 (by
    intro e he
    obtain ⟨x, n, hx⟩ := he.ok.name.is
    exact ((step.names e he.ok.row x n).1 hx).has)
  have i4 : ∀ id, HasInode s.db id → HasInode s4.db id := by
    rintro id ⟨i, hi⟩
    have h3 := step.up id i hi
    refine ⟨i, ?_⟩
    rw [hm4.1]
    show (id, i) ∈ s2.db.inodes
    rw [cachePart_other h2]
    exact h3
  have p5 := checkContentsInode_places hs4 hn4 h5 p4 (fun e he => i4 _ he.ok.inode)
  refine checkContentsParent_places (fun g => g.1) hs5 hn5 h p5 ?_
  intro e he
  obtain ⟨i, hi⟩ := i4 _ he.ok.parent
  refine ⟨i, ?_⟩
  rw [checkContentsInode_db h5, dropAll_other]
  exact hi

theorem checkB_places {G : Prop} {fine : Nat × CRow → Prop} {a : Db} {L : Nat} {cfg : Cfg} {s s' : St} (hs : Schema s.db) (hn : NExact s.db)
    (h : checkB cfg s = some s') (hp : Places G fine a s.db L)
    (hf : ∀ e, fine e → HasInode s.db e.2.inode ∧ ∀ b ∈ s.db.blocks, b.2.inode = e.2.inode → ∃ x, BlockStored cfg s e.2.inode b.2.blockno x) :
    Places G fine a s'.db L := by
  have h0 := h
  unfold checkB at h
  obtain ⟨s9, h9, h⟩ := Option.bind_eq_some_iff.1 h
  obtain ⟨s10, h10, h⟩ := Option.bind_eq_some_iff.1 h
  obtain ⟨s11, h11, h⟩ := Option.bind_eq_some_iff.1 h
  obtain ⟨s12, h12, h13⟩ := Option.bind_eq_some_iff.1 h
  have hs8 : Schema (checkObjectsHash (checkObjectsTemp s)).db := checkObjectsHash_schema (s := checkObjectsTemp s) hs
  have o8 : ObjOnly s.db (checkObjectsHash (checkObjectsTemp s)).db := rfl
  obtain ⟨hs9, o9, _, _, _⟩ := checkObjectsRefcount_step hs8 h9
  obtain ⟨hs10, o10, _, _⟩ := checkObjectsId_step hs9 h10
  obtain ⟨hs11, o11, _, _⟩ := checkObjectsPhys_step hs10 h11
  have oo : ObjOnly s.db s11.db := ((o8.trans o9).trans o10).trans o11
  obtain ⟨t, ht, mv, hx, d12⟩ := checkBlocksObj_step hs11 h12
  have hs12 : Schema s12.db := by
    rw [d12]
    refine ht.sub (List.Sublist.refl _) (List.Sublist.refl _) ?_ (List.Sublist.refl _) (List.Sublist.refl _) rfl rfl rfl rfl rfl
    rw [mv.1]; exact List.filter_sublist
  obtain ⟨d13, _⟩ := checkBlocksInode_db h13
  have p11 : Places G fine a s11.db L := hp.sameTables hs (by rw [oo]) (by rw [oo])
  have n11 : NExact s11.db := by rw [oo]; exact hn
  have p12 := checkBlocksObj_places hs11 h12 n11 p11 (by
    intro e he b hb hi
    have hb0 : b ∈ s.db.blocks := by rw [oo] at hb; exact hb
    obtain ⟨f1, f2⟩ := hf e he
    obtain ⟨x, hx⟩ := f2 b hb0 hi
    obtain ⟨b', o, d, m1, m2, m3, m4, _⟩ := checkB_keeps hs h0 f1 hx
    have hb' : b' ∈ s11.db.blocks := by
      rw [d13] at m1
      have m1 := (List.mem_filter.1 m1).1
      rw [d12] at m1
      exact (List.mem_filter.1 m1).1
    have heq := hs11.blockUnique b hb b' hb' (hi.trans m2.symm) m3.symm
    rw [heq]
    have hk : b'.2.obj ∈ keys s12.db.objects := by
      rw [d13] at m4
      rw [← unref_keys s12.db.objects ((s12.db.blocks.filter (fun e => (AL.get s12.db.inodes e.2.inode).isNone)).map (·.2.obj))]
      exact mem_keys.2 ⟨o, m4⟩
    obtain ⟨o', ho'⟩ := mem_keys.1 hk
    rw [d12, mv.1] at ho'
    exact ⟨o', ho'⟩)
  exact p12.sameTables hs12 (by rw [d13]) (by rw [d13])

/-- A directory of the path of an entry that is in place is reached from the root before check_loops moves anything. -/
theorem desc_of_inPlace {cfg : Cfg} {s : St} {a t : Db} {L : Nat} {G : Prop} (hst : LofStep s.db a L)
    (hdir : ∃ i, (L, i) ∈ a.inodes ∧ isDir i.mode = true) (ht : Schema t) (hp : Places G (InPlace cfg s) a t L) {e : Nat × CRow} (he : InPlace cfg s e)
    (hc : ∃ f ∈ t.contents, f.2.parent = e.2.inode) : Desc (loopTable t) rootInode e.2.inode := by
  have key : ∀ e : Nat × CRow, InPlace cfg s e → (∃ f ∈ t.contents, f.2.parent = e.2.inode) → e.2.inode = rootInode ∨ (e.2.inode, some e.2.parent) ∈ loopTable t := by
    intro e he ⟨f, hf, hfp⟩
    by_cases hroot : e.2.inode = rootInode
    · exact Or.inl hroot
    right
    have hmore : (∃ i, (e.2.inode, i) ∈ s.db.inodes ∧ isDir i.mode = true) ∨ (∃ f ∈ s.db.contents, f.2.parent = e.2.inode) := by
      rcases hp.place f hf with ⟨h1, _⟩ | h1
      · rcases hst.rows f h1 with h2 | ⟨h2, _⟩
        · exact Or.inr ⟨f, h2, hfp⟩
        · exact absurd (hfp.symm.trans h2) hroot
      · obtain ⟨i, hi, hd⟩ := hdir
        have hLe : L = e.2.inode := h1.symm.trans hfp
        rw [hLe] at hi
        rcases hst.inodes _ i hi with h2 | h2
        · exact Or.inl ⟨i, h2, hd⟩
        · exact absurd he.ok.inode h2
    have hone := he.ok.one hmore
    have hu : ∀ g ∈ t.contents, g.2.inode = e.2.inode → g.1 = e.1 := by
      refine hp.uniq e he ?_
      intro g hg hgi
      rcases hst.col g hg with ⟨q, hq, hq1, hq2⟩ | hno
      · rw [← hq1, hone q hq (hq2.trans hgi)]
      · rw [hgi] at hno
        exact absurd he.ok.inode hno
    have het := (hp.stay e he).1
    unfold loopTable
    refine List.mem_map.2 ⟨e.2.inode, dedup_mem.2 (List.mem_map.2 ⟨f, hf, hfp⟩), ?_⟩
    cases hx : t.contents.find? (fun g => g.2.inode == e.2.inode) with
    | none =>
      have := List.find?_eq_none.1 hx e het
      simp at this
    | some g =>
      have g1 := List.mem_of_find?_eq_some hx
      have g2 : g.2.inode = e.2.inode := by simpa using List.find?_some hx
      have g3 := hu g g1 g2
      have c1 := AL.mem_get_some ht.contents (k := g.1) (v := g.2) g1
      rw [g3, AL.mem_get_some ht.contents (k := e.1) (v := e.2) het] at c1
      show (e.2.inode, some g.2.parent) = _
      rw [← Option.some.inj c1]
  induction he with
  | @top e h1 h2 =>
    rcases key e (InPlace.top h1 h2) hc with h3 | h3
    · rw [h3]; exact Desc.refl
    · rw [h2] at h3
      exact Desc.step h3 Desc.refl
  | @under e f h1 h2 h3 ih =>
    have hE := InPlace.under h1 h2 h3
    rcases key e hE hc with h4 | h4
    · rw [h4]; exact Desc.refl
    · refine Desc.step h4 ?_
      rw [← h3]
      exact ih ⟨e, (hp.stay e hE).1, h3.symm⟩

theorem checkC_places {cfg : Cfg} {depth : Nat} {s0 s s' : St} {a : Db} {L : Nat} {G : Prop} (hst : LofStep s0.db a L)
    (hdir : ∃ i, (L, i) ∈ a.inodes ∧ isDir i.mode = true) (hs : Schema s.db) (hn : NExact s.db)
    (h : checkC cfg depth s = some s') (hp : Places G (InPlace cfg s0) a s.db L) : Places G (InPlace cfg s0) a s'.db L := by
  unfold checkC at h
  obtain ⟨s14, h14, h⟩ := Option.bind_eq_some_iff.1 h
  obtain ⟨s15, h15, h⟩ := Option.bind_eq_some_iff.1 h
  obtain ⟨s16, h16, h⟩ := Option.bind_eq_some_iff.1 h
  obtain ⟨s17, h17, h⟩ := Option.bind_eq_some_iff.1 h
  obtain ⟨s19, h19, h⟩ := Option.bind_eq_some_iff.1 h
  obtain ⟨s20, h20, h⟩ := Option.bind_eq_some_iff.1 h
  cases h
  obtain ⟨hs14, k14, n14, r14, _, _, b14⟩ := checkInodesRefcount_step hs h14
  obtain ⟨hs15, o15, b15⟩ := checkInodesSize_step hs14 h15
  obtain ⟨hs16, o16, b16, same16⟩ := checkXattrName_step hs15 h16
  obtain ⟨hs17, o17, b17, x17, n17⟩ := checkXattrInode_step hs16 h17
  obtain ⟨hs18, y18, k18⟩ := checkSymlinks_step hs17
  obtain ⟨hs19, m19, n19, b19, p19⟩ := checkLoops_step hs18 h19
  obtain ⟨hs20, o20, b20⟩ := checkUnix_step hs19 h20
  have q14 := checkInodesRefcount_places hs h14 hn hp
  have q15 : Places G (InPlace cfg s0) a s15.db L := q14.sameTables hs14 (by rw [o15.1]) (by rw [o15.1])
  have e15 := o15.exact (n14 hn)
  have e16 : s16 = s15 := same16 e15.xattrs
  subst e16
  have q17 := checkXattrInode_places hs16 h17 e15 q15
  have e17 : NExact s17.db := n17 e15
  have q18 : Places G (InPlace cfg s0) a (checkSymlinks s17).db L := q17.sameTables hs17 rfl rfl
  have e18 : NExact (checkSymlinks s17).db := e17
  have q19 : Places G (InPlace cfg s0) a s19.db L := by
    refine loopRun_places hs18 e18 q18 ?_ h19
    intro e he hm
    refine desc_of_inPlace hst hdir hs18 q18 he ?_
    rw [keys_loopTable, dedup_mem] at hm
    obtain ⟨f, hf, hfp⟩ := List.mem_map.1 hm
    exact ⟨f, hf, hfp⟩
  have q20 : Places G (InPlace cfg s0) a s20.db L := q19.sameTables hs19 (by rw [o20.1]) (by rw [o20.1])
  have hfdb : (checkForeign s20).db = s20.db := by unfold checkForeign; split <;> rfl
  rw [hfdb]
  exact q20

theorem check_places {cfg : Cfg} {depth : Nat} {c : CacheArg} {s s' : St} (hs : Schema s.db) (hk : NamesKnown s.db)
    (h : check cfg depth c s = some s') :
    ∃ (s1 : St) (L : Nat), LofStep s.db s1.db L ∧ Places (StrOk cfg ∧ NamesOk s.db) (InPlace cfg s) s1.db s'.db L := by
  unfold check at h
  obtain ⟨s6, h6, h⟩ := Option.bind_eq_some_iff.1 h
  obtain ⟨s13, h13, h20⟩ := Option.bind_eq_some_iff.1 h
  obtain ⟨hs6, _, _, n6⟩ := checkA_step hs h6
  have hn6 := n6 hk
  obtain ⟨hs13, _, _, _, _, n13, _⟩ := checkB_step hs6 h13
  obtain ⟨s1, s2, L, h1, h2, hbl, hst, hdir, p6⟩ := checkA_places hs hk h6
  refine ⟨s1, L, hst, ?_⟩
  have p13 := checkB_places hs6 hn6 h13 p6 (by
    intro e he
    obtain ⟨s1', s2', h1', h2', B, O, I, K⟩ := checkA_tail hs h6
    rw [h1] at h1'; cases h1'
    rw [h2] at h2'; cases h2'
    obtain ⟨_, _, i1⟩ := checkLof_keeps h1
    refine ⟨?_, ?_⟩
    · unfold HasInode; rw [I]; exact i1 _ he.ok.inode
    · intro b hb hi
      rw [B] at hb
      obtain ⟨x, hx⟩ := he.ok.blocks hs h1 h2 b hb hi
      refine ⟨x, hx.keep ?_ ?_ ?_⟩
      · intro e he _ _ _; rw [B]; exact he
      · intro k o hk _ _ _; exact ⟨o, by rw [O]; exact hk, rfl⟩
      · intro k o _; rw [K])
  exact checkC_places hst hdir hs13 (n13 hn6) h20 p13

/-! #### C79 -/

/-- An entry that meets the conditions, together with all entries on its path, is found at the same place and under the
same name after the run. -/
theorem C79_in_place {cfg : Cfg} {depth : Nat} {c : CacheArg} {s s' : St} (hs : Schema s.db) (hk : NamesKnown s.db)
    (h : Completed cfg depth c s s') {e : Nat × CRow} (he : InPlace cfg s e) :
    e ∈ s'.db.contents ∧ ∀ x n, NameIs s.db e.2.nameId x n ↔ NameIs s'.db e.2.nameId x n := by
  obtain ⟨s1, L, hst, hp⟩ := check_places hs hk h.1
  obtain ⟨h1, h2⟩ := hp.stay e he
  exact ⟨h1, fun x n => (hst.names e he.ok.row x n).trans (h2 x n)⟩

/-- After the run every entry is where it was, under the same name, or in the directory `lost+found`; or it leads to that
directory, which the run created, or to something that was in itself, and is in the root. -/
theorem C79_moved {cfg : Cfg} {depth : Nat} {c : CacheArg} {s s' : St} (hs : Schema s.db) (hk : NamesKnown s.db)
    (h : Completed cfg depth c s s') :
    ∃ L, (∀ e, s'.db.entry rootInode lofName = some e → e.2.inode = L) ∧ ∀ f ∈ s'.db.contents,
      (f ∈ s.db.contents ∧ ∀ x n, NameIs s.db f.2.nameId x n ↔ NameIs s'.db f.2.nameId x n) ∨ f.2.parent = L ∨
        (f.2.parent = rootInode ∧ ((f.2.inode = L ∧ ¬ HasInode s.db L) ∨ ∃ g ∈ s.db.contents, g.2.inode = f.2.inode ∧ g.2.parent = g.2.inode)) := by
  obtain ⟨s1, L, hst, hp⟩ := check_places hs hk h.1
  refine ⟨L, hp.lof, ?_⟩
  intro f hf
  rcases hp.place f hf with ⟨h1, h2⟩ | h1
  · rcases hst.rows f h1 with h3 | h3
    · exact Or.inl ⟨h3, fun x n => (hst.names f h3 x n).trans (h2 x n)⟩
    · exact Or.inr (Or.inr h3)
  · exact Or.inr (Or.inl h1)

/-- If all entries have usable names before, all entries have usable names after the run. -/
theorem C79_names_usable {cfg : Cfg} {depth : Nat} {c : CacheArg} {s s' : St} (hs : Schema s.db) (hk : NamesKnown s.db) (hstr : StrOk cfg)
    (hno : NamesOk s.db) (h : Completed cfg depth c s s') :
    ∀ e ∈ s'.db.contents, ∃ x n, NameIs s'.db e.2.nameId x n ∧ NameOk n := by
  obtain ⟨s1, L, hst, hp⟩ := check_places hs hk h.1
  intro e he
  obtain ⟨x, n, hx⟩ := ((check_good hs h.1).2.2.2 h.2).1 e he |>.is
  exact ⟨x, n, hx, hp.names ⟨hstr, hno⟩ e he x n hx⟩

end Verif.Fsck
