/-
C79: the names of the entries that fsck moves to lost+found.
-/
import Verif.Fsck.Place
import Verif.Fsck.Props

namespace Verif.Fsck
open Verif.Fs (Bytes Inode rootInode ctrlInode isDir sIFMT)

/-! #### Specification -/

/-- Every underscore twice. -/
def double : Bytes → Bytes
  | [] => []
  | c :: t => if c = 95 then 95 :: 95 :: double t else c :: double t

/-- A path as one name: the components with every underscore twice, and one underscore between two components. -/
def flat : List Bytes → Bytes
  | [] => []
  | [c] => double c
  | c :: d :: t => double c ++ 95 :: flat (d :: t)

/-- `got` is a free name in lost+found, which is the directory `L`, made from `want`: `want` itself if it is short and free;
of a long name, the first and the last 120 bytes with ` ... ` between them; and a number if this is taken. -/
structure FreeName (db : Db) (want : Bytes) (L : Nat) (got : Bytes) : Prop where
  lof : ∃ e, db.entry rootInode lofName = some e ∧ e.2.inode = L
  free : db.entry L got = none
  made : ∃ m i, (want.length ≤ 251 → m = want) ∧
    (251 < want.length → ∃ a b c, want = a ++ b ++ c ∧ a.length = 120 ∧ c.length = 120 ∧ m = a ++ [32, 46, 46, 46, 32] ++ c) ∧
    (i = 0 → got = m) ∧ (0 < i → (∃ e, db.entry L m = some e) ∧ got = m ++ 45 :: dec i) ∧
    (i < 1000 → got.length ≤ 255)

/-- The names `l` lead from the directory `d` to `id`. -/
inductive Walk (db : Db) : Nat → List Bytes → Nat → Prop
  | here (d : Nat) : Walk db d [] d
  | step {d id : Nat} {k j m : Nat} {x : Bool} {n : Bytes} {l : List Bytes} : (k, (⟨d, j, m⟩ : CRow)) ∈ db.contents → NameIs db j x n → Walk db m l id → Walk db d (n :: l) id

/-- The entry `k` is in the directory `L` under the name `n`, and leads to `inode`. -/
def IsAt (db : Db) (k L : Nat) (n : Bytes) (inode : Nat) : Prop :=
  ∃ j, (k, (⟨L, j, inode⟩ : CRow)) ∈ db.contents ∧ NameIs db j false n

/-! #### Lemmas -/

set_option maxRecDepth 100000 in
theorem dec_short : ∀ i, i < 1000 → (dec i).length ≤ 3 := by decide +kernel

theorem shorten_spec (n : Bytes) :
    (n.length ≤ 251 → shorten n = n) ∧
    (251 < n.length → ∃ a b c, n = a ++ b ++ c ∧ a.length = 120 ∧ c.length = 120 ∧ shorten n = a ++ [32, 46, 46, 46, 32] ++ c) := by
  unfold shorten
  constructor
  · intro h
    rw [if_neg (by omega)]
  · intro h
    rw [if_pos (by omega)]
    refine ⟨n.take 120, (n.drop 120).take (n.length - 240), n.drop (n.length - 120), ?_, ?_, ?_, rfl⟩
    · have h1 : n.drop (n.length - 120) = (n.drop 120).drop (n.length - 240) := by
        have h2 : 120 + (n.length - 240) = n.length - 120 := by omega
        rw [List.drop_drop, h2]
      rw [h1, List.append_assoc, List.take_append_drop, List.take_append_drop]
    · rw [List.length_take]; omega
    · rw [List.length_drop]; omega

theorem resolveFree_free {db : Db} {n n' : Bytes} {p : Nat} (h : db.resolveFree n = some (p, n')) : FreeName db n p n' := by
  obtain ⟨h1, h2⟩ := resolveFree_spec h
  obtain ⟨i, h3, _, h4⟩ := resolveFree_name h
  obtain ⟨s1, s2⟩ := shorten_spec n
  refine ⟨h1, h2, shorten n, i, s1, s2, ?_, ?_, ?_⟩
  · intro hi; rw [h3, hi]; rfl
  · intro hi
    refine ⟨h4 0 hi, ?_⟩
    rw [h3]
    unfold candidate
    rw [if_neg (by omega)]
    simp
  · intro hi
    have hd := dec_short i hi
    have hl : (shorten n).length ≤ 251 := by
      by_cases hc : n.length ≤ 251
      · rw [s1 hc]; exact hc
      · obtain ⟨a, b, c, _, ha, hc', he⟩ := s2 (by omega)
        rw [he]; simp only [List.length_append, List.length_cons, List.length_nil]; omega
    rw [h3]
    unfold candidate
    split
    · omega
    · simp only [List.length_append, List.length_cons, List.length_nil]; omega

theorem escape_double (c : Bytes) (h : (47 : UInt8) ∉ c) :
    c.flatMap (fun c => if c = 95 then [95, 95] else if c = 47 then [95] else [c]) = double c := by
  induction c with
  | nil => rfl
  | cons a t ih =>
    have ih := ih (fun hc => h (List.mem_cons_of_mem _ hc))
    have h47 : a ≠ 47 := fun hc => h (by rw [hc]; exact List.mem_cons_self)
    rw [List.flatMap_cons, ih]
    show _ = if a = 95 then 95 :: 95 :: double t else a :: double t
    split
    · rfl
    · rfl

theorem escape_flat (l : List Bytes) (h : ∀ c ∈ l, (47 : UInt8) ∉ c) : escape (joinPath l) = flat l := by
  unfold escape joinPath
  induction l with
  | nil => rfl
  | cons c t ih =>
    have ih := ih (fun d hd => h d (List.mem_cons_of_mem _ hd))
    rw [List.flatMap_cons, List.cons_append, List.drop_one, List.tail_cons, List.flatMap_append, escape_double c (h c List.mem_cons_self)]
    cases t with
    | nil => simp [flat]
    | cons d t =>
      rw [flat, ← ih, List.flatMap_cons, List.cons_append, List.flatMap_cons, List.drop_one, List.tail_cons]
      rfl

/-- The components of a path are names of entries. -/
theorem path_slash {db : Db} (hno : NamesOk db) {id : Nat} {l : List Bytes} (h : db.path id = .ok l) : ∀ c ∈ l, (47 : UInt8) ∉ c := by
  intro c hc
  rcases pathLoop_names h c hc with h1 | ⟨e, he, x, h1⟩
  · cases h1
  · exact (hno e he x c h1).slash

theorem pathLoop_walk {db : Db} {id0 : Nat} {fuel id : Nat} {acc l : List Bytes} (h : pathLoop db fuel id acc = .ok l) (hw : Walk db id acc id0) :
    Walk db rootInode l id0 := by
  induction fuel generalizing id acc with
  | zero => unfold pathLoop at h; cases h
  | succ f ih =>
    unfold pathLoop at h
    split at h
    · rename_i hr
      cases h
      rw [← hr]; exact hw
    · split at h
      · cases h
      · rename_i e he
        obtain ⟨k, nr, m1, m4, m2, m3⟩ := entriesOf_mem (List.mem_of_mem_head? he)
        refine ih h ?_
        have m1' : (k, (⟨e.2.parent, e.2.nameId, id⟩ : CRow)) ∈ db.contents := by rw [← m4]; exact m1
        rw [← m3]
        exact Walk.step m1' ⟨nr.refcount, AL.get_some_mem m2⟩ hw

theorem path_walk {db : Db} {id : Nat} {l : List Bytes} (h : db.path id = .ok l) : Walk db rootInode l id :=
  pathLoop_walk h (Walk.here id)

theorem fixName_name {k : Nat} {s s' : St} {r : CRow} (hg : AL.get s.db.contents k = some r) (hno : ¬ HasName s.db r.nameId) (h : fixName k s = some s') :
    ∃ n0 p n db, (n0 = 45 :: dec r.inode ∨ ∃ l, s.db.path r.parent = .ok l ∧ n0 = escape ((joinPath l).drop 1) ++ 45 :: dec r.inode) ∧
        s.db.resolveFree n0 = some (p, n) ∧
        (s.db.addName false n).1.putEntry k { r with nameId := (s.db.addName false n).2, parent := p } = some db ∧
        s' = { s.err with db := db } := by
  unfold fixName at h
  rw [hg] at h
  dsimp only at h
  split at h
  · rename_i hc
    exact absurd (isSome_iff_mem.1 hc) hno
  · have key : ∀ n0, (n0 = 45 :: dec r.inode ∨ ∃ l, s.db.path r.parent = .ok l ∧ n0 = escape ((joinPath l).drop 1) ++ 45 :: dec r.inode) → (match s.db.resolveFree n0 with
        | none => none
        | some (p, n) =>
          match (s.db.addName false n).1.putEntry k { r with nameId := (s.db.addName false n).2, parent := p } with
          | none => none
          | some db => some { s.err with db := db }) = some s' →
        ∃ n0 p n db, (n0 = 45 :: dec r.inode ∨ ∃ l, s.db.path r.parent = .ok l ∧ n0 = escape ((joinPath l).drop 1) ++ 45 :: dec r.inode) ∧
          s.db.resolveFree n0 = some (p, n) ∧
          (s.db.addName false n).1.putEntry k { r with nameId := (s.db.addName false n).2, parent := p } = some db ∧
          s' = { s.err with db := db } := by
      intro n0 hok hh
      cases hr : s.db.resolveFree n0 with
      | none => rw [hr] at hh; cases hh
      | some x =>
        obtain ⟨p, n⟩ := x
        rw [hr] at hh
        dsimp only at hh
        cases hq : (s.db.addName false n).1.putEntry k { r with nameId := (s.db.addName false n).2, parent := p } with
        | none => rw [hq] at hh; cases hh
        | some d =>
          rw [hq] at hh
          exact ⟨n0, p, n, d, hok, hr, hq, (Option.some.inj hh).symm⟩
    split at h
    · cases h
    · exact key _ (Or.inl rfl) h
    · rename_i l hl
      exact key _ (Or.inr ⟨l, hl, rfl⟩) h

/-! #### C79 -/

/-- Every name that fsck gives to an entry in lost+found is free, and is the wanted name if this is short and free. -/
theorem C79_free_name {db : Db} {n n' : Bytes} {p : Nat} (h : db.resolveFree n = some (p, n')) :
    FreeName db n p n' ∧ (n.length ≤ 251 → db.entry p n = none → n' = n) := by
  have hf := resolveFree_free h
  refine ⟨hf, ?_⟩
  intro h1 h2
  obtain ⟨m, i, a1, _, a3, a4, _⟩ := hf.made
  rw [a1 h1] at a3 a4
  by_cases hi : i = 0
  · exact a3 hi
  · obtain ⟨⟨e, he⟩, _⟩ := a4 (by omega)
    rw [h2] at he; cases he

/-- An entry of a file that lacks data gets a name made of its whole path. -/
theorem C79_lacking_data {k : Nat} {r : CRow} {x : Bool} {name : Bytes} {s s' : St} (hs : Schema s.db) (hn : NExact s.db) (hno : NamesOk s.db)
    (hr : (k, r) ∈ s.db.contents) (hx : NameIs s.db r.nameId x name) (h : moveAffected (name, r) s = some s') :
    ∃ l L n, Walk s.db rootInode l r.parent ∧ FreeName s.db (flat (l ++ [name])) L n ∧ IsAt s'.db k L n r.inode := by
  have hn' := (moveAffected_exact (e := (name, r)) hs ⟨k, hr⟩ h hn).1
  unfold moveAffected at h
  split at h
  · rename_i l hl
    split at h
    · cases h
    · rename_i p n hf
      have hc := get_addName_contents hs.names false n
      dsimp only at h
      rw [hc] at h
      split at h
      · rename_i hq
        exact absurd ⟨rfl, rfl⟩ (findEntry_none hq _ hr)
      · rename_i k' r' hq
        obtain ⟨hm, h4, h5⟩ := findEntry_spec hq
        have heq := hs.entryUnique _ hm _ hr h4 h5
        obtain ⟨rfl, rfl⟩ := Prod.mk.inj heq
        split at h
        · cases h
        · rename_i db hput
          have hrel : Reloc True s.db s'.db k' := reloc_add_del hs hn hr hf hput (by rw [← Option.some.inj h]) hn'
            (fun _ _ => escape_ok (path_zero hno hl) (hno _ hr x name hx))
          have hsl : ∀ c ∈ l ++ [name], (47 : UInt8) ∉ c := by
            intro c hc
            rcases List.mem_append.1 hc with hc | hc
            · exact path_slash hno hl c hc
            · rw [List.mem_singleton.1 hc]; exact (hno _ hr x name hx).slash
          have hff := resolveFree_free hf
          rw [escape_flat _ hsl] at hff
          refine ⟨l, p, n, path_walk hl, hff, ?_⟩
          obtain ⟨_, _, h3⟩ := relocate hs (AL.mem_get_some hs.contents hr) hf hput
          have hcc : s'.db.contents = AL.set s.db.contents k' { r' with nameId := (s.db.addName false n).2, parent := p } := by
            rw [← Option.some.inj h]
            show (db.delName _).contents = _
            rw [delName_contents, h3]
          have hmem : (k', ({ r' with nameId := (s.db.addName false n).2, parent := p } : CRow)) ∈ s'.db.contents := by
            rw [hcc]; exact (mem_set hs.contents).2 (Or.inl rfl)
          refine ⟨(s.db.addName false n).2, hmem, ?_⟩
          obtain ⟨y, m, hy⟩ := (hn'.entries _ hmem).is
          have hb : NameIs (s.db.addName false n).1 (s.db.addName false n).2 y m := by
            have hy' : NameIs (db.delName r'.nameId) (s.db.addName false n).2 y m := by
              rw [← Option.some.inj h] at hy; exact hy
            have h1 := nameIs_delName (by rw [h3]; exact (hs.addName false n).names) hy'
            rwa [NameIs.names (by rw [h3])] at h1
          obtain ⟨e1, e2⟩ := NameIs.unique (hs.addName false n).names hb (nameIs_added hs.names n)
          rw [e1, e2] at hy
          exact hy
  · cases h

/-- The name of an entry whose own name is lost is made of the path of its directory, of which the first byte is missing,
and the number of the inode. -/
theorem C79_lost_name {k : Nat} {r : CRow} {s s' : St} (hs : Schema s.db) (hno : NamesOk s.db) (hg : (k, r) ∈ s.db.contents)
    (hl : ¬ HasName s.db r.nameId) (h : fixName k s = some s') :
    ∃ w L n, (w = [] ∨ ∃ c l, Walk s.db rootInode (c :: l) r.parent ∧ w = flat (c.drop 1 :: l)) ∧
      FreeName s.db (w ++ 45 :: dec r.inode) L n ∧ IsAt s'.db k L n r.inode := by
  obtain ⟨n0, p, n, db, hw, hf, hput, hs'⟩ := fixName_name (AL.mem_get_some hs.contents hg) hl h
  obtain ⟨_, _, h3⟩ := relocate hs (AL.mem_get_some hs.contents hg) hf hput
  have hat : IsAt s'.db k p n r.inode := by
    refine ⟨(s.db.addName false n).2, ?_, ?_⟩
    · rw [hs', h3]
      exact (mem_set hs.contents).2 (Or.inl rfl)
    · rw [hs']
      show NameIs db _ _ _
      rw [NameIs.names (a := (s.db.addName false n).1) (by rw [h3])]
      exact nameIs_added hs.names n
  have hff := resolveFree_free hf
  rcases hw with rfl | ⟨l, hl', rfl⟩
  · exact ⟨[], p, n, Or.inl rfl, hff, hat⟩
  · cases l with
    | nil => exact ⟨[], p, n, Or.inl rfl, hff, hat⟩
    | cons c t =>
      have hsl := path_slash hno hl'
      have hne : c ≠ [] := by
        rcases pathLoop_names hl' c List.mem_cons_self with h1 | ⟨e, he, x, h1⟩
        · cases h1
        · exact (hno e he x c h1).some
      refine ⟨flat (c.drop 1 :: t), p, n, Or.inr ⟨c, t, path_walk hl', rfl⟩, ?_, hat⟩
      have : escape ((joinPath (c :: t)).drop 1) = flat (c.drop 1 :: t) := by
        rw [← escape_flat]
        · unfold escape joinPath
          cases c with
          | nil => exact absurd rfl hne
          | cons a u => simp [List.flatMap_cons]
        · intro d hd
          rcases List.mem_cons.1 hd with rfl | hd
          · exact fun hc => hsl c List.mem_cons_self (List.mem_of_mem_drop hc)
          · exact hsl d (List.mem_cons_of_mem _ hd)
      rw [this] at hff
      exact hff

/-- The name of an entry whose directory is lost is its name with the number of the directory. -/
theorem C79_lost_parent {cfg : Cfg} {k : Nat} {r : CRow} {x : Bool} {name : Bytes} {s s' : St} (hs : Schema s.db) (hg : (k, r) ∈ s.db.contents)
    (hx : NameIs s.db r.nameId x name) (hl : ¬ HasInode s.db r.parent) (h : fixParent cfg k s = some s') :
    ∃ L n, FreeName s.db ([91] ++ dec r.parent ++ [93, 45] ++ cfg.toStr name) L n ∧ IsAt s'.db k L n r.inode := by
  unfold fixParent at h
  rw [AL.mem_get_some hs.contents hg] at h
  dsimp only at h
  split at h
  · rename_i hc
    exact absurd (isSome_iff_mem.1 hc) hl
  · split at h
    · cases h
    · rename_i nr hnr
      split at h
      · cases h
      · rename_i p n hf
        split at h
        · cases h
        · rename_i db hput
          have hname : nr.name = name := (NameIs.unique hs.names (⟨nr.refcount, AL.get_some_mem hnr⟩ : NameIs s.db r.nameId nr.text nr.name) hx).2
          rw [hname] at hf
          refine ⟨p, n, resolveFree_free hf, ((s.db.delName r.nameId).addName false n).2, ?_, ?_⟩
          · obtain ⟨_, _, h3⟩ := relocate2 hs (AL.mem_get_some hs.contents hg) hf hput
            rw [← Option.some.inj h, h3]
            exact (mem_set hs.contents).2 (Or.inl rfl)
          · rw [← Option.some.inj h]
            show NameIs db _ _ _
            rw [NameIs.names (a := ((s.db.delName r.nameId).addName false n).1) (by rw [(putEntry_some hput).1])]
            exact nameIs_added (hs.delName _).names n

/-- An inode without an entry gets one in lost+found, which has its number. -/
theorem C79_no_entry {id : Nat} {i : Inode} {s s' : St} (hs : Schema s.db) (hi : (id, i) ∈ s.db.inodes) (hr : id ≠ rootInode) (hc : id ≠ ctrlInode)
    (h : fixRef (id, 0) s = some s') :
    ∃ k L n, FreeName s.db ([105, 110, 111, 100, 101, 45] ++ dec id) L n ∧ IsAt s'.db k L n id ∧ ∀ f ∈ s.db.contents, f ∈ s'.db.contents := by
  unfold fixRef at h
  dsimp only at h
  rw [if_neg (by rintro (h | h) <;> contradiction), AL.mem_get_some hs.inodes hi] at h
  dsimp only at h
  rw [if_pos rfl] at h
  split at h
  · cases h
  · rename_i p n hf
    split at h
    · cases h
    · rename_i db hins
      have hdb := (insEntry_some hins).1
      have hcont : s'.db.contents = AL.set s.db.contents (s.db.cseq + 1) ⟨p, (s.db.addName false n).2, id⟩ := by
        rw [← Option.some.inj h]
        show db.contents = _
        rw [hdb]
        dsimp only
        rw [get_addName_contents hs.names, addName_cseq hs.names]
      refine ⟨s.db.cseq + 1, p, n, resolveFree_free hf, ⟨(s.db.addName false n).2, ?_, ?_⟩, ?_⟩
      · rw [hcont]; exact (mem_set hs.contents).2 (Or.inl rfl)
      · rw [NameIs.names (a := (s.db.addName false n).1) (by rw [← Option.some.inj h]; show db.names = _; rw [hdb])]
        exact nameIs_added hs.names n
      · intro f hf'
        rw [hcont]
        refine (mem_set hs.contents).2 (Or.inr ⟨hf', ?_⟩)
        have := hs.cseq f hf'
        omega

/-- If a directory of those that are not reached is in itself, one that is in itself is moved. -/
theorem C79_own_loop {db : Db} {left : List Nat} {id : Nat} (h : culprit db left = some id)
    (ho : ∃ i ∈ left, ∃ e ∈ db.contents, e.2.inode = i ∧ e.2.parent = i) : id ∈ left ∧ ∃ e ∈ db.contents, e.2.inode = id ∧ e.2.parent = id := by
  unfold culprit at h
  cases hf : left.find? (fun i => db.contents.any (fun e => e.2.inode == i && e.2.parent == i)) with
  | none =>
    exfalso
    obtain ⟨i, hi, e, he, h1, h2⟩ := ho
    have := List.find?_eq_none.1 hf i hi
    apply this
    exact List.any_eq_true.2 ⟨e, he, by simp [h1, h2]⟩
  | some j =>
    rw [hf] at h
    cases h
    refine ⟨List.mem_of_find?_eq_some hf, ?_⟩
    have h2 : (db.contents.any (fun e => e.2.inode == id && e.2.parent == id)) = true := List.find?_some (p := fun i => db.contents.any (fun e => e.2.inode == i && e.2.parent == i)) hf
    obtain ⟨e, he, h1⟩ := List.any_eq_true.1 h2
    refine ⟨e, he, ?_⟩
    simpa using h1

/-- The directory that is moved keeps its name if this is free. -/
theorem C79_loop_name {id p : Nat} {s s' : St} (hs : Schema s.db) (hn : NExact s.db) (h : reanchor id s = some (s', p)) :
    ∃ k r x name n, (k, r) ∈ s.db.contents ∧ r.inode = id ∧ NameIs s.db r.nameId x name ∧ FreeName s.db name p n ∧ IsAt s'.db k p n id := by
  have hn' := (reanchor_step hs h).2.2.1 hn
  obtain ⟨name, n', k, r, db, hk, hi, ⟨nr, hnr, hname⟩, hf, hput, hs'⟩ := reanchor_some hs h
  obtain ⟨_, _, h3⟩ := relocate hs (AL.mem_get_some hs.contents hk) hf hput
  refine ⟨k, r, nr.text, name, n', hk, hi, ⟨nr.refcount, by rw [← hname]; exact AL.get_some_mem hnr⟩, resolveFree_free hf, (s.db.addName false n').2, ?_⟩
  have hmem : (k, (⟨p, (s.db.addName false n').2, id⟩ : CRow)) ∈ s'.db.contents := by
    rw [hs']
    show _ ∈ (db.delName _).contents
    rw [delName_contents, h3, ← hi]
    exact (mem_set hs.contents).2 (Or.inl rfl)
  refine ⟨hmem, ?_⟩
  obtain ⟨y, m, hy⟩ := (hn'.entries _ hmem).is
  have hb : NameIs (s.db.addName false n').1 (s.db.addName false n').2 y m := by
    have hy' : NameIs (db.delName r.nameId) (s.db.addName false n').2 y m := by
      rw [hs'] at hy; exact hy
    have h1 := nameIs_delName (by rw [h3]; exact (hs.addName false n').names) hy'
    rwa [NameIs.names (by rw [h3])] at h1
  obtain ⟨e1, e2⟩ := NameIs.unique (hs.addName false n').names hb (nameIs_added hs.names n')
  rw [e1, e2] at hy
  exact hy

/-! #### A concrete file system -/

/-- `/ab` is a directory with the files `b_` (5), which is whole; `c` (6), whose object is lost; and 7, whose name is lost.
The directory of `d` (8) is lost, 9 has no entry, and the directory 10 is in itself. -/
def dbPlace : Db :=
  { inodes := [(1, dirI 1), (2, fileI 42 0), (3, dirI 1), (4, dirI 1), (5, fileI 1 3), (6, fileI 1 0), (7, fileI 1 0), (8, fileI 1 0), (9, fileI 1 0), (10, dirI 1)], iseq := 10, names := [(1, ⟨false, lofName, 1⟩), (2, ⟨false, [97, 98], 1⟩), (3, ⟨false, [98, 95], 1⟩), (4, ⟨false, [99], 2⟩), (6, ⟨false, [100], 1⟩)], contents := [(1, ⟨1, 1, 3⟩), (2, ⟨1, 2, 4⟩), (3, ⟨4, 3, 5⟩), (4, ⟨4, 4, 6⟩), (5, ⟨4, 5, 7⟩), (6, ⟨77, 6, 8⟩), (7, ⟨10, 4, 10⟩)], cseq := 7, xattrs := [], symlinks := [], blocks := [(1, ⟨5, 0, 1⟩), (2, ⟨6, 0, 2⟩)], objects := [(1, ⟨1, some [1, 2, 3], 3, 3⟩)], oseq := 2 }
def stPlace : St := { db := dbPlace, backend := [(1, [1, 2, 3])], temps := 0, cache := [], found := false, uncorr := false, unlinked := [] }
def stPlaced : St := (check cfg0 20 .yes stPlace).getD stPlace

set_option maxRecDepth 100000

theorem stPlace_run : Completed cfg0 20 .yes stPlace stPlaced := by
  have : (check cfg0 20 .yes stPlace) = some stPlaced ∧ stPlaced.uncorr = false := by decide +kernel
  exact this

theorem stPlace_schema : Schema stPlace.db := schema_of (by decide +kernel)

theorem stPlace_names : NamesOk stPlace.db := by
  intro e _ x n ⟨c, hc⟩
  have h : ∀ r ∈ dbPlace.names, r.2.name ≠ [] ∧ (47 : UInt8) ∉ r.2.name ∧ (0 : UInt8) ∉ r.2.name ∧ r.2.name ≠ [46] ∧ r.2.name ≠ [46, 46] := by decide +kernel
  obtain ⟨h1, h2, h3, h4, h5⟩ := h _ hc
  exact ⟨h1, h2, h3, h4, h5⟩

/-- It meets the hypotheses of the theorems about whole runs. -/
example : Schema stPlace.db ∧ NamesKnown stPlace.db ∧ Completed cfg0 20 .yes stPlace stPlaced ∧ StrOk cfg0 ∧ NamesOk stPlace.db :=
  ⟨stPlace_schema, ⟨by decide +kernel, fun e he => absurd he List.not_mem_nil⟩, stPlace_run, fun _ h1 h2 => ⟨h1, h2⟩, stPlace_names⟩

theorem not_falseLof_of_dir {db : Db} {r : CRow} {i : Inode} (h : (r.inode, i) ∈ db.inodes) (hd : isDir i.mode = true) : ¬ FalseLof db r := by
  rintro ⟨_, h2⟩
  rw [h2 i h] at hd
  cases hd

/-- The file `/ab/b_` is in place: the conditions hold for it and for `/ab`. -/
example : InPlace cfg0 stPlace (3, ⟨4, 3, 5⟩) := by
  have hab : EntryOk cfg0 stPlace (2, ⟨1, 2, 4⟩) := by
    refine ⟨by decide +kernel, isSome_iff_mem.1 (by decide +kernel), isSome_iff_mem.1 (by decide +kernel), isSome_iff_mem.1 (by decide +kernel), ?_, ?_, ?_, by decide +kernel, fun _ => by decide +kernel⟩
    · intro b hb hi
      have : ∀ b ∈ dbPlace.blocks, b.2.inode ≠ 4 := by decide +kernel
      exact absurd hi (this b hb)
    · intro b d h; cases h
    · exact not_falseLof_of_dir (i := dirI 1) (by decide +kernel) (by decide +kernel)
  refine InPlace.under ?_ (InPlace.top hab rfl) rfl
  refine ⟨by decide +kernel, isSome_iff_mem.1 (by decide +kernel), isSome_iff_mem.1 (by decide +kernel), isSome_iff_mem.1 (by decide +kernel), ?_, ?_, ?_, by decide +kernel, fun _ => by decide +kernel⟩
  · intro b hb hi
    have : ∀ b ∈ dbPlace.blocks, b.2.inode = 5 → b = (1, ⟨5, 0, 1⟩) := by decide +kernel
    obtain rfl := this b hb hi
    exact ⟨[1, 2, 3], (1, ⟨5, 0, 1⟩), ⟨1, some [1, 2, 3], 3, 3⟩, [1, 2, 3], hb, rfl, rfl, by decide +kernel, rfl, by decide +kernel, rfl⟩
  · intro b d h; cases h
  · rintro ⟨⟨n, hn, _, h3⟩, _⟩
    have : ∀ r ∈ dbPlace.names, r.1 = 3 → r.2.name ≠ lofName := by decide +kernel
    exact this _ hn rfl h3

/-- After the run: `/ab/b_` is where it was; `/ab/c` is `lost+found/ab_c`; `d` is `lost+found/[77]-d`; the inode 9 is
`lost+found/inode-9`; the directory 10 is `lost+found/c`. -/
example : (3, ⟨4, 3, 5⟩) ∈ stPlaced.db.contents ∧ (stPlaced.db.entry 3 [97, 98, 95, 99]).map (·.2.inode) = some 6 ∧
    (stPlaced.db.entry 3 [91, 55, 55, 93, 45, 100]).map (·.2.inode) = some 8 ∧ (stPlaced.db.entry 3 [105, 110, 111, 100, 101, 45, 57]).map (·.2.inode) = some 9 ∧
    (stPlaced.db.entry 3 [99]).map (·.2.inode) = some 10 := by decide +kernel

/-- The steps of this run meet the hypotheses of the theorems about names: each of them moves its entry. -/
example : (moveAffected ([99], ⟨4, 4, 6⟩) stPlace).isSome = true ∧ (fixName 5 stPlace).isSome = true ∧ (fixParent cfg0 6 stPlace).isSome = true ∧
    (fixRef (9, 0) stPlace).isSome = true ∧ (reanchor 10 stPlace).isSome = true ∧ culprit stPlace.db [4, 10] = some 10 ∧
    stPlace.db.resolveFree [99] = some (3, [99]) := by decide +kernel

/-- Where the code moves the entry of a file that lacks data, or one of a loop, the counts of the names are exact already:
the same file system after check_contents_name. -/
example : ∃ s, fixName 5 stPlace = some s ∧ NExact s.db ∧ (moveAffected ([99], ⟨4, 4, 6⟩) s).isSome = true ∧ (reanchor 10 s).isSome = true := by
  refine ⟨(fixName 5 stPlace).getD stPlace, by decide +kernel, NExact.of ?_ ?_ ?_, by decide +kernel, by decide +kernel⟩
  · intro e he
    revert e
    decide +kernel
  · intro e he
    apply isSome_iff_mem.1
    revert e
    decide +kernel
  · intro e he
    apply isSome_iff_mem.1
    revert e
    decide +kernel

/-- A name that is taken, and a long one. -/
example : stPlaced.db.resolveFree [99] = some (3, [99, 45, 49]) ∧
    (stPlaced.db.resolveFree (List.replicate 200 65 ++ List.replicate 200 66)) = some (3, List.replicate 120 65 ++ [32, 46, 46, 46, 32] ++ List.replicate 120 66) := by
  decide +kernel

/-- `escape` drops the first byte of a path because it is a slash, but the path has lost its slash already: the file 7 in
the directory `ab` gets the name `b-7`. -/
theorem C79_first_byte_lost :
    ∃ s s' : St, Schema s.db ∧ NamesKnown s.db ∧ Completed cfg0 20 .yes s s' ∧ Walk s.db rootInode [[97, 98]] 4 ∧
      (5, (⟨4, 5, 7⟩ : CRow)) ∈ s.db.contents ∧ ¬ HasName s.db 5 ∧ IsAt s'.db 5 3 [98, 45, 55] 7 := by
  refine ⟨stPlace, stPlaced, stPlace_schema, ⟨by decide +kernel, fun e he => absurd he List.not_mem_nil⟩, stPlace_run, ?_, by decide +kernel, ?_, ?_⟩
  · exact Walk.step (k := 2) (j := 2) (m := 4) (x := false) (by decide +kernel) ⟨1, by decide +kernel⟩ (Walk.here 4)
  · intro h
    have := isSome_iff_mem.2 h
    revert this
    decide +kernel
  · exact ⟨7, by decide +kernel, 1, by decide +kernel⟩

end Verif.Fsck
