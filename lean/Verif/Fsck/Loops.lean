/-
check_loops: after it, every inode can be reached from the root.
-/
import Verif.Fsck.Inodes

namespace Verif.Fsck
open Verif.Fs (Bytes Inode rootInode ctrlInode)

/-! #### delete_tree -/

/-- `Desc t r x`: the pointers of `loopcheck` lead from `x` to `r`. -/
inductive Desc (t : List (Nat × Option Nat)) (r : Nat) : Nat → Prop
  | refl : Desc t r r
  | step {x y : Nat} : (x, some y) ∈ t → Desc t r y → Desc t r x

theorem Desc.trans {t : List (Nat × Option Nat)} {a b c : Nat} (h1 : Desc t a b) (h2 : Desc t b c) : Desc t a c := by
  induction h2 with
  | refl => exact h1
  | step h _ ih => exact Desc.step h ih

theorem children_mem {t : List (Nat × Option Nat)} {p i : Nat} :
    i ∈ (t.filter (fun e => e.2 == some p)).map (·.1) ↔ (i, some p) ∈ t := by
  rw [List.mem_map]
  constructor
  · rintro ⟨e, he, rfl⟩
    obtain ⟨h1, h2⟩ := List.mem_filter.1 he
    have : e.2 = some p := by simpa using h2
    rw [← this]; exact h1
  · intro h
    exact ⟨(i, some p), List.mem_filter.2 ⟨h, by simp⟩, rfl⟩

theorem deleteTrees_each {t : List (Nat × Option Nat)} {fuel : Nat} {l d : List Nat} (h : deleteAll (deleteTree t fuel) l = some d) :
    (∀ i ∈ l, ∃ d', deleteTree t fuel i = some d' ∧ ∀ x ∈ d', x ∈ d) ∧
      (∀ x ∈ d, ∃ i ∈ l, ∃ d', deleteTree t fuel i = some d' ∧ x ∈ d') := by
  induction l generalizing d with
  | nil =>
    unfold deleteAll at h
    cases h
    exact ⟨fun i hi => absurd hi List.not_mem_nil, fun x hx => absurd hx List.not_mem_nil⟩
  | cons i r ih =>
    unfold deleteAll at h
    split at h
    · rename_i a b ha hb
      cases h
      obtain ⟨h1, h2⟩ := ih hb
      constructor
      · intro j hj
        rcases List.mem_cons.1 hj with rfl | hj
        · exact ⟨a, ha, fun x hx => List.mem_append.2 (Or.inl hx)⟩
        · obtain ⟨d', h3, h4⟩ := h1 j hj
          exact ⟨d', h3, fun x hx => List.mem_append.2 (Or.inr (h4 x hx))⟩
      · intro x hx
        rcases List.mem_append.1 hx with hx | hx
        · exact ⟨i, List.mem_cons_self, a, ha, hx⟩
        · obtain ⟨j, hj, d', h3, h4⟩ := h2 x hx
          exact ⟨j, List.mem_cons_of_mem _ hj, d', h3, h4⟩
    · cases h

theorem deleteTree_succ {t : List (Nat × Option Nat)} {fuel r : Nat} {d : List Nat} (h : deleteTree t fuel r = some d) :
    ∃ f l, fuel = f + 1 ∧ deleteAll (deleteTree t f) ((t.filter (fun e => e.2 == some r)).map (·.1)) = some l ∧ d = l ++ [r] := by
  cases fuel with
  | zero => unfold deleteTree at h; cases h
  | succ f =>
    unfold deleteTree at h
    split at h
    · cases h
    · rename_i l hl
      exact ⟨f, l, rfl, hl, (Option.some.inj h).symm⟩

/-- The recursion visits every descendant. -/
theorem deleteTree_visits {t : List (Nat × Option Nat)} {fuel r : Nat} {d : List Nat} (h : deleteTree t fuel r = some d)
    {q : Nat} (hq : Desc t r q) : ∃ f d', f ≤ fuel ∧ deleteTree t f q = some d' ∧ ∀ x ∈ d', x ∈ d := by
  induction hq with
  | refl => exact ⟨fuel, d, Nat.le_refl _, h, fun x hx => hx⟩
  | step hxy _ ih =>
    obtain ⟨f, d', hf, hd, hsub⟩ := ih
    obtain ⟨f', l, rfl, hl, rfl⟩ := deleteTree_succ hd
    obtain ⟨d2, h2, h3⟩ := (deleteTrees_each hl).1 _ (children_mem.2 hxy)
    exact ⟨f', d2, by omega, h2, fun x hx => hsub x (List.mem_append.2 (Or.inl (h3 x hx)))⟩

theorem deleteTree_iff {t : List (Nat × Option Nat)} {fuel r : Nat} {d : List Nat} (h : deleteTree t fuel r = some d)
    {q : Nat} : q ∈ d ↔ Desc t r q := by
  constructor
  · intro hq
    induction fuel generalizing r d with
    | zero => unfold deleteTree at h; cases h
    | succ n ih =>
      obtain ⟨f', l, hf, hl, rfl⟩ := deleteTree_succ h
      cases hf
      rcases List.mem_append.1 hq with hq | hq
      · obtain ⟨i, hi, d', h1, h2⟩ := (deleteTrees_each hl).2 q hq
        exact Desc.trans (Desc.step (children_mem.1 hi) Desc.refl) (ih h1 h2)
      · rw [List.mem_singleton.1 hq]; exact Desc.refl
  · intro hq
    obtain ⟨f, d', _, hd, hsub⟩ := deleteTree_visits h hq
    obtain ⟨_, l, _, _, rfl⟩ := deleteTree_succ hd
    exact hsub q (List.mem_append.2 (Or.inr (List.mem_singleton.2 rfl)))

/-- If the pointers form a loop, the recursion does not end. -/
theorem deleteTree_loop {t : List (Nat × Option Nat)} {r q : Nat} (hrq : (r, some q) ∈ t) (hq : Desc t r q) :
    ∀ fuel, deleteTree t fuel r = none := by
  intro fuel
  induction fuel using Nat.strongRecOn with
  | _ fuel ih =>
    cases h : deleteTree t fuel r with
    | none => rfl
    | some d =>
      obtain ⟨f, d', hf, hd, _⟩ := deleteTree_visits h hq
      obtain ⟨f', l, rfl, hl, _⟩ := deleteTree_succ hd
      obtain ⟨d2, h2, _⟩ := (deleteTrees_each hl).1 _ (children_mem.2 hrq)
      rw [ih f' (by omega)] at h2
      cases h2

/-! #### Re-anchoring -/

theorem moveRows_two {p nid : Nat} {k1 k2 : Nat} {l : List Nat} {db db' : Db} (hne : k1 ≠ k2) {r1 r2 : CRow}
    (h1 : AL.get db.contents k1 = some r1) (h2 : AL.get db.contents k2 = some r2) :
    db.moveRows (fun x => { x with parent := p, nameId := nid }) (k1 :: k2 :: l) ≠ some db' := by
  intro h
  unfold Db.moveRows at h
  rw [h1] at h
  dsimp only at h
  split at h
  · cases h
  · rename_i db1 hp1
    obtain ⟨hdb1, _⟩ := putEntry_some hp1
    have hg2 : AL.get db1.contents k2 = some r2 := by
      rw [hdb1]; exact (AL.get_set_ne _ _ (fun h => hne h.symm)).trans h2
    unfold Db.moveRows at h
    rw [hg2] at h
    dsimp only at h
    split at h
    · cases h
    · rename_i db2 hp2
      obtain ⟨_, hcl⟩ := putEntry_some hp2
      have hg1 : AL.get db1.contents k1 = some { r1 with parent := p, nameId := nid } := by
        rw [hdb1]; exact AL.get_set_self _ _ _
      exact hcl _ (AL.get_some_mem hg1) hne ⟨rfl, rfl⟩

theorem keys_filter_nodup {l : List (Nat × CRow)} (h : AL.NK l) (q : Nat × CRow → Bool) : (keys (l.filter q)).Nodup :=
  NK.filter h q

theorem reanchor_some {inode : Nat} {s s' : St} {p : Nat} (hs : Schema s.db) (h : reanchor inode s = some (s', p)) :
    ∃ name n' k r db, (k, r) ∈ s.db.contents ∧ r.inode = inode ∧ (∃ nr, AL.get s.db.names r.nameId = some nr ∧ nr.name = name) ∧
      s.db.resolveFree name = some (p, n') ∧
      (s.db.addName false n').1.putEntry k { r with parent := p, nameId := (s.db.addName false n').2 } = some db ∧
      s' = { s.err with db := db.delName r.nameId } := by
  unfold reanchor at h
  cases hh : (s.db.entriesOf inode).head? with
  | none => rw [hh] at h; cases h
  | some x =>
    rw [hh] at h
    dsimp only at h
    have hmem : x ∈ s.db.entriesOf inode := List.mem_of_mem_head? hh
    cases hf : s.db.resolveFree x.1 with
    | none => rw [hf] at h; cases h
    | some y =>
      rw [hf] at h
      dsimp only at h
      split at h
      · cases h
      · rename_i db hm
        have hp : y.1 = p := congrArg Prod.snd (Option.some.inj h)
        have hs' := congrArg Prod.fst (Option.some.inj h)
        dsimp only at hs'
        have hrow : ∃ k, (k, x.2) ∈ s.db.contents ∧ x.2.inode = inode ∧ ∃ nr, AL.get s.db.names x.2.nameId = some nr ∧ nr.name = x.1 := by
          unfold Db.entriesOf at hmem
          obtain ⟨e, he, hx⟩ := List.mem_filterMap.1 hmem
          split at hx
          · rename_i hi
            obtain ⟨nr, hnr, rfl⟩ := Option.map_eq_some_iff.1 hx
            exact ⟨e.1, he, hi, nr, hnr, rfl⟩
          · cases hx
        obtain ⟨k, hk, hki, hnr⟩ := hrow
        have hc := get_addName_contents hs.names false y.2
        have hgk : AL.get (s.db.addName false y.2).1.contents k = some x.2 := by
          rw [hc]; exact AL.mem_get_some hs.contents hk
        rw [hc] at hm
        have hkl : k ∈ keys (s.db.contents.filter (fun e => e.2.inode == inode && e.2.nameId == x.2.nameId)) := by
          apply mem_keys.2
          exact ⟨x.2, List.mem_filter.2 ⟨hk, by simp [hki]⟩⟩
        have hnd := keys_filter_nodup hs.contents (fun e => e.2.inode == inode && e.2.nameId == x.2.nameId)
        have hget : ∀ j ∈ keys (s.db.contents.filter (fun e => e.2.inode == inode && e.2.nameId == x.2.nameId)),
            ∃ r, AL.get (s.db.addName false y.2).1.contents j = some r := by
          intro j hj
          obtain ⟨v, hv⟩ := mem_keys.1 hj
          exact ⟨v, by rw [hc]; exact AL.mem_get_some hs.contents (List.mem_filter.1 hv).1⟩
        generalize keys (s.db.contents.filter (fun e => e.2.inode == inode && e.2.nameId == x.2.nameId)) = l at *
        cases l with
        | nil => cases hkl
        | cons a t =>
          cases t with
          | cons b t =>
            obtain ⟨ra, ha⟩ := hget a List.mem_cons_self
            obtain ⟨rb, hb⟩ := hget b (List.mem_cons_of_mem _ List.mem_cons_self)
            have hne : a ≠ b := fun he => (List.nodup_cons.1 hnd).1 (by rw [he]; exact List.mem_cons_self)
            exact absurd hm (moveRows_two hne ha hb)
          | nil =>
            have hka : k = a := by
              rcases List.mem_cons.1 hkl with h | h
              · exact h
              · cases h
            subst hka
            unfold Db.moveRows at hm
            rw [hgk] at hm
            dsimp only at hm
            split at hm
            · cases hm
            · rename_i db1 hp1
              unfold Db.moveRows at hm
              cases hm
              refine ⟨x.1, y.2, k, x.2, db, hk, hki, hnr, ?_, ?_, hs'.symm⟩
              · rw [hf, ← hp]
              · rw [← hp]; exact hp1

theorem delName_mem {db : Db} (hn : AL.NK db.names) {m : Nat} {i : Nat} {q : NRow} (h : (i, q) ∈ (db.delName m).names) :
    ∃ q', (i, q') ∈ db.names ∧ q'.text = q.text ∧ q'.name = q.name := by
  unfold Db.delName at h
  cases hg : AL.get db.names m with
  | none => rw [hg] at h; exact ⟨q, h, rfl, rfl⟩
  | some r =>
    rw [hg] at h
    dsimp only at h
    split at h
    · exact ⟨q, (mem_erase.1 h).1, rfl, rfl⟩
    · rcases (mem_set hn).1 h with h | ⟨h, _⟩
      · cases h
        exact ⟨r, AL.get_some_mem hg, rfl, rfl⟩
      · exact ⟨q, h, rfl, rfl⟩

theorem addName_mem {db : Db} (hn : AL.NK db.names) (x : Bool) (n : Bytes) {j : Nat} {q : NRow} (h : (j, q) ∈ db.names) :
    ∃ q', (j, q') ∈ (db.addName x n).1.names ∧ q'.text = q.text ∧ q'.name = q.name := by
  rcases addName_get hn x n with ⟨r, h1, h2, h3, h4⟩ | ⟨h1, h2, h3⟩
  · rw [h4]
    by_cases hj : j = (db.addName x n).2
    · rw [← hj] at h1
      have := AL.mem_get_some hn h
      rw [h1] at this
      cases this
      refine ⟨{ q with refcount := q.refcount + 1 }, (mem_set hn).2 (Or.inl ?_), rfl, rfl⟩
      rw [hj]
    · exact ⟨q, (mem_set hn).2 (Or.inr ⟨h, hj⟩), rfl, rfl⟩
  · rw [h3]
    refine ⟨q, (mem_set hn).2 (Or.inr ⟨h, ?_⟩), rfl, rfl⟩
    have := le_maxKey h
    dsimp only at this ⊢
    omega

/-- What `reanchor` does to the tables. -/
theorem reanchor_step {inode : Nat} {s s' : St} {p : Nat} (hs : Schema s.db) (h : reanchor inode s = some (s', p)) :
    Schema s'.db ∧ Moved s.db s'.db ∧ (NExact s.db → NExact s'.db) ∧ s'.backend = s.backend ∧
      (∃ e, s.db.entry rootInode lofName = some e ∧ e.2.inode = p) ∧
      (∃ k r nid, (k, r) ∈ s.db.contents ∧ r.inode = inode ∧ s'.db.contents = AL.set s.db.contents k ⟨p, nid, inode⟩) ∧
      (∀ i, findName s'.db.names false lofName = some i → findName s.db.names false lofName = some i) := by
  obtain ⟨name, n', k, r, db, hk, hi, ⟨nr, hnr, _⟩, hf, hput, rfl⟩ := reanchor_some hs h
  have hs1 := hs.addName false n'
  have hc := get_addName_contents hs.names false n'
  have hgk := AL.mem_get_some hs.contents hk
  have hgk1 : AL.get (s.db.addName false n').1.contents k = some r := by rw [hc]; exact hgk
  obtain ⟨hdb, hcl⟩ := putEntry_some hput
  have hs2 := hs1.putEntry (row_le hs1 hgk1) hput
  obtain ⟨⟨e, he, hep⟩, _⟩ := resolveFree_spec hf
  have hlofname : ∃ i, findName s.db.names false lofName = some i := by
    unfold Db.entry at he
    obtain ⟨i, hi, _⟩ := Option.bind_eq_some_iff.1 he
    exact ⟨i, hi⟩
  refine ⟨hs2.delName _, ?_, ?_, rfl, ⟨e, he, hep⟩, ⟨k, r, (s.db.addName false n').2, hk, hi, ?_⟩, ?_⟩
  · refine ((Moved.addName hs.names false n').trans (Moved.put (r' := { r with parent := p, nameId := (s.db.addName false n').2 }) hs1 hgk1 rfl ?_ hput)).trans (Moved.delName _ _)
    obtain ⟨x, hx, hxp⟩ := resolveFree_entry hf
    exact ⟨x, by rw [hc]; exact hx, Or.inl hxp⟩
  · intro hn
    have b1 := NBal.addName hn hs.names false n'
    have b2 := b1.set hgk1 (r' := { r with parent := p, nameId := (s.db.addName false n').2 })
    have hdb' : db = { (s.db.addName false n').1 with contents := AL.set (s.db.addName false n').1.contents k { r with parent := p, nameId := (s.db.addName false n').2 } } := hdb
    rw [← hdb'] at b2
    have hhas : HasName db r.nameId := by
      rw [hdb]
      exact hasName_addName hs.names false n' ⟨nr, AL.get_some_mem hnr⟩
    have b3 := b2.delName hhas
    exact b3.congr (fun j => by dsimp only; omega)
  · show (db.delName r.nameId).contents = _
    rw [delName_contents, hdb]
    dsimp only
    rw [hc, ← hi]
  · intro i hi'
    obtain ⟨j, hj⟩ := hlofname
    -- the name `lost+found` keeps its number as long as it exists
    obtain ⟨rr, hrr, ht, hn⟩ := findName_spec hi'
    obtain ⟨q, hq, qt, qn⟩ := delName_mem hs2.names hrr
    obtain ⟨q1, hq1, q1t, q1n⟩ := findName_spec hj
    obtain ⟨q2, hq2, q2t, q2n⟩ := addName_mem hs.names false n' hq1
    have hnames : db.names = (s.db.addName false n').1.names := by rw [hdb]
    rw [hnames] at hq
    have := hs1.nameUnique _ hq _ hq2 (by dsimp only; rw [qt, ht, q2t, q1t]) (by dsimp only; rw [qn, hn, q2n, q1n])
    rw [hj, (Prod.mk.inj this).1]

/-! #### The loop -/

theorem minOf_mem {l : List Nat} {i : Nat} (h : minOf l = some i) : i ∈ l := by
  induction l generalizing i with
  | nil => cases h
  | cons a t ih =>
    unfold minOf at h
    split at h
    · cases h; exact List.mem_cons_self
    · rename_i b hb
      have hi := (Option.some.inj h).symm
      by_cases hab : a ≤ b
      · rw [Nat.min_eq_left hab] at hi; rw [hi]; exact List.mem_cons_self
      · rw [Nat.min_eq_right (by omega)] at hi; rw [hi]; exact List.mem_cons_of_mem _ (ih hb)

theorem minOf_none {l : List Nat} (h : minOf l = none) : l = [] := by
  cases l with
  | nil => rfl
  | cons a t => unfold minOf at h; split at h <;> cases h

theorem culprit_mem {db : Db} {left : List Nat} {i : Nat} (h : culprit db left = some i) : i ∈ left := by
  unfold culprit at h
  split at h
  · rename_i j hj
    cases h
    exact List.mem_of_find?_eq_some hj
  · exact minOf_mem h

theorem culprit_none {db : Db} {left : List Nat} (h : culprit db left = none) : left = [] := by
  unfold culprit at h
  split at h
  · cases h
  · exact minOf_none h

/-- A path from the root that does not enter an inode of `left`. -/
inductive Fixed (db : Db) (left : List Nat) : Nat → Prop
  | root : Fixed db left rootInode
  | step {e : Nat × CRow} : e ∈ db.contents → e.2.inode ∉ left → Fixed db left e.2.parent → Fixed db left e.2.inode

theorem Fixed.mono {db : Db} {l l' : List Nat} (hl : ∀ i ∈ l', i ∈ l) {i : Nat} (h : Fixed db l i) : Fixed db l' i := by
  induction h with
  | root => exact Fixed.root
  | step he hn _ ih => exact Fixed.step he (fun h => hn (hl _ h)) ih

theorem Fixed.reach {db : Db} {l : List Nat} {i : Nat} (h : Fixed db l i) : Reach db i := by
  induction h with
  | root => exact Reach.root
  | step he _ _ ih => exact Reach.step he ih

/-- `p` is the only inode that can be the directory lost+found. -/
def Lof (db : Db) (p : Nat) : Prop := ∀ e, db.entry rootInode lofName = some e → e.2.inode = p

theorem lof_kept {inode : Nat} {s s' : St} {p : Nat} (hs : Schema s.db) (h : reanchor inode s = some (s', p))
    (hp : p ≠ rootInode) : Lof s'.db p := by
  obtain ⟨_, _, _, _, ⟨e, he, hep⟩, ⟨k, r, nid, hk, hi, hc⟩, hn⟩ := reanchor_step hs h
  intro e' he'
  unfold Db.entry at he' he
  obtain ⟨i, h1, h2⟩ := Option.bind_eq_some_iff.1 he'
  obtain ⟨j, h3, h4⟩ := Option.bind_eq_some_iff.1 he
  have hij := hn i h1
  rw [h3] at hij
  cases hij
  obtain ⟨m1, m2, m3⟩ := findEntry_spec h2
  obtain ⟨n1, n2, n3⟩ := findEntry_spec h4
  rw [hc] at m1
  rcases (mem_set hs.contents).1 m1 with rfl | ⟨m1, _⟩
  · exact absurd m2 hp
  · rw [hs.entryUnique e' m1 e n1 (m2.trans n2.symm) (m3.trans n3.symm)]
    exact hep

/-- If lost+found itself is unreachable, check_loops does not end. -/
theorem loopRun_stuck {depth : Nat} {p : Nat} : ∀ {fuel : Nat} {root : Nat} {t : List (Nat × Option Nat)} {left : List Nat} {s : St},
    Schema s.db → AL.NK t → (∀ i ∈ left, i ∈ keys t) → (root, some p) ∈ t → p ∈ left → rootInode ∉ left → Lof s.db p →
    loopRun depth fuel root t left s = none := by
  intro fuel
  induction fuel with
  | zero => intros; rfl
  | succ n ih =>
    intro root t left s hs ht hl hrp hp hroot hlof
    unfold loopRun
    split
    · rfl
    · rename_i del hdel
      have hpd : p ∉ del := by
        intro hpd
        rw [deleteTree_loop hrp ((deleteTree_iff hdel).1 hpd)] at hdel
        cases hdel
      have hp' : p ∈ left.filter (fun i => !del.contains i) := List.mem_filter.2 ⟨hp, by simpa using hpd⟩
      dsimp only
      split
      · rename_i hc
        rw [culprit_none hc] at hp'
        cases hp'
      · rename_i inode hc
        have hm := culprit_mem hc
        have hin := (List.mem_filter.1 hm).1
        split
        · rfl
        · rename_i s1 q hr
          obtain ⟨a1, _, _, _, ⟨e, he, hep⟩, _⟩ := reanchor_step hs hr
          have hqp : q = p := by rw [← hep]; exact hlof e he
          subst hqp
          have hpr : q ≠ rootInode := fun h => hroot (h ▸ hp)
          refine ih a1 (ht.set _ _) ?_ ?_ hp' ?_ (lof_kept hs hr hpr)
          · intro i hi
            obtain ⟨v, hv⟩ := mem_keys.1 (hl inode hin)
            rw [keys_set _ (AL.mem_get_some ht hv)]
            exact hl i (List.mem_filter.1 hi).1
          · exact AL.get_some_mem (AL.get_set_self _ _ _)
          · exact fun h => hroot (List.mem_filter.1 h).1

structure LInv (t : List (Nat × Option Nat)) (left : List Nat) (db : Db) : Prop where
  schema : Schema db
  nk : AL.NK t
  ptr : ∀ i p, (i, some p) ∈ t → ∃ e ∈ db.contents, e.2.inode = i ∧ e.2.parent = p
  leftKeys : ∀ i ∈ left, i ∈ keys t
  done : ∀ i ∈ keys t, i ∉ left → Fixed db left i
  parents : ∀ e ∈ db.contents, e.2.parent ∈ keys t ∨ Fixed db left e.2.parent

/-- What is known about the tree to delete next. -/
def RootOk (t : List (Nat × Option Nat)) (left : List Nat) (db : Db) (root : Nat) : Prop :=
  root = rootInode ∨ (rootInode ∉ left ∧ ∃ p, (root, some p) ∈ t ∧ (p ∉ left → Fixed db left p) ∧ (p ∈ left → Lof db p))

theorem loopRun_spec {depth : Nat} : ∀ {fuel : Nat} {root : Nat} {t : List (Nat × Option Nat)} {left : List Nat} {s s' : St},
    LInv t left s.db → RootOk t left s.db root → loopRun depth fuel root t left s = some s' →
    Schema s'.db ∧ Moved s.db s'.db ∧ (NExact s.db → NExact s'.db) ∧ s'.backend = s.backend ∧
      (∀ e ∈ s'.db.contents, Reach s'.db e.2.parent) := by
  intro fuel
  induction fuel with
  | zero => intro root t left s s' _ _ h; cases h
  | succ n ih =>
    intro root t left s s' hi hroot h
    have hstuck : ∀ p, (root, some p) ∈ t → rootInode ∉ left → (p ∈ left → Lof s.db p) → p ∉ left := by
      intro p h1 h2 h3 h4
      rw [loopRun_stuck hi.schema hi.nk hi.leftKeys h1 h4 h2 (h3 h4)] at h
      cases h
    unfold loopRun at h
    split at h
    · cases h
    · rename_i del hdel
      dsimp only at h
      generalize hl' : left.filter (fun i => !del.contains i) = left' at h
      have hsub : ∀ i ∈ left', i ∈ left := by
        intro i hi'; rw [← hl'] at hi'; exact (List.mem_filter.1 hi').1
      have hdl : ∀ i ∈ del, i ∉ left' := by
        intro i hi' hil
        rw [← hl'] at hil
        have := (List.mem_filter.1 hil).2
        simp [hi'] at this
      have hrd : root ∈ del := (deleteTree_iff hdel).2 Desc.refl
      have hrootfix : Fixed s.db left' root := by
        rcases hroot with rfl | ⟨h2, p, h1, h3, h4⟩
        · exact Fixed.root
        · have hpl := hstuck p h1 h2 h4
          obtain ⟨e, he, hei, hep⟩ := hi.ptr _ _ h1
          subst hei
          exact Fixed.step he (hdl _ hrd) (by rw [hep]; exact (h3 hpl).mono hsub)
      have hdesc : ∀ i, Desc t root i → Fixed s.db left' i := by
        intro i hd
        induction hd with
        | refl => exact hrootfix
        | step hxy hy ihd =>
          obtain ⟨e, he, hei, hep⟩ := hi.ptr _ _ hxy
          have hx := (deleteTree_iff hdel).2 (Desc.step hxy hy)
          subst hei
          exact Fixed.step he (hdl _ hx) (by rw [hep]; exact ihd)
      have hdone : ∀ i ∈ keys t, i ∉ left' → Fixed s.db left' i := by
        intro i hk hil
        by_cases hl : i ∈ left
        · by_cases hd : i ∈ del
          · exact hdesc i ((deleteTree_iff hdel).1 hd)
          · exact absurd (by rw [← hl']; exact List.mem_filter.2 ⟨hl, by simpa using hd⟩) hil
        · exact (hi.done i hk hl).mono hsub
      have hroot' : rootInode ∉ left' := by
        rcases hroot with rfl | ⟨h2, _⟩
        · exact hdl _ hrd
        · exact fun h => h2 (hsub _ h)
      split at h
      · rename_i hc
        cases h
        have hnil := culprit_none hc
        refine ⟨hi.schema, Moved.refl _, id, rfl, ?_⟩
        intro e he
        rcases hi.parents e he with hk | hf
        · exact (hdone _ hk (by rw [hnil]; exact List.not_mem_nil)).reach
        · exact hf.reach
      · rename_i inode hc
        have hm := culprit_mem hc
        split at h
        · cases h
        · rename_i s1 p hr
          obtain ⟨a1, a2, a3, a4, ⟨e0, he0, hep0⟩, ⟨k, r, nid, hk, hri, hcont⟩, _⟩ := reanchor_step hi.schema hr
          obtain ⟨v, hv⟩ := mem_keys.1 (hi.leftKeys inode (hsub _ hm))
          have hkeys : keys (AL.set t inode (some p)) = keys t := keys_set _ (AL.mem_get_some hi.nk hv)
          have hstay : ∀ e ∈ s.db.contents, e.2.inode ≠ inode → e ∈ s1.db.contents := by
            intro e he hne
            rw [hcont]
            refine (mem_set hi.schema.contents).2 (Or.inr ⟨he, ?_⟩)
            intro hek
            have h1 := AL.mem_get_some hi.schema.contents (k := k) (v := e.2) (by rw [← hek]; exact he)
            rw [AL.mem_get_some hi.schema.contents hk] at h1
            cases h1
            exact hne hri
          have htrans : ∀ i, Fixed s.db left' i → Fixed s1.db left' i := by
            intro i hf
            induction hf with
            | root => exact Fixed.root
            | step he hn _ ihf => exact Fixed.step (hstay _ he (fun h => hn (by rw [h]; exact hm))) hn ihf
          have hfixp : p ∉ left' → Fixed s1.db left' p := by
            intro hpl
            apply htrans
            obtain ⟨hm1, hm2, _⟩ : e0 ∈ s.db.contents ∧ e0.2.parent = rootInode ∧ True := by
              unfold Db.entry at he0
              obtain ⟨j, _, h2⟩ := Option.bind_eq_some_iff.1 he0
              obtain ⟨n1, n2, _⟩ := findEntry_spec h2
              exact ⟨n1, n2, trivial⟩
            subst hep0
            exact Fixed.step hm1 hpl (by rw [hm2]; exact Fixed.root)
          have hinv : LInv (AL.set t inode (some p)) left' s1.db := by
            refine ⟨a1, hi.nk.set _ _, ?_, ?_, ?_, ?_⟩
            · intro i q hq
              rcases (mem_set hi.nk).1 hq with hq | ⟨hq, hne⟩
              · cases hq
                refine ⟨(k, ⟨p, nid, inode⟩), ?_, rfl, rfl⟩
                rw [hcont]
                exact AL.get_some_mem (AL.get_set_self _ _ _)
              · obtain ⟨e, he, hei, hep⟩ := hi.ptr i q hq
                exact ⟨e, hstay e he (by rw [hei]; exact hne), hei, hep⟩
            · intro i hil
              rw [hkeys]; exact hi.leftKeys i (hsub i hil)
            · intro i hik hil
              rw [hkeys] at hik
              exact htrans i (hdone i hik hil)
            · intro e he
              rw [hkeys]
              rw [hcont] at he
              rcases (mem_set hi.schema.contents).1 he with rfl | ⟨he, _⟩
              · by_cases hpl : p ∈ left'
                · exact Or.inl (hi.leftKeys p (hsub p hpl))
                · exact Or.inr (hfixp hpl)
              · rcases hi.parents e he with hk' | hf
                · exact Or.inl hk'
                · exact Or.inr (htrans _ (hf.mono hsub))
          have hrok : RootOk (AL.set t inode (some p)) left' s1.db inode := by
            right
            refine ⟨hroot', p, AL.get_some_mem (AL.get_set_self _ _ _), hfixp, ?_⟩
            intro hpl
            exact lof_kept hi.schema hr (fun hpr => hroot' (hpr ▸ hpl))
          obtain ⟨b1, b2, b3, b4, b5⟩ := ih hinv hrok h
          exact ⟨b1, a2.trans b2, fun hx => b3 (a3 hx), b4.trans a4, b5⟩

theorem dedup_mem {l : List Nat} {i : Nat} : i ∈ dedup l ↔ i ∈ l := by
  induction l with
  | nil => exact Iff.rfl
  | cons a t ih =>
    unfold dedup
    split
    · rename_i h
      have : a ∈ t := by simpa using h
      rw [ih]
      constructor
      · exact fun h => List.mem_cons_of_mem _ h
      · intro h
        rcases List.mem_cons.1 h with rfl | h
        · exact this
        · exact h
    · rw [List.mem_cons, List.mem_cons, ih]

theorem dedup_nodup (l : List Nat) : (dedup l).Nodup := by
  induction l with
  | nil => exact List.nodup_nil
  | cons a t ih =>
    unfold dedup
    split
    · exact ih
    · rename_i h
      refine List.nodup_cons.2 ⟨?_, ih⟩
      rw [dedup_mem]
      simpa using h

theorem keys_loopTable (db : Db) : keys (loopTable db) = dedup (db.contents.map (·.2.parent)) := by
  unfold keys loopTable
  rw [List.map_map]
  exact List.map_id _

theorem loopTable_inv {db : Db} (hs : Schema db) : LInv (loopTable db) (keys (loopTable db)) db := by
  refine ⟨hs, ?_, ?_, fun i h => h, fun i h hn => absurd h hn, ?_⟩
  · show (keys (loopTable db)).Nodup
    rw [keys_loopTable]; exact dedup_nodup _
  · intro i p hip
    unfold loopTable at hip
    obtain ⟨j, _, hj⟩ := List.mem_map.1 hip
    have h1 := congrArg Prod.fst hj
    have h2 := congrArg Prod.snd hj
    dsimp only at h1 h2
    subst h1
    obtain ⟨e, he, hep⟩ := Option.map_eq_some_iff.1 h2
    exact ⟨e, List.mem_of_find?_eq_some he, by simpa using List.find?_some he, hep⟩
  · intro e he
    left
    rw [keys_loopTable, dedup_mem]
    exact List.mem_map.2 ⟨e, he, rfl⟩

theorem checkLoops_step {depth : Nat} {s s' : St} (hs : Schema s.db) (h : checkLoops depth s = some s') :
    Schema s'.db ∧ Moved s.db s'.db ∧ (NExact s.db → NExact s'.db) ∧ s'.backend = s.backend ∧
      (∀ e ∈ s'.db.contents, Reach s'.db e.2.parent) :=
  loopRun_spec (loopTable_inv hs) (Or.inl rfl) h

theorem Moved.entriesTo {a b : Db} (h : Moved a b) (i : Nat) : entriesTo b i = entriesTo a i := by
  have h1 : ∀ db : Db, Verif.Fsck.entriesTo db i = (col db).countP (fun e => decide (e.2 = i)) := by
    intro db
    unfold Verif.Fsck.entriesTo col
    rw [List.countP_map]
    rfl
  rw [h1, h1, h.2.1]

theorem Moved.refs {a b : Db} (h : Moved a b) (hr : RefsOk a) : RefsOk b := by
  intro e he hp
  rw [h.entriesTo]
  refine hr e ?_ hp
  rw [h.1] at he
  exact he

/-- Every entry is in a reachable directory and every inode has an entry: every inode is reachable. -/
theorem connected_of {db : Db} (hr : RefsOk db) (hp : ∀ e ∈ db.contents, Reach db e.2.parent) : Connected db := by
  intro e he hc
  by_cases hroot : e.1 = rootInode
  · rw [hroot]; exact Reach.root
  · have h0 := (hr e he ⟨hroot, hc⟩).2
    have hpos : 0 < entriesTo db e.1 := Nat.pos_of_ne_zero h0
    unfold entriesTo at hpos
    obtain ⟨f, hf, hfe⟩ := List.countP_pos_iff.1 hpos
    have hfe : f.2.inode = e.1 := by simpa using hfe
    rw [← hfe]
    exact Reach.step hf (hp f hf)

end Verif.Fsck
