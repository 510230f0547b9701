import Verif.Inode.Spec
/-
Property C09.
-/
namespace Verif.Inode

open Verif.AL (NK)

attribute [local grind =] upd_app AL.get_set AL.get_erase

/-- Current attributes of an inode. -/
def view (s : State) (id : Nat) : Option Row :=
  match AL.get s.attrs id with
  | some o => some (s.objs o).row
  | none => AL.get s.db id

structure Inv (n : Nat) (s : State) : Prop where
  obj : ∀ id o, AL.get s.attrs id = some o → o < s.nobj ∧ (s.objs o).id = id ∧
    ∃ row, AL.get s.db id = some row ∧ ((s.objs o).dirty = false → row = (s.objs o).row)
  inRing : ∀ id o, AL.get s.attrs id = some o → ∃ i, i < n ∧ s.ring i = some id
  ringLt : ∀ i id, s.ring i = some id → i < n ∧ id < s.nextId
  ringDead : ∀ i id, s.ring i = some id → AL.get s.attrs id = none → AL.get s.db id = none
  ringInj : ∀ i j id, s.ring i = some id → s.ring j = some id → i = j
  dbLt : ∀ id row, AL.get s.db id = some row → id < s.nextId
  pos : s.pos < n

theorem inv_init {n : Nat} (hn : 0 < n) {db : List (Nat × Row)} {k : Nat}
    (hk : ∀ id row, AL.get db id = some row → id < k) : Inv n (init db k) := by
  refine ⟨?_, ?_, ?_, ?_, ?_, hk, hn⟩ <;> simp [init, AL.get]

theorem writeBack_attrs (s : State) (o : Nat) : (writeBack s o).attrs = s.attrs ∧ (writeBack s o).ring = s.ring ∧
    (writeBack s o).pos = s.pos ∧ (writeBack s o).nobj = s.nobj ∧ (writeBack s o).nextId = s.nextId := by
  unfold writeBack; dsimp only; split <;> simp

theorem writeBack_obj (s : State) (o x : Nat) : ((writeBack s o).objs x).row = (s.objs x).row ∧
    ((writeBack s o).objs x).id = (s.objs x).id ∧
    ((writeBack s o).objs x).dirty = if x = o then false else (s.objs x).dirty := by
  unfold writeBack; dsimp only; split <;> simp only [upd_app] <;> grind

theorem writeBack_db {s : State} {o id : Nat} {r : Row} (hid : (s.objs o).id = id) (hr : AL.get s.db id = some r)
    (hc : (s.objs o).dirty = false → r = (s.objs o).row) (x : Nat) :
    AL.get (writeBack s o).db x = if x = id then some (s.objs o).row else AL.get s.db x := by
  unfold writeBack; dsimp only
  split
  · subst hid; simp only [hr, Option.isSome_some, if_true]; grind
  · next hd => grind

/-- Writing back a cached object keeps everything and makes its row current. -/
theorem inv_writeBack {n : Nat} {s : State} (i : Inv n s) {id o : Nat} (h : AL.get s.attrs id = some o) :
    Inv n (writeBack s o) ∧ (∀ x, view (writeBack s o) x = view s x) := by
  obtain ⟨h1, h2, r, h3, h4⟩ := i.obj id o h
  obtain ⟨a1, a2, a3, a4, a5⟩ := writeBack_attrs s o
  have hdb := writeBack_db h2 h3 h4
  have hob := writeBack_obj s o
  constructor
  · refine ⟨?_, ?_, ?_, ?_, ?_, ?_, by rw [a3]; exact i.pos⟩
    · intro x p hx
      rw [a1] at hx
      obtain ⟨b1, b2, r', b3, b4⟩ := i.obj x p hx
      refine ⟨by rw [a4]; exact b1, by rw [(hob p).2.1]; exact b2, ?_⟩
      by_cases hxi : x = id
      · subst hxi
        have : p = o := by rw [h] at hx; cases hx; rfl
        subst this
        exact ⟨(s.objs p).row, by rw [hdb, if_pos rfl], fun _ => by rw [(hob p).1]⟩
      · refine ⟨r', by rw [hdb, if_neg hxi]; exact b3, ?_⟩
        have hpo : p ≠ o := by rintro rfl; exact hxi (b2.symm.trans h2)
        rw [(hob p).2.2, if_neg hpo, (hob p).1]; exact b4
    · rw [a1, a2]; exact i.inRing
    · rw [a2, a5]; exact i.ringLt
    · rw [a1, a2]
      intro j x hj hx
      rw [hdb]
      have := i.ringDead j x hj hx
      rw [if_neg]; exact this
      rintro rfl; rw [h] at hx; cases hx
    · rw [a2]; exact i.ringInj
    · rw [a5]
      intro x row hx
      rw [hdb] at hx
      by_cases hxi : x = id
      · subst hxi; exact i.dbLt x r h3
      · rw [if_neg hxi] at hx; exact i.dbLt x row hx
  · intro x
    unfold view
    rw [a1]
    cases hx : AL.get s.attrs x with
    | some p => dsimp only; rw [(hob p).1]
    | none =>
      dsimp only
      rw [hdb, if_neg]
      rintro rfl; rw [h] at hx; cases hx

/-- Invariant without a slot for the inode `id`, whose object is being removed. -/
theorem evict_spec {s : State} {old : Option Nat}
    (obj : ∀ id o, AL.get s.attrs id = some o → o < s.nobj ∧ (s.objs o).id = id ∧
      ∃ row, AL.get s.db id = some row ∧ ((s.objs o).dirty = false → row = (s.objs o).row)) :
    (∀ x, AL.get (evict s old).attrs x = if some x = old then none else AL.get s.attrs x) ∧
    (∀ x, view (evict s old) x = view s x) ∧
    (evict s old).ring = s.ring ∧ (evict s old).pos = s.pos ∧ (evict s old).nobj = s.nobj ∧
    (evict s old).nextId = s.nextId ∧
    (∀ x o, AL.get (evict s old).attrs x = some o → (evict s old).objs o = s.objs o) ∧
    (∀ o, ((evict s old).objs o).id = (s.objs o).id ∧ ((evict s old).objs o).row = (s.objs o).row) ∧
    (∀ x, AL.get (evict s old).attrs x ≠ none → AL.get (evict s old).db x = AL.get s.db x) ∧
    (∀ x, AL.get (evict s old).db x = none ↔ AL.get s.db x = none) := by
  cases old with
  | none => refine ⟨?_, ?_, rfl, rfl, rfl, rfl, ?_, ?_, ?_, ?_⟩ <;> simp [evict]
  | some id =>
    cases h : AL.get s.attrs id with
    | none =>
      have he : evict s (some id) = s := by simp [evict, h]
      rw [he]
      refine ⟨?_, fun _ => rfl, rfl, rfl, rfl, rfl, fun _ _ _ => rfl, fun _ => ⟨rfl, rfl⟩, fun _ _ => rfl, fun _ => Iff.rfl⟩
      intro x
      split
      · next hx => cases hx; exact h
      · rfl
    | some o =>
      obtain ⟨h1, h2, r, h3, h4⟩ := obj id o h
      have he : evict s (some id) = writeBack { s with attrs := AL.erase s.attrs id } o := by simp [evict, h]
      rw [he]
      obtain ⟨a1, a2, a3, a4, a5⟩ := writeBack_attrs { s with attrs := AL.erase s.attrs id } o
      have hdb := writeBack_db (s := { s with attrs := AL.erase s.attrs id }) h2 h3 h4
      have hob := writeBack_obj { s with attrs := AL.erase s.attrs id } o
      dsimp only at a1 a2 a3 a4 a5 hdb hob
      have hat : ∀ x, AL.get (writeBack { s with attrs := AL.erase s.attrs id } o).attrs x =
          if some x = some id then none else AL.get s.attrs x := by
        intro x
        rw [a1, AL.get_erase]
        by_cases hx : x = id <;> simp [hx]
      refine ⟨hat, ?_, a2, a3, a4, a5, ?_, ?_, ?_, ?_⟩
      · intro x
        unfold view
        rw [hat]
        by_cases hx : x = id
        · subst hx; simp only [if_true]; rw [hdb, if_pos rfl, h]
        · have hx' : ¬ some x = some id := fun he => hx (Option.some.inj he)
          rw [if_neg hx']
          cases hxa : AL.get s.attrs x with
          | some p => dsimp only; rw [(hob p).1]
          | none => dsimp only; rw [hdb, if_neg hx]
      · intro x p hp
        rw [hat] at hp
        split at hp
        · cases hp
        · next hx =>
          have hpo : p ≠ o := by
            rintro rfl
            have := (obj x p hp).2.1
            rw [h2] at this; exact hx (by rw [this])
          unfold writeBack; dsimp only; split
          · simp only [upd_app, if_neg hpo]
          · rfl
      · intro p; exact ⟨(hob p).2.1, (hob p).1⟩
      · intro x hx
        rw [hdb, if_neg]
        rintro rfl
        rw [hat, if_pos rfl] at hx; exact hx rfl
      · intro x
        rw [hdb]
        by_cases hx : x = id
        · subst hx; rw [if_pos rfl, h3]; simp
        · rw [if_neg hx]

theorem lookup_spec {n : Nat} {s : State} (i : Inv n s) (id : Nat) :
    Inv n (lookup n s id).1 ∧ (∀ x, view (lookup n s id).1 x = view s x) ∧
    (lookup n s id).1.nextId = s.nextId ∧
    (match (lookup n s id).2 with
      | some o => AL.get (lookup n s id).1.attrs id = some o ∧ (view s id).isSome
      | none => view s id = none) := by
  unfold lookup
  cases h : AL.get s.attrs id with
  | some o => exact ⟨i, fun _ => rfl, rfl, h, by simp [view, h]⟩
  | none =>
    dsimp only
    cases hr : AL.get s.db id with
    | none => exact ⟨i, fun _ => rfl, rfl, by simp [view, h, hr]⟩
    | some row =>
      dsimp only
      generalize hs2 : ({ s with
        objs := upd s.objs s.nobj ⟨id, row, false⟩, nobj := s.nobj + 1,
        ring := upd s.ring s.pos (some id), pos := (s.pos + 1) % n } : State) = s2
      have hobj2 : ∀ x o, AL.get s2.attrs x = some o → o < s2.nobj ∧ (s2.objs o).id = x ∧
          ∃ row, AL.get s2.db x = some row ∧ ((s2.objs o).dirty = false → row = (s2.objs o).row) := by
        subst hs2
        intro x o hx
        obtain ⟨b1, b2, b3⟩ := i.obj x o hx
        dsimp only
        rw [upd_app, if_neg (by omega)]
        exact ⟨by omega, b2, b3⟩
      obtain ⟨e1, e2, e3, e4, e5, e6, e7, e8, e9, e10⟩ := evict_spec (old := s.ring s.pos) hobj2
      generalize hs3 : evict s2 (s.ring s.pos) = s3 at *
      have hv2 : ∀ x, view s2 x = view s x := by
        subst hs2
        intro x
        unfold view
        dsimp only
        cases hx : AL.get s.attrs x with
        | none => rfl
        | some o => dsimp only; rw [upd_app, if_neg (by have := (i.obj x o hx).1; omega)]
      have hnr : ∀ j, s.ring j ≠ some id := by
        intro j hj
        have := i.ringDead j id hj h
        rw [hr] at this; cases this
      have hpos := i.pos
      have hob2 : s2.objs s.nobj = ⟨id, row, false⟩ := by subst hs2; simp [upd_app]
      have hob3 : (s3.objs s.nobj).id = id ∧ (s3.objs s.nobj).row = row := by
        have := e8 s.nobj; rw [hob2] at this; exact this
      have hdb2 : s2.db = s.db := by subst hs2; rfl
      have hat2 : s2.attrs = s.attrs := by subst hs2; rfl
      have hring2 : s2.ring = upd s.ring s.pos (some id) := by subst hs2; rfl
      have hdb3 : AL.get s3.db id = some row := by
        have hv := e2 id
        have h3a : AL.get s3.attrs id = none := by rw [e1, hat2, h]; split <;> rfl
        unfold view at hv
        rw [h3a, hat2, h] at hv
        dsimp only at hv
        rw [hv, hdb2, hr]
      refine ⟨⟨?_, ?_, ?_, ?_, ?_, ?_, ?_⟩, ?_, ?_, ?_, ?_⟩
      · intro x o hx
        dsimp only at hx ⊢
        rw [AL.get_set] at hx
        by_cases hxi : x = id
        · rw [if_pos hxi] at hx; cases hx
          subst hxi
          refine ⟨by rw [e5]; subst hs2; show s.nobj < s.nobj + 1; omega, hob3.1, row, hdb3, fun _ => hob3.2.symm⟩
        · rw [if_neg hxi] at hx
          have hx2 : AL.get s2.attrs x = some o := by
            rw [e1] at hx; split at hx; cases hx; exact hx
          obtain ⟨b1, b2, b3⟩ := hobj2 x o hx2
          rw [e5, e7 x o hx, e9 x (by rw [hx]; simp)]
          exact ⟨b1, b2, b3⟩
      · intro x o hx
        dsimp only at hx ⊢
        rw [AL.get_set] at hx
        rw [e3, hring2]
        by_cases hxi : x = id
        · subst hxi; exact ⟨s.pos, hpos, by rw [upd_app, if_pos rfl]⟩
        · rw [if_neg hxi, e1, hat2] at hx
          split at hx
          · cases hx
          · next hne =>
            obtain ⟨j, hj, hjr⟩ := i.inRing x o hx
            refine ⟨j, hj, ?_⟩
            rw [upd_app, if_neg]
            · exact hjr
            · rintro rfl; exact hne hjr.symm
      · intro j x hj
        dsimp only at hj ⊢
        rw [e6]
        rw [e3, hring2, upd_app] at hj
        have hn2 : s2.nextId = s.nextId := by subst hs2; rfl
        rw [hn2]
        split at hj
        · next hjp => cases hj; exact ⟨hjp ▸ hpos, i.dbLt id row hr⟩
        · exact i.ringLt j x hj
      · intro j x hj hx
        dsimp only at hj hx ⊢
        rw [AL.get_set] at hx
        rw [e3, hring2, upd_app] at hj
        by_cases hxi : x = id
        · rw [if_pos hxi] at hx; cases hx
        · rw [if_neg hxi] at hx
          rw [e10, hdb2]
          split at hj
          · cases hj; exact absurd rfl hxi
          · next hjp =>
            rw [e1, hat2] at hx
            split at hx
            · next hold =>
              exact absurd (i.ringInj j s.pos x hj hold.symm) hjp
            · exact i.ringDead j x hj hx
      · intro j k x hj hk
        dsimp only at hj hk
        rw [e3, hring2, upd_app] at hj hk
        split at hj
        · next h1 =>
          cases hj
          split at hk
          · next h2 => rw [h1, h2]
          · exact absurd hk (hnr k)
        · split at hk
          · cases hk; exact absurd hj (hnr j)
          · exact i.ringInj j k x hj hk
      · intro x r hx
        dsimp only at hx ⊢
        have hn2 : s2.nextId = s.nextId := by subst hs2; rfl
        rw [e6, hn2]
        cases hd : AL.get s.db x with
        | some r' => exact i.dbLt x r' hd
        | none =>
          rw [← hdb2, ← e10, hx] at hd; cases hd
      · dsimp only
        rw [e4]; subst hs2
        exact Nat.mod_lt _ (by omega)
      · intro x
        rw [← hv2, ← e2]
        unfold view
        dsimp only
        rw [AL.get_set]
        by_cases hxi : x = id
        · subst hxi
          rw [if_pos rfl]
          dsimp only
          have h3a : AL.get s3.attrs x = none := by rw [e1, hat2, h]; split <;> rfl
          rw [h3a, hob3.2]; exact hdb3.symm
        · rw [if_neg hxi]
      · show s3.nextId = _; rw [e6]; subst hs2; rfl
      · show AL.get (AL.set s3.attrs id s.nobj) id = _; rw [AL.get_set_self]
      · simp [view, h, hr]

theorem inv_evict_slot {n : Nat} {s : State} (i : Inv n s) (j : Nat) :
    Inv n (evict { s with ring := upd s.ring j none } (s.ring j)) ∧
    (∀ x, view (evict { s with ring := upd s.ring j none } (s.ring j)) x = view s x) ∧
    (evict { s with ring := upd s.ring j none } (s.ring j)).nextId = s.nextId ∧
    (evict { s with ring := upd s.ring j none } (s.ring j)).ring = upd s.ring j none := by
  obtain ⟨e1, e2, e3, e4, e5, e6, e7, e8, e9, e10⟩ :=
    evict_spec (s := { s with ring := upd s.ring j none }) (old := s.ring j) i.obj
  generalize evict { s with ring := upd s.ring j none } (s.ring j) = s3 at *
  dsimp only at *
  refine ⟨⟨?_, ?_, ?_, ?_, ?_, ?_, by rw [e4]; exact i.pos⟩, e2, e6, e3⟩
  · intro x o hx
    have hx2 : AL.get s.attrs x = some o := by rw [e1] at hx; split at hx; cases hx; exact hx
    rw [e5, e7 x o hx, e9 x (by rw [hx]; simp)]
    exact i.obj x o hx2
  · intro x o hx
    rw [e1] at hx
    split at hx
    · cases hx
    · next hne =>
      obtain ⟨k, hk, hkr⟩ := i.inRing x o hx
      refine ⟨k, hk, ?_⟩
      rw [e3, upd_app, if_neg]; exact hkr
      rintro rfl; exact hne hkr.symm
  · intro k x hk
    rw [e3, upd_app] at hk
    split at hk
    · cases hk
    · rw [e6]; exact i.ringLt k x hk
  · intro k x hk hx
    rw [e3, upd_app] at hk
    split at hk
    · cases hk
    · next hkj =>
      rw [e10]
      rw [e1] at hx
      split at hx
      · next hold => exact absurd (i.ringInj k j x hk hold.symm) hkj
      · exact i.ringDead k x hk hx
  · intro k l x hk hl
    rw [e3, upd_app] at hk hl
    split at hk
    · cases hk
    · split at hl
      · cases hl
      · exact i.ringInj k l x hk hl
  · intro x r hx
    rw [e6]
    cases hd : AL.get s.db x with
    | some r' => exact i.dbLt x r' hd
    | none => rw [← e10, hx] at hd; cases hd

theorem destroyLoop_spec {n : Nat} (k : Nat) {s : State} (i : Inv n s) (j : Nat) :
    Inv n (destroyLoop s j k) ∧ (∀ x, view (destroyLoop s j k) x = view s x) ∧
    (destroyLoop s j k).nextId = s.nextId ∧
    (∀ l, (destroyLoop s j k).ring l = if j ≤ l ∧ l < j + k then none else s.ring l) := by
  induction k generalizing s j with
  | zero => exact ⟨i, fun _ => rfl, rfl, fun l => by simp only [destroyLoop]; rw [if_neg (by omega)]⟩
  | succ k ih =>
    obtain ⟨a1, a2, a3, a4⟩ := inv_evict_slot i j
    obtain ⟨b1, b2, b3, b4⟩ := ih a1 (j + 1)
    refine ⟨b1, fun x => (b2 x).trans (a2 x), b3.trans a3, ?_⟩
    intro l
    simp only [destroyLoop]
    rw [b4, a4, upd_app]
    by_cases h1 : l = j
    · subst h1; simp
    · rw [if_neg h1]
      by_cases h2 : j + 1 ≤ l ∧ l < j + 1 + k
      · rw [if_pos h2, if_pos (by omega)]
      · rw [if_neg h2, if_neg (by omega)]

theorem flushLoop_spec {n : Nat} (k : Nat) {s : State} (i : Inv n s) (j : Nat) :
    Inv n (flushLoop s j k) ∧ (∀ x, view (flushLoop s j k) x = view s x) ∧
    (flushLoop s j k).nextId = s.nextId ∧ (flushLoop s j k).ring = s.ring ∧ (flushLoop s j k).attrs = s.attrs ∧
    (∀ x, AL.get s.db x = none → AL.get (flushLoop s j k).db x = none) ∧
    (∀ o, (s.objs o).dirty = false → ((flushLoop s j k).objs o).dirty = false) ∧
    (∀ l id o, j ≤ l → l < j + k → s.ring l = some id → AL.get s.attrs id = some o →
      ((flushLoop s j k).objs o).dirty = false) := by
  induction k generalizing s j with
  | zero =>
    exact ⟨i, fun _ => rfl, rfl, rfl, rfl, fun _ h => h, fun _ h => h, fun l id o h1 h2 => by omega⟩
  | succ k ih =>
    simp only [flushLoop]
    cases hr : s.ring j with
    | none =>
      dsimp only
      obtain ⟨b1, b2, b3, b4, b5, b6, b7, b8⟩ := ih i (j + 1)
      refine ⟨b1, b2, b3, b4, b5, b6, b7, ?_⟩
      intro l id o h1 h2 h3 h4
      by_cases hl : l = j
      · subst hl; rw [hr] at h3; cases h3
      · exact b8 l id o (by omega) (by omega) h3 h4
    | some id =>
      cases ha : AL.get s.attrs id with
      | none =>
        simp only [ha]
        obtain ⟨b1, b2, b3, b4, b5, b6, b7, b8⟩ := ih i (j + 1)
        refine ⟨b1, b2, b3, b4, b5, b6, b7, ?_⟩
        intro l id' o h1 h2 h3 h4
        by_cases hl : l = j
        · subst hl; rw [hr] at h3; cases h3; rw [ha] at h4; cases h4
        · exact b8 l id' o (by omega) (by omega) h3 h4
      | some o =>
        simp only [ha]
        obtain ⟨c1, c2⟩ := inv_writeBack i ha
        obtain ⟨a1, a2, a3, a4, a5⟩ := writeBack_attrs s o
        obtain ⟨b1, b2, b3, b4, b5, b6, b7, b8⟩ := ih c1 (j + 1)
        obtain ⟨_, o2, r, o3, o4⟩ := i.obj id o ha
        refine ⟨b1, fun x => (b2 x).trans (c2 x), b3.trans a5, b4.trans a2, b5.trans a1, ?_, ?_, ?_⟩
        · intro x hx
          apply b6
          rw [writeBack_db o2 o3 o4, if_neg]; exact hx
          rintro rfl; rw [o3] at hx; cases hx
        · intro p hp
          apply b7
          rw [(writeBack_obj s o p).2.2]; split; rfl; exact hp
        · intro l id' p h1 h2 h3 h4
          by_cases hl : l = j
          · subst hl
            rw [hr] at h3; cases h3; rw [ha] at h4; cases h4
            apply b7
            rw [(writeBack_obj s o o).2.2, if_pos rfl]
          · exact b8 l id' p (by omega) (by omega) (by rw [a2]; exact h3) (by rw [a1]; exact h4)

/-- Agreement of model and specification. -/
structure Sim (n : Nat) (s : State) (S : Spec) : Prop where
  inv : Inv n s
  table : ∀ x, S.table x = view s x
  unused : S.unused = s.nextId
  cur : ∀ o id, S.current = some (o, id) → AL.get s.attrs id = some o

theorem view_none_db {n : Nat} {s : State} (i : Inv n s) (x : Nat) : view s x = none ↔ AL.get s.db x = none := by
  unfold view
  cases h : AL.get s.attrs x with
  | none => rfl
  | some o =>
    obtain ⟨_, _, r, h3, _⟩ := i.obj x o h
    simp [h3]

theorem inv_insert {n : Nat} {s : State} (i : Inv n s) (row : Row) :
    Inv n { s with db := AL.set s.db s.nextId row, nextId := s.nextId + 1 } := by
  have hdead : ∀ x, AL.get s.attrs x ≠ none → x ≠ s.nextId := by
    intro x hx he
    cases h : AL.get s.attrs x with
    | none => exact hx h
    | some o =>
      obtain ⟨_, _, r, h3, _⟩ := i.obj x o h
      have := i.dbLt x r h3; omega
  refine ⟨?_, i.inRing, ?_, ?_, i.ringInj, ?_, i.pos⟩
  · intro x o hx
    obtain ⟨b1, b2, b3⟩ := i.obj x o hx
    dsimp only
    rw [AL.get_set_ne _ _ (hdead x (by rw [hx]; simp))]
    exact ⟨b1, b2, b3⟩
  · intro j x hj
    have := i.ringLt j x hj
    exact ⟨this.1, by dsimp only; omega⟩
  · intro j x hj hx
    have h1 := (i.ringLt j x hj).2
    dsimp only
    rw [AL.get_set_ne _ _ (by omega)]
    exact i.ringDead j x hj hx
  · intro x r hx
    dsimp only at hx ⊢
    rw [AL.get_set] at hx
    split at hx
    · omega
    · have := i.dbLt x r hx; omega

theorem step_sim {n : Nat} {s : State} {S : Spec} (m : Sim n s S) (op : Op) (ha : S.allowed op) :
    S.correct op (step n s op).2 ∧ Sim n (step n s op).1 (S.next op (step n s op).2) := by
  obtain ⟨i, ht, hu, hc⟩ := m
  cases op with
  | create row =>
    have i1 := inv_insert i row
    obtain ⟨a1, a2, a3, a4⟩ := lookup_spec i1 s.nextId
    have hv : ∀ x, view { s with db := AL.set s.db s.nextId row, nextId := s.nextId + 1 } x =
        if x = s.nextId then some row else view s x := by
      intro x
      unfold view
      dsimp only
      rw [AL.get_set]
      cases h : AL.get s.attrs x with
      | none => rfl
      | some o =>
        obtain ⟨_, _, r, h3, _⟩ := i.obj x o h
        have := i.dbLt x r h3
        dsimp only
        rw [if_neg (by omega)]
    simp only [step]
    cases hl : (lookup n { s with db := AL.set s.db s.nextId row, nextId := s.nextId + 1 } s.nextId).2 with
    | none => rw [hl] at a4; dsimp only at a4; rw [hv, if_pos rfl] at a4; cases a4
    | some o =>
      rw [hl] at a4
      dsimp only at a4 ⊢
      refine ⟨⟨o, by rw [hu]⟩, ⟨a1, ?_, ?_, ?_⟩⟩
      · intro x
        simp only [Spec.next]
        rw [a2, hv, hu, ht]
      · simp only [Spec.next]; rw [a3, hu]
      · intro p id hp
        simp only [Spec.next, Option.some.injEq, Prod.mk.injEq] at hp
        obtain ⟨rfl, rfl⟩ := hp
        rw [hu]; exact a4.1
  | item id =>
    obtain ⟨a1, a2, a3, a4⟩ := lookup_spec i id
    simp only [step]
    cases hl : (lookup n s id).2 with
    | none =>
      rw [hl] at a4
      dsimp only at a4 ⊢
      refine ⟨by simp only [Spec.correct, ht, a4], ⟨a1, fun x => ?_, by simp only [Spec.next]; rw [a3, hu], ?_⟩⟩
      · simp only [Spec.next]; rw [ht, a2]
      · intro p x hp
        simp only [Spec.next] at hp
        have hx := hc p x hp
        have hls : (lookup n s id).1 = s := by
          revert hl
          unfold lookup
          cases h : AL.get s.attrs id with
          | some o => intro hl; cases hl
          | none =>
            dsimp only
            cases hr : AL.get s.db id with
            | none => intro _; rfl
            | some row => intro hl; cases hl
        rw [hls]; exact hx
    | some o =>
      rw [hl] at a4
      dsimp only at a4 ⊢
      refine ⟨?_, ⟨a1, fun x => ?_, by simp only [Spec.next]; rw [a3, hu], ?_⟩⟩
      · simp only [Spec.correct]; rw [ht]
        cases hv : view s id with
        | none => rw [hv] at a4; simp at a4
        | some r => exact ⟨o, rfl⟩
      · simp only [Spec.next]; rw [ht, a2]
      · intro p x hp
        simp only [Spec.next, Option.some.injEq, Prod.mk.injEq] at hp
        obtain ⟨rfl, rfl⟩ := hp
        exact a4.1
  | getA o a =>
    obtain ⟨id, hid⟩ := ha
    have h1 := hc o id hid
    refine ⟨⟨id, (s.objs o).row, hid, ?_, rfl⟩, ⟨i, ht, hu, hc⟩⟩
    rw [ht]; simp [view, h1]
  | setA o a v =>
    obtain ⟨id, hid⟩ := ha
    have h1 := hc o id hid
    obtain ⟨o1, o2, r, o3, o4⟩ := i.obj id o h1
    refine ⟨rfl, ⟨⟨?_, i.inRing, i.ringLt, i.ringDead, i.ringInj, i.dbLt, i.pos⟩, ?_, ?_, ?_⟩⟩
    · intro x p hx
      simp only [step] at hx ⊢
      obtain ⟨b1, b2, r', b3, b4⟩ := i.obj x p hx
      rw [upd_app]
      by_cases hp : p = o
      · subst hp; simp only [if_true]; exact ⟨b1, b2, r', b3, fun h => by cases h⟩
      · rw [if_neg hp]; exact ⟨b1, b2, r', b3, b4⟩
    · intro x
      simp only [Spec.next, hid, step]
      unfold view
      dsimp only
      by_cases hx : x = id
      · subst hx
        simp only [if_true]
        rw [ht, h1]; simp only [view, h1, upd_app, if_true]; rfl
      · rw [if_neg hx, ht]
        unfold view
        cases hxa : AL.get s.attrs x with
        | none => rfl
        | some p =>
          dsimp only
          rw [upd_app, if_neg]
          rintro rfl
          exact hx (((i.obj x p hxa).2.1).symm.trans o2)
    · simp only [Spec.next, hid, step]; exact hu
    · simp only [Spec.next, hid, step]; exact fun p x hp => hc p x (by rw [← hid] at hp; exact hp)
  | del id =>
    simp only [step]
    cases hd : AL.get s.db id with
    | none =>
      have hv := (view_none_db i id).2 hd
      have hna : AL.get s.attrs id = none := by
        cases h : AL.get s.attrs id with
        | none => rfl
        | some o => rw [show view s id = some (s.objs o).row by simp [view, h]] at hv; cases hv
      simp only [Option.isSome_none, Bool.false_eq_true, if_false]
      refine ⟨by simp only [Spec.correct]; rw [ht, hv], ⟨i, ?_, hu, ?_⟩⟩
      · intro x
        simp only [Spec.next]
        by_cases hx : x = id
        · subst hx; rw [if_pos rfl, hv]
        · rw [if_neg hx, ht]
      · intro p x hp
        simp only [Spec.next] at hp
        split at hp
        · next p' x' hcur =>
          split at hp
          · cases hp
          · cases hp; exact hc _ _ hcur
        · cases hp
    | some row =>
      simp only [Option.isSome_some, if_true]
      have hvs : (S.table id).isSome := by
        rw [ht]
        cases hv : view s id with
        | none => rw [(view_none_db i id).1 hv] at hd; cases hd
        | some r => rfl
      have hcorr : S.correct (.del id) .none := by
        simp only [Spec.correct]
        cases hx : S.table id with
        | none => rw [hx] at hvs; cases hvs
        | some r => rfl
      cases h : AL.get s.attrs id with
      | none =>
        dsimp only
        refine ⟨hcorr, ⟨⟨?_, i.inRing, i.ringLt, ?_, i.ringInj, ?_, i.pos⟩, ?_, hu, ?_⟩⟩
        · intro x o hx
          dsimp only at hx ⊢
          rw [AL.get_erase, if_neg]
          · exact i.obj x o hx
          · rintro rfl; rw [h] at hx; cases hx
        · intro j x hj hx
          dsimp only at hj hx ⊢
          rw [AL.get_erase]; split; rfl; exact i.ringDead j x hj hx
        · intro x r hx
          dsimp only at hx ⊢
          rw [AL.get_erase] at hx
          split at hx
          · cases hx
          · exact i.dbLt x r hx
        · intro x
          simp only [Spec.next]
          by_cases hx : x = id
          · subst hx; rw [if_pos rfl]; unfold view; dsimp only; rw [h]; dsimp only; rw [AL.get_erase_self]
          · rw [if_neg hx, ht]; unfold view; dsimp only
            cases hxa : AL.get s.attrs x with
            | none => dsimp only; rw [AL.get_erase_ne _ hx]
            | some p => rfl
        · intro p x hp
          simp only [Spec.next] at hp
          split at hp
          · next p' x' hcur =>
            split at hp
            · cases hp
            · cases hp; exact hc _ _ hcur
          · cases hp
      | some o =>
        dsimp only
        obtain ⟨o1, o2, _⟩ := i.obj id o h
        refine ⟨hcorr, ⟨⟨?_, ?_, i.ringLt, ?_, i.ringInj, ?_, i.pos⟩, ?_, hu, ?_⟩⟩
        · intro x p hx
          dsimp only at hx ⊢
          rw [AL.get_erase] at hx
          split at hx
          · cases hx
          · next hne =>
            rw [AL.get_erase_ne _ hne, upd_app, if_neg]
            · exact i.obj x p hx
            · rintro rfl; exact hne (((i.obj x p hx).2.1).symm.trans o2)
        · intro x p hx
          dsimp only at hx ⊢
          rw [AL.get_erase] at hx
          split at hx
          · cases hx
          · exact i.inRing x p hx
        · intro j x hj hx
          dsimp only at hj hx ⊢
          rw [AL.get_erase] at hx ⊢
          split
          · rfl
          · next hne => rw [if_neg hne] at hx; exact i.ringDead j x hj hx
        · intro x r hx
          dsimp only at hx ⊢
          rw [AL.get_erase] at hx
          split at hx
          · cases hx
          · exact i.dbLt x r hx
        · intro x
          simp only [Spec.next]
          by_cases hx : x = id
          · subst hx; rw [if_pos rfl]; unfold view; dsimp only
            rw [AL.get_erase_self]; dsimp only; rw [AL.get_erase_self]
          · rw [if_neg hx, ht]; unfold view; dsimp only
            rw [AL.get_erase_ne _ hx]
            cases hxa : AL.get s.attrs x with
            | none => dsimp only; rw [AL.get_erase_ne _ hx]
            | some p =>
              dsimp only
              rw [upd_app, if_neg]
              rintro rfl; exact hx (((i.obj x p hxa).2.1).symm.trans o2)
        · intro p x hp
          simp only [Spec.next] at hp
          split at hp
          · next p' x' hcur =>
            split at hp
            · cases hp
            · next hne =>
              cases hp
              dsimp only
              rw [AL.get_erase_ne _ hne]; exact hc _ _ hcur
          · cases hp
  | flushId id =>
    simp only [step]
    cases h : AL.get s.attrs id with
    | none => exact ⟨rfl, ⟨i, ht, hu, hc⟩⟩
    | some o =>
      obtain ⟨c1, c2⟩ := inv_writeBack i h
      obtain ⟨a1, a2, a3, a4, a5⟩ := writeBack_attrs s o
      refine ⟨rfl, ⟨c1, fun x => ?_, ?_, ?_⟩⟩
      · simp only [Spec.next]; rw [c2, ht]
      · simp only [Spec.next]; rw [a5, hu]
      · simp only [Spec.next]; rw [a1]; exact hc
  | flush =>
    obtain ⟨b1, b2, b3, b4, b5, _⟩ := flushLoop_spec n i 0
    refine ⟨rfl, ⟨b1, fun x => ?_, ?_, ?_⟩⟩
    · simp only [Spec.next, step]; rw [b2, ht]
    · simp only [Spec.next, step]; rw [b3, hu]
    · simp only [Spec.next, step]; rw [b5]; exact hc
  | drop =>
    obtain ⟨b1, b2, b3, b4⟩ := destroyLoop_spec n i 0
    refine ⟨rfl, ⟨b1, fun x => ?_, ?_, ?_⟩⟩
    · simp only [Spec.next, step]; rw [b2, ht]
    · simp only [Spec.next, step]; rw [b3, hu]
    · intro p x hp; simp only [Spec.next] at hp; cases hp

theorem exec_sim {n : Nat} (ops : List Op) {s : State} {S : Spec} (m : Sim n s S)
    (ha : S.Allowed ops (exec n s ops).2) :
    S.Correct ops (exec n s ops).2 ∧ Sim n (exec n s ops).1 (S.run ops (exec n s ops).2) := by
  induction ops generalizing s S with
  | nil => exact ⟨trivial, m⟩
  | cons op ops ih =>
    simp only [exec, Spec.Allowed] at ha
    obtain ⟨h1, h2⟩ := step_sim m op ha.1
    obtain ⟨h3, h4⟩ := ih h2 ha.2
    exact ⟨⟨h1, h3⟩, h4⟩

theorem sim_init {n : Nat} (hn : 0 < n) {db : List (Nat × Row)} {k : Nat}
    (hk : ∀ id row, AL.get db id = some row → id < k) : Sim n (init db k) (Spec.ofTable db k) :=
  ⟨inv_init hn hk, fun x => by simp [Spec.ofTable, view, init, AL.get], rfl, fun o id h => by cases h⟩

/-! ### Theorems -/

/-- **C09.**  For every cache size, every initial table and every history of creations, lookups, attribute reads
and assignments, deletions, flushes and drops in which attributes are accessed through the object that the latest
lookup returned, every result is what a plain table of inodes gives. -/
theorem C09_cache_is_a_table (n : Nat) (hn : 0 < n) (db : List (Nat × Row)) (k : Nat)
    (hk : ∀ id row, AL.get db id = some row → id < k) (ops : List Op)
    (ha : (Spec.ofTable db k).Allowed ops (exec n (init db k) ops).2) :
    (Spec.ofTable db k).Correct ops (exec n (init db k) ops).2 :=
  (exec_sim ops (sim_init hn hk) ha).1

theorem exec_append (n : Nat) (s : State) (a b : List Op) :
    exec n s (a ++ b) = ((exec n (exec n s a).1 b).1, (exec n s a).2 ++ (exec n (exec n s a).1 b).2) := by
  induction a generalizing s with
  | nil => rfl
  | cons op ops ih => simp [exec, ih]

/-- **C09 (flush).**  After `flush` the database table itself holds every inode's latest attributes and no
others. -/
theorem C09_flush_complete (n : Nat) (hn : 0 < n) (db : List (Nat × Row)) (k : Nat)
    (hk : ∀ id row, AL.get db id = some row → id < k) (ops : List Op)
    (ha : (Spec.ofTable db k).Allowed ops (exec n (init db k) ops).2) (x : Nat) :
    AL.get (exec n (init db k) (ops ++ [.flush])).1.db x =
      ((Spec.ofTable db k).run ops (exec n (init db k) ops).2).table x := by
  obtain ⟨_, m⟩ := exec_sim ops (sim_init hn hk) ha
  rw [exec_append]
  generalize (exec n (init db k) ops).1 = s at *
  show AL.get (flushLoop s 0 n).db x = _
  obtain ⟨b1, b2, b3, b4, b5, b6, b7, b8⟩ := flushLoop_spec n m.inv 0
  rw [m.table, ← b2 x]
  unfold view
  rw [b5]
  cases h : AL.get s.attrs x with
  | none => rfl
  | some o =>
    obtain ⟨j, hj, hjr⟩ := m.inv.inRing x o h
    have hcl := b8 j x o (by omega) (by omega) hjr h
    obtain ⟨_, _, r, h3, h4⟩ := b1.obj x o (by rw [b5]; exact h)
    rw [h3, h4 hcl]

/-- **C09 (drop).**  `drop`/`destroy` writes back everything and leaves nothing in the cache: the assertion at
its end (inode_cache.py:288) cannot fail. -/
theorem C09_drop_complete (n : Nat) (hn : 0 < n) (db : List (Nat × Row)) (k : Nat)
    (hk : ∀ id row, AL.get db id = some row → id < k) (ops : List Op)
    (ha : (Spec.ofTable db k).Allowed ops (exec n (init db k) ops).2) :
    (∀ x, AL.get (exec n (init db k) (ops ++ [.drop])).1.db x =
      ((Spec.ofTable db k).run ops (exec n (init db k) ops).2).table x) ∧
    ∀ x, AL.get (exec n (init db k) (ops ++ [.drop])).1.attrs x = none := by
  obtain ⟨_, m⟩ := exec_sim ops (sim_init hn hk) ha
  rw [exec_append]
  generalize (exec n (init db k) ops).1 = s at *
  show (∀ x, AL.get (destroyLoop s 0 n).db x = _) ∧ ∀ x, AL.get (destroyLoop s 0 n).attrs x = none
  obtain ⟨b1, b2, b3, b4⟩ := destroyLoop_spec n m.inv 0
  have hna : ∀ x, AL.get (destroyLoop s 0 n).attrs x = none := by
    intro x
    cases h : AL.get (destroyLoop s 0 n).attrs x with
    | none => rfl
    | some o =>
      obtain ⟨j, hj, hjr⟩ := b1.inRing x o h
      rw [b4, if_pos (by omega)] at hjr; cases hjr
  refine ⟨?_, hna⟩
  intro x
  rw [m.table, ← b2 x]
  unfold view
  rw [hna]

/-! ### How long an object may be held -/

/-- Can the operation load an inode into the cache? -/
def loads : Op → Bool
  | .create _ => true
  | .item _ => true
  | _ => false

/-- Operations that end the use of the object of inode `id`. -/
def ends (id : Nat) : Op → Bool
  | .del id' => id' = id
  | .drop => true
  | _ => false

/-- The object `o` of inode `id` sits in slot `p`, and `c` loads happened since. -/
def Held (n : Nat) (s : State) (id o p c : Nat) : Prop :=
  AL.get s.attrs id = some o ∧ s.ring p = some id ∧ p < n ∧ s.pos = (p + 1 + c) % n

theorem lookup_held {n : Nat} {s : State} (i : Inv n s) {id o p c : Nat} (h : Held n s id o p c)
    (hc : c + 1 < n) (x : Nat) : ∃ c', c' ≤ c + 1 ∧ Held n (lookup n s x).1 id o p c' := by
  obtain ⟨h1, h2, h3, h4⟩ := h
  unfold lookup
  cases hx : AL.get s.attrs x with
  | some q => exact ⟨c, by omega, h1, h2, h3, h4⟩
  | none =>
    dsimp only
    cases hr : AL.get s.db x with
    | none => exact ⟨c, by omega, h1, h2, h3, h4⟩
    | some row =>
      dsimp only
      refine ⟨c + 1, by omega, ?_⟩
      have hpp : s.pos ≠ p := by
        rw [h4]
        intro he
        have : (p + 1 + c) % n = p % n := by rw [he, Nat.mod_eq_of_lt h3]
        have h5 := Nat.mod_add_div (p + 1 + c) n
        have h6 := Nat.mod_add_div p n
        rw [this] at h5
        rw [Nat.mod_eq_of_lt h3] at h5
        have h7 : n * ((p + 1 + c) / n) = 1 + c := by omega
        cases hq : (p + 1 + c) / n with
        | zero => rw [hq] at h7; omega
        | succ q => rw [hq, Nat.mul_succ] at h7; omega
      have hold : s.ring s.pos ≠ some id := fun he => hpp (i.ringInj _ _ _ he h2)
      have hxi : id ≠ x := by rintro rfl; rw [h1] at hx; cases hx
      have hobj2 : ∀ y q, AL.get s.attrs y = some q → q < s.nobj + 1 ∧
          (upd s.objs s.nobj ⟨x, row, false⟩ q).id = y ∧
          ∃ row', AL.get s.db y = some row' ∧ ((upd s.objs s.nobj ⟨x, row, false⟩ q).dirty = false →
            row' = (upd s.objs s.nobj ⟨x, row, false⟩ q).row) := by
        intro y q hy
        obtain ⟨b1, b2, b3⟩ := i.obj y q hy
        rw [upd_app, if_neg (by omega)]
        exact ⟨by omega, b2, b3⟩
      obtain ⟨e1, e2, e3, e4, _⟩ := evict_spec (old := s.ring s.pos)
        (s := { s with objs := upd s.objs s.nobj ⟨x, row, false⟩, nobj := s.nobj + 1,
                       ring := upd s.ring s.pos (some x), pos := (s.pos + 1) % n }) hobj2
      refine ⟨?_, ?_, h3, ?_⟩
      · dsimp only
        rw [AL.get_set_ne _ _ hxi, e1, if_neg (fun he => hold he.symm)]
        exact h1
      · dsimp only
        rw [e3]
        dsimp only
        rw [upd_app, if_neg (Ne.symm hpp)]; exact h2
      · dsimp only
        rw [e4]
        dsimp only
        rw [h4, Nat.mod_add_mod]
        congr 1

theorem step_held {n : Nat} {s : State} {S : Spec} (m : Sim n s S) {id o p c : Nat} (h : Held n s id o p c)
    (op : Op) (hc : c + (if loads op then 1 else 0) < n) (he : ends id op = false) :
    ∃ c', c' ≤ c + (if loads op then 1 else 0) ∧ Held n (step n s op).1 id o p c' := by
  have i := m.inv
  cases op with
  | create row =>
    exact lookup_held (inv_insert i row) (s := { s with db := AL.set s.db s.nextId row, nextId := s.nextId + 1 })
      h hc s.nextId
  | item x => exact lookup_held i h hc x
  | getA p a => exact ⟨c, by simp, h⟩
  | setA p a v => exact ⟨c, by simp, h⟩
  | del x =>
    simp only [ends, decide_eq_false_iff_not] at he
    refine ⟨c, by simp, ?_⟩
    simp only [step]
    split
    · split
      · exact h
      · obtain ⟨h1, h2, h3, h4⟩ := h
        exact ⟨by dsimp only; rw [AL.get_erase_ne _ (Ne.symm he)]; exact h1, h2, h3, h4⟩
    · exact h
  | flushId x =>
    refine ⟨c, by simp, ?_⟩
    simp only [step]
    split
    · exact h
    · next q hq =>
      obtain ⟨a1, a2, a3, _⟩ := writeBack_attrs s q
      unfold Held; dsimp only; rw [a1, a2, a3]; exact h
  | flush =>
    refine ⟨c, by simp, ?_⟩
    have hpos : ∀ k j (t : State), (flushLoop t j k).pos = t.pos := by
      intro k
      induction k with
      | zero => intro j t; rfl
      | succ k ih =>
        intro j t
        simp only [flushLoop]
        rw [ih]
        split
        · rfl
        · split
          · rfl
          · exact (writeBack_attrs t _).2.2.1
    obtain ⟨_, _, _, b4, b5, _⟩ := flushLoop_spec n i 0
    unfold Held
    simp only [step]
    rw [b4, b5, hpos]; exact h
  | drop => simp [ends] at he

theorem exec_held {n : Nat} (ops : List Op) {s : State} {S : Spec} (m : Sim n s S) {id o p c : Nat}
    (h : Held n s id o p c) (ha : S.Allowed ops (exec n s ops).2)
    (hc : c + (ops.filter loads).length < n) (he : ∀ op ∈ ops, ends id op = false) :
    AL.get (exec n s ops).1.attrs id = some o := by
  induction ops generalizing s S c with
  | nil => exact h.1
  | cons op ops ih =>
    simp only [exec, Spec.Allowed] at ha ⊢
    have hlen : (List.filter loads (op :: ops)).length = (if loads op then 1 else 0) + (List.filter loads ops).length := by
      rw [List.filter_cons]; split <;> simp <;> omega
    rw [hlen] at hc
    obtain ⟨c', hc', h'⟩ := step_held m h op (by omega) (he op (by simp))
    exact ih (step_sim m op ha.1).2 h' ha.2 (by omega) (fun op' h' => he op' (by simp [h']))

/-- **C09 (held objects).**  The object that `create_inode` returned stays the cached object of its inode - so that
assignments to it are kept - while fewer than `n` further lookups and creations happen, the inode is not deleted and
the cache is not dropped. -/
theorem C09_new_object_stays (n : Nat) (hn : 0 < n) (db : List (Nat × Row)) (k : Nat)
    (hk : ∀ id row, AL.get db id = some row → id < k) (pre mid : List Op) (row : Row) (o id : Nat)
    (outs outsM : List Out) (hlen : outs.length = pre.length)
    (hex : (exec n (init db k) (pre ++ .create row :: mid)).2 = outs ++ .obj o id :: outsM)
    (ha : (Spec.ofTable db k).Allowed (pre ++ .create row :: mid) (outs ++ .obj o id :: outsM))
    (hc : (mid.filter loads).length < n) (he : ∀ op ∈ mid, ends id op = false) (a : Nat) (v : Int) :
    (step n (exec n (init db k) (pre ++ .create row :: (mid ++ [.setA o a v]))).1 (.item id)).2 = .obj o id := by
  have hallow : ∀ (p q : List Op) (S : Spec) (op1 oq : List Out), op1.length = p.length →
      S.Allowed (p ++ q) (op1 ++ oq) → S.Allowed p op1 ∧ (S.run p op1).Allowed q oq := by
    intro p
    induction p with
    | nil =>
      intro q S op1 oq hl h
      cases op1 with
      | nil => exact ⟨trivial, h⟩
      | cons x t => simp at hl
    | cons op p ih =>
      intro q S op1 oq hl h
      cases op1 with
      | nil => simp at hl
      | cons x t =>
        simp only [List.cons_append, Spec.Allowed] at h
        obtain ⟨h1, h2⟩ := ih q (S.next op x) t oq (by simpa using hl) h.2
        exact ⟨⟨h.1, h1⟩, h2⟩
  have hlen' : ∀ (s : State) (p : List Op), (exec n s p).2.length = p.length := by
    intro s p
    induction p generalizing s with
    | nil => rfl
    | cons op p ih => simp [exec, ih]
  rw [exec_append] at hex
  obtain ⟨h1, h2⟩ := List.append_inj hex (by rw [hlen', hlen])
  obtain ⟨al1, al2⟩ := hallow _ _ _ _ _ hlen ha
  rw [← h1] at al1 al2
  obtain ⟨_, m⟩ := exec_sim pre (sim_init hn hk) al1
  have hs1 : (exec n (init db k) (pre ++ .create row :: (mid ++ [.setA o a v]))).1 =
      (exec n (exec n (init db k) pre).1 (.create row :: (mid ++ [.setA o a v]))).1 := by rw [exec_append]
  rw [hs1]
  generalize (exec n (init db k) pre).1 = s at *
  generalize (Spec.ofTable db k).run pre _ = S at *
  simp only [exec] at h2 ⊢
  rw [List.cons.injEq] at h2
  obtain ⟨h2a, h2b⟩ := h2
  rw [Spec.Allowed, ← h2a, ← h2b] at al2
  obtain ⟨_, m1⟩ := step_sim m (.create row) al2.1
  -- the created inode is in the slot before `pos`
  have i1 := inv_insert m.inv row
  have hheld : Held n (step n s (.create row)).1 id o s.pos 0 := by
    have hna : AL.get s.attrs s.nextId = none := by
      cases h : AL.get s.attrs s.nextId with
      | none => rfl
      | some q =>
        obtain ⟨_, _, r, h3, _⟩ := m.inv.obj _ q h
        have := m.inv.dbLt _ r h3; omega
    have hpos := m.inv.pos
    simp only [step, lookup, hna, AL.get_set_self, Out.obj.injEq] at h2a ⊢
    obtain ⟨rfl, rfl⟩ := h2a
    have hobj2 : ∀ y q, AL.get s.attrs y = some q → q < s.nobj + 1 ∧
        (upd s.objs s.nobj ⟨s.nextId, row, false⟩ q).id = y ∧
        ∃ row', AL.get (AL.set s.db s.nextId row) y = some row' ∧
          ((upd s.objs s.nobj ⟨s.nextId, row, false⟩ q).dirty = false →
          row' = (upd s.objs s.nobj ⟨s.nextId, row, false⟩ q).row) := by
      intro y q hy
      obtain ⟨b1, b2, b3⟩ := i1.obj y q hy
      dsimp only at b1 b2 b3
      rw [upd_app, if_neg (by omega)]
      exact ⟨by omega, b2, b3⟩
    obtain ⟨e1, e2, e3, e4, _⟩ := evict_spec (old := s.ring s.pos)
      (s := { s with db := AL.set s.db s.nextId row, nextId := s.nextId + 1,
                     objs := upd s.objs s.nobj ⟨s.nextId, row, false⟩, nobj := s.nobj + 1,
                     ring := upd s.ring s.pos (some s.nextId), pos := (s.pos + 1) % n }) hobj2
    refine ⟨by dsimp only; rw [AL.get_set_self], ?_, hpos, ?_⟩
    · dsimp only; rw [e3]; simp [upd_app]
    · dsimp only; rw [e4]
  have hfin := exec_held mid m1 hheld al2.2 (by simpa using hc) he
  rw [exec_append]
  generalize (step n s (.create row)).1 = s5 at *
  simp only [exec, step]
  unfold lookup
  dsimp only
  rw [hfin]

/-- Holding an object longer is not safe: with two slots, an object that a cache hit returned is replaced by the very
next lookup of another inode, and an assignment to it is lost.  (Documented, inode_cache.py:157-164; callers in fs.py
therefore assign before the next lookup.) -/
theorem C09_stale_object_loses_assignment :
    (exec 2 (init [] 3) [.create (fun _ => 7), .create (fun _ => 8), .item 3, .create (fun _ => 9), .setA 0 0 99,
      .item 3, .getA 3 0]).2 = [.obj 0 3, .obj 1 4, .obj 0 3, .obj 2 5, .none, .obj 3 3, .val 7] := by
  decide

/-! ### Concrete case -/

/-- Three inodes in a cache of two: assignments survive evictions; a deleted inode is gone. -/
def demo : List Op :=
  [.create (fun _ => 7), .setA 0 1 70, .create (fun _ => 8), .create (fun _ => 9), .item 3, .getA 3 1,
   .setA 3 2 71, .del 4, .item 4, .flush, .drop, .item 3, .getA 4 2]

example : (exec 2 (init [] 3) demo).2 =
    [.obj 0 3, .none, .obj 1 4, .obj 2 5, .obj 3 3, .val 70, .none, .none, .keyError, .none, .none, .obj 4 3, .val 71] := by
  decide

example : (Spec.ofTable [] 3).Allowed demo (exec 2 (init [] 3) demo).2 := by
  have h : (exec 2 (init [] 3) demo).2 = [.obj 0 3, .none, .obj 1 4, .obj 2 5, .obj 3 3, .val 70, .none, .none,
    .keyError, .none, .none, .obj 4 3, .val 71] := by decide
  rw [h]
  simp [demo, Spec.Allowed, Spec.allowed, Spec.next, Spec.ofTable]

end Verif.Inode
