import Verif.Inode.Props
/-
C98, the part of the inode cache: what `fsync` writes to the database stays there.
-/
namespace Verif.Inode

/-! #### Specification -/

/-- During these operations inode `id` always has the attributes `r` (`none`: it does not exist). -/
def Spec.Always (id : Nat) (r : Option Row) : Spec → List Op → List Out → Prop
  | S, op :: ops, o :: os => S.table id = r ∧ Spec.Always id r (S.next op o) ops os
  | S, _, _ => S.table id = r

/-! #### Proof -/

theorem evict_db {s : State} {old : Option Nat}
    (obj : ∀ id o, AL.get s.attrs id = some o → o < s.nobj ∧ (s.objs o).id = id ∧
      ∃ row, AL.get s.db id = some row ∧ ((s.objs o).dirty = false → row = (s.objs o).row)) (x : Nat) :
    AL.get (evict s old).db x = AL.get s.db x ∨ AL.get (evict s old).db x = view s x := by
  obtain ⟨_, e2, _, _, _, _, _, _, e9, _⟩ := evict_spec (old := old) obj
  cases h : AL.get (evict s old).attrs x with
  | some o => exact Or.inl (e9 x (by rw [h]; simp))
  | none =>
    right
    rw [← e2 x]
    unfold view
    rw [h]

theorem lookup_db {n : Nat} {s : State} (i : Inv n s) (id x : Nat) :
    AL.get (lookup n s id).1.db x = AL.get s.db x ∨ AL.get (lookup n s id).1.db x = view s x := by
  unfold lookup
  cases h : AL.get s.attrs id with
  | some o => exact Or.inl rfl
  | none =>
    dsimp only
    cases hr : AL.get s.db id with
    | none => exact Or.inl rfl
    | some row =>
      dsimp only
      have hobj : ∀ id' o, AL.get s.attrs id' = some o → o < s.nobj + 1 ∧ ((upd s.objs s.nobj ⟨id, row, false⟩) o).id = id' ∧
          ∃ row', AL.get s.db id' = some row' ∧ (((upd s.objs s.nobj ⟨id, row, false⟩) o).dirty = false → row' = ((upd s.objs s.nobj ⟨id, row, false⟩) o).row) := by
        intro id' o ho
        obtain ⟨b1, b2, b3⟩ := i.obj id' o ho
        rw [upd_app, if_neg (by omega)]
        exact ⟨by omega, b2, b3⟩
      have key := evict_db (old := s.ring s.pos) (s := { s with objs := upd s.objs s.nobj ⟨id, row, false⟩, nobj := s.nobj + 1, ring := upd s.ring s.pos (some id), pos := (s.pos + 1) % n }) hobj x
      refine key.imp (fun e => e) (fun e => e.trans ?_)
      unfold view
      dsimp only
      cases ha : AL.get s.attrs x with
      | none => rfl
      | some o =>
        have := (i.obj x o ha).1
        dsimp only
        rw [upd_app, if_neg (by omega)]

theorem flushLoop_db {n : Nat} (k : Nat) {s : State} (i : Inv n s) (j x : Nat) :
    AL.get (flushLoop s j k).db x = AL.get s.db x ∨ AL.get (flushLoop s j k).db x = view s x := by
  induction k generalizing s j with
  | zero => exact Or.inl rfl
  | succ k ih =>
    simp only [flushLoop]
    cases hr : s.ring j with
    | none => exact ih i (j + 1)
    | some id =>
      cases ha : AL.get s.attrs id with
      | none => simp only [ha]; exact ih i (j + 1)
      | some o =>
        simp only [ha]
        obtain ⟨c1, c2⟩ := inv_writeBack i ha
        obtain ⟨_, o2, r, o3, o4⟩ := i.obj id o ha
        rcases ih c1 (j + 1) with h | h
        · rw [h, writeBack_db o2 o3 o4]
          split
          · rename_i hx
            right
            unfold view
            rw [hx, ha]
          · exact Or.inl rfl
        · exact Or.inr (h.trans (c2 x))

theorem destroyLoop_db {n : Nat} (k : Nat) {s : State} (i : Inv n s) (j x : Nat) :
    AL.get (destroyLoop s j k).db x = AL.get s.db x ∨ AL.get (destroyLoop s j k).db x = view s x := by
  induction k generalizing s j with
  | zero => exact Or.inl rfl
  | succ k ih =>
    obtain ⟨a1, a2, _, _⟩ := inv_evict_slot i j
    rcases ih a1 (j + 1) with h | h
    · rcases evict_db (s := { s with ring := upd s.ring j none }) (old := s.ring j) i.obj x with g | g
      · exact Or.inl (h.trans g)
      · exact Or.inr (h.trans g)
    · exact Or.inr (h.trans (a2 x))

/-- Whatever happens, the row of an inode stays as it is, or becomes what the attributes are. -/
theorem step_db {n : Nat} {s : State} {S : Spec} (m : Sim n s S) (op : Op) (ha : S.allowed op) (x : Nat) :
    AL.get (step n s op).1.db x = AL.get s.db x ∨ AL.get (step n s op).1.db x = view s x ∨ AL.get (step n s op).1.db x = view (step n s op).1 x := by
  have i := m.inv
  cases op with
  | create row =>
    have i1 := inv_insert i row
    have e : (step n s (.create row)).1 = (lookup n { s with db := AL.set s.db s.nextId row, nextId := s.nextId + 1 } s.nextId).1 := rfl
    obtain ⟨_, l2, _, _⟩ := lookup_spec i1 s.nextId
    rw [e]
    rcases lookup_db i1 s.nextId x with h | h
    · by_cases hx : x = s.nextId
      · right; right
        rw [l2, h]
        unfold view
        dsimp only
        cases hat : AL.get s.attrs x with
        | none => rfl
        | some o =>
          obtain ⟨_, _, r, h3, _⟩ := i.obj x o hat
          have := i.dbLt x r h3
          omega
      · left
        rw [h]
        exact AL.get_set_ne _ _ hx
    · exact Or.inr (Or.inr (h.trans (l2 x).symm))
  | item id => exact (lookup_db i id x).imp (fun e => e) Or.inl
  | getA => exact Or.inl rfl
  | setA => exact Or.inl rfl
  | del id =>
    by_cases hd : (AL.get s.db id).isSome
    · by_cases hx : x = id
      · right; right
        have hv := (step_sim m (.del id) ha).2
        have h1 : AL.get (step n s (.del id)).1.db x = none := by
          show AL.get ((if _ then _ else _ : State × Out)).1.db x = none
          rw [if_pos hd]
          cases AL.get s.attrs id <;> exact (AL.get_erase ..).trans (if_pos hx)
        rw [h1]
        exact ((view_none_db hv.inv x).2 h1).symm
      · left
        show AL.get ((if _ then _ else _ : State × Out)).1.db x = _
        rw [if_pos hd]
        cases AL.get s.attrs id <;> exact (AL.get_erase ..).trans (if_neg hx)
    · left
      show AL.get ((if _ then _ else _ : State × Out)).1.db x = _
      rw [if_neg hd]
  | flushId id =>
    show AL.get (Prod.fst (match AL.get s.attrs id with | none => (s, Out.none) | some o => (writeBack s o, Out.none))).db x = _ ∨
      AL.get (Prod.fst (match AL.get s.attrs id with | none => (s, Out.none) | some o => (writeBack s o, Out.none))).db x = _ ∨ _
    cases hat : AL.get s.attrs id with
    | none => exact Or.inl rfl
    | some o =>
      obtain ⟨_, o2, r, o3, o4⟩ := i.obj id o hat
      dsimp only
      rw [writeBack_db o2 o3 o4]
      split
      · rename_i hx
        right; left
        unfold view
        rw [hx, hat]
      · exact Or.inl rfl
  | flush => exact (flushLoop_db n i 0 x).imp id Or.inl
  | drop => exact (destroyLoop_db n i 0 x).imp id Or.inl

theorem exec_db {n : Nat} (ops : List Op) {s : State} {S : Spec} (m : Sim n s S) (ha : S.Allowed ops (exec n s ops).2) {id : Nat} {r : Option Row}
    (hs : S.Always id r ops (exec n s ops).2) (hd : AL.get s.db id = r) : AL.get (exec n s ops).1.db id = r := by
  induction ops generalizing s S with
  | nil => exact hd
  | cons op ops ih =>
    simp only [exec, Spec.Allowed] at ha
    simp only [exec, Spec.Always] at hs
    obtain ⟨_, h2⟩ := step_sim m op ha.1
    refine ih h2 ha.2 hs.2 ?_
    have h3 : (S.next op (step n s op).2).table id = r := by
      have := hs.2
      unfold Spec.Always at this
      split at this
      · exact this.1
      · exact this
    rcases step_db m op ha.1 id with h | h | h
    · exact h.trans hd
    · rw [h, ← m.table]; exact hs.1
    · rw [h, ← h2.table]; exact h3

/-! #### Theorem -/

/-- C98, inode cache: after `flush_id` of an inode, the row of the database has the attributes that the inode had then, at any later time, whatever is looked up, created, changed,
evicted, flushed and dropped, as long as they do not change. -/
theorem C98_row (n : Nat) (hn : 0 < n) (db : List (Nat × Row)) (k : Nat) (hk : ∀ id row, AL.get db id = some row → id < k) (ops later : List Op) (id : Nat)
    (ha : (Spec.ofTable db k).Allowed ops (exec n (init db k) ops).2) {S : Spec} (hS : S = (Spec.ofTable db k).run ops (exec n (init db k) ops).2)
    (hl : S.Allowed later (exec n (exec n (init db k) (ops ++ [.flushId id])).1 later).2)
    (hs : S.Always id (S.table id) later (exec n (exec n (init db k) (ops ++ [.flushId id])).1 later).2) :
    AL.get (exec n (init db k) (ops ++ [.flushId id] ++ later)).1.db id = S.table id := by
  obtain ⟨_, m⟩ := exec_sim ops (sim_init hn hk) ha
  rw [← hS] at m
  rw [exec_append n (init db k) (ops ++ [Op.flushId id]) later]
  have e : (exec n (init db k) (ops ++ [.flushId id])).1 = (step n (exec n (init db k) ops).1 (.flushId id)).1 := by rw [exec_append]; rfl
  rw [e] at hl hs ⊢
  obtain ⟨_, m1⟩ := step_sim m (.flushId id) trivial
  refine exec_db later m1 hl hs ?_
  generalize (exec n (init db k) ops).1 = s at *
  rw [m.table]
  show AL.get (Prod.fst (match AL.get s.attrs id with | none => (s, Out.none) | some o => (writeBack s o, Out.none))).db id = _
  unfold view
  cases hat : AL.get s.attrs id with
  | none => rfl
  | some o =>
    obtain ⟨_, o2, r, o3, o4⟩ := m.inv.obj id o hat
    dsimp only
    rw [writeBack_db o2 o3 o4, if_pos rfl]

/-! #### A history that meets the hypotheses -/

/-- An inode is created and changed, and `flush_id` called; then other inodes are created and changed, and the first is evicted. -/
example : (Spec.ofTable [] 3).Allowed [.create (fun _ => 7), .setA 0 1 70] (exec 2 (init [] 3) [.create (fun _ => 7), .setA 0 1 70]).2 ∧
    (exec 2 (exec 2 (init [] 3) ([.create (fun _ => 7), .setA 0 1 70] ++ [.flushId 3])).1 [.create (fun _ => 8), .setA 1 0 9, .create (fun _ => 9)]).2 = [.obj 1 4, .none, .obj 2 5] ∧
    ((Spec.ofTable [] 3).run [.create (fun _ => 7), .setA 0 1 70] [.obj 0 3, .none]).Allowed [.create (fun _ => 8), .setA 1 0 9, .create (fun _ => 9)] [.obj 1 4, .none, .obj 2 5] ∧
    ((Spec.ofTable [] 3).run [.create (fun _ => 7), .setA 0 1 70] [.obj 0 3, .none]).Always 3 (((Spec.ofTable [] 3).run [.create (fun _ => 7), .setA 0 1 70] [.obj 0 3, .none]).table 3)
      [.create (fun _ => 8), .setA 1 0 9, .create (fun _ => 9)] [.obj 1 4, .none, .obj 2 5] := by
  have h : (exec 2 (init [] 3) [.create (fun _ => 7), .setA 0 1 70]).2 = [.obj 0 3, .none] := by decide
  rw [h]
  refine ⟨?_, by decide, ?_, ?_⟩
  · simp [Spec.Allowed, Spec.allowed, Spec.next, Spec.ofTable]
  · simp [Spec.Allowed, Spec.allowed, Spec.next, Spec.ofTable, Spec.run]
  · simp [Spec.Always, Spec.next, Spec.ofTable, Spec.run, AL.get]

/-- Without `flush_id`, the row may still have the old attributes. -/
example : (AL.get (exec 2 (init [] 3) [.create (fun _ => 7), .setA 0 1 70]).1.db 3).map (fun r => r 1) = some 7 := by decide

end Verif.Inode
