import Verif.Sync.LinkedDict
/-
The linked list represents the list of items.
-/
namespace Verif.Sync.LinkedDict
open AL (NK)

variable {K V : Type} [DecidableEq K]

/-- Neighbours in the list are linked in both directions. -/
def Linked (f g : Nat → Nat) : List Nat → Prop
  | [] => True
  | [_] => True
  | x :: y :: t => f x = y ∧ g y = x ∧ Linked f g (y :: t)

theorem upd_app {β : Type} (f : Nat → β) (a x : Nat) (b : β) : upd f a b x = if x = a then b else f x := rfl

theorem linked_append {f g : Nat → Nat} {A : List Nat} {x : Nat} {B : List Nat} :
    Linked f g (A ++ x :: B) ↔ Linked f g (A ++ [x]) ∧ Linked f g (x :: B) := by
  induction A with
  | nil => simp [Linked]
  | cons a A ih =>
    cases A with
    | nil => simp [Linked, and_assoc]
    | cons b A => simp only [List.cons_append, Linked, and_assoc] at ih ⊢; rw [ih]

theorem linked_frame {f g f' g' : Nat → Nat} {F : List Nat} (hf : ∀ x ∈ F.dropLast, f' x = f x)
    (hg : ∀ x ∈ F.tail, g' x = g x) (h : Linked f g F) : Linked f' g' F := by
  induction F with
  | nil => trivial
  | cons a t ih =>
    cases t with
    | nil => trivial
    | cons b t =>
      obtain ⟨h1, h2, h3⟩ := h
      refine ⟨by rw [hf a (by simp), h1], by rw [hg b (by simp), h2], ih ?_ ?_ h3⟩
      · intro x hx; exact hf x (by rw [List.dropLast_cons_cons]; exact List.mem_cons_of_mem _ hx)
      · intro x hx; exact hg x (List.mem_cons_of_mem _ hx)

theorem linked_at {f g : Nat → Nat} {A B : List Nat} {p q : Nat} (h : Linked f g (A ++ p :: q :: B)) :
    f p = q ∧ g q = p := by
  have := (linked_append.1 h).2
  exact ⟨this.1, this.2.1⟩

/-- Insertion of `n` between `p` and `q`. -/
theorem linked_insert {f g : Nat → Nat} {A B : List Nat} {p q n : Nat} (h : Linked f g (A ++ p :: q :: B))
    (nd : (A ++ p :: n :: q :: B).Nodup) :
    Linked (upd (upd f n q) p n) (upd (upd g n p) q n) (A ++ p :: n :: q :: B) := by
  obtain ⟨h1, h2⟩ := linked_append.1 h
  have h3 : Linked f g (q :: B) := h2.2.2
  rw [List.nodup_append] at nd
  obtain ⟨nA, nB, nAB⟩ := nd
  simp only [List.nodup_cons, List.mem_cons, not_or] at nB
  obtain ⟨⟨npn, npq, npB⟩, ⟨nnq, nnB⟩, nqB, _⟩ := nB
  have aP : ∀ x ∈ A, x ≠ p := fun x hx => nAB x hx p (by simp)
  have aN : ∀ x ∈ A, x ≠ n := fun x hx => nAB x hx n (by simp)
  have aQ : ∀ x ∈ A, x ≠ q := fun x hx => nAB x hx q (by simp)
  rw [linked_append]
  constructor
  · apply linked_frame _ _ h1
    · intro x hx
      rw [List.dropLast_concat] at hx
      simp [upd_app, aP x hx, aN x hx]
    · intro x hx
      have : x ∈ A ∨ x = p := by have := List.mem_of_mem_tail hx; simpa using this
      rcases this with hx | hx
      · simp [upd_app, aQ x hx, aN x hx]
      · simp [upd_app, hx, npq, npn]
  · refine ⟨by simp [upd_app], by simp [upd_app, nnq], by simp [upd_app, Ne.symm npn], by simp [upd_app], ?_⟩
    apply linked_frame _ _ h3
    · intro x hx
      have hx := (List.dropLast_sublist _).subset hx
      rcases List.mem_cons.1 hx with hx | hx
      · simp [upd_app, hx, Ne.symm npq, Ne.symm nnq]
      · have e1 : x ≠ p := by rintro rfl; exact npB hx
        have e2 : x ≠ n := by rintro rfl; exact nnB hx
        simp [upd_app, e1, e2]
    · intro x hx
      simp only [List.tail_cons] at hx
      have e1 : x ≠ q := by rintro rfl; exact nqB hx
      have e2 : x ≠ n := by rintro rfl; exact nnB hx
      simp [upd_app, e1, e2]

/-- Removal of `n` between `p` and `q`. -/
theorem linked_remove {f g : Nat → Nat} {A B : List Nat} {p q n z : Nat} (h : Linked f g (A ++ p :: n :: q :: B))
    (nd : (A ++ p :: n :: q :: B).Nodup) :
    Linked (upd (upd f p q) n z) (upd (upd g q p) n z) (A ++ p :: q :: B) := by
  obtain ⟨h1, h2⟩ := linked_append.1 h
  have h3 : Linked f g (q :: B) := h2.2.2.2.2
  rw [List.nodup_append] at nd
  obtain ⟨nA, nB, nAB⟩ := nd
  simp only [List.nodup_cons, List.mem_cons, not_or] at nB
  obtain ⟨⟨npn, npq, npB⟩, ⟨nnq, nnB⟩, nqB, _⟩ := nB
  have aP : ∀ x ∈ A, x ≠ p := fun x hx => nAB x hx p (by simp)
  have aN : ∀ x ∈ A, x ≠ n := fun x hx => nAB x hx n (by simp)
  have aQ : ∀ x ∈ A, x ≠ q := fun x hx => nAB x hx q (by simp)
  rw [linked_append]
  constructor
  · apply linked_frame _ _ h1
    · intro x hx
      rw [List.dropLast_concat] at hx
      simp [upd_app, aP x hx, aN x hx]
    · intro x hx
      have : x ∈ A ∨ x = p := by have := List.mem_of_mem_tail hx; simpa using this
      rcases this with hx | hx
      · simp [upd_app, aQ x hx, aN x hx]
      · simp [upd_app, hx, npq, npn]
  · refine ⟨by simp [upd_app, npn], by simp [upd_app, Ne.symm nnq], ?_⟩
    apply linked_frame _ _ h3
    · intro x hx
      have hx := (List.dropLast_sublist _).subset hx
      rcases List.mem_cons.1 hx with hx | hx
      · simp [upd_app, hx, Ne.symm npq, Ne.symm nnq]
      · have e1 : x ≠ p := by rintro rfl; exact npB hx
        have e2 : x ≠ n := by rintro rfl; exact nnB hx
        simp [upd_app, e1, e2]
    · intro x hx
      simp only [List.tail_cons] at hx
      have e1 : x ≠ q := by rintro rfl; exact nqB hx
      have e2 : x ≠ n := by rintro rfl; exact nnB hx
      simp [upd_app, e1, e2]

/-- Exchange of `c` and `n`. -/
theorem linked_swap {f g : Nat → Nat} {A B : List Nat} {p c n q : Nat} (h : Linked f g (A ++ p :: c :: n :: q :: B))
    (nd : (A ++ p :: c :: n :: q :: B).Nodup) :
    Linked (upd (upd (upd f p n) n c) c q) (upd (upd (upd g n p) c n) q c) (A ++ p :: n :: c :: q :: B) := by
  obtain ⟨h1, h2⟩ := linked_append.1 h
  have h3 : Linked f g (q :: B) := h2.2.2.2.2.2.2
  rw [List.nodup_append] at nd
  obtain ⟨nA, nB, nAB⟩ := nd
  simp only [List.nodup_cons, List.mem_cons, not_or] at nB
  obtain ⟨⟨npc, npn, npq, npB⟩, ⟨ncn, ncq, ncB⟩, ⟨nnq, nnB⟩, nqB, _⟩ := nB
  have aP : ∀ x ∈ A, x ≠ p := fun x hx => nAB x hx p (by simp)
  have aN : ∀ x ∈ A, x ≠ n := fun x hx => nAB x hx n (by simp)
  have aQ : ∀ x ∈ A, x ≠ q := fun x hx => nAB x hx q (by simp)
  have aC : ∀ x ∈ A, x ≠ c := fun x hx => nAB x hx c (by simp)
  rw [linked_append]
  constructor
  · apply linked_frame _ _ h1
    · intro x hx
      rw [List.dropLast_concat] at hx
      simp [upd_app, aP x hx, aN x hx, aC x hx]
    · intro x hx
      have : x ∈ A ∨ x = p := by have := List.mem_of_mem_tail hx; simpa using this
      rcases this with hx | hx
      · simp [upd_app, aQ x hx, aN x hx, aC x hx]
      · simp [upd_app, hx, npq, npn, npc]
  · refine ⟨by simp [upd_app, npc, npn], by simp [upd_app, nnq, Ne.symm ncn], by simp [upd_app, Ne.symm ncn],
      by simp [upd_app, ncq], by simp [upd_app], by simp [upd_app], ?_⟩
    apply linked_frame _ _ h3
    · intro x hx
      have hx := (List.dropLast_sublist _).subset hx
      rcases List.mem_cons.1 hx with hx | hx
      · simp [upd_app, hx, Ne.symm npq, Ne.symm nnq, Ne.symm ncq]
      · have e1 : x ≠ p := by rintro rfl; exact npB hx
        have e2 : x ≠ n := by rintro rfl; exact nnB hx
        have e3 : x ≠ c := by rintro rfl; exact ncB hx
        simp [upd_app, e1, e2, e3]
    · intro x hx
      simp only [List.tail_cons] at hx
      have e1 : x ≠ q := by rintro rfl; exact nqB hx
      have e2 : x ≠ n := by rintro rfl; exact nnB hx
      have e3 : x ≠ c := by rintro rfl; exact ncB hx
      simp [upd_app, e1, e2, e3]

/-- State `s` represents the nodes `L` in this order. -/
structure Rep (s : State K V) (L : List Nat) : Prop where
  nd : L.Nodup
  lo : ∀ n ∈ L, 3 ≤ n ∧ n < s.fresh
  fr : 3 ≤ s.fresh
  lk : Linked s.next s.prev (HEAD :: (L ++ [TAIL]))
  nkd : NK s.data
  nki : NK s.iters
  data : ∀ k n, AL.get s.data k = some n ↔ n ∈ L ∧ ∃ v, s.info n = .entry k v
  iters : ∀ c n, AL.get s.iters c = some n ↔ n ∈ L ∧ s.info n = .cursor c

theorem full_nodup {L : List Nat} (nd : L.Nodup) (lo : ∀ n ∈ L, 3 ≤ n) : (HEAD :: (L ++ [TAIL])).Nodup := by
  rw [List.nodup_cons, List.nodup_append]
  refine ⟨?_, nd, by simp, ?_⟩
  · simp only [List.mem_append, List.mem_singleton, not_or]
    exact ⟨fun h => absurd (lo _ h) (by decide), by decide⟩
  · intro a ha b hb
    simp only [List.mem_singleton] at hb
    rintro rfl
    have := lo _ ha
    rw [hb] at this
    exact absurd this (by decide)

theorem snoc_form (h : Nat) (L : List Nat) : ∃ A p, h :: L = A ++ [p] := by
  have : h :: L ≠ [] := by simp
  exact ⟨(h :: L).dropLast, (h :: L).getLast this, (List.dropLast_concat_getLast this).symm⟩

omit [DecidableEq K] in
/-- `linkTail` appends a node. -/
theorem linkTail_linked {s : State K V} {L : List Nat} {n : Nat} (lk : Linked s.next s.prev (HEAD :: (L ++ [TAIL])))
    (nd : (L ++ [n]).Nodup) (lo : ∀ x ∈ L ++ [n], 3 ≤ x) :
    Linked (linkTail s n).next (linkTail s n).prev (HEAD :: (L ++ [n] ++ [TAIL])) := by
  obtain ⟨A, p, hA⟩ := snoc_form HEAD L
  have e1 : HEAD :: (L ++ [TAIL]) = A ++ p :: TAIL :: [] := by
    rw [← List.cons_append, hA]; simp
  have e2 : HEAD :: (L ++ [n] ++ [TAIL]) = A ++ p :: n :: TAIL :: [] := by
    rw [List.append_assoc, ← List.cons_append, hA]; simp
  have hnd := full_nodup nd lo
  rw [e1] at lk
  rw [e2] at hnd ⊢
  have hp : s.prev TAIL = p := (linked_at lk).2
  simp only [linkTail, hp]
  exact linked_insert lk hnd

omit [DecidableEq K] in
theorem linkHead_linked {s : State K V} {L : List Nat} {n : Nat} (lk : Linked s.next s.prev (HEAD :: (L ++ [TAIL])))
    (nd : (n :: L).Nodup) (lo : ∀ x ∈ n :: L, 3 ≤ x) :
    Linked (linkHead s n).next (linkHead s n).prev (HEAD :: ((n :: L) ++ [TAIL])) := by
  have hnd := full_nodup nd lo
  cases hq : L ++ [TAIL] with
  | nil => simp at hq
  | cons q B =>
    rw [List.cons_append, hq] at hnd ⊢
    rw [hq] at lk
    have hh : s.next HEAD = q := lk.1
    simp only [linkHead, hh]
    exact linked_insert (A := []) lk hnd

omit [DecidableEq K] in
theorem unlink_linked {s : State K V} {L1 L2 : List Nat} {n : Nat}
    (lk : Linked s.next s.prev (HEAD :: (L1 ++ n :: L2 ++ [TAIL])))
    (nd : (L1 ++ n :: L2).Nodup) (lo : ∀ x ∈ L1 ++ n :: L2, 3 ≤ x) :
    Linked (unlink s n).next (unlink s n).prev (HEAD :: (L1 ++ L2 ++ [TAIL])) := by
  obtain ⟨A, p, hA⟩ := snoc_form HEAD L1
  cases hq : L2 ++ [TAIL] with
  | nil => simp at hq
  | cons q B =>
    have hnd := full_nodup nd lo
    have e1 : HEAD :: (L1 ++ n :: L2 ++ [TAIL]) = A ++ p :: n :: q :: B := by
      rw [List.append_assoc, ← List.cons_append, hA, List.cons_append, hq]; simp
    have e2 : HEAD :: (L1 ++ L2 ++ [TAIL]) = A ++ p :: q :: B := by
      rw [List.append_assoc, ← List.cons_append, hA, hq]; simp
    rw [e1] at lk hnd
    rw [e2]
    have hp : s.prev n = p := (linked_at lk).2
    have hx : s.next n = q := (linked_at (A := A ++ [p]) (B := B) (by simpa using lk)).1
    simp only [unlink, hp, hx]
    exact linked_remove lk hnd

omit [DecidableEq K] in
theorem swap_linked {s : State K V} {L1 L2 : List Nat} {c n : Nat}
    (lk : Linked s.next s.prev (HEAD :: (L1 ++ c :: n :: L2 ++ [TAIL])))
    (nd : (L1 ++ c :: n :: L2).Nodup) (lo : ∀ x ∈ L1 ++ c :: n :: L2, 3 ≤ x) :
    Linked (swap s c n).next (swap s c n).prev (HEAD :: (L1 ++ n :: c :: L2 ++ [TAIL])) := by
  obtain ⟨A, p, hA⟩ := snoc_form HEAD L1
  cases hq : L2 ++ [TAIL] with
  | nil => simp at hq
  | cons q B =>
    have hnd := full_nodup nd lo
    have e1 : HEAD :: (L1 ++ c :: n :: L2 ++ [TAIL]) = A ++ p :: c :: n :: q :: B := by
      rw [List.append_assoc, ← List.cons_append, hA, List.cons_append, List.cons_append, hq]; simp
    have e2 : HEAD :: (L1 ++ n :: c :: L2 ++ [TAIL]) = A ++ p :: n :: c :: q :: B := by
      rw [List.append_assoc, ← List.cons_append, hA, List.cons_append, List.cons_append, hq]; simp
    rw [e1] at lk hnd
    rw [e2]
    have hp : s.prev c = p := (linked_at lk).2
    have hx : s.next n = q := (linked_at (A := A ++ [p, c]) (B := B) (by simpa using lk)).1
    simp only [swap, hp, hx]
    exact linked_swap lk hnd


/-! ### Lists of items -/

theorem lget_none_of {info : Nat → Item K V} {k : K} {L : List Nat} (h : ∀ m ∈ L, ∀ v, info m ≠ .entry k v) :
    lget (L.map info) k = none := by
  induction L with
  | nil => rfl
  | cons m t ih =>
    have ih := ih (fun m' hm => h m' (List.mem_cons_of_mem _ hm))
    have h0 := h m (by simp)
    simp only [List.map_cons]
    cases hm : info m with
    | cursor c => simp only [lget]; exact ih
    | entry k' v =>
      simp only [lget]
      rw [if_neg, ih]
      rintro rfl
      exact h0 v hm

theorem lget_some_of {info : Nat → Item K V} {k : K} {n : Nat} {v : V} {L : List Nat}
    (hu : ∀ m ∈ L, ∀ v, info m = .entry k v → m = n) (hn : n ∈ L) (hi : info n = .entry k v) :
    lget (L.map info) k = some v := by
  induction L with
  | nil => cases hn
  | cons m t ih =>
    simp only [List.map_cons]
    cases hm : info m with
    | cursor c =>
      simp only [lget]
      refine ih (fun m' hm' => hu m' (List.mem_cons_of_mem _ hm')) ?_
      rcases List.mem_cons.1 hn with h | h
      · rw [← h, hi] at hm; cases hm
      · exact h
    | entry k' v' =>
      simp only [lget]
      by_cases hk : k' = k
      · rw [if_pos hk]
        subst hk
        have := hu m (by simp) v' hm
        subst this
        rw [hi] at hm; cases hm; rfl
      · rw [if_neg hk]
        refine ih (fun m' hm' => hu m' (List.mem_cons_of_mem _ hm')) ?_
        rcases List.mem_cons.1 hn with h | h
        · rw [← h, hi] at hm; cases hm; exact absurd rfl hk
        · exact h

theorem lrep_of {info : Nat → Item K V} {k : K} {n : Nat} {v v0 : V} {L : List Nat}
    (hu : ∀ m ∈ L, ∀ v, info m = .entry k v → m = n) (hi : info n = .entry k v0) :
    L.map (upd info n (.entry k v)) = lrep (L.map info) k v := by
  unfold lrep
  rw [List.map_map]
  apply List.map_congr_left
  intro m hm
  simp only [Function.comp, upd_app]
  by_cases hmn : m = n
  · rw [if_pos hmn, hmn, hi]; simp
  · rw [if_neg hmn]
    cases hx : info m with
    | cursor c => rfl
    | entry k' v' =>
      dsimp only
      rw [if_neg]
      rintro rfl
      exact hmn (hu m hm v' hx)

omit [DecidableEq K] in
theorem filter_of {info : Nat → Item K V} {P : Item K V → Bool} {n : Nat} {L1 L2 : List Nat}
    (hp : P (info n) = true) (hu : ∀ m ∈ L1 ++ L2, P (info m) = false) :
    (L1 ++ L2).map info = ((L1 ++ n :: L2).map info).filter (fun x => !P x) := by
  rw [List.map_append, List.map_append, List.filter_append, List.map_cons, List.filter_cons, hp]
  have : ∀ L : List Nat, (∀ m ∈ L, P (info m) = false) → (L.map info).filter (fun x => !P x) = L.map info := by
    intro L hL
    rw [List.filter_eq_self]
    intro x hx
    obtain ⟨m, hm, rfl⟩ := List.mem_map.1 hx
    simp [hL m hm]
  simp only [Bool.not_true, Bool.false_eq_true, if_false]
  rw [this L1 (fun m hm => hu m (by simp [hm])), this L2 (fun m hm => hu m (by simp [hm]))]

theorem mem_data {s : State K V} {L : List Nat} (r : Rep s L) {k : K} {n : Nat} (h : AL.get s.data k = some n) :
    n ∈ L ∧ (∃ v, s.info n = .entry k v) ∧ ∀ m ∈ L, ∀ v, s.info m = .entry k v → m = n := by
  obtain ⟨h1, h2⟩ := (r.data k n).1 h
  refine ⟨h1, h2, fun m hm v hv => ?_⟩
  have := (r.data k m).2 ⟨hm, v, hv⟩
  rw [h] at this; cases this; rfl

theorem not_mem_data {s : State K V} {L : List Nat} (r : Rep s L) {k : K} (h : AL.get s.data k = none) :
    ∀ m ∈ L, ∀ v, s.info m ≠ .entry k v := by
  intro m hm v hv
  have := (r.data k m).2 ⟨hm, v, hv⟩
  rw [h] at this; cases this

theorem mem_iters {s : State K V} {L : List Nat} (r : Rep s L) {c : Nat} {n : Nat} (h : AL.get s.iters c = some n) :
    n ∈ L ∧ s.info n = .cursor c ∧ ∀ m ∈ L, s.info m = .cursor c → m = n := by
  obtain ⟨h1, h2⟩ := (r.iters c n).1 h
  refine ⟨h1, h2, fun m hm hv => ?_⟩
  have := (r.iters c m).2 ⟨hm, hv⟩
  rw [h] at this; cases this; rfl

theorem hasCur_iff {s : State K V} {L : List Nat} (r : Rep s L) (c : Nat) :
    lhasCur (L.map s.info) c = (AL.get s.iters c).isSome := by
  cases h : AL.get s.iters c with
  | none =>
    simp only [Option.isSome_none]
    unfold lhasCur
    rw [List.any_eq_false]
    intro x hx
    obtain ⟨m, hm, rfl⟩ := List.mem_map.1 hx
    cases hv : s.info m with
    | entry k v => simp [isCur]
    | cursor c' =>
      simp only [isCur, decide_eq_true_eq]
      rintro rfl
      have := (r.iters c' m).2 ⟨hm, hv⟩
      rw [h] at this; cases this
  | some n =>
    obtain ⟨h1, h2, _⟩ := mem_iters r h
    unfold lhasCur
    rw [List.any_eq_true.2 ⟨_, List.mem_map.2 ⟨n, h1, rfl⟩, by rw [h2]; simp [isCur]⟩]
    rfl

theorem lcount_eq {s : State K V} {L : List Nat} (r : Rep s L) : lcount (L.map s.info) = s.data.length := by
  unfold lcount
  rw [List.filter_map, List.length_map]
  have hp : List.Perm (s.data.map (·.2)) (L.filter (isEntry ∘ s.info)) := by
    rw [List.perm_ext_iff_of_nodup]
    · intro n
      rw [List.mem_map, List.mem_filter]
      constructor
      · rintro ⟨⟨k, m⟩, hm, rfl⟩
        have := AL.mem_get_some r.nkd hm
        obtain ⟨h1, v, h2⟩ := (r.data k m).1 this
        exact ⟨h1, by simp [h2, isEntry]⟩
      · rintro ⟨h1, h2⟩
        cases hv : s.info n with
        | cursor c => simp [hv, isEntry] at h2
        | entry k v => exact ⟨(k, n), AL.get_some_mem ((r.data k n).2 ⟨h1, v, hv⟩), rfl⟩
    · have hk := r.nkd
      unfold NK at hk
      unfold List.Nodup at hk ⊢
      rw [List.pairwise_map] at hk ⊢
      refine List.Pairwise.imp_of_mem ?_ hk
      rintro ⟨k, n⟩ ⟨k', n'⟩ h1 h2 hne
      simp only at hne ⊢
      rintro rfl
      obtain ⟨_, v, h3⟩ := (r.data k n).1 (AL.mem_get_some r.nkd h1)
      obtain ⟨_, v', h4⟩ := (r.data k' n).1 (AL.mem_get_some r.nkd h2)
      rw [h3] at h4; cases h4; exact hne rfl
    · exact r.nd.filter _
  rw [← hp.length_eq, List.length_map]

/-! ### Iteration -/

omit [DecidableEq K] in
theorem ladv_of {c : Nat} {M R : List (Item K V)} (h : ∀ x ∈ M, isCur c x = false) :
    ladv c (M ++ .cursor c :: R) = (M ++ (skip c R).1, (skip c R).2) := by
  induction M with
  | nil => simp [ladv]
  | cons x t ih =>
    have ih := ih (fun y hy => h y (List.mem_cons_of_mem _ hy))
    have hx := h x (by simp)
    cases x with
    | entry k v => simp only [List.cons_append, ladv, ih]
    | cursor d =>
      simp only [isCur, decide_eq_false_iff_not] at hx
      simp only [List.cons_append, ladv, ih]
      rw [if_neg hx]

omit [DecidableEq K] in
/-- What the loop of the iterator does. -/
theorem advance_spec {cur c : Nat} : ∀ (L2 : List Nat) (fuel : Nat) (s : State K V) (L1 : List Nat),
    L2.length < fuel → (L1 ++ cur :: L2).Nodup → (∀ x ∈ L1 ++ cur :: L2, 3 ≤ x) →
    Linked s.next s.prev (HEAD :: (L1 ++ cur :: L2 ++ [TAIL])) → s.info cur = .cursor c →
    ∃ s' o, advance cur fuel s = (s', o) ∧ s'.info = s.info ∧ s'.data = s.data ∧ s'.iters = s.iters ∧
      s'.fresh = s.fresh ∧
      ((o = .stop ∧ skip c (L2.map s.info) = (L2.map s.info, none) ∧
          Linked s'.next s'.prev (HEAD :: (L1 ++ L2 ++ [TAIL]))) ∨
       (∃ k v L', o = .yielded k v ∧ skip c (L2.map s.info) = (L'.map s.info, some (k, v)) ∧
          List.Perm L' (cur :: L2) ∧ Linked s'.next s'.prev (HEAD :: (L1 ++ L' ++ [TAIL])))) := by
  intro L2
  induction L2 with
  | nil =>
    intro fuel s L1 hf nd lo lk hc
    obtain ⟨fuel, rfl⟩ : ∃ f, fuel = f + 1 := ⟨fuel - 1, by simp at hf; omega⟩
    have hn : s.next cur = TAIL := by
      have : HEAD :: (L1 ++ [cur] ++ [TAIL]) = (HEAD :: L1) ++ cur :: TAIL :: [] := by simp
      rw [this] at lk
      exact (linked_at lk).1
    simp only [advance]
    rw [if_pos hn]
    refine ⟨_, _, rfl, rfl, rfl, rfl, rfl, Or.inl ⟨rfl, rfl, ?_⟩⟩
    exact unlink_linked (L2 := []) lk nd lo
  | cons n t ih =>
    intro fuel s L1 hf nd lo lk hc
    obtain ⟨fuel, rfl⟩ : ∃ f, fuel = f + 1 := ⟨fuel - 1, by simp at hf; omega⟩
    have hn : s.next cur = n := by
      have : HEAD :: (L1 ++ cur :: n :: t ++ [TAIL]) = (HEAD :: L1) ++ cur :: n :: (t ++ [TAIL]) := by simp
      rw [this] at lk
      exact (linked_at lk).1
    have hnt : n ≠ TAIL := by
      have := lo n (by simp)
      rintro rfl
      exact absurd this (by decide)
    have hsw := swap_linked lk nd lo
    simp only [advance]
    rw [hn, if_neg hnt]
    have hi : (swap s cur n).info = s.info := rfl
    have hlen : t.length < fuel := by simp at hf; omega
    have hperm : List.Perm (L1 ++ cur :: n :: t) ((L1 ++ [n]) ++ cur :: t) := by
      rw [List.append_assoc]
      exact List.Perm.append_left _ (List.Perm.swap _ _ _)
    have nd' : ((L1 ++ [n]) ++ cur :: t).Nodup := hperm.nodup_iff.1 nd
    have lo' : ∀ x ∈ (L1 ++ [n]) ++ cur :: t, 3 ≤ x := fun x hx => lo x (hperm.mem_iff.2 hx)
    have hsw' : Linked (swap s cur n).next (swap s cur n).prev (HEAD :: ((L1 ++ [n]) ++ cur :: t ++ [TAIL])) := by
      have : (L1 ++ [n]) ++ cur :: t ++ [TAIL] = L1 ++ n :: cur :: t ++ [TAIL] := by simp
      rw [this]; exact hsw
    cases hv : s.info n with
    | entry k v =>
      rw [hi, hv]
      refine ⟨_, _, rfl, rfl, rfl, rfl, rfl, Or.inr ⟨k, v, n :: cur :: t, rfl, ?_, List.Perm.swap _ _ _, ?_⟩⟩
      · simp only [List.map_cons, hv, skip, hc]
      · exact hsw
    | cursor d =>
      rw [hi, hv]
      obtain ⟨s', o, h1, h2, h3, h4, h5, h6⟩ := ih fuel (swap s cur n) (L1 ++ [n]) hlen nd' lo' hsw' hc
      refine ⟨s', o, h1, h2, h3, h4, h5, ?_⟩
      rw [hi] at h6
      rcases h6 with ⟨ho, hs, hl⟩ | ⟨k, v, L', ho, hs, hp, hl⟩
      · left
        refine ⟨ho, ?_, by simpa using hl⟩
        simp only [List.map_cons, hv, skip, hs]
      · right
        refine ⟨k, v, n :: L', ho, ?_, ?_, by simpa using hl⟩
        · simp only [List.map_cons, hv, skip, hs]
        · exact (List.Perm.cons _ hp).trans (List.Perm.swap _ _ _)


/-! ### Refinement -/

theorem rep_init [Inhabited K] [Inhabited V] : Rep (init : State K V) [] := by
  refine ⟨List.nodup_nil, fun _ h => (by cases h), (Nat.le_refl 3 : 3 ≤ 3), ?_, AL.NK_nil, AL.NK_nil, ?_, ?_⟩
  · simp [Linked, init, upd_app]
  · intro k n; simp [init, AL.get]
  · intro c n; simp [init, AL.get]

theorem rep_unlink {s : State K V} {L1 L2 : List Nat} {n : Nat} (r : Rep s (L1 ++ n :: L2))
    {data : List (K × Nat)} {iters : List (Nat × Nat)} (nkd : NK data) (nki : NK iters)
    (hd : ∀ k m, AL.get data k = some m ↔ m ∈ L1 ++ L2 ∧ ∃ v, s.info m = .entry k v)
    (hc : ∀ c m, AL.get iters c = some m ↔ m ∈ L1 ++ L2 ∧ s.info m = .cursor c) :
    Rep (unlink { s with data := data, iters := iters } n) (L1 ++ L2) := by
  have hsub : ∀ x, x ∈ L1 ++ L2 → x ∈ L1 ++ n :: L2 := by
    intro x hx
    rcases List.mem_append.1 hx with h | h
    · exact List.mem_append_left _ h
    · exact List.mem_append_right _ (List.mem_cons_of_mem _ h)
  refine ⟨?_, fun x hx => r.lo x (hsub x hx), r.fr, ?_, nkd, nki, hd, hc⟩
  · exact List.Sublist.nodup (List.Sublist.append_left (List.sublist_cons_self _ _) _) r.nd
  · exact unlink_linked (s := { s with data := data, iters := iters }) r.lk r.nd (fun x hx => (r.lo x hx).1)

theorem split_mem {L : List Nat} {n : Nat} (nd : L.Nodup) (h : n ∈ L) :
    ∃ L1 L2, L = L1 ++ n :: L2 ∧ n ∉ L1 ++ L2 := by
  obtain ⟨L1, L2, rfl⟩ := List.append_of_mem h
  refine ⟨L1, L2, rfl, ?_⟩
  rw [List.nodup_append, List.nodup_cons] at nd
  obtain ⟨_, ⟨h2, _⟩, h3⟩ := nd
  rw [List.mem_append, not_or]
  exact ⟨fun hm => h3 n hm n (by simp) rfl, h2⟩

theorem mem_split {L1 L2 : List Nat} {n x : Nat} : x ∈ L1 ++ n :: L2 ↔ x = n ∨ x ∈ L1 ++ L2 := by
  simp only [List.mem_append, List.mem_cons]
  constructor
  · rintro (h | h | h)
    · exact Or.inr (Or.inl h)
    · exact Or.inl h
    · exact Or.inr (Or.inr h)
  · rintro (h | h | h)
    · exact Or.inr (Or.inl h)
    · exact Or.inl h
    · exact Or.inr (Or.inr h)

/-- Deletion of the node of key `k`. -/
theorem rep_del {s : State K V} {L : List Nat} (r : Rep s L) {k : K} {n : Nat} (h : AL.get s.data k = some n) :
    ∃ L', Rep (unlink { s with data := AL.erase s.data k } n) L' ∧
      L'.map s.info = ldel (L.map s.info) k ∧ L'.map s.info = ldel (L.map s.info) k := by
  obtain ⟨hn, ⟨v, hv⟩, hu⟩ := mem_data r h
  obtain ⟨L1, L2, rfl, hnn⟩ := split_mem r.nd hn
  have hdel : (L1 ++ L2).map s.info = ldel ((L1 ++ n :: L2).map s.info) k := by
    unfold ldel
    apply filter_of (P := isKey k)
    · rw [hv]; simp [isKey]
    · intro m hm
      cases hx : s.info m with
      | cursor c => rfl
      | entry k' v' =>
        simp only [isKey, decide_eq_false_iff_not]
        rintro rfl
        have := hu m (mem_split.2 (Or.inr hm)) v' hx
        exact hnn (this ▸ hm)
  refine ⟨L1 ++ L2, rep_unlink (iters := s.iters) r (r.nkd.erase k) r.nki ?_ ?_, hdel, hdel⟩
  · intro k' m
    rw [AL.get_erase]
    by_cases hk : k' = k
    · rw [if_pos hk]
      subst hk
      constructor
      · intro hx; cases hx
      · rintro ⟨hm, v', hx⟩
        have := hu m (mem_split.2 (Or.inr hm)) v' hx
        exact absurd (this ▸ hm) hnn
    · rw [if_neg hk, r.data, mem_split]
      constructor
      · rintro ⟨hm | hm, v', hx⟩
        · subst hm; rw [hv] at hx; cases hx; exact absurd rfl hk
        · exact ⟨hm, v', hx⟩
      · rintro ⟨hm, v', hx⟩; exact ⟨Or.inr hm, v', hx⟩
  · intro c m
    rw [r.iters, mem_split]
    constructor
    · rintro ⟨hm | hm, hx⟩
      · subst hm; rw [hv] at hx; cases hx
      · exact ⟨hm, hx⟩
    · rintro ⟨hm, hx⟩; exact ⟨Or.inr hm, hx⟩

theorem rep_closeIter {s : State K V} {L : List Nat} (r : Rep s L) {c n : Nat} (h : AL.get s.iters c = some n) :
    ∃ L', Rep (unlink { s with iters := AL.erase s.iters c } n) L' ∧ L'.map s.info = lclose (L.map s.info) c := by
  obtain ⟨hn, hv, hu⟩ := mem_iters r h
  obtain ⟨L1, L2, rfl, hnn⟩ := split_mem r.nd hn
  refine ⟨L1 ++ L2, rep_unlink (data := s.data) r r.nkd (r.nki.erase c) ?_ ?_, ?_⟩
  · intro k m
    rw [r.data, mem_split]
    constructor
    · rintro ⟨hm | hm, v', hx⟩
      · subst hm; rw [hv] at hx; cases hx
      · exact ⟨hm, v', hx⟩
    · rintro ⟨hm, v', hx⟩; exact ⟨Or.inr hm, v', hx⟩
  · intro c' m
    rw [AL.get_erase]
    by_cases hk : c' = c
    · rw [if_pos hk]
      subst hk
      constructor
      · intro hx; cases hx
      · rintro ⟨hm, hx⟩
        have := hu m (mem_split.2 (Or.inr hm)) hx
        exact absurd (this ▸ hm) hnn
    · rw [if_neg hk, r.iters, mem_split]
      constructor
      · rintro ⟨hm | hm, hx⟩
        · subst hm; rw [hv] at hx; cases hx; exact absurd rfl hk
        · exact ⟨hm, hx⟩
      · rintro ⟨hm, hx⟩; exact ⟨Or.inr hm, hx⟩
  · unfold lclose
    apply filter_of (P := isCur c)
    · rw [hv]; simp [isCur]
    · intro m hm
      cases hx : s.info m with
      | entry k v => rfl
      | cursor c' =>
        simp only [isCur, decide_eq_false_iff_not]
        rintro rfl
        have := hu m (mem_split.2 (Or.inr hm)) hx
        exact hnn (this ▸ hm)

/-- The pointer structure refines the list of items, step by step. -/
theorem step_ref {s : State K V} {L : List Nat} (r : Rep s L) (op : Op K V) :
    match step s op with
    | none => lstep (L.map s.info) op = none
    | some (s', o) => ∃ L', Rep s' L' ∧ lstep (L.map s.info) op = some (L'.map s'.info, o) := by
  have hfresh : s.fresh ∉ L := fun h => Nat.lt_irrefl _ (r.lo _ h).2
  have hinfo : ∀ x : Item K V, L.map (upd s.info s.fresh x) = L.map s.info := by
    intro x
    apply List.map_congr_left
    intro m hm
    rw [upd_app, if_neg]
    rintro rfl; exact hfresh hm
  cases op with
  | set k v =>
    simp only [step, lstep]
    cases h : AL.get s.data k with
    | some n =>
      obtain ⟨hn, ⟨v0, hv⟩, hu⟩ := mem_data r h
      rw [lget_some_of hu hn hv]
      dsimp only
      refine ⟨L, ⟨r.nd, r.lo, r.fr, r.lk, r.nkd, r.nki, ?_, ?_⟩, ?_⟩
      · intro k' m
        rw [r.data]
        dsimp only
        rw [upd_app]
        by_cases hm : m = n
        · rw [if_pos hm, hm, hv]
          simp only [Item.entry.injEq]
          constructor
          · rintro ⟨h1, v', h2, h3⟩; exact ⟨h1, v, h2, rfl⟩
          · rintro ⟨h1, v', h2, h3⟩; exact ⟨h1, v0, h2, rfl⟩
        · rw [if_neg hm]
      · intro c m
        rw [r.iters]
        dsimp only
        rw [upd_app]
        by_cases hm : m = n
        · rw [if_pos hm, hm, hv]; simp
        · rw [if_neg hm]
      · rw [lrep_of hu hv]
    | none =>
      rw [lget_none_of (not_mem_data r h)]
      dsimp only
      have hnd : (L ++ [s.fresh]).Nodup := by
        rw [List.nodup_append]
        refine ⟨r.nd, by simp, ?_⟩
        intro a ha b hb
        simp only [List.mem_singleton] at hb
        rintro rfl
        exact hfresh (hb ▸ ha)
      have hlo : ∀ x ∈ L ++ [s.fresh], 3 ≤ x := by
        intro x hx
        rcases List.mem_append.1 hx with hx | hx
        · exact (r.lo x hx).1
        · simp only [List.mem_singleton] at hx; rw [hx]; exact r.fr
      refine ⟨L ++ [s.fresh], ⟨hnd, ?_, Nat.le_succ_of_le r.fr, ?_, r.nkd.set _ _, r.nki, ?_, ?_⟩, ?_⟩
      · intro x hx
        refine ⟨hlo x hx, ?_⟩
        show x < s.fresh + 1
        rcases List.mem_append.1 hx with hx | hx
        · exact Nat.lt_succ_of_lt (r.lo x hx).2
        · simp only [List.mem_singleton] at hx; omega
      · exact linkTail_linked (s := { s with info := upd s.info s.fresh (.entry k v), fresh := s.fresh + 1, data := AL.set s.data k s.fresh }) r.lk hnd hlo
      · intro k' m
        show AL.get (AL.set s.data k s.fresh) k' = some m ↔ _
        rw [AL.get_set]
        show _ ↔ m ∈ L ++ [s.fresh] ∧ ∃ v_1, upd s.info s.fresh (.entry k v) m = .entry k' v_1
        rw [upd_app]
        by_cases hk : k' = k
        · rw [if_pos hk]
          subst hk
          constructor
          · intro hx; cases hx
            exact ⟨by simp, v, by simp⟩
          · rintro ⟨hm, v', hx⟩
            by_cases hmf : m = s.fresh
            · rw [hmf]
            · rw [if_neg hmf] at hx
              have hm' : m ∈ L := by
                rcases List.mem_append.1 hm with hm | hm
                · exact hm
                · simp only [List.mem_singleton] at hm; exact absurd hm hmf
              exact absurd hx (not_mem_data r h m hm' v')
        · rw [if_neg hk, r.data]
          constructor
          · rintro ⟨hm, v', hx⟩
            have hmf : m ≠ s.fresh := by rintro rfl; exact hfresh hm
            exact ⟨List.mem_append_left _ hm, v', by rw [if_neg hmf]; exact hx⟩
          · rintro ⟨hm, v', hx⟩
            by_cases hmf : m = s.fresh
            · rw [if_pos hmf] at hx; cases hx; exact absurd rfl hk
            · rw [if_neg hmf] at hx
              refine ⟨?_, v', hx⟩
              rcases List.mem_append.1 hm with hm | hm
              · exact hm
              · simp only [List.mem_singleton] at hm; exact absurd hm hmf
      · intro c m
        show AL.get s.iters c = some m ↔ m ∈ L ++ [s.fresh] ∧ upd s.info s.fresh (.entry k v) m = .cursor c
        rw [r.iters, upd_app]
        constructor
        · rintro ⟨hm, hx⟩
          have hmf : m ≠ s.fresh := by rintro rfl; exact hfresh hm
          exact ⟨List.mem_append_left _ hm, by rw [if_neg hmf]; exact hx⟩
        · rintro ⟨hm, hx⟩
          by_cases hmf : m = s.fresh
          · rw [if_pos hmf] at hx; cases hx
          · rw [if_neg hmf] at hx
            refine ⟨?_, hx⟩
            rcases List.mem_append.1 hm with hm | hm
            · exact hm
            · simp only [List.mem_singleton] at hm; exact absurd hm hmf
      · show some (_, _) = some ((L ++ [s.fresh]).map (upd s.info s.fresh (.entry k v)), _)
        rw [List.map_append, hinfo, List.map_singleton, upd_app, if_pos rfl]
  | del k =>
    simp only [step, lstep]
    cases h : AL.get s.data k with
    | none => rw [lget_none_of (not_mem_data r h)]; exact ⟨L, r, rfl⟩
    | some n =>
      obtain ⟨hn, ⟨v, hv⟩, hu⟩ := mem_data r h
      rw [lget_some_of hu hn hv]
      obtain ⟨L', h1, h2, _⟩ := rep_del r h
      exact ⟨L', h1, by rw [← h2]; rfl⟩
  | pop k =>
    simp only [step, lstep]
    cases h : AL.get s.data k with
    | none => rw [lget_none_of (not_mem_data r h)]; exact ⟨L, r, rfl⟩
    | some n =>
      obtain ⟨hn, ⟨v, hv⟩, hu⟩ := mem_data r h
      rw [lget_some_of hu hn hv]
      dsimp only
      rw [hv]
      obtain ⟨L', h1, h2, _⟩ := rep_del r h
      exact ⟨L', h1, by rw [← h2]; rfl⟩
  | get k =>
    simp only [step, lstep]
    cases h : AL.get s.data k with
    | none => rw [lget_none_of (not_mem_data r h)]; exact ⟨L, r, rfl⟩
    | some n =>
      obtain ⟨hn, ⟨v, hv⟩, hu⟩ := mem_data r h
      rw [lget_some_of hu hn hv]
      dsimp only
      rw [hv]
      exact ⟨L, r, rfl⟩
  | len =>
    simp only [step, lstep]
    exact ⟨L, r, by rw [lcount_eq r]⟩
  | moveToTail k =>
    simp only [step, lstep]
    cases h : AL.get s.data k with
    | none => rw [lget_none_of (not_mem_data r h)]; exact ⟨L, r, rfl⟩
    | some n =>
      obtain ⟨hn, ⟨v, hv⟩, hu⟩ := mem_data r h
      rw [lget_some_of hu hn hv]
      obtain ⟨L1, L2, rfl, hnn⟩ := split_mem r.nd hn
      have hperm : List.Perm (L1 ++ n :: L2) (L1 ++ L2 ++ [n]) := by
        rw [List.append_assoc]
        exact List.Perm.append_left _ (List.perm_append_singleton n L2).symm
      have hnd := hperm.nodup_iff.1 r.nd
      have hlo : ∀ x ∈ L1 ++ L2 ++ [n], 3 ≤ x := fun x hx => (r.lo x (hperm.mem_iff.2 hx)).1
      have hul := unlink_linked r.lk r.nd (fun x hx => (r.lo x hx).1)
      refine ⟨L1 ++ L2 ++ [n], ⟨hnd, fun x hx => r.lo x (hperm.mem_iff.2 hx), r.fr,
        linkTail_linked hul hnd hlo, r.nkd, r.nki, ?_, ?_⟩, ?_⟩
      · intro k' m
        show AL.get s.data k' = some m ↔ _
        rw [r.data, hperm.mem_iff]; rfl
      · intro c m
        show AL.get s.iters c = some m ↔ _
        rw [r.iters, hperm.mem_iff]; rfl
      · have hdel : (L1 ++ L2).map s.info = ldel ((L1 ++ n :: L2).map s.info) k := by
          unfold ldel
          apply filter_of (P := isKey k)
          · rw [hv]; simp [isKey]
          · intro m hm
            cases hx : s.info m with
            | cursor c => rfl
            | entry k' v' =>
              simp only [isKey, decide_eq_false_iff_not]
              rintro rfl
              have := hu m (mem_split.2 (Or.inr hm)) v' hx
              exact hnn (this ▸ hm)
        show some (_, _) = some ((L1 ++ L2 ++ [n]).map s.info, _)
        rw [← hdel, List.map_append (l₂ := [n]), List.map_singleton, hv]
  | iterStart c =>
    simp only [step, lstep, hasCur_iff r]
    cases h : AL.get s.iters c with
    | some n => simp
    | none =>
      simp only [Option.isSome_none, Bool.false_eq_true, if_false]
      have hnc : ∀ m ∈ L, s.info m ≠ .cursor c := by
        intro m hm hx
        have := (r.iters c m).2 ⟨hm, hx⟩
        rw [h] at this; cases this
      have hnd : (s.fresh :: L).Nodup := List.nodup_cons.2 ⟨hfresh, r.nd⟩
      have hlo : ∀ x ∈ s.fresh :: L, 3 ≤ x := by
        intro x hx
        rcases List.mem_cons.1 hx with hx | hx
        · rw [hx]; exact r.fr
        · exact (r.lo x hx).1
      refine ⟨s.fresh :: L, ⟨hnd, ?_, Nat.le_succ_of_le r.fr, ?_, r.nkd, r.nki.set _ _, ?_, ?_⟩, ?_⟩
      · intro x hx
        refine ⟨hlo x hx, ?_⟩
        show x < s.fresh + 1
        rcases List.mem_cons.1 hx with hx | hx
        · omega
        · exact Nat.lt_succ_of_lt (r.lo x hx).2
      · exact linkHead_linked (s := { s with info := upd s.info s.fresh (.cursor c), fresh := s.fresh + 1, iters := AL.set s.iters c s.fresh }) r.lk hnd hlo
      · intro k m
        show AL.get s.data k = some m ↔ m ∈ s.fresh :: L ∧ ∃ v, upd s.info s.fresh (.cursor c) m = .entry k v
        rw [r.data, upd_app]
        constructor
        · rintro ⟨hm, v, hx⟩
          have hmf : m ≠ s.fresh := by rintro rfl; exact hfresh hm
          exact ⟨List.mem_cons_of_mem _ hm, v, by rw [if_neg hmf]; exact hx⟩
        · rintro ⟨hm, v, hx⟩
          by_cases hmf : m = s.fresh
          · rw [if_pos hmf] at hx; cases hx
          · rw [if_neg hmf] at hx
            exact ⟨(List.mem_cons.1 hm).resolve_left hmf, v, hx⟩
      · intro c' m
        show AL.get (AL.set s.iters c s.fresh) c' = some m ↔ m ∈ s.fresh :: L ∧ upd s.info s.fresh (.cursor c) m = .cursor c'
        rw [AL.get_set, upd_app]
        by_cases hk : c' = c
        · rw [if_pos hk]
          subst hk
          constructor
          · intro hx; cases hx; exact ⟨by simp, by simp⟩
          · rintro ⟨hm, hx⟩
            by_cases hmf : m = s.fresh
            · rw [hmf]
            · rw [if_neg hmf] at hx
              exact absurd hx (hnc m ((List.mem_cons.1 hm).resolve_left hmf))
        · rw [if_neg hk, r.iters]
          constructor
          · rintro ⟨hm, hx⟩
            have hmf : m ≠ s.fresh := by rintro rfl; exact hfresh hm
            exact ⟨List.mem_cons_of_mem _ hm, by rw [if_neg hmf]; exact hx⟩
          · rintro ⟨hm, hx⟩
            by_cases hmf : m = s.fresh
            · rw [if_pos hmf] at hx; cases hx; exact absurd rfl hk
            · rw [if_neg hmf] at hx
              exact ⟨(List.mem_cons.1 hm).resolve_left hmf, hx⟩
      · show some (_, _) = some ((s.fresh :: L).map (upd s.info s.fresh (.cursor c)), _)
        rw [List.map_cons, hinfo, upd_app, if_pos rfl]
  | iterClose c =>
    simp only [step, lstep, hasCur_iff r]
    cases h : AL.get s.iters c with
    | none => simp
    | some n =>
      simp only [Option.isSome_some, if_true]
      obtain ⟨L', h1, h2⟩ := rep_closeIter r h
      exact ⟨L', h1, by rw [← h2]; rfl⟩
  | iterNext c =>
    simp only [step, lstep, hasCur_iff r]
    cases h : AL.get s.iters c with
    | none => simp
    | some n =>
      simp only [Option.isSome_some, if_true]
      obtain ⟨hn, hv, hu⟩ := mem_iters r h
      obtain ⟨L1, L2, rfl, hnn⟩ := split_mem r.nd hn
      have hlen : L2.length < s.fresh := by
        have h1 : (L1 ++ n :: L2).length ≤ s.fresh := by
          have hsub : (L1 ++ n :: L2) ⊆ List.range s.fresh := fun x hx => List.mem_range.2 (r.lo x hx).2
          have := List.Nodup.length_le_of_subset r.nd hsub
          simpa using this
        simp only [List.length_append, List.length_cons] at h1
        omega
      have hM : ∀ x ∈ L1.map s.info, isCur c x = false := by
        intro x hx
        obtain ⟨m, hm, rfl⟩ := List.mem_map.1 hx
        cases hc : s.info m with
        | entry k v => rfl
        | cursor c' =>
          simp only [isCur, decide_eq_false_iff_not]
          rintro rfl
          have := hu m (List.mem_append_left _ hm) hc
          exact hnn (this ▸ List.mem_append_left _ hm)
      have hladv : ladv c ((L1 ++ n :: L2).map s.info) =
          (L1.map s.info ++ (skip c (L2.map s.info)).1, (skip c (L2.map s.info)).2) := by
        rw [List.map_append, List.map_cons, hv]
        exact ladv_of hM
      obtain ⟨s', o, ha, hi, hd, hit, hf, hcase⟩ := advance_spec (c := c) L2 s.fresh s L1 hlen r.nd
        (fun x hx => (r.lo x hx).1) r.lk hv
      rw [ha]
      rcases hcase with ⟨rfl, hs, hl⟩ | ⟨k, v, L', rfl, hs, hp, hl⟩
      · dsimp only
        refine ⟨L1 ++ L2, ⟨?_, ?_, by rw [hf]; exact r.fr, hl, by rw [hd]; exact r.nkd, by rw [hit]; exact r.nki.erase c, ?_, ?_⟩, ?_⟩
        · exact List.Sublist.nodup (List.Sublist.append_left (List.sublist_cons_self _ _) _) r.nd
        · intro x hx
          dsimp only
          rw [hf]; exact r.lo x (mem_split.2 (Or.inr hx))
        · intro k m
          dsimp only
          rw [hd, r.data, mem_split, hi]
          constructor
          · rintro ⟨hm | hm, v', hx⟩
            · subst hm; rw [hv] at hx; cases hx
            · exact ⟨hm, v', hx⟩
          · rintro ⟨hm, v', hx⟩; exact ⟨Or.inr hm, v', hx⟩
        · intro c' m
          dsimp only
          rw [hit, hi, AL.get_erase]
          by_cases hk : c' = c
          · rw [if_pos hk]
            subst hk
            constructor
            · intro hx; cases hx
            · rintro ⟨hm, hx⟩
              have := hu m (mem_split.2 (Or.inr hm)) hx
              exact absurd (this ▸ hm) hnn
          · rw [if_neg hk, r.iters, mem_split]
            constructor
            · rintro ⟨hm | hm, hx⟩
              · subst hm; rw [hv] at hx; cases hx; exact absurd rfl hk
              · exact ⟨hm, hx⟩
            · rintro ⟨hm, hx⟩; exact ⟨Or.inr hm, hx⟩
        · rw [hladv, hs]
          dsimp only
          rw [hi, List.map_append]
      · dsimp only
        have hperm : List.Perm (L1 ++ L') (L1 ++ n :: L2) := List.Perm.append_left _ hp
        refine ⟨L1 ++ L', ⟨hperm.nodup_iff.2 r.nd, ?_, by rw [hf]; exact r.fr, hl, by rw [hd]; exact r.nkd, by rw [hit]; exact r.nki, ?_, ?_⟩, ?_⟩
        · intro x hx
          rw [hf]; exact r.lo x (hperm.mem_iff.1 hx)
        · intro k' m
          rw [hd, r.data, hi, hperm.mem_iff]
        · intro c' m
          rw [hit, r.iters, hi, hperm.mem_iff]
        · rw [hladv, hs]
          dsimp only
          rw [hi, List.map_append]

end Verif.Sync.LinkedDict
