/-
Property C39: the connection pool (http.py `Pool` 982-1068) and the `is_idle` state of a connection.
-/
import Verif.Util.AList

namespace Verif.Backend.Pool

/-! ### The pool -/

/-- Where a borrower is in `Pool.get`. -/
inductive Phase where
  /-- holds the limiter, in `_pop_conn` -/
  | popping
  /-- inside the `with` block, using the connection -/
  | lent (c : Nat)
  /-- in the `finally` clause, closing the connection; still holds the limiter -/
  | closing (c : Nat)
deriving DecidableEq

def Phase.conn : Phase → Option Nat
  | .popping => none
  | .lent c => some c
  | .closing c => some c

/-- State of a pool.  Connections are numbered in order of creation. -/
structure St where
  maxConn : Nat
  closed : Bool
  /-- `_idle` -/
  idle : List Nat
  /-- borrowers that passed the `_closed` check and wait for the limiter -/
  waiting : List Nat
  /-- borrowers that hold the limiter -/
  active : List (Nat × Phase)
  /-- connections `aclose` still has to close -/
  pending : List Nat
  /-- closed connections (ghost) -/
  dead : List Nat
  /-- number of connections created so far -/
  next : Nat
  /-- `is_idle` of each connection -/
  clean : Nat → Bool

def init (maxConn : Nat) : St := ⟨maxConn, false, [], [], [], [], [], 0, fun _ => false⟩

inductive Op where
  | enter (b : Nat)
  | acquire (b : Nat)
  | pop (b : Nat)
  /-- the user of the connection makes requests, after which `is_idle` has the given value -/
  | use (b : Nat) (idle : Bool)
  | exit (b : Nat)
  | exitDone (b : Nat)
  | close
  | closeOne

/-- One scheduling step; `none` if the step is not possible.  Cancellation is not modelled. -/
def step (s : St) : Op → Option St
  -- `if self._closed: raise` (http.py:1042); a borrower is identified by its task and enters once at a time
  | .enter b => if s.closed then some s else
      if b ∈ s.waiting ∨ (AL.get s.active b).isSome then none else some { s with waiting := b :: s.waiting }
  -- `async with self._limiter` (http.py:1044)
  | .acquire b => if b ∈ s.waiting ∧ (AL.get s.active b).isNone ∧ s.active.length < s.maxConn then
      some { s with waiting := s.waiting.erase b, active := AL.set s.active b .popping } else none
  -- `_pop_conn` (http.py:1018-1030), one iteration
  | .pop b =>
    if AL.get s.active b = some .popping then
      match s.idle.getLast? with
      | some c =>
        if s.clean c then some { s with idle := s.idle.dropLast, active := AL.set s.active b (.lent c) }
        else some { s with idle := s.idle.dropLast, dead := c :: s.dead }
      | none => some { s with active := AL.set s.active b (.lent s.next), next := s.next + 1 }
    else none
  | .use b i =>
    match AL.get s.active b with
    | some (.lent c) => some { s with clean := fun x => if x = c then i else s.clean x }
    | _ => none
  -- the `finally` clause (http.py:1048-1052)
  | .exit b =>
    match AL.get s.active b with
    | some (.lent c) =>
      if s.closed = false ∧ s.clean c = true then
        some { s with idle := s.idle ++ [c], active := AL.erase s.active b }
      else some { s with active := AL.set s.active b (.closing c) }
    | _ => none
  | .exitDone b =>
    match AL.get s.active b with
    | some (.closing c) => some { s with active := AL.erase s.active b, dead := c :: s.dead }
    | _ => none
  -- `aclose` (http.py:1054-1060)
  | .close => some { s with closed := true, idle := [], pending := s.pending ++ s.idle }
  | .closeOne =>
    match s.pending with
    | [] => none
    | c :: r => some { s with pending := r, dead := c :: s.dead }

def run (s : St) : List Op → Option St
  | [] => some s
  | o :: os => match step s o with
    | some s' => run s' os
    | none => none

/-- The connections held by borrowers. -/
def held (s : St) : List Nat := s.active.filterMap (fun e => e.2.conn)

/-- Number of borrowers using a connection. -/
def lentCount (s : St) : Nat := (s.active.filter (fun e => match e.2 with | .lent _ => true | _ => false)).length

theorem mem_held {s : St} (hn : AL.NK s.active) {c : Nat} :
    c ∈ held s ↔ ∃ b ph, AL.get s.active b = some ph ∧ ph.conn = some c := by
  simp only [held, List.mem_filterMap]
  constructor
  · rintro ⟨⟨b, ph⟩, h1, h2⟩
    exact ⟨b, ph, AL.mem_get_some hn h1, h2⟩
  · rintro ⟨b, ph, h1, h2⟩
    exact ⟨(b, ph), AL.get_some_mem h1, h2⟩

theorem or_shuffle {a b c d e : Prop} : (((a ∨ b) ∨ c ∨ d) ∨ e) ↔ ((a ∨ c ∨ b ∨ d) ∨ e) := by
  constructor
  · rintro (((h | h) | h | h) | h) <;> simp only [h, true_or, or_true]
  · rintro ((h | h | h | h) | h) <;> simp only [h, true_or, or_true]

/-- A borrower holds the connection. -/
def Held (l : List (Nat × Phase)) (c : Nat) : Prop := ∃ b ph, AL.get l b = some ph ∧ ph.conn = some c

/-- A borrower other than `b` holds the connection. -/
def HeldBut (l : List (Nat × Phase)) (b c : Nat) : Prop := ∃ b' ph, b' ≠ b ∧ AL.get l b' = some ph ∧ ph.conn = some c

theorem held_split (l : List (Nat × Phase)) (b c : Nat) :
    Held l c ↔ ((AL.get l b).bind Phase.conn = some c ∨ HeldBut l b c) := by
  constructor
  · rintro ⟨b', ph, h1, h2⟩
    by_cases hb : b' = b
    · subst hb; left; rw [h1]; exact h2
    · exact Or.inr ⟨b', ph, hb, h1, h2⟩
  · rintro (h | ⟨b', ph, _, h1, h2⟩)
    · cases hg : AL.get l b with
      | none => rw [hg] at h; cases h
      | some ph => rw [hg] at h; exact ⟨b, ph, hg, h⟩
    · exact ⟨b', ph, h1, h2⟩

theorem heldBut_set (l : List (Nat × Phase)) (b c : Nat) (v : Phase) : HeldBut (AL.set l b v) b c ↔ HeldBut l b c := by
  constructor
  · rintro ⟨b', ph, h0, h1, h2⟩
    exact ⟨b', ph, h0, by rwa [AL.get_set_ne _ _ h0] at h1, h2⟩
  · rintro ⟨b', ph, h0, h1, h2⟩
    exact ⟨b', ph, h0, by rwa [AL.get_set_ne _ _ h0], h2⟩

theorem heldBut_erase (l : List (Nat × Phase)) (b c : Nat) : HeldBut (AL.erase l b) b c ↔ HeldBut l b c := by
  constructor
  · rintro ⟨b', ph, h0, h1, h2⟩
    exact ⟨b', ph, h0, by rwa [AL.get_erase_ne _ h0] at h1, h2⟩
  · rintro ⟨b', ph, h0, h1, h2⟩
    exact ⟨b', ph, h0, by rwa [AL.get_erase_ne _ h0], h2⟩

theorem held_set (l : List (Nat × Phase)) (b c : Nat) (v : Phase) :
    Held (AL.set l b v) c ↔ (v.conn = some c ∨ HeldBut l b c) := by
  rw [held_split _ b, heldBut_set, AL.get_set_self]; rfl

theorem held_erase (l : List (Nat × Phase)) (b c : Nat) : Held (AL.erase l b) c ↔ HeldBut l b c := by
  rw [held_split _ b, heldBut_erase, AL.get_erase_self]; simp

/-- Invariant: the borrowers are within the limit; every connection ever created is in exactly one place. -/
structure Inv (s : St) : Prop where
  nk : AL.NK s.active
  limit : s.active.length ≤ s.maxConn
  idleClean : ∀ c ∈ s.idle, s.clean c = true
  closedIdle : s.closed = true → s.idle = []
  nodup : (s.idle ++ s.pending ++ s.dead).Nodup
  heldOnce : ∀ b b' ph ph' c, AL.get s.active b = some ph → AL.get s.active b' = some ph' → ph.conn = some c →
    ph'.conn = some c → b = b'
  heldNot : ∀ b ph c, AL.get s.active b = some ph → ph.conn = some c → c ∉ s.idle ++ s.pending ++ s.dead
  all : ∀ c, c < s.next ↔ ((c ∈ s.idle ∨ c ∈ s.pending ∨ c ∈ s.dead) ∨ Held s.active c)

theorem inv_init (m : Nat) : Inv (init m) :=
  ⟨by simp [init, AL.NK], by simp [init], by simp [init], by simp [init], by simp [init], by simp [init, AL.get],
   by simp [init, AL.get], by simp [init, Held, AL.get]⟩

theorem length_set {κ ν : Type} [DecidableEq κ] (l : List (κ × ν)) (k : κ) (v : ν) :
    (AL.set l k v).length = if (AL.get l k).isSome then l.length else l.length + 1 := by
  induction l with
  | nil => rfl
  | cons e t ih =>
    obtain ⟨a, b⟩ := e
    simp only [AL.set, AL.get]
    by_cases h : a = k
    · simp [h]
    · simp only [if_neg h, List.length_cons, ih]
      split <;> rfl

theorem length_erase_le {κ ν : Type} [DecidableEq κ] (l : List (κ × ν)) (k : κ) : (AL.erase l k).length ≤ l.length := by
  induction l with
  | nil => simp [AL.erase]
  | cons e t ih =>
    obtain ⟨a, b⟩ := e
    simp only [AL.erase]
    split
    · simp only [List.length_cons]; omega
    · simp only [List.length_cons]; omega

attribute [local grind =] AL.get_set AL.get_erase Phase.conn

set_option maxHeartbeats 4000000 in
theorem inv_step {s s' : St} {o : Op} (h : Inv s) (hs : step s o = some s') : Inv s' := by
  obtain ⟨h1, h2, h3, h4, h5, h6, h7, h8⟩ := h
  cases o with
  | enter b =>
    simp only [step] at hs
    split at hs
    · cases hs; exact ⟨h1, h2, h3, h4, h5, h6, h7, h8⟩
    · split at hs
      · cases hs
      · cases hs; exact ⟨h1, h2, h3, h4, h5, h6, h7, h8⟩
  | acquire b =>
    simp only [step] at hs
    split at hs <;> try (cases hs; done)
    rename_i hc
    cases hs
    obtain ⟨hc1, hc2, hc3⟩ := hc
    have hnone : AL.get s.active b = none := by simpa using hc2
    refine ⟨h1.set _ _, ?_, h3, h4, h5, ?_, ?_, ?_⟩
    · show (AL.set s.active b .popping).length ≤ s.maxConn
      rw [length_set, hnone]; simp; omega
    · grind
    · grind
    · intro c
      show _ ↔ _ ∨ Held (AL.set s.active b .popping) c
      rw [held_set, h8 c, held_split _ b, hnone]; simp [Phase.conn]
  | pop b =>
    simp only [step] at hs
    split at hs <;> try (cases hs; done)
    rename_i hb
    have hlen : ∀ v, (AL.set s.active b v).length = s.active.length := by
      intro v; rw [length_set, hb]; simp
    split at hs
    · rename_i c hc
      have hsplit : s.idle = s.idle.dropLast ++ [c] := by
        have hne : s.idle ≠ [] := by intro h0; rw [h0] at hc; cases hc
        have := List.dropLast_concat_getLast hne
        rw [List.getLast?_eq_some_getLast hne] at hc
        cases hc
        exact this.symm
      have hmem : ∀ x, x ∈ s.idle ↔ x ∈ s.idle.dropLast ∨ x = c := by
        intro x; conv => lhs; rw [hsplit]
        simp
      have hnd : (s.idle.dropLast ++ s.pending ++ s.dead).Nodup ∧ c ∉ s.idle.dropLast ++ s.pending ++ s.dead := by
        rw [hsplit] at h5
        have hp : (s.idle.dropLast ++ [c] ++ s.pending ++ s.dead).Perm (c :: (s.idle.dropLast ++ s.pending ++ s.dead)) := by
          simp only [List.append_assoc]
          exact List.perm_middle
        have := hp.nodup_iff.1 h5
        exact ⟨(List.nodup_cons.1 this).2, (List.nodup_cons.1 this).1⟩
      split at hs
      · cases hs
        refine ⟨h1.set _ _, by show (AL.set s.active b _).length ≤ _; rw [hlen]; exact h2, ?_, ?_, hnd.1, ?_, ?_, ?_⟩
        · intro x hx; exact h3 x ((hmem x).2 (Or.inl hx))
        · intro hcl; have := h4 hcl; show s.idle.dropLast = []; rw [this]; rfl
        · have hci : c ∈ s.idle := (hmem c).2 (Or.inr rfl)
          grind
        · have hci : c ∈ s.idle := (hmem c).2 (Or.inr rfl)
          grind
        · intro x
          show x < s.next ↔ (x ∈ s.idle.dropLast ∨ x ∈ s.pending ∨ x ∈ s.dead) ∨ Held (AL.set s.active b (.lent c)) x
          rw [held_set, h8 x, held_split _ b, hb, hmem]
          simp only [Option.bind_some, Phase.conn, Option.some.injEq]
          grind
      · cases hs
        refine ⟨h1, h2, ?_, ?_, ?_, h6, ?_, ?_⟩
        · intro x hx; exact h3 x ((hmem x).2 (Or.inl hx))
        · intro hcl; have := h4 hcl; show s.idle.dropLast = []; rw [this]; rfl
        · show (s.idle.dropLast ++ s.pending ++ c :: s.dead).Nodup
          exact List.perm_middle.nodup_iff.2 (List.nodup_cons.2 ⟨hnd.2, hnd.1⟩)
        · have hci : c ∈ s.idle := (hmem c).2 (Or.inr rfl)
          grind
        · intro x
          show x < s.next ↔ (x ∈ s.idle.dropLast ∨ x ∈ s.pending ∨ x ∈ c :: s.dead) ∨ Held s.active x
          rw [h8 x, hmem, List.mem_cons]
          exact or_shuffle
    · cases hs
      have hfresh : ∀ b' ph, AL.get s.active b' = some ph → ph.conn ≠ some s.next := by
        intro b' ph hg hcn
        have := (h8 s.next).2 (Or.inr ⟨b', ph, hg, hcn⟩)
        omega
      have hfresh2 : s.next ∉ s.idle ++ s.pending ++ s.dead := by
        intro hc; have := (h8 s.next).2 (Or.inl (by simpa [or_assoc] using hc)); omega
      refine ⟨h1.set _ _, by show (AL.set s.active b _).length ≤ _; rw [hlen]; exact h2, h3, h4, h5, ?_, ?_, ?_⟩
      · grind
      · grind
      · intro c
        show c < s.next + 1 ↔ _ ∨ Held (AL.set s.active b (.lent s.next)) c
        have hlt : c < s.next + 1 ↔ c < s.next ∨ c = s.next := by omega
        rw [hlt, held_set, h8 c, held_split _ b, hb]
        simp only [Option.bind_some, Phase.conn, Option.some.injEq]
        grind
  | use b i =>
    simp only [step] at hs
    split at hs <;> try (cases hs; done)
    rename_i c hb
    cases hs
    refine ⟨h1, h2, ?_, h4, h5, h6, h7, h8⟩
    intro x hx
    have := h7 b _ c hb rfl
    have hxc : x ≠ c := by
      rintro rfl; exact this (by simp [hx])
    show (if x = c then i else s.clean x) = true
    rw [if_neg hxc]; exact h3 x hx
  | exit b =>
    simp only [step] at hs
    split at hs <;> try (cases hs; done)
    rename_i c hb
    have hc := h7 b _ c hb rfl
    split at hs
    · rename_i hcond
      cases hs
      refine ⟨h1.erase _, Nat.le_trans (length_erase_le _ _) h2, ?_, ?_, ?_, ?_, ?_, ?_⟩
      · intro x hx
        rcases List.mem_append.1 hx with hx | hx
        · exact h3 x hx
        · simp only [List.mem_singleton] at hx; subst hx; exact hcond.2
      · intro hcl
        have hcl : s.closed = true := hcl
        rw [hcond.1] at hcl; cases hcl
      · show (s.idle ++ [c] ++ s.pending ++ s.dead).Nodup
        have hp : (s.idle ++ [c] ++ s.pending ++ s.dead).Perm (c :: (s.idle ++ s.pending ++ s.dead)) := by
          simp only [List.append_assoc]
          exact List.perm_middle
        exact hp.nodup_iff.2 (List.nodup_cons.2 ⟨hc, h5⟩)
      · grind
      · grind
      · intro x
        show _ ↔ (x ∈ s.idle ++ [c] ∨ x ∈ s.pending ∨ x ∈ s.dead) ∨ Held (AL.erase s.active b) x
        rw [held_erase, h8 x, held_split _ b, hb]
        simp only [Option.bind_some, Phase.conn, Option.some.injEq, List.mem_append, List.mem_singleton]
        grind
    · cases hs
      refine ⟨h1.set _ _, ?_, h3, h4, h5, ?_, ?_, ?_⟩
      · show (AL.set s.active b _).length ≤ _
        rw [length_set, hb]; simpa using h2
      · grind
      · grind
      · intro x
        show _ ↔ _ ∨ Held (AL.set s.active b (.closing c)) x
        rw [held_set, h8 x, held_split _ b, hb]
        simp [Phase.conn]
  | exitDone b =>
    simp only [step] at hs
    split at hs <;> try (cases hs; done)
    rename_i c hb
    cases hs
    have hc := h7 b _ c hb rfl
    refine ⟨h1.erase _, Nat.le_trans (length_erase_le _ _) h2, h3, h4, ?_, ?_, ?_, ?_⟩
    · show (s.idle ++ s.pending ++ c :: s.dead).Nodup
      exact List.perm_middle.nodup_iff.2 (List.nodup_cons.2 ⟨hc, h5⟩)
    · grind
    · grind
    · intro x
      show _ ↔ (x ∈ s.idle ∨ x ∈ s.pending ∨ x ∈ c :: s.dead) ∨ Held (AL.erase s.active b) x
      rw [held_erase, h8 x, held_split _ b, hb]
      simp only [Option.bind_some, Phase.conn, Option.some.injEq, List.mem_cons]
      grind
  | close =>
    simp only [step] at hs
    cases hs
    refine ⟨h1, h2, by simp, fun _ => rfl, ?_, h6, ?_, ?_⟩
    · show ([] ++ (s.pending ++ s.idle) ++ s.dead).Nodup
      have : ([] ++ (s.pending ++ s.idle) ++ s.dead).Perm (s.idle ++ s.pending ++ s.dead) := by
        simp only [List.nil_append]
        exact List.Perm.append_right _ List.perm_append_comm
      exact this.nodup_iff.2 h5
    · grind
    · intro x
      show _ ↔ (x ∈ [] ∨ x ∈ s.pending ++ s.idle ∨ x ∈ s.dead) ∨ Held s.active x
      rw [h8 x]
      grind
  | closeOne =>
    simp only [step] at hs
    split at hs <;> try (cases hs; done)
    rename_i c r hp
    cases hs
    refine ⟨h1, h2, h3, h4, ?_, h6, ?_, ?_⟩
    · show (s.idle ++ r ++ c :: s.dead).Nodup
      rw [hp] at h5
      have : (s.idle ++ r ++ c :: s.dead).Perm (s.idle ++ c :: r ++ s.dead) := by
        refine List.perm_middle.trans ?_
        have h9 : (s.idle ++ c :: r).Perm (c :: (s.idle ++ r)) := List.perm_middle
        exact (h9.append_right s.dead).symm
      exact this.nodup_iff.2 h5
    · grind
    · intro x
      show _ ↔ (x ∈ s.idle ∨ x ∈ r ∨ x ∈ c :: s.dead) ∨ Held s.active x
      rw [h8 x, hp]
      grind

theorem inv_run {ops : List Op} : ∀ {s s' : St}, Inv s → run s ops = some s' → Inv s' := by
  induction ops with
  | nil => intro s s' h hr; cases hr; exact h
  | cons o os ih =>
    intro s s' h hr
    simp only [run] at hr
    split at hr
    · next s1 h1 => exact ih (inv_step h h1) hr
    · cases hr

theorem step_max {s s' : St} {o : Op} (hs : step s o = some s') : s'.maxConn = s.maxConn := by
  cases o <;> simp only [step] at hs <;> (repeat' split at hs) <;> first | (cases hs; rfl) | cases hs

theorem run_max {ops : List Op} : ∀ {s s' : St}, run s ops = some s' → s'.maxConn = s.maxConn := by
  induction ops with
  | nil => intro s s' hr; cases hr; rfl
  | cons o os ih =>
    intro s s' hr
    simp only [run] at hr
    split at hr
    · next s1 h1 => rw [ih hr, step_max h1]
    · cases hr

/-- **C39.**  In every state any schedule can reach: at most `max_connections` connections are lent out; no connection is
lent to two borrowers; a lent connection is not in the pool; and after `aclose` there is no idle connection in the
pool. -/
theorem C39_pool (maxConn : Nat) (ops : List Op) (s : St) (h : run (init maxConn) ops = some s) :
    lentCount s ≤ maxConn ∧
    (∀ b b' c, AL.get s.active b = some (.lent c) → AL.get s.active b' = some (.lent c) → b = b') ∧
    (∀ b c, AL.get s.active b = some (.lent c) → c ∉ s.idle) ∧
    (s.closed = true → s.idle = []) := by
  have hi := inv_run (inv_init maxConn) h
  have hm := run_max h
  refine ⟨?_, fun b b' c h1 h2 => hi.heldOnce b b' _ _ c h1 h2 rfl rfl, ?_, hi.closedIdle⟩
  · have h1 : lentCount s ≤ s.active.length := List.length_filter_le _ _
    have h2 := hi.limit
    rw [hm] at h2
    exact Nat.le_trans h1 h2
  · intro b c hb hc
    exact hi.heldNot b _ c hb rfl (by simp [hc])

/-- **C39 (reuse).**  A connection that is handed out is either a new one or one in idle state. -/
theorem C39_reuse_clean (maxConn : Nat) (ops : List Op) (s s' : St) (b c : Nat) (_ : run (init maxConn) ops = some s)
    (hp : step s (.pop b) = some s') (hc : AL.get s'.active b = some (.lent c)) : s.clean c = true ∨ c = s.next := by
  simp only [step] at hp
  split at hp <;> try (cases hp; done)
  rename_i hb
  split at hp
  · split at hp
    · next c' _ hcl =>
      cases hp
      rw [AL.get_set_self] at hc
      cases hc
      exact Or.inl hcl
    · cases hp
      rw [hb] at hc; cases hc
  · cases hp
    rw [AL.get_set_self] at hc
    cases hc
    exact Or.inr rfl

/-- **C39 (nothing leaks).**  Once the pool is closed, nobody holds a connection and `aclose` has ended, every
connection that was ever opened has been closed. -/
theorem C39_all_closed (maxConn : Nat) (ops : List Op) (s : St) (h : run (init maxConn) ops = some s)
    (hc : s.closed = true) (ha : s.active = []) (hp : s.pending = []) (c : Nat) (hlt : c < s.next) : c ∈ s.dead := by
  have hi := inv_run (inv_init maxConn) h
  rcases (hi.all c).1 hlt with h1 | ⟨b, ph, h1, _⟩
  · rw [hi.closedIdle hc, hp] at h1
    simpa using h1
  · rw [ha] at h1; cases h1

/-- Non-vacuity: two borrowers, limit 1; the second one gets the connection the first one used; then close. -/
example : (run (init 1) [.enter 0, .enter 1, .acquire 0, .pop 0, .use 0 true, .exit 0, .acquire 1, .pop 1, .close,
    .exit 1, .exitDone 1]).map (fun s => (s.closed, s.active.length, s.dead, s.next)) = some (true, 0, [0], 1) := by decide

/-! ### What "idle" means for a connection -/

/-- The h11 states of our side and of the server's side that matter. -/
inductive Side where
  | idle | sendBody | done | mustClose
deriving DecidableEq

/-- An `HTTPConnection` with an open stream.  `partialBody` and `closeAnnounced` are ghosts: a request body was started but
not completed on this stream, and the server announced `Connection: close`. -/
structure Conn where
  ours : Side
  theirs : Side
  partialBody : Bool
  closeAnnounced : Bool
deriving DecidableEq

def fresh : Conn := ⟨.idle, .idle, false, false⟩

/-- How a request/response cycle goes (http.py:399-534 and 597-760). -/
inductive Cycle where
  /-- the whole request is sent, the response (possibly with `Connection: close`) is read to its end -/
  | full (close : Bool)
  /-- the whole request is sent, but the response is not read to its end -/
  | unread (close : Bool)
  /-- `Expect: 100-continue` is answered by a final response, which is read to its end -/
  | rejected (close : Bool)
  /-- the server stops reading in the middle of the body; its response is read to its end (http.py:519-531) -/
  | cutOff (close : Bool)
  /-- the body could not be produced (`ExcessBodyData`, `StateError` or an error while reading the file) -/
  | aborted

/-- `_finish_cycle` (http.py:809-848) applied to the states at the end of the response. -/
def finishCycle (c : Conn) : Conn :=
  if c.ours = .sendBody then { c with ours := .idle, theirs := .idle }
  else if c.ours = .done ∧ c.theirs = .done then { c with ours := .idle, theirs := .idle }
  else c

/-- h11: at the end of its message a side is `DONE`, or `MUST_CLOSE` without keep-alive. -/
def endSide (close : Bool) : Side := if close then .mustClose else .done

/-- One cycle on an idle connection. -/
def cycle (c : Conn) : Cycle → Conn
  | .full cl => finishCycle { c with ours := endSide cl, theirs := endSide cl, closeAnnounced := c.closeAnnounced || cl }
  | .unread cl => { c with ours := endSide cl, theirs := .sendBody, closeAnnounced := c.closeAnnounced || cl }
  | .rejected cl => finishCycle { c with ours := .sendBody, theirs := endSide cl, closeAnnounced := c.closeAnnounced || cl }
  | .cutOff cl => finishCycle ⟨.sendBody, endSide cl, true, c.closeAnnounced || cl⟩
  | .aborted => { c with ours := .sendBody, partialBody := true }

/-- `is_idle` (http.py:868-876) of a connection with an open stream. -/
def isIdle (c : Conn) : Bool := c.ours == .idle && c.theirs == .idle

/-- Cycles are only started on an idle connection (http.py:453-465). -/
def use (c : Conn) : List Cycle → Conn
  | [] => c
  | x :: xs => if isIdle c then use (cycle c x) xs else c

/-- The cycles for which `is_idle` is accurate. -/
def Cycle.Plain : Cycle → Prop
  | .rejected cl => cl = false
  | .cutOff _ => False
  | _ => True

/-- **C39 (idle connections are clean).**  After any cycles in which the server neither cuts off a body nor rejects one
while announcing to close, a connection that counts as idle has no half-sent body on the wire and the server has not
announced to close it. -/
theorem C39_idle_is_clean_partial (cs : List Cycle) (hcs : ∀ c ∈ cs, c.Plain) (h : isIdle (use fresh cs) = true) :
    (use fresh cs).partialBody = false ∧ (use fresh cs).closeAnnounced = false := by
  suffices ∀ (cs : List Cycle) (c : Conn), (∀ x ∈ cs, x.Plain) →
      (isIdle c = true → c.partialBody = false ∧ c.closeAnnounced = false) → isIdle (use c cs) = true →
      (use c cs).partialBody = false ∧ (use c cs).closeAnnounced = false from
    this cs fresh hcs (fun _ => ⟨rfl, rfl⟩) h
  intro cs
  induction cs with
  | nil => intro c _ hc h; exact hc h
  | cons x xs ih =>
    intro c hp hc h
    unfold use at h ⊢
    by_cases hi : isIdle c = true
    · rw [if_pos hi] at h ⊢
      refine ih _ (fun y hy => hp y (by simp [hy])) ?_ h
      obtain ⟨hc1, hc2⟩ := hc hi
      have hx := hp x (by simp)
      intro hidle
      cases x with
      | full cl => cases cl <;> simp_all [cycle, finishCycle, endSide, isIdle]
      | unread cl => cases cl <;> simp_all [cycle, endSide, isIdle]
      | rejected cl => simp only [Cycle.Plain] at hx; subst hx; simp_all [cycle, finishCycle]
      | cutOff cl => exact absurd hx (by simp [Cycle.Plain])
      | aborted => simp_all [cycle, isIdle]
    · rw [if_neg hi] at h ⊢
      exact hc h

/-- **C39 is not fully true**: after a body was cut off, or rejected with `Connection: close`, the connection counts as
idle and goes back to the pool. -/
theorem C39_unclean_idle : isIdle (use fresh [.cutOff false]) = true ∧ (use fresh [.cutOff false]).partialBody = true ∧
    isIdle (use fresh [.rejected true]) = true ∧ (use fresh [.rejected true]).closeAnnounced = true := by decide

example : isIdle (use fresh [.full false, .rejected false, .full false]) = true := by decide

end Verif.Backend.Pool
