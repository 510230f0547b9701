/-
Model of `MultiLock` (multi_lock.py:24-92) as a step machine.

A call of `acquire` or `release` is identified by a number.  `async with self.cond` first takes the
lock inside the `trio.Condition` (a fair FIFO lock, held over at least one scheduling point), then the
body runs without a scheduling point except in `cond.wait()`.
-/
namespace Verif.Sync.MultiLock

variable {K : Type} [DecidableEq K]

/-- A running call. `abort` is a cancelled `cond.wait()`, which takes the lock again before it raises. -/
inductive Op (K : Type) where
  | acquire (k : K)
  | release (k : K) (noerror : Bool)
  | abort
deriving Repr, DecidableEq

structure State (K : Type) where
  /-- `locked_keys` (multi_lock.py:40). -/
  keys : K → Bool
  /-- the call that has the lock of `cond`, and runs next. -/
  owner : Option (Nat × Op K)
  /-- calls waiting for the lock of `cond`. -/
  queue : List (Nat × Op K)
  /-- calls in `cond.wait()`. -/
  parked : List (Nat × Op K)

inductive Ev (K : Type) where
  /-- a task calls `acquire(key)` or `release(key, noerror)`. -/
  | call (c : Nat) (op : Op K)
  /-- the owner of the lock of `cond` is scheduled. -/
  | run
  /-- `acquire_nowait(key)`. -/
  | nowait (k : K)
  /-- call `c` is cancelled while it waits. -/
  | cancel (c : Nat)
deriving Repr, DecidableEq

/-- What callers observe. -/
inductive Out (K : Type) where
  | none
  /-- `acquire(key)` returns. -/
  | acquired (c : Nat) (k : K)
  /-- `release` returns; `was` tells if the key was locked. -/
  | released (c : Nat) (k : K) (was : Bool)
  /-- `release` raises `KeyError`. -/
  | keyError (c : Nat) (k : K)
  | nowait (k : K) (ok : Bool)
deriving Repr, DecidableEq

def set (f : K → Bool) (k : K) (b : Bool) : K → Bool := fun x => if x = k then b else f x

/-- `cond.release()`: the lock goes to the first waiter. -/
def releaseCond (s : State K) : State K :=
  match s.queue with
  | [] => { s with owner := none }
  | c :: q => { s with owner := some c, queue := q }

def init : State K := { keys := fun _ => false, owner := none, queue := [], parked := [] }

def step (s : State K) : Ev K → Option (State K × Out K)
  | .call c op =>
    -- `async with self.cond` (multi_lock.py:74, 87)
    match s.owner with
    | none => some ({ s with owner := some (c, op) }, .none)
    | some _ => some ({ s with queue := s.queue ++ [(c, op)] }, .none)
  | .run =>
    match s.owner with
    | none => none
    | some (c, .acquire k) =>
      -- multi_lock.py:75-78
      if s.keys k then
        some (releaseCond { s with parked := s.parked ++ [(c, .acquire k)] }, .none)
      else
        some (releaseCond { s with keys := set s.keys k true }, .acquired c k)
    | some (c, .release k noerror) =>
      -- multi_lock.py:88-92; `set.remove` raises before `notify_all`
      if s.keys k || noerror then
        some (releaseCond { s with keys := set s.keys k false, queue := s.queue ++ s.parked, parked := [] },
          .released c k (s.keys k))
      else
        some (releaseCond s, .keyError c k)
    | some (_, .abort) => some (releaseCond s, .none)
  | .nowait k =>
    -- multi_lock.py:50-69
    match s.owner with
    | some _ => some (s, .nowait k false)
    | none => if s.keys k then some (s, .nowait k false)
              else some ({ s with keys := set s.keys k true }, .nowait k true)
  | .cancel c =>
    -- trio: a task waiting in `acquire` of the lock leaves; a task in `wait` queues for the lock again.
    if s.parked.any (fun x => x.1 = c) then
      let s' := { s with parked := s.parked.filter (fun x => x.1 ≠ c) }
      match s.owner with
      | none => some ({ s' with owner := some (c, .abort) }, .none)
      | some _ => some ({ s' with queue := s.queue ++ [(c, .abort)] }, .none)
    else if s.queue.any (fun x => x.1 = c) then
      some ({ s with queue := s.queue.filter (fun x => x.1 ≠ c) }, .none)
    else none

def exec (s : State K) : List (Ev K) → Option (State K × List (Out K))
  | [] => some (s, [])
  | e :: es =>
    match step s e with
    | none => none
    | some (s', o) =>
      match exec s' es with
      | none => none
      | some (s'', os) => some (s'', o :: os)

end Verif.Sync.MultiLock

namespace Verif.Sync.MultiLock.Spec
variable {K : Type} [DecidableEq K]

/-- Which keys are held, from what callers have observed so far; `none` if the observation is impossible
for a mutual exclusion lock. -/
def observe (held : K → Bool) : Out K → Option (K → Bool)
  | .none => some held
  | .acquired _ k => if held k then none else some (set held k true)
  | .nowait k true => if held k then none else some (set held k true)
  | .nowait _ false => some held
  | .released _ k was => if held k = was then some (set held k false) else none
  | .keyError _ k => if held k then none else some held

def observeAll (held : K → Bool) : List (Out K) → Option (K → Bool)
  | [] => some held
  | o :: os => match observe held o with
    | none => none
    | some h => observeAll h os

end Verif.Sync.MultiLock.Spec

namespace Verif.Sync.MultiLock
variable {K : Type} [DecidableEq K]

structure Inv (s : State K) : Prop where
  parked : ∀ c op, (c, op) ∈ s.parked → ∃ k, op = .acquire k ∧ s.keys k = true
  owner : s.queue ≠ [] → s.owner ≠ none
  owner' : s.owner = none → s.queue = []

omit [DecidableEq K] in
theorem keys_releaseCond (t : State K) : (releaseCond t).keys = t.keys := by
  unfold releaseCond; split <;> rfl

omit [DecidableEq K] in
theorem releaseCond_inv {s : State K}
    (hp : ∀ c op, (c, op) ∈ s.parked → ∃ k, op = .acquire k ∧ s.keys k = true) : Inv (releaseCond s) := by
  unfold releaseCond
  split
  · rename_i h; exact ⟨hp, fun hq => absurd h hq, fun _ => h⟩
  · exact ⟨hp, fun _ => by simp, fun h => by cases h⟩

theorem step_inv {s s' : State K} {e : Ev K} {o : Out K} (hi : Inv s) (h : step s e = some (s', o)) :
    Inv s' ∧ Spec.observe s.keys o = some s'.keys := by
  obtain ⟨hp, ho, ho'⟩ := hi
  cases e with
  | call c op =>
    simp only [step] at h
    split at h
    · cases h
      rename_i hn
      exact ⟨⟨hp, fun _ => by simp, fun h => by cases h⟩, rfl⟩
    · cases h
      rename_i w hw
      exact ⟨⟨hp, fun _ => by simp [hw], fun h => by simp [hw] at h⟩, rfl⟩
  | run =>
    simp only [step] at h
    split at h
    · cases h
    · rename_i c k hk
      split at h
      · rename_i hl
        cases h
        refine ⟨releaseCond_inv ?_, by unfold releaseCond; split <;> rfl⟩
        intro c' op hm
        rcases List.mem_append.1 hm with hm | hm
        · exact hp c' op hm
        · simp only [List.mem_singleton, Prod.mk.injEq] at hm
          exact ⟨k, hm.2, hl⟩
      · rename_i hl
        cases h
        refine ⟨releaseCond_inv ?_, ?_⟩
        · intro c' op hm
          obtain ⟨k', h1, h2⟩ := hp c' op hm
          refine ⟨k', h1, ?_⟩
          simp only [set]; split
          · rfl
          · exact h2
        · simp only [Spec.observe]; rw [if_neg hl]; unfold releaseCond; split <;> rfl
    · rename_i c k ne hk
      split at h
      · cases h
        refine ⟨releaseCond_inv (by intro c op hm; cases hm), ?_⟩
        simp [Spec.observe, keys_releaseCond]
      · rename_i hl
        cases h
        simp only [Bool.or_eq_true, not_or, Bool.not_eq_true] at hl
        refine ⟨releaseCond_inv hp, ?_⟩
        simp [Spec.observe, hl.1, keys_releaseCond]
    · cases h
      exact ⟨releaseCond_inv hp, by unfold releaseCond; split <;> rfl⟩
  | nowait k =>
    simp only [step] at h
    split at h
    · cases h; exact ⟨⟨hp, ho, ho'⟩, rfl⟩
    · split at h
      · cases h; exact ⟨⟨hp, ho, ho'⟩, rfl⟩
      · rename_i hl
        cases h
        refine ⟨⟨?_, ho, ho'⟩, by simp only [Spec.observe]; rw [if_neg hl]⟩
        intro c' op hm
        obtain ⟨k', h1, h2⟩ := hp c' op hm
        refine ⟨k', h1, ?_⟩
        simp only [set]; split
        · rfl
        · exact h2
  | cancel c =>
    simp only [step] at h
    have hp' : ∀ c' op, (c', op) ∈ s.parked.filter (fun x => x.1 ≠ c) → ∃ k, op = .acquire k ∧ s.keys k = true :=
      fun c' op hm => hp c' op (List.mem_filter.1 hm).1
    split at h
    · split at h
      · cases h; exact ⟨⟨hp', fun _ => by simp, fun h => by cases h⟩, rfl⟩
      · rename_i w hw
        cases h; exact ⟨⟨hp', fun _ => by simp [hw], fun h => by simp [hw] at h⟩, rfl⟩
    · split at h
      · cases h
        refine ⟨⟨hp, fun hq => ?_, fun hn => ?_⟩, rfl⟩
        · apply ho
          intro hq0
          dsimp only at hq
          rw [hq0] at hq; exact hq rfl
        · dsimp only at hn ⊢; rw [ho' hn]; rfl
      · cases h

theorem exec_inv {es : List (Ev K)} : ∀ {s s' : State K} {os : List (Out K)}, Inv s → exec s es = some (s', os) →
    Inv s' ∧ Spec.observeAll s.keys os = some s'.keys := by
  induction es with
  | nil => intro s s' os hi h; cases h; exact ⟨hi, rfl⟩
  | cons e es ih =>
    intro s s' os hi h
    simp only [exec] at h
    split at h <;> try (cases h; done)
    rename_i s1 o1 h1
    split at h <;> try (cases h; done)
    rename_i s2 os' h2
    cases h
    obtain ⟨hi1, ho1⟩ := step_inv hi h1
    obtain ⟨hi2, ho2⟩ := ih hi1 h2
    refine ⟨hi2, ?_⟩
    simp only [Spec.observeAll, ho1]
    exact ho2

theorem inv_init : Inv (init : State K) := ⟨fun _ _ h => (by cases h), fun h => absurd rfl h, fun _ => rfl⟩

/-- Mutual exclusion: what the callers observe in any schedule is what they would observe from a lock
that is held by at most one of them: an `acquire` returns only if the key is not held, `acquire_nowait`
succeeds only then, `release` makes exactly this key available, and raises only if the key is not held. -/
theorem C07_mutual_exclusion {es : List (Ev K)} {s : State K} {os : List (Out K)}
    (h : exec init es = some (s, os)) : Spec.observeAll (fun _ => false) os = some s.keys :=
  (exec_inv inv_init h).2

/-- No lost wake-up: a call sleeps in `acquire(k)` only while `k` is held; and if a call waits for its
turn, some call has it (so a `run` step is possible). -/
theorem C07_no_lost_wakeup {es : List (Ev K)} {s : State K} {os : List (Out K)}
    (h : exec init es = some (s, os)) :
    (∀ c op, (c, op) ∈ s.parked → ∃ k, op = .acquire k ∧ s.keys k = true) ∧
    (s.queue ≠ [] → ∃ s' o, step s .run = some (s', o)) := by
  obtain ⟨⟨hp, ho, _⟩, _⟩ := exec_inv inv_init h
  refine ⟨hp, fun hq => ?_⟩
  cases hw : s.owner with
  | none => exact absurd hw (ho hq)
  | some w =>
    obtain ⟨c, op⟩ := w
    simp only [step, hw]
    cases op with
    | acquire k => dsimp only; split <;> exact ⟨_, _, rfl⟩
    | release k ne => dsimp only; split <;> exact ⟨_, _, rfl⟩
    | abort => exact ⟨_, _, rfl⟩

/-- Calls in the order in which they will run. -/
def order (s : State K) : List (Nat × Op K) := s.owner.toList ++ s.queue

omit [DecidableEq K] in
theorem order_releaseCond (s : State K) : order (releaseCond s) = s.queue := by
  unfold releaseCond order
  split
  · rename_i h; simp [h]
  · rename_i h; simp [h]

/-- Turns are given in order: every `run` moves all waiting calls one place forward, other events never
move a waiting call back (a cancelled call leaves). -/
theorem C07_turns_in_order {es : List (Ev K)} {s s' : State K} {os : List (Out K)} {e : Ev K} {o : Out K}
    (h0 : exec init es = some (s, os)) (h : step s e = some (s', o)) :
    (e = .run → ∃ l, order s' = (order s).tail ++ l) ∧
    (e ≠ .run → (∃ l, order s' = order s ++ l) ∨ ∃ c, e = .cancel c ∧ (s.owner = none ∨ s'.owner = s.owner) ∧
      s'.queue = s.queue.filter (fun x => x.1 ≠ c)) := by
  have hi := (exec_inv inv_init h0).1
  cases e with
  | call c op =>
    refine ⟨fun h => by simp at h, fun _ => Or.inl ?_⟩
    simp only [step] at h
    split at h
    · rename_i hn
      cases h
      refine ⟨[(c, op)], ?_⟩
      simp [order, hn, hi.owner' hn]
    · rename_i w hw
      cases h
      exact ⟨[(c, op)], by simp [order, hw]⟩
  | run =>
    refine ⟨fun _ => ?_, fun h => absurd rfl h⟩
    simp only [step] at h
    split at h
    · cases h
    all_goals rename_i hw
    · split at h <;> cases h <;> exact ⟨[], by rw [order_releaseCond]; simp [order, hw]⟩
    · split at h <;> cases h
      · exact ⟨s.parked, by rw [order_releaseCond]; simp [order, hw]⟩
      · exact ⟨[], by rw [order_releaseCond]; simp [order, hw]⟩
    · cases h; exact ⟨[], by rw [order_releaseCond]; simp [order, hw]⟩
  | nowait k =>
    refine ⟨fun h => by simp at h, fun _ => Or.inl ⟨[], ?_⟩⟩
    simp only [step] at h
    split at h
    · cases h; simp
    · split at h <;> cases h <;> simp [order]
  | cancel c =>
    refine ⟨fun h => by simp at h, fun _ => ?_⟩
    simp only [step] at h
    split at h
    · split at h
      · rename_i hn
        cases h
        exact Or.inl ⟨[(c, .abort)], by simp [order, hn, hi.owner' hn]⟩
      · rename_i w hw
        cases h
        exact Or.inl ⟨[(c, .abort)], by simp [order, hw]⟩
    · split at h
      · cases h
        exact Or.inr ⟨c, rfl, Or.inr rfl, rfl⟩
      · cases h

/-- `acquire_nowait` succeeds exactly if the key is free and no other call is just using the lock table.
(The property asks for "exactly if the key is free", which is false of the code, see
`C07_nowait_can_fail_on_free_key`.) -/
theorem C07_nowait_partial {s s' : State K} {k : K} {ok : Bool} (h : step s (.nowait k) = some (s', .nowait k ok)) :
    ok = true ↔ s.keys k = false ∧ s.owner = none := by
  simp only [step] at h
  split at h
  · rename_i w hw
    cases h; simp [hw]
  · rename_i hn
    split at h
    · rename_i hl; cases h; simp [hl]
    · rename_i hl; cases h; simp [hl, hn]

/-- A failing `release` or `acquire_nowait` changes no key; a successful `release` changes only its key. -/
theorem C07_release_frame {s s' : State K} {c : Nat} {k : K} {was : Bool}
    (h : step s .run = some (s', .released c k was)) :
    s'.keys k = false ∧ ∀ k', k' ≠ k → s'.keys k' = s.keys k' := by
  simp only [step] at h
  split at h
  · cases h
  · split at h <;> cases h
  · split at h
    · cases h
      rw [keys_releaseCond]
      exact ⟨by simp [set], fun k' hk => by simp [set, hk]⟩
    · cases h
  · cases h

/-- Key 2 is free, but `acquire_nowait(2)` fails because another task is about to acquire key 1. -/
theorem C07_nowait_can_fail_on_free_key :
    (exec (init : State Nat) [.call 0 (.acquire 1), .nowait 2]).map (fun r => (r.2, r.1.keys 2)) =
    some ([.none, .nowait 2 false], false) := by decide

/-- A call that would release `k`. -/
def Releases (k : K) (x : Nat × Op K) : Prop := ∃ ne, x.2 = .release k ne

/-- No call that releases `k` is under way, and `k` is locked. -/
structure Stuck (k : K) (s : State K) : Prop where
  locked : s.keys k = true
  owner : ∀ x, s.owner = some x → ¬Releases k x
  queue : ∀ x ∈ s.queue, ¬Releases k x
  parked : ∀ x ∈ s.parked, ¬Releases k x

theorem stuck_releaseCond {k : K} {s : State K} (hl : s.keys k = true) (hq : ∀ x ∈ s.queue, ¬Releases k x) (hp : ∀ x ∈ s.parked, ¬Releases k x) : Stuck k (releaseCond s) := by
  unfold releaseCond
  split
  · exact ⟨hl, (fun _ h => nomatch h), hq, hp⟩
  · rename_i c q he
    rw [he] at hq
    exact ⟨hl, fun x hx => by cases hx; exact hq c List.mem_cons_self, fun x hx => hq x (List.mem_cons_of_mem _ hx), hp⟩

theorem stuck_step {k : K} {s s' : State K} {e : Ev K} {o : Out K} (hs : Stuck k s) (he : ∀ c ne, e ≠ .call c (.release k ne)) (h : step s e = some (s', o)) :
    Stuck k s' ∧ ∀ c, o ≠ .acquired c k ∧ o ≠ .nowait k true := by
  obtain ⟨hl, ho, hq, hp⟩ := hs
  cases e with
  | call c op =>
    have hop : ¬Releases k (c, op) := by rintro ⟨ne, h⟩; exact he c ne (by rw [show op = _ from h])
    simp only [step] at h
    split at h
    · cases h
      exact ⟨⟨hl, fun x hx => by cases hx; exact hop, hq, hp⟩, fun _ => ⟨(fun h => nomatch h), (fun h => nomatch h)⟩⟩
    · cases h
      refine ⟨⟨hl, ho, fun x hx => ?_, hp⟩, fun _ => ⟨(fun h => nomatch h), (fun h => nomatch h)⟩⟩
      rcases List.mem_append.1 hx with hx | hx
      · exact hq x hx
      · rw [List.mem_singleton.1 hx]; exact hop
  | run =>
    simp only [step] at h
    split at h
    · cases h
    · rename_i c k' hw
      split at h
      · cases h
        refine ⟨stuck_releaseCond hl hq (fun x hx => ?_), fun _ => ⟨(fun h => nomatch h), (fun h => nomatch h)⟩⟩
        rcases List.mem_append.1 hx with hx | hx
        · exact hp x hx
        · rw [List.mem_singleton.1 hx]; rintro ⟨ne, h⟩; cases h
      · rename_i hk
        cases h
        have hne : k' ≠ k := fun h => hk (h ▸ hl)
        refine ⟨stuck_releaseCond (by simp [set, hl]) hq hp, fun d => ⟨fun h => ?_, (fun h => nomatch h)⟩⟩
        cases h; exact hne rfl
    · rename_i c k' ne hw
      have hne : k' ≠ k := fun h => ho _ hw ⟨ne, by rw [h]⟩
      split at h
      · cases h
        refine ⟨stuck_releaseCond (by simp [set, hl, Ne.symm hne]) (fun x hx => ?_) (fun _ h => nomatch h), fun _ => ⟨(fun h => nomatch h), (fun h => nomatch h)⟩⟩
        rcases List.mem_append.1 hx with hx | hx
        · exact hq x hx
        · exact hp x hx
      · cases h
        exact ⟨stuck_releaseCond hl hq hp, fun _ => ⟨(fun h => nomatch h), (fun h => nomatch h)⟩⟩
    · cases h
      exact ⟨stuck_releaseCond hl hq hp, fun _ => ⟨(fun h => nomatch h), (fun h => nomatch h)⟩⟩
  | nowait k' =>
    simp only [step] at h
    split at h
    · cases h
      exact ⟨⟨hl, ho, hq, hp⟩, fun _ => ⟨(fun h => nomatch h), (fun h => nomatch h)⟩⟩
    · split at h
      · cases h
        exact ⟨⟨hl, ho, hq, hp⟩, fun _ => ⟨(fun h => nomatch h), (fun h => nomatch h)⟩⟩
      · rename_i hk
        cases h
        refine ⟨⟨by simp [set, hl], ho, hq, hp⟩, fun d => ⟨(fun h => nomatch h), fun h => ?_⟩⟩
        cases h; exact hk hl
  | cancel c =>
    simp only [step] at h
    have hab : ¬Releases k ((c, .abort) : Nat × Op K) := by rintro ⟨ne, h⟩; cases h
    split at h
    · split at h
      · cases h
        exact ⟨⟨hl, fun x hx => by cases hx; exact hab, hq, fun x hx => hp x (List.mem_filter.1 hx).1⟩, fun _ => ⟨(fun h => nomatch h), (fun h => nomatch h)⟩⟩
      · cases h
        refine ⟨⟨hl, ho, fun x hx => ?_, fun x hx => hp x (List.mem_filter.1 hx).1⟩, fun _ => ⟨(fun h => nomatch h), (fun h => nomatch h)⟩⟩
        rcases List.mem_append.1 hx with hx | hx
        · exact hq x hx
        · rw [List.mem_singleton.1 hx]; exact hab
    · split at h
      · cases h
        exact ⟨⟨hl, ho, fun x hx => hq x (List.mem_filter.1 hx).1, hp⟩, fun _ => ⟨(fun h => nomatch h), (fun h => nomatch h)⟩⟩
      · cases h

theorem stuck_exec {k : K} (es : List (Ev K)) : ∀ {s s' : State K} {os : List (Out K)}, Stuck k s → (∀ e ∈ es, ∀ c ne, e ≠ .call c (.release k ne)) → exec s es = some (s', os) →
    s'.keys k = true ∧ ∀ o ∈ os, ∀ c, o ≠ .acquired c k ∧ o ≠ .nowait k true := by
  induction es with
  | nil => intro s s' os hs _ h; cases h; exact ⟨hs.locked, fun o ho => nomatch ho⟩
  | cons e es ih =>
    intro s s' os hs he h
    unfold exec at h
    split at h
    · cases h
    · rename_i s1 o1 h1
      split at h
      · cases h
      · rename_i s2 os2 h2
        cases h
        obtain ⟨a, b⟩ := stuck_step hs (he e List.mem_cons_self) h1
        obtain ⟨c, d⟩ := ih a (fun x hx => he x (List.mem_cons_of_mem _ hx)) h2
        refine ⟨c, fun o ho => ?_⟩
        rcases List.mem_cons.1 ho with rfl | ho
        · exact b
        · exact d o ho

/-- A cancelled call never gets or frees a key. -/
theorem C07_cancel_frame {s s' : State K} {c : Nat} {o : Out K} (h : step s (.cancel c) = some (s', o)) : s'.keys = s.keys ∧ o = .none ∧ ∀ op, op ≠ .abort → (c, op) ∉ s'.parked ∧ ((c, op) ∈ s'.queue → (c, op) ∈ s.queue) := by
  simp only [step] at h
  split at h
  · split at h
    · cases h
      exact ⟨rfl, rfl, fun op _ => ⟨fun hm => by simp at hm, id⟩⟩
    · cases h
      refine ⟨rfl, rfl, fun op hne => ⟨fun hm => by simp at hm, fun hm => ?_⟩⟩
      rcases List.mem_append.1 hm with hm | hm
      · exact hm
      · exact absurd (congrArg Prod.snd (List.mem_singleton.1 hm)) hne
  · split at h
    · rename_i hn _
      cases h
      refine ⟨rfl, rfl, fun op _ => ⟨fun hm => hn (List.any_eq_true.2 ⟨_, hm, by simp⟩), fun hm => (List.mem_filter.1 hm).1⟩⟩
    · cases h

theorem stuck_of_idle {k : K} {s : State K} (hk : s.keys k = true) (ho : s.owner = none) (hq : s.queue = []) (hp : s.parked = []) : Stuck k s :=
  ⟨hk, (by intro x hx; rw [ho] at hx; cases hx), (by intro x hx; rw [hq] at hx; cases hx), (by intro x hx; rw [hp] at hx; cases hx)⟩

/-- **Violation.** If a `release` is cancelled while it waits for the lock of the table, the key stays locked: whatever happens afterwards, no `acquire` of this key returns, unless
somebody releases it a second time. -/
theorem C07_cancelled_release : ∃ (es : List (Ev Nat)) (s : State Nat) (os : List (Out Nat)), exec init es = some (s, os) ∧ .acquired 0 1 ∈ os ∧ .call 0 (.release 1 false) ∈ es ∧
    s.owner = none ∧ s.queue = [] ∧ s.parked = [] ∧
    ∀ es' s' os', (∀ e ∈ es', ∀ c ne, e ≠ .call c (.release 1 ne)) → exec s es' = some (s', os') → s'.keys 1 = true ∧ ∀ o ∈ os', ∀ c, o ≠ .acquired c 1 := by
  refine ⟨[.call 0 (.acquire 1), .run, .call 1 (.acquire 2), .call 0 (.release 1 false), .cancel 0, .run], _, _, rfl, by decide, by decide, rfl, rfl, rfl, ?_⟩
  intro es' s' os' he h
  obtain ⟨a, b⟩ := stuck_exec (k := 1) es' (stuck_of_idle rfl rfl rfl rfl) he h
  exact ⟨a, fun o ho c => (b o ho c).1⟩

/-- Two tasks compete for a key, one is woken by the release. -/
example : (exec (init : State Nat) [.call 0 (.acquire 1), .run, .call 1 (.acquire 1), .run,
    .call 0 (.release 1 false), .run, .run]).map (·.2) =
    some [.none, .acquired 0 1, .none, .none, .none, .released 0 1 true, .acquired 1 1] := by decide

end Verif.Sync.MultiLock
