/-
C47: `ParallelPipeline` (common.py:426-484), a producer and several consumers joined by a trio memory channel.
-/
namespace Verif.Sync.Pipeline

/-! #### Model -/

/-- A consumer task: waiting for a work unit, working on one, or ended. -/
inductive Worker (T : Type) where
  | idle
  | busy (x : T)
  | ended

variable {T : Type}

def Worker.isEnded : Worker T → Bool
  | .ended => true
  | _ => false

def Worker.work : Worker T → List T
  | .busy x => [x]
  | _ => []

/-- State of `run` (common.py:451-480) after `produce` has returned.  `todo`: the rest of the iterable.  `chan`: the buffer
of the channel, and behind it the item of a `send` that waits.  `closed`: the send channel is closed.  `received`: work
units in the order in which consumers got them.  `done`: work units for which the body of the loop in `consume` was
completed.  `lost`: work units whose consumer raised an exception.  `failed`: the nursery will raise an exception. -/
structure St (T : Type) where
  todo : List T
  chan : List T
  closed : Bool
  workers : List (Worker T)
  received : List T
  done : List T
  lost : List T
  failed : Bool

/-- What happens next.  `crash`: the iterable raises an exception, or the orchestrator is cancelled. -/
inductive Ev where
  | send | close | crash | broken
  | recv (i : Nat) | finish (i : Nat) | fail (i : Nat) | eof (i : Nat)

/-- Number of workers that are spawned (common.py:458-460). -/
def spawned (sized : Bool) (n : Nat) (jobs : List T) : Nat := if sized then min n jobs.length else n

def init (sized : Bool) (n : Nat) (jobs : List T) : St T :=
  { todo := jobs, chan := [], closed := false, workers := List.replicate (spawned sized n jobs) .idle, received := [], done := [], lost := [], failed := false }

/-- One event, with a channel of buffer size `b`; `none` if it cannot happen.  `endsOk`: the iterable ends without an
exception.
* `send` (common.py:472-477): the next item goes into the channel.  A `send` that finds the buffer full waits, hence no more
  items are produced until the consumers have taken one.  Handing an item directly to a waiting consumer is a `send` and a
  `recv`.
* `broken`: all receive channels are closed; trio raises `BrokenResourceError` in `send`.
* `close`: the end of `async with send_chan` (common.py:471).
* `recv`, `eof`: the next item of `async for` in `consume`, or its end.
* `finish`, `fail`: the body of the loop ends, or raises an exception, which closes the receive channel of this worker and
  makes the nursery cancel the other tasks.  They may still complete steps. -/
def step (b : Nat) (endsOk : Bool) (s : St T) : Ev → Option (St T)
  | .send =>
    match s.todo with
    | [] => none
    | x :: t =>
      if s.closed ∨ s.workers.all Worker.isEnded ∨ b < s.chan.length then none
      else some { s with todo := t, chan := s.chan ++ [x] }
  | .broken =>
    if s.closed = false ∧ s.workers.all Worker.isEnded ∧ (s.todo ≠ [] ∨ b < s.chan.length) then some { s with closed := true, failed := true }
    else none
  | .close =>
    match s.todo with
    | [] => if s.closed ∨ b < s.chan.length ∨ !endsOk then none else some { s with closed := true }
    | _ => none
  | .crash => if s.closed then none else some { s with closed := true, failed := true }
  | .recv i =>
    match s.workers[i]?, s.chan with
    | some .idle, x :: t => some { s with chan := t, workers := s.workers.set i (.busy x), received := s.received ++ [x] }
    | _, _ => none
  | .finish i =>
    match s.workers[i]? with
    | some (.busy x) => some { s with workers := s.workers.set i .idle, done := s.done ++ [x] }
    | _ => none
  | .fail i =>
    match s.workers[i]? with
    | some (.busy x) => some { s with workers := s.workers.set i .ended, lost := s.lost ++ [x], failed := true }
    | _ => none
  | .eof i =>
    match s.workers[i]?, s.chan with
    | some .idle, [] => if s.closed then some { s with workers := s.workers.set i .ended } else none
    | _, _ => none

/-- States that a run can reach, with the events so far. -/
inductive Run (b : Nat) (endsOk : Bool) (s0 : St T) : List Ev → St T → Prop where
  | nil : Run b endsOk s0 [] s0
  | step {es : List Ev} {s s' : St T} (ev : Ev) : Run b endsOk s0 es s → step b endsOk s ev = some s' → Run b endsOk s0 (es ++ [ev]) s'

/-- `run` has returned: the orchestrator and all workers have ended, and no exception is raised. -/
def Returned (s : St T) : Prop := s.closed = true ∧ (∀ w ∈ s.workers, w.isEnded = true) ∧ s.failed = false

/-! #### Lemmas -/

theorem flatMap_set {l : List (Worker T)} {i : Nat} {w v : Worker T} (h : l[i]? = some w) :
    (v.work ++ l.flatMap Worker.work).Perm (w.work ++ (l.set i v).flatMap Worker.work) := by
  induction l generalizing i with
  | nil => cases h
  | cons a t ih =>
    cases i with
    | zero =>
      cases h
      simp only [List.set_cons_zero, List.flatMap_cons]
      rw [← List.append_assoc, ← List.append_assoc]
      exact List.Perm.append_right _ List.perm_append_comm
    | succ n =>
      simp only [List.set_cons_succ, List.flatMap_cons]
      have := ih (by simpa using h)
      refine List.Perm.trans ?_ (List.Perm.trans (List.Perm.append_left a.work this) ?_)
      · rw [← List.append_assoc, ← List.append_assoc]
        exact List.Perm.append_right _ List.perm_append_comm
      · rw [← List.append_assoc, ← List.append_assoc]
        exact List.Perm.append_right _ List.perm_append_comm

structure Inv (b : Nat) (endsOk : Bool) (jobs : List T) (s : St T) : Prop where
  order : s.received ++ s.chan ++ s.todo = jobs
  perm : (s.done ++ s.workers.flatMap Worker.work ++ s.lost).Perm s.received
  ended : s.failed = false → ∀ w ∈ s.workers, w.isEnded = true → s.closed = true ∧ s.chan = []
  closed : s.failed = false → s.closed = true → s.todo = [] ∧ endsOk = true
  empty : s.workers = [] → s.chan = []
  lost : s.failed = false → s.lost = []
  bound : s.chan.length ≤ b + 1

theorem inv_init (b : Nat) (endsOk sized : Bool) (n : Nat) (jobs : List T) : Inv b endsOk jobs (init sized n jobs) := by
  refine ⟨rfl, ?_, ?_, (fun _ h => by cases h), fun _ => rfl, fun _ => rfl, Nat.zero_le _⟩
  · have : (List.replicate (spawned sized n jobs) (Worker.idle : Worker T)).flatMap Worker.work = [] := by
      rw [List.flatMap_eq_nil_iff]
      intro w hw
      rw [(List.mem_replicate.1 hw).2]; rfl
    show List.Perm (([] : List T) ++ (List.replicate (spawned sized n jobs) (Worker.idle : Worker T)).flatMap Worker.work ++ []) []
    rw [this]
    exact List.Perm.refl _
  · intro _ w hw he
    rw [(List.mem_replicate.1 hw).2] at he
    cases he

theorem mem_set_or {l : List (Worker T)} {i : Nat} {v w : Worker T} (h : w ∈ l.set i v) : w = v ∨ w ∈ l := by
  rcases List.mem_or_eq_of_mem_set h with h | h
  · exact Or.inr h
  · exact Or.inl h

theorem inv_step {b : Nat} {endsOk : Bool} {jobs : List T} {s s' : St T} {ev : Ev} (h : Inv b endsOk jobs s)
    (hs : step b endsOk s ev = some s') : Inv b endsOk jobs s' := by
  cases ev with
  | send =>
    simp only [step] at hs
    split at hs
    · cases hs
    · rename_i x t ht
      split at hs
      · cases hs
      · rename_i hc
        cases hs
        have hc1 : s.closed = false := by
          cases hcl : s.closed
          · rfl
          · exact absurd (Or.inl hcl) hc
        refine ⟨?_, h.perm, ?_, ?_, ?_, h.lost, ?_⟩
        · rw [← h.order, ht]; simp
        · intro hf w hw he
          have := (h.ended hf w hw he).1
          rw [hc1] at this; cases this
        · intro _ hcl
          dsimp only at hcl
          rw [hc1] at hcl; cases hcl
        · intro hw
          exact absurd (Or.inr (Or.inl (by dsimp only at hw; rw [hw]; rfl))) hc
        · have : ¬ b < s.chan.length := fun hb => hc (Or.inr (Or.inr hb))
          dsimp only
          rw [List.length_append]
          simp only [List.length_cons, List.length_nil]
          omega
  | broken =>
    simp only [step] at hs
    split at hs
    · cases hs
      exact ⟨h.order, h.perm, (fun hf => by cases hf), (fun hf => by cases hf), h.empty, (fun hf => by cases hf), h.bound⟩
    · cases hs
  | close =>
    simp only [step] at hs
    split at hs
    · rename_i ht
      split at hs
      · cases hs
      · rename_i hc
        cases hs
        refine ⟨h.order, h.perm, ?_, ?_, h.empty, h.lost, h.bound⟩
        · intro hf w hw he; exact ⟨rfl, (h.ended hf w hw he).2⟩
        · intro _ _
          refine ⟨ht, ?_⟩
          cases endsOk
          · exact absurd (Or.inr (Or.inr rfl)) hc
          · rfl
    · cases hs
  | crash =>
    simp only [step] at hs
    split at hs
    · cases hs
    · cases hs
      exact ⟨h.order, h.perm, (fun hf => by cases hf), (fun hf => by cases hf), h.empty, (fun hf => by cases hf), h.bound⟩
  | recv i =>
    simp only [step] at hs
    split at hs
    · rename_i x t hw hc
      cases hs
      have hp := flatMap_set (v := Worker.busy x) hw
      refine ⟨?_, ?_, ?_, h.closed, ?_, h.lost, ?_⟩
      · rw [← h.order, hc]; simp
      · have hp' : (x :: s.workers.flatMap Worker.work).Perm ((s.workers.set i (.busy x)).flatMap Worker.work) := hp
        dsimp only
        refine (List.Perm.append_right s.lost (List.Perm.append_left s.done hp'.symm)).trans ?_
        have e : (s.done ++ x :: s.workers.flatMap Worker.work ++ s.lost).Perm (x :: (s.done ++ s.workers.flatMap Worker.work ++ s.lost)) := by
          simp only [List.append_assoc, List.cons_append]
          exact List.perm_middle
        refine e.trans ?_
        refine (List.Perm.cons x h.perm).trans ?_
        exact (List.perm_append_singleton x s.received).symm
      · intro hf w hm he
        rcases mem_set_or hm with rfl | hm
        · cases he
        · have := (h.ended hf w hm he).2
          rw [hc] at this; cases this
      · intro hn
        have hl := congrArg List.length hn
        simp only [List.length_set, List.length_nil] at hl
        rw [List.length_eq_zero_iff.1 hl] at hw
        cases hw
      · have := h.bound
        rw [hc] at this
        simp only [List.length_cons] at this
        dsimp only; omega
    · cases hs
  | finish i =>
    simp only [step] at hs
    split at hs
    · rename_i x hw
      cases hs
      have hp := flatMap_set (v := Worker.idle) hw
      refine ⟨h.order, ?_, ?_, h.closed, ?_, h.lost, h.bound⟩
      · dsimp only
        have hp' : (s.workers.flatMap Worker.work).Perm (x :: (s.workers.set i .idle).flatMap Worker.work) := hp
        refine List.Perm.trans ?_ h.perm
        refine List.Perm.trans ?_ (List.Perm.append_right s.lost (List.Perm.append_left s.done hp'.symm))
        simp only [List.append_assoc, List.cons_append, List.nil_append]
        exact List.Perm.refl _
      · intro hf w hm he
        rcases mem_set_or hm with rfl | hm
        · cases he
        · exact h.ended hf w hm he
      · intro hn
        have hl := congrArg List.length hn
        simp only [List.length_set, List.length_nil] at hl
        exact h.empty (List.length_eq_zero_iff.1 hl)
    · cases hs
  | fail i =>
    simp only [step] at hs
    split at hs
    · rename_i x hw
      cases hs
      have hp := flatMap_set (v := Worker.ended) hw
      refine ⟨h.order, ?_, (fun hf => by cases hf), (fun hf => by cases hf), ?_, (fun hf => by cases hf), h.bound⟩
      · dsimp only
        have hp' : (s.workers.flatMap Worker.work).Perm (x :: (s.workers.set i .ended).flatMap Worker.work) := hp
        refine List.Perm.trans ?_ h.perm
        refine List.Perm.trans ?_ (List.Perm.append_right s.lost (List.Perm.append_left s.done hp'.symm))
        simp only [List.append_assoc, List.cons_append]
        refine List.Perm.append_left s.done ?_
        have : ((s.workers.set i .ended).flatMap Worker.work ++ (s.lost ++ [x])).Perm ([x] ++ ((s.workers.set i .ended).flatMap Worker.work ++ s.lost)) := by
          rw [← List.append_assoc]
          exact List.perm_append_comm
        exact this
      · intro hn
        have hl := congrArg List.length hn
        simp only [List.length_set, List.length_nil] at hl
        exact h.empty (List.length_eq_zero_iff.1 hl)
    · cases hs
  | eof i =>
    simp only [step] at hs
    split at hs
    · rename_i hw hc
      split at hs
      · rename_i hcl
        cases hs
        have hp := flatMap_set (v := Worker.ended) hw
        refine ⟨h.order, ?_, ?_, h.closed, fun _ => hc, h.lost, h.bound⟩
        · dsimp only
          have hp' : (s.workers.flatMap Worker.work).Perm ((s.workers.set i .ended).flatMap Worker.work) := hp
          exact (List.Perm.append_right s.lost (List.Perm.append_left s.done hp'.symm)).trans h.perm
        · intro _ _ _ _; exact ⟨hcl, hc⟩
      · cases hs
    · cases hs

theorem inv_run {b : Nat} {endsOk : Bool} {jobs : List T} {s0 s : St T} {es : List Ev} (h0 : Inv b endsOk jobs s0)
    (h : Run b endsOk s0 es s) : Inv b endsOk jobs s := by
  induction h with
  | nil => exact h0
  | step ev _ hs ih => exact inv_step ih hs

/-! #### Theorems -/

variable {b n : Nat} {endsOk sized : Bool} {jobs : List T} {es : List Ev} {s : St T}

/-- If `run` returns, then every work unit was processed exactly once, and the iterable was exhausted. -/
theorem C47_each_exactly_once (h : Run b endsOk (init sized n jobs) es s) (hr : Returned s) : s.done.Perm jobs ∧ endsOk = true := by
  have hi := inv_run (inv_init b endsOk sized n jobs) h
  obtain ⟨hc, hw, hf⟩ := hr
  have hwork : s.workers.flatMap Worker.work = [] := by
    rw [List.flatMap_eq_nil_iff]
    intro w hm
    have := hw w hm
    cases w with
    | ended => rfl
    | idle => cases this
    | busy x => cases this
  have hch : s.chan = [] := by
    cases hws : s.workers with
    | nil => exact hi.empty hws
    | cons w t =>
      have hm : w ∈ s.workers := by rw [hws]; exact List.mem_cons_self
      exact (hi.ended hf w hm (hw w hm)).2
  have hp := hi.perm
  rw [hwork, hi.lost hf] at hp
  have ho := hi.order
  rw [hch, (hi.closed hf hc).1] at ho
  simp only [List.append_nil] at hp ho
  rw [← ho]
  exact ⟨hp, (hi.closed hf hc).2⟩

/-- At any time, work units were taken in order, and each is at one place: processed, with a consumer, failed, in the
channel or not yet produced.  Hence none is processed twice, also if a consumer fails or the run is cancelled. -/
theorem C47_never_twice (h : Run b endsOk (init sized n jobs) es s) :
    s.received ++ s.chan ++ s.todo = jobs ∧ (s.done ++ s.workers.flatMap Worker.work ++ s.lost).Perm s.received :=
  ⟨(inv_run (inv_init b endsOk sized n jobs) h).order, (inv_run (inv_init b endsOk sized n jobs) h).perm⟩

/-- If a consumer or the iterable raises an exception, then `run` does not return. -/
theorem C47_error_raised (h : Run b endsOk (init sized n jobs) es s) (he : s.lost ≠ [] ∨ endsOk = false) : ¬ Returned s := by
  intro hr
  have hi := inv_run (inv_init b endsOk sized n jobs) h
  rcases he with he | he
  · exact he (hi.lost hr.2.2)
  · have := (C47_each_exactly_once h hr).2
    rw [he] at this; cases this

/-- The iterable is consumed lazily: besides what the consumers got, at most one more item than the buffer holds was
produced.  At most `n` units are processed at the same time. -/
theorem C47_bounded (h : Run b endsOk (init sized n jobs) es s) :
    s.chan.length ≤ b + 1 ∧ s.workers.length ≤ n ∧ (s.workers.flatMap Worker.work).length ≤ n := by
  have hi := inv_run (inv_init b endsOk sized n jobs) h
  have hl : s.workers.length = spawned sized n jobs := by
    induction h with
    | nil => exact List.length_replicate
    | @step es s s' ev hr hs ih =>
      have ih := ih (inv_run (inv_init b endsOk sized n jobs) hr)
      cases ev <;> simp only [step] at hs <;> (repeat' split at hs) <;> cases hs <;> first | exact ih | (simp only [List.length_set]; exact ih)
  have hn : spawned sized n jobs ≤ n := by
    unfold spawned
    split
    · exact Nat.min_le_left _ _
    · exact Nat.le_refl _
  have hw : ∀ l : List (Worker T), (l.flatMap Worker.work).length ≤ l.length := by
    intro l
    induction l with
    | nil => exact Nat.le_refl _
    | cons a t ih =>
      rw [List.flatMap_cons, List.length_append, List.length_cons]
      have : a.work.length ≤ 1 := by cases a <;> simp [Worker.work]
      omega
  refine ⟨hi.bound, by omega, ?_⟩
  have := hw s.workers
  omega

/-- Steps that are left at most. -/
def fuel (s : St T) : Nat :=
  4 * s.todo.length + 3 * s.chan.length + (s.workers.map (fun w => match w with | .idle => 1 | .busy _ => 2 | .ended => 0)).sum + (if s.closed then 0 else 1)

theorem sum_set {l : List (Worker T)} {f : Worker T → Nat} {i : Nat} {w v : Worker T} (h : l[i]? = some w) :
    ((l.set i v).map f).sum + f w = (l.map f).sum + f v := by
  induction l generalizing i with
  | nil => cases h
  | cons a t ih =>
    cases i with
    | zero =>
      cases h
      simp only [List.set_cons_zero, List.map_cons, List.sum_cons]
      omega
    | succ n =>
      simp only [List.set_cons_succ, List.map_cons, List.sum_cons]
      have := ih (by simpa using h)
      omega

theorem fuel_step {s s' : St T} {ev : Ev} (hs : step b endsOk s ev = some s') : fuel s' < fuel s := by
  cases ev with
  | send =>
    simp only [step] at hs
    split at hs
    · cases hs
    · rename_i x t ht
      split at hs
      · cases hs
      · cases hs
        unfold fuel
        rw [ht]
        simp only [List.length_cons, List.length_append, List.length_nil]
        omega
  | broken =>
    simp only [step] at hs
    split at hs
    · rename_i hc
      cases hs
      unfold fuel
      rw [hc.1]
      simp
    · cases hs
  | close =>
    simp only [step] at hs
    split at hs
    · split at hs
      · cases hs
      · rename_i hc
        cases hs
        have hc1 : s.closed = false := by
          cases hcl : s.closed
          · rfl
          · exact absurd (Or.inl hcl) hc
        unfold fuel
        rw [hc1]
        simp
    · cases hs
  | crash =>
    simp only [step] at hs
    split at hs
    · cases hs
    · rename_i hc
      cases hs
      unfold fuel
      rw [if_neg hc]
      simp
  | recv i =>
    simp only [step] at hs
    split at hs
    · rename_i x t hw hc
      cases hs
      have := sum_set (f := fun w => match w with | .idle => 1 | .busy _ => 2 | .ended => 0) (v := Worker.busy x) hw
      unfold fuel
      rw [hc]
      simp only [List.length_cons]
      dsimp only at this
      omega
    · cases hs
  | finish i =>
    simp only [step] at hs
    split at hs
    · rename_i x hw
      cases hs
      have := sum_set (f := fun w => match w with | .idle => 1 | .busy _ => 2 | .ended => 0) (v := Worker.idle) hw
      unfold fuel
      dsimp only at this ⊢
      omega
    · cases hs
  | fail i =>
    simp only [step] at hs
    split at hs
    · rename_i x hw
      cases hs
      have := sum_set (f := fun w => match w with | .idle => 1 | .busy _ => 2 | .ended => 0) (v := Worker.ended) hw
      unfold fuel
      dsimp only at this ⊢
      omega
    · cases hs
  | eof i =>
    simp only [step] at hs
    split at hs
    · rename_i hw hc
      split at hs
      · cases hs
        have := sum_set (f := fun w => match w with | .idle => 1 | .busy _ => 2 | .ended => 0) (v := Worker.ended) hw
        unfold fuel
        dsimp only at this ⊢
        omega
      · cases hs
    · cases hs

/-- No run goes on forever: the number of events is bounded, whatever the schedule. -/
theorem C47_terminates (h : Run b endsOk (init sized n jobs) es s) : es.length ≤ 4 * jobs.length + n + 1 := by
  have h0 : fuel (init sized n jobs) ≤ 4 * jobs.length + n + 1 := by
    unfold fuel init
    have hn : spawned sized n jobs ≤ n := by
      unfold spawned
      split
      · exact Nat.min_le_left _ _
      · exact Nat.le_refl _
    simp
    omega
  have : fuel s + es.length ≤ fuel (init sized n jobs) := by
    clear h0
    induction h with
    | nil => exact Nat.le_refl _
    | step ev _ hs ih =>
      have := fuel_step hs
      rw [List.length_append, List.length_singleton]
      omega
  omega

/-- The run never gets stuck: as long as it has neither failed nor returned, something can happen that is not an error, or
the iterable is about to raise its exception. -/
theorem C47_never_stuck (h : Run b endsOk (init sized n jobs) es s) (hf : s.failed = false) (hr : ¬ Returned s) (hn : 0 < n) :
    ∃ ev s', step b endsOk s ev = some s' ∧ (s'.failed = false ∨ (endsOk = false ∧ s.todo = [])) := by
  have hi := inv_run (inv_init b endsOk sized n jobs) h
  have hlen : s.workers.length = spawned sized n jobs := by
    clear hf hr hi
    induction h with
    | nil => exact List.length_replicate
    | @step es s s' ev hr hs ih =>
      cases ev <;> simp only [step] at hs <;> (repeat' split at hs) <;> cases hs <;> first | exact ih | (simp only [List.length_set]; exact ih)
  -- a worker with a work unit can finish
  by_cases hb : ∃ (i : Nat) (x : T), s.workers[i]? = some (Worker.busy x)
  · obtain ⟨i, x, hb⟩ := hb
    exact ⟨.finish i, { s with workers := s.workers.set i .idle, done := s.done ++ [x] }, by simp only [step, hb], Or.inl hf⟩
  -- a waiting worker
  by_cases hidle : ∃ i : Nat, s.workers[i]? = some .idle
  · obtain ⟨i, hi'⟩ := hidle
    cases hc : s.chan with
    | cons x t => exact ⟨.recv i, { s with chan := t, workers := s.workers.set i (.busy x), received := s.received ++ [x] }, by simp only [step, hi', hc], Or.inl hf⟩
    | nil =>
      cases hcl : s.closed with
      | true => exact ⟨.eof i, { s with workers := s.workers.set i .ended }, by simp [step, hi', hc, hcl], Or.inl hf⟩
      | false =>
        cases ht : s.todo with
        | nil =>
          cases he : endsOk with
          | true => exact ⟨.close, { s with closed := true }, by simp [step, ht, hc, hcl], Or.inl hf⟩
          | false => exact ⟨.crash, { s with closed := true, failed := true }, by simp [step, hcl], Or.inr ⟨rfl, rfl⟩⟩
        | cons x t =>
          have hne : s.workers.all Worker.isEnded = false := by
            rw [List.all_eq_false]
            exact ⟨.idle, List.mem_of_getElem? hi', by simp [Worker.isEnded]⟩
          exact ⟨.send, { s with todo := t, chan := s.chan ++ [x] }, by simp [step, ht, hc, hcl, hne], Or.inl hf⟩
  -- all workers have ended
  have hall : ∀ w ∈ s.workers, w.isEnded = true := by
    intro w hw
    obtain ⟨i, hi2⟩ := List.getElem?_of_mem hw
    cases w with
    | ended => rfl
    | idle => exact absurd ⟨i, hi2⟩ hidle
    | busy x => exact absurd ⟨i, x, hi2⟩ hb
  cases hcl : s.closed with
  | true => exact absurd ⟨hcl, hall, hf⟩ hr
  | false =>
    cases hws : s.workers with
    | cons w t =>
      have hm : w ∈ s.workers := by rw [hws]; exact List.mem_cons_self
      have := (hi.ended hf w hm (hall w hm)).1
      rw [hcl] at this; cases this
    | nil =>
      -- no workers were spawned: there are no work units
      rw [hws] at hlen
      have hj : jobs = [] := by
        unfold spawned at hlen
        split at hlen
        · cases jobs with
          | nil => rfl
          | cons a t => simp only [List.length_nil, List.length_cons] at hlen; omega
        · simp only [List.length_nil] at hlen; omega
      have ho := hi.order
      rw [hj] at ho
      have ht : s.todo = [] := (List.append_eq_nil_iff.1 ho).2
      have hc : s.chan = [] := hi.empty hws
      cases he : endsOk with
      | true => exact ⟨.close, { s with closed := true }, by simp [step, ht, hc, hcl], Or.inl hf⟩
      | false => exact ⟨.crash, { s with closed := true, failed := true }, by simp [step, hcl], Or.inr ⟨rfl, ht⟩⟩

/-! #### Concrete cases -/

def replay (b : Nat) (endsOk : Bool) (s : St Nat) : List Ev → Option (St Nat)
  | [] => some s
  | e :: t => (step b endsOk s e).bind (fun s => replay b endsOk s t)

theorem run_of_replay {b : Nat} {endsOk : Bool} {s0 : St Nat} (es : List Ev) : ∀ {es0 : List Ev} {s s' : St Nat},
    Run b endsOk s0 es0 s → replay b endsOk s es = some s' → Run b endsOk s0 (es0 ++ es) s' := by
  induction es with
  | nil => intro es0 s s' h hr; cases hr; simpa using h
  | cons e t ih =>
    intro es0 s s' h hr
    obtain ⟨s1, h1, h2⟩ := Option.bind_eq_some_iff.1 hr
    have := ih (Run.step e h h1) h2
    simpa using this

/-- Three units, two workers; the second unit is finished first. -/
def sched : List Ev := [.send, .recv 0, .send, .recv 1, .finish 1, .send, .recv 1, .close, .finish 0, .finish 1, .eof 1, .eof 0]

example : ∃ s, Run 0 true (init false 2 [5, 6, 5]) sched s ∧ Returned s ∧ s.done = [6, 5, 5] := by
  refine ⟨⟨[], [], true, [.ended, .ended], [5, 6, 5], [6, 5, 5], [], false⟩, ?_, ⟨rfl, ?_, rfl⟩, rfl⟩
  · exact run_of_replay sched (es0 := []) Run.nil rfl
  · simp [Worker.isEnded]

/-- A consumer fails. -/
example : ∃ s, Run 1 true (init true 2 [5, 6, 7]) [.send, .recv 0, .send, .send, .fail 0, .recv 1, .finish 1] s ∧ s.lost = [5] ∧ s.done = [6] ∧ s.failed = true :=
  ⟨_, run_of_replay _ (es0 := []) Run.nil rfl, rfl, rfl, rfl⟩

end Verif.Sync.Pipeline
