/-
Property C54: `BlockCache.drop` and the configured limits (block_cache.py:886-894).
-/
namespace Verif.Sync.DropLimits

/-- Events of concurrent `drop()` calls, identified by a number. -/
inductive Ev where
  /-- `bak = max_entries; max_entries = 0`, up to the await of `evict()` (block_cache.py:890-892) -/
  | start (t : Nat)
  /-- `evict()` returned: `max_entries = bak` (block_cache.py:893) -/
  | finish (t : Nat)
  /-- `evict()` raised (e.g. an upload failed): the exception leaves `drop` at block_cache.py:892 -/
  | fail (t : Nat)
deriving DecidableEq

structure State where
  maxEntries : Nat
  bak : Nat → Option Nat

def init (limit : Nat) : State := ⟨limit, fun _ => none⟩

/-- One event; an event that cannot happen leaves the state alone. -/
def step (s : State) : Ev → State
  | .start t => match s.bak t with
    | none => { maxEntries := 0, bak := fun x => if x = t then some s.maxEntries else s.bak x }
    | some _ => s
  | .finish t => match s.bak t with
    | some b => { maxEntries := b, bak := fun x => if x = t then none else s.bak x }
    | none => s
  | .fail t => match s.bak t with
    | some _ => { s with bak := fun x => if x = t then none else s.bak x }
    | none => s

def exec (s : State) (es : List Ev) : State := es.foldl step s

/-- Histories in which calls do not overlap, or are nested, and none fails. -/
inductive Nested : List Ev → Prop
  | nil : Nested []
  | call (t : Nat) (inner rest : List Ev) : Nested inner → Nested rest →
      (∀ e ∈ inner, e ≠ .start t ∧ e ≠ .finish t ∧ e ≠ .fail t) →
      Nested (.start t :: (inner ++ .finish t :: rest))

theorem step_other {s : State} {e : Ev} {t : Nat} (h : e ≠ .start t ∧ e ≠ .finish t ∧ e ≠ .fail t) :
    (step s e).bak t = s.bak t := by
  obtain ⟨h1, h2, h3⟩ := h
  cases e with
  | start u =>
    have : t ≠ u := fun he => h1 (by rw [he])
    simp only [step]; split <;> simp [this]
  | finish u =>
    have : t ≠ u := fun he => h2 (by rw [he])
    simp only [step]; split <;> simp [this]
  | fail u =>
    have : t ≠ u := fun he => h3 (by rw [he])
    simp only [step]; split <;> simp [this]

theorem exec_other (es : List Ev) {s : State} {t : Nat}
    (h : ∀ e ∈ es, e ≠ .start t ∧ e ≠ .finish t ∧ e ≠ .fail t) : (exec s es).bak t = s.bak t := by
  induction es generalizing s with
  | nil => rfl
  | cons e es ih =>
    simp only [exec, List.foldl_cons] at ih ⊢
    rw [ih (fun e' h' => h e' (by simp [h'])), step_other (h e (by simp))]

/-- Threads named in a history are not yet running. -/
def Idle (s : State) (es : List Ev) : Prop := ∀ t, .start t ∈ es → s.bak t = none

theorem nested_exec {es : List Ev} (h : Nested es) : ∀ s : State, (∀ t, .start t ∈ es → s.bak t = none) →
    (exec s es).maxEntries = s.maxEntries ∧ ∀ t, (exec s es).bak t = s.bak t := by
  induction h with
  | nil => intro s _; exact ⟨rfl, fun _ => rfl⟩
  | call t inner rest hi hr hne ih1 ih2 =>
    intro s hs
    have ht := hs t (by simp)
    simp only [exec, List.foldl_cons, List.foldl_append]
    generalize hs1 : step s (.start t) = s1
    have h1 : s1 = { maxEntries := 0, bak := fun x => if x = t then some s.maxEntries else s.bak x } := by
      rw [← hs1]; simp only [step, ht]
    have hbi := exec_other inner (s := s1) hne
    have hi1 := ih1 s1 (by
      intro u hu
      have hut : u ≠ t := by
        rintro rfl; exact (hne _ hu).1 rfl
      rw [h1]; simp only [if_neg hut]
      exact hs u (by simp [hu]))
    simp only [exec] at hbi hi1
    generalize List.foldl step s1 inner = s2 at *
    have hb2 : s2.bak t = some s.maxEntries := by rw [hbi, h1]; simp
    have h3 : step s2 (.finish t) = { maxEntries := s.maxEntries, bak := fun x => if x = t then none else s2.bak x } := by
      simp only [step, hb2]
    have hbak : ∀ u, (step s2 (.finish t)).bak u = s.bak u := by
      intro u
      rw [h3]
      dsimp only
      by_cases hu : u = t
      · rw [if_pos hu, hu, ht]
      · rw [if_neg hu, hi1.2 u, h1]; simp [hu]
    obtain ⟨h4, h5⟩ := ih2 (step s2 (.finish t)) (by
      intro u hu; rw [hbak]; exact hs u (by simp [hu]))
    simp only [exec] at h4 h5
    exact ⟨by rw [h4, h3], fun u => by rw [h5, hbak]⟩

/-- **C54 (partial).**  If no two `drop()` calls overlap except by nesting and none fails, the limit is afterwards what
it was before.  Missing: arbitrary overlap and failures, for which it is false (below). -/
theorem C54_limit_restored_partial (limit : Nat) (es : List Ev) (h : Nested es) :
    (exec (init limit) es).maxEntries = limit :=
  (nested_exec h (init limit) (fun _ _ => rfl)).1

/-- While any `drop()` has been started, the limit only ever takes the configured value or 0. -/
theorem C54_limit_values (limit : Nat) (es : List Ev) :
    ((exec (init limit) es).maxEntries = limit ∨ (exec (init limit) es).maxEntries = 0) := by
  have : ∀ es (s : State), (s.maxEntries = limit ∨ s.maxEntries = 0) →
      (∀ t b, s.bak t = some b → b = limit ∨ b = 0) →
      ((exec s es).maxEntries = limit ∨ (exec s es).maxEntries = 0) := by
    intro es
    induction es with
    | nil => intro s h _; exact h
    | cons e es ih =>
      intro s h hb
      simp only [exec, List.foldl_cons] at ih ⊢
      apply ih
      · cases e with
        | start t => simp only [step]; split; exact Or.inr rfl; exact h
        | finish t =>
          simp only [step]; split
          · next b hbt => exact hb t b hbt
          · exact h
        | fail t => simp only [step]; split <;> exact h
      · intro t b hbt
        cases e with
        | start u =>
          simp only [step] at hbt; split at hbt
          · dsimp only at hbt; split at hbt
            · cases hbt; exact h
            · exact hb t b hbt
          · exact hb t b hbt
        | finish u =>
          simp only [step] at hbt; split at hbt
          · dsimp only at hbt; split at hbt
            · cases hbt
            · exact hb t b hbt
          · exact hb t b hbt
        | fail u =>
          simp only [step] at hbt; split at hbt
          · dsimp only at hbt; split at hbt
            · cases hbt
            · exact hb t b hbt
          · exact hb t b hbt
  exact this es (init limit) (Or.inl rfl) (fun t b h => by cases h)

/-- **C54 is false of the code** when two `drop()` calls overlap: the second saves the 0 that the first has set, and
restores it last.  From then on the cache may hold no entry at all. -/
theorem C54_violated_by_overlap : ∀ limit,
    (exec (init limit) [.start 1, .start 2, .finish 1, .finish 2]).maxEntries = 0 := by
  intro limit; rfl

/-- **C54 is false of the code** when the eviction inside `drop()` raises (there is no `try … finally`). -/
theorem C54_violated_by_failure : ∀ limit, (exec (init limit) [.start 1, .fail 1]).maxEntries = 0 := by
  intro limit; rfl

example : Nested [.start 1, .start 2, .finish 2, .finish 1, .start 3, .finish 3] := by
  have h3 : Nested [.start 3, .finish 3] := .call 3 [] [] .nil .nil (by simp)
  have h2 : Nested [.start 2, .finish 2] := .call 2 [] [] .nil .nil (by simp)
  exact .call 1 [.start 2, .finish 2] [.start 3, .finish 3] h2 h3 (by simp)

end Verif.Sync.DropLimits
