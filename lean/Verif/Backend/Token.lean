/-
C84, second part: access tokens of the Google Storage backend (gs.py:317-330, 525-570, 609-668).
-/
import Verif.Backend.Auth

namespace Verif.Backend.Auth.Gs

/-- Where a task is. -/
inductive Phase where
  | idle
  | wait                                      -- waits for `_refresh_lock`
  | ask                                       -- in `_get_access_token`, has the lock
  | got (b issued : Nat) (ann : Option Nat)   -- the server has issued a token and told its lifetime (`expires_in`), not yet received
  | sent (b : Nat)                            -- waits for the response of a request with this token
deriving DecidableEq

/-- What can be seen from outside, with the time. -/
inductive Obs where
  | askStart (i t : Nat)
  | issued (b t life : Nat) (ann : Option Nat)     -- by the server; really valid for `life` seconds
  | received (b issued t : Nat) (deadline : Int)
  | request (i b t : Nat)
  | rejected (i b : Nat)                           -- status 401
deriving DecidableEq

/-- `_tokens[refresh_token]` with its deadline, `_refresh_lock` (class variables, gs.py:181-182), the clock `trio.current_time()`. -/
structure St where
  phase : Nat → Phase
  owner : Option Nat
  token : Option (Nat × Int)
  now : Nat
  log : List Obs

def init : St := ⟨fun _ => .idle, none, none, 0, []⟩

inductive Ev where
  | tick
  | start (i : Nat)
  | grant (i : Nat)
  | issue (i b life : Nat) (ann : Option Nat)
  | receive (i : Nat)
  | fail (i : Nat)                 -- `_get_access_token` raises
  | reply (i : Nat) (ok : Bool)    -- `false`: status 401
deriving DecidableEq

/-- `_TOKEN_SAFETY_MARGIN`, `_TOKEN_DEFAULT_LIFETIME` (gs.py:169-175), in seconds. -/
def margin : Nat := 300
def defaultLife : Nat := 1800

/-- The token is there and its deadline is in the future (gs.py:535-537). -/
def usable (s : St) : Option Nat :=
  match s.token with
  | some (b, d) => if (s.now : Int) < d then some b else none
  | none => none

/-- One step.  Simplified: times are whole seconds; `expires_in` is a number or missing. -/
def step (s : St) : Ev → Option St
  | .tick => some { s with now := s.now + 1 }
  | .start i =>
    if s.phase i ≠ .idle then none else
    match usable s with                                    -- gs.py:535-537
    | some b => some { s with phase := upd s.phase i (.sent b), log := .request i b s.now :: s.log }
    | none => some { s with phase := upd s.phase i .wait }
  | .grant i =>
    if s.owner ≠ none ∨ s.phase i ≠ .wait then none else
    match usable s with                                    -- gs.py:539-544
    | some b => some { s with phase := upd s.phase i (.sent b), log := .request i b s.now :: s.log }
    | none => some { s with phase := upd s.phase i .ask, owner := some i, log := .askStart i s.now :: s.log }
  | .issue i b life ann =>
    if s.phase i = .ask then some { s with phase := upd s.phase i (.got b s.now ann), log := .issued b s.now life ann :: s.log } else none
  | .receive i =>
    match s.phase i with
    | .got b issued ann =>                                 -- gs.py:565-569, 542-544
      let deadline : Int := s.now + (ann.getD defaultLife : Nat) - margin
      some { s with phase := upd s.phase i (.sent b), owner := none, token := some (b, deadline), log := .request i b s.now :: .received b issued s.now deadline :: s.log }
    | _ => none
  | .fail i =>
    if s.owner = some i then some { s with phase := upd s.phase i .idle, owner := none } else none
  | .reply i ok =>
    match s.phase i with
    | .sent b =>
      if ok then some { s with phase := upd s.phase i .idle }
      else some { s with phase := upd s.phase i .idle, token := none, log := .rejected i b :: s.log }   -- gs.py:657-659, 327-330
    | _ => none

def run (s : St) : List Ev → Option St
  | [] => some s
  | e :: l => match step s e with
    | none => none
    | some s' => run s' l

/-! #### Specification -/

/-- Servers and network as the margin supposes: tokens are valid for as long as announced (30 minutes if nothing is announced) and for more
than five minutes, and the answer takes at most five minutes. -/
def Sane (l : List Obs) : Prop :=
  (∀ b t life ann, .issued b t life ann ∈ l → ann.getD 1800 ≤ life ∧ 300 < life) ∧ (∀ b issued t d, .received b issued t d ∈ l → t ≤ issued + 300)

/-- The deadline of the last token received, and whether any request was rejected since; the log has the newest entry first. -/
def lastReceived : List Obs → Option (Int × Bool)
  | [] => none
  | .received _ _ _ d :: _ => some (d, false)
  | .rejected _ _ :: l => (lastReceived l).map fun x => (x.1, true)
  | _ :: l => lastReceived l

def Asking (s : St) (i : Nat) : Prop := s.phase i = .ask ∨ ∃ b t a, s.phase i = .got b t a

/-! #### Proofs -/

structure Inv (s : St) : Prop where
  own : ∀ i, Asking s i ↔ s.owner = some i
  tnone : s.token = none → lastReceived s.log = none ∨ ∃ d, lastReceived s.log = some (d, true)
  tsome : ∀ b d, s.token = some (b, d) → lastReceived s.log = some (d, false)
  starts : ∀ (newer : List Obs) (i t : Nat) (rest : List Obs), s.log = newer ++ .askStart i t :: rest → ∀ d fl, lastReceived rest = some (d, fl) → fl = true ∨ d ≤ t
  tok : ∀ b d, s.token = some (b, d) → ∃ (life : Nat) (ann : Option Nat) (issued t : Nat), .issued b issued life ann ∈ s.log ∧ .received b issued t d ∈ s.log ∧ d = t + ((ann.getD 1800 : Nat) : Int) - 300
  got : ∀ i b t a, s.phase i = .got b t a → ∃ life, .issued b t life a ∈ s.log
  req : Sane s.log → ∀ i b t, .request i b t ∈ s.log → ∃ issued life ann, .issued b issued life ann ∈ s.log ∧ t < issued + life

theorem inv_init : Inv init := by
  refine ⟨?_, fun _ => .inl rfl, (fun _ _ h => nomatch h), ?_, (fun _ _ h => nomatch h), (fun _ _ _ _ h => nomatch h), (fun _ _ _ _ h => nomatch h)⟩
  · intro i
    refine ⟨fun h => ?_, fun h => nomatch h⟩
    rcases h with h | ⟨_, _, _, h⟩ <;> cases h
  · intro newer i t rest h
    cases newer <;> cases h

theorem own_upd {s : St} {i : Nat} {ph : Phase} (h : ∀ i, Asking s i ↔ s.owner = some i) (h1 : ¬ Asking s i)
    (h2 : ph ≠ .ask ∧ ∀ b t a, ph ≠ .got b t a) (j : Nat) : (upd s.phase i ph j = .ask ∨ ∃ b t a, upd s.phase i ph j = .got b t a) ↔ s.owner = some j := by
  by_cases e : j = i
  · subst e
    rw [upd_self]
    refine ⟨fun h => ?_, fun h' => absurd ((h j).2 h') h1⟩
    rcases h with h | ⟨b, t, a, h⟩
    · exact absurd h h2.1
    · exact absurd h (h2.2 b t a)
  · rw [upd_ne _ _ e]; exact h j

theorem own_release {s : St} {i : Nat} {ph : Phase} (h : ∀ i, Asking s i ↔ s.owner = some i) (h1 : s.owner = some i)
    (h2 : ph ≠ .ask ∧ ∀ b t a, ph ≠ .got b t a) (j : Nat) : (upd s.phase i ph j = .ask ∨ ∃ b t a, upd s.phase i ph j = .got b t a) ↔ none = some j := by
  refine ⟨fun h' => ?_, fun h => nomatch h⟩
  by_cases e : j = i
  · subst e
    rw [upd_self] at h'
    rcases h' with h' | ⟨b, t, a, h'⟩
    · exact absurd h' h2.1
    · exact absurd h' (h2.2 b t a)
  · rw [upd_ne _ _ e] at h'
    have := (h j).1 h'
    rw [h1] at this
    exact absurd (Option.some.inj this).symm e

theorem got_upd {s : St} {l : List Obs} {i : Nat} {ph : Phase} (h : ∀ i b t a, s.phase i = .got b t a → ∃ life, .issued b t life a ∈ s.log)
    (hl : ∀ x ∈ s.log, x ∈ l) (hp : ∀ b t a, ph = .got b t a → ∃ life, .issued b t life a ∈ l) (j b t : Nat) (a : Option Nat)
    (hj : upd s.phase i ph j = .got b t a) : ∃ life, .issued b t life a ∈ l := by
  by_cases e : j = i
  · subst e; rw [upd_self] at hj; exact hp b t a hj
  · rw [upd_ne _ _ e] at hj
    obtain ⟨k, hk⟩ := h j b t a hj
    exact ⟨k, hl _ hk⟩

theorem starts_cons {o : Obs} {l : List Obs} (ho : ∀ i t, o ≠ .askStart i t)
    (h : ∀ (newer : List Obs) (i t : Nat) (rest : List Obs), l = newer ++ .askStart i t :: rest → ∀ d fl, lastReceived rest = some (d, fl) → fl = true ∨ d ≤ (t : Int)) :
    ∀ (newer : List Obs) (i t : Nat) (rest : List Obs), o :: l = newer ++ .askStart i t :: rest → ∀ d fl, lastReceived rest = some (d, fl) → fl = true ∨ d ≤ t := by
  intro newer i t rest e
  cases newer with
  | nil => exact absurd (List.cons.inj e).1 (ho i t)
  | cons x d => exact h d i t rest (List.cons.inj e).2

theorem sane_tail {o : Obs} {l : List Obs} (h : Sane (o :: l)) : Sane l :=
  ⟨fun b t life ann hm => h.1 b t life ann (List.mem_cons_of_mem _ hm), fun b i t d hm => h.2 b i t d (List.mem_cons_of_mem _ hm)⟩

theorem req_cons {o : Obs} {l : List Obs} (ho : ∀ i b t, o ≠ .request i b t)
    (h : Sane l → ∀ i b t, .request i b t ∈ l → ∃ issued life ann, .issued b issued life ann ∈ l ∧ t < issued + life) :
    Sane (o :: l) → ∀ i b t, .request i b t ∈ o :: l → ∃ issued life ann, .issued b issued life ann ∈ o :: l ∧ t < issued + life := by
  intro hs i b t hm
  rcases List.mem_cons.1 hm with hm | hm
  · exact absurd hm.symm (ho i b t)
  · obtain ⟨x, y, z, h1, h2⟩ := h (sane_tail hs) i b t hm
    exact ⟨x, y, z, List.mem_cons_of_mem _ h1, h2⟩

theorem tok_mono {s : St} {l : List Obs} (hl : ∀ x ∈ s.log, x ∈ l)
    (h : ∀ b d, s.token = some (b, d) → ∃ (life : Nat) (ann : Option Nat) (issued t : Nat), .issued b issued life ann ∈ s.log ∧ .received b issued t d ∈ s.log ∧ d = t + ((ann.getD 1800 : Nat) : Int) - 300)
    (b : Nat) (d : Int) (e : s.token = some (b, d)) : ∃ (life : Nat) (ann : Option Nat) (issued t : Nat), .issued b issued life ann ∈ l ∧ .received b issued t d ∈ l ∧ d = t + ((ann.getD 1800 : Nat) : Int) - 300 := by
  obtain ⟨life, ann, issued, t, h1, h2, h3⟩ := h b d e
  exact ⟨life, ann, issued, t, hl _ h1, hl _ h2, h3⟩

theorem usable_some {s : St} {b : Nat} (h : usable s = some b) : ∃ d, s.token = some (b, d) ∧ (s.now : Int) < d := by
  unfold usable at h
  split at h
  · split at h
    · cases h; exact ⟨_, by assumption, by assumption⟩
    · cases h
  · cases h

theorem usable_none {s : St} (h : usable s = none) : s.token = none ∨ ∃ b d, s.token = some (b, d) ∧ d ≤ (s.now : Int) := by
  unfold usable at h
  split at h
  · split at h
    · cases h
    · exact .inr ⟨_, _, by assumption, by omega⟩
  · exact .inl (by assumption)

/-- Adding a request with a token that is usable. -/
theorem use_inv {s : St} {i b : Nat} (hi : Inv s) (hn : ¬ Asking s i) (hu : usable s = some b) :
    Inv { s with phase := upd s.phase i (.sent b), log := .request i b s.now :: s.log } := by
  obtain ⟨own, tnone, tsome, starts, tok, got, req⟩ := hi
  obtain ⟨d, ht, hd⟩ := usable_some hu
  refine ⟨own_upd own hn (by simp), tnone, tsome, starts_cons (by simp) starts, tok_mono (s := s) (fun _ h => List.mem_cons_of_mem _ h) tok,
    fun j b t a => got_upd got (fun _ h => List.mem_cons_of_mem _ h) (by simp) j b t a, ?_⟩
  intro hs j b' t hm
  rcases List.mem_cons.1 hm with hm | hm
  · cases hm
    obtain ⟨life, ann, issued, t, h1, h2, h3⟩ := tok b d ht
    have hs := sane_tail hs
    have s1 := (hs.1 _ _ _ _ h1).1
    have s2 := hs.2 _ _ _ _ h2
    exact ⟨issued, life, ann, List.mem_cons_of_mem _ h1, by omega⟩
  · obtain ⟨x, y, z, h1, h2⟩ := req (sane_tail hs) j b' t hm
    exact ⟨x, y, z, List.mem_cons_of_mem _ h1, h2⟩

theorem inv_step {s s' : St} {e : Ev} (hi : Inv s) (h : step s e = some s') : Inv s' := by
  have hi0 := hi
  obtain ⟨own, tnone, tsome, starts, tok, got, req⟩ := hi
  have nl : ∀ i ph, s.phase i = ph → ph ≠ .ask → (∀ b t a, ph ≠ .got b t a) → ¬ Asking s i := by
    intro i ph e h1 h2 h
    rcases h with h | ⟨b, t, a, h⟩
    · exact h1 (e ▸ h)
    · exact h2 b t a (e ▸ h)
  cases e with
  | tick => cases h; exact ⟨own, tnone, tsome, starts, tok, got, req⟩
  | start i =>
    unfold step at h
    dsimp only at h
    split at h
    · cases h
    · rename_i hp
      have hp : s.phase i = .idle := Classical.byContradiction hp
      have hn := nl i _ hp (by simp) (by simp)
      split at h
      · rename_i b hu
        cases h
        exact use_inv hi0 hn hu
      · cases h
        exact ⟨own_upd own hn (by simp), tnone, tsome, starts, tok, fun j b t a => got_upd got (fun _ h => h) (by simp) j b t a, req⟩
  | grant i =>
    unfold step at h
    dsimp only at h
    split at h
    · cases h
    · rename_i hp
      have ho : s.owner = Option.none := Classical.byContradiction fun h => hp (.inl h)
      have hp : s.phase i = .wait := Classical.byContradiction fun h => hp (.inr h)
      have hn := nl i _ hp (by simp) (by simp)
      split at h
      · rename_i b hu
        cases h
        exact use_inv hi0 hn hu
      · rename_i hu
        cases h
        refine ⟨?_, tnone, tsome, ?_, tok_mono (s := s) (fun _ h => List.mem_cons_of_mem _ h) tok, fun j b t a => got_upd got (fun _ h => List.mem_cons_of_mem _ h) (by simp) j b t a, req_cons (by simp) req⟩
        · intro j
          show (upd s.phase i .ask j = .ask ∨ ∃ b t a, upd s.phase i .ask j = .got b t a) ↔ Option.some i = Option.some j
          by_cases e : j = i
          · subst e; rw [upd_self]; exact ⟨fun _ => rfl, fun _ => .inl rfl⟩
          · rw [upd_ne _ _ e]
            refine ⟨fun h => ?_, fun h => absurd (Option.some.inj h).symm e⟩
            have := (own j).1 h
            rw [ho] at this; cases this
        · intro newer j t rest e d fl hl
          cases newer with
          | nil =>
            have e1 := (List.cons.inj e).1
            cases (List.cons.inj e).2
            cases e1
            rcases usable_none hu with h | ⟨b, d', h, hd⟩
            · rcases tnone h with h | ⟨d', h⟩
              · rw [h] at hl; cases hl
              · rw [h] at hl; cases hl; exact .inl rfl
            · rw [tsome b d' h] at hl; cases hl; exact .inr hd
          | cons x newer => exact starts newer j t rest (List.cons.inj e).2 d fl hl
  | issue i b life ann =>
    unfold step at h
    dsimp only at h
    split at h
    · rename_i hp
      have hio := (own i).1 (.inl hp)
      cases h
      refine ⟨?_, tnone, tsome, starts_cons (by simp) starts, tok_mono (s := s) (fun _ h => List.mem_cons_of_mem _ h) tok, fun j b t a => got_upd got (fun _ h => List.mem_cons_of_mem _ h) ?_ j b t a, req_cons (by simp) req⟩
      · intro j
        show (upd s.phase i (.got b s.now ann) j = .ask ∨ ∃ b' t a, upd s.phase i (.got b s.now ann) j = .got b' t a) ↔ s.owner = Option.some j
        by_cases e : j = i
        · subst e; rw [upd_self]; exact ⟨fun _ => hio, fun _ => .inr ⟨_, _, _, rfl⟩⟩
        · rw [upd_ne _ _ e]; exact own j
      · intro b' t a e
        cases e
        exact ⟨life, List.mem_cons_self ..⟩
    · cases h
  | receive i =>
    unfold step at h
    dsimp only at h
    split at h
    · rename_i b issued ann hp
      have hio := (own i).1 (.inr ⟨_, _, _, hp⟩)
      obtain ⟨life, hiss⟩ := got i b issued ann hp
      cases h
      refine ⟨own_release own hio (by simp), fun h => (nomatch h), ?_, starts_cons (by simp) (starts_cons (by simp) starts), ?_,
        fun j b t a => got_upd got (fun _ h => List.mem_cons_of_mem _ (List.mem_cons_of_mem _ h)) (by simp) j b t a, ?_⟩
      · intro b' d e; cases e; rfl
      · intro b' d e
        cases e
        exact ⟨life, ann, issued, s.now, List.mem_cons_of_mem _ (List.mem_cons_of_mem _ hiss), List.mem_cons_of_mem _ (List.mem_cons_self ..), rfl⟩
      · intro hs j b' t hm
        rcases List.mem_cons.1 hm with hm | hm
        · cases hm
          have s1 := (hs.1 b issued life ann (List.mem_cons_of_mem _ (List.mem_cons_of_mem _ hiss))).2
          have s2 := hs.2 b issued s.now _ (List.mem_cons_of_mem _ (List.mem_cons_self ..))
          exact ⟨issued, life, ann, List.mem_cons_of_mem _ (List.mem_cons_of_mem _ hiss), by omega⟩
        · obtain ⟨x, y, z, h1, h2⟩ := req_cons (by simp) req (sane_tail hs) j b' t hm
          exact ⟨x, y, z, List.mem_cons_of_mem _ h1, h2⟩
    · cases h
  | fail i =>
    unfold step at h
    dsimp only at h
    split at h
    · rename_i hp
      cases h
      exact ⟨own_release own hp (by simp), tnone, tsome, starts, tok, fun j b t a => got_upd got (fun _ h => h) (by simp) j b t a, req⟩
    · cases h
  | reply i ok =>
    unfold step at h
    dsimp only at h
    split at h
    · rename_i b hp
      have hn := nl i _ hp (by simp) (by simp)
      split at h
      · cases h
        exact ⟨own_upd own hn (by simp), tnone, tsome, starts, tok, fun j b t a => got_upd got (fun _ h => h) (by simp) j b t a, req⟩
      · cases h
        refine ⟨own_upd own hn (by simp), fun _ => ?_, (fun _ _ h => nomatch h), starts_cons (by simp) starts, (fun _ _ h => nomatch h),
          fun j b t a => got_upd got (fun _ h => List.mem_cons_of_mem _ h) (by simp) j b t a, req_cons (by simp) req⟩
        show (lastReceived s.log).map _ = Option.none ∨ ∃ d, (lastReceived s.log).map _ = Option.some (d, true)
        cases lastReceived s.log with
        | none => exact .inl rfl
        | some x => exact .inr ⟨x.1, rfl⟩
    · cases h

theorem inv_run : ∀ (l : List Ev) {s s' : St}, Inv s → run s l = some s' → Inv s' := by
  intro l
  induction l with
  | nil => intro s s' hi h; cases h; exact hi
  | cons e l ih =>
    intro s s' hi h
    unfold run at h
    split at h
    · cases h
    · rename_i s1 h1
      exact ih (inv_step hi h1) h

/-- **C84, tokens are used only while they are valid.** In every history with a sane server, a request carries a token that the server issued
and whose time is not over when the request is made. -/
theorem C84_token_valid {l : List Ev} {s : St} (h : run init l = some s) (hs : Sane s.log) {i b t : Nat} (hr : .request i b t ∈ s.log) :
    ∃ issued life ann, .issued b issued life ann ∈ s.log ∧ t < issued + life := (inv_run l inv_init h).req hs i b t hr

/-- C84: at most one task asks for a token at a time. -/
theorem C84_one_refresh {l : List Ev} {s : St} (h : run init l = some s) {i j : Nat} (hi : Asking s i) (hj : Asking s j) : i = j := by
  have inv := inv_run l inv_init h
  have := (inv.own i).1 hi
  rw [(inv.own j).1 hj] at this
  exact (Option.some.inj this).symm

/-- **C84, tokens are asked for only when needed, partial.** When a token is asked for and there was one before, then its deadline is over
or some request was rejected since it was received.  Missing: that the rejected request carried this token (`C84_late_rejection`). -/
theorem C84_refresh_needed_partial {l : List Ev} {s : St} (h : run init l = some s) {newer rest : List Obs} {i t : Nat}
    (hl : s.log = newer ++ .askStart i t :: rest) {d : Int} {fl : Bool} (hr : lastReceived rest = some (d, fl)) : fl = true ∨ d ≤ t :=
  (inv_run l inv_init h).starts newer i t rest hl d fl hr

/-- Two tasks share a token. -/
example : ((run init [.start 0, .start 1, .grant 0, .issue 0 5 3600 (some 3600), .tick, .receive 0, .grant 1, .reply 1 true]).map (·.log)) =
    some [.request 1 5 1, .request 0 5 1, .received 5 0 1 3301, .issued 5 0 3600 (some 3600), .askStart 0 0] := by decide

/-- All entries are as the margin supposes. -/
example : Sane [.request 1 5 1, .request 0 5 1, .received 5 0 1 3301, .issued 5 0 3600 (some 3600), .askStart 0 0] := by
  refine ⟨?_, ?_⟩
  · intro b t life ann h
    simp at h
    obtain ⟨-, -, rfl, rfl⟩ := h
    decide
  · intro b t life ann h
    simp at h
    omega

/-- C84 is violated by the Google Storage backend: a late rejection of the old token discards the new one.  Only token 5 is ever rejected,
but three tokens are asked for; with `n` requests under way, up to `n` (the comment in gs.py says that their number is limited). -/
theorem C84_late_rejection : ∃ l s, run init l = some s ∧ (s.log.filter fun o => match o with | .askStart .. => true | _ => false).length = 3 ∧
    (∀ i b, .rejected i b ∈ s.log → b = 5) ∧ s.now = 0 := by
  refine ⟨[.start 0, .grant 0, .issue 0 5 3600 (some 3600), .receive 0, .start 1, .reply 0 false, .start 0, .grant 0, .issue 0 6 3600 (some 3600), .receive 0, .reply 0 true,
    .reply 1 false, .start 1, .grant 1, .issue 1 7 3600 (some 3600), .receive 1], _, rfl, by decide, ?_, rfl⟩
  intro i b h
  simp [init] at h
  rcases h with ⟨-, h⟩ | ⟨-, h⟩ <;> exact h

end Verif.Backend.Auth.Gs
