import Verif.Util.AList

/-!
# Messages: at most once, at most every so often, and updated in place

`src/s3ql/logging.py`: `LogFilter`, `ConsoleHandler.emit`, the handlers of `setup_logging`, and `Logger.callHandlers` and `Handler.handle` of Python's `logging`.

Not modelled: formatting of messages (a record has its final text), threads (a record passes through all handlers before the next one), what `Log.enabled` in `Tools/Control`
describes (records are those that loggers pass on), rounding of times.
-/

namespace Verif.Tools.Messages

/-! #### Filter and handlers -/

/-- A record: `key` stands for logger, level and message without its arguments, `args` for arguments and exception; `rate` is 0 without `rate_limit`; `now` is what `time.monotonic`
returns; `text` is the formatted message. -/
structure Rec where
  key : Nat
  args : Nat
  level : Nat
  once : Bool
  rate : Nat
  last : Bool
  update : Bool
  now : Nat
  text : List Char
  deriving DecidableEq

/-- Python's `hash` of the two tuples. -/
structure Hash where
  full : Nat → Nat → Nat
  key : Nat → Nat

/-- The state of a `LogFilter` (logging.py:286-289). -/
structure Cache where
  once : List Nat
  rl : List (Nat × Nat)

def Cache.empty : Cache := ⟨[], []⟩

/-- The second half of `LogFilter.filter` (logging.py:298-307). -/
def limit (H : Hash) (c : Cache) (r : Rec) : Bool × Cache :=
  if r.rate = 0 then (true, c)
  else if (r.now : Int) - ((AL.get c.rl (H.key r.key)).getD 0 : Nat) < r.rate ∧ r.last = false then (false, c)
  else (true, { c with rl := AL.set c.rl (H.key r.key) r.now })

/-- `LogFilter.filter` (logging.py:291-307). -/
def filter (H : Hash) (c : Cache) (r : Rec) : Bool × Cache :=
  if r.once then
    if H.full r.key r.args ∈ c.once then (false, c) else limit H { c with once := H.full r.key r.args :: c.once } r
  else limit H c r

/-- `Logger.callHandlers`, `Handler.handle`: each handler (given by its level) whose level is not above that of the record asks the filter, which is the same for all
(logging.py:166-173).  The result says which handlers emit the record. -/
def call (H : Hash) : List Nat → Cache → Rec → List Bool × Cache
  | [], c, _ => ([], c)
  | l :: ls, c, r =>
    if l ≤ r.level then
      let f := filter H c r
      let g := call H ls f.2 r
      (f.1 :: g.1, g.2)
    else
      let g := call H ls c r
      (false :: g.1, g.2)

/-- All records, one after the other. -/
def run (H : Hash) (hs : List Nat) : Cache → List Rec → List (List Bool)
  | _, [] => []
  | c, r :: rs => let g := call H hs c r; g.1 :: run H hs g.2 rs

/-! #### Specification -/

/-- Whether handler `j` emitted record `i`. -/
def Emitted (H : Hash) (hs : List Nat) (rs : List Rec) (j i : Nat) : Prop := ∃ o, (run H hs Cache.empty rs)[i]? = some o ∧ o[j]? = some true

/-- No two messages have the same hash. -/
def Hash.Good (H : Hash) : Prop := (∀ a b a' b', H.full a b = H.full a' b' → a = a' ∧ b = b') ∧ (∀ a a', H.key a = H.key a' → a = a') ∧ ∀ a, H.key a ≠ 0

/-- The same message with the same arguments was to appear once, earlier, and was important enough for a handler of level `l`. -/
def OnceBefore (l : Nat) (rs : List Rec) (i : Nat) (r : Rec) : Prop := ∃ i' r', i' < i ∧ rs[i']? = some r' ∧ r'.once = true ∧ l ≤ r'.level ∧ r'.key = r.key ∧ r'.args = r.args

/-- The same message, with whatever arguments, was emitted less than `r.rate` before. -/
def Recent (H : Hash) (l : Nat) (rs : List Rec) (i : Nat) (r : Rec) : Prop :=
  ∃ i' r', i' < i ∧ rs[i']? = some r' ∧ 0 < r'.rate ∧ r'.key = r.key ∧ Emitted H [l] rs 0 i' ∧ r.now < r'.now + r.rate

/-- The clock does not go backwards, and the computer has been running for longer than any of the intervals. -/
def Clock (rs : List Rec) : Prop := (∀ (i i' : Nat) (r r' : Rec), i ≤ i' → rs[i]? = some r → rs[i']? = some r' → r.now ≤ r'.now) ∧ ∀ r ∈ rs, r.rate ≤ r.now

/-! #### Proofs -/

/-- What a single handler did with the records, and what the filter knows then. -/
def after (H : Hash) (hs : List Nat) : Cache → List Rec → Cache
  | c, [] => c
  | c, r :: rs => after H hs (call H hs c r).2 rs

theorem run_append (H : Hash) (hs : List Nat) : ∀ (rs rs' : List Rec) (c : Cache), run H hs c (rs ++ rs') = run H hs c rs ++ run H hs (after H hs c rs) rs'
  | [], _, _ => rfl
  | r :: rs, rs', c => by
    rw [List.cons_append]
    show _ :: run H hs (call H hs c r).2 (rs ++ rs') = _
    rw [run_append H hs rs rs']; rfl

theorem after_append (H : Hash) (hs : List Nat) : ∀ (rs rs' : List Rec) (c : Cache), after H hs c (rs ++ rs') = after H hs (after H hs c rs) rs'
  | [], _, _ => rfl
  | r :: rs, rs', c => after_append H hs rs rs' (call H hs c r).2

theorem run_length (H : Hash) (hs : List Nat) : ∀ (rs : List Rec) (c : Cache), (run H hs c rs).length = rs.length
  | [], _ => rfl
  | r :: rs, c => by show (run H hs _ rs).length + 1 = _; rw [run_length H hs rs]; rfl

theorem run_at (H : Hash) (hs : List Nat) (rs : List Rec) (c : Cache) (i : Nat) (r : Rec) (h : rs[i]? = some r) :
    (run H hs c rs)[i]? = some (call H hs (after H hs c (rs.take i)) r).1 := by
  induction rs generalizing c i with
  | nil => cases h
  | cons x rs ih =>
    cases i with
    | zero => cases h; rfl
    | succ i => exact ih _ i h

theorem emitted_iff {H : Hash} {hs : List Nat} {rs : List Rec} {j i : Nat} {r : Rec} (h : rs[i]? = some r) :
    Emitted H hs rs j i ↔ (call H hs (after H hs Cache.empty (rs.take i)) r).1[j]? = some true := by
  unfold Emitted
  rw [run_at H hs rs _ i r h]
  constructor
  · rintro ⟨o, h1, h2⟩; cases h1; exact h2
  · intro h; exact ⟨_, rfl, h⟩

theorem call_one (H : Hash) (l : Nat) (c : Cache) (r : Rec) : call H [l] c r = if l ≤ r.level then ([(filter H c r).1], (filter H c r).2) else ([false], c) := rfl

theorem one_iff {H : Hash} {l : Nat} {rs : List Rec} {i : Nat} {r : Rec} (h : rs[i]? = some r) :
    Emitted H [l] rs 0 i ↔ l ≤ r.level ∧ (filter H (after H [l] Cache.empty (rs.take i)) r).1 = true := by
  rw [emitted_iff h, call_one]
  split
  · rename_i hl; simp [hl]
  · rename_i hl; simp [hl]

theorem take_succ_of {rs : List Rec} {i : Nat} {r : Rec} (h : rs[i]? = some r) : rs.take (i + 1) = rs.take i ++ [r] := by
  rw [List.take_add_one, h]; rfl

theorem after_succ {H : Hash} {hs : List Nat} {rs : List Rec} {i : Nat} {r : Rec} (h : rs[i]? = some r) :
    after H hs Cache.empty (rs.take (i + 1)) = (call H hs (after H hs Cache.empty (rs.take i)) r).2 := by
  rw [take_succ_of h, after_append]; rfl

theorem limit_once (H : Hash) (c : Cache) (r : Rec) : (limit H c r).2.once = c.once := by
  unfold limit
  split
  · rfl
  · split <;> rfl

theorem filter_once (H : Hash) (c : Cache) (r : Rec) (x : Nat) : x ∈ (filter H c r).2.once ↔ x ∈ c.once ∨ (r.once = true ∧ x = H.full r.key r.args) := by
  unfold filter
  split
  · rename_i ho
    split
    · rename_i hm
      constructor
      · exact Or.inl
      · rintro (h | ⟨_, rfl⟩)
        · exact h
        · exact hm
    · rw [limit_once]
      show x ∈ H.full r.key r.args :: c.once ↔ _
      rw [List.mem_cons]
      constructor
      · rintro (h | h)
        · exact Or.inr ⟨ho, h⟩
        · exact Or.inl h
      · rintro (h | ⟨_, h⟩)
        · exact Or.inr h
        · exact Or.inl h
  · rename_i ho
    rw [limit_once]
    constructor
    · exact Or.inl
    · rintro (h | ⟨h, _⟩)
      · exact h
      · exact absurd h ho

theorem once_known {H : Hash} (l : Nat) (rs : List Rec) : ∀ (i : Nat), i ≤ rs.length → ∀ x,
    (x ∈ (after H [l] Cache.empty (rs.take i)).once ↔ ∃ i' r', i' < i ∧ rs[i']? = some r' ∧ r'.once = true ∧ l ≤ r'.level ∧ x = H.full r'.key r'.args)
  | 0, _, x => by
    rw [List.take_zero]
    show x ∈ [] ↔ _
    constructor
    · intro h; cases h
    · rintro ⟨i', _, h, _⟩; omega
  | i + 1, hi, x => by
    have hlt : i < rs.length := by omega
    have hr : rs[i]? = some rs[i] := List.getElem?_eq_getElem hlt
    have ih := once_known (H := H) l rs i (by omega) x
    rw [after_succ hr, call_one]
    have hsplit : (∃ i' r', i' < i + 1 ∧ rs[i']? = some r' ∧ r'.once = true ∧ l ≤ r'.level ∧ x = H.full r'.key r'.args) ↔
        (∃ i' r', i' < i ∧ rs[i']? = some r' ∧ r'.once = true ∧ l ≤ r'.level ∧ x = H.full r'.key r'.args) ∨ (rs[i].once = true ∧ l ≤ rs[i].level ∧ x = H.full rs[i].key rs[i].args) := by
      constructor
      · rintro ⟨i', r', h1, h2, h3⟩
        by_cases he : i' = i
        · subst he; rw [hr] at h2; cases h2; exact Or.inr h3
        · exact Or.inl ⟨i', r', by omega, h2, h3⟩
      · rintro (⟨i', r', h1, h2⟩ | h)
        · exact ⟨i', r', by omega, h2⟩
        · exact ⟨i, rs[i], by omega, hr, h⟩
    rw [hsplit, ← ih]
    split
    · rename_i hl
      show x ∈ (filter H _ _).2.once ↔ _
      rw [filter_once]
      constructor
      · rintro (h | ⟨h1, h2⟩)
        · exact Or.inl h
        · exact Or.inr ⟨h1, hl, h2⟩
      · rintro (h | ⟨h1, _, h2⟩)
        · exact Or.inl h
        · exact Or.inr ⟨h1, h2⟩
    · rename_i hl
      constructor
      · exact Or.inl
      · rintro (h | ⟨_, h, _⟩)
        · exact h
        · exact absurd h hl

/-- **C99**: messages without marks appear at every handler for which they are important enough, whatever was logged before. -/
theorem C99_unmarked (H : Hash) (hs : List Nat) (rs : List Rec) (i j l : Nat) (r : Rec) (hr : rs[i]? = some r) (ho : r.once = false) (h0 : r.rate = 0) (hj : hs[j]? = some l) :
    Emitted H hs rs j i ↔ l ≤ r.level := by
  rw [emitted_iff hr]
  generalize after H hs Cache.empty (rs.take i) = c
  have hf : ∀ c, filter H c r = (true, c) := by
    intro c; unfold filter limit; rw [ho, h0]; rfl
  induction hs generalizing j c with
  | nil => cases hj
  | cons l' hs ih =>
    unfold call
    cases j with
    | zero =>
      cases hj
      split
      · rename_i h; rw [hf]; simp [h]
      · rename_i h; simp [h]
    | succ j =>
      split
      · exact ih (j := j) hj _
      · exact ih (j := j) hj _

/-- **C99**, once: with a single handler, a message that is to appear once appears the first time that it is logged, and then never again with the same arguments. -/
theorem C99_once_partial {H : Hash} (hH : H.Good) (l : Nat) (rs : List Rec) (i : Nat) (r : Rec) (hr : rs[i]? = some r) (ho : r.once = true) (h0 : r.rate = 0) :
    Emitted H [l] rs 0 i ↔ l ≤ r.level ∧ ¬ OnceBefore l rs i r := by
  have hi : i ≤ rs.length := by
    have := (List.getElem?_eq_some_iff.1 hr).1; omega
  have hk := once_known (H := H) l rs i hi (H.full r.key r.args)
  rw [one_iff hr]
  have : (filter H (after H [l] Cache.empty (rs.take i)) r).1 = true ↔ ¬ H.full r.key r.args ∈ (after H [l] Cache.empty (rs.take i)).once := by
    unfold filter limit
    rw [ho, h0, if_pos rfl]
    split
    · rename_i h; simp [h]
    · rename_i h; simp [h]
  rw [this, hk]
  refine and_congr Iff.rfl (not_congr ?_)
  constructor
  · rintro ⟨i', r', h1, h2, h3, h4, h5⟩
    obtain ⟨h6, h7⟩ := hH.1 _ _ _ _ h5
    exact ⟨i', r', h1, h2, h3, h4, h6.symm, h7.symm⟩
  · rintro ⟨i', r', h1, h2, h3, h4, h5, h6⟩
    exact ⟨i', r', h1, h2, h3, h4, by rw [h5, h6]⟩

theorem filter_rl (H : Hash) (c : Cache) (r : Rec) : (filter H c r).2.rl = if 0 < r.rate ∧ (filter H c r).1 = true then AL.set c.rl (H.key r.key) r.now else c.rl := by
  have hl : ∀ c : Cache, (limit H c r).2.rl = if 0 < r.rate ∧ (limit H c r).1 = true then AL.set c.rl (H.key r.key) r.now else c.rl := by
    intro c
    unfold limit
    split
    · rename_i h; rw [if_neg (by omega)]
    · rename_i h
      split
      · rw [if_neg (by simp)]
      · rw [if_pos ⟨by omega, rfl⟩]
  unfold filter
  split
  · split
    · rw [if_neg (by simp)]
    · exact hl _
  · exact hl _

/-- What the filter knows about the last emission of a message. -/
theorem rl_known {H : Hash} (hH : H.Good) (l : Nat) (rs : List Rec) (hc : Clock rs) (k : Nat) : ∀ (i : Nat), i ≤ rs.length →
    (∀ t, AL.get (after H [l] Cache.empty (rs.take i)).rl (H.key k) = some t → ∃ i' r', i' < i ∧ rs[i']? = some r' ∧ 0 < r'.rate ∧ r'.key = k ∧ Emitted H [l] rs 0 i' ∧ r'.now = t) ∧
    (∀ i' r', i' < i → rs[i']? = some r' → 0 < r'.rate → r'.key = k → Emitted H [l] rs 0 i' → ∃ t, AL.get (after H [l] Cache.empty (rs.take i)).rl (H.key k) = some t ∧ r'.now ≤ t)
  | 0, _ => ⟨(fun t h => nomatch h), (fun i' _ h => by omega)⟩
  | i + 1, hi => by
    have hlt : i < rs.length := by omega
    have hr : rs[i]? = some rs[i] := List.getElem?_eq_getElem hlt
    obtain ⟨ih1, ih2⟩ := rl_known hH l rs hc k i (by omega)
    rw [after_succ hr, call_one]
    have hem := one_iff (H := H) (l := l) hr
    split
    · rename_i hl
      show (∀ t, AL.get (filter H _ _).2.rl _ = some t → _) ∧ (∀ i' r', _ → _ → _ → _ → _ → ∃ t, AL.get (filter H _ _).2.rl _ = some t ∧ _)
      rw [filter_rl]
      split
      · rename_i hs
        by_cases hk : rs[i].key = k
        · rw [hk, AL.get_set_self]
          constructor
          · intro t ht
            exact ⟨i, rs[i], by omega, hr, hs.1, hk, hem.2 ⟨hl, hs.2⟩, Option.some.inj ht⟩
          · intro i' r' h1 h2 _ _ _
            exact ⟨_, rfl, hc.1 i' i r' _ (by omega) h2 hr⟩
        · rw [AL.get_set_ne _ _ (fun e => hk (hH.2.1 _ _ e).symm)]
          constructor
          · intro t ht
            obtain ⟨i', r', h1, h2⟩ := ih1 t ht
            exact ⟨i', r', by omega, h2⟩
          · intro i' r' h1 h2 h3 h4 h5
            by_cases he : i' = i
            · subst he; rw [hr] at h2; cases h2; exact absurd h4 hk
            · exact ih2 i' r' (by omega) h2 h3 h4 h5
      · rename_i hs
        constructor
        · intro t ht
          obtain ⟨i', r', h1, h2⟩ := ih1 t ht
          exact ⟨i', r', by omega, h2⟩
        · intro i' r' h1 h2 h3 h4 h5
          by_cases he : i' = i
          · subst he; rw [hr] at h2; cases h2; exact absurd ⟨h3, (hem.1 h5).2⟩ hs
          · exact ih2 i' r' (by omega) h2 h3 h4 h5
    · rename_i hl
      constructor
      · intro t ht
        obtain ⟨i', r', h1, h2⟩ := ih1 t ht
        exact ⟨i', r', by omega, h2⟩
      · intro i' r' h1 h2 h3 h4 h5
        by_cases he : i' = i
        · subst he; exact absurd (hem.1 h5).1 hl
        · exact ih2 i' r' (by omega) h2 h3 h4 h5

/-- **C99**, limited: with a single handler, a message that is to appear at most every `rate` seconds is left out exactly if it was emitted less than that before, and it is not the last one. -/
theorem C99_limited_partial {H : Hash} (hH : H.Good) (l : Nat) (rs : List Rec) (hc : Clock rs) (i : Nat) (r : Rec) (hr : rs[i]? = some r) (ho : r.once = false) (h0 : 0 < r.rate) :
    Emitted H [l] rs 0 i ↔ l ≤ r.level ∧ (r.last = true ∨ ¬ Recent H l rs i r) := by
  have hi : i ≤ rs.length := by
    have := (List.getElem?_eq_some_iff.1 hr).1; omega
  obtain ⟨k1, k2⟩ := rl_known hH l rs hc r.key i hi
  rw [one_iff hr]
  refine and_congr Iff.rfl ?_
  have hb := hc.2 r (List.mem_of_getElem? hr)
  unfold filter limit
  rw [ho, if_neg (by simp), if_neg (by omega)]
  cases hla : r.last with
  | true => simp
  | false =>
    cases hg : AL.get (after H [l] Cache.empty (rs.take i)).rl (H.key r.key) with
    | none =>
      rw [Option.getD_none, if_neg (by omega)]
      refine ⟨fun _ => Or.inr ?_, fun _ => rfl⟩
      rintro ⟨i', r', h1, h2, h3, h4, h5, _⟩
      obtain ⟨t, h6, _⟩ := k2 i' r' h1 h2 h3 h4 h5
      rw [hg] at h6; cases h6
    | some t =>
      rw [Option.getD_some]
      have hrec : Recent H l rs i r ↔ r.now < t + r.rate := by
        constructor
        · rintro ⟨i', r', h1, h2, h3, h4, h5, h6⟩
          obtain ⟨t', h7, h8⟩ := k2 i' r' h1 h2 h3 h4 h5
          rw [hg] at h7
          have := Option.some.inj h7
          omega
        · intro h
          obtain ⟨i', r', h1, h2, h3, h4, h5, h6⟩ := k1 t hg
          exact ⟨i', r', h1, h2, h3, h4, h5, by omega⟩
      rw [hrec]
      split
      · rename_i h
        constructor
        · intro h; cases h
        · rintro (h' | h')
          · cases h'
          · omega
      · rename_i h
        exact ⟨fun _ => Or.inr (fun h' => h ⟨by omega, rfl⟩), fun _ => rfl⟩

/-! #### Two destinations -/

/-- What should hold of every destination, as for a single one. -/
def C99_statement : Prop :=
  ∀ (H : Hash), H.Good → ∀ (hs : List Nat) (rs : List Rec), Clock rs → ∀ (i j l : Nat) (r : Rec), rs[i]? = some r → hs[j]? = some l → r.once = true → r.rate = 0 →
    (Emitted H hs rs j i ↔ l ≤ r.level ∧ ¬ OnceBefore l rs i r)

/-- **Violation.** With `--log`, what is important enough for the terminal and is to appear once never gets into the log file, and what is limited gets there only if it is the last
one, whatever was logged before: the terminal comes first, and the two share the filter. -/
theorem C99_log_file_lacks {H : Hash} (l0 l1 : Nat) (rs : List Rec) (i : Nat) (r : Rec) (hr : rs[i]? = some r) (hl : l0 ≤ r.level) (hm : r.once = true ∨ (0 < r.rate ∧ r.last = false)) :
    ¬ Emitted H [l0, l1] rs 1 i := by
  rw [emitted_iff hr]
  generalize after H [l0, l1] Cache.empty (rs.take i) = c
  show ¬ (if l0 ≤ r.level then _ else _ : List Bool × Cache).1[1]? = some true
  rw [if_pos hl]
  show ¬ (call H [l1] (filter H c r).2 r).1[0]? = some true
  rw [call_one]
  have hf : (filter H (filter H c r).2 r).1 = false := by
    rcases hm with hm | ⟨h0, hla⟩
    · have := (filter_once H c r (H.full r.key r.args)).2 (Or.inr ⟨hm, rfl⟩)
      generalize (filter H c r).2 = c' at this
      unfold filter
      rw [hm, if_pos rfl, if_pos this]
    · have hlim : ∀ c', (AL.get c'.rl (H.key r.key) = some r.now ∨ (r.now : Int) - ((AL.get c'.rl (H.key r.key)).getD 0 : Nat) < r.rate) → (limit H c' r).1 = false := by
        intro c' h
        unfold limit
        rw [if_neg (by omega)]
        rcases h with h | h
        · rw [h, Option.getD_some, if_pos ⟨by omega, hla⟩]
        · rw [if_pos ⟨h, hla⟩]
      cases ho : r.once with
      | true =>
        have := (filter_once H c r (H.full r.key r.args)).2 (Or.inr ⟨ho, rfl⟩)
        generalize (filter H c r).2 = c' at this
        unfold filter
        rw [ho, if_pos rfl, if_pos this]
      | false =>
        have e : ∀ c, filter H c r = limit H c r := by intro c; unfold filter; rw [ho]; rfl
        rw [e, e]
        apply hlim
        unfold limit
        rw [if_neg (by omega)]
        split
        · rename_i h; exact Or.inr h.1
        · left; exact AL.get_set_self _ _ _
  split
  · rw [hf]; simp
  · simp

/-- A hash function without collisions. -/
def exHash : Hash := ⟨fun a b => 2 ^ a * (2 * b + 1), fun a => a + 1⟩

theorem exHash_good : exHash.Good := by
  refine ⟨?_, fun a a' e => Nat.succ.inj e, fun a => Nat.succ_ne_zero a⟩
  intro a b a' b' e
  have key : ∀ a a' b b', 2 ^ a * (2 * b + 1) = 2 ^ a' * (2 * b' + 1) → a ≤ a' → a = a' ∧ b = b' := by
    intro a a' b b' e hle
    obtain ⟨d, rfl⟩ : ∃ d, a' = a + d := ⟨a' - a, by omega⟩
    rw [Nat.pow_add, Nat.mul_assoc] at e
    have e' := Nat.eq_of_mul_eq_mul_left (Nat.pow_pos (by decide)) e
    cases d with
    | zero => rw [Nat.pow_zero, Nat.one_mul] at e'; exact ⟨rfl, by omega⟩
    | succ d =>
      rw [Nat.pow_succ, Nat.mul_comm (2 ^ d) 2, Nat.mul_assoc] at e'
      omega
  rcases Nat.le_total a a' with hle | hle
  · exact key _ _ _ _ e hle
  · have := key _ _ _ _ e.symm hle
    exact ⟨this.1.symm, this.2.symm⟩

/-- A warning that is to appear once, at the terminal (level 20) and in the log file (level 0). -/
def exWarn : Rec := ⟨1, 1, 30, true, 0, false, false, 100, "x".toList⟩

theorem C99_violated : ¬ C99_statement := by
  intro h
  have hH := exHash_good
  have hc : Clock [exWarn] := by
    refine ⟨?_, ?_⟩
    · intro i i' r r' _ h1 h2
      have := List.mem_singleton.1 (List.mem_of_getElem? h1)
      have := List.mem_singleton.1 (List.mem_of_getElem? h2)
      simp_all
    · intro r hr; rw [List.mem_singleton.1 hr]; decide
  have := (h exHash hH [20, 0] [exWarn] hc 0 1 0 exWarn rfl rfl rfl rfl).2 ⟨by decide, fun ⟨i', _, hlt, _⟩ => by omega⟩
  exact C99_log_file_lacks 20 0 [exWarn] 0 exWarn rfl (by decide) (Or.inl rfl) this

/-- Progress of a command, 300, 700, 1000 and 1400 ms after 5 s, at most once per second. -/
def exProgress : List Rec := [300, 700, 1000, 1400].map (fun t => ⟨2, t, 20, false, 1000, false, true, 5000 + t, "p".toList⟩)

/-- The first and the last of them appear. -/
example : run exHash [20] Cache.empty exProgress = [[true], [false], [false], [true]] := by decide +kernel

/-- The hypotheses of `C99_limited_partial`. -/
example : Clock exProgress := by
  refine ⟨?_, by decide⟩
  intro i i' r r' hle h1 h2
  match i, i', h1, h2 with
  | 0, 0, h1, h2 | 0, 1, h1, h2 | 0, 2, h1, h2 | 0, 3, h1, h2 | 1, 1, h1, h2 | 1, 2, h1, h2 | 1, 3, h1, h2 | 2, 2, h1, h2 | 2, 3, h1, h2 | 3, 3, h1, h2 => cases h1; cases h2; decide
  | 1, 0, _, _ | 2, 0, _, _ | 2, 1, _, _ | 3, 0, _, _ | 3, 1, _, _ | 3, 2, _, _ => omega
  | i + 4, _, h1, _ => cases h1
  | _, i' + 4, _, h2 => cases h2

/-- The restriction on the clock is needed: in the first second after the computer was started not even the first message appears. -/
theorem C99_after_boot : run exHash [20] Cache.empty [⟨2, 0, 20, false, 1000, false, true, 999, []⟩] = [[false]] := by decide +kernel

/-! #### The terminal -/

/-- What a terminal shows: `before` ends with a line break or is empty, then comes the line `cur` in which the cursor is at position `col`. -/
structure Term where
  before : List Char
  cur : List Char
  col : Nat
  deriving DecidableEq

/-- A terminal, as far as it matters here: a carriage return moves the cursor to the beginning of the line, other characters replace what is there. -/
def Term.put (t : Term) (c : Char) : Term :=
  if c = '\n' then ⟨t.before ++ t.cur ++ ['\n'], [], 0⟩
  else if c = '\r' then { t with col := 0 }
  else ⟨t.before, t.cur.take t.col ++ [c] ++ t.cur.drop (t.col + 1), t.col + 1⟩

def Term.puts (t : Term) (cs : List Char) : Term := cs.foldl Term.put t

def Term.text (t : Term) : List Char := t.before ++ t.cur

/-- `ConsoleHandler.emit` (logging.py:80-100): what is written, and `last_msg` then. -/
def emit (H : Hash) (console : Bool) (lastMsg : Option Nat) (r : Rec) : List Char × Option Nat :=
  if console && r.update then
    let start := if lastMsg = some (H.key r.key) then ['\r'] else if lastMsg.getD 0 ≠ 0 then ['\n'] else []
    if r.last then (start ++ r.text ++ ['\n'], none) else (start ++ r.text, some (H.key r.key))
  else ((if lastMsg.getD 0 ≠ 0 then ['\n'] else []) ++ r.text ++ ['\n'], if lastMsg.getD 0 ≠ 0 then none else lastMsg)

/-- All of it. -/
def emits (H : Hash) (console : Bool) : Option Nat → List Rec → List Char
  | _, [] => []
  | m, r :: rs => (emit H console m r).1 ++ emits H console (emit H console m r).2 rs

/-- Specification: what should be seen.  `fixed` are finished lines; `live` is the line that is being updated, with the message that it shows. -/
structure Screen where
  fixed : List Char
  live : Option (Nat × List Char)

/-- A message that is an update replaces (the beginning of) the line of the same message, if that is the live line; every other message is on lines of its own. -/
def Screen.show (s : Screen) (r : Rec) : Screen :=
  let closed := s.fixed ++ (match s.live with | some (_, line) => line ++ ['\n'] | none => [])
  if r.update then
    match s.live with
    | some (k, line) =>
      if k = r.key then
        let line' := r.text ++ line.drop r.text.length
        if r.last then ⟨s.fixed ++ line' ++ ['\n'], none⟩ else ⟨s.fixed, some (k, line')⟩
      else if r.last then ⟨closed ++ r.text ++ ['\n'], none⟩ else ⟨closed, some (r.key, r.text)⟩
    | none => if r.last then ⟨closed ++ r.text ++ ['\n'], none⟩ else ⟨closed, some (r.key, r.text)⟩
  else ⟨closed ++ r.text ++ ['\n'], none⟩

def Screen.text (s : Screen) : List Char := s.fixed ++ (match s.live with | some (_, line) => line | none => [])

/-- Messages that are updates have no line breaks; no message has carriage returns. -/
def Plain (r : Rec) : Prop := '\r' ∉ r.text ∧ (r.update = true → '\n' ∉ r.text)

theorem puts_append (t : Term) (a b : List Char) : t.puts (a ++ b) = (t.puts a).puts b := List.foldl_append

theorem put_char (b cur : List Char) (n : Nat) (c : Char) (h1 : c ≠ '\n') (h2 : c ≠ '\r') : (⟨b, cur, n⟩ : Term).put c = ⟨b, cur.take n ++ [c] ++ cur.drop (n + 1), n + 1⟩ := by
  unfold Term.put
  rw [if_neg h1, if_neg h2]

/-- Writing from position `p.length`, where `p` is what stands before it. -/
theorem puts_over (b : List Char) : ∀ (cs p line : List Char), '\n' ∉ cs → '\r' ∉ cs → (⟨b, p ++ line, p.length⟩ : Term).puts cs = ⟨b, p ++ cs ++ line.drop cs.length, p.length + cs.length⟩
  | [], p, line, _, _ => by simp [Term.puts]
  | c :: cs, p, line, h1, h2 => by
    show (Term.put ⟨b, p ++ line, p.length⟩ c).puts cs = _
    rw [put_char _ _ _ _ (fun e => h1 (e ▸ List.mem_cons_self)) (fun e => h2 (e ▸ List.mem_cons_self))]
    have e : (p ++ line).take p.length ++ [c] ++ (p ++ line).drop (p.length + 1) = (p ++ [c]) ++ line.drop 1 := by
      rw [List.take_left, List.drop_append]
      simp
    rw [e]
    have := puts_over b cs (p ++ [c]) (line.drop 1) (fun h => h1 (List.mem_cons_of_mem _ h)) (fun h => h2 (List.mem_cons_of_mem _ h))
    rw [List.length_append, List.length_singleton] at this
    rw [this, List.drop_drop]
    simp [Nat.add_comm, Nat.add_left_comm]

theorem puts_line (b line cs : List Char) (h1 : '\n' ∉ cs) (h2 : '\r' ∉ cs) : (⟨b, line, 0⟩ : Term).puts cs = ⟨b, cs ++ line.drop cs.length, cs.length⟩ := by
  have := puts_over b cs [] line h1 h2
  simpa using this

theorem put_newline (b cur : List Char) (n : Nat) : (⟨b, cur, n⟩ : Term).puts ['\n'] = ⟨b ++ cur ++ ['\n'], [], 0⟩ := rfl

theorem put_return (b cur : List Char) (n : Nat) : (⟨b, cur, n⟩ : Term).puts ['\r'] = ⟨b, cur, 0⟩ := rfl

/-- A text with any number of lines, from the beginning of an empty line, and a line break. -/
theorem puts_text : ∀ (cs b p : List Char), '\r' ∉ cs → (⟨b, p, p.length⟩ : Term).puts (cs ++ ['\n']) = ⟨b ++ p ++ cs ++ ['\n'], [], 0⟩
  | [], b, p, _ => by rw [List.nil_append, put_newline, List.append_nil]
  | c :: cs, b, p, h => by
    have hc : '\r' ∉ cs := fun h' => h (List.mem_cons_of_mem _ h')
    show (Term.put ⟨b, p, p.length⟩ c).puts (cs ++ ['\n']) = _
    by_cases hn : c = '\n'
    · subst hn
      show (⟨b ++ p ++ ['\n'], [], ([] : List Char).length⟩ : Term).puts (cs ++ ['\n']) = _
      rw [puts_text cs _ [] hc]
      simp
    · rw [put_char _ _ _ _ hn (fun e => h (e ▸ List.mem_cons_self))]
      have e : p.take p.length ++ [c] ++ p.drop (p.length + 1) = p ++ [c] := by simp
      rw [e]
      have := puts_text cs b (p ++ [c]) hc
      rw [List.length_append, List.length_singleton] at this
      rw [this]
      simp

/-- Terminal, `last_msg` and the specification agree. -/
def Agree (H : Hash) (t : Term) (m : Option Nat) (s : Screen) : Prop :=
  match s.live with
  | some (k, line) => m = some (H.key k) ∧ t.before = s.fixed ∧ t.cur = line
  | none => m = none ∧ t = ⟨s.fixed, [], 0⟩

theorem show_agree {H : Hash} (hH : H.Good) {t : Term} {m : Option Nat} {s : Screen} (h : Agree H t m s) (r : Rec) (hp : Plain r) :
    Agree H (t.puts (emit H true m r).1) (emit H true m r).2 (s.show r) := by
  obtain ⟨fixed, live⟩ := s
  obtain ⟨hp1, hp2⟩ := hp
  cases live with
  | none =>
    obtain ⟨rfl, rfl⟩ := h
    have hm : (none : Option Nat) = some (H.key r.key) ↔ False := by simp
    cases hu : r.update with
    | false =>
      simp only [emit, Screen.show, hu, Agree, Option.getD_none, Bool.and_false, if_false, Bool.false_eq_true, ne_eq, not_true_eq_false, List.nil_append, List.append_nil]
      refine ⟨trivial, ?_⟩
      have := puts_text r.text fixed [] hp1
      simpa using this
    | true =>
      have hn := hp2 hu
      cases hl : r.last with
      | true =>
        simp only [emit, Screen.show, hu, hl, Agree, Option.getD_none, Bool.and_true, if_true, if_false, hm, ne_eq, not_true_eq_false, List.nil_append, List.append_nil]
        refine ⟨trivial, ?_⟩
        have := puts_text r.text fixed [] hp1
        simpa using this
      | false =>
        simp only [emit, Screen.show, hu, hl, Agree, Option.getD_none, Bool.and_true, if_true, if_false, hm, ne_eq, not_true_eq_false, List.nil_append, List.append_nil, Bool.false_eq_true]
        refine ⟨trivial, ?_⟩
        rw [puts_line _ _ _ hn hp1]
        simp
  | some kl =>
    obtain ⟨k, line⟩ := kl
    obtain ⟨b, cur, col⟩ := t
    obtain ⟨rfl, h2, h3⟩ := h
    dsimp only at h2 h3
    subst h2; subst h3
    have h0 : H.key k ≠ 0 := hH.2.2 k
    cases hu : r.update with
    | false =>
      simp only [emit, Screen.show, hu, Agree, Option.getD_some, Bool.and_false, if_false, Bool.false_eq_true, ne_eq, h0, not_false_eq_true, if_true]
      refine ⟨trivial, ?_⟩
      rw [List.append_assoc, puts_append, put_newline]
      have := puts_text r.text (b ++ cur ++ ['\n']) [] hp1
      simpa using this
    | true =>
      have hn := hp2 hu
      by_cases hk : k = r.key
      · subst hk
        cases hl : r.last with
        | true =>
          simp only [emit, Screen.show, hu, hl, Agree, Bool.and_true, if_true]
          refine ⟨trivial, ?_⟩
          rw [puts_append, puts_append, put_return, puts_line _ _ _ hn hp1, put_newline]
        | false =>
          simp only [emit, Screen.show, hu, hl, Agree, Bool.and_true, if_true, if_false, Bool.false_eq_true]
          rw [puts_append, put_return, puts_line _ _ _ hn hp1]
          exact ⟨trivial, rfl, rfl⟩
      · have hk' : ¬ some (H.key k) = some (H.key r.key) := fun e => hk (hH.2.1 _ _ (Option.some.inj e))
        cases hl : r.last with
        | true =>
          simp only [emit, Screen.show, hu, hl, Agree, Bool.and_true, if_true, hk, hk', if_false, Option.getD_some, ne_eq, h0, not_false_eq_true]
          refine ⟨trivial, ?_⟩
          rw [List.append_assoc, puts_append, put_newline]
          have := puts_text r.text (b ++ cur ++ ['\n']) [] hp1
          simpa using this
        | false =>
          simp only [emit, Screen.show, hu, hl, Agree, Bool.and_true, if_true, hk, hk', if_false, Option.getD_some, ne_eq, h0, not_false_eq_true, Bool.false_eq_true]
          rw [puts_append, put_newline, puts_line _ _ _ hn hp1]
          exact ⟨trivial, by simp, by simp⟩

theorem emits_agree {H : Hash} (hH : H.Good) : ∀ (rs : List Rec) {t : Term} {m : Option Nat} {s : Screen}, Agree H t m s → (∀ r ∈ rs, Plain r) →
    (t.puts (emits H true m rs)).text = (rs.foldl Screen.show s).text
  | [], t, m, s, h, _ => by
    obtain ⟨fixed, live⟩ := s
    cases live with
    | none => obtain ⟨_, rfl⟩ := h; simp [emits, Term.puts, Term.text, Screen.text]
    | some kl =>
      obtain ⟨k, line⟩ := kl
      obtain ⟨_, h2, h3⟩ := h
      dsimp only at h2 h3
      simp [emits, Term.puts, Term.text, Screen.text, h2, h3]
  | r :: rs, t, m, s, h, hp => by
    show (t.puts ((emit H true m r).1 ++ emits H true _ rs)).text = (rs.foldl Screen.show (s.show r)).text
    rw [puts_append]
    exact emits_agree hH rs (show_agree hH h r (hp r List.mem_cons_self)) (fun x hx => hp x (List.mem_cons_of_mem _ hx))

/-- **C99**, terminal: what is seen is what should be seen. -/
theorem C99_terminal {H : Hash} (hH : H.Good) (rs : List Rec) (hp : ∀ r ∈ rs, Plain r) :
    ((⟨[], [], 0⟩ : Term).puts (emits H true none rs)).text = (rs.foldl Screen.show ⟨[], none⟩).text :=
  emits_agree hH rs (s := ⟨[], none⟩) ⟨rfl, rfl⟩ hp

theorem show_fixed (s : Screen) (r : Rec) : s.fixed <+: (s.show r).fixed := by
  unfold Screen.show
  dsimp only
  split
  · split
    · split
      · split
        · rw [List.append_assoc]; exact List.prefix_append _ _
        · exact List.prefix_refl _
      · split
        · rw [List.append_assoc, List.append_assoc]; exact List.prefix_append _ _
        · exact List.prefix_append _ _
    · split
      · rw [List.append_assoc, List.append_assoc]; exact List.prefix_append _ _
      · exact List.prefix_append _ _
  · rw [List.append_assoc, List.append_assoc]; exact List.prefix_append _ _

theorem fold_fixed : ∀ (rs : List Rec) (s : Screen), s.fixed <+: (rs.foldl Screen.show s).fixed
  | [], _ => List.prefix_refl _
  | r :: rs, s => (show_fixed s r).trans (fold_fixed rs (s.show r))

/-- **C99**, terminal: a message that is not an update stays, in full and on lines of its own, whatever follows. -/
theorem C99_terminal_keeps {H : Hash} (hH : H.Good) (rs rs' : List Rec) (r : Rec) (hp : ∀ x ∈ rs ++ r :: rs', Plain x) (hu : r.update = false) :
    ∃ above, (above = [] ∨ above.getLast? = some '\n') ∧ (above ++ r.text ++ ['\n']) <+: ((⟨[], [], 0⟩ : Term).puts (emits H true none (rs ++ r :: rs'))).text := by
  rw [C99_terminal hH _ hp, List.foldl_append]
  have hinv : ∀ (rs : List Rec) (s : Screen), (s.fixed = [] ∨ s.fixed.getLast? = some '\n') → ((rs.foldl Screen.show s).fixed = [] ∨ (rs.foldl Screen.show s).fixed.getLast? = some '\n') := by
    intro rs
    induction rs with
    | nil => exact fun s h => h
    | cons x rs ih =>
      intro s h
      refine ih _ ?_
      unfold Screen.show
      dsimp only
      cases hl : s.live with
      | none =>
        simp only [List.append_nil]
        split
        · split
          · right; simp
          · exact h
        · right; simp
      | some kl =>
        simp only
        split
        · split
          · split
            · right; simp
            · exact h
          · split
            · right; exact List.getLast?_concat
            · right; simp
        · right; exact List.getLast?_concat
  let s := rs.foldl Screen.show ⟨[], none⟩
  have hs := hinv rs ⟨[], none⟩ (Or.inl rfl)
  have hshow : (s.show r).fixed = (s.fixed ++ (match s.live with | some (_, line) => line ++ ['\n'] | none => [])) ++ r.text ++ ['\n'] := by
    unfold Screen.show
    rw [hu]
    rfl
  refine ⟨s.fixed ++ (match s.live with | some (_, line) => line ++ ['\n'] | none => []), ?_, ?_⟩
  · cases hl : s.live with
    | none => simpa using hs
    | some kl => right; simp
  · show _ <+: (rs'.foldl Screen.show (s.show r)).text
    rw [← hshow]
    exact (fold_fixed rs' _).trans (List.prefix_append _ _)

/-- **C99**, not a terminal: each message is on lines of its own, in order, with nothing else. -/
theorem C99_not_terminal (H : Hash) : ∀ (rs : List Rec), emits H false none rs = (rs.map (fun r => r.text ++ ['\n'])).flatten
  | [] => rfl
  | r :: rs => by
    show (emit H false none r).1 ++ emits H false (emit H false none r).2 rs = _
    have : emit H false none r = (r.text ++ ['\n'], none) := rfl
    rw [this]
    show _ ++ emits H false none rs = _
    rw [C99_not_terminal H rs]; rfl

/-- Two updates, a warning with two lines in between, and another update. -/
def exTerm : List Rec := [⟨2, 1, 20, false, 0, false, true, 0, "10%".toList⟩, ⟨2, 2, 20, false, 0, false, true, 0, "20%".toList⟩, ⟨3, 0, 30, false, 0, false, false, 0, "a\nb".toList⟩,
  ⟨2, 3, 20, false, 0, true, true, 0, "30%".toList⟩]

example : ((⟨[], [], 0⟩ : Term).puts (emits exHash true none exTerm)).text = "20%\na\nb\n30%\n".toList := by decide +kernel

example : ∀ r ∈ exTerm, Plain r := by unfold Plain; decide

end Verif.Tools.Messages
