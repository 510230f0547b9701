/-
Properties C35 and C36: the `retry` decorator (backends/common.py:120-208) and retried downloads.
-/
namespace Verif.Backend.Retry

/-! ### `retry` -/

/-- Outcome of one attempt.  Times are in microseconds.  `temp ra e`: an exception for which `is_temp_failure` holds;
`ra` is its `retry_after` attribute if that is a number (`0` counts as absent, common.py:183).  Negative values, for
which `trio.sleep` raises, are not modelled. -/
inductive Attempt (α ε : Type) where
  | ok (v : α)
  | temp (ra : Option Nat) (e : ε)
  | perm (e : ε)

inductive Result (α ε : Type) where
  | returned (v : α)
  | raised (e : ε)
  | timeout (e : ε)
  /-- not a result of the program: the fuel of the model is used up (proved not to happen) -/
  | outOfFuel
deriving DecidableEq

/-- `RETRY_TIMEOUT` (common.py:117). -/
def timeoutUs : Nat := 86400 * 1000000
/-- first interval, `1 / 50` s (common.py:141) -/
def firstUs : Nat := 20000
/-- cap of the interval, `5 * 60` s (common.py:194) -/
def capUs : Nat := 300 * 1000000

/-- What a retried call does: its result, the number of attempts, and the nominal delays between them (the real delay
is the nominal one times a random factor between 1 and 1.5, common.py:192). -/
structure Run (α ε : Type) where
  result : Result α ε
  attempts : Nat
  delays : List Nat

/-- The interval to wait after a temporary failure (common.py:183-186). -/
def nextInterval (interval : Nat) : Option Nat → Nat
  | some (n + 1) => n + 1
  | _ => interval

/-- The loop (common.py:144-194).  `i` is the number of failed attempts so far; its positivity is `is_retry`. -/
def loop {α ε : Type} (f : Nat → Attempt α ε) : Nat → Nat → Nat → Nat → Run α ε
  | 0, i, _, _ => ⟨.outOfFuel, i, []⟩
  | fuel + 1, i, interval, waited =>
    match f i with
    | .ok v => ⟨.returned v, i + 1, []⟩
    | .perm e => ⟨.raised e, i + 1, []⟩
    | .temp ra e =>
      if timeoutUs < waited then ⟨.timeout e, i + 1, []⟩
      else
        let iv := nextInterval interval ra
        let r := loop f fuel (i + 1) (min capUs (2 * iv)) (waited + iv)
        { r with delays := iv :: r.delays }

/-- `wrapped(...)`: `f i` is the outcome of attempt `i` (attempt `i` is called with `is_retry = (i > 0)`). -/
def retry {α ε : Type} (f : Nat → Attempt α ε) : Run α ε := loop f (timeoutUs + 2) 0 firstUs 0

theorem nextInterval_pos {iv : Nat} (h : 0 < iv) (ra : Option Nat) : 0 < nextInterval iv ra := by
  unfold nextInterval; split <;> omega

/-- Specification of a run that starts with attempt `i`, having waited `w`. -/
def Good {α ε : Type} (f : Nat → Attempt α ε) (i w : Nat) (r : Run α ε) : Prop :=
  ∃ n, r.attempts = i + n + 1 ∧ r.delays.length = n ∧
    (∀ j, j < n → ∃ ra e, f (i + j) = .temp ra e) ∧
    (∀ j, j < n → w + (r.delays.take j).sum ≤ timeoutUs) ∧
    ((∃ v, f (i + n) = .ok v ∧ r.result = .returned v) ∨ (∃ e, f (i + n) = .perm e ∧ r.result = .raised e) ∨
      (∃ ra e, f (i + n) = .temp ra e ∧ r.result = .timeout e ∧ timeoutUs < w + r.delays.sum))

theorem loop_good {α ε : Type} (f : Nat → Attempt α ε) (fuel i interval waited : Nat) (hiv : 0 < interval)
    (hf : timeoutUs + 2 ≤ fuel + waited) (hfuel : 0 < fuel) : Good f i waited (loop f fuel i interval waited) := by
  induction fuel generalizing i interval waited with
  | zero => omega
  | succ fuel ih =>
    unfold loop
    cases hfi : f i with
    | ok v => exact ⟨0, rfl, rfl, fun j h => by omega, fun j h => by omega, Or.inl ⟨v, by simpa using hfi, rfl⟩⟩
    | perm e => exact ⟨0, rfl, rfl, fun j h => by omega, fun j h => by omega, Or.inr (Or.inl ⟨e, by simpa using hfi, rfl⟩)⟩
    | temp ra e =>
      dsimp only
      by_cases hw : timeoutUs < waited
      · rw [if_pos hw]
        exact ⟨0, rfl, rfl, fun j h => by omega, fun j h => by omega,
          Or.inr (Or.inr ⟨ra, e, by simpa using hfi, rfl, by simpa using hw⟩)⟩
      · rw [if_neg hw]
        have hp := nextInterval_pos hiv ra
        obtain ⟨n, h1, h2, h3, h4, h5⟩ := ih (i + 1) (min capUs (2 * nextInterval interval ra))
          (waited + nextInterval interval ra) (by unfold capUs; omega) (by omega) (by omega)
        refine ⟨n + 1, by dsimp only; omega, by simp [h2], ?_, ?_, ?_⟩
        · intro j hj
          cases j with
          | zero => exact ⟨ra, e, by simpa using hfi⟩
          | succ j =>
            obtain ⟨ra', e', he'⟩ := h3 j (by omega)
            exact ⟨ra', e', by rw [← he']; congr 1; omega⟩
        · intro j hj
          cases j with
          | zero => simp; omega
          | succ j =>
            have := h4 j (by omega)
            simp only [List.take_succ_cons, List.sum_cons]; omega
        · have he : i + (n + 1) = i + 1 + n := by omega
          rw [he]
          simp only [List.sum_cons]
          rcases h5 with ⟨v, h6, h7⟩ | ⟨e', h6, h7⟩ | ⟨ra', e', h6, h7, h8⟩
          · exact Or.inl ⟨v, h6, h7⟩
          · exact Or.inr (Or.inl ⟨e', h6, h7⟩)
          · exact Or.inr (Or.inr ⟨ra', e', h6, h7, by omega⟩)

/-- **C35.**  Whatever the attempts do, the retried call ends.  There is a number `n` of temporary failures that are
retried, each after a delay; then attempt `n` either succeeds and its result is returned, or fails permanently and that
error is raised, or fails temporarily when the delays already add up to more than the limit, and the call fails with a
timeout caused by that failure.  It never goes on once the delays exceed the limit. -/
theorem C35_retry {α ε : Type} (f : Nat → Attempt α ε) :
    ∃ n, (retry f).attempts = n + 1 ∧ (retry f).delays.length = n ∧
      (∀ j, j < n → ∃ ra e, f j = .temp ra e) ∧
      (∀ j, j < n → ((retry f).delays.take j).sum ≤ timeoutUs) ∧
      ((∃ v, f n = .ok v ∧ (retry f).result = .returned v) ∨
       (∃ e, f n = .perm e ∧ (retry f).result = .raised e) ∨
       (∃ ra e, f n = .temp ra e ∧ (retry f).result = .timeout e ∧ timeoutUs < (retry f).delays.sum)) := by
  have h := loop_good f (timeoutUs + 2) 0 firstUs 0 (by decide) (by omega) (by omega)
  obtain ⟨n, h1, h2, h3, h4, h5⟩ := h
  simp only [Nat.zero_add] at h1 h3 h4 h5
  exact ⟨n, h1, h2, h3, h4, h5⟩

theorem loop_delays {α ε : Type} (f : Nat → Attempt α ε) (fuel i interval waited : Nat) :
    ∀ d ∈ (loop f fuel i interval waited).delays, d ≤ max interval capUs ∨ ∃ j e, f j = .temp (some d) e := by
  induction fuel generalizing i interval waited with
  | zero => intro d hd; simp [loop] at hd
  | succ fuel ih =>
    intro d hd
    unfold loop at hd
    cases hfi : f i with
    | ok v => rw [hfi] at hd; cases hd
    | perm e => rw [hfi] at hd; cases hd
    | temp ra e =>
      rw [hfi] at hd
      dsimp only at hd
      split at hd
      · cases hd
      · dsimp only at hd
        rcases List.mem_cons.1 hd with hd | hd
        · subst hd
          unfold nextInterval
          split
          · next n => exact Or.inr ⟨i, e, hfi⟩
          · exact Or.inl (Nat.le_max_left _ _)
        · rcases ih _ _ _ d hd with h | h
          · left
            have : min capUs (2 * nextInterval interval ra) ≤ capUs := Nat.min_le_left _ _
            omega
          · exact Or.inr h

/-- **C35 (delays).**  Every delay is at most the cap of 300 s, or was asked for by the server. -/
theorem C35_delays_bounded {α ε : Type} (f : Nat → Attempt α ε) :
    ∀ d ∈ (retry f).delays, d ≤ capUs ∨ ∃ j e, f j = .temp (some d) e := by
  intro d hd
  rcases loop_delays f _ _ _ _ d hd with h | h
  · left
    have : max firstUs capUs = capUs := by decide
    omega
  · exact Or.inr h

theorem loop_backoff {α ε : Type} (f : Nat → Attempt α ε) (hno : ∀ j ra e, f j = .temp ra e → ra = none)
    (fuel i interval waited : Nat) (hiv : interval ≤ capUs) :
    ∀ j d, (loop f fuel i interval waited).delays[j]? = some d → d = min capUs (interval * 2 ^ j) := by
  induction fuel generalizing i interval waited with
  | zero => intro j d hd; simp [loop] at hd
  | succ fuel ih =>
    intro j d hd
    unfold loop at hd
    cases hfi : f i with
    | ok v => rw [hfi] at hd; simp at hd
    | perm e => rw [hfi] at hd; simp at hd
    | temp ra e =>
      rw [hfi] at hd
      have hra := hno i ra e hfi
      subst hra
      dsimp only at hd
      split at hd
      · simp at hd
      · dsimp only [nextInterval] at hd
        cases j with
        | zero =>
          simp only [List.getElem?_cons_zero, Option.some.injEq] at hd
          rw [← hd]; simp; omega
        | succ j =>
          simp only [List.getElem?_cons_succ] at hd
          rw [ih (i + 1) (min capUs (2 * interval)) (waited + interval) (Nat.min_le_left _ _) j d hd]
          have h2 : interval * 2 ^ (j + 1) = 2 * interval * 2 ^ j := by
            rw [Nat.pow_succ, Nat.mul_comm (2 ^ j) 2, ← Nat.mul_assoc, Nat.mul_comm interval 2]
          rw [h2]
          by_cases hc : 2 * interval ≤ capUs
          · rw [Nat.min_eq_right hc]
          · rw [Nat.min_eq_left (a := capUs) (b := 2 * interval) (by omega)]
            have h1 : capUs ≤ capUs * 2 ^ j := Nat.le_mul_of_pos_right _ (Nat.pow_pos (by omega))
            have h3 : capUs * 2 ^ j ≤ 2 * interval * 2 ^ j := Nat.mul_le_mul_right _ (by omega)
            omega

/-- **C35 (back-off).**  Without requests from the server the delays double from 20 ms up to the cap. -/
theorem C35_backoff {α ε : Type} (f : Nat → Attempt α ε) (hno : ∀ j ra e, f j = .temp ra e → ra = none) (j d : Nat)
    (h : (retry f).delays[j]? = some d) : d = min capUs (firstUs * 2 ^ j) :=
  loop_backoff f hno _ _ _ _ (by decide) j d h

/-- A server can ask for a longer delay than the cap: it is honoured. -/
theorem C35_server_delay_uncapped : (retry (fun i => if i = 0 then
    (.temp (some (3600 * 1000000)) "slow down" : Attempt Nat String) else .ok 7)).delays = [3600 * 1000000] := by
  unfold retry
  have : timeoutUs + 2 = (timeoutUs + 1) + 1 := rfl
  rw [this]
  conv => lhs; unfold loop
  have : timeoutUs + 1 = timeoutUs + 1 := rfl
  conv => lhs; unfold loop
  simp [nextInterval]

example : (loop (fun i => if i < 2 then (.temp none "x" : Attempt Nat String) else .ok 7) 5 0 firstUs 0).result =
    .returned 7 := by decide

/-! ### Retried downloads -/

/-- Overwrite `xs` with `ys` at position `pos` (file write; a gap would be filled, which does not occur here). -/
def writeAt (xs : List UInt8) (pos : Nat) (ys : List UInt8) : List UInt8 :=
  xs.take pos ++ List.replicate (pos - xs.length) 0 ++ ys ++ xs.drop (pos + ys.length)

structure File where
  data : List UInt8
  pos : Nat

/-- `conn.readinto_fh(fh)` with any chunking: the bytes that arrived are written at the current position
(http.py:762-782). -/
def File.write (f : File) (ys : List UInt8) : File := ⟨writeAt f.data f.pos ys, f.pos + ys.length⟩

/-- What happens in one attempt of `_readinto_fh`: it fails before the body, or some bytes arrive and then the
connection fails, or a whole body arrives. -/
inductive Fetch where
  | failEarly
  | failAfter (bytes : List UInt8)
  | body (bytes : List UInt8)

/-- One attempt of `_readinto_fh` in s3c.py:363-390 and swift.py:517-550: `fh.seek(off)`, then the body, then the
comparison of the digest of the received bytes with the ETag; `digest` is MD5. `true` = returned. -/
def attemptS3 (digest : List UInt8 → Nat) (etag off : Nat) (f : File) : Fetch → File × Bool
  | .failEarly => (f, false)
  | .failAfter b => ((⟨f.data, off⟩ : File).write b, false)
  | .body b => ((⟨f.data, off⟩ : File).write b, digest b == etag)

/-- One attempt of `_readinto_fh` in gs.py:437-457: no seek, no digest. -/
def attemptGs (f : File) : Fetch → File × Bool
  | .failEarly => (f, false)
  | .failAfter b => (f.write b, false)
  | .body b => (f.write b, true)

/-- The download with its retries, over the list of attempts; `none` if no attempt succeeds. -/
def download (attempt : File → Fetch → File × Bool) (f : File) : List Fetch → Option File
  | [] => none
  | a :: as =>
    match attempt f a with
    | (f', true) => some f'
    | (f', false) => download attempt f' as

/-- Number of bytes an attempt transfers. -/
def Fetch.size : Fetch → Nat
  | .failEarly => 0
  | .failAfter b => b.length
  | .body b => b.length

theorem writeAt_prefix {xs ys : List UInt8} {off : Nat} (h : off ≤ xs.length) :
    (writeAt xs off ys).take off = xs.take off ∧ (writeAt xs off ys).length = max xs.length (off + ys.length) := by
  unfold writeAt
  have h0 : off - xs.length = 0 := by omega
  rw [h0]
  constructor
  · simp [List.length_take, Nat.min_eq_left h]
  · simp only [List.replicate_zero, List.append_nil, List.length_append, List.length_take, List.length_drop]
    omega

/-- **C36 (S3-compatible and Swift backends).**  Whatever failures interrupt a download and whatever bytes arrive in
failed attempts (at most as many as the object has), when the download returns, the file holds what was before the
offset, followed by exactly the object - provided no two byte strings in question have the same digest. -/
theorem C36_download_exact (digest : List UInt8 → Nat) (obj before : List UInt8)
    (hinj : ∀ b, digest b = digest obj → b = obj) (as : List Fetch) (hsz : ∀ a ∈ as, a.size ≤ obj.length) (f : File)
    (h : download (attemptS3 digest (digest obj) before.length) ⟨before, before.length⟩ as = some f) :
    f.data = before ++ obj := by
  have key : ∀ (as : List Fetch) (g : File), g.data.take before.length = before → before.length ≤ g.data.length →
      g.data.length ≤ before.length + obj.length → (∀ a ∈ as, a.size ≤ obj.length) →
      download (attemptS3 digest (digest obj) before.length) g as = some f → f.data = before ++ obj := by
    intro as
    induction as with
    | nil => intro g _ _ _ _ h; cases h
    | cons a as ih =>
      intro g h1 h2 h3 h4 h
      have hrest : ∀ a' ∈ as, a'.size ≤ obj.length := fun a' ha' => h4 a' (by simp [ha'])
      have ha := h4 a (by simp)
      have hw : ∀ b : List UInt8, b.length ≤ obj.length →
          (writeAt g.data before.length b).take before.length = before ∧
          before.length ≤ (writeAt g.data before.length b).length ∧
          (writeAt g.data before.length b).length ≤ before.length + obj.length := by
        intro b hb
        obtain ⟨w1, w2⟩ := writeAt_prefix (ys := b) h2
        exact ⟨by rw [w1, h1], by omega, by omega⟩
      cases a with
      | failEarly => simp only [download, attemptS3] at h; exact ih g h1 h2 h3 hrest h
      | failAfter b =>
        simp only [download, attemptS3, File.write] at h
        obtain ⟨w1, w2, w3⟩ := hw b ha
        exact ih _ w1 w2 w3 hrest h
      | body b =>
        simp only [download, attemptS3, File.write] at h
        by_cases hd : digest b = digest obj
        · rw [show (digest b == digest obj) = true by simp [hd]] at h
          cases h
          have hb := hinj b hd
          subst hb
          dsimp only
          unfold writeAt
          rw [h1, show before.length - g.data.length = 0 by omega, List.drop_of_length_le (by omega)]
          simp
        · rw [show (digest b == digest obj) = false by simp [hd]] at h
          obtain ⟨w1, w2, w3⟩ := hw b ha
          exact ih _ w1 w2 w3 hrest h
  exact key as ⟨before, before.length⟩ (by simp) (Nat.le_refl _) (by simp) hsz h

/-- **C36 is false of the Google Storage backend**: it does not go back to the original offset, so an interrupted
transfer of 2 bytes followed by a complete one yields 5 bytes for an object of 3. -/
theorem C36_gs_violated : (download attemptGs ⟨[], 0⟩ [.failAfter [1, 2], .body [1, 2, 3]]).map (·.data) =
    some [1, 2, 1, 2, 3] := by decide

/-- For that backend the download is exact if no attempt fails after body bytes have arrived. -/
theorem C36_gs_exact_partial (obj before : List UInt8) (n : Nat) (as : List Fetch) (f : File)
    (h : download attemptGs ⟨before, before.length⟩ (List.replicate n .failEarly ++ .body obj :: as) = some f) :
    f.data = before ++ obj := by
  induction n with
  | zero =>
    simp only [List.replicate_zero, List.nil_append, download, attemptGs, File.write, Option.some.injEq] at h
    rw [← h]; simp [writeAt]
  | succ n ih =>
    simp only [List.replicate_succ, List.cons_append, download, attemptGs] at h
    exact ih h

example : (download (attemptS3 (fun b => b.foldl (fun a x => a * 257 + x.toNat + 1) 0) (((0 * 257 + 2) * 257 + 3) * 257 + 4) 1) ⟨[9], 1⟩
    [.failEarly, .failAfter [1, 2], .body [1, 2, 4], .body [1, 2, 3]]).map (·.data) = some [9, 1, 2, 3] := by decide

end Verif.Backend.Retry
