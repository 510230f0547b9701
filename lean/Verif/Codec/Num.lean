/-
Decimal and hexadecimal number formats (`%d`, `%03d`, `%012x`, `int(s, base=16)`), and their inverses.
-/
namespace Verif.Codec

/-- Digits of `n` in base `b + 2`, most significant first; `0` is written `[0]`. -/
def digits (b n : Nat) : List Nat :=
  if n < b + 2 then [n] else digits b (n / (b + 2)) ++ [n % (b + 2)]
termination_by n
decreasing_by exact Nat.div_lt_self (by omega) (by omega)

/-- Value of a digit list in base `b + 2`. -/
def ofDigits (b : Nat) (l : List Nat) : Nat := l.foldl (fun a d => a * (b + 2) + d) 0

theorem ofDigits_snoc (b : Nat) (l : List Nat) (d : Nat) :
    ofDigits b (l ++ [d]) = ofDigits b l * (b + 2) + d := by
  unfold ofDigits; rw [List.foldl_append]; rfl

theorem ofDigits_digits (b n : Nat) : ofDigits b (digits b n) = n := by
  fun_induction digits b n with
  | case1 n h => simp [ofDigits]
  | case2 n h ih => rw [ofDigits_snoc, ih, Nat.mul_comm]; exact Nat.div_add_mod n (b + 2)

theorem digits_inj (b m n : Nat) (h : digits b m = digits b n) : m = n := by
  rw [← ofDigits_digits b m, h, ofDigits_digits]

theorem digits_lt (b n : Nat) : ∀ d ∈ digits b n, d < b + 2 := by
  fun_induction digits b n with
  | case1 n h => intro d hd; rw [List.mem_singleton] at hd; omega
  | case2 n h ih =>
    intro d hd
    rcases List.mem_append.1 hd with h' | h'
    · exact ih d h'
    · rw [List.mem_singleton] at h'
      have := Nat.mod_lt n (show b + 2 > 0 by omega)
      omega

theorem digits_ne_nil (b n : Nat) : digits b n ≠ [] := by
  unfold digits; split <;> simp

/-- The first digit is not 0 unless the number is a single digit. -/
theorem digits_head (b n : Nat) (h : b + 2 ≤ n) : ∃ d t, digits b n = d :: t ∧ 0 < d := by
  fun_induction digits b n with
  | case1 n h' => omega
  | case2 n h' ih =>
    by_cases hn : b + 2 ≤ n / (b + 2)
    · obtain ⟨d, t, he, hd⟩ := ih hn
      exact ⟨d, t ++ [n % (b + 2)], by rw [he]; rfl, hd⟩
    · have hd : 0 < n / (b + 2) := Nat.div_pos (by omega) (by omega)
      refine ⟨n / (b + 2), [n % (b + 2)], ?_, hd⟩
      unfold digits
      rw [if_pos (by omega)]; rfl

/-- Zero padding to width `w` (`%0wd`). -/
def padZero (w : Nat) (l : List Nat) : List Nat := List.replicate (w - l.length) 0 ++ l

theorem ofDigits_padZero (b w : Nat) (l : List Nat) : ofDigits b (padZero w l) = ofDigits b l := by
  unfold padZero ofDigits
  rw [List.foldl_append]
  congr 1
  generalize w - l.length = k
  induction k with
  | zero => rfl
  | succ k ih => rw [List.replicate_succ, List.foldl_cons]; simpa using ih

/-- Character of a digit (`0`-`9`, `a`-`f`). -/
def digitChar (d : Nat) : Char :=
  match d with
  | 0 => '0' | 1 => '1' | 2 => '2' | 3 => '3' | 4 => '4' | 5 => '5' | 6 => '6' | 7 => '7'
  | 8 => '8' | 9 => '9' | 10 => 'a' | 11 => 'b' | 12 => 'c' | 13 => 'd' | 14 => 'e' | _ => 'f'

/-- Value of a lower-case digit character. -/
def charDigit (c : Char) : Option Nat :=
  if c = '0' then some 0 else if c = '1' then some 1 else if c = '2' then some 2
  else if c = '3' then some 3 else if c = '4' then some 4 else if c = '5' then some 5
  else if c = '6' then some 6 else if c = '7' then some 7 else if c = '8' then some 8
  else if c = '9' then some 9 else if c = 'a' then some 10 else if c = 'b' then some 11
  else if c = 'c' then some 12 else if c = 'd' then some 13 else if c = 'e' then some 14
  else if c = 'f' then some 15 else none

theorem charDigit_digitChar (d : Nat) (h : d < 16) : charDigit (digitChar d) = some d := by
  have : ∀ d, d < 16 → charDigit (digitChar d) = some d := by decide
  exact this d h

theorem digitChar_charDigit (c : Char) (d : Nat) (h : charDigit c = some d) : digitChar d = c ∧ d < 16 := by
  unfold charDigit at h
  by_cases h0 : c = '0'
  · rw [if_pos h0] at h; cases h; rw [h0]; decide
  rw [if_neg h0] at h
  by_cases h1 : c = '1'
  · rw [if_pos h1] at h; cases h; rw [h1]; decide
  rw [if_neg h1] at h
  by_cases h2 : c = '2'
  · rw [if_pos h2] at h; cases h; rw [h2]; decide
  rw [if_neg h2] at h
  by_cases h3 : c = '3'
  · rw [if_pos h3] at h; cases h; rw [h3]; decide
  rw [if_neg h3] at h
  by_cases h4 : c = '4'
  · rw [if_pos h4] at h; cases h; rw [h4]; decide
  rw [if_neg h4] at h
  by_cases h5 : c = '5'
  · rw [if_pos h5] at h; cases h; rw [h5]; decide
  rw [if_neg h5] at h
  by_cases h6 : c = '6'
  · rw [if_pos h6] at h; cases h; rw [h6]; decide
  rw [if_neg h6] at h
  by_cases h7 : c = '7'
  · rw [if_pos h7] at h; cases h; rw [h7]; decide
  rw [if_neg h7] at h
  by_cases h8 : c = '8'
  · rw [if_pos h8] at h; cases h; rw [h8]; decide
  rw [if_neg h8] at h
  by_cases h9 : c = '9'
  · rw [if_pos h9] at h; cases h; rw [h9]; decide
  rw [if_neg h9] at h
  by_cases ha : c = 'a'
  · rw [if_pos ha] at h; cases h; rw [ha]; decide
  rw [if_neg ha] at h
  by_cases hb : c = 'b'
  · rw [if_pos hb] at h; cases h; rw [hb]; decide
  rw [if_neg hb] at h
  by_cases hc : c = 'c'
  · rw [if_pos hc] at h; cases h; rw [hc]; decide
  rw [if_neg hc] at h
  by_cases hd : c = 'd'
  · rw [if_pos hd] at h; cases h; rw [hd]; decide
  rw [if_neg hd] at h
  by_cases he : c = 'e'
  · rw [if_pos he] at h; cases h; rw [he]; decide
  rw [if_neg he] at h
  by_cases hf : c = 'f'
  · rw [if_pos hf] at h; cases h; rw [hf]; decide
  rw [if_neg hf] at h
  cases h

/-- `'%d' % n` for a natural number. -/
def decStr (n : Nat) : List Char := (digits 8 n).map digitChar

/-- `'%0wd' % n`. -/
def decPad (w n : Nat) : List Char := (padZero w (digits 8 n)).map digitChar

/-- `'%0wx' % n`. -/
def hexPad (w n : Nat) : List Char := (padZero w (digits 14 n)).map digitChar

/-- Value of a list of digit characters in base `b + 2`; `none` if one is not a digit of that base. -/
def parseDigits (b : Nat) (s : List Char) : Option Nat :=
  if s = [] then none
  else
    match s.mapM charDigit with
    | some ds => if ds.all (· < b + 2) then some (ofDigits b ds) else none
    | none => none

theorem mapM_charDigit (l : List Nat) (h : ∀ d ∈ l, d < 16) :
    (l.map digitChar).mapM charDigit = some l := by
  induction l with
  | nil => rfl
  | cons d l ih =>
    rw [List.map_cons, List.mapM_cons, charDigit_digitChar d (h d List.mem_cons_self),
      ih (fun d hd => h d (List.mem_cons_of_mem _ hd))]
    rfl

theorem parseDigits_map (b : Nat) (hb : b ≤ 14) (l : List Nat) (hl : l ≠ []) (h : ∀ d ∈ l, d < b + 2) :
    parseDigits b (l.map digitChar) = some (ofDigits b l) := by
  unfold parseDigits
  rw [if_neg (by simpa using hl), mapM_charDigit l (fun d hd => by have := h d hd; omega)]
  dsimp only
  rw [if_pos]
  rw [List.all_eq_true]
  intro d hd
  simpa using h d hd

theorem mem_padZero (b w n : Nat) (d : Nat) (h : d ∈ padZero w (digits b n)) : d < b + 2 := by
  rcases List.mem_append.1 h with h | h
  · have := (List.mem_replicate.1 h).2; omega
  · exact digits_lt b n d h

theorem parse_decStr (n : Nat) : parseDigits 8 (decStr n) = some n := by
  unfold decStr
  rw [parseDigits_map 8 (by omega) _ (digits_ne_nil 8 n) (digits_lt 8 n), ofDigits_digits]

theorem parse_decPad (w n : Nat) : parseDigits 8 (decPad w n) = some n := by
  unfold decPad
  rw [parseDigits_map 8 (by omega) _ _ (mem_padZero 8 w n), ofDigits_padZero, ofDigits_digits]
  unfold padZero
  simp [digits_ne_nil]

theorem parse_hexPad (w n : Nat) : parseDigits 14 (hexPad w n) = some n := by
  unfold hexPad
  rw [parseDigits_map 14 (by omega) _ _ (mem_padZero 14 w n), ofDigits_padZero, ofDigits_digits]
  unfold padZero
  simp [digits_ne_nil]

theorem decStr_inj (m n : Nat) (h : decStr m = decStr n) : m = n := by
  have := parse_decStr m
  rw [h, parse_decStr] at this
  exact (Option.some.inj this).symm

theorem decPad_inj (w m n : Nat) (h : decPad w m = decPad w n) : m = n := by
  have := parse_decPad w m
  rw [h, parse_decPad] at this
  exact (Option.some.inj this).symm

theorem hexPad_inj (w m n : Nat) (h : hexPad w m = hexPad w n) : m = n := by
  have := parse_hexPad w m
  rw [h, parse_hexPad] at this
  exact (Option.some.inj this).symm

theorem digitChar_ne (d : Nat) (h : d < 10) (c : Char) (hc : charDigit c = none ∨ 10 ≤ (charDigit c).getD 0) :
    digitChar d ≠ c := by
  rintro rfl
  rw [charDigit_digitChar d (by omega)] at hc
  rcases hc with hc | hc
  · cases hc
  · simp at hc; omega

theorem digits_length (b w n : Nat) (h : n < (b + 2) ^ (w + 1)) : (digits b n).length ≤ w + 1 := by
  induction w generalizing n with
  | zero =>
    unfold digits
    rw [if_pos (by simpa using h)]; simp
  | succ w ih =>
    unfold digits
    split
    · simp
    · rw [List.length_append, List.length_singleton]
      have : n / (b + 2) < (b + 2) ^ (w + 1) := by
        rw [Nat.div_lt_iff_lt_mul (by omega)]
        rwa [← Nat.pow_succ]
      have := ih _ this
      omega

theorem hexPad_length (w n : Nat) (h : n < 16 ^ (w + 1)) : (hexPad (w + 1) n).length = w + 1 := by
  have := digits_length 14 w n h
  unfold hexPad padZero
  rw [List.length_map, List.length_append, List.length_replicate]
  omega

end Verif.Codec
