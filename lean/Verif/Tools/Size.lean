import Verif.Codec.Num

/-!
C83: sizes as `s3qlstat`, `s3ql_verify` and `s3qladm` show them (common.py:226-256).

`float(bytes_)` is exact for sizes below 2^53 (8 PiB), divisions of it by powers of two are exact too, and Python rounds correctly when it formats a float; so the model computes
with fractions.  Larger sizes are not modelled.
-/

namespace Verif.Tools.Size

open Verif.Codec

/-- `n / d` as an integer, rounded to the nearest one, ties to even ones, as `%.2f` does for the last digit. -/
def rnd (n d : Nat) : Nat :=
  if 2 * (n % d) < d then n / d else if d < 2 * (n % d) then n / d + 1 else n / d + (n / d) % 2

/-- `'%.pf' % (n / 10^p)`: the last `p` digits after the point. -/
def fixed (p m : Nat) : List Char := decStr (m / 10 ^ p) ++ '.' :: decPad p (m % 10 ^ p)

/-- `form % (i, unit)` (common.py:249-256), where `i` is `b / u`. -/
def form (b u : Nat) (unit : String) : List Char :=
  (if b < 10 * u then fixed 2 (rnd (b * 100) u)
    else if b < 100 * u then fixed 1 (rnd (b * 10) u)
    else decStr (b / u)) ++ ' ' :: unit.toList

/-- `pretty_print_size` (common.py:226-256). -/
def prettySize (b : Nat) : List Char :=
  if b < 1024 then decStr b ++ ' ' :: "bytes".toList
  else if b < 1024 ^ 2 then form b 1024 "KiB"
  else if b < 1024 ^ 3 then form b (1024 ^ 2) "MiB"
  else if b < 1024 ^ 4 then form b (1024 ^ 3) "GiB"
  else form b (1024 ^ 4) "TiB"

/-! #### Specification -/

/-- What the names of units mean. -/
def Unit (name : List Char) (u : Nat) : Prop :=
  (name = "bytes".toList ∧ u = 1) ∨ (name = "KiB".toList ∧ u = 1024) ∨ (name = "MiB".toList ∧ u = 1048576) ∨ (name = "GiB".toList ∧ u = 1073741824) ∨
    (name = "TiB".toList ∧ u = 1099511627776)

/-- What a text says: the fraction `num / den` of a byte. -/
inductive Says : List Char → Nat → Nat → Prop
  | whole {ds name : List Char} {a u : Nat} : parseDigits 8 ds = some a → Unit name u → Says (ds ++ ' ' :: name) (a * u) 1
  | decimal {ds fs name : List Char} {a f u : Nat} : parseDigits 8 ds = some a → parseDigits 8 fs = some f → Unit name u →
      Says (ds ++ '.' :: fs ++ ' ' :: name) ((a * 10 ^ fs.length + f) * u) (10 ^ fs.length)

/-! #### Proofs -/

theorem rnd_error (n d : Nat) (hd : 0 < d) : 2 * (rnd n d * d) ≤ 2 * n + d ∧ 2 * n ≤ 2 * (rnd n d * d) + d := by
  have h1 := Nat.div_add_mod n d
  have h2 := Nat.mod_lt n hd
  have h3 : d * (n / d) = n / d * d := Nat.mul_comm _ _
  have h4 : (n / d + 1) * d = n / d * d + d := by rw [Nat.add_mul, Nat.one_mul]
  unfold rnd
  split
  · omega
  · split
    · omega
    · rcases Nat.mod_two_eq_zero_or_one (n / d) with h | h
      · rw [h, Nat.add_zero]; omega
      · rw [h]; omega

theorem decPad_length {p m : Nat} (hp : 0 < p) (h : m < 10 ^ p) : (decPad p m).length = p := by
  obtain ⟨q, rfl⟩ : ∃ q, p = q + 1 := ⟨p - 1, by omega⟩
  have := digits_length 8 q m h
  unfold decPad padZero
  rw [List.length_map, List.length_append, List.length_replicate]
  omega

theorem fixed_says {p m u : Nat} (hp : 0 < p) {name : List Char} (hu : Unit name u) : Says (fixed p m ++ ' ' :: name) (m * u) (10 ^ p) := by
  have hlt : m % 10 ^ p < 10 ^ p := Nat.mod_lt _ (Nat.pow_pos (by decide))
  have hl := decPad_length hp hlt
  have := Says.decimal (parse_decStr (m / 10 ^ p)) (parse_decPad p (m % 10 ^ p)) hu
  rw [hl, Nat.mul_comm (m / 10 ^ p), Nat.div_add_mod] at this
  exact this

/-- The text says the size with an error below one percent. -/
def Near (t : List Char) (b : Nat) : Prop := ∃ n d, Says t n d ∧ 0 < d ∧ (n : Int) * 100 < b * d * 101 ∧ (b : Int) * d * 99 < n * 100

theorem form_near {b u : Nat} {unit : String} (hu : Unit unit.toList u) (h0 : 0 < u) (hb : u ≤ b) : Near (form b u unit) b := by
  unfold form
  split
  · rename_i h
    obtain ⟨e1, e2⟩ := rnd_error (b * 100) u h0
    refine ⟨_, _, fixed_says (by decide) hu, by decide, ?_, ?_⟩ <;>
      (have : ((rnd (b * 100) u * u : Nat) : Int) = (rnd (b * 100) u : Int) * u := by rw [Int.natCast_mul]) <;> omega
  · rename_i h
    split
    · obtain ⟨e1, e2⟩ := rnd_error (b * 10) u h0
      refine ⟨_, _, fixed_says (by decide) hu, by decide, ?_, ?_⟩ <;>
        (have : ((rnd (b * 10) u * u : Nat) : Int) = (rnd (b * 10) u : Int) * u := by rw [Int.natCast_mul]) <;> omega
    · rename_i h'
      have e1 := Nat.div_add_mod b u
      have e2 := Nat.mod_lt b h0
      have e3 : u * (b / u) = b / u * u := Nat.mul_comm _ _
      refine ⟨_, _, Says.whole (parse_decStr _) hu, by decide, ?_, ?_⟩ <;> omega

/-- **C83**, sizes: what is shown differs from the size by less than one percent. -/
theorem C83_size (b : Nat) (h0 : 0 < b) (_hb : b < 2 ^ 53) : Near (prettySize b) b := by
  unfold prettySize
  split
  · refine ⟨_, _, Says.whole (parse_decStr b) (Or.inl ⟨rfl, rfl⟩), by decide, ?_, ?_⟩ <;> omega
  · split
    · exact form_near (Or.inr (Or.inl ⟨rfl, rfl⟩)) (by decide) (by omega)
    · split
      · exact form_near (Or.inr (Or.inr (Or.inl ⟨rfl, rfl⟩))) (by decide) (by omega)
      · split
        · exact form_near (Or.inr (Or.inr (Or.inr (Or.inl ⟨rfl, rfl⟩)))) (by decide) (by omega)
        · exact form_near (Or.inr (Or.inr (Or.inr (Or.inr ⟨rfl, rfl⟩)))) (by decide) (by omega)

/-- **C83**, sizes: below 1024 bytes it is exact. -/
theorem C83_size_small (b : Nat) (hb : b < 1024) : Says (prettySize b) b 1 := by
  unfold prettySize
  rw [if_pos hb]
  have := Says.whole (name := "bytes".toList) (u := 1) (parse_decStr b) (Or.inl ⟨rfl, rfl⟩)
  rwa [Nat.mul_one] at this

example : rnd (10239 * 100) 1024 = 1000 ∧ rnd 205 2 = 102 ∧ rnd 207 2 = 104 := by decide

end Verif.Tools.Size
