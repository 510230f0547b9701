/-
`base64.b64encode` / `b64decode` as used in common.py:332-396 and backends/s3c.py:444-742.
Simplification: `b64decode` of Python skips characters outside the alphabet and tolerates some
irregular padding; here anything irregular is an error (`none` = `binascii.Error`).  Only the
behaviour on regular encodings is used by the theorems.
-/
namespace Verif.Codec

abbrev Byte := UInt8

def b64Chars : List Char :=
  "ABCDEFGHIJKLMNOPQRSTUVWXYZabcdefghijklmnopqrstuvwxyz0123456789+/".toList

/-- Character of a 6-bit value. -/
def b64Char (n : Nat) : Char := b64Chars.getD n 'A'

/-- 6-bit value of a character. -/
def b64Val (c : Char) : Option Nat :=
  let i := b64Chars.findIdx (· = c)
  if i < 64 then some i else none

/-- `b64encode`: three bytes at a time, `=` padding at the end. -/
def b64encode : List Byte → List Char
  | [] => []
  | [a] =>
    let n := a.toNat * 16
    [b64Char (n / 64), b64Char (n % 64), '=', '=']
  | [a, b] =>
    let n := (a.toNat * 256 + b.toNat) * 4
    [b64Char (n / 4096), b64Char (n / 64 % 64), b64Char (n % 64), '=']
  | a :: b :: c :: r =>
    let n := (a.toNat * 256 + b.toNat) * 256 + c.toNat
    b64Char (n / 262144) :: b64Char (n / 4096 % 64) :: b64Char (n / 64 % 64) :: b64Char (n % 64)
      :: b64encode r

/-- `b64decode` on regular input. -/
def b64decode : List Char → Option (List Byte)
  | [] => some []
  | w :: x :: y :: z :: r => do
    let w ← b64Val w
    let x ← b64Val x
    if y = '=' then
      if z = '=' ∧ r = [] then
        let n := w * 64 + x
        some [UInt8.ofNat (n / 16)]
      else none
    else
      let y ← b64Val y
      if z = '=' then
        if r = [] then
          let n := (w * 64 + x) * 64 + y
          some [UInt8.ofNat (n / 1024), UInt8.ofNat (n / 4 % 256)]
        else none
      else
        let z ← b64Val z
        let n := ((w * 64 + x) * 64 + y) * 64 + z
        let rest ← b64decode r
        some (UInt8.ofNat (n / 65536) :: UInt8.ofNat (n / 256 % 256) :: UInt8.ofNat (n % 256) :: rest)
  | _ => none

theorem b64Val_char (n : Nat) (h : n < 64) : b64Val (b64Char n) = some n := by
  have : ∀ n, n < 64 → b64Val (b64Char n) = some n := by decide +kernel
  exact this n h

theorem b64Char_ne_eq (n : Nat) (h : n < 64) : b64Char n ≠ '=' := by
  have : ∀ n, n < 64 → b64Char n ≠ '=' := by decide +kernel
  exact this n h

theorem ofNat_toNat (a : Byte) (n : Nat) (h : n = a.toNat) : UInt8.ofNat n = a := by
  subst h; simp

theorem b64decode_encode (b : List Byte) : b64decode (b64encode b) = some b := by
  fun_induction b64encode b with
  | case1 => rfl
  | case2 a n =>
    have ha : a.toNat < 256 := a.toNat_lt
    have hn : n = a.toNat * 16 := rfl
    simp only [b64decode]
    rw [b64Val_char _ (by omega), b64Val_char _ (by omega)]
    simp only [Option.bind_eq_bind, Option.bind_some, if_true, and_self]
    rw [ofNat_toNat a _ (by omega)]
  | case3 a b n =>
    have ha : a.toNat < 256 := a.toNat_lt
    have hb : b.toNat < 256 := b.toNat_lt
    have hn : n = (a.toNat * 256 + b.toNat) * 4 := rfl
    simp only [b64decode]
    rw [b64Val_char _ (by omega), b64Val_char _ (by omega), b64Val_char _ (by omega)]
    simp only [Option.bind_eq_bind, Option.bind_some, if_true]
    rw [if_neg (b64Char_ne_eq _ (by omega)), ofNat_toNat a _ (by omega), ofNat_toNat b _ (by omega)]
  | case4 a b c r n ih =>
    have ha : a.toNat < 256 := a.toNat_lt
    have hb : b.toNat < 256 := b.toNat_lt
    have hc : c.toNat < 256 := c.toNat_lt
    have hn : n = (a.toNat * 256 + b.toNat) * 256 + c.toNat := rfl
    simp only [b64decode]
    rw [b64Val_char _ (by omega), b64Val_char _ (by omega), b64Val_char _ (by omega),
      b64Val_char _ (by omega), ih]
    simp only [Option.bind_eq_bind, Option.bind_some]
    rw [if_neg (b64Char_ne_eq _ (by omega)), if_neg (b64Char_ne_eq _ (by omega)),
      ofNat_toNat a _ (by omega), ofNat_toNat b _ (by omega), ofNat_toNat c _ (by omega)]

/-- Characters that occur in base64 text. -/
def b64Safe (c : Char) : Prop := c ∈ b64Chars ∨ c = '='

theorem b64Char_mem (n : Nat) : b64Char n ∈ b64Chars := by
  unfold b64Char
  rw [List.getD_eq_getElem?_getD]
  by_cases h : n < b64Chars.length
  · rw [List.getElem?_eq_getElem h]; exact List.getElem_mem h
  · rw [List.getElem?_eq_none (by omega)]; decide +kernel

theorem b64encode_safe (b : List Byte) : ∀ c ∈ b64encode b, b64Safe c := by
  have hm := b64Char_mem
  fun_induction b64encode b with
  | case1 => intro c hc; cases hc
  | case2 a n =>
    intro c hc
    simp only [List.mem_cons, List.not_mem_nil, or_false] at hc
    rcases hc with rfl | rfl | rfl | rfl
    · exact Or.inl (hm _)
    · exact Or.inl (hm _)
    · exact Or.inr rfl
    · exact Or.inr rfl
  | case3 a b n =>
    intro c hc
    simp only [List.mem_cons, List.not_mem_nil, or_false] at hc
    rcases hc with rfl | rfl | rfl | rfl
    · exact Or.inl (hm _)
    · exact Or.inl (hm _)
    · exact Or.inl (hm _)
    · exact Or.inr rfl
  | case4 a b c r n ih =>
    intro d hd
    simp only [List.mem_cons] at hd
    rcases hd with rfl | rfl | rfl | rfl | hd
    · exact Or.inl (hm _)
    · exact Or.inl (hm _)
    · exact Or.inl (hm _)
    · exact Or.inl (hm _)
    · exact ih d hd

end Verif.Codec
