/-
C65: the master key that `mkfs.s3ql` prints (mkfs.py:247-258), and `s3qladm recover-key` (adm.py:210-232) that reads it.
-/
import Verif.Tools.Admin

namespace Verif.Tools.MasterKey
open Verif.Comprenc (Bytes Env Alg)
open Verif.Tools.Admin

/-! #### Model -/

/-- The 64 characters of base64. -/
def alphabet : List Char :=
  ['A', 'B', 'C', 'D', 'E', 'F', 'G', 'H', 'I', 'J', 'K', 'L', 'M', 'N', 'O', 'P', 'Q', 'R', 'S', 'T', 'U', 'V', 'W', 'X', 'Y', 'Z',
   'a', 'b', 'c', 'd', 'e', 'f', 'g', 'h', 'i', 'j', 'k', 'l', 'm', 'n', 'o', 'p', 'q', 'r', 's', 't', 'u', 'v', 'w', 'x', 'y', 'z',
   '0', '1', '2', '3', '4', '5', '6', '7', '8', '9', '+', '/']

def enc1 (n : Nat) : Char := alphabet.getD n 'A'
def dec1 (c : Char) : Option Nat := alphabet.findIdx? (· == c)

/-- `b64encode` (`binascii.b2a_base64`). -/
def b64encode : Bytes → List Char
  | a :: b :: c :: t =>
    enc1 (a.toNat / 4) :: enc1 (a.toNat % 4 * 16 + b.toNat / 16) :: enc1 (b.toNat % 16 * 4 + c.toNat / 64) :: enc1 (c.toNat % 64) :: b64encode t
  | [a, b] => [enc1 (a.toNat / 4), enc1 (a.toNat % 4 * 16 + b.toNat / 16), enc1 (b.toNat % 16 * 4), '=']
  | [a] => [enc1 (a.toNat / 4), enc1 (a.toNat % 4 * 16), '=', '=']
  | [] => []

/-- `binascii.a2b_base64` without strict mode: characters that are not in the alphabet are skipped; enough `=` end the data.  `quad` is the
position in the group of four characters, `left` are the bits left over, `pads` is the number of `=` seen. -/
def a2b : (quad left pads : Nat) → Bytes → List Char → Option Bytes
  | quad, _, _, out, [] => if quad = 0 then some out else none
  | quad, left, pads, out, c :: t =>
    if c = '=' then
      if 2 ≤ quad then
        if 4 ≤ quad + (pads + 1) then some out else a2b quad left (pads + 1) out t
      else a2b quad left pads out t
    else
      match dec1 c with
      | none => a2b quad left pads out t
      | some v =>
        match quad with
        | 0 => a2b 1 v 0 out t
        | 1 => a2b 2 (v % 16) 0 (out ++ [UInt8.ofNat (left * 4 + v / 16)]) t
        | 2 => a2b 3 (v % 4) 0 (out ++ [UInt8.ofNat (left * 16 + v / 4)]) t
        | _ => a2b 0 0 0 (out ++ [UInt8.ofNat (left * 64 + v)]) t

/-- `b64decode`: `none` is `ValueError`, which is also raised for characters that are not ASCII. -/
def b64decode (s : List Char) : Option Bytes := if s.all (fun c => c.toNat < 128) then a2b 0 0 0 [] s else none

/-- `\s` in ASCII.  Other white space of Unicode is not modelled. -/
def isSpace (c : Char) : Bool := c = ' ' || c = '\t' || c = '\n' || c = '\r' || c.toNat = 11 || c.toNat = 12 || (28 ≤ c.toNat && c.toNat ≤ 31)

/-- `split_by_n` (common.py:265-272) for a positive number. -/
def splitByN (n : Nat) : Nat → List Char → List (List Char)
  | 0, _ => []
  | fuel + 1, s => if s = [] then [] else s.take n :: splitByN n fuel (s.drop n)

/-- `' '.join` -/
def joinSp : List (List Char) → List Char
  | [] => []
  | [a] => a
  | a :: t => a ++ ' ' :: joinSp t

/-- The line that `mkfs` prints (mkfs.py:248-255). -/
def printed (k : Bytes) : List Char := joinSp (splitByN 4 ((b64encode k).length + 1) (b64encode k))

/-- Reading the key (adm.py:211-222): `none` is `QuietError`. -/
def readKey (line : List Char) : Option Bytes :=
  match b64decode (line.filter (fun c => !isSpace c)) with
  | none => none
  | some k => if k.length ≠ 32 then none else some k

/-- `recover_key` with the line entered by the user, killed after `n` steps. -/
def recoverFromLine {F : Type} (env : Env F) (alg : Alg) (clk : Nat → Bytes) (line : List Char) (new : Bytes) (n : Nat) (w : World) : World × Bool :=
  match readKey line with
  | none => (w, false)
  | some k => recoverKey env alg clk k new n w

/-! #### Lemmas -/

theorem dec1_enc1 : ∀ n, n < 64 → dec1 (enc1 n) = some n ∧ enc1 n ≠ '=' ∧ isSpace (enc1 n) = false ∧ (enc1 n).toNat < 128 := by decide +kernel

theorem a2b_char {quad left pads n : Nat} {out : Bytes} {t : List Char} (h : n < 64) :
    a2b quad left pads out (enc1 n :: t) =
      match quad with
      | 0 => a2b 1 n 0 out t
      | 1 => a2b 2 (n % 16) 0 (out ++ [UInt8.ofNat (left * 4 + n / 16)]) t
      | 2 => a2b 3 (n % 4) 0 (out ++ [UInt8.ofNat (left * 16 + n / 4)]) t
      | _ => a2b 0 0 0 (out ++ [UInt8.ofNat (left * 64 + n)]) t := by
  obtain ⟨h1, h2, _⟩ := dec1_enc1 n h
  conv => lhs; unfold a2b
  rw [if_neg h2, h1]

theorem a2b_0 {left pads n : Nat} {out : Bytes} {t : List Char} (h : n < 64) : a2b 0 left pads out (enc1 n :: t) = a2b 1 n 0 out t := a2b_char h
theorem a2b_1 {left pads n : Nat} {out : Bytes} {t : List Char} (h : n < 64) :
    a2b 1 left pads out (enc1 n :: t) = a2b 2 (n % 16) 0 (out ++ [UInt8.ofNat (left * 4 + n / 16)]) t := a2b_char h
theorem a2b_2 {left pads n : Nat} {out : Bytes} {t : List Char} (h : n < 64) :
    a2b 2 left pads out (enc1 n :: t) = a2b 3 (n % 4) 0 (out ++ [UInt8.ofNat (left * 16 + n / 4)]) t := a2b_char h
theorem a2b_3 {left pads n : Nat} {out : Bytes} {t : List Char} (h : n < 64) :
    a2b 3 left pads out (enc1 n :: t) = a2b 0 0 0 (out ++ [UInt8.ofNat (left * 64 + n)]) t := a2b_char h

theorem ofNat_eq {a : UInt8} {n : Nat} (h : n = a.toNat) : UInt8.ofNat n = a := by
  rw [h]; exact UInt8.ofNat_toNat

theorem a2b_pad2 (left : Nat) (out : Bytes) : a2b 2 left 0 out ['=', '='] = some out := by
  unfold a2b
  rw [if_pos rfl, if_pos (by decide), if_neg (by decide)]
  unfold a2b
  rw [if_pos rfl, if_pos (by decide), if_pos (by decide)]

theorem a2b_pad1 (left : Nat) (out : Bytes) : a2b 3 left 0 out ['='] = some out := by
  unfold a2b
  rw [if_pos rfl, if_pos (by decide), if_pos (by decide)]

theorem a2b_encode (k : Bytes) : ∀ (pads : Nat) (out : Bytes), a2b 0 0 pads out (b64encode k) = some (out ++ k) := by
  fun_induction b64encode k with
  | case1 a b c t ih =>
    intro pads out
    have ha := a.toNat_lt; have hb := b.toNat_lt; have hc := c.toNat_lt
    rw [a2b_0 (by omega), a2b_1 (by omega), a2b_2 (by omega), a2b_3 (by omega)]
    rw [ih]
    have e1 : UInt8.ofNat (a.toNat / 4 * 4 + (a.toNat % 4 * 16 + b.toNat / 16) / 16) = a := ofNat_eq (by omega)
    have e2 : UInt8.ofNat ((a.toNat % 4 * 16 + b.toNat / 16) % 16 * 16 + (b.toNat % 16 * 4 + c.toNat / 64) / 4) = b := ofNat_eq (by omega)
    have e3 : UInt8.ofNat ((b.toNat % 16 * 4 + c.toNat / 64) % 4 * 64 + c.toNat % 64) = c := ofNat_eq (by omega)
    rw [e1, e2, e3]
    simp
  | case2 a b =>
    intro pads out
    have ha := a.toNat_lt; have hb := b.toNat_lt
    rw [a2b_0 (by omega), a2b_1 (by omega), a2b_2 (by omega)]
    rw [a2b_pad1]
    have e1 : UInt8.ofNat (a.toNat / 4 * 4 + (a.toNat % 4 * 16 + b.toNat / 16) / 16) = a := ofNat_eq (by omega)
    have e2 : UInt8.ofNat ((a.toNat % 4 * 16 + b.toNat / 16) % 16 * 16 + (b.toNat % 16 * 4) / 4) = b := ofNat_eq (by omega)
    rw [e1, e2]
    simp
  | case3 a =>
    intro pads out
    have ha := a.toNat_lt
    rw [a2b_0 (by omega), a2b_1 (by omega)]
    rw [a2b_pad2]
    have e1 : UInt8.ofNat (a.toNat / 4 * 4 + (a.toNat % 4 * 16) / 16) = a := ofNat_eq (by omega)
    rw [e1]
  | case4 =>
    intro pads out
    simp [a2b]

theorem encode_chars (k : Bytes) : ∀ c ∈ b64encode k, isSpace c = false ∧ c.toNat < 128 := by
  have he : ∀ n, n < 64 → isSpace (enc1 n) = false ∧ (enc1 n).toNat < 128 := fun n h => ⟨(dec1_enc1 n h).2.2.1, (dec1_enc1 n h).2.2.2⟩
  have hp : isSpace '=' = false ∧ '='.toNat < 128 := by decide
  fun_induction b64encode k with
  | case1 a b c t ih =>
    have ha := a.toNat_lt; have hb := b.toNat_lt; have hc := c.toNat_lt
    intro x hx
    simp only [List.mem_cons] at hx
    rcases hx with rfl | rfl | rfl | rfl | hx
    · exact he _ (by omega)
    · exact he _ (by omega)
    · exact he _ (by omega)
    · exact he _ (by omega)
    · exact ih x hx
  | case2 a b =>
    have ha := a.toNat_lt; have hb := b.toNat_lt
    intro x hx
    simp only [List.mem_cons, List.not_mem_nil, or_false] at hx
    rcases hx with rfl | rfl | rfl | rfl
    · exact he _ (by omega)
    · exact he _ (by omega)
    · exact he _ (by omega)
    · exact hp
  | case3 a =>
    have ha := a.toNat_lt
    intro x hx
    simp only [List.mem_cons, List.not_mem_nil, or_false] at hx
    rcases hx with rfl | rfl | rfl | rfl
    · exact he _ (by omega)
    · exact he _ (by omega)
    · exact hp
    · exact hp
  | case4 => intro x hx; cases hx

theorem splitByN_flatten {n : Nat} (hn : 0 < n) : ∀ (fuel : Nat) (s : List Char), s.length < fuel → (splitByN n fuel s).flatten = s := by
  intro fuel
  induction fuel with
  | zero => intro s h; omega
  | succ fuel ih =>
    intro s h
    unfold splitByN
    split
    · rename_i he; rw [he]; rfl
    · rename_i he
      have : 0 < s.length := List.length_pos_iff.2 he
      rw [List.flatten_cons, ih (s.drop n) (by rw [List.length_drop]; omega), List.take_append_drop]

theorem joinSp_filter (l : List (List Char)) : (joinSp l).filter (fun c => !isSpace c) = l.flatten.filter (fun c => !isSpace c) := by
  fun_induction joinSp l with
  | case1 => rfl
  | case2 a => simp
  | case3 a t _ ih =>
    rw [List.filter_append, List.filter_cons, List.flatten_cons, List.filter_append, ih]
    have : (!isSpace ' ') = false := by decide
    rw [this]
    rfl

/-! #### Theorems -/

/-- The key is read correctly, if what the user enters agrees with what was printed apart from spaces and other white space. -/
theorem C65_read_back {k : Bytes} (hk : k.length = 32) {line : List Char}
    (h : line.filter (fun c => !isSpace c) = (printed k).filter (fun c => !isSpace c)) : readKey line = some k := by
  have hp : (printed k).filter (fun c => !isSpace c) = b64encode k := by
    unfold printed
    rw [joinSp_filter, splitByN_flatten (by decide) _ _ (Nat.lt_succ_self _)]
    exact List.filter_eq_self.2 (fun c hc => by rw [(encode_chars k c hc).1]; rfl)
  unfold readKey b64decode
  rw [h, hp, if_pos, a2b_encode]
  · simp [hk]
  · rw [List.all_eq_true]
    intro c hc
    simpa using (encode_chars k c hc).2

/-- With the printed line, access to the file system is recovered, whatever has become of the objects that contain the key: the new
passphrase opens it with the right master key. -/
theorem C65_recovered {F : Type} {env : Env F} (hl : env.Lawful) {alg : Alg} {clk : Nat → Bytes} (hc : ClockOk clk) {new k : Bytes} {w : World} {n : Nat} {line : List Char}
    (hk : k.length = 32) (h : line.filter (fun c => !isSpace c) = (printed k).filter (fun c => !isSpace c))
    (hd : (recoverFromLine env alg clk line new n w).2 = true) : Opens env new (recoverFromLine env alg clk line new n w).1.st k := by
  have hr := C65_read_back hk h
  unfold recoverFromLine at hd ⊢
  rw [hr] at hd ⊢
  exact C57_recover hl hc hd

/-- A key of another length is never stored. -/
theorem C65_length {line : List Char} {k : Bytes} (h : readKey line = some k) : k.length = 32 := by
  unfold readKey at h
  split at h
  · cases h
  · split at h
    · cases h
    · rename_i hl; cases h; omega

/-- Two keys are never printed in the same way. -/
theorem C65_injective {k k' : Bytes} (hk : k.length = 32) (hk' : k'.length = 32) (h : printed k = printed k') : k = k' := by
  have h1 := C65_read_back hk (line := printed k) rfl
  have h2 := C65_read_back hk' (line := printed k) (by rw [h])
  rw [h1] at h2
  exact Option.some.inj h2

/-- The printed line has 11 groups of 4 characters. -/
example : printed key0 = "CQkJ CQkJ CQkJ CQkJ CQkJ CQkJ CQkJ CQkJ CQkJ CQkJ CQk=".toList := by decide +kernel

/-- The line is entered without spaces, but with a line break. -/
example : (recoverFromLine Verif.Comprenc.toyEnv .zlib clk0 "CQkJCQkJCQkJCQkJCQkJCQkJCQkJCQkJCQkJCQkJCQk=\n".toList [5] 4 empty).2 = true := by
  have hr : readKey "CQkJCQkJCQkJCQkJCQkJCQkJCQkJCQkJCQkJCQkJCQk=\n".toList = some key0 := by decide +kernel
  unfold recoverFromLine recoverKey
  rw [hr]
  dsimp only
  rw [if_neg (by decide)]
  refine perform_ok (i := 0) (by decide) ?_
  intro p k v hm j
  obtain ⟨_, rfl, h3⟩ := keyActs_mem hm
  have : k.length < 100 := by rcases h3 with rfl | rfl | rfl | rfl <;> decide
  exact stores0 p k _ this (by decide) j

end Verif.Tools.MasterKey
