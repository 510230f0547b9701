import Verif.Codec.Num
import Verif.Codec.Base64
/-
Python's `repr` of elementary values and the part of `ast.literal_eval` that reads them back, as used
by `freeze_basic_mapping` / `thaw_basic_mapping` (common.py:332-396) and by the metadata headers
(backends/s3c.py:444-742, backends/swift.py:118-160).

A string is a list of Unicode scalar values (lone surrogates are not modelled).  `literal_eval` is
modelled for dict displays with string keys and elementary values, with the escapes that `repr`
produces; every other Python literal is treated as a syntax error (so the model rejects more than
Python does).
-/
namespace Verif.Codec

abbrev Str := List Char

/-- Formatting of Python floats (abstract): `repr(f)` and `float(s)`. -/
structure FloatFmt (F : Type) where
  repr : F → Str
  parse : Str → Option F

inductive Val (F : Type) where
  | str (s : Str)
  | bytes (b : List Byte)
  | int (i : Int)
  | float (f : F)
  | bool (b : Bool)
  | none

/-- Value as it stands in the text: byte strings are base64 text there. -/
inductive RVal (F : Type) where
  | str (s : Str)
  | bytes (s : Str)
  | int (i : Int)
  | float (f : F)
  | bool (b : Bool)
  | none

/-- Characters that end a number or a name. -/
def tokEnd (c : Char) : Bool := c = ',' || c = ' ' || c = '}' || c = ':' || c = '\n'

/-- One character of `repr(str)` inside quotes `q` (CPython `unicode_repr`).  `printable` is
`str.isprintable` for characters above 127 (arbitrary here). -/
def reprChar (printable : Char → Bool) (q c : Char) : Str :=
  if c = q ∨ c = '\\' then ['\\', c]
  else if c = '\t' then ['\\', 't']
  else if c = '\n' then ['\\', 'n']
  else if c = '\r' then ['\\', 'r']
  else if c.toNat < 32 ∨ c.toNat = 127 then '\\' :: 'x' :: hexPad 2 c.toNat
  else if c.toNat < 127 then [c]
  else if printable c then [c]
  else if c.toNat ≤ 0xff then '\\' :: 'x' :: hexPad 2 c.toNat
  else if c.toNat ≤ 0xffff then '\\' :: 'u' :: hexPad 4 c.toNat
  else '\\' :: 'U' :: hexPad 8 c.toNat

/-- Quote character chosen by `repr`: double quotes iff the string contains a single but no double
quote. -/
def reprQuote (s : Str) : Char := if s.contains '\'' && !s.contains '"' then '"' else '\''

/-- `repr(s)` for a string. -/
def reprStr (printable : Char → Bool) (s : Str) : Str :=
  reprQuote s :: s.flatMap (reprChar printable (reprQuote s)) ++ [reprQuote s]

/-- `repr(i)` for an integer. -/
def reprInt : Int → Str
  | .ofNat n => decStr n
  | .negSucc n => '-' :: decStr (n + 1)

/-- `repr(v)`, after `b64encode` for byte strings (common.py:379-384). -/
def reprVal {F : Type} (fmt : FloatFmt F) (printable : Char → Bool) : Val F → Str
  | .str s => reprStr printable s
  | .bytes b => 'b' :: '\'' :: b64encode b ++ ['\'']
  | .int i => reprInt i
  | .float f => fmt.repr f
  | .bool true => ['T', 'r', 'u', 'e']
  | .bool false => ['F', 'a', 'l', 's', 'e']
  | .none => ['N', 'o', 'n', 'e']

/-! ### Reading -/

/-- `\xhh`, `\uhhhh`, `\Uhhhhhhhh`: exactly `w` digits forming a valid character. -/
def hexEsc (w : Nat) (s : Str) : Option (Char × Str) :=
  if s.length < w then none
  else
    match parseDigits 14 (s.take w) with
    | some n => if n.isValidChar then some (Char.ofNat n, s.drop w) else none
    | none => none

/-- Body of a string literal after the opening quote `q`. -/
def parseStrBody (q : Char) (s : Str) : Option (Str × Str) :=
  match s with
  | [] => none
  | c :: t =>
    if c = q then some ([], t)
    else if c = '\\' then
      match t with
      | [] => none
      | e :: r =>
        if e = '\\' ∨ e = '\'' ∨ e = '"' then (parseStrBody q r).map (fun p => (e :: p.1, p.2))
        else if e = 't' then (parseStrBody q r).map (fun p => ('\t' :: p.1, p.2))
        else if e = 'n' then (parseStrBody q r).map (fun p => ('\n' :: p.1, p.2))
        else if e = 'r' then (parseStrBody q r).map (fun p => ('\r' :: p.1, p.2))
        else
          let w := if e = 'x' then 2 else if e = 'u' then 4 else if e = 'U' then 8 else 0
          if w = 0 then none
          else
            match _h : hexEsc w r with
            | some (d, r') => (parseStrBody q r').map (fun p => (d :: p.1, p.2))
            | none => none
    else if c = '\n' then none
    else (parseStrBody q t).map (fun p => (c :: p.1, p.2))
termination_by s.length
decreasing_by
  all_goals simp_wf
  all_goals first
    | omega
    | (unfold hexEsc at _h
       split at _h
       · cases _h
       · split at _h
         · split at _h
           · cases _h; simp only [List.length_drop]; omega
           · cases _h
         · cases _h)

/-- A string literal. -/
def parseStr (s : Str) : Option (Str × Str) :=
  match s with
  | q :: t => if q = '\'' ∨ q = '"' then parseStrBody q t else none
  | [] => none

/-- A natural number literal (no leading zeros). -/
def parseNat (ds : Str) : Option Nat :=
  if ds.length > 1 ∧ ds.head? = some '0' then none else parseDigits 8 ds

/-- An integer literal. -/
def parseInt (s : Str) : Option Int :=
  match s with
  | [] => none
  | c :: ds =>
    if c = '-' then (parseNat ds).map (fun n : Nat => - (n : Int))
    else (parseNat s).map (fun n : Nat => (n : Int))

/-- An elementary value. -/
def parseVal {F : Type} (fmt : FloatFmt F) (s : Str) : Option (RVal F × Str) :=
  match s with
  | [] => none
  | c :: t =>
    if c = '\'' ∨ c = '"' then (parseStrBody c t).map (fun p => (.str p.1, p.2))
    else if c = 'b' then
      match t with
      | '\'' :: u =>
        let body := u.takeWhile (fun c => c ≠ '\'')
        if body.contains '\\' || body.contains '\n' then none     -- not produced by `repr`
        else
          match u.dropWhile (fun c => c ≠ '\'') with
          | _ :: r => some (.bytes body, r)
          | [] => none
      | _ => none
    else
      let tok := s.takeWhile (fun c => !tokEnd c)
      let r := s.dropWhile (fun c => !tokEnd c)
      if tok = ['T', 'r', 'u', 'e'] then some (.bool true, r)
      else if tok = ['F', 'a', 'l', 's', 'e'] then some (.bool false, r)
      else if tok = ['N', 'o', 'n', 'e'] then some (.none, r)
      else
        match parseInt tok with
        | some i => some (.int i, r)
        | none => (fmt.parse tok).map (fun f => (.float f, r))

def skipWs : Str → Str
  | [] => []
  | c :: t => if c = ' ' then skipWs t else c :: t

/-- `d[k] = v`. -/
def setItem {V : Type} (d : List (Str × V)) (k : Str) (v : V) : List (Str × V) :=
  if d.any (fun e => e.1 = k) then d.map (fun e => if e.1 = k then (k, v) else e) else d ++ [(k, v)]

/-- Items of a dict display after `{`.  The first argument bounds the number of items (each takes at
least one character). -/
def parseItems {F : Type} (fmt : FloatFmt F) : Nat → Str → List (Str × RVal F) →
    Option (List (Str × RVal F) × Str)
  | 0, _, _ => none
  | n + 1, s, acc =>
    match skipWs s with
    | '}' :: t => some (acc, t)
    | s' => do
      let (k, s1) ← parseStr s'
      match skipWs s1 with
      | ':' :: s2 =>
        let (v, s3) ← parseVal fmt (skipWs s2)
        let acc := setItem acc k v
        match skipWs s3 with
        | ',' :: s4 => parseItems fmt n s4 acc
        | '}' :: s4 => some (acc, s4)
        | _ => none
      | _ => none

/-- `literal_eval` of a dict display. -/
def parseDict {F : Type} (fmt : FloatFmt F) (s : Str) : Option (List (Str × RVal F)) :=
  match skipWs s with
  | '{' :: t =>
    match parseItems fmt (t.length + 1) t [] with
    | some (d, r) => if skipWs r = [] then some d else none
    | none => none
  | _ => none

/-! ### Lemmas -/

theorem hexEsc_hexPad (w : Nat) (c : Char) (t : Str) (h : c.toNat < 16 ^ (w + 1)) :
    hexEsc (w + 1) (hexPad (w + 1) c.toNat ++ t) = some (c, t) := by
  have hl := hexPad_length w c.toNat h
  unfold hexEsc
  rw [if_neg (by rw [List.length_append]; omega), List.take_left' hl, List.drop_left' hl, parse_hexPad]
  dsimp only
  rw [if_pos (show c.toNat.isValidChar from c.valid), Char.ofNat_toNat]

/-- Reading back one character. -/
theorem parseStrBody_char (printable : Char → Bool) (q c : Char) (t : Str)
    (hq : q = '\'' ∨ q = '"') :
    parseStrBody q (reprChar printable q c ++ t) = (parseStrBody q t).map (fun p => (c :: p.1, p.2)) := by
  have hqb : q ≠ '\\' := by rcases hq with rfl | rfl <;> decide
  have hx : ∀ (e : Char) (w : Nat), (e = 'x' ∧ w = 1) ∨ (e = 'u' ∧ w = 3) ∨ (e = 'U' ∧ w = 7) →
      c.toNat < 16 ^ (w + 1) →
      parseStrBody q ('\\' :: e :: (hexPad (w + 1) c.toNat ++ t)) =
        (parseStrBody q t).map (fun p => (c :: p.1, p.2)) := by
    intro e w he hlt
    have hh := hexEsc_hexPad w c t hlt
    conv => lhs; unfold parseStrBody
    rw [if_neg hqb.symm, if_pos rfl]
    dsimp only
    rcases he with ⟨rfl, rfl⟩ | ⟨rfl, rfl⟩ | ⟨rfl, rfl⟩
    all_goals
      simp only [reduceCtorEq, Char.reduceEq, or_self, if_false, if_true]
      split
      · rename_i d r' heq
        simp at heq hh
        rw [hh] at heq
        cases heq
        rfl
      · rename_i heq
        simp at heq hh
        rw [hh] at heq
        cases heq
  have hv : c.toNat < 16 ^ (7 + 1) := by
    have : c.toNat.isValidChar := c.valid
    unfold Nat.isValidChar at this
    omega
  unfold reprChar
  by_cases h1 : c = q ∨ c = '\\'
  · rw [if_pos h1]
    show parseStrBody q ('\\' :: c :: t) = _
    conv => lhs; unfold parseStrBody
    rw [if_neg hqb.symm, if_pos rfl]
    dsimp only
    rw [if_pos]
    rcases h1 with rfl | rfl
    · rcases hq with rfl | rfl <;> simp
    · simp
  rw [if_neg h1]
  by_cases h2 : c = '\t'
  · rw [if_pos h2]; subst h2
    show parseStrBody q ('\\' :: 't' :: t) = _
    conv => lhs; unfold parseStrBody
    rw [if_neg hqb.symm, if_pos rfl]
    rfl
  rw [if_neg h2]
  by_cases h3 : c = '\n'
  · rw [if_pos h3]; subst h3
    show parseStrBody q ('\\' :: 'n' :: t) = _
    conv => lhs; unfold parseStrBody
    rw [if_neg hqb.symm, if_pos rfl]
    rfl
  rw [if_neg h3]
  by_cases h4 : c = '\r'
  · rw [if_pos h4]; subst h4
    show parseStrBody q ('\\' :: 'r' :: t) = _
    conv => lhs; unfold parseStrBody
    rw [if_neg hqb.symm, if_pos rfl]
    rfl
  rw [if_neg h4]
  have hplain : parseStrBody q ([c] ++ t) = (parseStrBody q t).map (fun p => (c :: p.1, p.2)) := by
    show parseStrBody q (c :: t) = _
    conv => lhs; unfold parseStrBody
    rw [if_neg (fun h => h1 (Or.inl h)), if_neg (fun h => h1 (Or.inr h)), if_neg h3]
  split
  · exact hx 'x' 1 (Or.inl ⟨rfl, rfl⟩) (by omega)
  · split
    · exact hplain
    · split
      · exact hplain
      · split
        · exact hx 'x' 1 (Or.inl ⟨rfl, rfl⟩) (by omega)
        · split
          · exact hx 'u' 3 (Or.inr (Or.inl ⟨rfl, rfl⟩)) (by omega)
          · exact hx 'U' 7 (Or.inr (Or.inr ⟨rfl, rfl⟩)) hv

theorem parseStrBody_repr (printable : Char → Bool) (q : Char) (hq : q = '\'' ∨ q = '"') (s t : Str) :
    parseStrBody q (s.flatMap (reprChar printable q) ++ q :: t) = some (s, t) := by
  induction s with
  | nil =>
    show parseStrBody q (q :: t) = _
    unfold parseStrBody
    rw [if_pos rfl]
  | cons c s ih =>
    rw [List.flatMap_cons, List.append_assoc, parseStrBody_char printable q c _ hq, ih]; rfl

theorem reprQuote_ok (s : Str) : reprQuote s = '\'' ∨ reprQuote s = '"' := by
  unfold reprQuote; split <;> simp

theorem reprStr_append (printable : Char → Bool) (s t : Str) :
    reprStr printable s ++ t =
      reprQuote s :: (s.flatMap (reprChar printable (reprQuote s)) ++ reprQuote s :: t) := by
  unfold reprStr; simp

theorem parseStr_repr (printable : Char → Bool) (s t : Str) :
    parseStr (reprStr printable s ++ t) = some (s, t) := by
  rw [reprStr_append]
  unfold parseStr
  dsimp only
  rw [if_pos (reprQuote_ok s), parseStrBody_repr printable _ (reprQuote_ok s)]

theorem decStr_nat (n : Nat) : parseNat (decStr n) = some n := by
  unfold parseNat
  rw [if_neg, parse_decStr]
  rintro ⟨h1, h2⟩
  by_cases hn : 8 + 2 ≤ n
  · obtain ⟨d, t, he, hd⟩ := digits_head 8 n hn
    have hlt := digits_lt 8 n d (by rw [he]; exact List.mem_cons_self)
    unfold decStr at h2
    rw [he, List.map_cons, List.head?_cons, Option.some.injEq] at h2
    have h3 := charDigit_digitChar d (by omega)
    rw [h2] at h3
    have : charDigit '0' = some 0 := by decide
    rw [this] at h3
    cases h3
    omega
  · unfold decStr at h1
    unfold digits at h1
    rw [if_pos (by omega)] at h1
    simp at h1

theorem decStr_ne_minus (n : Nat) : ∀ t, decStr n ≠ '-' :: t := by
  intro t h
  have : ('-' : Char) ∈ decStr n := by rw [h]; exact List.mem_cons_self
  unfold decStr at this
  rw [List.mem_map] at this
  obtain ⟨d, hd, he⟩ := this
  exact digitChar_ne d (digits_lt 8 n d hd) '-' (Or.inl (by decide)) he

theorem parseInt_repr (i : Int) : parseInt (reprInt i) = some i := by
  cases i with
  | ofNat n =>
    show parseInt (decStr n) = _
    have h := decStr_nat n
    cases hd : decStr n with
    | nil => exact absurd hd (by simp [decStr, digits_ne_nil])
    | cons c ds =>
      rw [hd] at h
      unfold parseInt
      dsimp only
      rw [if_neg (by rintro rfl; exact decStr_ne_minus n ds hd), h]
      rfl
  | negSucc n =>
    show parseInt ('-' :: decStr (n + 1)) = _
    unfold parseInt
    dsimp only
    rw [if_pos rfl, decStr_nat]; rfl

theorem reprInt_chars (i : Int) : ∀ c ∈ reprInt i, c = '-' ∨ ∃ d, d < 10 ∧ digitChar d = c := by
  intro c hc
  cases i with
  | ofNat n =>
    obtain ⟨d, hd, rfl⟩ := List.mem_map.1 hc
    exact Or.inr ⟨d, digits_lt 8 n d hd, rfl⟩
  | negSucc n =>
    rcases List.mem_cons.1 hc with rfl | hc
    · exact Or.inl rfl
    · obtain ⟨d, hd, rfl⟩ := List.mem_map.1 hc
      exact Or.inr ⟨d, digits_lt 8 _ d hd, rfl⟩

theorem reprInt_ne_nil (i : Int) : reprInt i ≠ [] := by
  cases i with
  | ofNat n => simp [reprInt, decStr, digits_ne_nil]
  | negSucc n => simp [reprInt]

theorem num_char (c : Char) (h : c = '-' ∨ ∃ d, d < 10 ∧ digitChar d = c) :
    tokEnd c = false ∧ c ≠ '\'' ∧ c ≠ '"' ∧ c ≠ 'b' ∧ c ≠ 'T' ∧ c ≠ 'F' ∧ c ≠ 'N' := by
  rcases h with rfl | ⟨d, hd, rfl⟩
  · decide
  · have : ∀ d, d < 10 → (tokEnd (digitChar d) = false ∧ digitChar d ≠ '\'' ∧ digitChar d ≠ '"' ∧
      digitChar d ≠ 'b' ∧ digitChar d ≠ 'T' ∧ digitChar d ≠ 'F' ∧ digitChar d ≠ 'N') := by decide
    exact this d hd

/-- What is assumed of a float that is written: `repr` gives a number token that is not an integer
literal, and reading it gives the float back (asserted in common.py:388; it fails for `inf`/`nan`). -/
def FloatOk {F : Type} (fmt : FloatFmt F) (f : F) : Prop :=
  fmt.repr f ≠ [] ∧ (∀ c ∈ fmt.repr f, tokEnd c = false) ∧
  (∀ c, (fmt.repr f).head? = some c →
    c ≠ '\'' ∧ c ≠ '"' ∧ c ≠ 'b' ∧ c ≠ 'T' ∧ c ≠ 'F' ∧ c ≠ 'N') ∧
  parseInt (fmt.repr f) = none ∧ fmt.parse (fmt.repr f) = some f

def ValOk {F : Type} (fmt : FloatFmt F) : Val F → Prop
  | .float f => FloatOk fmt f
  | _ => True

/-- The textual form of a value. -/
def Val.raw {F : Type} : Val F → RVal F
  | .str s => .str s
  | .bytes b => .bytes (b64encode b)
  | .int i => .int i
  | .float f => .float f
  | .bool b => .bool b
  | .none => .none

theorem takeWhile_tok (tok r : Str) (htok : ∀ c ∈ tok, tokEnd c = false)
    (hr : ∀ c, r.head? = some c → tokEnd c = true) :
    (tok ++ r).takeWhile (fun c => !tokEnd c) = tok ∧ (tok ++ r).dropWhile (fun c => !tokEnd c) = r := by
  rw [List.takeWhile_append_of_pos (fun c hc => by rw [htok c hc]; rfl),
    List.dropWhile_append_of_pos (fun c hc => by rw [htok c hc]; rfl)]
  cases r with
  | nil => simp
  | cons c t =>
    have hc := hr c rfl
    rw [List.takeWhile_cons_of_neg (by rw [hc]; simp), List.append_nil,
      List.dropWhile_cons_of_neg (by rw [hc]; simp)]
    exact ⟨rfl, rfl⟩

theorem parseVal_tok {F : Type} (fmt : FloatFmt F) (tok r : Str) (hne : tok ≠ [])
    (htok : ∀ c ∈ tok, tokEnd c = false)
    (hhead : ∀ c, tok.head? = some c → c ≠ '\'' ∧ c ≠ '"' ∧ c ≠ 'b')
    (hr : ∀ c, r.head? = some c → tokEnd c = true) :
    parseVal fmt (tok ++ r) =
      if tok = ['T', 'r', 'u', 'e'] then some (.bool true, r)
      else if tok = ['F', 'a', 'l', 's', 'e'] then some (.bool false, r)
      else if tok = ['N', 'o', 'n', 'e'] then some (.none, r)
      else
        match parseInt tok with
        | some i => some (.int i, r)
        | none => (fmt.parse tok).map (fun f => (.float f, r)) := by
  obtain ⟨h1, h2⟩ := takeWhile_tok tok r htok hr
  cases tok with
  | nil => exact absurd rfl hne
  | cons c t =>
    obtain ⟨a1, a2, a3⟩ := hhead c rfl
    rw [List.cons_append] at h1 h2 ⊢
    unfold parseVal
    dsimp only
    rw [if_neg (not_or.2 ⟨a1, a2⟩), if_neg a3, h1, h2]

theorem b64Safe_ne (c : Char) (h : b64Safe c) : c ≠ '\'' ∧ c ≠ '\\' ∧ c ≠ '\n' := by
  rcases h with h | rfl
  · have : ∀ c ∈ b64Chars, c ≠ '\'' ∧ c ≠ '\\' ∧ c ≠ '\n' := by decide +kernel
    exact this c h
  · decide

theorem parseVal_repr {F : Type} (fmt : FloatFmt F) (printable : Char → Bool) (v : Val F) (r : Str)
    (hv : ValOk fmt v) (hr : ∀ c, r.head? = some c → tokEnd c = true) :
    parseVal fmt (reprVal fmt printable v ++ r) = some (v.raw, r) := by
  cases v with
  | str s =>
    show parseVal fmt (reprStr printable s ++ r) = _
    rw [reprStr_append]
    unfold parseVal
    dsimp only
    rw [if_pos (reprQuote_ok s), parseStrBody_repr printable _ (reprQuote_ok s)]
    rfl
  | bytes b =>
    have hs := b64encode_safe b
    have e : reprVal fmt printable (.bytes b) ++ r = 'b' :: '\'' :: (b64encode b ++ '\'' :: r) := by
      simp [reprVal]
    have h1 : (b64encode b ++ '\'' :: r).takeWhile (fun c => c ≠ '\'') = b64encode b := by
      rw [List.takeWhile_append_of_pos (fun c hc => by simpa using (b64Safe_ne c (hs c hc)).1)]
      rw [List.takeWhile_cons_of_neg (by simp), List.append_nil]
    have h2 : (b64encode b ++ '\'' :: r).dropWhile (fun c => c ≠ '\'') = '\'' :: r := by
      rw [List.dropWhile_append_of_pos (fun c hc => by simpa using (b64Safe_ne c (hs c hc)).1)]
      rw [List.dropWhile_cons_of_neg (by simp)]
    have h3 : ((b64encode b).contains '\\' || (b64encode b).contains '\n') = false := by
      rw [Bool.or_eq_false_iff]
      constructor
      · rw [Bool.eq_false_iff, Ne, List.contains_iff_mem]
        exact fun h => (b64Safe_ne _ (hs _ h)).2.1 rfl
      · rw [Bool.eq_false_iff, Ne, List.contains_iff_mem]
        exact fun h => (b64Safe_ne _ (hs _ h)).2.2 rfl
    rw [e]
    unfold parseVal
    simp only [h1, h2, h3]
    rw [if_neg (by decide), if_pos trivial]
    rfl
  | int i =>
    show parseVal fmt (reprInt i ++ r) = _
    have hc := reprInt_chars i
    have hhead : ∀ c, (reprInt i).head? = some c → c ∈ reprInt i := fun c h => List.mem_of_head? h
    rw [parseVal_tok fmt _ r (reprInt_ne_nil i) (fun c h => (num_char c (hc c h)).1)
      (fun c h => by
        have := num_char c (hc c (hhead c h)); exact ⟨this.2.1, this.2.2.1, this.2.2.2.1⟩) hr]
    have hT : ∀ (w : Str) (c : Char) (t : Str), w = c :: t → (c = 'T' ∨ c = 'F' ∨ c = 'N') → reprInt i ≠ w := by
      rintro w c t rfl hcc h
      have := num_char c (hc c (by rw [h]; exact List.mem_cons_self))
      rcases hcc with rfl | rfl | rfl
      · exact this.2.2.2.2.1 rfl
      · exact this.2.2.2.2.2.1 rfl
      · exact this.2.2.2.2.2.2 rfl
    rw [if_neg (hT _ _ _ rfl (Or.inl rfl)), if_neg (hT _ _ _ rfl (Or.inr (Or.inl rfl))),
      if_neg (hT _ _ _ rfl (Or.inr (Or.inr rfl))), parseInt_repr]
    rfl
  | float f =>
    obtain ⟨h1, h2, h3, h4, h5⟩ := hv
    show parseVal fmt (fmt.repr f ++ r) = _
    rw [parseVal_tok fmt _ r h1 h2 (fun c h => ⟨(h3 c h).1, (h3 c h).2.1, (h3 c h).2.2.1⟩) hr]
    have hT : ∀ (w : Str) (c : Char) (t : Str), w = c :: t → (c = 'T' ∨ c = 'F' ∨ c = 'N') → fmt.repr f ≠ w := by
      rintro w c t rfl hcc h
      have := h3 c (by rw [h]; rfl)
      rcases hcc with rfl | rfl | rfl
      · exact this.2.2.2.1 rfl
      · exact this.2.2.2.2.1 rfl
      · exact this.2.2.2.2.2 rfl
    rw [if_neg (hT _ _ _ rfl (Or.inl rfl)), if_neg (hT _ _ _ rfl (Or.inr (Or.inl rfl))),
      if_neg (hT _ _ _ rfl (Or.inr (Or.inr rfl))), h4]
    dsimp only
    rw [h5]; rfl
  | bool b =>
    cases b with
    | true =>
      show parseVal fmt (['T', 'r', 'u', 'e'] ++ r) = _
      rw [parseVal_tok fmt _ r (by simp) (by decide) (by intro c h; cases h; decide) hr]
      rfl
    | false =>
      show parseVal fmt (['F', 'a', 'l', 's', 'e'] ++ r) = _
      rw [parseVal_tok fmt _ r (by simp) (by decide) (by intro c h; cases h; decide) hr]
      rfl
  | none =>
    show parseVal fmt (['N', 'o', 'n', 'e'] ++ r) = _
    rw [parseVal_tok fmt _ r (by simp) (by decide) (by intro c h; cases h; decide) hr]
    rfl

theorem skipWs_ne (c : Char) (t : Str) (h : c ≠ ' ') : skipWs (c :: t) = c :: t := by
  unfold skipWs; rw [if_neg h]

theorem skipWs_space (t : Str) : skipWs (' ' :: t) = skipWs t := by
  conv => lhs; unfold skipWs
  rw [if_pos rfl]

/-- The first character of a value is not a space. -/
theorem reprVal_skip {F : Type} (fmt : FloatFmt F) (printable : Char → Bool) (v : Val F) (r : Str)
    (hv : ValOk fmt v) : skipWs (reprVal fmt printable v ++ r) = reprVal fmt printable v ++ r := by
  have gen : ∀ (s : Str), s ≠ [] → (∀ c, s.head? = some c → c ≠ ' ') → skipWs (s ++ r) = s ++ r := by
    intro s hs hc
    cases s with
    | nil => exact absurd rfl hs
    | cons c s => exact skipWs_ne c _ (hc c rfl)
  cases v with
  | str s =>
    show skipWs (reprStr printable s ++ r) = reprStr printable s ++ r
    rw [reprStr_append]
    apply skipWs_ne
    rcases reprQuote_ok s with h | h <;> rw [h] <;> decide
  | bytes b => exact skipWs_ne _ _ (by decide)
  | int i =>
    apply gen _ (reprInt_ne_nil i)
    rintro c h rfl
    have := num_char ' ' (reprInt_chars i ' ' (List.mem_of_head? h))
    exact absurd this.1 (by decide)
  | float f =>
    apply gen _ hv.1
    rintro c h rfl
    have := hv.2.1 ' ' (List.mem_of_head? h)
    exact absurd this (by decide)
  | bool b => cases b <;> exact skipWs_ne _ _ (by decide)
  | none => exact skipWs_ne _ _ (by decide)

/-- `'%s: %s' % (repr(k), repr(v))`. -/
def renderItem {F : Type} (fmt : FloatFmt F) (printable : Char → Bool) (e : Str × Val F) : Str :=
  reprStr printable e.1 ++ ':' :: ' ' :: reprVal fmt printable e.2

theorem parseItems_space {F : Type} (fmt : FloatFmt F) (n : Nat) (s : Str) (acc : List (Str × RVal F)) :
    parseItems fmt n (' ' :: s) acc = parseItems fmt n s acc := by
  cases n with
  | zero => rfl
  | succ n => unfold parseItems; rw [skipWs_space]

theorem parseItems_head {F : Type} (fmt : FloatFmt F) (printable : Char → Bool) (n : Nat)
    (e : Str × Val F) (r : Str) (acc : List (Str × RVal F)) (hv : ValOk fmt e.2)
    (hr : ∀ c, r.head? = some c → tokEnd c = true) :
    parseItems fmt (n + 1) (renderItem fmt printable e ++ r) acc =
      (match skipWs r with
        | ',' :: s4 => parseItems fmt n s4 (setItem acc e.1 e.2.raw)
        | '}' :: s4 => some (setItem acc e.1 e.2.raw, s4)
        | _ => none) := by
  have hs : renderItem fmt printable e ++ r =
      reprStr printable e.1 ++ (':' :: ' ' :: (reprVal fmt printable e.2 ++ r)) := by
    unfold renderItem; simp
  have hskip : skipWs (reprStr printable e.1 ++ (':' :: ' ' :: (reprVal fmt printable e.2 ++ r))) =
      reprStr printable e.1 ++ (':' :: ' ' :: (reprVal fmt printable e.2 ++ r)) := by
    have := reprVal_skip fmt printable (.str e.1) (':' :: ' ' :: (reprVal fmt printable e.2 ++ r)) trivial
    exact this
  have hnb : ∀ t, reprStr printable e.1 ++ (':' :: ' ' :: (reprVal fmt printable e.2 ++ r)) ≠ '}' :: t := by
    intro t h
    rw [reprStr_append] at h
    have := (List.cons.inj h).1
    rcases reprQuote_ok e.1 with h' | h' <;> rw [h'] at this <;> exact absurd this (by decide)
  rw [hs]
  conv => lhs; unfold parseItems
  rw [hskip]
  split
  · rename_i t h
    exact absurd h (hnb t)
  · rw [parseStr_repr]
    simp only [Option.bind_eq_bind, Option.bind_some]
    rw [skipWs_ne ':' _ (by decide)]
    simp only []
    rw [skipWs_space, reprVal_skip fmt printable e.2 r hv, parseVal_repr fmt printable e.2 r hv hr]
    simp only [Option.bind_some]

theorem setItem_fresh {V : Type} (d : List (Str × V)) (k : Str) (v : V) (h : k ∉ d.map (·.1)) :
    setItem d k v = d ++ [(k, v)] := by
  unfold setItem
  rw [if_neg]
  intro hc
  rw [List.any_eq_true] at hc
  obtain ⟨e, he, hk⟩ := hc
  exact h (List.mem_map.2 ⟨e, he, by simpa using hk⟩)

/-- Reading items that are each followed by a comma, then ` }`. -/
theorem parseItems_commas {F : Type} (fmt : FloatFmt F) (printable : Char → Bool)
    (d : List (Str × Val F)) (n : Nat) (hn : d.length < n) (acc : List (Str × RVal F)) (r : Str)
    (hv : ∀ e ∈ d, ValOk fmt e.2) (hk : (acc.map (·.1) ++ d.map (·.1)).Nodup) :
    parseItems fmt n (d.flatMap (fun e => renderItem fmt printable e ++ [',']) ++ ' ' :: '}' :: r) acc =
      some (acc ++ d.map (fun e => (e.1, e.2.raw)), r) := by
  induction d generalizing n acc with
  | nil =>
    cases n with
    | zero => omega
    | succ n =>
      show parseItems fmt (n + 1) (' ' :: '}' :: r) acc = _
      rw [parseItems_space]
      unfold parseItems
      rw [skipWs_ne '}' _ (by decide)]
      simp
  | cons e d ih =>
    cases n with
    | zero => omega
    | succ n =>
      rw [List.flatMap_cons, List.append_assoc, List.append_assoc, List.singleton_append,
        parseItems_head fmt printable n e _ acc (hv e List.mem_cons_self)
          (by intro c h; cases h; rfl)]
      show (match skipWs (',' :: _) with
        | ',' :: s4 => parseItems fmt n s4 (setItem acc e.1 e.2.raw)
        | '}' :: s4 => some (setItem acc e.1 e.2.raw, s4)
        | _ => none) = _
      rw [skipWs_ne ',' _ (by decide)]
      simp only []
      have hfresh : e.1 ∉ acc.map (·.1) := by
        rw [List.map_cons, List.nodup_append] at hk
        intro h
        exact hk.2.2 _ h _ List.mem_cons_self rfl
      rw [setItem_fresh acc _ _ hfresh]
      show parseItems fmt n (d.flatMap _ ++ _) _ = _
      rw [ih n (by rw [List.length_cons] at hn; omega) _ (fun e he => hv e (List.mem_cons_of_mem _ he))]
      · simp
      · simpa [List.append_assoc] using hk

end Verif.Codec
