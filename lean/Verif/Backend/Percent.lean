import Verif.Codec.Headers
/-
Percent-encoding as done by `urllib.parse` (`quote`, `quote_plus`, `urlencode`), and its inverse as any
HTTP server computes it (RFC 3986, and the form encoding of the WHATWG URL standard for `+`).
-/
namespace Verif.Backend.Addr
open Verif.Codec (Str Byte utf8 upHex)

/-! ### The client: `urllib.parse` -/

/-- Characters that `quote` never escapes: letters, digits and `_.-~`. -/
def unreserved (c : Char) : Bool :=
  ('a' ≤ c && c ≤ 'z') || ('A' ≤ c && c ≤ 'Z') || ('0' ≤ c && c ≤ '9') || ['_', '.', '-', '~'].contains c

/-- One byte of `quote(s, safe=safe)`. -/
def quoteB (safe : List Char) (b : Byte) : Str :=
  if unreserved (Char.ofNat b.toNat) || safe.contains (Char.ofNat b.toNat) then [Char.ofNat b.toNat]
  else ['%', upHex (b.toNat / 16), upHex (b.toNat % 16)]

/-- `urllib.parse.quote(s, safe=safe)` (the default is `safe='/'`), applied to the UTF-8 bytes. -/
def quoteW (safe : List Char) (s : Str) : Str := (utf8 s).flatMap (quoteB safe)

/-- `urllib.parse.quote(path)`. -/
def quotePath (s : Str) : Str := quoteW ['/'] s

/-- `urllib.parse.quote_plus(s)`. -/
def quotePlus (s : Str) : Str :=
  if s.contains ' ' then (quoteW [' '] s).map (fun c => if c = ' ' then '+' else c) else quoteW [] s

/-- `sep.join(parts)`. -/
def join (sep : Char) : List Str → Str
  | [] => []
  | [p] => p
  | p :: q :: r => p ++ sep :: join sep (q :: r)

/-- `urllib.parse.urlencode(query, doseq=True)` for a dict with string values. -/
def urlencode (q : List (Str × Str)) : Str := join '&' (q.map (fun e => quotePlus e.1 ++ '=' :: quotePlus e.2))

/-! ### The server -/

/-- Value of a hexadecimal digit. -/
def hexVal (c : Char) : Option Nat :=
  if '0' ≤ c ∧ c ≤ '9' then some (c.toNat - '0'.toNat)
  else if 'a' ≤ c ∧ c ≤ 'f' then some (c.toNat - 'a'.toNat + 10)
  else if 'A' ≤ c ∧ c ≤ 'F' then some (c.toNat - 'A'.toNat + 10)
  else none

/-- Percent-decoding; with `plus`, also `+` for a space (form decoding). -/
def pctDecode (plus : Bool) : Str → List Byte
  | [] => []
  | '%' :: a :: b :: u =>
    match hexVal a, hexVal b with
    | some x, some y => UInt8.ofNat (16 * x + y) :: pctDecode plus u
    | _, _ => 37 :: pctDecode plus (a :: b :: u)
  | c :: t => (if plus = true ∧ c = '+' then [32] else utf8 [c]) ++ pctDecode plus t

/-- The text before the first `c`, and the text after it, if there is a `c`. -/
def cut (c : Char) : Str → Str × Option Str
  | [] => ([], none)
  | x :: t => if x = c then ([], some t) else (x :: (cut c t).1, (cut c t).2)

/-- `s.split(c)`. -/
def splitOn (c : Char) : Str → List Str
  | [] => [[]]
  | x :: t =>
    if x = c then [] :: splitOn c t
    else
      match splitOn c t with
      | [] => [[x]]
      | p :: r => (x :: p) :: r

/-- The parameters of a query string, decoded; a parameter without `=` has the empty value. -/
def formDecode (q : Str) : List (List Byte × List Byte) :=
  (splitOn '&' q).map (fun p => (pctDecode true (cut '=' p).1, pctDecode true ((cut '=' p).2.getD [])))

/-! ### Lemmas -/

theorem quoteB_char (safe : List Char) (hs : ∀ c ∈ safe, c = '/' ∨ c = ' ') (b : Byte) :
    (∃ c, quoteB safe b = [c] ∧ c ≠ '%' ∧ c ≠ '+' ∧ c ≠ '?' ∧ c ≠ '&' ∧ c ≠ '=' ∧ c ≠ '\n' ∧ utf8 [c] = [b] ∧
      (c = '/' → '/' ∈ safe) ∧ (c = ' ' → ' ' ∈ safe)) ∨
    (∃ x y, quoteB safe b = ['%', x, y] ∧
      (∃ p q, hexVal x = some p ∧ hexVal y = some q ∧ UInt8.ofNat (16 * p + q) = b) ∧
      (∀ c ∈ [x, y], c ≠ '?' ∧ c ≠ '&' ∧ c ≠ '=' ∧ c ≠ '/' ∧ c ≠ '\n' ∧ c ≠ ' ' ∧ c ≠ '+')) := by
  have key : ∀ n : Fin 256,
      ((unreserved (Char.ofNat n.val) = true ∨ Char.ofNat n.val = '/' ∨ Char.ofNat n.val = ' ') →
        Char.ofNat n.val ≠ '%' ∧ Char.ofNat n.val ≠ '+' ∧ Char.ofNat n.val ≠ '?' ∧ Char.ofNat n.val ≠ '&' ∧
        Char.ofNat n.val ≠ '=' ∧ Char.ofNat n.val ≠ '\n' ∧
        String.utf8EncodeChar (Char.ofNat n.val) = [UInt8.ofNat n.val]) ∧
      (unreserved (Char.ofNat n.val) = true → Char.ofNat n.val ≠ '/' ∧ Char.ofNat n.val ≠ ' ') ∧
      hexVal (upHex (n.val / 16)) = some (n.val / 16) ∧ hexVal (upHex (n.val % 16)) = some (n.val % 16) ∧
      (∀ c ∈ [upHex (n.val / 16), upHex (n.val % 16)],
        c ≠ '?' ∧ c ≠ '&' ∧ c ≠ '=' ∧ c ≠ '/' ∧ c ≠ '\n' ∧ c ≠ ' ' ∧ c ≠ '+') := by decide +kernel
  have hb : b.toNat < 256 := b.toNat_lt
  obtain ⟨h1, h1', h2, h3, h4⟩ := key ⟨b.toNat, hb⟩
  unfold quoteB
  by_cases hq : (unreserved (Char.ofNat b.toNat) || safe.contains (Char.ofNat b.toNat)) = true
  · left
    have hq' := Bool.or_eq_true _ _ ▸ hq
    have hc : unreserved (Char.ofNat b.toNat) = true ∨ Char.ofNat b.toNat = '/' ∨ Char.ofNat b.toNat = ' ' := by
      rcases hq' with h | h
      · exact Or.inl h
      · exact Or.inr (hs _ (by simpa using h))
    obtain ⟨a1, a2, a3, a4, a5, a6, a7⟩ := h1 hc
    refine ⟨_, if_pos hq, a1, a2, a3, a4, a5, a6, ?_, ?_, ?_⟩
    · unfold utf8
      simp only [List.flatMap_cons, List.flatMap_nil, List.append_nil]
      rw [a7]; simp
    · intro he
      rcases hq' with h | h
      · exact absurd he (h1' h).1
      · rw [← he]; simpa using h
    · intro he
      rcases hq' with h | h
      · exact absurd he (h1' h).2
      · rw [← he]; simpa using h
  · right
    refine ⟨_, _, if_neg hq, ⟨_, _, h2, h3, ?_⟩, h4⟩
    apply UInt8.toNat_inj.1
    rw [UInt8.toNat_ofNat']
    show (16 * (b.toNat / 16) + b.toNat % 16) % 2 ^ 8 = b.toNat
    omega

theorem pctDecode_hex (plus : Bool) {a b : Char} {x y : Nat} (u : Str) (ha : hexVal a = some x) (hb : hexVal b = some y) :
    pctDecode plus ('%' :: a :: b :: u) = UInt8.ofNat (16 * x + y) :: pctDecode plus u := by
  rw [pctDecode.eq_2]; simp only [ha, hb]

theorem pctDecode_char (plus : Bool) {c : Char} (t : Str) (h : c ≠ '%') :
    pctDecode plus (c :: t) = (if plus = true ∧ c = '+' then [32] else utf8 [c]) ++ pctDecode plus t := by
  rw [pctDecode.eq_3]
  intro a b u hc
  exact absurd hc h

theorem pctDecode_quoteB (plus : Bool) (safe : List Char) (hs : ∀ c ∈ safe, c = '/' ∨ c = ' ') (b : Byte) (r : Str) :
    pctDecode plus (quoteB safe b ++ r) = b :: pctDecode plus r := by
  rcases quoteB_char safe hs b with ⟨c, e, h1, h2, _, _, _, _, h3, _⟩ | ⟨x, y, e, ⟨p, q, hp, hq, hb⟩, _⟩
  · rw [e]
    show pctDecode plus (c :: r) = _
    rw [pctDecode_char plus r h1, if_neg (fun h => h2 h.2), h3]; rfl
  · rw [e]
    show pctDecode plus ('%' :: x :: y :: r) = _
    rw [pctDecode_hex plus r hp hq, hb]

theorem pctDecode_bytes (plus : Bool) (safe : List Char) (hs : ∀ c ∈ safe, c = '/' ∨ c = ' ') (bs : List Byte)
    (r : Str) : pctDecode plus (bs.flatMap (quoteB safe) ++ r) = bs ++ pctDecode plus r := by
  induction bs with
  | nil => rfl
  | cons b t ih =>
    rw [List.flatMap_cons, List.append_assoc, pctDecode_quoteB plus safe hs, ih]; rfl

theorem pctDecode_quoteW (plus : Bool) (safe : List Char) (hs : ∀ c ∈ safe, c = '/' ∨ c = ' ') (s : Str) :
    pctDecode plus (quoteW safe s) = utf8 s := by
  have h := pctDecode_bytes plus safe hs (utf8 s) []
  simpa [quoteW, pctDecode] using h

theorem safe_slash : ∀ c ∈ ['/'], c = '/' ∨ c = ' ' := by simp
theorem safe_space : ∀ c ∈ [' '], c = '/' ∨ c = ' ' := by simp
theorem safe_nil : ∀ c ∈ ([] : List Char), c = '/' ∨ c = ' ' := by simp

/-- Characters of quoted text. -/
theorem quoteW_mem (safe : List Char) (hs : ∀ c ∈ safe, c = '/' ∨ c = ' ') (s : Str) {c : Char} (hc : c ∈ quoteW safe s) :
    c ≠ '?' ∧ c ≠ '&' ∧ c ≠ '=' ∧ c ≠ '\n' ∧ (c = '/' → '/' ∈ safe) ∧ (c = ' ' → ' ' ∈ safe) ∧ c ≠ '+' := by
  obtain ⟨b, _, hb⟩ := List.mem_flatMap.1 hc
  rcases quoteB_char safe hs b with ⟨d, e, _, h2, h3, h4, h5, h6, _, h7, h8⟩ | ⟨x, y, e, _, h4⟩
  · rw [e] at hb
    replace hb := List.mem_singleton.1 hb
    subst hb
    exact ⟨h3, h4, h5, h6, h7, h8, h2⟩
  · rw [e] at hb
    rcases List.mem_cons.1 hb with rfl | hb
    · exact ⟨by decide, by decide, by decide, by decide, fun h => absurd h (by decide), fun h => absurd h (by decide), by decide⟩
    · obtain ⟨a1, a2, a3, a4, a5, a6, a7⟩ := h4 c hb
      exact ⟨a1, a2, a3, a5, fun h => absurd h a4, fun h => absurd h a6, a7⟩

/-- One byte of `quote_plus`. -/
def plusB (b : Byte) : Str := if b = 32 then ['+'] else quoteB [] b

theorem ascii_char (b : Byte) (hb : b.toNat < 128) (c : Char) : b ∈ String.utf8EncodeChar c ↔ c.val.toNat = b.toNat := by
  constructor
  · intro h
    unfold String.utf8EncodeChar at h
    have hv := c.val.toNat_lt
    simp only at h
    split at h
    · rename_i hlt
      replace h := List.mem_singleton.1 h
      have h' : c.val.toNat % 256 = b.toNat := by
        have := congrArg UInt8.toNat h
        simpa [UInt8.toNat_ofNat'] using this.symm
      have hlt' : c.val.toNat ≤ 127 := hlt
      omega
    · split at h
      · simp only [List.mem_cons, List.not_mem_nil, or_false] at h
        rcases h with h | h <;>
        · have := congrArg UInt8.toNat h
          simp [UInt8.toNat_ofNat'] at this; omega
      · split at h
        · simp only [List.mem_cons, List.not_mem_nil, or_false] at h
          rcases h with h | h | h <;>
          · have := congrArg UInt8.toNat h
            simp [UInt8.toNat_ofNat'] at this; omega
        · simp only [List.mem_cons, List.not_mem_nil, or_false] at h
          rcases h with h | h | h | h <;>
          · have := congrArg UInt8.toNat h
            simp [UInt8.toNat_ofNat'] at this; omega
  · intro h
    unfold String.utf8EncodeChar
    simp only
    have h' : c.val.toNat ≤ 127 := by omega
    rw [if_pos h', List.mem_singleton]
    apply UInt8.toNat_inj.1
    rw [UInt8.toNat_ofNat', h]
    omega

theorem ascii_mem (b : Byte) (hb : b.toNat < 128) (s : Str) : b ∈ utf8 s ↔ ∃ c ∈ s, c.val.toNat = b.toNat := by
  unfold utf8
  simp only [List.mem_flatMap, ascii_char b hb]

theorem space_bytes (s : Str) : s.contains ' ' = true ↔ (32 : Byte) ∈ utf8 s := by
  rw [ascii_mem 32 (by decide), List.contains_iff_mem]
  constructor
  · intro h; exact ⟨' ', h, rfl⟩
  · rintro ⟨c, hc, h⟩
    have : c = ' ' := Char.ext (UInt32.toNat_inj.1 h)
    exact this ▸ hc

theorem quoteB_space_map (b : Byte) : (quoteB [' '] b).map (fun c => if c = ' ' then '+' else c) = plusB b := by
  have key : ∀ n : Fin 256, (quoteB [' '] (UInt8.ofNat n.val)).map (fun c => if c = ' ' then '+' else c) =
      plusB (UInt8.ofNat n.val) := by decide +kernel
  have h := key ⟨b.toNat, b.toNat_lt⟩
  simpa using h

theorem quotePlus_eq (s : Str) : quotePlus s = (utf8 s).flatMap plusB := by
  unfold quotePlus
  by_cases h : s.contains ' ' = true
  · rw [if_pos h]
    unfold quoteW
    rw [List.map_flatMap]
    congr 1
    funext b
    exact quoteB_space_map b
  · rw [if_neg h]
    unfold quoteW
    have hn : (32 : Byte) ∉ utf8 s := fun hc => h ((space_bytes s).2 hc)
    generalize utf8 s = bs at hn
    induction bs with
    | nil => rfl
    | cons b t ih =>
      rw [List.flatMap_cons, List.flatMap_cons, ih (fun hc => hn (List.mem_cons_of_mem _ hc))]
      unfold plusB
      rw [if_neg (fun hb => hn (by rw [hb]; exact List.mem_cons_self))]

theorem pctDecode_plus (bs : List Byte) (r : Str) :
    pctDecode true (bs.flatMap plusB ++ r) = bs ++ pctDecode true r := by
  induction bs with
  | nil => rfl
  | cons b t ih =>
    rw [List.flatMap_cons, List.append_assoc]
    unfold plusB
    by_cases hb : b = 32
    · rw [if_pos hb]
      show pctDecode true ('+' :: (t.flatMap plusB ++ r)) = _
      rw [pctDecode_char true _ (by decide), ih, hb]; rfl
    · rw [if_neg hb, pctDecode_quoteB true [] safe_nil]
      rw [show (List.flatMap (fun b => if b = 32 then ['+'] else quoteB [] b) t) = t.flatMap plusB from rfl, ih]; rfl

theorem pctDecode_quotePlus (s : Str) : pctDecode true (quotePlus s) = utf8 s := by
  rw [quotePlus_eq]
  have h := pctDecode_plus (utf8 s) []
  simpa [pctDecode] using h

theorem quotePlus_mem (s : Str) {c : Char} (hc : c ∈ quotePlus s) : c ≠ '?' ∧ c ≠ '&' ∧ c ≠ '=' ∧ c ≠ '\n' := by
  rw [quotePlus_eq] at hc
  obtain ⟨b, _, hb⟩ := List.mem_flatMap.1 hc
  unfold plusB at hb
  split at hb
  · replace hb := List.mem_singleton.1 hb
    subst hb; decide
  · have : c ∈ (([b] : List Byte).flatMap (quoteB [])) := by simpa using hb
    rcases quoteB_char [] safe_nil b with ⟨d, e, _, h2, h3, h4, h5, h6, _⟩ | ⟨x, y, e, _, h4⟩
    · rw [e] at hb
      replace hb := List.mem_singleton.1 hb
      subst hb
      exact ⟨h3, h4, h5, h6⟩
    · rw [e] at hb
      rcases List.mem_cons.1 hb with rfl | hb
      · decide
      · obtain ⟨a1, a2, a3, a4, a5, a6, a7⟩ := h4 c hb
        exact ⟨a1, a2, a3, a5⟩

/-! `cut`, `splitOn` and `join` -/

theorem cut_none {c : Char} {s : Str} (h : c ∉ s) : cut c s = (s, none) := by
  induction s with
  | nil => rfl
  | cons x t ih =>
    simp only [List.mem_cons, not_or] at h
    simp only [cut, if_neg (fun hx : x = c => h.1 hx.symm), ih h.2]

theorem cut_append {c : Char} {s : Str} (t : Str) (h : c ∉ s) : cut c (s ++ c :: t) = (s, some t) := by
  induction s with
  | nil => simp [cut]
  | cons x u ih =>
    simp only [List.mem_cons, not_or] at h
    simp only [List.cons_append, cut, if_neg (fun hx : x = c => h.1 hx.symm), ih h.2]

theorem splitOn_none {c : Char} {s : Str} (h : c ∉ s) : splitOn c s = [s] := by
  induction s with
  | nil => rfl
  | cons x t ih =>
    simp only [List.mem_cons, not_or] at h
    simp only [splitOn, if_neg (fun hx : x = c => h.1 hx.symm), ih h.2]

theorem splitOn_append {c : Char} {s : Str} (t : Str) (h : c ∉ s) : splitOn c (s ++ c :: t) = s :: splitOn c t := by
  induction s with
  | nil => simp [splitOn]
  | cons x u ih =>
    simp only [List.mem_cons, not_or] at h
    simp only [List.cons_append, splitOn, if_neg (fun hx : x = c => h.1 hx.symm), ih h.2]

theorem splitOn_join {c : Char} : ∀ (l : List Str), l ≠ [] → (∀ p ∈ l, c ∉ p) → splitOn c (join c l) = l
  | [], h, _ => absurd rfl h
  | [p], _, h => splitOn_none (h p List.mem_cons_self)
  | p :: q :: r, _, h => by
    show splitOn c (p ++ c :: join c (q :: r)) = _
    rw [splitOn_append _ (h p List.mem_cons_self),
      splitOn_join (q :: r) (by simp) (fun x hx => h x (List.mem_cons_of_mem _ hx))]

theorem mem_join {c d : Char} (hd : d ≠ c) : ∀ (l : List Str), d ∈ join c l → ∃ p ∈ l, d ∈ p
  | [], h => by simp [join] at h
  | [p], h => ⟨p, List.mem_cons_self, h⟩
  | p :: q :: r, h => by
    have h' : d ∈ p ++ c :: join c (q :: r) := h
    rcases List.mem_append.1 h' with h1 | h1
    · exact ⟨p, List.mem_cons_self, h1⟩
    · rcases List.mem_cons.1 h1 with h2 | h2
      · exact absurd h2 hd
      · obtain ⟨x, hx, hx'⟩ := mem_join hd (q :: r) h2
        exact ⟨x, List.mem_cons_of_mem _ hx, hx'⟩

/-- Form decoding inverts `urlencode`. -/
theorem formDecode_urlencode (q : List (Str × Str)) (h : q ≠ []) :
    formDecode (urlencode q) = q.map (fun e => (utf8 e.1, utf8 e.2)) := by
  unfold formDecode urlencode
  rw [splitOn_join]
  · rw [List.map_map]
    apply List.map_congr_left
    intro e _
    simp only [Function.comp]
    rw [cut_append _ (fun hc => (quotePlus_mem _ hc).2.2.1 rfl)]
    simp only [Option.getD, pctDecode_quotePlus]
  · simpa using h
  · intro p hp
    obtain ⟨e, _, rfl⟩ := List.mem_map.1 hp
    intro hc
    rcases List.mem_append.1 hc with h1 | h1
    · exact (quotePlus_mem _ h1).2.1 rfl
    · rcases List.mem_cons.1 h1 with h2 | h2
      · exact absurd h2 (by decide)
      · exact (quotePlus_mem _ h2).2.1 rfl

theorem urlencode_no_mark (q : List (Str × Str)) : '?' ∉ urlencode q := by
  intro hc
  obtain ⟨p, hp, h⟩ := mem_join (by decide) _ hc
  obtain ⟨e, _, rfl⟩ := List.mem_map.1 hp
  rcases List.mem_append.1 h with h1 | h1
  · exact (quotePlus_mem _ h1).1 rfl
  · rcases List.mem_cons.1 h1 with h2 | h2
    · exact absurd h2 (by decide)
    · exact (quotePlus_mem _ h2).1 rfl

theorem utf8_append (s t : Str) : utf8 (s ++ t) = utf8 s ++ utf8 t := by
  unfold utf8; rw [List.flatMap_append]

theorem quoteW_append (safe : List Char) (s t : Str) : quoteW safe (s ++ t) = quoteW safe s ++ quoteW safe t := by
  unfold quoteW; rw [utf8_append, List.flatMap_append]

theorem slash_of_quote {safe : List Char} (hs : ∀ c ∈ safe, c = '/' ∨ c = ' ') {s : Str} (h : '/' ∈ quoteW safe s) :
    '/' ∈ s := by
  obtain ⟨b, hb, h⟩ := List.mem_flatMap.1 h
  rcases quoteB_char safe hs b with ⟨d, e, _, _, _, _, _, _, h7, _⟩ | ⟨x, y, e, _, h4⟩
  · rw [e] at h
    replace h := List.mem_singleton.1 h
    subst h
    have hb47 : b = 47 := by
      have : utf8 ['/'] = [(47 : Byte)] := by decide +kernel
      rw [this] at h7
      exact (List.cons.inj h7).1.symm
    subst hb47
    obtain ⟨c, hc, hv⟩ := (ascii_mem 47 (by decide) s).1 hb
    have : c = '/' := Char.ext (UInt32.toNat_inj.1 hv)
    exact this ▸ hc
  · rw [e] at h
    rcases List.mem_cons.1 h with h | h
    · exact absurd h (by decide)
    · exact absurd rfl (h4 _ h).2.2.2.1

theorem quotePath_slash (s : Str) : quotePath ('/' :: s) = '/' :: quotePath s := by
  have h := quoteW_append ['/'] ['/'] s
  have h2 : quoteW ['/'] ['/'] = ['/'] := by decide +kernel
  rw [h2] at h
  exact h

end Verif.Backend.Addr
