import Verif.Codec.Freeze
/-
Model of the HTTP metadata headers: `_add_meta_headers` (backends/s3c.py:444-481, the same code in
backends/swift.py:118-160) and `_extractmeta` (backends/s3c.py:694-742).
-/
namespace Verif.Codec

/-- `safe` characters of `quote(buf, safe='!@#$^*()=+/?-_\'"><\\| `.,;:~')` plus those that `quote`
never escapes. -/
def quoteSafe (c : Char) : Bool :=
  ('a' ≤ c && c ≤ 'z') || ('A' ≤ c && c ≤ 'Z') || ('0' ≤ c && c ≤ '9') ||
  ['_', '.', '-', '~', '!', '@', '#', '$', '^', '*', '(', ')', '=', '+', '/', '?', '\'', '"', '>', '<',
   '\\', '|', ' ', '`', ',', ';', ':'].contains c

def upHex (n : Nat) : Char :=
  ['0', '1', '2', '3', '4', '5', '6', '7', '8', '9', 'A', 'B', 'C', 'D', 'E', 'F'].getD n '0'

def upHexVal (c : Char) : Option Nat :=
  ['0', '1', '2', '3', '4', '5', '6', '7', '8', '9', 'A', 'B', 'C', 'D', 'E', 'F'].idxOf? c

def quoteByte (b : Byte) : Str :=
  if quoteSafe (Char.ofNat b.toNat) then [Char.ofNat b.toNat]
  else ['%', upHex (b.toNat / 16), upHex (b.toNat % 16)]

/-- `urllib.parse.quote(s, safe=...)`. -/
def quote (s : Str) : Str := (utf8 s).flatMap quoteByte

/-- `urllib.parse.unquote_to_bytes` (lower-case hex digits, which `quote` does not produce, are not
recognised here). -/
def unquoteBytes : Str → List Byte
  | [] => []
  | c :: t =>
    if c = '%' then
      match t with
      | a :: b :: u =>
        match upHexVal a, upHexVal b with
        | some x, some y => UInt8.ofNat (16 * x + y) :: unquoteBytes u
        | _, _ => 37 :: unquoteBytes (a :: b :: u)
      | t => 37 :: unquoteBytes t
    else utf8 [c] ++ unquoteBytes t
termination_by s => s.length

/-- `urllib.parse.unquote` (undecodable bytes, which Python replaces by U+FFFD, give `none`). -/
def unquote (s : Str) : Option Str := unutf8 (unquoteBytes s)

/-- `buf[i*chunksize:(i+1)*chunksize]` for `i = 0, 1, ...` while `i*chunksize < len(buf)`
(backends/s3c.py:465-472).  For `chunksize = 0` the code would not terminate. -/
def chunks (n : Nat) (s : Str) : List Str :=
  if _h : n = 0 ∨ s = [] then []
  else s.take n :: chunks n (s.drop n)
termination_by s.length
decreasing_by
  have : 0 < s.length := List.length_pos_iff.2 (fun h => _h (Or.inr h))
  simp only [List.length_drop]; omega

/-- Header values for one key (backends/s3c.py:456-472). -/
def itemParts {F : Type} (fmt : FloatFmt F) (printable : Char → Bool) (chunk : Nat) (e : Str × Val F) :
    List Str :=
  let buf := quote (renderItem fmt printable e ++ [','])
  if buf.length < chunk then [buf] else chunks chunk buf

/-- `length` (4 bytes per header name are charged). -/
def charge (parts : List Str) : Nat := (parts.map (fun v => 4 + v.length)).sum

/-- The loop of `_add_meta_headers`: `none` is `ValueError('Metadata too large')`. -/
def addParts {F : Type} (fmt : FloatFmt F) (printable : Char → Bool) (chunk : Nat) :
    List (Str × Val F) → List Str → Nat → Option (List Str)
  | [], vals, _ => some vals
  | e :: d, vals, length =>
    let parts := itemParts fmt printable chunk e
    if length + charge parts > 2048 then none
    else addParts fmt printable chunk d (vals ++ parts) (length + charge parts)

/-- `'%smeta-%03d' % (hdr_prefix, i)`. -/
def hdrName (pfx : Str) (i : Nat) : Str := pfx ++ "meta-".toList ++ decPad 3 i

/-- Errors of the two functions. -/
inductive HErr where
  | tooLarge        -- `ValueError('Metadata too large')`
  | assertion       -- `assert hdr_count <= 999`
  | format          -- `CorruptedObjectError('Invalid metadata format')`
  | literal         -- `literal_eval` (or percent-decoding) fails
  | digest          -- `BadDigestError`
deriving DecidableEq, Repr

/-- `_add_meta_headers` (backends/s3c.py:444-481).  `ck` is the base64 text of
`checksum_basic_mapping(metadata)`. -/
def addMetaHeaders {F : Type} (fmt : FloatFmt F) (printable : Char → Bool) (ck : List (Str × Val F) → Str)
    (pfx : Str) (chunk : Nat) (d : List (Str × Val F)) : Except HErr (List (Str × Str)) :=
  match addParts fmt printable chunk d [] 0 with
  | none => .error .tooLarge
  | some vals =>
    if vals.length ≤ 999 then
      .ok (vals.mapIdx (fun i v => (hdrName pfx i, v)) ++
        [(pfx ++ "meta-format".toList, "raw2".toList), (pfx ++ "meta-md5".toList, ck d)])
    else .error .assertion

/-- `resp.headers.get(name)`. -/
def hdrGet (h : List (Str × Str)) (name : Str) : Option Str := (h.find? (fun e => e.1 = name)).map (·.2)

/-- `for i in count(): ...` (backends/s3c.py:702-709); the fuel is the number of headers plus one. -/
def collect (h : List (Str × Str)) (pfx : Str) : Nat → Nat → List Str
  | 0, _ => []
  | fuel + 1, i =>
    match hdrGet h (hdrName pfx i) with
    | none => []
    | some p => p :: collect h pfx fuel (i + 1)

/-- `b64decode`, or `None` if that fails (backends/s3c.py:714-721). -/
def unrawOrNone {F : Type} (v : RVal F) : Val F := (unraw v).getD .none

/-- `_extractmeta` (backends/s3c.py:694-742); the special case for two object names only changes the
exception class. -/
def extractMeta {F : Type} (fmt : FloatFmt F) (ck : List (Str × Val F) → Str) (pfx : Str)
    (h : List (Str × Str)) : Except HErr (List (Str × Val F)) :=
  if hdrGet h (pfx ++ "meta-format".toList) ≠ some "raw2".toList then .error .format
  else
    match unquote (collect h pfx (h.length + 1) 0).flatten with
    | none => .error .literal
    | some buf =>
      match parseDict fmt ('{' :: ' ' :: buf ++ [' ', '}']) with
      | none => .error .literal
      | some d =>
        let meta' := d.map (fun e => (e.1, unrawOrNone e.2))
        if some (ck meta') ≠ hdrGet h (pfx ++ "meta-md5".toList) then .error .digest
        else .ok meta'

/-- The library `h11` refuses to send a header value with white space at either end
(`LocalProtocolError: Illegal header value`). -/
def wireOk (v : Str) : Bool := v.head? ≠ some ' ' && v.getLast? ≠ some ' '

/-! ### Lemmas -/

theorem quoteByte_spec (b : Byte) :
    (∃ c, quoteByte b = [c] ∧ c ≠ '%' ∧ utf8 [c] = [b]) ∨
    (∃ x y, quoteByte b = ['%', upHex x, upHex y] ∧ upHexVal (upHex x) = some x ∧
      upHexVal (upHex y) = some y ∧ UInt8.ofNat (16 * x + y) = b) := by
  have key : ∀ n : Fin 256,
      (quoteSafe (Char.ofNat n.val) = true → Char.ofNat n.val ≠ '%' ∧
        String.utf8EncodeChar (Char.ofNat n.val) = [UInt8.ofNat n.val]) ∧
      upHexVal (upHex (n.val / 16)) = some (n.val / 16) ∧
      upHexVal (upHex (n.val % 16)) = some (n.val % 16) := by decide +kernel
  have hb : b.toNat < 256 := b.toNat_lt
  obtain ⟨h1, h2, h3⟩ := key ⟨b.toNat, hb⟩
  unfold quoteByte
  by_cases hs : quoteSafe (Char.ofNat b.toNat) = true
  · left
    refine ⟨_, if_pos hs, (h1 hs).1, ?_⟩
    have := (h1 hs).2
    unfold utf8
    rw [List.flatMap_cons, List.flatMap_nil, List.append_nil, this]
    simp
  · right
    refine ⟨_, _, if_neg hs, h2, h3, ?_⟩
    apply ofNat_toNat
    omega

theorem unquoteBytes_quote (bs : List Byte) : unquoteBytes (bs.flatMap quoteByte) = bs := by
  induction bs with
  | nil => simp [unquoteBytes]
  | cons b bs ih =>
    rw [List.flatMap_cons]
    rcases quoteByte_spec b with ⟨c, h1, h2, h3⟩ | ⟨x, y, h1, h2, h3, h4⟩
    · rw [h1, List.singleton_append]
      conv => lhs; unfold unquoteBytes
      rw [if_neg h2, h3, ih]; rfl
    · rw [h1]
      show unquoteBytes ('%' :: upHex x :: upHex y :: bs.flatMap quoteByte) = _
      conv => lhs; unfold unquoteBytes
      rw [if_pos rfl]
      dsimp only
      rw [h2, h3]
      dsimp only
      rw [h4, ih]

theorem unquote_quote (s : Str) : unquote (quote s) = some s := by
  unfold unquote quote
  rw [unquoteBytes_quote, unutf8_utf8]

theorem quote_append (s t : Str) : quote (s ++ t) = quote s ++ quote t := by
  unfold quote utf8
  rw [List.flatMap_append, List.flatMap_append]

theorem chunks_flatten (n : Nat) (hn : 0 < n) (s : Str) : (chunks n s).flatten = s := by
  fun_induction chunks n s with
  | case1 s h =>
    rcases h with h | h
    · omega
    · subst h; rfl
  | case2 s h ih =>
    rw [List.flatten_cons, ih, List.take_append_drop]

theorem itemParts_flatten {F : Type} (fmt : FloatFmt F) (printable : Char → Bool) (chunk : Nat)
    (hc : 0 < chunk) (e : Str × Val F) :
    (itemParts fmt printable chunk e).flatten = quote (renderItem fmt printable e ++ [',']) := by
  unfold itemParts
  dsimp only
  split
  · simp
  · exact chunks_flatten chunk hc _

theorem charge_append (a b : List Str) : charge (a ++ b) = charge a + charge b := by
  unfold charge; rw [List.map_append, List.sum_append]

theorem addParts_spec {F : Type} (fmt : FloatFmt F) (printable : Char → Bool) (chunk : Nat)
    (d : List (Str × Val F)) (vals : List Str) (hl : charge vals ≤ 2048) :
    addParts fmt printable chunk d vals (charge vals) =
      if charge (vals ++ d.flatMap (itemParts fmt printable chunk)) ≤ 2048 then
        some (vals ++ d.flatMap (itemParts fmt printable chunk)) else none := by
  induction d generalizing vals with
  | nil => simp [addParts, hl]
  | cons e d ih =>
    unfold addParts
    dsimp only
    rw [← charge_append, List.flatMap_cons, ← List.append_assoc]
    split
    · rename_i h
      rw [if_neg]
      rw [charge_append]
      omega
    · rename_i h
      exact ih _ (by omega)

theorem hdrName_inj (pfx : Str) (i j : Nat) (h : hdrName pfx i = hdrName pfx j) : i = j := by
  unfold hdrName at h
  exact decPad_inj _ _ _ (List.append_cancel_left h)

theorem decPad_mem (w n : Nat) (c : Char) (h : c ∈ decPad w n) : ∃ d, d < 10 ∧ digitChar d = c := by
  unfold decPad padZero at h
  rw [List.mem_map] at h
  obtain ⟨d, hd, rfl⟩ := h
  rw [List.mem_append] at hd
  refine ⟨d, ?_, rfl⟩
  rcases hd with hd | hd
  · have := (List.mem_replicate.1 hd).2; omega
  · exact digits_lt 8 n d hd

theorem hdrName_ne (pfx : Str) (i : Nat) (suffix : Str) (c : Char) (hc : c ∈ suffix)
    (hd : ∀ d, d < 10 → digitChar d ≠ c) : hdrName pfx i ≠ pfx ++ "meta-".toList ++ suffix := by
  intro h
  unfold hdrName at h
  have := List.append_cancel_left h
  rw [← this] at hc
  obtain ⟨d, hlt, he⟩ := decPad_mem _ _ _ hc
  exact hd d hlt he

/-- Looking up numbered headers. -/
theorem find_mapIdx (pfx : Str) (vals : List Str) (rest : List (Str × Str))
    (k i : Nat) (hrest : hdrGet rest (hdrName pfx (k + i)) = none) :
    hdrGet (vals.mapIdx (fun j v => (hdrName pfx (k + j), v)) ++ rest) (hdrName pfx (k + i)) = vals[i]? := by
  induction vals generalizing k i with
  | nil => simpa using hrest
  | cons v vals ih =>
    rw [List.mapIdx_cons, List.cons_append]
    unfold hdrGet
    rw [List.find?_cons]
    cases i with
    | zero => simp
    | succ i =>
      have hne : (decide (hdrName pfx (k + 0) = hdrName pfx (k + (i + 1)))) = false := by
        rw [decide_eq_false_iff_not]
        intro h
        have := hdrName_inj _ _ _ h
        omega
      rw [hne]
      dsimp only
      have e1 : k + (i + 1) = (k + 1) + i := by omega
      have := ih (k + 1) i (by rw [← e1]; exact hrest)
      rw [e1]
      rw [List.getElem?_cons_succ, ← this]
      unfold hdrGet
      congr 3
      apply List.mapIdx_eq_mapIdx_iff.2
      intro j hj
      simp only [Prod.mk.injEq, and_true]
      congr 1; omega

theorem collect_eq (h : List (Str × Str)) (pfx : Str) (vals : List Str)
    (hg : ∀ i, hdrGet h (hdrName pfx i) = vals[i]?) (fuel i : Nat) (hf : vals.length < fuel + i) :
    collect h pfx fuel i = vals.drop i := by
  induction fuel generalizing i with
  | zero =>
    rw [List.drop_of_length_le (by omega)]; rfl
  | succ fuel ih =>
    unfold collect
    rw [hg i]
    by_cases hi : i < vals.length
    · rw [List.getElem?_eq_getElem hi]
      dsimp only
      rw [ih (i + 1) (by omega), List.getElem_cons_drop]
    · rw [List.getElem?_eq_none (by omega), List.drop_of_length_le (by omega)]

theorem flatten_flatMap_parts {F : Type} (fmt : FloatFmt F) (printable : Char → Bool) (chunk : Nat)
    (hc : 0 < chunk) (d : List (Str × Val F)) :
    (d.flatMap (itemParts fmt printable chunk)).flatten =
      quote (d.flatMap (fun e => renderItem fmt printable e ++ [','])) := by
  induction d with
  | nil => rfl
  | cons e d ih =>
    rw [List.flatMap_cons, List.flatten_append, ih, itemParts_flatten fmt printable chunk hc,
      List.flatMap_cons, quote_append _ (List.flatMap _ d)]

theorem length_flatMap_items {F : Type} (fmt : FloatFmt F) (printable : Char → Bool)
    (d : List (Str × Val F)) :
    d.length ≤ (d.flatMap (fun e => renderItem fmt printable e ++ [','])).length := by
  induction d with
  | nil => simp
  | cons e d ih =>
    rw [List.flatMap_cons, List.length_append, List.length_cons, List.length_append]
    simp only [List.length_cons, List.length_nil]
    omega

theorem parseDict_commas {F : Type} (fmt : FloatFmt F) (printable : Char → Bool)
    (d : List (Str × Val F)) (hv : ∀ e ∈ d, ValOk fmt e.2) (hk : (d.map (·.1)).Nodup) :
    parseDict fmt ('{' :: ' ' :: d.flatMap (fun e => renderItem fmt printable e ++ [',']) ++ [' ', '}'])
      = some (d.map (fun e => (e.1, e.2.raw))) := by
  have hlen := length_flatMap_items fmt printable d
  unfold parseDict
  rw [List.cons_append, skipWs_ne '{' _ (by decide)]
  simp only []
  rw [List.cons_append, parseItems_space]
  have := parseItems_commas fmt printable d
    ((' ' :: (d.flatMap (fun e => renderItem fmt printable e ++ [',']) ++ [' ', '}'])).length + 1)
    (by simp only [List.length_cons, List.length_append]; omega) [] [] hv (by simpa using hk)
  rw [this]
  simp [skipWs]

theorem map_unrawOrNone {F : Type} (d : List (Str × Val F)) :
    (d.map (fun e => (e.1, e.2.raw))).map (fun e => (e.1, unrawOrNone e.2)) = d := by
  rw [List.map_map]
  conv => rhs; rw [← List.map_id d]
  apply List.map_congr_left
  intro e _
  simp [unrawOrNone, unraw_raw]

end Verif.Codec
