import Verif.Backend.Percent
/-
Property C68: requests are about the configured bucket and the given object, for every bucket, prefix and
object name, whatever characters they contain.
-/
namespace Verif.Backend.Addr
open Verif.Codec (Str Byte utf8 unutf8)

/-! ### Specification: what the servers take a request to be about -/

/-- The bucket and object a request is about, and its query parameters. -/
structure Addressed where
  bucket : List Byte
  key : List Byte
  params : List (List Byte × List Byte)
deriving DecidableEq

/-- The parameters of a request target. -/
def paramsOf (q : Option Str) : List (List Byte × List Byte) := (q.map formDecode).getD []

/-- `s` without the suffix `suf`, if it has it. -/
def stripSuffix (suf s : Str) : Option Str := if suf.isSuffixOf s then some (s.take (s.length - suf.length)) else none

/-- An S3 server with endpoint name `base`: if the `Host` header is the endpoint itself, the path is
`/bucket/key` (path style), if it is `bucket.endpoint` the path is `/key` (virtual-hosted style). -/
def s3Server (base host target : Str) : Option Addressed :=
  match (cut '?' target).1 with
  | '/' :: r =>
    if host = base then
      some ⟨pctDecode false (cut '/' r).1, pctDecode false ((cut '/' r).2.getD []), paramsOf (cut '?' target).2⟩
    else
      match stripSuffix ('.' :: base) host with
      | some b => some ⟨utf8 b, pctDecode false r, paramsOf (cut '?' target).2⟩
      | none => none
  | _ => none

/-- A Swift server: the path is `/version/account/container/object`. -/
def swiftServer (target : Str) : Option (List Byte × List Byte × Addressed) :=
  match (cut '?' target).1 with
  | '/' :: r =>
    match cut '/' r with
    | (v, some r) =>
      match cut '/' r with
      | (a, some r) =>
        some (pctDecode false v, pctDecode false a,
          ⟨pctDecode false (cut '/' r).1, pctDecode false ((cut '/' r).2.getD []), paramsOf (cut '?' target).2⟩)
      | _ => none
    | _ => none
  | _ => none

/-- The Google storage server: the path is `/storage/v1/b/<bucket>/o/<object>` with exactly these components. -/
def gsServer (target : Str) : Option Addressed :=
  match splitOn '/' (cut '?' target).1 with
  | [e, s, v, b, bucket, o, key] =>
    if e = [] ∧ s = "storage".toList ∧ v = "v1".toList ∧ b = "b".toList ∧ o = "o".toList then
      some ⟨pctDecode false bucket, pctDecode false key, paramsOf (cut '?' target).2⟩
    else none
  | _ => none

/-- The Swift bulk delete middleware: one percent-encoded `/container/object` per line. -/
def bulkServer (body : Str) : List (List Byte × List Byte) :=
  (splitOn '\n' body).map (fun line =>
    let r := line.dropWhile (· = '/')
    (pctDecode false (cut '/' r).1, pctDecode false ((cut '/' r).2.getD [])))

/-- Character data of an XML document: the predefined entities, and the normalisation of line ends. -/
def xmlText : Str → Str
  | [] => []
  | '&' :: 'a' :: 'm' :: 'p' :: ';' :: t => '&' :: xmlText t
  | '&' :: 'l' :: 't' :: ';' :: t => '<' :: xmlText t
  | '&' :: 'g' :: 't' :: ';' :: t => '>' :: xmlText t
  | '\r' :: '\n' :: t => '\n' :: xmlText t
  | '\r' :: t => '\n' :: xmlText t
  | c :: t => c :: xmlText t

/-- The texts of the `Key` elements of an XML document without attributes. -/
def xmlKeys : Str → List Str
  | [] => []
  | '<' :: 'K' :: 'e' :: 'y' :: '>' :: t => xmlText (t.takeWhile (· ≠ '<')) :: xmlKeys t
  | _ :: t => xmlKeys t

/-! ### The client -/

/-- The attributes of the S3 backends that matter here (backends/s3c.py:82-120, `hostname`, `bucket_name`,
`prefix`). -/
structure S3c where
  hostname : Str
  bucket : Str
  pfx : Str

/-- `path += '?...'` (backends/s3c.py:672-679, backends/swift.py:439-446). -/
def addQuery (path : Str) (subres : Option Str) (q : List (Str × Str)) : Str :=
  if q ≠ [] then
    match subres with
    | some sub => path ++ '?' :: (sub ++ '&' :: urlencode q)
    | none => path ++ '?' :: urlencode q
  else
    match subres with
    | some sub => path ++ '?' :: sub
    | none => path

/-- `if not self.hostname.startswith(self.bucket_name): path = '/%s%s' % (self.bucket_name, path)`
(backends/s3c.py:664). -/
def S3c.reqPath (b : S3c) (path : Str) : Str :=
  if b.bucket.isPrefixOf b.hostname then path else '/' :: (b.bucket ++ path)

/-- The request target built by `_do_request_inner` (backends/s3c.py:664-679). -/
def S3c.target (b : S3c) (path : Str) (subres : Option Str) (q : List (Str × Str)) : Str :=
  addQuery (quotePath (b.reqPath path)) subres q

/-- `'/%s%s' % (self.prefix, key)` (backends/s3c.py:252, 326, 342, 367, 424). -/
def S3c.objPath (b : S3c) (key : Str) : Str := '/' :: (b.pfx ++ key)

/-- The listing request (backends/s3c.py:270-279). -/
def S3c.listTarget (b : S3c) (prefix_ : Str) (batch : Str) (marker : Option Str) : Str :=
  b.target ['/'] none ([("prefix".toList, b.pfx ++ prefix_), ("max-keys".toList, batch)] ++
    (marker.map (fun m => ("marker".toList, m))).toList)

/-- The request target of the Swift backend (backends/swift.py:438-446). -/
def swiftTarget (authPrefix container path : Str) (subres : Option Str) (q : List (Str × Str)) : Str :=
  addQuery (quotePath (authPrefix ++ '/' :: (container ++ path))) subres q

/-- The request target for an object in the Google storage backend (backends/gs.py:341-344, 409-412, 442-445,
649-651). -/
def gsTarget (bucket pfx key : Str) (q : List (Str × Str)) : Str :=
  addQuery ("/storage/v1/b/".toList ++ quoteW [] bucket ++ "/o/".toList ++ quoteW [] (pfx ++ key)) none q

/-- `esc_prefix` of the Swift bulk delete (backends/swift.py:665-668). -/
def escPrefix (container pfx : Str) : Str := '/' :: (quotePath container ++ '/' :: quotePath pfx)

/-- The body of a Swift bulk delete request (backends/swift.py:664-671). -/
def bulkBody (container pfx : Str) (keys : List Str) : Str :=
  join '\n' (keys.map (fun k => escPrefix container pfx ++ quotePath k))

/-- `urllib.parse.unquote(fullkey[offset:])` for an entry of the error list (backends/swift.py:719-724); `none`
is the failed assertion (or bytes that are no UTF-8, which Python replaces). -/
def bulkFailed (container pfx fullkey : Str) : Option Str :=
  if (escPrefix container pfx).isPrefixOf fullkey then
    unutf8 (pctDecode false (fullkey.drop (escPrefix container pfx).length))
  else none

/-- `xml_escape` (`xml.sax.saxutils.escape`): first `&`, then `>` and `<`. -/
def xmlEscape (s : Str) : Str :=
  s.flatMap (fun c => if c = '&' then "&amp;".toList else if c = '>' then "&gt;".toList
    else if c = '<' then "&lt;".toList else [c])

/-- The body of an S3 multi-object delete (backends/s3c4.py:101-108). -/
def deleteBody (pfx : Str) (keys : List Str) : Str :=
  join '\n' (["<Delete>".toList] ++
    keys.map (fun k => "<Object><Key>".toList ++ xmlEscape pfx ++ xmlEscape k ++ "</Key></Object>".toList) ++
    ["</Delete>".toList])

/-! ### Lemmas -/

/-- A subresource name of plain characters (`delete`, `bulk-delete`, `location`, ...). -/
def Plain (s : Str) : Prop := quoteW [] s = s

instance (s : Str) : Decidable (Plain s) := inferInstanceAs (Decidable (_ = _))

/-- The parameters a server should see. -/
def wanted (subres : Option Str) (q : List (Str × Str)) : List (List Byte × List Byte) :=
  (subres.map (fun s => (utf8 s, ([] : List Byte)))).toList ++ q.map (fun e => (utf8 e.1, utf8 e.2))

theorem Plain.mem {s : Str} (h : Plain s) {c : Char} (hc : c ∈ s) : c ≠ '?' ∧ c ≠ '&' ∧ c ≠ '=' := by
  have := quoteW_mem [] safe_nil s (c := c) (by rw [h]; exact hc)
  exact ⟨this.1, this.2.1, this.2.2.1⟩

theorem Plain.decode {s : Str} (h : Plain s) : pctDecode true s = utf8 s := by
  have := pctDecode_quoteW true [] safe_nil s
  rwa [h] at this

theorem cut_addQuery (p : Str) (hp : '?' ∉ p) (subres : Option Str) (hs : ∀ s, subres = some s → Plain s)
    (q : List (Str × Str)) : (cut '?' (addQuery p subres q)).1 = p ∧
    paramsOf (cut '?' (addQuery p subres q)).2 = wanted subres q := by
  unfold addQuery
  by_cases hq : q ≠ []
  · rw [if_pos hq]
    cases subres with
    | none =>
      simp only
      rw [cut_append _ hp]
      refine ⟨rfl, ?_⟩
      show formDecode (urlencode q) = _
      rw [formDecode_urlencode q hq]; rfl
    | some s =>
      simp only
      rw [cut_append _ hp]
      refine ⟨rfl, ?_⟩
      have hpl := hs s rfl
      show formDecode (s ++ '&' :: urlencode q) = _
      have h1 : formDecode (s ++ '&' :: urlencode q) = (utf8 s, []) :: formDecode (urlencode q) := by
        unfold formDecode
        rw [splitOn_append _ (fun hc => (hpl.mem hc).2.1 rfl), List.map_cons,
          cut_none (fun hc => (hpl.mem hc).2.2 rfl)]
        simp only [Option.getD, hpl.decode]; rfl
      rw [h1, formDecode_urlencode q hq]; rfl
  · rw [if_neg hq]
    have hq' : q = [] := Decidable.not_not.1 hq
    subst hq'
    cases subres with
    | none =>
      simp only
      rw [cut_none hp]
      exact ⟨rfl, rfl⟩
    | some s =>
      simp only
      rw [cut_append _ hp]
      refine ⟨rfl, ?_⟩
      have hpl := hs s rfl
      show formDecode s = _
      unfold formDecode
      rw [splitOn_none (fun hc => (hpl.mem hc).2.1 rfl), List.map_cons, cut_none (fun hc => (hpl.mem hc).2.2 rfl)]
      simp only [Option.getD, hpl.decode]; rfl

theorem no_mark (s : Str) : '?' ∉ quotePath s := fun h => (quoteW_mem _ safe_slash s h).1 rfl

theorem decode_path (s : Str) : pctDecode false (quotePath s) = utf8 s := pctDecode_quoteW false _ safe_slash s

theorem no_slash {s : Str} (h : '/' ∉ s) : '/' ∉ quotePath s := fun hc => h (slash_of_quote safe_slash hc)

theorem quotePath_append (s t : Str) : quotePath (s ++ t) = quotePath s ++ quotePath t := quoteW_append _ s t

theorem cut_bucket {b : Str} (hb : '/' ∉ b) (r : Str) :
    cut '/' (quotePath (b ++ '/' :: r)) = (quotePath b, some (quotePath r)) := by
  rw [quotePath_append, quotePath_slash, cut_append _ (no_slash hb)]

theorem stripSuffix_append (b suf : Str) : stripSuffix suf (b ++ suf) = some b := by
  unfold stripSuffix
  rw [if_pos (List.isSuffixOf_iff_suffix.2 (List.suffix_append _ _))]
  simp

/-- The endpoint the backend talks to, and whether it is configured in a way that works: either the endpoint
itself, and the bucket's name is not the beginning of the endpoint's name, or `bucket.endpoint`. -/
def Usable (base : Str) (b : S3c) : Prop :=
  (b.hostname = base ∧ ¬ b.bucket <+: base) ∨ b.hostname = b.bucket ++ '.' :: base

theorem target_addressed (base : Str) (b : S3c) (hu : Usable base b) (hb : '/' ∉ b.bucket) (rest : Str)
    (subres : Option Str) (hs : ∀ s, subres = some s → Plain s) (q : List (Str × Str)) :
    s3Server base b.hostname (b.target ('/' :: rest) subres q) = some ⟨utf8 b.bucket, utf8 rest, wanted subres q⟩ := by
  unfold S3c.target
  obtain ⟨h1, h2⟩ := cut_addQuery (quotePath (b.reqPath ('/' :: rest))) (no_mark _) subres hs q
  unfold s3Server
  rw [h1, h2]
  rcases hu with ⟨hh, hp⟩ | hh
  · have hp' : ¬ (b.bucket.isPrefixOf b.hostname = true) := by
      rw [hh]; exact fun h => hp (List.isPrefixOf_iff_prefix.1 h)
    unfold S3c.reqPath
    rw [if_neg hp', quotePath_slash]
    simp only
    rw [if_pos hh, cut_bucket hb]
    simp only [Option.getD, decode_path]
  · have hp' : b.bucket.isPrefixOf b.hostname = true := by
      rw [hh]; exact List.isPrefixOf_iff_prefix.2 (List.prefix_append _ _)
    unfold S3c.reqPath
    rw [if_pos hp', quotePath_slash]
    simp only
    have hne : b.hostname ≠ base := by
      intro h
      have := congrArg List.length (h ▸ hh)
      simp at this; omega
    rw [if_neg hne, hh, stripSuffix_append]
    simp only [decode_path]

/-! ### C68 -/

/-- Every request of the S3 backends about an object addresses the configured bucket and the object
`prefix + key`, and carries exactly the given parameters. -/
theorem C68_s3_object_partial (base : Str) (b : S3c) (hu : Usable base b) (hb : '/' ∉ b.bucket) (key : Str)
    (subres : Option Str) (hs : ∀ s, subres = some s → Plain s) (q : List (Str × Str)) :
    s3Server base b.hostname (b.target (b.objPath key) subres q) =
      some ⟨utf8 b.bucket, utf8 (b.pfx ++ key), wanted subres q⟩ :=
  target_addressed base b hu hb (b.pfx ++ key) subres hs q

/-- A listing addresses the configured bucket and asks for exactly the objects under the prefix, from the given
marker. -/
theorem C68_s3_list_partial (base : Str) (b : S3c) (hu : Usable base b) (hb : '/' ∉ b.bucket) (prefix_ batch : Str)
    (marker : Option Str) :
    s3Server base b.hostname (b.listTarget prefix_ batch marker) = some ⟨utf8 b.bucket, [],
      [(utf8 "prefix".toList, utf8 (b.pfx ++ prefix_)), (utf8 "max-keys".toList, utf8 batch)] ++
        (marker.map (fun m => (utf8 "marker".toList, utf8 m))).toList⟩ := by
  have h := target_addressed base b hu hb [] none (fun _ h => by cases h)
    ([("prefix".toList, b.pfx ++ prefix_), ("max-keys".toList, batch)] ++
      (marker.map (fun m => ("marker".toList, m))).toList)
  rw [show utf8 ([] : Str) = [] from rfl] at h
  unfold S3c.listTarget
  rw [h]
  cases marker <;> rfl

theorem utf8_inj {s t : Str} (h : utf8 s = utf8 t) : s = t := by
  have h1 := Verif.Codec.unutf8_utf8 s
  rw [h, Verif.Codec.unutf8_utf8 t] at h1
  exact (Option.some.inj h1).symm

/-- Two file systems or two objects are never mixed up: requests that a server cannot tell apart are about the same
bucket and the same object. -/
theorem C68_s3_distinct_partial (base : Str) (b b' : S3c) (hu : Usable base b) (hu' : Usable base b')
    (hb : '/' ∉ b.bucket) (hb' : '/' ∉ b'.bucket) (key key' : Str) (hh : b.hostname = b'.hostname)
    (h : b.target (b.objPath key) none [] = b'.target (b'.objPath key') none []) :
    b.bucket = b'.bucket ∧ b.pfx ++ key = b'.pfx ++ key' := by
  have h1 := C68_s3_object_partial base b hu hb key none (fun _ h => by cases h) []
  have h2 := C68_s3_object_partial base b' hu' hb' key' none (fun _ h => by cases h) []
  rw [h, hh, h2] at h1
  have h3 := Option.some.inj h1
  exact ⟨utf8_inj (congrArg Addressed.bucket h3).symm, utf8_inj (congrArg Addressed.key h3).symm⟩

/-- If the bucket's name is the beginning of the name of the endpoint, every request goes to another bucket: the
first component of the object's name is taken for the bucket. -/
theorem C68_wrong_bucket (base : Str) (b : S3c) (hh : b.hostname = base) (hp : b.bucket <+: base) (key : Str)
    (q : List (Str × Str)) :
    s3Server base b.hostname (b.target (b.objPath key) none q) =
      some ⟨pctDecode false (cut '/' (quotePath (b.pfx ++ key))).1,
        pctDecode false ((cut '/' (quotePath (b.pfx ++ key))).2.getD []), wanted none q⟩ := by
  unfold S3c.target
  obtain ⟨h1, h2⟩ := cut_addQuery (quotePath (b.reqPath (b.objPath key))) (no_mark _) none (fun _ h => by cases h) q
  unfold s3Server
  rw [h1, h2]
  unfold S3c.reqPath S3c.objPath
  rw [if_pos (by rw [hh]; exact List.isPrefixOf_iff_prefix.2 hp), quotePath_slash]
  simp only
  rw [if_pos hh]

/-- Swift: every request about an object addresses the configured account, container and object. -/
theorem C68_swift_object (version account container pfx key : Str) (hv : '/' ∉ version) (ha : '/' ∉ account)
    (hc : '/' ∉ container) (subres : Option Str) (hs : ∀ s, subres = some s → Plain s) (q : List (Str × Str)) :
    swiftServer (swiftTarget ('/' :: (version ++ '/' :: account)) container ('/' :: (pfx ++ key)) subres q) =
      some (utf8 version, utf8 account, ⟨utf8 container, utf8 (pfx ++ key), wanted subres q⟩) := by
  unfold swiftTarget
  obtain ⟨h1, h2⟩ := cut_addQuery (quotePath ('/' :: (version ++ '/' :: account) ++ '/' :: (container ++ '/' :: (pfx ++ key))))
    (no_mark _) subres hs q
  unfold swiftServer
  rw [h1, h2]
  have e : '/' :: (version ++ '/' :: account) ++ '/' :: (container ++ '/' :: (pfx ++ key)) =
    '/' :: (version ++ '/' :: (account ++ '/' :: (container ++ '/' :: (pfx ++ key)))) := by simp
  rw [e, quotePath_slash]
  simp only
  rw [cut_bucket hv]
  simp only
  rw [cut_bucket ha]
  simp only
  rw [cut_bucket hc]
  simp only [Option.getD, decode_path]

/-- Google storage: every request about an object addresses the configured bucket and object. -/
theorem C68_gs_object (bucket pfx key : Str) (q : List (Str × Str)) :
    gsServer (gsTarget bucket pfx key q) = some ⟨utf8 bucket, utf8 (pfx ++ key), wanted none q⟩ := by
  unfold gsTarget
  have hm : ∀ s, '?' ∉ quoteW [] s := fun s h => (quoteW_mem [] safe_nil s h).1 rfl
  have hsl : ∀ s, '/' ∉ quoteW [] s := fun s h => by
    have := (quoteW_mem [] safe_nil s h).2.2.2.2.1 rfl
    cases this
  obtain ⟨h1, h2⟩ := cut_addQuery ("/storage/v1/b/".toList ++ quoteW [] bucket ++ "/o/".toList ++ quoteW [] (pfx ++ key))
    (by
      simp only [List.mem_append, not_or]
      exact ⟨⟨⟨by decide, hm _⟩, by decide⟩, hm _⟩) none (fun _ h => by cases h) q
  unfold gsServer
  rw [h1, h2]
  have e : "/storage/v1/b/".toList ++ quoteW [] bucket ++ "/o/".toList ++ quoteW [] (pfx ++ key) =
      [] ++ '/' :: ("storage".toList ++ '/' :: ("v1".toList ++ '/' :: ("b".toList ++ '/' ::
        (quoteW [] bucket ++ '/' :: ("o".toList ++ '/' :: quoteW [] (pfx ++ key)))))) := by simp
  rw [e, splitOn_append _ (by simp), splitOn_append _ (by decide), splitOn_append _ (by decide),
    splitOn_append _ (by decide), splitOn_append _ (hsl _), splitOn_append _ (by decide), splitOn_none (hsl _)]
  simp only [and_self, if_true, pctDecode_quoteW false [] safe_nil]

/-- A Swift bulk delete removes exactly the given objects, in order. -/
theorem C68_swift_bulk_delete (container pfx : Str) (hc : '/' ∉ container) (hne : container ≠ []) (keys : List Str)
    (hk : keys ≠ []) :
    bulkServer (bulkBody container pfx keys) = keys.map (fun k => (utf8 container, utf8 (pfx ++ k))) := by
  unfold bulkServer bulkBody
  rw [splitOn_join]
  · rw [List.map_map]
    apply List.map_congr_left
    intro k _
    simp only [Function.comp]
    unfold escPrefix
    have e : '/' :: (quotePath container ++ '/' :: quotePath pfx) ++ quotePath k =
      '/' :: quotePath (container ++ '/' :: (pfx ++ k)) := by
      rw [quotePath_append, quotePath_slash, quotePath_append]; simp
    rw [e]
    have hd : List.dropWhile (fun x => decide (x = '/')) ('/' :: quotePath (container ++ '/' :: (pfx ++ k))) =
        quotePath (container ++ '/' :: (pfx ++ k)) := by
      rw [List.dropWhile_cons_of_pos (by decide)]
      rw [quotePath_append]
      cases hq : quotePath container with
      | nil =>
        have := decode_path container
        rw [hq] at this
        exact absurd (utf8_inj (t := []) this.symm) hne
      | cons a t =>
        rw [List.cons_append, List.dropWhile_cons_of_neg]
        have : '/' ∉ quotePath container := no_slash hc
        rw [hq] at this
        simp only [List.mem_cons, not_or] at this
        simpa using fun h => this.1 h.symm
    rw [hd, cut_bucket hc]
    simp only [Option.getD, decode_path]
  · simpa using hk
  · intro p hp
    obtain ⟨k, _, rfl⟩ := List.mem_map.1 hp
    have hn : ∀ s, '\n' ∉ quotePath s := fun s h => (quoteW_mem _ safe_slash s h).2.2.2.1 rfl
    unfold escPrefix
    simp only [List.mem_append, List.mem_cons, not_or]
    exact ⟨⟨by decide, hn _, by decide, hn _⟩, hn _⟩

/-- An object that the server reports as failed, under the name that was sent, is recognised. -/
theorem C68_swift_bulk_failed (container pfx key : Str) :
    bulkFailed container pfx (escPrefix container pfx ++ quotePath key) = some key := by
  unfold bulkFailed
  rw [if_pos (List.isPrefixOf_iff_prefix.2 (List.prefix_append _ _)), List.drop_left, decode_path,
    Verif.Codec.unutf8_utf8]

/-! XML -/

/-- `xml_escape` of one character. -/
def escC (c : Char) : Str := if c = '&' then "&amp;".toList else if c = '>' then "&gt;".toList
    else if c = '<' then "&lt;".toList else [c]

theorem xmlText_escC (c : Char) (hc : c ≠ '\r') (r : Str) : xmlText (escC c ++ r) = c :: xmlText r := by
  unfold escC
  by_cases h1 : c = '&'
  · subst h1; rfl
  · rw [if_neg h1]
    by_cases h2 : c = '>'
    · subst h2; rfl
    · rw [if_neg h2]
      by_cases h3 : c = '<'
      · subst h3; rfl
      · rw [if_neg h3]
        show xmlText (c :: r) = _
        rw [xmlText.eq_7] <;> (intros; contradiction)

theorem xmlText_escape (s : Str) (hs : '\r' ∉ s) (r : Str) : xmlText (xmlEscape s ++ r) = s ++ xmlText r := by
  induction s with
  | nil => rfl
  | cons c t ih =>
    simp only [List.mem_cons, not_or] at hs
    have e : xmlEscape (c :: t) = escC c ++ xmlEscape t := rfl
    rw [e, List.append_assoc, xmlText_escC c (fun h => hs.1 h.symm), ih hs.2]; rfl

theorem escape_no_lt (s : Str) : '<' ∉ xmlEscape s := by
  intro h
  obtain ⟨c, _, hc⟩ := List.mem_flatMap.1 h
  replace hc : '<' ∈ escC c := hc
  unfold escC at hc
  split at hc
  · revert hc; decide
  · split at hc
    · revert hc; decide
    · split at hc
      · revert hc; decide
      · rename_i h3
        exact h3 (List.mem_singleton.1 hc).symm

theorem takeWhile_stop {p : Str} (hp : '<' ∉ p) (r : Str) : (p ++ '<' :: r).takeWhile (· ≠ '<') = p := by
  induction p with
  | nil => rw [List.nil_append, List.takeWhile_cons_of_neg (by decide)]
  | cons c t ih =>
    simp only [List.mem_cons, not_or] at hp
    rw [List.cons_append, List.takeWhile_cons_of_pos (by simpa using fun h => hp.1 h.symm), ih hp.2]

theorem xmlKeys_skip {c : Char} (h : c ≠ '<') (t : Str) : xmlKeys (c :: t) = xmlKeys t := by
  rw [xmlKeys.eq_3]
  intro t' h'
  exact absurd h' h

theorem xmlKeys_text {p : Str} (hp : '<' ∉ p) (r : Str) : xmlKeys (p ++ r) = xmlKeys r := by
  induction p with
  | nil => rfl
  | cons c t ih =>
    simp only [List.mem_cons, not_or] at hp
    rw [List.cons_append, xmlKeys_skip (fun h => hp.1 h.symm), ih hp.2]

/-- One element of the body. -/
def xmlObject (pfx k : Str) : Str :=
  "<Object><Key>".toList ++ xmlEscape pfx ++ xmlEscape k ++ "</Key></Object>".toList

theorem xmlKeys_object (pfx k : Str) (hp : '\r' ∉ pfx) (hk : '\r' ∉ k) (r : Str) :
    xmlKeys (xmlObject pfx k ++ r) = (pfx ++ k) :: xmlKeys r := by
  unfold xmlObject
  have e : "<Object><Key>".toList ++ xmlEscape pfx ++ xmlEscape k ++ "</Key></Object>".toList ++ r =
    "<Object>".toList ++ ('<' :: 'K' :: 'e' :: 'y' :: '>' ::
      ((xmlEscape pfx ++ xmlEscape k) ++ ('<' :: ("/Key></Object>".toList ++ r)))) := by
    simp
  rw [e]
  have e2 : ∀ u, xmlKeys ("<Object>".toList ++ '<' :: 'K' :: 'e' :: 'y' :: '>' :: u) =
      xmlText (u.takeWhile (· ≠ '<')) :: xmlKeys u := by intro u; rfl
  have hlt : '<' ∉ xmlEscape pfx ++ xmlEscape k := by
    simp only [List.mem_append, not_or]; exact ⟨escape_no_lt _, escape_no_lt _⟩
  rw [e2, takeWhile_stop hlt, xmlText_escape _ hp, xmlKeys_text hlt]
  have h := xmlText_escape k hk []
  rw [List.append_nil, show xmlText ([] : Str) = [] from rfl, List.append_nil] at h
  rw [h]
  rfl

theorem xmlKeys_objects (pfx : Str) (hp : '\r' ∉ pfx) (tail : Str) (ht : xmlKeys tail = []) :
    ∀ (keys : List Str), (∀ k ∈ keys, '\r' ∉ k) →
    xmlKeys (join '\n' (keys.map (xmlObject pfx) ++ [tail])) = keys.map (fun k => pfx ++ k)
  | [], _ => ht
  | k :: t, h => by
    have ih := xmlKeys_objects pfx hp tail ht t (fun x hx => h x (List.mem_cons_of_mem _ hx))
    have e : join '\n' ((k :: t).map (xmlObject pfx) ++ [tail]) =
        xmlObject pfx k ++ '\n' :: join '\n' (t.map (xmlObject pfx) ++ [tail]) := by
      cases t <;> rfl
    rw [e, xmlKeys_object pfx k hp (h k List.mem_cons_self), xmlKeys_skip (by decide), ih]; rfl

/-- An S3 multi-object delete names exactly the given objects, in order, as long as no name contains a carriage
return. -/
theorem C68_s3_delete_multi_partial (pfx : Str) (hp : '\r' ∉ pfx) (keys : List Str) (hk : ∀ k ∈ keys, '\r' ∉ k) :
    xmlKeys (deleteBody pfx keys) = keys.map (fun k => pfx ++ k) := by
  unfold deleteBody
  have e : ["<Delete>".toList] ++ keys.map (fun k => "<Object><Key>".toList ++ xmlEscape pfx ++ xmlEscape k ++
      "</Key></Object>".toList) ++ ["</Delete>".toList] =
      "<Delete>".toList :: (keys.map (xmlObject pfx) ++ ["</Delete>".toList]) := rfl
  rw [e]
  have e2 : join '\n' ("<Delete>".toList :: (keys.map (xmlObject pfx) ++ ["</Delete>".toList])) =
      "<Delete>".toList ++ '\n' :: join '\n' (keys.map (xmlObject pfx) ++ ["</Delete>".toList]) := by
    cases keys <;> rfl
  rw [e2]
  have e3 : ∀ u, xmlKeys ("<Delete>".toList ++ '\n' :: u) = xmlKeys u := by intro u; rfl
  rw [e3]
  exact xmlKeys_objects pfx hp _ rfl keys hk

/-! ### Examples and violations -/

/-- A bucket on a path-style endpoint, with a prefix full of special characters. -/
def exPath : S3c := ⟨"s3.example.com".toList, "data".toList, "a b/ü?&=%2F+".toList⟩

/-- The same bucket with virtual-hosted requests. -/
def exHost : S3c := ⟨"data.s3.example.com".toList, "data".toList, "p/".toList⟩

example : Usable "s3.example.com".toList exPath ∧ '/' ∉ exPath.bucket := by
  refine ⟨Or.inl ⟨rfl, by decide⟩, by decide⟩
example : Usable "s3.example.com".toList exHost ∧ '/' ∉ exHost.bucket := ⟨Or.inr (by decide), by decide⟩
example : exPath.target (exPath.objPath "x".toList) none [] = "/data/a%20b/%C3%BC%3F%26%3D%252F%2Bx".toList := by decide +kernel
example : exHost.target (exHost.objPath "x".toList) none [] = "/p/x".toList := by decide +kernel
example : exPath.listTarget "s3ql".toList "1000".toList (some "m m".toList) =
    "/data/?prefix=a+b%2F%C3%BC%3F%26%3D%252F%2Bs3ql&max-keys=1000&marker=m+m".toList := by decide +kernel
example : gsTarget "b".toList "p/".toList "k k".toList [("alt".toList, "media".toList)] =
    "/storage/v1/b/b/o/p%2Fk%20k?alt=media".toList := by decide +kernel
example : Plain "bulk-delete".toList ∧ Plain "delete".toList := by decide +kernel
example : swiftTarget "/v1/AUTH_x".toList "c".toList "/".toList (some "bulk-delete".toList) [] =
    "/v1/AUTH_x/c/?bulk-delete".toList := by decide +kernel
example : deleteBody "p&".toList ["<1>".toList, "b".toList] =
  "<Delete>\n<Object><Key>p&amp;&lt;1&gt;</Key></Object>\n<Object><Key>p&amp;b</Key></Object>\n</Delete>".toList := by
  decide +kernel
example : bulkBody "c".toList "p/".toList ["a b".toList, "c\nd".toList] = "/c/p/a%20b\n/c/p/c%0Ad".toList := by decide +kernel

/-- `s3c://backup.example.com/backup/fs/`: the object `s3ql_data_1` of the bucket `backup` is written to a bucket
called `fs`. -/
theorem C68_prefix_of_endpoint : s3Server "backup.example.com".toList "backup.example.com".toList
    (S3c.target ⟨"backup.example.com".toList, "backup".toList, "fs/".toList⟩
      (S3c.objPath ⟨"backup.example.com".toList, "backup".toList, "fs/".toList⟩ "s3ql_data_1".toList) none []) =
    some ⟨utf8 "fs".toList, utf8 "s3ql_data_1".toList, []⟩ := by decide +kernel

/-- The same happens on Amazon S3 with the (valid) bucket name `s3.eu` in the region `eu-central-1`. -/
theorem C68_prefix_of_amazon : s3Server "s3.eu-central-1.amazonaws.com".toList "s3.eu-central-1.amazonaws.com".toList
    (S3c.target ⟨"s3.eu-central-1.amazonaws.com".toList, "s3.eu".toList, []⟩
      (S3c.objPath ⟨"s3.eu-central-1.amazonaws.com".toList, "s3.eu".toList, []⟩ "s3ql_data_1".toList) none []) =
    some ⟨utf8 "s3ql_data_1".toList, [], []⟩ := by decide +kernel

/-- A carriage return in the prefix: the multi-object delete names another object. -/
theorem C68_delete_multi_cr : xmlKeys (deleteBody "a\rb".toList ["k".toList]) = ["a\nbk".toList] := by decide +kernel

end Verif.Backend.Addr
