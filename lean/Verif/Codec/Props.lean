import Verif.Codec.Checksum
import Verif.Codec.Headers
import Verif.Codec.MetaName
/-
Property theorems for the serialisation formats: C13, C29, C30, C34.
-/
namespace Verif.Codec

/-! ## C13: names of metadata objects -/

/-- **C13.** Parsing the name of a metadata object gives back its block number and sequence number,
for numbers of every size. -/
theorem C13_name_roundtrip (blockno seqNo : Nat) :
    parseMetaName (metaName blockno seqNo) = some (blockno, seqNo) := by
  unfold metaName parseMetaName
  have e1 : stripNl ("s3ql_metadata_".toList ++ hexPad 12 blockno ++ '_' :: hexPad 10 seqNo) =
      "s3ql_metadata_".toList ++ (hexPad 12 blockno ++ '_' :: hexPad 10 seqNo) := by
    have := stripNl_append ("s3ql_metadata_".toList ++ hexPad 12 blockno ++ ['_']) (hexPad 10 seqNo)
      (hexPad_ne_nil _ _) (fun c hc => (hexPad_mem _ _ c hc).2)
    simpa [List.append_assoc] using this
  rw [e1, stripPrefix_append]
  dsimp only
  rw [List.takeWhile_append_of_pos (fun c hc => by simpa using (hexPad_mem _ _ c hc).1),
    List.dropWhile_append_of_pos (fun c hc => by simpa using (hexPad_mem _ _ c hc).1),
    List.takeWhile_cons_of_neg (by simp), List.dropWhile_cons_of_neg (by simp), List.append_nil]
  dsimp only
  rw [parse_hexPad, parse_hexPad]

/-- **C13.** Distinct (block, sequence) pairs have distinct names. -/
theorem C13_names_distinct (b s b' s' : Nat) (h : metaName b s = metaName b' s') : b = b' ∧ s = s' := by
  have := C13_name_roundtrip b s
  rw [h, C13_name_roundtrip] at this
  simp only [Option.some.injEq, Prod.mk.injEq] at this
  exact ⟨this.1.symm, this.2.symm⟩

/-- **C13** for the parameter objects `s3ql_params_…`. -/
theorem C13_params_roundtrip (n : Nat) : parseParamsName (paramsName n) = some n := by
  unfold paramsName parseParamsName
  rw [stripNl_append _ _ (hexPad_ne_nil _ _) (fun c hc => (hexPad_mem _ _ c hc).2), stripPrefix_append]
  exact parse_hexPad 10 n

/-- A metadata object name is never taken for a parameter object and conversely. -/
theorem C13_kinds_disjoint (b s n : Nat) :
    parseParamsName (metaName b s) = none ∧ parseMetaName (paramsName n) = none := by
  constructor
  · unfold metaName parseParamsName
    have := stripNl_append ("s3ql_metadata_".toList ++ hexPad 12 b ++ ['_']) (hexPad 10 s)
      (hexPad_ne_nil _ _) (fun c hc => (hexPad_mem _ _ c hc).2)
    have e1 : stripNl ("s3ql_metadata_".toList ++ hexPad 12 b ++ '_' :: hexPad 10 s) =
      "s3ql_metadata_".toList ++ (hexPad 12 b ++ '_' :: hexPad 10 s) := by
      simpa [List.append_assoc] using this
    rw [e1]
    rfl
  · unfold paramsName parseMetaName
    rw [stripNl_append _ _ (hexPad_ne_nil _ _) (fun c hc => (hexPad_mem _ _ c hc).2)]
    rfl

/-- Large numbers are not truncated by the field widths. -/
example : metaName (16 ^ 12 + 5) 3 = "s3ql_metadata_1000000000005_0000000003".toList := by decide +kernel

/-! ## C29: the checksum input -/

namespace Checksum

/-- **C29** in full: mappings with the same checksum input have the same value for every key that is
checksummed.  A mapping is the list of its items (distinct keys). -/
def C29_statement : Prop :=
  ∀ c d : List (Bytes × Val), (c.map (·.1)).Nodup → (d.map (·.1)).Nodup →
    (∀ e ∈ c, encOk e.2) → (∀ e ∈ d, encOk e.2) →
    input c = input d → ∀ k, k ≠ signature → get c k = get d k

/-- The code violates C29: `{'a': 'x', 'b': 'y'}` and `{'a': 'x\0b\0sy'}` have the same checksum
input (a NUL character inside a string ends it early). -/
theorem C29_violated : ¬ C29_statement := by
  intro h
  have := h [([97], .str [120]), ([98], .str [121])] [([97], .str [120, 0, 98, 0, 115, 121])]
    (by decide) (by decide) (by intro e he; rcases List.mem_cons.1 he with rfl | he
                                · trivial
                                · rw [List.mem_singleton] at he; subst he; trivial)
    (by intro e he; rw [List.mem_singleton] at he; subst he; trivial)
    (by
      unfold input
      rw [List.mergeSort_of_pairwise (by decide), List.mergeSort_of_pairwise (by decide)]
      decide +kernel) [98] (by decide)
  revert this
  decide +kernel

/-- **C29** for mappings without NUL characters in keys and string values (all metadata that S3QL
itself creates is of this kind: NUL can only stem from object keys). -/
theorem C29_input_injective_partial (c d : List (Bytes × Val))
    (hc : (c.map (·.1)).Nodup) (hd : (d.map (·.1)).Nodup)
    (nc : ∀ e ∈ c, NulFree e ∧ encOk e.2) (nd : ∀ e ∈ d, NulFree e ∧ encOk e.2)
    (h : input c = input d) (k : Bytes) (hk : k ≠ signature) : get c k = get d k := by
  unfold input at h
  have memc : ∀ e, e ∈ (c.mergeSort (fun a b => leBytes a.1 b.1)).filter (fun e => e.1 ≠ signature) ↔
      e ∈ c ∧ e.1 ≠ signature := by
    intro e; rw [List.mem_filter, List.mem_mergeSort]; simp
  have memd : ∀ e, e ∈ (d.mergeSort (fun a b => leBytes a.1 b.1)).filter (fun e => e.1 ≠ signature) ↔
      e ∈ d ∧ e.1 ≠ signature := by
    intro e; rw [List.mem_filter, List.mem_mergeSort]; simp
  have heq := flatten_inj _ _ (fun e he => nc e ((memc e).1 he).1) (fun e he => nd e ((memd e).1 he).1) h
  apply get_ext hc hd k
  intro v
  have h1 := memc (k, v)
  have h2 := memd (k, v)
  rw [heq] at h1
  have h3 := h1.symm.trans h2
  constructor
  · intro hm; exact (h3.1 ⟨hm, hk⟩).1
  · intro hm; exact (h3.2 ⟨hm, hk⟩).1

theorem leBytes_total (a b : Bytes) : leBytes a b || leBytes b a := by
  induction a generalizing b with
  | nil => rfl
  | cons x s ih =>
    cases b with
    | nil => rfl
    | cons y t =>
      unfold leBytes
      by_cases h : x = y
      · subst h; simpa using ih t
      · rw [if_neg h, if_neg (Ne.symm h)]
        have h1 : x.toNat ≠ y.toNat := fun hh => h (UInt8.toNat_inj.1 hh)
        simp only [Bool.or_eq_true, decide_eq_true_eq, UInt8.lt_iff_toNat_lt]
        omega

theorem leBytes_trans (a b c : Bytes) (h1 : leBytes a b) (h2 : leBytes b c) : leBytes a c := by
  induction a generalizing b c with
  | nil => rfl
  | cons x s ih =>
    cases b with
    | nil => simp [leBytes] at h1
    | cons y t =>
      cases c with
      | nil => simp [leBytes] at h2
      | cons z u =>
        unfold leBytes at h1 h2 ⊢
        by_cases hxy : x = y
        · subst hxy
          rw [if_pos rfl] at h1
          by_cases hxz : x = z
          · subst hxz
            rw [if_pos rfl] at h2 ⊢
            exact ih t u h1 h2
          · rw [if_neg hxz] at h2 ⊢; exact h2
        · rw [if_neg hxy] at h1
          by_cases hyz : y = z
          · subst hyz
            rw [if_neg hxy]; exact h1
          · rw [if_neg hyz] at h2
            simp only [decide_eq_true_eq, UInt8.lt_iff_toNat_lt] at h1 h2
            rw [if_neg (by intro h; subst h; omega)]
            simp only [decide_eq_true_eq, UInt8.lt_iff_toNat_lt]
            omega

theorem leBytes_antisymm (a b : Bytes) (h1 : leBytes a b) (h2 : leBytes b a) : a = b := by
  induction a generalizing b with
  | nil => cases b with
    | nil => rfl
    | cons => simp [leBytes] at h2
  | cons x s ih =>
    cases b with
    | nil => simp [leBytes] at h1
    | cons y t =>
      unfold leBytes at h1 h2
      by_cases h : x = y
      · subst h
        rw [if_pos rfl] at h1 h2
        rw [ih t h1 h2]
      · rw [if_neg h] at h1
        rw [if_neg (Ne.symm h)] at h2
        simp only [decide_eq_true_eq, UInt8.lt_iff_toNat_lt] at h1 h2
        omega

/-- The checksum does not depend on the order of the items: a mapping read back in another order
passes verification. -/
theorem C29_order_independent (c d : List (Bytes × Val)) (hc : (c.map (·.1)).Nodup) (hp : c.Perm d) :
    input c = input d := by
  unfold input
  have hsort : ∀ l : List (Bytes × Val),
      (l.mergeSort (fun a b => leBytes a.1 b.1)).Pairwise (fun a b => leBytes a.1 b.1) := by
    intro l
    exact List.pairwise_mergeSort (le := fun a b : Bytes × Val => leBytes a.1 b.1)
      (fun a b c h1 h2 => leBytes_trans _ _ _ h1 h2) (fun a b => leBytes_total _ _) l
  have : c.mergeSort (fun a b => leBytes a.1 b.1) = d.mergeSort (fun a b => leBytes a.1 b.1) := by
    refine List.Perm.eq_of_pairwise ?_ (hsort c) (hsort d)
      (((List.mergeSort_perm _ _).trans hp).trans (List.mergeSort_perm _ _).symm)
    intro a b ha hb h1 h2
    rw [List.mem_mergeSort] at ha hb
    have hb' : b ∈ c := hp.symm.subset hb
    have hk := leBytes_antisymm _ _ h1 h2
    have g1 := (get_eq_some hc a.1 a.2).2 ha
    have g2 := (get_eq_some hc b.1 b.2).2 hb'
    rw [hk, g2, Option.some.injEq] at g1
    exact Prod.ext hk g1.symm
  rw [this]

/-- Mappings to which the partial theorem applies, and whose inputs differ although one value is
merely moved from a key to another. -/
example : (∀ e ∈ ([([97], .str [120]), ([98], .bytes [0, 1])] : List (Bytes × Val)), NulFree e ∧ encOk e.2) ∧
    input [([97], .str [120]), ([98], .bytes [0, 1])] ≠ input [([97], .bytes [0, 1]), ([98], .str [120])] := by
  refine ⟨?_, by
    unfold input
    rw [List.mergeSort_of_pairwise (by decide), List.mergeSort_of_pairwise (by decide)]
    decide +kernel⟩
  intro e he
  rcases List.mem_cons.1 he with rfl | he
  · exact ⟨by unfold NulFree; decide, trivial⟩
  · rw [List.mem_singleton] at he; subst he
    exact ⟨by unfold NulFree; decide, by unfold encOk; decide⟩

end Checksum

/-! ## C30: serialised mappings -/

/-- **C30**, round trip: reading a serialised mapping gives back the mapping, for all mappings with
distinct string keys and elementary values.  `printable` (which characters `repr` leaves alone) is
arbitrary; floats are those for which `literal_eval(repr(v)) == v`, as asserted by the code. -/
theorem C30_thaw_freeze {F : Type} (fmt : FloatFmt F) (printable : Char → Bool)
    (d : List (Str × Val F)) (hk : (d.map (·.1)).Nodup) (hv : ∀ e ∈ d, ValOk fmt e.2) :
    thaw fmt (freeze fmt printable d) = .ok d := by
  unfold thaw freeze
  rw [unutf8_utf8]
  dsimp only
  rw [parseDict_freeze fmt printable d hv hk]
  dsimp only
  rw [mapM_unraw]

/-- Two different mappings never have the same serialisation. -/
theorem C30_freeze_injective {F : Type} (fmt : FloatFmt F) (printable : Char → Bool)
    (c d : List (Str × Val F)) (hc : (c.map (·.1)).Nodup) (hd : (d.map (·.1)).Nodup)
    (vc : ∀ e ∈ c, ValOk fmt e.2) (vd : ∀ e ∈ d, ValOk fmt e.2)
    (h : freeze fmt printable c = freeze fmt printable d) : c = d := by
  have h1 := C30_thaw_freeze fmt printable c hc vc
  rw [h, C30_thaw_freeze fmt printable d hd vd] at h1
  exact (Except.ok.inj h1).symm

/-- A float format for the examples: no floats. -/
def noFloat : FloatFmt Empty := { repr := fun e => (nomatch e), parse := fun _ => none }

/-- **C30**, rejection, in full: whatever is not accepted is refused with `ThawError`. -/
def C30_rejection_statement : Prop :=
  ∀ (F : Type) (fmt : FloatFmt F) (b : List Byte) (e : TErr), thaw fmt b = .error e → e = .thaw

/-- The code violates the rejection part of C30: input that is a literal but not a dict, such as `5`,
raises `AttributeError` instead of `ThawError`. -/
theorem C30_rejection_violated : ¬ C30_rejection_statement := by
  intro h
  have h1 : thaw noFloat (utf8 ['5']) = .error .attribute := by
    unfold thaw
    rw [unutf8_utf8]
    rfl
  have := h Empty noFloat (utf8 ['5']) .attribute h1
  cases this

/-- **C30**, rejection: input that is neither UTF-8 text, nor a single literal, is either refused with
`ThawError` or gives a mapping. -/
theorem C30_rejection_partial {F : Type} (fmt : FloatFmt F) (b : List Byte)
    (h : ∀ text, unutf8 b = some text → parseOne fmt text = none) (e : TErr)
    (he : thaw fmt b = .error e) : e = .thaw := by
  unfold thaw at he
  cases hu : unutf8 b with
  | none => rw [hu] at he; cases he; rfl
  | some text =>
    rw [hu] at he
    dsimp only at he
    split at he
    · rw [h text hu] at he
      cases he; rfl
    · split at he
      · cases he
      · cases he; rfl

example : thaw noFloat (freeze noFloat (fun _ => true)
    [("it's".toList, .str "a\"\\\n'é".toList), ("b".toList, .bytes [0, 255, 16]), ("n".toList, .int (-12)),
     ("t".toList, .bool true), ("z".toList, .none)]) =
    .ok [("it's".toList, .str "a\"\\\n'é".toList), ("b".toList, .bytes [0, 255, 16]), ("n".toList, .int (-12)),
     ("t".toList, .bool true), ("z".toList, .none)] := by
  apply C30_thaw_freeze
  · decide
  · intro e he
    simp only [List.mem_cons, List.not_mem_nil, or_false] at he
    rcases he with rfl | rfl | rfl | rfl | rfl <;> trivial

/-! ## C34: metadata in HTTP headers -/

/-- **C34**, round trip: metadata that was accepted for upload and whose headers arrive unchanged is
read back as the same mapping — for every prefix, every chunk size, every checksum function. -/
theorem C34_headers_roundtrip {F : Type} (fmt : FloatFmt F) (printable : Char → Bool)
    (ck : List (Str × Val F) → Str) (pfx : Str) (chunk : Nat) (hc : 0 < chunk)
    (d : List (Str × Val F)) (hk : (d.map (·.1)).Nodup) (hv : ∀ e ∈ d, ValOk fmt e.2)
    (h : List (Str × Str)) (hh : addMetaHeaders fmt printable ck pfx chunk d = .ok h) :
    extractMeta fmt ck pfx h = .ok d := by
  unfold addMetaHeaders at hh
  have hspec := addParts_spec fmt printable chunk d [] (by decide)
  rw [show charge [] = 0 from rfl, List.nil_append] at hspec
  rw [hspec] at hh
  split at hh
  · cases hh
  · rename_i vals heq
    split at heq
    · cases heq
      split at hh
      · cases hh
        have hne : ∀ i, hdrName pfx i ≠ pfx ++ "meta-format".toList ∧
            hdrName pfx i ≠ pfx ++ "meta-md5".toList := by
          intro i
          have h1 := hdrName_ne pfx i "format".toList 'r' (by decide) (by decide)
          have h2 := hdrName_ne pfx i "md5".toList 'm' (by decide) (by decide)
          rw [List.append_assoc] at h1 h2
          exact ⟨h1, h2⟩
        have hget : ∀ i, hdrGet ((d.flatMap (itemParts fmt printable chunk)).mapIdx
            (fun i v => (hdrName pfx i, v)) ++
            [(pfx ++ "meta-format".toList, "raw2".toList), (pfx ++ "meta-md5".toList, ck d)]) (hdrName pfx i)
            = (d.flatMap (itemParts fmt printable chunk))[i]? := by
          intro i
          have := find_mapIdx pfx (d.flatMap (itemParts fmt printable chunk))
            [(pfx ++ "meta-format".toList, "raw2".toList), (pfx ++ "meta-md5".toList, ck d)] 0 i (by
              unfold hdrGet
              rw [Nat.zero_add, List.find?_cons, List.find?_cons]
              rw [decide_eq_false (fun h => (hne i).1 h.symm), decide_eq_false (fun h => (hne i).2 h.symm)]
              rfl)
          simpa only [Nat.zero_add] using this
        have hskip : ∀ name, (∀ i, hdrName pfx i ≠ name) → ∀ rest : List (Str × Str),
            hdrGet ((d.flatMap (itemParts fmt printable chunk)).mapIdx (fun i v => (hdrName pfx i, v)) ++ rest)
              name = hdrGet rest name := by
          intro name hn rest
          unfold hdrGet
          rw [List.find?_append, List.find?_eq_none.2, Option.none_or]
          intro e he
          obtain ⟨i, hi, rfl⟩ := List.mem_mapIdx.1 he
          simpa using hn i
        unfold extractMeta
        rw [hskip _ (fun i => (hne i).1), collect_eq _ pfx _ hget _ 0 (by
          rw [List.length_append, List.length_mapIdx]; omega)]
        have hf : hdrGet [(pfx ++ "meta-format".toList, "raw2".toList), (pfx ++ "meta-md5".toList, ck d)]
            (pfx ++ "meta-format".toList) = some "raw2".toList := by
          unfold hdrGet; rw [List.find?_cons, decide_eq_true rfl]; rfl
        rw [hf, if_neg (by simp), List.drop_zero, flatten_flatMap_parts fmt printable chunk hc, unquote_quote]
        dsimp only
        rw [parseDict_commas fmt printable d hv hk]
        dsimp only
        rw [map_unrawOrNone, hskip _ (fun i => (hne i).2), if_neg]
        unfold hdrGet
        rw [List.find?_cons, decide_eq_false, List.find?_cons, decide_eq_true rfl]
        · simp
        · intro h
          exact absurd (List.append_cancel_left h) (by decide)
      · cases hh
    · cases heq

/-- **C34**, refusal: metadata is refused exactly if the encoded headers (plus four bytes each) exceed
2048 bytes; the assertion on the number of headers can never fail. -/
theorem C34_refused_iff_too_large {F : Type} (fmt : FloatFmt F) (printable : Char → Bool)
    (ck : List (Str × Val F) → Str) (pfx : Str) (chunk : Nat) (d : List (Str × Val F)) :
    (addMetaHeaders fmt printable ck pfx chunk d = .error .tooLarge ↔
      2048 < ((d.flatMap (itemParts fmt printable chunk)).map (fun v => 4 + v.length)).sum) ∧
    addMetaHeaders fmt printable ck pfx chunk d ≠ .error .assertion := by
  have hspec := addParts_spec fmt printable chunk d [] (by decide)
  rw [show charge [] = 0 from rfl, List.nil_append] at hspec
  unfold addMetaHeaders
  rw [hspec]
  have hcount : ∀ l : List Str, 4 * l.length ≤ charge l := by
    intro l
    induction l with
    | nil => simp
    | cons a l ih =>
      unfold charge at ih ⊢
      rw [List.map_cons, List.sum_cons, List.length_cons]; omega
  have hc := hcount (d.flatMap (itemParts fmt printable chunk))
  by_cases h : charge (d.flatMap (itemParts fmt printable chunk)) ≤ 2048
  · rw [if_pos h]
    dsimp only
    rw [if_pos (by omega)]
    refine ⟨⟨(fun h => by cases h), fun h2 => ?_⟩, fun h => by cases h⟩
    unfold charge at h; omega
  · rw [if_neg h]
    refine ⟨⟨fun _ => ?_, fun _ => rfl⟩, fun h => by cases h⟩
    unfold charge at h; omega

/-- If the metadata fits, the headers contain every part. -/
theorem C34_fits {F : Type} (fmt : FloatFmt F) (printable : Char → Bool)
    (ck : List (Str × Val F) → Str) (pfx : Str) (chunk : Nat) (d : List (Str × Val F))
    (hfit : ((d.flatMap (itemParts fmt printable chunk)).map (fun v => 4 + v.length)).sum ≤ 2048) :
    ∃ h, addMetaHeaders fmt printable ck pfx chunk d = .ok h ∧
      ∀ v ∈ d.flatMap (itemParts fmt printable chunk), ∃ name, (name, v) ∈ h := by
  have hr := C34_refused_iff_too_large fmt printable ck pfx chunk d
  have hspec := addParts_spec fmt printable chunk d [] (by decide)
  rw [show charge [] = 0 from rfl, List.nil_append] at hspec
  unfold addMetaHeaders at hr ⊢
  rw [hspec] at hr ⊢
  rw [if_pos (show charge _ ≤ 2048 from hfit)] at hr ⊢
  dsimp only at hr ⊢
  split at hr
  · rename_i hl
    rw [if_pos hl]
    refine ⟨_, rfl, ?_⟩
    intro v hv
    obtain ⟨i, hi, he⟩ := List.mem_iff_getElem.1 hv
    refine ⟨hdrName pfx i, List.mem_append_left _ (List.mem_mapIdx.2 ⟨i, hi, by rw [he]⟩)⟩
  · exact absurd rfl hr.2

/-- Headers produced by `addMetaHeaders` may be unfit for sending: if a chunk boundary falls on a
space, a header value begins or ends with a space, which the HTTP library refuses.  So C34 holds only
up to this restriction (`wireOk`). -/
theorem C34_space_at_chunk_boundary :
    ∃ (d : List (Str × Val Empty)) (h : List (Str × Str)),
      addMetaHeaders noFloat (fun _ => true) (fun _ => []) [] 255 d = .ok h ∧
      ∃ e ∈ h, wireOk e.2 = false := by
  let d : List (Str × Val Empty) := [(['k'], .str (List.replicate 248 'x' ++ [' '] ++ List.replicate 20 'y'))]
  obtain ⟨h, h1, h2⟩ := C34_fits noFloat (fun _ => true) (fun _ => []) [] 255 d (by decide +kernel)
  refine ⟨d, h, h1, ?_⟩
  have h3 : ∃ v ∈ d.flatMap (itemParts noFloat (fun _ => true) 255), wireOk v = false := by decide +kernel
  obtain ⟨v, hv, hw⟩ := h3
  obtain ⟨name, hm⟩ := h2 v hv
  exact ⟨(name, v), hm, hw⟩

/-- A mapping that is accepted, is spread over several headers, and has no space at a boundary. -/
example : (([(['k'], .str "hello, world".toList), (['b'], .bytes [1, 2, 3])] : List (Str × Val Empty)).flatMap
      (itemParts noFloat (fun _ => true) 16)).length = 3 ∧
    ∀ v ∈ (([(['k'], .str "hello, world".toList), (['b'], .bytes [1, 2, 3])] : List (Str × Val Empty)).flatMap
      (itemParts noFloat (fun _ => true) 16)), wireOk v := by
  refine ⟨?_, ?_⟩ <;> decide +kernel

end Verif.Codec
