import Verif.Codec.Props

/-!
Metadata of the Google Storage backend: one JSON entry per key, or the layout that older versions wrote.
-/

namespace Verif.Codec

/-- `_wrap_user_meta` (backends/gs.py:676-689). -/
def gsWrap {F : Type} (fmt : FloatFmt F) (printable : Char → Bool) (d : List (Str × Val F)) :
    List (Str × Str) :=
  d.map (fun e => (e.1, reprVal fmt printable e.2))

/-- A metadata key of the legacy layout: three digits. -/
def threeDigits (k : Str) : Bool := k.length = 3 && k.all (fun c => '0' ≤ c && c ≤ '9')

/-- Detection of the legacy layout (backends/gs.py:702-707). -/
def gsLegacy (m : List (Str × Str)) : Bool :=
  (m.find? (fun e => e.1 = "format".toList)).map (·.2) = some "raw2".toList &&
  m.any (fun e => e.1 = "md5".toList) &&
  m.all (fun e => e.1 = "format".toList || e.1 = "md5".toList || threeDigits e.1)

/-- The parts `000`, `001`, … until one is missing (backends/gs.py:708-713); the fuel is the number of entries plus one. -/
def gsParts (m : List (Str × Str)) : Nat → Nat → List Str
  | 0, _ => []
  | fuel + 1, i =>
    match hdrGet m (decPad 3 i) with
    | none => []
    | some p => p :: gsParts m fuel (i + 1)

/-- `_unwrap_user_meta` (backends/gs.py:691-732); `none`: an exception is raised. -/
def gsUnwrap {F : Type} (fmt : FloatFmt F) (m : List (Str × Str)) : Option (List (Str × Val F)) :=
  if gsLegacy m then
    (parseDict fmt ('{' :: ' ' :: (gsParts m (m.length + 1) 0).flatten ++ [' ', '}'])).bind
      (fun d => d.mapM (fun e => (unraw e.2).map (fun v => (e.1, v))))
  else m.mapM (fun e => ((parseOne fmt e.2).bind unraw).map (fun v => (e.1, v)))

/-- **C34** for the Google Storage backend, which stores one JSON entry per key: what is read back is
what was stored (in particular stored metadata is never mistaken for the legacy layout). -/
theorem C34_gs_roundtrip {F : Type} (fmt : FloatFmt F) (printable : Char → Bool)
    (d : List (Str × Val F)) (hv : ∀ e ∈ d, ValOk fmt e.2) (hraw : fmt.parse "raw2".toList = none) :
    gsUnwrap fmt (gsWrap fmt printable d) = some d := by
  unfold gsUnwrap gsWrap
  have hleg : gsLegacy (d.map (fun e => (e.1, reprVal fmt printable e.2))) = false := by
    unfold gsLegacy
    rw [Bool.and_eq_false_iff, Bool.and_eq_false_iff]
    left; left
    rw [decide_eq_false_iff_not]
    intro h
    rw [Option.map_eq_some_iff] at h
    obtain ⟨x, hx, he⟩ := h
    obtain ⟨e, hm, rfl⟩ := List.mem_map.1 (List.mem_of_find?_eq_some hx)
    exact quoted_ne_raw2 fmt printable e.2 (hv e hm) hraw he
  rw [hleg]
  simp only [Bool.false_eq_true, if_false]
  clear hleg
  induction d with
  | nil => rfl
  | cons e d ih =>
    rw [List.map_cons, List.mapM_cons, ih (fun e he => hv e (List.mem_cons_of_mem _ he)),
      parseOne_repr fmt printable e.2 (hv e List.mem_cons_self)]
    simp [unraw_raw]

/-! #### The old layout -/

/-- The entries of the service for the headers of an old version: the names without `meta-`. -/
def gsEntries (parts : List Str) (ck : Str) : List (Str × Str) :=
  parts.mapIdx (fun i v => (decPad 3 i, v)) ++ [("format".toList, "raw2".toList), ("md5".toList, ck)]

theorem hdrGet_map (m : List (Str × Str)) (k : Str) :
    hdrGet (m.map (fun e => ("meta-".toList ++ e.1, e.2))) ("meta-".toList ++ k) = hdrGet m k := by
  unfold hdrGet
  induction m with
  | nil => rfl
  | cons e t ih =>
    rw [List.map_cons, List.find?_cons, List.find?_cons]
    by_cases h : e.1 = k
    · rw [decide_eq_true h, decide_eq_true (by rw [h])]
      rfl
    · rw [decide_eq_false h, decide_eq_false (fun hc => h (List.append_cancel_left hc))]
      exact ih

theorem gsParts_collect (m : List (Str × Str)) (fuel i : Nat) :
    gsParts m fuel i = collect (m.map (fun e => ("meta-".toList ++ e.1, e.2))) [] fuel i := by
  induction fuel generalizing i with
  | zero => rfl
  | succ n ih =>
    unfold gsParts collect
    have : hdrGet (m.map (fun e => ("meta-".toList ++ e.1, e.2))) (hdrName [] i) = hdrGet m (decPad 3 i) :=
      hdrGet_map m (decPad 3 i)
    rw [this, ih]
    rfl

set_option maxRecDepth 100000 in
theorem threeDigits_pad : ∀ i, i < 1000 → threeDigits (decPad 3 i) = true := by decide +kernel

theorem gsEntries_get (parts : List Str) (ck : Str) (i : Nat) : hdrGet (gsEntries parts ck) (decPad 3 i) = parts[i]? := by
  rw [← hdrGet_map]
  have h := find_mapIdx [] parts [("meta-".toList ++ "format".toList, "raw2".toList), ("meta-".toList ++ "md5".toList, ck)] 0 i (by
    have h1 := hdrName_ne [] i "format".toList 'r' (by decide) (by decide)
    have h2 := hdrName_ne [] i "md5".toList 'm' (by decide) (by decide)
    unfold hdrGet
    rw [Nat.zero_add, List.find?_cons, List.find?_cons, decide_eq_false (fun h => h1 h.symm), decide_eq_false (fun h => h2 h.symm)]
    rfl)
  simp only [Nat.zero_add] at h
  unfold gsEntries
  have e : (parts.mapIdx (fun i v => (decPad 3 i, v))).map (fun e => ("meta-".toList ++ e.1, e.2)) = parts.mapIdx (fun i v => (hdrName [] i, v)) := by
    apply List.ext_getElem
    · simp
    · intro n h1 h2
      simp [hdrName]
  rw [List.map_append, e]
  exact h

theorem gsEntries_legacy (parts : List Str) (ck : Str) (hl : parts.length ≤ 1000) : gsLegacy (gsEntries parts ck) = true := by
  have hd : ∀ e ∈ parts.mapIdx (fun i v => (decPad 3 i, v)), threeDigits e.1 = true := by
    intro e he
    obtain ⟨i, hi, rfl⟩ := List.mem_mapIdx.1 he
    exact threeDigits_pad i (by omega)
  unfold gsLegacy gsEntries
  rw [Bool.and_eq_true, Bool.and_eq_true]
  refine ⟨⟨?_, ?_⟩, ?_⟩
  · rw [List.find?_append, List.find?_eq_none.2, Option.none_or, List.find?_cons, decide_eq_true rfl]
    · rfl
    · intro e he h
      have h := of_decide_eq_true h
      have := hd e he
      rw [h] at this
      revert this; decide
  · rw [List.any_append]
    simp
  · rw [List.all_append, Bool.and_eq_true]
    refine ⟨List.all_eq_true.2 (fun e he => by rw [hd e he]; simp), by simp⟩

/-- **C34** for metadata that an older version stored with Google Storage: the text of the mapping, cut into any parts, in
the entries `000`, `001`, …  It is read back as it was. -/
theorem C34_gs_legacy {F : Type} (fmt : FloatFmt F) (printable : Char → Bool) (d : List (Str × Val F)) (hk : (d.map (·.1)).Nodup)
    (hv : ∀ e ∈ d, ValOk fmt e.2) (parts : List Str) (ck : Str) (hp : parts.flatten = d.flatMap (fun e => renderItem fmt printable e ++ [',']))
    (hl : parts.length ≤ 1000) : gsUnwrap fmt (gsEntries parts ck) = some d := by
  unfold gsUnwrap
  rw [if_pos (gsEntries_legacy parts ck hl), gsParts_collect, collect_eq _ [] parts ?_ _ 0 ?_, List.drop_zero, hp,
    parseDict_commas fmt printable d hv hk]
  · exact mapM_unraw d
  · intro i
    show hdrGet _ ("meta-".toList ++ decPad 3 i) = _
    rw [hdrGet_map]
    exact gsEntries_get parts ck i
  · unfold gsEntries
    rw [List.length_append, List.length_mapIdx]
    omega

/-- Three parts, one of which ends within a value. -/
example : let d : List (Str × Val Empty) := [("k".toList, .str "hello, world".toList), ("b".toList, .bytes [1, 2, 3])]
    ["'k': 'hel".toList, "lo, world','b'".toList, ": b'AQID',".toList].flatten = d.flatMap (fun e => renderItem noFloat (fun _ => true) e ++ [',']) := by
  decide +kernel

/-- Metadata with other keys is not in the old layout, even with the entries `format` and `md5`. -/
theorem C34_gs_not_legacy (m : List (Str × Str)) (k v : Str) (h : (k, v) ∈ m) (h1 : k ≠ "format".toList) (h2 : k ≠ "md5".toList)
    (h3 : threeDigits k = false) : gsLegacy m = false := by
  unfold gsLegacy
  rw [Bool.and_eq_false_iff]
  right
  rw [List.all_eq_false]
  exact ⟨(k, v), h, by simp [h3]; exact ⟨h1, h2⟩⟩

end Verif.Codec
