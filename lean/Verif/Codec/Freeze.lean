import Verif.Codec.Literal
import Verif.Codec.Utf8
/-
Model of `freeze_basic_mapping` / `thaw_basic_mapping` (common.py:332-396) and of the per-value
encoding of Google Storage metadata (backends/gs.py:676-732).
A mapping is the list of its items in insertion order (keys distinct).
-/
namespace Verif.Codec

/-- `', '.join(els)`. -/
def joinComma : List Str → Str
  | [] => []
  | [x] => x
  | x :: y :: t => x ++ ',' :: ' ' :: joinComma (y :: t)

/-- `freeze_basic_mapping` (common.py:359-396) up to the final `encode('utf-8')`.  The checks on key
and value types hold by typing; the assertion `literal_eval(repr(v)) == v` is `ValOk`. -/
def freezeText {F : Type} (fmt : FloatFmt F) (printable : Char → Bool) (d : List (Str × Val F)) : Str :=
  '{' :: ' ' :: joinComma (d.map (renderItem fmt printable)) ++ [' ', '}']

/-- `buf.encode('utf-8')`. -/
def freeze {F : Type} (fmt : FloatFmt F) (printable : Char → Bool) (d : List (Str × Val F)) : List Byte :=
  utf8 (freezeText fmt printable d)

/-- `b64decode` of byte values (common.py:347-354); `none` stands for `binascii.Error`. -/
def unraw {F : Type} : RVal F → Option (Val F)
  | .str s => some (.str s)
  | .bytes s => (b64decode s).map .bytes
  | .int i => some (.int i)
  | .float f => some (.float f)
  | .bool b => some (.bool b)
  | .none => some .none

/-- `literal_eval` of one value. -/
def parseOne {F : Type} (fmt : FloatFmt F) (s : Str) : Option (RVal F) :=
  match parseVal fmt (skipWs s) with
  | some (v, r) => if skipWs r = [] then some v else none
  | none => none

/-- Exceptions of `thaw_basic_mapping`. -/
inductive TErr where
  | thaw        -- `ThawError`
  | attribute   -- `AttributeError`: the literal is not a dict and has no `items`
deriving DecidableEq, Repr

/-- `thaw_basic_mapping` (common.py:332-356).  Literals are dict displays or single elementary values;
all others are treated as syntax errors. -/
def thaw {F : Type} (fmt : FloatFmt F) (buf : List Byte) : Except TErr (List (Str × Val F)) :=
  match unutf8 buf with
  | none => .error .thaw
  | some text =>
    match parseDict fmt text with
    | none => if (parseOne fmt text).isSome then .error .attribute else .error .thaw
    | some d =>
      match d.mapM (fun e => (unraw e.2).map (fun v => (e.1, v))) with
      | some m => .ok m
      | none => .error .thaw

/-! ### Lemmas -/

theorem unraw_raw {F : Type} (v : Val F) : unraw v.raw = some v := by
  cases v <;> simp [unraw, Val.raw, b64decode_encode]

theorem mapM_unraw {F : Type} (d : List (Str × Val F)) :
    (d.map (fun e => (e.1, e.2.raw))).mapM (fun e => (unraw e.2).map (fun v => (e.1, v))) = some d := by
  induction d with
  | nil => rfl
  | cons e d ih =>
    rw [List.map_cons, List.mapM_cons, ih]
    simp [unraw_raw]

/-- Reading the joined items. -/
theorem parseItems_join {F : Type} (fmt : FloatFmt F) (printable : Char → Bool)
    (d : List (Str × Val F)) (n : Nat) (hn : d.length < n) (acc : List (Str × RVal F)) (r : Str)
    (hv : ∀ e ∈ d, ValOk fmt e.2) (hk : (acc.map (·.1) ++ d.map (·.1)).Nodup) :
    parseItems fmt n (joinComma (d.map (renderItem fmt printable)) ++ ' ' :: '}' :: r) acc =
      some (acc ++ d.map (fun e => (e.1, e.2.raw)), r) := by
  induction d generalizing n acc with
  | nil =>
    have := parseItems_commas fmt printable [] n hn acc r (by simp) hk
    exact this
  | cons e d ih =>
    cases n with
    | zero => omega
    | succ n =>
      have hfresh : e.1 ∉ acc.map (·.1) := by
        rw [List.map_cons, List.nodup_append] at hk
        intro h
        exact hk.2.2 _ h _ List.mem_cons_self rfl
      cases d with
      | nil =>
        show parseItems fmt (n + 1) (renderItem fmt printable e ++ ' ' :: '}' :: r) acc = _
        rw [parseItems_head fmt printable n e _ acc (hv e List.mem_cons_self)
          (by intro c h; cases h; rfl), skipWs_space, skipWs_ne '}' _ (by decide)]
        simp only []
        rw [setItem_fresh acc _ _ hfresh]
        simp
      | cons f d =>
        have e1 : joinComma ((e :: f :: d).map (renderItem fmt printable)) ++ ' ' :: '}' :: r =
            renderItem fmt printable e ++
              ',' :: ' ' :: (joinComma ((f :: d).map (renderItem fmt printable)) ++ ' ' :: '}' :: r) := by
          simp only [List.map_cons, joinComma]
          simp
        rw [e1, parseItems_head fmt printable n e _ acc (hv e List.mem_cons_self)
          (by intro c h; cases h; rfl), skipWs_ne ',' _ (by decide)]
        simp only []
        rw [setItem_fresh acc _ _ hfresh, parseItems_space,
          ih n (by rw [List.length_cons] at hn; omega) _ (fun e he => hv e (List.mem_cons_of_mem _ he))]
        · simp
        · simpa [List.append_assoc] using hk

theorem length_joinComma_le (l : List Str) (h : ∀ s ∈ l, s ≠ []) : l.length ≤ (joinComma l).length := by
  induction l with
  | nil => simp
  | cons x t ih =>
    have hx : 0 < x.length := List.length_pos_iff.2 (h x List.mem_cons_self)
    cases t with
    | nil => simp [joinComma]; omega
    | cons y t =>
      have := ih (fun s hs => h s (List.mem_cons_of_mem _ hs))
      simp only [joinComma, List.length_append, List.length_cons] at this ⊢
      omega

theorem renderItem_ne_nil {F : Type} (fmt : FloatFmt F) (printable : Char → Bool) (e : Str × Val F) :
    renderItem fmt printable e ≠ [] := by
  unfold renderItem
  simp

theorem parseDict_freeze {F : Type} (fmt : FloatFmt F) (printable : Char → Bool)
    (d : List (Str × Val F)) (hv : ∀ e ∈ d, ValOk fmt e.2) (hk : (d.map (·.1)).Nodup) :
    parseDict fmt (freezeText fmt printable d) = some (d.map (fun e => (e.1, e.2.raw))) := by
  have hlen := length_joinComma_le (d.map (renderItem fmt printable)) (by
    intro s hs
    obtain ⟨e, _, rfl⟩ := List.mem_map.1 hs
    exact renderItem_ne_nil fmt printable e)
  rw [List.length_map] at hlen
  unfold parseDict freezeText
  rw [List.cons_append, skipWs_ne '{' _ (by decide)]
  simp only []
  rw [List.cons_append, parseItems_space]
  have := parseItems_join fmt printable d
    ((' ' :: (joinComma (d.map (renderItem fmt printable)) ++ [' ', '}'])).length + 1)
    (by simp only [List.length_cons, List.length_append]; omega) [] [] hv (by simpa using hk)
  rw [this]
  simp [skipWs]

theorem parseOne_repr {F : Type} (fmt : FloatFmt F) (printable : Char → Bool) (v : Val F)
    (hv : ValOk fmt v) : parseOne fmt (reprVal fmt printable v) = some v.raw := by
  have h1 := reprVal_skip fmt printable v [] hv
  have h2 := parseVal_repr fmt printable v [] hv (by intro c h; cases h)
  rw [List.append_nil] at h1 h2
  unfold parseOne
  rw [h1, h2]
  rfl

theorem quoted_ne_raw2 {F : Type} (fmt : FloatFmt F) (printable : Char → Bool) (v : Val F)
    (hv : ValOk fmt v) (hraw : fmt.parse "raw2".toList = none) :
    reprVal fmt printable v ≠ "raw2".toList := by
  intro h
  have h1 := parseOne_repr fmt printable v hv
  rw [h] at h1
  have h2 : parseVal fmt (skipWs "raw2".toList) = none := by
    have := parseVal_tok fmt "raw2".toList [] (by decide) (by decide)
      (by intro c h; cases h; decide) (by intro c h; cases h)
    rw [List.append_nil] at this
    show parseVal fmt "raw2".toList = none
    rw [this, if_neg (by decide), if_neg (by decide), if_neg (by decide)]
    have hi : parseInt "raw2".toList = none := by decide
    rw [hi]
    simp only []
    rw [hraw]; rfl
  unfold parseOne at h1
  rw [h2] at h1
  cases h1

end Verif.Codec
