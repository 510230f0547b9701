import Verif.Codec.Num
/-
Names of metadata objects: `METADATA_OBJ_NAME`, `METADATA_OBJ_RE` (database.py:64-65) as used by
`get_block_objects` (database.py:878-900), and `'s3ql_params_%010x'` (database.py:1270) with the
pattern in `get_available_seq_nos` (database.py:1056-1066).
-/
namespace Verif.Codec

/-- `METADATA_OBJ_NAME % (blockno, seq_no)`. -/
def metaName (blockno seqNo : Nat) : List Char :=
  "s3ql_metadata_".toList ++ hexPad 12 blockno ++ '_' :: hexPad 10 seqNo

/-- `'s3ql_params_%010x' % seq_no`. -/
def paramsName (seqNo : Nat) : List Char := "s3ql_params_".toList ++ hexPad 10 seqNo

/-- Remove a prefix. -/
def stripPrefix (p s : List Char) : Option (List Char) :=
  if p.isPrefixOf s then some (s.drop p.length) else none

/-- `$` also matches before a newline at the end of the string. -/
def stripNl (s : List Char) : List Char := if s.getLast? = some '\n' then s.dropLast else s

/-- `METADATA_OBJ_RE.match(obj)` followed by the two `int(..., base=16)`; `none`: no match.
`parseDigits 14` accepts exactly the non-empty strings over `[0-9a-f]`. -/
def parseMetaName (s : List Char) : Option (Nat × Nat) :=
  match stripPrefix "s3ql_metadata_".toList (stripNl s) with
  | none => none
  | some t =>
    let a := t.takeWhile (fun c => c ≠ '_')
    match t.dropWhile (fun c => c ≠ '_') with
    | [] => none
    | _ :: b =>
      match parseDigits 14 a, parseDigits 14 b with
      | some x, some y => some (x, y)
      | _, _ => none

/-- `re.match('^s3ql_params_([0-9a-f]+)$', obj)` and `int(..., base=16)`. -/
def parseParamsName (s : List Char) : Option Nat :=
  match stripPrefix "s3ql_params_".toList (stripNl s) with
  | none => none
  | some t => parseDigits 14 t

/-! ### Lemmas -/

theorem hexPad_mem (w n : Nat) (c : Char) (h : c ∈ hexPad w n) : c ≠ '_' ∧ c ≠ '\n' := by
  unfold hexPad at h
  rw [List.mem_map] at h
  obtain ⟨d, hd, rfl⟩ := h
  have hlt : d < 16 := mem_padZero 14 w n d hd
  have : ∀ d, d < 16 → digitChar d ≠ '_' ∧ digitChar d ≠ '\n' := by decide
  exact this d hlt

theorem hexPad_ne_nil (w n : Nat) : hexPad w n ≠ [] := by
  unfold hexPad padZero
  simp [digits_ne_nil]

theorem stripNl_append (s t : List Char) (ht : t ≠ []) (h : ∀ c ∈ t, c ≠ '\n') :
    stripNl (s ++ t) = s ++ t := by
  unfold stripNl
  rw [if_neg]
  intro hl
  rw [List.getLast?_append] at hl
  cases hq : t.getLast? with
  | none => exact ht (List.getLast?_eq_none_iff.1 hq)
  | some c =>
    rw [hq] at hl
    have : c = '\n' := by simpa using hl
    exact h c (List.mem_of_getLast? hq) this

theorem stripPrefix_append (p s : List Char) : stripPrefix p (p ++ s) = some s := by
  unfold stripPrefix
  rw [if_pos (by simp), List.drop_left]

end Verif.Codec
