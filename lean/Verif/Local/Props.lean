import Verif.Local.Lemmas
import Verif.Local.Spec
/-!
C31, C32: names in the local backend.
-/
namespace Verif.Local

/-- **C31.** Un-escaping an escaped key gives back the key, for every string. -/
theorem C31_unescape_escape (k : Str) : unescape (escape k) = k := unescape_escape k

/-- **C31.** Escaped keys contain neither the directory separator nor the temporary-file marker. -/
theorem C31_escaped_safe (k : Str) : '/' ∉ escape k ∧ '#' ∉ escape k :=
  ⟨fun h => (escape_safe k _ h).1 rfl, fun h => (escape_safe k _ h).2 rfl⟩

theorem after_last_slash (a b e f : Str) (he : '/' ∉ e) (hf : '/' ∉ f)
    (h : a ++ '/' :: e = b ++ '/' :: f) : e = f := by
  have key : ∀ (a e : Str), '/' ∉ e →
      ((a ++ '/' :: e).reverse.takeWhile (fun c => c != '/')).reverse = e := by
    intro a e he
    rw [List.reverse_append, List.reverse_cons, List.append_assoc, List.takeWhile_append_of_pos]
    · simp
    · intro c hc
      rw [List.mem_reverse] at hc
      simp only [bne_iff_ne, ne_eq]
      rintro rfl; exact he hc
  rw [← key a e he, h, key b f hf]

theorem joinPath_snoc (l : List Str) (e : Str) : joinPath (l ++ [e]) = joinPath l ++ '/' :: e := by
  unfold joinPath; simp

/-- **C31.** Different keys are stored in different files: the path string determines the key. -/
theorem C31_paths_distinct (k₁ k₂ : Str) (h : joinPath (keyToPath k₁) = joinPath (keyToPath k₂)) :
    k₁ = k₂ := by
  unfold keyToPath at h
  simp only [joinPath_snoc] at h
  exact escape_inj _ _ (after_last_slash _ _ _ _ (C31_escaped_safe k₁).1 (C31_escaped_safe k₂).1 h)

/-- **C31.** The file of a key is never a directory on the path of another key (so no key can block
another one). -/
theorem C31_no_file_directory_clash (k₁ k₂ : Str) : ¬ keyToPath k₁ <+: (keyToPath k₂).dropLast := by
  intro h
  unfold keyToPath at h
  simp only [List.dropLast_concat] at h
  by_cases h2 : dataPrefix <+: escape k₂
  · obtain ⟨no2, h2⟩ := h2
    rw [← h2, dirsOf_data] at h
    by_cases h1 : dataPrefix <+: escape k₁
    · obtain ⟨no1, h1⟩ := h1
      rw [← h1, dirsOf_data] at h
      have hl : ((dataPrefix :: (List.range' 3 ((no1.length - 1) / 3) 3).map (fun i => no1.take i))
          ++ [dataPrefix ++ no1])[(no1.length - 1) / 3 + 1]? = some (dataPrefix ++ no1) := by
        rw [List.getElem?_append_right (by simp)]
        simp
      obtain ⟨t, ht⟩ := h
      have h' : (dataPrefix :: (List.range' 3 ((no2.length - 1) / 3) 3).map (fun i => no2.take i))[
          (no1.length - 1) / 3 + 1]? = some (dataPrefix ++ no1) := by
        rw [← ht, List.getElem?_append_left (by simp)]; exact hl
      have hlen := congrArg List.length ht
      simp only [List.length_append, List.length_cons, List.length_map, List.length_range',
        List.length_nil] at hlen
      rw [List.getElem?_cons_succ, List.getElem?_map, List.getElem?_range' (by omega)] at h'
      simp only [Option.map_some, Option.some.injEq] at h'
      have := congrArg List.length h'
      rw [List.length_take, List.length_append] at this
      have hd : dataPrefix.length = 10 := rfl
      omega
    · rw [dirsOf_other _ h1, List.nil_append] at h
      have := (List.cons_prefix_cons.1 h).1
      exact h1 ⟨[], by rw [this]; simp⟩
  · rw [dirsOf_other _ h2] at h
    have := h.length_le
    simp at this

/-- **C31.** No object file is ever taken for a temporary file, and no temporary file for an object. -/
theorem C31_tmp_files_disjoint (k k' suffix : Str) : fileOf k ≠ tmpOf k' suffix := by
  intro h
  have h2 : escape k = escape k' ++ '#' :: suffix ++ ['.', 't', 'm', 'p'] := congrArg Prod.snd h
  apply (C31_escaped_safe k).2
  rw [h2]; simp

/-- Finding: '.' is not escaped (although the docstring says so), so the key `..` denotes the parent
directory. S3QL itself never uses such a key. -/
theorem C31_dotdot_not_escaped : keyToPath ['.', '.'] = [['.', '.']] := by decide +kernel

/-- Full statement of C32: for all stored keys and prefixes, `list` returns exactly the keys with the
prefix, each once. -/
def C32_statement : Prop :=
  ∀ (ks : List Str) (pfx : Str), list (ks.map fileOf) pfx = Spec.withPrefix ks pfx

/-- **C32 is false in general**: for a prefix with more than three characters after `s3ql_data_`, keys
in deeper directories are pruned. -/
theorem C32_violated : ¬ C32_statement := by
  intro h
  have := h ["s3ql_data_1234567".toList] "s3ql_data_1234".toList
  revert this
  decide +kernel

/-- **C32 (partial).** For all sets of usual keys, any temporary files around, and all prefixes with at
most three characters after `s3ql_data_` (all prefixes S3QL uses: '', 's3ql_data_', 's3ql_metadata_',
's3ql_params_'), `list` returns exactly the stored keys with that prefix, each once.
Missing: longer prefixes below `s3ql_data_`, for which the statement is false (see `C32_violated`). -/
theorem C32_list_exact_partial (ks : List Str) (tmps : List (Str × Str)) (pfx : Str)
    (hk : ∀ k ∈ ks, Spec.UsualKey k) (hp : dataPrefix <+: pfx → pfx.length ≤ 13) :
    list (ks.map fileOf ++ tmps.map (fun t => tmpOf t.1 t.2)) pfx = Spec.withPrefix ks pfx := by
  unfold list Spec.withPrefix
  rw [List.filterMap_append]
  have h2 : (tmps.map (fun t => tmpOf t.1 t.2)).filterMap (listFile pfx) = [] := by
    rw [List.filterMap_eq_nil_iff]
    intro f hf
    rw [List.mem_map] at hf
    obtain ⟨t, _, rfl⟩ := hf
    exact listFile_tmp _ _ _
  rw [h2, List.append_nil]
  induction ks with
  | nil => rfl
  | cons k ks ih =>
    have ih := ih (fun k hk' => hk k (List.mem_cons_of_mem _ hk'))
    rw [List.map_cons, List.filterMap_cons, listFile_key pfx k (hk k List.mem_cons_self) hp,
      List.filter_cons]
    split
    · rename_i hn
      split at hn
      · cases hn
      · rename_i h'; rw [if_neg h']; exact ih
    · rename_i b hn
      split at hn
      · rename_i h'; rw [if_pos h', ih]; cases hn; rfl
      · cases hn

-- A nested data key, a metadata key and a temporary file, listed with the prefix S3QL uses.
example : (∀ k ∈ ["s3ql_data_1234567".toList, "s3ql_metadata_1_2".toList], Spec.UsualKey k) ∧
    list (["s3ql_data_1234567".toList, "s3ql_metadata_1_2".toList].map fileOf ++
      [tmpOf "s3ql_data_9".toList "7-8".toList]) dataPrefix = ["s3ql_data_1234567".toList] := by
  constructor
  · intro k hk
    unfold Spec.UsualKey
    revert k
    decide +kernel
  · decide +kernel

end Verif.Local
