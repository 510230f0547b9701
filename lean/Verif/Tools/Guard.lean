/-
C91: commands refuse to work on a file system that is mounted on the same machine (common.py:59-84, mount.py:248-251, fsck.py:1293-1296, adm.py:130-133), and `s3qladm clear` (adm.py:237-296).
-/
namespace Verif.Tools.Guard

/-! #### Model: `is_mounted` -/

/-- A mounted file system: its name for the kernel (`fsname`), mount point and the rest of the line. -/
structure Mnt where
  source : List Char
  point : List Char
  rest : List Char
  deriving DecidableEq, Repr

/-- The octal code that the kernel writes for a character (`mangle` in fs/proc_namespace.c): space, tab, line feed, backslash and the number sign. -/
def mangleChar (c : Char) : List Char :=
  if c = ' ' then ['\\', '0', '4', '0']
  else if c = '\t' then ['\\', '0', '1', '1']
  else if c = '\n' then ['\\', '0', '1', '2']
  else if c = '\\' then ['\\', '1', '3', '4']
  else if c = '#' then ['\\', '0', '4', '3']
  else [c]

def mangle (s : List Char) : List Char := s.flatMap mangleChar

/-- A line of `/proc/mounts`. -/
def line (m : Mnt) : List Char := mangle m.source ++ ' ' :: (mangle m.point ++ ' ' :: m.rest)

/-- `is_mounted` (common.py:59-84); there is a `/proc/mounts`. -/
def isMounted (table : List Mnt) (url : List Char) : Bool := table.any (fun m => (url ++ [' ']).isPrefixOf (line m))

/-- `get_fuse_opts` (mount.py:617-624): under which name a file system is mounted.  An empty name is none. -/
def fsname (name : Option (List Char)) (url : List Char) : List Char :=
  match name with
  | some (c :: cs) => c :: cs
  | _ => url

/-- `mount.s3ql`: refused if the guard finds the file system, else one more mount. -/
def mount (table : List Mnt) (url : List Char) (name : Option (List Char)) (point rest : List Char) : Except Nat (List Mnt) :=
  if isMounted table url then .error 40 else .ok (table ++ [⟨fsname name url, point, rest⟩])

/-! #### Proofs -/

/-- Characters that the kernel writes as they are. -/
def Plain (c : Char) : Prop := c ≠ ' ' ∧ c ≠ '\t' ∧ c ≠ '\n' ∧ c ≠ '\\' ∧ c ≠ '#'

theorem mangleChar_plain {c : Char} (h : Plain c) : mangleChar c = [c] := by
  obtain ⟨h1, h2, h3, h4, h5⟩ := h
  simp [mangleChar, h1, h2, h3, h4, h5]

theorem mangle_plain {s : List Char} (h : ∀ c ∈ s, Plain c) : mangle s = s := by
  induction s with
  | nil => rfl
  | cons c s ih =>
    show mangleChar c ++ mangle s = _
    rw [mangleChar_plain (h c List.mem_cons_self), ih (fun d hd => h d (List.mem_cons_of_mem _ hd))]
    rfl

theorem mangleChar_no_space (c : Char) : ' ' ∉ mangleChar c := by
  unfold mangleChar
  split
  · decide
  · split
    · decide
    · split
      · decide
      · split
        · decide
        · split
          · decide
          · rename_i h _ _ _ _
            simp only [List.mem_singleton]
            exact fun e => h e.symm

theorem mangle_no_space (s : List Char) : ' ' ∉ mangle s := by
  unfold mangle
  rw [List.mem_flatMap]
  rintro ⟨c, _, h⟩
  exact mangleChar_no_space c h

/-- Two fields that end at a space. -/
theorem field_eq : ∀ {a b x y : List Char}, ' ' ∉ a → ' ' ∉ b → a ++ ' ' :: x = b ++ ' ' :: y → a = b := by
  intro a
  induction a with
  | nil =>
    intro b x y _ hb h
    cases b with
    | nil => rfl
    | cons c b =>
      simp only [List.nil_append, List.cons_append, List.cons.injEq] at h
      exact absurd (h.1 ▸ List.mem_cons_self) hb
  | cons c a ih =>
    intro b x y ha hb h
    cases b with
    | nil =>
      simp only [List.nil_append, List.cons_append, List.cons.injEq] at h
      exact absurd (h.1 ▸ List.mem_cons_self) ha
    | cons d b =>
      simp only [List.cons_append, List.cons.injEq] at h
      rw [h.1, ih (fun m => ha (List.mem_cons_of_mem _ m)) (fun m => hb (List.mem_cons_of_mem _ m)) h.2]

theorem prefix_line {url : List Char} {m : Mnt} (hu : ' ' ∉ url) : (url ++ [' ']).isPrefixOf (line m) = true ↔ mangle m.source = url := by
  rw [List.isPrefixOf_iff_prefix]
  constructor
  · rintro ⟨t, ht⟩
    have : url ++ ' ' :: t = mangle m.source ++ ' ' :: (mangle m.point ++ ' ' :: m.rest) := by rw [List.append_assoc] at ht; exact ht
    exact (field_eq hu (mangle_no_space _) this).symm
  · intro h
    refine ⟨mangle m.point ++ ' ' :: m.rest, ?_⟩
    unfold line
    rw [h]
    simp

theorem mangleChar_backslash {c : Char} (h : '\\' ∉ mangleChar c) : Plain c := by
  refine ⟨?_, ?_, ?_, ?_, ?_⟩ <;> (intro e; subst e; exact absurd h (by decide))

theorem mangle_eq_plain {s u : List Char} (hu : ∀ c ∈ u, Plain c) (h : mangle s = u) : s = u := by
  have hs : ∀ c ∈ s, Plain c := by
    intro c hc
    apply mangleChar_backslash
    intro hb
    have : '\\' ∈ mangle s := List.mem_flatMap.2 ⟨c, hc, hb⟩
    rw [h] at this
    exact (hu _ this).2.2.2.1 rfl
  rw [mangle_plain hs] at h
  exact h

/-! #### Properties -/

/-- **C91 (the guard).** For storage URLs without spaces, tabs, line feeds, backslashes and number signs, the guard finds exactly the file systems that are mounted under
this name, whatever else is mounted where.  Missing for the full claim: other URLs (`C91_space`). -/
theorem C91_guard_partial {url : List Char} (hu : ∀ c ∈ url, Plain c) (table : List Mnt) : isMounted table url = true ↔ ∃ m ∈ table, m.source = url := by
  have hs : ' ' ∉ url := fun h => (hu _ h).1 rfl
  unfold isMounted
  rw [List.any_eq_true]
  constructor
  · rintro ⟨m, hm, h⟩
    exact ⟨m, hm, mangle_eq_plain hu ((prefix_line hs).1 h)⟩
  · rintro ⟨m, hm, h⟩
    exact ⟨m, hm, (prefix_line hs).2 (by rw [h]; exact mangle_plain hu)⟩

/-- How often a file system is mounted. -/
def times (table : List Mnt) (url : List Char) : Nat := (table.filter (fun m => m.source = url)).length

/-- A history: mounts (with a name, a mount point and options; refused ones change nothing) and unmounts. -/
inductive Op where
  | mount (url : List Char) (name : Option (List Char)) (point rest : List Char)
  | umount (i : Nat)

def step (t : List Mnt) : Op → List Mnt
  | .mount url name point rest => match mount t url name point rest with
    | .ok t' => t'
    | .error _ => t
  | .umount i => t.eraseIdx i

/-- **C91 (mounted once).** If `--fs-name` is not used, no file system is mounted twice on a machine, in any history of mounts and unmounts that come one after the other.  Missing for the full claim:
`--fs-name` and URLs with special characters. -/
theorem C91_once_partial (ops : List Op) (h : ∀ op ∈ ops, ∀ u n p r, op = .mount u n p r → n = none ∧ ∀ c ∈ u, Plain c) (url : List Char) :
    times (ops.foldl step []) url ≤ 1 := by
  suffices ∀ (ops : List Op) (t : List Mnt), (∀ op ∈ ops, ∀ u n p r, op = .mount u n p r → n = none ∧ ∀ c ∈ u, Plain c) → (∀ url, times t url ≤ 1) →
      ∀ url, times (ops.foldl step t) url ≤ 1 from this ops [] h (fun _ => Nat.zero_le _) url
  intro ops
  induction ops with
  | nil => intro t _ ht; exact ht
  | cons op ops ih =>
    intro t h ht
    refine ih _ (fun o ho => h o (List.mem_cons_of_mem _ ho)) ?_
    intro url
    cases op with
    | umount i =>
      exact Nat.le_trans ((List.eraseIdx_sublist t i).filter _).length_le (ht url)
    | mount u n p r =>
      obtain ⟨hn, hu⟩ := h _ List.mem_cons_self u n p r rfl
      subst hn
      cases hm : isMounted t u with
      | true =>
        have e : step t (.mount u none p r) = t := by simp [step, mount, hm]
        rw [e]; exact ht url
      | false =>
        have e : step t (.mount u none p r) = t ++ [⟨fsname none u, p, r⟩] := by simp [step, mount, hm]
        rw [e]
        unfold times
        rw [List.filter_append, List.length_append]
        by_cases he : u = url
        · have hnone : t.filter (fun m => m.source = url) = [] := by
            rw [List.filter_eq_nil_iff]
            intro m hmem hs
            have : isMounted t u = true := (C91_guard_partial hu t).2 ⟨m, hmem, by rw [he]; simpa using hs⟩
            rw [hm] at this; cases this
          rw [hnone, List.length_nil, Nat.zero_add]
          exact List.length_filter_le _ [_]
        · have : ([⟨fsname none u, p, r⟩] : List Mnt).filter (fun m => m.source = url) = [] := by
            simp [fsname, he]
          rw [this]
          exact ht url

/-- **Violation.** The kernel writes a space as `\040`: a file system with a space in its URL is never found, and can be mounted twice (or checked while it is mounted). -/
theorem C91_space : ∃ t1 t2, mount [] "local:///my data".toList none "/a".toList [] = .ok t1 ∧ mount t1 "local:///my data".toList none "/b".toList [] = .ok t2 ∧
    times t2 "local:///my data".toList = 2 := ⟨_, _, rfl, rfl, by decide⟩

/-- **Violation.** The same with `--fs-name`: the guard only looks for the storage URL. -/
theorem C91_fs_name : ∃ t1 t2, mount [] "local:///d".toList (some "backup".toList) "/a".toList [] = .ok t1 ∧ mount t1 "local:///d".toList none "/b".toList [] = .ok t2 ∧
    t2.length = 2 := ⟨_, _, rfl, rfl, by decide⟩

-- The hypotheses can be met; a longer URL is not mistaken for a shorter one.
example : (∀ c ∈ "s3://eu/b/p".toList, Plain c) := by
  intro c hc
  have : c ∈ ['s', '3', ':', '/', '/', 'e', 'u', '/', 'b', '/', 'p'] := hc
  simp only [List.mem_cons, List.not_mem_nil, or_false] at this
  rcases this with rfl | rfl | rfl | rfl | rfl | rfl | rfl | rfl | rfl | rfl | rfl <;> (unfold Plain; decide)
example : isMounted [⟨"s3://eu/b/p".toList, "/m".toList, "fuse.s3ql".toList⟩] "s3://eu/b/".toList = false ∧
    isMounted [⟨"s3://eu/b/p".toList, "/m".toList, "fuse.s3ql".toList⟩] "s3://eu/b/p".toList = true := by decide

/-! ### s3qladm clear -/

namespace Clear

/-- What is left: cached metadata, the cache directory, the objects in the storage. -/
structure St where
  cached : Bool
  objs : List Nat
  deriving DecidableEq, Repr

/-- The loop over batches of `n` keys (adm.py:269-289): `fails` are keys whose deletion fails; `delete_multi` deletes the others and leaves those in the batch (C41).  The result is
whether the command succeeds. -/
def batches (n : Nat) (fails : Nat → Bool) : Nat → List Nat → St → Bool × St
  | 0, _, s => (true, s)
  | fuel + 1, keys, s =>
    if keys = [] then (true, s)
    else
      let batch := keys.take n
      let s' := { s with objs := s.objs.filter (fun k => !(batch.contains k && !fails k)) }
      if batch.any fails then (false, s') else batches n fails fuel (keys.drop n) s'

/-- `clear` (adm.py:237-296).  `listing`: the keys that the storage lists. -/
def clear (yes : Bool) (listing : List Nat) (fails : Nat → Bool) (s : St) : Bool × St :=
  if yes then batches 1000 fails (listing.length + 1) listing { s with cached := false } else (false, s)

theorem batches_ok {n : Nat} (hn : 0 < n) {fails : Nat → Bool} : ∀ {fuel : Nat} {keys : List Nat} {s s' : St}, keys.length < fuel → batches n fails fuel keys s = (true, s') →
    (∀ k ∈ keys, k ∉ s'.objs) ∧ (∀ k ∈ s'.objs, k ∈ s.objs) ∧ s'.cached = s.cached := by
  intro fuel
  induction fuel with
  | zero => intro keys s s' h; omega
  | succ fuel ih =>
    intro keys s s' hl h
    unfold batches at h
    split at h
    · rename_i hk
      subst hk
      cases h
      exact ⟨(fun k hk => nomatch hk), fun k hk => hk, rfl⟩
    · rename_i hk
      simp only at h
      split at h
      · cases h
      · rename_i hf
        have hlen : (keys.drop n).length < fuel := by
          rw [List.length_drop]
          have : 0 < keys.length := List.length_pos_iff.2 hk
          omega
        obtain ⟨a, b, c⟩ := ih hlen h
        refine ⟨?_, fun k hk => (List.mem_filter.1 (b k hk)).1, c⟩
        intro k hkk
        rw [← List.take_append_drop n keys, List.mem_append] at hkk
        rcases hkk with hkk | hkk
        · intro hin
          have h2 := (List.mem_filter.1 (b k hin)).2
          have hfk : fails k = false := by
            cases hx : fails k with
            | false => rfl
            | true => exact absurd (List.any_eq_true.2 ⟨k, hkk, hx⟩) hf
          simp [hkk, hfk] at h2
        · exact a k hkk

/-- Objects are only deleted, and cached data are never put back. -/
theorem batches_sub {n : Nat} {fails : Nat → Bool} : ∀ {fuel : Nat} {keys : List Nat} {s : St}, (∀ k ∈ (batches n fails fuel keys s).2.objs, k ∈ s.objs) ∧
    (batches n fails fuel keys s).2.cached = s.cached := by
  intro fuel
  induction fuel with
  | zero => intro keys s; exact ⟨fun k h => h, rfl⟩
  | succ fuel ih =>
    intro keys s
    unfold batches
    split
    · exact ⟨fun k h => h, rfl⟩
    · simp only
      split
      · exact ⟨fun k h => (List.mem_filter.1 h).1, rfl⟩
      · obtain ⟨a, b⟩ := @ih (keys.drop n) { s with objs := s.objs.filter (fun k => !((keys.take n).contains k && !fails k)) }
        exact ⟨fun k h => (List.mem_filter.1 (a k h)).1, b⟩

/-- **C91 (clear).** If `s3qladm clear` succeeds and the storage has listed every object, nothing is left in the storage nor in the cache; if it is not confirmed, nothing changes; and however it ends,
no object is deleted while cached metadata stay. -/
theorem C91_clear {listing : List Nat} {fails : Nat → Bool} {s : St} :
    ((clear true listing fails s).1 = true → (∀ k ∈ s.objs, k ∈ listing) → (clear true listing fails s).2 = ⟨false, []⟩) ∧
    clear false listing fails s = (false, s) ∧ (clear true listing fails s).2.cached = false := by
  refine ⟨?_, rfl, ?_⟩
  · intro h hl
    unfold clear at h ⊢
    simp only [if_true] at h ⊢
    cases hb : batches 1000 fails (listing.length + 1) listing { s with cached := false } with
    | mk r s' =>
      rw [hb] at h
      cases (show r = true from h)
      obtain ⟨a, b, c⟩ := batches_ok (by omega) (by omega) hb
      show s' = _
      obtain ⟨cc, oo⟩ := s'
      have ho : oo = [] := by
        cases oo with
        | nil => rfl
        | cons k t =>
          have hk : k ∈ (k :: t) := List.mem_cons_self
          exact absurd hk (a k (hl k (b k hk)))
      rw [ho]
      have : cc = false := c
      rw [this]
  · unfold clear
    simp only [if_true]
    exact batches_sub.2

/-- **C91 (clear, failures).** If an object that was listed cannot be deleted, the command reports a failure. -/
theorem C91_clear_honest {listing : List Nat} {fails : Nat → Bool} {s : St} (h : ∃ k ∈ listing, fails k = true ∧ k ∈ s.objs) : (clear true listing fails s).1 = false := by
  unfold clear
  simp only [if_true]
  suffices ∀ (fuel : Nat) (keys : List Nat) (s : St), keys.length < fuel → (∃ k ∈ keys, fails k = true) → (batches 1000 fails fuel keys s).1 = false by
    obtain ⟨k, a, b, _⟩ := h
    exact this _ _ _ (by omega) ⟨k, a, b⟩
  intro fuel
  induction fuel with
  | zero => intro keys s h; omega
  | succ fuel ih =>
    rintro keys s hl ⟨k, hk, hf⟩
    unfold batches
    rw [if_neg (fun h => by rw [h] at hk; cases hk)]
    simp only
    split
    · rfl
    · rename_i hn
      rw [← List.take_append_drop 1000 keys, List.mem_append] at hk
      rcases hk with hk | hk
      · exact absurd (List.any_eq_true.2 ⟨k, hk, hf⟩) hn
      · refine ih _ _ ?_ ⟨k, hk, hf⟩
        rw [List.length_drop]
        have : 0 < (keys.drop 1000).length := List.length_pos_of_mem hk
        rw [List.length_drop] at this
        omega

example : clear true [1, 2, 3] (fun _ => false) ⟨true, [1, 2, 3]⟩ = (true, ⟨false, []⟩) ∧ clear true [1, 2, 3] (fun k => k == 2) ⟨true, [1, 2, 3]⟩ = (false, ⟨false, [2]⟩) := by decide

end Clear

end Verif.Tools.Guard
