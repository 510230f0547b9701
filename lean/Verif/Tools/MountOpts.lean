/-
C87: the command line of mount.s3ql: options in the style of /etc/fstab (mount.py:634-684), and the number of compression threads (mount.py:527-576).
-/
namespace Verif.Tools.MountOpts

/-- A command line argument. -/
abbrev Tok := List Char

/-! #### Model -/

/-- `val.split(sep)` for one character. -/
def split (sep : Char) : Tok → List Tok
  | [] => [[]]
  | c :: s =>
    if c = sep then [] :: split sep s
    else
      match split sep s with
      | [] => [[c]]
      | w :: ws => (c :: w) :: ws

/-- Options that are ignored (mount.py:651-676). -/
def ignored : List Tok :=
  ["rw", "defaults", "auto", "noauto", "user", "nouser", "dev", "nodev", "suid", "nosuid", "atime", "diratime", "exec", "noexec", "group", "mand", "nomand", "_netdev",
    "nofail", "norelatime", "strictatime", "owner", "users", "nobootwait"].map String.toList

def dashes : Tok := ['-', '-']

def dashO : Tok := ['-', 'o']

/-- What goes wrong: `args[pos + 1]` does not exist; `opt.split('=')` does not give two parts; `ro`. -/
inductive Err where
  | indexError
  | valueError
  | readOnly
  deriving DecidableEq, Repr

/-- `args.insert(pos, x)` -/
def insert (args : List Tok) (pos : Nat) (x : Tok) : List Tok := args.take pos ++ x :: args.drop pos

/-- The loop body for one option (mount.py:645-682). -/
def one (pos : Nat) (args : List Tok) (opt : Tok) : Except Err (List Tok) :=
  if opt.contains '=' then
    match split '=' opt with
    | [key, val] => .ok (insert (insert args pos val) pos (dashes ++ key))
    | _ => .error .valueError
  else if ignored.contains opt then .ok args
  else if opt = "ro".toList then .error .readOnly
  else .ok (insert args pos (dashes ++ opt))

/-- The loop over the options. -/
def loop (pos : Nat) : List Tok → List Tok → Except Err (List Tok)
  | args, [] => .ok args
  | args, o :: os =>
    match one pos args o with
    | .ok args => loop pos args os
    | .error e => .error e

/-- `_expand_fstab_options` (mount.py:634-684). -/
def expand (args : List Tok) : Except Err (List Tok) :=
  let maxIdx := if args.contains dashes then args.idxOf dashes else args.length
  if (args.take maxIdx).contains dashO then
    let pos := args.idxOf dashO
    match args[pos + 1]? with
    | none => .error .indexError
    | some val => loop pos ((args.eraseIdx pos).eraseIdx pos) (split ',' val).reverse
  else .ok args

/-- `determine_threads` (mount.py:527-576).  `cores`, `memory`: `none` if it cannot be determined; `mem`: memory for one thread, 0 unless LZMA is used.  Simplified: exact
arithmetic instead of floating point. -/
def threads (cores memory : Option Nat) (mem : Nat) : Nat :=
  match cores with
  | none => 2
  | some n =>
    match memory with
    | none => if mem ≠ 0 then 2 else min (2 * n) 10
    | some m =>
      if mem > 0 ∧ 2 * (2 * n * mem) > m then
        let t := min (m / 2 / mem) 10
        if t > 0 then t else 1
      else min (2 * n) 10

/-! #### Specification -/

/-- What one option from fstab means on the command line: `key=value` is `--key value`, `flag` is `--flag`, and some are for other programs.
`none`: it cannot be given. -/
def meaning (opt : Tok) : Option (List Tok) :=
  if opt.contains '=' then
    match split '=' opt with
    | [key, val] => some [dashes ++ key, val]
    | _ => none
  else if ignored.contains opt then some []
  else if opt = "ro".toList then none
  else some [dashes ++ opt]

/-- The same for several options. -/
def meanings : List Tok → Option (List Tok)
  | [] => some []
  | o :: os =>
    match meaning o, meanings os with
    | some a, some b => some (a ++ b)
    | _, _ => none

/-- `val` is the options, separated by commas. -/
def join : List Tok → Tok
  | [] => []
  | [o] => o
  | o :: os => o ++ ',' :: join os

/-! #### Proof -/

theorem insert_pre (pre post : List Tok) (x : Tok) : insert (pre ++ post) pre.length x = pre ++ x :: post := by
  unfold insert
  rw [List.take_left, List.drop_left]

theorem one_some {pre post : List Tok} {opt : Tok} {a : List Tok} (h : meaning opt = some a) : one pre.length (pre ++ post) opt = .ok (pre ++ (a ++ post)) := by
  unfold meaning at h
  unfold one
  split at h
  · rename_i hc
    rw [if_pos hc]
    split at h
    · rename_i key val hs
      cases h
      simp only [insert_pre]
      rfl
    · cases h
  · rename_i hc
    rw [if_neg hc]
    split at h
    · rename_i hi
      cases h
      rw [if_pos hi]; rfl
    · rename_i hi
      rw [if_neg hi]
      split at h
      · cases h
      · rename_i hr
        cases h
        rw [if_neg hr, insert_pre]; rfl

theorem one_none {pos : Nat} {args : List Tok} {opt : Tok} (h : meaning opt = none) : ∃ e, one pos args opt = .error e := by
  unfold meaning at h
  unfold one
  split at h
  · rename_i hc
    rw [if_pos hc]
    split at h
    · cases h
    · exact ⟨_, rfl⟩
  · rename_i hc
    rw [if_neg hc]
    split at h
    · cases h
    · rename_i hi
      rw [if_neg hi]
      split at h
      · rename_i hr; rw [if_pos hr]; exact ⟨_, rfl⟩
      · cases h

theorem meanings_append : ∀ (a b : List Tok), meanings (a ++ b) = (match (generalizing := false) meanings a, meanings b with | some x, some y => some (x ++ y) | _, _ => none)
  | [], b => by cases hb : meanings b <;> simp [meanings, hb]
  | o :: a, b => by
    have e : ∀ (o : Tok) (x : List Tok), meanings (o :: x) = (match (generalizing := false) meaning o, meanings x with | some a, some b => some (a ++ b) | _, _ => none) := fun _ _ => rfl
    rw [List.cons_append, e, e, meanings_append a b]
    cases meaning o <;> cases meanings a <;> cases meanings b <;> simp

theorem loop_some : ∀ (os : List Tok) (pre post a : List Tok), meanings os = some a → loop pre.length (pre ++ post) os.reverse = .ok (pre ++ (a ++ post)) := by
  intro os
  suffices h : ∀ (rs : List Tok) (pre post a : List Tok), meanings rs.reverse = some a → loop pre.length (pre ++ post) rs = .ok (pre ++ (a ++ post)) by
    intro pre post a ha
    exact h os.reverse pre post a (by rw [List.reverse_reverse]; exact ha)
  intro rs
  induction rs with
  | nil => intro pre post a ha; cases ha; rfl
  | cons o rs ih =>
    intro pre post a ha
    rw [List.reverse_cons, meanings_append] at ha
    cases h1 : meanings rs.reverse with
    | none => rw [h1] at ha; cases ha
    | some x =>
      rw [h1] at ha
      have h2 : meanings [o] = (meaning o).map (fun a => a ++ []) := by
        unfold meanings
        cases meaning o <;> rfl
      rw [h2] at ha
      cases h3 : meaning o with
      | none => rw [h3] at ha; cases ha
      | some y =>
        rw [h3] at ha
        simp only [Option.map_some, List.append_nil, Option.some.injEq] at ha
        subst ha
        unfold loop
        rw [one_some h3]
        simp only
        rw [ih pre (y ++ post) x h1, List.append_assoc]

theorem loop_none : ∀ (rs : List Tok) (pos : Nat) (args : List Tok), meanings rs.reverse = none → ∃ e, loop pos args rs = .error e
  | [], _, _, h => by cases h
  | o :: rs, pos, args, h => by
    rw [List.reverse_cons, meanings_append] at h
    unfold loop
    cases h1 : one pos args o with
    | error e => exact ⟨e, rfl⟩
    | ok args' =>
      simp only
      apply loop_none rs
      cases h2 : meanings rs.reverse with
      | none => rfl
      | some x =>
        rw [h2] at h
        unfold meanings at h
        cases h3 : meaning o with
        | none => obtain ⟨e, he⟩ := one_none (pos := pos) (args := args) h3; rw [h1] at he; cases he
        | some y => rw [h3] at h; simp [meanings] at h

theorem split_join : ∀ (os : List Tok), os ≠ [] → (∀ o ∈ os, ',' ∉ o) → split ',' (join os) = os
  | [], h, _ => absurd rfl h
  | [o], _, h => by
    have : ∀ s : Tok, ',' ∉ s → split ',' s = [s] := by
      intro s
      induction s with
      | nil => intro _; rfl
      | cons c s ih =>
        intro hc
        rw [List.mem_cons, not_or] at hc
        unfold split
        rw [if_neg (Ne.symm hc.1), ih hc.2]
    exact this o (h o List.mem_cons_self)
  | o :: o2 :: os, _, h => by
    have ih := split_join (o2 :: os) (List.cons_ne_nil _ _) (fun x hx => h x (List.mem_cons_of_mem _ hx))
    show split ',' (o ++ ',' :: join (o2 :: os)) = _
    have ho := h o List.mem_cons_self
    clear h
    rename_i hne
    clear hne
    induction o with
    | nil =>
      show split ',' (',' :: join (o2 :: os)) = _
      unfold split
      rw [if_pos rfl, ih]
    | cons c o iho =>
      rw [List.mem_cons, not_or] at ho
      rw [List.cons_append]
      unfold split
      rw [if_neg (Ne.symm ho.1), iho ho.2]

theorem idx_app {pre post : List Tok} {x : Tok} (h : x ∉ pre) : (pre ++ post).idxOf x = pre.length + post.idxOf x := by
  rw [List.idxOf_append, if_neg h, Nat.add_comm]

theorem idx_pre {pre post : List Tok} {x : Tok} (h : x ∉ pre) : (pre ++ x :: post).idxOf x = pre.length := by
  rw [idx_app h, List.idxOf_cons_self, Nat.add_zero]

theorem erase_pre (pre post : List Tok) (x y : Tok) : ((pre ++ x :: y :: post).eraseIdx pre.length).eraseIdx pre.length = pre ++ post := by
  rw [List.eraseIdx_append_of_length_le (Nat.le_refl _), Nat.sub_self, List.eraseIdx_cons_zero, List.eraseIdx_append_of_length_le (Nat.le_refl _), Nat.sub_self, List.eraseIdx_cons_zero]

theorem expand_eq {pre post : List Tok} {val : Tok} (h1 : dashO ∉ pre) (h2 : dashes ∉ pre) :
    expand (pre ++ dashO :: val :: post) = loop pre.length (pre ++ post) (split ',' val).reverse := by
  unfold expand
  have hin : ((pre ++ dashO :: val :: post).take (if (pre ++ dashO :: val :: post).contains dashes then (pre ++ dashO :: val :: post).idxOf dashes else (pre ++ dashO :: val :: post).length)).contains dashO = true := by
    rw [List.contains_iff_mem]
    split
    · rw [idx_app h2, List.idxOf_cons, show (dashO == dashes) = false from rfl, cond_false, List.take_append]
      refine List.mem_append_right _ ?_
      rw [show pre.length + ((val :: post).idxOf dashes + 1) - pre.length = (val :: post).idxOf dashes + 1 by omega, List.take_succ_cons]
      exact List.mem_cons_self
    · rw [List.take_length]
      exact List.mem_append_right _ List.mem_cons_self
  simp only [hin, if_true]
  rw [idx_pre h1, List.getElem?_append_right (by omega), show pre.length + 1 - pre.length = 1 by omega]
  simp only [List.getElem?_cons_succ, List.getElem?_cons_zero]
  rw [erase_pre]

/-! #### Theorems -/

/-- C87, for options without commas in them, of which each has a meaning: `-o a,b=c` is the same as `--a --b c` in that place.  What is missing (values with an equals sign)
is false of the code, see `C87_backend_options`. -/
theorem C87_fstab_partial {pre post : List Tok} {opts a : List Tok} (h1 : dashO ∉ pre) (h2 : dashes ∉ pre) (hne : opts ≠ []) (hc : ∀ o ∈ opts, ',' ∉ o)
    (hm : meanings opts = some a) : expand (pre ++ dashO :: join opts :: post) = .ok (pre ++ (a ++ post)) := by
  rw [expand_eq h1 h2, split_join opts hne hc]
  exact loop_some opts pre post a hm

/-- C87: if one of the options has no meaning (like `ro`), the command fails. -/
theorem C87_refused {pre post : List Tok} {opts : List Tok} (h1 : dashO ∉ pre) (h2 : dashes ∉ pre) (hne : opts ≠ []) (hc : ∀ o ∈ opts, ',' ∉ o)
    (hm : meanings opts = none) : ∃ e, expand (pre ++ dashO :: join opts :: post) = .error e := by
  rw [expand_eq h1 h2, split_join opts hne hc]
  exact loop_none _ _ _ (by rw [List.reverse_reverse]; exact hm)

/-- C87: a command line without `-o` (before `--`) is left alone. -/
theorem C87_unchanged {pre post : List Tok} (h : dashO ∉ pre) : expand pre = .ok pre ∧ expand (pre ++ dashes :: post) = .ok (pre ++ dashes :: post) := by
  have key : ∀ (l : List Tok), dashO ∉ l → ∀ n, (l.take n).contains dashO = false := by
    intro l hl n
    cases hb : (l.take n).contains dashO with
    | false => rfl
    | true => exact absurd (List.mem_of_mem_take (List.contains_iff_mem.1 hb)) hl
  constructor
  · unfold expand
    simp only [key pre h]; rfl
  · unfold expand
    have h2 : ((pre ++ dashes :: post).take (if (pre ++ dashes :: post).contains dashes then (pre ++ dashes :: post).idxOf dashes else (pre ++ dashes :: post).length)).contains dashO = false := by
      rw [if_pos (List.contains_iff_mem.2 (List.mem_append_right _ List.mem_cons_self))]
      cases hb : ((pre ++ dashes :: post).take ((pre ++ dashes :: post).idxOf dashes)).contains dashO with
      | false => rfl
      | true =>
        exfalso
        have hm := List.contains_iff_mem.1 hb
        have hle : (pre ++ dashes :: post).idxOf dashes ≤ pre.length := by
          by_cases hp : dashes ∈ pre
          · rw [List.idxOf_append, if_pos hp]; exact Nat.le_of_lt (List.idxOf_lt_length_of_mem hp)
          · rw [idx_pre hp]; exact Nat.le_refl _
        rw [List.take_append_of_le_length hle] at hm
        exact h (List.mem_of_mem_take hm)
    simp only [h2]; rfl

/-- C87 fails: backend options that have values, which on the command line are `--backend-options tcp-timeout=20`, cannot be given in /etc/fstab: mount.s3ql ends with a Python exception. -/
theorem C87_backend_options : expand ["s3://b/".toList, "/mnt".toList, dashO, "backend-options=tcp-timeout=20".toList] = .error .valueError := by rfl

/-- C87 fails: only the first `-o` is understood. -/
theorem C87_second : expand [dashO, "allow-other".toList, dashO, "nfs".toList] = .ok ["--allow-other".toList, dashO, "nfs".toList] := by rfl

/-- C87 fails: a comma too many ends the options: what follows is taken for a storage URL or a mount point. -/
theorem C87_comma : expand [dashO, "nfs,".toList, "--debug".toList] = .ok ["--nfs".toList, dashes, "--debug".toList] := by rfl

/-- C87: compression uses at most half of the memory, or the smallest number of threads that is possible; and never more than ten threads, or two per core. -/
theorem C87_threads {n m mem : Nat} : (2 * (threads (some n) (some m) mem * mem) ≤ m ∨ threads (some n) (some m) mem = 1) ∧ threads (some n) (some m) mem ≤ 10 ∧
    (1 ≤ n → 1 ≤ threads (some n) (some m) mem) := by
  unfold threads
  simp only
  split
  · rename_i h
    split
    · rename_i ht
      refine ⟨Or.inl ?_, Nat.min_le_right _ _, fun _ => ht⟩
      · have h1 : min (m / 2 / mem) 10 * mem ≤ m / 2 / mem * mem := Nat.mul_le_mul_right _ (Nat.min_le_left _ _)
        have h2 := Nat.div_mul_le_self (m / 2) mem
        have h3 := Nat.div_mul_le_self m 2
        omega
    · exact ⟨Or.inr rfl, by omega, fun _ => Nat.le_refl _⟩
  · rename_i h
    refine ⟨?_, Nat.min_le_right _ _, fun hn => by omega⟩
    by_cases hm : mem = 0
    · left; rw [hm]; simp
    · left
      have h1 : min (2 * n) 10 * mem ≤ 2 * n * mem := Nat.mul_le_mul_right _ (Nat.min_le_left _ _)
      have h2 : ¬ (2 * (2 * n * mem) > m) := fun hx => h ⟨by omega, hx⟩
      omega

/-- C87: not more than two threads per core, and as many as that up to ten if there is enough memory. -/
theorem C87_threads_cores {n m mem : Nat} (hn : 1 ≤ n) : threads (some n) (some m) mem ≤ 2 * n ∧ (4 * n * mem ≤ m → threads (some n) (some m) mem = min (2 * n) 10) := by
  unfold threads
  simp only
  split
  · rename_i h
    refine ⟨?_, fun hx => ?_⟩
    · split
      · have h1 : m / 2 / mem ≤ 2 * n := by
          rw [Nat.div_le_iff_le_mul_add_pred h.1]
          have : 2 * n * mem = mem * (2 * n) := Nat.mul_comm _ _
          omega
        omega
      · omega
    · exfalso
      have : 4 * n * mem = 2 * (2 * n * mem) := by rw [← Nat.mul_assoc, ← Nat.mul_assoc]
      omega
  · refine ⟨by omega, fun _ => rfl⟩

/-! #### The hypotheses can be met -/

example : meanings ["rw".toList, "cachesize=1024".toList, "allow-other".toList] = some ["--cachesize".toList, "1024".toList, "--allow-other".toList] ∧
    join ["rw".toList, "cachesize=1024".toList, "allow-other".toList] = "rw,cachesize=1024,allow-other".toList ∧ meanings ["nfs".toList, "ro".toList] = none ∧
    expand ["s3://b/".toList, "/mnt".toList, dashO, "rw,cachesize=1024,allow-other".toList, "--debug".toList] =
      .ok ["s3://b/".toList, "/mnt".toList, "--cachesize".toList, "1024".toList, "--allow-other".toList, "--debug".toList] :=
  ⟨by decide +kernel, by decide +kernel, by decide +kernel, by rfl⟩

/-- C87: if the cores or, with LZMA, the memory are not known, two threads are used; without LZMA the memory does not matter. -/
theorem C87_threads_unknown {cores memory : Option Nat} {mem : Nat} : ((cores = none ∨ (memory = none ∧ mem ≠ 0)) → threads cores memory mem = 2) ∧
    (∀ n, cores = some n → mem = 0 → threads cores memory mem = min (2 * n) 10) := by
  refine ⟨fun h => ?_, fun n hn hm => ?_⟩
  · cases cores with
    | none => rfl
    | some n =>
      rcases h with h | ⟨rfl, h⟩
      · cases h
      · simp [threads, h]
  · subst hn; subst hm
    cases memory <;> simp [threads]

/-- LZMA level 6 (94 MiB per thread) with 8 cores: 1 GiB of memory gives 5 threads, 64 GiB give ten. -/
example : threads (some 8) (some (1024 * 1048576)) (94 * 1048576) = 5 ∧ threads (some 8) (some (65536 * 1048576)) (94 * 1048576) = 10 ∧
    threads (some 8) (some (100 * 1048576)) (94 * 1048576) = 1 := by decide

end Verif.Tools.MountOpts
