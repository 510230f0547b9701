/-
C85: `pcp.py` (contrib/pcp.py:54-87) copies directories with several rsync processes, each of which takes the files whose names begin with certain characters.

rsync itself is the environment; what is used of it is written down in `Rule`, `passes` and `sent` (rsync(1), "FILTER RULES" and the options `-a`, `-H`).
-/
namespace Verif.Contrib.Pcp

/-! #### Specification -/

/-- A file or a directory.  A file is given by the number of its inode: two names with the same number are hard links. -/
inductive Node where
  | file (ino : Nat)
  | dir (entries : List (List Char × Node))

mutual
/-- All files below a node: path and inode number. -/
def Node.files : Node → List (List (List Char) × Nat)
  | .file n => [([], n)]
  | .dir es => filesIn es

def filesIn : List (List Char × Node) → List (List (List Char) × Nat)
  | [] => []
  | (x, n) :: es => n.files.map (fun p => (x :: p.1, p.2)) ++ filesIn es
end

/-! #### Environment: rsync -/

/-- The filter rules that occur: `+ */` (directories), `-! [cs]*` and `- [cs]*`.  A pattern without a slash is compared with the last component
of the name. -/
inductive Rule where
  | inclDirs
  | exclNot (cs : List Char)
  | excl (cs : List Char)
  deriving DecidableEq, Repr

/-- The pattern `[cs]*`.  The characters that occur in `cs` have no special meaning. -/
def hit (cs : List Char) : List Char → Bool
  | [] => false
  | c :: _ => cs.contains c

/-- Is a file or directory with this name transferred?  The first rule that matches decides, and without one it is. -/
def passes (isDir : Bool) (name : List Char) : List Rule → Bool
  | [] => true
  | .inclDirs :: rs => if isDir then true else passes isDir name rs
  | .exclNot cs :: rs => if hit cs name then passes isDir name rs else false
  | .excl cs :: rs => if hit cs name then false else passes isDir name rs

/-- Is this node a directory? -/
def Node.isDir : Node → Bool
  | .file _ => false
  | .dir _ => true

mutual
/-- The files below a node that are transferred. -/
def sent (rs : List Rule) : Node → List (List (List Char) × Nat)
  | .file n => [([], n)]
  | .dir es => sentIn rs es

def sentIn (rs : List Rule) : List (List Char × Node) → List (List (List Char) × Nat)
  | [] => []
  | (x, n) :: es => (if passes n.isDir x rs then (sent rs n).map (fun p => (x :: p.1, p.2)) else []) ++ sentIn rs es
end

/-- A call of rsync: rules, and whether `-aHAX` was given.  Without `-r` (which `-a` implies) directories are left out. -/
structure Call where
  rules : List Rule
  archive : Bool
  deriving DecidableEq, Repr

/-- What a call transfers of a source directory (given with a slash at the end, so that its own name does not matter). -/
def Call.copies (c : Call) (src : Node) : List (List (List Char) × Nat) := if c.archive then sent c.rules src else []

/-! #### Model -/

/-- `pool` (contrib/pcp.py:33). -/
def pool : List (List Char) :=
  ["abcdefghijklmnopqrstuvwxyz".toList, "ABCDEFGHIJKLMNOPQRSTUVWXYZ".toList, "0123456789".toList]

/-- `int(i * y)` for the pool of length `n`, with `y = n / (processes - 1)` (contrib/pcp.py:63-66).  The arithmetic is done in floating point, so the
result may be one less than the exact value; all that the theorems use is that it grows with `i` and that it is 0 for `i = 0`. -/
structure Cut where
  at_ : Nat → Nat → Nat
  zero : ∀ n, at_ n 0 = 0
  mono : ∀ n i, at_ n i ≤ at_ n (i + 1)

/-- The exact values. -/
def exact (p : Nat) : Cut where
  at_ n i := i * n / (p - 1)
  zero n := by simp
  mono n i := Nat.div_le_div_right (Nat.mul_le_mul_right n (Nat.le_succ i))

/-- `x[a:b]` -/
def slice (x : List Char) (a b : Nat) : List Char := (x.take b).drop a

/-- One element of `prefixes` (contrib/pcp.py:65-67). -/
def prefixOf (c : Cut) (i : Nat) : List Char := (pool.map (fun x => slice x (c.at_ x.length i) (c.at_ x.length (i + 1)))).flatten

/-- `prefixes` (contrib/pcp.py:64-67). -/
def prefixes (p : Nat) (c : Cut) : List (List Char) := (List.range (p - 1)).map (prefixOf c)

/-- `filters` (contrib/pcp.py:69-72). -/
def filters (p : Nat) (c : Cut) : List Rule := (prefixes p c).map .exclNot ++ [.excl (prefixes p c).flatten]

/-- The commands that are started (contrib/pcp.py:58-61, 74-85).  `none`: the number of processes is refused.  Simplified: one source. -/
def calls (p : Nat) (c : Cut) (archive : Bool) : Option (List Call) :=
  if p < 2 ∨ p > 26 + 1 then none
  else some ((filters p c).map (fun f => ⟨[.inclDirs, f], archive⟩))

/-- The exit status (contrib/pcp.py:87-90), from the exit statuses of the processes. -/
def exitStatus (rc : List Nat) : Nat := if rc.all (fun r => r == 0) then 0 else 1

/-! #### Proof -/

theorem slice_mem {x : List Char} {a b : Nat} {ch : Char} : ch ∈ slice x a b ↔ ∃ k, a ≤ k ∧ k < b ∧ x[k]? = some ch := by
  unfold slice
  rw [List.mem_iff_getElem?]
  constructor
  · rintro ⟨k, hk⟩
    rw [List.getElem?_drop, List.getElem?_take] at hk
    split at hk
    · exact ⟨a + k, by omega, by omega, hk⟩
    · cases hk
  · rintro ⟨k, h1, h2, h3⟩
    refine ⟨k - a, ?_⟩
    rw [List.getElem?_drop, List.getElem?_take, show a + (k - a) = k by omega, if_pos h2]; exact h3

theorem Cut.le (c : Cut) (n : Nat) {i j : Nat} (h : i ≤ j) : c.at_ n i ≤ c.at_ n j := by
  induction j with
  | zero => rw [Nat.le_zero.1 h]; exact Nat.le_refl _
  | succ j ih =>
    by_cases e : i = j + 1
    · rw [e]; exact Nat.le_refl _
    · exact Nat.le_trans (ih (by omega)) (c.mono n j)

theorem pool_nodup : (∀ x ∈ pool, x.Nodup) ∧ pool.Pairwise (fun x y => ∀ c ∈ x, c ∉ y) := by decide +kernel

theorem getElem?_inj {l : List Char} (h : l.Nodup) {i j : Nat} {c : Char} (hi : l[i]? = some c) (hj : l[j]? = some c) : i = j := by
  obtain ⟨h1, e1⟩ := List.getElem?_eq_some_iff.1 hi
  obtain ⟨h2, e2⟩ := List.getElem?_eq_some_iff.1 hj
  rw [List.Nodup, List.pairwise_iff_getElem] at h
  rcases Nat.lt_trichotomy i j with g | g | g
  · exact absurd (e1.trans e2.symm) (h i j h1 h2 g)
  · exact g
  · exact absurd (e2.trans e1.symm) (h j i h2 h1 g)

/-- Two different prefixes have no character in common. -/
theorem prefix_disjoint (c : Cut) {i j : Nat} {ch : Char} (hi : ch ∈ prefixOf c i) (hj : ch ∈ prefixOf c j) : i = j := by
  have key : ∀ x ∈ pool, ∀ y ∈ pool, ch ∈ x → ch ∈ y → x = y ∧ x.Nodup := by
    intro x hx y hy h1 h2
    have hn := pool_nodup
    refine ⟨?_, hn.1 x hx⟩
    have hp := hn.2
    obtain ⟨a, ha, ea⟩ := List.mem_iff_getElem.1 hx
    obtain ⟨b, hb, eb⟩ := List.mem_iff_getElem.1 hy
    by_cases hab : a = b
    · subst hab; rw [← ea, ← eb]
    · exfalso
      rw [List.pairwise_iff_getElem] at hp
      rcases Nat.lt_or_gt_of_ne hab with h | h
      · exact hp a b ha hb h ch (by rw [ea]; exact h1) (by rw [eb]; exact h2)
      · exact hp b a hb ha h ch (by rw [eb]; exact h2) (by rw [ea]; exact h1)
  unfold prefixOf at hi hj
  rw [List.mem_flatten] at hi hj
  obtain ⟨l1, m1, hc1⟩ := hi
  obtain ⟨l2, m2, hc2⟩ := hj
  obtain ⟨x, hx, e1⟩ := List.mem_map.1 m1
  obtain ⟨y, hy, e2⟩ := List.mem_map.1 m2
  subst e1 e2
  obtain ⟨k1, a1, b1, g1⟩ := slice_mem.1 hc1
  obtain ⟨k2, a2, b2, g2⟩ := slice_mem.1 hc2
  obtain ⟨e, hn⟩ := key x hx y hy (List.mem_iff_getElem?.2 ⟨k1, g1⟩) (List.mem_iff_getElem?.2 ⟨k2, g2⟩)
  subst e
  have hk := getElem?_inj hn g1 g2
  subst hk
  rcases Nat.lt_trichotomy i j with h | h | h
  · have := c.le x.length (i := i + 1) (j := j) h; omega
  · exact h
  · have := c.le x.length (i := j + 1) (j := i) h; omega

mutual
theorem sent_mem (rs : List Rule) (hd : ∀ x, passes true x rs = true) : ∀ (n : Node) (p : List (List Char)) (k : Nat), (∃ es, n = .dir es) →
    ((p, k) ∈ sent rs n ↔ (p, k) ∈ n.files ∧ ∃ x, p.getLast? = some x ∧ passes false x rs = true)
  | .file _, _, _, h => by obtain ⟨_, h⟩ := h; cases h
  | .dir es, p, k, _ => by
    rw [show sent rs (.dir es) = sentIn rs es by rw [sent], show Node.files (.dir es) = filesIn es by rw [Node.files]]
    exact sentIn_mem rs hd es p k

theorem sentIn_mem (rs : List Rule) (hd : ∀ x, passes true x rs = true) : ∀ (es : List (List Char × Node)) (p : List (List Char)) (k : Nat),
    ((p, k) ∈ sentIn rs es ↔ (p, k) ∈ filesIn es ∧ ∃ x, p.getLast? = some x ∧ passes false x rs = true)
  | [], p, k => by simp [sentIn, filesIn]
  | (x, .file n) :: es, p, k => by
    have ih := sentIn_mem rs hd es p k
    rw [sentIn, filesIn, List.mem_append, List.mem_append, ih]
    simp only [Node.isDir, sent, Node.files, List.map_cons, List.map_nil, List.mem_singleton, Prod.mk.injEq]
    by_cases hp : passes false x rs = true
    · rw [if_pos hp]
      simp only [List.mem_singleton, Prod.mk.injEq]
      constructor
      · rintro (⟨h1, h2⟩ | ⟨h1, h2⟩)
        · exact ⟨Or.inl ⟨h1, h2⟩, x, by rw [h1]; rfl, hp⟩
        · exact ⟨Or.inr h1, h2⟩
      · rintro ⟨h1 | h1, h2⟩
        · exact Or.inl h1
        · exact Or.inr ⟨h1, h2⟩
    · rw [if_neg hp]
      constructor
      · rintro (h | ⟨h1, h2⟩)
        · cases h
        · exact ⟨Or.inr h1, h2⟩
      · rintro ⟨h1 | h1, y, h2, h3⟩
        · rw [h1.1] at h2; cases h2; exact absurd h3 hp
        · exact Or.inr ⟨h1, y, h2, h3⟩
  | (x, .dir fs) :: es, p, k => by
    have ih := sentIn_mem rs hd es p k
    have ih2 := sentIn_mem rs hd fs
    rw [sentIn, filesIn, List.mem_append, List.mem_append, ih]
    simp only [Node.isDir, hd x, if_true]
    rw [show sent rs (.dir fs) = sentIn rs fs by rw [sent], show Node.files (.dir fs) = filesIn fs by rw [Node.files]]
    have hne : ∀ q m, (q, m) ∈ filesIn fs → q ≠ [] := by
      clear ih ih2
      intro q m
      induction fs with
      | nil => intro h; simp [filesIn] at h
      | cons e fs ih => 
        intro h
        obtain ⟨y, n⟩ := e
        rw [filesIn, List.mem_append] at h
        rcases h with h | h
        · obtain ⟨z, _, hz⟩ := List.mem_map.1 h
          cases hz; exact List.cons_ne_nil _ _
        · exact ih h
    constructor
    · rintro (h | ⟨h1, h2⟩)
      · obtain ⟨z, hz, e⟩ := List.mem_map.1 h
        obtain ⟨q, m⟩ := z
        cases e
        obtain ⟨h1, y, h2, h3⟩ := (ih2 q m).1 hz
        refine ⟨Or.inl (List.mem_map.2 ⟨(q, m), h1, rfl⟩), y, ?_, h3⟩
        rw [List.getLast?_cons_of_ne_nil (hne q m h1)]; exact h2
      · exact ⟨Or.inr h1, h2⟩
    · rintro ⟨h1 | h1, y, h2, h3⟩
      · obtain ⟨z, hz, e⟩ := List.mem_map.1 h1
        obtain ⟨q, m⟩ := z
        cases e
        rw [List.getLast?_cons_of_ne_nil (hne q m hz)] at h2
        exact Or.inl (List.mem_map.2 ⟨(q, m), (ih2 q m).2 ⟨hz, y, h2, h3⟩, rfl⟩)
      · exact Or.inr ⟨h1, y, h2, h3⟩
end

theorem dirs_pass (f : Rule) (x : List Char) : passes true x [.inclDirs, f] = true := rfl

theorem files_last : ∀ (n : Node) (p : List (List Char)) (k : Nat), (∃ es, n = .dir es) → (p, k) ∈ n.files → ∃ x, p.getLast? = some x := by
  intro n p k h hm
  have := (sent_mem [] (fun _ => rfl) n p k h).1
  have h2 : (p, k) ∈ sent [] n := by
    obtain ⟨es, rfl⟩ := h
    suffices hs : ∀ (es : List (List Char × Node)), sentIn [] es = filesIn es by
      rw [show sent [] (.dir es) = sentIn [] es by rw [sent], hs]
      rwa [show Node.files (.dir es) = filesIn es by rw [Node.files]] at hm
    exact sentAll
  obtain ⟨_, x, hx, _⟩ := this h2
  exact ⟨x, hx⟩
where
  sentAll : ∀ (es : List (List Char × Node)), sentIn [] es = filesIn es
    | [] => by simp [sentIn, filesIn]
    | (x, .file n) :: es => by rw [sentIn, filesIn, sentAll es]; simp [passes, sent, Node.files]
    | (x, .dir fs) :: es => by rw [sentIn, filesIn, sentAll es]; simp [passes, sent, Node.files, sentAll fs]

/-- Which of the filters lets a file name pass. -/
theorem one_filter (p : Nat) (c : Cut) (x : List Char) :
    ∃ (j : Nat) (f : Rule), (filters p c)[j]? = some f ∧ passes false x [.inclDirs, f] = true ∧
      ∀ (j' : Nat) (f' : Rule), (filters p c)[j']? = some f' → passes false x [.inclDirs, f'] = true → j' = j := by
  have hlen : (prefixes p c).length = p - 1 := by simp [prefixes]
  have get : ∀ (j : Nat) (f : Rule), (filters p c)[j]? = some f → (j < p - 1 ∧ f = .exclNot (prefixOf c j)) ∨ (j = p - 1 ∧ f = .excl (prefixes p c).flatten) := by
    intro j f h
    unfold filters at h
    by_cases hj : j < p - 1
    · left
      rw [List.getElem?_append_left (by rw [List.length_map, hlen]; exact hj)] at h
      simp [prefixes, hj] at h
      exact ⟨hj, h.symm⟩
    · right
      rw [List.getElem?_append_right (by rw [List.length_map, hlen]; omega), List.length_map, hlen] at h
      cases e : j - (p - 1) with
      | zero => rw [e] at h; cases h; exact ⟨by omega, rfl⟩
      | succ m => rw [e] at h; cases h
  have in1 : ∀ j : Nat, j < p - 1 → (filters p c)[j]? = some (.exclNot (prefixOf c j)) := by
    intro j hj
    unfold filters
    rw [List.getElem?_append_left (by rw [List.length_map, hlen]; exact hj)]
    simp [prefixes, hj]
  have in2 : (filters p c)[p - 1]? = some (.excl (prefixes p c).flatten) := by
    unfold filters
    rw [List.getElem?_append_right (by rw [List.length_map, hlen]; omega), List.length_map, hlen, Nat.sub_self]; rfl
  by_cases h : ∃ j, j < p - 1 ∧ hit (prefixOf c j) x = true
  · obtain ⟨j, hj, hh⟩ := h
    refine ⟨j, _, in1 j hj, by simp [passes, hh], ?_⟩
    intro j' f' h' hq
    rcases get j' f' h' with ⟨hj', rfl⟩ | ⟨hj', rfl⟩
    · have hh' : hit (prefixOf c j') x = true := by simpa [passes] using hq
      cases x with
      | nil => cases hh
      | cons ch x => exact prefix_disjoint c (List.contains_iff_mem.1 hh') (List.contains_iff_mem.1 hh)
    · exfalso
      have hh' : hit (prefixes p c).flatten x = false := by simpa [passes] using hq
      cases x with
      | nil => cases hh
      | cons ch x =>
        have : ch ∈ (prefixes p c).flatten := List.mem_flatten.2 ⟨prefixOf c j, List.mem_map.2 ⟨j, List.mem_range.2 hj, rfl⟩, List.contains_iff_mem.1 hh⟩
        have := List.contains_iff_mem.2 this
        rw [show hit (prefixes p c).flatten (ch :: x) = (prefixes p c).flatten.contains ch from rfl, this] at hh'; cases hh'
  · refine ⟨p - 1, _, in2, ?_, ?_⟩
    · have : hit (prefixes p c).flatten x = false := by
        cases hx : hit (prefixes p c).flatten x with
        | false => rfl
        | true =>
          exfalso
          cases x with
          | nil => cases hx
          | cons ch x =>
            obtain ⟨l, hl, hc⟩ := List.mem_flatten.1 (List.contains_iff_mem.1 hx)
            obtain ⟨j, hj, rfl⟩ := List.mem_map.1 hl
            exact h ⟨j, List.mem_range.1 hj, List.contains_iff_mem.2 hc⟩
      simp [passes, this]
    · intro j' f' h' hq
      rcases get j' f' h' with ⟨hj', rfl⟩ | ⟨hj', _⟩
      · exact absurd ⟨j', hj', by simpa [passes] using hq⟩ h
      · exact hj'

/-! #### Theorems -/

/-- C85 with `-a`: every file below the source is copied by exactly one of the rsync processes, and nothing else is copied; for every number of processes that is
accepted, every source and every rounding of the boundaries.  What is missing (without `-a`) is false of the code, see `C85_no_archive`. -/
theorem C85_each_file_once_partial {p : Nat} {c : Cut} {cs : List Call} (h : calls p c true = some cs) (es : List (List Char × Node)) :
    (∀ path ino, (path, ino) ∈ Node.files (.dir es) → ∃ (j : Nat) (call : Call), cs[j]? = some call ∧ (path, ino) ∈ call.copies (.dir es) ∧
      ∀ (j' : Nat) (call' : Call), cs[j']? = some call' → (path, ino) ∈ call'.copies (.dir es) → j' = j) ∧
    ∀ call ∈ cs, ∀ x ∈ call.copies (.dir es), x ∈ Node.files (.dir es) := by
  unfold calls at h
  split at h
  · cases h
  rename_i hp
  cases h
  constructor
  · intro path ino hm
    obtain ⟨x, hx⟩ := files_last _ _ _ ⟨es, rfl⟩ hm
    obtain ⟨j, f, h1, h2, h3⟩ := one_filter p c x
    refine ⟨j, ⟨[.inclDirs, f], true⟩, by rw [List.getElem?_map, h1]; rfl, ?_, ?_⟩
    · exact (sent_mem _ (dirs_pass f) _ _ _ ⟨es, rfl⟩).2 ⟨hm, x, hx, h2⟩
    · intro j' call' g1 g2
      rw [List.getElem?_map] at g1
      obtain ⟨f', e1, e2⟩ := Option.map_eq_some_iff.1 g1
      subst e2
      obtain ⟨_, y, hy, hq⟩ := (sent_mem _ (dirs_pass f') _ _ _ ⟨es, rfl⟩).1 g2
      rw [hx] at hy; cases hy
      exact h3 j' f' e1 hq
  · intro call hc x hx
    obtain ⟨f, _, rfl⟩ := List.mem_map.1 hc
    obtain ⟨q, k⟩ := x
    exact ((sent_mem _ (dirs_pass f) _ q k ⟨es, rfl⟩).1 hx).1

/-- C85: as many processes are started as were asked for. -/
theorem C85_processes {p : Nat} {c : Cut} {a : Bool} {cs : List Call} (h : calls p c a = some cs) : cs.length = p ∧ 2 ≤ p ∧ p ≤ 27 := by
  unfold calls at h
  split at h
  · cases h
  rename_i hp
  cases h
  simp [filters, prefixes]; omega

/-- C85: the exit status is 0 exactly if all the processes succeeded. -/
theorem C85_exit_status (rc : List Nat) : exitStatus rc = 0 ↔ ∀ r ∈ rc, r = 0 := by
  unfold exitStatus
  split
  · rename_i h
    simpa using h
  · rename_i h
    simp only [List.all_eq_true, beq_iff_eq] at h
    exact ⟨(fun h1 => nomatch h1), fun h1 => absurd h1 h⟩

/-- C85 fails without `-a`: no process is told to recurse, nothing at all is copied. -/
theorem C85_no_archive {p : Nat} {c : Cut} {cs : List Call} (h : calls p c false = some cs) (src : Node) : ∀ call ∈ cs, call.copies src = [] := by
  unfold calls at h
  split at h
  · cases h
  cases h
  intro call hc
  obtain ⟨f, _, rfl⟩ := List.mem_map.1 hc
  rfl

/-- A file with two names. -/
def twoNames : Node := .dir [("a".toList, .file 7), ("d".toList, .dir [("z1".toList, .file 7), ("x1".toList, .file 8), ("_".toList, .file 9)])]

/-- C85, `-H`: hard links between files that different processes copy cannot be kept: here no process gets both names of a file. -/
theorem C85_hard_links_lost : ∃ cs, calls 3 (exact 3) true = some cs ∧ (∃ a b, a ≠ b ∧ (a, 7) ∈ twoNames.files ∧ (b, 7) ∈ twoNames.files) ∧
    ∀ call ∈ cs, ∀ a b, (a, 7) ∈ call.copies twoNames → (b, 7) ∈ call.copies twoNames → a = b := by
  refine ⟨_, rfl, ⟨["a".toList], ["d".toList, "z1".toList], by decide, by decide +kernel, by decide +kernel⟩, ?_⟩
  have h : ((calls 3 (exact 3) true).getD []).map (fun cl => cl.copies twoNames) =
    [[(["a".toList], 7)], [(["d".toList, "z1".toList], 7), (["d".toList, "x1".toList], 8)], [(["d".toList, "_".toList], 9)]] := by decide +kernel
  intro call hc a b ha hb
  have : call.copies twoNames ∈ ((calls 3 (exact 3) true).getD []).map (fun cl => cl.copies twoNames) := List.mem_map.2 ⟨call, hc, rfl⟩
  rw [h] at this
  rcases List.mem_cons.1 this with e | this
  · rw [e] at ha hb
    simp at ha hb; rw [ha, hb]
  rcases List.mem_cons.1 this with e | this
  · rw [e] at ha hb
    simp at ha hb; rw [ha, hb]
  rcases List.mem_cons.1 this with e | this
  · rw [e] at ha
    simp at ha
  · cases this

/-- The hypotheses of the theorems: the smallest and the largest number of processes. -/
example : (calls 2 (exact 2) true).isSome = true ∧ (calls 27 (exact 27) true).isSome = true ∧ calls 28 (exact 28) true = none ∧ calls 1 (exact 1) true = none := by
  decide +kernel

/-- With ten processes. -/
example : prefixes 10 (exact 10) = ["abAB0", "cdeCDE1", "fghFGH2", "ijkIJK3", "lmnLMN4", "opqOPQ5", "rstRST6", "uvwUVW7", "xyzXYZ89"].map String.toList := by
  decide +kernel

end Verif.Contrib.Pcp
