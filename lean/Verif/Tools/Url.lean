/-
C51: canonical storage URLs and the names of local files (parse_args.py:192-216, 286-303; common.py:146-153).
-/
import Verif.Local.Props

namespace Verif.Tools.Url
open Verif.Local (Str replaceAll replaceAll_single)

/-! #### Model -/

/-- `s.split('/')` -/
def split : Str → List Str
  | [] => [[]]
  | c :: t =>
    if c = '/' then [] :: split t
    else
      match split t with
      | [] => [[c]]
      | a :: r => (c :: a) :: r

/-- `'/'.join(l)` -/
def join : List Str → Str
  | [] => []
  | [a] => a
  | a :: t => a ++ '/' :: join t

/-- The loop of `posixpath.normpath`: `abs` tells if the path begins with a slash; the components so far are in reverse order. -/
def normLoop (abs : Bool) : List Str → List Str → List Str
  | acc, [] => acc.reverse
  | acc, c :: t =>
    if c = [] ∨ c = ['.'] then normLoop abs acc t
    else if c ≠ ['.', '.'] ∨ (abs = false ∧ acc = []) ∨ acc.head? = some ['.', '.'] then normLoop abs (c :: acc) t
    else normLoop abs acc.tail t

/-- The number of slashes that `posixpath.normpath` leaves at the beginning. -/
def slashes : Str → Nat
  | '/' :: '/' :: '/' :: _ => 1
  | '/' :: '/' :: _ => 2
  | '/' :: _ => 1
  | _ => 0

/-- `posixpath.normpath` -/
def normpath (p : Str) : Str :=
  if p = [] then ['.']
  else
    let n := slashes p
    let r := List.replicate n '/' ++ join (normLoop (n ≠ 0) [] (split p))
    if r = [] then ['.'] else r

/-- `os.path.abspath`; the current directory begins with a slash. -/
def abspath (cwd p : Str) : Str :=
  if p.head? = some '/' then normpath p
  else normpath (if cwd.getLast? = some '/' then cwd ++ p else cwd ++ '/' :: p)

def isAlnum (c : Char) : Bool := ('a' ≤ c && c ≤ 'z') || ('A' ≤ c && c ≤ 'Z') || ('0' ≤ c && c ≤ '9')

/-- The keys of `async_prefix_map` (backends/__init__.py:28-38). -/
def schemes : List Str := ["s3".toList, "local".toList, "gs".toList, "s3c".toList, "s3c4".toList, "swift".toList, "swiftks".toList, "rackspace".toList, "b2".toList]

/-- `re.match(r'^([a-zA-Z0-9]+)://(.+)$', value)`: the scheme, and what follows `://`.  `$` also matches before a line break at the end. -/
def matchUrl (value : Str) : Option (Str × Str) :=
  let scheme := value.takeWhile isAlnum
  if scheme = [] then none
  else
    match value.dropWhile isAlnum with
    | ':' :: '/' :: '/' :: r =>
      let r' := if r.getLast? = some '\n' then r.dropLast else r
      if r' = [] ∨ '\n' ∈ r' then none else some (scheme, r)
    | _ => none

/-- `_canonicalize_storage_url` (parse_args.py:192-216): `none` is `BadParameter`. -/
def canonicalize (cwd value : Str) : Option Str :=
  match matchUrl value with
  | none => none
  | some (scheme, r) =>
    if ¬ schemes.contains scheme then none
    else if scheme = "local".toList then some ("local://".toList ++ abspath cwd r ++ ['/'])
    else if (scheme = "s3".toList ∨ scheme = "gs".toList) ∧ (split r).length = 1 then some (value ++ ['/'])
    else if (scheme = "s3c".toList ∨ scheme = "s3c4".toList ∨ scheme = "swift".toList ∨ scheme = "swiftks".toList ∨ scheme = "rackspace".toList) ∧
        (split r).length = 2 ∧ (split r).all (fun c => c ≠ []) then some (value ++ ['/'])
    else some value

/-- `escape` (common.py:146-153). -/
def escape (s : Str) : Str :=
  let s := replaceAll ['='] ['=', '3', 'D'] s
  let s := replaceAll ['/'] ['=', '2', 'F'] s
  replaceAll ['\x00'] ['=', '0', '0'] s

/-- What is appended to the cache path: the database with the files of SQLite, the parameters (database.py:1274-1297), the cache directory, and
directories with old caches (fsck.py:1381-1390). -/
inductive Suffix : Str → Prop where
  | db : Suffix ".db".toList
  | wal : Suffix ".db-wal".toList
  | shm : Suffix ".db-shm".toList
  | journal : Suffix ".db-journal".toList
  | params : Suffix ".params".toList
  | tmp : Suffix ".params.tmp".toList
  | cache : Suffix "-cache".toList
  | bak (digits : Str) (h : ∀ c ∈ digits, c.isDigit = true) : Suffix ("-cache.bak".toList ++ digits)

/-! #### Lemmas -/

def escChar (c : Char) : Str :=
  if c = '=' then ['=', '3', 'D'] else if c = '/' then ['=', '2', 'F'] else if c = '\x00' then ['=', '0', '0'] else [c]

theorem escape_eq (s : Str) : escape s = s.flatMap escChar := by
  unfold escape
  simp only [replaceAll_single]
  rw [List.flatMap_assoc, List.flatMap_assoc]
  congr 1
  funext c
  unfold escChar
  by_cases h1 : c = '='
  · subst h1; decide
  · by_cases h2 : c = '/'
    · subst h2; decide
    · by_cases h3 : c = '\x00'
      · subst h3; decide
      · simp [h1, h2, h3]

theorem escChar_cases (c : Char) : (c = '=' ∧ escChar c = ['=', '3', 'D']) ∨ (c = '/' ∧ escChar c = ['=', '2', 'F']) ∨ (c = '\x00' ∧ escChar c = ['=', '0', '0']) ∨
    (c ≠ '=' ∧ escChar c = [c]) := by
  unfold escChar
  by_cases h1 : c = '='
  · exact Or.inl ⟨h1, by simp [h1]⟩
  · by_cases h2 : c = '/'
    · exact Or.inr (Or.inl ⟨h2, by simp [h2]⟩)
    · by_cases h3 : c = '\x00'
      · exact Or.inr (Or.inr (Or.inl ⟨h3, by simp [h3]⟩))
      · exact Or.inr (Or.inr (Or.inr ⟨h1, by simp [h1, h2, h3]⟩))

theorem escChar_ne_nil (c : Char) : escChar c ≠ [] := by
  rcases escChar_cases c with ⟨_, h⟩ | ⟨_, h⟩ | ⟨_, h⟩ | ⟨_, h⟩ <;> rw [h] <;> exact List.cons_ne_nil _ _

/-- The escaped characters are a prefix code. -/
theorem escChar_prefix {c d : Char} {s t : Str} (h : escChar c ++ s = escChar d ++ t) : c = d ∧ s = t := by
  rcases escChar_cases c with ⟨e1, h1⟩ | ⟨e1, h1⟩ | ⟨e1, h1⟩ | ⟨e1, h1⟩ <;> rcases escChar_cases d with ⟨e2, h2⟩ | ⟨e2, h2⟩ | ⟨e2, h2⟩ | ⟨e2, h2⟩ <;>
    rw [h1, h2] at h <;> simp only [List.cons_append, List.nil_append, List.cons.injEq] at h
  all_goals first
    | exact ⟨e1.trans e2.symm, h.2.2.2⟩
    | exact ⟨h.1, h.2⟩
    | exact absurd h.2.1 (by decide)
    | exact absurd h.1.symm e2
    | exact absurd h.1 e1

theorem escape_inj {a b : Str} (h : escape a = escape b) : a = b := by
  rw [escape_eq, escape_eq] at h
  induction a generalizing b with
  | nil =>
    cases b with
    | nil => rfl
    | cons d t =>
      rw [List.flatMap_nil, List.flatMap_cons] at h
      exact absurd (List.append_eq_nil_iff.1 h.symm).1 (escChar_ne_nil d)
  | cons c s ih =>
    cases b with
    | nil =>
      rw [List.flatMap_nil, List.flatMap_cons] at h
      exact absurd (List.append_eq_nil_iff.1 h).1 (escChar_ne_nil c)
    | cons d t =>
      rw [List.flatMap_cons, List.flatMap_cons] at h
      obtain ⟨e1, e2⟩ := escChar_prefix h
      rw [e1, ih e2]

theorem escape_safe {s : Str} {c : Char} (h : c ∈ escape s) : c ≠ '/' ∧ c ≠ '\x00' := by
  rw [escape_eq] at h
  obtain ⟨d, _, hd⟩ := List.mem_flatMap.1 h
  have e1 : ∀ c ∈ ['=', '3', 'D'], c ≠ '/' ∧ c ≠ '\x00' := by decide
  have e2 : ∀ c ∈ ['=', '2', 'F'], c ≠ '/' ∧ c ≠ '\x00' := by decide
  have e3 : ∀ c ∈ ['=', '0', '0'], c ≠ '/' ∧ c ≠ '\x00' := by decide
  unfold escChar at hd
  split at hd
  · exact e1 c hd
  · split at hd
    · exact e2 c hd
    · split at hd
      · exact e3 c hd
      · rw [List.mem_singleton.1 hd]; exact ⟨by assumption, by assumption⟩

theorem escape_length (s : Str) : s.length ≤ (escape s).length := by
  rw [escape_eq]
  induction s with
  | nil => exact Nat.le_refl _
  | cons c t ih =>
    rw [List.flatMap_cons, List.length_append, List.length_cons]
    have : 0 < (escChar c).length := List.length_pos_iff.2 (escChar_ne_nil c)
    omega

/-! ##### Suffixes -/

/-- The last part of a suffix: what follows the last `.` or `-`. -/
def tailOf (s : Str) : Str := (s.reverse.takeWhile (fun c => c ≠ '.' ∧ c ≠ '-')).reverse

theorem no_proper_suffix {s t x : Str} (hs : Suffix s) (ht : Suffix t) (h : s = x ++ t) : x = [] := by
  -- both have the form: first, separator, then
  have key : ∀ {s : Str}, Suffix s → s ∈ [".db".toList, ".db-wal".toList, ".db-shm".toList, ".db-journal".toList, ".params".toList, ".params.tmp".toList, "-cache".toList] ∨
      ∃ d : Str, (∀ c ∈ d, c.isDigit = true) ∧ s = "-cache.bak".toList ++ d := by
    intro s hs
    cases hs <;> first
      | exact Or.inl (by decide)
      | exact Or.inr ⟨_, by assumption, rfl⟩
  have fin : ∀ s ∈ [".db".toList, ".db-wal".toList, ".db-shm".toList, ".db-journal".toList, ".params".toList, ".params.tmp".toList, "-cache".toList],
      ∀ t ∈ [".db".toList, ".db-wal".toList, ".db-shm".toList, ".db-journal".toList, ".params".toList, ".params.tmp".toList, "-cache".toList],
      t.isSuffixOf s = true → t.length = s.length := by decide
  have last : ∀ s ∈ [".db".toList, ".db-wal".toList, ".db-shm".toList, ".db-journal".toList, ".params".toList, ".params.tmp".toList, "-cache".toList],
      ∃ l, s.getLast? = some l ∧ l.isDigit = false ∧ l ≠ 'k' := by decide
  have lastB : ∀ d : Str, (∀ c ∈ d, c.isDigit = true) → ∃ l, ("-cache.bak".toList ++ d).getLast? = some l ∧ (l.isDigit = true ∨ l = 'k') := by
    intro d hd
    cases hl : d.getLast? with
    | none =>
      have : d = [] := List.getLast?_eq_none_iff.1 hl
      rw [this]
      exact ⟨'k', by decide, Or.inr rfl⟩
    | some l =>
      refine ⟨l, ?_, Or.inl (hd l (List.mem_of_getLast? hl))⟩
      rw [List.getLast?_append, hl]; rfl
  have hlen : ∀ {n m : Nat} {x : Str}, n = x.length + m → m = n → x = [] := by
    intro n m x h1 h2; exact List.length_eq_zero_iff.1 (by omega)
  have getLast_eq : ∀ {t : Str}, t ≠ [] → (x ++ t).getLast? = t.getLast? := by
    intro t ht
    rw [List.getLast?_append]
    cases hg : t.getLast? with
    | none => exact absurd (List.getLast?_eq_none_iff.1 hg) ht
    | some l => rfl
  rcases key hs with h1 | ⟨d, hd, h1⟩ <;> rcases key ht with h2 | ⟨e, he, h2⟩
  · have := fin s h1 t h2 (List.isSuffixOf_iff_suffix.2 ⟨x, h.symm⟩)
    exact hlen (by rw [h, List.length_append]) this
  · obtain ⟨l, a1, a2, a3⟩ := last s h1
    obtain ⟨l', b1, b2⟩ := lastB e he
    rw [h, h2, getLast_eq (by simp), b1] at a1
    cases a1
    rcases b2 with b2 | b2
    · rw [a2] at b2; cases b2
    · exact absurd b2 a3
  · obtain ⟨l, a1, a2, a3⟩ := last t h2
    obtain ⟨l', b1, b2⟩ := lastB d hd
    have htne : t ≠ [] := by rintro rfl; cases a1
    rw [← h1, h, getLast_eq htne, a1] at b1
    cases b1
    rcases b2 with b2 | b2
    · rw [a2] at b2; cases b2
    · exact absurd b2 a3
  · -- both are old caches: the letters before the digits agree
    have hdrop : ∀ (d : Str), (∀ c ∈ d, c.isDigit = true) → (("-cache.bak".toList ++ d).reverse.dropWhile (fun c => c.isDigit)) = "-cache.bak".toList.reverse := by
      intro d hd
      rw [List.reverse_append, List.dropWhile_append_of_pos (fun c hc => hd c (List.mem_reverse.1 hc))]
      decide
    rw [h1, h2] at h
    have g := congrArg (fun l : Str => l.reverse.dropWhile (fun c => c.isDigit)) h
    rw [hdrop d hd, ← List.append_assoc] at g
    rw [List.reverse_append, List.dropWhile_append_of_pos (fun c hc => he c (List.mem_reverse.1 hc)), List.reverse_append] at g
    have g2 : (("-cache.bak".toList).reverse ++ x.reverse).dropWhile (fun c => c.isDigit) = ("-cache.bak".toList).reverse ++ x.reverse := rfl
    rw [g2] at g
    have := congrArg List.length g
    rw [List.length_append, List.length_reverse (as := x)] at this
    exact List.length_eq_zero_iff.1 (by omega)

/-- The names end differently: no escaped URL with a suffix is another one with another suffix. -/
theorem names_unique {a b s t : Str} (hs : Suffix s) (ht : Suffix t) (h : a ++ s = b ++ t) : a = b ∧ s = t := by
  rcases List.append_eq_append_iff.1 h with ⟨x, h1, h2⟩ | ⟨x, h1, h2⟩
  · have := no_proper_suffix hs ht h2
    subst this
    rw [List.append_nil] at h1
    exact ⟨h1.symm, h2⟩
  · have := no_proper_suffix ht hs h2
    subst this
    rw [List.append_nil] at h1
    exact ⟨h1, h2.symm⟩

/-! ##### Paths -/

/-- A component that stays in a normal path. -/
def Normal (c : Str) : Prop := c ≠ [] ∧ c ≠ ['.'] ∧ c ≠ ['.', '.'] ∧ '/' ∉ c

theorem split_ne_nil (s : Str) : split s ≠ [] := by
  cases s with
  | nil => exact List.cons_ne_nil _ _
  | cons c t =>
    unfold split
    split
    · exact List.cons_ne_nil _ _
    · split <;> exact List.cons_ne_nil _ _

theorem split_no_slash {s : Str} (h : '/' ∉ s) : split s = [s] := by
  induction s with
  | nil => rfl
  | cons c t ih =>
    have hc : c ≠ '/' := fun he => h (he ▸ List.mem_cons_self)
    unfold split
    rw [if_neg hc, ih (fun hm => h (List.mem_cons_of_mem _ hm))]

theorem split_append {a : Str} (h : '/' ∉ a) (t : Str) : split (a ++ '/' :: t) = a :: split t := by
  induction a with
  | nil =>
    show split ('/' :: t) = _
    conv => lhs; unfold split
    rw [if_pos rfl]
  | cons c a ih =>
    have hc : c ≠ '/' := fun he => h (he ▸ List.mem_cons_self)
    show split (c :: (a ++ '/' :: t)) = _
    conv => lhs; unfold split
    rw [if_neg hc, ih (fun hm => h (List.mem_cons_of_mem _ hm))]

theorem split_components {s c : Str} (h : c ∈ split s) : '/' ∉ c := by
  induction s generalizing c with
  | nil =>
    rw [List.mem_singleton.1 (show c ∈ [[]] from h)]
    exact List.not_mem_nil
  | cons d t ih =>
    unfold split at h
    split at h
    · rcases List.mem_cons.1 h with rfl | h
      · exact List.not_mem_nil
      · exact ih h
    · rename_i hd
      split at h
      · rw [List.mem_singleton.1 h]
        exact fun hm => hd (List.mem_singleton.1 hm).symm
      · rename_i a r hs
        rcases List.mem_cons.1 h with rfl | h
        · intro hm
          rcases List.mem_cons.1 hm with e | hm
          · exact hd e.symm
          · exact ih (by rw [hs]; exact List.mem_cons_self) hm
        · exact ih (by rw [hs]; exact List.mem_cons_of_mem _ h)

/-- With a slash at the end, an empty component is appended. -/
theorem split_join_slash {l : List Str} (hl : ∀ c ∈ l, '/' ∉ c) (hne : l ≠ []) : split (join l ++ ['/']) = l ++ [[]] := by
  induction l with
  | nil => exact absurd rfl hne
  | cons a t ih =>
    have ha := hl a List.mem_cons_self
    cases t with
    | nil =>
      show split (a ++ '/' :: []) = _
      rw [split_append ha]; rfl
    | cons b r =>
      show split ((a ++ '/' :: join (b :: r)) ++ ['/']) = _
      rw [List.append_assoc, List.cons_append, split_append ha, ih (fun c hc => hl c (List.mem_cons_of_mem _ hc)) (List.cons_ne_nil _ _)]
      rfl

/-- In an absolute path, normal components are kept. -/
theorem normLoop_normal {l acc : List Str} (h : ∀ c ∈ l, Normal c) (t : List Str) : normLoop true acc (l ++ t) = normLoop true (l.reverse ++ acc) t := by
  induction l generalizing acc with
  | nil => rfl
  | cons c l ih =>
    obtain ⟨h1, h2, h3, _⟩ := h c List.mem_cons_self
    show normLoop true acc (c :: (l ++ t)) = _
    conv => lhs; unfold normLoop
    rw [if_neg (by simp [h1, h2]), if_pos (Or.inl h3), ih (fun d hd => h d (List.mem_cons_of_mem _ hd)), List.reverse_cons, List.append_assoc]
    rfl

/-- The components of a normal absolute path. -/
theorem normLoop_spec {l acc : List Str} (hl : ∀ c ∈ l, '/' ∉ c) (ha : ∀ c ∈ acc, Normal c) : ∀ c ∈ normLoop true acc l, Normal c := by
  induction l generalizing acc with
  | nil =>
    intro c hc
    exact ha c (List.mem_reverse.1 hc)
  | cons x t ih =>
    have hx := hl x List.mem_cons_self
    have ht : ∀ c ∈ t, '/' ∉ c := fun c hc => hl c (List.mem_cons_of_mem _ hc)
    unfold normLoop
    split
    · exact ih ht ha
    · rename_i h1
      split
      · rename_i h2
        refine ih ht ?_
        intro c hc
        rcases List.mem_cons.1 hc with rfl | hc
        · refine ⟨fun h => h1 (Or.inl h), fun h => h1 (Or.inr h), ?_, hx⟩
          rcases h2 with h2 | ⟨h2, _⟩ | h2
          · exact h2
          · cases h2
          · cases acc with
            | nil => cases h2
            | cons b r =>
              cases h2
              exact absurd rfl (ha _ List.mem_cons_self).2.2.1
        · exact ha c hc
      · refine ih ht (fun c hc => ha c (List.mem_of_mem_tail hc))

theorem split_slash (t : Str) : split ('/' :: t) = [] :: split t := by
  conv => lhs; unfold split
  rw [if_pos rfl]

theorem normLoop_nil (abs : Bool) (acc t : List Str) : normLoop abs acc ([] :: t) = normLoop abs acc t := by
  conv => lhs; unfold normLoop
  rw [if_pos (Or.inl rfl)]

theorem head_normal {l : List Str} (h : ∀ c ∈ l, Normal c) (hne : l ≠ []) : ∃ x t, join l = x :: t ∧ x ≠ '/' := by
  cases l with
  | nil => exact absurd rfl hne
  | cons a r =>
    obtain ⟨h1, _, _, h4⟩ := h a List.mem_cons_self
    cases a with
    | nil => exact absurd rfl h1
    | cons x t =>
      have hx : x ≠ '/' := fun he => h4 (he ▸ List.mem_cons_self)
      cases r with
      | nil => exact ⟨x, t, rfl, hx⟩
      | cons b r => exact ⟨x, t ++ '/' :: join (b :: r), rfl, hx⟩

theorem slashes_normal {n : Nat} {x : Char} {t : Str} (hn : n = 1 ∨ n = 2) (hx : x ≠ '/') : slashes (List.replicate n '/' ++ x :: t) = n := by
  rcases hn with rfl | rfl
  · show slashes ('/' :: x :: t) = 1
    unfold slashes
    split
    · rename_i h; cases h; exact absurd rfl hx
    · rename_i h; cases h; exact absurd rfl hx
    · rfl
    · rename_i h; exact (h _ rfl).elim
  · show slashes ('/' :: '/' :: x :: t) = 2
    unfold slashes
    split
    · rename_i h; cases h; exact absurd rfl hx
    · rfl
    · rename_i h1 h2 h; cases h; exact (h2 _ rfl).elim
    · rename_i h; exact (h _ rfl).elim

/-- A normal absolute path, with a slash appended, is normalised to itself; except for the root directory. -/
theorem normpath_fix {n : Nat} {l : List Str} (hn : n = 1 ∨ n = 2) (hl : ∀ c ∈ l, Normal c) (hne : l ≠ []) :
    normpath ((List.replicate n '/' ++ join l) ++ ['/']) = List.replicate n '/' ++ join l := by
  obtain ⟨x, t, hj, hx⟩ := head_normal hl hne
  have hsl : slashes ((List.replicate n '/' ++ join l) ++ ['/']) = n := by
    rw [List.append_assoc, hj]
    exact slashes_normal hn hx
  have hspl : normLoop true [] (split ((List.replicate n '/' ++ join l) ++ ['/'])) = l := by
    have h1 : normLoop true [] (split (join l ++ ['/'])) = l := by
      rw [split_join_slash (fun c hc => (hl c hc).2.2.2) hne, normLoop_normal hl, normLoop_nil]
      show (l.reverse ++ []).reverse = l
      rw [List.append_nil, List.reverse_reverse]
    rcases hn with rfl | rfl
    · show normLoop true [] (split ('/' :: (join l ++ ['/']))) = l
      rw [split_slash, normLoop_nil]; exact h1
    · show normLoop true [] (split ('/' :: '/' :: (join l ++ ['/']))) = l
      rw [split_slash, normLoop_nil, split_slash, normLoop_nil]; exact h1
  unfold normpath
  rw [if_neg (by simp), hsl]
  dsimp only
  have hb : decide (n ≠ 0) = true := by rcases hn with rfl | rfl <;> rfl
  rw [hb, hspl, if_neg]
  rcases hn with rfl | rfl <;> simp

theorem slashes_abs {p : Str} (h : p.head? = some '/') : slashes p = 1 ∨ slashes p = 2 := by
  cases p with
  | nil => cases h
  | cons c t =>
    cases h
    unfold slashes
    split
    · exact Or.inl rfl
    · exact Or.inr rfl
    · exact Or.inl rfl
    · rename_i h; exact (h _ rfl).elim

/-- What an absolute path is normalised to. -/
theorem normpath_abs {p : Str} (h : p.head? = some '/') : ∃ n l, (n = 1 ∨ n = 2) ∧ (∀ c ∈ l, Normal c) ∧ normpath p = List.replicate n '/' ++ join l := by
  have hn := slashes_abs h
  have hne : p ≠ [] := by rintro rfl; cases h
  refine ⟨slashes p, normLoop true [] (split p), hn, normLoop_spec (fun c hc => split_components hc) (fun c hc => absurd hc List.not_mem_nil), ?_⟩
  unfold normpath
  rw [if_neg hne]
  dsimp only
  have hb : decide (slashes p ≠ 0) = true := by rcases hn with e | e <;> rw [e] <;> rfl
  rw [hb, if_neg]
  rcases hn with e | e <;> rw [e] <;> simp

theorem abspath_abs {cwd : Str} (hc : cwd.head? = some '/') (p : Str) :
    ∃ n l, (n = 1 ∨ n = 2) ∧ (∀ c ∈ l, Normal c) ∧ abspath cwd p = List.replicate n '/' ++ join l := by
  unfold abspath
  split
  · rename_i h; exact normpath_abs h
  · apply normpath_abs
    cases cwd with
    | nil => cases hc
    | cons c t => split <;> exact hc

/-! #### Theorems -/

theorem takeWhile_alnum {scheme r : Str} (h : ∀ c ∈ scheme, isAlnum c = true) : (scheme ++ ':' :: '/' :: '/' :: r).takeWhile isAlnum = scheme := by
  rw [List.takeWhile_append_of_pos h]
  have : (':' :: '/' :: '/' :: r).takeWhile isAlnum = [] := by
    unfold List.takeWhile
    have : isAlnum ':' = false := by decide
    rw [this]
  rw [this, List.append_nil]

theorem dropWhile_alnum {scheme r : Str} (h : ∀ c ∈ scheme, isAlnum c = true) : (scheme ++ ':' :: '/' :: '/' :: r).dropWhile isAlnum = ':' :: '/' :: '/' :: r := by
  rw [List.dropWhile_append_of_pos h]
  unfold List.dropWhile
  have : isAlnum ':' = false := by decide
  rw [this]

/-- What the regular expression matches, for strings without line breaks. -/
theorem matchUrl_spec {value scheme r : Str} (hn : '\n' ∉ value) :
    matchUrl value = some (scheme, r) ↔ value = scheme ++ ':' :: '/' :: '/' :: r ∧ scheme ≠ [] ∧ (∀ c ∈ scheme, isAlnum c = true) ∧ r ≠ [] := by
  have hlast : ∀ {r : Str}, '\n' ∉ r → r.getLast? ≠ some '\n' := by
    intro r hr hl; exact hr (List.mem_of_getLast? hl)
  constructor
  · intro h
    unfold matchUrl at h
    dsimp only at h
    split at h
    · cases h
    · rename_i h1
      split at h
      · rename_i r' hd
        have hv : value = value.takeWhile isAlnum ++ ':' :: '/' :: '/' :: r' := by rw [← hd, List.takeWhile_append_dropWhile]
        have hr : '\n' ∉ r' := by
          intro hm; apply hn; rw [hv]
          exact List.mem_append_right _ (List.mem_cons_of_mem _ (List.mem_cons_of_mem _ (List.mem_cons_of_mem _ hm)))
        rw [if_neg (hlast hr)] at h
        split at h
        · cases h
        · rename_i h2
          cases h
          refine ⟨hv, h1, ?_, fun he => h2 (Or.inl he)⟩
          intro c hc
          have := List.all_takeWhile (p := isAlnum) (l := value)
          exact List.all_eq_true.1 this c hc
      · cases h
  · rintro ⟨hv, h1, h2, h3⟩
    have hr : '\n' ∉ r := by
      intro hm; apply hn; rw [hv]
      exact List.mem_append_right _ (List.mem_cons_of_mem _ (List.mem_cons_of_mem _ (List.mem_cons_of_mem _ hm)))
    unfold matchUrl
    rw [hv, takeWhile_alnum h2, dropWhile_alnum h2]
    dsimp only
    rw [if_neg h1]
    show (if (if r.getLast? = some '\n' then r.dropLast else r) = [] ∨ '\n' ∈ (if r.getLast? = some '\n' then r.dropLast else r) then none else some (scheme, r)) = _
    rw [if_neg (hlast hr), if_neg]
    rintro (h | h)
    · exact h3 h
    · exact hr h

theorem schemes_alnum : ∀ s ∈ schemes, s ≠ [] ∧ ∀ c ∈ s, isAlnum c = true := by decide

theorem split_snoc_slash (r : Str) : (split (r ++ ['/'])).length = (split r).length + 1 ∧ [] ∈ split (r ++ ['/']) := by
  induction r with
  | nil => decide
  | cons c t ih =>
    rw [List.cons_append]
    unfold split
    split
    · exact ⟨by rw [List.length_cons, List.length_cons, ih.1], List.mem_cons_self⟩
    · have hne := split_ne_nil t
      have hne' := split_ne_nil (t ++ ['/'])
      cases h1 : split t with
      | nil => exact absurd h1 hne
      | cons a r1 =>
        cases h2 : split (t ++ ['/']) with
        | nil => exact absurd h2 hne'
        | cons b r2 =>
          rw [h1, h2] at ih
          refine ⟨ih.1, ?_⟩
          -- the empty component is not the first one, as there are at least two
          have hl : 0 < r1.length + 1 := Nat.succ_pos _
          have : ∀ (t : Str) (b : Str) (r2 : List Str), split (t ++ ['/']) = b :: r2 → [] ∈ r2 := by
            intro t
            induction t with
            | nil => intro b r2 h; cases h; exact List.mem_singleton.2 rfl
            | cons d u ihu =>
              intro b r2 h
              rw [List.cons_append] at h
              unfold split at h
              split at h
              · cases h
                cases hu : split (u ++ ['/']) with
                | nil => exact absurd hu (split_ne_nil _)
                | cons x y => exact List.mem_cons_of_mem _ (ihu x y hu)
              · cases hu : split (u ++ ['/']) with
                | nil => exact absurd hu (split_ne_nil _)
                | cons x y =>
                  rw [hu] at h
                  cases h
                  exact ihu x _ hu
          exact List.mem_cons_of_mem _ (this t b r2 h2)

/-- The URL refers to the root directory. -/
def IsRoot (cwd value : Str) : Prop := ∃ r, value = "local://".toList ++ r ∧ (abspath cwd r = ['/'] ∨ abspath cwd r = ['/', '/'])

theorem local_prefix (x : Str) : "local://".toList ++ x = "local".toList ++ ':' :: '/' :: '/' :: x := rfl

/-- The canonical form of a canonical URL is the URL itself, in every working directory; except for the root directory. -/
theorem C51_idempotent_partial {cwd cwd' value u : Str} (hc : cwd.head? = some '/') (hcn : '\n' ∉ cwd) (hn : '\n' ∉ value) (h : canonicalize cwd value = some u)
    (hroot : ¬ IsRoot cwd value) : canonicalize cwd' u = some u := by
  unfold canonicalize at h
  cases hm : matchUrl value with
  | none => rw [hm] at h; cases h
  | some x =>
    obtain ⟨scheme, r⟩ := x
    rw [hm] at h
    dsimp only at h
    obtain ⟨hv, h1, h2, h3⟩ := (matchUrl_spec hn).1 hm
    split at h
    · cases h
    · rename_i hs
      have hs' : schemes.contains scheme = true := Decidable.not_not.1 hs
      split at h
      · -- a local directory
        rename_i hl
        replace h := (Option.some.inj h).symm
        obtain ⟨n, l, g1, g2, g3⟩ := abspath_abs hc r
        have hne : l ≠ [] := by
          rintro rfl
          apply hroot
          refine ⟨r, by rw [hv, hl]; rfl, ?_⟩
          rw [g3]
          rcases g1 with rfl | rfl
          · exact Or.inl rfl
          · exact Or.inr rfl
        -- no line break gets in
        have hnl : '\n' ∉ abspath cwd r := by
          have hr : '\n' ∉ r := by
            intro hmm; apply hn; rw [hv]
            exact List.mem_append_right _ (List.mem_cons_of_mem _ (List.mem_cons_of_mem _ (List.mem_cons_of_mem _ hmm)))
          have hjoin : ∀ {l : List Str} {c : Char}, c ∈ join l → c = '/' ∨ ∃ a ∈ l, c ∈ a := by
            intro l
            induction l with
            | nil => intro c hcc; cases hcc
            | cons a t ih =>
              intro c hcc
              cases t with
              | nil => exact Or.inr ⟨a, List.mem_cons_self, hcc⟩
              | cons b t =>
                rcases List.mem_append.1 (show c ∈ a ++ '/' :: join (b :: t) from hcc) with h | h
                · exact Or.inr ⟨a, List.mem_cons_self, h⟩
                · rcases List.mem_cons.1 h with h | h
                  · exact Or.inl h
                  · rcases ih h with h | ⟨x, hx, h⟩
                    · exact Or.inl h
                    · exact Or.inr ⟨x, List.mem_cons_of_mem _ hx, h⟩
          have hloop : ∀ {b : Bool} {l acc : List Str} {x : Str}, x ∈ normLoop b acc l → x ∈ acc ∨ x ∈ l := by
            intro b l
            induction l with
            | nil => intro acc x hx; exact Or.inl (List.mem_reverse.1 hx)
            | cons y t ih =>
              intro acc x hx
              unfold normLoop at hx
              split at hx
              · rcases ih hx with h | h
                · exact Or.inl h
                · exact Or.inr (List.mem_cons_of_mem _ h)
              · split at hx
                · rcases ih hx with h | h
                  · rcases List.mem_cons.1 h with rfl | h
                    · exact Or.inr List.mem_cons_self
                    · exact Or.inl h
                  · exact Or.inr (List.mem_cons_of_mem _ h)
                · rcases ih hx with h | h
                  · exact Or.inl (List.mem_of_mem_tail h)
                  · exact Or.inr (List.mem_cons_of_mem _ h)
          have hsplit : ∀ {s : Str} {x : Str} {c : Char}, x ∈ split s → c ∈ x → c ∈ s := by
            intro s
            induction s with
            | nil => intro x c hx hcx; rw [List.mem_singleton.1 (show x ∈ [[]] from hx)] at hcx; cases hcx
            | cons d t ih =>
              intro x c hx hcx
              unfold split at hx
              split at hx
              · rcases List.mem_cons.1 hx with rfl | hx
                · cases hcx
                · exact List.mem_cons_of_mem _ (ih hx hcx)
              · split at hx
                · rw [List.mem_singleton.1 hx] at hcx
                  rw [List.mem_singleton.1 hcx]; exact List.mem_cons_self
                · rename_i a q hq
                  rcases List.mem_cons.1 hx with rfl | hx
                  · rcases List.mem_cons.1 hcx with rfl | hcx
                    · exact List.mem_cons_self
                    · exact List.mem_cons_of_mem _ (ih (by rw [hq]; exact List.mem_cons_self) hcx)
                  · exact List.mem_cons_of_mem _ (ih (by rw [hq]; exact List.mem_cons_of_mem _ hx) hcx)
          have hnorm : ∀ {p : Str}, '\n' ∉ p → '\n' ∉ normpath p := by
            intro p hp hmm
            unfold normpath at hmm
            split at hmm
            · exact absurd hmm (by decide)
            · dsimp only at hmm
              split at hmm
              · exact absurd hmm (by decide)
              · rcases List.mem_append.1 hmm with h | h
                · exact absurd (List.eq_of_mem_replicate h) (by decide)
                · rcases hjoin h with h | ⟨a, ha, hca⟩
                  · exact absurd h (by decide)
                  · rcases hloop ha with h | h
                    · cases h
                    · exact hp (hsplit h hca)
          unfold abspath
          split
          · exact hnorm hr
          · apply hnorm
            split
            · intro hmm
              rcases List.mem_append.1 hmm with h | h
              · exact hcn h
              · exact hr h
            · intro hmm
              rcases List.mem_append.1 hmm with h | h
              · exact hcn h
              · rcases List.mem_cons.1 h with h | h
                · exact absurd h (by decide)
                · exact hr h
        have hu : u = "local".toList ++ ':' :: '/' :: '/' :: (abspath cwd r ++ ['/']) := by
          rw [h, List.append_assoc, local_prefix]
        have hun : '\n' ∉ u := by
          rw [hu]
          intro hmm
          rcases List.mem_append.1 hmm with h | h
          · exact absurd h (by decide)
          · simp only [List.mem_cons, List.mem_append, List.not_mem_nil, or_false] at h
            rcases h with h | h | h | h | h
            · exact absurd h (by decide)
            · exact absurd h (by decide)
            · exact absurd h (by decide)
            · exact hnl h
            · exact absurd h (by decide)
        have hmu : matchUrl u = some ("local".toList, abspath cwd r ++ ['/']) :=
          (matchUrl_spec hun).2 ⟨hu, by decide, by decide, by simp⟩
        unfold canonicalize
        rw [hmu]
        dsimp only
        rw [if_neg (by decide), if_pos rfl]
        have hfix : abspath cwd' (abspath cwd r ++ ['/']) = abspath cwd r := by
          have hhead : (abspath cwd r ++ ['/']).head? = some '/' := by
            rw [g3]; rcases g1 with rfl | rfl <;> rfl
          unfold abspath at hhead ⊢
          rw [if_pos hhead]
          show normpath (abspath cwd r ++ ['/']) = abspath cwd r
          rw [g3]
          exact normpath_fix g1 g2 hne
        rw [hfix, h]
      · rename_i hl
        -- a slash is appended at most once
        have hslash : u = value ++ ['/'] ∧ (((scheme = "s3".toList ∨ scheme = "gs".toList) ∧ (split r).length = 1) ∨
            (scheme ≠ "s3".toList ∧ scheme ≠ "gs".toList ∧ (split r).length = 2)) ∨ u = value := by
          split at h
          · rename_i h4; exact Or.inl ⟨(Option.some.inj h).symm, Or.inl h4⟩
          · split at h
            · rename_i h5
              refine Or.inl ⟨(Option.some.inj h).symm, Or.inr ⟨?_, ?_, h5.2.1⟩⟩
              · rintro rfl; exact absurd h5.1 (by decide)
              · rintro rfl; exact absurd h5.1 (by decide)
            · exact Or.inr (Option.some.inj h).symm
        rcases hslash with ⟨hu, hcase⟩ | hu
        · have hun : '\n' ∉ u := by
            rw [hu]; intro hmm
            rcases List.mem_append.1 hmm with h | h
            · exact hn h
            · exact absurd h (by decide)
          have hmu : matchUrl u = some (scheme, r ++ ['/']) := by
            refine (matchUrl_spec hun).2 ⟨by rw [hu, hv]; simp, h1, h2, by simp⟩
          obtain ⟨s1, s2⟩ := split_snoc_slash r
          unfold canonicalize
          rw [hmu]
          dsimp only
          rw [if_neg hs, if_neg hl]
          rw [if_neg, if_neg]
          · rintro ⟨_, _, h6⟩
            exact absurd (List.all_eq_true.1 h6 [] s2) (by decide)
          · rintro ⟨h5, h6⟩
            rcases hcase with ⟨_, h7⟩ | ⟨h7, h8, _⟩
            · omega
            · rcases h5 with h5 | h5
              · exact h7 h5
              · exact h8 h5
        · subst hu
          unfold canonicalize
          rw [hm]
          dsimp only
          rw [if_neg hs, if_neg hl]
          split at h
          · have := congrArg List.length (Option.some.inj h)
            simp at this
          · rename_i h4
            split at h
            · have := congrArg List.length (Option.some.inj h)
              simp at this
            · rename_i h5
              rw [if_neg h4, if_neg h5]

/-- Different URLs never share a file or directory in the cache directory, whatever kinds of files they are. -/
theorem C51_files_distinct {u v s t : Str} (hs : Suffix s) (ht : Suffix t) (h : escape u ++ s = escape v ++ t) : u = v ∧ s = t := by
  obtain ⟨h1, h2⟩ := names_unique hs ht h
  exact ⟨escape_inj h1, h2⟩

/-- All files are directly in the cache directory. -/
theorem C51_inside_cachedir {u s : Str} (hs : Suffix s) : '/' ∉ escape u ++ s ∧ '\x00' ∉ escape u ++ s ∧ escape u ++ s ≠ ['.'] ∧ escape u ++ s ≠ ['.', '.'] := by
  have hsuf : '/' ∉ s ∧ '\x00' ∉ s ∧ 3 ≤ s.length := by
    cases hs with
    | bak d hd =>
      refine ⟨?_, ?_, by simp⟩ <;>
      · intro hm
        rcases List.mem_append.1 hm with h | h
        · exact absurd h (by decide)
        · exact absurd (hd _ h) (by decide)
    | _ => decide
  refine ⟨?_, ?_, ?_, ?_⟩
  · intro hm
    rcases List.mem_append.1 hm with h | h
    · exact (escape_safe h).1 rfl
    · exact hsuf.1 h
  · intro hm
    rcases List.mem_append.1 hm with h | h
    · exact (escape_safe h).2 rfl
    · exact hsuf.2.1 h
  · intro he
    have := congrArg List.length he
    rw [List.length_append, List.length_cons, List.length_nil] at this; omega
  · intro he
    have := congrArg List.length he
    rw [List.length_append] at this
    simp at this; omega

/-- The root directory has no canonical URL: two forms alternate. -/
theorem C51_root : canonicalize ['/'] "local:///".toList = some "local:////".toList ∧
    canonicalize ['/'] "local:////".toList = some "local://///".toList ∧ canonicalize ['/'] "local://///".toList = some "local:////".toList := by decide +kernel

/-- A bucket of B2 with and without a slash at the end is the same storage, but has two canonical URLs, so two caches. -/
theorem C51_b2_two_names : canonicalize ['/'] "b2://bucket".toList = some "b2://bucket".toList ∧ canonicalize ['/'] "b2://bucket/".toList = some "b2://bucket/".toList ∧
    canonicalize ['/'] "gs://bucket".toList = canonicalize ['/'] "gs://bucket/".toList := by decide +kernel

/-! #### Concrete cases -/

example : canonicalize "/home/me".toList "local://x/../y/./z//".toList = some "local:///home/me/y/z/".toList := by decide +kernel
example : canonicalize "/".toList "s3://bucket".toList = some "s3://bucket/".toList ∧ canonicalize "/".toList "s3://bucket/pre".toList = some "s3://bucket/pre".toList := by decide +kernel
example : canonicalize "/".toList "swiftks://host/reg".toList = some "swiftks://host/reg/".toList ∧ canonicalize "/".toList "ftp://host".toList = none := by decide +kernel

example : canonicalize ['/'] "local:///a/b/".toList = some "local:///a/b/".toList :=
  C51_idempotent_partial (cwd := "/a".toList) (value := "local://b".toList) (by decide) (by decide) (by decide) (by decide +kernel) (by
    rintro ⟨r, h1, h2⟩
    have hr : r = ['b'] := by
      rw [local_prefix] at h1
      simpa using h1.symm
    subst hr
    revert h2; decide +kernel)

end Verif.Tools.Url
