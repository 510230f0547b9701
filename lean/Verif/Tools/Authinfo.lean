/-
C49: settings from the configuration file (authinfo.py:45-177).

The syntax of the file is not modelled (Python's `configparser` reads it): the model begins with the sections in the order of the file, each a list of
options and raw values, with the options of the section `DEFAULT` apart.  Numbers are parsed by a parameter (`pydantic` does it).
-/
import Verif.Local.Props
import Verif.Util.AList

namespace Verif.Tools.Authinfo
open Verif.Local (Str)

/-! #### Model -/

/-- What is left open: `optionxform` of `configparser` (lower case), and how `pydantic` reads a number. -/
structure Env where
  xform : Str → Str
  parseInt : Str → Option Int
  /-- `DEFAULT_CACHEDIR` (authinfo.py:35) -/
  defaultCachedir : Str

/-- The file as `configparser` presents it.  Option names are distinct in each section (the parser is strict). -/
structure Conf where
  defaults : List (Str × Str)
  sections : List (List (Str × Str))

/-- `none`: there is no such file.  The two flags are `S_IRGRP` and `S_IROTH`. -/
structure File where
  groupReadable : Bool
  otherReadable : Bool
  conf : Conf

inductive Err where
  /-- `QuietError` with an exit code -/
  | quiet (code : Nat)
  /-- an exception of `configparser` that nothing catches -/
  | crash
  deriving DecidableEq, Repr

inductive Tok where
  | lit (c : Char)
  | ref (name : Str)
  deriving DecidableEq, Repr

inductive Mode where
  | text
  | percent
  | name (acc : Str)
  | close (acc : Str)

/-- The parts of a value with `%%` and `%(name)s`; `none` for any other `%`.  (`BasicInterpolation._interpolate_some`, which interleaves this with looking
up the names; only the kind of the exception can differ.) -/
def toks : Mode → Str → Option (List Tok)
  | .text, [] => some []
  | .text, c :: t => if c = '%' then toks .percent t else (toks .text t).map (Tok.lit c :: ·)
  | .percent, [] => none
  | .percent, c :: t => if c = '%' then (toks .text t).map (Tok.lit '%' :: ·) else if c = '(' then toks (.name []) t else none
  | .name _, [] => none
  | .name acc, c :: t => if c = ')' then (if acc = [] then none else toks (.close acc) t) else toks (.name (acc ++ [c])) t
  | .close _, [] => none
  | .close acc, c :: t => if c = 's' then (toks .text t).map (Tok.ref acc :: ·) else none

/-- Concatenate the parts. -/
def cat (f : Tok → Option Str) : List Tok → Option Str
  | [] => some []
  | t :: ts => (f t).bind (fun a => (cat f ts).map (a ++ ·))

/-- The value after interpolation; at most ten levels (`MAX_INTERPOLATION_DEPTH`). -/
def expand (lookup : Str → Option Str) : Nat → Str → Option Str
  | 0, _ => none
  | d + 1, s =>
    (toks .text s).bind (cat (fun t =>
      match t with
      | .lit c => some [c]
      | .ref n =>
        match lookup n with
        | none => none
        | some v => if '%' ∈ v then expand lookup d v else some v))

/-- The raw value of an option of a section; the section `DEFAULT` supplies what is missing. -/
def raw (c : Conf) (s : List (Str × Str)) (k : Str) : Option Str := (AL.get s k).or (AL.get c.defaults k)

/-- `ini_config[section][key]` -/
def interp (env : Env) (c : Conf) (s : List (Str × Str)) (v : Str) : Option Str := expand (fun n => raw c s (env.xform n)) 10 v

/-- The options of a section, with those of `DEFAULT`. -/
def items (c : Conf) (s : List (Str × Str)) : List (Str × Str) := s ++ c.defaults.filter (fun e => AL.get s e.1 = none)

def kUrl : Str := "storage-url".toList

/-- `for key, val in ini_config[section].items(): ...` (authinfo.py:137-139) -/
def mergeItems (env : Env) (c : Conf) (s : List (Str × Str)) : List (Str × Str) → List (Str × Str) → Except Err (List (Str × Str))
  | [], m => .ok m
  | (k, r) :: t, m =>
    match interp env c s r with
    | none => .error .crash
    | some v => mergeItems env c s t (if k ≠ kUrl then AL.set m k v else m)

/-- `for section in ini_config.sections(): ...` (authinfo.py:132-139) -/
def mergeSections (env : Env) (c : Conf) (url : Str) : List (List (Str × Str)) → List (Str × Str) → Except Err (List (Str × Str))
  | [], m => .ok m
  | s :: t, m =>
    match raw c s kUrl with
    | none => mergeSections env c url t m
    | some r =>
      match interp env c s r with
      | none => .error .crash
      | some pattern =>
        if pattern = [] ∨ pattern.isPrefixOf url = false then mergeSections env c url t m
        else
          match mergeItems env c s (items c s) m with
          | .error e => .error e
          | .ok m' => mergeSections env c url t m'

inductive Alg where
  | lzma | bzip2 | zlib | none
  deriving DecidableEq, Repr

def isWord (c : Char) : Bool := ('a' ≤ c && c ≤ 'z') || ('0' ≤ c && c ≤ '9')

def algOf (s : Str) : Option Alg :=
  if s = "lzma".toList then some .lzma else if s = "bzip2".toList then some .bzip2 else if s = "zlib".toList then some .zlib
  else if s = "none".toList then some .none else Option.none

/-- `CompressSpec.parse` (authinfo.py:66-81).  `$` also matches before a line break at the end. -/
def parseCompress (value : Str) : Except Err (Alg × Nat) :=
  let v := if value.getLast? = some '\n' then value.dropLast else value
  let word := v.takeWhile isWord
  let level : Option Nat :=
    match v.dropWhile isWord with
    | [] => some 6
    | ['-', d] => if '0' ≤ d ∧ d ≤ '9' then some (d.toNat - 48) else none
    | _ => none
  if word = [] then .error (.quiet 2)
  else
    match level with
    | none => .error (.quiet 2)
    | some n =>
      match algOf word with
      | none => .error (.quiet 2)
      | some a => .ok (a, n)

/-- `Authinfo` (authinfo.py:84-108) -/
structure Authinfo where
  backendLogin : Option Str
  backendPassword : Option Str
  fsPassphrase : Option Str
  backendOptions : Str
  cachedir : Str
  maxConnections : Int
  maxThreads : Option Int
  compress : Alg × Nat
  deriving DecidableEq

def nLogin : List Str := ["backend-login".toList, "backend_login".toList]
def nPassword : List Str := ["backend-password".toList, "backend_password".toList]
def nPassphrase : List Str := ["fs-passphrase".toList, "fs_passphrase".toList]
def nOptions : List Str := ["backend-options".toList, "backend_options".toList]
def nCachedir : List Str := ["cachedir".toList]
def nConnections : List Str := ["max-connections".toList, "max_connections".toList]
def nThreads : List Str := ["max-threads".toList, "max_threads".toList]
def nCompress : List Str := ["compress".toList]

/-- The names `pydantic` accepts: aliases, and with `populate_by_name` the field names. -/
def known : List Str := nLogin ++ nPassword ++ nPassphrase ++ nOptions ++ nCachedir ++ nConnections ++ nThreads ++ nCompress

/-- The value for a field; both spellings at once are an error. -/
def field (m : List (Str × Str)) (names : List Str) : Except Err (Option Str) :=
  match names.filterMap (AL.get m) with
  | [] => .ok none
  | [v] => .ok (some v)
  | _ => .error (.quiet 2)

def toInt (env : Env) (v : Str) : Except Err Int :=
  match env.parseInt v with
  | none => .error (.quiet 2)
  | some n => .ok n

/-- A given value is converted; a missing one stays missing. -/
def optional {α : Type} (f : Str → Except Err α) : Option Str → Except Err (Option α)
  | none => .ok none
  | some v => (f v).map some

/-- `_authinfo_adapter.validate_python(merged)` (authinfo.py:142-157); all errors have the exit code 2. -/
def validate (env : Env) (m : List (Str × Str)) : Except Err Authinfo :=
  if m.any (fun e => ¬ known.contains e.1) then .error (.quiet 2)
  else do
    let login ← field m nLogin
    let password ← field m nPassword
    let passphrase ← field m nPassphrase
    let options ← field m nOptions
    let cachedir ← field m nCachedir
    let connections ← field m nConnections
    let connections ← optional (toInt env) connections
    let threads ← field m nThreads
    let threads ← optional (toInt env) threads
    let compress ← field m nCompress
    let compress ← optional parseCompress compress
    .ok { backendLogin := login, backendPassword := password, fsPassphrase := passphrase, backendOptions := options.getD [], cachedir := cachedir.getD env.defaultCachedir, maxConnections := connections.getD 32, maxThreads := threads, compress := compress.getD (.lzma, 6) }

/-- `Authinfo.from_file` (authinfo.py:110-157) -/
def fromFile (env : Env) (file : Option File) (url : Str) : Except Err Authinfo :=
  match file with
  | none => validate env []
  | some f =>
    if f.groupReadable ∨ f.otherReadable then .error (.quiet 12)
    else
      match mergeSections env f.conf url f.conf.sections [] with
      | .error e => .error e
      | .ok m => validate env m

/-- `pick` (authinfo.py:170-177) -/
def pick {α : Type} (cli : Option α) (cfg : α) : α :=
  match cli with
  | none => cfg
  | some v => v

/-! #### Specification -/

/-- The section is for this storage. -/
def Applies (env : Env) (c : Conf) (url : Str) (s : List (Str × Str)) : Prop :=
  ∃ r p, raw c s kUrl = some r ∧ interp env c s r = some p ∧ p ≠ [] ∧ p <+: url

/-- The section sets the option to this value. -/
def Sets (env : Env) (c : Conf) (s : List (Str × Str)) (k v : Str) : Prop := ∃ r, raw c s k = some r ∧ interp env c s r = some v

/-- `o` is the value in the last section for this storage that sets the option (under one of its names), or `none` if no such section sets it. -/
def Effective (env : Env) (c : Conf) (url : Str) (names : List Str) : Option Str → Prop
  | some v => ∃ k ∈ names, ∃ pre s post, c.sections = pre ++ s :: post ∧ Applies env c url s ∧ Sets env c s k v ∧
      ∀ t ∈ post, Applies env c url t → ∀ k ∈ names, raw c t k = none
  | none => ∀ s ∈ c.sections, Applies env c url s → ∀ k ∈ names, raw c s k = none

structure Conf.Ok (c : Conf) : Prop where
  defaults : AL.NK c.defaults
  sections : ∀ s ∈ c.sections, AL.NK s

/-! #### Lemmas -/

theorem get_append {l1 l2 : List (Str × Str)} (k : Str) : AL.get (l1 ++ l2) k = (AL.get l1 k).or (AL.get l2 k) := by
  induction l1 with
  | nil => rfl
  | cons e t ih =>
    obtain ⟨k', v⟩ := e
    show (if k' = k then some v else AL.get (t ++ l2) k) = (if k' = k then some v else AL.get t k).or _
    split
    · rfl
    · exact ih

theorem get_filter {l : List (Str × Str)} {p : Str → Bool} (k : Str) : AL.get (l.filter (fun e => p e.1)) k = if p k then AL.get l k else none := by
  induction l with
  | nil => simp [AL.get]
  | cons e t ih =>
    obtain ⟨k', v⟩ := e
    rw [List.filter_cons]
    dsimp only
    by_cases hp : p k' = true
    · rw [if_pos hp]
      show (if k' = k then some v else AL.get (t.filter _) k) = if p k then (if k' = k then some v else AL.get t k) else none
      by_cases hk : k' = k
      · subst hk; rw [if_pos rfl, if_pos hp, if_pos rfl]
      · rw [if_neg hk, if_neg hk, ih]
    · rw [if_neg hp, ih]
      show _ = if p k then (if k' = k then some v else AL.get t k) else none
      by_cases hk : k' = k
      · subst hk; rw [if_neg hp, if_neg hp]
      · rw [if_neg hk]

theorem get_items (c : Conf) (s : List (Str × Str)) (k : Str) : AL.get (items c s) k = raw c s k := by
  unfold items raw
  rw [get_append]
  have := get_filter (l := c.defaults) (p := fun k => decide (AL.get s k = none)) k
  rw [this]
  cases h : AL.get s k with
  | none => simp
  | some v => simp

theorem NK_items {c : Conf} {s : List (Str × Str)} (hd : AL.NK c.defaults) (hs : AL.NK s) : AL.NK (items c s) := by
  unfold items AL.NK
  rw [List.map_append]
  refine List.nodup_append.2 ⟨hs, List.Nodup.sublist (List.Sublist.map _ List.filter_sublist) hd, ?_⟩
  intro a ha b hb hab
  subst hab
  obtain ⟨e, he, rfl⟩ := List.mem_map.1 hb
  have := (List.mem_filter.1 he).2
  exact (AL.get_none_iff s e.1).1 (of_decide_eq_true this) ha

theorem mergeItems_ok {env : Env} {c : Conf} {s l m m' : List (Str × Str)} (hn : AL.NK l) (h : mergeItems env c s l m = .ok m') :
    (∀ k r, k ≠ kUrl → AL.get l k = some r → ∃ v, interp env c s r = some v ∧ AL.get m' k = some v) ∧
    (∀ k, AL.get l k = none → AL.get m' k = AL.get m k) ∧ AL.get m' kUrl = AL.get m kUrl ∧ (∀ e ∈ l, interp env c s e.2 ≠ none) := by
  induction l generalizing m with
  | nil =>
    replace h := (Except.ok.inj h).symm
    subst h
    exact ⟨fun k r _ hr => (Option.some_ne_none r hr.symm).elim, fun _ _ => rfl, rfl, fun e he => absurd he List.not_mem_nil⟩
  | cons e t ih =>
    obtain ⟨k0, r0⟩ := e
    obtain ⟨hn1, hn2⟩ := AL.NK.cons_inv hn
    unfold mergeItems at h
    cases hi : interp env c s r0 with
    | none => rw [hi] at h; cases h
    | some v0 =>
      rw [hi] at h
      dsimp only at h
      obtain ⟨i1, i2, i3, i4⟩ := ih hn2 h
      have hget : ∀ k, AL.get ((k0, r0) :: t) k = if k0 = k then some r0 else AL.get t k := fun k => rfl
      refine ⟨?_, ?_, ?_, ?_⟩
      · intro k r hk hr
        rw [hget] at hr
        by_cases he : k0 = k
        · subst he
          rw [if_pos rfl] at hr
          cases hr
          refine ⟨v0, hi, ?_⟩
          rw [i2 k0 hn1, if_pos hk, AL.get_set_self]
        · rw [if_neg he] at hr
          exact i1 k r hk hr
      · intro k hr
        rw [hget] at hr
        by_cases he : k0 = k
        · rw [if_pos he] at hr; cases hr
        · rw [if_neg he] at hr
          rw [i2 k hr]
          split
          · exact AL.get_set_ne _ _ (fun h => he h.symm)
          · rfl
      · rw [i3]
        split
        · rename_i hk; exact AL.get_set_ne _ _ (fun h => hk h.symm)
        · rfl
      · intro e he
        rcases List.mem_cons.1 he with rfl | he
        · dsimp only; rw [hi]; exact Option.some_ne_none v0
        · exact i4 e he

theorem applies_iff {env : Env} {c : Conf} {url : Str} {s : List (Str × Str)} {r p : Str} (h1 : raw c s kUrl = some r) (h2 : interp env c s r = some p) :
    Applies env c url s ↔ ¬ (p = [] ∨ p.isPrefixOf url = false) := by
  constructor
  · rintro ⟨r', p', a1, a2, a3, a4⟩
    rw [h1] at a1; cases a1
    rw [h2] at a2; cases a2
    rintro (h | h)
    · exact a3 h
    · rw [List.isPrefixOf_iff_prefix.2 a4] at h; cases h
  · intro h
    refine ⟨r, p, h1, h2, fun he => h (Or.inl he), ?_⟩
    refine List.isPrefixOf_iff_prefix.1 ?_
    cases hb : p.isPrefixOf url with
    | true => rfl
    | false => exact absurd (Or.inr hb) h

/-- What the merged settings are: the last section that sets an option wins. -/
theorem mergeSections_ok {env : Env} {c : Conf} {url : Str} {l : List (List (Str × Str))} {m m' : List (Str × Str)} (hd : AL.NK c.defaults)
    (hl : ∀ s ∈ l, AL.NK s) (h : mergeSections env c url l m = .ok m') :
    (∀ k, k ≠ kUrl →
      (∃ pre s post v, l = pre ++ s :: post ∧ Applies env c url s ∧ Sets env c s k v ∧ (∀ t ∈ post, Applies env c url t → raw c t k = none) ∧ AL.get m' k = some v) ∨
      ((∀ s ∈ l, Applies env c url s → raw c s k = none) ∧ AL.get m' k = AL.get m k)) ∧ AL.get m' kUrl = AL.get m kUrl := by
  induction l generalizing m with
  | nil =>
    replace h := (Except.ok.inj h).symm
    subst h
    exact ⟨fun k _ => Or.inr ⟨fun s hs => absurd hs List.not_mem_nil, rfl⟩, rfl⟩
  | cons s t ih =>
    have hs := hl s List.mem_cons_self
    have ht : ∀ s ∈ t, AL.NK s := fun s h => hl s (List.mem_cons_of_mem _ h)
    unfold mergeSections at h
    have skip : mergeSections env c url t m = .ok m' → ¬ Applies env c url s →
        (∀ k, k ≠ kUrl →
          (∃ pre s' post v, s :: t = pre ++ s' :: post ∧ Applies env c url s' ∧ Sets env c s' k v ∧ (∀ t ∈ post, Applies env c url t → raw c t k = none) ∧ AL.get m' k = some v) ∨
          ((∀ s' ∈ s :: t, Applies env c url s' → raw c s' k = none) ∧ AL.get m' k = AL.get m k)) ∧ AL.get m' kUrl = AL.get m kUrl := by
      intro h hna
      obtain ⟨i1, i2⟩ := ih ht h
      refine ⟨fun k hk => ?_, i2⟩
      rcases i1 k hk with ⟨pre, s', post, v, e, rest⟩ | ⟨e, rest⟩
      · exact Or.inl ⟨s :: pre, s', post, v, by rw [e]; rfl, rest⟩
      · refine Or.inr ⟨fun s' hs' ha => ?_, rest⟩
        rcases List.mem_cons.1 hs' with rfl | hs'
        · exact absurd ha hna
        · exact e s' hs' ha
    cases hr : raw c s kUrl with
    | none =>
      rw [hr] at h
      exact skip h (by rintro ⟨r, p, a1, _⟩; rw [hr] at a1; cases a1)
    | some r =>
      rw [hr] at h
      dsimp only at h
      cases hi : interp env c s r with
      | none => rw [hi] at h; cases h
      | some p =>
        rw [hi] at h
        dsimp only at h
        have hap := applies_iff (url := url) hr hi
        by_cases hc : p = [] ∨ p.isPrefixOf url = false
        · rw [if_pos hc] at h
          exact skip h (fun ha => hap.1 ha hc)
        · rw [if_neg hc] at h
          cases hm : mergeItems env c s (items c s) m with
          | error e => rw [hm] at h; cases h
          | ok m1 =>
            rw [hm] at h
            dsimp only at h
            obtain ⟨j1, j2, j3, _⟩ := mergeItems_ok (NK_items hd hs) hm
            obtain ⟨i1, i2⟩ := ih ht h
            refine ⟨fun k hk => ?_, by rw [i2, j3]⟩
            rcases i1 k hk with ⟨pre, s', post, v, e, rest⟩ | ⟨e, hget⟩
            · exact Or.inl ⟨s :: pre, s', post, v, by rw [e]; rfl, rest⟩
            · cases hk2 : raw c s k with
              | none =>
                refine Or.inr ⟨fun s' hs' ha => ?_, ?_⟩
                · rcases List.mem_cons.1 hs' with rfl | hs'
                  · exact hk2
                  · exact e s' hs' ha
                · rw [hget, j2 k (by rw [get_items]; exact hk2)]
              | some r' =>
                obtain ⟨v, e1, e2⟩ := j1 k r' hk (by rw [get_items]; exact hk2)
                exact Or.inl ⟨[], s, t, v, rfl, hap.2 hc, ⟨r', hk2, e1⟩, e, by rw [hget, e2]⟩

theorem bind_ok {α β : Type} {x : Except Err α} {f : α → Except Err β} {b : β} (h : (x >>= f) = .ok b) : ∃ a, x = .ok a ∧ f a = .ok b := by
  cases x with
  | error e => cases h
  | ok a => exact ⟨a, rfl, h⟩

theorem optional_ok {α : Type} {f : Str → Except Err α} {o : Option Str} {r : Option α} (h : optional f o = .ok r) :
    (o = none ∧ r = none) ∨ ∃ v a, o = some v ∧ r = some a ∧ f v = .ok a := by
  cases o with
  | none => cases h; exact Or.inl ⟨rfl, rfl⟩
  | some v =>
    replace h : (f v).map some = .ok r := h
    cases hf : f v with
    | error e => rw [hf] at h; cases h
    | ok a => rw [hf] at h; cases h; exact Or.inr ⟨v, a, rfl, rfl, hf⟩

/-- A field of the result comes from the only spelling that is set. -/
theorem field_ok {m : List (Str × Str)} {names : List Str} {o : Option Str} (h : field m names = .ok o) :
    (o = none ∧ ∀ k ∈ names, AL.get m k = none) ∨ ∃ v, o = some v ∧ (∃ k ∈ names, AL.get m k = some v) ∧ ∀ k ∈ names, ∀ w, AL.get m k = some w → w = v := by
  unfold field at h
  split at h
  · rename_i hf
    cases h
    refine Or.inl ⟨rfl, fun k hk => ?_⟩
    cases hg : AL.get m k with
    | none => rfl
    | some v =>
      have : v ∈ names.filterMap (AL.get m) := List.mem_filterMap.2 ⟨k, hk, hg⟩
      rw [hf] at this; cases this
  · rename_i v hf
    cases h
    refine Or.inr ⟨v, rfl, List.mem_filterMap.1 (by rw [hf]; exact List.mem_singleton.2 rfl), ?_⟩
    intro k hk w hw
    have : w ∈ names.filterMap (AL.get m) := List.mem_filterMap.2 ⟨k, hk, hw⟩
    rw [hf] at this
    exact List.mem_singleton.1 this
  · cases h

/-! #### Theorems -/

/-- Fields of two spellings: at most one of them is set. -/
theorem effective_of_field {env : Env} {c : Conf} (hc : c.Ok) {url : Str} {m : List (Str × Str)} {names : List Str} {o : Option Str}
    (hnames : kUrl ∉ names) (hlen : names.Nodup) (hm : mergeSections env c url c.sections [] = .ok m) (h : field m names = .ok o) : Effective env c url names o := by
  obtain ⟨i1, _⟩ := mergeSections_ok hc.defaults hc.sections hm
  have hne : ∀ k ∈ names, k ≠ kUrl := fun k hk he => hnames (he ▸ hk)
  rcases field_ok h with ⟨rfl, h0⟩ | ⟨v, rfl, ⟨k, hk, hg⟩, _⟩
  · intro s hs ha k hk
    rcases i1 k (hne k hk) with ⟨_, _, _, v, _, _, _, _, hg⟩ | ⟨h1, _⟩
    · rw [h0 k hk] at hg; cases hg
    · exact h1 s hs ha
  · -- other spellings are set nowhere, for otherwise there would be two values
    have hother : ∀ k' ∈ names, k' ≠ k → AL.get m k' = none := by
      intro k' hk' hne'
      cases hg' : AL.get m k' with
      | none => rfl
      | some w =>
        exfalso
        unfold field at h
        have hsub : ∀ {l : List Str}, l.Nodup → k ∈ l → k' ∈ l → 2 ≤ (l.filterMap (AL.get m)).length := by
          intro l
          induction l with
          | nil => intro _ hm _; cases hm
          | cons x t ih =>
            intro hnd hkm hkm'
            obtain ⟨_, hnd'⟩ := List.nodup_cons.1 hnd
            have one : ∀ {y z}, y ∈ t → AL.get m y = some z → 1 ≤ (t.filterMap (AL.get m)).length := by
              intro y z hy hz
              have : z ∈ t.filterMap (AL.get m) := List.mem_filterMap.2 ⟨y, hy, hz⟩
              exact List.length_pos_of_mem this
            rcases List.mem_cons.1 hkm with he | hkm1
            · subst he
              rcases List.mem_cons.1 hkm' with he | hkm'
              · exact absurd he hne'
              · rw [List.filterMap_cons, hg]; have := one hkm' hg'; simp only [List.length_cons]; omega
            · rcases List.mem_cons.1 hkm' with he | hkm'
              · subst he; rw [List.filterMap_cons, hg']; have := one hkm1 hg; simp only [List.length_cons]; omega
              · have := ih hnd' hkm1 hkm'
                rw [List.filterMap_cons]
                split
                · exact this
                · rw [List.length_cons]; omega
        have h2 := hsub hlen hk hk'
        split at h
        · rename_i hf; rw [hf] at h2; simp at h2
        · rename_i hf; rw [hf] at h2; simp at h2
        · cases h
    rcases i1 k (hne k hk) with ⟨pre, s, post, w, e1, e2, e3, e4, e5⟩ | ⟨_, h1⟩
    · rw [hg] at e5; cases e5
      refine ⟨k, hk, pre, s, post, e1, e2, e3, ?_⟩
      intro t ht ha k' hk'
      by_cases he : k' = k
      · rw [he]; exact e4 t ht ha
      · rcases i1 k' (hne k' hk') with ⟨_, _, _, w', _, _, _, _, hg'⟩ | ⟨h1, _⟩
        · rw [hother k' hk' he] at hg'; cases hg'
        · exact h1 t (by rw [e1]; exact List.mem_append_right _ (List.mem_cons_of_mem _ ht)) ha
    · rw [hg] at h1; cases h1

/-- Every setting has the value of the last section for the storage that sets it, else its default. -/
theorem C49_last_section_wins {env : Env} {f : File} (hc : f.conf.Ok) {url : Str} {a : Authinfo} (h : fromFile env (some f) url = .ok a) :
    Effective env f.conf url nLogin a.backendLogin ∧ Effective env f.conf url nPassword a.backendPassword ∧ Effective env f.conf url nPassphrase a.fsPassphrase ∧
    (∃ o, Effective env f.conf url nOptions o ∧ a.backendOptions = o.getD []) ∧
    (∃ o, Effective env f.conf url nCachedir o ∧ a.cachedir = o.getD env.defaultCachedir) ∧
    (∃ o, Effective env f.conf url nConnections o ∧ ((o = none ∧ a.maxConnections = 32) ∨ ∃ v, o = some v ∧ env.parseInt v = some a.maxConnections)) ∧
    (∃ o, Effective env f.conf url nThreads o ∧ ((o = none ∧ a.maxThreads = none) ∨ ∃ v n, o = some v ∧ env.parseInt v = some n ∧ a.maxThreads = some n)) ∧
    (∃ o, Effective env f.conf url nCompress o ∧ ((o = none ∧ a.compress = (.lzma, 6)) ∨ ∃ v, o = some v ∧ parseCompress v = .ok a.compress)) := by
  unfold fromFile at h
  dsimp only at h
  split at h
  · cases h
  · cases hm : mergeSections env f.conf url f.conf.sections [] with
    | error e => rw [hm] at h; cases h
    | ok m =>
      rw [hm] at h
      dsimp only at h
      unfold validate at h
      split at h
      · cases h
      · obtain ⟨o1, h1, h⟩ := bind_ok h
        obtain ⟨o2, h2, h⟩ := bind_ok h
        obtain ⟨o3, h3, h⟩ := bind_ok h
        obtain ⟨o4, h4, h⟩ := bind_ok h
        obtain ⟨o5, h5, h⟩ := bind_ok h
        obtain ⟨o6, h6, h⟩ := bind_ok h
        obtain ⟨n6, g6, h⟩ := bind_ok h
        obtain ⟨o7, h7, h⟩ := bind_ok h
        obtain ⟨n7, g7, h⟩ := bind_ok h
        obtain ⟨o8, h8, h⟩ := bind_ok h
        obtain ⟨n8, g8, h⟩ := bind_ok h
        replace h := (Except.ok.inj h).symm
        subst h
        dsimp only
        refine ⟨effective_of_field hc (by decide) (by decide) hm h1, effective_of_field hc (by decide) (by decide) hm h2,
          effective_of_field hc (by decide) (by decide) hm h3, ⟨o4, effective_of_field hc (by decide) (by decide) hm h4, rfl⟩,
          ⟨o5, effective_of_field hc (by decide) (by decide) hm h5, rfl⟩, ⟨o6, effective_of_field hc (by decide) (by decide) hm h6, ?_⟩,
          ⟨o7, effective_of_field hc (by decide) (by decide) hm h7, ?_⟩, ⟨o8, effective_of_field hc (by decide) (by decide) hm h8, ?_⟩⟩
        · rcases optional_ok g6 with ⟨e1, e2⟩ | ⟨v, n, e1, e2, e3⟩
          · exact Or.inl ⟨e1, by rw [e2]; rfl⟩
          · refine Or.inr ⟨v, e1, ?_⟩
            rw [e2]
            unfold toInt at e3
            split at e3
            · cases e3
            · rename_i hp; cases e3; exact hp
        · rcases optional_ok g7 with ⟨e1, e2⟩ | ⟨v, n, e1, e2, e3⟩
          · exact Or.inl ⟨e1, e2⟩
          · refine Or.inr ⟨v, n, e1, ?_, e2⟩
            unfold toInt at e3
            split at e3
            · cases e3
            · rename_i hp; cases e3; exact hp
        · rcases optional_ok g8 with ⟨e1, e2⟩ | ⟨v, n, e1, e2, e3⟩
          · exact Or.inl ⟨e1, by rw [e2]; rfl⟩
          · exact Or.inr ⟨v, e1, by rw [e2]; exact e3⟩

/-- The value is unique. -/
theorem C49_unique {env : Env} {c : Conf} {url : Str} {k : Str} {o o' : Option Str} (h : Effective env c url [k] o) (h' : Effective env c url [k] o') : o = o' := by
  have key : ∀ {v : Str} {o' : Option Str}, Effective env c url [k] (some v) → Effective env c url [k] o' → o' = some v := by
    intro v o' h h'
    obtain ⟨k1, hk1, pre, s, post, e1, e2, ⟨r, e3, e3'⟩, e4⟩ := h
    have hk1 := List.mem_singleton.1 hk1
    subst hk1
    cases o' with
    | none =>
      have := h' s (by rw [e1]; exact List.mem_append_right _ List.mem_cons_self) e2 k1 (List.mem_singleton.2 rfl)
      rw [this] at e3; cases e3
    | some w =>
      obtain ⟨k2, hk2, pre', s', post', f1, f2, ⟨r', f3, f3'⟩, f4⟩ := h'
      have hk2 := List.mem_singleton.1 hk2
      subst hk2
      rw [e1] at f1
      rcases List.append_eq_append_iff.1 f1 with ⟨x, g1, g2⟩ | ⟨x, g1, g2⟩
      · cases x with
        | nil =>
          cases g2
          rw [e3] at f3; cases f3
          rw [e3'] at f3'; rw [f3']
        | cons y x =>
          cases g2
          have := e4 s' (List.mem_append_right _ List.mem_cons_self) f2 k2 (List.mem_singleton.2 rfl)
          rw [this] at f3; cases f3
      · cases x with
        | nil =>
          cases g2
          rw [e3] at f3; cases f3
          rw [e3'] at f3'; rw [f3']
        | cons y x =>
          cases g2
          have := f4 s (List.mem_append_right _ List.mem_cons_self) e2 k2 (List.mem_singleton.2 rfl)
          rw [this] at e3; cases e3
  cases o with
  | some v => exact (key h h').symm
  | none =>
    cases o' with
    | none => rfl
    | some v => exact key h' h

/-- An unknown option in a section for the storage is an error. -/
theorem C49_unknown_option {env : Env} {f : File} (hc : f.conf.Ok) {url : Str} {s : List (Str × Str)} {k : Str} (hs : s ∈ f.conf.sections)
    (ha : Applies env f.conf url s) (hk : raw f.conf s k ≠ none) (hk1 : k ≠ kUrl) (hk2 : k ∉ known) : ∀ a, fromFile env (some f) url ≠ .ok a := by
  intro a h
  unfold fromFile at h
  dsimp only at h
  split at h
  · cases h
  · cases hm : mergeSections env f.conf url f.conf.sections [] with
    | error e => rw [hm] at h; cases h
    | ok m =>
      rw [hm] at h
      dsimp only at h
      obtain ⟨i1, _⟩ := mergeSections_ok hc.defaults hc.sections hm
      have : ∃ v, AL.get m k = some v := by
        rcases i1 k hk1 with ⟨_, _, _, v, _, _, _, _, hg⟩ | ⟨h1, _⟩
        · exact ⟨v, hg⟩
        · exact absurd (h1 s hs ha) hk
      obtain ⟨v, hv⟩ := this
      unfold validate at h
      have hany : (m.any (fun e => ¬ known.contains e.1)) = true := by
        refine List.any_eq_true.2 ⟨(k, v), AL.get_some_mem hv, ?_⟩
        exact decide_eq_true (fun hb => hk2 (List.contains_iff_mem.1 hb))
      rw [if_pos hany] at h
      cases h

/-- A file that others may read is refused. -/
theorem C49_insecure {env : Env} {f : File} {url : Str} (h : f.groupReadable = true ∨ f.otherReadable = true) : fromFile env (some f) url = .error (.quiet 12) := by
  unfold fromFile
  dsimp only
  rw [if_pos h]

/-- Sections for other storages have no effect. -/
theorem C49_other_sections {env : Env} {d : List (Str × Str)} {l1 l2 : List (List (Str × Str))} {s : List (Str × Str)} {g o : Bool} {url : Str}
    (hs : ¬ Applies env ⟨d, l1 ++ s :: l2⟩ url s) (hi : ∀ r, raw ⟨d, l1 ++ s :: l2⟩ s kUrl = some r → interp env ⟨d, l1 ++ s :: l2⟩ s r ≠ none) :
    fromFile env (some ⟨g, o, ⟨d, l1 ++ s :: l2⟩⟩) url = fromFile env (some ⟨g, o, ⟨d, l1 ++ l2⟩⟩) url := by
  -- only the options of DEFAULT matter to what happens in a section
  have hraw : ∀ (l l' : List (List (Str × Str))) t k, raw ⟨d, l⟩ t k = raw ⟨d, l'⟩ t k := fun _ _ _ _ => rfl
  have hint : ∀ (l l' : List (List (Str × Str))) t v, interp env ⟨d, l⟩ t v = interp env ⟨d, l'⟩ t v := fun _ _ _ _ => rfl
  have hmi : ∀ (l l' : List (List (Str × Str))) t its m, mergeItems env ⟨d, l⟩ t its m = mergeItems env ⟨d, l'⟩ t its m := by
    intro l l' t its
    induction its with
    | nil => intro m; rfl
    | cons e r ih =>
      intro m
      obtain ⟨k, v⟩ := e
      unfold mergeItems
      rw [hint l l' t v]
      split
      · rfl
      · exact ih _
  have hms : ∀ (l l' : List (List (Str × Str))) ss m, mergeSections env ⟨d, l⟩ url ss m = mergeSections env ⟨d, l'⟩ url ss m := by
    intro l l' ss
    induction ss with
    | nil => intro m; rfl
    | cons t r ih =>
      intro m
      unfold mergeSections
      rw [hraw l l']
      split
      · exact ih _
      · rw [hint l l']
        split
        · rfl
        · split
          · exact ih _
          · rw [hmi l l' t]
            have : items ⟨d, l⟩ t = items ⟨d, l'⟩ t := rfl
            rw [this]
            split
            · rfl
            · exact ih _
  have hskip : ∀ (l : List (List (Str × Str))) m, mergeSections env ⟨d, l1 ++ s :: l2⟩ url (s :: l) m = mergeSections env ⟨d, l1 ++ s :: l2⟩ url l m := by
    intro l m
    conv => lhs; unfold mergeSections
    cases hr : raw ⟨d, l1 ++ s :: l2⟩ s kUrl with
    | none => rfl
    | some r =>
      dsimp only
      cases hp : interp env ⟨d, l1 ++ s :: l2⟩ s r with
      | none => exact absurd hp (hi r hr)
      | some p =>
        dsimp only
        rw [if_pos]
        exact Decidable.not_not.1 (fun hn => hs ((applies_iff hr hp).2 hn))
  have happ : ∀ (c : Conf) (a b : List (List (Str × Str))) m, mergeSections env c url (a ++ b) m =
      match mergeSections env c url a m with | .error e => .error e | .ok m' => mergeSections env c url b m' := by
    intro c a b
    induction a with
    | nil => intro m; rfl
    | cons t r ih =>
      intro m
      show mergeSections env c url (t :: (r ++ b)) m = _
      have hcons : ∀ (t : List (Str × Str)) l m, mergeSections env c url (t :: l) m =
          match raw c t kUrl with
          | none => mergeSections env c url l m
          | some r =>
            match interp env c t r with
            | none => .error .crash
            | some pattern =>
              if pattern = [] ∨ pattern.isPrefixOf url = false then mergeSections env c url l m
              else
                match mergeItems env c t (items c t) m with
                | .error e => .error e
                | .ok m' => mergeSections env c url l m' := fun _ _ _ => rfl
      rw [hcons, hcons]
      split
      · exact ih m
      · split
        · rfl
        · split
          · exact ih m
          · split
            · rfl
            · exact ih _
  unfold fromFile
  dsimp only
  congr 1
  rw [happ, hms (l1 ++ l2) (l1 ++ s :: l2), happ]
  cases mergeSections env ⟨d, l1 ++ s :: l2⟩ url l1 [] with
  | error e => rfl
  | ok m => dsimp only; rw [hskip]

/-- A value on the command line has precedence, also `0` and the empty string. -/
theorem C49_command_line {α : Type} (v cfg : α) : pick (some v) cfg = v ∧ pick none cfg = cfg := ⟨rfl, rfl⟩

/-- Without a file there are the defaults. -/
theorem C49_defaults {env : Env} {url : Str} :
    fromFile env none url = .ok { backendLogin := none, backendPassword := none, fsPassphrase := none, backendOptions := [], cachedir := env.defaultCachedir, maxConnections := 32, maxThreads := none, compress := (.lzma, 6) } := rfl

/-- What is accepted: known options, each under one name, values that `configparser` can interpolate, and numbers and compression methods that can be parsed. -/
theorem C49_accepts {env : Env} {f : File} (hc : f.conf.Ok) {url : Str} (hsec : f.groupReadable = false ∧ f.otherReadable = false)
    (hint : ∀ s ∈ f.conf.sections, (∀ r, raw f.conf s kUrl = some r → interp env f.conf s r ≠ none) ∧
      (Applies env f.conf url s → ∀ k r, raw f.conf s k = some r → interp env f.conf s r ≠ none ∧ (k = kUrl ∨
        k ∈ ["backend-login".toList, "backend-password".toList, "fs-passphrase".toList, "backend-options".toList, "cachedir".toList, "max-connections".toList, "max-threads".toList, "compress".toList]) ∧
        (k = "max-connections".toList ∨ k = "max-threads".toList → ∀ v, interp env f.conf s r = some v → env.parseInt v ≠ none) ∧
        (k = "compress".toList → ∀ v, interp env f.conf s r = some v → ∃ a, parseCompress v = .ok a))) :
    ∃ a, fromFile env (some f) url = .ok a := by
  -- merging items succeeds
  have hmi : ∀ s l m, (∀ e ∈ l, interp env f.conf s e.2 ≠ none) → ∃ m', mergeItems env f.conf s l m = .ok m' := by
    intro s l
    induction l with
    | nil => intro m _; exact ⟨m, rfl⟩
    | cons e t ih =>
      intro m h
      obtain ⟨k, r⟩ := e
      unfold mergeItems
      cases hi : interp env f.conf s r with
      | none => exact absurd hi (h _ List.mem_cons_self)
      | some v => exact ih _ (fun e he => h e (List.mem_cons_of_mem _ he))
  have hms : ∀ l m, (∀ s ∈ l, s ∈ f.conf.sections) → ∃ m', mergeSections env f.conf url l m = .ok m' := by
    intro l
    induction l with
    | nil => intro m _; exact ⟨m, rfl⟩
    | cons s t ih =>
      intro m h
      have hs := h s List.mem_cons_self
      obtain ⟨g1, g2⟩ := hint s hs
      unfold mergeSections
      cases hr : raw f.conf s kUrl with
      | none => exact ih m (fun s hs => h s (List.mem_cons_of_mem _ hs))
      | some r =>
        dsimp only
        cases hi : interp env f.conf s r with
        | none => exact absurd hi (g1 r hr)
        | some p =>
          dsimp only
          split
          · exact ih m (fun s hs => h s (List.mem_cons_of_mem _ hs))
          · rename_i hcnd
            have ha := (applies_iff (url := url) hr hi).2 hcnd
            obtain ⟨m1, hm1⟩ := hmi s (items f.conf s) m (by
              intro e he
              have hget := AL.mem_get_some (NK_items hc.defaults (hc.sections s hs)) (k := e.1) (v := e.2) he
              rw [get_items] at hget
              exact (g2 ha e.1 e.2 hget).1)
            rw [hm1]
            exact ih m1 (fun s hs => h s (List.mem_cons_of_mem _ hs))
  obtain ⟨m, hm⟩ := hms f.conf.sections [] (fun s hs => hs)
  obtain ⟨i1, i2⟩ := mergeSections_ok hc.defaults hc.sections hm
  -- what is in the merged settings
  have hin : ∀ k v, AL.get m k = some v → ∃ s r, s ∈ f.conf.sections ∧ Applies env f.conf url s ∧ raw f.conf s k = some r ∧ interp env f.conf s r = some v ∧ k ≠ kUrl := by
    intro k v hg
    by_cases hk : k = kUrl
    · rw [hk, i2] at hg; cases hg
    · rcases i1 k hk with ⟨pre, s, post, w, e1, e2, ⟨r, e3, e3'⟩, _, e5⟩ | ⟨_, h2⟩
      · rw [hg] at e5; cases e5
        exact ⟨s, r, by rw [e1]; exact List.mem_append_right _ List.mem_cons_self, e2, e3, e3', hk⟩
      · rw [hg] at h2; cases h2
  have hkeys : ∀ k, AL.get m k ≠ none → k ∈ ["backend-login".toList, "backend-password".toList, "fs-passphrase".toList, "backend-options".toList, "cachedir".toList, "max-connections".toList, "max-threads".toList, "compress".toList] := by
    intro k hk
    cases hg : AL.get m k with
    | none => exact absurd hg hk
    | some v =>
      obtain ⟨s, r, a1, a2, a3, _, a5⟩ := hin k v hg
      rcases ((hint s a1).2 a2 k r a3).2.1 with h | h
      · exact absurd h a5
      · exact h
  have hnone : ∀ k, k ∉ ["backend-login".toList, "backend-password".toList, "fs-passphrase".toList, "backend-options".toList, "cachedir".toList, "max-connections".toList, "max-threads".toList, "compress".toList] → AL.get m k = none := by
    intro k hk
    cases hg : AL.get m k with
    | none => rfl
    | some v => exact absurd (hkeys k (by rw [hg]; exact Option.some_ne_none v)) hk
  have hf2 : ∀ a b : Str, AL.get m b = none → field m [a, b] = .ok (AL.get m a) := by
    intro a b hb
    unfold field
    rw [List.filterMap_cons, List.filterMap_cons, hb]
    cases AL.get m a <;> rfl
  have hf1 : ∀ a : Str, field m [a] = .ok (AL.get m a) := by
    intro a
    unfold field
    rw [List.filterMap_cons]
    cases AL.get m a <;> rfl
  have hopt : ∀ {α : Type} (g : Str → Except Err α) (o : Option Str), (∀ v, o = some v → ∃ a, g v = .ok a) → ∃ r, optional g o = .ok r := by
    intro α g o h
    cases o with
    | none => exact ⟨none, rfl⟩
    | some v =>
      obtain ⟨a, ha⟩ := h v rfl
      exact ⟨some a, by show (g v).map some = _; rw [ha]; rfl⟩
  have hint' : ∀ k, k = "max-connections".toList ∨ k = "max-threads".toList → ∃ r, optional (toInt env) (AL.get m k) = .ok r := by
    intro k hk
    refine hopt _ _ (fun v hv => ?_)
    obtain ⟨s, r, a1, a2, a3, a4, _⟩ := hin k v hv
    have := ((hint s a1).2 a2 k r a3).2.2.1 hk v a4
    unfold toInt
    cases hp : env.parseInt v with
    | none => exact absurd hp this
    | some n => exact ⟨n, rfl⟩
  obtain ⟨n6, h6⟩ := hint' _ (Or.inl rfl)
  obtain ⟨n7, h7⟩ := hint' _ (Or.inr rfl)
  obtain ⟨n8, h8⟩ := hopt parseCompress (AL.get m "compress".toList) (by
    intro v hv
    obtain ⟨s, r, a1, a2, a3, a4, _⟩ := hin _ v hv
    exact ((hint s a1).2 a2 _ r a3).2.2.2 rfl v a4)
  unfold fromFile
  dsimp only
  rw [if_neg (by rw [hsec.1, hsec.2]; decide), hm]
  dsimp only
  unfold validate
  rw [if_neg]
  · unfold nLogin nPassword nPassphrase nOptions nCachedir nConnections nThreads nCompress
    rw [hf2 _ _ (hnone _ (by decide)), hf2 _ _ (hnone _ (by decide)), hf2 _ _ (hnone _ (by decide)), hf2 _ _ (hnone _ (by decide)), hf1,
      hf2 _ _ (hnone _ (by decide)), hf2 _ _ (hnone _ (by decide)), hf1]
    simp only [bind, Except.bind, h6, h7, h8]
    exact ⟨_, rfl⟩
  · intro hany
    obtain ⟨e, he, hne⟩ := List.any_eq_true.1 hany
    have hg : AL.get m e.1 ≠ none := by
      intro hn
      exact (AL.get_none_iff m e.1).1 hn (List.mem_map.2 ⟨e, he, rfl⟩)
    have hkn : ∀ k ∈ ["backend-login".toList, "backend-password".toList, "fs-passphrase".toList, "backend-options".toList, "cachedir".toList, "max-connections".toList, "max-threads".toList, "compress".toList],
        known.contains k = true := by decide
    exact of_decide_eq_true hne (hkn _ (hkeys _ hg))

/-- Without a percent sign, a value stands for itself. -/
theorem C49_plain_value {env : Env} {c : Conf} {s : List (Str × Str)} {v : Str} (h : '%' ∉ v) : interp env c s v = some v := by
  have ht : toks .text v = some (v.map Tok.lit) := by
    induction v with
    | nil => rfl
    | cons x t ih =>
      have hx : x ≠ '%' := fun he => h (he ▸ List.mem_cons_self)
      unfold toks
      rw [if_neg hx, ih (fun hm => h (List.mem_cons_of_mem _ hm))]
      rfl
  unfold interp expand
  rw [ht]
  show cat _ (v.map Tok.lit) = some v
  clear ht h
  induction v with
  | nil => rfl
  | cons x t ih =>
    show (some [x]).bind _ = _
    rw [Option.bind_some, ih]
    rfl

/-- A password with a percent sign must be written with two: otherwise the program ends with an exception that nothing catches. -/
theorem C49_percent_crash {env : Env} {d : List (Str × Str)} {s : List (Str × Str)} {url pre post : Str} {x : Char} {k : Str} {rest : List (List (Str × Str))}
    (hc : (⟨d, s :: rest⟩ : Conf).Ok) (ha : Applies env ⟨d, s :: rest⟩ url s) (hp : '%' ∉ pre) (hx : x ≠ '%' ∧ x ≠ '(') (hk : AL.get s k = some (pre ++ '%' :: x :: post)) :
    fromFile env (some ⟨false, false, ⟨d, s :: rest⟩⟩) url = .error .crash := by
  have ht : toks .text (pre ++ '%' :: x :: post) = none := by
    clear hk
    induction pre with
    | nil =>
      show toks .text ('%' :: x :: post) = none
      unfold toks
      rw [if_pos rfl]
      unfold toks
      rw [if_neg hx.1, if_neg hx.2]
    | cons y t ih =>
      have hy : y ≠ '%' := fun he => hp (he ▸ List.mem_cons_self)
      show toks .text (y :: (t ++ '%' :: x :: post)) = none
      unfold toks
      rw [if_neg hy, ih (fun hm => hp (List.mem_cons_of_mem _ hm))]
      rfl
  have hi : interp env ⟨d, s :: rest⟩ s (pre ++ '%' :: x :: post) = none := by
    unfold interp expand
    rw [ht]; rfl
  have hraw : raw ⟨d, s :: rest⟩ s k = some (pre ++ '%' :: x :: post) := by unfold raw; rw [hk]; rfl
  obtain ⟨r, p, a1, a2, a3, a4⟩ := ha
  have hm : mergeSections env ⟨d, s :: rest⟩ url (s :: rest) [] = .error .crash := by
    unfold mergeSections
    rw [a1]
    dsimp only
    rw [a2]
    dsimp only
    rw [if_neg ((applies_iff a1 a2).1 ⟨r, p, a1, a2, a3, a4⟩)]
    have : mergeItems env ⟨d, s :: rest⟩ s (items ⟨d, s :: rest⟩ s) [] = .error .crash := by
      cases hmi : mergeItems env ⟨d, s :: rest⟩ s (items ⟨d, s :: rest⟩ s) [] with
      | ok m =>
        have := (mergeItems_ok (NK_items hc.defaults (hc.sections s List.mem_cons_self)) hmi).2.2.2
        have hmem : (k, pre ++ '%' :: x :: post) ∈ items ⟨d, s :: rest⟩ s := AL.get_some_mem (by rw [get_items]; exact hraw)
        exact absurd hi (this _ hmem)
      | error e =>
        have : ∀ its m, mergeItems env ⟨d, s :: rest⟩ s its m = .error e → e = .crash := by
          intro its
          induction its with
          | nil => intro m h; cases h
          | cons y t ih =>
            intro m h
            unfold mergeItems at h
            split at h
            · cases h; rfl
            · exact ih _ h
        rw [this _ _ hmi]
    rw [this]
  unfold fromFile
  dsimp only
  rw [if_neg (by decide), hm]

/-- What compression methods look like. -/
theorem C49_compress {v : Str} (hn : '\n' ∉ v) {a : Alg} {n : Nat} : parseCompress v = .ok (a, n) ↔
    ∃ name, algOf name = some a ∧ ((v = name ∧ n = 6) ∨ ∃ d, '0' ≤ d ∧ d ≤ '9' ∧ v = name ++ ['-', d] ∧ n = d.toNat - 48) := by
  have hlast : v.getLast? ≠ some '\n' := fun h => hn (List.mem_of_getLast? h)
  have hword : ∀ name, algOf name = some a → name ≠ [] ∧ ∀ c ∈ name, isWord c = true := by
    intro name h
    unfold algOf at h
    split at h
    · rename_i e; rw [e]; decide
    · split at h
      · rename_i e; rw [e]; decide
      · split at h
        · rename_i e; rw [e]; decide
        · split at h
          · rename_i e; rw [e]; decide
          · cases h
  unfold parseCompress
  dsimp only
  rw [if_neg hlast]
  constructor
  · intro h
    split at h
    · cases h
    · split at h
      · cases h
      · rename_i m hm
        split at h
        · cases h
        · rename_i b hb
          cases h
          refine ⟨v.takeWhile isWord, hb, ?_⟩
          have hv := (List.takeWhile_append_dropWhile (p := isWord) (l := v)).symm
          split at hm
          · rename_i hd
            cases hm
            rw [hd, List.append_nil] at hv
            exact Or.inl ⟨hv, rfl⟩
          · rename_i d hd
            split at hm
            · rename_i hdig
              cases hm
              rw [hd] at hv
              exact Or.inr ⟨d, hdig.1, hdig.2, hv, rfl⟩
            · cases hm
          · cases hm
  · rintro ⟨name, hname, h | ⟨d, h1, h2, h3, h4⟩⟩
    · obtain ⟨rfl, rfl⟩ := h
      obtain ⟨w1, w2⟩ := hword v hname
      have e1 : v.takeWhile isWord = v := by
        have := List.takeWhile_append_of_pos (l₂ := []) w2
        rw [List.append_nil] at this
        rw [this]; simp
      have e2 : v.dropWhile isWord = [] := by
        have := List.dropWhile_append_of_pos (l₂ := []) w2
        rw [List.append_nil] at this
        rw [this]; rfl
      rw [e1, e2, if_neg w1]
      dsimp only
      rw [hname]
    · subst h3 h4
      obtain ⟨w1, w2⟩ := hword name hname
      have hm : isWord '-' = false := by decide
      have e1 : (name ++ ['-', d]).takeWhile isWord = name := by
        rw [List.takeWhile_append_of_pos w2]
        unfold List.takeWhile
        rw [hm, List.append_nil]
      have e2 : (name ++ ['-', d]).dropWhile isWord = ['-', d] := by
        rw [List.dropWhile_append_of_pos w2]
        unfold List.dropWhile
        rw [hm]
      rw [e1, e2, if_neg w1]
      show (match (if '0' ≤ d ∧ d ≤ '9' then some (d.toNat - 48) else none) with | none => _ | some n => _) = _
      rw [if_pos ⟨h1, h2⟩]
      dsimp only
      rw [hname]

/-! #### Concrete cases -/

deriving instance DecidableEq for Except

/-- Lower case is the identity here; only `0` to `9` are numbers. -/
def env0 : Env := { xform := id, parseInt := fun s => match s with | [d] => if d.isDigit then some (d.toNat - 48 : Nat) else none | _ => none, defaultCachedir := "/c".toList }

def conf0 : Conf :=
  { defaults := [("max-threads".toList, "3".toList)],
    sections := [
      [("storage-url".toList, "s3://".toList), ("backend-login".toList, "me".toList), ("backend-password".toList, "50%%".toList)],
      [("storage-url".toList, "gs://".toList), ("backend-login".toList, "other".toList), ("nonsense".toList, "x".toList)],
      [("storage-url".toList, "s3://bucket".toList), ("backend-login".toList, "%(fs-passphrase)s!".toList), ("fs-passphrase".toList, "pw".toList), ("compress".toList, "zlib-9".toList)]] }

def auth0 : Authinfo := { backendLogin := some "pw!".toList, backendPassword := some "50%".toList, fsPassphrase := some "pw".toList, backendOptions := [], cachedir := "/c".toList, maxConnections := 32, maxThreads := some 3, compress := (.zlib, 9) }

theorem conf0_ok : conf0.Ok := ⟨by unfold AL.NK; decide, by unfold AL.NK; decide⟩

theorem conf0_result : fromFile env0 (some ⟨false, false, conf0⟩) "s3://bucket/x".toList = .ok auth0 := by decide +kernel

example : Effective env0 conf0 "s3://bucket/x".toList nLogin (some "pw!".toList) := (C49_last_section_wins (f := ⟨false, false, conf0⟩) conf0_ok conf0_result).1

/-- For the other storage there is an unknown option. -/
example : ∀ a, fromFile env0 (some ⟨false, false, conf0⟩) "gs://x".toList ≠ .ok a :=
  C49_unknown_option (f := ⟨false, false, conf0⟩) (s := [("storage-url".toList, "gs://".toList), ("backend-login".toList, "other".toList), ("nonsense".toList, "x".toList)]) (k := "nonsense".toList)
    conf0_ok (by decide) ⟨"gs://".toList, "gs://".toList, by decide +kernel, by decide +kernel, by decide, ⟨['x'], rfl⟩⟩ (by decide +kernel) (by decide) (by decide)

example : fromFile env0 (some ⟨false, false, ⟨[], [[("storage-url".toList, "s3://".toList), ("backend-password".toList, "a%b".toList)]]⟩⟩) "s3://x".toList = .error .crash :=
  C49_percent_crash (k := "backend-password".toList) (pre := ['a']) (x := 'b') (post := []) ⟨List.nodup_nil, by unfold AL.NK; decide⟩
    ⟨"s3://".toList, "s3://".toList, by decide +kernel, by decide +kernel, by decide, ⟨['x'], rfl⟩⟩ (by decide) (by decide) (by decide +kernel)

example : parseCompress "lzma".toList = .ok (.lzma, 6) ∧ parseCompress "bzip2-0".toList = .ok (.bzip2, 0) ∧ parseCompress "lzma-10".toList = .error (.quiet 2) ∧
    parseCompress "gzip".toList = .error (.quiet 2) := by decide +kernel

end Verif.Tools.Authinfo
