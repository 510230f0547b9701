import Verif.Util.AList
import Verif.Tools.MountOpts
/-
C103: backend options (`--backend-options` and `backend-options` in the authentication file): `parse_suboptions` (backends/config.py:12-31), the check for unknown options
(backends/__init__.py:59-75), and what the backends do with them.

Not modelled here: `ssl-ca-path` (which certificates are trusted is part of TLS), `no-feature-detection` (C41); which connections are encrypted is C95.
-/
namespace Verif.Backend.Options

abbrev Str := List Char

/-! #### Model -/

/-- The value of an option: `True` or a string. -/
inductive Val where
  | flag
  | str (v : Str)
  deriving DecidableEq, Repr

abbrev Opts := List (Str × Val)

/-- The characters that `str.strip()` removes. -/
def isSpace (c : Char) : Bool :=
  (9 ≤ c.toNat && c.toNat ≤ 13) || (28 ≤ c.toNat && c.toNat ≤ 32) || c.toNat = 133 || c.toNat = 160 || c.toNat = 0x1680 || (0x2000 ≤ c.toNat && c.toNat ≤ 0x200a) ||
    c.toNat = 0x2028 || c.toNat = 0x2029 || c.toNat = 0x202f || c.toNat = 0x205f || c.toNat = 0x3000

/-- `str.strip()` -/
def strip (s : Str) : Str := ((s.dropWhile isSpace).reverse.dropWhile isSpace).reverse

/-- `opt.split('=', 1)`; `none`: there is no `=`. -/
def splitEq : Str → Option (Str × Str)
  | [] => none
  | c :: s => if c = '=' then some ([], s) else (splitEq s).map (fun p => (c :: p.1, p.2))

/-- The loop body (config.py:19-27). -/
def addOpt (o : Opts) (raw : Str) : Opts :=
  if strip raw = [] then o
  else
    match splitEq (strip raw) with
    | some (k, v) => AL.set o (strip k) (.str (strip v))
    | none => AL.set o (strip raw) .flag

/-- `parse_suboptions` (config.py:12-31). -/
def parse (s : Str) : Opts := (Tools.MountOpts.split ',' s).foldl addOpt []

inductive Svc where
  | gs | s3 | s3c | s3c4 | swift | swiftks | rackspace | b2 | dir
  deriving DecidableEq, Repr

/-- `known_options` (s3c.py:77-83, s3c4.py:39, s3.py:33-39, b2ng.py:41, gs.py:164, swift.py:85-91, swiftks.py:28-35, local.py:44). -/
def known : Svc → List String
  | .s3c => ["no-ssl", "ssl-ca-path", "tcp-timeout", "dumb-copy", "disable-expect100"]
  | .s3c4 => ["no-ssl", "ssl-ca-path", "tcp-timeout", "dumb-copy", "disable-expect100", "sig-region"]
  | .s3 => (["no-ssl", "ssl-ca-path", "tcp-timeout", "dumb-copy", "disable-expect100", "sig-region"] ++ ["sse", "rrs", "ia", "oia", "it"]).filter
      (fun x => !["dumb-copy", "disable-expect100", "sig-region"].contains x)
  | .b2 => ["no-ssl", "ssl-ca-path", "tcp-timeout", "dumb-copy", "disable-expect100", "sig-region"].filter (fun x => x ≠ "sig-region")
  | .gs => ["ssl-ca-path", "tcp-timeout"]
  | .swift => ["no-ssl", "ssl-ca-path", "tcp-timeout", "disable-expect100", "no-feature-detection"]
  | .swiftks | .rackspace => ["no-ssl", "ssl-ca-path", "tcp-timeout", "disable-expect100", "no-feature-detection"] ++
      ["domain", "project-domain", "project-domain-is-name", "domain-is-name", "tenant-is-name", "identity-url"]
  | .dir => []

/-- `x in options` -/
def has (o : Opts) (x : String) : Bool := (AL.get o x.toList).isSome

/-- The check for unknown options (backends/__init__.py:59-75): the text of the command line, if there is one, replaces that of the authentication file.  `none`: exit
status 3. -/
def openOpts (svc : Svc) (cli : Option Str) (auth : Str) : Option Opts :=
  let o := parse (cli.getD auth)
  if o.all (fun e => (known svc).any (fun x => decide (x.toList = e.1))) then some o else none

/-- `x-amz-storage-class` (s3.py:173-183). -/
def storageClass (o : Opts) : String :=
  if has o "ia" then "STANDARD_IA"
  else if has o "oia" then "ONEZONE_IA"
  else if has o "rrs" then "REDUCED_REDUNDANCY"
  else if has o "it" then "INTELLIGENT_TIERING"
  else "STANDARD"

/-- The headers sent with each new object (s3.py:60, 169-183; s3c.py:406). -/
def putHeaders (o : Opts) : List (String × String) :=
  (if has o "sse" then [("x-amz-server-side-encryption", "AES256")] else []) ++ [("x-amz-storage-class", storageClass o)]

/-- `int(options.get('tcp-timeout', 20))` (s3c.py:206, gs.py:316, swift.py:341, 367, 866, swiftks.py:172, s3.py:110); `toInt` is `int` for strings, `int(True)` is 1.  `none`:
ValueError. -/
def timeout (toInt : Str → Option Int) (o : Opts) : Option Int :=
  match AL.get o "tcp-timeout".toList with
  | none => some 20
  | some .flag => some 1
  | some (.str v) => toInt v

/-- Is `Expect: 100-continue` sent with a request (s3c.py:688, swift.py:455, http.py:448-451)?  `fh`: the body is a file, i.e. the contents of an object. -/
def expect100 (o : Opts) (fh : Bool) : Bool :=
  match AL.get o "disable-expect100".toList with
  | some .flag => false
  | some (.str v) => if v ≠ [] then false else fh
  | none => fh

/-- The region for signatures (s3c4.py:51). -/
def sigRegion (o : Opts) : Val := (AL.get o "sig-region".toList).getD (.str "us-east-1".toList)

/-- A Keystone login request (swiftks.py:100-180): version 2 or 3.  A name or an id is given as (is it a name?, value). -/
inductive Login where
  | v2 (user : Str) (tenant : Option Str)
  | v3 (path : Val) (user : Str) (userDomain : Bool × Val) (project : Bool × Str) (projectDomain : Bool × Val)
  /-- "Tenant is required when Keystone v3 is used" -/
  | tenantMissing
  /-- AssertionError: `identity-url` without value -/
  | assertion
  deriving DecidableEq, Repr

/-- Is the value true for Python? -/
def Val.truthy : Val → Bool
  | .flag => true
  | .str v => decide (v ≠ [])

/-- The request (swiftks.py:104-166).  `tenant` is what precedes the colon in the login; a login with several colons (ValueError) is not modelled. -/
def login (o : Opts) (tenant : Option Str) (user : Str) : Login :=
  match AL.get o "domain".toList with
  | none => .v2 user (tenant.filter (fun t => decide (t ≠ [])))
  | some d =>
    if d.truthy = false then .v2 user (tenant.filter (fun t => decide (t ≠ [])))
    else
      match tenant.filter (fun t => decide (t ≠ [])) with
      | none => .tenantMissing
      | some t =>
        let req := fun path => Login.v3 path user (has o "domain-is-name", d) (has o "tenant-is-name", t)
          (has o "project-domain-is-name" || has o "domain-is-name", (AL.get o "project-domain".toList).getD d)
        match AL.get o "identity-url".toList with
        | none => req (.str "/v3/auth/tokens".toList)
        | some .flag => .assertion
        | some (.str u) => req (.str u)

/-! #### Specification -/

/-- An option as the user writes it: a name, possibly `=` and a value, with any white space around them. -/
structure Given where
  key : Str
  val : Option Str
  w1 : Str := []
  w2 : Str := []
  w3 : Str := []
  w4 : Str := []

def Given.text (g : Given) : Str :=
  match g.val with
  | none => g.w1 ++ g.key ++ g.w2
  | some v => g.w1 ++ g.key ++ g.w2 ++ '=' :: (g.w3 ++ v ++ g.w4)

/-- No white space at the ends. -/
def Clean (s : Str) : Prop := (∀ c, s.head? = some c → isSpace c = false) ∧ (∀ c, s.getLast? = some c → isSpace c = false)

def Space (w : Str) : Prop := ∀ c ∈ w, isSpace c = true

/-- Names contain no `=`, and neither names nor values contain commas. -/
structure Given.Ok (g : Given) : Prop where
  ne : g.key ≠ []
  clean : Clean g.key
  comma : ',' ∉ g.key
  eq : '=' ∉ g.key
  vclean : ∀ v, g.val = some v → Clean v
  vcomma : ∀ v, g.val = some v → ',' ∉ v
  w1 : Space g.w1
  w2 : Space g.w2
  w3 : Space g.w3
  w4 : Space g.w4

def Given.value (g : Given) : Val :=
  match g.val with
  | none => .flag
  | some v => .str v

/-- What is said about option `k`: the last mention counts. -/
def said (k : Str) : List Given → Option Val
  | [] => none
  | g :: gs => (said k gs).or (if g.key = k then some g.value else none)

/-- The whole text, separated by commas. -/
def line (gs : List Given) : Str := Tools.MountOpts.join (gs.map Given.text)

/-- The options in the sections of rst/backends.rst. -/
def documented : Svc → List String
  | .gs => ["ssl-ca-path", "tcp-timeout"]
  | .s3 => ["no-ssl", "ssl-ca-path", "tcp-timeout", "sse", "it", "ia", "oia", "rrs"]
  | .swift | .swiftks | .rackspace => ["no-ssl", "ssl-ca-path", "tcp-timeout", "disable-expect100", "no-feature-detection", "domain", "domain-is-name", "project-domain",
      "project-domain-is-name", "tenant-is-name", "identity-url"]
  | .s3c => ["no-ssl", "ssl-ca-path", "tcp-timeout", "disable-expect100", "dumb-copy"]
  | .s3c4 => ["no-ssl", "ssl-ca-path", "tcp-timeout", "disable-expect100", "dumb-copy", "sig-region"]
  | .b2 => ["no-ssl", "ssl-ca-path", "tcp-timeout"]
  | .dir => []

/-- The storage classes of the manual. -/
def classes : List (String × String) := [("it", "INTELLIGENT_TIERING"), ("ia", "STANDARD_IA"), ("oia", "ONEZONE_IA"), ("rrs", "REDUCED_REDUNDANCY")]

/-! #### Proofs -/

theorem dropWhile_space (w s : Str) (h : Space w) : (w ++ s).dropWhile isSpace = s.dropWhile isSpace := by
  induction w with
  | nil => rfl
  | cons c w ih =>
    rw [List.cons_append, List.dropWhile_cons_of_pos (h c List.mem_cons_self)]
    exact ih (fun x hx => h x (List.mem_cons_of_mem _ hx))

theorem dropWhile_clean (s t : Str) (h : ∀ c, s.head? = some c → isSpace c = false) (hne : s ≠ []) : (s ++ t).dropWhile isSpace = s ++ t := by
  cases s with
  | nil => exact absurd rfl hne
  | cons c s => rw [List.cons_append, List.dropWhile_cons_of_neg (by rw [h c rfl]; decide)]

theorem Space.reverse {w : Str} (h : Space w) : Space w.reverse := fun c hc => h c (List.mem_reverse.1 hc)

theorem Space.append {a b : Str} (h1 : Space a) (h2 : Space b) : Space (a ++ b) := by
  intro c hc
  rcases List.mem_append.1 hc with h | h
  · exact h1 c h
  · exact h2 c h

theorem strip_pad (w s w' : Str) (hw : Space w) (hw' : Space w') (hs : Clean s) : strip (w ++ s ++ w') = s := by
  unfold strip
  rw [List.append_assoc, dropWhile_space _ _ hw]
  by_cases hne : s = []
  · subst hne
    have : ([] ++ w' : Str).dropWhile isSpace = [] := by
      have := dropWhile_space w' [] hw'
      rw [List.append_nil] at this
      rw [List.nil_append, this]; rfl
    rw [this]; rfl
  · rw [dropWhile_clean _ _ hs.1 hne, List.reverse_append, dropWhile_space _ _ hw'.reverse]
    have h2 := dropWhile_clean s.reverse [] (by rw [List.head?_reverse]; exact hs.2) (by simpa using hne)
    rw [List.append_nil] at h2
    rw [h2, List.reverse_reverse]

theorem splitEq_none {s : Str} (h : '=' ∉ s) : splitEq s = none := by
  induction s with
  | nil => rfl
  | cons c s ih =>
    rw [List.mem_cons, not_or] at h
    unfold splitEq
    rw [if_neg (Ne.symm h.1), ih h.2]; rfl

theorem splitEq_some {a b : Str} (h : '=' ∉ a) : splitEq (a ++ '=' :: b) = some (a, b) := by
  induction a with
  | nil => unfold splitEq; simp
  | cons c a ih =>
    rw [List.mem_cons, not_or] at h
    rw [List.cons_append]
    unfold splitEq
    rw [if_neg (Ne.symm h.1), ih h.2]; rfl

theorem space_not {w : Str} (h : Space w) (c : Char) (hc : isSpace c = false) : c ∉ w := by
  intro hm; rw [h c hm] at hc; cases hc

theorem head_append {a b : Str} (h : a ≠ []) : (a ++ b).head? = a.head? := by
  cases a with
  | nil => exact absurd rfl h
  | cons c a => rfl

theorem last_append {a b : Str} (h : b ≠ []) : (a ++ b).getLast? = b.getLast? := by
  rw [List.getLast?_append]
  cases hb : b.getLast? with
  | none => exact absurd (List.getLast?_eq_none_iff.1 hb) h
  | some c => rfl

theorem addOpt_given (o : Opts) (g : Given) (hg : g.Ok) : addOpt o g.text = AL.set o g.key g.value := by
  obtain ⟨ne, cl, _, heq, vcl, _, h1, h2, h3, h4⟩ := hg
  have hsp : isSpace '=' = false := by decide
  unfold Given.text Given.value addOpt
  cases hv : g.val with
  | none =>
    dsimp only
    rw [strip_pad _ _ _ h1 h2 cl, if_neg ne, splitEq_none heq]
  | some v =>
    dsimp only
    have vc := vcl v hv
    have hk2 : '=' ∉ g.key ++ g.w2 := by rw [List.mem_append]; rintro (h | h); exact heq h; exact space_not h2 _ hsp h
    have fin : ∀ b b', g.w1 ++ g.key ++ g.w2 ++ '=' :: (g.w3 ++ v ++ g.w4) = g.w1 ++ (g.key ++ g.w2 ++ '=' :: b) ++ b' → Space b' → Clean (g.key ++ g.w2 ++ '=' :: b) → strip b = v →
        (if strip (g.w1 ++ g.key ++ g.w2 ++ '=' :: (g.w3 ++ v ++ g.w4)) = [] then o
          else match splitEq (strip (g.w1 ++ g.key ++ g.w2 ++ '=' :: (g.w3 ++ v ++ g.w4))) with
            | some (k, v) => AL.set o (strip k) (.str (strip v))
            | none => AL.set o (strip (g.w1 ++ g.key ++ g.w2 ++ '=' :: (g.w3 ++ v ++ g.w4))) .flag) = AL.set o g.key (.str v) := by
      intro b b' he hb hc hs
      rw [he, strip_pad _ _ _ h1 hb hc, if_neg (by simp), splitEq_some hk2]
      dsimp only
      have hk := strip_pad [] g.key g.w2 (fun _ h => nomatch h) h2 cl
      rw [List.nil_append] at hk
      rw [hk, hs]
    have hhead : ∀ b, (g.key ++ g.w2 ++ '=' :: b).head? = g.key.head? := by
      intro b; rw [List.append_assoc, head_append ne]
    by_cases hvn : v = []
    · subst hvn
      refine fin [] (g.w3 ++ g.w4) (by simp) (h3.append h4) ⟨by rw [hhead]; exact cl.1, ?_⟩ rfl
      intro c hc
      rw [last_append (by simp)] at hc
      cases hc
      exact hsp
    · refine fin (g.w3 ++ v) g.w4 (by simp) h4 ⟨by rw [hhead]; exact cl.1, ?_⟩ ?_
      · intro c hc
        rw [show g.key ++ g.w2 ++ '=' :: (g.w3 ++ v) = (g.key ++ g.w2 ++ '=' :: g.w3) ++ v by simp, last_append hvn] at hc
        exact vc.2 c hc
      · have := strip_pad g.w3 v [] h3 (fun _ h => nomatch h) vc
        rwa [List.append_nil] at this

theorem fold_given : ∀ (gs : List Given) (o : Opts), (∀ g ∈ gs, g.Ok) → ∀ k, AL.get ((gs.map Given.text).foldl addOpt o) k = (said k gs).or (AL.get o k)
  | [], o, _, k => rfl
  | g :: gs, o, h, k => by
    rw [List.map_cons, List.foldl_cons, addOpt_given o g (h g List.mem_cons_self), fold_given gs _ (fun x hx => h x (List.mem_cons_of_mem _ hx)) k, AL.get_set]
    rw [said]
    by_cases e : g.key = k
    · rw [if_pos e.symm, if_pos e]
      cases said k gs <;> rfl
    · rw [if_neg (Ne.symm e), if_neg e]
      cases said k gs <;> rfl

theorem text_comma (g : Given) (hg : g.Ok) : ',' ∉ g.text := by
  have hsp : isSpace ',' = false := by decide
  have a := space_not hg.w1 _ hsp
  have b := space_not hg.w2 _ hsp
  have c := space_not hg.w3 _ hsp
  have d := space_not hg.w4 _ hsp
  unfold Given.text
  cases hv : g.val with
  | none => simp [a, b, hg.comma]
  | some v => simp [a, b, c, d, hg.comma, hg.vcomma v hv]

theorem get_parse (gs : List Given) (h : ∀ g ∈ gs, g.Ok) (k : Str) : AL.get (parse (line gs)) k = said k gs := by
  cases gs with
  | nil => rfl
  | cons g gs =>
    unfold parse line
    rw [Tools.MountOpts.split_join _ (by simp) (by
      intro o ho
      obtain ⟨x, hx, rfl⟩ := List.mem_map.1 ho
      exact text_comma x (h x hx))]
    rw [fold_given (g :: gs) [] h k]
    cases said k (g :: gs) <;> rfl

theorem said_some {k : Str} : ∀ {gs : List Given}, (said k gs).isSome ↔ ∃ g ∈ gs, g.key = k
  | [] => by simp [said]
  | g :: gs => by
    have ih := said_some (k := k) (gs := gs)
    unfold said
    cases hs : said k gs with
    | some v =>
      rw [hs] at ih
      obtain ⟨x, hx, he⟩ := ih.1 rfl
      simp only [Option.some_or, Option.isSome_some, true_iff]
      exact ⟨x, List.mem_cons_of_mem _ hx, he⟩
    | none =>
      rw [hs] at ih
      have hno : ¬ ∃ x ∈ gs, x.key = k := fun hx => by have := ih.2 hx; cases this
      rw [Option.none_or]
      split
      · rename_i e; simp [e]
      · rename_i e
        simp only [Option.isSome_none, Bool.false_eq_true, false_iff]
        rintro ⟨x, hx, he⟩
        rcases List.mem_cons.1 hx with rfl | hx
        · exact e he
        · exact hno ⟨x, hx, he⟩

/-- The option is mentioned. -/
def Mentioned (x : String) (gs : List Given) : Prop := ∃ g ∈ gs, g.key = x.toList

theorem has_parse (gs : List Given) (h : ∀ g ∈ gs, g.Ok) (x : String) : has (parse (line gs)) x = true ↔ Mentioned x gs := by
  unfold has Mentioned
  rw [get_parse gs h]
  exact said_some

/-! #### Theorems -/

/-- C103: the options are understood: each has the value that its last mention gives it, whatever white space there is around commas and equal signs; values may contain
`=` and inner white space. -/
theorem C103_parse (gs : List Given) (h : ∀ g ∈ gs, g.Ok) (k : Str) : AL.get (parse (line gs)) k = said k gs := get_parse gs h k

/-- C103: options on the command line replace those of the authentication file, and the command goes on exactly if the backend knows all of them. -/
theorem C103_open (svc : Svc) (gs : List Given) (h : ∀ g ∈ gs, g.Ok) (cli : Option Str) (auth : Str) (hc : cli = some (line gs) ∨ (cli = none ∧ auth = line gs)) :
    openOpts svc cli auth = (if ∀ g ∈ gs, ∃ x ∈ known svc, x.toList = g.key then some (parse (line gs)) else none) := by
  have ht : cli.getD auth = line gs := by
    rcases hc with rfl | ⟨rfl, rfl⟩
    · rfl
    · rfl
  unfold openOpts
  rw [ht]
  dsimp only
  have hiff : ((parse (line gs)).all (fun e => (known svc).any (fun x => decide (x.toList = e.1))) = true) ↔ ∀ g ∈ gs, ∃ x ∈ known svc, x.toList = g.key := by
    rw [List.all_eq_true]
    constructor
    · intro hall g hg
      have hs : (AL.get (parse (line gs)) g.key).isSome := by rw [get_parse gs h]; exact said_some.2 ⟨g, hg, rfl⟩
      obtain ⟨v, hv⟩ := Option.isSome_iff_exists.1 hs
      have := hall _ (AL.get_some_mem hv)
      rw [List.any_eq_true] at this
      obtain ⟨x, hx, he⟩ := this
      exact ⟨x, hx, of_decide_eq_true he⟩
    · intro hall e he
      have hs : (AL.get (parse (line gs)) e.1).isSome := by
        cases hg : AL.get (parse (line gs)) e.1 with
        | some v => rfl
        | none => exact absurd (List.mem_map.2 ⟨e, he, rfl⟩) ((AL.get_none_iff _ _).1 hg)
      rw [get_parse gs h] at hs
      obtain ⟨g, hg, hk⟩ := said_some.1 hs
      obtain ⟨x, hx, hxe⟩ := hall g hg
      rw [List.any_eq_true]
      exact ⟨x, hx, decide_eq_true (hxe.trans hk)⟩
  by_cases hp : ∀ g ∈ gs, ∃ x ∈ known svc, x.toList = g.key
  · rw [if_pos hp, if_pos (hiff.2 hp)]
  · rw [if_neg hp, if_neg (fun hq => hp (hiff.1 hq))]

/-- C103: each backend knows the options that the manual describes for it, except for the options for Keystone, which the manual describes for `swift://` too.  The others it
knows are two of the S3 compatible backends, for Backblaze B2. -/
theorem C103_known_partial (svc : Svc) :
    (∀ x ∈ documented svc, x ∈ known svc ∨ (svc = .swift ∧ x ∈ ["domain", "domain-is-name", "project-domain", "project-domain-is-name", "tenant-is-name", "identity-url"])) ∧
    (∀ x ∈ known svc, x ∈ documented svc ∨ (svc = .b2 ∧ x ∈ ["dumb-copy", "disable-expect100"])) := by
  cases svc <;> decide

/-- C103: the storage class.  With one of the options of the manual, new objects get the class that the manual gives; without any of them, they get the standard class. -/
theorem C103_class_partial (gs : List Given) (h : ∀ g ∈ gs, g.Ok) :
    (∀ x c, (x, c) ∈ classes → Mentioned x gs → (∀ y ∈ classes.map (·.1), Mentioned y gs → y = x) → ("x-amz-storage-class", c) ∈ putHeaders (parse (line gs))) ∧
    ((∀ y ∈ classes.map (·.1), ¬ Mentioned y gs) → ("x-amz-storage-class", "STANDARD") ∈ putHeaders (parse (line gs))) ∧
    (("x-amz-server-side-encryption", "AES256") ∈ putHeaders (parse (line gs)) ↔ Mentioned "sse" gs) ∧
    (∀ c c', ("x-amz-storage-class", c) ∈ putHeaders (parse (line gs)) → ("x-amz-storage-class", c') ∈ putHeaders (parse (line gs)) → c = c') := by
  have hh := has_parse gs h
  have hno : ∀ x, ¬ Mentioned x gs → has (parse (line gs)) x = false := fun x hx => by
    cases e : has (parse (line gs)) x with
    | false => rfl
    | true => exact absurd ((hh x).1 e) hx
  have hcls : ∀ c, ("x-amz-storage-class", c) ∈ putHeaders (parse (line gs)) ↔ c = storageClass (parse (line gs)) := by
    intro c
    unfold putHeaders
    split <;> simp
  refine ⟨?_, ?_, ?_, ?_⟩
  · intro x c hx hm hone
    rw [hcls]
    unfold storageClass
    have hx' := (hh x).2 hm
    have other : ∀ y, y ∈ classes.map (·.1) → y ≠ x → has (parse (line gs)) y = false := fun y hy hne => hno y (fun hmy => hne (hone y hy hmy))
    simp only [classes, List.mem_cons, Prod.mk.injEq, List.not_mem_nil, or_false] at hx
    rcases hx with ⟨rfl, rfl⟩ | ⟨rfl, rfl⟩ | ⟨rfl, rfl⟩ | ⟨rfl, rfl⟩
    · rw [other "ia" (by decide) (by decide), other "oia" (by decide) (by decide), other "rrs" (by decide) (by decide), hx']; rfl
    · rw [hx']; rfl
    · rw [other "ia" (by decide) (by decide), hx']; rfl
    · rw [other "ia" (by decide) (by decide), other "oia" (by decide) (by decide), hx']; rfl
  · intro hnone
    rw [hcls]
    unfold storageClass
    rw [hno "ia" (hnone _ (by decide)), hno "oia" (hnone _ (by decide)), hno "rrs" (hnone _ (by decide)), hno "it" (hnone _ (by decide))]
    rfl
  · rw [← hh "sse"]
    unfold putHeaders
    split
    · rename_i e; simp [e]
    · rename_i e; simp [e]
  · intro c c' h1 h2
    rw [hcls] at h1 h2
    rw [h1, h2]

/-- C103, violated: the manual says that `rrs` overwrites `ia`.  It is the other way round. -/
theorem C103_rrs_ignored : putHeaders (parse "ia,rrs".toList) = [("x-amz-storage-class", "STANDARD_IA")] ∧ putHeaders (parse "rrs,ia".toList) = [("x-amz-storage-class", "STANDARD_IA")] := by
  decide +kernel

/-- C103: the timeout is the number given, 20 seconds by default.  Violated for the option without a value: this means one second. -/
theorem C103_timeout (toInt : Str → Option Int) (gs : List Given) (h : ∀ g ∈ gs, g.Ok) :
    timeout toInt (parse (line gs)) = match said "tcp-timeout".toList gs with
      | none => some 20
      | some (.str v) => toInt v
      | some .flag => some 1 := by
  unfold timeout
  rw [get_parse gs h]
  cases said "tcp-timeout".toList gs with
  | none => rfl
  | some v => cases v <;> rfl

/-- C103: `Expect: 100-continue` is sent with the contents of objects and with nothing else, unless `disable-expect100` is given (except in the form `disable-expect100=`,
which does not disable anything). -/
theorem C103_expect (gs : List Given) (h : ∀ g ∈ gs, g.Ok) (fh : Bool) :
    expect100 (parse (line gs)) fh = true ↔ fh = true ∧ (¬ Mentioned "disable-expect100" gs ∨ said "disable-expect100".toList gs = some (.str [])) := by
  unfold expect100 Mentioned
  rw [get_parse gs h, ← said_some]
  cases hs : said "disable-expect100".toList gs with
  | none => simp
  | some v =>
    cases v with
    | flag => simp
    | str v => by_cases hv : v = [] <;> simp [hv]

/-- C103: the region for signatures. -/
theorem C103_region (gs : List Given) (h : ∀ g ∈ gs, g.Ok) :
    (∀ v, said "sig-region".toList gs = some v → sigRegion (parse (line gs)) = v) ∧ (¬ Mentioned "sig-region" gs → sigRegion (parse (line gs)) = .str "us-east-1".toList) := by
  unfold sigRegion Mentioned
  rw [get_parse gs h, ← said_some]
  refine ⟨fun v hv => by rw [hv]; rfl, fun hn => ?_⟩
  cases hs : said "sig-region".toList gs with
  | none => rfl
  | some v => rw [hs] at hn; exact absurd rfl hn

/-- C103: Keystone.  With `domain` and a tenant, the login is of version 3, for the given user domain, tenant and project domain, each as a name or an id as requested, and to the path
given.  Without `domain` it is of version 2. -/
theorem C103_keystone (gs : List Given) (h : ∀ g ∈ gs, g.Ok) (tenant user : Str) (ht : tenant ≠ []) :
    (∀ d path, said "domain".toList gs = some d → d ≠ .str [] →
      (said "identity-url".toList gs = some (.str path) ∨ (¬ Mentioned "identity-url" gs ∧ path = "/v3/auth/tokens".toList)) →
      ∃ a b c e, login (parse (line gs)) (some tenant) user = .v3 (.str path) user (a, d) (b, tenant) (c, e) ∧
        (a = true ↔ Mentioned "domain-is-name" gs) ∧ (b = true ↔ Mentioned "tenant-is-name" gs) ∧
        (c = true ↔ (Mentioned "project-domain-is-name" gs ∨ Mentioned "domain-is-name" gs)) ∧
        (said "project-domain".toList gs = some e ∨ (¬ Mentioned "project-domain" gs ∧ e = d))) ∧
    (¬ Mentioned "domain" gs → login (parse (line gs)) (some tenant) user = .v2 user (some tenant) ∧ login (parse (line gs)) none user = .v2 user none) := by
  have hh := has_parse gs h
  have hf : (some tenant).filter (fun t => decide (t ≠ [])) = some tenant := by simp [ht]
  constructor
  · intro d path hd hne hp
    have htr : d.truthy = true := by
      cases d with
      | flag => rfl
      | str v => exact decide_eq_true (fun hv => hne (by rw [hv]))
    refine ⟨has (parse (line gs)) "domain-is-name", has (parse (line gs)) "tenant-is-name", has (parse (line gs)) "project-domain-is-name" || has (parse (line gs)) "domain-is-name",
      (said "project-domain".toList gs).getD d, ?_, hh _, hh _, by rw [Bool.or_eq_true, hh, hh], ?_⟩
    · unfold login
      rw [get_parse gs h, get_parse gs h, get_parse gs h, hd]
      dsimp only
      rw [if_neg (by rw [htr]; decide), hf]
      dsimp only
      rcases hp with hp | ⟨hp, rfl⟩
      · rw [hp]
      · unfold Mentioned at hp
        rw [← said_some] at hp
        cases hs : said "identity-url".toList gs with
        | none => rfl
        | some v => rw [hs] at hp; exact absurd rfl hp
    · unfold Mentioned
      rw [← said_some]
      cases said "project-domain".toList gs with
      | none => exact Or.inr ⟨by simp, rfl⟩
      | some v => exact Or.inl rfl
  · intro hn
    unfold Mentioned at hn
    rw [← said_some] at hn
    have hd : said "domain".toList gs = none := by
      cases hs : said "domain".toList gs with
      | none => rfl
      | some v => rw [hs] at hn; exact absurd rfl hn
    unfold login
    rw [get_parse gs h, hd]
    dsimp only
    rw [hf]
    exact ⟨rfl, rfl⟩

/-- C103: with `domain` but without a tenant (or with an empty one) nothing is sent: the command ends with an error. -/
theorem C103_tenant (gs : List Given) (h : ∀ g ∈ gs, g.Ok) (d : Val) (hd : said "domain".toList gs = some d) (hne : d ≠ .str []) (tenant : Option Str)
    (ht : tenant = none ∨ tenant = some []) (user : Str) : login (parse (line gs)) tenant user = .tenantMissing := by
  have htr : d.truthy = true := by
    cases d with
    | flag => rfl
    | str v => exact decide_eq_true (fun hv => hne (by rw [hv]))
  unfold login
  rw [get_parse gs h, hd]
  dsimp only
  rw [if_neg (by rw [htr]; decide)]
  rcases ht with rfl | rfl <;> rfl

/-- C103, violated: `tcp-timeout` without a value, the form in which the manual lists it, is accepted; the timeout is then one second instead of the default of 20. -/
theorem C103_bare_timeout (toInt : Str → Option Int) : timeout toInt (parse "tcp-timeout".toList) = some 1 := by
  have : parse "tcp-timeout".toList = [("tcp-timeout".toList, .flag)] := by decide +kernel
  rw [this]; rfl

/-- Options that meet the hypotheses of the theorems. -/
def sample : List Given :=
  [{ key := "domain".toList, val := some "a=b c".toList, w1 := [' '], w2 := ['\t'], w3 := [' '], w4 := [' '] }, { key := "tcp-timeout".toList, val := some "5".toList },
    { key := "tenant-is-name".toList, val := none, w2 := [' '] }, { key := "tcp-timeout".toList, val := some "30".toList }, { key := "identity-url".toList, val := some [] }]

instance (s : Str) : Decidable (Clean s) :=
  decidable_of_iff ((s.head?.all (fun c => !isSpace c) && s.getLast?.all (fun c => !isSpace c)) = true) (by
    unfold Clean
    cases s.head? <;> cases s.getLast? <;> simp)

instance (w : Str) : Decidable (Space w) := by unfold Space; infer_instance

theorem sample_ok : ∀ g ∈ sample, g.Ok := by
  intro g hg
  simp only [sample, List.mem_cons, List.not_mem_nil, or_false] at hg
  rcases hg with rfl | rfl | rfl | rfl | rfl
  · exact ⟨by decide, by decide, by decide, by decide, fun v hv => by cases hv; decide, fun v hv => by cases hv; decide, by decide, by decide, by decide, by decide⟩
  · exact ⟨by decide, by decide, by decide, by decide, fun v hv => by cases hv; decide, fun v hv => by cases hv; decide, by decide, by decide, by decide, by decide⟩
  · exact ⟨by decide, by decide, by decide, by decide, (fun _ hv => nomatch hv), (fun _ hv => nomatch hv), by decide, by decide, by decide, by decide⟩
  · exact ⟨by decide, by decide, by decide, by decide, fun v hv => by cases hv; decide, fun v hv => by cases hv; decide, by decide, by decide, by decide, by decide⟩
  · exact ⟨by decide, by decide, by decide, by decide, fun v hv => by cases hv; decide, fun v hv => by cases hv; decide, by decide, by decide, by decide, by decide⟩

/-- Beside the theorems: the text, what is said, and that the backend for Keystone accepts it while that for legacy authentication does not. -/
example : line sample = " domain\t= a=b c ,tcp-timeout=5,tenant-is-name ,tcp-timeout=30,identity-url=".toList ∧ said "tcp-timeout".toList sample = some (.str "30".toList) ∧
    said "domain".toList sample = some (.str "a=b c".toList) ∧ (openOpts .swiftks (some (line sample)) "no-ssl".toList).isSome ∧ openOpts .swift none (line sample) = none := by
  decide +kernel

end Verif.Backend.Options
