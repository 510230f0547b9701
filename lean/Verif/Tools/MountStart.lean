import Verif.Tools.MountOpts
import Verif.Cache.Evict
import Verif.Meta.Proto
/-
C100: what exit status a failed start of mount.s3ql has.

Modelled: `main` and `mount` up to the upload of the parameters (mount.py:226-366, 443-449), `setup_logging` and `excepthook` as far as they decide about exceptions
(logging.py:104-131, 150-208, 233-254), `Authinfo.from_file` and `init_cachedir` (their results), `open_raw_backend` and `open_backend` (backends/__init__.py:41-171), the
requests that the backends send when they are created (s3.py:64-141, s3c.py:131-159, s3c4.py:63-84, b2ng.py:65-127, swift.py:94-116, 264-277, 366-384, swiftks.py:181-185,
gs.py:196-215, 285-302, 663-674, local.py:72-73), `get_metadata` (mount.py:577-614) and `FsAttributes.deserialize` (database.py:123-147).

Not modelled: temporary errors (they are retried, C33), damaged objects apart from the passphrase, what happens after the process is in the background (its exit status is
that of the parent, 0), `--systemd`, the interactive questions for credentials.
-/
namespace Verif.Tools.MountStart
open Verif.Meta (Params)

/-! #### Model -/

/-- Which backend the storage URL selects (backends/__init__.py:27-38); `s3c` includes s3c4, `swift` includes swiftks and rackspace. -/
inductive Kind where
  | «local»
  | s3
  | s3c
  | b2
  | swift
  | gs
deriving DecidableEq, Repr

/-- What a Python exception is, as far as it matters. -/
inductive Exc where
  | quiet (code : Nat)
  /-- `typer.BadParameter` -/
  | usage
  | authentication
  | authorization
  | hostname
  | dangling
  /-- an exception of any other class -/
  | other
deriving DecidableEq, Repr

/-- The storage service, and the account that is used. -/
structure Service where
  kind : Kind
  /-- the name of the server is known -/
  resolves : Bool
  /-- the login and password are right -/
  authentic : Bool
  /-- the account may use the bucket -/
  permitted : Bool
  /-- the bucket, container or directory exists -/
  present : Bool
  /-- the bucket is in the region in the storage URL (Amazon S3 only) -/
  region : Bool

/-- The passphrase object. -/
inductive Pass where
  /-- no such object: not encrypted -/
  | absent
  /-- not in a format that S3QL understands -/
  | unreadable
  /-- encrypted; whether the passphrase opens it -/
  | present (right : Bool)
deriving DecidableEq, Repr

inductive Auth where
  | fine
  | insecure
  | invalid
deriving DecidableEq, Repr

/-- Everything that the start depends on. -/
structure Env where
  args : List MountOpts.Tok
  /-- the log file cannot be written -/
  logDenied : Bool
  allowOther : Bool
  allowRoot : Bool
  /-- there is a log target, or the process stays in the foreground -/
  logs : Bool
  mountpoint : Bool
  /-- in /proc/mounts -/
  mountedHere : Bool
  auth : Auth
  /-- `--compress` can be parsed -/
  compress : Bool
  /-- the cache directory exists or can be created, and is accessible -/
  cachedir : Bool
  hard : Option Nat
  conns : Nat
  entries : Option Int
  /-- all the backend options are known -/
  options : Bool
  /-- the proxy settings can be parsed -/
  proxy : Bool
  svc : Service
  pass : Pass
  /-- there is an object `s3ql_metadata` (of an old version) -/
  oldMetadata : Bool
  /-- revision and parameters in the backend -/
  remote : Option (Nat × Params)
  /-- revision and parameters in the cache directory -/
  cached : Option (Nat × Params)
  /-- `CURRENT_FS_REV` -/
  current : Nat
  /-- FUSE accepts the mount point -/
  fuse : Bool
  /-- trio nurseries wrap exceptions in groups (the default since trio 0.25; pyproject.toml asks for 0.15 or later, and nothing in the source selects it) -/
  strict : Bool

/-- A request that needs the bucket, with a response that explains errors.  Assumed about the services: the login is checked first, then the permission, then the bucket.
Amazon S3 and compatible ones: `InvalidAccessKeyId`, `SignatureDoesNotMatch`, `AccessDenied`, `NoSuchBucket` (s3c.py:865-917).  Swift: status 401 of the login is
`AuthorizationError` (swift.py:378-379, swiftks.py:181-182), status 403 is `HTTPError` (swift.py:270-277).  Google: gs.py:294-300, 663-674. -/
def get (s : Service) : Option Exc :=
  match s.kind with
  | .«local» => if s.present then none else some .dangling
  | .swift =>
    if !s.resolves then some .hostname
    else if !s.authentic then some .authorization
    else if !s.permitted then some .other
    else if !s.present then some .dangling
    else none
  | _ =>
    if !s.resolves then some .hostname
    else if !s.authentic then some .authentication
    else if !s.permitted then some .authorization
    else if !s.present then some .dangling
    else none

/-- `AsyncBackend.create` of the backends. -/
def create (s : Service) : Option Exc :=
  match s.kind with
  | .s3 =>
    -- `_discover_region`: the response to HEAD has no body, so every error is `HTTPError` (s3.py:112-121, s3c.py:527-528)
    if !s.resolves then some .hostname
    else if !(s.authentic && s.permitted && s.present) then some .other
    else if !s.region then some (.quiet 2)
    else get s
  | .b2 =>
    -- `_discover_region` only asks the login service (b2ng.py:117-127)
    if !s.resolves then some .hostname
    else if !s.authentic then some .authentication
    else none
  | _ => get s

/-- `open_raw_backend` (backends/__init__.py:65-102).  The proxy settings are parsed in the constructors of all backends but the local one. -/
def openRaw (e : Env) : Option Exc :=
  if !e.options then some (.quiet 3)
  else if e.svc.kind ≠ .«local» ∧ e.proxy = false then some (.quiet 13)
  else
    match create e.svc with
    | some .authentication => some (.quiet 14)
    | some .authorization => some (.quiet 15)
    | some .hostname => some (.quiet 19)
    | some .dangling => some (.quiet 16)
    | x => x

/-- `open_backend` (backends/__init__.py:123-171). -/
def openBackend (e : Env) : Option Exc :=
  match openRaw e with
  | some x => some x
  | none =>
    match get e.svc with
    | some x => some x
    | none =>
      match e.pass with
      | .unreadable => some (.quiet 32)
      | .present true => none
      | .present false => some (.quiet 17)
      | .absent => if e.remote.isSome || e.oldMetadata then none else some (.quiet 18)

/-- `FsAttributes.deserialize` (database.py:137-147). -/
def revision (current rev : Nat) : Option Exc := if rev < current then some (.quiet 32) else if current < rev then some (.quiet 33) else none

/-- `read_cached_params` (database.py:1297-1312): with the check of the revision after that of the sequence number. -/
def readCached (current : Nat) (l : Option (Nat × Params)) (minSeq : Nat) : Except Exc (Option Params) :=
  match l with
  | none => .ok none
  | some (rev, p) => if p.seq < minSeq then .ok none else match revision current rev with
    | some x => .error x
    | none => .ok (some p)

/-- `get_metadata` (mount.py:582-614). -/
def getMetadata (e : Env) : Except Exc Params :=
  match e.remote with
  | none => .error (.quiet 32)
  | some (rev, r) =>
    match revision e.current rev with
    | some x => .error x
    | none =>
      match readCached e.current e.cached r.seq with
      | .error x => .error x
      | .ok l =>
        match Meta.mountCheck (some r) l with
        | .runFsck => .error (.quiet 30)
        | .mountedElsewhere => .error (.quiet 31)
        | .assertion => .error .other
        | .noParams => .error (.quiet 32)
        | .cached => .ok r
        | .download => .ok r

/-- The tests of `mount` before the backend is used (mount.py:236-266). -/
def checks (e : Env) : Option Exc :=
  if e.allowOther && e.allowRoot then some .usage
  else if !e.logs then some .usage
  else if !e.mountpoint then some (.quiet 36)
  else if e.mountedHere then some (.quiet 40)
  else if e.auth = .insecure then some (.quiet 12)
  else if e.auth = .invalid then some (.quiet 2)
  else if !e.compress then some .usage
  else if !e.cachedir then some (.quiet 45)
  else if Cache.Evict.maxEntries e.hard e.conns e.entries = none then some (.quiet 37)
  else none

/-- The rest of `mount`, up to the upload of the parameters; FUSE is asked inside a nursery (mount.py:268-366). -/
def rest (e : Env) : Except Exc Params :=
  match openBackend e with
  | some x => .error x
  | none =>
    match getMetadata e with
    | .error x => .error x
    | .ok p =>
      if !e.fuse then .error (if e.strict then .other else .quiet 39)
      else .ok { p with seq := p.seq + 1, mounted := true }

/-- `mount` after `setup_logging` (mount.py:236-366). -/
def mount (e : Env) : Except Exc Params :=
  match checks e with
  | some x => .error x
  | none => rest e

inductive Result where
  | exit (status : Nat)
  /-- mounted; these parameters are uploaded -/
  | mounted (p : Params)
deriving DecidableEq, Repr

/-- Python's own `sys.excepthook` (which is also what typer's hook calls, as pretty exceptions are disabled): a traceback and status 1. -/
def defaultHook (_ : Exc) : Nat := 1

/-- `excepthook` (logging.py:245-252); `typer.BadParameter` is handled by click and ends with status 2. -/
def hook : Exc → Nat
  | .quiet n => n
  | .usage => 2
  | _ => 1

/-- `main` (mount.py:443-449).  The arguments are expanded before typer is called, and `setup_logging` creates the log file before it installs the hook
(logging.py:173-190). -/
def main (e : Env) : Result :=
  match MountOpts.expand e.args with
  | .error .readOnly => .exit (defaultHook (.quiet 35))
  | .error _ => .exit (defaultHook .other)
  | .ok _ =>
    if e.logDenied then .exit (defaultHook (.quiet 10))
    else
      match mount e with
      | .error x => .exit (hook x)
      | .ok p => .mounted p

/-! #### Specification: the table of exit statuses in the manual (rst/man/mount.rst, rst/include/exitcodes.rst) -/

/-- What is wrong if mount.s3ql ends with the status. -/
def Wrong (e : Env) : Nat → Prop
  | 2 => (e.allowOther = true ∧ e.allowRoot = true) ∨ e.logs = false ∨ e.auth = .invalid ∨ e.compress = false ∨ (e.svc.kind = .s3 ∧ e.svc.region = false) ∨
      ∃ x, x ≠ MountOpts.Err.readOnly ∧ MountOpts.expand e.args = .error x
  | 3 => e.options = false
  | 10 => e.logDenied = true
  | 12 => e.auth = .insecure
  | 13 => e.svc.kind ≠ .«local» ∧ e.proxy = false
  | 14 => e.svc.kind ≠ .«local» ∧ e.svc.authentic = false
  | 15 => e.svc.kind ≠ .«local» ∧ e.svc.permitted = false
  | 16 => e.svc.present = false
  | 17 => e.pass = .present false
  | 18 => e.pass = .absent ∧ e.remote = none ∧ e.oldMetadata = false
  | 19 => e.svc.kind ≠ .«local» ∧ e.svc.resolves = false
  | 30 => ∃ rev r, e.remote = some (rev, r) ∧ (r.needsFsck = true ∨ ∃ lr l, e.cached = some (lr, l) ∧ r.seq < l.seq)
  | 31 => e.mountedHere = true ∨ ∃ rev r, e.remote = some (rev, r) ∧ r.mounted = true
  | 32 => e.pass = .unreadable ∨ (e.remote = none ∧ (e.oldMetadata = true ∨ e.pass ≠ .absent)) ∨ (∃ rev r, e.remote = some (rev, r) ∧ (rev < e.current ∨
      ∃ lr l, e.cached = some (lr, l) ∧ r.seq ≤ l.seq ∧ lr < e.current))
  | 33 => ∃ rev r, e.remote = some (rev, r) ∧ (e.current < rev ∨ ∃ lr l, e.cached = some (lr, l) ∧ r.seq ≤ l.seq ∧ e.current < lr)
  | 35 => MountOpts.expand e.args = .error .readOnly
  | 36 => e.mountpoint = false
  | 37 => Cache.Evict.maxEntries e.hard e.conns e.entries = none
  | 39 => e.fuse = false
  | 45 => e.cachedir = false
  | _ => False

/-- The local parameters with the sequence number of those in the backend are the same (see C89: they are written together). -/
def Agree (e : Env) : Prop := ∀ (rev : Nat) (r : Params) (lr : Nat) (l : Params), e.remote = some (rev, r) → e.cached = some (lr, l) → l.seq = r.seq → l = r

/-- None of the situations in which the status does not tell what is wrong. -/
structure Tells (e : Env) : Prop where
  args : ∃ a, MountOpts.expand e.args = .ok a
  log : e.logDenied = false
  here : e.mountedHere = false
  s3 : e.svc.kind = .s3 → (e.svc.authentic && e.svc.permitted && e.svc.present) = true
  b2 : e.svc.kind = .b2 → (e.svc.permitted && e.svc.present) = true
  swift : e.svc.kind = .swift → (e.svc.authentic && e.svc.permitted) = true
  fuse : e.fuse = true ∨ e.strict = false

/-! #### Proof -/

/-- Some exception that the status does not tell about. -/
def Untold (e : Env) (x : Exc) : Prop := ¬ Tells e ∧ (hook x = 1 ∨ hook x = 40 ∨ (hook x = 15 ∧ e.svc.kind = .swift))

theorem get_some {s : Service} {x : Exc} (h : get s = some x) :
    (x = .hostname ∧ s.kind ≠ .«local» ∧ s.resolves = false) ∨ (x = .authentication ∧ s.kind ≠ .«local» ∧ s.authentic = false) ∨
    (x = .authorization ∧ s.kind ≠ .«local» ∧ s.permitted = false) ∨ (x = .dangling ∧ s.present = false) ∨
    (x = .authorization ∧ s.kind = .swift ∧ s.authentic = false) ∨ (x = .other ∧ s.kind = .swift ∧ s.permitted = false) := by
  revert h
  obtain ⟨k, r, a, p, b, g⟩ := s
  cases k <;> cases r <;> cases a <;> cases p <;> cases b <;> simp [get] <;> intro h <;> subst h <;> simp

theorem get_none {s : Service} (h : get s = none) : s.present = true ∧ (s.kind ≠ .«local» → s.resolves = true ∧ s.authentic = true ∧ s.permitted = true) := by
  revert h
  obtain ⟨k, r, a, p, b, g⟩ := s
  cases k <;> cases r <;> cases a <;> cases p <;> cases b <;> simp [get]

theorem get_of {s : Service} (h1 : s.present = true) (h2 : s.kind ≠ .«local» → s.resolves = true ∧ s.authentic = true ∧ s.permitted = true) : get s = none := by
  revert h1 h2
  obtain ⟨k, r, a, p, b, g⟩ := s
  cases k <;> cases r <;> cases a <;> cases p <;> cases b <;> simp [get]

theorem create_some {s : Service} {x : Exc} (h : create s = some x) :
    get s = some x ∨ (x = .hostname ∧ s.kind ≠ .«local» ∧ s.resolves = false) ∨ (x = .authentication ∧ s.kind ≠ .«local» ∧ s.authentic = false) ∨
    (x = .other ∧ s.kind = .s3 ∧ (s.authentic && s.permitted && s.present) = false) ∨ (x = .quiet 2 ∧ s.kind = .s3 ∧ s.region = false) := by
  revert h
  obtain ⟨k, r, a, p, b, g⟩ := s
  cases k <;> cases r <;> cases a <;> cases p <;> cases b <;> cases g <;> simp [create, get] <;> intro h <;> subst h <;> simp

theorem create_none {s : Service} (h : create s = none) : s.kind = .s3 → s.region = true := by
  revert h
  obtain ⟨k, r, a, p, b, g⟩ := s
  cases k <;> cases r <;> cases a <;> cases p <;> cases b <;> cases g <;> simp [create, get]

theorem create_of {s : Service} (h : get s = none) (h3 : s.kind = .s3 → s.region = true) : create s = none := by
  revert h h3
  obtain ⟨k, r, a, p, b, g⟩ := s
  cases k <;> cases r <;> cases a <;> cases p <;> cases b <;> cases g <;> simp [create, get]

theorem create_other {s : Service} (h : create s = none) (hk : s.kind ≠ .b2) : get s = none := by
  revert h hk
  obtain ⟨k, r, a, p, b, g⟩ := s
  cases k <;> cases r <;> cases a <;> cases p <;> cases b <;> cases g <;> simp [create, get]

/-- The statuses that `open_raw_backend` assigns. -/
def mapped : Exc → Exc
  | .authentication => .quiet 14
  | .authorization => .quiet 15
  | .hostname => .quiet 19
  | .dangling => .quiet 16
  | x => x

theorem raw_some {e : Env} {x : Exc} (h : openRaw e = some x) :
    (x = .quiet 3 ∧ e.options = false) ∨ (x = .quiet 13 ∧ e.svc.kind ≠ .«local» ∧ e.proxy = false) ∨ ∃ y, create e.svc = some y ∧ x = mapped y := by
  unfold openRaw at h
  split at h
  · rename_i ho; cases h; exact .inl ⟨rfl, by simpa using ho⟩
  · split at h
    · rename_i hp; cases h; exact .inr (.inl ⟨rfl, hp⟩)
    · refine .inr (.inr ?_)
      cases hc : create e.svc with
      | none => rw [hc] at h; cases h
      | some y => rw [hc] at h; refine ⟨y, rfl, ?_⟩; cases y <;> exact (Option.some.inj h).symm

theorem raw_none {e : Env} : openRaw e = none ↔ e.options = true ∧ (e.svc.kind ≠ .«local» → e.proxy = true) ∧ create e.svc = none := by
  constructor
  · intro h
    unfold openRaw at h
    split at h
    · cases h
    · rename_i ho
      split at h
      · cases h
      · rename_i hp
        refine ⟨by simpa using ho, fun hk => ?_, ?_⟩
        · cases hq : e.proxy
          · exact absurd ⟨hk, hq⟩ hp
          · rfl
        · cases hc : create e.svc with
          | none => rfl
          | some y => rw [hc] at h; cases y <;> cases h
  · rintro ⟨h1, h2, h3⟩
    unfold openRaw
    rw [if_neg (by simp [h1]), if_neg (fun h => by rw [h2 h.1] at h; cases h.2), h3]

theorem mapped_told {e : Env} {y : Exc} (h : create e.svc = some y) : Wrong e (hook (mapped y)) ∨ Untold e (mapped y) := by
  have hs : ∀ b : Bool, e.svc.kind = .swift → e.svc.authentic = false ∨ e.svc.permitted = false → ¬ Tells e := by
    intro _ hk hb t
    have := t.swift hk
    rcases hb with hb | hb <;> rw [hb] at this <;> simp at this
  rcases create_some h with h | ⟨rfl, h1, h2⟩ | ⟨rfl, h1, h2⟩ | ⟨rfl, h1, h2⟩ | ⟨rfl, h1, h2⟩
  · rcases get_some h with ⟨rfl, h1, h2⟩ | ⟨rfl, h1, h2⟩ | ⟨rfl, h1, h2⟩ | ⟨rfl, h1⟩ | ⟨rfl, h1, h2⟩ | ⟨rfl, h1, h2⟩
    · exact .inl ⟨h1, h2⟩
    · exact .inl ⟨h1, h2⟩
    · exact .inl ⟨h1, h2⟩
    · exact .inl h1
    · exact .inr ⟨hs true h1 (.inl h2), .inr (.inr ⟨rfl, h1⟩)⟩
    · exact .inr ⟨hs true h1 (.inr h2), .inl rfl⟩
  · exact .inl ⟨h1, h2⟩
  · exact .inl ⟨h1, h2⟩
  · exact .inr ⟨(fun t => by rw [t.s3 h1] at h2; cases h2), .inl rfl⟩
  · exact .inl (.inr (.inr (.inr (.inr (.inl ⟨h1, h2⟩)))))

theorem open_told {e : Env} {x : Exc} (h : openBackend e = some x) : Wrong e (hook x) ∨ Untold e x := by
  unfold openBackend at h
  cases hr : openRaw e with
  | some y =>
    rw [hr] at h
    cases h
    rcases raw_some hr with ⟨rfl, h⟩ | ⟨rfl, h⟩ | ⟨y, hc, rfl⟩
    · exact .inl h
    · exact .inl h
    · exact mapped_told hc
  | none =>
    rw [hr] at h
    have hc := (raw_none.mp hr).2.2
    cases hg : get e.svc with
    | some y =>
      simp only [hg] at h
      cases h
      have hk : e.svc.kind = .b2 := by
        apply Classical.byContradiction
        intro hk
        rw [create_other hc hk] at hg
        cases hg
      have hn : e.svc.permitted = false ∨ e.svc.present = false → ¬ Tells e := fun hb t => by
        have := t.b2 hk
        rcases hb with hb | hb <;> rw [hb] at this <;> simp at this
      have hl : e.svc.kind ≠ .swift := by rw [hk]; decide
      have ha : e.svc.resolves = true ∧ e.svc.authentic = true := by
        revert hc hk
        obtain ⟨k, r, a, p, b, g⟩ := e.svc
        cases k <;> cases r <;> cases a <;> simp [create]
      rcases get_some hg with ⟨rfl, h1, h2⟩ | ⟨rfl, h1, h2⟩ | ⟨rfl, h1, h2⟩ | ⟨rfl, h1⟩ | ⟨rfl, h1, h2⟩ | ⟨rfl, h1, h2⟩
      · rw [ha.1] at h2; cases h2
      · rw [ha.2] at h2; cases h2
      · exact .inr ⟨hn (.inl h2), .inl rfl⟩
      · exact .inr ⟨hn (.inr h1), .inl rfl⟩
      · exact absurd h1 hl
      · exact absurd h1 hl
    | none =>
      simp only [hg] at h
      left
      cases hp : e.pass with
      | unreadable => rw [hp] at h; cases h; exact .inl hp
      | present b =>
        rw [hp] at h
        cases b
        · cases h; exact hp
        · cases h
      | absent =>
        rw [hp] at h
        cases hm : e.remote with
        | some r => rw [hm] at h; cases h
        | none =>
          rw [hm] at h
          cases ho : e.oldMetadata with
          | true => rw [ho] at h; cases h
          | false => rw [ho] at h; cases h; exact ⟨hp, hm, ho⟩

theorem open_none {e : Env} : openBackend e = none ↔ openRaw e = none ∧ get e.svc = none ∧ (e.pass = .present true ∨ (e.pass = .absent ∧ (e.remote ≠ none ∨ e.oldMetadata = true))) := by
  unfold openBackend
  cases hr : openRaw e with
  | some y => simp
  | none =>
    cases hg : get e.svc with
    | some y => simp
    | none =>
      cases hp : e.pass with
      | unreadable => simp
      | present b => cases b <;> simp
      | absent => cases hm : e.remote <;> cases ho : e.oldMetadata <;> simp

theorem revision_none {c r : Nat} : revision c r = none ↔ r = c := by
  unfold revision
  split
  · rename_i h; simp; omega
  · split
    · rename_i h; simp; omega
    · simp; omega

theorem revision_some {c r : Nat} {x : Exc} (h : revision c r = some x) : (x = .quiet 32 ∧ r < c) ∨ (x = .quiet 33 ∧ c < r) := by
  unfold revision at h
  split at h
  · rename_i hl; cases h; exact .inl ⟨rfl, hl⟩
  · split at h
    · rename_i hl; cases h; exact .inr ⟨rfl, hl⟩
    · cases h

theorem cached_error {c m : Nat} {l : Option (Nat × Params)} {x : Exc} (h : readCached c l m = .error x) :
    ∃ lr p, l = some (lr, p) ∧ m ≤ p.seq ∧ ((x = .quiet 32 ∧ lr < c) ∨ (x = .quiet 33 ∧ c < lr)) := by
  match l, h with
  | some (lr, p), h =>
    unfold readCached at h
    dsimp only at h
    by_cases hs : p.seq < m
    · rw [if_pos hs] at h; cases h
    · rw [if_neg hs] at h
      cases hr : revision c lr with
      | some y => rw [hr] at h; cases h; exact ⟨lr, p, rfl, by omega, revision_some hr⟩
      | none => rw [hr] at h; cases h

theorem cached_ok {c m : Nat} {l : Option (Nat × Params)} {o : Option Params} (h : readCached c l m = .ok o) :
    (o = none ∧ ∀ lr p, l = some (lr, p) → p.seq < m) ∨ (∃ p, o = some p ∧ l = some (c, p) ∧ m ≤ p.seq) := by
  match l, h with
  | none, h => cases h; exact .inl ⟨rfl, fun _ _ h => nomatch h⟩
  | some (lr, p), h =>
    unfold readCached at h
    dsimp only at h
    by_cases hs : p.seq < m
    · rw [if_pos hs] at h; cases h; exact .inl ⟨rfl, fun _ _ h => by cases h; exact hs⟩
    · rw [if_neg hs] at h
      cases hr : revision c lr with
      | some y => rw [hr] at h; cases h
      | none => rw [hr] at h; cases h; rw [revision_none.mp hr]; exact .inr ⟨p, rfl, rfl, by omega⟩

theorem check_none (r : Params) : Meta.mountCheck (some r) none = if r.mounted then .mountedElsewhere else if r.needsFsck then .runFsck else .download := rfl

theorem check_some {r p : Params} (h : r.seq ≤ p.seq) : Meta.mountCheck (some r) (some p) =
    if p.seq > r.seq then .runFsck else if p ≠ r then .assertion else if r.mounted then .mountedElsewhere else if r.needsFsck then .runFsck else .cached := by
  unfold Meta.mountCheck Meta.readCached
  simp only [if_neg (Nat.not_lt.mpr h)]

theorem meta_error {e : Env} {x : Exc} (hp : e.remote = none → e.oldMetadata = true ∨ e.pass ≠ .absent) (h : getMetadata e = .error x) :
    Wrong e (hook x) ∨ (¬ Agree e ∧ x = .other) := by
  unfold getMetadata at h
  match hm : e.remote with
  | none => rw [hm] at h; cases h; exact .inl (.inr (.inl ⟨hm, hp hm⟩))
  | some (rev, r) =>
    simp only [hm] at h
    cases hr : revision e.current rev with
    | some y =>
      rw [hr] at h
      cases h
      rcases revision_some hr with ⟨rfl, hl⟩ | ⟨rfl, hl⟩
      · exact .inl (.inr (.inr ⟨rev, r, hm, .inl hl⟩))
      · exact .inl ⟨rev, r, hm, .inl hl⟩
    | none =>
      simp only [hr] at h
      cases hc : readCached e.current e.cached r.seq with
      | error y =>
        rw [hc] at h
        cases h
        obtain ⟨lr, p, h1, h2, ⟨rfl, h3⟩ | ⟨rfl, h3⟩⟩ := cached_error hc
        · exact .inl (.inr (.inr ⟨rev, r, hm, .inr ⟨lr, p, h1, h2, h3⟩⟩))
        · exact .inl ⟨rev, r, hm, .inr ⟨lr, p, h1, h2, h3⟩⟩
      | ok o =>
        simp only [hc] at h
        have h30 : r.needsFsck = true → Wrong e 30 := fun hn => ⟨rev, r, hm, .inl hn⟩
        have h31 : r.mounted = true → Wrong e 31 := fun hn => .inr ⟨rev, r, hm, hn⟩
        rcases cached_ok hc with ⟨rfl, h1⟩ | ⟨p, rfl, h1, h2⟩
        · rw [check_none] at h
          split at h
          · rename_i hx
            split at hx
            · cases hx
            · split at hx
              · rename_i hn; cases h; exact .inl (h30 hn)
              · cases hx
          · rename_i hx
            split at hx
            · rename_i hn; cases h; exact .inl (h31 hn)
            · split at hx <;> cases hx
          · rename_i hx
            split at hx
            · cases hx
            · split at hx <;> cases hx
          · rename_i hx
            split at hx
            · cases hx
            · split at hx <;> cases hx
          · cases h
          · cases h
        · rw [check_some h2] at h
          by_cases hs : p.seq > r.seq
          · rw [if_pos hs] at h
            cases h
            exact .inl ⟨rev, r, hm, .inr ⟨_, p, h1, hs⟩⟩
          · rw [if_neg hs] at h
            by_cases hne : p ≠ r
            · rw [if_pos hne] at h
              cases h
              exact .inr ⟨fun ha => hne (ha rev r _ p hm h1 (by omega)), rfl⟩
            · rw [if_neg hne] at h
              cases hmt : r.mounted with
              | true => rw [hmt] at h; cases h; exact .inl (h31 hmt)
              | false =>
                cases hn : r.needsFsck with
                | true => rw [hmt, hn] at h; cases h; exact .inl (h30 hn)
                | false => rw [hmt, hn] at h; cases h

theorem meta_ok {e : Env} {q : Params} (h : getMetadata e = .ok q) :
    e.remote = some (e.current, q) ∧ q.mounted = false ∧ q.needsFsck = false ∧ ∀ lr p, e.cached = some (lr, p) → p.seq < q.seq ∨ (p.seq = q.seq ∧ lr = e.current) := by
  unfold getMetadata at h
  match hm : e.remote with
  | none => rw [hm] at h; cases h
  | some (rev, r) =>
    simp only [hm] at h
    cases hr : revision e.current rev with
    | some y => rw [hr] at h; cases h
    | none =>
      simp only [hr] at h
      have hrev := revision_none.mp hr
      cases hc : readCached e.current e.cached r.seq with
      | error y => rw [hc] at h; cases h
      | ok o =>
        simp only [hc] at h
        rcases cached_ok hc with ⟨rfl, h1⟩ | ⟨p, rfl, h1, h2⟩
        · rw [check_none] at h
          cases hmt : r.mounted with
          | true => rw [hmt] at h; cases h
          | false =>
            cases hn : r.needsFsck with
            | true => rw [hmt, hn] at h; cases h
            | false => rw [hmt, hn] at h; cases h; exact ⟨by rw [hrev], hmt, hn, fun lr p hp => .inl (h1 lr p hp)⟩
        · rw [check_some h2] at h
          by_cases hs : p.seq > r.seq
          · rw [if_pos hs] at h; cases h
          · rw [if_neg hs] at h
            by_cases hne : p ≠ r
            · rw [if_pos hne] at h; cases h
            · rw [if_neg hne] at h
              cases hmt : r.mounted with
              | true => rw [hmt] at h; cases h
              | false =>
                cases hn : r.needsFsck with
                | true => rw [hmt, hn] at h; cases h
                | false =>
                  rw [hmt, hn] at h; cases h
                  exact ⟨by rw [hrev], hmt, hn, fun lr p' hp => by rw [h1] at hp; cases hp; exact .inr ⟨by omega, rfl⟩⟩

theorem checks_some {e : Env} {x : Exc} (h : checks e = some x) : (Wrong e (hook x) ∨ Untold e x) ∧ x ∈ [.usage, .quiet 36, .quiet 40, .quiet 12, .quiet 2, .quiet 45, .quiet 37] := by
  unfold checks at h
  split at h
  · rename_i hc; cases h; exact ⟨.inl (.inl (by simpa using hc)), by decide⟩
  split at h
  · rename_i hc; cases h; exact ⟨.inl (.inr (.inl (by simpa using hc))), by decide⟩
  split at h
  · rename_i hc; cases h; exact ⟨.inl (by simpa using hc : e.mountpoint = false), by decide⟩
  split at h
  · rename_i hc; cases h; exact ⟨.inr ⟨(fun t => by rw [t.here] at hc; cases hc), .inr (.inl rfl)⟩, by decide⟩
  split at h
  · rename_i hc; cases h; exact ⟨.inl hc, by decide⟩
  split at h
  · rename_i hc; cases h; exact ⟨.inl (.inr (.inr (.inl hc))), by decide⟩
  split at h
  · rename_i hc; cases h; exact ⟨.inl (.inr (.inr (.inr (.inl (by simpa using hc))))), by decide⟩
  split at h
  · rename_i hc; cases h; exact ⟨.inl (by simpa using hc : e.cachedir = false), by decide⟩
  split at h
  · rename_i hc; cases h; exact ⟨.inl hc, by decide⟩
  · cases h

theorem checks_none {e : Env} (h : checks e = none) : ¬ (e.allowOther = true ∧ e.allowRoot = true) ∧ e.logs = true ∧ e.mountpoint = true ∧ e.mountedHere = false ∧
    e.auth ≠ .insecure ∧ e.auth ≠ .invalid ∧ e.compress = true ∧ e.cachedir = true ∧ Cache.Evict.maxEntries e.hard e.conns e.entries ≠ none := by
  unfold checks at h
  split at h
  · cases h
  rename_i c1
  split at h
  · cases h
  rename_i c2
  split at h
  · cases h
  rename_i c3
  split at h
  · cases h
  rename_i c4
  split at h
  · cases h
  rename_i c5
  split at h
  · cases h
  rename_i c6
  split at h
  · cases h
  rename_i c7
  split at h
  · cases h
  rename_i c8
  split at h
  · cases h
  rename_i c9
  exact ⟨by simpa using c1, by simpa using c2, by simpa using c3, by simpa using c4, c5, c6, by simpa using c7, by simpa using c8, c9⟩

theorem rest_error {e : Env} {x : Exc} (h : rest e = .error x) : Wrong e (hook x) ∨ Untold e x ∨ (¬ Agree e ∧ x = .other) := by
  unfold rest at h
  cases ho : openBackend e with
  | some y =>
    rw [ho] at h; cases h
    rcases open_told ho with h | h
    · exact .inl h
    · exact .inr (.inl h)
  | none =>
    simp only [ho] at h
    obtain ⟨_, _, hp⟩ := open_none.mp ho
    cases hm : getMetadata e with
    | error y =>
      rw [hm] at h; cases h
      have : e.remote = none → e.oldMetadata = true ∨ e.pass ≠ .absent := fun hn => by
        rcases hp with hp | ⟨hp, h | h⟩
        · exact .inr (by rw [hp]; exact fun h => nomatch h)
        · exact absurd hn h
        · exact .inl h
      rcases meta_error this hm with h | h
      · exact .inl h
      · exact .inr (.inr h)
    | ok q =>
      simp only [hm] at h
      cases hf : e.fuse with
      | true => rw [hf] at h; cases h
      | false =>
        rw [hf] at h
        cases hs : e.strict with
        | false => rw [hs] at h; cases h; exact .inl hf
        | true =>
          rw [hs] at h; cases h
          refine .inr (.inl ⟨fun t => ?_, .inl rfl⟩)
          rcases t.fuse with h | h
          · rw [hf] at h; cases h
          · rw [hs] at h; cases h

theorem rest_ok {e : Env} {p : Params} (h : rest e = .ok p) : openBackend e = none ∧ e.fuse = true ∧ ∃ q, getMetadata e = .ok q ∧ p = { q with seq := q.seq + 1, mounted := true } := by
  unfold rest at h
  cases ho : openBackend e with
  | some y => rw [ho] at h; cases h
  | none =>
    simp only [ho] at h
    cases hm : getMetadata e with
    | error y => rw [hm] at h; cases h
    | ok q =>
      simp only [hm] at h
      cases hf : e.fuse
      · rw [hf] at h; cases h
      · rw [hf] at h; cases h; exact ⟨rfl, rfl, q, rfl, rfl⟩

theorem mount_error {e : Env} {x : Exc} (h : mount e = .error x) : Wrong e (hook x) ∨ Untold e x ∨ (¬ Agree e ∧ x = .other) := by
  unfold mount at h
  cases hc : checks e with
  | some y =>
    rw [hc] at h; cases h
    rcases (checks_some hc).1 with h | h
    · exact .inl h
    · exact .inr (.inl h)
  | none => rw [hc] at h; exact rest_error h

theorem mount_ok {e : Env} {p : Params} (h : mount e = .ok p) : checks e = none ∧ rest e = .ok p := by
  unfold mount at h
  cases hc : checks e with
  | some y => rw [hc] at h; cases h
  | none => rw [hc] at h; exact ⟨rfl, h⟩

/-! #### Properties -/

/-- **C100** (unconditional part): mount.s3ql mounts the file system exactly if nothing in the table of the manual is wrong. -/
theorem C100_mounts {e : Env} (ha : Agree e) : (∃ p, main e = .mounted p) ↔ ∀ n, ¬ Wrong e n := by
  constructor
  · rintro ⟨p, h⟩ n hw
    unfold main at h
    split at h
    · cases h
    · cases h
    rename_i a hx
    split at h
    · cases h
    rename_i hl
    cases hm : mount e with
    | error y => rw [hm] at h; cases h
    | ok q =>
      obtain ⟨hc, hr⟩ := mount_ok hm
      obtain ⟨c1, c2, c3, c4, c5, c6, c7, c8, c9⟩ := checks_none hc
      obtain ⟨ho, hf, q', hmd, _⟩ := rest_ok hr
      obtain ⟨hr, hg, hp⟩ := open_none.mp ho
      obtain ⟨r1, r2, r3⟩ := raw_none.mp hr
      obtain ⟨g1, g2⟩ := get_none hg
      obtain ⟨m1, m2, m3, m4⟩ := meta_ok hmd
      unfold Wrong at hw
      split at hw
      · rcases hw with hw | hw | hw | hw | ⟨hw, hw'⟩ | ⟨x, _, hw⟩
        · exact c1 hw
        · rw [hw] at c2; cases c2
        · exact c6 hw
        · rw [hw] at c7; cases c7
        · rw [create_none r3 hw] at hw'; cases hw'
        · rw [hx] at hw; cases hw
      · rw [r1] at hw; cases hw
      · rw [hw] at hl; exact hl rfl
      · exact c5 hw
      · rw [r2 hw.1] at hw; cases hw.2
      · rw [(g2 hw.1).2.1] at hw; cases hw.2
      · rw [(g2 hw.1).2.2] at hw; cases hw.2
      · rw [g1] at hw; cases hw
      · rcases hp with hp | ⟨hp, _⟩ <;> rw [hp] at hw <;> cases hw
      · rw [m1] at hw; cases hw.2.1
      · rw [(g2 hw.1).1] at hw; cases hw.2
      · obtain ⟨rev, r, h1, h2⟩ := hw
        rw [m1] at h1; cases h1
        rcases h2 with h2 | ⟨lr, l, h2, h3⟩
        · rw [m3] at h2; cases h2
        · rcases m4 lr l h2 with h | h <;> omega
      · rcases hw with hw | ⟨rev, r, h1, h2⟩
        · rw [hw] at c4; cases c4
        · rw [m1] at h1; cases h1; rw [m2] at h2; cases h2
      · rcases hw with hw | ⟨hw, _⟩ | ⟨rev, r, h1, h2⟩
        · rcases hp with hp | ⟨hp, _⟩ <;> rw [hp] at hw <;> cases hw
        · rw [m1] at hw; cases hw
        · rw [m1] at h1; cases h1
          rcases h2 with h2 | ⟨lr, l, h2, h3, h4⟩
          · omega
          · rcases m4 lr l h2 with h | h <;> omega
      · obtain ⟨rev, r, h1, h2⟩ := hw
        rw [m1] at h1; cases h1
        rcases h2 with h2 | ⟨lr, l, h2, h3, h4⟩
        · omega
        · rcases m4 lr l h2 with h | h <;> omega
      · rw [hx] at hw; cases hw
      · rw [hw] at c3; cases c3
      · exact c9 hw
      · rw [hf] at hw; cases hw
      · rw [hw] at c8; cases c8
      · exact hw
  · intro hw
    have wf : ∀ (b : Bool) (n : Nat), (b = false → Wrong e n) → b = true := fun b n h => by
      cases b
      · exact absurd (h rfl) (hw n)
      · rfl
    have wt : ∀ (b : Bool) (n : Nat), (b = true → Wrong e n) → b = false := fun b n h => by
      cases b
      · rfl
      · exact absurd (h rfl) (hw n)
    have hx : ∃ a, MountOpts.expand e.args = .ok a := by
      cases hx : MountOpts.expand e.args with
      | ok a => exact ⟨a, rfl⟩
      | error x =>
        exfalso
        by_cases h : x = .readOnly
        · exact hw 35 (by rw [h] at hx; exact hx)
        · exact hw 2 (.inr (.inr (.inr (.inr (.inr ⟨x, h, hx⟩)))))
    have t : Tells e := {
      args := hx
      log := wt _ 10 (fun h => h)
      here := wt _ 31 (fun h => .inl h)
      s3 := fun hk => by
        rw [wf _ 14 (fun h => ⟨by rw [hk]; decide, h⟩), wf _ 15 (fun h => ⟨by rw [hk]; decide, h⟩), wf _ 16 (fun h => h)]; rfl
      b2 := fun hk => by rw [wf _ 15 (fun h => ⟨by rw [hk]; decide, h⟩), wf _ 16 (fun h => h)]; rfl
      swift := fun hk => by rw [wf _ 14 (fun h => ⟨by rw [hk]; decide, h⟩), wf _ 15 (fun h => ⟨by rw [hk]; decide, h⟩)]; rfl
      fuse := .inl (wf _ 39 (fun h => h)) }
    obtain ⟨a, hx⟩ := hx
    unfold main
    rw [hx]
    simp only [t.log]
    cases hm : mount e with
    | ok q => exact ⟨q, rfl⟩
    | error x =>
      exfalso
      rcases mount_error hm with h | h | h
      · exact hw _ h
      · exact h.1 t
      · exact h.1 ha

/-- **C100**: what is uploaded then are the parameters that were there, with the next sequence number and marked as mounted. -/
theorem C100_uploads {e : Env} {p : Params} (h : main e = .mounted p) : ∃ r, e.remote = some (e.current, r) ∧ p = { r with seq := r.seq + 1, mounted := true } := by
  unfold main at h
  split at h
  · cases h
  · cases h
  split at h
  · cases h
  cases hm : mount e with
  | error y => rw [hm] at h; cases h
  | ok q =>
    rw [hm] at h
    cases h
    obtain ⟨_, _, q', h1, h2⟩ := rest_ok (mount_ok hm).2
    exact ⟨q', (meta_ok h1).1, h2⟩

/-- **C100** (partial): if mount.s3ql fails, its exit status is one of the manual and what the manual says about it is true, unless one of the situations in `Tells` is
given. -/
theorem C100_status_partial {e : Env} {n : Nat} (ha : Agree e) (t : Tells e) (h : main e = .exit n) : Wrong e n := by
  obtain ⟨a, hx⟩ := t.args
  unfold main at h
  rw [hx] at h
  simp only [t.log] at h
  cases hm : mount e with
  | ok q => rw [hm] at h; cases h
  | error x =>
    rw [hm] at h
    cases h
    rcases mount_error hm with h | h | h
    · exact h
    · exact absurd t h.1
    · exact absurd ha h.1

/-- **C100**: in every case, a status of the manual other than 1 is true, but for 15 with Swift. -/
theorem C100_sound {e : Env} {n : Nat} (h : main e = .exit n) (h1 : n ≠ 1) : Wrong e n ∨ n = 40 ∨ (n = 15 ∧ e.svc.kind = .swift) := by
  unfold main at h
  split at h
  · cases h; exact absurd rfl h1
  · cases h; exact absurd rfl h1
  split at h
  · cases h; exact absurd rfl h1
  cases hm : mount e with
  | ok q => rw [hm] at h; cases h
  | error x =>
    rw [hm] at h
    cases h
    rcases mount_error hm with h | ⟨_, h | h | h⟩ | ⟨_, rfl⟩
    · exact .inl h
    · exact absurd h h1
    · exact .inr (.inl h)
    · exact .inr (.inr h)
    · exact absurd rfl h1

/-- A start that succeeds. -/
def good : Env :=
  { args := ["s3://eu/bucket".toList, "/mnt".toList], logDenied := false, allowOther := false, allowRoot := false, logs := true, mountpoint := true, mountedHere := false,
    auth := .fine, compress := true, cachedir := true, hard := some 1024, conns := 10, entries := none, options := true, proxy := true,
    svc := { kind := .s3, resolves := true, authentic := true, permitted := true, present := true, region := true }, pass := .present true, oldMetadata := false,
    remote := some (26, ⟨5, 4096, 7, false, false, 0, 0⟩), cached := some (26, ⟨5, 4096, 7, false, false, 0, 0⟩), current := 26, fuse := true, strict := true }

example : main good = .mounted ⟨6, 4096, 7, true, false, 0, 0⟩ := by decide +kernel

theorem good_agree : Agree good := by intro rev r lr l h1 h2 _; cases h1; cases h2; rfl

example : Agree { good with pass := .present false } ∧ Tells { good with pass := .present false } ∧ main { good with pass := .present false } = .exit 17 :=
  ⟨good_agree, { args := ⟨_, rfl⟩, log := rfl, here := rfl, s3 := fun _ => rfl, b2 := fun _ => rfl, swift := fun _ => rfl, fuse := .inl rfl }, by decide +kernel⟩

/-- **C100** is violated, each time although nothing else is wrong: a log file that cannot be written, `-o ro`, and an option with two `=` end with status 1 and a
traceback, as the hook is not installed yet. -/
theorem C100_before_hook :
    main { good with logDenied := true } = .exit 1 ∧ main { good with args := [MountOpts.dashO, "ro".toList] } = .exit 1 ∧
    main { good with args := [MountOpts.dashO, "a=b=c".toList] } = .exit 1 := by decide +kernel

/-- **C100** is violated: a mount point that FUSE refuses ends with status 1 if trio wraps exceptions in groups. -/
theorem C100_fuse : main { good with fuse := false } = .exit 1 ∧ main { good with fuse := false, strict := false } = .exit 39 := by decide +kernel

/-- **C100** is violated: with Amazon S3, the statuses for wrong credentials, missing permissions and missing buckets never occur. -/
theorem C100_s3 {e : Env} {n : Nat} (hk : e.svc.kind = .s3) (h : main e = .exit n) : n ≠ 14 ∧ n ≠ 15 ∧ n ≠ 16 := by
  have key : ¬ (n = 14 ∨ n = 15 ∨ n = 16) := by
    intro hn
    have hw : (e.svc.authentic && e.svc.permitted && e.svc.present) = false := by
      rcases C100_sound h (by omega) with hw | hw | hw
      · rcases hn with rfl | rfl | rfl
        · rw [show e.svc.authentic = false from hw.2]; rfl
        · rw [show e.svc.permitted = false from hw.2]; simp
        · rw [show e.svc.present = false from hw]; simp
      · omega
      · rw [hk] at hw; cases hw.2
    unfold main at h
    split at h
    · cases h; simp [defaultHook] at hn
    · cases h; simp [defaultHook] at hn
    split at h
    · cases h; simp [defaultHook] at hn
    unfold mount at h
    cases hc : checks e with
    | some y =>
      rw [hc] at h; cases h
      have := (checks_some hc).2
      simp only [List.mem_cons, List.not_mem_nil, or_false] at this
      rcases this with rfl | rfl | rfl | rfl | rfl | rfl | rfl <;> simp [hook] at hn
    | none =>
      simp only [hc] at h
      have hcr : create e.svc = some .hostname ∨ create e.svc = some .other := by
        unfold create
        rw [hk]
        simp only [hw]
        cases e.svc.resolves <;> simp
      have hr : openRaw e ∈ [some (.quiet 3), some (.quiet 13), some (.quiet 19), some .other] := by
        cases hr : openRaw e with
        | none => rw [(raw_none.mp hr).2.2] at hcr; rcases hcr with h | h <;> cases h
        | some x =>
          rcases raw_some hr with ⟨rfl, _⟩ | ⟨rfl, _⟩ | ⟨y, hy, rfl⟩
          · simp
          · simp
          · rcases hcr with h | h <;> rw [hy] at h <;> cases h <;> simp [mapped]
      simp only [List.mem_cons, List.not_mem_nil, or_false] at hr
      have ho : ∀ x, openRaw e = some x → rest e = .error x := fun x hx => by unfold rest openBackend; rw [hx]
      rcases hr with hr | hr | hr | hr <;> rw [ho _ hr] at h <;> cases h <;> simp [hook] at hn
  omega

example : main { good with svc := { good.svc with authentic := false } } = .exit 1 := by decide +kernel

/-- **C100** is violated: with Backblaze B2 a missing bucket or a missing permission ends with status 1; with Swift wrong credentials end with the status of a missing
permission, and missing permissions with status 1; and a file system that is mounted on this computer with status 40, which is not in the manual. -/
theorem C100_others :
    main { good with svc := { good.svc with kind := .b2, present := false } } = .exit 1 ∧ main { good with svc := { good.svc with kind := .b2, permitted := false } } = .exit 1 ∧
    main { good with svc := { good.svc with kind := .swift, authentic := false } } = .exit 15 ∧
    main { good with svc := { good.svc with kind := .swift, permitted := false } } = .exit 1 ∧ main { good with mountedHere := true } = .exit 40 := by decide +kernel

end Verif.Tools.MountStart
