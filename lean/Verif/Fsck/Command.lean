/-
C96: the command `fsck.s3ql` as a whole (fsck.py:1250-1498): which metadata it uses, what it asks, what it does with the
old cache directory, what it changes, and its exit status.  The repairs themselves are those of `Verif.Fsck.check`.
-/
import Verif.Fsck.Props

namespace Verif.Fsck.Command
open Verif.Fs (Bytes)

/-! ### Model -/

/-- The attributes that matter here (database.py:106-118). -/
structure Params where
  seq : Nat
  /-- `revision` -/
  rev : Nat
  /-- `is_mounted` -/
  mounted : Bool
  /-- `needs_fsck` -/
  needsFsck : Bool
  /-- `last_fsck`, in seconds -/
  lastFsck : Int
deriving DecidableEq, Repr

/-- The storage, and the files of this computer. -/
structure World where
  /-- `s3ql_params` -/
  rparams : Option Params
  /-- the metadata in the storage, after download -/
  rmeta : Db
  /-- objects with data -/
  backend : List (Nat × Bytes)
  temps : Nat
  /-- `<cachepath>.params` -/
  lparams : Option Params
  /-- `<cachepath>.db` -/
  ldb : Option Db
  /-- `<cachepath>-cache` -/
  cache : Option (List CFile)
  /-- `<cachepath>-cache.bak<i>` -/
  baks : List (Nat × List CFile)
deriving DecidableEq, Repr

/-- Command line and standard input. -/
structure Opts where
  force : Bool
  forceRemote : Bool
  batch : Bool
  keepCache : Bool
  fast : Bool
  /-- what is typed when the command asks: `sys.stdin.readline()` -/
  input : List Char
deriving DecidableEq, Repr

/-- The places where an exception may end the command. -/
inductive At where
  /-- before the parameters are read: log file, configuration, cache directory, connection, passphrase (fsck.py:1282-1314) -/
  | start
  /-- renaming or removing the old cache directory (fsck.py:1381-1393) -/
  | aside
  | download
  /-- `verify_metadata_snapshots` (fsck.py:1440-1445) -/
  | verify
  | write1
  | upload1
  /-- the storage fails during the check -/
  | check
  | uploadMeta
  | write2
  | upload2
  | expire
deriving DecidableEq, Repr

/-- What the command meets. -/
structure Env where
  /-- `is_mounted(storage_url)` (common.py:59-84) -/
  mountedHere : Bool
  /-- `time.time()` -/
  now : Int
  /-- `PRAGMA integrity_check` of SQLite -/
  intact : Db → Bool
  cfg : Cfg
  /-- recursion limit -/
  depth : Nat
  /-- the exit status, if an exception occurs at this place (logging.py:233-256: that of a QuietError, else 1) -/
  fault : At → Option Nat
  /-- what a check that is ended by an exception leaves behind -/
  broken : St

/-- How a run ends. -/
structure Res where
  w : World
  status : Nat
  /-- the result of the check, if it came to an end -/
  checked : Option St
deriving DecidableEq, Repr

/-- `CURRENT_FS_REV` (common.py). -/
def currentRev : Nat := 26

/-- `str.isspace` for ASCII characters. -/
def space (c : Char) : Bool := c = ' ' || c = '\t' || c = '\n' || c = '\r' || c = '\x0b' || c = '\x0c' || c = '\x1c' || c = '\x1d' || c = '\x1e' || c = '\x1f'

/-- `str.strip` (for ASCII text). -/
def strip (l : List Char) : List Char := ((l.dropWhile space).reverse.dropWhile space).reverse

/-- fsck.py:1352 -/
def sentence : List Char := "continue, I know what I am doing".toList

/-- The first `i` for which there is no directory `…-cache.bak<i>` (fsck.py:1382-1385). -/
def freeBak (baks : List (Nat × List CFile)) : Nat :=
  ((List.range (baks.length + 1)).find? (fun i => !(keys baks).contains i)).getD 0

/-- Gets rid of the cache directory, if it is not empty (fsck.py:1369-1393). -/
def setAside (w : World) (needsFsck : Bool) : World :=
  match w.cache with
  | none => w
  | some [] => w
  | some (f :: t) =>
    if needsFsck then { w with cache := none, baks := w.baks ++ [(freeBak w.baks, f :: t)] }
    else { w with cache := none }

/-- The revision check of `FsAttributes.deserialize` (database.py:139-146): the exit status, if it fails. -/
def badRev (p : Params) : Option Nat :=
  if p.rev < currentRev then some 32 else if p.rev > currentRev then some 33 else none

/-- `read_cached_params` with `min_seq` (database.py:1297-1312, 123-147).  A missing database file is an AssertionError. -/
def readCached (w : World) (minSeq : Nat) : Except Nat (Option (Params × Db)) :=
  match w.lparams with
  | none => .ok none
  | some p =>
    match w.ldb with
    | none => .error 1
    | some d =>
      if p.seq < minSeq then .ok none
      else match badRev p with
        | some c => .error c
        | none => .ok (some (p, d))

/-- Is the file system taken for clean (fsck.py:1358-1366)? -/
def skips (o : Opts) (e : Env) (p : Params) : Bool :=
  !p.needsFsck && decide (e.now - p.lastFsck < 60 * 60 * 24 * 31) && !o.force

/-- What `Fsck` works on (fsck.py:1452). -/
def toSt (w : World) (d : Db) : St :=
  { db := d, backend := w.backend, temps := w.temps, cache := w.cache.getD [], found := false, uncorr := false, unlinked := [] }

def fromSt (w : World) (s : St) : World :=
  { w with ldb := some s.db, backend := s.backend, temps := s.temps, cache := w.cache.map (fun _ => s.cache) }

/-- After the check (fsck.py:1455-1497).  An upload of the metadata makes those in the storage equal to the database
(C12); an interrupted one is the subject of C15. -/
def finish (e : Env) (w : World) (p1 : Params) (s : St) : Res :=
  if s.uncorr then ⟨w, 44 + 128, some s⟩
  else
    let p2 : Params := { p1 with needsFsck := false, mounted := false, lastFsck := e.now }
    match e.fault .uploadMeta with
    | some c => ⟨w, c, some s⟩
    | none =>
      let w := { w with rmeta := s.db }
      match e.fault .write2 with
      | some c => ⟨w, c, some s⟩
      | none =>
        let w := { w with lparams := some p2 }
        match e.fault .upload2 with
        | some c => ⟨w, c, some s⟩
        | none =>
          let w := { w with rparams := some p2 }
          match e.fault .expire with
          | some c => ⟨w, c, some s⟩
          | none => ⟨w, if s.found then 128 else 0, some s⟩

/-- The check itself (fsck.py:1452-1453).  An exception of the code ends the command with status 1. -/
def checkNow (e : Env) (w : World) (p1 : Params) (d : Db) (c : CacheArg) : Res :=
  match e.fault .check with
  | some st => ⟨fromSt w e.broken, st, none⟩
  | none =>
    match check e.cfg e.depth c (toSt w d) with
    | none => ⟨fromSt w e.broken, 1, none⟩
    | some s => finish e (fromSt w s) p1 s

/-- From the integrity check on (fsck.py:1423-1453). -/
def go (o : Opts) (e : Env) (w : World) (p : Params) (d : Db) (c : CacheArg) : Res :=
  if !e.intact d then ⟨w, 43, none⟩
  else
    match (if o.fast then none else e.fault .verify) with
    | some st => ⟨w, st, none⟩
    | none =>
      let p1 : Params := { p with mounted := true, seq := p.seq + 1 }
      match e.fault .write1 with
      | some st => ⟨w, st, none⟩
      | none =>
        let w := { w with lparams := some p1 }
        match e.fault .upload1 with
        | some st => ⟨w, st, none⟩
        | none => checkNow e { w with rparams := some p1 } p1 d c

/-- With the metadata of this computer (fsck.py:1318-1327, 1358-1366, 1395-1404).  The test
`local_param.seq_no > param.seq_no` compares an object with itself. -/
def withLocal (o : Opts) (e : Env) (w : World) (p : Params) (d : Db) : Res :=
  let p : Params := if p.mounted then { p with needsFsck := true } else p
  if skips o e p then ⟨w, 0, none⟩
  else go o e w p d (if p.mounted then (if o.keepCache then .keep else .yes) else .no)

/-- With the metadata of the storage, after a possible question (fsck.py:1358-1417). -/
def withRemote (o : Opts) (e : Env) (w : World) (p : Params) : Res :=
  if skips o e p then ⟨w, 0, none⟩
  else
    match e.fault .aside with
    | some st => ⟨w, st, none⟩
    | none =>
      let w := setAside w p.needsFsck
      match e.fault .download with
      | some st => ⟨w, st, none⟩
      | none => go o e { w with ldb := some w.rmeta } p w.rmeta .no

/-- The question (fsck.py:1329-1356). -/
def ask (o : Opts) (e : Env) (w : World) (r : Params) : Res :=
  if r.mounted then
    if o.forceRemote then withRemote o e w { r with needsFsck := true }
    else if o.batch then ⟨w, 41, none⟩
    else if strip o.input ≠ sentence then ⟨w, 42, none⟩
    else withRemote o e w { r with needsFsck := true }
  else withRemote o e w r

/-- `fsck.s3ql` (fsck.py:1252-1498). -/
def run (o : Opts) (e : Env) (w : World) : Res :=
  match e.fault .start with
  | some st => ⟨w, st, none⟩
  | none =>
    if e.mountedHere then ⟨w, 40, none⟩
    else
      match w.rparams with
      | none => ⟨w, 32, none⟩
      | some r =>
        match badRev r with
        | some st => ⟨w, st, none⟩
        | none =>
          match readCached w r.seq with
          | .error st => ⟨w, st, none⟩
          | .ok (some (p, d)) => withLocal o e w p d
          | .ok none => ask o e w r

/-! ### Specification -/

/-- The exit statuses of exceptions are neither 0, nor those with a meaning of their own, nor above 127 (cf. the list in
rst/man/fsck.rst). -/
def FaultCodes (e : Env) : Prop := ∀ (a : At) (c : Nat), e.fault a = some c → c ≠ 0 ∧ c < 40 ∨ c = 45

/-- Does this computer have metadata that are at least as new as those of the storage? -/
def LocalIsCurrent (w : World) : Prop := ∃ p r, w.lparams = some p ∧ w.rparams = some r ∧ r.seq ≤ p.seq

/-- The user agrees to the use of the metadata in the storage: by an option, or by typing the sentence. -/
def Agreed (o : Opts) : Prop :=
  o.forceRemote = true ∨ (o.batch = false ∧ ∃ a b : List Char, (∀ c ∈ a, space c = true) ∧ (∀ c ∈ b, space c = true) ∧
    o.input = a ++ "continue, I know what I am doing".toList ++ b)

/-- Nothing in the storage differs. -/
def SameStorage (w w' : World) : Prop :=
  w'.rparams = w.rparams ∧ w'.rmeta = w.rmeta ∧ w'.backend = w.backend ∧ w'.temps = w.temps

/-- The file system is marked as clean, both in the storage and on this computer, and the metadata are the same. -/
def MarkedClean (w : World) : Prop :=
  ∃ p : Params, w.rparams = some p ∧ w.lparams = some p ∧ p.mounted = false ∧ p.needsFsck = false ∧ w.ldb = some w.rmeta

/-- The file system is marked as in use; nobody can mount it without a check. -/
def MarkedInUse (w : World) : Prop := ∃ p : Params, w.rparams = some p ∧ p.mounted = true

/-- The parameters say that no check is needed: not in use, no errors, and checked less than 31 days ago. -/
def SaysClean (e : Env) (p : Params) : Prop :=
  p.mounted = false ∧ p.needsFsck = false ∧ e.now - p.lastFsck < 31 * 86400

/-- Nothing can go wrong: no exceptions, revisions that this version understands, and an intact database. -/
structure Works (e : Env) (w : World) (r : Params) : Prop where
  fault : ∀ a, e.fault a = none
  here : e.mountedHere = false
  params : w.rparams = some r
  rev : r.rev = currentRev
  lrev : ∀ p, w.lparams = some p → p.rev = currentRev ∧ w.ldb ≠ none
  intact : ∀ d, d = w.rmeta ∨ w.ldb = some d → e.intact d = true
  check : ∀ d c files, (d = w.rmeta ∨ w.ldb = some d) → (files = [] ∨ w.cache = some files) →
    check e.cfg e.depth c { db := d, backend := w.backend, temps := w.temps, cache := files, found := false, uncorr := false, unlinked := [] } ≠ none

/-- The storage, with the tables `d`, has no errors (the conditions are in Fsck/Spec.lean). -/
def NoErrors (e : Env) (w : World) (d : Db) : Prop :=
  Clean e.cfg e.depth { db := d, backend := w.backend, temps := w.temps, cache := [], found := false, uncorr := false, unlinked := [] }

/-- All references are right and valid, and everything is reachable. -/
def Sound (e : Env) (w : World) (d : Db) : Prop :=
  InodeRefsExact d ∧ ObjRefsExact d ∧
  EntriesHaveName d ∧ EntriesHaveInode d ∧ EntriesHaveParent d ∧ BlocksHaveObj d ∧ BlocksHaveInode d ∧
  XattrsHaveName d ∧ XattrsHaveInode d ∧ SymlinksHaveInode d ∧
  (ListingSound e.cfg → ∀ x ∈ d.objects, ∃ b, (x.1, b) ∈ w.backend) ∧ Connected d

end Verif.Fsck.Command
