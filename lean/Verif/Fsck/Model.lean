/-
Model of the consistency checks of fsck.s3ql (fsck.py, class `Fsck`, 97-1242) on an arbitrary database.

Scope and simplifications:
* Every table is a list of rows in the order of their rowids, keyed by the rowid or the primary key.  The foreign keys
  of the schema are not enforced (database.py disables them), hence references may dangle.  UNIQUE constraints are
  enforced by SQLite: an update that would violate one raises an exception.
* The result `none` is an exception that leaves `check`; the run is then not complete.
* A `for … in conn.query` loop steps a SQLite cursor over the table, in rowid order, while the body of the loop
  changes the database.  The condition is therefore evaluated, row by row, on the current state.
* Log messages are left out, but the paths they contain are evaluated, since this may raise.
* Names in `contents` are of type BLOB.  Names created for extended attributes are of type TEXT, as in the code.
* Object names that do not end in a decimal number are left out.  The listing of the storage is a parameter (`list`),
  because it may be stale.
-/
import Verif.Fs.Model

namespace Verif.Fsck
open Verif.Fs (Bytes Inode rootInode ctrlInode sIFMT isDir isReg isBlk)

/-- A row of `names` (database.py:803-808); `text` if the stored value is of type TEXT instead of BLOB. -/
structure NRow where
  text : Bool
  name : Bytes
  refcount : Int
deriving DecidableEq, Repr

/-- A row of `contents` (database.py:822-830). -/
structure CRow where
  parent : Nat
  nameId : Nat
  inode : Nat
deriving DecidableEq, Repr

/-- A row of `ext_attributes` (database.py:840-846). -/
structure XRow where
  inode : Nat
  nameId : Nat
  value : Bytes
deriving DecidableEq, Repr

/-- A row of `inode_blocks` (database.py:768-774). -/
structure BRow where
  inode : Nat
  blockno : Nat
  obj : Nat
deriving DecidableEq, Repr

/-- A row of `objects` (database.py:696-703). -/
structure Obj where
  refcount : Int
  hash : Option Bytes
  length : Nat
  /-- `phys_size`; -1 if not known -/
  phys : Int
deriving DecidableEq, Repr

structure Db where
  inodes : List (Nat × Inode)
  /-- AUTOINCREMENT counter of `inodes` -/
  iseq : Nat
  names : List (Nat × NRow)
  /-- `contents`, by rowid -/
  contents : List (Nat × CRow)
  /-- AUTOINCREMENT counter of `contents` -/
  cseq : Nat
  /-- `ext_attributes`, by rowid -/
  xattrs : List (Nat × XRow)
  symlinks : List (Nat × Bytes)
  /-- `inode_blocks`, by rowid -/
  blocks : List (Nat × BRow)
  objects : List (Nat × Obj)
  /-- AUTOINCREMENT counter of `objects` -/
  oseq : Nat
deriving DecidableEq, Repr

/-- A file in the cache directory (fsck.py:249-261). -/
inductive CFile where
  /-- `<inode>-<blockno>` and its contents -/
  | blk (inode blockno : Nat) (data : Bytes)
  /-- `<inode>-<blockno>.tmp` -/
  | tmp
  /-- any other name -/
  | strange
deriving DecidableEq, Repr

structure St where
  db : Db
  /-- contents of the objects `s3ql_data_<id>` in the storage -/
  backend : List (Nat × Bytes)
  /-- number of temporary files of the local backend -/
  temps : Nat
  cache : List CFile
  /-- `found_errors` -/
  found : Bool
  /-- `uncorrectable_errors` -/
  uncorr : Bool
  /-- `unlinked_objects` -/
  unlinked : List Nat
deriving DecidableEq, Repr

/-- Parameters of the run. -/
structure Cfg where
  /-- `max_obj_size` (fsck.py:119) -/
  blockSize : Nat
  /-- SHA-256 -/
  sha : Bytes → Bytes
  /-- size of an object in the storage, by its contents (after compression and encryption) -/
  physOf : Bytes → Nat
  /-- `('%s' % to_str(name)).encode()` (fsck.py:453, 1511): decoding with errors='replace' and encoding again -/
  toStr : Bytes → Bytes
  /-- `backend.list('s3ql_data_')`: the numbers of the objects, given the contents of the storage -/
  list : List (Nat × Bytes) → List Nat
  /-- owner and time of created directories -/
  uid : Nat
  gid : Nat
  now : Int

/-- `for x in l: …`, where the body may raise. -/
def iter {α : Type} (f : α → St → Option St) : List α → St → Option St
  | [], s => some s
  | a :: t, s => (f a s).bind (iter f t)

def keys {ν : Type} (l : List (Nat × ν)) : List Nat := l.map (·.1)

/-- `self.found_errors = True` -/
def St.err (s : St) : St := { s with found := true }

/-! #### Table access -/

/-- `SELECT id FROM names WHERE name=?` -/
def findName : List (Nat × NRow) → Bool → Bytes → Option Nat
  | [], _, _ => none
  | (i, r) :: t, x, n => if r.text = x ∧ r.name = n then some i else findName t x n

/-- `SELECT rowid FROM contents WHERE parent_inode=? AND name_id=?` -/
def findEntry : List (Nat × CRow) → Nat → Nat → Option (Nat × CRow)
  | [], _, _ => none
  | (i, r) :: t, p, n => if r.parent = p ∧ r.nameId = n then some (i, r) else findEntry t p n

/-- `SELECT … FROM contents_v WHERE name=? AND parent_inode=?` -/
def Db.entry (db : Db) (p : Nat) (n : Bytes) : Option (Nat × CRow) :=
  (findName db.names false n).bind (fun i => findEntry db.contents p i)

/-- `SELECT name, name_id, parent_inode FROM contents_v WHERE inode=?` (an index gives the rows in rowid order) -/
def Db.entriesOf (db : Db) (id : Nat) : List (Bytes × CRow) :=
  db.contents.filterMap (fun e => if e.2.inode = id then (AL.get db.names e.2.nameId).map (fun r => (r.name, e.2)) else none)

/-- The largest id of a table without AUTOINCREMENT. -/
def maxKey {ν : Type} : List (Nat × ν) → Nat
  | [] => 0
  | (i, _) :: t => max i (maxKey t)

/-- `_add_name` (fsck.py:1224-1236). -/
def Db.addName (db : Db) (text : Bool) (n : Bytes) : Db × Nat :=
  match findName db.names text n with
  | some i =>
    match AL.get db.names i with
    | some r => ({ db with names := AL.set db.names i { r with refcount := r.refcount + 1 } }, i)
    | none => (db, i)
  | none => ({ db with names := AL.set db.names (maxKey db.names + 1) ⟨text, n, 1⟩ }, maxKey db.names + 1)

/-- `_del_name` (fsck.py:1238-1242). -/
def Db.delName (db : Db) (nid : Nat) : Db :=
  match AL.get db.names nid with
  | some r =>
    if r.refcount - 1 = 0 then { db with names := AL.erase db.names nid }
    else { db with names := AL.set db.names nid { r with refcount := r.refcount - 1 } }
  | none => db

/-- Is there another entry with this name in this directory? -/
def Db.clash (db : Db) (rowid p n : Nat) : Bool :=
  db.contents.any (fun e => e.1 != rowid && e.2.parent == p && e.2.nameId == n)

/-- `UPDATE contents SET … WHERE rowid=?`; raises `ConstraintError` if the entry exists. -/
def Db.putEntry (db : Db) (rowid : Nat) (r : CRow) : Option Db :=
  if db.clash rowid r.parent r.nameId then none else some { db with contents := AL.set db.contents rowid r }

/-- `INSERT INTO contents` -/
def Db.insEntry (db : Db) (r : CRow) : Option Db :=
  match db.putEntry (db.cseq + 1) r with
  | some db' => some { db' with cseq := db.cseq + 1 }
  | none => none

/-- `UPDATE contents SET parent_inode=?, name_id=?` for a list of rows. -/
def Db.moveRows (db : Db) (f : CRow → CRow) : List Nat → Option Db
  | [] => some db
  | i :: t =>
    match AL.get db.contents i with
    | none => db.moveRows f t
    | some r =>
      match db.putEntry i (f r) with
      | none => none
      | some db' => db'.moveRows f t

/-- The name `lost+found`. -/
def lofName : Bytes := [108, 111, 115, 116, 43, 102, 111, 117, 110, 100]

/-- Decimal digits of a number. -/
def decRev : Nat → Nat → Bytes
  | 0, _ => []
  | fuel + 1, n =>
    if n < 10 then [(48 + n).toUInt8]
    else (48 + n % 10).toUInt8 :: decRev fuel (n / 10)

/-- `str(n).encode()` -/
def dec (n : Nat) : Bytes := (decRev (n + 1) n).reverse

/-! #### Paths -/

inductive Path where
  | ok (comps : List Bytes)
  /-- `NoSuchRowError` -/
  | missing
  /-- `RuntimeError`, after 255 components -/
  | deep
deriving DecidableEq, Repr

/-- The loop of `get_path` (common.py:126-138). -/
def pathLoop (db : Db) : Nat → Nat → List Bytes → Path
  | 0, _, _ => .deep
  | fuel + 1, id, acc =>
    if id = rootInode then .ok acc
    else
      match (db.entriesOf id).head? with
      | none => .missing
      | some e => pathLoop db fuel e.2.parent (e.1 :: acc)

/-- `get_path(id, db)` (common.py:112-143). -/
def Db.path (db : Db) (id : Nat) : Path := pathLoop db 255 id []

/-- `b'/'.join` of the components, with a leading slash. -/
def joinPath (l : List Bytes) : Bytes := l.flatMap (fun c => 47 :: c)

/-- `get_path` in a log message: any exception leaves the check. -/
def Db.pathOk (db : Db) (id : Nat) : Bool :=
  match db.path id with
  | .ok _ => true
  | _ => false

/-- `escape` (fsck.py:1505-1508). -/
def escape (p : Bytes) : Bytes :=
  (p.drop 1).flatMap (fun c => if c = 95 then [95, 95] else if c = 47 then [95] else [c])

/-- Shortens long names in `resolve_free` (fsck.py:1203-1204). -/
def shorten (n : Bytes) : Bytes :=
  if 255 - 4 < n.length then n.take 120 ++ [32, 46, 46, 46, 32] ++ n.drop (n.length - 120) else n

/-- The `i`-th name that `resolve_free` tries (fsck.py:1206-1216). -/
def candidate (n : Bytes) (i : Nat) : Bytes := if i = 0 then n else n ++ [45] ++ dec i

/-- `resolve_free(b"/lost+found", name)` (fsck.py:1188-1222).  One of the first `len(contents) + 1` names is free. -/
def Db.resolveFree (db : Db) (n : Bytes) : Option (Nat × Bytes) :=
  match db.entry rootInode lofName with
  | none => none
  | some e =>
    match (List.range (db.contents.length + 1)).find? (fun i => (db.entry e.2.inode (candidate (shorten n) i)).isNone) with
    | none => none
    | some i => some (e.2.inode, candidate (shorten n) i)

/-! #### check_lof (fsck.py:342-402) -/

/-- `create_inode` (fsck.py:827-849) with the arguments used in `check_lof`. -/
def lofInode (cfg : Cfg) : Inode :=
  { mode := 0o040000 ||| 0o700, uid := cfg.uid, gid := cfg.gid, mtime := cfg.now, atime := cfg.now, ctime := cfg.now, refcount := 1, size := 0, rdev := 0, locked := false }

def Db.createLof (cfg : Cfg) (db : Db) : Db × Nat :=
  ({ db with inodes := AL.set db.inodes (db.iseq + 1) (lofInode cfg), iseq := db.iseq + 1 }, db.iseq + 1)

/-- Entries `lost+found` that are in themselves (fsck.py:356-366). -/
def Db.selfLof (db : Db) : List (Nat × CRow) :=
  match findName db.names false lofName with
  | none => []
  | some i => db.contents.filter (fun e => e.2.nameId == i && e.2.parent == e.2.inode)

/-- The first part: find or create the entry.  The result is its inode and name_id. -/
def findLof (cfg : Cfg) (s : St) : Option (St × Nat × Nat) :=
  match s.db.entry rootInode lofName with
  | some e => some (s, e.2.inode, e.2.nameId)
  | none =>
    match s.db.selfLof with
    | [e] =>
      match s.db.moveRows (fun r => { r with parent := rootInode }) (keys (s.db.contents.filter (fun x => x.2.inode == e.2.inode))) with
      | none => none
      | some db => some ({ s.err with db := db }, e.2.inode, e.2.nameId)
    | [] =>
      let (db, id) := s.db.createLof cfg
      let (db, nid) := db.addName false lofName
      match db.insEntry { parent := rootInode, nameId := nid, inode := id } with
      | none => none
      | some db => some ({ s.err with db := db }, id, nid)
    | _ => none

def checkLof (cfg : Cfg) (s : St) : Option St :=
  match findLof cfg s with
  | none => none
  | some (s, id, nid) =>
    match AL.get s.db.inodes id with
    | none => none
    | some i =>
      if isDir i.mode then some s
      else
        let (db, new) := s.db.createLof cfg
        match findEntry db.contents rootInode nid with
        | some (rowid, r) =>
          some { s.err with db := { db with contents := AL.set db.contents rowid { r with inode := new } } }
        | none => some { s.err with db := db }

/-! #### check_cache (fsck.py:231-340) -/

/-- `SELECT obj_id FROM inode_blocks WHERE inode=? AND blockno=?` -/
def findBlock : List (Nat × BRow) → Nat → Nat → Option (Nat × BRow)
  | [], _, _ => none
  | (i, r) :: t, id, b => if r.inode = id ∧ r.blockno = b then some (i, r) else findBlock t id b

/-- `SELECT id FROM objects WHERE hash=?` -/
def findHash : List (Nat × Obj) → Bytes → Option Nat
  | [], _ => none
  | (i, o) :: t, h => if o.hash = some h then some i else findHash t h

/-- `UPDATE objects SET refcount=refcount+? WHERE id=?` -/
def addRef (objs : List (Nat × Obj)) (id : Nat) (n : Int) : List (Nat × Obj) :=
  match AL.get objs id with
  | some o => AL.set objs id { o with refcount := o.refcount + n }
  | none => objs

/-- The object for dirty data (fsck.py:299-316): found by its hash, or created and uploaded. -/
def objectFor (cfg : Cfg) (s : St) (data : Bytes) : St × Nat :=
  match findHash s.db.objects (cfg.sha data) with
  | some o => ({ s with db := { s.db with objects := addRef s.db.objects o 1 } }, o)
  | none =>
    let o := s.db.oseq + 1
    ({ s with db := { s.db with objects := AL.set s.db.objects o ⟨1, some (cfg.sha data), data.length, cfg.physOf data⟩, oseq := o }, backend := AL.set s.backend o data }, o)

/-- Is the block stored with this hash (fsck.py:272-294)? -/
def storedSame (cfg : Cfg) (db : Db) (id b : Nat) (data : Bytes) : Bool :=
  match findBlock db.blocks id b with
  | none => false
  | some e =>
    match AL.get db.objects e.2.obj with
    | none => false
    | some o => o.hash == some (cfg.sha data)

/-- Processes one file of the cache directory; the result tells if the file is removed. -/
def cacheFile (cfg : Cfg) (f : CFile) (s : St) : Option St :=
  match f with
  | .strange => none
  | .tmp => some s.err
  | .blk id b data =>
    if storedSame cfg s.db id b data then some s
    else
      let (s, o) := objectFor cfg s.err data
      match findBlock s.db.blocks id b with
      | none =>
        some { s with db := { s.db with blocks := AL.set s.db.blocks (maxKey s.db.blocks + 1) ⟨id, b, o⟩ } }
      | some (rowid, r) =>
        some { s with db := { s.db with blocks := AL.set s.db.blocks rowid { r with obj := o }, objects := addRef s.db.objects r.obj (-1) }, unlinked := r.obj :: s.unlinked }

/-- Temporary files are removed in any case, others unless `keep_cache` is set. -/
def cacheLeft (keep : Bool) (l : List CFile) : List CFile :=
  l.filter (fun f => match f with | .tmp => false | _ => keep)

def checkCache (cfg : Cfg) (keep : Bool) (s : St) : Option St :=
  (iter (cacheFile cfg) s.cache s).map (fun s' => { s' with cache := cacheLeft keep s.cache })

/-! #### Names -/

def cCount (db : Db) (nid : Nat) : Nat := (db.contents.filter (fun e => e.2.nameId == nid)).length
def xCount (db : Db) (nid : Nat) : Nat := (db.xattrs.filter (fun e => e.2.nameId == nid)).length

/-- check_names_refcount (fsck.py:851-898).  The temporary table has a row for every name; hence no name is removed. -/
def checkNamesRefcount (s : St) : St :=
  let cnt (i : Nat) : Int := (cCount s.db i + xCount s.db i : Nat)
  { s with db := { s.db with names := s.db.names.map (fun e => (e.1, { e.2 with refcount := cnt e.1 })) }, found := s.found || s.db.names.any (fun e => e.2.refcount != cnt e.1) }

/-- Body of the loop of check_contents_name (fsck.py:404-435). -/
def fixName (rowid : Nat) (s : St) : Option St :=
  match AL.get s.db.contents rowid with
  | none => some s
  | some r =>
    if (AL.get s.db.names r.nameId).isSome then some s
    else
      let go (n : Bytes) : Option St :=
        match s.db.resolveFree n with
        | none => none
        | some (p, n) =>
          let (db, nid) := s.db.addName false n
          match db.putEntry rowid { r with nameId := nid, parent := p } with
          | none => none
          | some db => some { s.err with db := db }
      match s.db.path r.parent with
      | .deep => none
      | .missing => go (45 :: dec r.inode)
      | .ok l => go (escape ((joinPath l).drop 1) ++ 45 :: dec r.inode)

def checkContentsName (s : St) : Option St := iter fixName (keys s.db.contents) s

/-- Body of the loop of check_contents_inode (fsck.py:464-490); the rows are deleted at the end. -/
def dropEntry (e : Nat × CRow) (s : St) : Option St :=
  match s.db.path e.2.inode with
  | .deep => none
  | _ => some { s.err with db := s.db.delName e.2.nameId }

def checkContentsInode (s : St) : Option St :=
  let bad := s.db.contents.filter (fun e => (AL.get s.db.inodes e.2.inode).isNone)
  (iter dropEntry bad s).map (fun s' => { s' with db := { s'.db with contents := s'.db.contents.filter (fun e => (AL.get s.db.inodes e.2.inode).isSome) } })

/-- Body of the loop of check_contents_parent_inode (fsck.py:437-462). -/
def fixParent (cfg : Cfg) (rowid : Nat) (s : St) : Option St :=
  match AL.get s.db.contents rowid with
  | none => some s
  | some r =>
    if (AL.get s.db.inodes r.parent).isSome then some s
    else
      match AL.get s.db.names r.nameId with
      | none => none
      | some nr =>
        match s.db.resolveFree ([91] ++ dec r.parent ++ [93, 45] ++ cfg.toStr nr.name) with
        | none => none
        | some (p, n) =>
          let (db, nid) := (s.db.delName r.nameId).addName false n
          match db.putEntry rowid { r with nameId := nid, parent := p } with
          | none => none
          | some db => some { s.err with db := db }

def checkContentsParent (cfg : Cfg) (s : St) : Option St := iter (fixParent cfg) (keys s.db.contents) s

/-! #### Objects -/

/-- check_objects_temp (fsck.py:1085-1111). -/
def checkObjectsTemp (s : St) : St := { s with temps := 0, found := s.found || s.temps != 0 }

/-- check_objects_hash (fsck.py:807-825). -/
def checkObjectsHash (s : St) : St :=
  { s with db := { s.db with objects := s.db.objects.filter (fun e => e.2.hash.isSome) }, found := s.found || s.db.objects.any (fun e => e.2.hash.isNone) }

def bCount (db : Db) (o : Nat) : Nat := (db.blocks.filter (fun e => e.2.obj == o)).length

/-- Is the row of an object reported by check_objects_refcount (fsck.py:1054-1076)? -/
def objReported (s : St) (e : Nat × Obj) : Bool :=
  let n := bCount s.db e.1
  if n = 0 then !(s.unlinked.contains e.1 && e.2.refcount == 0) else e.2.refcount != n

/-- Deletes the objects with reference count zero (fsck.py:1080-1083). -/
def delZero (e : Nat × Obj) (s : St) : Option St :=
  if e.2.refcount = 0 then
    match AL.get s.backend e.1 with
    | none => none
    | some _ => some { s with backend := AL.erase s.backend e.1, db := { s.db with objects := AL.erase s.db.objects e.1 } }
  else some s

/-- check_objects_refcount (fsck.py:1030-1083). -/
def checkObjectsRefcount (s : St) : Option St :=
  let objs := (s.db.objects.filter (fun e => bCount s.db e.1 != 0)).map (fun e => (e.1, { e.2 with refcount := (bCount s.db e.1 : Int) }))
  let s' := { s with db := { s.db with objects := objs }, found := s.found || s.db.objects.any (objReported s) }
  iter delZero objs s'

/-- Deletes one object that is not in the table (fsck.py:1138-1150). -/
def delSpurious (o : Nat) (s : St) : Option St :=
  match AL.get s.backend o with
  | none => some s
  | some _ =>
    let s' := { s with backend := AL.erase s.backend o }
    some (if s.unlinked.contains o then s' else s'.err)

/-- check_objects_id (fsck.py:1113-1171). -/
def checkObjectsId (cfg : Cfg) (s : St) : Option St :=
  let lst := cfg.list s.backend
  match iter delSpurious (lst.filter (fun o => (AL.get s.db.objects o).isNone)) s with
  | none => none
  | some s =>
    let gone (e : Nat × Obj) : Bool := !lst.contains e.1 && (AL.get s.backend e.1).isNone
    some { s with db := { s.db with objects := s.db.objects.filter (fun e => !gone e) }, found := s.found || s.db.objects.any gone }

/-- Body of the loop of check_objects_phys_size (fsck.py:1173-1186). -/
def fixPhys (cfg : Cfg) (o : Nat) (s : St) : Option St :=
  match AL.get s.db.objects o with
  | none => some s
  | some r =>
    if r.phys = -1 then
      match AL.get s.backend o with
      | none => none
      | some d => some { s.err with db := { s.db with objects := AL.set s.db.objects o { r with phys := cfg.physOf d } } }
    else some s

def checkObjectsPhys (cfg : Cfg) (s : St) : Option St := iter (fixPhys cfg) (keys s.db.objects) s

/-! #### Blocks -/

/-- Moves an entry of a file that lacks data to lost+found (fsck.py:771-783). -/
def moveAffected (e : Bytes × CRow) (s : St) : Option St :=
  match s.db.path e.2.parent with
  | .ok l =>
    match s.db.resolveFree (escape (joinPath (l ++ [e.1]))) with
    | none => none
    | some (p, n) =>
      let (db, nid) := s.db.addName false n
      match findEntry db.contents e.2.parent e.2.nameId with
      | none => some { s with db := db.delName e.2.nameId }
      | some (rowid, r) =>
        match db.putEntry rowid { r with nameId := nid, parent := p } with
        | none => none
        | some db => some { s with db := db.delName e.2.nameId }
  | _ => none

/-- Body of the loop of check_inode_blocks_obj_id (fsck.py:747-786); the rows are deleted at the end. -/
def badBlock (b : Nat × BRow) (s : St) : Option St :=
  iter moveAffected (s.db.entriesOf b.2.inode) s.err

def checkBlocksObj (s : St) : Option St :=
  let bad := s.db.blocks.filter (fun e => (AL.get s.db.objects e.2.obj).isNone)
  (iter badBlock bad s).map (fun s' => { s' with db := { s'.db with blocks := s'.db.blocks.filter (fun e => (AL.get s.db.objects e.2.obj).isSome) } })

/-- Body of the loop of check_inode_blocks_inode (fsck.py:720-745). -/
def unlinkBlock (b : Nat × BRow) (s : St) : Option St :=
  some { s.err with db := { s.db with objects := addRef s.db.objects b.2.obj (-1) }, unlinked := b.2.obj :: s.unlinked }

def checkBlocksInode (s : St) : Option St :=
  let bad := s.db.blocks.filter (fun e => (AL.get s.db.inodes e.2.inode).isNone)
  (iter unlinkBlock bad s).map (fun s' => { s' with db := { s'.db with blocks := s'.db.blocks.filter (fun e => (AL.get s.db.inodes e.2.inode).isSome) } })

/-! #### Inodes -/

def iCount (db : Db) (i : Nat) : Nat := (db.contents.filter (fun e => e.2.inode == i)).length

/-- Body of the loop of check_inodes_refcount (fsck.py:688-715).  `w` is a row of `wrong_refcounts`: the inode and the
number of its entries. -/
def fixRef (w : Nat × Nat) (s : St) : Option St :=
  if w.1 = rootInode ∨ w.1 = ctrlInode then some s
  else
    match AL.get s.db.inodes w.1 with
    | none => some s
    | some i =>
      if w.2 = 0 then
        match s.db.resolveFree ([105, 110, 111, 100, 101, 45] ++ dec w.1) with
        | none => none
        | some (p, n) =>
          let (db, nid) := s.db.addName false n
          match db.insEntry { parent := p, nameId := nid, inode := w.1 } with
          | none => none
          | some db => some { s.err with db := { db with inodes := AL.set db.inodes w.1 { i with refcount := 1 } } }
      else if s.db.pathOk w.1 then
        some { s.err with db := { s.db with inodes := AL.set s.db.inodes w.1 { i with refcount := (w.2 : Int) } } }
      else none

/-- The temporary table `wrong_refcounts`. -/
def wrongRefs (db : Db) : List (Nat × Nat) :=
  db.inodes.filterMap (fun e => if e.2.refcount ≠ (iCount db e.1 : Int) ∨ iCount db e.1 = 0 then some (e.1, iCount db e.1) else none)

def checkInodesRefcount (s : St) : Option St := iter fixRef (wrongRefs s.db) s

/-- `MAX(blockno * max_obj_size + length)` over the blocks of an inode; 0 if there is none. -/
def minSize (bs : Nat) (db : Db) (id : Nat) : Nat :=
  db.blocks.foldr (fun e acc => if e.2.inode = id then match AL.get db.objects e.2.obj with | some o => max (e.2.blockno * bs + o.length) acc | none => acc else acc) 0

/-- Body of the loop of check_inodes_size (fsck.py:620-661). -/
def fixSize (cfg : Cfg) (id : Nat) (s : St) : Option St :=
  match AL.get s.db.inodes id with
  | none => some s
  | some i =>
    if i.size < minSize cfg.blockSize s.db id then
      if s.db.pathOk id then
        some { s.err with db := { s.db with inodes := AL.set s.db.inodes id { i with size := minSize cfg.blockSize s.db id } } }
      else none
    else some s

def checkInodesSize (cfg : Cfg) (s : St) : Option St := iter (fixSize cfg) (keys s.db.inodes) s

/-! #### Extended attributes and symlinks -/

/-- `'lost+found_%d' % rowid` -/
def xName (rowid : Nat) : Bytes := lofName ++ [95] ++ dec rowid

/-- The `while True` loop of check_ext_attributes_name (fsck.py:515-526).  When a name is taken, the code increments
`rowid`, and then updates the row with that number. -/
def renameAttr (inode : Nat) : Nat → Nat → Db → Option Db
  | 0, _, _ => none
  | fuel + 1, rowid, db =>
    let (db', nid) := db.addName true (xName rowid)
    if db'.xattrs.any (fun e => e.2.nameId == nid && e.2.inode == inode) then
      renameAttr inode fuel (rowid + 1) (db'.delName nid)
    else
      match AL.get db'.xattrs rowid with
      | none => some db'
      | some x =>
        if db'.xattrs.any (fun e => e.1 != rowid && e.2.nameId == nid && e.2.inode == x.inode) then none
        else some { db' with xattrs := AL.set db'.xattrs rowid { x with nameId := nid } }

/-- Body of the loop of check_ext_attributes_name (fsck.py:492-526).  The loop above tries at most as many names as
there are attributes. -/
def fixAttrName (rowid : Nat) (s : St) : Option St :=
  match AL.get s.db.xattrs rowid with
  | none => some s
  | some x =>
    if (AL.get s.db.names x.nameId).isSome then some s
    else if (s.db.entriesOf x.inode).all (fun e => s.db.pathOk e.2.parent) then
      match renameAttr x.inode (s.db.xattrs.length + 1) rowid s.db with
      | none => none
      | some db => some { s.err with db := db }
    else none

def checkXattrName (s : St) : Option St := iter fixAttrName (keys s.db.xattrs) s

/-- Body of the loop of check_ext_attributes_inode (fsck.py:528-549); the rows are deleted at the end. -/
def dropAttr (e : Nat × XRow) (s : St) : Option St := some { s.err with db := s.db.delName e.2.nameId }

def checkXattrInode (s : St) : Option St :=
  let bad := s.db.xattrs.filter (fun e => (AL.get s.db.inodes e.2.inode).isNone)
  (iter dropAttr bad s).map (fun s' => { s' with db := { s'.db with xattrs := s'.db.xattrs.filter (fun e => (AL.get s.db.inodes e.2.inode).isSome) } })

/-- check_symlinks_inode (fsck.py:788-805). -/
def checkSymlinks (s : St) : St :=
  { s with db := { s.db with symlinks := s.db.symlinks.filter (fun e => (AL.get s.db.inodes e.1).isSome) }, found := s.found || s.db.symlinks.any (fun e => (AL.get s.db.inodes e.1).isNone) }

/-! #### check_loops (fsck.py:551-618) -/

/-- The distinct elements of a list. -/
def dedup : List Nat → List Nat
  | [] => []
  | a :: t => if t.contains a then dedup t else a :: dedup t

/-- The temporary table `loopcheck`: every inode with children, and the parent of its first entry. -/
def loopTable (db : Db) : List (Nat × Option Nat) :=
  (dedup (db.contents.map (·.2.parent))).map (fun i => (i, (db.contents.find? (fun e => e.2.inode == i)).map (·.2.parent)))

/-- Calls `f` for every element; the results one after the other. -/
def deleteAll (f : Nat → Option (List Nat)) : List Nat → Option (List Nat)
  | [] => some []
  | i :: r =>
    match f i, deleteAll f r with
    | some a, some b => some (a ++ b)
    | _, _ => none

/-- `delete_tree` (fsck.py:573-578): the inodes it deletes from `loopcheck2`.  `fuel` bounds the recursion, which is
endless if there is a loop. -/
def deleteTree (t : List (Nat × Option Nat)) : Nat → Nat → Option (List Nat)
  | 0, _ => none
  | fuel + 1, p =>
    match deleteAll (deleteTree t fuel) ((t.filter (fun e => e.2 == some p)).map (·.1)) with
    | none => none
    | some l => some (l ++ [p])

/-- The smallest element. -/
def minOf : List Nat → Option Nat
  | [] => none
  | a :: t => match minOf t with | none => some a | some b => some (min a b)

/-- The inode to re-anchor (fsck.py:589-600). -/
def culprit (db : Db) (left : List Nat) : Option Nat :=
  match left.find? (fun i => db.contents.any (fun e => e.2.inode == i && e.2.parent == i)) with
  | some i => some i
  | none => minOf left

/-- The entry of `inode` is moved to lost+found (fsck.py:602-615). -/
def reanchor (inode : Nat) (s : St) : Option (St × Nat) :=
  match (s.db.entriesOf inode).head? with
  | none => none
  | some (name, r) =>
    match s.db.resolveFree name with
    | none => none
    | some (p, n) =>
      let (db, nid) := s.db.addName false n
      match db.moveRows (fun x => { x with parent := p, nameId := nid }) (keys (db.contents.filter (fun e => e.2.inode == inode && e.2.nameId == r.nameId))) with
      | none => none
      | some db => some ({ s.err with db := db.delName r.nameId }, p)

/-- The `while True` loop.  `left` is `loopcheck2`. -/
def loopRun (depth : Nat) : Nat → Nat → List (Nat × Option Nat) → List Nat → St → Option St
  | 0, _, _, _, _ => none
  | fuel + 1, root, t, left, s =>
    match deleteTree t depth root with
    | none => none
    | some del =>
      let left := left.filter (fun i => !del.contains i)
      match culprit s.db left with
      | none => some s
      | some inode =>
        match reanchor inode s with
        | none => none
        | some (s, p) => loopRun depth fuel inode (AL.set t inode (some p)) left s

/-- `depth` is the recursion limit of Python. -/
def checkLoops (depth : Nat) (s : St) : Option St :=
  let t := loopTable s.db
  loopRun depth (t.length + 1) rootInode t (keys t) s

/-! #### check_unix (fsck.py:900-1028) -/

def isLnk (m : Nat) : Bool := m &&& sIFMT == 0o120000
def isChr (m : Nat) : Bool := m &&& sIFMT == 0o020000

/-- The mode of an inode without a type is changed (fsck.py:933-948). -/
def fixMode (db : Db) (id : Nat) (mode : Nat) : Nat :=
  if mode &&& sIFMT = 0 then
    if db.contents.any (fun e => e.2.parent == id) then mode ||| 0o040000 else mode ||| 0o100000
  else mode

/-- The conditions that are reported for an inode (fsck.py:950-1016). -/
def unixBad (db : Db) (id : Nat) (i : Inode) : Bool :=
  let target := AL.get db.symlinks id
  let hasChildren := db.contents.any (fun e => e.2.parent == id)
  (isLnk i.mode && target.isNone)
    || (isLnk i.mode && (match target with | some t => i.size != t.length | none => false))
    || (i.size != 0 && !isReg i.mode && !isLnk i.mode && !isDir i.mode)
    || (target.isSome && !isLnk i.mode)
    || (i.rdev != 0 && !(isBlk i.mode || isChr i.mode))
    || (hasChildren && !isDir i.mode)
    || (!isReg i.mode && db.blocks.any (fun e => e.2.inode == id))

def unixInode (id : Nat) (s : St) : Option St :=
  match AL.get s.db.inodes id with
  | none => some s
  | some i =>
    let mode := fixMode s.db id i.mode
    let i' := { i with mode := mode }
    if mode ≠ i.mode ∨ unixBad s.db id i' then
      if s.db.pathOk id then some { s.err with db := { s.db with inodes := AL.set s.db.inodes id i' } }
      else none
    else some s

/-- Entries with long names (fsck.py:1018-1028). -/
def longEntries (db : Db) : List (Nat × CRow) :=
  db.contents.filter (fun e => match AL.get db.names e.2.nameId with | some r => decide (255 < r.name.length) | none => false)

def unixName (e : Nat × CRow) (s : St) : Option St :=
  if s.db.pathOk e.2.parent then some s.err else none

def checkUnix (s : St) : Option St :=
  match iter unixInode (keys s.db.inodes) s with
  | none => none
  | some s => iter unixName (longEntries s.db) s

/-! #### check_foreign_keys (fsck.py:189-229) -/

def Db.dangling (db : Db) : Bool :=
  db.blocks.any (fun e => (AL.get db.inodes e.2.inode).isNone || (AL.get db.objects e.2.obj).isNone)
    || db.symlinks.any (fun e => (AL.get db.inodes e.1).isNone)
    || db.contents.any (fun e => (AL.get db.names e.2.nameId).isNone || (AL.get db.inodes e.2.inode).isNone || (AL.get db.inodes e.2.parent).isNone)
    || db.xattrs.any (fun e => (AL.get db.inodes e.2.inode).isNone || (AL.get db.names e.2.nameId).isNone)

def checkForeign (s : St) : St :=
  if s.db.dangling then { s with found := true, uncorr := true } else s

/-! #### check (fsck.py:127-179) -/

/-- Value of the argument `check_cache`. -/
inductive CacheArg where
  | no | yes | keep
deriving DecidableEq, Repr

def cachePart (cfg : Cfg) (c : CacheArg) (s : St) : Option St :=
  match c with
  | .no => some s
  | .yes => checkCache cfg false s
  | .keep => checkCache cfg true s

/-- The checks up to the physical sizes of objects. -/
def checkA (cfg : Cfg) (c : CacheArg) (s : St) : Option St := do
  let s ← checkLof cfg s
  let s ← cachePart cfg c s
  let s := checkNamesRefcount s
  let s ← checkContentsName s
  let s ← checkContentsInode s
  checkContentsParent cfg s

def checkB (cfg : Cfg) (s : St) : Option St := do
  let s := checkObjectsTemp s
  let s := checkObjectsHash s
  let s ← checkObjectsRefcount s
  let s ← checkObjectsId cfg s
  let s ← checkObjectsPhys cfg s
  let s ← checkBlocksObj s
  checkBlocksInode s

def checkC (cfg : Cfg) (depth : Nat) (s : St) : Option St := do
  let s ← checkInodesRefcount s
  let s ← checkInodesSize cfg s
  let s ← checkXattrName s
  let s ← checkXattrInode s
  let s := checkSymlinks s
  let s ← checkLoops depth s
  let s ← checkUnix s
  some (checkForeign s)

def check (cfg : Cfg) (depth : Nat) (c : CacheArg) (s : St) : Option St := do
  let s ← checkA cfg c s
  let s ← checkB cfg s
  checkC cfg depth s

end Verif.Fsck
