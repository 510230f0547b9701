/-
Model of the FUSE operations of S3QL (fs.py) on the metadata database (schema: database.py:655-862).

Scope and simplifications:
* Inodes are a table.  `InodeCache` in front of it is modelled and proved to behave like the table in `Verif.Inode`
  (fs.py always assigns attributes through the object it has just looked up).
* Each operation is one step.  Awaits inside operations (only in `cache.remove`, `cache.get` and the tree commands)
  are not interleaved with other operations here.
* File data is represented by the rows of `inode_blocks` and the reference counts of `objects`; contents of blocks and
  the block cache are modelled in `Verif.FileData` and `Verif.Cache`.
* Python exceptions that are not `FUSEError` are the error `crash`.
* `time_ns()` is a parameter of the operations.  Broken blocks and the statistics operations are left out.
-/
import Verif.Util.AList

namespace Verif.Fs

abbrev Bytes := List UInt8

/-- A row of `inodes` (database.py:705-741). -/
structure Inode where
  mode : Nat
  uid : Nat
  gid : Nat
  mtime : Int
  atime : Int
  ctime : Int
  refcount : Int
  size : Nat
  rdev : Nat
  locked : Bool
deriving DecidableEq, Repr, Inhabited

/-- The metadata database. -/
structure Db where
  /-- `inodes`, by id -/
  inodes : List (Nat × Inode)
  /-- the AUTOINCREMENT counter of `inodes`: the largest id ever used -/
  seq : Nat
  /-- `names`: id to (name, refcount) -/
  names : List (Nat × (Bytes × Int))
  /-- `contents`: (parent_inode, name_id) to inode; the column `rowid` is not used by the code -/
  contents : List ((Nat × Nat) × Nat)
  /-- `ext_attributes`: (inode, name_id) to value -/
  xattrs : List ((Nat × Nat) × Bytes)
  /-- `symlink_targets` -/
  symlinks : List (Nat × Bytes)
  /-- `inode_blocks`: (inode, blockno) to obj_id -/
  blocks : List ((Nat × Nat) × Nat)
  /-- `objects`: id to refcount -/
  objects : List (Nat × Int)
deriving DecidableEq, Repr

/-- State of the `Operations` instance (fs.py:123-157). -/
structure St where
  db : Db
  /-- `open_inodes` -/
  opened : List (Nat × Int)
  failsafe : Bool
  /-- `max_obj_size` -/
  maxObj : Nat
deriving DecidableEq, Repr

inductive Err where
  | EPERM | ENOENT | EACCES | EINVAL | EISDIR | ENOTDIR | ENOTEMPTY | ENOTSUP | ENOATTR | EOPNOTSUPP | EIO
  /-- an uncaught Python exception, which ends the file system process -/
  | crash
deriving DecidableEq, Repr

inductive Reply where
  | unit
  | entry (id : Nat) (attr : Inode)
  | bytes (b : Bytes)
  | names (l : List Bytes)
  /-- entries of a directory: name, inode and the offset to continue from -/
  | dir (l : List (Bytes × Nat × Nat))
  | fh (id : Nat)
  | count (n : Nat)
deriving DecidableEq, Repr

abbrev R := Except Err Reply × St

def rootInode : Nat := 1
def ctrlInode : Nat := 2

/-- `CTRL_NAME` (__init__.py): `.__s3ql__ctrl__` -/
def ctrlName : Bytes := [46, 95, 95, 115, 51, 113, 108, 95, 95, 99, 116, 114, 108, 95, 95]
/-- The names of the two POSIX ACL attributes (fs.py:258), which are refused: `system.posix_acl_access` and
`system.posix_acl_default`. -/
def aclAccess : Bytes :=
  [115, 121, 115, 116, 101, 109, 46, 112, 111, 115, 105, 120, 95, 97, 99, 108, 95, 97, 99, 99, 101, 115, 115]
def aclDefault : Bytes :=
  [115, 121, 115, 116, 101, 109, 46, 112, 111, 115, 105, 120, 95, 97, 99, 108, 95, 100, 101, 102, 97, 117, 108, 116]

/-! #### `stat` and `os` constants -/

def sIFMT : Nat := 0o170000
def isDir (m : Nat) : Bool := m &&& sIFMT == 0o040000
def isReg (m : Nat) : Bool := m &&& sIFMT == 0o100000
def isFifo (m : Nat) : Bool := m &&& sIFMT == 0o010000
def isBlk (m : Nat) : Bool := m &&& sIFMT == 0o060000
def sISGID : Nat := 0o002000
def symlinkMode : Nat := 0o120000 ||| 0o777
def oWRONLY : Nat := 1
def oRDWR : Nat := 2
def oTRUNC : Nat := 0o1000

/-! #### Table access -/

/-- `SELECT id FROM names WHERE name=?` -/
def findName : List (Nat × (Bytes × Int)) → Bytes → Option (Nat × Int)
  | [], _ => none
  | (i, (n', r)) :: t, n => if n' = n then some (i, r) else findName t n

def Db.nameId (db : Db) (n : Bytes) : Option Nat := (findName db.names n).map (·.1)

/-- The largest id in a table; SQLite gives a new row of `names` (no AUTOINCREMENT) this id plus one. -/
def maxKey {ν : Type} : List (Nat × ν) → Nat
  | [] => 0
  | (i, _) :: t => max i (maxKey t)

/-- `SELECT inode FROM contents_v WHERE name=? AND parent_inode=?` -/
def Db.child (db : Db) (p : Nat) (n : Bytes) : Option Nat :=
  (db.nameId n).bind (fun i => AL.get db.contents (p, i))

/-- `SELECT 1 FROM contents WHERE parent_inode=?` -/
def Db.hasChildren (db : Db) (p : Nat) : Bool := db.contents.any (fun e => e.1.1 == p)

/-- Assigns attributes of an inode that was just looked up (through `InodeCache`). -/
def Db.modInode (db : Db) (id : Nat) (f : Inode → Inode) : Db :=
  match AL.get db.inodes id with
  | some i => { db with inodes := AL.set db.inodes id (f i) }
  | none => db

/-- `_add_name` (fs.py:806-818). -/
def Db.addName (db : Db) (n : Bytes) : Db × Nat :=
  match findName db.names n with
  | some (i, r) => ({ db with names := AL.set db.names i (n, r + 1) }, i)
  | none => ({ db with names := AL.set db.names (maxKey db.names + 1) (n, 1) }, maxKey db.names + 1)

/-- `_del_name` (fs.py:820-836); `none` is `NoSuchRowError`. -/
def Db.delName (db : Db) (n : Bytes) : Option (Db × Nat) :=
  match findName db.names n with
  | some (i, r) =>
    if 1 < r then some ({ db with names := AL.set db.names i (n, r - 1) }, i)
    else some ({ db with names := AL.erase db.names i }, i)
  | none => none

/-- `open_inodes[id] += n` -/
def St.addOpen (s : St) (id : Nat) (n : Int) : St :=
  { s with opened := AL.set s.opened id ((AL.get s.opened id).getD 0 + n) }

/-- Number of blocks of a file: `ceil(size / max_obj_size)` -/
def ceilDiv (size m : Nat) : Nat := (size + m - 1) / m

/-- Dereferences an object (block_cache.py `_deref_obj` 536-569, database part). -/
def derefObj (objs : List (Nat × Int)) (o : Nat) : List (Nat × Int) :=
  match AL.get objs o with
  | some r => if r ≤ 1 then AL.erase objs o else AL.set objs o (r - 1)
  | none => objs

/-- Database effect of `cache.remove(id, lo, hi)` (block_cache.py:788-841): the rows of the blocks `lo ≤ b < hi` are
deleted and their objects dereferenced. -/
def removeBlocks (id lo hi : Nat) : List ((Nat × Nat) × Nat) → List (Nat × Int) →
    List ((Nat × Nat) × Nat) × List (Nat × Int)
  | [], objs => ([], objs)
  | ((i, b), o) :: t, objs =>
    if i = id ∧ lo ≤ b ∧ b < hi then removeBlocks id lo hi t (derefObj objs o)
    else
      let r := removeBlocks id lo hi t objs
      (((i, b), o) :: r.1, r.2)

def Db.cacheRemove (db : Db) (id lo hi : Nat) : Db :=
  let r := removeBlocks id lo hi db.blocks db.objects
  { db with blocks := r.1, objects := r.2 }

/-! #### Purging inodes -/

/-- The ids of the names of the extended attributes of an inode. -/
def xattrNames (xattrs : List ((Nat × Nat) × Bytes)) (id : Nat) : List Nat :=
  (xattrs.filter (fun e => e.1.1 == id)).map (fun e => e.1.2)

/-- `_purge_inode` (fs.py:671-693). -/
def Db.purge (db : Db) (id size maxObj : Nat) : Db :=
  let db := db.cacheRemove id 0 (ceilDiv size maxObj)
  let xs := xattrNames db.xattrs id
  let names := db.names.map (fun e => if e.1 ∈ xs then (e.1, (e.2.1, e.2.2 - 1)) else e)
  let names := names.filter (fun e => !(decide (e.1 ∈ xs) && e.2.2 == 0))
  { db with names := names, xattrs := db.xattrs.filter (fun e => !(e.1.1 == id)),
            symlinks := AL.erase db.symlinks id, inodes := AL.erase db.inodes id }

/-- One item of `forget` (fs.py:1384-1394).  The inode object is looked up only if the count drops to zero. -/
def forgetOne (s : St) (id : Nat) (n : Int) : Except Err Unit × St :=
  let c := (AL.get s.opened id).getD 0 - n
  if c = 0 then
    let s := { s with opened := AL.erase s.opened id }
    match AL.get s.db.inodes id with
    | none => (.error .crash, s)
    | some i =>
      if i.refcount = 0 then (.ok (), { s with db := s.db.purge id i.size s.maxObj })
      else (.ok (), s)
  else (.ok (), { s with opened := AL.set s.opened id c })

def forget (s : St) : List (Nat × Int) → Except Err Unit × St
  | [] => (.ok (), s)
  | (id, n) :: t =>
    match forgetOne s id n with
    | (.ok (), s') => forget s' t
    | (.error e, s') => (.error e, s')

/-! #### Lookups -/

/-- `_lookup` (fs.py:162-190).  The comparisons of the name with `'.'` and `'..'` are always false, because the name is
of type `bytes`; hence these names are looked up like others. -/
def lookup (s : St) (p : Nat) (n : Bytes) : Except Err Nat × St :=
  if n = ctrlName then
    match AL.get s.db.inodes ctrlInode with
    | some _ => (.ok ctrlInode, s.addOpen ctrlInode 1)
    | none => (.error .crash, s)
  else
    match s.db.child p n with
    | none => (.error .ENOENT, s)
    | some id =>
      match AL.get s.db.inodes id with
      | some _ => (.ok id, s.addOpen id 1)
      | none => (.error .crash, s)

def opLookup (s : St) (p : Nat) (n : Bytes) : R :=
  match lookup s p n with
  | (.ok id, s') =>
    match AL.get s'.db.inodes id with
    | some i => (.ok (.entry id i), s')
    | none => (.error .crash, s')
  | (.error e, s') => (.error e, s')

def opGetattr (s : St) (id : Nat) : R :=
  match AL.get s.db.inodes id with
  | some i => (.ok (.entry id i), s)
  | none => (.error .crash, s)

/-- The update of the access time when reading (fs.py:209, 226, 1255). -/
def touchAtime (now : Int) (i : Inode) : Inode :=
  if i.atime < i.ctime ∨ i.atime < i.mtime then { i with atime := now } else i

def opReadlink (s : St) (id : Nat) (now : Int) : R :=
  match AL.get s.db.inodes id with
  | none => (.error .crash, s)
  | some _ =>
    let s := { s with db := s.db.modInode id (touchAtime now) }
    match AL.get s.db.symlinks id with
    | some t => (.ok (.bytes t), s)
    | none => (.error .EINVAL, s)

/-! #### Extended attributes -/

/-- `getxattr` (fs.py:247-268) for an inode other than the control file. -/
def opGetxattr (s : St) (id : Nat) (n : Bytes) : R :=
  if n = aclAccess ∨ n = aclDefault then (.error .EOPNOTSUPP, s)
  else
    match (s.db.nameId n).bind (fun i => AL.get s.db.xattrs (id, i)) with
    | some v => (.ok (.bytes v), s)
    | none => (.error .ENOATTR, s)

/-- `listxattr` (fs.py:270-277): the view joins with `names`. -/
def Db.listxattr (db : Db) (id : Nat) : List Bytes :=
  (db.xattrs.filter (fun e => e.1.1 == id)).filterMap (fun e => (AL.get db.names e.1.2).map (·.1))

def opListxattr (s : St) (id : Nat) : R := (.ok (.names (s.db.listxattr id)), s)

/-- `setxattr` (fs.py:279, 345-359) for an inode other than the control file. -/
def opSetxattr (s : St) (id : Nat) (n v : Bytes) (now : Int) : R :=
  if n = aclAccess ∨ n = aclDefault then (.error .EOPNOTSUPP, s)
  else if s.failsafe then (.error .EPERM, s)
  else
    match AL.get s.db.inodes id with
    | none => (.error .crash, s)
    | some i =>
      if i.locked then (.error .EPERM, s)
      else
        let (db, nid) := s.db.addName n
        let db := { db with xattrs := AL.set db.xattrs (id, nid) v }
        (.ok .unit, { s with db := db.modInode id (fun i => { i with ctime := now }) })

/-- `removexattr` (fs.py:361-377). -/
def opRemovexattr (s : St) (id : Nat) (n : Bytes) (now : Int) : R :=
  if s.failsafe then (.error .EPERM, s)
  else
    match AL.get s.db.inodes id with
    | none => (.error .crash, s)
    | some i =>
      if i.locked then (.error .EPERM, s)
      else
        match s.db.delName n with
        | none => (.error .ENOATTR, s)
        | some (db, nid) =>
          match AL.get db.xattrs (id, nid) with
          | none => (.error .ENOATTR, { s with db := db })
          | some _ =>
            let db := { db with xattrs := AL.erase db.xattrs (id, nid) }
            (.ok .unit, { s with db := db.modInode id (fun i => { i with ctime := now }) })

/-! #### Removing entries -/

/-- Sets the modification and change times (directories whose entries change). -/
def touchDir (now : Int) (i : Inode) : Inode := { i with mtime := now, ctime := now }

/-- `get_path(id, db, name)` (common.py:112-150), which the code evaluates to produce log messages.  `true` if it
succeeds.  Of several entries for an inode the first row is used. -/
def pathOk (db : Db) : Nat → Nat → Bool
  | 0, _ => false
  | fuel + 1, id =>
    if id = rootInode then true
    else
      match db.contents.find? (fun e => e.2 == id && (AL.get db.names e.1.2).isSome) with
      | none => false
      | some e => pathOk db fuel e.1.1

/-- `maxdepth` is 255, and is reached after 255 components. -/
def Db.getPathOk (db : Db) (id : Nat) : Bool := pathOk db 255 id

/-- `_remove` (fs.py:695-728). -/
def remove (s : St) (p : Nat) (n : Bytes) (id : Nat) (force : Bool) (now : Int) : Except Err Unit × St :=
  if s.db.hasChildren id then
    (if s.db.getPathOk p then .error .ENOTEMPTY else .error .crash, s)
  else
    match AL.get s.db.inodes p with
    | none => (.error .crash, s)
    | some ip =>
      if ip.locked ∧ force = false then (.error .EPERM, s)
      else
        match s.db.delName n with
        | none => (.error .crash, s)
        | some (db, nid) =>
          let db := { db with contents := AL.erase db.contents (p, nid) }
          match AL.get db.inodes id with
          | none => (.error .crash, { s with db := db })
          | some _ =>
            let db := db.modInode id (fun i => { i with refcount := i.refcount - 1, ctime := now })
            let db := db.modInode p (touchDir now)
            let s := { s with db := db }
            match AL.get db.inodes id with
            | none => (.error .crash, s)
            | some i =>
              if i.refcount = 0 ∧ AL.get s.opened id = none then
                (.ok (), { s with db := db.purge id i.size s.maxObj })
              else (.ok (), s)

/-- Ends an operation with `forget` of what it looked up. -/
def finish (r : Except Err Unit × St) : R :=
  match r with
  | (.ok (), s) => (.ok .unit, s)
  | (.error e, s) => (.error e, s)

/-- `unlink` (fs.py:640-652).  The lookup is not undone if the operation fails. -/
def opUnlink (s : St) (p : Nat) (n : Bytes) (now : Int) : R :=
  if s.failsafe then (.error .EPERM, s)
  else
    match lookup s p n with
    | (.error e, s) => (.error e, s)
    | (.ok id, s) =>
      match AL.get s.db.inodes id with
      | none => (.error .crash, s)
      | some i =>
        if isDir i.mode then (.error .EISDIR, s)
        else
          match remove s p n id false now with
          | (.error e, s) => (.error e, s)
          | (.ok (), s) => finish (forget s [(id, 1)])

/-- `rmdir` (fs.py:654-669). -/
def opRmdir (s : St) (p : Nat) (n : Bytes) (now : Int) : R :=
  if s.failsafe then (.error .EPERM, s)
  else
    match lookup s p n with
    | (.error e, s) => (.error e, s)
    | (.ok id, s) =>
      match AL.get s.db.inodes p with
      | none => (.error .crash, s)
      | some ip =>
        if ip.locked then (.error .EPERM, s)
        else
          match AL.get s.db.inodes id with
          | none => (.error .crash, s)
          | some i =>
            if isDir i.mode = false then (.error .ENOTDIR, s)
            else
              match remove s p n id false now with
              | (.error e, s) => (.error e, s)
              | (.ok (), s) => finish (forget s [(id, 1)])

/-! #### Creating entries -/

/-- `_create` (fs.py:1179-1229).  Inserting an entry that exists violates the UNIQUE constraint. -/
def create (s : St) (p : Nat) (n : Bytes) (mode uid gid rdev size : Nat) (now : Int) : Except Err Nat × St :=
  if n = ctrlName then (if s.db.getPathOk p then .error .EACCES else .error .crash, s)
  else
    match AL.get s.db.inodes p with
    | none => (.error .crash, s)
    | some ip =>
      if ip.locked then (.error .EPERM, s)
      else if ip.refcount = 0 then (.error .EINVAL, s)
      else
        let db := s.db.modInode p (touchDir now)
        let setgid := ip.mode &&& sISGID ≠ 0
        let gid' := if setgid then ip.gid else gid
        let mode' := if setgid ∧ isDir mode then mode ||| sISGID else mode
        let id := db.seq + 1
        let db := { db with seq := id, inodes := AL.set db.inodes id ⟨mode', uid, gid', now, now, now, 1, size, rdev, false⟩ }
        let (db, nid) := db.addName n
        match AL.get db.contents (p, nid) with
        | some _ => (.error .crash, { s with db := db })
        | none => (.ok id, { s with db := { db with contents := AL.set db.contents (p, nid) id } })

/-- The reply for a new entry, which counts as a lookup. -/
def entryReply (s : St) (id : Nat) : R :=
  let s := s.addOpen id 1
  match AL.get s.db.inodes id with
  | some i => (.ok (.entry id i), s)
  | none => (.error .crash, s)

/-- `mknod` and `mkdir` (fs.py:1017-1035). -/
def opMknod (s : St) (p : Nat) (n : Bytes) (mode rdev uid gid : Nat) (now : Int) : R :=
  if s.failsafe then (.error .EPERM, s)
  else
    match create s p n mode uid gid rdev 0 now with
    | (.error e, s) => (.error e, s)
    | (.ok id, s) => entryReply s id

/-- `symlink` (fs.py:730-761). -/
def opSymlink (s : St) (p : Nat) (n target : Bytes) (uid gid : Nat) (now : Int) : R :=
  if s.failsafe then (.error .EPERM, s)
  else
    match create s p n symlinkMode uid gid 0 target.length now with
    | (.error e, s) => (.error e, s)
    | (.ok id, s) => entryReply { s with db := { s.db with symlinks := AL.set s.db.symlinks id target } } id

/-- `link` (fs.py:903-936). -/
def opLink (s : St) (id p : Nat) (n : Bytes) (now : Int) : R :=
  if n = ctrlName ∨ id = ctrlInode then (if s.db.getPathOk p then .error .EACCES else .error .crash, s)
  else
    match AL.get s.db.inodes p with
    | none => (.error .crash, s)
    | some ip =>
      if ip.refcount = 0 then (.error .EINVAL, s)
      else if s.failsafe ∨ ip.locked then (.error .EPERM, s)
      else
        let db := s.db.modInode p (touchDir now)
        let (db, nid) := db.addName n
        match AL.get db.contents (p, nid) with
        | some _ => (.error .crash, { s with db := db })
        | none =>
          let db := { db with contents := AL.set db.contents (p, nid) id }
          match AL.get db.inodes id with
          | none => (.error .crash, { s with db := db })
          | some _ =>
            let db := db.modInode id (fun i => { i with refcount := i.refcount + 1, ctime := now })
            entryReply { s with db := db } id

/-! #### Renaming -/

/-- `_rename` (fs.py:838-855). -/
def renameTo (db : Db) (po : Nat) (no : Bytes) (pn : Nat) (nn : Bytes) (now : Int) : Option Db :=
  let (db, nidNew) := db.addName nn
  match db.delName no with
  | none => none
  | some (db, nidOld) =>
    let db := match AL.get db.contents (po, nidOld) with
      | some c => { db with contents := AL.set (AL.erase db.contents (po, nidOld)) (pn, nidNew) c }
      | none => db
    some ((db.modInode po (touchDir now)).modInode pn (touchDir now))

/-- `_replace` (fs.py:857-901). -/
def replace (s : St) (po : Nat) (no : Bytes) (pn : Nat) (nn : Bytes) (idOld idNew : Nat) (now : Int) :
    Except Err Unit × St :=
  if s.db.hasChildren idNew then (if s.db.getPathOk pn then .error .EINVAL else .error .crash, s)
  else
    match s.db.nameId nn with
    | none => (.error .crash, s)
    | some nidNew =>
      let db := match AL.get s.db.contents (pn, nidNew) with
        | some _ => { s.db with contents := AL.set s.db.contents (pn, nidNew) idOld }
        | none => s.db
      match db.delName no with
      | none => (.error .crash, { s with db := db })
      | some (db, nidOld) =>
        let db := { db with contents := AL.erase db.contents (po, nidOld) }
        match AL.get db.inodes idNew with
        | none => (.error .crash, { s with db := db })
        | some _ =>
          let db := db.modInode idNew (fun i => { i with refcount := i.refcount - 1, ctime := now })
          let db := (db.modInode po (touchDir now)).modInode pn (touchDir now)
          let s := { s with db := db }
          match AL.get db.inodes idNew with
          | none => (.error .crash, s)
          | some i =>
            if i.refcount = 0 ∧ AL.get s.opened idNew = none then
              (.ok (), { s with db := db.purge idNew i.size s.maxObj })
            else (.ok (), s)

/-- `rename` (fs.py:763-804). -/
def opRename (s : St) (po : Nat) (no : Bytes) (pn : Nat) (nn : Bytes) (flags : Nat) (now : Int) : R :=
  if flags ≠ 0 then (.error .ENOTSUP, s)
  else if nn = ctrlName ∨ no = ctrlName then
    (if s.db.getPathOk po ∧ s.db.getPathOk pn then .error .EACCES else .error .crash, s)
  else if s.failsafe then (.error .EPERM, s)
  else
    match AL.get s.db.inodes po with
    | none => (.error .crash, s)
    | some ipo =>
      if ipo.locked then (.error .EPERM, s)
      else
        match AL.get s.db.inodes pn with
        | none => (.error .crash, s)
        | some ipn =>
          if ipn.locked then (.error .EPERM, s)
          else
            match lookup s po no with
            | (.error e, s) => (.error e, s)
            | (.ok idOld, s) =>
              match lookup s pn nn with
              | (.ok idNew, s) =>
                match replace s po no pn nn idOld idNew now with
                | (.error e, s) => (.error e, s)
                | (.ok (), s) => finish (forget s [(idOld, 1), (idNew, 1)])
              | (.error .ENOENT, s) =>
                match renameTo s.db po no pn nn now with
                | none => (.error .crash, s)
                | some db => finish (forget { s with db := db } [(idOld, 1)])
              | (.error e, s) => (.error e, s)

/-! #### Attributes and data -/

/-- The fields of a `setattr` request; `none` = not to be updated. -/
structure SetAttr where
  mode : Option Nat := none
  uid : Option Nat := none
  gid : Option Nat := none
  atime : Option Int := none
  mtime : Option Int := none
  size : Option Nat := none

/-- `x.bit_length() > 63` -/
def badTime (t : Int) : Bool := decide (2 ^ 63 ≤ t.natAbs)

/-- `setattr` (fs.py:938-1015).  `corrupt`: fetching the last block, to cut it, fails with `CorruptedObjectError`.
The case that the block is missing in the backend (an uncaught `NoSuchObject`) is the flag `missing`. -/
def opSetattr (s : St) (id : Nat) (a : SetAttr) (corrupt missing : Bool) (now : Int) : R :=
  match AL.get s.db.inodes id with
  | none => (.error .crash, s)
  | some i =>
    if s.failsafe ∨ i.locked then (.error .EPERM, s)
    else
      let i1 := { i with mode := a.mode.getD i.mode, uid := a.uid.getD i.uid, gid := a.gid.getD i.gid }
      if (a.atime.map badTime).getD false then (.error .EINVAL, { s with db := s.db.modInode id (fun _ => i1) })
      else
        let i2 := { i1 with atime := a.atime.getD i1.atime }
        if (a.mtime.map badTime).getD false then (.error .EINVAL, { s with db := s.db.modInode id (fun _ => i2) })
        else
          let i3 := { i2 with mtime := a.mtime.getD i2.mtime, ctime := now }
          match a.size with
          | none =>
            let s := { s with db := s.db.modInode id (fun _ => i3) }
            (.ok (.entry id i3), s)
          | some len =>
            let i4 := { i3 with size := len }
            let db := s.db.modInode id (fun _ => i4)
            let total := ceilDiv i.size s.maxObj
            if len % s.maxObj = 0 then
              (.ok (.entry id i4), { s with db := db.cacheRemove id (len / s.maxObj) total })
            else
              let s := { s with db := db.cacheRemove id (len / s.maxObj + 1) total }
              if missing then (.error .crash, s)
              else if corrupt then (.error .EIO, { s with failsafe := true })
              else (.ok (.entry id i4), s)

/-- `open` (fs.py:1115-1142). -/
def opOpen (s : St) (id flags : Nat) (now : Int) : R :=
  let wr := flags &&& oRDWR ≠ 0 ∨ flags &&& oWRONLY ≠ 0
  match AL.get s.db.inodes id with
  | none => (.error .crash, s)
  | some i =>
    if wr ∧ (s.failsafe ∨ i.locked) then (.error .EPERM, s)
    else if flags &&& oTRUNC ≠ 0 then
      if ¬wr then (.error .EINVAL, s)
      else if isReg i.mode then
        match opSetattr s id { mtime := some now, size := some 0 } false false now with
        | (.ok _, s) => (.ok (.fh id), s)
        | (.error e, s) => (.error e, s)
      else if isFifo i.mode ∨ isBlk i.mode then (.ok (.fh id), s)
      else (.error .EINVAL, s)
    else (.ok (.fh id), s)

/-- `create` (fs.py:1157-1177). -/
def opCreate (s : St) (p : Nat) (n : Bytes) (mode flags uid gid : Nat) (now : Int) : R :=
  if s.failsafe then (.error .EPERM, s)
  else
    match s.db.child p n with
    | none =>
      match create s p n mode uid gid 0 0 now with
      | (.error e, s) => (.error e, s)
      | (.ok id, s) => entryReply s id
    | some id =>
      match opOpen s id flags now with
      | (.error e, s) => (.error e, s)
      | (.ok _, s) => entryReply s id

/-- The effect of `read` (fs.py:1231-1259) on the metadata; the data are the subject of `Verif.FileData`.  `broken`: a
block cannot be read. -/
def opRead (s : St) (id : Nat) (broken : Bool) (now : Int) : R :=
  match AL.get s.db.inodes id with
  | none => (.error .crash, s)
  | some _ =>
    if broken then (.error .EIO, { s with failsafe := true })
    else (.ok .unit, { s with db := s.db.modInode id (touchAtime now) })

/-- The effect of `write` (fs.py:1261-1287) on the metadata; the rows of the new blocks are inserted by a later
`upload`. -/
def opWrite (s : St) (id off len : Nat) (broken : Bool) (now : Int) : R :=
  if s.failsafe then (.error .EPERM, s)
  else
    match AL.get s.db.inodes id with
    | none => (.error .crash, s)
    | some i =>
      if i.locked then (.error .EPERM, s)
      else if broken then (.error .EIO, { s with failsafe := true })
      else (.ok (.count len), { s with db := s.db.modInode id (fun i =>
        { i with size := max i.size (off + len), mtime := now, ctime := now }) })

/-- Number of references to an object goes up by one. -/
def refObj (objs : List (Nat × Int)) (o : Nat) : List (Nat × Int) := AL.set objs o ((AL.get objs o).getD 0 + 1)

/-- Database effect of the upload of a cached block (block_cache.py `upload_if_dirty` 420-534): the block is bound to the
object `o` (a new one, or an existing one with the same contents), and the object it was bound to before is
dereferenced.  The block belongs to the file (see `Verif.Cache` for the conditions under which it happens), which is a
regular file, as the kernel reads and writes only those. -/
def bgUpload (s : St) (id b o : Nat) : St :=
  match AL.get s.db.inodes id with
  | none => s
  | some i =>
    if isReg i.mode = true ∧ b * s.maxObj < i.size then
      let old := AL.get s.db.blocks (id, b)
      if old = some o then s
      else
        let objs := refObj s.db.objects o
        let objs := match old with
          | some o' => derefObj objs o'
          | none => objs
        { s with db := { s.db with blocks := AL.set s.db.blocks (id, b) o, objects := objs } }
    else s

/-! #### Listing directories -/

/-- Insertion into a list ordered by its first component. -/
def insByKey (e : Nat × Bytes × Nat) : List (Nat × Bytes × Nat) → List (Nat × Bytes × Nat)
  | [] => [e]
  | f :: t => if e.1 ≤ f.1 then e :: f :: t else f :: insByKey e t

/-- `SELECT name_id, name, inode FROM contents_v WHERE parent_inode=? AND name_id > ? ORDER BY name_id`; the lower bound
is given by `keep`. -/
def Db.readdirRows (db : Db) (p : Nat) (keep : Nat → Bool) : List (Nat × Bytes × Nat) :=
  (db.contents.filterMap (fun e =>
    if e.1.1 = p ∧ keep e.1.2 = true then (AL.get db.names e.1.2).map (fun n => (e.1.2, n.1, e.2)) else none)).foldr insByKey []

/-- `readdir` (fs.py:220-245).  `room` is the number of entries the kernel accepts (`readdir_reply` returns `False` for
the next one); an entry of a missing inode is a `KeyError`. -/
def opReaddir (s : St) (p off room : Nat) (now : Int) : R :=
  match AL.get s.db.inodes p with
  | none => (.error .crash, s)
  | some _ =>
    let s := { s with db := s.db.modInode p (touchAtime now) }
    -- `off - 3` with `off = -1` for 0: everything; for 1, 2, 3 it is not positive: everything
    let rows := (s.db.readdirRows p (fun i => off = 0 || decide (off < i + 3))).take room
    if rows.all (fun r => (AL.get s.db.inodes r.2.2).isSome) then
      (.ok (.dir (rows.map (fun r => (r.2.1, r.2.2, r.1 + 3)))), rows.foldl (fun s r => s.addOpen r.2.2 1) s)
    else (.error .crash, s)

/-! #### All operations -/

inductive Op where
  | lookup (p : Nat) (n : Bytes)
  | getattr (id : Nat)
  | readlink (id : Nat) (now : Int)
  | readdir (p off room : Nat) (now : Int)
  | getxattr (id : Nat) (n : Bytes)
  | listxattr (id : Nat)
  | setxattr (id : Nat) (n v : Bytes) (now : Int)
  | removexattr (id : Nat) (n : Bytes) (now : Int)
  | unlink (p : Nat) (n : Bytes) (now : Int)
  | rmdir (p : Nat) (n : Bytes) (now : Int)
  | mknod (p : Nat) (n : Bytes) (mode rdev uid gid : Nat) (now : Int)
  | symlink (p : Nat) (n target : Bytes) (uid gid : Nat) (now : Int)
  | link (id p : Nat) (n : Bytes) (now : Int)
  | rename (po : Nat) (no : Bytes) (pn : Nat) (nn : Bytes) (flags : Nat) (now : Int)
  | setattr (id : Nat) (a : SetAttr) (corrupt missing : Bool) (now : Int)
  | open (id flags : Nat) (now : Int)
  | create (p : Nat) (n : Bytes) (mode flags uid gid : Nat) (now : Int)
  | read (id : Nat) (broken : Bool) (now : Int)
  | write (id off len : Nat) (broken : Bool) (now : Int)
  | forget (l : List (Nat × Int))
  /-- background: a cached block is uploaded -/
  | upload (id b o : Nat)

def step (s : St) : Op → R
  | .lookup p n => opLookup s p n
  | .getattr id => opGetattr s id
  | .readlink id now => opReadlink s id now
  | .readdir p off room now => opReaddir s p off room now
  | .getxattr id n => opGetxattr s id n
  | .listxattr id => opListxattr s id
  | .setxattr id n v now => opSetxattr s id n v now
  | .removexattr id n now => opRemovexattr s id n now
  | .unlink p n now => opUnlink s p n now
  | .rmdir p n now => opRmdir s p n now
  | .mknod p n mode rdev uid gid now => opMknod s p n mode rdev uid gid now
  | .symlink p n t uid gid now => opSymlink s p n t uid gid now
  | .link id p n now => opLink s id p n now
  | .rename po no pn nn flags now => opRename s po no pn nn flags now
  | .setattr id a c m now => opSetattr s id a c m now
  | .open id flags now => opOpen s id flags now
  | .create p n mode flags uid gid now => opCreate s p n mode flags uid gid now
  | .read id b now => opRead s id b now
  | .write id off len b now => opWrite s id off len b now
  | .forget l => finish (forget s l)
  | .upload id b o => (.ok .unit, bgUpload s id b o)

def run (s : St) (ops : List Op) : St := ops.foldl (fun s o => (step s o).2) s

/-- Unmounting and mounting again: `destroy` (fs.py:154-156) forgets all lookups, a new `Operations` object
(fs.py:131-152) starts with the root inode only.  The upload of metadata and blocks in between is not part of this
model. -/
def remount (s : St) : R :=
  match forget s s.opened with
  | (.error e, s) => (.error e, s)
  | (.ok (), s) => (.ok .unit, { s with opened := [(rootInode, 1)], failsafe := false })

/-- `lost+found` -/
def lostFound : Bytes := [108, 111, 115, 116, 43, 102, 111, 117, 110, 100]

/-- `init_tables` (mkfs.py:63-114): root, the control file, and `lost+found`. -/
def initDb (uid gid : Nat) (now : Int) : Db where
  inodes := [(1, ⟨0o40755, uid, gid, now, now, now, 1, 0, 0, false⟩),
             (2, ⟨0o100600, 0, 0, now, now, now, 42, 0, 0, false⟩),
             (3, ⟨0o40700, uid, gid, now, now, now, 1, 0, 0, false⟩)]
  seq := 3
  names := [(1, (lostFound, 1))]
  contents := [((1, 1), 3)]
  xattrs := []
  symlinks := []
  blocks := []
  objects := []

/-- A freshly mounted new file system (fs.py:131-157): the root inode is always open. -/
def init (uid gid : Nat) (now : Int) (maxObj : Nat) : St := ⟨initDb uid gid now, [(1, 1)], false, maxObj⟩

end Verif.Fs
