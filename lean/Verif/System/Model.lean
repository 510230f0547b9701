import Verif.FileData.Model
import Verif.Cache.Model
import Verif.Meta.Proto
/-
The parts put together (C72): files (`Verif.FileData`) on the block cache (`Verif.Cache`), whose tables are in a
database that travels between computers through the storage (`Verif.Meta`).

Any number of files, requests, upload workers and so on; any number of computers, one of which has the file system
mounted at a time; computers and processes do not crash (C14, C15, C62).
-/
namespace Verif.System
open Verif.FileData (zeros clipLen ceilDiv CacheEntry)

abbrev Bytes := List UInt8

/-- An open cache file with contents `c`.  Where its file position is does not matter, since all callers seek first. -/
def entry (c : Bytes) : CacheEntry := { dirty := false, size := c.length, pos := 0, fh := ⟨c, 0⟩ }

/-- Contents of a block after `fh.seek(offset_rel); fh.write(buf)` (fs.py:1343-1346). -/
def blkWrite (c : Bytes) (off : Nat) (buf : Bytes) : Bytes := (((entry c).seek off).write buf).fh.content

/-- What `fh.seek(offset_rel); fh.read(length)` gives, padded with NUL bytes (fs.py:1335-1341, 1362-1368). -/
def blkRead (c : Bytes) (off n : Nat) : Bytes :=
  let buf := (((entry c).seek off).read n).2
  if buf.length = n then buf else buf ++ zeros (n - buf.length)

/-- Contents of a block after `cache_entry.truncate(cutoff)` (fs.py:996-997). -/
def blkCut (c : Bytes) (n : Nat) : Bytes := ((entry c).truncate n).fh.content

/-- A request, and how far it got.  `rd`: `read` of `n` bytes at `o` of file `i`, of which `total` exist and `acc` has been
read; `wr`: `write` of `d` at `o`, of which `k` bytes are written; `tr`: `setattr` to size `len`, which still has to
remove the blocks from `b` to `e`; `cut`: it still has to cut the last block. -/
inductive Task where
  | rd (i o n total : Nat) (acc : Bytes)
  | wr (i o : Nat) (d : Bytes) (k : Nat)
  | tr (i len b e : Nat)
  | cut (i len : Nat)
  | rdOk (i o n : Nat) (res : Bytes)
  | rdErr (i o n : Nat)
  | wrOk (i o : Nat) (d : Bytes)
  | trOk (i len : Nat)
deriving Repr, DecidableEq

/-- The request has not ended. -/
def Task.running : Task → Bool
  | .rd .. | .wr .. | .tr .. | .cut .. => true
  | _ => false

/-- The request changes file `i` and has not ended. -/
def Task.changes (i : Nat) : Task → Bool
  | .wr j _ _ _ | .tr j _ _ _ | .cut j _ => decide (j = i)
  | _ => false

/-- A mounted file system.  `sizes`: column `size` of table `inodes`; simplification: changes go to the table at once
(C09 says that the inode cache cannot be noticed). -/
structure Fs where
  bs : Nat
  c : Cache.State
  sizes : List (Nat × Nat)
  tasks : List (Nat × Task)

/-- `inode.size`. -/
def Fs.size (s : Fs) (i : Nat) : Nat := (AL.get s.sizes i).getD 0

/-- Is request number `t` running? -/
def Fs.busy (s : Fs) (t : Nat) : Bool :=
  match AL.get s.tasks t with
  | some x => x.running
  | none => false

/-- Is any request running that changes file `i`? -/
def Fs.changing (s : Fs) (i : Nat) : Bool := s.tasks.any (fun x => x.2.changes i)

/-- What can happen on a mounted file system. -/
inductive FEv where
  /-- something in the block cache that is not one of the steps below -/
  | cache (ev : Cache.Ev)
  | startRead (t i o n : Nat)
  | startWrite (t i o : Nat) (d : Bytes)
  | startTrunc (t i len : Nat)
  | go (t : Nat)
  /-- a read fails because a block cannot be downloaded -/
  | fail (t : Nat)
deriving Repr, DecidableEq

/-- Events of the block cache that happen by themselves, or are the way into and out of `async with cache.get(...)`. -/
def isCache : Cache.Ev → Bool
  | .read _ | .write _ _ | .remove _ | .copy _ _ => false
  | _ => true

/-- The body of `async with self.cache.get(...)` for a change of the contents: possible when the lock is held. -/
def change (H : Bytes → Bytes) (c : Cache.State) (k : Cache.Key) (f : Bytes → Bytes) : Option Cache.State :=
  match Cache.step H c (.read k) with
  | some (c, .data b) =>
    match Cache.step H c (.write k (f b)) with
    | some (c, _) => some c
    | none => none
  | _ => none

/-- One step of a request: `_readwrite` (fs.py:1299-1370), the end of `read` (fs.py:1247-1259) or `write`
(fs.py:1272-1287), or one block in `setattr` (fs.py:979-1013, block_cache.py:788-841). -/
def goTask (H : Bytes → Bytes) (s : Fs) (t : Nat) : Option Fs :=
  match AL.get s.tasks t with
  | some (.rd i o n total acc) =>
    if total ≤ acc.length then some { s with tasks := AL.set s.tasks t (.rdOk i o n acc) }
    else
      let off := o + acc.length
      let rel := off - off / s.bs * s.bs
      match Cache.step H s.c (.read (i, off / s.bs)) with
      | some (c, .data b) =>
        some { s with c := c, tasks := AL.set s.tasks t (.rd i o n total (acc ++ blkRead b rel (clipLen s.bs rel (total - acc.length)))) }
      | _ => none
  | some (.wr i o d k) =>
    if d.length ≤ k then
      some { s with sizes := AL.set s.sizes i (max (s.size i) (o + d.length)), tasks := AL.set s.tasks t (.wrOk i o d) }
    else
      let off := o + k
      let rel := off - off / s.bs * s.bs
      let len := clipLen s.bs rel (d.drop k).length
      match change H s.c (i, off / s.bs) (fun b => blkWrite b rel ((d.drop k).take len)) with
      | some c => some { s with c := c, tasks := AL.set s.tasks t (.wr i o d (k + len)) }
      | none => none
  | some (.tr i len b e) =>
    if e ≤ b then
      if len % s.bs = 0 then some { s with tasks := AL.set s.tasks t (.trOk i len) }
      else some { s with tasks := AL.set s.tasks t (.cut i len) }
    else
      match Cache.step H s.c (.remove (i, b)) with
      | some (c, _) => some { s with c := c, tasks := AL.set s.tasks t (.tr i len (b + 1) e) }
      | none => none
  | some (.cut i len) =>
    match change H s.c (i, len / s.bs) (fun b => blkCut b (len % s.bs)) with
    | some c => some { s with c := c, tasks := AL.set s.tasks t (.trOk i len) }
    | none => none
  | _ => none

/-- One event.  The kernel does not send a request that changes a file while another one that changes it is running
(it holds the lock of the inode).  Simplification: writes do not fail (C70).  `read`: fs.py:1231-1246; `setattr`: fs.py:979-990. -/
def Fs.step (H : Bytes → Bytes) (s : Fs) : FEv → Option Fs
  | .cache ev =>
    if isCache ev then
      match Cache.step H s.c ev with
      | some (c, _) => some { s with c := c }
      | none => none
    else none
  | .startRead t i o n =>
    if s.busy t then none
    else some { s with tasks := AL.set s.tasks t (.rd i o n (min (s.size i - o) n) []) }
  | .startWrite t i o d =>
    if s.busy t || s.changing i then none
    else some { s with tasks := AL.set s.tasks t (.wr i o d 0) }
  | .startTrunc t i len =>
    if s.busy t || s.changing i then none
    else
      let b := if len % s.bs = 0 then len / s.bs else len / s.bs + 1
      some { s with sizes := AL.set s.sizes i len, tasks := AL.set s.tasks t (.tr i len b (ceilDiv (s.size i) s.bs)) }
  | .go t => goTask H s t
  | .fail t =>
    match AL.get s.tasks t with
    | some (.rd i o n _ _) => some { s with tasks := AL.set s.tasks t (.rdErr i o n) }
    | _ => none

/-- What the database has about file contents: tables `inode_blocks` and `objects`, the next object id, and the sizes of
files. -/
structure Tables where
  rows : List (Cache.Key × Nat)
  objs : List (Nat × Cache.Obj)
  nextId : Nat
  sizes : List (Nat × Nat)
deriving Repr, DecidableEq

def Fs.tables (s : Fs) : Tables := ⟨s.c.rows, s.c.objs, s.c.nextId, s.sizes⟩

/-- All requests have ended, and the block cache has nothing more to do, as after `BlockCache.destroy(keep)`
(block_cache.py:315-340): it is empty, or with `--keep-cache` nothing in it is dirty. -/
def Fs.idle (keep : Bool) (s : Fs) : Bool :=
  s.tasks.all (fun x => !x.2.running) && (if keep then s.c.cache.all (fun x => !x.2.dirty) else s.c.cache.isEmpty) &&
    s.c.inflight.isEmpty && s.c.pending.isEmpty && s.c.derefs.isEmpty && s.c.removals.isEmpty

/-- The files in the cache directory: name, which is the inode and the number of the block, and contents. -/
abbrev CacheDir := List (Cache.Key × Bytes)

/-- The files that `BlockCache.destroy(keep)` leaves in the cache directory (block_cache.py:319-325, 336-337). -/
def Fs.left (keep : Bool) (s : Fs) : CacheDir := if keep then s.c.cache.map (fun x => (x.1, x.2.content)) else []

/-- The file system as it is started by mount (mount.py:329-420) from a database, the objects in the storage and the
files in the cache directory, which are loaded (`load_cache`, block_cache.py:297-309).  `leaked` is a ghost variable. -/
def Fs.start (bs : Nat) (t : Tables) (backend : Nat → Option Bytes) (leaked : List Nat) (dir : CacheDir) : Fs :=
  { bs := bs, sizes := t.sizes, tasks := [],
    c := { cache := dir.map (fun x => (x.1, ⟨x.2, false, false⟩)), size := AL.sumBy (fun _ b => (b.length : Int)) dir, holder := fun _ => .free, rows := t.rows, objs := t.objs, nextId := t.nextId, inflight := [],
           backend := backend, pending := [], derefs := [], removals := [], leaked := leaked, failsafe := false } }

/-- All computers and the storage.  `mw`: metadata in the storage, databases on the computers, and the running process;
`fs`: the mounted file system if `up`, and otherwise what the last one left in the storage; `dirs`: the cache directories
that mounts left on the computers (the directory of the running mount does not matter until it ends). -/
structure World where
  mw : Meta.World
  up : Bool
  fs : Fs
  dirs : Nat → CacheDir

inductive Ev where
  /-- a step of the metadata protocol -/
  | proto (op : Meta.Op)
  /-- mount starts to serve requests -/
  | attach
  /-- mount, with `--keep-cache` if `keep`, or fsck starts to terminate (cf. `Meta.Op.finish`) -/
  | finish (keep : Bool) (stamp : Nat) (flag : Bool)
  /-- something happens on the mounted file system; `ops`: what SQLite writes to bring the database up to date -/
  | fs (ev : FEv) (ops : List Meta.FileOp)

/-- Steps of the metadata protocol that a mount makes and that do not change the database. -/
def isProto : Meta.Op → Bool
  | .startMount _ | .dlPart _ | .dlEnd _ | .next | .ckpt | .startPass | .startSnap _ | .read _ _ | .put _ | .idleCkpt _ => true
  | _ => false

/-- Start of `fsck.s3ql`, and `s3qladm restore-metadata`.  Simplification: fsck finds nothing to correct, and does not look at
the cache directory, as it does only if the metadata on this computer say "mounted" (fsck.py:1395-1404). -/
def isAdmin : Meta.Op → Bool
  | .startFsck _ _ _ | .restore _ _ _ _ => true
  | _ => false

def setDir (d : Nat → CacheDir) (m : Nat) (v : CacheDir) : Nat → CacheDir := fun x => if x = m then v else d x

/-- The cache directories after a step of the metadata protocol: the cache directory is removed when metadata have been downloaded
(mount.py:605-611, fsck.py:1371-1393), and not touched by restore-metadata (adm.py:511-582). -/
def dirsAfter (d : Nat → CacheDir) (mw : Meta.World) : Meta.Op → Nat → CacheDir
  | .dlEnd _ =>
    match mw.proc with
    | some pr => setDir d pr.m []
    | none => d
  | _ => d

/-- One event.  `dec` reads the tables from a database file. -/
def step (cfg : Meta.Cfg) (H : Bytes → Bytes) (dec : Bytes → Option Tables) (w : World) : Ev → Option World
  | .proto op =>
    if isProto op || isAdmin op then
      match Meta.step cfg w.mw op with
      | some mw => some { w with mw := mw, dirs := dirsAfter w.dirs mw op }
      | none => none
    else none
  | .finish keep stamp flag =>
    match w.mw.proc with
    | some pr =>
      match pr.kind with
      | .mount =>
        -- the file system is left, then the database closed and uploaded (mount.py:409-442)
        if w.up && w.fs.idle keep then
          match Meta.step cfg w.mw (.finish stamp flag) with
          | some mw => some { w with mw := mw, up := false, dirs := setDir w.dirs pr.m (w.fs.left keep) }
          | none => none
        else none
      | .fsck =>
        match Meta.step cfg w.mw (.finish stamp flag) with
        | some mw => some { w with mw := mw }
        | none => none
    | none => none
  | .attach =>
    match w.mw.proc with
    | some pr =>
      if w.up = false ∧ pr.kind = .mount ∧ pr.pc = .run then
        match dec (w.mw.disk pr.m).view with
        | some t => some { w with up := true, fs := Fs.start w.fs.bs t w.fs.c.backend w.fs.c.leaked (w.dirs pr.m) }
        | none => none
      else none
    | none => none
  | .fs ev ops =>
    match w.mw.proc with
    | some pr =>
      if w.up && Meta.sqlOk pr then
        match Fs.step H w.fs ev, Meta.exec cfg w.mw (ops.map .sql) with
        | some fs, some mw => if dec (mw.disk pr.m).view = some fs.tables then some { w with mw := mw, fs := fs } else none
        | _, _ => none
      else none
    | none => none

/-- A history; `none` if some event was not possible. -/
def exec (cfg : Meta.Cfg) (H : Bytes → Bytes) (dec : Bytes → Option Tables) : World → List Ev → Option World
  | w, [] => some w
  | w, e :: es =>
    match step cfg H dec w e with
    | none => none
    | some w => exec cfg H dec w es

/-- After mkfs on computer `m`, with the database `f`. -/
def mkfs (cfg : Meta.Cfg) (bs m now : Nat) (f : Bytes) : World :=
  { mw := Meta.mkfs cfg m now f, up := false, fs := ⟨bs, Cache.init, [], []⟩, dirs := fun _ => [] }

end Verif.System
