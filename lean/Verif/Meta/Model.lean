import Verif.Util.AList
/-
Model of the metadata store: how the SQLite database file is split into numbered blocks that are
uploaded under sequence numbers, downloaded and expired (database.py:878-1264), and of the write
tracking in the SQLite VFS (_sqlite3ext.cpp:124-197, sqlite3ext.pyx:43-49).

Backend objects `s3ql_metadata_%012x_%010x` and `s3ql_params_%010x` are represented by the pair
(block number, sequence number) resp. the sequence number: property C13 shows that the names encode
these numbers unambiguously.  Objects are stored and fetched as wholes (encryption, compression and
transfer are the subject of C26-C41).
-/
namespace Verif.Meta

/-- File contents. -/
abbrev Bytes := List UInt8

/-- What is fixed when the file system is created: the metadata block size (mkfs.py:217, positive) and
the hash function used for `db_md5` (`sha256_fh(...).hexdigest()`, an arbitrary function here). -/
structure Cfg where
  bs : Nat
  pos : 0 < bs
  hash : Bytes → Nat

/-- `FsAttributes` (database.py:105-120).  The fields that never change after mkfs (block sizes,
revision, label, inode_gen) are left out. -/
structure Params where
  seq : Nat
  dbSize : Nat
  digest : Nat
  mounted : Bool
  needsFsck : Bool
  lastFsck : Nat
  lastMod : Nat
deriving DecidableEq, Repr

/-! ### The database file -/

/-- `pwrite` at an offset: the gap between the end of the file and the offset reads as zeros. -/
def writeAt (f : Bytes) (off : Nat) (d : Bytes) : Bytes :=
  if d = [] then f
  else f.take off ++ List.replicate (off - f.length) 0 ++ d ++ f.drop (off + d.length)

/-- `ftruncate`: cut off, or extend with zeros. -/
def truncTo (f : Bytes) (n : Nat) : Bytes := f.take n ++ List.replicate (n - f.length) 0

/-- The calls by which SQLite changes the main database file. -/
inductive FileOp where
  | write (off : Nat) (data : Bytes)
  | trunc (size : Nat)
deriving DecidableEq, Repr

def FileOp.apply : FileOp → Bytes → Bytes
  | .write off d, f => writeAt f off d
  | .trunc n, f => truncTo f n

/-- The block numbers that `vfstraceWrite` inserts (_sqlite3ext.cpp:144-153): from `iOfst / blocksize`
up to but excluding `max_blockno`, the block boundary at or after the end of the write. -/
def marks (bs off len : Nat) : List Nat :=
  let endOff := off + len
  let maxBlock := if endOff / bs * bs < endOff then endOff / bs + 1 else endOff / bs
  (List.range (maxBlock - off / bs)).map (· + off / bs)

/-- The set of dirty blocks after a call: `vfstraceWrite` adds the marks; `vfstraceTruncate`
(_sqlite3ext.cpp:180-193) drops the blocks above `size / blocksize`.  The `unordered_set` is a list
without duplicates in no particular order. -/
def track (bs : Nat) (dirty : List Nat) : FileOp → List Nat
  | .write off d => dirty ++ (marks bs off d.length).filter (fun b => !dirty.contains b)
  | .trunc n => dirty.filter (fun b => b ≤ n / bs)

/-! ### Backend objects -/

/-- The metadata objects in the backend. -/
structure Remote where
  /-- `s3ql_params` -/
  cur : Option Params
  /-- `s3ql_params_%010x` -/
  vers : List (Nat × Params)
  /-- `s3ql_metadata_%012x_%010x` -/
  blocks : List ((Nat × Nat) × Bytes)

/-- Add one object to `block_list[blockno]` (database.py:883-894): a dict keeps its insertion order. -/
def addCand : List (Nat × List Nat) → Nat → Nat → List (Nat × List Nat)
  | [], b, s => [(b, [s])]
  | (b', l) :: t, b, s => if b' = b then (b', l ++ [s]) :: t else (b', l) :: addCand t b s

/-- Insertion into a sorted list. -/
def insertSorted (x : Nat) : List Nat → List Nat
  | [] => [x]
  | y :: t => if x ≤ y then x :: y :: t else y :: insertSorted x t

/-- Python's `sorted` and `list.sort` on integers (database.py:895, 1075). -/
def isort : List Nat → List Nat
  | [] => []
  | x :: t => insertSorted x (isort t)

/-- `get_block_objects` (database.py:878-900). -/
def blockList (blocks : List ((Nat × Nat) × Bytes)) : List (Nat × List Nat) :=
  (blocks.foldl (fun acc o => addCand acc o.1.1 o.1.2) []).map
    (fun e => (e.1, isort e.2))

/-- `first_le_than` (database.py:1043-1053); `none`: ValueError. -/
def firstLe (l : List Nat) (n : Nat) : Option Nat := l.reverse.find? (fun e => decide (e ≤ n))

/-! ### Download -/

/-- `_BlockJob` without the offset, which is always `blockno * blocksize`. -/
abbrev DlJob := Nat × Nat

/-- One round of the loop in `DownloadMetadata.produce` (database.py:949-975).  `none`: RuntimeError. -/
def dlJob (cfg : Cfg) (p : Params) (failsafe : Bool) (e : Nat × List Nat) : Option (Option DlJob) :=
  if e.1 * cfg.bs ≥ p.dbSize && !failsafe then some none
  else
    match firstLe e.2 p.seq with
    | some s => some (some (e.1, s))
    | none => if failsafe then some (e.2.min?.map (fun s => (e.1, s))) else none

/-- `DownloadMetadata.produce` (database.py:940-975): the list of jobs.  `none`: RuntimeError. -/
def dlJobs (cfg : Cfg) (p : Params) (failsafe : Bool) : List (Nat × List Nat) → Option (List DlJob)
  | [] => some []
  | e :: t =>
    match dlJob cfg p failsafe e, dlJobs cfg p failsafe t with
    | some (some j), some js => some (j :: js)
    | some none, some js => some js
    | _, _ => none

/-- `DownloadMetadata.consume` (database.py:977-986): write the object of every job at its offset.
`none`: NoSuchObject.  The order of the jobs is that in which the parallel workers happen to finish. -/
def dlWrite (cfg : Cfg) (blocks : List ((Nat × Nat) × Bytes)) : List DlJob → Bytes → Option Bytes
  | [], f => some f
  | j :: js, f =>
    match AL.get blocks j with
    | some c => dlWrite cfg blocks js (writeAt f (j.1 * cfg.bs) c)
    | none => none

/-- `DownloadMetadata.finalize` (database.py:999-1013).  `none`: DatabaseChecksumError. -/
def dlFinal (cfg : Cfg) (p : Params) (failsafe : Bool) (f : Bytes) : Option Bytes :=
  if failsafe then some f
  else
    let f := truncTo f p.dbSize
    if p.digest = cfg.hash f then some f else none

/-- `download_metadata` (database.py:1015-1040) with the jobs processed in the order `order`, which
must be a rearrangement of the jobs produced.  The file is created empty (database.py:931-934).
`none`: an exception. -/
def download (cfg : Cfg) (blocks : List ((Nat × Nat) × Bytes)) (p : Params) (failsafe : Bool)
    (order : List DlJob → List DlJob) : Option Bytes :=
  match dlJobs cfg p failsafe (blockList blocks) with
  | none => none
  | some jobs =>
    match dlWrite cfg blocks (order jobs) [] with
    | none => none
    | some f => dlFinal cfg p failsafe f

/-! ### Upload -/

/-- `math.ceil(size / blocksize)`: the number of blocks of a file (database.py:1168, 1089).  The
division of Python is a floating point one; sizes are assumed below 2^53. -/
def nBlocks (bs size : Nat) : Nat := (size + bs - 1) / bs

/-- The blocks that `UploadMetadata.snapshot_blocks` selects (database.py:1146-1171). -/
def upBlocks (cfg : Cfg) (incremental : Bool) (dirty : List Nat) (dbSize : Nat) : List Nat :=
  if incremental then dirty else List.range (nBlocks cfg.bs dbSize)

/-- `_BlockUpload`: block number and length (database.py:1187-1196), and the bytes read so far by
the worker that has the job. -/
structure Job where
  blockno : Nat
  length : Nat
  got : Bytes
deriving DecidableEq, Repr

/-- The job for one block (database.py:1189-1195). -/
def mkJob (cfg : Cfg) (dbSize b : Nat) : Job :=
  { blockno := b, length := min cfg.bs (dbSize - b * cfg.bs), got := [] }

/-- The worker reads up to `n` more bytes of its block from the file (database.py:1200-1206 with
comprenc.py's `write_fh`, which reads at most `len_` bytes in pieces of at most BUFSIZE). -/
def readMore (cfg : Cfg) (f : Bytes) (n : Nat) (j : Job) : Job :=
  { j with got := j.got ++ (f.drop (j.blockno * cfg.bs + j.got.length)).take (min n (j.length - j.got.length)) }

/-- A read returns nothing: at the length limit or at the end of the file. -/
def jobDone (cfg : Cfg) (f : Bytes) (j : Job) : Bool :=
  decide (j.length ≤ j.got.length) || decide (f.length ≤ j.blockno * cfg.bs + j.got.length)

/-- `self.backend.write_fh(METADATA_OBJ_NAME % (blockno, seq_no), ...)`. -/
def putBlock (blocks : List ((Nat × Nat) × Bytes)) (seq : Nat) (j : Job) : List ((Nat × Nat) × Bytes) :=
  AL.set blocks (j.blockno, seq) j.got

/-- An upload during which the file does not change (`upload_metadata` after `db.close()` or under
`inhibit_writes()`): every job reads its whole block. -/
def upload (cfg : Cfg) (blocks : List ((Nat × Nat) × Bytes)) (seq : Nat) (f : Bytes) (bl : List Nat) :
    List ((Nat × Nat) × Bytes) :=
  bl.foldl (fun acc b => putBlock acc seq (readMore cfg f cfg.bs (mkJob cfg f.length b))) blocks

/-- `UploadMetadata.finalize` (database.py:1218-1232). -/
def finalize (cfg : Cfg) (p : Params) (dbSize : Nat) (f : Bytes) : Params :=
  { p with dbSize := dbSize, digest := cfg.hash f }

/-! ### Expiration -/

/-- An object to delete: `s3ql_params_…` or `s3ql_metadata_…_…`. -/
inductive Key where
  | params (seq : Nat)
  | block (b s : Nat)
deriving DecidableEq, Repr

/-- `l[-k:]`. -/
def lastN (l : List Nat) (k : Nat) : List Nat := if k = 0 then l else l.drop (l.length - k)

/-- `l[:-k]`. -/
def butLastN (l : List Nat) (k : Nat) : List Nat := if k = 0 then [] else l.take (l.length - k)

/-- The inner loop of `expire_objects` (database.py:1091-1095) for one retained version.  Adds pairs
(block, seq) to the set of objects to keep.  `none`: ValueError from `first_le_than`.
`max_blockno = ceil(db_size / blocksize) - 1` is -1 for an empty database: compare with `<`. -/
def keepFor (cfg : Cfg) (p : Params) (seq : Nat) : List (Nat × List Nat) → Option (List (Nat × Nat))
  | [] => some []
  | e :: t =>
    match keepFor cfg p seq t with
    | none => none
    | some r =>
      if nBlocks cfg.bs p.dbSize ≤ e.1 then some r
      else
        match firstLe e.2 seq with
        | some s => some ((e.1, s) :: r)
        | none => none

/-- The loop over `seq_to_keep` (database.py:1082-1095).  `read_remote_params(backend, seq_no)` fetches
the object and asserts that it has the right sequence number (unless that is 0). -/
def keepAll (cfg : Cfg) (vers : List (Nat × Params)) (bl : List (Nat × List Nat)) :
    List Nat → Option (List (Nat × Nat))
  | [] => some []
  | s :: t =>
    match AL.get vers s with
    | none => none
    | some p =>
      if s ≠ 0 ∧ p.seq ≠ s then none
      else
        match keepFor cfg p s bl, keepAll cfg vers bl t with
        | some a, some r => some (a ++ r)
        | _, _ => none

/-- `expire_objects` up to the call of `delete_multi` (database.py:1068-1105): the keys to delete, in
order.  `none`: an exception. -/
def expireList (cfg : Cfg) (r : Remote) (keep : Nat) : Option (List Key) :=
  let bl := blockList r.blocks
  let objs := isort (r.vers.map (·.1))
  let toRemove := (butLastN objs keep).map Key.params
  match keepAll cfg r.vers bl (lastN objs keep) with
  | none => none
  | some k =>
    some (toRemove ++ bl.flatMap (fun e =>
      (e.2.filter (fun s => !k.contains (e.1, s))).map (fun s => Key.block e.1 s)))

/-- Deletion of one object. -/
def delKey (r : Remote) : Key → Remote
  | .params s => { r with vers := AL.erase r.vers s }
  | .block b s => { r with blocks := AL.erase r.blocks (b, s) }

/-- `expire_objects` (database.py:1068-1108).  `none`: an exception. -/
def expire (cfg : Cfg) (r : Remote) (keep : Nat) : Option Remote :=
  (expireList cfg r keep).map (fun l => l.foldl delKey r)

end Verif.Meta
