import Verif.Util.AList
/-
Model of the block cache (block_cache.py) as a concurrent system.

All Trio tasks that use a `BlockCache` (file system operations, the commit task, upload workers, the
removal task) are cut at their `await`s into atomic steps.  A step is an event (`Ev`); any number of
tasks may run, so any event may occur whenever its guard holds.  What a task remembers between two of
its steps is either determined by the key it has locked (`Holder`), or one of the queues.

The loops that choose which entries to work on (`evict`, `flush`, `start_flush`, the commit task) are
over-approximated: uploads and evictions of any entry may be tried at any time.
-/
namespace Verif.Cache

abbrev Key := Nat × Nat          -- (inode, blockno)
abbrev Bytes := List UInt8

/-- `CacheEntry` (block_cache.py:45-141): contents of the cache file and flags.  `size` is the length
of the contents (block_cache.py:111-124). -/
structure Entry where
  content : Bytes
  dirty : Bool
  inTransit : Bool
deriving Repr, DecidableEq

/-- Row of table `objects` (database.py:694-703); `uploaded` is `phys_size != -1`. -/
structure Obj where
  refcount : Nat
  hash : Option Bytes
  uploaded : Bool
deriving Repr, DecidableEq

/-- Who holds the lock of a key (`block_lock`), and where that task is. -/
inductive Holder where
  | free
  /-- `get` has yielded the entry: fast path, with `max_write` (block_cache.py:625-637). -/
  | fast (maxWrite : Nat)
  /-- `get` has yielded the entry: slow path, with `oldsize` (block_cache.py:644-655). -/
  | slow (oldsize : Nat)
  /-- `_get_entry` is about to download object `o` (block_cache.py:694-727). -/
  | downloading (o : Nat)
  /-- `upload_if_dirty` is computing the checksum (block_cache.py:450-455). -/
  | hashing
  /-- `upload_if_dirty` has registered object `o` and is handing the entry over to the upload
  workers (block_cache.py:494-498). -/
  | sending (o : Nat)
  /-- an upload worker has the entry, registered as object `o` (`_do_upload`). -/
  | uploading (o : Nat)
deriving Repr, DecidableEq

structure State where
  /-- `cache` (LRU order, head is oldest). -/
  cache : List (Key × Entry)
  /-- `cache.size`. -/
  size : Int
  holder : Key → Holder
  /-- table `inode_blocks`, primary key (inode, blockno). -/
  rows : List (Key × Nat)
  /-- table `objects`. -/
  objs : List (Nat × Obj)
  /-- next AUTOINCREMENT id. -/
  nextId : Nat
  /-- keys of `in_flight_uploads`. -/
  inflight : List Nat
  /-- data objects in the backend. -/
  backend : Nat → Option Bytes
  /-- `old_obj_id` of the calls of `upload_if_dirty` that are handing over an entry. -/
  pending : List (Key × Nat)
  /-- calls of `_deref_obj` that have not yet reached the database. -/
  derefs : List Nat
  /-- removal channel and batch of the removal task. -/
  removals : List Nat
  /-- ghost: objects that should have been dereferenced by a call of `upload_if_dirty` that raised
  (block_cache.py:519-527). -/
  leaked : List Nat
  /-- `fs.failsafe`. -/
  failsafe : Bool

/-- Atomic steps. -/
inductive Ev where
  /-- `get(inode, blockno, max_write)`, fast path. -/
  | getFast (k : Key) (maxWrite : Nat)
  /-- `get`, slow path, entry is cached. -/
  | getHit (k : Key)
  /-- `get`, slow path, block does not exist yet. -/
  | getNew (k : Key)
  /-- `get`, slow path, block must be downloaded. -/
  | getMiss (k : Key)
  /-- the download succeeds. -/
  | download (k : Key)
  /-- the download fails (exception out of `get`). -/
  | downloadFail (k : Key)
  /-- the caller of `get` reads the contents. -/
  | read (k : Key)
  /-- the caller of `get` changes the contents (any sequence of `seek`, `write`, `truncate`). -/
  | write (k : Key) (content : Bytes)
  /-- the caller of `get` leaves the `async with` block. -/
  | unlock (k : Key)
  /-- `upload_if_dirty` acquires the lock and marks the entry. -/
  | upStart (k : Key)
  /-- the checksum computation raises. -/
  | hashFail (k : Key)
  /-- checksum computed; object looked up or created. -/
  | register (k : Key)
  /-- the entry has been handed over to the upload workers. -/
  | send (k : Key)
  /-- exception while handing over to the upload workers. -/
  | sendFail (k : Key)
  /-- the backend has stored the object (not yet reported to the caller). -/
  | store (k : Key)
  | upOk (k : Key)
  | upFail (k : Key)
  /-- `evict` removes an entry. -/
  | evict (k : Key)
  /-- `remove` of one block. -/
  | remove (k : Key)
  /-- the database part of `_deref_obj`. -/
  | deref (o : Nat)
  /-- the removal task deletes the object. -/
  | delObj (o : Nat)
  /-- `copy_tree` duplicates a row of `inode_blocks` (fs.py:590-612). -/
  | copy (k k' : Key)
deriving Repr, DecidableEq

inductive Out where
  | none
  | data (b : Bytes)
  /-- an exception reaches the caller. -/
  | err
deriving Repr, DecidableEq

def upd {α β : Type} [DecidableEq α] (f : α → β) (a : α) (b : β) : α → β := fun x => if x = a then b else f x

/-- Object being uploaded by the holder of a key. -/
def upObj : Holder → Option Nat
  | .sending o => some o
  | .uploading o => some o
  | _ => none

def isUser : Holder → Bool
  | .fast _ => true
  | .slow _ => true
  | _ => false

/-- What callers of `get` promise about the size after a write: with `max_write`, it becomes at most that, or stays (they
do not truncate, fs.py:1325-1361). -/
def promised : Holder → Nat → Nat → Bool
  | .fast m, old, new => old ≤ new && new ≤ max old m
  | _, _, _ => true

/-- Object with a given hash: `SELECT id FROM objects WHERE hash=?`. -/
def findHash (objs : List (Nat × Obj)) (h : Bytes) : Option Nat :=
  (objs.find? (fun e => e.2.hash = some h)).map (·.1)

/-- `upload_if_dirty` from the computed checksum on (block_cache.py:462-534), for an entry whose lock
is held.  `H` is SHA-256. -/
def registerStep (H : Bytes → Bytes) (s : State) (k : Key) (e : Entry) : State :=
  let old := AL.get s.rows k
  match findHash s.objs (H e.content) with
  | none =>
    -- block_cache.py:476-497
    { s with
      objs := AL.set s.objs s.nextId { refcount := 1, hash := some (H e.content), uploaded := false }
      nextId := s.nextId + 1
      rows := AL.set s.rows k s.nextId
      inflight := s.nextId :: s.inflight
      holder := upd s.holder k (.sending s.nextId)
      pending := match old with
        | some o' => AL.set s.pending k o'
        | none => s.pending }
  | some o =>
    -- block_cache.py:500-517
    let e' := { e with dirty := false, inTransit := false }
    if old = some o then
      { s with cache := AL.set s.cache k e', holder := upd s.holder k .free }
    else
      { s with
        objs := match AL.get s.objs o with
          | some ob => AL.set s.objs o { ob with refcount := ob.refcount + 1 }
          | none => s.objs
        rows := AL.set s.rows k o
        cache := AL.set s.cache k e'
        holder := upd s.holder k .free
        derefs := match old with
          | some o' => o' :: s.derefs
          | none => s.derefs }

/-- One atomic step; `none` if the event cannot occur in this state. -/
def step (H : Bytes → Bytes) (s : State) : Ev → Option (State × Out)
  | .getFast k maxWrite =>
    -- block_cache.py:625-637
    match s.holder k, AL.get s.cache k with
    | .free, some e =>
      if maxWrite < e.content.length then
        some ({ s with cache := AL.toTail s.cache k, holder := upd s.holder k (.fast maxWrite) }, .none)
      else none
    | _, _ => none
  | .getHit k =>
    -- block_cache.py:644-647, 734-740
    match s.holder k, AL.get s.cache k with
    | .free, some e =>
      some ({ s with cache := AL.toTail s.cache k, holder := upd s.holder k (.slow e.content.length) }, .none)
    | _, _ => none
  | .getNew k =>
    -- block_cache.py:688-692
    match s.holder k, AL.get s.cache k, AL.get s.rows k with
    | .free, none, none =>
      some ({ s with cache := AL.set s.cache k { content := [], dirty := false, inTransit := false },
                     holder := upd s.holder k (.slow 0) }, .none)
    | _, _, _ => none
  | .getMiss k =>
    -- block_cache.py:670-702
    match s.holder k, AL.get s.cache k, AL.get s.rows k with
    | .free, none, some o =>
      match AL.get s.objs o with
      | none => none             -- the join finds no row: treated in `getNew` by the code, see C02
      | some ob =>
        some ({ s with holder := upd s.holder k (.downloading o),
                       failsafe := s.failsafe || ob.hash.isNone }, .none)
    | _, _, _ => none
  | .download k =>
    -- block_cache.py:704-731; waits while an upload of the object is in flight
    match s.holder k with
    | .downloading o =>
      if s.inflight.contains o then none
      else
        match s.backend o with
        | none => some ({ s with holder := upd s.holder k .free }, .err)     -- `NoSuchObject`
        | some d =>
          some ({ s with cache := AL.set s.cache k { content := d, dirty := false, inTransit := false },
                         size := s.size + d.length,
                         holder := upd s.holder k (.slow d.length) }, .none)
    | _ => none
  | .downloadFail k =>
    -- block_cache.py:725-727, 654-655
    match s.holder k with
    | .downloading o =>
      if s.inflight.contains o then none
      else some ({ s with holder := upd s.holder k .free }, .err)
    | _ => none
  | .read k =>
    match AL.get s.cache k with
    | some e => if isUser (s.holder k) then some (s, .data e.content) else none
    | none => none
  | .write k c =>
    -- block_cache.py:111-124.  In the fast path the caller has promised not to write beyond `max_write`.
    match AL.get s.cache k with
    | some e =>
      if isUser (s.holder k) && promised (s.holder k) e.content.length c.length then
        some ({ s with cache := AL.set s.cache k { e with content := c, dirty := true } }, .none)
      else none
    | none => none
  | .unlock k =>
    -- block_cache.py:650-655
    match s.holder k, AL.get s.cache k with
    | .fast _, some _ => some ({ s with holder := upd s.holder k .free }, .none)
    | .slow old, some e =>
      some ({ s with size := s.size + (e.content.length - old), holder := upd s.holder k .free }, .none)
    | _, _ => none
  | .upStart k =>
    -- block_cache.py:433-455
    match s.holder k, AL.get s.cache k with
    | .free, some e =>
      if e.dirty && !e.inTransit then
        some ({ s with cache := AL.set s.cache k { e with inTransit := true },
                       holder := upd s.holder k .hashing }, .none)
      else none
    | _, _ => none
  | .hashFail k =>
    -- block_cache.py:456-460
    match s.holder k, AL.get s.cache k with
    | .hashing, some e =>
      some ({ s with cache := AL.set s.cache k { e with inTransit := false },
                     holder := upd s.holder k .free }, .err)
    | _, _ => none
  | .register k =>
    match s.holder k, AL.get s.cache k with
    | .hashing, some e => some (registerStep H s k e, .none)
    | _, _ => none
  | .send k =>
    -- block_cache.py:498, 529-530
    match s.holder k with
    | .sending o =>
      some ({ s with holder := upd s.holder k (.uploading o),
                     pending := AL.erase s.pending k,
                     derefs := match AL.get s.pending k with
                       | some o' => o' :: s.derefs
                       | none => s.derefs }, .none)
    | _ => none
  | .sendFail k =>
    -- block_cache.py:519-527: the object row keeps its hash, the old object is not dereferenced
    match s.holder k, AL.get s.cache k with
    | .sending o, some e =>
      some ({ s with cache := AL.set s.cache k { e with inTransit := false },
                     inflight := s.inflight.erase o,
                     holder := upd s.holder k .free,
                     pending := AL.erase s.pending k,
                     leaked := match AL.get s.pending k with
                       | some o' => o' :: s.leaked
                       | none => s.leaked }, .err)
    | _, _ => none
  | .store k =>
    match s.holder k, AL.get s.cache k with
    | .uploading o, some e => some ({ s with backend := upd s.backend o (some e.content) }, .none)
    | _, _ => none
  | .upOk k =>
    -- block_cache.py:380-401
    match s.holder k, AL.get s.cache k with
    | .uploading o, some e =>
      some ({ s with backend := upd s.backend o (some e.content),
                     cache := AL.set s.cache k { e with dirty := false, inTransit := false },
                     objs := match AL.get s.objs o with
                       | some ob => AL.set s.objs o { ob with uploaded := true }
                       | none => s.objs,
                     inflight := s.inflight.erase o,
                     holder := upd s.holder k .free }, .none)
    | _, _ => none
  | .upFail k =>
    -- block_cache.py:386-401
    match s.holder k, AL.get s.cache k with
    | .uploading o, some e =>
      some ({ s with cache := AL.set s.cache k { e with inTransit := false },
                     objs := match AL.get s.objs o with
                       | some ob => AL.set s.objs o { ob with hash := none }
                       | none => s.objs,
                     inflight := s.inflight.erase o,
                     holder := upd s.holder k .free }, .err)
    | _, _ => none
  | .evict k =>
    -- block_cache.py:768-780, 170-177
    match s.holder k, AL.get s.cache k with
    | .free, some e =>
      if e.dirty then none
      else some ({ s with cache := AL.erase s.cache k, size := s.size - e.content.length }, .none)
    | _, _ => none
  | .remove k =>
    -- block_cache.py:807-839
    match s.holder k with
    | .free =>
      some ({ s with cache := AL.erase s.cache k,
                     size := s.size - ((AL.get s.cache k).map (fun e => (e.content.length : Int))).getD 0,
                     rows := AL.erase s.rows k,
                     derefs := match AL.get s.rows k with
                       | some o => o :: s.derefs
                       | none => s.derefs }, .none)
    | _ => none
  | .deref o =>
    -- block_cache.py:536-569
    if s.derefs.contains o then
      match AL.get s.objs o with
      | none => some ({ s with derefs := s.derefs.erase o }, .err)      -- `NoSuchRowError`
      | some ob =>
        if ob.refcount > 1 then
          some ({ s with objs := AL.set s.objs o { ob with refcount := ob.refcount - 1 },
                         derefs := s.derefs.erase o }, .none)
        else if s.inflight.contains o then none          -- waits for the upload (excluded by C05)
        else
          some ({ s with objs := AL.erase s.objs o,
                         removals := if ob.uploaded then o :: s.removals else s.removals,
                         derefs := s.derefs.erase o }, .none)
    else none
  | .delObj o =>
    -- block_cache.py:596-602
    if s.removals.contains o then
      some ({ s with backend := upd s.backend o none,
                     removals := s.removals.erase o,
                     failsafe := s.failsafe || (s.backend o).isNone }, .none)
    else none
  | .copy k k' =>
    -- fs.py:590-612: rows of a new inode
    match AL.get s.rows k, AL.get s.rows k', AL.get s.cache k', s.holder k' with
    | some o, none, none, .free =>
      match AL.get s.objs o with
      | some ob =>
        some ({ s with rows := AL.set s.rows k' o,
                       objs := AL.set s.objs o { ob with refcount := ob.refcount + 1 } }, .none)
      | none => none
    | _, _, _, _ => none

/-- A freshly created file system with an empty cache. -/
def init : State :=
  { cache := [], size := 0, holder := fun _ => .free, rows := [], objs := [], nextId := 1, inflight := [],
    backend := fun _ => none, pending := [], derefs := [], removals := [], leaked := [], failsafe := false }

/-- Run a schedule; `none` if some event was not possible. -/
def exec (H : Bytes → Bytes) (s : State) : List Ev → Option (State × List Out)
  | [] => some (s, [])
  | e :: es =>
    match step H s e with
    | none => none
    | some (s', o) =>
      match exec H s' es with
      | none => none
      | some (s'', os) => some (s'', o :: os)

end Verif.Cache
