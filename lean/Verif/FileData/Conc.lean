import Verif.FileData.Lemmas
/-
Model of several requests on one file at the same time (C71), and of blocks whose objects in the storage are
damaged (C70): fs.py `read`, `write`, `_readwrite`, the size part of `setattr`, and block_cache.py `get`.

`_readwrite` holds the lock of its block, so that one call of it is one step; between two calls anything can
happen.  A call of `read` fixes its length when it starts, `write` changes the size when it ends.  How blocks are
uploaded while they are changed is modelled in `Verif.Cache`; here an upload is one step.  The lock bit is left
out (C22).
-/
namespace Verif.FileData

/-- What can be wrong with the object of a block: `NoSuchObject`, or `CorruptedObjectError`. -/
inductive Damage where
  | lost
  | corrupt
deriving Repr, DecidableEq

/-- A map changed at one place. -/
def upd {α : Type} (f : Nat → α) (k : Nat) (v : α) : Nat → α := fun x => if x = k then v else f x

/-- One file, its blocks, and the state of the file system that matters.  `f` has the data of every block, whether
it is in the cache or not; `cached`: it is in the cache; `stored`: there is an object with this data; `bad`:
something is wrong with that object; `broken`: `self.broken_blocks[id_]` (fs.py:105, 131). -/
structure CSt where
  f : FileSt
  cached : Nat → Bool
  stored : Nat → Bool
  bad : Nat → Option Damage
  broken : Nat → Bool
  failsafe : Bool

/-- `BlockCache.get` up to the point where the entry is handed out (block_cache.py:608-741): a new block, one that is
in the cache, or one that is downloaded; the download can fail. -/
def CSt.fetch (s : CSt) (b : Nat) : Except Damage CSt :=
  match s.f.blocks b with
  | none => .ok { s with f := s.f.put b CacheEntry.new, cached := upd s.cached b true }
  | some _ =>
    if s.cached b then .ok s
    else
      match s.bad b with
      | some d => .error d
      | none => .ok { s with cached := upd s.cached b true }

/-- What `_readwrite` and `setattr` do if the block cannot be had (fs.py:1348-1360, 1009-1013). -/
def CSt.fail (s : CSt) (b : Nat) : CSt := { s with failsafe := true, broken := upd s.broken b true }

/-- `_readwrite` for writing (fs.py:1299-1370); `none` is `FUSEError(EIO)`. -/
def CSt.rwW (s : CSt) (o : Nat) (buf : List Byte) : Option Nat × CSt :=
  if s.broken (o / s.f.bs) then (none, s)
  else
    match s.fetch (o / s.f.bs) with
    | .error _ => (none, s.fail (o / s.f.bs))
    | .ok s => (some (readwriteW s.f o buf).2, { s with f := (readwriteW s.f o buf).1 })

/-- `_readwrite` for reading (fs.py:1299-1370); `none` is `FUSEError(EIO)`. -/
def CSt.rwR (s : CSt) (o n : Nat) : Option (List Byte) × CSt :=
  if s.broken (o / s.f.bs) then (none, s)
  else
    match s.fetch (o / s.f.bs) with
    | .error _ => (none, s.fail (o / s.f.bs))
    | .ok s => (some (readwriteR s.f o n).2, { s with f := (readwriteR s.f o n).1 })

/-- `BlockCache.remove` (block_cache.py:788-841). -/
def CSt.remove (s : CSt) (a e : Nat) : CSt :=
  { s with f := s.f.remove a e, cached := fun b => if a ≤ b ∧ b < e then false else s.cached b,
           stored := fun b => if a ≤ b ∧ b < e then false else s.stored b,
           bad := fun b => if a ≤ b ∧ b < e then none else s.bad b }

/-- How a request can end without success: `EIO`, `EPERM`, or an exception that ends the file system process. -/
inductive Err where
  | eio
  | eperm
  | crash
deriving Repr, DecidableEq

/-- Size part of `setattr` (fs.py:979-1013).  `NoSuchObject` is raised again (fs.py:998-1002) and not handled by
anyone.  Simplification: this is one step, so that no request on the same file runs in the middle of it. -/
def CSt.truncate (s : CSt) (len : Nat) : Except Err Unit × CSt :=
  let lastBlock := len / s.f.bs
  let cutoff := len % s.f.bs
  let totalBlocks := ceilDiv s.f.size s.f.bs
  let s := { s with f := { s.f with size := len } }
  if cutoff = 0 then (.ok (), s.remove lastBlock totalBlocks)
  else
    let s := s.remove (lastBlock + 1) totalBlocks
    match s.fetch lastBlock with
    | .error .lost => (.error .crash, s)
    | .error .corrupt => (.error .eio, s.fail lastBlock)
    | .ok s => (.ok (), { s with f := s.f.put lastBlock ((s.f.get lastBlock).truncate cutoff) })

/-- A block is uploaded (block_cache.py:420-534): a new object has its data. -/
def CSt.upload (s : CSt) (b : Nat) : CSt :=
  match s.f.blocks b with
  | none => s
  | some e =>
    if s.cached b = true ∧ e.dirty = true then
      { s with f := s.f.put b { e with dirty := false }, stored := upd s.stored b true, bad := upd s.bad b none }
    else s

/-- A clean block leaves the cache (block_cache.py:742-786).  If it was never stored, nothing is left of it;
otherwise the next download makes a new entry (`CacheEntry(..., mode='r+b')`, block_cache.py:77-89). -/
def CSt.evict (s : CSt) (b : Nat) : CSt :=
  match s.f.blocks b with
  | none => s
  | some e =>
    if s.cached b = true ∧ e.dirty = false then
      if s.stored b then
        { s with f := s.f.put b ⟨false, e.fh.content.length, 0, ⟨e.fh.content, 0⟩⟩, cached := upd s.cached b false }
      else { s with f := { s.f with blocks := upd s.f.blocks b none }, cached := upd s.cached b false }
    else s

/-- A request, and how far it got.  `rd o n total acc`: `read` of `n` bytes at `o`, of which `total` exist and
`acc` has been read; `wr o d k`: `write` of `d` at `o`, of which `k` bytes are written. -/
inductive Task where
  | idle
  | rd (o n total : Nat) (acc : List Byte)
  | wr (o : Nat) (d : List Byte) (k : Nat)
  | rdOk (o n : Nat) (res : List Byte)
  | rdErr (o n : Nat) (e : Err)
  | wrOk (o : Nat) (d : List Byte)
  | wrErr (o : Nat) (d : List Byte) (e : Err)
deriving Repr, DecidableEq

/-- The request has not ended. -/
def Task.running : Task → Bool
  | .rd .. => true
  | .wr .. => true
  | _ => false

/-- The file, the requests by number, and the result of the last `setattr`. -/
structure World where
  st : CSt
  tasks : Nat → Task
  trunc : Option (Except Err Unit)
  crashed : Bool

/-- What can happen next. -/
inductive Ev where
  | startRead (t o n : Nat)
  | startWrite (t o : Nat) (d : List Byte)
  | go (t : Nat)
  | truncate (len : Nat)
  | upload (b : Nat)
  | evict (b : Nat)
  | damage (b : Nat) (d : Damage)
deriving Repr, DecidableEq

/-- One step of a request: a call of `_readwrite`, or the end of `read` (fs.py:1247-1259) or `write`
(fs.py:1272-1287).  Timestamps are left out (C61). -/
def goTask (w : World) (t : Nat) : World :=
  match w.tasks t with
  | .rd o n total acc =>
    if total ≤ acc.length then { w with tasks := upd w.tasks t (.rdOk o n acc) }
    else
      match w.st.rwR (o + acc.length) (total - acc.length) with
      | (none, s) => { w with st := s, tasks := upd w.tasks t (.rdErr o n .eio) }
      | (some buf, s) => { w with st := s, tasks := upd w.tasks t (.rd o n total (acc ++ buf)) }
  | .wr o d k =>
    if d.length ≤ k then
      { w with st := { w.st with f := { w.st.f with size := max w.st.f.size (o + d.length) } },
               tasks := upd w.tasks t (.wrOk o d) }
    else
      match w.st.rwW (o + k) (d.drop k) with
      | (none, s) => { w with st := s, tasks := upd w.tasks t (.wrErr o d .eio) }
      | (some n, s) => { w with st := s, tasks := upd w.tasks t (.wr o d (k + n)) }
  | _ => w

/-- One event.  A number is used again only when its request has ended; nothing happens after a crash. -/
def stepW (w : World) (e : Ev) : World :=
  if w.crashed then w
  else
    match e with
    | .startRead t o n =>
      if (w.tasks t).running then w
      else { w with tasks := upd w.tasks t (.rd o n (min (w.st.f.size - o) n) []) }
    | .startWrite t o d =>
      if (w.tasks t).running then w
      else if w.st.failsafe then { w with tasks := upd w.tasks t (.wrErr o d .eperm) }
      else { w with tasks := upd w.tasks t (.wr o d 0) }
    | .go t => goTask w t
    | .truncate len =>
      if w.st.failsafe then { w with trunc := some (.error .eperm) }
      else
        match w.st.truncate len with
        | (.error .crash, s) => { w with st := s, trunc := some (.error .crash), crashed := true }
        | (r, s) => { w with st := s, trunc := some r }
    | .upload b => { w with st := w.st.upload b }
    | .evict b => { w with st := w.st.evict b }
    | .damage b d => { w with st := { w.st with bad := upd w.st.bad b (some d) } }

/-- A new file. -/
def newWorld (bs : Nat) : World :=
  ⟨⟨newFile bs, fun _ => false, fun _ => false, fun _ => none, fun _ => false, false⟩, fun _ => .idle, none, false⟩

/-- A history. -/
def runW (w : World) (evs : List Ev) : World := evs.foldl stepW w

end Verif.FileData
