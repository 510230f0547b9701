/-
Model of file contents: `fs.py` (read, write, _readwrite, size part of setattr) on top of
`block_cache.py` `CacheEntry`.  One file; the block cache is seen through `get()` only, which hands
out the entry of block `blockno` (creating an empty one if the block does not exist) under the
block's lock.  How entries move between cache and backend is modelled in `Verif.BlockCache`.
-/
namespace Verif.FileData

abbrev Byte := UInt8

/-- `n` NUL bytes. -/
def zeros (n : Nat) : List Byte := List.replicate n 0

/-- An unbuffered OS file handle (`open(filename, mode, 0)`, block_cache.py:82): contents and
position.  Simplification: a raw `write` of the OS is assumed to be complete (no short writes). -/
structure File where
  content : List Byte
  pos : Nat
deriving Repr, DecidableEq

/-- `fh.read(size)`, as used in block_cache.py:92. -/
def File.read (f : File) (n : Nat) : File × List Byte :=
  let buf := (f.content.drop f.pos).take n
  ({ f with pos := f.pos + buf.length }, buf)

/-- `fh.seek(off)` (whence 0), block_cache.py:104.  Seeking past the end does not change the file. -/
def File.seek (f : File) (off : Nat) : File := { f with pos := off }

/-- `fh.truncate(size)`, block_cache.py:113: cuts, or extends with NUL bytes; position unchanged. -/
def File.truncate (f : File) (n : Nat) : File :=
  { f with content := f.content.take n ++ zeros (n - f.content.length) }

/-- `fh.write(buf)`, block_cache.py:121.  A write past the end leaves a hole of NUL bytes; a write of
zero bytes does nothing (POSIX). -/
def File.write (f : File) (buf : List Byte) : File :=
  if buf = [] then f
  else
    { content := f.content.take f.pos ++ zeros (f.pos - f.content.length) ++ buf
                  ++ f.content.drop (f.pos + buf.length)
      pos := f.pos + buf.length }

/-- `CacheEntry` (block_cache.py:45-89) without `inode`, `blockno`, `last_write`, `in_transit`. -/
structure CacheEntry where
  dirty : Bool
  size : Nat
  pos : Nat
  fh : File
deriving Repr, DecidableEq

/-- `CacheEntry.__init__` with mode `'w+b'` (block_cache.py:77-89): a fresh empty block. -/
def CacheEntry.new : CacheEntry := { dirty := false, size := 0, pos := 0, fh := ⟨[], 0⟩ }

/-- `CacheEntry.read` (block_cache.py:91-94). -/
def CacheEntry.read (e : CacheEntry) (n : Nat) : CacheEntry × List Byte :=
  let (fh, buf) := e.fh.read n
  ({ e with fh := fh, pos := e.pos + buf.length }, buf)

/-- `CacheEntry.seek` with whence 0 (block_cache.py:99-106): skips the OS seek if the cached position
already matches. -/
def CacheEntry.seek (e : CacheEntry) (off : Nat) : CacheEntry :=
  if e.pos ≠ off then { e with fh := e.fh.seek off, pos := off } else e

/-- `CacheEntry.truncate(size)` (block_cache.py:111-117), with an explicit size as used by fs.py. -/
def CacheEntry.truncate (e : CacheEntry) (n : Nat) : CacheEntry :=
  { e with dirty := true, fh := e.fh.truncate n, size := n }

/-- `CacheEntry.write` (block_cache.py:119-124). -/
def CacheEntry.write (e : CacheEntry) (buf : List Byte) : CacheEntry :=
  let pos := e.pos + buf.length
  { dirty := true, fh := e.fh.write buf, pos := pos, size := max pos e.size }

/-- State of one file: block size (`max_obj_size`), `inode.size`, and its blocks. -/
structure FileSt where
  bs : Nat
  size : Nat
  blocks : Nat → Option CacheEntry

/-- `BlockCache.get(inode, blockno)` as seen by fs.py (block_cache.py:608-740): the existing entry, or
a new empty one. -/
def FileSt.get (s : FileSt) (b : Nat) : CacheEntry := (s.blocks b).getD CacheEntry.new

/-- Storing the entry back after the `async with self.cache.get(...)` body. -/
def FileSt.put (s : FileSt) (b : Nat) (e : CacheEntry) : FileSt :=
  { s with blocks := fun b' => if b' = b then some e else s.blocks b' }

/-- `BlockCache.remove(inode, start_no, end_no)` (block_cache.py:788-841): the blocks in
`range(start_no, end_no)` cease to exist. -/
def FileSt.remove (s : FileSt) (startNo endNo : Nat) : FileSt :=
  { s with blocks := fun b => if startNo ≤ b ∧ b < endNo then none else s.blocks b }

/-- Effective length in `_readwrite` (fs.py:1330-1331): do not cross into the next block. -/
def clipLen (bs offsetRel length : Nat) : Nat :=
  if offsetRel + length > bs then bs - offsetRel else length

/-- `_readwrite` for writing (fs.py:1299-1370 with `buf`): returns the number of bytes written. -/
def readwriteW (s : FileSt) (offset : Nat) (buf : List Byte) : FileSt × Nat :=
  let blockno := offset / s.bs
  let offsetRel := offset - blockno * s.bs
  let length := clipLen s.bs offsetRel buf.length
  let fh := s.get blockno
  let fh := fh.seek offsetRel
  let fh := fh.write (buf.take length)
  (s.put blockno fh, length)

/-- `_readwrite` for reading (fs.py:1299-1370 with `length`): pads with NUL bytes if the block is
shorter than requested. -/
def readwriteR (s : FileSt) (offset : Nat) (length : Nat) : FileSt × List Byte :=
  let blockno := offset / s.bs
  let offsetRel := offset - blockno * s.bs
  let length := clipLen s.bs offsetRel length
  let fh := s.get blockno
  let fh := fh.seek offsetRel
  let (fh, buf) := fh.read length
  (s.put blockno fh,
    if buf.length = length then buf else buf ++ zeros (length - buf.length))

/-- The loop of `read` (fs.py:1247-1251).  The guard `0 < tmp.length` only serves termination: with
block size 0 the Python loop would divide by zero. -/
def readLoop (s : FileSt) (offset length : Nat) (acc : List Byte) : FileSt × List Byte :=
  if length = 0 then (s, acc)
  else
    let r := readwriteR s offset length
    if _h : 0 < r.2.length ∧ r.2.length ≤ length then
      readLoop r.1 (offset + r.2.length) (length - r.2.length) (acc ++ r.2)
    else (r.1, acc)
termination_by length
decreasing_by simp only [r] at *; omega

/-- `read` (fs.py:1231-1259) without the atime update.  Python's `min(size - offset, length)` may be
negative, in which case the loop is not entered; natural subtraction gives 0 then. -/
def read (s : FileSt) (offset length : Nat) : FileSt × List Byte :=
  readLoop s offset (min (s.size - offset) length) []

/-- The loop of `write` (fs.py:1272-1275). -/
def writeLoop (s : FileSt) (offset : Nat) (buf : List Byte) : FileSt :=
  if buf = [] then s
  else
    let r := readwriteW s offset buf
    if _h : 0 < r.2 ∧ r.2 ≤ buf.length then
      writeLoop r.1 (offset + r.2) (buf.drop r.2)
    else r.1
termination_by buf.length
decreasing_by simp only [r, List.length_drop] at *; omega

/-- `write` (fs.py:1261-1287) without permission check and timestamps (see `Verif.Fs`). -/
def write (s : FileSt) (offset : Nat) (buf : List Byte) : FileSt × Nat :=
  let total := buf.length
  let minsize := offset + total
  let s := writeLoop s offset buf
  ({ s with size := max s.size minsize }, total)

/-- `math.ceil(size / max_obj_size)` (fs.py:985), in exact arithmetic (the Python code divides as
floats, which is exact for sizes below 2^53). -/
def ceilDiv (a b : Nat) : Nat := (a + b - 1) / b

/-- Size part of `setattr` (fs.py:979-997). -/
def truncate (s : FileSt) (len : Nat) : FileSt :=
  let lastBlock := len / s.bs
  let cutoff := len % s.bs
  let totalBlocks := ceilDiv s.size s.bs
  let s := { s with size := len }
  if cutoff = 0 then s.remove lastBlock totalBlocks
  else
    let s := s.remove (lastBlock + 1) totalBlocks
    s.put lastBlock ((s.get lastBlock).truncate cutoff)

/-- A newly created file (fs.py:1179-1229: `size=0`, no blocks). -/
def newFile (bs : Nat) : FileSt := { bs := bs, size := 0, blocks := fun _ => none }

/-- Requests on a file. -/
inductive Op where
  | read (offset length : Nat)
  | write (offset : Nat) (buf : List Byte)
  | truncate (len : Nat)
deriving Repr

/-- What the caller sees. -/
inductive Out where
  | data (buf : List Byte)
  | written (n : Nat)
  | size (n : Nat)
deriving Repr, DecidableEq

def step (s : FileSt) : Op → FileSt × Out
  | .read o n => let r := read s o n; (r.1, .data r.2)
  | .write o b => let r := write s o b; (r.1, .written r.2)
  | .truncate n => let s := truncate s n; (s, .size s.size)

def run (s : FileSt) : List Op → FileSt × List Out
  | [] => (s, [])
  | op :: ops =>
    let r := step s op
    let r' := run r.1 ops
    (r'.1, r.2 :: r'.2)

end Verif.FileData
