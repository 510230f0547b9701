/-
The commands that act on whole directory trees (`s3qllock`, `s3qlrm`, `s3qlcp`): `lock_tree` (fs.py:379-424),
`remove_tree` (fs.py:426-502) and `copy_tree` (fs.py:504-638).

They work through a stack of directories in batches.  Where a batch ends depends on how long earlier batches took; in
the model it may end after any row.  Between two batches the code lets other requests run.
-/
import Verif.Fs.Model

namespace Verif.Fs

/-! #### Rows of a directory in the order of the name ids -/

/-- The row with the smallest name id of those that `f` accepts. -/
def minRow (f : Nat → Bool) : List (Nat × Nat) → Option (Nat × Nat)
  | [] => none
  | (k, c) :: t =>
    match minRow f t with
    | none => if f k then some (k, c) else none
    | some (k', c') => if f k ∧ k < k' then some (k, c) else some (k', c')

/-- The first row of `SELECT name_id, inode FROM contents WHERE parent_inode=? AND name_id > ? ORDER BY name_id`
(fs.py:399-403, 551-555).  `lo` is the given `name_id` plus one; the code starts with -1. -/
def Db.nextRow (db : Db) (p lo : Nat) : Option (Nat × Nat) :=
  minRow (fun k => decide (lo ≤ k)) ((db.contents.filter (fun e => e.1.1 == p)).map (fun e => (e.1.2, e.2)))

/-! #### lock_tree -/

/-- The loop variables of `lock_tree`: the query that is being read, and the stack of directories with the name id to
go on from. -/
structure Walk where
  cur : Option (Nat × Nat)
  queue : List (Nat × Nat)

/-- `self.inodes[id_].locked = True` (fs.py:387, 408); `none` is `KeyError`. -/
def lockInode (s : St) (id : Nat) : Option St :=
  match AL.get s.db.inodes id with
  | none => none
  | some _ => some { s with db := s.db.modInode id (fun i => { i with locked := true }) }

/-- One iteration of the loops of `lock_tree` (fs.py:394-424): take a directory from the stack, handle the next row of the
query, or end the query.  `brk` says whether the batch ends after this row.  `none` is `KeyError`. -/
def lockStep (brk : Bool) (s : St) (w : Walk) : Option (St × Walk) :=
  match w.cur with
  | none =>
    match w.queue with
    | [] => some (s, w)
    | t :: q => some (s, ⟨some t, q⟩)
  | some (p, lo) =>
    match s.db.nextRow p lo with
    | none => some (s, ⟨none, w.queue⟩)
    | some (k, id) =>
      match lockInode s id with
      | none => none
      | some s =>
        let q := if s.db.hasChildren id then (id, 0) :: w.queue else w.queue
        if brk then some (s, ⟨none, (p, k + 1) :: q⟩) else some (s, ⟨some (p, k + 1), q⟩)

/-- The start of `lock_tree` (fs.py:382-388). -/
def lockStart (s : St) (id0 : Nat) : Except Err (St × Walk) :=
  if s.failsafe then .error .EPERM
  else
    match lockInode s id0 with
    | none => .error .crash
    | some s => .ok (s, ⟨none, [(id0, 0)]⟩)

/-! #### remove_tree -/

/-- The entries of a directory, as `contents_v` shows them. -/
def Db.entriesOf (db : Db) (p : Nat) : List (Bytes × Nat) :=
  db.contents.filterMap (fun e => if e.1.1 = p then (AL.get db.names e.1.2).map (fun v => (v.1, e.2)) else none)

/-- A result of `SELECT name, name_id, inode FROM contents_v WHERE parent_inode=? LIMIT batch` (fs.py:454-458): any
`batch` rows of the directory, as the query has no order.  Each row comes with the time at which it is handled. -/
def IsChunk (db : Db) (p batch : Nat) (chunk : List (Bytes × Nat × Int)) : Prop :=
  ∃ rest, (chunk.map (fun r => (r.1, r.2.1)) ++ rest).Perm (db.entriesOf p) ∧
    chunk.length = min batch (db.entriesOf p).length

/-- The loop over a chunk (fs.py:461-483).  The invalidation requests to the kernel are not modelled.  The call of
`_remove` may let other requests run; the model runs it in one piece. -/
def rmRows (p : Nat) : List (Bytes × Nat × Int) → St → List Nat → Bool → Except Err (List Nat × Bool) × St
  | [], s, q, re => (.ok (q, re), s)
  | (n, id, now) :: t, s, q, re =>
    if s.db.hasChildren id then rmRows p t s (id :: (if re then q else p :: q)) true
    else
      match remove s p n id true now with
      | (.error e, s) => (.error e, s)
      | (.ok (), s) => rmRows p t s q re

/-- The loop over the stack of directories (fs.py:447-493). -/
inductive RmRun : St → List Nat → Except Err Unit → St → Prop
  | done {s : St} : RmRun s [] (.ok ()) s
  | fail {s s' : St} {p : Nat} {q : List Nat} {batch : Nat} {chunk : List (Bytes × Nat × Int)} {e : Err} :
      0 < batch → IsChunk s.db p batch chunk → rmRows p chunk s q false = (.error e, s') → RmRun s (p :: q) (.error e) s'
  | dir {s s' s'' : St} {p : Nat} {q q' : List Nat} {re : Bool} {batch : Nat} {chunk : List (Bytes × Nat × Int)} {res : Except Err Unit} :
      0 < batch → IsChunk s.db p batch chunk → rmRows p chunk s q false = (.ok (q', re), s') →
      RmRun s' (if chunk.length = batch ∧ re = false then p :: q' else q') res s'' → RmRun s (p :: q) res s''

/-- `remove_tree` (fs.py:426-502), without other requests in between. -/
inductive RmTree (s : St) (p : Nat) (n : Bytes) : Except Err Unit → St → Prop
  | failsafe : s.failsafe = true → RmTree s p n (.error .EPERM) s
  | noDir : s.failsafe = false → AL.get s.db.inodes p = none → RmTree s p n (.error .crash) s
  | locked {ip : Inode} : s.failsafe = false → AL.get s.db.inodes p = some ip → ip.locked = true → RmTree s p n (.error .EPERM) s
  | noEntry {ip : Inode} {e : Err} {s1 : St} : s.failsafe = false → AL.get s.db.inodes p = some ip → ip.locked = false →
      lookup s p n = (.error e, s1) → RmTree s p n (.error e) s1
  | stuck {ip : Inode} {id0 : Nat} {e : Err} {s1 s2 : St} : s.failsafe = false → AL.get s.db.inodes p = some ip →
      ip.locked = false → lookup s p n = (.ok id0, s1) → RmRun s1 [id0] (.error e) s2 → RmTree s p n (.error e) s2
  | last {ip : Inode} {id0 : Nat} {e : Err} {now : Int} {s1 s2 s3 : St} : s.failsafe = false → AL.get s.db.inodes p = some ip →
      ip.locked = false → lookup s p n = (.ok id0, s1) → RmRun s1 [id0] (.ok ()) s2 →
      remove s2 p n id0 true now = (.error e, s3) → RmTree s p n (.error e) s3
  | finish {ip : Inode} {id0 : Nat} {now : Int} {res : Except Err Unit} {s1 s2 s3 s4 : St} : s.failsafe = false →
      AL.get s.db.inodes p = some ip → ip.locked = false → lookup s p n = (.ok id0, s1) → RmRun s1 [id0] (.ok ()) s2 →
      remove s2 p n id0 true now = (.ok (), s3) → forget s3 [(id0, 1)] = (res, s4) → RmTree s p n res s4

/-! #### copy_tree -/

/-- The loop variables of `copy_tree`: the query that is being read, and the stack, each with the directory to copy, its
copy, and the name id to go on from; and `id_cache`, the copies of inodes with several links. -/
structure CpWalk where
  cur : Option (Nat × Nat × Nat)
  queue : List (Nat × Nat × Nat)
  cache : List (Nat × Nat)

/-- `UPDATE names SET refcount = refcount + 1 WHERE id IN …` (fs.py:593-597, 619). -/
def incNames (names : List (Nat × (Bytes × Int))) (ks : List Nat) : List (Nat × (Bytes × Int)) :=
  names.map (fun e => if e.1 ∈ ks then (e.1, (e.2.1, e.2.2 + 1)) else e)

/-- Copies an inode with its symbolic link target, extended attributes and blocks; the copy gets the next id
(fs.py:565-609). -/
def Db.copyInode (db : Db) (id : Nat) (i : Inode) : Db :=
  let new := db.seq + 1
  let blocks := (db.blocks.filter (fun e => e.1.1 == id)).map (fun e => ((new, e.1.2), e.2))
  { seq := new
    inodes := AL.set db.inodes new { i with refcount := 1, locked := false }
    symlinks := match AL.get db.symlinks id with
      | some t => AL.set db.symlinks new t
      | none => db.symlinks
    xattrs := db.xattrs ++ (db.xattrs.filter (fun e => e.1.1 == id)).map (fun e => ((new, e.1.2), e.2))
    names := incNames db.names (xattrNames db.xattrs id)
    blocks := db.blocks ++ blocks
    objects := db.objects.map (fun e => (e.1, e.2 + ((blocks.filter (fun b => b.2 == e.1)).length : Int)))
    contents := db.contents }

/-- The database effect of `cache.start_flush(id_)` (fs.py:561-562, block_cache.py:853-864): some blocks of the inode are
uploaded.  Only for inodes that are open.  An inode in `id_cache` was flushed before, and as no other request ran since
it has no dirty blocks. -/
def flushInode (s : St) (cache : List (Nat × Nat)) (id : Nat) (ups : List (Nat × Nat)) : St :=
  match AL.get s.opened id, AL.get cache id with
  | some _, none => ups.foldl (fun s u => bgUpload s id u.1 u.2) s
  | _, _ => s

/-- The insertion of the new entry (fs.py:615-619); `none` is a violation of the uniqueness of entries. -/
def Db.addCopy (db : Db) (dd k new : Nat) : Option Db :=
  match AL.get db.contents (dd, k) with
  | some _ => none
  | none => some { db with contents := AL.set db.contents (dd, k) new, names := incNames db.names [k] }

/-- The inode that stands for `id_` in the copy, which is made if there is none yet (fs.py:564-613).  The result has the
new stack and `id_cache`.  `none` is `KeyError`. -/
def copyRow (s : St) (w : CpWalk) (id : Nat) : Option (St × Nat × List (Nat × Nat × Nat) × List (Nat × Nat)) :=
  match AL.get w.cache id with
  | some new =>
    match AL.get s.db.inodes new with
    | none => none
    | some _ => some ({ s with db := s.db.modInode new (fun i => { i with refcount := i.refcount + 1 }) }, new, w.queue, w.cache)
  | none =>
    match AL.get s.db.inodes id with
    | none => none
    | some i =>
      let new := s.db.seq + 1
      let cache := if i.refcount ≠ 1 then AL.set w.cache id new else w.cache
      let s := { s with db := s.db.copyInode id i }
      let queue := if s.db.hasChildren id then (id, new, 0) :: w.queue else w.queue
      some (s, new, queue, cache)

/-- One iteration of the loops of `copy_tree` (fs.py:546-629): take a directory from the stack, handle the next row of the
query, or end the query.  `brk` says whether the batch ends after this row, `ups` which blocks are uploaded before the
inode of this row is copied.  The model does not let other requests run while blocks are uploaded or between batches. -/
def copyStep (brk : Bool) (ups : List (Nat × Nat)) (s : St) (w : CpWalk) : Option (St × CpWalk) :=
  match w.cur with
  | none =>
    match w.queue with
    | [] => some (s, w)
    | t :: q => some (s, ⟨some t, q, w.cache⟩)
  | some (sd, dd, lo) =>
    match s.db.nextRow sd lo with
    | none => some (s, ⟨none, w.queue, w.cache⟩)
    | some (k, id) =>
      match copyRow (flushInode s w.cache id ups) w id with
      | none => none
      | some (s, new, queue, cache) =>
        match s.db.addCopy dd k new with
        | none => none
        | some db =>
          if brk then some ({ s with db := db }, ⟨none, (sd, dd, k + 1) :: queue, cache⟩)
          else some ({ s with db := db }, ⟨some (sd, dd, k + 1), queue, cache⟩)

/-- Everything before the loop of `copy_tree` (fs.py:507-540): the attributes of the target are set, and an inode without
links is made, below which the copy is put at first. -/
def copyStart (s : St) (src tgt : Nat) (now : Int) : Except Err (St × CpWalk) :=
  if s.failsafe then .error .EPERM
  else
    match AL.get s.db.inodes src, AL.get s.db.inodes tgt with
    | some i, some _ =>
      let db := s.db.modInode tgt (fun t =>
        { t with atime := i.atime, ctime := i.ctime, mtime := i.mtime, mode := i.mode, uid := i.uid, gid := i.gid })
      let tmp := db.seq + 1
      let db := { db with seq := tmp, inodes := AL.set db.inodes tmp ⟨0, 0, 0, now, now, now, 0, 0, 0, false⟩ }
      .ok ({ s with db := db }, ⟨none, [(src, tmp, 0)], []⟩)
    | _, _ => .error .ENOENT

/-- Everything after the loop (fs.py:631-636): the entries of the temporary inode move to the target, and it is deleted.
`none` is a violation of the uniqueness of entries. -/
def copyEnd (s : St) (tgt tmp : Nat) : Option St :=
  if (s.db.contents.any (fun e => e.1.1 == tmp && (AL.get s.db.contents (tgt, e.1.2)).isSome)) = true then none
  else some { s with db := { s.db with
    contents := s.db.contents.map (fun e => if e.1.1 = tmp then ((tgt, e.1.2), e.2) else e), inodes := AL.erase s.db.inodes tmp } }

/-- The loop of `copy_tree`: any number of iterations; `none` if one fails. -/
inductive CpRun : St → CpWalk → Option (St × CpWalk) → Prop
  | here {s : St} {w : CpWalk} : CpRun s w (some (s, w))
  | fail {s s' : St} {w w' : CpWalk} {brk : Bool} {ups : List (Nat × Nat)} : CpRun s w (some (s', w')) →
      copyStep brk ups s' w' = none → CpRun s w none
  | step {s s' s'' : St} {w w' w'' : CpWalk} {brk : Bool} {ups : List (Nat × Nat)} : CpRun s w (some (s', w')) →
      copyStep brk ups s' w' = some (s'', w'') → CpRun s w (some (s'', w''))

/-- `copy_tree` (fs.py:504-638), without other requests in between, if it runs to the end. -/
inductive CpTree (s : St) (src tgt : Nat) : St → Prop
  | finish {now : Int} {s1 s2 s3 : St} {w1 w2 : CpWalk} : copyStart s src tgt now = .ok (s1, w1) →
      CpRun s1 w1 (some (s2, w2)) → w2.cur = none → w2.queue = [] → copyEnd s2 tgt (s.db.seq + 1) = some s3 → CpTree s src tgt s3

end Verif.Fs
