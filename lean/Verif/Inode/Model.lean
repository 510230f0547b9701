import Verif.Util.AList
/-
Model of `InodeCache` (inode_cache.py): the `inodes` table, the cached `_Inode` objects (with identity), and the
ring of cached inode numbers.
-/
namespace Verif.Inode

/-- A row of the `inodes` table without its id: a value for each of `UPDATE_ATTRS` (inode_cache.py:37-48),
numbered; values are integers. -/
def Row := Nat → Int

/-- An `_Inode` object (inode_cache.py:52-71). -/
structure Obj where
  id : Nat
  row : Row
  dirty : Bool

/-- inode_cache.py:180-198; `db` is the table, `nextId` its AUTOINCREMENT counter (database.py:655-700). -/
structure State where
  db : List (Nat × Row)
  nextId : Nat
  attrs : List (Nat × Nat)
  ring : Nat → Option Nat
  pos : Nat
  objs : Nat → Obj
  nobj : Nat

def upd {β : Type} (f : Nat → β) (a : Nat) (b : β) : Nat → β := fun x => if x = a then b else f x

theorem upd_app {β : Type} (f : Nat → β) (a : Nat) (b : β) (x : Nat) :
    upd f a b x = if x = a then b else f x := rfl

/-- `InodeCache.__init__` (inode_cache.py:186-198) over an existing table. -/
def init (db : List (Nat × Row)) (nextId : Nat) : State :=
  { db := db, nextId := nextId, attrs := [], ring := fun _ => none, pos := 0,
    objs := fun _ => ⟨0, fun _ => 0, false⟩, nobj := 0 }

/-- `setattr(inode)` (inode_cache.py:253-262): UPDATE of the row if the object is dirty. -/
def writeBack (s : State) (o : Nat) : State :=
  let ob := s.objs o
  if ob.dirty then
    { s with
      objs := upd s.objs o { ob with dirty := false }
      db := if (AL.get s.db ob.id).isSome then AL.set s.db ob.id ob.row else s.db }
  else s

/-- Release of the ring slot's old inode (inode_cache.py:219-229, and 272-288 in `destroy`). -/
def evict (s : State) (old : Option Nat) : State :=
  match old with
  | none => s
  | some id =>
    match AL.get s.attrs id with
    | none => s
    | some o => writeBack { s with attrs := AL.erase s.attrs id } o

/-- `__getitem__` (inode_cache.py:207-231) with cache size `n`; `none` is `KeyError`. -/
def lookup (n : Nat) (s : State) (id : Nat) : State × Option Nat :=
  match AL.get s.attrs id with
  | some o => (s, some o)
  | none =>
    match AL.get s.db id with
    | none => (s, none)
    | some row =>
      let o := s.nobj
      let s1 := { s with objs := upd s.objs o ⟨id, row, false⟩, nobj := o + 1 }
      let old := s1.ring s1.pos
      let s2 := { s1 with ring := upd s1.ring s1.pos (some id), pos := (s1.pos + 1) % n }
      let s3 := evict s2 old
      ({ s3 with attrs := AL.set s3.attrs id o }, some o)

/-- The loop of `destroy` (inode_cache.py:268-288) over slots `i, i+1, …` (`k` of them). -/
def destroyLoop (s : State) : Nat → Nat → State
  | _, 0 => s
  | i, k + 1 => destroyLoop (evict { s with ring := upd s.ring i none } (s.ring i)) (i + 1) k

/-- The loop of `flush` (inode_cache.py:290-304). -/
def flushLoop (s : State) : Nat → Nat → State
  | _, 0 => s
  | i, k + 1 =>
    let s' := match s.ring i with
      | none => s
      | some id => match AL.get s.attrs id with
        | none => s
        | some o => writeBack s o
    flushLoop s' (i + 1) k

inductive Op where
  /-- `create_inode(**kw)` (inode_cache.py:244-251); `row` is the row after column defaults. -/
  | create (row : Row)
  /-- `inodes[id]` -/
  | item (id : Nat)
  /-- attribute of an inode object -/
  | getA (o a : Nat)
  /-- assignment to an attribute of an inode object (inode_cache.py:117-120: sets `dirty`) -/
  | setA (o a : Nat) (v : Int)
  /-- `del inodes[id]` (inode_cache.py:200-205) -/
  | del (id : Nat)
  /-- `flush_id` (inode_cache.py:264-266) -/
  | flushId (id : Nat)
  | flush
  /-- `drop` = `destroy` (inode_cache.py:268-309) -/
  | drop

inductive Out where
  | none
  | keyError
  /-- an inode object: its identity and its `id` -/
  | obj (o id : Nat)
  | val (v : Int)
deriving DecidableEq, Repr

def step (n : Nat) (s : State) : Op → State × Out
  | .create row =>
    let id := s.nextId
    let r := lookup n { s with db := AL.set s.db id row, nextId := id + 1 } id
    (r.1, match r.2 with | some o => .obj o id | none => .keyError)
  | .item id =>
    let r := lookup n s id
    (r.1, match r.2 with | some o => .obj o id | none => .keyError)
  | .getA o a => (s, .val ((s.objs o).row a))
  | .setA o a v =>
    let ob := s.objs o
    ({ s with objs := upd s.objs o { ob with row := fun x => if x = a then v else ob.row x, dirty := true } }, .none)
  | .del id =>
    if (AL.get s.db id).isSome then
      let s1 := { s with db := AL.erase s.db id }
      match AL.get s.attrs id with
      | none => (s1, .none)
      | some o =>
        ({ s1 with attrs := AL.erase s.attrs id, objs := upd s.objs o { s.objs o with dirty := false } }, .none)
    else (s, .keyError)
  | .flushId id =>
    match AL.get s.attrs id with
    | none => (s, .none)
    | some o => (writeBack s o, .none)
  | .flush => (flushLoop s 0 n, .none)
  | .drop => (destroyLoop s 0 n, .none)

def exec (n : Nat) (s : State) : List Op → State × List Out
  | [] => (s, [])
  | op :: ops =>
    let r := step n s op
    let t := exec n r.1 ops
    (t.1, r.2 :: t.2)

end Verif.Inode
