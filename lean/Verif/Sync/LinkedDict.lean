import Verif.Util.AList
/-
Model of `LinkedDict` (_linked_dict.py): nodes of a doubly linked list in a heap, plus a dict from keys
to nodes, plus the active `mutable_values()` iterators with their cursor nodes.
-/
namespace Verif.Sync.LinkedDict

/-- Contents of a node: `key` and `value`; cursor nodes have the key `_CURSOR_KEY`
(_linked_dict.py:15-31).  For identification, the model records the iterator of a cursor. -/
inductive Item (K V : Type) where
  | entry (k : K) (v : V)
  | cursor (c : Nat)
deriving Repr, DecidableEq

structure State (K V : Type) where
  next : Nat → Nat
  prev : Nat → Nat
  info : Nat → Item K V
  /-- `_data` (_linked_dict.py:47). -/
  data : List (K × Nat)
  /-- cursor node of each active iterator. -/
  iters : List (Nat × Nat)
  /-- first unused node address. -/
  fresh : Nat

/-- Addresses of `_head`, `_tail` and `None`. -/
def HEAD : Nat := 0
def TAIL : Nat := 1
def NULL : Nat := 2

inductive Op (K V : Type) where
  | set (k : K) (v : V)
  | del (k : K)
  | pop (k : K)
  | get (k : K)
  | len
  | moveToTail (k : K)
  /-- first `next()` of a new `mutable_values()` generator: insertion of the cursor. -/
  | iterStart (c : Nat)
  /-- run the generator to its next `yield` or its end. -/
  | iterNext (c : Nat)
  /-- the generator is closed. -/
  | iterClose (c : Nat)

inductive Out (K V : Type) where
  | none
  | val (v : V)
  | len (n : Nat)
  | keyError
  /-- value yielded by the iterator; the model also shows the key. -/
  | yielded (k : K) (v : V)
  | stop
deriving Repr, DecidableEq

variable {K V : Type} [DecidableEq K]

def upd {β : Type} (f : Nat → β) (a : Nat) (b : β) : Nat → β := fun x => if x = a then b else f x

def init [Inhabited V] [Inhabited K] : State K V :=
  -- _linked_dict.py:49-55
  { next := upd (fun _ => NULL) HEAD TAIL, prev := upd (fun _ => NULL) TAIL HEAD,
    info := fun _ => .cursor 0, data := [], iters := [], fresh := 3 }

/-- Insertion before `_tail` (_linked_dict.py:99-105, 135-139). -/
def linkTail (s : State K V) (n : Nat) : State K V :=
  let p := s.prev TAIL
  let prev1 := upd s.prev n p
  let next1 := upd s.next n TAIL
  { s with next := upd next1 p n, prev := upd prev1 TAIL n }

/-- Insertion after `_head` (_linked_dict.py:203-208). -/
def linkHead (s : State K V) (n : Nat) : State K V :=
  let h := s.next HEAD
  let prev1 := upd s.prev n HEAD
  let next1 := upd s.next n h
  { s with prev := upd prev1 h n, next := upd next1 HEAD n }

/-- `_unlink` (_linked_dict.py:141-148) and the `finally` clause (227-233). -/
def unlink (s : State K V) (n : Nat) : State K V :=
  let p := s.prev n
  let x := s.next n
  { s with next := upd (upd s.next p x) n NULL, prev := upd (upd s.prev x p) n NULL }

/-- Move the cursor behind the following node (_linked_dict.py:215-222). -/
def swap (s : State K V) (cur nxt : Nat) : State K V :=
  let p := s.prev cur
  let after := s.next nxt
  let next1 := upd s.next p nxt
  let prev1 := upd s.prev nxt p
  let next2 := upd next1 nxt cur
  let prev2 := upd prev1 cur nxt
  let next3 := upd next2 cur after
  let prev3 := upd prev2 after cur
  { s with next := next3, prev := prev3 }

/-- The loop of `mutable_values` (_linked_dict.py:210-225).  The number of rounds is at most the number
of nodes; `LoopEnough` shows that the bound is never reached. -/
def advance (cur : Nat) : Nat → State K V → State K V × Out K V
  | 0, s => (s, .stop)
  | fuel + 1, s =>
    let nxt := s.next cur
    if nxt = TAIL then (unlink s cur, .stop)
    else
      let s' := swap s cur nxt
      match s'.info nxt with
      | .cursor _ => advance cur fuel s'
      | .entry k v => (s', .yielded k v)

def step (s : State K V) : Op K V → Option (State K V × Out K V)
  | .set k v =>
    -- _linked_dict.py:82-105
    match AL.get s.data k with
    | some n => some ({ s with info := upd s.info n (.entry k v) }, .none)
    | none =>
      let n := s.fresh
      let s' := { s with info := upd s.info n (.entry k v), fresh := s.fresh + 1, data := AL.set s.data k n }
      some (linkTail s' n, .none)
  | .del k =>
    -- _linked_dict.py:107-109
    match AL.get s.data k with
    | none => some (s, .keyError)
    | some n => some (unlink { s with data := AL.erase s.data k } n, .none)
  | .pop k =>
    -- _linked_dict.py:123-131
    match AL.get s.data k with
    | none => some (s, .keyError)
    | some n => match s.info n with
      | .entry _ v => some (unlink { s with data := AL.erase s.data k } n, .val v)
      | .cursor _ => none
  | .get k =>
    -- _linked_dict.py:77-80
    match AL.get s.data k with
    | none => some (s, .keyError)
    | some n => match s.info n with
      | .entry _ v => some (s, .val v)
      | .cursor _ => none
  | .len => some (s, .len s.data.length)          -- _linked_dict.py:65-67
  | .moveToTail k =>
    -- _linked_dict.py:133-139
    match AL.get s.data k with
    | none => some (s, .keyError)
    | some n => some (linkTail (unlink s n) n, .none)
  | .iterStart c =>
    match AL.get s.iters c with
    | some _ => none
    | none =>
      let n := s.fresh
      let s' := { s with info := upd s.info n (.cursor c), fresh := s.fresh + 1, iters := AL.set s.iters c n }
      some (linkHead s' n, .none)
  | .iterNext c =>
    match AL.get s.iters c with
    | none => none
    | some cur =>
      match advance cur s.fresh s with
      | (s', .stop) => some ({ s' with iters := AL.erase s'.iters c }, .stop)
      | (s', o) => some (s', o)
  | .iterClose c =>
    match AL.get s.iters c with
    | none => none
    | some cur => some (unlink { s with iters := AL.erase s.iters c } cur, .none)

def exec (s : State K V) : List (Op K V) → Option (State K V × List (Out K V))
  | [] => some (s, [])
  | e :: es =>
    match step s e with
    | none => none
    | some (s', o) =>
      match exec s' es with
      | none => none
      | some (s'', os) => some (s'', o :: os)

/-! ### Ordered list of items: the abstract level -/

/-- Value of a key. -/
def lget : List (Item K V) → K → Option V
  | [], _ => none
  | .entry k' v :: t, k => if k' = k then some v else lget t k
  | .cursor _ :: t, k => lget t k

/-- Replace the value of a key in place. -/
def lrep (l : List (Item K V)) (k : K) (v : V) : List (Item K V) :=
  l.map (fun x => match x with
    | .entry k' v' => if k' = k then .entry k v else .entry k' v'
    | .cursor c => .cursor c)

def isKey (k : K) : Item K V → Bool
  | .entry k' _ => k' = k
  | .cursor _ => false

def isCur (c : Nat) : Item K V → Bool
  | .entry _ _ => false
  | .cursor c' => c' = c

def ldel (l : List (Item K V)) (k : K) : List (Item K V) := l.filter (fun x => !isKey k x)

def lclose (l : List (Item K V)) (c : Nat) : List (Item K V) := l.filter (fun x => !isCur c x)

/-- Move cursor `c` from the front of the list behind the next entry. -/
def skip (c : Nat) : List (Item K V) → List (Item K V) × Option (K × V)
  | [] => ([], none)
  | .cursor d :: t => let r := skip c t; (.cursor d :: r.1, r.2)
  | .entry k v :: t => (.entry k v :: .cursor c :: t, some (k, v))

def ladv (c : Nat) : List (Item K V) → List (Item K V) × Option (K × V)
  | [] => ([], none)
  | .cursor c' :: t => if c' = c then skip c t else let r := ladv c t; (.cursor c' :: r.1, r.2)
  | .entry k v :: t => let r := ladv c t; (.entry k v :: r.1, r.2)

def lhasCur (l : List (Item K V)) (c : Nat) : Bool := l.any (isCur c)

def isEntry : Item K V → Bool
  | .entry _ _ => true
  | .cursor _ => false

/-- Number of entries. -/
def lcount (l : List (Item K V)) : Nat := (l.filter isEntry).length

def lstep (l : List (Item K V)) : Op K V → Option (List (Item K V) × Out K V)
  | .set k v => match lget l k with
    | some _ => some (lrep l k v, .none)
    | none => some (l ++ [.entry k v], .none)
  | .del k => match lget l k with
    | some _ => some (ldel l k, .none)
    | none => some (l, .keyError)
  | .pop k => match lget l k with
    | some v => some (ldel l k, .val v)
    | none => some (l, .keyError)
  | .get k => match lget l k with
    | some v => some (l, .val v)
    | none => some (l, .keyError)
  | .len => some (l, .len (lcount l))
  | .moveToTail k => match lget l k with
    | some v => some (ldel l k ++ [.entry k v], .none)
    | none => some (l, .keyError)
  | .iterStart c => if lhasCur l c then none else some (.cursor c :: l, .none)
  | .iterNext c => if lhasCur l c then
      match ladv c l with
      | (l', some (k, v)) => some (l', .yielded k v)
      | (l', none) => some (l', .stop)
    else none
  | .iterClose c => if lhasCur l c then some (lclose l c, .none) else none

end Verif.Sync.LinkedDict
