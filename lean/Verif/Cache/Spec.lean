import Verif.Cache.Model
/-
What users of the cache rely on: every block is a variable holding a byte string.
Blocks start empty; a write replaces the contents, a removal empties the block.  A copy assigns to a block what another
block contained when it was last registered for storing (C77 says when that is the contents the block has now).
Reads, uploads, downloads, evictions, failures change nothing.
-/
namespace Verif.Cache.Spec

/-- Contents of every block: now, and when it was last registered for storing. -/
structure Mem where
  now : Key → Bytes
  stored : Key → Bytes

def empty : Mem := ⟨fun _ => [], fun _ => []⟩

def step (m : Mem) : Ev → Mem
  | .write k c => { m with now := upd m.now k c }
  | .register k => { m with stored := upd m.stored k (m.now k) }
  | .remove k => ⟨upd m.now k [], upd m.stored k []⟩
  | .copy k k' => ⟨upd m.now k' (m.stored k), upd m.stored k' (m.stored k)⟩
  | _ => m

def run (m : Mem) (evs : List Ev) : Mem := evs.foldl step m

/-- An output is right for the event: a read returns the contents of the block. -/
def okOut (m : Mem) : Ev → Out → Prop
  | .read k, o => o = .data (m.now k)
  | _, .data _ => False
  | _, _ => True

/-- All outputs of a history are right. -/
def okOuts (m : Mem) : List Ev → List Out → Prop
  | [], [] => True
  | e :: es, o :: os => okOut m e o ∧ okOuts (step m e) es os
  | _, _ => False

end Verif.Cache.Spec
