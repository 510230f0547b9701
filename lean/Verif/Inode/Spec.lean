import Verif.Inode.Model
/-
What the inode cache is supposed to be: a table of inode attributes.
-/
namespace Verif.Inode

/-- Specification state: the table, the first inode number never used, and the inode object that the latest
lookup or creation returned (if it may still be used), with its number. -/
structure Spec where
  table : Nat → Option Row
  unused : Nat
  current : Option (Nat × Nat)

namespace Spec

/-- May this operation be used?  Attributes are only accessed through the object that the latest lookup
returned, and not after its inode was deleted or the cache dropped (the documented rule,
inode_cache.py:157-169). -/
def allowed (S : Spec) : Op → Prop
  | .getA o _ => ∃ id, S.current = some (o, id)
  | .setA o _ _ => ∃ id, S.current = some (o, id)
  | _ => True

/-- Correct result. -/
def correct (S : Spec) : Op → Out → Prop
  | .create _, out => ∃ o, out = .obj o S.unused
  | .item id, out => match S.table id with
    | some _ => ∃ o, out = .obj o id
    | none => out = .keyError
  | .getA o a, out => ∃ id row, S.current = some (o, id) ∧ S.table id = some row ∧ out = .val (row a)
  | .setA _ _ _, out => out = .none
  | .del id, out => out = match S.table id with | some _ => .none | none => .keyError
  | .flushId _, out => out = .none
  | .flush, out => out = .none
  | .drop, out => out = .none

/-- Effect on the table. -/
def next (S : Spec) : Op → Out → Spec
  | .create row, .obj o _ =>
    { table := fun i => if i = S.unused then some row else S.table i, unused := S.unused + 1,
      current := some (o, S.unused) }
  | .item id, .obj o _ => { S with current := some (o, id) }
  | .setA _ a v, _ =>
    match S.current with
    | some (_, id) => { S with table := fun i =>
        if i = id then (S.table i).map (fun row x => if x = a then v else row x) else S.table i }
    | none => S
  | .del id, _ =>
    { S with table := fun i => if i = id then none else S.table i,
             current := match S.current with
               | some (o, i) => if i = id then none else some (o, i)
               | none => none }
  | .drop, _ => { S with current := none }
  | _, _ => S

/-- A history in which attributes are accessed as documented. -/
def Allowed : Spec → List Op → List Out → Prop
  | _, [], [] => True
  | S, op :: ops, o :: os => S.allowed op ∧ Allowed (S.next op o) ops os
  | _, _, _ => False

def Correct : Spec → List Op → List Out → Prop
  | _, [], [] => True
  | S, op :: ops, o :: os => S.correct op o ∧ Correct (S.next op o) ops os
  | _, _, _ => False

def run : Spec → List Op → List Out → Spec
  | S, op :: ops, o :: os => run (S.next op o) ops os
  | S, _, _ => S

/-- The specification of an existing table. -/
def ofTable (db : List (Nat × Row)) (nextId : Nat) : Spec :=
  { table := AL.get db, unused := nextId, current := none }

end Spec
end Verif.Inode
