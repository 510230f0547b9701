import Verif.System.Model
import Verif.FileData.Spec
/-
Specification of C72: every file is one array of bytes, wherever and however often the file system was mounted.
-/
namespace Verif.System

/-- The write or truncation that has just succeeded, with the number of the file. -/
def ended (s s' : Fs) : FEv → Option (Nat × FileData.Op)
  | .go t =>
    if s.busy t then
      match AL.get s'.tasks t with
      | some (.wrOk i o d) => some (i, .write o d)
      | some (.trOk i len) => some (i, .truncate len)
      | _ => none
    else none
  | _ => none

/-- The arrays after that. -/
def apply (A : Nat → Bytes) : Option (Nat × FileData.Op) → Nat → Bytes
  | some (i, op) => fun j => if j = i then (FileData.Spec.step (A i) op).1 else A j
  | none => A

/-- The arrays after one event. -/
def next (A : Nat → Bytes) (w w' : World) : Ev → Nat → Bytes
  | .fs ev _ => apply A (ended w.fs w'.fs ev)
  | _ => A

/-- The arrays after a history that starts in `w` with the arrays `A`: successful writes and truncations are applied in the
order in which they ended.  Mounting, unmounting and everything else changes nothing. -/
def contents (cfg : Meta.Cfg) (H : Bytes → Bytes) (dec : Bytes → Option Tables) : World → List Ev → (Nat → Bytes) → Nat → Bytes
  | _, [], A => A
  | w, e :: es, A =>
    match step cfg H dec w e with
    | none => A
    | some w' => contents cfg H dec w' es (next A w w' e)

/-- In this history there is no fsck and no restore-metadata, and downloads handle every job once. -/
def Plain (ev : Ev) : Prop := ∀ op, ev = .proto op → isProto op = true ∧ ∀ order, op = .dlEnd order → ∀ l, (order l).Perm l

end Verif.System
