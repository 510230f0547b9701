import Verif.FileData.Model
/-
Specification of C01: a file is one array of bytes.  Independent of blocks.
-/
namespace Verif.FileData.Spec
open Verif.FileData (Byte Op Out)

/-- Array `a` after setting its length to `n`: cut, or extended with zero bytes. -/
def resize (a : List Byte) (n : Nat) : List Byte := a.take n ++ List.replicate (n - a.length) 0

/-- Array `a` after storing `d` at offset `o`; the array grows (with zero bytes) as needed. -/
def store (a : List Byte) (o : Nat) (d : List Byte) : List Byte :=
  let a := resize a (max a.length (o + d.length))
  a.take o ++ d ++ a.drop (o + d.length)

def step (a : List Byte) : Op → List Byte × Out
  | .read o n => (a, .data ((a.drop o).take n))
  | .write o d => (store a o d, .written d.length)
  | .truncate n => (resize a n, .size n)

def run (a : List Byte) : List Op → List Byte × List Out
  | [] => (a, [])
  | op :: ops =>
    let r := step a op
    let r' := run r.1 ops
    (r'.1, r.2 :: r'.2)

end Verif.FileData.Spec
