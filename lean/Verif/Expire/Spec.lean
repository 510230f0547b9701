import Verif.Expire.Model
/-
Specification for C45/C46, independent of the simulation.
-/
namespace Verif.Expire.Spec

/-- `lo ≤ age < hi` is one of the configured age ranges: from 0 to the first boundary, and between
consecutive boundaries. -/
def IsRange (cycles : List Nat) (lo hi : Nat) : Prop :=
  (lo = 0 ∧ cycles[0]? = some hi) ∨ ∃ i, cycles[i]? = some lo ∧ cycles[i + 1]? = some hi

/-- Age of backup `x` if `made` backups have been made so far: how many were made after it. -/
def age (made x : Nat) : Nat := made - 1 - x

/-- The set of numbers denoted by one printed item. -/
def denotes : Item → Nat → Prop
  | .one n, k => k = n
  | .span a b, k => a ≤ k ∧ k ≤ b

end Verif.Expire.Spec
