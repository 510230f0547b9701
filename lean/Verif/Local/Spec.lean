import Verif.Local.Model
/-
Specification for C31/C32.
-/
namespace Verif.Local.Spec

/-- The keys in `ks` that start with `pfx`, in storage order. -/
def withPrefix (ks : List Str) (pfx : Str) : List Str := ks.filter (fun k => pfx.isPrefixOf k)

/-- Keys as S3QL uses them: the part after `s3ql_data_` contains no character that needs escaping
(it is a decimal number). -/
def UsualKey (k : Str) : Prop := dataPrefix <+: k → ∀ c ∈ k.drop 10, c ≠ '=' ∧ c ≠ '/' ∧ c ≠ '#'

end Verif.Local.Spec
