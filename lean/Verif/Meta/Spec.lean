import Verif.Meta.Model
/-
Specification vocabulary for the metadata store, independent of how upload, download and expiration
work.
-/
namespace Verif.Meta

/-- The objects of metadata blocks in the backend. -/
abbrev Blocks := List ((Nat × Nat) × Bytes)

/-- `s` is the highest sequence number not above `n` under which block `b` is stored. -/
def Newest (blocks : Blocks) (b n s : Nat) : Prop :=
  (AL.get blocks (b, s)).isSome ∧ s ≤ n ∧
    ∀ s', (AL.get blocks (b, s')).isSome → s' ≤ n → s' ≤ s

/-- As of version `n`, the backend has block `b` of the file `f`: the newest object for it agrees with
the file wherever the file has data. -/
def Agree (cfg : Cfg) (blocks : Blocks) (n : Nat) (f : Bytes) (b : Nat) : Prop :=
  ∃ s c, Newest blocks b n s ∧ AL.get blocks (b, s) = some c ∧ c.length ≤ cfg.bs ∧
    ∀ i, i < cfg.bs → b * cfg.bs + i < f.length → c.getD i 0 = f.getD (b * cfg.bs + i) 0

/-- As of version `n`, the backend has every block of the file `f`, except possibly those in `dirty`. -/
def InSync (cfg : Cfg) (blocks : Blocks) (n : Nat) (f : Bytes) (dirty : List Nat) : Prop :=
  ∀ b, b * cfg.bs < f.length → b ∉ dirty → Agree cfg blocks n f b

/-- The parameters `p` describe a snapshot of the file `f` that is completely stored. -/
def Snapshot (cfg : Cfg) (blocks : Blocks) (p : Params) (f : Bytes) : Prop :=
  p.dbSize = f.length ∧ p.digest = cfg.hash f ∧ InSync cfg blocks p.seq f []

/-- What SQLite does to the main database file: it never leaves a hole and never extends the file by
truncation. -/
def FileOp.Dense (f : Bytes) : FileOp → Prop
  | .write off _ => off ≤ f.length
  | .trunc n => n ≤ f.length

instance (f : Bytes) (o : FileOp) : Decidable (o.Dense f) := by
  cases o <;> unfold FileOp.Dense <;> infer_instance

/-- A sequence of such calls. -/
def DenseAll : Bytes → List FileOp → Prop
  | _, [] => True
  | f, o :: os => o.Dense f ∧ DenseAll (o.apply f) os

/-- The file after a sequence of calls. -/
def applyAll (f : Bytes) (ops : List FileOp) : Bytes := ops.foldl (fun f o => o.apply f) f

end Verif.Meta
