import Verif.Meta.Proto
/-
Specification vocabulary for the protocol.
-/
namespace Verif.Meta

/-- The database that the history should have produced: every change ever made, applied in order to the
database that mkfs created. -/
def truth : Bytes → List Op → Bytes
  | f, [] => f
  | f, .sql o :: ops => truth (o.apply f) ops
  | f, .early o :: ops => truth (o.apply f) ops
  | f, _ :: ops => truth f ops

/-- If the backend says "not mounted", then no machine other than `m` has local parameters that are
newer than the remote ones (which happens if a process on that machine was killed after writing
its local parameters and before storing the remote ones). -/
def Alone (w : World) (m : Nat) : Prop :=
  ∀ r, w.remote.cur = some r → r.mounted = false →
    ∀ b, b ≠ m → ∀ l, (w.disk b).params = some l → l.seq ≤ r.seq

/-- The histories for which the main theorems hold: no process is started on another machine while a
machine is in the state just described; the user does not confirm to use outdated metadata and does
not restore a backup; no mount is killed between the creation of the NFS index and the writing of
its parameters; and download workers handle every job once. -/
def Orderly (w : World) : Op → Prop
  | .startMount m => Alone w m
  | .startFsck m _ answer => Alone w m ∧ answer = false
  | .restoreCrash _ _ => False
  | .restore _ _ _ _ => False
  | .dlEnd order => ∀ l, (order l).Perm l
  | .crash => ∀ pr, w.proc = some pr → pr.pc = .got → pr.early = false
  | _ => True

/-- An orderly history from `w`. -/
def OrderlyRun (cfg : Cfg) : World → List Op → Prop
  | _, [] => True
  | w, op :: ops => Orderly w op ∧ ∀ w', step cfg w op = some w' → OrderlyRun cfg w' ops

end Verif.Meta
