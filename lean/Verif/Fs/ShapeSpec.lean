/-
What the kernel guarantees about types and renames, and histories in which it does.
-/
import Verif.Fs.Spec

namespace Verif.Fs

def isLnk (m : Nat) : Bool := m &&& sIFMT == 0o120000
def isChr (m : Nat) : Bool := m &&& sIFMT == 0o020000

/-- The kernel sees a directory. -/
def SeesDir (s : St) (i : Nat) : Prop := ∃ a, seenAttr s i = some a ∧ isDir a.mode = true
/-- The kernel sees a regular file. -/
def SeesReg (s : St) (i : Nat) : Prop := ∃ a, seenAttr s i = some a ∧ isReg a.mode = true

/-- What the VFS layer of the kernel guarantees in addition to `Req`:
* entries are created in directories only, and `mknod` is called with a file type (it is also the request for new
  directories), which is not that of symbolic links, and with a device number for devices only;
* directories are not hard-linked;
* a directory is not moved below itself;
* `chmod` does not change the file type, and only regular files are truncated and written to. -/
def Vfs (s : St) : Op → Prop
  | .mknod p _ mode rdev _ _ _ => SeesDir s p ∧ mode &&& sIFMT ≠ 0 ∧ isLnk mode = false ∧ (rdev ≠ 0 → isBlk mode = true ∨ isChr mode = true)
  | .symlink p _ _ _ _ _ => SeesDir s p
  | .create p _ mode _ _ _ _ => SeesDir s p ∧ isReg mode = true
  | .link id p _ _ => SeesDir s p ∧ ¬SeesDir s id
  | .rename po no pn _ _ _ => SeesDir s pn ∧ ∀ a, seenEntry s po no = some a → ¬Below s a pn
  | .setattr id r _ _ _ => (∀ m, r.mode = some m → ∀ a, seenAttr s id = some a → m &&& sIFMT = a.mode &&& sIFMT) ∧
      (r.size ≠ none → SeesReg s id)
  | .write id _ _ _ _ => SeesReg s id
  | _ => True

/-- Histories as `Hist`, in which the kernel behaves as `Vfs` says.  No assumption is made about loops; `s3qlcp` refuses
to copy things other than directories (cp.py:71-72), and creates the target directory itself (cp.py:84-87). -/
inductive KHist (repl fail : Bool) : St → (Nat → Int) → Prop
  | init (uid gid : Nat) (now : Int) (m : Nat) : 0 < m →
      KHist repl fail (Fs.init uid gid now m) (fun i => if i = rootInode then 1 else 0)
  | step {s : St} {K : Nat → Int} (op : Op) : KHist repl fail s K → Req K s op → Vfs s op → Handled s op →
      (repl = false → ¬Replaces s op) → (fail = false → looksUp op → ∃ r, (step s op).1 = .ok r) →
      KHist repl fail (step s op).2 (fun i => K i + kernelDelta op (step s op).1 i)
  | remount {s : St} {K : Nat → Int} : KHist repl fail s K →
      KHist repl fail (Fs.remount s).2 (fun i => if i = rootInode then 1 else 0)
  | lock {s s' : St} {K : Nat → Int} (id : Nat) : KHist repl fail s K → lockInode s id = some s' →
      KHist repl fail s' K
  | rmtree {s s' : St} {K : Nat → Int} {p : Nat} {n : Bytes} {res : Except Err Unit} : KHist repl fail s K → n ≠ ctrlName →
      RmTree s p n res s' → KHist repl fail s' K
  | rmrow {s s' : St} {K : Nat → Int} {p id : Nat} {n : Bytes} {now : Int} {res : Except Err Unit} : KHist repl fail s K →
      n ≠ ctrlName → seenEntry s p n = some id → remove s p n id true now = (res, s') → KHist repl fail s' K
  | cptree {s s' : St} {K : Nat → Int} {src tgt : Nat} : KHist repl fail s K → SeesDir s src → SeesDir s tgt → Linked s tgt →
      CpTree s src tgt s' → KHist repl fail s' K

end Verif.Fs
