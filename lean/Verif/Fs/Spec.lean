/-
Specification of the file system operations: what a user sees of the metadata, and what the kernel guarantees.

Nothing here refers to tables, reference counts or ids of names.
-/
import Verif.Fs.Tree

namespace Verif.Fs

/-! #### What a caller sees -/

/-- The entry of a directory, as `lookup` reports it. -/
def seenEntry (s : St) (p : Nat) (n : Bytes) : Option Nat :=
  match (step s (.lookup p n)).1 with
  | .ok (.entry id _) => some id
  | _ => none

/-- The value of an extended attribute, as `getxattr` reports it. -/
def seenXattr (s : St) (i : Nat) (n : Bytes) : Option Bytes :=
  match (step s (.getxattr i n)).1 with
  | .ok (.bytes v) => some v
  | _ => none

/-- The attributes of an inode, as `getattr` reports them. -/
def seenAttr (s : St) (i : Nat) : Option Inode :=
  match (step s (.getattr i)).1 with
  | .ok (.entry _ a) => some a
  | _ => none

/-- The target of a symbolic link, as `readlink` reports it. -/
def seenLink (s : St) (i : Nat) : Option Bytes :=
  match (step s (.readlink i 0)).1 with
  | .ok (.bytes t) => some t
  | _ => none

/-! #### Requests the kernel can send

`K i` is the number of lookups of the inode `i` that the kernel was told about and has not returned. -/

/-- Only lookups that were handed out are forgotten. -/
def ForgetOk (cnt : Nat → Int) : List (Nat × Int) → Prop
  | [] => True
  | (id, n) :: t => 0 < n ∧ n ≤ cnt id ∧ ForgetOk (fun i => cnt i - if i = id then n else 0) t

/-- What the VFS and FUSE layers guarantee about requests:
* inodes in requests are known to the kernel;
* names to be created do not exist in the directory (the kernel looks them up under the lock of the directory);
* `rename` has two different inodes as source and target (the kernel treats the other case itself), and does not move
  into a deleted directory;
* requests about extended attributes of the control file are commands and not part of this model. -/
def Req (K : Nat → Int) (s : St) : Op → Prop
  | .lookup p _ => 0 < K p
  | .getattr id => 0 < K id
  | .readlink id _ => 0 < K id
  | .readdir p _ _ _ => 0 < K p
  | .getxattr id _ => 0 < K id ∧ id ≠ ctrlInode
  | .listxattr id => 0 < K id
  | .setxattr id _ _ _ => 0 < K id ∧ id ≠ ctrlInode
  | .removexattr id _ _ => 0 < K id
  | .unlink p _ _ => 0 < K p
  | .rmdir p _ _ => 0 < K p
  | .mknod p n _ _ _ _ _ => 0 < K p ∧ (n ≠ ctrlName → seenEntry s p n = none)
  | .symlink p n _ _ _ _ => 0 < K p ∧ (n ≠ ctrlName → seenEntry s p n = none)
  | .link id p n _ => 0 < K id ∧ 0 < K p ∧ (n ≠ ctrlName → seenEntry s p n = none)
  | .rename po no pn nn _ _ => 0 < K po ∧ 0 < K pn ∧ (pn = rootInode ∨ ∃ p n, n ≠ ctrlName ∧ seenEntry s p n = some pn) ∧
      (no ≠ ctrlName → nn ≠ ctrlName → ∀ a, seenEntry s po no = some a → seenEntry s pn nn ≠ some a)
  | .setattr id _ _ _ _ => 0 < K id
  | .open id _ _ => 0 < K id
  | .create p _ _ _ _ _ _ => 0 < K p
  | .read id _ _ => 0 < K id
  | .write id _ _ _ _ => 0 < K id
  | .forget l => ForgetOk K l
  | .upload _ _ _ => True

/-- Requests the kernel can send but the code does not handle properly (see the theorems about them in `Props`):
removing an attribute that is not set although the table of names has its name, and removing the control file. -/
def Handled (s : St) : Op → Prop
  | .removexattr id n _ => seenXattr s id n ≠ none ∨ ∀ e ∈ s.db.names, e.2.1 ≠ n
  | .unlink _ n _ => n ≠ ctrlName
  | .rmdir _ n _ => n ≠ ctrlName
  | _ => True

/-! #### Directories as a map from (directory, name) to inode -/

/-- The directory entries after an operation with a given result. -/
def specEntries (m : Nat → Bytes → Option Nat) (op : Op) (res : Except Err Reply) : Nat → Bytes → Option Nat :=
  match op, res with
  | .mknod p n _ _ _ _ _, .ok (.entry id _) => fun p' n' => if p' = p ∧ n' = n then some id else m p' n'
  | .symlink p n _ _ _ _, .ok (.entry id _) => fun p' n' => if p' = p ∧ n' = n then some id else m p' n'
  | .create p n _ _ _ _ _, .ok (.entry id _) => fun p' n' => if p' = p ∧ n' = n then some id else m p' n'
  | .link id p n _, .ok _ => fun p' n' => if p' = p ∧ n' = n then some id else m p' n'
  | .unlink p n _, .ok _ => fun p' n' => if p' = p ∧ n' = n then none else m p' n'
  | .rmdir p n _, .ok _ => fun p' n' => if p' = p ∧ n' = n then none else m p' n'
  | .rename po no pn nn _ _, .ok _ => fun p' n' =>
      if p' = pn ∧ n' = nn then m po no else if p' = po ∧ n' = no then none else m p' n'
  | _, _ => m

/-- The extended attributes, as a map from (inode, name) to value, after an operation with a given result. -/
def specXattrs (m : Nat → Bytes → Option Bytes) (op : Op) (res : Except Err Reply) : Nat → Bytes → Option Bytes :=
  match op, res with
  | .setxattr id n v _, .ok _ => fun i n' => if i = id ∧ n' = n then some v else m i n'
  | .removexattr id n _, .ok _ => fun i n' => if i = id ∧ n' = n then none else m i n'
  | _, _ => m

/-- The targets of symbolic links after an operation with a given result. -/
def specSymlinks (m : Nat → Option Bytes) (op : Op) (res : Except Err Reply) : Nat → Option Bytes :=
  match op, res with
  | .symlink _ _ t _ _ _, .ok (.entry id _) => fun i => if i = id then some t else m i
  | _, _ => m

/-- `setxattr` on an attribute that exists already. -/
def Replaces (s : St) : Op → Prop
  | .setxattr id n _ _ => seenXattr s id n ≠ none
  | _ => False

/-- Operations that change the data or the attributes of an inode. -/
def writesTo : Op → Nat → Prop
  | .setattr id _ _ _ _, i => i = id
  | .open id _ _, i => i = id
  | .create _ _ _ _ _ _ _, _ => True
  | .write id _ _ _ _, i => i = id
  | .upload id _ _, i => i = id
  | _, _ => False

/-- Equal in everything but link count and times. -/
def SameAttr (a b : Inode) : Prop :=
  a.mode = b.mode ∧ a.uid = b.uid ∧ a.gid = b.gid ∧ a.size = b.size ∧ a.rdev = b.rdev ∧ a.locked = b.locked

/-- The lookups a reply hands out to the kernel, or the kernel returns. -/
def kernelDelta (op : Op) (res : Except Err Reply) (i : Nat) : Int :=
  match op, res with
  | .lookup _ _, .ok (.entry id _) => if i = id then 1 else 0
  | .mknod _ _ _ _ _ _ _, .ok (.entry id _) => if i = id then 1 else 0
  | .symlink _ _ _ _ _ _, .ok (.entry id _) => if i = id then 1 else 0
  | .link _ _ _ _, .ok (.entry id _) => if i = id then 1 else 0
  | .create _ _ _ _ _ _ _, .ok (.entry id _) => if i = id then 1 else 0
  | .readdir _ _ _ _, .ok (.dir l) => ((l.filter (fun e => e.2.1 == i)).length : Int)
  | .forget l, .ok _ => - ((l.filter (fun e => e.1 == i)).map (·.2)).sum
  | _, _ => 0

/-- Operations that look up inodes themselves, without telling the kernel. -/
def looksUp : Op → Prop
  | .unlink _ _ _ => True
  | .rmdir _ _ _ => True
  | .rename _ _ _ _ _ _ => True
  | _ => False

/-- The directories named in a request. -/
def dirsOf : Op → List Nat
  | .unlink p _ _ => [p]
  | .rmdir p _ _ => [p]
  | .mknod p _ _ _ _ _ _ => [p]
  | .symlink p _ _ _ _ _ => [p]
  | .create p _ _ _ _ _ _ => [p]
  | .link _ p _ _ => [p]
  | .rename po _ pn _ _ _ => [po, pn]
  | _ => []

/-! #### Consistency of the tables -/

/-- Number of directory entries that refer to an inode. -/
def entriesTo (s : St) (i : Nat) : Nat := (s.db.contents.filter (fun e => e.2 == i)).length

/-- Number of directory entries and extended attributes that use a name. -/
def usesOf (s : St) (k : Nat) : Nat :=
  (s.db.contents.filter (fun e => e.1.2 == k)).length + (s.db.xattrs.filter (fun e => e.1.2 == k)).length

/-- Link counts are exact; the root has one link more, and the control file a fixed number (it has no entries). -/
def LinksExact (s : St) : Prop :=
  ∀ r ∈ s.db.inodes, r.2.refcount =
    (entriesTo s r.1 : Int) + (if r.1 = rootInode then 1 else 0) + (if r.1 = ctrlInode then 42 else 0)

/-- Directory entries refer to an inode, a directory and a name that exist. -/
def EntriesValid (s : St) : Prop :=
  ∀ e ∈ s.db.contents, (∃ r ∈ s.db.inodes, r.1 = e.2) ∧ (∃ r ∈ s.db.inodes, r.1 = e.1.1) ∧ (∃ r ∈ s.db.names, r.1 = e.1.2)

/-- No directory has two entries of the same name. -/
def NoDup (s : St) : Prop :=
  s.db.contents.Nodup ∧ ∀ e ∈ s.db.contents, ∀ f ∈ s.db.contents, ∀ a ∈ s.db.names, ∀ b ∈ s.db.names,
    a.1 = e.1.2 → b.1 = f.1.2 → e.1.1 = f.1.1 → a.2.1 = b.2.1 → e = f

/-- Names are used, and their counts are exact. -/
def NamesExact (s : St) : Prop := ∀ r ∈ s.db.names, r.2.2 = (usesOf s r.1 : Int) ∧ 0 < usesOf s r.1

/-- Reference counts of objects are exact: the number of blocks bound to them. -/
def ObjectsExact (s : St) : Prop :=
  (∀ r ∈ s.db.objects, r.2 = ((s.db.blocks.filter (fun e => e.2 == r.1)).length : Int) ∧ 0 < r.2) ∧
  ∀ e ∈ s.db.blocks, ∃ r ∈ s.db.objects, r.1 = e.2

/-! #### Trees -/

/-- `b` can be reached from `a` through directory entries. -/
inductive Below (s : St) (a : Nat) : Nat → Prop
  | refl : Below s a a
  | entry {b c : Nat} {n : Bytes} : Below s a b → n ≠ ctrlName → seenEntry s b n = some c → Below s a c

/-- The inode is not deleted: it is the root or has a directory entry. -/
def Linked (s : St) (i : Nat) : Prop := i = rootInode ∨ ∃ p n, n ≠ ctrlName ∧ seenEntry s p n = some i

/-- Nothing below a directory leads back to it. -/
def NoLoop (s : St) (a : Nat) : Prop := ∀ d n, Below s a d → n ≠ ctrlName → seenEntry s d n ≠ some a

/-- The attributes of a copy. -/
def CopyOf (a b : Inode) : Prop :=
  b.mode = a.mode ∧ b.uid = a.uid ∧ b.gid = a.gid ∧ b.mtime = a.mtime ∧ b.atime = a.atime ∧ b.ctime = a.ctime ∧
  b.size = a.size ∧ b.rdev = a.rdev ∧ b.locked = false

/-! #### Histories -/

/-- Histories of a file system: it is made and mounted; requests are handled; it is unmounted and mounted again.  `K`
is what the kernel knows, computed from the replies alone.  The flags restrict the histories: without `repl` no attribute
is replaced, without `fail` no `unlink`, `rmdir` or `rename` fails.

Of the tree commands, `lock` is a single inode being locked, so other requests may come between any two inodes that
`lock_tree` locks, and `rmrow` is a single entry being removed by `remove_tree`, so other requests may come between any
two entries that it removes (`rmtree` is a `remove_tree` without interruption; `Removing` is one with interruptions, which
uses `step` for its own `lookup` and `forget`).  `copy_tree` is not interrupted here; `Mixed` and `Watched` (TreeMix3, TreeMix6) have interrupted ones.  Directories do not contain themselves (the kernel
makes sure of that), `remove_tree` is not used on the control file, and the target of `copy_tree` is not deleted. -/
inductive Hist (repl fail : Bool) : St → (Nat → Int) → Prop
  | init (uid gid : Nat) (now : Int) (m : Nat) : 0 < m →
      Hist repl fail (Fs.init uid gid now m) (fun i => if i = rootInode then 1 else 0)
  | step {s : St} {K : Nat → Int} (op : Op) : Hist repl fail s K → Req K s op → Handled s op →
      (repl = false → ¬Replaces s op) → (fail = false → looksUp op → ∃ r, (step s op).1 = .ok r) →
      Hist repl fail (step s op).2 (fun i => K i + kernelDelta op (step s op).1 i)
  | remount {s : St} {K : Nat → Int} : Hist repl fail s K →
      Hist repl fail (Fs.remount s).2 (fun i => if i = rootInode then 1 else 0)
  | lock {s s' : St} {K : Nat → Int} (id : Nat) : Hist repl fail s K → lockInode s id = some s' →
      Hist repl fail s' K
  | rmtree {s s' : St} {K : Nat → Int} {p : Nat} {n : Bytes} {res : Except Err Unit} : Hist repl fail s K → n ≠ ctrlName →
      (∀ a, seenEntry s p n = some a → ¬Below s a p) → RmTree s p n res s' → Hist repl fail s' K
  | rmrow {s s' : St} {K : Nat → Int} {p id : Nat} {n : Bytes} {now : Int} {res : Except Err Unit} : Hist repl fail s K →
      n ≠ ctrlName → seenEntry s p n = some id → remove s p n id true now = (res, s') → Hist repl fail s' K
  | cptree {s s' : St} {K : Nat → Int} {src tgt : Nat} : Hist repl fail s K → NoLoop s src → Linked s tgt →
      CpTree s src tgt s' → Hist repl fail s' K

end Verif.Fs
