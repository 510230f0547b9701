import Verif.Util.AList
/-
Model of the commands that take paths: s3qlrm (remove.py:38-74), s3qlcp (cp.py:40-100) and s3qllock (lock.py:38-61).

They look at paths with functions of `os.path` and with system calls, and then send inode numbers to the file system
through its control file.  Modelled here: the functions of `os.path` on texts, how the kernel walks along a path
(`path_resolution(7)`), and what is sent.  What the file system does with it is C22, C23 and C24.

Not modelled: permissions, `syncfs`, changes made by other processes meanwhile.
-/
namespace Verif.Cmd

abbrev Str := List Char

/-! ### Functions of `os.path` -/

/-- `s.rstrip('/')`. -/
def rstrip (s : Str) : Str := (s.reverse.dropWhile (· == '/')).reverse

/-- `os.path.join(a, b)`. -/
def join (a b : Str) : Str :=
  if b.head? = some '/' then b
  else if a = [] ∨ a.getLast? = some '/' then a ++ b
  else a ++ '/' :: b

/-- `os.path.basename`: what follows the last slash. -/
def basename (p : Str) : Str := (p.reverse.takeWhile (· != '/')).reverse

/-- `os.path.dirname`. -/
def dirname (p : Str) : Str :=
  let head := (p.reverse.dropWhile (· != '/')).reverse
  if head.all (· == '/') then head else rstrip head

/-- `s.split('/')`. -/
def split : Str → List Str
  | [] => [[]]
  | c :: s =>
    if c = '/' then [] :: split s
    else
      match split s with
      | h :: t => (c :: h) :: t
      | [] => [[c]]

/-- `'/'.join(l)`. -/
def joinAll : List Str → Str
  | [] => []
  | [a] => a
  | a :: b :: l => a ++ '/' :: joinAll (b :: l)

def dot : Str := ['.']
def dotdot : Str := ['.', '.']

/-- The loop in `os.path.normpath`; `acc` is `new_comps`, last one first. -/
def normLoop (abs : Bool) : List Str → List Str → List Str
  | acc, [] => acc
  | acc, c :: l =>
    if c = [] ∨ c = dot then normLoop abs acc l
    else if c ≠ dotdot ∨ (abs = false ∧ acc = []) ∨ acc.head? = some dotdot then normLoop abs (c :: acc) l
    else normLoop abs acc.tail l

/-- `os.path.normpath`.  Simplification: two slashes at the beginning become one. -/
def normpath (p : Str) : Str :=
  if p = [] then dot
  else
    let abs := decide (p.head? = some '/')
    let q := joinAll (normLoop abs [] (split p)).reverse
    let q := if abs then '/' :: q else q
    if q = [] then dot else q

/-- `os.path.abspath`; `cwd`: `os.getcwd()`. -/
def abspath (cwd p : Str) : Str := normpath (if p.head? = some '/' then p else join cwd p)

/-! ### The kernel -/

inductive Node where
  /-- a directory with its parent (for the root of a mounted file system: the directory with the mount point) -/
  | dir (parent : Nat) (ents : List (Str × Nat))
  | file
  | link (target : Str)
deriving DecidableEq, Repr

/-- All files there are, of all mounted file systems; `dev` and `ino`: `st_dev` and `st_ino`.  `s3ql`: devices that are S3QL file systems
of the user. -/
structure Vfs where
  node : Nat → Node
  dev : Nat → Nat
  ino : Nat → Nat
  root : Nat
  s3ql : Nat → Bool

inductive Err where
  | enoent
  | enotdir
  | eloop
  | eexist
  /-- an error message of the program -/
  | quiet
deriving DecidableEq, Repr

def isLink (v : Vfs) (n : Nat) : Bool :=
  match v.node n with
  | .link _ => true
  | _ => false

/-- Where a path starts. -/
def start (v : Vfs) (cwd : Nat) (s : Str) : Nat := if s.head? = some '/' then v.root else cwd

/-- Walk along a path from directory `n`.  `fl`: follow a link at the end; `k`: what to do at a link. -/
def walkG (v : Vfs) (fl : Bool) (k : Nat → List Str → Except Err Nat) : Nat → List Str → Except Err Nat
  | n, [] => .ok n
  | n, c :: rest =>
    match v.node n with
    | .dir p es =>
      if c = [] ∨ c = dot then walkG v fl k n rest
      else if c = dotdot then walkG v fl k p rest
      else
        match AL.get es c with
        | none => .error .enoent
        | some x =>
          match v.node x with
          | .link t =>
            if fl = false ∧ rest = [] then .ok x
            else if t = [] then .error .enoent
            else k (start v n t) (split t ++ rest)
          | _ => walkG v fl k x rest
    | _ => .error .enotdir

/-- The same; at most as many links as the number says. -/
def walk (v : Vfs) (fl : Bool) : Nat → Nat → List Str → Except Err Nat
  | 0 => walkG v fl (fun _ _ => .error .eloop)
  | j + 1 => walkG v fl (walk v fl j)

def resolve (v : Vfs) (fl : Bool) (cwd : Nat) (s : Str) : Except Err Nat :=
  if s = [] then .error .enoent else walk v fl 40 (start v cwd s) (split s)

/-- `os.stat` and `os.lstat`. -/
def stat (v : Vfs) (cwd : Nat) (s : Str) : Except Err Nat := resolve v true cwd s
def lstat (v : Vfs) (cwd : Nat) (s : Str) : Except Err Nat := resolve v false cwd s

/-- `mkdir`: the new directory is `new`, and its inode number is the next one of its file system, `i d` for device `d`. -/
def mkdir (v : Vfs) (cwd : Nat) (new : Nat) (i : Nat → Nat) (s : Str) : Except Err Vfs :=
  if s = [] then .error .enoent
  else
    let c := (split s).getLast?.getD []
    match walk v true 40 (start v cwd s) (split s).dropLast with
    | .error e => .error e
    | .ok x =>
      match v.node x with
      | .dir p es =>
        if c = [] ∨ c = dot ∨ c = dotdot ∨ (AL.get es c).isSome then .error .eexist
        else .ok { v with node := fun y => if y = new then .dir x [] else if y = x then .dir p (AL.set es c new) else v.node y,
                          dev := fun y => if y = new then v.dev x else v.dev y,
                          ino := fun y => if y = new then i (v.dev x) else v.ino y }
      | _ => .error .enotdir

/-- `os.path.ismount`.  Simplification: `lstat(realpath(p))` is `stat(p)`. -/
def ismount (v : Vfs) (cwd : Nat) (p : Str) : Bool :=
  match lstat v cwd p with
  | .error _ => false
  | .ok n =>
    if isLink v n then false
    else
      match stat v cwd (join p dotdot) with
      | .error _ => false
      | .ok q => decide (v.dev n ≠ v.dev q) || decide (v.ino n = v.ino q)

/-! ### The commands -/

/-- What s3qlrm sends to the file system `dev`: remove the tree at the entry `name` of the directory with inode `ino`. -/
structure RmCmd where
  dev : Nat
  ino : Nat
  name : Str
deriving DecidableEq, Repr

/-- The body of the loop in `remove` (remove.py:53-66).  `assert_fs_owner` (common.py:168-208) succeeds for directories of the user's
S3QL file systems, and its result is the control file of the file system that the directory is in. -/
def rm (v : Vfs) (cwd : Nat) (name : Str) : Except Err RmCmd :=
  let name := rstrip name
  if ismount v cwd name then .error .quiet
  else
    match stat v cwd (join name dotdot) with
    | .error e => .error e
    | .ok q => if v.s3ql (v.dev q) then .ok { dev := v.dev q, ino := v.ino q, name := basename name } else .error .quiet

/-- What s3qlcp sends: copy the contents of directory `src` to directory `dst`. -/
structure CpCmd where
  dev : Nat
  src : Nat
  dst : Nat
deriving DecidableEq, Repr

def isDir (v : Vfs) (n : Nat) : Bool :=
  match v.node n with
  | .dir _ _ => true
  | _ => false

/-- `copy` (cp.py:58-98); `wd`: `os.getcwd()`; `new` and `i`: see `mkdir`. -/
def cp (v : Vfs) (cwd : Nat) (wd : Str) (new : Nat) (i : Nat → Nat) (source target : Str) : Except Err (Vfs × CpCmd) :=
  let source := rstrip source
  let target := rstrip target
  match stat v cwd source with
  | .error _ => .error .quiet
  | .ok s =>
    if (stat v cwd target).isOk then .error .quiet
    else
      match stat v cwd (dirname (abspath wd target)) with
      | .error _ => .error .quiet
      | .ok p =>
        if !isDir v s then .error .quiet
        else if !isDir v p then .error .quiet
        else if v.dev p ≠ v.dev s then .error .quiet
        else if ismount v cwd source then .error .quiet
        else if !v.s3ql (v.dev s) then .error .quiet
        else
          match mkdir v cwd new i target with
          | .error e => .error e
          | .ok v' =>
            match stat v' cwd target with
            | .error e => .error e
            | .ok t => .ok (v', { dev := v.dev s, src := v.ino s, dst := v'.ino t })

/-- `lock` (lock.py:52-61): the device and inode number sent. -/
def lock (v : Vfs) (cwd : Nat) (name : Str) : Except Err (Nat × Nat) :=
  let name := rstrip name
  if ismount v cwd name then .error .quiet
  else
    match stat v cwd name with
    | .error _ => .error .quiet
    | .ok n => if isDir v n && v.s3ql (v.dev n) then .ok (v.dev n, v.ino n) else .error .quiet

end Verif.Cmd
