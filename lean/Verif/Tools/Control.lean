import Verif.Codec.Literal
import Verif.Codec.Utf8
import Verif.Backend.Percent
/-
Property C93: what the command line tools ask the file system to do is what it understands.

s3qlcp, s3qlrm, s3qllock and s3qlctrl send text to the control file; the file system reads it with
`ast.literal_eval`.  Texts that are not `repr` of the values used here are read by an arbitrary function
(`other`): the theorems hold whatever Python makes of them.
-/
namespace Verif.Control
open Verif.Codec
open Verif.Backend.Addr (splitOn join splitOn_join splitOn_none)

/-! ### Python values and their text -/

/-- Values of `literal_eval`; `other`: those of other types (bool, float, list, dict, ...). -/
inductive Py where
  | int (i : Int)
  | str (s : Str)
  | bytes (b : List Byte)
  | pair (x y : Py)
  | other
deriving DecidableEq

/-- How `literal_eval` ends: with a value, with ValueError or SyntaxError, or with another exception (TypeError,
MemoryError, RecursionError). -/
inductive Eval where
  | value (v : Py)
  | bad
  | raises
deriving DecidableEq

/-- A byte as the character with that number. -/
def byteChar (b : Byte) : Char := Char.ofNat b.toNat

/-- `repr` of a byte string (CPython `bytes_repr`): like that of a string, with all bytes from 127 on as `\xhh`. -/
def reprBytes (b : List Byte) : Str := 'b' :: reprStr (fun _ => false) (b.map byteChar)

def reprPy (printable : Char → Bool) : Py → Str
  | .int i => reprInt i
  | .str s => reprStr printable s
  | .bytes b => reprBytes b
  | .pair x y => '(' :: reprPy printable x ++ ", ".toList ++ reprPy printable y ++ [')']
  | .other => []

/-- Second component of a tuple and the closing parenthesis. -/
def readSecond (s : Str) : Option Py :=
  match s with
  | [] => none
  | c :: t =>
    if c = 'b' then
      match parseStr t with
      | some (cs, [')']) => some (.bytes (cs.map (fun c => UInt8.ofNat c.toNat)))
      | _ => none
    else if c = '\'' ∨ c = '"' then
      match parseStr s with
      | some (cs, [')']) => some (.str cs)
      | _ => none
    else
      match s.dropWhile (· ≠ ')') with
      | [_] => (parseInt (s.takeWhile (· ≠ ')'))).map .int
      | _ => none

/-- A pair whose first component is an integer, after `(`. -/
def readPair (t : Str) : Option Py :=
  match parseInt (t.takeWhile (· ≠ ',')), t.dropWhile (· ≠ ',') with
  | some i, ',' :: ' ' :: r => (readSecond r).map (.pair (.int i))
  | _, _ => none

/-- Integers and pairs. -/
def readPy (s : Str) : Option Py :=
  match s with
  | '(' :: t => readPair t
  | _ => (parseInt s).map .int

/-- `literal_eval` (simplification: there is no limit on the number of digits).  A dict display with a list as key
gives TypeError. -/
def literalEval (printable : Char → Bool) (other : Str → Eval) (s : Str) : Eval :=
  match readPy s with
  | some v => if reprPy printable v = s then .value v else other s
  | none => if s = "{[]: 0}".toList then .raises else other s

/-! ### The file system: `setxattr` on the control file -/

/-- What the file system is asked to do. -/
inductive Act where
  | flushCache
  | dropCache
  | copy (src dst : Int)
  | uploadMeta
  | lock (ino : Int)
  | rmtree (dir : Int) (name : List Byte)
  | logging (level : Int) (modules : Option (List Str))
  | cacheSize (bytes : Int)
deriving DecidableEq

inductive Out where
  | act (a : Act)
  | einval
  | enotty
  /-- An exception that nothing catches: the mount process ends. -/
  | dies
deriving DecidableEq

/-- The interpreter: `str.isprintable` and what `literal_eval` makes of other texts. -/
structure Python where
  printable : Char → Bool
  other : Str → Eval

/-- `parse_literal` and `parse_literal_tuple` (common.py:284-325) up to the check of the type; `none`: ValueError. -/
def parseLit (py : Python) (value : List Byte) (k : Py → Option Act) : Out :=
  match unutf8 value with
  | none => .einval
  | some t =>
    match literalEval py.printable py.other t with
    | .value v => match k v with
      | some a => .act a
      | none => .einval
    | .bad => .einval
    | .raises => .dies

/-- `modules_str.split(',') if modules_str else None` (fs.py:331). -/
def modulesOf (s : Str) : Option (List Str) := if s = [] then none else some (splitOn ',' s)

/-- `setxattr` for the control file (fs.py:285-345).  `task`: there is a task for metadata uploads. -/
def setxattr (py : Python) (task : Bool) (name : Str) (value : List Byte) : Out :=
  if name = "s3ql_flushcache!".toList then .act .flushCache
  else if name = "s3ql_dropcache!".toList then .act .dropCache
  else if name = "copy".toList then
    parseLit py value (fun v => match v with | .pair (.int a) (.int b) => some (.copy a b) | _ => none)
  else if name = "upload-meta".toList then (if task then .act .uploadMeta else .enotty)
  else if name = "lock".toList then
    parseLit py value (fun v => match v with | .int a => some (.lock a) | _ => none)
  else if name = "rmtree".toList then
    parseLit py value (fun v => match v with | .pair (.int a) (.bytes b) => some (.rmtree a b) | _ => none)
  else if name = "logging".toList then
    parseLit py value (fun v => match v with | .pair (.int a) (.str s) => some (.logging a (modulesOf s)) | _ => none)
  else if name = "cachesize".toList then
    parseLit py value (fun v => match v with | .int a => some (.cacheSize a) | _ => none)
  else .einval

/-! ### The tools -/

/-- `'%d'`. -/
def pctD (i : Int) : Str := reprInt i

/-- A command: name and value of the attribute. -/
abbrev Cmd := Str × List Byte

/-- cp.py:97. -/
def cpCmd (src dst : Nat) : Cmd := ("copy".toList, utf8 (['('] ++ pctD src ++ ", ".toList ++ pctD dst ++ [')']))

/-- lock.py:61. -/
def lockCmd (ino : Nat) : Cmd := ("lock".toList, utf8 (pctD ino))

/-- remove.py:66; `name`: the result of `path2bytes`. -/
def rmCmd (dir : Nat) (name : List Byte) : Cmd :=
  ("rmtree".toList, utf8 (['('] ++ pctD dir ++ ", ".toList ++ reprBytes name ++ [')']))

/-- ctrl.py:63-67. -/
def flushCmd : Cmd := ("s3ql_flushcache!".toList, utf8 "dummy".toList)

/-- ctrl.py:70-74. -/
def dropCmd : Cmd := ("s3ql_dropcache!".toList, utf8 "dummy".toList)

/-- ctrl.py:77-81. -/
def backupCmd : Cmd := ("upload-meta".toList, utf8 "dummy".toList)

/-- ctrl.py:84-92; the size in KiB. -/
def cachesizeCmd (size : Int) : Cmd := ("cachesize".toList, utf8 (pctD (size * 1024)))

/-- ctrl.py:41-44 with the numbers of the levels. -/
inductive Level where
  | debug | info | warn
deriving DecidableEq

def Level.no : Level → Int
  | .debug => 10
  | .info => 20
  | .warn => 30

/-- ctrl.py:110-119; `none`: the tool refuses. -/
def logCmd (printable : Char → Bool) (level : Level) (modules : List Str) : Option Cmd :=
  if level ≠ .debug ∧ modules ≠ [] then none
  else
    let modules := if modules = [] then ["all".toList] else modules
    some ("logging".toList,
      utf8 (['('] ++ reprInt level.no ++ ", ".toList ++ reprStr printable (join ',' modules) ++ [')']))

/-! ### Log levels -/

/-- Levels of loggers.  A logger is given by the parts of its name, last part first; `[]` is the root logger. -/
structure Log where
  root : Int
  disabled : Int
  levels : List (List Str × Int)

/-- `logging.getLogger(name)`. -/
def getLogger (name : Str) : List Str :=
  if name = [] ∨ name = "root".toList then [] else (splitOn '.' name).reverse

def Log.setLevel (l : Log) (logger : List Str) (n : Int) : Log :=
  if logger = [] then { l with root := n } else { l with levels := (logger, n) :: l.levels }

/-- `Logger.getEffectiveLevel`: the level of the nearest logger that has one. -/
def Log.effective (l : Log) : List Str → Int
  | [] => l.root
  | p :: r => match l.levels.lookup (p :: r) with
    | some n => n
    | none => l.effective r

/-- `Logger.isEnabledFor`. -/
def Log.enabled (l : Log) (logger : List Str) (level : Int) : Bool :=
  decide (l.disabled < level ∧ l.effective logger ≤ level)

/-- `update_logging` (fs.py:1412-1424). -/
def updateLogging (l : Log) (level : Int) (modules : Option (List Str)) : Log :=
  let l := { l with root := 20 }
  if level = 10 then
    let l := { l with disabled := 0 }
    match modules with
    | none => l
    | some ms => if "all".toList ∈ ms then { l with root := 10 } else ms.foldl (fun l m => l.setLevel (getLogger m) 10) l
  else { l with disabled := 10 }

/-- `setup_logging` (logging.py:161-199) with `debug` and `debug_modules`. -/
def setupLogging (debug : Bool) (debugModules : List Str) : Log :=
  let list := if debug ∧ "s3ql".toList ∉ debugModules then debugModules ++ ["s3ql".toList] else debugModules
  let l : Log := { root := 30, disabled := 0, levels := [] }
  if list ≠ [] then
    let l := l.setLevel (getLogger "__main__".toList) 10
    if "all".toList ∈ list then { l with root := 10 }
    else list.foldl (fun l m => l.setLevel (getLogger m) 10) { l with root := 20 }
  else { l with root := 20, disabled := 10 }

end Verif.Control
