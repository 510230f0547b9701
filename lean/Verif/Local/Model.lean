/-
Model of the naming scheme of the local backend (backends/local.py: escape, unescape,
_key_to_path, list).  A Python string is a `List Char`; a path below the storage directory is the
list of its components.
-/
namespace Verif.Local

abbrev Str := List Char

/-- `s.replace(pat, by)` for a non-empty pattern: leftmost, non-overlapping occurrences. -/
def replaceAll (pat rep : Str) (s : Str) : Str :=
  match s with
  | [] => []
  | c :: t =>
    if pat.isPrefixOf (c :: t) && !pat.isEmpty then
      rep ++ replaceAll pat rep ((c :: t).drop pat.length)
    else c :: replaceAll pat rep t
termination_by s.length
decreasing_by
  · rename_i h
    simp only [Bool.and_eq_true, Bool.not_eq_true', List.isEmpty_eq_false_iff] at h
    have : 0 < pat.length := List.length_pos_iff.2 h.2
    simp only [List.length_drop, List.length_cons]; omega
  · simp

/-- `escape` (backends/local.py:283-290). -/
def escape (s : Str) : Str :=
  let s := replaceAll ['='] ['=', '3', 'D'] s
  let s := replaceAll ['/'] ['=', '2', 'F'] s
  replaceAll ['#'] ['=', '2', '3'] s

/-- `unescape` (backends/local.py:293-300). -/
def unescape (s : Str) : Str :=
  let s := replaceAll ['=', '2', 'F'] ['/'] s
  let s := replaceAll ['=', '2', '3'] ['#'] s
  replaceAll ['=', '3', 'D'] ['='] s

def dataPrefix : Str := ['s', '3', 'q', 'l', '_', 'd', 'a', 't', 'a', '_']

/-- Directories of `_key_to_path` (backends/local.py:251-268) for an already escaped key:
`for i in range(3, len(no), 3): path.append(no[:i])`. -/
def dirsOf (ekey : Str) : List Str :=
  if !dataPrefix.isPrefixOf ekey then []
  else
    let no := ekey.drop 10
    dataPrefix :: (List.range' 3 ((no.length - 1) / 3) 3).map (fun i => no.take i)

/-- `_key_to_path` (backends/local.py:251-268): components below `self.prefix`.  (`os.path.join` is
concatenation with '/', as no component is absolute.) -/
def keyToPath (key : Str) : List Str :=
  let ekey := escape key
  dirsOf ekey ++ [ekey]

/-- The path as a string relative to the storage directory. -/
def joinPath (comps : List Str) : Str := (comps.map (fun c => '/' :: c)).flatten

/-- The test on a directory name in `list` (backends/local.py:229-239): `prefix_l` is the
concatenation of the components of the directory being walked. -/
def keepDir (pfx : Str) (dirComps : List Str) (name : Str) : Bool :=
  let prefixL := dirComps.flatten
  let prefixLL := unescape (prefixL ++ name)
  pfx.isEmpty || (pfx.take prefixLL.length).isPrefixOf prefixLL

/-- Does `os.walk(base, topdown=True)` get from directory `cur` to directory `cur ++ rest`, given that
`list` edits `dirnames` with `keepDir` in every directory it visits? -/
def walks (pfx : Str) (cur : List Str) : List Str → Bool
  | [] => true
  | name :: rest => keepDir pfx cur name && walks pfx (cur ++ [name]) rest

/-- Is directory `dir` visited by `list(pfx)` (backends/local.py:223-239)?  The walk starts in
`os.path.dirname(self._key_to_path(prefix))`, or in the storage directory for an empty prefix. -/
def visited (pfx : Str) (dir : List Str) : Bool :=
  let base := if pfx.isEmpty then [] else (keyToPath pfx).dropLast
  base.isPrefixOf dir && walks pfx base (dir.drop base.length)

/-- A file in the storage directory: directory components and file name. -/
abbrev FileAt := List Str × Str

/-- What one file contributes to `list(pfx)` (backends/local.py:241-249). -/
def listFile (pfx : Str) (f : FileAt) : Option Str :=
  if visited pfx f.1 then
    if f.2.contains '#' then none
    else
      let key := unescape f.2
      if pfx.isEmpty || pfx.isPrefixOf key then some key else none
  else none

/-- `list(prefix)` (backends/local.py:222-249): `files` are all files below the storage directory.  The
order in which `os.walk` visits directories is not modelled. -/
def list (files : List FileAt) (pfx : Str) : List Str := files.filterMap (listFile pfx)

/-- The file that stores object `key`. -/
def fileOf (key : Str) : FileAt := (dirsOf (escape key), escape key)

/-- Temporary file name in `write_fh` (backends/local.py:172):
`'%s#%d-%d.tmp' % (path, pid, thread id)`; `suffix` stands for the two numbers. -/
def tmpOf (key : Str) (suffix : Str) : FileAt :=
  (dirsOf (escape key), escape key ++ '#' :: suffix ++ ['.', 't', 'm', 'p'])

end Verif.Local
