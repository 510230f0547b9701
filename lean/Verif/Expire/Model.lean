/-
Model of contrib/expire_backups.py: `process_backups`, `format_list` and the surrounding command.
Backup names are timestamps; as `sorted()` on them is chronological they are modelled by the number
of the backup (0 = first backup ever made).  A Python dict is an association list in insertion order.
-/
namespace Verif.Expire

/-- `state`: backup name ↦ age in cycles. -/
abbrev State := List (Nat × Nat)
/-- Keys of `simstate`: a real backup name (`inl`) or the step number of a hypothetical backup
(`inr`), expire_backups.py:187-199 and 222. -/
abbrev SimKey := Nat ⊕ Nat

/-- `d[k] = v` on a dict. -/
def dictSet {κ : Type} [DecidableEq κ] (d : List (κ × Nat)) (k : κ) (v : Nat) : List (κ × Nat) :=
  if d.any (fun e => e.1 = k) then d.map (fun e => if e.1 = k then (k, v) else e) else d ++ [(k, v)]

/-- First loop of `process_backups` (expire_backups.py:171-176): register new backups, oldest first;
every known backup ages by one cycle per new backup. -/
def addNew (backups : List Nat) (state : State) : State :=
  let new := (backups.filter (fun x => !state.any (fun e => e.1 = x))).mergeSort
  new.foldl (fun st x => dictSet (st.map (fun e => (e.1, e.2 + 1))) x 0) state

/-- Backups that have vanished are forgotten (expire_backups.py:181-185). -/
def dropMissing (backups : List Nat) (state : State) : State :=
  state.filter (fun e => backups.contains e.1)

/-- `ranges` (expire_backups.py:187-190).  `none`: `cycles[0]` raises IndexError. -/
def ranges : List Nat → Option (List (Nat × Nat))
  | [] => none
  | c :: cs => some ((0, c) :: (c :: cs).zip cs)

/-- `min_ <= age < max_`. -/
def inRange (r : Nat × Nat) (age : Nat) : Bool := r.1 ≤ age && age < r.2

/-- Variables of the simulation loop (expire_backups.py:193-195). -/
structure Sim where
  simstate : List (SimKey × Nat)
  keep : List Nat
  missing : List ((Nat × Nat) × Nat)

/-- Body of `for min_, max_ in ranges` (expire_backups.py:206-243). -/
def rangeBody (state : State) (step : Nat) (s : Sim) (r : Nat × Nat) : Sim :=
  if s.simstate.any (fun e => inRange r e.2) then s
  else
    match state.find? (fun e => inRange r (e.2 + step)) with
    | some (backup, age) =>
      { s with simstate := dictSet s.simstate (.inl backup) (age + step), keep := backup :: s.keep }
    | none => if step = 0 then s else { s with missing := s.missing ++ [(r, step)] }

/-- Body of `for step in range(max(cycles))` (expire_backups.py:196-243). -/
def stepBody (state : State) (rs : List (Nat × Nat)) (s : Sim) (step : Nat) : Sim :=
  let sim := s.simstate.map (fun e => (e.1, e.2 + 1))
  let sim := if step ≠ 0 then dictSet sim (.inr step) 0 else sim
  rs.foldl (rangeBody state step) { s with simstate := sim }

/-- `max(cycles)`. -/
def maxCycle (cycles : List Nat) : Nat := cycles.foldl max 0

structure Result where
  state : State
  toDelete : List Nat
  missing : List ((Nat × Nat) × Nat)

/-- `process_backups` (expire_backups.py:169-258).  `none`: IndexError for an empty `cycles`. -/
def processBackups (backups : List Nat) (state : State) (cycles : List Nat) : Option Result := do
  let rs ← ranges cycles
  let state := dropMissing backups (addNew backups state)
  let s := (List.range (maxCycle cycles)).foldl (stepBody state rs) ⟨[], [], []⟩
  return { state := state.filter (fun e => s.keep.contains e.1)
           toDelete := (state.map (·.1)).filter (fun x => !s.keep.contains x)
           missing := s.missing }

/-- The backup directory: number of backups ever made, backups present, saved state file. -/
structure World where
  made : Nat
  disk : List Nat
  saved : Option State
deriving DecidableEq

/-- What can happen: a new backup is made, or expire_backups.py is run (`-n` flag, and
`--proportion-delete` as a fraction). -/
inductive Ev where
  | backup
  | run (dry : Bool) (num den : Nat)

/-- The command (expire_backups.py:93-136), without `--reconstruct-state`. `shutil.rmtree`/`s3qlrm` are
assumed to remove the directory. -/
def expireRun (cycles : List Nat) (dry : Bool) (num den : Nat) (w : World) : World :=
  if w.saved.isNone && w.disk.length > 1 then w            -- "no state file! Aborting."
  else
    match processBackups w.disk (w.saved.getD []) cycles with
    | none => w
    | some res =>
      if res.toDelete.length * den > num * w.disk.length then w   -- "Would remove more than"
      else if dry then w
      else { w with disk := w.disk.filter (fun x => !res.toDelete.contains x), saved := some res.state }

def step (cycles : List Nat) (w : World) : Ev → World
  | .backup => { w with disk := w.disk ++ [w.made], made := w.made + 1 }
  | .run dry num den => expireRun cycles dry num den w

def exec (cycles : List Nat) (evs : List Ev) : World :=
  evs.foldl (step cycles) ⟨0, [], none⟩

/-- One item of the list printed by `format_list`: `%d` or `%d-%d`. -/
inductive Item where
  | one (n : Nat)
  | span (a b : Nat)
deriving Repr, DecidableEq

/-- Loop of `format_list` (expire_backups.py:272-287).  The result list is kept as items instead of
strings; the final joining with commas and `and` is `render`. -/
def formatLoop (rangeStart cur : Nat) (res : List Item) : List Nat → List Item
  | [] => res
  | n :: l =>
    let res :=
      if n = cur + 1 then res
      else if rangeStart = cur then res ++ [.one cur]
      else if rangeStart = cur - 1 then res ++ [.one rangeStart, .one cur]
      else res ++ [.span rangeStart cur]
    formatLoop (if n ≠ cur + 1 then n else rangeStart) n res l

/-- `format_list` (expire_backups.py:261-290) up to rendering. -/
def formatItems (l : List Nat) : List Item :=
  match l with
  | [] => []
  | a :: rest => formatLoop a a [] (rest ++ [(a :: rest).getLast (by simp) + 2])

def Item.render : Item → String
  | .one n => toString n
  | .span a b => toString a ++ "-" ++ toString b

/-- `format_list` with its final string assembly (expire_backups.py:289-292). -/
def formatList (l : List Nat) : String :=
  let res := (formatItems l).map Item.render
  match res.reverse with
  | last :: front@(_ :: _) => ", ".intercalate front.reverse ++ " and " ++ last
  | _ => ", ".intercalate res

end Verif.Expire
