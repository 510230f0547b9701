import Verif.Meta.Store
/-
Model of the protocol around the metadata: `mount` and `get_metadata` (mount.py:273-442, 577-614),
`MetadataUploadTask.run` (mount.py:725-778), `s3qladm shrink-db` (adm.py:329-351, the same steps as a
mount during which only VACUUM is executed), `fsck` (fsck.py:1314-1491), `s3qladm restore-metadata`
(adm.py:511-582) and `mkfs` (mkfs.py:209-242), on any number of machines that share a backend.

One process runs at a time (the concurrent use of one file system by two processes is not modelled).
A process is killed by the step `crash`; every exception that terminates a process is treated as such
a crash.  A step either stores or deletes one backend object, writes one local file, or reads.

SQLite is modelled as follows.  Statements that change the database append calls (`FileOp`) to the
write-ahead log; checkpoints apply them in order to the main database file; closing the connection
applies all of them.  The log survives a crash, and whoever opens the database sees the file with the
log applied.  Downloading metadata replaces the database file and does not touch the log
(database.py:931-934, 1015-1040).

Not modelled: the object cache directory, FUSE, the revision check, the age of the last fsck (part of
the flag `force`), `PRAGMA integrity_check`, `verify_metadata_snapshots` (reads only; modelled in
Verif.Meta.Verify), uncorrectable errors (a crash).
-/
namespace Verif.Meta

/-- The files of one machine: `<cachepath>.params`, `<cachepath>.db` and `<cachepath>.db-wal`. -/
structure Disk where
  params : Option Params
  db : Bytes
  wal : List FileOp

/-- The database as seen by SQLite. -/
def Disk.view (d : Disk) : Bytes := applyAll d.db d.wal

inductive Kind where
  | mount
  | fsck
deriving DecidableEq, Repr

/-- Which upload is running: one of the two uploads during which the file may change
(mount.py:743-751), the one under `inhibit_writes` (mount.py:757-764), or the one after the database
was closed (mount.py:435, fsck.py:1484-1487, adm.py:348). -/
inductive UpKind where
  | pass
  | snap
  | close
deriving DecidableEq, Repr

/-- Where a process is. -/
inductive Pc where
  /-- the database file is being downloaded -/
  | dl
  /-- the database is open, nothing is announced yet -/
  | got
  /-- the new parameters are in the local file (mount.py:366, fsck.py:1450, adm.py:332) -/
  | mark1
  /-- … and in `s3ql_params` -/
  | mark2
  /-- … and in `s3ql_params_<seq>`: serving requests resp. checking -/
  | run
  | up (k : UpKind) (size : Nat) (jobs : List Job)
  /-- upload finished, parameters updated in memory; `last`: at the end of the process -/
  | fin1 (last : Bool)
  /-- … and written locally -/
  | fin2 (last : Bool)
  /-- … and stored as `s3ql_params` -/
  | fin3 (last : Bool)
  /-- periodic upload: … and stored as `s3ql_params_<seq>` -/
  | inc1
  /-- parameters with the next sequence number written locally (mount.py:772-773) -/
  | inc2
  | inc3
  /-- before `expire_objects` -/
  | exp0 (last : Bool)
  /-- deleting -/
  | exp (last : Bool) (del : List Key)
deriving DecidableEq, Repr

/-- A running process: machine, program, the parameters in memory, the `WriteTracker`, and whether the
database was already changed before the new parameters were written (`early`, a ghost variable). -/
structure Proc where
  m : Nat
  kind : Kind
  p : Params
  dirty : List Nat
  early : Bool
  pc : Pc
deriving DecidableEq, Repr

structure World where
  remote : Remote
  disk : Nat → Disk
  proc : Option Proc

/-! ### Decisions -/

/-- `read_cached_params(cachepath, min_seq)` (database.py:1297-1312). -/
def readCached (l : Option Params) (minSeq : Nat) : Option Params :=
  match l with
  | none => none
  | some p => if p.seq < minSeq then none else some p

inductive MountResult where
  | cached
  | download
  /-- exit code 30, "run fsck" -/
  | runFsck
  /-- exit code 31, "still mounted elsewhere" -/
  | mountedElsewhere
  /-- `assert local_param == param` fails -/
  | assertion
  /-- no `s3ql_params` -/
  | noParams
deriving DecidableEq, Repr

/-- `get_metadata` up to the download (mount.py:582-603). -/
def mountCheck (remote : Option Params) (l : Option Params) : MountResult :=
  match remote with
  | none => .noParams
  | some r =>
    match readCached l r.seq with
    | some p =>
      if p.seq > r.seq then .runFsck
      else if p ≠ r then .assertion
      else if r.mounted then .mountedElsewhere
      else if r.needsFsck then .runFsck
      else .cached
    | none =>
      if r.mounted then .mountedElsewhere
      else if r.needsFsck then .runFsck
      else .download

inductive FsckResult where
  /-- "File system is marked as clean": returns without doing anything -/
  | clean
  /-- the user does not want to continue -/
  | refused
  | useLocal (p : Params)
  | download (p : Params)
  | noParams
deriving DecidableEq, Repr

/-- The decisions of fsck (fsck.py:1316-1371).  `force`: `--force`, or the last check is more than a
month ago; `answer`: `--force-remote`, or the user confirms.  The test
`local_param.seq_no > param.seq_no` at fsck.py:1325 compares an object with itself. -/
def fsckCheck (remote : Option Params) (l : Option Params) (force answer : Bool) : FsckResult :=
  match remote with
  | none => .noParams
  | some r =>
    match readCached l r.seq with
    | some p =>
      let p := if p.mounted then { p with needsFsck := true } else p
      if !p.needsFsck && !force then .clean else .useLocal p
    | none =>
      if r.mounted then
        if answer then .download { r with needsFsck := true } else .refused
      else if !r.needsFsck && !force then .clean else .download r

/-! ### Steps -/

inductive Op where
  | startMount (m : Nat)
  | startFsck (m : Nat) (force answer : Bool)
  /-- part of the download is done: any content of the database file -/
  | dlPart (d : Bytes)
  /-- the download ends, with the jobs finished in the given order -/
  | dlEnd (order : List DlJob → List DlJob)
  /-- creation or removal of the index for NFS (mount.py:294-300), before the parameters are written -/
  | early (o : FileOp)
  /-- the next step of the program -/
  | next
  | sql (o : FileOp)
  | ckpt
  | startPass
  | startSnap (stamp : Nat)
  | read (b n : Nat)
  | put (b : Nat)
  /-- the process starts to terminate.  `flag`: for mount, errors were encountered (mount.py:430-432);
  for fsck, errors were found (fsck.py:1467) -/
  | finish (stamp : Nat) (flag : Bool)
  | crash
  /-- SQLite checkpoints a log while no process of ours tracks writes (the connection of a terminating
  process is closed by the interpreter) -/
  | idleCkpt (m : Nat)
  /-- `restore-metadata` is interrupted while or after it overwrites the database file -/
  | restoreCrash (m : Nat) (d : Bytes)
  /-- `restore-metadata` for version `s`; `now`: `int(time.time())` -/
  | restore (m s now : Nat) (order : List DlJob → List DlJob)

/-- Replace the files of one machine. -/
def World.setDisk (w : World) (m : Nat) (d : Disk) : World :=
  { w with disk := fun x => if x = m then d else w.disk x }

def World.setProc (w : World) (p : Proc) : World := { w with proc := some p }

/-- The step `next` of process `pr` (cf. the comments at `Pc`). -/
def nextStep (cfg : Cfg) (w : World) (pr : Proc) : Option World :=
  let d := w.disk pr.m
  match pr.pc with
  | .got =>
    let p := { pr.p with seq := pr.p.seq + 1, mounted := true }
    some ((w.setDisk pr.m { d with params := some p }).setProc { pr with p := p, pc := .mark1 })
  | .mark1 => some ({ w with remote := { w.remote with cur := some pr.p } }.setProc { pr with pc := .mark2 })
  | .mark2 => some ({ w with remote := { w.remote with vers := AL.set w.remote.vers pr.p.seq pr.p } }.setProc { pr with pc := .run })
  | .up k size [] =>
    match k with
    | .pass => some (w.setProc { pr with pc := .run })
    | .snap => some (w.setProc { pr with p := finalize cfg pr.p size d.db, pc := .fin1 false })
    | .close => some (w.setProc { pr with p := finalize cfg pr.p size d.db, pc := .fin1 true })
  | .fin1 last => some ((w.setDisk pr.m { d with params := some pr.p }).setProc { pr with pc := .fin2 last })
  | .fin2 last => some ({ w with remote := { w.remote with cur := some pr.p } }.setProc { pr with pc := .fin3 last })
  | .fin3 last => some ({ w with remote := { w.remote with vers := AL.set w.remote.vers pr.p.seq pr.p } }.setProc { pr with pc := if last then .exp0 true else .inc1 })
  | .inc1 =>
    let p := { pr.p with seq := pr.p.seq + 1 }
    some ((w.setDisk pr.m { d with params := some p }).setProc { pr with p := p, pc := .inc2 })
  | .inc2 => some ({ w with remote := { w.remote with cur := some pr.p } }.setProc { pr with pc := .inc3 })
  | .inc3 => some ({ w with remote := { w.remote with vers := AL.set w.remote.vers pr.p.seq pr.p } }.setProc { pr with pc := .exp0 false })
  | .exp0 last =>
    match expireList cfg w.remote 32 with
    | some l => some (w.setProc { pr with pc := .exp last l })
    | none => some { w with proc := none }
  | .exp last (k :: t) => some ({ w with remote := delKey w.remote k }.setProc { pr with pc := .exp last t })
  | .exp last [] => if last then some { w with proc := none } else some (w.setProc { pr with pc := .run })
  | _ => none

/-- May the program execute SQL statements that change the database? -/
def sqlOk (pr : Proc) : Bool :=
  match pr.pc with
  | .run => true
  | .up .pass _ _ | .up .snap _ _ => decide (pr.kind = .mount)
  | .fin1 false | .fin2 false | .fin3 false | .inc1 | .inc2 | .inc3 | .exp0 false | .exp false _ => true
  | _ => false

/-- May SQLite write to the main database file?  Not under `inhibit_writes` (mount.py:757-776). -/
def ckptOk (pr : Proc) : Bool :=
  match pr.pc with
  | .got | .run | .up .pass _ _ => true
  | _ => false

/-- Replace the job for one block. -/
def updJob (f : Job → Job) (b : Nat) (jobs : List Job) : List Job :=
  jobs.map (fun j => if j.blockno = b then f j else j)

def findJob (b : Nat) (jobs : List Job) : Option Job := jobs.find? (fun j => decide (j.blockno = b))

/-- `db.close()`, the changes to the parameters, and the start of the last upload (mount.py:423-435,
fsck.py:1466-1487, adm.py:335-348). -/
def finishStep (cfg : Cfg) (w : World) (pr : Proc) (stamp : Nat) (flag : Bool) : World :=
  let d := w.disk pr.m
  let dirty := d.wal.foldl (track cfg.bs) pr.dirty
  let d' := { d with db := d.view, wal := [] }
  let p := match pr.kind with
    | .mount => { pr.p with mounted := false, needsFsck := pr.p.needsFsck || flag, lastMod := stamp }
    | .fsck => { pr.p with mounted := false, needsFsck := false, lastFsck := stamp, lastMod := stamp }
  let incremental := match pr.kind with
    | .mount => true
    | .fsck => !(pr.p.needsFsck || flag)
  let jobs := (upBlocks cfg incremental dirty d'.db.length).map (mkJob cfg d'.db.length)
  (w.setDisk pr.m d').setProc { pr with p := p, dirty := [], pc := .up .close d'.db.length jobs }

/-- One step; `none`: the step is not possible in this state. -/
def step (cfg : Cfg) (w : World) (op : Op) : Option World :=
  match w.proc with
  | none =>
    match op with
    | .startMount m =>
      match mountCheck w.remote.cur (w.disk m).params, w.remote.cur with
      | .cached, some r => some (w.setProc { m := m, kind := .mount, p := r, dirty := [], early := false, pc := .got })
      | .download, some r => some ((w.setDisk m { w.disk m with db := [] }).setProc { m := m, kind := .mount, p := r, dirty := [], early := false, pc := .dl })
      | _, _ => some w
    | .startFsck m force answer =>
      match fsckCheck w.remote.cur (w.disk m).params force answer with
      | .useLocal p => some (w.setProc { m := m, kind := .fsck, p := p, dirty := [], early := false, pc := .got })
      | .download p => some ((w.setDisk m { w.disk m with db := [] }).setProc { m := m, kind := .fsck, p := p, dirty := [], early := false, pc := .dl })
      | _ => some w
    | .idleCkpt m =>
      match (w.disk m).wal with
      | [] => none
      | o :: t => some (w.setDisk m { w.disk m with db := o.apply (w.disk m).db, wal := t })
    | .restoreCrash m d => some (w.setDisk m { w.disk m with db := d })
    | .restore m s now order =>
      match AL.get w.remote.vers s with
      | none => none
      | some p =>
        match download cfg w.remote.blocks p false order with
        | none => none
        | some f =>
          let seq := (w.remote.vers.map (·.1)).foldl (fun a b => max a (b + 1)) now
          some (w.setDisk m { params := some { p with mounted := false, needsFsck := true, seq := seq }, db := applyAll f (w.disk m).wal, wal := [] })
    | _ => none
  | some pr =>
    let d := w.disk pr.m
    match op with
    | .crash => some { w with proc := none }
    | .next => nextStep cfg w pr
    | .dlPart f => if pr.pc = .dl then some (w.setDisk pr.m { d with db := f }) else none
    | .dlEnd order =>
      if pr.pc = .dl then
        match download cfg w.remote.blocks pr.p (decide (pr.kind = .fsck) && pr.p.mounted) order with
        | some f => some ((w.setDisk pr.m { d with db := f }).setProc { pr with pc := .got })
        | none => some { w with proc := none }
      else none
    | .early o =>
      if pr.pc = .got ∧ pr.kind = .mount ∧ o.Dense d.view then
        some ((w.setDisk pr.m { d with wal := d.wal ++ [o] }).setProc { pr with early := true })
      else none
    | .sql o =>
      if sqlOk pr = true ∧ o.Dense d.view then some (w.setDisk pr.m { d with wal := d.wal ++ [o] }) else none
    | .ckpt =>
      if ckptOk pr then
        match d.wal with
        | [] => none
        | o :: t => some ((w.setDisk pr.m { d with db := o.apply d.db, wal := t }).setProc { pr with dirty := track cfg.bs pr.dirty o })
      else none
    | .startPass =>
      if pr.pc = .run ∧ pr.kind = .mount then
        some (w.setProc { pr with dirty := [], pc := .up .pass d.db.length (pr.dirty.map (mkJob cfg d.db.length)) })
      else none
    | .startSnap stamp =>
      if pr.pc = .run ∧ pr.kind = .mount then
        some (w.setProc { pr with p := { pr.p with lastMod := stamp }, dirty := [], pc := .up .snap d.db.length (pr.dirty.map (mkJob cfg d.db.length)) })
      else none
    | .read b n =>
      match pr.pc with
      | .up k size jobs => some (w.setProc { pr with pc := .up k size (updJob (readMore cfg d.db n) b jobs) })
      | _ => none
    | .put b =>
      match pr.pc with
      | .up k size jobs =>
        match findJob b jobs with
        | some j =>
          if jobDone cfg d.db j then
            some ({ w with remote := { w.remote with blocks := putBlock w.remote.blocks pr.p.seq j } }.setProc
              { pr with pc := .up k size (jobs.filter (fun j => !decide (j.blockno = b))) })
          else none
        | none => none
      | _ => none
    | .finish stamp flag => if pr.pc = .run then some (finishStep cfg w pr stamp flag) else none
    | _ => none

/-- A history. -/
def exec (cfg : Cfg) : World → List Op → Option World
  | w, [] => some w
  | w, op :: ops =>
    match step cfg w op with
    | none => none
    | some w' => exec cfg w' ops

/-- The state after mkfs on machine `m` (mkfs.py:209-242): the database file `f` has been uploaded (every
block is dirty, since the file is new), the parameters are stored locally and remotely. -/
def mkfs (cfg : Cfg) (m now : Nat) (f : Bytes) : World :=
  let p : Params := { seq := now, dbSize := f.length, digest := cfg.hash f, mounted := false, needsFsck := false, lastFsck := now, lastMod := now }
  { remote := { cur := some p, vers := [(now, p)], blocks := upload cfg [] now f (upBlocks cfg false [] f.length) }
    disk := fun x => if x = m then { params := some p, db := f, wal := [] } else { params := none, db := [], wal := [] }
    proc := none }

end Verif.Meta
