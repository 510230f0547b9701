/-
C89: how `mount.s3ql` begins and ends (mount.py:306-442): the exit stack, signals, failing tasks, and when the file system is marked as cleanly unmounted.
-/
namespace Verif.Tools.MountEnd

/-! #### Model -/

/-- Steps that may raise an exception. -/
inductive Step where
  | fuseInit
  | daemonize
  | writeStart
  | uploadStart
  | closeDb
  | uploadMeta
  | writeEnd
  | uploadEnd
  | expire
  | closeBackend
  deriving DecidableEq, Repr

inductive Signal where
  | int
  | term
  deriving DecidableEq, Repr

/-- What is found out only while the program runs. -/
structure Env where
  fails : Step → Bool
  /-- signals received in the main loop, in this order (mount.py:377-394) -/
  signals : List Signal
  /-- an exception in another thread has ended the main loop (mount.py:793-822) -/
  threadExc : Bool
  /-- a task of the nursery (upload, metadata upload, commit) has failed in the main loop; this cancels the main task -/
  taskFails : Bool
  /-- whether the upload of a block succeeds, once the cache is flushed -/
  stores : Nat → Bool

/-- How the file system is marked in `s3ql_params` (the storage) and in the `.params` file (the cache directory). -/
inductive Mark where
  | clean
  | mounted
  | needsFsck
  deriving DecidableEq, Repr

structure W where
  /-- blocks with changes that are not stored yet -/
  dirty : List Nat
  /-- inodes whose attributes are only in the inode cache -/
  attrs : List Nat
  /-- deleted inodes that were still in use by the kernel -/
  orphans : List Nat
  failsafe : Bool
  /-- the kernel has the mount point -/
  attached : Bool
  remote : Mark
  localMark : Mark
  /-- the metadata that is stored last: is everything in it that is in the database now? -/
  metaStored : Bool
  deriving DecidableEq, Repr

/-- How a part of the program ends. -/
inductive Exn where
  /-- `QuietError`, with its exit code -/
  | quiet (code : Nat)
  | cancelled
  | other
  deriving DecidableEq, Repr

/-- `Operations.destroy` (fs.py:155-157, 1381-1395).  In a cancelled task the first purge of an inode raises `Cancelled`, before `inodes.destroy`. -/
def destroyOps (cancelled : Bool) (w : W) : W × Option Exn :=
  if cancelled ∧ w.orphans ≠ [] then (w, some .cancelled)
  else ({ w with orphans := [], attrs := [], metaStored := w.metaStored && w.orphans.isEmpty && w.attrs.isEmpty }, none)

/-- The blocks whose upload fails, and those behind them. -/
def rest (ok : Nat → Bool) (l : List Nat) : List Nat := l.dropWhile ok

/-- `BlockCache.destroy` (block_cache.py:315-340): uploads all dirty blocks; the exception of an upload task cancels the rest.  In a cancelled task it does nothing. -/
def destroyCache (env : Env) (cancelled : Bool) (w : W) : W × Option Exn :=
  if cancelled then (w, some .cancelled)
  else
    let left := rest env.stores w.dirty
    ({ w with dirty := left, metaStored := w.metaStored && w.dirty.isEmpty }, if left = [] then none else some .other)

/-- Exit from the `AsyncExitStack` (mount.py:306): its callbacks in the reverse order, each also if an earlier one has raised an exception: `unmount` if FUSE was initialised
(mount.py:341-347; `unmountClean` as it is set then), `Operations.destroy`, `BlockCache.destroy`, and the nursery, which is cancelled by an exception. -/
def leave (env : Env) (cancelled : Bool) (fuse unmountClean : Bool) (exc : Option Exn) (w : W) : W × Option Exn :=
  let w := if fuse ∧ unmountClean then { w with attached := false } else w
  let (w, e1) := destroyOps cancelled w
  let exc := e1.or exc
  let (w, e2) := destroyCache env cancelled w
  let exc := e2.or exc
  -- `Cancelled` does not leave the nursery: what is raised is the exception of the task that failed
  (w, if exc = some .cancelled then some .other else exc)

/-- What happens when the main loop has ended (mount.py:401-420): the exception that is raised. -/
def loopEnd (env : Env) : Option Exn :=
  if env.taskFails then some .cancelled
  -- `received_signals == [signal.SIGINT]`
  else if env.signals = [.int] then (if env.threadExc then some .other else none)
  else if env.signals ≠ [] then some .other
  else if env.threadExc then some .other
  else none

/-- The body of the `async with` (mount.py:325-420), from `pyfuse3.init`; the main loop itself is `work`. -/
def body (env : Env) (work : W → W) (w : W) : W × Option Exn :=
  if env.fails .fuseInit then leave env false false false (some (.quiet 39)) w
  else
    let w := { w with attached := true }
    if env.fails .daemonize then leave env false true false (some .other) w
    else if env.fails .writeStart then leave env false true false (some .other) w
    else
      let w := { w with localMark := .mounted }
      if env.fails .uploadStart then leave env false true false (some .other) w
      else
        let w := work { w with remote := .mounted }
        match loopEnd env with
        | some e => leave env env.taskFails true false (some e) w
        | none => leave env false true true none w

/-- The end of `main_async` (mount.py:422-442). -/
def finish (env : Env) (w : W) : W × Option Exn :=
  let mark := if w.failsafe then Mark.needsFsck else Mark.clean
  if env.fails .closeDb then (w, some .other)
  else if env.fails .uploadMeta then (w, some .other)
  else
    let w := { w with metaStored := true }
    if env.fails .writeEnd then (w, some .other)
    else
      let w := { w with localMark := mark }
      if env.fails .uploadEnd then (w, some .other)
      else
        let w := { w with remote := mark }
        if env.fails .expire then (w, some .other)
        else if env.fails .closeBackend then (w, some .other)
        else (w, none)

/-- `mount.s3ql` from line 306 on. -/
def mount (env : Env) (work : W → W) (w : W) : W × Option Exn :=
  match body env work w with
  | (w, some e) => (w, some e)
  | (w, none) => finish env w

/-! #### Specification -/

/-- The file system is mounted and used: the main loop may change anything but the marks and the mount point. -/
structure Work (work : W → W) : Prop where
  attached : ∀ w, (work w).attached = w.attached
  remote : ∀ w, (work w).remote = w.remote
  localMark : ∀ w, (work w).localMark = w.localMark

/-- Nothing is left to be stored, and the storage has it all. -/
def AllStored (w : W) : Prop := w.dirty = [] ∧ w.attrs = [] ∧ w.orphans = [] ∧ w.metaStored = true

/-- The main loop ended because of `umount`, or by one Ctrl-C. -/
def EndedNormally (env : Env) : Prop := env.taskFails = false ∧ env.threadExc = false ∧ (env.signals = [] ∨ env.signals = [.int])

/-! #### Proofs -/

theorem loopEnd_none {env : Env} : loopEnd env = none ↔ EndedNormally env := by
  unfold loopEnd EndedNormally
  cases env.taskFails <;> cases env.threadExc <;> by_cases h : env.signals = [.int] <;> by_cases h' : env.signals = [] <;> simp [h, h'] 

theorem leave_marks (env : Env) (c f u : Bool) (x : Option Exn) (w : W) :
    (leave env c f u x w).1.remote = w.remote ∧ (leave env c f u x w).1.localMark = w.localMark ∧ (leave env c f u x w).1.failsafe = w.failsafe := by
  unfold leave destroyOps destroyCache
  cases f <;> cases u <;> cases c <;> by_cases h : w.orphans = [] <;> simp [h]

theorem leave_attached (env : Env) (c u : Bool) (x : Option Exn) (w : W) :
    (leave env c true u x w).1.attached = (if u then false else w.attached) := by
  unfold leave destroyOps destroyCache
  cases u <;> cases c <;> by_cases h : w.orphans = [] <;> simp [h]

theorem leave_exc {env : Env} {c f u : Bool} {x : Exn} {w : W} : (leave env c f u (some x) w).2 ≠ none := by
  have key : ∀ (o1 o2 : Option Exn), (if o2.or (o1.or (some x)) = some .cancelled then some Exn.other else o2.or (o1.or (some x))) ≠ none := by
    intro o1 o2
    cases o2 <;> cases o1 <;> simp <;> split <;> simp
  exact key _ _

theorem leave_ok {env : Env} {f u : Bool} {w : W} (h : (leave env false f u none w).2 = none) :
    (leave env false f u none w).1.dirty = [] ∧ (leave env false f u none w).1.attrs = [] ∧ (leave env false f u none w).1.orphans = [] := by
  unfold leave destroyOps destroyCache at h ⊢
  cases f <;> cases u <;> simp at h ⊢ <;> exact h

theorem finish_ok {env : Env} {w : W} (h : (finish env w).2 = none) :
    (finish env w).1 = { w with metaStored := true, localMark := if w.failsafe then .needsFsck else .clean, remote := if w.failsafe then .needsFsck else .clean } := by
  unfold finish at h ⊢
  cases h1 : env.fails .closeDb <;> cases h2 : env.fails .uploadMeta <;> cases h3 : env.fails .writeEnd <;> cases h4 : env.fails .uploadEnd <;>
    cases h5 : env.fails .expire <;> cases h6 : env.fails .closeBackend <;> simp [h1, h2, h3, h4, h5, h6] at h ⊢

/-- After `finish` the mark in the storage is the old one, or everything is stored. -/
theorem finish_remote (env : Env) (w : W) :
    ((finish env w).1.remote = w.remote ∨ ((finish env w).1.remote = (if w.failsafe then .needsFsck else .clean) ∧ (finish env w).1.metaStored = true)) ∧
    (finish env w).1.dirty = w.dirty ∧ (finish env w).1.attrs = w.attrs ∧ (finish env w).1.orphans = w.orphans := by
  unfold finish
  cases h1 : env.fails .closeDb <;> cases h2 : env.fails .uploadMeta <;> cases h3 : env.fails .writeEnd <;> cases h4 : env.fails .uploadEnd <;>
    cases h5 : env.fails .expire <;> cases h6 : env.fails .closeBackend <;> simp [h1, h2, h3, h4, h5, h6]

/-- Nothing was done yet, and the program leaves: all is as before. -/
theorem leave_stored {env : Env} {f u : Bool} {x : Option Exn} {w : W} (h : AllStored w) : AllStored (leave env false f u x w).1 := by
  obtain ⟨h1, h2, h3, h4⟩ := h
  unfold leave destroyOps destroyCache AllStored rest
  cases f <;> cases u <;> simp [h1, h2, h3, h4]

/-- The main loop was entered. -/
def Started (env : Env) : Prop := env.fails .fuseInit = false ∧ env.fails .daemonize = false ∧ env.fails .writeStart = false ∧ env.fails .uploadStart = false

theorem body_started {env : Env} (h : Started env) (work : W → W) (w : W) :
    body env work w = match loopEnd env with
      | some e => leave env env.taskFails true false (some e) (work { w with attached := true, localMark := .mounted, remote := .mounted })
      | none => leave env false true true none (work { w with attached := true, localMark := .mounted, remote := .mounted }) := by
  obtain ⟨h1, h2, h3, h4⟩ := h
  unfold body
  simp [h1, h2, h3, h4]

/-- Not entered: an exception, the mark in the storage is as before, and if everything was stored it still is. -/
theorem body_not_started {env : Env} (h : ¬Started env) (work : W → W) (w : W) :
    (body env work w).2 ≠ none ∧ (body env work w).1.remote = w.remote ∧ (AllStored w → AllStored (body env work w).1) := by
  unfold body
  cases h1 : env.fails .fuseInit
  · cases h2 : env.fails .daemonize
    · cases h3 : env.fails .writeStart
      · cases h4 : env.fails .uploadStart
        · exact absurd ⟨h1, h2, h3, h4⟩ h
        · simp only [Bool.false_eq_true, if_false, if_true]
          exact ⟨leave_exc, (leave_marks _ _ _ _ _ _).1, fun h => leave_stored h⟩
      · simp only [Bool.false_eq_true, if_false, if_true]
        exact ⟨leave_exc, (leave_marks _ _ _ _ _ _).1, fun h => leave_stored h⟩
    · simp only [Bool.false_eq_true, if_false, if_true]
      exact ⟨leave_exc, (leave_marks _ _ _ _ _ _).1, fun h => leave_stored h⟩
  · simp only [if_true]
    exact ⟨leave_exc, (leave_marks _ _ _ _ _ _).1, fun h => leave_stored h⟩

theorem mount_exc {env : Env} {work : W → W} {w : W} (h : (body env work w).2 ≠ none) : mount env work w = body env work w := by
  unfold mount
  cases hb : body env work w with
  | mk w' e =>
    cases e with
    | none => rw [hb] at h; exact absurd rfl h
    | some e => rfl

theorem mount_ok {env : Env} {work : W → W} {w : W} (h : (body env work w).2 = none) : mount env work w = finish env (body env work w).1 := by
  unfold mount
  cases hb : body env work w with
  | mk w' e =>
    cases e with
    | none => rfl
    | some e => rw [hb] at h; cases h

/-- **C89 (not ended normally).** If the main loop was entered and ended by `SIGTERM`, by two signals or by an exception, the file system stays marked as mounted, in the storage and
in the cache directory, the mount point stays, and the exit status is not 0. -/
theorem C89_not_clean {env : Env} {work : W → W} (hw : Work work) {w : W} (hs : Started env) (he : ¬EndedNormally env) :
    (mount env work w).2 ≠ none ∧ (mount env work w).1.remote = .mounted ∧ (mount env work w).1.localMark = .mounted ∧ (mount env work w).1.attached = true := by
  have hb := body_started hs work w
  cases hl : loopEnd env with
  | none => exact absurd (loopEnd_none.1 hl) he
  | some e =>
    rw [hl] at hb
    have hx : (body env work w).2 ≠ none := by rw [hb]; exact leave_exc
    rw [mount_exc hx, hb]
    refine ⟨leave_exc, ?_, ?_, ?_⟩
    · rw [(leave_marks _ _ _ _ _ _).1, hw.remote]
    · rw [(leave_marks _ _ _ _ _ _).2.1, hw.localMark]
    · rw [leave_attached, hw.attached]; rfl

/-- **C89 (the clean mark).** If everything was stored before and the file system is marked as clean in the storage at the end - whatever was done in between, whatever failed - then
every changed block, every attribute and the metadata with them are stored, and deleted files are gone. -/
theorem C89_clean_mark {env : Env} {work : W → W} (hw : Work work) {w : W} (h0 : AllStored w) (hc : (mount env work w).1.remote = .clean) :
    AllStored (mount env work w).1 := by
  by_cases hs : Started env
  · by_cases he : EndedNormally env
    · have hb := body_started hs work w
      rw [loopEnd_none.2 he] at hb
      cases hx : (body env work w).2 with
      | some x =>
        have hx' : (body env work w).2 ≠ none := by rw [hx]; exact fun h => nomatch h
        rw [mount_exc hx', hb, (leave_marks _ _ _ _ _ _).1, hw.remote] at hc
        cases hc
      | none =>
        rw [mount_ok hx] at hc ⊢
        rw [hb] at hx hc ⊢
        obtain ⟨a1, a2, a3⟩ := leave_ok hx
        obtain ⟨b, b1, b2, b3⟩ := finish_remote env (leave env false true true none (work { w with attached := true, localMark := .mounted, remote := .mounted })).1
        rcases b with b | b
        · rw [b, (leave_marks _ _ _ _ _ _).1, hw.remote] at hc
          cases hc
        · exact ⟨b1.trans a1, b2.trans a2, b3.trans a3, b.2⟩
    · rw [(C89_not_clean hw hs he).2.1] at hc
      cases hc
  · obtain ⟨a, b, c⟩ := body_not_started hs work w
    rw [mount_exc a]
    exact c h0

/-- **C89 (exit status 0).** If `mount.s3ql` exits with 0, then the loop ended by `umount` or by one Ctrl-C, the mount point is gone, all data are stored, and both marks are
clean, or "fsck needed" if and only if damaged data had been found. -/
theorem C89_exit_zero {env : Env} {work : W → W} {w : W} (h : (mount env work w).2 = none) :
    EndedNormally env ∧ (mount env work w).1.attached = false ∧ AllStored (mount env work w).1 ∧ (mount env work w).1.localMark = (mount env work w).1.remote ∧
      (mount env work w).1.remote = (if (mount env work w).1.failsafe then .needsFsck else .clean) := by
  by_cases hs : Started env
  · have hb := body_started hs work w
    cases hl : loopEnd env with
    | some e =>
      rw [hl] at hb
      have hx : (body env work w).2 ≠ none := by rw [hb]; exact leave_exc
      rw [mount_exc hx] at h
      exact absurd h hx
    | none =>
      rw [hl] at hb
      cases hx : (body env work w).2 with
      | some x =>
        have hx' : (body env work w).2 ≠ none := by rw [hx]; exact fun h => nomatch h
        rw [mount_exc hx'] at h
        exact absurd h hx'
      | none =>
        rw [mount_ok hx] at h ⊢
        rw [hb] at hx h ⊢
        obtain ⟨a1, a2, a3⟩ := leave_ok hx
        rw [finish_ok h]
        exact ⟨loopEnd_none.1 hl, leave_attached _ _ _ _ _, ⟨a1, a2, a3, rfl⟩, rfl, rfl⟩
  · obtain ⟨a, _, _⟩ := body_not_started hs work w
    rw [mount_exc a] at h
    exact absurd h a

/-- **C89 (nothing goes wrong).** If nothing fails and the loop ends normally, the exit status is 0. -/
theorem C89_normal {env : Env} (work : W → W) (w : W) (hf : ∀ st, env.fails st = false) (he : EndedNormally env) (hst : ∀ b, env.stores b = true) : (mount env work w).2 = none := by
  have hb := body_started (env := env) ⟨hf _, hf _, hf _, hf _⟩ work w
  rw [loopEnd_none.2 he] at hb
  have hr : ∀ l, rest env.stores l = [] := by
    intro l
    induction l with
    | nil => rfl
    | cons a l ih => unfold rest at ih ⊢; rw [List.dropWhile_cons, hst]; exact ih
  have hx : (body env work w).2 = none := by
    rw [hb]
    unfold leave destroyOps destroyCache
    simp [hr]
  rw [mount_ok hx]
  unfold finish
  simp [hf]

/-- **C89 (what a termination signal does).** After `SIGTERM` the log says "exiting without data upload".  In fact all changed blocks and attributes are written before the
process ends, if nothing fails; only the metadata are not stored. -/
theorem C89_term_uploads {env : Env} {work : W → W} {w : W} (hs : Started env) (ht : env.taskFails = false) (hg : env.signals = [.term]) (hst : ∀ b, env.stores b = true) :
    (mount env work w).1.dirty = [] ∧ (mount env work w).1.attrs = [] ∧ (mount env work w).1.orphans = [] ∧ (mount env work w).2 ≠ none := by
  have hb := body_started hs work w
  have hl : loopEnd env = some .other := by unfold loopEnd; simp [ht, hg]
  rw [hl, ht] at hb
  have hx : (body env work w).2 ≠ none := by rw [hb]; exact leave_exc
  rw [mount_exc hx, hb]
  have hr : ∀ l, rest env.stores l = [] := by
    intro l
    induction l with
    | nil => rfl
    | cons a l ih => unfold rest at ih ⊢; rw [List.dropWhile_cons, hst]; exact ih
  refine ⟨?_, ?_, ?_, leave_exc⟩ <;> (unfold leave destroyOps destroyCache; simp [hr])

/-! #### Witnesses -/

def ok : Env := { fails := fun _ => false, signals := [], threadExc := false, taskFails := false, stores := fun _ => true }
def w0 : W := { dirty := [], attrs := [], orphans := [], failsafe := false, attached := false, remote := .clean, localMark := .clean, metaStored := true }
/-- Some blocks are written, attributes changed, a file is deleted that is open. -/
def use (w : W) : W := { w with dirty := [7, 8, 9], attrs := [3], orphans := [5], metaStored := false }

theorem use_work : Work use := ⟨fun _ => rfl, fun _ => rfl, fun _ => rfl⟩

-- The hypotheses can be met.
example : AllStored w0 ∧ Started ok ∧ EndedNormally ok ∧ mount ok use w0 = (w0, none) ∧ (mount ok use w0).1.remote = .clean := by
  refine ⟨⟨rfl, rfl, rfl, rfl⟩, ⟨rfl, rfl, rfl, rfl⟩, ⟨rfl, rfl, Or.inl rfl⟩, by decide, by decide⟩
example : ¬EndedNormally { ok with signals := [.term] } ∧ (mount { ok with signals := [.term] } use w0).1 =
    { w0 with attached := true, remote := .mounted, localMark := .mounted, metaStored := false } := by
  refine ⟨fun h => ?_, by decide⟩
  rcases h.2.2 with h | h <;> cases h

/-- **Violation.** Ctrl-C pressed twice is not a normal end: the file system has to be checked. -/
theorem C89_two_interrupts : (mount { ok with signals := [.int] } use w0).1.remote = .clean ∧ (mount { ok with signals := [.int, .int] } use w0).1.remote = .mounted := by decide

/-- **Violation.** If a background task fails (a metadata upload, say) while a deleted file is open, the attributes in the inode cache are never written to the database, and no dirty block is
uploaded, although the storage would take it. -/
theorem C89_attributes_lost : (mount { ok with taskFails := true } use w0).1.attrs = [3] ∧ (mount { ok with taskFails := true } use w0).1.dirty = [7, 8, 9] := by decide

/-- **Violation.** If the start fails after FUSE was initialised - say, because the parameters cannot be uploaded - the process ends, but the mount point stays (and can no longer be used). -/
theorem C89_dead_mount_point : let r := mount { ok with fails := fun s => s == .uploadStart } use w0
    r.2 = some .other ∧ r.1.attached = true ∧ r.1.remote = .clean ∧ r.1.localMark = .mounted := by decide

end Verif.Tools.MountEnd
