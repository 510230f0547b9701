import Verif.Meta.ProtoProps
/-
Histories that show what goes wrong outside the orderly histories, and histories that meet the
hypotheses of the theorems in Verif.Meta.ProtoProps.
-/
namespace Verif.Meta

/-- Blocks of two bytes, and an (injective on short files) stand-in for the checksum. -/
def cfg2 : Cfg := { bs := 2, pos := by decide, hash := fun f => f.foldl (fun a x => a * 257 + x.toNat + 1) 0 }

def fs0 : World := mkfs cfg2 0 5 [1, 2, 3]

/-- An operation that asks the user for nothing and restores nothing. -/
def Op.plain : Op → Bool
  | .startFsck _ _ answer => !answer
  | .restoreCrash _ _ => false
  | .restore _ _ _ _ => false
  | _ => true

/-- `n` program steps. -/
def nexts (n : Nat) : List Op := List.replicate n .next

/-- A check of the final state. -/
def check (w0 : World) (ops : List Op) (c : World → Bool) : Bool :=
  match exec cfg2 w0 ops with
  | some w => c w
  | none => false

theorem check_true {w0 : World} {ops : List Op} {c : World → Bool} (h : check w0 ops c = true) :
    ∃ w, exec cfg2 w0 ops = some w ∧ c w = true := by
  unfold check at h
  split at h
  · rename_i w hw; exact ⟨w, hw, h⟩
  · cases h

/-- Does a process work on a database different from `t`? -/
def wrongDb (t : Bytes) (w : World) : Bool :=
  match w.proc with
  | some pr => decide (pr.pc ≠ .dl) && decide ((w.disk pr.m).view ≠ t)
  | none => false

theorem wrongDb_true {t : Bytes} {w : World} (h : wrongDb t w = true) :
    ∃ pr, w.proc = some pr ∧ pr.pc ≠ .dl ∧ (w.disk pr.m).view ≠ t := by
  unfold wrongDb at h
  split at h
  · rename_i pr hp
    simp only [Bool.and_eq_true, decide_eq_true_eq] at h
    exact ⟨pr, hp, h.1, h.2⟩
  · cases h

/-- Operations that are always orderly. -/
def Op.free : Op → Bool
  | .next | .sql _ | .ckpt | .read _ _ | .put _ | .finish _ _ | .early _ | .dlPart _ | .startPass | .startSnap _ | .idleCkpt _ => true
  | _ => false

theorem orderly_free {cfg : Cfg} {rest : List Op} : ∀ (ops : List Op) (w : World), (∀ op ∈ ops, op.free = true) →
    (∀ w', exec cfg w ops = some w' → OrderlyRun cfg w' rest) → OrderlyRun cfg w (ops ++ rest)
  | [], w, _, h => h w rfl
  | op :: ops, w, hf, h => by
    refine ⟨?_, fun w' hs => orderly_free ops w' (fun o ho => hf o (List.mem_cons_of_mem _ ho)) (fun w2 h2 => h w2 ?_)⟩
    · have := hf op List.mem_cons_self
      cases op <;> first | trivial | cases this
    · unfold exec
      rw [hs]
      exact h2

/-- After mkfs only the machine that ran it has local parameters. -/
theorem alone_mkfs (cfg : Cfg) (m now : Nat) (f : Bytes) (m' : Nat) : Alone (mkfs cfg m now f) m' := by
  intro r hr _ b _ l hl
  have hr := Option.some.inj hr
  subst hr
  unfold mkfs at hl
  dsimp only at hl
  split at hl
  · cases hl; exact Nat.le_refl _
  · cases hl

/-- While the file system is marked as mounted, every start is orderly. -/
theorem alone_mounted {w : World} (h : ∀ r, w.remote.cur = some r → r.mounted = true) (m : Nat) : Alone w m := by
  intro r hr hm
  rw [h r hr] at hm; cases hm

/-- Machine 0 is killed between writing its local parameters and storing the remote ones. -/
def killedAtMark : List Op := [.startMount 0, .next, .crash]

/-- Machine 1 mounts, changes the database and unmounts. -/
def session1 : List Op :=
  [.startMount 1, .dlEnd id] ++ nexts 3 ++ [.sql (.write 0 [9]), .finish 7 false, .read 0 2, .put 0] ++ nexts 6

/-- Why C14 is not proved for all histories: a mount on machine 0 is killed right after it wrote its local
parameters; machine 1 mounts, changes the file system and unmounts; now both have the same sequence
number, and a plain fsck on machine 0 uses the outdated local database without asking (the test that
should detect this, fsck.py:1325, compares the local parameters with themselves). -/
theorem C14_stale_fsck : ∃ (cfg : Cfg) (m now : Nat) (f : Bytes) (ops : List Op) (w : World) (pr : Proc),
    (∀ op ∈ ops, op.plain = true) ∧ exec cfg (mkfs cfg m now f) ops = some w ∧
    w.proc = some pr ∧ pr.kind = .fsck ∧ pr.pc = .run ∧ (w.disk pr.m).view ≠ truth f ops := by
  have h : check fs0 (killedAtMark ++ session1 ++ [.startFsck 0 false false] ++ nexts 3)
      (fun w => wrongDb [9, 2, 3] w && (match w.proc with | some pr => decide (pr.kind = .fsck) && decide (pr.pc = .run) | none => false)) = true := by decide +kernel
  obtain ⟨w, hw, hc⟩ := check_true h
  rw [Bool.and_eq_true] at hc
  obtain ⟨pr, h1, h2, h3⟩ := wrongDb_true hc.1
  have hc2 := hc.2
  rw [h1] at hc2
  simp only [Bool.and_eq_true, decide_eq_true_eq] at hc2
  refine ⟨cfg2, 0, 5, [1, 2, 3], _, w, pr, by decide, hw, h1, hc2.1, hc2.2, ?_⟩
  have ht : truth [1, 2, 3] (killedAtMark ++ session1 ++ [.startFsck 0 false false] ++ nexts 3) = [9, 2, 3] := by decide
  rw [ht]; exact h3

/-- Machine 0 mounts, changes the database (the change is still in the log), and is killed. -/
def killedWithLog : List Op := [.startMount 0] ++ nexts 3 ++ [.sql (.write 0 [9]), .crash]

/-- The user confirms on machine 1 that the remote copy shall be used. -/
def forced1 : List Op :=
  [.startFsck 1 false true, .dlEnd id] ++ nexts 3 ++ [.finish 8 false, .read 0 2, .put 0, .read 1 2, .put 1] ++ nexts 6

/-- The log of a killed session is applied to a database downloaded later: the user decided on machine 1
to go on without the changes of machine 0; a later mount on machine 0 downloads the current database and
then sees something that never existed, because the old log file is still there. -/
theorem C14_stale_log : ∃ (cfg : Cfg) (m now : Nat) (f : Bytes) (ops : List Op) (w : World) (pr : Proc) (r : Params) (g : Bytes),
    exec cfg (mkfs cfg m now f) ops = some w ∧ w.proc = some pr ∧ pr.kind = .mount ∧ pr.pc = .got ∧
    w.remote.cur = some r ∧ r.mounted = false ∧ download cfg w.remote.blocks r false id = some g ∧
    (w.disk pr.m).view ≠ g := by
  have h : check fs0 (killedWithLog ++ forced1 ++ [.startMount 0, .dlEnd id]) (fun w =>
      wrongDb [1, 2, 3] w && (match w.proc with | some pr => decide (pr.kind = .mount) && decide (pr.pc = .got) | none => false) &&
      (match w.remote.cur with | some r => decide (r.mounted = false) && decide (download cfg2 w.remote.blocks r false id = some [1, 2, 3]) | none => false)) = true := by decide +kernel
  obtain ⟨w, hw, hc⟩ := check_true h
  rw [Bool.and_eq_true, Bool.and_eq_true] at hc
  obtain ⟨pr, h1, h2, h3⟩ := wrongDb_true hc.1.1
  have hc2 := hc.1.2
  rw [h1] at hc2
  simp only [Bool.and_eq_true, decide_eq_true_eq] at hc2
  have hc3 := hc.2
  split at hc3
  · rename_i r hr
    simp only [Bool.and_eq_true, decide_eq_true_eq] at hc3
    exact ⟨cfg2, 0, 5, [1, 2, 3], _, w, pr, r, [1, 2, 3], hw, h1, hc2.1, hc2.2, hr, hc3.1, hc3.2, h3⟩
  · cases hc3

/-- `restore-metadata` overwrites the database file before it writes the parameters.  If it is interrupted
in between, the next mount takes the overwritten file for the current database. -/
theorem C14_interrupted_restore : ∃ (cfg : Cfg) (m now : Nat) (f : Bytes) (ops : List Op) (w : World) (pr : Proc) (r : Params) (g : Bytes),
    exec cfg (mkfs cfg m now f) ops = some w ∧ w.proc = some pr ∧ pr.kind = .mount ∧ pr.pc = .got ∧
    w.remote.cur = some r ∧ r.mounted = false ∧ download cfg w.remote.blocks r false id = some g ∧
    (w.disk pr.m).view ≠ g := by
  have h : check fs0 [.restoreCrash 0 [7], .startMount 0] (fun w =>
      wrongDb [1, 2, 3] w && (match w.proc with | some pr => decide (pr.kind = .mount) && decide (pr.pc = .got) | none => false) &&
      (match w.remote.cur with | some r => decide (r.mounted = false) && decide (download cfg2 w.remote.blocks r false id = some [1, 2, 3]) | none => false)) = true := by decide +kernel
  obtain ⟨w, hw, hc⟩ := check_true h
  rw [Bool.and_eq_true, Bool.and_eq_true] at hc
  obtain ⟨pr, h1, h2, h3⟩ := wrongDb_true hc.1.1
  have hc2 := hc.1.2
  rw [h1] at hc2
  simp only [Bool.and_eq_true, decide_eq_true_eq] at hc2
  have hc3 := hc.2
  split at hc3
  · rename_i r hr
    simp only [Bool.and_eq_true, decide_eq_true_eq] at hc3
    exact ⟨cfg2, 0, 5, [1, 2, 3], _, w, pr, r, [1, 2, 3], hw, h1, hc2.1, hc2.2, hr, hc3.1, hc3.2, h3⟩
  · cases hc3

/-- A mount creates the index for NFS, the change reaches the database file, and the process is killed before
it announces itself. -/
def killedEarly : List Op := [.startMount 0, .early (.write 2 [9, 9]), .ckpt, .crash]

/-- The next mount does nothing and unmounts. -/
def session0 : List Op := [.startMount 0] ++ nexts 3 ++ [.finish 7 false] ++ nexts 6

/-- Why the creation part of C10 is not proved for all histories: the change made by `killedEarly` is never
tracked, so the next unmount stores a version, marked as clean, that does not match its checksum and
cannot be downloaded. -/
theorem C10_untracked_change : ∃ (cfg : Cfg) (m now : Nat) (f : Bytes) (ops : List Op) (w : World) (s : Nat) (P : Params),
    (∀ op ∈ ops, op.plain = true) ∧ exec cfg (mkfs cfg m now f) ops = some w ∧ w.proc = none ∧
    w.remote.cur = some P ∧ AL.get w.remote.vers s = some P ∧ P.mounted = false ∧ P.needsFsck = false ∧
    download cfg w.remote.blocks P false id = none := by
  have h : check fs0 (killedEarly ++ session0) (fun w => w.proc.isNone && (match AL.get w.remote.vers 6 with
      | some P => decide (w.remote.cur = some P) && (decide (P.mounted = false) && (decide (P.needsFsck = false) && (download cfg2 w.remote.blocks P false id).isNone))
      | none => false)) = true := by decide +kernel
  obtain ⟨w, hw, hc⟩ := check_true h
  rw [Bool.and_eq_true] at hc
  have hc2 := hc.2
  split at hc2
  · rename_i P hP
    simp only [Bool.and_eq_true, decide_eq_true_eq] at hc2
    exact ⟨cfg2, 0, 5, [1, 2, 3], _, w, 6, P, by decide, hw, by simpa using hc.1, hc2.1, hP, hc2.2.1, hc2.2.2.1, by simpa using hc2.2.2.2⟩
  · cases hc2

/-- An unmount is killed between writing the final parameters to the local file and storing them in the
backend. -/
def killedAtEnd : List Op := [.startMount 0] ++ (nexts 3 ++ [.sql (.write 0 [9]), .finish 7 false, .read 0 2, .put 0] ++ nexts 2) ++ [.crash]

/-- Why C15 is not proved for all crash points: after `killedAtEnd`, mounting fails with an AssertionError,
and a plain fsck says that the file system is clean and does nothing. -/
theorem C15_stuck : ∃ (cfg : Cfg) (m now : Nat) (f : Bytes) (ops : List Op) (w : World),
    (∀ op ∈ ops, op.plain = true) ∧ OrderlyRun cfg (mkfs cfg m now f) ops ∧ exec cfg (mkfs cfg m now f) ops = some w ∧ w.proc = none ∧
    mountCheck w.remote.cur (w.disk m).params = .assertion ∧
    fsckCheck w.remote.cur (w.disk m).params false false = .clean := by
  have h : check fs0 killedAtEnd (fun w => w.proc.isNone && (decide (mountCheck w.remote.cur (w.disk 0).params = .assertion) &&
      decide (fsckCheck w.remote.cur (w.disk 0).params false false = .clean))) = true := by decide +kernel
  obtain ⟨w, hw, hc⟩ := check_true h
  simp only [Bool.and_eq_true, decide_eq_true_eq] at hc
  refine ⟨cfg2, 0, 5, [1, 2, 3], _, w, by decide, ?_, hw, by simpa using hc.1, hc.2.1, hc.2.2⟩
  refine ⟨alone_mkfs _ _ _ _ _, fun w1 h1 => ?_⟩
  refine orderly_free (nexts 3 ++ [.sql (.write 0 [9]), .finish 7 false, .read 0 2, .put 0] ++ nexts 2) w1 (by decide) (rest := [.crash]) (fun w2 h2 => ⟨?_, fun _ _ => trivial⟩)
  intro pr hp hpc
  exfalso
  have hk : check fs0 (.startMount 0 :: (nexts 3 ++ [.sql (.write 0 [9]), .finish 7 false, .read 0 2, .put 0] ++ nexts 2))
      (fun w => match w.proc with | some pr => decide (pr.pc ≠ .got) | none => false) = true := by decide +kernel
  obtain ⟨w3, h3, hc3⟩ := check_true hk
  unfold exec at h3
  rw [show step cfg2 fs0 (.startMount 0) = some w1 from h1] at h3
  have h2' : exec cfg2 w1 (nexts 3 ++ [.sql (.write 0 [9]), .finish 7 false, .read 0 2, .put 0] ++ nexts 2) = some w2 := h2
  dsimp only at h3
  rw [h2'] at h3
  cases h3
  rw [hp] at hc3
  simp [hpc] at hc3

/-- A periodic upload is killed between writing the parameters to the local file and storing them. -/
def killedPeriodic : List Op := [.startMount 0] ++ nexts 3 ++ [.sql (.write 0 [9]), .ckpt, .startSnap 7, .read 0 2, .put 0] ++ nexts 2 ++ [.crash]

/-- After `killedPeriodic`, mounting fails with an AssertionError instead of the advice to run fsck (a plain
fsck works). -/
theorem C15_assertion : ∃ (cfg : Cfg) (m now : Nat) (f : Bytes) (ops : List Op) (w : World),
    (∀ op ∈ ops, op.plain = true) ∧ exec cfg (mkfs cfg m now f) ops = some w ∧ w.proc = none ∧
    mountCheck w.remote.cur (w.disk m).params = .assertion ∧
    (∃ p, fsckCheck w.remote.cur (w.disk m).params false false = .useLocal p) := by
  have h : check fs0 killedPeriodic (fun w => w.proc.isNone && (decide (mountCheck w.remote.cur (w.disk 0).params = .assertion) &&
      (match fsckCheck w.remote.cur (w.disk 0).params false false with | .useLocal _ => true | _ => false))) = true := by decide +kernel
  obtain ⟨w, hw, hc⟩ := check_true h
  simp only [Bool.and_eq_true, decide_eq_true_eq] at hc
  refine ⟨cfg2, 0, 5, [1, 2, 3], _, w, by decide, hw, by simpa using hc.1, hc.2.1, ?_⟩
  have hc2 := hc.2.2
  split at hc2
  · rename_i p hp; exact ⟨p, hp⟩
  · cases hc2

/-! ### Histories that meet the hypotheses -/

/-- A mount that changes the database, uploads it periodically, changes it again and is killed; a mount on
another machine is refused; a check. -/
def history1 : List Op :=
  .startMount 0 :: (nexts 3 ++ [.sql (.write 0 [9]), .ckpt, .startPass, .read 0 1, .sql (.write 1 [8]), .ckpt, .read 0 1, .put 0] ++ nexts 1 ++
    [.startSnap 7, .read 0 2, .put 0] ++ nexts 4)

def history2 : List Op := nexts 5 ++ [.sql (.write 3 [7, 7])]

def history3 : List Op :=
  nexts 3 ++ [.finish 9 false, .read 0 2, .put 0, .read 1 2, .put 1, .read 2 2, .put 2] ++ nexts 6

theorem exec_check {ops : List Op} {w : World} {c : World → Bool} (h : check fs0 ops c = true) (he : exec cfg2 fs0 ops = some w) : c w = true := by
  unfold check at h
  rw [he] at h
  exact h

theorem exec_trans {cfg : Cfg} {a b : List Op} {w w1 w2 : World} (h1 : exec cfg w a = some w1) (h2 : exec cfg w1 b = some w2) : exec cfg w (a ++ b) = some w2 := by
  rw [exec_append cfg a b w w1 h1]; exact h2

theorem orderly_history1 : OrderlyRun cfg2 fs0 history1 :=
  ⟨alone_mkfs _ _ _ _ _, fun w1 _ => by
    have := orderly_free (cfg := cfg2) (rest := []) (nexts 3 ++ [.sql (.write 0 [9]), .ckpt, .startPass, .read 0 1, .sql (.write 1 [8]), .ckpt, .read 0 1, .put 0] ++ nexts 1 ++
      [.startSnap 7, .read 0 2, .put 0] ++ nexts 4) w1 (by decide) (fun _ _ => trivial)
    rwa [List.append_nil] at this⟩

/-- The whole history with the crash, the refused mount and the check. -/
def historyAll : List Op := history1 ++ (history2 ++ (.crash :: .startMount 1 :: .startFsck 0 false false :: history3))

theorem orderly_append {cfg : Cfg} {b : List Op} : ∀ (a : List Op) (w : World), OrderlyRun cfg w a →
    (∀ w', exec cfg w a = some w' → OrderlyRun cfg w' b) → OrderlyRun cfg w (a ++ b)
  | [], w, _, h => h w rfl
  | op :: a, w, ha, h => by
    refine ⟨ha.1, fun w1 h1 => orderly_append a w1 (ha.2 w1 h1) (fun w2 h2 => h w2 ?_)⟩
    unfold exec
    rw [h1]
    exact h2

theorem orderly_prefix {cfg : Cfg} : ∀ (a b : List Op) (w : World), OrderlyRun cfg w (a ++ b) → OrderlyRun cfg w a
  | [], _, _, _ => trivial
  | _ :: a, b, _, h => ⟨h.1, fun w1 h1 => orderly_prefix a b w1 (h.2 w1 h1)⟩

/-- The backend says that the file system is mounted. -/
def isMounted (w : World) : Bool :=
  match w.remote.cur with
  | some r => r.mounted
  | none => true

theorem isMounted_alone {w : World} (h : isMounted w = true) (m : Nat) : Alone w m := by
  refine alone_mounted (fun r hr => ?_) m
  unfold isMounted at h
  rw [hr] at h
  exact h

theorem orderly_historyAll : OrderlyRun cfg2 fs0 historyAll := by
  refine orderly_append _ _ orderly_history1 (fun w1 h1 => ?_)
  refine orderly_free history2 w1 (by decide) (fun w2 h2 => ?_)
  have e2 : exec cfg2 fs0 (history1 ++ history2) = some w2 := exec_trans h1 h2
  have c2 := exec_check (c := fun w => match w.proc with | some pr => decide (pr.pc ≠ .got) | none => false) (by decide +kernel) e2
  refine ⟨?_, fun w3 h3 => ?_⟩
  · intro pr hp hpc
    rw [hp] at c2
    simp [hpc] at c2
  · have e3 : exec cfg2 fs0 (history1 ++ history2 ++ [.crash]) = some w3 := exec_trans e2 (exec_one h3)
    have c3 := exec_check (c := isMounted) (by decide +kernel) e3
    refine ⟨isMounted_alone c3 _, fun w4 h4 => ?_⟩
    have e4 : exec cfg2 fs0 (history1 ++ history2 ++ [.crash] ++ [.startMount 1]) = some w4 := exec_trans e3 (exec_one h4)
    have c4 := exec_check (c := isMounted) (by decide +kernel) e4
    refine ⟨⟨isMounted_alone c4 _, rfl⟩, fun w5 h5 => ?_⟩
    have := orderly_free (cfg := cfg2) (rest := []) history3 w5 (by decide) (fun _ _ => trivial)
    rwa [List.append_nil] at this

/-- The hypotheses of `C10_periodic_partial` are met by `history1`. -/
example : OrderlyRun cfg2 fs0 history1 ∧ ∃ w pr, exec cfg2 fs0 history1 = some w ∧ w.proc = some pr ∧ pr.pc = .inc1 := by
  refine ⟨orderly_history1, ?_⟩
  have h : check fs0 history1 (fun w => match w.proc with | some pr => decide (pr.pc = .inc1) | none => false) = true := by decide +kernel
  obtain ⟨w, hw, hc⟩ := check_true h
  split at hc
  · rename_i pr hp; exact ⟨w, pr, hw, hp, by simpa using hc⟩
  · cases hc

/-- The hypotheses of `C10_versions_download_partial` are met: the whole history ends with an unmounted
version that is not the one mkfs made, and that contains all changes. -/
example : OrderlyRun cfg2 fs0 historyAll ∧ truth [1, 2, 3] historyAll = [9, 8, 3, 7, 7] ∧
    ∃ w P, exec cfg2 fs0 historyAll = some w ∧ AL.get w.remote.vers 8 = some P ∧ P.mounted = false ∧
      download cfg2 w.remote.blocks P false id = some [9, 8, 3, 7, 7] := by
  refine ⟨orderly_historyAll, by decide, ?_⟩
  have h : check fs0 historyAll (fun w => match AL.get w.remote.vers 8 with
      | some P => decide (P.mounted = false) && decide (download cfg2 w.remote.blocks P false id = some [9, 8, 3, 7, 7]) | none => false) = true := by decide +kernel
  obtain ⟨w, hw, hc⟩ := check_true h
  split at hc
  · rename_i P hP
    simp only [Bool.and_eq_true, decide_eq_true_eq] at hc
    exact ⟨w, P, hw, hP, hc.1, hc.2⟩
  · cases hc

/-- The hypotheses of `C14_no_stale_partial` are met by a check after a crash; the database it works on is not
the one mkfs made. -/
example : ∃ ops w pr, OrderlyRun cfg2 fs0 ops ∧ exec cfg2 fs0 ops = some w ∧ w.proc = some pr ∧ pr.pc = .run ∧ pr.kind = .fsck ∧
    (w.disk pr.m).view = [9, 8, 3, 7, 7] := by
  refine ⟨history1 ++ (history2 ++ (.crash :: .startMount 1 :: .startFsck 0 false false :: nexts 3)), ?_⟩
  have h : check fs0 (history1 ++ (history2 ++ (.crash :: .startMount 1 :: .startFsck 0 false false :: nexts 3))) (fun w => match w.proc with
      | some pr => decide (pr.pc = .run) && decide (pr.kind = .fsck) && decide ((w.disk pr.m).view = [9, 8, 3, 7, 7]) | none => false) = true := by decide +kernel
  obtain ⟨w, hw, hc⟩ := check_true h
  split at hc
  · rename_i pr hp
    simp only [Bool.and_eq_true, decide_eq_true_eq] at hc
    refine ⟨w, pr, ?_, hw, hp, hc.1.1, hc.1.2, hc.2⟩
    have := orderly_historyAll
    have he : historyAll = (history1 ++ (history2 ++ (.crash :: .startMount 1 :: .startFsck 0 false false :: nexts 3))) ++ history3.drop 3 := rfl
    rw [he] at this
    exact orderly_prefix _ _ _ this
  · cases hc

/-- The hypotheses of `C15_repairable_partial` are met by a crash during a mount with changes in the log. -/
example : ∃ ops w w1 pr, OrderlyRun cfg2 fs0 (ops ++ [.crash]) ∧ exec cfg2 fs0 ops = some w ∧ w.proc = some pr ∧ step cfg2 w .crash = some w1 ∧
    ¬ InWindow w1 pr.m ∧ mountCheck w1.remote.cur (w1.disk pr.m).params = .mountedElsewhere ∧ (w1.disk pr.m).wal ≠ [] := by
  have h : check fs0 (history1 ++ history2) (fun w => match w.proc with
      | some pr => decide (mountCheck w.remote.cur (w.disk pr.m).params = .mountedElsewhere) && decide ((w.disk pr.m).wal ≠ []) &&
          (match (w.disk pr.m).params with | some l => l.mounted | none => false)
      | none => false) = true := by decide +kernel
  obtain ⟨w, hw, hc⟩ := check_true h
  split at hc
  · rename_i pr hp
    simp only [Bool.and_eq_true, decide_eq_true_eq] at hc
    refine ⟨history1 ++ history2, w, { w with proc := none }, pr, ?_, hw, hp, ?_, ?_, hc.1.1, hc.1.2⟩
    · have := orderly_historyAll
      have he : historyAll = (history1 ++ history2 ++ [.crash]) ++ (.startMount 1 :: .startFsck 0 false false :: history3) := rfl
      rw [he] at this
      exact orderly_prefix _ _ _ this
    · unfold step; rw [hp]
    · rintro ⟨l, r, hl, _, _, hm, _⟩
      have hl' : (w.disk pr.m).params = some l := hl
      rw [hl'] at hc
      simp [hm] at hc
  · cases hc

end Verif.Meta
