/-
C82: `umount.s3ql` (umount.py:74-220).  The command promises to return only after all data has been uploaded.  It cannot see the uploads,
it watches the process of the daemon.
-/

namespace Verif.Tools.Umount

/-! #### Specification -/

/-- The history of a daemon: is it running, and is everything that was written to the file system in the storage?  Moments are numbers. -/
structure Daemon where
  alive : Nat → Bool
  uploaded : Nat → Bool

/-- A daemon that has ended does not come back. -/
def Daemon.Mortal (d : Daemon) : Prop := ∀ τ τ', τ ≤ τ' → d.alive τ = false → d.alive τ' = false

/-- A daemon that ends only when everything is uploaded, and nothing that was uploaded gets lost. -/
def Daemon.Healthy (d : Daemon) : Prop := ∀ τ, d.alive τ = false → d.uploaded τ = true

/-! #### Model -/

/-- What the operating system knows under a process number, seen from the process that runs `umount.s3ql`. -/
inductive Slot where
  | none
  | daemon
  | zombie                  -- ended, and not yet waited for
  | other (cmd : String)    -- another process
deriving DecidableEq

/-- The operating system, seen by `umount.s3ql`. -/
structure World where
  /-- what the number that the daemon reports stands for, at each moment -/
  slot : Nat → Slot
  /-- the command line of the daemon, at each moment -/
  cmd : Nat → String
  /-- may a signal be sent to it? -/
  maySignal : Slot → Bool
  /-- does `/proc` show it (mount option `hidepid`)? -/
  visible : Slot → Bool
  /-- does a process use the mount point, does the daemon accept the flush command, does `umount` succeed? -/
  busy : Bool
  flushOk : Bool
  umountOk : Bool

/-- `os.kill(pid, 0)`: did it succeed?  All subclasses of `OSError` are treated the same (umount.py:164-168). -/
def kill (w : World) (τ : Nat) : Bool :=
  match w.slot τ with
  | .none => false
  | s => w.maySignal s

/-- `get_cmdline` (umount.py:90-117), the branch with `/proc`.  Simplified: errors other than `FileNotFoundError` do not occur. -/
def getCmdline (w : World) (τ : Nat) : Option String :=
  if w.visible (w.slot τ) = false then Option.none else
  match w.slot τ with
  | .none => Option.none
  | .daemon => some (w.cmd τ)
  | .zombie => some ""
  | .other c => some c

/-- One iteration of the loop (umount.py:162-181) with `os.kill` at `τ1` and `get_cmdline` at `τ2`: the moment at which the loop is left,
or `none` if it goes on. -/
def poll (w : World) (cmdline : Option String) (τ1 τ2 : Nat) : Option Nat :=
  if kill w τ1 = false then some τ1 else
  match getCmdline w τ2 with
  | Option.none => some τ2
  | some c => if some c = cmdline then Option.none else some τ2

/-- The loop (umount.py:160-187), `n` iterations of it from the `i`-th one on.  `t` are the moments at which the system calls are made. -/
def wait (w : World) (t : Nat → Nat) (cmdline : Option String) : Nat → Nat → Option Nat
  | 0, _ => Option.none
  | n + 1, i =>
    match poll w cmdline (t (2 * i + 1)) (t (2 * i + 2)) with
    | some τ => some τ
    | Option.none => wait w t cmdline n (i + 1)

/-- What the user gets.  `done τ`: exit code 0 at the moment `τ`. -/
inductive Outcome where
  | inUse | failed | noFlush | waiting | done (τ : Nat)
deriving DecidableEq

/-- `blocking_umount` (umount.py:120-187), with at most `n` iterations of the loop.  The second component tells whether the file system
was unmounted. -/
def blockingUmount (w : World) (t : Nat → Nat) (n : Nat) : Outcome × Bool :=
  if w.busy then (.inUse, false) else
  if w.flushOk = false then (.noFlush, false) else
  let cmdline := getCmdline w (t 0)
  if w.umountOk = false then (.failed, false) else
  match wait w t cmdline n 0 with
  | some τ => (.done τ, true)
  | Option.none => (.waiting, true)

/-- `lazy_umount` (umount.py:74-87). -/
def lazyUmount (w : World) (t : Nat → Nat) : Outcome × Bool :=
  if w.umountOk = false then (.failed, false) else (.done (t 0), true)

/-! #### The properties -/

/-- `umount.s3ql` and the daemon see the same processes, and the daemon can be examined: its number stands for it as long as it runs,
its command line does not change, a signal may be sent to it and `/proc` shows it. -/
structure Watchable (d : Daemon) (w : World) : Prop where
  seen : ∀ τ, d.alive τ = true → w.slot τ = .daemon
  fixed : ∀ τ τ', w.cmd τ = w.cmd τ'
  signal : w.maySignal .daemon = true
  shown : w.visible .daemon = true

theorem poll_alive {d : Daemon} {w : World} (hw : Watchable d w) {τ0 τ1 τ2 τ : Nat} (h0 : d.alive τ0 = true)
    (h : poll w (getCmdline w τ0) τ1 τ2 = some τ) : d.alive τ = false := by
  cases ha : d.alive τ with
  | false => rfl
  | true =>
    exfalso
    have hs := hw.seen τ ha
    have g0 : getCmdline w τ0 = some (w.cmd τ0) := by
      unfold getCmdline; rw [hw.seen τ0 h0, hw.shown]; rfl
    have g : getCmdline w τ = some (w.cmd τ) := by
      unfold getCmdline; rw [hs, hw.shown]; rfl
    unfold poll at h
    split at h
    · rename_i hk
      cases h
      unfold kill at hk
      rw [hs] at hk
      have := hw.signal
      rw [show w.maySignal .daemon = false from hk] at this
      cases this
    · split at h
      · rename_i hg
        cases h
        rw [g] at hg; cases hg
      · rename_i c hg
        split at h
        · cases h
        · rename_i hne
          cases h
          rw [g] at hg; cases hg
          exact hne (by rw [g0, hw.fixed _ τ0])

theorem wait_alive {d : Daemon} {w : World} (hw : Watchable d w) {t : Nat → Nat} {τ0 : Nat} (h0 : d.alive τ0 = true) :
    ∀ n i τ, wait w t (getCmdline w τ0) n i = some τ → d.alive τ = false := by
  intro n
  induction n with
  | zero => intro i τ h; cases h
  | succ n ih =>
    intro i τ h
    unfold wait at h
    split at h
    · rename_i τ' hp
      cases h
      exact poll_alive hw h0 hp
    · exact ih _ _ h

/-- **C82, partial.** If the daemon can be watched and does not end before everything is uploaded, then `umount.s3ql` returns with exit code
0 only when it has ended and everything is in the storage.  Missing: daemons that fail (`C82_failed_daemon`), that may not be signalled
(`C82_not_permitted`), that cannot be seen (`C82_hidden`, `C82_other_namespace`) or that change their command line (`C82_renamed`). -/
theorem C82_uploaded_partial (d : Daemon) (w : World) (t : Nat → Nat) (n τ : Nat) (hw : Watchable d w) (hd : d.Healthy) (h0 : d.alive (t 0) = true)
    (h : (blockingUmount w t n).1 = .done τ) : d.alive τ = false ∧ d.uploaded τ = true := by
  have ha : d.alive τ = false := by
    unfold blockingUmount at h
    split at h
    · cases h
    · split at h
      · cases h
      · dsimp only at h
        split at h
        · cases h
        · split at h
          · rename_i τ' hl
            cases h
            exact wait_alive hw h0 n 0 τ hl
          · cases h
  exact ⟨ha, hd τ ha⟩

/-- A daemon that is alive and watched until moment 5, and a poll every moment. -/
def exD : Daemon := ⟨fun τ => decide (τ < 5), fun τ => decide (4 ≤ τ)⟩
def exW : World := { slot := fun τ => if τ < 5 then .daemon else if τ < 7 then .zombie else .none, cmd := fun _ => "mount.s3ql", maySignal := fun _ => true, visible := fun _ => true, busy := false, flushOk := true, umountOk := true }

theorem exWatch : Watchable exD exW :=
  ⟨fun τ h => if_pos (of_decide_eq_true h), fun _ _ => rfl, rfl, rfl⟩

theorem exHealthy : exD.Healthy := by
  intro _ h
  have := of_decide_eq_false h
  exact decide_eq_true (by omega)

example : Watchable exD exW ∧ exD.Healthy ∧ exD.alive 0 = true ∧ (blockingUmount exW id 10).1 = .done 6 := ⟨exWatch, exHealthy, rfl, by decide⟩

/-- C82: when the command fails, the file system is still mounted; when it returns 0, it is not. -/
theorem C82_error_keeps_mount (w : World) (t : Nat → Nat) (n : Nat) :
    ((blockingUmount w t n).2 = true ↔ (blockingUmount w t n).1 ≠ .inUse ∧ (blockingUmount w t n).1 ≠ .noFlush ∧ (blockingUmount w t n).1 ≠ .failed) ∧
    (w.busy = true → (blockingUmount w t n).1 = .inUse) := by
  unfold blockingUmount
  constructor
  · split
    · simp
    · split
      · simp
      · dsimp only
        split
        · simp
        · split <;> simp
  · intro h; rw [if_pos h]

/-- What is needed for the command to return: when the daemon has ended, its number does not go to a process with the same command line.
An ended process that was not waited for has the empty command line. -/
def NotReplaced (d : Daemon) (w : World) (τ0 : Nat) : Prop :=
  ∀ τ, d.alive τ = false → w.slot τ ≠ .daemon ∧ w.slot τ ≠ .other (w.cmd τ0) ∧ w.cmd τ0 ≠ ""

theorem poll_ended {d : Daemon} {w : World} {τ0 τ1 τ2 : Nat} (hs0 : w.slot τ0 = .daemon) (hv : w.visible .daemon = true)
    (hr : NotReplaced d w τ0) (h2 : d.alive τ2 = false) : ∃ τ, poll w (getCmdline w τ0) τ1 τ2 = some τ ∧ (τ = τ1 ∨ τ = τ2) := by
  have g0 : getCmdline w τ0 = some (w.cmd τ0) := by
    unfold getCmdline; rw [hs0, hv]; rfl
  obtain ⟨r1, r2, r3⟩ := hr τ2 h2
  unfold poll
  split
  · exact ⟨_, rfl, .inl rfl⟩
  · split
    · exact ⟨_, rfl, .inr rfl⟩
    · rename_i c hg
      rw [if_neg]
      · exact ⟨_, rfl, .inr rfl⟩
      · intro e
        rw [g0] at e
        cases e
        unfold getCmdline at hg
        split at hg
        · cases hg
        · split at hg
          · cases hg
          · rename_i hd; exact r1 hd
          · exact r3 (Option.some.inj hg).symm
          · rename_i c hd
            cases hg
            exact r2 hd

theorem wait_le {w : World} {t : Nat → Nat} {c : Option String} : ∀ k i {τ}, poll w c (t (2 * (i + k) + 1)) (t (2 * (i + k) + 2)) = some τ →
    ∃ j τ', j ≤ k ∧ wait w t c (k + 1) i = some τ' ∧ (τ' = t (2 * (i + j) + 1) ∨ τ' = t (2 * (i + j) + 2)) := by
  have pres : ∀ τ1 τ2 τ, poll w c τ1 τ2 = some τ → τ = τ1 ∨ τ = τ2 := by
    intro τ1 τ2 τ h
    unfold poll at h
    split at h
    · cases h; exact .inl rfl
    · split at h
      · cases h; exact .inr rfl
      · split at h
        · cases h
        · cases h; exact .inr rfl
  intro k
  induction k with
  | zero =>
    intro i τ h
    refine ⟨0, τ, Nat.le_refl _, ?_, pres _ _ _ h⟩
    unfold wait
    rw [show i = i + 0 from rfl, h]
  | succ k ih =>
    intro i τ h
    cases hp : poll w c (t (2 * i + 1)) (t (2 * i + 2)) with
    | some τ' =>
      refine ⟨0, τ', by omega, ?_, pres _ _ _ hp⟩
      unfold wait; rw [hp]
    | none =>
      have e : i + (k + 1) = (i + 1) + k := by omega
      rw [e] at h
      obtain ⟨j, τ', hj, hl, ht⟩ := ih (i + 1) h
      refine ⟨j + 1, τ', by omega, ?_, by rw [show i + (j + 1) = i + 1 + j by omega]; exact ht⟩
      unfold wait; rw [hp]; exact hl

/-- C82: when the daemon has ended, the command returns at the latest after the next poll that begins after that, provided its number does
not go to a process with the same command line (`C82_replaced`). -/
theorem C82_returns_partial (d : Daemon) (w : World) (t : Nat → Nat) (T k : Nat) (hm : d.Mortal) (hv : w.visible .daemon = true)
    (hs0 : w.slot (t 0) = .daemon) (hr : NotReplaced d w (t 0)) (hT : d.alive T = false) (mono : ∀ i j, i ≤ j → t i ≤ t j) (hk : T ≤ t (2 * k + 1))
    (hb : w.busy = false) (hf : w.flushOk = true) (hu : w.umountOk = true) :
    ∃ τ, (blockingUmount w t (k + 1)).1 = .done τ ∧ τ ≤ t (2 * k + 2) := by
  have h2 : d.alive (t (2 * k + 2)) = false := hm T _ (Nat.le_trans hk (mono _ _ (by omega))) hT
  obtain ⟨τ, hp, -⟩ := poll_ended (τ1 := t (2 * k + 1)) hs0 hv hr h2
  have hp' : poll w (getCmdline w (t 0)) (t (2 * (0 + k) + 1)) (t (2 * (0 + k) + 2)) = some τ := by rw [Nat.zero_add]; exact hp
  obtain ⟨j, τ', hj, hl, ht⟩ := wait_le k 0 hp'
  refine ⟨τ', ?_, ?_⟩
  · unfold blockingUmount
    rw [hb, hf, hu]
    simp [hl]
  · rw [Nat.zero_add] at ht
    rcases ht with h | h
    · rw [h]; exact mono _ _ (by omega)
    · rw [h]; exact mono _ _ (by omega)

example : exD.Mortal ∧ exW.slot (id 0) = .daemon ∧ NotReplaced exD exW 0 ∧ exD.alive 5 = false := by
  refine ⟨?_, rfl, ?_, rfl⟩
  · intro τ τ' h h1
    have := of_decide_eq_false h1
    exact decide_eq_false (by omega)
  · intro τ h
    have := of_decide_eq_false h
    refine ⟨?_, ?_, by decide⟩
    · show (if τ < 5 then Slot.daemon else if τ < 7 then .zombie else .none) ≠ _
      rw [if_neg this]; split <;> simp
    · show (if τ < 5 then Slot.daemon else if τ < 7 then .zombie else .none) ≠ _
      rw [if_neg this]; split <;> simp

/-! #### Violations -/

/-- C82: what the daemon achieved does not matter.  A daemon that crashed, or could not upload the metadata, looks like one that has done
its work: exit code 0. -/
theorem C82_failed_daemon : ∃ (d : Daemon) (w : World), Watchable d w ∧ d.Mortal ∧ d.alive 0 = true ∧ (∀ τ, d.uploaded τ = false) ∧
    ∃ τ, (blockingUmount w id 10).1 = .done τ := by
  refine ⟨⟨exD.alive, fun _ => false⟩, exW, ⟨exWatch.seen, exWatch.fixed, rfl, rfl⟩, ?_, rfl, fun _ => rfl, 6, by decide⟩
  intro τ τ' h h1
  have := of_decide_eq_false h1
  exact decide_eq_false (by omega)

/-- A daemon that runs for ever and uploads nothing. -/
def busyD : Daemon := ⟨fun _ => true, fun _ => false⟩

/-- C82 is violated if the user may not send signals to the daemon: the refusal is taken for the end of it. -/
theorem C82_not_permitted : ∃ w : World, (∀ τ, w.slot τ = .daemon) ∧ w.maySignal .daemon = false ∧ busyD.Healthy ∧
    (∀ τ, busyD.alive τ = true ∧ busyD.uploaded τ = false) ∧ (blockingUmount w id 1).1 = .done 1 :=
  ⟨{ exW with slot := fun _ => .daemon, maySignal := fun _ => false }, fun _ => rfl, rfl, (fun _ h => nomatch h), (fun _ => ⟨rfl, rfl⟩), by decide⟩

/-- C82 is violated if `/proc` does not show the daemon. -/
theorem C82_hidden : ∃ w : World, (∀ τ, w.slot τ = .daemon) ∧ w.maySignal .daemon = true ∧ busyD.Healthy ∧
    (∀ τ, busyD.alive τ = true ∧ busyD.uploaded τ = false) ∧ (blockingUmount w id 1).1 = .done 2 :=
  ⟨{ exW with slot := fun _ => .daemon, visible := fun _ => false }, fun _ => rfl, rfl, (fun _ h => nomatch h), (fun _ => ⟨rfl, rfl⟩), by decide⟩

/-- C82 is violated if the daemon counts processes differently, for example in a container. -/
theorem C82_other_namespace : ∃ w : World, (∀ τ, w.slot τ = .none) ∧ busyD.Healthy ∧ (∀ τ, busyD.alive τ = true ∧ busyD.uploaded τ = false) ∧ (blockingUmount w id 1).1 = .done 1 :=
  ⟨{ exW with slot := fun _ => .none }, fun _ => rfl, (fun _ h => nomatch h), (fun _ => ⟨rfl, rfl⟩), by decide⟩

/-- C82 is violated if the daemon changes its command line. -/
theorem C82_renamed : ∃ w : World, (∀ τ, w.slot τ = .daemon) ∧ (∀ s, w.maySignal s = true ∧ w.visible s = true) ∧ busyD.Healthy ∧
    (∀ τ, busyD.alive τ = true ∧ busyD.uploaded τ = false) ∧ (blockingUmount w id 1).1 = .done 2 :=
  ⟨{ exW with slot := fun _ => .daemon, cmd := fun τ => if τ = 0 then "a" else "b" }, fun _ => rfl, fun _ => ⟨rfl, rfl⟩, (fun _ h => nomatch h), (fun _ => ⟨rfl, rfl⟩), by decide⟩

/-- If the number of the daemon goes to a process with the same command line, for instance to the same file system mounted again, then
the command never returns, however long the daemon has been gone. -/
theorem C82_replaced : ∃ (d : Daemon) (w : World), d.Mortal ∧ Watchable d w ∧ d.alive 1 = false ∧ w.slot 0 = .daemon ∧
    ∀ (t : Nat → Nat) (n : Nat), (blockingUmount w t n).1 = .waiting := by
  refine ⟨⟨fun τ => decide (τ < 1), fun _ => true⟩, { exW with slot := fun τ => if τ < 1 then .daemon else .other "mount.s3ql" }, ?_, ?_, rfl, rfl, ?_⟩
  · intro τ τ' h h1
    have := of_decide_eq_false h1
    exact decide_eq_false (by omega)
  · exact ⟨fun τ h => if_pos (of_decide_eq_true h), fun _ _ => rfl, rfl, rfl⟩
  · intro t n
    let w : World := { exW with slot := fun τ => if τ < 1 then .daemon else .other "mount.s3ql" }
    have g : ∀ τ, getCmdline w τ = some "mount.s3ql" := by
      intro τ
      show (match (if τ < 1 then Slot.daemon else .other "mount.s3ql") with | .none => Option.none | .daemon => some "mount.s3ql" | .zombie => some "" | .other c => some c) = _
      by_cases h : τ < 1
      · rw [if_pos h]
      · rw [if_neg h]
    have k : ∀ τ, kill w τ = true := by
      intro τ
      show (match (if τ < 1 then Slot.daemon else .other "mount.s3ql") with | .none => false | _ => true) = _
      by_cases h : τ < 1
      · rw [if_pos h]
      · rw [if_neg h]
    have p : ∀ a τ1 τ2, poll w (getCmdline w a) τ1 τ2 = Option.none := by
      intro a τ1 τ2
      unfold poll
      rw [k, g, g]; simp
    have l : ∀ a n i, wait w t (getCmdline w a) n i = Option.none := by
      intro a n
      induction n with
      | zero => intro i; rfl
      | succ n ih => intro i; unfold wait; rw [p]; exact ih _
    show (blockingUmount w t n).1 = _
    unfold blockingUmount
    rw [show w.busy = false from rfl, show w.flushOk = true from rfl, show w.umountOk = true from rfl]
    simp [l]

/-- With `--lazy` the command does not wait at all, as documented; it fails exactly if the file system stays mounted. -/
theorem C82_lazy (w : World) (t : Nat → Nat) : (w.umountOk = true → lazyUmount w t = (.done (t 0), true)) ∧ (w.umountOk = false → lazyUmount w t = (.failed, false)) := by
  unfold lazyUmount
  exact ⟨fun h => by rw [h]; rfl, fun h => by rw [h]; rfl⟩

end Verif.Tools.Umount
