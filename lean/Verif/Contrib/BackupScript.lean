import Verif.Util.AList
/-
C102: the backup script contrib/s3ql_backup.sh.

The commands that it calls are the environment: fsck.s3ql (C62, C66, C96), mount.s3ql (C100), s3qlcp (C24, C77), s3qllock (C22), rsync, expire_backups.py (C45, C97) and
umount.s3ql (C82).  Each may succeed, fail with any non-zero exit status, or be interrupted by the death of the computer, and leave whatever a part of its work may leave.
-/
namespace Verif.Contrib.BackupScript

/-! #### Model -/

/-- A directory with a backup: its contents (of any type) and whether it is immutable. -/
structure Entry (α : Type) where
  content : α
  locked : Bool
  deriving DecidableEq, Repr

/-- The backups in the file system, and whether it was unmounted cleanly.  The name of a backup is the time at which it was begun, in a format of fixed width
(s3ql_backup.sh:33), so that sorting names as strings (line 27) sorts by time; it is modelled by a number. -/
structure State (α : Type) where
  dirs : List (Nat × Entry α)
  clean : Bool
  deriving DecidableEq, Repr

/-- How a command ends. -/
inductive Cmd (β : Type) where
  | ok
  /-- the command does not succeed and leaves `left`; `code`: its exit status is `code + 1` resp. the computer dies -/
  | stops (code : Option Nat) (left : β)
  deriving DecidableEq, Repr

/-- Everything a run depends on. -/
structure Env (α : Type) where
  /-- fsck ends with exit status `c + 1` for a reason other than that it corrected errors -/
  fsckFails : Option Nat
  /-- fsck finds something to correct if the file system was not unmounted cleanly -/
  found : Bool
  /-- `mkdir` or mount ends with exit status `c + 1` -/
  mountFails : Option Nat
  /-- the time, which becomes the name of the backup -/
  now : Nat
  /-- the data to be backed up, without the files that are excluded -/
  src : α
  /-- s3qlcp; what it leaves if it does not succeed: nothing or a directory with any contents -/
  cp : Cmd (Option α)
  /-- s3qllock of the previous backup; is the directory immutable although it does not succeed? -/
  lockLast : Cmd Bool
  /-- rsync; what it leaves: nothing new or any contents -/
  rsync : Cmd (Option α)
  lockNew : Cmd Bool
  /-- the backups that expire_backups.py deletes.  Simplification: a backup of which a part was deleted counts as deleted. -/
  del : List Nat
  expire : Cmd Unit
  /-- umount or rmdir ends with exit status `c + 1`, and the file system is not unmounted -/
  umountFails : Option Nat
  deriving DecidableEq, Repr

/-- `set -e` (s3ql_backup.sh:4): the script goes on (`none`), ends with a status, or the computer dies. -/
inductive Stop where
  | status (c : Nat)
  | died
  deriving DecidableEq, Repr

def Stop.of : Option Nat → Stop
  | some c => .status (c + 1)
  | none => .died

variable {α : Type}

/-- Lines 24-30: the most recent backup. -/
def newest (d : List (Nat × Entry α)) : Option Nat := (d.map (·.1)).max?

/-- `s3qlcp l now` (line 36).  It refuses a target that exists (cp.py:63-64, status 1); the copy is not immutable (fs.py:504-638; C24). -/
def copy (e : Env α) (d : List (Nat × Entry α)) (l : Nat) : List (Nat × Entry α) × Option Stop :=
  match AL.get d e.now, AL.get d l with
  | some _, _ => (d, some (.status 1))
  | none, none => (d, some (.status 1))
  | none, some x =>
    match e.cp with
    | .ok => (AL.set d e.now ⟨x.content, false⟩, none)
    | .stops c none => (d, some (.of c))
    | .stops c (some y) => (AL.set d e.now ⟨y, false⟩, some (.of c))

/-- `s3qllock n` (lines 40 and 52). -/
def lock (r : Cmd Bool) (d : List (Nat × Entry α)) (n : Nat) : List (Nat × Entry α) × Option Stop :=
  match AL.get d n with
  | none => (d, some (.status 1))
  | some x =>
    match r with
    | .ok => (AL.set d n ⟨x.content, true⟩, none)
    | .stops c done => (AL.set d n ⟨x.content, x.locked || done⟩, some (.of c))

/-- rsync (lines 44-49).  It makes the target equal to the source; it cannot change immutable files (C22). -/
def sync (e : Env α) (d : List (Nat × Entry α)) : List (Nat × Entry α) × Option Stop :=
  match AL.get d e.now with
  | some ⟨_, true⟩ => (d, some (.status 23))
  | _ =>
    match e.rsync with
    | .ok => (AL.set d e.now ⟨e.src, false⟩, none)
    | .stops c none => (d, some (.of c))
    | .stops c (some y) => (AL.set d e.now ⟨y, false⟩, some (.of c))

/-- `expire_backups.py` (line 60). -/
def expire (e : Env α) (d : List (Nat × Entry α)) : List (Nat × Entry α) × Option Stop :=
  (e.del.foldl AL.erase d, match e.expire with | .ok => none | .stops c _ => some (.of c))

/-- One command after the other, until one does not succeed. -/
def andThen (r : List (Nat × Entry α) × Option Stop) (f : List (Nat × Entry α) → List (Nat × Entry α) × Option Stop) : List (Nat × Entry α) × Option Stop :=
  match r.2 with
  | some s => (r.1, some s)
  | none => f r.1

/-- Lines 33-41. -/
def prepare (e : Env α) (d : List (Nat × Entry α)) : List (Nat × Entry α) × Option Stop :=
  match newest d with
  | none => (d, none)
  | some l => andThen (copy e d l) (fun d => lock e.lockLast d l)

/-- Lines 23-60, with the file system mounted. -/
def body (e : Env α) (d : List (Nat × Entry α)) : List (Nat × Entry α) × Option Stop :=
  andThen (prepare e d) (fun d => andThen (sync e d) (fun d => andThen (lock e.lockNew d e.now) (expire e)))

/-- The trap (line 20): the exit status of the script is that of the first command that fails, unless a command of the trap fails, whose status replaces it.  If the
computer dies, there is no unmount (the status 137 stands for that). -/
def leave (e : Env α) (d : List (Nat × Entry α)) : Option Stop → State α × Nat
  | some .died => (⟨d, false⟩, 137)
  | some (.status c) =>
    match e.umountFails with
    | none => (⟨d, true⟩, c)
    | some u => (⟨d, false⟩, u + 1)
  | none =>
    match e.umountFails with
    | none => (⟨d, true⟩, 0)
    | some u => (⟨d, false⟩, u + 1)

/-- A run of the script: the backups afterwards and the exit status.  fsck (line 10) does nothing if the file system was unmounted cleanly, and has exit status 128 if it
corrected errors (fsck.py:1495-1498; C96); either way the backups are as before. -/
def run (e : Env α) (s : State α) : State α × Nat :=
  match e.fsckFails with
  | some c => (s, c + 1)
  | none =>
    if !s.clean && e.found then (⟨s.dirs, true⟩, 128)
    else
      match e.mountFails with
      | some c => (⟨s.dirs, true⟩, c + 1)
      | none => leave e (body e s.dirs).1 (body e s.dirs).2

/-- Runs one after the other, from an empty file system. -/
def exec (es : List (Env α)) : State α := es.foldl (fun s e => (run e s).1) ⟨[], true⟩

/-! #### Specification -/

/-- The run is not disturbed: every command succeeds. -/
def Undisturbed (e : Env α) : Prop :=
  e.fsckFails = none ∧ e.mountFails = none ∧ e.cp = .ok ∧ e.lockLast = .ok ∧ e.rsync = .ok ∧ e.lockNew = .ok ∧ e.expire = .ok ∧ e.umountFails = none

/-- What may happen to an existing backup in one run: it is deleted by expire_backups.py, or keeps its contents and does not become mutable. -/
def Safe (e : Env α) (d d' : List (Nat × Entry α)) : Prop :=
  ∀ n x, AL.get d n = some x → (AL.get d' n = none ∧ n ∈ e.del) ∨ ∃ x', AL.get d' n = some x' ∧ x'.content = x.content ∧ (x.locked = true → x'.locked = true)

/-! #### Proofs -/

/-- As long as nothing is deleted. -/
def Grows (d d' : List (Nat × Entry α)) : Prop :=
  ∀ n x, AL.get d n = some x → ∃ x', AL.get d' n = some x' ∧ x'.content = x.content ∧ (x.locked = true → x'.locked = true)

theorem Grows.refl (d : List (Nat × Entry α)) : Grows d d := fun _ x h => ⟨x, h, rfl, id⟩

theorem Grows.trans {a b c : List (Nat × Entry α)} (h1 : Grows a b) (h2 : Grows b c) : Grows a c := by
  intro n x hx
  obtain ⟨y, hy, hc, hl⟩ := h1 n x hx
  obtain ⟨z, hz, hc', hl'⟩ := h2 n y hy
  exact ⟨z, hz, hc'.trans hc, fun h => hl' (hl h)⟩

theorem grows_set {d : List (Nat × Entry α)} {n : Nat} {v : Entry α} (h : AL.get d n = none) : Grows d (AL.set d n v) := by
  intro k x hx
  have hne : k ≠ n := by intro e; rw [e, h] at hx; cases hx
  exact ⟨x, by rw [AL.get_set, if_neg hne]; exact hx, rfl, id⟩

theorem copy_none {e : Env α} {d d' : List (Nat × Entry α)} {l : Nat} {st : Option Stop} (h : copy e d l = (d', st)) :
    (AL.get d e.now = none ∧ st = none ∧ e.cp = .ok ∧ ∃ x, AL.get d l = some x ∧ d' = AL.set d e.now ⟨x.content, false⟩) ∨
    (st ≠ none ∧ (d' = d ∨ (AL.get d e.now = none ∧ ∃ y, d' = AL.set d e.now ⟨y, false⟩))) := by
  unfold copy at h
  split at h
  · cases h; exact Or.inr ⟨(fun h => nomatch h), Or.inl rfl⟩
  · cases h; exact Or.inr ⟨(fun h => nomatch h), Or.inl rfl⟩
  · rename_i x hn hl
    split at h
    · rename_i hc; cases h; exact Or.inl ⟨hn, rfl, hc, x, hl, rfl⟩
    · cases h; exact Or.inr ⟨(fun h => nomatch h), Or.inl rfl⟩
    · rename_i y _; cases h; exact Or.inr ⟨(fun h => nomatch h), Or.inr ⟨hn, y, rfl⟩⟩

theorem lock_spec {r : Cmd Bool} {d d' : List (Nat × Entry α)} {n : Nat} {st : Option Stop} (h : lock r d n = (d', st)) :
    (st = none ∧ r = .ok ∧ ∃ x, AL.get d n = some x ∧ d' = AL.set d n ⟨x.content, true⟩) ∨
    (st ≠ none ∧ (d' = d ∨ ∃ x b, AL.get d n = some x ∧ d' = AL.set d n ⟨x.content, x.locked || b⟩)) := by
  unfold lock at h
  split at h
  · cases h; exact Or.inr ⟨(fun h => nomatch h), Or.inl rfl⟩
  · rename_i x hx
    split at h
    · cases h; exact Or.inl ⟨rfl, rfl, x, hx, rfl⟩
    · rename_i c b; cases h; exact Or.inr ⟨(fun h => nomatch h), Or.inr ⟨x, b, hx, rfl⟩⟩

theorem lock_grows {r : Cmd Bool} {d d' : List (Nat × Entry α)} {n : Nat} {st : Option Stop} (h : lock r d n = (d', st)) : Grows d d' := by
  have set : ∀ x (b : Bool), AL.get d n = some x → (x.locked = true → b = true) → Grows d (AL.set d n ⟨x.content, b⟩) := by
    intro x b hx hb k y hy
    rw [AL.get_set]
    split
    · rename_i e; subst e; rw [hx] at hy; cases hy; exact ⟨_, rfl, rfl, hb⟩
    · exact ⟨y, hy, rfl, id⟩
  rcases lock_spec h with ⟨_, _, x, hx, rfl⟩ | ⟨_, rfl | ⟨x, b, hx, rfl⟩⟩
  · exact set x true hx (fun _ => rfl)
  · exact Grows.refl _
  · exact set x _ hx (fun hl => by rw [hl]; rfl)

theorem lock_same {r : Cmd Bool} {d d' : List (Nat × Entry α)} {n k : Nat} {st : Option Stop} (h : lock r d n = (d', st)) (hk : k ≠ n) : AL.get d' k = AL.get d k := by
  rcases lock_spec h with ⟨_, _, x, hx, rfl⟩ | ⟨_, rfl | ⟨x, b, hx, rfl⟩⟩
  · rw [AL.get_set, if_neg hk]
  · rfl
  · rw [AL.get_set, if_neg hk]

theorem newest_some {d : List (Nat × Entry α)} {l : Nat} (h : newest d = some l) : (∃ x, AL.get d l = some x) ∧ ∀ n x, AL.get d n = some x → n ≤ l := by
  unfold newest at h
  rw [List.max?_eq_some_iff] at h
  refine ⟨?_, fun n x hx => h.2 n ?_⟩
  · cases hg : AL.get d l with
    | some x => exact ⟨x, rfl⟩
    | none => exact absurd h.1 ((AL.get_none_iff d l).1 hg)
  · exact List.mem_map.2 ⟨(n, x), AL.get_some_mem hx, rfl⟩

theorem newest_none {d : List (Nat × Entry α)} (h : newest d = none) : d = [] := by
  unfold newest at h
  rw [List.max?_eq_none_iff, List.map_eq_nil_iff] at h
  exact h

/-- Before rsync: the name is new, and the directory is a mutable copy or absent. -/
theorem prepare_spec {e : Env α} {d d' : List (Nat × Entry α)} {st : Option Stop} (h : prepare e d = (d', st)) :
    Grows d d' ∧ (st = none → AL.get d e.now = none ∧ ∀ x, AL.get d' e.now = some x → x.locked = false) := by
  unfold prepare at h
  cases hn : newest d with
  | none =>
    rw [hn] at h
    cases h
    refine ⟨Grows.refl _, fun _ => ?_⟩
    rw [newest_none hn]
    exact ⟨rfl, (fun _ h => nomatch h)⟩
  | some l =>
    rw [hn] at h
    dsimp only at h
    obtain ⟨⟨y, hy⟩, _⟩ := newest_some hn
    unfold andThen at h
    cases hc : copy e d l with
    | mk d1 s1 =>
      rw [hc] at h
      rcases copy_none hc with ⟨h1, h2, _, x, hx, h3⟩ | ⟨h1, h2⟩
      · subst h2; subst h3
        dsimp only at h
        refine ⟨(grows_set h1).trans (lock_grows h), fun _ => ⟨h1, fun z hz => ?_⟩⟩
        have hne : e.now ≠ l := by intro he; rw [he, hy] at h1; cases h1
        rw [lock_same h hne, AL.get_set, if_pos rfl] at hz
        cases hz; rfl
      · cases s1 with
        | none => exact absurd rfl h1
        | some s =>
          dsimp only at h
          cases h
          refine ⟨?_, (fun h => nomatch h)⟩
          rcases h2 with rfl | ⟨hg, z, rfl⟩
          · exact Grows.refl _
          · exact grows_set hg

theorem sync_spec {e : Env α} {d d' : List (Nat × Entry α)} {st : Option Stop} (h : sync e d = (d', st)) :
    (∀ n, n ≠ e.now → AL.get d' n = AL.get d n) ∧ (st = none → e.rsync = .ok ∧ AL.get d' e.now = some ⟨e.src, false⟩) := by
  unfold sync at h
  split at h
  · cases h; exact ⟨fun _ _ => rfl, (fun h => nomatch h)⟩
  · split at h
    · rename_i hr; cases h; exact ⟨fun n hn => by rw [AL.get_set, if_neg hn], fun _ => ⟨hr, AL.get_set_self _ _ _⟩⟩
    · cases h; exact ⟨fun _ _ => rfl, (fun h => nomatch h)⟩
    · cases h; exact ⟨fun n hn => by rw [AL.get_set, if_neg hn], (fun h => nomatch h)⟩

theorem get_deleted (del : List Nat) (d : List (Nat × Entry α)) (n : Nat) : AL.get (del.foldl AL.erase d) n = if n ∈ del then none else AL.get d n := by
  induction del generalizing d with
  | nil => simp
  | cons k t ih =>
    rw [List.foldl_cons, ih, AL.get_erase]
    by_cases h1 : n = k <;> by_cases h2 : n ∈ t <;> simp [h1, h2]

theorem Grows.safe {e : Env α} {d d' : List (Nat × Entry α)} (h : Grows d d') : Safe e d d' := fun n x hx => Or.inr (h n x hx)

/-- After rsync. -/
theorem body_spec {e : Env α} {d d' : List (Nat × Entry α)} {st : Option Stop} (h : body e d = (d', st)) :
    Safe e d d' ∧ (st = none → AL.get d e.now = none ∧ ((e.now ∈ e.del ∧ AL.get d' e.now = none) ∨ AL.get d' e.now = some ⟨e.src, true⟩)) := by
  unfold body at h
  cases hp : prepare e d with
  | mk d1 s1 =>
    rw [hp] at h
    obtain ⟨g1, n1⟩ := prepare_spec hp
    unfold andThen at h
    cases s1 with
    | some s => cases h; exact ⟨g1.safe, (fun h => nomatch h)⟩
    | none =>
      obtain ⟨hnew, hmut⟩ := n1 rfl
      dsimp only at h
      cases hs : sync e d1 with
      | mk d2 s2 =>
        rw [hs] at h
        obtain ⟨k2, n2⟩ := sync_spec hs
        have g2 : Grows d d2 := by
          intro n x hx
          have hne : n ≠ e.now := by intro he; rw [he, hnew] at hx; cases hx
          rw [k2 n hne]; exact g1 n x hx
        cases s2 with
        | some s => cases h; exact ⟨g2.safe, (fun h => nomatch h)⟩
        | none =>
          obtain ⟨_, h2⟩ := n2 rfl
          dsimp only at h
          cases hl : lock e.lockNew d2 e.now with
          | mk d3 s3 =>
            rw [hl] at h
            have g3 := g2.trans (lock_grows hl)
            cases s3 with
            | some s => cases h; exact ⟨g3.safe, (fun h => nomatch h)⟩
            | none =>
              dsimp only at h
              have h3 : AL.get d3 e.now = some ⟨e.src, true⟩ := by
                rcases lock_spec hl with ⟨_, _, x, hx, rfl⟩ | ⟨hx, _⟩
                · rw [h2] at hx; cases hx; exact AL.get_set_self _ _ _
                · exact absurd rfl hx
              unfold expire at h
              have hd := (Prod.mk.inj h).1
              subst hd
              refine ⟨?_, fun _ => ⟨hnew, ?_⟩⟩
              · intro n x hx
                rw [get_deleted]
                split
                · rename_i hm; exact Or.inl ⟨rfl, hm⟩
                · exact Or.inr (g3 n x hx)
              · rw [get_deleted]
                split
                · rename_i hm; exact Or.inl ⟨hm, rfl⟩
                · exact Or.inr h3

theorem leave_dirs (e : Env α) (d : List (Nat × Entry α)) (st : Option Stop) : (leave e d st).1.dirs = d := by
  unfold leave
  split
  · rfl
  · split <;> rfl
  · split <;> rfl

theorem leave_zero {e : Env α} {d : List (Nat × Entry α)} {st : Option Stop} (hst : ∀ c, st = some (.status c) → c ≠ 0) (h : (leave e d st).2 = 0) :
    st = none ∧ e.umountFails = none ∧ (leave e d st).1.clean = true := by
  unfold leave at h ⊢
  split at h
  · cases h
  · rename_i c
    split at h
    · exact absurd h (hst c rfl)
    · cases h
  · split at h
    · rename_i hu; exact ⟨rfl, hu, rfl⟩
    · cases h

/-- A command that does not succeed has a status other than 0. -/
theorem of_ne (c : Option Nat) (k : Nat) (h : some (Stop.of c) = some (.status k)) : k ≠ 0 := by
  cases c with
  | none => cases h
  | some c => cases h; exact Nat.succ_ne_zero c

def NonZero (r : List (Nat × Entry α) × Option Stop) : Prop := ∀ c, r.2 = some (.status c) → c ≠ 0

theorem nonzero_andThen {r : List (Nat × Entry α) × Option Stop} {f : List (Nat × Entry α) → List (Nat × Entry α) × Option Stop} (h1 : NonZero r) (h2 : ∀ d, NonZero (f d)) :
    NonZero (andThen r f) := by
  unfold andThen
  split
  · rename_i s hs; intro c hc; exact h1 c (by rw [hs]; exact hc)
  · exact h2 _

theorem nonzero_lock (r : Cmd Bool) (d : List (Nat × Entry α)) (n : Nat) : NonZero (lock r d n) := by
  unfold lock
  split
  · intro c hc; cases hc; decide
  · split
    · intro c hc; cases hc
    · exact fun c hc => of_ne _ c hc

theorem nonzero_copy (e : Env α) (d : List (Nat × Entry α)) (l : Nat) : NonZero (copy e d l) := by
  unfold copy
  split
  · intro c hc; cases hc; decide
  · intro c hc; cases hc; decide
  · split
    · intro c hc; cases hc
    · exact fun c hc => of_ne _ c hc
    · exact fun c hc => of_ne _ c hc

theorem nonzero_sync (e : Env α) (d : List (Nat × Entry α)) : NonZero (sync e d) := by
  unfold sync
  split
  · intro c hc; cases hc; decide
  · split
    · intro c hc; cases hc
    · exact fun c hc => of_ne _ c hc
    · exact fun c hc => of_ne _ c hc

theorem nonzero_expire (e : Env α) (d : List (Nat × Entry α)) : NonZero (expire e d) := by
  unfold expire
  intro c hc
  dsimp only at hc
  split at hc
  · cases hc
  · exact of_ne _ c hc

theorem nonzero_prepare (e : Env α) (d : List (Nat × Entry α)) : NonZero (prepare e d) := by
  unfold prepare
  split
  · intro c hc; cases hc
  · exact nonzero_andThen (nonzero_copy e d _) (fun _ => nonzero_lock _ _ _)

theorem nonzero_body (e : Env α) (d : List (Nat × Entry α)) : NonZero (body e d) :=
  nonzero_andThen (nonzero_prepare e d) (fun _ => nonzero_andThen (nonzero_sync e _) (fun _ => nonzero_andThen (nonzero_lock _ _ _) (fun _ => nonzero_expire e _)))

/-- What a run does to the backups. -/
theorem run_dirs (e : Env α) (s : State α) : (run e s).1.dirs = s.dirs ∨ (run e s).1.dirs = (body e s.dirs).1 := by
  unfold run
  split
  · exact Or.inl rfl
  · split
    · exact Or.inl rfl
    · split
      · exact Or.inl rfl
      · exact Or.inr (leave_dirs _ _ _)

theorem run_zero {e : Env α} {s : State α} (h : (run e s).2 = 0) :
    (body e s.dirs).2 = none ∧ (run e s).1.dirs = (body e s.dirs).1 ∧ (run e s).1.clean = true := by
  unfold run at h ⊢
  split at h
  · cases h
  · split at h
    · cases h
    · rename_i hf
      split at h
      · cases h
      · rename_i hm
        rw [if_neg hf]
        obtain ⟨h1, _, h3⟩ := leave_zero (nonzero_body e s.dirs) h
        exact ⟨h1, leave_dirs _ _ _, h3⟩

/-! #### Theorems -/

/-- C102: exit status 0 means that there is a new, immutable backup with exactly the data of the source (unless expire_backups.py was configured to delete it at once:
C97), and that the file system is unmounted, which means that everything is stored (C82, C89). -/
theorem C102_success (e : Env α) (s : State α) (h : (run e s).2 = 0) :
    AL.get s.dirs e.now = none ∧ (AL.get (run e s).1.dirs e.now = some ⟨e.src, true⟩ ∨ (e.now ∈ e.del ∧ AL.get (run e s).1.dirs e.now = none)) ∧ (run e s).1.clean = true := by
  obtain ⟨h1, h2, h3⟩ := run_zero h
  obtain ⟨_, hb⟩ := body_spec (show body e s.dirs = ((body e s.dirs).1, (body e s.dirs).2) from rfl)
  obtain ⟨hn, hd⟩ := hb h1
  refine ⟨hn, ?_, h3⟩
  rw [h2]
  exact hd.symm

/-- C102: whatever happens in a run — any command fails or is interrupted — no existing backup is changed or becomes mutable; only expire_backups.py deletes backups. -/
theorem C102_unchanged (e : Env α) (s : State α) (n : Nat) (x : Entry α) (h : AL.get s.dirs n = some x) :
    (AL.get (run e s).1.dirs n = none ∧ n ∈ e.del) ∨
    ∃ x', AL.get (run e s).1.dirs n = some x' ∧ x'.content = x.content ∧ (x.locked = true → x'.locked = true) := by
  rcases run_dirs e s with hr | hr
  · rw [hr]; exact Or.inr ⟨x, h, rfl, id⟩
  · rw [hr]; exact (body_spec (show body e s.dirs = ((body e s.dirs).1, (body e s.dirs).2) from rfl)).1 n x h

/-- C102: what a run with exit status 0 has stored stays, through any number of runs that succeed, fail or are interrupted, until expire_backups.py deletes it. -/
theorem C102_kept (es : List (Env α)) (e : Env α) (later : List (Env α)) (h : (run e (exec es)).2 = 0) (hdel : ∀ e' ∈ e :: later, e.now ∉ e'.del) :
    AL.get (exec (es ++ e :: later)).dirs e.now = some ⟨e.src, true⟩ := by
  unfold exec at h ⊢
  rw [List.foldl_append, List.foldl_cons]
  generalize es.foldl (fun s e => (run e s).1) ⟨[], true⟩ = s at h
  obtain ⟨_, h1, _⟩ := C102_success e s h
  replace h1 := h1.resolve_right (fun h => hdel e List.mem_cons_self h.1)
  replace hdel : ∀ e' ∈ later, e.now ∉ e'.del := fun e' h => hdel e' (List.mem_cons_of_mem _ h)
  generalize (run e s).1 = s1 at h1
  clear h
  induction later generalizing s1 with
  | nil => exact h1
  | cons e1 l ih =>
    rw [List.foldl_cons]
    refine ih (fun e' h => hdel e' (List.mem_cons_of_mem _ h)) _ ?_
    rcases C102_unchanged e1 s1 _ _ h1 with ⟨_, hd⟩ | ⟨⟨c, b⟩, hx, hc, hl⟩
    · exact absurd hd (hdel e1 List.mem_cons_self)
    · have hb : b = true := hl rfl
      cases hb
      cases (show c = e.src from hc)
      exact hx

/-- C102: an undisturbed run succeeds, if the file system was unmounted cleanly or there is nothing to correct, and the name is new. -/
theorem C102_succeeds (e : Env α) (s : State α) (hu : Undisturbed e) (hc : s.clean = true ∨ e.found = false) (hn : AL.get s.dirs e.now = none) : (run e s).2 = 0 := by
  obtain ⟨u1, u2, u3, u4, u5, u6, u7, u8⟩ := hu
  have hb : (body e s.dirs).2 = none := by
    have hp : (prepare e s.dirs).2 = none := by
      unfold prepare
      cases hl : newest s.dirs with
      | none => rfl
      | some l =>
        obtain ⟨⟨x, hx⟩, _⟩ := newest_some hl
        have hne : l ≠ e.now := by intro he; rw [he, hn] at hx; cases hx
        dsimp only
        unfold copy andThen lock
        rw [hn, hx, u3, u4]
        dsimp only
        rw [AL.get_set, if_neg hne, hx]
    cases hpe : prepare e s.dirs with
    | mk d1 s1 =>
      rw [hpe] at hp
      cases (show s1 = none from hp)
      obtain ⟨_, hm⟩ := prepare_spec hpe
      obtain ⟨_, hm⟩ := hm rfl
      unfold body
      rw [hpe]
      unfold andThen
      dsimp only
      have hs : sync e d1 = (AL.set d1 e.now ⟨e.src, false⟩, none) := by
        unfold sync
        rw [u5]
        split
        · rename_i c hg; have := hm _ hg; cases this
        · rfl
      rw [hs]
      dsimp only
      have hl : lock e.lockNew (AL.set d1 e.now ⟨e.src, false⟩) e.now = (AL.set (AL.set d1 e.now ⟨e.src, false⟩) e.now ⟨e.src, true⟩, none) := by
        unfold lock
        rw [AL.get_set, if_pos rfl, u6]
      rw [hl]
      dsimp only
      unfold expire
      rw [u7]
  unfold run
  rw [u1]
  dsimp only
  rw [if_neg (by rcases hc with h | h <;> rw [h] <;> simp), u2]
  dsimp only
  rw [hb]
  unfold leave
  dsimp only
  rw [u8]

/-- C102, violated: if the computer died during a run and fsck has something to correct, the next run corrects it and then ends with status 128: `set -e` takes this for a
failure.  No backup is made, although nothing is wrong any more; only the run after it works again. -/
theorem C102_no_backup_after_crash (e : Env α) (s : State α) (h1 : e.fsckFails = none) (hc : s.clean = false) (hf : e.found = true) :
    run e s = (⟨s.dirs, true⟩, 128) := by
  unfold run
  rw [h1]
  dsimp only
  rw [if_pos (by rw [hc, hf]; rfl)]

/-- The same for a run `e` in which the computer dies in rsync, whatever happened before, and the two runs after it, which are not disturbed: the first one makes no backup, the
second one does. -/
theorem C102_two_runs_needed (e e1 e2 : Env α) (s : State α) (left : Option α) (hu : Undisturbed { e with rsync := .ok }) (hc : s.clean = true) (hn : AL.get s.dirs e.now = none)
    (hd : e.rsync = .stops none left) (hu1 : Undisturbed e1) (hf : e1.found = true) (hu2 : Undisturbed e2) (hn2 : AL.get (run e s).1.dirs e2.now = none) :
    (run e1 (run e s).1) = (⟨(run e s).1.dirs, true⟩, 128) ∧ (run e2 (run e1 (run e s).1).1).2 = 0 := by
  obtain ⟨u1, u2, u3, u4, _, u6, u7, u8⟩ := hu
  have hb : (body e s.dirs).2 = some .died := by
    have hp : (prepare e s.dirs).2 = none := by
      unfold prepare
      cases hl : newest s.dirs with
      | none => rfl
      | some l =>
        obtain ⟨⟨x, hx⟩, _⟩ := newest_some hl
        have hne : l ≠ e.now := by intro he; rw [he, hn] at hx; cases hx
        dsimp only
        unfold copy andThen lock
        rw [hn, hx, show e.cp = .ok from u3, show e.lockLast = .ok from u4]
        dsimp only
        rw [AL.get_set, if_neg hne, hx]
    cases hpe : prepare e s.dirs with
    | mk d1 s1 =>
      rw [hpe] at hp
      cases (show s1 = none from hp)
      obtain ⟨_, hm⟩ := prepare_spec hpe
      obtain ⟨_, hm⟩ := hm rfl
      unfold body
      rw [hpe]
      unfold andThen
      dsimp only
      have hs : (sync e d1).2 = some .died := by
        unfold sync
        rw [hd]
        split
        · rename_i c hg; have := hm _ hg; cases this
        · cases left <;> rfl
      rw [hs]
  have hcl : (run e s).1.clean = false := by
    unfold run
    rw [show e.fsckFails = none from u1]
    dsimp only
    rw [if_neg (by rw [hc]; simp), show e.mountFails = none from u2]
    dsimp only
    rw [hb]
    rfl
  have h1 := C102_no_backup_after_crash e1 (run e s).1 hu1.1 hcl hf
  refine ⟨h1, ?_⟩
  rw [h1]
  exact C102_succeeds e2 _ hu2 (Or.inl rfl) hn2

/-- The other way round, this is the only way in which an undisturbed run with a new name fails. -/
theorem C102_status_partial (e : Env α) (s : State α) (hu : Undisturbed e) (hn : AL.get s.dirs e.now = none) :
    (run e s).2 = 0 ∨ ((run e s).2 = 128 ∧ s.clean = false ∧ e.found = true ∧ (run e s).1 = ⟨s.dirs, true⟩) := by
  cases hc : s.clean with
  | true => exact Or.inl (C102_succeeds e s hu (Or.inl hc) hn)
  | false =>
    cases hf : e.found with
    | false => exact Or.inl (C102_succeeds e s hu (Or.inr hf) hn)
    | true => rw [C102_no_backup_after_crash e s hu.1 hc hf]; exact Or.inr ⟨rfl, rfl, rfl, rfl⟩

/-- A run in which everything works. -/
def fine (now : Nat) (src : List Nat) : Env (List Nat) :=
  { fsckFails := none, found := true, mountFails := none, now := now, src := src, cp := .ok, lockLast := .ok, rsync := .ok, lockNew := .ok, del := [], expire := .ok, umountFails := none }

/-- C102, violated: the directory that an interrupted run leaves looks like a backup, and the next run makes it immutable.  It may be equal to no state of the source: here the file 1 was
already replaced by 2, and 3 not yet by 4. -/
theorem C102_mixture_locked :
    exec [fine 1 [1, 3], { fine 2 [2, 4] with rsync := .stops (some 19) (some [2, 3]) }, fine 3 [2, 4]] =
      ⟨[(1, ⟨[1, 3], true⟩), (2, ⟨[2, 3], true⟩), (3, ⟨[2, 4], true⟩)], true⟩ := by decide +kernel

theorem body_old {e : Env α} {d : List (Nat × Entry α)} {n l : Nat} {x : Entry α} (hl : newest d = some l) (hne : n ≠ l) (hnow : n ≠ e.now) (hx : AL.get d n = some x) :
    AL.get (body e d).1 n = none ∨ AL.get (body e d).1 n = some x := by
  have hp : AL.get (prepare e d).1 n = some x := by
    unfold prepare
    rw [hl]
    dsimp only
    cases hc : copy e d l with
    | mk d1 s1 =>
      have h1 : AL.get d1 n = some x := by
        rcases copy_none hc with ⟨_, _, _, y, _, rfl⟩ | ⟨_, rfl | ⟨_, y, rfl⟩⟩
        · rw [AL.get_set, if_neg hnow]; exact hx
        · exact hx
        · rw [AL.get_set, if_neg hnow]; exact hx
      unfold andThen
      cases s1 with
      | some s => exact h1
      | none =>
        dsimp only
        rw [lock_same (show lock e.lockLast d1 l = ((lock e.lockLast d1 l).1, (lock e.lockLast d1 l).2) from rfl) hne]
        exact h1
  unfold body
  cases hpe : prepare e d with
  | mk d1 s1 =>
    rw [hpe] at hp
    unfold andThen
    cases s1 with
    | some s => exact Or.inr hp
    | none =>
      dsimp only
      cases hs : sync e d1 with
      | mk d2 s2 =>
        have h2 : AL.get d2 n = some x := by rw [(sync_spec hs).1 n hnow]; exact hp
        cases s2 with
        | some s => exact Or.inr h2
        | none =>
          dsimp only
          cases hlk : lock e.lockNew d2 e.now with
          | mk d3 s3 =>
            have h3 : AL.get d3 n = some x := by rw [lock_same hlk hnow]; exact h2
            cases s3 with
            | some s => exact Or.inr h3
            | none =>
              dsimp only
              unfold expire
              dsimp only
              rw [get_deleted]
              split
              · exact Or.inl rfl
              · exact Or.inr h3

/-- C102, violated: only the newest directory is ever made immutable later.  A run never makes an older one immutable. -/
theorem C102_older_never_locked (e : Env α) (s : State α) (n l : Nat) (x : Entry α) (hl : newest s.dirs = some l) (hlt : n < l) (hnow : n ≠ e.now) (hx : AL.get s.dirs n = some x) :
    AL.get (run e s).1.dirs n = none ∨ AL.get (run e s).1.dirs n = some x := by
  rcases run_dirs e s with hr | hr
  · rw [hr]; exact Or.inr hx
  · rw [hr]; exact body_old hl (by omega) hnow hx

/-- So if a run is interrupted in rsync and the next one in s3qlcp (which comes before s3qllock), a directory remains that stays mutable. -/
theorem C102_mutable_left :
    exec [fine 1 [1], { fine 2 [2] with rsync := .stops (some 19) (some [2]) }, { fine 3 [3] with cp := .stops (some 19) (some []) }, fine 4 [4], fine 5 [5]] =
      ⟨[(1, ⟨[1], true⟩), (2, ⟨[2], false⟩), (3, ⟨[], true⟩), (4, ⟨[4], true⟩), (5, ⟨[5], true⟩)], true⟩ := by decide +kernel

/-- Every directory but the newest is immutable. -/
def OlderLocked (d : List (Nat × Entry α)) : Prop := ∀ n x l, newest d = some l → AL.get d n = some x → n ≠ l → x.locked = true

/-- All directories but the one of this run are immutable and older. -/
def Old (e : Env α) (d : List (Nat × Entry α)) : Prop := ∀ n x, AL.get d n = some x → n ≠ e.now → x.locked = true ∧ n < e.now

theorem Old.locked {e : Env α} {d : List (Nat × Entry α)} (h : Old e d) : OlderLocked d := by
  intro n x l hl hx hne
  by_cases hn : n = e.now
  · obtain ⟨⟨y, hy⟩, hmax⟩ := newest_some hl
    have h1 := hmax n x hx
    have h2 := (h l y hy (by omega)).2
    omega
  · exact (h n x hx hn).1

theorem Old.same {e : Env α} {d d' : List (Nat × Entry α)} (h : Old e d) (hs : ∀ n, n ≠ e.now → AL.get d' n = AL.get d n) : Old e d' := by
  intro n x hx hn
  rw [hs n hn] at hx
  exact h n x hx hn

theorem prepare_old {e : Env α} {d d' : List (Nat × Entry α)} {st : Option Stop} (hp : prepare e d = (d', st)) (h : OlderLocked d)
    (hlater : ∀ n x, AL.get d n = some x → n < e.now) (hcp : e.cp = .ok ∨ ∃ c, e.cp = .stops c none) (hlock : e.lockLast = .ok) :
    (st ≠ none ∧ d' = d) ∨ Old e d' := by
  unfold prepare at hp
  cases hn : newest d with
  | none =>
    rw [hn] at hp
    cases hp
    refine Or.inr ?_
    rw [newest_none hn]
    intro n x hx
    cases hx
  | some l =>
    rw [hn] at hp
    dsimp only at hp
    obtain ⟨⟨y, hy⟩, _⟩ := newest_some hn
    have hnow : AL.get d e.now = none := by
      cases hg : AL.get d e.now with
      | none => rfl
      | some x => exact absurd (hlater _ x hg) (Nat.lt_irrefl _)
    have hne : l ≠ e.now := by intro he; rw [he, hnow] at hy; cases hy
    unfold copy andThen at hp
    rw [hnow, hy] at hp
    dsimp only at hp
    rcases hcp with hc | ⟨c, hc⟩
    · rw [hc] at hp
      dsimp only at hp
      unfold lock at hp
      rw [AL.get_set, if_neg hne, hy, hlock] at hp
      dsimp only at hp
      cases hp
      refine Or.inr ?_
      intro n x hx hn'
      rw [AL.get_set] at hx
      split at hx
      · rename_i e1; cases hx; subst e1; exact ⟨rfl, hlater n y hy⟩
      · rename_i e1
        rw [AL.get_set, if_neg hn'] at hx
        exact ⟨h n x l hn hx e1, hlater n x hx⟩
    · rw [hc] at hp
      dsimp only at hp
      cases hp
      exact Or.inl ⟨(fun h => nomatch h), rfl⟩

/-- C102: if the time of a run is later than that of all backups, and it is not disturbed between the beginning of s3qlcp and the end of s3qllock for the previous backup (but
possibly anywhere else), then all directories but the newest stay immutable. -/
theorem C102_older_locked_partial (e : Env α) (s : State α) (h : OlderLocked s.dirs) (hlater : ∀ n x, AL.get s.dirs n = some x → n < e.now)
    (hcp : e.cp = .ok ∨ ∃ c, e.cp = .stops c none) (hlock : e.lockLast = .ok) : OlderLocked (run e s).1.dirs := by
  rcases run_dirs e s with hr | hr
  · rw [hr]; exact h
  rw [hr]
  unfold body
  cases hpe : prepare e s.dirs with
  | mk d1 s1 =>
    unfold andThen
    rcases prepare_old hpe h hlater hcp hlock with ⟨hst, rfl⟩ | hold
    · cases s1 with
      | none => exact absurd rfl hst
      | some st => exact h
    · cases s1 with
      | some st => exact hold.locked
      | none =>
        dsimp only
        cases hs : sync e d1 with
        | mk d2 s2 =>
          have h2 := hold.same (sync_spec hs).1
          cases s2 with
          | some st => exact h2.locked
          | none =>
            dsimp only
            cases hlk : lock e.lockNew d2 e.now with
            | mk d3 s3 =>
              have h3 := h2.same (fun n hn => lock_same hlk hn)
              cases s3 with
              | some st => exact h3.locked
              | none =>
                dsimp only
                refine Old.locked (e := e) ?_
                intro n x hx hn
                unfold expire at hx
                dsimp only at hx
                rw [get_deleted] at hx
                split at hx
                · cases hx
                · exact h3 n x hx hn

/-- The hypotheses of the theorems are met: a run that succeeds when there are backups, the last of which is incomplete. -/
example : let s : State (List Nat) := ⟨[(1, ⟨[1, 3], true⟩), (2, ⟨[2, 3], false⟩)], true⟩
    (run { fine 3 [2, 4] with del := [1] } s) = (⟨[(2, ⟨[2, 3], true⟩), (3, ⟨[2, 4], true⟩)], true⟩, 0) ∧ Undisturbed { fine 3 [2, 4] with del := [1] } ∧ OlderLocked s.dirs ∧
    AL.get s.dirs 3 = none := by
  refine ⟨by decide +kernel, ⟨rfl, rfl, rfl, rfl, rfl, rfl, rfl, rfl⟩, ?_, rfl⟩
  intro n x l hl hx hne
  cases (show some 2 = some l from hl)
  have := AL.get_some_mem hx
  simp only [List.mem_cons, Prod.mk.injEq, List.not_mem_nil, or_false] at this
  rcases this with ⟨_, rfl⟩ | ⟨h, _⟩
  · rfl
  · exact absurd h hne

/-- … and one in which the computer dies in rsync. -/
example : run { fine 3 [2, 4] with rsync := .stops none (some [7]) } ⟨[(1, ⟨[1], true⟩)], true⟩ = (⟨[(1, ⟨[1], true⟩), (3, ⟨[7], false⟩)], false⟩, 137) := by decide +kernel

end Verif.Contrib.BackupScript
