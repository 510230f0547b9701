/-
C88: metadata backups while the file system is mounted: `MetadataUploadTask` (mount.py:690-786) and `s3qlctrl backup-metadata` (ctrl.py:76-85, fs.py:301-306).

What a backup contains is described by the number of changes it includes; that it can be restored is C10 and C12.
-/
namespace Verif.Meta.Backup

/-! #### Model -/

/-- Where the task is (mount.py:725-779): waiting; after the checkpoint, before the first and the second upload without blocking writes; uploading the snapshot with
writes inhibited; ended normally or by an exception. -/
inductive Pc where
  | wait
  | first
  | second
  | ready
  | snap (n : Nat)
  | ended
  | dead
  deriving DecidableEq, Repr

structure St where
  /-- changes that requests have made so far, including those of attributes that are only in the inode cache -/
  made : Nat
  /-- changes in the database (including its write-ahead log) -/
  db : Nat
  /-- changes in the main database file, which is what is uploaded (database.py:1119-1232) -/
  file : Nat
  /-- changes in the newest complete backup -/
  stored : Nat
  /-- `event.is_set()` -/
  event : Bool
  quit : Bool
  pc : Pc
  /-- ghost: changes that had been made when `backup-metadata` was last called -/
  asked : Nat
  /-- ghost: a checkpoint of the task has failed -/
  warned : Bool
  deriving DecidableEq, Repr

inductive Ev where
  /-- a request changes something; in the database at once, or only in the inode cache -/
  | change (atOnce : Bool)
  /-- attributes are written to the database (inode_cache.py:259-297) -/
  | flush
  /-- SQLite writes the log to the main file by itself -/
  | autoCkpt
  /-- `s3qlctrl backup-metadata` -/
  | request
  /-- `stop()` (mount.py:781-786) -/
  | stop
  /-- the task continues: after a timeout of `move_on_after` if `timeout`, else because of the event.  `busy`: another task has the database locked (a statement of
  `copy_tree` is active), so that the checkpoint fails (database.py:291-302) -/
  | wake (timeout busy : Bool)
  /-- the task goes on to the next upload -/
  | next
  /-- an exception in the task -/
  | fail
  deriving DecidableEq, Repr

/-- One event; events that are not possible do nothing.  `interval`: whether `--metadata-backup-interval` is not 0 (mount.py:264).  Simplified: the file
grows by whole changes. -/
def step (interval : Bool) (s : St) : Ev → St
  | .change atOnce => if atOnce then { s with made := s.made + 1, db := s.made + 1 } else { s with made := s.made + 1 }
  | .flush => { s with db := s.made }
  -- writes to the file are inhibited while the snapshot is uploaded (database.py:328-373)
  | .autoCkpt => match s.pc with
    | .snap _ => s
    | _ => { s with file := s.db }
  -- fs.py:302-304
  | .request => { s with db := s.made, event := true, asked := s.made }
  | .stop => { s with quit := true, event := true }
  | .wake timeout busy =>
    match s.pc with
    | .wait =>
      if s.event ∨ (timeout ∧ interval) then
        if s.quit then { s with pc := .ended }
        else
          -- mount.py:739-743: reset of the event, checkpoint
          if busy then { s with event := false, pc := .first, warned := true }
          else { s with event := false, pc := .first, file := s.db }
      else s
    | _ => s
  | .next =>
    match s.pc with
    | .first => { s with pc := .second }
    | .second => { s with pc := .ready }
    | .ready => { s with pc := .snap s.file }
    -- mount.py:757-777; then `while not self.quit`
    | .snap n => { s with stored := n, pc := if s.quit then .ended else .wait }
    | _ => s
  | .fail => if s.pc = .ended then s else { s with pc := .dead }

/-- The state after mounting, with `n` changes since mkfs. -/
def init (n : Nat) : St := { made := n, db := n, file := n, stored := n, event := false, quit := false, pc := .wait, asked := 0, warned := false }

inductive Reach (interval : Bool) : St → Prop where
  | init (n : Nat) : Reach interval (init n)
  | step {s : St} (e : Ev) (h : Reach interval s) : Reach interval (step interval s e)

/-! #### Proof -/

/-- What the task holds on to: the snapshot that is being uploaded, or the file that is to be uploaded. -/
def coming (s : St) : Nat :=
  match s.pc with
  | .first | .second | .ready => s.file
  | .snap n => n
  | _ => s.stored

structure Inv (s : St) : Prop where
  db : s.db ≤ s.made
  file : s.file ≤ s.db
  stored : s.stored ≤ s.file
  snap : ∀ n, s.pc = .snap n → s.stored ≤ n ∧ n ≤ s.file
  asked : s.asked ≤ s.db
  served : s.warned = false → s.pc ≠ .dead → s.event = true ∨ s.asked ≤ coming s

theorem inv_init (n : Nat) : Inv (init n) :=
  ⟨Nat.le_refl _, Nat.le_refl _, Nat.le_refl _, (fun _ h => nomatch h), Nat.zero_le _, fun _ _ => Or.inr (Nat.zero_le _)⟩

theorem inv_step {i : Bool} {s : St} (h : Inv s) (e : Ev) : Inv (step i s e) := by
  obtain ⟨h1, h2, h3, h4, h5, h6⟩ := h
  cases e with
  | change a =>
    unfold step
    cases a
    · exact ⟨by simp; omega, h2, h3, h4, h5, h6⟩
    · exact ⟨Nat.le_refl _, by simp; omega, h3, h4, by simp; omega, h6⟩
  | flush => exact ⟨Nat.le_refl _, Nat.le_trans h2 h1, h3, h4, Nat.le_trans h5 h1, h6⟩
  | autoCkpt =>
    obtain ⟨made, db, file, stored, event, quit, pc, asked, warned⟩ := s
    cases pc with
    | snap n => exact ⟨h1, h2, h3, h4, h5, h6⟩
    | wait | ended | dead => exact ⟨h1, Nat.le_refl _, Nat.le_trans h3 h2, (fun _ h => nomatch h), h5, h6⟩
    | first | second | ready => exact ⟨h1, Nat.le_refl _, Nat.le_trans h3 h2, (fun _ h => nomatch h), h5, fun _ _ => Or.inr h5⟩
  | request => exact ⟨Nat.le_refl _, Nat.le_trans h2 h1, h3, h4, Nat.le_refl _, fun _ _ => Or.inl rfl⟩
  | stop => exact ⟨h1, h2, h3, h4, h5, fun _ _ => Or.inl rfl⟩
  | wake t b =>
    obtain ⟨made, db, file, stored, event, quit, pc, asked, warned⟩ := s
    unfold step
    cases pc with
    | wait =>
      simp only
      split
      · split
        · exact ⟨h1, h2, h3, (fun _ h => nomatch h), h5, fun hw _ => h6 hw (fun h => nomatch h)⟩
        · cases b
          · exact ⟨h1, Nat.le_refl _, Nat.le_trans h3 h2, (fun _ h => nomatch h), h5, fun _ _ => Or.inr h5⟩
          · exact ⟨h1, h2, h3, (fun _ h => nomatch h), h5, (fun h => nomatch h)⟩
      · exact ⟨h1, h2, h3, h4, h5, h6⟩
    | _ => exact ⟨h1, h2, h3, h4, h5, h6⟩
  | next =>
    obtain ⟨made, db, file, stored, event, quit, pc, asked, warned⟩ := s
    unfold step
    cases pc with
    | wait | ended | dead => exact ⟨h1, h2, h3, h4, h5, h6⟩
    | first | second => exact ⟨h1, h2, h3, (fun _ h => nomatch h), h5, fun hw _ => h6 hw (fun h => nomatch h)⟩
    | ready =>
      refine ⟨h1, h2, h3, ?_, h5, fun hw _ => h6 hw (fun h => nomatch h)⟩
      intro n hn; cases hn; exact ⟨h3, Nat.le_refl _⟩
    | snap n =>
      have h4' := h4 n rfl
      refine ⟨h1, h2, h4'.2, ?_, h5, ?_⟩
      · intro n hn; simp only at hn; split at hn <;> cases hn
      · intro hw _
        rcases h6 hw (fun h => nomatch h) with h | h
        · exact Or.inl h
        · right
          cases quit <;> exact h
  | fail =>
    show Inv (if s.pc = .ended then s else { s with pc := .dead })
    split
    · exact ⟨h1, h2, h3, h4, h5, h6⟩
    · exact ⟨h1, h2, h3, (fun _ h => nomatch h), h5, fun _ h => absurd rfl h⟩

theorem inv_reach {i : Bool} {s : St} (h : Reach i s) : Inv s := by
  induction h with
  | init n => exact inv_init n
  | step e _ ih => exact inv_step ih e

/-! #### Properties -/

/-- The events of the task itself; the others come from users and from SQLite. -/
def ofTask : Ev → Bool
  | .wake _ _ | .next | .fail => true
  | _ => false

/-- Several events in order. -/
def run (i : Bool) (s : St) (es : List Ev) : St := es.foldl (step i) s

/-- **C88 (a request is not forgotten).** Whenever the task waits and no request is outstanding, the newest backup contains every change that had been made when
`backup-metadata` was last called - also if the request came while another upload was running.  Missing for the full claim: it needs that no checkpoint has failed
(see `C88_checkpoint_fails`). -/
theorem C88_request_partial {i : Bool} {s : St} (h : Reach i s) (hw : s.warned = false) (hp : s.pc = .wait) (he : s.event = false) :
    s.asked ≤ s.stored := by
  have := (inv_reach h).served hw (by rw [hp]; exact fun h => nomatch h)
  rcases this with h | h
  · rw [he] at h; cases h
  · unfold coming at h; rw [hp] at h; exact h

/-- No event other than those of the task takes back a request, and `asked` is what had been made at that time. -/
theorem C88_request_kept {i : Bool} {s : St} (h : Reach i s) {e : Ev} (ho : ofTask e = false) :
    (step i (step i s .request) e).event = true ∧ (step i s .request).asked = s.made ∧ (step i s .request).event = true := by
  refine ⟨?_, rfl, rfl⟩
  cases e with
  | change a => cases a <;> rfl
  | flush | request | stop => rfl
  | autoCkpt =>
    obtain ⟨made, db, file, stored, event, quit, pc, asked, warned⟩ := s
    cases pc <;> rfl
  | wake _ _ | next | fail => cases ho

/-- What events of others leave as it is. -/
theorem others {i : Bool} (es : List Ev) : ∀ {s : St}, Inv s → (∀ e ∈ es, ofTask e = false) →
    Inv (run i s es) ∧ (run i s es).pc = s.pc ∧ s.db ≤ (run i s es).db ∧ s.file ≤ (run i s es).file ∧ (s.event = true → (run i s es).event = true) ∧
      (.stop ∉ es → (run i s es).quit = s.quit) := by
  induction es with
  | nil => intro s hI _; exact ⟨hI, rfl, Nat.le_refl _, Nat.le_refl _, id, fun _ => rfl⟩
  | cons e es ih =>
    intro s hI hes
    have he := hes e List.mem_cons_self
    have hI' : Inv (step i s e) := inv_step hI e
    obtain ⟨a1, a2, a3, a4, a5, a6⟩ := ih hI' (fun x hx => hes x (List.mem_cons_of_mem _ hx))
    have key : (step i s e).pc = s.pc ∧ s.db ≤ (step i s e).db ∧ s.file ≤ (step i s e).file ∧ (s.event = true → (step i s e).event = true) ∧
        (e ≠ .stop → (step i s e).quit = s.quit) := by
      have h1 := hI.db
      have h2 := hI.file
      clear a1 a2 a3 a4 a5 a6 ih hes hI' hI
      cases e with
      | change a =>
        cases a
        · exact ⟨rfl, Nat.le_refl _, Nat.le_refl _, id, fun _ => rfl⟩
        · exact ⟨rfl, Nat.le_succ_of_le h1, Nat.le_refl _, id, fun _ => rfl⟩
      | flush => exact ⟨rfl, h1, Nat.le_refl _, id, fun _ => rfl⟩
      | autoCkpt =>
        obtain ⟨made, db, file, stored, event, quit, pc, asked, warned⟩ := s
        cases pc with
        | snap n => exact ⟨rfl, Nat.le_refl _, Nat.le_refl _, id, fun _ => rfl⟩
        | _ => exact ⟨rfl, Nat.le_refl _, h2, id, fun _ => rfl⟩
      | request => exact ⟨rfl, h1, Nat.le_refl _, fun _ => rfl, fun _ => rfl⟩
      | stop => exact ⟨rfl, Nat.le_refl _, Nat.le_refl _, fun _ => rfl, fun h => absurd rfl h⟩
      | wake _ _ | next | fail => cases he
    obtain ⟨b1, b2, b3, b4, b5⟩ := key
    refine ⟨a1, a2.trans b1, Nat.le_trans b2 a3, Nat.le_trans b3 a4, fun h => a5 (b4 h), ?_⟩
    intro hn
    have hn1 : e ≠ .stop := fun h => hn (h ▸ List.mem_cons_self)
    have hn2 : Ev.stop ∉ es := fun h => hn (List.mem_cons_of_mem _ h)
    exact (a6 hn2).trans (b5 hn1)

theorem run_append (i : Bool) (s : St) (a b : List Ev) : run i s (a ++ b) = run i (run i s a) b := List.foldl_append

theorem reach_run {i : Bool} {s : St} (h : Reach i s) (es : List Ev) : Reach i (run i s es) := by
  induction es generalizing s with
  | nil => exact h
  | cons e es ih => exact ih (.step e h)

/-- An upload that begins while the task waits, with events of others in between. -/
theorem upload {i : Bool} {s : St} (hI : Inv s) (hp : s.pc = .wait) (hq : s.quit = false) {t : Bool} (ht : s.event = true ∨ (t = true ∧ i = true))
    (e1 e2 e3 e4 : List Ev) (h0 : ∀ e ∈ e1 ++ e2 ++ e3 ++ e4, ofTask e = false) :
    s.db ≤ (run i s ([.wake t false] ++ e1 ++ [.next] ++ e2 ++ [.next] ++ e3 ++ [.next] ++ e4 ++ [.next])).stored := by
  have m1 : ∀ e ∈ e1, ofTask e = false := fun e he => h0 e (by simp [he])
  have m2 : ∀ e ∈ e2, ofTask e = false := fun e he => h0 e (by simp [he])
  have m3 : ∀ e ∈ e3, ofTask e = false := fun e he => h0 e (by simp [he])
  have m4 : ∀ e ∈ e4, ofTask e = false := fun e he => h0 e (by simp [he])
  simp only [run_append]
  generalize g1 : run i s [.wake t false] = s1
  have k1 : s1.pc = .first ∧ s.db ≤ s1.file := by
    subst g1
    show (step i s (.wake t false)).pc = _ ∧ s.db ≤ (step i s (.wake t false)).file
    have ht' : (s.event = true ∨ (t = true ∧ i = true)) = True := eq_true ht
    simp [step, hp, hq, ht']
  have I1 : Inv s1 := by subst g1; exact inv_step (i := i) hI (.wake t false)
  generalize g2 : run i s1 e1 = s2
  obtain ⟨I2, p2, _, f2, _, _⟩ : _ := g2 ▸ others (i := i) e1 I1 m1
  generalize g3 : run i s2 [.next] = s3
  have k3 : s3.pc = .second ∧ s3.file = s2.file := by
    subst g3
    show (step i s2 .next).pc = _ ∧ (step i s2 .next).file = _
    simp [step, p2, k1.1]
  have I3 : Inv s3 := by subst g3; exact inv_step (i := i) I2 .next
  generalize g4 : run i s3 e2 = s4
  obtain ⟨I4, p4, _, f4, _, _⟩ : _ := g4 ▸ others (i := i) e2 I3 m2
  generalize g5 : run i s4 [.next] = s5
  have k5 : s5.pc = .ready ∧ s5.file = s4.file := by
    subst g5
    show (step i s4 .next).pc = _ ∧ (step i s4 .next).file = _
    simp [step, p4, k3.1]
  have I5 : Inv s5 := by subst g5; exact inv_step (i := i) I4 .next
  generalize g6 : run i s5 e3 = s6
  obtain ⟨I6, p6, _, f6, _, _⟩ : _ := g6 ▸ others (i := i) e3 I5 m3
  generalize g7 : run i s6 [.next] = s7
  have k7 : s7.pc = .snap s6.file := by
    subst g7
    show (step i s6 .next).pc = _
    simp [step, p6, k5.1]
  have I7 : Inv s7 := by subst g7; exact inv_step (i := i) I6 .next
  generalize g8 : run i s7 e4 = s8
  obtain ⟨I8, p8, _, f8, _, _⟩ : _ := g8 ▸ others (i := i) e4 I7 m4
  have k9 : (run i s8 [.next]).stored = s6.file := by
    show (step i s8 .next).stored = _
    simp [step, p8, k7]
  rw [k9]
  have := k1.2
  have := k3.2
  have := k5.2
  omega

/-- **C88 (a request is carried out).** When `backup-metadata` is called while the task waits, then the next upload - five steps of the task, between which
anything else may happen, also further requests and `stop` once it has begun - leaves a backup with every change made before the call, including attributes that were only in
the inode cache. -/
theorem C88_carried_out {i : Bool} {s : St} (h : Reach i s) (hp : s.pc = .wait) (hq : s.quit = false) (e0 e1 e2 e3 e4 : List Ev)
    (h0 : ∀ e ∈ e0, ofTask e = false ∧ e ≠ .stop) (h1 : ∀ e ∈ e1 ++ e2 ++ e3 ++ e4, ofTask e = false) (t : Bool) :
    s.made ≤ (run i s (.request :: e0 ++ ([.wake t false] ++ e1 ++ [.next] ++ e2 ++ [.next] ++ e3 ++ [.next] ++ e4 ++ [.next]))).stored := by
  have hI := inv_reach h
  have hI1 : Inv (step i s .request) := inv_step hI _
  obtain ⟨a1, a2, a3, _, a5, a6⟩ := others (i := i) e0 hI1 (fun e he => (h0 e he).1)
  have hq' := (a6 (fun hm => (h0 _ hm).2 rfl)).trans (show (step i s .request).quit = false from hq)
  have hu := upload (i := i) (t := t) a1 (a2.trans (show (step i s .request).pc = _ from hp)) hq' (Or.inl (a5 rfl)) e1 e2 e3 e4 h1
  rw [run_append]
  exact Nat.le_trans a3 hu

/-- **C88 (periodic backups).** With `--metadata-backup-interval` set, an upload that begins after the timeout contains everything that is in the database at that time.
Missing for the full claim: attributes that are only in the inode cache, see `C88_attributes_missing`. -/
theorem C88_periodic_partial {s : St} (h : Reach true s) (hp : s.pc = .wait) (hq : s.quit = false) (e1 e2 e3 e4 : List Ev)
    (h1 : ∀ e ∈ e1 ++ e2 ++ e3 ++ e4, ofTask e = false) :
    s.db ≤ (run true s ([.wake true false] ++ e1 ++ [.next] ++ e2 ++ [.next] ++ e3 ++ [.next] ++ e4 ++ [.next])).stored :=
  upload (inv_reach h) hp hq (Or.inr ⟨rfl, rfl⟩) e1 e2 e3 e4 h1

/-- **C88 (backups only get newer).** No event replaces the newest backup by one with fewer changes, and a backup never has changes that were not made. -/
theorem C88_newer {i : Bool} {s : St} (h : Reach i s) (e : Ev) : s.stored ≤ (step i s e).stored ∧ (step i s e).stored ≤ (step i s e).made := by
  have hI := inv_reach h
  have hI' : Inv (step i s e) := inv_step hI e
  refine ⟨?_, Nat.le_trans hI'.stored (Nat.le_trans hI'.file hI'.db)⟩
  have h4 := hI.snap
  clear hI hI' h
  obtain ⟨made, db, file, stored, event, quit, pc, asked, warned⟩ := s
  cases e with
  | change a => cases a <;> exact Nat.le_refl _
  | flush | request | stop => exact Nat.le_refl _
  | autoCkpt => cases pc <;> exact Nat.le_refl _
  | wake t b =>
    cases pc with
    | wait =>
      simp only [step]
      split
      · split
        · exact Nat.le_refl _
        · split <;> exact Nat.le_refl _
      · exact Nat.le_refl _
    | _ => exact Nat.le_refl _
  | next =>
    cases pc with
    | snap n => exact (h4 n rfl).1
    | _ => exact Nat.le_refl _
  | fail =>
    simp only [step]
    split <;> exact Nat.le_refl _

/-- **C88 (nothing is uploaded unasked).** Without an interval and without a request the task does nothing. -/
theorem C88_only_on_request {s : St} (hp : s.pc = .wait) (he : s.event = false) (t b : Bool) : step false s (.wake t b) = s ∧ step false s .next = s := by
  simp [step, hp, he]

/-- The hypotheses can be met: a request comes while an upload is under way, and is carried out by a second upload. -/
example : let s := run false (init 3) [.change true, .request, .wake false false, .next, .change false, .request, .next, .next, .next, .wake false false, .next, .next, .next, .next]
    s.asked = 5 ∧ s.stored = 5 ∧ s.pc = .wait ∧ s.event = false ∧ s.warned = false := by decide
example : (run false (init 3) [.change true, .request, .wake false false, .next, .change false, .request, .next, .next, .next]).stored = 4 := by decide

/-- **Violation.** Periodic backups do not contain changed attributes (sizes and times of files) that are still in the inode cache: the task does not flush it. -/
theorem C88_attributes_missing : ∃ s, Reach true s ∧ s.pc = .wait ∧ s.made = 4 ∧
    (run true s [.wake true false, .next, .next, .next, .next]).stored = 3 :=
  ⟨step true (init 3) (.change false), .step _ (.init 3), by decide, by decide, by decide⟩

/-- **Violation.** If a statement of another task is active when the upload begins (`s3qlcp`), the checkpoint fails, which only gives a warning; the task then uploads the database
file without the latest changes, and the request counts as carried out. -/
theorem C88_checkpoint_fails : ∃ s, Reach false s ∧ s.pc = .wait ∧ s.event = false ∧ s.asked = 4 ∧ s.stored = 3 :=
  ⟨run false (init 3) [.change true, .request, .wake false true, .next, .next, .next, .next],
    reach_run (.init 3) _, by decide, by decide, by decide, by decide⟩

end Verif.Meta.Backup
