import Verif.Meta.Stable
/-
Theorems about the mount protocol (C10, C14, C15).
-/
namespace Verif.Meta

/-! ### C14: no process works on outdated metadata -/

theorem view_of_inv {cfg : Cfg} {Q : Bytes → Prop} {t : Bytes} {w : World} {pr : Proc} (h : Inv cfg Q t w)
    (hp : w.proc = some pr) (hpc : pr.pc ≠ .dl) : (w.disk pr.m).view = t := by
  obtain ⟨r, hb, h⟩ := h
  rw [hp] at h
  dsimp only at h
  have hclean : Clean cfg w.remote w.disk r t → (w.disk pr.m).db = t → (w.disk pr.m).view = t := by
    intro h1 h2
    rw [view_nil (h1.2.2 pr.m).1, h2]
  have hown : Owned cfg Q w.remote w.disk r t pr.m → (w.disk pr.m).view = t := by
    rintro ⟨l, g1, g2, g3, g4, _⟩
    exact g4
  unfold PcInv at h
  split at h
  · rename_i e; exact absurd e hpc
  · rcases h with h | h
    · exact h.2.2.1
    · exact hown h.1
  · exact hown h.1
  · exact h.1.view
  · exact h.1.view
  · exact h.1.view
  · exact h.1.view
  · exact h.1.view
  · exact h.1.1.view
  · exact h.1.view
  · exact h.1.1.view
  · exact hown h.1
  · exact h.1.1.view
  · exact hclean h.1 h.2.2
  · exact h.1.1.view
  · exact h.1.1.view
  · exact h.1.1.view
  · exact h.1.1.view
  · exact hclean h.1 h.2.1
  · exact h.1.1.view
  · exact hclean h.1 h.2.1

/-- C14 (orderly histories).  After mkfs and any orderly history of mounts, unmounts, fsck runs and
crashes on any number of machines, a process that has the database open sees exactly the database that
results from all changes made so far. -/
theorem C14_no_stale_partial (cfg : Cfg) (m now : Nat) (f : Bytes) (ops : List Op) (w : World) (pr : Proc)
    (ho : OrderlyRun cfg (mkfs cfg m now f) ops) (he : exec cfg (mkfs cfg m now f) ops = some w)
    (hp : w.proc = some pr) (hpc : pr.pc ≠ .dl) : (w.disk pr.m).view = truth f ops :=
  view_of_inv (inv_exec (Q := fun _ => True) ops f _ w (inv_mkfs cfg _ m now f trivial) (fun _ => trivial) ho he) hp hpc

/-! ### C10: snapshots -/

/-- C10 (creation, orderly histories).  Every retained version that is marked as unmounted downloads to
exactly the database as it was at some point of the history. -/
theorem C10_versions_download_partial (cfg : Cfg) (m now : Nat) (f : Bytes) (ops : List Op) (w : World)
    (ho : OrderlyRun cfg (mkfs cfg m now f) ops) (he : exec cfg (mkfs cfg m now f) ops = some w)
    (s : Nat) (P : Params) (hv : AL.get w.remote.vers s = some P) (hm : P.mounted = false) :
    ∃ k, ∀ order, (∀ l, (order l).Perm l) → download cfg w.remote.blocks P false order = some (truth f (ops.take k)) := by
  obtain ⟨r, hb, _⟩ := inv_exec (Q := fun g => ∃ k, g = truth f (ops.take k)) ops f _ w
    (inv_mkfs cfg _ m now f ⟨0, rfl⟩) (fun k => ⟨k, rfl⟩) ho he
  obtain ⟨g, ⟨k, rfl⟩, hs⟩ := hb.good s P hv hm
  exact ⟨k, fun order hperm => download_snapshot cfg _ _ _ hs order hperm⟩

/-- C10 (creation by the periodic upload, orderly histories).  When a running mount has stored the
parameters of a periodic upload, that version downloads to exactly the database file, which is the
database as it was at some point of the history. -/
theorem C10_periodic_partial (cfg : Cfg) (m now : Nat) (f : Bytes) (ops : List Op) (w : World) (pr : Proc)
    (ho : OrderlyRun cfg (mkfs cfg m now f) ops) (he : exec cfg (mkfs cfg m now f) ops = some w)
    (hp : w.proc = some pr) (hpc : pr.pc = .inc1) :
    AL.get w.remote.vers pr.p.seq = some pr.p ∧ Snapshot cfg w.remote.blocks pr.p (w.disk pr.m).db ∧
    (∃ k, (w.disk pr.m).db = truth f (ops.take k)) ∧
    ∀ order, (∀ l, (order l).Perm l) → download cfg w.remote.blocks pr.p false order = some (w.disk pr.m).db := by
  obtain ⟨r, hb, h⟩ := inv_exec (Q := fun g => ∃ k, g = truth f (ops.take k)) ops f _ w
    (inv_mkfs cfg _ m now f ⟨0, rfl⟩) (fun k => ⟨k, rfl⟩) ho he
  rw [hp] at h
  dsimp only at h
  unfold PcInv at h
  rw [hpc] at h
  obtain ⟨⟨h1, h2, h3, h4⟩, h5, h6⟩ := h
  refine ⟨by rw [h5]; exact h6, h4, h1.pre.db, fun order hperm => download_snapshot cfg _ _ _ h4 order hperm⟩

/-- C10 (permanence, every history).  Take any reachable state and a version `s` in it that is completely
stored as a snapshot of `g`, and on which no session is working any more: it is marked as unmounted, or it
is older than the current one, or the session that wrote it has finished its upload or crashed.  After any
further history — mounts, crashes, full and incremental uploads, fsck with any answers, restores,
expirations, on any machines — either `s` has been expired, or its parameters are unchanged and it still
downloads to exactly `g`. -/
theorem C10_snapshots_stay (cfg : Cfg) (m now : Nat) (f : Bytes) (ops1 ops2 : List Op) (w1 w2 : World)
    (he1 : exec cfg (mkfs cfg m now f) ops1 = some w1) (he2 : exec cfg w1 ops2 = some w2)
    (s : Nat) (P : Params) (g : Bytes) (hv : AL.get w1.remote.vers s = some P)
    (hs : Snapshot cfg w1.remote.blocks P g)
    (hdone : P.mounted = false ∨ (∃ r, w1.remote.cur = some r ∧ s < r.seq) ∨ Settled w1) :
    AL.get w2.remote.vers s = none ∨
    (AL.get w2.remote.vers s = some P ∧
      ∀ order, (∀ l, (order l).Perm l) → download cfg w2.remote.blocks P false order = some g) := by
  obtain ⟨r0, h0⟩ := wf_mkfs cfg m now f
  obtain ⟨r1, h1, _⟩ := stable_exec ops1 _ w1 r0 h0 he1
  obtain ⟨r2, h2, hk⟩ := stable_exec ops2 w1 w2 r1 h1 he2
  have hst : Stored cfg w1 r1 s P g := by
    refine ⟨hv, hs, ?_⟩
    rcases hdone with hd | ⟨r, hr, hlt⟩ | hd
    · exact unmounted_settled h1 hv hd
    · rw [h1.cur] at hr; cases hr; exact Or.inl hlt
    · exact Or.inr hd
  rcases hk s P g (Or.inl hst) with ⟨g1, g2, _⟩ | ⟨g1, _⟩
  · exact Or.inr ⟨g1, fun order hperm => download_snapshot cfg _ _ _ g2 order hperm⟩
  · exact Or.inl g1

/-! ### C15: repairs -/

/-- A step of an uninterrupted process. -/
def Quiet : Op → Prop
  | .next | .read _ _ | .put _ | .finish _ _ | .dlEnd _ => True
  | _ => False

theorem exec_append (cfg : Cfg) : ∀ (a b : List Op) (w w1 : World), exec cfg w a = some w1 → exec cfg w (a ++ b) = exec cfg w1 b
  | [], b, w, w1, h => by cases h; rfl
  | op :: a, b, w, w1, h => by
    unfold exec at h
    rw [List.cons_append]
    conv => lhs; unfold exec
    split at h
    · cases h
    · rename_i w2 hs
      exact exec_append cfg a b w2 w1 h

theorem exec_one {cfg : Cfg} {w w1 : World} {op : Op} (h : step cfg w op = some w1) : exec cfg w [op] = some w1 := by
  unfold exec
  rw [h]
  rfl

/-- There is an uninterrupted run from `w` to `w'`. -/
def Runs (cfg : Cfg) (w w' : World) : Prop := ∃ ops, (∀ op ∈ ops, Quiet op) ∧ exec cfg w ops = some w'

theorem Runs.refl (cfg : Cfg) (w : World) : Runs cfg w w := ⟨[], (fun _ h => by cases h), rfl⟩

theorem Runs.trans {cfg : Cfg} {a b c : World} (h1 : Runs cfg a b) (h2 : Runs cfg b c) : Runs cfg a c := by
  obtain ⟨o1, q1, e1⟩ := h1
  obtain ⟨o2, q2, e2⟩ := h2
  refine ⟨o1 ++ o2, fun op h => ?_, by rw [exec_append cfg o1 o2 a b e1]; exact e2⟩
  rcases List.mem_append.1 h with h | h
  · exact q1 op h
  · exact q2 op h

theorem Runs.one {cfg : Cfg} {a b : World} {op : Op} (hq : Quiet op) (h : step cfg a op = some b) : Runs cfg a b :=
  ⟨[op], fun o ho => by rw [List.mem_singleton] at ho; subst ho; exact hq, exec_one h⟩

theorem step_next {cfg : Cfg} {w : World} {pr : Proc} (hp : w.proc = some pr) : step cfg w .next = nextStep cfg w pr := by
  unfold step
  rw [hp]

/-- The uploads of a terminating process. -/
theorem runs_upload (cfg : Cfg) : ∀ (n : Nat) (jobs : List Job) (w : World) (pr : Proc) (size : Nat), jobs.length ≤ n → w.proc = some pr →
    pr.pc = .up .close size jobs → (∀ j ∈ jobs, j.length ≤ cfg.bs) →
    ∃ w', Runs cfg w w' ∧ w'.disk = w.disk ∧ w'.proc = some { pr with pc := .up .close size [] }
  | _, [], w, pr, size, _, hp, hpc, _ => ⟨w, Runs.refl _ _, rfl, by rw [hp, ← hpc]⟩
  | 0, _ :: _, _, _, _, hl, _, _, _ => by simp at hl
  | n + 1, j :: js, w, pr, size, hl, hp, hpc, hj => by
    have h1 : step cfg w (.read j.blockno cfg.bs) = some (w.setProc { pr with pc := .up .close size (updJob (readMore cfg (w.disk pr.m).db cfg.bs) j.blockno (j :: js)) }) := by
      unfold step
      rw [hp]
      dsimp only
      rw [hpc]
    have hf : findJob j.blockno (updJob (readMore cfg (w.disk pr.m).db cfg.bs) j.blockno (j :: js)) = some (readMore cfg (w.disk pr.m).db cfg.bs j) := by
      unfold findJob updJob
      rw [List.map_cons, if_pos rfl, List.find?_cons_of_pos (by simp [readMore])]
    have hd : jobDone cfg (w.disk pr.m).db (readMore cfg (w.disk pr.m).db cfg.bs j) = true :=
      read_done cfg _ j cfg.bs (by have := hj j List.mem_cons_self; omega)
    have h2 : ∃ w2, step cfg (w.setProc { pr with pc := .up .close size (updJob (readMore cfg (w.disk pr.m).db cfg.bs) j.blockno (j :: js)) }) (.put j.blockno) = some w2 ∧
        w2.disk = w.disk ∧ w2.proc = some { pr with pc := .up .close size ((updJob (readMore cfg (w.disk pr.m).db cfg.bs) j.blockno (j :: js)).filter (fun j' => !decide (j'.blockno = j.blockno))) } := by
      unfold step
      rw [setProc_proc]
      dsimp only
      rw [hf]
      dsimp only
      rw [setProc_disk, if_pos hd]
      exact ⟨_, rfl, rfl, rfl⟩
    obtain ⟨w2, e2, d2, p2⟩ := h2
    have hlen : ((updJob (readMore cfg (w.disk pr.m).db cfg.bs) j.blockno (j :: js)).filter (fun j' => !decide (j'.blockno = j.blockno))).length ≤ n := by
      unfold updJob
      rw [List.map_cons, if_pos rfl, List.filter_cons_of_neg (by simp [readMore])]
      refine Nat.le_trans (List.length_filter_le _ _) ?_
      rw [List.length_map]
      simpa using hl
    obtain ⟨w3, r3, d3, p3⟩ := runs_upload cfg n _ w2 _ size hlen p2 rfl (by
      intro j' hj'
      obtain ⟨j0, hj0, he⟩ := List.mem_map.1 (List.mem_filter.1 hj').1
      have := hj j0 hj0
      split at he
      · subst he; exact this
      · subst he; exact this)
    refine ⟨w3, (Runs.one (op := .read j.blockno cfg.bs) trivial h1).trans ((Runs.one (op := .put j.blockno) trivial e2).trans r3), by rw [d3, d2], p3⟩

/-- Deletions never block. -/
theorem runs_expire (cfg : Cfg) : ∀ (del : List Key) (w : World) (pr : Proc), w.proc = some pr → pr.pc = .exp true del →
    ∃ w', Runs cfg w w' ∧ w'.disk = w.disk ∧ w'.proc = none ∧ w'.remote.cur = w.remote.cur
  | [], w, pr, hp, hpc => by
    refine ⟨{ w with proc := none }, Runs.one (op := .next) trivial ?_, rfl, rfl, rfl⟩
    rw [step_next hp]; unfold nextStep; rw [hpc]; rfl
  | k :: del, w, pr, hp, hpc => by
    have h1 : step cfg w .next = some ({ w with remote := delKey w.remote k }.setProc { pr with pc := .exp true del }) := by
      rw [step_next hp]; unfold nextStep; rw [hpc]
    obtain ⟨w', r', d', p', c'⟩ := runs_expire cfg del _ _ (setProc_proc { w with remote := delKey w.remote k } { pr with pc := .exp true del }) rfl
    refine ⟨w', (Runs.one (op := .next) trivial h1).trans r', d', p', ?_⟩
    rw [c']
    cases k <;> rfl

/-- From an opened database to a running process. -/
theorem runs_announce (cfg : Cfg) (w : World) (pr : Proc) (hp : w.proc = some pr) (hpc : pr.pc = .got) :
    ∃ w' pr', Runs cfg w w' ∧ w'.proc = some pr' ∧ pr'.pc = .run ∧ pr'.m = pr.m ∧ pr'.kind = pr.kind ∧
      (w'.disk pr.m).view = (w.disk pr.m).view := by
  let p : Params := { pr.p with seq := pr.p.seq + 1, mounted := true }
  let w1 : World := (w.setDisk pr.m { w.disk pr.m with params := some p }).setProc { pr with p := p, pc := .mark1 }
  let w2 : World := { w1 with remote := { w1.remote with cur := some p } }.setProc { pr with p := p, pc := .mark2 }
  let w3 : World := { w2 with remote := { w2.remote with vers := AL.set w2.remote.vers p.seq p } }.setProc { pr with p := p, pc := .run }
  have e1 : step cfg w .next = some w1 := by rw [step_next hp]; unfold nextStep; rw [hpc]
  have e2 : step cfg w1 .next = some w2 := by rw [step_next (setProc_proc _ _)]; rfl
  have e3 : step cfg w2 .next = some w3 := by rw [step_next (setProc_proc _ _)]; rfl
  refine ⟨w3, _, (Runs.one (op := .next) trivial e1).trans ((Runs.one (op := .next) trivial e2).trans (Runs.one (op := .next) trivial e3)), rfl, rfl, rfl, rfl, ?_⟩
  show ((w.setDisk pr.m { w.disk pr.m with params := some p }).disk pr.m).view = _
  rw [setDisk_same]; rfl

/-- A check that is not interrupted leaves the file system mountable. -/
theorem runs_fsck (cfg : Cfg) (w : World) (pr : Proc) (hp : w.proc = some pr) (hpc : pr.pc = .got) (hk : pr.kind = .fsck) :
    ∃ w', Runs cfg w w' ∧ w'.proc = none ∧ mountCheck w'.remote.cur (w'.disk pr.m).params = .cached ∧
      (w'.disk pr.m).view = (w.disk pr.m).view := by
  obtain ⟨w1, pr1, r1, p1, c1, m1, k1, v1⟩ := runs_announce cfg w pr hp hpc
  have e2 : step cfg w1 (.finish 0 false) = some (finishStep cfg w1 pr1 0 false) := by
    unfold step
    rw [p1]
    dsimp only
    rw [if_pos c1]
  let f2 := (w1.disk pr1.m).view
  let p2 : Params := { pr1.p with mounted := false, needsFsck := false, lastFsck := 0, lastMod := 0 }
  obtain ⟨jobs, hj, pf⟩ : ∃ jobs, (∀ j ∈ jobs, j.length ≤ cfg.bs) ∧ (finishStep cfg w1 pr1 0 false).proc = some { pr1 with p := p2, dirty := [], pc := .up .close f2.length jobs } := by
    have hk1 : pr1.kind = .fsck := by rw [k1]; exact hk
    unfold finishStep
    rw [hk1]
    dsimp only
    refine ⟨_, ?_, rfl⟩
    intro j hj
    obtain ⟨b, _, rfl⟩ := List.mem_map.1 hj
    simp only [mkJob]; omega
  have d2 : (finishStep cfg w1 pr1 0 false).disk pr1.m = { w1.disk pr1.m with db := f2, wal := [] } := setDisk_same _ _ _
  obtain ⟨w3, r3, d3, p3⟩ := runs_upload cfg jobs.length jobs _ _ f2.length (Nat.le_refl _) pf rfl hj
  let p4 : Params := finalize cfg p2 f2.length (w3.disk pr1.m).db
  let q : Pc → Proc := fun c => { pr1 with p := p4, dirty := [], pc := c }
  let w4 : World := w3.setProc (q (.fin1 true))
  let w5 : World := (w4.setDisk pr1.m { w4.disk pr1.m with params := some p4 }).setProc (q (.fin2 true))
  let w6 : World := { w5 with remote := { w5.remote with cur := some p4 } }.setProc (q (.fin3 true))
  let w7 : World := { w6 with remote := { w6.remote with vers := AL.set w6.remote.vers p4.seq p4 } }.setProc (q (.exp0 true))
  have e4 : step cfg w3 .next = some w4 := by rw [step_next p3]; rfl
  have e5 : step cfg w4 .next = some w5 := by rw [step_next (setProc_proc _ _)]; rfl
  have e6 : step cfg w5 .next = some w6 := by rw [step_next (setProc_proc _ _)]; rfl
  have e7 : step cfg w6 .next = some w7 := by rw [step_next (setProc_proc _ _)]; rfl
  have r7 : Runs cfg w w7 := r1.trans ((Runs.one (op := .finish 0 false) trivial e2).trans (r3.trans ((Runs.one (op := .next) trivial e4).trans ((Runs.one (op := .next) trivial e5).trans ((Runs.one (op := .next) trivial e6).trans (Runs.one (op := .next) trivial e7))))))
  have hdisk : w7.disk pr1.m = { w3.disk pr1.m with params := some p4 } := setDisk_same _ _ _
  have h8 : ∃ w8, Runs cfg w7 w8 ∧ w8.disk = w7.disk ∧ w8.proc = none ∧ w8.remote.cur = w7.remote.cur := by
    cases hl : expireList cfg w7.remote 32 with
    | none =>
      refine ⟨{ w7 with proc := none }, Runs.one (op := .next) trivial ?_, rfl, rfl, rfl⟩
      rw [step_next (setProc_proc _ _)]
      show (match expireList cfg w7.remote 32 with | some l => some (w7.setProc (q (.exp true l))) | none => some { w7 with proc := none }) = _
      rw [hl]
    | some l =>
      have e8 : step cfg w7 .next = some (w7.setProc (q (.exp true l))) := by
        rw [step_next (setProc_proc _ _)]
        show (match expireList cfg w7.remote 32 with | some l => some (w7.setProc (q (.exp true l))) | none => some { w7 with proc := none }) = _
        rw [hl]
      obtain ⟨w9, r9, d9, p9, c9⟩ := runs_expire cfg l _ _ (setProc_proc w7 (q (.exp true l))) rfl
      exact ⟨w9, (Runs.one (op := .next) trivial e8).trans r9, d9, p9, c9⟩
  obtain ⟨w8, r8, d8, p8, c8⟩ := h8
  refine ⟨w8, r7.trans r8, p8, ?_, ?_⟩
  · rw [c8, d8, ← m1, hdisk]
    show mountCheck (some p4) (some p4) = .cached
    unfold mountCheck readCached
    have h1 : p4.mounted = false := rfl
    have h2 : p4.needsFsck = false := rfl
    simp [h1, h2]
  · rw [d8, ← m1, hdisk, m1, ← v1]
    unfold Disk.view
    dsimp only
    have : w3.disk pr1.m = { w1.disk pr1.m with db := f2, wal := [] } := by rw [d3, d2]
    rw [← m1, this]
    rfl

/-- The state of machine `m` after a crash between writing the final parameters to the local file and
storing them remotely (see `C15_stuck`). -/
def InWindow (w : World) (m : Nat) : Prop :=
  ∃ l r, (w.disk m).params = some l ∧ w.remote.cur = some r ∧ l.seq = r.seq ∧ l.mounted = false ∧ r.mounted = true

theorem crash_owner {cfg : Cfg} {Q : Bytes → Prop} {t : Bytes} {w : World} {pr : Proc} {r : Params}
    (h : PcInv cfg Q w.remote w.disk r t pr) (ho : pr.pc = .got → pr.early = false) :
    Clean cfg w.remote w.disk r t ∨ Owned cfg Q w.remote w.disk r t pr.m := by
  unfold PcInv at h
  split at h
  · exact Or.inl h.1
  · rename_i hpc
    rcases h with h | h
    · exact Or.inl (h.2.2.2.2.2.2.2 (ho hpc))
    · exact Or.inr h.1
  · exact Or.inr h.1
  · exact Or.inr h.1.owned
  · exact Or.inr h.1.owned
  · exact Or.inr h.1.owned
  · exact Or.inr h.1.owned
  · exact Or.inr h.1.owned
  · exact Or.inr h.1.1.owned
  · exact Or.inr h.1.owned
  · exact Or.inr h.1.1.owned
  · exact Or.inr h.1
  · exact Or.inr h.1.1.owned
  · exact Or.inl h.1
  · exact Or.inr h.1.1.owned
  · exact Or.inr h.1.1.owned
  · exact Or.inr h.1.1.owned
  · exact Or.inr h.1.1.owned
  · exact Or.inl h.1
  · exact Or.inr h.1.1.owned
  · exact Or.inl h.1

/-- The file system can be mounted on machine `m`, with the database `t`. -/
def CanMount (cfg : Cfg) (w : World) (m : Nat) (t : Bytes) : Prop :=
  ∃ w1 w2 pr, step cfg w (.startMount m) = some w1 ∧ Runs cfg w1 w2 ∧ w2.proc = some pr ∧ pr.m = m ∧ pr.kind = .mount ∧
    pr.pc = .run ∧ (w2.disk m).view = t

/-- A plain fsck (no `--force`, no confirmation) on machine `m` runs to its end with the database `t` and
leaves a file system that mounts from the local copy of it. -/
def CanRepair (cfg : Cfg) (w : World) (m : Nat) (t : Bytes) : Prop :=
  ∃ w1 w2, step cfg w (.startFsck m false false) = some w1 ∧ Runs cfg w1 w2 ∧ w2.proc = none ∧
    mountCheck w2.remote.cur (w2.disk m).params = .cached ∧ (w2.disk m).view = t

theorem runs_dl {cfg : Cfg} {w : World} {pr : Proc} {r : Params} {t : Bytes} (hp : w.proc = some pr) (hpc : pr.pc = .dl)
    (hpp : pr.p = r) (hs : Snapshot cfg w.remote.blocks r t) (hm : r.mounted = false) (hw : (w.disk pr.m).wal = []) :
    ∃ w', Runs cfg w w' ∧ w'.proc = some { pr with pc := .got } ∧ (w'.disk pr.m).view = t := by
  refine ⟨(w.setDisk pr.m { w.disk pr.m with db := t }).setProc { pr with pc := .got }, Runs.one (op := .dlEnd id) trivial ?_, rfl, ?_⟩
  · unfold step
    rw [hp]
    dsimp only
    rw [if_pos hpc, hpp, hm, Bool.and_false, download_snapshot cfg _ _ _ hs id (fun l => List.Perm.refl l)]
  · rw [setProc_disk, setDisk_same]
    unfold Disk.view
    dsimp only
    rw [hw]
    rfl

/-- C15 (outside the windows described at `Orderly` and `InWindow`).  After any orderly history a process
on machine `pr.m` is killed at any point.  Then on the same machine either a mount succeeds, or a plain
fsck can run to its end and leaves a file system that can be mounted.  In both cases no change that was
ever made is lost. -/
theorem C15_repairable_partial (cfg : Cfg) (m now : Nat) (f : Bytes) (ops : List Op) (w w1 : World) (pr : Proc)
    (ho : OrderlyRun cfg (mkfs cfg m now f) (ops ++ [.crash])) (he : exec cfg (mkfs cfg m now f) ops = some w)
    (hp : w.proc = some pr) (hcrash : step cfg w .crash = some w1) (hwin : ¬ InWindow w1 pr.m) :
    CanMount cfg w1 pr.m (truth f ops) ∨ CanRepair cfg w1 pr.m (truth f ops) := by
  have hsplit : ∀ (ops : List Op) (w0 w : World), OrderlyRun cfg w0 (ops ++ [.crash]) → exec cfg w0 ops = some w → OrderlyRun cfg w0 ops ∧ Orderly w .crash := by
    intro ops
    induction ops with
    | nil => intro w0 w h e; cases e; exact ⟨trivial, h.1⟩
    | cons op ops ih =>
      intro w0 w h e
      unfold exec at e
      split at e
      · cases e
      · rename_i w2 hs
        have := ih w2 w (h.2 w2 hs) e
        refine ⟨⟨h.1, fun w3 h3 => ?_⟩, this.2⟩
        rw [hs] at h3
        cases h3
        exact this.1
  obtain ⟨ho1, ho2⟩ := hsplit ops _ w ho he
  obtain ⟨r, hb, h⟩ := inv_exec (Q := fun _ => True) ops f _ w (inv_mkfs cfg _ m now f trivial) (fun _ => trivial) ho1 he
  rw [hp] at h
  dsimp only at h
  have hw1 : w1 = { w with proc := none } := by
    unfold step at hcrash
    rw [hp] at hcrash
    cases hcrash; rfl
  subst hw1
  generalize truth f ops = t at h ⊢
  have hpr : ({ w with proc := none } : World).proc = none := rfl
  have hrun : ∀ (wA : World) (prA : Proc), step cfg { w with proc := none } (.startMount pr.m) = some wA → wA.proc = some prA → prA.pc = .got → prA.m = pr.m →
      prA.kind = .mount → (wA.disk pr.m).view = t → CanMount cfg { w with proc := none } pr.m t := by
    intro wA prA s1 s2 s3 s4 s5 s6
    obtain ⟨w2, pr2, r2, p2, c2, m2, k2, v2⟩ := runs_announce cfg wA prA s2 s3
    refine ⟨wA, w2, pr2, s1, r2, p2, by rw [m2, s4], by rw [k2, s5], c2, ?_⟩
    rw [s4] at v2
    rw [v2, s6]
  rcases crash_owner h (ho2 pr hp) with h | h
  · -- the file system is cleanly unmounted
    have hw := (h.2.2 pr.m).1
    cases hc : readCached (w.disk pr.m).params r.seq with
    | none =>
      cases hn : r.needsFsck with
      | false =>
        left
        let prA : Proc := { m := pr.m, kind := .mount, p := r, dirty := [], early := false, pc := .dl }
        let wA : World := (World.setDisk { w with proc := none } pr.m { w.disk pr.m with db := [] }).setProc prA
        have s1 : step cfg { w with proc := none } (.startMount pr.m) = some wA := by
          unfold step
          dsimp only
          rw [hb.cur]
          simp only [mountCheck, hc, h.1, hn]
          rfl
        obtain ⟨w2, r2, p2, v2⟩ := runs_dl (w := wA) (pr := prA) (r := r) (t := t) rfl rfl rfl h.2.1 h.1 (by
          show ((World.setDisk { w with proc := none } pr.m { w.disk pr.m with db := [] }).disk pr.m).wal = []
          rw [setDisk_same]; exact hw)
        obtain ⟨w3, pr3, r3, p3, c3, m3, k3, v3⟩ := runs_announce cfg w2 _ p2 rfl
        exact ⟨wA, w3, pr3, s1, r2.trans r3, p3, m3, k3, c3, by rw [show pr.m = prA.m from rfl, ← v2]; exact v3⟩
      | true =>
        right
        let prA : Proc := { m := pr.m, kind := .fsck, p := r, dirty := [], early := false, pc := .dl }
        let wA : World := (World.setDisk { w with proc := none } pr.m { w.disk pr.m with db := [] }).setProc prA
        have s1 : step cfg { w with proc := none } (.startFsck pr.m false false) = some wA := by
          unfold step
          dsimp only
          rw [hb.cur]
          simp only [fsckCheck, hc, h.1, hn]
          rfl
        obtain ⟨w2, r2, p2, v2⟩ := runs_dl (w := wA) (pr := prA) (r := r) (t := t) rfl rfl rfl h.2.1 h.1 (by
          show ((World.setDisk { w with proc := none } pr.m { w.disk pr.m with db := [] }).disk pr.m).wal = []
          rw [setDisk_same]; exact hw)
        obtain ⟨w3, r3, p3, c3, v3⟩ := runs_fsck cfg w2 _ p2 rfl rfl
        exact ⟨wA, w3, s1, r2.trans r3, p3, c3, by rw [show pr.m = prA.m from rfl, ← v2]; exact v3⟩
    | some p =>
      obtain ⟨e1, e2, e3⟩ := h.cached hc
      subst e1
      cases hn : p.needsFsck with
      | false =>
        left
        let prA : Proc := { m := pr.m, kind := .mount, p := p, dirty := [], early := false, pc := .got }
        have s1 : step cfg { w with proc := none } (.startMount pr.m) = some (World.setProc { w with proc := none } prA) := by
          unfold step
          dsimp only
          rw [hb.cur]
          simp only [mountCheck, hc, h.1, hn]
          simp [prA]
        exact hrun _ prA s1 rfl rfl rfl rfl (by rw [setProc_disk, view_nil hw, e3])
      | true =>
        right
        let prA : Proc := { m := pr.m, kind := .fsck, p := p, dirty := [], early := false, pc := .got }
        have s1 : step cfg { w with proc := none } (.startFsck pr.m false false) = some (World.setProc { w with proc := none } prA) := by
          unfold step
          dsimp only
          rw [hb.cur]
          simp only [fsckCheck, hc, h.1]
          simp [prA, hn]
        obtain ⟨w3, r3, p3, c3, v3⟩ := runs_fsck cfg _ prA (setProc_proc _ _) rfl rfl
        refine ⟨_, w3, s1, r3, p3, c3, ?_⟩
        rw [show pr.m = prA.m from rfl, v3, setProc_disk, view_nil hw, e3]
  · -- this machine has the only copy
    right
    obtain ⟨l, g1, g2, g3, g4, g5, g6, g7, g8, g9⟩ := h
    have hm : l.mounted = true := by
      rcases g8 with g8 | ⟨g8, g10, g11⟩
      · exact g8
      · cases hlm : l.mounted with
        | true => rfl
        | false =>
          exfalso
          apply hwin
          refine ⟨l, r, g1, hb.cur, g8, hlm, ?_⟩
          cases hrm : r.mounted with
          | true => rfl
          | false => have := g3 hrm; omega
    let prA : Proc := { m := pr.m, kind := .fsck, p := { l with needsFsck := true }, dirty := [], early := false, pc := .got }
    have hc : readCached (w.disk pr.m).params r.seq = some l := by
      unfold readCached
      rw [g1]
      dsimp only
      rw [if_neg (by omega)]
    have s1 : step cfg { w with proc := none } (.startFsck pr.m false false) = some (World.setProc { w with proc := none } prA) := by
      unfold step
      dsimp only
      rw [hb.cur]
      simp only [fsckCheck, hc]
      simp [prA, hm]
    obtain ⟨w3, r3, p3, c3, v3⟩ := runs_fsck cfg _ prA (setProc_proc _ _) rfl rfl
    refine ⟨_, w3, s1, r3, p3, c3, ?_⟩
    rw [show pr.m = prA.m from rfl, v3, setProc_disk]
    exact g4

end Verif.Meta
