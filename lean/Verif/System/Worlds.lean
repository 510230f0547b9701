import Verif.System.Files
import Verif.Meta.ProtoProps
/-
The invariant of the whole system.
-/
namespace Verif.System
open Verif.FileData

section
variable {cfg : Meta.Cfg} {H : Bytes → Bytes} {dec : Bytes → Option Tables} {t : Bytes}

/-- While no process runs, no computer has newer parameters than the storage, unless the storage says "mounted". -/
def Calm (w : Meta.World) : Prop :=
  w.proc = none → ∀ r, w.remote.cur = some r → r.mounted = false → ∀ b l, (w.disk b).params = some l → l.seq ≤ r.seq

theorem Calm.alone {w : Meta.World} (h : Calm w) (hp : w.proc = none) (m : Nat) : Meta.Alone w m :=
  fun r hr hm b _ l hl => h hp r hr hm b l hl

theorem calm_some {w : Meta.World} {pr : Meta.Proc} (h : w.proc = some pr) : Calm w := by
  intro hp; rw [h] at hp; cases hp

theorem calm_clean {w : Meta.World} {r : Meta.Params} (hc : w.remote.cur = some r) (h : Meta.Clean cfg w.remote w.disk r t) : Calm w := by
  intro _ r' hr' _ b l hl
  rw [hc] at hr'; cases hr'
  rcases (h.2.2 b).2 l hl with h1 | ⟨h1, _⟩
  · exact Nat.le_of_lt h1
  · rw [h1]; exact Nat.le_refl _

theorem calm_mounted {w : Meta.World} {r : Meta.Params} (hc : w.remote.cur = some r) (h : r.mounted = true) : Calm w := by
  intro _ r' hr' hm
  rw [hc] at hr'; cases hr'
  rw [h] at hm; cases hm

theorem calm_next {w w' : Meta.World} {pr : Meta.Proc} (hi : Meta.Inv cfg (fun _ => True) t w) (hp : w.proc = some pr)
    (hs : Meta.nextStep cfg w pr = some w') : Calm w' := by
  obtain ⟨r, hb, h⟩ := hi
  rw [hp] at h
  dsimp only at h
  unfold Meta.PcInv at h
  unfold Meta.nextStep at hs
  dsimp only at hs
  split at hs
  case h_4 =>
    split at hs
    all_goals (cases hs; exact calm_some rfl)
  case h_11 last hpc =>
    rw [hpc] at h
    split at hs
    · cases hs; exact calm_some rfl
    · cases hs
      cases last with
      | true => exact calm_clean (w := { w with proc := none }) hb.cur h.1
      | false => exact calm_mounted (w := { w with proc := none }) hb.cur h.1.1.rm
  case h_13 last hpc =>
    rw [hpc] at h
    split at hs
    · rename_i hl
      cases hs
      subst hl
      exact calm_clean (w := { w with proc := none }) hb.cur h.1
    · cases hs; exact calm_some rfl
  case h_14 => cases hs
  all_goals (cases hs; exact calm_some rfl)

/-- Steps that the system makes in the metadata protocol. -/
def Mine : Meta.Op → Prop
  | .startFsck .. | .early .. | .crash | .restoreCrash .. | .restore .. => False
  | _ => True

theorem isProto_mine {op : Meta.Op} (h : isProto op = true) : Mine op := by
  cases op <;> first | trivial | cases h

theorem mine_truth {op : Meta.Op} (h : isProto op = true) : Meta.truth t [op] = t := by
  cases op <;> first | rfl | cases h

theorem calm_step {w w' : Meta.World} {op : Meta.Op} (hi : Meta.Inv cfg (fun _ => True) t w) (hc : Calm w) (hm : Mine op)
    (hs : Meta.step cfg w op = some w') : Calm w' := by
  cases hp : w.proc with
  | none =>
    unfold Meta.step at hs
    rw [hp] at hs
    dsimp only at hs
    cases op with
    | startMount m =>
      dsimp only at hs
      split at hs
      · cases hs; exact calm_some rfl
      · cases hs; exact calm_some rfl
      · cases hs; exact hc
    | idleCkpt m =>
      dsimp only at hs
      split at hs
      · cases hs
      · cases hs
        intro _ r hr hrm b l hl
        apply hc hp r hr hrm b l
        unfold Meta.World.setDisk at hl
        dsimp only at hl
        split at hl
        · rename_i e; rw [e]; exact hl
        · exact hl
    | startFsck => exact absurd hm id
    | restoreCrash => exact absurd hm id
    | restore => exact absurd hm id
    | _ => cases hs
  | some pr =>
    by_cases hn : op = .next
    · subst hn
      rw [Meta.step_next hp] at hs
      exact calm_next hi hp hs
    unfold Meta.step at hs
    rw [hp] at hs
    dsimp only at hs
    have hk : ∀ d, Calm (w.setDisk pr.m d) := fun d => calm_some (w := w.setDisk pr.m d) hp
    cases op with
    | next => exact absurd rfl hn
    | crash => exact absurd hm id
    | dlPart f =>
      dsimp only at hs
      split at hs
      · cases hs; exact hk _
      · cases hs
    | dlEnd order =>
      dsimp only at hs
      split at hs
      · rename_i hpc
        split at hs
        · cases hs; exact calm_some rfl
        · cases hs
          obtain ⟨r, hb, h⟩ := hi
          rw [hp] at h
          dsimp only at h
          unfold Meta.PcInv at h
          rw [hpc] at h
          exact calm_clean (w := { w with proc := none }) hb.cur h.1
      · cases hs
    | early o => exact absurd hm id
    | sql o =>
      dsimp only at hs
      split at hs
      · cases hs; exact hk _
      · cases hs
    | ckpt =>
      dsimp only at hs
      split at hs
      · split at hs
        · cases hs
        · cases hs; exact calm_some rfl
      · cases hs
    | startPass =>
      dsimp only at hs
      split at hs
      · cases hs; exact calm_some rfl
      · cases hs
    | startSnap =>
      dsimp only at hs
      split at hs
      · cases hs; exact calm_some rfl
      · cases hs
    | read =>
      dsimp only at hs
      split at hs
      · cases hs; exact calm_some rfl
      · cases hs
    | put =>
      dsimp only at hs
      split at hs
      · split at hs
        · split at hs
          · cases hs; exact calm_some rfl
          · cases hs
        · cases hs
      · cases hs
    | finish =>
      dsimp only at hs
      split at hs
      · cases hs; exact calm_some rfl
      · cases hs
    | _ => cases hs

/-! ### Kept cache directories -/

/-- While a process runs, the computers whose metadata are as new as those in the storage are known. -/
def AheadAt (cur : Option Meta.Params) (disk : Nat → Meta.Disk) (pr : Meta.Proc) : Prop :=
  ∃ r, cur = some r ∧
    match pr.pc with
    | .dl | .got => pr.p.seq = r.seq ∧ ∀ b l, (disk b).params = some l → l.seq ≤ r.seq
    | .mark1 => r.seq < pr.p.seq ∧ ∀ b l, b ≠ pr.m → (disk b).params = some l → l.seq ≤ r.seq
    | _ => r.seq ≤ pr.p.seq ∧ ∀ b l, b ≠ pr.m → (disk b).params = some l → l.seq < r.seq

def Ahead (w : Meta.World) : Prop := ∀ pr, w.proc = some pr → AheadAt w.remote.cur w.disk pr

/-- The directories on computers whose metadata are as new as those in the storage. -/
def Fine (P : CacheDir → Prop) (w : Meta.World) (d : Nat → CacheDir) : Prop :=
  ∀ r, w.remote.cur = some r → ∀ b l, (w.disk b).params = some l → r.seq ≤ l.seq → P (d b)

/-- The directories that may be loaded. -/
def DirsOk (P : CacheDir → Prop) (w : Meta.World) (d : Nat → CacheDir) : Prop :=
  match w.proc with
  | some pr => if pr.pc = .dl then Fine P w d else P (d pr.m)
  | none => Fine P w d

/-- The metadata are as new as those in the storage on no other computer. -/
def Late (cur : Option Meta.Params) (disk : Nat → Meta.Disk) (pr : Meta.Proc) : Prop :=
  ∃ r, cur = some r ∧ r.seq ≤ pr.p.seq ∧ ∀ b l, b ≠ pr.m → (disk b).params = some l → l.seq < r.seq

theorem params_set {w : Meta.World} {m b : Nat} {d : Meta.Disk} {l : Meta.Params} (hb : b ≠ m) (h : ((w.setDisk m d).disk b).params = some l) :
    (w.disk b).params = some l := by rw [Meta.setDisk_ne _ _ hb] at h; exact h

theorem params_same {w : Meta.World} {m b : Nat} {d : Meta.Disk} {l : Meta.Params}
    (h : ((w.setDisk m d).disk b).params = some l) (hd : d.params = (w.disk m).params) : (w.disk b).params = some l := by
  by_cases hb : b = m
  · subst hb; rw [Meta.setDisk_same, hd] at h; exact h
  · exact params_set hb h

theorem Late.mono {cur : Option Meta.Params} {disk disk' : Nat → Meta.Disk} {pr pr' : Meta.Proc} (h : Late cur disk pr) (hm : pr'.m = pr.m)
    (hp : pr.p.seq ≤ pr'.p.seq) (hd : ∀ b l, b ≠ pr.m → (disk' b).params = some l → (disk b).params = some l) : Late cur disk' pr' := by
  obtain ⟨r, hr, h1, h2⟩ := h
  exact ⟨r, hr, Nat.le_trans h1 hp, fun b l hb hl => h2 b l (hm ▸ hb) (hd b l (hm ▸ hb) hl)⟩

theorem Late.store {cur : Option Meta.Params} {disk disk' : Nat → Meta.Disk} {pr pr' : Meta.Proc} (h : Late cur disk pr) (hm : pr'.m = pr.m)
    (hp : pr.p = pr'.p) (hd : disk' = disk) : Late (some pr.p) disk' pr' := by
  obtain ⟨r, hr, h1, h2⟩ := h
  subst hd
  exact ⟨pr.p, rfl, by rw [hp]; exact Nat.le_refl _, fun b l hb hl => Nat.lt_of_lt_of_le (h2 b l (hm ▸ hb) hl) h1⟩

theorem Late.fine {P : CacheDir → Prop} {w : Meta.World} {pr : Meta.Proc} {d : Nat → CacheDir} (h : Late w.remote.cur w.disk pr) (hp : P (d pr.m)) : Fine P w d := by
  obtain ⟨r, hr, _, h2⟩ := h
  intro r' hr' b l hl hle
  rw [hr] at hr'; cases hr'
  by_cases hb : b = pr.m
  · rw [hb]; exact hp
  · have := h2 b l hb hl; omega

/-- Later program counters. -/
def isLate : Meta.Pc → Bool
  | .dl | .got | .mark1 => false
  | _ => true

theorem ahead_late {cur : Option Meta.Params} {disk : Nat → Meta.Disk} {pr : Meta.Proc} (h : isLate pr.pc = true) : AheadAt cur disk pr ↔ Late cur disk pr := by
  unfold AheadAt Late
  cases hpc : pr.pc <;> first | exact Iff.rfl | (rw [hpc] at h; cases h)

theorem late_dl {pc : Meta.Pc} (h : isLate pc = true) : pc ≠ .dl := by
  intro e; rw [e] at h; cases h

/-- To a later program counter. -/
theorem late_to {P : CacheDir → Prop} {w' : Meta.World} {pr' : Meta.Proc} {d : Nat → CacheDir} (hp' : w'.proc = some pr') (hl : isLate pr'.pc = true)
    (h : Late w'.remote.cur w'.disk pr') (hd : P (d pr'.m)) : Ahead w' ∧ DirsOk P w' d := by
  constructor
  · intro q hq
    rw [hp'] at hq; cases hq
    exact (ahead_late hl).2 h
  · unfold DirsOk
    rw [hp']
    dsimp only
    rw [if_neg (late_dl hl)]
    exact hd

theorem none_to {P : CacheDir → Prop} {w' : Meta.World} {d : Nat → CacheDir} (hp' : w'.proc = none) (h : Fine P w' d) : Ahead w' ∧ DirsOk P w' d := by
  constructor
  · intro q hq
    rw [hp'] at hq; cases hq
  · unfold DirsOk
    rw [hp']
    exact h

theorem dirs_next {P : CacheDir → Prop} {w w' : Meta.World} {pr : Meta.Proc} {d : Nat → CacheDir} (ha : Ahead w) (hd : DirsOk P w d) (hp : w.proc = some pr)
    (hs : Meta.nextStep cfg w pr = some w') : Ahead w' ∧ DirsOk P w' d := by
  have h := ha pr hp
  unfold DirsOk at hd
  rw [hp] at hd
  dsimp only at hd
  unfold Meta.nextStep at hs
  dsimp only at hs
  have hP : pr.pc ≠ .dl → P (d pr.m) := fun hne => by rw [if_neg hne] at hd; exact hd
  have hL : ∀ {pc}, pr.pc = pc → isLate pc = true → Late w.remote.cur w.disk pr ∧ P (d pr.m) := by
    intro pc e hl
    subst e
    exact ⟨(ahead_late hl).1 h, hP (late_dl hl)⟩
  split at hs
  · -- got
    rename_i hpc
    cases hs
    have hPm := hP (by rw [hpc]; simp)
    unfold AheadAt at h
    rw [hpc] at h
    obtain ⟨r, hr, h1, h2⟩ := h
    constructor
    · intro q hq
      cases hq
      refine ⟨r, hr, ?_, ?_⟩
      · show r.seq < pr.p.seq + 1
        omega
      · intro b l hb hl
        exact h2 b l (params_set hb hl)
    · exact hPm
  · -- mark1
    rename_i hpc
    cases hs
    have hPm := hP (by rw [hpc]; simp)
    unfold AheadAt at h
    rw [hpc] at h
    obtain ⟨r, hr, h1, h2⟩ := h
    exact late_to rfl rfl ⟨pr.p, rfl, Nat.le_refl _, fun b l hb hl => Nat.lt_of_le_of_lt (h2 b l hb hl) h1⟩ hPm
  · -- mark2
    rename_i hpc
    obtain ⟨hl, hPm⟩ := hL hpc rfl
    cases hs
    exact late_to rfl rfl (hl.mono rfl (Nat.le_refl _) (fun _ _ _ h => h)) hPm
  · -- up
    rename_i k size hpc
    obtain ⟨hl, hPm⟩ := hL hpc rfl
    split at hs
    all_goals
      cases hs
      exact late_to rfl rfl (hl.mono rfl (Nat.le_refl _) (fun _ _ _ h => h)) hPm
  · -- fin1
    rename_i last hpc
    obtain ⟨hl, hPm⟩ := hL hpc rfl
    cases hs
    exact late_to rfl rfl (hl.mono rfl (Nat.le_refl _) (fun _ _ hb h => params_set hb h)) hPm
  · -- fin2
    rename_i last hpc
    obtain ⟨hl, hPm⟩ := hL hpc rfl
    cases hs
    exact late_to rfl rfl (hl.store rfl rfl rfl) hPm
  · -- fin3
    rename_i last hpc
    obtain ⟨hl, hPm⟩ := hL hpc rfl
    cases hs
    exact late_to rfl (by cases last <;> rfl) (hl.mono rfl (Nat.le_refl _) (fun _ _ _ h => h)) hPm
  · -- inc1
    rename_i hpc
    obtain ⟨hl, hPm⟩ := hL hpc rfl
    cases hs
    exact late_to rfl rfl (hl.mono rfl (Nat.le_succ _) (fun _ _ hb h => params_set hb h)) hPm
  · -- inc2
    rename_i hpc
    obtain ⟨hl, hPm⟩ := hL hpc rfl
    cases hs
    exact late_to rfl rfl (hl.store rfl rfl rfl) hPm
  · -- inc3
    rename_i hpc
    obtain ⟨hl, hPm⟩ := hL hpc rfl
    cases hs
    exact late_to rfl rfl (hl.mono rfl (Nat.le_refl _) (fun _ _ _ h => h)) hPm
  · -- exp0
    rename_i last hpc
    obtain ⟨hl, hPm⟩ := hL hpc rfl
    split at hs
    · cases hs
      exact late_to rfl rfl (hl.mono rfl (Nat.le_refl _) (fun _ _ _ h => h)) hPm
    · cases hs
      exact none_to rfl (Late.fine (w := { w with proc := none }) hl hPm)
  · -- exp
    rename_i last k t hpc
    obtain ⟨hl, hPm⟩ := hL hpc rfl
    cases hs
    refine late_to rfl rfl ?_ hPm
    have : (Meta.delKey w.remote k).cur = w.remote.cur := by cases k <;> rfl
    show Late (Meta.delKey w.remote k).cur w.disk _
    rw [this]
    exact hl.mono rfl (Nat.le_refl _) (fun _ _ _ h => h)
  · -- exp []
    rename_i last hpc
    obtain ⟨hl, hPm⟩ := hL hpc rfl
    split at hs
    · cases hs
      exact none_to rfl (Late.fine (w := { w with proc := none }) hl hPm)
    · cases hs
      exact late_to rfl rfl (hl.mono rfl (Nat.le_refl _) (fun _ _ _ h => h)) hPm
  · cases hs

/-- A step that keeps the program counter's class. -/
theorem ahead_keep {P : CacheDir → Prop} {w w' : Meta.World} {pr pr' : Meta.Proc} {d : Nat → CacheDir} (ha : Ahead w) (hd : DirsOk P w d) (hp : w.proc = some pr)
    (hp' : w'.proc = some pr') (hc : w'.remote.cur = w.remote.cur) (hm : pr'.m = pr.m) (hq : pr'.p.seq = pr.p.seq) (hpc : pr'.pc = pr.pc)
    (hdisk : ∀ b l, (w'.disk b).params = some l → (w.disk b).params = some l) : Ahead w' ∧ DirsOk P w' d := by
  have h := ha pr hp
  constructor
  · intro q hq'
    rw [hp'] at hq'; cases hq'
    unfold AheadAt at h ⊢
    rw [hc, hpc, hm, hq]
    obtain ⟨r, hr, h2⟩ := h
    refine ⟨r, hr, ?_⟩
    split
    · rename_i e; rw [e] at h2; exact ⟨h2.1, fun b l hl => h2.2 b l (hdisk b l hl)⟩
    · rename_i e; rw [e] at h2; exact ⟨h2.1, fun b l hl => h2.2 b l (hdisk b l hl)⟩
    · rename_i e; rw [e] at h2; exact ⟨h2.1, fun b l hb hl => h2.2 b l hb (hdisk b l hl)⟩
    · rename_i e1 e2 e3
      split at h2
      · rename_i e; exact absurd e e1
      · rename_i e; exact absurd e e2
      · rename_i e; exact absurd e e3
      · exact ⟨h2.1, fun b l hb hl => h2.2 b l hb (hdisk b l hl)⟩
  · unfold DirsOk at hd ⊢
    rw [hp] at hd
    rw [hp']
    dsimp only at hd ⊢
    rw [hpc, hm]
    split
    · rename_i e
      rw [if_pos e] at hd
      intro r hr b l hl hle
      exact hd r (hc ▸ hr) b l (hdisk b l hl) hle
    · rename_i e
      rw [if_neg e] at hd
      exact hd

theorem readCached_some {l : Option Meta.Params} {n : Nat} {p : Meta.Params} (h : Meta.readCached l n = some p) : l = some p ∧ n ≤ p.seq := by
  unfold Meta.readCached at h
  split at h
  · cases h
  · split at h
    · cases h
    · rename_i hlt
      cases h
      exact ⟨rfl, by omega⟩

/-- When mount uses the metadata that the computer has. -/
theorem mountCheck_cached {cur l : Option Meta.Params} (h : Meta.mountCheck cur l = .cached) : ∃ r, cur = some r ∧ l = some r ∧ r.mounted = false := by
  unfold Meta.mountCheck at h
  split at h
  · cases h
  · rename_i r
    split at h
    · rename_i p hp
      obtain ⟨h1, h2⟩ := readCached_some hp
      split at h
      · cases h
      split at h
      · cases h
      rename_i hne
      have e : p = r := Classical.not_not.1 hne
      subst e
      split at h
      · cases h
      · rename_i hm
        exact ⟨p, rfl, h1, by simpa using hm⟩
    · split at h
      · cases h
      · split at h <;> cases h

theorem mountCheck_download {cur l : Option Meta.Params} (h : Meta.mountCheck cur l = .download) : ∃ r, cur = some r ∧ r.mounted = false := by
  unfold Meta.mountCheck at h
  split at h
  · cases h
  · rename_i r
    split at h
    · split at h
      · cases h
      split at h
      · cases h
      split at h
      · cases h
      split at h <;> cases h
    · split at h
      · cases h
      · rename_i hm
        exact ⟨r, rfl, by simpa using hm⟩

theorem sqlOk_late {pr : Meta.Proc} (h : Meta.sqlOk pr = true) : isLate pr.pc = true := by
  unfold Meta.sqlOk at h
  cases hpc : pr.pc <;> first | rfl | (rw [hpc] at h; cases h)

theorem dirs_step {P : CacheDir → Prop} (hnil : P []) {w w' : Meta.World} {op : Meta.Op} {d : Nat → CacheDir} (ha : Ahead w) (hd : DirsOk P w d) (hc : Calm w) (hm : Mine op)
    (hs : Meta.step cfg w op = some w') : Ahead w' ∧ DirsOk P w' (dirsAfter d w' op) := by
  cases hp : w.proc with
  | none =>
    have hf : Fine P w d := by unfold DirsOk at hd; rw [hp] at hd; exact hd
    unfold Meta.step at hs
    rw [hp] at hs
    dsimp only at hs
    cases op with
    | startMount m =>
      dsimp only at hs
      split at hs
      · rename_i r hmc hr
        cases hs
        obtain ⟨r', hr', hl, hmt⟩ := mountCheck_cached hmc
        rw [hr] at hr'; cases hr'
        constructor
        · intro q hq
          cases hq
          exact ⟨r, hr, rfl, fun b l hl => hc hp r hr hmt b l hl⟩
        · exact hf r hr m r hl (Nat.le_refl _)
      · rename_i r hmc hr
        cases hs
        obtain ⟨r', hr', hmt⟩ := mountCheck_download hmc
        rw [hr] at hr'; cases hr'
        constructor
        · intro q hq
          cases hq
          exact ⟨r, hr, rfl, fun b l hl => hc hp r hr hmt b l (params_same (w := w) (m := m) (d := { w.disk m with db := [] }) hl rfl)⟩
        · show Fine P _ d
          intro r1 hr1 b l hl hle
          exact hf r1 hr1 b l (params_same (w := w) (m := m) (d := { w.disk m with db := [] }) hl rfl) hle
      · cases hs; exact ⟨ha, hd⟩
    | idleCkpt m =>
      dsimp only at hs
      split at hs
      · cases hs
      · rename_i o t hw
        cases hs
        refine none_to hp ?_
        intro r1 hr1 b l hl hle
        exact hf r1 hr1 b l (params_same (w := w) (m := m) (d := { w.disk m with db := o.apply (w.disk m).db, wal := t }) hl rfl) hle
    | startFsck => exact absurd hm id
    | restoreCrash => exact absurd hm id
    | restore => exact absurd hm id
    | _ => cases hs
  | some pr =>
    by_cases hn : op = .next
    · subst hn
      rw [Meta.step_next hp] at hs
      exact dirs_next ha hd hp hs
    have hh := ha pr hp
    have hL : isLate pr.pc = true → Late w.remote.cur w.disk pr ∧ P (d pr.m) := by
      intro hl
      refine ⟨(ahead_late hl).1 hh, ?_⟩
      unfold DirsOk at hd
      rw [hp] at hd
      dsimp only at hd
      rw [if_neg (late_dl hl)] at hd
      exact hd
    unfold Meta.step at hs
    rw [hp] at hs
    dsimp only at hs
    cases op with
    | next => exact absurd rfl hn
    | crash => exact absurd hm id
    | dlPart f =>
      dsimp only at hs
      split at hs
      · cases hs
        exact ahead_keep ha hd hp hp rfl rfl rfl rfl (fun b l h => params_same (w := w) h rfl)
      · cases hs
    | dlEnd order =>
      dsimp only at hs
      split at hs
      · rename_i hpc
        unfold DirsOk at hd
        rw [hp] at hd
        dsimp only at hd
        rw [if_pos hpc] at hd
        split at hs
        · cases hs
          constructor
          · intro q hq
            cases hq
            unfold AheadAt at hh
            rw [hpc] at hh
            obtain ⟨r, hr, h1, h2⟩ := hh
            exact ⟨r, hr, h1, fun b l h => h2 b l (params_same (w := w) h rfl)⟩
          · show P (setDir d pr.m [] pr.m)
            unfold setDir
            rw [if_pos rfl]
            exact hnil
        · cases hs
          exact none_to rfl hd
      · cases hs
    | early o => exact absurd hm id
    | sql o =>
      dsimp only at hs
      split at hs
      · cases hs
        exact ahead_keep ha hd hp hp rfl rfl rfl rfl (fun b l h => params_same (w := w) h rfl)
      · cases hs
    | ckpt =>
      dsimp only at hs
      split at hs
      · split at hs
        · cases hs
        · cases hs
          exact ahead_keep ha hd hp rfl rfl rfl rfl rfl (fun b l h => params_same (w := w) h rfl)
      · cases hs
    | startPass =>
      dsimp only at hs
      split at hs
      · rename_i hc
        obtain ⟨hl, hPm⟩ := hL (by rw [hc.1]; rfl)
        cases hs
        exact late_to rfl rfl (hl.mono rfl (Nat.le_refl _) (fun _ _ _ h => h)) hPm
      · cases hs
    | startSnap stamp =>
      dsimp only at hs
      split at hs
      · rename_i hc
        obtain ⟨hl, hPm⟩ := hL (by rw [hc.1]; rfl)
        cases hs
        exact late_to rfl rfl (hl.mono rfl (Nat.le_refl _) (fun _ _ _ h => h)) hPm
      · cases hs
    | read b n =>
      dsimp only at hs
      split at hs
      · rename_i hc
        obtain ⟨hl, hPm⟩ := hL (by rw [hc]; rfl)
        cases hs
        exact late_to rfl rfl (hl.mono rfl (Nat.le_refl _) (fun _ _ _ h => h)) hPm
      · cases hs
    | put b =>
      dsimp only at hs
      split at hs
      · rename_i hc
        obtain ⟨hl, hPm⟩ := hL (by rw [hc]; rfl)
        split at hs
        · split at hs
          · cases hs
            exact late_to rfl rfl (hl.mono rfl (Nat.le_refl _) (fun _ _ _ h => h)) hPm
          · cases hs
        · cases hs
      · cases hs
    | finish stamp flag =>
      dsimp only at hs
      split at hs
      · rename_i hc
        obtain ⟨hl, hPm⟩ := hL (by rw [hc]; rfl)
        cases hs
        refine late_to rfl rfl (hl.mono rfl ?_ (fun b l hb h => params_set hb h)) hPm
        show pr.p.seq ≤ _
        cases pr.kind <;> exact Nat.le_refl _
      · cases hs
    | _ => cases hs

theorem orderly_of {w w' : Meta.World} {op : Meta.Op} (hc : Calm w) (hm : Mine op)
    (hd : ∀ order, op = .dlEnd order → ∀ l, (order l).Perm l) (hs : Meta.step cfg w op = some w') : Meta.Orderly w op := by
  cases op with
  | startMount m =>
    cases hp : w.proc with
    | none => exact hc.alone hp m
    | some pr => unfold Meta.step at hs; rw [hp] at hs; cases hs
  | dlEnd order => exact hd order rfl
  | startFsck => exact absurd hm id
  | early => exact absurd hm id
  | restoreCrash => exact absurd hm id
  | restore => exact absurd hm id
  | crash => exact absurd hm id
  | _ => trivial

/-- SQL statements. -/
theorem sqls {pr : Meta.Proc} : ∀ (ops : List Meta.FileOp) (t : Bytes) (w w' : Meta.World), Meta.Inv cfg (fun _ => True) t w → w.proc = some pr →
    Meta.exec cfg w (ops.map .sql) = some w' → (∃ t', Meta.Inv cfg (fun _ => True) t' w') ∧ w'.proc = some pr
  | [], t, _, _, h, hp, he => by cases he; exact ⟨⟨t, h⟩, hp⟩
  | o :: ops, t, w, w', h, hp, he => by
    rw [List.map_cons] at he
    unfold Meta.exec at he
    split at he
    · cases he
    · rename_i w1 hs
      have h1 := Meta.inv_step (op := .sql o) trivial trivial h trivial hs
      have hp1 : w1.proc = some pr := by
        unfold Meta.step at hs
        rw [hp] at hs
        dsimp only at hs
        split at hs
        · cases hs; exact hp
        · cases hs
      exact sqls ops _ w1 w' h1 hp1 he

/-- The files in the cache directory have the contents of the blocks. -/
def Valid (mem : Cache.Key → Bytes) (dir : CacheDir) : Prop := AL.NK dir ∧ ∀ k b, AL.get dir k = some b → b = mem k

theorem get_map {β γ : Type} (g : β → γ) : ∀ (l : List (Cache.Key × β)) (k : Cache.Key), AL.get (l.map (fun x => (x.1, g x.2))) k = (AL.get l k).map g
  | [], _ => rfl
  | (k', v) :: l, k => by
    rw [List.map_cons]
    unfold AL.get
    split
    · rfl
    · exact get_map g l k

theorem nk_map {β γ : Type} (g : β → γ) {l : List (Cache.Key × β)} (h : AL.NK l) : AL.NK (l.map (fun x => (x.1, g x.2))) := by
  unfold AL.NK at h ⊢
  rw [List.map_map]
  exact h

theorem sumBy_map {β γ : Type} (g : β → γ) (f : Cache.Key → γ → Int) : ∀ (l : List (Cache.Key × β)),
    AL.sumBy f (l.map (fun x => (x.1, g x.2))) = AL.sumBy (fun k v => f k (g v)) l
  | [] => rfl
  | (k, v) :: l => by
    rw [List.map_cons]
    unfold AL.sumBy
    rw [sumBy_map g f l]

theorem idle_parts {keep : Bool} {s : Fs} (hi : s.idle keep = true) : (∀ x ∈ s.tasks, x.2.running = false) ∧ (∀ x ∈ s.c.cache, x.2.dirty = false) ∧
    s.c.inflight = [] ∧ s.c.pending = [] ∧ s.c.derefs = [] ∧ s.c.removals = [] := by
  unfold Fs.idle at hi
  simp only [Bool.and_eq_true, List.isEmpty_iff, List.all_eq_true, Bool.not_eq_true'] at hi
  obtain ⟨⟨⟨⟨⟨i1, i2⟩, i3⟩, i4⟩, i5⟩, i6⟩ := hi
  refine ⟨i1, ?_, i3, i4, i5, i6⟩
  cases keep with
  | true => simpa using i2
  | false =>
    have : s.c.cache = [] := by simpa using i2
    rw [this]; simp

/-- What is left in the cache directory is valid. -/
theorem valid_left {keep : Bool} {s : Fs} {mem : Cache.Key → Bytes} {D : Nat → Bytes} (h : Cache.Inv H s.c mem D) : Valid mem (s.left keep) := by
  unfold Fs.left
  cases keep with
  | false => exact ⟨by simp [AL.NK], fun k b hk => by cases hk⟩
  | true =>
    rw [if_pos rfl]
    refine ⟨nk_map _ h.nkc, fun k b hk => ?_⟩
    rw [get_map (fun e : Cache.Entry => e.content)] at hk
    cases he : AL.get s.c.cache k with
    | none => rw [he] at hk; cases hk
    | some e => rw [he] at hk; cases hk; exact h.cont k e he

/-- The files survive that the file system is left and started again. -/
theorem FInv.start {s : Fs} {A : Nat → Bytes} {mem : Cache.Key → Bytes} {D : Nat → Bytes} {keep : Bool} {dir : CacheDir} (h : FInv H s A mem D)
    (hi : s.idle keep = true) (hv : Valid mem dir) : FInv H (Fs.start s.bs s.tables s.c.backend s.c.leaked dir) A mem D := by
  have hc := h.cache
  obtain ⟨i1, i2, i3, i4, i5, i6⟩ := idle_parts hi
  have hrow : ∀ k, Cache.rowData D (AL.get s.c.rows k) = mem k := by
    intro k
    cases he : AL.get s.c.cache k with
    | none => exact hc.absent k he
    | some e => exact hc.clean k e he (i2 _ (AL.get_some_mem he))
  have hget : ∀ k e, AL.get (Fs.start s.bs s.tables s.c.backend s.c.leaked dir).c.cache k = some e → ∃ b, AL.get dir k = some b ∧ e = ⟨b, false, false⟩ := by
    intro k e he
    unfold Fs.start at he
    dsimp only at he
    rw [get_map (fun b : Bytes => (⟨b, false, false⟩ : Cache.Entry))] at he
    cases hb : AL.get dir k with
    | none => rw [hb] at he; cases he
    | some b => rw [hb] at he; cases he; exact ⟨b, rfl, rfl⟩
  refine ⟨h.bs, ?_, by simp [Fs.start, AL.NK], fun _ _ _ _ _ h1 => by simp [Fs.start, AL.get] at h1, ?_, fun _ _ _ h1 => by simp [Fs.start, AL.get] at h1, h.small,
    fun i _ => h.extRest i (fun t x hx => not_running (i1 (t, x) (AL.get_some_mem hx)) i), fun _ _ _ h1 => by simp [Fs.start, AL.get] at h1⟩
  · have hrc := hc.refc
    rw [i4, i5] at hrc
    constructor
    case nkc => exact nk_map (fun b : Bytes => (⟨b, false, false⟩ : Cache.Entry)) hv.1
    case nkr => exact hc.nkr
    case nko => exact hc.nko
    case rowObj => exact hc.rowObj
    case objId => exact hc.objId
    case objHash => exact hc.objHash
    case backD => exact hc.backD
    case upl => exact hc.upl
    case refc => exact hrc
    case leakObj => exact hc.leakObj
    case uniq => exact hc.uniq
    case absent => exact fun k _ => hrow k
    case clean => exact fun k _ _ _ => hrow k
    case cont =>
      intro k e he
      obtain ⟨b, h1, h2⟩ := hget k e he
      rw [h2]; exact hv.2 k b h1
    case tran =>
      intro k e he ht
      obtain ⟨b, h1, h2⟩ := hget k e he
      rw [h2] at ht; cases ht
    case sz =>
      unfold Fs.start
      dsimp only
      rw [sumBy_map (fun b : Bytes => (⟨b, false, false⟩ : Cache.Entry))]
      rfl
    all_goals simp [Fs.start, AL.NK, AL.get, Cache.upObj, Cache.isUser]
  · intro i _
    have := h.rest i (fun t x hx => not_running (i1 (t, x) (AL.get_some_mem hx)) i)
    exact this

/-- The invariant of the whole system. -/
structure WInv (cfg : Meta.Cfg) (H : Bytes → Bytes) (dec : Bytes → Option Tables) (w : World) (A : Nat → Bytes) (t : Bytes)
    (mem : Cache.Key → Bytes) (D : Nat → Bytes) : Prop where
  mi : Meta.Inv cfg (fun _ => True) t w.mw
  db : dec t = some w.fs.tables
  calm : Calm w.mw
  ahead : Ahead w.mw
  fi : FInv H w.fs A mem D
  idle : w.up = false → ∃ keep, w.fs.idle keep = true
  dirs : w.up = false → DirsOk (Valid mem) w.mw w.dirs

theorem sqlOk_dl {pr : Meta.Proc} (h : Meta.sqlOk pr = true) : pr.pc ≠ .dl := by
  intro hc; unfold Meta.sqlOk at h; rw [hc] at h; cases h

theorem sqls_ahead {pr : Meta.Proc} : ∀ (ops : List Meta.FileOp) (t : Bytes) (w w' : Meta.World), Meta.Inv cfg (fun _ => True) t w → w.proc = some pr → Ahead w →
    Meta.exec cfg w (ops.map .sql) = some w' → Ahead w'
  | [], t, _, _, _, _, ha, he => by cases he; exact ha
  | o :: ops, t, w, w', h, hp, ha, he => by
    rw [List.map_cons] at he
    unfold Meta.exec at he
    split at he
    · cases he
    · rename_i w1 hs
      have h1 := Meta.inv_step (op := .sql o) trivial trivial h trivial hs
      have hp1 : w1.proc = some pr := by
        unfold Meta.step at hs
        rw [hp] at hs
        dsimp only at hs
        split at hs
        · cases hs; exact hp
        · cases hs
      have ha1 : Ahead w1 := by
        have hd : DirsOk (fun _ => True) w (fun _ => []) := by
          unfold DirsOk
          rw [hp]
          dsimp only
          split
          · exact fun _ _ _ _ _ _ => trivial
          · trivial
        exact (dirs_step (P := fun _ => True) (op := .sql o) trivial ha hd (calm_some hp) trivial hs).1
      exact sqls_ahead ops _ w1 w' h1 hp1 ha1 he

theorem WInv.step {w w' : World} {A : Nat → Bytes} {mem : Cache.Key → Bytes} {D : Nat → Bytes} {ev : Ev} (hH : Function.Injective H)
    (h : WInv cfg H dec w A t mem D) (hd : Plain ev) (hs : step cfg H dec w ev = some w') :
    ∃ t' mem' D', WInv cfg H dec w' (next A w w' ev) t' mem' D' := by
  have hnil : Valid mem [] := ⟨by simp [AL.NK], fun k b hk => by cases hk⟩
  have htriv : ∀ (mw : Meta.World) (d : Nat → CacheDir), DirsOk (fun _ => True) mw d := by
    intro mw d
    unfold DirsOk
    split
    · split
      · exact fun _ _ _ _ _ _ => trivial
      · trivial
    · exact fun _ _ _ _ _ _ => trivial
  cases ev with
  | proto op =>
    obtain ⟨hpr, hperm⟩ := hd op rfl
    have hm := isProto_mine hpr
    unfold System.step at hs
    dsimp only at hs
    split at hs
    · split at hs
      · rename_i mw hmw
        cases hs
        have h1 := Meta.inv_step (op := op) trivial trivial h.mi (orderly_of h.calm hm hperm hmw) hmw
        rw [mine_truth hpr] at h1
        exact ⟨t, mem, D, h1, h.db, calm_step h.mi h.calm hm hmw, (dirs_step (P := fun _ => True) trivial h.ahead (htriv _ w.dirs) h.calm hm hmw).1, h.fi, h.idle,
          fun hu => (dirs_step hnil h.ahead (h.dirs hu) h.calm hm hmw).2⟩
      · cases hs
    · cases hs
  | finish keep stamp flag =>
    unfold System.step at hs
    dsimp only at hs
    split at hs
    · rename_i pr hpr
      split at hs
      · split at hs
        · rename_i hu
          split at hs
          · rename_i mw hmw
            cases hs
            have hu' := (Bool.and_eq_true _ _ ▸ hu : _ ∧ _)
            refine ⟨t, mem, D, Meta.inv_step (op := .finish stamp flag) trivial trivial h.mi trivial hmw, h.db,
              calm_step (op := .finish stamp flag) h.mi h.calm trivial hmw,
              (dirs_step (P := fun _ => True) (op := .finish stamp flag) trivial h.ahead (htriv _ w.dirs) h.calm trivial hmw).1, h.fi, fun _ => ⟨keep, hu'.2⟩, fun _ => ?_⟩
            unfold Meta.step at hmw
            rw [hpr] at hmw
            dsimp only at hmw
            split at hmw
            · cases hmw
              show Valid mem (setDir w.dirs pr.m (w.fs.left keep) pr.m)
              unfold setDir
              rw [if_pos rfl]
              exact valid_left h.fi.cache
            · cases hmw
          · cases hs
        · cases hs
      · split at hs
        · rename_i mw hmw
          cases hs
          exact ⟨t, mem, D, Meta.inv_step (op := .finish stamp flag) trivial trivial h.mi trivial hmw, h.db,
            calm_step (op := .finish stamp flag) h.mi h.calm trivial hmw,
            (dirs_step (P := fun _ => True) (op := .finish stamp flag) trivial h.ahead (htriv _ w.dirs) h.calm trivial hmw).1, h.fi, h.idle,
            fun hu => (dirs_step (op := .finish stamp flag) hnil h.ahead (h.dirs hu) h.calm trivial hmw).2⟩
        · cases hs
    · cases hs
  | attach =>
    unfold System.step at hs
    dsimp only at hs
    split at hs
    · rename_i pr hpr
      split at hs
      · rename_i hc
        split at hs
        · rename_i tb htb
          cases hs
          have hv := Meta.view_of_inv h.mi hpr (by rw [hc.2.2]; simp)
          rw [hv, h.db] at htb
          cases htb
          have hvd : Valid mem (w.dirs pr.m) := by
            have := h.dirs hc.1
            unfold DirsOk at this
            rw [hpr] at this
            dsimp only at this
            rw [if_neg (by rw [hc.2.2]; simp)] at this
            exact this
          obtain ⟨keep, hk⟩ := h.idle hc.1
          refine ⟨t, mem, D, h.mi, h.db, h.calm, h.ahead, h.fi.start hk hvd, fun hf => (by cases hf), fun hf => (by cases hf)⟩
        · cases hs
      · cases hs
    · cases hs
  | fs ev ops =>
    unfold System.step at hs
    dsimp only at hs
    split at hs
    · rename_i pr hpr
      split at hs
      · rename_i hc
        split at hs
        · rename_i fs mw hfs hmw
          split at hs
          · rename_i hdec
            cases hs
            obtain ⟨⟨t', h1⟩, hp1⟩ := sqls ops t _ _ h.mi hpr hmw
            obtain ⟨mem', D', h2⟩ := h.fi.step hH hfs
            have hc' := (Bool.and_eq_true _ _ ▸ hc : _ ∧ _)
            have hv := Meta.view_of_inv h1 hp1 (sqlOk_dl hc'.2)
            refine ⟨t', mem', D', h1, by rw [hv] at hdec; exact hdec, calm_some hp1, sqls_ahead ops t _ _ h.mi hpr h.ahead hmw, h2, fun hf => ?_, fun hf => ?_⟩ <;>
              (dsimp only at hf; rw [hc'.1] at hf; cases hf)
          · cases hs
        · cases hs
      · cases hs
    · cases hs

theorem WInv.exec (hH : Function.Injective H) : ∀ (evs : List Ev) (w w' : World) (A : Nat → Bytes) (t : Bytes) (mem : Cache.Key → Bytes) (D : Nat → Bytes),
    WInv cfg H dec w A t mem D → (∀ ev ∈ evs, Plain ev) → exec cfg H dec w evs = some w' →
    ∃ t' mem' D', WInv cfg H dec w' (contents cfg H dec w evs A) t' mem' D'
  | [], _, _, _, t, mem, D, h, _, he => by cases he; exact ⟨t, mem, D, h⟩
  | ev :: evs, w, w', A, t, mem, D, h, hd, he => by
    unfold System.exec at he
    unfold contents
    split at he
    · cases he
    · rename_i w1 hs
      rw [hs]
      obtain ⟨t1, m1, D1, h1⟩ := h.step hH (hd ev List.mem_cons_self) hs
      exact WInv.exec hH evs w1 w' _ t1 m1 D1 h1 (fun e he => hd e (List.mem_cons_of_mem _ he)) he

/-- The tables of an empty file system. -/
def noTables : Tables := ⟨[], [], 1, []⟩

theorem winv_mkfs (cfg : Meta.Cfg) (H : Bytes → Bytes) {dec : Bytes → Option Tables} {bs : Nat} (m now : Nat) {f : Bytes} (hb : 0 < bs) (hf : dec f = some noTables) :
    WInv cfg H dec (mkfs cfg bs m now f) (fun _ => []) f (fun _ => []) (fun _ => []) := by
  refine ⟨Meta.inv_mkfs cfg _ m now f trivial, hf, ?_, fun _ hq => (by cases hq), ?_, fun _ => ⟨false, rfl⟩, fun _ => fun _ _ _ _ _ _ => ⟨by simp [mkfs, AL.NK], fun k b hk => by cases hk⟩⟩
  · obtain ⟨r, hb, h⟩ := Meta.inv_mkfs cfg (fun _ => True) m now f trivial
    intro _ r' hr' _ b l hl
    have hr : r' = { seq := now, dbSize := f.length, digest := cfg.hash f, mounted := false, needsFsck := false, lastFsck := now, lastMod := now } := (Option.some.inj hr').symm
    unfold mkfs Meta.mkfs at hl
    dsimp only at hl
    split at hl
    · cases hl; rw [hr]; exact Nat.le_refl _
    · cases hl
  · refine ⟨hb, Cache.inv_init H, by simp [mkfs, AL.NK], fun _ _ _ _ _ h1 => by simp [mkfs, AL.get] at h1, ?_, fun _ _ _ h1 => by simp [mkfs, AL.get] at h1, fun _ => Nat.zero_le _,
      fun _ _ _ h1 => absurd rfl h1, fun _ _ _ h1 => by simp [mkfs, AL.get] at h1⟩
    intro i _
    exact ⟨rfl, fun x => by unfold byte; rfl⟩

end
end Verif.System
