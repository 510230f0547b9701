import Verif.Meta.ProtoSteps3
/-
The invariant of the protocol holds after every orderly history.
-/
namespace Verif.Meta

section
variable {cfg : Cfg} {Q : Bytes → Prop} {t : Bytes} {w w' : World} {r : Params} {pr : Proc}

/-- What `Clean` means for one machine. -/
theorem Clean.cached (h : Clean cfg w.remote w.disk r t) {m : Nat} {p : Params} (hc : readCached (w.disk m).params r.seq = some p) :
    p = r ∧ (w.disk m).params = some r ∧ (w.disk m).db = t := by
  unfold readCached at hc
  split at hc
  · cases hc
  · rename_i l hl
    split at hc
    · cases hc
    · rename_i hlt
      cases hc
      rcases (h.2.2 m).2 _ hl with e | ⟨e, e2⟩
      · omega
      · exact ⟨e, by rw [hl, e], e2⟩

theorem uncached {l : Option Params} {n : Nat} (hc : readCached l n = none) : ∀ p, l = some p → p.seq < n := by
  intro p hp
  subst hp
  unfold readCached at hc
  dsimp only at hc
  split at hc
  · assumption
  · cases hc

theorem inv_dlStart (hb : Base cfg Q w.remote r) (h : Clean cfg w.remote w.disk r t) {m : Nat} (k : Kind)
    (hl : ∀ l, (w.disk m).params = some l → l.seq < r.seq) :
    Inv cfg Q t ((w.setDisk m { w.disk m with db := [] }).setProc { m := m, kind := k, p := r, dirty := [], early := false, pc := .dl }) := by
  refine Inv.mk (rr := r) hb rfl ?_
  unfold PcInv
  dsimp only
  refine ⟨h.setDb (dOff w m _) (by rw [setProc_disk, setDisk_same]) (by rw [setProc_disk, setDisk_same]) hl, rfl, rfl, ?_⟩
  rw [setProc_disk, setDisk_same]; exact hl

/-- No mount starts while a machine has the only copy. -/
theorem Owned.mountCheck {a m : Nat} (h : Owned cfg Q w.remote w.disk r t a) (hb : Base cfg Q w.remote r) (ha : Alone w m) :
    mountCheck w.remote.cur (w.disk m).params ≠ .cached ∧ mountCheck w.remote.cur (w.disk m).params ≠ .download := by
  obtain ⟨l, g1, g2, g3, g4, g5, g6, g7, g8, g9⟩ := h
  rw [hb.cur]
  unfold Meta.mountCheck
  dsimp only
  cases hc : readCached (w.disk m).params r.seq with
  | none =>
    dsimp only
    cases hm : r.mounted with
    | true => simp
    | false =>
      exfalso
      by_cases hne : a = m
      · subst hne
        have := uncached hc l g1
        omega
      · have := ha r hb.cur hm a hne l g1
        have := g3 hm
        omega
  | some p =>
    dsimp only
    have hp : (w.disk m).params = some p ∧ r.seq ≤ p.seq := by
      unfold readCached at hc
      split at hc
      · cases hc
      · split at hc
        · cases hc
        · rename_i hl hlt; cases hc; exact ⟨hl, by omega⟩
    split
    · simp
    · rename_i hle
      split
      · simp
      · split
        · simp
        · rename_i hnm
          exfalso
          by_cases hne : a = m
          · subst hne
            rw [g1] at hp
            have := Option.some.inj hp.1
            subst this
            have := g3 (by simpa using hnm)
            omega
          · have := ha r hb.cur (by simpa using hnm) a hne l g1
            have := g3 (by simpa using hnm)
            omega

theorem inv_startMount (hQ : Q t) (hpr : w.proc = none) (h : Inv cfg Q t w) {m : Nat} (ha : Alone w m) (hs : step cfg w (.startMount m) = some w') :
    Inv cfg Q t w' := by
  obtain ⟨r, hb, h⟩ := h
  have hinv : Inv cfg Q t w := ⟨r, hb, h⟩
  rw [hpr] at h
  dsimp only at h
  unfold step at hs
  rw [hpr] at hs
  dsimp only at hs
  rcases h with h | ⟨a, h⟩
  · rw [hb.cur] at hs
    cases hc : readCached (w.disk m).params r.seq with
    | none =>
      cases hn : r.needsFsck with
      | true =>
        simp only [mountCheck, hc, hn, h.1, if_true] at hs
        cases hs; exact hinv
      | false =>
        simp only [mountCheck, hc, hn, h.1] at hs
        cases hs
        exact inv_dlStart hb h .mount (uncached hc)
    | some p =>
      obtain ⟨e1, e2, e3⟩ := h.cached hc
      subst e1
      cases hn : p.needsFsck with
      | true =>
        simp only [mountCheck, hc, hn, h.1, if_true] at hs
        simp at hs
        subst hs; exact hinv
      | false =>
        simp only [mountCheck, hc, hn, h.1] at hs
        simp at hs
        subst hs
        exact Inv.mk (rr := p) hb rfl (got_clean hQ rfl h rfl e3)
  · obtain ⟨h1, h2⟩ := h.mountCheck hb ha
    split at hs
    · rename_i e _; exact absurd e h1
    · rename_i e _; exact absurd e h2
    · cases hs; exact hinv

theorem inv_startFsck (hQ : Q t) (hpr : w.proc = none) (h : Inv cfg Q t w) {m : Nat} {force : Bool} (ha : Alone w m)
    (hs : step cfg w (.startFsck m force false) = some w') : Inv cfg Q t w' := by
  obtain ⟨r, hb, h⟩ := h
  have hinv : Inv cfg Q t w := ⟨r, hb, h⟩
  rw [hpr] at h
  dsimp only at h
  unfold step at hs
  rw [hpr] at hs
  dsimp only at hs
  rw [hb.cur] at hs
  rcases h with h | ⟨a, h⟩
  · cases hc : readCached (w.disk m).params r.seq with
    | none =>
      cases hn : (!r.needsFsck && !force) with
      | true =>
        simp only [fsckCheck, hc, hn, h.1, Bool.false_eq_true, if_false, if_true] at hs
        cases hs; exact hinv
      | false =>
        simp only [fsckCheck, hc, hn, h.1, Bool.false_eq_true, if_false] at hs
        cases hs
        exact inv_dlStart hb h .fsck (uncached hc)
    | some p =>
      obtain ⟨e1, e2, e3⟩ := h.cached hc
      subst e1
      cases hn : (!p.needsFsck && !force) with
      | true =>
        simp only [fsckCheck, hc, hn, h.1, Bool.false_eq_true, if_false, if_true] at hs
        cases hs; exact hinv
      | false =>
        simp only [fsckCheck, hc, hn, h.1, Bool.false_eq_true, if_false] at hs
        cases hs
        exact Inv.mk (rr := p) hb rfl (got_clean hQ rfl h rfl e3)
  · obtain ⟨l, g1, g2, g3, g4, g5, g6, g7, g8, g9⟩ := h
    by_cases hne : a = m
    · subst hne
      have hc : readCached (w.disk a).params r.seq = some l := by
        unfold readCached
        rw [g1]
        dsimp only
        rw [if_neg (by omega)]
      have hgot : ∀ p : Params, p.seq = l.seq → p.dbSize = l.dbSize → (l.mounted = true → p.needsFsck = true) →
          Inv cfg Q t (w.setProc { m := a, kind := .fsck, p := p, dirty := [], early := false, pc := .got }) := by
        intro p e1 e2 e3
        refine Inv.mk (rr := r) hb rfl ?_
        unfold PcInv
        dsimp only
        refine Or.inr ⟨⟨l, g1, g2, g3, g4, g5, g6, g7, g8, g9⟩, rfl, by omega, g7.mono hb.below (by omega) e2, ?_, rfl⟩
        rcases g8 with g8 | ⟨g8, _, g10⟩
        · exact Or.inl (e3 g8)
        · right
          have := g10.2.2
          rw [g8] at this
          exact this
      simp only [fsckCheck, hc] at hs
      cases hm : l.mounted with
      | true =>
        simp only [hm, if_true, Bool.not_true, Bool.false_and, Bool.false_eq_true, if_false] at hs
        cases hs
        exact hgot _ rfl rfl (fun _ => rfl)
      | false =>
        simp only [hm, Bool.false_eq_true, if_false] at hs
        split at hs
        · rename_i p hp
          cases hs
          split at hp
          · cases hp
          · cases hp
            exact hgot _ rfl rfl (fun e => by rw [hm] at e; cases e)
        · rename_i p hp
          split at hp <;> cases hp
        · cases hs; exact hinv
    · have hlt : r.mounted = true ∧ readCached (w.disk m).params r.seq = none := by
        cases hm : r.mounted with
        | false =>
          have := ha r hb.cur hm a hne l g1
          have := g3 hm
          omega
        | true =>
          refine ⟨rfl, ?_⟩
          unfold readCached
          split
          · rfl
          · rename_i p hp
            rw [if_pos (((g9 m (Ne.symm hne)).2 p hp).2 hm)]
      simp only [fsckCheck, hlt.1, hlt.2, if_true, Bool.false_eq_true, if_false] at hs
      cases hs; exact hinv

theorem inv_idleCkpt (hpr : w.proc = none) (h : Inv cfg Q t w) {m : Nat} (hs : step cfg w (.idleCkpt m) = some w') : Inv cfg Q t w' := by
  obtain ⟨r, hb, h⟩ := h
  rw [hpr] at h
  dsimp only at h
  unfold step at hs
  rw [hpr] at hs
  dsimp only at hs
  split at hs
  · cases hs
  · rename_i o l hw
    replace hs := (Option.some.inj hs).symm
    subst hs
    rcases h with h | ⟨a, h⟩
    · rw [(h.2.2 m).1] at hw; cases hw
    · by_cases hne : m = a
      · subst hne
        refine ⟨r, hb, ?_⟩
        rw [show (w.setDisk m { w.disk m with db := o.apply (w.disk m).db, wal := l }).proc = none from hpr]
        exact Or.inr ⟨m, (h.ckpt (dOff w m _) hw (setDisk_same w m _)).1⟩
      · obtain ⟨l, g1, g2, g3, g4, g5, g6, g7, g8, g9⟩ := h
        rw [(g9 m hne).1] at hw; cases hw

/-- Every orderly step preserves the invariant. -/
theorem inv_step {op : Op} (hQ : Q t) (hQ' : Q (truth t [op])) (h : Inv cfg Q t w) (ho : Orderly w op)
    (hs : step cfg w op = some w') : Inv cfg Q (truth t [op]) w' := by
  cases hpr : w.proc with
  | none =>
    cases op with
    | startMount m => exact inv_startMount hQ hpr h ho hs
    | startFsck m force answer =>
      obtain ⟨ha, rfl⟩ := ho
      exact inv_startFsck hQ hpr h ha hs
    | idleCkpt m => exact inv_idleCkpt hpr h hs
    | restoreCrash m d => exact absurd ho id
    | restore m s now order => exact absurd ho id
    | dlPart d => unfold step at hs; rw [hpr] at hs; cases hs
    | dlEnd order => unfold step at hs; rw [hpr] at hs; cases hs
    | early o => unfold step at hs; rw [hpr] at hs; cases hs
    | next => unfold step at hs; rw [hpr] at hs; cases hs
    | sql o => unfold step at hs; rw [hpr] at hs; cases hs
    | ckpt => unfold step at hs; rw [hpr] at hs; cases hs
    | startPass => unfold step at hs; rw [hpr] at hs; cases hs
    | startSnap stamp => unfold step at hs; rw [hpr] at hs; cases hs
    | read b n => unfold step at hs; rw [hpr] at hs; cases hs
    | put b => unfold step at hs; rw [hpr] at hs; cases hs
    | finish stamp flag => unfold step at hs; rw [hpr] at hs; cases hs
    | crash => unfold step at hs; rw [hpr] at hs; cases hs
  | some pr =>
    obtain ⟨r, hb, hi⟩ := h
    rw [hpr] at hi
    dsimp only at hi
    unfold step at hs
    rw [hpr] at hs
    cases op with
    | startMount m => cases hs
    | startFsck m force answer => cases hs
    | idleCkpt m => cases hs
    | restoreCrash m d => cases hs
    | restore m s now order => cases hs
    | crash =>
      cases hs
      exact inv_crash hb hi (ho pr hpr)
    | next => exact inv_next hQ hb hi hs
    | dlPart d =>
      dsimp only at hs
      split at hs
      · rename_i hpc; cases hs; exact inv_dlPart hb hpr hpc hi d
      · cases hs
    | dlEnd order =>
      dsimp only at hs
      split at hs
      · rename_i hpc
        split at hs
        · rename_i f hf
          cases hs
          exact inv_dlEnd hQ hb hpc hi ho hf
        · cases hs
          exact inv_crash hb hi (fun e => by rw [hpc] at e; cases e)
      · cases hs
    | early o =>
      dsimp only at hs
      split at hs
      · rename_i hc
        cases hs
        exact inv_early hb hc.1 hc.2.1 hi hc.2.2 hQ'
      · cases hs
    | sql o =>
      dsimp only at hs
      split at hs
      · rename_i hc
        cases hs
        exact inv_sql hb hpr hc.1 hi hc.2 hQ'
      · cases hs
    | ckpt =>
      dsimp only at hs
      split at hs
      · rename_i hc
        split at hs
        · cases hs
        · rename_i o l hw
          cases hs
          exact inv_ckpt hb hc hi hw
      · cases hs
    | startPass =>
      dsimp only at hs
      split at hs
      · rename_i hc; cases hs; exact inv_startPass hb hc.1 hc.2 hi
      · cases hs
    | startSnap stamp =>
      dsimp only at hs
      split at hs
      · rename_i hc; cases hs; exact inv_startSnap hb hc.1 hc.2 hi stamp
      · cases hs
    | read b n =>
      dsimp only at hs
      split at hs
      · rename_i k size jobs hpc
        cases hs
        exact inv_read hb hpc hi b n
      · cases hs
    | put b =>
      dsimp only at hs
      split at hs
      · rename_i k size jobs hpc
        split at hs
        · rename_i j hf
          split at hs
          · rename_i hd
            cases hs
            exact inv_put hb hpc hi hf hd
          · cases hs
        · cases hs
      · cases hs
    | finish stamp flag =>
      dsimp only at hs
      split at hs
      · rename_i hpc; cases hs; exact inv_finish hb hpc hi stamp flag
      · cases hs

theorem truth_cons (f : Bytes) (op : Op) (ops : List Op) : truth f (op :: ops) = truth (truth f [op]) ops := by
  cases op <;> rfl

theorem truth_append : ∀ (a : List Op) (f : Bytes) (b : List Op), truth f (a ++ b) = truth (truth f a) b
  | [], _, _ => rfl
  | op :: a, f, b => by
    rw [List.cons_append, truth_cons, truth_cons f op a]
    exact truth_append a _ b

/-- The invariant after a history. -/
theorem inv_exec : ∀ (ops : List Op) (t : Bytes) (w w' : World), Inv cfg Q t w → (∀ k, Q (truth t (ops.take k))) →
    OrderlyRun cfg w ops → exec cfg w ops = some w' → Inv cfg Q (truth t ops) w'
  | [], _, _, _, h, _, _, he => by cases he; exact h
  | op :: ops, t, w, w', h, hq, ho, he => by
    unfold exec at he
    split at he
    · cases he
    · rename_i w1 hs
      rw [truth_cons]
      refine inv_exec ops _ w1 w' (inv_step (hq 0) (hq 1) h ho.1 hs) ?_ (ho.2 w1 hs) he
      intro k
      have := hq (k + 1)
      rw [List.take_succ_cons, truth_cons] at this
      exact this

/-- The invariant after mkfs. -/
theorem inv_mkfs (cfg : Cfg) (Q : Bytes → Prop) (m now : Nat) (f : Bytes) (hQ : Q f) : Inv cfg Q f (mkfs cfg m now f) := by
  have hsn : Snapshot cfg (mkfs cfg m now f).remote.blocks { seq := now, dbSize := f.length, digest := cfg.hash f, mounted := false, needsFsck := false, lastFsck := now, lastMod := now } f :=
    ⟨rfl, rfl, upload_sync _ _ (full_sync _ _ _ _)⟩
  have hver : ∀ s P, AL.get (mkfs cfg m now f).remote.vers s = some P → s = now ∧ P = { seq := now, dbSize := f.length, digest := cfg.hash f, mounted := false, needsFsck := false, lastFsck := now, lastMod := now } := by
    intro s P hP
    simp only [mkfs, AL.get] at hP
    split at hP
    · rename_i e; cases hP; exact ⟨e.symm, rfl⟩
    · cases hP
  refine ⟨_, ⟨rfl, ?_, upload_below _ _ (fun b s hs => by cases hs), ?_, ?_, hsn.cov, ?_⟩, Or.inl ⟨rfl, hsn, ?_⟩⟩
  · show AL.NK [(now, _)]
    simp [AL.NK]
  · intro s P hP
    obtain ⟨rfl, rfl⟩ := hver s P hP
    exact ⟨rfl, Nat.le_refl _⟩
  · intro s P hP
    obtain ⟨rfl, rfl⟩ := hver s P hP
    exact hsn.cov
  · intro s P hP _
    obtain ⟨rfl, rfl⟩ := hver s P hP
    exact ⟨f, hQ, hsn⟩
  · intro b
    by_cases hne : b = m
    · simp only [mkfs, hne, if_true]
      exact ⟨trivial, fun l hl => Or.inr ⟨(Option.some.inj hl).symm, trivial⟩⟩
    · simp only [mkfs, if_neg hne]
      exact ⟨trivial, fun l hl => by cases hl⟩

end
end Verif.Meta
