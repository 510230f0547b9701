import Verif.Cache.Lemmas
/-
From single steps to histories; the additional invariant of histories without failing uploads.
-/
namespace Verif.Cache
open AL (NK sumBy)

/-- Later contents assignments agree with earlier ones on the ids in use. -/
def Agree (D D' : Nat → Bytes) (n : Nat) : Prop := ∀ o, o < n → D' o = D o

/-- What the object that a block refers to contains. -/
def storedOf (D : Nat → Bytes) (s : State) : Key → Bytes := fun k => rowData D (AL.get s.rows k)

theorem step_inv {H : Bytes → Bytes} (hH : Function.Injective H) {s m D ev s' out} (hi : Inv H s m D)
    (h : step H s ev = some (s', out)) :
    ∃ D', Inv H s' (Spec.step ⟨m, storedOf D s⟩ ev).now D' ∧ Spec.okOut ⟨m, storedOf D s⟩ ev out ∧ Agree D D' s.nextId ∧ s.nextId ≤ s'.nextId := by
  have same : ∀ s'' : State, s''.nextId = s.nextId → Agree D D s.nextId ∧ s.nextId ≤ s''.nextId :=
    fun s'' h => ⟨fun _ _ => rfl, by rw [h]; exact Nat.le_refl _⟩
  cases ev with
  | getFast k mw =>
    have h1 := inv_getFast hi h
    refine ⟨D, h1, ?_, ?_⟩ <;>
      (simp only [step] at h; repeat' split at h) <;> cases h <;> first | trivial | exact same _ rfl
  | getHit k =>
    have h1 := inv_getHit hi h
    refine ⟨D, h1, ?_, ?_⟩ <;>
      (simp only [step] at h; repeat' split at h) <;> cases h <;> first | trivial | exact same _ rfl
  | getNew k =>
    have h1 := inv_getNew hi h
    refine ⟨D, h1, ?_, ?_⟩ <;>
      (simp only [step] at h; repeat' split at h) <;> cases h <;> first | trivial | exact same _ rfl
  | getMiss k =>
    have h1 := inv_getMiss hi h
    refine ⟨D, h1, ?_, ?_⟩ <;>
      (simp only [step] at h; repeat' split at h) <;> cases h <;> first | trivial | exact same _ rfl
  | download k =>
    have h1 := inv_download hi h
    refine ⟨D, h1, ?_, ?_⟩ <;>
      (simp only [step] at h; repeat' split at h) <;> cases h <;> first | trivial | exact same _ rfl
  | downloadFail k =>
    have h1 := inv_downloadFail hi h
    refine ⟨D, h1, ?_, ?_⟩ <;>
      (simp only [step] at h; repeat' split at h) <;> cases h <;> first | trivial | exact same _ rfl
  | read k =>
    obtain ⟨h1, h2⟩ := inv_read hi h
    refine ⟨D, h1, h2, ?_⟩
    (simp only [step] at h; repeat' split at h) <;> cases h <;> exact same _ rfl
  | write k c =>
    have h1 := inv_write hi h
    refine ⟨D, h1, ?_, ?_⟩ <;>
      (simp only [step] at h; repeat' split at h) <;> cases h <;> first | trivial | exact same _ rfl
  | unlock k =>
    have h1 := inv_unlock hi h
    refine ⟨D, h1, ?_, ?_⟩ <;>
      (simp only [step] at h; repeat' split at h) <;> cases h <;> first | trivial | exact same _ rfl
  | upStart k =>
    have h1 := inv_upStart hi h
    refine ⟨D, h1, ?_, ?_⟩ <;>
      (simp only [step] at h; repeat' split at h) <;> cases h <;> first | trivial | exact same _ rfl
  | hashFail k =>
    have h1 := inv_hashFail hi h
    refine ⟨D, h1, ?_, ?_⟩ <;>
      (simp only [step] at h; repeat' split at h) <;> cases h <;> first | trivial | exact same _ rfl
  | register k =>
    simp only [step] at h
    split at h <;> try (cases h; done)
    rename_i e hh hc
    cases h
    cases hf : findHash s.objs (H e.content) with
    | none =>
      refine ⟨_, inv_registerNew hi hh hc hf, trivial, fun o ho => upd_ne _ _ (Nat.ne_of_lt ho), ?_⟩
      unfold registerStep; rw [hf]; exact Nat.le_succ _
    | some o =>
      refine ⟨_, inv_registerOld hH hi hh hc hf, trivial, fun _ _ => rfl, ?_⟩
      unfold registerStep; rw [hf]; dsimp only; split <;> exact Nat.le_refl _
  | send k =>
    have h1 := inv_send hi h
    refine ⟨D, h1, ?_, ?_⟩ <;>
      (simp only [step] at h; split at h) <;> cases h <;> first | trivial | exact same _ rfl
  | sendFail k =>
    have h1 := inv_sendFail hi h
    refine ⟨D, h1, ?_, ?_⟩ <;>
      (simp only [step] at h; split at h) <;> cases h <;> first | trivial | exact same _ rfl
  | store k =>
    have h1 := inv_store hi h
    refine ⟨D, h1, ?_, ?_⟩ <;>
      (simp only [step] at h; split at h) <;> cases h <;> first | trivial | exact same _ rfl
  | upOk k =>
    have h1 := inv_upOk hi h
    refine ⟨D, h1, ?_, ?_⟩ <;>
      (simp only [step] at h; split at h) <;> cases h <;> first | trivial | exact same _ rfl
  | upFail k =>
    have h1 := inv_upFail hi h
    refine ⟨D, h1, ?_, ?_⟩ <;>
      (simp only [step] at h; split at h) <;> cases h <;> first | trivial | exact same _ rfl
  | evict k =>
    have h1 := inv_evict hi h
    refine ⟨D, h1, ?_, ?_⟩ <;>
      (simp only [step] at h; repeat' split at h) <;> cases h <;> first | trivial | exact same _ rfl
  | remove k =>
    have h1 := inv_remove hi h
    refine ⟨D, h1, ?_, ?_⟩ <;>
      (simp only [step] at h; split at h) <;> cases h <;> first | trivial | exact same _ rfl
  | deref o =>
    obtain ⟨h1, h2, _⟩ := inv_deref hi h
    refine ⟨D, h1, ?_, ?_⟩
    · rw [h2]; trivial
    · (simp only [step] at h; repeat' split at h) <;> cases h <;> exact same _ rfl
  | delObj o =>
    have h1 := inv_delObj hi h
    refine ⟨D, h1, ?_, ?_⟩ <;>
      (simp only [step] at h; split at h) <;> cases h <;> first | trivial | exact same _ rfl
  | copy k k' =>
    have h1 := inv_copy hi h
    refine ⟨D, h1, ?_, ?_⟩ <;>
      (simp only [step] at h; split at h) <;> try (cases h; done)
    all_goals (split at h <;> cases h <;> first | trivial | exact same _ rfl)

/-- What is registered for storing changes as in the specification. -/
theorem step_stored {H : Bytes → Bytes} {s m D D' ev s' out} (hi : Inv H s m D) (h : step H s ev = some (s', out))
    (hi' : Inv H s' (Spec.step ⟨m, storedOf D s⟩ ev).now D') (ha : Agree D D' s.nextId) :
    storedOf D' s' = (Spec.step ⟨m, storedOf D s⟩ ev).stored := by
  have old : ∀ k, rowData D' (AL.get s.rows k) = rowData D (AL.get s.rows k) := by
    intro k
    cases hr : AL.get s.rows k with
    | none => rfl
    | some o =>
      obtain ⟨ob, ho⟩ := hi.rowObj k o hr
      exact ha o (hi.objId o ob ho)
  have same : s'.rows = s.rows → storedOf D' s' = storedOf D s := by
    intro hr
    funext k
    unfold storedOf
    rw [hr]; exact old k
  cases ev with
  | register k =>
    funext k1
    have hc' : rowData D' (AL.get s'.rows k) = m k := by
      simp only [step] at h
      split at h <;> try (cases h; done)
      rename_i e hh hc
      cases h
      have hnow : m k = e.content := (hi.cont k e hc).symm
      unfold registerStep at hi' ⊢
      dsimp only at hi' ⊢
      cases hf : findHash s.objs (H e.content) with
      | none =>
        rw [hf] at hi'
        dsimp only at hi' ⊢
        obtain ⟨h1, _, e', h2, h3, _⟩ := hi'.upg k s.nextId (by dsimp only; rw [upd_self]; rfl)
        rw [AL.get_set_self]
        dsimp only at h2
        rw [hc] at h2; cases h2
        rw [hnow]; exact h3.symm
      | some o =>
        rw [hf] at hi'
        dsimp only at hi' ⊢
        split at hi'
        · rename_i hq
          rw [if_pos hq]
          exact hi'.clean k _ (AL.get_set_self _ _ _) rfl
        · rename_i hq
          rw [if_neg hq]
          exact hi'.clean k _ (AL.get_set_self _ _ _) rfl
    show rowData D' (AL.get s'.rows k1) = upd (storedOf D s) k (m k) k1
    rw [upd_app]
    split
    · rename_i hk; rw [hk]; exact hc'
    · rename_i hk
      have : AL.get s'.rows k1 = AL.get s.rows k1 := by
        simp only [step] at h
        split at h <;> try (cases h; done)
        cases h
        unfold registerStep
        dsimp only
        split
        · dsimp only; rw [AL.get_set_ne _ _ hk]
        · split
          · rfl
          · dsimp only; rw [AL.get_set_ne _ _ hk]
      rw [this]; exact old k1
  | remove k =>
    simp only [step] at h
    split at h <;> try (cases h; done)
    cases h
    funext k1
    show rowData D' (AL.get (AL.erase s.rows k) k1) = upd (storedOf D s) k [] k1
    rw [AL.get_erase, upd_app]
    split
    · rfl
    · exact old k1
  | copy k k' =>
    simp only [step] at h
    split at h <;> try (cases h; done)
    rename_i o hr _ _ _
    split at h <;> try (cases h; done)
    cases h
    funext k1
    show rowData D' (AL.get (AL.set s.rows k' o) k1) = upd (storedOf D s) k' (storedOf D s k) k1
    rw [AL.get_set, upd_app]
    split
    · have := old k; rw [hr] at this; show rowData D' (some o) = storedOf D s k; rw [this]; unfold storedOf; rw [hr]
    · exact old k1
  | upOk k => simp only [step] at h; split at h <;> cases h; exact same rfl
  | upFail k => simp only [step] at h; split at h <;> cases h; exact same rfl
  | send k => simp only [step] at h; split at h <;> cases h; exact same rfl
  | sendFail k => simp only [step] at h; split at h <;> cases h; exact same rfl
  | deref o =>
    simp only [step] at h
    split at h <;> try (cases h; done)
    split at h
    · cases h; exact same rfl
    · split at h
      · cases h; exact same rfl
      · split at h <;> cases h; exact same rfl
  | _ =>
    all_goals
      simp only [step] at h
      repeat' split at h
      all_goals first | (cases h; done) | (cases h; exact same rfl)

theorem exec_inv {H : Bytes → Bytes} (hH : Function.Injective H) {evs : List Ev} :
    ∀ {s m D s' outs}, Inv H s m D → exec H s evs = some (s', outs) →
    ∃ D', Inv H s' (Spec.run ⟨m, storedOf D s⟩ evs).now D' ∧ Spec.okOuts ⟨m, storedOf D s⟩ evs outs ∧ Agree D D' s.nextId ∧ s.nextId ≤ s'.nextId ∧
      storedOf D' s' = (Spec.run ⟨m, storedOf D s⟩ evs).stored := by
  induction evs with
  | nil =>
    intro s m D s' outs hi h
    cases h
    exact ⟨D, hi, trivial, fun _ _ => rfl, Nat.le_refl _, rfl⟩
  | cons e es ih =>
    intro s m D s' outs hi h
    simp only [exec] at h
    split at h <;> try (cases h; done)
    rename_i s1 o1 h1
    split at h <;> try (cases h; done)
    rename_i s2 os h2
    cases h
    obtain ⟨D1, hi1, ho1, ha1, hn1⟩ := step_inv hH hi h1
    have hst := step_stored hi h1 hi1 ha1
    obtain ⟨D2, hi2, ho2, ha2, hn2, hs2⟩ := ih hi1 h2
    have he : (⟨(Spec.step ⟨m, storedOf D s⟩ e).now, storedOf D1 s1⟩ : Spec.Mem) = Spec.step ⟨m, storedOf D s⟩ e := by rw [hst]
    rw [he] at hi2 ho2 hs2
    exact ⟨D2, hi2, ⟨ho1, ho2⟩, fun o ho => by rw [ha2 o (by omega), ha1 o ho], by omega, hs2⟩

theorem exec_append {H : Bytes → Bytes} {evs : List Ev} : ∀ {s evs' s' outs}, exec H s (evs ++ evs') = some (s', outs) →
    ∃ s1 o1 o2, exec H s evs = some (s1, o1) ∧ exec H s1 evs' = some (s', o2) ∧ outs = o1 ++ o2 := by
  induction evs with
  | nil => intro s evs' s' outs h; exact ⟨s, [], outs, rfl, h, rfl⟩
  | cons e es ih =>
    intro s evs' s' outs h
    simp only [List.cons_append, exec] at h
    split at h <;> try (cases h; done)
    rename_i s1 o1 h1
    split at h <;> try (cases h; done)
    rename_i s2 os h2
    cases h
    obtain ⟨s3, p1, p2, ha, hb, hc⟩ := ih h2
    refine ⟨s3, o1 :: p1, p2, ?_, hb, by rw [hc]; rfl⟩
    simp only [exec, h1, ha]

/-! ### Histories without failing uploads -/

/-- The event is not the failure of an upload (or of handing over a block for upload). -/
def noUpFail : Ev → Bool
  | .upFail _ => false
  | .sendFail _ => false
  | _ => true

structure NF (s : State) : Prop where
  up : ∀ o ob, AL.get s.objs o = some ob → ob.uploaded = true ∨ o ∈ s.inflight
  hashed : ∀ o ob, AL.get s.objs o = some ob → ∃ h, ob.hash = some h
  fs : s.failsafe = false
  bk : ∀ o d, s.backend o = some d → (∃ ob, AL.get s.objs o = some ob) ∨ o ∈ s.removals
  lk : s.leaked = []

theorem nf_init : NF init := by
  constructor <;> simp [init, AL.get]

attribute [local grind =] upd_app AL.get_set AL.get_erase AL.get_toTail

theorem step_nf {H : Bytes → Bytes} {s m D ev s' out} (hi : Inv H s m D) (hn : NF s)
    (h : step H s ev = some (s', out)) (hv : noUpFail ev = true) : NF s' := by
  obtain ⟨up, hashed, fs, bk, lk⟩ := hn
  cases ev with
  | upFail k => cases hv
  | sendFail k => cases hv
  | register k =>
    simp only [step] at h
    split at h <;> try (cases h; done)
    rename_i e hh hc
    cases h
    unfold registerStep
    dsimp only
    cases hf : findHash s.objs (H e.content) with
    | none =>
      constructor
      case bk =>
        intro o d hb
        rcases bk o d hb with ⟨ob, h1⟩ | h1
        · refine Or.inl ?_
          dsimp only
          rw [AL.get_set]
          split
          · exact ⟨_, rfl⟩
          · exact ⟨_, h1⟩
        · exact Or.inr h1
      all_goals first | assumption | grind
    | some o =>
      dsimp only
      obtain ⟨ob, hob, hoh⟩ := findHash_some hi.nko hf
      by_cases hold : AL.get s.rows k = some o
      · rw [if_pos hold]
        constructor <;> assumption
      · rw [if_neg hold, hob]
        constructor
        case bk =>
          intro o d hb
          rcases bk o d hb with ⟨ob, h1⟩ | h1
          · refine Or.inl ?_
            dsimp only
            rw [AL.get_set]
            split
            · exact ⟨_, rfl⟩
            · exact ⟨_, h1⟩
          · exact Or.inr h1
        all_goals first | assumption | grind
  | send k =>
    simp only [step] at h
    split at h <;> cases h
    constructor <;> assumption
  | store k =>
    simp only [step] at h
    split at h <;> try (cases h; done)
    rename_i ob e hh hc
    cases h
    have hu : upObj (s.holder k) = some ob := by rw [hh]; rfl
    obtain ⟨ob', hob⟩ := hi.rowObj k ob (hi.upg k ob hu).1
    constructor
    case bk =>
      intro o d hb
      dsimp only at hb ⊢
      by_cases ho : o = ob
      · exact Or.inl ⟨ob', by rw [ho]; exact hob⟩
      · rw [upd_ne _ _ ho] at hb; exact bk o d hb
    all_goals assumption
  | upOk k =>
    simp only [step] at h
    split at h <;> try (cases h; done)
    rename_i ob e hh hc
    cases h
    have hu : upObj (s.holder k) = some ob := by rw [hh]; rfl
    obtain ⟨ob', hob⟩ := hi.rowObj k ob (hi.upg k ob hu).1
    rw [hob]
    constructor
    case bk =>
      intro o d hb
      dsimp only at hb ⊢
      by_cases ho : o = ob
      · exact Or.inl ⟨_, by rw [ho, AL.get_set_self]⟩
      · rw [upd_ne _ _ ho] at hb
        rw [AL.get_set_ne _ _ ho]; exact bk o d hb
    case up =>
      intro o ob1 h1
      dsimp only at h1 ⊢
      rw [AL.get_set] at h1
      by_cases ho : o = ob
      · rw [if_pos ho] at h1; cases h1; exact Or.inl rfl
      · rw [if_neg ho] at h1
        rcases up o ob1 h1 with h2 | h2
        · exact Or.inl h2
        · exact Or.inr (hi.inflNd.mem_erase_iff.2 ⟨ho, h2⟩)
    case hashed =>
      intro o ob1 h1
      dsimp only at h1 ⊢
      rw [AL.get_set] at h1
      by_cases ho : o = ob
      · rw [if_pos ho] at h1; cases h1; exact (hashed ob ob' hob)
      · rw [if_neg ho] at h1; exact hashed _ _ h1
    all_goals assumption
  | getMiss k =>
    simp only [step] at h
    split at h <;> try (cases h; done)
    rename_i ob hh hc hr
    split at h <;> try (cases h; done)
    rename_i ob' ho
    cases h
    constructor
    case fs =>
      obtain ⟨x, hx⟩ := hashed _ _ ho
      simp [fs, hx]
    all_goals assumption
  | deref o =>
    simp only [step] at h
    split at h <;> try (cases h; done)
    split at h
    · cases h; constructor <;> assumption
    rename_i ob hob
    split at h
    · cases h
      constructor
      case bk =>
        intro o1 d hb
        rcases bk o1 d hb with ⟨ob, h1⟩ | h1
        · refine Or.inl ?_
          dsimp only
          rw [AL.get_set]
          split
          · exact ⟨_, rfl⟩
          · exact ⟨_, h1⟩
        · exact Or.inr h1
      all_goals first | assumption | grind
    · split at h <;> try (cases h; done)
      rename_i hnf
      cases h
      have hup : ob.uploaded = true := by
        rcases up o ob hob with h1 | h1
        · exact h1
        · exact absurd (by simpa using h1) hnf
      rw [hup]
      constructor
      case bk =>
        intro o1 d hb
        dsimp only at hb ⊢
        by_cases ho : o1 = o
        · exact Or.inr (by rw [ho]; simp)
        · rcases bk o1 d hb with ⟨ob1, h1⟩ | h1
          · exact Or.inl ⟨ob1, by rw [AL.get_erase_ne _ ho]; exact h1⟩
          · exact Or.inr (by simp [h1])
      all_goals first | assumption | grind
  | delObj o =>
    simp only [step] at h
    split at h <;> try (cases h; done)
    rename_i hin
    cases h
    have hin' : o ∈ s.removals := by simpa using hin
    obtain ⟨_, _, hb⟩ := hi.rem o hin'
    constructor
    case fs => simp [fs, hb]
    case bk =>
      intro o1 d hb
      dsimp only at hb ⊢
      by_cases ho : o1 = o
      · rw [ho, upd_self] at hb; cases hb
      · rw [upd_ne _ _ ho] at hb
        rcases bk o1 d hb with h1 | h1
        · exact Or.inl h1
        · exact Or.inr (hi.remNd.mem_erase_iff.2 ⟨ho, h1⟩)
    all_goals assumption
  | copy k k' =>
    simp only [step] at h
    split at h <;> try (cases h; done)
    split at h <;> try (cases h; done)
    cases h
    constructor
    case bk =>
      intro o1 d hb
      rcases bk o1 d hb with ⟨ob, h1⟩ | h1
      · refine Or.inl ?_
        dsimp only
        rw [AL.get_set]
        split
        · exact ⟨_, rfl⟩
        · exact ⟨_, h1⟩
      · exact Or.inr h1
    all_goals first | assumption | grind
  | remove k =>
    simp only [step] at h
    split at h <;> try (cases h; done)
    cases h
    constructor <;> assumption
  | _ =>
    all_goals
      simp only [step] at h
      repeat' split at h
      all_goals first | (cases h; done) | (cases h; constructor <;> assumption)

theorem exec_nf {H : Bytes → Bytes} (hH : Function.Injective H) {evs : List Ev} :
    ∀ {s m D s' outs}, Inv H s m D → NF s → (∀ ev ∈ evs, noUpFail ev = true) →
    exec H s evs = some (s', outs) → NF s' := by
  induction evs with
  | nil => intro s m D s' outs _ hn _ h; cases h; exact hn
  | cons e es ih =>
    intro s m D s' outs hi hn hv h
    simp only [exec] at h
    split at h <;> try (cases h; done)
    rename_i s1 o1 h1
    split at h <;> try (cases h; done)
    rename_i s2 os h2
    cases h
    obtain ⟨D1, hi1, _⟩ := step_inv hH hi h1
    exact ih hi1 (step_nf hi hn h1 (hv e (by simp))) (fun ev he => hv ev (by simp [he])) h2

end Verif.Cache
