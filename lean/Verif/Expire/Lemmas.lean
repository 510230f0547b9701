import Verif.Expire.Spec
/-! Helper lemmas for C45/C46. -/
namespace Verif.Expire

theorem mem_dictSet {κ : Type} [DecidableEq κ] {d : List (κ × Nat)} {k : κ} {v : Nat} {e : κ × Nat}
    (h : e ∈ dictSet d k v) : e = (k, v) ∨ e ∈ d := by
  unfold dictSet at h
  split at h
  · rw [List.mem_map] at h
    obtain ⟨a, ha, he⟩ := h
    split at he
    · exact Or.inl he.symm
    · exact Or.inr (he ▸ ha)
  · rw [List.mem_append, List.mem_singleton] at h
    exact h.symm

theorem dictSet_fresh {κ : Type} [DecidableEq κ] {d : List (κ × Nat)} {k : κ} {v : Nat}
    (h : ∀ e ∈ d, e.1 ≠ k) : dictSet d k v = d ++ [(k, v)] := by
  unfold dictSet
  rw [if_neg]
  intro hc
  rw [List.any_eq_true] at hc
  obtain ⟨e, he, hk⟩ := hc
  exact h e he (by simpa using hk)

/-- Range `r` is covered at step `t` by the backups of `state` satisfying `p`, or by hypothetical
backups. -/
def Cov (state : State) (p : Nat → Prop) (t : Nat) (r : Nat × Nat) : Prop :=
  (∃ e ∈ state, p e.1 ∧ inRange r (e.2 + t) = true) ∨ ∃ h, h < t ∧ inRange r h = true

/-- Soundness of the simulation state at step `t`. -/
def SimOk (state : State) (t : Nat) (s : Sim) : Prop :=
  ∀ e ∈ s.simstate, match e.1 with
    | .inl x => x ∈ s.keep ∧ ∃ a, (x, a) ∈ state ∧ e.2 = a + t
    | .inr _ => e.2 < t

theorem rangeBody_keep (state : State) (t : Nat) (s : Sim) (r : Nat × Nat) (x : Nat)
    (h : x ∈ s.keep) : x ∈ (rangeBody state t s r).keep := by
  unfold rangeBody
  split
  · exact h
  · split
    · exact List.mem_cons_of_mem _ h
    · split <;> exact h

theorem rangeBody_ok (state : State) (t : Nat) (s : Sim) (r : Nat × Nat) (h : SimOk state t s) :
    SimOk state t (rangeBody state t s r) := by
  unfold rangeBody
  split
  · exact h
  · split
    · rename_i b a hf
      intro e he
      rcases mem_dictSet he with rfl | he
      · exact ⟨List.mem_cons_self, a, List.mem_of_find?_eq_some hf, rfl⟩
      · have := h e he
        revert this
        cases e.1 with
        | inl x => exact fun ⟨h1, h2⟩ => ⟨List.mem_cons_of_mem _ h1, h2⟩
        | inr j => exact id
    · split <;> exact h

theorem rangeBody_covered (state : State) (t : Nat) (s : Sim) (r : Nat × Nat) (h : SimOk state t s)
    (hc : Cov state (fun _ => True) t r) :
    Cov state (fun x => x ∈ (rangeBody state t s r).keep) t r := by
  rcases hc with ⟨e, he, _, hr⟩ | hc
  · unfold rangeBody
    split
    · rename_i ha
      rw [List.any_eq_true] at ha
      obtain ⟨f, hf, hfr⟩ := ha
      have := h f hf
      revert this
      obtain ⟨f1, f2⟩ := f
      cases f1 with
      | inl x =>
        rintro ⟨hk, a, ha, h2⟩
        dsimp only at h2 hfr
        exact Or.inl ⟨(x, a), ha, hk, by rw [← h2]; exact hfr⟩
      | inr j => exact fun hlt => Or.inr ⟨f2, hlt, hfr⟩
    · split
      · rename_i b a hf
        have := List.find?_some hf
        exact Or.inl ⟨(b, a), List.mem_of_find?_eq_some hf, List.mem_cons_self, this⟩
      · rename_i hf
        rw [List.find?_eq_none] at hf
        exact absurd hr (hf e he)
  · exact Or.inr hc

theorem Cov.mono {state : State} {p q : Nat → Prop} {t : Nat} {r : Nat × Nat}
    (h : Cov state p t r) (hpq : ∀ x, p x → q x) : Cov state q t r := by
  rcases h with ⟨e, he, hp, hr⟩ | h
  · exact Or.inl ⟨e, he, hpq _ hp, hr⟩
  · exact Or.inr h

theorem ranges_fold_keep (state : State) (t : Nat) (rs : List (Nat × Nat)) (s : Sim) (x : Nat)
    (h : x ∈ s.keep) : x ∈ (rs.foldl (rangeBody state t) s).keep := by
  induction rs generalizing s with
  | nil => exact h
  | cons r rs ih => exact ih _ (rangeBody_keep _ _ _ _ _ h)

theorem ranges_fold (state : State) (t : Nat) (rs : List (Nat × Nat)) (s : Sim)
    (h : SimOk state t s) :
    SimOk state t (rs.foldl (rangeBody state t) s) ∧
    ∀ r ∈ rs, Cov state (fun _ => True) t r →
      Cov state (fun x => x ∈ (rs.foldl (rangeBody state t) s).keep) t r := by
  induction rs generalizing s with
  | nil => exact ⟨h, fun r hr => absurd hr (List.not_mem_nil)⟩
  | cons r rs ih =>
    obtain ⟨a, b⟩ := ih _ (rangeBody_ok state t s r h)
    refine ⟨a, fun r' hr' hc => ?_⟩
    rcases List.mem_cons.1 hr' with rfl | hr'
    · exact (rangeBody_covered state t s r' h hc).mono
        (fun x hx => ranges_fold_keep state t rs _ x hx)
    · exact b r' hr' hc

theorem stepBody_ok (state : State) (rs : List (Nat × Nat)) (s : Sim) (t : Nat)
    (h : t = 0 → s.simstate = []) (hs : ∀ u, t = u + 1 → SimOk state u s) :
    SimOk state t (stepBody state rs s t) ∧
    (∀ r ∈ rs, Cov state (fun _ => True) t r →
      Cov state (fun x => x ∈ (stepBody state rs s t).keep) t r) ∧
    ∀ x ∈ s.keep, x ∈ (stepBody state rs s t).keep := by
  unfold stepBody
  dsimp only
  have hok : SimOk state t
    { s with simstate := if t ≠ 0 then dictSet (s.simstate.map (fun e => (e.1, e.2 + 1))) (.inr t) 0
                         else s.simstate.map (fun e => (e.1, e.2 + 1)) } := by
    intro e he
    dsimp only at he
    cases t with
    | zero =>
      rw [if_neg (by simp), h rfl] at he
      exact absurd he (List.not_mem_nil)
    | succ u =>
      rw [if_pos (by simp)] at he
      rcases mem_dictSet he with rfl | he
      · show 0 < u + 1; omega
      · rw [List.mem_map] at he
        obtain ⟨f, hf, rfl⟩ := he
        have := hs u rfl f hf
        revert this
        obtain ⟨f1, f2⟩ := f
        cases f1 with
        | inl x => rintro ⟨h1, a, h2, h3⟩; exact ⟨h1, a, h2, by dsimp only at h3 ⊢; omega⟩
        | inr j => intro h; show f2 + 1 < u + 1; exact Nat.succ_lt_succ h
  obtain ⟨a, b⟩ := ranges_fold state t rs _ hok
  exact ⟨a, b, fun x hx => ranges_fold_keep state t rs _ x hx⟩

/-- State of the simulation after `n` steps. -/
def simAt (state : State) (rs : List (Nat × Nat)) (n : Nat) : Sim :=
  (List.range n).foldl (stepBody state rs) ⟨[], [], []⟩

theorem simAt_succ (state : State) (rs : List (Nat × Nat)) (n : Nat) :
    simAt state rs (n + 1) = stepBody state rs (simAt state rs n) n := by
  unfold simAt; rw [List.range_succ, List.foldl_append]; rfl

theorem simAt_ok (state : State) (rs : List (Nat × Nat)) (n : Nat) :
    (∀ u, n = u + 1 → SimOk state u (simAt state rs n)) ∧
    ∀ t, t < n → ∀ r ∈ rs, Cov state (fun _ => True) t r →
      Cov state (fun x => x ∈ (simAt state rs n).keep) t r := by
  induction n with
  | zero => exact ⟨fun u h => by omega, fun t h => by omega⟩
  | succ n ih =>
    obtain ⟨ih1, ih2⟩ := ih
    rw [simAt_succ]
    obtain ⟨a, b, c⟩ := stepBody_ok state rs (simAt state rs n) n (fun h => by subst h; rfl) ih1
    refine ⟨fun u hu => ?_, fun t ht r hr hc => ?_⟩
    · have : u = n := by omega
      subst this; exact a
    · by_cases h : t = n
      · subst h; exact b r hr hc
      · exact (ih2 t (by omega) r hr hc).mono c

theorem foldl_max_ge (l : List Nat) (a : Nat) : a ≤ l.foldl max a ∧ ∀ x ∈ l, x ≤ l.foldl max a := by
  induction l generalizing a with
  | nil => exact ⟨Nat.le_refl _, fun x hx => absurd hx (List.not_mem_nil)⟩
  | cons b l ih =>
    obtain ⟨h1, h2⟩ := ih (max a b)
    refine ⟨by simp only [List.foldl_cons]; omega, fun x hx => ?_⟩
    simp only [List.foldl_cons]
    rcases List.mem_cons.1 hx with rfl | hx
    · omega
    · exact h2 x hx

theorem ranges_mem (cycles : List Nat) (rs : List (Nat × Nat)) (h : ranges cycles = some rs) (lo hi : Nat) :
    (lo, hi) ∈ rs ↔ Spec.IsRange cycles lo hi := by
  cases cycles with
  | nil => simp [ranges] at h
  | cons c cs =>
    simp only [ranges, Option.some.injEq] at h
    subst h
    unfold Spec.IsRange
    rw [List.mem_cons, List.mem_iff_getElem?]
    simp only [List.getElem?_zip_eq_some, List.getElem?_cons_succ, List.getElem?_cons_zero,
      Prod.mk.injEq, Option.some.injEq]
    constructor
    · rintro (⟨rfl, rfl⟩ | h)
      · exact Or.inl ⟨rfl, rfl⟩
      · exact Or.inr h
    · rintro (⟨rfl, rfl⟩ | h)
      · exact Or.inl ⟨rfl, rfl⟩
      · exact Or.inr h

theorem isRange_hi_le (cycles : List Nat) (lo hi : Nat) (h : Spec.IsRange cycles lo hi) :
    hi ≤ maxCycle cycles := by
  apply (foldl_max_ge cycles 0).2
  rcases h with ⟨_, h⟩ | ⟨i, _, h⟩
  · exact List.mem_of_getElem? h
  · exact List.mem_of_getElem? h

/-- `process_backups` keeps every range covered in every future cycle. -/
theorem process_cov (backups : List Nat) (state : State) (cycles : List Nat) (res : Result)
    (h : processBackups backups state cycles = some res) (t lo hi : Nat)
    (hr : Spec.IsRange cycles lo hi)
    (hc : Cov (dropMissing backups (addNew backups state)) (fun _ => True) t (lo, hi)) :
    Cov res.state (fun _ => True) t (lo, hi) := by
  unfold processBackups at h
  cases hrs : ranges cycles with
  | none => rw [hrs] at h; cases h
  | some rs =>
    rw [hrs] at h
    simp only [Option.bind_eq_bind, Option.bind_some, Option.pure_def, Option.some.injEq] at h
    subst h
    dsimp only
    generalize dropMissing backups (addNew backups state) = st at *
    by_cases ht : t < maxCycle cycles
    · have := (simAt_ok st rs (maxCycle cycles)).2 t ht (lo, hi)
        ((ranges_mem cycles rs hrs lo hi).2 hr) hc
      rcases this with ⟨e, he, hk, hre⟩ | h
      · refine Or.inl ⟨e, List.mem_filter.2 ⟨he, ?_⟩, trivial, hre⟩
        exact List.contains_iff_mem.2 hk
      · exact Or.inr h
    · have hhi := isRange_hi_le cycles lo hi hr
      have hne : lo < hi := by
        rcases hc with ⟨_, _, _, h⟩ | ⟨_, _, h⟩ <;>
          (unfold inRange at h; simp only [Bool.and_eq_true, decide_eq_true_eq] at h; omega)
      refine Or.inr ⟨lo, by omega, ?_⟩
      unfold inRange; simp only [Bool.and_eq_true, decide_eq_true_eq]; omega

theorem process_sub (backups : List Nat) (state : State) (cycles : List Nat) (res : Result)
    (h : processBackups backups state cycles = some res) :
    ∃ p : Nat → Bool, res.state = (dropMissing backups (addNew backups state)).filter (fun e => p e.1) ∧
      res.toDelete = ((dropMissing backups (addNew backups state)).map (·.1)).filter (fun x => !p x) := by
  unfold processBackups at h
  cases hrs : ranges cycles with
  | none => rw [hrs] at h; cases h
  | some rs =>
    rw [hrs] at h
    simp only [Option.bind_eq_bind, Option.bind_some, Option.pure_def, Option.some.injEq] at h
    subst h
    exact ⟨fun x => ((List.range (maxCycle cycles)).foldl
      (stepBody (dropMissing backups (addNew backups state)) rs) ⟨[], [], []⟩).keep.contains x, rfl, rfl⟩

/-- Consistency of the saved state with the backups on disk: `m0` backups were known at the last run. -/
structure WInv (w : World) (m0 : Nat) : Prop where
  le : m0 ≤ w.made
  disk : ∃ old, w.disk = old ++ List.range' m0 (w.made - m0) ∧ (∀ x ∈ old, x < m0) ∧
    (w.saved.getD []).map (·.1) = old
  age : ∀ e ∈ w.saved.getD [], e.1 < m0 ∧ e.2 = m0 - 1 - e.1
  none : w.saved = none → m0 = 0

theorem addNew_fold (n m0 : Nat) (st : State) (h : ∀ e ∈ st, e.1 < m0 ∧ e.2 = m0 - 1 - e.1) :
    ∃ f : Nat → Nat, (List.range' m0 n).foldl
        (fun st x => dictSet (st.map (fun e => (e.1, e.2 + 1))) x 0) st =
      ((st.map (·.1)) ++ List.range' m0 n).map (fun x => (x, f x)) ∧
      ∀ x ∈ (st.map (·.1)) ++ List.range' m0 n, f x = m0 + n - 1 - x ∧ x < m0 + n := by
  induction n generalizing m0 st with
  | zero =>
    refine ⟨fun x => m0 - 1 - x, ?_, ?_⟩
    · simp only [List.range'_zero, List.foldl_nil, List.append_nil, List.map_map]
      conv => lhs; rw [← List.map_id st]
      apply List.map_congr_left
      intro e he
      obtain ⟨_, h2⟩ := h e he
      exact Prod.ext rfl h2
    · intro x hx
      simp only [List.range'_zero, List.append_nil, List.mem_map] at hx
      obtain ⟨e, he, rfl⟩ := hx
      exact ⟨rfl, by have := (h e he).1; omega⟩
  | succ n ih =>
    rw [List.range'_succ, List.foldl_cons, dictSet_fresh]
    · have hpre : ∀ e ∈ st.map (fun e => (e.1, e.2 + 1)) ++ [(m0, 0)],
          e.1 < m0 + 1 ∧ e.2 = m0 + 1 - 1 - e.1 := by
        intro e he
        rw [List.mem_append, List.mem_map, List.mem_singleton] at he
        rcases he with ⟨a, ha, rfl⟩ | rfl
        · have := h a ha
          dsimp only; omega
        · dsimp only; omega
      obtain ⟨f, h1, h2⟩ := ih (m0 + 1) (st.map (fun e => (e.1, e.2 + 1)) ++ [(m0, 0)]) hpre
      have hk : (st.map (fun (e : Nat × Nat) => (e.1, e.2 + 1)) ++ [(m0, 0)]).map (fun (e : Nat × Nat) => e.1)
          ++ List.range' (m0 + 1) n = st.map (·.1) ++ m0 :: List.range' (m0 + 1) n := by
        simp [List.map_append, List.map_map, Function.comp_def]
      rw [hk] at h1 h2
      refine ⟨f, h1, fun x hx => ?_⟩
      have := h2 x hx
      omega
    · intro e he
      rw [List.mem_map] at he
      obtain ⟨a, ha, rfl⟩ := he
      have := (h a ha).1
      dsimp only; omega

theorem WInv.known {w : World} {m0 : Nat} (h : WInv w m0) :
    dropMissing w.disk (addNew w.disk (w.saved.getD [])) =
      w.disk.map (fun x => (x, Spec.age w.made x)) ∧ ∀ x ∈ w.disk, x < w.made := by
  obtain ⟨hle, ⟨old, hd, hlt, hk⟩, hage, _⟩ := h
  have hnew : (w.disk.filter (fun x => !(w.saved.getD []).any (fun e => e.1 = x))).mergeSort
      = List.range' m0 (w.made - m0) := by
    rw [hd, List.filter_append]
    have h1 : old.filter (fun x => !(w.saved.getD []).any (fun e => e.1 = x)) = [] := by
      rw [List.filter_eq_nil_iff]
      intro x hx
      rw [← hk, List.mem_map] at hx
      obtain ⟨e, he, hex⟩ := hx
      have : (w.saved.getD []).any (fun e => e.1 = x) = true :=
        List.any_eq_true.2 ⟨e, he, by simpa using hex⟩
      rw [this]; simp
    have h2 : (List.range' m0 (w.made - m0)).filter
        (fun x => !(w.saved.getD []).any (fun e => e.1 = x)) = List.range' m0 (w.made - m0) := by
      rw [List.filter_eq_self]
      intro x hx
      have hx := (List.mem_range'_1.1 hx).1
      rw [Bool.not_eq_true', List.any_eq_false]
      intro e he
      have := (hage e he).1
      simp only [decide_eq_true_eq]; omega
    rw [h1, h2, List.nil_append]
    apply List.mergeSort_of_pairwise
    have := List.pairwise_le_range' (s := m0) (n := w.made - m0)
    exact this.imp (fun h => by simpa using h)
  have hlts : ∀ x ∈ w.disk, x < w.made := by
    intro x hx
    rw [hd, List.mem_append] at hx
    rcases hx with hx | hx
    · have := hlt x hx; omega
    · have := List.mem_range'_1.1 hx; omega
  refine ⟨?_, hlts⟩
  unfold addNew
  dsimp only
  rw [hnew]
  obtain ⟨f, h1, h2⟩ := addNew_fold (w.made - m0) m0 (w.saved.getD []) hage
  rw [h1, hk, ← hd]
  rw [hk, ← hd] at h2
  unfold dropMissing
  rw [List.filter_eq_self.2]
  · apply List.map_congr_left
    intro x hx
    have := (h2 x hx).1
    unfold Spec.age
    rw [this]
    congr 1; omega
  · intro e he
    rw [List.mem_map] at he
    obtain ⟨x, hx, rfl⟩ := he
    exact List.contains_iff_mem.2 hx

/-- Every range that would be covered without deletions is covered, now and in every later cycle. -/
def Good (cycles : List Nat) (w : World) : Prop :=
  ∀ t lo hi, Spec.IsRange cycles lo hi → (∃ a, a < w.made + t ∧ lo ≤ a ∧ a < hi) →
    (∃ x ∈ w.disk, lo ≤ Spec.age w.made x + t ∧ Spec.age w.made x + t < hi) ∨
    ∃ a, a < t ∧ lo ≤ a ∧ a < hi

/-- What is deleted is on the disk, once. -/
theorem run_deletes {cycles : List Nat} {w : World} {m0 : Nat} (hw : WInv w m0) {res : Result}
    (hres : processBackups w.disk (w.saved.getD []) cycles = some res) :
    w.disk.length - (w.disk.filter (fun x => !res.toDelete.contains x)).length = res.toDelete.length ∧ ∀ x ∈ res.toDelete, x ∈ w.disk := by
  obtain ⟨p, _, hdel⟩ := process_sub _ _ _ _ hres
  rw [hw.known.1] at hdel
  have hdel : res.toDelete = w.disk.filter (fun x => !p x) := by
    rw [hdel, List.map_map]; congr 1; simp [Function.comp_def]
  have hdisk : w.disk.filter (fun x => !res.toDelete.contains x) = w.disk.filter p := by
    apply List.filter_congr
    intro x hx
    rw [hdel]
    cases hpx : p x with
    | true => simp [hpx]
    | false => simp [hpx, hx]
  have hsum : ∀ l : List Nat, (l.filter p).length + (l.filter (fun x => !p x)).length = l.length := by
    intro l
    induction l with
    | nil => rfl
    | cons a l ih => cases h : p a <;> simp [h] <;> omega
  have := hsum w.disk
  refine ⟨by rw [hdisk, hdel]; omega, fun x hx => ?_⟩
  rw [hdel] at hx
  exact (List.mem_filter.1 hx).1

theorem expireRun_ok (cycles : List Nat) (dry : Bool) (num den : Nat) (w : World) (m0 : Nat)
    (hw : WInv w m0) (hg : Good cycles w) :
    (∃ m, WInv (expireRun cycles dry num den w) m) ∧ Good cycles (expireRun cycles dry num den w) := by
  unfold expireRun
  split
  · exact ⟨⟨m0, hw⟩, hg⟩
  · split
    · exact ⟨⟨m0, hw⟩, hg⟩
    · rename_i res hres
      split
      · exact ⟨⟨m0, hw⟩, hg⟩
      · split
        · exact ⟨⟨m0, hw⟩, hg⟩
        · obtain ⟨hknown, hlts⟩ := hw.known
          obtain ⟨p, hst, hdel⟩ := process_sub _ _ _ _ hres
          rw [hknown] at hst hdel
          have hst : res.state = (w.disk.filter p).map (fun x => (x, Spec.age w.made x)) := by
            rw [hst, List.filter_map]; rfl
          have hdel : res.toDelete = w.disk.filter (fun x => !p x) := by
            rw [hdel, List.map_map]; congr 1; simp [Function.comp_def]
          have hdisk : w.disk.filter (fun x => !res.toDelete.contains x) = w.disk.filter p := by
            apply List.filter_congr
            intro x hx
            rw [hdel]
            cases hpx : p x with
            | true =>
              simp only [Bool.not_eq_true', List.contains_eq_mem, decide_eq_false_iff_not,
                List.mem_filter, hpx, Bool.not_true]
              simp
            | false =>
              simp only [List.contains_eq_mem, List.mem_filter, hpx, hx]
              simp
          refine ⟨⟨w.made, Nat.le_refl _, ⟨w.disk.filter p, ?_, ?_, ?_⟩, ?_, ?_⟩, ?_⟩
          · dsimp only; rw [hdisk, Nat.sub_self]; simp
          · intro x hx; exact hlts x (List.mem_filter.1 hx).1
          · dsimp only [Option.getD_some]; rw [hst, List.map_map]; simp [Function.comp_def]
          · intro e he
            dsimp only [Option.getD_some] at he
            rw [hst, List.mem_map] at he
            obtain ⟨x, hx, rfl⟩ := he
            exact ⟨hlts x (List.mem_filter.1 hx).1, rfl⟩
          · intro h; cases h
          · intro t lo hi hr hex
            dsimp only at hex ⊢
            have hc := hg t lo hi hr hex
            have hcov := process_cov _ _ _ _ hres t lo hi hr ?_
            · rw [hst] at hcov
              rw [hdisk]
              rcases hcov with ⟨e, he, _, hin⟩ | ⟨a, ha, hin⟩
              · rw [List.mem_map] at he
                obtain ⟨x, hx, rfl⟩ := he
                unfold inRange at hin
                simp only [Bool.and_eq_true, decide_eq_true_eq] at hin
                exact Or.inl ⟨x, hx, hin⟩
              · unfold inRange at hin
                simp only [Bool.and_eq_true, decide_eq_true_eq] at hin
                exact Or.inr ⟨a, ha, hin⟩
            · rw [hknown]
              rcases hc with ⟨x, hx, hin⟩ | ⟨a, ha, hin⟩
              · refine Or.inl ⟨(x, Spec.age w.made x), List.mem_map.2 ⟨x, hx, rfl⟩, trivial, ?_⟩
                unfold inRange; simpa using hin
              · refine Or.inr ⟨a, ha, ?_⟩
                unfold inRange; simpa using hin

theorem backup_ok (cycles : List Nat) (w : World) (m0 : Nat) (hw : WInv w m0) (hg : Good cycles w) :
    WInv (step cycles w .backup) m0 ∧ Good cycles (step cycles w .backup) := by
  have hlts := hw.known.2
  obtain ⟨hle, ⟨old, hd, hlt, hk⟩, hage, hnone⟩ := hw
  refine ⟨⟨?_, ⟨old, ?_, hlt, hk⟩, hage, hnone⟩, ?_⟩
  · show m0 ≤ w.made + 1; omega
  · show w.disk ++ [w.made] = old ++ List.range' m0 (w.made + 1 - m0)
    have : w.made + 1 - m0 = (w.made - m0) + 1 := by omega
    rw [this, List.range'_concat, hd, List.append_assoc]
    have : m0 + 1 * (w.made - m0) = w.made := by omega
    rw [this]
  · intro t lo hi hr hex
    show (∃ x ∈ w.disk ++ [w.made], lo ≤ Spec.age (w.made + 1) x + t ∧ Spec.age (w.made + 1) x + t < hi) ∨ _
    obtain ⟨a, ha, hb⟩ := hex
    change a < w.made + 1 + t at ha
    rcases hg (t + 1) lo hi hr ⟨a, by omega, hb⟩ with ⟨x, hx, hin⟩ | ⟨b, hb, hin⟩
    · have := hlts x hx
      refine Or.inl ⟨x, List.mem_append_left _ hx, ?_⟩
      unfold Spec.age at *; omega
    · by_cases hbt : b < t
      · exact Or.inr ⟨b, hbt, hin⟩
      · refine Or.inl ⟨w.made, List.mem_append_right _ (List.mem_singleton.2 rfl), ?_⟩
        unfold Spec.age; omega

theorem exec_ok (cycles : List Nat) (evs : List Ev) :
    (∃ m, WInv (exec cycles evs) m) ∧ Good cycles (exec cycles evs) := by
  unfold exec
  have gen : ∀ (evs : List Ev) (w : World), (∃ m, WInv w m) → Good cycles w →
      (∃ m, WInv (evs.foldl (step cycles) w) m) ∧ Good cycles (evs.foldl (step cycles) w) := by
    intro evs
    induction evs with
    | nil => exact fun w h1 h2 => ⟨h1, h2⟩
    | cons ev evs ih =>
      rintro w ⟨m, hw⟩ hg
      cases ev with
      | backup =>
        obtain ⟨a, b⟩ := backup_ok cycles w m hw hg
        exact ih _ ⟨m, a⟩ b
      | run dry num den =>
        obtain ⟨a, b⟩ := expireRun_ok cycles dry num den w m hw hg
        exact ih _ a b
  apply gen
  · exact ⟨0, Nat.le_refl _, ⟨[], rfl, fun x hx => absurd hx (List.not_mem_nil), rfl⟩,
      fun e he => absurd he (List.not_mem_nil), fun _ => rfl⟩
  · rintro t lo hi hr ⟨a, ha, hb⟩
    exact Or.inr ⟨a, by simpa using ha, hb⟩

/-! ### format_list -/

theorem formatLoop_append (rs cur : Nat) (res : List Item) (l : List Nat) :
    formatLoop rs cur res l = res ++ formatLoop rs cur [] l := by
  induction l generalizing rs cur res with
  | nil => simp [formatLoop]
  | cons n l ih =>
    unfold formatLoop
    dsimp only
    rw [ih]
    conv => rhs; rw [ih]
    rw [← List.append_assoc]
    congr 1
    repeat' split
    all_goals simp

theorem formatLoop_denotes (rs cur : Nat) (l : List Nat) (e : Nat) (hle : rs ≤ cur)
    (hs : (cur :: l).Pairwise (· < ·)) (he : ∀ x ∈ cur :: l, x + 2 ≤ e)
    (hlast : (cur :: l).getLast (by simp) + 2 = e) (k : Nat) :
    (∃ it ∈ formatLoop rs cur [] (l ++ [e]), Spec.denotes it k) ↔ (rs ≤ k ∧ k ≤ cur) ∨ k ∈ l := by
  induction l generalizing rs cur with
  | nil =>
    have h2 := he cur List.mem_cons_self
    simp only [List.nil_append, formatLoop, List.not_mem_nil, or_false]
    rw [if_neg (by omega)]
    repeat' split
    all_goals
      simp only [List.nil_append, List.mem_singleton, List.mem_cons, List.not_mem_nil, or_false,
        exists_eq_left, exists_eq_or_imp, Spec.denotes] <;> omega
  | cons n l ih =>
    have hcn : cur < n := (List.pairwise_cons.1 hs).1 n List.mem_cons_self
    have hs' := (List.pairwise_cons.1 hs).2
    have he' : ∀ x ∈ n :: l, x + 2 ≤ e := fun x hx => he x (List.mem_cons_of_mem _ hx)
    have hl' : (n :: l).getLast (by simp) + 2 = e := by
      rw [← hlast, List.getLast_cons (List.cons_ne_nil n l)]
    simp only [List.cons_append, formatLoop]
    rw [formatLoop_append]
    have hex : ∀ (a b : List Item), (∃ it ∈ a ++ b, Spec.denotes it k) ↔
        (∃ it ∈ a, Spec.denotes it k) ∨ ∃ it ∈ b, Spec.denotes it k := by
      intro a b
      constructor
      · rintro ⟨it, hit, hd⟩
        rcases List.mem_append.1 hit with h | h
        · exact Or.inl ⟨it, h, hd⟩
        · exact Or.inr ⟨it, h, hd⟩
      · rintro (⟨it, h, hd⟩ | ⟨it, h, hd⟩)
        · exact ⟨it, List.mem_append_left _ h, hd⟩
        · exact ⟨it, List.mem_append_right _ h, hd⟩
    rw [hex, ih _ n (by split <;> omega) hs' he' hl', List.mem_cons]
    by_cases hn : n = cur + 1
    · simp only [hn, if_true, List.not_mem_nil, false_and, exists_false, false_or, ne_eq,
        not_true_eq_false, if_false]
      constructor
      · rintro (h | h)
        · by_cases k = cur + 1
          · exact Or.inr (Or.inl (by assumption))
          · exact Or.inl (by omega)
        · exact Or.inr (Or.inr h)
      · rintro (h | h | h)
        · exact Or.inl (by omega)
        · exact Or.inl (by omega)
        · exact Or.inr h
    · simp only [hn, if_false, ne_eq, not_false_eq_true, if_true]
      have hfirst : (∃ it ∈ (if rs = cur then [] ++ [Item.one cur]
          else if rs = cur - 1 then [] ++ [Item.one rs, Item.one cur]
          else [] ++ [Item.span rs cur]), Spec.denotes it k) ↔ rs ≤ k ∧ k ≤ cur := by
        repeat' split
        all_goals
          simp only [List.nil_append, List.mem_singleton, List.mem_cons, List.not_mem_nil, or_false,
            exists_eq_left, exists_eq_or_imp, Spec.denotes] <;> omega
      rw [hfirst]
      constructor
      · rintro (h | h | h)
        · exact Or.inl h
        · exact Or.inr (Or.inl (by omega))
        · exact Or.inr (Or.inr h)
      · rintro (h | h | h)
        · exact Or.inl h
        · exact Or.inr (Or.inl (by omega))
        · exact Or.inr (Or.inr h)

end Verif.Expire
