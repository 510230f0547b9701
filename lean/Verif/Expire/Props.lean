import Verif.Expire.Lemmas
/-!
C45, C46: contrib/expire_backups.py.
-/
namespace Verif.Expire

/-- **C45.** After any history of making backups and running expire_backups.py (including aborted and
dry runs), every configured age range contains an existing backup whenever it would contain one had
nothing ever been deleted (i.e. if one of the ages `0 … made-1` lies in the range). -/
theorem C45_every_range_covered (cycles : List Nat) (evs : List Ev) (lo hi : Nat)
    (hr : Spec.IsRange cycles lo hi)
    (hcould : ∃ x, x < (exec cycles evs).made ∧
      lo ≤ Spec.age (exec cycles evs).made x ∧ Spec.age (exec cycles evs).made x < hi) :
    ∃ x ∈ (exec cycles evs).disk,
      lo ≤ Spec.age (exec cycles evs).made x ∧ Spec.age (exec cycles evs).made x < hi := by
  obtain ⟨x, hx, h⟩ := hcould
  rcases (exec_ok cycles evs).2 0 lo hi hr ⟨_, by unfold Spec.age; omega, h⟩ with h | ⟨a, ha, _⟩
  · exact h
  · omega

/-- After every run, the same is guaranteed for every future cycle already now: with `t` more backups
made and none deleted, every range is covered that would be covered without any deletion. -/
theorem C45_future_cycles_covered (cycles : List Nat) (evs : List Ev) (t lo hi : Nat)
    (hr : Spec.IsRange cycles lo hi) (hcould : lo < hi ∧ lo < (exec cycles evs).made + t) :
    (∃ x ∈ (exec cycles evs).disk, lo ≤ Spec.age (exec cycles evs).made x + t ∧
      Spec.age (exec cycles evs).made x + t < hi) ∨ ∃ a, a < t ∧ lo ≤ a ∧ a < hi :=
  (exec_ok cycles evs).2 t lo hi hr ⟨lo, by omega, by omega, by omega⟩

/-- The state file always knows exactly the backups that existed after the last completed run, with
their true ages. -/
theorem C45_state_file_exact (cycles : List Nat) (evs : List Ev) (st : State)
    (h : (exec cycles evs).saved = some st) :
    ∃ m, m ≤ (exec cycles evs).made ∧ (∀ e ∈ st, e.1 < m ∧ e.2 = Spec.age m e.1) ∧
      ∀ x, x ∈ (exec cycles evs).disk ↔ x ∈ st.map (·.1) ∨ (m ≤ x ∧ x < (exec cycles evs).made) := by
  obtain ⟨⟨m, hle, ⟨old, hd, hlt, hk⟩, hage, _⟩, _⟩ := exec_ok cycles evs
  rw [h] at hk hage
  refine ⟨m, hle, hage, fun x => ?_⟩
  rw [hd, List.mem_append, ← hk, List.mem_range'_1]
  have : m + ((exec cycles evs).made - m) = (exec cycles evs).made := by omega
  rw [this]; rfl

theorem foldl_missing {α : Type} {P : (Nat × Nat) × Nat → Prop} {f : Sim → α → Sim} {l : List α}
    (hf : ∀ s a, a ∈ l → (∀ m ∈ s.missing, P m) → ∀ m ∈ (f s a).missing, P m) : ∀ {s : Sim}, (∀ m ∈ s.missing, P m) → ∀ m ∈ (l.foldl f s).missing, P m := by
  induction l with
  | nil => intro s h; exact h
  | cons a l ih => intro s h; exact ih (fun s b hb => hf s b (List.mem_cons_of_mem _ hb)) (hf s a List.mem_cons_self h)

/-- A warning about a missing backup is right: it is about a coming cycle and one of the configured ranges, and none of the backups that exist, known with their ages, will be in that
range then. -/
theorem C45_warning_right {backups : List Nat} {state : State} {cycles : List Nat} {res : Result} (h : processBackups backups state cycles = some res) {r : Nat × Nat} {t : Nat}
    (hm : (r, t) ∈ res.missing) :
    0 < t ∧ t < maxCycle cycles ∧ (∃ rs, ranges cycles = some rs ∧ r ∈ rs) ∧ ∀ e ∈ dropMissing backups (addNew backups state), ¬(r.1 ≤ e.2 + t ∧ e.2 + t < r.2) := by
  unfold processBackups at h
  cases hr : ranges cycles with
  | none => rw [hr] at h; cases h
  | some rs =>
    rw [hr] at h
    have h' := Option.some.inj h
    rw [← h'] at hm
    have key : ∀ m ∈ ((List.range (maxCycle cycles)).foldl (stepBody (dropMissing backups (addNew backups state)) rs) ⟨[], [], []⟩).missing,
        0 < m.2 ∧ m.2 < maxCycle cycles ∧ m.1 ∈ rs ∧ ∀ e ∈ dropMissing backups (addNew backups state), ¬(m.1.1 ≤ e.2 + m.2 ∧ e.2 + m.2 < m.1.2) := by
      refine foldl_missing ?_ (fun m hm => nomatch hm)
      intro s step hst hs
      have hst := List.mem_range.1 hst
      unfold stepBody
      refine foldl_missing ?_ ?_
      · intro s r hr hs m hm
        unfold rangeBody at hm
        split at hm
        · exact hs m hm
        · split at hm
          · exact hs m hm
          · rename_i hn
            split at hm
            · exact hs m hm
            · rename_i h0
              rcases List.mem_append.1 hm with hm | hm
              · exact hs m hm
              · obtain rfl := List.mem_singleton.1 hm
                refine ⟨Nat.pos_of_ne_zero h0, hst, hr, ?_⟩
                intro e he hc
                have := List.find?_eq_none.1 hn e he
                simp [inRange, hc.1, hc.2] at this
      · exact hs
    obtain ⟨a, b, c, d⟩ := key _ hm
    exact ⟨a, b, ⟨rs, rfl, c⟩, d⟩

-- There are such warnings: one of two known backups is too old.
example : (processBackups [0, 1] [(0, 5)] [2, 4, 8]).map (·.missing) = some [((2, 4), 1), ((4, 8), 2), ((4, 8), 3)] := by decide +kernel

/-- What a run deletes, compared with a run without limit (`.run false 1 0`): it does the same if that deletes at most the
given proportion of the backups, and changes nothing if not.  A dry run changes nothing. -/
theorem C45_proportion (cycles : List Nat) (evs : List Ev) (num den : Nat) :
    (step cycles (exec cycles evs) (.run false num den) =
      if ((exec cycles evs).disk.length - (step cycles (exec cycles evs) (.run false 1 0)).disk.length) * den ≤ num * (exec cycles evs).disk.length
      then step cycles (exec cycles evs) (.run false 1 0) else exec cycles evs) ∧
    step cycles (exec cycles evs) (.run true num den) = exec cycles evs ∧
    ∀ x, x ∈ (step cycles (exec cycles evs) (.run false 1 0)).disk → x ∈ (exec cycles evs).disk := by
  obtain ⟨m0, hw⟩ := (exec_ok cycles evs).1
  generalize exec cycles evs = w at hw ⊢
  simp only [step]
  unfold expireRun
  by_cases h1 : (w.saved.isNone && decide (w.disk.length > 1)) = true
  · simp only [if_pos h1]
    exact ⟨by split <;> rfl, trivial, fun x hx => hx⟩
  · simp only [if_neg h1]
    cases hres : processBackups w.disk (w.saved.getD []) cycles with
    | none => exact ⟨by simp, rfl, fun x hx => hx⟩
    | some res =>
      obtain ⟨hlen, hsub⟩ := run_deletes hw hres
      refine ⟨?_, by simp, ?_⟩
      · by_cases h2 : res.toDelete.length * den > num * w.disk.length
        · have h3 : ¬(w.disk.length - (w.disk.filter (fun x => !res.toDelete.contains x)).length) * den ≤ num * w.disk.length := by
            rw [hlen]; omega
          simp only [if_pos h2, Nat.mul_zero, Nat.not_lt_zero, gt_iff_lt, if_false, Bool.false_eq_true, if_neg h3]
        · have h3 : (w.disk.length - (w.disk.filter (fun x => !res.toDelete.contains x)).length) * den ≤ num * w.disk.length := by
            rw [hlen]; omega
          simp only [if_neg h2, Nat.mul_zero, Nat.not_lt_zero, gt_iff_lt, if_false, Bool.false_eq_true, if_pos h3]
      · intro x hx
        simp only [Nat.mul_zero, Nat.not_lt_zero, gt_iff_lt, if_false, Bool.false_eq_true] at hx
        exact (List.mem_filter.1 hx).1

-- One of four backups is not needed: a run that may delete a quarter deletes it, one that may delete less does not.
example : let h := (List.replicate 3 [Ev.backup, Ev.run false 1 1]).flatten ++ [.backup]
    (exec [1, 2, 4, 8] h).disk.length = 4 ∧ (step [1, 2, 4, 8] (exec [1, 2, 4, 8] h) (.run false 1 4)).disk.length = 3 ∧
    (step [1, 2, 4, 8] (exec [1, 2, 4, 8] h) (.run false 24 100)).disk.length = 4 := by decide +kernel

-- Ranges 1, 2, 4, 8; ten cycles, each with a run that may delete everything (proportion 1).
example : Spec.IsRange [1, 2, 4, 8] 2 4 ∧
    (exec [1, 2, 4, 8] ((List.replicate 10 [Ev.backup, Ev.run false 1 1]).flatten)).disk.length < 10 ∧
    (exec [1, 2, 4, 8] ((List.replicate 10 [Ev.backup, Ev.run false 1 1]).flatten)).made = 10 := by
  refine ⟨Or.inr ⟨1, rfl, rfl⟩, ?_, ?_⟩ <;> decide +kernel

/-- **C46.** The list of items printed by `format_list` for a strictly increasing list denotes exactly
the numbers in the list. -/
theorem C46_format_list_faithful (l : List Nat) (hs : l.Pairwise (· < ·)) (k : Nat) :
    (∃ it ∈ formatItems l, Spec.denotes it k) ↔ k ∈ l := by
  cases l with
  | nil => simp [formatItems]
  | cons a l =>
    unfold formatItems
    have he : ∀ x ∈ a :: l, x + 2 ≤ (a :: l).getLast (by simp) + 2 := by
      intro x hx
      have : x ≤ (a :: l).getLast (by simp) := by
        have hd := List.dropLast_concat_getLast (l := a :: l) (by simp)
        rw [← hd] at hx hs
        rcases List.mem_append.1 hx with h | h
        · have := (List.pairwise_append.1 hs).2.2 x h _ (List.mem_singleton.2 rfl)
          omega
        · rw [List.mem_singleton] at h; omega
      omega
    rw [formatLoop_denotes a a l _ (Nat.le_refl _) hs he rfl k, List.mem_cons]
    have : (a ≤ k ∧ k ≤ a) ↔ k = a := by omega
    rw [this]

example : [1, 2, 3, 7, 9, 10].Pairwise (· < ·) ∧
    formatItems [1, 2, 3, 7, 9, 10] = [.span 1 3, .one 7, .one 9, .one 10] := by decide

example : formatList [1, 2, 3, 7, 9, 10] = "1-3, 7, 9 and 10" := by decide +kernel

end Verif.Expire
