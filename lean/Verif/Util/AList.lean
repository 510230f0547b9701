/-
Association lists with distinct keys: the representation of Python dicts and of SQL tables with a
primary key in the models.
-/
namespace Verif.AL

variable {κ ν : Type} [DecidableEq κ]

/-- Lookup. -/
def get : List (κ × ν) → κ → Option ν
  | [], _ => none
  | (k', v) :: t, k => if k' = k then some v else get t k

/-- Insert or replace (in place). -/
def set : List (κ × ν) → κ → ν → List (κ × ν)
  | [], k, v => [(k, v)]
  | (k', v') :: t, k, v => if k' = k then (k, v) :: t else (k', v') :: set t k v

/-- Delete. -/
def erase : List (κ × ν) → κ → List (κ × ν)
  | [], _ => []
  | (k', v') :: t, k => if k' = k then erase t k else (k', v') :: erase t k

/-- Keys are distinct. -/
def NK (l : List (κ × ν)) : Prop := (l.map (·.1)).Nodup

/-- Sum of a function over the items. -/
def sumBy (f : κ → ν → Int) : List (κ × ν) → Int
  | [] => 0
  | (k, v) :: t => f k v + sumBy f t

theorem get_nil (k : κ) : get ([] : List (κ × ν)) k = none := rfl

theorem get_set (l : List (κ × ν)) (k k' : κ) (v : ν) :
    get (set l k v) k' = if k' = k then some v else get l k' := by
  induction l with
  | nil =>
    simp only [set, get]
    by_cases h : k = k'
    · rw [if_pos h, if_pos h.symm]
    · rw [if_neg h, if_neg (Ne.symm h)]
  | cons e t ih =>
    obtain ⟨a, b⟩ := e
    simp only [set]
    by_cases h : a = k
    · rw [if_pos h]
      simp only [get]
      subst h
      by_cases h2 : a = k'
      · rw [if_pos h2, if_pos h2.symm]
      · rw [if_neg h2, if_neg (Ne.symm h2), if_neg h2]
    · rw [if_neg h]
      simp only [get]
      rw [ih]
      by_cases h2 : a = k'
      · rw [if_pos h2, if_pos h2, if_neg (by rw [← h2]; exact h)]
      · rw [if_neg h2, if_neg h2]

theorem get_set_self (l : List (κ × ν)) (k : κ) (v : ν) : get (set l k v) k = some v := by
  rw [get_set, if_pos rfl]

theorem get_set_ne (l : List (κ × ν)) {k k' : κ} (v : ν) (h : k' ≠ k) : get (set l k v) k' = get l k' := by
  rw [get_set, if_neg h]

theorem get_erase (l : List (κ × ν)) (k k' : κ) :
    get (erase l k) k' = if k' = k then none else get l k' := by
  induction l with
  | nil => simp [erase, get]
  | cons e t ih =>
    obtain ⟨a, b⟩ := e
    simp only [erase]
    by_cases h : a = k
    · rw [if_pos h, ih]
      simp only [get]
      subst h
      by_cases h2 : k' = a
      · rw [if_pos h2, if_pos h2]
      · rw [if_neg h2, if_neg h2, if_neg (Ne.symm h2)]
    · rw [if_neg h]
      simp only [get]
      rw [ih]
      by_cases h2 : a = k'
      · rw [if_pos h2, if_pos h2, if_neg (by rw [← h2]; exact h)]
      · rw [if_neg h2, if_neg h2]

theorem get_erase_self (l : List (κ × ν)) (k : κ) : get (erase l k) k = none := by
  rw [get_erase, if_pos rfl]

theorem get_erase_ne (l : List (κ × ν)) {k k' : κ} (h : k' ≠ k) : get (erase l k) k' = get l k' := by
  rw [get_erase, if_neg h]

theorem get_none_iff (l : List (κ × ν)) (k : κ) : get l k = none ↔ k ∉ l.map (·.1) := by
  induction l with
  | nil => simp [get]
  | cons e t ih =>
    obtain ⟨a, b⟩ := e
    simp only [get, List.map_cons, List.mem_cons]
    by_cases h : a = k
    · rw [if_pos h]; simp [h]
    · rw [if_neg h, ih]; simp [Ne.symm h]

theorem get_some_mem {l : List (κ × ν)} {k : κ} {v : ν} (h : get l k = some v) : (k, v) ∈ l := by
  induction l with
  | nil => cases h
  | cons e t ih =>
    obtain ⟨a, b⟩ := e
    simp only [get] at h
    by_cases hk : a = k
    · rw [if_pos hk] at h; cases h; subst hk; exact List.mem_cons_self
    · rw [if_neg hk] at h; exact List.mem_cons_of_mem _ (ih h)

theorem NK.cons_inv {k : κ} {v : ν} {t : List (κ × ν)} (h : NK ((k, v) :: t)) :
    get t k = none ∧ NK t := by
  unfold NK at h
  rw [List.map_cons, List.nodup_cons] at h
  exact ⟨(get_none_iff t k).2 h.1, h.2⟩

theorem mem_get_some {l : List (κ × ν)} (hn : NK l) {k : κ} {v : ν} (h : (k, v) ∈ l) :
    get l k = some v := by
  induction l with
  | nil => cases h
  | cons e t ih =>
    obtain ⟨a, b⟩ := e
    obtain ⟨h1, h2⟩ := hn.cons_inv
    simp only [get]
    rcases List.mem_cons.1 h with h | h
    · cases h; rw [if_pos rfl]
    · rw [if_neg, ih h2 h]
      rintro rfl
      rw [ih h2 h] at h1; cases h1

theorem mem_iff_get {l : List (κ × ν)} (hn : NK l) (k : κ) (v : ν) : (k, v) ∈ l ↔ get l k = some v :=
  ⟨mem_get_some hn, get_some_mem⟩

theorem set_keys_mem (l : List (κ × ν)) (k : κ) (v : ν) (x : κ) :
    x ∈ (set l k v).map (·.1) ↔ x = k ∨ x ∈ l.map (·.1) := by
  induction l with
  | nil => simp [set]
  | cons e t ih =>
    obtain ⟨a, b⟩ := e
    simp only [set]
    by_cases h : a = k
    · rw [if_pos h]; subst h; simp
    · rw [if_neg h]
      simp only [List.map_cons, List.mem_cons, ih]
      constructor
      · rintro (h | h | h)
        · exact Or.inr (Or.inl h)
        · exact Or.inl h
        · exact Or.inr (Or.inr h)
      · rintro (h | h | h)
        · exact Or.inr (Or.inl h)
        · exact Or.inl h
        · exact Or.inr (Or.inr h)

omit [DecidableEq κ] in
theorem NK_nil : NK ([] : List (κ × ν)) := List.nodup_nil

theorem NK.set {l : List (κ × ν)} (h : NK l) (k : κ) (v : ν) : NK (set l k v) := by
  induction l with
  | nil => simp [AL.set, NK]
  | cons e t ih =>
    obtain ⟨a, b⟩ := e
    obtain ⟨h1, h2⟩ := h.cons_inv
    simp only [AL.set]
    by_cases hk : a = k
    · rw [if_pos hk]; subst hk
      unfold NK; rw [List.map_cons, List.nodup_cons]
      exact ⟨(get_none_iff t a).1 h1, h2⟩
    · rw [if_neg hk]
      unfold NK; rw [List.map_cons, List.nodup_cons]
      refine ⟨?_, ih h2⟩
      rw [set_keys_mem]
      rintro (h | h)
      · exact hk h
      · exact (get_none_iff t a).1 h1 h

theorem erase_eq_filter (l : List (κ × ν)) (k : κ) : erase l k = l.filter (fun e => e.1 ≠ k) := by
  induction l with
  | nil => rfl
  | cons e t ih =>
    obtain ⟨a, b⟩ := e
    simp only [erase, List.filter_cons]
    by_cases h : a = k
    · simp [h, ih]
    · simp [h, ih]

theorem NK.erase {l : List (κ × ν)} (h : NK l) (k : κ) : NK (erase l k) := by
  rw [erase_eq_filter]
  unfold NK at h ⊢
  exact h.sublist (List.filter_sublist.map _)

theorem erase_of_none {l : List (κ × ν)} {k : κ} (h : get l k = none) : erase l k = l := by
  induction l with
  | nil => rfl
  | cons e t ih =>
    obtain ⟨a, b⟩ := e
    simp only [get] at h
    simp only [erase]
    by_cases hk : a = k
    · rw [if_pos hk] at h; cases h
    · rw [if_neg hk] at h ⊢; rw [ih h]

theorem sumBy_set (f : κ → ν → Int) {l : List (κ × ν)} (h : NK l) (k : κ) (v : ν) :
    sumBy f (set l k v) = sumBy f l - ((get l k).map (f k)).getD 0 + f k v := by
  induction l with
  | nil => simp [set, sumBy, get]
  | cons e t ih =>
    obtain ⟨a, b⟩ := e
    obtain ⟨h1, h2⟩ := h.cons_inv
    simp only [set, get]
    by_cases hk : a = k
    · rw [if_pos hk, if_pos hk]; subst hk
      simp only [sumBy, Option.map_some, Option.getD_some]; omega
    · rw [if_neg hk, if_neg hk]
      simp only [sumBy]
      rw [ih h2]; omega

theorem sumBy_erase (f : κ → ν → Int) {l : List (κ × ν)} (h : NK l) (k : κ) :
    sumBy f (erase l k) = sumBy f l - ((get l k).map (f k)).getD 0 := by
  induction l with
  | nil => simp [erase, sumBy, get]
  | cons e t ih =>
    obtain ⟨a, b⟩ := e
    obtain ⟨h1, h2⟩ := h.cons_inv
    simp only [erase, get]
    by_cases hk : a = k
    · rw [if_pos hk, if_pos hk]; subst hk
      rw [erase_of_none h1]
      simp only [sumBy, Option.map_some, Option.getD_some]; omega
    · rw [if_neg hk, if_neg hk]
      simp only [sumBy]
      rw [ih h2]; omega

theorem sumBy_congr (f g : κ → ν → Int) {l : List (κ × ν)} (hn : NK l)
    (h : ∀ k v, get l k = some v → f k v = g k v) : sumBy f l = sumBy g l := by
  induction l with
  | nil => rfl
  | cons e t ih =>
    obtain ⟨a, b⟩ := e
    obtain ⟨h1, h2⟩ := hn.cons_inv
    simp only [sumBy]
    rw [h a b (by simp [get]), ih h2]
    intro k v hk
    apply h k v
    simp only [get]
    rw [if_neg, hk]
    rintro rfl
    rw [h1] at hk; cases hk

omit [DecidableEq κ] in
theorem sumBy_nonneg (f : κ → ν → Int) (l : List (κ × ν)) (h : ∀ k v, 0 ≤ f k v) : 0 ≤ sumBy f l := by
  induction l with
  | nil => simp [sumBy]
  | cons e t ih => obtain ⟨a, b⟩ := e; have := h a b; simp only [sumBy]; omega

omit [DecidableEq κ] in
theorem le_sumBy (f : κ → ν → Int) (l : List (κ × ν)) (h : ∀ k v, 0 ≤ f k v) {k : κ} {v : ν}
    (hm : (k, v) ∈ l) : f k v ≤ sumBy f l := by
  induction l with
  | nil => cases hm
  | cons e t ih =>
    obtain ⟨a, b⟩ := e
    simp only [sumBy]
    have h0 := sumBy_nonneg f t h
    have h1 := h a b
    rcases List.mem_cons.1 hm with hm | hm
    · cases hm; omega
    · have := ih hm; omega

/-- `OrderedDict.move_to_end` / `LinkedDict.move_to_tail`. -/
def toTail (l : List (κ × ν)) (k : κ) : List (κ × ν) :=
  match get l k with
  | some v => erase l k ++ [(k, v)]
  | none => l

theorem append_eq_set {l : List (κ × ν)} {k : κ} (v : ν) (h : get l k = none) :
    l ++ [(k, v)] = set l k v := by
  induction l with
  | nil => rfl
  | cons e t ih =>
    obtain ⟨a, b⟩ := e
    simp only [get] at h
    simp only [set, List.cons_append]
    by_cases hk : a = k
    · rw [if_pos hk] at h; cases h
    · rw [if_neg hk] at h ⊢; rw [ih h]

theorem get_toTail (l : List (κ × ν)) (k k' : κ) : get (toTail l k) k' = get l k' := by
  unfold toTail
  cases h : get l k with
  | none => rfl
  | some v =>
    dsimp only
    rw [append_eq_set v (get_erase_self l k), get_set, get_erase]
    by_cases hk : k' = k
    · rw [if_pos hk, hk, h]
    · rw [if_neg hk, if_neg hk]

theorem NK.toTail {l : List (κ × ν)} (h : NK l) (k : κ) : NK (toTail l k) := by
  unfold AL.toTail
  cases hg : get l k with
  | none => exact h
  | some v =>
    dsimp only
    rw [append_eq_set v (get_erase_self l k)]
    exact (h.erase k).set k v

theorem sumBy_toTail (f : κ → ν → Int) {l : List (κ × ν)} (h : NK l) (k : κ) :
    sumBy f (toTail l k) = sumBy f l := by
  unfold toTail
  cases hg : get l k with
  | none => rfl
  | some v =>
    dsimp only
    rw [append_eq_set v (get_erase_self l k), sumBy_set f (h.erase k), sumBy_erase f h, get_erase_self, hg]
    simp

end Verif.AL
