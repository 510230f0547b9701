import Verif.Sync.LinkedDictLemmas
/-
Property C08: `LinkedDict` is an insertion-ordered map whose mutation-safe iteration visits every entry
that stays in the map, in order, and terminates.
-/
namespace Verif.Sync.LinkedDict

open Verif.AL (NK)

variable {K V : Type} [DecidableEq K]

/-! ### Specification: an ordered map is a list of pairs -/

namespace Spec

def find (d : List (K × V)) (k : K) : Option V := (d.find? (fun p => p.1 = k)).map (·.2)

def remove (d : List (K × V)) (k : K) : List (K × V) := d.filter (fun p => p.1 ≠ k)

/-- Effect of an operation on the ordered map: assignment keeps the place of a known key and appends a new
one, deletion removes, `move_to_tail` moves to the end; iterators do not change it. -/
def after (d : List (K × V)) : Op K V → List (K × V)
  | .set k v => if k ∈ d.map (·.1) then d.map (fun p => if p.1 = k then (k, v) else p) else d ++ [(k, v)]
  | .del k => remove d k
  | .pop k => remove d k
  | .moveToTail k =>
    match find d k with
    | some v => remove d k ++ [(k, v)]
    | none => d
  | _ => d

def run (d : List (K × V)) (ops : List (Op K V)) : List (K × V) := ops.foldl after d

/-- Is `o` a correct result of the operation on the ordered map `d`? -/
def Correct (d : List (K × V)) (op : Op K V) (o : Out K V) : Prop :=
  match op with
  | .set _ _ => o = .none
  | .del k => o = if k ∈ d.map (·.1) then .none else .keyError
  | .moveToTail k => o = if k ∈ d.map (·.1) then .none else .keyError
  | .pop k => o = match find d k with | some v => .val v | none => .keyError
  | .get k => o = match find d k with | some v => .val v | none => .keyError
  | .len => o = .len d.length
  | .iterStart _ => o = .none
  | .iterClose _ => o = .none
  | .iterNext _ => o = .stop ∨ ∃ k v, o = .yielded k v ∧ find d k = some v

/-- Every result in a history is correct at the moment of the call. -/
def AllCorrect : List (K × V) → List (Op K V) → List (Out K V) → Prop
  | _, [], [] => True
  | d, op :: ops, o :: os => Correct d op o ∧ AllCorrect (after d op) ops os
  | _, _, _ => False

/-- Keys yielded by iterator `c` in a history. -/
def yields (c : Nat) : List (Op K V) → List (Out K V) → List K
  | .iterNext c' :: ops, .yielded k _ :: os => if c' = c then k :: yields c ops os else yields c ops os
  | _ :: ops, _ :: os => yields c ops os
  | _, _ => []

/-- Does the operation remove or move key `k`? -/
def touches (k : K) : Op K V → Bool
  | .del k' => k' = k
  | .pop k' => k' = k
  | .moveToTail k' => k' = k
  | _ => false

/-- Does the operation start or close iterator `c`? -/
def restarts (c : Nat) : Op K V → Bool
  | .iterStart c' => c' = c
  | .iterClose c' => c' = c
  | _ => false

/-- May the operation put an entry at the end? -/
def appends : Op K V → Bool
  | .set _ _ => true
  | .moveToTail _ => true
  | _ => false

end Spec

open Spec

/-! ### Lemmas on item lists -/

def ents : List (Item K V) → List (K × V)
  | [] => []
  | .entry k v :: t => (k, v) :: ents t
  | .cursor _ :: t => ents t

def curs : List (Item K V) → List Nat
  | [] => []
  | .entry _ _ :: t => curs t
  | .cursor c :: t => c :: curs t

def behind (c : Nat) : List (Item K V) → List (K × V)
  | [] => []
  | .entry _ _ :: t => behind c t
  | .cursor c' :: t => if c' = c then ents t else behind c t

structure LInv (l : List (Item K V)) : Prop where
  nk : (ents l).map (·.1) |>.Nodup
  nc : (curs l).Nodup

omit [DecidableEq K] in
theorem ents_append (a b : List (Item K V)) : ents (a ++ b) = ents a ++ ents b := by
  induction a with
  | nil => rfl
  | cons x t ih => cases x <;> simp [ents, ih]

omit [DecidableEq K] in
theorem curs_append (a b : List (Item K V)) : curs (a ++ b) = curs a ++ curs b := by
  induction a with
  | nil => rfl
  | cons x t ih => cases x <;> simp [curs, ih]

theorem lget_find (l : List (Item K V)) (k : K) : lget l k = find (ents l) k := by
  induction l with
  | nil => rfl
  | cons x t ih =>
    cases x with
    | cursor c => simpa [lget, ents] using ih
    | entry k' v =>
      simp only [lget, ents, find, List.find?_cons]
      by_cases h : k' = k
      · simp [h]
      · simp only [h, if_false, decide_false]; exact ih

theorem find_none {d : List (K × V)} {k : K} : find d k = none ↔ k ∉ d.map (·.1) := by
  simp only [find, Option.map_eq_none_iff, List.find?_eq_none, List.mem_map, not_exists, not_and, decide_eq_true_eq]

theorem find_some {d : List (K × V)} {k : K} {v : V} (h : find d k = some v) : k ∈ d.map (·.1) := by
  apply Classical.byContradiction
  intro hn; rw [find_none.2 hn] at h; cases h

theorem ents_lrep (l : List (Item K V)) (k : K) (v : V) :
    ents (lrep l k v) = (ents l).map (fun p => if p.1 = k then (k, v) else p) := by
  induction l with
  | nil => rfl
  | cons x t ih =>
    cases x with
    | cursor c => simpa [lrep, ents] using ih
    | entry k' v' =>
      simp only [lrep, List.map_cons, ents] at ih ⊢
      split <;> simp_all [ents]

theorem curs_lrep (l : List (Item K V)) (k : K) (v : V) : curs (lrep l k v) = curs l := by
  induction l with
  | nil => rfl
  | cons x t ih =>
    cases x with
    | cursor c => simpa [lrep, curs] using ih
    | entry k' v' =>
      simp only [lrep, List.map_cons, curs] at ih ⊢
      split <;> simp_all [curs]

theorem ents_ldel (l : List (Item K V)) (k : K) : ents (ldel l k) = remove (ents l) k := by
  induction l with
  | nil => rfl
  | cons x t ih =>
    cases x with
    | cursor c => simpa [ldel, ents, isKey] using ih
    | entry k' v' =>
      simp only [ldel, List.filter_cons, isKey, ents, remove] at ih ⊢
      by_cases h : k' = k <;> simp [h, ents, ih]

theorem curs_ldel (l : List (Item K V)) (k : K) : curs (ldel l k) = curs l := by
  induction l with
  | nil => rfl
  | cons x t ih =>
    cases x with
    | cursor c => simpa [ldel, curs, isKey] using ih
    | entry k' v' =>
      simp only [ldel, List.filter_cons, isKey, curs] at ih ⊢
      by_cases h : k' = k <;> simp [h, curs, ih]

omit [DecidableEq K] in
theorem ents_lclose (l : List (Item K V)) (c : Nat) : ents (lclose l c) = ents l := by
  induction l with
  | nil => rfl
  | cons x t ih =>
    cases x with
    | entry k v => simpa [lclose, ents, isCur] using ih
    | cursor c' =>
      simp only [lclose, List.filter_cons, isCur, ents] at ih ⊢
      by_cases h : c' = c <;> simp [h, ents, ih]

omit [DecidableEq K] in
theorem curs_lclose (l : List (Item K V)) (c : Nat) : curs (lclose l c) = (curs l).filter (· ≠ c) := by
  induction l with
  | nil => rfl
  | cons x t ih =>
    cases x with
    | entry k v => simpa [lclose, curs, isCur] using ih
    | cursor c' =>
      simp only [lclose, List.filter_cons, isCur, curs] at ih ⊢
      by_cases h : c' = c <;> simp [h, curs, ih]

omit [DecidableEq K] in
theorem ents_skip (c : Nat) (l : List (Item K V)) : ents (skip c l).1 = ents l := by
  induction l with
  | nil => rfl
  | cons x t ih => cases x <;> simp [skip, ents, ih]

omit [DecidableEq K] in
theorem ents_ladv (c : Nat) (l : List (Item K V)) : ents (ladv c l).1 = ents l := by
  induction l with
  | nil => rfl
  | cons x t ih =>
    cases x with
    | entry k v => simp [ladv, ents, ih]
    | cursor c' =>
      simp only [ladv]
      split
      · simp [ents_skip, ents]
      · simp [ents, ih]

omit [DecidableEq K] in
theorem skip_some {c : Nat} {l : List (Item K V)} {k : K} {v : V} (h : (skip c l).2 = some (k, v)) :
    ∃ r, ents l = (k, v) :: r ∧ List.Perm (curs (skip c l).1) (c :: curs l) ∧
      (c ∉ curs l → behind c (skip c l).1 = r) := by
  induction l with
  | nil => simp [skip] at h
  | cons x t ih =>
    cases x with
    | entry k' v' =>
      simp only [skip, Option.some.injEq, Prod.mk.injEq] at h
      obtain ⟨rfl, rfl⟩ := h
      exact ⟨ents t, rfl, by simp [skip, curs], by simp [skip, behind]⟩
    | cursor d =>
      simp only [skip] at h
      obtain ⟨r, h1, h2, h3⟩ := ih h
      refine ⟨r, h1, ?_, ?_⟩
      · simp only [skip, curs]
        exact (List.Perm.cons d h2).trans (List.Perm.swap c d _)
      · intro hc
        simp only [curs, List.mem_cons, not_or] at hc
        simp only [skip, behind, if_neg (Ne.symm hc.1)]
        exact h3 hc.2

omit [DecidableEq K] in
theorem skip_none {c : Nat} {l : List (Item K V)} (h : (skip c l).2 = none) :
    ents l = [] ∧ (skip c l).1 = l := by
  induction l with
  | nil => exact ⟨rfl, rfl⟩
  | cons x t ih =>
    cases x with
    | entry k' v' => simp [skip] at h
    | cursor d =>
      simp only [skip] at h
      obtain ⟨h1, h2⟩ := ih h
      exact ⟨h1, by simp only [skip, h2]⟩

omit [DecidableEq K] in
theorem behind_nil {c : Nat} {l : List (Item K V)} (h : ents l = []) : behind c l = [] := by
  induction l with
  | nil => rfl
  | cons x t ih =>
    cases x with
    | entry k v => simp [ents] at h
    | cursor d => simp only [ents] at h; simp only [behind]; split; exact h; exact ih h

omit [DecidableEq K] in
theorem behind_skip_ne {c d : Nat} (hne : d ≠ c) (l : List (Item K V)) : behind c (skip d l).1 = behind c l := by
  induction l with
  | nil => rfl
  | cons x t ih =>
    cases x with
    | entry k v => simp [skip, behind, hne]
    | cursor e => simp only [skip, behind, ents_skip]; split <;> simp [ih]

omit [DecidableEq K] in
theorem behind_ladv_ne {c d : Nat} (hne : d ≠ c) (l : List (Item K V)) : behind c (ladv d l).1 = behind c l := by
  induction l with
  | nil => rfl
  | cons x t ih =>
    cases x with
    | entry k v => simp [ladv, behind, ih]
    | cursor e =>
      simp only [ladv]
      split
      · next he => subst he; rw [behind_skip_ne hne]; simp [behind, hne]
      · simp only [behind, ents_ladv, ih]

omit [DecidableEq K] in
theorem ladv_some {c : Nat} {l : List (Item K V)} {k : K} {v : V} (h : (ladv c l).2 = some (k, v)) :
    (k, v) ∈ ents l ∧ List.Perm (curs (ladv c l).1) (curs l) ∧
      ((curs l).Nodup → behind c l = (k, v) :: behind c (ladv c l).1) := by
  induction l with
  | nil => simp [ladv] at h
  | cons x t ih =>
    cases x with
    | entry k' v' =>
      simp only [ladv] at h
      obtain ⟨h1, h2, h3⟩ := ih h
      exact ⟨by simp [ents, h1], by simpa [ladv, curs] using h2, by simpa [ladv, curs, behind] using h3⟩
    | cursor d =>
      simp only [ladv] at h ⊢
      split at h
      · next hd =>
        subst hd
        rw [if_pos rfl]
        obtain ⟨r, h1, h2, h3⟩ := skip_some h
        refine ⟨by simp [ents, h1], by simpa [curs] using h2, ?_⟩
        intro hn
        simp only [curs, List.nodup_cons] at hn
        rw [h3 hn.1, ← h1]; simp [behind]
      · next hd =>
        rw [if_neg hd]
        obtain ⟨h1, h2, h3⟩ := ih h
        refine ⟨by simp [ents, h1], by simpa [curs] using h2, ?_⟩
        intro hn
        simp only [curs, List.nodup_cons] at hn
        simpa [behind, hd] using h3 hn.2

omit [DecidableEq K] in
theorem ladv_none {c : Nat} {l : List (Item K V)} (hc : lhasCur l c = true) (h : (ladv c l).2 = none) :
    behind c l = [] ∧ List.Sublist (curs (ladv c l).1) (curs l) ∧
      ((curs l).Nodup → c ∉ curs (ladv c l).1) := by
  induction l with
  | nil => simp [lhasCur] at hc
  | cons x t ih =>
    cases x with
    | entry k' v' =>
      simp only [ladv] at h
      simp only [lhasCur, List.any_cons, isCur, Bool.false_or] at hc ih
      obtain ⟨h1, h2, h3⟩ := ih hc h
      exact ⟨by simpa [behind] using h1, by simpa [ladv, curs] using h2, by simpa [ladv, curs] using h3⟩
    | cursor d =>
      simp only [ladv] at h ⊢
      split at h
      · next hd =>
        subst hd
        rw [if_pos rfl]
        obtain ⟨h1, h2⟩ := skip_none h
        refine ⟨by simp [behind, h1], by rw [h2]; simp [curs], ?_⟩
        intro hn
        simp only [curs, List.nodup_cons] at hn
        rw [h2]; exact hn.1
      · next hd =>
        rw [if_neg hd]
        simp only [lhasCur, List.any_cons, isCur, hd, decide_false, Bool.false_or] at hc ih
        obtain ⟨h1, h2, h3⟩ := ih hc h
        refine ⟨by simpa [behind, hd] using h1, by simpa [curs] using h2, ?_⟩
        intro hn
        simp only [curs, List.nodup_cons] at hn
        simp only [curs, List.mem_cons, not_or]
        exact ⟨Ne.symm hd, h3 hn.2⟩

omit [DecidableEq K] in
theorem behind_absent {c : Nat} {l : List (Item K V)} (h : c ∉ curs l) : behind c l = [] := by
  induction l with
  | nil => rfl
  | cons x t ih =>
    cases x with
    | entry k v => simpa [behind, curs] using ih h
    | cursor d =>
      simp only [curs, List.mem_cons, not_or] at h
      simp only [behind, if_neg (Ne.symm h.1)]
      exact ih h.2

omit [DecidableEq K] in
theorem hasCur_curs {l : List (Item K V)} {c : Nat} : lhasCur l c = true ↔ c ∈ curs l := by
  induction l with
  | nil => simp [lhasCur, curs]
  | cons x t ih =>
    simp only [lhasCur] at ih
    cases x with
    | entry k v => simpa [lhasCur, curs, isCur] using ih
    | cursor d =>
      simp only [lhasCur, List.any_cons, isCur, Bool.or_eq_true, decide_eq_true_eq, curs, List.mem_cons, ih]
      constructor
      · rintro (h | h); exact Or.inl h.symm; exact Or.inr h
      · rintro (h | h); exact Or.inl h.symm; exact Or.inr h

omit [DecidableEq K] in
theorem mem_find [DecidableEq K] {d : List (K × V)} (hn : (d.map (·.1)).Nodup) {k : K} {v : V} (h : (k, v) ∈ d) :
    find d k = some v := by
  induction d with
  | nil => cases h
  | cons p t ih =>
    simp only [List.map_cons, List.nodup_cons] at hn
    simp only [find, List.find?_cons]
    rcases List.mem_cons.1 h with h | h
    · subst h; simp
    · have : p.1 ≠ k := by
        rintro rfl
        exact hn.1 (List.mem_map.2 ⟨_, h, rfl⟩)
      simp only [this, decide_false]
      exact ih hn.2 h

theorem remove_absent {d : List (K × V)} {k : K} (h : k ∉ d.map (·.1)) : remove d k = d := by
  unfold remove
  rw [List.filter_eq_self]
  intro p hp
  simp only [decide_eq_true_eq]
  rintro rfl
  exact h (List.mem_map.2 ⟨_, hp, rfl⟩)

theorem map_keys (d : List (K × V)) (k : K) (v : V) :
    (d.map (fun p => if p.1 = k then (k, v) else p)).map (·.1) = d.map (·.1) := by
  rw [List.map_map]
  apply List.map_congr_left
  intro p _
  simp only [Function.comp]
  split
  · next h => exact h.symm
  · rfl

theorem nodup_remove {d : List (K × V)} (h : (d.map (·.1)).Nodup) (k : K) : ((remove d k).map (·.1)).Nodup :=
  List.Sublist.nodup (List.Sublist.map _ List.filter_sublist) h

theorem not_mem_remove (d : List (K × V)) (k : K) : k ∉ (remove d k).map (·.1) := by
  simp [remove]

omit [DecidableEq K] in
theorem lcount_ents (l : List (Item K V)) : lcount l = (ents l).length := by
  unfold lcount
  induction l with
  | nil => rfl
  | cons x t ih => cases x <;> simp [ents, List.filter_cons, isEntry, ih]

/-- One step on the item list: the map part follows the specification. -/
theorem lstep_spec {l l' : List (Item K V)} {op : Op K V} {o : Out K V} (i : LInv l)
    (h : lstep l op = some (l', o)) :
    LInv l' ∧ ents l' = after (ents l) op ∧ Correct (ents l) op o := by
  obtain ⟨nk, nc⟩ := i
  cases op with
  | set k v =>
    simp only [lstep, lget_find] at h
    cases hf : find (ents l) k with
    | none =>
      rw [hf] at h; cases h
      have hk := find_none.1 hf
      refine ⟨⟨?_, ?_⟩, ?_, rfl⟩
      · rw [ents_append, List.map_append, List.nodup_append]
        refine ⟨nk, by simp [ents], ?_⟩
        intro a ha b hb
        simp only [ents, List.map_cons, List.map_nil, List.mem_singleton] at hb
        rintro rfl; rw [hb] at ha; exact hk ha
      · rw [curs_append]; simpa [curs] using nc
      · simp only [after, if_neg hk, ents_append, ents]
    | some v0 =>
      rw [hf] at h; cases h
      refine ⟨⟨?_, ?_⟩, ?_, rfl⟩
      · rw [ents_lrep, map_keys]; exact nk
      · rw [curs_lrep]; exact nc
      · simp only [after, if_pos (find_some hf), ents_lrep]
  | del k =>
    simp only [lstep, lget_find] at h
    cases hf : find (ents l) k with
    | none =>
      rw [hf] at h; cases h
      have hk := find_none.1 hf
      exact ⟨⟨nk, nc⟩, (remove_absent hk).symm, by simp only [Correct, if_neg hk]⟩
    | some v0 =>
      rw [hf] at h; cases h
      refine ⟨⟨?_, ?_⟩, ents_ldel _ _, by simp only [Correct, if_pos (find_some hf)]⟩
      · rw [ents_ldel]; exact nodup_remove nk k
      · rw [curs_ldel]; exact nc
  | pop k =>
    simp only [lstep, lget_find] at h
    cases hf : find (ents l) k with
    | none =>
      rw [hf] at h; cases h
      have hk := find_none.1 hf
      exact ⟨⟨nk, nc⟩, (remove_absent hk).symm, by simp only [Correct, hf]⟩
    | some v0 =>
      rw [hf] at h; cases h
      refine ⟨⟨?_, ?_⟩, ents_ldel _ _, by simp only [Correct, hf]⟩
      · rw [ents_ldel]; exact nodup_remove nk k
      · rw [curs_ldel]; exact nc
  | get k =>
    simp only [lstep, lget_find] at h
    cases hf : find (ents l) k with
    | none => rw [hf] at h; cases h; exact ⟨⟨nk, nc⟩, rfl, by simp only [Correct, hf]⟩
    | some v0 => rw [hf] at h; cases h; exact ⟨⟨nk, nc⟩, rfl, by simp only [Correct, hf]⟩
  | len =>
    simp only [lstep] at h; cases h
    exact ⟨⟨nk, nc⟩, rfl, by simp only [Correct, lcount_ents]⟩
  | moveToTail k =>
    simp only [lstep, lget_find] at h
    cases hf : find (ents l) k with
    | none =>
      rw [hf] at h; cases h
      have hk := find_none.1 hf
      exact ⟨⟨nk, nc⟩, by simp only [after, hf], by simp only [Correct, if_neg hk]⟩
    | some v0 =>
      rw [hf] at h; cases h
      refine ⟨⟨?_, ?_⟩, ?_, by simp only [Correct, if_pos (find_some hf)]⟩
      · rw [ents_append, ents_ldel, List.map_append, List.nodup_append]
        refine ⟨nodup_remove nk k, by simp [ents], ?_⟩
        intro a ha b hb
        simp only [ents, List.map_cons, List.map_nil, List.mem_singleton] at hb
        rintro rfl; rw [hb] at ha; exact not_mem_remove _ _ ha
      · rw [curs_append, curs_ldel]; simpa [curs] using nc
      · simp only [after, hf, ents_append, ents_ldel, ents]
  | iterStart c =>
    simp only [lstep] at h
    split at h
    · cases h
    · next hc =>
      cases h
      refine ⟨⟨nk, ?_⟩, rfl, rfl⟩
      simp only [curs, List.nodup_cons]
      exact ⟨fun hm => hc (hasCur_curs.2 hm), nc⟩
  | iterClose c =>
    simp only [lstep] at h
    split at h
    · cases h
      refine ⟨⟨?_, ?_⟩, ents_lclose _ _, rfl⟩
      · rw [ents_lclose]; exact nk
      · rw [curs_lclose]; exact List.Sublist.nodup List.filter_sublist nc
    · cases h
  | iterNext c =>
    simp only [lstep] at h
    split at h
    · next hc =>
      split at h
      · next l1 k v ha =>
        cases h
        have h1 := ladv_some (c := c) (l := l) (k := k) (v := v) (by rw [ha])
        have h2 := ents_ladv c l
        rw [ha] at h1 h2
        refine ⟨⟨by rw [h2]; exact nk, (h1.2.1.nodup_iff).2 nc⟩, h2, Or.inr ⟨k, v, rfl, mem_find nk h1.1⟩⟩
      · next l1 ha =>
        cases h
        have h1 := ladv_none (c := c) (l := l) hc (by rw [ha])
        have h2 := ents_ladv c l
        rw [ha] at h1 h2
        exact ⟨⟨by rw [h2]; exact nk, List.Sublist.nodup h1.2.1 nc⟩, h2, Or.inl rfl⟩
    · cases h

/-- Key yielded by iterator `c` in one step. -/
def yield1 (c : Nat) : Op K V → Out K V → List K
  | .iterNext c', .yielded k _ => if c' = c then [k] else []
  | _, _ => []

omit [DecidableEq K] in
theorem yields_cons (c : Nat) (op : Op K V) (o : Out K V) (ops : List (Op K V)) (os : List (Out K V)) :
    yields c (op :: ops) (o :: os) = yield1 c op o ++ yields c ops os := by
  cases op <;> cases o <;> simp only [yields, yield1, List.nil_append]
  split <;> rfl

theorem behind_ldel (l : List (Item K V)) (c : Nat) (k : K) : behind c (ldel l k) = remove (behind c l) k := by
  induction l with
  | nil => rfl
  | cons x t ih =>
    cases x with
    | cursor d =>
      have : ldel (.cursor d :: t) k = .cursor d :: ldel t k := by simp [ldel, isKey]
      rw [this]
      simp only [behind]
      rw [ih, ents_ldel]
      split <;> rfl
    | entry k' v' =>
      simp only [ldel, List.filter_cons, isKey, behind] at ih ⊢
      by_cases h : k' = k <;> simp [h, behind, ih]

theorem behind_lrep (l : List (Item K V)) (c : Nat) (k : K) (v : V) :
    behind c (lrep l k v) = (behind c l).map (fun p => if p.1 = k then (k, v) else p) := by
  induction l with
  | nil => rfl
  | cons x t ih =>
    cases x with
    | cursor d =>
      simp only [lrep, List.map_cons, behind] at ih ⊢
      rw [ih]
      split
      · exact ents_lrep t k v
      · rfl
    | entry k' v' =>
      simp only [lrep, List.map_cons, behind] at ih ⊢
      split <;> simp_all [behind]

omit [DecidableEq K] in
theorem behind_snoc (l : List (Item K V)) (c : Nat) (k : K) (v : V) :
    behind c (l ++ [.entry k v]) = behind c l ++ (if c ∈ curs l then [(k, v)] else []) := by
  induction l with
  | nil => simp [behind, curs]
  | cons x t ih =>
    cases x with
    | entry k' v' => simp only [List.cons_append, behind, curs]; exact ih
    | cursor d =>
      simp only [List.cons_append, behind, curs, List.mem_cons]
      by_cases hd : d = c
      · simp [hd, ents_append, ents]
      · simp [hd, Ne.symm hd, ih]

omit [DecidableEq K] in
theorem behind_lclose (l : List (Item K V)) {c d : Nat} (hne : d ≠ c) : behind c (lclose l d) = behind c l := by
  induction l with
  | nil => rfl
  | cons x t ih =>
    cases x with
    | entry k v => simpa [lclose, behind, isCur] using ih
    | cursor e =>
      by_cases he : e = d
      · have : lclose (.cursor e :: t) d = lclose t d := by simp [lclose, isCur, he]
        rw [this, ih]; subst he; simp [behind, hne]
      · have : lclose (.cursor e :: t) d = .cursor e :: lclose t d := by simp [lclose, isCur, he]
        rw [this]; simp only [behind]; rw [ih, ents_lclose]

theorem keys_remove (d : List (K × V)) (k : K) : (remove d k).map (·.1) = (d.map (·.1)).filter (· ≠ k) := by
  unfold remove
  rw [List.filter_map]; rfl

omit [DecidableEq K] in
theorem filter_ne [DecidableEq K] (ks : List K) (k : K) (S : K → Bool) (h : S k = false) :
    (ks.filter (· ≠ k)).filter S = ks.filter S := by
  rw [List.filter_filter]
  apply List.filter_congr
  intro x _
  by_cases hx : x = k
  · subst hx; simp [h]
  · simp [hx]

/-- One step of the iteration property for a set `S` of keys that are present and not touched. -/
theorem behind_step {l l' : List (Item K V)} {op : Op K V} {o : Out K V} (i : LInv l)
    (h : lstep l op = some (l', o)) (c : Nat) (hr : restarts c op = false) (S : K → Bool)
    (hS : ∀ k, S k = true → k ∈ (ents l).map (·.1) ∧ touches k op = false) :
    ((behind c l).map (·.1)).filter S = (yield1 c op o).filter S ++ ((behind c l').map (·.1)).filter S := by
  obtain ⟨nk, nc⟩ := i
  have hSf : ∀ k, touches k op = true → S k = false := by
    intro k hk
    cases hs : S k with
    | false => rfl
    | true => rw [(hS k hs).2] at hk; cases hk
  cases op with
  | set k v =>
    simp only [lstep, lget_find] at h
    cases hf : find (ents l) k with
    | none =>
      rw [hf] at h; cases h
      have hk : S k = false := by
        cases hs : S k with
        | false => rfl
        | true => exact absurd (hS k hs).1 (find_none.1 hf)
      rw [behind_snoc]
      split <;> simp [yield1, hk]
    | some v0 =>
      rw [hf] at h; cases h
      rw [behind_lrep, map_keys]; rfl
  | del k =>
    have hk := hSf k (by simp [touches])
    simp only [lstep, lget_find] at h
    cases hf : find (ents l) k with
    | none => rw [hf] at h; cases h; rfl
    | some v0 => rw [hf] at h; cases h; rw [behind_ldel, keys_remove, filter_ne _ _ _ hk]; rfl
  | pop k =>
    have hk := hSf k (by simp [touches])
    simp only [lstep, lget_find] at h
    cases hf : find (ents l) k with
    | none => rw [hf] at h; cases h; rfl
    | some v0 => rw [hf] at h; cases h; rw [behind_ldel, keys_remove, filter_ne _ _ _ hk]; rfl
  | get k =>
    simp only [lstep, lget_find] at h
    cases hf : find (ents l) k with
    | none => rw [hf] at h; cases h; rfl
    | some v0 => rw [hf] at h; cases h; rfl
  | len => simp only [lstep] at h; cases h; rfl
  | moveToTail k =>
    have hk := hSf k (by simp [touches])
    simp only [lstep, lget_find] at h
    cases hf : find (ents l) k with
    | none => rw [hf] at h; cases h; rfl
    | some v0 =>
      rw [hf] at h; cases h
      rw [behind_snoc, behind_ldel, List.map_append, List.filter_append, keys_remove, filter_ne _ _ _ hk]
      split <;> simp [yield1, hk]
  | iterStart d =>
    simp only [restarts, decide_eq_false_iff_not] at hr
    simp only [lstep] at h
    split at h
    · cases h
    · cases h; simp [behind, hr, yield1]
  | iterClose d =>
    simp only [restarts, decide_eq_false_iff_not] at hr
    simp only [lstep] at h
    split at h
    · cases h; rw [behind_lclose _ hr]; rfl
    · cases h
  | iterNext d =>
    simp only [lstep] at h
    split at h
    · next hc =>
      split at h
      · next l1 k v ha =>
        cases h
        by_cases hd : d = c
        · subst hd
          have h1 := ladv_some (c := d) (l := l) (k := k) (v := v) (by rw [ha])
          rw [ha] at h1
          rw [h1.2.2 nc]
          simp [yield1, List.filter_cons]
          split <;> rfl
        · have h1 := behind_ladv_ne hd l
          rw [ha] at h1
          dsimp only at h1
          rw [h1]; simp [yield1, hd]
      · next l1 ha =>
        cases h
        by_cases hd : d = c
        · subst hd
          have h1 := ladv_none (c := d) (l := l) hc (by rw [ha])
          rw [ha] at h1
          rw [h1.1, behind_absent (h1.2.2 nc)]; rfl
        · have h1 := behind_ladv_ne hd l
          rw [ha] at h1
          dsimp only at h1
          rw [h1]; rfl
    · cases h

/-- One step never lets the number of entries behind the cursor grow except by an append. -/
theorem behind_count {l l' : List (Item K V)} {op : Op K V} {o : Out K V} (i : LInv l)
    (h : lstep l op = some (l', o)) (c : Nat) (hr : restarts c op = false) :
    (yield1 c op o).length + (behind c l').length ≤ (behind c l).length + (if appends op then 1 else 0) := by
  obtain ⟨nk, nc⟩ := i
  have hrm : ∀ (d : List (K × V)) k, (remove d k).length ≤ d.length := fun d k => List.length_filter_le _ _
  cases op with
  | set k v =>
    simp only [lstep, lget_find] at h
    cases hf : find (ents l) k with
    | none =>
      rw [hf] at h; cases h
      rw [behind_snoc]
      split <;> simp [yield1, appends]
    | some v0 =>
      rw [hf] at h; cases h
      rw [behind_lrep]; simp [yield1]
  | del k =>
    simp only [lstep, lget_find] at h
    cases hf : find (ents l) k with
    | none => rw [hf] at h; cases h; simp [yield1]
    | some v0 => rw [hf] at h; cases h; rw [behind_ldel]; have := hrm (behind c l) k; simp [yield1]; omega
  | pop k =>
    simp only [lstep, lget_find] at h
    cases hf : find (ents l) k with
    | none => rw [hf] at h; cases h; simp [yield1]
    | some v0 => rw [hf] at h; cases h; rw [behind_ldel]; have := hrm (behind c l) k; simp [yield1]; omega
  | get k =>
    simp only [lstep, lget_find] at h
    cases hf : find (ents l) k with
    | none => rw [hf] at h; cases h; simp [yield1]
    | some v0 => rw [hf] at h; cases h; simp [yield1]
  | len => simp only [lstep] at h; cases h; simp [yield1]
  | moveToTail k =>
    simp only [lstep, lget_find] at h
    cases hf : find (ents l) k with
    | none => rw [hf] at h; cases h; simp [yield1]
    | some v0 =>
      rw [hf] at h; cases h
      rw [behind_snoc, behind_ldel, List.length_append]
      have := hrm (behind c l) k
      split <;> simp [yield1, appends] <;> omega
  | iterStart d =>
    simp only [restarts, decide_eq_false_iff_not] at hr
    simp only [lstep] at h
    split at h
    · cases h
    · cases h; simp [behind, hr, yield1]
  | iterClose d =>
    simp only [restarts, decide_eq_false_iff_not] at hr
    simp only [lstep] at h
    split at h
    · cases h; rw [behind_lclose _ hr]; simp [yield1]
    · cases h
  | iterNext d =>
    simp only [lstep] at h
    split at h
    · next hc =>
      split at h
      · next l1 k v ha =>
        cases h
        by_cases hd : d = c
        · subst hd
          have h1 := ladv_some (c := d) (l := l) (k := k) (v := v) (by rw [ha])
          rw [ha] at h1
          rw [h1.2.2 nc]
          simp [yield1]; omega
        · have h1 := behind_ladv_ne hd l
          rw [ha] at h1
          dsimp only at h1
          rw [h1]; simp [yield1, hd]
      · next l1 ha =>
        cases h
        by_cases hd : d = c
        · subst hd
          have h1 := ladv_none (c := d) (l := l) hc (by rw [ha])
          rw [ha] at h1
          rw [h1.1, behind_absent (h1.2.2 nc)]; simp [yield1]
        · have h1 := behind_ladv_ne hd l
          rw [ha] at h1
          dsimp only at h1
          rw [h1]; simp [yield1]
    · cases h

/-! ### Histories -/

/-- Invariant connecting a pointer structure with a specification state. -/
def Good (s : State K V) (l : List (Item K V)) (d : List (K × V)) : Prop :=
  (∃ L, Rep s L ∧ L.map s.info = l) ∧ LInv l ∧ ents l = d

theorem good_step {s s' : State K V} {l : List (Item K V)} {d : List (K × V)} {op : Op K V} {o : Out K V}
    (g : Good s l d) (h : step s op = some (s', o)) :
    ∃ l', lstep l op = some (l', o) ∧ Good s' l' (after d op) ∧ Correct d op o := by
  obtain ⟨⟨L, r, rfl⟩, i, rfl⟩ := g
  have h1 := step_ref r op
  rw [h] at h1
  obtain ⟨L', r', hl⟩ := h1
  obtain ⟨i', he, hc⟩ := lstep_spec i hl
  exact ⟨_, hl, ⟨⟨L', r', rfl⟩, i', he⟩, hc⟩

theorem exec_good {s s' : State K V} {l : List (Item K V)} {d : List (K × V)} {ops : List (Op K V)}
    {outs : List (Out K V)} (g : Good s l d) (h : exec s ops = some (s', outs)) :
    (∃ l', Good s' l' (run d ops)) ∧ AllCorrect d ops outs ∧ outs.length = ops.length := by
  induction ops generalizing s l d outs with
  | nil => simp only [exec, Option.some.injEq, Prod.mk.injEq] at h; obtain ⟨rfl, rfl⟩ := h; exact ⟨⟨l, g⟩, trivial, rfl⟩
  | cons op ops ih =>
    simp only [exec] at h
    split at h <;> try (cases h; done)
    rename_i s1 o h1
    split at h <;> try (cases h; done)
    rename_i s2 os h2
    cases h
    obtain ⟨l', _, g', hc⟩ := good_step g h1
    obtain ⟨h3, h4, h5⟩ := ih g' h2
    exact ⟨h3, ⟨hc, h4⟩, by simp [h5]⟩

theorem good_init [Inhabited K] [Inhabited V] : Good (init : State K V) [] [] :=
  ⟨⟨[], rep_init, rfl⟩, ⟨by simp [ents], by simp [curs]⟩, rfl⟩

theorem exec_append {s s' : State K V} {a b : List (Op K V)} {outs : List (Out K V)}
    (h : exec s (a ++ b) = some (s', outs)) :
    ∃ s1 o1 o2, exec s a = some (s1, o1) ∧ exec s1 b = some (s', o2) ∧ outs = o1 ++ o2 := by
  induction a generalizing s outs with
  | nil => exact ⟨s, [], outs, rfl, h, rfl⟩
  | cons op ops ih =>
    simp only [List.cons_append, exec] at h
    split at h <;> try (cases h; done)
    rename_i s1 o h1
    split at h <;> try (cases h; done)
    rename_i s2 os h2
    cases h
    obtain ⟨s3, o1, o2, h3, h4, h5⟩ := ih h2
    exact ⟨s3, o :: o1, o2, by simp only [exec, h1, h3], h4, by simp [h5]⟩

theorem run_keeps {d : List (K × V)} {op : Op K V} {k : K} (h : k ∈ d.map (·.1)) (ht : touches k op = false) :
    k ∈ (after d op).map (·.1) := by
  have hrm : ∀ k', k' ≠ k → k ∈ (remove d k').map (·.1) := by
    intro k' hne
    rw [keys_remove, List.mem_filter]
    exact ⟨h, by simpa using Ne.symm hne⟩
  cases op with
  | set k' v =>
    simp only [after]; split
    · rw [map_keys]; exact h
    · rw [List.map_append]; exact List.mem_append_left _ h
  | del k' => exact hrm k' (by simpa [touches] using ht)
  | pop k' => exact hrm k' (by simpa [touches] using ht)
  | moveToTail k' =>
    simp only [after]; split
    · rw [List.map_append]; exact List.mem_append_left _ (hrm k' (by simpa [touches] using ht))
    · exact h
  | _ => exact h

theorem exec_behind {s s' : State K V} {l : List (Item K V)} {d : List (K × V)} {ops : List (Op K V)}
    {outs : List (Out K V)} (g : Good s l d) (h : exec s ops = some (s', outs)) (c : Nat)
    (hr : ∀ op ∈ ops, restarts c op = false) :
    ∃ l', Good s' l' (run d ops) ∧
      (∀ S : K → Bool, (∀ k, S k = true → k ∈ d.map (·.1) ∧ ∀ op ∈ ops, touches k op = false) →
        ((behind c l).map (·.1)).filter S =
          (yields c ops outs).filter S ++ ((behind c l').map (·.1)).filter S) ∧
      (yields c ops outs).length + (behind c l').length ≤ (behind c l).length + (ops.filter appends).length := by
  induction ops generalizing s l d outs with
  | nil =>
    simp only [exec, Option.some.injEq, Prod.mk.injEq] at h
    obtain ⟨rfl, rfl⟩ := h
    exact ⟨l, g, fun S _ => by simp [yields], by simp [yields]⟩
  | cons op ops ih =>
    simp only [exec] at h
    split at h <;> try (cases h; done)
    rename_i s1 o h1
    split at h <;> try (cases h; done)
    rename_i s2 os h2
    cases h
    obtain ⟨l1, hl, g1, hc⟩ := good_step g h1
    have hr1 := hr op (by simp)
    have i := g.2.1
    obtain ⟨l', g', hS', hn'⟩ := ih g1 h2 (fun op' h' => hr op' (by simp [h']))
    refine ⟨l', g', ?_, ?_⟩
    · intro S hS
      have h3 := behind_step i hl c hr1 S (fun k hk => ⟨g.2.2 ▸ (hS k hk).1, (hS k hk).2 op (by simp)⟩)
      have h4 := hS' S (fun k hk => ⟨run_keeps (hS k hk).1 ((hS k hk).2 op (by simp)),
        fun op' h' => (hS k hk).2 op' (by simp [h'])⟩)
      rw [h3, h4, yields_cons, List.filter_append, List.append_assoc]
    · have h3 := behind_count i hl c hr1
      rw [yields_cons, List.length_append, List.filter_cons]
      split
      · next ha => rw [if_pos ha] at h3; simp only [List.length_cons]; omega
      · next ha => rw [if_neg ha] at h3; omega

/-! ### Theorems -/

variable [Inhabited K] [Inhabited V]

/-- **C08 (map).**  Whatever the history of calls - including any number of iterators running, advanced and
closed in between - every call returns what an insertion-ordered map returns, and every pair that an iterator
yields is in the map, with that value, at that moment. -/
theorem C08_ordered_map (ops : List (Op K V)) (s : State K V) (outs : List (Out K V))
    (h : exec init ops = some (s, outs)) : AllCorrect [] ops outs ∧ outs.length = ops.length :=
  (exec_good good_init h).2

/-- **C08 (no failure).**  The map operations never fail whatever iterators are active; only starting an active
iterator again, or advancing one that is not active, is outside the model. -/
theorem C08_total (ops : List (Op K V)) (s : State K V) (outs : List (Out K V))
    (h : exec init ops = some (s, outs)) (op : Op K V) (hop : ∀ c, op ≠ .iterStart c ∧ op ≠ .iterNext c ∧ op ≠ .iterClose c) :
    (step s op).isSome = true := by
  obtain ⟨⟨l, g⟩, _⟩ := exec_good good_init h
  obtain ⟨⟨L, r, rfl⟩, _⟩ := g
  have h1 := step_ref r op
  cases hs : step s op with
  | some x => rfl
  | none =>
    rw [hs] at h1
    exfalso
    cases op with
    | set k v => simp only [lstep] at h1; split at h1 <;> cases h1
    | del k => simp only [lstep] at h1; split at h1 <;> cases h1
    | pop k => simp only [lstep] at h1; split at h1 <;> cases h1
    | get k => simp only [lstep] at h1; split at h1 <;> cases h1
    | len => cases h1
    | moveToTail k => simp only [lstep] at h1; split at h1 <;> cases h1
    | iterStart c => exact (hop c).1 rfl
    | iterNext c => exact (hop c).2.1 rfl
    | iterClose c => exact (hop c).2.2 rfl

/-- **C08 (iteration is complete and in order).**  An iterator is started after the history `pre`, other calls
(`mid`, including those that modify the map and those of other iterators) follow, and finally the iterator
reports its end.  Then the keys of the start that were never removed or moved meanwhile have been yielded
exactly once each, in the order of the map. -/
theorem C08_iteration_complete (pre mid : List (Op K V)) (c : Nat) (s : State K V) (outs outsM : List (Out K V))
    (o0 : Out K V)
    (hlen : outs.length = pre.length)
    (h : exec init (pre ++ .iterStart c :: (mid ++ [.iterNext c])) = some (s, outs ++ o0 :: (outsM ++ [.stop])))
    (hr : ∀ op ∈ mid, restarts c op = false)
    (S : K → Bool)
    (hS : ∀ k, S k = true → k ∈ (run [] pre).map (·.1) ∧ ∀ op ∈ mid, touches k op = false) :
    (yields c mid outsM).filter S = ((run [] pre).map (·.1)).filter S := by
  obtain ⟨s1, o1, o2, h1, h2, h3⟩ := exec_append h
  obtain ⟨⟨l1, g1⟩, _, hl1⟩ := exec_good good_init h1
  obtain ⟨rfl, rfl⟩ := List.append_inj h3 (by rw [hlen, hl1])
  simp only [exec] at h2
  split at h2 <;> try (cases h2; done)
  rename_i s2 o hs
  split at h2 <;> try (cases h2; done)
  rename_i s3 os hx
  cases h2
  obtain ⟨l2, hl2, g2, _⟩ := good_step g1 hs
  simp only [lstep] at hl2
  split at hl2
  · cases hl2
  cases hl2
  obtain ⟨s4, o3, o4, h4, h5, h6⟩ := exec_append hx
  have hl3 := (exec_good g2 h4).2.2
  have hl4 : outsM.length = o3.length := by
    have h7 := congrArg List.length h6
    have hl5 : ∃ l', Good s4 l' (run (after (run [] pre) (.iterStart c)) mid) := (exec_good g2 h4).1
    obtain ⟨l5, g5⟩ := hl5
    have hl6 := (exec_good g5 h5).2.2
    simp only [List.length_append, List.length_cons, List.length_nil] at h7 hl6
    omega
  obtain ⟨rfl, rfl⟩ := List.append_inj h6 hl4
  obtain ⟨l', g', hS', _⟩ := exec_behind g2 h4 c hr
  have h8 := hS' S hS
  simp only [exec] at h5
  split at h5 <;> try (cases h5; done)
  rename_i s5 o5 hs5
  cases h5
  obtain ⟨l6, hl6, g6, _⟩ := good_step g' hs5
  have hb : behind c l' = [] := by
    simp only [lstep] at hl6
    split at hl6
    · next hc =>
      split at hl6
      · cases hl6
      · next l7 ha =>
        exact (ladv_none hc (by rw [ha])).1
    · cases hl6
  rw [hb] at h8
  simp only [behind, ↓reduceIte, List.map_nil, List.filter_nil, List.append_nil] at h8
  rw [← h8, g1.2.2]

/-- **C08 (termination).**  Between start and end, an iterator yields at most as many pairs as the map had at
the start plus the number of assignments and moves to the tail made meanwhile. -/
theorem C08_iteration_terminates (pre mid : List (Op K V)) (c : Nat) (s : State K V) (outs outsM : List (Out K V))
    (o0 : Out K V)
    (hlen : outs.length = pre.length)
    (h : exec init (pre ++ .iterStart c :: mid) = some (s, outs ++ o0 :: outsM))
    (hr : ∀ op ∈ mid, restarts c op = false) :
    (yields c mid outsM).length ≤ (run [] pre).length + (mid.filter appends).length := by
  obtain ⟨s1, o1, o2, h1, h2, h3⟩ := exec_append h
  obtain ⟨⟨l1, g1⟩, _, hl1⟩ := exec_good good_init h1
  obtain ⟨rfl, rfl⟩ := List.append_inj h3 (by rw [hlen, hl1])
  simp only [exec] at h2
  split at h2 <;> try (cases h2; done)
  rename_i s2 o hs
  split at h2 <;> try (cases h2; done)
  rename_i s3 os hx
  cases h2
  obtain ⟨l2, hl2, g2, _⟩ := good_step g1 hs
  simp only [lstep] at hl2
  split at hl2
  · cases hl2
  cases hl2
  obtain ⟨l', g', _, hn⟩ := exec_behind g2 hx c hr
  have hbl : behind c (Item.cursor c :: l1) = ents l1 := by simp [behind]
  rw [hbl, g1.2.2] at hn
  omega

/-! ### Concrete cases -/

/-- Iterating `1, 2, 3, 4` while `2` is removed, `1` moves to the tail and `5` is added:
`1` is seen twice (it moved behind the cursor), `3, 4, 5` once. -/
example : (exec (init : State Nat Nat)
    [.set 1 10, .set 2 20, .set 3 30, .set 4 40, .iterStart 0, .iterNext 0, .del 2, .moveToTail 1, .set 5 50,
     .iterNext 0, .iterStart 7, .iterNext 7, .iterNext 0, .iterNext 0, .iterNext 0, .iterNext 0, .len]).map (·.2) =
    some [.none, .none, .none, .none, .none, .yielded 1 10, .none, .none, .none,
     .yielded 3 30, .none, .yielded 3 30, .yielded 4 40, .yielded 1 10, .yielded 5 50, .stop, .len 4] := by decide

/-- The hypotheses of the iteration theorem hold for this history with `S` = {3, 4}. -/
example : ∀ k : Nat, (k == 3 || k == 4) = true →
    k ∈ (run [] ([.set 1 10, .set 2 20, .set 3 30, .set 4 40] : List (Op Nat Nat))).map (·.1) ∧
    ∀ op ∈ ([.iterNext 0, .del 2, .moveToTail 1, .set 5 50] : List (Op Nat Nat)), touches k op = false := by
  intro k hk
  simp only [Bool.or_eq_true, beq_iff_eq] at hk
  rcases hk with rfl | rfl <;> decide

end Verif.Sync.LinkedDict
