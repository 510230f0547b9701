/-
Property C40: `CaseInsensitiveDict` (http.py:938-979).
-/
namespace Verif.Backend.CaseDict

variable {V : Type}

/-- The dictionary: `_store`, a Python dict from lower-case key to (spelling, value), in insertion order. -/
abbrev Dict (V : Type) := List (String × String × V)

variable (lower : String → String)

/-- `dict.__setitem__` of Python: replaces the value in place, or appends. -/
def dictSet (d : Dict V) (k : String) (v : String × V) : Dict V :=
  if d.any (fun e => e.1 == k) then d.map (fun e => if e.1 == k then (k, v) else e) else d ++ [(k, v)]

/-- `__setitem__` (http.py:965). -/
def setItem (d : Dict V) (key : String) (value : V) : Dict V := dictSet d (lower key) (key, value)

/-- `__getitem__` (http.py:968); `none` is `KeyError`. -/
def getItem (d : Dict V) (key : String) : Option V := (d.find? (fun e => e.1 == lower key)).map (fun e => e.2.2)

/-- `__delitem__` (http.py:971); `none` is `KeyError`. -/
def delItem (d : Dict V) (key : String) : Option (Dict V) :=
  if d.any (fun e => e.1 == lower key) then some (d.filter (fun e => !(e.1 == lower key))) else none

/-- `__iter__` (http.py:974). -/
def iter (d : Dict V) : List String := d.map (fun e => e.2.1)

/-- `__len__`. -/
def len (d : Dict V) : Nat := d.length

inductive Op (V : Type) where
  | set (k : String) (v : V)
  | del (k : String)

/-- Running an operation; deleting a missing key raises and changes nothing. -/
def step (d : Dict V) : Op V → Dict V
  | .set k v => setItem lower d k v
  | .del k => (delItem lower d k).getD d

def run (ops : List (Op V)) : Dict V := ops.foldl (step lower) []

/-! Specification: a map from lower-case keys to (spelling, value). -/

abbrev Spec (V : Type) := String → Option (String × V)

def specStep (m : Spec V) : Op V → Spec V
  | .set k v => fun x => if x = lower k then some (k, v) else m x
  | .del k => fun x => if x = lower k then none else m x

def spec (ops : List (Op V)) : Spec V := ops.foldl (specStep lower) (fun _ => none)

/-! Proof -/

/-- The abstraction. -/
def abs (d : Dict V) : Spec V := fun x => (d.find? (fun e => e.1 == x)).map (fun e => e.2)

variable {lower}

theorem any_key {d : Dict V} {k : String} : d.any (fun e => e.1 == k) = true ↔ k ∈ d.map (·.1) := by
  simp only [List.any_eq_true, List.mem_map, beq_iff_eq]

theorem keys_dictSet (d : Dict V) (k : String) (v : String × V) : (dictSet d k v).map (·.1) =
    if k ∈ d.map (·.1) then d.map (·.1) else d.map (·.1) ++ [k] := by
  unfold dictSet
  by_cases h : d.any (fun e => e.1 == k) = true
  · rw [if_pos h, if_pos (any_key.1 h), List.map_map]
    apply List.map_congr_left
    intro e _
    simp only [Function.comp]
    by_cases he : (e.1 == k) = true
    · rw [if_pos he]; simpa using (beq_iff_eq.1 he).symm
    · rw [if_neg he]
  · rw [if_neg h, if_neg (fun hc => h (any_key.2 hc))]; simp

theorem abs_dictSet (d : Dict V) (k : String) (v : String × V) (x : String) :
    abs (dictSet d k v) x = if x = k then some v else abs d x := by
  unfold dictSet abs
  by_cases h : d.any (fun e => e.1 == k) = true
  · rw [if_pos h]
    have hk := any_key.1 h
    clear h
    induction d with
    | nil => cases hk
    | cons e d ih =>
      simp only [List.map_cons, List.find?_cons]
      by_cases he : (e.1 == k) = true
      · rw [if_pos he]
        have he' := beq_iff_eq.1 he
        by_cases hx : x = k
        · subst hx; simp
        · rw [if_neg hx]
          have h1 : (k == x) = false := by simp; exact fun h => hx h.symm
          have h2 : (e.1 == x) = false := by rw [he']; exact h1
          simp only [h1, h2]
          -- no further change for x
          have : ∀ d : Dict V, (List.find? (fun e => e.1 == x) (d.map (fun e => if e.1 == k then (k, v) else e))).map (fun e => e.2) =
              (List.find? (fun e => e.1 == x) d).map (fun e => e.2) := by
            intro d
            induction d with
            | nil => rfl
            | cons e d ih =>
              simp only [List.map_cons, List.find?_cons]
              by_cases he : (e.1 == k) = true
              · rw [if_pos he]
                have h2 : (e.1 == x) = false := by rw [beq_iff_eq.1 he]; exact h1
                simp only [h1, h2]; exact ih
              · rw [if_neg he]
                cases (e.1 == x)
                · exact ih
                · rfl
          exact this d
      · rw [if_neg he]
        have hk' : k ∈ d.map (·.1) := by
          simp only [List.map_cons, List.mem_cons] at hk
          rcases hk with hk | hk
          · exact absurd (by simp [hk]) he
          · exact hk
        cases hx : (e.1 == x) with
        | false => exact ih hk'
        | true =>
          have hxe := beq_iff_eq.1 hx
          rw [if_neg]
          intro hxk
          apply he
          simp [hxe, hxk]
  · rw [if_neg h]
    rw [List.find?_append]
    by_cases hx : x = k
    · subst hx
      rw [if_pos rfl]
      have : d.find? (fun e => e.1 == x) = none := by
        rw [List.find?_eq_none]
        intro e he hb
        exact h (List.any_eq_true.2 ⟨e, he, hb⟩)
      rw [this]; simp
    · rw [if_neg hx]
      have : List.find? (fun e : String × String × V => e.1 == x) [(k, v)] = none := by
        simp; exact fun h => hx h.symm
      rw [this]; simp

theorem abs_filter (d : Dict V) (k x : String) :
    abs (d.filter (fun e => !(e.1 == k))) x = if x = k then none else abs d x := by
  unfold abs
  by_cases hx : x = k
  · subst hx
    rw [if_pos rfl]
    have : (d.filter (fun e => !(e.1 == x))).find? (fun e => e.1 == x) = none := by
      rw [List.find?_eq_none]
      intro e he hb
      have := (List.mem_filter.1 he).2
      simp [hb] at this
    rw [this]; rfl
  · rw [if_neg hx, List.find?_filter]
    congr 1
    induction d with
    | nil => rfl
    | cons e d ih =>
      simp only [List.find?_cons]
      cases hb : (e.1 == x) with
      | true =>
        have : (e.1 == k) = false := by
          rw [beq_iff_eq.1 hb]; simpa using hx
        simp [this]
      | false => simpa using ih

/-- The dictionary holds one entry per lower-case key, the spelling of an entry has that lower-case form, and its
contents are those of the specification. -/
theorem run_inv (ops : List (Op V)) : ((run lower ops).map (·.1)).Nodup ∧ abs (run lower ops) = spec lower ops ∧
    ∀ e ∈ run lower ops, lower e.2.1 = e.1 := by
  unfold run spec
  suffices ∀ (ops : List (Op V)) (d : Dict V) (m : Spec V), (d.map (·.1)).Nodup → abs d = m →
      (∀ e ∈ d, lower e.2.1 = e.1) →
      ((ops.foldl (step lower) d).map (·.1)).Nodup ∧ abs (ops.foldl (step lower) d) = ops.foldl (specStep lower) m ∧
      ∀ e ∈ ops.foldl (step lower) d, lower e.2.1 = e.1 from
    this ops [] _ (by simp) rfl (by simp)
  intro ops
  induction ops with
  | nil => intro d m h1 h2 h3; exact ⟨h1, h2, h3⟩
  | cons op ops ih =>
    intro d m h1 h2 h3
    simp only [List.foldl_cons]
    apply ih
    · cases op with
      | set k v =>
        show ((dictSet d (lower k) (k, v)).map (·.1)).Nodup
        rw [keys_dictSet]
        split
        · exact h1
        · next hn =>
          rw [List.nodup_append]
          refine ⟨h1, by simp, ?_⟩
          intro a ha b hb
          simp only [List.mem_singleton] at hb
          subst hb
          intro hab; subst hab; exact hn ha
      | del k =>
        show (((delItem lower d k).getD d).map (·.1)).Nodup
        unfold delItem
        split
        · exact h1.sublist (List.Sublist.map _ List.filter_sublist)
        · exact h1
    · cases op with
      | set k v =>
        funext x
        show abs (dictSet d (lower k) (k, v)) x = _
        rw [abs_dictSet, h2]; rfl
      | del k =>
        funext x
        show abs ((delItem lower d k).getD d) x = if x = lower k then none else m x
        unfold delItem
        split
        · show abs (d.filter _) x = _
          rw [abs_filter, h2]
        · next hn =>
          show abs d x = _
          by_cases hx : x = lower k
          · rw [if_pos hx]
            unfold abs
            have : d.find? (fun e => e.1 == x) = none := by
              rw [List.find?_eq_none]
              intro e he hb
              exact hn (List.any_eq_true.2 ⟨e, he, by rw [← hx]; exact hb⟩)
            rw [this]; rfl
          · rw [if_neg hx, h2]
    · cases op with
      | set k v =>
        intro e he
        have he : e ∈ dictSet d (lower k) (k, v) := he
        unfold dictSet at he
        split at he
        · obtain ⟨e0, h0, h4⟩ := List.mem_map.1 he
          split at h4
          · subst h4; rfl
          · subst h4; exact h3 _ h0
        · rcases List.mem_append.1 he with he | he
          · exact h3 e he
          · simp only [List.mem_singleton] at he
            subst he; rfl
      | del k =>
        intro e he
        have he : e ∈ (delItem lower d k).getD d := he
        unfold delItem at he
        split at he
        · exact h3 e (List.mem_filter.1 he).1
        · exact h3 e he

/-- **C40.**  For every function `lower`, every sequence of assignments and deletions and every spelling of a key:
looking it up gives the value of the last assignment to a key with the same lower-case form, if it was not deleted
since; iterating yields, for every such key, exactly once, the spelling used in that last assignment; and the length is
the number of keys. -/
theorem C40_case_insensitive_map (ops : List (Op V)) :
    (∀ key, getItem lower (run lower ops) key = (spec lower ops (lower key)).map (·.2)) ∧
    (∀ name, name ∈ iter (run lower ops) ↔ ∃ v, spec lower ops (lower name) = some (name, v)) ∧
    ((iter (run lower ops)).map lower).Nodup ∧ len (run lower ops) = (iter (run lower ops)).length := by
  obtain ⟨h1, h2, h3⟩ := run_inv (lower := lower) ops
  have hmem : ∀ e ∈ run lower ops, abs (run lower ops) e.1 = some e.2 := by
    intro e he
    unfold abs
    generalize run lower ops = d at h1 he ⊢
    clear h2 h3
    induction d with
    | nil => cases he
    | cons e' d ih =>
      rw [List.map_cons, List.nodup_cons] at h1
      rw [List.find?_cons]
      rcases List.mem_cons.1 he with he | he
      · subst he; simp
      · have : (e'.1 == e.1) = false := by
          simp only [beq_eq_false_iff_ne, ne_eq]
          intro hc
          exact h1.1 (by rw [hc]; exact List.mem_map_of_mem he)
        rw [this]; exact ih h1.2 he
  refine ⟨?_, ?_, ?_, by simp [len, iter]⟩
  · intro key
    rw [← h2]
    unfold getItem abs
    rw [Option.map_map]; rfl
  · intro name
    rw [← h2]
    constructor
    · intro h
      obtain ⟨e, he, hn⟩ := List.mem_map.1 h
      subst hn
      exact ⟨e.2.2, by rw [h3 e he, hmem e he]⟩
    · rintro ⟨v, hv⟩
      unfold abs at hv
      cases hf : (run lower ops).find? (fun e => e.1 == lower name) with
      | none => rw [hf] at hv; cases hv
      | some e =>
        rw [hf] at hv
        simp only [Option.map_some, Option.some.injEq] at hv
        exact List.mem_map.2 ⟨e, List.mem_of_find?_eq_some hf, by rw [hv]⟩
  · have : (iter (run lower ops)).map lower = (run lower ops).map (·.1) := by
      unfold iter
      rw [List.map_map]
      apply List.map_congr_left
      intro e he
      exact h3 e he
    rw [this]; exact h1

/-- Looking a key up fails, and deleting it raises `KeyError`, exactly if there is no such key. -/
theorem C40_missing_key (ops : List (Op V)) (key : String) :
    (delItem lower (run lower ops) key = none ↔ spec lower ops (lower key) = none) := by
  obtain ⟨_, h2, _⟩ := run_inv (lower := lower) ops
  rw [← h2]
  unfold delItem abs
  by_cases h : (run lower ops).any (fun e => e.1 == lower key) = true
  · rw [if_pos h]
    obtain ⟨e, he, hb⟩ := List.any_eq_true.1 h
    constructor
    · intro hc; cases hc
    · intro hc
      rw [Option.map_eq_none_iff, List.find?_eq_none] at hc
      exact absurd hb (hc e he)
  · rw [if_neg h]
    refine ⟨fun _ => ?_, fun _ => rfl⟩
    rw [Option.map_eq_none_iff, List.find?_eq_none]
    intro e he hb
    exact h (List.any_eq_true.2 ⟨e, he, hb⟩)

example : iter (run (fun s => if s = "A" then "a" else s) [Op.set "A" 1, .set "b" 2, .set "a" 3]) = ["a", "b"] := by decide

end Verif.Backend.CaseDict
