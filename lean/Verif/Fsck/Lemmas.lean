/-
General lemmas about the tables, the loops and the table updates of the fsck model.
-/
import Verif.Fsck.Spec

namespace Verif.Fsck
open Verif.Fs (Bytes Inode rootInode ctrlInode)

/-! #### Loops -/

theorem iter_inv {α : Type} {f : α → St → Option St} (P : St → Prop) :
    ∀ {l : List α} {s s' : St}, (∀ a ∈ l, ∀ t t', P t → f a t = some t' → P t') → iter f l s = some s' → P s → P s' := by
  intro l
  induction l with
  | nil => intro s s' _ h hp; cases h; exact hp
  | cons a t ih =>
    intro s s' hs h hp
    unfold iter at h
    cases hf : f a s with
    | none => rw [hf] at h; cases h
    | some s1 =>
      rw [hf] at h
      exact ih (fun b hb => hs b (List.mem_cons_of_mem _ hb)) h (hs a List.mem_cons_self s s1 hp hf)

/-- A property established by the body for its element, and kept by the body for other elements, holds at the end. -/
theorem iter_each {α : Type} {f : α → St → Option St} (P : St → Prop) (Q : α → St → Prop) :
    ∀ {l : List α} {s s' : St}, (∀ a ∈ l, ∀ t t', P t → f a t = some t' → P t') →
      (∀ a ∈ l, ∀ t t', P t → f a t = some t' → Q a t') →
      (∀ a ∈ l, ∀ b t t', P t → f a t = some t' → Q b t → Q b t') →
      iter f l s = some s' → P s → ∀ a ∈ l, Q a s' := by
  intro l
  induction l with
  | nil => intro s s' _ _ _ _ _ a ha; cases ha
  | cons a t ih =>
    intro s s' hP hQ hK h hp b hb
    unfold iter at h
    cases hf : f a s with
    | none => rw [hf] at h; cases h
    | some s1 =>
      rw [hf] at h
      have hp1 := hP a List.mem_cons_self s s1 hp hf
      rcases List.mem_cons.1 hb with rfl | hb
      · exact (iter_inv (fun x => P x ∧ Q b x)
          (fun c hc t t' hx hfc => ⟨hP c (List.mem_cons_of_mem _ hc) t t' hx.1 hfc,
            hK c (List.mem_cons_of_mem _ hc) b t t' hx.1 hfc hx.2⟩) h
          ⟨hp1, hQ b List.mem_cons_self s s1 hp hf⟩).2
      · exact ih (fun c hc => hP c (List.mem_cons_of_mem _ hc)) (fun c hc => hQ c (List.mem_cons_of_mem _ hc))
          (fun c hc => hK c (List.mem_cons_of_mem _ hc)) h hp1 b hb

theorem iter_append {α : Type} (f : α → St → Option St) (l m : List α) (s : St) :
    iter f (l ++ m) s = (iter f l s).bind (iter f m) := by
  induction l generalizing s with
  | nil => rfl
  | cons a t ih =>
    simp only [List.cons_append, iter]
    cases f a s with
    | none => rfl
    | some s1 => exact ih s1

/-! #### Tables -/

variable {ν : Type}

theorem isSome_iff_mem {l : List (Nat × ν)} {k : Nat} : (AL.get l k).isSome ↔ ∃ v, (k, v) ∈ l := by
  constructor
  · intro h
    obtain ⟨v, hv⟩ := Option.isSome_iff_exists.1 h
    exact ⟨v, AL.get_some_mem hv⟩
  · rintro ⟨v, hv⟩
    cases hg : AL.get l k with
    | some _ => rfl
    | none => exact absurd (List.mem_map.2 ⟨_, hv, rfl⟩) ((AL.get_none_iff l k).1 hg)

theorem isNone_iff_mem {l : List (Nat × ν)} {k : Nat} : (AL.get l k).isNone ↔ ¬ ∃ v, (k, v) ∈ l := by
  rw [← isSome_iff_mem]
  cases AL.get l k <;> simp

theorem mem_keys {l : List (Nat × ν)} {k : Nat} : k ∈ keys l ↔ ∃ v, (k, v) ∈ l := by
  unfold keys
  constructor
  · intro h
    obtain ⟨e, he, rfl⟩ := List.mem_map.1 h
    exact ⟨e.2, he⟩
  · rintro ⟨v, hv⟩
    exact List.mem_map.2 ⟨_, hv, rfl⟩

/-- Setting an existing key keeps the positions of all rows. -/
theorem set_existing {l : List (Nat × ν)} {k : Nat} {old : ν} (v : ν) (h : AL.get l k = some old) :
    ∃ a b, l = a ++ (k, old) :: b ∧ AL.set l k v = a ++ (k, v) :: b := by
  induction l with
  | nil => cases h
  | cons e t ih =>
    obtain ⟨k', w⟩ := e
    by_cases hk : k' = k
    · subst hk
      simp only [AL.get, if_pos] at h
      cases h
      exact ⟨[], t, rfl, by simp [AL.set]⟩
    · simp only [AL.get, if_neg hk] at h
      obtain ⟨a, b, h1, h2⟩ := ih h
      exact ⟨(k', w) :: a, b, by rw [h1]; rfl, by simp only [AL.set, if_neg hk, h2]; rfl⟩

theorem set_new {l : List (Nat × ν)} {k : Nat} (v : ν) (h : AL.get l k = none) : AL.set l k v = l ++ [(k, v)] :=
  (AL.append_eq_set v h).symm

theorem keys_set {l : List (Nat × ν)} {k : Nat} {old : ν} (v : ν) (h : AL.get l k = some old) :
    keys (AL.set l k v) = keys l := by
  obtain ⟨a, b, h1, h2⟩ := set_existing v h
  unfold keys
  rw [h2, h1]
  simp

theorem countP_set {l : List (Nat × ν)} {k : Nat} {old : ν} (v : ν) (h : AL.get l k = some old) (p : Nat × ν → Bool) :
    (AL.set l k v).countP p + (if p (k, old) then 1 else 0) = l.countP p + (if p (k, v) then 1 else 0) := by
  obtain ⟨a, b, h1, h2⟩ := set_existing v h
  rw [h2, h1]
  simp only [List.countP_append, List.countP_cons]
  omega

theorem countP_set_new {l : List (Nat × ν)} {k : Nat} (v : ν) (h : AL.get l k = none) (p : Nat × ν → Bool) :
    (AL.set l k v).countP p = l.countP p + (if p (k, v) then 1 else 0) := by
  rw [set_new v h]
  simp only [List.countP_append, List.countP_cons, List.countP_nil]
  omega

theorem mem_set {l : List (Nat × ν)} (hn : AL.NK l) {k : Nat} {v : ν} {e : Nat × ν} :
    e ∈ AL.set l k v ↔ e = (k, v) ∨ (e ∈ l ∧ e.1 ≠ k) := by
  obtain ⟨j, w⟩ := e
  rw [AL.mem_iff_get (hn.set k v), AL.get_set]
  by_cases h : j = k
  · subst h
    rw [if_pos rfl]
    constructor
    · intro h; cases h; exact Or.inl rfl
    · rintro (h | h)
      · cases h; rfl
      · exact absurd rfl h.2
  · rw [if_neg h, ← AL.mem_iff_get hn]
    constructor
    · intro hm; exact Or.inr ⟨hm, h⟩
    · rintro (h' | h')
      · cases h'; exact absurd rfl h
      · exact h'.1

theorem mem_erase {l : List (Nat × ν)} {k : Nat} {e : Nat × ν} : e ∈ AL.erase l k ↔ e ∈ l ∧ e.1 ≠ k := by
  rw [AL.erase_eq_filter, List.mem_filter]
  simp

theorem le_maxKey {l : List (Nat × ν)} {e : Nat × ν} (h : e ∈ l) : e.1 ≤ maxKey l := by
  induction l with
  | nil => cases h
  | cons a t ih =>
    obtain ⟨i, w⟩ := a
    simp only [maxKey]
    rcases List.mem_cons.1 h with rfl | h
    · exact Nat.le_max_left _ _
    · exact Nat.le_trans (ih h) (Nat.le_max_right _ _)

theorem get_fresh (l : List (Nat × ν)) {k : Nat} (h : maxKey l < k) : AL.get l k = none := by
  rw [AL.get_none_iff]
  intro hm
  obtain ⟨e, he, rfl⟩ := List.mem_map.1 hm
  exact absurd (le_maxKey he) (by omega)

theorem maxKey_append (l m : List (Nat × ν)) : maxKey (l ++ m) = max (maxKey l) (maxKey m) := by
  induction l with
  | nil => simp [maxKey]
  | cons a t ih => simp only [List.cons_append, maxKey, ih]; omega

theorem maxKey_keys {μ : Type} {l : List (Nat × ν)} {m : List (Nat × μ)} (h : keys l = keys m) : maxKey l = maxKey m := by
  induction l generalizing m with
  | nil => cases m with
    | nil => rfl
    | cons _ _ => simp [keys] at h
  | cons a t ih =>
    cases m with
    | nil => simp [keys] at h
    | cons b u =>
      simp only [keys, List.map_cons, List.cons.injEq] at h
      obtain ⟨i, _⟩ := a
      obtain ⟨j, _⟩ := b
      simp only at h
      simp only [maxKey, h.1, ih (m := u) h.2]

/-! #### Names -/

theorem findName_spec {l : List (Nat × NRow)} {x : Bool} {n : Bytes} {i : Nat} (h : findName l x n = some i) :
    ∃ r, (i, r) ∈ l ∧ r.text = x ∧ r.name = n := by
  induction l with
  | nil => cases h
  | cons e t ih =>
    obtain ⟨j, r⟩ := e
    unfold findName at h
    split at h
    · rename_i hc
      cases h
      exact ⟨r, List.mem_cons_self, hc.1, hc.2⟩
    · obtain ⟨r', h1, h2⟩ := ih h
      exact ⟨r', List.mem_cons_of_mem _ h1, h2⟩

theorem findName_none {l : List (Nat × NRow)} {x : Bool} {n : Bytes} (h : findName l x n = none) :
    ∀ e ∈ l, ¬ (e.2.text = x ∧ e.2.name = n) := by
  induction l with
  | nil => intro e he; cases he
  | cons a t ih =>
    obtain ⟨j, r⟩ := a
    unfold findName at h
    split at h
    · cases h
    · rename_i hc
      intro e he
      rcases List.mem_cons.1 he with rfl | he
      · exact hc
      · exact ih h e he

theorem findName_mem {l : List (Nat × NRow)} (hu : ∀ e ∈ l, ∀ f ∈ l, e.2.text = f.2.text → e.2.name = f.2.name → e = f)
    {i : Nat} {r : NRow} (h : (i, r) ∈ l) : findName l r.text r.name = some i := by
  cases hf : findName l r.text r.name with
  | none => exact absurd ⟨rfl, rfl⟩ (findName_none hf _ h)
  | some j =>
    obtain ⟨r', h1, h2, h3⟩ := findName_spec hf
    have := hu _ h1 _ h h2 h3
    cases this
    rfl

theorem findEntry_spec {l : List (Nat × CRow)} {p n : Nat} {e : Nat × CRow} (h : findEntry l p n = some e) :
    e ∈ l ∧ e.2.parent = p ∧ e.2.nameId = n := by
  induction l with
  | nil => cases h
  | cons a t ih =>
    obtain ⟨j, r⟩ := a
    unfold findEntry at h
    split at h
    · rename_i hc
      cases h
      exact ⟨List.mem_cons_self, hc.1, hc.2⟩
    · obtain ⟨h1, h2⟩ := ih h
      exact ⟨List.mem_cons_of_mem _ h1, h2⟩

theorem findEntry_none {l : List (Nat × CRow)} {p n : Nat} (h : findEntry l p n = none) :
    ∀ e ∈ l, ¬ (e.2.parent = p ∧ e.2.nameId = n) := by
  induction l with
  | nil => intro e he; cases he
  | cons a t ih =>
    obtain ⟨j, r⟩ := a
    unfold findEntry at h
    split at h
    · cases h
    · rename_i hc
      intro e he
      rcases List.mem_cons.1 he with rfl | he
      · exact hc
      · exact ih h e he

theorem entry_spec {db : Db} {p : Nat} {n : Bytes} {e : Nat × CRow} (h : db.entry p n = some e) :
    e ∈ db.contents ∧ e.2.parent = p ∧ ∃ r, (e.2.nameId, r) ∈ db.names ∧ r.text = false ∧ r.name = n := by
  unfold Db.entry at h
  obtain ⟨i, h1, h2⟩ := Option.bind_eq_some_iff.1 h
  obtain ⟨h3, h4, h5⟩ := findEntry_spec h2
  obtain ⟨r, h6, h7⟩ := findName_spec h1
  exact ⟨h3, h4, r, by rw [h5]; exact h6, h7⟩

theorem entry_mem {db : Db} (hs : Schema db) {e : Nat × CRow} {r : NRow} (he : e ∈ db.contents)
    (hr : (e.2.nameId, r) ∈ db.names) (ht : r.text = false) : db.entry e.2.parent r.name = some e := by
  unfold Db.entry
  have := findName_mem hs.nameUnique hr
  rw [ht] at this
  rw [this]
  cases hf : findEntry db.contents e.2.parent e.2.nameId with
  | none => exact absurd ⟨rfl, rfl⟩ (findEntry_none hf e he)
  | some f =>
    obtain ⟨h1, h2, h3⟩ := findEntry_spec hf
    exact hf.trans (congrArg some (hs.entryUnique f h1 e he h2 h3))

theorem resolveFree_spec {db : Db} {n n' : Bytes} {p : Nat} (h : db.resolveFree n = some (p, n')) :
    (∃ e, db.entry rootInode lofName = some e ∧ e.2.inode = p) ∧ db.entry p n' = none := by
  unfold Db.resolveFree at h
  cases he : db.entry rootInode lofName with
  | none => rw [he] at h; cases h
  | some e =>
    rw [he] at h
    dsimp only at h
    cases hf : (List.range (db.contents.length + 1)).find?
        (fun i => (db.entry e.2.inode (candidate (shorten n) i)).isNone) with
    | none => rw [hf] at h; cases h
    | some i =>
      rw [hf] at h
      cases h
      refine ⟨⟨e, rfl, rfl⟩, ?_⟩
      have := List.find?_some hf
      exact Option.isNone_iff_eq_none.1 this

theorem addName_get {db : Db} (hs : AL.NK db.names) (x : Bool) (n : Bytes) :
    ((∃ r, AL.get db.names (db.addName x n).2 = some r ∧ r.text = x ∧ r.name = n ∧
        (db.addName x n).1 = { db with names := AL.set db.names (db.addName x n).2 { r with refcount := r.refcount + 1 } }) ∨
      (findName db.names x n = none ∧ (db.addName x n).2 = maxKey db.names + 1 ∧
        (db.addName x n).1 = { db with names := AL.set db.names (maxKey db.names + 1) ⟨x, n, 1⟩ })) := by
  unfold Db.addName
  cases hf : findName db.names x n with
  | none => right; exact ⟨rfl, rfl, rfl⟩
  | some i =>
    left
    obtain ⟨r, h1, h2⟩ := findName_spec hf
    have hg := AL.mem_get_some hs h1
    simp only [hg]
    exact ⟨r, rfl, h2.1, h2.2, rfl⟩

end Verif.Fsck
