/-
Reference counts of names: bookkeeping of `_add_name`, `_del_name` and changes of entries.
-/
import Verif.Fsck.Schema

namespace Verif.Fsck
open Verif.Fs (Bytes Inode rootInode ctrlInode)

/-- The reference count of a name; zero if there is no such name. -/
def nref (db : Db) (k : Nat) : Int :=
  match AL.get db.names k with
  | some r => r.refcount
  | none => 0

def one (a k : Nat) : Int := if k = a then 1 else 0

/-- The reference counts of the names exceed the number of uses by `δ`. -/
def NBal (db : Db) (δ : Nat → Int) : Prop := ∀ k, nref db k = (usesOfName db k : Nat) + δ k

theorem nref_addName {db : Db} (hn : AL.NK db.names) (x : Bool) (n : Bytes) (k : Nat) :
    nref (db.addName x n).1 k = nref db k + one (db.addName x n).2 k := by
  rcases addName_get hn x n with ⟨r, h1, h2, h3, h4⟩ | ⟨h1, h2, h3⟩
  · rw [h4]
    unfold nref one
    simp only [AL.get_set]
    by_cases hk : k = (db.addName x n).2
    · rw [if_pos hk, if_pos hk, hk, h1]
    · rw [if_neg hk, if_neg hk]; simp
  · rw [h3, h2]
    unfold nref one
    simp only [AL.get_set]
    by_cases hk : k = maxKey db.names + 1
    · rw [if_pos hk, if_pos hk, get_fresh db.names (k := k) (by omega)]; simp
    · rw [if_neg hk, if_neg hk]; simp

theorem addName_other {db : Db} (hn : AL.NK db.names) (x : Bool) (n : Bytes) :
    (db.addName x n).1 = { db with names := (db.addName x n).1.names } := by
  rcases addName_get hn x n with ⟨r, h1, h2, h3, h4⟩ | ⟨h1, h2, h3⟩
  · rw [h4]
  · rw [h3]

theorem delName_other (db : Db) (j : Nat) : db.delName j = { db with names := (db.delName j).names } := by
  unfold Db.delName
  cases AL.get db.names j with
  | none => rfl
  | some r => dsimp only; split <;> rfl

theorem nref_delName {db : Db} {j : Nat} (h : HasName db j) (k : Nat) :
    nref (db.delName j) k = nref db k - one j k := by
  obtain ⟨r, hr⟩ := Option.isSome_iff_exists.1 (isSome_iff_mem.2 h)
  have hd : db.delName j = if r.refcount - 1 = 0 then { db with names := AL.erase db.names j }
      else { db with names := AL.set db.names j { r with refcount := r.refcount - 1 } } := by
    unfold Db.delName; rw [hr]
  rw [hd]
  unfold nref one
  by_cases h0 : r.refcount - 1 = 0
  · rw [if_pos h0]
    dsimp only
    rw [AL.get_erase]
    by_cases hk : k = j
    · subst hk; rw [if_pos rfl, if_pos rfl, hr]; dsimp only; omega
    · rw [if_neg hk, if_neg hk]; simp
  · rw [if_neg h0]
    dsimp only
    rw [AL.get_set]
    by_cases hk : k = j
    · subst hk; rw [if_pos rfl, if_pos rfl, hr]
    · rw [if_neg hk, if_neg hk]; simp

theorem uses_addName {db : Db} (hn : AL.NK db.names) (x : Bool) (n : Bytes) (k : Nat) :
    usesOfName (db.addName x n).1 k = usesOfName db k := by
  rw [addName_other hn]; rfl

theorem uses_delName (db : Db) (j k : Nat) : usesOfName (db.delName j) k = usesOfName db k := by
  rw [delName_other]; rfl

theorem uses_set {db : Db} {k : Nat} {r r' : CRow} (h : AL.get db.contents k = some r) (j : Nat) :
    (usesOfName { db with contents := AL.set db.contents k r' } j : Int) =
      usesOfName db j - one r.nameId j + one r'.nameId j := by
  have := countP_set r' h (fun e => decide (e.2.nameId = j))
  unfold usesOfName one
  dsimp only
  simp only [decide_eq_true_eq] at this
  have e : ∀ a : Nat, (if j = a then (1 : Int) else 0) = if a = j then 1 else 0 := by
    intro a; by_cases h : j = a
    · subst h; rfl
    · rw [if_neg h, if_neg (fun h' => h h'.symm)]
  rw [e, e]
  by_cases h1 : r.nameId = j <;> by_cases h2 : r'.nameId = j <;>
    simp only [h1, h2, if_true, if_false] at this ⊢ <;> omega

theorem uses_ins {db : Db} (hs : Schema db) {r : CRow} (j : Nat) :
    (usesOfName { db with contents := AL.set db.contents (db.cseq + 1) r, cseq := db.cseq + 1 } j : Int) =
      usesOfName db j + one r.nameId j := by
  have := countP_set_new r (fresh_row hs) (fun e => decide (e.2.nameId = j))
  unfold usesOfName one
  dsimp only
  rw [this]
  by_cases h1 : j = r.nameId
  · simp [h1]; omega
  · have : ¬ r.nameId = j := fun h => h1 h.symm
    simp [h1, this]

theorem NBal.addName {db : Db} {δ : Nat → Int} (h : NBal db δ) (hn : AL.NK db.names) (x : Bool) (n : Bytes) :
    NBal (db.addName x n).1 (fun k => δ k + one (db.addName x n).2 k) := by
  intro k
  rw [nref_addName hn, uses_addName hn, h k]
  dsimp only
  omega

theorem NBal.delName {db : Db} {δ : Nat → Int} (h : NBal db δ) {j : Nat} (hj : HasName db j) :
    NBal (db.delName j) (fun k => δ k - one j k) := by
  intro k
  rw [nref_delName hj, uses_delName, h k]
  dsimp only
  omega

theorem NBal.set {db : Db} {δ : Nat → Int} (h : NBal db δ) {k : Nat} {r r' : CRow} (hg : AL.get db.contents k = some r) :
    NBal { db with contents := AL.set db.contents k r' } (fun j => δ j + one r.nameId j - one r'.nameId j) := by
  intro j
  rw [uses_set hg]
  have := h j
  unfold nref at this ⊢
  dsimp only
  omega

theorem NBal.ins {db : Db} {δ : Nat → Int} (h : NBal db δ) (hs : Schema db) {r : CRow} :
    NBal { db with contents := AL.set db.contents (db.cseq + 1) r, cseq := db.cseq + 1 } (fun j => δ j - one r.nameId j) := by
  intro j
  rw [uses_ins hs]
  have := h j
  unfold nref at this ⊢
  dsimp only
  omega

theorem NBal.congr {db : Db} {δ δ' : Nat → Int} (h : NBal db δ) (he : ∀ k, δ k = δ' k) : NBal db δ' := by
  intro k; rw [h k, he k]

/-- With exact counts every use has a name. -/
theorem NBal.hasName {db : Db} {δ : Nat → Int} (h : NBal db δ) {k : Nat} (hδ : 0 ≤ δ k) (hu : 0 < usesOfName db k) :
    HasName db k := by
  apply isSome_iff_mem.1
  have := h k
  unfold nref at this
  cases hg : AL.get db.names k with
  | none => rw [hg] at this; simp only at this; omega
  | some r => rfl

theorem uses_pos_c {db : Db} {e : Nat × CRow} (h : e ∈ db.contents) : 0 < usesOfName db e.2.nameId := by
  unfold usesOfName
  have : 0 < db.contents.countP (fun f => decide (f.2.nameId = e.2.nameId)) := List.countP_pos_iff.2 ⟨e, h, by simp⟩
  omega

theorem uses_pos_x {db : Db} {e : Nat × XRow} (h : e ∈ db.xattrs) : 0 < usesOfName db e.2.nameId := by
  unfold usesOfName
  have : 0 < db.xattrs.countP (fun f => decide (f.2.nameId = e.2.nameId)) := List.countP_pos_iff.2 ⟨e, h, by simp⟩
  omega

/-- All reference counts of names are exact and every name that is used exists. -/
def NExact (db : Db) : Prop := NBal db (fun _ => 0)

theorem NExact.refs {db : Db} (h : NExact db) (hn : AL.NK db.names) : NameRefsExact db := by
  intro e he
  have := h e.1
  unfold nref at this
  rw [AL.mem_get_some hn (k := e.1) (v := e.2) he] at this
  simpa using this

theorem NExact.entries {db : Db} (h : NExact db) : EntriesHaveName db :=
  fun _ he => h.hasName (by simp) (uses_pos_c he)

theorem NExact.xattrs {db : Db} (h : NExact db) : XattrsHaveName db :=
  fun _ he => h.hasName (by simp) (uses_pos_x he)

theorem NExact.of {db : Db} (h1 : NameRefsExact db) (h2 : EntriesHaveName db) (h3 : XattrsHaveName db) :
    NExact db := by
  intro k
  unfold nref
  cases hg : AL.get db.names k with
  | some r =>
    have := h1 _ (AL.get_some_mem hg)
    simp only at this ⊢
    omega
  | none =>
    have hno : ¬ HasName db k := isNone_iff_mem.1 (by rw [hg]; rfl)
    have : usesOfName db k = 0 := by
      unfold usesOfName
      have a : db.contents.countP (fun e => decide (e.2.nameId = k)) = 0 :=
        List.countP_eq_zero.2 (fun e he hc => hno (by have := h2 e he; simpa [← of_decide_eq_true hc] using this))
      have b : db.xattrs.countP (fun e => decide (e.2.nameId = k)) = 0 :=
        List.countP_eq_zero.2 (fun e he hc => hno (by have := h3 e he; simpa [← of_decide_eq_true hc] using this))
      omega
    simp only
    omega

theorem hasName_addName {db : Db} (hn : AL.NK db.names) (x : Bool) (n : Bytes) {k : Nat} (h : HasName db k) :
    HasName (db.addName x n).1 k := by
  apply isSome_iff_mem.1
  have h' := isSome_iff_mem.2 h
  rcases addName_get hn x n with ⟨r, h1, h2, h3, h4⟩ | ⟨h1, h2, h3⟩
  · rw [h4]; simp only [AL.get_set]; split
    · rfl
    · exact h'
  · rw [h3]; simp only [AL.get_set]; split
    · rfl
    · exact h'

theorem hasName_added {db : Db} (hn : AL.NK db.names) (x : Bool) (n : Bytes) :
    HasName (db.addName x n).1 (db.addName x n).2 := by
  apply isSome_iff_mem.1
  rcases addName_get hn x n with ⟨r, h1, h2, h3, h4⟩ | ⟨h1, h2, h3⟩
  · rw [h4]; simp only [AL.get_set]; simp
  · rw [h3, h2]; simp only [AL.get_set]; simp

end Verif.Fsck
