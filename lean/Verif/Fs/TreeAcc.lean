/-
Bookkeeping of `copy_tree`: what its statements do to the tables.
-/
import Verif.Fs.TreeRm

namespace Verif.Fs

variable {T : Nat → Prop}

theorem get_append {κ ν : Type} [DecidableEq κ] (a b : List (κ × ν)) (k : κ) : AL.get (a ++ b) k = (AL.get a k).or (AL.get b k) := by
  induction a with
  | nil => rfl
  | cons e t ih =>
    obtain ⟨k', v⟩ := e
    simp only [List.cons_append, AL.get]
    split
    · rfl
    · exact ih

theorem sumBy_append {κ ν : Type} (f : κ → ν → Int) (a b : List (κ × ν)) : AL.sumBy f (a ++ b) = AL.sumBy f a + AL.sumBy f b := by
  induction a with
  | nil => simp [AL.sumBy]
  | cons e t ih => simp only [List.cons_append, AL.sumBy, ih]; omega

/-- The rows of one inode, as rows of another. -/
def rekey {ν : Type} (l : List ((Nat × Nat) × ν)) (id new : Nat) : List ((Nat × Nat) × ν) :=
  (l.filter (fun e => e.1.1 == id)).map (fun e => ((new, e.1.2), e.2))

theorem get_rekey {ν : Type} (l : List ((Nat × Nat) × ν)) (id new i k : Nat) :
    AL.get (rekey l id new) (i, k) = if i = new then AL.get l (id, k) else none := by
  unfold rekey
  induction l with
  | nil => simp [AL.get]
  | cons e t ih =>
    obtain ⟨⟨a, b⟩, v⟩ := e
    rw [List.filter_cons]
    by_cases ha : a = id
    · simp only [ha, beq_self_eq_true, if_true, List.map_cons, AL.get, ih]
      by_cases hi : i = new
      · subst hi
        by_cases hb : b = k
        · subst hb; simp
        · simp [hb]
      · simp [hi, Ne.symm hi]
    · have : ((a == id) = false) := by simpa using ha
      simp only [this, Bool.false_eq_true, if_false, ih, AL.get]
      simp [ha]

theorem nk_rekey {ν : Type} {l : List ((Nat × Nat) × ν)} (h : AL.NK l) (id new : Nat) : AL.NK (rekey l id new) := by
  unfold rekey AL.NK List.Nodup at *
  rw [List.map_map, List.pairwise_map]
  rw [List.pairwise_map] at h
  have h := h.filter (fun e => e.1.1 == id)
  refine List.Pairwise.imp_of_mem ?_ h
  rintro ⟨⟨a, b⟩, v⟩ ⟨⟨a', b'⟩, v'⟩ h1 h2 hne he
  simp only [List.mem_filter, beq_iff_eq] at h1 h2
  apply hne
  simp only [Function.comp, Prod.mk.injEq, true_and] at he
  rw [h1.2, h2.2]; simp only [Prod.mk.injEq, true_and]; exact he

theorem nk_append_rekey {ν : Type} {l : List ((Nat × Nat) × ν)} (h : AL.NK l) (id : Nat) {new : Nat} (hn : ∀ k, AL.get l (new, k) = none) :
    AL.NK (l ++ rekey l id new) := by
  unfold AL.NK
  rw [List.map_append, List.nodup_append]
  refine ⟨h, nk_rekey h id new, ?_⟩
  rintro ⟨a, b⟩ h1 ⟨a', b'⟩ h2 he
  cases he
  have h3 : AL.get l (a, b) ≠ none := fun e => (AL.get_none_iff l (a, b)).1 e h1
  have h4 : AL.get (rekey l id new) (a, b) ≠ none := fun e => (AL.get_none_iff _ _).1 e h2
  rw [get_rekey] at h4
  split at h4
  · rename_i e; subst e; exact h3 (hn b)
  · exact h4 rfl

theorem get_append_rekey {ν : Type} (l : List ((Nat × Nat) × ν)) (id new i k : Nat) (hn : ∀ k, AL.get l (new, k) = none) :
    AL.get (l ++ rekey l id new) (i, k) = if i = new then AL.get l (id, k) else AL.get l (i, k) := by
  rw [get_append, get_rekey]
  split
  · rename_i h; subst h; rw [hn]; rfl
  · simp

theorem sumBy_rekey_key {ν : Type} {l : List ((Nat × Nat) × ν)} (h : AL.NK l) (id new k : Nat) :
    AL.sumBy (fun (e : Nat × Nat) (_ : ν) => if e.2 = k then (1 : Int) else 0) (rekey l id new) = if (AL.get l (id, k)).isSome then 1 else 0 := by
  have e : AL.sumBy (fun (e : Nat × Nat) (_ : ν) => if e.2 = k then (1 : Int) else 0) (rekey l id new) =
      AL.sumBy (fun (e : Nat × Nat) (_ : ν) => if e = (id, k) then (1 : Int) else 0) l := by
    unfold rekey
    clear h
    induction l with
    | nil => rfl
    | cons e t ih =>
      obtain ⟨⟨a, b⟩, v⟩ := e
      rw [List.filter_cons]
      by_cases ha : a = id
      · subst ha
        simp only [beq_self_eq_true, if_true, List.map_cons, AL.sumBy, ih, Prod.mk.injEq, true_and]
      · have : ((a == id) = false) := by simpa using ha
        simp only [this, Bool.false_eq_true, if_false, ih, AL.sumBy, Prod.mk.injEq, ha, false_and]
        omega
  rw [e, sumBy_single l h]

theorem Acc.congrI {m : Nat} {db : Db} {δ L : Nat → Int} (h : Acc T m db δ L) {ino : List (Nat × Inode)} (hn : AL.NK ino)
    (he : ∀ i, AL.get ino i = AL.get db.inodes i) : Acc T m { db with inodes := ino } δ L := by
  have hrc : ∀ i, ({ db with inodes := ino } : Db).rc i = db.rc i := by intro i; unfold Db.rc; rw [he]
  exact { h with
    nkI := hn
    rc := fun i => by rw [hrc]; exact h.rc i
    par := fun p k c hc => by rw [hrc]; exact h.par p k c hc
    xin := fun i k v hx => by show AL.get ino i ≠ none; rw [he]; exact h.xin i k v hx
    sin := fun i v hx => by show AL.get ino i ≠ none; rw [he]; exact h.sin i v hx
    bin := fun i b o hb => by show ∃ x, AL.get ino i = some x ∧ _; rw [he]; exact h.bin i b o hb
    seq := fun i hi => h.seq i (by have hi : AL.get ino i ≠ none := hi; rw [he] at hi; exact hi) }

theorem get_incNames (names : List (Nat × (Bytes × Int))) (ks : List Nat) (k : Nat) :
    AL.get (incNames names ks) k = (AL.get names k).map (fun v => if k ∈ ks then (v.1, v.2 + 1) else v) := by
  have : incNames names ks = names.map (fun e => (e.1, (fun (k : Nat) (v : Bytes × Int) => if k ∈ ks then (v.1, v.2 + 1) else v) e.1 e.2)) := by
    unfold incNames
    apply List.map_congr_left
    rintro ⟨a, b⟩ _
    simp only
    split <;> rfl
  rw [this]; exact get_map_val names (fun k v => if k ∈ ks then (v.1, v.2 + 1) else v) k

theorem nk_incNames {names : List (Nat × (Bytes × Int))} (h : AL.NK names) (ks : List Nat) : AL.NK (incNames names ks) := by
  have : incNames names ks = names.map (fun e => (e.1, (fun (k : Nat) (v : Bytes × Int) => if k ∈ ks then (v.1, v.2 + 1) else v) e.1 e.2)) := by
    unfold incNames
    apply List.map_congr_left
    rintro ⟨a, b⟩ _
    simp only
    split <;> rfl
  rw [this]; exact NK_map_val h (fun k v => if k ∈ ks then (v.1, v.2 + 1) else v)

theorem nm_incNames (db : Db) (ks : List Nat) (k : Nat) : ({ db with names := incNames db.names ks } : Db).nm k = db.nm k := by
  unfold Db.nm
  show (AL.get (incNames db.names ks) k).map (·.1) = _
  rw [get_incNames, Option.map_map]
  congr 1
  funext v
  simp only [Function.comp]
  split <;> rfl

/-- References of names: one more for each given name. -/
theorem Acc.incNames {m : Nat} {db : Db} {δ L : Nat → Int} (h : Acc T m db δ L) (ks : List Nat) (hk : ∀ k ∈ ks, AL.get db.names k ≠ none) :
    Acc T m { db with names := incNames db.names ks } δ (fun k => L k + if k ∈ ks then 1 else 0) := by
  refine { h with nkN := nk_incNames h.nkN ks, nuniq := ?_, nr := ?_, npos := ?_ }
  · intro a b n r r' h1 h2
    simp only [get_incNames, Option.map_eq_some_iff] at h1 h2
    obtain ⟨⟨n1, r1⟩, e1, e1'⟩ := h1
    obtain ⟨⟨n2, r2⟩, e2, e2'⟩ := h2
    have f1 : n1 = n := by split at e1' <;> (cases e1'; rfl)
    have f2 : n2 = n := by split at e2' <;> (cases e2'; rfl)
    subst f1; subst f2
    exact h.nuniq _ _ _ _ _ e1 e2
  · intro k
    have := h.nr k
    have e : ({ db with names := Fs.incNames db.names ks } : Db).nr k = db.nr k + if k ∈ ks then 1 else 0 := by
      unfold Db.nr
      show ((AL.get (Fs.incNames db.names ks) k).map (·.2)).getD 0 = _
      rw [get_incNames]
      cases hg : AL.get db.names k with
      | none =>
        have : k ∉ ks := fun hm => hk k hm hg
        simp [this]
      | some v => by_cases hm : k ∈ ks <;> simp [hm]
    rw [e]
    show _ = db.usesC k + db.usesX k + _
    omega
  · intro k n r hg
    simp only [get_incNames, Option.map_eq_some_iff] at hg
    obtain ⟨⟨n1, r1⟩, e1, e1'⟩ := hg
    have := h.npos k n1 r1 e1
    split at e1' <;> (cases e1'; omega)

theorem Acc.fresh {m : Nat} {db : Db} {δ L : Nat → Int} (h : Acc T m db δ L) {i : Nat} (hi : db.seq < i) :
    AL.get db.inodes i = none ∧ (∀ k, AL.get db.xattrs (i, k) = none) ∧ (∀ k, AL.get db.blocks (i, k) = none) ∧
    AL.get db.symlinks i = none ∧ (¬T i → ∀ k, AL.get db.contents (i, k) = none) := by
  have h0 : AL.get db.inodes i = none := by
    cases hg : AL.get db.inodes i with
    | none => rfl
    | some v => have := h.seq i (by simp [hg]); omega
  refine ⟨h0, ?_, ?_, ?_, ?_⟩
  · intro k
    cases hg : AL.get db.xattrs (i, k) with
    | none => rfl
    | some v => exact absurd h0 (h.xin _ _ _ hg)
  · intro k
    cases hg : AL.get db.blocks (i, k) with
    | none => rfl
    | some v => obtain ⟨x, hx, _⟩ := h.bin _ _ _ hg; rw [h0] at hx; cases hx
  · cases hg : AL.get db.symlinks i with
    | none => rfl
    | some v => exact absurd h0 (h.sin _ _ hg)
  · intro ht k
    cases hg : AL.get db.contents (i, k) with
    | none => rfl
    | some v => exact absurd h0 (rc_pos_ne ((h.par _ _ _ hg).resolve_right ht))

theorem sumBy_count' {κ ν : Type} (p : κ → ν → Bool) : ∀ l : List (κ × ν),
    AL.sumBy (fun k v => if p k v then (1 : Int) else 0) l = ((l.filter (fun e => p e.1 e.2)).length : Int)
  | [] => rfl
  | (k, v) :: t => by
    rw [List.filter_cons]
    simp only [AL.sumBy, sumBy_count' p t]
    by_cases h : p k v <;> simp [h] <;> omega

/-- The copy of an inode. -/
theorem Acc.copyInode {m : Nat} {db : Db} {δ L : Nat → Int} (h : Acc T m db δ L) (hL : ∀ k, 0 ≤ L k) {id : Nat} {i : Inode}
    (hi : ∃ j, AL.get db.inodes id = some j ∧ j.size = i.size) :
    Acc T m (db.copyInode id i) (bump δ (db.seq + 1) 1) L := by
  obtain ⟨j, hj, hsz⟩ := hi
  obtain ⟨f1, f2, f3, f4, _⟩ := h.fresh (i := db.seq + 1) (by omega)
  -- 1. the inode
  have a1 := h.newInode { i with refcount := 1, locked := false } rfl
  have hnew : AL.get (AL.set db.inodes (db.seq + 1) { i with refcount := 1, locked := false }) (db.seq + 1) ≠ none := by
    rw [AL.get_set_self]; simp
  have hmono : ∀ x, AL.get db.inodes x ≠ none → AL.get (AL.set db.inodes (db.seq + 1) { i with refcount := 1, locked := false }) x ≠ none := by
    intro x hx; rw [AL.get_set]; split <;> simp_all
  -- 2. the symbolic link
  have a2 : Acc T m { db with seq := db.seq + 1, inodes := AL.set db.inodes (db.seq + 1) { i with refcount := 1, locked := false }, symlinks := (match AL.get db.symlinks id with | some t => AL.set db.symlinks (db.seq + 1) t | none => db.symlinks) } (bump δ (db.seq + 1) 1) L := by
    cases AL.get db.symlinks id with
    | none => exact a1
    | some t => exact a1.newSym t hnew
  -- 3. the names
  have a3 := a2.incNames (xattrNames db.xattrs id) (by
    intro k hk
    rw [mem_xattrNames h.nkX] at hk
    obtain ⟨v, hv⟩ := Option.ne_none_iff_exists'.1 hk
    obtain ⟨n, hn⟩ := h.nm_of_X (hL k) hv
    rw [nm_some] at hn
    obtain ⟨r, hr⟩ := hn
    show AL.get db.names k ≠ none
    rw [hr]; simp)
  -- 4. attributes, blocks and objects
  let bl := rekey db.blocks id (db.seq + 1)
  have hob : ∀ o, ((bl.filter (fun b => b.2 == o)).length : Int) = AL.sumBy (fun _ v => if v = o then (1 : Int) else 0) bl := by
    intro o
    rw [← sumBy_count' (fun _ v => v == o) bl]
    exact sumBy_congr' _ _ _ (fun k v => by simp)
  have hbl : ∀ o, AL.sumBy (fun _ v => if v = o then (1 : Int) else 0) bl ≠ 0 → AL.get db.objects o ≠ none := by
    intro o ho hg
    have h1 : (bl.filter (fun b => b.2 == o)).length ≠ 0 := by
      intro e; apply ho; rw [← hob, e]; rfl
    obtain ⟨x, hx⟩ := List.exists_mem_of_length_pos (by omega : 0 < (bl.filter (fun b => b.2 == o)).length)
    rw [List.mem_filter] at hx
    obtain ⟨⟨a, b⟩, v⟩ := x
    have hv : v = o := by simpa using hx.2
    subst hv
    have h2 := AL.mem_get_some (nk_rekey h.nkB id (db.seq + 1)) hx.1
    rw [get_rekey] at h2
    split at h2
    · have := usesB_pos h2
      have h3 := h.orc v
      unfold Db.orc at h3
      rw [hg] at h3; simp at h3; omega
    · cases h2
  refine { a3 with nkX := nk_append_rekey h.nkX id f2, nkB := nk_append_rekey h.nkB id f3, nkO := NK_map_val h.nkO (fun o r => r + ((bl.filter (fun b => b.2 == o)).length : Int)), nr := ?_, xin := ?_, bin := ?_, orc := ?_, opos := ?_ }
  · intro k
    have := a3.nr k
    show ({ db with names := Fs.incNames db.names (xattrNames db.xattrs id) } : Db).nr k = db.usesC k + AL.sumBy _ (db.xattrs ++ rekey db.xattrs id (db.seq + 1)) + L k
    rw [sumBy_append, sumBy_rekey_key h.nkX]
    have e : ({ db with names := Fs.incNames db.names (xattrNames db.xattrs id) } : Db).nr k = db.usesC k + db.usesX k + (L k + if k ∈ xattrNames db.xattrs id then 1 else 0) := this
    rw [e]
    have : (k ∈ xattrNames db.xattrs id) ↔ (AL.get db.xattrs (id, k)).isSome = true := by
      rw [mem_xattrNames h.nkX, Option.isSome_iff_ne_none]
    show _ = db.usesC k + (db.usesX k + _) + L k
    by_cases hc : k ∈ xattrNames db.xattrs id
    · rw [if_pos hc, if_pos (this.1 hc)]; omega
    · rw [if_neg hc, if_neg (fun e => hc (this.2 e))]; omega
  · intro x k v hx
    have hx : AL.get (db.xattrs ++ rekey db.xattrs id (db.seq + 1)) (x, k) = some v := hx
    rw [get_append_rekey _ _ _ _ _ f2] at hx
    show AL.get (AL.set db.inodes _ _) x ≠ none
    split at hx
    · rename_i e; rw [e]; exact hnew
    · exact hmono x (h.xin _ _ _ hx)
  · intro x b o hx
    have hx : AL.get (db.blocks ++ rekey db.blocks id (db.seq + 1)) (x, b) = some o := hx
    rw [get_append_rekey _ _ _ _ _ f3] at hx
    show ∃ y, AL.get (AL.set db.inodes _ _) x = some y ∧ _
    rw [AL.get_set]
    split at hx
    · rename_i e; rw [if_pos e]
      obtain ⟨y, hy, hb⟩ := h.bin _ _ _ hx
      rw [hj] at hy; cases hy
      exact ⟨_, rfl, by show b * m < i.size; rw [← hsz]; exact hb⟩
    · rename_i e; rw [if_neg e]; exact h.bin _ _ _ hx
  · intro o
    show (AL.get (db.objects.map (fun e => (e.1, (fun (o : Nat) (r : Int) => r + ((bl.filter (fun b => b.2 == o)).length : Int)) e.1 e.2))) o).getD 0 = AL.sumBy _ (db.blocks ++ bl)
    have hgm := get_map_val db.objects (fun (o : Nat) (r : Int) => r + ((bl.filter (fun b => b.2 == o)).length : Int)) o
    refine (congrArg (fun x => Option.getD x 0) hgm).trans ?_
    rw [sumBy_append]
    have h1 := h.orc o
    unfold Db.orc Db.usesB at h1
    rw [← h1]
    cases hg : AL.get db.objects o with
    | none =>
      have : AL.sumBy (fun _ v => if v = o then (1 : Int) else 0) bl = 0 := Classical.byContradiction (fun hne => hbl o hne hg)
      rw [this]; rfl
    | some r => simp only [Option.map_some, Option.getD_some, hob]
  · intro o r hr
    have hr : AL.get (db.objects.map (fun e => (e.1, (fun (o : Nat) (r : Int) => r + ((bl.filter (fun b => b.2 == o)).length : Int)) e.1 e.2))) o = some r := hr
    have hgm := get_map_val db.objects (fun (o : Nat) (r : Int) => r + ((bl.filter (fun b => b.2 == o)).length : Int)) o
    have hr := hgm.symm.trans hr
    rw [Option.map_eq_some_iff] at hr
    obtain ⟨r', h1, h2⟩ := hr
    have := h.opos _ _ h1
    omega

end Verif.Fs
