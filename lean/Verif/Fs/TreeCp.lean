/-
Lemmas about `copy_tree`: the invariant of its loop.
-/
import Verif.Fs.TreeAcc

namespace Verif.Fs

theorem minRow_some (f : Nat → Bool) : ∀ (l : List (Nat × Nat)) {k c : Nat}, minRow f l = some (k, c) →
    (k, c) ∈ l ∧ f k = true ∧ ∀ e ∈ l, f e.1 = true → k ≤ e.1
  | [], k, c, h => by cases h
  | (a, b) :: t, k, c, h => by
    simp only [minRow] at h
    cases hm : minRow f t with
    | none =>
      rw [hm] at h
      simp only at h
      split at h
      · rename_i hf; cases h
        refine ⟨List.mem_cons_self .., hf, ?_⟩
        intro e he hfe
        rcases List.mem_cons.1 he with rfl | he
        · exact Nat.le_refl _
        · exfalso
          have hn : ∀ (t : List (Nat × Nat)), minRow f t = none → ∀ e ∈ t, f e.1 = true → False := by
            intro t
            induction t with
            | nil => intro _ e he; cases he
            | cons x t ih =>
              obtain ⟨x1, x2⟩ := x
              intro h e he hfe
              simp only [minRow] at h
              cases hm : minRow f t with
              | none =>
                rw [hm] at h; simp only at h
                split at h
                · cases h
                · rename_i hx
                  rcases List.mem_cons.1 he with rfl | he
                  · exact hx hfe
                  · exact ih hm e he hfe
              | some y => obtain ⟨y1, y2⟩ := y; rw [hm] at h; simp only at h; split at h <;> cases h
          exact hn t hm e he hfe
      · cases h
    | some y =>
      obtain ⟨y1, y2⟩ := y
      rw [hm] at h
      obtain ⟨i1, i2, i3⟩ := minRow_some f t hm
      simp only at h
      split at h
      · rename_i hc; cases h
        refine ⟨List.mem_cons_self .., hc.1, ?_⟩
        intro e he hfe
        rcases List.mem_cons.1 he with rfl | he
        · exact Nat.le_refl _
        · have := i3 e he hfe; omega
      · rename_i hc; cases h
        refine ⟨List.mem_cons_of_mem _ i1, i2, ?_⟩
        intro e he hfe
        rcases List.mem_cons.1 he with rfl | he
        · simp only at hfe ⊢
          have : ¬ a < k := fun hl => hc ⟨hfe, hl⟩
          omega
        · exact i3 e he hfe

theorem minRow_none (f : Nat → Bool) : ∀ (l : List (Nat × Nat)), minRow f l = none → ∀ e ∈ l, f e.1 = false
  | [], _, e, he => by cases he
  | (a, b) :: t, h, e, he => by
    simp only [minRow] at h
    cases hm : minRow f t with
    | none =>
      rw [hm] at h; simp only at h
      split at h
      · cases h
      · rename_i hx
        rcases List.mem_cons.1 he with rfl | he
        · simpa using hx
        · exact minRow_none f t hm e he
    | some y => obtain ⟨y1, y2⟩ := y; rw [hm] at h; simp only at h; split at h <;> cases h

theorem nextRow_some {db : Db} (hn : AL.NK db.contents) {p lo k c : Nat} (h : db.nextRow p lo = some (k, c)) :
    AL.get db.contents (p, k) = some c ∧ lo ≤ k ∧ ∀ k' c', AL.get db.contents (p, k') = some c' → lo ≤ k' → k ≤ k' := by
  obtain ⟨h1, h2, h3⟩ := minRow_some _ _ h
  obtain ⟨⟨⟨a, b⟩, d⟩, hm, he⟩ := List.mem_map.1 h1
  rw [List.mem_filter] at hm
  simp only [Prod.mk.injEq] at he
  have ha : a = p := by simpa using hm.2
  obtain ⟨e1, e2⟩ := he
  subst ha; subst e1; subst e2
  refine ⟨AL.mem_get_some hn hm.1, by simpa using h2, ?_⟩
  intro k' c' hk hl
  exact h3 (k', c') (List.mem_map.2 ⟨((a, k'), c'), List.mem_filter.2 ⟨AL.get_some_mem hk, by simp⟩, rfl⟩) (by simpa using hl)

theorem nextRow_none {db : Db} {p lo : Nat} (h : db.nextRow p lo = none) {k : Nat} (hk : lo ≤ k) :
    AL.get db.contents (p, k) = none := by
  cases hg : AL.get db.contents (p, k) with
  | none => rfl
  | some c =>
    have := minRow_none _ _ h (k, c) (List.mem_map.2 ⟨((p, k), c), List.mem_filter.2 ⟨AL.get_some_mem hg, by simp⟩, rfl⟩)
    simp at this; omega

/-! #### Flushing -/

theorem bgUpload_spec (s : St) (id b o : Nat) :
    ∃ bl ob, bgUpload s id b o = { s with db := { s.db with blocks := bl, objects := ob } } ∧
      (∀ i k, i ≠ id → AL.get bl (i, k) = AL.get s.db.blocks (i, k)) ∧
      ∀ (db' : Db) (δ L : Nat → Int), Acc NoT s.maxObj db' δ L → db'.blocks = s.db.blocks → db'.objects = s.db.objects →
        (∀ j, AL.get s.db.inodes id = some j → ∃ j', AL.get db'.inodes id = some j' ∧ j'.size = j.size) →
        Acc NoT s.maxObj { db' with blocks := bl, objects := ob } δ L := by
  have triv : ∃ bl ob, s = { s with db := { s.db with blocks := bl, objects := ob } } ∧
      (∀ i k, i ≠ id → AL.get bl (i, k) = AL.get s.db.blocks (i, k)) ∧
      ∀ (db' : Db) (δ L : Nat → Int), Acc NoT s.maxObj db' δ L → db'.blocks = s.db.blocks → db'.objects = s.db.objects →
        (∀ j, AL.get s.db.inodes id = some j → ∃ j', AL.get db'.inodes id = some j' ∧ j'.size = j.size) →
        Acc NoT s.maxObj { db' with blocks := bl, objects := ob } δ L :=
    ⟨s.db.blocks, s.db.objects, rfl, fun _ _ _ => rfl, fun db' δ L h h1 h2 _ => by rw [← h1, ← h2]; exact h⟩
  unfold bgUpload
  cases hi : AL.get s.db.inodes id with
  | none => simp only; rw [hi] at triv; exact triv
  | some j =>
    simp only
    split
    · rename_i hb
      split
      · rw [hi] at triv; exact triv
      · rename_i hne
        refine ⟨_, _, rfl, ?_, ?_⟩
        · intro i k hik
          rw [AL.get_set_ne]; intro e; cases e; exact hik rfl
        · intro db' δ L h h1 h2 h3
          obtain ⟨j', hj', hsz⟩ := h3 j rfl
          have := h.upload (o := o) hj' (by rw [hsz]; exact hb.2) (by rw [h1]; exact hne)
          rw [h1, h2] at this
          exact this
    · rw [hi] at triv; exact triv

theorem flush_spec (cache : List (Nat × Nat)) (id : Nat) (ups : List (Nat × Nat)) (s : St) :
    ∃ bl ob, flushInode s cache id ups = { s with db := { s.db with blocks := bl, objects := ob } } ∧
      (∀ i k, i ≠ id → AL.get bl (i, k) = AL.get s.db.blocks (i, k)) ∧
      (AL.get s.opened id = none ∨ AL.get cache id ≠ none → bl = s.db.blocks) ∧
      ∀ (db' : Db) (δ L : Nat → Int), Acc NoT s.maxObj db' δ L → db'.blocks = s.db.blocks → db'.objects = s.db.objects →
        (∀ j, AL.get s.db.inodes id = some j → ∃ j', AL.get db'.inodes id = some j' ∧ j'.size = j.size) →
        Acc NoT s.maxObj { db' with blocks := bl, objects := ob } δ L := by
  unfold flushInode
  cases ho : AL.get s.opened id with
  | none =>
    exact ⟨s.db.blocks, s.db.objects, by simp, fun _ _ _ => rfl, fun _ => rfl, fun db' δ L h h1 h2 _ => by rw [← h1, ← h2]; exact h⟩
  | some v =>
    cases hc : AL.get cache id with
    | some w =>
      exact ⟨s.db.blocks, s.db.objects, by simp, fun _ _ _ => rfl, fun _ => rfl, fun db' δ L h h1 h2 _ => by rw [← h1, ← h2]; exact h⟩
    | none =>
      simp only
      have main : ∀ (ups : List (Nat × Nat)) (s : St),
          ∃ bl ob, ups.foldl (fun s u => bgUpload s id u.1 u.2) s = { s with db := { s.db with blocks := bl, objects := ob } } ∧
          (∀ i k, i ≠ id → AL.get bl (i, k) = AL.get s.db.blocks (i, k)) ∧
          ∀ (db' : Db) (δ L : Nat → Int), Acc NoT s.maxObj db' δ L → db'.blocks = s.db.blocks → db'.objects = s.db.objects →
            (∀ j, AL.get s.db.inodes id = some j → ∃ j', AL.get db'.inodes id = some j' ∧ j'.size = j.size) →
            Acc NoT s.maxObj { db' with blocks := bl, objects := ob } δ L := by
        intro ups
        induction ups with
        | nil =>
          intro s
          exact ⟨s.db.blocks, s.db.objects, rfl, fun _ _ _ => rfl, fun db' δ L h h1 h2 _ => by rw [← h1, ← h2]; exact h⟩
        | cons u t ih =>
          intro s
          obtain ⟨bl, ob, e1, e2, e3⟩ := bgUpload_spec s id u.1 u.2
          obtain ⟨bl2, ob2, f1, f2, f3⟩ := ih (bgUpload s id u.1 u.2)
          rw [List.foldl_cons, f1]
          rw [e1] at f2 f3 ⊢
          refine ⟨bl2, ob2, rfl, ?_, ?_⟩
          · intro i k hik; rw [f2 i k hik]; exact e2 i k hik
          · intro db' δ L h h1 h2 h3
            have a1 := e3 db' δ L h h1 h2 h3
            exact f3 { db' with blocks := bl, objects := ob } δ L a1 rfl rfl h3
      obtain ⟨bl, ob, g1, g2, g3⟩ := main ups s
      refine ⟨bl, ob, g1, g2, ?_, g3⟩
      rintro (h | h)
      · cases h
      · exact absurd rfl h

/-! #### The loop -/

/-- The tables as if the temporary inode had a link. -/
def tdb (db : Db) (tmp : Nat) : Db := db.modInode tmp (fun i => { i with refcount := 1 })

def tI (ino : List (Nat × Inode)) (tmp : Nat) : List (Nat × Inode) :=
  match AL.get ino tmp with
  | some i => AL.set ino tmp { i with refcount := 1 }
  | none => ino

theorem tdb_eq (db : Db) (tmp : Nat) : tdb db tmp = { db with inodes := tI db.inodes tmp } := by
  unfold tdb Db.modInode tI
  cases AL.get db.inodes tmp <;> rfl

theorem get_tI (ino : List (Nat × Inode)) (tmp i : Nat) :
    AL.get (tI ino tmp) i = if i = tmp then (AL.get ino tmp).map (fun i => { i with refcount := 1 }) else AL.get ino i := by
  unfold tI
  cases h : AL.get ino tmp with
  | none =>
    simp only
    split
    · rename_i e; rw [e, h]; rfl
    · rfl
  | some a => simp only [AL.get_set, Option.map_some]

theorem nk_tI {ino : List (Nat × Inode)} (h : AL.NK ino) (tmp : Nat) : AL.NK (tI ino tmp) := by
  unfold tI
  cases AL.get ino tmp with
  | none => exact h
  | some a => exact h.set _ _

theorem nk_of_tI {ino : List (Nat × Inode)} {tmp : Nat} (h : AL.NK (tI ino tmp)) : AL.NK ino := by
  unfold tI at h
  cases hg : AL.get ino tmp with
  | none => rw [hg] at h; exact h
  | some a =>
    rw [hg] at h
    simp only at h
    unfold AL.NK at *
    have : (AL.set ino tmp { a with refcount := 1 }).map (·.1) = ino.map (·.1) := by
      clear h
      induction ino with
      | nil => cases hg
      | cons e t ih =>
        obtain ⟨k, v⟩ := e
        simp only [AL.set, AL.get] at hg ⊢
        by_cases hk : k = tmp
        · simp [hk]
        · simp only [hk, if_false] at hg ⊢
          simp only [List.map_cons, ih hg]
    rw [this] at h; exact h

/-- Invariant of the loop of `copy_tree`: `s` is the state before (with the new attributes of the target), `c` the current
state, `W` the directories still to work on, `M` the inodes that have been copied. -/
structure Cp (L : Nat → Int) (s : St) (src tmp : Nat) (c : St) (W : List (Nat × Nat × Nat)) (cache M : List (Nat × Nat)) : Prop where
  acc : Acc NoT s.maxObj (tdb c.db tmp) (fun i => if i = tmp then 1 else 0) L
  tmpI : ∃ a, AL.get c.db.inodes tmp = some a ∧ a.refcount = 0
  tmpX : (∀ k, AL.get c.db.xattrs (tmp, k) = none) ∧ (∀ k, AL.get c.db.blocks (tmp, k) = none) ∧ AL.get c.db.symlinks tmp = none
  opened : c.opened = s.opened
  fs : c.failsafe = s.failsafe
  mx : c.maxObj = s.maxObj
  seq : tmp ≤ c.db.seq
  oldI : ∀ i, i < tmp → AL.get c.db.inodes i = AL.get s.db.inodes i
  oldC : ∀ p k, p < tmp → AL.get c.db.contents (p, k) = AL.get s.db.contents (p, k)
  oldX : ∀ i k, i < tmp → AL.get c.db.xattrs (i, k) = AL.get s.db.xattrs (i, k)
  oldS : ∀ i, i < tmp → AL.get c.db.symlinks i = AL.get s.db.symlinks i
  oldB : ∀ i k, i < tmp → AL.get s.opened i = none → AL.get c.db.blocks (i, k) = AL.get s.db.blocks (i, k)
  nm : ∀ k, c.db.nm k = s.db.nm k
  mNK : AL.NK M
  mInj : ∀ i j x, AL.get M i = some x → AL.get M j = some x → i = j
  mSrc : AL.get M src = some tmp
  mNew : ∀ i i', AL.get M i = some i' → i ≠ src → tmp < i' ∧ i' ≤ c.db.seq
  mBelow : ∀ i i', AL.get M i = some i' → DbBelow s src i ∧ i < tmp
  mAll : ∀ i', tmp < i' → i' ≤ c.db.seq → ∃ i, AL.get M i = some i' ∧ i ≠ src
  copy : ∀ i i', AL.get M i = some i' → i ≠ src → ∃ a b, AL.get c.db.inodes i = some a ∧ AL.get c.db.inodes i' = some b ∧ CopyOf a b ∧
    0 < b.refcount ∧
    (∀ k, AL.get c.db.xattrs (i', k) = AL.get c.db.xattrs (i, k)) ∧ AL.get c.db.symlinks i' = AL.get c.db.symlinks i ∧
    (∀ k, AL.get c.db.blocks (i', k) = AL.get c.db.blocks (i, k))
  ent : ∀ i i' k c', AL.get M i = some i' → AL.get c.db.contents (i', k) = some c' →
    ∃ x, AL.get s.db.contents (i, k) = some x ∧ AL.get M x = some c' ∧ x ≠ src
  todo : ∀ i i' k x, AL.get M i = some i' → AL.get s.db.contents (i, k) = some x →
    AL.get c.db.contents (i', k) ≠ none ∨ ∃ lo, (i, i', lo) ∈ W ∧ lo ≤ k
  work : ∀ i i' lo, (i, i', lo) ∈ W → AL.get M i = some i' ∧ ∀ k, lo ≤ k → AL.get c.db.contents (i', k) = none
  wnd : (W.map (·.1)).Nodup
  link : ∀ i i', AL.get M i = some i' → i ≠ src → ∃ j j' k, AL.get M j = some j' ∧ AL.get c.db.contents (j', k) = some i'
  cacheM : ∀ i i', AL.get cache i = some i' → AL.get M i = some i' ∧ i ≠ src
  cacheAll : ∀ i i', AL.get M i = some i' → i ≠ src → s.db.rc i ≠ 1 → AL.get cache i = some i'

theorem tdb_rc (db : Db) (tmp i : Nat) (h : i ≠ tmp) : (tdb db tmp).rc i = db.rc i := by
  rw [tdb_eq]; unfold Db.rc
  show ((AL.get (tI db.inodes tmp) i).map _).getD 0 = _
  rw [get_tI, if_neg h]

/-- The row of the copy is added: bookkeeping. -/
theorem accNew {m : Nat} {db : Db} {L : Nat → Int} {tmp id dd k : Nat} {i : Inode}
    (h : Acc NoT m (tdb db tmp) (fun i => if i = tmp then 1 else 0) L) (hL : ∀ k, 0 ≤ L k) (hi : AL.get db.inodes id = some i) (hid : id ≠ tmp)
    (htmp : tmp ≤ db.seq) (hdd : 0 < (tdb db tmp).rc dd) (hn : AL.get db.contents (dd, k) = none) (hk : AL.get db.names k ≠ none) :
    Acc NoT m (tdb { db.copyInode id i with contents := AL.set db.contents (dd, k) (db.seq + 1), names := incNames (db.copyInode id i).names [k] } tmp)
      (fun i => if i = tmp then 1 else 0) L := by
  have hseq : (tdb db tmp).seq = db.seq := by rw [tdb_eq]
  have a1 := h.copyInode hL (id := id) (i := i) ⟨i, by rw [tdb_eq]; show AL.get (tI db.inodes tmp) id = _; rw [get_tI, if_neg hid, hi], rfl⟩
  have hco : ((tdb db tmp).copyInode id i).contents = db.contents := by rw [tdb_eq]; rfl
  have hrc : 0 < ((tdb db tmp).copyInode id i).rc dd := by
    have hne : dd ≠ (tdb db tmp).seq + 1 := by
      intro e
      have := h.seq dd (rc_pos_ne hdd)
      omega
    show 0 < ((AL.get (AL.set (tdb db tmp).inodes _ _) dd).map (·.refcount)).getD 0
    rw [AL.get_set_ne _ _ hne]; exact hdd
  have a2 := a1.insC (p := dd) (k := k) (db.seq + 1) (by rw [hco]; exact hn) (Or.inl hrc)
  have a3 := a2.incNames [k] (by
    intro x hx
    rw [List.mem_singleton] at hx; subst hx
    show AL.get (incNames (tdb db tmp).names _) x ≠ none
    rw [get_incNames, tdb_eq]
    simpa using hk)
  have a4 := a3.congr (δ' := fun i => if i = tmp then 1 else 0) (L' := L) (by intro x; rw [hseq]; simp only [bump]; omega) (by
    intro x; simp only [bump, List.mem_singleton]; omega)
  have a5 := a4.congrI (ino := tI (AL.set db.inodes (db.seq + 1) { i with refcount := 1, locked := false }) tmp) ?_ ?_
  · rw [tdb_eq]
    have e2 := tdb_eq db tmp
    rw [e2] at a5
    exact a5
  · apply nk_tI
    refine AL.NK.set ?_ _ _
    have := h.nkI
    rw [tdb_eq] at this
    exact nk_of_tI this
  · intro x
    show _ = AL.get (AL.set (tdb db tmp).inodes ((tdb db tmp).seq + 1) _) x
    rw [hseq, tdb_eq]
    show _ = AL.get (AL.set (tI db.inodes tmp) (db.seq + 1) _) x
    rw [get_tI, AL.get_set, AL.get_set, AL.get_set, get_tI]
    by_cases h1 : x = tmp
    · have : tmp ≠ db.seq + 1 := by omega
      subst h1
      rw [if_pos rfl, if_neg this, if_neg this, if_pos rfl]
    · rw [if_neg h1, if_neg h1]

/-- The same for a further link to an inode that has a copy already. -/
theorem accCached {m : Nat} {db : Db} {L : Nat → Int} {tmp new dd k : Nat} {b : Inode}
    (h : Acc NoT m (tdb db tmp) (fun i => if i = tmp then 1 else 0) L) (hi : AL.get db.inodes new = some b) (hb : 0 < b.refcount) (hid : new ≠ tmp)
    (hdd : 0 < (tdb db tmp).rc dd) (hn : AL.get db.contents (dd, k) = none) (hk : AL.get db.names k ≠ none) :
    Acc NoT m (tdb { db.modInode new (fun i => { i with refcount := i.refcount + 1 }) with contents := AL.set db.contents (dd, k) new, names := incNames db.names [k] } tmp)
      (fun i => if i = tmp then 1 else 0) L := by
  have hi' : AL.get (tdb db tmp).inodes new = some b := by
    rw [tdb_eq]; show AL.get (tI db.inodes tmp) new = _; rw [get_tI, if_neg hid, hi]
  have hrcn : (tdb db tmp).rc new = b.refcount := by unfold Db.rc; rw [hi']; rfl
  have a1 := h.modRc new 1 (fun i => { i with refcount := i.refcount + 1 }) (fun _ => rfl) (fun _ => rfl) (by rw [hi']; simp) (Or.inl (by omega))
  have hco : ((tdb db tmp).modInode new (fun i => { i with refcount := i.refcount + 1 })).contents = db.contents := by
    rw [(modInode_rest _ _ _).2.1, tdb_eq]
  have hrc : 0 < ((tdb db tmp).modInode new (fun i => { i with refcount := i.refcount + 1 })).rc dd := by
    unfold Db.rc
    rw [modInode_get]
    split
    · rename_i e
      rw [hi']; show 0 < b.refcount + 1; omega
    · exact hdd
  have a2 := a1.insC (p := dd) (k := k) new (by rw [hco]; exact hn) (Or.inl hrc)
  have a3 := a2.incNames [k] (by
    intro x hx
    rw [List.mem_singleton] at hx; subst hx
    show AL.get ((tdb db tmp).modInode new _).names x ≠ none
    rw [(modInode_rest _ _ _).1, tdb_eq]
    exact hk)
  have a4 := a3.congr (δ' := fun i => if i = tmp then 1 else 0) (L' := L) (by intro x; simp only [bump]; omega) (by
    intro x; simp only [bump, List.mem_singleton]; omega)
  have hm : db.modInode new (fun i => { i with refcount := i.refcount + 1 }) = { db with inodes := AL.set db.inodes new { b with refcount := b.refcount + 1 } } := by
    unfold Db.modInode; rw [hi]
  have hm2 : (tdb db tmp).modInode new (fun i => { i with refcount := i.refcount + 1 }) = { db with inodes := AL.set (tI db.inodes tmp) new { b with refcount := b.refcount + 1 } } := by
    unfold Db.modInode; rw [hi', tdb_eq]
  rw [hm2] at a4
  rw [hm]
  have a5 := a4.congrI (ino := tI (AL.set db.inodes new { b with refcount := b.refcount + 1 }) tmp) ?_ ?_
  · rw [tdb_eq]; exact a5
  · apply nk_tI
    refine AL.NK.set ?_ _ _
    have := h.nkI
    rw [tdb_eq] at this
    exact nk_of_tI this
  · intro x
    show _ = AL.get (AL.set (tI db.inodes tmp) new _) x
    rw [get_tI, AL.get_set, AL.get_set, AL.get_set, get_tI]
    by_cases h1 : x = tmp
    · have : tmp ≠ new := fun e => hid e.symm
      subst h1
      rw [if_pos rfl, if_neg this, if_neg this, if_pos rfl]
    · rw [if_neg h1, if_neg h1]

end Verif.Fs
