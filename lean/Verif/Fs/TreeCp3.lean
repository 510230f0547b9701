/-
`copy_tree`: the whole run.
-/
import Verif.Fs.TreeCp2

namespace Verif.Fs

/-- One iteration of the loop never fails and keeps the invariant. -/
theorem Cp.step {L : Nat → Int} {s : St} {src tmp : Nat} {c : St} {w : CpWalk} {M : List (Nat × Nat)}
    (h : Cp L s src tmp c (w.cur.toList ++ w.queue) w.cache M) (hs : Inv NoT L s) (htmp : tmp = s.db.seq + 1)
    (hcyc : ∀ d k, DbBelow s src d → AL.get s.db.contents (d, k) ≠ some src) (brk : Bool) (ups : List (Nat × Nat)) :
    ∃ c' w' M', copyStep brk ups c w = some (c', w') ∧ Cp L s src tmp c' (w'.cur.toList ++ w'.queue) w'.cache M' := by
  obtain ⟨cur, queue, cache⟩ := w
  unfold copyStep
  cases cur with
  | none =>
    cases queue with
    | nil => exact ⟨c, ⟨none, [], cache⟩, M, rfl, h⟩
    | cons t q => exact ⟨c, ⟨some t, q, cache⟩, M, rfl, h⟩
  | some t =>
    obtain ⟨sd, dd, lo⟩ := t
    simp only [Option.toList_some, List.singleton_append] at h ⊢
    cases hn : c.db.nextRow sd lo with
    | none => exact ⟨c, ⟨none, queue, cache⟩, M, rfl, h.stepEnd hn⟩
    | some r =>
      obtain ⟨k, id⟩ := r
      simp only
      obtain ⟨hM, hent, hlo, hidlt, hne, hbelow, hfree, hnk, hrc, hmin, hMn⟩ := h.row hs htmp hcyc hn
      cases hc : AL.get cache id with
      | some new =>
        have hfl : flushInode c cache id ups = c := by
          unfold flushInode; rw [hc]; cases AL.get c.opened id <;> rfl
        rw [hfl]
        obtain ⟨hMid, _⟩ := h.cacheM _ _ hc
        obtain ⟨a0, b0, ha0, hb0, _, hpos, _⟩ := h.copy _ _ hMid hne
        unfold copyRow
        simp only [hc, hb0]
        have hco : (c.db.modInode new (fun i => { i with refcount := i.refcount + 1 })).contents = c.db.contents := (modInode_rest _ _ _).2.1
        unfold Db.addCopy
        simp only [hco, hfree]
        have hst := h.stepCached hs htmp hcyc hn hc rfl
        have hnm : (c.db.modInode new (fun i => { i with refcount := i.refcount + 1 })).names = c.db.names := (modInode_rest _ _ _).1
        rw [hnm]
        cases brk
        · exact ⟨_, _, M, rfl, hst⟩
        · exact ⟨_, _, M, rfl, hst⟩
      | none =>
        obtain ⟨bl, ob, hf, f1, f2, f3⟩ := flush_spec cache id ups c
        rw [hf]
        obtain ⟨n, hnm⟩ := hs.acc.nm_of_C (hs.Lnn k) hent
        have hex := (hs.child_pos ((hs.acc.child_iff sd n id).2 ⟨k, hnm, hent⟩)).2.1
        rw [← h.oldI _ hidlt] at hex
        obtain ⟨i, hi⟩ := Option.ne_none_iff_exists'.1 hex
        unfold copyRow
        simp only [hc, hi]
        have hacc : Acc NoT s.maxObj (tdb { c.db with blocks := bl, objects := ob } tmp) (fun i => if i = tmp then 1 else 0) L := by
          have h0 := h.acc
          rw [← h.mx] at h0
          have := f3 (tdb c.db tmp) _ _ h0 (by rw [tdb_eq]) (by rw [tdb_eq]) (by
            intro j hj
            refine ⟨j, ?_, rfl⟩
            rw [tdb_eq]
            show AL.get (tI c.db.inodes tmp) id = _
            rw [get_tI, if_neg (by omega)]; exact hj)
          rw [h.mx] at this
          rw [tdb_eq] at this ⊢
          exact this
        have hst := h.stepNew hs htmp hcyc hn hc hi f1 (fun ho => f2 (Or.inl ho)) hacc rfl rfl rfl rfl
        have hco : (({ c.db with blocks := bl, objects := ob } : Db).copyInode id i).contents = c.db.contents := rfl
        have hch : (({ c.db with blocks := bl, objects := ob } : Db).copyInode id i).hasChildren id = c.db.hasChildren id := rfl
        unfold Db.addCopy
        simp only [hco, hfree]
        rw [hch]
        cases brk
        · exact ⟨_, _, _, rfl, hst⟩
        · exact ⟨_, _, _, rfl, hst⟩

theorem Cp.run {L : Nat → Int} {s : St} {src tmp : Nat} {c : St} {w : CpWalk} {M : List (Nat × Nat)} {r : Option (St × CpWalk)}
    (hr : CpRun c w r) (h : Cp L s src tmp c (w.cur.toList ++ w.queue) w.cache M) (hs : Inv NoT L s) (htmp : tmp = s.db.seq + 1)
    (hcyc : ∀ d k, DbBelow s src d → AL.get s.db.contents (d, k) ≠ some src) :
    ∃ c' w' M', r = some (c', w') ∧ Cp L s src tmp c' (w'.cur.toList ++ w'.queue) w'.cache M' := by
  induction hr with
  | here => exact ⟨_, _, _, rfl, h⟩
  | @fail _ _ _ brk ups hrun hst ih =>
    obtain ⟨c', w', M', e, hc⟩ := ih h
    cases e
    obtain ⟨c2, w2, M2, e2, _⟩ := hc.step hs htmp hcyc brk ups
    rw [e2] at hst; cases hst
  | @step _ _ _ _ _ brk ups hrun hst ih =>
    obtain ⟨c', w', M', e, hc⟩ := ih h
    cases e
    obtain ⟨c2, w2, M2, e2, h2⟩ := hc.step hs htmp hcyc brk ups
    rw [e2] at hst; cases hst
    exact ⟨_, _, _, rfl, h2⟩

/-! #### The start -/

/-- The state with the new attributes of the target. -/
def attrState (s : St) (tgt : Nat) (i : Inode) : St :=
  { s with db := s.db.modInode tgt (fun t => { t with atime := i.atime, ctime := i.ctime, mtime := i.mtime, mode := i.mode, uid := i.uid, gid := i.gid }) }

theorem Cp.start {L : Nat → Int} {s : St} {src tgt : Nat} {now : Int} {s1 : St} {w1 : CpWalk} (h : Inv NoT L s)
    (hst : copyStart s src tgt now = .ok (s1, w1)) :
    s.failsafe = false ∧ ∃ i, AL.get s.db.inodes src = some i ∧ AL.get s.db.inodes tgt ≠ none ∧ Inv NoT L (attrState s tgt i) ∧
      Cp L (attrState s tgt i) src (s.db.seq + 1) s1 (w1.cur.toList ++ w1.queue) w1.cache [(src, s.db.seq + 1)] := by
  unfold copyStart at hst
  split at hst
  · cases hst
  rename_i hfs
  refine ⟨by simpa using hfs, ?_⟩
  split at hst
  · rename_i i ti hi hti
    simp only [Except.ok.injEq, Prod.mk.injEq] at hst
    obtain ⟨e1, e2⟩ := hst
    have hinv : Inv NoT L (attrState s tgt i) := h.modInode tgt _ (fun _ => rfl) (fun _ => Nat.le_refl _)
    refine ⟨i, hi, by rw [hti]; simp, hinv, ?_⟩
    generalize hs' : attrState s tgt i = s' at hinv
    have hseq : s'.db.seq = s.db.seq := by rw [← hs']; exact (modInode_rest _ _ _).2.2.2.2.2.2
    have hsrc : AL.get s'.db.inodes src ≠ none := by
      rw [← hs']
      show AL.get (s.db.modInode tgt _).inodes src ≠ none
      rw [modInode_get]
      split
      · rw [hti]; simp
      · rw [hi]; simp
    have e1' : s1 = { s' with db := { s'.db with seq := s'.db.seq + 1, inodes := AL.set s'.db.inodes (s'.db.seq + 1) ⟨0, 0, 0, now, now, now, 0, 0, 0, false⟩ } } := by
      rw [← e1, ← hs']; rfl
    rw [← hseq]
    have e2' : w1 = ⟨none, [(src, s'.db.seq + 1, 0)], []⟩ := by
      rw [← e2, ← hs']; rfl
    clear e1 e2
    subst e2'
    have hfr := hinv.acc.fresh (i := s'.db.seq + 1) (by omega)
    obtain ⟨g1, g2, g3, g4, g5⟩ := hfr
    replace g5 := g5 (fun h => h)
    have hsl := hinv.acc.seq src hsrc
    simp only [Option.toList_none, List.nil_append]
    have hM : ∀ x y, AL.get [(src, s'.db.seq + 1)] x = some y ↔ x = src ∧ y = s'.db.seq + 1 := by
      intro x y
      simp only [AL.get]
      constructor
      · intro hx; split at hx
        · rename_i e; cases hx; exact ⟨e.symm, rfl⟩
        · cases hx
      · rintro ⟨rfl, rfl⟩; rw [if_pos rfl]
    subst e1'
    constructor
    · have a1 := hinv.acc.newInode ⟨0, 0, 0, now, now, now, 1, 0, 0, false⟩ rfl
      have a2 := a1.congr (δ' := fun i => if i = s'.db.seq + 1 then 1 else 0) (L' := L) (by intro x; simp only [bump]; omega) (fun _ => rfl)
      have a3 := a2.congrI (ino := tI (AL.set s'.db.inodes (s'.db.seq + 1) ⟨0, 0, 0, now, now, now, 0, 0, 0, false⟩) (s'.db.seq + 1))
        (nk_tI (hinv.acc.nkI.set _ _) _) (by
          intro x
          rw [get_tI, AL.get_set, AL.get_set]
          show _ = AL.get (AL.set _ _ _) x
          rw [AL.get_set]
          split
          · rw [if_pos rfl]; rfl
          · rfl)
      rw [tdb_eq]
      exact a3
    · exact ⟨_, AL.get_set_self _ _ _, rfl⟩
    · exact ⟨g2, g3, g4⟩
    · rfl
    · rfl
    · rfl
    · exact Nat.le_refl _
    · intro x hx; show AL.get (AL.set _ _ _) x = _; rw [AL.get_set_ne _ _ (by omega)]
    · intro _ _ _; rfl
    · intro _ _ _; rfl
    · intro _ _; rfl
    · intro _ _ _ _; rfl
    · intro _; rfl
    · unfold AL.NK; simp
    · intro x y z hx hy; rw [hM] at hx hy; rw [hx.1, hy.1]
    · rw [hM]; exact ⟨rfl, rfl⟩
    · intro x y hx hxs; rw [hM] at hx; exact absurd hx.1 hxs
    · intro x y hx; rw [hM] at hx; rw [hx.1]; exact ⟨DbBelow.refl, by omega⟩
    · intro y hy1 hy2
      have : y ≤ s'.db.seq + 1 := hy2
      omega
    · intro x y hx hxs; rw [hM] at hx; exact absurd hx.1 hxs
    · intro x y k z hx hz
      rw [hM] at hx
      rw [hx.2] at hz
      have := g5 k
      rw [show AL.get s'.db.contents (s'.db.seq + 1, k) = some z from hz] at this
      cases this
    · intro x y k z hx hz
      rw [hM] at hx
      exact Or.inr ⟨0, by rw [hx.1, hx.2]; simp, Nat.zero_le _⟩
    · intro x y lo hm
      rw [List.mem_singleton] at hm
      cases hm
      exact ⟨by rw [hM]; exact ⟨rfl, rfl⟩, fun k _ => g5 k⟩
    · simp
    · intro x y hx hxs; rw [hM] at hx; exact absurd hx.1 hxs
    · intro x y hx; cases hx
    · intro x y hx hxs; rw [hM] at hx; exact absurd hx.1 hxs
  · cases hst

/-! #### The end -/

/-- `UPDATE contents SET parent_inode=? WHERE parent_inode=?`. -/
def moveRows (l : List ((Nat × Nat) × Nat)) (tmp tgt : Nat) : List ((Nat × Nat) × Nat) :=
  l.map (fun e => if e.1.1 = tmp then ((tgt, e.1.2), e.2) else e)

theorem mem_moveRows {l : List ((Nat × Nat) × Nat)} {tmp tgt p k c : Nat} (ht : tgt ≠ tmp) :
    ((p, k), c) ∈ moveRows l tmp tgt ↔ (p ≠ tmp ∧ ((p, k), c) ∈ l) ∨ (p = tgt ∧ ((tmp, k), c) ∈ l) := by
  unfold moveRows
  rw [List.mem_map]
  constructor
  · rintro ⟨⟨⟨a, b⟩, v⟩, hm, he⟩
    simp only at he
    split at he
    · rename_i e; cases he; right; exact ⟨rfl, by rw [← e]; exact hm⟩
    · rename_i e; cases he; left; exact ⟨e, hm⟩
  · rintro (⟨h1, h2⟩ | ⟨h1, h2⟩)
    · exact ⟨_, h2, by simp only; rw [if_neg h1]⟩
    · exact ⟨_, h2, by simp only [if_true]; rw [h1]⟩

theorem nk_moveRows {l : List ((Nat × Nat) × Nat)} (h : AL.NK l) {tmp tgt : Nat}
    (hn : ∀ k, AL.get l (tmp, k) ≠ none → AL.get l (tgt, k) = none) : AL.NK (moveRows l tmp tgt) := by
  unfold AL.NK at *
  unfold moveRows
  rw [List.map_map]
  have hp : l.Pairwise (fun a b => a.1 ≠ b.1) := by
    unfold List.Nodup at h; rwa [List.pairwise_map] at h
  have hg : ∀ e ∈ l, AL.get l e.1 = some e.2 := fun e he => AL.mem_get_some (by unfold AL.NK; exact h) he
  unfold List.Nodup
  rw [List.pairwise_map]
  refine List.Pairwise.imp_of_mem ?_ hp
  rintro ⟨⟨a, b⟩, v⟩ ⟨⟨a', b'⟩, v'⟩ h1 h2 hne
  have g1 := hg _ h1
  have g2 := hg _ h2
  simp only [Function.comp] at *
  split <;> split
  · rename_i e1 e2
    intro e; simp only [Prod.mk.injEq] at e; apply hne; rw [e1, e2, e.2]
  · rename_i e1 e2
    intro e; simp only [Prod.mk.injEq] at e
    rw [e1, e.2] at g1; rw [← e.1] at g2
    rw [hn b' (by rw [g1]; simp)] at g2; cases g2
  · rename_i e1 e2
    intro e; simp only [Prod.mk.injEq] at e
    rw [e2, ← e.2] at g2; rw [e.1] at g1
    rw [hn b (by rw [g2]; simp)] at g1; cases g1
  · exact hne

theorem get_moveRows {l : List ((Nat × Nat) × Nat)} (h : AL.NK l) {tmp tgt : Nat} (ht : tgt ≠ tmp)
    (hn : ∀ k, AL.get l (tmp, k) ≠ none → AL.get l (tgt, k) = none) (p k : Nat) :
    AL.get (moveRows l tmp tgt) (p, k) = if p = tmp then none else if p = tgt then (AL.get l (tmp, k)).or (AL.get l (tgt, k)) else AL.get l (p, k) := by
  have hk := nk_moveRows h hn
  have hiff : ∀ c, AL.get (moveRows l tmp tgt) (p, k) = some c ↔ (p ≠ tmp ∧ AL.get l (p, k) = some c) ∨ (p = tgt ∧ AL.get l (tmp, k) = some c) := by
    intro c
    constructor
    · intro hc
      rcases (mem_moveRows ht).1 (AL.get_some_mem hc) with h1 | h1
      · exact Or.inl ⟨h1.1, AL.mem_get_some h h1.2⟩
      · exact Or.inr ⟨h1.1, AL.mem_get_some h h1.2⟩
    · intro hc
      apply AL.mem_get_some hk
      rw [mem_moveRows ht]
      exact hc.imp (fun h1 => ⟨h1.1, AL.get_some_mem h1.2⟩) (fun h1 => ⟨h1.1, AL.get_some_mem h1.2⟩)
  apply Option.ext
  intro c
  rw [hiff]
  by_cases h1 : p = tmp
  · rw [if_pos h1]
    constructor
    · rintro (h2 | h2)
      · exact absurd h1 h2.1
      · exact absurd (h2.1.symm.trans h1) ht
    · intro e; cases e
  · rw [if_neg h1]
    by_cases h2 : p = tgt
    · rw [if_pos h2, h2]
      cases hg : AL.get l (tmp, k) with
      | none => simp [ht]
      | some v => rw [hn k (by rw [hg]; simp)]; simp
    · rw [if_neg h2]; simp [h1, h2]

theorem sumBy_moveRows (f : Nat × Nat → Nat → Int) (l : List ((Nat × Nat) × Nat)) (tmp tgt : Nat)
    (hf : ∀ k c, f (tmp, k) c = f (tgt, k) c) : AL.sumBy f (moveRows l tmp tgt) = AL.sumBy f l := by
  unfold moveRows
  induction l with
  | nil => rfl
  | cons e t ih =>
    obtain ⟨⟨a, b⟩, v⟩ := e
    rw [List.map_cons]
    by_cases h : a = tmp
    · simp only [h, if_true, AL.sumBy, ih, hf]
    · simp only [h, if_false, AL.sumBy, ih]

/-- Bookkeeping of the end of `copy_tree`. -/
theorem accEnd {m : Nat} {db : Db} {L : Nat → Int} {tmp tgt : Nat} (h : Acc NoT m (tdb db tmp) (fun i => if i = tmp then 1 else 0) L)
    (hi : ∃ a, AL.get db.inodes tmp = some a ∧ a.refcount = 0)
    (hx : (∀ k, AL.get db.xattrs (tmp, k) = none) ∧ (∀ k, AL.get db.blocks (tmp, k) = none) ∧ AL.get db.symlinks tmp = none)
    (ht : tgt ≠ tmp) (hr : 0 < db.rc tgt) (hn : ∀ k, AL.get db.contents (tmp, k) ≠ none → AL.get db.contents (tgt, k) = none) :
    Acc NoT m { db with contents := moveRows db.contents tmp tgt, inodes := AL.erase db.inodes tmp } (fun _ => 0) L := by
  have hrcT : ∀ i, (tdb db tmp).rc i = if i = tmp then 1 else db.rc i := by
    intro i
    obtain ⟨a, ha, _⟩ := hi
    by_cases e : i = tmp
    · rw [if_pos e, tdb_eq]; unfold Db.rc
      show ((AL.get (tI db.inodes tmp) i).map _).getD 0 = _
      rw [get_tI, if_pos e, ha]; rfl
    · rw [if_neg e, tdb_rc _ _ _ e]
  have hrcE : ∀ i, ({ db with contents := moveRows db.contents tmp tgt, inodes := AL.erase db.inodes tmp } : Db).rc i = if i = tmp then 0 else db.rc i := by
    intro i
    unfold Db.rc
    simp only [AL.get_erase]
    split
    · rfl
    · rfl
  have hget := fun p k => get_moveRows (l := db.contents) (by have := h.nkC; rw [tdb_eq] at this; exact this) ht hn p k
  have hnk := nk_moveRows (l := db.contents) (by have := h.nkC; rw [tdb_eq] at this; exact this) hn
  have hrc := h.rc
  have hpar := h.par
  simp only [hrcT] at hrc hpar
  rw [tdb_eq] at h hrc hpar
  constructor
  · exact (nk_of_tI h.nkI).erase _
  · exact h.nkN
  · exact hnk
  · exact h.nkX
  · exact h.nkS
  · exact h.nkB
  · exact h.nkO
  · exact h.nuniq
  · intro i
    rw [hrcE]
    have h1 := hrc i
    have h2 : ({ db with contents := moveRows db.contents tmp tgt, inodes := AL.erase db.inodes tmp } : Db).links i = db.links i :=
      sumBy_moveRows _ _ _ _ (fun _ _ => rfl)
    rw [h2]
    have h3 : db.links i = (({ db with inodes := tI db.inodes tmp } : Db)).links i := rfl
    rw [h3]
    by_cases e : i = tmp
    · rw [if_pos e]; rw [if_pos e, if_pos e] at h1; omega
    · rw [if_neg e]; rw [if_neg e, if_neg e] at h1; exact h1
  · intro k
    have h1 := h.nr k
    have h2 : ({ db with contents := moveRows db.contents tmp tgt, inodes := AL.erase db.inodes tmp } : Db).usesC k = db.usesC k :=
      sumBy_moveRows _ _ _ _ (fun _ _ => rfl)
    rw [h2]; exact h1
  · exact h.npos
  · intro p k c hc
    rw [hrcE]
    have hg := hget p k
    rw [show AL.get (moveRows db.contents tmp tgt) (p, k) = some c from hc] at hg
    split
    · rename_i e; rw [if_pos e] at hg; cases hg
    · rename_i e
      rw [if_neg e] at hg
      split at hg
      · rename_i e2; rw [e2]; exact Or.inl hr
      · have := hpar p k c hg.symm
        rw [if_neg e] at this; exact this
  · intro i k v hv
    have h1 := h.xin i k v hv
    have hne : i ≠ tmp := by intro e; rw [e] at hv; have := hx.1 k; rw [show AL.get db.xattrs (tmp, k) = some v from hv] at this; cases this
    show AL.get (AL.erase db.inodes tmp) i ≠ none
    rw [AL.get_erase_ne _ hne]
    have h1 : AL.get (tI db.inodes tmp) i ≠ none := h1
    rw [get_tI, if_neg hne] at h1; exact h1
  · intro i v hv
    have h1 := h.sin i v hv
    have hne : i ≠ tmp := by intro e; rw [e] at hv; have := hx.2.2; rw [show AL.get db.symlinks tmp = some v from hv] at this; cases this
    show AL.get (AL.erase db.inodes tmp) i ≠ none
    rw [AL.get_erase_ne _ hne]
    have h1 : AL.get (tI db.inodes tmp) i ≠ none := h1
    rw [get_tI, if_neg hne] at h1; exact h1
  · intro i b o hb
    obtain ⟨ino, h1, h2⟩ := h.bin i b o hb
    have hne : i ≠ tmp := by intro e; rw [e] at hb; have := hx.2.1 b; rw [show AL.get db.blocks (tmp, b) = some o from hb] at this; cases this
    refine ⟨ino, ?_, h2⟩
    show AL.get (AL.erase db.inodes tmp) i = _
    rw [AL.get_erase_ne _ hne]
    have h1 : AL.get (tI db.inodes tmp) i = some ino := h1
    rw [get_tI, if_neg hne] at h1; exact h1
  · exact h.orc
  · exact h.opos
  · intro i hi
    have hi : AL.get (AL.erase db.inodes tmp) i ≠ none := hi
    rw [AL.get_erase] at hi
    split at hi
    · exact absurd rfl hi
    · rename_i e
      exact h.seq i (by show AL.get (tI db.inodes tmp) i ≠ none; rw [get_tI, if_neg e]; exact hi)

set_option maxHeartbeats 1000000 in
/-- What `copy_tree` does to the tables. -/
theorem CpTree.spec {L : Nat → Int} {s s' : St} {src tgt : Nat} (hr : CpTree s src tgt s') (h : Inv NoT L s)
    (hcyc : ∀ d n, DbBelow s src d → s.db.child d n ≠ some src) (hrt : 0 < s.db.rc tgt) :
    s.failsafe = false ∧ Inv NoT L s' ∧ s'.opened = s.opened ∧ s'.failsafe = s.failsafe ∧ s'.maxObj = s.maxObj ∧ s.db.seq ≤ s'.db.seq ∧
    (∀ i, i ≤ s.db.seq → i ≠ tgt → AL.get s'.db.inodes i = AL.get s.db.inodes i) ∧
    (∃ a t, AL.get s.db.inodes src = some a ∧ AL.get s.db.inodes tgt = some t ∧ AL.get s'.db.inodes tgt =
      some { t with atime := a.atime, ctime := a.ctime, mtime := a.mtime, mode := a.mode, uid := a.uid, gid := a.gid }) ∧
    (∀ p n, p ≤ s.db.seq → p ≠ tgt → s'.db.child p n = s.db.child p n) ∧
    (∀ i n, i ≤ s.db.seq → s'.db.xval i n = s.db.xval i n) ∧
    (∀ i, i ≤ s.db.seq → AL.get s'.db.symlinks i = AL.get s.db.symlinks i) ∧
    (∀ i k, i ≤ s.db.seq → AL.get s.opened i = none → AL.get s'.db.blocks (i, k) = AL.get s.db.blocks (i, k)) ∧
    ∃ φ : Nat → Nat, φ src = tgt ∧
      (∀ d, DbBelow s src d → d ≠ src → s.db.seq < φ d ∧ ∃ a b, AL.get s'.db.inodes d = some a ∧ AL.get s'.db.inodes (φ d) = some b ∧
        CopyOf a b ∧ (∀ n, s'.db.xval (φ d) n = s'.db.xval d n) ∧ AL.get s'.db.symlinks (φ d) = AL.get s'.db.symlinks d ∧
        (∀ k, AL.get s'.db.blocks (φ d, k) = AL.get s'.db.blocks (d, k))) ∧
      (∀ d e, DbBelow s src d → DbBelow s src e → φ d = φ e → d = e) ∧
      (∀ d n, DbBelow s src d → d ≠ src → s'.db.child (φ d) n = (s.db.child d n).map φ) ∧
      (∀ n, s'.db.child tgt n = ((s.db.child src n).map φ).or (s.db.child tgt n)) ∧
      (∀ i, s.db.seq < i → AL.get s'.db.inodes i ≠ none → ∃ d, DbBelow s src d ∧ d ≠ src ∧ i = φ d) := by
  obtain ⟨hst, hrun, hcur, hq, hend⟩ := hr
  rename_i now s1 s2 w1 w2
  obtain ⟨hfs, i, hi, hti, hinv, hcp⟩ := Cp.start h hst
  obtain ⟨t, ht⟩ := Option.ne_none_iff_exists'.1 hti
  generalize hs0 : attrState s tgt i = s0 at hinv hcp
  have hseq : s0.db.seq = s.db.seq := by rw [← hs0]; exact (modInode_rest _ _ _).2.2.2.2.2.2
  have hC0 : s0.db.contents = s.db.contents := by rw [← hs0]; exact (modInode_rest _ _ _).2.1
  have hch0 : ∀ p n, s0.db.child p n = s.db.child p n := by intro p n; rw [← hs0]; exact modInode_child _ _ _ _ _
  have hN0 : s0.db.names = s.db.names := by rw [← hs0]; exact (modInode_rest _ _ _).1
  have hop0 : s0.opened = s.opened := by rw [← hs0]; rfl
  have hfs0 : s0.failsafe = s.failsafe := by rw [← hs0]; rfl
  have hmx0 : s0.maxObj = s.maxObj := by rw [← hs0]; rfl
  have hX0 : s0.db.xattrs = s.db.xattrs := by rw [← hs0]; show (s.db.modInode _ _).xattrs = _; unfold Db.modInode; split <;> rfl
  have hS0 : s0.db.symlinks = s.db.symlinks := by rw [← hs0]; show (s.db.modInode _ _).symlinks = _; unfold Db.modInode; split <;> rfl
  have hB0 : s0.db.blocks = s.db.blocks := by rw [← hs0]; show (s.db.modInode _ _).blocks = _; unfold Db.modInode; split <;> rfl
  have hI0 : ∀ x, AL.get s0.db.inodes x = if x = tgt then some { t with atime := i.atime, ctime := i.ctime, mtime := i.mtime, mode := i.mode, uid := i.uid, gid := i.gid } else AL.get s.db.inodes x := by
    intro x; rw [← hs0]; show AL.get (s.db.modInode _ _).inodes x = _; rw [modInode_get, ht]; rfl
  have hbel : ∀ d, DbBelow s0 src d ↔ DbBelow s src d := by
    intro d
    constructor
    · intro hd; induction hd with
      | refl => exact DbBelow.refl
      | entry _ hc ih => exact ih.entry (by rw [← hch0]; exact hc)
    · intro hd; induction hd with
      | refl => exact DbBelow.refl
      | entry _ hc ih => exact ih.entry (by rw [hch0]; exact hc)
  have hcyc0 : ∀ d k, DbBelow s0 src d → AL.get s0.db.contents (d, k) ≠ some src := by
    intro d k hd hc
    obtain ⟨n, hn⟩ := hinv.acc.nm_of_C (hinv.Lnn k) hc
    exact hcyc d n ((hbel d).1 hd) (by rw [← hch0]; exact (hinv.acc.child_iff _ _ _).2 ⟨k, hn, hc⟩)
  obtain ⟨c, w, M, e, hcp⟩ := Cp.run hrun hcp hinv (by rw [hseq]) hcyc0
  cases e
  rw [hcur, hq] at hcp
  simp only [Option.toList_none, List.nil_append] at hcp
  have htl : tgt ≤ s.db.seq := h.acc.seq tgt hti
  -- the end
  unfold copyEnd at hend
  split at hend
  · cases hend
  rename_i hconf
  have hnk := hcp.nkC
  have hn : ∀ k, AL.get s2.db.contents (s.db.seq + 1, k) ≠ none → AL.get s2.db.contents (tgt, k) = none := by
    intro k hk
    obtain ⟨v, hv⟩ := Option.ne_none_iff_exists'.1 hk
    cases hg : AL.get s2.db.contents (tgt, k) with
    | none => rfl
    | some x =>
      exfalso; apply hconf
      rw [List.any_eq_true]
      exact ⟨_, AL.get_some_mem hv, by simp [hg]⟩
  have hrt2 : 0 < s2.db.rc tgt := by
    unfold Db.rc
    rw [hcp.oldI _ (by omega), hI0, if_pos rfl]
    unfold Db.rc at hrt; rw [ht] at hrt; exact hrt
  have hacc := accEnd hcp.acc hcp.tmpI hcp.tmpX (by omega) hrt2 hn
  have hget := fun p k => get_moveRows hnk (tmp := s.db.seq + 1) (tgt := tgt) (by omega) hn p k
  simp only [Option.some.injEq] at hend
  have hend : { s2 with db := { s2.db with contents := moveRows s2.db.contents (s.db.seq + 1) tgt, inodes := AL.erase s2.db.inodes (s.db.seq + 1) } } = s' := hend
  have eC : s'.db.contents = moveRows s2.db.contents (s.db.seq + 1) tgt := by rw [← hend]
  have eI : ∀ x, AL.get s'.db.inodes x = if x = s.db.seq + 1 then none else AL.get s2.db.inodes x := by
    intro x; rw [← hend]; exact AL.get_erase _ _ _
  have eX : s'.db.xattrs = s2.db.xattrs := by rw [← hend]
  have eS : s'.db.symlinks = s2.db.symlinks := by rw [← hend]
  have eB : s'.db.blocks = s2.db.blocks := by rw [← hend]
  have eQ : s'.db.seq = s2.db.seq := by rw [← hend]
  have eO : s'.opened = s.opened := by rw [← hend, ← hop0]; exact hcp.opened
  have eF : s'.failsafe = s.failsafe := by rw [← hend, ← hfs0]; exact hcp.fs
  have eM : s'.maxObj = s.maxObj := by rw [← hend, ← hmx0]; exact hcp.mx
  have eN : ∀ k, s'.db.nm k = s.db.nm k := by
    intro k
    have h1 : s'.db.nm k = s2.db.nm k := by rw [← hend]; rfl
    rw [h1, hcp.nm]; unfold Db.nm; rw [hN0]
  have hacc' : Acc NoT s'.maxObj s'.db (fun _ => 0) L := by
    rw [eM, ← hmx0, ← hend]; exact hacc
  clear hend hconf hacc hst hrun
  have htseq := hcp.seq
  have hold : ∀ x, x ≤ s.db.seq → AL.get s'.db.inodes x = AL.get s0.db.inodes x := by
    intro x hx; rw [eI, if_neg (by omega), hcp.oldI x (by omega)]
  have hinv' : Inv NoT L s' := by
    refine ⟨hacc', by rw [eM]; exact h.mpos, h.Lnn, by rw [eO]; exact h.nkOp, ?_, ?_, fun _ h => h.elim⟩
    · intro x cc hx
      rw [eO] at hx
      have h1 := h.opn x cc hx
      refine ⟨?_, h1.2⟩
      rw [hold x (h.acc.seq x h1.1), hI0]
      split
      · simp
      · exact h1.1
    · intro x ino hx hz
      rw [eO]
      have hxs := hacc'.seq x (by rw [hx]; simp)
      by_cases hx1 : x ≤ s.db.seq
      · rw [hold x hx1, hI0] at hx
        split at hx
        · rename_i e; cases hx
          rw [e]
          unfold Db.rc at hrt; rw [ht] at hrt
          have hz : t.refcount = 0 := hz
          simp [hz] at hrt
        · exact h.zero x ino hx hz
      · exfalso
        rw [eI] at hx
        split at hx
        · cases hx
        · rename_i e
          obtain ⟨j, hj, hjs⟩ := hcp.mAll x (by omega) (by rw [← eQ]; exact hxs)
          obtain ⟨a, b, _, hb, _, hp, _⟩ := hcp.copy j x hj hjs
          rw [hb] at hx; cases hx; omega
  have hall : ∀ d, DbBelow s src d → AL.get M d ≠ none := by
    intro d hd
    induction hd with
    | refl => rw [hcp.mSrc]; simp
    | @entry b x n hb hc ih =>
      obtain ⟨b', hb'⟩ := Option.ne_none_iff_exists'.1 ih
      rw [← hch0] at hc
      obtain ⟨k, hk, hkc⟩ := (hinv.acc.child_iff _ _ _).1 hc
      rcases hcp.todo b b' k x hb' hkc with h1 | ⟨lo, h1, _⟩
      · obtain ⟨y, hy⟩ := Option.ne_none_iff_exists'.1 h1
        obtain ⟨z, hz1, hz2, _⟩ := hcp.ent b b' k y hb' hy
        rw [hkc] at hz1; cases hz1
        rw [hz2]; simp
      · cases h1
  have hφ : ∀ d, DbBelow s src d → d ≠ src → AL.get M d = some ((fun x => if x = src then tgt else (AL.get M x).getD 0) d) := by
    intro d hd hne
    obtain ⟨y, hy⟩ := Option.ne_none_iff_exists'.1 (hall d hd)
    simp only [hne, if_false, hy]; rfl
  generalize hphi : (fun x => if x = src then tgt else (AL.get M x).getD 0) = φ at hφ
  have hφs : φ src = tgt := by rw [← hphi]; simp
  have hnew : ∀ d, DbBelow s src d → d ≠ src → s.db.seq + 1 < φ d ∧ φ d ≤ s2.db.seq := by
    intro d hd hne
    exact hcp.mNew d (φ d) (hφ d hd hne) hne
  have hxv : ∀ x y n, (∀ k, AL.get s'.db.xattrs (x, k) = AL.get s'.db.xattrs (y, k)) → s'.db.xval x n = s'.db.xval y n := by
    intro x y n hk
    unfold Db.xval
    cases s'.db.nameId n with
    | none => rfl
    | some k => exact hk k
  -- entries of the copies
  have hcopyC : ∀ d k v, DbBelow s src d → (AL.get s2.db.contents ((if d = src then s.db.seq + 1 else φ d), k) = some v ↔
      ∃ x, AL.get s.db.contents (d, k) = some x ∧ φ x = v) := by
    intro d k v hd
    have hMd : AL.get M d = some (if d = src then s.db.seq + 1 else φ d) := by
      by_cases e : d = src
      · rw [if_pos e, e, hcp.mSrc]
      · rw [if_neg e]; exact hφ d hd e
    constructor
    · intro hv
      obtain ⟨x, hx, hxm, hxs⟩ := hcp.ent d _ k v hMd hv
      have hx1 := hx
      rw [hC0] at hx1
      refine ⟨x, hx1, ?_⟩
      obtain ⟨n, hn⟩ := h.acc.nm_of_C (h.Lnn k) hx1
      have hxb : DbBelow s src x := hd.entry ((h.acc.child_iff _ _ _).2 ⟨k, hn, hx1⟩)
      have := hφ x hxb hxs
      rw [hxm] at this; cases this; rfl
    · rintro ⟨x, hx, hxv⟩
      rcases hcp.todo d _ k x hMd (by rw [hC0]; exact hx) with h1 | ⟨lo, h1, _⟩
      · obtain ⟨y, hy⟩ := Option.ne_none_iff_exists'.1 h1
        obtain ⟨z, hz1, hz2, hz3⟩ := hcp.ent d _ k y hMd hy
        rw [hC0, hx] at hz1; cases hz1
        obtain ⟨n, hn⟩ := h.acc.nm_of_C (h.Lnn k) hx
        have hxb : DbBelow s src x := hd.entry ((h.acc.child_iff _ _ _).2 ⟨k, hn, hx⟩)
        have := hφ x hxb hz3
        rw [hz2] at this; cases this
        rw [hy, hxv]
      · cases h1
  refine ⟨hfs, hinv', eO, eF, eM, by omega, ?_, ?_, ?_, ?_, ?_, ?_, φ, hφs, ?_, ?_, ?_, ?_, ?_⟩
  · intro x hx hxt; rw [hold x hx, hI0, if_neg hxt]
  · exact ⟨i, t, hi, ht, by rw [hold tgt htl, hI0, if_pos rfl]⟩
  · intro p n hp hpt
    apply Option.ext
    intro v
    rw [hacc'.child_iff, h.acc.child_iff]
    simp only [eN, eC, hget, if_neg (show p ≠ s.db.seq + 1 by omega), if_neg hpt]
    simp only [hcp.oldC p _ (show p < s.db.seq + 1 by omega), hC0]
  · intro x n hx
    apply Option.ext
    intro v
    rw [hacc'.xval_iff, h.acc.xval_iff]
    simp only [eN, eX, hcp.oldX x _ (show x < s.db.seq + 1 by omega), hX0]
  · intro x hx; rw [eS, hcp.oldS x (by omega), hS0]
  · intro x k hx ho; rw [eB, hcp.oldB x k (by omega) (by rw [hop0]; exact ho), hB0]
  · intro d hd hne
    have hb := hnew d hd hne
    obtain ⟨a, b, ha, hb', hc, _, hx, hsy, hbl⟩ := hcp.copy d (φ d) (hφ d hd hne) hne
    have hdl := (hcp.mBelow _ _ (hφ d hd hne)).2
    refine ⟨by omega, a, b, by rw [eI, if_neg (by omega)]; exact ha, by rw [eI, if_neg (by omega)]; exact hb', hc, ?_, by rw [eS]; exact hsy, by rw [eB]; exact hbl⟩
    intro n
    exact hxv _ _ n (by rw [eX]; exact hx)
  · intro d e hd he hde
    by_cases h1 : d = src
    · by_cases h2 : e = src
      · rw [h1, h2]
      · have := hnew e he h2
        rw [h1, hφs] at hde; omega
    · by_cases h2 : e = src
      · have := hnew d hd h1
        rw [h2, hφs] at hde; omega
      · exact hcp.mInj _ _ (φ d) (hφ d hd h1) (by rw [hde]; exact hφ e he h2)
  · intro d n hd hne
    have hb := hnew d hd hne
    apply Option.ext
    intro v
    rw [hacc'.child_iff, Option.map_eq_some_iff]
    simp only [eN, eC, hget, if_neg (show φ d ≠ s.db.seq + 1 by omega), if_neg (show φ d ≠ tgt by omega), h.acc.child_iff]
    have := fun k => hcopyC d k v hd
    simp only [if_neg hne] at this
    simp only [this]
    constructor
    · rintro ⟨k, hk, x, hx, hv⟩; exact ⟨x, ⟨k, hk, hx⟩, hv⟩
    · rintro ⟨x, ⟨k, hk, hx⟩, hv⟩; exact ⟨k, hk, x, hx, hv⟩
  · intro n
    have hsrcC : ∀ k v, AL.get s2.db.contents (s.db.seq + 1, k) = some v ↔ ∃ x, AL.get s.db.contents (src, k) = some x ∧ φ x = v := by
      intro k v
      have := hcopyC src k v DbBelow.refl
      simp only [if_true] at this; exact this
    have hor : ∀ k, AL.get s'.db.contents (tgt, k) = ((AL.get s.db.contents (src, k)).map φ).or (AL.get s.db.contents (tgt, k)) := by
      intro k
      rw [eC, hget, if_neg (by omega), if_pos rfl, hcp.oldC tgt k (by omega), hC0]
      congr 1
      apply Option.ext
      intro v
      rw [hsrcC, Option.map_eq_some_iff]
    have hnid : s'.db.nameId n = s.db.nameId n := by
      apply Option.ext
      intro k
      rw [hacc'.nameId_iff, h.acc.nameId_iff, eN]
    unfold Db.child
    rw [hnid]
    cases s.db.nameId n with
    | none => rfl
    | some k => simp only [Option.bind_some]; exact hor k
  · intro x hx hex
    have hxs := hacc'.seq x hex
    have hne : x ≠ s.db.seq + 1 := by
      intro e; rw [eI, if_pos e] at hex; exact hex rfl
    obtain ⟨d, hd, hds⟩ := hcp.mAll x (by omega) (by omega)
    have hdb := (hbel d).1 (hcp.mBelow d x hd).1
    refine ⟨d, hdb, hds, ?_⟩
    have := hφ d hdb hds
    rw [hd] at this; cases this; rfl

end Verif.Fs
