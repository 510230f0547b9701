/-
The pieces of `copy_tree` (fs.py:504-638) in histories with several of them: each keeps the invariant.
-/
import Verif.Fs.TreeMix3

namespace Verif.Fs

variable {T : Nat → Prop}

/-! #### The list of commands -/

theorem running_set {J1 J2 : List Job} {src tgt tmp : Nat} {pc pc' : CpPc} (h : pc ≠ .done) (h' : pc' ≠ .done) :
    Running (J1 ++ ⟨src, tgt, tmp, pc'⟩ :: J2) = Running (J1 ++ ⟨src, tgt, tmp, pc⟩ :: J2) := by
  funext t
  apply propext
  unfold Running
  simp only [List.mem_append, List.mem_cons]
  constructor
  · rintro ⟨j, hj | rfl | hj, h1, h2⟩
    · exact ⟨j, Or.inl hj, h1, h2⟩
    · exact ⟨_, Or.inr (Or.inl rfl), h1, h⟩
    · exact ⟨j, Or.inr (Or.inr hj), h1, h2⟩
  · rintro ⟨j, hj | rfl | hj, h1, h2⟩
    · exact ⟨j, Or.inl hj, h1, h2⟩
    · exact ⟨_, Or.inr (Or.inl rfl), h1, h'⟩
    · exact ⟨j, Or.inr (Or.inr hj), h1, h2⟩

theorem mem_mid {J1 J2 : List Job} {j : Job} (x : Job) : x ∈ J1 ++ j :: J2 ↔ x = j ∨ x ∈ J1 ∨ x ∈ J2 := by
  simp only [List.mem_append, List.mem_cons]
  constructor
  · rintro (h | h | h)
    · exact Or.inr (Or.inl h)
    · exact Or.inl h
    · exact Or.inr (Or.inr h)
  · rintro (h | h | h)
    · exact Or.inr (Or.inl h)
    · exact Or.inl h
    · exact Or.inr (Or.inr h)

theorem jobOk_crashed (s : St) (H : Nat → Prop) (tmp : Nat) : JobOk s H tmp .crashed :=
  ⟨fun _ _ h => (by cases h), fun _ _ _ h => (by cases h), List.nodup_nil⟩

theorem jobOk_done (s : St) (H : Nat → Prop) (tmp : Nat) : JobOk s H tmp .done :=
  ⟨fun _ _ h => (by cases h), fun _ _ _ h => (by cases h), List.nodup_nil⟩

/-- A command goes on without any effect on the database. -/
theorem JobsInv.pc {repl fail : Bool} {s : St} {K : Nat → Int} {J1 J2 : List Job} {src tgt tmp : Nat} {pc pc' : CpPc} {L : Nat → Int} {H : Nat → Nat → Prop}
    (g : JobsInv repl fail s K (J1 ++ ⟨src, tgt, tmp, pc⟩ :: J2) L H) (h : pc ≠ .done) (h' : pc' ≠ .done) (hj : JobOk s (H tmp) tmp pc') :
    JobsInv repl fail s K (J1 ++ ⟨src, tgt, tmp, pc'⟩ :: J2) L H := by
  have hR := running_set (J1 := J1) (J2 := J2) (src := src) (tgt := tgt) (tmp := tmp) h h'
  refine ⟨by rw [hR]; exact g.inv, g.res, g.exact, g.le, g.eq, by rw [hR]; exact g.hid, by rw [hR]; exact g.disj, ?_, ?_, ?_, ?_⟩
  · have := g.nodup
    rw [List.map_append, List.map_cons] at this ⊢
    exact this
  · intro x hx
    rcases (mem_mid x).1 hx with rfl | hx
    · exact g.seq ⟨src, tgt, tmp, pc⟩ ((mem_mid _).2 (Or.inl rfl))
    · exact g.seq x ((mem_mid _).2 (Or.inr hx))
  · rw [hR]
    intro x hx
    rcases (mem_mid x).1 hx with rfl | hx
    · exact g.tgt ⟨src, tgt, tmp, pc⟩ ((mem_mid _).2 (Or.inl rfl))
    · exact g.tgt x ((mem_mid _).2 (Or.inr hx))
  · intro x hx
    rcases (mem_mid x).1 hx with rfl | hx
    · exact hj
    · exact g.jobs x ((mem_mid _).2 (Or.inr hx))

theorem running_mid {J1 J2 : List Job} {src tgt tmp : Nat} {pc : CpPc} (h : pc ≠ .done) : Running (J1 ++ ⟨src, tgt, tmp, pc⟩ :: J2) tmp :=
  ⟨_, (mem_mid _).2 (Or.inl rfl), rfl, h⟩

/-! #### Handling a row -/

/-- What `copyRow` does. -/
structure RowEff (T : Nat → Prop) (L : Nat → Int) (s s1 : St) (id new : Nat) : Prop where
  acc : Acc T s1.maxObj s1.db (bump (fun _ => 0) new 1) L
  mx : s1.maxObj = s.maxObj
  op : s1.opened = s.opened
  con : s1.db.contents = s.db.contents
  nm : ∀ k, s1.db.nm k = s.db.nm k
  ino : ∀ i, i ≠ new → AL.get s1.db.inodes i = AL.get s.db.inodes i
  xat : ∀ i k, i ≠ new → AL.get s1.db.xattrs (i, k) = AL.get s.db.xattrs (i, k)
  sym : ∀ i, i ≠ new → AL.get s1.db.symlinks i = AL.get s.db.symlinks i
  blk : ∀ i k, i ≠ new → AL.get s1.db.blocks (i, k) = AL.get s.db.blocks (i, k)
  pos : 0 < s1.db.rc new
  seq : s.db.seq ≤ s1.db.seq
  xnew : ∃ j, AL.get s.db.inodes j ≠ none ∧ ∀ k, AL.get s1.db.xattrs (new, k) = AL.get s.db.xattrs (j, k)

theorem copyRow_spec {L : Nat → Int} {s s1 : St} {w : CpWalk} {id new : Nat} {q : List (Nat × Nat × Nat)} {cache : List (Nat × Nat)} (h : Inv T L s)
    (hc : copyRow s w id = some (s1, new, q, cache)) (hcache : ∀ x, AL.get w.cache id = some x → 0 < s.db.rc x) : RowEff T L s s1 id new ∧
    ((AL.get w.cache id = some new ∧ q = w.queue ∧ cache = w.cache) ∨
      (new = s.db.seq + 1 ∧ s1.db.seq = s.db.seq + 1 ∧ (q = w.queue ∨ q = (id, new, 0) :: w.queue) ∧ (cache = w.cache ∨ cache = AL.set w.cache id new))) := by
  unfold copyRow at hc
  split at hc
  · rename_i x hx
    split at hc
    · cases hc
    · rename_i a ha
      cases hc
      have hp := hcache _ hx
      have ⟨r1, r2, r3, r4, r5, _, r7⟩ := modInode_rest s.db new (fun i => { i with refcount := i.refcount + 1 })
      refine ⟨⟨h.acc.modRc new 1 _ (fun _ => rfl) (fun _ => rfl) (by rw [ha]; simp) (Or.inl (by omega)), rfl, rfl, r2, fun k => ?_, fun i hi => ?_, fun i k _ => ?_,
        fun i _ => ?_, fun i k _ => ?_, ?_, Nat.le_of_eq r7.symm, new, by rw [ha]; simp, fun k => ?_⟩, Or.inl ⟨hx, rfl, rfl⟩⟩
      · unfold Db.nm; rw [r1]
      · show AL.get (s.db.modInode _ _).inodes i = _
        rw [modInode_get, if_neg hi]
      · show AL.get (s.db.modInode _ _).xattrs _ = _; rw [r3]
      · show AL.get (s.db.modInode _ _).symlinks _ = _; rw [r4]
      · show AL.get (s.db.modInode _ _).blocks _ = _; rw [r5]
      · have : s.db.rc new = a.refcount := by simp [Db.rc, ha]
        show 0 < (s.db.modInode _ _).rc new
        unfold Db.rc
        rw [modInode_get, if_pos rfl, ha]
        simp only [Option.map_some, Option.getD_some]
        omega
      · show AL.get (s.db.modInode _ _).xattrs _ = _; rw [r3]
  · rename_i hx
    split at hc
    · cases hc
    · rename_i a ha
      dsimp only at hc
      obtain ⟨f1, f2, f3, f4, _⟩ := h.acc.fresh (i := s.db.seq + 1) (by omega)
      have e := Option.some.inj hc
      have e1 := (Prod.mk.inj e).1
      have e2 := (Prod.mk.inj (Prod.mk.inj e).2).1
      have e3 := (Prod.mk.inj (Prod.mk.inj (Prod.mk.inj e).2).2).1
      have e4 := (Prod.mk.inj (Prod.mk.inj (Prod.mk.inj e).2).2).2
      subst e1 e2
      refine ⟨⟨h.acc.copyInode h.Lnn ⟨a, ha, rfl⟩, rfl, rfl, rfl, fun k => ?_, fun i hi => ?_, fun i k hi => ?_, fun i hi => ?_, fun i k hi => ?_, ?_, Nat.le_succ _, id, by rw [ha]; simp, fun k => ?_⟩,
        Or.inr ⟨rfl, rfl, ?_, ?_⟩⟩
      · exact nm_incNames s.db (xattrNames s.db.xattrs id) k
      · exact AL.get_set_ne _ _ hi
      · exact (copyInode_xattrs f2 i k).trans (if_neg hi)
      · exact (copyInode_symlinks f4 i).trans (if_neg hi)
      · exact (copyInode_blocks f3 i k).trans (if_neg hi)
      · unfold Db.rc
        show 0 < ((AL.get (AL.set s.db.inodes _ _) _).map _).getD 0
        rw [AL.get_set_self]; exact Int.zero_lt_one
      · exact (copyInode_xattrs f2 _ k).trans (if_pos rfl)
      · rw [← e3]; split
        · exact Or.inr rfl
        · exact Or.inl rfl
      · rw [← e4]; split
        · exact Or.inr rfl
        · exact Or.inl rfl

/-- The new entry, and the effect on the invariant. -/
theorem JobsInv.put {repl fail : Bool} {s s1 : St} {K : Nat → Int} {J : List Job} {L : Nat → Int} {H : Nat → Nat → Prop} {tmp id new sd dd k : Nat}
    (g : JobsInv repl fail s K J L H) (hr : Running J tmp) (he : RowEff (Running J) L s s1 id new) (hd : H tmp dd) (hnone : AL.get s.db.contents (dd, k) = none)
    (hsd : AL.get s.db.contents (sd, k) ≠ none) (hnew : (H tmp new ∧ new ≠ tmp) ∨ new = s.db.seq + 1) (hok : ∀ j ∈ J, j.tmp = tmp → j.pc = .crashed) :
    JobsInv repl fail { s1 with db := { s1.db with contents := AL.set s1.db.contents (dd, k) new, names := incNames s1.db.names [k] } } K J L
      (fun t i => H t i ∨ (t = tmp ∧ i = new)) := by
  have hex : ∀ t i, Running J t → H t i → i ≤ s.db.seq := fun t i ht hi => g.inv.acc.seq i ((g.hid t ht).ex i hi)
  have hoth : ∀ t, Running J t → t ≠ tmp → ¬H t new := by
    intro t ht hne hh
    rcases hnew with h | h
    · exact hne (g.disj t tmp ht hr new hh h.1)
    · have := hex t new ht hh; omega
  have hnT : ∀ t, Running J t → t ≠ new := by
    intro t ht e
    rcases hnew with h | h
    · by_cases e2 : t = tmp
      · exact h.2 (e.symm.trans e2)
      · exact hoth t ht e2 (e ▸ (g.hid t ht).top)
    · have := hex t t ht (g.hid t ht).top; omega
  have hnx : ∀ t i, Running J t → H t i → i ≠ new ∨ t = tmp := by
    intro t i ht hi
    by_cases e : t = tmp
    · exact Or.inr e
    · exact Or.inl (fun e2 => hoth t ht e (e2 ▸ hi))
  -- accounting
  obtain ⟨c, hc⟩ := Option.ne_none_iff_exists'.1 hsd
  obtain ⟨n, hn⟩ := g.inv.acc.nm_of_C (g.inv.Lnn k) hc
  have hname : AL.get s1.db.names k ≠ none := by
    have := he.nm k
    rw [hn] at this
    obtain ⟨r, hr⟩ := nm_some.1 this
    rw [hr]; simp
  have a1 := he.acc.incNames [k] (by intro x hx; rw [List.mem_singleton] at hx; rw [hx]; exact hname)
  have hrcd : 0 < s1.db.rc dd ∨ Running J dd := by
    by_cases e : dd = new
    · rw [e]; exact Or.inl he.pos
    · have : s1.db.rc dd = s.db.rc dd := by unfold Db.rc; rw [he.ino dd e]
      rw [this]
      rcases (g.hid tmp hr).rc g.inv hd with h | h
      · rw [h]; exact Or.inr hr
      · exact Or.inl h
  have a2 := a1.insC (p := dd) (k := k) new (by show AL.get s1.db.contents _ = none; rw [he.con]; exact hnone) hrcd
  have a3 : Acc (Running J) s1.maxObj { s1.db with contents := AL.set s1.db.contents (dd, k) new, names := incNames s1.db.names [k] } (fun _ => 0) L := by
    refine Acc.congr a2 (fun i => ?_) (fun i => ?_)
    · show (0 : Int) + _ + _ = 0; split <;> omega
    · unfold bump
      by_cases e : i = k
      · subst e; simp; omega
      · simp [e]
  have hnm : ∀ x, ({ s1.db with contents := AL.set s1.db.contents (dd, k) new, names := incNames s1.db.names [k] } : Db).nm x = s.db.nm x :=
    fun x => (nm_incNames s1.db [k] x).trans (he.nm x)
  have hcon : ∀ p x, AL.get (AL.set s1.db.contents (dd, k) new) (p, x) = if (p, x) = (dd, k) then some new else AL.get s.db.contents (p, x) := by
    intro p x; rw [AL.get_set, he.con]
  -- reachability
  have hrb : ∀ {a i}, RB s.db a i → RB { s1.db with contents := AL.set s1.db.contents (dd, k) new, names := incNames s1.db.names [k] } a i := by
    intro a i h
    induction h with
    | refl => exact .refl
    | @row b c x _ hc ih =>
      refine .row (k := x) ih ?_
      show AL.get (AL.set s1.db.contents (dd, k) new) (b, x) = some c
      rw [hcon, if_neg]
      · exact hc
      · intro e; rw [e, hnone] at hc; cases hc
  refine ⟨⟨a3, by show 0 < s1.maxObj; rw [he.mx]; exact g.inv.mpos, g.inv.Lnn, by show AL.NK s1.opened; rw [he.op]; exact g.inv.nkOp, ?_, ?_, ?_⟩, ⟨?_, ?_⟩, g.exact, ?_, ?_, ?_, ?_, g.nodup, ?_, ?_, ?_⟩
  · -- opn
    intro i x hx
    have hx : AL.get s1.opened i = some x := hx
    rw [he.op] at hx
    obtain ⟨h1, h2⟩ := g.inv.opn i x hx
    refine ⟨?_, h2⟩
    show AL.get s1.db.inodes i ≠ none
    by_cases e : i = new
    · rw [e]; exact rc_pos_ne he.pos
    · rw [he.ino i e]; exact h1
  · -- zero
    intro i a ha h0
    have ha : AL.get s1.db.inodes i = some a := ha
    by_cases e : i = new
    · have := he.pos
      unfold Db.rc at this
      rw [← e, ha] at this
      simp only [Option.map_some, Option.getD_some] at this
      omega
    · rw [he.ino i e] at ha
      show AL.get s1.opened i ≠ none ∨ _
      rw [he.op]; exact g.inv.zero i a ha h0
  · -- hid
    intro t ht
    obtain ⟨h1, h2, h3⟩ := g.inv.hid t ht
    have e := hnT t ht
    refine ⟨by show AL.get s1.opened t = none; rw [he.op]; exact h1, by show AL.get s1.db.inodes t ≠ none; rw [he.ino t e]; exact h2, ?_⟩
    show s1.db.rc t = 0
    unfold Db.rc; rw [he.ino t e]; exact h3
  · -- ctrl
    intro p
    cases hx : ({ s1.db with contents := AL.set s1.db.contents (dd, k) new, names := incNames s1.db.names [k] } : Db).child p ctrlName with
    | none => rfl
    | some x =>
      exfalso
      obtain ⟨y, hy, hy2⟩ := (a3.child_iff _ _ _).1 hx
      rw [hnm] at hy
      have hy2 : AL.get (AL.set s1.db.contents (dd, k) new) (p, y) = some x := hy2
      rw [hcon] at hy2
      split at hy2
      · rename_i e
        have e2 : y = k := (Prod.mk.inj e).2
        subst e2
        have := (g.inv.acc.child_iff _ _ _).2 ⟨y, hy, hc⟩
        rw [g.res.ctrl] at this; cases this
      · have := (g.inv.acc.child_iff _ _ _).2 ⟨y, hy, hy2⟩
        rw [g.res.ctrl] at this; cases this
  · -- acl
    intro i m hi hm
    cases hx : ({ s1.db with contents := AL.set s1.db.contents (dd, k) new, names := incNames s1.db.names [k] } : Db).xval i m with
    | none => rfl
    | some x =>
      exfalso
      obtain ⟨y, hy, hy2⟩ := (a3.xval_iff _ _ _).1 hx
      rw [hnm] at hy
      have hy2 : AL.get s1.db.xattrs (i, y) = some x := hy2
      have key : ∃ j, AL.get s.db.inodes j ≠ none ∧ AL.get s.db.xattrs (j, y) = some x := by
        by_cases e : i = new
        · obtain ⟨j, h1, h2⟩ := he.xnew
          rw [e, h2] at hy2
          exact ⟨j, h1, hy2⟩
        · rw [he.xat i y e] at hy2
          exact ⟨i, g.inv.acc.xin _ _ _ hy2, hy2⟩
      obtain ⟨j, h1, h2⟩ := key
      have := (g.inv.acc.xval_iff _ _ _).2 ⟨y, hy, h2⟩
      rw [g.res.acl j m h1 hm] at this; cases this
  · intro i; have := g.le i; unfold St.cnt at this ⊢; show K i ≤ ((AL.get s1.opened i).getD 0); rw [he.op]; exact this
  · intro hf i; have := g.eq hf i; unfold St.cnt at this ⊢; show K i = ((AL.get s1.opened i).getD 0); rw [he.op]; exact this
  · -- Hidden
    intro t ht
    have hh := g.hid t ht
    by_cases e : t = tmp
    · subst e
      have hnt := hnT t ht
      refine ⟨Or.inl hh.top, ?_, ?_, ?_, ?_, ?_, ?_, ?_, ?_, ?_⟩
      · rintro i (hi | ⟨_, rfl⟩)
        · show AL.get s1.opened i = none; rw [he.op]; exact hh.opn i hi
        · show AL.get s1.opened i = none
          rw [he.op]
          rcases hnew with h | h
          · exact hh.opn i h.1
          · cases ho : AL.get s.opened i with
            | none => rfl
            | some x => have := g.inv.acc.seq i (g.inv.opn i x ho).1; omega
      · rintro i hi
        show AL.get s1.db.inodes i ≠ none
        by_cases e : i = new
        · rw [e]; exact rc_pos_ne he.pos
        · rw [he.ino i e]
          rcases hi with hi | ⟨_, hi⟩
          · exact hh.ex i hi
          · exact absurd hi e
      · intro p x c' hp hx
        replace hx : AL.get (AL.set s1.db.contents (dd, k) new) (p, x) = some c' := hx
        rw [hcon] at hx
        split at hx
        · cases hx; exact Or.inr ⟨rfl, rfl⟩
        · rcases hp with hp | ⟨_, rfl⟩
          · exact Or.inl (hh.out p x c' hp hx)
          · rcases hnew with h | h
            · exact Or.inl (hh.out p x c' h.1 hx)
            · exfalso
              have h1 := (g.inv.acc.fresh (i := p) (by omega)).2.2.2.2 (fun hT => hnT p hT rfl) x
              rw [h1] at hx; cases hx
      · intro p x c' hx hp
        replace hx : AL.get (AL.set s1.db.contents (dd, k) new) (p, x) = some c' := hx
        rw [hcon] at hx
        split at hx
        · rename_i e
          have : p = dd := (Prod.mk.inj e).1
          exact absurd (Or.inl (this ▸ hd)) hp
        · rintro (h | ⟨_, rfl⟩)
          · exact hh.into p x c' hx (fun h => hp (Or.inl h)) h
          · rcases hnew with h | h
            · exact hh.into p x _ hx (fun h => hp (Or.inl h)) h.1
            · have h1 := g.inv.acc.seq c' (by
                have h2 := g.inv.acc.rc c'
                have h3 := links_pos hx
                have h4 : 0 ≤ base c' := by unfold base; split; · omega
                                            split <;> omega
                exact rc_pos_ne (by omega))
              omega
      · rintro i hi
        rcases hi with hi | ⟨_, rfl⟩
        · exact hrb (hh.reach i hi)
        · refine .row (k := k) (hrb (hh.reach dd hd)) ?_
          show AL.get (AL.set s1.db.contents (dd, k) _) _ = _
          rw [AL.get_set_self]
      · rintro (h | ⟨_, h⟩)
        · exact hh.ctrl h
        · rcases hnew with h1 | h1
          · exact hh.ctrl (h ▸ h1.1)
          · have h2 := g.inv.acc.rc ctrlInode
            have h3 := links_nonneg s.db ctrlInode
            have h4 : base ctrlInode = 42 := rfl
            have := g.inv.acc.seq ctrlInode (rc_pos_ne (by omega))
            omega
      · intro x; show AL.get s1.db.xattrs _ = _; rw [he.xat t x hnt]; exact hh.xat x
      · show AL.get s1.db.symlinks _ = _; rw [he.sym t hnt]; exact hh.sym
      · intro x; show AL.get s1.db.blocks _ = _; rw [he.blk t x hnt]; exact hh.blk x
    · have hH : (fun i => H t i ∨ (t = tmp ∧ i = new)) = H t := by
        funext i; apply propext
        exact ⟨fun h => h.resolve_right (fun h => e h.1), Or.inl⟩
      rw [hH]
      have hni : ∀ i, H t i → i ≠ new := fun i hi => (hnx t i ht hi).resolve_right e
      refine hh.frame ⟨⟨fun i hi => he.ino i (hni i hi), fun i x hi => ?_, fun i x hi => he.xat i x (hni i hi), fun i hi => he.sym i (hni i hi), fun i x hi => he.blk i x (hni i hi), ?_⟩,
        fun i hi => by show AL.get s1.opened i = _; rw [he.op]⟩
      · show AL.get (AL.set s1.db.contents (dd, k) new) (i, x) = _
        rw [hcon, if_neg]
        intro e2
        have : i = dd := (Prod.mk.inj e2).1
        exact e (g.disj t tmp ht hr dd (this ▸ hi) hd)
      · intro h0 p x c' hx hp
        replace hx : AL.get (AL.set s1.db.contents (dd, k) new) (p, x) = some c' := hx
        rw [hcon] at hx
        split at hx
        · cases hx; exact hoth t ht e
        · exact h0 p x c' hx hp
  · -- disj
    rintro t t' ht ht' i (h1 | ⟨rfl, rfl⟩) (h2 | ⟨h3, h4⟩)
    · exact g.disj t t' ht ht' i h1 h2
    · subst h4
      by_cases e : t = tmp
      · exact e.trans h3.symm
      · exact absurd h1 (hoth t ht e)
    · by_cases e : t' = t
      · exact e.symm
      · exact absurd h2 (hoth t' ht' e)
    · exact h3.symm
  · intro j hj; have := g.seq j hj; have := he.seq; show j.tmp ≤ s1.db.seq ∧ j.tgt ≤ s1.db.seq; omega
  · rintro j hj t ht (h | ⟨h1, h2⟩)
    · exact g.tgt j hj t ht h
    · rcases hnew with h | h
      · exact g.tgt j hj tmp hr (h2 ▸ h.1)
      · have := g.seq j hj; omega
  · intro j hj
    by_cases e : j.tmp = tmp
    · rw [hok j hj e]; exact jobOk_crashed _ _ _
    · have hH : (fun i => H j.tmp i ∨ (j.tmp = tmp ∧ i = new)) = H j.tmp := by
        funext i; apply propext
        exact ⟨fun h => h.resolve_right (fun h => e h.1), Or.inl⟩
      have := g.jobs j hj
      show JobOk _ (fun i => H j.tmp i ∨ (j.tmp = tmp ∧ i = new)) _ _
      rw [hH]
      refine ⟨this.cache, fun a b c hm => ⟨(this.work a b c hm).1, fun x hx => ?_⟩, this.wnd⟩
      show AL.get (AL.set s1.db.contents (dd, k) new) (b, x) = none
      rw [hcon, if_neg]
      · exact (this.work a b c hm).2 x hx
      · intro e2
        have e3 : b = dd := (Prod.mk.inj e2).1
        by_cases hdone : j.pc = .done
        · rw [hdone] at hm; cases hm
        · exact e (g.disj j.tmp tmp ⟨j, hj, rfl, hdone⟩ hr dd (e3 ▸ (this.work a b c hm).1) hd)

/-! #### The start -/

/-- Bookkeeping of the temporary inode. -/
theorem Acc.newTmp {m : Nat} {db : Db} {L : Nat → Int} (h : Acc T m db (fun _ => 0) L) (a : Inode) (ha : a.refcount = 0) {T' : Nat → Prop} (hT : ∀ t, T t → T' t)  :
    Acc T' m { db with seq := db.seq + 1, inodes := AL.set db.inodes (db.seq + 1) a } (fun _ => 0) L := by
  obtain ⟨f1, f2, f3, f4, _⟩ := h.fresh (i := db.seq + 1) (by omega)
  have hrc : ∀ i, ({ db with seq := db.seq + 1, inodes := AL.set db.inodes (db.seq + 1) a } : Db).rc i = db.rc i := by
    intro i
    unfold Db.rc
    show ((AL.get (AL.set db.inodes (db.seq + 1) a) i).map _).getD 0 = _
    rw [AL.get_set]
    split
    · rename_i e; rw [e, f1]; exact ha
    · rfl
  have hmono : ∀ x, AL.get db.inodes x ≠ none → AL.get (AL.set db.inodes (db.seq + 1) a) x ≠ none := by
    intro x hx; rw [AL.get_set]; split <;> simp_all
  refine { h with nkI := h.nkI.set _ _, rc := fun i => by rw [hrc]; exact h.rc i, par := fun p k c hc => ?_, xin := fun i k v hx => hmono i (h.xin i k v hx), sin := fun i v hx => hmono i (h.sin i v hx), bin := fun i b o hb => ?_, seq := fun i hi => ?_ }
  · rw [hrc]
    rcases h.par p k c hc with h1 | h1
    · exact Or.inl h1
    · exact Or.inr (hT p h1)
  · obtain ⟨x, hx, hs⟩ := h.bin i b o hb
    refine ⟨x, ?_, hs⟩
    show AL.get (AL.set db.inodes _ _) i = _
    rw [AL.get_set_ne]
    · exact hx
    · rintro rfl; rw [f1] at hx; cases hx
  · have hi : AL.get (AL.set db.inodes (db.seq + 1) a) i ≠ none := hi
    show i ≤ db.seq + 1
    rw [AL.get_set] at hi
    split at hi
    · omega
    · have := h.seq i hi; omega

theorem running_cons {J : List Job} {src tgt tmp : Nat} {pc : CpPc} (h : pc ≠ .done) (t : Nat) : Running (⟨src, tgt, tmp, pc⟩ :: J) t ↔ t = tmp ∨ Running J t := by
  unfold Running
  simp only [List.mem_cons]
  constructor
  · rintro ⟨j, rfl | hj, h1, h2⟩
    · exact Or.inl h1.symm
    · exact Or.inr ⟨j, hj, h1, h2⟩
  · rintro (rfl | ⟨j, hj, h1, h2⟩)
    · exact ⟨_, Or.inl rfl, rfl, h⟩
    · exact ⟨j, Or.inr hj, h1, h2⟩

/-- A temporary inode is made. -/
theorem JobsInv.tmp {repl fail : Bool} {s : St} {K : Nat → Int} {J : List Job} {L : Nat → Int} {H : Nat → Nat → Prop} {src tgt : Nat}
    (g : JobsInv repl fail s K J L H) (htg : ∀ t, Running J t → ¬H t tgt) (htx : AL.get s.db.inodes tgt ≠ none) (a : Inode) (ha : a.refcount = 0) :
    JobsInv repl fail { s with db := { s.db with seq := s.db.seq + 1, inodes := AL.set s.db.inodes (s.db.seq + 1) a } } K
      (⟨src, tgt, s.db.seq + 1, .walk ⟨none, [(src, s.db.seq + 1, 0)], []⟩⟩ :: J) L (fun t i => (t = s.db.seq + 1 ∧ i = s.db.seq + 1) ∨ (t ≠ s.db.seq + 1 ∧ H t i)) := by
  have hR := running_cons (J := J) (src := src) (tgt := tgt) (tmp := s.db.seq + 1) (pc := .walk ⟨none, [(src, s.db.seq + 1, 0)], []⟩) (by intro h; cases h)
  have hex : ∀ t i, Running J t → H t i → i ≤ s.db.seq := fun t i ht hi => g.inv.acc.seq i ((g.hid t ht).ex i hi)
  have hle : ∀ t, Running J t → t ≤ s.db.seq := fun t ht => hex t t ht (g.hid t ht).top
  have hnR : ¬Running J (s.db.seq + 1) := fun h => by have := hle _ h; omega
  obtain ⟨f1, f2, f3, f4, f5⟩ := g.inv.acc.fresh (i := s.db.seq + 1) (by omega)
  have f5 := f5 hnR
  have hopn : AL.get s.opened (s.db.seq + 1) = none := by
    cases ho : AL.get s.opened (s.db.seq + 1) with
    | none => rfl
    | some x => exact absurd f1 (g.inv.opn _ x ho).1
  have hto : ∀ p k c, AL.get s.db.contents (p, k) = some c → c ≤ s.db.seq := by
    intro p k c hc
    refine g.inv.acc.seq c (rc_pos_ne ?_)
    have h2 := g.inv.acc.rc c
    have h3 := links_pos hc
    have h4 : 0 ≤ base c := by unfold base; split; · omega
                               split <;> omega
    omega
  have htl := g.inv.acc.seq tgt htx
  have hI : ∀ i, AL.get (AL.set s.db.inodes (s.db.seq + 1) a) i = if i = s.db.seq + 1 then some a else AL.get s.db.inodes i := fun i => AL.get_set _ _ _ _
  have hacc := g.inv.acc.newTmp a ha (T' := Running (⟨src, tgt, s.db.seq + 1, .walk ⟨none, [(src, s.db.seq + 1, 0)], []⟩⟩ :: J)) (fun t h => (hR t).2 (Or.inr h))
  have hHo : ∀ t, t ≤ s.db.seq → (fun i => (t = s.db.seq + 1 ∧ i = s.db.seq + 1) ∨ (t ≠ s.db.seq + 1 ∧ H t i)) = H t := by
    intro t ht
    funext i; apply propext
    constructor
    · rintro (h | h)
      · omega
      · exact h.2
    · intro h; exact Or.inr ⟨by omega, h⟩
  have hfr : ∀ t, Running J t → Fr (H t) s { s with db := { s.db with seq := s.db.seq + 1, inodes := AL.set s.db.inodes (s.db.seq + 1) a } } := by
    intro t ht
    refine ⟨⟨fun i hi => ?_, fun _ _ _ => rfl, fun _ _ _ => rfl, fun _ _ => rfl, fun _ _ _ => rfl, fun h => h⟩, fun _ _ => rfl⟩
    show AL.get (AL.set s.db.inodes (s.db.seq + 1) a) i = _
    rw [hI, if_neg]
    have := hex t i ht hi; omega
  refine ⟨⟨hacc, g.inv.mpos, g.inv.Lnn, g.inv.nkOp, ?_, ?_, ?_⟩, ⟨g.res.ctrl, ?_⟩, g.exact, g.le, g.eq, ?_, ?_, ?_, ?_, ?_, ?_⟩
  · intro i x hx
    obtain ⟨h1, h2⟩ := g.inv.opn i x hx
    refine ⟨?_, h2⟩
    show AL.get (AL.set s.db.inodes (s.db.seq + 1) a) i ≠ none
    rw [hI]; split
    · simp
    · exact h1
  · intro i b hb h0
    replace hb : AL.get (AL.set s.db.inodes (s.db.seq + 1) a) i = some b := hb
    rw [hI] at hb
    split at hb
    · rename_i e; exact Or.inr ((hR i).2 (Or.inl e))
    · rcases g.inv.zero i b hb h0 with h | h
      · exact Or.inl h
      · exact Or.inr ((hR i).2 (Or.inr h))
  · intro t ht
    rcases (hR t).1 ht with rfl | ht
    · refine ⟨hopn, ?_, ?_⟩
      · show AL.get (AL.set s.db.inodes (s.db.seq + 1) a) _ ≠ none
        rw [hI, if_pos rfl]; simp
      · unfold Db.rc
        show ((AL.get (AL.set s.db.inodes (s.db.seq + 1) a) _).map _).getD 0 = 0
        rw [hI, if_pos rfl]; exact ha
    · obtain ⟨h1, h2, h3⟩ := g.inv.hid t ht
      have hne : t ≠ s.db.seq + 1 := by have := hle t ht; omega
      refine ⟨h1, ?_, ?_⟩
      · show AL.get (AL.set s.db.inodes (s.db.seq + 1) a) _ ≠ none
        rw [hI, if_neg hne]; exact h2
      · unfold Db.rc
        show ((AL.get (AL.set s.db.inodes (s.db.seq + 1) a) _).map _).getD 0 = 0
        rw [hI, if_neg hne]; exact h3
  · intro i n hi hn
    replace hi : AL.get (AL.set s.db.inodes (s.db.seq + 1) a) i ≠ none := hi
    show s.db.xval i n = none
    by_cases e : i = s.db.seq + 1
    · cases hx : s.db.xval i n with
      | none => rfl
      | some v => obtain ⟨k, _, hk⟩ := (g.inv.acc.xval_iff _ _ _).1 hx; rw [e, f2] at hk; cases hk
    · rw [hI, if_neg e] at hi
      exact g.res.acl i n hi hn
  · intro t ht
    rcases (hR t).1 ht with rfl | ht
    · refine ⟨Or.inl ⟨rfl, rfl⟩, ?_, ?_, ?_, ?_, ?_, ?_, f2, f4, f3⟩
      · rintro i (⟨_, rfl⟩ | ⟨h, _⟩)
        · exact hopn
        · exact absurd rfl h
      · rintro i (⟨_, rfl⟩ | ⟨h, _⟩)
        · show AL.get (AL.set s.db.inodes (s.db.seq + 1) a) _ ≠ none
          rw [hI, if_pos rfl]; simp
        · exact absurd rfl h
      · rintro p k c (⟨_, rfl⟩ | ⟨h, _⟩) hc
        · have := f5 k; rw [show AL.get s.db.contents (s.db.seq + 1, k) = some c from hc] at this; cases this
        · exact absurd rfl h
      · rintro p k c hc _ (⟨_, rfl⟩ | ⟨h, _⟩)
        · have := hto p k _ hc; omega
        · exact absurd rfl h
      · rintro i (⟨_, rfl⟩ | ⟨h, _⟩)
        · exact .refl
        · exact absurd rfl h
      · rintro (⟨_, h⟩ | ⟨h, _⟩)
        · have h2 := g.inv.acc.rc ctrlInode
          have h3 := links_nonneg s.db ctrlInode
          have h4 : base ctrlInode = 42 := rfl
          have := g.inv.acc.seq ctrlInode (rc_pos_ne (by omega))
          omega
        · exact absurd rfl h
    · show Hidden _ t (fun i => (t = s.db.seq + 1 ∧ i = s.db.seq + 1) ∨ (t ≠ s.db.seq + 1 ∧ H t i))
      rw [hHo t (hle t ht)]
      exact (g.hid t ht).frame (hfr t ht)
  · intro t t' ht ht' i h1 h2
    rcases (hR t).1 ht with e | ht
    · rcases (hR t').1 ht' with e' | ht'
      · rw [e, e']
      · rcases h1 with ⟨_, h1⟩ | ⟨h1, _⟩
        · rcases h2 with ⟨h2, _⟩ | ⟨_, h2⟩
          · rw [e, h2]
          · have := hex t' i ht' h2; omega
        · exact absurd e h1
    · rcases (hR t').1 ht' with e' | ht'
      · rcases h2 with ⟨_, h2⟩ | ⟨h2, _⟩
        · rcases h1 with ⟨h1, _⟩ | ⟨_, h1⟩
          · rw [e', h1]
          · have := hex t i ht h1; omega
        · exact absurd e' h2
      · have l1 := hle t ht
        have l2 := hle t' ht'
        refine g.disj t t' ht ht' i (h1.resolve_left (fun h => ?_)).2 (h2.resolve_left (fun h => ?_)).2
        · have := h.1; omega
        · have := h.1; omega
  · rw [List.map_cons, List.nodup_cons]
    refine ⟨fun hm => ?_, g.nodup⟩
    obtain ⟨j, hj, e⟩ := List.mem_map.1 hm
    have := (g.seq j hj).1
    have e : j.tmp = s.db.seq + 1 := e
    omega
  · intro j hj
    show j.tmp ≤ s.db.seq + 1 ∧ j.tgt ≤ s.db.seq + 1
    rcases List.mem_cons.1 hj with rfl | hj
    · exact ⟨Nat.le_refl _, by dsimp only; omega⟩
    · have := g.seq j hj; omega
  · intro j hj t ht hh
    have hjt : j.tgt ≤ s.db.seq ∧ ∀ t, Running J t → ¬H t j.tgt := by
      rcases List.mem_cons.1 hj with rfl | hj
      · exact ⟨htl, htg⟩
      · exact ⟨(g.seq j hj).2, g.tgt j hj⟩
    rcases hh with ⟨_, h⟩ | ⟨h0, h⟩
    · omega
    · exact hjt.2 t (((hR t).1 ht).resolve_left h0) h
  · intro j hj
    rcases List.mem_cons.1 hj with rfl | hj
    · refine ⟨fun _ _ h => (by cases h), fun sd dd lo hm => ?_, ?_⟩
      · have hm : (sd, dd, lo) ∈ [(src, s.db.seq + 1, 0)] := hm
        rw [List.mem_singleton] at hm
        cases hm
        exact ⟨Or.inl ⟨rfl, rfl⟩, fun k _ => f5 k⟩
      · show [s.db.seq + 1].Nodup
        simp
    · have hl := (g.seq j hj).1
      show JobOk _ (fun i => (j.tmp = s.db.seq + 1 ∧ i = s.db.seq + 1) ∨ (j.tmp ≠ s.db.seq + 1 ∧ H j.tmp i)) _ _
      rw [hHo _ hl]
      have := g.jobs j hj
      exact ⟨this.cache, this.work, this.wnd⟩

theorem JobsInv.start {repl fail : Bool} {s s' : St} {K : Nat → Int} {J : List Job} {L : Nat → Int} {H : Nat → Nat → Prop} {src tgt : Nat} {now : Int} {w : CpWalk}
    (g : JobsInv repl fail s K J L H) (ht : ¬InCopy s J tgt) (hs : copyStart s src tgt now = .ok (s', w)) :
    JobsInv repl fail s' K (⟨src, tgt, s.db.seq + 1, .walk w⟩ :: J) L (fun t i => (t = s.db.seq + 1 ∧ i = s.db.seq + 1) ∨ (t ≠ s.db.seq + 1 ∧ H t i)) := by
  unfold copyStart at hs
  split at hs
  · cases hs
  split at hs
  rotate_left
  · cases hs
  rename_i a b ha hb
  dsimp only at hs
  have e := Except.ok.inj hs
  have e1 := (Prod.mk.inj e).1
  have e2 := (Prod.mk.inj e).2
  clear hs e
  have g1 := g.mod ht (fun t : Inode => ({ t with atime := a.atime, ctime := a.ctime, mtime := a.mtime, mode := a.mode, uid := a.uid, gid := a.gid } : Inode)) (fun _ => rfl) (fun _ => Nat.le_refl _)
  have r7 := (modInode_rest s.db tgt (fun t : Inode => ({ t with atime := a.atime, ctime := a.ctime, mtime := a.mtime, mode := a.mode, uid := a.uid, gid := a.gid } : Inode))).2.2.2.2.2.2
  have g2 := g1.tmp (src := src) (tgt := tgt) (g.inCopy ht) (by
    show AL.get (s.db.modInode tgt _).inodes tgt ≠ none
    rw [modInode_get, if_pos rfl, hb]; simp) ⟨0, 0, 0, now, now, now, 0, 0, 0, false⟩ rfl
  subst e1 e2
  dsimp only at g2
  rw [r7] at g2 ⊢
  exact g2

/-! #### The end -/

/-- Bookkeeping of the end. -/
theorem Acc.endCopy {m : Nat} {db : Db} {L : Nat → Int} {tmp tgt : Nat} (h : Acc T m db (fun _ => 0) L) (hi : db.rc tmp = 0)
    (hx : (∀ k, AL.get db.xattrs (tmp, k) = none) ∧ (∀ k, AL.get db.blocks (tmp, k) = none) ∧ AL.get db.symlinks tmp = none)
    (ht : tgt ≠ tmp) (hr : 0 < db.rc tgt) (hn : ∀ k, AL.get db.contents (tmp, k) ≠ none → AL.get db.contents (tgt, k) = none) :
    Acc (fun t => T t ∧ t ≠ tmp) m { db with contents := moveRows db.contents tmp tgt, inodes := AL.erase db.inodes tmp } (fun _ => 0) L := by
  have hrcE : ∀ i, ({ db with contents := moveRows db.contents tmp tgt, inodes := AL.erase db.inodes tmp } : Db).rc i = db.rc i := by
    intro i
    unfold Db.rc at hi ⊢
    simp only [AL.get_erase]
    split
    · rename_i e; rw [e, hi]; rfl
    · rfl
  have hget := fun p k => get_moveRows (l := db.contents) h.nkC ht hn p k
  have hin : ∀ i, i ≠ tmp → AL.get db.inodes i ≠ none → AL.get (AL.erase db.inodes tmp) i ≠ none := by
    intro i hne h; rw [AL.get_erase_ne _ hne]; exact h
  refine { h with nkI := h.nkI.erase _, nkC := nk_moveRows h.nkC hn, rc := fun i => ?_, nr := fun k => ?_, par := fun p k c hc => ?_, xin := fun i k v hv => ?_, sin := fun i v hv => ?_, bin := fun i b o hb => ?_, seq := fun i hi => ?_ }
  · rw [hrcE, h.rc i]
    have : ({ db with contents := moveRows db.contents tmp tgt, inodes := AL.erase db.inodes tmp } : Db).links i = db.links i :=
      sumBy_moveRows _ _ _ _ (fun _ _ => rfl)
    rw [this]
  · have : ({ db with contents := moveRows db.contents tmp tgt, inodes := AL.erase db.inodes tmp } : Db).usesC k = db.usesC k :=
      sumBy_moveRows _ _ _ _ (fun _ _ => rfl)
    rw [this]; exact h.nr k
  · rw [hrcE]
    have hg := hget p k
    rw [show AL.get (moveRows db.contents tmp tgt) (p, k) = some c from hc] at hg
    split at hg
    · cases hg
    · rename_i e
      split at hg
      · rename_i e2; rw [e2]; exact Or.inl hr
      · rcases h.par p k c hg.symm with h1 | h1
        · exact Or.inl h1
        · exact Or.inr ⟨h1, e⟩
  · have hv : AL.get db.xattrs (i, k) = some v := hv
    exact hin i (by rintro rfl; rw [hx.1 k] at hv; cases hv) (h.xin i k v hv)
  · have hv : AL.get db.symlinks i = some v := hv
    exact hin i (by rintro rfl; rw [hx.2.2] at hv; cases hv) (h.sin i v hv)
  · have hb : AL.get db.blocks (i, b) = some o := hb
    obtain ⟨a, h1, h2⟩ := h.bin i b o hb
    refine ⟨a, ?_, h2⟩
    show AL.get (AL.erase db.inodes tmp) i = _
    rw [AL.get_erase_ne _ (by rintro rfl; rw [hx.2.1 b] at hb; cases hb)]
    exact h1
  · have hi : AL.get (AL.erase db.inodes tmp) i ≠ none := hi
    rw [AL.get_erase] at hi
    split at hi
    · exact absurd rfl hi
    · exact h.seq i hi

theorem running_end {J1 J2 : List Job} {src tgt tmp : Nat} {pc : CpPc} (hn : ((J1 ++ ⟨src, tgt, tmp, pc⟩ :: J2).map (·.tmp)).Nodup) :
    Running (J1 ++ ⟨src, tgt, tmp, .done⟩ :: J2) = fun t => Running (J1 ++ ⟨src, tgt, tmp, pc⟩ :: J2) t ∧ t ≠ tmp := by
  have hne : ∀ j, j ∈ J1 ∨ j ∈ J2 → j.tmp ≠ tmp := by
    rw [List.map_append, List.map_cons, List.nodup_append, List.nodup_cons] at hn
    obtain ⟨_, ⟨h2, _⟩, h3⟩ := hn
    rintro j (hj | hj) e
    · exact h3 j.tmp (List.mem_map.2 ⟨j, hj, rfl⟩) tmp (List.mem_cons_self ..) e
    · exact h2 (List.mem_map.2 ⟨j, hj, e⟩)
  funext t; apply propext
  constructor
  · rintro ⟨j, hj, h1, h2⟩
    rcases (mem_mid j).1 hj with rfl | hj
    · exact absurd rfl h2
    · exact ⟨⟨j, (mem_mid j).2 (Or.inr hj), h1, h2⟩, h1 ▸ hne j hj⟩
  · rintro ⟨⟨j, hj, h1, h2⟩, h3⟩
    rcases (mem_mid j).1 hj with rfl | hj
    · exact absurd h1.symm h3
    · exact ⟨j, (mem_mid j).2 (Or.inr hj), h1, h2⟩

theorem linked_rcT {L : Nat → Int} {s : St} (h : Inv T L s) {i : Nat} (hl : Linked s i) : 0 < s.db.rc i := by
  rcases hl with rfl | ⟨p, n, hn, hc⟩
  · have h1 := h.acc.rc rootInode
    have h2 := links_nonneg s.db rootInode
    have h3 : base rootInode = 1 := rfl
    omega
  · rw [seenEntry_eq h, if_neg hn] at hc
    exact (h.child_pos hc).1

theorem JobsInv.finish {repl fail : Bool} {s s' : St} {K : Nat → Int} {J1 J2 : List Job} {src tgt tmp : Nat} {pc : CpPc} {L : Nat → Int} {H : Nat → Nat → Prop}
    (g : JobsInv repl fail s K (J1 ++ ⟨src, tgt, tmp, pc⟩ :: J2) L H) (h : pc ≠ .done) (hl : Linked s tgt) (he : copyEnd s tgt tmp = some s') :
    JobsInv repl fail s' K (J1 ++ ⟨src, tgt, tmp, .done⟩ :: J2) L H := by
  have hrun := running_mid (J1 := J1) (J2 := J2) (src := src) (tgt := tgt) (tmp := tmp) h
  have hme : (⟨src, tgt, tmp, pc⟩ : Job) ∈ J1 ++ ⟨src, tgt, tmp, pc⟩ :: J2 := (mem_mid _).2 (Or.inl rfl)
  have hh := g.hid tmp hrun
  have htgt := g.tgt _ hme
  have htgt : ∀ t, Running (J1 ++ ⟨src, tgt, tmp, pc⟩ :: J2) t → ¬H t tgt := htgt
  have hne : tgt ≠ tmp := fun e => htgt tmp hrun (e ▸ hh.top)
  have hR := running_end g.nodup
  unfold copyEnd at he
  split at he
  · cases he
  rename_i hany
  have hn : ∀ k, AL.get s.db.contents (tmp, k) ≠ none → AL.get s.db.contents (tgt, k) = none := by
    intro k hk
    cases hg : AL.get s.db.contents (tgt, k) with
    | none => rfl
    | some c =>
      exfalso; apply hany
      obtain ⟨v, hv⟩ := Option.ne_none_iff_exists'.1 hk
      rw [List.any_eq_true]
      exact ⟨((tmp, k), v), AL.get_some_mem hv, by simp [hg]⟩
  have e := Option.some.inj he
  clear he hany
  have hacc := g.inv.acc.endCopy (g.inv.hid tmp hrun).2.2 ⟨hh.xat, hh.blk, hh.sym⟩ hne (linked_rcT g.inv hl) hn
  have hget := fun p k => get_moveRows (l := s.db.contents) g.inv.acc.nkC hne hn p k
  have hrcE : ∀ i, ({ s.db with contents := moveRows s.db.contents tmp tgt, inodes := AL.erase s.db.inodes tmp } : Db).rc i = s.db.rc i := by
    intro i
    have := (g.inv.hid tmp hrun).2.2
    unfold Db.rc at this ⊢
    simp only [AL.get_erase]
    split
    · rename_i e; rw [e, this]; rfl
    · rfl
  have hkid : ∀ k c, AL.get s.db.contents (tmp, k) = some c → H tmp c := fun k c hc => hh.out tmp k c hh.top hc
  subst e
  have hfr : ∀ t, Running (J1 ++ ⟨src, tgt, tmp, pc⟩ :: J2) t → t ≠ tmp →
      Fr (H t) s { s with db := { s.db with contents := moveRows s.db.contents tmp tgt, inodes := AL.erase s.db.inodes tmp } } := by
    intro t ht hnt
    have hntm : ¬H t tmp := fun hx => hnt (g.disj t tmp ht hrun tmp hx hh.top)
    refine ⟨⟨fun i hi => ?_, fun i k hi => ?_, fun _ _ _ => rfl, fun _ _ => rfl, fun _ _ _ => rfl, fun h0 p k c hc hp => ?_⟩, fun _ _ => rfl⟩
    · exact AL.get_erase_ne _ (fun e => hntm (e ▸ hi))
    · show AL.get (moveRows s.db.contents tmp tgt) (i, k) = _
      rw [hget, if_neg (fun e : i = tmp => hntm (e ▸ hi)), if_neg (fun e : i = tgt => htgt t ht (e ▸ hi))]
    · have hc : AL.get (moveRows s.db.contents tmp tgt) (p, k) = some c := hc
      rw [hget] at hc
      split at hc
      · cases hc
      · split at hc
        · cases hx : AL.get s.db.contents (tmp, k) with
          | none =>
            rw [hx] at hc
            exact h0 tgt k c hc (htgt t ht)
          | some c' =>
            rw [hx] at hc
            cases hc
            exact fun hy => hnt (g.disj t tmp ht hrun _ hy (hkid k _ hx))
        · exact h0 p k c hc hp
  have hctl : ∀ p n c, ({ s.db with contents := moveRows s.db.contents tmp tgt, inodes := AL.erase s.db.inodes tmp } : Db).child p n = some c → ∃ q, s.db.child q n = some c := by
    intro p n c hc
    obtain ⟨k, hk, hk2⟩ := (hacc.child_iff _ _ _).1 hc
    have hk2 : AL.get (moveRows s.db.contents tmp tgt) (p, k) = some c := hk2
    rw [hget] at hk2
    have key : ∃ q, AL.get s.db.contents (q, k) = some c := by
      split at hk2
      · cases hk2
      · split at hk2
        · cases hx : AL.get s.db.contents (tmp, k) with
          | none => rw [hx] at hk2; exact ⟨_, hk2⟩
          | some c' => rw [hx] at hk2; cases hk2; exact ⟨_, hx⟩
        · exact ⟨_, hk2⟩
    obtain ⟨q, hq⟩ := key
    exact ⟨q, (g.inv.acc.child_iff _ _ _).2 ⟨k, hk, hq⟩⟩
  refine ⟨?_, ⟨fun p => ?_, fun i n hi hn' => ?_⟩, g.exact, g.le, g.eq, ?_, ?_, ?_, ?_, ?_, ?_⟩
  · rw [hR]
    refine ⟨hacc, g.inv.mpos, g.inv.Lnn, g.inv.nkOp, fun i c hc => ?_, fun i a ha h0 => ?_, fun t ht => ?_⟩
    · obtain ⟨h1, h2⟩ := g.inv.opn i c hc
      refine ⟨?_, h2⟩
      show AL.get (AL.erase s.db.inodes tmp) i ≠ none
      rw [AL.get_erase_ne]
      · exact h1
      · rintro rfl
        rw [hh.opn i hh.top] at hc; cases hc
    · have ha : AL.get (AL.erase s.db.inodes tmp) i = some a := ha
      rw [AL.get_erase] at ha
      split at ha
      · cases ha
      · rename_i e
        rcases g.inv.zero i a ha h0 with h1 | h1
        · exact Or.inl h1
        · exact Or.inr ⟨h1, e⟩
    · obtain ⟨h1, h2, h3⟩ := g.inv.hid t ht.1
      refine ⟨h1, ?_, (hrcE t).trans h3⟩
      show AL.get (AL.erase s.db.inodes tmp) t ≠ none
      rw [AL.get_erase_ne _ ht.2]; exact h2
  · cases hx : ({ s.db with contents := moveRows s.db.contents tmp tgt, inodes := AL.erase s.db.inodes tmp } : Db).child p ctrlName with
    | none => exact hx
    | some c => obtain ⟨q, hq⟩ := hctl p ctrlName c hx; rw [g.res.ctrl] at hq; cases hq
  · have hi : AL.get (AL.erase s.db.inodes tmp) i ≠ none := hi
    rw [AL.get_erase] at hi
    split at hi
    · exact absurd rfl hi
    · exact g.res.acl i n hi hn'
  · rw [hR]; exact fun t ht => (g.hid t ht.1).frame (hfr t ht.1 ht.2)
  · rw [hR]; exact fun t t' ht ht' => g.disj t t' ht.1 ht'.1
  · have := g.nodup
    rw [List.map_append, List.map_cons] at this ⊢
    exact this
  · intro x hx
    rcases (mem_mid x).1 hx with rfl | hx
    · exact g.seq ⟨src, tgt, tmp, pc⟩ hme
    · exact g.seq x ((mem_mid _).2 (Or.inr hx))
  · rw [hR]
    intro x hx t ht
    rcases (mem_mid x).1 hx with rfl | hx
    · exact htgt t ht.1
    · exact g.tgt x ((mem_mid _).2 (Or.inr hx)) t ht.1
  · intro x hx
    rcases (mem_mid x).1 hx with rfl | hx
    · exact jobOk_done _ _ _
    · have hj := g.jobs x ((mem_mid _).2 (Or.inr hx))
      by_cases hd : x.pc = .done
      · rw [hd]; exact jobOk_done _ _ _
      · have hx' : Running (J1 ++ ⟨src, tgt, tmp, .done⟩ :: J2) x.tmp := ⟨x, (mem_mid _).2 (Or.inr hx), rfl, hd⟩
        rw [hR] at hx'
        exact hj.frame (hfr x.tmp hx'.1 hx'.2)

/-! #### All pieces -/

theorem JobsInv.work {repl fail : Bool} {s s' : St} {K : Nat → Int} {J1 J2 : List Job} {src tgt tmp : Nat} {pc pc' : CpPc} {L : Nat → Int} {H : Nat → Nat → Prop}
    (g : JobsInv repl fail s K (J1 ++ ⟨src, tgt, tmp, pc⟩ :: J2) L H) (hs : JobStep tgt tmp s pc s' pc') (hu : Undisturbed s tgt pc pc') :
    ∃ H', JobsInv repl fail s' K (J1 ++ ⟨src, tgt, tmp, pc'⟩ :: J2) L H' := by
  have hme : (⟨src, tgt, tmp, pc⟩ : Job) ∈ J1 ++ ⟨src, tgt, tmp, pc⟩ :: J2 := (mem_mid _).2 (Or.inl rfl)
  have hj : JobOk s (H tmp) tmp pc := g.jobs _ hme
  cases hs with
  | pop => exact ⟨H, g.pc (by intro h; cases h) (by intro h; cases h) ⟨hj.cache, hj.work, hj.wnd⟩⟩
  | @read sd dd lo k id q cache hr =>
    obtain ⟨_, h2, _⟩ := nextRow_some g.inv.acc.nkC hr
    refine ⟨H, g.pc (by intro h; cases h) (by intro h; cases h) ⟨hj.cache, fun a b c hm => ?_, hj.wnd⟩⟩
    rcases List.mem_cons.1 hm with e | hm
    · cases e
      have := hj.work sd dd lo (List.mem_cons_self ..)
      exact ⟨this.1, fun k' hk' => this.2 k' (by omega)⟩
    · exact hj.work a b c (List.mem_cons_of_mem _ hm)
  | @over sd dd lo q cache hr =>
    refine ⟨H, g.pc (by intro h; cases h) (by intro h; cases h) ⟨hj.cache, fun a b c hm => hj.work a b c (List.mem_cons_of_mem _ hm), ?_⟩⟩
    exact (List.nodup_cons.1 hj.wnd).2
  | noInode => exact ⟨H, g.pc (by intro h; cases h) (by intro h; cases h) (jobOk_crashed _ _ _)⟩
  | clash => exact ⟨H, g.pc (by intro h; cases h) (by intro h; cases h) (jobOk_crashed _ _ _)⟩
  | finish he => exact ⟨H, g.finish (by intro h; cases h) (hu.2 rfl) he⟩
  | @dup s1 sd dd k id new w q cache hc ha =>
    exfalso
    have hrun := running_mid (J1 := J1) (J2 := J2) (src := src) (tgt := tgt) (tmp := tmp) (pc := .row w sd dd k id) (by intro h; cases h)
    have hspec := copyRow_spec g.inv hc (fun x hx => by
      obtain ⟨h1, h2⟩ := hj.cache id x hx
      exact ((g.hid tmp hrun).rc g.inv h1).resolve_left h2)
    have h1 := (hj.work sd dd k (List.mem_cons_self ..)).2 k (Nat.le_refl _)
    unfold Db.addCopy at ha
    rw [hspec.1.con, h1] at ha
    cases ha
  | @handle s1 sd dd k id new w q cache db brk hc ha =>
    have hrun := running_mid (J1 := J1) (J2 := J2) (src := src) (tgt := tgt) (tmp := tmp) (pc := .row w sd dd k id) (by intro h; cases h)
    have hh := g.hid tmp hrun
    have hspec := copyRow_spec g.inv hc (fun x hx => by
      obtain ⟨h1, h2⟩ := hj.cache id x hx
      exact (hh.rc g.inv h1).resolve_left h2)
    obtain ⟨hd, hd2⟩ := hj.work sd dd k (List.mem_cons_self ..)
    have h1 := hd2 k (Nat.le_refl _)
    unfold Db.addCopy at ha
    rw [hspec.1.con, h1] at ha
    have e := Option.some.inj ha
    subst e
    have hsd : AL.get s.db.contents (sd, k) ≠ none := by
      obtain ⟨⟨⟨a, b⟩, c⟩, hm, he⟩ := hu.1 w sd dd k id rfl
      cases he
      rw [AL.mem_get_some g.inv.acc.nkC hm]; simp
    have g0 := g.pc (pc' := .crashed) (by intro h; cases h) (by intro h; cases h) (jobOk_crashed _ _ _)
    have hR0 := running_set (J1 := J1) (J2 := J2) (src := src) (tgt := tgt) (tmp := tmp) (pc := .row w sd dd k id) (pc' := .crashed) (by intro h; cases h) (by intro h; cases h)
    have hnew : (H tmp new ∧ new ≠ tmp) ∨ new = s.db.seq + 1 := by
      rcases hspec.2 with ⟨h, _⟩ | ⟨h, _⟩
      · exact Or.inl (hj.cache id new h)
      · exact Or.inr h
    have g1 := g0.put (tmp := tmp) (by rw [hR0]; exact hrun) (by rw [hR0]; exact hspec.1) hd h1 hsd hnew (by
      intro j hj' e
      rcases (mem_mid j).1 hj' with rfl | hj'
      · rfl
      · exfalso
        have hn := g.nodup
        rw [List.map_append, List.map_cons, List.nodup_append, List.nodup_cons] at hn
        obtain ⟨_, ⟨h2, _⟩, h3⟩ := hn
        rcases hj' with hj' | hj'
        · exact h3 j.tmp (List.mem_map.2 ⟨j, hj', rfl⟩) tmp (List.mem_cons_self ..) e
        · exact h2 (List.mem_map.2 ⟨j, hj', e⟩))
    rw [hspec.1.con] at g1
    refine ⟨_, g1.pc (by intro h; cases h) (by intro h; cases h) ?_⟩
    have hle : ∀ i, H tmp i → i ≤ s.db.seq := fun i hi => g.inv.acc.seq i (hh.ex i hi)
    have hwork : (CpPc.walk (if brk then ⟨none, (sd, dd, k + 1) :: q, cache⟩ else ⟨some (sd, dd, k + 1), q, cache⟩)).work = (sd, dd, k + 1) :: q := by
      cases brk <;> rfl
    have hcach : (CpPc.walk (if brk then ⟨none, (sd, dd, k + 1) :: q, cache⟩ else ⟨some (sd, dd, k + 1), q, cache⟩)).cache = cache := by
      cases brk <;> rfl
    have hwnd := List.nodup_cons.1 hj.wnd
    have hold : ∀ a b c, (a, b, c) ∈ w.queue → (H tmp b ∨ (tmp = tmp ∧ b = new)) ∧ ∀ k', c ≤ k' → AL.get (AL.set s.db.contents (dd, k) new) (b, k') = none := by
      intro a b c hm
      have := hj.work a b c (List.mem_cons_of_mem _ hm)
      refine ⟨Or.inl this.1, fun k' hk' => ?_⟩
      rw [AL.get_set_ne]
      · exact this.2 k' hk'
      · intro e
        have e1 : b = dd := (Prod.mk.inj e).1
        exact hwnd.1 (List.mem_map.2 ⟨(a, b, c), hm, e1⟩)
    refine ⟨?_, ?_, ?_⟩
    · rw [hcach]
      intro i x hx
      rcases hspec.2 with ⟨_, _, rfl⟩ | ⟨e1, _, _, hcc⟩
      · have := hj.cache i x hx
        exact ⟨Or.inl this.1, this.2⟩
      · have hold : ∀ i x, AL.get w.cache i = some x → (H tmp x ∨ (tmp = tmp ∧ x = new)) ∧ x ≠ tmp := fun i x hx => ⟨Or.inl (hj.cache i x hx).1, (hj.cache i x hx).2⟩
        rcases hcc with rfl | rfl
        · exact hold i x hx
        · rw [AL.get_set] at hx
          split at hx
          · cases hx
            refine ⟨Or.inr ⟨rfl, rfl⟩, ?_⟩
            have := hle tmp hh.top
            omega
          · exact hold i x hx
    · rw [hwork]
      intro a b c hm
      rcases List.mem_cons.1 hm with e | hm
      · cases e
        refine ⟨Or.inl hd, fun k' hk' => ?_⟩
        show AL.get (AL.set s.db.contents (dd, k) new) (dd, k') = none
        rw [AL.get_set_ne]
        · exact hd2 k' (by omega)
        · intro e; have := (Prod.mk.inj e).2; omega
      · rcases hspec.2 with ⟨_, rfl, _⟩ | ⟨e1, _, hq | hq, _⟩
        · exact hold a b c hm
        · rw [hq] at hm; exact hold a b c hm
        · rw [hq] at hm
          rcases List.mem_cons.1 hm with e | hm
          · cases e
            refine ⟨Or.inr ⟨rfl, rfl⟩, fun k' _ => ?_⟩
            show AL.get (AL.set s.db.contents (dd, k) new) (new, k') = none
            have hl := hle dd hd
            rw [AL.get_set_ne _ _ (by intro e; have := (Prod.mk.inj e).1; omega)]
            refine (g.inv.acc.fresh (i := new) (by omega)).2.2.2.2 ?_ k'
            intro ht
            have := g.inv.acc.seq new ((g.hid new ht).ex new (g.hid new ht).top)
            omega
          · exact hold a b c hm
    · rw [hwork]
      show (dd :: q.map (·.2.1)).Nodup
      rcases hspec.2 with ⟨_, rfl, _⟩ | ⟨e1, _, hq | hq, _⟩
      · exact hj.wnd
      · rw [hq]; exact hj.wnd
      · rw [hq, List.map_cons, List.nodup_cons, List.nodup_cons]
        refine ⟨?_, ?_, hwnd.2⟩
        · intro hm
          rcases List.mem_cons.1 hm with e | hm
          · have := hle dd hd; have e : dd = new := e; omega
          · exact hwnd.1 hm
        · intro hm
          obtain ⟨⟨a, b, c⟩, hm, e⟩ := List.mem_map.1 hm
          have := hle b (hj.work a b c (List.mem_cons_of_mem _ hm)).1
          have e : b = new := e
          omega

theorem JobsInv.next {repl fail : Bool} {s s' : St} {K K' : Nat → Int} {J J' : List Job} {L : Nat → Int} {H : Nat → Nat → Prop} (g : JobsInv repl fail s K J L H)
    (h : MixStep repl fail s K J s' K' J') : ∃ L' H', JobsInv repl fail s' K' J' L' H' := by
  cases h with
  | start ht hs => exact ⟨L, _, g.start ht hs⟩
  | work hs hu => obtain ⟨H', g'⟩ := g.work hs hu; exact ⟨L, H', g'⟩
  | step op hq hh hrep hfail hup => obtain ⟨L', g'⟩ := g.step hq hh hrep hfail hup; exact ⟨L', H, g'⟩
  | lock id hn hl => exact ⟨L, H, g.lock hn hl⟩
  | rmrow hp hn hc hr => exact ⟨L, H, g.rmrow hp hn hc hr⟩
  | remount hd => exact ⟨L, H, g.remount hd⟩

theorem Mixed.inv {repl fail : Bool} {s : St} {K : Nat → Int} {J : List Job} (h : Mixed repl fail s K J) : ∃ L H, JobsInv repl fail s K J L H := by
  induction h with
  | init h =>
    obtain ⟨L, g⟩ := h.good
    have hT : Running [] = NoT := by funext t; exact propext ⟨fun ⟨j, hj, _⟩ => (by cases hj), fun h => h.elim⟩
    have hno : ∀ t, ¬Running [] t := by rintro t ⟨j, hj, _⟩; cases hj
    exact ⟨L, fun _ _ => False, by rw [hT]; exact g.inv, g.res, g.exact, g.le, g.eq, fun t ht => absurd ht (hno t), fun t _ ht => absurd ht (hno t), List.nodup_nil,
      fun j hj => by (cases hj), fun j hj => by (cases hj), fun j hj => by (cases hj)⟩
  | next _ hs ih => obtain ⟨L, H, g⟩ := ih; exact g.next hs

end Verif.Fs
