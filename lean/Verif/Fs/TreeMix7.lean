/-
`copy_tree` (fs.py:504-638) with other requests in between: if nothing changes the source in the meantime, the copy is exact.
The theorem.
-/
import Verif.Fs.TreeMix6

namespace Verif.Fs

theorem Ex.handle {S : Nat → Prop} {T : Nat → Prop} {L : Nat → Int} {src tmp : Nat} {c s1 : St} {w : CpWalk} {sd dd k id new : Nat} {q : List (Nat × Nat × Nat)}
    {cache M : List (Nat × Nat)} {C : List Nat} {H : Nat → Prop} {db : Db} (h : Ex S src tmp c (.row w sd dd k id) C M) (hi : Inv T L c) (hh : Hidden c tmp H)
    (hT : ∀ t, T t → t ≤ c.db.seq) (hok : JobOk c H tmp (.row w sd dd k id)) (hc : copyRow c w id = some (s1, new, q, cache)) (ha : s1.db.addCopy dd k new = some db) (brk : Bool) :
    ∃ M', Ex S src tmp { s1 with db := db } (.walk (if brk then ⟨none, (sd, dd, k + 1) :: q, cache⟩ else ⟨some (sd, dd, k + 1), q, cache⟩)) (id :: C) M' := by
  have hM : AL.get M sd = some dd := h.work sd dd k (List.mem_cons_self ..)
  have hrow := h.row w sd dd k id rfl
  obtain ⟨hSid, hids⟩ := h.sOut sd k id (h.mS sd dd hM) hrow
  have hfree : AL.get c.db.contents (dd, k) = none := (hok.work sd dd k (List.mem_cons_self ..)).2 k (Nat.le_refl _)
  have hseq : tmp ≤ c.db.seq := hi.acc.seq _ (hh.ex _ hh.top)
  have hval : ∀ i i', AL.get M i = some i' → i' ≤ c.db.seq := fun i i' hm => hi.acc.seq _ (hh.ex _ (hh.mem (h.mIn i i' hm)))
  have hfr : ∀ j, c.db.seq < new → AL.get c.db.contents (new, j) = none := fun j hn => (hi.acc.fresh hn).2.2.2.2 (fun ht => by have := hT _ ht; omega) j
  have hidlt := h.sLt id hSid
  have heff := (copyRow_spec hi hc (fun x hx => by
    obtain ⟨h1, h2⟩ := hok.cache id x hx
    exact (hh.rc hi h1).resolve_left h2)).1
  unfold Db.addCopy at ha
  rw [heff.con, hfree] at ha
  have hdb := Option.some.inj ha
  subst hdb
  have hcon : ∀ p j, AL.get (AL.set c.db.contents (dd, k) new) (p, j) = if (p, j) = (dd, k) then some new else AL.get c.db.contents (p, j) := by
    intro p j; rw [AL.get_set]
  have fin : ∀ M', Handled1 src c { s1 with db := { s1.db with contents := AL.set c.db.contents (dd, k) new, names := incNames s1.db.names [k] } } w dd k id new q cache M M' →
      ∃ M', Ex S src tmp { s1 with db := { s1.db with contents := AL.set c.db.contents (dd, k) new, names := incNames s1.db.names [k] } }
        (.walk (if brk then ⟨none, (sd, dd, k + 1) :: q, cache⟩ else ⟨some (sd, dd, k + 1), q, cache⟩)) (id :: C) M' := by
    intro M' e
    refine ⟨M', h.put e hseq hfree hfr hval ?_ ?_ ?_⟩
    · intro t
      cases brk <;> simp [CpPc.work]
    · cases brk <;> rfl
    · intro _ _ _ _ _ e; cases e
  rcases copyRow_cases hc with ⟨a, h1, h2, h3, h4, h5⟩ | ⟨a, h1, h2, h3, h4, h5, h6⟩
  · -- the inode has a copy already
    have hm := (h.cacheM id new h1).1
    refine fin M ⟨fun _ _ hx => hx, fun _ _ hx => Or.inl hx, hm, hcon, heff.ino, heff.xat, heff.sym, heff.blk, ?_, fun t ht => Or.inl (h4 ▸ ht), fun t ht => h4 ▸ ht,
      fun hn => (by rw [hm] at hn; cases hn), fun i x hx => Or.inl (h5 ▸ hx), fun i x hx => h5 ▸ hx, fun hn => (by rw [hm] at hn; cases hn), Or.inr hm⟩
    have hne : id ≠ new := fun e => by have := h.mNew id new hm hids; omega
    obtain ⟨x, y, hx, hy, e1, e2, e3, e4⟩ := h.copy id new hm hids
    have ⟨r1, r2, r3, r4, r5, _, r7⟩ := modInode_rest c.db new (fun i => { i with refcount := i.refcount + 1 })
    subst h3
    refine ⟨x, { y with refcount := y.refcount + 1 }, by rw [← hx]; exact heff.ino id hne, ?_, e1, ?_, ?_, ?_⟩
    · show AL.get (c.db.modInode new _).inodes new = _
      rw [modInode_get, if_pos rfl, hy]; rfl
    · show ∀ k, AL.get (c.db.modInode new _).xattrs (new, k) = AL.get (c.db.modInode new _).xattrs (id, k)
      rw [r3]; exact e2
    · show AL.get (c.db.modInode new _).symlinks new = AL.get (c.db.modInode new _).symlinks id
      rw [r4]; exact e3
    · show ∀ k, AL.get (c.db.modInode new _).blocks (new, k) = AL.get (c.db.modInode new _).blocks (id, k)
      rw [r5]; exact e4
  · have hm : AL.get M id = none := by
      cases hm : AL.get M id with
      | none => rfl
      | some x =>
        exfalso
        by_cases hr : c.db.rc id = 1
        · obtain ⟨j, j', k', hj, hjc⟩ := h.link id x hm hids
          obtain ⟨y, hy, hym, _⟩ := h.ent j j' k' x hj hjc
          have hyi : y = id := h.mInj _ _ _ hym hm
          subst hyi
          refine two_rows hi.acc hy hrow (fun e => ?_) hr
          cases e
          rw [hj] at hM; cases hM
          rw [hfree] at hjc; cases hjc
        · have := h.cacheAll id x hm hids hr
          have : AL.get w.cache id = some x := this
          rw [h1] at this; cases this
    have hne : id ≠ new := by omega
    have hfresh := hi.acc.fresh (i := c.db.seq + 1) (by omega)
    subst h4
    refine fin (AL.set M id new) ⟨fun i i' hx => ?_, fun i i' hx => ?_, AL.get_set_self .., hcon, heff.ino, heff.xat, heff.sym, heff.blk, ?_, fun t ht => ?_, fun t ht => ?_,
      fun _ j x hx => ?_, fun i x hx => ?_, fun i x hx => ?_, fun _ hr => ?_, Or.inl (by omega)⟩
    · rw [AL.get_set_ne _ _ (fun e => by rw [e, hm] at hx; cases hx)]; exact hx
    · rw [AL.get_set] at hx
      split at hx
      · rename_i e; cases hx; exact Or.inr ⟨hm, h3, e, rfl⟩
      · exact Or.inl hx
    · subst h3
      refine ⟨a, { a with refcount := 1, locked := false }, ?_, ?_, ⟨rfl, rfl, rfl, rfl, rfl, rfl, rfl, rfl, rfl⟩, fun j => ?_, ?_, fun j => ?_⟩
      · rw [← h2]; exact heff.ino id hne
      · show AL.get (AL.set c.db.inodes _ _) _ = _
        rw [AL.get_set_self]
      · show AL.get (c.db.copyInode id a).xattrs _ = AL.get (c.db.copyInode id a).xattrs _
        rw [copyInode_xattrs hfresh.2.1, copyInode_xattrs hfresh.2.1, if_pos rfl, if_neg hne]
      · show AL.get (c.db.copyInode id a).symlinks _ = AL.get (c.db.copyInode id a).symlinks _
        rw [copyInode_symlinks hfresh.2.2.2.1, copyInode_symlinks hfresh.2.2.2.1, if_pos rfl, if_neg hne]
      · show AL.get (c.db.copyInode id a).blocks _ = AL.get (c.db.copyInode id a).blocks _
        rw [copyInode_blocks hfresh.2.2.1, copyInode_blocks hfresh.2.2.1, if_pos rfl, if_neg hne]
    · rw [h5] at ht
      split at ht
      · rcases List.mem_cons.1 ht with e | ht
        · exact Or.inr e
        · exact Or.inl ht
      · exact Or.inl ht
    · rw [h5]; split
      · exact List.mem_cons_of_mem _ ht
      · exact ht
    · rw [h5, if_pos (mem_hasChildren hx)]; exact List.mem_cons_self ..
    · rw [h6] at hx
      split at hx
      · rw [AL.get_set] at hx
        split at hx
        · rename_i e; cases hx; exact Or.inr ⟨e, rfl⟩
        · exact Or.inl hx
      · exact Or.inl hx
    · rw [h6]; split
      · rw [AL.get_set_ne _ _ (fun e => by rw [e, h1] at hx; cases hx)]; exact hx
      · exact hx
    · have : a.refcount ≠ 1 := by unfold Db.rc at hr; rw [h2] at hr; exact hr
      rw [h6, if_pos this, AL.get_set_self]

/-! #### Watched copies -/

theorem Watched.mixed {repl fail : Bool} {src tgt : Nat} {s0 s : St} {K : Nat → Int} {J : List Job} {pc : CpPc} {C : List Nat} (h : Watched repl fail src tgt s0 s K J pc C) :
    Mixed repl fail s K J := by
  induction h with
  | start h ht _ hs => exact h.next (.start ht hs)
  | work _ hs hu ih => exact ih.next (.work hs hu)
  | other _ hm _ _ ih => exact ih.next hm

theorem Watched.mixed0 {repl fail : Bool} {src tgt : Nat} {s0 s : St} {K : Nat → Int} {J : List Job} {pc : CpPc} {C : List Nat} (h : Watched repl fail src tgt s0 s K J pc C) :
    ∃ K0 J0, Mixed repl fail s0 K0 J0 := by
  induction h with
  | start h _ _ _ => exact ⟨_, _, h⟩
  | work _ _ _ ih => exact ih
  | other _ _ _ _ ih => exact ih

theorem job_eq {J : List Job} {a b : Job} (hn : (J.map (·.tmp)).Nodup) (ha : a ∈ J) (hb : b ∈ J) (e : a.tmp = b.tmp) : a = b := by
  induction J with
  | nil => cases ha
  | cons j t ih =>
    rw [List.map_cons, List.nodup_cons] at hn
    rcases List.mem_cons.1 ha with ea | ha
    · rcases List.mem_cons.1 hb with eb | hb
      · rw [ea, eb]
      · exact absurd (List.mem_map.2 ⟨b, hb, by rw [← e, ea]⟩) hn.1
    · rcases List.mem_cons.1 hb with eb | hb
      · exact absurd (List.mem_map.2 ⟨a, ha, by rw [e, eb]⟩) hn.1
      · exact ih hn.2 ha hb

theorem JobStep.moves {tgt tmp : Nat} {s s' : St} {pc pc' : CpPc} (h : JobStep tgt tmp s pc s' pc') : pc ≠ pc' := by
  cases h <;> intro e <;> cases e

theorem Watched.ex {repl fail : Bool} {src tgt : Nat} {s0 s : St} {K : Nat → Int} {J : List Job} {pc : CpPc} {C : List Nat} (h : Watched repl fail src tgt s0 s K J pc C) :
    (⟨src, tgt, s0.db.seq + 1, pc⟩ : Job) ∈ J ∧ (pc ≠ .done → pc ≠ .crashed → ∃ M, Ex (Below s0 src) src (s0.db.seq + 1) s pc C M) := by
  induction h with
  | @start s' K J now w h ht hl hs =>
    refine ⟨List.mem_cons_self .., fun _ _ => ⟨[(src, s0.db.seq + 1)], ?_⟩⟩
    obtain ⟨L, H, g⟩ := h.inv
    have hb : ∀ {i}, Below s0 src i ↔ RB s0.db src i := below_iffT g.inv g.res
    unfold copyStart at hs
    split at hs
    · cases hs
    split at hs
    rotate_left
    · cases hs
    rename_i a b ha hbb
    dsimp only at hs
    have e1 := (Prod.mk.inj (Except.ok.inj hs)).1
    have e2 := (Prod.mk.inj (Except.ok.inj hs)).2
    have ⟨r1, r2, r3, r4, r5, _, r7⟩ := modInode_rest s0.db tgt (fun t : Inode => ({ t with atime := a.atime, ctime := a.ctime, mtime := a.mtime, mode := a.mode, uid := a.uid, gid := a.gid } : Inode))
    rw [r7] at e1 e2
    subst e1 e2
    have hex : ∀ {i}, RB s0.db src i → AL.get s0.db.inodes i ≠ none := by
      intro i hi
      induction hi with
      | refl => rw [ha]; simp
      | @row p c k _ hc _ =>
        obtain ⟨n, hnm⟩ := g.inv.acc.nm_of_C (g.inv.Lnn k) hc
        exact (g.inv.child_pos ((g.inv.acc.child_iff _ n _).2 ⟨k, hnm, hc⟩)).2.1
    have hlt : ∀ i, Below s0 src i → i < s0.db.seq + 1 := fun i hi => by have := g.inv.acc.seq i (hex (hb.1 hi)); omega
    have hget : ∀ i i', AL.get [(src, s0.db.seq + 1)] i = some i' → i = src ∧ i' = s0.db.seq + 1 := by
      intro i i' hi
      simp only [AL.get] at hi
      split at hi
      · rename_i e; cases hi; exact ⟨e.symm, rfl⟩
      · cases hi
    have hno : ∀ k, AL.get s0.db.contents (s0.db.seq + 1, k) = none := by
      refine (g.inv.acc.fresh (i := s0.db.seq + 1) (by omega)).2.2.2.2 ?_
      rintro ⟨j, hj, hj2, _⟩
      have := (g.seq j hj).1
      omega
    have hcc : ∀ p k, AL.get (s0.db.modInode tgt (fun t : Inode => ({ t with atime := a.atime, ctime := a.ctime, mtime := a.mtime, mode := a.mode, uid := a.uid, gid := a.gid } : Inode))).contents (p, k) =
        AL.get s0.db.contents (p, k) := fun p k => by rw [r2]
    refine ⟨hlt, fun p k x hp hx => ?_, fun i j x hi hj => by rw [(hget i x hi).1, (hget j x hj).1], ?_, fun i i' hi hne => absurd (hget i i' hi).1 hne, fun i i' hi => ?_,
      fun i i' hi => (hget i i' hi).1 ▸ Below.refl, fun i i' hi hne => absurd (hget i i' hi).1 hne, fun i i' hi hne => absurd (hget i i' hi).1 hne, fun i i' k c' hi hc => ?_,
      fun i i' k x hi hx => Or.inr ⟨0, ?_, Nat.zero_le _⟩, fun i i' lo hm => ?_, fun i i' hi hne => absurd (hget i i' hi).1 hne, fun i i' hi => (by cases hi),
      fun i i' hi hne => absurd (hget i i' hi).1 hne, fun _ _ _ _ _ e => by cases e⟩
    · have hx := (hcc p k).symm.trans hx
      have hbx := (hb.1 hp).row hx
      refine ⟨hb.2 hbx, ?_⟩
      rintro rfl
      obtain ⟨n, hnm⟩ := g.inv.acc.nm_of_C (g.inv.Lnn k) hx
      have hch := (g.inv.acc.child_iff _ n _).2 ⟨k, hnm, hx⟩
      have hn : n ≠ ctrlName := by rintro rfl; rw [g.res.ctrl] at hch; cases hch
      exact hl p n hp hn (by rw [seenEntry_eq g.inv, if_neg hn]; exact hch)
    · simp [AL.get]
    · rw [(hget i i' hi).2]; exact .refl
    · rw [(hget i i' hi).2] at hc
      have hc := (hcc _ k).symm.trans hc
      rw [hno k] at hc; cases hc
    · obtain ⟨h1, h2⟩ := hget i i' hi
      rw [h1, h2]; exact List.mem_cons_self ..
    · rcases List.mem_cons.1 hm with e | hm
      · cases e; simp [AL.get]
      · cases hm
  | @work s s' K J1 J2 pc pc' C hw hs hu ih =>
    refine ⟨(mem_mid _).2 (Or.inl rfl), fun h1 h2 => ?_⟩
    obtain ⟨L, H, g⟩ := hw.mixed.inv
    have hok : JobOk s (H (s0.db.seq + 1)) (s0.db.seq + 1) pc := g.jobs _ ih.1
    have hT : ∀ t, Running (J1 ++ ⟨src, tgt, s0.db.seq + 1, pc⟩ :: J2) t → t ≤ s.db.seq := by
      rintro t ⟨j, hj, rfl, _⟩; exact (g.seq j hj).1
    cases hs with
    | pop => obtain ⟨M, h⟩ := ih.2 (by intro h; cases h) (by intro h; cases h); exact ⟨M, h.pop⟩
    | read hr => obtain ⟨M, h⟩ := ih.2 (by intro h; cases h) (by intro h; cases h); exact ⟨M, h.read g.inv.acc.nkC hr⟩
    | over hr => obtain ⟨M, h⟩ := ih.2 (by intro h; cases h) (by intro h; cases h); exact ⟨M, h.over hr⟩
    | handle brk hc ha =>
      obtain ⟨M, h⟩ := ih.2 (by intro h; cases h) (by intro h; cases h)
      exact h.handle g.inv (g.hid _ (running_mid (by intro h; cases h))) hT hok hc ha brk
    | noInode _ => exact absurd rfl h2
    | dup _ _ => exact absurd rfl h2
    | finish _ => exact absurd rfl h1
    | clash _ => exact absurd rfl h2
  | @other s s' K K' J J' pc C hw hm hin hst ih =>
    refine ⟨hin, fun h1 h2 => ?_⟩
    obtain ⟨M, hM⟩ := ih.2 h1 h2
    obtain ⟨L, H, g⟩ := hw.mixed.inv
    obtain ⟨L', H', g'⟩ := (hw.mixed.next hm).inv
    have hh := g.hid (s0.db.seq + 1) ⟨_, ih.1, rfl, h1⟩
    rcases g.event hm ih.1 h1 with ⟨hf, _⟩ | ⟨pc', hs, _, hj⟩
    · exact ⟨M, hM.frame hh hf hst⟩
    · have := job_eq g'.nodup hin hj rfl
      have : pc = pc' := congrArg Job.pc this
      exact absurd this hs.moves

/-- The entries below the source are as they were. -/
theorem Watched.rows {repl fail : Bool} {src tgt : Nat} {s0 s : St} {K : Nat → Int} {J : List Job} {pc : CpPc} {C : List Nat} (h : Watched repl fail src tgt s0 s K J pc C)
    (hd : pc ≠ .done) : ∀ i k, Below s0 src i → AL.get s.db.contents (i, k) = AL.get s0.db.contents (i, k) := by
  induction h with
  | @start s' K J now w h ht hl hs =>
    intro i k _
    unfold copyStart at hs
    split at hs
    · cases hs
    split at hs
    rotate_left
    · cases hs
    rename_i a b ha hbb
    dsimp only at hs
    have e1 := (Prod.mk.inj (Except.ok.inj hs)).1
    have r2 := (modInode_rest s0.db tgt (fun t : Inode => ({ t with atime := a.atime, ctime := a.ctime, mtime := a.mtime, mode := a.mode, uid := a.uid, gid := a.gid } : Inode))).2.1
    subst e1
    show AL.get (s0.db.modInode tgt _).contents (i, k) = _
    rw [r2]
  | @work s s' K J1 J2 pc pc' C hw hs hu ih =>
    have hd' : pc ≠ .done := by intro e; subst e; cases hs
    replace ih := ih hd'
    obtain ⟨L, H, g⟩ := hw.mixed.inv
    have hme := hw.ex.1
    have hok : JobOk s (H (s0.db.seq + 1)) (s0.db.seq + 1) pc := g.jobs _ hme
    have hh := g.hid _ ⟨_, hme, rfl, hd'⟩
    have hspec : ∀ {w sd dd j id s1 new q cache}, pc = .row w sd dd j id → copyRow s w id = some (s1, new, q, cache) → s1.db.contents = s.db.contents := by
      intro w sd dd j id s1 new q cache e hc
      subst e
      exact (copyRow_spec g.inv hc (fun x hx => by
        obtain ⟨h1, h2⟩ := hok.cache id x hx
        exact (hh.rc g.inv h1).resolve_left h2)).1.con
    cases hs with
    | pop => exact ih
    | read hr => exact ih
    | over hr => exact ih
    | @handle s1 sd dd k' id new w q cache db brk hc ha =>
      intro i k hi
      obtain ⟨M, hM⟩ := hw.ex.2 (by intro h; cases h) (by intro h; cases h)
      have hdd : AL.get M sd = some dd := hM.work sd dd k' (List.mem_cons_self ..)
      have hlt := hM.sLt i hi
      have hge : s0.db.seq + 1 ≤ dd := by
        by_cases hs : sd = src
        · subst hs; rw [hM.mSrc] at hdd; cases hdd; exact Nat.le_refl _
        · exact Nat.le_of_lt (hM.mNew sd dd hdd hs)
      have hcon := hspec rfl hc
      unfold Db.addCopy at ha
      split at ha
      · cases ha
      · have e := Option.some.inj ha
        subst e
        show AL.get (AL.set s1.db.contents (dd, k') new) (i, k) = _
        rw [AL.get_set_ne _ _ (fun e => by cases e; omega), hcon]
        exact ih i k hi
    | noInode _ => exact ih
    | dup hc _ => intro i k hi; rw [hspec rfl hc]; exact ih i k hi
    | finish _ => exact absurd rfl hd
    | clash _ => exact ih
  | @other s s' K K' J J' pc C hw hm hin hst ih =>
    intro i k hi
    rw [hst.con i k hi]
    exact ih hd i k hi

theorem Watched.below_same {repl fail : Bool} {src tgt : Nat} {s0 s : St} {K : Nat → Int} {J : List Job} {pc : CpPc} {C : List Nat} (h : Watched repl fail src tgt s0 s K J pc C)
    (hd : pc ≠ .done) {d : Nat} : Below s src d ↔ Below s0 src d := by
  obtain ⟨K0, J0, h0⟩ := h.mixed0
  obtain ⟨L0, H0, g0⟩ := h0.inv
  obtain ⟨L, H, g⟩ := h.mixed.inv
  have hr := h.rows hd
  rw [below_iffT g.inv g.res, below_iffT g0.inv g0.res]
  constructor
  · intro hb
    induction hb with
    | refl => exact .refl
    | row _ hc ih => exact ih.row (by rw [← hr _ _ ((below_iffT g0.inv g0.res).2 ih)]; exact hc)
  · intro hb
    have key : ∀ {d}, RB s0.db src d → RB s.db src d := by
      intro d hb
      induction hb with
      | refl => exact .refl
      | row hb hc ih => exact ih.row (by rw [hr _ _ ((below_iffT g0.inv g0.res).2 hb)]; exact hc)
    exact key hb

/-! #### C24 -/

/-- C24, with other requests in between: if they change nothing below the source, then at its end `copy_tree` adds to the target a
copy of everything below the source.  `s` is the state when the loop has come to its end, and `s'` the state after the
command.  `φ` maps each inode to its copy.  The copies are new and different inodes with the same attributes (except for the
access time, if it was changed in the meantime), extended attributes, link target and blocks as the originals; their
entries, and those added to the target, are those of the originals.  Missing: the extended attributes of the source
directory itself are not copied (`cptree_root_xattr`); the target may not be deleted in the meantime (`cptree_target_removed`). -/
theorem copy_exact_partial {repl fail : Bool} {src tgt : Nat} {s0 s s' : St} {K : Nat → Int} {J : List Job} {cache : List (Nat × Nat)} {C : List Nat}
    (h : Watched repl fail src tgt s0 s K J (.walk ⟨none, [], cache⟩) C) (hl : Linked s tgt) (he : copyEnd s tgt (s0.db.seq + 1) = some s') :
    ∃ φ : Nat → Nat, φ src = tgt ∧
      (∀ d, Below s src d → d ≠ src → seenAttr s0 (φ d) = none ∧ ∃ a b, seenAttr s' d = some a ∧ seenAttr s' (φ d) = some b ∧ CopyOf' a b ∧
        (∀ n, seenXattr s' (φ d) n = seenXattr s' d n) ∧ seenLink s' (φ d) = seenLink s' d ∧
        (∀ k, AL.get s'.db.blocks (φ d, k) = AL.get s'.db.blocks (d, k))) ∧
      (∀ d e, Below s src d → Below s src e → φ d = φ e → d = e) ∧
      (∀ d n, n ≠ ctrlName → Below s src d → d ≠ src → seenEntry s' (φ d) n = (seenEntry s d n).map φ) ∧
      (∀ n, n ≠ ctrlName → seenEntry s' tgt n = ((seenEntry s src n).map φ).or (seenEntry s tgt n)) := by
  have hnd : CpPc.walk ⟨none, [], cache⟩ ≠ .done := by intro e; cases e
  obtain ⟨hj, hex⟩ := h.ex
  obtain ⟨M, hM⟩ := hex hnd (by intro e; cases e)
  obtain ⟨L, H, g⟩ := h.mixed.inv
  obtain ⟨J1, J2, hJ⟩ := List.append_of_mem hj
  have hb : ∀ {d}, Below s src d ↔ Below s0 src d := h.below_same hnd
  have hrun : Running J (s0.db.seq + 1) := ⟨_, hj, rfl, hnd⟩
  have hh := g.hid _ hrun
  have htgt : ¬H (s0.db.seq + 1) tgt := g.tgt _ hj _ hrun
  have hne : tgt ≠ s0.db.seq + 1 := fun e => htgt (e ▸ hh.top)
  obtain ⟨K0, J0, h0⟩ := h.mixed0
  subst hJ
  have g' := g.finish hnd hl he
  obtain ⟨L0, H0, g0⟩ := h0.inv
  have hE : ∀ p n, n ≠ ctrlName → seenEntry s p n = s.db.child p n := fun p n hn => by rw [seenEntry_eq g.inv, if_neg hn]
  have hE' : ∀ p n, n ≠ ctrlName → seenEntry s' p n = s'.db.child p n := fun p n hn => by rw [seenEntry_eq g'.inv, if_neg hn]
  have htodo : ∀ i i' k x, AL.get M i = some i' → AL.get s.db.contents (i, k) = some x → AL.get s.db.contents (i', k) ≠ none := by
    intro i i' k x hi hx
    rcases hM.todo i i' k x hi hx with h1 | ⟨_, h1, _⟩
    · exact h1
    · cases h1
  have hent : ∀ i i' k x, AL.get M i = some i' → AL.get s.db.contents (i, k) = some x → ∃ x', AL.get s.db.contents (i', k) = some x' ∧ AL.get M x = some x' ∧ x ≠ src := by
    intro i i' k x hi hx
    obtain ⟨x', hx'⟩ := Option.ne_none_iff_exists'.1 (htodo i i' k x hi hx)
    obtain ⟨y, hy, hm, hs⟩ := hM.ent i i' k x' hi hx'
    rw [hx] at hy; cases hy
    exact ⟨x', hx', hm, hs⟩
  -- everything has been copied
  have hall : ∀ d, Below s src d → ∃ d', AL.get M d = some d' := by
    intro d hd
    replace hd := (below_iffT g.inv g.res).1 hd
    induction hd with
    | refl => exact ⟨_, hM.mSrc⟩
    | row _ hc ih =>
      obtain ⟨p', hp'⟩ := ih
      obtain ⟨x', _, hx', _⟩ := hent _ p' _ _ hp' hc
      exact ⟨x', hx'⟩
  have hH : ∀ i i', AL.get M i = some i' → H (s0.db.seq + 1) i' := fun i i' hi => hh.mem (hM.mIn i i' hi)
  -- the last step
  unfold copyEnd at he
  split at he
  · cases he
  rename_i hany
  have hn : ∀ k, AL.get s.db.contents (s0.db.seq + 1, k) ≠ none → AL.get s.db.contents (tgt, k) = none := by
    intro k hk
    cases hg : AL.get s.db.contents (tgt, k) with
    | none => rfl
    | some c =>
      exfalso; apply hany
      obtain ⟨v, hv⟩ := Option.ne_none_iff_exists'.1 hk
      rw [List.any_eq_true]
      exact ⟨((s0.db.seq + 1, k), v), AL.get_some_mem hv, by simp [hg]⟩
  have hget := fun p k => get_moveRows (l := s.db.contents) g.inv.acc.nkC hne hn p k
  have hs' := Option.some.inj he
  have hcon : ∀ p k, AL.get s'.db.contents (p, k) = if p = s0.db.seq + 1 then none else if p = tgt then (AL.get s.db.contents (s0.db.seq + 1, k)).or (AL.get s.db.contents (tgt, k)) else
      AL.get s.db.contents (p, k) := by rw [← hs']; exact hget
  have hino : ∀ i, i ≠ s0.db.seq + 1 → AL.get s'.db.inodes i = AL.get s.db.inodes i := by rw [← hs']; exact fun i hi => AL.get_erase_ne _ hi
  have hxat : s'.db.xattrs = s.db.xattrs := by rw [← hs']
  have hsym : s'.db.symlinks = s.db.symlinks := by rw [← hs']
  have hblk : s'.db.blocks = s.db.blocks := by rw [← hs']
  have hnam : s'.db.names = s.db.names := by rw [← hs']
  have hnid : ∀ n, s'.db.nameId n = s.db.nameId n := fun n => by unfold Db.nameId; rw [hnam]
  have hφ : ∀ i i', AL.get M i = some i' → i ≠ src → (if i = src then tgt else (AL.get M i).getD 0) = i' := by
    intro i i' hi hs; rw [if_neg hs, hi]; rfl
  have hmap : ∀ i i' k, AL.get M i = some i' → AL.get s.db.contents (i', k) = (AL.get s.db.contents (i, k)).map (fun i => if i = src then tgt else (AL.get M i).getD 0) := by
    intro i i' k hi
    cases hx : AL.get s.db.contents (i, k) with
    | none =>
      cases hy : AL.get s.db.contents (i', k) with
      | none => rfl
      | some y => obtain ⟨x, hx', _⟩ := hM.ent i i' k y hi hy; rw [hx] at hx'; cases hx'
    | some x =>
      obtain ⟨x', h1, h2, h3⟩ := hent i i' k x hi hx
      rw [h1, Option.map_some, hφ x x' h2 h3]
  refine ⟨fun i => if i = src then tgt else (AL.get M i).getD 0, if_pos rfl, ?_, ?_, ?_, ?_⟩
  · intro d hd hds
    obtain ⟨d', hd'⟩ := hall d hd
    have hlt := hM.sLt d (hM.mS d d' hd')
    have hgt := hM.mNew d d' hd' hds
    obtain ⟨a, b, h1, h2, h3, h4, h5, h6⟩ := hM.copy d d' hd' hds
    simp only [hφ d d' hd' hds]
    refine ⟨?_, a, b, ?_, ?_, h3, fun n => ?_, ?_, fun k => by rw [hblk]; exact h6 k⟩
    · rw [seenAttr_eq]
      cases hg : AL.get s0.db.inodes d' with
      | none => rfl
      | some z => have := g0.inv.acc.seq d' (by rw [hg]; simp); omega
    · rw [seenAttr_eq, hino d (by omega)]; exact h1
    · rw [seenAttr_eq, hino d' (by omega)]; exact h2
    · rw [seenXattr_eq, seenXattr_eq]
      unfold Db.xval
      simp only [hxat, h4]
    · rw [seenLink_eq, seenLink_eq, hino d (by omega), hino d' (by omega), h1, h2, hsym, h5]; simp
  · intro d e hd he' heq
    obtain ⟨d', hd'⟩ := hall d hd
    obtain ⟨e', he''⟩ := hall e he'
    by_cases h1 : d = src
    · by_cases h2 : e = src
      · rw [h1, h2]
      · simp only [if_pos h1, hφ e e' he'' h2] at heq
        exact absurd (heq ▸ hH e e' he'') htgt
    · by_cases h2 : e = src
      · simp only [if_pos h2, hφ d d' hd' h1] at heq
        exact absurd (heq ▸ hH d d' hd') htgt
      · simp only [hφ d d' hd' h1, hφ e e' he'' h2] at heq
        exact hM.mInj d e d' hd' (heq ▸ he'')
  · intro d n hn hd hds
    obtain ⟨d', hd'⟩ := hall d hd
    rw [hE _ _ hn, hE' _ _ hn]
    simp only [hφ d d' hd' hds]
    unfold Db.child
    rw [hnid]
    cases s.db.nameId n with
    | none => rfl
    | some k =>
      have hgt := hM.mNew d d' hd' hds
      have h1 : d' ≠ tgt := fun e => htgt (e ▸ hH d d' hd')
      simp only [Option.bind_some]
      rw [hcon, if_neg (by omega), if_neg h1]
      exact hmap d d' k hd'
  · intro n hn
    rw [hE _ _ hn, hE' _ _ hn, hE _ _ hn]
    unfold Db.child
    rw [hnid]
    cases s.db.nameId n with
    | none => rfl
    | some k =>
      simp only [Option.bind_some]
      rw [hcon, if_neg hne, if_pos rfl]
      rw [hmap src _ k hM.mSrc]

/-! #### A case: `/d` is copied to `/t`, and in between a file is made in the root directory -/

def wtSt1 : St := (step mxSt1 (.mknod 1 nX 0o100644 0 7 7 22)).2
def wtSt2 : St := match copyRow wtSt1 ⟨none, [], []⟩ 5 with
  | some (s, new, _, _) => (match s.db.addCopy 7 3 new with | some d => { s with db := d } | none => cmSt)
  | none => cmSt
def wtSt3 : St := (copyEnd wtSt2 6 7).getD cmSt

theorem wt_below {i : Nat} (h : Below cmSt 4 i) : i = 4 ∨ i = 5 := by
  obtain ⟨L, g⟩ := cm_hist.good
  replace h := (below_iffT g.inv g.res).1 h
  have key : ∀ e ∈ cmSt.db.contents, (e.1.1 = 4 → e.2 = 5) ∧ e.1.1 ≠ 5 := by decide +kernel
  induction h with
  | refl => exact Or.inl rfl
  | @row b c k _ hc ih =>
    have := key _ (AL.get_some_mem hc)
    rcases ih with rfl | rfl
    · exact Or.inr (this.1 rfl)
    · exact absurd rfl this.2

theorem wt_noLoop : NoLoop cmSt 4 := by
  intro d n hd hn hc
  obtain ⟨L, g⟩ := cm_hist.good
  have := wt_below (hd.entry hn hc)
  rw [seenEntry_eq g.inv, if_neg hn] at hc
  obtain ⟨k, _, hk⟩ := (g.inv.acc.child_iff _ _ _).1 hc
  have key : ∀ e ∈ cmSt.db.contents, e.2 = 4 → e.1.1 = 1 := by decide +kernel
  have := key _ (AL.get_some_mem hk) rfl
  rcases wt_below hd with rfl | rfl <;> cases this

theorem wt_same : SameTree (Below cmSt 4) [] mxSt1 wtSt1 := by
  have h1 : wtSt1.db.contents = AL.set mxSt1.db.contents (1, 5) 8 := by decide +kernel
  have h2 : wtSt1.db.xattrs = mxSt1.db.xattrs := by decide +kernel
  have h3 : wtSt1.db.symlinks = mxSt1.db.symlinks := by decide +kernel
  have h4 : (AL.get wtSt1.db.inodes 4).map noAtime = (AL.get mxSt1.db.inodes 4).map noAtime := by decide +kernel
  have h5 : (AL.get wtSt1.db.inodes 5).map noAtime = (AL.get mxSt1.db.inodes 5).map noAtime := by decide +kernel
  refine ⟨fun i k hi => ?_, fun i hi => ?_, fun i k _ => by rw [h2], fun i _ => by rw [h3], fun i b hi => by cases hi⟩
  · rw [h1, AL.get_set_ne]
    intro e
    rcases wt_below hi with rfl | rfl <;> cases e
  · rcases wt_below hi with rfl | rfl
    · exact h4
    · exact h5

theorem wt_watched : ∃ K, Watched false false 4 6 cmSt wtSt2 K [⟨4, 6, 7, .walk ⟨none, [], []⟩⟩] (.walk ⟨none, [], []⟩) [5] := by
  have h0 : Mixed false false cmSt cmK [] := .init cm_hist
  have h1 := Watched.start (src := 4) (tgt := 6) (now := 20) (w := ⟨none, [(4, 7, 0)], []⟩) (s' := mxSt1) h0 (h0.notInCopy (by decide +kernel)) wt_noLoop (by rfl)
  have h2 := h1.other (.step (.mknod 1 nX 0o100644 0 7 7 22) (by decide +kernel) trivial (fun _ h => h) (fun _ h => h.elim) (fun _ _ _ h => by cases h)) (List.mem_cons_self ..) wt_same
  have h3 := h2.work (J1 := []) (J2 := []) .pop ⟨fun _ _ _ _ _ h => by (cases h), fun h => by (cases h)⟩
  have h4 := h3.work (J1 := []) (J2 := []) (.read (k := 3) (id := 5) (by decide +kernel)) ⟨fun _ _ _ _ _ h => by (cases h), fun h => by (cases h)⟩
  have h5 := h4.work (J1 := []) (J2 := []) (.handle true (s1 := { wtSt1 with db := wtSt1.db.copyInode 5 ((AL.get wtSt1.db.inodes 5).getD ⟨0, 0, 0, 0, 0, 0, 0, 0, 0, false⟩) })
    (new := 9) (q := []) (cache := []) (db := wtSt2.db) (by rfl) (by rfl)) ⟨fun w sd dd k id h => by cases h; decide +kernel, fun h => by (cases h)⟩
  have h6 := h5.work (J1 := []) (J2 := []) .pop ⟨fun _ _ _ _ _ h => by (cases h), fun h => by (cases h)⟩
  have h7 := h6.work (J1 := []) (J2 := []) (.over (by decide +kernel)) ⟨fun _ _ _ _ _ h => by (cases h), fun h => by (cases h)⟩
  exact ⟨_, h7⟩

/-- The theorem applies: `/t/f` is a copy of `/d/f`. -/
example : ∃ K J, Watched false false 4 6 cmSt wtSt2 K J (.walk ⟨none, [], []⟩) [5] ∧ Linked wtSt2 6 ∧ copyEnd wtSt2 6 (cmSt.db.seq + 1) = some wtSt3 ∧
    seenEntry wtSt3 6 nF = some 9 ∧ seenEntry wtSt3 4 nF = some 5 ∧ seenEntry wtSt3 1 nX = some 8 := by
  obtain ⟨K, h⟩ := wt_watched
  exact ⟨K, _, h, Or.inr ⟨1, nT, by decide, by decide +kernel⟩, by rfl, by decide +kernel, by decide +kernel, by decide +kernel⟩

end Verif.Fs
