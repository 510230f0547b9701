/-
The invariant holds in all histories.
-/
import Verif.Fs.Steps4
import Verif.Fs.TreeCp3

namespace Verif.Fs

theorem below_iff {L : Nat → Int} {s : St} (h : Inv NoT L s) (hr : Res s) {a b : Nat} : Below s a b ↔ DbBelow s a b := by
  constructor
  · intro hb
    induction hb with
    | refl => exact DbBelow.refl
    | entry _ hn hc ih => rw [seenEntry_eq h, if_neg hn] at hc; exact ih.entry hc
  · intro hb
    induction hb with
    | refl => exact Below.refl
    | @entry b c n _ hc ih =>
      have hn : n ≠ ctrlName := by rintro rfl; rw [hr.ctrl] at hc; cases hc
      exact ih.entry hn (by rw [seenEntry_eq h, if_neg hn]; exact hc)

theorem linked_rc {L : Nat → Int} {s : St} (h : Inv NoT L s) {i : Nat} (hl : Linked s i) : 0 < s.db.rc i := by
  rcases hl with rfl | ⟨p, n, hn, hc⟩
  · have := h.acc.rc rootInode
    have h2 := links_nonneg s.db rootInode
    have h3 : base rootInode = 1 := by decide
    omega
  · rw [seenEntry_eq h, if_neg hn] at hc
    exact (h.child_pos hc).1

theorem noLoop_db {L : Nat → Int} {s : St} (h : Inv NoT L s) (hr : Res s) {a : Nat} (hl : NoLoop s a) (d : Nat) (n : Bytes)
    (hd : DbBelow s a d) : s.db.child d n ≠ some a := by
  intro hc
  have hn : n ≠ ctrlName := by rintro rfl; rw [hr.ctrl] at hc; cases hc
  exact hl d n ((below_iff h hr).2 hd) hn (by rw [seenEntry_eq h, if_neg hn]; exact hc)

theorem DbBelow.ex {L : Nat → Int} {s : St} (h : Inv NoT L s) {a b : Nat} (hb : DbBelow s a b) (ha : AL.get s.db.inodes a ≠ none) :
    AL.get s.db.inodes b ≠ none := by
  cases hb with
  | refl => exact ha
  | entry _ hc => exact (h.child_pos hc).2.1

theorem cptree_good {L : Nat → Int} {s s' : St} {src tgt : Nat} (h : Inv NoT L s) (hr : Res s) (hnl : NoLoop s src) (htg : Linked s tgt)
    (hc : CpTree s src tgt s') : Inv NoT L s' ∧ s'.opened = s.opened ∧ Res s' := by
  obtain ⟨_, hinv, hop, _, _, _, _, ⟨a, t, ha, ht, hta⟩, hch, hx, _, _, φ, _, hcopy, _, hent, htgt, hnew⟩ :=
    hc.spec h (noLoop_db h hr hnl) (linked_rc h htg)
  refine ⟨hinv, hop, ⟨fun p => ?_, fun i n hi hn => ?_⟩⟩
  · by_cases hp : p = tgt
    · rw [hp, htgt, hr.ctrl, hr.ctrl]; rfl
    · by_cases hps : p ≤ s.db.seq
      · rw [hch p _ hps hp]; exact hr.ctrl p
      · cases hcc : s'.db.child p ctrlName with
        | none => rfl
        | some c =>
          exfalso
          obtain ⟨k, _, hk⟩ := (hinv.acc.child_iff _ _ _).1 hcc
          obtain ⟨d, hd, hds, rfl⟩ := hnew p (by omega) (rc_pos_ne (hinv.acc.par0 _ _ _ hk))
          rw [hent d _ hd hds, hr.ctrl] at hcc
          cases hcc
  · have old : ∀ j, j ≤ s.db.seq → s'.db.xval j n = none := by
      intro j hj
      rw [hx j n hj]
      by_cases hex : AL.get s.db.inodes j = none
      · cases hq : s.db.xval j n with
        | none => rfl
        | some v =>
          obtain ⟨k, _, hk⟩ := (h.acc.xval_iff _ _ _).1 hq
          exact absurd hex (h.acc.xin _ _ _ hk)
      · exact hr.acl j n hex hn
    by_cases his : i ≤ s.db.seq
    · exact old i his
    · obtain ⟨d, hd, hds, rfl⟩ := hnew i (by omega) hi
      obtain ⟨_, _, _, _, _, _, hxe, _⟩ := hcopy d hd hds
      rw [hxe]
      exact old d (h.acc.seq d (hd.ex h (by rw [ha]; simp)))

structure Good (repl fail : Bool) (s : St) (K : Nat → Int) (L : Nat → Int) : Prop where
  inv : Inv NoT L s
  res : Res s
  exact : repl = false → L = fun _ => 0
  le : ∀ i, K i ≤ s.cnt i
  eq : fail = false → ∀ i, K i = s.cnt i

theorem Hist.good {repl fail : Bool} {s : St} {K : Nat → Int} (h : Hist repl fail s K) : ∃ L, Good repl fail s K L := by
  have hroot : ∀ (s : St) i, ({ s with opened := [(rootInode, 1)], failsafe := false } : St).cnt i = if i = rootInode then 1 else 0 := by
    intro s i
    simp only [St.cnt, AL.get]
    by_cases hi : i = rootInode
    · rw [if_pos hi.symm, if_pos hi]; rfl
    · rw [if_neg (fun e => hi e.symm), if_neg hi]; rfl
  induction h with
  | init uid gid now m hm =>
    have h0 := hroot (Fs.init uid gid now m)
    refine ⟨_, init_inv uid gid now hm, ⟨?_, ?_⟩, fun _ => rfl, fun i => by rw [← h0 i]; exact Int.le_refl _, fun _ i => (h0 i).symm⟩
    · intro p
      have : (findName [(1, (lostFound, (1 : Int)))] ctrlName).map (·.1) = none := by decide
      have : (Fs.init uid gid now m).db.nameId ctrlName = none := this
      unfold Db.child; rw [this]; rfl
    · intro i n _ _
      unfold Db.xval
      cases (Fs.init uid gid now m).db.nameId n <;> rfl
  | step op _ hq hh hrep hfail ih =>
    obtain ⟨L, g⟩ := ih
    obtain ⟨L', he, hl⟩ := step_eff g.inv (kernelOk_of g.inv g.res g.le hq hh)
    refine ⟨L', he.inv, g.res.step g.inv he, ?_, ?_, ?_⟩
    · intro hr
      rw [hl ?_, g.exact hr]
      intro id n v now hop
      subst hop
      have h1 := hrep hr
      have h2 : seenXattr _ id n = none := Classical.byContradiction h1
      rw [seenXattr_eq] at h2
      split at h2
      · rename_i hn
        obtain ⟨ino, hi⟩ := g.inv.known_ex ((g.inv.cnt_pos_iff id).1 (by have := g.le id; have := hq.1; omega))
        exact g.res.acl id n (by rw [hi]; simp) hn
      · exact h2
    · intro i
      have := (he.cnt i).1
      have := g.le i
      omega
    · intro hf i
      have h1 := (he.cnt i).2 (by
        by_cases hlk : looksUp op
        · exact Or.inl (hfail hf hlk)
        · exact Or.inr hlk)
      rw [h1, g.eq hf i]
  | @remount s K _ ih =>
    obtain ⟨L, g⟩ := ih
    obtain ⟨s1, he, hinv, hfg, _⟩ := remount_spec g.inv
    have h0 := hroot s1
    rw [he]
    refine ⟨L, hinv, ?_, g.exact, fun i => ?_, fun _ i => (h0 i).symm⟩
    · refine ⟨fun p => ?_, fun i n hi hn => ?_⟩
      · exact (hfg.child p ctrlName).trans (g.res.ctrl p)
      · exact (hfg.xval i n hi).trans (g.res.acl i n (hfg.noNew i hi) hn)
    · show _ ≤ ({ s1 with opened := [(rootInode, 1)], failsafe := false } : St).cnt i
      rw [h0 i]; exact Int.le_refl _
  | @lock s s' K id _ hl ih =>
    obtain ⟨L, g⟩ := ih
    unfold lockInode at hl
    split at hl
    · cases hl
    · cases hl
      refine ⟨L, g.inv.modInode id _ (fun _ => rfl) (fun _ => Nat.le_refl _), ⟨fun p => ?_, fun i n hi hn => ?_⟩, g.exact, g.le, g.eq⟩
      · exact (modInode_child _ _ _ _ _).trans (g.res.ctrl p)
      · refine (modInode_xval _ _ _ _ _).trans (g.res.acl i n ?_ hn)
        intro e
        apply hi
        show AL.get (s.db.modInode id _).inodes i = none
        rw [modInode_get]
        split
        · rename_i e2; rw [← e2, e]; rfl
        · exact e
  | @rmtree s s' K p n res _ hn hnb hr ih =>
    obtain ⟨L, g⟩ := ih
    rcases hr.spec g.inv hn (fun a ha hb => hnb a (by rw [seenEntry_eq g.inv, if_neg hn]; exact ha) ((below_iff g.inv g.res).2 hb)) with
      ⟨e, _, rfl, _⟩ | ⟨id0, _, _, _, _, hinv, hrest, hcnt, _, hgone, hsame, hino⟩
    · exact ⟨L, g⟩
    · refine ⟨L, hinv, ⟨fun q => ?_, fun i m hi hm => ?_⟩, g.exact, fun i => by rw [hcnt]; exact g.le i, fun hf i => by rw [hcnt]; exact g.eq hf i⟩
      · by_cases h1 : (q = p ∧ ctrlName = n) ∨ DbBelow s id0 q
        · exact hgone q ctrlName h1
        · rw [hsame q ctrlName (fun h2 => h1 (Or.inl h2)) (fun h2 => h1 (Or.inr h2))]; exact g.res.ctrl q
      · rcases hino i with h1 | ⟨a, b, ha, hb, _⟩
        · exact absurd h1 hi
        · rw [hrest.xval i m (by rw [ha]; simp) hi]
          exact g.res.acl i m (by rw [ha]; simp) hm
  | @rmrow s s' K p id n now res _ hn hc hr ih =>
    obtain ⟨L, g⟩ := ih
    rw [seenEntry_eq g.inv, if_neg hn] at hc
    rcases remove_row g.inv hc hr with rfl | ⟨rfl, he⟩
    · exact ⟨L, g⟩
    · refine ⟨L, he.inv, ⟨fun q => ?_, fun i m hi hm => ?_⟩, g.exact, fun i => ?_, fun hf i => ?_⟩
      · cases hx : s'.db.child q ctrlName with
        | none => rfl
        | some c => have := he.mono _ _ _ hx; rw [g.res.ctrl q] at this; cases this
      · rcases he.inode i with h1 | ⟨a, b, ha, hb, _⟩
        · exact absurd h1 hi
        · rw [he.rest.xval i m (by rw [ha]; simp) hi]
          exact g.res.acl i m (by rw [ha]; simp) hm
      · have := g.le i; unfold St.cnt at this ⊢; rw [he.opened]; exact this
      · have := g.eq hf i; unfold St.cnt at this ⊢; rw [he.opened]; exact this
  | @cptree s s' K src tgt _ hnl htg hr ih =>
    obtain ⟨L, g⟩ := ih
    obtain ⟨hinv, hop, hres⟩ := cptree_good g.inv g.res hnl htg hr
    have hcnt : ∀ i, s'.cnt i = s.cnt i := by intro i; unfold St.cnt; rw [hop]
    exact ⟨L, hinv, hres, g.exact, fun i => by rw [hcnt]; exact g.le i, fun hf i => by rw [hcnt]; exact g.eq hf i⟩

end Verif.Fs
