import Verif.Meta.ProtoSteps
/-
The invariant of the protocol is preserved: the steps of the program.
-/
namespace Verif.Meta

section
variable {cfg : Cfg} {Q : Bytes → Prop} {t : Bytes} {w w' : World} {r : Params} {pr : Proc}

theorem dOff (w : World) (m : Nat) (d : Disk) : ∀ b, b ≠ m → (w.setDisk m d).disk b = w.disk b := fun _ h => setDisk_ne w d h

theorem setProc_disk (w : World) (p : Proc) : (w.setProc p).disk = w.disk := rfl
theorem setProc_remote (w : World) (p : Proc) : (w.setProc p).remote = w.remote := rfl
theorem setProc_proc (w : World) (p : Proc) : (w.setProc p).proc = some p := rfl

/-- To establish the invariant with a process. -/
theorem Inv.mk {rr : Params} (hb : Base cfg Q w'.remote rr) {p : Proc} (hp : w'.proc = some p)
    (h : PcInv cfg Q w'.remote w'.disk rr t p) : Inv cfg Q t w' := ⟨rr, hb, by rw [hp]; exact h⟩

theorem next_got (hb : Base cfg Q w.remote r) (hpc : pr.pc = .got) (h : PcInv cfg Q w.remote w.disk r t pr) (hs : nextStep cfg w pr = some w') :
    Inv cfg Q t w' := by
  unfold PcInv at h
  rw [hpc] at h
  unfold nextStep at hs
  rw [hpc] at hs
  replace hs := (Option.some.inj hs).symm
  subst hs
  refine Inv.mk (rr := r) hb rfl ?_
  unfold PcInv
  dsimp only
  rw [setProc_disk, setProc_remote, setDisk_remote, setDisk_same]
  dsimp only at h ⊢
  have hc : r.seq ≤ pr.p.seq ∧ Cov cfg w.remote.blocks pr.p := by
    rcases h with ⟨_, h2, _⟩ | ⟨_, _, h2, h3, _⟩
    · rw [h2]; exact ⟨Nat.le_refl _, hb.covr⟩
    · exact ⟨h2, h3⟩
  have hcov : Cov cfg w.remote.blocks { pr.p with seq := pr.p.seq + 1, mounted := true } :=
    hc.2.mono hb.below (by have := hc.1; simp only; omega) rfl
  refine ⟨?_, rfl, by have := hc.1; omega, rfl, hcov, ?_⟩
  · rcases h with ⟨h1, h2, h3, h4, h5, h6, h7, h8⟩ | ⟨⟨l, h1, h2, h3, h4, h5, h6, h7, h8, h9⟩, _, _⟩
    · refine ⟨{ pr.p with seq := pr.p.seq + 1, mounted := true }, by rw [setDisk_same], by have := hc.1; simp only; omega, fun _ => by have := hc.1; simp only; omega, ?_, ?_, ?_, hcov, Or.inl rfl, ?_⟩
      · rw [setDisk_same]; exact h3
      · rw [setDisk_same]; exact h4
      · rw [setDisk_same]; exact h5
      · intro b hne
        rw [setDisk_ne _ _ hne]
        exact ⟨(h7 b hne).1, fun l' hl' => ⟨(h7 b hne).2 l' hl', fun e => by rw [h1] at e; cases e⟩⟩
    · refine ⟨{ pr.p with seq := pr.p.seq + 1, mounted := true }, by rw [setDisk_same], by have := hc.1; simp only; omega, fun _ => by have := hc.1; simp only; omega, ?_, ?_, ?_, hcov, Or.inl rfl, ?_⟩
      · rw [setDisk_same]; exact h4
      · rw [setDisk_same]; exact h5
      · rw [setDisk_same]; exact h6
      · intro b hne
        rw [setDisk_ne _ _ hne]
        exact h9 b hne
  · rcases h with ⟨_, _, _, _, _, h6, _⟩ | ⟨_, hk, _, _, hn, _⟩
    · exact Or.inr h6
    · rcases hn with hn | hn
      · exact Or.inl ⟨hk, hn⟩
      · exact Or.inr hn

theorem Sync.mono {blocks : Blocks} {n n' : Nat} {db : Bytes} (h : Sync cfg blocks n db pr) (hb : Below blocks n) (hn : n ≤ n') :
    Sync cfg blocks n' db pr := by
  rcases h with h | h
  · exact Or.inl h
  · exact Or.inr (h.mono hb hn)

theorem next_mark1 (hb : Base cfg Q w.remote r) (hpc : pr.pc = .mark1) (h : PcInv cfg Q w.remote w.disk r t pr) (hs : nextStep cfg w pr = some w') :
    Inv cfg Q t w' := by
  unfold PcInv at h
  rw [hpc] at h
  unfold nextStep at hs
  rw [hpc] at hs
  replace hs := (Option.some.inj hs).symm
  subst hs
  dsimp only at h
  obtain ⟨h1, h2, h3, h4, h5, h6⟩ := h
  refine Inv.mk (rr := pr.p) (hb.setCur (Nat.le_of_lt h3) h5) rfl ?_
  unfold PcInv
  dsimp only
  exact ⟨h1.act hb h2 h3 h4 h5 rfl rfl, rfl, h6.mono hb.below (Nat.le_of_lt h3)⟩

theorem next_mark2 (hb : Base cfg Q w.remote r) (hpc : pr.pc = .mark2) (h : PcInv cfg Q w.remote w.disk r t pr) (hs : nextStep cfg w pr = some w') :
    Inv cfg Q t w' := by
  unfold PcInv at h
  rw [hpc] at h
  unfold nextStep at hs
  rw [hpc] at hs
  replace hs := (Option.some.inj hs).symm
  subst hs
  dsimp only at h
  obtain ⟨h1, h2, h3⟩ := h
  have hm : pr.p.mounted = true := by rw [h2]; exact h1.rm
  refine Inv.mk (rr := r) (by rw [h2]; exact hb.setVer (fun e => by rw [h1.rm] at e; cases e)) rfl ?_
  unfold PcInv
  dsimp only
  exact ⟨(h1.setVer hm).proc rfl h1.covp, by rw [h2], hm, h3⟩

theorem next_up (hb : Base cfg Q w.remote r) {k : UpKind} {size : Nat} (hpc : pr.pc = .up k size []) (h : PcInv cfg Q w.remote w.disk r t pr)
    (hs : nextStep cfg w pr = some w') : Inv cfg Q t w' := by
  unfold PcInv at h
  rw [hpc] at h
  unfold nextStep at hs
  rw [hpc] at hs
  cases k with
  | pass =>
    replace hs := (Option.some.inj hs).symm
    subst hs
    dsimp only at h
    obtain ⟨h1, h2, h3, h4, h5⟩ := h
    refine Inv.mk (rr := r) hb rfl ?_
    unfold PcInv
    dsimp only
    refine ⟨h1.proc rfl h1.covp, h2, h3, Or.inr ?_⟩
    have h4' : InSync cfg w.remote.blocks r.seq (w.disk pr.m).db pr.dirty := by simpa using h4
    exact h4'
  | snap =>
    replace hs := (Option.some.inj hs).symm
    subst hs
    dsimp only at h
    obtain ⟨h1, h2, h3, h4, h5, h6, h7⟩ := h
    refine Inv.mk (rr := r) hb rfl ?_
    unfold PcInv
    dsimp only
    rw [h4] at h5
    have hsn : Snapshot cfg w.remote.blocks (finalize cfg pr.p size (w.disk pr.m).db) (w.disk pr.m).db := by
      rw [h7]; refine Snapshot.finalize ?_; rw [h2]; simpa using h5
    exact ⟨⟨h1.proc rfl hsn.cov, h4, h3, hsn⟩, h2⟩
  | close =>
    replace hs := (Option.some.inj hs).symm
    subst hs
    dsimp only at h
    obtain ⟨h1, h2, h3, h4, h5, h6, h7, h8⟩ := h
    refine Inv.mk (rr := r) hb rfl ?_
    unfold PcInv
    dsimp only
    rw [h4] at h6
    have hsn : Snapshot cfg w.remote.blocks (finalize cfg pr.p size (w.disk pr.m).db) (w.disk pr.m).db := by
      rw [h8]; refine Snapshot.finalize ?_; rw [h2]; simpa using h6
    exact ⟨h1.proc rfl hsn.cov, h2, h3, h5, hsn⟩

theorem Frozen.proc {rem : Remote} {disk : Nat → Disk} {pr' : Proc} (h : Frozen cfg Q rem disk r t pr) (hm : pr'.m = pr.m) (hp : pr'.p = pr.p) (hd : pr'.dirty = pr.dirty) :
    Frozen cfg Q rem disk r t pr' := by
  obtain ⟨h1, h2, h3, h4⟩ := h
  exact ⟨h1.proc hm (by rw [hp]; exact h1.covp), by rw [hd]; exact h2, by rw [hp]; exact h3, by rw [hp, hm]; exact h4⟩

theorem next_fin1 (hb : Base cfg Q w.remote r) {last : Bool} (hpc : pr.pc = .fin1 last) (h : PcInv cfg Q w.remote w.disk r t pr)
    (hs : nextStep cfg w pr = some w') : Inv cfg Q t w' := by
  unfold PcInv at h
  rw [hpc] at h
  unfold nextStep at hs
  rw [hpc] at hs
  replace hs := (Option.some.inj hs).symm
  subst hs
  refine Inv.mk (rr := r) hb rfl ?_
  unfold PcInv
  cases last with
  | false =>
    dsimp only at h ⊢
    rw [setProc_disk, setProc_remote, setDisk_remote, setDisk_same]
    obtain ⟨⟨h1, h2, h3, h4⟩, h5⟩ := h
    refine ⟨⟨?_, h2, h3, ?_⟩, h5, rfl⟩
    · exact (h1.params (dOff w pr.m _) (setDisk_same w pr.m _) (by omega) h3 h4.cov).proc rfl h1.covp
    · rw [setDisk_same]; exact h4
  | true =>
    dsimp only at h ⊢
    rw [setProc_disk, setProc_remote, setDisk_remote, setDisk_same]
    obtain ⟨h1, h2, h3, h4, h5⟩ := h
    refine ⟨⟨pr.p, by rw [setDisk_same], by omega, (fun e => by rw [h1.rm] at e; cases e), ?_, ?_, ?_, h5.cov, Or.inr ⟨h2, ?_, ?_⟩, ?_⟩, rfl, h2, h3, h4, h5, h1.rm⟩
    · rw [setDisk_same]; exact h1.view
    · rw [setDisk_same]; exact h1.pre
    · rw [setDisk_same]; exact h1.dense
    · rw [setDisk_same]; exact h4
    · rw [setDisk_same]; exact h5
    · intro b hne
      rw [setDisk_ne _ _ hne]
      exact ⟨(h1.oth b hne).1, fun l' hl' => ⟨Nat.le_of_lt ((h1.oth b hne).2 l' hl'), fun _ => (h1.oth b hne).2 l' hl'⟩⟩

theorem next_fin2 (hb : Base cfg Q w.remote r) {last : Bool} (hpc : pr.pc = .fin2 last) (h : PcInv cfg Q w.remote w.disk r t pr)
    (hs : nextStep cfg w pr = some w') : Inv cfg Q t w' := by
  unfold PcInv at h
  rw [hpc] at h
  unfold nextStep at hs
  rw [hpc] at hs
  replace hs := (Option.some.inj hs).symm
  subst hs
  cases last with
  | false =>
    dsimp only at h
    obtain ⟨⟨h1, h2, h3, h4⟩, h5, h6⟩ := h
    refine Inv.mk (rr := pr.p) (hb.setCur (by omega) h4.cov) rfl ?_
    unfold PcInv
    dsimp only
    exact ⟨⟨(h1.setCur hb h6 h3 h3 (by omega) (Nat.le_refl _) h4.cov).proc rfl h4.cov, h2, h3, h4⟩, rfl⟩
  | true =>
    dsimp only at h
    obtain ⟨⟨l, g1, g2, g3, g4, g5, g6, g7, g8, g9⟩, h2, h3, h4, h5, h6, h7⟩ := h
    refine Inv.mk (rr := pr.p) (hb.setCur (by omega) h6.cov) rfl ?_
    unfold PcInv
    dsimp only
    have hdb : (w.disk pr.m).db = t := by rw [← g4, view_nil h5]
    refine ⟨⟨h4, ?_, ?_⟩, rfl, hdb⟩
    · rw [← hdb]; exact h6
    · intro b
      by_cases hne : b = pr.m
      · subst hne
        refine ⟨h5, fun l' hl' => Or.inr ⟨?_, hdb⟩⟩
        rw [setProc_disk] at hl'
        simp only at hl'
        rw [h2] at hl'; cases hl'; rfl
      · exact ⟨(g9 b hne).1, fun l' hl' => Or.inl (by have := ((g9 b hne).2 l' hl').2 h7; omega)⟩

theorem next_fin3 (hQ : Q t) (hb : Base cfg Q w.remote r) {last : Bool} (hpc : pr.pc = .fin3 last) (h : PcInv cfg Q w.remote w.disk r t pr)
    (hs : nextStep cfg w pr = some w') : Inv cfg Q t w' := by
  unfold PcInv at h
  rw [hpc] at h
  unfold nextStep at hs
  rw [hpc] at hs
  replace hs := (Option.some.inj hs).symm
  subst hs
  cases last with
  | false =>
    dsimp only at h
    obtain ⟨⟨h1, h2, h3, h4⟩, h5⟩ := h
    refine Inv.mk (rr := r) (by rw [h5]; exact hb.setVer (fun e => by rw [h1.rm] at e; cases e)) rfl ?_
    unfold PcInv
    dsimp only
    exact ⟨⟨(h1.setVer h3).proc rfl h4.cov, h2, h3, h4⟩, h5, by rw [h5]; exact AL.get_set_self _ _ _⟩
  | true =>
    dsimp only at h
    obtain ⟨h1, h5, h6⟩ := h
    refine Inv.mk (rr := r) (by rw [h5]; exact hb.setVer (fun _ => ⟨t, hQ, h1.2.1⟩)) rfl ?_
    unfold PcInv
    dsimp only
    exact ⟨h1, h6, by rw [h5]; exact AL.get_set_self _ _ _⟩

theorem next_inc1 (hb : Base cfg Q w.remote r) (hpc : pr.pc = .inc1) (h : PcInv cfg Q w.remote w.disk r t pr)
    (hs : nextStep cfg w pr = some w') : Inv cfg Q t w' := by
  unfold PcInv at h
  rw [hpc] at h
  unfold nextStep at hs
  rw [hpc] at hs
  replace hs := (Option.some.inj hs).symm
  subst hs
  refine Inv.mk (rr := r) hb rfl ?_
  unfold PcInv
  dsimp only at h ⊢
  rw [setProc_disk, setProc_remote, setDisk_remote, setDisk_same]
  obtain ⟨⟨h1, h2, h3, h4⟩, h5, _⟩ := h
  have hs2 : Snapshot cfg w.remote.blocks { pr.p with seq := pr.p.seq + 1 } (w.disk pr.m).db :=
    ⟨h4.1, h4.2.1, h4.2.2.mono (by rw [h5]; exact hb.below) (Nat.le_succ _)⟩
  refine ⟨⟨?_, h2, h3, ?_⟩, by rw [h5]; simp, rfl⟩
  · exact (h1.params (p := { pr.p with seq := pr.p.seq + 1 }) (dOff w pr.m _) (setDisk_same w pr.m _) (by rw [h5]; simp) h3 hs2.cov).proc rfl hs2.cov
  · rw [setDisk_same]; exact hs2

theorem next_inc2 (hb : Base cfg Q w.remote r) (hpc : pr.pc = .inc2) (h : PcInv cfg Q w.remote w.disk r t pr)
    (hs : nextStep cfg w pr = some w') : Inv cfg Q t w' := by
  unfold PcInv at h
  rw [hpc] at h
  unfold nextStep at hs
  rw [hpc] at hs
  replace hs := (Option.some.inj hs).symm
  subst hs
  dsimp only at h
  obtain ⟨⟨h1, h2, h3, h4⟩, h5, h6⟩ := h
  refine Inv.mk (rr := pr.p) (hb.setCur (by omega) h4.cov) rfl ?_
  unfold PcInv
  dsimp only
  exact ⟨⟨(h1.setCur hb h6 h3 h3 (by omega) (Nat.le_refl _) h4.cov).proc rfl h4.cov, h2, h3, h4⟩, rfl, h6⟩

theorem next_inc3 (hb : Base cfg Q w.remote r) (hpc : pr.pc = .inc3) (h : PcInv cfg Q w.remote w.disk r t pr)
    (hs : nextStep cfg w pr = some w') : Inv cfg Q t w' := by
  unfold PcInv at h
  rw [hpc] at h
  unfold nextStep at hs
  rw [hpc] at hs
  replace hs := (Option.some.inj hs).symm
  subst hs
  dsimp only at h
  obtain ⟨⟨h1, h2, h3, h4⟩, h5, h6⟩ := h
  refine Inv.mk (rr := r) (by rw [h5]; exact hb.setVer (fun e => by rw [h1.rm] at e; cases e)) rfl ?_
  unfold PcInv
  dsimp only
  exact ⟨⟨(h1.setVer h3).proc rfl h4.cov, h2, h3, h4⟩, h5, h6, by rw [h5]; exact AL.get_set_self _ _ _⟩

theorem next_exp0 (hb : Base cfg Q w.remote r) {last : Bool} (hpc : pr.pc = .exp0 last) (h : PcInv cfg Q w.remote w.disk r t pr)
    (hs : nextStep cfg w pr = some w') : Inv cfg Q t w' := by
  unfold PcInv at h
  rw [hpc] at h
  unfold nextStep at hs
  rw [hpc] at hs
  obtain ⟨l, hl⟩ := Option.isSome_iff_exists.1 hb.expire
  dsimp only at hs
  rw [hl] at hs
  replace hs := (Option.some.inj hs).symm
  subst hs
  refine Inv.mk (rr := r) hb rfl ?_
  unfold PcInv
  cases last with
  | false =>
    dsimp only at h ⊢
    exact ⟨h.1.proc rfl rfl rfl, h.2.1, h.2.2.1, h.2.2.2, DelOk.start hb hl⟩
  | true =>
    dsimp only at h ⊢
    exact ⟨h.1, h.2.1, h.2.2, DelOk.start hb hl⟩

theorem next_exp (hb : Base cfg Q w.remote r) {last : Bool} {k : Key} {del : List Key} (hpc : pr.pc = .exp last (k :: del)) (h : PcInv cfg Q w.remote w.disk r t pr)
    (hs : nextStep cfg w pr = some w') : Inv cfg Q t w' := by
  unfold PcInv at h
  rw [hpc] at h
  unfold nextStep at hs
  rw [hpc] at hs
  replace hs := (Option.some.inj hs).symm
  subst hs
  cases last with
  | false =>
    dsimp only at h
    obtain ⟨⟨h1, h2, h3, h4⟩, h5, h6, h7, h8⟩ := h
    obtain ⟨d1, d2, d3, d4, d5⟩ := DelOk.step hb h8 h7
    refine Inv.mk (rr := r) d1 rfl ?_
    unfold PcInv
    dsimp only
    refine ⟨⟨⟨h1.rm, ⟨r, h6, Nat.le_refl _, h1.rm, d1.covr⟩, h1.view, h1.pre, h1.dense, h1.oth, by rw [h5]; exact d1.covr, fun P hP => by rw [d5 P hP]; exact h1.rm⟩, h2, h3, ?_⟩, h5, h6, d3, d2⟩
    rw [h5] at h4 ⊢
    exact d4 _ h4
  | true =>
    dsimp only at h
    obtain ⟨⟨h1, h2, h3⟩, h6, h7, h8⟩ := h
    obtain ⟨d1, d2, d3, d4, d5⟩ := DelOk.step hb h8 h7
    refine Inv.mk (rr := r) d1 rfl ?_
    unfold PcInv
    dsimp only
    exact ⟨⟨h1, d4 _ h2, h3⟩, h6, d3, d2⟩

theorem next_expEnd (hb : Base cfg Q w.remote r) {last : Bool} (hpc : pr.pc = .exp last []) (h : PcInv cfg Q w.remote w.disk r t pr)
    (hs : nextStep cfg w pr = some w') : Inv cfg Q t w' := by
  unfold PcInv at h
  rw [hpc] at h
  unfold nextStep at hs
  rw [hpc] at hs
  cases last with
  | false =>
    replace hs := (Option.some.inj hs).symm
    subst hs
    dsimp only at h
    obtain ⟨⟨h1, h2, h3, h4⟩, h5, h6, h7, h8⟩ := h
    refine Inv.mk (rr := r) hb rfl ?_
    unfold PcInv
    dsimp only
    refine ⟨h1.proc rfl h1.covp, by rw [h5], h3, Or.inr ?_⟩
    dsimp only
    rw [h2]
    have := h4.2.2
    rw [h5] at this
    exact this
  | true =>
    replace hs := (Option.some.inj hs).symm
    subst hs
    dsimp only at h
    exact ⟨r, hb, Or.inl h.1⟩

theorem inv_next (hQ : Q t) (hb : Base cfg Q w.remote r) (h : PcInv cfg Q w.remote w.disk r t pr) (hs : nextStep cfg w pr = some w') : Inv cfg Q t w' := by
  cases hpc : pr.pc with
  | dl => unfold nextStep at hs; rw [hpc] at hs; cases hs
  | run => unfold nextStep at hs; rw [hpc] at hs; cases hs
  | got => exact next_got hb hpc h hs
  | mark1 => exact next_mark1 hb hpc h hs
  | mark2 => exact next_mark2 hb hpc h hs
  | up k size jobs =>
    cases jobs with
    | nil => exact next_up hb hpc h hs
    | cons j js => unfold nextStep at hs; rw [hpc] at hs; cases hs
  | fin1 last => exact next_fin1 hb hpc h hs
  | fin2 last => exact next_fin2 hb hpc h hs
  | fin3 last => exact next_fin3 hQ hb hpc h hs
  | inc1 => exact next_inc1 hb hpc h hs
  | inc2 => exact next_inc2 hb hpc h hs
  | inc3 => exact next_inc3 hb hpc h hs
  | exp0 last => exact next_exp0 hb hpc h hs
  | exp last del =>
    cases del with
    | nil => exact next_expEnd hb hpc h hs
    | cons k del => exact next_exp hb hpc h hs

end
end Verif.Meta
