import Verif.Meta.ProtoSteps2
/-
The invariant of the protocol is preserved: all other steps.
-/
namespace Verif.Meta

section
variable {cfg : Cfg} {Q : Bytes → Prop} {t : Bytes} {w w' : World} {r : Params} {pr : Proc}

/-- After a crash. -/
theorem inv_crash (hb : Base cfg Q w.remote r) (h : PcInv cfg Q w.remote w.disk r t pr)
    (ho : pr.pc = .got → pr.early = false) : Inv cfg Q t { w with proc := none } := by
  refine ⟨r, hb, ?_⟩
  dsimp only
  unfold PcInv at h
  split at h
  · exact Or.inl h.1
  · rename_i hpc
    rcases h with h | h
    · exact Or.inl (h.2.2.2.2.2.2.2 (ho hpc))
    · exact Or.inr ⟨_, h.1⟩
  · exact Or.inr ⟨_, h.1⟩
  · exact Or.inr ⟨_, h.1.owned⟩
  · exact Or.inr ⟨_, h.1.owned⟩
  · exact Or.inr ⟨_, h.1.owned⟩
  · exact Or.inr ⟨_, h.1.owned⟩
  · exact Or.inr ⟨_, h.1.owned⟩
  · exact Or.inr ⟨_, h.1.1.owned⟩
  · exact Or.inr ⟨_, h.1.owned⟩
  · exact Or.inr ⟨_, h.1.1.owned⟩
  · exact Or.inr ⟨_, h.1⟩
  · exact Or.inr ⟨_, h.1.1.owned⟩
  · exact Or.inl h.1
  · exact Or.inr ⟨_, h.1.1.owned⟩
  · exact Or.inr ⟨_, h.1.1.owned⟩
  · exact Or.inr ⟨_, h.1.1.owned⟩
  · exact Or.inr ⟨_, h.1.1.owned⟩
  · exact Or.inl h.1
  · exact Or.inr ⟨_, h.1.1.owned⟩
  · exact Or.inl h.1

/-- While the local parameters of `m` are outdated, its database file may change. -/
theorem Clean.setDb {rem : Remote} {disk disk' : Nat → Disk} {m : Nat} (h : Clean cfg rem disk r t)
    (ho : ∀ b, b ≠ m → disk' b = disk b) (hp : (disk' m).params = (disk m).params) (hw : (disk' m).wal = (disk m).wal)
    (hl : ∀ l, (disk m).params = some l → l.seq < r.seq) : Clean cfg rem disk' r t := by
  refine ⟨h.1, h.2.1, fun b => ?_⟩
  by_cases hne : b = m
  · subst hne
    exact ⟨by rw [hw]; exact (h.2.2 b).1, fun l hl' => Or.inl (hl l (by rw [← hp]; exact hl'))⟩
  · rw [ho b hne]; exact h.2.2 b

theorem inv_dlPart (hb : Base cfg Q w.remote r) (hpr : w.proc = some pr) (hpc : pr.pc = .dl) (h : PcInv cfg Q w.remote w.disk r t pr) (f : Bytes) :
    Inv cfg Q t (w.setDisk pr.m { w.disk pr.m with db := f }) := by
  unfold PcInv at h
  rw [hpc] at h
  dsimp only at h
  obtain ⟨h1, h2, h3, h4⟩ := h
  refine Inv.mk (rr := r) hb hpr ?_
  unfold PcInv
  rw [hpc]
  dsimp only
  refine ⟨h1.setDb (dOff w pr.m _) (by rw [setDisk_same]) (by rw [setDisk_same]) h4, h2, h3, ?_⟩
  rw [setDisk_same]; exact h4

theorem got_clean (hQ : Q t) {rem : Remote} {disk : Nat → Disk} {p : Proc} (hpc : p.pc = .got) (h1 : Clean cfg rem disk r t) (hp : p.p = r) (hdb : (disk p.m).db = t) :
    PcInv cfg Q rem disk r t p := by
  unfold PcInv
  rw [hpc]
  dsimp only
  have hw := (h1.2.2 p.m).1
  refine Or.inl ⟨h1.1, hp, by rw [view_nil hw, hdb], Pre.same hw (by rw [hdb]; exact hQ), by rw [hw]; trivial, ?_, ?_, fun _ => h1⟩
  · rw [hdb]; exact h1.2.1.2.2.weaken (fun b hb => by cases hb)
  · intro b hne
    refine ⟨(h1.2.2 b).1, fun l' hl' => ?_⟩
    rcases (h1.2.2 b).2 l' hl' with e | ⟨e, _⟩
    · omega
    · rw [e]; exact Nat.le_refl _

theorem inv_dlEnd (hQ : Q t) (hb : Base cfg Q w.remote r) (hpc : pr.pc = .dl) (h : PcInv cfg Q w.remote w.disk r t pr)
    {order : List DlJob → List DlJob} (ho : ∀ l, (order l).Perm l) {f : Bytes}
    (hd : download cfg w.remote.blocks pr.p (decide (pr.kind = .fsck) && pr.p.mounted) order = some f) :
    Inv cfg Q t ((w.setDisk pr.m { w.disk pr.m with db := f }).setProc { pr with pc := .got }) := by
  unfold PcInv at h
  rw [hpc] at h
  dsimp only at h
  obtain ⟨h1, h2, h3, h4⟩ := h
  rw [h2, h1.1, Bool.and_false, download_snapshot cfg _ _ _ h1.2.1 order ho] at hd
  have hd := Option.some.inj hd
  subst hd
  refine Inv.mk (rr := r) hb rfl ?_
  refine got_clean hQ rfl ?_ h2 ?_
  · exact h1.setDb (dOff w pr.m _) (by rw [setProc_disk, setDisk_same]) (by rw [setProc_disk, setDisk_same]) h4
  · rw [setProc_disk, setDisk_same]

theorem inv_early (hb : Base cfg Q w.remote r) (hpc : pr.pc = .got) (hk : pr.kind = .mount) (h : PcInv cfg Q w.remote w.disk r t pr)
    {o : FileOp} (hd : o.Dense (w.disk pr.m).view) (hQ : Q (o.apply t)) :
    Inv cfg Q (o.apply t) ((w.setDisk pr.m { w.disk pr.m with wal := (w.disk pr.m).wal ++ [o] }).setProc { pr with early := true }) := by
  unfold PcInv at h
  rw [hpc] at h
  dsimp only at h
  rcases h with ⟨h1, h2, h3, h4, h5, h6, h7, h8⟩ | ⟨_, h2, _⟩
  · refine Inv.mk (rr := r) hb rfl ?_
    unfold PcInv
    rw [hpc]
    dsimp only
    refine Or.inl ⟨h1, h2, ?_, ?_, ?_, ?_, ?_, fun e => by cases e⟩
    · rw [setProc_disk, setDisk_same, view_snoc, h3]
    · rw [setProc_disk, setDisk_same]; exact h4.snoc _ (by rw [h3]; exact hQ)
    · rw [setProc_disk, setDisk_same]; exact denseAll_snoc _ _ _ h5 hd
    · rw [setProc_disk, setDisk_same]; exact h6
    · intro b hne
      rw [setProc_disk, setDisk_ne _ _ hne]; exact h7 b hne
  · rw [hk] at h2; cases h2

theorem inv_sql (hb : Base cfg Q w.remote r) (hpr : w.proc = some pr) (hok : sqlOk pr = true) (h : PcInv cfg Q w.remote w.disk r t pr)
    {o : FileOp} (hd : o.Dense (w.disk pr.m).view) (hQ : Q (o.apply t)) :
    Inv cfg Q (o.apply t) (w.setDisk pr.m { w.disk pr.m with wal := (w.disk pr.m).wal ++ [o] }) := by
  refine Inv.mk (rr := r) hb hpr ?_
  have hact : ∀ {rr : Params}, Act cfg Q w.remote w.disk rr t pr →
      Act cfg Q w.remote (w.setDisk pr.m { w.disk pr.m with wal := (w.disk pr.m).wal ++ [o] }).disk rr (o.apply t) pr :=
    fun ha => ha.sql (dOff w pr.m _) hd hQ (setDisk_same w pr.m _)
  have hfr : Frozen cfg Q w.remote w.disk r t pr →
      Frozen cfg Q w.remote (w.setDisk pr.m { w.disk pr.m with wal := (w.disk pr.m).wal ++ [o] }).disk r (o.apply t) pr := by
    rintro ⟨h1, h2, h3, h4⟩
    exact ⟨hact h1, h2, h3, by rw [setDisk_same]; exact h4⟩
  have hdb : ((w.setDisk pr.m { w.disk pr.m with wal := (w.disk pr.m).wal ++ [o] }).disk pr.m).db = (w.disk pr.m).db := by rw [setDisk_same]
  have hpm : ((w.setDisk pr.m { w.disk pr.m with wal := (w.disk pr.m).wal ++ [o] }).disk pr.m).params = (w.disk pr.m).params := by rw [setDisk_same]
  unfold sqlOk at hok
  unfold PcInv at h ⊢
  rw [setDisk_remote, hdb, hpm]
  cases hpc : pr.pc with
  | run => rw [hpc] at h; exact ⟨hact h.1, h.2⟩
  | up k size jobs =>
    rw [hpc] at h hok
    cases k with
    | pass => exact ⟨hact h.1, h.2⟩
    | snap => exact ⟨hact h.1, h.2⟩
    | close => cases hok
  | fin1 last => rw [hpc] at h hok; cases last with | false => exact ⟨hfr h.1, h.2⟩ | true => cases hok
  | fin2 last => rw [hpc] at h hok; cases last with | false => exact ⟨hfr h.1, h.2⟩ | true => cases hok
  | fin3 last => rw [hpc] at h hok; cases last with | false => exact ⟨hfr h.1, h.2⟩ | true => cases hok
  | inc1 => rw [hpc] at h; exact ⟨hfr h.1, h.2⟩
  | inc2 => rw [hpc] at h; exact ⟨hfr h.1, h.2⟩
  | inc3 => rw [hpc] at h; exact ⟨hfr h.1, h.2⟩
  | exp0 last => rw [hpc] at h hok; cases last with | false => exact ⟨hfr h.1, h.2⟩ | true => cases hok
  | exp last del => rw [hpc] at h hok; cases last with | false => exact ⟨hfr h.1, h.2⟩ | true => cases hok
  | dl => rw [hpc] at hok; cases hok
  | got => rw [hpc] at hok; cases hok
  | mark1 => rw [hpc] at hok; cases hok
  | mark2 => rw [hpc] at hok; cases hok

theorem Sync.ckpt {blocks : Blocks} {n : Nat} {db : Bytes} (h : Sync cfg blocks n db pr) {o : FileOp} (hd : o.Dense db) :
    Sync cfg blocks n (o.apply db) { pr with dirty := track cfg.bs pr.dirty o } := by
  rcases h with h | h
  · exact Or.inl h
  · refine Or.inr ?_
    have := InSync.apply (extra := []) (by simpa using h) hd
    simpa using this

theorem inv_ckpt (hb : Base cfg Q w.remote r) (hok : ckptOk pr = true) (h : PcInv cfg Q w.remote w.disk r t pr)
    {o : FileOp} {l : List FileOp} (hw : (w.disk pr.m).wal = o :: l) :
    Inv cfg Q t ((w.setDisk pr.m { w.disk pr.m with db := o.apply (w.disk pr.m).db, wal := l }).setProc { pr with dirty := track cfg.bs pr.dirty o }) := by
  refine Inv.mk (rr := r) hb rfl ?_
  unfold ckptOk at hok
  unfold PcInv at h ⊢
  dsimp only
  rw [setProc_disk, setProc_remote, setDisk_remote, setDisk_same]
  dsimp only
  cases hpc : pr.pc with
  | got =>
    rw [hpc] at h
    dsimp only at h ⊢
    rcases h with ⟨h1, h2, h3, h4, h5, h6, h7, h8⟩ | ⟨h1, h2, h3, h4, h5, h6⟩
    · rw [hw] at h5
      refine Or.inl ⟨h1, h2, by rw [view_ckpt hw]; exact h3, h4.ckpt hw, h5.2, ?_, ?_, ?_⟩
      · have := InSync.apply (extra := []) (by simpa using h6) h5.1
        simpa using this
      · intro b hne
        rw [setDisk_ne _ _ hne]; exact h7 b hne
      · intro e
        have := ((h8 e).2.2 pr.m).1
        rw [hw] at this; cases this
    · obtain ⟨g1, g2⟩ := h1.ckpt (dOff w pr.m _) hw (setDisk_same w pr.m _)
      refine Or.inr ⟨g1, h2, h3, h4, ?_, h6⟩
      rcases h5 with h5 | h5
      · exact Or.inl h5
      · refine Or.inr ?_
        have := InSync.apply (extra := []) (by simpa using h5) g2
        simpa using this
  | run =>
    rw [hpc] at h
    obtain ⟨h1, h2, h3, h4⟩ := h
    obtain ⟨g1, g2⟩ := h1.ckpt (dOff w pr.m _) hw (setDisk_same w pr.m _)
    exact ⟨g1.proc rfl h1.covp, h2, h3, h4.ckpt g2⟩
  | up k size jobs =>
    rw [hpc] at h hok
    cases k with
    | pass =>
      obtain ⟨h1, h2, h3, h4, h5⟩ := h
      obtain ⟨g1, g2⟩ := h1.ckpt (dOff w pr.m _) hw (setDisk_same w pr.m _)
      exact ⟨g1.proc rfl h1.covp, h2, h3, h4.apply g2, h5.apply g2⟩
    | snap => cases hok
    | close => cases hok
  | fin1 last => rw [hpc] at hok; cases hok
  | fin2 last => rw [hpc] at hok; cases hok
  | fin3 last => rw [hpc] at hok; cases hok
  | inc1 => rw [hpc] at hok; cases hok
  | inc2 => rw [hpc] at hok; cases hok
  | inc3 => rw [hpc] at hok; cases hok
  | exp0 last => rw [hpc] at hok; cases hok
  | exp last del => rw [hpc] at hok; cases hok
  | dl => rw [hpc] at hok; cases hok
  | mark1 => rw [hpc] at hok; cases hok
  | mark2 => rw [hpc] at hok; cases hok

theorem Sync.mount {blocks : Blocks} {n : Nat} {db : Bytes} (h : Sync cfg blocks n db pr) (hk : pr.kind = .mount) :
    InSync cfg blocks n db pr.dirty := by
  rcases h with h | h
  · rw [hk] at h; cases h.1
  · exact h

theorem inv_startPass (hb : Base cfg Q w.remote r) (hpc : pr.pc = .run) (hk : pr.kind = .mount) (h : PcInv cfg Q w.remote w.disk r t pr) :
    Inv cfg Q t (w.setProc { pr with dirty := [], pc := .up .pass (w.disk pr.m).db.length (pr.dirty.map (mkJob cfg (w.disk pr.m).db.length)) }) := by
  unfold PcInv at h
  rw [hpc] at h
  dsimp only at h
  obtain ⟨h1, h2, h3, h4⟩ := h
  refine Inv.mk (rr := r) hb rfl ?_
  unfold PcInv
  dsimp only
  refine ⟨h1.proc rfl h1.covp, h2, h3, ?_, JobsOk.mk _⟩
  rw [map_mkJob, List.nil_append]
  exact h4.mount hk

theorem inv_startSnap (hb : Base cfg Q w.remote r) (hpc : pr.pc = .run) (hk : pr.kind = .mount) (h : PcInv cfg Q w.remote w.disk r t pr) (stamp : Nat) :
    Inv cfg Q t (w.setProc { pr with p := { pr.p with lastMod := stamp }, dirty := [], pc := .up .snap (w.disk pr.m).db.length (pr.dirty.map (mkJob cfg (w.disk pr.m).db.length)) }) := by
  unfold PcInv at h
  rw [hpc] at h
  dsimp only at h
  obtain ⟨h1, h2, h3, h4⟩ := h
  refine Inv.mk (rr := r) hb rfl ?_
  unfold PcInv
  dsimp only
  refine ⟨h1.proc rfl h1.covp, h2, h3, rfl, ?_, JobsOk.mk _, rfl⟩
  rw [map_mkJob, List.nil_append]
  exact h4.mount hk

theorem inv_read (hb : Base cfg Q w.remote r) {k : UpKind} {size : Nat} {jobs : List Job} (hpc : pr.pc = .up k size jobs) (h : PcInv cfg Q w.remote w.disk r t pr) (b n : Nat) :
    Inv cfg Q t (w.setProc { pr with pc := .up k size (updJob (readMore cfg (w.disk pr.m).db n) b jobs) }) := by
  unfold PcInv at h
  rw [hpc] at h
  refine Inv.mk (rr := r) hb rfl ?_
  unfold PcInv
  cases k with
  | pass =>
    dsimp only at h ⊢
    obtain ⟨h1, h2, h3, h4, h5⟩ := h
    exact ⟨h1.proc rfl h1.covp, h2, h3, by rw [updJob_blocknos]; exact h4, h5.read n b⟩
  | snap =>
    dsimp only at h ⊢
    obtain ⟨h1, h2, h3, h4, h5, h6, h7⟩ := h
    exact ⟨h1.proc rfl h1.covp, h2, h3, h4, by rw [updJob_blocknos]; exact h5, h6.read n b, h7⟩
  | close =>
    dsimp only at h ⊢
    obtain ⟨h1, h2, h3, h4, h5, h6, h7, h8⟩ := h
    exact ⟨h1.proc rfl h1.covp, h2, h3, h4, h5, by rw [updJob_blocknos]; exact h6, h7.read n b, h8⟩

theorem inv_put (hb : Base cfg Q w.remote r) {k : UpKind} {size : Nat} {jobs : List Job} (hpc : pr.pc = .up k size jobs) (h : PcInv cfg Q w.remote w.disk r t pr)
    {b : Nat} {j : Job} (hf : findJob b jobs = some j) (hd : jobDone cfg (w.disk pr.m).db j = true) :
    Inv cfg Q t ({ w with remote := { w.remote with blocks := putBlock w.remote.blocks pr.p.seq j } }.setProc
              { pr with pc := .up k size (jobs.filter (fun j => !decide (j.blockno = b))) }) := by
  unfold PcInv at h
  rw [hpc] at h
  cases k with
  | pass =>
    dsimp only at h
    obtain ⟨h1, h2, h3, h4, h5⟩ := h
    obtain ⟨g1, g2⟩ := put_sync h4 h5 hf hd
    refine Inv.mk (rr := r) (by rw [h2]; exact hb.put h1.vm j) rfl ?_
    unfold PcInv
    dsimp only
    exact ⟨(h1.put _ j).proc rfl (h1.put pr.p.seq j).covp, h2, h3, by rw [h2]; exact g1, g2⟩
  | snap =>
    dsimp only at h
    obtain ⟨h1, h2, h3, h4, h5, h6, h7⟩ := h
    obtain ⟨g1, g2⟩ := put_sync h5 h6 hf hd
    refine Inv.mk (rr := r) (by rw [h2]; exact hb.put h1.vm j) rfl ?_
    unfold PcInv
    dsimp only
    exact ⟨(h1.put _ j).proc rfl (h1.put pr.p.seq j).covp, h2, h3, h4, by rw [h2]; exact g1, g2, h7⟩
  | close =>
    dsimp only at h
    obtain ⟨h1, h2, h3, h4, h5, h6, h7, h8⟩ := h
    obtain ⟨g1, g2⟩ := put_sync h6 h7 hf hd
    refine Inv.mk (rr := r) (by rw [h2]; exact hb.put h1.vm j) rfl ?_
    unfold PcInv
    dsimp only
    exact ⟨(h1.put _ j).proc rfl (h1.put pr.p.seq j).covp, h2, h3, h4, h5, by rw [h2]; exact g1, g2, h8⟩

theorem full_sync (blocks : Blocks) (n : Nat) (f : Bytes) (dirty : List Nat) : InSync cfg blocks n f (upBlocks cfg false dirty f.length) := by
  intro b hlt hn
  refine absurd ?_ hn
  unfold upBlocks
  simp only [Bool.false_eq_true, if_false, List.mem_range]
  exact (mem_nBlocks cfg _ _).2 hlt

theorem inv_finish (hb : Base cfg Q w.remote r) (hpc : pr.pc = .run) (h : PcInv cfg Q w.remote w.disk r t pr) (stamp : Nat) (flag : Bool) :
    Inv cfg Q t (finishStep cfg w pr stamp flag) := by
  unfold PcInv at h
  rw [hpc] at h
  dsimp only at h
  obtain ⟨h1, h2, h3, h4⟩ := h
  refine Inv.mk (rr := r) hb rfl ?_
  unfold PcInv
  dsimp only
  have hdisk : (finishStep cfg w pr stamp flag).disk pr.m = { w.disk pr.m with db := (w.disk pr.m).view, wal := [] } := setDisk_same _ _ _
  have hrem : (finishStep cfg w pr stamp flag).remote = w.remote := rfl
  have hseq : ∀ (p : Params), p.seq = pr.p.seq → p.dbSize = pr.p.dbSize → Cov cfg w.remote.blocks p :=
    fun p e1 e2 => h1.covp.mono hb.below (by omega) e2
  rw [hdisk, hrem]
  dsimp only
  refine ⟨?_, ?_, ?_, rfl, rfl, ?_, JobsOk.mk _, rfl⟩
  · refine (h1.files (disk' := (finishStep cfg w pr stamp flag).disk) (t' := t) (dOff w pr.m _) ?_ ?_ ?_ ?_).proc rfl ?_
    · rw [hdisk]
    · rw [hdisk]; exact h1.view
    · rw [hdisk]; exact Pre.same rfl h1.pre.view
    · rw [hdisk]; trivial
    · cases pr.kind <;> exact hseq _ rfl rfl
  · cases pr.kind <;> exact h2
  · cases pr.kind <;> rfl
  · rw [map_mkJob, List.nil_append]
    have hinc : ∀ (d : List Nat), InSync cfg w.remote.blocks r.seq (w.disk pr.m).db d →
        InSync cfg w.remote.blocks r.seq (w.disk pr.m).view (upBlocks cfg true ((w.disk pr.m).wal.foldl (track cfg.bs) d) (w.disk pr.m).view.length) := by
      intro d hd
      exact track_all cfg _ _ _ _ _ hd h1.dense
    cases hk : pr.kind with
    | mount => exact hinc _ (h4.mount hk)
    | fsck =>
      dsimp only
      rcases h4 with h4 | h4
      · rw [h4.2]; exact full_sync _ _ _ _
      · cases hx : (pr.p.needsFsck || flag) with
        | true => exact full_sync _ _ _ _
        | false => exact hinc _ h4

end
end Verif.Meta
