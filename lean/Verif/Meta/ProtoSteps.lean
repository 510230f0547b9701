import Verif.Meta.Inv
/-
The invariant of the protocol is preserved by every orderly step.
-/
namespace Verif.Meta

/-! ### Files -/

theorem applyAll_snoc (f : Bytes) (l : List FileOp) (o : FileOp) : applyAll f (l ++ [o]) = o.apply (applyAll f l) := by
  simp [applyAll, List.foldl_append]

theorem applyAll_cons (f : Bytes) (l : List FileOp) (o : FileOp) : applyAll f (o :: l) = applyAll (o.apply f) l := rfl

theorem denseAll_snoc : ∀ (l : List FileOp) (f : Bytes) (o : FileOp), DenseAll f l → o.Dense (applyAll f l) → DenseAll f (l ++ [o])
  | [], _, _, _, h => ⟨h, trivial⟩
  | _ :: t, _, o, h, ho => ⟨h.1, denseAll_snoc t _ o h.2 ho⟩

theorem Pre.view {Q : Bytes → Prop} {d : Disk} (h : Pre Q d) : Q d.view := by
  have := h d.wal.length
  rwa [List.take_length] at this

theorem Pre.db {Q : Bytes → Prop} {d : Disk} (h : Pre Q d) : Q d.db := h 0

theorem Pre.snoc {Q : Bytes → Prop} {d : Disk} (h : Pre Q d) (o : FileOp) (ho : Q (o.apply d.view)) :
    Pre Q { d with wal := d.wal ++ [o] } := by
  intro k
  simp only
  rcases Nat.lt_or_ge d.wal.length k with hk | hk
  · have : (d.wal ++ [o]).take k = d.wal ++ [o] := List.take_of_length_le (by simp; omega)
    rw [this, applyAll_snoc]; exact ho
  · rw [List.take_append_of_le_length hk]; exact h k

theorem Pre.ckpt {Q : Bytes → Prop} {d : Disk} (h : Pre Q d) {o : FileOp} {l : List FileOp} (hw : d.wal = o :: l) :
    Pre Q { d with db := o.apply d.db, wal := l } := by
  intro k
  have := h (k + 1)
  rw [hw, List.take_succ_cons, applyAll_cons] at this
  exact this

theorem Pre.same {Q : Bytes → Prop} {d : Disk} (hw : d.wal = []) (hq : Q d.db) : Pre Q d := by
  intro k
  rw [hw, List.take_nil]; exact hq

theorem view_nil {d : Disk} (h : d.wal = []) : d.view = d.db := by
  unfold Disk.view; rw [h]; rfl

theorem view_ckpt {d : Disk} {o : FileOp} {l : List FileOp} (hw : d.wal = o :: l) :
    Disk.view { d with db := o.apply d.db, wal := l } = d.view := by
  unfold Disk.view
  rw [hw]; rfl

theorem view_snoc (d : Disk) (o : FileOp) : Disk.view { d with wal := d.wal ++ [o] } = o.apply d.view :=
  applyAll_snoc _ _ _

/-! ### Worlds -/

theorem setDisk_same (w : World) (m : Nat) (d : Disk) : (w.setDisk m d).disk m = d := by simp [World.setDisk]

theorem setDisk_ne (w : World) {m b : Nat} (d : Disk) (h : b ≠ m) : (w.setDisk m d).disk b = w.disk b := by simp [World.setDisk, h]

theorem setDisk_remote (w : World) (m : Nat) (d : Disk) : (w.setDisk m d).remote = w.remote := rfl

/-! ### Parts of the invariant -/

section
variable {cfg : Cfg} {Q : Bytes → Prop} {rem rem' : Remote} {disk disk' : Nat → Disk} {r r' : Params} {t t' : Bytes} {pr pr' : Proc}

theorem Act.proc (h : Act cfg Q rem disk r t pr) (hm : pr'.m = pr.m) (hc : Cov cfg rem.blocks pr'.p) :
    Act cfg Q rem disk r t pr' :=
  ⟨h.rm, hm ▸ h.lm, hm ▸ h.view, hm ▸ h.pre, hm ▸ h.dense, hm ▸ h.oth, hc, h.vm⟩

/-- The files of the machine change, the parameters stay. -/
theorem Act.files (h : Act cfg Q rem disk r t pr) (ho : ∀ b, b ≠ pr.m → disk' b = disk b)
    (hp : (disk' pr.m).params = (disk pr.m).params) (hv : (disk' pr.m).view = t') (hq : Pre Q (disk' pr.m))
    (hd : DenseAll (disk' pr.m).db (disk' pr.m).wal) : Act cfg Q rem disk' r t' pr := by
  refine ⟨h.rm, by rw [hp]; exact h.lm, hv, hq, hd, ?_, h.covp, h.vm⟩
  intro b hb
  have := h.oth b hb
  unfold Outdated at this ⊢
  rw [ho b hb]; exact this

/-- The local parameters change. -/
theorem Act.params (h : Act cfg Q rem disk r t pr) {p : Params} (ho : ∀ b, b ≠ pr.m → disk' b = disk b)
    (hp : disk' pr.m = { disk pr.m with params := some p }) (hs : r.seq ≤ p.seq) (hm : p.mounted = true)
    (hc : Cov cfg rem.blocks p) : Act cfg Q rem disk' r t pr := by
  refine ⟨h.rm, ⟨p, by rw [hp], hs, hm, hc⟩, ?_, ?_, ?_, ?_, h.covp, h.vm⟩
  · rw [hp]; exact h.view
  · rw [hp]; exact h.pre
  · rw [hp]; exact h.dense
  · intro b hb
    have := h.oth b hb
    unfold Outdated at this ⊢
    rw [ho b hb]; exact this

/-- A block is stored. -/
theorem Act.put (h : Act cfg Q rem disk r t pr) (n : Nat) (j : Job) :
    Act cfg Q { rem with blocks := putBlock rem.blocks n j } disk r t pr := by
  obtain ⟨l, h1, h2, h3, h4⟩ := h.lm
  exact ⟨h.rm, ⟨l, h1, h2, h3, h4.put _ _⟩, h.view, h.pre, h.dense, h.oth, h.covp.put _ _, h.vm⟩

/-- `s3ql_params` is replaced by newer parameters. -/
theorem Act.setCur (h : Act cfg Q rem disk r t pr) (hb : Base cfg Q rem r) {l : Params} (hl : (disk pr.m).params = some l)
    (hm : l.mounted = true) (hr : r'.mounted = true) (hs : r.seq ≤ r'.seq) (hs2 : r'.seq ≤ l.seq)
    (hc : Cov cfg rem.blocks l) : Act cfg Q { rem with cur := some r' } disk r' t pr := by
  refine ⟨hr, ⟨l, hl, hs2, hm, hc⟩, h.view, h.pre, h.dense, ?_, h.covp, ?_⟩
  · intro b hne
    exact ⟨(h.oth b hne).1, fun l' hl' => Nat.lt_of_lt_of_le ((h.oth b hne).2 l' hl') hs⟩
  · intro P hP
    have := hb.vseq _ _ hP
    have he : r'.seq = r.seq := by omega
    rw [he] at hP
    exact h.vm P hP

/-- `s3ql_params_<seq>` is stored. -/
theorem Act.setVer (h : Act cfg Q rem disk r t pr) {P : Params} (hm : P.mounted = true) :
    Act cfg Q { rem with vers := AL.set rem.vers P.seq P } disk r t pr := by
  refine ⟨h.rm, h.lm, h.view, h.pre, h.dense, h.oth, h.covp, ?_⟩
  intro P' hP'
  rw [AL.get_set] at hP'
  split at hP'
  · cases hP'; exact hm
  · exact h.vm P' hP'

/-- After a crash, the machine has the only copy. -/
theorem Act.owned (h : Act cfg Q rem disk r t pr) : Owned cfg Q rem disk r t pr.m := by
  obtain ⟨l, h1, h2, h3, h4⟩ := h.lm
  refine ⟨l, h1, h2, (fun e => by rw [h.rm] at e; cases e), h.view, h.pre, h.dense, h4, Or.inl h3, ?_⟩
  intro b hb
  exact ⟨(h.oth b hb).1, fun l' hl' => ⟨Nat.le_of_lt ((h.oth b hb).2 l' hl'), fun _ => (h.oth b hb).2 l' hl'⟩⟩

/-- SQLite moves one entry of the log to the database file. -/
theorem Act.ckpt (h : Act cfg Q rem disk r t pr) (ho : ∀ b, b ≠ pr.m → disk' b = disk b) {o : FileOp} {l : List FileOp}
    (hw : (disk pr.m).wal = o :: l) (hd : disk' pr.m = { disk pr.m with db := o.apply (disk pr.m).db, wal := l }) :
    Act cfg Q rem disk' r t pr ∧ o.Dense (disk pr.m).db := by
  have hdn := h.dense
  rw [hw] at hdn
  refine ⟨h.files ho ?_ ?_ ?_ ?_, hdn.1⟩
  · rw [hd]
  · rw [hd, view_ckpt hw]; exact h.view
  · rw [hd]; exact h.pre.ckpt hw
  · rw [hd]; exact hdn.2

/-- A statement is executed. -/
theorem Act.sql (h : Act cfg Q rem disk r t pr) (ho : ∀ b, b ≠ pr.m → disk' b = disk b) {o : FileOp}
    (hn : o.Dense (disk pr.m).view) (hQ : Q (o.apply t))
    (hd : disk' pr.m = { disk pr.m with wal := (disk pr.m).wal ++ [o] }) : Act cfg Q rem disk' r (o.apply t) pr := by
  refine h.files ho ?_ ?_ ?_ ?_
  · rw [hd]
  · rw [hd, view_snoc, h.view]
  · rw [hd]; exact h.pre.snoc _ (by rw [h.view]; exact hQ)
  · rw [hd]; exact denseAll_snoc _ _ _ h.dense hn

theorem Owned.ckpt {a : Nat} (h : Owned cfg Q rem disk r t a) (ho : ∀ b, b ≠ a → disk' b = disk b) {o : FileOp} {l : List FileOp}
    (hw : (disk a).wal = o :: l) (hd : disk' a = { disk a with db := o.apply (disk a).db, wal := l }) :
    Owned cfg Q rem disk' r t a ∧ o.Dense (disk a).db := by
  obtain ⟨p, h1, h2, h3, h4, h5, h6, h7, h8, h9⟩ := h
  rw [hw] at h6
  refine ⟨⟨p, by rw [hd]; exact h1, h2, h3, by rw [hd, view_ckpt hw]; exact h4, by rw [hd]; exact h5.ckpt hw, by rw [hd]; exact h6.2, h7, ?_, ?_⟩, h6.1⟩
  · rcases h8 with h8 | ⟨_, h8, _⟩
    · exact Or.inl h8
    · rw [hw] at h8; cases h8
  · intro b hb
    rw [ho b hb]; exact h9 b hb

/-- The process that announces itself. -/
theorem Owned.act {m : Nat} {p : Params} (h : Owned cfg Q rem disk r t m) (hb : Base cfg Q rem r) (hp : (disk m).params = some p)
    (hs : r.seq < p.seq) (hm : p.mounted = true) (hc : Cov cfg rem.blocks p) (hpm : pr.m = m) (hpp : pr.p = p) :
    Act cfg Q { rem with cur := some p } disk p t pr := by
  obtain ⟨l, h1, h2, h3, h4, h5, h6, h7, h8, h9⟩ := h
  subst hpm
  subst hpp
  refine ⟨hm, ⟨pr.p, hp, Nat.le_refl _, hm, hc⟩, h4, h5, h6, ?_, hc, ?_⟩
  · intro b hne
    exact ⟨(h9 b hne).1, fun l' hl' => Nat.lt_of_le_of_lt ((h9 b hne).2 l' hl').1 hs⟩
  · intro P hP
    have := (hb.vseq _ _ hP).2
    omega

theorem Snapshot.finalize {p : Params} {blocks : Blocks} {f : Bytes} (h : InSync cfg blocks p.seq f []) :
    Snapshot cfg blocks (finalize cfg p f.length f) f := ⟨rfl, rfl, h⟩

theorem JobsOk.apply {f : Bytes} {dirty : List Nat} {jobs : List Job} (h : JobsOk cfg f dirty jobs) {o : FileOp} (hd : o.Dense f) :
    JobsOk cfg (o.apply f) (track cfg.bs dirty o) jobs := fun j hj => ⟨(h j hj).1.apply hd, (h j hj).2⟩

theorem JobsOk.mk {f : Bytes} {dirty : List Nat} (l : List Nat) : JobsOk cfg f dirty (l.map (mkJob cfg f.length)) := by
  intro j hj
  obtain ⟨b, _, rfl⟩ := List.mem_map.1 hj
  exact ⟨mkJob_ok cfg f dirty b, by simp only [mkJob]; omega⟩

theorem map_mkJob (n : Nat) (l : List Nat) : (l.map (mkJob cfg n)).map (·.blockno) = l := by
  rw [List.map_map]
  exact List.map_id'' (fun _ => rfl) l

theorem JobsOk.read {f : Bytes} {dirty : List Nat} {jobs : List Job} (h : JobsOk cfg f dirty jobs) (n b : Nat) :
    JobsOk cfg f dirty (updJob (readMore cfg f n) b jobs) := by
  intro j hj
  obtain ⟨j0, hj0, he⟩ := List.mem_map.1 hj
  split at he
  · subst he; exact ⟨(h j0 hj0).1.read (h j0 hj0).2 n, (h j0 hj0).2⟩
  · subst he; exact h j0 hj0

theorem updJob_blocknos (f : Bytes) (n b : Nat) (jobs : List Job) :
    (updJob (readMore cfg f n) b jobs).map (·.blockno) = jobs.map (·.blockno) := by
  unfold updJob
  rw [List.map_map]
  apply List.map_congr_left
  intro j _
  simp only [Function.comp]
  split <;> rfl

theorem put_sync {blocks : Blocks} {n : Nat} {f : Bytes} {dirty : List Nat} {jobs : List Job} {b : Nat} {j : Job}
    (h : InSync cfg blocks n f (dirty ++ jobs.map (·.blockno))) (hj : JobsOk cfg f dirty jobs)
    (hf : findJob b jobs = some j) (hd : jobDone cfg f j = true) :
    InSync cfg (putBlock blocks n j) n f (dirty ++ (jobs.filter (fun j => !decide (j.blockno = b))).map (·.blockno)) ∧
    JobsOk cfg f dirty (jobs.filter (fun j => !decide (j.blockno = b))) := by
  have hb : j.blockno = b := by simpa using List.find?_some hf
  have hm : j ∈ jobs := List.mem_of_find?_eq_some hf
  refine ⟨InSync.put (h.weaken ?_) (hj j hm).1 hd, fun j' hj' => hj j' (List.mem_filter.1 hj').1⟩
  intro b' hb'
  rw [List.mem_append] at hb' ⊢
  rcases hb' with hb' | hb'
  · exact Or.inl hb'
  · obtain ⟨j', hj', rfl⟩ := List.mem_map.1 hb'
    by_cases he : j'.blockno = b
    · exact Or.inr (by rw [he, hb]; exact List.mem_cons_self)
    · exact Or.inr (List.mem_cons_of_mem _ (List.mem_map.2 ⟨j', List.mem_filter.2 ⟨hj', by simp [he]⟩, rfl⟩))

end
end Verif.Meta
