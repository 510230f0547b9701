import Verif.Meta.ProtoInv
/-
A completed snapshot stays complete (C10).  Unlike the invariant of Verif.Meta.Inv this holds for every
history, orderly or not.
-/
namespace Verif.Meta

/-- No process is uploading under the sequence number of `s3ql_params`. -/
def Settled (w : World) : Prop :=
  ∀ pr, w.proc = some pr → match pr.pc with
    | .dl | .got | .mark1 | .inc1 | .inc2 | .exp0 true | .exp true _ => True
    | _ => False

/-- The objects still to be deleted are not needed by any version that stays. -/
def DelW (cfg : Cfg) (rem : Remote) (r : Params) (del : List Key) : Prop :=
  (∃ (ps : List Nat) (bl : List (Nat × Nat)), del = ps.map Key.params ++ bl.map (fun k => Key.block k.1 k.2)) ∧
  (∀ s, Key.params s ∈ del → s < r.seq) ∧
  ∀ n P, AL.get rem.vers n = some P → Key.params n ∉ del → ∀ b s, b * cfg.bs < P.dbSize → Newest rem.blocks b n s → Key.block b s ∉ del

/-- What holds at each point of the program. -/
def PcW (cfg : Cfg) (rem : Remote) (r : Params) (pr : Proc) : Prop :=
  match pr.pc with
  | .dl | .got => r.seq ≤ pr.p.seq
  | .mark1 | .inc2 => r.seq < pr.p.seq ∧ pr.p.mounted = true
  | .mark2 | .run | .up .pass _ _ | .up .snap _ _ | .fin1 false | .fin2 false | .fin3 false | .exp0 false | .inc3 =>
    pr.p.seq = r.seq ∧ pr.p.mounted = true ∧ ∀ P, AL.get rem.vers r.seq = some P → P.mounted = true
  | .up .close _ _ | .fin1 true | .fin2 true | .fin3 true =>
    pr.p.seq = r.seq ∧ ∀ P, AL.get rem.vers r.seq = some P → P.mounted = true
  | .inc1 => pr.p.seq = r.seq ∧ pr.p.mounted = true
  | .exp0 true => pr.p.seq = r.seq
  | .exp false del =>
    pr.p.seq = r.seq ∧ pr.p.mounted = true ∧ (∀ P, AL.get rem.vers r.seq = some P → P.mounted = true) ∧ DelW cfg rem r del
  | .exp true del => pr.p.seq = r.seq ∧ DelW cfg rem r del

/-- What holds after every history. -/
structure WF (cfg : Cfg) (w : World) (r : Params) : Prop where
  cur : w.remote.cur = some r
  nkv : AL.NK w.remote.vers
  below : Below w.remote.blocks r.seq
  vseq : ∀ s P, AL.get w.remote.vers s = some P → P.seq = s ∧ s ≤ r.seq
  pc : ∀ pr, w.proc = some pr → PcW cfg w.remote r pr

/-- Version `s` with parameters `P` is a complete snapshot of `f` that no process is working on. -/
def Stored (cfg : Cfg) (w : World) (r : Params) (s : Nat) (P : Params) (f : Bytes) : Prop :=
  AL.get w.remote.vers s = some P ∧ Snapshot cfg w.remote.blocks P f ∧ (s < r.seq ∨ Settled w)

/-- … or it has been expired. -/
def Kept2 (cfg : Cfg) (w : World) (r : Params) (s : Nat) (P : Params) (f : Bytes) : Prop :=
  Stored cfg w r s P f ∨ (AL.get w.remote.vers s = none ∧ s < r.seq)

section
variable {cfg : Cfg} {w w' : World} {r : Params} {pr : Proc} {s : Nat} {P : Params} {f : Bytes}

theorem DelW.start {rem : Remote} (hn : AL.NK rem.vers) (hv : ∀ s P, AL.get rem.vers s = some P → s ≤ r.seq) {l : List Key}
    (hl : expireList cfg rem 32 = some l) : DelW cfg rem r l := by
  obtain ⟨h1, h2⟩ := expireList_spec cfg rem 32 hn (by decide) hl
  refine ⟨?_, ?_, ?_⟩
  · unfold expireList at hl
    dsimp only at hl
    split at hl
    · cases hl
    · rename_i k hk
      have hl := Option.some.inj hl
      subst hl
      refine ⟨butLastN (isort (rem.vers.map (·.1))) 32, (blockList rem.blocks).flatMap (fun e => (e.2.filter (fun s => !k.contains (e.1, s))).map (fun s => (e.1, s))), ?_⟩
      congr 1
      rw [List.map_flatMap]
      congr 1
      funext e
      rw [List.map_map]
      rfl
  · intro s hs
    obtain ⟨hs1, hs2⟩ := (h1 s).1 hs
    obtain ⟨P, hP⟩ := Option.isSome_iff_exists.1 hs1
    have hle := hv s P hP
    rcases Nat.lt_or_ge s r.seq with h | h
    · exact h
    · exfalso
      apply hs2
      unfold Kept
      have : (rem.vers.map (·.1)).filter (fun x => decide (s < x)) = [] := by
        rw [List.filter_eq_nil_iff]
        intro x hx
        obtain ⟨P, hP⟩ := Option.isSome_iff_exists.1 ((isSome_iff_mem rem.vers x).2 hx)
        have := hv x P hP
        simp; omega
      rw [this]; decide
  · intro n P hP hnd b s hlt hs hm
    have hkept : Kept rem.vers 32 n := by
      apply Classical.byContradiction
      intro hk
      exact hnd ((h1 n).2 ⟨by rw [hP]; rfl, hk⟩)
    exact ((h2 b s).1 hm).2 ⟨n, P, hP, hkept, hlt, hs⟩

/-- One deletion. -/
theorem DelW.step {rem : Remote} {k : Key} {del : List Key} (hd : DelW cfg rem r (k :: del))
    (hv : ∀ s P, AL.get rem.vers s = some P → P.seq = s) :
    DelW cfg (delKey rem k) r del ∧
    (∀ n P, AL.get (delKey rem k).vers n = some P → AL.get rem.vers n = some P) ∧
    (∀ n P, AL.get rem.vers n = some P → AL.get (delKey rem k).vers n = some P ∨ (AL.get (delKey rem k).vers n = none ∧ n < r.seq)) ∧
    (∀ b s, (AL.get (delKey rem k).blocks (b, s)).isSome → (AL.get rem.blocks (b, s)).isSome) ∧
    (∀ n P f, AL.get (delKey rem k).vers n = some P → Snapshot cfg rem.blocks P f → Snapshot cfg (delKey rem k).blocks P f) := by
  obtain ⟨⟨ps, bl, hsplit⟩, hr, hn⟩ := hd
  cases k with
  | params s0 =>
    have hget : ∀ n, AL.get (AL.erase rem.vers s0) n = if n = s0 then none else AL.get rem.vers n := AL.get_erase _ _
    refine ⟨⟨?_, fun s hs => hr s (List.mem_cons_of_mem _ hs), ?_⟩, ?_, ?_, fun _ _ h => h, fun _ _ _ _ h => h⟩
    · cases ps with
      | nil =>
        cases bl with
        | nil => cases hsplit
        | cons x t => simp at hsplit
      | cons x t =>
        simp only [List.map_cons, List.cons_append, List.cons.injEq] at hsplit
        exact ⟨t, bl, hsplit.2⟩
    · intro n P hP hnd b s hlt hs hm
      simp only [delKey] at hP; rw [hget] at hP
      split at hP
      · cases hP
      · rename_i hne
        refine hn n P hP ?_ b s hlt hs (List.mem_cons_of_mem _ hm)
        intro hm2
        rcases List.mem_cons.1 hm2 with e | e
        · cases e; exact hne rfl
        · exact hnd e
    · intro n P hP
      simp only [delKey] at hP; rw [hget] at hP
      split at hP
      · cases hP
      · exact hP
    · intro n P hP
      simp only [delKey]; rw [hget]
      split
      · rename_i e; subst e; exact Or.inr ⟨rfl, hr _ List.mem_cons_self⟩
      · exact Or.inl hP
  | block b0 s0 =>
    have hps : ps = [] := by
      cases ps with
      | nil => rfl
      | cons x t => simp at hsplit
    subst hps
    simp only [List.map_nil, List.nil_append] at hsplit
    have hnop : ∀ n, Key.params n ∉ Key.block b0 s0 :: del := by
      intro n hm
      rw [hsplit, List.mem_map] at hm
      obtain ⟨k, _, hk⟩ := hm
      cases hk
    have hprot : ∀ n P, AL.get rem.vers n = some P → ∀ b s, b * cfg.bs < P.dbSize → Newest rem.blocks b P.seq s → (b0, s0) ≠ (b, s) := by
      intro n P hP b s hlt hs e
      rw [hv n P hP] at hs
      have := hn n P hP (hnop n) b s hlt hs
      cases e
      exact this List.mem_cons_self
    refine ⟨⟨?_, fun s hs => hr s (List.mem_cons_of_mem _ hs), ?_⟩, fun _ _ h => h, fun _ _ h => Or.inl h, ?_, fun n P f hP hf => hf.erase (hprot n P hP)⟩
    · cases bl with
      | nil => cases hsplit
      | cons x t =>
        simp only [List.map_cons, List.cons.injEq] at hsplit
        exact ⟨[], t, by simpa using hsplit.2⟩
    · intro n P hP _ b s hlt hs hm
      simp only [delKey] at hP hs
      -- the newest object of this block did not change
      by_cases hb : ∃ s', Newest rem.blocks b n s'
      · obtain ⟨s', hs'⟩ := hb
        have h1 := hs'.erase (k := (b0, s0)) (by have := hprot n P hP b s' hlt (by rw [hv n P hP]; exact hs'); exact this)
        have := hs.unique h1
        subst this
        exact hn n P hP (hnop n) b s hlt hs' (List.mem_cons_of_mem _ hm)
      · apply hb
        have h1 := hs.1
        rw [AL.get_erase] at h1
        split at h1
        · cases h1
        · exact newest_exists h1 hs.2.1
    · intro b s h
      simp only [delKey] at h
      rw [AL.get_erase] at h
      split at h
      · cases h
      · exact h

/-- A change that leaves the backend alone. -/
theorem WF.local (h : WF cfg w r) (hrem : w'.remote = w.remote) (hpc : ∀ p, w'.proc = some p → PcW cfg w.remote r p) : WF cfg w' r :=
  ⟨by rw [hrem]; exact h.cur, by rw [hrem]; exact h.nkv, by rw [hrem]; exact h.below, by rw [hrem]; exact h.vseq, by rw [hrem]; exact hpc⟩

theorem Kept2.local (h : Kept2 cfg w r s P f) (hrem : w'.remote = w.remote) (hst : s < r.seq ∨ (Settled w → Settled w')) : Kept2 cfg w' r s P f := by
  rcases h with ⟨h1, h2, h3⟩ | h
  · refine Or.inl ⟨by rw [hrem]; exact h1, by rw [hrem]; exact h2, ?_⟩
    rcases h3 with h3 | h3
    · exact Or.inl h3
    · rcases hst with hst | hst
      · exact Or.inl hst
      · exact Or.inr (hst h3)
  · exact Or.inr (by rw [hrem]; exact h)

theorem settled_none (h : w.proc = none) : Settled w := by
  intro pr hpr; rw [h] at hpr; cases hpr

/-- The conclusion of the step lemma. -/
def Next (cfg : Cfg) (w w' : World) : Prop :=
  ∃ r', WF cfg w' r' ∧ ∀ r s P f, w.remote.cur = some r → Kept2 cfg w r s P f → Kept2 cfg w' r' s P f

/-- Storing `s3ql_params`. -/
theorem next_cur (h : WF cfg w r) (hle : r.seq ≤ pr.p.seq) {pr' : Proc}
    (hset : pr.p.seq = r.seq → ¬ Settled w)
    (hpc : PcW cfg { w.remote with cur := some pr.p } pr.p pr') :
    Next cfg w ({ w with remote := { w.remote with cur := some pr.p } }.setProc pr') := by
  refine ⟨pr.p, ⟨rfl, h.nkv, h.below.mono hle, fun s P hP => ⟨(h.vseq s P hP).1, Nat.le_trans (h.vseq s P hP).2 hle⟩, fun p e => by cases e; exact hpc⟩, ?_⟩
  intro r0 s P f hr hk
  rw [h.cur] at hr
  cases hr
  rcases hk with ⟨h1, h2, h3⟩ | ⟨h1, h2⟩
  · refine Or.inl ⟨h1, h2, ?_⟩
    rcases h3 with h3 | h3
    · exact Or.inl (by omega)
    · rcases Nat.lt_or_ge r.seq pr.p.seq with hlt | hge
      · exact Or.inl (by have := (h.vseq s P h1).2; omega)
      · exact absurd h3 (hset (by omega))
  · exact Or.inr ⟨h1, by omega⟩

/-- Storing `s3ql_params_<seq>`. -/
theorem next_ver (h : WF cfg w r) (he : pr.p.seq = r.seq) {pr' : Proc}
    (hset : ¬ Settled w)
    (hpc : PcW cfg { w.remote with vers := AL.set w.remote.vers pr.p.seq pr.p } r pr') :
    Next cfg w ({ w with remote := { w.remote with vers := AL.set w.remote.vers pr.p.seq pr.p } }.setProc pr') := by
  refine ⟨r, ⟨h.cur, h.nkv.set _ _, h.below, ?_, fun p e => by cases e; exact hpc⟩, ?_⟩
  · intro s P hP
    simp only [World.setProc] at hP
    rw [AL.get_set] at hP
    split at hP
    · rename_i e; cases hP; exact ⟨e.symm, by omega⟩
    · exact h.vseq s P hP
  · intro r0 s P f hr hk
    rw [h.cur] at hr
    cases hr
    rcases hk with ⟨h1, h2, h3⟩ | ⟨h1, h2⟩
    · rcases h3 with h3 | h3
      · refine Or.inl ⟨?_, h2, Or.inl h3⟩
        simp only [World.setProc]
        rw [AL.get_set_ne _ _ (by omega)]; exact h1
      · exact absurd h3 hset
    · refine Or.inr ⟨?_, h2⟩
      simp only [World.setProc]
      rw [AL.get_set_ne _ _ (by omega)]; exact h1

theorem nextLocal (h : WF cfg w r) (hrem : w'.remote = w.remote) (hpc : ∀ p, w'.proc = some p → PcW cfg w.remote r p) (hset : Settled w → Settled w') :
    Next cfg w w' := by
  refine ⟨r, h.local hrem hpc, ?_⟩
  intro r0 s P f hr hk
  rw [h.cur] at hr
  cases hr
  exact hk.local hrem (Or.inr hset)

theorem settled_of {p : Proc} (hp : w'.proc = some p) (h : match p.pc with
    | .dl | .got | .mark1 | .inc1 | .inc2 | .exp0 true | .exp true _ => True
    | _ => False) : Settled w' := by
  intro p' e
  rw [hp] at e
  cases e
  exact h

theorem nextDel (h : WF cfg w r) {k : Key} {del : List Key} {last : Bool} (hpr : w.proc = some pr) (hpc : pr.pc = .exp last (k :: del)) :
    Next cfg w ({ w with remote := delKey w.remote k }.setProc { pr with pc := .exp last del }) := by
  have hp := h.pc pr hpr
  have hd : DelW cfg w.remote r (k :: del) := by
    unfold PcW at hp
    rw [hpc] at hp
    cases last with
    | false => exact hp.2.2.2
    | true => exact hp.2
  obtain ⟨d1, d2, d3, d4, d5⟩ := hd.step (fun s P hP => (h.vseq s P hP).1)
  refine ⟨r, ⟨?_, ?_, fun b s hs => h.below b s (d4 b s hs), fun s P hP => h.vseq s P (d2 s P hP), ?_⟩, ?_⟩
  · cases k <;> exact h.cur
  · cases k with
    | params s => exact h.nkv.erase s
    | block b s => exact h.nkv
  · intro p e
    cases e
    unfold PcW at hp ⊢
    rw [hpc] at hp
    cases last with
    | false => exact ⟨hp.1, hp.2.1, fun P hP => hp.2.2.1 P (d2 _ P hP), d1⟩
    | true => exact ⟨hp.1, d1⟩
  · intro r0 s P f hr hk
    rw [h.cur] at hr
    cases hr
    rcases hk with ⟨h1, h2, h3⟩ | ⟨h1, h2⟩
    · rcases d3 s P h1 with e | e
      · refine Or.inl ⟨e, d5 s P f e h2, ?_⟩
        rcases h3 with h3 | h3
        · exact Or.inl h3
        · have := h3 pr hpr
          rw [hpc] at this
          cases last with
          | false => exact absurd this id
          | true => exact Or.inr (settled_of rfl trivial)
      · exact Or.inr e
    · refine Or.inr ⟨?_, h2⟩
      cases hx : AL.get (delKey w.remote k).vers s with
      | none => exact hx
      | some P' =>
        have := d2 s P' hx
        rw [h1] at this; cases this

theorem nextPut (h : WF cfg w r) (hpr : w.proc = some pr) {k : UpKind} {size : Nat} {jobs jobs' : List Job} (hpc : pr.pc = .up k size jobs) (j : Job) :
    Next cfg w ({ w with remote := { w.remote with blocks := putBlock w.remote.blocks pr.p.seq j } }.setProc { pr with pc := .up k size jobs' }) := by
  have hp := h.pc pr hpr
  have hseq : pr.p.seq = r.seq := by
    unfold PcW at hp
    rw [hpc] at hp
    cases k <;> exact hp.1
  refine ⟨r, ⟨h.cur, h.nkv, h.below.set _ _ _ (by omega), h.vseq, ?_⟩, ?_⟩
  · intro p e
    cases e
    unfold PcW at hp ⊢
    rw [hpc] at hp
    cases k <;> exact hp
  · intro r0 s P f hr hk
    rw [h.cur] at hr
    cases hr
    rcases hk with ⟨h1, h2, h3⟩ | hk
    · rcases h3 with h3 | h3
      · exact Or.inl ⟨h1, h2.put_newer (by rw [(h.vseq s P h1).1]; omega), Or.inl h3⟩
      · have := h3 pr hpr
        rw [hpc] at this
        exact absurd this id
    · exact Or.inr hk

theorem nextNext (h : WF cfg w r) (hpr : w.proc = some pr) (hs : nextStep cfg w pr = some w') : Next cfg w w' := by
  have hp := h.pc pr hpr
  have hset : ∀ (hn : ¬ (match pr.pc with
    | .dl | .got | .mark1 | .inc1 | .inc2 | .exp0 true | .exp true _ => True
    | _ => False)), ¬ Settled w := fun hn hst => hn (hst pr hpr)
  unfold PcW at hp
  unfold nextStep at hs
  cases hpc : pr.pc with
  | dl => rw [hpc] at hs; cases hs
  | run => rw [hpc] at hs; cases hs
  | got =>
    rw [hpc] at hs hp
    cases hs
    refine nextLocal h rfl (fun p e => by cases e; exact ⟨Nat.lt_succ_of_le hp, rfl⟩) (fun _ => settled_of rfl trivial)
  | mark1 =>
    rw [hpc] at hs hp
    cases hs
    dsimp only at hp
    refine next_cur h (by omega) (by omega) ⟨rfl, hp.2, fun P hP => ?_⟩
    have := (h.vseq _ _ hP).2
    omega
  | mark2 =>
    rw [hpc] at hs hp
    cases hs
    refine next_ver h hp.1 (hset (by rw [hpc]; exact id)) ⟨hp.1, hp.2.1, fun P hP => ?_⟩
    dsimp only at hP
    rw [hp.1, AL.get_set_self] at hP
    cases hP; exact hp.2.1
  | up k size jobs =>
    cases jobs with
    | cons j js => rw [hpc] at hs; cases hs
    | nil =>
      rw [hpc] at hs hp
      cases k with
      | pass => cases hs; exact nextLocal h rfl (fun p e => by cases e; exact hp) (fun hst => absurd hst (hset (by rw [hpc]; exact id)))
      | snap => cases hs; exact nextLocal h rfl (fun p e => by cases e; exact hp) (fun hst => absurd hst (hset (by rw [hpc]; exact id)))
      | close => cases hs; exact nextLocal h rfl (fun p e => by cases e; exact hp) (fun hst => absurd hst (hset (by rw [hpc]; exact id)))
  | fin1 last =>
    rw [hpc] at hs hp
    cases last <;> (cases hs; exact nextLocal h rfl (fun p e => by cases e; exact hp) (fun hst => absurd hst (hset (by rw [hpc]; exact id))))
  | fin2 last =>
    rw [hpc] at hs hp
    cases last with
    | false =>
      cases hs
      refine next_cur h (Nat.le_of_eq hp.1.symm) (fun _ => hset (by rw [hpc]; exact id)) ⟨rfl, hp.2.1, fun P hP => hp.2.2 P ?_⟩
      rw [← hp.1]; exact hP
    | true =>
      cases hs
      refine next_cur h (Nat.le_of_eq hp.1.symm) (fun _ => hset (by rw [hpc]; exact id)) ⟨rfl, fun P hP => hp.2 P ?_⟩
      rw [← hp.1]; exact hP
  | fin3 last =>
    rw [hpc] at hs hp
    cases last with
    | false =>
      cases hs
      exact next_ver h hp.1 (hset (by rw [hpc]; exact id)) ⟨hp.1, hp.2.1⟩
    | true =>
      cases hs
      exact next_ver h hp.1 (hset (by rw [hpc]; exact id)) hp.1
  | inc1 =>
    rw [hpc] at hs hp
    cases hs
    exact nextLocal h rfl (fun p e => by cases e; exact ⟨Nat.lt_succ_of_le (Nat.le_of_eq hp.1.symm), hp.2⟩) (fun _ => settled_of rfl trivial)
  | inc2 =>
    rw [hpc] at hs hp
    cases hs
    dsimp only at hp
    refine next_cur h (by omega) (by omega) ⟨rfl, hp.2, fun P hP => ?_⟩
    have := (h.vseq _ _ hP).2
    omega
  | inc3 =>
    rw [hpc] at hs hp
    cases hs
    refine next_ver h hp.1 (hset (by rw [hpc]; exact id)) ⟨hp.1, hp.2.1, fun P hP => ?_⟩
    dsimp only at hP
    rw [hp.1, AL.get_set_self] at hP
    cases hP; exact hp.2.1
  | exp0 last =>
    rw [hpc] at hs hp
    dsimp only at hs
    cases hl : expireList cfg w.remote 32 with
    | none =>
      rw [hl] at hs
      cases hs
      exact nextLocal h rfl (fun p e => by cases e) (fun _ => settled_none rfl)
    | some l =>
      rw [hl] at hs
      cases hs
      have hd := DelW.start h.nkv (fun s P hP => (h.vseq s P hP).2) hl
      cases last with
      | false => exact nextLocal h rfl (fun p e => by cases e; exact ⟨hp.1, hp.2.1, hp.2.2, hd⟩) (fun hst => absurd hst (hset (by rw [hpc]; exact id)))
      | true => exact nextLocal h rfl (fun p e => by cases e; exact ⟨hp, hd⟩) (fun _ => settled_of rfl trivial)
  | exp last del =>
    cases del with
    | cons k del =>
      rw [hpc] at hs
      cases hs
      exact nextDel h hpr hpc
    | nil =>
      rw [hpc] at hs hp
      cases last with
      | true =>
        cases hs
        exact nextLocal h rfl (fun p e => by cases e) (fun _ => settled_none rfl)
      | false =>
        cases hs
        exact nextLocal h rfl (fun p e => by cases e; exact ⟨hp.1, hp.2.1, hp.2.2.1⟩) (fun hst => absurd hst (hset (by rw [hpc]; exact id)))

theorem readCached_ge {l : Option Params} {n : Nat} {p : Params} (h : readCached l n = some p) : n ≤ p.seq := by
  unfold readCached at h
  split at h
  · cases h
  · split at h
    · cases h
    · cases h; omega

theorem fsckCheck_seq {l : Option Params} {fo an : Bool} {p : Params}
    (h : fsckCheck (some r) l fo an = .useLocal p ∨ fsckCheck (some r) l fo an = .download p) : r.seq ≤ p.seq := by
  unfold fsckCheck at h
  dsimp only at h
  cases hc : readCached l r.seq with
  | none =>
    rw [hc] at h
    dsimp only at h
    split at h
    · split at h
      · rcases h with h | h <;> cases h
        exact Nat.le_refl _
      · rcases h with h | h <;> cases h
    · split at h
      · rcases h with h | h <;> cases h
      · rcases h with h | h <;> cases h
        exact Nat.le_refl _
  | some q =>
    rw [hc] at h
    dsimp only at h
    have := readCached_ge hc
    split at h
    · rcases h with h | h
      · split at h
        · cases h
        · cases h; exact this
      · split at h <;> cases h
    · rcases h with h | h
      · split at h
        · cases h
        · cases h; exact this
      · split at h <;> cases h

/-- Every step. -/
theorem stable_step {op : Op} (h : WF cfg w r) (hs : step cfg w op = some w') : Next cfg w w' := by
  cases hpr : w.proc with
  | none =>
    have hl : ∀ {w1 : World}, w1.remote = w.remote → w1.proc = none → Next cfg w w1 := fun h1 h2 =>
      nextLocal h h1 (fun p e => by rw [h2] at e; cases e) (fun _ => settled_none h2)
    unfold step at hs
    rw [hpr] at hs
    cases op with
    | startMount m =>
      dsimp only at hs
      rw [h.cur] at hs
      split at hs
      · rename_i r1 _ e
        cases e
        cases hs
        exact nextLocal h rfl (fun p e => by cases e; exact Nat.le_refl _) (fun _ => settled_of rfl trivial)
      · rename_i r1 _ e
        cases e
        cases hs
        exact nextLocal h rfl (fun p e => by cases e; exact Nat.le_refl _) (fun _ => settled_of rfl trivial)
      · cases hs; exact hl rfl hpr
    | startFsck m fo an =>
      dsimp only at hs
      rw [h.cur] at hs
      split at hs
      · rename_i p hp
        cases hs
        exact nextLocal h rfl (fun p e => by cases e; exact fsckCheck_seq (Or.inl hp)) (fun _ => settled_of rfl trivial)
      · rename_i p hp
        cases hs
        exact nextLocal h rfl (fun p e => by cases e; exact fsckCheck_seq (Or.inr hp)) (fun _ => settled_of rfl trivial)
      · cases hs; exact hl rfl hpr
    | idleCkpt m =>
      dsimp only at hs
      split at hs
      · cases hs
      · cases hs; exact hl rfl hpr
    | restoreCrash m d => cases hs; exact hl rfl hpr
    | restore m s0 now order =>
      dsimp only at hs
      split at hs
      · cases hs
      · split at hs
        · cases hs
        · cases hs; exact hl rfl hpr
    | _ => cases hs
  | some pr =>
    have hp := h.pc pr hpr
    have hset : ∀ (hn : ¬ (match pr.pc with
      | .dl | .got | .mark1 | .inc1 | .inc2 | .exp0 true | .exp true _ => True
      | _ => False)), ¬ Settled w := fun hn hst => hn (hst pr hpr)
    unfold step at hs
    rw [hpr] at hs
    have hsame : ∀ {w1 : World} {p1 : Proc}, w1.remote = w.remote → w1.proc = some p1 → p1.p = pr.p → p1.pc = pr.pc → Next cfg w w1 := by
      intro w1 p1 e1 e2 e3 e4
      refine nextLocal h e1 (fun p e => ?_) (fun hst => settled_of e2 (by rw [e4]; exact hst pr hpr))
      rw [e2] at e
      cases e
      unfold PcW at hp ⊢
      rw [e4, e3]; exact hp
    cases op with
    | startMount m => cases hs
    | startFsck m fo an => cases hs
    | idleCkpt m => cases hs
    | restoreCrash m d => cases hs
    | restore m s0 now order => cases hs
    | crash => cases hs; exact nextLocal h rfl (fun p e => by cases e) (fun _ => settled_none rfl)
    | next => exact nextNext h hpr hs
    | dlPart d =>
      dsimp only at hs
      split at hs
      · cases hs; exact hsame rfl hpr rfl rfl
      · cases hs
    | dlEnd order =>
      dsimp only at hs
      split at hs
      · rename_i hpc
        unfold PcW at hp
        rw [hpc] at hp
        split at hs
        · cases hs
          exact nextLocal h rfl (fun p e => by cases e; exact hp) (fun _ => settled_of rfl trivial)
        · cases hs; exact nextLocal h rfl (fun p e => by cases e) (fun _ => settled_none rfl)
      · cases hs
    | early o =>
      dsimp only at hs
      split at hs
      · cases hs; exact hsame rfl rfl rfl rfl
      · cases hs
    | sql o =>
      dsimp only at hs
      split at hs
      · cases hs; exact hsame rfl hpr rfl rfl
      · cases hs
    | ckpt =>
      dsimp only at hs
      split at hs
      · split at hs
        · cases hs
        · cases hs; exact hsame rfl rfl rfl rfl
      · cases hs
    | startPass =>
      dsimp only at hs
      split at hs
      · rename_i hc
        unfold PcW at hp
        rw [hc.1] at hp
        cases hs
        exact nextLocal h rfl (fun p e => by cases e; exact hp) (fun hst => absurd hst (hset (by rw [hc.1]; exact id)))
      · cases hs
    | startSnap stamp =>
      dsimp only at hs
      split at hs
      · rename_i hc
        unfold PcW at hp
        rw [hc.1] at hp
        cases hs
        exact nextLocal h rfl (fun p e => by cases e; exact hp) (fun hst => absurd hst (hset (by rw [hc.1]; exact id)))
      · cases hs
    | read b n =>
      dsimp only at hs
      split at hs
      · rename_i k size jobs hpc
        unfold PcW at hp
        rw [hpc] at hp
        cases hs
        refine nextLocal h rfl (fun p e => ?_) (fun hst => absurd hst (hset (by rw [hpc]; exact id)))
        cases e
        unfold PcW
        cases k <;> exact hp
      · cases hs
    | put b =>
      dsimp only at hs
      split at hs
      · rename_i k size jobs hpc
        split at hs
        · split at hs
          · cases hs; exact nextPut h hpr hpc _
          · cases hs
        · cases hs
      · cases hs
    | finish stamp flag =>
      dsimp only at hs
      split at hs
      · rename_i hpc
        unfold PcW at hp
        rw [hpc] at hp
        replace hs := (Option.some.inj hs).symm
        subst hs
        refine nextLocal h rfl (fun p e => ?_) (fun hst => absurd hst (hset (by rw [hpc]; exact id)))
        cases e
        unfold PcW
        dsimp only
        refine ⟨?_, hp.2.2⟩
        cases pr.kind <;> exact hp.1
      · cases hs

theorem stable_exec : ∀ (ops : List Op) (w w' : World) (r : Params), WF cfg w r → exec cfg w ops = some w' →
    ∃ r', WF cfg w' r' ∧ ∀ s P f, Kept2 cfg w r s P f → Kept2 cfg w' r' s P f
  | [], w, w', r, h, he => by cases he; exact ⟨r, h, fun _ _ _ hk => hk⟩
  | op :: ops, w, w', r, h, he => by
    unfold exec at he
    split at he
    · cases he
    · rename_i w1 hs
      obtain ⟨r1, h1, h2⟩ := stable_step h hs
      obtain ⟨r2, h3, h4⟩ := stable_exec ops w1 w' r1 h1 he
      exact ⟨r2, h3, fun s P f hk => h4 s P f (h2 r s P f h.cur hk)⟩

theorem wf_mkfs (cfg : Cfg) (m now : Nat) (f : Bytes) : ∃ r, WF cfg (mkfs cfg m now f) r := by
  obtain ⟨r, hb, _⟩ := inv_mkfs cfg (fun _ => True) m now f trivial
  exact ⟨r, hb.cur, hb.nkv, hb.below, hb.vseq, fun pr e => by cases e⟩

/-- A version marked as unmounted is not being worked on. -/
theorem unmounted_settled (h : WF cfg w r) (hg : AL.get w.remote.vers s = some P) (hm : P.mounted = false) : s < r.seq ∨ Settled w := by
  rcases Nat.lt_or_ge s r.seq with hlt | hge
  · exact Or.inl hlt
  · right
    have he : s = r.seq := by have := (h.vseq s P hg).2; omega
    subst he
    intro pr hpr
    have hp := h.pc pr hpr
    unfold PcW at hp
    have hno : ¬ (∀ P, AL.get w.remote.vers r.seq = some P → P.mounted = true) := by
      intro hx; rw [hx P hg] at hm; cases hm
    split
    all_goals first
      | trivial
      | (rename_i h1 h2 h3 h4 h5 h6 h7
         split at hp
         all_goals first
           | exact hno hp.2.2
           | exact hno hp.2
           | exact hno hp.2.2.1
           | (exfalso; simp_all))

end
end Verif.Meta
