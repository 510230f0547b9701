import Verif.Meta.ProtoSpec
/-
The invariant of the protocol and lemmas about its parts.
-/
namespace Verif.Meta

/-- Every block of the database of `p` has an object not above `p`'s version. -/
def Cov (cfg : Cfg) (blocks : Blocks) (p : Params) : Prop :=
  ∀ b, b * cfg.bs < p.dbSize → ∃ s, Newest blocks b p.seq s

/-- What always holds of the backend. -/
structure Base (cfg : Cfg) (Q : Bytes → Prop) (rem : Remote) (r : Params) : Prop where
  cur : rem.cur = some r
  nkv : AL.NK rem.vers
  below : Below rem.blocks r.seq
  vseq : ∀ s P, AL.get rem.vers s = some P → P.seq = s ∧ s ≤ r.seq
  cov : ∀ s P, AL.get rem.vers s = some P → Cov cfg rem.blocks P
  covr : Cov cfg rem.blocks r
  good : ∀ s P, AL.get rem.vers s = some P → P.mounted = false → ∃ f, Q f ∧ Snapshot cfg rem.blocks P f

/-- Machine `b` has no log and its local parameters are outdated. -/
def Outdated (disk : Nat → Disk) (b n : Nat) : Prop :=
  (disk b).wal = [] ∧ ∀ l, (disk b).params = some l → l.seq < n

/-- The file system is unmounted; every machine that has current parameters has the current database. -/
def Clean (cfg : Cfg) (rem : Remote) (disk : Nat → Disk) (r : Params) (t : Bytes) : Prop :=
  r.mounted = false ∧ Snapshot cfg rem.blocks r t ∧
    ∀ b, (disk b).wal = [] ∧ ∀ l, (disk b).params = some l → l.seq < r.seq ∨ (l = r ∧ (disk b).db = t)

/-- The database file with any part of the log applied satisfies `Q`. -/
def Pre (Q : Bytes → Prop) (d : Disk) : Prop := ∀ k, Q (applyAll d.db (d.wal.take k))

/-- Machine `a` has the only current copy of the database. -/
def Owned (cfg : Cfg) (Q : Bytes → Prop) (rem : Remote) (disk : Nat → Disk) (r : Params) (t : Bytes) (a : Nat) : Prop :=
  ∃ l, (disk a).params = some l ∧ r.seq ≤ l.seq ∧ (r.mounted = false → r.seq < l.seq) ∧
    (disk a).view = t ∧ Pre Q (disk a) ∧ DenseAll (disk a).db (disk a).wal ∧ Cov cfg rem.blocks l ∧
    (l.mounted = true ∨ (l.seq = r.seq ∧ (disk a).wal = [] ∧ Snapshot cfg rem.blocks l (disk a).db)) ∧
    ∀ b, b ≠ a → (disk b).wal = [] ∧ ∀ l', (disk b).params = some l' → l'.seq ≤ r.seq ∧ (r.mounted = true → l'.seq < r.seq)

/-- The remote copy agrees except for the tracked blocks, or a full upload is due. -/
def Sync (cfg : Cfg) (blocks : Blocks) (n : Nat) (db : Bytes) (pr : Proc) : Prop :=
  (pr.kind = .fsck ∧ pr.p.needsFsck = true) ∨ InSync cfg blocks n db pr.dirty

/-- What holds while a process is between announcing itself and taking leave. -/
structure Act (cfg : Cfg) (Q : Bytes → Prop) (rem : Remote) (disk : Nat → Disk) (r : Params) (t : Bytes) (pr : Proc) : Prop where
  rm : r.mounted = true
  lm : ∃ l, (disk pr.m).params = some l ∧ r.seq ≤ l.seq ∧ l.mounted = true ∧ Cov cfg rem.blocks l
  view : (disk pr.m).view = t
  pre : Pre Q (disk pr.m)
  dense : DenseAll (disk pr.m).db (disk pr.m).wal
  oth : ∀ b, b ≠ pr.m → Outdated disk b r.seq
  covp : Cov cfg rem.blocks pr.p
  vm : ∀ P, AL.get rem.vers r.seq = some P → P.mounted = true

def JobsOk (cfg : Cfg) (f : Bytes) (dirty : List Nat) (jobs : List Job) : Prop :=
  ∀ j ∈ jobs, JobOk cfg f dirty j ∧ j.length ≤ cfg.bs

/-- The objects still to be deleted are not needed by any version that stays. -/
def DelOk (cfg : Cfg) (rem : Remote) (r : Params) (del : List Key) : Prop :=
  (∃ (ps : List Nat) (bl : List (Nat × Nat)), del = ps.map Key.params ++ bl.map (fun k => Key.block k.1 k.2)) ∧
  Key.params r.seq ∉ del ∧
  ∀ n P, AL.get rem.vers n = some P → Key.params n ∉ del → ∀ b, b * cfg.bs < P.dbSize →
    ∃ s, Newest rem.blocks b n s ∧ Key.block b s ∉ del

/-- The state during the periodic upload, while the database file may not change. -/
def Frozen (cfg : Cfg) (Q : Bytes → Prop) (rem : Remote) (disk : Nat → Disk) (r : Params) (t : Bytes) (pr : Proc) : Prop :=
  Act cfg Q rem disk r t pr ∧ pr.dirty = [] ∧ pr.p.mounted = true ∧ Snapshot cfg rem.blocks pr.p (disk pr.m).db

/-- The invariant for each point of the program. -/
def PcInv (cfg : Cfg) (Q : Bytes → Prop) (rem : Remote) (disk : Nat → Disk) (r : Params) (t : Bytes) (pr : Proc) : Prop :=
  match pr.pc with
  | .dl => Clean cfg rem disk r t ∧ pr.p = r ∧ pr.early = false ∧ ∀ l, (disk pr.m).params = some l → l.seq < r.seq
  | .got =>
    (r.mounted = false ∧ pr.p = r ∧ (disk pr.m).view = t ∧ Pre Q (disk pr.m) ∧ DenseAll (disk pr.m).db (disk pr.m).wal ∧
      InSync cfg rem.blocks r.seq (disk pr.m).db pr.dirty ∧
      (∀ b, b ≠ pr.m → (disk b).wal = [] ∧ ∀ l', (disk b).params = some l' → l'.seq ≤ r.seq) ∧
      (pr.early = false → Clean cfg rem disk r t)) ∨
    (Owned cfg Q rem disk r t pr.m ∧ pr.kind = .fsck ∧ r.seq ≤ pr.p.seq ∧ Cov cfg rem.blocks pr.p ∧
      (pr.p.needsFsck = true ∨ InSync cfg rem.blocks r.seq (disk pr.m).db pr.dirty) ∧ pr.early = false)
  | .mark1 =>
    Owned cfg Q rem disk r t pr.m ∧ (disk pr.m).params = some pr.p ∧ r.seq < pr.p.seq ∧ pr.p.mounted = true ∧
      Cov cfg rem.blocks pr.p ∧ Sync cfg rem.blocks r.seq (disk pr.m).db pr
  | .mark2 => Act cfg Q rem disk r t pr ∧ pr.p = r ∧ Sync cfg rem.blocks r.seq (disk pr.m).db pr
  | .run =>
    Act cfg Q rem disk r t pr ∧ pr.p.seq = r.seq ∧ pr.p.mounted = true ∧ Sync cfg rem.blocks r.seq (disk pr.m).db pr
  | .up .pass _ jobs =>
    Act cfg Q rem disk r t pr ∧ pr.p.seq = r.seq ∧ pr.p.mounted = true ∧
      InSync cfg rem.blocks r.seq (disk pr.m).db (pr.dirty ++ jobs.map (·.blockno)) ∧
      JobsOk cfg (disk pr.m).db pr.dirty jobs
  | .up .snap size jobs =>
    Act cfg Q rem disk r t pr ∧ pr.p.seq = r.seq ∧ pr.p.mounted = true ∧ pr.dirty = [] ∧
      InSync cfg rem.blocks r.seq (disk pr.m).db (pr.dirty ++ jobs.map (·.blockno)) ∧
      JobsOk cfg (disk pr.m).db pr.dirty jobs ∧ size = (disk pr.m).db.length
  | .up .close size jobs =>
    Act cfg Q rem disk r t pr ∧ pr.p.seq = r.seq ∧ pr.p.mounted = false ∧ pr.dirty = [] ∧ (disk pr.m).wal = [] ∧
      InSync cfg rem.blocks r.seq (disk pr.m).db (pr.dirty ++ jobs.map (·.blockno)) ∧
      JobsOk cfg (disk pr.m).db pr.dirty jobs ∧ size = (disk pr.m).db.length
  | .fin1 false => Frozen cfg Q rem disk r t pr ∧ pr.p.seq = r.seq
  | .fin1 true =>
    Act cfg Q rem disk r t pr ∧ pr.p.seq = r.seq ∧ pr.p.mounted = false ∧ (disk pr.m).wal = [] ∧
      Snapshot cfg rem.blocks pr.p (disk pr.m).db
  | .fin2 false => Frozen cfg Q rem disk r t pr ∧ pr.p.seq = r.seq ∧ (disk pr.m).params = some pr.p
  | .fin2 true =>
    Owned cfg Q rem disk r t pr.m ∧ (disk pr.m).params = some pr.p ∧ pr.p.seq = r.seq ∧ pr.p.mounted = false ∧
      (disk pr.m).wal = [] ∧ Snapshot cfg rem.blocks pr.p (disk pr.m).db ∧ r.mounted = true
  | .fin3 false => Frozen cfg Q rem disk r t pr ∧ pr.p = r
  | .fin3 true => Clean cfg rem disk r t ∧ pr.p = r ∧ (disk pr.m).db = t
  | .inc1 => Frozen cfg Q rem disk r t pr ∧ pr.p = r ∧ AL.get rem.vers r.seq = some r
  | .inc2 => Frozen cfg Q rem disk r t pr ∧ r.seq < pr.p.seq ∧ (disk pr.m).params = some pr.p
  | .inc3 => Frozen cfg Q rem disk r t pr ∧ pr.p = r ∧ (disk pr.m).params = some r
  | .exp0 false =>
    Frozen cfg Q rem disk r t pr ∧ pr.p = r ∧ (disk pr.m).params = some r ∧ AL.get rem.vers r.seq = some r
  | .exp0 true => Clean cfg rem disk r t ∧ (disk pr.m).db = t ∧ AL.get rem.vers r.seq = some r
  | .exp false del =>
    Frozen cfg Q rem disk r t pr ∧ pr.p = r ∧ (disk pr.m).params = some r ∧ AL.get rem.vers r.seq = some r ∧ DelOk cfg rem r del
  | .exp true del => Clean cfg rem disk r t ∧ (disk pr.m).db = t ∧ AL.get rem.vers r.seq = some r ∧ DelOk cfg rem r del

/-- The invariant; `t` is what the database should be, `Q` holds of everything it has ever been. -/
def Inv (cfg : Cfg) (Q : Bytes → Prop) (t : Bytes) (w : World) : Prop :=
  ∃ r, Base cfg Q w.remote r ∧
    match w.proc with
    | none => Clean cfg w.remote w.disk r t ∨ ∃ a, Owned cfg Q w.remote w.disk r t a
    | some pr => PcInv cfg Q w.remote w.disk r t pr

/-! ### Lemmas: the backend -/

theorem Cov.mono {cfg : Cfg} {blocks : Blocks} {p p' : Params} {n : Nat} (h : Cov cfg blocks p)
    (hb : Below blocks n) (hn : n ≤ p'.seq) (hs : p'.dbSize = p.dbSize) : Cov cfg blocks p' := by
  intro b hlt
  obtain ⟨s, h1, _, _⟩ := h b (by rw [← hs]; exact hlt)
  exact newest_exists h1 (Nat.le_trans (hb b s h1) hn)

theorem Cov.put {cfg : Cfg} {blocks : Blocks} {p : Params} (h : Cov cfg blocks p) (k : Nat × Nat) (c : Bytes) :
    Cov cfg (AL.set blocks k c) p := by
  intro b hlt
  obtain ⟨s, h1, h2, _⟩ := h b hlt
  refine newest_exists (s := s) ?_ h2
  rw [AL.get_set]
  split
  · rfl
  · exact h1

theorem Snapshot.cov {cfg : Cfg} {blocks : Blocks} {p : Params} {f : Bytes} (h : Snapshot cfg blocks p f) :
    Cov cfg blocks p := by
  intro b hlt
  obtain ⟨s, c, hn, _⟩ := h.2.2 b (by rw [← h.1]; exact hlt) (by simp)
  exact ⟨s, hn⟩

theorem Snapshot.put_newer {cfg : Cfg} {blocks : Blocks} {p : Params} {f : Bytes} (h : Snapshot cfg blocks p f)
    {b n : Nat} {c : Bytes} (hn : p.seq < n) : Snapshot cfg (AL.set blocks (b, n) c) p f :=
  ⟨h.1, h.2.1, fun b' hlt hd => (h.2.2 b' hlt hd).set_other _ _ _ (Or.inr hn)⟩

theorem Base.setCur {cfg : Cfg} {Q : Bytes → Prop} {rem : Remote} {r p : Params} (h : Base cfg Q rem r) (hs : r.seq ≤ p.seq)
    (hc : Cov cfg rem.blocks p) : Base cfg Q { rem with cur := some p } p :=
  ⟨rfl, h.nkv, h.below.mono hs, fun s P hg => ⟨(h.vseq s P hg).1, Nat.le_trans (h.vseq s P hg).2 hs⟩, h.cov, hc, h.good⟩

theorem Base.setVer {cfg : Cfg} {Q : Bytes → Prop} {rem : Remote} {r : Params} (h : Base cfg Q rem r)
    (hg : r.mounted = false → ∃ f, Q f ∧ Snapshot cfg rem.blocks r f) :
    Base cfg Q { rem with vers := AL.set rem.vers r.seq r } r := by
  refine ⟨h.cur, h.nkv.set _ _, h.below, ?_, ?_, h.covr, ?_⟩
  · intro s P hp
    rw [AL.get_set] at hp
    split at hp
    · rename_i e; cases hp; exact ⟨e.symm, by omega⟩
    · exact h.vseq s P hp
  · intro s P hp
    rw [AL.get_set] at hp
    split at hp
    · cases hp; exact h.covr
    · exact h.cov s P hp
  · intro s P hp hm
    rw [AL.get_set] at hp
    split at hp
    · cases hp; exact hg hm
    · exact h.good s P hp hm

theorem Base.put {cfg : Cfg} {Q : Bytes → Prop} {rem : Remote} {r : Params} (h : Base cfg Q rem r)
    (hv : ∀ P, AL.get rem.vers r.seq = some P → P.mounted = true) (j : Job) :
    Base cfg Q { rem with blocks := putBlock rem.blocks r.seq j } r := by
  refine ⟨h.cur, h.nkv, h.below.set _ _ _ (Nat.le_refl _), h.vseq, fun s P hp => (h.cov s P hp).put _ _, h.covr.put _ _, ?_⟩
  intro s P hp hm
  obtain ⟨f, hq, hf⟩ := h.good s P hp hm
  have hs := h.vseq s P hp
  refine ⟨f, hq, hf.put_newer ?_⟩
  rcases Nat.lt_or_ge s r.seq with hlt | hge
  · omega
  · have he : s = r.seq := by omega
    subst he
    rw [hv P hp] at hm; cases hm

/-! ### Lemmas: deletion -/

theorem Newest.erase {blocks : Blocks} {b n s : Nat} (h : Newest blocks b n s) {k : Nat × Nat} (hk : k ≠ (b, s)) :
    Newest (AL.erase blocks k) b n s := by
  refine ⟨by rw [AL.get_erase_ne _ (Ne.symm hk)]; exact h.1, h.2.1, ?_⟩
  intro s' hs hle
  rw [AL.get_erase] at hs
  split at hs
  · cases hs
  · exact h.2.2 s' hs hle

theorem Agree.erase {cfg : Cfg} {blocks : Blocks} {n : Nat} {f : Bytes} {b : Nat} (h : Agree cfg blocks n f b)
    {k : Nat × Nat} (hk : ∀ s, Newest blocks b n s → k ≠ (b, s)) : Agree cfg (AL.erase blocks k) n f b := by
  obtain ⟨s, c, hn, hg, h5⟩ := h
  exact ⟨s, c, hn.erase (hk s hn), by rw [AL.get_erase_ne _ (Ne.symm (hk s hn))]; exact hg, h5⟩

/-- A snapshot survives the deletion of an object that is not one of its newest objects. -/
theorem Snapshot.erase {cfg : Cfg} {blocks : Blocks} {p : Params} {f : Bytes} (h : Snapshot cfg blocks p f)
    {k : Nat × Nat} (hk : ∀ b s, b * cfg.bs < p.dbSize → Newest blocks b p.seq s → k ≠ (b, s)) :
    Snapshot cfg (AL.erase blocks k) p f :=
  ⟨h.1, h.2.1, fun b hlt hd => (h.2.2 b hlt hd).erase (fun s hs => hk b s (by rw [h.1]; exact hlt) hs)⟩

theorem Cov.erase {cfg : Cfg} {blocks : Blocks} {p : Params} (h : Cov cfg blocks p)
    {k : Nat × Nat} (hk : ∀ b s, b * cfg.bs < p.dbSize → Newest blocks b p.seq s → k ≠ (b, s)) :
    Cov cfg (AL.erase blocks k) p := by
  intro b hlt
  obtain ⟨s, hs⟩ := h b hlt
  exact ⟨s, hs.erase (hk b s hlt hs)⟩

/-- When expiration starts. -/
theorem DelOk.start {cfg : Cfg} {Q : Bytes → Prop} {rem : Remote} {r : Params} (h : Base cfg Q rem r) {l : List Key}
    (hl : expireList cfg rem 32 = some l) : DelOk cfg rem r l := by
  obtain ⟨h1, h2⟩ := expireList_spec cfg rem 32 h.nkv (by decide) hl
  have hnew : Kept rem.vers 32 r.seq := by
    unfold Kept
    have : (rem.vers.map (·.1)).filter (fun x => decide (r.seq < x)) = [] := by
      rw [List.filter_eq_nil_iff]
      intro s hs
      obtain ⟨P, hP⟩ := Option.isSome_iff_exists.1 ((isSome_iff_mem rem.vers s).2 hs)
      have := (h.vseq s P hP).2
      simp; omega
    rw [this]; decide
  refine ⟨?_, fun hm => ((h1 _).1 hm).2 hnew, ?_⟩
  · unfold expireList at hl
    dsimp only at hl
    split at hl
    · cases hl
    · rename_i k hk
      have hl := Option.some.inj hl
      subst hl
      refine ⟨butLastN (isort (rem.vers.map (·.1))) 32, (blockList rem.blocks).flatMap (fun e => (e.2.filter (fun s => !k.contains (e.1, s))).map (fun s => (e.1, s))), ?_⟩
      congr 1
      rw [List.map_flatMap]
      congr 1
      funext e
      rw [List.map_map]
      rfl
  · intro n P hP hn b hlt
    have hkept : Kept rem.vers 32 n := by
      apply Classical.byContradiction
      intro hk
      exact hn ((h1 n).2 ⟨by rw [hP]; rfl, hk⟩)
    obtain ⟨s, hs⟩ := h.cov n P hP b hlt
    rw [(h.vseq n P hP).1] at hs
    refine ⟨s, hs, fun hm => ((h2 b s).1 hm).2 ⟨n, P, hP, hkept, hlt, hs⟩⟩

/-- Expiration of a consistent backend never fails. -/
theorem Base.expire {cfg : Cfg} {Q : Bytes → Prop} {rem : Remote} {r : Params} (h : Base cfg Q rem r) : (expireList cfg rem 32).isSome := by
  rw [expireList_isSome cfg rem 32 h.nkv (by decide)]
  intro n P hP _
  refine ⟨Or.inr (h.vseq n P hP).1, fun b _ hlt => ?_⟩
  have := h.cov n P hP b hlt
  rwa [(h.vseq n P hP).1] at this

/-- One deletion. -/
theorem DelOk.step {cfg : Cfg} {Q : Bytes → Prop} {rem : Remote} {r : Params} {k : Key} {del : List Key} (h : Base cfg Q rem r)
    (hd : DelOk cfg rem r (k :: del)) (hv : AL.get rem.vers r.seq = some r) :
    Base cfg Q (delKey rem k) r ∧ DelOk cfg (delKey rem k) r del ∧ AL.get (delKey rem k).vers r.seq = some r ∧
    (∀ f, Snapshot cfg rem.blocks r f → Snapshot cfg (delKey rem k).blocks r f) ∧
    (∀ P, AL.get (delKey rem k).vers r.seq = some P → P = r) := by
  obtain ⟨⟨ps, bl, hsplit⟩, hr, hn⟩ := hd
  cases k with
  | params s =>
    have hsr : s ≠ r.seq := by
      intro e; apply hr; rw [e]; exact List.mem_cons_self
    have hget : ∀ n, AL.get (AL.erase rem.vers s) n = if n = s then none else AL.get rem.vers n := AL.get_erase _ _
    have hv2 : AL.get (AL.erase rem.vers s) r.seq = some r := by rw [hget, if_neg (Ne.symm hsr)]; exact hv
    refine ⟨⟨h.cur, h.nkv.erase s, h.below, ?_, ?_, h.covr, ?_⟩, ⟨?_, fun hm => hr (List.mem_cons_of_mem _ hm), ?_⟩, hv2, fun f hf => hf, ?_⟩
    · intro n P hP
      simp only [delKey] at hP; rw [hget] at hP
      split at hP
      · cases hP
      · exact h.vseq n P hP
    · intro n P hP
      simp only [delKey] at hP; rw [hget] at hP
      split at hP
      · cases hP
      · exact h.cov n P hP
    · intro n P hP
      simp only [delKey] at hP; rw [hget] at hP
      split at hP
      · cases hP
      · exact h.good n P hP
    · cases ps with
      | nil =>
        cases bl with
        | nil => cases hsplit
        | cons x t => simp at hsplit
      | cons x t =>
        simp only [List.map_cons, List.cons_append, List.cons.injEq] at hsplit
        exact ⟨t, bl, hsplit.2⟩
    · intro n P hP hnd b hlt
      simp only [delKey] at hP; rw [hget] at hP
      split at hP
      · cases hP
      · rename_i hne
        obtain ⟨s0, h1, h2⟩ := hn n P hP (by
          intro hm
          rcases List.mem_cons.1 hm with e | e
          · cases e; exact hne rfl
          · exact hnd e) b hlt
        exact ⟨s0, h1, fun hm => h2 (List.mem_cons_of_mem _ hm)⟩
    · intro P hP
      simp only [delKey] at hP
      rw [hv2] at hP; cases hP; rfl
  | block b0 s0 =>
    have hps : ps = [] := by
      cases ps with
      | nil => rfl
      | cons x t => simp at hsplit
    subst hps
    simp only [List.map_nil, List.nil_append] at hsplit
    have hnop : ∀ n, Key.params n ∉ Key.block b0 s0 :: del := by
      intro n hm
      rw [hsplit, List.mem_map] at hm
      obtain ⟨k, _, hk⟩ := hm
      cases hk
    have hprot : ∀ n P, AL.get rem.vers n = some P → ∀ b s, b * cfg.bs < P.dbSize → Newest rem.blocks b P.seq s → (b0, s0) ≠ (b, s) := by
      intro n P hP b s hlt hs e
      rw [(h.vseq n P hP).1] at hs
      obtain ⟨s', h1, h2⟩ := hn n P hP (hnop n) b hlt
      rw [← hs.unique h1] at h2
      cases e
      exact h2 List.mem_cons_self
    have hprotr := hprot r.seq r hv
    refine ⟨⟨h.cur, h.nkv, ?_, h.vseq, fun n P hP => (h.cov n P hP).erase (hprot n P hP), h.covr.erase hprotr, ?_⟩, ⟨?_, fun hm => hr (List.mem_cons_of_mem _ hm), ?_⟩, hv, fun f hf => hf.erase hprotr, ?_⟩
    · intro b s hs
      simp only [delKey] at hs
      rw [AL.get_erase] at hs
      split at hs
      · cases hs
      · exact h.below b s hs
    · intro n P hP hm
      obtain ⟨f, hq, hf⟩ := h.good n P hP hm
      exact ⟨f, hq, hf.erase (hprot n P hP)⟩
    · cases bl with
      | nil => cases hsplit
      | cons x t =>
        simp only [List.map_cons, List.cons.injEq] at hsplit
        exact ⟨[], t, by simpa using hsplit.2⟩
    · intro n P hP _ b hlt
      obtain ⟨s', h1, h2⟩ := hn n P hP (hnop n) b hlt
      refine ⟨s', h1.erase ?_, fun hm => h2 (List.mem_cons_of_mem _ hm)⟩
      intro e
      cases e
      exact h2 List.mem_cons_self
    · intro P hP
      simp only [delKey] at hP
      rw [hv] at hP; cases hP; rfl

end Verif.Meta
