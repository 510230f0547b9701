import Verif.Cache.Progress
/-
Properties of the block cache (C02-C06, C53, C59).  `exec H init evs = some (s, outs)` says that the
schedule `evs` is possible and leads to state `s`; schedules interleave any number of tasks.
`H` is the content hash, assumed to be collision free (`Function.Injective H`).
`(Spec.run Spec.empty evs).now k` is the contents of block `k` according to the specification.
-/
namespace Verif.Cache
open AL (NK sumBy)

/-- Contents that block `k` must have after a history. -/
abbrev contents (evs : List Ev) (k : Key) : Bytes := (Spec.run Spec.empty evs).now k

theorem reach {H : Bytes → Bytes} (hH : Function.Injective H) {evs s outs} (h : exec H init evs = some (s, outs)) :
    ∃ D, Inv H s (contents evs) D ∧ Spec.okOuts Spec.empty evs outs := by
  obtain ⟨D, h1, h2, _⟩ := exec_inv hH (inv_init H) h
  exact ⟨D, h1, h2⟩

/-! ### A schedule used in the examples: two blocks with equal contents are written, uploaded, evicted
and read back from the backend; one is removed. -/

def a : Key := (5, 0)
def b : Key := (5, 1)
def demo : List Ev :=
  [.getNew a, .write a [1, 2], .unlock a, .getNew b, .write b [1, 2], .unlock b,
   .upStart a, .upStart b, .register a, .send a, .register b, .evict b,
   .getMiss b, .store a, .upOk a, .download b, .read b, .unlock b, .evict a, .getMiss a, .download a,
   .read a, .write a [7], .unlock a, .upStart a, .register a, .send a, .upOk a, .deref 1, .remove b, .deref 1, .delObj 1]

theorem demo_ok : (exec id init demo).isSome = true := by decide

/-! ### C02 -/

/-- Every read returns the contents most recently written to (copied to, or removed from) the block, for
every interleaving with uploads, evictions, drops, downloads and their failures. -/
theorem C02_reads_return_last_write {H : Bytes → Bytes} (hH : Function.Injective H) {evs : List Ev} {s : State}
    {outs : List Out} (h : exec H init evs = some (s, outs)) : Spec.okOuts Spec.empty evs outs :=
  (reach hH h).choose_spec.2

/-- A download only runs when the data is there: no reader is told that an object does not exist (no failing uploads). -/
theorem C02_download_finds_data {H : Bytes → Bytes} (hH : Function.Injective H) {evs : List Ev} {s s' : State}
    {outs : List Out} (h : exec H init evs = some (s, outs)) (hf : ∀ ev ∈ evs, noUpFail ev = true) {k : Key} {out : Out}
    (hd : step H s (.download k) = some (s', out)) : out = .none ∧ ∃ e, AL.get s'.cache k = some e ∧ e.content = contents evs k := by
  obtain ⟨D, hi, _⟩ := reach hH h
  have hn := exec_nf hH (inv_init H) nf_init hf h
  have hi' := inv_download hi hd
  simp only [step] at hd
  split at hd <;> try (cases hd; done)
  rename_i o hh
  split at hd <;> try (cases hd; done)
  rename_i hin
  obtain ⟨ob, hob⟩ := hi.rowObj k o (hi.dl k o hh).1
  have hb : s.backend o = some (D o) := by
    rcases hn.up o ob hob with h1 | h1
    · exact hi.upl o ob hob h1
    · exact absurd (by simpa using h1) hin
  rw [hb] at hd
  cases hd
  exact ⟨rfl, _, AL.get_set_self _ _ _, hi'.cont k _ (AL.get_set_self _ _ _)⟩

example : ((exec id init (demo.take 15)).bind (fun r => step id r.1 (.download b))).map (·.2) = some .none := by decide

/-- The same for the last read of a history. -/
theorem C02_last_read {H : Bytes → Bytes} (hH : Function.Injective H) {evs : List Ev} {k : Key} {s : State}
    {outs : List Out} {out : Out} (h : exec H init (evs ++ [.read k]) = some (s, outs ++ [out])) :
    out = .data (contents evs k) := by
  obtain ⟨s1, o1, o2, h1, h2, h3⟩ := exec_append h
  obtain ⟨D, hi, _⟩ := reach hH h1
  simp only [exec] at h2
  split at h2 <;> try (cases h2; done)
  rename_i s3 o3 h4
  cases h2
  have : out = o3 := by
    have := congrArg List.getLast? h3
    simpa using this
  rw [this]
  exact (inv_read hi h4).2

example : (exec id init demo).map (fun r => (r.2.filter (fun o => o != .none))) =
    some [.data [1, 2], .data [1, 2]] := by decide

/-! ### C03 -/

/-- Number of blocks that refer to object `o`. -/
def references (s : State) (o : Nat) : Nat := (s.rows.filter (fun r => r.2 = o)).length

/-- Number of releases of `o` that running tasks still owe. -/
def owed (s : State) (o : Nat) : Nat := (s.pending.filter (fun r => r.2 = o)).length + s.derefs.count o

theorem cnt_eq_filter (rows : List (Key × Nat)) (o : Nat) :
    cnt rows o = (rows.filter (fun r => r.2 = o)).length := by
  induction rows with
  | nil => rfl
  | cons e t ih =>
    obtain ⟨k, v⟩ := e
    have h1 : cnt ((k, v) :: t) o = (if v = o then 1 else 0) + cnt t o := rfl
    rw [h1, ih, List.filter_cons]
    by_cases h : v = o
    · simp [h]; omega
    · simp [h]

/-- no `sendFail` -/
def noSendFail : Ev → Bool
  | .sendFail _ => false
  | _ => true

theorem leaked_nil {H : Bytes → Bytes} {evs : List Ev} : ∀ {s s' outs}, s.leaked = [] →
    (∀ ev ∈ evs, noSendFail ev = true) → exec H s evs = some (s', outs) → s'.leaked = [] := by
  induction evs with
  | nil => intro s s' outs hl _ h; cases h; exact hl
  | cons e es ih =>
    intro s s' outs hl hv h
    simp only [exec] at h
    split at h <;> try (cases h; done)
    rename_i s1 o1 h1
    split at h <;> try (cases h; done)
    rename_i s2 os h2
    cases h
    refine ih ?_ (fun ev he => hv ev (by simp [he])) h2
    have hv1 := hv e (by simp)
    cases e with
    | sendFail k => cases hv1
    | register k =>
      simp only [step] at h1
      split at h1 <;> try (cases h1; done)
      cases h1
      unfold registerStep
      dsimp only
      split
      · exact hl
      · split <;> exact hl
    | upOk k => simp only [step] at h1; split at h1 <;> cases h1; exact hl
    | remove k => simp only [step] at h1; split at h1 <;> cases h1; exact hl
    | send k => simp only [step] at h1; split at h1 <;> cases h1; exact hl
    | deref o =>
      simp only [step] at h1
      split at h1 <;> try (cases h1; done)
      split at h1
      · cases h1; exact hl
      · split at h1
        · cases h1; exact hl
        · split at h1 <;> cases h1; exact hl
    | copy k k' =>
      simp only [step] at h1
      split at h1 <;> try (cases h1; done)
      split at h1 <;> cases h1; exact hl
    | _ =>
      all_goals
        simp only [step] at h1
        repeat' split at h1
        all_goals first | (cases h1; done) | (cases h1; exact hl)

/-- Every block refers to an existing object record; the reference count of every object record is the
number of blocks that refer to it plus the number of releases that tasks still owe. -/
theorem C03_refcounts_exact {H : Bytes → Bytes} (hH : Function.Injective H) {evs : List Ev} {s : State}
    {outs : List Out} (h : exec H init evs = some (s, outs)) (hf : ∀ ev ∈ evs, noSendFail ev = true) :
    (∀ k o, AL.get s.rows k = some o → ∃ ob, AL.get s.objs o = some ob) ∧
    (∀ o ob, AL.get s.objs o = some ob → ob.refcount = references s o + owed s o) := by
  obtain ⟨D, hi, _⟩ := reach hH h
  refine ⟨hi.rowObj, fun o ob ho => ?_⟩
  have h1 := hi.refc o ob ho
  rw [leaked_nil rfl hf h] at h1
  rw [cnt_eq_filter, cnt_eq_filter] at h1
  unfold references owed
  simp only [List.count_nil] at h1
  omega

/-- No task owes a release. -/
def Idle (s : State) : Prop := s.pending = [] ∧ s.derefs = []

/-- When no task owes a release, reference counts are exactly the numbers of blocks. -/
theorem C03_idle {H : Bytes → Bytes} (hH : Function.Injective H) {evs : List Ev} {s : State}
    {outs : List Out} (h : exec H init evs = some (s, outs)) (hf : ∀ ev ∈ evs, noSendFail ev = true) (hq : Idle s) :
    ∀ o ob, AL.get s.objs o = some ob → ob.refcount = references s o := by
  intro o ob ho
  have := (C03_refcounts_exact hH h hf).2 o ob ho
  rw [this]
  unfold owed
  rw [hq.1, hq.2]
  simp

/-- With failures of the hand-over the count is never too small (no premature deletion). -/
theorem C03_never_too_small {H : Bytes → Bytes} (hH : Function.Injective H) {evs : List Ev} {s : State}
    {outs : List Out} (h : exec H init evs = some (s, outs)) :
    ∀ o ob, AL.get s.objs o = some ob → references s o + owed s o ≤ ob.refcount := by
  obtain ⟨D, hi, _⟩ := reach hH h
  intro o ob ho
  have h1 := hi.refc o ob ho
  rw [cnt_eq_filter, cnt_eq_filter] at h1
  unfold references owed
  omega

/-- A failing hand-over loses a release: afterwards the old object (id 1) has reference count 1 although
no block refers to it and no task is running. -/
theorem C03_violated_by_failing_hand_over :
    (exec id init [.getNew a, .write a [1], .unlock a, .upStart a, .register a, .send a, .upOk a,
      .getHit a, .write a [2], .unlock a, .upStart a, .register a, .sendFail a]).map
      (fun r => ((AL.get r.1.objs 1).map (·.refcount), references r.1 1, owed r.1 1)) =
    some (some 1, 0, 0) := by decide

example : (exec id init demo).map (fun r => r.1.objs) = some [(2, ⟨1, some [7], true⟩)] := by decide

/-! ### C04 -/

/-- The contents `data` of block `k` are safe: the block is cached and marked dirty, or it has never been
stored and is empty, or the object it refers to is in the backend with these contents, or an upload of
this object with these contents is in progress. -/
def Safe (s : State) (k : Key) (data : Bytes) : Prop :=
  (∃ e, AL.get s.cache k = some e ∧ e.dirty = true ∧ e.content = data) ∨
  (AL.get s.rows k = none ∧ data = []) ∨
  (∃ o, AL.get s.rows k = some o ∧
    (s.backend o = some data ∨
      ∃ k' e', upObj (s.holder k') = some o ∧ AL.get s.cache k' = some e' ∧ e'.content = data))

/-- In every history without failing uploads the last written contents of every block are safe.
What is missing for C04 is false of the code, see `C04_violated`. -/
theorem C04_contents_safe_partial {H : Bytes → Bytes} (hH : Function.Injective H) {evs : List Ev} {s : State}
    {outs : List Out} (h : exec H init evs = some (s, outs)) (hf : ∀ ev ∈ evs, noUpFail ev = true) (k : Key) :
    Safe s k (contents evs k) := by
  obtain ⟨D, hi, _⟩ := reach hH h
  have hn := exec_nf hH (inv_init H) nf_init hf h
  have key : rowData D (AL.get s.rows k) = contents evs k → Safe s k (contents evs k) := by
    intro hd
    cases hr : AL.get s.rows k with
    | none => rw [hr] at hd; exact Or.inr (Or.inl ⟨hr, hd.symm⟩)
    | some o =>
      rw [hr] at hd
      refine Or.inr (Or.inr ⟨o, hr, ?_⟩)
      obtain ⟨ob, hob⟩ := hi.rowObj k o hr
      rcases hn.up o ob hob with hu | hu
      · left
        rw [hi.upl o ob hob hu]
        exact congrArg some hd
      · right
        obtain ⟨k', hk'⟩ := hi.infl o hu
        obtain ⟨_, _, e, he, hc, _⟩ := hi.upg k' o hk'
        exact ⟨k', e, hk', he, by rw [hc]; exact hd⟩
  cases hc : AL.get s.cache k with
  | none => exact key (hi.absent k hc)
  | some e =>
    cases hd : e.dirty with
    | true => exact Or.inl ⟨e, hc, hd, hi.cont k e hc⟩
    | false => exact key (hi.clean k e hc hd)

/-- Once the cache is empty (as after unmounting), the backend holds the contents of every block. -/
theorem C04_backend_complete_partial {H : Bytes → Bytes} (hH : Function.Injective H) {evs : List Ev} {s : State}
    {outs : List Out} (h : exec H init evs = some (s, outs)) (hf : ∀ ev ∈ evs, noUpFail ev = true)
    (he : s.cache = []) (k : Key) :
    (AL.get s.rows k = none ∧ contents evs k = []) ∨
    (∃ o, AL.get s.rows k = some o ∧ s.backend o = some (contents evs k)) := by
  have hnc : ∀ k', AL.get s.cache k' = none := by intro k'; rw [he]; rfl
  rcases C04_contents_safe_partial hH h hf k with ⟨e, h1, _⟩ | h1 | ⟨o, h1, h2⟩
  · rw [hnc] at h1; cases h1
  · exact Or.inl h1
  · rcases h2 with h2 | ⟨k', e', _, h3, _⟩
    · exact Or.inr ⟨o, h1, h2⟩
    · rw [hnc] at h3; cases h3

/-- Only `evict`, `remove` and nothing else takes an entry out of the cache, and `evict` never takes a dirty
one (in any state, also after failures). -/
theorem C04_dirty_stays {H : Bytes → Bytes} {s s' : State} {ev : Ev} {out : Out} {k : Key} {e : Entry}
    (h : step H s ev = some (s', out)) (hc : AL.get s.cache k = some e) (hd : e.dirty = true) (hr : ev ≠ .remove k) :
    ∃ e', AL.get s'.cache k = some e' := by
  have hset : ∀ (k1 : Key) (v : Entry), ∃ e', AL.get (AL.set s.cache k1 v) k = some e' := by
    intro k1 v
    rw [AL.get_set]; split
    · exact ⟨_, rfl⟩
    · exact ⟨_, hc⟩
  cases ev with
  | evict k1 =>
    simp only [step] at h
    split at h <;> try (cases h; done)
    rename_i e1 hh hc1
    split at h <;> try (cases h; done)
    rename_i hnd
    cases h
    have hne : k ≠ k1 := by
      rintro rfl
      rw [hc] at hc1; cases hc1; exact hnd hd
    exact ⟨e, by dsimp only; rw [AL.get_erase_ne _ hne]; exact hc⟩
  | remove k1 =>
    simp only [step] at h
    split at h <;> try (cases h; done)
    cases h
    have hne : k ≠ k1 := by rintro rfl; exact hr rfl
    exact ⟨e, by dsimp only; rw [AL.get_erase_ne _ hne]; exact hc⟩
  | getFast k1 mw =>
    simp only [step] at h
    repeat' split at h
    all_goals first | (cases h; done) | (cases h; exact ⟨e, by dsimp only; rw [AL.get_toTail]; exact hc⟩)
  | getHit k1 =>
    simp only [step] at h
    repeat' split at h
    all_goals first | (cases h; done) | (cases h; exact ⟨e, by dsimp only; rw [AL.get_toTail]; exact hc⟩)
  | register k1 =>
    simp only [step] at h
    split at h <;> try (cases h; done)
    cases h
    unfold registerStep
    dsimp only
    split
    · exact ⟨e, hc⟩
    · split
      · exact hset _ _
      · exact hset _ _
  | copy k1 k' =>
    simp only [step] at h
    split at h <;> try (cases h; done)
    split at h <;> cases h; exact ⟨e, hc⟩
  | deref o =>
    simp only [step] at h
    split at h <;> try (cases h; done)
    split at h
    · cases h; exact ⟨e, hc⟩
    · split at h
      · cases h; exact ⟨e, hc⟩
      · split at h <;> cases h; exact ⟨e, hc⟩
  | upOk k1 => simp only [step] at h; split at h <;> cases h; exact hset _ _
  | upFail k1 => simp only [step] at h; split at h <;> cases h; exact hset _ _
  | send k1 => simp only [step] at h; split at h <;> cases h; exact ⟨e, hc⟩
  | sendFail k1 => simp only [step] at h; split at h <;> cases h; exact hset _ _
  | _ =>
    all_goals
      simp only [step] at h
      repeat' split at h
      all_goals first | (cases h; done) | (cases h; first | exact ⟨e, hc⟩ | exact hset _ _)

/-- An upload that fails loses data of another block: block `b` was found to have the contents of the
object that is being uploaded for block `a`, is marked clean and evicted; then the upload fails.  The
object is not in the backend and no upload is in progress, so `b` is not safe. -/
def lossy : List Ev :=
  [.getNew a, .write a [1], .unlock a, .getNew b, .write b [1], .unlock b,
   .upStart a, .register a, .send a, .upStart b, .register b, .evict b, .upFail a]

theorem C04_violated : ∃ s outs, exec id init lossy = some (s, outs) ∧ contents lossy b = [1] ∧ ¬ Safe s b [1] := by
  cases hx : exec id init lossy with
  | none => exact absurd hx (by decide)
  | some r =>
    obtain ⟨s, outs⟩ := r
    refine ⟨s, outs, rfl, by decide, ?_⟩
    have h1 : (exec id init lossy).map (fun r => (AL.get r.1.cache b, AL.get r.1.rows b, r.1.backend 1)) =
        some (none, some 1, none) := by decide
    have h2 : (exec id init lossy).map (fun r => (r.1.cache.map (·.1), upObj (r.1.holder a))) =
        some ([a], none) := by decide
    rw [hx] at h1 h2
    simp only [Option.map_some, Option.some.injEq, Prod.mk.injEq] at h1 h2
    obtain ⟨hc, hr, hb⟩ := h1
    rintro (⟨e, h, _⟩ | ⟨h, _⟩ | ⟨o, h, h' | ⟨k', e', h3, h4, _⟩⟩)
    · rw [hc] at h; cases h
    · rw [hr] at h; cases h
    · rw [hr] at h; cases h; rw [hb] at h'; cases h'
    · have hk : k' ∈ s.cache.map (·.1) := by
        have := AL.get_some_mem h4
        exact List.mem_map.2 ⟨_, this, rfl⟩
      rw [h2.1] at hk
      simp only [List.mem_singleton] at hk
      rw [hk, h2.2] at h3; cases h3

/-- A failing hand-over loses data of the block itself: the object record keeps its hash, so the next
upload of the block finds it, and marks the block clean without uploading it. -/
theorem C04_violated_by_failing_hand_over :
    (exec id init [.getNew a, .write a [1], .unlock a, .upStart a, .register a, .sendFail a,
      .upStart a, .register a, .evict a]).map
      (fun r => (AL.get r.1.cache a, AL.get r.1.rows a, r.1.backend 1, r.1.inflight)) =
    some (none, some 1, none, []) := by decide

example : ∀ ev ∈ demo, noUpFail ev = true := by decide

/-- Records with a hash are uploaded, or about to be. -/
def HU (s : State) : Prop := ∀ o ob, AL.get s.objs o = some ob → ob.hash ≠ none → ob.uploaded = true ∨ o ∈ s.inflight

attribute [local grind =] upd_app AL.get_set AL.get_erase AL.get_toTail

theorem step_hu {H : Bytes → Bytes} {s m D ev s' out} (hi : Inv H s m D) (hn : HU s)
    (h : step H s ev = some (s', out)) (hv : noSendFail ev = true) : HU s' := by
  cases ev with
  | sendFail k => cases hv
  | register k =>
    simp only [step] at h
    split at h <;> try (cases h; done)
    rename_i e hh hc
    cases h
    unfold registerStep
    dsimp only
    cases hf : findHash s.objs (H e.content) with
    | none => unfold HU at *; grind
    | some o =>
      dsimp only
      obtain ⟨ob, hob, hoh⟩ := findHash_some hi.nko hf
      by_cases hold : AL.get s.rows k = some o
      · rw [if_pos hold]; exact hn
      · rw [if_neg hold, hob]
        unfold HU at *; grind
  | upOk k =>
    simp only [step] at h
    split at h <;> try (cases h; done)
    rename_i ob e hh hc
    cases h
    have hu : upObj (s.holder k) = some ob := by rw [hh]; rfl
    obtain ⟨ob', hob⟩ := hi.rowObj k ob (hi.upg k ob hu).1
    rw [hob]
    intro o ob1 h1 h3
    dsimp only at h1 ⊢
    rw [AL.get_set] at h1
    by_cases ho : o = ob
    · rw [if_pos ho] at h1; cases h1; exact Or.inl rfl
    · rw [if_neg ho] at h1
      rcases hn o ob1 h1 h3 with h2 | h2
      · exact Or.inl h2
      · exact Or.inr (hi.inflNd.mem_erase_iff.2 ⟨ho, h2⟩)
  | upFail k =>
    simp only [step] at h
    split at h <;> try (cases h; done)
    rename_i ob e hh hc
    cases h
    have hu : upObj (s.holder k) = some ob := by rw [hh]; rfl
    obtain ⟨ob', hob⟩ := hi.rowObj k ob (hi.upg k ob hu).1
    rw [hob]
    intro o ob1 h1 h3
    dsimp only at h1 ⊢
    rw [AL.get_set] at h1
    by_cases ho : o = ob
    · rw [if_pos ho] at h1; cases h1; exact absurd rfl h3
    · rw [if_neg ho] at h1
      rcases hn o ob1 h1 h3 with h2 | h2
      · exact Or.inl h2
      · exact Or.inr (hi.inflNd.mem_erase_iff.2 ⟨ho, h2⟩)
  | deref o =>
    simp only [step] at h
    split at h <;> try (cases h; done)
    split at h
    · cases h; exact hn
    rename_i ob hob
    split at h
    · cases h; unfold HU at *; grind
    · split at h <;> try (cases h; done)
      cases h; unfold HU at *; grind
  | copy k k' =>
    simp only [step] at h
    split at h <;> try (cases h; done)
    split at h <;> try (cases h; done)
    cases h
    unfold HU at *; grind
  | remove k => simp only [step] at h; split at h <;> cases h; exact hn
  | send k => simp only [step] at h; split at h <;> cases h; exact hn
  | _ =>
    all_goals
      simp only [step] at h
      repeat' split at h
      all_goals first | (cases h; done) | (cases h; exact hn)

theorem exec_hu {H : Bytes → Bytes} (hH : Function.Injective H) {evs : List Ev} :
    ∀ {s m D s' outs}, Inv H s m D → HU s → (∀ ev ∈ evs, noSendFail ev = true) →
    exec H s evs = some (s', outs) → HU s' := by
  induction evs with
  | nil => intro s m D s' outs _ hn _ h; cases h; exact hn
  | cons e es ih =>
    intro s m D s' outs hi hn hv h
    simp only [exec] at h
    split at h <;> try (cases h; done)
    rename_i s1 o1 h1
    split at h <;> try (cases h; done)
    rename_i s2 os h2
    cases h
    obtain ⟨D1, hi1, _⟩ := step_inv hH hi h1
    exact ih hi1 (step_hu hi hn h1 (hv e (by simp))) (fun ev he => hv ev (by simp [he])) h2

/-- An object record that new blocks can be matched with (it has a hash) has its data in the backend, or the data is in a
dirty cache entry that is being uploaded.  This holds also after failed uploads. -/
theorem C04_hashed_has_data {H : Bytes → Bytes} (hH : Function.Injective H) {evs : List Ev} {s : State}
    {outs : List Out} (h : exec H init evs = some (s, outs)) (hf : ∀ ev ∈ evs, noSendFail ev = true) {o : Nat} {ob : Obj} {x : Bytes}
    (ho : AL.get s.objs o = some ob) (hx : ob.hash = some x) :
    (∃ d, s.backend o = some d ∧ H d = x) ∨
    (∃ k e, (s.holder k = .sending o ∨ s.holder k = .uploading o) ∧ AL.get s.cache k = some e ∧ e.dirty = true ∧ H e.content = x) := by
  obtain ⟨D, hi, _⟩ := reach hH h
  have hhx := hi.objHash o ob x ho hx
  have hh0 : HU init := by intro o ob h; simp [init, AL.get] at h
  rcases exec_hu hH (inv_init H) hh0 hf h o ob ho (by rw [hx]; simp) with h1 | h1
  · exact Or.inl ⟨_, hi.upl o ob ho h1, hhx.symm⟩
  · obtain ⟨k, hk⟩ := hi.infl o h1
    obtain ⟨_, _, e, he, hc, hd, _⟩ := hi.upg k o hk
    refine Or.inr ⟨k, e, ?_, he, hd, by rw [hc]; exact hhx.symm⟩
    unfold upObj at hk
    split at hk <;> cases hk
    · rename_i h; exact Or.inl h
    · rename_i h; exact Or.inr h

/-- After a failed upload, the block is uploaded as a new object. -/
example : (exec id init [.getNew a, .write a [1], .unlock a, .upStart a, .register a, .send a, .upFail a,
    .upStart a, .register a]).map (fun r => (AL.get r.1.objs 1, AL.get r.1.rows a)) = some (some ⟨1, none, false⟩, some 2) := by decide

/-! ### C05 -/

/-- When the backend is told to delete an object, no block refers to it, no upload of it is in progress,
and it was in the backend. -/
theorem C05_delete_unreferenced {H : Bytes → Bytes} (hH : Function.Injective H) {evs : List Ev} {s s' : State}
    {outs : List Out} {o : Nat} {out : Out} (h : exec H init evs = some (s, outs))
    (hd : step H s (.delObj o) = some (s', out)) :
    (∀ k, AL.get s.rows k ≠ some o) ∧ (∀ k, upObj (s.holder k) ≠ some o) ∧ (s.backend o).isSome = true := by
  obtain ⟨D, hi, _⟩ := reach hH h
  simp only [step] at hd
  split at hd <;> try (cases hd; done)
  rename_i hin
  obtain ⟨h1, _, h3⟩ := hi.rem o (by simpa using hin)
  have hrow : ∀ k, AL.get s.rows k ≠ some o := by
    intro k hk
    obtain ⟨ob, ho⟩ := hi.rowObj k o hk
    rw [h1] at ho; cases ho
  exact ⟨hrow, fun k hk => hrow k (hi.upg k o hk).1, by rw [h3]; rfl⟩

/-- `o` is a dead id: used before, and neither an object record, nor in the backend, nor queued. -/
structure Dead (s : State) (o : Nat) : Prop where
  lt : o < s.nextId
  obj : AL.get s.objs o = none
  bk : s.backend o = none
  rem : o ∉ s.removals

theorem dead_step {H : Bytes → Bytes} {s s' m D ev out o} (hi : Inv H s m D) (hd : Dead s o)
    (h : step H s ev = some (s', out)) : Dead s' o := by
  obtain ⟨lt, obj, bk, rem⟩ := hd
  have hup : ∀ k, upObj (s.holder k) ≠ some o := by
    intro k hk
    obtain ⟨ob, ho⟩ := hi.rowObj k o (hi.upg k o hk).1
    rw [obj] at ho; cases ho
  cases ev with
  | register k =>
    simp only [step] at h
    split at h <;> try (cases h; done)
    rename_i e hh hc
    cases h
    unfold registerStep
    dsimp only
    cases hf : findHash s.objs (H e.content) with
    | none => exact ⟨Nat.lt_succ_of_lt lt, by dsimp only; rw [AL.get_set_ne _ _ (Nat.ne_of_lt lt)]; exact obj, bk, rem⟩
    | some o' =>
      obtain ⟨ob, hob, _⟩ := findHash_some hi.nko hf
      have hne : o ≠ o' := by rintro rfl; rw [obj] at hob; cases hob
      dsimp only
      split
      · exact ⟨lt, obj, bk, rem⟩
      · rw [hob]; exact ⟨lt, by dsimp only; rw [AL.get_set_ne _ _ hne]; exact obj, bk, rem⟩
  | store k =>
    simp only [step] at h
    split at h <;> try (cases h; done)
    rename_i o' e hh hc
    cases h
    have hne : o ≠ o' := by rintro rfl; exact hup k (by rw [hh]; rfl)
    exact ⟨lt, obj, by dsimp only; rw [upd_ne _ _ hne]; exact bk, rem⟩
  | upOk k =>
    simp only [step] at h
    split at h <;> try (cases h; done)
    rename_i o' e hh hc
    cases h
    have hne : o ≠ o' := by rintro rfl; exact hup k (by rw [hh]; rfl)
    refine ⟨lt, ?_, by dsimp only; rw [upd_ne _ _ hne]; exact bk, rem⟩
    dsimp only
    split
    · rw [AL.get_set_ne _ _ hne]; exact obj
    · exact obj
  | upFail k =>
    simp only [step] at h
    split at h <;> try (cases h; done)
    rename_i o' e hh hc
    cases h
    have hne : o ≠ o' := by rintro rfl; exact hup k (by rw [hh]; rfl)
    refine ⟨lt, ?_, bk, rem⟩
    dsimp only
    split
    · rw [AL.get_set_ne _ _ hne]; exact obj
    · exact obj
  | deref o' =>
    simp only [step] at h
    split at h <;> try (cases h; done)
    split at h
    · cases h; exact ⟨lt, obj, bk, rem⟩
    rename_i ob hob
    have hne : o ≠ o' := by rintro rfl; rw [obj] at hob; cases hob
    split at h
    · cases h
      exact ⟨lt, by dsimp only; rw [AL.get_set_ne _ _ hne]; exact obj, bk, rem⟩
    · split at h <;> try (cases h; done)
      cases h
      refine ⟨lt, by dsimp only; rw [AL.get_erase_ne _ hne]; exact obj, bk, ?_⟩
      dsimp only
      split
      · intro hm
        rcases List.mem_cons.1 hm with hm | hm
        · exact hne hm
        · exact rem hm
      · exact rem
  | delObj o' =>
    simp only [step] at h
    split at h <;> try (cases h; done)
    cases h
    refine ⟨lt, obj, ?_, fun hm => rem (List.mem_of_mem_erase hm)⟩
    dsimp only
    rw [upd_app]; split
    · rfl
    · exact bk
  | copy k k' =>
    simp only [step] at h
    split at h <;> try (cases h; done)
    split at h <;> try (cases h; done)
    rename_i ob hreg hob
    cases h
    refine ⟨lt, ?_, bk, rem⟩
    dsimp only
    rw [AL.get_set_ne]
    · exact obj
    · rintro rfl; rw [obj] at hob; cases hob
  | send k => simp only [step] at h; split at h <;> cases h; exact ⟨lt, obj, bk, rem⟩
  | sendFail k => simp only [step] at h; split at h <;> cases h; exact ⟨lt, obj, bk, rem⟩
  | remove k => simp only [step] at h; split at h <;> cases h; exact ⟨lt, obj, bk, rem⟩
  | _ =>
    all_goals
      simp only [step] at h
      repeat' split at h
      all_goals first | (cases h; done) | (cases h; exact ⟨lt, obj, bk, rem⟩)

theorem dead_exec {H : Bytes → Bytes} (hH : Function.Injective H) {evs : List Ev} :
    ∀ {s m D s' outs o}, Inv H s m D → Dead s o → exec H s evs = some (s', outs) → Dead s' o := by
  induction evs with
  | nil => intro s m D s' outs o _ hd h; cases h; exact hd
  | cons e es ih =>
    intro s m D s' outs o hi hd h
    simp only [exec] at h
    split at h <;> try (cases h; done)
    rename_i s1 o1 h1
    split at h <;> try (cases h; done)
    rename_i s2 os h2
    cases h
    obtain ⟨D1, hi1, _⟩ := step_inv hH hi h1
    exact ih hi1 (dead_step hi hd h1) h2

/-- After an object has been deleted, no block ever refers to its id again, and no object with this id is
ever stored again. -/
theorem C05_ids_never_reused {H : Bytes → Bytes} (hH : Function.Injective H) {evs evs' : List Ev} {s : State}
    {outs : List Out} {o : Nat} (h : exec H init (evs ++ [.delObj o] ++ evs') = some (s, outs)) :
    (∀ k, AL.get s.rows k ≠ some o) ∧ s.backend o = none := by
  obtain ⟨s1, o1, o2, h1, h2, _⟩ := exec_append h
  obtain ⟨s0, p1, p2, h3, h4, _⟩ := exec_append h1
  obtain ⟨D0, hi0, _⟩ := reach hH h3
  simp only [exec] at h4
  split at h4 <;> try (cases h4; done)
  rename_i s4 o4 h5
  cases h4
  obtain ⟨D1, hi1, _, _, _⟩ := step_inv hH hi0 h5
  have hd : Dead s1 o := by
    simp only [step] at h5
    split at h5 <;> try (cases h5; done)
    rename_i hin
    cases h5
    obtain ⟨a1, a2, a3⟩ := hi0.rem o (by simpa using hin)
    exact ⟨a2, a1, by dsimp only; rw [upd_self], fun hm => (hi0.remNd.mem_erase_iff.1 hm).1 rfl⟩
  have hd' := dead_exec hH hi1 hd h2
  obtain ⟨D2, hi2, _⟩ := reach hH h
  refine ⟨fun k hk => ?_, hd'.bk⟩
  obtain ⟨ob, ho⟩ := hi2.rowObj k o hk
  rw [hd'.obj] at ho; cases ho

/-- The contents stored under an id never change. -/
theorem C05_objects_immutable {H : Bytes → Bytes} (hH : Function.Injective H) {evs evs' : List Ev} {s s' : State}
    {outs outs' : List Out} {o : Nat} {d d' : Bytes} (h : exec H init evs = some (s, outs))
    (hb : s.backend o = some d) (h' : exec H s evs' = some (s', outs')) (hb' : s'.backend o = some d') : d' = d := by
  obtain ⟨D, hi, _⟩ := reach hH h
  obtain ⟨D', hi', _, ha, _⟩ := exec_inv hH hi h'
  obtain ⟨h1, h2⟩ := hi.backD o d hb
  obtain ⟨h3, _⟩ := hi'.backD o d' hb'
  rw [h3, h1, ha o h2]

/-- A release never finds its object record missing, and the last release never has to wait for an upload
of the object. -/
theorem C05_release_clean {H : Bytes → Bytes} (hH : Function.Injective H) {evs : List Ev} {s : State}
    {outs : List Out} {o : Nat} (h : exec H init evs = some (s, outs)) (ho : o ∈ s.derefs) :
    ∃ ob, AL.get s.objs o = some ob ∧ (ob.refcount ≤ 1 → o ∉ s.inflight) := by
  obtain ⟨D, hi, _⟩ := reach hH h
  obtain ⟨ob, hob⟩ := hi.derefObj o ho
  refine ⟨ob, hob, fun hr hin => ?_⟩
  obtain ⟨k, hk⟩ := hi.infl o hin
  have h1 := cnt_pos hi.nkr (hi.upg k o hk).1
  have h2 := hi.refc o ob hob
  have h3 := cnt_nonneg s.pending o
  have h4 : 0 < s.derefs.count o := List.count_pos_iff.2 ho
  omega

/-- Object records have a positive reference count. -/
theorem refcount_pos {H : Bytes → Bytes} {evs : List Ev} : ∀ {s s' outs},
    (∀ o ob, AL.get s.objs o = some ob → 1 ≤ ob.refcount) → exec H s evs = some (s', outs) →
    ∀ o ob, AL.get s'.objs o = some ob → 1 ≤ ob.refcount := by
  induction evs with
  | nil => intro s s' outs hp h; cases h; exact hp
  | cons e es ih =>
    intro s s' outs hp h
    simp only [exec] at h
    split at h <;> try (cases h; done)
    rename_i s1 o1 h1
    split at h <;> try (cases h; done)
    rename_i s2 os h2
    cases h
    refine ih ?_ h2
    have hset : ∀ (o1 : Nat) (v : Obj), 1 ≤ v.refcount → ∀ o ob, AL.get (AL.set s.objs o1 v) o = some ob → 1 ≤ ob.refcount := by
      intro o1 v hv o ob hg
      rw [AL.get_set] at hg
      split at hg
      · cases hg; exact hv
      · exact hp _ _ hg
    cases e with
    | register k =>
      simp only [step] at h1
      split at h1 <;> try (cases h1; done)
      cases h1
      unfold registerStep
      dsimp only
      split
      · exact hset _ _ (Nat.le_refl _)
      · split
        · exact hp
        · dsimp only
          split
          · exact hset _ _ (by dsimp only; omega)
          · exact hp
    | upOk k =>
      simp only [step] at h1; split at h1 <;> cases h1
      dsimp only
      split
      · rename_i hg
        have := hp _ _ hg
        exact hset _ _ this
      · exact hp
    | upFail k =>
      simp only [step] at h1; split at h1 <;> cases h1
      dsimp only
      split
      · rename_i hg
        have := hp _ _ hg
        exact hset _ _ this
      · exact hp
    | remove k => simp only [step] at h1; split at h1 <;> cases h1; exact hp
    | send k => simp only [step] at h1; split at h1 <;> cases h1; exact hp
    | sendFail k => simp only [step] at h1; split at h1 <;> cases h1; exact hp
    | deref o =>
      simp only [step] at h1
      split at h1 <;> try (cases h1; done)
      split at h1
      · cases h1; exact hp
      · split at h1
        · cases h1; exact hset _ _ (by dsimp only; omega)
        · split at h1 <;> try (cases h1; done)
          cases h1
          intro o' ob' hg
          dsimp only at hg
          rw [AL.get_erase] at hg
          split at hg
          · cases hg
          · exact hp _ _ hg
    | copy k k' =>
      simp only [step] at h1
      split at h1 <;> try (cases h1; done)
      split at h1 <;> cases h1
      exact hset _ _ (by dsimp only; omega)
    | _ =>
      all_goals
        simp only [step] at h1
        repeat' split at h1
        all_goals first | (cases h1; done) | (cases h1; exact hp)

/-- Without failing uploads nothing is leaked: when all releases and deletions have been carried out,
every object in the backend is referred to by some block. -/
theorem C05_no_garbage_partial {H : Bytes → Bytes} (hH : Function.Injective H) {evs : List Ev} {s : State}
    {outs : List Out} (h : exec H init evs = some (s, outs)) (hf : ∀ ev ∈ evs, noUpFail ev = true)
    (hq : Idle s) (hr : s.removals = []) {o : Nat} {d : Bytes} (hb : s.backend o = some d) :
    ∃ k, AL.get s.rows k = some o := by
  obtain ⟨D, hi, _⟩ := reach hH h
  have hn := exec_nf hH (inv_init H) nf_init hf h
  rcases hn.bk o d hb with ⟨ob, ho⟩ | hm
  · have h1 := C03_idle hH h (fun ev he => by
      have := hf ev he
      cases ev <;> first | rfl | cases this) hq o ob ho
    have h2 := refcount_pos (s := init) (by intro o ob hg; cases hg) h o ob ho
    unfold references at h1
    have h3 : 0 < (s.rows.filter (fun r => r.2 = o)).length := by omega
    obtain ⟨r, hr'⟩ := List.exists_mem_of_length_pos h3
    rw [List.mem_filter] at hr'
    obtain ⟨⟨k, v⟩⟩ := r
    refine ⟨(k, v), ?_⟩
    have := AL.mem_get_some hi.nkr hr'.1
    simpa using this.trans (congrArg some (by simpa using hr'.2))
  · rw [hr] at hm; cases hm

/-! ### C06 -/

/-- When no block is open for modification, the recorded cache size is the sum of the sizes of the cached
blocks. -/
theorem C06_size_exact {H : Bytes → Bytes} (hH : Function.Injective H) {evs : List Ev} {s : State}
    {outs : List Out} (h : exec H init evs = some (s, outs)) (hq : ∀ k n, s.holder k ≠ .slow n) :
    s.size = ((s.cache.map (fun p => p.2.content.length)).sum : Nat) := by
  obtain ⟨D, hi, _⟩ := reach hH h
  rw [hi.sz]
  have h1 : sumBy (acc s.holder) s.cache = sumBy (fun _ (e : Entry) => (e.content.length : Int)) s.cache := by
    apply AL.sumBy_congr _ _ hi.nkc
    intro k e _
    unfold acc
    split
    · rename_i n hn; exact absurd hn (hq k n)
    · rfl
  rw [h1]
  generalize s.cache = l
  induction l with
  | nil => rfl
  | cons p t ih =>
    obtain ⟨k, e⟩ := p
    simp only [sumBy, List.map_cons, List.sum_cons, ih]
    omega

/-- While blocks are open on the slow path, each of them is accounted with the size it had when it was
opened. -/
theorem C06_size_while_open {H : Bytes → Bytes} (hH : Function.Injective H) {evs : List Ev} {s : State}
    {outs : List Out} (h : exec H init evs = some (s, outs)) :
    s.size = sumBy (fun k e => match s.holder k with
      | .slow old => (old : Int)
      | _ => e.content.length) s.cache := by
  obtain ⟨D, hi, _⟩ := reach hH h
  rw [hi.sz]; rfl

example : (exec id init (demo.take 15)).map (fun r => (r.1.size, r.1.cache.map (·.2.content))) =
    some (2, [[1, 2]]) := by decide

/-! ### C53 -/

/-- No two object records carry the same hash. -/
theorem C53_hashes_unique {H : Bytes → Bytes} (hH : Function.Injective H) {evs : List Ev} {s : State}
    {outs : List Out} (h : exec H init evs = some (s, outs)) {o o' : Nat} {ob ob' : Obj} {x : Bytes}
    (h1 : AL.get s.objs o = some ob) (h2 : AL.get s.objs o' = some ob') (h3 : ob.hash = some x) (h4 : ob'.hash = some x) :
    o = o' := by
  obtain ⟨D, hi, _⟩ := reach hH h
  exact hi.uniq o o' ob ob' x h1 h2 h3 h4

/-- Two blocks with equal contents that have been written back are stored as one object (no failing
uploads). -/
theorem C53_equal_blocks_share {H : Bytes → Bytes} (hH : Function.Injective H) {evs : List Ev} {s : State}
    {outs : List Out} (h : exec H init evs = some (s, outs)) (hf : ∀ ev ∈ evs, noUpFail ev = true) {k k' : Key} {o o' : Nat}
    (hr : AL.get s.rows k = some o) (hr' : AL.get s.rows k' = some o')
    (hc : ∀ e, AL.get s.cache k = some e → e.dirty = false) (hc' : ∀ e, AL.get s.cache k' = some e → e.dirty = false)
    (heq : contents evs k = contents evs k') : o = o' := by
  obtain ⟨D, hi, _⟩ := reach hH h
  have hn := exec_nf hH (inv_init H) nf_init hf h
  have hd : ∀ {k o}, AL.get s.rows k = some o → (∀ e, AL.get s.cache k = some e → e.dirty = false) →
      D o = contents evs k := by
    intro k o hr hc
    have : rowData D (AL.get s.rows k) = contents evs k := by
      cases hx : AL.get s.cache k with
      | none => exact hi.absent k hx
      | some e => exact hi.clean k e hx (hc e hx)
    rw [hr] at this; exact this
  obtain ⟨ob, hob⟩ := hi.rowObj k o hr
  obtain ⟨ob', hob'⟩ := hi.rowObj k' o' hr'
  obtain ⟨x, hx⟩ := hn.hashed o ob hob
  obtain ⟨x', hx'⟩ := hn.hashed o' ob' hob'
  have e1 := hi.objHash o ob x hob hx
  have e2 := hi.objHash o' ob' x' hob' hx'
  rw [hd hr hc] at e1
  rw [hd hr' hc', ← heq, ← e1] at e2
  rw [e2] at hx'
  exact hi.uniq o o' ob ob' x hob hob' hx hx'

example : (exec id init (demo.take 11)).map (fun r => (AL.get r.1.rows a, AL.get r.1.rows b)) =
    some (some 1, some 1) := by decide

/-! ### C59: no deadlock -/

/-- Steps that running tasks take by themselves (they need no new request). -/
def internal : Ev → Bool
  | .download _ | .unlock _ | .register _ | .send _ | .upOk _ | .deref _ | .delObj _ => true
  | _ => false

/-- Tasks never block each other for good: as long as a lock is held, a release is owed or a deletion is
queued, some task can take a (successful) step.  (No failing uploads.) -/
theorem C59_no_deadlock {H : Bytes → Bytes} (hH : Function.Injective H) {evs : List Ev} {s : State}
    {outs : List Out} (h : exec H init evs = some (s, outs)) (hf : ∀ ev ∈ evs, noUpFail ev = true)
    (hb : (∃ k, s.holder k ≠ .free) ∨ s.derefs ≠ [] ∨ s.removals ≠ []) :
    ∃ ev s', internal ev = true ∧ step H s ev = some (s', .none) := by
  obtain ⟨D, hi, _⟩ := reach hH h
  have hn := exec_nf hH (inv_init H) nf_init hf h
  have hupg : ∀ k o, upObj (s.holder k) = some o → ∃ ev s', internal ev = true ∧ step H s ev = some (s', .none) := by
    intro k o hk
    obtain ⟨_, _, e, he, _⟩ := hi.upg k o hk
    cases hh : s.holder k with
    | sending o' => exact ⟨.send k, _, rfl, by simp only [step, hh]; rfl⟩
    | uploading o' => exact ⟨.upOk k, _, rfl, by simp only [step, hh, he]; rfl⟩
    | _ => rw [hh] at hk; cases hk
  rcases hb with ⟨k, hk⟩ | hb | hb
  · cases hh : s.holder k with
    | free => exact absurd hh hk
    | fast =>
      obtain ⟨e, he, _⟩ := hi.usr k (by rw [hh]; rfl)
      exact ⟨.unlock k, _, rfl, by simp only [step, hh, he]; rfl⟩
    | slow n =>
      obtain ⟨e, he, _⟩ := hi.usr k (by rw [hh]; rfl)
      exact ⟨.unlock k, _, rfl, by simp only [step, hh, he]; rfl⟩
    | downloading o =>
      by_cases hin : o ∈ s.inflight
      · obtain ⟨k', hk'⟩ := hi.infl o hin
        exact hupg k' o hk'
      · obtain ⟨hr, _⟩ := hi.dl k o hh
        obtain ⟨ob, hob⟩ := hi.rowObj k o hr
        have hup : ob.uploaded = true := (hn.up o ob hob).resolve_right hin
        have hbk := hi.upl o ob hob hup
        exact ⟨.download k, _, rfl, by simp only [step, hh, hbk]; rw [if_neg (by simpa using hin)]⟩
    | hashing =>
      obtain ⟨e, he, _⟩ := hi.hsh k hh
      exact ⟨.register k, _, rfl, by simp only [step, hh, he]; rfl⟩
    | sending o => exact hupg k o (by rw [hh]; rfl)
    | uploading o => exact hupg k o (by rw [hh]; rfl)
  · obtain ⟨o, ho⟩ := List.exists_mem_of_ne_nil _ hb
    obtain ⟨ob, hob, hw⟩ := C05_release_clean hH h ho
    refine ⟨.deref o, ?_⟩
    simp only [step, hob]
    rw [if_pos (by simpa using ho)]
    by_cases hr : ob.refcount > 1
    · rw [if_pos hr]; exact ⟨_, rfl, rfl⟩
    · rw [if_neg hr, if_neg (by simpa using hw (by omega))]
      exact ⟨_, rfl, rfl⟩
  · obtain ⟨o, ho⟩ := List.exists_mem_of_ne_nil _ hb
    refine ⟨.delObj o, ?_⟩
    simp only [step]
    rw [if_pos (by simpa using ho)]
    exact ⟨_, rfl, rfl⟩

/-- The same for all histories, also with failing uploads; the step may be a download that fails because
the object is not in the backend. -/
theorem C59_no_deadlock_with_failures {H : Bytes → Bytes} (hH : Function.Injective H) {evs : List Ev} {s : State}
    {outs : List Out} (h : exec H init evs = some (s, outs))
    (hb : (∃ k, s.holder k ≠ .free) ∨ s.derefs ≠ [] ∨ s.removals ≠ []) :
    ∃ ev s' out, (internal ev = true ∨ ∃ k, ev = .downloadFail k) ∧ step H s ev = some (s', out) := by
  obtain ⟨D, hi, _⟩ := reach hH h
  have hupg : ∀ k o, upObj (s.holder k) = some o → ∃ ev s' out, (internal ev = true ∨ ∃ k, ev = .downloadFail k) ∧ step H s ev = some (s', out) := by
    intro k o hk
    obtain ⟨_, _, e, he, _⟩ := hi.upg k o hk
    cases hh : s.holder k with
    | sending o' => exact ⟨.send k, _, _, Or.inl rfl, by simp only [step, hh]; rfl⟩
    | uploading o' => exact ⟨.upOk k, _, _, Or.inl rfl, by simp only [step, hh, he]; rfl⟩
    | _ => rw [hh] at hk; cases hk
  rcases hb with ⟨k, hk⟩ | hb | hb
  · cases hh : s.holder k with
    | free => exact absurd hh hk
    | fast =>
      obtain ⟨e, he, _⟩ := hi.usr k (by rw [hh]; rfl)
      exact ⟨.unlock k, _, _, Or.inl rfl, by simp only [step, hh, he]; rfl⟩
    | slow n =>
      obtain ⟨e, he, _⟩ := hi.usr k (by rw [hh]; rfl)
      exact ⟨.unlock k, _, _, Or.inl rfl, by simp only [step, hh, he]; rfl⟩
    | downloading o =>
      by_cases hin : o ∈ s.inflight
      · obtain ⟨k', hk'⟩ := hi.infl o hin
        exact hupg k' o hk'
      · exact ⟨.downloadFail k, _, _, Or.inr ⟨k, rfl⟩, by
          simp only [step, hh]; rw [if_neg (by simpa using hin)]⟩
    | hashing =>
      obtain ⟨e, he, _⟩ := hi.hsh k hh
      exact ⟨.register k, _, _, Or.inl rfl, by simp only [step, hh, he]; rfl⟩
    | sending o => exact hupg k o (by rw [hh]; rfl)
    | uploading o => exact hupg k o (by rw [hh]; rfl)
  · obtain ⟨o, ho⟩ := List.exists_mem_of_ne_nil _ hb
    obtain ⟨ob, hob, hw⟩ := C05_release_clean hH h ho
    refine ⟨.deref o, ?_⟩
    simp only [step, hob]
    rw [if_pos (by simpa using ho)]
    by_cases hr : ob.refcount > 1
    · rw [if_pos hr]; exact ⟨_, _, Or.inl rfl, rfl⟩
    · rw [if_neg hr, if_neg (by simpa using hw (by omega))]
      exact ⟨_, _, Or.inl rfl, rfl⟩
  · obtain ⟨o, ho⟩ := List.exists_mem_of_ne_nil _ hb
    refine ⟨.delObj o, ?_⟩
    simp only [step]
    rw [if_pos (by simpa using ho)]
    exact ⟨_, _, Or.inl rfl, rfl⟩

example : (exec id init (demo.take 13)).map (fun r => (r.1.holder b, r.1.inflight)) =
    some (.downloading 1, [1]) := by decide

end Verif.Cache
