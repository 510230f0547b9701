/-
Lemmas about `remove_tree`.
-/
import Verif.Fs.Steps
import Verif.Fs.Tree

namespace Verif.Fs

variable {T : Nat → Prop}

theorem mem_entriesOf {m : Nat} {db : Db} {δ L : Nat → Int} (h : Acc T m db δ L) (p : Nat) (n : Bytes) (c : Nat) :
    (n, c) ∈ db.entriesOf p ↔ db.child p n = some c := by
  rw [h.child_iff]
  unfold Db.entriesOf
  rw [List.mem_filterMap]
  constructor
  · rintro ⟨⟨⟨a, k⟩, c'⟩, hm, he⟩
    simp only at he
    split at he
    · rename_i ha; subst ha
      cases hg : AL.get db.names k with
      | none => rw [hg] at he; cases he
      | some v =>
        rw [hg] at he
        simp only [Option.map_some, Option.some.injEq, Prod.mk.injEq] at he
        refine ⟨k, ?_, ?_⟩
        · unfold Db.nm; rw [hg, Option.map_some, he.1]
        · rw [← he.2]; exact AL.mem_get_some h.nkC hm
    · cases he
  · rintro ⟨k, h1, h2⟩
    refine ⟨((p, k), c), AL.get_some_mem h2, ?_⟩
    simp only [if_true]
    unfold Db.nm at h1
    cases hg : AL.get db.names k with
    | none => rw [hg] at h1; cases h1
    | some v => rw [hg] at h1; simp at h1; simp [h1]

theorem entriesOf_nodup {m : Nat} {db : Db} {δ L : Nat → Int} (h : Acc T m db δ L) (p : Nat) :
    ((db.entriesOf p).map (·.1)).Nodup := by
  unfold Db.entriesOf List.Nodup
  rw [List.pairwise_map, List.pairwise_filterMap]
  have hnk := h.nkC
  unfold AL.NK List.Nodup at hnk
  rw [List.pairwise_map] at hnk
  refine hnk.imp ?_
  rintro ⟨⟨a, k⟩, c⟩ ⟨⟨a', k'⟩, c'⟩ hne b hb b' hb' heq
  simp only at hne hb hb'
  split at hb
  · split at hb'
    · rename_i h1 h2
      subst h1; subst h2
      apply hne
      have e1 : db.nm k = some b.1 := by
        unfold Db.nm
        cases hg : AL.get db.names k with
        | none => rw [hg] at hb; cases hb
        | some v => rw [hg] at hb; simp at hb; simp [← hb]
      have e2 : db.nm k' = some b'.1 := by
        unfold Db.nm
        cases hg : AL.get db.names k' with
        | none => rw [hg] at hb'; cases hb'
        | some v => rw [hg] at hb'; simp at hb'; simp [← hb']
      have := h.nm_inj e1 (heq ▸ e2)
      rw [this]
    · cases hb'
  · cases hb

theorem hasChildren_iff_child {L : Nat → Int} {s : St} (h : Inv T L s) (i : Nat) :
    s.db.hasChildren i = true ↔ ∃ n c, s.db.child i n = some c := by
  constructor
  · intro hc
    obtain ⟨k, c, hk⟩ := hasChildren_true h.acc hc
    obtain ⟨n, hn⟩ := h.acc.nm_of_C (h.Lnn k) hk
    exact ⟨n, c, (h.acc.child_iff i n c).2 ⟨k, hn, hk⟩⟩
  · rintro ⟨n, c, hc⟩
    obtain ⟨k, _, hk⟩ := (h.acc.child_iff i n c).1 hc
    cases hh : s.db.hasChildren i with
    | true => rfl
    | false => rw [hasChildren_false h.acc hh k] at hk; cases hk

/-- Entries are removed one after the other, each from a directory in `R`, and only if its inode has no entries. -/
inductive Rms (R : Nat → Prop) (s : St) : St → Prop
  | refl : Rms R s s
  | snoc {s1 s2 : St} {p id : Nat} {n : Bytes} {now : Int} : Rms R s s1 → R p → s1.db.child p n = some id →
      remove s1 p n id true now = (.ok (), s2) → Rms R s s2

theorem Rms.trans {R : Nat → Prop} {s1 s2 s3 : St} (h : Rms R s1 s2) (h' : Rms R s2 s3) : Rms R s1 s3 := by
  induction h' with
  | refl => exact h
  | snoc _ hp hc hr ih => exact ih.snoc hp hc hr

theorem remove_ok {L : Nat → Int} {s : St} (h : Inv T L s) {p : Nat} {n : Bytes} {id : Nat} (hc : s.db.child p n = some id)
    (now : Int) (hh : s.db.hasChildren id = false) : ∃ s', remove s p n id true now = (.ok (), s') := by
  rcases remove_spec h hc true now with ⟨e, _, h1 | h1⟩ | ⟨s', h1, _⟩
  · rw [hh] at h1; cases h1.1
  · cases h1.2.1
  · exact ⟨s', h1⟩

/-- What a sequence of removals does. -/
structure RmEff (T R : Nat → Prop) (L : Nat → Int) (s s' : St) : Prop where
  inv : Inv T L s'
  rest : Rest s s'
  opened : s'.opened = s.opened
  seq : s'.db.seq = s.db.seq
  mono : ∀ p n c, s'.db.child p n = some c → s.db.child p n = some c
  frame : ∀ p n, ¬R p → s'.db.child p n = s.db.child p n
  gone : ∀ p n c, s.db.child p n = some c → s'.db.child p n = none → ∀ m, s'.db.child c m = none
  inode : ∀ i, AL.get s'.db.inodes i = none ∨ ∃ a b, AL.get s.db.inodes i = some a ∧ AL.get s'.db.inodes i = some b ∧
    SameAttr a b ∧ ((∀ n, s'.db.child i n = s.db.child i n) → a.mtime = b.mtime)

theorem Rms.eff {R : Nat → Prop} {L : Nat → Int} {s s' : St} (h : Inv T L s) (hr : Rms R s s') : RmEff T R L s s' := by
  induction hr with
  | refl =>
    refine ⟨h, Rest.refl s, rfl, rfl, fun _ _ _ h => h, fun _ _ _ => rfl, fun p n c h1 h2 => ?_, fun i => ?_⟩
    · rw [h1] at h2; cases h2
    · cases hg : AL.get s.db.inodes i with
      | none => exact Or.inl rfl
      | some a => exact Or.inr ⟨a, a, rfl, rfl, SameAttr.refl a, fun _ => rfl⟩
  | @snoc s1 s2 p id n now _ hp hc hrm ih =>
    rcases remove_spec ih.inv hc true now with ⟨e, he, _⟩ | ⟨s2', he, hch, _, hinv, hrest, hop, hsq, hchild, hino⟩
    · rw [he] at hrm; cases hrm
    rw [he] at hrm; cases hrm
    have hnone : ∀ m, s1.db.child id m = none := by
      intro m
      cases hm : s1.db.child id m with
      | none => rfl
      | some c =>
        have := (hasChildren_iff_child ih.inv id).2 ⟨m, c, hm⟩
        rw [hch] at this; cases this
    have hmono : ∀ p' n' c, s2.db.child p' n' = some c → s1.db.child p' n' = some c := by
      intro p' n' c h1
      rw [hchild] at h1
      split at h1
      · cases h1
      · exact h1
    have hnone2 : ∀ i m, s1.db.child i m = none → s2.db.child i m = none := by
      intro i m h1
      cases h2 : s2.db.child i m with
      | none => rfl
      | some c => rw [hmono _ _ _ h2] at h1; cases h1
    refine ⟨hinv, ?_, hop.trans ih.opened, hsq.trans ih.seq, fun p' n' c h1 => ih.mono _ _ _ (hmono _ _ _ h1), ?_, ?_, ?_⟩
    · refine ih.rest.trans hrest ?_
      intro i _ hi2 hi1
      rcases hino i with h1 | h1
      · exact hi2 h1.1
      · rw [hi1] at h1; exact hi2 h1
    · intro p' n' hp'
      rw [hchild, if_neg]
      · exact ih.frame _ _ hp'
      · rintro ⟨rfl, _⟩; exact hp' hp
    · intro p' n' c h1 h2 m
      by_cases h3 : s1.db.child p' n' = none
      · exact hnone2 _ _ (ih.gone _ _ _ h1 h3 m)
      · rw [hchild] at h2
        by_cases h4 : p' = p ∧ n' = n
        · obtain ⟨rfl, rfl⟩ := h4
          have := ih.mono _ _ _ hc
          rw [h1] at this; cases this
          exact hnone2 _ _ (hnone m)
        · rw [if_neg h4] at h2; exact absurd h2 h3
    · intro i
      rcases hino i with h1 | h1
      · exact Or.inl h1.1
      · rcases ih.inode i with h2 | ⟨a, b, ha, hb, hsame, hm⟩
        · rw [h2] at h1; exact Or.inl h1
        · rw [hb] at h1
          right
          refine ⟨a, _, ha, h1, hsame.trans ?_, ?_⟩
          · unfold removedF; dsimp only; split <;> split <;> exact ⟨rfl, rfl, rfl, rfl, rfl, rfl⟩
          · intro hall
            have hip : i ≠ p := by
              rintro rfl
              have := hall n
              rw [hchild, if_pos ⟨rfl, rfl⟩] at this
              rw [ih.mono _ _ _ hc] at this
              cases this
            have hall1 : ∀ n', s1.db.child i n' = s.db.child i n' := by
              intro n'; rw [← hall n', hchild, if_neg (fun e => hip e.1)]
            rw [hm hall1]
            unfold removedF; dsimp only; rw [if_neg hip]; split <;> rfl

/-- A single forced removal of an existing entry: it fails and changes nothing, or it removes it. -/
theorem remove_row {L : Nat → Int} {s s' : St} {p id : Nat} {n : Bytes} {now : Int} {res : Except Err Unit} (h : Inv T L s)
    (hc : s.db.child p n = some id) (hr : remove s p n id true now = (res, s')) : s' = s ∨ (res = .ok () ∧ RmEff T (· = p) L s s') := by
  cases res with
  | error e =>
    rcases remove_spec h hc true now with ⟨_, he, _⟩ | ⟨_, he, _⟩
    · rw [he] at hr; exact Or.inl (Prod.mk.inj hr).2.symm
    · rw [he] at hr; cases hr
  | ok u => exact Or.inr ⟨rfl, Rms.eff (R := (· = p)) h (Rms.snoc Rms.refl rfl hc hr)⟩

theorem RmEff.none {R : Nat → Prop} {L : Nat → Int} {s s' : St} (h : RmEff T R L s s') {i : Nat} (hi : ∀ n, s.db.child i n = none) (n : Bytes) :
    s'.db.child i n = none := by
  cases h1 : s'.db.child i n with
  | none => rfl
  | some c => have := h.mono _ _ _ h1; rw [hi n] at this; cases this

/-- A directory in `R` has only directories in `R` below it. -/
def Closed (R : Nat → Prop) (s : St) : Prop := ∀ p n c, R p → s.db.child p n = some c → R c

theorem rmRows_spec {R : Nat → Prop} {L : Nat → Int} {p : Nat} (hp : R p) : ∀ (chunk : List (Bytes × Nat × Int)) (s : St) (q : List Nat) (re : Bool),
    Inv T L s → Closed R s → (∀ i ∈ q, R i) → (re = true → p ∈ q) → (∀ r ∈ chunk, s.db.child p r.1 = some r.2.1) → (chunk.map (·.1)).Nodup →
    ∃ q' re' s', rmRows p chunk s q re = (.ok (q', re'), s') ∧ Rms R s s' ∧ (∀ i ∈ q', R i) ∧ (∀ i ∈ q, i ∈ q') ∧
      (re' = true → p ∈ q') ∧ (re' = false → re = false ∧ ∀ r ∈ chunk, s'.db.child p r.1 = none)
  | [], s, q, re, _, _, hq, hre, _, _ =>
    ⟨q, re, s, rfl, Rms.refl, hq, fun _ h => h, hre, fun h => ⟨h, fun r hr => by cases hr⟩⟩
  | (n, id, now) :: t, s, q, re, hinv, hcl, hq, hre, hch, hnd => by
    rw [List.map_cons, List.nodup_cons] at hnd
    have hc := hch _ (List.mem_cons_self ..)
    simp only at hc hnd
    by_cases hh : s.db.hasChildren id = true
    · simp only [rmRows, hh, if_true]
      have hq2 : ∀ i ∈ id :: (if re = true then q else p :: q), R i := by
        intro i hi
        rcases List.mem_cons.1 hi with rfl | hi
        · exact hcl _ _ _ hp hc
        · split at hi
          · exact hq i hi
          · rcases List.mem_cons.1 hi with rfl | hi
            · exact hp
            · exact hq i hi
      have hpq : p ∈ id :: (if re = true then q else p :: q) := by
        refine List.mem_cons_of_mem _ ?_
        split
        · rename_i h; exact hre h
        · exact List.mem_cons_self ..
      obtain ⟨q', re', s', he, h1, h2, h3, h4, h5⟩ := rmRows_spec hp t s _ true hinv hcl hq2 (fun _ => hpq)
        (fun r hr => hch r (List.mem_cons_of_mem _ hr)) hnd.2
      refine ⟨q', re', s', he, h1, h2, ?_, h4, fun h => absurd (h5 h).1 (by simp)⟩
      intro i hi
      refine h3 i (List.mem_cons_of_mem _ ?_)
      split
      · exact hi
      · exact List.mem_cons_of_mem _ hi
    · have hh : s.db.hasChildren id = false := by simpa using hh
      obtain ⟨s1, hr1⟩ := remove_ok hinv hc now hh
      have hone : Rms R s s1 := Rms.snoc Rms.refl hp hc hr1
      have he1 := hone.eff hinv
      have hcl1 : Closed R s1 := fun p n c h1 h2 => hcl p n c h1 (he1.mono _ _ _ h2)
      have hchild : ∀ p' n', s1.db.child p' n' = if p' = p ∧ n' = n then none else s.db.child p' n' := by
        rcases remove_spec hinv hc true now with ⟨e, he, _⟩ | ⟨s2', he, _, _, _, _, _, _, hchild, _⟩
        · rw [he] at hr1; cases hr1
        · rw [he] at hr1; cases hr1; exact hchild
      simp only [rmRows, hh, hr1]
      obtain ⟨q', re', s', he, h1, h2, h3, h4, h5⟩ := rmRows_spec hp t s1 q re he1.inv hcl1 hq hre
        (fun r hr => by
          rw [hchild, if_neg]
          · exact hch r (List.mem_cons_of_mem _ hr)
          · rintro ⟨_, rfl⟩; exact hnd.1 (List.mem_map.2 ⟨r, hr, rfl⟩)) hnd.2
      refine ⟨q', re', s', he, hone.trans h1, h2, h3, h4, fun h => ⟨(h5 h).1, ?_⟩⟩
      intro r hr
      rcases List.mem_cons.1 hr with rfl | hr
      · have := h1.eff he1.inv
        cases hx : s'.db.child p n with
        | none => rfl
        | some c =>
          have := this.mono _ _ _ hx
          rw [hchild, if_pos ⟨rfl, rfl⟩] at this; cases this
      · exact (h5 h).2 r hr

theorem RmRun.spec {R : Nat → Prop} {L : Nat → Int} {s s' : St} {q : List Nat} {res : Except Err Unit} (hr : RmRun s q res s')
    (hinv : Inv T L s) (hcl : Closed R s) (hq : ∀ i ∈ q, R i) : res = .ok () ∧ Rms R s s' ∧ ∀ i ∈ q, ∀ n, s'.db.child i n = none := by
  have hchunk : ∀ {s : St} {p batch : Nat} {chunk : List (Bytes × Nat × Int)}, Inv T L s → IsChunk s.db p batch chunk →
      (∀ r ∈ chunk, s.db.child p r.1 = some r.2.1) ∧ (chunk.map (·.1)).Nodup ∧
      (chunk.length ≠ batch → ∀ n c, s.db.child p n = some c → ∃ r ∈ chunk, r.1 = n) := by
    rintro s p batch chunk hinv ⟨rest, hperm, hlen⟩
    refine ⟨?_, ?_, ?_⟩
    · intro r hrm
      rw [← mem_entriesOf hinv.acc]
      exact hperm.subset (List.mem_append_left _ (List.mem_map.2 ⟨r, hrm, rfl⟩))
    · have := (hperm.map (·.1)).nodup_iff.2 (entriesOf_nodup hinv.acc p)
      rw [List.map_append, List.map_map] at this
      exact (List.nodup_append.1 this).1
    · intro hne n c hc
      have hl := hperm.length_eq
      rw [List.length_append, List.length_map] at hl
      have : rest = [] := List.eq_nil_of_length_eq_zero (by omega)
      subst this
      rw [List.append_nil] at hperm
      have := hperm.symm.subset ((mem_entriesOf hinv.acc p n c).2 hc)
      obtain ⟨r, hr1, hr2⟩ := List.mem_map.1 this
      exact ⟨r, hr1, by rw [Prod.mk.injEq] at hr2; exact hr2.1⟩
  induction hr with
  | done => exact ⟨rfl, Rms.refl, fun i hi => by cases hi⟩
  | @fail s s' p q batch chunk e hb hck hrm =>
    obtain ⟨h1, h2, _⟩ := hchunk hinv hck
    obtain ⟨q', re', s1, he, _⟩ := rmRows_spec (hq p (List.mem_cons_self ..)) chunk s q false hinv hcl
      (fun i hi => hq i (List.mem_cons_of_mem _ hi)) Bool.noConfusion h1 h2
    rw [he] at hrm; cases hrm
  | @dir s s1 s2 p q q' re batch chunk res hb hck hrm _ ih =>
    obtain ⟨h1, h2, h3⟩ := hchunk hinv hck
    obtain ⟨q1, re1, s1', he, hR, hq1, hsub, hre1, hgone⟩ := rmRows_spec (hq p (List.mem_cons_self ..)) chunk s q false hinv hcl
      (fun i hi => hq i (List.mem_cons_of_mem _ hi)) Bool.noConfusion h1 h2
    rw [he] at hrm; cases hrm
    have heff := hR.eff hinv
    have hcl1 : Closed R s1 := fun p n c h1 h2 => hcl p n c h1 (heff.mono _ _ _ h2)
    obtain ⟨i1, i2, i3⟩ := ih heff.inv hcl1 (by
      intro i hi
      split at hi
      · rcases List.mem_cons.1 hi with rfl | hi
        · exact hq _ (List.mem_cons_self ..)
        · exact hq1 i hi
      · exact hq1 i hi)
    refine ⟨i1, hR.trans i2, ?_⟩
    intro i hi
    have hin : i ∈ (if chunk.length = batch ∧ re = false then p :: q' else q') → ∀ n, s2.db.child i n = none := i3 i
    rcases List.mem_cons.1 hi with rfl | hi
    · by_cases hc : chunk.length = batch ∧ re = false
      · rw [if_pos hc] at hin; exact hin (List.mem_cons_self ..)
      · rw [if_neg hc] at hin
        cases hre : re with
        | true => exact hin (hre1 hre)
        | false =>
          have hne : chunk.length ≠ batch := fun e => hc ⟨e, hre⟩
          refine (i2.eff heff.inv).none ?_
          intro n
          cases hx : s1.db.child i n with
          | none => rfl
          | some c =>
            obtain ⟨r, hr1, rfl⟩ := h3 hne n c (heff.mono _ _ _ hx)
            rw [(hgone hre).2 r hr1] at hx; cases hx
    · refine hin ?_
      split
      · exact List.mem_cons_of_mem _ (hsub i hi)
      · exact hsub i hi

/-- Reached from `a` through entries (in terms of the tables). -/
inductive DbBelow (s : St) (a : Nat) : Nat → Prop
  | refl : DbBelow s a a
  | entry {b c : Nat} {n : Bytes} : DbBelow s a b → s.db.child b n = some c → DbBelow s a c

theorem addOpen_cnt1 {L : Nat → Int} {s : St} (h : Inv T L s) (id : Nat) : 1 ≤ (s.addOpen id 1).cnt id := by
  rw [cnt_addOpen, if_pos rfl]; have := h.cnt_nonneg id; omega

theorem RmTree.spec {L : Nat → Int} {s s' : St} {p : Nat} {n : Bytes} {res : Except Err Unit} (hr : RmTree s p n res s')
    (h : Inv T L s) (hn : n ≠ ctrlName) (hnb : ∀ id0, s.db.child p n = some id0 → ¬DbBelow s id0 p) :
    (∃ e, res = .error e ∧ s' = s ∧ ((s.failsafe = true ∧ e = .EPERM) ∨ (AL.get s.db.inodes p = none ∧ e = .crash) ∨
      ((AL.get s.db.inodes p).map (·.locked) = some true ∧ e = .EPERM) ∨ (s.db.child p n = none ∧ e = .ENOENT))) ∨
    (∃ id0, res = .ok () ∧ s.failsafe = false ∧ (AL.get s.db.inodes p).map (·.locked) = some false ∧ s.db.child p n = some id0 ∧
      Inv T L s' ∧ Rest s s' ∧ (∀ i, s'.cnt i = s.cnt i) ∧ s'.db.seq = s.db.seq ∧
      (∀ q m, (q = p ∧ m = n) ∨ DbBelow s id0 q → s'.db.child q m = none) ∧
      (∀ q m, ¬(q = p ∧ m = n) → ¬DbBelow s id0 q → s'.db.child q m = s.db.child q m) ∧
      (∀ i, AL.get s'.db.inodes i = none ∨ ∃ a b, AL.get s.db.inodes i = some a ∧ AL.get s'.db.inodes i = some b ∧
        SameAttr a b ∧ ((∀ n, s'.db.child i n = s.db.child i n) → a.mtime = b.mtime))) := by
  have loop : ∀ {id0 : Nat} {s1 s2 : St} {r : Except Err Unit}, lookup s p n = (.ok id0, s1) → RmRun s1 [id0] r s2 →
      s.db.child p n = some id0 ∧ s1 = s.addOpen id0 1 ∧ r = .ok () ∧ RmEff T (DbBelow s id0) L s1 s2 ∧ ∀ m, s2.db.child id0 m = none := by
    intro id0 s1 s2 r hl hrun
    rcases lookup_spec h p n with ⟨e, he, _⟩ | ⟨id, he, hex, hinv1, hch, _⟩
    · rw [he] at hl; cases hl
    rw [he] at hl; cases hl
    have hcl : Closed (DbBelow s id0) (s.addOpen id0 1) := fun q m c hq hc => hq.entry hc
    obtain ⟨h1, h2, h3⟩ := hrun.spec hinv1 hcl (fun i hi => by rw [List.mem_singleton] at hi; subst hi; exact DbBelow.refl)
    exact ⟨hch hn, rfl, h1, h2.eff hinv1, h3 id0 (List.mem_singleton_self _)⟩
  have last : ∀ {id0 : Nat} {s1 s2 s3 : St} {r : Except Err Unit} {now : Int}, lookup s p n = (.ok id0, s1) → RmRun s1 [id0] (.ok ()) s2 →
      remove s2 p n id0 true now = (r, s3) → r = .ok () ∧ Inv T L s3 ∧ Rest s2 s3 ∧ s3.opened = s2.opened ∧ s3.db.seq = s2.db.seq ∧
      (∀ p' n', s3.db.child p' n' = if p' = p ∧ n' = n then none else s2.db.child p' n') ∧
      (∀ i, AL.get s3.db.inodes i = none ∧ i = id0 ∧ s2.db.rc id0 = 1 ∧ AL.get s2.opened id0 = none ∨
        AL.get s3.db.inodes i = (AL.get s2.db.inodes i).map (removedF id0 p now i)) := by
    intro id0 s1 s2 s3 r now hl hrun hrm
    obtain ⟨hc, rfl, _, heff, hnone⟩ := loop hl hrun
    have hc2 : s2.db.child p n = some id0 := by rw [heff.frame p n (hnb id0 hc)]; exact hc
    have hch : s2.db.hasChildren id0 = false := by
      cases hx : s2.db.hasChildren id0 with
      | false => rfl
      | true =>
        obtain ⟨m, c, hm⟩ := (hasChildren_iff_child heff.inv id0).1 hx
        rw [hnone m] at hm; cases hm
    rcases remove_spec heff.inv hc2 true now with ⟨e, _, h1 | h1⟩ | ⟨s', h1, _, _, h2, h3, h4, h5, h6, h7⟩
    · rw [hch] at h1; cases h1.1
    · cases h1.2.1
    · rw [h1] at hrm; cases hrm
      exact ⟨rfl, h2, h3, h4, h5, h6, h7⟩
  cases hr with
  | failsafe hf => exact Or.inl ⟨_, rfl, rfl, Or.inl ⟨hf, rfl⟩⟩
  | noDir hf hp => exact Or.inl ⟨_, rfl, rfl, Or.inr (Or.inl ⟨hp, rfl⟩)⟩
  | locked hf hp hl => exact Or.inl ⟨_, rfl, rfl, Or.inr (Or.inr (Or.inl ⟨by rw [hp, Option.map_some, hl], rfl⟩))⟩
  | @noEntry ip e _ hf hp hl hlk =>
    rcases lookup_spec h p n with ⟨e, he, hx⟩ | ⟨id, he, _⟩
    · rw [he] at hlk; cases hlk
      exact Or.inl ⟨_, rfl, rfl, Or.inr (Or.inr (Or.inr ⟨(hx hn).2, (hx hn).1⟩))⟩
    · rw [he] at hlk; cases hlk
  | stuck hf hp hl hlk hrun => have := (loop hlk hrun).2.2.1; cases this
  | last hf hp hl hlk hrun hrm => have := (last hlk hrun hrm).1; cases this
  | @finish ip id0 now res s1 s2 s3 s4 hf hp hl hlk hrun hrm hfg =>
    obtain ⟨hc, rfl, _, heff, hnone⟩ := loop hlk hrun
    obtain ⟨_, hinv3, hrest3, hop3, hsq3, hch3, hino3⟩ := last hlk hrun hrm
    have hcnt3 : ∀ i, s3.cnt i = (s.addOpen id0 1).cnt i := by
      intro i; unfold St.cnt; rw [hop3, heff.opened]
    have hfo : ForgetOk s3.cnt [(id0, 1)] :=
      ⟨by omega, by rw [hcnt3]; exact addOpen_cnt1 h id0, trivial⟩
    obtain ⟨s4', he, hinv4, hF, hcnt4⟩ := forget_spec [(id0, 1)] hinv3 hfo
    rw [he] at hfg; cases hfg
    have hchild4 : ∀ q m, s'.db.child q m = if q = p ∧ m = n then none else s2.db.child q m := by
      intro q m; rw [hF.child, hch3]
    have hino23 : ∀ i, AL.get s'.db.inodes i = none ∨ AL.get s'.db.inodes i = (AL.get s2.db.inodes i).map (removedF id0 p now i) := by
      intro i
      rcases hF.inode i with h1 | h1
      · rcases hino3 i with h2 | h2
        · rw [h1]; exact Or.inl h2.1
        · rw [h1]; exact Or.inr h2
      · exact Or.inl h1.1
    have hk : ∀ i, AL.get s'.db.inodes i ≠ none → AL.get s3.db.inodes i ≠ none := by
      intro i hi hi3
      rcases hF.inode i with h1 | h1
      · rw [hi3] at h1; exact hi h1
      · exact hi h1.1
    have hk2 : ∀ i, AL.get s3.db.inodes i ≠ none → AL.get s2.db.inodes i ≠ none := by
      intro i hi hi2
      rcases hino3 i with h2 | h2
      · exact hi h2.1
      · rw [hi2] at h2; exact hi h2
    refine Or.inr ⟨id0, rfl, hf, by rw [hp, Option.map_some, hl], hc, hinv4, ?_, ?_, ?_, ?_, ?_, ?_⟩
    · refine Rest.trans (rest_addOpen s id0 1) (heff.rest.trans (hrest3.trans hF.rest ?_) ?_) ?_
      · intro i _ hi; exact hk i hi
      · intro i _ hi; exact hk2 i (hk i hi)
      · intro i hi _; exact hi
    · intro i
      rw [hcnt4, hcnt3, cnt_addOpen]; simp only [forgetSum]
      omega
    · rw [hF.sq, hsq3, heff.seq]; rfl
    · -- everything below is gone
      have hall : ∀ q, DbBelow s id0 q → ∀ m, s2.db.child q m = none := by
        intro q hq
        induction hq with
        | refl => exact hnone
        | @entry b c m _ hcb ih => exact heff.gone b m c hcb (ih m)
      intro q m hq
      rw [hchild4]
      split
      · rfl
      · rename_i hne
        exact hall q (hq.resolve_left hne) m
    · intro q m hne hq
      rw [hchild4, if_neg hne, heff.frame q m hq]; rfl
    · intro i
      rcases hino23 i with h1 | h1
      · exact Or.inl h1
      · rcases heff.inode i with h2 | ⟨a, b, ha, hb, hsame, hm⟩
        · rw [h2] at h1; exact Or.inl h1
        · rw [hb] at h1
          right
          refine ⟨a, _, ha, h1, hsame.trans ?_, ?_⟩
          · unfold removedF; dsimp only; split <;> split <;> exact ⟨rfl, rfl, rfl, rfl, rfl, rfl⟩
          · intro hall
            have hip : i ≠ p := by
              rintro rfl
              have := hall n
              rw [hchild4, if_pos ⟨rfl, rfl⟩, hc] at this; cases this
            have hall1 : ∀ n', s2.db.child i n' = s.db.child i n' := by
              intro n'; rw [← hall n', hchild4, if_neg (fun e => hip e.1)]
            rw [hm hall1]
            unfold removedF; dsimp only; rw [if_neg hip]; split <;> rfl

end Verif.Fs
