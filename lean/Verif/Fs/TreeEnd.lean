/-
`remove_tree` and `copy_tree` come to an end.
-/
import Verif.Fs.Seq

namespace Verif.Fs

/-! #### remove_tree -/

/-- One iteration of the loop of `remove_tree` over its stack (fs.py:447-493). -/
def RmIter (a b : St × List Nat) : Prop :=
  ∃ p q q' re batch chunk s', a.2 = p :: q ∧ 0 < batch ∧ IsChunk a.1.db p batch chunk ∧
    rmRows p chunk a.1 q false = (.ok (q', re), s') ∧ b = (s', if chunk.length = batch ∧ re = false then p :: q' else q')

theorem erase_length_lt {κ ν : Type} [DecidableEq κ] {l : List (κ × ν)} {k : κ} (h : AL.get l k ≠ none) : (AL.erase l k).length < l.length := by
  obtain ⟨v, hv⟩ := Option.ne_none_iff_exists'.1 h
  have hm := AL.get_some_mem hv
  rw [AL.erase_eq_filter]
  exact List.length_filter_lt_length_iff_exists.2 ⟨_, hm, by simp⟩

theorem remove_length {L : Nat → Int} {s s' : St} (h : Inv NoT L s) {p : Nat} {n : Bytes} {id : Nat} (hc : s.db.child p n = some id)
    {force : Bool} {now : Int} (hr : remove s p n id force now = (.ok (), s')) : s'.db.contents.length < s.db.contents.length := by
  obtain ⟨k0, hk0, hrow⟩ := (h.acc.child_iff p n id).1 hc
  unfold remove at hr
  split at hr
  · split at hr <;> cases hr
  · split at hr
    · cases hr
    · split at hr
      · cases hr
      · split at hr
        · cases hr
        · rename_i db k hd
          have hk : k = k0 := h.acc.nm_inj (h.acc.nm_delName hd).1 hk0
          subst hk
          have hlt : (AL.erase db.contents (p, k)).length < s.db.contents.length := by
            rw [(delName_rest hd).2.1]
            exact erase_length_lt (by rw [hrow]; simp)
          dsimp only at hr
          split at hr
          · cases hr
          · have h2 : ∀ f g, ((({ db with contents := AL.erase db.contents (p, k) } : Db).modInode id f).modInode p g).contents = AL.erase db.contents (p, k) := by
              intro f g
              rw [(modInode_rest _ _ _).2.1, (modInode_rest _ _ _).2.1]
            split at hr
            · cases hr
            · split at hr
              · cases hr
                exact Nat.lt_of_le_of_lt (Nat.le_of_eq (congrArg List.length (h2 _ _))) hlt
              · cases hr
                exact Nat.lt_of_le_of_lt (Nat.le_of_eq (congrArg List.length (h2 _ _))) hlt

/-- A chunk either removes a row, or changes nothing and puts inodes with entries on the stack. -/
theorem rmRows_measure {L : Nat → Int} {p : Nat} : ∀ (chunk : List (Bytes × Nat × Int)) (s s' : St) (q q' : List Nat) (re re' : Bool),
    Inv NoT L s → (∀ r ∈ chunk, s.db.child p r.1 = some r.2.1) → (chunk.map (·.1)).Nodup →
    rmRows p chunk s q re = (.ok (q', re'), s') →
    s'.db.contents.length < s.db.contents.length ∨
    (s' = s ∧ ((chunk = [] ∧ q' = q ∧ re' = re) ∨ ∃ c t, q' = c :: t ∧ re' = true ∧ (∃ n, s.db.child p n = some c) ∧ s.db.hasChildren c = true))
  | [], s, s', q, q', re, re', _, _, _, h => by
    simp only [rmRows] at h
    cases h
    exact Or.inr ⟨rfl, Or.inl ⟨rfl, rfl, rfl⟩⟩
  | (n, id, now) :: t, s, s', q, q', re, re', hinv, hch, hnd, h => by
    rw [List.map_cons, List.nodup_cons] at hnd
    have hc := hch _ (List.mem_cons_self ..)
    simp only at hc hnd
    by_cases hh : s.db.hasChildren id = true
    · simp only [rmRows, hh, if_true] at h
      rcases rmRows_measure t s s' _ q' true re' hinv (fun r hr => hch r (List.mem_cons_of_mem _ hr)) hnd.2 h with h1 | ⟨h1, h2 | h2⟩
      · exact Or.inl h1
      · exact Or.inr ⟨h1, Or.inr ⟨id, _, h2.2.1, h2.2.2, ⟨n, hc⟩, hh⟩⟩
      · exact Or.inr ⟨h1, Or.inr h2⟩
    · have hh : s.db.hasChildren id = false := by simpa using hh
      obtain ⟨s1, hr1⟩ := remove_ok hinv hc now hh
      have hlt := remove_length hinv hc hr1
      have he1 := (Rms.snoc (R := fun _ => True) Rms.refl trivial hc hr1).eff hinv
      have hchild : ∀ p' n', s1.db.child p' n' = if p' = p ∧ n' = n then none else s.db.child p' n' := by
        rcases remove_spec hinv hc true now with ⟨e, he, _⟩ | ⟨s2', he, _, _, _, _, _, _, hchild, _⟩
        · rw [he] at hr1; cases hr1
        · rw [he] at hr1; cases hr1; exact hchild
      simp only [rmRows, hh, hr1] at h
      left
      rcases rmRows_measure t s1 s' _ q' re re' he1.inv (fun r hr => by
          rw [hchild, if_neg]
          · exact hch r (List.mem_cons_of_mem _ hr)
          · rintro ⟨_, rfl⟩; exact hnd.1 (List.mem_map.2 ⟨r, hr, rfl⟩)) hnd.2 h with h1 | ⟨h1, _⟩
      · omega
      · rw [h1]; exact hlt

theorem IsChunk.facts {L : Nat → Int} {s : St} {p batch : Nat} {chunk : List (Bytes × Nat × Int)} (hinv : Inv NoT L s) (h : IsChunk s.db p batch chunk) :
    (∀ r ∈ chunk, s.db.child p r.1 = some r.2.1) ∧ (chunk.map (·.1)).Nodup ∧ (0 < batch → chunk = [] → s.db.hasChildren p = false) := by
  obtain ⟨rest, hperm, hlen⟩ := h
  refine ⟨?_, ?_, ?_⟩
  · intro r hrm
    rw [← mem_entriesOf hinv.acc]
    exact hperm.subset (List.mem_append_left _ (List.mem_map.2 ⟨r, hrm, rfl⟩))
  · have := (hperm.map (·.1)).nodup_iff.2 (entriesOf_nodup hinv.acc p)
    rw [List.map_append, List.map_map] at this
    exact (List.nodup_append.1 this).1
  · intro hb he
    subst he
    have h0 : (s.db.entriesOf p).length = 0 := by simp only [List.length_nil] at hlen; omega
    have h1 := List.eq_nil_of_length_eq_zero h0
    cases hc : s.db.hasChildren p with
    | false => rfl
    | true =>
      obtain ⟨n, c, hn⟩ := (hasChildren_iff_child hinv p).1 hc
      have := (mem_entriesOf hinv.acc p n c).2 hn
      rw [h1] at this; cases this

open Classical in
/-- Number of entries below a directory. -/
noncomputable def rank (s : St) (i : Nat) : Nat := (s.db.contents.filter (fun e => decide (DbBelow s i e.1.1))).length

theorem DbBelow.trans {s : St} {a b c : Nat} (h1 : DbBelow s a b) (h2 : DbBelow s b c) : DbBelow s a c := by
  induction h2 with
  | refl => exact h1
  | entry _ hc ih => exact ih.entry hc

theorem rank_lt {L : Nat → Int} {s : St} (h : Inv NoT L s) {p c : Nat} {n : Bytes} (hc : s.db.child p n = some c) (hl : ¬DbBelow s c p) :
    rank s c < rank s p := by
  obtain ⟨k, _, hk⟩ := (h.acc.child_iff p n c).1 hc
  have hm := AL.get_some_mem hk
  unfold rank
  rw [← List.countP_eq_length_filter, ← List.countP_eq_length_filter]
  have hsub : ∀ e, DbBelow s c e → DbBelow s p e := fun e he => (DbBelow.refl.entry hc).trans he
  generalize s.db.contents = l at hm
  induction l with
  | nil => cases hm
  | cons e t ih =>
    rw [List.countP_cons, List.countP_cons]
    have mono : ∀ t : List ((Nat × Nat) × Nat), List.countP (fun e => @decide (DbBelow s c e.1.1) (Classical.propDecidable _)) t ≤ List.countP (fun e => @decide (DbBelow s p e.1.1) (Classical.propDecidable _)) t := by
      intro t
      exact List.countP_mono_left (fun x _ hx => by simpa using hsub _ (by simpa using hx))
    rcases List.mem_cons.1 hm with rfl | hm
    · have h1 := mono t
      have h2 : (@decide (DbBelow s c p) (Classical.propDecidable _)) = false := by simpa using hl
      have h3 : (@decide (DbBelow s p p) (Classical.propDecidable _)) = true := by simpa using (DbBelow.refl : DbBelow s p p)
      simp only [h2, h3]
      simp only [if_true]
      have : (if false = true then 1 else 0) = 0 := rfl
      omega
    · have := ih hm
      have h4 : (if @decide (DbBelow s c e.1.1) (Classical.propDecidable _) = true then 1 else 0) ≤ (if @decide (DbBelow s p e.1.1) (Classical.propDecidable _) = true then 1 else 0) := by
        split
        · rename_i hx
          rw [if_pos]
          · exact Nat.le_refl 1
          · simpa using hsub _ (by simpa using hx)
        · exact Nat.zero_le _
      omega

/-- What holds at every iteration of the loop. -/
structure RmSt (L : Nat → Int) (a : St × List Nat) : Prop where
  inv : Inv NoT L a.1
  loop : ∀ d ∈ a.2, ∀ b c n, DbBelow a.1 d b → a.1.db.child b n = some c → ¬DbBelow a.1 c b

theorem RmIter.facts {L : Nat → Int} {a b : St × List Nat} (h : RmIter a b) (ha : RmSt L a) : RmSt L b ∧
    (b.1.db.contents.length < a.1.db.contents.length ∨
      (b.1 = a.1 ∧ ∃ p q, a.2 = p :: q ∧ ((a.1.db.hasChildren p = false ∧ b.2 = q) ∨
        ∃ c t, b.2 = c :: t ∧ a.1.db.hasChildren p = true ∧ a.1.db.hasChildren c = true ∧ rank a.1 c < rank a.1 p))) := by
  obtain ⟨p, q, q', re, batch, chunk, s', e1, hb, hck, hrm, rfl⟩ := h
  obtain ⟨s, qs⟩ := a
  simp only at e1 hck hrm ha ⊢
  subst e1
  obtain ⟨f1, f2, f3⟩ := hck.facts ha.inv
  have hp : p ∈ p :: q := List.mem_cons_self ..
  obtain ⟨q1, re1, s1, he, hR, hq1, _, hre1, _⟩ := rmRows_spec (R := fun x => ∃ d ∈ p :: q, DbBelow s d x) (p := p) ⟨p, hp, DbBelow.refl⟩ chunk s q false ha.inv
    (fun b n c hb hc => by obtain ⟨d, hd, hdb⟩ := hb; exact ⟨d, hd, hdb.entry hc⟩)
    (fun i hi => ⟨i, List.mem_cons_of_mem _ hi, DbBelow.refl⟩) Bool.noConfusion f1 f2
  rw [he] at hrm; cases hrm
  have heff := hR.eff ha.inv
  have hsub : ∀ x y, DbBelow s' x y → DbBelow s x y := by
    intro x y hxy
    induction hxy with
    | refl => exact DbBelow.refl
    | entry _ hc ih => exact ih.entry (heff.mono _ _ _ hc)
  refine ⟨⟨heff.inv, ?_⟩, ?_⟩
  · intro d hd b c n hb hc hcb
    have hd' : ∃ d0 ∈ p :: q, DbBelow s d0 d := by
      split at hd
      · rcases List.mem_cons.1 hd with rfl | hd
        · exact ⟨d, hp, DbBelow.refl⟩
        · exact hq1 d hd
      · exact hq1 d hd
    obtain ⟨d0, hd0, hdd⟩ := hd'
    exact ha.loop d0 hd0 b c n (hdd.trans (hsub _ _ hb)) (heff.mono _ _ _ hc) (hsub _ _ hcb)
  · rcases rmRows_measure chunk s s' q q' false re ha.inv f1 f2 he with h1 | ⟨rfl, ⟨h1, h2, h3⟩ | ⟨c, t, h1, h2, ⟨n, h3⟩, h4⟩⟩
    · exact Or.inl h1
    · right
      refine ⟨rfl, p, q, rfl, Or.inl ⟨f3 hb h1, ?_⟩⟩
      rw [if_neg, h2]
      rintro ⟨hlen, _⟩
      rw [h1] at hlen
      simp only [List.length_nil] at hlen
      omega
    · right
      refine ⟨rfl, p, q, rfl, Or.inr ⟨c, t, ?_, (hasChildren_iff_child ha.inv p).2 ⟨n, c, h3⟩, h4, ?_⟩⟩
      · rw [if_neg, h1]
        rintro ⟨_, hre⟩
        rw [h2] at hre; cases hre
      · exact rank_lt ha.inv h3 (ha.loop p hp p c n DbBelow.refl h3)

theorem rm_acc {L : Nat → Int} : ∀ (N : Nat) (a : St × List Nat), a.1.db.contents.length ≤ N → RmSt L a → _root_.Acc (fun b a => RmIter a b) a := by
  intro N
  induction N with
  | zero =>
    intro a hN ha
    -- no entries at all: directories are only taken from the stack
    obtain ⟨s, q⟩ := a
    induction q with
    | nil => exact ⟨_, fun b hb => by obtain ⟨p, q, _, _, _, _, _, e, _⟩ := hb; cases e⟩
    | cons p q ih =>
      refine ⟨_, fun b hb => ?_⟩
      obtain ⟨hb', h1 | ⟨h1, p', q', e, h2⟩⟩ := hb.facts ha
      · have h0 : s.db.contents.length ≤ 0 := hN
        have h1 : b.1.db.contents.length < s.db.contents.length := h1
        omega
      · cases e
        rcases h2 with ⟨_, h3⟩ | ⟨c, t, _, hc, _⟩
        · obtain ⟨sb, qb⟩ := b
          simp only at h1 h3
          subst h1; subst h3
          exact ih hN hb'
        · simp only at hN hc
          unfold Db.hasChildren at hc
          rw [List.eq_nil_of_length_eq_zero (Nat.le_zero.1 hN)] at hc
          cases hc
  | succ N ihN =>
    -- a directory with entries on top of the stack
    have top : ∀ (R : Nat) (s : St) (p : Nat) (q : List Nat), s.db.contents.length ≤ N + 1 → rank s p ≤ R → s.db.hasChildren p = true →
        RmSt L (s, p :: q) → _root_.Acc (fun b a => RmIter a b) (s, p :: q) := by
      intro R
      induction R with
      | zero =>
        intro s p q hN hR hc ha
        refine ⟨_, fun b hb => ?_⟩
        obtain ⟨hb', h1 | ⟨h1, p', q', e, h2⟩⟩ := hb.facts ha
        · exact ihN b (by simp only at h1; omega) hb'
        · cases e
          rcases h2 with ⟨h3, _⟩ | ⟨c, t, _, _, _, hr⟩
          · simp only at h3; rw [hc] at h3; cases h3
          · simp only at hr; omega
      | succ R ihR =>
        intro s p q hN hR hc ha
        refine ⟨_, fun b hb => ?_⟩
        obtain ⟨hb', h1 | ⟨h1, p', q', e, h2⟩⟩ := hb.facts ha
        · exact ihN b (by simp only at h1; omega) hb'
        · cases e
          rcases h2 with ⟨h3, _⟩ | ⟨c, t, hq, _, hcc, hr⟩
          · simp only at h3; rw [hc] at h3; cases h3
          · obtain ⟨sb, qb⟩ := b
            simp only at h1 hq hr hcc
            subst h1; subst hq
            exact ihR sb c t hN (by omega) hcc hb'
    intro a hN ha
    obtain ⟨s, q⟩ := a
    induction q with
    | nil => exact ⟨_, fun b hb => by obtain ⟨p, q, _, _, _, _, _, e, _⟩ := hb; cases e⟩
    | cons p q ih =>
      by_cases hc : s.db.hasChildren p = true
      · exact top _ s p q hN (Nat.le_refl _) hc ha
      · refine ⟨_, fun b hb => ?_⟩
        obtain ⟨hb', h1 | ⟨h1, p', q', e, h2⟩⟩ := hb.facts ha
        · exact ihN b (by simp only at h1 hN; omega) hb'
        · cases e
          rcases h2 with ⟨_, h3⟩ | ⟨c, t, _, h4, _⟩
          · obtain ⟨sb, qb⟩ := b
            simp only at h1 h3
            subst h1; subst h3
            exact ih hN hb'
          · exact absurd h4 hc

/-- There is always a next iteration, and it does not fail. -/
theorem rm_next {L : Nat → Int} {s : St} {p : Nat} {q : List Nat} (ha : RmSt L (s, p :: q)) : ∃ b, RmIter (s, p :: q) b := by
  have hck : IsChunk s.db p ((s.db.entriesOf p).length + 1) ((s.db.entriesOf p).map (fun e => (e.1, e.2, (0 : Int)))) := by
    refine ⟨[], ?_, ?_⟩
    · rw [List.append_nil, List.map_map]
      have : (fun r : Bytes × Nat × Int => (r.1, r.2.1)) ∘ (fun e : Bytes × Nat => (e.1, e.2, (0 : Int))) = id := by funext e; rfl
      rw [this, List.map_id]
    · rw [List.length_map]; omega
  obtain ⟨f1, f2, _⟩ := hck.facts ha.inv
  obtain ⟨q1, re1, s1, he, _⟩ := rmRows_spec (R := fun _ => True) (p := p) trivial _ s q false ha.inv (fun _ _ _ _ _ => trivial) (fun _ _ => trivial)
    Bool.noConfusion f1 f2
  exact ⟨_, p, q, q1, re1, _, _, s1, rfl, Nat.succ_pos _, hck, he, rfl⟩

theorem rm_run {L : Nat → Int} {a : St × List Nat} (h : _root_.Acc (fun b a => RmIter a b) a) (ha : RmSt L a) : ∃ s', RmRun a.1 a.2 (.ok ()) s' := by
  induction h with
  | intro a _ ih =>
    obtain ⟨s, q⟩ := a
    cases q with
    | nil => exact ⟨s, RmRun.done⟩
    | cons p q =>
      obtain ⟨b, hb⟩ := rm_next ha
      obtain ⟨s', hs'⟩ := ih b hb (hb.facts ha).1
      obtain ⟨p', q', q'', re, batch, chunk, s1, e, h1, h2, h3, rfl⟩ := hb
      cases e
      exact ⟨s', RmRun.dir h1 h2 h3 hs'⟩

end Verif.Fs
