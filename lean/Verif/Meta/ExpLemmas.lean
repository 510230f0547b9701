import Verif.Meta.UpLemmas
/-
Lemmas about expiration.
-/
namespace Verif.Meta

/-! ### The newest versions -/

theorem mem_lastN {l : List Nat} (h : l.Pairwise (fun a b => a < b)) {k : Nat} (hk : 0 < k) (s : Nat) :
    s ∈ lastN l k ↔ s ∈ l ∧ (l.filter (fun x => decide (s < x))).length < k := by
  unfold lastN
  rw [if_neg (by omega)]
  have hsplit : l.take (l.length - k) ++ l.drop (l.length - k) = l := List.take_append_drop _ _
  have hpw := h
  rw [← hsplit, List.pairwise_append] at hpw
  obtain ⟨hp1, hp2, hp3⟩ := hpw
  have hlen : (l.drop (l.length - k)).length = min k l.length := by rw [List.length_drop]; omega
  have hfilter : (l.filter (fun x => decide (s < x))).length =
      ((l.take (l.length - k)).filter (fun x => decide (s < x))).length +
      ((l.drop (l.length - k)).filter (fun x => decide (s < x))).length := by
    rw [← List.length_append, ← List.filter_append, hsplit]
  constructor
  · intro hs
    refine ⟨List.mem_of_mem_drop hs, ?_⟩
    rw [hfilter]
    have h1 : (l.take (l.length - k)).filter (fun x => decide (s < x)) = [] := by
      rw [List.filter_eq_nil_iff]
      intro a ha
      have := hp3 a ha s hs
      simp; omega
    have h2 : ((l.drop (l.length - k)).filter (fun x => decide (s < x))).length < (l.drop (l.length - k)).length := by
      have : ((l.drop (l.length - k)).filter (fun x => decide (s < x))).length ≠ (l.drop (l.length - k)).length := by
        rw [Ne, List.length_filter_eq_length_iff]
        intro hall
        have := hall s hs
        simp at this
      have := List.length_filter_le (fun x => decide (s < x)) (l.drop (l.length - k))
      omega
    rw [h1, List.length_nil]; omega
  · rintro ⟨hs, hlt⟩
    rw [← hsplit, List.mem_append] at hs
    rcases hs with hs | hs
    · exfalso
      have hfull : (l.drop (l.length - k)).filter (fun x => decide (s < x)) = l.drop (l.length - k) := by
        rw [List.filter_eq_self]
        intro a ha
        have := hp3 s hs a ha
        simp [this]
      rw [hfilter, hfull, hlen] at hlt
      have hlp : 0 < (l.take (l.length - k)).length := List.length_pos_of_mem hs
      rw [List.length_take] at hlp
      omega
    · exact hs

theorem mem_butLastN {l : List Nat} (h : l.Pairwise (fun a b => a < b)) {k : Nat} (hk : 0 < k) (s : Nat) :
    s ∈ butLastN l k ↔ s ∈ l ∧ s ∉ lastN l k := by
  unfold butLastN lastN
  rw [if_neg (by omega), if_neg (by omega)]
  have hsplit : l.take (l.length - k) ++ l.drop (l.length - k) = l := List.take_append_drop _ _
  have hpw := h
  rw [← hsplit, List.pairwise_append] at hpw
  obtain ⟨hp1, hp2, hp3⟩ := hpw
  constructor
  · intro hs
    refine ⟨List.mem_of_mem_take hs, fun hd => ?_⟩
    have := hp3 s hs s hd
    omega
  · rintro ⟨hs, hn⟩
    rw [← hsplit, List.mem_append] at hs
    exact hs.resolve_right hn

theorem sorted_nodup {l : List Nat} (h : l.Nodup) :
    (isort l).Pairwise (fun a b => a < b) := by
  have h1 := sorted_seqs l
  have h2 : (isort l).Nodup := ((isort_perm l).nodup_iff).2 h
  have h3 : (isort l).Pairwise (fun a b => a ≤ b ∧ a ≠ b) := List.pairwise_and_iff.2 ⟨h1, h2⟩
  exact h3.imp (by intro a b ⟨x, y⟩; omega)

/-- The versions that survive: those with fewer than `keep` newer ones. -/
def Kept (vers : List (Nat × Params)) (keep s : Nat) : Prop :=
  ((vers.map (·.1)).filter (fun x => decide (s < x))).length < keep

instance (vers : List (Nat × Params)) (keep s : Nat) : Decidable (Kept vers keep s) := by
  unfold Kept; infer_instance

theorem isSome_iff_mem {κ ν : Type} [DecidableEq κ] (l : List (κ × ν)) (k : κ) :
    (AL.get l k).isSome ↔ k ∈ l.map (·.1) := by
  have h := AL.get_none_iff l k
  cases hg : AL.get l k with
  | none => simp [h.1 hg]
  | some v =>
    rw [hg] at h
    simp only [reduceCtorEq, false_iff, Decidable.not_not] at h
    simp [h]

theorem mem_kept {vers : List (Nat × Params)} (hnk : AL.NK vers) {keep : Nat} (hk : 0 < keep) (s : Nat) :
    s ∈ lastN (isort (vers.map (·.1))) keep ↔
      (AL.get vers s).isSome ∧ Kept vers keep s := by
  have hperm := isort_perm (vers.map (·.1))
  rw [mem_lastN (sorted_nodup hnk) hk, hperm.mem_iff, isSome_iff_mem]
  unfold Kept
  rw [(hperm.filter _).length_eq]

theorem mem_dropped {vers : List (Nat × Params)} (hnk : AL.NK vers) {keep : Nat} (hk : 0 < keep) (s : Nat) :
    s ∈ butLastN (isort (vers.map (·.1))) keep ↔
      (AL.get vers s).isSome ∧ ¬ Kept vers keep s := by
  have hperm := isort_perm (vers.map (·.1))
  rw [mem_butLastN (sorted_nodup hnk) hk, mem_kept hnk hk, hperm.mem_iff, isSome_iff_mem]
  constructor
  · rintro ⟨h1, h2⟩; exact ⟨h1, fun h => h2 ⟨h1, h⟩⟩
  · rintro ⟨h1, h2⟩; exact ⟨h1, fun h => h2 h.2⟩

/-! ### The objects to keep -/

theorem keepFor_spec (cfg : Cfg) (blocks : Blocks) (p : Params) (seq : Nat) :
    ∀ (l : List (Nat × List Nat)),
      (∀ e ∈ l, e.2 = isort (seqs blocks e.1)) →
      (∀ k, keepFor cfg p seq l = some k →
        ∀ b s, (b, s) ∈ k ↔ (b ∈ l.map (·.1) ∧ b * cfg.bs < p.dbSize ∧ Newest blocks b seq s)) ∧
      (keepFor cfg p seq l = none ↔
        ∃ b ∈ l.map (·.1), b * cfg.bs < p.dbSize ∧ ¬ ∃ s, Newest blocks b seq s)
  | [], _ => by simp [keepFor]
  | e :: t, h => by
    obtain ⟨ih1, ih2⟩ := keepFor_spec cfg blocks p seq t (fun e he => h e (List.mem_cons_of_mem _ he))
    have he := h e List.mem_cons_self
    have hsz : nBlocks cfg.bs p.dbSize ≤ e.1 ↔ ¬ e.1 * cfg.bs < p.dbSize := by
      rw [← mem_nBlocks]; omega
    simp only [keepFor]
    cases hk : keepFor cfg p seq t with
    | none =>
      obtain ⟨b, hb, hb2⟩ := ih2.1 hk
      refine ⟨by simp, by simp only [true_iff]; exact ⟨b, by rw [List.map_cons]; exact List.mem_cons_of_mem _ hb, hb2⟩⟩
    | some r =>
      have ih1 := ih1 r hk
      have hno : ¬ ∃ b ∈ t.map (·.1), b * cfg.bs < p.dbSize ∧ ¬ ∃ s, Newest blocks b seq s := by
        rw [← ih2, hk]; simp
      dsimp only
      by_cases hlt : e.1 * cfg.bs < p.dbSize
      · rw [if_neg (by rw [hsz]; simpa using hlt)]
        cases hf : firstLe e.2 seq with
        | none =>
          rw [he] at hf
          refine ⟨by simp, by simp only [true_iff]; exact ⟨e.1, by simp, hlt, firstLe_none.1 hf⟩⟩
        | some s0 =>
          rw [he] at hf
          have hn := firstLe_some.1 hf
          refine ⟨?_, ?_⟩
          · intro k hk2 b s
            cases hk2
            rw [List.mem_cons, ih1, List.map_cons, List.mem_cons]
            constructor
            · rintro (h | h)
              · cases h; exact ⟨Or.inl rfl, hlt, hn⟩
              · exact ⟨Or.inr h.1, h.2⟩
            · rintro ⟨h | h, h4, h5⟩
              · subst h; left; rw [hn.unique h5]
              · exact Or.inr ⟨h, h4, h5⟩
          · simp only [reduceCtorEq, false_iff]
            rintro ⟨b, hb, hb2, hb3⟩
            rw [List.map_cons, List.mem_cons] at hb
            rcases hb with h | h
            · subst h; exact hb3 ⟨s0, hn⟩
            · exact hno ⟨b, h, hb2, hb3⟩
      · rw [if_pos (hsz.2 hlt)]
        refine ⟨?_, ?_⟩
        · intro k hk2 b s
          cases hk2
          rw [ih1, List.map_cons, List.mem_cons]
          constructor
          · rintro ⟨h, h4⟩; exact ⟨Or.inr h, h4⟩
          · rintro ⟨h | h, h4, h5⟩
            · subst h; exact absurd h4 hlt
            · exact ⟨h, h4, h5⟩
        · simp only [reduceCtorEq, false_iff]
          rintro ⟨b, hb, hb2, hb3⟩
          rw [List.map_cons, List.mem_cons] at hb
          rcases hb with h | h
          · subst h; exact hlt hb2
          · exact hno ⟨b, h, hb2, hb3⟩

/-- A version whose parameters have the right sequence number and whose blocks are all there (as far
as any object of the block exists). -/
def Readable (cfg : Cfg) (blocks : Blocks) (s : Nat) (p : Params) : Prop :=
  (s = 0 ∨ p.seq = s) ∧
    ∀ b, (∃ s', (AL.get blocks (b, s')).isSome) → b * cfg.bs < p.dbSize → ∃ s', Newest blocks b s s'

theorem mem_blockList_keys {blocks : Blocks} {b : Nat} :
    b ∈ (blockList blocks).map (·.1) ↔ ∃ s, (AL.get blocks (b, s)).isSome := by
  rw [List.mem_map]
  constructor
  · rintro ⟨e, he, rfl⟩
    have := (mem_blockList.1 he).1
    obtain ⟨s, hs⟩ := List.exists_mem_of_ne_nil _ this
    exact ⟨s, (mem_seqs _ _ _).1 hs⟩
  · rintro ⟨s, hs⟩
    have := (mem_seqs blocks b s).2 hs
    exact ⟨(b, isort (seqs blocks b)), mem_blockList.2 ⟨List.ne_nil_of_mem this, rfl⟩, rfl⟩

theorem keepAll_spec (cfg : Cfg) (blocks : Blocks) (vers : List (Nat × Params)) :
    ∀ (l : List Nat),
      (∀ k, keepAll cfg vers (blockList blocks) l = some k →
        ∀ b s, (b, s) ∈ k ↔ ∃ n ∈ l, ∃ p, AL.get vers n = some p ∧ b * cfg.bs < p.dbSize ∧ Newest blocks b n s) ∧
      ((keepAll cfg vers (blockList blocks) l).isSome ↔
        ∀ n ∈ l, ∃ p, AL.get vers n = some p ∧ Readable cfg blocks n p)
  | [] => by simp [keepAll]
  | n :: t => by
    obtain ⟨ih1, ih2⟩ := keepAll_spec cfg blocks vers t
    simp only [keepAll]
    cases hg : AL.get vers n with
    | none =>
      refine ⟨by simp, ?_⟩
      simp only [Option.isSome_none, Bool.false_eq_true, false_iff]
      intro h
      obtain ⟨p, hp, _⟩ := h n List.mem_cons_self
      rw [hg] at hp; cases hp
    | some p =>
      dsimp only
      by_cases hseq : n ≠ 0 ∧ p.seq ≠ n
      · rw [if_pos hseq]
        refine ⟨by simp, ?_⟩
        simp only [Option.isSome_none, Bool.false_eq_true, false_iff]
        intro h
        obtain ⟨p', hp, h1, _⟩ := h n List.mem_cons_self
        rw [hg] at hp; cases hp
        omega
      · rw [if_neg hseq]
        obtain ⟨hf1, hf2⟩ := keepFor_spec cfg blocks p n (blockList blocks) (fun e he => (mem_blockList.1 he).2)
        cases hkf : keepFor cfg p n (blockList blocks) with
        | none =>
          refine ⟨by simp, ?_⟩
          simp only [Option.isSome_none, Bool.false_eq_true, false_iff]
          intro h
          obtain ⟨p', hp, h1, h2⟩ := h n List.mem_cons_self
          rw [hg] at hp; cases hp
          obtain ⟨b, hb, hb2, hb3⟩ := hf2.1 hkf
          exact hb3 (h2 b (mem_blockList_keys.1 hb) hb2)
        | some a =>
          have hf1 := hf1 a hkf
          have hread : Readable cfg blocks n p := by
            refine ⟨Classical.or_iff_not_imp_left.2 (fun h0 => Classical.byContradiction (fun h => hseq ⟨h0, h⟩)), ?_⟩
            intro b hb hb2
            apply Classical.byContradiction
            intro hno
            have := hf2.2 ⟨b, mem_blockList_keys.2 hb, hb2, hno⟩
            rw [hkf] at this; cases this
          cases hka : keepAll cfg vers (blockList blocks) t with
          | none =>
            rw [hka] at ih2
            simp only [Option.isSome_none, Bool.false_eq_true, false_iff] at ih2
            refine ⟨by simp, ?_⟩
            simp only [Option.isSome_none, Bool.false_eq_true, false_iff]
            intro h
            exact ih2 (fun m hm => h m (List.mem_cons_of_mem _ hm))
          | some r =>
            rw [hka] at ih2
            simp only [Option.isSome_some, true_iff] at ih2
            have ih1 := ih1 r hka
            refine ⟨?_, ?_⟩
            · intro k hk b s
              cases hk
              rw [List.mem_append, hf1, ih1]
              constructor
              · rintro (⟨h1, h2, h3⟩ | ⟨m, hm, h⟩)
                · exact ⟨n, List.mem_cons_self, p, hg, h2, h3⟩
                · exact ⟨m, List.mem_cons_of_mem _ hm, h⟩
              · rintro ⟨m, hm, p', hp, h2, h3⟩
                rcases List.mem_cons.1 hm with e | e
                · subst e
                  rw [hg] at hp; cases hp
                  exact Or.inl ⟨mem_blockList_keys.2 ⟨s, h3.1⟩, h2, h3⟩
                · exact Or.inr ⟨m, e, p', hp, h2, h3⟩
            · simp only [Option.isSome_some, true_iff]
              intro m hm
              rcases List.mem_cons.1 hm with e | e
              · subst e; exact ⟨p, hg, hread⟩
              · exact ih2 m e

/-! ### The list of objects to delete -/

/-- Block object `(b, s)` belongs to one of the retained versions. -/
def Needed (cfg : Cfg) (r : Remote) (keep b s : Nat) : Prop :=
  ∃ n p, AL.get r.vers n = some p ∧ Kept r.vers keep n ∧ b * cfg.bs < p.dbSize ∧ Newest r.blocks b n s

theorem expireList_isSome (cfg : Cfg) (r : Remote) (keep : Nat) (hnk : AL.NK r.vers) (hk : 0 < keep) :
    (expireList cfg r keep).isSome ↔
      ∀ n p, AL.get r.vers n = some p → Kept r.vers keep n → Readable cfg r.blocks n p := by
  have h := (keepAll_spec cfg r.blocks r.vers (lastN (isort (r.vers.map (·.1))) keep)).2
  unfold expireList
  dsimp only
  have hiff : (∀ n ∈ lastN (isort (r.vers.map (·.1))) keep,
      ∃ p, AL.get r.vers n = some p ∧ Readable cfg r.blocks n p) ↔
      ∀ n p, AL.get r.vers n = some p → Kept r.vers keep n → Readable cfg r.blocks n p := by
    constructor
    · intro h n p hp hkept
      obtain ⟨p', hp', hr⟩ := h n ((mem_kept hnk hk n).2 ⟨by rw [hp]; rfl, hkept⟩)
      rw [hp] at hp'; cases hp'; exact hr
    · intro h n hn
      obtain ⟨h1, h2⟩ := (mem_kept hnk hk n).1 hn
      obtain ⟨p, hp⟩ := Option.isSome_iff_exists.1 h1
      exact ⟨p, hp, h n p hp h2⟩
  rw [← hiff, ← h]
  cases keepAll cfg r.vers (blockList r.blocks) (lastN (isort (r.vers.map (·.1))) keep) <;> rfl

theorem expireList_spec (cfg : Cfg) (r : Remote) (keep : Nat) (hnk : AL.NK r.vers) (hk : 0 < keep) {l : List Key}
    (h : expireList cfg r keep = some l) :
    (∀ s, Key.params s ∈ l ↔ (AL.get r.vers s).isSome ∧ ¬ Kept r.vers keep s) ∧
    (∀ b s, Key.block b s ∈ l ↔ (AL.get r.blocks (b, s)).isSome ∧ ¬ Needed cfg r keep b s) := by
  have hs := (keepAll_spec cfg r.blocks r.vers (lastN (isort (r.vers.map (·.1))) keep)).1
  unfold expireList at h
  dsimp only at h
  cases hk2 : keepAll cfg r.vers (blockList r.blocks) (lastN (isort (r.vers.map (·.1))) keep) with
  | none => rw [hk2] at h; cases h
  | some k =>
    rw [hk2] at h
    have hs := hs k hk2
    have h := Option.some.inj h
    subst h
    refine ⟨?_, ?_⟩
    · intro s
      simp only [List.mem_append, List.mem_map, List.mem_flatMap, Key.params.injEq, exists_eq_right,
        reduceCtorEq, and_false, exists_false, or_false]
      exact mem_dropped hnk hk s
    · intro b s
      have hneed : (b, s) ∈ k ↔ Needed cfg r keep b s := by
        rw [hs]
        unfold Needed
        constructor
        · rintro ⟨n, hn, p, hp, h2⟩
          exact ⟨n, p, hp, ((mem_kept hnk hk n).1 hn).2, h2⟩
        · rintro ⟨n, p, hp, h1, h2⟩
          exact ⟨n, (mem_kept hnk hk n).2 ⟨by rw [hp]; rfl, h1⟩, p, hp, h2⟩
      simp only [List.mem_append, List.mem_map, List.mem_flatMap, List.mem_filter, reduceCtorEq, and_false,
        exists_false, false_or, Key.block.injEq]
      rw [← hneed]
      constructor
      · rintro ⟨e, he, s', ⟨h1, h2⟩, h3, h4⟩
        subst h4; subst h3
        rw [(mem_blockList.1 he).2, (isort_perm _).mem_iff, mem_seqs] at h1
        refine ⟨h1, ?_⟩
        simpa [List.contains_eq_mem] using h2
      · rintro ⟨h1, h2⟩
        have hm := (mem_seqs r.blocks b s).2 h1
        refine ⟨(b, isort (seqs r.blocks b)), mem_blockList.2 ⟨List.ne_nil_of_mem hm, rfl⟩, s, ⟨?_, ?_⟩, rfl, rfl⟩
        · rw [(isort_perm _).mem_iff]; exact hm
        · simp [List.contains_eq_mem, h2]

/-! ### Deleting -/

theorem get_delKeys : ∀ (l : List Key) (r : Remote),
    (∀ s, AL.get (l.foldl delKey r).vers s = if Key.params s ∈ l then none else AL.get r.vers s) ∧
    (∀ b s, AL.get (l.foldl delKey r).blocks (b, s) = if Key.block b s ∈ l then none else AL.get r.blocks (b, s)) ∧
    (l.foldl delKey r).cur = r.cur
  | [], r => by simp
  | k :: t, r => by
    obtain ⟨h1, h2, h3⟩ := get_delKeys t (delKey r k)
    refine ⟨?_, ?_, ?_⟩
    · intro s
      rw [List.foldl_cons, h1]
      by_cases hm : Key.params s ∈ t
      · rw [if_pos hm, if_pos (List.mem_cons_of_mem _ hm)]
      · rw [if_neg hm]
        cases k with
        | params s' =>
          simp only [delKey, AL.get_erase, List.mem_cons, Key.params.injEq, hm, or_false]
        | block b' s' =>
          simp only [delKey, List.mem_cons, reduceCtorEq, hm, or_false, if_false]
    · intro b s
      rw [List.foldl_cons, h2]
      by_cases hm : Key.block b s ∈ t
      · rw [if_pos hm, if_pos (List.mem_cons_of_mem _ hm)]
      · rw [if_neg hm]
        cases k with
        | params s' =>
          simp only [delKey, List.mem_cons, reduceCtorEq, hm, or_false, if_false]
        | block b' s' =>
          simp only [delKey, AL.get_erase, List.mem_cons, Key.block.injEq, hm, or_false, Prod.mk.injEq]
    · rw [List.foldl_cons, h3]
      cases k <;> rfl

end Verif.Meta
