import Verif.Meta.Spec
/-
Lemmas about files, block lists, download and upload.
-/
namespace Verif.Meta

/-! ### Files -/

theorem getD_append (a b : Bytes) (i : Nat) :
    (a ++ b).getD i 0 = if i < a.length then a.getD i 0 else b.getD (i - a.length) 0 := by
  simp only [List.getD_eq_getElem?_getD, List.getElem?_append]
  split <;> rfl

theorem getD_take (a : Bytes) (n i : Nat) : (a.take n).getD i 0 = if i < n then a.getD i 0 else 0 := by
  simp only [List.getD_eq_getElem?_getD, List.getElem?_take]
  split <;> rfl

theorem getD_drop (a : Bytes) (n i : Nat) : (a.drop n).getD i 0 = a.getD (n + i) 0 := by
  simp only [List.getD_eq_getElem?_getD, List.getElem?_drop]

theorem getD_zeros (n i : Nat) : (List.replicate n (0 : UInt8)).getD i 0 = 0 := by
  simp only [List.getD_eq_getElem?_getD, List.getElem?_replicate]
  split <;> rfl

theorem getD_ge (a : Bytes) (i : Nat) (h : a.length ≤ i) : a.getD i 0 = 0 := by
  simp only [List.getD_eq_getElem?_getD, List.getElem?_eq_none h]; rfl

theorem getD_nil (i : Nat) : ([] : Bytes).getD i 0 = 0 := getD_ge [] i (by simp)

theorem ext_getD {a b : Bytes} (hl : a.length = b.length)
    (h : ∀ i, i < b.length → a.getD i 0 = b.getD i 0) : a = b := by
  apply List.ext_getElem hl
  intro i h1 h2
  have := h i h2
  simpa [List.getD_eq_getElem?_getD, h1, h2] using this

theorem writeAt_length (f : Bytes) (off : Nat) (d : Bytes) :
    (writeAt f off d).length = if d = [] then f.length else max f.length (off + d.length) := by
  unfold writeAt
  split
  · rfl
  · simp only [List.length_append, List.length_take, List.length_replicate, List.length_drop]; omega

theorem writeAt_getD (f : Bytes) (off : Nat) (d : Bytes) (i : Nat) :
    (writeAt f off d).getD i 0 = if off ≤ i ∧ i < off + d.length then d.getD (i - off) 0 else f.getD i 0 := by
  unfold writeAt
  by_cases hd : d = []
  · rw [if_pos hd, if_neg (by subst hd; simp only [List.length_nil]; omega)]
  · rw [if_neg hd]
    have hl1 : (f.take off ++ List.replicate (off - f.length) 0).length = off := by
      simp only [List.length_append, List.length_take, List.length_replicate]; omega
    have hl2 : (f.take off ++ List.replicate (off - f.length) 0 ++ d).length = off + d.length := by
      rw [List.length_append, hl1]
    rw [getD_append, hl2]
    by_cases h1 : i < off + d.length
    · rw [if_pos h1, getD_append, hl1]
      by_cases h2 : i < off
      · rw [if_pos h2, if_neg (by omega), getD_append]
        split
        · rw [getD_take, if_pos h2]
        · rename_i h3
          simp only [List.length_take] at h3
          rw [getD_zeros, getD_ge _ _ (by omega)]
      · rw [if_neg h2, if_pos ⟨by omega, h1⟩]
    · rw [if_neg h1, if_neg (by omega), getD_drop]
      congr 1; omega

theorem truncTo_length (f : Bytes) (n : Nat) : (truncTo f n).length = n := by
  unfold truncTo
  simp only [List.length_append, List.length_take, List.length_replicate]; omega

theorem truncTo_getD (f : Bytes) (n i : Nat) : (truncTo f n).getD i 0 = if i < n then f.getD i 0 else 0 := by
  unfold truncTo
  rw [getD_append]
  split
  · rename_i h
    rw [getD_take]
  · rename_i h
    simp only [List.length_take] at h
    rw [getD_zeros]
    split
    · rw [getD_ge _ _ (by omega)]
    · rfl

/-! ### Block lists -/

theorem get_addCand (l : List (Nat × List Nat)) (b s b' : Nat) :
    AL.get (addCand l b s) b' = if b' = b then some ((AL.get l b).getD [] ++ [s]) else AL.get l b' := by
  induction l with
  | nil =>
    simp only [addCand, AL.get]
    by_cases h : b = b'
    · rw [if_pos h, if_pos h.symm]; rfl
    · rw [if_neg h, if_neg (Ne.symm h)]
  | cons e t ih =>
    obtain ⟨x, l⟩ := e
    simp only [addCand]
    by_cases hx : x = b
    · rw [if_pos hx]
      simp only [AL.get]
      subst hx
      by_cases h : x = b'
      · subst h; simp
      · rw [if_neg h, if_neg (Ne.symm h), if_neg h]
    · rw [if_neg hx]
      simp only [AL.get, if_neg hx]
      rw [ih]
      by_cases h : x = b'
      · rw [if_pos h, if_pos h, if_neg (by omega)]
      · rw [if_neg h, if_neg h]

theorem keys_addCand (l : List (Nat × List Nat)) (b s : Nat) (x : Nat) :
    x ∈ (addCand l b s).map (·.1) ↔ x = b ∨ x ∈ l.map (·.1) := by
  induction l with
  | nil => simp [addCand]
  | cons e t ih =>
    obtain ⟨y, l⟩ := e
    simp only [addCand]
    split
    · rename_i h; subst h; simp
    · simp only [List.map_cons, List.mem_cons, ih]
      constructor
      · rintro (h | h | h)
        · exact Or.inr (Or.inl h)
        · exact Or.inl h
        · exact Or.inr (Or.inr h)
      · rintro (h | h | h)
        · exact Or.inr (Or.inl h)
        · exact Or.inl h
        · exact Or.inr (Or.inr h)

theorem NK_addCand {l : List (Nat × List Nat)} (h : AL.NK l) (b s : Nat) : AL.NK (addCand l b s) := by
  induction l with
  | nil => simp [addCand, AL.NK]
  | cons e t ih =>
    obtain ⟨y, l⟩ := e
    obtain ⟨h1, h2⟩ := h.cons_inv
    simp only [addCand]
    split
    · unfold AL.NK at h ⊢; simpa using h
    · rename_i hy
      unfold AL.NK
      rw [List.map_cons, List.nodup_cons]
      refine ⟨?_, ih h2⟩
      rw [keys_addCand]
      rintro (h | h)
      · exact hy h
      · exact (AL.get_none_iff _ _).1 h1 h

/-- The sequence numbers stored for a block. -/
def seqs (blocks : Blocks) (b : Nat) : List Nat :=
  (blocks.filter (fun o => decide (o.1.1 = b))).map (fun o => o.1.2)

theorem foldl_cand (blocks : Blocks) (acc : List (Nat × List Nat)) (b : Nat) :
    AL.get (blocks.foldl (fun acc o => addCand acc o.1.1 o.1.2) acc) b =
      if seqs blocks b = [] then AL.get acc b else some ((AL.get acc b).getD [] ++ seqs blocks b) := by
  induction blocks generalizing acc with
  | nil => rfl
  | cons o t ih =>
    obtain ⟨⟨x, s⟩, c⟩ := o
    rw [List.foldl_cons, ih, get_addCand]
    unfold seqs
    by_cases hx : x = b
    · subst hx
      simp
    · simp only [List.filter_cons, hx, decide_false, Bool.false_eq_true, if_false, if_neg (Ne.symm hx)]

theorem NK_foldl_cand (blocks : Blocks) {acc : List (Nat × List Nat)} (h : AL.NK acc) :
    AL.NK (blocks.foldl (fun acc o => addCand acc o.1.1 o.1.2) acc) := by
  induction blocks generalizing acc with
  | nil => exact h
  | cons o t ih => exact ih (NK_addCand h _ _)

theorem mem_seqs (blocks : Blocks) (b s : Nat) : s ∈ seqs blocks b ↔ (AL.get blocks (b, s)).isSome := by
  have : (AL.get blocks (b, s)).isSome = true ↔ (b, s) ∈ blocks.map (·.1) := by
    have h := AL.get_none_iff blocks (b, s)
    cases hg : AL.get blocks (b, s) with
    | none => simp [h.1 hg]
    | some v =>
      rw [hg] at h
      simp only [reduceCtorEq, false_iff, Decidable.not_not] at h
      simp [h]
  rw [this]
  unfold seqs
  simp only [List.mem_map, List.mem_filter, decide_eq_true_eq]
  constructor
  · rintro ⟨o, ⟨h1, h2⟩, h3⟩
    exact ⟨o, h1, by rw [← h2, ← h3]⟩
  · rintro ⟨o, h1, h2⟩
    exact ⟨o, ⟨h1, by rw [h2]⟩, by rw [h2]⟩

theorem mem_blockList {blocks : Blocks} {e : Nat × List Nat} :
    e ∈ blockList blocks ↔
      seqs blocks e.1 ≠ [] ∧ e.2 = isort (seqs blocks e.1) := by
  have hnk := NK_foldl_cand blocks (acc := []) AL.NK_nil
  unfold blockList
  rw [List.mem_map]
  constructor
  · rintro ⟨⟨b, l⟩, hm, rfl⟩
    have := (AL.mem_iff_get hnk b l).1 hm
    rw [foldl_cand] at this
    by_cases h : seqs blocks b = []
    · rw [if_pos h] at this; cases this
    · rw [if_neg h] at this
      refine ⟨h, ?_⟩
      have h2 := Option.some.inj this
      simp only [AL.get, Option.getD_none, List.nil_append] at h2
      rw [← h2]
  · rintro ⟨h1, h2⟩
    refine ⟨(e.1, seqs blocks e.1), ?_, by rw [← h2]⟩
    rw [AL.mem_iff_get hnk, foldl_cand, if_neg h1]
    simp [AL.get]

theorem NK_blockList (blocks : Blocks) : ((blockList blocks).map (·.1)).Nodup := by
  have hnk := NK_foldl_cand blocks (acc := []) AL.NK_nil
  unfold blockList
  rw [List.map_map]
  exact hnk

theorem find_desc {l : List Nat} (n : Nat) (h : l.Pairwise (fun a b => b ≤ a)) {s : Nat} :
    l.find? (fun e => decide (e ≤ n)) = some s → s ∈ l ∧ s ≤ n ∧ ∀ s' ∈ l, s' ≤ n → s' ≤ s := by
  induction l with
  | nil => intro h; cases h
  | cons a t ih =>
    intro hf
    rw [List.pairwise_cons] at h
    rw [List.find?_cons] at hf
    by_cases ha : a ≤ n
    · simp only [ha, decide_true] at hf
      cases hf
      refine ⟨List.mem_cons_self, ha, ?_⟩
      intro s' hs' _
      rcases List.mem_cons.1 hs' with e | e
      · omega
      · exact h.1 s' e
    · simp only [ha, decide_false] at hf
      obtain ⟨h1, h2, h3⟩ := ih h.2 hf
      refine ⟨List.mem_cons_of_mem _ h1, h2, ?_⟩
      intro s' hs' hn
      rcases List.mem_cons.1 hs' with e | e
      · omega
      · exact h3 s' e hn

theorem insertSorted_perm (x : Nat) : ∀ l : List Nat, (insertSorted x l).Perm (x :: l)
  | [] => List.Perm.refl _
  | y :: t => by
    unfold insertSorted
    split
    · exact List.Perm.refl _
    · exact ((insertSorted_perm x t).cons y).trans (List.Perm.swap x y t)

theorem isort_perm : ∀ l : List Nat, (isort l).Perm l
  | [] => List.Perm.refl _
  | x :: t => (insertSorted_perm x (isort t)).trans ((isort_perm t).cons x)

theorem insertSorted_sorted (x : Nat) : ∀ l : List Nat, l.Pairwise (fun a b => a ≤ b) → (insertSorted x l).Pairwise (fun a b => a ≤ b)
  | [], _ => by unfold insertSorted; simp
  | y :: t, h => by
    rw [List.pairwise_cons] at h
    unfold insertSorted
    split
    · rename_i hxy
      rw [List.pairwise_cons, List.pairwise_cons]
      refine ⟨?_, h⟩
      intro a ha
      rcases List.mem_cons.1 ha with e | e
      · omega
      · have := h.1 a e; omega
    · rename_i hxy
      rw [List.pairwise_cons]
      refine ⟨?_, insertSorted_sorted x t h.2⟩
      intro a ha
      rw [(insertSorted_perm x t).mem_iff] at ha
      rcases List.mem_cons.1 ha with e | e
      · omega
      · exact h.1 a e

theorem sorted_seqs : ∀ l : List Nat, (isort l).Pairwise (fun a b => a ≤ b)
  | [] => List.Pairwise.nil
  | x :: t => insertSorted_sorted x _ (sorted_seqs t)

theorem firstLe_some {blocks : Blocks} {b n s : Nat} :
    firstLe (isort (seqs blocks b)) n = some s ↔ Newest blocks b n s := by
  have hperm := isort_perm (seqs blocks b)
  have hmem : ∀ x, x ∈ (isort (seqs blocks b)).reverse ↔ (AL.get blocks (b, x)).isSome := by
    intro x; rw [List.mem_reverse, hperm.mem_iff, mem_seqs]
  have hpw : (isort (seqs blocks b)).reverse.Pairwise (fun a b => b ≤ a) := by
    rw [List.pairwise_reverse]; exact sorted_seqs _
  unfold firstLe
  constructor
  · intro h
    obtain ⟨h1, h2, h3⟩ := find_desc n hpw h
    exact ⟨(hmem s).1 h1, h2, fun s' hs hn => h3 s' ((hmem s').2 hs) hn⟩
  · rintro ⟨h1, h2, h3⟩
    cases hf : (isort (seqs blocks b)).reverse.find? (fun e => decide (e ≤ n)) with
    | none =>
      rw [List.find?_eq_none] at hf
      have := hf s ((hmem s).2 h1)
      simp only [decide_eq_true_eq] at this; exact absurd h2 this
    | some s' =>
      obtain ⟨h4, h5, h6⟩ := find_desc n hpw hf
      have a1 := h3 s' ((hmem s').1 h4) h5
      have a2 := h6 s ((hmem s).2 h1) h2
      congr 1; omega

theorem firstLe_none {blocks : Blocks} {b n : Nat} :
    firstLe (isort (seqs blocks b)) n = none ↔ ¬ ∃ s, Newest blocks b n s := by
  constructor
  · rintro h ⟨s, hs⟩
    rw [firstLe_some.2 hs] at h; cases h
  · intro h
    cases hf : firstLe (isort (seqs blocks b)) n with
    | none => rfl
    | some s => exact absurd ⟨s, firstLe_some.1 hf⟩ h

theorem Newest.unique {blocks : Blocks} {b n s s' : Nat} (h : Newest blocks b n s) (h' : Newest blocks b n s') :
    s = s' := by
  have a := h.2.2 s' h'.1 h'.2.1
  have b := h'.2.2 s h.1 h.2.1
  omega

theorem Newest.mem {blocks : Blocks} {b n s : Nat} (h : Newest blocks b n s) : seqs blocks b ≠ [] := by
  have := (mem_seqs blocks b s).2 h.1
  intro e; rw [e] at this; cases this

/-- A block that has some object not above `n` has a newest one. -/
theorem newest_exists {blocks : Blocks} {b n s : Nat} (h : (AL.get blocks (b, s)).isSome) (hs : s ≤ n) :
    ∃ s', Newest blocks b n s' := by
  cases hf : firstLe (isort (seqs blocks b)) n with
  | some s' => exact ⟨s', firstLe_some.1 hf⟩
  | none =>
    exfalso
    have := List.find?_eq_none.1 hf s (by
      rw [List.mem_reverse, (isort_perm _).mem_iff, mem_seqs]; exact h)
    simp only [decide_eq_true_eq] at this; exact this hs

/-! ### Download -/

/-- The jobs of a normal download. -/
theorem dlJobs_spec (cfg : Cfg) (blocks : Blocks) (p : Params) :
    ∀ (l : List (Nat × List Nat)),
      (∀ e ∈ l, e.2 = isort (seqs blocks e.1)) →
      (l.map (·.1)).Nodup →
      (∀ e ∈ l, e.1 * cfg.bs < p.dbSize → ∃ s, Newest blocks e.1 p.seq s) →
      ∃ js, dlJobs cfg p false l = some js ∧ (js.map (·.1)).Nodup ∧
        ∀ b s, (b, s) ∈ js ↔ (b ∈ l.map (·.1) ∧ b * cfg.bs < p.dbSize ∧ Newest blocks b p.seq s)
  | [], _, _, _ => ⟨[], rfl, by simp, by simp⟩
  | e :: t, h1, h2, h3 => by
    rw [List.map_cons, List.nodup_cons] at h2
    obtain ⟨js, hj, hnd, hm⟩ := dlJobs_spec cfg blocks p t (fun e he => h1 e (List.mem_cons_of_mem _ he)) h2.2
      (fun e he => h3 e (List.mem_cons_of_mem _ he))
    by_cases hsz : e.1 * cfg.bs < p.dbSize
    · obtain ⟨s, hs⟩ := h3 e List.mem_cons_self hsz
      have hjob : dlJob cfg p false e = some (some (e.1, s)) := by
        unfold dlJob
        rw [if_neg (by simp; omega), h1 e List.mem_cons_self, firstLe_some.2 hs]
      refine ⟨(e.1, s) :: js, by simp only [dlJobs, hjob, hj], ?_, ?_⟩
      · rw [List.map_cons, List.nodup_cons]
        refine ⟨?_, hnd⟩
        intro hmem
        obtain ⟨⟨b', s'⟩, hb, he⟩ := List.mem_map.1 hmem
        have := ((hm b' s').1 hb).1
        simp only at he
        rw [he] at this
        exact h2.1 this
      · intro b s'
        rw [List.mem_cons, hm, List.map_cons, List.mem_cons]
        constructor
        · rintro (h | h)
          · cases h; exact ⟨Or.inl rfl, hsz, hs⟩
          · exact ⟨Or.inr h.1, h.2⟩
        · rintro ⟨h | h, h4, h5⟩
          · subst h; left; rw [hs.unique h5]
          · exact Or.inr ⟨h, h4, h5⟩
    · have hjob : dlJob cfg p false e = some none := by
        unfold dlJob
        rw [if_pos (by simp; omega)]
      refine ⟨js, by simp only [dlJobs, hjob, hj], hnd, ?_⟩
      intro b s'
      rw [hm, List.map_cons, List.mem_cons]
      constructor
      · rintro ⟨h, h4⟩; exact ⟨Or.inr h, h4⟩
      · rintro ⟨h | h, h4, h5⟩
        · subst h; exact absurd h4 hsz
        · exact ⟨h, h4, h5⟩

theorem dlWrite_spec (cfg : Cfg) (blocks : Blocks) : ∀ (js : List DlJob) (f : Bytes),
    (js.map (·.1)).Nodup → (∀ j ∈ js, ∃ c, AL.get blocks j = some c ∧ c.length ≤ cfg.bs) →
    ∃ f', dlWrite cfg blocks js f = some f' ∧
      ∀ i, (∀ s c, (i / cfg.bs, s) ∈ js → AL.get blocks (i / cfg.bs, s) = some c →
          f'.getD i 0 = if i % cfg.bs < c.length then c.getD (i % cfg.bs) 0 else f.getD i 0) ∧
        ((∀ s, (i / cfg.bs, s) ∉ js) → f'.getD i 0 = f.getD i 0)
  | [], f, _, _ => ⟨f, rfl, fun i => ⟨by simp, fun _ => rfl⟩⟩
  | j :: js, f, hnd, hc => by
    obtain ⟨b, s⟩ := j
    rw [List.map_cons, List.nodup_cons] at hnd
    obtain ⟨c, hg, hlen⟩ := hc (b, s) List.mem_cons_self
    obtain ⟨f', hf, hi⟩ := dlWrite_spec cfg blocks js (writeAt f (b * cfg.bs) c) hnd.2
      (fun j hj => hc j (List.mem_cons_of_mem _ hj))
    refine ⟨f', by simp only [dlWrite, hg, hf], ?_⟩
    intro i
    have hpos := cfg.pos
    have hdm := Nat.div_add_mod i cfg.bs
    have hmod := Nat.mod_lt i hpos
    by_cases hb : i / cfg.bs = b
    · have hnot : ∀ s, (i / cfg.bs, s) ∉ js := by
        intro s' hs'
        exact hnd.1 (List.mem_map.2 ⟨_, hs', hb⟩)
      have h2 := (hi i).2 hnot
      have hw := writeAt_getD f (b * cfg.bs) c i
      have hbi : b * cfg.bs + i % cfg.bs = i := by rw [← hb, Nat.mul_comm]; exact hdm
      refine ⟨?_, ?_⟩
      · intro s' c' hm hg'
        rcases List.mem_cons.1 hm with e | e
        · cases e
          rw [hb, hg] at hg'
          cases hg'
          rw [h2, hw]
          by_cases hlt : i % cfg.bs < c.length
          · rw [if_pos (by omega), if_pos hlt]; congr 1; omega
          · rw [if_neg (by omega), if_neg hlt]
        · exact absurd e (hnot s')
      · intro hn
        exact absurd (by rw [hb]; exact List.mem_cons_self) (hn s)
    · have hw : (writeAt f (b * cfg.bs) c).getD i 0 = f.getD i 0 := by
        rw [writeAt_getD, if_neg]
        rintro ⟨ha, hb2⟩
        apply hb
        have h1 : b ≤ i / cfg.bs := (Nat.le_div_iff_mul_le hpos).2 ha
        have h2 : i / cfg.bs < b + 1 := by
          rw [Nat.div_lt_iff_lt_mul hpos, Nat.add_mul, Nat.one_mul]; omega
        omega
      refine ⟨?_, ?_⟩
      · intro s' c' hm hg'
        rcases List.mem_cons.1 hm with e | e
        · cases e; exact absurd rfl hb
        · rw [(hi i).1 s' c' e hg', hw]
      · intro hn
        rw [(hi i).2 (fun s' hs' => hn s' (List.mem_cons_of_mem _ hs')), hw]

/-- The block of a position inside the file starts inside the file. -/
theorem block_start_lt (cfg : Cfg) {i n : Nat} (h : i < n) : i / cfg.bs * cfg.bs < n := by
  have := Nat.div_mul_le_self i cfg.bs; omega

/-- Downloading a complete snapshot gives the file, whatever the order in which the workers finish. -/
theorem download_snapshot (cfg : Cfg) (blocks : Blocks) (p : Params) (f : Bytes) (h : Snapshot cfg blocks p f)
    (order : List DlJob → List DlJob) (ho : ∀ l, (order l).Perm l) :
    download cfg blocks p false order = some f := by
  obtain ⟨hsz, hdig, hsync⟩ := h
  obtain ⟨js, hj, hnd, hm⟩ := dlJobs_spec cfg blocks p (blockList blocks)
    (fun e he => (mem_blockList.1 he).2) (NK_blockList blocks)
    (fun e he hlt => by
      obtain ⟨s, c, hn, _⟩ := hsync e.1 (by omega) (by simp)
      exact ⟨s, hn⟩)
  have hperm := ho js
  have hgetc : ∀ j ∈ order js, ∃ c, AL.get blocks j = some c ∧ c.length ≤ cfg.bs := by
    rintro ⟨b, s⟩ hb
    have := (hm b s).1 (hperm.mem_iff.1 hb)
    obtain ⟨s', c, hn, hg, hl, _⟩ := hsync b (by omega) (by simp)
    rw [hn.unique this.2.2] at hg
    exact ⟨c, hg, hl⟩
  obtain ⟨f', hf', hi⟩ := dlWrite_spec cfg blocks (order js) [] (((hperm.map (·.1)).nodup_iff).2 hnd) hgetc
  have hfin : truncTo f' p.dbSize = f := by
    apply ext_getD
    · rw [truncTo_length, hsz]
    · intro i hil
      rw [truncTo_getD, if_pos (by omega)]
      obtain ⟨s, c, hn, hg, hl, hag⟩ := hsync (i / cfg.bs) (block_start_lt cfg hil) (by simp)
      have hmem : (i / cfg.bs, s) ∈ order js := by
        rw [hperm.mem_iff, hm]
        refine ⟨?_, by rw [hsz]; exact block_start_lt cfg hil, hn⟩
        exact List.mem_map.2 ⟨(i / cfg.bs, isort (seqs blocks (i / cfg.bs))), mem_blockList.2 ⟨hn.mem, rfl⟩, rfl⟩
      rw [(hi i).1 s c hmem hg, getD_nil]
      have hdm := Nat.div_add_mod i cfg.bs
      have hmod := Nat.mod_lt i cfg.pos
      have := hag (i % cfg.bs) hmod (by rw [Nat.mul_comm]; omega)
      rw [Nat.mul_comm, hdm] at this
      rw [← this]
      split
      · rfl
      · rename_i hge
        rw [getD_ge c _ (by omega)]
  unfold download
  rw [hj]
  dsimp only
  rw [hf']
  unfold dlFinal
  dsimp only
  rw [hfin, if_pos hdig]
  rfl

end Verif.Meta
