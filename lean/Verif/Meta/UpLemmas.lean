import Verif.Meta.Lemmas
/-
Lemmas about write tracking and uploads.
-/
namespace Verif.Meta

/-! ### Block objects -/

/-- No block is stored under a sequence number above `n`. -/
def Below (blocks : Blocks) (n : Nat) : Prop := ∀ b s, (AL.get blocks (b, s)).isSome → s ≤ n

theorem Below.mono {blocks : Blocks} {n n' : Nat} (h : Below blocks n) (hn : n ≤ n') : Below blocks n' :=
  fun b s hs => Nat.le_trans (h b s hs) hn

theorem Below.set {blocks : Blocks} {n : Nat} (h : Below blocks n) (b s : Nat) (c : Bytes) (hs : s ≤ n) :
    Below (AL.set blocks (b, s) c) n := by
  intro b' s' hg
  rw [AL.get_set] at hg
  split at hg
  · rename_i e; cases e; exact hs
  · exact h b' s' hg

theorem Agree.mono {cfg : Cfg} {blocks : Blocks} {n n' : Nat} {f : Bytes} {b : Nat}
    (h : Agree cfg blocks n f b) (hb : Below blocks n) (hn : n ≤ n') : Agree cfg blocks n' f b := by
  obtain ⟨s, c, ⟨h1, h2, h3⟩, h4⟩ := h
  exact ⟨s, c, ⟨h1, by omega, fun s' hs _ => h3 s' hs (hb b s' hs)⟩, h4⟩

/-- `Agree` depends only on the objects of that block up to that version. -/
theorem Agree.congr {cfg : Cfg} {blocks blocks' : Blocks} {n : Nat} {f : Bytes} {b : Nat}
    (h : Agree cfg blocks n f b) (he : ∀ s, s ≤ n → AL.get blocks' (b, s) = AL.get blocks (b, s)) :
    Agree cfg blocks' n f b := by
  obtain ⟨s, c, ⟨h1, h2, h3⟩, h4, h5⟩ := h
  refine ⟨s, c, ⟨by rw [he s h2]; exact h1, h2, ?_⟩, by rw [he s h2]; exact h4, h5⟩
  intro s' hs hn
  rw [he s' hn] at hs
  exact h3 s' hs hn

theorem Agree.set_other {cfg : Cfg} {blocks : Blocks} {n : Nat} {f : Bytes} {b : Nat}
    (h : Agree cfg blocks n f b) (b' s' : Nat) (c : Bytes) (hne : b' ≠ b ∨ n < s') :
    Agree cfg (AL.set blocks (b', s') c) n f b := by
  refine h.congr ?_
  intro s hs
  rw [AL.get_set, if_neg]
  intro e
  rw [Prod.mk.injEq] at e
  rcases hne with h | h <;> omega

theorem Agree.set_self {cfg : Cfg} {blocks : Blocks} {n : Nat} {f : Bytes} {b : Nat} (c : Bytes)
    (hl : c.length ≤ cfg.bs)
    (hc : ∀ i, i < cfg.bs → b * cfg.bs + i < f.length → c.getD i 0 = f.getD (b * cfg.bs + i) 0) :
    Agree cfg (AL.set blocks (b, n) c) n f b := by
  refine ⟨n, c, ⟨by rw [AL.get_set_self]; rfl, Nat.le_refl _, fun s' _ h => h⟩, AL.get_set_self _ _ _, hl, hc⟩

/-- Objects may disappear as long as the newest one stays. -/
theorem Agree.shrink {cfg : Cfg} {blocks blocks' : Blocks} {n : Nat} {f : Bytes} {b : Nat}
    (h : Agree cfg blocks n f b)
    (hsub : ∀ k, (AL.get blocks' k).isSome → (AL.get blocks k).isSome)
    (hkeep : ∀ s, Newest blocks b n s → AL.get blocks' (b, s) = AL.get blocks (b, s)) :
    Agree cfg blocks' n f b := by
  obtain ⟨s, c, hn, h4, h5⟩ := h
  refine ⟨s, c, ⟨by rw [hkeep s hn]; exact hn.1, hn.2.1, ?_⟩, by rw [hkeep s hn]; exact h4, h5⟩
  intro s' hs hle
  exact hn.2.2 s' (hsub _ hs) hle

/-! ### Write tracking -/

theorem mem_marks (bs off len b : Nat) (hbs : 0 < bs) :
    b ∈ marks bs off len ↔ off / bs ≤ b ∧ b * bs < off + len := by
  unfold marks
  dsimp only
  have hd := Nat.div_mul_le_self (off + len) bs
  have hlt : off + len < ((off + len) / bs + 1) * bs := by
    have := Nat.lt_div_mul_add (a := off + len) hbs
    rw [Nat.add_mul, Nat.one_mul]; omega
  have key : b < (if (off + len) / bs * bs < off + len then (off + len) / bs + 1 else (off + len) / bs) ↔
      b * bs < off + len := by
    split
    · rename_i h
      constructor
      · intro hb
        have : b * bs ≤ (off + len) / bs * bs := Nat.mul_le_mul_right _ (by omega)
        omega
      · intro hb
        have := Nat.lt_of_mul_lt_mul_right (Nat.lt_trans hb hlt)
        omega
    · rename_i h
      have he : (off + len) / bs * bs = off + len := by omega
      constructor
      · intro hb
        have : (b + 1) * bs ≤ (off + len) / bs * bs := Nat.mul_le_mul_right _ (by omega)
        rw [Nat.add_mul, Nat.one_mul] at this; omega
      · intro hb
        rw [← he] at hb
        exact Nat.lt_of_mul_lt_mul_right hb
  rw [List.mem_map]
  constructor
  · rintro ⟨x, hx, rfl⟩
    rw [List.mem_range] at hx
    exact ⟨by omega, key.1 (by omega)⟩
  · rintro ⟨h1, h2⟩
    have := key.2 h2
    exact ⟨b - off / bs, by rw [List.mem_range]; omega, by omega⟩

/-- A position inside the written range belongs to a marked block. -/
theorem marked_of_pos (bs off len b i : Nat) (hbs : 0 < bs) (hi : i < bs) (h1 : off ≤ b * bs + i)
    (h2 : b * bs + i < off + len) : b ∈ marks bs off len := by
  rw [mem_marks _ _ _ _ hbs]
  refine ⟨?_, by omega⟩
  have : off / bs < b + 1 := by
    rw [Nat.div_lt_iff_lt_mul hbs, Nat.add_mul, Nat.one_mul]; omega
  omega

theorem mem_track_write (bs : Nat) (dirty : List Nat) (off : Nat) (d : Bytes) (b : Nat) :
    b ∈ track bs dirty (.write off d) ↔ b ∈ dirty ∨ b ∈ marks bs off d.length := by
  simp only [track, List.mem_append, List.mem_filter, Bool.not_eq_true', List.contains_eq_mem, decide_eq_false_iff_not]
  constructor
  · rintro (h | h)
    · exact Or.inl h
    · exact Or.inr h.1
  · rintro (h | h)
    · exact Or.inl h
    · by_cases hd : b ∈ dirty
      · exact Or.inl hd
      · exact Or.inr ⟨h, hd⟩

/-- What a write leaves alone. -/
theorem write_other (cfg : Cfg) {f : Bytes} {off : Nat} {d : Bytes} {b : Nat} (hd : off ≤ f.length)
    (hb : b ∉ marks cfg.bs off d.length) {i : Nat} (hi : i < cfg.bs)
    (hlt : b * cfg.bs + i < (writeAt f off d).length) :
    b * cfg.bs + i < f.length ∧ (writeAt f off d).getD (b * cfg.bs + i) 0 = f.getD (b * cfg.bs + i) 0 := by
  have hnot : ¬ (off ≤ b * cfg.bs + i ∧ b * cfg.bs + i < off + d.length) := by
    rintro ⟨h1, h2⟩
    exact hb (marked_of_pos _ _ _ _ i cfg.pos hi h1 h2)
  rw [writeAt_length] at hlt
  refine ⟨?_, by rw [writeAt_getD, if_neg hnot]⟩
  split at hlt
  · exact hlt
  · omega

/-- The heart of incremental uploads: blocks that are not marked still agree. -/
theorem InSync.apply {cfg : Cfg} {blocks : Blocks} {n : Nat} {f : Bytes} {dirty extra : List Nat}
    (h : InSync cfg blocks n f (dirty ++ extra)) {o : FileOp} (hd : o.Dense f) :
    InSync cfg blocks n (o.apply f) (track cfg.bs dirty o ++ extra) := by
  intro b hlt hb
  have hpos := cfg.pos
  rw [List.mem_append, not_or] at hb
  cases o with
  | write off d =>
    rw [mem_track_write, not_or] at hb
    have h0 := write_other cfg hd hb.1.2 (i := 0) hpos (by simpa [FileOp.apply] using hlt)
    obtain ⟨s, c, hn, hg, hl, hag⟩ := h b (by simpa using h0.1) (by simp [hb.1.1, hb.2])
    refine ⟨s, c, hn, hg, hl, ?_⟩
    intro i hi hil
    have h1 := write_other cfg hd hb.1.2 hi hil
    rw [hag i hi h1.1]; exact h1.2.symm
  | trunc n' =>
    simp only [FileOp.apply] at hlt ⊢
    rw [truncTo_length] at hlt
    simp only [FileOp.Dense] at hd
    have hbd : b ∉ dirty := by
      intro hm
      apply hb.1
      simp only [track, List.mem_filter, decide_eq_true_eq]
      exact ⟨hm, (Nat.le_div_iff_mul_le hpos).2 (by omega)⟩
    obtain ⟨s, c, hn, hg, hl, hag⟩ := h b (by omega) (by simp [hbd, hb.2])
    refine ⟨s, c, hn, hg, hl, ?_⟩
    intro i hi hil
    rw [truncTo_length] at hil
    rw [truncTo_getD, if_pos hil]
    exact hag i hi (by omega)

theorem InSync.mono {cfg : Cfg} {blocks : Blocks} {n n' : Nat} {f : Bytes} {dirty : List Nat}
    (h : InSync cfg blocks n f dirty) (hb : Below blocks n) (hn : n ≤ n') : InSync cfg blocks n' f dirty :=
  fun b hlt hd => (h b hlt hd).mono hb hn

theorem InSync.weaken {cfg : Cfg} {blocks : Blocks} {n : Nat} {f : Bytes} {dirty dirty' : List Nat}
    (h : InSync cfg blocks n f dirty) (hs : ∀ b, b ∈ dirty → b ∈ dirty') : InSync cfg blocks n f dirty' :=
  fun b hlt hd => h b hlt (fun hm => hd (hs b hm))

/-! ### Uploads -/

/-- State of a running upload: for every job whose block has not been changed again, the bytes read so
far are those of the file, and the length of the job covers the block. -/
def JobOk (cfg : Cfg) (f : Bytes) (dirty : List Nat) (j : Job) : Prop :=
  j.got.length ≤ cfg.bs ∧ (j.blockno ∉ dirty →
    (∀ i, i < cfg.bs → j.blockno * cfg.bs + i < f.length → i < j.length) ∧
    (∀ i, i < j.got.length → j.blockno * cfg.bs + i < f.length →
      j.got.getD i 0 = f.getD (j.blockno * cfg.bs + i) 0))

theorem mkJob_ok (cfg : Cfg) (f : Bytes) (dirty : List Nat) (b : Nat) : JobOk cfg f dirty (mkJob cfg f.length b) := by
  refine ⟨by simp [mkJob], fun _ => ⟨?_, ?_⟩⟩
  · intro i hi hlt
    simp only [mkJob] at hlt ⊢
    omega
  · intro i hi; simp [mkJob] at hi

theorem JobOk.apply {cfg : Cfg} {f : Bytes} {dirty : List Nat} {j : Job} (h : JobOk cfg f dirty j)
    {o : FileOp} (hd : o.Dense f) : JobOk cfg (o.apply f) (track cfg.bs dirty o) j := by
  obtain ⟨h1, h2⟩ := h
  refine ⟨h1, ?_⟩
  have hpos := cfg.pos
  cases o with
  | write off d =>
    intro hb
    rw [mem_track_write, not_or] at hb
    obtain ⟨h3, h4⟩ := h2 hb.1
    refine ⟨?_, ?_⟩
    · intro i hi hil
      exact h3 i hi (write_other cfg hd hb.2 hi hil).1
    · intro i hi hil
      have hw := write_other cfg hd hb.2 (i := i) (by omega) hil
      rw [h4 i hi hw.1]; exact hw.2.symm
  | trunc n =>
    intro hb
    simp only [FileOp.Dense] at hd
    simp only [FileOp.apply]
    by_cases hle : j.blockno * cfg.bs ≤ n
    · have hbd : j.blockno ∉ dirty := by
        intro hm
        apply hb
        simp only [track, List.mem_filter, decide_eq_true_eq]
        exact ⟨hm, (Nat.le_div_iff_mul_le hpos).2 hle⟩
      obtain ⟨h3, h4⟩ := h2 hbd
      refine ⟨?_, ?_⟩
      · intro i hi hil
        rw [truncTo_length] at hil
        exact h3 i hi (by omega)
      · intro i hi hil
        rw [truncTo_length] at hil
        rw [truncTo_getD, if_pos hil]
        exact h4 i hi (by omega)
    · refine ⟨?_, ?_⟩
      · intro i hi hil
        rw [truncTo_length] at hil; omega
      · intro i hi hil
        rw [truncTo_length] at hil; omega

theorem readMore_got (cfg : Cfg) (f : Bytes) (n : Nat) (j : Job) :
    (readMore cfg f n j).got.length =
      j.got.length + min (min n (j.length - j.got.length)) (f.length - (j.blockno * cfg.bs + j.got.length)) := by
  simp only [readMore, List.length_append, List.length_take, List.length_drop]

theorem JobOk.read {cfg : Cfg} {f : Bytes} {dirty : List Nat} {j : Job} (h : JobOk cfg f dirty j)
    (hl : j.length ≤ cfg.bs) (n : Nat) : JobOk cfg f dirty (readMore cfg f n j) := by
  obtain ⟨h1, h2⟩ := h
  have hg := readMore_got cfg f n j
  refine ⟨?_, ?_⟩
  · rw [hg]; omega
  · intro hb
    obtain ⟨h3, h4⟩ := h2 hb
    refine ⟨h3, ?_⟩
    intro i hi hil
    rw [hg] at hi
    simp only [readMore] at hil ⊢
    rw [getD_append]
    split
    · rename_i hlt; exact h4 i hlt hil
    · rename_i hge
      rw [getD_take, if_pos (by omega), getD_drop]
      congr 1; omega

/-- Storing the object of a finished job. -/
theorem InSync.put {cfg : Cfg} {blocks : Blocks} {n : Nat} {f : Bytes} {dirty rest : List Nat} {j : Job}
    (h : InSync cfg blocks n f (dirty ++ (j.blockno :: rest))) (hj : JobOk cfg f dirty j)
    (hd : jobDone cfg f j = true) : InSync cfg (putBlock blocks n j) n f (dirty ++ rest) := by
  intro b hlt hb
  rw [List.mem_append, not_or] at hb
  by_cases he : b = j.blockno
  · subst he
    obtain ⟨h3, h4⟩ := hj.2 hb.1
    refine Agree.set_self _ hj.1 ?_
    intro i hi hil
    have hlen := h3 i hi hil
    unfold jobDone at hd
    simp only [Bool.or_eq_true, decide_eq_true_eq] at hd
    exact h4 i (by rcases hd with hd | hd <;> omega) hil
  · refine (h b hlt ?_).set_other _ _ _ (Or.inl (Ne.symm he))
    simp [hb.1, hb.2, he]

/-- A read of the whole block is complete. -/
theorem read_done (cfg : Cfg) (f : Bytes) (j : Job) (n : Nat) (hn : j.length ≤ j.got.length + n) :
    jobDone cfg f (readMore cfg f n j) = true := by
  have hg := readMore_got cfg f n j
  unfold jobDone
  simp only [Bool.or_eq_true, decide_eq_true_eq]
  rw [hg]
  simp only [readMore]
  omega

theorem mem_nBlocks (cfg : Cfg) (n b : Nat) : b < nBlocks cfg.bs n ↔ b * cfg.bs < n := by
  unfold nBlocks
  rw [Nat.lt_div_iff_mul_lt cfg.pos]
  have := cfg.pos
  constructor <;> intro h <;> omega

theorem upload_below {cfg : Cfg} {seq : Nat} {f : Bytes} : ∀ (bl : List Nat) (blocks : Blocks),
    Below blocks seq → Below (upload cfg blocks seq f bl) seq
  | [], blocks, h => h
  | b :: t, blocks, h => by
    unfold upload
    rw [List.foldl_cons]
    exact upload_below t _ (h.set _ _ _ (Nat.le_refl _))

theorem upload_sync {cfg : Cfg} {seq : Nat} {f : Bytes} : ∀ (bl : List Nat) (blocks : Blocks),
    InSync cfg blocks seq f bl → InSync cfg (upload cfg blocks seq f bl) seq f []
  | [], blocks, h => h
  | b :: t, blocks, h => by
    unfold upload
    rw [List.foldl_cons]
    refine upload_sync t _ ?_
    have hok := (mkJob_ok cfg f [] b).read (Nat.min_le_left _ _) cfg.bs
    have hdone := read_done cfg f (mkJob cfg f.length b) cfg.bs (by simp only [mkJob, List.length_nil]; omega)
    have := InSync.put (dirty := []) (rest := t) (j := readMore cfg f cfg.bs (mkJob cfg f.length b))
      (by simpa [readMore, mkJob] using h) hok hdone
    simpa using this

/-- An upload changes nothing below its sequence number. -/
theorem upload_old {cfg : Cfg} {seq : Nat} {f : Bytes} : ∀ (bl : List Nat) (blocks : Blocks) (b s : Nat),
    s < seq → AL.get (upload cfg blocks seq f bl) (b, s) = AL.get blocks (b, s)
  | [], blocks, b, s, _ => rfl
  | x :: t, blocks, b, s, h => by
    have hih := upload_old (cfg := cfg) (f := f) t (putBlock blocks seq (readMore cfg f cfg.bs (mkJob cfg f.length x))) b s h
    have he : upload cfg blocks seq f (x :: t) =
        upload cfg (putBlock blocks seq (readMore cfg f cfg.bs (mkJob cfg f.length x))) seq f t := by
      unfold upload; rw [List.foldl_cons]
    rw [he, hih]
    unfold putBlock
    rw [AL.get_set_ne]
    intro e
    have h2 := (Prod.mk.inj e).2
    omega

theorem track_all (cfg : Cfg) : ∀ (ops : List FileOp) (blocks : Blocks) (n : Nat) (f : Bytes) (dirty : List Nat),
    InSync cfg blocks n f dirty → DenseAll f ops →
    InSync cfg blocks n (applyAll f ops) (ops.foldl (track cfg.bs) dirty)
  | [], _, _, _, _, h, _ => h
  | o :: os, blocks, n, f, dirty, h, hd => by
    unfold applyAll
    rw [List.foldl_cons, List.foldl_cons]
    refine track_all cfg os blocks n (o.apply f) (track cfg.bs dirty o) ?_ hd.2
    have := InSync.apply (extra := []) (by simpa using h) hd.1
    simpa using this

end Verif.Meta
