import Verif.FileData.Spec
/-! Helper lemmas for C01. -/
namespace Verif.FileData

/-- Byte `i` of a list, 0 beyond its end. -/
def at0 (l : List Byte) (i : Nat) : Byte := (l[i]?).getD 0

theorem at0_zeros (n i : Nat) : at0 (zeros n) i = 0 := by
  unfold at0 zeros; rw [List.getElem?_replicate]; split <;> rfl

theorem at0_append (a b : List Byte) (i : Nat) :
    at0 (a ++ b) i = if i < a.length then at0 a i else at0 b (i - a.length) := by
  unfold at0; rw [List.getElem?_append]; split <;> rfl

theorem at0_take (a : List Byte) (n i : Nat) : at0 (a.take n) i = if i < n then at0 a i else 0 := by
  unfold at0; rw [List.getElem?_take]; split <;> rfl

theorem at0_drop (a : List Byte) (n i : Nat) : at0 (a.drop n) i = at0 a (n + i) := by
  unfold at0; rw [List.getElem?_drop]

theorem at0_ge (a : List Byte) (i : Nat) (h : a.length ≤ i) : at0 a i = 0 := by
  unfold at0; rw [List.getElem?_eq_none h]; rfl

theorem ext_at0 (a b : List Byte) (hl : a.length = b.length) (h : ∀ i, i < a.length → at0 a i = at0 b i) :
    a = b := by
  apply List.ext_getElem hl
  intro i h1 h2
  have := h i h1
  unfold at0 at this
  rw [List.getElem?_eq_getElem h1, List.getElem?_eq_getElem h2] at this
  simpa using this

theorem zeros_length (n : Nat) : (zeros n).length = n := List.length_replicate

theorem write_length (f : File) (buf : List Byte) (hb : buf ≠ []) :
    (f.write buf).content.length = max f.content.length (f.pos + buf.length) := by
  unfold File.write; rw [if_neg hb]
  simp only [List.length_append, List.length_take, zeros_length, List.length_drop]
  omega

theorem write_at0 (f : File) (buf : List Byte) (i : Nat) :
    at0 (f.write buf).content i =
      if f.pos ≤ i ∧ i < f.pos + buf.length then at0 buf (i - f.pos) else at0 f.content i := by
  unfold File.write
  split
  · subst_vars; rw [if_neg (by simp)]
  · simp only [at0_append, at0_take, at0_drop, at0_zeros, List.length_append, List.length_take,
      zeros_length]
    repeat' split
    all_goals first
      | omega
      | rfl
      | (congr 1 <;> omega)
      | omega
      | (rw [at0_ge _ _ (by omega)])

theorem truncate_length (f : File) (n : Nat) : (f.truncate n).content.length = n := by
  unfold File.truncate
  simp only [List.length_append, List.length_take, zeros_length]; omega

theorem truncate_at0 (f : File) (n i : Nat) :
    at0 (f.truncate n).content i = if i < n then at0 f.content i else 0 := by
  unfold File.truncate
  simp only [at0_append, at0_take, at0_zeros, List.length_take]
  repeat' split
  all_goals first
    | omega
    | rfl
    | omega
    | (rw [at0_ge _ _ (by omega)])

/-- Contents of a block (empty if it does not exist). -/
def FileSt.blk (s : FileSt) (b : Nat) : List Byte := (s.get b).fh.content

/-- Byte `i` of the file as stored in the blocks. -/
def FileSt.byteAt (s : FileSt) (i : Nat) : Byte := at0 (s.blk (i / s.bs)) (i % s.bs)

/-- What holds of every entry: cached position and size are exact, blocks do not exceed the block
size and do not store anything at or beyond offset `m`. -/
def InvM (s : FileSt) (m : Nat) : Prop :=
  0 < s.bs ∧ ∀ b, (s.get b).pos = (s.get b).fh.pos ∧ (s.get b).size = (s.blk b).length
    ∧ (s.blk b).length ≤ s.bs ∧ (s.blk b = [] ∨ b * s.bs + (s.blk b).length ≤ m)

def Inv (s : FileSt) : Prop := InvM s s.size

theorem get_put (s : FileSt) (b b' : Nat) (e : CacheEntry) :
    (s.put b e).get b' = if b' = b then e else s.get b' := by
  unfold FileSt.get FileSt.put; dsimp only; split <;> rfl

theorem blk_put (s : FileSt) (b b' : Nat) (e : CacheEntry) :
    (s.put b e).blk b' = if b' = b then e.fh.content else s.blk b' := by
  unfold FileSt.blk; rw [get_put]; split <;> rfl

theorem seek_ok (e : CacheEntry) (o : Nat) (h : e.pos = e.fh.pos) :
    (e.seek o).fh = ⟨e.fh.content, o⟩ ∧ (e.seek o).pos = o ∧ (e.seek o).size = e.size := by
  unfold CacheEntry.seek File.seek
  split
  · exact ⟨rfl, rfl, rfl⟩
  · rename_i hh
    have hh : e.pos = o := by simpa using hh
    refine ⟨?_, hh, rfl⟩
    cases e with | mk d sz p fh => cases fh; simp_all

theorem offrel (o bs : Nat) : o - o / bs * bs = o % bs := by
  have := Nat.div_add_mod o bs
  rw [Nat.mul_comm] at this
  omega

/-- Block/offset coordinates. -/
theorem coord (o bs i : Nat) (hb : i / bs = o / bs) : o % bs + i = o + i % bs := by
  have h1 := Nat.div_add_mod o bs
  have h2 := Nat.div_add_mod i bs
  rw [hb] at h2
  omega

theorem div_eq_of_range (o bs i n : Nat) (h : 0 < bs) (h1 : o ≤ i) (h2 : i < o + n)
    (h3 : o % bs + n ≤ bs) : i / bs = o / bs := by
  have hd := Nat.div_add_mod o bs
  rw [Nat.div_eq_iff h]
  rw [Nat.mul_comm] at hd
  omega

theorem clipLen_pos (bs r n : Nat) (hr : r < bs) (hn : 0 < n) : 0 < clipLen bs r n := by
  unfold clipLen; split <;> omega

theorem clipLen_le (bs r n : Nat) : clipLen bs r n ≤ n := by
  unfold clipLen; split <;> omega

theorem clipLen_fit (bs r n : Nat) (hr : r < bs) : r + clipLen bs r n ≤ bs := by
  unfold clipLen; split <;> omega

theorem readwriteW_ok (s : FileSt) (o : Nat) (buf : List Byte) (m : Nat) (hi : InvM s m)
    (hb : buf ≠ []) (hm : o + buf.length ≤ m) :
    let r := readwriteW s o buf
    0 < r.2 ∧ r.2 ≤ buf.length ∧ r.1.bs = s.bs ∧ r.1.size = s.size ∧ InvM r.1 m ∧
    ∀ i, r.1.byteAt i = if o ≤ i ∧ i < o + r.2 then at0 buf (i - o) else s.byteAt i := by
  intro r
  have hbs := hi.1
  have hlen : 0 < buf.length := List.length_pos_iff.2 hb
  have hr : o % s.bs < s.bs := Nat.mod_lt _ hbs
  have e2 : r.2 = clipLen s.bs (o % s.bs) buf.length := by
    show clipLen s.bs (o - o / s.bs * s.bs) buf.length = _
    rw [offrel]
  have p0 := clipLen_pos s.bs _ _ hr hlen
  have p1 := clipLen_le s.bs (o % s.bs) buf.length
  have p2 := clipLen_fit s.bs (o % s.bs) buf.length hr
  rw [← e2] at p0 p1 p2
  have e1 : r.1 = s.put (o / s.bs) (((s.get (o / s.bs)).seek (o % s.bs)).write (buf.take r.2)) := by
    rw [e2]
    show s.put (o / s.bs) (((s.get (o / s.bs)).seek (o - o / s.bs * s.bs)).write
      (buf.take (clipLen s.bs (o - o / s.bs * s.bs) buf.length))) = _
    rw [offrel]
  generalize r.2 = n at *
  generalize r.1 = s' at *
  obtain ⟨hp, hsz, hle, hend⟩ := hi.2 (o / s.bs)
  obtain ⟨q1, q2, q3⟩ := seek_ok (s.get (o / s.bs)) (o % s.bs) hp
  have htn : buf.take n ≠ [] := by
    intro hc; have := congrArg List.length hc; rw [List.length_take, List.length_nil] at this; omega
  have htl : (buf.take n).length = n := by rw [List.length_take]; omega
  have hbs' : s'.bs = s.bs := by rw [e1]; rfl
  have hcontent : ∀ b, s'.blk b = if b = o / s.bs then
      (File.write ⟨s.blk (o / s.bs), o % s.bs⟩ (buf.take n)).content else s.blk b := by
    intro b
    rw [e1, blk_put]; split
    · simp only [CacheEntry.write, q1]; rfl
    · rfl
  refine ⟨p0, p1, hbs', by rw [e1]; rfl, ⟨by rw [hbs']; exact hbs, ?_⟩, ?_⟩
  · intro b
    rw [hcontent, hbs']
    by_cases hbb : b = o / s.bs
    · rw [if_pos hbb, write_length _ _ htn]
      dsimp only
      rw [htl]
      have hge : s'.get b = ((s.get (o / s.bs)).seek (o % s.bs)).write (buf.take n) := by
        rw [e1, get_put, if_pos hbb]
      rw [hge]
      simp only [CacheEntry.write, q1, q2, q3, htl, hsz]
      have hd := Nat.div_add_mod o s.bs
      have hszl : (s.blk (o / s.bs)).length ≤ s.bs := hle
      refine ⟨?_, by omega, by omega, Or.inr ?_⟩
      · unfold File.write; rw [if_neg htn]; simp only [htl]
      · rw [hbb, Nat.mul_comm]
        rcases hend with h0 | h0
        · rw [h0]; simp only [List.length_nil]; omega
        · rw [Nat.mul_comm] at h0; omega
    · rw [if_neg hbb]
      have hge : s'.get b = s.get b := by rw [e1, get_put, if_neg hbb]
      rw [hge]
      exact hi.2 b
  · intro i
    unfold FileSt.byteAt
    rw [hbs', hcontent]
    by_cases hbb : i / s.bs = o / s.bs
    · rw [if_pos hbb, write_at0]
      dsimp only
      rw [htl, at0_take]
      have hc := coord o s.bs i hbb
      repeat' split
      all_goals first
        | omega
        | (congr 1 <;> omega)
        | omega
        | rw [hbb]
    · rw [if_neg hbb, if_neg]
      intro ⟨h1, h2⟩
      exact hbb (div_eq_of_range o s.bs i n hbs h1 h2 p2)

theorem writeLoop_ok (s : FileSt) (o : Nat) (buf : List Byte) (m : Nat) (hi : InvM s m)
    (hm : o + buf.length ≤ m) :
    (writeLoop s o buf).bs = s.bs ∧ (writeLoop s o buf).size = s.size ∧
    InvM (writeLoop s o buf) m ∧
    ∀ i, (writeLoop s o buf).byteAt i =
      if o ≤ i ∧ i < o + buf.length then at0 buf (i - o) else s.byteAt i := by
  fun_induction writeLoop s o buf with
  | case1 s o =>
    exact ⟨rfl, rfl, hi, fun i => by rw [if_neg]; simp⟩
  | case2 s o buf hb r h ih =>
    obtain ⟨h0, h1, h2, h3, h4, h5⟩ := readwriteW_ok s o buf m hi hb hm
    change 0 < r.2 at h0
    change r.2 ≤ buf.length at h1
    have hl : (buf.drop r.2).length = buf.length - r.2 := List.length_drop
    obtain ⟨g1, g2, g3, g4⟩ := ih h4 (by omega)
    refine ⟨g1.trans h2, g2.trans h3, g3, fun i => ?_⟩
    rw [g4, h5, hl, at0_drop]
    change (if _ then _ else if o ≤ i ∧ i < o + r.2 then _ else _) = _
    repeat' split
    all_goals first
      | omega
      | rfl
      | omega
      | (congr 1 <;> omega)
  | case3 s o buf hb r h =>
    obtain ⟨h0, h1, _⟩ := readwriteW_ok s o buf m hi hb hm
    exact absurd ⟨h0, h1⟩ h

theorem readwriteR_ok (s : FileSt) (o n : Nat) (m : Nat) (hi : InvM s m) (hn : 0 < n) :
    let r := readwriteR s o n
    0 < r.2.length ∧ r.2.length ≤ n ∧ r.1.bs = s.bs ∧ r.1.size = s.size ∧ InvM r.1 m ∧
    (∀ i, r.1.byteAt i = s.byteAt i) ∧ ∀ k, k < r.2.length → at0 r.2 k = s.byteAt (o + k) := by
  intro r
  have hbs := hi.1
  have hr : o % s.bs < s.bs := Nat.mod_lt _ hbs
  obtain ⟨c, hc⟩ : ∃ c, c = clipLen s.bs (o % s.bs) n := ⟨_, rfl⟩
  have p0 := clipLen_pos s.bs _ _ hr hn
  have p1 := clipLen_le s.bs (o % s.bs) n
  have p2 := clipLen_fit s.bs (o % s.bs) n hr
  rw [← hc] at p0 p1 p2
  obtain ⟨hp, hsz, hle, hend⟩ := hi.2 (o / s.bs)
  obtain ⟨q1, q2, q3⟩ := seek_ok (s.get (o / s.bs)) (o % s.bs) hp
  obtain ⟨e, he⟩ : ∃ e, e = ((s.get (o / s.bs)).seek (o % s.bs)).read c := ⟨_, rfl⟩
  have hr1 : r.1 = s.put (o / s.bs) e.1 := by
    rw [he, hc]
    show s.put (o / s.bs) (((s.get (o / s.bs)).seek (o - o / s.bs * s.bs)).read
      (clipLen s.bs (o - o / s.bs * s.bs) n)).1 = _
    rw [offrel]
  have hr2 : r.2 = if e.2.length = c then e.2 else e.2 ++ zeros (c - e.2.length) := by
    rw [he, hc, ← offrel o s.bs]; rfl
  have he2 : e.2 = ((s.blk (o / s.bs)).drop (o % s.bs)).take c := by
    rw [he]; simp only [CacheEntry.read, File.read, q1]; rfl
  have hel : e.2.length ≤ c := by rw [he2, List.length_take]; omega
  have hr2' : r.2 = e.2 ++ zeros (c - e.2.length) := by
    rw [hr2]; split
    · rename_i h; rw [h, Nat.sub_self]; exact (List.append_nil _).symm
    · rfl
  have hrl : r.2.length = c := by rw [hr2', List.length_append, zeros_length]; omega
  have hcontent : e.1.fh.content = s.blk (o / s.bs) := by
    rw [he]; simp only [CacheEntry.read, File.read, q1]; rfl
  have hblk : ∀ b, r.1.blk b = s.blk b := by
    intro b; rw [hr1, blk_put]; split
    · rename_i h; rw [h, hcontent]
    · rfl
  have hbs' : r.1.bs = s.bs := by rw [hr1]; rfl
  refine ⟨by omega, by omega, hbs', by rw [hr1]; rfl, ⟨by rw [hbs']; exact hbs, ?_⟩, ?_, ?_⟩
  · intro b
    rw [hblk, hbs']
    by_cases hbb : b = o / s.bs
    · have hge : r.1.get b = e.1 := by rw [hr1, get_put, if_pos hbb]
      rw [hge, he, hbb]
      simp only [CacheEntry.read, File.read, q1, q2, q3]
      exact ⟨trivial, hsz, hle, hend⟩
    · have hge : r.1.get b = s.get b := by rw [hr1, get_put, if_neg hbb]
      rw [hge]
      exact hi.2 b
  · intro i; unfold FileSt.byteAt; rw [hblk, hbs']
  · intro k hk
    rw [hr2', at0_append, at0_zeros]
    have hdiv : (o + k) / s.bs = o / s.bs := div_eq_of_range o s.bs (o + k) c hbs (by omega) (by omega) p2
    have hcd := coord o s.bs (o + k) hdiv
    have hmod : (o + k) % s.bs = o % s.bs + k := by omega
    unfold FileSt.byteAt
    rw [hdiv, hmod]
    split
    · rw [he2, at0_take, if_pos (by omega), at0_drop]
    · rename_i hlt
      have : e.2.length = min c ((s.blk (o / s.bs)).length - o % s.bs) := by
        rw [he2, List.length_take, List.length_drop]
      rw [at0_ge _ _ (by omega)]

theorem readLoop_ok (s : FileSt) (o n : Nat) (acc : List Byte) (m : Nat) (hi : InvM s m) :
    let r := readLoop s o n acc
    r.1.bs = s.bs ∧ r.1.size = s.size ∧ InvM r.1 m ∧ (∀ i, r.1.byteAt i = s.byteAt i) ∧
    ∃ t, r.2 = acc ++ t ∧ t.length = n ∧ ∀ k, k < n → at0 t k = s.byteAt (o + k) := by
  intro r
  fun_induction readLoop s o n acc with
  | case1 s o acc =>
    exact ⟨rfl, rfl, hi, fun _ => rfl, [], (List.append_nil _).symm, rfl, fun k hk => by omega⟩
  | case2 s o n acc hn q h ih =>
    obtain ⟨h0, h1, h2, h3, h4, h5, h6⟩ := readwriteR_ok s o n m hi (by omega)
    change ∀ i, q.1.byteAt i = s.byteAt i at h5
    change ∀ k, k < q.2.length → at0 q.2 k = s.byteAt (o + k) at h6
    obtain ⟨g1, g2, g3, g4, t, g5, g6, g7⟩ := ih h4
    refine ⟨g1.trans h2, g2.trans h3, g3, fun i => (g4 i).trans (h5 i), q.2 ++ t, ?_, ?_, ?_⟩
    · rw [← List.append_assoc]; exact g5
    · rw [List.length_append, g6]; omega
    · intro k hk
      rw [at0_append]; split
      · exact h6 k (by assumption)
      · rw [g7 _ (by omega), h5]; congr 1; omega
  | case3 s o n acc hn q h =>
    obtain ⟨h0, h1, _⟩ := readwriteR_ok s o n m hi (by omega)
    exact absurd ⟨h0, h1⟩ h

/-- The file as one array. -/
def FileSt.content (s : FileSt) : List Byte := (List.range s.size).map s.byteAt

theorem content_length (s : FileSt) : s.content.length = s.size := by
  unfold FileSt.content; simp

theorem content_at0 (s : FileSt) (i : Nat) : at0 s.content i = if i < s.size then s.byteAt i else 0 := by
  unfold FileSt.content at0
  rw [List.getElem?_map]
  by_cases h : i < s.size
  · rw [List.getElem?_range h, if_pos h]; rfl
  · rw [List.getElem?_eq_none (by simp; omega), if_neg h]; rfl

theorem byteAt_beyond (s : FileSt) (m i : Nat) (hi : InvM s m) (h : m ≤ i) : s.byteAt i = 0 := by
  unfold FileSt.byteAt
  apply at0_ge
  obtain ⟨_, _, hle, hend⟩ := hi.2 (i / s.bs)
  rcases hend with h0 | h0
  · rw [h0]; exact Nat.zero_le _
  · have := Nat.div_add_mod i s.bs
    rw [Nat.mul_comm] at this
    omega

theorem InvM.mono {s : FileSt} {m m' : Nat} (h : InvM s m) (hm : m ≤ m') : InvM s m' := by
  refine ⟨h.1, fun b => ?_⟩
  obtain ⟨a, c, d, e⟩ := h.2 b
  exact ⟨a, c, d, e.imp id (fun h => Nat.le_trans h hm)⟩

theorem read_ok (s : FileSt) (o n : Nat) (hi : Inv s) :
    Inv (read s o n).1 ∧ (read s o n).1.content = s.content ∧
    (read s o n).2 = (s.content.drop o).take n := by
  obtain ⟨g1, g2, g3, g4, t, g5, g6, g7⟩ := readLoop_ok s o (min (s.size - o) n) [] s.size hi
  refine ⟨?_, ?_, ?_⟩
  · unfold Inv read; rw [g2]; exact g3
  · unfold FileSt.content read; rw [g2, funext g4]
  · unfold read; rw [g5, List.nil_append]
    apply ext_at0
    · rw [g6, List.length_take, List.length_drop, content_length]; omega
    · intro i hlt
      rw [g7 i (by omega), at0_take, if_pos (by omega), at0_drop, content_at0, if_pos (by omega)]

theorem write_ok (s : FileSt) (o : Nat) (buf : List Byte) (hi : Inv s) :
    Inv (write s o buf).1 ∧ (write s o buf).1.content = Spec.store s.content o buf ∧
    (write s o buf).2 = buf.length := by
  obtain ⟨g1, g2, g3, g4⟩ :=
    writeLoop_ok s o buf (max s.size (o + buf.length)) (hi.mono (by omega)) (by omega)
  have hsz : (write s o buf).1.size = max s.size (o + buf.length) := by
    unfold write; dsimp only; rw [g2]
  refine ⟨?_, ?_, rfl⟩
  · unfold Inv; rw [hsz]; exact g3
  · apply ext_at0
    · unfold Spec.store Spec.resize
      rw [content_length, hsz]
      simp only [List.length_append, List.length_take, List.length_drop, List.length_replicate,
        content_length]
      omega
    · intro i hlt
      rw [content_length, hsz] at hlt
      rw [content_at0, hsz, if_pos hlt]
      have : (write s o buf).1.byteAt i = (writeLoop s o buf).byteAt i := rfl
      rw [this, g4]
      unfold Spec.store Spec.resize
      have hz : ∀ n i, at0 (List.replicate n 0) i = 0 := at0_zeros
      simp only [at0_append, at0_take, at0_drop, List.length_append, List.length_take,
        List.length_replicate, content_length, content_at0, hz]
      repeat' split
      all_goals first
        | omega
        | rfl
        | omega
        | (congr 1 <;> omega)
        | exact byteAt_beyond s s.size i hi (by omega)
        | (have e : o + buf.length + (i - (min o (max s.size (o + buf.length)) + buf.length)) = i := by omega
           rw [e]; done)
        | (have e : o + buf.length + (i - (min o (min (max s.size (o + buf.length)) s.size
              + (max s.size (o + buf.length) - s.size)) + buf.length)) = i := by omega
           rw [e]; done)

theorem ceilDiv_le (a b k : Nat) (hb : 0 < b) (h : ceilDiv a b ≤ k) : a ≤ k * b := by
  unfold ceilDiv at h
  have := (Nat.div_lt_iff_lt_mul hb).1 (Nat.lt_succ_of_le h)
  rw [Nat.succ_mul] at this
  omega

theorem truncate_ok (s : FileSt) (n : Nat) (hi : Inv s) :
    Inv (truncate s n) ∧ (truncate s n).content = Spec.resize s.content n ∧
    (truncate s n).size = n := by
  have hbs := hi.1
  have hdm := Nat.div_add_mod n s.bs
  rw [Nat.mul_comm] at hdm
  -- one description of the resulting blocks
  have hsize : (truncate s n).size = n := by unfold truncate; dsimp only; split <;> rfl
  have hbs' : (truncate s n).bs = s.bs := by unfold truncate; dsimp only; split <;> rfl
  have key : ∀ b,
      ((truncate s n).get b).pos = ((truncate s n).get b).fh.pos ∧
      ((truncate s n).get b).size = ((truncate s n).blk b).length ∧
      ((truncate s n).blk b).length ≤ s.bs ∧
      ((truncate s n).blk b = [] ∨ b * s.bs + ((truncate s n).blk b).length ≤ n) ∧
      ∀ j, b * s.bs + j < n → j < s.bs → at0 ((truncate s n).blk b) j = at0 (s.blk b) j := by
    intro b
    obtain ⟨hp, hsz, hle, hend⟩ := hi.2 b
    have hend' : ceilDiv s.size s.bs ≤ b → s.blk b = [] := by
      intro h
      have := ceilDiv_le _ _ _ hbs h
      rcases hend with h0 | h0
      · exact h0
      · exact List.eq_nil_of_length_eq_zero (by omega)
    by_cases hc : n % s.bs = 0
    · have hget : (truncate s n).get b =
          if n / s.bs ≤ b ∧ b < ceilDiv s.size s.bs then CacheEntry.new else s.get b := by
        unfold truncate; dsimp only; rw [if_pos hc]
        unfold FileSt.get FileSt.remove; dsimp only; split <;> rfl
      unfold FileSt.blk
      rw [hget]
      by_cases hb : n / s.bs ≤ b
      · have hge : n ≤ b * s.bs := by
          have := Nat.mul_le_mul_right s.bs hb
          omega
        split
        · refine ⟨rfl, rfl, Nat.zero_le _, Or.inl rfl, fun j hj => by omega⟩
        · rename_i h
          refine ⟨hp, hsz, hle, Or.inl (hend' (by omega)), fun j hj => by omega⟩
      · rw [if_neg (by omega)]
        refine ⟨hp, hsz, hle, Or.inr ?_, fun j _ _ => rfl⟩
        have : (b + 1) * s.bs ≤ n / s.bs * s.bs := Nat.mul_le_mul_right _ (by omega)
        rw [Nat.succ_mul] at this
        unfold FileSt.blk at hle
        omega
    · have hget : (truncate s n).get b =
          if b = n / s.bs then (s.get b).truncate (n % s.bs)
          else if n / s.bs + 1 ≤ b ∧ b < ceilDiv s.size s.bs then CacheEntry.new else s.get b := by
        unfold truncate; dsimp only; rw [if_neg hc, get_put]
        unfold FileSt.get FileSt.remove; dsimp only
        split
        · rename_i h; subst h
          rw [if_neg (by omega)]
        · split <;> rfl
      unfold FileSt.blk
      rw [hget]
      have hlt := Nat.mod_lt n hbs
      by_cases hb : b = n / s.bs
      · rw [if_pos hb]
        have hl := truncate_length (s.get b).fh (n % s.bs)
        have hbb : b * s.bs = n / s.bs * s.bs := by rw [hb]
        refine ⟨hp, ?_, ?_, Or.inr ?_, ?_⟩
        · unfold CacheEntry.truncate; dsimp only; rw [hl]
        · unfold CacheEntry.truncate; dsimp only; rw [hl]; omega
        · unfold CacheEntry.truncate; dsimp only; rw [hl]; omega
        · intro j hj _
          unfold CacheEntry.truncate; dsimp only; rw [truncate_at0, if_pos (by omega)]
      · rw [if_neg hb]
        by_cases hb2 : n / s.bs + 1 ≤ b
        · have hge : n ≤ b * s.bs := by
            have := Nat.mul_le_mul_right s.bs hb2
            rw [Nat.succ_mul] at this
            omega
          split
          · refine ⟨rfl, rfl, Nat.zero_le _, Or.inl rfl, fun j hj => by omega⟩
          · rename_i h
            refine ⟨hp, hsz, hle, Or.inl (hend' (by omega)), fun j hj => by omega⟩
        · rw [if_neg (by omega)]
          refine ⟨hp, hsz, hle, Or.inr ?_, fun j _ _ => rfl⟩
          have : (b + 1) * s.bs ≤ n / s.bs * s.bs := Nat.mul_le_mul_right _ (by omega)
          rw [Nat.succ_mul] at this
          unfold FileSt.blk at hle
          omega
  refine ⟨⟨by rw [hbs']; exact hbs, fun b => ?_⟩, ?_, hsize⟩
  · obtain ⟨a1, a2, a3, a4, _⟩ := key b
    rw [hbs', hsize]; exact ⟨a1, a2, a3, a4⟩
  · apply ext_at0
    · unfold Spec.resize
      rw [content_length, hsize]
      simp only [List.length_append, List.length_take, List.length_replicate, content_length]
      omega
    · intro i hlt
      rw [content_length, hsize] at hlt
      rw [content_at0, hsize, if_pos hlt]
      have hb : (truncate s n).byteAt i = s.byteAt i := by
        unfold FileSt.byteAt
        rw [hbs']
        have := Nat.div_add_mod i s.bs
        rw [Nat.mul_comm] at this
        exact (key (i / s.bs)).2.2.2.2 _ (by omega) (Nat.mod_lt _ hbs)
      rw [hb]
      have hz : ∀ n i, at0 (List.replicate n 0) i = 0 := at0_zeros
      unfold Spec.resize
      simp only [at0_append, at0_take, List.length_take, content_length, content_at0, hz]
      repeat' split
      all_goals first
        | omega
        | rfl
        | omega
        | exact byteAt_beyond s s.size i hi (by omega)

theorem inv_new (bs : Nat) (h : 0 < bs) : Inv (newFile bs) :=
  ⟨h, fun _ => ⟨rfl, rfl, Nat.zero_le _, Or.inl rfl⟩⟩

theorem step_ok (s : FileSt) (op : Op) (hi : Inv s) :
    Inv (step s op).1 ∧ (step s op).1.content = (Spec.step s.content op).1 ∧
    (step s op).2 = (Spec.step s.content op).2 := by
  cases op with
  | read o n =>
    obtain ⟨a, b, c⟩ := read_ok s o n hi
    exact ⟨a, b, congrArg Out.data c⟩
  | write o d =>
    obtain ⟨a, b, c⟩ := write_ok s o d hi
    exact ⟨a, b, congrArg Out.written c⟩
  | truncate n =>
    obtain ⟨a, b, c⟩ := truncate_ok s n hi
    exact ⟨a, b, congrArg Out.size c⟩

theorem run_ok (ops : List Op) (s : FileSt) (hi : Inv s) :
    Inv (run s ops).1 ∧ (run s ops).1.content = (Spec.run s.content ops).1 ∧
    (run s ops).2 = (Spec.run s.content ops).2 := by
  induction ops generalizing s with
  | nil => exact ⟨hi, rfl, rfl⟩
  | cons op ops ih =>
    obtain ⟨a, b, c⟩ := step_ok s op hi
    obtain ⟨a', b', c'⟩ := ih _ a
    refine ⟨a', ?_, ?_⟩
    · show (run (step s op).1 ops).1.content = (Spec.run (Spec.step s.content op).1 ops).1
      rw [b', b]
    · show (step s op).2 :: (run (step s op).1 ops).2 =
        (Spec.step s.content op).2 :: (Spec.run (Spec.step s.content op).1 ops).2
      rw [c, c', b]

end Verif.FileData
