import Verif.Comprenc.Spec
/-
Helper lemmas for C26-C28.
-/
namespace Verif.Comprenc
open Verif.Codec.Checksum (le32 input Val encItem encVal leBytes)

/-! ### Key stream -/

theorem xorAt_length (ks : Nat → UInt8) (off : Nat) (b : Bytes) : (xorAt ks off b).length = b.length := by
  induction b generalizing off with
  | nil => rfl
  | cons x t ih => simp only [xorAt, List.length_cons, ih]

theorem xorAt_append (ks : Nat → UInt8) (off : Nat) (a b : Bytes) :
    xorAt ks off (a ++ b) = xorAt ks off a ++ xorAt ks (off + a.length) b := by
  induction a generalizing off with
  | nil => rfl
  | cons x t ih =>
    simp only [List.cons_append, xorAt, ih, List.length_cons]
    rw [show off + 1 + t.length = off + (t.length + 1) by omega]

theorem xorAt_xorAt (ks : Nat → UInt8) (off : Nat) (b : Bytes) : xorAt ks off (xorAt ks off b) = b := by
  induction b generalizing off with
  | nil => rfl
  | cons x t ih =>
    simp only [xorAt, ih, UInt8.xor_assoc, UInt8.xor_self, UInt8.xor_zero]

theorem xorAt_eq_nil (ks : Nat → UInt8) (off : Nat) (b : Bytes) (h : xorAt ks off b = []) : b = [] := by
  cases b with
  | nil => rfl
  | cons _ _ => cases h

theorem xorAt_inj (ks : Nat → UInt8) (off : Nat) (a b : Bytes) (h : xorAt ks off a = xorAt ks off b) : a = b := by
  rw [← xorAt_xorAt ks off a, h, xorAt_xorAt]

/-! ### Lengths -/

theorem le32_length (n : Nat) : (le32 n).length = 4 := rfl

theorem unle32_le32 (n : Nat) (h : n < 2 ^ 32) : unle32 (le32 n) = n := by
  unfold le32 unle32
  simp only [UInt8.toNat_ofNat']
  omega

theorem le32_unle32 (b : Bytes) (h : b.length = 4) : le32 (unle32 b) = b := by
  match b, h with
  | [a, b, c, d], _ =>
    show le32 (a.toNat + 256 * b.toNat + 65536 * c.toNat + 16777216 * d.toNat) = _
    unfold le32
    have ha := UInt8.toNat_lt a
    have hb := UInt8.toNat_lt b
    have hc := UInt8.toNat_lt c
    have hd := UInt8.toNat_lt d
    have e : ∀ (x : UInt8) (n : Nat), n = x.toNat → UInt8.ofNat n = x := by
      intro x n h; rw [h]; exact UInt8.ofNat_toNat
    refine List.cons_eq_cons.2 ⟨e _ _ (by omega), List.cons_eq_cons.2 ⟨e _ _ (by omega),
      List.cons_eq_cons.2 ⟨e _ _ (by omega), List.cons_eq_cons.2 ⟨e _ _ (by omega), rfl⟩⟩⟩⟩

theorem unle32_lt (b : Bytes) : unle32 b < 2 ^ 32 := by
  unfold unle32
  split
  · rename_i a b c d
    have ha := UInt8.toNat_lt a
    have hb := UInt8.toNat_lt b
    have hc := UInt8.toNat_lt c
    have hd := UInt8.toNat_lt d
    omega
  · omega

/-! ### Packets -/

/-- Packets preceded by their lengths. -/
def packed (ps : List Bytes) : Bytes := (ps.map (fun p => le32 p.length ++ p)).flatten

theorem packed_nil : packed [] = [] := rfl

theorem packed_cons (p : Bytes) (ps : List Bytes) : packed (p :: ps) = le32 p.length ++ p ++ packed ps := by
  simp [packed]

theorem frame_eq (ps : List Bytes) : frame ps = packed ps ++ le32 0 := rfl

/-- A packet that can be written: not empty, and the length fits into the header. -/
def PacketOk (p : Bytes) : Prop := p ≠ [] ∧ p.length < 2 ^ 32

theorem frame_cons (p : Bytes) (ps : List Bytes) : frame (p :: ps) = le32 p.length ++ p ++ frame ps := by
  simp [frame_eq, packed_cons]

theorem frame_inj (ps qs : List Bytes) (hp : ∀ p ∈ ps, PacketOk p) (hq : ∀ q ∈ qs, PacketOk q)
    (x y : Bytes) (h : frame ps ++ x = frame qs ++ y) : ps = qs ∧ x = y := by
  induction ps generalizing qs with
  | nil =>
    cases qs with
    | nil => exact ⟨rfl, (List.append_inj h rfl).2⟩
    | cons q qs =>
      exfalso
      rw [frame_cons, frame_eq, packed_nil, List.nil_append, List.append_assoc, List.append_assoc] at h
      have h1 := (List.append_inj h rfl).1
      have h2 := hq q List.mem_cons_self
      have := Verif.Codec.Checksum.le32_inj _ _ (by omega) h2.2 h1
      exact h2.1 (List.length_eq_zero_iff.1 this.symm)
  | cons p ps ih =>
    cases qs with
    | nil =>
      exfalso
      rw [frame_cons, frame_eq [], packed_nil, List.nil_append, List.append_assoc, List.append_assoc] at h
      have h1 := (List.append_inj h rfl).1
      have h2 := hp p List.mem_cons_self
      have := Verif.Codec.Checksum.le32_inj _ _ h2.2 (by omega) h1
      exact h2.1 (List.length_eq_zero_iff.1 this)
    | cons q qs =>
      rw [frame_cons, frame_cons, List.append_assoc, List.append_assoc, List.append_assoc,
        List.append_assoc] at h
      obtain ⟨h1, h2⟩ := List.append_inj h rfl
      have h3 := Verif.Codec.Checksum.le32_inj _ _ (hp p List.mem_cons_self).2 (hq q List.mem_cons_self).2 h1
      obtain ⟨h4, h5⟩ := List.append_inj h2 h3
      obtain ⟨h6, h7⟩ := ih qs (fun p hp' => hp p (List.mem_cons_of_mem _ hp'))
        (fun q hq' => hq q (List.mem_cons_of_mem _ hq')) h5
      exact ⟨by rw [h4, h6], h7⟩

/-! ### Reading in pieces -/

/-- One read of a file that has something left returns something. -/
theorem rd_piece (short : Nat → Nat) (i len : Nat) (ifh : Bytes) (hl : 0 < len)
    (hb : ifh.take (rd short i (min bufsize len)) = []) : ifh = [] := by
  cases ifh with
  | nil => rfl
  | cons a t =>
    exfalso
    have : 0 < rd short i (min bufsize len) := by unfold rd bufsize; omega
    obtain ⟨n, hn⟩ : ∃ n, rd short i (min bufsize len) = n + 1 := ⟨_, (Nat.sub_add_cancel this).symm⟩
    rw [hn, List.take_succ_cons] at hb
    cases hb

theorem piece_length (short : Nat → Nat) (i len : Nat) (ifh : Bytes) :
    (ifh.take (rd short i (min bufsize len))).length ≤ bufsize ∧
    (ifh.take (rd short i (min bufsize len))).length ≤ len := by
  rw [List.length_take]
  unfold rd
  omega

theorem take_piece (short : Nat → Nat) (i len : Nat) (ifh buf : Bytes)
    (hb : buf = ifh.take (rd short i (min bufsize len))) :
    ifh.take len = buf ++ (ifh.drop buf.length).take (len - buf.length) := by
  have hl := (piece_length short i len ifh).2
  rw [← hb] at hl
  have e : buf = ifh.take buf.length := by
    rw [hb, List.length_take, List.take_eq_take_min]
  conv => lhs; rw [show len = buf.length + (len - buf.length) by omega, List.take_add]
  rw [← e]

theorem encLoop_spec (ks : Nat → UInt8) (short : Nat → Nat) (i : Nat) (ifh : Bytes) (len : Nat) (st : Enc) :
    ∃ ps : List Bytes, (∀ p ∈ ps, p ≠ [] ∧ p.length ≤ bufsize) ∧ ps.flatten = ifh.take len ∧
      encLoop ks short i ifh len st =
        ⟨st.off + (packed ps).length, st.mac ++ packed ps, st.out ++ xorAt ks st.off (packed ps)⟩ := by
  fun_induction encLoop ks short i ifh len st with
  | case1 i ifh len st hl buf hb =>
    have := rd_piece short i len ifh hl hb
    refine ⟨[], by simp, by rw [this]; simp, ?_⟩
    simp [packed_nil, xorAt]
  | case2 i ifh len st hl buf hb header ih =>
    obtain ⟨ps, h1, h2, h3⟩ := ih
    refine ⟨buf :: ps, ?_, ?_, ?_⟩
    · intro p hp
      rcases List.mem_cons.1 hp with rfl | hp
      · exact ⟨hb, (piece_length short i len ifh).1⟩
      · exact h1 p hp
    · rw [List.flatten_cons, h2, ← take_piece short i len ifh buf rfl]
    · rw [h3, packed_cons]
      simp only [Enc.mk.injEq]
      refine ⟨?_, ?_, ?_⟩
      · simp only [List.length_append]
        show _ + header.length + _ + _ = _ + (header.length + _ + _)
        omega
      · simp only [List.append_assoc]; rfl
      · rw [xorAt_append, xorAt_append]
        simp only [List.append_assoc, List.length_append]
        show _ ++ (xorAt ks st.off header ++ (xorAt ks (st.off + header.length) buf ++ _)) =
          _ ++ (xorAt ks st.off header ++ (xorAt ks (st.off + header.length) buf ++ _))
        rw [show st.off + header.length + buf.length = st.off + ((le32 buf.length).length + buf.length) from
          Nat.add_assoc _ _ _]
  | case3 i ifh len st hl =>
    have : len = 0 := by omega
    refine ⟨[], by simp, by rw [this]; simp, ?_⟩
    simp [packed_nil, xorAt]

theorem encryptFh_spec (cr : Crypto) (key : Bytes) (short : Nat → Nat) (ifh : Bytes) (len : Nat) :
    ∃ ps : List Bytes, (∀ p ∈ ps, PacketOk p) ∧ ps.flatten = ifh.take len ∧
      encryptFh cr key short ifh len = (frame ps, xorAt (cr.ks key) 0 (frame ps ++ cr.mac key (frame ps))) := by
  obtain ⟨ps, h1, h2, h3⟩ := encLoop_spec (cr.ks key) short 0 ifh len ⟨0, [], []⟩
  refine ⟨ps, fun p hp => ⟨(h1 p hp).1, Nat.lt_of_le_of_lt (h1 p hp).2 (by decide)⟩, h2, ?_⟩
  unfold encryptFh
  rw [h3]
  simp only [List.nil_append, Nat.zero_add]
  rw [← frame_eq, xorAt_append (cr.ks key) 0 (frame ps), frame_eq, xorAt_append (cr.ks key) 0 (packed ps)]
  simp only [List.append_assoc, List.length_append, Nat.zero_add]

theorem copyLoop_spec (short : Nat → Nat) (i : Nat) (ifh : Bytes) (len : Nat) (out : Bytes) :
    copyLoop short i ifh len out = out ++ ifh.take len := by
  fun_induction copyLoop short i ifh len out with
  | case1 i ifh len out hl buf hb =>
    rw [rd_piece short i len ifh hl hb]; simp
  | case2 i ifh len out hl buf hb ih =>
    rw [ih, List.append_assoc, ← take_piece short i len ifh buf rfl]
  | case3 i ifh len out hl =>
    have : len = 0 := by omega
    rw [this]; simp

theorem compLoop_spec (cd : Codec) (short : Nat → Nat) (i : Nat) (ifh : Bytes) (len : Nat) (c : cd.C) (out : Bytes) :
    ∃ ps : List Bytes, ps.flatten = ifh.take len ∧
      compLoop cd short i ifh len c out =
        ps.foldl (fun (s : cd.C × Bytes) b => ((cd.cfeed s.1 b).2, s.2 ++ (cd.cfeed s.1 b).1)) (c, out) := by
  fun_induction compLoop cd short i ifh len c out with
  | case1 i ifh len c out hl buf hb =>
    exact ⟨[], by rw [rd_piece short i len ifh hl hb]; simp, rfl⟩
  | case2 i ifh len c out hl buf hb ih =>
    obtain ⟨ps, h1, h2⟩ := ih
    exact ⟨buf :: ps, by rw [List.flatten_cons, h1, ← take_piece short i len ifh buf rfl], h2⟩
  | case3 i ifh len c out hl =>
    have : len = 0 := by omega
    exact ⟨[], by rw [this]; simp, rfl⟩

theorem compressFh_spec (cd : Codec) (short : Nat → Nat) (ifh : Bytes) (len : Nat) :
    ∃ ps : List Bytes, ps.flatten = ifh.take len ∧ compressFh cd short ifh len = cd.compressed ps := by
  obtain ⟨ps, h1, h2⟩ := compLoop_spec cd short 0 ifh len cd.cinit []
  exact ⟨ps, h1, by unfold compressFh Codec.compressed; rw [h2]⟩

theorem decompLoop_spec (cd : Codec) (ifh : Bytes) (d : cd.D) (out : Bytes) :
    ∃ bs : List Bytes, (∀ b ∈ bs, b ≠ []) ∧ bs.flatten = ifh ∧
      ∀ o d', cd.feedAll d bs = .ok (o, d') → decompLoop cd ifh d out = .ok (d', out ++ o) := by
  fun_induction decompLoop cd ifh d out with
  | case1 ifh d out buf hb =>
    have : ifh = [] := by
      cases ifh with
      | nil => rfl
      | cons a t => exact absurd (show (a :: t).take bufsize = [] from hb) (by simp [bufsize])
    refine ⟨[], by simp, by rw [this]; rfl, ?_⟩
    intro o d' h
    cases h
    rw [List.append_nil]
  | case2 ifh d out buf hb he =>
    refine ⟨[buf, ifh.drop bufsize].filter (· ≠ []), ?_, ?_, ?_⟩
    · intro b hb'; simpa using (List.mem_filter.1 hb').2
    · by_cases hd : ifh.drop bufsize = []
      · rw [List.filter_cons_of_pos (by simpa using hb), List.filter_cons_of_neg (by simpa using hd)]
        have := List.take_append_drop bufsize ifh
        rw [hd, List.append_nil] at this
        simpa using this
      · rw [List.filter_cons_of_pos (by simpa using hb), List.filter_cons_of_pos (by simpa using hd)]
        show buf ++ (ifh.drop bufsize ++ []) = ifh
        rw [List.append_nil]
        exact List.take_append_drop bufsize ifh
    · intro o d' h
      rw [List.filter_cons_of_pos (by simpa using hb), Codec.feedAll, he] at h
      cases h
  | case3 ifh d out buf hb he =>
    refine ⟨[buf, ifh.drop bufsize].filter (· ≠ []), ?_, ?_, ?_⟩
    · intro b hb'; simpa using (List.mem_filter.1 hb').2
    · by_cases hd : ifh.drop bufsize = []
      · rw [List.filter_cons_of_pos (by simpa using hb), List.filter_cons_of_neg (by simpa using hd)]
        have := List.take_append_drop bufsize ifh
        rw [hd, List.append_nil] at this
        simpa using this
      · rw [List.filter_cons_of_pos (by simpa using hb), List.filter_cons_of_pos (by simpa using hd)]
        show buf ++ (ifh.drop bufsize ++ []) = ifh
        rw [List.append_nil]
        exact List.take_append_drop bufsize ifh
    · intro o d' h
      rw [List.filter_cons_of_pos (by simpa using hb), Codec.feedAll, he] at h
      cases h
  | case4 ifh d out buf hb o1 d1 he ih =>
    obtain ⟨bs, h1, h2, h3⟩ := ih
    refine ⟨buf :: bs, ?_, ?_, ?_⟩
    · intro b hb'
      rcases List.mem_cons.1 hb' with rfl | hb'
      · exact hb
      · exact h1 b hb'
    · rw [List.flatten_cons, h2]
      exact List.take_append_drop bufsize ifh
    · intro o d' h
      rw [Codec.feedAll, he] at h
      dsimp only at h
      cases hf : cd.feedAll d1 bs with
      | error e => rw [hf] at h; cases h
      | ok r =>
        obtain ⟨o2, d2⟩ := r
        rw [hf] at h
        cases h
        rw [h3 o2 d' hf, List.append_assoc]

theorem decompress_compress (cd : Codec) (hl : cd.Lawful) (ps : List Bytes) :
    decompressFh cd (cd.compressed ps) = .ok ps.flatten := by
  obtain ⟨bs, h1, h2, h3⟩ := decompLoop_spec cd (cd.compressed ps) cd.dinit []
  obtain ⟨d, h4, h5, h6⟩ := hl ps bs h1 h2
  unfold decompressFh
  rw [h3 _ _ h4]
  simp [h5, h6]

/-! ### Decryption -/

theorem decPacket_spec (ks : Nat → UInt8) (n : Nat) (st : Dec) :
    decPacket ks n st =
      if n ≤ st.ifh.length then
        .ok ⟨st.ifh.drop n, st.off + n, st.mac ++ xorAt ks st.off (st.ifh.take n),
          st.out ++ xorAt ks st.off (st.ifh.take n)⟩
      else .error .corrupted := by
  fun_induction decPacket ks n st with
  | case1 st => simp [xorAt]
  | case2 n st hn buf hb =>
    have : st.ifh = [] := by
      cases he : st.ifh with
      | nil => rfl
      | cons a t =>
        exfalso
        have hb' : st.ifh.take (min n bufsize) = [] := hb
        rw [he] at hb'
        have : 0 < min n bufsize := by unfold bufsize; omega
        obtain ⟨k, hk⟩ : ∃ k, min n bufsize = k + 1 := ⟨_, (Nat.sub_add_cancel this).symm⟩
        rw [hk, List.take_succ_cons] at hb'
        cases hb'
    rw [if_neg (by rw [this]; simp; omega)]
  | case3 n st hn buf hb pl ih =>
    rw [ih]
    have hlen : buf.length = min (min n bufsize) st.ifh.length := List.length_take ..
    dsimp only
    rw [List.length_drop]
    by_cases h : n ≤ st.ifh.length
    · rw [if_pos h, if_pos (by omega)]
      have ht : st.ifh.take n = buf ++ (st.ifh.drop buf.length).take (n - buf.length) := by
        have e : buf = st.ifh.take buf.length := by
          rw [hlen]
          show st.ifh.take _ = _
          congr 1
          omega
        conv => lhs; rw [show n = buf.length + (n - buf.length) by omega, List.take_add]
        rw [← e]
      rw [ht, xorAt_append, List.drop_drop]
      simp only [List.append_assoc]
      congr 2
      · congr 1; omega
      · omega
    · rw [if_neg h, if_neg (by omega)]

theorem decLoop_sound (ks : Nat → UInt8) (st st' : Dec) (h : decLoop ks st = .ok st') :
    ∃ ps : List Bytes, (∀ p ∈ ps, PacketOk p) ∧ st.ifh = xorAt ks st.off (frame ps) ++ st'.ifh ∧
      st'.off = st.off + (frame ps).length ∧ st'.mac = st.mac ++ frame ps ∧ st'.out = st.out ++ ps.flatten := by
  fun_induction decLoop ks st with
  | case1 => cases h
  | case2 => cases h
  | case3 st hdr h0 buf st1 hl hz =>
    have h := (Except.ok.inj h).symm
    subst h
    have hl : buf.length = 4 := by simpa using hl
    have e : buf = le32 0 := by rw [← hz, le32_unle32 _ hl]
    have e2 : hdr = xorAt ks st.off (le32 0) := by rw [← e]; exact (xorAt_xorAt _ _ _).symm
    refine ⟨[], by simp, ?_, ?_, ?_, ?_⟩
    · rw [frame_eq, packed_nil, List.nil_append, ← e2]
      exact (List.take_append_drop 4 st.ifh).symm
    · show st.off + hdr.length = _
      rw [e2, xorAt_length]; rfl
    · show st.mac ++ buf = _
      rw [e]; rfl
    · show st.out = _
      simp
  | case4 => cases h
  | case5 st hdr h0 buf st1 hl hz st2 hp ih =>
    have hl : buf.length = 4 := by simpa using hl
    obtain ⟨ps, g1, g2, g3, g4, g5⟩ := ih h
    rw [decPacket_spec] at hp
    split at hp
    · rename_i hn
      cases hp
      dsimp only at g2 g3 g4 g5
      have hhdr : hdr = xorAt ks st.off buf := (xorAt_xorAt _ _ _).symm
      have hhl : hdr.length = 4 := by rw [hhdr, xorAt_length, hl]
      generalize hn' : unle32 buf = n at *
      have hbuf : buf = le32 n := by rw [← hn', le32_unle32 _ hl]
      have hsp : st1.ifh = st.ifh.drop 4 := rfl
      have hpl : (xorAt ks st1.off (st1.ifh.take n)).length = n := by
        rw [xorAt_length, List.length_take]; omega
      refine ⟨xorAt ks st1.off (st1.ifh.take n) :: ps, ?_, ?_, ?_, ?_, ?_⟩
      · intro p hp
        rcases List.mem_cons.1 hp with rfl | hp
        · refine ⟨fun e => hz ?_, ?_⟩
          · rw [← hpl, e]; rfl
          · rw [hpl, ← hn']; exact unle32_lt _
        · exact g1 p hp
      · rw [frame_cons, hpl, xorAt_append, xorAt_append, ← hbuf, ← hhdr]
        have e1 : st.off + buf.length = st1.off := by
          show _ = st.off + hdr.length
          rw [hhl, hl]
        rw [e1, xorAt_xorAt]
        have e2 : st.off + (buf ++ xorAt ks st1.off (st1.ifh.take n)).length = st1.off + n := by
          rw [List.length_append, hpl]; omega
        rw [e2, List.append_assoc, List.append_assoc, ← g2, List.take_append_drop]
        exact (List.take_append_drop 4 st.ifh).symm
      · rw [g3, frame_cons, hpl]
        simp only [List.length_append, hpl, le32_length]
        show st.off + hdr.length + _ + _ = _
        omega
      · rw [g4, frame_cons, hpl, ← hbuf]
        show st.mac ++ buf ++ _ ++ _ = _
        simp only [List.append_assoc]
      · rw [g5]
        show st.out ++ _ ++ _ = _
        simp
    · cases hp

theorem decLoop_complete (ks : Nat → UInt8) (ps : List Bytes) (hp : ∀ p ∈ ps, PacketOk p) (st : Dec)
    (rest : Bytes) (h : st.ifh = xorAt ks st.off (frame ps) ++ rest) :
    decLoop ks st = .ok ⟨rest, st.off + (frame ps).length, st.mac ++ frame ps, st.out ++ ps.flatten⟩ := by
  induction ps generalizing st with
  | nil =>
    have e1 : st.ifh.take 4 = xorAt ks st.off (le32 0) := by
      rw [h, List.take_left' (by rw [xorAt_length]; rfl)]; rfl
    have e2 : st.ifh.drop 4 = rest := by
      rw [h, List.drop_left' (by rw [xorAt_length]; rfl)]
    unfold decLoop
    dsimp only
    rw [e1, e2, dif_neg (by intro e; have := xorAt_eq_nil _ _ _ e; cases this), xorAt_xorAt,
      if_neg (by simp [le32_length]), if_pos (by decide), xorAt_length]
    simp [frame_eq, packed_nil, le32_length]
  | cons p ps ih =>
    have hpo := hp p List.mem_cons_self
    rw [frame_cons, List.append_assoc, xorAt_append, List.append_assoc] at h
    have e1 : st.ifh.take 4 = xorAt ks st.off (le32 p.length) := by
      rw [h, List.take_left' (by rw [xorAt_length]; rfl)]
    have e2 : st.ifh.drop 4 = xorAt ks (st.off + 4) (p ++ frame ps) ++ rest := by
      rw [h, List.drop_left' (by rw [xorAt_length]; rfl)]; rfl
    unfold decLoop
    dsimp only
    rw [e1, e2, dif_neg (by intro e; have := xorAt_eq_nil _ _ _ e; cases this)]
    simp only [xorAt_xorAt]
    rw [if_neg (by simp [le32_length]), unle32_le32 _ hpo.2,
      if_neg (fun e => hpo.1 (List.length_eq_zero_iff.1 e))]
    have e3 : decPacket ks p.length
        ⟨xorAt ks (st.off + 4) (p ++ frame ps) ++ rest, st.off + (xorAt ks st.off (le32 p.length)).length,
          st.mac ++ le32 p.length, st.out⟩ =
        .ok ⟨xorAt ks (st.off + 4 + p.length) (frame ps) ++ rest, st.off + 4 + p.length,
          st.mac ++ le32 p.length ++ p, st.out ++ p⟩ := by
      rw [decPacket_spec, xorAt_append, List.append_assoc, xorAt_length]
      dsimp only
      rw [if_pos (by rw [List.length_append, xorAt_length]; omega),
        List.drop_left' (xorAt_length _ _ _), List.take_left' (xorAt_length _ _ _), le32_length, xorAt_xorAt]
    split
    · rename_i e he
      simp only [xorAt_xorAt] at he
      rw [unle32_le32 _ hpo.2, e3] at he; cases he
    · rename_i st2 he
      simp only [xorAt_xorAt] at he
      rw [unle32_le32 _ hpo.2, e3] at he
      cases he
      rw [ih (fun q hq => hp q (List.mem_cons_of_mem _ hq)) _ rfl, frame_cons]
      simp only [List.append_assoc, List.length_append, le32_length, List.flatten_cons]
      congr 2
      omega

/-- A stream is accepted exactly when it is the encryption of a framed sequence of packets followed by
the MAC of that frame. -/
theorem decryptFh_iff (cr : Crypto) (key c d : Bytes) :
    decryptFh cr key c = .ok d ↔
      ∃ ps : List Bytes, (∀ p ∈ ps, PacketOk p) ∧ d = ps.flatten ∧
        c = xorAt (cr.ks key) 0 (frame ps ++ cr.mac key (frame ps)) := by
  constructor
  · intro h
    unfold decryptFh at h
    cases hl : decLoop (cr.ks key) ⟨c, 0, [], []⟩ with
    | error e => rw [hl] at h; cases h
    | ok st =>
      rw [hl] at h
      obtain ⟨ps, g1, g2, g3, g4, g5⟩ := decLoop_sound _ _ _ hl
      simp only [List.nil_append, Nat.zero_add] at g2 g3 g4 g5
      dsimp only at h
      split at h
      · cases h
      · rename_i h1
        split at h
        · cases h
        · rename_i h2
          cases h
          refine ⟨ps, g1, g5, ?_⟩
          have h1 : (st.ifh.drop hmacSize).take bufsize = [] := Decidable.of_not_not h1
          have h2 : xorAt (cr.ks key) st.off (st.ifh.take hmacSize) = cr.mac key st.mac := by simpa using h2
          have hd : st.ifh.drop hmacSize = [] := by
            cases he : st.ifh.drop hmacSize with
            | nil => rfl
            | cons a t => rw [he] at h1; simp [bufsize] at h1
          have ht : st.ifh.take hmacSize = st.ifh := by
            have := List.take_append_drop hmacSize st.ifh
            rw [hd, List.append_nil] at this
            exact this
          rw [ht] at h2
          rw [g2, xorAt_append, Nat.zero_add, ← g3]
          rw [g4] at h2
          rw [← h2, xorAt_xorAt]
  · rintro ⟨ps, h1, rfl, h3⟩
    unfold decryptFh
    rw [xorAt_append] at h3
    rw [decLoop_complete (cr.ks key) ps h1 ⟨c, 0, [], []⟩ _ h3]
    dsimp only
    have hlen : (xorAt (cr.ks key) (0 + (frame ps).length) (cr.mac key (frame ps))).length = hmacSize := by
      rw [xorAt_length, cr.mac_len]; rfl
    rw [List.drop_of_length_le (Nat.le_of_eq hlen),
      List.take_of_length_le (i := hmacSize) (Nat.le_of_eq hlen), xorAt_xorAt]
    simp

end Verif.Comprenc
