import Verif.Comprenc.Lemmas
/-
Which metadata dictionaries have the same checksum input as one made by `write_fh`.
-/
namespace Verif.Comprenc
open Verif.Codec.Checksum (le32 input Val encItem encVal leBytes split_zero)

theorem leBytes_prefix (a t : Bytes) : leBytes a (a ++ t) = true := by
  induction a with
  | nil => cases t <;> rfl
  | cons x a ih => simp [leBytes, ih]

/-- In a sorted list of items that contains the key `k`, if the encoding starts with `k` and a NUL,
the first item is the one for `k`. -/
theorem head_item (L : Raw) (hs : L.Pairwise (fun a b => leBytes a.1 b.1)) (k : Bytes) (v : Val)
    (hk : (0 : UInt8) ∉ k) (hm : (k, v) ∈ L) (hd : (L.map (·.1)).Nodup) (rest : Bytes)
    (h : (L.map encItem).flatten = k ++ 0 :: rest) :
    ∃ t, L = (k, v) :: t ∧ encVal v ++ (t.map encItem).flatten = 0 :: rest := by
  cases L with
  | nil => cases hm
  | cons e t =>
    obtain ⟨k1, v1⟩ := e
    have hle : leBytes k1 k = true := by
      rcases List.mem_cons.1 hm with e | hm
      · cases e
        have := leBytes_prefix k []
        rwa [List.append_nil] at this
      · exact (List.pairwise_cons.1 hs).1 _ hm
    have hz : ∃ r, encVal v1 = 0 :: r := by
      cases v1 with
      | bool b => cases b <;> exact ⟨_, rfl⟩
      | _ => exact ⟨_, rfl⟩
    obtain ⟨r, hr⟩ := hz
    have h' : k1 ++ 0 :: (r ++ (t.map encItem).flatten) = k ++ 0 :: rest := by
      rw [← h, List.map_cons, List.flatten_cons]
      show _ = k1 ++ encVal v1 ++ _
      rw [hr]; simp
    have hkk : k1 = k := by
      rcases List.append_eq_append_iff.1 h' with ⟨a, ha, hb⟩ | ⟨a, ha, hb⟩
      · cases a with
        | nil => rw [ha, List.append_nil]
        | cons x a =>
          exfalso
          have := (List.cons.inj hb).1
          subst this
          exact hk (by rw [ha]; simp)
      · have := leBytes_prefix k a
        rw [← ha] at this
        exact Verif.Codec.Checksum.leBytes_antisymm _ _ hle this
    subst hkk
    have hv : v = v1 := by
      rcases List.mem_cons.1 hm with e | hm
      · exact (Prod.mk.inj e).2
      · rw [List.map_cons, List.nodup_cons] at hd
        exact absurd (List.mem_map.2 ⟨_, hm, rfl⟩) hd.1
    subst hv
    refine ⟨t, rfl, ?_⟩
    rw [hr, List.cons_append]
    exact (List.append_cancel_left h')

theorem nodup_of_keys {m : Raw} (h : (m.map (·.1)).Nodup) : m.Nodup :=
  List.Pairwise.of_map (f := fun e : Bytes × Val => e.1) (S := fun a b => a ≠ b)
    (fun _ _ hne e => hne (congrArg Prod.fst e)) h

theorem get_mem {m : Raw} (hm : (m.map (·.1)).Nodup) {k : Bytes} {v : Val} (h : get m k = some v) : (k, v) ∈ m :=
  (Verif.Codec.Checksum.get_eq_some hm k v).1 h

theorem str_inj (s t x y : Bytes) (hs : (0 : UInt8) ∉ s) (ht : (0 : UInt8) ∉ t)
    (h : encVal (.str s) ++ x = encVal (.str t) ++ y) : s = t ∧ x = y := by
  simp only [encVal, List.cons_append, List.append_assoc, List.nil_append] at h
  exact split_zero s t x y hs ht (List.cons.inj (List.cons.inj h).2).2

theorem bytes_inj (s t x y : Bytes) (hs : s.length < 2 ^ 32) (ht : t.length < 2 ^ 32)
    (h : encVal (.bytes s) ++ x = encVal (.bytes t) ++ y) : s = t ∧ x = y := by
  have h4 : le32 s.length ++ s ++ x = le32 t.length ++ t ++ y := (List.cons.inj (List.cons.inj h).2).2
  rw [List.append_assoc, List.append_assoc] at h4
  obtain ⟨h5, h6⟩ := List.append_inj h4 rfl
  exact List.append_inj h6 (Verif.Codec.Checksum.le32_inj _ _ hs ht h5)

/-- The input of the checksum of the metadata made by `write_fh`: the items in sorted order. -/
def sorted6 (tok d enc n k : Bytes) : Raw :=
  [(kCompression, .str tok), (kData, .bytes d), (kEncryption, .str enc), (kFormat, .int 2),
   (kNonce, .bytes n), (kObjectId, .str k)]

theorem input_unsigned {F : Type} (env : Env F) (p : Bytes) (cfg : Cfg) (w : WriteArgs F) :
    input (unsigned env p cfg w) =
      ((sorted6 (token (if w.dontCompress then Alg.none else cfg.alg))
        (xorAt (env.cr.ks (env.cr.sha (p ++ w.nonce ++ sMeta))) 0
          (Verif.Codec.freeze env.fmt env.printable ((kSize, .int w.len) :: w.user)))
        sAes w.nonce w.key).map encItem).flatten := by
  unfold unsigned
  dsimp only
  generalize token (if w.dontCompress then Alg.none else cfg.alg) = tok
  generalize xorAt (env.cr.ks (env.cr.sha (p ++ w.nonce ++ sMeta))) 0
          (Verif.Codec.freeze env.fmt env.printable ((kSize, .int w.len) :: w.user)) = d
  generalize w.nonce = n
  generalize w.key = k
  have hn : (([(kFormat, .int 2), (kCompression, .str tok), (kEncryption, .str sAes), (kNonce, .bytes n), (kData, .bytes d), (kObjectId, .str k)] : Raw).map (·.1)).Nodup := by
    show ([kFormat, kCompression, kEncryption, kNonce, kData, kObjectId] : List Bytes).Nodup
    decide
  have hn' : ((sorted6 tok d sAes n k).map (·.1)).Nodup := by
    show ([kCompression, kData, kEncryption, kFormat, kNonce, kObjectId] : List Bytes).Nodup
    decide
  have hp : List.Perm [(kFormat, .int 2), (kCompression, .str tok), (kEncryption, .str sAes), (kNonce, .bytes n), (kData, .bytes d), (kObjectId, .str k)] (sorted6 tok d sAes n k) := by
    refine (List.perm_ext_iff_of_nodup (nodup_of_keys hn) (nodup_of_keys hn')).2 ?_
    intro a
    unfold sorted6
    simp only [List.mem_cons, List.not_mem_nil, or_false]
    constructor
    · rintro (h | h | h | h | h | h) <;> simp only [h, true_or, or_true]
    · rintro (h | h | h | h | h | h) <;> simp only [h, true_or, or_true]
  rw [Verif.Codec.Checksum.C29_order_independent _ _ hn hp]
  unfold input
  rw [List.mergeSort_of_pairwise]
  · rfl
  · have h6 : ([kCompression, kData, kEncryption, kFormat, kNonce, kObjectId] : List Bytes).Pairwise
        (fun a b => leBytes a b = true) := by decide
    exact List.Pairwise.of_map (f := fun e : Bytes × Val => e.1) (S := fun a b => leBytes a b = true) (fun _ _ h => h) h6

/-- A dictionary with the checksum input of metadata made by `write_fh` for a key without NUL, whose
compression and encryption entries are names without NUL, is that metadata. -/
theorem input_sorted6 (m : Raw) (hm : (m.map (·.1)).Nodup) (tok d enc n k tok' d' enc' n' k' : Bytes)
    (hz : ∀ s ∈ [tok, enc, k, tok', enc'], (0 : UInt8) ∉ s) (hl : d.length < 2 ^ 32 ∧ n.length < 2 ^ 32)
    (hl' : d'.length < 2 ^ 32 ∧ n'.length < 2 ^ 32)
    (g1 : get m kCompression = some (.str tok')) (g2 : get m kData = some (.bytes d'))
    (g3 : get m kEncryption = some (.str enc')) (g4 : isTwo (get m kFormat) = true)
    (g5 : get m kNonce = some (.bytes n')) (g6 : get m kObjectId = some (.str k'))
    (h : input m = ((sorted6 tok d enc n k).map encItem).flatten) :
    tok' = tok ∧ d' = d ∧ enc' = enc ∧ n' = n ∧ k' = k ∧ get m kPayload = none := by
  have hz1 := hz tok (by simp)
  have hz2 := hz enc (by simp)
  have hz3 := hz k (by simp)
  have hz4 := hz tok' (by simp)
  have hz5 := hz enc' (by simp)
  have hL : ∃ L : Raw, L = (m.mergeSort (fun a b => leBytes a.1 b.1)).filter (fun e => e.1 ≠ kSignature) := ⟨_, rfl⟩
  obtain ⟨L, hL⟩ := hL
  have hsort : L.Pairwise (fun a b => leBytes a.1 b.1) := by
    rw [hL]
    refine List.Pairwise.filter _ ?_
    exact List.pairwise_mergeSort (le := fun a b : Bytes × Val => leBytes a.1 b.1)
      (fun a b c h1 h2 => Verif.Codec.Checksum.leBytes_trans _ _ _ h1 h2)
      (fun a b => Verif.Codec.Checksum.leBytes_total _ _) m
  have hmem : ∀ e, e ∈ L ↔ e ∈ m ∧ e.1 ≠ kSignature := by
    intro e; rw [hL, List.mem_filter, List.mem_mergeSort]; simp
  have hnd : (L.map (·.1)).Nodup := by
    rw [hL]
    have h1 : ((m.mergeSort (fun a b => leBytes a.1 b.1)).map (·.1)).Nodup :=
      (((List.mergeSort_perm m (fun a b => leBytes a.1 b.1)).map (·.1)).nodup_iff).2 hm
    exact List.Nodup.sublist (List.Sublist.map _ List.filter_sublist) h1
  have hin : ∀ k v, get m k = some v → k ≠ kSignature → (k, v) ∈ L :=
    fun k v hg hk => (hmem _).2 ⟨get_mem hm hg, hk⟩
  have hinput : (L.map encItem).flatten = ((sorted6 tok d enc n k).map encItem).flatten := by
    rw [← h, hL]; rfl
  -- compression
  have t1 := hinput
  rw [show ((sorted6 tok d enc n k).map encItem).flatten = kCompression ++ (encVal (.str tok) ++
      (kData ++ (encVal (.bytes d) ++ (kEncryption ++ (encVal (.str enc) ++ (kFormat ++ (encVal (.int 2) ++
      (kNonce ++ (encVal (.bytes n) ++ (kObjectId ++ (encVal (.str k) ++ []))))))))))) by
    simp [sorted6, encItem]] at t1
  obtain ⟨L1, e1, f1⟩ := head_item L hsort kCompression _ (by decide) (hin _ _ g1 (by decide)) hnd _ t1
  obtain ⟨rfl, q1⟩ := str_inj _ _ _ _ hz4 hz1 f1
  subst e1
  rw [List.map_cons, List.nodup_cons] at hnd
  -- data
  have m2 : (kData, Val.bytes d') ∈ L1 := by
    rcases List.mem_cons.1 (hin _ _ g2 (by decide)) with e | h
    · exact absurd (Prod.mk.inj e).1 (by decide)
    · exact h
  obtain ⟨L2, e2, f2⟩ := head_item L1 (List.pairwise_cons.1 hsort).2 kData _ (by decide) m2 hnd.2 _ q1
  obtain ⟨rfl, q2⟩ := bytes_inj _ _ _ _ hl'.1 hl.1 f2
  subst e2
  have hsort2 := (List.pairwise_cons.1 (List.pairwise_cons.1 hsort).2).2
  have hnd2 := hnd.2
  rw [List.map_cons, List.nodup_cons] at hnd2
  -- encryption
  have m3 : (kEncryption, Val.str enc') ∈ L2 := by
    rcases List.mem_cons.1 (hin _ _ g3 (by decide)) with e | h
    · exact absurd (Prod.mk.inj e).1 (by decide)
    · rcases List.mem_cons.1 h with e | h
      · exact absurd (Prod.mk.inj e).1 (by decide)
      · exact h
  obtain ⟨L3, e3, f3⟩ := head_item L2 hsort2 kEncryption _ (by decide) m3 hnd2.2 _ q2
  obtain ⟨rfl, q3⟩ := str_inj _ _ _ _ hz5 hz2 f3
  subst e3
  have hsort3 := (List.pairwise_cons.1 hsort2).2
  have hnd3 := hnd2.2
  rw [List.map_cons, List.nodup_cons] at hnd3
  -- format_version
  have hv : ∃ v, get m kFormat = some v := by
    cases hg : get m kFormat with
    | none => rw [hg] at g4; cases g4
    | some v => exact ⟨v, rfl⟩
  obtain ⟨v, hv⟩ := hv
  have m4 : (kFormat, v) ∈ L3 := by
    rcases List.mem_cons.1 (hin _ _ hv (by decide)) with e | h
    · exact absurd (Prod.mk.inj e).1 (by decide)
    · rcases List.mem_cons.1 h with e | h
      · exact absurd (Prod.mk.inj e).1 (by decide)
      · rcases List.mem_cons.1 h with e | h
        · exact absurd (Prod.mk.inj e).1 (by decide)
        · exact h
  obtain ⟨L4, e4, f4⟩ := head_item L3 hsort3 kFormat _ (by decide) m4 hnd3.2 _ q3
  subst e4
  rw [hv] at g4
  have f4' : (L4.map encItem).flatten = kNonce ++ (encVal (.bytes n) ++ (kObjectId ++ (encVal (.str k) ++ []))) := by
    cases v with
    | int i =>
      have : i = 2 := by simpa [isTwo] using g4
      subst this
      exact List.append_cancel_left f4
    | float b =>
      exfalso
      exact absurd (List.cons.inj (List.cons.inj f4).2).1 (by decide)
    | _ => cases g4
  have hsort4 := (List.pairwise_cons.1 hsort3).2
  have hnd4 := hnd3.2
  rw [List.map_cons, List.nodup_cons] at hnd4
  -- nonce
  have m5 : (kNonce, Val.bytes n') ∈ L4 := by
    rcases List.mem_cons.1 (hin _ _ g5 (by decide)) with e | h
    · exact absurd (Prod.mk.inj e).1 (by decide)
    · rcases List.mem_cons.1 h with e | h
      · exact absurd (Prod.mk.inj e).1 (by decide)
      · rcases List.mem_cons.1 h with e | h
        · exact absurd (Prod.mk.inj e).1 (by decide)
        · rcases List.mem_cons.1 h with e | h
          · exact absurd (Prod.mk.inj e).1 (by decide)
          · exact h
  obtain ⟨L5, e5, f5⟩ := head_item L4 hsort4 kNonce _ (by decide) m5 hnd4.2 _ f4'
  obtain ⟨rfl, q5⟩ := bytes_inj _ _ _ _ hl'.2 hl.2 f5
  subst e5
  have hsort5 := (List.pairwise_cons.1 hsort4).2
  have hnd5 := hnd4.2
  rw [List.map_cons, List.nodup_cons] at hnd5
  -- object_id
  have m6 : (kObjectId, Val.str k') ∈ L5 := by
    rcases List.mem_cons.1 (hin _ _ g6 (by decide)) with e | h
    · exact absurd (Prod.mk.inj e).1 (by decide)
    · rcases List.mem_cons.1 h with e | h
      · exact absurd (Prod.mk.inj e).1 (by decide)
      · rcases List.mem_cons.1 h with e | h
        · exact absurd (Prod.mk.inj e).1 (by decide)
        · rcases List.mem_cons.1 h with e | h
          · exact absurd (Prod.mk.inj e).1 (by decide)
          · rcases List.mem_cons.1 h with e | h
            · exact absurd (Prod.mk.inj e).1 (by decide)
            · exact h
  obtain ⟨L6, e6, f6⟩ := head_item L5 hsort5 kObjectId _ (by decide) m6 hnd5.2 _ q5
  subst e6
  have hk : k' = k ∧ L6 = [] := by
    have f8 : encVal (.str k') ++ (L6.map encItem).flatten = encVal (.str k) ++ [] := f6
    simp only [encVal, List.cons_append, List.append_assoc, List.nil_append] at f8
    have f7 := (List.cons.inj (List.cons.inj f8).2).2
    have hlen : (L6.map encItem).flatten = [] ∧ k' = k := by
      rcases List.append_eq_append_iff.1 f7 with ⟨a, ha, hb⟩ | ⟨a, ha, hb⟩
      · cases a with
        | nil => exact ⟨(List.cons.inj hb).2, by rw [ha, List.append_nil]⟩
        | cons x a =>
          exfalso
          have := (List.cons.inj hb).1
          subst this
          exact hz3 (by rw [ha]; simp)
      · cases a with
        | nil => exact ⟨(List.cons.inj hb).2.symm, by rw [ha, List.append_nil]⟩
        | cons x a =>
          exfalso
          have := congrArg List.length hb
          simp at this
    refine ⟨hlen.2, ?_⟩
    cases L6 with
    | nil => rfl
    | cons e t =>
      exfalso
      have := hlen.1
      rw [List.map_cons, List.flatten_cons] at this
      exact Verif.Codec.Checksum.encItem_ne_nil e (List.append_eq_nil_iff.1 this).1
  obtain ⟨rfl, rfl⟩ := hk
  refine ⟨rfl, rfl, rfl, rfl, rfl, ?_⟩
  cases hg : get m kPayload with
  | none => rfl
  | some v' =>
    exfalso
    have := hin _ _ hg (by decide)
    simp only [List.mem_cons, Prod.mk.injEq, List.not_mem_nil, or_false] at this
    rcases this with h | h | h | h | h | h <;> exact absurd h.1 (by decide)

end Verif.Comprenc
