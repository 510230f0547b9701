import Verif.Comprenc.MetaLemmas
/-
Reading of objects made by `write_fh`.
-/
namespace Verif.Comprenc
open Verif.Codec.Checksum (le32 input Val encItem encVal leBytes)

theorem input_congr (c d : Raw) (hc : (c.map (·.1)).Nodup)
    (hp : (c.filter (fun e => e.1 ≠ kSignature)).Perm (d.filter (fun e => e.1 ≠ kSignature))) : input c = input d := by
  unfold input
  have hsort : ∀ l : Raw, ((l.mergeSort (fun a b => leBytes a.1 b.1)).filter (fun e => e.1 ≠ kSignature)).Pairwise
      (fun a b => leBytes a.1 b.1) := by
    intro l
    refine List.Pairwise.filter _ ?_
    exact List.pairwise_mergeSort (le := fun a b : Bytes × Val => leBytes a.1 b.1)
      (fun a b c h1 h2 => Verif.Codec.Checksum.leBytes_trans _ _ _ h1 h2)
      (fun a b => Verif.Codec.Checksum.leBytes_total _ _) l
  have hperm : ∀ l : Raw, ((l.mergeSort (fun a b => leBytes a.1 b.1)).filter (fun e => e.1 ≠ kSignature)).Perm
      (l.filter (fun e => e.1 ≠ kSignature)) := fun l => (List.mergeSort_perm l _).filter _
  have : (c.mergeSort (fun a b => leBytes a.1 b.1)).filter (fun e => e.1 ≠ kSignature) =
      (d.mergeSort (fun a b => leBytes a.1 b.1)).filter (fun e => e.1 ≠ kSignature) := by
    refine List.Perm.eq_of_pairwise ?_ (hsort c) (hsort d) (((hperm c).trans hp).trans (hperm d).symm)
    intro a b ha hb h1 h2
    have ha' : a ∈ c := List.mem_filter.1 ((hperm c).subset ha) |>.1
    have hb' : b ∈ c := List.mem_filter.1 (hp.symm.subset ((hperm d).subset hb)) |>.1
    have hk := Verif.Codec.Checksum.leBytes_antisymm _ _ h1 h2
    have g1 := (Verif.Codec.Checksum.get_eq_some hc a.1 a.2).2 ha'
    have g2 := (Verif.Codec.Checksum.get_eq_some hc b.1 b.2).2 hb'
    rw [hk, g2, Option.some.injEq] at g1
    exact Prod.ext hk g1.symm
  show List.flatten (List.map encItem ((c.mergeSort (fun a b => leBytes a.1 b.1)).filter (fun e => e.1 ≠ kSignature))) = _
  rw [this]; rfl

theorem algOf_token (a : Alg) : algOf (token a) = some a := by cases a <;> rfl

theorem token_of_algOf {t : Bytes} {a : Alg} (h : algOf t = some a) : t = token a := by
  unfold algOf at h
  split at h
  · rename_i e; cases h; exact e
  · split at h
    · rename_i e; cases h; exact e
    · split at h
      · rename_i e; cases h; exact e
      · split at h
        · rename_i e; cases h; exact e
        · cases h

/-- The algorithm that a write uses. -/
def WriteArgs.algo {F : Type} (cfg : Cfg) (w : WriteArgs F) : Alg := if w.dontCompress then Alg.none else cfg.alg

/-- How the reads of the file that is encrypted go. -/
def WriteArgs.reads {F : Type} (cfg : Cfg) (w : WriteArgs F) : Nat → Nat :=
  if w.algo cfg = .none then w.short else fun _ => bufsize

/-- The part of the written data that is encrypted or stored. -/
theorem compressPart_plain {F : Type} (env : Env F) (cfg : Cfg) (w : WriteArgs F) (hl : env.Lawful)
    (hp : cfg.pass = none) : unpack env (w.algo cfg) none (compressPart env cfg w).1 = .ok w.data := by
  unfold compressPart unpack
  show (if w.algo cfg = Alg.none then _ else _) = _
  by_cases ha : w.algo cfg = .none
  · rw [if_pos ha]
    show Except.ok (if w.algo cfg = Alg.none then _ else _ : Bytes × Nat).1 = _
    rw [if_pos ha, hp, if_pos (show (none : Option Bytes).isNone = true from rfl)]
    by_cases h : w.pos ≠ 0 ∨ w.file.length ≠ w.len
    · rw [if_pos h]
      show Except.ok _ = _
      rw [copyLoop_spec]; rfl
    · rw [if_neg h]
      have h1 : w.pos = 0 := Decidable.of_not_not (fun h' => h (Or.inl h'))
      have h2 : w.file.length = w.len := Decidable.of_not_not (fun h' => h (Or.inr h'))
      unfold WriteArgs.data
      rw [h1, ← h2, List.drop_zero, List.take_length]
  · rw [if_neg ha]
    show decompressFh _ (if w.algo cfg = Alg.none then _ else _ : Bytes × Nat).1 = _
    rw [if_neg ha]
    obtain ⟨ps, h1, h2⟩ := compressFh_spec (env.codec (w.algo cfg)) w.short (w.file.drop w.pos) w.len
    show decompressFh _ (compressFh (env.codec (w.algo cfg)) w.short (w.file.drop w.pos) w.len) = _
    rw [h2, decompress_compress _ (hl _ ha), h1]; rfl

theorem unpack_written {F : Type} (env : Env F) (cfg : Cfg) (w : WriteArgs F) (hl : env.Lawful) (p : Bytes)
    (hp : cfg.pass = some p) (ps : List Bytes)
    (hps : ps.flatten = (compressPart env cfg w).1.take (compressPart env cfg w).2) :
    (if w.algo cfg = .none then Except.ok ps.flatten
      else decompressFh (env.codec (w.algo cfg)) ps.flatten) = .ok w.data := by
  rw [hps]
  unfold compressPart
  show (if w.algo cfg = Alg.none then Except.ok (List.take (if w.algo cfg = Alg.none then _ else _ : Bytes × Nat).2
    (if w.algo cfg = Alg.none then _ else _ : Bytes × Nat).1) else decompressFh _ (List.take
    (if w.algo cfg = Alg.none then _ else _ : Bytes × Nat).2 (if w.algo cfg = Alg.none then _ else _ : Bytes × Nat).1)) = _
  by_cases ha : w.algo cfg = .none
  · rw [if_pos ha, if_pos ha, if_neg (by rw [hp]; simp)]
    rfl
  · rw [if_neg ha, if_neg ha]
    show decompressFh _ (List.take (compressFh (env.codec (w.algo cfg)) w.short (w.file.drop w.pos) w.len).length
      (compressFh (env.codec (w.algo cfg)) w.short (w.file.drop w.pos) w.len)) = _
    rw [List.take_length]
    obtain ⟨ps, h1, h2⟩ := compressFh_spec (env.codec (w.algo cfg)) w.short (w.file.drop w.pos) w.len
    rw [h2, decompress_compress _ (hl _ ha), h1]; rfl

/-- What a successful write with a passphrase hands to the backend. -/
theorem write_encrypted {F : Type} {env : Env F} {cfg : Cfg} {w : WriteArgs F} {p : Bytes} (hp : cfg.pass = some p)
    {m : Raw} {buf : Bytes} (h : writeFh env cfg w = .ok (m, buf)) :
    kSize ∉ w.user.map (·.1) ∧ sumOk (unsigned env p cfg w) = true ∧
    m = unsigned env p cfg w ++ [(kSignature, .bytes (env.cr.mac (env.cr.sha (p ++ w.nonce ++ sMeta))
      (input (unsigned env p cfg w))))] ∧
    buf = (encryptFh env.cr (env.cr.sha (p ++ w.nonce)) (w.reads cfg) (compressPart env cfg w).1
      (compressPart env cfg w).2).2 := by
  unfold writeFh at h
  split at h
  · cases h
  · rename_i h0
    dsimp only at h
    rw [hp] at h
    dsimp only at h
    split at h
    · cases h
    · rename_i h1
      simp only [Except.ok.injEq, Prod.mk.injEq] at h
      refine ⟨?_, ?_, h.1.symm, h.2.symm⟩
      · intro hc; exact h0 (List.contains_iff_mem.2 hc)
      · cases hs : sumOk (unsigned env p cfg w) with
        | true => rfl
        | false => rw [hs] at h1; exact absurd rfl h1

theorem write_plain {F : Type} {env : Env F} {cfg : Cfg} {w : WriteArgs F} (hp : cfg.pass = none)
    {m : Raw} {buf : Bytes} (h : writeFh env cfg w = .ok (m, buf)) :
    kSize ∉ w.user.map (·.1) ∧
    m = [(kFormat, .int 2), (kCompression, .str (token (w.algo cfg))), (kEncryption, .str sNone),
      (kData, .bytes (Verif.Codec.freeze env.fmt env.printable ((kSize, .int w.len) :: w.user)))] ∧
    buf = (compressPart env cfg w).1 := by
  unfold writeFh at h
  split at h
  · cases h
  · rename_i h0
    dsimp only at h
    rw [hp] at h
    simp only [Except.ok.injEq, Prod.mk.injEq] at h
    exact ⟨fun hc => h0 (List.contains_iff_mem.2 hc), h.1.symm, h.2.symm⟩

theorem thaw_written {F : Type} {env : Env F} {w : WriteArgs F} (ht : w.Typed env) (hs : kSize ∉ w.user.map (·.1)) :
    thawMeta env (Verif.Codec.freeze env.fmt env.printable ((kSize, .int w.len) :: w.user)) =
      .ok ((kSize, .int w.len) :: w.user) := by
  unfold thawMeta
  rw [Verif.Codec.C30_thaw_freeze]
  · rw [List.map_cons, List.nodup_cons]; exact ⟨hs, ht.keys⟩
  · intro e he
    rcases List.mem_cons.1 he with rfl | he
    · trivial
    · exact ht.vals e he

theorem popSize_written {F : Type} {w : WriteArgs F} (hs : kSize ∉ w.user.map (·.1)) (v : Verif.Codec.Val F) :
    popSize ((kSize, v) :: w.user) = w.user := by
  unfold popSize
  rw [List.filter_cons_of_neg (by simp), List.filter_eq_self]
  intro e he
  have : e.1 ≠ kSize := fun h => hs (h ▸ List.mem_map.2 ⟨e, he, rfl⟩)
  simpa using this

theorem unsigned_keys {F : Type} (env : Env F) (p : Bytes) (cfg : Cfg) (w : WriteArgs F) :
    (unsigned env p cfg w).map (·.1) = [kFormat, kCompression, kEncryption, kNonce, kData, kObjectId] := rfl

theorem signed_keys {F : Type} (env : Env F) (p : Bytes) (cfg : Cfg) (w : WriteArgs F) (v : Val) :
    (((unsigned env p cfg w) ++ [(kSignature, v)]).map (·.1)).Nodup := by
  rw [List.map_append, unsigned_keys]
  show ([kFormat, kCompression, kEncryption, kNonce, kData, kObjectId, kSignature] : List Bytes).Nodup
  decide

/-- Metadata as written, in any order, passes verification. -/
theorem verify_written {F : Type} {env : Env F} {cfg cfg' : Cfg} {w : WriteArgs F} {p : Bytes}
    (hp' : cfg'.pass = some p) (ht : w.Typed env) (hs : kSize ∉ w.user.map (·.1))
    (hok : sumOk (unsigned env p cfg w) = true) (m : Raw)
    (hm : m.Perm (unsigned env p cfg w ++ [(kSignature, .bytes (env.cr.mac (env.cr.sha (p ++ w.nonce ++ sMeta))
      (input (unsigned env p cfg w))))])) :
    verifyMeta env cfg' w.key m = .ok (some w.nonce, (kSize, .int w.len) :: w.user) ∧
    get m kCompression = some (.str (token (w.algo cfg))) ∧ get m kEncryption = some (.str sAes) ∧
    get m kPayload = none := by
  have hn := signed_keys env p cfg w (.bytes (env.cr.mac (env.cr.sha (p ++ w.nonce ++ sMeta))
      (input (unsigned env p cfg w))))
  have hn' : (m.map (·.1)).Nodup := ((hm.map (·.1)).nodup_iff).2 hn
  have hg : ∀ k v, (k, v) ∈ unsigned env p cfg w ++ [(kSignature, .bytes (env.cr.mac
      (env.cr.sha (p ++ w.nonce ++ sMeta)) (input (unsigned env p cfg w))))] → get m k = some v := by
    intro k v h
    exact (Verif.Codec.Checksum.get_eq_some hn' k v).2 (hm.symm.subset h)
  have g1 := hg kFormat (.int 2) (by simp [unsigned])
  have g2 := hg kCompression (.str (token (w.algo cfg))) (by simp [unsigned, WriteArgs.algo])
  have g3 := hg kEncryption (.str sAes) (by simp [unsigned])
  have g4 := hg kNonce (.bytes w.nonce) (by simp [unsigned])
  have g5 := hg kData (.bytes (xorAt (env.cr.ks (env.cr.sha (p ++ w.nonce ++ sMeta))) 0
    (Verif.Codec.freeze env.fmt env.printable ((kSize, .int w.len) :: w.user)))) (by simp [unsigned])
  have g6 := hg kObjectId (.str w.key) (by simp [unsigned])
  have g7 := hg kSignature (.bytes (env.cr.mac (env.cr.sha (p ++ w.nonce ++ sMeta))
      (input (unsigned env p cfg w)))) (by simp)
  have hin : input m = input (unsigned env p cfg w) := by
    apply input_congr _ _ hn'
    refine (hm.filter _).trans ?_
    rw [List.filter_append, List.filter_cons_of_neg (by simp)]
    simp
  have hsum : sumOk m = true := by
    unfold sumOk at hok ⊢
    rw [List.all_eq_true] at hok ⊢
    intro e he
    have := hm.subset he
    rw [List.mem_append, List.mem_singleton] at this
    rcases this with h | h
    · exact hok e h
    · subst h; simp
  have hpl : get m kPayload = none := by
    cases hgp : get m kPayload with
    | none => rfl
    | some v =>
      exfalso
      have := hm.subset ((Verif.Codec.Checksum.get_eq_some hn' _ _).1 hgp)
      have := List.mem_map.2 ⟨_, this, (rfl : Prod.fst (kPayload, v) = kPayload)⟩
      rw [List.map_append, unsigned_keys] at this
      revert this
      show kPayload ∈ ([kFormat, kCompression, kEncryption, kNonce, kData, kObjectId, kSignature] : List Bytes) → False
      decide
  refine ⟨?_, g2, g3, hpl⟩
  unfold verifyMeta
  rw [g1, g2, g3, g5, hp']
  have e1 : decide ((some (Val.str sAes) : Option Val) ≠ some (.str sNone)) = true := by decide
  rw [e1]
  have hv : verifyEncrypted env p w.key m (xorAt (env.cr.ks (env.cr.sha (p ++ w.nonce ++ sMeta))) 0
      (Verif.Codec.freeze env.fmt env.printable ((kSize, .int w.len) :: w.user))) =
      .ok (w.nonce, (kSize, .int w.len) :: w.user) := by
    unfold verifyEncrypted
    rw [g4, g6, g7]
    dsimp only
    rw [hsum, hin, xorAt_xorAt, thaw_written ht hs]
    simp
  dsimp only
  rw [hv]
  simp [isTwo]

theorem verify_plain {F : Type} {env : Env F} {cfg cfg' : Cfg} {w : WriteArgs F}
    (hp' : cfg'.pass = none) (ht : w.Typed env) (hs : kSize ∉ w.user.map (·.1)) (key : Bytes) (m : Raw)
    (hm : m.Perm [(kFormat, .int 2), (kCompression, .str (token (w.algo cfg))), (kEncryption, .str sNone),
      (kData, .bytes (Verif.Codec.freeze env.fmt env.printable ((kSize, .int w.len) :: w.user)))]) :
    verifyMeta env cfg' key m = .ok (none, (kSize, .int w.len) :: w.user) ∧
    get m kCompression = some (.str (token (w.algo cfg))) ∧ get m kEncryption = some (.str sNone) ∧
    get m kPayload = none := by
  have hn : (([(kFormat, .int 2), (kCompression, .str (token (w.algo cfg))), (kEncryption, .str sNone),
      (kData, .bytes (Verif.Codec.freeze env.fmt env.printable ((kSize, .int w.len) :: w.user)))] : Raw).map (·.1)).Nodup := by
    show ([kFormat, kCompression, kEncryption, kData] : List Bytes).Nodup
    decide
  have hn' : (m.map (·.1)).Nodup := ((hm.map (·.1)).nodup_iff).2 hn
  have hg : ∀ k v, (k, v) ∈ ([(kFormat, .int 2), (kCompression, .str (token (w.algo cfg))), (kEncryption, .str sNone),
      (kData, .bytes (Verif.Codec.freeze env.fmt env.printable ((kSize, .int w.len) :: w.user)))] : Raw) →
      get m k = some v :=
    fun k v h => (Verif.Codec.Checksum.get_eq_some hn' k v).2 (hm.symm.subset h)
  have g1 := hg kFormat (.int 2) (by simp)
  have g2 := hg kCompression (.str (token (w.algo cfg))) (by simp)
  have g3 := hg kEncryption (.str sNone) (by simp)
  have g5 := hg kData (.bytes (Verif.Codec.freeze env.fmt env.printable ((kSize, .int w.len) :: w.user))) (by simp)
  have hpl : get m kPayload = none := by
    cases hgp : get m kPayload with
    | none => rfl
    | some v =>
      exfalso
      have := hm.subset ((Verif.Codec.Checksum.get_eq_some hn' _ _).1 hgp)
      have := List.mem_map.2 ⟨_, this, (rfl : Prod.fst (kPayload, v) = kPayload)⟩
      revert this
      show kPayload ∈ ([kFormat, kCompression, kEncryption, kData] : List Bytes) → False
      decide
  refine ⟨?_, g2, g3, hpl⟩
  unfold verifyMeta
  rw [g1, g2, g3, g5, hp']
  simp [isTwo, thaw_written ht hs]

end Verif.Comprenc
