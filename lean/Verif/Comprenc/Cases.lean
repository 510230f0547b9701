import Verif.Comprenc.Props
/-
C26-C28: the hypotheses can be met; and what happens when the restrictions on keys and clock do not
hold.
-/
namespace Verif.Comprenc
open Verif.Codec.Checksum (le32 input Val encItem encVal leBytes)

/-! ### A codec and an environment for the examples -/

/-- Decompressor of the toy format: `1 x` stands for the byte `x`, `0` ends the stream. -/
def toyRun : Nat × Bytes → Bytes → Bytes × (Nat × Bytes)
  | s, [] => ([], s)
  | (0, u), b :: t => if b = 0 then toyRun (2, u) t else toyRun (1, u) t
  | (1, u), b :: t => (b :: (toyRun (0, u) t).1, (toyRun (0, u) t).2)
  | (n + 2, u), b :: t => toyRun (n + 2, u ++ [b]) t

/-- A compression format. -/
def toyCodec : Codec where
  C := Unit
  cinit := ()
  cfeed := fun _ b => (b.flatMap (fun x => [1, x]), ())
  cflush := fun _ => [0]
  D := Nat × Bytes
  dinit := (0, [])
  dfeed := fun d b => .ok (toyRun d b)
  eof := fun d => decide (2 ≤ d.1)
  unused := fun d => d.2

theorem toyRun_append (s : Nat × Bytes) (a b : Bytes) :
    toyRun s (a ++ b) = ((toyRun s a).1 ++ (toyRun (toyRun s a).2 b).1, (toyRun (toyRun s a).2 b).2) := by
  induction a generalizing s with
  | nil =>
    obtain ⟨n, u⟩ := s
    match n with
    | 0 => rfl
    | 1 => rfl
    | n + 2 => rfl
  | cons x a ih =>
    obtain ⟨n, u⟩ := s
    match n with
    | 0 =>
      simp only [List.cons_append, toyRun]
      split <;> exact ih _
    | 1 =>
      simp only [List.cons_append, toyRun, ih]
    | n + 2 => exact ih _

theorem Codec.feedAll_cons (cd : Codec) (d : cd.D) (b : Bytes) (t : List Bytes) :
    cd.feedAll d (b :: t) = (match cd.dfeed d b with
      | .error e => .error e
      | .ok (o, d') =>
        match cd.feedAll d' t with
        | .error e => .error e
        | .ok (o', d'') => .ok (o ++ o', d'')) := rfl

theorem toyFeed (d : Nat × Bytes) (outs : List Bytes) :
    toyCodec.feedAll d outs = .ok (toyRun d outs.flatten) := by
  induction outs generalizing d with
  | nil =>
    obtain ⟨n, u⟩ := d
    match n with
    | 0 => rfl
    | 1 => rfl
    | n + 2 => rfl
  | cons b t ih =>
    rw [List.flatten_cons, toyRun_append]
    refine (Codec.feedAll_cons toyCodec d b t).trans ?_
    rw [show toyCodec.dfeed d b = .ok ((toyRun d b).1, (toyRun d b).2) from rfl]
    dsimp only
    rw [show toyCodec.feedAll (toyRun d b).2 t = _ from ih (toyRun d b).2]
    rfl

theorem toyRun_stuff (x : Bytes) : toyRun (0, []) (x.flatMap (fun b => [1, b]) ++ [0]) = (x, (2, [])) := by
  induction x with
  | nil => rfl
  | cons b x ih =>
    show toyRun (0, []) (1 :: b :: (x.flatMap (fun b => [1, b]) ++ [0])) = _
    simp only [toyRun]
    rw [if_neg (by decide), ih]

theorem toyCompressed (ins : List Bytes) : toyCodec.compressed ins = ins.flatten.flatMap (fun x => [1, x]) ++ [0] := by
  have h : ∀ (l : List Bytes) (o : Bytes),
      l.foldl (fun (s : Unit × Bytes) b => ((), s.2 ++ b.flatMap (fun x => [1, x]))) ((), o) =
        ((), o ++ l.flatten.flatMap (fun x => [1, x])) := by
    intro l
    induction l with
    | nil => intro o; simp
    | cons b l ih => intro o; rw [List.foldl_cons, ih]; simp
  show (ins.foldl (fun (s : Unit × Bytes) b => ((), s.2 ++ b.flatMap (fun x => [1, x]))) ((), [])).2 ++ [0] = _
  rw [h]; rfl

/-- The assumption on compression libraries can be met. -/
theorem toyLawful : toyCodec.Lawful := by
  intro ins outs _ h
  refine ⟨(2, []), ?_, rfl, rfl⟩
  refine (toyFeed (0, []) outs).trans ?_
  rw [h, toyCompressed, toyRun_stuff]
  rfl

/-- An environment for the examples (its cryptography is not secure, of course). -/
def toyEnv : Env Empty where
  cr := { sha := fun b => b, mac := fun k m => List.replicate 32 (k.foldl (· + ·) 1 * m.foldl (· + ·) 7), ks := fun k i => k.getD (i % 5) 3, mac_len := fun _ _ => List.length_replicate }
  fmt := Verif.Codec.noFloat
  printable := fun _ => true
  codec := fun _ => toyCodec

theorem toyEnv_lawful : toyEnv.Lawful := fun _ _ => toyLawful

/-- `s3ql_data_1`. -/
def dataKey1 : Bytes := [115, 51, 113, 108, 95, 100, 97, 116, 97, 95, 49]

/-- Three bytes at offset 1 of a file, with one metadata entry. -/
def toyWrite : WriteArgs Empty where
  key := dataKey1
  file := [9, 10, 11, 12, 13]
  pos := 1
  len := 3
  user := [(['a'], .int 5)]
  dontCompress := false
  clock := [1, 2, 3, 4, 5, 6, 7, 8]
  short := fun _ => 0

theorem toyWrite_typed : toyWrite.Typed toyEnv where
  keys := by decide
  vals := by intro e he; rw [List.mem_singleton.1 (show e ∈ [((['a'] : Verif.Codec.Str), Verif.Codec.Val.int 5)] from he)]; trivial
  clock := rfl

/-- **C26** applies: the object can be written, compressed and encrypted, and is read back. -/
example : ∃ m buf, writeFh toyEnv ⟨some [42], .zlib⟩ toyWrite = .ok (m, buf) ∧
    readinto toyEnv ⟨some [42], .none⟩ dataKey1 m buf = .ok ([(['a'], .int 5)], [10, 11, 12]) := by
  obtain ⟨m, buf, h⟩ := C26_write_succeeds toyEnv ⟨some [42], .zlib⟩ toyWrite (by decide) (by decide) (by decide +kernel)
  exact ⟨m, buf, h, C26_write_read toyEnv toyEnv_lawful ⟨some [42], .zlib⟩ ⟨some [42], .none⟩ rfl toyWrite
    toyWrite_typed m m buf h (List.Perm.refl _)⟩

/-- A stream with two packets is decrypted. -/
example : decryptFh toyEnv.cr [7] (encryptFh toyEnv.cr [7] (fun _ => 0) [1, 2] 2).2 = .ok [1, 2] :=
  C26_decrypt_encrypt _ _ _ _ _

/-- An object as it was written contains no forged MAC: the assumption of C28 holds for every honest
storage service. -/
theorem unforged_written {F : Type} (env : Env F) (p : Bytes) (H : List (Cfg × WriteArgs F)) (cfg : Cfg)
    (w : WriteArgs F) (hw : (cfg, w) ∈ H) (hp : cfg.pass = some p) (m : Raw) (buf : Bytes)
    (h : writeFh env cfg w = .ok (m, buf)) : Unforged env p H m buf := by
  obtain ⟨hs, hok, rfl, rfl⟩ := write_encrypted hp h
  have hn := signed_keys env p cfg w (.bytes (env.cr.mac (env.cr.sha (p ++ w.nonce ++ sMeta))
      (input (unsigned env p cfg w))))
  have hno : ∀ n, get (unsigned env p cfg w ++ [(kSignature, .bytes (env.cr.mac (env.cr.sha (p ++ w.nonce ++ sMeta))
      (input (unsigned env p cfg w))))]) kNonce = some (.bytes n) → n = w.nonce := by
    intro n hg
    have h2 := (Verif.Codec.Checksum.get_eq_some hn kNonce (.bytes w.nonce)).2 (by simp [unsigned])
    have h3 := hg.symm.trans h2
    cases h3; rfl
  intro seed msg tag hpres htag
  refine ⟨(cfg, w), hw, ?_⟩
  cases hpres with
  | metadata h1 h2 =>
    left
    rw [hno _ h1]
    refine ⟨rfl, input_congr _ _ hn ?_⟩
    rw [List.filter_append, List.filter_cons_of_neg (by simp)]
    simp
  | content h1 h2 =>
    right
    have := hno _ h1
    subst this
    refine ⟨rfl, w.reads cfg, ?_, rfl⟩
    obtain ⟨ps, g1, g2, g3⟩ := encryptFh_spec env.cr (env.cr.sha (p ++ w.nonce)) (w.reads cfg)
      (compressPart env cfg w).1 (compressPart env cfg w).2
    rw [g3] at h2 ⊢
    have h3 := xorAt_inj _ _ _ _ h2
    refine (List.append_inj' h3 ?_).1.symm
    rw [htag, env.cr.mac_len, env.cr.mac_len]

/-- **C28** applies to a concrete history of two writes. -/
example : ∃ m buf user data, Unforged toyEnv [42]
    [(⟨some [42], .zlib⟩, toyWrite), (⟨some [42], .none⟩, { toyWrite with clock := [0, 0, 0, 0, 0, 0, 0, 0] })] m buf ∧
    KeyOk toyWrite.key ∧ readinto toyEnv ⟨some [42], .none⟩ dataKey1 m buf = .ok (user, data) := by
  obtain ⟨m, buf, h⟩ := C26_write_succeeds toyEnv ⟨some [42], .zlib⟩ toyWrite (by decide) (by decide) (by decide +kernel)
  refine ⟨m, buf, _, _, unforged_written toyEnv [42] _ ⟨some [42], .zlib⟩ toyWrite List.mem_cons_self rfl m buf h, ?_,
    C26_write_read toyEnv toyEnv_lawful ⟨some [42], .zlib⟩ ⟨some [42], .none⟩ rfl toyWrite
      toyWrite_typed m m buf h (List.Perm.refl _)⟩
  unfold KeyOk
  refine ⟨by decide, by decide, ?_⟩
  rw [← List.isSuffixOf_iff_suffix]
  decide

/-! ### Keys used by S3QL -/

theorem keyOk_of_digit (pre : Bytes) (h0 : (0 : UInt8) ∉ pre) (h4 : 4 ≤ pre.length) (k : Bytes)
    (hk : k = pre ++ k.drop pre.length) (hz : (0 : UInt8) ∉ k.drop pre.length)
    (hlast : ∃ l, k.getLast? = some l ∧ l ≠ 97) : KeyOk k := by
  refine ⟨?_, ?_, ?_⟩
  · rw [hk]; intro h
    rcases List.mem_append.1 h with h | h
    · exact h0 h
    · exact hz h
  · rw [hk, List.length_append]; omega
  · rintro ⟨t, ht⟩
    obtain ⟨l, hl, hne⟩ := hlast
    rw [← ht] at hl
    have : (t ++ sMeta).getLast? = some 97 := by
      rw [List.getLast?_append]; rfl
    rw [this] at hl
    exact hne (Option.some.inj hl).symm

/-- Data objects: `s3ql_data_%d`. -/
theorem keyOk_data (n : Nat) : KeyOk ([115, 51, 113, 108, 95, 100, 97, 116, 97, 95] ++ Verif.Codec.Checksum.decBytes n) := by
  have hd : ∀ b ∈ Verif.Codec.Checksum.decBytes n, b ≠ 0 ∧ b ≠ 97 := by
    intro b hb
    refine ⟨(Verif.Codec.Checksum.mem_decBytes n b hb).1, ?_⟩
    unfold Verif.Codec.Checksum.decBytes at hb
    rw [List.mem_map] at hb
    obtain ⟨d, hd, rfl⟩ := hb
    have hall : ∀ d, d < 10 → UInt8.ofNat (48 + d) ≠ 97 := by decide
    exact hall d (Verif.Codec.digits_lt 8 n d hd)
  have hne : Verif.Codec.Checksum.decBytes n ≠ [] := by
    unfold Verif.Codec.Checksum.decBytes
    intro h
    exact Verif.Codec.digits_ne_nil 8 n (List.map_eq_nil_iff.1 h)
  refine keyOk_of_digit [115, 51, 113, 108, 95, 100, 97, 116, 97, 95] (by decide) (by decide) _ rfl ?_ ?_
  · intro h; exact (hd 0 h).1 rfl
  · refine ⟨(Verif.Codec.Checksum.decBytes n).getLast hne, ?_, (hd _ (List.getLast_mem hne)).2⟩
    rw [List.getLast?_append, List.getLast?_eq_some_getLast hne]; rfl

/-! ### Without the restrictions -/

/-- The key that, with its NUL characters, looks like key `k` followed by a metadata entry
`payload_offset = 0`. -/
def trickKey (k : Bytes) : Bytes := k ++ 0 :: (kPayload ++ [0, 105, 48])

/-- The metadata that a malicious service returns for `k`, made from the metadata of the object with key
`trickKey k`: the signature is kept. -/
def trickMeta (k : Bytes) (m : Raw) : Raw :=
  (m.filter (fun e => e.1 ≠ kObjectId)) ++ [(kObjectId, .str k), (kPayload, .int 0)]

theorem trick_input (tok d n k : Bytes) (v : Val) :
    input ([(kFormat, .int 2), (kCompression, .str tok), (kEncryption, .str sAes), (kNonce, .bytes n),
      (kData, .bytes d), (kSignature, v), (kObjectId, .str k), (kPayload, .int 0)] : Raw) =
    ((sorted6 tok d sAes n (trickKey k)).map encItem).flatten := by
  have hn : (([(kFormat, .int 2), (kCompression, .str tok), (kEncryption, .str sAes), (kNonce, .bytes n), (kData, .bytes d), (kSignature, v), (kObjectId, .str k), (kPayload, .int 0)] : Raw).map (·.1)).Nodup := by
    show ([kFormat, kCompression, kEncryption, kNonce, kData, kSignature, kObjectId, kPayload] : List Bytes).Nodup
    decide
  have hn1 : ((sorted6 tok d sAes n k ++ [(kPayload, Val.int 0)]).map (·.1)).Nodup := by
    show ([kCompression, kData, kEncryption, kFormat, kNonce, kObjectId, kPayload] : List Bytes).Nodup
    decide
  have hf : (sorted6 tok d sAes n k ++ [(kPayload, Val.int 0)]).filter (fun e => e.1 ≠ kSignature) =
      sorted6 tok d sAes n k ++ [(kPayload, .int 0)] := rfl
  have h1 : input ([(kFormat, .int 2), (kCompression, .str tok), (kEncryption, .str sAes), (kNonce, .bytes n),
      (kData, .bytes d), (kSignature, v), (kObjectId, .str k), (kPayload, .int 0)] : Raw) =
      input (sorted6 tok d sAes n k ++ [(kPayload, .int 0)]) := by
    apply input_congr _ _ hn
    rw [hf]
    show List.Perm (α := Bytes × Val) [(kFormat, .int 2), (kCompression, .str tok), (kEncryption, .str sAes), (kNonce, .bytes n),
      (kData, .bytes d), (kObjectId, .str k), (kPayload, .int 0)] _
    refine (List.perm_ext_iff_of_nodup (nodup_of_keys (by
      show ([kFormat, kCompression, kEncryption, kNonce, kData, kObjectId, kPayload] : List Bytes).Nodup
      decide)) (nodup_of_keys hn1)).2 ?_
    intro a
    unfold sorted6
    simp only [List.mem_cons, List.not_mem_nil, or_false, List.cons_append, List.nil_append]
    constructor
    · rintro (h | h | h | h | h | h | h) <;> simp only [h, true_or, or_true]
    · rintro (h | h | h | h | h | h | h) <;> simp only [h, true_or, or_true]
  rw [h1]
  unfold input
  rw [List.mergeSort_of_pairwise]
  · show List.flatten (List.map encItem ((sorted6 tok d sAes n k ++ [(kPayload, Val.int 0)]).filter (fun e => e.1 ≠ kSignature))) = _
    rw [hf]
    unfold sorted6 trickKey
    simp [encItem, encVal, Verif.Codec.Checksum.intBytes, show Verif.Codec.Checksum.decBytes 0 = [48] from by decide +kernel]
  · have h6 : ([kCompression, kData, kEncryption, kFormat, kNonce, kObjectId, kPayload] : List Bytes).Pairwise
        (fun a b => leBytes a b = true) := by decide
    exact List.Pairwise.of_map (f := fun e : Bytes × Val => e.1) (S := fun a b => leBytes a b = true) (fun _ _ h => h) h6

/-- Why C28 needs keys without NUL: the object written under `trickKey k` can be returned for `k`, without forging
a MAC, whatever the cryptography.  (S3QL itself never uses such keys.) -/
theorem C28_nul_key_swap {F : Type} (env : Env F) (hl : env.Lawful) (cfg : Cfg) (p k : Bytes) (hp : cfg.pass = some p)
    (w : WriteArgs F) (ht : w.Typed env) (hk : w.key = trickKey k) (m : Raw) (buf : Bytes)
    (h : writeFh env cfg w = .ok (m, buf)) :
    readinto env cfg k (trickMeta k m) buf = .ok (w.user, w.data) := by
  have hread := C26_write_read env hl cfg cfg rfl w ht m m buf h (List.Perm.refl _)
  obtain ⟨hs, hok, rfl, rfl⟩ := write_encrypted hp h
  obtain ⟨v1, v2, v3, v4⟩ := verify_written (cfg := cfg) hp ht hs hok _ (List.Perm.refl _)
  have hm : trickMeta k (unsigned env p cfg w ++ [(kSignature, .bytes (env.cr.mac (env.cr.sha (p ++ w.nonce ++ sMeta))
      (input (unsigned env p cfg w))))]) =
    [(kFormat, .int 2), (kCompression, .str (token (w.algo cfg))), (kEncryption, .str sAes), (kNonce, .bytes w.nonce),
      (kData, .bytes (xorAt (env.cr.ks (env.cr.sha (p ++ w.nonce ++ sMeta))) 0
        (Verif.Codec.freeze env.fmt env.printable ((kSize, .int w.len) :: w.user)))),
      (kSignature, .bytes (env.cr.mac (env.cr.sha (p ++ w.nonce ++ sMeta)) (input (unsigned env p cfg w)))),
      (kObjectId, .str k), (kPayload, .int 0)] := rfl
  have hin := trick_input (token (w.algo cfg)) (xorAt (env.cr.ks (env.cr.sha (p ++ w.nonce ++ sMeta))) 0
        (Verif.Codec.freeze env.fmt env.printable ((kSize, .int w.len) :: w.user))) w.nonce k
        (.bytes (env.cr.mac (env.cr.sha (p ++ w.nonce ++ sMeta)) (input (unsigned env p cfg w))))
  rw [← hm, ← hk] at hin
  have hin2 : input (trickMeta k (unsigned env p cfg w ++ [(kSignature, .bytes (env.cr.mac
      (env.cr.sha (p ++ w.nonce ++ sMeta)) (input (unsigned env p cfg w))))])) = input (unsigned env p cfg w) := by
    rw [hin, input_unsigned]; rfl
  have hsum : sumOk (trickMeta k (unsigned env p cfg w ++ [(kSignature, .bytes (env.cr.mac
      (env.cr.sha (p ++ w.nonce ++ sMeta)) (input (unsigned env p cfg w))))])) = true := by
    unfold sumOk at hok ⊢
    rw [List.all_eq_true] at hok ⊢
    intro e he
    unfold trickMeta at he
    rw [List.mem_append, List.mem_filter, List.mem_append] at he
    rcases he with ⟨h1 | h1, _⟩ | h1
    · exact hok e h1
    · rw [List.mem_singleton.1 h1]; simp
    · simp only [List.mem_cons, List.not_mem_nil, or_false] at h1
      rcases h1 with h1 | h1 <;> rw [h1] <;> simp
  generalize hT : trickMeta k _ = T at *
  have g : ∀ q, get T q = get [(kFormat, .int 2), (kCompression, .str (token (w.algo cfg))), (kEncryption, .str sAes), (kNonce, .bytes w.nonce),
      (kData, .bytes (xorAt (env.cr.ks (env.cr.sha (p ++ w.nonce ++ sMeta))) 0
        (Verif.Codec.freeze env.fmt env.printable ((kSize, .int w.len) :: w.user)))),
      (kSignature, .bytes (env.cr.mac (env.cr.sha (p ++ w.nonce ++ sMeta)) (input (unsigned env p cfg w)))),
      (kObjectId, .str k), (kPayload, .int 0)] q := fun q => by rw [hm]
  have g1 : get T kFormat = some (.int 2) := (g _).trans rfl
  have g2 : get T kCompression = some (.str (token (w.algo cfg))) := (g _).trans rfl
  have g3 : get T kEncryption = some (.str sAes) := (g _).trans rfl
  have g4 : get T kNonce = some (.bytes w.nonce) := (g _).trans rfl
  have g5 : get T kData = some (.bytes (xorAt (env.cr.ks (env.cr.sha (p ++ w.nonce ++ sMeta))) 0 (Verif.Codec.freeze env.fmt env.printable ((kSize, .int w.len) :: w.user)))) := (g _).trans rfl
  have g6 : get T kSignature = some (.bytes (env.cr.mac (env.cr.sha (p ++ w.nonce ++ sMeta)) (input (unsigned env p cfg w)))) := (g _).trans rfl
  have g7 : get T kObjectId = some (.str k) := (g _).trans rfl
  have g8 : get T kPayload = some (.int 0) := (g _).trans rfl
  have hv : verifyMeta env cfg k T = .ok (some w.nonce, (kSize, .int w.len) :: w.user) := by
    have hve : verifyEncrypted env p k T (xorAt (env.cr.ks (env.cr.sha (p ++ w.nonce ++ sMeta))) 0
        (Verif.Codec.freeze env.fmt env.printable ((kSize, .int w.len) :: w.user))) =
        .ok (w.nonce, (kSize, .int w.len) :: w.user) := by
      unfold verifyEncrypted
      rw [g4, g6, g7]
      dsimp only
      rw [hsum, hin2, xorAt_xorAt, thaw_written ht hs]
      simp
    unfold verifyMeta
    rw [g1, g2, g3, g5, hp]
    have e1 : decide ((some (Val.str sAes) : Option Val) ≠ some (.str sNone)) = true := by decide
    rw [e1]
    dsimp only
    rw [hve]
    simp [isTwo]
  unfold readinto at hread ⊢
  rw [hv, g2, g3]
  rw [v1, v2, v3] at hread
  dsimp only at hread ⊢
  unfold payload at hread ⊢
  rw [v4] at hread
  rw [g8]
  exact hread

/-- The violation is real: there is such a key different from `k`, and a write to it succeeds. -/
example : trickKey dataKey1 ≠ dataKey1 ∧
    ∃ m buf, writeFh toyEnv ⟨some [42], .zlib⟩ { toyWrite with key := trickKey dataKey1 } = .ok (m, buf) :=
  ⟨by decide, C26_write_succeeds toyEnv ⟨some [42], .zlib⟩ { toyWrite with key := trickKey dataKey1 } (by decide)
    (by decide) (by decide +kernel)⟩

/-- Why C28 needs a clock that advances: if two writes to the same key read the same time, the service can combine
the metadata of one with the content of the other, whatever the cryptography. -/
theorem C28_same_clock_mix {F : Type} (env : Env F) (hl : env.Lawful) (cfg : Cfg) (p : Bytes) (hp : cfg.pass = some p)
    (w w' : WriteArgs F) (ht : w.Typed env) (hk : w'.key = w.key) (hc : w'.clock = w.clock)
    (hd : w'.dontCompress = w.dontCompress) (m m' : Raw) (buf buf' : Bytes)
    (h : writeFh env cfg w = .ok (m, buf)) (h' : writeFh env cfg w' = .ok (m', buf')) :
    readinto env cfg w.key m buf' = .ok (w.user, w'.data) := by
  obtain ⟨hs, hok, rfl, rfl⟩ := write_encrypted hp h
  obtain ⟨_, _, _, rfl⟩ := write_encrypted hp h'
  have ha : w'.algo cfg = w.algo cfg := by unfold WriteArgs.algo; rw [hd]
  have hn : w'.nonce = w.nonce := by unfold WriteArgs.nonce; rw [hk, hc]
  obtain ⟨h1, h2, h3, h4⟩ := verify_written (cfg := cfg) hp ht hs hok _ (List.Perm.refl _)
  unfold readinto
  rw [h1, h2, h3]
  dsimp only
  rw [if_neg (by decide), algOf_token, hp]
  dsimp only
  unfold payload
  rw [h4]
  dsimp only
  have hne : w.nonce ≠ [] := by
    intro e
    have := congrArg List.length e
    unfold WriteArgs.nonce at this
    rw [List.length_append, ht.clock] at this
    simp at this
  rw [if_neg hne]
  unfold unpack
  dsimp only
  rw [hn, C26_decrypt_encrypt]
  dsimp only
  obtain ⟨ps, g1, g2, g3⟩ := encryptFh_spec env.cr (env.cr.sha (p ++ w.nonce)) (w'.reads cfg)
    (compressPart env cfg w').1 (compressPart env cfg w').2
  rw [← g2, ← ha, unpack_written env cfg w' hl p hp ps g2, popSize_written hs]
  simp [sizeOk]

end Verif.Comprenc
