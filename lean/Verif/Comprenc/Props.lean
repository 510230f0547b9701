import Verif.Comprenc.ReadLemmas
/-
C26 (decryption undoes encryption), C27 (modified streams are rejected) and C28 (objects are bound to
their key and to the encryption state of the file system).
-/
namespace Verif.Comprenc
open Verif.Codec.Checksum (le32 input Val encItem encVal leBytes)

/-! ## C26 -/

/-- **C26**, streams: decrypting what `encrypt_fh` has written gives the first `len` bytes of the
input, for every key and however the input is read in pieces. -/
theorem C26_decrypt_encrypt (cr : Crypto) (key : Bytes) (short : Nat → Nat) (file : Bytes) (len : Nat) :
    decryptFh cr key (encryptFh cr key short file len).2 = .ok (file.take len) := by
  obtain ⟨ps, h1, h2, h3⟩ := encryptFh_spec cr key short file len
  rw [h3, decryptFh_iff]
  exact ⟨ps, h1, h2.symm, rfl⟩

/-- **C26**, objects: what `write_fh` hands to the backend is read back as the data and the metadata
given by the caller.  The backend may return the metadata in any order; the reader may be configured
for another compression algorithm. -/
theorem C26_write_read {F : Type} (env : Env F) (hl : env.Lawful) (cfg cfg' : Cfg) (hc : cfg'.pass = cfg.pass)
    (w : WriteArgs F) (ht : w.Typed env) (m m' : Raw) (buf : Bytes)
    (h : writeFh env cfg w = .ok (m, buf)) (hm : m'.Perm m) :
    readinto env cfg' w.key m' buf = .ok (w.user, w.data) := by
  cases hp : cfg.pass with
  | none =>
    obtain ⟨hs, rfl, rfl⟩ := write_plain hp h
    obtain ⟨h1, h2, h3, h4⟩ := verify_plain (cfg := cfg) (hc.trans hp) ht hs w.key m' hm
    unfold readinto
    rw [h1, h2, h3]
    dsimp only
    rw [if_neg (by decide), algOf_token]
    dsimp only
    unfold payload
    rw [h4]
    dsimp only
    rw [compressPart_plain env cfg w hl hp, popSize_written hs]
    simp [sizeOk]
  | some p =>
    obtain ⟨hs, hok, rfl, rfl⟩ := write_encrypted hp h
    obtain ⟨h1, h2, h3, h4⟩ := verify_written (hc.trans hp) ht hs hok m' hm
    unfold readinto
    rw [h1, h2, h3]
    dsimp only
    rw [if_neg (by decide), algOf_token, hc, hp]
    dsimp only
    unfold payload
    rw [h4]
    dsimp only
    have hne : w.nonce ≠ [] := by
      intro e
      have := congrArg List.length e
      unfold WriteArgs.nonce at this
      rw [List.length_append, ht.clock] at this
      simp at this
    rw [if_neg hne]
    unfold unpack
    dsimp only
    rw [C26_decrypt_encrypt]
    dsimp only
    obtain ⟨ps, g1, g2, g3⟩ := encryptFh_spec env.cr (env.cr.sha (p ++ w.nonce)) (w.reads cfg)
      (compressPart env cfg w).1 (compressPart env cfg w).2
    rw [← g2, unpack_written env cfg w hl p hp ps g2, popSize_written hs]
    simp [sizeOk]

/-- **C26**, writing succeeds unless the caller uses the reserved metadata key, or (with encryption)
the serialised metadata or the key do not fit into the length fields of the checksum. -/
theorem C26_write_succeeds {F : Type} (env : Env F) (cfg : Cfg) (w : WriteArgs F) (hs : kSize ∉ w.user.map (·.1))
    (hn : (w.clock ++ w.key).length < 2 ^ 32)
    (hm : (Verif.Codec.freeze env.fmt env.printable ((kSize, .int w.len) :: w.user)).length < 2 ^ 32) :
    ∃ m buf, writeFh env cfg w = .ok (m, buf) := by
  unfold writeFh
  rw [if_neg (fun h => hs (List.contains_iff_mem.1 h))]
  dsimp only
  cases hp : cfg.pass with
  | none => exact ⟨_, _, rfl⟩
  | some p =>
    dsimp only
    have : sumOk (unsigned env p cfg w) = true := by
      unfold sumOk unsigned
      simp only [List.all_cons, List.all_nil, Bool.and_true, Bool.and_eq_true, Bool.or_eq_true, decide_eq_true_eq]
      refine ⟨Or.inr trivial, Or.inr trivial, Or.inr trivial, Or.inr hn, Or.inr ?_, Or.inr trivial⟩
      rw [xorAt_length]; exact hm
    rw [this]
    exact ⟨_, _, rfl⟩

/-- Looking up metadata gives the metadata that was written. -/
theorem C26_write_lookup {F : Type} (env : Env F) (cfg cfg' : Cfg) (hc : cfg'.pass = cfg.pass)
    (w : WriteArgs F) (ht : w.Typed env) (m m' : Raw) (buf : Bytes)
    (h : writeFh env cfg w = .ok (m, buf)) (hm : m'.Perm m) : lookup env cfg' w.key m' = .ok w.user := by
  unfold lookup
  cases hp : cfg.pass with
  | none =>
    obtain ⟨hs, rfl, rfl⟩ := write_plain hp h
    rw [(verify_plain (cfg := cfg) (hc.trans hp) ht hs w.key m' hm).1]
    dsimp only
    rw [popSize_written hs]
  | some p =>
    obtain ⟨hs, hok, rfl, rfl⟩ := write_encrypted hp h
    rw [(verify_written (hc.trans hp) ht hs hok m' hm).1]
    dsimp only
    rw [popSize_written hs]

/-! ## C27 -/

/-- **C27**: a stream that is accepted is one that `encrypt_fh` has produced under this key (`S`: the
calls, as how the file was read, file and length), and the data is that which was encrypted - provided
that the stream does not contain a valid MAC for a message that was never authenticated. -/
theorem C27_only_authentic (cr : Crypto) (key : Bytes) (S : List ((Nat → Nat) × Bytes × Nat)) (c d : Bytes)
    (unforged : ∀ msg tag, c = xorAt (cr.ks key) 0 (msg ++ tag) → tag = cr.mac key msg →
      ∃ e ∈ S, msg = (encryptFh cr key e.1 e.2.1 e.2.2).1)
    (h : decryptFh cr key c = .ok d) :
    ∃ e ∈ S, c = (encryptFh cr key e.1 e.2.1 e.2.2).2 ∧ d = e.2.1.take e.2.2 := by
  obtain ⟨ps, h1, h2, h3⟩ := (decryptFh_iff cr key c d).1 h
  obtain ⟨e, he, hm⟩ := unforged _ _ h3 rfl
  obtain ⟨qs, g1, g2, g3⟩ := encryptFh_spec cr key e.1 e.2.1 e.2.2
  rw [g3] at hm
  have hpq : ps = qs := (frame_inj ps qs h1 g1 [] [] (by rw [List.append_nil, List.append_nil]; exact hm)).1
  subst hpq
  exact ⟨e, he, by rw [g3, h3], by rw [h2, g2]⟩

/-- **C27**, truncation and extension, without any assumption on the MAC: of two accepted streams
under the same key, neither is a proper prefix of the other. -/
theorem C27_truncated_or_extended (cr : Crypto) (key c x d : Bytes) (hx : x ≠ [])
    (h : decryptFh cr key c = .ok d) : ∀ d', decryptFh cr key (c ++ x) ≠ .ok d' := by
  intro d' h'
  obtain ⟨ps, h1, _, h3⟩ := (decryptFh_iff cr key _ _).1 h
  obtain ⟨qs, g1, _, g3⟩ := (decryptFh_iff cr key _ _).1 h'
  have e : frame ps ++ (cr.mac key (frame ps) ++ xorAt (cr.ks key) (frame ps ++ cr.mac key (frame ps)).length x) =
      frame qs ++ cr.mac key (frame qs) := by
    apply xorAt_inj (cr.ks key) 0
    rw [← g3, h3, ← List.append_assoc, xorAt_append (cr.ks key) 0 (frame ps ++ cr.mac key (frame ps)), Nat.zero_add,
      xorAt_xorAt]
  obtain ⟨e1, e2⟩ := frame_inj ps qs h1 g1 _ _ e
  subst e1
  have := congrArg List.length e2
  rw [List.length_append, xorAt_length] at this
  exact hx (List.length_eq_zero_iff.1 (by omega))

/-- **C27**, which error: decryption never fails in another way than with `CorruptedObjectError`. -/
theorem C27_error (cr : Crypto) (key c : Bytes) (e : Err) (h : decryptFh cr key c = .error e) : e = .corrupted := by
  have hl : ∀ st e, decLoop (cr.ks key) st = .error e → e = .corrupted := by
    intro st e h
    fun_induction decLoop (cr.ks key) st with
    | case1 => cases h; rfl
    | case2 => cases h; rfl
    | case3 => cases h
    | case4 st hdr h0 buf st1 hl hz e' he =>
      rw [decPacket_spec] at he
      split at he
      · cases he
      · cases he; cases h; rfl
    | case5 st hdr h0 buf st1 hl hz st2 he ih => exact ih h
  unfold decryptFh at h
  split at h
  · rename_i e' he
    cases h
    exact hl _ _ he
  · dsimp only at h
    split at h
    · cases h; rfl
    · split at h
      · cases h; rfl
      · cases h

/-! ## C28 -/

/-- What a successful verification with a passphrase has checked. -/
theorem verify_ok {F : Type} {env : Env F} {cfg : Cfg} {p key : Bytes} (hp : cfg.pass = some p) {m : Raw}
    {n : Option Bytes} {d : Meta F} (h : verifyMeta env cfg key m = .ok (n, d)) :
    ∃ no metaBuf t, n = some no ∧ isTwo (get m kFormat) = true ∧ get m kEncryption ≠ some (.str sNone) ∧
      (∃ c, get m kCompression = some c) ∧ get m kData = some (.bytes metaBuf) ∧
      get m kNonce = some (.bytes no) ∧ get m kObjectId = some (.str key) ∧ get m kSignature = some (.bytes t) ∧
      sumOk m = true ∧ t = env.cr.mac (env.cr.sha (p ++ no ++ sMeta)) (input m) ∧
      thawMeta env (xorAt (env.cr.ks (env.cr.sha (p ++ no ++ sMeta))) 0 metaBuf) = .ok d := by
  unfold verifyMeta at h
  split at h
  · cases h
  · rename_i h1
    split at h
    · cases h
    · rename_i h2
      rw [hp] at h
      split at h
      · rename_i heq; cases heq
      · cases h
      · rename_i heq; cases heq
      · rename_i p' h3 heq
        cases heq
        split at h
        · rename_i metaBuf h4
          split at h
          · rename_i no d' hv
            cases h
            unfold verifyEncrypted at hv
            split at hv
            · rename_i no' sk sig g1 g2 g3
              dsimp only at hv
              split at hv
              · cases hv
              · rename_i hs
                split at hv
                · cases hv
                · rename_i hsig
                  split at hv
                  · cases hv
                  · rename_i hk
                    split at hv
                    · rename_i d'' hth
                      cases hv
                      have hk' : sk = key := Decidable.of_not_not hk
                      subst hk'
                      refine ⟨no, metaBuf, sig, rfl, by simpa using h1, by simpa using h3, ?_, h4, g1, g2, g3,
                        by simpa using hs, Decidable.of_not_not hsig, hth⟩
                      cases hc : get m kCompression with
                      | none => exact absurd (Or.inr (Or.inl (by rw [hc]; rfl))) h2
                      | some c => exact ⟨c, rfl⟩
                    · cases hv
            · cases hv
          · cases h
        · cases h

theorem nonce_suffix {F : Type} {w : WriteArgs F} (hw : w.clock.length = 8) (hk : KeyOk w.key)
    {x : Bytes} (h : w.nonce = x ++ sMeta) : False := by
  unfold WriteArgs.nonce at h
  refine hk.2.2 ?_
  have hx : x.length = 4 + w.key.length := by
    have := congrArg List.length h
    rw [List.length_append, List.length_append, hw] at this
    have h4 : sMeta.length = 4 := rfl
    omega
  have e : w.key = x.drop 8 ++ sMeta := by
    have := congrArg (List.drop 8) h
    rw [List.drop_left' hw, List.drop_append_of_le_length (by have := hk.2.1; omega)] at this
    exact this
  exact ⟨x.drop 8, e.symm⟩

theorem nonce_inj {F : Type} {w w' : WriteArgs F} (h8 : w.clock.length = 8) (h8' : w'.clock.length = 8)
    (h : w.nonce = w'.nonce) : w.clock = w'.clock ∧ w.key = w'.key :=
  List.append_inj h (h8.trans h8'.symm)

theorem token_nul (a : Alg) : (0 : UInt8) ∉ token a := by cases a <;> decide

/-- Metadata that passes verification, names algorithms without NUL and contains no forged MAC was
written for this very key. -/
theorem meta_authentic {F : Type} {env : Env F} {cfg : Cfg} {p key : Bytes} (hp : cfg.pass = some p)
    {H : List (Cfg × WriteArgs F)} (hH : ∀ e ∈ H, e.1.pass = some p ∧ e.2.Typed env ∧ KeyOk e.2.key ∧
      ∃ r, writeFh env e.1 e.2 = .ok r)
    {m : Raw} (hm : (m.map (·.1)).Nodup) {buf : Bytes} (hu : Unforged env p H m buf)
    {n : Option Bytes} {d : Meta F} (h : verifyMeta env cfg key m = .ok (n, d))
    {tok enc : Bytes} (ht : get m kCompression = some (.str tok)) (he : get m kEncryption = some (.str enc))
    (htz : (0 : UInt8) ∉ tok) (hez : (0 : UInt8) ∉ enc) :
    ∃ e ∈ H, e.2.key = key ∧ n = some e.2.nonce ∧ tok = token (e.2.algo e.1) ∧ enc = sAes ∧
      d = (kSize, .int e.2.len) :: e.2.user ∧ kSize ∉ e.2.user.map (·.1) ∧ get m kPayload = none ∧
      get m kNonce = some (.bytes e.2.nonce) := by
  obtain ⟨no, metaBuf, t, rfl, g1, g2, g3, g4, g5, g6, g7, g8, g9, g10⟩ := verify_ok hp h
  obtain ⟨e, heH, hsig⟩ := hu (no ++ sMeta) (input m) t (.metadata g5 g7) (by rw [g9, List.append_assoc])
  obtain ⟨e1, e2, e3, ⟨mw, bw⟩, e4⟩ := hH e heH
  obtain ⟨hs, hok, _, _⟩ := write_encrypted e1 e4
  rcases hsig with ⟨hseed, hmsg⟩ | ⟨hseed, _⟩
  · have hno : no = e.2.nonce := List.append_cancel_right hseed
    rw [input_unsigned] at hmsg
    have hl : (xorAt (env.cr.ks (env.cr.sha (p ++ e.2.nonce ++ sMeta))) 0
        (Verif.Codec.freeze env.fmt env.printable ((kSize, .int e.2.len) :: e.2.user))).length < 2 ^ 32 ∧
        e.2.nonce.length < 2 ^ 32 := by
      unfold sumOk at hok
      rw [List.all_eq_true] at hok
      constructor
      · have := hok (kData, .bytes (xorAt (env.cr.ks (env.cr.sha (p ++ e.2.nonce ++ sMeta))) 0
          (Verif.Codec.freeze env.fmt env.printable ((kSize, .int e.2.len) :: e.2.user)))) (by simp [unsigned])
        simp only [Bool.or_eq_true, decide_eq_true_eq] at this
        rcases this with h | h
        · exact absurd h (by decide)
        · exact h
      · have := hok (kNonce, .bytes e.2.nonce) (by simp [unsigned])
        simp only [Bool.or_eq_true, decide_eq_true_eq] at this
        rcases this with h | h
        · exact absurd h (by decide)
        · exact h
    have hl' : metaBuf.length < 2 ^ 32 ∧ no.length < 2 ^ 32 := by
      unfold sumOk at g8
      rw [List.all_eq_true] at g8
      constructor
      · have := g8 _ (get_mem hm g4)
        simp only [Bool.or_eq_true, decide_eq_true_eq] at this
        rcases this with h | h
        · exact absurd h (by decide)
        · exact h
      · have := g8 _ (get_mem hm g5)
        simp only [Bool.or_eq_true, decide_eq_true_eq] at this
        rcases this with h | h
        · exact absurd h (by decide)
        · exact h
    obtain ⟨q1, q2, q3, q4, q5, q6⟩ := input_sorted6 m hm _ _ _ _ _ tok metaBuf enc no key
      (by
        intro s hs
        simp only [List.mem_cons, List.not_mem_nil, or_false] at hs
        rcases hs with h | h | h | h | h
        · rw [h]; exact token_nul _
        · rw [h]; decide
        · rw [h]; exact e3.1
        · rw [h]; exact htz
        · rw [h]; exact hez) hl hl' ht g4 he g1 g5 g6 hmsg
    refine ⟨e, heH, q5.symm, by rw [hno], q1, q3, ?_, hs, q6, by rw [g5, hno]⟩
    rw [q2, q4, xorAt_xorAt, thaw_written e2 hs] at g10
    exact (Except.ok.inj g10).symm
  · exact (nonce_suffix e2.clock e3 hseed.symm).elim

/-- **C28**, reading with a passphrase: whatever metadata and content the storage service returns for
`key`, if reading succeeds then data and metadata are those of one write *to that very key*.
`H` is the list of all writes made with the passphrase, with their configuration; the clock gave them
different nonces.  Assumed: the service has not forged a MAC; keys do not contain NUL characters and
do not end in `meta`. -/
theorem C28_read_authentic {F : Type} (env : Env F) (hl : env.Lawful) (cfg : Cfg) (p key : Bytes)
    (hp : cfg.pass = some p) (H : List (Cfg × WriteArgs F))
    (hH : ∀ e ∈ H, e.1.pass = some p ∧ e.2.Typed env ∧ KeyOk e.2.key ∧ ∃ r, writeFh env e.1 e.2 = .ok r)
    (fresh : ∀ e ∈ H, ∀ e' ∈ H, e.2.nonce = e'.2.nonce → e = e')
    (m : Raw) (hm : (m.map (·.1)).Nodup) (buf : Bytes) (hu : Unforged env p H m buf)
    (user : Meta F) (data : Bytes) (h : readinto env cfg key m buf = .ok (user, data)) :
    ∃ e ∈ H, e.2.key = key ∧ user = e.2.user ∧ data = e.2.data := by
  unfold readinto at h
  split at h
  · cases h
  · rename_i n d hv
    dsimp only at h
    split at h
    · rename_i tok enc ht he
      split at h
      · cases h
      · rename_i henc
        split at h
        · cases h
        · rename_i alg halg
          have htok := token_of_algOf halg
          have hez : (0 : UInt8) ∉ enc := by
            by_cases h1 : enc = sAes
            · rw [h1]; decide
            · by_cases h2 : enc = sNone
              · rw [h2]; decide
              · exact absurd ⟨h1, h2⟩ henc
          obtain ⟨e, heH, q1, q2, q3, q4, q5, q6, q7, q8⟩ :=
            meta_authentic hp hH hm hu hv ht he (by rw [htok]; exact token_nul _) hez
          obtain ⟨e1, e2, e3, e4⟩ := hH e heH
          unfold payload at h
          rw [q7] at h
          dsimp only at h
          split at h
          · cases h
          · have hne : e.2.nonce ≠ [] := by
              intro en
              have := congrArg List.length en
              unfold WriteArgs.nonce at this
              rw [List.length_append, e2.clock] at this
              simp at this
            rw [q2, hp] at h
            dsimp only at h
            rw [if_neg hne] at h
            split at h
            · cases h
            · rename_i data' hun
              cases h
              refine ⟨e, heH, q1, by rw [q5, popSize_written q6], ?_⟩
              unfold unpack at hun
              dsimp only at hun
              split at hun
              · cases hun
              · rename_i pl hd
                obtain ⟨ps, h1, h2, h3⟩ := (decryptFh_iff _ _ _ _).1 hd
                obtain ⟨e', he'H, hsig⟩ := hu e.2.nonce (frame ps) _ (.content q8 h3) rfl
                obtain ⟨e1', e2', e3', e4'⟩ := hH e' he'H
                rcases hsig with ⟨hseed, _⟩ | ⟨hseed, short, hmsg, _⟩
                · exact (nonce_suffix e2.clock e3 hseed).elim
                · have := fresh e heH e' he'H hseed
                  subst this
                  obtain ⟨qs, g1, g2, g3⟩ := encryptFh_spec env.cr (env.cr.sha (p ++ e.2.nonce)) short
                    (compressPart env e.1 e.2).1 (compressPart env e.1 e.2).2
                  rw [g3] at hmsg
                  have hpq : ps = qs :=
                    (frame_inj ps qs h1 g1 [] [] (by rw [List.append_nil, List.append_nil]; exact hmsg)).1
                  subst hpq
                  have halg' : alg = e.2.algo e.1 := by
                    have := algOf_token (e.2.algo e.1)
                    rw [← q3, halg] at this
                    exact Option.some.inj this
                  have hw := unpack_written env e.1 e.2 hl p e1 ps g2
                  rw [← halg', ← h2, hun] at hw
                  exact Except.ok.inj hw
    · cases h

/-- **C28** for `lookup`, for metadata whose algorithm names contain no NUL (`lookup` does not look
at them, see `meta_authentic`). -/
theorem C28_lookup_authentic_partial {F : Type} (env : Env F) (cfg : Cfg) (p key : Bytes)
    (hp : cfg.pass = some p) (H : List (Cfg × WriteArgs F))
    (hH : ∀ e ∈ H, e.1.pass = some p ∧ e.2.Typed env ∧ KeyOk e.2.key ∧ ∃ r, writeFh env e.1 e.2 = .ok r)
    (m : Raw) (hm : (m.map (·.1)).Nodup) (hu : Unforged env p H m [])
    (tok enc : Bytes) (ht : get m kCompression = some (.str tok)) (he : get m kEncryption = some (.str enc))
    (htz : (0 : UInt8) ∉ tok) (hez : (0 : UInt8) ∉ enc)
    (user : Meta F) (h : lookup env cfg key m = .ok user) :
    ∃ e ∈ H, e.2.key = key ∧ user = e.2.user := by
  unfold lookup at h
  split at h
  · rename_i n d hv
    cases h
    obtain ⟨e, heH, q1, q2, q3, q4, q5, q6, q7, q8⟩ := meta_authentic hp hH hm hu hv ht he htz hez
    exact ⟨e, heH, q1, by rw [q5, popSize_written q6]⟩
  · cases h

/-- **C28**, substitution of unencrypted objects: with a passphrase, an object whose metadata says that
it is not encrypted is never returned, neither by `readinto_fh` nor by `lookup`. -/
theorem C28_plain_refused {F : Type} (env : Env F) (cfg : Cfg) (p key : Bytes) (hp : cfg.pass = some p) (m : Raw)
    (buf : Bytes) (hn : get m kEncryption = some (.str sNone)) :
    (∀ r, readinto env cfg key m buf ≠ .ok r) ∧ (∀ r, lookup env cfg key m ≠ .ok r) := by
  have hv : ∀ n d, verifyMeta env cfg key m ≠ .ok (n, d) := by
    intro n d h
    obtain ⟨_, _, _, _, _, h2, _⟩ := verify_ok hp h
    exact h2 hn
  constructor
  · intro r h
    unfold readinto at h
    split at h
    · cases h
    · rename_i n d h'; exact hv n d h'
  · intro r h
    unfold lookup at h
    split at h
    · rename_i n d h'; exact hv n d h'
    · cases h

/-- **C28**, well-formed unencrypted objects are reported as such. -/
theorem C28_plain_error {F : Type} (env : Env F) (cfg cfg' : Cfg) (p key : Bytes) (hp : cfg.pass = some p)
    (hp' : cfg'.pass = none) (w : WriteArgs F) (m : Raw) (buf : Bytes) (h : writeFh env cfg' w = .ok (m, buf)) :
    readinto env cfg key m buf = .error .notEncrypted := by
  obtain ⟨hs, rfl, rfl⟩ := write_plain hp' h
  unfold readinto verifyMeta
  rw [hp]
  rfl

/-- **C28**, without a passphrase encrypted objects are refused: they raise `CorruptedObjectError`. -/
theorem C28_encrypted_refused {F : Type} (env : Env F) (cfg : Cfg) (key : Bytes) (hp : cfg.pass = none) (m : Raw)
    (buf : Bytes) (hn : get m kEncryption ≠ some (.str sNone)) :
    readinto env cfg key m buf = .error .corrupted ∧ lookup env cfg key m = .error .corrupted := by
  have hv : verifyMeta env cfg key m = .error .corrupted := by
    unfold verifyMeta
    split
    · rfl
    · split
      · rfl
      · rw [hp, decide_eq_true hn]
  unfold readinto lookup
  rw [hv]
  exact ⟨rfl, rfl⟩

end Verif.Comprenc
