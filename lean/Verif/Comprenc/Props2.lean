import Verif.Comprenc.Cases
/-
More properties of `readinto_fh`: compressed objects without encryption, objects of an older format.
-/
namespace Verif.Comprenc
open Verif.Codec.Checksum (le32 input Val)

/-- `bs` is a complete compressed stream for `data`, with nothing after its end: the decompressor,
given the pieces `bs`, returns `data`, has seen the end of the stream and has nothing left. -/
def Codec.Complete (cd : Codec) (bs : List Bytes) (data : Bytes) : Prop :=
  ∃ d, cd.feedAll cd.dinit bs = .ok (data, d) ∧ cd.eof d = true ∧ cd.unused d = []

theorem decompLoop_ok (cd : Codec) (ifh : Bytes) (d : cd.D) (out : Bytes) : ∀ d' o, decompLoop cd ifh d out = .ok (d', o) →
    ∃ bs x, bs.flatten = ifh ∧ o = out ++ x ∧ cd.feedAll d bs = .ok (x, d') := by
  fun_induction decompLoop cd ifh d out with
  | case1 ifh d out buf hb =>
    intro d' o h
    cases h
    have : ifh = [] := by
      cases ifh with
      | nil => rfl
      | cons a t => exact absurd (show (a :: t).take bufsize = [] from hb) (by simp [bufsize])
    exact ⟨[], [], this.symm, (List.append_nil _).symm, rfl⟩
  | case2 => intro d' o h; cases h
  | case3 => intro d' o h; cases h
  | case4 ifh d out buf hb o1 d1 hf ih =>
    intro d' o h
    obtain ⟨bs, x, h1, h2, h3⟩ := ih d' o h
    refine ⟨buf :: bs, o1 ++ x, ?_, by rw [h2, List.append_assoc], ?_⟩
    · rw [List.flatten_cons, h1]; exact List.take_append_drop _ _
    · unfold Codec.feedAll
      rw [hf]
      dsimp only
      rw [h3]

theorem decompressFh_ok {cd : Codec} {ifh out : Bytes} (h : decompressFh cd ifh = .ok out) : ∃ bs, bs.flatten = ifh ∧ cd.Complete bs out := by
  unfold decompressFh at h
  split at h
  · cases h
  · rename_i d o hd
    obtain ⟨bs, x, h1, h2, h3⟩ := decompLoop_ok cd ifh cd.dinit [] d o hd
    split at h
    · cases h
    · split at h
      · cases h
      · rename_i he hu
        cases h
        rw [List.nil_append] at h2
        subst h2
        refine ⟨bs, h1, d, h3, by simpa using he, ?_⟩
        exact Classical.byContradiction hu

/-- **C27** for objects that are compressed and not encrypted: data is returned only if the object is
exactly one complete compressed stream (no truncation, nothing appended), and it is the data of that
stream. -/
theorem C27_compressed_complete {F : Type} (env : Env F) (cfg : Cfg) (hp : cfg.pass = none) (key : Bytes) (m : Raw) (buf : Bytes)
    (alg : Alg) (ha : alg ≠ .none) (hc : get m kCompression = some (.str (token alg))) (ho : get m kPayload = none)
    (user : Meta F) (data : Bytes) (h : readinto env cfg key m buf = .ok (user, data)) :
    ∃ bs, bs.flatten = buf ∧ (env.codec alg).Complete bs data := by
  unfold readinto at h
  split at h
  · cases h
  · rename_i n d hv
    dsimp only at h
    split at h
    · rename_i tok enc ht he
      rw [hc] at ht
      cases ht
      split at h
      · cases h
      · rw [algOf_token] at h
        dsimp only at h
        unfold payload at h
        rw [ho] at h
        dsimp only at h
        split at h
        · cases h
        · split at h
          · cases h
          · rename_i x hu
            cases h
            rw [hp] at hu
            have hu' : unpack env alg none buf = .ok data := by
              cases n <;> exact hu
            unfold unpack at hu'
            dsimp only at hu'
            rw [if_neg ha] at hu'
            exact decompressFh_ok hu'
    · cases h

/-- The same for objects that are encrypted and compressed: what was encrypted is one complete stream. -/
theorem C27_encrypted_complete {F : Type} (env : Env F) (cfg : Cfg) (p : Bytes) (hp : cfg.pass = some p) (key : Bytes) (m : Raw) (buf n : Bytes)
    (hn : get m kNonce = some (.bytes n)) (hn0 : n ≠ [])
    (alg : Alg) (ha : alg ≠ .none) (hc : get m kCompression = some (.str (token alg))) (ho : get m kPayload = none)
    (user : Meta F) (data : Bytes) (h : readinto env cfg key m buf = .ok (user, data)) :
    ∃ bs, decryptFh env.cr (env.cr.sha (p ++ n)) buf = .ok bs.flatten ∧ (env.codec alg).Complete bs data := by
  unfold readinto at h
  split at h
  · cases h
  · rename_i n' d hv
    have hn' : n' = some n := by
      unfold verifyMeta at hv
      split at hv
      · cases hv
      · split at hv
        · cases hv
        · rw [hp] at hv
          split at hv
          · rename_i e; cases e
          · cases hv
          · rename_i e; cases e
          · rename_i hne e
            cases e
            split at hv
            · split at hv
              · rename_i n1 d1 hv1
                cases hv
                unfold verifyEncrypted at hv1
                rw [hn] at hv1
                split at hv1
                · rename_i h1 _ _
                  cases h1
                  dsimp only at hv1
                  split at hv1
                  · cases hv1
                  · split at hv1
                    · cases hv1
                    · split at hv1
                      · cases hv1
                      · split at hv1
                        · cases hv1; rfl
                        · cases hv1
                · cases hv1
              · cases hv
            · cases hv
    subst hn'
    dsimp only at h
    split at h
    · rename_i tok enc ht he
      rw [hc] at ht
      cases ht
      split at h
      · cases h
      · rw [algOf_token] at h
        dsimp only at h
        unfold payload at h
        rw [ho] at h
        dsimp only at h
        split at h
        · cases h
        · split at h
          · cases h
          · rename_i x hu
            cases h
            rw [hp] at hu
            dsimp only at hu
            rw [if_neg hn0] at hu
            unfold unpack at hu
            dsimp only at hu
            split at hu
            · cases hu
            · rename_i pl hpl
              rw [if_neg ha] at hu
              obtain ⟨bs, h1, h2⟩ := decompressFh_ok hu
              exact ⟨bs, by rw [h1]; exact hpl, h2⟩
    · cases h

theorem get_cons_ne {k k' : Bytes} {v : Val} {m : Raw} (h : k' ≠ k) : get ((k', v) :: m) k = get m k := by
  unfold get Verif.Codec.Checksum.get
  rw [List.find?_cons_of_neg (by simpa using h)]

/-- **C26** for objects converted from an older format: their metadata gives the number of bytes to skip
at the beginning; without a passphrase they are read like the object without those bytes. -/
theorem C26_old_format {F : Type} (env : Env F) (cfg : Cfg) (hp : cfg.pass = none) (key : Bytes) (m : Raw) (pre buf : Bytes)
    (ho : get m kPayload = none) :
    readinto env cfg key ((kPayload, .int pre.length) :: m) (pre ++ buf) = readinto env cfg key m buf := by
  have hv : verifyMeta env cfg key ((kPayload, .int pre.length) :: m) = verifyMeta env cfg key m := by
    unfold verifyMeta
    rw [get_cons_ne (by decide), get_cons_ne (by decide), get_cons_ne (by decide), get_cons_ne (by decide), hp]
    have h1 : ∀ p, cfg.pass = some p → False := by intro p h; rw [hp] at h; cases h
    by_cases he : get m kEncryption = some (.str sNone)
    · rw [decide_eq_false (by simpa using he)]
    · rw [decide_eq_true he]
  have hp1 : payload ((kPayload, .int pre.length) :: m) (pre ++ buf) = .ok buf := by
    unfold payload
    have : get ((kPayload, .int pre.length) :: m) kPayload = some (.int pre.length) := by
      unfold get Verif.Codec.Checksum.get
      rw [List.find?_cons_of_pos (by simp)]
      rfl
    rw [this]
    dsimp only
    rw [if_neg (by omega), Int.toNat_natCast, List.drop_left]
  have hp2 : payload m buf = .ok buf := by unfold payload; rw [ho]
  unfold readinto
  rw [hv, get_cons_ne (by decide), get_cons_ne (by decide), hp1, hp2]

/-- The hypotheses of `C26_old_format` and `C27_compressed_complete` are met by an object that was written without a passphrase. -/
example : ∃ m buf, writeFh toyEnv ⟨none, .zlib⟩ toyWrite = .ok (m, buf) ∧ get m kPayload = none ∧
    get m kCompression = some (.str (token .zlib)) ∧ ∃ r, readinto toyEnv ⟨none, .zlib⟩ toyWrite.key m buf = .ok r := by
  obtain ⟨m, buf, h⟩ := C26_write_succeeds toyEnv ⟨none, .zlib⟩ toyWrite (by decide) (by decide) (by decide +kernel)
  obtain ⟨hs, rfl, rfl⟩ := write_plain rfl h
  exact ⟨_, _, h, rfl, rfl, _, C26_write_read toyEnv toyEnv_lawful ⟨none, .zlib⟩ ⟨none, .zlib⟩ rfl toyWrite toyWrite_typed _ _ _ h (List.Perm.refl _)⟩

end Verif.Comprenc
