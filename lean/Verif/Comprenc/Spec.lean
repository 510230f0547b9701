import Verif.Comprenc.Model
/-
Vocabulary for the properties of the compression / encryption layer (C26-C28).
-/
namespace Verif.Comprenc
open Verif.Codec.Checksum (le32 input)

/-- The message that is authenticated for a sequence of packets: each packet preceded by its length,
then a length of zero. -/
def frame (ps : List Bytes) : Bytes := (ps.map (fun p => le32 p.length ++ p)).flatten ++ le32 0

/-- What the compressor makes of its input, given piece by piece. -/
def Codec.compressed (cd : Codec) (ins : List Bytes) : Bytes :=
  let r := ins.foldl (fun (s : cd.C × Bytes) b => ((cd.cfeed s.1 b).2, s.2 ++ (cd.cfeed s.1 b).1)) (cd.cinit, [])
  r.2 ++ cd.cflush r.1

/-- Output and final state of the decompressor. -/
def Codec.feedAll (cd : Codec) : cd.D → List Bytes → Except DErr (Bytes × cd.D)
  | d, [] => .ok ([], d)
  | d, b :: t =>
    match cd.dfeed d b with
    | .error e => .error e
    | .ok (o, d') =>
      match cd.feedAll d' t with
      | .error e => .error e
      | .ok (o', d'') => .ok (o ++ o', d'')

/-- What is assumed of zlib, bz2 and lzma: the decompressor, given the output of the compressor in
any non-empty pieces, returns the input, has then seen the end of the stream and has nothing left. -/
def Codec.Lawful (cd : Codec) : Prop :=
  ∀ ins outs : List Bytes, (∀ b ∈ outs, b ≠ []) → outs.flatten = cd.compressed ins →
    ∃ d, cd.feedAll cd.dinit outs = .ok (ins.flatten, d) ∧ cd.eof d = true ∧ cd.unused d = []

/-- The compression libraries work. -/
def Env.Lawful {F : Type} (env : Env F) : Prop := ∀ a, a ≠ Alg.none → (env.codec a).Lawful

/-- The data that the caller of `write_fh` asks to be stored. -/
def WriteArgs.data {F : Type} (w : WriteArgs F) : Bytes := (w.file.drop w.pos).take w.len

/-- Calls that satisfy the type annotations of `write_fh`: metadata is a mapping of strings to
elementary values that can be read back. -/
structure WriteArgs.Typed {F : Type} (env : Env F) (w : WriteArgs F) : Prop where
  keys : (w.user.map (·.1)).Nodup
  vals : ∀ e ∈ w.user, Verif.Codec.ValOk env.fmt e.2
  clock : w.clock.length = 8

/-- Restrictions on object keys under which objects are bound to them: no NUL character and not ending
in `meta`. -/
def KeyOk (k : Bytes) : Prop := (0 : UInt8) ∉ k ∧ 4 ≤ k.length ∧ ¬ sMeta <:+ k

/-- One of the two MACs computed when `w` is written with passphrase `p`: the secret is the hash of
`p` and `seed`, the message is `msg`. -/
def SignedBy {F : Type} (env : Env F) (p : Bytes) (cfg : Cfg) (w : WriteArgs F) (seed msg : Bytes) : Prop :=
  (seed = w.nonce ++ sMeta ∧ msg = input (unsigned env p cfg w)) ∨
  (seed = w.nonce ∧ ∃ short, msg = (encryptFh env.cr (env.cr.sha (p ++ w.nonce)) short
      (compressPart env cfg w).1 (compressPart env cfg w).2).1 ∧
    short = if (if w.dontCompress then Alg.none else cfg.alg) = .none then w.short else fun _ => bufsize)

/-- An object as returned by the storage service contains the MAC `tag` for the message `msg`, under
the secret derived from `seed`. -/
inductive Presents {F : Type} (env : Env F) (p : Bytes) (m : Raw) (buf : Bytes) : Bytes → Bytes → Bytes → Prop where
  | metadata {n t} : get m kNonce = some (.bytes n) → get m kSignature = some (.bytes t) →
      Presents env p m buf (n ++ sMeta) (input m) t
  | content {n msg t} : get m kNonce = some (.bytes n) →
      buf = xorAt (env.cr.ks (env.cr.sha (p ++ n))) 0 (msg ++ t) → Presents env p m buf n msg t

/-- The storage service has not forged a MAC: every valid MAC in the object belongs to a message that
was signed during one of the writes `H` (calls with their configuration). -/
def Unforged {F : Type} (env : Env F) (p : Bytes) (H : List (Cfg × WriteArgs F)) (m : Raw) (buf : Bytes) : Prop :=
  ∀ seed msg tag, Presents env p m buf seed msg tag → tag = env.cr.mac (env.cr.sha (p ++ seed)) msg →
    ∃ e ∈ H, SignedBy env p e.1 e.2 seed msg

end Verif.Comprenc
