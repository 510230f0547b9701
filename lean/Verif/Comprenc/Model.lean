import Verif.Codec.Props
/-
Model of the compression / encryption layer (backends/comprenc.py): packet encryption and decryption,
compression and decompression of streams, writing, looking up and reading of objects.

AES-CTR, SHA-256, HMAC-SHA-256 and the compression libraries are parameters (`Crypto`, `Codec`).
CTR mode XORs the data with a key stream that depends only on the key and the position (the nonce of
the cipher is all zero, comprenc.py:88-108).  Byte strings are lists of `UInt8`; Python strings that
occur in the metadata of an object are given by their UTF-8 encoding.  A `BytesIO` read returns all
bytes asked for unless the end is reached; the file handed to `write_fh` may return fewer.
Whether work is done in a thread or not is not modelled: the two branches call the same functions.
-/
namespace Verif.Comprenc
open Verif.Codec (Str FloatFmt)
open Verif.Codec.Checksum (Val le32 input encOk)

abbrev Bytes := List UInt8
/-- Metadata handed to the plain backend. -/
abbrev Raw := List (Bytes × Val)
/-- Metadata of the user of the backend. -/
abbrev Meta (F : Type) := List (Str × Codec.Val F)

/-- Cryptographic primitives: `sha256` (comprenc.py:84-85), HMAC-SHA-256 and the AES-CTR key stream
(comprenc.py:88-108).  Nothing is assumed except the length of the MAC. -/
structure Crypto where
  sha : Bytes → Bytes
  mac : Bytes → Bytes → Bytes
  ks : Bytes → Nat → UInt8
  mac_len : ∀ k m, (mac k m).length = 32

/-- Compression algorithms (authinfo.py). -/
inductive Alg where
  | none | zlib | bzip2 | lzma
deriving DecidableEq, Repr

/-- What a decompressor may raise: errors that `decompress_buf` (comprenc.py:620-644) turns into
`CorruptedObjectError`, and others, which it passes on. -/
inductive DErr where
  | invalid | other
deriving DecidableEq, Repr

/-- A compressor / decompressor pair of the standard library as used by `compress_fh` and
`decompress_fh`. -/
structure Codec where
  C : Type
  cinit : C
  cfeed : C → Bytes → Bytes × C
  cflush : C → Bytes
  D : Type
  dinit : D
  dfeed : D → Bytes → Except DErr (Bytes × D)
  eof : D → Bool
  unused : D → Bytes

/-- Exceptions. -/
inductive Err where
  | corrupted      -- `CorruptedObjectError`
  | notEncrypted   -- `ObjectNotEncrypted`
  | runtime        -- `RuntimeError`: unknown algorithm
  | assertion      -- failed `assert`
  | value          -- `ValueError`
  | attribute      -- `AttributeError` of `thaw_basic_mapping`
  | other          -- other exceptions of the decompressor
deriving DecidableEq, Repr

/-- `BUFSIZE` (__init__.py:27). -/
def bufsize : Nat := 262144

/-- `HMAC_SIZE` (comprenc.py:54). -/
def hmacSize : Nat := 32

/-- `'format_version'` in UTF-8. -/
def kFormat : Bytes := [102, 111, 114, 109, 97, 116, 95, 118, 101, 114, 115, 105, 111, 110]

/-- `'encryption'` in UTF-8. -/
def kEncryption : Bytes := [101, 110, 99, 114, 121, 112, 116, 105, 111, 110]

/-- `'compression'` in UTF-8. -/
def kCompression : Bytes := [99, 111, 109, 112, 114, 101, 115, 115, 105, 111, 110]

/-- `'data'` in UTF-8. -/
def kData : Bytes := [100, 97, 116, 97]

/-- `'nonce'` in UTF-8. -/
def kNonce : Bytes := [110, 111, 110, 99, 101]

/-- `'object_id'` in UTF-8. -/
def kObjectId : Bytes := [111, 98, 106, 101, 99, 116, 95, 105, 100]

/-- `'signature'` in UTF-8. -/
def kSignature : Bytes := Verif.Codec.Checksum.signature

/-- `'payload_offset'` in UTF-8. -/
def kPayload : Bytes := [112, 97, 121, 108, 111, 97, 100, 95, 111, 102, 102, 115, 101, 116]

/-- `'None'` in UTF-8. -/
def sNone : Bytes := [78, 111, 110, 101]

/-- `'ZLIB'` in UTF-8. -/
def sZlib : Bytes := [90, 76, 73, 66]

/-- `'BZIP2'` in UTF-8. -/
def sBzip2 : Bytes := [66, 90, 73, 80, 50]

/-- `'LZMA'` in UTF-8. -/
def sLzma : Bytes := [76, 90, 77, 65]

/-- `'AES_v2'` in UTF-8. -/
def sAes : Bytes := [65, 69, 83, 95, 118, 50]

/-- `'meta'` in UTF-8. -/
def sMeta : Bytes := [109, 101, 116, 97]

/-- `'__size'`. -/
def kSize : Str := ['_', '_', 's', 'i', 'z', 'e']

/-- `_METADATA_TOKEN` (comprenc.py:61-66). -/
def token : Alg → Bytes
  | .none => sNone
  | .zlib => sZlib
  | .bzip2 => sBzip2
  | .lzma => sLzma

/-- `_ALGORITHM_BY_TOKEN` (comprenc.py:67). -/
def algOf (t : Bytes) : Option Alg :=
  if t = sNone then some .none
  else if t = sZlib then some .zlib
  else if t = sBzip2 then some .bzip2
  else if t = sLzma then some .lzma
  else none

/-- `update` of an AES-CTR context (encryption and decryption are the same) that has processed `off`
bytes. -/
def xorAt (ks : Nat → UInt8) (off : Nat) : Bytes → Bytes
  | [] => []
  | b :: t => (b ^^^ ks off) :: xorAt ks (off + 1) t

/-- Number of bytes the `i`-th `read(max)` of a file may return at most: at least one, as long as the
end of the file is not reached. -/
def rd (short : Nat → Nat) (i max : Nat) : Nat := min max (1 + short i)

/-! ### Encryption of streams -/

theorem drop_take_lt (l : Bytes) (n : Nat) (h : l.take n ≠ []) : (l.drop (l.take n).length).length < l.length := by
  have h1 : 0 < (l.take n).length := List.length_pos_iff.2 h
  have h2 : (l.take n).length ≤ l.length := by rw [List.length_take]; omega
  rw [List.length_drop]; omega

/-- Cipher position, bytes given to the HMAC, bytes written to `ofh`. -/
structure Enc where
  off : Nat
  mac : Bytes
  out : Bytes
deriving DecidableEq, Repr

/-- Loop of `encrypt_fh` (comprenc.py:545-558). -/
def encLoop (ks : Nat → UInt8) (short : Nat → Nat) (i : Nat) (ifh : Bytes) (len : Nat) (st : Enc) : Enc :=
  if 0 < len then
    let buf := ifh.take (rd short i (min bufsize len))
    if _h : buf = [] then st
    else
      let header := le32 buf.length
      encLoop ks short (i + 1) (ifh.drop buf.length) (len - buf.length)
        ⟨st.off + header.length + buf.length, st.mac ++ header ++ buf,
          st.out ++ xorAt ks st.off header ++ xorAt ks (st.off + header.length) buf⟩
  else st
termination_by ifh.length
decreasing_by exact drop_take_lt _ _ _h

/-- `encrypt_fh` (comprenc.py:539-564): the bytes given to the HMAC and the bytes written. -/
def encryptFh (cr : Crypto) (key : Bytes) (short : Nat → Nat) (ifh : Bytes) (len : Nat) : Bytes × Bytes :=
  let st := encLoop (cr.ks key) short 0 ifh len ⟨0, [], []⟩
  let buf := le32 0
  let msg := st.mac ++ buf
  (msg, st.out ++ xorAt (cr.ks key) st.off buf ++ xorAt (cr.ks key) (st.off + buf.length) (cr.mac key msg))

/-- Unread input, cipher position, bytes given to the HMAC, bytes written to `ofh`. -/
structure Dec where
  ifh : Bytes
  off : Nat
  mac : Bytes
  out : Bytes
deriving DecidableEq, Repr

/-- Inner loop of `decrypt_fh` (comprenc.py:602-609): one packet. -/
def decPacket (ks : Nat → UInt8) (toRead : Nat) (st : Dec) : Except Err Dec :=
  if toRead = 0 then .ok st
  else
    let buf := st.ifh.take (min toRead bufsize)
    if _h : buf = [] then .error .corrupted
    else
      let pl := xorAt ks st.off buf
      decPacket ks (toRead - buf.length)
        ⟨st.ifh.drop buf.length, st.off + buf.length, st.mac ++ pl, st.out ++ pl⟩
termination_by toRead
decreasing_by
  have h1 : 0 < (st.ifh.take (min toRead bufsize)).length := List.length_pos_iff.2 _h
  omega

/-- `struct.unpack('<I', buf)[0]`. -/
def unle32 : Bytes → Nat
  | [a, b, c, d] => a.toNat + 256 * b.toNat + 65536 * c.toNat + 16777216 * d.toNat
  | _ => 0

theorem decPacket_length (ks : Nat → UInt8) (n : Nat) (st st' : Dec) (h : decPacket ks n st = .ok st') :
    st'.ifh.length ≤ st.ifh.length := by
  fun_induction decPacket ks n st with
  | case1 => cases h; exact Nat.le_refl _
  | case2 => cases h
  | case3 n st hn buf hb pl ih =>
    have := ih h
    rw [List.length_drop] at this
    omega

/-- Outer loop of `decrypt_fh` (comprenc.py:591-609), until the packet of length 0. -/
def decLoop (ks : Nat → UInt8) (st : Dec) : Except Err Dec :=
  let hdr := st.ifh.take 4
  if _h0 : hdr = [] then .error .corrupted
  else
    let buf := xorAt ks st.off hdr
    let st1 : Dec := ⟨st.ifh.drop 4, st.off + hdr.length, st.mac ++ buf, st.out⟩
    if buf.length ≠ 4 then .error .corrupted
    else if unle32 buf = 0 then .ok st1
    else
      match _h : decPacket ks (unle32 buf) st1 with
      | .error e => .error e
      | .ok st2 => decLoop ks st2
termination_by st.ifh.length
decreasing_by
  have h1 := decPacket_length _ _ _ _ _h
  have h2 : st.ifh ≠ [] := fun e => _h0 (by show st.ifh.take 4 = []; rw [e]; rfl)
  have h3 : 0 < st.ifh.length := List.length_pos_iff.2 h2
  have h4 : st1.ifh.length = st.ifh.length - 4 := by
    show (st.ifh.drop 4).length = _
    rw [List.length_drop]
  omega

/-- `decrypt_fh` (comprenc.py:584-617): what has been written when it returns normally. -/
def decryptFh (cr : Crypto) (key : Bytes) (ifh : Bytes) : Except Err Bytes :=
  match decLoop (cr.ks key) ⟨ifh, 0, [], []⟩ with
  | .error e => .error e
  | .ok st =>
    let buf := xorAt (cr.ks key) st.off (st.ifh.take hmacSize)
    if (st.ifh.drop hmacSize).take bufsize ≠ [] then .error .corrupted
    else if buf ≠ cr.mac key st.mac then .error .corrupted
    else .ok st.out

/-! ### Compression of streams -/

/-- Loop of `compress_fh` (comprenc.py:523-532); the result is what was written and the compressor. -/
def compLoop (cd : Codec) (short : Nat → Nat) (i : Nat) (ifh : Bytes) (len : Nat) (c : cd.C) (out : Bytes) :
    cd.C × Bytes :=
  if 0 < len then
    let buf := ifh.take (rd short i (min bufsize len))
    if _h : buf = [] then (c, out)
    else
      compLoop cd short (i + 1) (ifh.drop buf.length) (len - buf.length) (cd.cfeed c buf).2
        (out ++ (cd.cfeed c buf).1)
  else (c, out)
termination_by ifh.length
decreasing_by exact drop_take_lt _ _ _h

/-- `compress_fh` (comprenc.py:518-536). -/
def compressFh (cd : Codec) (short : Nat → Nat) (ifh : Bytes) (len : Nat) : Bytes :=
  let r := compLoop cd short 0 ifh len cd.cinit []
  r.2 ++ cd.cflush r.1

/-- Loop of `decompress_fh` (comprenc.py:570-576). -/
def decompLoop (cd : Codec) (ifh : Bytes) (d : cd.D) (out : Bytes) : Except Err (cd.D × Bytes) :=
  let buf := ifh.take bufsize
  if _h : buf = [] then .ok (d, out)
  else
    match cd.dfeed d buf with
    | .error .invalid => .error .corrupted
    | .error .other => .error .other
    | .ok (o, d') => decompLoop cd (ifh.drop bufsize) d' (out ++ o)
termination_by ifh.length
decreasing_by
  have h2 : ifh ≠ [] := fun e => _h (by show ifh.take _ = []; rw [e]; rfl)
  have h3 : 0 < ifh.length := List.length_pos_iff.2 h2
  rw [List.length_drop, bufsize]; omega

/-- `decompress_fh` (comprenc.py:567-581). -/
def decompressFh (cd : Codec) (ifh : Bytes) : Except Err Bytes :=
  match decompLoop cd ifh cd.dinit [] with
  | .error e => .error e
  | .ok (d, out) =>
    if !cd.eof d then .error .corrupted
    else if cd.unused d ≠ [] then .error .corrupted
    else .ok out

/-- `copyfh(ifh, ofh, len_)` (common.py:398-423). -/
def copyLoop (short : Nat → Nat) (i : Nat) (ifh : Bytes) (len : Nat) (out : Bytes) : Bytes :=
  if 0 < len then
    let buf := ifh.take (rd short i (min bufsize len))
    if _h : buf = [] then out
    else copyLoop short (i + 1) (ifh.drop buf.length) (len - buf.length) (out ++ buf)
  else out
termination_by ifh.length
decreasing_by exact drop_take_lt _ _ _h

/-! ### Objects -/

/-- `d.get(k)`. -/
abbrev get (d : Raw) (k : Bytes) : Option Val := Verif.Codec.Checksum.get d k

/-- The assertion in `checksum_basic_mapping` (backends/common.py:625), for all values it looks at. -/
def sumOk (m : Raw) : Bool :=
  m.all (fun e => e.1 = kSignature || match e.2 with | .bytes b => decide (b.length < 2 ^ 32) | _ => true)

/-- Parameters of the layer: cryptography, format of floats, printable characters, codecs. -/
structure Env (F : Type) where
  cr : Crypto
  fmt : FloatFmt F
  printable : Char → Bool
  codec : Alg → Codec

/-- `AsyncComprencBackend` (comprenc.py:111-165): passphrase and compression algorithm. -/
structure Cfg where
  pass : Option Bytes
  alg : Alg

/-- Arguments of one call of `write_fh` (comprenc.py:386-393) and what it reads from its
surroundings: the clock (8 bytes of `struct.pack('<d', time.time())`) and how many bytes each read of
the file returns. -/
structure WriteArgs (F : Type) where
  key : Bytes
  file : Bytes        -- content of `fh`
  pos : Nat           -- current offset of `fh`
  len : Nat
  user : Meta F       -- `metadata`
  dontCompress : Bool
  clock : Bytes
  short : Nat → Nat

/-- `_compress_sync`, compression (comprenc.py:449-476): the file to go on with and the length to
encrypt. -/
def compressPart {F : Type} (env : Env F) (cfg : Cfg) (w : WriteArgs F) : Bytes × Nat :=
  let algorithm := if w.dontCompress then Alg.none else cfg.alg
  if algorithm = .none then
    if cfg.pass.isNone then
      if w.pos ≠ 0 ∨ w.file.length ≠ w.len then
        (copyLoop w.short 0 (w.file.drop w.pos) w.len [], w.len)
      else (w.file, w.len)
    else (w.file.drop w.pos, w.len)
  else
    let buf := compressFh (env.codec algorithm) w.short (w.file.drop w.pos) w.len
    (buf, buf.length)

/-- The nonce of an object (comprenc.py:482). -/
def WriteArgs.nonce {F : Type} (w : WriteArgs F) : Bytes := w.clock ++ w.key

/-- The unsigned metadata of an encrypted object (comprenc.py:444-488). -/
def unsigned {F : Type} (env : Env F) (p : Bytes) (cfg : Cfg) (w : WriteArgs F) : Raw :=
  let metaBuf := Verif.Codec.freeze env.fmt env.printable ((kSize, .int w.len) :: w.user)
  let algorithm := if w.dontCompress then Alg.none else cfg.alg
  let metaKey := env.cr.sha (p ++ w.nonce ++ sMeta)
  [(kFormat, .int 2), (kCompression, .str (token algorithm)), (kEncryption, .str sAes),
   (kNonce, .bytes w.nonce), (kData, .bytes (xorAt (env.cr.ks metaKey) 0 metaBuf)),
   (kObjectId, .str w.key)]

/-- `write_fh` and `_compress_sync` (comprenc.py:386-500): metadata and content handed to
`write_fh` of the plain backend, which stores the entire file (backends/local.py:174). -/
def writeFh {F : Type} (env : Env F) (cfg : Cfg) (w : WriteArgs F) : Except Err (Raw × Bytes) :=
  if (w.user.map (·.1)).contains kSize then .error .value
  else
    let metaBuf := Verif.Codec.freeze env.fmt env.printable ((kSize, .int w.len) :: w.user)
    let algorithm := if w.dontCompress then Alg.none else cfg.alg
    let (fh, len) := compressPart env cfg w
    match cfg.pass with
    | none =>
      .ok ([(kFormat, .int 2), (kCompression, .str (token algorithm)), (kEncryption, .str sNone),
            (kData, .bytes metaBuf)], fh)
    | some p =>
      let metaKey := env.cr.sha (p ++ w.nonce ++ sMeta)
      let raw := unsigned env p cfg w
      if !sumOk raw then .error .assertion
      else
        let dataKey := env.cr.sha (p ++ w.nonce)
        let short := if algorithm = .none then w.short else fun _ => bufsize
        .ok (raw ++ [(kSignature, .bytes (env.cr.mac metaKey (input raw)))],
             (encryptFh env.cr dataKey short fh len).2)

/-- `format_version != 2` (comprenc.py:213-215): a missing version is 0; `2.0 == 2` in Python. -/
def isTwo : Option Val → Bool
  | some (.int i) => i = 2
  | some (.float b) => b = [0, 0, 0, 0, 0, 0, 0, 64]
  | _ => false

/-- `thaw_basic_mapping`, with `ThawError` turned into `CorruptedObjectError` (comprenc.py:235-239). -/
def thawMeta {F : Type} (env : Env F) (buf : Bytes) : Except Err (Meta F) :=
  match Verif.Codec.thaw env.fmt buf with
  | .ok d => .ok d
  | .error .thaw => .error .corrupted
  | .error .attribute => .error .attribute

/-- `_verify_meta` for encrypted objects (comprenc.py:242-271). -/
def verifyEncrypted {F : Type} (env : Env F) (p key : Bytes) (m : Raw) (metaBuf : Bytes) :
    Except Err (Bytes × Meta F) :=
  match get m kNonce, get m kObjectId, get m kSignature with
  | some (.bytes nonce), some (.str storedKey), some (.bytes signature) =>
    let metaKey := env.cr.sha (p ++ nonce ++ sMeta)
    if !sumOk m then .error .assertion
    else if signature ≠ env.cr.mac metaKey (input m) then .error .corrupted
    else if storedKey ≠ key then .error .corrupted
    else
      match thawMeta env (xorAt (env.cr.ks metaKey) 0 metaBuf) with
      | .ok d => .ok (nonce, d)
      | .error e => .error e
  | _, _, _ => .error .corrupted

/-- `_verify_meta` (comprenc.py:202-271). -/
def verifyMeta {F : Type} (env : Env F) (cfg : Cfg) (key : Bytes) (m : Raw) :
    Except Err (Option Bytes × Meta F) :=
  if !isTwo (get m kFormat) then .error .corrupted
  else if (get m kEncryption).isNone ∨ (get m kCompression).isNone ∨ (get m kData).isNone then
    .error .corrupted
  else
    match decide (get m kEncryption ≠ some (.str sNone)), cfg.pass with
    | true, none => .error .corrupted
    | false, some _ => .error .notEncrypted
    | false, none =>
      match get m kData with
      | some (.bytes metaBuf) =>
        match thawMeta env metaBuf with
        | .ok d => .ok (none, d)
        | .error e => .error e
      | _ => .error .corrupted
    | true, some p =>
      match get m kData with
      | some (.bytes metaBuf) =>
        match verifyEncrypted env p key m metaBuf with
        | .ok (n, d) => .ok (some n, d)
        | .error e => .error e
      | _ => .error .corrupted

/-- `meta.pop('__size', None)`. -/
def popSize {F : Type} (d : Meta F) : Meta F := d.filter (fun e => e.1 ≠ kSize)

/-- `lookup` (comprenc.py:181-185). -/
def lookup {F : Type} (env : Env F) (cfg : Cfg) (key : Bytes) (m : Raw) : Except Err (Meta F) :=
  match verifyMeta env cfg key m with
  | .ok (_, d) => .ok (popSize d)
  | .error e => .error e

/-- `if v := meta.pop('__size', None): assert isinstance(v, int)` (comprenc.py:321-323).  Floats count
as true here. -/
def sizeOk {F : Type} (d : Meta F) : Bool :=
  match (d.find? (fun e => e.1 = kSize)).map (fun e : Str × Verif.Codec.Val F => e.2) with
  | none => true
  | some (.int _) => true
  | some (.bool _) => true
  | some .none => true
  | some (.str s) => s.isEmpty
  | some (.bytes b) => b.isEmpty
  | some (.float _) => false

/-- Position of the payload (comprenc.py:311-316). -/
def payload (m : Raw) (buf : Bytes) : Except Err Bytes :=
  match get m kPayload with
  | none => .ok buf
  | some (.int i) => if i < 0 then .error .value else .ok (buf.drop i.toNat)
  | some (.bool b) => .ok (buf.drop b.toNat)
  | some _ => .error .assertion

/-- Decryption and decompression (comprenc.py:335-382). -/
def unpack {F : Type} (env : Env F) (alg : Alg) (dataKey : Option Bytes) (buf : Bytes) : Except Err Bytes :=
  match dataKey with
  | none => if alg = .none then .ok buf else decompressFh (env.codec alg) buf
  | some k =>
    match decryptFh env.cr k buf with
    | .error e => .error e
    | .ok pl => if alg = .none then .ok pl else decompressFh (env.codec alg) pl

/-- `readinto_fh` (comprenc.py:273-356): metadata and the data written to `fh`, given what the plain
backend returned for the key. -/
def readinto {F : Type} (env : Env F) (cfg : Cfg) (key : Bytes) (m : Raw) (buf : Bytes) :
    Except Err (Meta F × Bytes) :=
  match verifyMeta env cfg key m with
  | .error e => .error e
  | .ok (nonce, d) =>
    let dataKey := match nonce, cfg.pass with
      | some n, some p => if n = [] then none else some (env.cr.sha (p ++ n))
      | _, _ => none
    match get m kCompression, get m kEncryption with
    | some (.str tok), some (.str enc) =>
      if enc ≠ sAes ∧ enc ≠ sNone then .error .runtime
      else
        match algOf tok with
        | none => .error .runtime
        | some alg =>
          match payload m buf with
          | .error e => .error e
          | .ok pl =>
            if !sizeOk d then .error .assertion
            else
              match unpack env alg dataKey pl with
              | .error e => .error e
              | .ok data => .ok (popSize d, data)
    | _, _ => .error .assertion

end Verif.Comprenc
