import Verif.Backend.Address
/-
Property C69: requests are signed the way the server verifies them (AWS signature version 4,
backends/s3c4.py:160-246, and version 2, backends/s3c.py:598-647).  The cryptographic functions are parameters.
-/
namespace Verif.Backend.Addr
open Verif.Codec (Str Byte utf8)

/-! ### Strings -/

/-- Comparison of strings by code points. -/
def strLe : Str → Str → Bool
  | [], _ => true
  | _ :: _, [] => false
  | a :: s, b :: t => if a.toNat < b.toNat then true else if b.toNat < a.toNat then false else strLe s t

/-- Inserting into a sorted list. -/
def insertBy {α : Type} (le : α → α → Bool) (x : α) : List α → List α
  | [] => [x]
  | y :: l => if le x y then x :: y :: l else y :: insertBy le x l

/-- `sorted(l)`. -/
def isort {α : Type} (le : α → α → Bool) : List α → List α
  | [] => []
  | x :: l => insertBy le x (isort le l)

/-- Python's notion of white space, in ASCII. -/
def pySpace (c : Char) : Bool := [' ', '\t', '\n', '\r', '\x0b', '\x0c'].contains c

/-- Removing characters from both ends. -/
def stripBy (p : Char → Bool) (s : Str) : Str := ((s.dropWhile p).reverse.dropWhile p).reverse

/-! ### Headers -/

/-- HTTP headers; names are in lower case (`CaseInsensitiveDict`, property C40). -/
abbrev Hdrs := List (Str × Str)

/-- `headers.get(name)`. -/
def hget (h : Hdrs) (n : Str) : Option Str := (h.find? (fun e => e.1 = n)).map (·.2)

/-- `headers[name] = value`. -/
def hset (h : Hdrs) (n v : Str) : Hdrs :=
  if h.any (fun e => e.1 = n) then h.map (fun e => if e.1 = n then (n, v) else e) else h ++ [(n, v)]

/-- `headers.setdefault(name, value)`. -/
def hdefault (h : Hdrs) (n v : Str) : Hdrs := if h.any (fun e => e.1 = n) then h else h ++ [(n, v)]

/-- `headers.pop(name, None)`. -/
def hpop (h : Hdrs) (n : Str) : Hdrs := h.filter (fun e => !decide (e.1 = n))

/-- Headers that matter for a request of the S3 backends. -/
def sHost := "host".toList
def sDate := "x-amz-date".toList
def sSha := "x-amz-content-sha256".toList
def sAuth := "authorization".toList
def sLength := "content-length".toList
def sExpect := "expect".toList
def sAccept := "accept-encoding".toList
def sConn := "connection".toList

/-! ### The cryptography -/

/-- The functions used for signing: SHA-256 in hexadecimal, HMAC, and hexadecimal text. -/
structure Crypto where
  shaHex : List Byte → Str
  hmac : List Byte → List Byte → List Byte
  hex : List Byte → Str

/-- `update_signing_key` (backends/s3c4.py:240-246), which is also the derivation that Amazon documents. -/
def deriveKey (cr : Crypto) (password ymd region : Str) : List Byte :=
  cr.hmac (cr.hmac (cr.hmac (cr.hmac (utf8 ("AWS4".toList ++ password)) (utf8 ymd)) (utf8 region)) (utf8 "s3".toList))
    (utf8 "aws4_request".toList)

/-! ### Specification: how the server verifies a request

See "Signature Calculations for the Authorization Header" in the Amazon S3 API reference. -/

/-- The `Authorization` header, taken apart. -/
structure Auth where
  login : Str
  date : Str
  region : Str
  signed : List Str
  signature : Str
deriving DecidableEq

/-- A request as it arrives. -/
structure Req where
  method : Str
  target : Str
  headers : Hdrs
  auth : Auth
deriving DecidableEq

/-- Order of parameters: by name, then by value. -/
def pairLe (a b : Str × Str) : Bool := if a.1 = b.1 then strLe a.2 b.2 else strLe a.1 b.1

/-- `UriEncode` of the documentation. -/
def uriEncode (slash : Bool) (bs : List Byte) : Str := bs.flatMap (quoteB (if slash then ['/'] else []))

/-- The canonical query string. -/
def canonQuery (q : Option Str) : Str :=
  join '&' ((isort pairLe ((paramsOf q).map (fun e => (uriEncode false e.1, uriEncode false e.2)))).map
    (fun e => e.1 ++ '=' :: e.2))

/-- `Trim` of the documentation. -/
def trim (s : Str) : Str := stripBy (fun c => c = ' ' || c = '\t') s

/-- The canonical request. -/
def canonical (r : Req) : Str :=
  r.method ++ '\n' :: (uriEncode true (pctDecode false (cut '?' r.target).1) ++ '\n' ::
    (canonQuery (cut '?' r.target).2 ++ '\n' ::
      ((r.auth.signed.flatMap (fun n => n ++ ':' :: (trim ((hget r.headers n).getD []) ++ ['\n']))) ++ '\n' ::
        (join ';' r.auth.signed ++ '\n' :: (hget r.headers sSha).getD []))))

/-- The string to sign. -/
def stringToSign (cr : Crypto) (r : Req) : Str :=
  "AWS4-HMAC-SHA256\n".toList ++ ((hget r.headers sDate).getD [] ++ '\n' ::
    (r.auth.date ++ '/' :: (r.auth.region ++ "/s3/aws4_request\n".toList) ++ cr.shaHex (utf8 (canonical r))))

/-- The server's decision, for the secret key of the account: the request is for this region, the date is the
one of the request, all of `host` and `x-amz-*` are signed, the list of signed headers is sorted and has only
headers of the request, and the signature is right.  (The check of the clock is left out.) -/
def accepts (cr : Crypto) (login password region : Str) (r : Req) : Bool :=
  r.auth.login = login && r.auth.region = region && r.auth.date = ((hget r.headers sDate).getD []).take 8 &&
  r.auth.signed.contains sHost &&
  r.headers.all (fun e => !("x-amz-".toList.isPrefixOf e.1) || r.auth.signed.contains e.1) &&
  r.auth.signed.all (fun n => (hget r.headers n).isSome) &&
  decide (r.auth.signed.Pairwise (fun a b => strLe a b = true)) &&
  r.auth.signature = cr.hex (cr.hmac (deriveKey cr password r.auth.date r.auth.region) (utf8 (stringToSign cr r)))

/-! ### The client, version 4 -/

/-- Attributes of the backend. -/
structure Cfg where
  s3 : S3c
  port : Nat
  ssl : Bool
  login : Str
  password : Str

/-- `self.sig_region` and `self.signing_key`. -/
structure SigState where
  region : Str
  key : Option (List Byte × Str)

/-- `'%s:%s' % (self.hostname, self.port)`. -/
def hostPort (c : Cfg) : Str := c.s3.hostname ++ ':' :: (Nat.repr c.port).toList

/-- The headers that are signed (backends/s3c.py:666, backends/s3c4.py:172-179). -/
def signHeaders (c : Cfg) (h : Hdrs) (ymd hms : Str) : Hdrs :=
  let h := hset h sHost c.s3.hostname
  let h := if c.port ≠ 443 then hset h sHost (hostPort c) else h
  let h := hset h sDate (ymd ++ 'T' :: (hms ++ ['Z']))
  let h := hset h sSha "UNSIGNED-PAYLOAD".toList
  hpop h sAuth

/-- The query string in the canonical request (backends/s3c4.py:184-196). -/
def signQuery (subres : Option Str) (q : List (Str × Str)) : Str :=
  let s := if q ≠ [] then splitOn '&' (join '&' (q.map (fun e => quoteW [] e.1 ++ '=' :: quoteW [] e.2))) else []
  let s := match subres with
    | some sub => s ++ [quotePath sub ++ ['=']]
    | none => s
  if s ≠ [] then join '&' (isort strLe s) else []

/-- `can_req` (backends/s3c4.py:181-204). -/
def canReq (method path : Str) (h : Hdrs) (subres : Option Str) (q : List (Str × Str)) : Str :=
  let sig := isort strLe (h.map (·.1))
  join '\n' ([method, quotePath path, signQuery subres q] ++
    sig.map (fun n => n ++ ':' :: stripBy pySpace ((hget h n).getD [])) ++
    [[], join ';' sig, (hget h sSha).getD []])

/-- `_authorize_request` (backends/s3c4.py:160-238): the signature data, and the new state of the cached key.
`ymd` and `hms` are the two halves of the current UTC time. -/
def authorize (cr : Crypto) (c : Cfg) (st : SigState) (method path : Str) (h : Hdrs) (subres : Option Str)
    (q : List (Str × Str)) (ymd hms : Str) : Auth × SigState :=
  let sts := "AWS4-HMAC-SHA256\n".toList ++ (ymd ++ 'T' :: (hms ++ ['Z'])) ++ ['\n'] ++
    (ymd ++ '/' :: (st.region ++ "/s3/aws4_request\n".toList)) ++ cr.shaHex (utf8 (canReq method path h subres q))
  let k := match st.key with
    | some (k, d) => if d ≠ ymd then (deriveKey cr c.password ymd st.region, ymd) else (k, d)
    | none => (deriveKey cr c.password ymd st.region, ymd)
  (⟨c.login, ymd, st.region, isort strLe (h.map (·.1)), cr.hex (cr.hmac k.1 (utf8 sts))⟩, { st with key := some k })

/-- The headers as sent by `send_request` (http.py:468-487); `len` is the content length. -/
def sendHeaders (c : Cfg) (h : Hdrs) (len : Str) (expect : Bool) : Hdrs :=
  let h := hset h sLength len
  let h := if expect then hset h sExpect "100-continue".toList else h
  let h := hset h sHost (if c.port = (if c.ssl then 443 else 80) then c.s3.hostname else hostPort c)
  hdefault (hdefault h sAccept "identity".toList) sConn "keep-alive".toList

/-- `_do_request_inner` (backends/s3c.py:649-690) with version 4 signatures. -/
def request4 (cr : Crypto) (c : Cfg) (st : SigState) (method path : Str) (h : Hdrs) (subres : Option Str)
    (q : List (Str × Str)) (len : Str) (expect : Bool) (ymd hms : Str) : Req × SigState :=
  let hs := signHeaders c h ymd hms
  let a := authorize cr c st method (c.s3.reqPath path) hs subres q ymd hms
  (⟨method, c.s3.target path subres q, sendHeaders c hs len expect, a.1⟩, a.2)

/-! ### Lemmas -/

theorem strLe_refl (s : Str) : strLe s s = true := by
  induction s with
  | nil => rfl
  | cons a t ih => simp [strLe, ih]

theorem strLe_total (s t : Str) : strLe s t = true ∨ strLe t s = true := by
  induction s generalizing t with
  | nil => exact Or.inl rfl
  | cons a s ih =>
    cases t with
    | nil => exact Or.inr rfl
    | cons b t =>
      simp only [strLe]
      by_cases h1 : a.toNat < b.toNat
      · left; rw [if_pos h1]
      · by_cases h2 : b.toNat < a.toNat
        · right; rw [if_pos h2]
        · rw [if_neg h1, if_neg h2, if_neg h2, if_neg h1]; exact ih t

theorem strLe_trans : ∀ (s t u : Str), strLe s t = true → strLe t u = true → strLe s u = true
  | [], _, _, _, _ => rfl
  | _ :: _, [], _, h, _ => by simp [strLe] at h
  | _ :: _, _ :: _, [], _, h => by simp [strLe] at h
  | a :: s, b :: t, c :: u, h1, h2 => by
    simp only [strLe] at h1 h2 ⊢
    by_cases hab : a.toNat < b.toNat
    · by_cases hbc : b.toNat < c.toNat
      · rw [if_pos (by omega)]
      · rw [if_neg hbc] at h2
        by_cases hcb : c.toNat < b.toNat
        · rw [if_pos hcb] at h2; cases h2
        · rw [if_pos (by omega)]
    · rw [if_neg hab] at h1
      by_cases hba : b.toNat < a.toNat
      · rw [if_pos hba] at h1; cases h1
      · rw [if_neg hba] at h1
        by_cases hbc : b.toNat < c.toNat
        · rw [if_pos (by omega)]
        · rw [if_neg hbc] at h2
          by_cases hcb : c.toNat < b.toNat
          · rw [if_pos hcb] at h2; cases h2
          · rw [if_neg hcb] at h2
            rw [if_neg (by omega), if_neg (by omega)]
            exact strLe_trans s t u h1 h2

theorem mem_insertBy {α : Type} (le : α → α → Bool) (x y : α) (l : List α) : y ∈ insertBy le x l ↔ y = x ∨ y ∈ l := by
  induction l with
  | nil => simp [insertBy]
  | cons z l ih =>
    simp only [insertBy]
    split
    · simp
    · simp only [List.mem_cons, ih]
      constructor
      · rintro (h | h | h) <;> simp [h]
      · rintro (h | h | h) <;> simp [h]

theorem mem_isort {α : Type} (le : α → α → Bool) (y : α) (l : List α) : y ∈ isort le l ↔ y ∈ l := by
  induction l with
  | nil => simp [isort]
  | cons z l ih => simp only [isort, mem_insertBy, ih, List.mem_cons]

theorem isort_sorted (l : List Str) : (isort strLe l).Pairwise (fun a b => strLe a b = true) := by
  induction l with
  | nil => exact List.Pairwise.nil
  | cons x l ih =>
    simp only [isort]
    generalize isort strLe l = m at ih
    induction m with
    | nil => simp [insertBy]
    | cons y m ihm =>
      simp only [insertBy]
      have hy := List.pairwise_cons.1 ih
      split
      · rename_i h
        refine List.pairwise_cons.2 ⟨?_, ih⟩
        intro z hz
        rcases List.mem_cons.1 hz with rfl | hz
        · exact h
        · exact strLe_trans _ _ _ h (hy.1 z hz)
      · rename_i h
        refine List.pairwise_cons.2 ⟨?_, ihm hy.2⟩
        intro z hz
        rcases (mem_insertBy _ _ _ _).1 hz with rfl | hz
        · exact (strLe_total z y).resolve_left h
        · exact hy.1 z hz

theorem insertBy_map {α β : Type} (le : β → β → Bool) (le' : α → α → Bool) (f : α → β) (x : α) (l : List α)
    (h : ∀ y ∈ l, le (f x) (f y) = le' x y) : insertBy le (f x) (l.map f) = (insertBy le' x l).map f := by
  induction l with
  | nil => rfl
  | cons y l ih =>
    simp only [List.map_cons, insertBy, h y List.mem_cons_self]
    split
    · rfl
    · rw [ih (fun z hz => h z (List.mem_cons_of_mem _ hz))]; rfl

theorem isort_map {α β : Type} (le : β → β → Bool) (le' : α → α → Bool) (f : α → β) (l : List α)
    (h : ∀ x ∈ l, ∀ y ∈ l, le (f x) (f y) = le' x y) : isort le (l.map f) = (isort le' l).map f := by
  induction l with
  | nil => rfl
  | cons x l ih =>
    simp only [List.map_cons, isort]
    rw [ih (fun a ha b hb => h a (List.mem_cons_of_mem _ ha) b (List.mem_cons_of_mem _ hb))]
    apply insertBy_map
    intro y hy
    exact h x List.mem_cons_self y (List.mem_cons_of_mem _ ((mem_isort le' y l).1 hy))

theorem strLe_append_same (n : Str) (v w : Str) : strLe (n ++ v) (n ++ w) = strLe v w := by
  induction n with
  | nil => rfl
  | cons a n ih => simp [strLe, ih]

theorem strLe_append_diff : ∀ (n m v w : Str), ¬ n <+: m → ¬ m <+: n → strLe (n ++ v) (m ++ w) = strLe n m
  | [], m, _, _, h, _ => absurd (List.nil_prefix) h
  | _ :: _, [], _, _, _, h => absurd (List.nil_prefix) h
  | a :: n, b :: m, v, w, h1, h2 => by
    simp only [List.cons_append, strLe]
    split
    · rfl
    · split
      · rfl
      · have e : a = b := by
          apply Char.ext; apply UInt32.toNat_inj.1
          have ha : a.toNat = a.val.toNat := rfl
          have hb : b.toNat = b.val.toNat := rfl
          omega
        subst e
        exact strLe_append_diff n m v w (fun h => h1 (List.cons_prefix_cons.2 ⟨rfl, h⟩))
          (fun h => h2 (List.cons_prefix_cons.2 ⟨rfl, h⟩))

/-- The names of the parameters: no (encoded) name is the beginning of another one. -/
def Names (subres : Option Str) (q : List (Str × Str)) : Prop :=
  ∀ a ∈ subres.toList ++ q.map (·.1), ∀ b ∈ subres.toList ++ q.map (·.1), quoteW [] a <+: quoteW [] b → a = b

instance (subres : Option Str) (q : List (Str × Str)) : Decidable (Names subres q) :=
  inferInstanceAs (Decidable (∀ _ ∈ _, ∀ _ ∈ _, _))

/-- The encoded parameters. -/
def encoded (subres : Option Str) (q : List (Str × Str)) : List (Str × Str) :=
  q.map (fun e => (quoteW [] e.1, quoteW [] e.2)) ++ (subres.map (fun s => (s, ([] : Str)))).toList

theorem quoteW_inj {s t : Str} (h : quoteW [] s = quoteW [] t) : s = t := by
  have h1 := pctDecode_quoteW true [] safe_nil s
  rw [h, pctDecode_quoteW true [] safe_nil t] at h1
  exact (utf8_inj h1).symm

theorem Plain.quotePath {s : Str} (h : Plain s) : quotePath s = s := by
  have hs : '/' ∉ s := by
    intro hc
    have : '/' ∈ quoteW [] s := by rw [h]; exact hc
    have := (quoteW_mem [] safe_nil s this).2.2.2.2.1 rfl
    cases this
  have h2 : ∀ b ∈ utf8 s, quoteB ['/'] b = quoteB [] b := by
    intro b hb
    have key : ∀ n : Fin 256, n.val ≠ 47 → quoteB ['/'] (UInt8.ofNat n.val) = quoteB [] (UInt8.ofNat n.val) := by
      decide +kernel
    have hn : b.toNat ≠ 47 := by
      intro h47
      obtain ⟨c, hc, hv⟩ := (ascii_mem b (by omega) s).1 hb
      have : c = '/' := Char.ext (UInt32.toNat_inj.1 (by rw [hv, h47]; rfl))
      exact hs (this ▸ hc)
    have := key ⟨b.toNat, b.toNat_lt⟩ hn
    simpa using this
  unfold Plain quoteW at h
  unfold Addr.quotePath quoteW
  have : ∀ bs : List Byte, (∀ b ∈ bs, quoteB ['/'] b = quoteB [] b) → bs.flatMap (quoteB ['/']) = bs.flatMap (quoteB []) := by
    intro bs hbs
    induction bs with
    | nil => rfl
    | cons b t ih =>
      rw [List.flatMap_cons, List.flatMap_cons, hbs b List.mem_cons_self, ih (fun x hx => hbs x (List.mem_cons_of_mem _ hx))]
  rw [this (utf8 s) h2, h]

theorem signQuery_eq (subres : Option Str) (hs : ∀ s, subres = some s → Plain s) (q : List (Str × Str)) :
    signQuery subres q = join '&' (isort strLe ((encoded subres q).map (fun e => e.1 ++ '=' :: e.2))) := by
  unfold signQuery
  have h1 : (if q ≠ [] then splitOn '&' (join '&' (q.map (fun e => quoteW [] e.1 ++ '=' :: quoteW [] e.2))) else []) =
      q.map (fun e => quoteW [] e.1 ++ '=' :: quoteW [] e.2) := by
    by_cases hq : q ≠ []
    · rw [if_pos hq, splitOn_join _ (by simpa using hq)]
      intro p hp
      obtain ⟨e, _, rfl⟩ := List.mem_map.1 hp
      simp only [List.mem_append, List.mem_cons, not_or]
      exact ⟨fun h => (quoteW_mem [] safe_nil _ h).2.1 rfl, by decide, fun h => (quoteW_mem [] safe_nil _ h).2.1 rfl⟩
    · rw [if_neg hq, Decidable.not_not.1 hq]; rfl
  dsimp only
  rw [h1]
  have h2 : (match (generalizing := false) subres with
      | some sub => q.map (fun e => quoteW [] e.1 ++ '=' :: quoteW [] e.2) ++ [quotePath sub ++ ['=']]
      | none => q.map (fun e => quoteW [] e.1 ++ '=' :: quoteW [] e.2)) =
      (encoded subres q).map (fun e => e.1 ++ '=' :: e.2) := by
    unfold encoded
    rw [List.map_append, List.map_map]
    cases subres with
    | none => simp
    | some s => simp [(hs s rfl).quotePath]
  rw [h2]
  generalize (encoded subres q).map (fun e => e.1 ++ '=' :: e.2) = l
  by_cases hl : l ≠ []
  · rw [if_pos hl]
  · rw [if_neg hl, Decidable.not_not.1 hl]; rfl

theorem insertBy_comm_head {α : Type} (le : α → α → Bool) (htot : ∀ a b, le a b = true ∨ le b a = true)
    (htr : ∀ a b c, le a b = true → le b c = true → le a c = true)
    (hanti : ∀ a b, le a b = true → le b a = true → a = b) (x y : α) (l : List α) :
    insertBy le x (insertBy le y l) = insertBy le y (insertBy le x l) := by
  induction l with
  | nil =>
    simp only [insertBy]
    by_cases h1 : le x y = true
    · by_cases h2 : le y x = true
      · have := hanti _ _ h1 h2; subst this; rfl
      · simp [h1, h2]
    · have h2 := (htot x y).resolve_left h1
      simp [h1, h2]
  | cons z l ih =>
    by_cases hy : le y z = true <;> by_cases hx : le x z = true
    · simp only [insertBy, hy, hx, if_true]
      by_cases h1 : le x y = true
      · by_cases h2 : le y x = true
        · have := hanti _ _ h1 h2; subst this; rfl
        · simp [h1, h2, hy]
      · have h2 := (htot x y).resolve_left h1
        simp [h1, h2, hx]
    · have h1 : ¬ le x y = true := fun h => hx (htr _ _ _ h hy)
      simp [insertBy, hy, hx, h1]
    · have h1 : ¬ le y x = true := fun h => hy (htr _ _ _ h hx)
      simp [insertBy, hy, hx, h1]
    · simp [insertBy, hy, hx, ih]

theorem strLe_anti : ∀ (s t : Str), strLe s t = true → strLe t s = true → s = t
  | [], [], _, _ => rfl
  | [], _ :: _, _, h => by simp [strLe] at h
  | _ :: _, [], h, _ => by simp [strLe] at h
  | a :: s, b :: t, h1, h2 => by
    simp only [strLe] at h1 h2
    have e : a.toNat = b.toNat := by
      by_cases ha : a.toNat < b.toNat
      · rw [if_neg (by omega), if_pos ha] at h2; cases h2
      · by_cases hb : b.toNat < a.toNat
        · rw [if_neg ha, if_pos hb] at h1; cases h1
        · omega
    rw [if_neg (by omega), if_neg (by omega)] at h1 h2
    have e' : a = b := Char.ext (UInt32.toNat_inj.1 e)
    rw [e', strLe_anti s t h1 h2]

theorem isort_append_one (l : List Str) (x : Str) : isort strLe (l ++ [x]) = insertBy strLe x (isort strLe l) := by
  induction l with
  | nil => rfl
  | cons y l ih =>
    simp only [List.cons_append, isort, ih]
    exact insertBy_comm_head strLe strLe_total strLe_trans strLe_anti y x _

theorem server_query (subres : Option Str) (q : List (Str × Str)) (hs : ∀ s, subres = some s → Plain s)
    (hn : Names subres q) (oq : Option Str) (ho : paramsOf oq = wanted subres q) :
    canonQuery oq = signQuery subres q := by
  rw [signQuery_eq subres hs q]
  unfold canonQuery
  rw [ho]
  have h1 : (wanted subres q).map (fun e => (uriEncode false e.1, uriEncode false e.2)) =
      (subres.map (fun s => (s, ([] : Str)))).toList ++ q.map (fun e => (quoteW [] e.1, quoteW [] e.2)) := by
    unfold wanted
    rw [List.map_append, List.map_map]
    congr 1
    cases subres with
    | none => rfl
    | some s =>
      have hpl : Plain s := hs s rfl
      show [((utf8 s).flatMap (quoteB []), ([] : Str))] = [(s, [])]
      rw [show (utf8 s).flatMap (quoteB []) = s from hpl]
  rw [h1]
  congr 1
  rw [← isort_map strLe pairLe]
  · unfold encoded
    rw [List.map_append, List.map_append]
    cases subres with
    | none => simp
    | some s =>
      simp only [Option.map, Option.toList, List.map_cons, List.map_nil]
      rw [isort_append_one]; rfl
  · have key : ∀ x ∈ (subres.map (fun s => (s, ([] : Str)))).toList ++ q.map (fun e => (quoteW [] e.1, quoteW [] e.2)),
        ∃ a ∈ subres.toList ++ q.map (·.1), x.1 = quoteW [] a := by
      intro x hx
      rcases List.mem_append.1 hx with h | h
      · cases subres with
        | none => simp at h
        | some s =>
          have h := List.mem_singleton.1 h
          subst h
          have hpl : Plain s := hs s rfl
          exact ⟨s, by simp, hpl.symm⟩
      · obtain ⟨e, he, rfl⟩ := List.mem_map.1 h
        exact ⟨e.1, List.mem_append_right _ (List.mem_map.2 ⟨e, he, rfl⟩), rfl⟩
    intro x hx y hy
    obtain ⟨a, ha, hxa⟩ := key x hx
    obtain ⟨b, hb, hyb⟩ := key y hy
    unfold pairLe
    by_cases he : x.1 = y.1
    · rw [if_pos he, he, strLe_append_same]
      show (if '='.toNat < '='.toNat then true else if '='.toNat < '='.toNat then false else strLe x.2 y.2) = _
      rfl
    · rw [if_neg he]
      apply strLe_append_diff
      · intro hp
        rw [hxa, hyb] at hp
        exact he (by rw [hxa, hyb, hn a ha b hb hp])
      · intro hp
        rw [hxa, hyb] at hp
        exact he (by rw [hxa, hyb, hn b hb a ha hp])

theorem hget_hset (h : Hdrs) (n v m : Str) : hget (hset h n v) m = if m = n then some v else hget h m := by
  unfold hget hset
  by_cases ha : h.any (fun e => e.1 = n) = true
  · rw [if_pos ha]
    induction h with
    | nil => simp at ha
    | cons e t ih =>
      rw [List.map_cons]
      by_cases he : e.1 = n
      · rw [if_pos he]
        by_cases hm : m = n
        · rw [if_pos hm, hm, List.find?_cons_of_pos (by simp)]; rfl
        · rw [if_neg hm, List.find?_cons_of_neg (by simpa using fun h => hm h.symm),
            List.find?_cons_of_neg (by simpa using fun h => hm (by rw [← h, he]))]
          by_cases ht : t.any (fun e => e.1 = n) = true
          · have := ih ht; rwa [if_neg hm] at this
          · have : t.map (fun e => if e.1 = n then (n, v) else e) = t := by
              conv => rhs; rw [← List.map_id t]
              apply List.map_congr_left
              intro x hx
              have : ¬ x.1 = n := fun hc => ht (List.any_eq_true.2 ⟨x, hx, by simpa using hc⟩)
              rw [if_neg this]; rfl
            rw [this]
      · rw [if_neg he]
        have ht : t.any (fun e => e.1 = n) = true := by
          rw [List.any_cons] at ha
          simpa [he] using ha
        by_cases hm : e.1 = m
        · rw [List.find?_cons_of_pos (by simpa using hm), List.find?_cons_of_pos (by simpa using hm),
            if_neg (fun h => he (by rw [hm, h]))]
        · rw [List.find?_cons_of_neg (by simpa using hm), List.find?_cons_of_neg (by simpa using hm)]
          exact ih ht
  · rw [if_neg ha, List.find?_append]
    by_cases hm : m = n
    · rw [if_pos hm, hm]
      have : h.find? (fun e => decide (e.1 = n)) = none := by
        rw [List.find?_eq_none]
        intro x hx hc
        exact ha (List.any_eq_true.2 ⟨x, hx, hc⟩)
      rw [this]
      simp
    · rw [if_neg hm]
      cases h.find? (fun e => decide (e.1 = m)) with
      | some x => rfl
      | none => simpa using fun h => hm h.symm

theorem hget_hdefault (h : Hdrs) (n v m : Str) :
    hget (hdefault h n v) m = if m = n ∧ hget h n = none then some v else hget h m := by
  unfold hdefault
  have hg : h.any (fun e => e.1 = n) = true ↔ hget h n ≠ none := by
    unfold hget
    rw [Ne, Option.map_eq_none_iff, List.find?_eq_none, List.any_eq_true]
    constructor
    · rintro ⟨x, hx, hc⟩ hn; exact hn x hx hc
    · intro hn
      refine Classical.byContradiction fun hc => hn fun x hx hx' => hc ⟨x, hx, hx'⟩
  by_cases ha : h.any (fun e => e.1 = n) = true
  · rw [if_pos ha, if_neg (fun hc => hg.1 ha hc.2)]
  · rw [if_neg ha]
    have hnone : hget h n = none := Classical.byContradiction fun hc => ha (hg.2 hc)
    by_cases hm : m = n
    · rw [if_pos ⟨hm, hnone⟩, hm]
      unfold hget at hnone ⊢
      rw [List.find?_append, Option.map_eq_none_iff.1 hnone]
      simp
    · rw [if_neg (fun hc => hm hc.1)]
      unfold hget
      rw [List.find?_append]
      cases h.find? (fun e => decide (e.1 = m)) with
      | some x => rfl
      | none => simpa using fun h => hm h.symm

theorem mem_keys_hset (h : Hdrs) (n v m : Str) : m ∈ (hset h n v).map (·.1) ↔ m = n ∨ m ∈ h.map (·.1) := by
  unfold hset
  by_cases ha : h.any (fun e => e.1 = n) = true
  · rw [if_pos ha, List.map_map]
    obtain ⟨x, hx, hxn⟩ := List.any_eq_true.1 ha
    have hxn' : x.1 = n := by simpa using hxn
    have e : h.map ((fun e => e.1) ∘ fun e => if e.1 = n then (n, v) else e) = h.map (·.1) := by
      apply List.map_congr_left
      intro y _
      show (if y.1 = n then (n, v) else y).1 = y.1
      split
      · rename_i hy; exact hy.symm
      · rfl
    rw [e]
    constructor
    · exact Or.inr
    · rintro (rfl | h')
      · exact List.mem_map.2 ⟨x, hx, hxn'⟩
      · exact h'
  · rw [if_neg ha]
    simp [or_comm]

theorem mem_keys_hdefault (h : Hdrs) (n v m : Str) : m ∈ (hdefault h n v).map (·.1) → m = n ∨ m ∈ h.map (·.1) := by
  unfold hdefault
  split
  · exact Or.inr
  · simp [or_comm]

theorem hget_isSome (h : Hdrs) (n : Str) : (hget h n).isSome = true ↔ n ∈ h.map (·.1) := by
  unfold hget
  rw [Option.isSome_map, List.find?_isSome, List.mem_map]
  constructor
  · rintro ⟨x, hx, h'⟩; exact ⟨x, hx, by simpa using h'⟩
  · rintro ⟨x, hx, h'⟩; exact ⟨x, hx, by simpa using h'⟩

theorem hpop_not (h : Hdrs) (n : Str) : n ∉ (hpop h n).map (·.1) := by
  intro hc
  obtain ⟨x, hx, rfl⟩ := List.mem_map.1 hc
  have := (List.mem_filter.1 hx).2
  simp at this

theorem mem_keys_hpop (h : Hdrs) (n m : Str) : m ∈ (hpop h n).map (·.1) ↔ m ≠ n ∧ m ∈ h.map (·.1) := by
  unfold hpop
  simp only [List.mem_map, List.mem_filter]
  constructor
  · rintro ⟨x, ⟨hx, h'⟩, rfl⟩; exact ⟨by simpa using h', x, hx, rfl⟩
  · rintro ⟨h', x, hx, rfl⟩; exact ⟨x, ⟨hx, by simpa using h'⟩, rfl⟩

theorem hget_hpop (h : Hdrs) (n m : Str) (hm : m ≠ n) : hget (hpop h n) m = hget h m := by
  unfold hget hpop
  congr 1
  rw [List.find?_filter]
  congr 1
  funext e
  by_cases he : e.1 = m
  · simp [he, hm]
  · simp [he]

/-- A header value without white space at either end (the HTTP library refuses others). -/
def CleanVal (v : Str) : Prop := (∀ c, v.head? = some c → pySpace c = false) ∧ (∀ c, v.getLast? = some c → pySpace c = false)

theorem stripBy_clean (p : Char → Bool) (v : Str) (h1 : ∀ c, v.head? = some c → p c = false)
    (h2 : ∀ c, v.getLast? = some c → p c = false) : stripBy p v = v := by
  unfold stripBy
  have e1 : v.dropWhile p = v := by
    cases v with
    | nil => rfl
    | cons a t => rw [List.dropWhile_cons_of_neg (by rw [h1 a rfl]; decide)]
  have e2 : v.reverse.dropWhile p = v.reverse := by
    cases hr : v.reverse with
    | nil => rfl
    | cons a t =>
      rw [List.dropWhile_cons_of_neg]
      have : v.getLast? = some a := by rw [← List.head?_reverse, hr]; rfl
      rw [h2 a this]; decide
  rw [e1, e2, List.reverse_reverse]

theorem strip_eq_trim {v : Str} (h : CleanVal v) : stripBy pySpace v = v ∧ trim v = v := by
  refine ⟨stripBy_clean _ _ h.1 h.2, stripBy_clean _ _ ?_ ?_⟩
  all_goals
    intro c hc
    have hp : pySpace c = false := by first | exact h.1 c hc | exact h.2 c hc
    unfold pySpace at hp
    by_cases h1 : c = ' '
    · subst h1; revert hp; decide
    · by_cases h2 : c = '\t'
      · subst h2; revert hp; decide
      · simp [h1, h2]

theorem join_cons (sep : Char) (p : Str) (l : List Str) (h : l ≠ []) : join sep (p :: l) = p ++ sep :: join sep l := by
  cases l with
  | nil => exact absurd rfl h
  | cons q r => rfl

theorem join_lines (l : List Str) (r : List Str) (h : r ≠ []) :
    join '\n' (l ++ r) = l.flatMap (fun p => p ++ ['\n']) ++ join '\n' r := by
  induction l with
  | nil => rfl
  | cons p t ih =>
    rw [List.cons_append, join_cons _ _ _ (by simp [h]), ih]; simp

/-- The canonical request of the client, in the form of the documentation. -/
theorem canReq_eq (method path : Str) (h : Hdrs) (subres : Option Str) (q : List (Str × Str)) :
    canReq method path h subres q = method ++ '\n' :: (quotePath path ++ '\n' :: (signQuery subres q ++ '\n' ::
      ((isort strLe (h.map (·.1))).flatMap (fun n => n ++ ':' :: (stripBy pySpace ((hget h n).getD []) ++ ['\n'])) ++ '\n' ::
        (join ';' (isort strLe (h.map (·.1))) ++ '\n' :: (hget h sSha).getD [])))) := by
  unfold canReq
  dsimp only
  rw [List.append_assoc]
  simp only [List.cons_append, List.nil_append]
  rw [join_cons _ _ _ (by simp), join_cons _ _ _ (by simp), join_cons _ _ _ (by simp),
    join_lines _ _ (by simp), List.flatMap_map]
  simp [join]

/-- What the callers pass as headers for a request with a body of length `len`: clean values, and if there are already headers that
`send_request` sets (http.py:475-478), as when a dictionary is used a second time, they have the same values. -/
structure Given (h : Hdrs) (len : Str) (ex : Bool) : Prop where
  length : ∀ v, hget h sLength = some v → v = len
  expect : ex = true → ∀ v, hget h sExpect = some v → v = "100-continue".toList
  clean : ∀ n v, n ≠ sAuth → hget h n = some v → CleanVal v

/-- The host header is the one that was signed. -/
def HostOk (c : Cfg) : Prop := c.ssl = true ∨ (c.port ≠ 80 ∧ c.port ≠ 443)

theorem sign_keys (c : Cfg) (h : Hdrs) (ymd hms n : Str) : n ∈ (signHeaders c h ymd hms).map (·.1) ↔
    n ≠ sAuth ∧ (n = sHost ∨ n = sDate ∨ n = sSha ∨ n ∈ h.map (·.1)) := by
  unfold signHeaders
  dsimp only
  rw [mem_keys_hpop]
  apply and_congr_right
  intro _
  rw [mem_keys_hset, mem_keys_hset]
  have e : n ∈ (if c.port ≠ 443 then hset (hset h sHost c.s3.hostname) sHost (hostPort c) else hset h sHost c.s3.hostname).map (·.1) ↔
      n = sHost ∨ n ∈ h.map (·.1) := by
    split
    · rw [mem_keys_hset, mem_keys_hset]
      constructor
      · rintro (h | h | h) <;> simp [h]
      · rintro (h | h) <;> simp [h]
    · rw [mem_keys_hset]
  rw [e]
  constructor
  · rintro (h | h | h | h) <;> simp [h]
  · rintro (h | h | h | h) <;> simp [h]

theorem sign_get (c : Cfg) (h : Hdrs) (ymd hms n : Str) (hn : n ≠ sAuth) : hget (signHeaders c h ymd hms) n =
    if n = sSha then some "UNSIGNED-PAYLOAD".toList else if n = sDate then some (ymd ++ 'T' :: (hms ++ ['Z'])) else
    if n = sHost then some (if c.port ≠ 443 then hostPort c else c.s3.hostname) else hget h n := by
  unfold signHeaders
  dsimp only
  rw [hget_hpop _ _ _ hn, hget_hset, hget_hset]
  by_cases h1 : n = sSha
  · rw [if_pos h1, if_pos h1]
  · rw [if_neg h1, if_neg h1]
    by_cases h2 : n = sDate
    · rw [if_pos h2, if_pos h2]
    · rw [if_neg h2, if_neg h2]
      by_cases hp : c.port ≠ 443
      · rw [if_pos hp, if_pos hp, hget_hset, hget_hset]
        by_cases h3 : n = sHost
        · rw [if_pos h3, if_pos h3]
        · rw [if_neg h3, if_neg h3, if_neg h3]
      · rw [if_neg hp, if_neg hp, hget_hset]

/-- Every signed header other than `host` is sent with the value that was signed. -/
theorem send_get (c : Cfg) (h : Hdrs) {len : Str} {ex : Bool} (hg : Given h len ex) (ymd hms : Str) (n : Str)
    (hn : n ∈ (signHeaders c h ymd hms).map (·.1)) (hh : n ≠ sHost) :
    hget (sendHeaders c (signHeaders c h ymd hms) len ex) n = hget (signHeaders c h ymd hms) n := by
  have hk := (sign_keys c h ymd hms n).1 hn
  have hsome := (hget_isSome _ _).2 hn
  obtain ⟨v, hv⟩ := Option.isSome_iff_exists.1 hsome
  have hh' : n = sLength ∨ n = sExpect → hget h n = some v := by
    intro hle
    rw [sign_get _ _ _ _ _ hk.1] at hv
    rw [if_neg, if_neg, if_neg hh] at hv
    · exact hv
    · rintro rfl; revert hle; decide
    · rintro rfl; revert hle; decide
  have hs1 : n = sLength → v = len := fun e => hg.length v (by rw [← e]; exact hh' (Or.inl e))
  have hs2 : ex = true → n = sExpect → v = "100-continue".toList := fun he e => hg.expect he v (by rw [← e]; exact hh' (Or.inr e))
  unfold sendHeaders
  dsimp only
  generalize signHeaders c h ymd hms = H at hv
  generalize (if c.port = (if c.ssl then 443 else 80) then c.s3.hostname else hostPort c) = hv'
  have e1 : hget (hset (if ex = true then hset (hset H sLength len) sExpect "100-continue".toList else hset H sLength len) sHost hv') n
      = some v := by
    rw [hget_hset, if_neg hh]
    have e2 : hget (hset H sLength len) n = some v := by
      rw [hget_hset]
      split
      · rename_i e; rw [hs1 e]
      · exact hv
    split
    · rename_i he
      rw [hget_hset]
      split
      · rename_i e; rw [hs2 he e]
      · exact e2
    · exact e2
  generalize hset (if ex = true then hset (hset H sLength len) sExpect "100-continue".toList else hset H sLength len) sHost hv' = G at e1
  rw [hget_hdefault, hget_hdefault, hget_hdefault]
  by_cases ha : n = sAccept ∧ hget G sAccept = none
  · rw [← ha.1, e1] at ha; exact absurd ha.2 (by simp)
  · rw [if_neg ha]
    by_cases hb : n = sConn ∧ (if sConn = sAccept ∧ hget G sAccept = none then some "identity".toList else hget G sConn) = none
    · have := hb.2
      rw [if_neg (fun h => absurd h.1 (by decide)), ← hb.1, e1] at this
      cases this
    · rw [if_neg hb, e1, hv]

theorem send_host (c : Cfg) (H : Hdrs) (len : Str) (ex : Bool) : hget (sendHeaders c H len ex) sHost =
    some (if c.port = (if c.ssl then 443 else 80) then c.s3.hostname else hostPort c) := by
  unfold sendHeaders
  dsimp only
  rw [hget_hdefault, if_neg (fun h => absurd h.1 (by decide)), hget_hdefault, if_neg (fun h => absurd h.1 (by decide)),
    hget_hset, if_pos rfl]

theorem send_host_ok (c : Cfg) (hc : HostOk c) (h : Hdrs) (ymd hms len : Str) (ex : Bool) :
    hget (sendHeaders c (signHeaders c h ymd hms) len ex) sHost = hget (signHeaders c h ymd hms) sHost := by
  have e := sign_get c h ymd hms sHost (by decide)
  rw [if_neg (by decide), if_neg (by decide), if_pos rfl] at e
  rw [send_host, e]
  congr 1
  rcases hc with h | ⟨h1, h2⟩
  · rw [h]
    by_cases hp : c.port = 443
    · simp [hp]
    · simp [hp]
  · cases hs : c.ssl
    · simp [h1, h2]
    · simp [h2]

/-- A name that is sent and begins with `x-amz-` was signed. -/
theorem send_keys (c : Cfg) (H : Hdrs) (len : Str) (ex : Bool) (n : Str) (hn : n ∈ (sendHeaders c H len ex).map (·.1))
    (hx : "x-amz-".toList.isPrefixOf n = true) : n ∈ H.map (·.1) := by
  unfold sendHeaders at hn
  dsimp only at hn
  rcases mem_keys_hdefault _ _ _ _ hn with rfl | hn
  · exact absurd hx (by decide)
  rcases mem_keys_hdefault _ _ _ _ hn with rfl | hn
  · exact absurd hx (by decide)
  rcases (mem_keys_hset _ _ _ _).1 hn with rfl | hn
  · exact absurd hx (by decide)
  have : n ∈ (hset H sLength len).map (·.1) := by
    split at hn
    · rcases (mem_keys_hset _ _ _ _).1 hn with rfl | hn
      · exact absurd hx (by decide)
      · exact hn
    · exact hn
  rcases (mem_keys_hset _ _ _ _).1 this with rfl | hn
  · exact absurd hx (by decide)
  · exact hn

/-- The cached key belongs to the current region. -/
def KeyOk (cr : Crypto) (c : Cfg) (st : SigState) : Prop :=
  ∀ k d, st.key = some (k, d) → k = deriveKey cr c.password d st.region

/-- A time: the date has eight digits. -/
def TimeOk (c : Cfg) (ymd hms : Str) : Prop := ymd.length = 8 ∧ CleanVal (ymd ++ 'T' :: (hms ++ ['Z'])) ∧
  CleanVal c.s3.hostname ∧ CleanVal (hostPort c)

/-- The key used is the derived one, and stays so. -/
theorem authorize_key (cr : Crypto) (c : Cfg) (st : SigState) (hk : KeyOk cr c st) (method path : Str) (h : Hdrs)
    (subres : Option Str) (q : List (Str × Str)) (ymd hms : Str) :
    (authorize cr c st method path h subres q ymd hms).1.signature =
      cr.hex (cr.hmac (deriveKey cr c.password ymd st.region) (utf8 ("AWS4-HMAC-SHA256\n".toList ++
        (ymd ++ 'T' :: (hms ++ ['Z'])) ++ ['\n'] ++ (ymd ++ '/' :: (st.region ++ "/s3/aws4_request\n".toList)) ++
        cr.shaHex (utf8 (canReq method path h subres q))))) ∧
    KeyOk cr c (authorize cr c st method path h subres q ymd hms).2 ∧
    (authorize cr c st method path h subres q ymd hms).2.region = st.region := by
  unfold authorize
  dsimp only
  cases hst : st.key with
  | none =>
    refine ⟨rfl, ?_, rfl⟩
    intro k d hkd
    have := Option.some.inj hkd
    rw [← (Prod.mk.inj this).1, ← (Prod.mk.inj this).2]
  | some kd =>
    obtain ⟨k0, d0⟩ := kd
    have h0 := hk k0 d0 hst
    by_cases hd : d0 ≠ ymd
    · dsimp only
      rw [if_pos hd]
      refine ⟨rfl, ?_, rfl⟩
      intro k d hkd
      have := Option.some.inj hkd
      rw [← (Prod.mk.inj this).1, ← (Prod.mk.inj this).2]
    · have hd' : d0 = ymd := Decidable.not_not.1 hd
      dsimp only
      rw [if_neg hd]
      subst hd'
      rw [← h0]
      refine ⟨rfl, ?_, rfl⟩
      intro k d hkd
      have := Option.some.inj hkd
      rw [← (Prod.mk.inj this).1, ← (Prod.mk.inj this).2]
      exact h0

theorem quotePath_target (c : S3c) (path : Str) (subres : Option Str) (hs : ∀ s, subres = some s → Plain s)
    (q : List (Str × Str)) :
    uriEncode true (pctDecode false (cut '?' (c.target path subres q)).1) = quotePath (c.reqPath path) := by
  unfold S3c.target
  rw [(cut_addQuery _ (no_mark _) subres hs q).1, decode_path]
  rfl

theorem flatMap_congr' {α β : Type} {l : List α} {f g : α → List β} (h : ∀ x ∈ l, f x = g x) : l.flatMap f = l.flatMap g := by
  induction l with
  | nil => rfl
  | cons a t ih =>
    rw [List.flatMap_cons, List.flatMap_cons, h a List.mem_cons_self, ih (fun x hx => h x (List.mem_cons_of_mem _ hx))]

theorem sign_clean (c : Cfg) (h : Hdrs) {len : Str} {ex : Bool} (hg : Given h len ex) (ymd hms : Str) (ht : TimeOk c ymd hms) (n : Str)
    (hn : n ≠ sAuth) : CleanVal ((hget (signHeaders c h ymd hms) n).getD []) := by
  rw [sign_get _ _ _ _ _ hn]
  split
  · constructor <;> (intro c hc; revert hc; simp (config := { decide := true }) [pySpace]; rintro rfl; decide)
  · split
    · exact ht.2.1
    · split
      · show CleanVal (if c.port ≠ 443 then hostPort c else c.s3.hostname)
        split
        · exact ht.2.2.2
        · exact ht.2.2.1
      · cases hv : hget h n with
        | none => constructor <;> (intro c hc; cases hc)
        | some v => exact hg.clean n v hn hv

/-- The canonical request of the server is the one that was signed. -/
theorem canonical_eq (c : Cfg) (hc : HostOk c) (method path : Str) (h : Hdrs) {len : Str} {ex : Bool} (hg : Given h len ex) (subres : Option Str)
    (hs : ∀ s, subres = some s → Plain s) (q : List (Str × Str)) (hn : Names subres q)
    (ymd hms : Str) (ht : TimeOk c ymd hms) (a : Auth) (ha : a.signed = isort strLe ((signHeaders c h ymd hms).map (·.1))) :
    canonical ⟨method, c.s3.target path subres q, sendHeaders c (signHeaders c h ymd hms) len ex, a⟩ =
      canReq method (c.s3.reqPath path) (signHeaders c h ymd hms) subres q := by
  rw [canReq_eq]
  unfold canonical
  dsimp only
  rw [quotePath_target _ _ _ hs, ha]
  have hq : canonQuery (cut '?' (c.s3.target path subres q)).2 = signQuery subres q := by
    apply server_query subres q hs hn
    unfold S3c.target
    exact (cut_addQuery _ (no_mark _) subres hs q).2
  rw [hq]
  have hmem : ∀ n ∈ isort strLe ((signHeaders c h ymd hms).map (·.1)), n ∈ (signHeaders c h ymd hms).map (·.1) :=
    fun n hn => (mem_isort _ _ _).1 hn
  have hf : (isort strLe ((signHeaders c h ymd hms).map (·.1))).flatMap
      (fun n => n ++ ':' :: (trim ((hget (sendHeaders c (signHeaders c h ymd hms) len ex) n).getD []) ++ ['\n'])) =
      (isort strLe ((signHeaders c h ymd hms).map (·.1))).flatMap
      (fun n => n ++ ':' :: (stripBy pySpace ((hget (signHeaders c h ymd hms) n).getD []) ++ ['\n'])) := by
    apply flatMap_congr'
    intro n hn'
    have hn'' := hmem n hn'
    have e : hget (sendHeaders c (signHeaders c h ymd hms) len ex) n = hget (signHeaders c h ymd hms) n := by
      by_cases hh : n = sHost
      · rw [hh]; exact send_host_ok c hc h ymd hms len ex
      · exact send_get c h hg ymd hms n hn'' hh
    have hcl := sign_clean c h hg ymd hms ht n ((sign_keys c h ymd hms n).1 hn'').1
    rw [e, (strip_eq_trim hcl).1, (strip_eq_trim hcl).2]
  rw [hf]
  have hsha : sSha ∈ (signHeaders c h ymd hms).map (·.1) := (sign_keys _ _ _ _ _).2 ⟨by decide, Or.inr (Or.inr (Or.inl rfl))⟩
  rw [send_get c h hg ymd hms sSha hsha (by decide)]

/-- One request: accepted by the server. -/
theorem request_accepted (cr : Crypto) (c : Cfg) (hc : HostOk c) (st : SigState) (hk : KeyOk cr c st) (method path : Str)
    (h : Hdrs) {len : Str} {ex : Bool} (hg : Given h len ex) (subres : Option Str) (hs : ∀ s, subres = some s → Plain s) (q : List (Str × Str))
    (hn : Names subres q) (ymd hms : Str) (ht : TimeOk c ymd hms) :
    accepts cr c.login c.password st.region (request4 cr c st method path h subres q len ex ymd hms).1 = true := by
  obtain ⟨hsig, _, _⟩ := authorize_key cr c st hk method (c.s3.reqPath path) (signHeaders c h ymd hms) subres q ymd hms
  unfold request4
  dsimp only
  have a1 : (authorize cr c st method (c.s3.reqPath path) (signHeaders c h ymd hms) subres q ymd hms).1.login = c.login := rfl
  have a2 : (authorize cr c st method (c.s3.reqPath path) (signHeaders c h ymd hms) subres q ymd hms).1.date = ymd := rfl
  have a3 : (authorize cr c st method (c.s3.reqPath path) (signHeaders c h ymd hms) subres q ymd hms).1.region = st.region := rfl
  have a4 : (authorize cr c st method (c.s3.reqPath path) (signHeaders c h ymd hms) subres q ymd hms).1.signed =
    isort strLe ((signHeaders c h ymd hms).map (·.1)) := rfl
  generalize authorize cr c st method (c.s3.reqPath path) (signHeaders c h ymd hms) subres q ymd hms = A at hsig a1 a2 a3 a4
  unfold accepts
  dsimp only
  have hdate : hget (sendHeaders c (signHeaders c h ymd hms) len ex) sDate = some (ymd ++ 'T' :: (hms ++ ['Z'])) := by
    have hd : sDate ∈ (signHeaders c h ymd hms).map (·.1) := (sign_keys _ _ _ _ _).2 ⟨by decide, Or.inr (Or.inl rfl)⟩
    rw [send_get c h hg ymd hms sDate hd (by decide), sign_get _ _ _ _ _ (by decide), if_neg (by decide), if_pos rfl]
  have hcan := canonical_eq c hc method path h hg subres hs q hn ymd hms ht A.1 a4
  have hsts : stringToSign cr ⟨method, c.s3.target path subres q, sendHeaders c (signHeaders c h ymd hms) len ex, A.1⟩ =
      "AWS4-HMAC-SHA256\n".toList ++ (ymd ++ 'T' :: (hms ++ ['Z'])) ++ ['\n'] ++
        (ymd ++ '/' :: (st.region ++ "/s3/aws4_request\n".toList)) ++
        cr.shaHex (utf8 (canReq method (c.s3.reqPath path) (signHeaders c h ymd hms) subres q)) := by
    unfold stringToSign
    rw [hcan]
    dsimp only
    rw [hdate, a2, a3]
    simp
  rw [hsts, a1, a2, a3, a4, hdate, hsig]
  simp only [Bool.and_eq_true, decide_eq_true_eq, List.all_eq_true, Option.getD]
  refine ⟨⟨⟨⟨⟨⟨⟨trivial, trivial⟩, ?_⟩, ?_⟩, ?_⟩, ?_⟩, ?_⟩, trivial⟩
  · have hl := ht.1
    rw [List.take_append_of_le_length (by omega)]
    exact (List.take_of_length_le (by omega)).symm
  · rw [List.contains_iff_mem, mem_isort]
    exact (sign_keys _ _ _ _ _).2 ⟨by decide, Or.inl rfl⟩
  · intro e he
    by_cases hx : "x-amz-".toList.isPrefixOf e.1 = true
    · rw [hx]
      have := send_keys c _ len ex e.1 (List.mem_map.2 ⟨e, he, rfl⟩) hx
      rw [show (isort strLe ((signHeaders c h ymd hms).map (·.1))).contains e.1 = true from
        List.contains_iff_mem.2 ((mem_isort _ _ _).2 this)]
      rfl
    · rw [Bool.eq_false_iff.2 hx]; rfl
  · intro n hn'
    have hn'' := (mem_isort _ _ _).1 hn'
    by_cases hh : n = sHost
    · rw [hh, send_host]; rfl
    · rw [send_get c h hg ymd hms n hn'' hh]
      exact (hget_isSome _ _).2 hn''
  · exact isort_sorted _

/-! ### C69 -/

/-- What can happen to a backend: a request at some time, or a change of the region
(`_discover_region`, backends/s3.py:134-140, backends/b2ng.py:162-168). -/
inductive Event where
  | request (method path : Str) (h : Hdrs) (subres : Option Str) (q : List (Str × Str)) (len : Str) (expect : Bool)
      (ymd hms : Str)
  | region (r : Str)

/-- The requests sent in a history, with the region at the time. -/
def history (cr : Crypto) (c : Cfg) : SigState → List Event → List (Str × Req)
  | _, [] => []
  | st, .request method path h subres q len ex ymd hms :: es =>
    let r := request4 cr c st method path h subres q len ex ymd hms
    (st.region, r.1) :: history cr c r.2 es
  | st, .region r :: es => history cr c (if r ≠ st.region then ⟨r, none⟩ else st) es

/-- The requests are as the backends make them. -/
def EventOk (c : Cfg) : Event → Prop
  | .request _ _ h subres q len ex ymd hms =>
    Given h len ex ∧ (∀ s, subres = some s → Plain s) ∧ Names subres q ∧ TimeOk c ymd hms
  | .region _ => True

/-- Version 4: in every history of requests, clock readings and region changes, the server accepts every request: the
signature covers exactly the request that is sent, and is made with the key for its date and region. -/
theorem C69_v4_accepted_partial (cr : Crypto) (c : Cfg) (hc : HostOk c) (region : Str) (es : List Event)
    (he : ∀ e ∈ es, EventOk c e) :
    ∀ r ∈ history cr c ⟨region, none⟩ es, accepts cr c.login c.password r.1 r.2 = true := by
  have main : ∀ (es : List Event), (∀ e ∈ es, EventOk c e) → ∀ st, KeyOk cr c st →
      ∀ r ∈ history cr c st es, accepts cr c.login c.password r.1 r.2 = true := by
    intro es
    induction es with
    | nil => intro _ st _ r hr; cases hr
    | cons e es ih =>
      intro he st hk r hr
      have he' : ∀ e ∈ es, EventOk c e := fun x hx => he x (List.mem_cons_of_mem _ hx)
      cases e with
      | request method path h subres q len ex ymd hms =>
        obtain ⟨h1, h2, h3, h4⟩ := he _ List.mem_cons_self
        rcases List.mem_cons.1 hr with rfl | hr
        · exact request_accepted cr c hc st hk method path h h1 subres h2 q h3 ymd hms h4
        · exact ih he' _ (authorize_key cr c st hk method (c.s3.reqPath path) (signHeaders c h ymd hms) subres q ymd hms).2.1 r hr
      | region rg =>
        refine ih he' _ ?_ r hr
        split
        · intro k d hkd; cases hkd
        · exact hk
  exact main es he _ (fun k d hkd => by cases hkd)

/-- Without encryption on port 80, the `host` header that is sent is not the one that is signed, so no request is
accepted (for hash functions without collisions). -/
theorem C69_v4_plain_http (cr : Crypto) (hsha : ∀ a b, cr.shaHex a = cr.shaHex b → a = b)
    (hmac : ∀ k a b, cr.hex (cr.hmac k a) = cr.hex (cr.hmac k b) → a = b) (c : Cfg) (hssl : c.ssl = false)
    (hport : c.port = 80) (st : SigState) (hk : KeyOk cr c st) (method path : Str) (h : Hdrs) {len : Str} {ex : Bool} (hg : Given h len ex)
    (subres : Option Str) (hs : ∀ s, subres = some s → Plain s) (q : List (Str × Str)) (hn : Names subres q)
    (ymd hms : Str) (ht : TimeOk c ymd hms) :
    accepts cr c.login c.password st.region (request4 cr c st method path h subres q len ex ymd hms).1 = false := by
  apply Bool.eq_false_iff.2
  intro hacc
  obtain ⟨hsig, _, _⟩ := authorize_key cr c st hk method (c.s3.reqPath path) (signHeaders c h ymd hms) subres q ymd hms
  unfold request4 at hacc
  dsimp only at hacc
  have a2 : (authorize cr c st method (c.s3.reqPath path) (signHeaders c h ymd hms) subres q ymd hms).1.date = ymd := rfl
  have a3 : (authorize cr c st method (c.s3.reqPath path) (signHeaders c h ymd hms) subres q ymd hms).1.region = st.region := rfl
  have a4 : (authorize cr c st method (c.s3.reqPath path) (signHeaders c h ymd hms) subres q ymd hms).1.signed =
    isort strLe ((signHeaders c h ymd hms).map (·.1)) := rfl
  generalize authorize cr c st method (c.s3.reqPath path) (signHeaders c h ymd hms) subres q ymd hms = A at hsig a2 a3 a4 hacc
  unfold accepts at hacc
  dsimp only at hacc
  simp only [Bool.and_eq_true, decide_eq_true_eq] at hacc
  have hlast := hacc.2
  rw [hsig, a2, a3] at hlast
  have hu := utf8_inj (hmac _ _ _ hlast)
  have hdate : hget (sendHeaders c (signHeaders c h ymd hms) len ex) sDate = some (ymd ++ 'T' :: (hms ++ ['Z'])) := by
    have hd : sDate ∈ (signHeaders c h ymd hms).map (·.1) := (sign_keys _ _ _ _ _).2 ⟨by decide, Or.inr (Or.inl rfl)⟩
    rw [send_get c h hg ymd hms sDate hd (by decide), sign_get _ _ _ _ _ (by decide), if_neg (by decide), if_pos rfl]
  unfold stringToSign at hu
  dsimp only at hu
  rw [hdate, a2, a3] at hu
  have hcan : canReq method (c.s3.reqPath path) (signHeaders c h ymd hms) subres q =
      canonical ⟨method, c.s3.target path subres q, sendHeaders c (signHeaders c h ymd hms) len ex, A.1⟩ := by
    apply utf8_inj
    apply hsha
    simpa using hu
  -- the lengths of the two differ
  rw [canReq_eq] at hcan
  unfold canonical at hcan
  dsimp only at hcan
  rw [quotePath_target _ _ _ hs, a4] at hcan
  have hq : canonQuery (cut '?' (c.s3.target path subres q)).2 = signQuery subres q := by
    apply server_query subres q hs hn
    unfold S3c.target
    exact (cut_addQuery _ (no_mark _) subres hs q).2
  rw [hq] at hcan
  have hsha' : sSha ∈ (signHeaders c h ymd hms).map (·.1) := (sign_keys _ _ _ _ _).2 ⟨by decide, Or.inr (Or.inr (Or.inl rfl))⟩
  rw [send_get c h hg ymd hms sSha hsha' (by decide)] at hcan
  replace hcan := List.append_cancel_left hcan
  replace hcan := List.append_cancel_left (List.cons.inj hcan).2
  replace hcan := List.append_cancel_left (List.cons.inj hcan).2
  replace hcan := List.append_cancel_right (List.cons.inj hcan).2
  have hhost : sHost ∈ isort strLe ((signHeaders c h ymd hms).map (·.1)) :=
    (mem_isort _ _ _).2 ((sign_keys _ _ _ _ _).2 ⟨by decide, Or.inl rfl⟩)
  have hval : ∀ n ∈ isort strLe ((signHeaders c h ymd hms).map (·.1)),
      (n ++ ':' :: (trim ((hget (sendHeaders c (signHeaders c h ymd hms) len ex) n).getD []) ++ ['\n'])).length ≤
      (n ++ ':' :: (stripBy pySpace ((hget (signHeaders c h ymd hms) n).getD []) ++ ['\n'])).length ∧
      (n = sHost → (n ++ ':' :: (trim ((hget (sendHeaders c (signHeaders c h ymd hms) len ex) n).getD []) ++ ['\n'])).length <
      (n ++ ':' :: (stripBy pySpace ((hget (signHeaders c h ymd hms) n).getD []) ++ ['\n'])).length) := by
    intro n hn'
    have hn'' := (mem_isort _ _ _).1 hn'
    have hcl := sign_clean c h hg ymd hms ht n ((sign_keys c h ymd hms n).1 hn'').1
    rw [(strip_eq_trim hcl).1]
    by_cases hh : n = sHost
    · have e1 : hget (sendHeaders c (signHeaders c h ymd hms) len ex) n = some c.s3.hostname := by
        rw [hh, send_host]; simp [hssl, hport]
      have e2 : hget (signHeaders c h ymd hms) n = some (hostPort c) := by
        rw [hh, sign_get _ _ _ _ _ (by decide), if_neg (by decide), if_neg (by decide), if_pos rfl]; simp [hport]
      rw [e1, e2]
      simp only [Option.getD, (strip_eq_trim ht.2.2.1).2]
      have : c.s3.hostname.length < (hostPort c).length := by
        unfold hostPort; simp
      simp only [List.length_append, List.length_cons, List.length_nil]
      constructor
      · omega
      · intro _; omega
    · rw [send_get c h hg ymd hms n hn'' hh, (strip_eq_trim hcl).2]
      exact ⟨Nat.le_refl _, fun h => absurd h hh⟩
  have hlen : ∀ (l : List Str) (f g : Str → Str), (∀ n ∈ l, (f n).length ≤ (g n).length ∧ (n = sHost → (f n).length < (g n).length)) →
      (l.flatMap f).length ≤ (l.flatMap g).length ∧ (sHost ∈ l → (l.flatMap f).length < (l.flatMap g).length) := by
    intro l f g hl
    induction l with
    | nil => exact ⟨Nat.le_refl _, fun h => by cases h⟩
    | cons n t ih =>
      obtain ⟨i1, i2⟩ := ih (fun x hx => hl x (List.mem_cons_of_mem _ hx))
      obtain ⟨j1, j2⟩ := hl n List.mem_cons_self
      simp only [List.flatMap_cons, List.length_append]
      refine ⟨by omega, ?_⟩
      intro hm
      rcases List.mem_cons.1 hm with h | h
      · have := j2 h.symm; omega
      · have := i2 h; omega
  have := (hlen _ _ _ hval).2 hhost
  rw [hcan] at this
  exact Nat.lt_irrefl _ this

/-! ### Version 2 -/

/-- The known subresources, as far as the backends use them; others change nothing here. -/
def subresources : List Str := ["acl".toList, "delete".toList, "lifecycle".toList, "location".toList, "logging".toList,
  "notification".toList, "partNumber".toList, "policy".toList, "requestPayment".toList, "torrent".toList,
  "uploadId".toList, "uploads".toList, "versionId".toList, "versioning".toList, "versions".toList, "website".toList]

/-- Specification ("Signing and Authenticating REST Requests"): the resource of a request: the bucket for virtual-hosted
requests, the path as sent, and the subresource. -/
def resource2 (base host target : Str) : Str :=
  let bucket := if host = base then [] else
    match stripSuffix ('.' :: base) host with
    | some b => '/' :: b
    | none => []
  let subs := (match (cut '?' target).2 with
    | none => []
    | some q => splitOn '&' q).filter (fun p => subresources.contains (cut '=' p).1)
  bucket ++ (cut '?' target).1 ++ (if subs = [] then [] else '?' :: join '&' subs)

/-- Specification: the `x-amz-` headers, sorted by name. -/
def amz2 (h : Hdrs) : Str :=
  (isort strLe ((h.map (·.1)).filter (fun n => "x-amz-".toList.isPrefixOf n))).flatMap
    (fun n => n ++ ':' :: (trim ((hget h n).getD []) ++ ['\n']))

/-- Specification: the string to sign of version 2. -/
def string2 (base method target : Str) (h : Hdrs) : Str :=
  method ++ '\n' :: ((hget h "content-md5".toList).getD [] ++ '\n' :: ((hget h "content-type".toList).getD [] ++ '\n' ::
    ((hget h "date".toList).getD [] ++ '\n' :: (amz2 h ++ resource2 base ((hget h sHost).getD []) target))))

/-- The string that is signed (backends/s3c.py:621-637).  Values with line breaks, which cannot be sent, are not
modelled. -/
def sign2 (b : S3c) (method path : Str) (h : Hdrs) (subres : Option Str) : Str :=
  method ++ ['\n'] ++
    (["content-md5".toList, "content-type".toList, "date".toList].flatMap (fun n => (hget h n).getD [] ++ ['\n'])) ++
    (isort strLe ((h.map (·.1)).filter (fun n => "x-amz-".toList.isPrefixOf n))).flatMap
      (fun n => n ++ ':' :: (stripBy pySpace ((hget h n).getD []) ++ ['\n'])) ++
    quotePath (if b.bucket.isPrefixOf b.hostname then '/' :: (b.bucket ++ path) else path) ++
    (match subres with
     | some s => '?' :: s
     | none => [])

/-- A version 2 request (backends/s3c.py:649-690, http.py:468-487): what is sent, and what is signed.  The port is the
default one. -/
def request2 (b : S3c) (method path : Str) (h : Hdrs) (subres : Option Str) (q : List (Str × Str)) (date len : Str)
    (expect : Bool) : Str × Hdrs × Str :=
  let h := hset (hset h sHost b.hostname) "date".toList date
  let c : Cfg := ⟨b, 443, true, [], []⟩
  (b.target path subres q, sendHeaders c h len expect, sign2 b method (b.reqPath path) h subres)

/-- The names of parameters that are not subresources. -/
def NoSubs (q : List (Str × Str)) : Prop := ∀ e ∈ q, subresources.contains (quotePlus e.1) = false

theorem subs_of_query (p : Str) (hp : '?' ∉ p) (subres : Option Str) (hs : ∀ s, subres = some s → Plain s ∧ s ∈ subresources)
    (q : List (Str × Str)) (hq : NoSubs q) :
    (match (cut '?' (addQuery p subres q)).2 with
      | none => []
      | some q => splitOn '&' q).filter (fun p => subresources.contains (cut '=' p).1) = subres.toList := by
  have hparts : q ≠ [] → (splitOn '&' (urlencode q)).filter (fun p => subresources.contains (cut '=' p).1) = [] := by
    intro hne
    unfold urlencode
    rw [splitOn_join _ (by simpa using hne)]
    · rw [List.filter_eq_nil_iff]
      intro x hx
      obtain ⟨e, he, rfl⟩ := List.mem_map.1 hx
      rw [cut_append _ (fun hc => (quotePlus_mem _ hc).2.2.1 rfl)]
      have := hq e he
      simp only [this]
      decide
    · intro x hx
      obtain ⟨e, _, rfl⟩ := List.mem_map.1 hx
      simp only [List.mem_append, List.mem_cons, not_or]
      exact ⟨fun h => (quotePlus_mem _ h).2.1 rfl, by decide, fun h => (quotePlus_mem _ h).2.1 rfl⟩
  have hsub : ∀ s, subres = some s → (subresources.contains (cut '=' s).1) = true := by
    intro s h
    obtain ⟨h1, h2⟩ := hs s h
    rw [cut_none (fun hc => (h1.mem hc).2.2 rfl)]
    exact List.contains_iff_mem.2 h2
  unfold addQuery
  by_cases hne : q ≠ []
  · rw [if_pos hne]
    cases subres with
    | none =>
      simp only [cut_append _ hp]
      rw [hparts hne]; rfl
    | some s =>
      simp only [cut_append _ hp]
      rw [splitOn_append _ (fun hc => ((hs s rfl).1.mem hc).2.1 rfl), List.filter_cons_of_pos (p := fun p => subresources.contains (cut '=' p).1) (hsub s rfl), hparts hne]; rfl
  · rw [if_neg hne]
    cases subres with
    | none =>
      simp only [cut_none hp]; rfl
    | some s =>
      simp only [cut_append _ hp]
      rw [splitOn_none (fun hc => ((hs s rfl).1.mem hc).2.1 rfl), List.filter_cons_of_pos (p := fun p => subresources.contains (cut '=' p).1) (hsub s rfl)]; rfl

theorem filter_amz (c : Cfg) (H : Hdrs) (len : Str) (ex : Bool) :
    ((sendHeaders c H len ex).map (·.1)).filter (fun n => "x-amz-".toList.isPrefixOf n) =
      (H.map (·.1)).filter (fun n => "x-amz-".toList.isPrefixOf n) := by
  have hset_f : ∀ (h : Hdrs) (n v : Str), "x-amz-".toList.isPrefixOf n = false →
      ((hset h n v).map (·.1)).filter (fun n => "x-amz-".toList.isPrefixOf n) =
      (h.map (·.1)).filter (fun n => "x-amz-".toList.isPrefixOf n) := by
    intro h n v hn
    unfold hset
    split
    · congr 1
      rw [List.map_map]
      apply List.map_congr_left
      intro y _
      show (if y.1 = n then (n, v) else y).1 = y.1
      split
      · rename_i hy; exact hy.symm
      · rfl
    · rw [List.map_append, List.filter_append]
      simp only [List.map_cons, List.map_nil]
      rw [List.filter_cons_of_neg (by rw [hn]; decide)]; simp
  have hdef_f : ∀ (h : Hdrs) (n v : Str), "x-amz-".toList.isPrefixOf n = false →
      ((hdefault h n v).map (·.1)).filter (fun n => "x-amz-".toList.isPrefixOf n) =
      (h.map (·.1)).filter (fun n => "x-amz-".toList.isPrefixOf n) := by
    intro h n v hn
    unfold hdefault
    split
    · rfl
    · rw [List.map_append, List.filter_append]
      simp only [List.map_cons, List.map_nil]
      rw [List.filter_cons_of_neg (by rw [hn]; decide)]; simp
  unfold sendHeaders
  dsimp only
  rw [hdef_f _ _ _ (by decide), hdef_f _ _ _ (by decide), hset_f _ _ _ (by decide)]
  split
  · rw [hset_f _ _ _ (by decide), hset_f _ _ _ (by decide)]
  · rw [hset_f _ _ _ (by decide)]

theorem send_get2 (c : Cfg) (H : Hdrs) (len : Str) (ex : Bool) (n v : Str) (hv : hget H n = some v)
    (hh : n ≠ sHost ∧ n ≠ sLength ∧ n ≠ sExpect) : hget (sendHeaders c H len ex) n = some v := by
  unfold sendHeaders
  dsimp only
  generalize (if c.port = (if c.ssl then 443 else 80) then c.s3.hostname else hostPort c) = hv'
  have e1 : hget (hset (if ex = true then hset (hset H sLength len) sExpect "100-continue".toList else hset H sLength len) sHost hv') n
      = some v := by
    rw [hget_hset, if_neg hh.1]
    split
    · rw [hget_hset, if_neg hh.2.2, hget_hset, if_neg hh.2.1, hv]
    · rw [hget_hset, if_neg hh.2.1, hv]
  generalize hset (if ex = true then hset (hset H sLength len) sExpect "100-continue".toList else hset H sLength len) sHost hv' = G at e1
  rw [hget_hdefault, hget_hdefault, hget_hdefault]
  by_cases ha : n = sAccept ∧ hget G sAccept = none
  · rw [← ha.1, e1] at ha; exact absurd ha.2 (by simp)
  · rw [if_neg ha]
    by_cases hb : n = sConn ∧ (if sConn = sAccept ∧ hget G sAccept = none then some "identity".toList else hget G sConn) = none
    · have := hb.2
      rw [if_neg (fun h => absurd h.1 (by decide)), ← hb.1, e1] at this
      cases this
    · rw [if_neg hb, e1]

theorem send_get_none (c : Cfg) (H : Hdrs) (len : Str) (ex : Bool) (n : Str)
    (hh : n ≠ sHost ∧ n ≠ sLength ∧ n ≠ sExpect ∧ n ≠ sAccept ∧ n ≠ sConn) : hget (sendHeaders c H len ex) n = hget H n := by
  unfold sendHeaders
  dsimp only
  rw [hget_hdefault, if_neg (fun h => hh.2.2.2.2 h.1), hget_hdefault, if_neg (fun h => hh.2.2.2.1 h.1), hget_hset, if_neg hh.1]
  split
  · rw [hget_hset, if_neg hh.2.2.1, hget_hset, if_neg hh.2.1]
  · rw [hget_hset, if_neg hh.2.1]

theorem amz2_send (c : Cfg) (H : Hdrs) (len : Str) (ex : Bool) (hcl : ∀ n v, hget H n = some v → "x-amz-".toList.isPrefixOf n = true → CleanVal v) :
    amz2 (sendHeaders c H len ex) = (isort strLe ((H.map (·.1)).filter (fun n => "x-amz-".toList.isPrefixOf n))).flatMap
      (fun n => n ++ ':' :: (stripBy pySpace ((hget H n).getD []) ++ ['\n'])) := by
  unfold amz2
  rw [filter_amz]
  apply flatMap_congr'
  intro n hn
  have hn' := List.mem_filter.1 ((mem_isort _ _ _).1 hn)
  have hx : "x-amz-".toList.isPrefixOf n = true := hn'.2
  obtain ⟨v, hv⟩ := Option.isSome_iff_exists.1 ((hget_isSome _ _).2 hn'.1)
  have hne : n ≠ sHost ∧ n ≠ sLength ∧ n ≠ sExpect := by
    refine ⟨?_, ?_, ?_⟩ <;> (intro h; subst h; exact absurd hx (by decide))
  rw [send_get2 c H len ex n v hv hne, hv]
  simp only [Option.getD]
  rw [(strip_eq_trim (hcl n v hv hx)).1, (strip_eq_trim (hcl n v hv hx)).2]

theorem sign2_eq (b : S3c) (method path : Str) (h : Hdrs) (subres : Option Str) : sign2 b method path h subres =
    method ++ '\n' :: ((hget h "content-md5".toList).getD [] ++ '\n' :: ((hget h "content-type".toList).getD [] ++ '\n' ::
    ((hget h "date".toList).getD [] ++ '\n' :: ((isort strLe ((h.map (·.1)).filter (fun n => "x-amz-".toList.isPrefixOf n))).flatMap
      (fun n => n ++ ':' :: (stripBy pySpace ((hget h n).getD []) ++ ['\n'])) ++
      (quotePath (if b.bucket.isPrefixOf b.hostname then '/' :: (b.bucket ++ path) else path) ++
    (match subres with
     | some s => '?' :: s
     | none => [])))))) := by
  unfold sign2
  simp only [List.flatMap_cons, List.flatMap_nil, List.append_nil, List.append_assoc, List.cons_append, List.nil_append]

/-- Values of `x-amz-` headers are clean. -/
def Given2 (h : Hdrs) : Prop := ∀ n v, hget h n = some v → CleanVal v

/-- The header part of both strings is the same. -/
theorem string2_eq (b : S3c) (base method path : Str) (h : Hdrs) (hg : Given2 h) (subres : Option Str) (q : List (Str × Str))
    (date len : Str) (ex : Bool) :
    ∃ pre, string2 base method (request2 b method path h subres q date len ex).1 (request2 b method path h subres q date len ex).2.1 =
        pre ++ resource2 base b.hostname (b.target path subres q) ∧
      (request2 b method path h subres q date len ex).2.2 = pre ++ (quotePath (if b.bucket.isPrefixOf b.hostname then
        '/' :: (b.bucket ++ b.reqPath path) else b.reqPath path) ++
        (match subres with
         | some s => '?' :: s
         | none => [])) := by
  unfold request2
  dsimp only
  have hcl : ∀ n v, hget (hset (hset h sHost b.hostname) "date".toList date) n = some v → "x-amz-".toList.isPrefixOf n = true → CleanVal v := by
    intro n v hv hx
    rw [hget_hset, if_neg (fun e => by subst e; exact absurd hx (by decide)), hget_hset,
      if_neg (fun e => by subst e; exact absurd hx (by decide))] at hv
    exact hg n v hv
  generalize hH : hset (hset h sHost b.hostname) "date".toList date = H at hcl
  rw [sign2_eq]
  unfold string2
  rw [amz2_send _ H len ex hcl, send_get_none _ H len ex _ (by decide), send_get_none _ H len ex _ (by decide),
    send_get_none _ H len ex _ (by decide), send_host]
  refine ⟨method ++ '\n' :: ((hget H "content-md5".toList).getD [] ++ '\n' :: ((hget H "content-type".toList).getD [] ++ '\n' ::
    ((hget H "date".toList).getD [] ++ '\n' :: ((isort strLe ((H.map (·.1)).filter (fun n => "x-amz-".toList.isPrefixOf n))).flatMap
      (fun n => n ++ ':' :: (stripBy pySpace ((hget H n).getD []) ++ ['\n'])))))), ?_, ?_⟩
  · simp
  · simp

/-- Version 2: for every request, the string that is signed is the one that the server computes from what it
receives. -/
theorem C69_v2_signed_partial (base : Str) (b : S3c) (hu : Usable base b) (hb : b.hostname ≠ base → Plain b.bucket) (method rest : Str) (h : Hdrs)
    (hg : Given2 h) (subres : Option Str) (hs : ∀ s, subres = some s → Plain s ∧ s ∈ subresources) (q : List (Str × Str))
    (hq : NoSubs q) (date len : Str) (ex : Bool) :
    string2 base method (request2 b method ('/' :: rest) h subres q date len ex).1
      (request2 b method ('/' :: rest) h subres q date len ex).2.1 = (request2 b method ('/' :: rest) h subres q date len ex).2.2 := by
  obtain ⟨pre, h1, h2⟩ := string2_eq b base method ('/' :: rest) h hg subres q date len ex
  rw [h1, h2]
  congr 1
  have hsubs := subs_of_query (quotePath (b.reqPath ('/' :: rest))) (no_mark _) subres hs q hq
  have hcut := (cut_addQuery (quotePath (b.reqPath ('/' :: rest))) (no_mark _) subres (fun s e => (hs s e).1) q).1
  unfold resource2
  dsimp only
  have e1 : (if subres.toList = [] then [] else '?' :: join '&' subres.toList) =
      (match (generalizing := false) subres with
       | some s => '?' :: s
       | none => []) := by cases subres <;> rfl
  unfold S3c.target
  rw [hsubs, hcut, e1]
  congr 1
  rcases hu with ⟨hh, hp⟩ | hh
  · have hp' : ¬ (b.bucket.isPrefixOf b.hostname = true) := by
      rw [hh]; exact fun h => hp (List.isPrefixOf_iff_prefix.1 h)
    rw [if_pos hh, if_neg hp']; rfl
  · have hp' : b.bucket.isPrefixOf b.hostname = true := by
      rw [hh]; exact List.isPrefixOf_iff_prefix.2 (List.prefix_append _ _)
    have hne : b.hostname ≠ base := by
      intro h
      have := congrArg List.length (h ▸ hh)
      simp at this; omega
    rw [if_neg hne, if_pos hp', hh, stripSuffix_append]
    simp only
    rw [quotePath_slash, quotePath_append, (hb hne).quotePath]; rfl

/-- With a bucket whose name is the beginning of the endpoint's name (C68), version 2 requests are not signed the way
the server checks it, so they are at least rejected. -/
theorem C69_v2_wrong_bucket_rejected (base : Str) (b : S3c) (hh : b.hostname = base) (hp : b.bucket <+: base)
    (method rest : Str) (h : Hdrs) (hg : Given2 h) (q : List (Str × Str)) (hq : NoSubs q) (date len : Str) (ex : Bool) :
    string2 base method (request2 b method ('/' :: rest) h none q date len ex).1
      (request2 b method ('/' :: rest) h none q date len ex).2.1 ≠ (request2 b method ('/' :: rest) h none q date len ex).2.2 := by
  obtain ⟨pre, h1, h2⟩ := string2_eq b base method ('/' :: rest) h hg none q date len ex
  rw [h1, h2]
  intro he
  replace he := List.append_cancel_left he
  have hsubs := subs_of_query (quotePath (b.reqPath ('/' :: rest))) (no_mark _) none (fun _ h => by cases h) q hq
  have hcut := (cut_addQuery (quotePath (b.reqPath ('/' :: rest))) (no_mark _) none (fun _ h => by cases h) q).1
  have hp' : b.bucket.isPrefixOf b.hostname = true := by rw [hh]; exact List.isPrefixOf_iff_prefix.2 hp
  unfold resource2 S3c.target at he
  dsimp only at he
  rw [hsubs, hcut, if_pos hh, if_pos hp', quotePath_slash, quotePath_append] at he
  have := congrArg List.length he
  simp at this
  omega

/-! ### Examples -/

/-- A toy instance of the cryptographic functions. -/
def toy : Crypto := ⟨fun bs => bs.map (fun b => Char.ofNat b.toNat), fun k m => k ++ m, fun bs => bs.map (fun b => Char.ofNat b.toNat)⟩

/-- A backend on a non-standard port. -/
def exCfg : Cfg := ⟨exPath, 9000, false, "me".toList, "secret".toList⟩

/-- An upload, a listing two days later, a change of the region and another request. -/
def exEvents : List Event :=
  [.request "PUT".toList (exPath.objPath "s3ql_data_1".toList) [("content-type".toList, "application/octet-stream".toList),
      ("x-amz-meta-000".toList, "a b".toList)] none [] "12".toList true "20260101".toList "000000".toList,
   .request "GET".toList "/".toList [] none [("prefix".toList, "a b".toList), ("max-keys".toList, "1000".toList),
      ("marker".toList, "ü".toList)] "0".toList false "20260103".toList "235959".toList,
   .region "eu".toList,
   .request "POST".toList "/".toList [("content-md5".toList, "x".toList)] (some "delete".toList) [] "30".toList false
      "20260103".toList "235959".toList]

theorem cleanVal_of (v : Str) (h : (v.head?.map pySpace != some true && v.getLast?.map pySpace != some true) = true) :
    CleanVal v := by
  simp only [Bool.and_eq_true, bne_iff_ne] at h
  constructor
  · intro c hc
    have := h.1
    rw [hc] at this
    exact Bool.eq_false_iff.2 (fun e => this (by simp [e]))
  · intro c hc
    have := h.2
    rw [hc] at this
    exact Bool.eq_false_iff.2 (fun e => this (by simp [e]))

theorem given_of (h : Hdrs) (h1 : ∀ n ∈ h.map (·.1), n ≠ sHost ∧ n ≠ sLength ∧ n ≠ sExpect ∧ n ≠ sAuth)
    (h2 : ∀ e ∈ h, (e.2.head?.map pySpace != some true && e.2.getLast?.map pySpace != some true) = true) (len : Str) (ex : Bool) : Given h len ex := by
  have key : ∀ n v, hget h n = some v → n ∈ h.map (·.1) := fun n v hv => (hget_isSome _ _).1 (by rw [hv]; rfl)
  refine ⟨fun v hv => absurd rfl (h1 _ (key _ _ hv)).2.1, fun _ v hv => absurd rfl (h1 _ (key _ _ hv)).2.2.1, ?_⟩
  intro n v _ hv
  unfold hget at hv
  obtain ⟨e, he, rfl⟩ := Option.map_eq_some_iff.1 hv
  exact cleanVal_of _ (h2 e (List.mem_of_find?_eq_some he))

example : HostOk exCfg := Or.inr (by decide)
example : ∀ e ∈ exEvents, EventOk exCfg e := by
  intro e he
  unfold exEvents at he
  simp only [List.mem_cons, List.not_mem_nil, or_false] at he
  rcases he with rfl | rfl | rfl | rfl
  · exact ⟨given_of _ (by decide +kernel) (by decide +kernel) _ _, (fun _ h => by cases h), (by decide +kernel), by decide,
      cleanVal_of _ (by decide +kernel), cleanVal_of _ (by decide +kernel), cleanVal_of _ (by decide +kernel)⟩
  · exact ⟨given_of _ (by decide +kernel) (by decide +kernel) _ _, (fun _ h => by cases h), (by decide +kernel), by decide,
      cleanVal_of _ (by decide +kernel), cleanVal_of _ (by decide +kernel), cleanVal_of _ (by decide +kernel)⟩
  · trivial
  · refine ⟨given_of _ (by decide +kernel) (by decide +kernel) _ _, ?_, (by decide +kernel), by decide,
      cleanVal_of _ (by decide +kernel), cleanVal_of _ (by decide +kernel), cleanVal_of _ (by decide +kernel)⟩
    intro s hs
    have := Option.some.inj hs
    subst this
    decide +kernel
example : (history toy exCfg ⟨"us-east-1".toList, none⟩ exEvents).map (fun r => (r.1, r.2.target)) =
    [("us-east-1".toList, "/data/a%20b/%C3%BC%3F%26%3D%252F%2Bs3ql_data_1".toList),
     ("us-east-1".toList, "/data/?prefix=a+b&max-keys=1000&marker=%C3%BC".toList),
     ("eu".toList, "/data/?delete".toList)] := by decide +kernel
example : (history toy exCfg ⟨"us-east-1".toList, none⟩ exEvents).all
    (fun r => accepts toy "me".toList "secret".toList r.1 r.2) = true := by decide +kernel
/-- A wrong password is noticed. -/
example : (history toy exCfg ⟨"us-east-1".toList, none⟩ exEvents).all
    (fun r => accepts toy "me".toList "other".toList r.1 r.2) = false := by decide +kernel
/-- The listing as it is signed: spaces are `%20` here and `+` in the request. -/
example : signQuery none [("prefix".toList, "a b".toList), ("max-keys".toList, "1000".toList)] =
    "max-keys=1000&prefix=a%20b".toList := by decide +kernel
/-- Amazon S3 with the option `no-ssl`. -/
example : accepts toy "me".toList "secret".toList "us-east-1".toList
    (request4 toy ⟨exPath, 80, false, "me".toList, "secret".toList⟩ ⟨"us-east-1".toList, none⟩ "GET".toList "/".toList [] none []
      "0".toList false "20260101".toList "000000".toList).1 = false := by decide +kernel
example : NoSubs [("prefix".toList, "a b".toList), ("max-keys".toList, "1000".toList)] := by
  unfold NoSubs; decide +kernel
example : sign2 exHost "GET".toList "/p/x".toList [("x-amz-b".toList, "2".toList), ("x-amz-a".toList, "1".toList),
    ("date".toList, "D".toList)] none = "GET\n\n\nD\nx-amz-a:1\nx-amz-b:2\n/data/p/x".toList := by decide +kernel

end Verif.Backend.Addr
