import Verif.Backend.Retry
/-
C94: what the backends make of the answers of the storage service.  Models the classification of errors in
backends/s3c.py (`_do_request` 483-512, `_parse_error_response` 514-557, `get_S3Error` 754-776, `_parse_retry_after`
785-804, `is_temp_failure` 214-245), backends/swift.py (`is_temp_failure` 277-313, `_do_request` 449-468) and
backends/gs.py (`_parse_error_response` 107-129, `is_temp_failure` 314-332, `_do_request` 625-662,
`_map_request_error` 665-675), and what the single operations make of it.

An answer is described by its status, its reason, what kind of body it has and its `Retry-After` header.  Parsing of
XML and JSON is not modelled: the body says what the parser finds.
-/
namespace Verif.Backend.Answer
open Verif.Backend.Retry

abbrev Str := List Char

/-- The body of an answer. -/
inductive Body where
  | empty
  /-- not XML (S3) or not JSON (Google Storage), according to the content type -/
  | other
  /-- XML; the text of its element `Code`, if it has one -/
  | xml (code : Option Str)
  /-- declared as XML, but cannot be parsed -/
  | badXml
  /-- a JSON object; its `error.message`, or its text if it has none -/
  | json (message : Str)
  /-- JSON that is not an object -/
  | jsonOther
deriving DecidableEq

structure Resp where
  status : Nat
  reason : Str := []
  body : Body := .empty
  retryAfter : Option Str := none
deriving DecidableEq

/-- What an attempt meets: an answer, or trouble with the connection. -/
inductive Event where
  | answer (r : Resp)
  /-- an exception for which `is_temp_network_error` holds (http.py:901-935) -/
  | network
  /-- another `ssl.SSLError`, with its text -/
  | ssl (msg : Str)
  /-- the name of the server does not exist, a bug, ... -/
  | broken
deriving DecidableEq

inductive Op where
  | lookup | size | read | write | delete | list
deriving DecidableEq

inductive Service where
  | s3 | swift | gs
deriving DecidableEq

/-- The exceptions. -/
inductive Exc where
  /-- `HTTPError` -/
  | http (status : Nat) (reason : Str)
  /-- `S3Error` or the subclass with the name `cls` -/
  | s3 (cls : Str)
  /-- `RequestError` of backends/gs.py -/
  | request (status : Nat) (message : Option Str)
  | noSuchObject
  /-- `AuthorizationError`: the credentials do not give access -/
  | notAllowed
  /-- `AuthenticationError`: the credentials are wrong -/
  | badLogin
  /-- `DanglingStorageURLError`: no such bucket or container -/
  | noBucket
  /-- `AuthenticationExpired`, `AccessTokenExpired` -/
  | expired
  /-- `ServerResponseError` -/
  | badResponse
  | network
  | ssl (msg : Str)
  /-- any other exception -/
  | other
deriving DecidableEq

/-! ### S3 (backends/s3c.py) -/

/-- The subclasses of `S3Error` (s3c.py:861-918) and `S3Error` itself. -/
def s3Classes : List Str := ["S3Error".toList, "NoSuchKeyError".toList, "AccessDeniedError".toList,
  "BadDigestError".toList, "IncompleteBodyError".toList, "InternalError".toList, "InvalidAccessKeyIdError".toList,
  "InvalidSecurityError".toList, "SignatureDoesNotMatchError".toList, "OperationAbortedError".toList,
  "RequestTimeoutError".toList, "SlowDownError".toList, "ServiceUnavailableError".toList,
  "TemporarilyUnavailableError".toList, "RequestTimeTooSkewedError".toList, "NoSuchBucketError".toList]

/-- The classes for which a request is repeated (s3c.py:219-232). -/
def s3Temp : List Str := ["InternalError".toList, "BadDigestError".toList, "IncompleteBodyError".toList,
  "RequestTimeoutError".toList, "OperationAbortedError".toList, "SlowDownError".toList,
  "ServiceUnavailableError".toList, "TemporarilyUnavailableError".toList]

/-- `code` as a class name (s3c.py:759-770). -/
def className (code : Str) : Str :=
  let code := if code = "Timeout".toList then "RequestTimeout".toList else code
  if "Error".toList.isSuffixOf code then code else code ++ "Error".toList

/-- `get_S3Error` (s3c.py:754-776).  The global `get_S3Error` is a function, for which `issubclass` raises. -/
def getS3Error : Option Str → Exc
  | none => .s3 "S3Error".toList
  | some code =>
    if className code ∈ s3Classes then .s3 (className code)
    else if className code = "get_S3Error".toList then .other
    else .s3 "S3Error".toList

def ok2xx (r : Resp) : Bool := decide (200 ≤ r.status ∧ r.status ≤ 299)

/-- `_parse_error_response` (s3c.py:514-557). -/
def s3Error (head : Bool) (r : Resp) : Exc :=
  if head then .http r.status r.reason
  else
    match r.body with
    | .xml code => getS3Error code
    | .badXml => .other
    | _ => .http r.status r.reason

/-- `_do_request` (s3c.py:483-512). -/
def s3Request (head : Bool) (r : Resp) : Except Exc Unit :=
  if ok2xx r then .ok () else .error (s3Error head r)

/-- `assert_empty_response` (backends/common.py:725-745). -/
def assertEmpty (r : Resp) : Except Exc Unit :=
  if r.body = .empty then .ok () else .error .badResponse

/-- HEAD requests: 404 means that there is no such object (s3c.py:320-352, swift.py:472-487). -/
def head404 : Except Exc Unit → Except Exc Unit
  | .error (.http s m) => if s = 404 then .error .noSuchObject else .error (.http s m)
  | x => x

def noSuchKey : Except Exc Unit → Bool
  | .error (.s3 c) => decide (c = "NoSuchKeyError".toList)
  | _ => false

/-- The operations of the S3 backend (s3c.py:247-442).  `intact`: checksums of data and metadata agree.  Writes are
modelled with encryption (no comparison of checksums, and `BadDigest` does not occur); see C75 for the rest. -/
def s3Op (op : Op) (intact : Bool) (r : Resp) : Except Exc Unit :=
  match op with
  | .lookup => head404 (s3Request true r) >>= fun _ => if intact then .ok () else .error (.s3 "BadDigestError".toList)
  | .size => head404 (s3Request true r)
  | .read =>
    if noSuchKey (s3Request false r) then .error .noSuchObject
    else s3Request false r >>= fun _ => if intact then .ok () else .error (.s3 "BadDigestError".toList)
  | .write => s3Request false r >>= fun _ => assertEmpty r
  | .delete => if noSuchKey (s3Request false r) then .ok () else s3Request false r >>= fun _ => assertEmpty r
  | .list => s3Request false r

/-- Statuses for which a request is repeated (s3c.py:239-242, swift.py:286-288). -/
def retryStatus (s : Nat) : Bool :=
  decide ((500 ≤ s ∧ s ≤ 599 ∧ s ∉ [501, 505, 508, 510, 511, 523]) ∨ s = 408 ∨ s = 429)

/-- `is_temp_failure` (s3c.py:214-245). -/
def s3Again : Exc → Bool
  | .network => true
  | .ssl _ => true
  | .s3 c => decide (c ∈ s3Temp)
  | .http s _ => retryStatus s
  | _ => false

/-! ### Swift (backends/swift.py) -/

/-- `_do_request` (swift.py:449-468). -/
def swiftRequest (r : Resp) : Except Exc Unit :=
  if ok2xx r then .ok () else if r.status = 401 then .error .expired else .error (.http r.status r.reason)

/-- The operations of the Swift backend (swift.py:470-618, 780-842). -/
def swiftOp (op : Op) (intact : Bool) (r : Resp) : Except Exc Unit :=
  match op with
  | .lookup | .read =>
    head404 (swiftRequest r) >>= fun _ => if intact then .ok () else .error (.s3 "BadDigestError".toList)
  | .size => head404 (swiftRequest r)
  | .write => swiftRequest r >>= fun _ => assertEmpty r
  | .delete =>
    match swiftRequest r with
    | .error (.http s m) => if s = 404 then .ok () else .error (.http s m)
    | x => x >>= fun _ => assertEmpty r
  | .list =>
    match swiftRequest r with
    | .error (.http s m) => if s = 404 then .error .noBucket else .error (.http s m)
    | x => x

def lower (s : Str) : Str := s.map Char.toLower

/-- `pat in s`. -/
def contains (pat : Str) : Str → Bool
  | [] => pat = []
  | c :: s => pat.isPrefixOf (c :: s) || contains pat s

/-- `is_temp_failure` (swift.py:277-313). -/
def swiftAgain : Exc → Bool
  | .expired => true
  | .http s m => retryStatus s || contains "client disconnected".toList (lower m)
  | .network => true
  | .ssl m => "[SSL: BAD_WRITE_RETRY]".toList.isPrefixOf m || "[SSL: BAD_LENGTH]".toList.isPrefixOf m
  | .badResponse => true
  | _ => false

/-! ### Google Storage (backends/gs.py) -/

/-- `_do_request` with `_parse_error_response` (gs.py:107-129, 655-662). -/
def gsRequest (r : Resp) : Except Exc Unit :=
  if ok2xx r then .ok ()
  else if r.status = 401 then .error .expired
  else
    match r.body with
    | .json m => .error (.request r.status (some m))
    | .jsonOther => .error .other
    | _ => .error (.request r.status none)

/-- `_map_request_error` (gs.py:665-675). -/
def gsMap (key : Bool) : Except Exc Unit → Except Exc Unit
  | .error (.request s m) =>
    if s = 404 ∧ key = true then .error .noSuchObject
    else if m = some "Forbidden".toList then .error .notAllowed
    else if m = some "Login Required".toList ∨ m = some "Invalid Credentials".toList then .error .badLogin
    else .error (.request s m)
  | x => x

/-- `_parse_json_response` (gs.py:132-160) and, with `object`, the use of the result as a dict. -/
def isJson (object : Bool) (r : Resp) : Except Exc Unit :=
  match r.body with
  | .json _ => .ok ()
  | .jsonOther => if object then .error .other else .ok ()
  | _ => .error .badResponse

/-- The operations of the Google Storage backend (gs.py:334-514).  `read` stands for the request for the data. -/
def gsOp (op : Op) (r : Resp) : Except Exc Unit :=
  match op with
  | .lookup | .size => gsMap true (gsRequest r >>= fun _ => isJson true r)
  | .write => gsMap true (gsRequest r >>= fun _ => isJson false r)
  | .read => gsMap true (gsRequest r)
  | .delete =>
    match gsMap true (gsRequest r >>= fun _ => assertEmpty r) with
    | .error .noSuchObject => .ok ()
    | x => x
  | .list => gsMap false (gsRequest r >>= fun _ => isJson true r)

/-- `is_temp_failure` (gs.py:314-332). -/
def gsAgain : Exc → Bool
  | .network => true
  | .ssl _ => true
  | .request s _ => decide ((500 ≤ s ∧ s ≤ 599) ∨ s = 408)
  | .expired => true
  | .badResponse => true
  | _ => false

/-! ### All of them -/

def runOp (b : Service) (op : Op) (intact : Bool) (r : Resp) : Except Exc Unit :=
  match b with
  | .s3 => s3Op op intact r
  | .swift => swiftOp op intact r
  | .gs => gsOp op r

/-- `is_temp_failure`. -/
def again (b : Service) (x : Exc) : Bool :=
  match b with
  | .s3 => s3Again x
  | .swift => swiftAgain x
  | .gs => gsAgain x

def isSpace (c : Char) : Bool := c = ' ' || c = '\t' || c = '\n' || c = '\r' || c = '\x0b' || c = '\x0c'

def strip (s : Str) : Str := ((s.dropWhile isSpace).reverse.dropWhile isSpace).reverse

/-- `_parse_retry_after` (s3c.py:785-804), in microseconds.  `date` stands for `parsedate_tz`, compared with the
clock. -/
def parseRetryAfter (date : Str → Option Int) (h : Str) : Option Nat :=
  let d := strip h
  let val : Option Int :=
    if d ≠ [] ∧ d.all Char.isDigit then some ((d.foldl (fun n c => n * 10 + (c.toNat - 48)) 0 : Nat) * 1000000)
    else date h
  val.map (fun v => (min 300000000 (max 1000000 v)).toNat)

/-- The attribute `retry_after` of an exception: errors made from an answer have it (s3c.py:824-828, 850-854). -/
def delayOf (date : Str → Option Int) (b : Service) (r : Resp) (x : Exc) : Option Nat :=
  match x with
  | .http _ _ => r.retryAfter.bind (parseRetryAfter date)
  | .s3 _ => if ok2xx r || b ≠ .s3 then none else r.retryAfter.bind (parseRetryAfter date)
  | _ => none

/-- One attempt, as `retry` sees it (backends/common.py:144-150). -/
def attempt (date : Str → Option Int) (b : Service) (op : Op) (e : Event × Bool) : Attempt Unit Exc :=
  match e.1 with
  | .answer r =>
    match runOp b op e.2 r with
    | .ok _ => .ok ()
    | .error x => if again b x then .temp (delayOf date b r x) x else .perm x
  | .network => if again b .network then .temp none .network else .perm .network
  | .ssl m => if again b (.ssl m) then .temp none (.ssl m) else .perm (.ssl m)
  | .broken => .perm .other

/-- An operation, for any sequence of events. -/
def call (date : Str → Option Int) (b : Service) (op : Op) (es : Nat → Event × Bool) : Run Unit Exc :=
  retry (fun i => attempt date b op (es i))

/-! ### Specification -/

/-- The server says: try again later.  (The statuses that the backends list as exceptions are permanent.) -/
def TryAgain (s : Nat) : Prop := (500 ≤ s ∧ s ≤ 599 ∧ s ∉ [501, 505, 508, 510, 511, 523]) ∨ s = 408 ∨ s = 429

/-- The server says: no. -/
def Refused (s : Nat) : Prop := 400 ≤ s ∧ s ≤ 499 ∧ s ≠ 401 ∧ s ≠ 408 ∧ s ≠ 429

/-- The server says that there is no such object.  S3 says so with the status if an answer cannot have a body, and
with the code otherwise. -/
def SaysMissing (b : Service) (op : Op) (r : Resp) : Prop :=
  match b with
  | .s3 => ((op = .lookup ∨ op = .size) ∧ r.status = 404) ∨
      ((op = .read ∨ op = .delete) ∧ ¬ (200 ≤ r.status ∧ r.status ≤ 299) ∧
        (r.body = .xml (some "NoSuchKey".toList) ∨ r.body = .xml (some "NoSuchKeyError".toList)))
  | .swift => r.status = 404
  | .gs => r.status = 404 ∧ r.body ≠ .jsonOther

/-- The server says that it has done it, and what arrives is as it should be. -/
def Delivered (b : Service) (op : Op) (intact : Bool) (r : Resp) : Prop :=
  200 ≤ r.status ∧ r.status ≤ 299 ∧
  match b with
  | .gs => (op = .delete → r.body = .empty) ∧ (op = .write → (∃ m, r.body = .json m) ∨ r.body = .jsonOther) ∧
      (op = .lookup ∨ op = .size ∨ op = .list → ∃ m, r.body = .json m)
  | _ => (op = .lookup ∨ op = .read → intact = true) ∧ (op = .write ∨ op = .delete → r.body = .empty)

/-! ### Lemmas -/

theorem ok2xx_iff (r : Resp) : ok2xx r = true ↔ 200 ≤ r.status ∧ r.status ≤ 299 := by
  unfold ok2xx; exact decide_eq_true_iff

theorem retryStatus_iff (s : Nat) : retryStatus s = true ↔ TryAgain s := by
  unfold retryStatus TryAgain; exact decide_eq_true_iff

theorem getS3_noSuchKey (c : Option Str) :
    getS3Error c = .s3 "NoSuchKeyError".toList ↔ c = some "NoSuchKey".toList ∨ c = some "NoSuchKeyError".toList := by
  constructor
  · intro h
    cases c with
    | none => exact absurd h (by decide)
    | some c =>
      unfold getS3Error at h
      dsimp only at h
      split at h
      · have hc : className c = "NoSuchKeyError".toList := Exc.s3.inj h
        unfold className at hc
        dsimp only at hc
        split at hc
        · exact absurd hc (by decide)
        · split at hc
          · exact Or.inr (by rw [hc])
          · left
            have : c ++ "Error".toList = "NoSuchKey".toList ++ "Error".toList := by rw [hc]; decide
            rw [List.append_cancel_right this]
      · split at h
        · cases h
        · exact absurd h (by decide)
  · rintro (rfl | rfl) <;> decide

theorem noSuchKey_iff (r : Resp) : noSuchKey (s3Request false r) = true ↔ ¬ (200 ≤ r.status ∧ r.status ≤ 299) ∧
    (r.body = .xml (some "NoSuchKey".toList) ∨ r.body = .xml (some "NoSuchKeyError".toList)) := by
  unfold s3Request
  by_cases h : ok2xx r = true
  · rw [if_pos h]
    constructor
    · intro h'; cases h'
    · intro h'; exact absurd ((ok2xx_iff r).1 h) h'.1
  · rw [if_neg h]
    have h0 : ¬ (200 ≤ r.status ∧ r.status ≤ 299) := fun h' => h ((ok2xx_iff r).2 h')
    unfold s3Error
    cases hb : r.body with
    | xml c =>
      have := getS3_noSuchKey c
      constructor
      · intro h'
        refine ⟨h0, ?_⟩
        dsimp only at h'
        have e : getS3Error c = .s3 "NoSuchKeyError".toList := by
          unfold noSuchKey at h'
          cases hg : getS3Error c with
          | s3 x => rw [hg] at h'; rw [if_neg (by decide)] at h'; rw [of_decide_eq_true h']
          | _ => rw [hg] at h'; rw [if_neg (by decide)] at h'; cases h'
        rcases this.1 e with rfl | rfl <;> simp
      · rintro ⟨_, h1 | h1⟩
        · cases h1
          show noSuchKey (.error (getS3Error (some "NoSuchKey".toList))) = true
          decide
        · cases h1
          show noSuchKey (.error (getS3Error (some "NoSuchKeyError".toList))) = true
          decide
    | _ =>
      constructor
      · intro h'; simp [noSuchKey] at h'
      · rintro ⟨_, h1 | h1⟩ <;> cases h1

theorem getS3_not_missing (c : Option Str) : getS3Error c ≠ .noSuchObject := by
  cases c with
  | none => intro h; cases h
  | some c =>
    unfold getS3Error
    dsimp only
    split
    · intro h; cases h
    · split <;> (intro h; cases h)

theorem s3_not_missing (hd : Bool) (r : Resp) : s3Request hd r ≠ .error .noSuchObject := by
  unfold s3Request
  split
  · intro h; cases h
  · intro h
    have h' := Except.error.inj h
    unfold s3Error at h'
    split at h'
    · cases h'
    · split at h'
      · exact getS3_not_missing _ h'
      · cases h'
      · cases h'

theorem swift_not_missing (r : Resp) : swiftRequest r ≠ .error .noSuchObject := by
  unfold swiftRequest
  split
  · intro h; cases h
  · split <;> (intro h; cases h)

theorem seq_empty (x : Except Exc Unit) (r : Resp) (hx : x ≠ .error .noSuchObject) :
    (x >>= fun _ => assertEmpty r) ≠ .error .noSuchObject := by
  cases x with
  | error y => exact hx
  | ok _ =>
    show assertEmpty r ≠ _
    unfold assertEmpty
    split <;> (intro h; cases h)

theorem gsMap_not_ok (key : Bool) (s : Nat) (m : Option Str) : gsMap key (.error (.request s m)) ≠ .ok () := by
  show (if _ then _ else _) ≠ _
  split
  · intro h; cases h
  · split
    · intro h; cases h
    · split <;> (intro h; cases h)

theorem gsMap_missing (key : Bool) (s : Nat) (m : Option Str) :
    gsMap key (.error (.request s m)) = .error .noSuchObject ↔ s = 404 ∧ key = true := by
  show (if _ then _ else _) = _ ↔ _
  split
  · exact ⟨fun _ => by assumption, fun _ => rfl⟩
  · rename_i h0
    refine ⟨fun h => ?_, fun h => absurd h h0⟩
    split at h
    · cases h
    · split at h <;> cases h

theorem gsRequest_error (r : Resp) (h2 : ¬ ok2xx r = true) (h1 : r.status ≠ 401) (hj : r.body ≠ .jsonOther) :
    ∃ m, gsRequest r = .error (.request r.status m) := by
  unfold gsRequest
  rw [if_neg h2, if_neg h1]
  cases hb : r.body with
  | json m => exact ⟨some m, rfl⟩
  | jsonOther => exact absurd hb hj
  | _ => exact ⟨none, rfl⟩

theorem gs_delete (r : Resp) (intact : Bool) (m : Option Str) (e : gsRequest r = .error (.request r.status m)) :
    runOp .gs .delete intact r = if r.status = 404 then .ok () else gsMap true (.error (.request r.status m)) := by
  have e2 : (gsRequest r >>= fun _ => assertEmpty r) = .error (.request r.status m) := by rw [e]; rfl
  by_cases h4 : r.status = 404
  · rw [if_pos h4]
    have := (gsMap_missing true r.status m).2 ⟨h4, rfl⟩
    simp only [runOp, gsOp, e2, this]
  · rw [if_neg h4]
    have : gsMap true (.error (.request r.status m)) ≠ .error .noSuchObject := fun h => h4 ((gsMap_missing _ _ _).1 h).1
    simp only [runOp, gsOp, e2]

/-! ### Properties -/

/-- **C94**, success: an operation succeeds exactly if the server says that it has done it and what arrives is as it
should be, or if something is deleted of which the server says that it does not exist. -/
theorem C94_success (b : Service) (op : Op) (intact : Bool) (r : Resp) :
    runOp b op intact r = .ok () ↔ Delivered b op intact r ∨ (op = .delete ∧ SaysMissing b op r) := by
  by_cases h2 : ok2xx r = true
  · have hs := (ok2xx_iff r).1 h2
    have h4 : r.status ≠ 404 := by omega
    unfold Delivered SaysMissing
    cases b <;> cases op <;> cases intact <;> cases hb : r.body <;>
      simp [runOp, s3Op, swiftOp, gsOp, s3Request, swiftRequest, gsRequest, h2, head404, assertEmpty, hb, isJson,
        gsMap, bind, Except.bind, hs, h4, noSuchKey] <;> omega
  · have hs : ¬ (200 ≤ r.status ∧ r.status ≤ 299) := fun h => h2 ((ok2xx_iff r).2 h)
    have hd : ¬ Delivered b op intact r := fun h => hs ⟨h.1, h.2.1⟩
    have hr : (Delivered b op intact r ∨ (op = .delete ∧ SaysMissing b op r)) ↔ (op = .delete ∧ SaysMissing b op r) :=
      ⟨fun h => h.resolve_left hd, Or.inr⟩
    rw [hr]
    have e1 : ∀ hd, s3Request hd r = .error (s3Error hd r) := fun hd => by unfold s3Request; rw [if_neg h2]
    cases b with
    | s3 =>
      have hk := noSuchKey_iff r
      cases op with
      | delete =>
        show (if noSuchKey (s3Request false r) then _ else _) = _ ↔ _
        by_cases hn : noSuchKey (s3Request false r) = true
        · rw [if_pos hn]
          exact ⟨fun _ => ⟨rfl, Or.inr ⟨Or.inr rfl, hk.1 hn⟩⟩, fun _ => rfl⟩
        · rw [if_neg hn, e1]
          refine ⟨fun h => by (cases h), fun h => ?_⟩
          rcases h.2 with ⟨h3 | h3, _⟩ | ⟨_, h3⟩
          · cases h3
          · cases h3
          · exact absurd (hk.2 h3) hn
      | lookup | size =>
        refine ⟨fun h => ?_, fun h => by (cases h.1)⟩
        simp only [runOp, s3Op, e1, s3Error, if_true, head404] at h
        split at h <;> cases h
      | read =>
        refine ⟨fun h => ?_, fun h => by (cases h.1)⟩
        simp only [runOp, s3Op, e1] at h
        split at h <;> cases h
      | write | list =>
        refine ⟨fun h => ?_, fun h => by (cases h.1)⟩
        simp only [runOp, s3Op, e1] at h
        cases h
    | swift =>
      by_cases h1 : r.status = 401
      · have e : swiftRequest r = .error .expired := by unfold swiftRequest; rw [if_neg h2, if_pos h1]
        cases op <;> simp [runOp, swiftOp, e, head404, bind, Except.bind, SaysMissing, h1]
      · have e : swiftRequest r = .error (.http r.status r.reason) := by unfold swiftRequest; rw [if_neg h2, if_neg h1]
        by_cases h4 : r.status = 404 <;>
        cases op <;> simp [runOp, swiftOp, e, head404, bind, Except.bind, SaysMissing, h4]
    | gs =>
      by_cases h1 : r.status = 401
      · have e : gsRequest r = .error .expired := by unfold gsRequest; rw [if_neg h2, if_pos h1]
        cases op <;> simp [runOp, gsOp, e, gsMap, bind, Except.bind, SaysMissing, h1]
      · by_cases hj : r.body = .jsonOther
        · have e : gsRequest r = .error .other := by unfold gsRequest; rw [if_neg h2, if_neg h1, hj]
          cases op <;> simp [runOp, gsOp, e, gsMap, bind, Except.bind, SaysMissing, hj]
        · obtain ⟨m, e⟩ := gsRequest_error r h2 h1 hj
          cases op with
          | delete =>
            rw [gs_delete r _ m e]
            by_cases h4 : r.status = 404
            · rw [if_pos h4]
              exact ⟨fun _ => ⟨rfl, h4, hj⟩, fun _ => rfl⟩
            · rw [if_neg h4]
              exact ⟨fun h => absurd h (gsMap_not_ok true _ _), fun h => absurd h.2.1 h4⟩
          | lookup | size | write | read | list =>
            refine ⟨fun h => ?_, fun h => by (cases h.1)⟩
            simp only [runOp, gsOp, e] at h
            exact absurd h (gsMap_not_ok _ _ _)

/-- **C94**, missing objects: looking for an object, asking for its size or reading it reports that it does not exist
exactly if the server says so. -/
theorem C94_missing (b : Service) (op : Op) (intact : Bool) (r : Resp) (hop : op = .lookup ∨ op = .size ∨ op = .read) :
    runOp b op intact r = .error .noSuchObject ↔ SaysMissing b op r := by
  by_cases h2 : ok2xx r = true
  · have hs := (ok2xx_iff r).1 h2
    have h4 : r.status ≠ 404 := by omega
    unfold SaysMissing
    rcases hop with rfl | rfl | rfl <;> cases b <;> cases intact <;> cases hb : r.body <;>
      simp [runOp, s3Op, swiftOp, gsOp, s3Request, swiftRequest, gsRequest, h2, head404, hb, isJson,
        gsMap, bind, Except.bind, hs, h4, noSuchKey]
  · have hs : ¬ (200 ≤ r.status ∧ r.status ≤ 299) := fun h => h2 ((ok2xx_iff r).2 h)
    have e1 : ∀ hd, s3Request hd r = .error (s3Error hd r) := fun hd => by unfold s3Request; rw [if_neg h2]
    cases b with
    | s3 =>
      have hk := noSuchKey_iff r
      rcases hop with rfl | rfl | rfl
      · by_cases h4 : r.status = 404 <;>
          simp [runOp, s3Op, e1, s3Error, head404, SaysMissing, h4, bind, Except.bind]
      · by_cases h4 : r.status = 404 <;>
          simp [runOp, s3Op, e1, s3Error, head404, SaysMissing, h4]
      · show (if noSuchKey (s3Request false r) then _ else _) = _ ↔ _
        by_cases hn : noSuchKey (s3Request false r) = true
        · rw [if_pos hn]
          exact ⟨fun _ => Or.inr ⟨Or.inl rfl, hk.1 hn⟩, fun _ => rfl⟩
        · rw [if_neg hn, e1]
          refine ⟨fun h => ?_, fun h => ?_⟩
          · have h' : s3Error false r = .noSuchObject := Except.error.inj h
            unfold s3Error at h'
            rw [if_neg (by decide)] at h'
            split at h'
            · exact absurd h' (getS3_not_missing _)
            · cases h'
            · cases h'
          · rcases h with ⟨h3 | h3, _⟩ | ⟨_, h3⟩
            · cases h3
            · cases h3
            · exact absurd (hk.2 h3) hn
    | swift =>
      by_cases h1 : r.status = 401
      · have e : swiftRequest r = .error .expired := by unfold swiftRequest; rw [if_neg h2, if_pos h1]
        rcases hop with rfl | rfl | rfl <;> simp [runOp, swiftOp, e, head404, bind, Except.bind, SaysMissing, h1]
      · have e : swiftRequest r = .error (.http r.status r.reason) := by unfold swiftRequest; rw [if_neg h2, if_neg h1]
        by_cases h4 : r.status = 404 <;>
        rcases hop with rfl | rfl | rfl <;> simp [runOp, swiftOp, e, head404, bind, Except.bind, SaysMissing, h4]
    | gs =>
      by_cases h1 : r.status = 401
      · have e : gsRequest r = .error .expired := by unfold gsRequest; rw [if_neg h2, if_pos h1]
        rcases hop with rfl | rfl | rfl <;> simp [runOp, gsOp, e, gsMap, bind, Except.bind, SaysMissing, h1]
      · by_cases hj : r.body = .jsonOther
        · have e : gsRequest r = .error .other := by unfold gsRequest; rw [if_neg h2, if_neg h1, hj]
          rcases hop with rfl | rfl | rfl <;> simp [runOp, gsOp, e, gsMap, bind, Except.bind, SaysMissing, hj]
        · obtain ⟨m, e⟩ := gsRequest_error r h2 h1 hj
          have := gsMap_missing true r.status m
          have hm : SaysMissing .gs op r ↔ r.status = 404 ∧ true = true := ⟨fun h => ⟨h.1, rfl⟩, fun h => ⟨h.1, hj⟩⟩
          rcases hop with rfl | rfl | rfl
          · rw [hm]; show gsMap true (gsRequest r >>= _) = _ ↔ _; rw [e]; exact this
          · rw [hm]; show gsMap true (gsRequest r >>= _) = _ ↔ _; rw [e]; exact this
          · rw [hm]; show gsMap true (gsRequest r) = _ ↔ _; rw [e]; exact this

/-- Other operations never report a missing object, except writes to Google Storage. -/
theorem C94_not_missing (b : Service) (op : Op) (intact : Bool) (r : Resp)
    (h : runOp b op intact r = .error .noSuchObject) :
    SaysMissing b op r ∧ (op = .lookup ∨ op = .size ∨ op = .read ∨ (op = .write ∧ b = .gs)) := by
  cases op with
  | lookup => exact ⟨(C94_missing b _ intact r (Or.inl rfl)).1 h, Or.inl rfl⟩
  | size => exact ⟨(C94_missing b _ intact r (Or.inr (Or.inl rfl))).1 h, Or.inr (Or.inl rfl)⟩
  | read => exact ⟨(C94_missing b _ intact r (Or.inr (Or.inr rfl))).1 h, Or.inr (Or.inr (Or.inl rfl))⟩
  | write =>
    cases b with
    | s3 => exact absurd h (seq_empty _ r (s3_not_missing false r))
    | swift => exact absurd h (seq_empty _ r (swift_not_missing r))
    | gs =>
      refine ⟨?_, Or.inr (Or.inr (Or.inr ⟨rfl, rfl⟩))⟩
      by_cases h2 : ok2xx r = true
      · have e : gsRequest r = .ok () := by unfold gsRequest; rw [if_pos h2]
        cases hb : r.body <;> simp [runOp, gsOp, e, gsMap, bind, Except.bind, isJson, hb] at h
      · by_cases h1 : r.status = 401
        · have e : gsRequest r = .error .expired := by unfold gsRequest; rw [if_neg h2, if_pos h1]
          simp [runOp, gsOp, e, gsMap, bind, Except.bind] at h
        · by_cases hj : r.body = .jsonOther
          · have e : gsRequest r = .error .other := by unfold gsRequest; rw [if_neg h2, if_neg h1, hj]
            simp [runOp, gsOp, e, gsMap, bind, Except.bind] at h
          · obtain ⟨m, e⟩ := gsRequest_error r h2 h1 hj
            have h' : gsMap true (gsRequest r >>= fun _ => isJson false r) = .error .noSuchObject := h
            rw [e] at h'
            exact ⟨((gsMap_missing true r.status m).1 h').1, hj⟩
  | delete =>
    cases b with
    | s3 =>
      have h' : (if noSuchKey (s3Request false r) then .ok () else s3Request false r >>= fun _ => assertEmpty r) = .error .noSuchObject := h
      split at h'
      · cases h'
      · exact absurd h' (seq_empty _ r (s3_not_missing false r))
    | swift =>
      simp only [runOp, swiftOp] at h
      split at h
      · split at h <;> cases h
      · exact absurd h (seq_empty _ r (swift_not_missing r))
    | gs =>
      simp only [runOp, gsOp] at h
      split at h
      · cases h
      · rename_i h'; exact absurd h h'
  | list =>
    cases b with
    | s3 => exact absurd h (s3_not_missing false r)
    | swift =>
      simp only [runOp, swiftOp] at h
      split at h
      · split at h <;> cases h
      · exact absurd h (swift_not_missing r)
    | gs =>
      by_cases h2 : ok2xx r = true
      · have e : gsRequest r = .ok () := by unfold gsRequest; rw [if_pos h2]
        cases hb : r.body <;> simp [runOp, gsOp, e, gsMap, bind, Except.bind, isJson, hb] at h
      · by_cases h1 : r.status = 401
        · have e : gsRequest r = .error .expired := by unfold gsRequest; rw [if_neg h2, if_pos h1]
          simp [runOp, gsOp, e, gsMap, bind, Except.bind] at h
        · by_cases hj : r.body = .jsonOther
          · have e : gsRequest r = .error .other := by unfold gsRequest; rw [if_neg h2, if_neg h1, hj]
            simp [runOp, gsOp, e, gsMap, bind, Except.bind] at h
          · obtain ⟨m, e⟩ := gsRequest_error r h2 h1 hj
            have h' : gsMap false (gsRequest r >>= fun _ => isJson true r) = .error .noSuchObject := h
            rw [e] at h'
            cases ((gsMap_missing false r.status m).1 h').2

/-- The exception that a request ends with is one that makes `retry` repeat it. -/
def Repeated (b : Service) (op : Op) (intact : Bool) (r : Resp) : Prop :=
  ∃ x, runOp b op intact r = .error x ∧ again b x = true

/-- **C94**, repetition, in full: whenever the server says that a request should be tried again, it is. -/
def C94_again_statement : Prop :=
  ∀ (b : Service) (op : Op) (intact : Bool) (r : Resp), TryAgain r.status → Repeated b op intact r

/-- The codes in the error messages of S3 for which a request is repeated. -/
def TempCode (c : Str) : Prop :=
  c ∈ ["InternalError".toList, "Internal".toList, "BadDigest".toList, "BadDigestError".toList, "IncompleteBody".toList,
    "IncompleteBodyError".toList, "RequestTimeout".toList, "RequestTimeoutError".toList, "Timeout".toList,
    "OperationAborted".toList, "OperationAbortedError".toList, "SlowDown".toList, "SlowDownError".toList,
    "ServiceUnavailable".toList, "ServiceUnavailableError".toList, "TemporarilyUnavailable".toList,
    "TemporarilyUnavailableError".toList]

theorem className_inv (c n : Str) (h : className c = n ++ "Error".toList) :
    c = n ∨ c = n ++ "Error".toList ∨ (c = "Timeout".toList ∧ n = "RequestTimeout".toList) := by
  unfold className at h
  dsimp only at h
  split at h
  · rename_i hc
    rw [if_neg (by decide)] at h
    exact Or.inr (Or.inr ⟨hc, (List.append_cancel_right h).symm⟩)
  · split at h
    · exact Or.inr (Or.inl h)
    · exact Or.inl (List.append_cancel_right h)

/-- S3: exactly which codes lead to a repetition. -/
theorem again_code (c : Option Str) : s3Again (getS3Error c) = true ↔ ∃ d, c = some d ∧ TempCode d := by
  constructor
  · intro h
    cases c with
    | none => exact absurd h (by decide)
    | some c =>
      refine ⟨c, rfl, ?_⟩
      unfold getS3Error at h
      dsimp only at h
      split at h
      · have hm : className c ∈ s3Temp := of_decide_eq_true h
        have hall : ∀ n ∈ ["Internal".toList, "BadDigest".toList, "IncompleteBody".toList, "RequestTimeout".toList,
            "OperationAborted".toList, "SlowDown".toList, "ServiceUnavailable".toList,
            "TemporarilyUnavailable".toList], TempCode n ∧ TempCode (n ++ "Error".toList) := by
          unfold TempCode; decide
        have h8 : ∃ n ∈ ["Internal".toList, "BadDigest".toList, "IncompleteBody".toList, "RequestTimeout".toList,
            "OperationAborted".toList, "SlowDown".toList, "ServiceUnavailable".toList,
            "TemporarilyUnavailable".toList], className c = n ++ "Error".toList := by
          have hs : s3Temp = ["Internal".toList, "BadDigest".toList, "IncompleteBody".toList, "RequestTimeout".toList,
            "OperationAborted".toList, "SlowDown".toList, "ServiceUnavailable".toList,
            "TemporarilyUnavailable".toList].map (· ++ "Error".toList) := by decide
          rw [hs, List.mem_map] at hm
          obtain ⟨n, hn, he⟩ := hm
          exact ⟨n, hn, he.symm⟩
        obtain ⟨n, hn, he⟩ := h8
        rcases className_inv c n he with rfl | rfl | ⟨rfl, _⟩
        · exact (hall _ hn).1
        · exact (hall _ hn).2
        · unfold TempCode; decide
      · split at h
        · cases h
        · exact absurd h (by decide)
  · rintro ⟨d, rfl, h⟩
    have hall : ∀ d ∈ ["InternalError".toList, "Internal".toList, "BadDigest".toList, "BadDigestError".toList,
        "IncompleteBody".toList, "IncompleteBodyError".toList, "RequestTimeout".toList, "RequestTimeoutError".toList,
        "Timeout".toList, "OperationAborted".toList, "OperationAbortedError".toList, "SlowDown".toList,
        "SlowDownError".toList, "ServiceUnavailable".toList, "ServiceUnavailableError".toList,
        "TemporarilyUnavailable".toList, "TemporarilyUnavailableError".toList],
        s3Again (getS3Error (some d)) = true := by decide
    exact hall d h

/-- Answers whose body does not stand in the way: for S3, those without a description of the error in XML, or with one
of the known codes. -/
def Plain (b : Service) (op : Op) (r : Resp) : Prop :=
  match b with
  | .s3 => op = .lookup ∨ op = .size ∨ ((∀ c, r.body ≠ .xml c) ∧ r.body ≠ .badXml) ∨
      ∃ c, TempCode c ∧ r.body = .xml (some c)
  | .swift => True
  | .gs => r.status ≠ 429 ∧ r.body ≠ .jsonOther ∧
      ∀ m, r.body = .json m → m ≠ "Forbidden".toList ∧ m ≠ "Login Required".toList ∧ m ≠ "Invalid Credentials".toList

theorem s3Error_plain (r : Resp) (h : (∀ c, r.body ≠ .xml c) ∧ r.body ≠ .badXml) :
    s3Error false r = .http r.status r.reason := by
  unfold s3Error
  rw [if_neg (by decide)]
  split
  · rename_i hb; exact absurd hb (h.1 _)
  · rename_i hb; exact absurd hb h.2
  · rfl

/-- What S3 operations other than HEAD requests raise for an answer that is not a success. -/
theorem s3Op_error (op : Op) (intact : Bool) (r : Resp) (h2 : ¬ ok2xx r = true) (hop : op ≠ .lookup ∧ op ≠ .size) :
    (noSuchKey (s3Request false r) = true ∧ (op = .read ∨ op = .delete)) ∨
      s3Op op intact r = .error (s3Error false r) := by
  have e1 : s3Request false r = .error (s3Error false r) := by unfold s3Request; rw [if_neg h2]
  by_cases hn : noSuchKey (s3Request false r) = true
  · cases op with
    | lookup => exact absurd rfl hop.1
    | size => exact absurd rfl hop.2
    | read => exact Or.inl ⟨hn, Or.inl rfl⟩
    | delete => exact Or.inl ⟨hn, Or.inr rfl⟩
    | write => right; show (s3Request false r >>= _) = _; rw [e1]; rfl
    | list => exact Or.inr e1
  · right
    cases op with
    | lookup => exact absurd rfl hop.1
    | size => exact absurd rfl hop.2
    | read => show (if _ then _ else _) = _; rw [if_neg hn, e1]; rfl
    | delete => show (if _ then _ else _) = _; rw [if_neg hn, e1]; rfl
    | write => show (s3Request false r >>= _) = _; rw [e1]; rfl
    | list => exact e1

theorem s3Op_head (op : Op) (intact : Bool) (r : Resp) (h2 : ¬ ok2xx r = true) (hop : op = .lookup ∨ op = .size) :
    s3Op op intact r = if r.status = 404 then .error .noSuchObject else .error (.http r.status r.reason) := by
  have e1 : s3Request true r = .error (.http r.status r.reason) := by
    unfold s3Request; rw [if_neg h2]; unfold s3Error; rw [if_pos rfl]
  by_cases h4 : r.status = 404 <;> rcases hop with rfl | rfl <;>
    simp [s3Op, e1, head404, h4, bind, Except.bind]

/-- What Swift operations raise for an answer that is neither a success nor 404 nor 401. -/
theorem swiftOp_error (op : Op) (intact : Bool) (r : Resp) (h2 : ¬ ok2xx r = true) (h1 : r.status ≠ 401)
    (h4 : r.status ≠ 404) : swiftOp op intact r = .error (.http r.status r.reason) := by
  have e : swiftRequest r = .error (.http r.status r.reason) := by unfold swiftRequest; rw [if_neg h2, if_neg h1]
  cases op <;> simp [swiftOp, e, head404, h4, bind, Except.bind]

/-- What Google Storage operations raise for such an answer. -/
theorem gsOp_error (op : Op) (intact : Bool) (r : Resp) (m : Option Str)
    (e : gsRequest r = .error (.request r.status m)) (h4 : r.status ≠ 404) :
    runOp .gs op intact r = gsMap (decide (op ≠ .list)) (.error (.request r.status m)) := by
  cases op with
  | delete => rw [gs_delete r intact m e, if_neg h4]; rfl
  | lookup | size | write | list => show gsMap _ (gsRequest r >>= _) = _; rw [e]; rfl
  | read => show gsMap _ (gsRequest r) = _; rw [e]; rfl

theorem gsMap_plain (key : Bool) (s : Nat) (m : Option Str) (h4 : s ≠ 404)
    (hm : m ≠ some "Forbidden".toList ∧ m ≠ some "Login Required".toList ∧ m ≠ some "Invalid Credentials".toList) :
    gsMap key (.error (.request s m)) = .error (.request s m) := by
  show (if _ then _ else _) = _
  rw [if_neg (fun h => h4 h.1), if_neg hm.1, if_neg (fun h => h.elim hm.2.1 hm.2.2)]

/-- **C94**, repetition, for answers whose body does not stand in the way (`Plain`). -/
theorem C94_again_partial (b : Service) (op : Op) (intact : Bool) (r : Resp) (h : TryAgain r.status)
    (hp : Plain b op r) : Repeated b op intact r := by
  have h2 : ¬ ok2xx r = true := by rw [ok2xx_iff]; unfold TryAgain at h; omega
  have h1 : r.status ≠ 401 := by unfold TryAgain at h; omega
  have h4 : r.status ≠ 404 := by unfold TryAgain at h; omega
  cases b with
  | s3 =>
    by_cases hh : op = .lookup ∨ op = .size
    · refine ⟨.http r.status r.reason, ?_, (retryStatus_iff _).2 h⟩
      show s3Op op intact r = _
      rw [s3Op_head op intact r h2 hh, if_neg h4]
    · have hh' : op ≠ .lookup ∧ op ≠ .size := ⟨fun h' => hh (Or.inl h'), fun h' => hh (Or.inr h')⟩
      rcases hp with hp | hp | hp | ⟨c, hc, hb⟩
      · exact absurd hp hh'.1
      · exact absurd hp hh'.2
      · rcases s3Op_error op intact r h2 hh' with ⟨hn, _⟩ | he
        · rcases ((noSuchKey_iff r).1 hn).2 with hb | hb <;> exact absurd hb (hp.1 _)
        · exact ⟨_, he, by rw [s3Error_plain r hp]; exact (retryStatus_iff _).2 h⟩
      · rcases s3Op_error op intact r h2 hh' with ⟨hn, _⟩ | he
        · exfalso
          rcases ((noSuchKey_iff r).1 hn).2 with hb' | hb' <;> rw [hb] at hb' <;> cases hb' <;>
            exact absurd hc (by unfold TempCode; decide)
        · refine ⟨_, he, ?_⟩
          have : s3Error false r = getS3Error (some c) := by unfold s3Error; rw [if_neg (by decide), hb]
          rw [this]
          exact (again_code (some c)).2 ⟨c, rfl, hc⟩
  | swift =>
    refine ⟨_, swiftOp_error op intact r h2 h1 h4, ?_⟩
    show (retryStatus _ || _) = true
    rw [(retryStatus_iff _).2 h]; rfl
  | gs =>
    obtain ⟨hp9, hpj, hpm⟩ := hp
    obtain ⟨m, e⟩ := gsRequest_error r h2 h1 hpj
    refine ⟨.request r.status m, ?_, ?_⟩
    · rw [gsOp_error op intact r m e h4]
      apply gsMap_plain _ _ _ h4
      unfold gsRequest at e
      rw [if_neg h2, if_neg h1] at e
      cases hb : r.body with
      | json m' =>
        rw [hb] at e
        have := (Exc.request.inj (Except.error.inj e)).2
        rw [← this]
        obtain ⟨a, b, c⟩ := hpm m' hb
        exact ⟨fun h => a (Option.some.inj h), fun h => b (Option.some.inj h), fun h => c (Option.some.inj h)⟩
      | jsonOther => exact absurd hb hpj
      | _ =>
        rw [hb] at e
        have := (Exc.request.inj (Except.error.inj e)).2
        rw [← this]
        exact ⟨(fun h => nomatch h), (fun h => nomatch h), (fun h => nomatch h)⟩
    · show decide _ = true
      apply decide_eq_true
      unfold TryAgain at h
      omega

/-- The property is violated for S3: if an error is described in XML, only its code counts.  Here the server is
overloaded and says so with status 503 and a code that the program does not know. -/
theorem C94_again_violated : ¬ C94_again_statement := by
  intro h
  obtain ⟨x, h1, h2⟩ := h .s3 .write true { status := 503, body := .xml (some "SlowDownWrite".toList) } (by unfold TryAgain; decide)
  have : runOp .s3 .write true { status := 503, body := .xml (some "SlowDownWrite".toList) } = .error (.s3 "S3Error".toList) := rfl
  rw [this] at h1
  cases Except.error.inj h1
  exact absurd h2 (by decide)

/-- **C94**, repetition: if the login has expired, Swift and Google Storage log in again and repeat the request. -/
theorem C94_expired (b : Service) (op : Op) (intact : Bool) (r : Resp) (hb : b ≠ .s3) (h : r.status = 401) : Repeated b op intact r := by
  have h2 : ok2xx r = false := by unfold ok2xx; rw [h]; rfl
  have e1 : swiftRequest r = .error .expired := by unfold swiftRequest; rw [h2, h]; rfl
  have e2 : gsRequest r = .error .expired := by unfold gsRequest; rw [h2, h]; rfl
  refine ⟨.expired, ?_, ?_⟩
  · cases b with
    | s3 => exact absurd rfl hb
    | swift => show swiftOp op intact r = _; cases op <;> simp [swiftOp, e1, head404, bind, Except.bind]
    | gs => show gsOp op r = _; cases op <;> (unfold gsOp; dsimp only; rw [e2]; rfl)
  · cases b with
    | s3 => exact absurd rfl hb
    | swift => rfl
    | gs => rfl

/-- **C94**, repetition: a write or a deletion that is confirmed in a way that makes no sense is repeated with Swift and Google Storage, and not with S3. -/
theorem C94_nonsense (b : Service) (op : Op) (intact : Bool) (r : Resp) (hop : op = .write ∨ op = .delete) (h2 : 200 ≤ r.status ∧ r.status ≤ 299)
    (hb : r.body = .other) : Repeated b op intact r ↔ b ≠ .s3 := by
  have ho : ok2xx r = true := (ok2xx_iff r).2 h2
  have e1 : s3Request false r = .ok () := by unfold s3Request; rw [ho]; rfl
  have e2 : swiftRequest r = .ok () := by unfold swiftRequest; rw [ho]; rfl
  have e3 : gsRequest r = .ok () := by unfold gsRequest; rw [ho]; rfl
  have e4 : assertEmpty r = .error .badResponse := by unfold assertEmpty; rw [hb]; rfl
  have e5 : isJson false r = .error .badResponse := by unfold isJson; rw [hb]
  have hr : runOp b op intact r = .error .badResponse := by
    rcases hop with rfl | rfl <;> cases b
    · show s3Op .write intact r = _; unfold s3Op; dsimp only; rw [e1]; exact e4
    · show swiftOp .write intact r = _; unfold swiftOp; dsimp only; rw [e2]; exact e4
    · show gsOp .write r = _; unfold gsOp; dsimp only; rw [e3]; show gsMap true (isJson false r) = _; rw [e5]; rfl
    · show s3Op .delete intact r = _; unfold s3Op; dsimp only; rw [e1]; exact e4
    · show swiftOp .delete intact r = _; unfold swiftOp; dsimp only; rw [e2]; exact e4
    · show gsOp .delete r = _; unfold gsOp; dsimp only; rw [e3]; show (match gsMap true (assertEmpty r) with | .error .noSuchObject => Except.ok () | x => x) = _; rw [e4]; rfl
  constructor
  · rintro ⟨x, hx, ha⟩ rfl
    rw [hr] at hx
    rw [← Except.error.inj hx] at ha
    cases ha
  · intro hb
    refine ⟨_, hr, ?_⟩
    cases b with
    | s3 => exact absurd rfl hb
    | swift => rfl
    | gs => rfl

/-- Such an answer: a page of a proxy. -/
example (b : Service) : runOp b .write true { status := 200, body := .other } = .error .badResponse := by cases b <;> rfl

/-- The property is violated for Google Storage: "too many requests" is final. -/
theorem C94_gs_too_many (op : Op) (intact : Bool) (m : Str) :
    ¬ Repeated .gs op intact { status := 429, body := .json m } := by
  rintro ⟨x, h1, h2⟩
  have e : gsRequest { status := 429, body := .json m } = .error (.request 429 (some m)) := rfl
  rw [gsOp_error op intact _ _ e (by show (429 : Nat) ≠ 404; decide)] at h1
  have hx : x = .notAllowed ∨ x = .badLogin ∨ x = .request 429 (some m) := by
    have h1' := h1
    unfold gsMap at h1'
    dsimp only at h1'
    split at h1'
    · rename_i h; exact absurd h.1 (by decide)
    · split at h1'
      · cases Except.error.inj h1'; exact Or.inl rfl
      · split at h1'
        · cases Except.error.inj h1'; exact Or.inr (Or.inl rfl)
        · cases Except.error.inj h1'; exact Or.inr (Or.inr rfl)
  rcases hx with rfl | rfl | rfl <;> exact absurd h2 (by simp [again, gsAgain])

/-- **C94**, refusals: a request that the server refuses is not repeated.  Exceptions: S3 goes by the code, and Swift
by the words "client disconnected". -/
theorem C94_refused (b : Service) (op : Op) (intact : Bool) (r : Resp) (h : Refused r.status)
    (h3 : b = .s3 → op = .lookup ∨ op = .size ∨ ∀ c, TempCode c → r.body ≠ .xml (some c))
    (hw : b = .swift → contains "client disconnected".toList (lower r.reason) = false) :
    ¬ Repeated b op intact r := by
  have h2 : ¬ ok2xx r = true := by rw [ok2xx_iff]; unfold Refused at h; omega
  have h1 : r.status ≠ 401 := h.2.2.1
  have hr : retryStatus r.status = false := by
    cases hc : retryStatus r.status with
    | false => rfl
    | true => have := (retryStatus_iff _).1 hc; unfold TryAgain at this; unfold Refused at h; omega
  rintro ⟨x, hx, ha⟩
  cases b with
  | s3 =>
    have hx : s3Op op intact r = .error x := hx
    by_cases hh : op = .lookup ∨ op = .size
    · rw [s3Op_head op intact r h2 hh] at hx
      split at hx
      · cases Except.error.inj hx; cases ha
      · cases Except.error.inj hx
        have ha : retryStatus r.status = true := ha
        rw [hr] at ha; cases ha
    · have hh' : op ≠ .lookup ∧ op ≠ .size := ⟨fun h' => hh (Or.inl h'), fun h' => hh (Or.inr h')⟩
      rcases s3Op_error op intact r h2 hh' with ⟨hn, ho⟩ | he
      · rcases ho with rfl | rfl
        · have hx : (if noSuchKey (s3Request false r) then _ else _) = Except.error x := hx
          rw [if_pos hn] at hx
          cases Except.error.inj hx; cases ha
        · have hx : (if noSuchKey (s3Request false r) then _ else _) = Except.error x := hx
          rw [if_pos hn] at hx
          cases hx
      · rw [he] at hx
        cases Except.error.inj hx
        unfold s3Error at ha
        rw [if_neg (by decide)] at ha
        split at ha
        · rename_i c hb
          obtain ⟨d, rfl, hd⟩ := (again_code c).1 ha
          rcases h3 rfl with h' | h' | h'
          · exact hh'.1 h'
          · exact hh'.2 h'
          · exact h' d hd hb
        · cases ha
        · have ha : retryStatus r.status = true := ha
          rw [hr] at ha; cases ha
  | swift =>
    by_cases h4 : r.status = 404
    · have e : swiftRequest r = .error (.http r.status r.reason) := by unfold swiftRequest; rw [if_neg h2, if_neg h1]
      have : x = .noSuchObject ∨ x = .noBucket ∨ x = .http 404 r.reason := by
        cases op <;> simp [runOp, swiftOp, e, head404, h4, bind, Except.bind] at hx <;> simp [← hx]
      rcases this with rfl | rfl | rfl
      · cases ha
      · cases ha
      · have ha : (retryStatus 404 || contains "client disconnected".toList (lower r.reason)) = true := ha
        rw [hw rfl] at ha
        exact absurd ha (by decide)
    · have hx : swiftOp op intact r = .error x := hx
      rw [swiftOp_error op intact r h2 h1 h4] at hx
      cases Except.error.inj hx
      have ha : (retryStatus r.status || contains "client disconnected".toList (lower r.reason)) = true := ha
      rw [hw rfl, hr] at ha
      cases ha
  | gs =>
    by_cases hj : r.body = .jsonOther
    · have e : gsRequest r = .error .other := by unfold gsRequest; rw [if_neg h2, if_neg h1, hj]
      have : x = .other := by
        cases op <;> simp [runOp, gsOp, e, gsMap, bind, Except.bind] at hx <;> exact hx.symm
      rw [this] at ha; cases ha
    · obtain ⟨m, e⟩ := gsRequest_error r h2 h1 hj
      have hk : ∀ key, gsMap key (.error (.request r.status m)) = .error x → False := by
        intro key hx
        unfold gsMap at hx
        dsimp only at hx
        split at hx
        · cases Except.error.inj hx; cases ha
        · split at hx
          · cases Except.error.inj hx; cases ha
          · split at hx
            · cases Except.error.inj hx; cases ha
            · cases Except.error.inj hx
              have := of_decide_eq_true ha
              unfold Refused at h
              omega
      by_cases hop : op = .delete
      · subst hop
        rw [gs_delete r intact m e] at hx
        split at hx
        · cases hx
        · exact hk _ hx
      · cases op with
        | delete => exact absurd rfl hop
        | lookup | size | write =>
          have hx : gsMap true (gsRequest r >>= _) = .error x := hx
          rw [e] at hx; exact hk _ hx
        | list =>
          have hx : gsMap false (gsRequest r >>= _) = .error x := hx
          rw [e] at hx; exact hk _ hx
        | read =>
          have hx : gsMap true (gsRequest r) = .error x := hx
          rw [e] at hx; exact hk _ hx

/-! ### Whole calls -/

theorem attempt_ok (date : Str → Option Int) (b : Service) (op : Op) (e : Event × Bool)
    (h : attempt date b op e = .ok ()) : ∃ r, e.1 = .answer r ∧ runOp b op e.2 r = .ok () := by
  obtain ⟨ev, i⟩ := e
  cases ev with
  | answer r =>
    refine ⟨r, rfl, ?_⟩
    unfold attempt at h
    dsimp only at h
    split at h
    · rename_i hr; exact hr
    · split at h <;> cases h
  | network => unfold attempt at h; dsimp only at h; split at h <;> cases h
  | ssl m => unfold attempt at h; dsimp only at h; split at h <;> cases h
  | broken => cases h

theorem attempt_perm (date : Str → Option Int) (b : Service) (op : Op) (e : Event × Bool) (x : Exc)
    (h : attempt date b op e = .perm x) (hx : x = .noSuchObject) :
    ∃ r, e.1 = .answer r ∧ runOp b op e.2 r = .error .noSuchObject := by
  obtain ⟨ev, i⟩ := e
  cases ev with
  | answer r =>
    refine ⟨r, rfl, ?_⟩
    unfold attempt at h
    dsimp only at h
    split at h
    · cases h
    · rename_i y hr
      split at h
      · cases h
      · cases h; rw [hr, hx]
  | network => unfold attempt at h; dsimp only at h; split at h <;> cases h <;> cases hx
  | ssl m => unfold attempt at h; dsimp only at h; split at h <;> cases h <;> cases hx
  | broken => cases h; cases hx

/-- **C94**, whole calls: whatever happens in the attempts, a call that succeeds has got an answer that says so, and a
call that reports a missing object has got an answer that says that it is missing. -/
theorem C94_call (date : Str → Option Int) (b : Service) (op : Op) (es : Nat → Event × Bool) :
    ((call date b op es).result = .returned () → ∃ (n : Nat) (r : Resp), (es n).1 = .answer r ∧
      (Delivered b op (es n).2 r ∨ (op = .delete ∧ SaysMissing b op r))) ∧
    ((call date b op es).result = .raised .noSuchObject → ∃ (n : Nat) (r : Resp), (es n).1 = .answer r ∧
      SaysMissing b op r) := by
  obtain ⟨n, _, _, _, _, h5⟩ := C35_retry (fun i => attempt date b op (es i))
  constructor
  · intro h
    rcases h5 with ⟨v, h6, _⟩ | ⟨e, _, h7⟩ | ⟨ra, e, _, h7, _⟩
    · obtain ⟨r, h8, h9⟩ := attempt_ok date b op (es n) h6
      exact ⟨n, r, h8, (C94_success b op _ r).1 h9⟩
    · have : (call date b op es).result = .raised e := h7
      rw [this] at h; cases h
    · have : (call date b op es).result = .timeout e := h7
      rw [this] at h; cases h
  · intro h
    rcases h5 with ⟨v, _, h7⟩ | ⟨e, h6, h7⟩ | ⟨ra, e, _, h7, _⟩
    · have : (call date b op es).result = .returned v := h7
      rw [this] at h; cases h
    · have : (call date b op es).result = .raised e := h7
      rw [this] at h
      obtain ⟨r, h8, h9⟩ := attempt_perm date b op (es n) e h6 (Result.raised.inj h)
      exact ⟨n, r, h8, (C94_not_missing b op _ r h9).1⟩
    · have : (call date b op es).result = .timeout e := h7
      rw [this] at h; cases h

theorem parseRetryAfter_le (date : Str → Option Int) (h : Str) (d : Nat) (hd : parseRetryAfter date h = some d) :
    1000000 ≤ d ∧ d ≤ 300000000 := by
  unfold parseRetryAfter at hd
  dsimp only at hd
  obtain ⟨v, _, rfl⟩ := Option.map_eq_some_iff.1 hd
  omega

/-- **C94**, waiting: whatever the server asks for with `Retry-After`, the nominal delay between two attempts is at
most five minutes. -/
theorem C94_wait (date : Str → Option Int) (b : Service) (op : Op) (es : Nat → Event × Bool) :
    ∀ d ∈ (call date b op es).delays, d ≤ 300 * 1000000 := by
  intro d hd
  rcases C35_delays_bounded _ d hd with h | ⟨j, e, h⟩
  · exact h
  · unfold attempt at h
    split at h
    · split at h
      · cases h
      · rename_i r _ _ x _
        split at h
        · have hdel := (Attempt.temp.inj h).1
          unfold delayOf at hdel
          have hb : ∀ y, Option.bind y (parseRetryAfter date) = some d → d ≤ 300 * 1000000 := by
            intro y hy
            obtain ⟨s, _, hs⟩ := Option.bind_eq_some_iff.1 hy
            have := (parseRetryAfter_le date s d hs).2
            omega
          split at hdel
          · exact hb _ hdel
          · split at hdel
            · cases hdel
            · exact hb _ hdel
          · cases hdel
        · cases h
    · split at h <;> cases h
    · split at h <;> cases h
    · cases h

theorem sum_le_of_all (l : List Nat) (k : Nat) (h : ∀ d ∈ l, d ≤ k) : l.sum ≤ l.length * k := by
  induction l with
  | nil => simp
  | cons a l ih =>
    have h1 := h a List.mem_cons_self
    have h2 := ih (fun d hd => h d (List.mem_cons_of_mem _ hd))
    rw [List.sum_cons, List.length_cons, Nat.add_mul, Nat.one_mul]
    omega

/-- **C94**, persistence: up to 288 temporary failures in a row, of whatever kind, do no harm. -/
theorem C94_survives (date : Str → Option Int) (b : Service) (op : Op) (es : Nat → Event × Bool) (n : Nat)
    (hn : n ≤ 288) (ht : ∀ j, j < n → ∃ ra x, attempt date b op (es j) = .temp ra x)
    (hok : attempt date b op (es n) = .ok ()) : (call date b op es).result = .returned () := by
  obtain ⟨m, _, h2, h3, _, h5⟩ := C35_retry (fun i => attempt date b op (es i))
  have hmn : ¬ n < m := by
    intro h
    obtain ⟨ra, x, hx⟩ := h3 n h
    rw [hok] at hx; cases hx
  rcases h5 with ⟨v, _, h7⟩ | ⟨e, h6, _⟩ | ⟨ra, e, h6, _, h8⟩
  · exact h7
  · exfalso
    by_cases h : m < n
    · obtain ⟨ra, x, hx⟩ := ht m h
      rw [hx] at h6; cases h6
    · have : m = n := by omega
      rw [this, hok] at h6; cases h6
  · exfalso
    by_cases h : m < n
    · have hs := sum_le_of_all _ _ (C94_wait date b op es)
      have hl : (call date b op es).delays.length = m := h2
      rw [hl] at hs
      have h8' : timeoutUs < (call date b op es).delays.sum := h8
      unfold timeoutUs at h8'
      omega
    · have : m = n := by omega
      rw [this, hok] at h6; cases h6

/-- **C94**, failures of the network: a request that a failure of the network interrupts is made again, whatever the operation and the service.
After a failure of TLS it is made again with S3 and Google Storage; with Swift exactly after the two failures whose messages the code knows. -/
theorem C94_network (date : Str → Option Int) (b : Service) (op : Op) (i : Bool) :
    attempt date b op (.network, i) = .temp none .network ∧
    (∀ m : Str, attempt date b op (.ssl m, i) = .temp none (.ssl m) ∨ attempt date b op (.ssl m, i) = .perm (.ssl m)) ∧
    (∀ m : Str, attempt date b op (.ssl m, i) = .temp none (.ssl m) ↔
      (b = .swift → (∃ t, m = "[SSL: BAD_WRITE_RETRY]".toList ++ t) ∨ ∃ t, m = "[SSL: BAD_LENGTH]".toList ++ t)) := by
  have key : ∀ m : Str, attempt date b op (.ssl m, i) = if again b (.ssl m) then .temp none (.ssl m) else .perm (.ssl m) := fun _ => rfl
  refine ⟨by cases b <;> rfl, fun m => ?_, fun m => ?_⟩
  · rw [key]; split
    · exact Or.inl rfl
    · exact Or.inr rfl
  · rw [key]
    have e : ∀ p : Str, p.isPrefixOf m = true ↔ ∃ t, m = p ++ t := by
      intro p
      rw [List.isPrefixOf_iff_prefix]
      exact ⟨fun ⟨t, h⟩ => ⟨t, h.symm⟩, fun ⟨t, h⟩ => ⟨t, h.symm⟩⟩
    have h1 : again b (.ssl m) = true ↔
        (b = .swift → (∃ t, m = "[SSL: BAD_WRITE_RETRY]".toList ++ t) ∨ ∃ t, m = "[SSL: BAD_LENGTH]".toList ++ t) := by
      cases b with
      | s3 => exact ⟨(fun _ h => nomatch h), fun _ => rfl⟩
      | gs => exact ⟨(fun _ h => nomatch h), fun _ => rfl⟩
      | swift =>
        rw [← e, ← e, ← Bool.or_eq_true]
        exact ⟨fun h _ => h, fun h => h rfl⟩
    rw [← h1]
    split
    · rename_i h; exact ⟨fun _ => h, fun _ => rfl⟩
    · rename_i h; exact ⟨(fun h' => nomatch h'), fun h' => absurd h' h⟩

/-- **C94**, outages: an operation survives an outage of the network of up to 288 attempts, and does what it should afterwards. -/
theorem C94_outage (date : Str → Option Int) (b : Service) (op : Op) (es : Nat → Event × Bool) (n : Nat) (hn : n ≤ 288)
    (ho : ∀ j, j < n → (es j).1 = .network) (r : Resp) (hr : (es n).1 = .answer r) (hd : Delivered b op (es n).2 r) :
    (call date b op es).result = .returned () := by
  refine C94_survives date b op es n hn (fun j hj => ⟨none, .network, ?_⟩) ?_
  · have := (C94_network date b op (es j).2).1
    rw [← ho j hj] at this
    exact this
  · have h1 := (C94_success b op (es n).2 r).2 (Or.inl hd)
    unfold attempt
    rw [hr]
    dsimp only
    rw [h1]

/-! ### Further violations, and examples -/

/-- Reading an object from S3: an answer "404" without an XML description, as proxies give it, is not taken for a
missing object, although it is when the object is looked up. -/
theorem C94_plain_404 : runOp .s3 .read true { status := 404, body := .other } = .error (.http 404 []) ∧
    runOp .s3 .lookup true { status := 404, body := .other } = .error .noSuchObject := ⟨rfl, rfl⟩

/-- Google Storage: writing to a bucket that does not exist reports that the object does not exist, and deleting from
it succeeds. -/
theorem C94_gs_no_bucket : runOp .gs .write true { status := 404, body := .json "no bucket".toList } = .error .noSuchObject ∧
    runOp .gs .delete true { status := 404, body := .json "no bucket".toList } = .ok () := ⟨rfl, rfl⟩

/-- Swift: an object that was damaged in transit is not read again; with S3 it is. -/
theorem C94_swift_damaged : ¬ Repeated .swift .read false { status := 200, body := .other } ∧
    Repeated .s3 .read false { status := 200, body := .other } := by
  constructor
  · rintro ⟨x, h1, h2⟩
    have e : runOp .swift .read false { status := 200, body := .other } = .error (.s3 "BadDigestError".toList) := rfl
    rw [e] at h1
    cases Except.error.inj h1
    cases h2
  · exact ⟨.s3 "BadDigestError".toList, rfl, by decide⟩

/-- S3: a code for which the program stumbles over its own function names. -/
theorem C94_strange_code : runOp .s3 .read true { status := 500, body := .xml (some "get_S3".toList) } = .error .other := rfl

/-- The hypotheses of `C94_again_partial` and `C94_refused` hold in ordinary cases. -/
example : TryAgain 503 ∧ Plain .s3 .write { status := 503, body := .xml (some "SlowDown".toList) } ∧
    Plain .gs .read { status := 500, body := .json "Backend Error".toList } ∧ Refused 403 := by
  refine ⟨by unfold TryAgain; decide, Or.inr (Or.inr (Or.inr ⟨"SlowDown".toList, by unfold TempCode; decide, rfl⟩)),
    ⟨by decide, (fun h => nomatch h), ?_⟩, by unfold Refused; decide⟩
  intro m hm
  cases hm
  decide

/-- The hypotheses of `C94_survives`: the connection breaks, the server is overloaded, then it works. -/
def demoEvents (i : Nat) : Event × Bool :=
  if i = 0 then (.network, true)
  else if i = 1 then (.answer { status := 503, body := .other, retryAfter := some " 7200 ".toList }, true)
  else (.answer { status := 200, body := .empty }, true)

example : (call (fun _ => none) .s3 .write demoEvents).result = .returned () := by
  apply C94_survives (fun _ => none) .s3 .write demoEvents 2 (by decide)
  · intro j hj
    match j, hj with
    | 0, _ => exact ⟨_, _, rfl⟩
    | 1, _ => exact ⟨_, _, rfl⟩
  · rfl

/-- ... and the wait that the server asks for is cut to five minutes. -/
example : attempt (fun _ => none) .s3 .write (demoEvents 1) = .temp (some 300000000) (.http 503 []) := by
  have h : parseRetryAfter (fun _ => none) " 7200 ".toList = some 300000000 := by decide +kernel
  show Attempt.temp (parseRetryAfter (fun _ => none) " 7200 ".toList) _ = _
  rw [h]
  simp [s3Error]

end Verif.Backend.Answer
