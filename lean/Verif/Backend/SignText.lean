import Verif.Backend.Sign
/-
Property C69, second part: the text of the `Authorization` header and of the dates, the server's clock, and servers that send the client to
another host (backends/s3c4.py:160-238, backends/s3c.py:598-647, backends/s3.py:92-140, backends/b2ng.py:105-168).
-/
namespace Verif.Backend.Addr
open Verif.Codec (Str Byte utf8)

/-! ### Model: texts -/

/-- A decimal digit. -/
def digit (n : Nat) : Char := Char.ofNat (48 + n % 10)

/-- `'%0wd' % n` for numbers with at most `w` digits; so also `%Y`, `%m`, `%d`, `%H`, `%M` and `%S` of `strftime`. -/
def dec : Nat → Nat → Str
  | 0, _ => []
  | w + 1, n => dec w (n / 10) ++ [digit n]

/-- `time.gmtime()` (`tm_wday`: Monday is 0). -/
structure Utc where
  year : Nat
  month : Nat
  day : Nat
  hour : Nat
  minute : Nat
  second : Nat
  wday : Nat
deriving DecidableEq

/-- `time.strftime('%Y%m%d', now)` (backends/s3c4.py:169). -/
def Utc.ymd (t : Utc) : Str := dec 4 t.year ++ dec 2 t.month ++ dec 2 t.day

/-- The second half of `time.strftime('%Y%m%dT%H%M%SZ', now)` (backends/s3c4.py:170). -/
def Utc.hms (t : Utc) : Str := dec 2 t.hour ++ dec 2 t.minute ++ dec 2 t.second

/-- The `Authorization` header of version 4 (backends/s3c4.py:225-238). -/
def authText (login region : Str) (t : Utc) (signed : List Str) (sig : Str) : Str :=
  "AWS4-HMAC-SHA256 ".toList ++ ("Credential=".toList ++ (login ++ '/' :: (dec 4 t.year ++ dec 2 t.month ++ dec 2 t.day ++ '/' ::
    (region ++ "/s3/aws4_request".toList)))) ++ ',' :: ("SignedHeaders=".toList ++ join ';' signed ++ ',' :: ("Signature=".toList ++ sig))

/-- A request as it is sent. -/
structure Wire where
  method : Str
  target : Str
  headers : Hdrs
deriving DecidableEq

/-- `_do_request_inner` with version 4 signatures (backends/s3c.py:649-690, backends/s3c4.py:160-238): `request4` with the header in
its text form, which is set before `send_request` adds its headers. -/
def wire4 (cr : Crypto) (c : Cfg) (st : SigState) (method path : Str) (h : Hdrs) (subres : Option Str) (q : List (Str × Str)) (len : Str)
    (expect : Bool) (t : Utc) : Wire × SigState :=
  let hs := signHeaders c h t.ymd t.hms
  let a := authorize cr c st method (c.s3.reqPath path) hs subres q t.ymd t.hms
  (⟨method, c.s3.target path subres q, sendHeaders c (hset hs sAuth (authText c.login st.region t a.1.signed a.1.signature)) len expect⟩, a.2)

/-- `C_DAY_NAMES`, `C_MONTH_NAMES` (backends/s3c.py:63-64). -/
def dayNames : List Str := ["Mon".toList, "Tue".toList, "Wed".toList, "Thu".toList, "Fri".toList, "Sat".toList, "Sun".toList]
def monthNames : List Str := ["Jan".toList, "Feb".toList, "Mar".toList, "Apr".toList, "May".toList, "Jun".toList, "Jul".toList, "Aug".toList,
  "Sep".toList, "Oct".toList, "Nov".toList, "Dec".toList]

/-- The `Date` header of version 2 (backends/s3c.py:610-620). -/
def dateText (t : Utc) : Str :=
  (dayNames[t.wday]?).getD [] ++ ", ".toList ++ dec 2 t.day ++ [' '] ++ (monthNames[t.month - 1]?).getD [] ++ [' '] ++ dec 4 t.year ++ [' '] ++
    dec 2 t.hour ++ [':'] ++ dec 2 t.minute ++ [':'] ++ dec 2 t.second ++ " GMT".toList

/-- `_do_request_inner` with version 2 signatures (backends/s3c.py:598-690).  `mac`: HMAC-SHA1 in Base64, for a password. -/
def wire2 (mac : Str → List Byte → Str) (b : S3c) (login password method path : Str) (h : Hdrs) (subres : Option Str) (q : List (Str × Str))
    (len : Str) (expect : Bool) (t : Utc) : Wire :=
  let hs := hset (hset h sHost b.hostname) "date".toList (dateText t)
  let text := "AWS ".toList ++ login ++ ':' :: mac password (utf8 (sign2 b method (b.reqPath path) hs subres))
  ⟨method, b.target path subres q, sendHeaders ⟨b, 443, true, [], []⟩ (hset hs sAuth text) len expect⟩

/-- What can happen to a backend: a request at some time, or a server that sends it to another host, port and region
(`_discover_region`, backends/s3.py:130-140, backends/b2ng.py:158-168). -/
inductive WEvent where
  | request (method path : Str) (h : Hdrs) (subres : Option Str) (q : List (Str × Str)) (len : Str) (expect : Bool) (t : Utc)
  | retarget (host : Str) (port : Nat) (region : Str)

/-- The backend after it was sent elsewhere. -/
def Cfg.at (c : Cfg) (host : Str) (port : Nat) : Cfg := { c with s3 := { c.s3 with hostname := host }, port := port }

/-- The requests sent in a history, with the region and the time of each. -/
def wireHistory (cr : Crypto) : Cfg → SigState → List WEvent → List (Str × Utc × Wire)
  | _, _, [] => []
  | c, st, .request method path h subres q len ex t :: es =>
    let r := wire4 cr c st method path h subres q len ex t
    (st.region, t, r.1) :: wireHistory cr c r.2 es
  | c, st, .retarget host port r :: es => wireHistory cr (c.at host port) (if r ≠ st.region then ⟨r, none⟩ else st) es

/-! ### Specification: the server -/

/-- The number that a text of digits stands for. -/
def num (s : Str) : Option Nat :=
  if s.all (fun c => '0' ≤ c && c ≤ '9') then some (s.foldl (fun n c => n * 10 + (c.toNat - 48)) 0) else none

/-- `prefix` taken off. -/
def after (p s : Str) : Option Str := if p.isPrefixOf s then some (s.drop p.length) else none

/-- Days before a year, since the year 1 (Gregorian calendar). -/
def daysBeforeYear (y : Nat) : Nat := 365 * (y - 1) + (y - 1) / 4 - (y - 1) / 100 + (y - 1) / 400

def leapYear (y : Nat) : Bool := decide (y % 4 = 0 ∧ (y % 100 ≠ 0 ∨ y % 400 = 0))

/-- Days before a month. -/
def daysBeforeMonth (leap : Bool) (m : Nat) : Nat :=
  (([31, if leap then 29 else 28, 31, 30, 31, 30, 31, 31, 30, 31, 30, 31] : List Nat).take (m - 1)).sum

/-- Days since 1 January of the year 1, which was a Monday. -/
def days (y m d : Nat) : Nat := daysBeforeYear y + daysBeforeMonth (leapYear y) m + (d - 1)

/-- Seconds since the beginning of the year 1. -/
def seconds (y m d hh mm ss : Nat) : Nat := ((days y m d * 24 + hh) * 60 + mm) * 60 + ss

/-- A date and time that a clock can show. -/
def Utc.Ok (t : Utc) : Prop := t.year ≤ 9999 ∧ 1 ≤ t.month ∧ t.month ≤ 12 ∧ t.day ≤ 31 ∧ t.hour ≤ 23 ∧ t.minute ≤ 59 ∧ t.second ≤ 61 ∧
  t.wday = days t.year t.month t.day % 7

def Utc.clock (t : Utc) : Nat := seconds t.year t.month t.day t.hour t.minute t.second

/-- A time in the form `YYYYMMDDTHHMMSSZ`. -/
def parseIso (s : Str) : Option Nat :=
  if s.length = 16 ∧ s[8]? = some 'T' ∧ s[15]? = some 'Z' then
    match num (s.take 4), num ((s.drop 4).take 2), num ((s.drop 6).take 2), num ((s.drop 9).take 2), num ((s.drop 11).take 2), num ((s.drop 13).take 2) with
    | some y, some m, some d, some hh, some mm, some ss => some (seconds y m d hh mm ss)
    | _, _, _, _, _, _ => none
  else none

/-- The month of an abbreviation (RFC 1123). -/
def monthOf (s : Str) : Option Nat :=
  [("Jan", 1), ("Feb", 2), ("Mar", 3), ("Apr", 4), ("May", 5), ("Jun", 6), ("Jul", 7), ("Aug", 8), ("Sep", 9), ("Oct", 10), ("Nov", 11), ("Dec", 12)].findSome?
    (fun e : String × Nat => if e.1.toList = s then some e.2 else none)

/-- The abbreviation of a day of the week, by the number of days since a Monday. -/
def dayName (n : Nat) : Str :=
  match n % 7 with
  | 0 => "Mon".toList
  | 1 => "Tue".toList
  | 2 => "Wed".toList
  | 3 => "Thu".toList
  | 4 => "Fri".toList
  | 5 => "Sat".toList
  | _ => "Sun".toList

/-- A time in the form `Wdy, DD Mon YYYY HH:MM:SS GMT` (RFC 1123); the day of the week must be right. -/
def parseHttpDate (s : Str) : Option Nat :=
  if s.length = 29 ∧ (s.drop 3).take 2 = ", ".toList ∧ s[7]? = some ' ' ∧ s[11]? = some ' ' ∧ s[16]? = some ' ' ∧ s[19]? = some ':' ∧
      s[22]? = some ':' ∧ s.drop 25 = " GMT".toList then
    match num ((s.drop 5).take 2), monthOf ((s.drop 8).take 3), num ((s.drop 12).take 4), num ((s.drop 17).take 2), num ((s.drop 20).take 2),
      num ((s.drop 23).take 2) with
    | some d, some m, some y, some hh, some mm, some ss => if s.take 3 = dayName (days y m d) then some (seconds y m d hh mm ss) else none
    | _, _, _, _, _, _ => none
  else none

/-- The server's clock and the time of the request differ by at most fifteen minutes. -/
def inTime (now : Nat) : Option Nat → Bool
  | some s => decide (s ≤ now + 900 ∧ now ≤ s + 900)
  | none => false

/-- `login/date/region/s3/aws4_request`. -/
def parseCred (s : Str) : Option (Str × Str × Str) :=
  match splitOn '/' s with
  | [login, date, region, svc, fin] => if svc = "s3".toList ∧ fin = "aws4_request".toList then some (login, date, region) else none
  | _ => none

/-- The `Authorization` header, version 4: `AWS4-HMAC-SHA256 Credential=…,SignedHeaders=…,Signature=…`. -/
def parseAuth (s : Str) : Option Auth :=
  match (after "AWS4-HMAC-SHA256 ".toList s).map (splitOn ',') with
  | some [a, b, d] =>
    match (after "Credential=".toList a).bind parseCred, after "SignedHeaders=".toList b, after "Signature=".toList d with
    | some (login, date, region), some names, some sig => some ⟨login, date, region, splitOn ';' names, sig⟩
    | _, _, _ => none
  | _ => none

/-- The decision of a server that verifies version 4. -/
def server4 (cr : Crypto) (login password region : Str) (now : Nat) (w : Wire) : Bool :=
  match (hget w.headers sAuth).bind parseAuth with
  | none => false
  | some a => accepts cr login password region ⟨w.method, w.target, hpop w.headers sAuth, a⟩ && inTime now ((hget w.headers sDate).bind parseIso)

/-- The decision of a server that verifies version 2. -/
def server2 (mac : Str → List Byte → Str) (base login password : Str) (now : Nat) (w : Wire) : Bool :=
  match ((hget w.headers sAuth).bind (after "AWS ".toList)).map (cut ':') with
  | some (l, some sig) => decide (l = login) && decide (sig = mac password (utf8 (string2 base w.method w.target (hpop w.headers sAuth)))) &&
      inTime now ((hget w.headers "date".toList).bind parseHttpDate)
  | _ => false

/-! ### Lemmas: texts -/

theorem digit_ok (n : Nat) : ('0' ≤ digit n && digit n ≤ '9') = true ∧ (digit n).toNat - 48 = n % 10 ∧ pySpace (digit n) = false ∧ digit n ≠ '/' ∧ digit n ≠ ',' := by
  have key : ∀ k : Fin 10, ('0' ≤ Char.ofNat (48 + k.val) && Char.ofNat (48 + k.val) ≤ '9') = true ∧ (Char.ofNat (48 + k.val)).toNat - 48 = k.val ∧
      pySpace (Char.ofNat (48 + k.val)) = false ∧ Char.ofNat (48 + k.val) ≠ '/' ∧ Char.ofNat (48 + k.val) ≠ ',' := by decide
  exact key ⟨n % 10, Nat.mod_lt _ (by decide)⟩

theorem dec_mem {c : Char} : ∀ (w n : Nat), c ∈ dec w n → ∃ k, c = digit k
  | 0, _, h => by cases h
  | w + 1, n, h => by
    rcases List.mem_append.1 h with h | h
    · exact dec_mem w _ h
    · exact ⟨n, List.mem_singleton.1 h⟩

theorem dec_length : ∀ (w n : Nat), (dec w n).length = w
  | 0, _ => rfl
  | w + 1, n => by simp [dec, dec_length w]

theorem num_dec (w n : Nat) (h : n < 10 ^ w) : num (dec w n) = some n := by
  have h1 : (dec w n).all (fun c => '0' ≤ c && c ≤ '9') = true := by
    rw [List.all_eq_true]
    intro c hc
    obtain ⟨k, rfl⟩ := dec_mem w n hc
    exact (digit_ok k).1
  have h2 : ∀ (w n : Nat), n < 10 ^ w → (dec w n).foldl (fun n c => n * 10 + (c.toNat - 48)) 0 = n := by
    intro w
    induction w with
    | zero => intro n hn; have : n = 0 := by simpa using hn
              rw [this]; rfl
    | succ w ih =>
      intro n hn
      rw [dec, List.foldl_append, ih (n / 10) (by rw [Nat.pow_succ] at hn; omega)]
      show n / 10 * 10 + ((digit n).toNat - 48) = n
      rw [(digit_ok n).2.1]; omega
  unfold num
  rw [if_pos h1, h2 w n h]

theorem after_append (p s : Str) : after p (p ++ s) = some s := by
  unfold after
  rw [if_pos (List.isPrefixOf_iff_prefix.2 (List.prefix_append _ _)), List.drop_left]

theorem iso_text (t : Utc) (ht : t.Ok) : parseIso (t.ymd ++ 'T' :: (t.hms ++ ['Z'])) = some t.clock := by
  obtain ⟨h1, h2, h3, h4, h5, h6, h7, _⟩ := ht
  have e1 := num_dec 4 t.year (by omega)
  have e2 := num_dec 2 t.month (by omega)
  have e3 := num_dec 2 t.day (by omega)
  have e4 := num_dec 2 t.hour (by omega)
  have e5 := num_dec 2 t.minute (by omega)
  have e6 := num_dec 2 t.second (by omega)
  unfold parseIso
  rw [if_pos ⟨by simp [Utc.ymd, Utc.hms, dec_length], rfl, rfl⟩]
  show (match num (dec 4 t.year), num (dec 2 t.month), num (dec 2 t.day), num (dec 2 t.hour), num (dec 2 t.minute), num (dec 2 t.second) with
    | some y, some m, some d, some hh, some mm, some ss => some (seconds y m d hh mm ss)
    | _, _, _, _, _, _ => none) = some t.clock
  rw [e1, e2, e3, e4, e5, e6]
  rfl

theorem day_text (n : Nat) : (dayNames[n % 7]?).getD [] = dayName n := by
  have key : ∀ k : Fin 7, (dayNames[k.val]?).getD [] = dayName k.val := by decide
  have := key ⟨n % 7, Nat.mod_lt _ (by decide)⟩
  rw [this]
  show dayName (n % 7) = dayName n
  unfold dayName
  rw [Nat.mod_mod]

theorem month_text (m : Nat) (h1 : 1 ≤ m) (h2 : m ≤ 12) : ∃ a b c, (monthNames[m - 1]?).getD [] = [a, b, c] ∧ monthOf [a, b, c] = some m := by
  have key : ∀ k : Fin 12, ((monthNames[k.val]?).getD []).length = 3 ∧ monthOf ((monthNames[k.val]?).getD []) = some (k.val + 1) := by decide
  obtain ⟨h3, h4⟩ := key ⟨m - 1, by omega⟩
  dsimp only at h3 h4
  rw [show m - 1 + 1 = m by omega] at h4
  match hl : (monthNames[m - 1]?).getD [], h3, h4 with
  | [a, b, c], _, h4 => exact ⟨a, b, c, rfl, h4⟩

theorem dayName_three (n : Nat) : ∃ a b c, dayName n = [a, b, c] := by
  unfold dayName
  split <;> exact ⟨_, _, _, rfl⟩

theorem http_shape (x y z d1 d2 a b c y1 y2 y3 y4 h1 h2 m1 m2 s1 s2 : Char) :
    parseHttpDate [x, y, z, ',', ' ', d1, d2, ' ', a, b, c, ' ', y1, y2, y3, y4, ' ', h1, h2, ':', m1, m2, ':', s1, s2, ' ', 'G', 'M', 'T'] =
    (match num [d1, d2], monthOf [a, b, c], num [y1, y2, y3, y4], num [h1, h2], num [m1, m2], num [s1, s2] with
    | some d, some m, some y', some hh, some mm, some ss => if [x, y, z] = dayName (days y' m d) then some (seconds y' m d hh mm ss) else none
    | _, _, _, _, _, _ => none) := by
  unfold parseHttpDate
  exact if_pos ⟨rfl, rfl, rfl, rfl, rfl, rfl, rfl, rfl⟩

theorem dec2 (n : Nat) : dec 2 n = [digit (n / 10), digit n] := rfl
theorem dec4 (n : Nat) : dec 4 n = [digit (n / 10 / 10 / 10), digit (n / 10 / 10), digit (n / 10), digit n] := rfl

theorem http_text (t : Utc) (ht : t.Ok) : parseHttpDate (dateText t) = some t.clock := by
  obtain ⟨h1, h2, h3, h4, h5, h6, h7, h8⟩ := ht
  have e1 := num_dec 4 t.year (by omega)
  have e3 := num_dec 2 t.day (by omega)
  have e4 := num_dec 2 t.hour (by omega)
  have e5 := num_dec 2 t.minute (by omega)
  have e6 := num_dec 2 t.second (by omega)
  obtain ⟨a, b, c, hm, e2⟩ := month_text t.month h2 h3
  have hd := day_text (days t.year t.month t.day)
  rw [← h8] at hd
  obtain ⟨x, y, z, hx⟩ := dayName_three (days t.year t.month t.day)
  rw [dec2] at e3 e4 e5 e6
  rw [dec4] at e1
  unfold dateText Utc.clock
  rw [hd, hm, hx, dec2, dec2, dec2, dec2, dec4]
  generalize digit (t.day / 10) = d1 at *
  generalize digit t.day = d2 at *
  generalize digit (t.hour / 10) = d3 at *
  generalize digit t.hour = d4 at *
  generalize digit (t.minute / 10) = d5 at *
  generalize digit t.minute = d6 at *
  generalize digit (t.second / 10) = d7 at *
  generalize digit t.second = d8 at *
  generalize digit (t.year / 10 / 10 / 10) = y1 at *
  generalize digit (t.year / 10 / 10) = y2 at *
  generalize digit (t.year / 10) = y3 at *
  generalize digit t.year = y4 at *
  refine (http_shape x y z d1 d2 a b c y1 y2 y3 y4 d3 d4 d5 d6 d7 d8).trans ?_
  rw [e1, e2, e3, e4, e5, e6]
  exact if_pos hx.symm

/-- The server reads the header as it was meant. -/
theorem auth_text (login region : Str) (t : Utc) (signed : List Str) (sig : Str) (h1 : '/' ∉ login ∧ ',' ∉ login) (h2 : '/' ∉ region ∧ ',' ∉ region)
    (h3 : signed ≠ []) (h4 : ∀ n ∈ signed, ',' ∉ n ∧ ';' ∉ n) (h5 : ',' ∉ sig) :
    parseAuth (authText login region t signed sig) = some ⟨login, t.ymd, region, signed, sig⟩ := by
  have hdate : '/' ∉ t.ymd ∧ ',' ∉ t.ymd := by
    unfold Utc.ymd
    simp only [List.mem_append, not_or]
    have hh : ∀ w n, '/' ∉ dec w n ∧ ',' ∉ dec w n := fun w n =>
      ⟨fun h => by obtain ⟨k, hk⟩ := dec_mem w n h; exact (digit_ok k).2.2.2.1 hk.symm, fun h => by obtain ⟨k, hk⟩ := dec_mem w n h; exact (digit_ok k).2.2.2.2 hk.symm⟩
    exact ⟨⟨⟨(hh _ _).1, (hh _ _).1⟩, (hh _ _).1⟩, ⟨(hh _ _).2, (hh _ _).2⟩, (hh _ _).2⟩
  have hcred : parseCred (login ++ '/' :: (t.ymd ++ '/' :: (region ++ "/s3/aws4_request".toList))) = some (login, t.ymd, region) := by
    unfold parseCred
    rw [splitOn_append _ h1.1, splitOn_append _ hdate.1,
      show region ++ "/s3/aws4_request".toList = region ++ '/' :: ("s3".toList ++ '/' :: "aws4_request".toList) from rfl,
      splitOn_append _ h2.1, splitOn_append _ (by decide), splitOn_none (by decide)]
    rfl
  have hc : ',' ∉ "Credential=".toList ++ (login ++ '/' :: (t.ymd ++ '/' :: (region ++ "/s3/aws4_request".toList))) := by
    simp only [List.mem_append, List.mem_cons, not_or]
    exact ⟨by decide, h1.2, by decide, hdate.2, by decide, h2.2, by decide⟩
  have hn : ',' ∉ "SignedHeaders=".toList ++ join ';' signed := by
    rw [List.mem_append, not_or]
    refine ⟨by decide, fun h => ?_⟩
    obtain ⟨p, hp, hpc⟩ := mem_join (by decide) signed h
    exact (h4 p hp).1 hpc
  have hg : ',' ∉ "Signature=".toList ++ sig := by
    rw [List.mem_append, not_or]
    exact ⟨by decide, h5⟩
  have e : authText login region t signed sig = "AWS4-HMAC-SHA256 ".toList ++
      (("Credential=".toList ++ (login ++ '/' :: (t.ymd ++ '/' :: (region ++ "/s3/aws4_request".toList)))) ++ ',' ::
        (("SignedHeaders=".toList ++ join ';' signed) ++ ',' :: ("Signature=".toList ++ sig))) := by
    unfold authText Utc.ymd
    rw [List.append_assoc]
  unfold parseAuth
  rw [e, after_append, Option.map_some, splitOn_append _ hc, splitOn_append _ hn, splitOn_none hg]
  dsimp only
  rw [after_append, after_append, after_append, Option.bind_some, hcred]
  dsimp only
  rw [splitOn_join signed h3 (fun p hp => (h4 p hp).2)]

/-! ### Lemmas: headers -/

theorem any_hpop (h : Hdrs) (n m : Str) (hn : n ≠ m) : (hpop h m).any (fun e => e.1 = n) = h.any (fun e => e.1 = n) := by
  rw [Bool.eq_iff_iff]
  simp only [List.any_eq_true, hpop, List.mem_filter]
  constructor
  · rintro ⟨e, ⟨he, _⟩, hx⟩; exact ⟨e, he, hx⟩
  · rintro ⟨e, he, hx⟩
    refine ⟨e, ⟨he, ?_⟩, hx⟩
    have := of_decide_eq_true hx
    simp [this, hn]

theorem hpop_append (a b : Hdrs) (m : Str) : hpop (a ++ b) m = hpop a m ++ hpop b m := List.filter_append ..

theorem hpop_hset (h : Hdrs) (n v m : Str) (hn : n ≠ m) : hpop (hset h n v) m = hset (hpop h m) n v := by
  unfold hset
  rw [any_hpop h n m hn]
  split
  · unfold hpop
    rw [List.filter_map]
    congr 1
    apply List.filter_congr
    intro e _
    simp only [Function.comp]
    split
    · rename_i he; rw [he]
    · rfl
  · rw [hpop_append]
    congr 1
    simp [hpop, hn]

theorem hpop_hdefault (h : Hdrs) (n v m : Str) (hn : n ≠ m) : hpop (hdefault h n v) m = hdefault (hpop h m) n v := by
  unfold hdefault
  rw [any_hpop h n m hn]
  split
  · rfl
  · rw [hpop_append]
    congr 1
    simp [hpop, hn]

theorem hpop_of_not (h : Hdrs) (m : Str) (hm : m ∉ h.map (·.1)) : hpop h m = h := by
  unfold hpop
  apply List.filter_eq_self.2
  intro e he
  have : e.1 ≠ m := fun h' => hm (List.mem_map.2 ⟨e, he, h'⟩)
  simp [this]

theorem hpop_hset_same (h : Hdrs) (m v : Str) (hm : m ∉ h.map (·.1)) : hpop (hset h m v) m = h := by
  have : h.any (fun e => e.1 = m) = false := by
    rw [Bool.eq_false_iff]
    intro ha
    obtain ⟨e, he, hx⟩ := List.any_eq_true.1 ha
    exact hm (List.mem_map.2 ⟨e, he, of_decide_eq_true hx⟩)
  unfold hset
  rw [if_neg (by rw [this]; decide), hpop_append, hpop_of_not h m hm]
  simp [hpop]

/-- Without the `Authorization` header, the headers are those of the requests of the first part. -/
theorem send_pop (c : Cfg) (H : Hdrs) (hH : sAuth ∉ H.map (·.1)) (v len : Str) (ex : Bool) :
    hpop (sendHeaders c (hset H sAuth v) len ex) sAuth = sendHeaders c H len ex := by
  unfold sendHeaders
  dsimp only
  rw [hpop_hdefault _ _ _ _ (by decide), hpop_hdefault _ _ _ _ (by decide), hpop_hset _ _ _ _ (by decide)]
  split
  · rw [hpop_hset _ _ _ _ (by decide), hpop_hset _ _ _ _ (by decide), hpop_hset_same _ _ _ hH]
  · rw [hpop_hset _ _ _ _ (by decide), hpop_hset_same _ _ _ hH]

theorem send_auth (c : Cfg) (H : Hdrs) (v len : Str) (ex : Bool) : hget (sendHeaders c (hset H sAuth v) len ex) sAuth = some v := by
  unfold sendHeaders
  dsimp only
  rw [hget_hdefault, if_neg (fun h => absurd h.1 (by decide)), hget_hdefault, if_neg (fun h => absurd h.1 (by decide)), hget_hset, if_neg (by decide)]
  split
  · rw [hget_hset, if_neg (by decide), hget_hset, if_neg (by decide), hget_hset, if_pos rfl]
  · rw [hget_hset, if_neg (by decide), hget_hset, if_pos rfl]

/-! ### C69, version 4 -/

/-- A host that can be named in a header, reached with encryption or on a port other than 80 and 443. -/
def Reachable (ssl : Bool) (host : Str) (port : Nat) : Prop :=
  (ssl = true ∨ (port ≠ 80 ∧ port ≠ 443)) ∧ CleanVal host ∧ CleanVal (host ++ ':' :: (Nat.repr port).toList)

/-- The events are as the backends and servers make them. -/
def WEventOk (ssl : Bool) : WEvent → Prop
  | .request _ _ h subres q len ex t => Given h len ex ∧ (∀ n ∈ h.map (·.1), ',' ∉ n ∧ ';' ∉ n) ∧ (∀ s, subres = some s → Plain s) ∧ Names subres q ∧ t.Ok
  | .retarget host port region => Reachable ssl host port ∧ '/' ∉ region ∧ ',' ∉ region

theorem time_ok (c : Cfg) (hc : Reachable c.ssl c.s3.hostname c.port) (t : Utc) : TimeOk c t.ymd t.hms := by
  refine ⟨by simp [Utc.ymd, dec_length], ⟨fun x hx => ?_, fun x hx => ?_⟩, hc.2.1, hc.2.2⟩
  · have : some (digit (t.year / 10 / 10 / 10)) = some x := hx
    rw [← Option.some.inj this]; exact (digit_ok _).2.2.1
  · have e : t.ymd ++ 'T' :: (t.hms ++ ['Z']) = (t.ymd ++ 'T' :: t.hms) ++ ['Z'] := by simp
    rw [e, List.getLast?_append] at hx
    have : some 'Z' = some x := hx
    rw [← Option.some.inj this]; decide

theorem wire_accepted (cr : Crypto) (hx : ∀ b, ',' ∉ cr.hex b) (c : Cfg) (hl : '/' ∉ c.login ∧ ',' ∉ c.login)
    (hc : Reachable c.ssl c.s3.hostname c.port) (st : SigState) (hr : '/' ∉ st.region ∧ ',' ∉ st.region) (hk : KeyOk cr c st)
    (method path : Str) (h : Hdrs) {len : Str} {ex : Bool} (hg : Given h len ex) (hh : ∀ n ∈ h.map (·.1), ',' ∉ n ∧ ';' ∉ n)
    (subres : Option Str) (hs : ∀ s, subres = some s → Plain s) (q : List (Str × Str)) (hn : Names subres q) (t : Utc) (ht : t.Ok) (now : Nat) :
    server4 cr c.login c.password st.region now (wire4 cr c st method path h subres q len ex t).1 = true ↔
      t.clock ≤ now + 900 ∧ now ≤ t.clock + 900 := by
  have hto := time_ok c hc t
  have hacc := request_accepted cr c hc.1 st hk method path h hg subres hs q hn t.ymd t.hms hto
  unfold request4 at hacc
  dsimp only at hacc
  have hkeys : sAuth ∉ (signHeaders c h t.ymd t.hms).map (·.1) := fun hm => ((sign_keys _ _ _ _ _).1 hm).1 rfl
  have hnames : ∀ n ∈ isort strLe ((signHeaders c h t.ymd t.hms).map (·.1)), ',' ∉ n ∧ ';' ∉ n := by
    intro n hn'
    rcases ((sign_keys _ _ _ _ _).1 ((mem_isort _ _ _).1 hn')).2 with rfl | rfl | rfl | h'
    · decide
    · decide
    · decide
    · exact hh n h'
  have hne : isort strLe ((signHeaders c h t.ymd t.hms).map (·.1)) ≠ [] := by
    intro e
    have : sHost ∈ isort strLe ((signHeaders c h t.ymd t.hms).map (·.1)) := (mem_isort _ _ _).2 ((sign_keys _ _ _ _ _).2 ⟨by decide, Or.inl rfl⟩)
    rw [e] at this; cases this
  have hparse := auth_text c.login st.region t _ (authorize cr c st method (c.s3.reqPath path) (signHeaders c h t.ymd t.hms) subres q t.ymd t.hms).1.signature
    hl hr hne hnames (hx _)
  have hdate : ∀ v, hget (sendHeaders c (hset (signHeaders c h t.ymd t.hms) sAuth v) len ex) sDate = some (t.ymd ++ 'T' :: (t.hms ++ ['Z'])) := by
    intro v
    have hd : sDate ∈ (signHeaders c h t.ymd t.hms).map (·.1) := (sign_keys _ _ _ _ _).2 ⟨by decide, Or.inr (Or.inl rfl)⟩
    rw [← hget_hpop _ sAuth sDate (by decide), send_pop c _ hkeys, send_get c h hg t.ymd t.hms sDate hd (by decide), sign_get _ _ _ _ _ (by decide),
      if_neg (by decide), if_pos rfl]
  unfold server4 wire4
  dsimp only
  rw [send_auth, Option.bind_some]
  rw [show (authorize cr c st method (c.s3.reqPath path) (signHeaders c h t.ymd t.hms) subres q t.ymd t.hms).1.signed =
    isort strLe ((signHeaders c h t.ymd t.hms).map (·.1)) from rfl, hparse]
  dsimp only
  rw [send_pop c _ hkeys, hdate, Option.bind_some, iso_text t ht]
  rw [show accepts cr c.login c.password st.region ⟨method, c.s3.target path subres q, sendHeaders c (signHeaders c h t.ymd t.hms) len ex,
    ⟨c.login, t.ymd, st.region, isort strLe ((signHeaders c h t.ymd t.hms).map (·.1)),
      (authorize cr c st method (c.s3.reqPath path) (signHeaders c h t.ymd t.hms) subres q t.ymd t.hms).1.signature⟩⟩ = true from hacc, Bool.true_and]
  exact decide_eq_true_iff

/-- **C69**, version 4, as it is sent: in every history of requests, clock readings and servers that send the client elsewhere, the server reads
the header of every request as it was meant and accepts the request, exactly if its clock is not more than fifteen minutes away. -/
theorem C69_v4_wire_partial (cr : Crypto) (hx : ∀ b, ',' ∉ cr.hex b) (c : Cfg) (hl : '/' ∉ c.login ∧ ',' ∉ c.login)
    (hc : Reachable c.ssl c.s3.hostname c.port) (region : Str) (hr : '/' ∉ region ∧ ',' ∉ region) (es : List WEvent)
    (he : ∀ e ∈ es, WEventOk c.ssl e) :
    ∀ r ∈ wireHistory cr c ⟨region, none⟩ es, ∀ now : Nat, server4 cr c.login c.password r.1 now r.2.2 = true ↔
      r.2.1.clock ≤ now + 900 ∧ now ≤ r.2.1.clock + 900 := by
  have main : ∀ (es : List WEvent) (c : Cfg), (∀ e ∈ es, WEventOk c.ssl e) → ('/' ∉ c.login ∧ ',' ∉ c.login) → Reachable c.ssl c.s3.hostname c.port →
      ∀ st, KeyOk cr c st → ('/' ∉ st.region ∧ ',' ∉ st.region) → ∀ r ∈ wireHistory cr c st es, ∀ now : Nat,
        server4 cr c.login c.password r.1 now r.2.2 = true ↔ r.2.1.clock ≤ now + 900 ∧ now ≤ r.2.1.clock + 900 := by
    intro es
    induction es with
    | nil => intro _ _ _ _ _ _ _ r hr; cases hr
    | cons e es ih =>
      intro c he hl hc st hk hreg r hr now
      have he' : ∀ e ∈ es, WEventOk c.ssl e := fun x hx => he x (List.mem_cons_of_mem _ hx)
      cases e with
      | request method path h subres q len ex t =>
        obtain ⟨h1, h2, h3, h4, h5⟩ := he _ List.mem_cons_self
        rcases List.mem_cons.1 hr with rfl | hr
        · exact wire_accepted cr hx c hl hc st hreg hk method path h h1 h2 subres h3 q h4 t h5 now
        · have ha := authorize_key cr c st hk method (c.s3.reqPath path) (signHeaders c h t.ymd t.hms) subres q t.ymd t.hms
          refine ih c he' hl hc _ ha.2.1 ?_ r hr now
          show _ ∉ (authorize cr c st method (c.s3.reqPath path) (signHeaders c h t.ymd t.hms) subres q t.ymd t.hms).2.region ∧
            _ ∉ (authorize cr c st method (c.s3.reqPath path) (signHeaders c h t.ymd t.hms) subres q t.ymd t.hms).2.region
          rw [ha.2.2]; exact hreg
      | retarget host port rg =>
        obtain ⟨h1, h2⟩ := he _ List.mem_cons_self
        refine ih (c.at host port) he' hl h1 _ ?_ ?_ r hr now
        · split
          · intro k d hkd; cases hkd
          · exact hk
        · split
          · exact h2
          · exact hreg
  exact main es c he hl hc _ (fun k d hkd => by cases hkd) hr

/-! ### C69, version 2 -/

/-- **C69**, version 2, as it is sent: the server reads the header and the date of every request as they were meant, finds the right day of the
week, and accepts the request, exactly if its clock is not more than fifteen minutes away. -/
theorem C69_v2_wire_partial (mac : Str → List Byte → Str) (base : Str) (b : S3c) (hu : Usable base b) (hb : b.hostname ≠ base → Plain b.bucket)
    (login password method rest : Str) (hl : ':' ∉ login) (h : Hdrs) (hg : Given2 h) (ha : sAuth ∉ h.map (·.1)) (subres : Option Str)
    (hs : ∀ s, subres = some s → Plain s ∧ s ∈ subresources) (q : List (Str × Str)) (hq : NoSubs q) (len : Str) (ex : Bool) (t : Utc) (ht : t.Ok)
    (now : Nat) :
    server2 mac base login password now (wire2 mac b login password method ('/' :: rest) h subres q len ex t) = true ↔
      t.clock ≤ now + 900 ∧ now ≤ t.clock + 900 := by
  have hsig := C69_v2_signed_partial base b hu hb method rest h hg subres hs q hq (dateText t) len ex
  unfold request2 at hsig
  dsimp only at hsig
  have hkeys : sAuth ∉ (hset (hset h sHost b.hostname) "date".toList (dateText t)).map (·.1) := by
    rw [mem_keys_hset, mem_keys_hset]
    rintro (e | e | e)
    · exact absurd e (by decide)
    · exact absurd e (by decide)
    · exact ha e
  have hdate : hget (hset (hset h sHost b.hostname) "date".toList (dateText t)) "date".toList = some (dateText t) := by
    rw [hget_hset, if_pos rfl]
  unfold server2 wire2
  dsimp only
  generalize hset (hset h sHost b.hostname) "date".toList (dateText t) = H at hsig hkeys hdate ⊢
  have hsplit : ∀ sig : Str, (((some ("AWS ".toList ++ login ++ ':' :: sig)) : Option Str).bind (after "AWS ".toList)).map (cut ':') = some (login, some sig) := by
    intro sig
    rw [Option.bind_some, List.append_assoc, after_append, Option.map_some, cut_append _ hl]
  have hd' : ∀ v, hget (sendHeaders ⟨b, 443, true, [], []⟩ (hset H sAuth v) len ex) "date".toList = some (dateText t) := by
    intro v
    rw [send_get_none _ _ _ _ _ (by decide), hget_hset, if_neg (by decide), hdate]
  rw [send_auth, hsplit]
  dsimp only
  rw [send_pop _ _ hkeys, hsig, hd', Option.bind_some, http_text t ht, decide_eq_true rfl, decide_eq_true rfl, Bool.true_and, Bool.true_and]
  exact decide_eq_true_iff

/-! ### Examples -/

/-- A toy instance of the cryptographic functions that writes signatures without commas. -/
def toyText : Crypto := ⟨fun bs => bs.map (fun b => Char.ofNat b.toNat), fun k m => k ++ m, fun bs => bs.map (fun b => Char.ofNat (97 + b.toNat % 26))⟩

example : ∀ b, ',' ∉ toyText.hex b := by
  intro b hm
  obtain ⟨x, _, hx⟩ := List.mem_map.1 hm
  have key : ∀ k : Fin 26, Char.ofNat (97 + k.val) ≠ ',' := by decide
  exact key ⟨x.toNat % 26, Nat.mod_lt _ (by decide)⟩ hx

/-- Noon on 29 February 2024, a Thursday, and a second before the end of 2026, also a Thursday. -/
def exNoon : Utc := ⟨2024, 2, 29, 12, 0, 0, 3⟩
def exEve : Utc := ⟨2026, 12, 31, 23, 59, 59, 3⟩

example : exNoon.Ok ∧ exEve.Ok := by unfold Utc.Ok; decide
example : exEve.clock = exNoon.clock + 1036 * 86400 + 43199 := by decide
example : dateText exNoon = "Thu, 29 Feb 2024 12:00:00 GMT".toList ∧ exEve.ymd ++ 'T' :: (exEve.hms ++ ['Z']) = "20261231T235959Z".toList := by
  constructor <;> decide +kernel

/-- A request, a server that sends the client to another host in another region, and two more requests. -/
def exWire : List WEvent :=
  [.request "PUT".toList "/a b".toList [("content-type".toList, "text/xml; charset=utf-8".toList)] none [] "12".toList true exNoon,
   .retarget "s3.eu.example.com".toList 443 "eu".toList,
   .request "GET".toList "/".toList [] none [("prefix".toList, "a b".toList)] "0".toList false exNoon,
   .request "POST".toList "/".toList [("content-md5".toList, "x".toList)] (some "delete".toList) [] "30".toList false exEve]

def exTls : Cfg := ⟨exPath, 443, true, "me".toList, "secret".toList⟩

theorem reach_of (host : Str) (port : Nat) (h : (host.head?.map pySpace != some true && host.getLast?.map pySpace != some true) = true)
    (h' : ((host ++ ':' :: (Nat.repr port).toList).head?.map pySpace != some true &&
      (host ++ ':' :: (Nat.repr port).toList).getLast?.map pySpace != some true) = true) : Reachable true host port :=
  ⟨Or.inl rfl, cleanVal_of _ h, cleanVal_of _ h'⟩

example : Reachable exTls.ssl exTls.s3.hostname exTls.port := reach_of _ _ (by decide +kernel) (by decide +kernel)
example : ∀ e ∈ exWire, WEventOk exTls.ssl e := by
  intro e he
  unfold exWire at he
  simp only [List.mem_cons, List.not_mem_nil, or_false] at he
  have hok : exNoon.Ok ∧ exEve.Ok := by unfold Utc.Ok; decide
  rcases he with rfl | rfl | rfl | rfl
  · exact ⟨given_of _ (by decide +kernel) (by decide +kernel) _ _, (by decide +kernel), (fun _ h => by cases h), (by decide +kernel), hok.1⟩
  · exact ⟨reach_of _ _ (by decide +kernel) (by decide +kernel), (by decide +kernel), (by decide +kernel)⟩
  · exact ⟨given_of _ (by decide +kernel) (by decide +kernel) _ _, (by decide +kernel), (fun _ h => by cases h), (by decide +kernel), hok.1⟩
  · refine ⟨given_of _ (by decide +kernel) (by decide +kernel) _ _, (by decide +kernel), ?_, (by decide +kernel), hok.2⟩
    intro s hs
    have := Option.some.inj hs
    subst this
    decide +kernel
example : (wireHistory toyText exTls ⟨"us-east-1".toList, none⟩ exWire).map (fun r => (r.1, hget r.2.2.headers sHost,
    server4 toyText "me".toList "secret".toList r.1 (exNoon.clock + 900) r.2.2)) =
    [("us-east-1".toList, some "s3.example.com".toList, true), ("eu".toList, some "s3.eu.example.com".toList, true),
     ("eu".toList, some "s3.eu.example.com".toList, false)] := by decide +kernel

/-- A toy code for version 2. -/
def toyMac (p : Str) (m : List Byte) : Str := p ++ m.map (fun b => Char.ofNat b.toNat)

example : Usable "s3.example.com".toList exPath ∧ Given2 [("content-type".toList, "x".toList)] ∧ NoSubs [("prefix".toList, "p".toList)] := by
  refine ⟨Or.inl ⟨rfl, by decide +kernel⟩, fun n v hv => ?_, by unfold NoSubs; decide +kernel⟩
  unfold hget at hv
  obtain ⟨e, he, rfl⟩ := Option.map_eq_some_iff.1 hv
  have := List.mem_of_find?_eq_some he
  rw [List.mem_singleton.1 this]
  exact cleanVal_of _ (by decide +kernel)
example : [899, 900, 901].map (fun d => server2 toyMac "s3.example.com".toList "me".toList "secret".toList (exNoon.clock + d)
    (wire2 toyMac exPath "me".toList "secret".toList "GET".toList "/x".toList [] none [] "0".toList false exNoon)) = [true, true, false] := by
  decide +kernel

end Verif.Backend.Addr
