import Verif.Codec.Literal
import Verif.Backend.Percent
/-
Property C95: which servers S3QL connects to, and which connections are encrypted.

`urlsplit` is not modelled: the addresses that servers send are given by their parts.
-/
namespace Verif.Backend.Endpoint
open Verif.Codec (Str parseDigits decStr parse_decStr)

/-! ### Storage URLs -/

def isAlnum (c : Char) : Bool := ('a' ≤ c && c ≤ 'z') || ('A' ≤ c && c ≤ 'Z') || ('0' ≤ c && c ≤ '9')

def isDigit (c : Char) : Bool := '0' ≤ c && c ≤ '9'

/-- `^[a-zA-Z0-9]+://`: what follows. -/
def afterScheme (url : Str) : Option Str :=
  match url.takeWhile isAlnum, url.dropWhile isAlnum with
  | _ :: _, ':' :: '/' :: '/' :: r => some r
  | _, _ => none

/-- `s`, if it begins with `p`, without it. -/
def stripPrefix : Str → Str → Option Str
  | [], s => some s
  | c :: p, d :: s => if c = d then stripPrefix p s else none
  | _ :: _, [] => none

/-- `([0-9]+)/`. -/
def portDigits (t : Str) : Option (Option Nat × Str) :=
  match t.takeWhile isDigit, t.dropWhile isDigit with
  | d :: ds, '/' :: r => (parseDigits 8 (d :: ds)).map (fun n => (some n, r))
  | _, _ => none

/-- `(?::([0-9]+))?/`: the port, and what follows the slash.  (In the regular expression the port can not be shorter
than the digits, as a slash follows.) -/
def portSlash (s : Str) : Option (Option Nat × Str) :=
  match s with
  | '/' :: r => some (none, r)
  | ':' :: t => portDigits t
  | _ => none

/-- `(.*)$`: `$` also matches before a line break at the end. -/
def restOfLine (s : Str) : Option Str :=
  match s.takeWhile (· ≠ '\n'), s.dropWhile (· ≠ '\n') with
  | r, [] => some r
  | r, ['\n'] => some r
  | _, _ => none

/-- `([^/]+)(?:/(.*))?$`: the bucket, and the prefix. -/
def bucketPrefix (s : Str) : Option (Str × Str) :=
  match s.takeWhile (· ≠ '/'), s.dropWhile (· ≠ '/') with
  | [], _ => none
  | b, [] => some (b, [])
  | b, _ :: r => (restOfLine r).map (fun p => (b, p))

/-- What a storage URL says. -/
structure Place where
  host : Str
  port : Nat
  region : Str
  bucket : Str
  prfx : Str
deriving DecidableEq, Repr

def defaultPort (tls : Bool) : Nat := if tls then 443 else 80

/-- `_parse_storage_url` (s3c.py:154-189, swift.py:240-264). -/
def parseHost (ssl : Bool) (url : Str) : Option Place :=
  match afterScheme url with
  | none => none
  | some r =>
    match r.takeWhile (fun c => c ≠ '/' ∧ c ≠ ':'), portSlash (r.dropWhile (fun c => c ≠ '/' ∧ c ≠ ':')) with
    | _ :: _, some (port, s) =>
      (bucketPrefix s).map (fun bp =>
        { host := r.takeWhile (fun c => c ≠ '/' ∧ c ≠ ':'), port := port.getD (defaultPort ssl), region := [], bucket := bp.1, prfx := bp.2 })
    | _, _ => none

def isRegion (c : Char) : Bool := isAlnum c || c = '.' || c = '_' || c = '-'

/-- `_parse_storage_url` (swiftks.py:57-87). -/
def parseKs (ssl : Bool) (url : Str) : Option Place :=
  match afterScheme url with
  | none => none
  | some r =>
    match r.takeWhile (fun c => c ≠ '/' ∧ c ≠ ':'), portSlash (r.dropWhile (fun c => c ≠ '/' ∧ c ≠ ':')) with
    | _ :: _, some (port, s) =>
      match s.takeWhile isRegion, s.dropWhile isRegion with
      | _ :: _, ':' :: t =>
        (bucketPrefix t).map (fun bp =>
          { host := r.takeWhile (fun c => c ≠ '/' ∧ c ≠ ':'), port := port.getD (defaultPort ssl), region := s.takeWhile isRegion, bucket := bp.1, prfx := bp.2 })
      | _, _ => none
    | _, _ => none

/-- `_parse_storage_url` (rackspace.py:21-46). -/
def parseRackspace (ssl : Bool) (url : Str) : Option Place :=
  match stripPrefix "rackspace://".toList url with
  | none => none
  | some r =>
    match r.takeWhile (fun c => c ≠ '/' ∧ c ≠ ':'), r.dropWhile (fun c => c ≠ '/' ∧ c ≠ ':') with
    | _ :: _, '/' :: s =>
      (bucketPrefix s).map (fun bp =>
        { host := "auth.api.rackspacecloud.com".toList, port := defaultPort ssl, region := r.takeWhile (fun c => c ≠ '/' ∧ c ≠ ':'), bucket := bp.1, prfx := bp.2 })
    | _, _ => none

def s3Host (region : Str) : Str :=
  if "cn-".toList.isPrefixOf region then "s3.".toList ++ region ++ ".amazonaws.com.cn".toList
  else "s3.".toList ++ region ++ ".amazonaws.com".toList

/-- `_parse_storage_url` (s3.py:143-165).  `valid`: the check of the bucket name. -/
def parseS3 (valid : Str → Bool) (ssl : Bool) (url : Str) : Option Place :=
  match stripPrefix "s3".toList url with
  | none => none
  | some u =>
    match stripPrefix "://".toList (if u.head? = some 's' then u.drop 1 else u) with
    | none => none
    | some r =>
      match r.takeWhile (· ≠ '/'), r.dropWhile (· ≠ '/') with
      | _ :: _, _ :: s =>
        match bucketPrefix s with
        | some (b, p) =>
          if valid b then some { host := s3Host (r.takeWhile (· ≠ '/')), port := defaultPort ssl, region := r.takeWhile (· ≠ '/'), bucket := b, prfx := p }
          else none
        | none => none
      | _, _ => none

def b2Host (region : Str) : Str := "s3.".toList ++ region ++ ".backblazeb2.com".toList

/-- `DEFAULT_REGION` (b2ng.py:35). -/
def b2Default : Str := "us-east-005".toList

/-- `_parse_storage_url` (b2ng.py:87-104).  `valid`: the check of the bucket name. -/
def parseB2 (valid : Str → Bool) (ssl : Bool) (url : Str) : Option Place :=
  match stripPrefix "b2://".toList url with
  | none => none
  | some r =>
    match bucketPrefix r with
    | some (b, p) => if valid b then some { host := b2Host b2Default, port := defaultPort ssl, region := b2Default, bucket := b, prfx := p } else none
    | none => none

/-- `__init__` (gs.py:262-288). -/
def parseGs (url : Str) : Option Place :=
  let plain :=
    match stripPrefix "gs://".toList url with
    | none => none
    | some r => (bucketPrefix r).map (fun bp => { host := "www.googleapis.com".toList, port := 443, region := [], bucket := bp.1, prfx := bp.2 : Place })
  match stripPrefix "gs://!unittest!".toList url with
  | none => plain
  | some r =>
    match r.takeWhile (fun c => c ≠ '/' ∧ c ≠ ':'), portSlash (r.dropWhile (fun c => c ≠ '/' ∧ c ≠ ':')) with
    | _ :: _, some (some port, s) =>
      match bucketPrefix s with
      | some (b, p) => some { host := r.takeWhile (fun c => c ≠ '/' ∧ c ≠ ':'), port := port, region := [], bucket := b, prfx := p }
      | none => plain
    | _, _ => plain

/-! ### Proxies -/

def isHostChar (c : Char) : Bool := isAlnum c || c = '.' || c = '-'

/-- The end of the setting: `/?$`. -/
def proxyEnd (s : Str) : Bool := s = [] || s = ['/'] || s = ['\n'] || s = ['/', '\n']

/-- `(https?://)?` -/
def dropHttp (s : Str) : Str :=
  match stripPrefix "https://".toList s with
  | some r => r
  | none => (stripPrefix "http://".toList s).getD s

/-- `([a-zA-Z0-9.-]+)(:[0-9]+)?/?$`, with the default port. -/
def proxyHost (r : Str) : Option (Str × Nat) :=
  match r.takeWhile isHostChar, r.dropWhile isHostChar with
  | [], _ => none
  | h, ':' :: t =>
    match t.takeWhile isDigit with
    | [] => none
    | ds => if proxyEnd (t.dropWhile isDigit) then (parseDigits 8 ds).map (fun n => (h, n)) else none
  | h, t => if proxyEnd t then some (h, 80) else none

/-- `get_proxy` (backends/common.py:546-582) for a setting; `none`: QuietError with exit code 13. -/
def parseProxy (s : Str) : Option (Str × Nat) := proxyHost (dropHttp s)

/-- The environment: `http_proxy` and `https_proxy`. -/
structure Env where
  http : Option Str
  https : Option Str

/-- `get_proxy(ssl)`. -/
def getProxy (env : Env) (ssl : Bool) : Option (Option (Str × Nat)) :=
  match (if ssl then env.https else env.http) with
  | none => some none
  | some s => (parseProxy s).map some

/-! ### Connections -/

/-- `HTTPConnection.__init__` (http.py:235-246). -/
structure Conn where
  host : Str
  port : Nat
  tls : Bool
  proxy : Option (Str × Nat)
deriving DecidableEq, Repr

def mkConn (host : Str) (port : Option Nat) (tls : Bool) (proxy : Option (Str × Nat)) : Conn :=
  { host := host, port := port.getD (defaultPort tls), tls := tls, proxy := proxy }

/-- What happens on the network before the first request. -/
inductive Step where
  | tcp (host : Str) (port : Nat)
  /-- `CONNECT host:port`, in clear. -/
  | tunnel (host : Str) (port : Nat)
  /-- TLS; the certificate must be valid for this name. -/
  | startTls (name : Str)
deriving DecidableEq, Repr

/-- `connect` and `_tunnel` (http.py:270-390), when nothing fails. -/
def connect (c : Conn) : List Step :=
  let s := match c.proxy with
    | some p => Step.tcp p.1 p.2 :: (if c.tls then [.tunnel c.host c.port, .startTls c.host] else [])
    | none => [.tcp c.host c.port]
  if c.tls && c.proxy.isNone then s ++ [.startTls c.host] else s

/-- What a connection is for. -/
inductive Purpose where
  /-- Login, key or password, or something signed with it, is sent to find the storage server. -/
  | login
  /-- Storing and retrieving objects. -/
  | data
deriving DecidableEq, Repr

/-- The parts of an address that a server sent (`urlsplit`). -/
structure Addr where
  scheme : Str
  host : Option Str
  port : Option Nat
deriving DecidableEq, Repr

inductive Kind where
  | s3 | s3c | b2 | gs | swift | swiftks | rackspace
deriving DecidableEq, Repr

structure Config where
  kind : Kind
  url : Str
  /-- The option `no-ssl`. -/
  noSsl : Bool
  env : Env
  /-- The check of bucket names. -/
  valid : Str → Bool

/-- An entry of the Keystone catalog (swiftks.py:198-216): service type, region, v2 URL, v3 interface and URL. -/
structure Entry where
  type : Str
  region : Str
  publicURL : Option Addr
  interface : Str
  url : Addr
deriving DecidableEq, Repr

/-- What the servers answer: a redirect (`Location`) from S3, the host of `s3ApiUrl` from Backblaze, `X-Storage-Url` from Swift,
the catalog from Keystone. -/
structure Answers where
  location : Option Addr
  s3ApiHost : Str
  storageUrl : Addr
  catalog : List Entry

/-- The storage server from the catalog (swiftks.py:198-234). -/
def fromCatalog (region : Str) : List Entry → Option Addr
  | [] => none
  | e :: r =>
    if e.type ≠ "object-store".toList then fromCatalog region r
    else if e.region ≠ region then fromCatalog region r
    else match e.publicURL with
      | some a => some a
      | none => if e.interface ≠ "public".toList then fromCatalog region r else some e.url

/-- The connection to a storage server whose address the login gave (swift.py:386-404, 333-343, swiftks.py:217-233). -/
def storageConn (noSsl : Bool) (proxy : Option (Str × Nat)) (a : Addr) : Option Conn :=
  match a.host with
  | none => none
  | some h =>
    let tls := if a.scheme = "https".toList then true else if a.scheme = "http".toList then false else !noSsl
    some (mkConn h a.port tls proxy)

def isLowDigit (c : Char) : Bool := ('a' ≤ c && c ≤ 'z') || ('0' ≤ c && c ≤ '9') || c = '-'

/-- `re.fullmatch(r's3\.([a-z0-9-]+)\.backblazeb2\.com', host)` (b2ng.py:158): the region. -/
def b2Region (host : Str) : Option Str :=
  match stripPrefix "s3.".toList host with
  | none => none
  | some r =>
    match r.takeWhile isLowDigit with
    | [] => none
    | reg => if r.dropWhile isLowDigit = ".backblazeb2.com".toList then some reg else none

/-- The connections that a backend makes, in this order, when all goes well; a list that ends early stands for a refusal
(s3c.py:101-150, s3.py:62-141, b2ng.py:64-170, gs.py:231-316, 590-612, swift.py:206-404, swiftks.py:88-244). -/
def connections (c : Config) (a : Answers) : List (Purpose × Conn) :=
  match c.kind with
  | .s3c =>
    match parseHost (!c.noSsl) c.url, getProxy c.env (!c.noSsl) with
    | some p, some px => [(.data, mkConn p.host (some p.port) (!c.noSsl) px)]
    | _, _ => []
  | .s3 =>
    match parseS3 c.valid (!c.noSsl) c.url, getProxy c.env (!c.noSsl) with
    | some p, some px =>
      let first := (Purpose.login, mkConn p.host (some p.port) (!c.noSsl) px)
      match a.location with
      | none => [first, (.data, first.2)]
      | some l =>
        match l.host with
        | none => [first]
        | some h => [first, (.data, mkConn h (some (l.port.getD p.port)) (!c.noSsl) px)]
    | _, _ => []
  | .b2 =>
    match parseB2 c.valid (!c.noSsl) c.url, getProxy c.env (!c.noSsl) with
    | some p, some px =>
      let first := (Purpose.login, mkConn "api.backblazeb2.com".toList (some 443) (!c.noSsl) none)
      match b2Region a.s3ApiHost with
      | none => [first]
      | some reg => [first, (.data, mkConn (if reg = p.region then p.host else a.s3ApiHost) (some p.port) (!c.noSsl) px)]
    | _, _ => []
  | .gs =>
    match getProxy c.env true, parseGs c.url with
    | some px, some p =>
      [(.login, mkConn "accounts.google.com".toList (some 443) true px), (.data, mkConn p.host (some p.port) true px)]
    | _, _ => []
  | .swift =>
    match parseHost true c.url, getProxy c.env true with
    | some p, some px =>
      (.login, mkConn p.host (some p.port) (!c.noSsl) px) ::
        ((storageConn c.noSsl px a.storageUrl).toList.map (fun d => (.data, d)))
    | _, _ => []
  | .swiftks =>
    match parseKs true c.url, getProxy c.env true with
    | some p, some px =>
      (.login, mkConn p.host (some p.port) (!c.noSsl) px) ::
        (((fromCatalog p.region a.catalog).bind (storageConn c.noSsl px)).toList.map (fun d => (.data, d)))
    | _, _ => []
  | .rackspace =>
    match parseRackspace true c.url, getProxy c.env true with
    | some p, some px =>
      (.login, mkConn p.host (some p.port) (!c.noSsl) px) ::
        (((fromCatalog p.region a.catalog).bind (storageConn c.noSsl px)).toList.map (fun d => (.data, d)))
    | _, _ => []

end Verif.Backend.Endpoint
