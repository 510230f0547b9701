import Verif.Util.AList
/-
Property C81: a response belongs to the request it is returned for (http.py:228-876).

The model has three parts: `HTTPConnection`, the states of h11 as far as the connection looks at them, and a server.  The server
reads the bytes sent to it as HTTP prescribes: after a head with `Content-Length: n` come `n` bytes of body, whatever they look
like.  It answers the requests it recognises one after the other, when and in which pieces it likes, and may close at any time.
-/

namespace Verif.Backend.Exchange

/-! ### The server -/

/-- A final answer.  `body` is `none` if there can be none (`HEAD`, 204, 304 and `Content-Length: 0`); `framed` is false if the
end of the body is the end of the connection; `close` is `Connection: close`. -/
structure Ans where
  status : Nat
  body : Option (List UInt8)
  close : Bool
  framed : Bool
deriving DecidableEq, Repr

/-- The bytes of an answer. -/
def Ans.bytes (a : Ans) : List UInt8 := a.body.getD []

/-- What the client sends: the head of a request, which is `size` bytes long and announces a body of `len` bytes, or `n` bytes of
a body.  `hid` is the request that these bytes would be if a server read them as a head. -/
inductive Tok where
  | head (id len size : Nat) (expect : Bool)
  | bytes (n : Nat) (hid : Option Nat)
deriving DecidableEq, Repr

/-- What the server sends.  The numbers of the requests it answers are not on the wire; they are there for the specification. -/
inductive Wire where
  | info (code : Nat)
  | head (r : Nat) (a : Ans)
  | data (r : Nat) (b : List UInt8)
  | eom (r : Nat)
  | eof
deriving DecidableEq, Repr

/-- Two habits of servers.  `polite`: a `100 Continue` is sent only to a client that has asked for it, and once.  `forgiving`: a
server that has answered instead of sending the `100 Continue` that it was asked for does not expect the body any more. -/
structure Cfg where
  polite : Bool
  forgiving : Bool

/-- `rest`: recognised requests that are not answered; `need`: bytes of the last body that are still to come; `asked`: the last
request waits for `100 Continue`; `cur`: the answer being sent, with the bytes not yet sent. -/
structure Srv where
  rest : List Nat
  need : Nat
  asked : Bool
  cur : Option (Nat × List UInt8)
  eof : Bool
deriving DecidableEq, Repr

def Srv.fresh : Srv := ⟨[], 0, false, none, false⟩

/-- The server receives something.  Within a body everything is body. -/
def Srv.take (s : Srv) : Tok → Srv
  | .head id len size expect => if s.need = 0 then { s with rest := s.rest ++ [id], need := len, asked := expect } else { s with need := s.need - size }
  | .bytes n hid =>
    if s.need = 0 then
      match hid with
      | some q => { s with rest := s.rest ++ [q], asked := false }
      | none => s
    else { s with need := s.need - n }

/-- What a server may decide to send next. -/
inductive Emit where
  | cont
  | info (code : Nat)
  | head
  | data (n : Nat)
  | eom
  | eof
deriving DecidableEq, Repr

/-- The server sends something, if it can. -/
def Srv.emit (cfg : Cfg) (ans : Nat → Ans) (s : Srv) (e : Emit) : Option (Wire × Srv) :=
  if s.eof then none
  else match e with
  | .cont => if s.cur = none ∧ s.rest ≠ [] ∧ (s.asked = true ∨ cfg.polite = false) then some (.info 100, { s with asked := false }) else none
  | .info c => if s.cur = none ∧ s.rest ≠ [] ∧ c ≠ 100 then some (.info c, s) else none
  | .head =>
    match s.cur, s.rest with
    | none, r :: t =>
      some (.head r (ans r), { s with
        rest := t, cur := (ans r).body.map (fun b => (r, b)), asked := false
        need := if s.asked = true ∧ cfg.forgiving = true then 0 else s.need })
    | _, _ => none
  | .data n =>
    match s.cur with
    | some (r, c :: t) => some (.data r ((c :: t).take (n + 1)), { s with cur := some (r, (c :: t).drop (n + 1)) })
    | _ => none
  | .eom =>
    match s.cur with
    | some (r, []) => if (ans r).framed then some (.eom r, { s with cur := none }) else none
    | _ => none
  | .eof => some (.eof, { s with eof := true })

/-- Several decisions; those that are not possible are left out. -/
def Srv.emits (cfg : Cfg) (ans : Nat → Ans) (s : Srv) : List Emit → List Wire × Srv
  | [] => ([], s)
  | e :: t =>
    match s.emit cfg ans e with
    | some (w, s') => let r := s'.emits cfg ans t; (w :: r.1, r.2)
    | none => s.emits cfg ans t

/-! ### The connection -/

/-- States of a side in h11. -/
inductive S where
  | idle | sendResponse | sendBody | done | mustClose | error
deriving DecidableEq, Repr

/-- What `send_request` returns: a response with status 100, or the final one of the given request. -/
inductive Resp where
  | cont
  | final (r status : Nat)
deriving DecidableEq, Repr

/-- What the user of the connection has seen: the response to a request, some bytes of its body, the end of its body. -/
inductive Log where
  | resp (req : Nat) (a : Resp)
  | data (req : Nat) (b : List UInt8)
  | fin (req : Nat)
deriving DecidableEq, Repr

/-- `HTTPConnection` (http.py:235-264) with its h11 connection.  `ka`, `framed`, `empty`, `left` and `buf` belong to h11: keep-alive,
how the current answer ends, bytes of our body that are still to be sent, and what was received but not looked at.  `pending` is
`_pending_method`/`_pending_path`, `ropen` is `_response_open`.  `broken`: a write has failed, so all further ones will.  `srv` is
the server at the other end.  `next`, `last` and `log` are for the specification: the number of the next request, the request whose
response was returned last, and what the user has seen. -/
structure St where
  stream : Bool
  ours : S
  theirs : S
  ka : Bool
  framed : Bool
  empty : Bool
  left : Nat
  buf : List Wire
  pending : Option Nat
  ropen : Bool
  broken : Bool
  srv : Srv
  next : Nat
  last : Option Nat
  log : List Log
deriving DecidableEq, Repr

/-- `__init__` (http.py:235-264). -/
def St.init : St := ⟨false, .idle, .idle, true, true, false, 0, [], none, false, false, .fresh, 0, none, []⟩

/-- What the network does: all is well; the server sends something; nothing happens for too long; the connection is reset. -/
inductive Env where
  | ok
  | read (es : List Emit)
  | timeout
  | closed
deriving DecidableEq, Repr

inductive Err where
  | closed | invalid | timeout | state | value
deriving DecidableEq, Repr

/-- A result, with the state and what is left of the decisions of the network. -/
abbrev R (α : Type) := Except Err α × St × List Env

/-- h11: without keep-alive a side that is done must close. -/
def settle (s : St) : St :=
  if s.ka then s
  else { s with ours := if s.ours = .done then .mustClose else s.ours, theirs := if s.theirs = .done then .mustClose else s.theirs }

/-- Events of h11. -/
inductive Ev where
  | need
  | cont
  | response (r : Nat) (a : Ans)
  | data (b : List UInt8)
  | eom
  | perr
deriving DecidableEq, Repr

/-- h11 `next_event` while the head of an answer is expected, together with the loop in `_read_response` (http.py:609-631) that
skips all informational responses but 100.  101 without an upgrade is a protocol error. -/
def headEv : List Wire → Ev × List Wire
  | [] => (.need, [])
  | .info c :: t => if c = 101 then (.perr, t) else if c = 100 then (.cont, t) else headEv t
  | .head r a :: t => (.response r a, t)
  | w :: t => (.perr, w :: t)

/-- h11 `next_event` while the body of an answer is expected.  The end of the connection ends a body that has no other end, and
stays known. -/
def bodyEv (framed empty : Bool) (l : List Wire) : Ev × List Wire :=
  if empty then (.eom, l)
  else match l with
  | [] => (.need, [])
  | .data _ b :: t => (.data b, t)
  | .eom _ :: t => (.eom, t)
  | .eof :: t => if framed then (.perr, .eof :: t) else (.eom, .eof :: t)
  | w :: t => (.perr, w :: t)

/-- h11 `next_event`. -/
def pull (s : St) : Ev × St :=
  match s.theirs with
  | .sendResponse =>
    match headEv s.buf with
    | (.response r a, t) => (.response r a, settle { s with buf := t, theirs := .sendBody, ka := s.ka && !a.close, framed := a.framed, empty := a.body.isNone })
    | (.perr, t) => (.perr, { s with buf := t, theirs := .error })
    | (e, t) => (e, { s with buf := t })
  | .sendBody =>
    match bodyEv s.framed s.empty s.buf with
    | (.eom, t) => (.eom, settle { s with buf := t, theirs := .done })
    | (.perr, t) => (.perr, { s with buf := t, theirs := .error })
    | (e, t) => (e, { s with buf := t })
  | _ => (.perr, { s with theirs := .error })

/-- `_next_event` (http.py:781-807) with `_raw_read` (http.py:390-397).  If the end of the connection has been read in this call, a
protocol error is `ConnectionClosed`. -/
def nextEvent (cfg : Cfg) (ans : Nat → Ans) (eofSeen : Bool) (s : St) : List Env → R Ev
  | [] =>
    match pull s with
    | (.perr, s1) => (.error (if eofSeen then .closed else .invalid), s1, [])
    | (.need, s1) => (.error .timeout, s1, [])
    | (e, s1) => (.ok e, s1, [])
  | x :: env =>
    match pull s with
    | (.perr, s1) => (.error (if eofSeen then .closed else .invalid), s1, x :: env)
    | (.need, s1) =>
      match x with
      | .read es =>
        if s1.srv.eof then nextEvent cfg ans true { s1 with buf := s1.buf ++ [.eof] } env
        else
          let r := s1.srv.emits cfg ans es
          nextEvent cfg ans (eofSeen || r.2.eof) { s1 with buf := s1.buf ++ r.1, srv := r.2 } env
      | .closed => (.error .closed, s1, env)
      | _ => (.error .timeout, s1, env)
    | (e, s1) => (.ok e, s1, x :: env)

/-- `_finish_cycle` (http.py:809-848). -/
def finishCycle (s : St) : Except Err Unit × St :=
  let s := { s with ropen := false, pending := none }
  if s.ours = .sendBody then (.ok (), { s with ours := .idle, theirs := .idle, ka := true, left := 0, buf := [] })
  else if s.ours = .done ∧ s.theirs = .done then (.ok (), { s with ours := .idle, theirs := .idle })
  else if s.ours = .mustClose ∨ s.theirs = .mustClose then (.ok (), s)
  else (.error .state, s)

/-- `_make_response` (http.py:640-698).  Simplified: a response has no body for h11 exactly if `body_length` is 0. -/
def makeResponse (s : St) (r : Nat) (a : Ans) : Except Err Resp × St :=
  if s.empty then
    match pull s with
    | (.eom, s1) =>
      match finishCycle s1 with
      | (.ok _, s2) => (.ok (.final r a.status), s2)
      | (.error e, s2) => (.error e, s2)
    | (_, s1) => (.ok (.final r a.status), { s1 with ropen := true })
  else (.ok (.final r a.status), { s with ropen := true })

/-- `_read_response` (http.py:597-638). -/
def readResponse (cfg : Cfg) (ans : Nat → Ans) (s : St) (env : List Env) : R Resp :=
  match nextEvent cfg ans false s env with
  | (.ok .cont, s1, env1) => (.ok .cont, s1, env1)
  | (.ok (.response r a), s1, env1) => let x := makeResponse s1 r a; (x.1, x.2, env1)
  | (.ok _, s1, env1) => (.error .invalid, s1, env1)
  | (.error e, s1, env1) => (.error e, s1, env1)

/-- `_raw_write` (http.py:381-388): after an error nothing more can be written.  What part of the bytes has arrived before is not
modelled; nothing comes after them. -/
def rawWrite (s : St) (t : Tok) : List Env → R Unit
  | .timeout :: env => (.error .timeout, s, env)
  | .closed :: env => (.error .closed, { s with broken := true }, env)
  | env => if s.broken then (.error .closed, s, env.drop 1) else (.ok (), { s with srv := s.srv.take t }, env.drop 1)

/-- An item of a body: bytes, or a file with that many bytes.  `hid` as in `Tok`. -/
inductive Item where
  | mem (n : Nat) (hid : Option Nat)
  | file (n : Nat) (hid : Option Nat)
deriving DecidableEq, Repr

/-- `_stream_body` and `_stream_file` (http.py:536-587).  Simplified: a file is sent in one piece. -/
def streamBody (s : St) (remaining : Nat) : List Item → List Env → R Unit
  | [], env => if 0 < remaining then (.error .state, s, env) else (.ok (), s, env)
  | i :: t, env =>
    if remaining = 0 then (.ok (), s, env)
    else match i with
    | .mem n hid =>
      if remaining < n then (.error .state, s, env)
      else if n = 0 then streamBody s remaining t env
      else match rawWrite { s with left := s.left - n } (.bytes n hid) env with
      | (.ok _, s1, env1) => streamBody s1 (remaining - n) t env1
      | r => r
    | .file n hid =>
      if n = 0 then streamBody s remaining t env
      else match rawWrite { s with left := s.left - min n remaining } (.bytes (min n remaining) hid) env with
      | (.ok _, s1, env1) => streamBody s1 (remaining - min n remaining) t env1
      | r => r

/-- `_send_event(EndOfMessage)`: h11 refuses it if the body is not complete.  Nothing is written. -/
def sendEom (s : St) : Except Err Unit × St :=
  if s.left ≠ 0 then (.error .state, { s with ours := .error }) else (.ok (), settle { s with ours := .done })

/-- A request: the size of its head, its body, the announced length, `expect100`. -/
structure Req where
  size : Nat
  len : Nat
  body : List Item
  expect : Bool
deriving DecidableEq, Repr

/-- `connect` (http.py:270-315), which makes a new h11 connection. -/
def connect (s : St) : List Env → Except Err Unit × St × List Env
  | .timeout :: env => (.error .timeout, s, env)
  | .closed :: env => (.error .closed, s, env)
  | env => (.ok (), { s with
      stream := true, ours := .idle, theirs := .idle, ka := true, framed := true, empty := false, left := 0, buf := []
      pending := none, ropen := false, broken := false, srv := .fresh }, env.drop 1)

/-- The end of `send_request` (http.py:514-534). -/
def sendRest (cfg : Cfg) (ans : Nat → Ans) (s : St) (q : Req) (env : List Env) : R Resp :=
  match streamBody s q.len q.body env with
  | (.ok _, s1, env1) =>
    match sendEom s1 with
    | (.ok _, s2) => readResponse cfg ans s2 env1
    | (.error e, s2) => (.error e, s2, env1)
  | (.error .closed, s1, env1) =>
    match readResponse cfg ans s1 env1 with
    | (.ok r, s2, env2) => (.ok r, s2, env2)
    | (.error _, s2, env2) => (.error .closed, { s2 with stream := false }, env2)
  | (.error e, s1, env1) => (.error e, s1, env1)

/-- `send_request` (http.py:399-534) from the check of the states on.  Simplified: the headers are accepted by h11. -/
def sendOn (cfg : Cfg) (ans : Nat → Ans) (s : St) (id : Nat) (q : Req) (env : List Env) : R Resp :=
  if s.ours = .mustClose ∨ s.theirs = .mustClose then (.error .closed, s, env)
  else if s.ropen = true ∨ s.pending ≠ none then (.error .state, s, env)
  else if s.ours ≠ .idle then (.error .state, s, env)
  else match rawWrite { s with ours := .sendBody, theirs := .sendResponse, left := q.len } (.head id q.len q.size q.expect) env with
  | (.error e, s1, env1) => (.error e, s1, env1)
  | (.ok _, s1, env1) =>
    let s1 := { s1 with pending := some id }
    if q.body = [] then
      match sendEom s1 with
      | (.ok _, s2) => readResponse cfg ans s2 env1
      | (.error e, s2) => (.error e, s2, env1)
    else if q.expect = true then
      match readResponse cfg ans s1 env1 with
      | (.ok .cont, s2, env2) => sendRest cfg ans s2 q env2
      | r => r
    else sendRest cfg ans s1 q env1

/-- Note the response that is returned, for the specification; if nothing is to be read, it is complete. -/
def noteResp (id : Nat) : R Resp → R Resp
  | (.ok r, s2, env2) => (.ok r, { s2 with last := some id, log := s2.log ++ [.resp id r] ++ (if s2.ropen then [] else [.fin id]) }, env2)
  | (.error e, s2, env2) => (.error e, s2, env2)

/-- `send_request` (http.py:399-534) for request number `id`. -/
def sendAs (cfg : Cfg) (ans : Nat → Ans) (id : Nat) (s : St) (q : Req) (env : List Env) : R Resp :=
  if q.expect = true ∧ q.body = [] then (.error .value, s, env)
  else
    match (if s.stream then (.ok (), s, env) else connect s env : R Unit) with
    | (.error e, s1, env1) => (.error e, s1, env1)
    | (.ok _, s1, env1) => noteResp id (sendOn cfg ans s1 id q env1)

/-- `send_request` (http.py:399-534) for the next request. -/
def send (cfg : Cfg) (ans : Nat → Ans) (s : St) (q : Req) (env : List Env) : R Resp :=
  sendAs cfg ans s.next { s with next := s.next + 1, last := none } q env

/-- Note the end of the body of the response returned last. -/
def noteFin (s : St) : St :=
  match s.last with
  | some r => { s with log := s.log ++ [.fin r] }
  | none => s

/-- `read` (http.py:700-728); `readall`, `discard` and `readinto_fh` call it repeatedly (http.py:753-779). -/
def read (cfg : Cfg) (ans : Nat → Ans) (s : St) (env : List Env) : R (List UInt8) :=
  if s.stream = false then (.error .closed, s, env)
  else if s.ropen = false then (.ok [], noteFin s, env)
  else match nextEvent cfg ans false s env with
  | (.ok (.data b), s1, env1) =>
    (.ok b, { s1 with log := s1.log ++ (match s1.pending with | some r => [.data r b] | none => []) }, env1)
  | (.ok .eom, s1, env1) =>
    match finishCycle s1 with
    | (.ok _, s2) => (.ok [], noteFin s2, env1)
    | (.error e, s2) => (.error e, s2, env1)
  | (.ok _, s1, env1) => (.error .invalid, s1, env1)
  | (.error e, s1, env1) => (.error e, s1, env1)

/-- `aclose` (http.py:850-859). -/
def aclose (s : St) : St := { s with stream := false }

/-- `is_idle` (http.py:868-876). -/
def isIdle (s : St) : Bool := s.stream && s.ours == .idle && s.theirs == .idle

/-- What users and the pool do with a connection. -/
inductive Op where
  | send (q : Req) (env : List Env)
  | read (env : List Env)
  | close
  /-- it is returned to the pool and closed unless it is idle (http.py:1043-1048) -/
  | giveBack
deriving DecidableEq, Repr

def step (cfg : Cfg) (ans : Nat → Ans) (s : St) : Op → St
  | .send q env => (send cfg ans s q env).2.1
  | .read env => (read cfg ans s env).2.1
  | .close => aclose s
  | .giveBack => if isIdle s then { s with last := none } else { aclose s with last := none }

def run (cfg : Cfg) (ans : Nat → Ans) (ops : List Op) : St := ops.foldl (step cfg ans) .init

/-! ### Specification -/

/-- The bytes that were read of the response to a request. -/
def bytesOf (req : Nat) : List Log → List UInt8
  | [] => []
  | .data r b :: t => if r = req then b ++ bytesOf req t else bytesOf req t
  | _ :: t => bytesOf req t

/-- Each response that was returned is the final answer to its request, the bytes read of it are the bytes of that answer from the
beginning on, and if the user was told that there are no more, these were all of them (unless the end of the connection is all
that tells the end). -/
structure Right (ans : Nat → Ans) (log : List Log) : Prop where
  resp : ∀ req a, .resp req a ∈ log → a = .final req (ans req).status
  bytes : ∀ req, bytesOf req log <+: (ans req).bytes
  fin : ∀ req, .fin req ∈ log → (ans req).framed = true → bytesOf req log = (ans req).bytes

end Verif.Backend.Exchange
