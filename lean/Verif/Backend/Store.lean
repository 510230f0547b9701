import Verif.Util.AList
/-
Property C75: storing and deleting objects over a connection that fails.

Modelled: `write_fh` and `delete` of the three backends that talk to a server (s3c.py:247-256, 393-443;
swift.py:552-615; gs.py:336-356, 460-510) with the `retry` loop around both (common.py:120-208), the checks of the
digest, and the deletion that `write_fh` does after a `BadDigestError`.

Simplified: a request takes effect while the client waits for it or not at all (a server that executes a request long
after the client has given up on it is not modelled).  Damage in transit affects the body of an upload; the headers are
covered by the signature (C69).  Whether the time for retries is used up (C35 says when) is part of the behaviour of
the environment.
-/
namespace Verif.Backend.Store

abbrev Data := List UInt8

/-- A stored object: contents and metadata. -/
structure Obj where
  data : Data
  info : List (String × String)
deriving DecidableEq

abbrev Srv := List (String × Obj)

/-- The fate of one request. -/
inductive Net where
  /-- it does not reach the server: a temporary network error (http.py:901-935) -/
  | lost
  /-- the server, or a proxy, refuses it and does nothing; `temp`: an error for which `is_temp_failure` holds -/
  | refused (temp : Bool)
  /-- the server executes it; the body arrives as `damage` if that is given; `reply`: the client gets the answer -/
  | arrives (damage : Option Data) (reply : Bool)
deriving DecidableEq

/-- The fate of a request, and whether the time for retries is used up when it has failed (common.py:163). -/
structure Ev where
  net : Net
  late : Bool := false
deriving DecidableEq

/-- The three backends. -/
inductive Kind where
  | s3 | swift | gs
deriving DecidableEq

/-- `tls`: the connection is encrypted (`ssl_context`; always the case for gs.py:232); `checks`: the server compares the
body with the `Content-MD5` header; `says404`: it reports that an object to be deleted does not exist. -/
structure Cfg where
  kind : Kind
  tls : Bool
  checks : Bool
  says404 : Bool
  digest : Data → Nat

/-- What the client learns from one request. -/
inductive Resp where
  | ok (etag : Nat)
  | notFound
  | badDigest
  | failed (temp : Bool)
deriving DecidableEq

/-- The digest that is sent along: `Content-MD5`, without encryption (s3c.py:415-422, swift.py:575-579); gs.py sends
none. -/
def sentDigest (c : Cfg) (d : Data) : Option Nat :=
  if c.tls || c.kind == .gs then none else some (c.digest d)

/-- The server executes a PUT request: without a matching digest it refuses, otherwise it replaces the object. -/
def serverPut (c : Cfg) (s : Srv) (key : String) (o : Obj) (md5 : Option Nat) (body : Data) : Srv × Resp :=
  if c.checks && md5.isSome && md5 != some (c.digest body) then (s, .badDigest)
  else (AL.set s key { o with data := body }, .ok (c.digest body))

/-- The server executes a DELETE request. -/
def serverDelete (c : Cfg) (s : Srv) (key : String) : Srv × Resp :=
  if c.says404 && (AL.get s key).isNone then (s, .notFound) else (AL.erase s key, .ok 0)

/-- One PUT request (`_do_request`, s3c.py:484-512, swift.py:418-486, gs.py:513-570).  With encryption a damaged body
makes the connection fail before the request is executed. -/
def exchangePut (c : Cfg) (s : Srv) (key : String) (o : Obj) : Net → Srv × Resp
  | .lost => (s, .failed true)
  | .refused t => (s, .failed t)
  | .arrives damage reply =>
    if c.tls && damage.isSome then (s, .failed true)
    else
      let r := serverPut c s key o (sentDigest c o.data) (damage.getD o.data)
      if reply then r else (r.1, .failed true)

/-- One DELETE request. -/
def exchangeDelete (c : Cfg) (s : Srv) (key : String) : Net → Srv × Resp
  | .lost => (s, .failed true)
  | .refused t => (s, .failed t)
  | .arrives _ reply =>
    let r := serverDelete c s key
    if reply then r else (r.1, .failed true)

/-- How a call ends.  `stopped`: it does not - the process is killed, or still at work, when the events are used up. -/
inductive Outcome where
  | returned
  | raised
  | timedOut
  | stopped
deriving DecidableEq

/-- `delete` with its retries (s3c.py:247-256, swift.py:603-615, gs.py:336-356): an object that does not exist is not
an error.  Returns the events that are left. -/
def delete (c : Cfg) (key : String) : Srv → List Ev → Srv × Outcome × List Ev
  | s, [] => (s, .stopped, [])
  | s, e :: es =>
    match exchangeDelete c s key e.net with
    | (s', .ok _) => (s', .returned, es)
    | (s', .notFound) => (s', .returned, es)
    | (s', .badDigest) => (s', .raised, es)
    | (s', .failed false) => (s', .raised, es)
    | (s', .failed true) => if e.late then (s', .timedOut, es) else delete c key s' es

/-- What the client makes of the answer to an upload: S3 compares the digest in the answer with its own if it has one
(s3c.py:433-441); Swift does not, although the comment in swift.py:433-436 says so; gs.py has no digest. -/
def checkReply (c : Cfg) (d : Data) : Resp → Resp
  | .ok etag =>
    match c.kind with
    | .s3 => if (sentDigest c d).isSome && sentDigest c d != some etag then .badDigest else .ok etag
    | .swift => .ok etag
    | .gs => .ok etag
  | r => r

/-- Swift and Google Storage know no `BadDigestError` for uploads: the answer of the server is an ordinary permanent
error (status 400 or 422) for them. -/
def knowsBadDigest (c : Cfg) : Bool := c.kind == .s3

/-- `write_fh` with its retries (s3c.py:393-443, swift.py:552-600, gs.py:460-510); `n` bounds the number of attempts, one
more than the number of events always suffices.  After a `BadDigestError` the object is deleted (with retries of its own)
and the attempt fails: temporarily if the deletion succeeded (`BadDigestError`, s3c.py:224) or timed out (`TimeoutError`,
http.py:914), for good if it raised. -/
def writeN (c : Cfg) (key : String) (o : Obj) : Nat → Srv → List Ev → Srv × Outcome × List Ev
  | 0, s, es => (s, .stopped, es)
  | _ + 1, s, [] => (s, .stopped, [])
  | n + 1, s, e :: es =>
    let x := exchangePut c s key o e.net
    match checkReply c o.data x.2 with
    | .ok _ => (x.1, .returned, es)
    | .notFound => (x.1, .raised, es)
    | .failed false => (x.1, .raised, es)
    | .failed true => if e.late then (x.1, .timedOut, es) else writeN c key o n x.1 es
    | .badDigest =>
      if knowsBadDigest c then
        match delete c key x.1 es with
        | (s', .returned, es') => if e.late then (s', .timedOut, es') else writeN c key o n s' es'
        | (s', .timedOut, es') => if e.late then (s', .timedOut, es') else writeN c key o n s' es'
        | (s', .raised, es') => (s', .raised, es')
        | (s', .stopped, es') => (s', .stopped, es')
      else (x.1, .raised, es)

/-- `write_fh`. -/
def write (c : Cfg) (key : String) (o : Obj) (s : Srv) (es : List Ev) : Srv × Outcome × List Ev :=
  writeN c key o (es.length + 1) s es

/-! ### Specification -/

/-- The server holds `o` under `key` and everything else as in `s`. -/
def Stored (s s' : Srv) (key : String) (o : Obj) : Prop :=
  ∀ k, AL.get s' k = if k = key then some o else AL.get s k

/-- The server holds nothing under `key` and everything else as in `s`. -/
def Deleted (s s' : Srv) (key : String) : Prop :=
  ∀ k, AL.get s' k = if k = key then none else AL.get s k

/-- Everything except `key` is as before. -/
def Others (s s' : Srv) (key : String) : Prop := ∀ k, k ≠ key → AL.get s' k = AL.get s k

/-- No other contents have the digest of `d` (MD5 has no collisions among what occurs). -/
def NoCollision (c : Cfg) (d : Data) : Prop := ∀ b, c.digest b = c.digest d → b = d

/-- A request or a program of the backend: store or delete. -/
inductive Req where
  | put (key : String) (o : Obj)
  | del (key : String)

/-- What the requests are supposed to do. -/
def specStep (m : String → Option Obj) : Req → String → Option Obj
  | .put key o => fun k => if k = key then some o else m k
  | .del key => fun k => if k = key then none else m k

def spec (m : String → Option Obj) (rs : List Req) : String → Option Obj := rs.foldl specStep m

/-- One call after the other as long as they return (a program that stops at the first exception). -/
def session (c : Cfg) : Srv → List Ev → List Req → Srv × Outcome × List Ev
  | s, es, [] => (s, .returned, es)
  | s, es, r :: rs =>
    let x := match r with
      | .put key o => write c key o s es
      | .del key => delete c key s es
    match x with
    | (s', .returned, es') => session c s' es' rs
    | x => x

/-! ### Lemmas -/

theorem exchangeDelete_cases (c : Cfg) (s : Srv) (key : String) (e : Net) :
    (exchangeDelete c s key e = (s, .failed true)) ∨ (exchangeDelete c s key e = (s, .failed false)) ∨
    Deleted s (exchangeDelete c s key e).1 key := by
  have hd : Deleted s (serverDelete c s key).1 key := by
    unfold serverDelete Deleted
    intro k
    split
    · next h =>
      simp only [Bool.and_eq_true, Option.isNone_iff_eq_none] at h
      by_cases hk : k = key
      · rw [if_pos hk, hk]; exact h.2
      · rw [if_neg hk]
    · dsimp only; rw [AL.get_erase]
  cases e with
  | lost => left; rfl
  | refused t => cases t; right; left; rfl; left; rfl
  | arrives d r =>
    right; right
    unfold exchangeDelete
    dsimp only
    split <;> exact hd

theorem Deleted.trans {s s' s'' : Srv} {key : String} (h1 : Deleted s s' key) (h2 : Deleted s' s'' key) :
    Deleted s s'' key := by
  intro k; rw [h2 k]; split; rfl; next h => rw [h1 k, if_neg h]

theorem Stored.trans {s s' s'' : Srv} {key : String} {o : Obj} (h1 : Others s s' key) (h2 : Stored s' s'' key o) :
    Stored s s'' key o := by
  intro k; rw [h2 k]; split; rfl; next h => rw [h1 k h]

theorem Deleted.after {s s' s'' : Srv} {key : String} (h1 : Others s s' key) (h2 : Deleted s' s'' key) :
    Deleted s s'' key := by
  intro k; rw [h2 k]; split; rfl; next h => rw [h1 k h]

theorem Deleted.others {s s' : Srv} {key : String} (h : Deleted s s' key) : Others s s' key := by
  intro k hk; rw [h k, if_neg hk]

theorem Stored.others {s s' : Srv} {key : String} {o : Obj} (h : Stored s s' key o) : Others s s' key := by
  intro k hk; rw [h k, if_neg hk]

theorem Others.refl (s : Srv) (key : String) : Others s s key := fun _ _ => rfl

theorem Others.trans {s s' s'' : Srv} {key : String} (h1 : Others s s' key) (h2 : Others s' s'' key) :
    Others s s'' key := fun k hk => by rw [h2 k hk, h1 k hk]

/-- A reply that is not an error comes only from an executed request. -/
theorem exchangeDelete_reply (c : Cfg) (s : Srv) (key : String) (e : Net)
    (h : ∀ t, (exchangeDelete c s key e).2 ≠ .failed t) : Deleted s (exchangeDelete c s key e).1 key := by
  rcases exchangeDelete_cases c s key e with h1 | h1 | h1
  · exact absurd (by rw [h1]) (h true)
  · exact absurd (by rw [h1]) (h false)
  · exact h1

theorem delete_inv (c : Cfg) (key : String) (es : List Ev) (s : Srv) :
    ((delete c key s es).1 = s ∨ Deleted s (delete c key s es).1 key) ∧
    ((delete c key s es).2.1 = .returned → Deleted s (delete c key s es).1 key) ∧
    (delete c key s es).2.2.length ≤ es.length := by
  induction es generalizing s with
  | nil => exact ⟨Or.inl rfl, fun h => (by cases h), Nat.le_refl _⟩
  | cons e es ih =>
    unfold delete
    have hc := exchangeDelete_cases c s key e.net
    have hr := exchangeDelete_reply c s key e.net
    revert hc hr
    generalize exchangeDelete c s key e.net = x
    obtain ⟨s', r⟩ := x
    intro hc hr
    dsimp only at hr hc
    have hc' : s' = s ∨ Deleted s s' key := by
      rcases hc with h | h | h
      · exact Or.inl (Prod.mk.inj h).1
      · exact Or.inl (Prod.mk.inj h).1
      · exact Or.inr h
    cases r with
    | ok etag => exact ⟨hc', fun _ => hr (fun t => by simp), by simp⟩
    | notFound => exact ⟨hc', fun _ => hr (fun t => by simp), by simp⟩
    | badDigest => exact ⟨hc', fun h => (by cases h), by simp⟩
    | failed t =>
      cases t with
      | false => exact ⟨hc', fun h => (by cases h), by simp⟩
      | true =>
        dsimp only
        split
        · exact ⟨hc', fun h => (by cases h), by simp⟩
        · obtain ⟨i1, i2, i3⟩ := ih s'
          refine ⟨?_, ?_, by simp; omega⟩
          · rcases i1 with h | h
            · rw [h]; exact hc'
            · rcases hc' with h' | h'
              · rw [← h']; exact Or.inr h
              · exact Or.inr (h'.trans h)
          · intro h
            have h2 := i2 h
            rcases hc' with h' | h'
            · rw [← h']; exact h2
            · exact h'.trans h2

/-- What one upload request can do: nothing, or store what arrived.  If the client accepts the answer, what was sent is
stored - unless damage goes unnoticed (`c.kind ≠ .s3` without encryption). -/
theorem exchangePut_cases (c : Cfg) (s : Srv) (key : String) (o : Obj) (e : Net) :
    ((exchangePut c s key o e).1 = s ∧ (∀ t, checkReply c o.data (exchangePut c s key o e).2 ≠ .ok t)) ∨
    (∃ b, Stored s (exchangePut c s key o e).1 key { o with data := b } ∧
      ((∃ t, checkReply c o.data (exchangePut c s key o e).2 = .ok t) → c.tls = true ∨ c.kind = .s3 →
        c.digest b = c.digest o.data) ∧
      (c.tls = true → b = o.data) ∧ (c.checks = true → c.kind = .s3 → c.digest b = c.digest o.data)) := by
  cases e with
  | lost => left; exact ⟨rfl, fun t => by simp [exchangePut, checkReply]⟩
  | refused t => left; exact ⟨rfl, fun t' => by simp [exchangePut, checkReply]⟩
  | arrives damage reply =>
    unfold exchangePut
    dsimp only
    by_cases ht : (c.tls && damage.isSome) = true
    · rw [if_pos ht]; left; exact ⟨rfl, fun t => by simp [checkReply]⟩
    · rw [if_neg ht]
      generalize hb : damage.getD o.data = b
      unfold serverPut
      by_cases hs : (c.checks && (sentDigest c o.data).isSome && sentDigest c o.data != some (c.digest b)) = true
      · rw [if_pos hs]
        left
        cases reply <;> exact ⟨rfl, fun t => by simp [checkReply]⟩
      · rw [if_neg hs]
        right
        have hstored : Stored s (AL.set s key { o with data := b }) key { o with data := b } := by
          intro k; rw [AL.get_set]
        refine ⟨b, ?_, ?_, ?_, ?_⟩
        · cases reply <;> exact hstored
        · intro hok hk
          have htls : c.tls = true → b = o.data := by
            intro h; rw [h] at ht; simp at ht; rw [ht] at hb; exact hb.symm
          by_cases h : c.tls = true
          · rw [htls h]
          · have hk3 : c.kind = .s3 := by rcases hk with h' | h'; exact absurd h' h; exact h'
            cases reply with
            | false => obtain ⟨t, hok⟩ := hok; simp [checkReply] at hok
            | true =>
              obtain ⟨t, hok⟩ := hok
              have hsd : sentDigest c o.data = some (c.digest o.data) := by simp [sentDigest, h, hk3]
              simp only [checkReply, hk3, hsd, if_pos] at hok
              by_cases he : c.digest o.data = c.digest b
              · exact he.symm
              · simp [he] at hok
        · intro h; rw [h] at ht; simp at ht; rw [ht] at hb; exact hb.symm
        · intro hch hk3
          by_cases h : c.tls = true
          · rw [h] at ht; simp at ht; rw [ht] at hb; rw [← hb]; rfl
          · have hsd : sentDigest c o.data = some (c.digest o.data) := by simp [sentDigest, h, hk3]
            rw [hsd, hch] at hs
            simp at hs
            exact hs.symm

/-- The possible states of the object during an upload. -/
def Between (c : Cfg) (s s' : Srv) (key : String) (o : Obj) : Prop :=
  Others s s' key ∧
  (c.tls = true → AL.get s' key = AL.get s key ∨ AL.get s' key = some o) ∧
  (c.kind = .s3 → c.checks = true → NoCollision c o.data →
    AL.get s' key = AL.get s key ∨ AL.get s' key = some o ∨ AL.get s' key = none)

theorem Between.refl (c : Cfg) (s : Srv) (key : String) (o : Obj) : Between c s s key o :=
  ⟨Others.refl s key, fun _ => Or.inl rfl, fun _ _ _ => Or.inl rfl⟩

theorem Between.trans {c : Cfg} {s s' s'' : Srv} {key : String} {o : Obj} (h1 : Between c s s' key o)
    (h2 : Between c s' s'' key o) : Between c s s'' key o := by
  refine ⟨h1.1.trans h2.1, fun h => ?_, fun a b d => ?_⟩
  · rcases h2.2.1 h with h' | h'
    · rw [h']; exact h1.2.1 h
    · exact Or.inr h'
  · rcases h2.2.2 a b d with h' | h' | h'
    · rw [h']; exact h1.2.2 a b d
    · exact Or.inr (Or.inl h')
    · exact Or.inr (Or.inr h')

theorem exchangePut_between (c : Cfg) (s : Srv) (key : String) (o : Obj) (e : Net) :
    Between c s (exchangePut c s key o e).1 key o := by
  rcases exchangePut_cases c s key o e with ⟨h, _⟩ | ⟨b, hs, _, ht, hc⟩
  · rw [h]; exact Between.refl c s key o
  · refine ⟨hs.others, fun h => ?_, fun a d hn => ?_⟩
    · right; rw [hs key, if_pos rfl, ht h]
    · right; left; rw [hs key, if_pos rfl, hn b (hc d a)]

theorem delete_between (c : Cfg) (htls : c.tls = false) (s : Srv) (key : String) (o : Obj) (es : List Ev) :
    Between c s (delete c key s es).1 key o := by
  rcases (delete_inv c key es s).1 with h | h
  · rw [h]; exact Between.refl c s key o
  · refine ⟨h.others, fun h => ?_, fun a d hn => ?_⟩
    · rw [htls] at h; cases h
    · right; right; rw [h key, if_pos rfl]

/-- `BadDigestError` occurs only without encryption. -/
theorem badDigest_plain (c : Cfg) (s : Srv) (key : String) (o : Obj) (e : Net)
    (h : checkReply c o.data (exchangePut c s key o e).2 = .badDigest) : c.tls = false := by
  cases htls : c.tls with
  | false => rfl
  | true =>
    exfalso
    have hsd : sentDigest c o.data = none := by simp [sentDigest, htls]
    revert h
    cases e with
    | lost => simp [exchangePut, checkReply]
    | refused t => simp [exchangePut, checkReply]
    | arrives damage reply =>
      unfold exchangePut
      dsimp only
      split
      · simp [checkReply]
      · unfold serverPut
        rw [hsd]
        cases reply
        · simp [checkReply]
        · simp only [Option.isSome_none, Bool.and_false, Bool.false_and]
          unfold checkReply
          rw [hsd]
          cases c.kind <;> simp

theorem writeN_inv (c : Cfg) (key : String) (o : Obj) (n : Nat) (s : Srv) (es : List Ev) :
    Between c s (writeN c key o n s es).1 key o ∧
    ((writeN c key o n s es).2.1 = .returned → c.tls = true ∨ c.kind = .s3 → NoCollision c o.data →
      Stored s (writeN c key o n s es).1 key o) := by
  induction n generalizing s es with
  | zero => exact ⟨Between.refl c s key o, fun h => by cases h⟩
  | succ n ih =>
    cases es with
    | nil => exact ⟨Between.refl c s key o, fun h => by cases h⟩
    | cons e es =>
      unfold writeN
      have hb := exchangePut_between c s key o e.net
      have hp := exchangePut_cases c s key o e.net
      have hbd := badDigest_plain c s key o e.net
      revert hb hp hbd
      generalize exchangePut c s key o e.net = x
      obtain ⟨s', r⟩ := x
      dsimp only
      intro hb hp hbd
      have hstep : ∀ es', Between c s (writeN c key o n s' es').1 key o ∧
          ((writeN c key o n s' es').2.1 = .returned → c.tls = true ∨ c.kind = .s3 → NoCollision c o.data →
            Stored s (writeN c key o n s' es').1 key o) := by
        intro es'
        obtain ⟨i1, i2⟩ := ih s' es'
        exact ⟨hb.trans i1, fun h a d => Stored.trans hb.1 (i2 h a d)⟩
      cases hr : checkReply c o.data r with
      | ok etag =>
        dsimp only
        refine ⟨hb, fun _ hk hn => ?_⟩
        rcases hp with ⟨_, h⟩ | ⟨b, h1, h2, _, _⟩
        · exact absurd hr (h etag)
        · have := hn b (h2 ⟨etag, hr⟩ hk)
          subst this
          exact h1
      | notFound => exact ⟨hb, fun h => by cases h⟩
      | failed t =>
        cases t with
        | false => exact ⟨hb, fun h => by cases h⟩
        | true =>
          dsimp only
          split
          · exact ⟨hb, fun h => by cases h⟩
          · exact hstep es
      | badDigest =>
        dsimp only
        have htls := hbd hr
        split
        · have hd := delete_between c htls s' key o es
          revert hd
          generalize delete c key s' es = y
          obtain ⟨s2, out, es2⟩ := y
          intro hd
          dsimp only at hd
          have hstep2 : Between c s (writeN c key o n s2 es2).1 key o ∧
              ((writeN c key o n s2 es2).2.1 = .returned → c.tls = true ∨ c.kind = .s3 → NoCollision c o.data →
                Stored s (writeN c key o n s2 es2).1 key o) := by
            obtain ⟨i1, i2⟩ := ih s2 es2
            exact ⟨(hb.trans hd).trans i1, fun h a d => Stored.trans (hb.trans hd).1 (i2 h a d)⟩
          cases out with
          | returned =>
            dsimp only
            split
            · exact ⟨hb.trans hd, fun h => by cases h⟩
            · exact hstep2
          | timedOut =>
            dsimp only
            split
            · exact ⟨hb.trans hd, fun h => by cases h⟩
            · exact hstep2
          | raised => exact ⟨hb.trans hd, fun h => by cases h⟩
          | stopped => exact ⟨hb.trans hd, fun h => by cases h⟩
        · exact ⟨hb, fun h => by cases h⟩

/-! ### Properties -/

/-- **C75 (a write that returns).**  Whatever requests are lost, refused or damaged and whatever answers do not arrive:
if `write_fh` returns, the server holds exactly the contents and the metadata that were given, and all other objects are
as they were.  For S3 with and without encryption, for the other two backends with encryption. -/
theorem C75_write_returns_partial (c : Cfg) (hk : c.tls = true ∨ c.kind = .s3) (key : String) (o : Obj)
    (hn : NoCollision c o.data) (s : Srv) (es : List Ev) (h : (write c key o s es).2.1 = .returned) :
    Stored s (write c key o s es).1 key o :=
  (writeN_inv c key o _ s es).2 h hk hn

/-- **C75 (a write that does not return).**  With encryption the object is the old or the new one, whatever happens
and whenever the process is killed.  Other objects are never touched. -/
theorem C75_write_atomic_partial (c : Cfg) (htls : c.tls = true) (key : String) (o : Obj) (s : Srv) (es : List Ev) :
    Others s (write c key o s es).1 key ∧
    (AL.get (write c key o s es).1 key = AL.get s key ∨ AL.get (write c key o s es).1 key = some o) :=
  ⟨(writeN_inv c key o _ s es).1.1, (writeN_inv c key o _ s es).1.2.1 htls⟩

/-- Without encryption, with a server that checks the digest, there is never a damaged object; but there may be none. -/
theorem C75_write_plain_partial (c : Cfg) (hk : c.kind = .s3) (hc : c.checks = true) (key : String) (o : Obj)
    (hn : NoCollision c o.data) (s : Srv) (es : List Ev) :
    Others s (write c key o s es).1 key ∧
    (AL.get (write c key o s es).1 key = AL.get s key ∨ AL.get (write c key o s es).1 key = some o ∨
      AL.get (write c key o s es).1 key = none) :=
  ⟨(writeN_inv c key o _ s es).1.1, (writeN_inv c key o _ s es).1.2.2 hk hc hn⟩

/-- **C75 (delete).**  If `delete` returns, the object is gone; if not, it is gone or as it was.  Other objects are
never touched. -/
theorem C75_delete (c : Cfg) (key : String) (s : Srv) (es : List Ev) :
    Others s (delete c key s es).1 key ∧
    (AL.get (delete c key s es).1 key = AL.get s key ∨ AL.get (delete c key s es).1 key = none) ∧
    ((delete c key s es).2.1 = .returned → Deleted s (delete c key s es).1 key) := by
  obtain ⟨h1, h2, _⟩ := delete_inv c key es s
  refine ⟨?_, ?_, h2⟩
  · rcases h1 with h | h
    · rw [h]; exact Others.refl s key
    · exact h.others
  · rcases h1 with h | h
    · left; rw [h]
    · right; rw [h key, if_pos rfl]

/-- **C75 (sequences).**  If all calls of a sequence of writes and deletions return, the server holds what the sequence
says, whatever happened to the requests. -/
theorem C75_session_partial (c : Cfg) (hk : c.tls = true ∨ c.kind = .s3) (hn : ∀ d, NoCollision c d) (rs : List Req)
    (s : Srv) (es : List Ev) (h : (session c s es rs).2.1 = .returned) :
    ∀ k, AL.get (session c s es rs).1 k = spec (AL.get s) rs k := by
  induction rs generalizing s es with
  | nil => intro k; rfl
  | cons r rs ih =>
    unfold session at h ⊢
    have key : ∀ x : Srv × Outcome × List Ev, (x.2.1 = .returned → ∀ k, AL.get x.1 k = specStep (AL.get s) r k) →
        (match x with
          | (s', .returned, es') => session c s' es' rs
          | x => x).2.1 = .returned →
        ∀ k, AL.get (match x with
          | (s', .returned, es') => session c s' es' rs
          | x => x).1 k = spec (AL.get s) (r :: rs) k := by
      intro x hx h
      obtain ⟨s', out, es'⟩ := x
      cases out with
      | returned =>
        dsimp only at h hx ⊢
        intro k
        rw [ih s' es' h k]
        have : AL.get s' = specStep (AL.get s) r := funext (hx rfl)
        rw [this]
        rfl
      | raised => dsimp only at h; cases h
      | timedOut => dsimp only at h; cases h
      | stopped => dsimp only at h; cases h
    cases r with
    | put key' o => exact key _ (fun h' => C75_write_returns_partial c hk key' o (hn o.data) s es h') h
    | del key' => exact key _ (fun h' => (C75_delete c key' s es).2.2 h') h

/-- **C75 is false of S3 without encryption: the old object is deleted.**  The server refuses an upload that was damaged
on the way and keeps the old object, as it should.  The client reacts with deleting the old object; if it does not get any
further - here: it is killed, or the connection is lost for good - there is no object, although there was one, and the
write that failed was to replace it. -/
theorem C75_old_object_deleted (digest : Data → Nat) (s : Srv) (key : String) (old new : Obj) (b : Data)
    (_hold : AL.get s key = some old) (hb : digest b ≠ digest new.data) (es : List Ev) (hes : ∀ e ∈ es, e.net = .lost) :
    AL.get (write ⟨.s3, false, true, false, digest⟩ key new s
      (⟨.arrives (some b) true, false⟩ :: ⟨.arrives none true, false⟩ :: es)).1 key = none := by
  have hlost : ∀ (n : Nat) (es : List Ev) (s : Srv), (∀ e ∈ es, e.net = .lost) →
      (writeN ⟨.s3, false, true, false, digest⟩ key new n s es).1 = s := by
    intro n
    induction n with
    | zero => intro es s _; rfl
    | succ n ih =>
      intro es s hes
      cases es with
      | nil => rfl
      | cons e es =>
        have he : e.net = .lost := hes e (by simp)
        unfold writeN
        rw [he]
        dsimp only [exchangePut, checkReply]
        split
        · rfl
        · exact ih es s (fun e' h' => hes e' (by simp [h']))
  have hb' : digest new.data ≠ digest b := fun h => hb h.symm
  unfold write writeN
  simp only [exchangePut, serverPut, sentDigest, checkReply, knowsBadDigest, delete, exchangeDelete, serverDelete,
    Option.getD_some, List.length_cons]
  simp [hb']
  rw [hlost _ es _ hes, AL.get_erase]
  simp

/-- **C75 is false of Swift without encryption: damage goes unnoticed.**  `write_fh` returns and the server holds other
contents than were given.  (The server does not look at `Content-MD5`: for Swift the header to be checked is `ETag`.) -/
theorem C75_swift_damaged (digest : Data → Nat) (s : Srv) (key : String) (o : Obj) (b : Data) :
    (write ⟨.swift, false, false, true, digest⟩ key o s [⟨.arrives (some b) true, false⟩]).2.1 = .returned ∧
    AL.get (write ⟨.swift, false, false, true, digest⟩ key o s [⟨.arrives (some b) true, false⟩]).1 key =
      some { o with data := b } := by
  simp [write, writeN, exchangePut, serverPut, sentDigest, checkReply, AL.get_set]

/-! ### The hypotheses can be met -/

/-- Injective digest for the examples. -/
def demoDigest (d : Data) : Nat := d.foldl (fun a x => a * 257 + x.toNat + 1) 0

def demoCfg : Cfg := ⟨.s3, false, true, true, demoDigest⟩
def demoOld : Obj := ⟨[9], [("a", "x")]⟩
def demoNew : Obj := ⟨[1, 2], [("a", "y")]⟩

/-- A request is lost, one is refused, one executed without an answer, one damaged; the deletion is interrupted once; then
the write succeeds. -/
def demoEvs : List Ev := [⟨.lost, false⟩, ⟨.refused true, false⟩, ⟨.arrives none false, false⟩,
  ⟨.arrives (some [1, 3]) true, false⟩, ⟨.arrives none false, false⟩, ⟨.arrives none true, false⟩, ⟨.arrives none true, false⟩]

example : (write demoCfg "k" demoNew [("k", demoOld), ("l", demoOld)] demoEvs).2.1 = .returned ∧
    AL.get (write demoCfg "k" demoNew [("k", demoOld), ("l", demoOld)] demoEvs).1 "k" = some demoNew ∧
    AL.get (write demoCfg "k" demoNew [("k", demoOld), ("l", demoOld)] demoEvs).1 "l" = some demoOld := by decide

/-- Stopped at any point: old, new or none. -/
example : (List.range 8).map (fun n => AL.get (write demoCfg "k" demoNew [("k", demoOld)] (demoEvs.take n)).1 "k") =
    [some demoOld, some demoOld, some demoOld, some demoNew, some demoNew, none, none, some demoNew] := by decide

/-- The digest can be one without collisions (identity on an encoding of the contents). -/
example : ∃ digest : Data → Nat, ∀ d, NoCollision ⟨.s3, false, true, true, digest⟩ d := by
  let enc : Data → Nat := fun d => d.foldr (fun x a => a * 257 + x.toNat + 1) 0
  have henc : ∀ a b : Data, enc a = enc b → a = b := by
    intro a
    induction a with
    | nil => intro b h; cases b with
      | nil => rfl
      | cons y b => simp [enc] at h
    | cons x a ih => intro b h; cases b with
      | nil => simp [enc] at h
      | cons y b =>
        have h' : enc a * 257 + x.toNat + 1 = enc b * 257 + y.toNat + 1 := h
        have hx := x.toNat_lt; have hy := y.toNat_lt
        have h1 : x.toNat = y.toNat := by omega
        have h2 : enc a = enc b := by omega
        rw [ih b h2, UInt8.toNat_inj.1 h1]
  exact ⟨enc, fun d b h => henc b d h⟩

example : (session demoCfg [] (List.replicate 6 ⟨.arrives none true, false⟩) [.put "k" demoNew, .put "l" demoOld, .del "k"]).2.1
    = .returned := by decide

end Verif.Backend.Store
