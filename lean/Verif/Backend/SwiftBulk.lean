import Verif.Backend.Answer
import Verif.Backend.DeleteMulti
/-
C41 for Swift: feature detection, bulk deletion with retries, and the bulk middleware of the server.
-/
namespace Verif.Backend.SwiftBulk
open Verif.Backend.Answer (Str Exc swiftAgain contains)
open Verif.Backend.DeleteMulti (Store Store.remove)

variable {K : Type} [DecidableEq K]

/-! #### Feature detection -/

/-- `Features` (swift.py:983-1000). -/
structure Features where
  bulk : Bool := false
  maxDeletes : Nat := 1000
  maxMeta : Int := 255
deriving DecidableEq, Repr

/-- The answer to `GET /info`: status, whether it is JSON, `swift.max_meta_value_length` if it is an integer, and `max_failed_deletes` and `max_deletes_per_request` of
`bulk_delete` if there is such an entry. -/
structure Info where
  status : Nat
  json : Bool
  maxMeta : Option Int
  bulk : Option (Option Int × Option Int)

/-- `_detect_features` (swift.py:847-935); `none` if it raises. -/
def detect (skip : Bool) (i : Info) : Option Features :=
  if skip then some {}
  else if i.status ∉ [200, 401, 403, 404] then none
  else if i.status ≠ 200 then some {}
  else if i.json = false then none
  else
    let meta' : Int := match i.maxMeta with
      | some m => if m < 256 then m else 255
      | none => 255
    match i.bulk with
    | none => some { maxMeta := meta' }
    | some (failed, per) =>
      if failed.getD 1000 ≤ per.getD 10000 ∧ 0 < failed.getD 1000 then
        some { bulk := true, maxDeletes := (min 1000 (failed.getD 1000)).toNat, maxMeta := meta' }
      else none

/-! #### The server -/

/-- The limits of the bulk middleware. -/
structure Server where
  maxFailed : Nat
  maxPer : Nat
  /-- the status if all objects were deleted or not there, and some were not there: 200, or 400 or 404 -/
  missing : Nat

/-- The server says in `/info` what its limits are; a limit that is left out is the default. -/
def Server.Tells (v : Server) (i : Info) : Prop :=
  ∃ f p, i.bulk = some (f, p) ∧ f.getD 1000 = (v.maxFailed : Int) ∧ p.getD 10000 = (v.maxPer : Int)

/-- How the deletion of one object ends, if it is there: in case of a failure with a status and its text, and the object may be gone. -/
inductive Outcome where
  | deleted
  | fail (code : Nat) (msg : Str) (gone : Bool)

/-- The answer of the middleware: status, text, number of objects that were not there, errors. -/
structure Answer (K : Type) where
  status : Nat
  body : Str
  notFound : Nat
  errors : List (K × Nat × Str)

/-- What the middleware has done so far. -/
structure Work (K : Type) where
  store : Store K
  deleted : Nat
  notFound : Nat
  errors : List (K × Nat × Str)

/-- The loop of the middleware over the objects (openstack/swift: middleware/bulk.py, `handle_delete_iter`, as its documentation describes it); `false`: it stopped because there
were too many failures. -/
def serve (v : Server) (out : K → Outcome) : Work K → List K → Work K × Bool
  | w, [] => (w, true)
  | w, k :: ks =>
    if v.maxFailed ≤ w.errors.length then (w, false)
    else if w.store k = false then serve v out { w with notFound := w.notFound + 1 } ks
    else
      match out k with
      | .deleted => serve v out { w with store := w.store.remove k, deleted := w.deleted + 1 } ks
      | .fail c m gone => serve v out { w with store := if gone then w.store.remove k else w.store, errors := w.errors ++ [(k, c, m)] } ks

/-- A bulk request. -/
def request (v : Server) (out : K → Outcome) (s : Store K) (keys : List K) : Store K × Answer K :=
  if v.maxPer < keys.length then (s, ⟨413, "Maximum Bulk Deletes: ".toList, 0, []⟩)
  else
    let r := serve v out ⟨s, 0, 0, []⟩ keys
    if r.2 = false then (r.1.store, ⟨400, "Max delete failures exceeded".toList, r.1.notFound, r.1.errors⟩)
    else if r.1.errors ≠ [] then (r.1.store, ⟨if r.1.errors.any (fun e => decide (500 ≤ e.2.1)) then 502 else 400, [], r.1.notFound, r.1.errors⟩)
    else if r.1.deleted = 0 ∧ r.1.notFound = 0 then (r.1.store, ⟨400, "Invalid bulk delete.".toList, 0, []⟩)
    else if r.1.notFound = 0 then (r.1.store, ⟨200, [], 0, []⟩)
    else (r.1.store, ⟨v.missing, [], r.1.notFound, []⟩)

/-! #### The client -/

/-- The exception for an error code and its text (swift.py:751-767). -/
def excOf (code : Nat) (msg : Str) : Exc :=
  if code = 401 then .expired
  else if contains "Invalid bulk delete.".toList msg then .http 400 "Sent a bulk delete with an empty list of keys to delete".toList
  else if contains "Max delete failures exceeded".toList msg then .http 502 msg
  else if contains "Maximum Bulk Deletes: ".toList msg then .http 413 msg
  else if contains "Invalid File Name".toList msg then .http 422 msg
  else .http code msg

/-- What `_delete_multi` makes of an answer (swift.py:693-767): the remaining keys, and the exception.  The text of the status line is not modelled. -/
def handle (keys : List K) (a : Answer K) : List K × Option Exc :=
  if a.status = 200 ∨ ((a.status = 400 ∨ a.status = 404) ∧ a.errors.length = 0 ∧ 0 < a.notFound) then ([], none)
  else
    (keys.filter (fun k => decide (k ∈ a.errors.map (·.1))),
      some (if a.body ≠ [] then excOf a.status a.body
        else match a.errors with
          | e :: _ => excOf e.2.1 e.2.2
          | [] => excOf a.status []))

/-- What happens to one execution of `_delete_multi`. -/
inductive Fate (K : Type) where
  /-- the request is answered by the bulk middleware -/
  | answered (out : K → Outcome)
  /-- the request is refused, or the connection fails, before anything is deleted -/
  | refused (x : Exc)
  /-- the connection fails after the request was executed -/
  | lost (out : K → Outcome) (x : Exc)

/-- One execution of `_delete_multi` (swift.py:612-767). -/
def attempt (v : Server) (s : Store K) (keys : List K) : Fate K → Store K × List K × Option Exc
  | .answered out => let r := request v out s keys; (r.1, handle keys r.2)
  | .refused x => (s, keys, some x)
  | .lost out x => ((request v out s keys).1, keys, some x)

/-- How `delete_multi` ends; `still` if it has not. -/
inductive Ending where
  | returned
  | raised (x : Exc)
  | still

/-- `delete_multi` (swift.py:769-786) with the wrapper `retry` (backends/common.py), which repeats `_delete_multi` with the same list if the failure is temporary,
unless it gives up (the flag).  `tmp` is the current batch, `rest` the rest of the list.  The result has the caller's list. -/
def run (v : Server) (n : Nat) : List (Fate K × Bool) → Store K → List K → List K → Store K × List K × Ending
  | [], s, tmp, rest => (s, tmp ++ rest, .still)
  | (f, giveUp) :: fs, s, tmp, rest =>
    match attempt v s tmp f with
    | (s', tmp', none) => if rest = [] then (s', tmp' ++ rest, .returned) else run v n fs s' (rest.take n) (rest.drop n)
    | (s', tmp', some x) => if swiftAgain x && !giveUp then run v n fs s' tmp' rest else (s', tmp' ++ rest, .raised x)

def deleteMulti (v : Server) (n : Nat) (fs : List (Fate K × Bool)) (s : Store K) (keys : List K) : Store K × List K × Ending :=
  if keys = [] then (s, [], .returned) else run v n fs s (keys.take n) (keys.drop n)

/-! #### Specification -/

/-- Failures that do not come from the request itself: those of the connection, and those the server reports for single objects. -/
def Fate.Fails : Fate K → Exc → Prop
  | .answered out, x => ∃ k c m g, out k = .fail c m g ∧ x = excOf c m
  | .refused x', x => x = x'
  | .lost _ x', x => x = x'

/-- Everything works. -/
def Fate.Healthy : Fate K → Prop
  | .answered out => ∀ k, out k = .deleted
  | _ => False

/-! #### Proof -/

theorem remove_apply (s : Store K) (k x : K) : s.remove k x = if x = k then false else s x := rfl

theorem serve_spec (v : Server) (out : K → Outcome) : ∀ (ks : List K) (w : Work K), w.errors.length + ks.length ≤ v.maxFailed →
    (serve v out w ks).2 = true ∧ (∀ k, w.store k = false → (serve v out w ks).1.store k = false) ∧
    (∀ k ∈ ks, (serve v out w ks).1.store k = false ∨ k ∈ (serve v out w ks).1.errors.map (·.1)) ∧
    (∀ k, k ∉ ks → (serve v out w ks).1.store k = w.store k) ∧
    (∀ e ∈ (serve v out w ks).1.errors, e ∈ w.errors ∨ (e.1 ∈ ks ∧ ∃ g, out e.1 = .fail e.2.1 e.2.2 g)) ∧
    (∀ e ∈ w.errors, e ∈ (serve v out w ks).1.errors) ∧
    (serve v out w ks).1.deleted + (serve v out w ks).1.notFound + (serve v out w ks).1.errors.length = w.deleted + w.notFound + w.errors.length + ks.length ∧
    w.notFound ≤ (serve v out w ks).1.notFound
  | [], w, _ => ⟨rfl, fun _ h => h, (fun _ h => by cases h), fun _ _ => rfl, fun _ h => Or.inl h, fun _ h => h, rfl, Nat.le_refl _⟩
  | k :: ks, w, h => by
    rw [List.length_cons] at h
    unfold serve
    rw [if_neg (by omega)]
    split
    · rename_i hk
      obtain ⟨h1, h2, h3, h4, h5, h6, h7, h8⟩ := serve_spec v out ks { w with notFound := w.notFound + 1 } (by dsimp only; omega)
      refine ⟨h1, h2, ?_, ?_, ?_, h6, ?_, ?_⟩
      · intro x hx
        rcases List.mem_cons.1 hx with rfl | hx
        · exact Or.inl (h2 _ hk)
        · exact h3 x hx
      · exact fun x hx => h4 x (fun g => hx (List.mem_cons_of_mem _ g))
      · exact fun e he => (h5 e he).imp (fun g => g) (fun g => ⟨List.mem_cons_of_mem _ g.1, g.2⟩)
      · dsimp only at h7; rw [List.length_cons]; omega
      · dsimp only at h8; omega
    · split
      · rename_i hk _ _
        obtain ⟨h1, h2, h3, h4, h5, h6, h7, h8⟩ := serve_spec v out ks { w with store := w.store.remove k, deleted := w.deleted + 1 } (by dsimp only; omega)
        have hr : ∀ x, w.store x = false → (w.store.remove k) x = false := by intro x hx; rw [remove_apply]; split; rfl; exact hx
        refine ⟨h1, fun x hx => h2 x (hr x hx), ?_, ?_, ?_, h6, ?_, h8⟩
        · intro x hx
          rcases List.mem_cons.1 hx with rfl | hx
          · exact Or.inl (h2 _ (if_pos rfl))
          · exact h3 x hx
        · intro x hx
          rw [h4 x (fun g => hx (List.mem_cons_of_mem _ g))]
          exact if_neg (fun (e : x = k) => hx (by rw [e]; exact List.mem_cons_self))
        · exact fun e he => (h5 e he).imp (fun g => g) (fun g => ⟨List.mem_cons_of_mem _ g.1, g.2⟩)
        · dsimp only at h7; rw [List.length_cons]; omega
      · rename_i hk _ c m g ho
        obtain ⟨h1, h2, h3, h4, h5, h6, h7, h8⟩ := serve_spec v out ks { w with store := if g then w.store.remove k else w.store, errors := w.errors ++ [(k, c, m)] }
          (by dsimp only; rw [List.length_append, List.length_singleton]; omega)
        dsimp only at h2 h4
        have hr : ∀ x, w.store x = false → (if g then w.store.remove k else w.store) x = false := by
          intro x hx
          split
          · rw [remove_apply]; split; rfl; exact hx
          · exact hx
        refine ⟨h1, fun x hx => h2 x (hr x hx), ?_, ?_, ?_, ?_, ?_, h8⟩
        · intro x hx
          rcases List.mem_cons.1 hx with rfl | hx
          · exact Or.inr (List.mem_map.2 ⟨(_, c, m), h6 _ (List.mem_append_right _ List.mem_cons_self), rfl⟩)
          · exact h3 x hx
        · intro x hx
          rw [h4 x (fun g => hx (List.mem_cons_of_mem _ g))]
          split
          · exact if_neg (fun (e : x = k) => hx (by rw [e]; exact List.mem_cons_self))
          · rfl
        · intro e he
          rcases h5 e he with g1 | g1
          · rcases List.mem_append.1 g1 with g1 | g1
            · exact Or.inl g1
            · cases List.mem_singleton.1 g1
              exact Or.inr ⟨List.mem_cons_self, g, ho⟩
          · exact Or.inr ⟨List.mem_cons_of_mem _ g1.1, g1.2⟩
        · exact fun e he => h6 e (List.mem_append_left _ he)
        · dsimp only at h7; rw [List.length_append, List.length_singleton] at h7; rw [List.length_cons]; omega

/-- Limits that the client's batches fit into. -/
structure Fits (v : Server) (n : Nat) : Prop where
  failed : n ≤ v.maxFailed
  per : n ≤ v.maxPer
  missing : v.missing = 200 ∨ v.missing = 400 ∨ v.missing = 404

theorem request_store {v : Server} {n : Nat} (hv : Fits v n) (out : K → Outcome) (s : Store K) (keys : List K) (hn : keys.length ≤ n) :
    (request v out s keys).1 = (serve v out ⟨s, 0, 0, []⟩ keys).1.store := by
  have := hv.per
  unfold request
  rw [if_neg (by omega)]
  dsimp only
  split
  · rfl
  · split
    · rfl
    · split
      · rfl
      · split <;> rfl

theorem handle_spec {v : Server} {n : Nat} (hv : Fits v n) (out : K → Outcome) (s : Store K) (keys : List K) (hn : keys.length ≤ n) (hk : keys ≠ []) :
    ((serve v out ⟨s, 0, 0, []⟩ keys).1.errors = [] ∧ handle keys (request v out s keys).2 = ([], none)) ∨
    ∃ e ∈ (serve v out ⟨s, 0, 0, []⟩ keys).1.errors, handle keys (request v out s keys).2 =
      (keys.filter (fun k => decide (k ∈ (serve v out ⟨s, 0, 0, []⟩ keys).1.errors.map (·.1))), some (excOf e.2.1 e.2.2)) := by
  have hp := hv.per
  have hf := hv.failed
  obtain ⟨h1, _, _, _, _, _, h7, _⟩ := serve_spec v out keys ⟨s, 0, 0, []⟩ (by simp only [List.length_nil]; omega)
  have hl : 0 < keys.length := List.length_pos_iff.2 hk
  unfold request
  rw [if_neg (by omega)]
  dsimp only
  rw [if_neg (by rw [h1]; decide)]
  generalize (serve v out ⟨s, 0, 0, []⟩ keys).1 = w at *
  simp only [List.length_nil, Nat.zero_add, Nat.add_zero] at h7
  cases he : w.errors with
  | nil =>
    left
    refine ⟨rfl, ?_⟩
    rw [he, List.length_nil] at h7
    rw [if_neg (fun h => h rfl), if_neg (by omega)]
    unfold handle
    split
    · exact if_pos (Or.inl rfl)
    · refine if_pos ?_
      dsimp only
      rcases hv.missing with h | h | h
      · exact Or.inl h
      · exact Or.inr ⟨Or.inl h, rfl, by omega⟩
      · exact Or.inr ⟨Or.inr h, rfl, by omega⟩
  | cons e es =>
    right
    refine ⟨e, List.mem_cons_self, ?_⟩
    rw [if_pos (by simp)]
    unfold handle
    rw [if_neg]
    · rfl
    · rintro (h | ⟨_, h, _⟩)
      · dsimp only at h
        split at h <;> omega
      · dsimp only at h
        rw [List.length_cons] at h
        omega

theorem attempt_spec {v : Server} {n : Nat} (hv : Fits v n) {s s' : Store K} {keys keys' : List K} (hn : keys.length ≤ n) (hk : keys ≠ []) {f : Fate K} {r : Option Exc}
    (h : attempt v s keys f = (s', keys', r)) :
    (∀ k, s k = false → s' k = false) ∧ (∀ k ∈ keys, k ∉ keys' → s' k = false) ∧ (∀ k, k ∉ keys → s' k = s k) ∧ keys'.Sublist keys ∧
    (r = none → keys' = []) ∧ (∀ x, r = some x → keys' ≠ [] ∧ f.Fails x) ∧ (f.Healthy → r = none) := by
  have hf := hv.failed
  cases f with
  | answered out =>
    obtain ⟨h1, h2, h3, h4, h5, _, _, _⟩ := serve_spec v out keys ⟨s, 0, 0, []⟩ (by simp only [List.length_nil]; omega)
    unfold attempt at h
    dsimp only at h
    have hs : (request v out s keys).1 = s' := (Prod.mk.inj h).1
    have hh : handle keys (request v out s keys).2 = (keys', r) := (Prod.mk.inj h).2
    rw [request_store hv out s keys hn] at hs
    rw [hs] at h2 h3 h4
    rcases handle_spec hv out s keys hn hk with ⟨e1, e2⟩ | ⟨e, e1, e2⟩
    · rw [e2] at hh
      cases hh
      refine ⟨h2, fun k hk _ => ?_, h4, List.nil_sublist _, fun _ => rfl, (fun x hx => by cases hx), fun _ => rfl⟩
      rcases h3 k hk with g | g
      · exact g
      · rw [e1] at g; cases g
    · rw [e2] at hh
      cases hh
      rcases h5 e e1 with g | ⟨g1, g, g2⟩
      · cases g
      refine ⟨h2, ?_, h4, List.filter_sublist, (fun h => by cases h), ?_, ?_⟩
      · intro k hk hnk
        rcases h3 k hk with g | g
        · exact g
        · exact absurd (List.mem_filter.2 ⟨hk, decide_eq_true g⟩) hnk
      · intro x hx
        cases hx
        refine ⟨fun hnil => ?_, e.1, _, _, g, g2, rfl⟩
        have : e.1 ∈ keys.filter (fun k => decide (k ∈ (serve v out ⟨s, 0, 0, []⟩ keys).1.errors.map (·.1))) :=
          List.mem_filter.2 ⟨g1, decide_eq_true (List.mem_map.2 ⟨e, e1, rfl⟩)⟩
        rw [hnil] at this
        cases this
      · intro hh
        have := hh e.1
        rw [g2] at this
        cases this
  | refused x =>
    cases h
    exact ⟨fun _ h => h, fun k h1 h2 => absurd h1 h2, fun _ _ => rfl, List.Sublist.refl _, (fun h => by cases h), (fun x hx => by cases hx; exact ⟨hk, rfl⟩), fun h => h.elim⟩
  | lost out x =>
    obtain ⟨h1, h2, h3, h4, h5, _, _, _⟩ := serve_spec v out keys ⟨s, 0, 0, []⟩ (by simp only [List.length_nil]; omega)
    cases h
    rw [request_store hv out s keys hn]
    exact ⟨h2, fun k h1 h2 => absurd h1 h2, h4, List.Sublist.refl _, (fun h => by cases h), (fun x hx => by cases hx; exact ⟨hk, rfl⟩), fun h => h.elim⟩

theorem run_spec {v : Server} {n : Nat} (hv : Fits v n) (h0 : 0 < n) : ∀ (fs : List (Fate K × Bool)) (s s' : Store K) (tmp rest keys' : List K) (e : Ending), tmp.length ≤ n → tmp ≠ [] →
    run v n fs s tmp rest = (s', keys', e) →
    (∀ k, s k = false → s' k = false) ∧ (∀ k ∈ tmp ++ rest, k ∉ keys' → s' k = false) ∧ (∀ k, k ∉ tmp ++ rest → s' k = s k) ∧ keys'.Sublist (tmp ++ rest) ∧
    (e = .returned → keys' = []) ∧ (∀ x, e = .raised x → ∃ f g, (f, g) ∈ fs ∧ f.Fails x ∧ (swiftAgain x = false ∨ g = true))
  | [], s, s', tmp, rest, keys', e, _, _, h => by
    cases h
    exact ⟨fun _ h => h, fun k h1 h2 => absurd h1 h2, fun _ _ => rfl, List.Sublist.refl _, (fun h => by cases h), (fun x hx => by cases hx)⟩
  | (f, g) :: fs, s, s', tmp, rest, keys', e, hn, hk, h => by
    unfold run at h
    cases ha : attempt v s tmp f with
    | mk s1 r =>
      obtain ⟨tmp1, r⟩ := r
      obtain ⟨a1, a2, a3, a4, a5, a6, _⟩ := attempt_spec hv hn hk ha
      rw [ha] at h
      cases r with
      | none =>
        have ht : tmp1 = [] := a5 rfl
        subst ht
        dsimp only at h
        split at h
        · rename_i hr
          cases h
          subst hr
          refine ⟨a1, fun k h1 h2 => a2 k (by rw [List.append_nil] at h1; exact h1) (fun h => by cases h), fun k h1 => a3 k (fun h => h1 (List.mem_append_left _ h)), List.nil_sublist _,
            fun _ => rfl, (fun x hx => by cases hx)⟩
        · rename_i hr
          have hlen : 0 < rest.length := List.length_pos_iff.2 hr
          have htk : rest.take n ≠ [] := by
            intro h
            have := congrArg List.length h
            rw [List.length_take, List.length_nil] at this
            omega
          obtain ⟨b1, b2, b3, b4, b5, b6⟩ := run_spec hv h0 fs s1 s' (rest.take n) (rest.drop n) keys' e (by rw [List.length_take]; omega) htk h
          rw [List.take_append_drop] at b2 b3 b4
          refine ⟨fun k hk => b1 k (a1 k hk), ?_, ?_, b4.trans (List.sublist_append_right _ _), b5, ?_⟩
          · intro k hk hnk
            rcases List.mem_append.1 hk with hk | hk
            · exact b1 k (a2 k hk (fun h => by cases h))
            · exact b2 k hk hnk
          · intro k hk
            rw [b3 k (fun h => hk (List.mem_append_right _ h)), a3 k (fun h => hk (List.mem_append_left _ h))]
          · intro x hx
            obtain ⟨f', g', c1, c2⟩ := b6 x hx
            exact ⟨f', g', List.mem_cons_of_mem _ c1, c2⟩
      | some x =>
        obtain ⟨ht, hfx⟩ := a6 x rfl
        dsimp only at h
        split at h
        · obtain ⟨b1, b2, b3, b4, b5, b6⟩ := run_spec hv h0 fs s1 s' tmp1 rest keys' e (Nat.le_trans a4.length_le hn) ht h
          refine ⟨fun k hk => b1 k (a1 k hk), ?_, ?_, b4.trans (List.Sublist.append a4 (List.Sublist.refl _)), b5, ?_⟩
          · intro k hk hnk
            by_cases hk1 : k ∈ tmp1 ++ rest
            · exact b2 k hk1 hnk
            · rcases List.mem_append.1 hk with hk | hk
              · exact b1 k (a2 k hk (fun h => hk1 (List.mem_append_left _ h)))
              · exact absurd (List.mem_append_right _ hk) hk1
          · intro k hk
            rw [b3 k, a3 k (fun h => hk (List.mem_append_left _ h))]
            intro h
            rcases List.mem_append.1 h with h | h
            · exact hk (List.mem_append_left _ (a4.subset h))
            · exact hk (List.mem_append_right _ h)
          · intro x hx
            obtain ⟨f', g', c1, c2⟩ := b6 x hx
            exact ⟨f', g', List.mem_cons_of_mem _ c1, c2⟩
        · rename_i hag
          cases h
          refine ⟨a1, ?_, fun k hk => a3 k (fun h => hk (List.mem_append_left _ h)), List.Sublist.append a4 (List.Sublist.refl _), (fun h => by cases h), ?_⟩
          · intro k hk hnk
            rcases List.mem_append.1 hk with hk | hk
            · exact a2 k hk (fun h => hnk (List.mem_append_left _ h))
            · exact absurd (List.mem_append_right _ hk) hnk
          · intro y hy
            cases hy
            refine ⟨f, g, List.mem_cons_self, hfx, ?_⟩
            cases hsx : swiftAgain x with
            | false => exact Or.inl rfl
            | true =>
              rw [hsx] at hag
              cases g with
              | true => exact Or.inr rfl
              | false => exact absurd rfl hag

theorem run_ends {v : Server} {n : Nat} (hv : Fits v n) (h0 : 0 < n) : ∀ (fs hs : List (Fate K × Bool)) (s : Store K) (tmp rest : List K), tmp.length ≤ n → tmp ≠ [] →
    hs.Sublist fs → (∀ p ∈ hs, p.1.Healthy) → 1 ≤ hs.length → rest.length ≤ (hs.length - 1) * n → (run v n fs s tmp rest).2.2 ≠ .still
  | [], hs, s, tmp, rest, _, _, hsub, _, h1, _ => by
    rw [List.eq_nil_of_sublist_nil hsub, List.length_nil] at h1
    omega
  | (f, g) :: fs, hs, s, tmp, rest, hn, hk, hsub, hh, h1, hr => by
    unfold run
    cases ha : attempt v s tmp f with
    | mk s1 r =>
      obtain ⟨tmp1, r⟩ := r
      obtain ⟨_, _, _, a4, _, a6, a7⟩ := attempt_spec hv hn hk ha
      have htk : rest ≠ [] → rest.take n ≠ [] := by
        intro hne h
        have := congrArg List.length h
        have := List.length_pos_iff.2 hne
        rw [List.length_take, List.length_nil] at *
        omega
      cases hsub with
      | cons _ hsub =>
        cases r with
        | none =>
          dsimp only
          split
          · exact fun h => by cases h
          · rename_i hne
            exact run_ends hv h0 fs hs s1 _ _ (by rw [List.length_take]; omega) (htk hne) hsub hh h1 (by rw [List.length_drop]; omega)
        | some x =>
          dsimp only
          split
          · exact run_ends hv h0 fs hs s1 tmp1 rest (Nat.le_trans a4.length_le hn) (a6 x rfl).1 hsub hh h1 hr
          · exact fun h => by cases h
      | @cons_cons hs' _ _ hsub =>
        have hr0 : r = none := a7 (hh _ List.mem_cons_self)
        subst hr0
        dsimp only
        split
        · exact fun h => by cases h
        · rename_i hne
          rw [List.length_cons, Nat.add_sub_cancel] at hr
          have hpos := List.length_pos_iff.2 hne
          obtain ⟨m, hm⟩ : ∃ m, hs'.length = m + 1 := by
            cases hl : hs'.length with
            | zero => rw [hl] at hr; omega
            | succ m => exact ⟨m, rfl⟩
          rw [hm, Nat.succ_mul] at hr
          exact run_ends hv h0 fs hs' s1 _ _ (by rw [List.length_take]; omega) (htk hne) hsub (fun p hp => hh p (List.mem_cons_of_mem _ hp)) (by omega)
            (by rw [List.length_drop, hm, Nat.add_sub_cancel]; omega)

/-- The features fit the limits of the server. -/
theorem detect_fits {v : Server} {i : Info} {f : Features} (ht : v.Tells i) (hm : v.missing = 200 ∨ v.missing = 400 ∨ v.missing = 404) (hd : detect false i = some f) (hb : f.bulk = true) :
    Fits v f.maxDeletes ∧ 0 < f.maxDeletes := by
  obtain ⟨a, b, h1, h2, h3⟩ := ht
  unfold detect at hd
  rw [if_neg (by decide)] at hd
  split at hd
  · cases hd
  · split at hd
    · cases hd; cases hb
    · split at hd
      · cases hd
      · rw [h1] at hd
        dsimp only at hd
        split at hd
        · rename_i hc
          cases hd
          rw [h2, h3] at hc
          dsimp only
          rw [h2]
          exact ⟨⟨by omega, by omega, hm⟩, by omega⟩
        · cases hd

/-! #### Theorems -/

/-- C41, Swift: the server announces the limits of its bulk middleware in `/info`, and keeps to them.  However the deletion of single objects ends, however many requests are refused or lost and
repeated, when `delete_multi` ends and at any time before: keys that are no longer in the caller's list are deleted, no other objects are, and the list has only keys that were in it before.
If it returns, the list is empty.  If it raises, then because of a failure that a request met or the server reported for an object, and that is not temporary or has lasted too long;
never because of the requests themselves. -/
theorem C41_swift_bulk {v : Server} {i : Info} {f : Features} (ht : v.Tells i) (hm : v.missing = 200 ∨ v.missing = 400 ∨ v.missing = 404) (hd : detect false i = some f) (hb : f.bulk = true)
    {fs : List (Fate K × Bool)} {s s' : Store K} {keys keys' : List K} {e : Ending} (h : deleteMulti v f.maxDeletes fs s keys = (s', keys', e)) :
    (∀ k ∈ keys, k ∉ keys' → s' k = false) ∧ (∀ k, k ∉ keys → s' k = s k) ∧ keys'.Sublist keys ∧ (e = .returned → keys' = []) ∧
    (∀ x, e = .raised x → ∃ f g, (f, g) ∈ fs ∧ f.Fails x ∧ (swiftAgain x = false ∨ g = true)) := by
  obtain ⟨hv, h0⟩ := detect_fits ht hm hd hb
  unfold deleteMulti at h
  split at h
  · rename_i hk
    cases h
    subst hk
    exact ⟨fun k hk => by (cases hk), fun _ _ => rfl, List.Sublist.refl _, fun _ => rfl, (fun x hx => by cases hx)⟩
  · rename_i hk
    have hlen : 0 < keys.length := List.length_pos_iff.2 hk
    obtain ⟨_, b2, b3, b4, b5, b6⟩ := run_spec hv h0 fs s s' (keys.take f.maxDeletes) (keys.drop f.maxDeletes) keys' e (by rw [List.length_take]; omega)
      (by intro h; have := congrArg List.length h; rw [List.length_take, List.length_nil] at this; omega) h
    rw [List.take_append_drop] at b2 b3 b4
    exact ⟨b2, b3, b4, b5, b6⟩

/-- C41, Swift: if all failures are temporary and do not last too long, `delete_multi` returns as soon as one request for each full batch of keys has met no failure; then everything is deleted. -/
theorem C41_swift_completes {v : Server} {i : Info} {f : Features} (ht : v.Tells i) (hm : v.missing = 200 ∨ v.missing = 400 ∨ v.missing = 404) (hd : detect false i = some f) (hb : f.bulk = true)
    {fs good : List (Fate K × Bool)} {s s' : Store K} {keys keys' : List K} {e : Ending} (h : deleteMulti v f.maxDeletes fs s keys = (s', keys', e))
    (htmp : ∀ p ∈ fs, p.2 = false ∧ ∀ x, p.1.Fails x → swiftAgain x = true) (hsub : good.Sublist fs) (hgood : ∀ p ∈ good, p.1.Healthy) (hlen : keys.length ≤ good.length * f.maxDeletes) :
    e = .returned ∧ ∀ k ∈ keys, s' k = false := by
  obtain ⟨c1, _, _, c4, c5⟩ := C41_swift_bulk ht hm hd hb h
  have hret : e = .returned := by
    cases e with
    | returned => rfl
    | raised x =>
      obtain ⟨f', g', d1, d2, d3⟩ := c5 x rfl
      obtain ⟨e1, e2⟩ := htmp _ d1
      rcases d3 with d3 | d3
      · rw [e2 x d2] at d3; cases d3
      · rw [d3] at e1; cases e1
    | still =>
      obtain ⟨hv, h0⟩ := detect_fits ht hm hd hb
      unfold deleteMulti at h
      split at h
      · cases h
      · rename_i hk
        have hpos : 0 < keys.length := List.length_pos_iff.2 hk
        obtain ⟨m, hgm⟩ : ∃ m, good.length = m + 1 := by
          cases hl : good.length with
          | zero => rw [hl] at hlen; omega
          | succ m => exact ⟨m, rfl⟩
        rw [hgm, Nat.succ_mul] at hlen
        refine absurd (congrArg (fun r => r.2.2) h) (run_ends hv h0 fs good s _ _ (by rw [List.length_take]; omega) ?_ hsub hgood (by omega)
          (by rw [List.length_drop, hgm, Nat.add_sub_cancel]; omega))
        intro h
        have := congrArg List.length h
        rw [List.length_take, List.length_nil] at this
        omega
  exact ⟨hret, fun k hk => c1 k hk (by rw [c4 hret]; exact List.not_mem_nil)⟩

/-- C41, Swift: the limit matters.  If batches were longer than the number of failures after which the server stops, keys that it has not handled would disappear from the list although
their objects exist. -/
theorem C41_swift_batch_limit : (fun (r : Store Nat × List Nat × Ending) => (r.1 2, r.2.1)) (deleteMulti ⟨1, 10, 200⟩ 2 [(.answered (fun _ => .fail 503 [] false), true)] (fun _ => true) [1, 2]) = (true, [1]) := by
  decide

/-- C34, Swift: the length of the parts of metadata is never larger than what the server announces. -/
theorem C34_swift_limit {i : Info} {f : Features} (hd : detect false i = some f) (hs : i.status = 200) : f.maxMeta ≤ 255 ∧ ∀ m, i.maxMeta = some m → f.maxMeta ≤ m := by
  have key : (match i.maxMeta with | some m => if m < 256 then m else 255 | none => 255) ≤ (255 : Int) ∧
      ∀ m, i.maxMeta = some m → (match i.maxMeta with | some m => if m < 256 then m else 255 | none => 255) ≤ (m : Int) := by
    cases i.maxMeta with
    | none => exact ⟨by decide, fun m h => by cases h⟩
    | some m =>
      refine ⟨?_, fun m' h => ?_⟩
      · dsimp only; split <;> omega
      · cases h; dsimp only; split <;> omega
  unfold detect at hd
  rw [if_neg (by decide), if_neg (by rw [hs]; decide), if_neg (by rw [hs]; decide)] at hd
  split at hd
  · cases hd
  · dsimp only at hd
    split at hd
    · cases hd; exact key
    · split at hd
      · cases hd; exact key
      · cases hd

/-! #### A history that meets the hypotheses -/

def demoInfo : Info := ⟨200, true, some 128, some (some 2, none)⟩
def demoServer : Server := ⟨2, 10000, 400⟩

example : detect false demoInfo = some ⟨true, 2, 128⟩ ∧ demoServer.Tells demoInfo := ⟨by decide, _, _, rfl, rfl, rfl⟩

/-- Three objects; first the token has expired, then an answer is lost, then one object cannot be deleted at the moment, then everything works. -/
def demoFates : List (Fate Nat × Bool) :=
  [(.answered (fun _ => .fail 401 "Unauthorized".toList false), false), (.lost (fun k => if k = 1 then .deleted else .fail 503 [] false) .network, false),
    (.answered (fun k => if k = 2 then .fail 503 [] false else .deleted), false), (.answered (fun _ => .deleted), false), (.answered (fun _ => .deleted), false)]

example : deleteMulti demoServer 2 demoFates (fun k => decide (k < 4)) [1, 2, 3] = (fun r => (r.1, [], .returned)) (deleteMulti demoServer 2 demoFates (fun k => decide (k < 4)) [1, 2, 3]) ∧
    (∀ p ∈ demoFates, p.2 = false ∧ ∀ x, p.1.Fails x → swiftAgain x = true) := by
  refine ⟨rfl, ?_⟩
  intro p hp
  simp only [demoFates, List.mem_cons, List.not_mem_nil, or_false] at hp
  rcases hp with rfl | rfl | rfl | rfl | rfl
  · exact ⟨rfl, by rintro x ⟨k, c, m, g, h, rfl⟩; cases h; rfl⟩
  · exact ⟨rfl, by rintro x rfl; rfl⟩
  · refine ⟨rfl, ?_⟩
    rintro x ⟨k, c, m, g, h, rfl⟩
    dsimp only at h
    split at h
    · cases h; decide
    · cases h
  · exact ⟨rfl, by rintro x ⟨k, c, m, g, h, rfl⟩; cases h⟩
  · exact ⟨rfl, by rintro x ⟨k, c, m, g, h, rfl⟩; cases h⟩

end Verif.Backend.SwiftBulk
