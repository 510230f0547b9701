/-
Property C41: deletion of several objects (`delete_multi` of the local, S3 and Swift backends, and the generic one).
A store is the set of the keys that exist.
-/
namespace Verif.Backend.DeleteMulti

variable {K : Type} [DecidableEq K]

abbrev Store (K : Type) := K → Bool

def Store.remove (s : Store K) (k : K) : Store K := fun x => if x = k then false else s x

/-- How a single `delete(key)` ends: success, or an exception, in which case the object may or may not be gone. -/
inductive Del where
  | ok
  | raise (gone : Bool)

def Del.apply (s : Store K) (k : K) : Del → Store K × Bool
  | .ok => (s.remove k, true)
  | .raise true => (s.remove k, false)
  | .raise false => (s, false)

theorem Del.apply_ok {s s' : Store K} {k : K} {d : Del} (h : d.apply s k = (s', true)) : s' k = false := by
  cases d with
  | ok => simp only [Del.apply, Prod.mk.injEq] at h; rw [← h.1]; simp [Store.remove]
  | raise g => cases g <;> simp [Del.apply] at h

theorem Del.apply_mono {s : Store K} {k x : K} {d : Del} (h : s x = false) : (d.apply s k).1 x = false := by
  cases d with
  | ok => simp only [Del.apply, Store.remove]; split <;> simp [h]
  | raise g => cases g <;> simp only [Del.apply, Store.remove] <;> (try split) <;> simp [h]

/-- Result of a bulk deletion: the store, the caller's list afterwards, and whether it returned normally. -/
structure Res (K : Type) where
  store : Store K
  keys : List K
  ok : Bool

/-! ### Local backend (local.py:203-214) -/

/-- The loop, with the keys deleted so far; `d i` is what happens when the `i`-th key is deleted. -/
def localLoop (d : Nat → Del) (all : List K) : Nat → Store K → List K → Res K
  | _, s, [] => ⟨s, [], true⟩
  | i, s, k :: ks =>
    match (d i).apply s k with
    | (s', true) => localLoop d all (i + 1) s' ks
    | (s', false) => ⟨s', all.drop i, false⟩

def localDeleteMulti (d : Nat → Del) (s : Store K) (keys : List K) : Res K := localLoop d keys 0 s keys

theorem localLoop_spec (d : Nat → Del) (done rest : List K) (s : Store K) (h : ∀ k ∈ done, s k = false) :
    let r := localLoop d (done ++ rest) done.length s rest
    (∃ gone, done ++ rest = gone ++ r.keys ∧ ∀ k ∈ gone, r.store k = false) ∧ (r.ok = true → r.keys = []) := by
  induction rest generalizing done s with
  | nil => exact ⟨⟨done, by simp [localLoop], h⟩, fun _ => rfl⟩
  | cons k ks ih =>
    unfold localLoop
    cases hd : (d done.length).apply s k with
    | mk s' ok =>
      cases ok with
      | true =>
        dsimp only
        have := ih (done ++ [k]) s' (by
          intro x hx
          rcases List.mem_append.1 hx with hx | hx
          · have h2 := Del.apply_mono (k := k) (d := d done.length) (h x hx)
            rw [hd] at h2; exact h2
          · simp only [List.mem_singleton] at hx
            subst hx; exact Del.apply_ok hd)
        rw [List.length_append, List.append_assoc] at this
        exact this
      | false =>
        dsimp only
        refine ⟨⟨done, by simp, ?_⟩, by simp⟩
        intro x hx
        have h2 := Del.apply_mono (k := k) (d := d done.length) (h x hx)
        rw [hd] at h2; exact h2

/-- **C41 (local backend).**  Whatever happens to the single deletions, the keys no longer in the caller's list are the
first ones of it, and their objects are gone; if the call returns normally, none is left. -/
theorem C41_local (d : Nat → Del) (s : Store K) (keys : List K) :
    (∃ gone, keys = gone ++ (localDeleteMulti d s keys).keys ∧ ∀ k ∈ gone, (localDeleteMulti d s keys).store k = false) ∧
    ((localDeleteMulti d s keys).ok = true → (localDeleteMulti d s keys).keys = []) :=
  localLoop_spec d [] keys s (by simp)

/-! ### S3 (s3c4.py:88-150) -/

/-- What the server does with one key of a bulk request. -/
inductive KeyRes where
  | deleted
  /-- error `NoSuchKey`: there was no such object -/
  | noSuchKey
  /-- another error; the object may be there or not -/
  | error

/-- The store after a bulk request: `f k` is what happens to key `k`. -/
def serve (s : Store K) (f : K → KeyRes) (keys : List K) : Store K := fun x =>
  if x ∈ keys then (match f x with | .error => s x | _ => false) else s x

def KeyRes.isDeleted : KeyRes → Bool
  | .deleted => true
  | _ => false

def KeyRes.isError : KeyRes → Bool
  | .error => true
  | _ => false

/-- One execution of `_delete_multi` (s3c4.py:100-150): the keys left in the batch and whether it returned.  `none`: no
usable answer; the server may have handled the request or not. -/
def s3Batch (s : Store K) (keys : List K) : Option (K → KeyRes) → Res K
  | none => ⟨s, keys, false⟩
  | some f =>
    let errors := keys.filter (fun k => !(f k).isDeleted)
    match errors with
    | [] => ⟨serve s f keys, [], true⟩
    | e :: _ =>
      -- the deleted keys are removed; the first error decides whether the call fails
      ⟨serve s f keys, keys.filter (fun k => !(f k).isDeleted), !(f e).isError⟩

/-- A batch with the retries of the decorator: attempts until one returns or fails for good (the end of the list). -/
def s3Retry (s : Store K) (keys : List K) : List (Option (K → KeyRes)) → Res K
  | [] => ⟨s, keys, false⟩
  | a :: as =>
    let r := s3Batch s keys a
    if r.ok then r else s3Retry r.store r.keys as

/-- `delete_multi` (s3c4.py:88-98) over the batches: the keys that were not deleted are collected, and the caller's list
is only changed at the end. -/
def s3Loop (all : List K) : Store K → List K → List (List K × List (Option (K → KeyRes))) → Res K
  | s, failures, [] => ⟨s, failures, true⟩
  | s, failures, (batch, as) :: rest =>
    let r := s3Retry s batch as
    if r.ok then s3Loop all r.store (failures ++ r.keys) rest else ⟨r.store, all, false⟩

theorem serve_mono {s : Store K} {f : K → KeyRes} {keys : List K} {x : K} (h : s x = false) : serve s f keys x = false := by
  unfold serve; split
  · split <;> simp_all
  · exact h

theorem s3Batch_spec (s : Store K) (keys : List K) (a : Option (K → KeyRes)) :
    let r := s3Batch s keys a
    (∀ k ∈ keys, k ∈ r.keys ∨ r.store k = false) ∧ (∀ k ∈ r.keys, k ∈ keys) ∧ (∀ x, s x = false → r.store x = false) := by
  cases a with
  | none => exact ⟨fun k h => Or.inl h, fun k h => h, fun x h => h⟩
  | some f =>
    have hdel : ∀ k ∈ keys, k ∈ keys.filter (fun k => !(f k).isDeleted) ∨ serve s f keys k = false := by
      intro k hk
      cases hf : f k with
      | deleted => right; simp [serve, hk, hf]
      | noSuchKey => left; simp [hk, hf, KeyRes.isDeleted]
      | error => left; simp [hk, hf, KeyRes.isDeleted]
    dsimp only
    unfold s3Batch
    dsimp only
    split
    · next h0 =>
      refine ⟨?_, by simp, fun x => serve_mono⟩
      intro k hk
      rcases hdel k hk with h | h
      · rw [h0] at h; cases h
      · exact Or.inr h
    · exact ⟨hdel, fun k hk => (List.mem_filter.1 hk).1, fun x => serve_mono⟩

theorem s3Retry_spec (as : List (Option (K → KeyRes))) : ∀ (s : Store K) (keys : List K),
    let r := s3Retry s keys as
    (∀ k ∈ keys, k ∈ r.keys ∨ r.store k = false) ∧ (∀ k ∈ r.keys, k ∈ keys) ∧ (∀ x, s x = false → r.store x = false) := by
  induction as with
  | nil => intro s keys; exact ⟨fun k h => Or.inl h, fun k h => h, fun x h => h⟩
  | cons a as ih =>
    intro s keys
    obtain ⟨h1, h2, h3⟩ := s3Batch_spec s keys a
    dsimp only [s3Retry]
    split
    · exact ⟨h1, h2, h3⟩
    · obtain ⟨i1, i2, i3⟩ := ih (s3Batch s keys a).store (s3Batch s keys a).keys
      refine ⟨?_, fun k hk => h2 k (i2 k hk), fun x hx => i3 x (h3 x hx)⟩
      intro k hk
      rcases h1 k hk with h | h
      · exact i1 k h
      · exact Or.inr (i3 k h)

/-- **C41 (S3).**  For every division into batches and every behaviour of the server and of the connection, a key that
is no longer in the caller's list has been deleted. -/
theorem C41_s3 (keys : List K) (s : Store K) (batches : List (List K × List (Option (K → KeyRes))))
    (hb : (batches.map (·.1)).flatten = keys) :
    ∀ k ∈ keys, k ∈ (s3Loop keys s [] batches).keys ∨ (s3Loop keys s [] batches).store k = false := by
  suffices ∀ (batches : List (List K × List (Option (K → KeyRes)))) (done : List K) (s : Store K) (failures : List K),
      (∀ k ∈ done, k ∈ failures ∨ s k = false) → done ++ (batches.map (·.1)).flatten = keys →
      ∀ k ∈ keys, k ∈ (s3Loop keys s failures batches).keys ∨ (s3Loop keys s failures batches).store k = false from
    this batches [] s [] (by simp) (by simpa using hb)
  intro batches
  induction batches with
  | nil =>
    intro done s failures h hk
    simp only [List.map_nil, List.flatten_nil, List.append_nil] at hk
    subst hk; exact h
  | cons b rest ih =>
    intro done s failures h hk
    obtain ⟨batch, as⟩ := b
    obtain ⟨h1, _, h3⟩ := s3Retry_spec as s batch
    dsimp only [s3Loop]
    split
    · refine ih (done ++ batch) _ _ ?_ (by simpa using hk)
      intro k hk'
      rcases List.mem_append.1 hk' with hk' | hk'
      · rcases h k hk' with h4 | h4
        · exact Or.inl (by simp [h4])
        · exact Or.inr (h3 k h4)
      · rcases h1 k hk' with h4 | h4
        · exact Or.inl (by simp [h4])
        · exact Or.inr h4
    · intro k hk'; exact Or.inl hk'

theorem s3Retry_ok (as : List (Option (K → KeyRes))) : ∀ (s : Store K) (keys all : List K), (∀ k ∈ keys, k ∈ all) →
    (∃ f, some f ∈ as ∧ ∀ k ∈ all, f k ≠ .error) → (s3Retry s keys as).ok = true := by
  induction as with
  | nil => rintro s keys all _ ⟨f, h, _⟩; cases h
  | cons a as ih =>
    rintro s keys all hsub ⟨f, h, hf⟩
    dsimp only [s3Retry]
    split
    · assumption
    · next hno =>
      rcases List.mem_cons.1 h with h | h
      · exfalso
        apply hno
        subst h
        unfold s3Batch
        dsimp only
        split
        · rfl
        · next e t he =>
          have hm : e ∈ keys.filter (fun k => !(f k).isDeleted) := by rw [he]; exact List.mem_cons_self
          have := hf e (hsub e (List.mem_filter.1 hm).1)
          cases hfe : f e <;> simp_all [KeyRes.isError]
      · exact ih _ _ all (fun k hk => hsub k ((s3Batch_spec s keys a).2.1 k hk)) ⟨f, h, hf⟩

/-- **C41 (S3), success.**  If every batch gets at some time an answer without an error other than that the object does not
exist, the call returns. -/
theorem C41_s3_returns (keys : List K) (s : Store K) (batches : List (List K × List (Option (K → KeyRes))))
    (h : ∀ b ∈ batches, ∃ f, some f ∈ b.2 ∧ ∀ k ∈ b.1, f k ≠ .error) : (s3Loop keys s [] batches).ok = true := by
  suffices ∀ (batches : List (List K × List (Option (K → KeyRes)))) (s : Store K) (failures : List K),
      (∀ b ∈ batches, ∃ f, some f ∈ b.2 ∧ ∀ k ∈ b.1, f k ≠ .error) → (s3Loop keys s failures batches).ok = true from this batches s [] h
  intro batches
  induction batches with
  | nil => intros; rfl
  | cons b rest ih =>
    intro s failures h
    obtain ⟨batch, as⟩ := b
    have h1 := s3Retry_ok as s batch batch (fun k hk => hk) (h _ List.mem_cons_self)
    dsimp only [s3Loop]
    rw [if_pos h1]
    exact ih _ _ (fun b hb => h b (List.mem_cons_of_mem _ hb))

/-- Two batches; the first attempt at the second one gets no answer, and one of its keys does not exist. -/
example : let bs : List (List Nat × List (Option (Nat → KeyRes))) := [([1], [some (fun _ => .deleted)]), ([2, 3], [none, some (fun k => if k = 2 then .noSuchKey else .deleted)])]
    (∀ b ∈ bs, ∃ f, some f ∈ b.2 ∧ ∀ k ∈ b.1, f k ≠ .error) ∧ (s3Loop [1, 2, 3] (fun _ => true) [] bs).keys = [2] := by
  refine ⟨?_, by decide⟩
  intro b hb
  simp only [List.mem_cons, List.not_mem_nil, or_false] at hb
  rcases hb with rfl | rfl
  · exact ⟨fun _ => .deleted, by simp, fun k _ h => by cases h⟩
  · refine ⟨fun k => if k = 2 then .noSuchKey else .deleted, by simp, fun k _ h => ?_⟩
    dsimp only at h
    split at h <;> cases h

/-- When a later batch fails, the keys deleted by the earlier ones are still in the caller's list (the documentation
promises "exactly those keys that have not been deleted"). -/
theorem C41_s3_error_keeps_deleted :
    (s3Loop [1, 2] (fun _ => true) [] [([1], [some (fun _ => .deleted)]), ([2], [none])]).keys = [1, 2] ∧
    (s3Loop [1, 2] (fun _ => true) [] [([1], [some (fun _ => .deleted)]), ([2], [none])]).store 1 = false := by decide

/-! ### Swift bulk deletion (swift.py:613-783) -/

/-- The answer of the bulk middleware. -/
structure SwiftResp (K : Type) where
  status : Nat
  notFound : Nat
  errors : List K

/-- One execution of `_delete_multi` after the answer was parsed (swift.py:702-767). -/
def swiftBatch (keys : List K) (r : SwiftResp K) : List K × Bool :=
  if r.status = 200 ∨ ((r.status = 400 ∨ r.status = 404) ∧ r.errors.length = 0 ∧ 0 < r.notFound) then ([], true)
  else (keys.filter (fun k => decide (k ∈ r.errors)), false)

/-- What the code needs of the server: a key it does not name as failed is gone, whenever the status is not a success
status; a success status or "not found" means that all of them are gone. -/
def SwiftHonest (s' : Store K) (keys : List K) (r : SwiftResp K) : Prop := ∀ k ∈ keys, k ∉ r.errors → s' k = false

/-- **C41 (Swift).**  If the server names every key it could not delete, the keys no longer in the list are deleted. -/
theorem C41_swift_partial (keys : List K) (r : SwiftResp K) (s' : Store K) (h : SwiftHonest s' keys r)
    (h200 : r.status = 200 → r.errors = []) :
    ∀ k ∈ keys, k ∈ (swiftBatch keys r).1 ∨ s' k = false := by
  intro k hk
  unfold swiftBatch
  split
  · next hc =>
    right
    refine h k hk ?_
    rcases hc with hc | ⟨_, hc, _⟩
    · rw [h200 hc]; simp
    · rw [List.length_eq_zero_iff.1 hc]; simp
  · by_cases he : k ∈ r.errors
    · left; simp [hk, he]
    · exact Or.inr (h k hk he)

/-- **C41 is false of the Swift backend** if the whole request is refused: an error status with an empty list of errors
(the middleware does this, e.g. for an expired token or too many deletions) empties the caller's list although nothing
was deleted. -/
theorem C41_swift_violated : swiftBatch [1, 2] ⟨401, 0, []⟩ = (([], false) : List Nat × Bool) := by decide

/-! ### Parallel deletion (common.py `_ParallelDelete` 693-725) -/

/-- State of the parallel deletion: jobs not yet handed out, jobs being processed, the caller's list, the store. -/
structure Par (K : Type) where
  queue : List K
  busy : List K
  keys : List K
  store : Store K
  failed : Bool

inductive ParOp (K : Type) where
  /-- a worker takes the next job -/
  | take
  /-- the deletion of a key in progress ends -/
  | finish (k : K) (d : Del)
  /-- the worker is cancelled because another one failed; the object may be gone -/
  | cancel (k : K) (gone : Bool)

def parStep (p : Par K) : ParOp K → Option (Par K)
  | .take =>
    match p.queue with
    | [] => none
    | k :: q => if p.failed then none else some { p with queue := q, busy := k :: p.busy }
  | .finish k d =>
    if k ∈ p.busy then
      match d.apply p.store k with
      | (s', true) => some { p with busy := p.busy.erase k, keys := p.keys.erase k, store := s' }
      | (s', false) => some { p with busy := p.busy.erase k, store := s', failed := true }
    else none
  | .cancel k gone =>
    if k ∈ p.busy ∧ p.failed then
      some { p with busy := p.busy.erase k, store := if gone then p.store.remove k else p.store }
    else none

def parRun (p : Par K) : List (ParOp K) → Option (Par K)
  | [] => some p
  | o :: os => match parStep p o with
    | some p' => parRun p' os
    | none => none

/-- `delete_multi` of common.py:395 starts with all keys queued. -/
def parInit (s : Store K) (keys : List K) : Par K := ⟨keys, [], keys, s, false⟩

/-- Invariant: every key of the original list is still in the caller's list, or gone; and unless a deletion failed, every
occurrence in the caller's list is queued or busy. -/
structure ParInv (orig : List K) (p : Par K) : Prop where
  gone : ∀ k ∈ orig, k ∈ p.keys ∨ p.store k = false
  count : ∀ k, (p.queue.count k + p.busy.count k) ≤ p.keys.count k
  countEq : p.failed = false → ∀ k, p.queue.count k + p.busy.count k = p.keys.count k

theorem parInv_step {orig : List K} {p p' : Par K} {o : ParOp K} (h : ParInv orig p) (hs : parStep p o = some p') :
    ParInv orig p' := by
  obtain ⟨h1, h2, h3⟩ := h
  cases o with
  | take =>
    simp only [parStep] at hs
    split at hs <;> try (cases hs; done)
    rename_i k q hq
    split at hs <;> cases hs
    refine ⟨h1, ?_, ?_⟩
    · intro x
      have := h2 x
      rw [hq, List.count_cons] at this
      show q.count x + (k :: p.busy).count x ≤ p.keys.count x
      rw [List.count_cons]; omega
    · intro hf x
      have := h3 hf x
      rw [hq, List.count_cons] at this
      show q.count x + (k :: p.busy).count x = p.keys.count x
      rw [List.count_cons]; omega
  | finish k d =>
    simp only [parStep] at hs
    split at hs <;> try (cases hs; done)
    rename_i hk
    have hbk : 0 < p.busy.count k := List.count_pos_iff.2 hk
    split at hs <;> cases hs
    · rename_i s' hd
      refine ⟨?_, ?_, ?_⟩
      · intro x hx
        rcases h1 x hx with h4 | h4
        · by_cases hxk : x = k
          · subst hxk; exact Or.inr (Del.apply_ok hd)
          · exact Or.inl ((List.mem_erase_of_ne hxk).2 h4)
        · right
          have := Del.apply_mono (k := k) (d := d) h4
          rw [hd] at this; exact this
      · intro x
        have := h2 x
        have hk2 := h2 k
        show p.queue.count x + (p.busy.erase k).count x ≤ (p.keys.erase k).count x
        by_cases hxk : x = k
        · subst hxk; rw [List.count_erase_self, List.count_erase_self]; omega
        · rw [List.count_erase_of_ne hxk, List.count_erase_of_ne hxk]; exact this
      · intro hf x
        have := h3 hf x
        show p.queue.count x + (p.busy.erase k).count x = (p.keys.erase k).count x
        by_cases hxk : x = k
        · subst hxk; rw [List.count_erase_self, List.count_erase_self]; omega
        · rw [List.count_erase_of_ne hxk, List.count_erase_of_ne hxk]; exact this
    · rename_i s' hd
      refine ⟨?_, ?_, by intro hf; cases hf⟩
      · intro x hx
        rcases h1 x hx with h4 | h4
        · exact Or.inl h4
        · right
          have := Del.apply_mono (k := k) (d := d) h4
          rw [hd] at this; exact this
      · intro x
        have := h2 x
        show p.queue.count x + (p.busy.erase k).count x ≤ p.keys.count x
        have h5 : (p.busy.erase k).count x ≤ p.busy.count x := List.Sublist.count_le _ List.erase_sublist
        omega
  | cancel k gone =>
    simp only [parStep] at hs
    split at hs <;> try (cases hs; done)
    rename_i hk
    cases hs
    refine ⟨?_, ?_, by intro hf; have hf : p.failed = false := hf; rw [hk.2] at hf; cases hf⟩
    · intro x hx
      rcases h1 x hx with h4 | h4
      · exact Or.inl h4
      · right
        show (if gone = true then p.store.remove k else p.store) x = false
        split
        · unfold Store.remove; split <;> simp [h4]
        · exact h4
    · intro x
      have := h2 x
      show p.queue.count x + (p.busy.erase k).count x ≤ p.keys.count x
      have h5 : (p.busy.erase k).count x ≤ p.busy.count x := List.Sublist.count_le _ List.erase_sublist
      omega

theorem parInv_run {orig : List K} {ops : List (ParOp K)} : ∀ {p p' : Par K}, ParInv orig p → parRun p ops = some p' →
    ParInv orig p' := by
  induction ops with
  | nil => intro p p' h hr; cases hr; exact h
  | cons o os ih =>
    intro p p' h hr
    simp only [parRun] at hr
    split at hr
    · next p1 h1 => exact ih (parInv_step h h1) hr
    · cases hr

/-- **C41 (generic backend).**  In every state any schedule of the parallel deletion can reach, a key no longer in the
caller's list has been deleted; and when all jobs are done without a failure, the list is empty. -/
theorem C41_parallel (s : Store K) (keys : List K) (ops : List (ParOp K)) (p : Par K)
    (h : parRun (parInit s keys) ops = some p) :
    (∀ k ∈ keys, k ∈ p.keys ∨ p.store k = false) ∧
    (p.failed = false → p.queue = [] → p.busy = [] → p.keys = []) := by
  have hi : ParInv keys p := parInv_run ⟨fun k h => Or.inl h, by simp [parInit], by simp [parInit]⟩ h
  refine ⟨hi.gone, ?_⟩
  intro hf hq hb
  rw [List.eq_nil_iff_forall_not_mem]
  intro k hk
  have := hi.countEq hf k
  rw [hq, hb] at this
  have h2 : 0 < p.keys.count k := List.count_pos_iff.2 hk
  simp at this
  omega

example : (parRun (parInit (fun _ => true) [1, 2, 3]) [.take, .take, .finish 2 .ok, .finish 1 (.raise false)]).map (·.keys) =
    some [1, 3] := by decide
example : (localDeleteMulti (fun i => if i = 2 then .raise false else .ok) (fun _ => true) [5, 6, 7, 8]).keys = [7, 8] := by
  decide

end Verif.Backend.DeleteMulti
