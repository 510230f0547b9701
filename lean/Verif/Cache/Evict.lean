/-
C86: the limits of the block cache: what `evict` removes (block_cache.py:742-786), what limits mount.s3ql sets (mount.py:453-480), and what
`s3qlctrl cachesize` sets (ctrl.py:76-85, fs.py:332-340).

One call of `evict`, while no other task uses the cache; uploads run at the same time, in any order.  What holds with other tasks is C04, C06 and C59.
-/
namespace Verif.Cache.Evict

/-! #### Model -/

/-- State of a cache entry: `same` is dirty, but there is an object with the same contents. -/
inductive Stt where
  | clean
  | dirty
  | same
  | transit
  deriving DecidableEq, Repr

/-- A cache entry (block_cache.py:45-80). -/
structure E where
  key : Nat
  size : Nat
  st : Stt
  deriving DecidableEq, Repr

/-- `cache.size`. -/
def total (l : List E) : Nat := (l.map (·.size)).sum

/-- One pass of the loop over the entries, the least recently used first (block_cache.py:758-780), with `need_size` and `need_entries`.  What stays,
and `sth_in_transit`.  `upload_if_dirty` (block_cache.py:420-534) starts an upload and returns true, or returns true because there is one, or links the block with an
existing object and returns false.  Simplified: it does not fail; uploads end only while `wait` waits. -/
def pass : Int → Int → List E → List E × Bool
  | _, _, [] => ([], false)
  | ns, ne, e :: es =>
    if ns ≤ 0 ∧ ne ≤ 0 then (e :: es, false)
    else
      let r := pass (ns - e.size) (ne - 1) es
      match e.st with
      | .transit => (e :: r.1, true)
      | .dirty => ({ e with st := .transit } :: r.1, true)
      | .same => r
      | .clean => r

/-- Uploads that end while `wait` (block_cache.py:403-418) waits. -/
def complete (f : Nat → Bool) (l : List E) : List E := l.map (fun e => if e.st = .transit ∧ f e.key = true then { e with st := .clean } else e)

/-- `evict` (block_cache.py:742-786), at most `n` rounds; `none`: it is still running.  `done`: which uploads end in a round. -/
def evict (maxSize maxEntries : Int) (done : Nat → List E → Nat → Bool) : Nat → List E → Option (List E)
  | 0, _ => none
  | n + 1, l =>
    let ns := (total l : Int) - maxSize
    let ne := (l.length : Int) - maxEntries
    if ns ≤ 0 ∧ ne ≤ 0 then some l
    else
      let r := pass ns ne l
      evict maxSize maxEntries done n (if r.2 then complete (done n r.1) r.1 else r.1)

/-- `is_full` (block_cache.py:184-185). -/
def isFull (maxSize maxEntries : Int) (l : List E) : Bool := decide ((total l : Int) > maxSize) || decide ((l.length : Int) > maxEntries)

/-- Limits of the cache: `none` if mount.s3ql refuses to start. -/
abbrev Limit := Option Int

/-- The file descriptors that the process may use (mount.py:456-459). -/
def openFiles (hard : Option Nat) : Int :=
  match hard with
  | none => 4096
  | some n => (n : Int)

/-- `_determine_max_cache_entries` (mount.py:453-480).  `hard`: the hard limit for open files, `none` if there is none. -/
def maxEntries (hard : Option Nat) (conns : Nat) (req : Option Int) : Limit :=
  let fd : Int := openFiles hard - (32 + 3 * conns)
  match req with
  | none => if fd ≤ 64 then none else some fd
  | some r => if r > fd then some fd else some r

/-- `s3qlctrl cachesize`: the new `max_size` (ctrl.py:85, fs.py:334-339). -/
def ctrlSize (kib : Int) : Int := kib * 1024

/-! #### Specification -/

/-- The entries are within the limits. -/
def Fits (maxSize maxEntries : Int) (l : List E) : Prop := (total l : Int) ≤ maxSize ∧ (l.length : Int) ≤ maxEntries

/-- As long as there are uploads, one ends at some time. -/
def Fair (done : Nat → List E → Nat → Bool) : Prop := ∀ n l, (∃ e ∈ l, e.st = .transit) → ∃ e ∈ l, e.st = .transit ∧ done n l e.key = true

/-! #### Proof -/

def work : Stt → Nat
  | .dirty => 2
  | .transit => 1
  | _ => 0

def measure (l : List E) : Nat := (l.map (fun e => work e.st)).sum

theorem measure_cons (e : E) (l : List E) : measure (e :: l) = work e.st + measure l := by simp [measure]

theorem total_cons (e : E) (l : List E) : total (e :: l) = e.size + total l := by simp [total]

theorem measure_le (l : List E) : measure l ≤ 2 * l.length := by
  induction l with
  | nil => simp [measure]
  | cons e l ih =>
    rw [measure_cons, List.length_cons]
    have : work e.st ≤ 2 := by cases e.st <;> simp [work]
    omega

/-- A pass does not make more work, and what it waits for is there. -/
theorem pass_work : ∀ (l : List E) (ns ne : Int), measure (pass ns ne l).1 ≤ measure l ∧ ((pass ns ne l).2 = true → ∃ e ∈ (pass ns ne l).1, e.st = .transit)
  | [], ns, ne => by simp [pass]
  | e :: es, ns, ne => by
    obtain ⟨h1, h2⟩ := pass_work es (ns - e.size) (ne - 1)
    unfold pass
    split
    · exact ⟨Nat.le_refl _, fun h => nomatch h⟩
    · rw [measure_cons]
      cases he : e.st with
      | clean => exact ⟨Nat.le_trans h1 (Nat.le_add_left _ _), h2⟩
      | same => exact ⟨Nat.le_trans h1 (Nat.le_add_left _ _), h2⟩
      | dirty =>
        simp only [measure_cons]
        refine ⟨by simp only [work]; omega, fun _ => ⟨_, List.mem_cons_self, rfl⟩⟩
      | transit =>
        simp only [measure_cons]
        refine ⟨by rw [he]; simp only [work]; omega, fun _ => ⟨_, List.mem_cons_self, he⟩⟩

/-- A pass that starts or finds no upload removes everything it looks at. -/
theorem pass_false : ∀ (l : List E) (ns ne : Int), (pass ns ne l).2 = false →
    (pass ns ne l).1 = [] ∨ ((total (pass ns ne l).1 : Int) ≤ total l - ns ∧ ((pass ns ne l).1.length : Int) ≤ l.length - ne)
  | [], ns, ne => by simp [pass]
  | e :: es, ns, ne => by
    intro h
    have ih := pass_false es (ns - e.size) (ne - 1)
    unfold pass at h ⊢
    split at h
    · rename_i hc
      rw [if_pos hc]
      right; simp only; omega
    · rename_i hc
      rw [if_neg hc]
      have key : (pass (ns - e.size) (ne - 1) es).2 = false → (pass (ns - e.size) (ne - 1) es).1 = [] ∨
          ((total (pass (ns - e.size) (ne - 1) es).1 : Int) ≤ total (e :: es) - ns ∧ ((pass (ns - e.size) (ne - 1) es).1.length : Int) ≤ (e :: es).length - ne) := by
        intro hp
        rcases ih hp with h | ⟨h1, h2⟩
        · exact Or.inl h
        · rw [total_cons, List.length_cons]
          right; omega
      cases he : e.st with
      | clean => rw [he] at h; exact key h
      | same => rw [he] at h; exact key h
      | dirty => rw [he] at h; cases h
      | transit => rw [he] at h; cases h

theorem complete_le (f : Nat → Bool) : ∀ l : List E, measure (complete f l) ≤ measure l
  | [] => Nat.le_refl _
  | e :: l => by
    have := complete_le f l
    show measure ((if e.st = .transit ∧ f e.key = true then { e with st := .clean } else e) :: complete f l) ≤ _
    rw [measure_cons, measure_cons]
    split
    · simp only [work]; omega
    · omega

theorem complete_lt (f : Nat → Bool) : ∀ l : List E, (∃ e ∈ l, e.st = .transit ∧ f e.key = true) → measure (complete f l) < measure l
  | [], h => by obtain ⟨_, h, _⟩ := h; cases h
  | e :: l, h => by
    show measure ((if e.st = .transit ∧ f e.key = true then { e with st := .clean } else e) :: complete f l) < _
    rw [measure_cons, measure_cons]
    obtain ⟨x, hx, h1⟩ := h
    have hle := complete_le f l
    by_cases hc : e.st = .transit ∧ f e.key = true
    · rw [if_pos hc, hc.1]; simp only [work]; omega
    · rw [if_neg hc]
      rcases List.mem_cons.1 hx with rfl | hx
      · exact absurd h1 hc
      · have := complete_lt f l ⟨x, hx, h1⟩; omega

theorem complete_keys (f : Nat → Bool) (l : List E) : (complete f l).map (fun e => (e.key, e.size)) = l.map (fun e => (e.key, e.size)) := by
  unfold complete
  rw [List.map_map]
  apply List.map_congr_left
  intro e _
  show ((if e.st = .transit ∧ f e.key = true then { e with st := .clean } else e : E).key, _) = _
  simp only
  split <;> rfl

theorem fin_none {a b : Int} {done : Nat → List E → Nat → Bool} {n : Nat} {l : List E} (h : Fits a b l) : evict a b done (n + 1) l = some l := by
  unfold evict
  rw [if_pos (by unfold Fits at h; omega)]

theorem evict_fin {a b : Int} (ha : 0 ≤ a) (hb : 0 ≤ b) {done : Nat → List E → Nat → Bool} (hf : Fair done) : ∀ (n : Nat) (l : List E), measure l + 1 < n →
    ∃ l', evict a b done n l = some l'
  | 0, _, h => by omega
  | n + 1, l, h => by
    unfold evict
    by_cases hc : (total l : Int) - a ≤ 0 ∧ (l.length : Int) - b ≤ 0
    · exact ⟨l, by simp only [hc, and_self, if_true]⟩
    · simp only [hc, if_false]
      have hw := pass_work l ((total l : Int) - a) ((l.length : Int) - b)
      cases hp : (pass ((total l : Int) - a) ((l.length : Int) - b) l).2 with
      | true =>
        rw [if_pos rfl]
        have := complete_lt _ _ (hf n _ (hw.2 hp))
        exact evict_fin ha hb hf n _ (by omega)
      | false =>
        rw [if_neg (by decide)]
        obtain ⟨m, rfl⟩ : ∃ m, n = m + 1 := ⟨n - 1, by omega⟩
        refine ⟨_, fin_none ?_⟩
        rcases pass_false l _ _ hp with h0 | ⟨h1, h2⟩
        · rw [h0]; exact ⟨by simpa [total] using ha, by simpa using hb⟩
        · exact ⟨by omega, by omega⟩

theorem evict_fits {a b : Int} {done : Nat → List E → Nat → Bool} : ∀ (n : Nat) (l l' : List E), evict a b done n l = some l' → Fits a b l'
  | 0, _, _, h => nomatch h
  | n + 1, l, l', h => by
    unfold evict at h
    by_cases hc : (total l : Int) - a ≤ 0 ∧ (l.length : Int) - b ≤ 0
    · simp only [hc, and_self, if_true, Option.some.injEq] at h
      subst h; exact ⟨by omega, by omega⟩
    · simp only [hc, if_false] at h
      exact evict_fits n _ _ h

/-- A pass does not touch entries that can stay after everything before them is removed. -/
theorem pass_keep : ∀ (k : List E) (s : List E) (ns ne : Int), ns ≤ total k → ne ≤ (k.length : Int) →
    ∃ k', (pass ns ne (k ++ s)).1 = k' ++ s ∧ (k'.map (fun e => (e.key, e.size))).Sublist (k.map (fun e => (e.key, e.size)))
  | [], s, ns, ne, h1, h2 => by
    refine ⟨[], ?_, List.Sublist.slnil⟩
    have h1 : ns ≤ 0 := h1
    have h2 : ne ≤ 0 := h2
    cases s with
    | nil => rfl
    | cons e s => simp [pass, h1, h2]
  | e :: k, s, ns, ne, h1, h2 => by
    rw [total_cons] at h1
    rw [List.length_cons] at h2
    obtain ⟨k', h3, h4⟩ := pass_keep k s (ns - e.size) (ne - 1) (by omega) (by omega)
    rw [List.cons_append]
    unfold pass
    split
    · exact ⟨e :: k, rfl, List.Sublist.refl _⟩
    · cases he : e.st with
      | clean => exact ⟨k', h3, h4.cons _⟩
      | same => exact ⟨k', h3, h4.cons _⟩
      | dirty => exact ⟨{ e with st := .transit } :: k', by simp only [h3, List.cons_append], h4.cons_cons _⟩
      | transit => exact ⟨e :: k', by simp only [h3, List.cons_append], h4.cons_cons _⟩

theorem total_append (k s : List E) : total (k ++ s) = total k + total s := by simp [total]

theorem total_keys {k k' : List E} (h : k.map (fun e => (e.key, e.size)) = k'.map (fun e => (e.key, e.size))) : total k = total k' := by
  have := congrArg (List.map Prod.snd) h
  rw [List.map_map, List.map_map] at this
  exact congrArg List.sum this

/-- Entries are compared without their state. -/
def names (l : List E) : List (Nat × Nat) := l.map (fun e => (e.key, e.size))

theorem evict_keep {a b : Int} {done : Nat → List E → Nat → Bool} {t : List (Nat × Nat)} : ∀ (n : Nat) (k s l' : List E), Fits a b s →
    evict a b done n (k ++ s) = some l' → ∃ k', names l' = k' ++ names s ∧ k'.Sublist (names k)
  | 0, _, _, _, _, h => nomatch h
  | n + 1, k, s, l', hs, h => by
    unfold evict at h
    by_cases hc : (total (k ++ s) : Int) - a ≤ 0 ∧ ((k ++ s).length : Int) - b ≤ 0
    · simp only [hc, and_self, if_true, Option.some.injEq] at h
      subst h
      exact ⟨names k, by simp [names], List.Sublist.refl _⟩
    · simp only [hc, if_false] at h
      have e1 := total_append k s
      obtain ⟨k1, h1, h2⟩ := pass_keep k s ((total (k ++ s) : Int) - a) (((k ++ s).length : Int) - b) (by have := hs.1; omega)
        (by have := hs.2; rw [List.length_append]; omega)
      rw [h1] at h
      split at h
      · have e2 : complete (done n (k1 ++ s)) (k1 ++ s) = complete (done n (k1 ++ s)) k1 ++ complete (done n (k1 ++ s)) s := by simp [complete]
        rw [e2] at h
        have hfs : Fits a b (complete (done n (k1 ++ s)) s) := by
          refine ⟨by rw [total_keys (complete_keys _ s)]; exact hs.1, ?_⟩
          rw [show (complete (done n (k1 ++ s)) s).length = s.length by simp [complete]]; exact hs.2
        obtain ⟨k', h3, h4⟩ := evict_keep (t := t) n _ _ l' hfs h
        refine ⟨k', by rw [h3]; congr 1; exact complete_keys _ s, h4.trans ?_⟩
        show (List.map _ _).Sublist _
        rw [complete_keys]; exact h2
      · obtain ⟨k', h3, h4⟩ := evict_keep (t := t) n _ _ l' hs h
        exact ⟨k', h3, h4.trans h2⟩

/-- What a pass leaves is dirty only if it was. -/
theorem pass_clean : ∀ (l : List E) (ns ne : Int), ∀ e ∈ l, e.st = .dirty ∨ e.st = .transit → ∃ e' ∈ (pass ns ne l).1, (e'.st = .dirty ∨ e'.st = .transit) ∧ e'.key = e.key
  | [], _, _, e, h, _ => by cases h
  | x :: l, ns, ne, e, h, hd => by
    unfold pass
    split
    · exact ⟨e, h, hd, rfl⟩
    · have ih := pass_clean l (ns - x.size) (ne - 1)
      rcases List.mem_cons.1 h with rfl | h
      · rcases hd with hd | hd <;> rw [hd]
        · exact ⟨_, List.mem_cons_self, Or.inr rfl, rfl⟩
        · exact ⟨_, List.mem_cons_self, Or.inr hd, rfl⟩
      · obtain ⟨e', h1, h2⟩ := ih e h hd
        cases x.st with
        | clean => exact ⟨e', h1, h2⟩
        | same => exact ⟨e', h1, h2⟩
        | dirty => exact ⟨e', List.mem_cons_of_mem _ h1, h2⟩
        | transit => exact ⟨e', List.mem_cons_of_mem _ h1, h2⟩

/-! #### Theorems -/

/-- C86: if the limits are not negative, `evict` ends, whatever the order in which uploads end; then the cache is within its limits. -/
theorem C86_evict_ends {maxSize maxEntries : Int} (ha : 0 ≤ maxSize) (hb : 0 ≤ maxEntries) {done : Nat → List E → Nat → Bool} (hf : Fair done) (l : List E) :
    ∃ n l', evict maxSize maxEntries done n l = some l' ∧ Fits maxSize maxEntries l' := by
  obtain ⟨l', h⟩ := evict_fin ha hb hf (measure l + 2) l (by omega)
  exact ⟨_, l', h, evict_fits _ _ _ h⟩

/-- C86: … the blocks that were used most recently stay: if it suffices to remove the first `k` entries, all the others are kept, in their order;
and of the first `k` nothing is added or reordered. -/
theorem C86_least_recently_used {maxSize maxEntries : Int} {done : Nat → List E → Nat → Bool} {n : Nat} {l l' : List E} (h : evict maxSize maxEntries done n l = some l')
    (k : Nat) (hk : Fits maxSize maxEntries (l.drop k)) : ∃ kept, names l' = kept ++ names (l.drop k) ∧ kept.Sublist (names (l.take k)) := by
  rw [← List.take_append_drop k l] at h
  exact evict_keep (t := []) n _ _ l' hk h

/-- C86: no block is removed that is not in the storage: as long as no upload ends, every block without an object stays in the cache. -/
theorem C86_not_before_upload {maxSize maxEntries : Int} {n : Nat} {l l' : List E} (h : evict maxSize maxEntries (fun _ _ _ => false) n l = some l') {e : E} (he : e ∈ l)
    (hd : e.st = .dirty ∨ e.st = .transit) : ∃ e' ∈ l', e'.key = e.key := by
  induction n generalizing l e with
  | zero => cases h
  | succ n ih =>
    unfold evict at h
    by_cases hc : (total l : Int) - maxSize ≤ 0 ∧ (l.length : Int) - maxEntries ≤ 0
    · simp only [hc, and_self, if_true, Option.some.injEq] at h
      subst h; exact ⟨e, he, rfl⟩
    · simp only [hc, if_false] at h
      have e1 : ∀ r : List E, complete (fun _ => false) r = r := by intro r; simp [complete]
      rw [e1, ite_self] at h
      obtain ⟨e', h1, h2, h3⟩ := pass_clean l ((total l : Int) - maxSize) ((l.length : Int) - maxEntries) e he hd
      obtain ⟨x, h4, h5⟩ := ih h h1 h2
      exact ⟨x, h4, h5.trans h3⟩

/-- C86: the number of cache entries that mount.s3ql chooses leaves room for the other files, and is not more than what was asked for.
What is missing (that it is positive) is false of the code, see `C86_no_entries`. -/
theorem C86_entries_partial {hard : Option Nat} {conns : Nat} {req : Option Int} {m : Int} (h : maxEntries hard conns req = some m) :
    m + 32 + 3 * conns ≤ openFiles hard ∧ (∀ r, req = some r → m ≤ r) ∧ (req = none → 64 < m) := by
  unfold maxEntries at h
  cases req with
  | none =>
    simp only at h
    split at h
    · cases h
    · cases h
      exact ⟨by omega, fun r hr => (by cases hr), fun _ => by omega⟩
  | some r =>
    simp only at h
    split at h
    · cases h
      exact ⟨by omega, fun r hr => (by cases hr; omega), fun hr => (by cases hr)⟩
    · cases h
      exact ⟨by omega, fun r hr => (by cases hr; exact Int.le_refl _), fun hr => (by cases hr)⟩

/-- C86: … and it is positive if a positive number was asked for and there are enough file descriptors. -/
theorem C86_entries_positive {n conns : Nat} {r : Int} (hr : 0 < r) (hn : 32 + 3 * conns < n) : ∃ m, maxEntries (some n) conns (some r) = some m ∧ 0 < m := by
  unfold maxEntries
  simp only
  split
  · exact ⟨_, rfl, by show 0 < (n : Int) - _; omega⟩
  · exact ⟨_, rfl, hr⟩

/-- C86 fails: if there are fewer file descriptors than the connections need, mount.s3ql does not refuse to start if `--max-cache-entries` is given, but uses a negative limit. -/
theorem C86_no_entries : maxEntries (some 256) 80 none = none ∧ maxEntries (some 256) 80 (some 100) = some (-16) := by decide

/-- C86 fails: with a negative limit (as above, or after `s3qlctrl cachesize` with a negative number) the cache always counts as full, and `evict` never ends, not even with an empty cache. -/
theorem C86_negative_limit {maxSize maxEntries : Int} (h : maxSize < 0 ∨ maxEntries < 0) (done : Nat → List E → Nat → Bool) (n : Nat) (l : List E) :
    isFull maxSize maxEntries l = true ∧ evict maxSize maxEntries done n l = none := by
  constructor
  · unfold isFull
    simp only [Bool.or_eq_true, decide_eq_true_eq]; omega
  · cases hx : evict maxSize maxEntries done n l with
    | none => rfl
    | some l' => have := evict_fits n l l' hx; unfold Fits at this; omega

/-- C86: the cache counts as full exactly if it is beyond one of its limits … -/
theorem C86_full {maxSize maxEntries : Int} (l : List E) : isFull maxSize maxEntries l = false ↔ Fits maxSize maxEntries l := by
  unfold isFull Fits
  simp only [Bool.or_eq_false_iff, decide_eq_false_iff_not]
  omega

/-- C86: … so that it is not full after `evict`. -/
theorem C86_not_full {maxSize maxEntries : Int} {done : Nat → List E → Nat → Bool} {n : Nat} {l l' : List E} (h : evict maxSize maxEntries done n l = some l') :
    isFull maxSize maxEntries l' = false := (C86_full l').2 (evict_fits n l l' h)

/-- `s3qlctrl cachesize -- -1` is accepted. -/
theorem C86_ctrl_negative : ctrlSize (-1) < 0 := by decide

/-! #### The hypotheses can be met -/

/-- All uploads end. -/
example : Fair (fun _ _ _ => true) := fun _ _ ⟨e, h1, h2⟩ => ⟨e, h1, h2, rfl⟩

/-- Only the first upload ends. -/
def firstDone : Nat → List E → Nat → Bool := fun _ l k => match l.find? (fun e => e.st = .transit) with | some e => e.key == k | none => false

example : Fair firstDone := by
  intro n l ⟨e, h1, h2⟩
  unfold firstDone
  cases hf : l.find? (fun e => decide (e.st = .transit)) with
  | none => rw [List.find?_eq_none] at hf; exact absurd h2 (by simpa using hf e h1)
  | some x =>
    exact ⟨x, List.mem_of_find?_eq_some hf, by simpa using List.find?_some (p := fun e : E => decide (e.st = .transit)) hf, by simp⟩

def someEntries : List E := [⟨1, 10, .dirty⟩, ⟨2, 5, .clean⟩, ⟨3, 10, .same⟩, ⟨4, 8, .dirty⟩, ⟨5, 1, .clean⟩]

/-- Two uploads, one after the other; the first four entries have to be removed. -/
example : evict 4 10 firstDone 5 someEntries = some [⟨5, 1, .clean⟩] ∧ Fits 4 10 (someEntries.drop 4) := by
  refine ⟨by decide, ?_⟩; exact ⟨by decide, by decide⟩

/-- A dirty entry may outlive a clean one that was used later. -/
example : evict 13 2 firstDone 5 [⟨1, 3, .dirty⟩, ⟨2, 10, .clean⟩, ⟨3, 5, .clean⟩] = some [⟨1, 3, .clean⟩, ⟨3, 5, .clean⟩] := by decide

/-- The same, while the upload does not end. -/
example : evict 13 2 (fun _ _ _ => false) 3 [⟨1, 3, .dirty⟩, ⟨2, 10, .clean⟩, ⟨3, 5, .clean⟩] = some [⟨1, 3, .transit⟩, ⟨3, 5, .clean⟩] := by decide

example : maxEntries (some 1024) 10 none = some 962 ∧ maxEntries none 10 (some 768) = some 768 := by decide

end Verif.Cache.Evict
