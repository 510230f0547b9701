/-
Property C50: a pass of the background commit task (mount.py:843-860) over the LRU list of the block cache.

The LRU list is at the level that C08 proves `LinkedDict` to implement: an ordered list; an iterator is a cursor that
splits it into the visited part and the rest.
-/
namespace Verif.Sync.Commit

/-- What matters of a `CacheEntry` (block_cache.py:45-90): last write and, as ghost, time of the last access. -/
structure Entry where
  key : Nat
  lastWrite : Nat
  /-- ghost: time of the last `get` (or creation) of the block -/
  lastAccess : Nat
  /-- `el.dirty and not el.in_transit` -/
  needsUpload : Bool
deriving DecidableEq

/-- The list before and behind the cursor of the running pass, and the wall clock (assumed never to go back). -/
structure State where
  before : List Entry
  rest : List Entry
  now : Nat
  /-- is the pass still running? -/
  running : Bool
  /-- keys that the pass looked at without stopping -/
  seen : List Nat
  /-- keys handed to `upload_if_dirty` -/
  uploaded : List Nat

inductive Ev where
  /-- `get` of a block in the cache, with a write or not: the entry moves to the tail and, without any switch of
  task in between, `last_write` is set (block_cache.py:624-640, 733-739, fs.py:1343-1350, block_cache.py:112-117). -/
  | access (k : Nat) (write : Bool)
  /-- a new entry (block_cache.py:690-693, 725-728) -/
  | insert (k : Nat) (write : Bool)
  /-- eviction, removal of the block (block_cache.py:776, 835) -/
  | remove (k : Nat)
  /-- upload finished or started, truncation: the `dirty` and `in_transit` flags change -/
  | flag (k : Nat) (b : Bool)
  | tick (d : Nat)
  /-- next iteration of the loop of the pass (mount.py:848-856) -/
  | visit

def ents (s : State) : List Entry := s.before ++ s.rest

def lookup (k : Nat) (l : List Entry) : Option Entry := l.find? (fun e => e.key = k)

def drop (k : Nat) (l : List Entry) : List Entry := l.filter (fun e => e.key ≠ k)

/-- Access of entry `e` at time `now`. -/
def touch (e : Entry) (now : Nat) (write : Bool) : Entry :=
  { e with lastAccess := now, lastWrite := if write then now else e.lastWrite,
           needsUpload := if write then true else e.needsUpload }

/-- One event, for a pass that took `stamp` (mount.py:847) with the delay `delay`. -/
def step (delay stamp : Nat) (s : State) : Ev → State
  | .access k w => match lookup k (ents s) with
    | some e => { s with before := drop k s.before, rest := drop k s.rest ++ [touch e s.now w] }
    | none => s
  | .insert k w => match lookup k (ents s) with
    | some _ => s
    | none => { s with rest := s.rest ++ [touch ⟨k, 0, s.now, false⟩ s.now w] }
  | .remove k => { s with before := drop k s.before, rest := drop k s.rest }
  | .flag k b =>
    { s with before := s.before.map (fun e => if e.key = k then { e with needsUpload := b } else e),
             rest := s.rest.map (fun e => if e.key = k then { e with needsUpload := b } else e) }
  | .tick d => { s with now := s.now + d }
  | .visit =>
    if s.running then
      match s.rest with
      | [] => { s with running := false }
      | e :: t =>
        -- mount.py:849-853; `stamp - el.last_write < delay`
        if stamp < e.lastWrite + delay then { s with running := false }
        else
          { s with before := s.before ++ [e], rest := t, seen := e.key :: s.seen,
                   uploaded := if e.needsUpload then e.key :: s.uploaded else s.uploaded }
    else s

def exec (delay stamp : Nat) (s : State) (es : List Ev) : State := es.foldl (step delay stamp) s

/-- Start of a pass: the cursor is at the head, `stamp` is the current time. -/
def startPass (s : State) : State :=
  { s with before := [], rest := ents s, running := true, seen := [], uploaded := [] }

def init : State := ⟨[], [], 0, false, [], []⟩

/-- Does the event access or remove block `k`? -/
def hits (k : Nat) : Ev → Bool
  | .access k' _ => k' = k
  | .insert k' _ => k' = k
  | .remove k' => k' = k
  | _ => false

def setsFlag (k : Nat) : Ev → Bool
  | .flag k' _ => k' = k
  | _ => false

/-! ### Invariant: the list is ordered by last access -/

structure Inv (s : State) : Prop where
  sorted : (ents s).Pairwise (fun a b => a.lastAccess ≤ b.lastAccess)
  bounds : ∀ e ∈ ents s, e.lastWrite ≤ e.lastAccess ∧ e.lastAccess ≤ s.now
  nk : ((ents s).map (·.key)).Nodup

theorem lookup_mem {k : Nat} {l : List Entry} {e : Entry} (h : lookup k l = some e) : e ∈ l ∧ e.key = k := by
  refine ⟨List.mem_of_find?_eq_some h, ?_⟩
  simpa using List.find?_some h

theorem lookup_none {k : Nat} {l : List Entry} (h : lookup k l = none) : ∀ e ∈ l, e.key ≠ k := by
  intro e he
  simpa using List.find?_eq_none.1 h e he

theorem drop_append (k : Nat) (a b : List Entry) : drop k (a ++ b) = drop k a ++ drop k b := by
  simp [drop]

theorem pairwise_snoc {R : Entry → Entry → Prop} {l : List Entry} {x : Entry} (h : l.Pairwise R)
    (hx : ∀ e ∈ l, R e x) : (l ++ [x]).Pairwise R := by
  rw [List.pairwise_append]
  refine ⟨h, by simp, ?_⟩
  intro a ha b hb
  simp only [List.mem_singleton] at hb
  rw [hb]; exact hx a ha

theorem step_inv {delay stamp : Nat} {s : State} (i : Inv s) (ev : Ev) : Inv (step delay stamp s ev) := by
  obtain ⟨h1, h2, h3⟩ := i
  have hsub : ∀ k, (drop k (ents s)).Sublist (ents s) := fun k => List.filter_sublist
  cases ev with
  | access k w =>
    simp only [step]
    cases h : lookup k (ents s) with
    | none => exact ⟨h1, h2, h3⟩
    | some e =>
      obtain ⟨he, hk⟩ := lookup_mem h
      have hb := h2 e he
      have hents : ents { s with before := drop k s.before, rest := drop k s.rest ++ [touch e s.now w] } =
          drop k (ents s) ++ [touch e s.now w] := by
        simp [ents, drop_append]
      refine ⟨?_, ?_, ?_⟩
      · rw [hents]
        exact pairwise_snoc (List.Pairwise.sublist (hsub k) h1) (fun x hx => (h2 x ((hsub k).subset hx)).2)
      · intro x hx
        rw [hents] at hx
        rcases List.mem_append.1 hx with hx | hx
        · exact h2 x ((hsub k).subset hx)
        · simp only [List.mem_singleton] at hx
          subst hx
          simp only [touch]
          refine ⟨?_, Nat.le_refl _⟩
          split
          · exact Nat.le_refl _
          · exact Nat.le_trans hb.1 hb.2
      · rw [hents, List.map_append, List.nodup_append]
        refine ⟨List.Sublist.nodup (List.Sublist.map _ (hsub k)) h3, by simp, ?_⟩
        intro a ha b hb
        simp only [List.map_cons, List.map_nil, List.mem_singleton] at hb
        obtain ⟨x, hx, rfl⟩ := List.mem_map.1 ha
        have : x.key ≠ k := by simpa [drop] using (List.mem_filter.1 hx).2
        rw [hb]; simpa [touch, hk] using this
  | insert k w =>
    simp only [step]
    cases h : lookup k (ents s) with
    | some e => exact ⟨h1, h2, h3⟩
    | none =>
      have hn := lookup_none h
      have hents : ents { s with rest := s.rest ++ [touch ⟨k, 0, s.now, false⟩ s.now w] } =
          ents s ++ [touch ⟨k, 0, s.now, false⟩ s.now w] := by simp [ents]
      refine ⟨?_, ?_, ?_⟩
      · rw [hents]
        exact pairwise_snoc h1 (fun x hx => (h2 x hx).2)
      · intro x hx
        rw [hents] at hx
        rcases List.mem_append.1 hx with hx | hx
        · exact h2 x hx
        · simp only [List.mem_singleton] at hx
          subst hx
          simp only [touch]
          refine ⟨?_, Nat.le_refl _⟩
          split
          · exact Nat.le_refl _
          · exact Nat.zero_le _
      · rw [hents, List.map_append, List.nodup_append]
        refine ⟨h3, by simp, ?_⟩
        intro a ha b hb
        simp only [List.map_cons, List.map_nil, List.mem_singleton] at hb
        obtain ⟨x, hx, rfl⟩ := List.mem_map.1 ha
        rw [hb]; simpa [touch] using hn x hx
  | remove k =>
    have hents : ents (step delay stamp s (.remove k)) = drop k (ents s) := by simp [step, ents, drop_append]
    refine ⟨?_, ?_, ?_⟩
    · rw [hents]; exact List.Pairwise.sublist (hsub k) h1
    · intro x hx; rw [hents] at hx; exact h2 x ((hsub k).subset hx)
    · rw [hents]; exact List.Sublist.nodup (List.Sublist.map _ (hsub k)) h3
  | flag k b =>
    have hents : ents (step delay stamp s (.flag k b)) =
        (ents s).map (fun e => if e.key = k then { e with needsUpload := b } else e) := by
      simp [step, ents]
    refine ⟨?_, ?_, ?_⟩
    · rw [hents, List.pairwise_map]
      refine h1.imp ?_
      intro a b hab
      split <;> split <;> exact hab
    · intro x hx
      rw [hents] at hx
      obtain ⟨y, hy, rfl⟩ := List.mem_map.1 hx
      have := h2 y hy
      split <;> exact this
    · rw [hents, List.map_map]
      have : ((fun e : Entry => e.key) ∘ fun e => if e.key = k then { e with needsUpload := b } else e) = (·.key) := by
        funext e; simp only [Function.comp]; split <;> rfl
      rw [this]; exact h3
  | tick d =>
    exact ⟨h1, fun e he => ⟨(h2 e he).1, Nat.le_trans (h2 e he).2 (Nat.le_add_right _ _)⟩, h3⟩
  | visit =>
    simp only [step]
    split
    · split
      · exact ⟨h1, h2, h3⟩
      · next e t hr =>
        split
        · exact ⟨h1, h2, h3⟩
        · have hents : ents { s with before := s.before ++ [e], rest := t, seen := e.key :: s.seen, uploaded :=
              (if e.needsUpload then e.key :: s.uploaded else s.uploaded) } = ents s := by
            simp [ents, hr]
          exact ⟨by rw [hents]; exact h1, by rw [hents]; exact h2, by rw [hents]; exact h3⟩
    · exact ⟨h1, h2, h3⟩

theorem exec_inv {delay stamp : Nat} (es : List Ev) {s : State} (i : Inv s) : Inv (exec delay stamp s es) := by
  induction es generalizing s with
  | nil => exact i
  | cons e es ih => exact ih (step_inv i e)

/-- What holds for an idle entry during the pass. -/
def Good (s : State) (k acc : Nat) : Prop :=
  (∃ e ∈ ents s, e.key = k ∧ e.lastAccess = acc) ∧
  (k ∈ s.seen ∨ (∃ e ∈ s.rest, e.key = k ∧ e.lastAccess = acc) ∧ s.running = true)

theorem mem_drop {k : Nat} {l : List Entry} {e : Entry} (h : e ∈ l) (hk : e.key ≠ k) : e ∈ drop k l := by
  simp [drop, h, hk]

theorem step_good {delay stamp : Nat} {s : State} (i : Inv s) {k acc : Nat} (g : Good s k acc)
    (hidle : acc + delay ≤ stamp) (ev : Ev) (hh : hits k ev = false) : Good (step delay stamp s ev) k acc := by
  obtain ⟨⟨e0, he0, hk0, ha0⟩, g2⟩ := g
  cases ev with
  | access k' w =>
    simp only [hits, decide_eq_false_iff_not] at hh
    simp only [step]
    split
    · next e he =>
      refine ⟨⟨e0, ?_, hk0, ha0⟩, ?_⟩
      · simp only [ents]
        rw [← List.append_assoc, ← drop_append]
        exact List.mem_append_left _ (mem_drop he0 (by rw [hk0]; exact Ne.symm hh))
      · rcases g2 with g2 | ⟨⟨e1, he1, hk1, ha1⟩, hr⟩
        · exact Or.inl g2
        · exact Or.inr ⟨⟨e1, List.mem_append_left _ (mem_drop he1 (by rw [hk1]; exact Ne.symm hh)), hk1, ha1⟩, hr⟩
    · exact ⟨⟨e0, he0, hk0, ha0⟩, g2⟩
  | insert k' w =>
    simp only [step]
    split
    · exact ⟨⟨e0, he0, hk0, ha0⟩, g2⟩
    · refine ⟨⟨e0, ?_, hk0, ha0⟩, ?_⟩
      · simp only [ents]; rw [← List.append_assoc]; exact List.mem_append_left _ he0
      · rcases g2 with g2 | ⟨⟨e1, he1, hk1, ha1⟩, hr⟩
        · exact Or.inl g2
        · exact Or.inr ⟨⟨e1, List.mem_append_left _ he1, hk1, ha1⟩, hr⟩
  | remove k' =>
    simp only [hits, decide_eq_false_iff_not] at hh
    simp only [step]
    refine ⟨⟨e0, ?_, hk0, ha0⟩, ?_⟩
    · simp only [ents]; rw [← drop_append]; exact mem_drop he0 (by rw [hk0]; exact Ne.symm hh)
    · rcases g2 with g2 | ⟨⟨e1, he1, hk1, ha1⟩, hr⟩
      · exact Or.inl g2
      · exact Or.inr ⟨⟨e1, mem_drop he1 (by rw [hk1]; exact Ne.symm hh), hk1, ha1⟩, hr⟩
  | flag k' b =>
    have hf : ∀ (l : List Entry), (∃ e ∈ l, e.key = k ∧ e.lastAccess = acc) →
        ∃ e ∈ l.map (fun e => if e.key = k' then { e with needsUpload := b } else e), e.key = k ∧ e.lastAccess = acc := by
      rintro l ⟨e, he, hk, ha⟩
      refine ⟨_, List.mem_map.2 ⟨e, he, rfl⟩, ?_, ?_⟩ <;> split <;> assumption
    simp only [step]
    refine ⟨?_, ?_⟩
    · simp only [ents]; rw [← List.map_append]; exact hf _ ⟨e0, he0, hk0, ha0⟩
    · rcases g2 with g2 | ⟨g2, hr⟩
      · exact Or.inl g2
      · exact Or.inr ⟨hf _ g2, hr⟩
  | tick d => exact ⟨⟨e0, he0, hk0, ha0⟩, g2⟩
  | visit =>
    simp only [step]
    rcases g2 with g2 | ⟨⟨e1, he1, hk1, ha1⟩, hr⟩
    · split
      · split
        · exact ⟨⟨e0, he0, hk0, ha0⟩, Or.inl g2⟩
        · next e t hrest =>
          split
          · exact ⟨⟨e0, he0, hk0, ha0⟩, Or.inl g2⟩
          · refine ⟨⟨e0, ?_, hk0, ha0⟩, Or.inl (List.mem_cons_of_mem _ g2)⟩
            simpa [ents, hrest] using he0
      · exact ⟨⟨e0, he0, hk0, ha0⟩, Or.inl g2⟩
    · rw [if_pos hr]
      split
      · next hrest => rw [hrest] at he1; cases he1
      · next e t hrest =>
        have hle : e.lastAccess ≤ acc := by
          rw [hrest] at he1
          rcases List.mem_cons.1 he1 with h | h
          · rw [← h, ha1]; exact Nat.le_refl _
          · have hs := i.sorted
            rw [ents, hrest, List.pairwise_append] at hs
            rw [← ha1]
            exact (List.pairwise_cons.1 hs.2.1).1 e1 h
        have hb := i.bounds e (by simp [ents, hrest])
        rw [if_neg (by omega)]
        have hents : ents { s with before := s.before ++ [e], rest := t, seen := e.key :: s.seen, uploaded :=
              (if e.needsUpload then e.key :: s.uploaded else s.uploaded) } = ents s := by
            simp [ents, hrest]
        refine ⟨⟨e0, by rw [hents]; exact he0, hk0, ha0⟩, ?_⟩
        rw [hrest] at he1
        rcases List.mem_cons.1 he1 with h | h
        · left; rw [← hk1, h]; simp
        · exact Or.inr ⟨⟨e1, h, hk1, ha1⟩, hr⟩

/-- State after the history `pre`, at the start of a pass. -/
def atStart (pre : List Ev) : State := startPass (exec 0 0 init pre)

theorem inv_atStart (pre : List Ev) : Inv (atStart pre) := by
  have : Inv (exec 0 0 init pre) := exec_inv pre ⟨by simp [ents, init], by simp [ents, init], by simp [ents, init]⟩
  obtain ⟨h1, h2, h3⟩ := this
  have he : ents (atStart pre) = ents (exec 0 0 init pre) := by simp [atStart, startPass, ents]
  exact ⟨by rw [he]; exact h1, by rw [he]; exact h2, by rw [he]; exact h3⟩

/-- **C50.**  Let a pass of the commit task start after any history `pre`, with any accesses, insertions, removals and
time passing during the pass (`mid`).  When the pass has ended, it has looked at every block that was in the cache at
its start, was last accessed at least `delay` before, and was not accessed or removed meanwhile. -/
theorem C50_idle_blocks_considered (delay : Nat) (pre mid : List Ev) (e : Entry)
    (he : e ∈ ents (atStart pre)) (hidle : e.lastAccess + delay ≤ (atStart pre).now)
    (hmid : ∀ ev ∈ mid, hits e.key ev = false)
    (hend : (exec delay (atStart pre).now (atStart pre) mid).running = false) :
    e.key ∈ (exec delay (atStart pre).now (atStart pre) mid).seen := by
  have hg : Good (atStart pre) e.key e.lastAccess :=
    ⟨⟨e, he, rfl, rfl⟩, Or.inr ⟨⟨e, by simpa [atStart, startPass, ents] using he, rfl, rfl⟩, rfl⟩⟩
  have : ∀ es s, Inv s → Good s e.key e.lastAccess → (∀ ev ∈ es, hits e.key ev = false) →
      Good (exec delay (atStart pre).now s es) e.key e.lastAccess := by
    intro es
    induction es with
    | nil => intro s _ g _; exact g
    | cons ev es ih =>
      intro s i g h
      exact ih _ (step_inv i ev) (step_good i g hidle ev (h ev (by simp))) (fun ev' h' => h ev' (by simp [h']))
  have hfin := this mid (atStart pre) (inv_atStart pre) hg hmid
  rcases hfin.2 with h | ⟨_, h⟩
  · exact h
  · rw [hend] at h; cases h

/-- A block that is looked at while it needs an upload is handed to `upload_if_dirty`. -/
theorem C50_seen_dirty_uploaded (delay stamp : Nat) (s : State) (k : Nat)
    (h : k ∈ (step delay stamp s .visit).seen) (hn : k ∉ s.seen) :
    ∃ e ∈ s.rest, e.key = k ∧ (e.needsUpload = true → k ∈ (step delay stamp s .visit).uploaded) := by
  simp only [step] at h ⊢
  split at h
  · next hr =>
    split at h
    · exact absurd h hn
    · next e t hrest =>
      split at h
      · exact absurd h hn
      · next hlw =>
        rcases List.mem_cons.1 h with h | h
        · refine ⟨e, by rw [hrest]; simp, h.symm, ?_⟩
          intro hu
          rw [if_pos hr]
          simp only [hrest, if_neg hlw, hu, if_true]
          rw [h]; simp
        · exact absurd h hn
  · exact absurd h hn

/-- An iteration ends the pass only if all blocks have been looked at, or at a block written less than `delay` before the
pass; a block is looked at only if its last write was at least `delay` before the pass. -/
theorem C50_stops_at_recent_write (delay stamp : Nat) (s : State) (hr : s.running = true) :
    ((step delay stamp s .visit).running = false ↔
      (s.rest = [] ∨ ∃ e t, s.rest = e :: t ∧ stamp < e.lastWrite + delay)) ∧
    ((step delay stamp s .visit).running = true →
      ∃ e t, s.rest = e :: t ∧ e.lastWrite + delay ≤ stamp ∧ (step delay stamp s .visit).seen = e.key :: s.seen) := by
  simp only [step, if_pos hr]
  cases hrest : s.rest with
  | nil => simp
  | cons e t =>
    dsimp only
    by_cases hlw : stamp < e.lastWrite + delay
    · rw [if_pos hlw]
      refine ⟨⟨fun _ => Or.inr ⟨e, t, rfl, hlw⟩, fun _ => rfl⟩, fun h => by cases h⟩
    · rw [if_neg hlw]
      refine ⟨⟨fun h => ?_, ?_⟩, fun _ => ⟨e, t, rfl, Nat.not_lt.1 hlw, rfl⟩⟩
      · dsimp only at h; rw [hr] at h; cases h
      · rintro (h | ⟨e', t', h, h2⟩)
        · cases h
        · cases h; exact absurd h2 hlw

/-- A pass ends: after at most one iteration per remaining block, and one more, if nothing else happens meanwhile. -/
theorem C50_pass_ends (delay stamp : Nat) (n : Nat) (s : State) (h : s.rest.length ≤ n) :
    (exec delay stamp s (List.replicate (n + 1) .visit)).running = false := by
  have hstop : ∀ (n : Nat) (s : State), s.running = false → (exec delay stamp s (List.replicate n .visit)).running = false := by
    intro n
    induction n with
    | zero => intro s h; exact h
    | succ n ih =>
      intro s h
      rw [List.replicate_succ]
      show (exec delay stamp (step delay stamp s .visit) _).running = false
      refine ih _ ?_
      simp [step, h]
  induction n generalizing s with
  | zero =>
    rw [List.replicate_succ]
    show (exec delay stamp (step delay stamp s .visit) _).running = false
    refine hstop 0 _ ?_
    have hrest : s.rest = [] := List.length_eq_zero_iff.1 (by omega)
    by_cases hr : s.running = true
    · exact (C50_stops_at_recent_write delay stamp s hr).1.2 (Or.inl hrest)
    · simp only [step, if_neg hr]; simpa using hr
  | succ n ih =>
    rw [List.replicate_succ]
    show (exec delay stamp (step delay stamp s .visit) (List.replicate (n + 1) .visit)).running = false
    by_cases hf : (step delay stamp s .visit).running = false
    · exact hstop _ _ hf
    · refine ih _ ?_
      by_cases hr : s.running = true
      · obtain ⟨e, t, h1, h2, _⟩ := (C50_stops_at_recent_write delay stamp s hr).2 (by simpa using hf)
        have : (step delay stamp s .visit).rest = t := by
          simp only [step, if_pos hr, h1, if_neg (Nat.not_lt.2 h2)]
        rw [this]
        rw [h1, List.length_cons] at h
        omega
      · exfalso
        apply hf
        simp only [step, if_neg hr]; simpa using hr

/-! ### Concrete case -/

/-- Blocks 1, 2 written at times 0 and 1, block 3 at time 9; delay 5, pass at time 10, block 1 read at time 10
during the pass: blocks 2 and then the pass stops at 3; block 2 has been uploaded. -/
def demoPre : List Ev := [.insert 1 true, .tick 1, .insert 2 true, .tick 8, .insert 3 true, .tick 1]

example : (exec 5 10 (atStart demoPre) [.access 1 false, .visit, .visit]).seen = [2] ∧
    (exec 5 10 (atStart demoPre) [.access 1 false, .visit, .visit]).uploaded = [2] ∧
    (exec 5 10 (atStart demoPre) [.access 1 false, .visit, .visit]).running = false := by decide

example : ∃ e ∈ ents (atStart demoPre), e.key = 2 ∧ e.lastAccess + 5 ≤ (atStart demoPre).now := by
  refine ⟨⟨2, 1, 1, true⟩, ?_, rfl, ?_⟩ <;> decide

end Verif.Sync.Commit
