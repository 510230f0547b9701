/-
Property C37: `RateTracker` (backends/common.py:58-109), used from one thread.
-/
namespace Verif.Backend.Rate

/-- A `RateTracker` with window `w`: the buckets as a function of their index, and `last_update`. -/
structure Tracker where
  w : Nat
  bucket : Int → Nat
  last : Int

/-- `__init__` at time `now` (common.py:69-76). -/
def init (w : Nat) (now : Int) : Tracker := ⟨w, fun _ => 0, now⟩

/-- The loop that zeroes the buckets of the elapsed seconds (common.py:86-90): `for i in range(n)` with
`n = min(now - last_update, w)`; a negative `n` gives an empty range. -/
def zeroed (t : Tracker) (now : Int) : Int → Nat := fun b =>
  if (List.range (min (now - t.last) (t.w : Int)).toNat).any (fun i => (now - i) % (t.w : Int) == b) then 0
  else t.bucket b

/-- `register()` (common.py:78-97); `int(time.monotonic())` is the parameter `now`. -/
def register (t : Tracker) (now : Int) : Tracker :=
  let z := zeroed t now
  { t with bucket := fun b => if b = now % (t.w : Int) then z b + 1 else z b, last := now }

/-- `register(_not_really=True)`: zeroes the buckets but leaves `last_update`. -/
def peek (t : Tracker) (now : Int) : Tracker := { t with bucket := zeroed t now }

/-- `get_count()` (common.py:105-109). -/
def getCount (t : Tracker) (now : Int) : Tracker × Nat :=
  let t' := peek t now
  (t', ((List.range t.w).map (fun (b : Nat) => t'.bucket (b : Int))).sum)

/-- Calls on the tracker, each with the time at which it happens. -/
inductive Op where
  | register (now : Int)
  | count (now : Int)

def Op.time : Op → Int
  | .register n => n
  | .count n => n

def step (t : Tracker) : Op → Tracker
  | .register n => register t n
  | .count n => (getCount t n).1

/-- The times of the registered events. -/
def events : List Op → List Int
  | [] => []
  | .register n :: r => n :: events r
  | .count _ :: r => events r

/-- Number of events in the half-open window `(now - w, now]`. -/
def inWindow (w : Nat) (now : Int) (es : List Int) : Nat :=
  es.countP (fun e => decide (now - w < e ∧ e ≤ now))

/-- Number of events with the given bucket index in the window that ends at `now`. -/
def inBucket (w : Nat) (now b : Int) (es : List Int) : Nat :=
  es.countP (fun e => decide (now - w < e ∧ e % (w : Int) = b))

theorem emod_eq_window {w a b : Int} (h1 : a - w < b) (h2 : b ≤ a) (h : a % w = b % w) : a = b := by
  have h4 : (a - b) % w = 0 := Int.emod_eq_zero_of_dvd ((Int.emod_eq_emod_iff_emod_sub_eq_zero.1 h) |> Int.dvd_of_emod_eq_zero)
  have h5 : (a - b) % w = a - b := Int.emod_eq_of_lt (by omega) (by omega)
  omega

/-- The invariant: at time `cur` (of the last call) every bucket in use holds the events of its second in the window
that ended at `last`, or, if it has been zeroed since, those of a later window. -/
def Inv (t : Tracker) (cur : Int) (es : List Int) : Prop :=
  t.last ≤ cur ∧ (∀ e ∈ es, e ≤ t.last) ∧
  ∀ b, ∃ c, t.last ≤ c ∧ c ≤ cur ∧ t.bucket b = inBucket t.w c b es

theorem inBucket_mono_of_gap {w : Nat} {c now b last : Int} {es : List Int} (hw : 0 < w) (hlc : last ≤ c) (hcn : c ≤ now)
    (hes : ∀ e ∈ es, e ≤ last)
    (hgap : ∀ i : Int, 0 ≤ i → i < now - last → i < w → (now - i) % (w : Int) ≠ b) :
    inBucket w c b es = inBucket w now b es := by
  unfold inBucket
  apply List.countP_congr
  intro e he
  have hel := hes e he
  simp only [decide_eq_true_eq]
  constructor
  · rintro ⟨h1, h2⟩
    refine ⟨?_, h2⟩
    -- if e ≤ now - w then some second in (last, now] has the same index as e
    by_cases hh : now - w < e
    · exact hh
    · exfalso
      have hw' : (0 : Int) < w := by omega
      -- k = multiple of w with e + k in (now - w, now]
      have hr := Int.emod_nonneg (now - e) (Int.ne_of_gt hw')
      have hr2 := Int.emod_lt_of_pos (now - e) hw'
      have hq := Int.mul_ediv_add_emod (now - e) w
      have hpos : 1 ≤ (now - e) / (w : Int) := by
        have : (1 : Int) * w ≤ now - e := by omega
        exact (Int.le_ediv_iff_mul_le hw').2 this
      have hmul : (w : Int) * 1 ≤ w * ((now - e) / w) := Int.mul_le_mul_of_nonneg_left hpos (by omega)
      apply hgap ((now - e) % w) hr (by omega) hr2
      have : now - (now - e) % (w : Int) = e + w * ((now - e) / w) := by omega
      rw [this, Int.add_mul_emod_self_left, h2]
  · rintro ⟨h1, h2⟩
    exact ⟨by omega, h2⟩

theorem inBucket_zero_of_hit {w : Nat} {now b last i : Int} {es : List Int}
    (hes : ∀ e ∈ es, e ≤ last) (h0 : 0 ≤ i) (h1 : i < now - last)
    (hb : (now - i) % (w : Int) = b) : inBucket w now b es = 0 := by
  unfold inBucket
  rw [List.countP_eq_zero]
  intro e he
  simp only [decide_eq_true_eq]
  rintro ⟨h3, h4⟩
  have := hes e he
  have := emod_eq_window (w := (w : Int)) (a := now - i) (b := e) (by omega) (by omega) (by rw [hb, h4])
  omega

theorem zeroed_spec {t : Tracker} {cur now : Int} {es : List Int} (hw : 0 < t.w) (h : Inv t cur es) (hn : cur ≤ now)
    (b : Int) : zeroed t now b = inBucket t.w now b es := by
  obtain ⟨h1, h2, h3⟩ := h
  obtain ⟨c, hc1, hc2, hc3⟩ := h3 b
  unfold zeroed
  by_cases hz : (List.range (min (now - t.last) (t.w : Int)).toNat).any (fun i => (now - i) % (t.w : Int) == b) = true
  · rw [if_pos hz]
    obtain ⟨i, hi, hb⟩ := List.any_eq_true.1 hz
    have hi' := List.mem_range.1 hi
    exact (inBucket_zero_of_hit (i := (i : Int)) h2 (by omega) (by omega) (by simpa using hb)).symm
  · rw [if_neg hz, hc3]
    refine inBucket_mono_of_gap hw hc1 (by omega) h2 ?_
    intro i hi0 hi1 hi2 hb
    apply hz
    rw [List.any_eq_true]
    refine ⟨i.toNat, List.mem_range.2 (by omega), ?_⟩
    have : ((i.toNat : Nat) : Int) = i := by omega
    rw [this]; simp [hb]

theorem inv_step {t : Tracker} {cur : Int} {es : List Int} (hw : 0 < t.w) (h : Inv t cur es) (op : Op)
    (hn : cur ≤ op.time) : Inv (step t op) op.time (events [op] ++ es) ∧ (step t op).w = t.w := by
  refine ⟨?_, by cases op <;> rfl⟩
  cases op with
  | count n =>
    refine ⟨Int.le_trans h.1 hn, h.2.1, fun b => ⟨n, Int.le_trans h.1 hn, Int.le_refl _, ?_⟩⟩
    exact zeroed_spec hw h hn b
  | register n =>
    have hn' : cur ≤ n := hn
    refine ⟨Int.le_refl _, ?_, fun b => ⟨n, Int.le_refl _, Int.le_refl _, ?_⟩⟩
    · intro e he
      simp only [events, List.cons_append, List.nil_append, List.mem_cons] at he
      show e ≤ n
      rcases he with he | he
      · omega
      · have := h.2.1 e he; have := h.1; omega
    · show (if b = n % (t.w : Int) then zeroed t n b + 1 else zeroed t n b) = inBucket t.w n b (n :: es)
      rw [zeroed_spec hw h hn' b]
      unfold inBucket
      rw [List.countP_cons]
      by_cases hb : b = n % (t.w : Int)
      · rw [if_pos hb, if_pos (by simp only [decide_eq_true_eq]; omega)]
      · rw [if_neg hb, if_neg (by simp only [decide_eq_true_eq]; omega)]; rfl

theorem inv_run {ops : List Op} : ∀ {t : Tracker} {cur : Int} {es : List Int}, 0 < t.w → Inv t cur es →
    (cur :: ops.map Op.time).Pairwise (· ≤ ·) →
    ∃ es' cur', Inv (ops.foldl step t) cur' es' ∧ es' = (events ops).reverse ++ es ∧ (ops.foldl step t).w = t.w ∧
      (∀ n, (cur :: ops.map Op.time).Pairwise (· ≤ ·) → (∀ x ∈ cur :: ops.map Op.time, x ≤ n) → cur' ≤ n) := by
  induction ops with
  | nil =>
    intro t cur es _ h _
    exact ⟨es, cur, h, by simp [events], rfl, fun n _ hx => hx cur (by simp)⟩
  | cons op ops ih =>
    intro t cur es hw h hp
    have hp' := List.pairwise_cons.1 hp
    have hle : cur ≤ op.time := hp'.1 _ (by simp)
    obtain ⟨hi, hw'⟩ := inv_step hw h op hle
    obtain ⟨es', cur', h1, h2, h3, h4⟩ := ih (t := step t op) (by omega) hi hp'.2
    refine ⟨es', cur', h1, ?_, by simp only [List.foldl_cons]; omega, ?_⟩
    · rw [h2]
      cases op <;> simp [events]
    · intro n _ hx
      exact h4 n hp'.2 (fun x hx' => hx x (by simp at hx' ⊢; exact Or.inr hx'))

theorem countP_split (p : Int → Bool) (w : Nat) (hw : 0 < w) (es : List Int) :
    ((List.range w).map (fun (b : Nat) => es.countP (fun e => p e && decide (e % (w : Int) = (b : Int))))).sum = es.countP p := by
  induction es with
  | nil =>
    simp only [List.countP_nil]
    induction w with
    | zero => rfl
    | succ w ih =>
      by_cases h0 : w = 0
      · subst h0; rfl
      · rw [List.range_succ, List.map_append, List.sum_append, ih (by omega)]; rfl
  | cons e es ih =>
    rw [List.countP_cons, ← ih]
    have key : ∀ l : List Nat, l.Nodup → ((∃ b ∈ l, e % (w : Int) = (b : Int)) ∨ p e = false →
        (l.map (fun (b : Nat) => (e :: es).countP (fun e => p e && decide (e % (w : Int) = (b : Int))))).sum =
        (l.map (fun (b : Nat) => es.countP (fun e => p e && decide (e % (w : Int) = (b : Int))))).sum + if p e = true then 1 else 0) ∧
        ((∀ b ∈ l, e % (w : Int) ≠ (b : Int)) →
        (l.map (fun (b : Nat) => (e :: es).countP (fun e => p e && decide (e % (w : Int) = (b : Int))))).sum =
        (l.map (fun (b : Nat) => es.countP (fun e => p e && decide (e % (w : Int) = (b : Int))))).sum) := by
      intro l
      induction l with
      | nil =>
        intro _
        refine ⟨?_, fun _ => rfl⟩
        rintro (⟨b, hb, _⟩ | hf)
        · cases hb
        · simp [hf]
      | cons b l ihl =>
        intro hnd
        have hnd' := List.nodup_cons.1 hnd
        obtain ⟨ih1, ih2⟩ := ihl hnd'.2
        constructor
        · intro h
          simp only [List.map_cons, List.sum_cons, List.countP_cons]
          by_cases hp : p e = true
          · rcases h with ⟨b', hb', he⟩ | hf
            · rcases List.mem_cons.1 hb' with hb' | hb'
              · subst hb'
                have h2 := ih2 (fun c hc hce => by
                  have : (b' : Int) = c := by rw [← he, hce]
                  have : b' = c := by omega
                  subst this; exact hnd'.1 hc)
                simp only [List.countP_cons] at h2
                rw [h2]
                simp [hp, he]; omega
              · have h1 := ih1 (Or.inl ⟨b', hb', he⟩)
                have hne : ¬ e % (w : Int) = (b : Int) := by
                  intro hc
                  have : b = b' := by omega
                  subst this; exact hnd'.1 hb'
                simp only [List.countP_cons] at h1
                rw [h1]
                simp [hp, hne]; omega
            · rw [hp] at hf; cases hf
          · have hp' : p e = false := by simpa using hp
            have h1 := ih1 (Or.inr hp')
            simp only [List.countP_cons] at h1
            rw [h1]
            simp [hp']
        · intro h
          simp only [List.map_cons, List.sum_cons, List.countP_cons]
          have h2 := ih2 (fun c hc => h c (by simp [hc]))
          simp only [List.countP_cons] at h2
          rw [h2]
          have := h b (by simp)
          simp [this]
    refine (key (List.range w) List.nodup_range).1 ?_
    left
    have hw' : (0 : Int) < w := by omega
    have h1 := Int.emod_nonneg e (Int.ne_of_gt hw')
    have h2 := Int.emod_lt_of_pos e hw'
    exact ⟨(e % (w : Int)).toNat, List.mem_range.2 (by omega), by omega⟩

/-- **C37.**  For every window length, every creation time and every sequence of calls at non-decreasing times, asking
for the count at a later time gives the number of events registered in the last `w` seconds before it. -/
theorem C37_count (w : Nat) (hw : 0 < w) (t0 : Int) (ops : List Op) (now : Int)
    (hmono : (t0 :: ops.map Op.time ++ [now]).Pairwise (· ≤ ·)) :
    (getCount (ops.foldl step (init w t0)) now).2 = inWindow w now (events ops) := by
  have hp := List.pairwise_append.1 hmono
  have hi : Inv (init w t0) t0 [] := ⟨Int.le_refl _, (fun e h => by cases h), fun b => ⟨t0, Int.le_refl _, Int.le_refl _, rfl⟩⟩
  obtain ⟨es', cur', h1, h2, h3, h4⟩ := inv_run (ops := ops) (t := init w t0) hw hi hp.1
  have hcur := h4 now hp.1 (fun x hx => hp.2.2 x hx now (by simp))
  have hw' : (ops.foldl step (init w t0)).w = w := h3
  have hz : ∀ b, (peek (ops.foldl step (init w t0)) now).bucket b = inBucket w now b es' := by
    intro b
    have := zeroed_spec (by omega) h1 hcur b
    rw [hw'] at this
    exact this
  unfold getCount
  dsimp only
  rw [hw']
  rw [show (fun (b : Nat) => (peek (ops.foldl step (init w t0)) now).bucket (b : Int)) =
    (fun (b : Nat) => es'.countP (fun e => decide (now - w < e) && decide (e % (w : Int) = (b : Int)))) from by
      funext b; rw [hz]; unfold inBucket; apply List.countP_congr; intro e _; simp]
  rw [countP_split (fun e => decide (now - w < e)) w hw, h2]
  simp only [List.append_nil, List.countP_reverse]
  unfold inWindow
  apply List.countP_congr
  intro e he
  have hle : e ≤ now := by
    have : e ∈ es' := by rw [h2]; simpa using he
    have := h1.2.1 e this
    have := h1.1
    omega
  simp [hle]

example : (getCount ([Op.register 10, .register 12, .count 13, .register 13, .count 15].foldl step (init 3 10)) 15).2 = 1 :=
  by decide +kernel

end Verif.Backend.Rate
