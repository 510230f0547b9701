/-
Property C33: paged listing of the remote backends (s3c.py:257-318, swift.py:785-835, gs.py:360-402).
-/
namespace Verif.Backend.Listing

variable {K : Type} (lt : K → K → Bool)

/-- What a server answers to a listing request: some names, whether the list is truncated, and `NextMarker`. -/
structure Resp (K : Type) where
  names : List K
  truncated : Bool
  nextMarker : Option K

/-- Keys of the bucket (in the server's order) after the marker. -/
def after (keys : List K) : Option K → List K
  | none => keys
  | some m => keys.filter (lt m)

/-- Result of a listing: the keys, an error, or not finished after the given pages. -/
inductive Out (K : Type) where
  | done (keys : List K)
  | error
  | more
deriving DecidableEq

/-! #### S3 -/

/-- `_list_page` of the S3 backends after the response was parsed (s3c.py:297-318): the names and the next page token,
or an error.  Outer `none`: `RuntimeError('NextMarker element not found')`. -/
def s3Page (r : Resp K) : Option (List K × Option K) :=
  if r.truncated = false then some (r.names, none)
  else if r.names.isEmpty then
    match r.nextMarker with
    | none => none
    | some m => some ([], some m)
  else some (r.names, r.names.getLast?)

/-- `list` (s3c.py:257-267) against a server that answers the `i`-th request, made with a marker, by `srv i marker`.
`fuel` bounds the number of pages. -/
def list (page : Resp K → Option (List K × Option K)) (srv : Nat → Option K → Resp K) :
    Nat → Nat → Option K → Out K
  | 0, _, _ => .more
  | fuel + 1, i, marker =>
    match page (srv i marker) with
    | none => .error
    | some (names, none) => .done names
    | some (names, some m) =>
      match list page srv fuel (i + 1) (some m) with
      | .done rest => .done (names ++ rest)
      | o => o

/-- What an S3 server guarantees for a bucket with the keys `keys` (those with the prefix, in order): a page is an
initial part of the keys after the marker; it is complete if it is not marked as truncated; and a truncated page with
no names carries a marker that makes progress and skips nothing. -/
def S3Server (keys : List K) (marker : Option K) (r : Resp K) : Prop :=
  r.names <+: after lt keys marker ∧
  (r.truncated = false → r.names = after lt keys marker) ∧
  (r.truncated = true → r.names.length < (after lt keys marker).length) ∧
  (r.truncated = true → r.names = [] → ∃ m, r.nextMarker = some m ∧ m ∉ after lt keys marker ∧
    (∀ k ∈ after lt keys marker, lt m k = true))

variable {lt}

theorem after_prefix_last (htr : ∀ a b c, lt a b = true → lt b c = true → lt a c = true)
    (hirr : ∀ a, lt a a = false) {keys : List K} (hs : keys.Pairwise (fun a b => lt a b = true))
    {marker : Option K} {names rest : List K} {m : K} (hm : names.getLast? = some m)
    (h : after lt keys marker = names ++ rest) : after lt keys (some m) = rest := by
  have hsub : (after lt keys marker).Pairwise (fun a b => lt a b = true) := by
    cases marker with
    | none => exact hs
    | some x => exact hs.filter _
  -- m is in keys, so filtering by `lt m` keeps what is after it
  have hmem : m ∈ names := List.mem_of_getLast? hm
  have hm' : ∀ x, marker = some x → lt x m = true := by
    intro x hx
    subst hx
    have : m ∈ after lt keys (some x) := by rw [h]; simp [hmem]
    exact (List.mem_filter.1 this).2
  have hfilt : after lt keys (some m) = (after lt keys marker).filter (lt m) := by
    cases marker with
    | none => rfl
    | some x =>
      show keys.filter (lt m) = (keys.filter (lt x)).filter (lt m)
      rw [List.filter_filter]
      apply List.filter_congr
      intro k _
      cases hk : lt m k with
      | false => simp
      | true => simp [htr x m k (hm' x rfl) hk]
  rw [hfilt, h, List.filter_append]
  rw [h] at hsub
  have hp := List.pairwise_append.1 hsub
  have h1 : names.filter (lt m) = [] := by
    rw [List.filter_eq_nil_iff]
    intro a ha hlt
    -- m is the last element, a is before or equal
    obtain ⟨init, hinit⟩ : ∃ init, names = init ++ [m] := by
      have hne : names ≠ [] := by intro h0; rw [h0] at hmem; cases hmem
      refine ⟨names.dropLast, ?_⟩
      have := List.dropLast_concat_getLast hne
      rw [List.getLast?_eq_some_getLast hne] at hm
      cases hm
      exact this.symm
    rw [hinit] at ha hp
    rcases List.mem_append.1 ha with ha | ha
    · have h2 := (List.pairwise_append.1 hp.1).2.2 a ha m (by simp)
      have := htr m a m hlt h2
      rw [hirr] at this; cases this
    · simp only [List.mem_singleton] at ha
      subst ha
      rw [hirr] at hlt; cases hlt
  have h2 : rest.filter (lt m) = rest := by
    rw [List.filter_eq_self]
    intro a ha
    exact hp.2.2 m hmem a ha
  rw [h1, h2]; rfl

theorem after_skip {keys : List K} {marker : Option K} (m : K)
    (htr : ∀ a b c, lt a b = true → lt b c = true → lt a c = true)
    (hgt : ∀ x, marker = some x → lt x m = true)
    (hall : ∀ k ∈ after lt keys marker, lt m k = true) : after lt keys (some m) = after lt keys marker := by
  cases marker with
  | none =>
    show keys.filter (lt m) = keys
    rw [List.filter_eq_self]; exact hall
  | some x =>
    show keys.filter (lt m) = keys.filter (lt x)
    apply List.filter_congr
    intro k hk
    cases h1 : lt x k with
    | true => exact hall k (List.mem_filter.2 ⟨hk, h1⟩)
    | false =>
      cases h2 : lt m k with
      | false => rfl
      | true => rw [htr x m k (hgt x rfl) h2] at h1; cases h1

/-- **C33 (S3-compatible backends).**  Let the server hold the keys `keys` with the requested prefix in its (strict)
order.  Whatever page sizes it chooses, as long as every truncated page has at least one name, the listing ends after
at most one request per key plus one, and yields exactly the keys, in order and each once. -/
theorem C33_s3_list (htr : ∀ a b c, lt a b = true → lt b c = true → lt a c = true) (hirr : ∀ a, lt a a = false)
    (keys : List K) (hs : keys.Pairwise (fun a b => lt a b = true)) (srv : Nat → Option K → Resp K)
    (hsrv : ∀ i m, S3Server lt keys m (srv i m)) (hne : ∀ i m, (srv i m).truncated = true → (srv i m).names ≠ [])
    (fuel : Nat) (hf : keys.length < fuel) : list s3Page srv fuel 0 none = .done keys := by
  have key : ∀ fuel i marker, (after lt keys marker).length < fuel →
      list s3Page srv fuel i marker = .done (after lt keys marker) := by
    intro fuel
    induction fuel with
    | zero => intro i marker h; omega
    | succ fuel ih =>
      intro i marker hlt
      obtain ⟨hpre, hcomp, htrunc, _⟩ := hsrv i marker
      unfold list
      have ih := ih (i + 1)
      generalize list s3Page srv fuel (i + 1) = L at ih ⊢
      unfold s3Page
      by_cases ht : (srv i marker).truncated = false
      · rw [if_pos ht]
        dsimp only
        rw [hcomp ht]
      · have ht' : (srv i marker).truncated = true := by simpa using ht
        rw [if_neg ht]
        have hn := hne i marker ht'
        rw [if_neg (by simpa using hn)]
        obtain ⟨rest, hrest⟩ := hpre
        rw [List.getLast?_eq_some_getLast hn]
        dsimp only
        have haft := after_prefix_last htr hirr hs (marker := marker)
          (List.getLast?_eq_some_getLast hn) hrest.symm
        have hlen : rest.length < fuel := by
          have h1 : 0 < (srv i marker).names.length := List.length_pos_iff.2 hn
          rw [← hrest, List.length_append] at hlt
          omega
        rw [ih _ (by rw [haft]; exact hlen), haft, ← hrest]
  exact key fuel 0 none hf

/-- **C33 (S3, empty truncated pages).**  Even if the server sends truncated pages without names (with `NextMarker`),
whenever the listing ends its result is exactly the keys. -/
theorem C33_s3_list_sound (htr : ∀ a b c, lt a b = true → lt b c = true → lt a c = true) (hirr : ∀ a, lt a a = false)
    (keys : List K) (hs : keys.Pairwise (fun a b => lt a b = true)) (srv : Nat → Option K → Resp K)
    (hsrv : ∀ i m, S3Server lt keys m (srv i m))
    (hprog : ∀ i x m, (srv i (some x)).nextMarker = some m → lt x m = true) (fuel : Nat) :
    list s3Page srv fuel 0 none = .done keys ∨ list s3Page srv fuel 0 none = .more := by
  have key : ∀ fuel i marker,
      list s3Page srv fuel i marker = .done (after lt keys marker) ∨ list s3Page srv fuel i marker = .more := by
    intro fuel
    induction fuel with
    | zero => intro i marker; exact Or.inr rfl
    | succ fuel ih =>
      intro i marker
      obtain ⟨hpre, hcomp, htrunc, hempty⟩ := hsrv i marker
      unfold list
      have ih := ih (i + 1)
      generalize list s3Page srv fuel (i + 1) = L at ih ⊢
      unfold s3Page
      by_cases ht : (srv i marker).truncated = false
      · rw [if_pos ht]
        dsimp only
        rw [hcomp ht]; exact Or.inl rfl
      · have ht' : (srv i marker).truncated = true := by simpa using ht
        rw [if_neg ht]
        by_cases hn : (srv i marker).names = []
        · rw [if_pos (by simpa using hn)]
          obtain ⟨m, hm, _, hall⟩ := hempty ht' hn
          rw [hm]
          dsimp only
          have : after lt keys (some m) = after lt keys marker :=
            after_skip m htr (fun x hx => by subst hx; exact hprog i x m hm) hall
          rcases ih (some m) with h | h
          · rw [h, this]; exact Or.inl rfl
          · rw [h]; exact Or.inr rfl
        · rw [if_neg (by simpa using hn)]
          obtain ⟨rest, hrest⟩ := hpre
          rw [List.getLast?_eq_some_getLast hn]
          dsimp only
          have haft := after_prefix_last htr hirr hs (marker := marker)
            (List.getLast?_eq_some_getLast hn) hrest.symm
          rcases ih (some ((srv i marker).names.getLast hn)) with h | h
          · rw [h, haft]; dsimp only; rw [hrest]; exact Or.inl rfl
          · rw [h]; exact Or.inr rfl
  exact key fuel 0 none

/-! #### Swift -/

/-- `_list_page` of the Swift backend (swift.py:820-838): names ending in the suffix of temporary objects are skipped,
and the list is taken as complete unless exactly `limit` names arrived. -/
def swiftPage (limit : Nat) (isTemp : K → Bool) (r : Resp K) : Option (List K × Option K) :=
  some (r.names.filter (fun k => !isTemp k), if r.names.length = limit then r.names.getLast? else none)

/-- **C33 (Swift).**  If the server always fills pages up to the limit, the listing ends and yields exactly the keys
that are not temporary. -/
theorem C33_swift_list (htr : ∀ a b c, lt a b = true → lt b c = true → lt a c = true) (hirr : ∀ a, lt a a = false)
    (keys : List K) (hs : keys.Pairwise (fun a b => lt a b = true)) (limit : Nat) (hl : 0 < limit)
    (isTemp : K → Bool) (srv : Nat → Option K → Resp K)
    (hsrv : ∀ i m, (srv i m).names = (after lt keys m).take limit)
    (fuel : Nat) (hf : keys.length + 1 < fuel) :
    list (swiftPage limit isTemp) srv fuel 0 none = .done (keys.filter (fun k => !isTemp k)) := by
  have key : ∀ fuel i marker, (after lt keys marker).length < fuel →
      list (swiftPage limit isTemp) srv fuel i marker = .done ((after lt keys marker).filter (fun k => !isTemp k)) := by
    intro fuel
    induction fuel with
    | zero => intro i marker h; omega
    | succ fuel ih =>
      intro i marker hlt
      unfold list
      have ih := ih (i + 1)
      generalize list (swiftPage limit isTemp) srv fuel (i + 1) = L at ih ⊢
      unfold swiftPage
      have hn := hsrv i marker
      by_cases hlen : (srv i marker).names.length = limit
      · rw [if_pos hlen]
        have hne : (srv i marker).names ≠ [] := by
          intro h0; rw [h0] at hlen; simp at hlen; omega
        rw [List.getLast?_eq_some_getLast hne]
        dsimp only
        have hrest : after lt keys marker = (srv i marker).names ++ (after lt keys marker).drop limit := by
          rw [hn, List.take_append_drop]
        have haft := after_prefix_last htr hirr hs (marker := marker) (List.getLast?_eq_some_getLast hne) hrest
        have hlen2 : ((after lt keys marker).drop limit).length < fuel := by
          have : limit ≤ (after lt keys marker).length := by
            rw [hn, List.length_take] at hlen; omega
          rw [List.length_drop]; omega
        rw [ih _ (by rw [haft]; exact hlen2), haft]
        dsimp only
        rw [← List.filter_append, ← hrest]
      · rw [if_neg hlen]
        dsimp only
        have : (after lt keys marker).length ≤ limit := by
          rw [hn, List.length_take] at hlen; omega
        rw [hn, List.take_of_length_le this]
  exact key fuel 0 none (by simp only [after]; omega)

/-- A Swift server that answers with a shorter page makes the listing stop early: keys 1, 2, 3, limit 2, first page
`[1]`. -/
theorem C33_swift_short_page :
    list (swiftPage 2 (fun _ => false)) (fun _ m => ⟨(after (fun a b => decide (a < b)) [1, 2, 3] m).take 1, true, none⟩)
      10 0 none = .done [1] := by decide

/-! #### Google Storage -/

/-- `_list_page` of the Google backend (gs.py:376-402): `truncated` is the presence of `nextPageToken`, and the token
is passed back as it is.  An empty page with a token violates an assertion. -/
def gsPage (r : Resp K) : Option (List K × Option K) :=
  if r.names.isEmpty then
    match r.nextMarker with
    | none => some ([], none)
    | some _ => none
  else some (r.names, r.nextMarker)

/-- **C33 (Google Storage).**  A token is a position: the server continues where the page with the token ended.  Then
the listing ends and yields exactly the keys. -/
theorem C33_gs_list (keys : List K) (rest : Option K → List K) (h0 : rest none = keys) (srv : Nat → Option K → Resp K)
    (hcomp : ∀ i m, (srv i m).nextMarker = none → (srv i m).names = rest m)
    (hnext : ∀ i m t, (srv i m).nextMarker = some t → (srv i m).names ≠ [] ∧ rest m = (srv i m).names ++ rest (some t))
    (fuel : Nat) (hf : keys.length < fuel) : list gsPage srv fuel 0 none = .done keys := by
  have key : ∀ fuel i marker, (rest marker).length < fuel → list gsPage srv fuel i marker = .done (rest marker) := by
    intro fuel
    induction fuel with
    | zero => intro i marker h; omega
    | succ fuel ih =>
      intro i marker hlt
      unfold list
      have ih := ih (i + 1)
      generalize list gsPage srv fuel (i + 1) = L at ih ⊢
      unfold gsPage
      cases ht : (srv i marker).nextMarker with
      | none =>
        have hc := hcomp i marker ht
        by_cases hn : (srv i marker).names = []
        · rw [if_pos (by simpa using hn)]
          dsimp only
          rw [← hc, hn]
        · rw [if_neg (by simpa using hn)]
          dsimp only
          rw [hc]
      | some t =>
        obtain ⟨hn, hr⟩ := hnext i marker t ht
        rw [if_neg (by simpa using hn)]
        dsimp only
        have h1 : 0 < (srv i marker).names.length := List.length_pos_iff.2 hn
        have h2 : (rest (some t)).length < fuel := by
          rw [hr, List.length_append] at hlt; omega
        rw [ih (some t) h2, hr]
  rw [← h0]; exact key fuel 0 none (by rw [h0]; exact hf)

/-- Non-vacuity: a server with pages of two keys. -/
def demoSrv : Nat → Option Nat → Resp Nat := fun _ m =>
  let a := after (fun a b => decide (a < b)) [1, 3, 4, 8, 9] m
  ⟨a.take 2, decide (2 < a.length), none⟩

theorem demo_ok (m : Option Nat) : S3Server (fun a b => decide (a < b)) [1, 3, 4, 8, 9] m (demoSrv 0 m) ∧
    ((demoSrv 0 m).truncated = true → (demoSrv 0 m).names ≠ []) := by
  have hne : (demoSrv 0 m).truncated = true → (demoSrv 0 m).names ≠ [] := by
    simp only [demoSrv, decide_eq_true_eq]
    intro h h2
    have := congrArg List.length h2
    simp only [List.length_take, List.length_nil] at this
    omega
  refine ⟨⟨List.take_prefix _ _, ?_, ?_, fun ht h0 => absurd h0 (hne ht)⟩, hne⟩
  · simp only [demoSrv, decide_eq_false_iff_not]
    intro h
    exact List.take_of_length_le (by omega)
  · simp only [demoSrv, decide_eq_true_eq, List.length_take]
    intro h; omega

example : list s3Page demoSrv 6 0 none = .done [1, 3, 4, 8, 9] :=
  C33_s3_list (lt := fun a b => decide (a < b)) (by simp; omega) (by simp) _ (by decide) _
    (fun _ m => (demo_ok m).1) (fun _ m => (demo_ok m).2) 6 (by decide)

end Verif.Backend.Listing
