/-
C96: properties of the command `fsck.s3ql`.
-/
import Verif.Fsck.Command
import Verif.Fsck.Dirty

namespace Verif.Fsck.Command
open Verif.Fs (Bytes)

/-! ### Helper lemmas -/

/-- Which metadata are used: those of this computer, or those of the storage. -/
inductive Uses (o : Opts) (w : World) : World → Params → Db → CacheArg → Prop where
  | here {p : Params} {d : Db} (hp : w.lparams = some p) (hd : w.ldb = some d) (hc : LocalIsCurrent w) :
      Uses o w w (if p.mounted then { p with needsFsck := true } else p) d
        (if p.mounted then (if o.keepCache then .keep else .yes) else .no)
  | storage {r : Params} {b : Bool} (hr : w.rparams = some r) (hb : r.mounted = true → b = true ∧ Agreed o)
      (hb' : r.mounted = false → b = r.needsFsck) (hn : ¬ LocalIsCurrent w) :
      Uses o w { setAside w b with ldb := some w.rmeta } { r with needsFsck := b } w.rmeta .no

/-- A run that ends before anything is done in the storage. -/
structure Early (o : Opts) (w : World) (r : Res) : Prop where
  status : r.status ≠ 0
  low : r.status < 128
  unchecked : r.checked = none
  same : SameStorage w r.w
  asked : r.status = 40 ∨ r.status = 41 ∨ r.status = 42 → r.w = w
  lparams : r.w.lparams = w.lparams
  cache : r.w = w ∨ ∃ b, (r.w = setAside w b) ∧ (∃ p, w.rparams = some p ∧ (p.mounted = true → b = true ∧ Agreed o) ∧ (p.mounted = false → b = p.needsFsck)) ∧ ¬ LocalIsCurrent w

theorem early_same {o : Opts} {w : World} {c : Nat} (h0 : c ≠ 0) (h1 : c < 128) : Early o w ⟨w, c, none⟩ :=
  ⟨h0, h1, rfl, ⟨rfl, rfl, rfl, rfl⟩, fun _ => rfl, rfl, Or.inl rfl⟩

theorem fault_ok {e : Env} (hf : FaultCodes e) {a : At} {c : Nat} (h : e.fault a = some c) : c ≠ 0 ∧ c < 128 ∧ c ≠ 40 ∧ c ≠ 41 ∧ c ≠ 42 ∧ c ≠ 43 := by
  have := hf a c h
  omega

theorem setAside_storage (w : World) (b : Bool) : SameStorage w (setAside w b) ∧ (setAside w b).lparams = w.lparams ∧ (setAside w b).ldb = w.ldb := by
  unfold setAside
  split
  · exact ⟨⟨rfl, rfl, rfl, rfl⟩, rfl, rfl⟩
  · exact ⟨⟨rfl, rfl, rfl, rfl⟩, rfl, rfl⟩
  · split <;> exact ⟨⟨rfl, rfl, rfl, rfl⟩, rfl, rfl⟩

theorem dropWhile_spec (l : List Char) : ∃ a, (∀ c ∈ a, space c = true) ∧ l = a ++ l.dropWhile space := by
  induction l with
  | nil => exact ⟨[], (fun _ h => nomatch h), rfl⟩
  | cons x t ih =>
    by_cases h : space x = true
    · obtain ⟨a, ha, he⟩ := ih
      refine ⟨x :: a, ?_, ?_⟩
      · intro c hc
        rcases List.mem_cons.1 hc with rfl | hc
        · exact h
        · exact ha c hc
      · rw [List.dropWhile_cons_of_pos h, List.cons_append, ← he]
    · exact ⟨[], (fun _ h => nomatch h), by rw [List.dropWhile_cons_of_neg h]; rfl⟩

theorem strip_spec {l t : List Char} (h : strip l = t) :
    ∃ a b, (∀ c ∈ a, space c = true) ∧ (∀ c ∈ b, space c = true) ∧ l = a ++ t ++ b := by
  obtain ⟨a, ha, he⟩ := dropWhile_spec l
  obtain ⟨b, hb, he'⟩ := dropWhile_spec (l.dropWhile space).reverse
  refine ⟨a, b.reverse, ha, fun c hc => hb c (List.mem_reverse.1 hc), ?_⟩
  have h2 : l.dropWhile space = strip l ++ b.reverse := by
    have := congrArg List.reverse he'
    rw [List.reverse_reverse, List.reverse_append] at this
    exact this
  rw [List.append_assoc, ← h, ← h2]
  exact he

theorem badRev_ok {p : Params} {c : Nat} (h : badRev p = some c) : c ≠ 0 ∧ c < 128 := by
  unfold badRev at h
  split at h
  · cases h; omega
  · split at h
    · cases h; omega
    · cases h

theorem readCached_ok {w : World} {r : Params} {p : Params} {d : Db} (hr : w.rparams = some r)
    (h : readCached w r.seq = .ok (some (p, d))) : w.lparams = some p ∧ w.ldb = some d ∧ LocalIsCurrent w := by
  unfold readCached at h
  split at h
  · cases h
  · rename_i p' hp
    split at h
    · cases h
    · rename_i d' hd
      split at h
      · cases h
      · rename_i hs
        split at h
        · cases h
        · cases h
          exact ⟨hp, hd, p, r, hp, hr, by omega⟩

theorem readCached_none {w : World} {r : Params} (hr : w.rparams = some r)
    (h : readCached w r.seq = .ok none) : ¬ LocalIsCurrent w := by
  rintro ⟨p, r', hp, hr', hle⟩
  rw [hr] at hr'; cases hr'
  unfold readCached at h
  rw [hp] at h
  dsimp only at h
  split at h
  · cases h
  · split at h
    · omega
    · split at h <;> cases h

theorem readCached_err {w : World} {n c : Nat} (h : readCached w n = .error c) : c ≠ 0 ∧ c < 128 := by
  unfold readCached at h
  split at h
  · cases h
  · split at h
    · cases h; omega
    · split at h
      · cases h
      · split at h
        · rename_i hb
          cases h
          exact badRev_ok hb
        · cases h

/-- The file system is taken for clean. -/
structure Skipped (o : Opts) (e : Env) (w : World) (r : Res) : Prop where
  status : r.status = 0
  same : r.w = w
  unchecked : r.checked = none
  force : o.force = false
  says : ∃ p, SaysClean e p ∧ ((LocalIsCurrent w ∧ w.lparams = some p) ∨ (¬ LocalIsCurrent w ∧ w.rparams = some p))

theorem skips_iff {o : Opts} {e : Env} {p : Params} : skips o e p = true ↔ p.needsFsck = false ∧ e.now - p.lastFsck < 31 * 86400 ∧ o.force = false := by
  unfold skips
  simp only [Bool.and_eq_true, Bool.not_eq_true', decide_eq_true_eq]
  constructor
  · rintro ⟨⟨a, b⟩, c⟩; exact ⟨a, by omega, c⟩
  · rintro ⟨a, b, c⟩; exact ⟨⟨a, by omega⟩, c⟩

theorem withRemote_cases {o : Opts} {e : Env} {w : World} {r : Params} {b : Bool} (hf : FaultCodes e) (hr : w.rparams = some r)
    (hb : r.mounted = true → b = true ∧ Agreed o) (hb' : r.mounted = false → b = r.needsFsck) (hn : ¬ LocalIsCurrent w) :
    Skipped o e w (withRemote o e w { r with needsFsck := b }) ∨ Early o w (withRemote o e w { r with needsFsck := b }) ∨
    ∃ w1 p d c, Uses o w w1 p d c ∧ withRemote o e w { r with needsFsck := b } = go o e w1 p d c := by
  unfold withRemote
  by_cases hs : skips o e { r with needsFsck := b } = true
  · rw [if_pos hs]
    left
    obtain ⟨h1, h2, h3⟩ := skips_iff.1 hs
    have h1 : b = false := h1
    subst h1
    have hm : r.mounted = false := by
      cases hm : r.mounted with
      | false => rfl
      | true => cases (hb hm).1
    exact ⟨rfl, rfl, rfl, h3, r, ⟨hm, (hb' hm).symm, h2⟩, Or.inr ⟨hn, hr⟩⟩
  · rw [if_neg hs]
    right
    cases ha : e.fault .aside with
    | some c => exact Or.inl (early_same (fault_ok hf ha).1 (fault_ok hf ha).2.1)
    | none =>
      dsimp only
      cases hd : e.fault .download with
      | some c =>
        left
        have hc := fault_ok hf hd
        refine ⟨hc.1, hc.2.1, rfl, (setAside_storage w b).1, ?_, (setAside_storage w b).2.1, Or.inr ⟨b, rfl, ⟨r, hr, hb, hb'⟩, hn⟩⟩
        intro h
        have h : c = 40 ∨ c = 41 ∨ c = 42 := h
        omega
      | none =>
        right
        refine ⟨_, _, _, _, Uses.storage hr hb hb' hn, ?_⟩
        have hm : (setAside w b).rmeta = w.rmeta := (setAside_storage w b).1.2.1
        show go o e { setAside w b with ldb := some (setAside w b).rmeta } { r with needsFsck := b } (setAside w b).rmeta .no = _
        rw [hm]

theorem run_cases {o : Opts} {e : Env} {w : World} (hf : FaultCodes e) :
    Skipped o e w (run o e w) ∨ Early o w (run o e w) ∨ ∃ w1 p d c, Uses o w w1 p d c ∧ run o e w = go o e w1 p d c := by
  unfold run
  cases hst : e.fault .start with
  | some c => exact Or.inr (Or.inl (early_same (fault_ok hf hst).1 (fault_ok hf hst).2.1))
  | none =>
    dsimp only
    by_cases hm : e.mountedHere = true
    · rw [if_pos hm]; exact Or.inr (Or.inl (early_same (by decide) (by decide)))
    · rw [if_neg hm]
      cases hr : w.rparams with
      | none => exact Or.inr (Or.inl (early_same (by decide) (by decide)))
      | some r =>
        dsimp only
        cases hv : badRev r with
        | some c => exact Or.inr (Or.inl (early_same (badRev_ok hv).1 (badRev_ok hv).2))
        | none =>
          dsimp only
          cases hc : readCached w r.seq with
          | error c => exact Or.inr (Or.inl (early_same (readCached_err hc).1 (readCached_err hc).2))
          | ok x =>
            cases x with
            | none =>
              dsimp only
              have hn := readCached_none hr hc
              unfold ask
              by_cases hmo : r.mounted = true
              · rw [if_pos hmo]
                by_cases h1 : o.forceRemote = true
                · rw [if_pos h1]
                  exact withRemote_cases hf hr (fun _ => ⟨rfl, Or.inl h1⟩) (fun h => by rw [hmo] at h; cases h) hn
                · rw [if_neg h1]
                  by_cases h2 : o.batch = true
                  · rw [if_pos h2]; exact Or.inr (Or.inl (early_same (by decide) (by decide)))
                  · rw [if_neg h2]
                    by_cases h3 : strip o.input = sentence
                    · rw [if_neg (fun h => h h3)]
                      exact withRemote_cases hf hr (fun _ => ⟨rfl, Or.inr ⟨by simpa using h2, strip_spec h3⟩⟩) (fun h => by rw [hmo] at h; cases h) hn
                    · rw [if_pos h3]; exact Or.inr (Or.inl (early_same (by decide) (by decide)))
              · rw [if_neg hmo]
                have : r = { r with needsFsck := r.needsFsck } := rfl
                rw [this]
                exact withRemote_cases hf hr (fun h => absurd h hmo) (fun _ => rfl) hn
            | some y =>
              obtain ⟨p, d⟩ := y
              dsimp only
              obtain ⟨hp, hd, hcur⟩ := readCached_ok hr hc
              show Skipped o e w (withLocal o e w p d) ∨ Early o w (withLocal o e w p d) ∨ ∃ w1 p' d' c, Uses o w w1 p' d' c ∧ withLocal o e w p d = go o e w1 p' d' c
              unfold withLocal
              dsimp only
              by_cases hs : skips o e (if p.mounted then { p with needsFsck := true } else p) = true
              · rw [if_pos hs]
                left
                obtain ⟨h1, h2, h3⟩ := skips_iff.1 hs
                have hmo : p.mounted = false := by
                  cases hmo : p.mounted with
                  | false => rfl
                  | true =>
                    rw [hmo] at h1
                    simp at h1
                rw [hmo] at h1 h2
                exact ⟨rfl, rfl, rfl, h3, p, ⟨hmo, h1, h2⟩, Or.inl ⟨hcur, hp⟩⟩
              · rw [if_neg hs]
                right; right
                refine ⟨_, _, _, _, Uses.here hp hd hcur, ?_⟩
                have : (if p.mounted then { p with needsFsck := true } else p : Params).mounted = p.mounted := by
                  split <;> rfl
                rw [this]


/-- The cases of `go`. -/
inductive Went (e : Env) (w1 : World) (d : Db) (c : CacheArg) (r : Res) : Prop where
  /-- ended before the check -/
  | early (h0 : r.status ≠ 0) (h1 : r.status < 128) (h40 : r.status ≠ 40 ∧ r.status ≠ 41 ∧ r.status ≠ 42)
      (hs : SameStorage w1 r.w) (hn : r.checked = none) (hc : r.w.cache = w1.cache) (hb : r.w.baks = w1.baks)
  /-- ended when the parameters were written, during the check -/
  | broke (h0 : r.status ≠ 0) (h1 : r.status < 128) (h40 : r.status ≠ 40 ∧ r.status ≠ 41 ∧ r.status ≠ 42 ∧ r.status ≠ 43)
      (hm : MarkedInUse r.w) (hn : r.checked = none) (hb : r.w.baks = w1.baks)
  /-- the check came to an end -/
  | checked (s : St) (h : check e.cfg e.depth c (toSt w1 d) = some s) (hc : r.checked = some s) (hb : r.w.baks = w1.baks)
      (hw : r.w.ldb = some s.db ∧ r.w.backend = s.backend ∧ r.w.temps = s.temps)
      (hend : (s.uncorr = true ∧ r.status = 172 ∧ MarkedInUse r.w) ∨
        (s.uncorr = false ∧ r.status ≠ 0 ∧ r.status < 128 ∧ (r.status ≠ 40 ∧ r.status ≠ 41 ∧ r.status ≠ 42 ∧ r.status ≠ 43) ∧ (MarkedInUse r.w ∨ MarkedClean r.w) ∧
          ∃ a, (a = .uploadMeta ∨ a = .write2 ∨ a = .upload2 ∨ a = .expire) ∧ e.fault a ≠ none) ∨
        (s.uncorr = false ∧ r.status = (if s.found then 128 else 0) ∧ MarkedClean r.w ∧ r.w.rmeta = s.db))

theorem go_cases {o : Opts} {e : Env} {w1 : World} {p : Params} {d : Db} {c : CacheArg} (hf : FaultCodes e) :
    Went e w1 d c (go o e w1 p d c) := by
  unfold go
  by_cases hi : (!e.intact d) = true
  · rw [if_pos hi]
    exact .early (show (43:Nat) ≠ 0 by decide) (show (43:Nat) < 128 by decide) (show (43:Nat) ≠ 40 ∧ (43:Nat) ≠ 41 ∧ (43:Nat) ≠ 42 by decide) ⟨rfl, rfl, rfl, rfl⟩ rfl rfl rfl
  · rw [if_neg hi]
    have hv : ∀ x, (if o.fast then none else e.fault .verify) = some x → e.fault .verify = some x := by
      intro x hx
      split at hx
      · cases hx
      · exact hx
    cases hver : (if o.fast then none else e.fault .verify) with
    | some x =>
      have := fault_ok hf (hv x hver)
      exact .early this.1 this.2.1 ⟨this.2.2.1, this.2.2.2.1, this.2.2.2.2.1⟩ ⟨rfl, rfl, rfl, rfl⟩ rfl rfl rfl
    | none =>
      dsimp only
      cases h1 : e.fault .write1 with
      | some x =>
        have := fault_ok hf h1
        exact .early this.1 this.2.1 ⟨this.2.2.1, this.2.2.2.1, this.2.2.2.2.1⟩ ⟨rfl, rfl, rfl, rfl⟩ rfl rfl rfl
      | none =>
        dsimp only
        cases h2 : e.fault .upload1 with
        | some x =>
          have := fault_ok hf h2
          exact .early this.1 this.2.1 ⟨this.2.2.1, this.2.2.2.1, this.2.2.2.2.1⟩ ⟨rfl, rfl, rfl, rfl⟩ rfl rfl rfl
        | none =>
          dsimp only
          unfold checkNow
          cases h3 : e.fault .check with
          | some x =>
            have := fault_ok hf h3
            exact .broke this.1 this.2.1 this.2.2 ⟨_, rfl, rfl⟩ rfl rfl
          | none =>
            dsimp only
            have heq : toSt { w1 with lparams := some { p with mounted := true, seq := p.seq + 1 }, rparams := some { p with mounted := true, seq := p.seq + 1 } } d = toSt w1 d := rfl
            rw [heq]
            cases hk : check e.cfg e.depth c (toSt w1 d) with
            | none => exact .broke (show (1:Nat) ≠ 0 by decide) (show (1:Nat) < 128 by decide) (show (1:Nat) ≠ 40 ∧ (1:Nat) ≠ 41 ∧ (1:Nat) ≠ 42 ∧ (1:Nat) ≠ 43 by decide) ⟨_, rfl, rfl⟩ rfl rfl
            | some s =>
              dsimp only
              unfold finish
              cases hu : s.uncorr with
              | true => exact .checked s hk rfl rfl ⟨rfl, rfl, rfl⟩ (Or.inl ⟨hu, rfl, _, rfl, rfl⟩)
              | false =>
                rw [if_neg (by decide)]
                dsimp only
                cases h4 : e.fault .uploadMeta with
                | some x =>
                  have := fault_ok hf h4
                  exact .checked s hk rfl rfl ⟨rfl, rfl, rfl⟩ (Or.inr (Or.inl ⟨hu, this.1, this.2.1, this.2.2, Or.inl ⟨_, rfl, rfl⟩, _, Or.inl rfl, by rw [h4]; exact fun h => nomatch h⟩))
                | none =>
                  dsimp only
                  cases h5 : e.fault .write2 with
                  | some x =>
                    have := fault_ok hf h5
                    exact .checked s hk rfl rfl ⟨rfl, rfl, rfl⟩ (Or.inr (Or.inl ⟨hu, this.1, this.2.1, this.2.2, Or.inl ⟨_, rfl, rfl⟩, _, Or.inr (Or.inl rfl), by rw [h5]; exact fun h => nomatch h⟩))
                  | none =>
                    dsimp only
                    cases h6 : e.fault .upload2 with
                    | some x =>
                      have := fault_ok hf h6
                      exact .checked s hk rfl rfl ⟨rfl, rfl, rfl⟩ (Or.inr (Or.inl ⟨hu, this.1, this.2.1, this.2.2, Or.inl ⟨_, rfl, rfl⟩, _, Or.inr (Or.inr (Or.inl rfl)), by rw [h6]; exact fun h => nomatch h⟩))
                    | none =>
                      dsimp only
                      cases h7 : e.fault .expire with
                      | some x =>
                        have := fault_ok hf h7
                        exact .checked s hk rfl rfl ⟨rfl, rfl, rfl⟩ (Or.inr (Or.inl ⟨hu, this.1, this.2.1, this.2.2, Or.inr ⟨_, rfl, rfl, rfl, rfl, rfl⟩, _, Or.inr (Or.inr (Or.inr rfl)), by rw [h7]; exact fun h => nomatch h⟩))
                      | none =>
                        exact .checked s hk rfl rfl ⟨rfl, rfl, rfl⟩ (Or.inr (Or.inr ⟨hu, rfl, ⟨_, rfl, rfl, rfl, rfl, rfl⟩, rfl⟩))

theorem uses_storage {o : Opts} {w w1 : World} {p : Params} {d : Db} {c : CacheArg} (h : Uses o w w1 p d c) :
    SameStorage w w1 ∧ w1.ldb = some d ∧ (d = w.rmeta ∨ w.ldb = some d) := by
  cases h with
  | here hp hd _ => exact ⟨⟨rfl, rfl, rfl, rfl⟩, hd, Or.inr hd⟩
  | storage hr hb hb' hn => exact ⟨(setAside_storage w _).1, rfl, Or.inl rfl⟩

theorem nodup_length : ∀ {l m : List Nat}, l.Nodup → (∀ x ∈ l, x ∈ m) → l.length ≤ m.length
  | [], _, _, _ => Nat.zero_le _
  | a :: t, m, hn, hs => by
    have ha : a ∈ m := hs a List.mem_cons_self
    obtain ⟨hn1, hn2⟩ := List.nodup_cons.1 hn
    have ih := nodup_length (l := t) (m := m.erase a) hn2 (fun x hx => (List.mem_erase_of_ne (fun h => hn1 (by rw [← h]; exact hx))).2 (hs x (List.mem_cons_of_mem _ hx)))
    rw [List.length_erase_of_mem ha] at ih
    have := List.length_pos_of_mem ha
    show t.length + 1 ≤ m.length
    omega

theorem freeBak_fresh (baks : List (Nat × List CFile)) : freeBak baks ∉ keys baks := by
  unfold freeBak
  cases hf : (List.range (baks.length + 1)).find? (fun i => !(keys baks).contains i) with
  | some i =>
    have := List.find?_some hf
    simpa using this
  | none =>
    exfalso
    have hall : ∀ i ∈ List.range (baks.length + 1), i ∈ keys baks := by
      intro i hi
      have := List.find?_eq_none.1 hf i hi
      simpa using this
    have hsub : (List.range (baks.length + 1)).length ≤ (keys baks).length :=
      nodup_length List.nodup_range hall
    rw [List.length_range] at hsub
    have : (keys baks).length = baks.length := List.length_map _
    omega

theorem quiet_uncorr {e : Env} {w : World} {d : Db} {c : CacheArg} {s : St} (hs : Schema d) (hl : ListingExact e.cfg)
    (h : check e.cfg e.depth c (toSt w d) = some s) (hu : s.uncorr = true) : s.found = true := by
  cases hf : s.found with
  | true => rfl
  | false =>
    obtain ⟨he, _⟩ := check_quiet (s := toSt w d) hs hl rfl h hf
    rw [he] at hu
    cases c <;> cases hu

theorem setAside_keeps (w : World) (b : Bool) :
    (∀ x ∈ w.baks, x ∈ (setAside w b).baks) ∧
    (b = true → (setAside w b).cache = w.cache ∨ ∃ i files, w.cache = some files ∧ i ∉ keys w.baks ∧ (i, files) ∈ (setAside w b).baks) := by
  unfold setAside
  split
  · rename_i h; exact ⟨fun x hx => hx, fun _ => Or.inl rfl⟩
  · rename_i h; exact ⟨fun x hx => hx, fun _ => Or.inl rfl⟩
  · rename_i f t h
    cases b with
    | false => exact ⟨fun x hx => hx, fun h => nomatch h⟩
    | true =>
      refine ⟨fun x hx => List.mem_append_left _ hx, fun _ => Or.inr ⟨freeBak w.baks, f :: t, h, freeBak_fresh _, ?_⟩⟩
      exact List.mem_append_right _ List.mem_cons_self

theorem strip_sentence {a b : List Char} (ha : ∀ c ∈ a, space c = true) (hb : ∀ c ∈ b, space c = true) :
    strip (a ++ sentence ++ b) = sentence := by
  have hdrop : ∀ (a l : List Char), (∀ c ∈ a, space c = true) → (a ++ l).dropWhile space = l.dropWhile space := by
    intro a
    induction a with
    | nil => intro l _; rfl
    | cons x t ih =>
      intro l h
      rw [List.cons_append, List.dropWhile_cons_of_pos (h x List.mem_cons_self)]
      exact ih l (fun c hc => h c (List.mem_cons_of_mem _ hc))
  unfold strip
  rw [List.append_assoc, hdrop a _ ha]
  have h1 : (sentence ++ b).dropWhile space = sentence ++ b := by
    have : sentence = 'c' :: sentence.tail := by decide
    rw [this, List.cons_append, List.dropWhile_cons_of_neg (by decide)]
  rw [h1, List.reverse_append, hdrop _ _ (fun c hc => hb c (List.mem_reverse.1 hc))]
  have h2 : sentence.reverse.dropWhile space = sentence.reverse := by decide
  rw [h2, List.reverse_reverse]

/-! ### Properties -/

/-- **Exit status 0** means one of two things.  Either nothing was done, because the parameters say that the file system is
clean and was checked less than 31 days ago, and `--force` was not given.  Or the tables were checked, there were no errors,
nothing was changed in them or the data, and the file system is marked as clean. -/
theorem C96_status_zero {o : Opts} {e : Env} {w : World} (hf : FaultCodes e) (hl : ListingExact e.cfg)
    (hs : ∀ d, d = w.rmeta ∨ w.ldb = some d → Schema d) (h : (run o e w).status = 0) :
    ((run o e w).w = w ∧ o.force = false ∧
      ∃ p, SaysClean e p ∧ ((LocalIsCurrent w ∧ w.lparams = some p) ∨ (¬ LocalIsCurrent w ∧ w.rparams = some p))) ∨
    (MarkedClean (run o e w).w ∧ (run o e w).w.backend = w.backend ∧
      ∃ d, ((LocalIsCurrent w ∧ w.ldb = some d) ∨ (¬ LocalIsCurrent w ∧ d = w.rmeta)) ∧ NoErrors e w d ∧ (run o e w).w.rmeta = d) := by
  rcases run_cases (o := o) (w := w) hf with hk | he | ⟨w1, p, d, c, hu, hr⟩
  · exact Or.inl ⟨hk.same, hk.force, hk.says⟩
  · exact absurd h he.status
  · right
    obtain ⟨hst, hld, hd⟩ := uses_storage hu
    rw [hr] at h ⊢
    have hw := go_cases (o := o) (w1 := w1) (p := p) (d := d) (c := c) hf
    generalize go o e w1 p d c = r at h hw ⊢
    cases hw with
    | early h0 => exact absurd h h0
    | broke h0 => exact absurd h h0
    | checked s hc hcs _ hww hend =>
      rcases hend with ⟨_, h172, _⟩ | ⟨_, h0, _⟩ | ⟨_, h0, hm, hrm⟩
      · rw [h172] at h; cases h
      · exact absurd h h0
      · have hfound : s.found = false := by
          cases hfo : s.found with
          | false => rfl
          | true => rw [hfo] at h0; rw [h0] at h; cases h
        obtain ⟨hq, _, hcl⟩ := check_quiet (s := toSt w1 d) (hs d hd) hl rfl hc hfound
        have hdb : s.db = d := by rw [hq]; cases c <;> rfl
        have hbk : s.backend = w1.backend := by rw [hq]; cases c <;> rfl
        refine ⟨hm, by rw [hww.2.1, hbk, hst.2.2.1], d, ?_, ?_, by rw [hrm, hdb]⟩
        · cases hu with
          | here hp hdd hcur => exact Or.inl ⟨hcur, hdd⟩
          | storage hr' hb hb' hn => exact Or.inr ⟨hn, rfl⟩
        · unfold NoErrors
          rw [← hst.2.2.1, ← hst.2.2.2]
          exact ⟨hcl.1, hcl.2, hcl.3, hcl.4, hcl.5, hcl.6, hcl.7, hcl.8, hcl.9, hcl.10, hcl.11, hcl.12, hcl.13, hcl.14, hcl.15, hcl.16, hcl.17, hcl.18, hcl.19, hcl.20, hcl.21, hcl.22⟩

/-- **Exit status 128**: there were errors, they were corrected: all references of the metadata in the storage are right and
lead to something that exists; and the file system is marked as clean. -/
theorem C96_status_errors {o : Opts} {e : Env} {w : World} (hf : FaultCodes e) (hl : ListingExact e.cfg)
    (hs : ∀ d, d = w.rmeta ∨ w.ldb = some d → Schema d) (h : (run o e w).status = 128) :
    MarkedClean (run o e w).w ∧ Sound e (run o e w).w (run o e w).w.rmeta ∧
    ∃ d, ((LocalIsCurrent w ∧ w.ldb = some d) ∨ (¬ LocalIsCurrent w ∧ d = w.rmeta)) ∧
      (NoErrors e w d → ∃ files, w.cache = some files ∧ ¬ CacheOk e.cfg { db := d, backend := w.backend, temps := w.temps, cache := files, found := false, uncorr := false, unlinked := [] }) := by
  rcases run_cases (o := o) (w := w) hf with hk | he | ⟨w1, p, d, c, hu, hr⟩
  · rw [hk.status] at h; cases h
  · have := he.low; omega
  · obtain ⟨hst, hld, hd⟩ := uses_storage hu
    rw [hr] at h ⊢
    have hw := go_cases (o := o) (w1 := w1) (p := p) (d := d) (c := c) hf
    generalize go o e w1 p d c = r at h hw ⊢
    cases hw with
    | early h0 h1 => omega
    | broke h0 h1 => omega
    | checked s hc hcs _ hww hend =>
      rcases hend with ⟨_, h172, _⟩ | ⟨_, _, h0, _⟩ | ⟨hun, h0, hm, hrm⟩
      · omega
      · omega
      · have hfound : s.found = true := by
          cases hfo : s.found with
          | true => rfl
          | false => rw [hfo] at h0; rw [h0] at h; cases h
        have hcomp : Completed e.cfg e.depth c (toSt w1 d) s := ⟨hc, hun⟩
        obtain ⟨a1, a2, _⟩ := C42_refcounts_exact_partial (s := toSt w1 d) (hs d hd) hcomp
        obtain ⟨⟨b1, b2, b3⟩, ⟨b4, b5⟩, ⟨b6, b7, b8⟩, b9, b10⟩ := C43_references_valid (s := toSt w1 d) (hs d hd) hcomp
        refine ⟨hm, ?_, d, ?_, ?_⟩
        · rw [hrm]
          refine ⟨a1, a2, b1, b2, b3, b4, b5, b6, b7, b8, ?_, b10⟩
          rw [hww.2.1]
          exact b9
        · cases hu with
          | here hp hdd hcur => exact Or.inl ⟨hcur, hdd⟩
          | storage hr' hb hb' hn => exact Or.inr ⟨hn, rfl⟩
        · intro hcl
          have hcl' : Clean e.cfg e.depth (toSt w1 d) := by
            unfold NoErrors at hcl
            rw [← hst.2.2.1, ← hst.2.2.2] at hcl
            exact ⟨hcl.1, hcl.2, hcl.3, hcl.4, hcl.5, hcl.6, hcl.7, hcl.8, hcl.9, hcl.10, hcl.11, hcl.12, hcl.13, hcl.14, hcl.15, hcl.16, hcl.17, hcl.18, hcl.19, hcl.20, hcl.21, hcl.22⟩
          have hne : ¬ (c ≠ .no → CacheOk e.cfg (toSt w1 d)) := by
            intro hck
            obtain ⟨s', hs', hf'⟩ := (C63_reports_exactly_errors (c := c) (s := toSt w1 d) (hs d hd) hl rfl rfl).2 ⟨hcl', hck⟩
            rw [hc] at hs'
            cases hs'
            rw [hfound] at hf'; cases hf'
          cases hu with
          | storage hr' hb hb' hn => exact absurd (fun h => absurd rfl h) hne
          | here hp hdd hcur =>
            cases hca : w.cache with
            | none =>
              refine absurd (fun _ => ?_) hne
              intro f hfm
              have : f ∈ w.cache.getD [] := hfm
              rw [hca] at this
              cases this
            | some files =>
              refine ⟨files, rfl, fun hok => hne (fun _ => ?_)⟩
              have : toSt w d = { db := d, backend := w.backend, temps := w.temps, cache := files, found := false, uncorr := false, unlinked := [] } := by
                unfold toSt; rw [hca]; rfl
              rw [this]; exact hok

/-- **Exit status 172**: there were errors that could not be corrected, and the file system stays marked as in use, so that
nobody can mount it.  No other status above 127 occurs. -/
theorem C96_status_uncorrectable {o : Opts} {e : Env} {w : World} (hf : FaultCodes e) :
    ((run o e w).status = 172 → MarkedInUse (run o e w).w ∧ ∃ s, (run o e w).checked = some s ∧ s.uncorr = true) ∧
    ((run o e w).status < 128 ∨ (run o e w).status = 128 ∨ (run o e w).status = 172) := by
  rcases run_cases (o := o) (w := w) hf with hk | he | ⟨w1, p, d, c, hu, hr⟩
  · have := hk.status; exact ⟨fun h => by omega, Or.inl (by omega)⟩
  · have := he.low; exact ⟨fun h => by omega, Or.inl this⟩
  · rw [hr]
    have hw := go_cases (o := o) (w1 := w1) (p := p) (d := d) (c := c) hf
    generalize go o e w1 p d c = r at hw ⊢
    cases hw with
    | early h0 h1 => exact ⟨fun h => by omega, Or.inl h1⟩
    | broke h0 h1 => exact ⟨fun h => by omega, Or.inl h1⟩
    | checked s hc hcs _ hww hend =>
      rcases hend with ⟨hun, h172, hm⟩ | ⟨_, _, h0, _⟩ | ⟨hun, h0, hm, hrm⟩
      · exact ⟨fun _ => ⟨hm, s, hcs, hun⟩, Or.inr (Or.inr h172)⟩
      · exact ⟨fun h => by omega, Or.inl h0⟩
      · rw [h0]
        cases s.found <;> simp

/-- **The command refuses without doing anything** (file system mounted on this computer, batch mode, aborted by the user);
and if the database is corrupted, nothing in the storage is changed. -/
theorem C96_refused {o : Opts} {e : Env} {w : World} (hf : FaultCodes e) :
    (((run o e w).status = 40 ∨ (run o e w).status = 41 ∨ (run o e w).status = 42) → (run o e w).w = w) ∧
    ((run o e w).status = 43 → SameStorage w (run o e w).w) := by
  rcases run_cases (o := o) (w := w) hf with hk | he | ⟨w1, p, d, c, hu, hr⟩
  · have := hk.status; exact ⟨fun h => by omega, fun h => by omega⟩
  · exact ⟨he.asked, fun _ => he.same⟩
  · rw [hr]
    have hst := (uses_storage hu).1
    have hw := go_cases (o := o) (w1 := w1) (p := p) (d := d) (c := c) hf
    generalize go o e w1 p d c = r at hw ⊢
    cases hw with
    | early h0 h1 h40 hss =>
      refine ⟨fun h => by omega, fun _ => ⟨?_, ?_, ?_, ?_⟩⟩
      · rw [hss.1, hst.1]
      · rw [hss.2.1, hst.2.1]
      · rw [hss.2.2.1, hst.2.2.1]
      · rw [hss.2.2.2, hst.2.2.2]
    | broke h0 h1 h40 => exact ⟨fun h => by omega, fun h => by omega⟩
    | checked s hc hcs _ hww hend =>
      rcases hend with ⟨hun, h172, hm⟩ | ⟨_, _, _, h0, _⟩ | ⟨hun, h0, hm, hrm⟩
      · exact ⟨fun h => by omega, fun h => by omega⟩
      · exact ⟨fun h => by omega, fun h => by omega⟩
      · have : r.status = 0 ∨ r.status = 128 := by rw [h0]; cases s.found <;> simp
        exact ⟨fun h => by omega, fun h => by omega⟩

/-- **Consent**: if the storage says that the file system is in use, and this computer has no metadata that are as new, then
nothing at all is changed unless the user agrees. -/
theorem C96_consent {o : Opts} {e : Env} {w : World} (hf : FaultCodes e) {r : Params} (hr : w.rparams = some r)
    (hm : r.mounted = true) (hn : ¬ LocalIsCurrent w) (h : (run o e w).w ≠ w) : Agreed o := by
  rcases run_cases (o := o) (w := w) hf with hk | he | ⟨w1, p, d, c, hu, _⟩
  · exact absurd hk.same h
  · rcases he.cache with hc | ⟨b, _, ⟨p, hp, hag, _⟩, _⟩
    · exact absurd hc h
    · rw [hr] at hp; cases hp
      exact (hag hm).2
  · cases hu with
    | here _ _ hcur => exact absurd hcur hn
    | storage hr' hb _ _ =>
      rw [hr] at hr'; cases hr'
      exact (hb hm).2

/-- **No half-done repair is taken for a file system**: if anything in the storage was changed, the file system is marked as
in use, or the check is complete and it is marked as clean. -/
theorem C96_aborted {o : Opts} {e : Env} {w : World} (hf : FaultCodes e) (h : ¬ SameStorage w (run o e w).w) :
    MarkedInUse (run o e w).w ∨ (MarkedClean (run o e w).w ∧ ∃ s, (run o e w).checked = some s ∧ s.uncorr = false) := by
  rcases run_cases (o := o) (w := w) hf with hk | he | ⟨w1, p, d, c, hu, hr⟩
  · rw [hk.same] at h; exact absurd ⟨rfl, rfl, rfl, rfl⟩ h
  · exact absurd he.same h
  · rw [hr] at h ⊢
    have hst := (uses_storage hu).1
    have hw := go_cases (o := o) (w1 := w1) (p := p) (d := d) (c := c) hf
    generalize go o e w1 p d c = r at h hw ⊢
    cases hw with
    | early h0 h1 h40 hss =>
      refine absurd ⟨?_, ?_, ?_, ?_⟩ h
      · rw [hss.1, hst.1]
      · rw [hss.2.1, hst.2.1]
      · rw [hss.2.2.1, hst.2.2.1]
      · rw [hss.2.2.2, hst.2.2.2]
    | broke h0 h1 h40 hm => exact Or.inl hm
    | checked s hc hcs _ hww hend =>
      rcases hend with ⟨hun, h172, hm⟩ | ⟨hun, _, _, _, hm, _⟩ | ⟨hun, h0, hm, hrm⟩
      · exact Or.inl hm
      · rcases hm with hm | hm
        · exact Or.inl hm
        · exact Or.inr ⟨hm, s, hcs, hun⟩
      · exact Or.inr ⟨hm, s, hcs, hun⟩

/-- **Old caches are kept**: the directories with old caches stay; and if the metadata of the storage are used for a file
system that needs a check, the files in the cache directory stay or are moved to a new directory. -/
theorem C96_cache_kept {o : Opts} {e : Env} {w : World} (hf : FaultCodes e) :
    (∀ x ∈ w.baks, x ∈ (run o e w).w.baks) ∧
    (∀ r, w.rparams = some r → ¬ LocalIsCurrent w → (r.mounted = true ∨ r.needsFsck = true) → ∀ files, w.cache = some files → files ≠ [] →
      (run o e w).w.cache = some files ∨ ∃ i, i ∉ keys w.baks ∧ (i, files) ∈ (run o e w).w.baks) := by
  have hb : ∀ (r : Params) (b : Bool), (r.mounted = true → b = true ∧ Agreed o) → (r.mounted = false → b = r.needsFsck) →
      (r.mounted = true ∨ r.needsFsck = true) → b = true := by
    intro r b h1 h2 h3
    cases hm : r.mounted with
    | true => exact (h1 hm).1
    | false =>
      rw [h2 hm]
      rcases h3 with h3 | h3
      · rw [hm] at h3; cases h3
      · exact h3
  rcases run_cases (o := o) (w := w) hf with hk | he | ⟨w1, p, d, c, hu, hr⟩
  · rw [hk.same]; exact ⟨fun x hx => hx, fun _ _ _ _ files hc _ => Or.inl hc⟩
  · rcases he.cache with hc | ⟨b, hw, ⟨p, hp, h1, h2⟩, _⟩
    · rw [hc]; exact ⟨fun x hx => hx, fun _ _ _ _ files hc _ => Or.inl hc⟩
    · obtain ⟨k1, k2⟩ := setAside_keeps w b
      rw [hw]
      refine ⟨k1, fun r hr _ h3 files hc _ => ?_⟩
      rw [hr] at hp; cases hp
      rcases k2 (hb _ b h1 h2 h3) with h | ⟨i, files', h, hi, hm⟩
      · exact Or.inl (by rw [h, hc])
      · rw [hc] at h; cases h
        exact Or.inr ⟨i, hi, hm⟩
  · have hbaks : (run o e w).w.baks = w1.baks := by
      rw [hr]
      have hw := go_cases (o := o) (w1 := w1) (p := p) (d := d) (c := c) hf
      generalize go o e w1 p d c = r at hw ⊢
      cases hw with
      | early _ _ _ _ _ _ h => exact h
      | broke _ _ _ _ _ h => exact h
      | checked _ _ _ h => exact h
    cases hu with
    | here hp hd hcur =>
      rw [hbaks]
      exact ⟨fun x hx => hx, fun _ _ hn => absurd hcur hn⟩
    | @storage r0 b hr0 h1 h2 hn =>
      obtain ⟨k1, k2⟩ := setAside_keeps w b
      refine ⟨fun x hx => by rw [hbaks]; exact k1 x hx, fun r' hr' _ h3 files hc hne => ?_⟩
      rw [hr0] at hr'; cases hr'
      rw [hbaks]
      have hbt := hb r0 b h1 h2 h3
      subst hbt
      cases files with
      | nil => exact absurd rfl hne
      | cons f t =>
        right
        refine ⟨freeBak w.baks, freeBak_fresh _, ?_⟩
        show _ ∈ (setAside w true).baks
        unfold setAside
        rw [hc]
        exact List.mem_append_right _ List.mem_cons_self

/-- **What is checked**: the metadata of this computer if they are current, with the cache directory if the file system was
not unmounted (its files are kept only with `--keep-cache`); otherwise those of the storage, without a cache. -/
theorem C96_checks {o : Opts} {e : Env} {w : World} (hf : FaultCodes e) {s : St} (h : (run o e w).checked = some s) :
    (LocalIsCurrent w ∧ ∃ p d, w.lparams = some p ∧ w.ldb = some d ∧
      check e.cfg e.depth (if p.mounted then (if o.keepCache then .keep else .yes) else .no)
        { db := d, backend := w.backend, temps := w.temps, cache := w.cache.getD [], found := false, uncorr := false, unlinked := [] } = some s) ∨
    (¬ LocalIsCurrent w ∧
      check e.cfg e.depth .no
        { db := w.rmeta, backend := w.backend, temps := w.temps, cache := [], found := false, uncorr := false, unlinked := [] } = some s) := by
  rcases run_cases (o := o) (w := w) hf with hk | he | ⟨w1, p, d, c, hu, hr⟩
  · rw [hk.unchecked] at h; cases h
  · rw [he.unchecked] at h; cases h
  · rw [hr] at h
    have hst := (uses_storage hu).1
    have hw := go_cases (o := o) (w1 := w1) (p := p) (d := d) (c := c) hf
    generalize go o e w1 p d c = r at h hw
    cases hw with
    | early _ _ _ _ hn => rw [hn] at h; cases h
    | broke _ _ _ _ hn => rw [hn] at h; cases h
    | checked s' hc hcs _ _ _ =>
      rw [hcs] at h; cases h
      cases hu with
      | here hp hd hcur => exact Or.inl ⟨hcur, _, _, hp, hd, hc⟩
      | @storage r b _ _ _ hn =>
        refine Or.inr ⟨hn, ?_⟩
        have hca : (setAside w b).cache.getD [] = [] := by
          unfold setAside
          split
          · rename_i h; rw [h]; rfl
          · rename_i h; rw [h]; rfl
          · split <;> rfl
        have : toSt { setAside w b with ldb := some w.rmeta } w.rmeta =
            { db := w.rmeta, backend := w.backend, temps := w.temps, cache := [], found := false, uncorr := false, unlinked := [] } := by
          unfold toSt
          dsimp only
          rw [hca, (setAside_storage w b).1.2.2.1, (setAside_storage w b).1.2.2.2]
        rw [← this]; exact hc

/-- **Blocks in the cache are saved**: after a crash of the mount process on this computer, when fsck.s3ql ends with status 0
or 128, every block in the cache directory of a file that exists is in the storage and belongs to the file, according to the
metadata in the storage; under the condition of C62 that no object with the hash of the block was missing before.  Missing for
the full statement: see `C62_dirty_block_lost`. -/
theorem C96_cache_saved_partial {o : Opts} {e : Env} {w : World} (hf : FaultCodes e) {p : Params} {d : Db} {files : List CFile}
    (hcur : LocalIsCurrent w) (hp : w.lparams = some p) (hd : w.ldb = some d) (hc : w.cache = some files) (hm : p.mounted = true)
    (hs : Schema d) (hn : CacheNames files) {id b : Nat} {data : Bytes} (hb : CFile.blk id b data ∈ files) (hid : HasInode d id)
    (hh : ∀ x ∈ d.objects, x.2.hash = some (e.cfg.sha data) → ∃ dd, AL.get w.backend x.1 = some dd ∧ e.cfg.sha dd = e.cfg.sha data)
    (h : (run o e w).status = 0 ∨ (run o e w).status = 128) :
    ∃ row obj stored, row ∈ (run o e w).w.rmeta.blocks ∧ row.2.inode = id ∧ row.2.blockno = b ∧
      (row.2.obj, obj) ∈ (run o e w).w.rmeta.objects ∧ obj.hash = some (e.cfg.sha data) ∧
      AL.get (run o e w).w.backend row.2.obj = some stored ∧ e.cfg.sha stored = e.cfg.sha data := by
  rcases run_cases (o := o) (w := w) hf with hk | he | ⟨w1, p', d', c, hu, hr⟩
  · exfalso
    obtain ⟨q, hq, hq' | hq'⟩ := hk.says
    · rw [hp] at hq'
      have : p = q := Option.some.inj hq'.2
      rw [← this] at hq
      have := hq.1
      rw [hm] at this; cases this
    · exact hq'.1 hcur
  · have := he.low; have := he.status; omega
  · rw [hr] at h ⊢
    have hw := go_cases (o := o) (w1 := w1) (p := p') (d := d') (c := c) hf
    generalize go o e w1 p' d' c = r at h hw ⊢
    cases hw with
    | early h0 h1 => omega
    | broke h0 h1 => omega
    | checked s' hck hcs _ hww hend =>
      rcases hend with ⟨_, h172, _⟩ | ⟨_, h0, h1, _⟩ | ⟨hun, _, _, hrm⟩
      · omega
      · omega
      · cases hu with
        | storage _ _ _ hnn => exact absurd hcur hnn
        | @here p2 _ hp2 hd2 _ =>
          have e1 : p2 = p := Option.some.inj (hp2.symm.trans hp)
          have e2 : d' = d := Option.some.inj (hd2.symm.trans hd)
          subst e1; subst e2
          have hcache : (toSt w d').cache = files := by
            show w.cache.getD [] = files
            rw [hc]; rfl
          have hne : (if p2.mounted then (if o.keepCache then CacheArg.keep else CacheArg.yes) else CacheArg.no) ≠ .no := by
            rw [if_pos hm]; split <;> exact fun h => nomatch h
          rw [hrm, hww.2.1]
          exact C62_dirty_blocks_stored_partial (s := toSt w d') hs ⟨hck, hun⟩ hne (by rw [hcache]; exact hn) hh (by rw [hcache]; exact hb) hid

/-- The statement of the manual: if errors were found, corrected or not, then the exit status is at least 128. -/
def C96_documented_statement (o : Opts) (e : Env) (w : World) : Prop :=
  ∀ s, (run o e w).checked = some s → s.found = true → 128 ≤ (run o e w).status

/-- It holds if nothing fails after the check.  Missing for the full statement: failures when the repaired metadata are
stored, see `C96_documented_violated`. -/
theorem C96_documented_partial {o : Opts} {e : Env} {w : World} (hf : FaultCodes e)
    (h : e.fault .uploadMeta = none ∧ e.fault .write2 = none ∧ e.fault .upload2 = none ∧ e.fault .expire = none) :
    C96_documented_statement o e w := by
  intro s hcs hfo
  rcases run_cases (o := o) (w := w) hf with hk | he | ⟨w1, p, d, c, hu, hr⟩
  · rw [hk.unchecked] at hcs; cases hcs
  · rw [he.unchecked] at hcs; cases hcs
  · rw [hr] at hcs ⊢
    have hw := go_cases (o := o) (w1 := w1) (p := p) (d := d) (c := c) hf
    generalize go o e w1 p d c = r at hcs hw ⊢
    cases hw with
    | early _ _ _ _ hn => rw [hn] at hcs; cases hcs
    | broke _ _ _ _ hn => rw [hn] at hcs; cases hcs
    | checked s' hc hcs' _ hww hend =>
      rw [hcs'] at hcs; cases hcs
      rcases hend with ⟨hun, h172, hm⟩ | ⟨_, _, _, _, _, a, ha, hne⟩ | ⟨hun, h0, hm, hrm⟩
      · omega
      · rcases ha with rfl | rfl | rfl | rfl
        · exact absurd h.1 hne
        · exact absurd h.2.1 hne
        · exact absurd h.2.2.1 hne
        · exact absurd h.2.2.2 hne
      · rw [h0, hfo]; exact Nat.le_refl _

/-- **The check takes place**, if nothing goes wrong: if this computer has the metadata or the storage does not say that the
file system is in use or the user agrees, and the parameters do not say that it is clean or `--force` was given. -/
theorem C96_works {o : Opts} {e : Env} {w : World} {r : Params} (hw : Works e w r)
    (hag : r.mounted = true → ¬ LocalIsCurrent w → Agreed o)
    (hdirty : o.force = true ∨ ∀ p, ((LocalIsCurrent w ∧ w.lparams = some p) ∨ (¬ LocalIsCurrent w ∧ w.rparams = some p)) → ¬ SaysClean e p) :
    ∃ s, (run o e w).checked = some s ∧ (run o e w).status = (if s.uncorr then 172 else if s.found then 128 else 0) := by
  have hf : FaultCodes e := fun a c h => by rw [hw.fault] at h; cases h
  have hgo : ∀ w1 p d c, Uses o w w1 p d c → ∃ s, (go o e w1 p d c).checked = some s ∧ (go o e w1 p d c).status = (if s.uncorr then 172 else if s.found then 128 else 0) := by
    intro w1 p d c hu
    obtain ⟨hst, hld, hd⟩ := uses_storage hu
    have hi : ¬ (!e.intact d) = true := by rw [hw.intact d hd]; decide
    have hv : (if o.fast then none else e.fault .verify) = none := by
      rw [hw.fault]; split <;> rfl
    unfold go
    rw [if_neg hi, hv]
    dsimp only
    rw [hw.fault]
    dsimp only
    rw [hw.fault]
    dsimp only
    unfold checkNow
    rw [hw.fault]
    dsimp only
    have heq : toSt { w1 with lparams := some { p with mounted := true, seq := p.seq + 1 }, rparams := some { p with mounted := true, seq := p.seq + 1 } } d = toSt w1 d := rfl
    rw [heq]
    cases hk : check e.cfg e.depth c (toSt w1 d) with
    | none =>
      exfalso
      have hfiles : w1.cache.getD [] = [] ∨ w.cache = some (w1.cache.getD []) := by
        cases hu with
        | here _ _ _ =>
          cases hca : w.cache with
          | none => exact Or.inl rfl
          | some l => exact Or.inr rfl
        | @storage r b _ _ _ _ =>
          left
          show (setAside w b).cache.getD [] = []
          unfold setAside
          split
          · rename_i h; rw [h]; rfl
          · rename_i h; rw [h]; rfl
          · split <;> rfl
      have := hw.check d c (w1.cache.getD []) hd hfiles
      rw [← hst.2.2.1, ← hst.2.2.2] at this
      exact this hk
    | some s =>
      refine ⟨s, ?_⟩
      dsimp only
      unfold finish
      cases hun : s.uncorr with
      | true => exact ⟨rfl, rfl⟩
      | false =>
        rw [if_neg (by decide)]
        dsimp only
        rw [hw.fault]; dsimp only
        rw [hw.fault]; dsimp only
        rw [hw.fault]; dsimp only
        rw [hw.fault]
        exact ⟨rfl, by simp⟩
  rcases run_cases (o := o) (w := w) hf with hk | he | ⟨w1, p, d, c, hu, hr⟩
  · exfalso
    obtain ⟨p, hp, hq⟩ := hk.says
    rcases hdirty with h | h
    · rw [hk.force] at h; cases h
    · exact h p hq hp
  · exfalso
    revert he
    unfold run
    rw [hw.fault]
    dsimp only
    rw [if_neg (by rw [hw.here]; decide), hw.params]
    dsimp only
    have hbr : ∀ p : Params, p.rev = currentRev → badRev p = none := by
      intro p hp
      unfold badRev
      rw [if_neg (by omega), if_neg (by omega)]
    rw [hbr r hw.rev]
    dsimp only
    have hearly : ∀ w1 p d c, Uses o w w1 p d c → ¬ Early o w (go o e w1 p d c) := by
      intro w1 p d c hu he
      obtain ⟨s, hs, _⟩ := hgo w1 p d c hu
      rw [he.unchecked] at hs; cases hs
    cases hc : readCached w r.seq with
    | error c =>
      intro _
      unfold readCached at hc
      split at hc
      · cases hc
      · rename_i p hp
        split at hc
        · rename_i hd; exact (hw.lrev p hp).2 hd
        · split at hc
          · cases hc
          · rw [hbr p (hw.lrev p hp).1] at hc
            cases hc
    | ok x =>
      cases x with
      | none =>
        dsimp only
        have hn := readCached_none hw.params hc
        have hre : ∀ b, (r.mounted = true → b = true ∧ Agreed o) → (r.mounted = false → b = r.needsFsck) →
            ¬ Early o w (withRemote o e w { r with needsFsck := b }) := by
          intro b hb hb' he
          unfold withRemote at he
          by_cases hs : skips o e { r with needsFsck := b } = true
          · rw [if_pos hs] at he; exact he.status rfl
          · rw [if_neg hs, hw.fault] at he
            dsimp only at he
            rw [hw.fault] at he
            dsimp only at he
            have hm : (setAside w b).rmeta = w.rmeta := (setAside_storage w b).1.2.1
            have hgoeq : go o e { setAside w b with ldb := some (setAside w b).rmeta } { r with needsFsck := b } (setAside w b).rmeta .no =
                go o e { setAside w b with ldb := some w.rmeta } { r with needsFsck := b } w.rmeta .no := by rw [hm]
            have he' : Early o w (go o e { setAside w b with ldb := some (setAside w b).rmeta } { r with needsFsck := b } (setAside w b).rmeta .no) := he
            rw [hgoeq] at he'
            exact hearly _ _ _ _ (Uses.storage hw.params hb hb' hn) he'
        unfold ask
        by_cases hmo : r.mounted = true
        · rw [if_pos hmo]
          have hA := hag hmo hn
          have := hre true (fun _ => ⟨rfl, hA⟩) (fun h => by rw [hmo] at h; cases h)
          rcases hA with h | ⟨h1, a, b, ha, hb, hi⟩
          · rw [if_pos h]; exact this
          · have hstr : strip o.input = sentence := by rw [hi]; exact strip_sentence ha hb
            by_cases hfr : o.forceRemote = true
            · rw [if_pos hfr]; exact this
            · rw [if_neg hfr, if_neg (by rw [h1]; decide), if_neg (fun h => h hstr)]; exact this
        · rw [if_neg hmo]
          have := hre r.needsFsck (fun h => absurd h hmo) (fun _ => rfl)
          exact this
      | some y =>
        obtain ⟨p, d⟩ := y
        obtain ⟨hp, hd, hcur⟩ := readCached_ok hw.params hc
        show ¬ Early o w (withLocal o e w p d)
        intro he
        unfold withLocal at he
        dsimp only at he
        by_cases hs : skips o e (if p.mounted then { p with needsFsck := true } else p) = true
        · rw [if_pos hs] at he; exact he.status rfl
        · rw [if_neg hs] at he
          have hmm : (if p.mounted then { p with needsFsck := true } else p : Params).mounted = p.mounted := by split <;> rfl
          rw [hmm] at he
          exact hearly _ _ _ _ (Uses.here hp hd hcur) he
  · rw [hr]; exact hgo w1 p d c hu

/-! ### Examples -/

set_option maxRecDepth 100000

def e0 : Env := { mountedHere := false, now := 1000, intact := fun _ => true, cfg := cfg0, depth := 20, fault := fun _ => none, broken := st0 }
def o0 : Opts := { force := false, forceRemote := false, batch := true, keepCache := false, fast := false, input := [] }
def p0 : Params := { seq := 5, rev := 26, mounted := false, needsFsck := false, lastFsck := 900 }

theorem e0_codes : FaultCodes e0 := fun _ _ h => nomatch h

/-- After a crash: the damaged file system of Fsck/Props.lean, marked as in use. -/
def wBad : World := { rparams := some { p0 with mounted := true }, rmeta := db0, backend := stBad.backend, temps := stBad.temps, lparams := some { p0 with mounted := true }, ldb := some dbBad, cache := some stBad.cache, baks := [(0, [.tmp])] }

/-- A file system without errors, after mkfs. -/
def wOk : World := { rparams := some p0, rmeta := db0, backend := [], temps := 0, lparams := some p0, ldb := some db0, cache := none, baks := [] }

/-- The damaged file system is repaired, with status 128. -/
example : FaultCodes e0 ∧ ListingExact e0.cfg ∧ (∀ d, d = wBad.rmeta ∨ wBad.ldb = some d → Schema d) ∧ (run o0 e0 wBad).status = 128 ∧
    (run o0 e0 wBad).w.rmeta ≠ dbBad := by
  refine ⟨e0_codes, cfg0_listing, ?_, by decide +kernel, by decide +kernel⟩
  rintro d (h | h)
  · subst h; exact schema_of (by decide +kernel)
  · have : dbBad = d := Option.some.inj h
    subst this; exact stBad_schema

/-- Its cached block meets the conditions of `C96_cache_saved_partial`. -/
example : LocalIsCurrent wBad ∧ wBad.cache = some [CFile.blk 4 0 [8, 8]] ∧ CacheNames [CFile.blk 4 0 [8, 8]] ∧ HasInode dbBad 4 ∧
    (∀ x ∈ dbBad.objects, x.2.hash = some (e0.cfg.sha [8, 8]) → ∃ dd, AL.get wBad.backend x.1 = some dd ∧ e0.cfg.sha dd = e0.cfg.sha [8, 8]) := by
  refine ⟨⟨_, _, rfl, rfl, Nat.le_refl _⟩, rfl, List.pairwise_singleton _ _, ⟨fileI 1 0, by decide +kernel⟩, ?_⟩
  intro x hx hh
  exfalso
  revert x
  decide +kernel

/-- The other one is taken for clean, and found to be clean with `--force` (status 0 in both cases). -/
example : (run o0 e0 wOk).status = 0 ∧ (run o0 e0 wOk).checked = none ∧ (run { o0 with force := true } e0 wOk).status = 0 ∧
    (run { o0 with force := true } e0 wOk).checked ≠ none := by decide +kernel

/-- Attributes that fsck cannot repair (see `C43_wrong_attribute_renamed`): status 172. -/
example : (run o0 e0 { wOk with rparams := some { p0 with mounted := true }, lparams := some { p0 with mounted := true }, ldb := some stAttr.db }).status = 172 := by
  decide +kernel

/-- In use elsewhere: refused in batch mode (41), without the sentence (42), and not with it; the cache is then moved. -/
def wElse : World := { wOk with rparams := some { p0 with seq := 7, mounted := true }, cache := some [.blk 4 0 [8, 8]], baks := [(0, [.tmp])] }
example : (run o0 e0 wElse).status = 41 ∧ (run { o0 with batch := false, input := "yes".toList } e0 wElse).status = 42 ∧
    (run { o0 with batch := false, input := "continue, I know what I am doing\n".toList } e0 wElse).status = 0 ∧
    (run { o0 with batch := false, input := "continue, I know what I am doing\n".toList } e0 wElse).w.baks = [(0, [.tmp]), (1, [.blk 4 0 [8, 8]])] := by
  decide +kernel

example : ¬ LocalIsCurrent wElse ∧ Agreed { o0 with batch := false, input := "continue, I know what I am doing\n".toList } := by
  constructor
  · rintro ⟨p, r, hp, hr, h⟩
    have h1 : p0 = p := Option.some.inj hp
    have h2 : ({ p0 with seq := 7, mounted := true } : Params) = r := Option.some.inj hr
    subst h1; subst h2
    exact absurd h (by decide)
  · exact Or.inr ⟨rfl, [], ['\n'], (fun _ h => nomatch h), (by decide), rfl⟩

/-- The hypotheses of `C96_works`. -/
example : Works e0 wOk p0 ∧ LocalIsCurrent wOk := by
  refine ⟨⟨fun _ => rfl, rfl, rfl, rfl, ?_, fun _ _ => rfl, ?_⟩, p0, p0, rfl, rfl, Nat.le_refl _⟩
  · intro p hp
    have : p0 = p := Option.some.inj hp
    subst this
    exact ⟨rfl, fun h => nomatch h⟩
  · intro d c files hd hfiles
    have hdd : d = db0 := by
      rcases hd with h | h
      · exact h
      · exact (Option.some.inj h).symm
    have hff : files = [] := by
      rcases hfiles with h | h
      · exact h
      · cases h
    subst hdd; subst hff
    cases c <;> decide +kernel

/-! ### Where the code does not have the property -/

/-- Errors are found and corrected, but then the parameters cannot be stored: the exit status is 19, not 147. -/
theorem C96_documented_violated :
    ∃ (e : Env) (w : World) (s : St), FaultCodes e ∧ (run o0 e w).checked = some s ∧ s.found = true ∧ (run o0 e w).status = 19 := by
  refine ⟨{ e0 with fault := fun a => if a = .upload2 then some 19 else none }, wBad, ?_⟩
  have h1 : ((run o0 { e0 with fault := fun a => if a = .upload2 then some 19 else none } wBad).checked.map (·.found)) = some true := by decide +kernel
  have h2 : (run o0 { e0 with fault := fun a => if a = .upload2 then some 19 else none } wBad).status = 19 := by decide +kernel
  cases hc : (run o0 { e0 with fault := fun a => if a = .upload2 then some 19 else none } wBad).checked with
  | none => rw [hc] at h1; cases h1
  | some s =>
    rw [hc] at h1
    refine ⟨s, ?_, rfl, Option.some.inj h1, h2⟩
    intro a c h
    have h : (if a = .upload2 then some 19 else none) = some c := h
    split at h
    · cases h; exact Or.inl (by decide)
    · cases h

theorem C96_documented_false : ¬ ∀ (o : Opts) (e : Env) (w : World), FaultCodes e → C96_documented_statement o e w := by
  intro h
  obtain ⟨e, w, s, hf, hc, hfo, hst⟩ := C96_documented_violated
  have := h o0 e w hf s hc hfo
  omega

/-- The metadata of this computer are newer than those of the storage, which say that the file system is in use: fsck says
that the file system is clean and does nothing (fsck.py:1325 compares an object with itself). -/
theorem C96_outdated :
    ∃ w : World, (∃ p r, w.lparams = some p ∧ w.rparams = some r ∧ r.seq < p.seq ∧ r.mounted = true) ∧ w.ldb ≠ some w.rmeta ∧
      (run o0 e0 w).status = 0 ∧ (run o0 e0 w).w = w :=
  ⟨{ wOk with rparams := some { p0 with mounted := true }, lparams := some { p0 with seq := 6 }, ldb := some dbBad },
    ⟨_, _, rfl, rfl, by decide, rfl⟩, by decide +kernel, by decide +kernel, by decide +kernel⟩

/-- A mount process crashed on this computer and left a block in the cache.  Later the file system was checked and used
elsewhere.  A check on this computer then removes the block, without asking and with status 0. -/
theorem C96_cache_removed :
    ∃ (w : World) (p : Params), w.lparams = some p ∧ p.mounted = true ∧ w.cache = some [CFile.blk 4 0 [8, 8]] ∧ w.baks = [] ∧
      (run { o0 with force := true } e0 w).status = 0 ∧ (run { o0 with force := true } e0 w).w.cache = none ∧
      (run { o0 with force := true } e0 w).w.baks = [] ∧ (run { o0 with force := true } e0 w).w.backend = [] :=
  ⟨{ wOk with rparams := some { p0 with seq := 8 }, lparams := some { p0 with mounted := true }, cache := some [.blk 4 0 [8, 8]] }, { p0 with mounted := true },
    rfl, rfl, rfl, rfl, by decide +kernel, by decide +kernel, by decide +kernel, by decide +kernel⟩

end Verif.Fsck.Command
