import Verif.Cache.Props
/-
C77: the contents of copies made by s3qlcp.  `copy_tree` (fs.py:504-638) registers the dirty blocks of a file and then
gives the new file the same objects.
-/
namespace Verif.Cache
open AL (NK)

/-- `upload_if_dirty` returns at once, and `start_flush` goes on (block_cache.py:428-431, 861-864). -/
def passes (s : State) (k : Key) : Bool :=
  match AL.get s.cache k with
  | none => true
  | some e => e.inTransit || !e.dirty

/-- `start_flush` has to look at the entries `ks` (block_cache.py:861-864), while other things happen (`evs`).  If a block
has to be registered, this is among `evs`.  Simplification: entries that appear after `start_flush` was called are not
looked at. -/
inductive Flushing (H : Bytes → Bytes) : State → List Key → List Ev → State → Prop where
  | done (s : State) : Flushing H s [] [] s
  | pass {s s' : State} {k : Key} {ks : List Key} {evs : List Ev} (h : passes s k = true) (r : Flushing H s ks evs s') : Flushing H s (k :: ks) evs s'
  | other {s s1 s' : State} {ks : List Key} {ev : Ev} {out : Out} {evs : List Ev} (h : step H s ev = some (s1, out)) (r : Flushing H s1 ks evs s') :
    Flushing H s ks (ev :: evs) s'

/-- The entries that are looked at when file `i` is copied: those of the file, if the kernel has not forgotten it
(fs.py:555-556, block_cache.py:861-863). -/
def toFlush (s : State) (i : Nat) (known : Bool) : List Key :=
  if known then (s.cache.map (·.1)).filter (fun k => k.1 = i) else []

/-- The new file `j` gets the objects of `i` (fs.py:590-612). -/
def copies (s : State) (i j : Nat) : List Ev := (s.rows.filter (fun r => r.1.1 = i)).map (fun r => .copy r.1 (j, r.1.2))

/-- Nobody uses the number `j` yet. -/
def Fresh (s : State) (j : Nat) : Prop := ∀ b, AL.get s.rows (j, b) = none ∧ AL.get s.cache (j, b) = none ∧ s.holder (j, b) = .free

/-- The event neither changes file `i` nor is the failure of an upload of one of its blocks. -/
def calm (i : Nat) : Ev → Bool
  | .write k _ | .remove k | .copy _ k | .hashFail k | .sendFail k | .upFail k => decide (k.1 ≠ i)
  | _ => true

/-- The entry has changes that are not being uploaded. -/
def Waiting (s : State) (k : Key) : Prop := ∃ e, AL.get s.cache k = some e ∧ e.dirty = true ∧ e.inTransit = false

theorem registerStep_cache (H : Bytes → Bytes) (s : State) (k : Key) (e : Entry) : (registerStep H s k e).cache = s.cache ∨
    (registerStep H s k e).cache = AL.set s.cache k { e with dirty := false, inTransit := false } := by
  unfold registerStep
  dsimp only
  split
  · exact Or.inl rfl
  · split <;> exact Or.inr rfl

theorem step_waiting {H : Bytes → Bytes} {s s' : State} {ev : Ev} {out : Out} {k : Key} (h : step H s ev = some (s', out)) (hc : calm k.1 ev = true)
    (hw : Waiting s' k) : Waiting s k := by
  obtain ⟨e, he, hd, ht⟩ := hw
  have same : s'.cache = s.cache → Waiting s k := fun hq => ⟨e, by rw [← hq]; exact he, hd, ht⟩
  have tail : ∀ k1, s'.cache = AL.toTail s.cache k1 → Waiting s k := fun k1 hq => ⟨e, by rw [hq, AL.get_toTail] at he; exact he, hd, ht⟩
  have set : ∀ k1 v, s'.cache = AL.set s.cache k1 v → (v.dirty = false ∨ v.inTransit = true ∨ k.1 ≠ k1.1) → Waiting s k := by
    intro k1 v hq hv
    rw [hq, AL.get_set] at he
    split at he
    · rename_i hk
      cases he
      rcases hv with hv | hv | hv
      · rw [hd] at hv; cases hv
      · rw [ht] at hv; cases hv
      · exact absurd (by rw [hk]) hv
    · exact ⟨e, he, hd, ht⟩
  have erase : ∀ k1, s'.cache = AL.erase s.cache k1 → Waiting s k := by
    intro k1 hq
    rw [hq, AL.get_erase] at he
    split at he
    · cases he
    · exact ⟨e, he, hd, ht⟩
  have ne : ∀ {k1 : Key}, decide (k1.1 ≠ k.1) = true → k.1 ≠ k1.1 := fun h => (of_decide_eq_true h).symm
  cases ev with
  | register k1 =>
    simp only [step] at h
    split at h <;> try (cases h; done)
    rename_i e1 _ _
    cases h
    rcases registerStep_cache H s k1 e1 with hq | hq
    · exact same hq
    · exact set _ _ hq (Or.inl rfl)
  | getFast k1 m => simp only [step] at h; repeat' split at h
                    all_goals first | (cases h; done) | (cases h; exact tail _ rfl)
  | getHit k1 => simp only [step] at h; split at h <;> cases h; exact tail _ rfl
  | getNew k1 => simp only [step] at h; split at h <;> cases h; exact set _ _ rfl (Or.inl rfl)
  | download k1 =>
    simp only [step] at h
    split at h <;> try (cases h; done)
    split at h <;> try (cases h; done)
    split at h <;> cases h
    · exact same rfl
    · exact set _ _ rfl (Or.inl rfl)
  | write k1 c =>
    simp only [step] at h
    split at h <;> try (cases h; done)
    split at h <;> cases h
    exact set _ _ rfl (Or.inr (Or.inr (ne hc)))
  | upStart k1 =>
    simp only [step] at h
    split at h <;> try (cases h; done)
    split at h <;> cases h
    exact set _ _ rfl (Or.inr (Or.inl rfl))
  | hashFail k1 => simp only [step] at h; split at h <;> cases h; exact set _ _ rfl (Or.inr (Or.inr (ne hc)))
  | sendFail k1 => simp only [step] at h; split at h <;> cases h; exact set _ _ rfl (Or.inr (Or.inr (ne hc)))
  | upFail k1 => simp only [step] at h; split at h <;> cases h; exact set _ _ rfl (Or.inr (Or.inr (ne hc)))
  | upOk k1 => simp only [step] at h; split at h <;> cases h; exact set _ _ rfl (Or.inl rfl)
  | evict k1 =>
    simp only [step] at h
    split at h <;> try (cases h; done)
    split at h <;> cases h
    exact erase _ rfl
  | remove k1 => simp only [step] at h; split at h <;> cases h; exact erase _ rfl
  | send k1 => simp only [step] at h; split at h <;> cases h; exact same rfl
  | copy k1 k2 =>
    simp only [step] at h
    split at h <;> try (cases h; done)
    split at h <;> cases h
    exact same rfl
  | deref o =>
    simp only [step] at h
    split at h <;> try (cases h; done)
    split at h
    · cases h; exact same rfl
    · split at h
      · cases h; exact same rfl
      · split at h <;> cases h; exact same rfl
  | _ =>
    all_goals
      simp only [step] at h
      repeat' split at h
      all_goals first | (cases h; done) | (cases h; exact same rfl)

theorem Flushing.exec {H : Bytes → Bytes} {s s' : State} {ks : List Key} {evs : List Ev} (h : Flushing H s ks evs s') : ∃ outs, exec H s evs = some (s', outs) := by
  induction h with
  | done s => exact ⟨[], rfl⟩
  | pass _ _ ih => exact ih
  | other h1 _ ih =>
    obtain ⟨outs, h2⟩ := ih
    exact ⟨_, by rw [Cache.exec, h1]; dsimp only; rw [h2]⟩

theorem Flushing.waiting {H : Bytes → Bytes} {s s' : State} {ks : List Key} {evs : List Ev} {i b : Nat} (h : Flushing H s ks evs s')
    (hq : ∀ ev ∈ evs, calm i ev = true) (hw : Waiting s (i, b) → (i, b) ∈ ks) : ¬Waiting s' (i, b) := by
  induction h with
  | done s => intro h; cases hw h
  | pass hp _ ih =>
    apply ih hq
    intro h
    rcases List.mem_cons.1 (hw h) with hk | hk
    · obtain ⟨e, h1, h2, h3⟩ := h
      unfold passes at hp
      rw [← hk, h1] at hp
      dsimp only at hp
      rw [h2, h3] at hp; cases hp
    · exact hk
  | other h1 _ ih =>
    apply ih (fun ev he => hq ev (List.mem_cons_of_mem _ he))
    intro h
    exact hw (step_waiting (k := (i, b)) h1 (hq _ List.mem_cons_self) h)

theorem exec_append' {H : Bytes → Bytes} : ∀ {evs s s1 o1 evs' s' o2}, exec H s evs = some (s1, o1) → exec H s1 evs' = some (s', o2) →
    exec H s (evs ++ evs') = some (s', o1 ++ o2) := by
  intro evs
  induction evs with
  | nil => intro s s1 o1 evs' s' o2 h1 h2; cases h1; exact h2
  | cons e es ih =>
    intro s s1 o1 evs' s' o2 h1 h2
    simp only [exec] at h1
    split at h1 <;> try (cases h1; done)
    rename_i s3 o3 h3
    split at h1 <;> try (cases h1; done)
    rename_i s4 o4 h4
    cases h1
    rw [List.cons_append, exec, h3]
    dsimp only
    rw [ih h4 h2]
    rfl

/-- The rows can be copied, and what the specification says then. -/
theorem exec_copies {H : Bytes → Bytes} {i j : Nat} : ∀ (l : List (Key × Nat)) (s : State), NK l → (∀ r ∈ l, r.1.1 = i) →
    (∀ r ∈ l, AL.get s.rows r.1 = some r.2 ∧ (∃ ob, AL.get s.objs r.2 = some ob) ∧ AL.get s.rows (j, r.1.2) = none ∧ AL.get s.cache (j, r.1.2) = none ∧ s.holder (j, r.1.2) = .free) →
    i ≠ j → ∃ s2 outs, exec H s (l.map (fun r => .copy r.1 (j, r.1.2))) = some (s2, outs)
  | [], s, _, _, _, _ => ⟨s, [], rfl⟩
  | r :: l, s, hn, hi, hr, hij => by
    obtain ⟨h1, ⟨ob, h2⟩, h3, h4, h5⟩ := hr r List.mem_cons_self
    have hn1 := List.pairwise_cons.1 (List.pairwise_map.1 hn)
    have hst : step H s (.copy r.1 (j, r.1.2)) = some ({ s with rows := AL.set s.rows (j, r.1.2) r.2, objs := AL.set s.objs r.2 { ob with refcount := ob.refcount + 1 } }, .none) := by
      simp only [step, h1, h2, h3, h4, h5]
    obtain ⟨s2, outs, he⟩ := exec_copies l { s with rows := AL.set s.rows (j, r.1.2) r.2, objs := AL.set s.objs r.2 { ob with refcount := ob.refcount + 1 } }
      (List.pairwise_map.2 hn1.2) (fun x hx => hi x (List.mem_cons_of_mem _ hx)) (by
        intro x hx
        obtain ⟨g1, ⟨ob', g2⟩, g3, g4, g5⟩ := hr x (List.mem_cons_of_mem _ hx)
        have hxi := hi x (List.mem_cons_of_mem _ hx)
        have hri := hi r List.mem_cons_self
        dsimp only
        refine ⟨?_, ?_, ?_, g4, g5⟩
        · rw [AL.get_set_ne]
          · exact g1
          · intro hq; rw [hq] at hxi; exact hij hxi.symm
        · rw [AL.get_set]; split
          · exact ⟨_, rfl⟩
          · exact ⟨ob', g2⟩
        · rw [AL.get_set_ne]
          · exact g3
          · intro hq
            have h7 : x.1.2 = r.1.2 := (Prod.mk.inj hq).2
            exact hn1.1 x hx (Prod.ext (by rw [hxi, hri]) h7.symm)) hij
    exact ⟨s2, _, by rw [List.map_cons, exec, hst]; dsimp only; rw [he]⟩

theorem run_copies {i j : Nat} (hij : i ≠ j) : ∀ (l : List (Key × Nat)) (m : Spec.Mem), (∀ r ∈ l, r.1.1 = i) →
    let m' := Spec.run m (l.map (fun r => .copy r.1 (j, r.1.2)))
    (∀ k, k.1 ≠ j → m'.now k = m.now k ∧ m'.stored k = m.stored k) ∧
    (∀ b, (∃ r ∈ l, r.1.2 = b) → m'.now (j, b) = m.stored (i, b)) ∧ (∀ b, (¬∃ r ∈ l, r.1.2 = b) → m'.now (j, b) = m.now (j, b))
  | [], m, _ => ⟨fun _ _ => ⟨rfl, rfl⟩, (fun b ⟨r, h, _⟩ => by cases h), fun _ _ => rfl⟩
  | r :: l, m, hi => by
    have hri := hi r List.mem_cons_self
    obtain ⟨h1, h2, h3⟩ := run_copies hij l (Spec.step m (.copy r.1 (j, r.1.2))) (fun x hx => hi x (List.mem_cons_of_mem _ hx))
    have hst : ∀ k, k.1 ≠ j → (Spec.step m (.copy r.1 (j, r.1.2))).now k = m.now k ∧ (Spec.step m (.copy r.1 (j, r.1.2))).stored k = m.stored k := by
      intro k hk
      have : k ≠ (j, r.1.2) := fun h => hk (by rw [h])
      exact ⟨upd_ne _ _ this, upd_ne _ _ this⟩
    have hr1 : r.1 = (i, r.1.2) := by rw [← hri]
    refine ⟨fun k hk => ⟨(h1 k hk).1.trans (hst k hk).1, (h1 k hk).2.trans (hst k hk).2⟩, ?_, ?_⟩
    · intro b hb
      by_cases hl : ∃ x ∈ l, x.1.2 = b
      · exact (h2 b hl).trans (hst (i, b) hij).2
      · obtain ⟨x, hx, hxb⟩ := hb
        rcases List.mem_cons.1 hx with hx | hx
        · subst hx
          refine (h3 b hl).trans ?_
          show upd m.now (j, x.1.2) (m.stored x.1) (j, b) = _
          rw [← hxb, upd_self]
          exact congrArg m.stored hr1
        · exact absurd ⟨x, hx, hxb⟩ hl
    · intro b hb
      refine (h3 b (fun ⟨x, hx, hxb⟩ => hb ⟨x, List.mem_cons_of_mem _ hx, hxb⟩)).trans ?_
      exact upd_ne _ _ (fun h => hb ⟨r, List.mem_cons_self, ((Prod.mk.inj h).2).symm⟩)

/-- **C77.** After any history, `start_flush` is called for the open file `i`, other things happen, and then the objects are given to
the new file `j`.  Then every block of `j` has the contents of the block of `i`, and all other files are as before.  Missing, and
false of the code: files that the kernel has forgotten (`C77_forgotten`), a block whose checksum is being computed for another upload
(`C77_checksum`), and failing uploads (`C77_upload_fails`). -/
theorem C77_copy_partial {H : Bytes → Bytes} (hH : Function.Injective H) {evs evs' : List Ev} {s s' : State} {outs : List Out} {i j : Nat}
    (h : exec H init evs = some (s, outs)) (hf : Flushing H s (toFlush s i true) evs' s') (hq : ∀ ev ∈ evs', calm i ev = true)
    (hh : ∀ b, s'.holder (i, b) ≠ .hashing) (hj : Fresh s' j) (hij : i ≠ j) :
    (∃ s2 o2, exec H init (evs ++ evs' ++ copies s' i j) = some (s2, o2)) ∧
    (∀ b, contents (evs ++ evs' ++ copies s' i j) (j, b) = contents (evs ++ evs') (i, b)) ∧
    (∀ k, k.1 ≠ j → contents (evs ++ evs' ++ copies s' i j) k = contents (evs ++ evs') k) := by
  obtain ⟨o1, he1⟩ := hf.exec
  have he := exec_append' h he1
  obtain ⟨D, hi, _, _, _, hst⟩ := exec_inv hH (inv_init H) he
  have hst : ∀ k, rowData D (AL.get s'.rows k) = (Spec.run Spec.empty (evs ++ evs')).stored k := fun k => congrFun hst k
  have hnow : ∀ b, (Spec.run Spec.empty (evs ++ evs')).stored (i, b) = contents (evs ++ evs') (i, b) := by
    intro b
    rw [← hst]
    have hw := hf.waiting (b := b) hq (by
      rintro ⟨e, h1, _⟩
      unfold toFlush
      rw [if_pos rfl]
      exact List.mem_filter.2 ⟨List.mem_map.2 ⟨_, AL.get_some_mem h1, rfl⟩, decide_eq_true rfl⟩)
    cases hc : AL.get s'.cache (i, b) with
    | none => exact hi.absent _ hc
    | some e =>
      cases hd : e.dirty with
      | false => exact hi.clean _ e hc hd
      | true =>
        cases ht : e.inTransit with
        | false => exact absurd ⟨e, hc, hd, ht⟩ hw
        | true =>
          rcases hi.tran _ e hc ht with h1 | ⟨o, h1⟩
          · exact absurd h1 (hh b)
          · obtain ⟨h2, _, e', h3, h4, _⟩ := hi.upg _ o h1
            rw [h2]
            show D o = _
            rw [← h4]; exact hi.cont _ _ h3
  have hmem : ∀ r ∈ s'.rows.filter (fun r => r.1.1 = i), r ∈ s'.rows ∧ r.1.1 = i := fun r hr =>
    ⟨(List.mem_filter.1 hr).1, of_decide_eq_true (List.mem_filter.1 hr).2⟩
  have hnk : NK (s'.rows.filter (fun r => r.1.1 = i)) := by
    have := hi.nkr
    exact (List.filter_sublist.map _).nodup this
  obtain ⟨s2, o2, he2⟩ := exec_copies (H := H) (i := i) (j := j) _ s' hnk (fun r hr => (hmem r hr).2) (fun r hr => by
    have h1 := AL.mem_get_some hi.nkr (k := r.1) (v := r.2) (hmem r hr).1
    obtain ⟨ob, h2⟩ := hi.rowObj _ _ h1
    exact ⟨h1, ⟨ob, h2⟩, hj r.1.2⟩) hij
  have hrun : Spec.run Spec.empty (evs ++ evs' ++ copies s' i j) = Spec.run (Spec.run Spec.empty (evs ++ evs')) (copies s' i j) := List.foldl_append
  obtain ⟨r1, r2, r3⟩ := run_copies hij (s'.rows.filter (fun r => r.1.1 = i)) (Spec.run Spec.empty (evs ++ evs')) (fun r hr => (hmem r hr).2)
  refine ⟨⟨s2, _, exec_append' he he2⟩, ?_, ?_⟩
  · intro b
    unfold contents
    rw [hrun]
    by_cases hb : ∃ r ∈ s'.rows.filter (fun r => r.1.1 = i), r.1.2 = b
    · exact (r2 b hb).trans (hnow b)
    · refine (r3 b hb).trans ?_
      have hnone : AL.get s'.rows (i, b) = none := by
        cases hr : AL.get s'.rows (i, b) with
        | none => rfl
        | some o => exact absurd ⟨((i, b), o), List.mem_filter.2 ⟨AL.get_some_mem hr, decide_eq_true rfl⟩, rfl⟩ hb
      have h1 := hnow b
      rw [← hst, hnone] at h1
      have h2 := hi.absent (j, b) (hj b).2.1
      rw [(hj b).1] at h2
      exact h2.symm.trans h1
  · intro k hk
    unfold contents
    rw [hrun]
    exact (r1 k hk).1

/-- The event assigns contents to block `k`. -/
def assigns (k : Key) : Ev → Bool
  | .write k' _ | .remove k' | .copy _ k' => decide (k' = k)
  | _ => false

theorem contents_stay {k : Key} : ∀ (evs : List Ev) (m : Spec.Mem), (∀ ev ∈ evs, assigns k ev = false) → (Spec.run m evs).now k = m.now k
  | [], _, _ => rfl
  | ev :: evs, m, h => by
    refine (contents_stay evs (Spec.step m ev) (fun e he => h e (List.mem_cons_of_mem _ he))).trans ?_
    have h1 := h ev List.mem_cons_self
    cases ev with
    | write k' c => exact upd_ne _ _ (fun h => of_decide_eq_false h1 h.symm)
    | remove k' => exact upd_ne _ _ (fun h => of_decide_eq_false h1 h.symm)
    | copy k1 k' => exact upd_ne _ _ (fun h => of_decide_eq_false h1 h.symm)
    | _ => rfl

/-- C77: whatever happens to the original later (writes, removals, uploads, evictions), a read of the copy returns what the original
contained when it was copied, unless the copy itself was changed. -/
theorem C77_read_partial {H : Bytes → Bytes} (hH : Function.Injective H) {evs evs' evs3 : List Ev} {s s' s3 : State} {outs o3 : List Out} {i j b : Nat} {out : Out}
    (h : exec H init evs = some (s, outs)) (hf : Flushing H s (toFlush s i true) evs' s') (hq : ∀ ev ∈ evs', calm i ev = true)
    (hh : ∀ b, s'.holder (i, b) ≠ .hashing) (hj : Fresh s' j) (hij : i ≠ j) (hn : ∀ ev ∈ evs3, assigns (j, b) ev = false)
    (h3 : exec H init (evs ++ evs' ++ copies s' i j ++ evs3 ++ [.read (j, b)]) = some (s3, o3 ++ [out])) :
    out = .data (contents (evs ++ evs') (i, b)) := by
  rw [C02_last_read hH h3, ← (C77_copy_partial hH h hf hq hh hj hij).2.1 b]
  unfold contents
  have hrun : Spec.run Spec.empty (evs ++ evs' ++ copies s' i j ++ evs3) = Spec.run (Spec.run Spec.empty (evs ++ evs' ++ copies s' i j)) evs3 := List.foldl_append
  rw [hrun, contents_stay _ _ hn]

/-! #### A copy, and copies that go wrong -/

/-- Block `a` of file 5 is written. -/
def cpDirty : List Ev := [.getNew a, .write a [1], .unlock a]
/-- It is registered and the upload starts. -/
def cpFlush : List Ev := [.upStart a, .register a, .send a]

def after (evs : List Ev) : State := ((exec id init evs).map (·.1)).getD init

example : Flushing id (after cpDirty) (toFlush (after cpDirty) 5 true) cpFlush (after (cpDirty ++ cpFlush)) ∧ (∀ ev ∈ cpFlush, calm 5 ev = true) ∧
    (∀ b, (after (cpDirty ++ cpFlush)).holder (5, b) ≠ .hashing) ∧ Fresh (after (cpDirty ++ cpFlush)) 9 ∧
    contents (cpDirty ++ cpFlush ++ copies (after (cpDirty ++ cpFlush)) 5 9) (9, 0) = [1] := by
  refine ⟨.other rfl (.other rfl (.other rfl (.pass rfl (.done _)))), by decide, ?_, ?_, by decide⟩
  · intro b
    cases b with
    | zero => decide
    | succ b => exact fun h => by cases h
  · intro b
    refine ⟨?_, ?_, ?_⟩
    · show AL.get [(a, 1)] (9, b) = none
      simp [AL.get, a]
    · show AL.get [(a, _)] (9, b) = none
      simp [AL.get, a]
    · rfl

/-- The file was written and closed, and the kernel has forgotten it (it does so when memory is scarce): its blocks are not registered
before its objects are given to the copy, and the copy is empty.  Nothing fails. -/
theorem C77_forgotten : ∃ s', Flushing id (after cpDirty) (toFlush (after cpDirty) 5 false) [] s' ∧ contents cpDirty (5, 0) = [1] ∧
    (exec id init (cpDirty ++ copies s' 5 9 ++ [.getNew (9, 0), .read (9, 0)])).map (·.2.getLast?) = some (some (.data [])) :=
  ⟨after cpDirty, .done _, by decide, by decide⟩

/-- A forgotten file that had been stored and was then changed: the copy has the contents from before the change. -/
theorem C77_forgotten_stale : ∃ s', Flushing id (after (cpDirty ++ cpFlush ++ [.upOk a, .getHit a, .write a [2], .unlock a])) [] [] s' ∧
    contents (cpDirty ++ cpFlush ++ [.upOk a, .getHit a, .write a [2], .unlock a]) (5, 0) = [2] ∧
    (exec id init (cpDirty ++ cpFlush ++ [.upOk a, .getHit a, .write a [2], .unlock a] ++ copies s' 5 9 ++ [.getMiss (9, 0), .download (9, 0), .read (9, 0)])).map (·.2.getLast?) =
      some (some (.data [1])) :=
  ⟨after _, .done _, by decide, by decide⟩

/-- Another upload of the block computes the checksum: `start_flush` does not wait for it to be registered, and the copy is empty. -/
theorem C77_checksum : ∃ s', Flushing id (after (cpDirty ++ [.upStart a])) (toFlush (after (cpDirty ++ [.upStart a])) 5 true) [] s' ∧
    contents (cpDirty ++ [.upStart a]) (5, 0) = [1] ∧
    (exec id init (cpDirty ++ [.upStart a] ++ copies s' 5 9 ++ [.getNew (9, 0), .read (9, 0)])).map (·.2.getLast?) = some (some (.data [])) :=
  ⟨after _, .pass (by decide) (.done _), by decide, by decide⟩

/-- The upload fails after the copy was made: the block of the original is tried again as another object, the block of the copy is lost. -/
theorem C77_upload_fails : ∃ s', Flushing id (after cpDirty) (toFlush (after cpDirty) 5 true) cpFlush s' ∧
    (exec id init (cpDirty ++ cpFlush ++ copies s' 5 9 ++ [.upFail a, .upStart a, .register a, .send a, .upOk a, .getMiss (9, 0), .download (9, 0)])).map (·.2.getLast?) =
      some (some .err) :=
  ⟨after (cpDirty ++ cpFlush), .other rfl (.other rfl (.other rfl (.pass rfl (.done _)))), by decide⟩

end Verif.Cache
