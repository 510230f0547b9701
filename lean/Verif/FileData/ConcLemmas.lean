import Verif.FileData.Conc
/-
Lemmas for C70 and C71.
-/
namespace Verif.FileData

/-- What holds of every block. -/
def BlkOk (s : CSt) (b : Nat) : Prop :=
  match s.f.blocks b with
  | none => s.stored b = false
  | some e => (e.dirty = true → e.fh.content ≠ []) ∧ (s.stored b = true → e.fh.content ≠ []) ∧
      (e.dirty = false → s.stored b = false → e.fh.content = []) ∧
      (s.cached b = false → s.stored b = true ∧ e.dirty = false)

/-- What holds in every history. -/
structure CInv (s : CSt) : Prop where
  ent : ∃ m, InvM s.f m
  blk : ∀ b, BlkOk s b
  brk : ∀ b, s.broken b = true → s.failsafe = true ∧ s.stored b = true

theorem CInv.bs {s : CSt} (h : CInv s) : 0 < s.f.bs := h.ent.elim (fun _ h => h.1)

theorem InvM.congr {f g : FileSt} {m : Nat} (h : InvM f m) (hb : g.bs = f.bs) (hg : ∀ b, g.get b = f.get b) : InvM g m := by
  refine ⟨by rw [hb]; exact h.1, fun b => ?_⟩
  have := h.2 b
  unfold FileSt.blk at *
  rw [hg, hb]; exact this

theorem byteAt_congr {f g : FileSt} (hb : g.bs = f.bs) (hg : ∀ b, g.get b = f.get b) (i : Nat) : g.byteAt i = f.byteAt i := by
  unfold FileSt.byteAt FileSt.blk; rw [hb, hg]

theorem blk_congr {f g : FileSt} (hg : ∀ b, g.get b = f.get b) (i : Nat) : g.blk i = f.blk i := by
  unfold FileSt.blk; rw [hg]

/-! ### Fetching -/

structure FetchOk (s s' : CSt) (b : Nat) : Prop where
  bs : s'.f.bs = s.f.bs
  size : s'.f.size = s.f.size
  get : ∀ c, s'.f.get c = s.f.get c
  stored : s'.stored = s.stored
  bad : s'.bad = s.bad
  broken : s'.broken = s.broken
  failsafe : s'.failsafe = s.failsafe
  cached : s'.cached b = true
  inv : CInv s → CInv s'

theorem fetch_ok {s s' : CSt} {b : Nat} (h : s.fetch b = .ok s') : FetchOk s s' b := by
  unfold CSt.fetch at h
  split at h
  · rename_i hb
    cases h
    have hg : ∀ c, (s.f.put b CacheEntry.new).get c = s.f.get c := by
      intro c; rw [get_put]; split
      · rename_i hc; subst hc; unfold FileSt.get; rw [hb]; rfl
      · rfl
    refine ⟨rfl, rfl, hg, rfl, rfl, rfl, rfl, if_pos rfl, fun hi => ⟨?_, fun c => ?_, hi.brk⟩⟩
    · obtain ⟨m, hm⟩ := hi.ent; exact ⟨m, hm.congr rfl hg⟩
    · have := hi.blk c
      unfold BlkOk at this ⊢
      by_cases hc : c = b
      · subst hc
        rw [hb] at this
        simp only [FileSt.put, if_pos, upd, CacheEntry.new]
        simp_all
      · simp only [FileSt.put, if_neg hc, upd]; exact this
  · rename_i e hb
    split at h
    · rename_i hc; cases h; exact ⟨rfl, rfl, fun _ => rfl, rfl, rfl, rfl, rfl, hc, id⟩
    · split at h
      · cases h
      · cases h
        refine ⟨rfl, rfl, fun _ => rfl, rfl, rfl, rfl, rfl, if_pos rfl, fun hi => ⟨hi.ent, fun c => ?_, hi.brk⟩⟩
        have := hi.blk c
        unfold BlkOk at this ⊢
        by_cases hc : c = b
        · subst hc
          rw [hb] at this
          simp only [hb, upd, if_pos]
          simp_all
        · simp only [upd, if_neg hc]; exact this

theorem fetch_err {s : CSt} {b : Nat} {d : Damage} (h : s.fetch b = .error d) : s.cached b = false ∧ s.bad b = some d ∧
    ∃ e, s.f.blocks b = some e := by
  unfold CSt.fetch at h
  split at h
  · cases h
  · rename_i e hb
    split at h
    · cases h
    · rename_i hc
      split at h
      · rename_i d' hd; cases h; exact ⟨by simpa using hc, hd, e, hb⟩
      · cases h

theorem fail_inv {s : CSt} {b : Nat} {d : Damage} (hi : CInv s) (h : s.fetch b = .error d) : CInv (s.fail b) := by
  obtain ⟨hc, _, e, hb⟩ := fetch_err h
  refine ⟨hi.ent, hi.blk, fun c hc' => ⟨rfl, ?_⟩⟩
  simp only [CSt.fail, upd] at hc'
  split at hc'
  · rename_i h1; subst h1
    have := hi.blk c
    unfold BlkOk at this; rw [hb] at this
    exact (this.2.2.2 hc).1
  · exact (hi.brk c hc').2

/-! ### One call of `_readwrite` -/

theorem readwriteW_take (f : FileSt) (o : Nat) (buf : List Byte) (hbs : 0 < f.bs) :
    readwriteW f o buf = readwriteW f o (buf.take (readwriteW f o buf).2) := by
  have e : (readwriteW f o buf).2 = clipLen f.bs (o - o / f.bs * f.bs) buf.length := rfl
  have h1 := clipLen_le f.bs (o - o / f.bs * f.bs) buf.length
  have h2 : clipLen f.bs (o - o / f.bs * f.bs) (buf.take (readwriteW f o buf).2).length = (readwriteW f o buf).2 := by
    rw [List.length_take, e]
    have hr : o - o / f.bs * f.bs < f.bs := by rw [offrel]; exact Nat.mod_lt _ hbs
    have h3 := clipLen_fit f.bs (o - o / f.bs * f.bs) buf.length hr
    rw [Nat.min_eq_left h1]
    generalize clipLen f.bs (o - o / f.bs * f.bs) buf.length = n at h3 ⊢
    unfold clipLen; rw [if_neg (by omega)]
  have h3 : buf.take (readwriteW f o buf).2 = (buf.take (readwriteW f o buf).2).take (readwriteW f o buf).2 := by
    rw [List.take_take, Nat.min_self]
  generalize hn : (readwriteW f o buf).2 = n at h2 h3 e ⊢
  show (f.put (o / f.bs) (((f.get (o / f.bs)).seek (o - o / f.bs * f.bs)).write
      (buf.take (clipLen f.bs (o - o / f.bs * f.bs) buf.length))), clipLen f.bs (o - o / f.bs * f.bs) buf.length) =
    (f.put (o / f.bs) (((f.get (o / f.bs)).seek (o - o / f.bs * f.bs)).write
      ((buf.take n).take (clipLen f.bs (o - o / f.bs * f.bs) (buf.take n).length))),
      clipLen f.bs (o - o / f.bs * f.bs) (buf.take n).length)
  rw [h2, ← h3, ← e]

/-- The blocks after a write to one of them. -/
theorem readwriteW_blk {f : FileSt} {m : Nat} (hi : InvM f m) (o : Nat) (buf : List Byte) (hb : buf ≠ []) :
    let r := readwriteW f o buf
    (∀ b, b ≠ o / f.bs → r.1.blocks b = f.blocks b) ∧
    (∃ e, r.1.blocks (o / f.bs) = some e ∧ e.dirty = true ∧
      e.fh.content.length = max (f.blk (o / f.bs)).length (o % f.bs + r.2)) ∧
    o % f.bs + r.2 ≤ f.bs ∧ (r.2 < buf.length → (o + r.2) % f.bs = 0) := by
  intro r
  have hbs := hi.1
  have hlen : 0 < buf.length := List.length_pos_iff.2 hb
  have hr : o % f.bs < f.bs := Nat.mod_lt _ hbs
  have e2 : r.2 = clipLen f.bs (o % f.bs) buf.length := by
    show clipLen f.bs (o - o / f.bs * f.bs) buf.length = _
    rw [offrel]
  have p0 := clipLen_pos f.bs _ _ hr hlen
  have p1 := clipLen_le f.bs (o % f.bs) buf.length
  have p2 := clipLen_fit f.bs (o % f.bs) buf.length hr
  have p3 : r.2 < buf.length → (o + r.2) % f.bs = 0 := by
    intro h
    rw [e2] at h ⊢
    unfold clipLen at h ⊢
    split
    · have := Nat.div_add_mod o f.bs
      have e : o + (f.bs - o % f.bs) = f.bs * (o / f.bs + 1) := by rw [Nat.mul_succ]; omega
      rw [e]; exact Nat.mul_mod_right _ _
    · rename_i h'; rw [if_neg h'] at h; omega
  rw [← e2] at p0 p1 p2
  have e1 : r.1 = f.put (o / f.bs) (((f.get (o / f.bs)).seek (o % f.bs)).write (buf.take r.2)) := by
    rw [e2]
    show f.put (o / f.bs) (((f.get (o / f.bs)).seek (o - o / f.bs * f.bs)).write
      (buf.take (clipLen f.bs (o - o / f.bs * f.bs) buf.length))) = _
    rw [offrel]
  obtain ⟨hp, hsz, hle, hend⟩ := hi.2 (o / f.bs)
  obtain ⟨q1, q2, q3⟩ := seek_ok (f.get (o / f.bs)) (o % f.bs) hp
  have htn : buf.take r.2 ≠ [] := by
    intro hc; have := congrArg List.length hc; rw [List.length_take, List.length_nil] at this; omega
  have htl : (buf.take r.2).length = r.2 := by rw [List.length_take]; omega
  refine ⟨fun b hbb => ?_, ⟨_, by rw [e1]; exact if_pos rfl, rfl, ?_⟩, p2, p3⟩
  · rw [e1]; exact if_neg hbb
  · simp only [CacheEntry.write, q1]
    rw [write_length _ _ htn]
    dsimp only
    rw [htl]; rfl

theorem readwriteR_get {f : FileSt} (o n : Nat) :
    let r := readwriteR f o n
    (∀ b, b ≠ o / f.bs → r.1.blocks b = f.blocks b) ∧
    (∃ e, r.1.blocks (o / f.bs) = some e ∧ e.dirty = (f.get (o / f.bs)).dirty ∧ e.fh.content = f.blk (o / f.bs)) := by
  intro r
  have hdirty : ∀ (e : CacheEntry) (x : Nat), (e.seek x).dirty = e.dirty := by
    intro e x; unfold CacheEntry.seek; split <;> rfl
  have hcont : ∀ (e : CacheEntry) (x : Nat), (e.seek x).fh.content = e.fh.content := by
    intro e x; unfold CacheEntry.seek; split <;> rfl
  refine ⟨fun b hb => if_neg hb, ⟨_, if_pos rfl, ?_, ?_⟩⟩
  · show ((f.get (o / f.bs)).seek _).dirty = _; exact hdirty _ _
  · show ((f.get (o / f.bs)).seek _).fh.content = _; exact hcont _ _

theorem readwriteR_blk {f : FileSt} (o n b : Nat) : (readwriteR f o n).1.blk b = f.blk b := by
  obtain ⟨h1, e, h2, _, h3⟩ := readwriteR_get o n
  by_cases hb : b = o / f.bs
  · subst hb
    show ((readwriteR f o n).1.blocks (o / f.bs) |>.getD CacheEntry.new).fh.content = _
    rw [h2]; exact h3
  · unfold FileSt.blk FileSt.get; rw [h1 b hb]

/-- A successful `_readwrite` for writing. -/
theorem rwW_ok {s s' : CSt} {o n : Nat} {buf : List Byte} (hi : CInv s) (hb : buf ≠ []) (h : s.rwW o buf = (some n, s')) :
    CInv s' ∧ s'.f.bs = s.f.bs ∧ s'.f.size = s.f.size ∧ s'.failsafe = s.failsafe ∧ 0 < n ∧ n ≤ buf.length ∧
    (n < buf.length → (o + n) % s.f.bs = 0) ∧
    (∀ i, s'.f.byteAt i = if o ≤ i ∧ i < o + n then at0 buf (i - o) else s.f.byteAt i) ∧
    (∀ b, s'.f.blk b = s.f.blk b ∨ b = o / s.f.bs ∧ (s'.f.blk b).length = max (s.f.blk b).length (o % s.f.bs + n)) ∧
    s'.bad = s.bad ∧ s'.broken = s.broken := by
  unfold CSt.rwW at h
  split at h
  · cases h
  split at h
  · cases h
  rename_i s1 hf
  have F := fetch_ok hf
  have hi1 := F.inv hi
  obtain ⟨m, hm⟩ := hi1.ent
  have e0 := congrArg Prod.snd h
  have en := congrArg Prod.fst h
  dsimp only at e0 en
  have en : (readwriteW s1.f o buf).2 = n := Option.some.inj en
  obtain ⟨a1, a2, a3, a4, a5, a6⟩ := readwriteW_ok s1.f o buf (max m (o + buf.length)) (hm.mono (by omega)) hb (by omega)
  obtain ⟨b1, ⟨e, b2, b3, b4⟩, b5, b6⟩ := readwriteW_blk hm o buf hb
  rw [en] at a1 a2 a6 b4 b5 b6
  rw [F.bs] at b1 b2 b4 b5 b6 a3
  subst e0
  refine ⟨⟨⟨_, a5⟩, fun b => ?_, hi1.brk⟩, a3, a4.trans F.size, F.failsafe, a1, a2, b6, fun i => ?_, fun b => ?_, F.bad, F.broken⟩
  · unfold BlkOk; dsimp only
    by_cases hb : b = o / s.f.bs
    · subst hb
      rw [b2]
      dsimp only
      have hne : e.fh.content ≠ [] := by
        intro hc; rw [hc] at b4; simp only [List.length_nil] at b4; omega
      exact ⟨fun _ => hne, fun _ => hne, (by intro hd; rw [b3] at hd; cases hd), (by intro hc; rw [F.cached] at hc; cases hc)⟩
    · rw [b1 b hb]; exact hi1.blk b
  · rw [a6]; split
    · rfl
    · exact byteAt_congr F.bs F.get i
  · by_cases hb : b = o / s.f.bs
    · right
      subst hb
      refine ⟨rfl, ?_⟩
      rw [← blk_congr F.get]
      have : (readwriteW s1.f o buf).1.blk (o / s.f.bs) = e.fh.content := by
        show ((readwriteW s1.f o buf).1.blocks (o / s.f.bs) |>.getD CacheEntry.new).fh.content = _
        rw [b2]; rfl
      dsimp only
      rw [this, b4]
    · left
      rw [← blk_congr F.get]
      unfold FileSt.blk FileSt.get; dsimp only; rw [b1 b hb]

/-- A failed `_readwrite`. -/
structure RwErr (s s' : CSt) (o : Nat) : Prop where
  inv : CInv s'
  f : s'.f = s.f
  stored : s.stored (o / s.f.bs) = true
  failsafe : s'.failsafe = true
  bad : s'.bad = s.bad
  broken : ∀ b, s'.broken b = true → s.broken b = true ∨ (b = o / s.f.bs ∧ s.bad b ≠ none)
  why : s.broken (o / s.f.bs) = true ∨ s.bad (o / s.f.bs) ≠ none

theorem rwErr_of {s : CSt} (hi : CInv s) (o : Nat) (d : Damage) (h : s.fetch (o / s.f.bs) = .error d) :
    RwErr s (s.fail (o / s.f.bs)) o := by
  obtain ⟨hc, hd, e, hb⟩ := fetch_err h
  have hbad : s.bad (o / s.f.bs) ≠ none := by rw [hd]; intro h; cases h
  refine ⟨fail_inv hi h, rfl, ?_, rfl, rfl, fun b hbb => ?_, Or.inr hbad⟩
  · have := hi.blk (o / s.f.bs); unfold BlkOk at this; rw [hb] at this; exact (this.2.2.2 hc).1
  · simp only [CSt.fail, upd] at hbb
    split at hbb
    · rename_i h; subst h; exact Or.inr ⟨rfl, hbad⟩
    · exact Or.inl hbb

theorem rwW_err {s s' : CSt} {o : Nat} {buf : List Byte} (hi : CInv s) (h : s.rwW o buf = (none, s')) : RwErr s s' o := by
  unfold CSt.rwW at h
  split at h
  · rename_i hb; cases h
    exact ⟨hi, rfl, (hi.brk _ hb).2, (hi.brk _ hb).1, rfl, fun b h => Or.inl h, Or.inl hb⟩
  split at h
  · rename_i d hf; cases h; exact rwErr_of hi o d hf
  · cases h

theorem rwR_err {s s' : CSt} {o n : Nat} (hi : CInv s) (h : s.rwR o n = (none, s')) : RwErr s s' o := by
  unfold CSt.rwR at h
  split at h
  · rename_i hb; cases h
    exact ⟨hi, rfl, (hi.brk _ hb).2, (hi.brk _ hb).1, rfl, fun b h => Or.inl h, Or.inl hb⟩
  split at h
  · rename_i d hf; cases h; exact rwErr_of hi o d hf
  · cases h

/-- A successful `_readwrite` for reading. -/
theorem rwR_ok {s s' : CSt} {o n : Nat} {res : List Byte} (hi : CInv s) (hn : 0 < n) (h : s.rwR o n = (some res, s')) :
    CInv s' ∧ s'.f.bs = s.f.bs ∧ s'.f.size = s.f.size ∧ s'.failsafe = s.failsafe ∧ 0 < res.length ∧ res.length ≤ n ∧
    (∀ i, s'.f.byteAt i = s.f.byteAt i) ∧ (∀ k, k < res.length → at0 res k = s.f.byteAt (o + k)) ∧
    (∀ b, s'.f.blk b = s.f.blk b) ∧ s'.bad = s.bad ∧ s'.broken = s.broken := by
  unfold CSt.rwR at h
  split at h
  · cases h
  split at h
  · cases h
  rename_i s1 hf
  have F := fetch_ok hf
  have hi1 := F.inv hi
  obtain ⟨m, hm⟩ := hi1.ent
  have e0 := congrArg Prod.snd h
  have en := congrArg Prod.fst h
  dsimp only at e0 en
  have en : (readwriteR s1.f o n).2 = res := Option.some.inj en
  obtain ⟨a1, a2, a3, a4, a5, a6, a7⟩ := readwriteR_ok s1.f o n m hm hn
  obtain ⟨b1, ⟨e, b2, b3, b4⟩⟩ := readwriteR_get o n
  rw [en] at a1 a2 a7
  subst e0
  refine ⟨⟨⟨_, a5⟩, fun b => ?_, hi1.brk⟩, a3.trans F.bs, a4.trans F.size, F.failsafe, a1, a2, fun i => ?_, fun k hk => ?_,
    fun b => ?_, F.bad, F.broken⟩
  · unfold BlkOk; dsimp only
    by_cases hb : b = o / s1.f.bs
    · subst hb
      rw [b2]
      dsimp only
      have := hi1.blk (o / s1.f.bs)
      unfold BlkOk at this
      rw [b3, b4]
      unfold FileSt.blk FileSt.get
      cases hx : s1.f.blocks (o / s1.f.bs) with
      | none => rw [hx] at this; dsimp only at this; dsimp only [Option.getD, CacheEntry.new]; simp [this]; rw [F.bs]; exact F.cached
      | some x => rw [hx] at this; exact this
    · rw [b1 b hb]; exact hi1.blk b
  · exact (a6 i).trans (byteAt_congr F.bs F.get i)
  · rw [a7 k hk]; exact byteAt_congr F.bs F.get _
  · rw [← blk_congr F.get b]; exact readwriteR_blk o n b

end Verif.FileData
