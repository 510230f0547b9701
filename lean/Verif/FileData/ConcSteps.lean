import Verif.FileData.ConcLemmas
/-
C70 and C71: what each event does.
-/
namespace Verif.FileData

/-- The data is the same. -/
structure Same (s s' : CSt) : Prop where
  bs : s'.f.bs = s.f.bs
  size : s'.f.size = s.f.size
  blk : ∀ b, s'.f.blk b = s.f.blk b
  failsafe : s'.failsafe = s.failsafe
  broken : s'.broken = s.broken

theorem Same.byte {s s' : CSt} (h : Same s s') (i : Nat) : s'.f.byteAt i = s.f.byteAt i := by
  unfold FileSt.byteAt; rw [h.bs, h.blk]

theorem Same.rfl' (s : CSt) : Same s s := ⟨rfl, rfl, fun _ => rfl, rfl, rfl⟩

theorem upload_ok {s : CSt} (hi : CInv s) (b : Nat) : CInv (s.upload b) ∧ Same s (s.upload b) ∧
    (∀ c, (s.upload b).bad c ≠ none → s.bad c ≠ none) := by
  unfold CSt.upload
  split
  · exact ⟨hi, Same.rfl' s, fun _ h => h⟩
  · rename_i e he
    split
    · rename_i hc
      have hbk : ∀ c, (s.f.put b { e with dirty := false }).blk c = s.f.blk c := by
        intro c; rw [blk_put]; split
        · rename_i hcb; subst hcb; unfold FileSt.blk FileSt.get; rw [he]; rfl
        · rfl
      refine ⟨⟨?_, fun c => ?_, fun c h => ?_⟩, ⟨rfl, rfl, hbk, rfl, rfl⟩, fun c h => ?_⟩
      · obtain ⟨m, hm⟩ := hi.ent
        refine ⟨m, hm.1, fun c => ?_⟩
        dsimp only
        rw [hbk]
        have h := hm.2 c
        have hg : ((s.f.put b { e with dirty := false }).get c).pos = (s.f.get c).pos ∧
            ((s.f.put b { e with dirty := false }).get c).fh = (s.f.get c).fh ∧
            ((s.f.put b { e with dirty := false }).get c).size = (s.f.get c).size := by
          rw [get_put]; split
          · rename_i hcb; subst hcb; unfold FileSt.get; rw [he]; exact ⟨rfl, rfl, rfl⟩
          · exact ⟨rfl, rfl, rfl⟩
        rw [hg.1, hg.2.1, hg.2.2]; exact h
      · have := hi.blk c
        unfold BlkOk at this ⊢
        by_cases hcb : c = b
        · subst hcb
          rw [he] at this
          simp only [FileSt.put, upd, if_pos]
          have hne := this.1 hc.2
          exact ⟨by simp, fun _ => hne, by simp, fun h => by rw [hc.1] at h; cases h⟩
        · simp only [FileSt.put, upd, if_neg hcb]; exact this
      · refine ⟨(hi.brk c h).1, ?_⟩
        simp only [upd]; split
        · rfl
        · exact (hi.brk c h).2
      · simp only [upd] at h
        split at h
        · exact absurd rfl h
        · exact h
    · exact ⟨hi, Same.rfl' s, fun _ h => h⟩

theorem evict_ok {s : CSt} (hi : CInv s) (b : Nat) : CInv (s.evict b) ∧ Same s (s.evict b) ∧ (s.evict b).bad = s.bad := by
  unfold CSt.evict
  split
  · exact ⟨hi, Same.rfl' s, rfl⟩
  · rename_i e he
    split
    · rename_i hc
      split
      · rename_i hst
        have hbk : ∀ c, (s.f.put b ⟨false, e.fh.content.length, 0, ⟨e.fh.content, 0⟩⟩).blk c = s.f.blk c := by
          intro c; rw [blk_put]; split
          · rename_i hcb; subst hcb; unfold FileSt.blk FileSt.get; rw [he]; rfl
          · rfl
        refine ⟨⟨?_, fun c => ?_, hi.brk⟩, ⟨rfl, rfl, hbk, rfl, rfl⟩, rfl⟩
        · obtain ⟨m, hm⟩ := hi.ent
          refine ⟨m, hm.1, fun c => ?_⟩
          dsimp only
          rw [hbk, get_put]
          have h := hm.2 c
          split
          · rename_i hcb; subst hcb
            refine ⟨rfl, ?_, h.2.2⟩
            unfold FileSt.blk FileSt.get; rw [he]; rfl
          · exact h
        · have := hi.blk c
          unfold BlkOk at this ⊢
          by_cases hcb : c = b
          · subst hcb
            rw [he] at this
            dsimp only [FileSt.put, upd]
            rw [if_pos rfl, if_pos rfl]
            exact ⟨(fun h => by cases h), this.2.1, (fun _ h => by rw [hst] at h; cases h), fun _ => ⟨hst, rfl⟩⟩
          · simp only [FileSt.put, upd, if_neg hcb]; exact this
      · rename_i hst
        have hst : s.stored b = false := by simpa using hst
        have hemp : e.fh.content = [] := by
          have := hi.blk b; unfold BlkOk at this; rw [he] at this; exact this.2.2.1 hc.2 hst
        let g : FileSt := { s.f with blocks := upd s.f.blocks b none }
        have hge : ∀ c, g.get c = if c = b then CacheEntry.new else s.f.get c := by
          intro c; show Option.getD (upd s.f.blocks b none c) _ = _; unfold upd; split <;> rfl
        have hbk : ∀ c, g.blk c = s.f.blk c := by
          intro c; unfold FileSt.blk; rw [hge]; split
          · rename_i hcb; subst hcb; unfold FileSt.get; rw [he]; exact hemp.symm
          · rfl
        refine ⟨⟨?_, fun c => ?_, hi.brk⟩, ⟨rfl, rfl, hbk, rfl, rfl⟩, rfl⟩
        · obtain ⟨m, hm⟩ := hi.ent
          refine ⟨m, hm.1, fun c => ?_⟩
          show (g.get c).pos = (g.get c).fh.pos ∧ (g.get c).size = (g.blk c).length ∧ (g.blk c).length ≤ s.f.bs ∧
            (g.blk c = [] ∨ c * s.f.bs + (g.blk c).length ≤ m)
          rw [hbk, hge]
          have h := hm.2 c
          split
          · rename_i hcb; subst hcb
            refine ⟨rfl, ?_, h.2.2⟩
            unfold FileSt.blk FileSt.get; rw [he]; simp only [Option.getD]; rw [hemp]; rfl
          · exact h
        · have := hi.blk c
          unfold BlkOk at this ⊢
          by_cases hcb : c = b
          · subst hcb
            simp only [upd, if_pos]; exact hst
          · simp only [upd, if_neg hcb]; exact this
    · exact ⟨hi, Same.rfl' s, rfl⟩

/-! ### Setting the size -/

theorem remove_ok {s : CSt} (hi : CInv s) (len a e : Nat) (hbrk : s.failsafe = false) :
    CInv (CSt.remove { s with f := { s.f with size := len } } a e) := by
  refine ⟨?_, fun b => ?_, fun b h => ?_⟩
  · obtain ⟨m, hm⟩ := hi.ent
    refine ⟨m, hm.1, fun b => ?_⟩
    have h := hm.2 b
    by_cases hb : a ≤ b ∧ b < e
    · have : (CSt.remove { s with f := { s.f with size := len } } a e).f.get b = CacheEntry.new := by
        unfold CSt.remove FileSt.remove FileSt.get; simp only [if_pos hb]; rfl
      unfold FileSt.blk; rw [this]; exact ⟨rfl, rfl, Nat.zero_le _, Or.inl rfl⟩
    · have : (CSt.remove { s with f := { s.f with size := len } } a e).f.get b = s.f.get b := by
        unfold CSt.remove FileSt.remove FileSt.get; simp only [if_neg hb]
      unfold FileSt.blk; rw [this]; exact h
  · have := hi.blk b
    unfold BlkOk at this ⊢
    simp only [CSt.remove, FileSt.remove]
    by_cases hb : a ≤ b ∧ b < e
    · simp only [if_pos hb]
    · simp only [if_neg hb]; exact this
  · have := (hi.brk b h).1
    rw [hbrk] at this; cases this

theorem remove_get (s : CSt) (len a e b : Nat) : (CSt.remove { s with f := { s.f with size := len } } a e).f.get b =
    if a ≤ b ∧ b < e then CacheEntry.new else s.f.get b := by
  unfold CSt.remove FileSt.remove FileSt.get; dsimp only; split <;> rfl

/-- What `setattr` does, whatever its result. -/
theorem trunc_any {s s' : CSt} {len : Nat} {r : Except Err Unit} (hi : CInv s) (hf : s.failsafe = false)
    (h : s.truncate len = (r, s')) : CInv s' ∧ s'.f.bs = s.f.bs ∧ s'.f.size = len ∧
    (∀ i, i < len → s'.f.byteAt i = s.f.byteAt i) ∧
    (r = .ok () → ∀ b, s'.f.blk b = [] ∨ b * s.f.bs + (s'.f.blk b).length ≤ len ∨
      (s.f.size ≤ b * s.f.bs ∧ s'.f.blk b = s.f.blk b)) ∧
    (∀ b, s'.bad b ≠ none → s.bad b ≠ none) ∧
    (∀ b, s'.broken b = true → s.bad b ≠ none) ∧
    (r ≠ .ok () → s.bad (len / s.f.bs) ≠ none) ∧ (s'.failsafe = true → r ≠ .ok ()) ∧
    (r = .error .eio → s'.failsafe = true) ∧ r ≠ .error .eperm := by
  have hbs := hi.bs
  have hdm := Nat.div_add_mod len s.f.bs
  rw [Nat.mul_comm] at hdm
  have hlt := Nat.mod_lt len hbs
  have hbrk0 : ∀ b, s.broken b = false := by
    intro b
    cases hb : s.broken b with
    | false => rfl
    | true => have := (hi.brk b hb).1; rw [hf] at this; cases this
  have hle : ∀ b, (s.f.blk b).length ≤ s.f.bs := fun b => by obtain ⟨m, hm⟩ := hi.ent; exact (hm.2 b).2.2.1
  unfold CSt.truncate at h
  dsimp only at h
  by_cases hc : len % s.f.bs = 0
  · rw [if_pos hc] at h
    have h1 := (Prod.mk.inj h).1
    have h2 := (Prod.mk.inj h).2
    subst h1 h2
    have hg := remove_get s len (len / s.f.bs) (ceilDiv s.f.size s.f.bs)
    refine ⟨remove_ok hi len _ _ hf, rfl, rfl, fun i hil => ?_, fun _ b => ?_, fun b hb => ?_, fun b hb => ?_, fun h => absurd rfl h,
      fun h => ?_, fun h => (by cases h), by simp⟩
    · have : (CSt.remove { s with f := { s.f with size := len } } (len / s.f.bs) (ceilDiv s.f.size s.f.bs)).f.get (i / s.f.bs) =
          s.f.get (i / s.f.bs) := by
        rw [hg, if_neg]
        intro ⟨h1, _⟩
        have h2 := Nat.div_add_mod i s.f.bs
        have h3 := Nat.mul_le_mul_left s.f.bs h1
        rw [Nat.mul_comm s.f.bs (len / s.f.bs)] at h3
        omega
      show at0 (FileSt.blk _ (i / s.f.bs)) _ = at0 (s.f.blk (i / s.f.bs)) (i % s.f.bs)
      unfold FileSt.blk; rw [this]; rfl
    · unfold FileSt.blk; rw [hg]
      split
      · exact Or.inl rfl
      · rename_i hb
        by_cases h1 : len / s.f.bs ≤ b
        · right; right
          exact ⟨ceilDiv_le _ _ _ hbs (by omega), rfl⟩
        · right; left
          have : (b + 1) * s.f.bs ≤ len / s.f.bs * s.f.bs := Nat.mul_le_mul_right _ (by omega)
          rw [Nat.succ_mul] at this
          have := hle b
          unfold FileSt.blk at this
          omega
    · simp only [CSt.remove] at hb
      split at hb
      · exact absurd rfl hb
      · exact hb
    · have : s.broken b = true := hb
      rw [hbrk0] at this; cases this
    · have : s.failsafe = true := h
      rw [hf] at this; cases this
  · rw [if_neg hc] at h
    have hg := remove_get s len (len / s.f.bs + 1) (ceilDiv s.f.size s.f.bs)
    have hi1 := remove_ok hi len (len / s.f.bs + 1) (ceilDiv s.f.size s.f.bs) hf
    have hfs : (CSt.remove { s with f := { s.f with size := len } } (len / s.f.bs + 1) (ceilDiv s.f.size s.f.bs)).failsafe = false := hf
    have hbr1 : (CSt.remove { s with f := { s.f with size := len } } (len / s.f.bs + 1) (ceilDiv s.f.size s.f.bs)).broken = s.broken := rfl
    have hbd1 : ∀ b, (CSt.remove { s with f := { s.f with size := len } } (len / s.f.bs + 1) (ceilDiv s.f.size s.f.bs)).bad b ≠ none → s.bad b ≠ none := by
      intro b hb
      simp only [CSt.remove] at hb
      split at hb
      · exact absurd rfl hb
      · exact hb
    have hbs1 : (CSt.remove { s with f := { s.f with size := len } } (len / s.f.bs + 1) (ceilDiv s.f.size s.f.bs)).f.bs = s.f.bs := rfl
    have hsz1 : (CSt.remove { s with f := { s.f with size := len } } (len / s.f.bs + 1) (ceilDiv s.f.size s.f.bs)).f.size = len := rfl
    generalize CSt.remove { s with f := { s.f with size := len } } (len / s.f.bs + 1) (ceilDiv s.f.size s.f.bs) = s1 at *
    have hbyte1 : ∀ i, i < len → s1.f.byteAt i = s.f.byteAt i := by
      intro i hil
      unfold FileSt.byteAt FileSt.blk
      rw [hbs1, hg, if_neg]
      intro ⟨h1, _⟩
      have h2 := Nat.div_add_mod i s.f.bs
      have h3 := Nat.mul_le_mul_left s.f.bs h1
      rw [Nat.mul_succ, Nat.mul_comm s.f.bs (len / s.f.bs)] at h3
      omega
    split at h
    · rename_i hfe
      have h1 := (Prod.mk.inj h).1
      have h2 := (Prod.mk.inj h).2
      subst h1 h2
      have hbad := hbd1 _ (by rw [(fetch_err hfe).2.1]; simp)
      exact ⟨hi1, hbs1, hsz1, hbyte1, fun h => (by cases h), hbd1, fun b hb => (by rw [hbr1, hbrk0] at hb; cases hb), fun _ => hbad,
        fun h => (by rw [hfs] at h; cases h), fun h => (by cases h), by simp⟩
    · rename_i hfe
      have h1 := (Prod.mk.inj h).1
      have h2 := (Prod.mk.inj h).2
      subst h1 h2
      have hbad := hbd1 _ (by rw [(fetch_err hfe).2.1]; simp)
      refine ⟨fail_inv hi1 hfe, hbs1, hsz1, hbyte1, fun h => (by cases h), hbd1, fun b hb => ?_, fun _ => hbad, fun _ h => (by cases h),
        fun _ => rfl, by simp⟩
      simp only [CSt.fail, upd] at hb
      split at hb
      · rename_i e; subst e; exact hbad
      · rw [hbr1, hbrk0] at hb; cases hb
    · rename_i s2 hfe
      have F := fetch_ok hfe
      have h1 := (Prod.mk.inj h).1
      have h2 := (Prod.mk.inj h).2
      subst h1 h2
      have hi2 := F.inv hi1
      have hbs2 : s2.f.bs = s.f.bs := F.bs.trans hbs1
      have hgl : s2.f.get (len / s.f.bs) = s.f.get (len / s.f.bs) := by rw [F.get, hg, if_neg (by omega)]
      have htl := truncate_length (s2.f.get (len / s.f.bs)).fh (len % s.f.bs)
      have hbk : ∀ b, (s2.f.put (len / s.f.bs) ((s2.f.get (len / s.f.bs)).truncate (len % s.f.bs))).blk b =
          if b = len / s.f.bs then ((s2.f.get (len / s.f.bs)).fh.truncate (len % s.f.bs)).content else s2.f.blk b := by
        intro b; rw [blk_put]; rfl
      refine ⟨⟨?_, fun b => ?_, hi2.brk⟩, hbs2, F.size.trans hsz1, fun i hil => ?_, fun _ b => ?_, fun b hb => hbd1 b (by rw [← F.bad]; exact hb),
        fun b hb => ?_, fun h => absurd rfl h, fun h => ?_, fun h => (by cases h), by simp⟩
      · obtain ⟨m, hm⟩ := hi2.ent
        refine ⟨max m (len / s.f.bs * s.f.bs + len % s.f.bs), hm.1, fun b => ?_⟩
        have h := hm.2 b
        rw [hbk]
        dsimp only
        rw [get_put]
        by_cases hb : b = len / s.f.bs
        · rw [if_pos hb, if_pos hb]
          refine ⟨(hm.2 (len / s.f.bs)).1, htl.symm, by rw [htl]; show _ ≤ s2.f.bs; omega, Or.inr ?_⟩
          rw [htl, hb]
          show len / s.f.bs * s2.f.bs + _ ≤ _
          rw [hbs2]; omega
        · rw [if_neg hb, if_neg hb]
          refine ⟨h.1, h.2.1, h.2.2.1, h.2.2.2.imp id (fun h => ?_)⟩
          show b * s2.f.bs + (s2.f.blk b).length ≤ _
          omega
      · have := hi2.blk b
        unfold BlkOk at this ⊢
        dsimp only
        by_cases hb : b = len / s.f.bs
        · subst hb
          simp only [FileSt.put, if_pos]
          have hne : ((s2.f.get (len / s.f.bs)).truncate (len % s.f.bs)).fh.content ≠ [] := by
            intro hx
            have : ((s2.f.get (len / s.f.bs)).fh.truncate (len % s.f.bs)).content = [] := hx
            rw [this] at htl; simp only [List.length_nil] at htl; omega
          exact ⟨fun _ => hne, fun _ => hne, fun h => (by cases h), fun h => (by rw [F.cached] at h; cases h)⟩
        · simp only [FileSt.put, if_neg hb]; exact this
      · have e : s2.f.byteAt i = s.f.byteAt i := (byteAt_congr F.bs F.get i).trans (hbyte1 i hil)
        rw [← e]
        unfold FileSt.byteAt
        dsimp only
        rw [hbk]
        show at0 (if i / s2.f.bs = _ then _ else _) (i % s2.f.bs) = _
        rw [hbs2]
        split
        · rename_i hb
          rw [truncate_at0, hb]
          rw [if_pos]
          · rfl
          · have h2 := Nat.div_add_mod i s.f.bs
            rw [hb, Nat.mul_comm] at h2
            omega
        · show at0 (s2.f.blk (i / s2.f.bs)) _ = _
          rw [hbs2]
      · dsimp only
        rw [hbk]
        by_cases hb : b = len / s.f.bs
        · rw [if_pos hb]
          right; left
          rw [htl, hb]; omega
        · rw [if_neg hb]
          have hblk : s2.f.blk b = if len / s.f.bs + 1 ≤ b ∧ b < ceilDiv s.f.size s.f.bs then [] else s.f.blk b := by
            unfold FileSt.blk; rw [F.get, hg]; split <;> rfl
          rw [hblk]
          split
          · exact Or.inl rfl
          · by_cases h1 : len / s.f.bs + 1 ≤ b
            · right; right
              exact ⟨ceilDiv_le _ _ _ hbs (by omega), rfl⟩
            · right; left
              have : (b + 1) * s.f.bs ≤ len / s.f.bs * s.f.bs := Nat.mul_le_mul_right _ (by omega)
              rw [Nat.succ_mul] at this
              have := hle b
              omega
      · have : s2.broken b = true := hb
        rw [F.broken, hbr1, hbrk0] at this; cases this
      · have : s2.failsafe = true := h
        rw [F.failsafe, hfs] at this; cases this

/-! ### Events -/

/-- What holds of the requests. -/
structure WInv (w : World) : Prop where
  st : CInv w.st
  rd : ∀ t o n total acc, w.tasks t = .rd o n total acc → acc.length ≤ total ∧ total ≤ n
  wr : ∀ t o d k, w.tasks t = .wr o d k → k ≤ d.length ∧ (k = 0 ∨ k = d.length ∨ (o + k) % w.st.f.bs = 0)

/-- What an event does. -/
inductive StepRes (w : World) : Ev → World → Prop
  | same {e : Ev} : StepRes w e w
  | startR {t o n : Nat} : (w.tasks t).running = false → w.crashed = false →
      StepRes w (.startRead t o n) { w with tasks := upd w.tasks t (.rd o n (min (w.st.f.size - o) n) []) }
  | startW {t o : Nat} {d : List Byte} : (w.tasks t).running = false → w.crashed = false → w.st.failsafe = false →
      StepRes w (.startWrite t o d) { w with tasks := upd w.tasks t (.wr o d 0) }
  | refused {t o : Nat} {d : List Byte} : (w.tasks t).running = false → w.crashed = false → w.st.failsafe = true →
      StepRes w (.startWrite t o d) { w with tasks := upd w.tasks t (.wrErr o d .eperm) }
  | readEnd {t o n total : Nat} {acc : List Byte} : w.tasks t = .rd o n total acc → total = acc.length →
      StepRes w (.go t) { w with tasks := upd w.tasks t (.rdOk o n acc) }
  | readSome {t o n total : Nat} {acc buf : List Byte} {s : CSt} : w.tasks t = .rd o n total acc → acc.length < total →
      Same w.st s → CInv s → s.bad = w.st.bad → 0 < buf.length → acc.length + buf.length ≤ total →
      (∀ k, k < buf.length → at0 buf k = w.st.f.byteAt (o + acc.length + k)) →
      StepRes w (.go t) { w with st := s, tasks := upd w.tasks t (.rd o n total (acc ++ buf)) }
  | readErr {t o n total : Nat} {acc : List Byte} {s : CSt} : w.tasks t = .rd o n total acc → acc.length < total →
      RwErr w.st s (o + acc.length) → StepRes w (.go t) { w with st := s, tasks := upd w.tasks t (.rdErr o n .eio) }
  | writeEnd {t o : Nat} {d : List Byte} : w.tasks t = .wr o d d.length →
      StepRes w (.go t) { w with st := { w.st with f := { w.st.f with size := max w.st.f.size (o + d.length) } },
                                 tasks := upd w.tasks t (.wrOk o d) }
  | writeSome {t o k n : Nat} {d : List Byte} {s : CSt} : w.tasks t = .wr o d k → k < d.length → CInv s →
      s.f.bs = w.st.f.bs → s.f.size = w.st.f.size → s.failsafe = w.st.failsafe → 0 < n → k + n ≤ d.length →
      (k + n < d.length → (o + (k + n)) % w.st.f.bs = 0) →
      (∀ i, s.f.byteAt i = if o + k ≤ i ∧ i < o + (k + n) then at0 d (i - o) else w.st.f.byteAt i) →
      (∀ b, s.f.blk b = w.st.f.blk b ∨ b * w.st.f.bs ≤ o + k ∧ b * w.st.f.bs + (s.f.blk b).length = max (b * w.st.f.bs + (w.st.f.blk b).length) (o + (k + n))) →
      s.bad = w.st.bad → s.broken = w.st.broken →
      StepRes w (.go t) { w with st := s, tasks := upd w.tasks t (.wr o d (k + n)) }
  | writeErr {t o k : Nat} {d : List Byte} {s : CSt} : w.tasks t = .wr o d k → k < d.length →
      RwErr w.st s (o + k) → StepRes w (.go t) { w with st := s, tasks := upd w.tasks t (.wrErr o d .eio) }
  | truncRefused {len : Nat} : w.st.failsafe = true → StepRes w (.truncate len) { w with trunc := some (.error .eperm) }
  | trunc {len : Nat} {r : Except Err Unit} {s : CSt} {c : Bool} : w.st.failsafe = false → w.crashed = false →
      w.st.truncate len = (r, s) → (c = true ↔ r = .error .crash) →
      StepRes w (.truncate len) { w with st := s, trunc := some r, crashed := c }
  | back {e : Ev} {s : CSt} : (e = .upload b ∨ e = .evict b) → CInv s → Same w.st s → (∀ c, s.bad c ≠ none → w.st.bad c ≠ none) →
      StepRes w e { w with st := s }
  | damage {b : Nat} {d : Damage} : StepRes w (.damage b d) { w with st := { w.st with bad := upd w.st.bad b (some d) } }

theorem stepW_res {w : World} (hw : WInv w) (e : Ev) : StepRes w e (stepW w e) := by
  unfold stepW
  by_cases hcr : w.crashed = true
  · rw [if_pos hcr]; exact .same
  · rw [if_neg hcr]
    have hcr : w.crashed = false := by simpa using hcr
    cases e with
    | startRead t o n =>
      dsimp only
      by_cases h : (w.tasks t).running = true
      · rw [if_pos h]; exact .same
      · rw [if_neg h]; exact .startR (by simpa using h) hcr
    | startWrite t o d =>
      dsimp only
      by_cases h : (w.tasks t).running = true
      · rw [if_pos h]; exact .same
      · rw [if_neg h]
        by_cases hf : w.st.failsafe = true
        · rw [if_pos hf]; exact .refused (by simpa using h) hcr hf
        · rw [if_neg hf]; exact .startW (by simpa using h) hcr (by simpa using hf)
    | go t =>
      dsimp only
      unfold goTask
      split
      · rename_i o n total acc ht
        have hr := hw.rd t o n total acc ht
        by_cases hl : total ≤ acc.length
        · rw [if_pos hl]; exact .readEnd ht (by omega)
        · rw [if_neg hl]
          split
          · rename_i s hs; exact .readErr ht (by omega) (rwR_err hw.st hs)
          · rename_i buf s hs
            obtain ⟨a1, a2, a3, a4, a5, a6, a7, a8, a9, a10, a11⟩ := rwR_ok hw.st (by omega) hs
            exact .readSome ht (by omega) ⟨a2, a3, a9, a4, a11⟩ a1 a10 a5 (by omega) a8
      · rename_i o d k ht
        have hr := hw.wr t o d k ht
        by_cases hl : d.length ≤ k
        · rw [if_pos hl]
          have hk : k = d.length := by omega
          subst hk
          exact .writeEnd ht
        · rw [if_neg hl]
          split
          · rename_i s hs; exact .writeErr ht (by omega) (rwW_err hw.st hs)
          · rename_i n s hs
            have hne : d.drop k ≠ [] := by
              intro hx; have := congrArg List.length hx; rw [List.length_drop, List.length_nil] at this; omega
            obtain ⟨a1, a2, a3, a4, a5, a6, a7, a8, a9, a10, a11⟩ := rwW_ok hw.st hne hs
            rw [List.length_drop] at a6 a7
            refine .writeSome ht (by omega) a1 a2 a3 a4 a5 (by omega) (fun h => ?_) (fun i => ?_) (fun b => ?_) a10 a11
            · rw [← Nat.add_assoc]; exact a7 (by omega)
            · rw [a8, at0_drop]
              by_cases hx : o + k ≤ i ∧ i < o + k + n
              · rw [if_pos hx, if_pos (by omega)]; congr 1; omega
              · rw [if_neg hx, if_neg (by omega)]
            · rcases a9 b with h | ⟨h1, h2⟩
              · exact Or.inl h
              · right
                have := Nat.div_add_mod (o + k) w.st.f.bs
                rw [← h1, Nat.mul_comm] at this
                omega
      · exact .same
    | truncate len =>
      dsimp only
      by_cases hf : w.st.failsafe = true
      · rw [if_pos hf]; exact .truncRefused hf
      · rw [if_neg hf]
        have hf : w.st.failsafe = false := by simpa using hf
        split
        · rename_i s hs; exact .trunc hf hcr hs (by simp)
        · rename_i r s hne hs
          rw [show ({ w with st := s, trunc := some r } : World) = { w with st := s, trunc := some r, crashed := false } from by rw [← hcr]]
          refine .trunc hf hcr hs ⟨fun h => (by cases h), fun h => ?_⟩
          exact absurd h hne
    | upload b => obtain ⟨h1, h2, h3⟩ := upload_ok hw.st b; exact .back (Or.inl rfl) h1 h2 h3
    | evict b => obtain ⟨h1, h2, h3⟩ := evict_ok hw.st b; exact .back (Or.inr rfl) h1 h2 (fun c h => by rw [h3] at h; exact h)
    | damage b d => exact .damage

end Verif.FileData
