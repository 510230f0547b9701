import Verif.FileData.ConcSteps
import Verif.FileData.Props
/-
C70: damaged objects give errors, never wrong data.  C71: several reads and writes of one file at the same time.
-/
namespace Verif.FileData

/-! ### Vocabulary of the statements -/

/-- The size of the file. -/
def World.size (w : World) : Nat := w.st.f.size

/-- The byte that the blocks of the file hold for position `i`; zero if there is none.  What is damaged in the
storage does not matter here: this is what was written. -/
def World.byte (w : World) (i : Nat) : Byte := w.st.f.byteAt i

/-- The contents of the file. -/
def World.content (w : World) : List Byte := (List.range w.size).map w.byte

/-- No write is running. -/
def Quiet (w : World) : Prop := ∀ t o d k, w.tasks t ≠ .wr o d k

/-- In the history `evs` after `w`, request number `t` was accepted as a write of `d` at `o`. -/
def Accepted (w : World) (evs : List Ev) (t o : Nat) (d : List Byte) : Prop :=
  ∃ e1 e2, evs = e1 ++ Ev.startWrite t o d :: e2 ∧ (runW w e1).st.failsafe = false ∧ (runW w e1).crashed = false ∧
    ((runW w e1).tasks t).running = false

/-- No `truncate` failed, neither with an error nor with a crash. -/
def TruncOk (w : World) (evs : List Ev) : Prop :=
  ∀ e1 e2, evs = e1 ++ e2 → (runW w e1).trunc ≠ some (.error .eio) ∧ (runW w e1).trunc ≠ some (.error .crash)

/-! ### Invariants -/

theorem snoc_ind {α : Type} {P : List α → Prop} (h0 : P []) (h1 : ∀ l a, P l → P (l ++ [a])) (l : List α) : P l := by
  rw [← l.reverse_reverse]
  induction l.reverse with
  | nil => exact h0
  | cons a t ih => rw [List.reverse_cons]; exact h1 _ _ ih

theorem runW_append (w : World) (a b : List Ev) : runW w (a ++ b) = runW (runW w a) b := List.foldl_append

theorem runW_snoc (w : World) (a : List Ev) (e : Ev) : runW w (a ++ [e]) = stepW (runW w a) e := by rw [runW_append]; rfl

theorem upd_self {α : Type} (f : Nat → α) (k : Nat) (v : α) : upd f k v k = v := if_pos rfl

theorem upd_ne {α : Type} (f : Nat → α) {k x : Nat} (v : α) (h : x ≠ k) : upd f k v x = f x := if_neg h

theorem upd_cases {α : Type} {f : Nat → α} {k x : Nat} {v y : α} (h : upd f k v x = y) : (x = k ∧ v = y) ∨ (x ≠ k ∧ f x = y) := by
  by_cases hx : x = k
  · subst hx; rw [upd_self] at h; exact Or.inl ⟨rfl, h⟩
  · rw [upd_ne _ _ hx] at h; exact Or.inr ⟨hx, h⟩

theorem newWorld_inv {bs : Nat} (h : 0 < bs) : WInv (newWorld bs) :=
  ⟨⟨⟨0, h, fun _ => ⟨rfl, rfl, Nat.zero_le _, Or.inl rfl⟩⟩, fun _ => rfl, fun _ h => by cases h⟩,
    (fun _ _ _ _ _ h => by cases h), (fun _ _ _ _ h => by cases h)⟩

theorem WInv.step {w : World} (hw : WInv w) (e : Ev) : WInv (stepW w e) ∧ (stepW w e).st.f.bs = w.st.f.bs := by
  have hr := stepW_res hw e
  generalize stepW w e = w' at hr
  cases hr with
  | same => exact ⟨hw, rfl⟩
  | startR h1 h2 =>
    refine ⟨⟨hw.st, fun t o n total acc h => ?_, fun t o d k h => ?_⟩, rfl⟩
    · rcases upd_cases h with ⟨_, h⟩ | ⟨_, h⟩
      · cases h; exact ⟨Nat.zero_le _, Nat.min_le_right _ _⟩
      · exact hw.rd _ _ _ _ _ h
    · rcases upd_cases h with ⟨_, h⟩ | ⟨_, h⟩
      · cases h
      · exact hw.wr _ _ _ _ h
  | startW h1 h2 h3 =>
    refine ⟨⟨hw.st, fun t o n total acc h => ?_, fun t o d k h => ?_⟩, rfl⟩
    · rcases upd_cases h with ⟨_, h⟩ | ⟨_, h⟩
      · cases h
      · exact hw.rd _ _ _ _ _ h
    · rcases upd_cases h with ⟨_, h⟩ | ⟨_, h⟩
      · cases h; exact ⟨Nat.zero_le _, Or.inl rfl⟩
      · exact hw.wr _ _ _ _ h
  | refused h1 h2 h3 =>
    refine ⟨⟨hw.st, fun t o n total acc h => ?_, fun t o d k h => ?_⟩, rfl⟩
    · rcases upd_cases h with ⟨_, h⟩ | ⟨_, h⟩
      · cases h
      · exact hw.rd _ _ _ _ _ h
    · rcases upd_cases h with ⟨_, h⟩ | ⟨_, h⟩
      · cases h
      · exact hw.wr _ _ _ _ h
  | readEnd h1 h2 =>
    refine ⟨⟨hw.st, fun t o n total acc h => ?_, fun t o d k h => ?_⟩, rfl⟩
    · rcases upd_cases h with ⟨_, h⟩ | ⟨_, h⟩
      · cases h
      · exact hw.rd _ _ _ _ _ h
    · rcases upd_cases h with ⟨_, h⟩ | ⟨_, h⟩
      · cases h
      · exact hw.wr _ _ _ _ h
  | readSome h1 h2 h3 h4 h5 h6 h7 h8 =>
    refine ⟨⟨h4, fun t o n total acc h => ?_, fun t o d k h => ?_⟩, h3.bs⟩
    · rcases upd_cases h with ⟨_, h⟩ | ⟨_, h⟩
      · cases h; exact ⟨by rw [List.length_append]; exact h7, (hw.rd _ _ _ _ _ h1).2⟩
      · exact hw.rd _ _ _ _ _ h
    · rcases upd_cases h with ⟨_, h⟩ | ⟨_, h⟩
      · cases h
      · show _ ∧ (_ ∨ _ ∨ _ % _ = 0); rw [h3.bs]; exact hw.wr _ _ _ _ h
  | readErr h1 h2 h3 =>
    refine ⟨⟨h3.inv, fun t o n total acc h => ?_, fun t o d k h => ?_⟩, congrArg FileSt.bs h3.f⟩
    · rcases upd_cases h with ⟨_, h⟩ | ⟨_, h⟩
      · cases h
      · exact hw.rd _ _ _ _ _ h
    · rcases upd_cases h with ⟨_, h⟩ | ⟨_, h⟩
      · cases h
      · show _ ∧ (_ ∨ _ ∨ _ % _ = 0); rw [h3.f]; exact hw.wr _ _ _ _ h
  | writeEnd h1 =>
    refine ⟨⟨⟨?_, hw.st.blk, hw.st.brk⟩, fun t o n total acc h => ?_, fun t o d k h => ?_⟩, rfl⟩
    · obtain ⟨m, hm⟩ := hw.st.ent; exact ⟨m, hm.congr rfl (fun _ => rfl)⟩
    · rcases upd_cases h with ⟨_, h⟩ | ⟨_, h⟩
      · cases h
      · exact hw.rd _ _ _ _ _ h
    · rcases upd_cases h with ⟨_, h⟩ | ⟨_, h⟩
      · cases h
      · exact hw.wr _ _ _ _ h
  | writeSome h1 h2 h3 h4 h5 h6 h7 h8 h9 h10 h11 h12 h13 =>
    refine ⟨⟨h3, fun t o n total acc h => ?_, fun t o d k h => ?_⟩, h4⟩
    · rcases upd_cases h with ⟨_, h⟩ | ⟨_, h⟩
      · cases h
      · exact hw.rd _ _ _ _ _ h
    · rcases upd_cases h with ⟨_, h⟩ | ⟨_, h⟩
      · cases h
        refine ⟨h8, ?_⟩
        rcases Nat.lt_or_ge _ _ with hlt | hge
        · exact Or.inr (Or.inr (by show _ % _ = 0; rw [h4]; exact h9 hlt))
        · exact Or.inr (Or.inl (Nat.le_antisymm h8 hge))
      · show _ ∧ (_ ∨ _ ∨ _ % _ = 0); rw [h4]; exact hw.wr _ _ _ _ h
  | writeErr h1 h2 h3 =>
    refine ⟨⟨h3.inv, fun t o n total acc h => ?_, fun t o d k h => ?_⟩, congrArg FileSt.bs h3.f⟩
    · rcases upd_cases h with ⟨_, h⟩ | ⟨_, h⟩
      · cases h
      · exact hw.rd _ _ _ _ _ h
    · rcases upd_cases h with ⟨_, h⟩ | ⟨_, h⟩
      · cases h
      · show _ ∧ (_ ∨ _ ∨ _ % _ = 0); rw [h3.f]; exact hw.wr _ _ _ _ h
  | truncRefused h1 => exact ⟨⟨hw.st, hw.rd, hw.wr⟩, rfl⟩
  | trunc h1 h2 h3 h4 =>
    obtain ⟨a1, a2, _⟩ := trunc_any hw.st h1 h3
    exact ⟨⟨a1, hw.rd, fun t o d k h => by show _ ∧ (_ ∨ _ ∨ _ % _ = 0); rw [a2]; exact hw.wr _ _ _ _ h⟩, a2⟩
  | back h1 h2 h3 h4 =>
    exact ⟨⟨h2, hw.rd, fun t o d k h => by show _ ∧ (_ ∨ _ ∨ _ % _ = 0); rw [h3.bs]; exact hw.wr _ _ _ _ h⟩, h3.bs⟩
  | damage => exact ⟨⟨⟨hw.st.ent, hw.st.blk, hw.st.brk⟩, hw.rd, hw.wr⟩, rfl⟩

theorem WInv.run {w : World} (hw : WInv w) (evs : List Ev) : WInv (runW w evs) ∧ (runW w evs).st.f.bs = w.st.f.bs := by
  induction evs generalizing w with
  | nil => exact ⟨hw, rfl⟩
  | cons e t ih =>
    obtain ⟨h1, h2⟩ := hw.step e
    obtain ⟨h3, h4⟩ := ih h1
    exact ⟨h3, h4.trans h2⟩

/-- Nothing is stored behind the end of the file, except by writes that are running. -/
def Tight (w : World) : Prop :=
  ∀ b, w.st.f.blk b = [] ∨ b * w.st.f.bs + (w.st.f.blk b).length ≤ w.st.f.size ∨
    ∃ t o d k, w.tasks t = .wr o d k ∧ 0 < k ∧ b * w.st.f.bs + (w.st.f.blk b).length ≤ o + k

theorem Tight.step {w : World} (hw : WInv w) (ht : Tight w) (e : Ev)
    (hok : (stepW w e).trunc ≠ some (.error .eio) ∧ (stepW w e).trunc ≠ some (.error .crash)) : Tight (stepW w e) := by
  have hr := stepW_res hw e
  generalize stepW w e = w' at hr hok
  have keep : ∀ {tk : Nat → Task} {t : Nat} {x : Task} {m : Nat}, (∀ o d k, tk t ≠ .wr o d k) →
      (∃ t' o d k, tk t' = .wr o d k ∧ 0 < k ∧ m ≤ o + k) → ∃ t' o d k, upd tk t x t' = .wr o d k ∧ 0 < k ∧ m ≤ o + k := by
    intro tk t x m hn ⟨t', o, d, k, h1, h2⟩
    refine ⟨t', o, d, k, ?_, h2⟩
    rw [upd_ne _ _ (by intro h; subst h; exact hn _ _ _ h1)]; exact h1
  cases hr with
  | same => exact ht
  | startR h1 h2 => exact fun b => (ht b).imp id (Or.imp id (keep (fun o d k h => by rw [h] at h1; cases h1)))
  | startW h1 h2 h3 => exact fun b => (ht b).imp id (Or.imp id (keep (fun o d k h => by rw [h] at h1; cases h1)))
  | refused h1 h2 h3 => exact fun b => (ht b).imp id (Or.imp id (keep (fun o d k h => by rw [h] at h1; cases h1)))
  | readEnd h1 h2 => exact fun b => (ht b).imp id (Or.imp id (keep (fun o d k h => by rw [h] at h1; cases h1)))
  | readSome h1 h2 h3 h4 h5 h6 h7 h8 =>
    intro b
    dsimp only
    rw [h3.blk, h3.bs, h3.size]
    exact (ht b).imp id (Or.imp id (keep (fun o d k h => by rw [h] at h1; cases h1)))
  | readErr h1 h2 h3 =>
    intro b
    dsimp only
    rw [h3.f]
    exact (ht b).imp id (Or.imp id (keep (fun o d k h => by rw [h] at h1; cases h1)))
  | @writeEnd t o d h1 =>
    intro b
    rcases ht b with h | h | ⟨t', o', d', k', g1, g2, g3⟩
    · exact Or.inl h
    · exact Or.inr (Or.inl (Nat.le_trans h (Nat.le_max_left _ _)))
    · by_cases hx : t' = t
      · subst hx; rw [h1] at g1; cases g1
        exact Or.inr (Or.inl (Nat.le_trans g3 (Nat.le_max_right _ _)))
      · exact Or.inr (Or.inr ⟨t', o', d', k', by rw [← g1]; exact upd_ne _ _ hx, g2, g3⟩)
  | @writeSome t o k n d s h1 h2 h3 h4 h5 h6 h7 h8 h9 h10 h11 h12 h13 =>
    intro b
    dsimp only
    rw [h4, h5]
    have grow : ∀ m, (∃ t' o d k, w.tasks t' = .wr o d k ∧ 0 < k ∧ m ≤ o + k) →
        ∃ t' o' d' k', upd w.tasks t (.wr o d (k + n)) t' = .wr o' d' k' ∧ 0 < k' ∧ m ≤ o' + k' := by
      intro m ⟨t', o', d', k', g1, g2, g3⟩
      by_cases hx : t' = t
      · subst hx; rw [h1] at g1; cases g1
        exact ⟨t', _, _, _, upd_self _ _ _, by omega, by omega⟩
      · exact ⟨t', o', d', k', by rw [upd_ne _ _ hx]; exact g1, g2, g3⟩
    rcases h11 b with h | ⟨hle, h⟩
    · rw [h]; exact (ht b).imp id (Or.imp id (grow _))
    · rcases Nat.le_total (b * w.st.f.bs + (w.st.f.blk b).length) (o + (k + n)) with hc | hc
      · right; right
        exact ⟨t, o, d, k + n, upd_self _ _ _, by omega, by omega⟩
      · have h : b * w.st.f.bs + (s.f.blk b).length = b * w.st.f.bs + (w.st.f.blk b).length := by omega
        rcases ht b with g | g | g
        · left
          rw [g] at h
          exact List.eq_nil_of_length_eq_zero (by simp only [List.length_nil] at h; omega)
        · right; left; omega
        · right; right; rw [h]; exact grow _ g
  | @writeErr t o k d s h1 h2 h3 =>
    intro b
    dsimp only
    rw [h3.f]
    rcases ht b with h | h | ⟨t', o', d', k', g1, g2, g3⟩
    · exact Or.inl h
    · exact Or.inr (Or.inl h)
    · by_cases hx : t' = t
      · subst hx; rw [h1] at g1; cases g1
        -- the block that could not be read is behind everything that this write has written
        have hmod : (o + k) % w.st.f.bs = 0 := by
          rcases (hw.wr _ _ _ _ h1).2 with h | h | h
          · omega
          · omega
          · exact h
        have hdm := Nat.div_add_mod (o + k) w.st.f.bs
        rw [hmod, Nat.add_zero, Nat.mul_comm] at hdm
        have hne : w.st.f.blk ((o + k) / w.st.f.bs) ≠ [] := by
          have hb := hw.st.blk ((o + k) / w.st.f.bs)
          unfold BlkOk at hb
          have hs := h3.stored
          unfold FileSt.blk FileSt.get
          split at hb
          · rw [hs] at hb; cases hb
          · rename_i e he; rw [he]; exact hb.2.1 hs
        have hpos := List.length_pos_iff.2 hne
        rcases ht ((o + k) / w.st.f.bs) with h | h | ⟨t2, o2, d2, k2, f1, f2, f3⟩
        · exact absurd h hne
        · exact Or.inr (Or.inl (by omega))
        · by_cases hx2 : t2 = t'
          · subst hx2; rw [h1] at f1; cases f1; omega
          · exact Or.inr (Or.inr ⟨t2, o2, d2, k2, by rw [upd_ne _ _ hx2]; exact f1, f2, by omega⟩)
      · exact Or.inr (Or.inr ⟨t', o', d', k', by rw [upd_ne _ _ hx]; exact g1, g2, g3⟩)
  | truncRefused h1 => exact ht
  | @trunc len r s c h1 h2 h3 h4 =>
    obtain ⟨a1, a2, a3, a4, a5, a6, a7, a8, a9, a10, a11⟩ := trunc_any hw.st h1 h3
    dsimp only at hok
    have hr : r = .ok () := by
      cases r with
      | ok u => rfl
      | error e =>
        cases e with
        | eio => exact absurd rfl hok.1
        | crash => exact absurd rfl hok.2
        | eperm => exact absurd rfl a11
    intro b
    dsimp only
    rw [a2, a3]
    rcases a5 hr b with h | h | ⟨g1, g2⟩
    · exact Or.inl h
    · exact Or.inr (Or.inl h)
    · rw [g2]
      rcases ht b with h | h | h
      · exact Or.inl h
      · left
        exact List.eq_nil_of_length_eq_zero (by omega)
      · exact Or.inr (Or.inr h)
  | back h1 h2 h3 h4 => intro b; dsimp only; rw [h3.blk, h3.bs, h3.size]; exact ht b
  | damage => exact ht

theorem TruncOk.tight {bs : Nat} (hbs : 0 < bs) {evs : List Ev} (h : TruncOk (newWorld bs) evs) : Tight (runW (newWorld bs) evs) := by
  induction evs using snoc_ind with
  | h0 => exact fun b => Or.inl rfl
  | h1 l e ih =>
    have h1 := ih (fun e1 e2 he => h e1 (e2 ++ [e]) (by rw [he, List.append_assoc]))
    rw [runW_snoc]
    refine Tight.step ((newWorld_inv hbs).run l).1 h1 e ?_
    rw [← runW_snoc]
    exact h (l ++ [e]) [] (by rw [List.append_nil])

/-! ### C70 -/

/-- **C70**: whatever else happens, a read that succeeds returns as many bytes as there were (when it started), and
every byte is the one that the file held at some moment while the read was running. -/
theorem C70_reads_are_right {bs : Nat} (hbs : 0 < bs) (pre mid : List Ev) (t o n : Nat) (res : List Byte)
    (hnew : ((runW (newWorld bs) pre).tasks t).running = false) (hcr : (runW (newWorld bs) pre).crashed = false)
    (hmid : ∀ e ∈ mid, (∀ o n, e ≠ .startRead t o n) ∧ (∀ o d, e ≠ .startWrite t o d))
    (hres : (runW (newWorld bs) (pre ++ .startRead t o n :: mid)).tasks t = .rdOk o n res) :
    res.length = min ((runW (newWorld bs) pre).size - o) n ∧
    ∀ k, k < res.length → ∃ m1 m2, mid = m1 ++ m2 ∧
      at0 res k = (runW (newWorld bs) (pre ++ .startRead t o n :: m1)).byte (o + k) := by
  let W := fun l => runW (newWorld bs) (pre ++ .startRead t o n :: l)
  let Seen := fun (l : List Ev) (acc : List Byte) => ∀ k, k < acc.length → ∃ m1 m2, l = m1 ++ m2 ∧ at0 acc k = (W m1).byte (o + k)
  have hW : ∀ l, W l = runW (stepW (runW (newWorld bs) pre) (.startRead t o n)) l := by
    intro l; show runW _ (pre ++ _) = _; rw [runW_append]; rfl
  have key : ∀ l, (∀ e ∈ l, (∀ o n, e ≠ .startRead t o n) ∧ (∀ o d, e ≠ .startWrite t o d)) →
      (∃ acc, (W l).tasks t = .rd o n (min ((runW (newWorld bs) pre).size - o) n) acc ∧ Seen l acc) ∨
      (∃ acc, (W l).tasks t = .rdOk o n acc ∧ acc.length = min ((runW (newWorld bs) pre).size - o) n ∧ Seen l acc) ∨
      (W l).tasks t = .rdErr o n .eio := by
    intro l
    induction l using snoc_ind with
    | h0 =>
      intro _
      left
      refine ⟨[], ?_, fun k hk => (by simp at hk)⟩
      rw [hW]
      show (stepW (runW (newWorld bs) pre) (.startRead t o n)).tasks t = _
      unfold stepW
      rw [if_neg (by rw [hcr]; decide)]
      dsimp only
      rw [if_neg (by rw [hnew]; decide)]
      exact upd_self _ _ _
    | h1 l e ih =>
      intro hl
      have ih := ih (fun x hx => hl x (List.mem_append_left _ hx))
      have he := hl e (List.mem_append_right _ (List.mem_singleton.2 rfl))
      have hinv : WInv (W l) := ((newWorld_inv hbs).run _).1
      have hstep : W (l ++ [e]) = stepW (W l) e := by
        show runW _ (pre ++ _ :: (l ++ [e])) = _
        rw [← List.cons_append, ← List.append_assoc, runW_snoc]
      have hr := stepW_res hinv e
      have mono : ∀ acc, Seen l acc → Seen (l ++ [e]) acc := by
        intro acc h k hk
        obtain ⟨m1, m2, h1, h2⟩ := h k hk
        exact ⟨m1, m2 ++ [e], by rw [h1, List.append_assoc], h2⟩
      rw [← hstep] at hr
      -- other requests do not touch this one
      have same : (W (l ++ [e])).tasks t = (W l).tasks t →
          (∃ acc, (W (l ++ [e])).tasks t = .rd o n (min ((runW (newWorld bs) pre).size - o) n) acc ∧ Seen (l ++ [e]) acc) ∨
          (∃ acc, (W (l ++ [e])).tasks t = .rdOk o n acc ∧ acc.length = min ((runW (newWorld bs) pre).size - o) n ∧ Seen (l ++ [e]) acc) ∨
          (W (l ++ [e])).tasks t = .rdErr o n .eio := by
        intro h
        rw [h]
        rcases ih with ⟨acc, h1, h2⟩ | ⟨acc, h1, h2, h3⟩ | h1
        · exact Or.inl ⟨acc, h1, mono acc h2⟩
        · exact Or.inr (Or.inl ⟨acc, h1, h2, mono acc h3⟩)
        · exact Or.inr (Or.inr h1)
      generalize hw' : W (l ++ [e]) = w' at hr same
      cases hr with
      | same => exact same rfl
      | @startR t' o' n' h1 h2 =>
        refine same (upd_ne _ _ ?_)
        intro h; subst h; exact absurd rfl (he.1 _ _)
      | @startW t' o' d' h1 h2 h3 =>
        refine same (upd_ne _ _ ?_)
        intro h; subst h; exact absurd rfl (he.2 _ _)
      | @refused t' o' d' h1 h2 h3 =>
        refine same (upd_ne _ _ ?_)
        intro h; subst h; exact absurd rfl (he.2 _ _)
      | @readEnd t' o' n' total acc h1 h2 =>
        by_cases hx : t = t'
        · subst hx
          right; left
          rcases ih with ⟨acc', g1, g2⟩ | ⟨acc', g1, g2⟩ | g1
          · rw [h1] at g1; cases g1
            exact ⟨acc, upd_self _ _ _, h2.symm, mono _ g2⟩
          · rw [h1] at g1; cases g1
          · rw [h1] at g1; cases g1
        · exact same (upd_ne _ _ hx)
      | @readSome t' o' n' total acc buf s h1 h2 h3 h4 h5 h6 h7 h8 =>
        by_cases hx : t = t'
        · subst hx
          left
          rcases ih with ⟨acc', g1, g2⟩ | ⟨acc', g1, g2⟩ | g1
          · rw [h1] at g1; cases g1
            refine ⟨acc ++ buf, upd_self _ _ _, fun k hk => ?_⟩
            rw [List.length_append] at hk
            rw [at0_append]
            by_cases hka : k < acc.length
            · rw [if_pos hka]; exact mono _ g2 k hka
            · rw [if_neg hka, h8 _ (by omega)]
              refine ⟨l, [.go t], rfl, ?_⟩
              show _ = (W l).st.f.byteAt (o + k)
              congr 1; omega
          · rw [h1] at g1; cases g1
          · rw [h1] at g1; cases g1
        · exact same (upd_ne _ _ hx)
      | @readErr t' o' n' total acc s h1 h2 h3 =>
        by_cases hx : t = t'
        · subst hx
          rcases ih with ⟨acc', g1, g2⟩ | ⟨acc', g1, g2⟩ | g1
          · rw [h1] at g1; cases g1
            right; right; exact upd_self _ _ _
          · rw [h1] at g1; cases g1
          · rw [h1] at g1; cases g1
        · exact same (upd_ne _ _ hx)
      | @writeEnd t' o' d' h1 =>
        refine same (upd_ne _ _ ?_)
        intro h; subst h
        rcases ih with ⟨acc', g1, g2⟩ | ⟨acc', g1, g2⟩ | g1 <;> (rw [h1] at g1; cases g1)
      | @writeSome t' o' k' n' d' s h1 =>
        refine same (upd_ne _ _ ?_)
        intro h; subst h
        rcases ih with ⟨acc', g1, g2⟩ | ⟨acc', g1, g2⟩ | g1 <;> (rw [h1] at g1; cases g1)
      | @writeErr t' o' k' d' s h1 h2 h3 =>
        refine same (upd_ne _ _ ?_)
        intro h; subst h
        rcases ih with ⟨acc', g1, g2⟩ | ⟨acc', g1, g2⟩ | g1 <;> (rw [h1] at g1; cases g1)
      | truncRefused h1 => exact same rfl
      | trunc h1 h2 h3 h4 => exact same rfl
      | back h1 h2 h3 h4 => exact same rfl
      | damage => exact same rfl
  rcases key mid hmid with ⟨acc, h1, _⟩ | ⟨acc, h1, h2, h3⟩ | h1
  · have h1 : (runW (newWorld bs) (pre ++ .startRead t o n :: mid)).tasks t = _ := h1
    rw [hres] at h1; cases h1
  · have h1 : (runW (newWorld bs) (pre ++ .startRead t o n :: mid)).tasks t = _ := h1
    rw [hres] at h1; cases h1
    exact ⟨h2, h3⟩
  · have h1 : (runW (newWorld bs) (pre ++ .startRead t o n :: mid)).tasks t = _ := h1
    rw [hres] at h1; cases h1

/-! #### Where errors come from -/

/-- Errors, and what prevents changes, in a history with damage to the blocks `D`. -/
structure Faults (w : World) (D : Nat → Prop) : Prop where
  bad : ∀ b, w.st.bad b ≠ none → D b
  broken : ∀ b, w.st.broken b = true → D b
  failsafe : w.st.failsafe = true → ∃ b, D b
  crashed : w.crashed = true → ∃ b, D b
  rd : ∀ t o n e, w.tasks t = .rdErr o n e → e = .eio ∧ w.st.failsafe = true ∧ ∃ i, o ≤ i ∧ i < o + n ∧ D (i / w.st.f.bs)
  wr : ∀ t o d e, w.tasks t = .wrErr o d e → w.st.failsafe = true ∧
    (e = .eperm ∨ e = .eio ∧ ∃ i, o ≤ i ∧ i < o + d.length ∧ D (i / w.st.f.bs))
  trunc : ∀ e, w.trunc = some (.error e) → ∃ b, D b

theorem Faults.step {w : World} {D : Nat → Prop} (hw : WInv w) (h : Faults w D) (e : Ev) (hD : ∀ b d, e = .damage b d → D b) :
    Faults (stepW w e) D ∧ (w.st.failsafe = true → (stepW w e).st.failsafe = true) := by
  have hr := stepW_res hw e
  generalize stepW w e = w' at hr
  -- a change of one request that is not an error
  have tasks : ∀ {s : CSt} {t : Nat} {x : Task}, s.f.bs = w.st.f.bs → (w.st.failsafe = true → s.failsafe = true) →
      (∀ o n e, x ≠ .rdErr o n e) → (∀ o d e, x ≠ .wrErr o d e) →
      (∀ t' o n e, upd w.tasks t x t' = .rdErr o n e → e = .eio ∧ s.failsafe = true ∧ ∃ i, o ≤ i ∧ i < o + n ∧ D (i / s.f.bs)) ∧
      (∀ t' o d e, upd w.tasks t x t' = .wrErr o d e → s.failsafe = true ∧
        (e = .eperm ∨ e = .eio ∧ ∃ i, o ≤ i ∧ i < o + d.length ∧ D (i / s.f.bs))) := by
    intro s t x hb hf h1 h2
    refine ⟨fun t' o n e hx => ?_, fun t' o d e hx => ?_⟩
    · rcases upd_cases hx with ⟨_, hx⟩ | ⟨_, hx⟩
      · exact absurd hx (h1 _ _ _)
      · obtain ⟨a, b, c⟩ := h.rd _ _ _ _ hx; rw [hb]; exact ⟨a, hf b, c⟩
    · rcases upd_cases hx with ⟨_, hx⟩ | ⟨_, hx⟩
      · exact absurd hx (h2 _ _ _)
      · obtain ⟨a, c⟩ := h.wr _ _ _ _ hx; rw [hb]; exact ⟨hf a, c⟩
  cases hr with
  | same => exact ⟨h, id⟩
  | startR h1 h2 =>
    exact ⟨⟨h.bad, h.broken, h.failsafe, h.crashed, (tasks rfl id (by intros; simp) (by intros; simp)).1, (tasks rfl id (by intros; simp) (by intros; simp)).2, h.trunc⟩, id⟩
  | startW h1 h2 h3 =>
    exact ⟨⟨h.bad, h.broken, h.failsafe, h.crashed, (tasks rfl id (by intros; simp) (by intros; simp)).1, (tasks rfl id (by intros; simp) (by intros; simp)).2, h.trunc⟩, id⟩
  | refused h1 h2 h3 =>
    refine ⟨⟨h.bad, h.broken, h.failsafe, h.crashed, fun t' o n e hx => ?_, fun t' o d e hx => ?_, h.trunc⟩, id⟩
    · rcases upd_cases hx with ⟨_, hx⟩ | ⟨_, hx⟩
      · cases hx
      · exact h.rd _ _ _ _ hx
    · rcases upd_cases hx with ⟨_, hx⟩ | ⟨_, hx⟩
      · cases hx; exact ⟨h3, Or.inl rfl⟩
      · exact h.wr _ _ _ _ hx
  | readEnd h1 h2 =>
    exact ⟨⟨h.bad, h.broken, h.failsafe, h.crashed, (tasks rfl id (by intros; simp) (by intros; simp)).1, (tasks rfl id (by intros; simp) (by intros; simp)).2, h.trunc⟩, id⟩
  | readSome h1 h2 h3 h4 h5 h6 h7 h8 =>
    exact ⟨⟨fun b hb => h.bad b (by rw [← h5]; exact hb), fun b hb => h.broken b (by rw [← h3.broken]; exact hb),
      fun hf => h.failsafe (by rw [← h3.failsafe]; exact hf), h.crashed, (tasks h3.bs (fun h => by rw [h3.failsafe]; exact h) (by intros; simp) (by intros; simp)).1, (tasks h3.bs (fun h => by rw [h3.failsafe]; exact h) (by intros; simp) (by intros; simp)).2, h.trunc⟩, fun h => by rw [← h]; exact h3.failsafe⟩
  | @readErr t o n total acc s h1 h2 h3 =>
    have hd : D ((o + acc.length) / w.st.f.bs) := h3.why.elim (h.broken _) (h.bad _)
    have hb : s.f.bs = w.st.f.bs := congrArg FileSt.bs h3.f
    have hrd := hw.rd _ _ _ _ _ h1
    refine ⟨⟨fun b hb => h.bad b (by rw [← h3.bad]; exact hb), fun b hb => ?_, fun _ => ⟨_, hd⟩, h.crashed, fun t' o' n' e hx => ?_,
      fun t' o' d' e hx => ?_, h.trunc⟩, fun _ => h3.failsafe⟩
    · rcases h3.broken b hb with g | ⟨_, g⟩
      · exact h.broken b g
      · exact h.bad b g
    · rcases upd_cases hx with ⟨_, hx⟩ | ⟨_, hx⟩
      · cases hx; exact ⟨rfl, h3.failsafe, o + acc.length, by omega, by omega, by show D (_ / s.f.bs); rw [hb]; exact hd⟩
      · obtain ⟨a, _, c⟩ := h.rd _ _ _ _ hx; exact ⟨a, h3.failsafe, by show ∃ i, _ ∧ _ ∧ D (_ / s.f.bs); rw [hb]; exact c⟩
    · rcases upd_cases hx with ⟨_, hx⟩ | ⟨_, hx⟩
      · cases hx
      · obtain ⟨_, c⟩ := h.wr _ _ _ _ hx; exact ⟨h3.failsafe, by show _ ∨ _ ∧ ∃ i, _ ∧ _ ∧ D (_ / s.f.bs); rw [hb]; exact c⟩
  | writeEnd h1 =>
    exact ⟨⟨h.bad, h.broken, h.failsafe, h.crashed, (tasks (s := w.st) rfl id (by intros; simp) (by intros; simp)).1, (tasks (s := w.st) rfl id (by intros; simp) (by intros; simp)).2, h.trunc⟩, id⟩
  | writeSome h1 h2 h3 h4 h5 h6 h7 h8 h9 h10 h11 h12 h13 =>
    exact ⟨⟨fun b hb => h.bad b (by rw [← h12]; exact hb), fun b hb => h.broken b (by rw [← h13]; exact hb),
      fun hf => h.failsafe (by rw [← h6]; exact hf), h.crashed, (tasks h4 (fun h => by rw [h6]; exact h) (by intros; simp) (by intros; simp)).1, (tasks h4 (fun h => by rw [h6]; exact h) (by intros; simp) (by intros; simp)).2, h.trunc⟩, fun h => by rw [← h]; exact h6⟩
  | @writeErr t o k d s h1 h2 h3 =>
    have hd : D ((o + k) / w.st.f.bs) := h3.why.elim (h.broken _) (h.bad _)
    have hb : s.f.bs = w.st.f.bs := congrArg FileSt.bs h3.f
    refine ⟨⟨fun b hb => h.bad b (by rw [← h3.bad]; exact hb), fun b hb => ?_, fun _ => ⟨_, hd⟩, h.crashed, fun t' o' n' e hx => ?_,
      fun t' o' d' e hx => ?_, h.trunc⟩, fun _ => h3.failsafe⟩
    · rcases h3.broken b hb with g | ⟨_, g⟩
      · exact h.broken b g
      · exact h.bad b g
    · rcases upd_cases hx with ⟨_, hx⟩ | ⟨_, hx⟩
      · cases hx
      · obtain ⟨a, _, c⟩ := h.rd _ _ _ _ hx; exact ⟨a, h3.failsafe, by show ∃ i, _ ∧ _ ∧ D (_ / s.f.bs); rw [hb]; exact c⟩
    · rcases upd_cases hx with ⟨_, hx⟩ | ⟨_, hx⟩
      · cases hx; exact ⟨h3.failsafe, Or.inr ⟨rfl, o + k, by omega, by omega, by show D (_ / s.f.bs); rw [hb]; exact hd⟩⟩
      · obtain ⟨_, c⟩ := h.wr _ _ _ _ hx; exact ⟨h3.failsafe, by show _ ∨ _ ∧ ∃ i, _ ∧ _ ∧ D (_ / s.f.bs); rw [hb]; exact c⟩
  | truncRefused h1 => exact ⟨⟨h.bad, h.broken, h.failsafe, h.crashed, h.rd, h.wr, fun _ _ => h.failsafe h1⟩, id⟩
  | @trunc len r s c h1 h2 h3 h4 =>
    obtain ⟨a1, a2, a3, a4, a5, a6, a7, a8, a9, a10, a11⟩ := trunc_any hw.st h1 h3
    refine ⟨⟨fun b hb => h.bad b (a6 b hb), fun b hb => h.bad b (a7 b hb), fun hf => ⟨_, h.bad _ (a8 (a9 hf))⟩,
      fun hc => ⟨_, h.bad _ (a8 (by rw [h4.1 hc]; simp))⟩, fun t o n e hx => ?_, fun t o d e hx => ?_, fun e he => ?_⟩, fun hf => by rw [h1] at hf; cases hf⟩
    · have := (h.rd _ _ _ _ hx).2.1; rw [h1] at this; cases this
    · have := (h.wr _ _ _ _ hx).1; rw [h1] at this; cases this
    · dsimp only at he; exact ⟨_, h.bad _ (a8 (by rw [Option.some.inj he]; simp))⟩
  | back h1 h2 h3 h4 =>
    refine ⟨⟨fun b hb => h.bad b (h4 b hb), fun b hb => h.broken b (by rw [← h3.broken]; exact hb), fun hf => h.failsafe (by rw [← h3.failsafe]; exact hf),
      h.crashed, fun t o n e hx => ?_, fun t o d e hx => ?_, h.trunc⟩, fun h => by rw [← h]; exact h3.failsafe⟩
    · dsimp only; rw [h3.bs, h3.failsafe]; exact h.rd _ _ _ _ hx
    · dsimp only; rw [h3.bs, h3.failsafe]; exact h.wr _ _ _ _ hx
  | @damage b d =>
    refine ⟨⟨fun c hc => ?_, h.broken, h.failsafe, h.crashed, h.rd, h.wr, h.trunc⟩, id⟩
    dsimp only at hc
    by_cases hx : c = b
    · subst hx; exact hD c d rfl
    · rw [upd_ne _ _ hx] at hc; exact h.bad c hc

theorem Faults.run {bs : Nat} (hbs : 0 < bs) (evs : List Ev) :
    Faults (runW (newWorld bs) evs) (fun b => ∃ d, .damage b d ∈ evs) := by
  have : ∀ (D : Nat → Prop) (evs : List Ev), (∀ b d, .damage b d ∈ evs → D b) → ∀ w, WInv w → Faults w D → Faults (runW w evs) D := by
    intro D evs
    induction evs with
    | nil => exact fun _ w _ h => h
    | cons e t ih =>
      intro hD w hw h
      exact ih (fun b d hb => hD b d (List.mem_cons_of_mem _ hb)) _ (hw.step e).1
        (h.step hw e (fun b d he => hD b d (by rw [he]; exact List.mem_cons_self))).1
  refine this _ evs (fun b d h => ⟨d, h⟩) _ (newWorld_inv hbs) ⟨?_, ?_, ?_, ?_, ?_, ?_, ?_⟩
  · intro b h; exact absurd rfl h
  · intro b h; cases h
  · intro h; cases h
  · intro h; cases h
  · intro t o n e h; cases h
  · intro t o d e h; cases h
  · intro e h; cases h

/-- **C70**: a read fails only if one of the blocks it is about was damaged; the error is `EIO`. -/
theorem C70_read_error_is_local {bs : Nat} (hbs : 0 < bs) (evs : List Ev) (t o n : Nat) (e : Err)
    (h : (runW (newWorld bs) evs).tasks t = .rdErr o n e) :
    e = .eio ∧ ∃ i d, o ≤ i ∧ i < o + n ∧ .damage (i / bs) d ∈ evs := by
  obtain ⟨h1, _, i, h2, h3, d, h4⟩ := (Faults.run hbs evs).rd t o n e h
  rw [((newWorld_inv hbs).run evs).2] at h4
  exact ⟨h1, i, d, h2, h3, h4⟩

/-- **C70**: a write fails with `EIO` only if one of the blocks it is about was damaged. -/
theorem C70_write_error_is_local {bs : Nat} (hbs : 0 < bs) (evs : List Ev) (t o : Nat) (d : List Byte)
    (h : (runW (newWorld bs) evs).tasks t = .wrErr o d .eio) :
    ∃ i x, o ≤ i ∧ i < o + d.length ∧ .damage (i / bs) x ∈ evs := by
  obtain ⟨_, h1 | ⟨_, i, h2, h3, x, h4⟩⟩ := (Faults.run hbs evs).wr t o d _ h
  · cases h1
  · rw [((newWorld_inv hbs).run evs).2] at h4
    exact ⟨i, x, h2, h3, h4⟩

/-- **C70**: without damage no request fails, and nothing is refused. -/
theorem C70_no_damage_no_errors {bs : Nat} (hbs : 0 < bs) (evs : List Ev) (hd : ∀ b d, Ev.damage b d ∉ evs) :
    (∀ t o n e, (runW (newWorld bs) evs).tasks t ≠ .rdErr o n e) ∧ (∀ t o d e, (runW (newWorld bs) evs).tasks t ≠ .wrErr o d e) ∧
    (∀ e, (runW (newWorld bs) evs).trunc ≠ some (.error e)) ∧ (runW (newWorld bs) evs).st.failsafe = false ∧
    (runW (newWorld bs) evs).crashed = false := by
  have F := Faults.run hbs evs
  have no : ¬ ∃ b, ∃ d, Ev.damage b d ∈ evs := fun ⟨b, d, h⟩ => hd b d h
  have hf : (runW (newWorld bs) evs).st.failsafe = false := by
    cases hx : (runW (newWorld bs) evs).st.failsafe with
    | false => rfl
    | true => exact absurd (F.failsafe hx) no
  refine ⟨fun t o n e h => ?_, fun t o d e h => ?_, fun e h => no (F.trunc e h), hf, ?_⟩
  · have := (F.rd t o n e h).2.1; rw [hf] at this; cases this
  · have := (F.wr t o d e h).1; rw [hf] at this; cases this
  · cases hx : (runW (newWorld bs) evs).crashed with
    | false => rfl
    | true => exact absurd (F.crashed hx) no

/-- **C70**: once damage was found nothing is changed any more, apart from writes that were already running. -/
theorem C70_frozen_after_damage {bs : Nat} (hbs : 0 < bs) (pre post : List Ev) (t o n : Nat) (d : List Byte) (e : Err)
    (hf : (runW (newWorld bs) pre).tasks t = .rdErr o n e ∨ (runW (newWorld bs) pre).tasks t = .wrErr o d e)
    (hq : Quiet (runW (newWorld bs) pre)) :
    (runW (newWorld bs) (pre ++ post)).size = (runW (newWorld bs) pre).size ∧
    ∀ i, (runW (newWorld bs) (pre ++ post)).byte i = (runW (newWorld bs) pre).byte i := by
  have F := Faults.run hbs pre
  have hfs : (runW (newWorld bs) pre).st.failsafe = true := by
    rcases hf with h | h
    · exact (F.rd t o n e h).2.1
    · exact (F.wr t o d e h).1
  rw [runW_append]
  have hw := ((newWorld_inv hbs).run pre).1
  have : ∀ (post : List Ev) (w : World), WInv w → w.st.failsafe = true → Quiet w →
      (runW w post).size = w.size ∧ ∀ i, (runW w post).byte i = w.byte i := by
    intro post
    induction post with
    | nil => exact fun w _ _ _ => ⟨rfl, fun _ => rfl⟩
    | cons e t ih =>
      intro w hw hf hq
      have hr := stepW_res hw e
      have hw' := (hw.step e).1
      have hrun : runW w (e :: t) = runW (stepW w e) t := rfl
      rw [hrun]
      generalize stepW w e = w' at hr hw'
      have nq : ∀ {t : Nat} {x : Task}, (∀ o d k, x ≠ .wr o d k) → ∀ t' o d k, upd w.tasks t x t' ≠ .wr o d k := by
        intro t x hx t' o d k h
        rcases upd_cases h with ⟨_, h⟩ | ⟨_, h⟩
        · exact hx _ _ _ h
        · exact hq _ _ _ _ h
      have go : w'.st.failsafe = true → Quiet w' → w'.size = w.size → (∀ i, w'.byte i = w.byte i) →
          (runW w' t).size = w.size ∧ ∀ i, (runW w' t).byte i = w.byte i := by
        intro h1 h2 h3 h4
        obtain ⟨a, b⟩ := ih w' hw' h1 h2
        exact ⟨a.trans h3, fun i => (b i).trans (h4 i)⟩
      cases hr with
      | same => exact go hf hq rfl (fun _ => rfl)
      | startR h1 h2 => exact go hf (nq (by intros; simp)) rfl (fun _ => rfl)
      | startW h1 h2 h3 => rw [hf] at h3; cases h3
      | refused h1 h2 h3 => exact go hf (nq (by intros; simp)) rfl (fun _ => rfl)
      | readEnd h1 h2 => exact go hf (nq (by intros; simp)) rfl (fun _ => rfl)
      | readSome h1 h2 h3 h4 h5 h6 h7 h8 => exact go (by rw [← hf]; exact h3.failsafe) (nq (by intros; simp)) h3.size h3.byte
      | readErr h1 h2 h3 => exact go h3.failsafe (nq (by intros; simp)) (congrArg FileSt.size h3.f) (fun i => congrArg (fun f => FileSt.byteAt f i) h3.f)
      | writeEnd h1 => exact absurd h1 (hq _ _ _ _)
      | writeSome h1 => exact absurd h1 (hq _ _ _ _)
      | writeErr h1 => exact absurd h1 (hq _ _ _ _)
      | truncRefused h1 => exact go hf hq rfl (fun _ => rfl)
      | trunc h1 => rw [hf] at h1; cases h1
      | back h1 h2 h3 h4 => exact go (by rw [← hf]; exact h3.failsafe) hq h3.size h3.byte
      | damage => exact go hf hq rfl (fun _ => rfl)
  exact this post _ hw hfs hq

/-- **C70**: every request ends, after at most as many steps as it has bytes and two. -/
theorem C70_requests_end {bs : Nat} (hbs : 0 < bs) (evs : List Ev) (t m : Nat)
    (hm : ∀ o n total acc, (runW (newWorld bs) evs).tasks t = .rd o n total acc → n + 1 ≤ m)
    (hm' : ∀ o d k, (runW (newWorld bs) evs).tasks t = .wr o d k → d.length + 1 ≤ m)
    (hcr : (runW (newWorld bs) evs).crashed = false) :
    ((runW (newWorld bs) (evs ++ List.replicate m (.go t))).tasks t).running = false := by
  rw [runW_append]
  have hw := ((newWorld_inv hbs).run evs).1
  generalize runW (newWorld bs) evs = w at *
  have main : ∀ (m : Nat) (w : World), WInv w → w.crashed = false →
      (∀ o n total acc, w.tasks t = .rd o n total acc → total + 1 ≤ m + acc.length) →
      (∀ o d k, w.tasks t = .wr o d k → d.length + 1 ≤ m + k) →
      ((runW w (List.replicate m (.go t))).tasks t).running = false := by
    intro m
    induction m with
    | zero =>
      intro w hw hcr h1 h2
      show (w.tasks t).running = false
      cases hx : w.tasks t with
      | rd o n total acc => have := h1 _ _ _ _ hx; have := hw.rd _ _ _ _ _ hx; omega
      | wr o d k => have := h2 _ _ _ hx; have := hw.wr _ _ _ _ hx; omega
      | _ => rfl
    | succ m ih =>
      intro w hw hcr h1 h2
      show ((runW (stepW w (.go t)) (List.replicate m (.go t))).tasks t).running = false
      have hr := stepW_res hw (.go t)
      have hw' := (hw.step (.go t)).1
      have hgo : (w.tasks t).running = true → stepW w (.go t) ≠ w := by
        intro hrun heq
        have hs : stepW w (.go t) = goTask w t := by unfold stepW; rw [if_neg (by rw [hcr]; decide)]
        rw [hs] at heq
        have ht : (goTask w t).tasks t = w.tasks t := by rw [heq]
        unfold goTask at ht
        split at ht
        · rename_i o n total acc hx
          split at ht
          · dsimp only at ht; rw [upd_self, hx] at ht; cases ht
          · split at ht
            · dsimp only at ht; rw [upd_self, hx] at ht; cases ht
            · rename_i hl _ buf s hs2
              dsimp only at ht; rw [upd_self, hx] at ht
              have hb := (rwR_ok hw.st (by omega) hs2).2.2.2.2.1
              have := (Task.rd.inj ht).2.2.2
              have := congrArg List.length this
              rw [List.length_append] at this
              omega
        · rename_i o d k hx
          split at ht
          · dsimp only at ht; rw [upd_self, hx] at ht; cases ht
          · split at ht
            · dsimp only at ht; rw [upd_self, hx] at ht; cases ht
            · rename_i hl _ n s hs2
              dsimp only at ht; rw [upd_self, hx] at ht
              have hne : d.drop k ≠ [] := by
                intro hx; have := congrArg List.length hx; rw [List.length_drop, List.length_nil] at this; omega
              have hb := (rwW_ok hw.st hne hs2).2.2.2.2.1
              have := (Task.wr.inj ht).2.2
              omega
        · rename_i ha hb
          cases hx : w.tasks t with
          | rd o n total acc => exact ha _ _ _ _ hx
          | wr o d k => exact hb _ _ _ hx
          | _ => rw [hx] at hrun; cases hrun
      generalize stepW w (.go t) = w' at hr hw' hgo
      have done : ∀ {s : CSt} {x : Task}, WInv { w with st := s, tasks := upd w.tasks t x } → x.running = false →
          ((runW { w with st := s, tasks := upd w.tasks t x } (List.replicate m (.go t))).tasks t).running = false := by
        intro s x hw hx
        refine ih _ hw hcr (fun o n total acc h => ?_) (fun o d k h => ?_)
        · dsimp only at h; rw [upd_self] at h; rw [h] at hx; cases hx
        · dsimp only at h; rw [upd_self] at h; rw [h] at hx; cases hx
      cases hr with
      | same =>
        refine ih _ hw hcr (fun o n total acc h => ?_) (fun o d k h => ?_)
        · exact absurd rfl (hgo (by rw [h]; rfl))
        · exact absurd rfl (hgo (by rw [h]; rfl))
      | readEnd g1 g2 => exact done hw' rfl
      | readSome g1 g2 g3 g4 g5 g6 g7 g8 =>
        refine ih _ hw' hcr (fun o n total acc h => ?_) (fun o d k h => ?_)
        · dsimp only at h; rw [upd_self] at h; cases h
          have := h1 _ _ _ _ g1
          rw [List.length_append]; omega
        · dsimp only at h; rw [upd_self] at h; cases h
      | readErr g1 g2 g3 => exact done hw' rfl
      | writeEnd g1 => exact done hw' rfl
      | writeSome g1 g2 g3 g4 g5 g6 g7 g8 =>
        refine ih _ hw' hcr (fun o n total acc h => ?_) (fun o d k h => ?_)
        · dsimp only at h; rw [upd_self] at h; cases h
        · dsimp only at h; rw [upd_self] at h; cases h
          have := h2 _ _ _ g1
          omega
      | writeErr g1 g2 g3 => exact done hw' rfl
      | back g1 => rcases g1 with g | g <;> cases g
  refine main m w hw hcr (fun o n total acc h => ?_) (fun o d k h => ?_)
  · have := hm _ _ _ _ h; have := hw.rd _ _ _ _ _ h; omega
  · have := hm' _ _ _ h; omega

/-! ### C71 -/

theorem Accepted.mono {w : World} {evs : List Ev} {t o : Nat} {d : List Byte} (h : Accepted w evs t o d) (e : Ev) :
    Accepted w (evs ++ [e]) t o d := by
  obtain ⟨e1, e2, h1, h2⟩ := h
  exact ⟨e1, e2 ++ [e], by rw [h1, List.append_assoc]; rfl, h2⟩

/-- Position `i` holds what an accepted write has put there. -/
def FromWrite (w : World) (evs : List Ev) (i : Nat) : Prop :=
  ∃ t o d, Accepted w evs t o d ∧ o ≤ i ∧ i < o + d.length ∧ (runW w evs).byte i = at0 d (i - o)

structure Wrt (w : World) (evs : List Ev) : Prop where
  old : ∀ i, (runW w evs).byte i = w.byte i ∨ FromWrite w evs i
  act : ∀ t o d k, (runW w evs).tasks t = .wr o d k → Accepted w evs t o d ∧ ∀ i, o ≤ i → i < o + k → FromWrite w evs i
  done : ∀ t o d, (runW w evs).tasks t = .wrOk o d → w.tasks t = .wrOk o d ∨
    (Accepted w evs t o d ∧ o + d.length ≤ (runW w evs).size ∧ ∀ i, o ≤ i → i < o + d.length → FromWrite w evs i)
  grow : w.size ≤ (runW w evs).size
  size : (runW w evs).size = w.size ∨ ∃ t o d, Accepted w evs t o d ∧ (runW w evs).size = o + d.length

theorem Wrt.run {w : World} (hw : WInv w) (hq : Quiet w) (evs : List Ev) (hn : ∀ n, Ev.truncate n ∉ evs) : Wrt w evs := by
  induction evs using snoc_ind with
  | h0 =>
    exact ⟨fun i => Or.inl rfl, fun t o d k h => absurd h (hq _ _ _ _), fun t o d h => Or.inl h, Nat.le_refl _, Or.inl rfl⟩
  | h1 l e ih =>
    have ih := ih (fun n hx => hn n (List.mem_append_left _ hx))
    have hl := (hw.run l).1
    have hr := stepW_res hl e
    have hrun := runW_snoc w l e
    -- the data and the size are the same
    have fw : (∀ i, (runW w (l ++ [e])).byte i = (runW w l).byte i) → ∀ i, FromWrite w l i → FromWrite w (l ++ [e]) i := by
      intro hb i ⟨t, o, d, h1, h2, h3, h4⟩
      exact ⟨t, o, d, h1.mono e, h2, h3, (hb i).trans h4⟩
    have acc : ∀ (P : Nat → Nat → List Byte → Prop), (∃ t o d, Accepted w l t o d ∧ P t o d) → ∃ t o d, Accepted w (l ++ [e]) t o d ∧ P t o d :=
      fun P ⟨t, o, d, h1, h2⟩ => ⟨t, o, d, h1.mono e, h2⟩
    have quiet : (∀ i, (runW w (l ++ [e])).byte i = (runW w l).byte i) → (runW w (l ++ [e])).size = (runW w l).size →
        (∀ t o d k, (runW w (l ++ [e])).tasks t = .wr o d k → (runW w l).tasks t = .wr o d k ∨ (k = 0 ∧ Accepted w (l ++ [e]) t o d)) →
        (∀ t o d, (runW w (l ++ [e])).tasks t = .wrOk o d → (runW w l).tasks t = .wrOk o d) → Wrt w (l ++ [e]) := by
      intro hb hs ht hd
      refine ⟨fun i => ?_, fun t o d k h => ?_, fun t o d h => ?_, ?_, ?_⟩
      · rcases ih.old i with h | h
        · exact Or.inl ((hb i).trans h)
        · exact Or.inr (fw hb i h)
      · rcases ht t o d k h with g | ⟨rfl, g⟩
        · obtain ⟨a, b⟩ := ih.act _ _ _ _ g
          exact ⟨a.mono e, fun i h1 h2 => fw hb i (b i h1 h2)⟩
        · exact ⟨g, fun i h1 h2 => by omega⟩
      · rcases ih.done _ _ _ (hd _ _ _ h) with g | ⟨g1, g2, g3⟩
        · exact Or.inl g
        · exact Or.inr ⟨g1.mono e, by rw [hs]; exact g2, fun i h1 h2 => fw hb i (g3 i h1 h2)⟩
      · rw [hs]; exact ih.grow
      · rw [hs]; exact ih.size.imp id (acc _)
    rw [← hrun] at hr
    generalize hw' : runW w (l ++ [e]) = w' at hr quiet fw
    have tk : ∀ {t : Nat} {x : Task}, (∀ o d k, x ≠ .wr o d k) → (∀ o d, x ≠ .wrOk o d) →
        (∀ t' o d k, upd (runW w l).tasks t x t' = .wr o d k → (runW w l).tasks t' = .wr o d k ∨ (k = 0 ∧ Accepted w (l ++ [e]) t' o d)) ∧
        (∀ t' o d, upd (runW w l).tasks t x t' = .wrOk o d → (runW w l).tasks t' = .wrOk o d) := by
      intro t x h1 h2
      refine ⟨fun t' o d k h => ?_, fun t' o d h => ?_⟩
      · rcases upd_cases h with ⟨_, h⟩ | ⟨_, h⟩
        · exact absurd h (h1 _ _ _)
        · exact Or.inl h
      · rcases upd_cases h with ⟨_, h⟩ | ⟨_, h⟩
        · exact absurd h (h2 _ _)
        · exact h
    cases hr with
    | same => exact quiet (fun _ => rfl) rfl (fun _ _ _ _ h => Or.inl h) (fun _ _ _ h => h)
    | startR h1 h2 => exact quiet (fun _ => rfl) rfl (tk (by intros; simp) (by intros; simp)).1 (tk (by intros; simp) (by intros; simp)).2
    | @startW t o d h1 h2 h3 =>
      refine quiet (fun _ => rfl) rfl (fun t' o' d' k h => ?_) (fun t' o' d' h => ?_)
      · rcases upd_cases h with ⟨g, h⟩ | ⟨_, h⟩
        · cases h; subst g
          exact Or.inr ⟨rfl, l, [], rfl, h3, h2, h1⟩
        · exact Or.inl h
      · rcases upd_cases h with ⟨_, h⟩ | ⟨_, h⟩
        · cases h
        · exact h
    | refused h1 h2 h3 => exact quiet (fun _ => rfl) rfl (tk (by intros; simp) (by intros; simp)).1 (tk (by intros; simp) (by intros; simp)).2
    | readEnd h1 h2 => exact quiet (fun _ => rfl) rfl (tk (by intros; simp) (by intros; simp)).1 (tk (by intros; simp) (by intros; simp)).2
    | readSome h1 h2 h3 h4 h5 h6 h7 h8 => exact quiet h3.byte h3.size (tk (by intros; simp) (by intros; simp)).1 (tk (by intros; simp) (by intros; simp)).2
    | readErr h1 h2 h3 =>
      exact quiet (fun i => congrArg (fun f => FileSt.byteAt f i) h3.f) (congrArg FileSt.size h3.f) (tk (by intros; simp) (by intros; simp)).1 (tk (by intros; simp) (by intros; simp)).2
    | @writeEnd t o d h1 =>
      have fw := fw (fun _ => rfl)
      have hb : ∀ i, (runW w (l ++ [.go t])).byte i = (runW w l).byte i := by intro i; rw [hw']; rfl
      have hs : (runW w (l ++ [.go t])).size = max (runW w l).size (o + d.length) := by rw [hw']; rfl
      have htk : (runW w (l ++ [.go t])).tasks = upd (runW w l).tasks t (.wrOk o d) := by rw [hw']
      obtain ⟨ha, hc⟩ := ih.act _ _ _ _ h1
      refine ⟨fun i => ?_, fun t' o' d' k' h => ?_, fun t' o' d' h => ?_, ?_, ?_⟩
      · rcases ih.old i with h | h
        · exact Or.inl ((hb i).trans h)
        · exact Or.inr (fw i h)
      · rw [htk] at h
        rcases upd_cases h with ⟨_, h⟩ | ⟨_, h⟩
        · cases h
        · obtain ⟨a, b⟩ := ih.act _ _ _ _ h
          exact ⟨a.mono _, fun i h1 h2 => fw i (b i h1 h2)⟩
      · rw [htk] at h
        rcases upd_cases h with ⟨g, h⟩ | ⟨_, h⟩
        · cases h; subst g
          exact Or.inr ⟨ha.mono _, by rw [hs]; exact Nat.le_max_right _ _, fun i h1 h2 => fw i (hc i h1 h2)⟩
        · rcases ih.done _ _ _ h with g | ⟨g1, g2, g3⟩
          · exact Or.inl g
          · exact Or.inr ⟨g1.mono _, by rw [hs]; exact Nat.le_trans g2 (Nat.le_max_left _ _), fun i h1 h2 => fw i (g3 i h1 h2)⟩
      · rw [hs]; exact Nat.le_trans ih.grow (Nat.le_max_left _ _)
      · rw [hs]
        rcases Nat.le_total (runW w l).size (o + d.length) with h | h
        · rw [Nat.max_eq_right h]; exact Or.inr ⟨t, o, d, ha.mono _, rfl⟩
        · rw [Nat.max_eq_left h]; exact ih.size.imp id (acc _)
    | @writeSome t o k n d s h1 h2 h3 h4 h5 h6 h7 h8 h9 h10 h11 h12 h13 =>
      have hb : ∀ i, (runW w (l ++ [.go t])).byte i = if o + k ≤ i ∧ i < o + (k + n) then at0 d (i - o) else (runW w l).byte i := by
        intro i; rw [hw']; exact h10 i
      have hs : (runW w (l ++ [.go t])).size = (runW w l).size := by rw [hw']; exact h5
      have htk : (runW w (l ++ [.go t])).tasks = upd (runW w l).tasks t (.wr o d (k + n)) := by rw [hw']
      obtain ⟨ha, hc⟩ := ih.act _ _ _ _ h1
      have fw : ∀ i, FromWrite w l i ∨ (o + k ≤ i ∧ i < o + (k + n)) → FromWrite w (l ++ [.go t]) i := by
        intro i h
        by_cases hx : o + k ≤ i ∧ i < o + (k + n)
        · exact ⟨t, o, d, ha.mono _, by omega, by omega, by rw [hb, if_pos hx]⟩
        · rcases h with ⟨t', o', d', g1, g2, g3, g4⟩ | h
          · exact ⟨t', o', d', g1.mono _, g2, g3, by rw [hb, if_neg hx]; exact g4⟩
          · exact absurd h hx
      refine ⟨fun i => ?_, fun t' o' d' k' h => ?_, fun t' o' d' h => ?_, ?_, ?_⟩
      · by_cases hx : o + k ≤ i ∧ i < o + (k + n)
        · exact Or.inr (fw i (Or.inr hx))
        · rcases ih.old i with h | h
          · left; rw [hb, if_neg hx]; exact h
          · exact Or.inr (fw i (Or.inl h))
      · rw [htk] at h
        rcases upd_cases h with ⟨g, h⟩ | ⟨_, h⟩
        · cases h; subst g
          refine ⟨ha.mono _, fun i g1 g2 => fw i ?_⟩
          by_cases hx : i < o + k
          · exact Or.inl (hc i g1 hx)
          · exact Or.inr ⟨by omega, g2⟩
        · obtain ⟨a, b⟩ := ih.act _ _ _ _ h
          exact ⟨a.mono _, fun i h1 h2 => fw i (Or.inl (b i h1 h2))⟩
      · rw [htk] at h
        rcases upd_cases h with ⟨_, h⟩ | ⟨_, h⟩
        · cases h
        · rcases ih.done _ _ _ h with g | ⟨g1, g2, g3⟩
          · exact Or.inl g
          · exact Or.inr ⟨g1.mono _, by rw [hs]; exact g2, fun i h1 h2 => fw i (Or.inl (g3 i h1 h2))⟩
      · rw [hs]; exact ih.grow
      · rw [hs]; exact ih.size.imp id (acc _)
    | writeErr h1 h2 h3 =>
      exact quiet (fun i => congrArg (fun f => FileSt.byteAt f i) h3.f) (congrArg FileSt.size h3.f) (tk (by intros; simp) (by intros; simp)).1 (tk (by intros; simp) (by intros; simp)).2
    | truncRefused h1 => exact absurd (List.mem_append_right _ (List.mem_singleton.2 rfl)) (hn _)
    | trunc h1 h2 h3 h4 => exact absurd (List.mem_append_right _ (List.mem_singleton.2 rfl)) (hn _)
    | back h1 h2 h3 h4 => exact quiet h3.byte h3.size (fun _ _ _ _ h => Or.inl h) (fun _ _ _ h => h)
    | damage => exact quiet (fun _ => rfl) rfl (fun _ _ _ _ h => Or.inl h) (fun _ _ _ h => h)

/-- **C71**: reads and writes at the same time, from a moment at which no write is running.  Every byte is the old one or comes
from an accepted write that covers it. -/
theorem C71_every_byte_from_a_write {bs : Nat} (hbs : 0 < bs) (pre mid : List Ev) (hq : Quiet (runW (newWorld bs) pre))
    (hn : ∀ n, Ev.truncate n ∉ mid) (i : Nat) :
    (runW (newWorld bs) (pre ++ mid)).byte i = (runW (newWorld bs) pre).byte i ∨
    ∃ t o d, Accepted (runW (newWorld bs) pre) mid t o d ∧ o ≤ i ∧ i < o + d.length ∧
      (runW (newWorld bs) (pre ++ mid)).byte i = at0 d (i - o) := by
  rw [runW_append]
  exact (Wrt.run ((newWorld_inv hbs).run pre).1 hq mid hn).old i

/-- **C71**: what a successful write has written is there, unless another write to the same place has replaced it;
and the file is large enough. -/
theorem C71_no_write_is_lost {bs : Nat} (hbs : 0 < bs) (pre mid : List Ev) (hq : Quiet (runW (newWorld bs) pre))
    (hn : ∀ n, Ev.truncate n ∉ mid) (t o : Nat) (d : List Byte) (hidle : (runW (newWorld bs) pre).tasks t = .idle)
    (hdone : (runW (newWorld bs) (pre ++ mid)).tasks t = .wrOk o d) :
    Accepted (runW (newWorld bs) pre) mid t o d ∧ o + d.length ≤ (runW (newWorld bs) (pre ++ mid)).size ∧
    ∀ i, o ≤ i → i < o + d.length → ∃ t' o' d', Accepted (runW (newWorld bs) pre) mid t' o' d' ∧ o' ≤ i ∧ i < o' + d'.length ∧
      (runW (newWorld bs) (pre ++ mid)).byte i = at0 d' (i - o') := by
  rw [runW_append] at hdone ⊢
  rcases (Wrt.run ((newWorld_inv hbs).run pre).1 hq mid hn).done t o d hdone with h | h
  · rw [hidle] at h; cases h
  · exact h

/-- **C71**: the file grows exactly as far as accepted writes reach. -/
theorem C71_size {bs : Nat} (hbs : 0 < bs) (pre mid : List Ev) (hq : Quiet (runW (newWorld bs) pre))
    (hn : ∀ n, Ev.truncate n ∉ mid) :
    (runW (newWorld bs) pre).size ≤ (runW (newWorld bs) (pre ++ mid)).size ∧
    ((runW (newWorld bs) (pre ++ mid)).size = (runW (newWorld bs) pre).size ∨
      ∃ t o d, Accepted (runW (newWorld bs) pre) mid t o d ∧ (runW (newWorld bs) (pre ++ mid)).size = o + d.length) := by
  rw [runW_append]
  have h := Wrt.run ((newWorld_inv hbs).run pre).1 hq mid hn
  exact ⟨h.grow, h.size⟩

/-- **C71**: when no write is running, nothing is stored behind the end of the file, so that a file that grows grows by
zero bytes.  A `truncate` that failed is excluded (`C70_failed_truncate_changes_size`). -/
theorem C71_nothing_behind_the_end {bs : Nat} (hbs : 0 < bs) (evs : List Ev) (hq : Quiet (runW (newWorld bs) evs))
    (ht : TruncOk (newWorld bs) evs) (i : Nat) (hi : (runW (newWorld bs) evs).size ≤ i) : (runW (newWorld bs) evs).byte i = 0 := by
  have T := ht.tight hbs (i / (runW (newWorld bs) evs).st.f.bs)
  show FileSt.byteAt _ i = 0
  unfold FileSt.byteAt
  rcases T with h | h | ⟨t, o, d, k, h, _⟩
  · rw [h]; rfl
  · apply at0_ge
    have hi : (runW (newWorld bs) evs).st.f.size ≤ i := hi
    have := Nat.div_add_mod i (runW (newWorld bs) evs).st.f.bs
    rw [Nat.mul_comm] at this
    omega
  · exact absurd h (hq _ _ _ _)

theorem store_at0 (a : List Byte) (o : Nat) (d : List Byte) (i : Nat) :
    at0 (Spec.store a o d) i = if o ≤ i ∧ i < o + d.length then at0 d (i - o) else at0 a i := by
  unfold Spec.store Spec.resize
  have hz : ∀ n i, at0 (List.replicate n 0) i = 0 := at0_zeros
  simp only [at0_append, at0_take, at0_drop, List.length_append, List.length_take, List.length_replicate, hz]
  repeat' split
  all_goals first
    | omega
    | rfl
    | (congr 1 <;> omega)
    | (rw [at0_ge _ _ (by omega)])
    | (rw [at0_ge _ _ (by omega), at0_ge _ _ (by omega)])

theorem store_length (a : List Byte) (o : Nat) (d : List Byte) : (Spec.store a o d).length = max a.length (o + d.length) := by
  unfold Spec.store Spec.resize
  simp only [List.length_append, List.length_take, List.length_drop, List.length_replicate]
  omega

/-- Two ranges of bytes have nothing in common. -/
def Apart (x y : Nat × Nat × List Byte) : Prop := x.2.1 + x.2.2.length ≤ y.2.1 ∨ y.2.1 + y.2.2.length ≤ x.2.1

theorem foldl_store (ws : List (Nat × Nat × List Byte)) (hd : ws.Pairwise Apart) (a : List Byte) :
    (∀ i, (∀ x ∈ ws, ¬(x.2.1 ≤ i ∧ i < x.2.1 + x.2.2.length)) → at0 (ws.foldl (fun a x => Spec.store a x.2.1 x.2.2) a) i = at0 a i) ∧
    (∀ i, ∀ x ∈ ws, x.2.1 ≤ i → i < x.2.1 + x.2.2.length → at0 (ws.foldl (fun a x => Spec.store a x.2.1 x.2.2) a) i = at0 x.2.2 (i - x.2.1)) ∧
    a.length ≤ (ws.foldl (fun a x => Spec.store a x.2.1 x.2.2) a).length ∧
    (∀ x ∈ ws, x.2.1 + x.2.2.length ≤ (ws.foldl (fun a x => Spec.store a x.2.1 x.2.2) a).length) ∧
    ((ws.foldl (fun a x => Spec.store a x.2.1 x.2.2) a).length = a.length ∨
      ∃ x ∈ ws, (ws.foldl (fun a x => Spec.store a x.2.1 x.2.2) a).length = x.2.1 + x.2.2.length) := by
  induction ws generalizing a with
  | nil => exact ⟨fun _ _ => rfl, fun _ _ h => (by cases h), Nat.le_refl _, fun _ h => (by cases h), Or.inl rfl⟩
  | cons y t ih =>
    obtain ⟨hy, ht⟩ := List.pairwise_cons.1 hd
    obtain ⟨i1, i2, i3, i4, i5⟩ := ih ht (Spec.store a y.2.1 y.2.2)
    rw [store_length] at i3 i5
    simp only [List.foldl_cons]
    refine ⟨fun i h => ?_, fun i x hx h1 h2 => ?_, by omega, fun x hx => ?_, ?_⟩
    · rw [i1 i (fun x hx => h x (List.mem_cons_of_mem _ hx)), store_at0, if_neg (h y List.mem_cons_self)]
    · rcases List.mem_cons.1 hx with rfl | hx
      · rw [i1 i, store_at0, if_pos ⟨h1, h2⟩]
        intro z hz ⟨g1, g2⟩
        rcases hy z hz with g | g <;> omega
      · exact i2 i x hx h1 h2
    · rcases List.mem_cons.1 hx with rfl | hx
      · omega
      · exact i4 x hx
    · rcases i5 with h | ⟨x, hx, h⟩
      · rcases Nat.le_total a.length (y.2.1 + y.2.2.length) with g | g
        · exact Or.inr ⟨y, List.mem_cons_self, by omega⟩
        · exact Or.inl (by omega)
      · exact Or.inr ⟨x, List.mem_cons_of_mem _ hx, h⟩

theorem pairwise_two {α : Type} {R : α → α → Prop} {l : List α} (h : l.Pairwise R) {x y : α} (hx : x ∈ l) (hy : y ∈ l)
    (hne : x ≠ y) : R x y ∨ R y x := by
  induction l with
  | nil => cases hx
  | cons a t ih =>
    obtain ⟨h1, h2⟩ := List.pairwise_cons.1 h
    rcases List.mem_cons.1 hx with e1 | hx'
    · rcases List.mem_cons.1 hy with e2 | hy'
      · exact absurd (e1.trans e2.symm) hne
      · exact Or.inl (e1 ▸ h1 _ hy')
    · rcases List.mem_cons.1 hy with e2 | hy'
      · exact Or.inr (e2 ▸ h1 _ hx')
      · exact ih h2 hx' hy'

/-- **C71**: writes to different places, running at the same time in any way, together have the same effect as one after
the other. -/
theorem C71_disjoint_writes {bs : Nat} (hbs : 0 < bs) (pre mid : List Ev) (hq : Quiet (runW (newWorld bs) pre))
    (ht : TruncOk (newWorld bs) pre) (hn : ∀ n, Ev.truncate n ∉ mid) (ws : List (Nat × Nat × List Byte)) (hd : ws.Pairwise Apart)
    (hall : ∀ t o d, Ev.startWrite t o d ∈ mid → (t, o, d) ∈ ws)
    (hdone : ∀ x ∈ ws, (runW (newWorld bs) pre).tasks x.1 = .idle ∧ (runW (newWorld bs) (pre ++ mid)).tasks x.1 = .wrOk x.2.1 x.2.2) :
    (runW (newWorld bs) (pre ++ mid)).content =
      ws.foldl (fun a x => Spec.store a x.2.1 x.2.2) (runW (newWorld bs) pre).content := by
  have hlen : ∀ w : World, w.content.length = w.size := by intro w; unfold World.content; simp
  have hat : ∀ (w : World) i, at0 w.content i = if i < w.size then w.byte i else 0 := by
    intro w i
    exact content_at0 w.st.f i
  have hacc : ∀ t o d, Accepted (runW (newWorld bs) pre) mid t o d → (t, o, d) ∈ ws := by
    intro t o d ⟨e1, e2, h, _⟩
    exact hall t o d (by rw [h]; exact List.mem_append_right _ List.mem_cons_self)
  obtain ⟨i1, i2, i3, i4, i5⟩ := foldl_store ws hd (runW (newWorld bs) pre).content
  obtain ⟨s1, s2⟩ := C71_size hbs pre mid hq hn
  have hsz : (runW (newWorld bs) (pre ++ mid)).size =
      (ws.foldl (fun a x => Spec.store a x.2.1 x.2.2) (runW (newWorld bs) pre).content).length := by
    apply Nat.le_antisymm
    · rcases s2 with h | ⟨t, o, d, h1, h2⟩
      · rw [h, ← hlen]; exact i3
      · rw [h2]; exact i4 _ (hacc _ _ _ h1)
    · rcases i5 with h | ⟨x, hx, h⟩
      · rw [h, hlen]; exact s1
      · rw [h]
        obtain ⟨g1, g2⟩ := hdone x hx
        exact (C71_no_write_is_lost hbs pre mid hq hn x.1 x.2.1 x.2.2 g1 g2).2.1
  apply ext_at0
  · rw [hlen]; exact hsz
  · intro i hi
    rw [hlen] at hi
    rw [hat, if_pos hi]
    by_cases hc : ∃ x ∈ ws, x.2.1 ≤ i ∧ i < x.2.1 + x.2.2.length
    · obtain ⟨x, hx, h1, h2⟩ := hc
      rw [i2 i x hx h1 h2]
      obtain ⟨g1, g2⟩ := hdone x hx
      obtain ⟨t', o', d', f1, f2, f3, f4⟩ := (C71_no_write_is_lost hbs pre mid hq hn x.1 x.2.1 x.2.2 g1 g2).2.2 i h1 h2
      rw [f4]
      have hm := hacc _ _ _ f1
      have heq : x = (t', o', d') := by
        apply Classical.byContradiction
        intro hne
        have hp : Apart x (t', o', d') ∨ Apart (t', o', d') x := by
          exact pairwise_two hd hx hm hne
        rcases hp with (g | g) | (g | g) <;> dsimp only at g <;> omega
      rw [heq]
    · have hc' : ∀ x ∈ ws, ¬(x.2.1 ≤ i ∧ i < x.2.1 + x.2.2.length) := fun x hx h => hc ⟨x, hx, h⟩
      rw [i1 i hc', hat]
      rcases C71_every_byte_from_a_write hbs pre mid hq hn i with h | ⟨t, o, d, h1, h2, h3, _⟩
      · rw [h]
        split
        · rfl
        · rename_i hlt
          exact C71_nothing_behind_the_end hbs pre hq ht i (by omega)
      · exact absurd ⟨h2, h3⟩ (hc' _ (hacc _ _ _ h1))

/-! ### Where the full statements fail, and concrete cases -/

/-- Five bytes in two blocks of four, both uploaded and out of the cache. -/
def fiveBytes : List Ev :=
  [.startWrite 0 0 [1, 2, 3, 4, 5], .go 0, .go 0, .go 0, .upload 0, .upload 1, .evict 0, .evict 1]

deriving instance DecidableEq for Except

/-- **C70** fails for `truncate`: it reports `EIO`, but the size has changed (fs.py:990, 1009-1013). -/
theorem C70_failed_truncate_changes_size :
    (runW (newWorld 4) (fiveBytes ++ [.damage 0 .corrupt, .truncate 2])).trunc = some (.error .eio) ∧
    (runW (newWorld 4) fiveBytes).size = 5 ∧
    (runW (newWorld 4) (fiveBytes ++ [.damage 0 .corrupt, .truncate 2])).size = 2 := by decide +kernel

/-- **C70** fails for `truncate`: if the object of the last block is missing, the exception is raised again and nobody
handles it (fs.py:998-1002), so that the file system process ends. -/
theorem C70_truncate_of_lost_block_crashes :
    (runW (newWorld 4) (fiveBytes ++ [.damage 0 .lost, .truncate 2])).crashed = true := by decide +kernel

/-- **C71** fails if the file is truncated while it is written (the kernel usually does not let this happen): half of a
successful write is gone, which neither order of the two requests gives. -/
theorem C71_truncate_splits_a_write :
    (runW (newWorld 2) [.startWrite 0 0 [9, 9, 9, 9], .go 0, .go 0, .go 0,
      .startWrite 0 0 [1, 2, 3, 4], .go 0, .truncate 0, .go 0, .go 0]).tasks 0 = .wrOk 0 [1, 2, 3, 4] ∧
    (runW (newWorld 2) [.startWrite 0 0 [9, 9, 9, 9], .go 0, .go 0, .go 0,
      .startWrite 0 0 [1, 2, 3, 4], .go 0, .truncate 0, .go 0, .go 0]).content = [0, 0, 3, 4] := by decide +kernel

/-- A read that meets a damaged block fails, one that does not succeeds, and a later write is refused. -/
def damaged : World :=
  runW (newWorld 4) (fiveBytes ++ [.damage 1 .corrupt, .startRead 1 0 4, .go 1, .go 1, .startRead 2 0 5, .go 2, .go 2, .startWrite 3 0 [7]])

/-- The hypotheses of `C70_reads_are_right`, `C70_read_error_is_local` and `C70_frozen_after_damage` can be met. -/
example : damaged.tasks 1 = .rdOk 0 4 [1, 2, 3, 4] ∧ damaged.tasks 2 = .rdErr 0 5 .eio ∧ damaged.tasks 3 = .wrErr 0 [7] .eperm ∧
    damaged.content = [1, 2, 3, 4, 5] := by decide +kernel

/-- The hypothesis of `C70_write_error_is_local` can be met. -/
example : (runW (newWorld 4) (fiveBytes ++ [.damage 1 .lost, .startWrite 1 3 [7, 7], .go 1, .go 1])).tasks 1 = .wrErr 3 [7, 7] .eio := by
  decide +kernel

/-- Two writes of one file at the same time, with an upload in the middle. -/
def twoWrites : List Ev :=
  [.startWrite 1 0 [1, 2, 3], .startWrite 2 3 [4, 5, 6], .go 2, .go 1, .upload 1, .go 2, .go 1, .go 2, .go 1]

/-- The hypotheses of `C71_disjoint_writes` can be met. -/
example : (runW (newWorld 2) twoWrites).content = [1, 2, 3, 4, 5, 6] := by
  have h := C71_disjoint_writes (bs := 2) (by decide) [] twoWrites (by intro t o d k h; cases h)
    (by
      intro e1 e2 h
      obtain ⟨rfl, rfl⟩ := List.append_eq_nil_iff.1 h.symm
      exact ⟨fun h => (by cases h), fun h => (by cases h)⟩)
    (by intro n h; simp [twoWrites] at h) [(1, 0, [1, 2, 3]), (2, 3, [4, 5, 6])]
    (by simp [Apart])
    (by intro t o d h; simp [twoWrites] at h ⊢; exact h)
    (by
      intro x hx
      simp only [List.mem_cons, List.not_mem_nil, or_false] at hx
      rcases hx with rfl | rfl
      · exact ⟨rfl, by decide +kernel⟩
      · exact ⟨rfl, by decide +kernel⟩)
  rw [List.nil_append] at h
  rw [h]
  decide +kernel

end Verif.FileData
