import Verif.Backend.Exchange
/-
Proofs for property C81: as long as the server is polite and forgiving, what has been received or will be sent by the server belongs
to the request that is being waited for.
-/

namespace Verif.Backend.Exchange

variable {cfg : Cfg} {ans : Nat → Ans}

/-! ### What is on the wire -/

/-- Nothing is left of the answer. -/
def Tail (t : List Wire) (v : Srv) : Prop := v.rest = [] ∧ v.cur = none ∧ v.asked = false ∧ (t = [] ∨ (t = [.eof] ∧ v.eof = true))

/-- The bytes `rem` of the answer to `r` are still to be read. -/
def Mid (r : Nat) : List UInt8 → List Wire → Srv → Prop
  | rem, [], v => v.rest = [] ∧ v.asked = false ∧ v.eof = false ∧ v.cur = some (r, rem)
  | rem, .data _ b :: t, v => ∃ rem', rem = b ++ rem' ∧ Mid r rem' t v
  | rem, .eom _ :: t, v => rem = [] ∧ Tail t v
  | _, .eof :: t, v => v.rest = [] ∧ v.asked = false ∧ v.eof = true ∧ t = []
  | _, _, _ => False

/-- The answer to `r` is still to be read. -/
def Pre (ans : Nat → Ans) (r : Nat) : List Wire → Srv → Prop
  | [], v => v.eof = true ∨ (v.rest = [r] ∧ v.cur = none)
  | .info _ :: t, v => Pre ans r t v
  | .head r' a :: t, v => r' = r ∧ a = ans r ∧ match a.body with | none => Tail t v | some b => Mid r b t v
  | .eof :: t, v => v.eof = true ∧ t = []
  | _, _ => False

/-- How many `100 Continue` there are. -/
def hundreds : List Wire → Nat
  | [] => 0
  | .info c :: t => (if c = 100 then 1 else 0) + hundreds t
  | _ :: t => hundreds t

theorem hundreds_append (a b : List Wire) : hundreds (a ++ b) = hundreds a + hundreds b := by
  induction a with
  | nil => simp [hundreds]
  | cons w t ih => cases w <;> simp [hundreds, ih] <;> omega

theorem Tail.emit {t : List Wire} {v v' : Srv} {e : Emit} {w : Wire} (h : Tail t v) (he : v.emit cfg ans e = some (w, v')) : Tail (t ++ [w]) v' ∧ v'.need = v.need ∧ hundreds [w] = 0 := by
  obtain ⟨h1, h2, h3, h4⟩ := h
  unfold Srv.emit at he
  split at he
  · cases he
  · rename_i hne
    rcases h4 with rfl | ⟨rfl, h5⟩
    · cases e with
      | cont => simp [h1] at he
      | info c => simp [h1] at he
      | head => simp [h1, h2] at he
      | data n => simp [h2] at he
      | eom => simp [h2] at he
      | eof => cases he; exact ⟨⟨h1, h2, h3, Or.inr ⟨rfl, rfl⟩⟩, rfl, rfl⟩
    · exact absurd h5 hne

theorem Mid.emit {r : Nat} : ∀ {t : List Wire} {rem : List UInt8} {v v' : Srv} {e : Emit} {w : Wire}, Mid r rem t v → v.emit cfg ans e = some (w, v') → Mid r rem (t ++ [w]) v' ∧ v'.need = v.need ∧ hundreds [w] = 0
  | [], rem, v, v', e, w, h, he => by
    obtain ⟨h1, h2, h3, h4⟩ := h
    unfold Srv.emit at he
    rw [h3] at he
    cases e with
    | cont => simp [h1] at he
    | info c => simp [h1] at he
    | head => simp [h4] at he
    | data n =>
      cases rem with
      | nil => simp [h4] at he
      | cons c t =>
        simp only [h4] at he
        cases he
        exact ⟨⟨(c :: t).drop (n + 1), (List.take_append_drop _ _).symm, h1, h2, rfl, rfl⟩, rfl, rfl⟩
    | eom =>
      cases rem with
      | cons c t => simp [h4] at he
      | nil =>
        simp only [h4] at he
        split at he
        · cases he
        · split at he
          · cases he; exact ⟨⟨rfl, h1, rfl, h2, Or.inl rfl⟩, rfl, rfl⟩
          · cases he
    | eof => cases he; exact ⟨⟨h1, h2, rfl, rfl⟩, rfl, rfl⟩
  | .data _ b :: t, rem, v, v', e, w, h, he => by
    obtain ⟨rem', h1, h2⟩ := h
    have h3 := Mid.emit h2 he
    exact ⟨⟨rem', h1, h3.1⟩, h3.2⟩
  | .eom _ :: t, rem, v, v', e, w, h, he => by
    have h3 := Tail.emit h.2 he
    exact ⟨⟨h.1, h3.1⟩, h3.2⟩
  | .eof :: t, rem, v, v', e, w, h, he => by
    unfold Srv.emit at he
    rw [if_pos h.2.2.1] at he; cases he
  | .info _ :: t, rem, v, v', e, w, h, he => h.elim
  | .head _ _ :: t, rem, v, v', e, w, h, he => h.elim

/-- How the request, its body and `100 Continue` stand: `wait` while the body is held back. -/
def Stage (wait : Bool) (left : Nat) (broken : Bool) (l : List Wire) (v : Srv) : Prop :=
  if wait then (v.asked = true ∧ hundreds l = 0 ∧ v.need = left) ∨ (v.asked = false ∧ hundreds l = 1 ∧ v.need = left) ∨ (v.asked = false ∧ hundreds l = 0 ∧ v.need = 0)
  else v.asked = false ∧ hundreds l = 0 ∧ (broken = true ∨ v.need = 0)

theorem Mid.hundreds0 {r : Nat} : ∀ {t : List Wire} {rem : List UInt8} {v : Srv}, Mid r rem t v → hundreds t = 0 ∧ v.asked = false
  | [], rem, v, h => ⟨rfl, h.2.1⟩
  | .data _ b :: t, rem, v, h => by obtain ⟨rem', _, h2⟩ := h; exact Mid.hundreds0 (t := t) h2
  | .eom _ :: t, rem, v, h => by
    obtain ⟨_, _, _, h3, h4⟩ := h
    rcases h4 with rfl | ⟨rfl, _⟩ <;> exact ⟨rfl, h3⟩
  | .eof :: t, rem, v, h => by obtain ⟨_, h1, _, h2⟩ := h; subst h2; exact ⟨rfl, h1⟩
  | .info _ :: t, rem, v, h => h.elim
  | .head _ _ :: t, rem, v, h => h.elim

theorem Tail.hundreds0 {t : List Wire} {v : Srv} (h : Tail t v) : hundreds t = 0 ∧ v.asked = false := by
  obtain ⟨_, _, h3, h4⟩ := h
  rcases h4 with rfl | ⟨rfl, _⟩ <;> exact ⟨rfl, h3⟩

/-- The server sends one thing more. -/
theorem Pre.emit {e : Emit} {w : Wire} {v v' : Srv} {r : Nat} (hc : cfg.polite = true ∧ (v.asked = true → cfg.forgiving = true)) (he : v.emit cfg ans e = some (w, v')) :
    ∀ {t : List Wire}, Pre ans r t v → Pre ans r (t ++ [w]) v' ∧
      ((v'.need = v.need ∧ v'.asked = v.asked ∧ hundreds [w] = 0) ∨ (v.asked = true ∧ v'.asked = false ∧ v'.need = v.need ∧ hundreds [w] = 1) ∨ (v.asked = true ∧ v'.asked = false ∧ v'.need = 0 ∧ hundreds [w] = 0))
  | [], h => by
    unfold Srv.emit at he
    split at he
    · cases he
    · rename_i hne
      rcases h with h | ⟨h1, h2⟩
      · exact absurd h hne
      · cases e with
        | cont =>
          simp only [h1, h2, hc.1] at he
          split at he
          · rename_i hx
            cases he
            refine ⟨Or.inr ⟨rfl, rfl⟩, Or.inr (Or.inl ⟨?_, rfl, rfl, rfl⟩)⟩
            rcases hx.2.2 with h | h
            · exact h
            · cases h
          · cases he
        | info c =>
          simp only [h1, h2] at he
          split at he
          · rename_i hx
            cases he
            refine ⟨Or.inr ⟨h1, h2⟩, Or.inl ⟨rfl, rfl, ?_⟩⟩
            simp [hundreds, hx.2.2]
          · cases he
        | head =>
          simp only [h1, h2] at he
          cases he
          refine ⟨⟨rfl, rfl, ?_⟩, ?_⟩
          · cases hb : (ans r).body with
            | none => exact ⟨rfl, by simp, rfl, Or.inl rfl⟩
            | some b => exact ⟨rfl, rfl, by simpa using hne, by simp⟩
          · by_cases ha : v.asked = true
            · refine Or.inr (Or.inr ⟨ha, rfl, ?_, rfl⟩)
              simp [ha, hc.2 ha]
            · refine Or.inl ⟨?_, by simpa using ha, rfl⟩
              simp [ha]
        | data n => simp [h2] at he
        | eom => simp [h2] at he
        | eof => cases he; exact ⟨⟨rfl, rfl⟩, Or.inl ⟨rfl, rfl, rfl⟩⟩
  | .info _ :: t, h => Pre.emit hc he (t := t) h
  | .head r' a :: t, h => by
    obtain ⟨h1, h2, h3⟩ := h
    have key : ∀ b, a.body = some b → Mid r b t v → (v'.need = v.need ∧ v'.asked = v.asked ∧ hundreds [w] = 0) := fun b _ hm =>
      have hx := Mid.emit hm he
      ⟨hx.2.1, (Mid.hundreds0 hx.1).2.trans (Mid.hundreds0 hm).2.symm, hx.2.2⟩
    cases hb : a.body with
    | none =>
      rw [hb] at h3
      have hx := Tail.emit h3 he
      refine ⟨⟨h1, h2, ?_⟩, Or.inl ⟨hx.2.1, (Tail.hundreds0 hx.1).2.trans (Tail.hundreds0 h3).2.symm, hx.2.2⟩⟩
      rw [hb]; exact hx.1
    | some b =>
      rw [hb] at h3
      refine ⟨⟨h1, h2, ?_⟩, Or.inl (key b hb h3)⟩
      rw [hb]; exact (Mid.emit h3 he).1
  | .eof :: t, h => by
    unfold Srv.emit at he
    rw [if_pos h.1] at he; cases he
  | .data _ _ :: t, h => h.elim
  | .eom _ :: t, h => h.elim

theorem Pre.emits {r : Nat} {wait : Bool} {left : Nat} {br : Bool} (hc : cfg.polite = true ∧ (wait = true → cfg.forgiving = true)) : ∀ (es : List Emit) {t : List Wire} {v : Srv}, Pre ans r t v → Stage wait left br t v →
    Pre ans r (t ++ (v.emits cfg ans es).1) (v.emits cfg ans es).2 ∧ Stage wait left br (t ++ (v.emits cfg ans es).1) (v.emits cfg ans es).2 := by
  intro es
  induction es with
  | nil => intro t v h hs; simpa [Srv.emits] using ⟨h, hs⟩
  | cons e es ih =>
    intro t v h hs
    unfold Srv.emits
    split
    · rename_i w v' he
      dsimp only
      have hx := Pre.emit ⟨hc.1, fun ha => hc.2 (by
        cases wait with
        | true => rfl
        | false => simp only [Stage, Bool.false_eq_true, if_false] at hs; rw [hs.1] at ha; cases ha)⟩ he h
      have hst : Stage wait left br (t ++ [w]) v' := by
        have ha := hundreds_append t [w]
        cases wait with
        | true =>
          simp only [Stage, if_true] at hs ⊢
          rcases hx.2 with ⟨h1, h2, h3⟩ | ⟨h1, h2, h3, h4⟩ | ⟨h1, h2, h3, h4⟩
          · rw [h1, h2, ha, h3]; exact hs
          · rcases hs with ⟨a1, a2, a3⟩ | ⟨a1, a2, a3⟩ | ⟨a1, a2, a3⟩
            · exact Or.inr (Or.inl ⟨h2, by omega, by omega⟩)
            · rw [h1] at a1; cases a1
            · rw [h1] at a1; cases a1
          · rcases hs with ⟨a1, a2, a3⟩ | ⟨a1, a2, a3⟩ | ⟨a1, a2, a3⟩
            · exact Or.inr (Or.inr ⟨h2, by omega, by omega⟩)
            · rw [h1] at a1; cases a1
            · rw [h1] at a1; cases a1
        | false =>
          simp only [Stage, if_false, Bool.false_eq_true] at hs ⊢
          rcases hx.2 with ⟨h1, h2, h3⟩ | ⟨h1, h2, h3, h4⟩ | ⟨h1, h2, h3, h4⟩
          · rw [h1, h2, ha, h3]; exact hs
          · rw [hs.1] at h1; cases h1
          · rw [hs.1] at h1; cases h1
      have hy := ih hx.1 hst
      rw [List.append_assoc] at hy
      exact hy
    · exact ih h hs

theorem Mid.emits {r : Nat} : ∀ (es : List Emit) {t : List Wire} {rem : List UInt8} {v : Srv}, Mid r rem t v →
    Mid r rem (t ++ (v.emits cfg ans es).1) (v.emits cfg ans es).2 ∧ (v.emits cfg ans es).2.need = v.need := by
  intro es
  induction es with
  | nil => intro t rem v h; simpa [Srv.emits] using h
  | cons e es ih =>
    intro t rem v h
    unfold Srv.emits
    split
    · rename_i w v' he
      dsimp only
      have hx := Mid.emit h he
      have hy := ih hx.1
      rw [List.append_assoc] at hy
      exact ⟨hy.1, hy.2.trans hx.2.1⟩
    · exact ih h

/-! ### Events -/

/-- What reading does not touch. -/
structure Same (s s' : St) : Prop where
  stream : s'.stream = s.stream
  left : s'.left = s.left
  pending : s'.pending = s.pending
  ropen : s'.ropen = s.ropen
  broken : s'.broken = s.broken
  next : s'.next = s.next
  last : s'.last = s.last
  log : s'.log = s.log
  ours : s'.ours = s.ours ∨ (s.ours = .done ∧ s'.ours = .mustClose)

theorem Same.refl (s : St) : Same s s := ⟨rfl, rfl, rfl, rfl, rfl, rfl, rfl, rfl, Or.inl rfl⟩

theorem Same.trans {a b c : St} (h : Same a b) (g : Same b c) : Same a c := by
  refine ⟨g.stream.trans h.stream, g.left.trans h.left, g.pending.trans h.pending, g.ropen.trans h.ropen, g.broken.trans h.broken, g.next.trans h.next, g.last.trans h.last, g.log.trans h.log, ?_⟩
  rcases g.ours with g1 | ⟨g1, g2⟩
  · rw [g1]; exact h.ours
  · rcases h.ours with h1 | ⟨h1, h2⟩
    · exact Or.inr ⟨h1 ▸ g1, g2⟩
    · rw [h2] at g1; cases g1

theorem same_settle (s : St) : Same s (settle s) := by
  unfold settle
  split
  · exact Same.refl s
  · refine ⟨rfl, rfl, rfl, rfl, rfl, rfl, rfl, rfl, ?_⟩
    by_cases h : s.ours = .done
    · exact Or.inr ⟨h, if_pos h⟩
    · exact Or.inl (if_neg h)

theorem same_pull (s : St) : Same s (pull s).2 := by
  unfold pull
  split
  · split
    · refine Same.trans ?_ (same_settle _); exact ⟨rfl, rfl, rfl, rfl, rfl, rfl, rfl, rfl, Or.inl rfl⟩
    · exact ⟨rfl, rfl, rfl, rfl, rfl, rfl, rfl, rfl, Or.inl rfl⟩
    · exact ⟨rfl, rfl, rfl, rfl, rfl, rfl, rfl, rfl, Or.inl rfl⟩
  · split
    · refine Same.trans ?_ (same_settle _); exact ⟨rfl, rfl, rfl, rfl, rfl, rfl, rfl, rfl, Or.inl rfl⟩
    · exact ⟨rfl, rfl, rfl, rfl, rfl, rfl, rfl, rfl, Or.inl rfl⟩
    · exact ⟨rfl, rfl, rfl, rfl, rfl, rfl, rfl, rfl, Or.inl rfl⟩
  · exact ⟨rfl, rfl, rfl, rfl, rfl, rfl, rfl, rfl, Or.inl rfl⟩

theorem same_next : ∀ (env : List Env) (b : Bool) (s : St), Same s (nextEvent cfg ans b s env).2.1 := by
  intro env
  induction env with
  | nil =>
    intro b s
    have h := same_pull s
    unfold nextEvent
    split <;> (rename_i hp; rw [hp] at h; exact h)
  | cons x env ih =>
    intro b s
    have h := same_pull s
    unfold nextEvent
    split
    · rename_i hp; rw [hp] at h; exact h
    · rename_i s1 hp
      rw [hp] at h
      split
      · split
        · refine h.trans (Same.trans ?_ (ih _ _)); exact ⟨rfl, rfl, rfl, rfl, rfl, rfl, rfl, rfl, Or.inl rfl⟩
        · refine h.trans (Same.trans ?_ (ih _ _)); exact ⟨rfl, rfl, rfl, rfl, rfl, rfl, rfl, rfl, Or.inl rfl⟩
      · exact h
      · exact h
    · rename_i hp; rw [hp] at h; exact h

theorem settle_buf (s : St) : (settle s).buf = s.buf ∧ (settle s).srv = s.srv ∧ (settle s).framed = s.framed ∧ (settle s).empty = s.empty ∧ (settle s).ka = s.ka := by
  unfold settle; split <;> exact ⟨rfl, rfl, rfl, rfl, rfl⟩

theorem settle_theirs {s : St} (h : s.theirs = .sendBody) : (settle s).theirs = .sendBody := by
  unfold settle
  split
  · exact h
  · show (if s.theirs = .done then S.mustClose else s.theirs) = _
    rw [if_neg (by rw [h]; exact fun e => by cases e)]; exact h

/-- What comes out of the buffer while the head is expected. -/
theorem headEv_pre {r : Nat} {wait : Bool} {left : Nat} {br : Bool} {v : Srv} : ∀ {l : List Wire}, Pre ans r l v → Stage wait left br l v →
    (headEv l = (.need, [])  ∧ Pre ans r [] v ∧ Stage wait left br [] v) ∨ (headEv l).1 = .perr ∨
    (∃ t, headEv l = (.cont, t) ∧ wait = true ∧ Pre ans r t v ∧ v.asked = false ∧ hundreds t = 0 ∧ v.need = left) ∨
    (∃ t, headEv l = (.response r (ans r), t) ∧ v.asked = false ∧ (br = true ∨ v.need = 0) ∧ match (ans r).body with | none => Tail t v | some b => Mid r b t v)
  | [], h, hs => Or.inl ⟨rfl, h, hs⟩
  | .info c :: t, h, hs => by
    unfold headEv
    by_cases h1 : c = 101
    · rw [if_pos h1]; exact Or.inr (Or.inl rfl)
    · rw [if_neg h1]
      by_cases h2 : c = 100
      · rw [if_pos h2]
        subst h2
        refine Or.inr (Or.inr (Or.inl ⟨t, rfl, ?_⟩))
        cases wait with
        | false =>
          simp only [Stage, if_false, Bool.false_eq_true, hundreds, if_true] at hs
          omega
        | true =>
          simp only [Stage, if_true, hundreds] at hs
          rcases hs with ⟨a1, a2, a3⟩ | ⟨a1, a2, a3⟩ | ⟨a1, a2, a3⟩
          · omega
          · exact ⟨rfl, h, a1, by omega, a3⟩
          · omega
      · rw [if_neg h2]
        refine headEv_pre (l := t) h ?_
        simpa [Stage, hundreds, h2] using hs
  | .head r' a :: t, h, hs => by
    obtain ⟨rfl, rfl, h3⟩ := h
    refine Or.inr (Or.inr (Or.inr ⟨t, rfl, ?_⟩))
    have hz : hundreds t = 0 ∧ v.asked = false := by
      cases hb : (ans r').body with
      | none => rw [hb] at h3; exact Tail.hundreds0 h3
      | some b => rw [hb] at h3; exact Mid.hundreds0 h3
    refine ⟨hz.2, ?_, h3⟩
    cases wait with
    | false => simp only [Stage, if_false, Bool.false_eq_true] at hs; exact hs.2.2
    | true =>
      simp only [Stage, if_true, hundreds] at hs
      rcases hs with ⟨a1, a2, a3⟩ | ⟨a1, a2, a3⟩ | ⟨a1, a2, a3⟩
      · rw [hz.2] at a1; cases a1
      · omega
      · exact Or.inr a3
  | .eof :: t, h, hs => Or.inr (Or.inl rfl)
  | .data _ _ :: t, h, hs => h.elim
  | .eom _ :: t, h, hs => h.elim

/-- The state after the head of the answer was read. -/
structure GotHead (ans : Nat → Ans) (r : Nat) (s : St) : Prop where
  theirs : s.theirs = .sendBody
  framed : s.framed = (ans r).framed
  empty : s.empty = (ans r).body.isNone
  asked : s.srv.asked = false
  need : s.broken = true ∨ s.srv.need = 0
  wire : match (ans r).body with | none => Tail s.buf s.srv | some b => Mid r b s.buf s.srv

/-- The state after `100 Continue` was read. -/
structure GotCont (ans : Nat → Ans) (r left : Nat) (s : St) : Prop where
  theirs : s.theirs = .sendResponse
  pre : Pre ans r s.buf s.srv
  asked : s.srv.asked = false
  none : hundreds s.buf = 0
  need : s.srv.need = left

theorem pull_head {r : Nat} {wait : Bool} {left : Nat} {s : St} (ht : s.theirs = .sendResponse) (hp : Pre ans r s.buf s.srv) (hs : Stage wait left s.broken s.buf s.srv) :
    (pull s = (.need, { s with buf := [] }) ∧ Pre ans r [] s.srv ∧ Stage wait left s.broken [] s.srv) ∨ (∃ s1, pull s = (.perr, s1)) ∨
    (∃ s1, pull s = (.cont, s1) ∧ wait = true ∧ GotCont ans r left s1) ∨ (∃ s1, pull s = (.response r (ans r), s1) ∧ GotHead ans r s1) := by
  have h := headEv_pre hp hs
  obtain ⟨stream, ours, theirs, ka, framed, empty, lf, buf, pending, ropen, broken, srv, next, last, log⟩ := s
  dsimp only at ht h
  subst ht
  unfold pull
  dsimp only
  rcases h with ⟨h1, h2⟩ | h1 | ⟨t, h1, h2, h3, h4, h5, h6⟩ | ⟨t, h1, h2, h3, h4⟩
  · rw [h1]; exact Or.inl ⟨rfl, h2⟩
  · generalize headEv buf = x at h1
    obtain ⟨x1, x2⟩ := x
    cases h1
    exact Or.inr (Or.inl ⟨_, rfl⟩)
  · rw [h1]; exact Or.inr (Or.inr (Or.inl ⟨_, rfl, h2, rfl, h3, h4, h5, h6⟩))
  · rw [h1]
    refine Or.inr (Or.inr (Or.inr ⟨_, rfl, ?_⟩))
    refine ⟨settle_theirs rfl, (settle_buf _).2.2.1, (settle_buf _).2.2.2.1, ?_, ?_, ?_⟩
    · rw [(settle_buf _).2.1]; exact h2
    · rw [(settle_buf _).2.1, (same_settle _).broken]; exact h3
    · rw [(settle_buf _).2.1, (settle_buf _).1]; exact h4

/-- What `_next_event` returns while the head of the answer is expected. -/
theorem next_head {r : Nat} {wait : Bool} {left : Nat} (hc : cfg.polite = true ∧ (wait = true → cfg.forgiving = true)) : ∀ (env : List Env) (b : Bool) (s : St), s.theirs = .sendResponse → Pre ans r s.buf s.srv →
    Stage wait left s.broken s.buf s.srv →
    (∃ e, (nextEvent cfg ans b s env).1 = .error e) ∨
    ((nextEvent cfg ans b s env).1 = .ok .cont ∧ wait = true ∧ GotCont ans r left (nextEvent cfg ans b s env).2.1) ∨
    ((nextEvent cfg ans b s env).1 = .ok (.response r (ans r)) ∧ GotHead ans r (nextEvent cfg ans b s env).2.1) := by
  intro env
  induction env with
  | nil =>
    intro b s ht hp hs
    unfold nextEvent
    rcases pull_head ht hp hs with ⟨h1, h2⟩ | ⟨s1, h1⟩ | ⟨s1, h1, h2⟩ | ⟨s1, h1, h2⟩ <;> rw [h1]
    · exact Or.inl ⟨_, rfl⟩
    · exact Or.inl ⟨_, rfl⟩
    · exact Or.inr (Or.inl ⟨rfl, h2⟩)
    · exact Or.inr (Or.inr ⟨rfl, h2⟩)
  | cons x env ih =>
    intro b s ht hp hs
    unfold nextEvent
    rcases pull_head ht hp hs with ⟨h1, h2, h3⟩ | ⟨s1, h1⟩ | ⟨s1, h1, h2⟩ | ⟨s1, h1, h2⟩ <;> rw [h1]
    · cases x with
      | ok => exact Or.inl ⟨_, rfl⟩
      | timeout => exact Or.inl ⟨_, rfl⟩
      | closed => exact Or.inl ⟨_, rfl⟩
      | read es =>
        dsimp only
        split
        · rename_i he
          exact ih _ _ ht ⟨he, rfl⟩ (by simpa [Stage, hundreds] using h3)
        · have hx := Pre.emits (cfg := cfg) hc es h2 h3
          exact ih _ _ ht hx.1 hx.2
    · exact Or.inl ⟨_, rfl⟩
    · exact Or.inr (Or.inl ⟨rfl, h2⟩)
    · exact Or.inr (Or.inr ⟨rfl, h2⟩)

/-- Reading the body: `rem` is still to be read. -/
structure InBody (r : Nat) (rem : List UInt8) (fr : Bool) (s : St) : Prop where
  theirs : s.theirs = .sendBody
  framed : s.framed = fr
  empty : s.empty = false
  need : s.broken = true ∨ s.srv.need = 0
  wire : Mid r rem s.buf s.srv

/-- The answer has been read. -/
structure Read (s : St) : Prop where
  rest : s.srv.rest = []
  cur : s.srv.cur = none ∨ s.srv.eof = true
  asked : s.srv.asked = false
  buf : s.buf = [] ∨ (s.buf = [.eof] ∧ s.srv.eof = true)
  need : s.broken = true ∨ s.srv.need = 0

theorem bodyEv_mid {r : Nat} {rem : List UInt8} {fr : Bool} {v : Srv} : ∀ {l : List Wire}, Mid r rem l v →
    (bodyEv fr false l = (.need, []) ∧ l = []) ∨ (bodyEv fr false l).1 = .perr ∨
    (∃ b rem' t, bodyEv fr false l = (.data b, t) ∧ rem = b ++ rem' ∧ Mid r rem' t v) ∨
    (∃ t, bodyEv fr false l = (.eom, t) ∧ (fr = true → rem = []) ∧ v.rest = [] ∧ (v.cur = none ∨ v.eof = true) ∧ v.asked = false ∧ (t = [] ∨ (t = [.eof] ∧ v.eof = true)))
  | [], h => Or.inl ⟨rfl, rfl⟩
  | .data _ b :: t, h => by
    obtain ⟨rem', h1, h2⟩ := h
    exact Or.inr (Or.inr (Or.inl ⟨b, rem', t, rfl, h1, h2⟩))
  | .eom _ :: t, h => by
    obtain ⟨h1, h2, h3, h4, h5⟩ := h
    exact Or.inr (Or.inr (Or.inr ⟨t, rfl, fun _ => h1, h2, Or.inl h3, h4, h5⟩))
  | .eof :: t, h => by
    obtain ⟨h1, h2, h3, h4⟩ := h
    subst h4
    cases fr with
    | true => exact Or.inr (Or.inl rfl)
    | false => exact Or.inr (Or.inr (Or.inr ⟨[.eof], rfl, fun h => (by cases h), h1, Or.inr h3, h2, Or.inr ⟨rfl, h3⟩⟩))
  | .info _ :: t, h => h.elim
  | .head _ _ :: t, h => h.elim

theorem pull_body {r : Nat} {rem : List UInt8} {fr : Bool} {s : St} (hi : InBody r rem fr s) :
    (pull s = (.need, s) ∧ s.buf = []) ∨ (∃ s1, pull s = (.perr, s1) ∧ s1.theirs = .error) ∨
    (∃ d rem' s1, pull s = (.data d, s1) ∧ rem = d ++ rem' ∧ InBody r rem' fr s1) ∨
    (∃ s1, pull s = (.eom, s1) ∧ (fr = true → rem = []) ∧ Read s1) := by
  obtain ⟨ht, hf, he, hn, hw⟩ := hi
  have h := bodyEv_mid (fr := fr) hw
  obtain ⟨stream, ours, theirs, ka, framed, empty, lf, buf, pending, ropen, broken, srv, next, last, log⟩ := s
  dsimp only at ht hf he hn hw h
  subst ht hf he
  unfold pull
  dsimp only
  rcases h with ⟨h1, h2⟩ | h1 | ⟨d, rem', t, h1, h2, h3⟩ | ⟨t, h1, h2, h3, h4, h5, h6⟩
  · rw [h1]; subst h2; exact Or.inl ⟨rfl, rfl⟩
  · generalize bodyEv framed false buf = x at h1
    obtain ⟨x1, x2⟩ := x
    cases h1
    exact Or.inr (Or.inl ⟨_, rfl, rfl⟩)
  · rw [h1]; exact Or.inr (Or.inr (Or.inl ⟨d, rem', _, rfl, h2, rfl, rfl, rfl, hn, h3⟩))
  · rw [h1]
    refine Or.inr (Or.inr (Or.inr ⟨_, rfl, h2, ?_⟩))
    refine ⟨?_, ?_, ?_, ?_, ?_⟩
    · rw [(settle_buf _).2.1]; exact h3
    · rw [(settle_buf _).2.1]; exact h4
    · rw [(settle_buf _).2.1]; exact h5
    · rw [(settle_buf _).2.1, (settle_buf _).1]; exact h6
    · rw [(settle_buf _).2.1, (same_settle _).broken]; exact hn

/-- What `_next_event` returns while the body is expected. -/
theorem next_body {r : Nat} {rem : List UInt8} {fr : Bool} : ∀ (env : List Env) (b : Bool) (s : St), InBody r rem fr s →
    (∃ e, (nextEvent cfg ans b s env).1 = .error e ∧ ((nextEvent cfg ans b s env).2.1.theirs = .error ∨ InBody r rem fr (nextEvent cfg ans b s env).2.1)) ∨
    (∃ d rem', (nextEvent cfg ans b s env).1 = .ok (.data d) ∧ rem = d ++ rem' ∧ InBody r rem' fr (nextEvent cfg ans b s env).2.1) ∨
    ((nextEvent cfg ans b s env).1 = .ok .eom ∧ (fr = true → rem = []) ∧ Read (nextEvent cfg ans b s env).2.1) := by
  intro env
  induction env with
  | nil =>
    intro b s hi
    unfold nextEvent
    rcases pull_body hi with ⟨h1, h2⟩ | ⟨s1, h1, h2⟩ | ⟨d, rem', s1, h1, h2, h3⟩ | ⟨s1, h1, h2⟩ <;> rw [h1]
    · exact Or.inl ⟨_, rfl, Or.inr hi⟩
    · exact Or.inl ⟨_, rfl, Or.inl h2⟩
    · exact Or.inr (Or.inl ⟨d, rem', rfl, h2, h3⟩)
    · exact Or.inr (Or.inr ⟨rfl, h2⟩)
  | cons x env ih =>
    intro b s hi
    unfold nextEvent
    rcases pull_body hi with ⟨h1, h2⟩ | ⟨s1, h1, h2⟩ | ⟨d, rem', s1, h1, h2, h3⟩ | ⟨s1, h1, h2⟩ <;> rw [h1]
    · have hw : Mid r rem [] s.srv := h2 ▸ hi.wire
      cases x with
      | ok => exact Or.inl ⟨_, rfl, Or.inr hi⟩
      | timeout => exact Or.inl ⟨_, rfl, Or.inr hi⟩
      | closed => exact Or.inl ⟨_, rfl, Or.inr hi⟩
      | read es =>
        dsimp only
        split
        · rename_i he
          rw [hw.2.2.1] at he; cases he
        · have hm := Mid.emits (cfg := cfg) (ans := ans) es hw
          rw [h2]
          refine ih _ _ ⟨hi.theirs, hi.framed, hi.empty, ?_, hm.1⟩
          show s.broken = true ∨ _
          rw [hm.2]; exact hi.need
    · exact Or.inl ⟨_, rfl, Or.inl h2⟩
    · exact Or.inr (Or.inl ⟨d, rem', rfl, h2, h3⟩)
    · exact Or.inr (Or.inr ⟨rfl, h2⟩)

end Verif.Backend.Exchange
