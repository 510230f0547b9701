import Verif.Backend.ExchangeProof
/-
Property C81: the theorems.
-/

namespace Verif.Backend.Exchange

variable {cfg : Cfg} {ans : Nat → Ans}

/-! ### Steps of the connection -/

/-- What neither sending nor reading touches. -/
structure Kept (s s' : St) : Prop where
  stream : s'.stream = s.stream
  next : s'.next = s.next
  last : s'.last = s.last
  log : s'.log = s.log

theorem Kept.refl (s : St) : Kept s s := ⟨rfl, rfl, rfl, rfl⟩
theorem Kept.trans {a b c : St} (h : Kept a b) (g : Kept b c) : Kept a c := ⟨g.stream.trans h.stream, g.next.trans h.next, g.last.trans h.last, g.log.trans h.log⟩
theorem Same.kept {a b : St} (h : Same a b) : Kept a b := ⟨h.stream, h.next, h.last, h.log⟩

/-- Ready for the next request. -/
structure Ready (s : St) : Prop where
  ours : s.ours = .idle
  theirs : s.theirs = .idle
  pending : s.pending = none
  read : Read s

theorem Same.notIdle {a b : St} (h : Same a b) (hi : a.ours ≠ .idle) : b.ours ≠ .idle := by
  rcases h.ours with h1 | ⟨_, h1⟩
  · rw [h1]; exact hi
  · rw [h1]; exact fun e => by cases e

theorem finish_spec {s : St} (hr : Read s) (hi : s.ours ≠ .idle) :
    Kept s (finishCycle s).2 ∧ (finishCycle s).2.ropen = false ∧
    ((∃ e, (finishCycle s).1 = .error e ∧ (finishCycle s).2.ours ≠ .idle) ∨ ((finishCycle s).1 = .ok () ∧ ((finishCycle s).2.ours ≠ .idle ∨ Ready (finishCycle s).2))) := by
  unfold finishCycle
  dsimp only
  split
  · exact ⟨⟨rfl, rfl, rfl, rfl⟩, rfl, Or.inr ⟨rfl, Or.inr ⟨rfl, rfl, rfl, hr.rest, hr.cur, hr.asked, Or.inl rfl, hr.need⟩⟩⟩
  · split
    · exact ⟨⟨rfl, rfl, rfl, rfl⟩, rfl, Or.inr ⟨rfl, Or.inr ⟨rfl, rfl, rfl, hr.rest, hr.cur, hr.asked, hr.buf, hr.need⟩⟩⟩
    · split
      · exact ⟨⟨rfl, rfl, rfl, rfl⟩, rfl, Or.inr ⟨rfl, Or.inl hi⟩⟩
      · exact ⟨⟨rfl, rfl, rfl, rfl⟩, rfl, Or.inl ⟨_, rfl, hi⟩⟩

theorem pull_empty {s : St} (ht : s.theirs = .sendBody) (he : s.empty = true) : pull s = (.eom, settle { s with theirs := .done }) := by
  obtain ⟨stream, ours, theirs, ka, framed, empty, lf, buf, pending, ropen, broken, srv, next, last, log⟩ := s
  dsimp only at ht he
  subst ht he
  rfl

/-- What `_read_response` returns. -/
theorem readResponse_spec {r : Nat} {wait : Bool} {left : Nat} {s : St} (hc : cfg.polite = true ∧ (wait = true → cfg.forgiving = true)) (env : List Env) (ht : s.theirs = .sendResponse) (hp : Pre ans r s.buf s.srv)
    (hs : Stage wait left s.broken s.buf s.srv) (hi : s.ours ≠ .idle) (ho : s.ropen = false) :
    Kept s (readResponse cfg ans s env).2.1 ∧
    ((∃ e, (readResponse cfg ans s env).1 = .error e ∧ (readResponse cfg ans s env).2.1.ours ≠ .idle ∧ (readResponse cfg ans s env).2.1.ropen = false) ∨
     ((readResponse cfg ans s env).1 = .ok .cont ∧ wait = true ∧ GotCont ans r left (readResponse cfg ans s env).2.1 ∧ Same s (readResponse cfg ans s env).2.1) ∨
     ((readResponse cfg ans s env).1 = .ok (.final r (ans r).status) ∧
       (((ans r).body = none ∧ (readResponse cfg ans s env).2.1.ropen = false ∧ ((readResponse cfg ans s env).2.1.ours ≠ .idle ∨ Ready (readResponse cfg ans s env).2.1)) ∨
        (∃ b, (ans r).body = some b ∧ (readResponse cfg ans s env).2.1.ropen = true ∧ (readResponse cfg ans s env).2.1.ours ≠ .idle ∧ (readResponse cfg ans s env).2.1.pending = s.pending ∧
          InBody r b (ans r).framed (readResponse cfg ans s env).2.1)))) := by
  have hn := next_head (ans := ans) hc env false s ht hp hs
  have hsm := same_next (cfg := cfg) (ans := ans) env false s
  unfold readResponse
  generalize nextEvent cfg ans false s env = x at hn hsm
  obtain ⟨x1, s1, env1⟩ := x
  dsimp only at hn hsm
  rcases hn with ⟨e, rfl⟩ | ⟨rfl, h2, h3⟩ | ⟨rfl, h2⟩
  · exact ⟨hsm.kept, Or.inl ⟨e, rfl, hsm.notIdle hi, hsm.ropen.trans ho⟩⟩
  · exact ⟨hsm.kept, Or.inr (Or.inl ⟨rfl, h2, h3, hsm⟩)⟩
  · dsimp only
    unfold makeResponse
    cases hb : (ans r).body with
    | none =>
      have hw := h2.wire
      rw [hb] at hw
      have he : s1.empty = true := by rw [h2.empty, hb]; rfl
      rw [if_pos he, pull_empty h2.theirs he]
      dsimp only
      have hr : Read (settle { s1 with theirs := .done }) := by
        refine ⟨?_, ?_, ?_, ?_, ?_⟩
        · rw [(settle_buf _).2.1]; exact hw.1
        · rw [(settle_buf _).2.1]; exact Or.inl hw.2.1
        · rw [(settle_buf _).2.1]; exact hw.2.2.1
        · rw [(settle_buf _).2.1, (settle_buf _).1]; exact hw.2.2.2
        · rw [(settle_buf _).2.1, (same_settle _).broken]; exact h2.need
      have hi2 : (settle { s1 with theirs := .done }).ours ≠ .idle := (same_settle _).notIdle (hsm.notIdle hi)
      have hk : Kept s (settle { s1 with theirs := .done }) := hsm.kept.trans (Kept.trans (b := { s1 with theirs := .done }) ⟨rfl, rfl, rfl, rfl⟩ (same_settle _).kept)
      have hf := finish_spec hr hi2
      generalize finishCycle (settle { s1 with theirs := .done }) = y at hf
      obtain ⟨y1, s2⟩ := y
      dsimp only at hf
      rcases hf with ⟨f1, f2, ⟨e, rfl, f3⟩ | ⟨rfl, f3⟩⟩
      · exact ⟨hk.trans f1, Or.inl ⟨e, rfl, f3, f2⟩⟩
      · exact ⟨hk.trans f1, Or.inr (Or.inr ⟨rfl, Or.inl ⟨rfl, f2, f3⟩⟩)⟩
    | some b =>
      have hw := h2.wire
      rw [hb] at hw
      have he : s1.empty = false := by rw [h2.empty, hb]; rfl
      rw [if_neg (by rw [he]; exact fun e => by cases e)]
      exact ⟨hsm.kept.trans ⟨rfl, rfl, rfl, rfl⟩, Or.inr (Or.inr ⟨rfl, Or.inr ⟨b, rfl, rfl, hsm.notIdle hi, hsm.pending, h2.theirs, h2.framed, he, h2.need, hw⟩⟩)⟩

theorem Tail.setNeed {t : List Wire} {v : Srv} {n : Nat} (h : Tail t v) : Tail t { v with need := n } := h

theorem Mid.setNeed {r : Nat} {v : Srv} {n : Nat} : ∀ {t : List Wire} {rem : List UInt8}, Mid r rem t v → Mid r rem t { v with need := n }
  | [], _, h => h
  | .data _ b :: t, rem, h => by obtain ⟨rem', h1, h2⟩ := h; exact ⟨rem', h1, Mid.setNeed (t := t) h2⟩
  | .eom _ :: t, rem, h => h
  | .eof :: t, rem, h => h
  | .info _ :: t, rem, h => h.elim
  | .head _ _ :: t, rem, h => h.elim

theorem Pre.setNeed {r : Nat} {v : Srv} {n : Nat} : ∀ {t : List Wire}, Pre ans r t v → Pre ans r t { v with need := n }
  | [], h => h
  | .info _ :: t, h => Pre.setNeed (t := t) h
  | .head r' a :: t, h => by
    obtain ⟨h1, h2, h3⟩ := h
    refine ⟨h1, h2, ?_⟩
    cases hb : a.body with
    | none => rw [hb] at h3; exact h3
    | some b => rw [hb] at h3; exact Mid.setNeed h3
  | .eof :: t, h => h
  | .data _ _ :: t, h => h.elim
  | .eom _ :: t, h => h.elim

/-- A body is being sent: the server waits for exactly the rest of it. -/
structure Sending (ans : Nat → Ans) (r remaining : Nat) (s : St) : Prop where
  theirs : s.theirs = .sendResponse
  ours : s.ours = .sendBody
  pre : Pre ans r s.buf s.srv
  asked : s.srv.asked = false
  none : hundreds s.buf = 0
  need : s.srv.need = remaining
  left : s.left = remaining
  ropen : s.ropen = false

/-- What sending a body does not touch. -/
structure Sent (s s' : St) : Prop where
  kept : Kept s s'
  pending : s'.pending = s.pending

theorem Sent.trans {a b c : St} (h : Sent a b) (g : Sent b c) : Sent a c := ⟨h.kept.trans g.kept, g.pending.trans h.pending⟩

/-- One piece of a body. -/
theorem rawWrite_spec {r remaining n : Nat} {hid : Option Nat} {s : St} (h : Sending ans r remaining s) (hn : 0 < n) (hle : n ≤ remaining) (env : List Env) :
    Sent s (rawWrite { s with left := s.left - n } (.bytes n hid) env).2.1 ∧
    (((rawWrite { s with left := s.left - n } (.bytes n hid) env).1 = .ok () ∧ Sending ans r (remaining - n) (rawWrite { s with left := s.left - n } (.bytes n hid) env).2.1) ∨
     ∃ e, (rawWrite { s with left := s.left - n } (.bytes n hid) env).1 = .error e ∧ (rawWrite { s with left := s.left - n } (.bytes n hid) env).2.1.ours = .sendBody ∧
       (rawWrite { s with left := s.left - n } (.bytes n hid) env).2.1.ropen = false ∧
       (e = .closed → (rawWrite { s with left := s.left - n } (.bytes n hid) env).2.1.broken = true ∧ (rawWrite { s with left := s.left - n } (.bytes n hid) env).2.1.theirs = .sendResponse ∧
        Pre ans r (rawWrite { s with left := s.left - n } (.bytes n hid) env).2.1.buf (rawWrite { s with left := s.left - n } (.bytes n hid) env).2.1.srv ∧
        (rawWrite { s with left := s.left - n } (.bytes n hid) env).2.1.srv.asked = false ∧ hundreds (rawWrite { s with left := s.left - n } (.bytes n hid) env).2.1.buf = 0)) := by
  unfold rawWrite
  split
  · exact ⟨⟨⟨rfl, rfl, rfl, rfl⟩, rfl⟩, Or.inr ⟨_, rfl, h.ours, h.ropen, fun e => by cases e⟩⟩
  · exact ⟨⟨⟨rfl, rfl, rfl, rfl⟩, rfl⟩, Or.inr ⟨_, rfl, h.ours, h.ropen, fun _ => ⟨rfl, h.theirs, h.pre, h.asked, h.none⟩⟩⟩
  · split
    · rename_i hb
      exact ⟨⟨⟨rfl, rfl, rfl, rfl⟩, rfl⟩, Or.inr ⟨_, rfl, h.ours, h.ropen, fun _ => ⟨hb, h.theirs, h.pre, h.asked, h.none⟩⟩⟩
    · refine ⟨⟨⟨rfl, rfl, rfl, rfl⟩, rfl⟩, Or.inl ⟨rfl, ?_⟩⟩
      have ht : s.srv.take (.bytes n hid) = { s.srv with need := s.srv.need - n } := by
        have := h.need
        show (if s.srv.need = 0 then _ else _) = _
        rw [if_neg (by omega)]
      refine ⟨h.theirs, h.ours, ?_, ?_, h.none, ?_, ?_, h.ropen⟩
      · show Pre ans r s.buf (s.srv.take (.bytes n hid)); rw [ht]; exact h.pre.setNeed
      · show (s.srv.take (.bytes n hid)).asked = false; rw [ht]; exact h.asked
      · show (s.srv.take (.bytes n hid)).need = _; rw [ht]; show s.srv.need - n = _; rw [h.need]
      · show s.left - n = _; rw [h.left]

theorem stream_spec {r : Nat} : ∀ (l : List Item) (env : List Env) {remaining : Nat} {s : St}, Sending ans r remaining s →
    Sent s (streamBody s remaining l env).2.1 ∧
    (((streamBody s remaining l env).1 = .ok () ∧ Sending ans r 0 (streamBody s remaining l env).2.1) ∨
     ∃ e, (streamBody s remaining l env).1 = .error e ∧ (streamBody s remaining l env).2.1.ours = .sendBody ∧ (streamBody s remaining l env).2.1.ropen = false ∧
       (e = .closed → (streamBody s remaining l env).2.1.broken = true ∧ (streamBody s remaining l env).2.1.theirs = .sendResponse ∧
        Pre ans r (streamBody s remaining l env).2.1.buf (streamBody s remaining l env).2.1.srv ∧
        (streamBody s remaining l env).2.1.srv.asked = false ∧ hundreds (streamBody s remaining l env).2.1.buf = 0)) := by
  intro l
  induction l with
  | nil =>
    intro env remaining s h
    unfold streamBody
    split
    · exact ⟨⟨Kept.refl s, rfl⟩, Or.inr ⟨_, rfl, h.ours, h.ropen, fun e => by cases e⟩⟩
    · rename_i h0
      have : remaining = 0 := by omega
      subst this
      exact ⟨⟨Kept.refl s, rfl⟩, Or.inl ⟨rfl, h⟩⟩
  | cons i t ih =>
    intro env remaining s h
    have piece : ∀ (n : Nat) (hid : Option Nat), 0 < n → n ≤ remaining →
        Sent s (match rawWrite { s with left := s.left - n } (.bytes n hid) env with | (.ok _, s1, env1) => streamBody s1 (remaining - n) t env1 | r => r : R Unit).2.1 ∧
        (((match rawWrite { s with left := s.left - n } (.bytes n hid) env with | (.ok _, s1, env1) => streamBody s1 (remaining - n) t env1 | r => r : R Unit).1 = .ok () ∧
          Sending ans r 0 (match rawWrite { s with left := s.left - n } (.bytes n hid) env with | (.ok _, s1, env1) => streamBody s1 (remaining - n) t env1 | r => r : R Unit).2.1) ∨
         ∃ e, (match rawWrite { s with left := s.left - n } (.bytes n hid) env with | (.ok _, s1, env1) => streamBody s1 (remaining - n) t env1 | r => r : R Unit).1 = .error e ∧
           (match rawWrite { s with left := s.left - n } (.bytes n hid) env with | (.ok _, s1, env1) => streamBody s1 (remaining - n) t env1 | r => r : R Unit).2.1.ours = .sendBody ∧
           (match rawWrite { s with left := s.left - n } (.bytes n hid) env with | (.ok _, s1, env1) => streamBody s1 (remaining - n) t env1 | r => r : R Unit).2.1.ropen = false ∧
           (e = .closed → (match rawWrite { s with left := s.left - n } (.bytes n hid) env with | (.ok _, s1, env1) => streamBody s1 (remaining - n) t env1 | r => r : R Unit).2.1.broken = true ∧
            (match rawWrite { s with left := s.left - n } (.bytes n hid) env with | (.ok _, s1, env1) => streamBody s1 (remaining - n) t env1 | r => r : R Unit).2.1.theirs = .sendResponse ∧
            Pre ans r (match rawWrite { s with left := s.left - n } (.bytes n hid) env with | (.ok _, s1, env1) => streamBody s1 (remaining - n) t env1 | r => r : R Unit).2.1.buf
              (match rawWrite { s with left := s.left - n } (.bytes n hid) env with | (.ok _, s1, env1) => streamBody s1 (remaining - n) t env1 | r => r : R Unit).2.1.srv ∧
            (match rawWrite { s with left := s.left - n } (.bytes n hid) env with | (.ok _, s1, env1) => streamBody s1 (remaining - n) t env1 | r => r : R Unit).2.1.srv.asked = false ∧
            hundreds (match rawWrite { s with left := s.left - n } (.bytes n hid) env with | (.ok _, s1, env1) => streamBody s1 (remaining - n) t env1 | r => r : R Unit).2.1.buf = 0)) := by
      intro n hid hn hle
      have hw := rawWrite_spec (hid := hid) h hn hle env
      generalize rawWrite { s with left := s.left - n } (.bytes n hid) env = x at hw
      obtain ⟨x1, s1, env1⟩ := x
      dsimp only at hw
      rcases hw with ⟨w1, ⟨rfl, w2⟩ | ⟨e, rfl, w2⟩⟩
      · have hy := ih env1 w2
        exact ⟨w1.trans hy.1, hy.2⟩
      · exact ⟨w1, Or.inr ⟨e, rfl, w2⟩⟩
    unfold streamBody
    split
    · rename_i h0
      subst h0
      exact ⟨⟨Kept.refl s, rfl⟩, Or.inl ⟨rfl, h⟩⟩
    · cases i with
      | mem n hid =>
        dsimp only
        split
        · exact ⟨⟨Kept.refl s, rfl⟩, Or.inr ⟨_, rfl, h.ours, h.ropen, fun e => by cases e⟩⟩
        · split
          · exact ih env h
          · exact piece n hid (by omega) (by omega)
      | file n hid =>
        dsimp only
        split
        · exact ih env h
        · exact piece (min n remaining) hid (by omega) (by omega)

theorem same_eom {s : St} : Kept s (sendEom s).2 ∧ (sendEom s).2.pending = s.pending ∧ (sendEom s).2.ropen = s.ropen ∧ (sendEom s).2.broken = s.broken ∧ (sendEom s).2.srv = s.srv ∧ (sendEom s).2.buf = s.buf ∧
    (sendEom s).2.ours ≠ .idle := by
  unfold sendEom
  split
  · exact ⟨⟨rfl, rfl, rfl, rfl⟩, rfl, rfl, rfl, rfl, rfl, fun e => by cases e⟩
  · have h := same_settle { s with ours := .done }
    exact ⟨⟨h.stream, h.next, h.last, h.log⟩, h.pending, h.ropen, h.broken, (settle_buf _).2.1, (settle_buf _).1, h.notIdle (fun e => by cases e)⟩

theorem eom_theirs {s : St} (h : s.theirs = .sendResponse) : (sendEom s).2.theirs = .sendResponse := by
  unfold sendEom
  split
  · exact h
  · show (settle { s with ours := .done }).theirs = _
    unfold settle
    split
    · exact h
    · show (if s.theirs = .done then S.mustClose else s.theirs) = _
      rw [if_neg (by rw [h]; exact fun e => by cases e)]; exact h

/-- What a request leads to: an exception, after which the connection is not used any more, or the right response. -/
def Outcome (ans : Nat → Ans) (r : Nat) (s : St) (x : R Resp) : Prop :=
  (x.2.1.next = s.next ∧ x.2.1.last = s.last ∧ x.2.1.log = s.log) ∧
  ((∃ e, x.1 = .error e ∧ (x.2.1.stream = false ∨ (x.2.1.ours ≠ .idle ∧ x.2.1.ropen = false))) ∨
   (x.1 = .ok (.final r (ans r).status) ∧
     (((ans r).body = none ∧ x.2.1.ropen = false ∧ (x.2.1.ours ≠ .idle ∨ Ready x.2.1)) ∨
      (∃ b, (ans r).body = some b ∧ x.2.1.ropen = true ∧ x.2.1.ours ≠ .idle ∧ x.2.1.pending = some r ∧ InBody r b (ans r).framed x.2.1))))

/-- The response is read after the body. -/
theorem readFinal_spec (hc : cfg.polite = true) {r : Nat} {s0 s : St} (env : List Env) (hk : Kept s0 s) (ht : s.theirs = .sendResponse) (hp : Pre ans r s.buf s.srv)
    (ha : s.srv.asked = false) (hh : hundreds s.buf = 0) (hn : s.broken = true ∨ s.srv.need = 0) (hi : s.ours ≠ .idle) (ho : s.ropen = false) (hpe : s.pending = some r) :
    Outcome ans r s0 (readResponse cfg ans s env) := by
  have h := readResponse_spec (ans := ans) (wait := false) (left := 0) ⟨hc, fun e => nomatch e⟩ env ht hp (by simp only [Stage, Bool.false_eq_true, if_false]; exact ⟨ha, hh, hn⟩) hi ho
  obtain ⟨h1, h2⟩ := h
  refine ⟨⟨h1.next.trans hk.next, h1.last.trans hk.last, h1.log.trans hk.log⟩, ?_⟩
  rcases h2 with ⟨e, h2, h3⟩ | ⟨_, h2, _⟩ | ⟨h2, h3⟩
  · exact Or.inl ⟨e, h2, Or.inr h3⟩
  · cases h2
  · refine Or.inr ⟨h2, ?_⟩
    rcases h3 with h3 | ⟨b, g1, g2, g3, g4, g5⟩
    · exact Or.inl h3
    · exact Or.inr ⟨b, g1, g2, g3, g4.trans hpe, g5⟩

theorem sendRest_spec (hc : cfg.polite = true) {r : Nat} {q : Req} {s0 s : St} (env : List Env) (hk : Kept s0 s) (h : Sending ans r q.len s) (hpe : s.pending = some r) :
    Outcome ans r s0 (sendRest cfg ans s q env) := by
  have hs := stream_spec q.body env h
  unfold sendRest
  generalize streamBody s q.len q.body env = x at hs
  obtain ⟨x1, s1, env1⟩ := x
  dsimp only at hs
  rcases hs with ⟨h1, ⟨rfl, h2⟩ | ⟨e, rfl, h2, h3, h4⟩⟩
  · dsimp only
    have hm := @same_eom s1
    have htt := eom_theirs h2.theirs
    have hl : (sendEom s1).1 = .ok () := by
      unfold sendEom; rw [if_neg (fun hne : s1.left ≠ 0 => hne h2.left)]
    generalize sendEom s1 = y at hm htt hl
    obtain ⟨y1, s2⟩ := y
    dsimp only at hm htt hl
    subst hl
    dsimp only
    obtain ⟨m1, m2, m3, m4, m5, m6, m7⟩ := hm
    exact readFinal_spec hc env1 ((hk.trans h1.kept).trans m1) htt (by rw [m5, m6]; exact h2.pre) (by rw [m5]; exact h2.asked) (by rw [m6]; exact h2.none) (Or.inr (by rw [m5]; exact h2.need)) m7
      (m3.trans h2.ropen) (m2.trans (h1.pending.trans hpe))
  · by_cases he : e = .closed
    · subst he
      obtain ⟨g1, g2, g3, g4, g5⟩ := h4 rfl
      dsimp only
      have hf := readFinal_spec (cfg := cfg) hc env1 (hk.trans h1.kept) g2 g3 g4 g5 (Or.inl g1) (by rw [h2]; exact fun e => by cases e) h3 (h1.pending.trans hpe)
      generalize readResponse cfg ans s1 env1 = y at hf
      obtain ⟨y1, s2, env2⟩ := y
      cases y1 with
      | ok r => exact hf
      | error e => exact ⟨hf.1, Or.inl ⟨_, rfl, Or.inl rfl⟩⟩
    · have hk1 := hk.trans h1.kept
      have hout : Outcome ans r s0 (.error e, s1, env1) := ⟨⟨hk1.next, hk1.last, hk1.log⟩, Or.inl ⟨e, rfl, Or.inr ⟨(by rw [h2]; exact fun e => by cases e), h3⟩⟩⟩
      cases e <;> first | exact hout | exact absurd rfl he

theorem pre_head {s : St} {id : Nat} {q : Req} (h : Read s) (hb : s.broken = false) :
    Pre ans id s.buf (s.srv.take (.head id q.len q.size q.expect)) ∧ (s.srv.take (.head id q.len q.size q.expect)).asked = q.expect ∧ (s.srv.take (.head id q.len q.size q.expect)).need = q.len ∧ hundreds s.buf = 0 := by
  have hn : s.srv.need = 0 := by
    rcases h.need with h1 | h1
    · rw [hb] at h1; cases h1
    · exact h1
  have ht : s.srv.take (.head id q.len q.size q.expect) = { s.srv with rest := s.srv.rest ++ [id], need := q.len, asked := q.expect } := if_pos hn
  rw [ht]
  refine ⟨?_, rfl, rfl, ?_⟩
  · rcases h.buf with h1 | ⟨h1, h2⟩
    · rw [h1]
      rcases h.cur with h3 | h3
      · exact Or.inr ⟨by show s.srv.rest ++ [id] = _; rw [h.rest]; rfl, h3⟩
      · exact Or.inl h3
    · rw [h1]; exact ⟨h2, rfl⟩
  · rcases h.buf with h1 | ⟨h1, _⟩ <;> rw [h1] <;> rfl

theorem sendOn_spec {id : Nat} {q : Req} {s : St} (hc : cfg.polite = true ∧ (q.expect = true → cfg.forgiving = true)) (env : List Env) (h : Ready s) (hro : s.ropen = false) (hne : ¬ (q.expect = true ∧ q.body = [])) :
    Outcome ans id s (sendOn cfg ans s id q env) := by
  unfold sendOn
  rw [if_neg (by rw [h.ours, h.theirs]; rintro (e | e) <;> cases e), if_neg (by rw [hro, h.pending]; rintro (e | e); cases e; exact e rfl), if_neg (fun hn : s.ours ≠ .idle => hn h.ours)]
  unfold rawWrite
  split
  · rename_i hx
    split at hx
    · cases hx; exact ⟨⟨rfl, rfl, rfl⟩, Or.inl ⟨_, rfl, Or.inr ⟨fun e => (by cases e), hro⟩⟩⟩
    · cases hx; exact ⟨⟨rfl, rfl, rfl⟩, Or.inl ⟨_, rfl, Or.inr ⟨fun e => (by cases e), hro⟩⟩⟩
    · split at hx
      · cases hx; exact ⟨⟨rfl, rfl, rfl⟩, Or.inl ⟨_, rfl, Or.inr ⟨fun e => (by cases e), hro⟩⟩⟩
      · cases hx
  · rename_i s1 env1 hx
    split at hx
    · cases hx
    · cases hx
    · split at hx
      · cases hx
      · rename_i hbr
        have hbf : s.broken = false := by simpa using hbr
        have hp := pre_head (ans := ans) (id := id) (q := q) h.read hbf
        have e1 := (Prod.mk.inj (Prod.mk.inj hx).2).1
        subst e1
        dsimp only
        obtain ⟨p1, p2, p3, p4⟩ := hp
        by_cases hb : q.body = []
        · rw [if_pos hb]
          have hex : q.expect = false := by
            cases he : q.expect with
            | false => rfl
            | true => exact absurd ⟨he, hb⟩ hne
          rw [hex] at p1 p2 p3
          rw [hex]
          generalize hs2 : ({ s with ours := .sendBody, theirs := .sendResponse, left := q.len, srv := s.srv.take (.head id q.len q.size false), pending := some id } : St) = s2
          have hm := @same_eom s2
          have htt : (sendEom s2).2.theirs = .sendResponse := eom_theirs (by rw [← hs2])
          have hk : Kept s s2 := by rw [← hs2]; exact ⟨rfl, rfl, rfl, rfl⟩
          have hll : (sendEom s2).1 = .ok () → s2.left = 0 := by
            unfold sendEom
            split
            · intro e; cases e
            · rename_i hz; intro _; exact Decidable.not_not.1 hz
          generalize sendEom s2 = y at hm htt hll
          obtain ⟨y1, s3⟩ := y
          dsimp only at hm htt hll
          obtain ⟨m1, m2, m3, m4, m5, m6, m7⟩ := hm
          have hk2 := hk.trans m1
          cases y1 with
          | error e => exact ⟨⟨hk2.next, hk2.last, hk2.log⟩, Or.inl ⟨e, rfl, Or.inr ⟨m7, m3.trans (by rw [← hs2]; exact hro)⟩⟩⟩
          | ok _ =>
            have hl0 := hll rfl
            refine readFinal_spec hc.1 env1 hk2 htt ?_ ?_ ?_ (Or.inr ?_) m7 (m3.trans (by rw [← hs2]; exact hro)) (m2.trans (by rw [← hs2]))
            · rw [m5, m6, ← hs2]; exact p1
            · rw [m5, ← hs2]; exact p2
            · rw [m6, ← hs2]; exact p4
            · rw [m5]
              rw [← hs2] at hl0 ⊢
              exact p3.trans hl0
        · rw [if_neg hb]
          by_cases hex : q.expect = true
          · rw [if_pos hex]
            rw [hex] at p1 p2 p3
            rw [hex]
            generalize hs2 : ({ s with ours := .sendBody, theirs := .sendResponse, left := q.len, srv := s.srv.take (.head id q.len q.size true), pending := some id } : St) = s2
            have hk : Kept s s2 := by rw [← hs2]; exact ⟨rfl, rfl, rfl, rfl⟩
            have hr := readResponse_spec (cfg := cfg) (ans := ans) (r := id) (wait := true) (left := q.len) (s := s2) ⟨hc.1, fun _ => hc.2 hex⟩ env1 (by rw [← hs2]) (by rw [← hs2]; exact p1)
              (by rw [← hs2]; simp only [Stage, if_true]; exact Or.inl ⟨p2, p4, p3⟩) (by rw [← hs2]; exact fun e => by cases e) (by rw [← hs2]; exact hro)
            have hleft : s2.left = q.len := by rw [← hs2]
            have hours : s2.ours = .sendBody := by rw [← hs2]
            have hrop : s2.ropen = false := by rw [← hs2]; exact hro
            have hpend : s2.pending = some id := by rw [← hs2]
            generalize readResponse cfg ans s2 env1 = y at hr
            obtain ⟨y1, s3, env3⟩ := y
            dsimp only at hr
            obtain ⟨r1, r2⟩ := hr
            have hk3 := hk.trans r1
            rcases r2 with ⟨e, rfl, g⟩ | ⟨rfl, _, g1, g2⟩ | ⟨rfl, g⟩
            · exact ⟨⟨hk3.next, hk3.last, hk3.log⟩, Or.inl ⟨e, rfl, Or.inr g⟩⟩
            · refine sendRest_spec hc.1 env3 hk3 ⟨g1.theirs, ?_, g1.pre, g1.asked, g1.none, g1.need, g2.left.trans hleft, g2.ropen.trans hrop⟩ (g2.pending.trans hpend)
              rcases g2.ours with o | ⟨o, _⟩
              · exact o.trans hours
              · rw [hours] at o; cases o
            · refine ⟨⟨hk3.next, hk3.last, hk3.log⟩, Or.inr ⟨rfl, ?_⟩⟩
              rcases g with g | ⟨b, g1, g2, g3, g4, g5⟩
              · exact Or.inl g
              · exact Or.inr ⟨b, g1, g2, g3, g4.trans hpend, g5⟩
          · rw [if_neg hex]
            have hef : q.expect = false := by simpa using hex
            rw [hef] at p1 p2 p3
            rw [hef]
            exact sendRest_spec hc.1 env1 ⟨rfl, rfl, rfl, rfl⟩ ⟨rfl, rfl, p1, p2, p4, p3, rfl, hro⟩ rfl

/-! ### The invariant -/

theorem bytesOf_append (req : Nat) (a b : List Log) : bytesOf req (a ++ b) = bytesOf req a ++ bytesOf req b := by
  induction a with
  | nil => rfl
  | cons x t ih =>
    cases x with
    | resp _ _ => exact ih
    | fin _ => exact ih
    | data r d =>
      show (if r = req then d ++ bytesOf req (t ++ b) else bytesOf req (t ++ b)) = (if r = req then d ++ bytesOf req t else bytesOf req t) ++ bytesOf req b
      split
      · rw [ih, List.append_assoc]
      · exact ih

/-- All of the body has been read. -/
def Complete (ans : Nat → Ans) (req : Nat) (log : List Log) : Prop := (ans req).framed = true → bytesOf req log = (ans req).bytes

/-- In which phase the connection is. -/
inductive Phase (ans : Nat → Ans) (s : St) : Prop where
  | closed (h : s.stream = false)
  | ready (h : Ready s) (ho : s.ropen = false) (hl : ∀ r, s.last = some r → Complete ans r s.log)
  | body (r : Nat) (rem : List UInt8) (h : InBody r rem (ans r).framed s) (hp : s.pending = some r) (ho : s.ropen = true) (hi : s.ours ≠ .idle) (hn : r < s.next)
      (hb : bytesOf r s.log ++ rem = (ans r).bytes) (hf : Log.fin r ∉ s.log) (hl : ∀ r', s.last = some r' → r' = r)
  | stuck (ht : s.theirs = .error) (ho : s.ropen = true)
  | dead (hi : s.ours ≠ .idle) (ho : s.ropen = false) (hl : ∀ r, s.last = some r → Complete ans r s.log)

structure G (ans : Nat → Ans) (s : St) : Prop where
  right : Right ans s.log
  new : ∀ req, s.next ≤ req → bytesOf req s.log = [] ∧ Log.fin req ∉ s.log
  last : ∀ r, s.last = some r → r < s.next
  phase : Phase ans s

theorem G.init : G ans .init := ⟨⟨(fun _ _ h => nomatch h), fun _ => List.nil_prefix, (fun _ h => nomatch h)⟩, fun _ _ => ⟨rfl, fun h => nomatch h⟩, (fun _ h => nomatch h), .closed rfl⟩

theorem Right.addFin {log : List Log} {r : Nat} (h : Right ans log) (hc : Complete ans r log) : Right ans (log ++ [.fin r]) := by
  have hb : ∀ q, bytesOf q (log ++ [.fin r]) = bytesOf q log := fun q => by rw [bytesOf_append]; exact List.append_nil _
  refine ⟨?_, ?_, ?_⟩
  · intro req a hm
    rcases List.mem_append.1 hm with hm | hm
    · exact h.resp req a hm
    · simp at hm
  · intro req; rw [hb]; exact h.bytes req
  · intro req hm hf
    rw [hb]
    rcases List.mem_append.1 hm with hm | hm
    · exact h.fin req hm hf
    · have : req = r := by simpa using hm
      subst this; exact hc hf

theorem Right.addResp {log : List Log} {r : Nat} (h : Right ans log) : Right ans (log ++ [.resp r (.final r (ans r).status)]) := by
  have hb : ∀ q, bytesOf q (log ++ [.resp r (.final r (ans r).status)]) = bytesOf q log := fun q => by rw [bytesOf_append]; exact List.append_nil _
  refine ⟨?_, ?_, ?_⟩
  · intro req a hm
    rcases List.mem_append.1 hm with hm | hm
    · exact h.resp req a hm
    · have := Log.resp.inj (List.mem_singleton.1 hm)
      rw [this.1, this.2]
  · intro req; rw [hb]; exact h.bytes req
  · intro req hm hf
    rw [hb]
    rcases List.mem_append.1 hm with hm | hm
    · exact h.fin req hm hf
    · simp at hm

theorem G.noteFin {s : St} (h : G ans s) (hc : ∀ r, s.last = some r → Complete ans r s.log) (hph : s.ropen = false) : G ans (noteFin s) := by
  unfold Exchange.noteFin
  split
  · rename_i r hr
    have hb : ∀ q, bytesOf q (s.log ++ [.fin r]) = bytesOf q s.log := fun q => by rw [bytesOf_append]; exact List.append_nil _
    refine ⟨h.right.addFin (hc r hr), ?_, h.last, ?_⟩
    · intro req hle
      refine ⟨(hb req).trans (h.new req hle).1, ?_⟩
      intro hm
      rcases List.mem_append.1 hm with hm | hm
      · exact (h.new req hle).2 hm
      · have : req = r := by simpa using hm
        have := h.last r hr
        show False
        have hle' : s.next ≤ req := hle
        omega
    · have hl : ∀ r', s.last = some r' → Complete ans r' (s.log ++ [.fin r]) := fun r' hr' hf => (hb r').trans (hc r' hr' hf)
      rcases h.phase with h1 | ⟨h1, h2, h3⟩ | ⟨r', rem, h1, h2, h3, h4, h5, h6, h7, h8⟩ | ⟨h1, h2⟩ | ⟨h1, h2, h3⟩
      · exact .closed h1
      · exact .ready ⟨h1.ours, h1.theirs, h1.pending, h1.read.rest, h1.read.cur, h1.read.asked, h1.read.buf, h1.read.need⟩ h2 hl
      · rw [hph] at h3; cases h3
      · rw [hph] at h2; cases h2
      · exact .dead h1 h2 hl
  · exact h

/-- A new request is counted. -/
theorem G.count {s : St} (h : G ans s) : G ans { s with next := s.next + 1, last := none } := by
  refine ⟨h.right, fun req hle => h.new req (Nat.le_of_succ_le hle), (fun _ e => by cases e), ?_⟩
  rcases h.phase with h1 | ⟨h1, h2, h3⟩ | ⟨r', rem, h1, h2, h3, h4, h5, h6, h7, h8⟩ | ⟨h1, h2⟩ | ⟨h1, h2, h3⟩
  · exact .closed h1
  · exact .ready ⟨h1.ours, h1.theirs, h1.pending, h1.read.rest, h1.read.cur, h1.read.asked, h1.read.buf, h1.read.need⟩ h2 (fun _ e => by cases e)
  · exact .body r' rem ⟨h1.theirs, h1.framed, h1.empty, h1.need, h1.wire⟩ h2 h3 h4 (Nat.lt_succ_of_lt h5) h6 h7 (fun _ e => by cases e)
  · exact .stuck h1 h2
  · exact .dead h1 h2 (fun _ e => by cases e)

theorem G.ofOutcome {s : St} {x : R Resp} {id : Nat} (h : G ans s) (hid : id < s.next) (hb : bytesOf id s.log = []) (hf : Log.fin id ∉ s.log) (hl : s.last = none) (ho : Outcome ans id s x) :
    G ans (noteResp id x).2.1 := by
  obtain ⟨x1, s2, env2⟩ := x
  obtain ⟨⟨o1, o2, o3⟩, ho⟩ := ho
  dsimp only at o1 o2 o3
  rcases ho with ⟨e, h1, h2⟩ | ⟨h1, h2⟩
  · dsimp only at h1
    subst h1
    refine ⟨?_, ?_, ?_, ?_⟩
    · show Right ans s2.log; rw [o3]; exact h.right
    · show ∀ req, s2.next ≤ req → bytesOf req s2.log = [] ∧ Log.fin req ∉ s2.log; rw [o1, o3]; exact h.new
    · show ∀ r, s2.last = some r → _; rw [o2, hl]; exact fun _ e => by cases e
    · rcases h2 with h2 | ⟨h2, h3⟩
      · exact .closed h2
      · exact .dead h2 h3 (by show ∀ r, s2.last = some r → _; rw [o2, hl]; exact fun _ e => by cases e)
  · dsimp only at h1
    subst h1
    unfold noteResp
    dsimp only at h2 ⊢
    have hbr : ∀ q, bytesOf q (s2.log ++ [.resp id (.final id (ans id).status)]) = bytesOf q s2.log := fun q => by rw [bytesOf_append]; exact List.append_nil _
    have hR : Right ans (s2.log ++ [.resp id (.final id (ans id).status)]) := by rw [o3]; exact h.right.addResp
    rcases h2 with ⟨g1, g2, g3⟩ | ⟨b, g1, g2, g3, g4, g5⟩
    · have hcomp : Complete ans id (s2.log ++ [.resp id (.final id (ans id).status)]) := by
        intro _
        rw [hbr, o3, hb]
        show [] = (ans id).body.getD []
        rw [g1]; rfl
      have hcomp2 : Complete ans id (s2.log ++ [.resp id (.final id (ans id).status)] ++ [.fin id]) := by
        intro hfr; rw [bytesOf_append]; exact (List.append_nil _).trans (hcomp hfr)
      rw [g2]
      simp only [Bool.false_eq_true, if_false]
      refine ⟨hR.addFin hcomp, ?_, ?_, ?_⟩
      · intro req hle
        have hle' : s2.next ≤ req := hle
        rw [o1] at hle'
        refine ⟨?_, ?_⟩
        · show bytesOf req (s2.log ++ [.resp id (.final id (ans id).status)] ++ [.fin id]) = []
          rw [bytesOf_append, hbr, o3, (h.new req hle').1]; rfl
        · intro hm
          have hm' : Log.fin req ∈ s2.log ++ [.resp id (.final id (ans id).status)] ++ [.fin id] := hm
          rw [o3] at hm'
          simp only [List.mem_append, List.mem_singleton] at hm'
          rcases hm' with (hm' | hm') | hm'
          · exact (h.new req hle').2 hm'
          · cases hm'
          · have := Log.fin.inj hm'
            omega
      · intro r hr
        have : id = r := Option.some.inj hr
        show r < s2.next
        omega
      · rcases g3 with g3 | g3
        · exact .dead g3 rfl (fun r hr => by cases hr; exact hcomp2)
        · exact .ready ⟨g3.ours, g3.theirs, g3.pending, g3.read.rest, g3.read.cur, g3.read.asked, g3.read.buf, g3.read.need⟩ rfl (fun r hr => by cases hr; exact hcomp2)
    · rw [g2]
      simp only [if_true, List.append_nil]
      refine ⟨hR, ?_, ?_, ?_⟩
      · intro req hle
        have hle' : s2.next ≤ req := hle
        rw [o1] at hle'
        refine ⟨?_, ?_⟩
        · show bytesOf req (s2.log ++ [.resp id (.final id (ans id).status)]) = []
          rw [hbr, o3, (h.new req hle').1]
        · intro hm
          have hm' : Log.fin req ∈ s2.log ++ [.resp id (.final id (ans id).status)] := hm
          rw [o3] at hm'
          simp only [List.mem_append, List.mem_singleton] at hm'
          rcases hm' with hm' | hm'
          · exact (h.new req hle').2 hm'
          · cases hm'
      · intro r hr
        have : id = r := Option.some.inj hr
        show r < s2.next
        omega
      · refine .body id b ⟨g5.theirs, g5.framed, g5.empty, g5.need, g5.wire⟩ g4 rfl g3 ?_ ?_ ?_ (fun r' hr => (Option.some.inj hr).symm)
        · show id < s2.next; omega
        · show bytesOf id (s2.log ++ [.resp id (.final id (ans id).status)]) ++ b = (ans id).body.getD []
          rw [hbr, o3, hb, g1]; rfl
        · show Log.fin id ∉ s2.log ++ [.resp id (.final id (ans id).status)]
          rw [o3]
          simp only [List.mem_append, List.mem_singleton]
          rintro (hm | hm)
          · exact hf hm
          · cases hm

theorem ready_connect {s : St} {env : List Env} : (∃ e, (connect s env).1 = .error e ∧ (connect s env).2.1 = s) ∨
    ((connect s env).1 = .ok () ∧ Ready (connect s env).2.1 ∧ (connect s env).2.1.ropen = false ∧ (connect s env).2.1.next = s.next ∧ (connect s env).2.1.last = s.last ∧ (connect s env).2.1.log = s.log) := by
  unfold connect
  split
  · exact Or.inl ⟨_, rfl, rfl⟩
  · exact Or.inl ⟨_, rfl, rfl⟩
  · exact Or.inr ⟨rfl, ⟨rfl, rfl, rfl, rfl, Or.inl rfl, rfl, Or.inl rfl, Or.inr rfl⟩, rfl, rfl, rfl, rfl⟩

/-- A request on a connection that is not ready is refused. -/
theorem sendOn_refused {s : St} {id : Nat} {q : Req} {env : List Env} (h : s.ropen = true ∨ s.ours ≠ .idle) : ∃ e, sendOn cfg ans s id q env = (.error e, s, env) := by
  unfold sendOn
  split
  · exact ⟨_, rfl⟩
  · split
    · exact ⟨_, rfl⟩
    · rename_i h2
      split
      · exact ⟨_, rfl⟩
      · rename_i h3
        rcases h with h | h
        · exact absurd (Or.inl h) h2
        · exact absurd h h3

theorem G.send {s : St} (h : G ans s) (q : Req) (hc : cfg.polite = true ∧ (q.expect = true → cfg.forgiving = true)) (env : List Env) : G ans (send cfg ans s q env).2.1 := by
  have h1 := h.count
  have hnew := h.new s.next (Nat.le_refl _)
  unfold Exchange.send
  generalize hs1 : ({ s with next := s.next + 1, last := none } : St) = s1 at h1
  have hlast : s1.last = none := by rw [← hs1]
  have hnext : s.next < s1.next := by rw [← hs1]; exact Nat.lt_succ_self _
  have hlog : s1.log = s.log := by rw [← hs1]
  unfold sendAs
  split
  · exact h1
  · rename_i hne
    cases hst : s1.stream with
    | false =>
      simp only [Bool.false_eq_true, if_false]
      have hcn := @ready_connect s1 env
      generalize connect s1 env = y at hcn
      obtain ⟨y1, s2, env2⟩ := y
      dsimp only at hcn
      rcases hcn with ⟨e, rfl, rfl⟩ | ⟨rfl, c1, c2, c3, c4, c5⟩
      · exact h1
      · have hg : G ans s2 := ⟨c5 ▸ h1.right, by rw [c3, c5]; exact h1.new, by rw [c3, c4]; exact h1.last, .ready c1 c2 (by rw [c4, hlast]; exact fun _ e => by cases e)⟩
        exact hg.ofOutcome (by omega) (by rw [c5, hlog]; exact hnew.1) (by rw [c5, hlog]; exact hnew.2) (c4.trans hlast) (sendOn_spec hc env2 c1 c2 hne)
    | true =>
      simp only [if_true]
      have refused : (s1.ropen = true ∨ s1.ours ≠ .idle) → G ans (noteResp s.next (sendOn cfg ans s1 s.next q env)).2.1 := by
        intro hx
        obtain ⟨e, he⟩ := sendOn_refused (cfg := cfg) (ans := ans) (id := s.next) (q := q) (env := env) hx
        rw [he]; exact h1
      rcases h1.phase with p1 | ⟨p1, p2, p3⟩ | ⟨r', rem, p1, p2, p3, p4, p5, p6, p7, p8⟩ | ⟨p1, p2⟩ | ⟨p1, p2, p3⟩
      · rw [hst] at p1; cases p1
      · exact h1.ofOutcome hnext (by rw [hlog]; exact hnew.1) (by rw [hlog]; exact hnew.2) hlast (sendOn_spec hc env p1 p2 hne)
      · exact refused (Or.inl p3)
      · exact refused (Or.inl p2)
      · exact refused (Or.inr p1)

theorem next_error {s : St} (h : s.theirs = .error) (env : List Env) (b : Bool) : (∃ e, (nextEvent cfg ans b s env).1 = .error e) ∧ (nextEvent cfg ans b s env).2.1 = s := by
  obtain ⟨stream, ours, theirs, ka, framed, empty, lf, buf, pending, ropen, broken, srv, next, last, log⟩ := s
  dsimp only at h
  subst h
  cases env with
  | nil => exact ⟨⟨_, rfl⟩, rfl⟩
  | cons x t => exact ⟨⟨_, rfl⟩, rfl⟩

theorem G.read {s : St} (h : G ans s) (env : List Env) : G ans (read cfg ans s env).2.1 := by
  unfold Exchange.read
  split
  · exact h
  · rename_i hst
    split
    · rename_i ho
      refine h.noteFin ?_ ho
      rcases h.phase with p1 | ⟨p1, p2, p3⟩ | ⟨r', rem, p1, p2, p3, p4, p5, p6, p7, p8⟩ | ⟨p1, p2⟩ | ⟨p1, p2, p3⟩
      · exact absurd p1 hst
      · exact p3
      · rw [ho] at p3; cases p3
      · rw [ho] at p2; cases p2
      · exact p3
    · rename_i ho
      have hsm := same_next (cfg := cfg) (ans := ans) env false s
      rcases h.phase with p1 | ⟨p1, p2, p3⟩ | ⟨r, rem, p1, p2, p3, p4, p5, p6, p7, p8⟩ | ⟨p1, p2⟩ | ⟨p1, p2, p3⟩
      · exact absurd p1 hst
      · exact absurd p2 ho
      · have hn := next_body (cfg := cfg) (ans := ans) env false s p1
        generalize nextEvent cfg ans false s env = y at hn hsm
        obtain ⟨y1, s1, env1⟩ := y
        dsimp only at hn hsm
        have hg : ∀ ph : Phase ans s1, G ans s1 := fun ph => ⟨hsm.log ▸ h.right, by rw [hsm.next, hsm.log]; exact h.new, by rw [hsm.next, hsm.last]; exact h.last, ph⟩
        have hpre : ∀ d rem', rem = d ++ rem' → bytesOf r (s.log ++ [.data r d]) ++ rem' = (ans r).bytes := by
          intro d rem' hd
          rw [bytesOf_append]
          show bytesOf r s.log ++ (if r = r then d ++ [] else []) ++ rem' = _
          rw [if_pos rfl, List.append_nil, List.append_assoc, ← hd]; exact p6
        rcases hn with ⟨e, rfl, h2⟩ | ⟨d, rem', rfl, h2, h3⟩ | ⟨rfl, h2, h3⟩
        · rcases h2 with h2 | h2
          · exact hg (.stuck h2 (hsm.ropen.trans p3))
          · exact hg (.body r rem h2 (hsm.pending.trans p2) (hsm.ropen.trans p3) (hsm.notIdle p4) (by rw [hsm.next]; exact p5) (by rw [hsm.log]; exact p6) (by rw [hsm.log]; exact p7) (by rw [hsm.last]; exact p8))
        · dsimp only
          rw [hsm.pending, p2, hsm.log]
          dsimp only
          have hbo : ∀ q, q ≠ r → bytesOf q (s.log ++ [.data r d]) = bytesOf q s.log := by
            intro q hq
            rw [bytesOf_append]
            show bytesOf q s.log ++ (if r = q then d ++ [] else []) = _
            rw [if_neg (fun e => hq e.symm), List.append_nil]
          have hmem : ∀ q, Log.fin q ∈ s.log ++ [.data r d] → Log.fin q ∈ s.log := by
            intro q hm
            rcases List.mem_append.1 hm with hm | hm
            · exact hm
            · simp at hm
          refine ⟨⟨?_, ?_, ?_⟩, ?_, ?_, ?_⟩
          · intro req a hm
            rcases List.mem_append.1 hm with hm | hm
            · exact h.right.resp req a hm
            · simp at hm
          · intro req
            by_cases hq : req = r
            · subst hq; exact ⟨rem', hpre d rem' h2⟩
            · show bytesOf req (s.log ++ [.data r d]) <+: _
              rw [hbo req hq]; exact h.right.bytes req
          · intro req hm hf
            have hm' := hmem req hm
            have hq : req ≠ r := fun e => p7 (e ▸ hm')
            exact (hbo req hq).trans (h.right.fin req hm' hf)
          · intro req hle
            have hle' : s1.next ≤ req := hle
            rw [hsm.next] at hle'
            exact ⟨(hbo req (by omega)).trans (h.new req hle').1, fun hm => (h.new req hle').2 (hmem req hm)⟩
          · show ∀ r', s1.last = some r' → r' < s1.next
            rw [hsm.last, hsm.next]; exact h.last
          · refine .body r rem' ⟨h3.theirs, h3.framed, h3.empty, h3.need, h3.wire⟩ rfl (hsm.ropen.trans p3) (hsm.notIdle p4) ?_ (hpre d rem' h2) (fun hm => p7 (hmem r hm)) ?_
            · show r < s1.next; rw [hsm.next]; exact p5
            · show ∀ r', s1.last = some r' → _; rw [hsm.last]; exact p8
        · dsimp only
          have hf := finish_spec h3 (hsm.notIdle p4)
          generalize finishCycle s1 = z at hf
          obtain ⟨z1, s2⟩ := z
          dsimp only at hf
          obtain ⟨f1, f2, f3⟩ := hf
          have hcomp : ∀ r', s2.last = some r' → Complete ans r' s2.log := by
            intro r' hr' hfr
            have : r' = r := p8 r' (by rw [← hsm.last, ← f1.last]; exact hr')
            subst this
            rw [f1.log, hsm.log]
            have := p6
            rw [h2 hfr, List.append_nil] at this
            exact this
          have hg2 : Phase ans s2 → G ans s2 := fun ph => ⟨by rw [f1.log, hsm.log]; exact h.right, by rw [f1.next, f1.log, hsm.next, hsm.log]; exact h.new, by rw [f1.next, f1.last, hsm.next, hsm.last]; exact h.last, ph⟩
          rcases f3 with ⟨e, rfl, f4⟩ | ⟨rfl, f4⟩
          · exact hg2 (.dead f4 f2 hcomp)
          · refine (hg2 ?_).noteFin hcomp f2
            rcases f4 with f4 | f4
            · exact .dead f4 f2 hcomp
            · exact .ready f4 f2 hcomp
      · have hne := next_error (cfg := cfg) (ans := ans) p1 env false
        generalize nextEvent cfg ans false s env = y at hne
        obtain ⟨y1, s1, env1⟩ := y
        dsimp only at hne
        obtain ⟨⟨e, rfl⟩, rfl⟩ := hne
        exact h
      · exact absurd p2 ho

theorem G.step {s : St} (h : G ans s) (op : Op) (hc : cfg.polite = true ∧ ∀ q env, op = .send q env → q.expect = true → cfg.forgiving = true) : G ans (step cfg ans s op) := by
  cases op with
  | send q env => exact h.send q ⟨hc.1, hc.2 q env rfl⟩ env
  | read env => exact h.read env
  | close => exact ⟨h.right, h.new, h.last, .closed rfl⟩
  | giveBack =>
    show G ans (if isIdle s then _ else _)
    split
    · rename_i hid
      refine ⟨h.right, h.new, (fun _ e => by cases e), ?_⟩
      have hid' : s.stream = true ∧ s.ours = .idle ∧ s.theirs = .idle := by simpa [isIdle, and_assoc] using hid
      rcases h.phase with p1 | ⟨p1, p2, p3⟩ | ⟨r', rem, p1, p2, p3, p4, p5, p6, p7, p8⟩ | ⟨p1, p2⟩ | ⟨p1, p2, p3⟩
      · exact .closed p1
      · exact .ready ⟨p1.ours, p1.theirs, p1.pending, p1.read.rest, p1.read.cur, p1.read.asked, p1.read.buf, p1.read.need⟩ p2 (fun _ e => by cases e)
      · exact absurd hid'.2.1 p4
      · rw [hid'.2.2] at p1; cases p1
      · exact absurd hid'.2.1 p1
    · exact ⟨h.right, h.new, (fun _ e => by cases e), .closed rfl⟩

/-! ### C81 -/

/-- C81: whatever requests are made on a connection, whether they fail in the middle or not, whether responses are read to the end or
not, and whatever a polite server and the network do: each response belongs to its request, and so do the bytes of its body, which
are complete at the end.  If requests ask for `100 Continue`, the server has to be forgiving.  Missing: other servers, see below. -/
theorem C81_pairing_partial (cfg : Cfg) (ans : Nat → Ans) (ops : List Op) (hp : cfg.polite = true)
    (hf : cfg.forgiving = true ∨ ∀ q env, .send q env ∈ ops → q.expect = false) : Right ans (run cfg ans ops).log := by
  have hx : ∀ q env, Op.send q env ∈ ops → q.expect = true → cfg.forgiving = true := by
    intro q env hm he
    rcases hf with h | h
    · exact h
    · rw [h q env hm] at he; cases he
  suffices ∀ (l : List Op) (s : St), (∀ q env, Op.send q env ∈ l → q.expect = true → cfg.forgiving = true) → G ans s → G ans (l.foldl (step cfg ans) s) from (this ops .init hx G.init).right
  intro l
  induction l with
  | nil => exact fun s _ h => h
  | cons op t ih =>
    intro s hl h
    exact ih _ (fun q env hm => hl q env (List.mem_cons_of_mem _ hm)) (h.step op ⟨hp, fun q env e => hl q env (e ▸ List.mem_cons_self ..)⟩)

/-- Answers for the examples: 200 with three bytes, 403 without a body, 200 with two bytes until the end of the connection. -/
def exAns : Nat → Ans
  | 0 => ⟨200, some [1, 2, 3], false, true⟩
  | 1 => ⟨403, none, false, true⟩
  | 2 => ⟨200, some [4, 5], false, false⟩
  | _ => ⟨204, none, false, true⟩

/-- A history with a body that is read in pieces, an upload that is refused, and an answer that ends with the connection. -/
def exOps : List Op :=
  [.send ⟨50, 0, [], false⟩ [.ok, .ok, .read [.info 103, .head, .data 1]], .read [], .read [.read [.data 5, .eom]], .read [], .giveBack,
   .send ⟨50, 10, [.file 10 none], true⟩ [.ok, .read [.head]], .giveBack,
   .send ⟨60, 7, [.mem 3 none, .file 4 none], true⟩ [.ok, .read [.cont], .ok, .ok, .read [.head, .data 0], .ok], .read [], .read [.read [.data 0]], .read [.read [.eof]], .read []]

example : (run ⟨true, true⟩ exAns exOps).log =
    [.resp 0 (.final 0 200), .data 0 [1, 2], .data 0 [3], .fin 0, .resp 1 (.final 1 403), .fin 1, .resp 2 (.final 2 200), .data 2 [4], .data 2 [5], .fin 2, .fin 2] := by decide +kernel

/-- C81 is violated by `100 Continue` that was not asked for, or sent twice, both of which HTTP tells clients to expect: it is returned
as if it were the response. -/
theorem C81_continue_returned : (run ⟨false, true⟩ exAns [.send ⟨50, 0, [], false⟩ [.ok, .ok, .read [.cont]]]).log = [.resp 0 .cont, .fin 0] ∧
    (run ⟨false, true⟩ exAns [.send ⟨50, 5, [.file 5 none], true⟩ [.ok, .ok, .read [.cont, .cont], .ok]]).log = [.resp 0 .cont, .fin 0] := by decide +kernel

/-- C81 is violated by servers that read and discard the body after they have refused it, as HTTP allows.  The connection counts as
idle and is used again; the head of the next request is discarded as part of the body, and if the body of that one looks like
a request (77, say), the server answers it, and the answer is returned as the response to the upload. -/
theorem C81_smuggled : (run ⟨true, false⟩ exAns [.send ⟨50, 0, [], false⟩ [.ok, .ok, .read [.head, .data 5, .eom]], .read [], .read [], .giveBack,
      .send ⟨50, 10, [.file 10 none], true⟩ [.ok, .read [.head]], .giveBack,
      .send ⟨10, 8, [.mem 8 (some 77)], false⟩ [.ok, .ok, .read [.head]]]).log =
    [.resp 0 (.final 0 200), .data 0 [1, 2, 3], .fin 0, .resp 1 (.final 1 403), .fin 1, .resp 2 (.final 77 204), .fin 2] := by decide +kernel

/-- A body whose end is the end of the connection may be cut off without notice; that is why `Right` excludes it. -/
theorem C81_unframed : (run ⟨true, true⟩ (fun _ => ⟨200, some [4, 5], false, false⟩) [.send ⟨50, 0, [], false⟩ [.ok, .ok, .read [.head, .data 0, .eof]], .read [], .read []]).log =
    [.resp 0 (.final 0 200), .data 0 [4], .fin 0] := by decide +kernel

/-- After such a body the connection still counts as idle and goes back to the pool, although the server has closed it; the next
request on it fails with `InvalidResponse`, which is not a temporary error. -/
theorem C81_closed_is_idle : isIdle (run ⟨true, true⟩ exAns exOps) = true ∧ (run ⟨true, true⟩ exAns exOps).srv.eof = true ∧
    (send ⟨true, true⟩ exAns (run ⟨true, true⟩ exAns exOps) ⟨50, 0, [], false⟩ [.ok, .ok]).1 = .error .invalid := by
  refine ⟨by decide +kernel, by decide +kernel, ?_⟩
  rfl

end Verif.Backend.Exchange
