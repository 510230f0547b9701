import Verif.Tools.Cmd
/- Lemmas about texts of paths and about walks for Tools/CmdProps.lean. -/
namespace Verif.Cmd

/-! ### Texts -/

theorem split_ne (s : Str) : split s ≠ [] := by
  cases s with
  | nil => simp [split]
  | cons c s =>
    unfold split
    split
    · simp
    · split <;> simp

theorem split_slash (b : Str) : split ('/' :: b) = [] :: split b := by
  conv => lhs; unfold split
  rw [if_pos rfl]

theorem split_other {c : Char} (hc : c ≠ '/') (b : Str) :
    split (c :: b) = match split b with
      | h :: t => (c :: h) :: t
      | [] => [[c]] := by
  conv => lhs; unfold split
  rw [if_neg hc]
  rfl

theorem split_app (a b : Str) : split (a ++ '/' :: b) = split a ++ split b := by
  induction a with
  | nil => rw [List.nil_append, split_slash]; rfl
  | cons c a ih =>
    rw [List.cons_append]
    by_cases hc : c = '/'
    · subst hc
      rw [split_slash, split_slash, ih]; rfl
    · rw [split_other hc, split_other hc, ih]
      cases hs : split a with
      | nil => exact absurd hs (split_ne a)
      | cons h t => rfl

theorem split_noslash (a : Str) (h : '/' ∉ a) : split a = [a] := by
  induction a with
  | nil => rfl
  | cons c a ih =>
    unfold split
    rw [if_neg (fun e => h (by rw [e]; exact List.mem_cons_self)), ih (fun m => h (List.mem_cons_of_mem _ m))]

theorem takeWhile_imp {α : Type} {p : α → Bool} : ∀ {l : List α} {a : α}, a ∈ l.takeWhile p → p a = true
  | [], a, h => by cases h
  | b :: l, a, h => by
    unfold List.takeWhile at h
    split at h
    · next hb =>
      rcases List.mem_cons.1 h with h | h
      · rw [h]; exact hb
      · exact takeWhile_imp h
    · cases h

/-- The part before the last slash, if there is one. -/
theorem basename_spec (p : Str) :
    '/' ∉ basename p ∧ (p = basename p ∨ ∃ h, p = h ++ '/' :: basename p ∧ (p.reverse.dropWhile (· != '/')).reverse = h ++ ['/']) := by
  have e : p.reverse.takeWhile (· != '/') ++ p.reverse.dropWhile (· != '/') = p.reverse := List.takeWhile_append_dropWhile
  constructor
  · intro h
    unfold basename at h
    have := takeWhile_imp (List.mem_reverse.1 h)
    simp at this
  · unfold basename
    cases hd : p.reverse.dropWhile (· != '/') with
    | nil =>
      left
      rw [hd, List.append_nil] at e
      rw [e, List.reverse_reverse]
    | cons c t =>
      right
      have hc : c = '/' := by
        have := List.head?_dropWhile_not (· != '/') p.reverse
        rw [hd] at this
        simpa using this
      subst hc
      refine ⟨t.reverse, ?_, ?_⟩
      · rw [hd] at e
        have := congrArg List.reverse e
        rw [List.reverse_reverse, List.reverse_append] at this
        refine this.symm.trans ?_
        simp
      · simp

theorem split_basename (p : Str) :
    (split p = [basename p] ∧ p = basename p) ∨ ∃ h, p = h ++ '/' :: basename p ∧ split p = split h ++ [basename p] := by
  obtain ⟨h1, h2⟩ := basename_spec p
  rcases h2 with h2 | ⟨h, h2, -⟩
  · left
    refine ⟨?_, h2⟩
    have := split_noslash _ h1
    rw [← h2] at this
    rw [this, ← h2]
  · right
    refine ⟨h, h2, ?_⟩
    have := split_app h (basename p)
    rw [← h2, split_noslash _ h1] at this
    exact this

/-! ### Walks -/

/-- Names of entries. -/
def Ord (c : Str) : Prop := c ≠ [] ∧ c ≠ dot ∧ c ≠ dotdot

inductive Walks (v : Vfs) (fl : Bool) : Nat → List Str → Nat → Prop
  | nil {n} : Walks v fl n [] n
  | dot {n c rest m p es} : v.node n = .dir p es → (c = [] ∨ c = dot) → Walks v fl n rest m → Walks v fl n (c :: rest) m
  | up {n rest m p es} : v.node n = .dir p es → Walks v fl p rest m → Walks v fl n (dotdot :: rest) m
  | step {n c rest m p es x} : v.node n = .dir p es → Ord c → AL.get es c = some x → isLink v x = false → Walks v fl x rest m →
      Walks v fl n (c :: rest) m
  | link {n c rest m p es x t} : v.node n = .dir p es → Ord c → AL.get es c = some x → v.node x = .link t → ¬(fl = false ∧ rest = []) →
      Walks v fl (start v n t) (split t ++ rest) m → Walks v fl n (c :: rest) m
  | last {n c p es x t} : v.node n = .dir p es → Ord c → AL.get es c = some x → v.node x = .link t → fl = false → Walks v fl n [c] x

theorem walkG_sound {v : Vfs} {fl : Bool} {k : Nat → List Str → Except Err Nat}
    (hk : ∀ n cs m, k n cs = .ok m → Walks v fl n cs m) :
    ∀ (cs : List Str) (n m : Nat), walkG v fl k n cs = .ok m → Walks v fl n cs m := by
  intro cs
  induction cs with
  | nil => intro n m h; simp only [walkG] at h; cases h; exact .nil
  | cons c rest ih =>
    intro n m h
    simp only [walkG] at h
    cases hn : v.node n with
    | file => rw [hn] at h; cases h
    | link t => rw [hn] at h; cases h
    | dir p es =>
      rw [hn] at h
      dsimp only at h
      by_cases h1 : c = [] ∨ c = dot
      · rw [if_pos h1] at h
        exact .dot hn h1 (ih _ _ h)
      · rw [if_neg h1] at h
        by_cases h2 : c = dotdot
        · rw [if_pos h2] at h
          subst h2
          exact .up hn (ih _ _ h)
        · rw [if_neg h2] at h
          have ho : Ord c := ⟨fun e => h1 (Or.inl e), fun e => h1 (Or.inr e), h2⟩
          cases hg : AL.get es c with
          | none => rw [hg] at h; cases h
          | some x =>
            rw [hg] at h
            dsimp only at h
            cases hx : v.node x with
            | file =>
              rw [hx] at h
              exact .step hn ho hg (by unfold isLink; rw [hx]) (ih _ _ h)
            | dir p' es' =>
              rw [hx] at h
              exact .step hn ho hg (by unfold isLink; rw [hx]) (ih _ _ h)
            | link t =>
              rw [hx] at h
              dsimp only at h
              by_cases h3 : fl = false ∧ rest = []
              · rw [if_pos h3] at h
                cases h
                obtain ⟨a, b⟩ := h3
                subst b
                exact .last hn ho hg hx a
              · rw [if_neg h3] at h
                split at h
                · cases h
                · exact .link hn ho hg hx h3 (hk _ _ _ h)

theorem walk_sound {v : Vfs} {fl : Bool} : ∀ (j n : Nat) (cs : List Str) (m : Nat), walk v fl j n cs = .ok m → Walks v fl n cs m := by
  intro j
  induction j with
  | zero => intro n cs m h; exact walkG_sound (fun _ _ _ h => by cases h) cs n m h
  | succ j ih => intro n cs m h; exact walkG_sound (fun n cs m h => ih n cs m h) cs n m h

theorem resolve_sound {v : Vfs} {fl : Bool} {cwd : Nat} {s : Str} {m : Nat} (h : resolve v fl cwd s = .ok m) :
    s ≠ [] ∧ Walks v fl (start v cwd s) (split s) m := by
  unfold resolve at h
  by_cases hs : s = []
  · rw [if_pos hs] at h; cases h
  · rw [if_neg hs] at h
    exact ⟨hs, walk_sound _ _ _ _ h⟩

theorem isLink_of {v : Vfs} {x : Nat} {t : Str} (h : v.node x = .link t) : isLink v x = true := by unfold isLink; rw [h]

/-- A walk that does not end at a link is the same with links followed. -/
theorem Walks.follow {v : Vfs} {fl : Bool} {n : Nat} {cs : List Str} {m : Nat} (h : Walks v fl n cs m) (hm : isLink v m = false) :
    Walks v true n cs m := by
  induction h with
  | nil => exact .nil
  | dot a b _ ih => exact .dot a b (ih hm)
  | up a _ ih => exact .up a (ih hm)
  | step a b c d _ ih => exact .step a b c d (ih hm)
  | link a b c d _ _ ih => exact .link a b c d (fun x => nomatch x.1) (ih hm)
  | last a b c d _ => rw [isLink_of d] at hm; cases hm

theorem Walks.det {v : Vfs} {n : Nat} {cs : List Str} {m m' : Nat} (h : Walks v true n cs m) (h' : Walks v true n cs m') : m = m' := by
  induction h with
  | nil => cases h'; rfl
  | dot a b _ ih =>
    cases h' with
    | dot _ _ w => exact ih w
    | up => rcases b with b | b <;> cases b
    | step _ o => exact (b.elim (fun b => absurd b o.1) (fun b => absurd b o.2.1))
    | link _ o => exact (b.elim (fun b => absurd b o.1) (fun b => absurd b o.2.1))
    | last _ _ _ _ e => cases e
  | up a _ ih =>
    cases h' with
    | dot _ b => rcases b with b | b <;> cases b
    | up a' w => rw [a] at a'; cases a'; exact ih w
    | step _ o => exact absurd rfl o.2.2
    | link _ o => exact absurd rfl o.2.2
    | last _ _ _ _ e => cases e
  | step a o g l _ ih =>
    cases h' with
    | dot _ b => exact (b.elim (fun b => absurd b o.1) (fun b => absurd b o.2.1))
    | up => exact absurd rfl o.2.2
    | step a' _ g' _ w => rw [a] at a'; cases a'; rw [g] at g'; cases g'; exact ih w
    | link a' _ g' l' => rw [a] at a'; cases a'; rw [g] at g'; cases g'; rw [isLink_of l'] at l; cases l
    | last _ _ _ _ e => cases e
  | link a o g l _ _ ih =>
    cases h' with
    | dot _ b => exact (b.elim (fun b => absurd b o.1) (fun b => absurd b o.2.1))
    | up => exact absurd rfl o.2.2
    | step a' _ g' l' => rw [a] at a'; cases a'; rw [g] at g'; cases g'; rw [isLink_of l] at l'; cases l'
    | link a' _ g' l' _ w => rw [a] at a'; cases a'; rw [g] at g'; cases g'; rw [l] at l'; cases l'; exact ih w
    | last _ _ _ _ e => cases e
  | last _ _ _ _ e => cases e

/-- Walks in two parts. -/
theorem Walks.parts {v : Vfs} {fl : Bool} {n : Nat} {cs : List Str} {m : Nat} (h : Walks v fl n cs m) :
    ∀ a b, cs = a ++ b → (fl = true ∨ b ≠ []) → ∃ x, Walks v true n a x ∧ Walks v fl x b m := by
  induction h with
  | nil =>
    intro a b e _
    obtain ⟨e1, e2⟩ := List.append_eq_nil_iff.1 e.symm
    subst e1 e2
    exact ⟨_, .nil, .nil⟩
  | dot d c w ih =>
    intro a b e hb
    cases a with
    | nil => rw [List.nil_append] at e; subst e; exact ⟨_, .nil, .dot d c w⟩
    | cons y a =>
      rw [List.cons_append] at e
      obtain ⟨e1, e2⟩ := List.cons.inj e
      subst e1
      obtain ⟨x, p, q⟩ := ih a b e2 hb
      exact ⟨x, .dot d c p, q⟩
  | up d w ih =>
    intro a b e hb
    cases a with
    | nil => rw [List.nil_append] at e; subst e; exact ⟨_, .nil, .up d w⟩
    | cons y a =>
      rw [List.cons_append] at e
      obtain ⟨e1, e2⟩ := List.cons.inj e
      subst e1
      obtain ⟨x, p, q⟩ := ih a b e2 hb
      exact ⟨x, .up d p, q⟩
  | step d o g l w ih =>
    intro a b e hb
    cases a with
    | nil => rw [List.nil_append] at e; subst e; exact ⟨_, .nil, .step d o g l w⟩
    | cons y a =>
      rw [List.cons_append] at e
      obtain ⟨e1, e2⟩ := List.cons.inj e
      subst e1
      obtain ⟨x, p, q⟩ := ih a b e2 hb
      exact ⟨x, .step d o g l p, q⟩
  | @link n c rest m p' es x' t d o g l f w ih =>
    intro a b e hb
    cases a with
    | nil => rw [List.nil_append] at e; subst e; exact ⟨_, .nil, .link d o g l f w⟩
    | cons y a =>
      rw [List.cons_append] at e
      obtain ⟨e1, e2⟩ := List.cons.inj e
      subst e1
      obtain ⟨x, p, q⟩ := ih (split t ++ a) b (by rw [e2, List.append_assoc]) hb
      exact ⟨x, .link d o g l (fun z => nomatch z.1) p, q⟩
  | last d o g l f =>
    intro a b e hb
    cases a with
    | nil => rw [List.nil_append] at e; subst e; exact ⟨_, .nil, .last d o g l f⟩
    | cons y a =>
      rw [List.cons_append] at e
      obtain ⟨e1, e2⟩ := List.cons.inj e
      obtain ⟨-, e3⟩ := List.append_eq_nil_iff.1 e2.symm
      rcases hb with hb | hb
      · rw [f] at hb; cases hb
      · exact absurd e3 hb

theorem Walks.app {v : Vfs} {n : Nat} {a b : List Str} {x m : Nat} (h : Walks v true n a x) (h' : Walks v true x b m) :
    Walks v true n (a ++ b) m := by
  induction h with
  | nil => exact h'
  | dot d c _ ih => exact .dot d c (ih h')
  | up d _ ih => exact .up d (ih h')
  | step d o g l _ ih => exact .step d o g l (ih h')
  | link d o g l f _ ih =>
    refine .link d o g l (fun z => nomatch z.1) ?_
    have := ih h'
    rw [List.append_assoc] at this
    exact this
  | last _ _ _ _ e => cases e

/-- What `normpath` drops besides `..` does not matter. -/
def plain (c : Str) : Bool := decide (c ≠ []) && decide (c ≠ dot)

theorem Walks.plain {v : Vfs} {n : Nat} {cs : List Str} {m : Nat} (h : Walks v true n cs m) :
    ∀ a b, cs = a ++ b → Walks v true n (a ++ b.filter plain) m := by
  induction h with
  | nil =>
    intro a b e
    obtain ⟨e1, e2⟩ := List.append_eq_nil_iff.1 e.symm
    subst e1 e2
    exact .nil
  | dot d c w ih =>
    intro a b e
    cases a with
    | nil =>
      rw [List.nil_append] at e ⊢
      subst e
      have := ih [] _ rfl
      rw [List.nil_append] at this
      rw [List.filter_cons_of_neg]
      · exact this
      · rcases c with c | c <;> subst c <;> decide
    | cons y a =>
      rw [List.cons_append] at e ⊢
      obtain ⟨e1, e2⟩ := List.cons.inj e
      subst e1
      exact .dot d c (ih a b e2)
  | up d w ih =>
    intro a b e
    cases a with
    | nil =>
      rw [List.nil_append] at e ⊢
      subst e
      have := ih [] _ rfl
      rw [List.filter_cons_of_pos (by decide)]
      exact .up d this
    | cons y a =>
      rw [List.cons_append] at e ⊢
      obtain ⟨e1, e2⟩ := List.cons.inj e
      subst e1
      exact .up d (ih a b e2)
  | step d o g l w ih =>
    intro a b e
    cases a with
    | nil =>
      rw [List.nil_append] at e ⊢
      subst e
      have := ih [] _ rfl
      rw [List.filter_cons_of_pos (by simp [Cmd.plain, o.1, o.2.1])]
      exact .step d o g l this
    | cons y a =>
      rw [List.cons_append] at e ⊢
      obtain ⟨e1, e2⟩ := List.cons.inj e
      subst e1
      exact .step d o g l (ih a b e2)
  | @link n c rest m p' es x' t d o g l f w ih =>
    intro a b e
    cases a with
    | nil =>
      rw [List.nil_append] at e ⊢
      subst e
      rw [List.filter_cons_of_pos (by simp [Cmd.plain, o.1, o.2.1])]
      exact .link d o g l (fun z => nomatch z.1) (ih (split t) rest rfl)
    | cons y a =>
      rw [List.cons_append] at e ⊢
      obtain ⟨e1, e2⟩ := List.cons.inj e
      subst e1
      have := ih (split t ++ a) b (by rw [e2, List.append_assoc])
      rw [List.append_assoc] at this
      exact .link d o g l (fun z => nomatch z.1) this
  | last _ _ _ _ e => cases e

/-! ### More about texts -/

theorem rstrip_last (s : Str) : (rstrip s).getLast? ≠ some '/' := by
  unfold rstrip
  rw [List.getLast?_reverse]
  intro h
  have := List.head?_dropWhile_not (· == '/') s.reverse
  rw [h] at this
  simp at this

theorem noslash_split (s : Str) : ∀ c ∈ split s, '/' ∉ c := by
  induction s with
  | nil =>
    intro c h
    simp only [split, List.mem_singleton] at h
    rw [h]; simp
  | cons a s ih =>
    intro c h
    by_cases ha : a = '/'
    · rw [ha, split_slash] at h
      rcases List.mem_cons.1 h with h | h
      · rw [h]; simp
      · exact ih c h
    · rw [split_other ha] at h
      cases hs : split s with
      | nil => exact absurd hs (split_ne s)
      | cons x t =>
        rw [hs] at h ih
        rcases List.mem_cons.1 h with h | h
        · rw [h]
          intro m
          rcases List.mem_cons.1 m with m | m
          · exact ha m.symm
          · exact ih x List.mem_cons_self m
        · exact ih c (List.mem_cons_of_mem _ h)

theorem split_joinAll (l : List Str) (hl : l ≠ []) (h : ∀ c ∈ l, '/' ∉ c) : split (joinAll l) = l := by
  induction l with
  | nil => exact absurd rfl hl
  | cons a l ih =>
    cases l with
    | nil => exact split_noslash a (h a List.mem_cons_self)
    | cons b l =>
      show split (a ++ '/' :: joinAll (b :: l)) = _
      rw [split_app, ih (by simp) (fun c hc => h c (List.mem_cons_of_mem _ hc)), split_noslash a (h a List.mem_cons_self)]
      rfl

theorem joinAll_snoc (l : List Str) (c : Str) (hl : l ≠ []) : joinAll (l ++ [c]) = joinAll l ++ '/' :: c := by
  induction l with
  | nil => exact absurd rfl hl
  | cons a l ih =>
    cases l with
    | nil => rfl
    | cons b l =>
      show a ++ '/' :: joinAll (b :: l ++ [c]) = (a ++ '/' :: joinAll (b :: l)) ++ '/' :: c
      rw [ih (by simp), List.append_assoc]
      rfl

/-- Without `..`, `normpath` only drops empty components and dots. -/
theorem normLoop_plain (l : List Str) (h : dotdot ∉ l) : ∀ acc, normLoop true acc l = (l.filter plain).reverse ++ acc := by
  induction l with
  | nil => intro acc; rfl
  | cons c l ih =>
    intro acc
    have hl : dotdot ∉ l := fun m => h (List.mem_cons_of_mem _ m)
    have hc : c ≠ dotdot := fun e => h (by rw [e]; exact List.mem_cons_self)
    unfold normLoop
    by_cases h1 : c = [] ∨ c = dot
    · rw [if_pos h1, ih hl, List.filter_cons_of_neg]
      rcases h1 with h1 | h1 <;> subst h1 <;> decide
    · have ho : c ≠ [] ∧ c ≠ dot := ⟨fun e => h1 (Or.inl e), fun e => h1 (Or.inr e)⟩
      rw [if_neg h1, if_pos (Or.inl hc), ih hl, List.filter_cons_of_pos (by simp [plain, ho.1, ho.2])]
      simp

theorem plain_of {c : Str} (h : plain c = true) : c ≠ [] ∧ c ≠ dot := by
  simp only [plain, Bool.and_eq_true, decide_eq_true_eq] at h
  exact h

theorem rstrip_id (s : Str) (h : s.getLast? ≠ some '/') : rstrip s = s := by
  unfold rstrip
  cases hr : s.reverse with
  | nil => rw [List.reverse_eq_nil_iff.1 hr]; rfl
  | cons a t =>
    have ha : a ≠ '/' := by
      intro e
      apply h
      rw [← List.head?_reverse, hr, e]; rfl
    rw [List.dropWhile_cons_of_neg (by simpa using ha), ← hr, List.reverse_reverse]

theorem joinAll_last (l : List Str) (h : ∀ c ∈ l, c ≠ [] ∧ '/' ∉ c) : (joinAll l).getLast? ≠ some '/' := by
  induction l with
  | nil => simp [joinAll]
  | cons a l ih =>
    cases l with
    | nil =>
      intro e
      exact (h a List.mem_cons_self).2 (List.mem_of_getLast? e)
    | cons b l =>
      show (a ++ '/' :: joinAll (b :: l)).getLast? ≠ _
      have hne : joinAll (b :: l) ≠ [] := by
        cases l with
        | nil => exact (h b (by simp)).1
        | cons d l =>
          show b ++ '/' :: _ ≠ []
          simp
      have := ih (fun c hc => h c (List.mem_cons_of_mem _ hc))
      rw [List.getLast?_append, List.getLast?_cons_of_ne_nil hne]
      cases hj : (joinAll (b :: l)).getLast? with
      | none => exact absurd (List.getLast?_eq_none_iff.1 hj) hne
      | some z => rw [hj] at this; simpa using this

/-- The parent directory that s3qlcp looks at. -/
theorem dirname_norm (P : Str) (hP : P.head? = some '/') (hd : dotdot ∉ split P) (fs : List Str) (c : Str)
    (hf : (split P).filter plain = fs ++ [c]) :
    (dirname (normpath P)).head? = some '/' ∧ (split (dirname (normpath P))).filter plain = fs := by
  have hne : P ≠ [] := by intro e; rw [e] at hP; cases hP
  have hall : ∀ x ∈ fs ++ [c], x ≠ [] ∧ '/' ∉ x := by
    intro x hx
    rw [← hf] at hx
    obtain ⟨h1, h2⟩ := List.mem_filter.1 hx
    exact ⟨(plain_of h2).1, noslash_split P x h1⟩
  have hpl : ∀ x ∈ fs, plain x = true := by
    intro x hx
    have : x ∈ (split P).filter plain := by rw [hf]; exact List.mem_append_left _ hx
    exact (List.mem_filter.1 this).2
  have hn : normpath P = '/' :: joinAll (fs ++ [c]) := by
    unfold normpath
    dsimp only
    rw [if_neg hne, decide_eq_true hP, normLoop_plain _ hd, hf]
    simp
  have hcs : '/' ∉ c := (hall c (by simp)).2
  rw [hn]
  by_cases hfs : fs = []
  · subst hfs
    have hr : ('/' :: joinAll ([] ++ [c])).reverse.dropWhile (· != '/') = ['/'] := by
      show ('/' :: c).reverse.dropWhile (· != '/') = ['/']
      rw [List.reverse_cons, List.dropWhile_append_of_pos]
      · rfl
      · intro x hx
        simp only [bne_iff_ne]
        intro e
        rw [e] at hx
        exact hcs (List.mem_reverse.1 hx)
    have : dirname ('/' :: joinAll ([] ++ [c])) = ['/'] := by
      unfold dirname
      rw [hr]
      rfl
    rw [this]
    exact ⟨rfl, by decide⟩
  · have hr : ('/' :: joinAll (fs ++ [c])).reverse.dropWhile (· != '/') = ('/' :: joinAll fs ++ ['/']).reverse := by
      rw [joinAll_snoc fs c hfs]
      have e : ('/' :: (joinAll fs ++ '/' :: c)).reverse = c.reverse ++ ('/' :: joinAll fs ++ ['/']).reverse := by simp
      rw [e, List.dropWhile_append_of_pos]
      · simp
      · intro x hx
        simp only [bne_iff_ne]
        intro e
        rw [e] at hx
        exact hcs (List.mem_reverse.1 hx)
    have hj : joinAll fs ≠ [] := by
      intro e
      have := split_joinAll fs hfs (fun x hx => (hall x (List.mem_append_left _ hx)).2)
      rw [e] at this
      have h2 : ([] : Str) ∈ fs := by rw [← this]; simp [split]
      exact (hall [] (List.mem_append_left _ h2)).1 rfl
    have hl : ('/' :: joinAll fs).getLast? ≠ some '/' := by
      rw [List.getLast?_cons_of_ne_nil hj]
      exact joinAll_last fs (fun x hx => hall x (List.mem_append_left _ hx))
    have : dirname ('/' :: joinAll (fs ++ [c])) = '/' :: joinAll fs := by
      unfold dirname
      dsimp only
      rw [hr, List.reverse_reverse, if_neg]
      · unfold rstrip
        rw [List.reverse_append]
        show (List.dropWhile (· == '/') ('/' :: ('/' :: joinAll fs).reverse)).reverse = _
        rw [List.dropWhile_cons_of_pos (by decide)]
        exact rstrip_id _ hl
      · intro h
        rw [List.all_eq_true] at h
        cases hq : (joinAll fs).getLast? with
        | none => exact hj (List.getLast?_eq_none_iff.1 hq)
        | some z =>
          have hz : z ∈ joinAll fs := List.mem_of_getLast? hq
          have h3 := h z (by simp [hz])
          rw [List.getLast?_cons_of_ne_nil hj, hq] at hl
          simp only [beq_iff_eq] at h3
          exact hl (by rw [h3])
    rw [this]
    refine ⟨rfl, ?_⟩
    rw [split_slash, split_joinAll fs hfs (fun x hx => (hall x (List.mem_append_left _ hx)).2),
      List.filter_cons_of_neg (by decide)]
    exact List.filter_eq_self.2 hpl

/-- Components of a joined path. -/
theorem split_join (a b : Str) (ha : a ≠ []) (hb : b.head? ≠ some '/') :
    (split (join a b)).filter plain = (split a).filter plain ++ (split b).filter plain ∧
    (dotdot ∉ split a → dotdot ∉ split b → dotdot ∉ split (join a b)) := by
  unfold join
  rw [if_neg hb]
  by_cases hl : a.getLast? = some '/'
  · rw [if_pos (Or.inr hl)]
    obtain ⟨h, rfl⟩ : ∃ h, a = h ++ ['/'] := by
      refine ⟨a.dropLast, ?_⟩
      rw [List.getLast?_eq_some_getLast ha] at hl
      have := List.dropLast_concat_getLast ha
      rw [Option.some.inj hl] at this
      exact this.symm
    have e1 : split (h ++ ['/'] ++ b) = split h ++ split b := by rw [List.append_assoc]; exact split_app h b
    have e2 : split (h ++ ['/']) = split h ++ [[]] := split_app h []
    rw [e1, e2]
    refine ⟨?_, ?_⟩
    · rw [List.filter_append, List.filter_append]
      have : List.filter plain [([] : Str)] = [] := by decide
      rw [this, List.append_nil]
    · intro h1 h2 m
      rcases List.mem_append.1 m with m | m
      · exact h1 (List.mem_append_left _ m)
      · exact h2 m
  · rw [if_neg (fun h => h.elim ha hl)]
    rw [split_app]
    refine ⟨List.filter_append .., ?_⟩
    intro h1 h2 m
    rcases List.mem_append.1 m with m | m
    · exact h1 m
    · exact h2 m

end Verif.Cmd
