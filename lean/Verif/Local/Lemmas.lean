import Verif.Local.Model
/-! Helper lemmas for C31/C32. -/
namespace Verif.Local

theorem replaceAll_nil (pat rep : Str) : replaceAll pat rep [] = [] := by unfold replaceAll; rfl

theorem replaceAll_hit (pat rep t : Str) (h : pat ≠ []) :
    replaceAll pat rep (pat ++ t) = rep ++ replaceAll pat rep t := by
  cases pat with
  | nil => exact absurd rfl h
  | cons p ps =>
    have hp : (p :: ps).isPrefixOf (p :: (ps ++ t)) = true := by
      rw [List.isPrefixOf_iff_prefix]; exact ⟨t, rfl⟩
    rw [List.cons_append]
    conv => lhs; unfold replaceAll
    rw [hp]
    simp only [List.isEmpty_cons, Bool.not_false, Bool.and_self, if_true, List.length_cons,
      List.drop_succ_cons]
    rw [List.drop_left]

theorem replaceAll_miss (pat rep : Str) (c : Char) (t : Str) (h : pat.isPrefixOf (c :: t) = false) :
    replaceAll pat rep (c :: t) = c :: replaceAll pat rep t := by
  conv => lhs; unfold replaceAll
  rw [h]; rfl

theorem miss_head (p : Char) (ps rep : Str) (c : Char) (t : Str) (h : p ≠ c) :
    replaceAll (p :: ps) rep (c :: t) = c :: replaceAll (p :: ps) rep t := by
  apply replaceAll_miss
  simp only [List.isPrefixOf, Bool.and_eq_false_imp, beq_iff_eq]
  exact fun h' => absurd h' h

theorem miss_second (p q : Char) (ps rep : Str) (c d : Char) (t : Str) (h : q ≠ d) :
    replaceAll (p :: q :: ps) rep (c :: d :: t) = c :: replaceAll (p :: q :: ps) rep (d :: t) := by
  apply replaceAll_miss
  simp only [List.isPrefixOf, Bool.and_eq_false_imp, beq_iff_eq]
  exact fun _ h' => absurd h' h

theorem miss_third (p q r : Char) (ps rep : Str) (c d e : Char) (t : Str) (h : r ≠ e) :
    replaceAll (p :: q :: r :: ps) rep (c :: d :: e :: t)
      = c :: replaceAll (p :: q :: r :: ps) rep (d :: e :: t) := by
  apply replaceAll_miss
  simp only [List.isPrefixOf, Bool.and_eq_false_imp, beq_iff_eq]
  exact fun _ _ h' => absurd h' h

theorem replaceAll_single (p : Char) (rep : Str) (s : Str) :
    replaceAll [p] rep s = s.flatMap (fun c => if c = p then rep else [c]) := by
  induction s with
  | nil => exact replaceAll_nil _ _
  | cons c s ih =>
    rw [List.flatMap_cons, ← ih]
    split
    · rename_i h; subst h
      exact replaceAll_hit [c] rep s (by simp)
    · rename_i h
      exact miss_head p [] rep c s (fun h' => h h'.symm)

/-- Escaping of one character. -/
def escChar (c : Char) : Str :=
  if c = '=' then ['=', '3', 'D'] else if c = '/' then ['=', '2', 'F']
  else if c = '#' then ['=', '2', '3'] else [c]

theorem escape_eq (s : Str) : escape s = s.flatMap escChar := by
  unfold escape
  simp only [replaceAll_single]
  rw [List.flatMap_assoc, List.flatMap_assoc]
  congr 1
  funext c
  unfold escChar
  by_cases h1 : c = '='
  · subst h1; decide
  · by_cases h2 : c = '/'
    · subst h2; decide
    · by_cases h3 : c = '#'
      · subst h3; decide
      · simp [h1, h2, h3]

theorem escape_nil : escape [] = [] := by rw [escape_eq]; rfl

theorem escape_cons (c : Char) (s : Str) : escape (c :: s) = escChar c ++ escape s := by
  rw [escape_eq, escape_eq]; rfl

theorem escape_append (a b : Str) : escape (a ++ b) = escape a ++ escape b := by
  simp only [escape_eq, List.flatMap_append]

def esc1 (c : Char) : Str :=
  if c = '=' then ['=', '3', 'D'] else if c = '#' then ['=', '2', '3'] else [c]
def esc2 (c : Char) : Str := if c = '=' then ['=', '3', 'D'] else [c]

theorem un1_tok (c : Char) (t : Str) : replaceAll ['=', '2', 'F'] ['/'] (escChar c ++ t)
    = esc1 c ++ replaceAll ['=', '2', 'F'] ['/'] t := by
  by_cases h1 : c = '='
  · subst h1
    show replaceAll _ _ ('=' :: '3' :: 'D' :: t) = '=' :: '3' :: 'D' :: _
    rw [miss_second _ _ _ _ _ _ _ (by decide), miss_head _ _ _ _ _ (by decide),
      miss_head _ _ _ _ _ (by decide)]; rfl
  · by_cases h2 : c = '/'
    · subst h2
      exact replaceAll_hit ['=', '2', 'F'] ['/'] t (by simp)
    · by_cases h3 : c = '#'
      · subst h3
        show replaceAll _ _ ('=' :: '2' :: '3' :: t) = '=' :: '2' :: '3' :: _
        rw [miss_third _ _ _ _ _ _ _ _ _ (by decide), miss_head _ _ _ _ _ (by decide),
          miss_head _ _ _ _ _ (by decide)]; rfl
      · have e1 : escChar c = [c] := by simp [escChar, h1, h2, h3]
        have e2 : esc1 c = [c] := by simp [esc1, h1, h3]
        rw [e1, e2]
        exact miss_head _ _ _ _ _ (fun h => h1 h.symm)

theorem un2_tok (c : Char) (t : Str) : replaceAll ['=', '2', '3'] ['#'] (esc1 c ++ t)
    = esc2 c ++ replaceAll ['=', '2', '3'] ['#'] t := by
  by_cases h1 : c = '='
  · subst h1
    show replaceAll _ _ ('=' :: '3' :: 'D' :: t) = '=' :: '3' :: 'D' :: _
    rw [miss_second _ _ _ _ _ _ _ (by decide), miss_head _ _ _ _ _ (by decide),
      miss_head _ _ _ _ _ (by decide)]; rfl
  · by_cases h3 : c = '#'
    · subst h3
      exact replaceAll_hit ['=', '2', '3'] ['#'] t (by simp)
    · have e1 : esc1 c = [c] := by simp [esc1, h1, h3]
      have e2 : esc2 c = [c] := by simp [esc2, h1]
      rw [e1, e2]
      exact miss_head _ _ _ _ _ (fun h => h1 h.symm)

theorem un3_tok (c : Char) (t : Str) : replaceAll ['=', '3', 'D'] ['='] (esc2 c ++ t)
    = c :: replaceAll ['=', '3', 'D'] ['='] t := by
  by_cases h1 : c = '='
  · subst h1
    exact replaceAll_hit ['=', '3', 'D'] ['='] t (by simp)
  · have e2 : esc2 c = [c] := by simp [esc2, h1]
    rw [e2]
    exact miss_head _ _ _ _ _ (fun h => h1 h.symm)

theorem un1 (s : Str) : replaceAll ['=', '2', 'F'] ['/'] (s.flatMap escChar) = s.flatMap esc1 := by
  induction s with
  | nil => exact replaceAll_nil _ _
  | cons c s ih => rw [List.flatMap_cons, List.flatMap_cons, un1_tok, ih]

theorem un2 (s : Str) : replaceAll ['=', '2', '3'] ['#'] (s.flatMap esc1) = s.flatMap esc2 := by
  induction s with
  | nil => exact replaceAll_nil _ _
  | cons c s ih => rw [List.flatMap_cons, List.flatMap_cons, un2_tok, ih]

theorem un3 (s : Str) : replaceAll ['=', '3', 'D'] ['='] (s.flatMap esc2) = s := by
  induction s with
  | nil => exact replaceAll_nil _ _
  | cons c s ih => rw [List.flatMap_cons, un3_tok, ih]

theorem unescape_escape (s : Str) : unescape (escape s) = s := by
  unfold unescape
  dsimp only
  rw [escape_eq, un1, un2, un3]

theorem escape_inj (a b : Str) (h : escape a = escape b) : a = b := by
  rw [← unescape_escape a, h, unescape_escape]

theorem escChar_safe (c d : Char) (h : d ∈ escChar c) : d ≠ '/' ∧ d ≠ '#' := by
  unfold escChar at h
  split at h
  · simp only [List.mem_cons, List.not_mem_nil, or_false] at h
    rcases h with rfl | rfl | rfl <;> decide
  · split at h
    · simp only [List.mem_cons, List.not_mem_nil, or_false] at h
      rcases h with rfl | rfl | rfl <;> decide
    · split at h
      · simp only [List.mem_cons, List.not_mem_nil, or_false] at h
        rcases h with rfl | rfl | rfl <;> decide
      · rw [List.mem_singleton] at h; subst h; exact ⟨by assumption, by assumption⟩

theorem escape_safe (s : Str) (d : Char) (h : d ∈ escape s) : d ≠ '/' ∧ d ≠ '#' := by
  rw [escape_eq, List.mem_flatMap] at h
  obtain ⟨c, _, hc⟩ := h
  exact escChar_safe c d hc

/-- Characters that `escape` leaves alone. -/
def Plain (s : Str) : Prop := ∀ c ∈ s, c ≠ '=' ∧ c ≠ '/' ∧ c ≠ '#'

theorem escape_plain (s : Str) (h : Plain s) : escape s = s := by
  rw [escape_eq]
  induction s with
  | nil => rfl
  | cons c s ih =>
    rw [List.flatMap_cons, ih (fun d hd => h d (List.mem_cons_of_mem _ hd))]
    obtain ⟨h1, h2, h3⟩ := h c List.mem_cons_self
    simp [escChar, h1, h2, h3]

theorem unescape_plain (s : Str) (h : Plain s) : unescape s = s := by
  have := unescape_escape s
  rwa [escape_plain s h] at this

theorem plain_data : Plain dataPrefix := by unfold Plain; decide

theorem plain_append {a b : Str} (ha : Plain a) (hb : Plain b) : Plain (a ++ b) := by
  intro c hc
  rcases List.mem_append.1 hc with h | h
  · exact ha c h
  · exact hb c h

theorem plain_take {a : Str} (n : Nat) (ha : Plain a) : Plain (a.take n) :=
  fun c hc => ha c (List.mem_of_mem_take hc)

theorem plain_flatten {l : List Str} (h : ∀ s ∈ l, Plain s) : Plain l.flatten := by
  intro c hc
  rw [List.mem_flatten] at hc
  obtain ⟨s, hs, hc⟩ := hc
  exact h s hs c hc

/-- A key is escaped to something starting with the data prefix iff it starts with it. -/
theorem data_prefix_escape (k : Str) : dataPrefix <+: escape k ↔ dataPrefix <+: k := by
  constructor
  · have gen : ∀ (p : Str), Plain p → ∀ k, p <+: escape k → p <+: k := by
      intro p hp
      induction p with
      | nil => exact fun k _ => List.nil_prefix
      | cons c p ih =>
        intro k hk
        cases k with
        | nil => rw [escape_nil] at hk; exact hk
        | cons d k =>
          rw [escape_cons] at hk
          obtain ⟨h1, h2, h3⟩ := hp c List.mem_cons_self
          have hd : escChar d = [d] := by
            unfold escChar at hk ⊢
            split
            · rename_i h; rw [if_pos h] at hk
              have := (List.cons_prefix_cons.1 hk).1; exact absurd this h1
            · rename_i h; rw [if_neg h] at hk
              split
              · rename_i h'; rw [if_pos h'] at hk
                have := (List.cons_prefix_cons.1 hk).1; exact absurd this h1
              · rename_i h'; rw [if_neg h'] at hk
                split
                · rename_i h''; rw [if_pos h''] at hk
                  have := (List.cons_prefix_cons.1 hk).1; exact absurd this h1
                · rfl
          rw [hd] at hk
          obtain ⟨ha, hb⟩ := List.cons_prefix_cons.1 hk
          exact List.cons_prefix_cons.2 ⟨ha, ih (fun c hc => hp c (List.mem_cons_of_mem _ hc)) k hb⟩
    exact gen _ plain_data k
  · rintro ⟨t, rfl⟩
    rw [escape_append, escape_plain _ plain_data]
    exact ⟨_, rfl⟩

theorem dirsOf_data (no : Str) : dirsOf (dataPrefix ++ no) =
    dataPrefix :: (List.range' 3 ((no.length - 1) / 3) 3).map (fun i => no.take i) := by
  unfold dirsOf
  have : dataPrefix.isPrefixOf (dataPrefix ++ no) = true := by
    rw [List.isPrefixOf_iff_prefix]; exact ⟨no, rfl⟩
  rw [this]; rfl

theorem dirsOf_other (e : Str) (h : ¬ dataPrefix <+: e) : dirsOf e = [] := by
  unfold dirsOf
  have : dataPrefix.isPrefixOf e = false := by
    rw [Bool.eq_false_iff, Ne, List.isPrefixOf_iff_prefix]; exact h
  rw [this]; rfl


theorem walks_of (pfx : Str) (rest cur : List Str) (hc : ∀ s ∈ cur, Plain s)
    (hr : ∀ s ∈ rest, Plain s)
    (h : ∀ name, rest.head? = some name → pfx <+: cur.flatten ++ name) : walks pfx cur rest = true := by
  induction rest generalizing cur with
  | nil => rfl
  | cons name rest ih =>
    have hpre := h name rfl
    have hplain : Plain (cur.flatten ++ name) :=
      plain_append (plain_flatten hc) (hr name List.mem_cons_self)
    unfold walks
    rw [Bool.and_eq_true]
    constructor
    · unfold keepDir
      dsimp only
      rw [unescape_plain _ hplain, Bool.or_eq_true, List.isPrefixOf_iff_prefix]
      right
      exact (List.take_prefix _ _).trans hpre
    · apply ih
      · intro s hs
        rcases List.mem_append.1 hs with h | h
        · exact hc s h
        · rw [List.mem_singleton] at h; subst h; exact hr _ List.mem_cons_self
      · exact fun s hs => hr s (List.mem_cons_of_mem _ hs)
      · intro n _
        rw [List.flatten_append, List.flatten_singleton]
        exact hpre.trans ⟨n, rfl⟩

/-- Visiting the directory of `k` in a listing for a prefix of `k`. -/
theorem visited_ok (pfx k : Str) (hk : dataPrefix <+: k → Plain (k.drop 10))
    (hp : dataPrefix <+: pfx → pfx.length ≤ 13) (hpre : pfx <+: k) :
    visited pfx (dirsOf (escape k)) = true := by
  by_cases hd : dataPrefix <+: k
  · have hplain := hk hd
    obtain ⟨no, rfl⟩ := hd
    have hdrop : (dataPrefix ++ no).drop 10 = no := List.drop_left' rfl
    rw [hdrop] at hplain
    rw [escape_append, escape_plain _ plain_data, escape_plain _ hplain, dirsOf_data]
    have hcomps : ∀ s ∈ (List.range' 3 ((no.length - 1) / 3) 3).map (fun i => no.take i), Plain s := by
      intro s hs
      rw [List.mem_map] at hs
      obtain ⟨i, _, rfl⟩ := hs
      exact plain_take i hplain
    by_cases he : pfx = []
    · subst he
      unfold visited
      simp only [List.isEmpty_nil, if_true, List.length_nil, List.drop_zero, Bool.and_eq_true]
      refine ⟨rfl, ?_⟩
      have gen : ∀ rest cur, walks [] cur rest = true := by
        intro rest
        induction rest with
        | nil => exact fun _ => rfl
        | cons n rest ih => intro cur; unfold walks; rw [ih]; rfl
      exact gen _ _
    · have hne : pfx.isEmpty = false := by rw [List.isEmpty_eq_false_iff]; exact he
      unfold visited
      simp only [hne, Bool.false_eq_true, if_false, Bool.and_eq_true, List.isPrefixOf_iff_prefix]
      by_cases hdp : dataPrefix <+: pfx
      · have hlen := hp hdp
        obtain ⟨r, rfl⟩ := hdp
        have hrno : r <+: no := (List.prefix_append_right_inj _).1 hpre
        have hrl : r.length ≤ 3 := by
          rw [List.length_append] at hlen
          have : dataPrefix.length = 10 := rfl
          omega
        have hrp : Plain r := fun c hc => hplain c (hrno.subset hc)
        have hbase : (keyToPath (dataPrefix ++ r)).dropLast = [dataPrefix] := by
          unfold keyToPath
          dsimp only
          rw [List.dropLast_concat, escape_append, escape_plain _ plain_data, escape_plain _ hrp,
            dirsOf_data]
          have : (r.length - 1) / 3 = 0 := by omega
          rw [this]; rfl
        rw [hbase]
        refine ⟨⟨_, rfl⟩, ?_⟩
        apply walks_of
        · intro s hs; rw [List.mem_singleton] at hs; subst hs; exact plain_data
        · exact hcomps
        · intro name hname
          rw [List.flatten_singleton, List.prefix_append_right_inj]
          rw [List.length_singleton, List.drop_one, List.tail_cons, List.head?_map] at hname
          cases hn : (List.range' 3 ((no.length - 1) / 3) 3).head? with
          | none => rw [hn] at hname; cases hname
          | some i =>
            rw [hn] at hname
            have hi : i = 3 := by
              cases hm : (no.length - 1) / 3 with
              | zero => rw [hm] at hn; cases hn
              | succ m => rw [hm] at hn; simp only [List.range'_succ, List.head?_cons,
                  Option.some.injEq] at hn; exact hn.symm
            subst hi
            simp only [Option.map_some, Option.some.injEq] at hname
            subst hname
            rw [List.prefix_take_iff]
            exact ⟨hrno, hrl⟩
      · have hpd : pfx <+: dataPrefix := by
          rcases List.prefix_or_prefix_of_prefix hpre (List.prefix_append dataPrefix no) with h | h
          · exact h
          · exact absurd h hdp
        have hbase : (keyToPath pfx).dropLast = [] := by
          unfold keyToPath
          dsimp only
          rw [List.dropLast_concat, dirsOf_other]
          rw [data_prefix_escape]; exact hdp
        rw [hbase]
        refine ⟨List.nil_prefix, ?_⟩
        apply walks_of
        · intro s hs; cases hs
        · intro s hs
          rw [List.length_nil, List.drop_zero] at hs
          rcases List.mem_cons.1 hs with rfl | hs
          · exact plain_data
          · exact hcomps s hs
        · intro name hname
          simp only [List.length_nil, List.drop_zero, List.head?_cons, Option.some.injEq] at hname
          subst hname
          exact hpd
  · have hdp : ¬ dataPrefix <+: pfx := fun h => hd (h.trans hpre)
    rw [dirsOf_other _ (by rw [data_prefix_escape]; exact hd)]
    unfold visited
    have hbase : (if pfx.isEmpty = true then [] else (keyToPath pfx).dropLast) = [] := by
      split
      · rfl
      · unfold keyToPath
        dsimp only
        rw [List.dropLast_concat, dirsOf_other]
        rw [data_prefix_escape]; exact hdp
    rw [hbase]; rfl

theorem listFile_tmp (pfx key suffix : Str) : listFile pfx (tmpOf key suffix) = none := by
  unfold listFile tmpOf
  dsimp only
  split
  · rw [if_pos]
    rw [List.contains_iff_mem]
    simp
  · rfl

theorem escape_no_hash (k : Str) : (escape k).contains '#' = false := by
  rw [Bool.eq_false_iff, Ne, List.contains_iff_mem]
  intro h
  exact (escape_safe k '#' h).2 rfl

theorem listFile_key (pfx k : Str) (hk : dataPrefix <+: k → Plain (k.drop 10))
    (hp : dataPrefix <+: pfx → pfx.length ≤ 13) :
    listFile pfx (fileOf k) = if pfx.isPrefixOf k then some k else none := by
  unfold listFile fileOf
  dsimp only
  rw [escape_no_hash, unescape_escape]
  by_cases h : pfx <+: k
  · have h' : pfx.isPrefixOf k = true := List.isPrefixOf_iff_prefix.2 h
    rw [visited_ok pfx k hk hp h, h']; simp
  · have h' : pfx.isPrefixOf k = false := by
      rw [Bool.eq_false_iff, Ne, List.isPrefixOf_iff_prefix]; exact h
    have he : pfx.isEmpty = false := by
      rw [List.isEmpty_eq_false_iff]; rintro rfl; exact h List.nil_prefix
    rw [h', he]; simp

end Verif.Local
