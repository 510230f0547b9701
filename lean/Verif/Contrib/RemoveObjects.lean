import Verif.Backend.Options
import Verif.Backend.Address
import Verif.Backend.EndpointProps
/-
C104: contrib/remove_objects.py deletes the objects in a list, e.g. one written by s3ql_verify.

Not modelled: opening the backend (C73, C95, C103).  How each backend deletes an object is C68 and C75; here a deletion is done, or fails before or after it has its effect.
-/
namespace Verif.Contrib.RemoveObjects
open Verif.Backend.Options (isSpace Space)

abbrev Str := List Char

/-! #### Model -/

/-- Text files (`open(file)`, remove_objects.py:65): `\r\n` and `\r` are read as `\n`.  `cr`: the previous character was `\r`. -/
def nl : Bool → Str → Str
  | _, [] => []
  | cr, c :: s =>
    if c = '\r' then '\n' :: nl true s
    else if c = '\n' ∧ cr = true then nl false s
    else c :: nl false s

/-- `for line in fh` (remove_objects.py:66), without the `\n` at the end of each line. -/
def lines : Str → List Str
  | [] => []
  | c :: s =>
    if c = '\n' then [] :: lines s
    else
      match lines s with
      | [] => [[c]]
      | w :: ws => (c :: w) :: ws

/-- `line.rstrip()` (remove_objects.py:67). -/
def rstrip (s : Str) : Str := (s.reverse.dropWhile isSpace).reverse

/-- The keys for which `backend.delete` is called, in this order, as long as there is no error. -/
def requests (file : Str) : List Str := (lines (nl false file)).map rstrip

/-- What happens to one deletion: it is done (this includes that there is no such object), or there is an error, before or after the object is removed. -/
inductive Outcome where
  | done | failedBefore | failedAfter
  deriving DecidableEq, Repr

/-- The objects of a backend. -/
abbrev Store (δ : Type) := Str → Option δ

def delete {δ : Type} (st : Store δ) (k : Str) : Store δ := fun x => if x = k then none else st x

/-- The loop (remove_objects.py:66-69); `true`: exit status 0.  An error ends the command. -/
def loop {δ : Type} : List Outcome → List Str → Store δ → Store δ × Bool
  | _, [], st => (st, true)
  | [], k :: ks, st => loop [] ks (delete st k)
  | .done :: os, k :: ks, st => loop os ks (delete st k)
  | .failedBefore :: _, _ :: _, st => (st, false)
  | .failedAfter :: _, k :: _, st => (delete st k, false)

/-- The command. -/
def run {δ : Type} (os : List Outcome) (file : Str) (st : Store δ) : Store δ × Bool := loop os (requests file) st

/-- What s3ql_verify writes for each object (verify.py:254, 258, 275, 285): `print(key, file=fh)`. -/
def verifyFile (keys : List Str) : Str := (keys.map (· ++ ['\n'])).flatten

/-- The key of a data object, `'s3ql_data_%d' % obj_id` (verify.py:244). -/
def dataKey (n : Nat) : Str := "s3ql_data_".toList ++ Codec.decStr n

/-! #### Specification -/

/-- A line as the user may write it: a key, white space, and one of the ways in which lines end. -/
structure Entry where
  key : Str
  blank : Str := []
  eol : Str := ['\n']

/-- Keys do not end with white space and contain no line ends; blanks contain no line ends either. -/
structure Entry.Ok (e : Entry) : Prop where
  last : ∀ c, e.key.getLast? = some c → isSpace c = false
  key : '\n' ∉ e.key ∧ '\r' ∉ e.key
  space : Space e.blank
  blank : '\n' ∉ e.blank ∧ '\r' ∉ e.blank
  eol : e.eol = ['\n'] ∨ e.eol = ['\r', '\n']

def Entry.text (e : Entry) : Str := e.key ++ e.blank ++ e.eol

def fileOf (es : List Entry) : Str := (es.map Entry.text).flatten

/-! #### Proofs -/

theorem nl_plain (w s : Str) (h : '\n' ∉ w ∧ '\r' ∉ w) : ∀ cr, w ≠ [] → nl cr (w ++ s) = w ++ nl false s := by
  induction w with
  | nil => intro _ hne; exact absurd rfl hne
  | cons c w ih =>
    intro cr _
    rw [List.mem_cons, List.mem_cons, not_or, not_or] at h
    rw [List.cons_append]
    rw [nl, if_neg (Ne.symm h.2.1), if_neg (fun hc => h.1.1 hc.1.symm)]
    cases w with
    | nil => rfl
    | cons d w => rw [ih ⟨h.1.2, h.2.2⟩ false (by simp)]; rfl

theorem nl_text (w e s : Str) (h : '\n' ∉ w ∧ '\r' ∉ w) (he : e = ['\n'] ∨ e = ['\r', '\n']) : nl false (w ++ (e ++ s)) = w ++ '\n' :: nl false s := by
  have key : nl false (e ++ s) = '\n' :: nl false s := by
    rcases he with rfl | rfl
    · simp [nl]
    · simp [nl]
  by_cases hw : w = []
  · subst hw; exact key
  · rw [nl_plain w _ h false hw, key]

theorem lines_line (w s : Str) (h : '\n' ∉ w) : lines (w ++ '\n' :: s) = w :: lines s := by
  induction w with
  | nil => rw [List.nil_append, lines, if_pos rfl]
  | cons c w ih =>
    rw [List.mem_cons, not_or] at h
    rw [List.cons_append, lines, if_neg (Ne.symm h.1), ih h.2]

theorem lines_last (w : Str) (h : '\n' ∉ w) (hne : w ≠ []) : lines w = [w] := by
  induction w with
  | nil => exact absurd rfl hne
  | cons c w ih =>
    rw [List.mem_cons, not_or] at h
    rw [lines, if_neg (Ne.symm h.1)]
    cases w with
    | nil => rfl
    | cons d w => rw [ih h.2 (by simp)]

theorem rstrip_pad (k w : Str) (hl : ∀ c, k.getLast? = some c → isSpace c = false) (hw : Space w) : rstrip (k ++ w) = k := by
  unfold rstrip
  rw [List.reverse_append, Backend.Options.dropWhile_space _ _ hw.reverse]
  by_cases hk : k = []
  · subst hk; rfl
  · have h2 := Backend.Options.dropWhile_clean k.reverse [] (by rw [List.head?_reverse]; exact hl) (by simpa using hk)
    rw [List.append_nil] at h2
    rw [h2, List.reverse_reverse]

theorem plain_append {a b : Str} (ha : '\n' ∉ a ∧ '\r' ∉ a) (hb : '\n' ∉ b ∧ '\r' ∉ b) : '\n' ∉ a ++ b ∧ '\r' ∉ a ++ b := by
  simp only [List.mem_append, not_or]
  exact ⟨⟨ha.1, hb.1⟩, ⟨ha.2, hb.2⟩⟩

theorem requests_append (es : List Entry) (h : ∀ e ∈ es, e.Ok) (rest : Str) : requests (fileOf es ++ rest) = es.map (·.key) ++ requests rest := by
  induction es with
  | nil => rfl
  | cons e es ih =>
    have he := h e List.mem_cons_self
    have ih := ih (fun x hx => h x (List.mem_cons_of_mem _ hx))
    have hp := plain_append he.key he.blank
    unfold requests at ih ⊢
    have : fileOf (e :: es) ++ rest = (e.key ++ e.blank) ++ (e.eol ++ (fileOf es ++ rest)) := by simp [fileOf, Entry.text]
    rw [this, nl_text _ _ _ hp he.eol, lines_line _ _ hp.1, List.map_cons, ih, rstrip_pad _ _ he.last he.space]
    rfl

theorem requests_last (k w : Str) (hk : '\n' ∉ k ∧ '\r' ∉ k) (hl : ∀ c, k.getLast? = some c → isSpace c = false) (hw : Space w) (hw' : '\n' ∉ w ∧ '\r' ∉ w) (hne : k ++ w ≠ []) :
    requests (k ++ w) = [k] := by
  unfold requests
  have hp := plain_append hk hw'
  have h1 := nl_plain (k ++ w) [] hp false hne
  rw [List.append_nil] at h1
  have h2 : nl false ([] : Str) = [] := rfl
  rw [h1, h2, List.append_nil, lines_last _ hp.1 hne, List.map_cons, rstrip_pad _ _ hl hw]
  rfl

theorem loop_spec {δ : Type} : ∀ (ks : List Str) (os : List Outcome) (st : Store δ),
    ((loop os ks st).2 = true → ∀ x, (loop os ks st).1 x = if x ∈ ks then none else st x) ∧
    ((loop os ks st).2 = false → ∃ n, n < ks.length ∧ os[n]? ≠ none ∧ os[n]? ≠ some .done ∧ ∃ m, n ≤ m ∧ m ≤ n + 1 ∧ ∀ x, (loop os ks st).1 x = if x ∈ ks.take m then none else st x)
  | [], os, st => by
    have : loop os ([] : List Str) st = (st, true) := by cases os with | nil => rfl | cons o os => cases o <;> rfl
    rw [this]
    exact ⟨fun _ x => by simp, fun h => nomatch h⟩
  | k :: ks, [], st => by
    have ih := loop_spec ks [] (delete st k)
    rw [loop]
    refine ⟨fun h x => ?_, fun h => ?_⟩
    · rw [ih.1 h x]
      unfold delete
      by_cases e : x = k <;> simp [e]
    · obtain ⟨n, _, hn, _⟩ := ih.2 h
      exact absurd (by simp) hn
  | k :: ks, .done :: os, st => by
    have ih := loop_spec ks os (delete st k)
    rw [loop]
    refine ⟨fun h x => ?_, fun h => ?_⟩
    · rw [ih.1 h x]
      unfold delete
      by_cases e : x = k <;> simp [e]
    · obtain ⟨n, hn, h1, h2, m, hm, hm', hx⟩ := ih.2 h
      refine ⟨n + 1, by simpa using hn, by simpa using h1, by simpa using h2, m + 1, by omega, by omega, fun x => ?_⟩
      rw [hx x, List.take_succ_cons]
      unfold delete
      by_cases e : x = k <;> simp [e]
  | k :: ks, .failedBefore :: os, st => by
    rw [loop]
    refine ⟨(fun h => nomatch h), fun _ => ⟨0, by simp, by simp, by simp, 0, by simp, by simp, fun x => by simp⟩⟩
  | k :: ks, .failedAfter :: os, st => by
    rw [loop]
    refine ⟨(fun h => nomatch h), fun _ => ⟨0, by simp, by simp, by simp, 1, by simp, by simp, fun x => by simp [delete]⟩⟩

theorem loop_ok {δ : Type} : ∀ (ks : List Str) (os : List Outcome) (st : Store δ), (∀ o ∈ os, o = .done) → (loop os ks st).2 = true
  | [], os, st, _ => by cases os with | nil => rfl | cons o os => cases o <;> rfl
  | k :: ks, [], st, h => by rw [loop]; exact loop_ok ks [] _ h
  | k :: ks, o :: os, st, h => by
    rw [h o List.mem_cons_self, loop]
    exact loop_ok ks os _ (fun x hx => h x (List.mem_cons_of_mem _ hx))

/-! #### Theorems -/

/-- C104: if the command ends with exit status 0, exactly the listed objects are gone; the last line may lack its end.  If it does not, this is because of an error in one of the deletions, the
objects listed before it are gone, those listed after it are not, and no other object is touched. -/
theorem C104_remove {δ : Type} (es : List Entry) (h : ∀ e ∈ es, e.Ok) (final : List Entry) (hf : ∀ e ∈ final, e.Ok) (hf1 : final.length ≤ 1) (hfne : ∀ e ∈ final, e.key ≠ [])
    (os : List Outcome) (st : Store δ) :
    let keys := (es ++ final).map (·.key)
    let r := run os (fileOf es ++ (final.map (fun e => e.key ++ e.blank)).flatten) st
    (r.2 = true → ∀ x, r.1 x = if x ∈ keys then none else st x) ∧
    (r.2 = false → ∃ n, n < keys.length ∧ os[n]? ≠ none ∧ os[n]? ≠ some .done ∧ ∃ m, n ≤ m ∧ m ≤ n + 1 ∧ ∀ x, r.1 x = if x ∈ keys.take m then none else st x) ∧
    ((∀ o ∈ os, o = .done) → r.2 = true) := by
  intro keys r
  have hr : requests (fileOf es ++ (final.map (fun e => e.key ++ e.blank)).flatten) = keys := by
    rw [requests_append es h]
    show _ = (es ++ final).map (·.key)
    rw [List.map_append]
    congr 1
    cases final with
    | nil => rfl
    | cons e rest =>
      have : rest = [] := by
        cases rest with
        | nil => rfl
        | cons a b => simp at hf1
      subst this
      have he := hf e List.mem_cons_self
      have hne := hfne e List.mem_cons_self
      simp only [List.map_cons, List.map_nil, List.flatten_cons, List.flatten_nil, List.append_nil]
      exact requests_last _ _ he.key he.last he.space he.blank (by simp [hne])
  have hrr : r = loop os keys st := by show run _ _ _ = _; unfold run; rw [hr]
  rw [hrr]
  exact ⟨(loop_spec keys os st).1, (loop_spec keys os st).2, loop_ok keys os st⟩

/-- C104: a list written by s3ql_verify. -/
theorem C104_after_verify {δ : Type} (keys : List Str) (hk : ∀ k ∈ keys, '\n' ∉ k ∧ '\r' ∉ k ∧ ∀ c, k.getLast? = some c → isSpace c = false) (os : List Outcome) (st : Store δ)
    (hok : (run os (verifyFile keys) st).2 = true) (x : Str) : (run os (verifyFile keys) st).1 x = if x ∈ keys then none else st x := by
  have h := C104_remove (δ := δ) (keys.map (fun k => { key := k })) (by
    intro e he
    obtain ⟨k, hkm, rfl⟩ := List.mem_map.1 he
    exact ⟨(hk k hkm).2.2, ⟨(hk k hkm).1, (hk k hkm).2.1⟩, (fun _ h => nomatch h), ⟨by simp, by simp⟩, Or.inl rfl⟩) [] (fun _ h => nomatch h) (by simp) (fun _ h => nomatch h) os st
  have hfile : fileOf (keys.map (fun k => ({ key := k } : Entry))) ++ (([] : List Entry).map (fun e => e.key ++ e.blank)).flatten = verifyFile keys := by
    simp [fileOf, verifyFile, Entry.text, Function.comp_def]
  have hkeys : ((keys.map (fun k => ({ key := k } : Entry))) ++ []).map (fun e : Entry => e.key) = keys := by simp [Function.comp_def]
  dsimp only at h
  rw [hfile, hkeys] at h
  exact h.1 hok x

theorem digit_facts (c : Char) (h : Backend.Endpoint.isDigit c = true) : isSpace c = false ∧ c ≠ '\n' ∧ c ≠ '\r' := by
  unfold Backend.Endpoint.isDigit at h
  rw [Bool.and_eq_true, decide_eq_true_eq, decide_eq_true_eq] at h
  have h1 : 48 ≤ c.toNat := h.1
  have h2 : c.toNat ≤ 57 := h.2
  refine ⟨?_, ?_, ?_⟩
  · unfold isSpace
    simp only [Bool.or_eq_false_iff, Bool.and_eq_false_iff, decide_eq_false_iff_not]
    omega
  · rintro rfl; exact absurd h1 (by decide)
  · rintro rfl; exact absurd h1 (by decide)

theorem dataKey_ok (n : Nat) : '\n' ∉ dataKey n ∧ '\r' ∉ dataKey n ∧ ∀ c, (dataKey n).getLast? = some c → isSpace c = false := by
  have hd := fun c hc => digit_facts c (Backend.Endpoint.decStr_digit n c hc)
  unfold dataKey
  refine ⟨?_, ?_, ?_⟩
  · rw [List.mem_append]
    rintro (h | h)
    · revert h; decide
    · exact (hd _ h).2.1 rfl
  · rw [List.mem_append]
    rintro (h | h)
    · revert h; decide
    · exact (hd _ h).2.2 rfl
  · intro c hc
    rw [Backend.Options.last_append (Backend.Endpoint.decStr_ne_nil n)] at hc
    exact (hd c (List.mem_of_getLast? hc)).1

/-- C104: after `remove_objects.py` with the list of s3ql_verify has ended with exit status 0, a data object is there exactly if it was before and s3ql_verify did not list it; all other objects are as before. -/
theorem C104_data_objects {δ : Type} (ids : List Nat) (os : List Outcome) (st : Store δ) (hok : (run os (verifyFile (ids.map dataKey)) st).2 = true) :
    (∀ n, (run os (verifyFile (ids.map dataKey)) st).1 (dataKey n) = if n ∈ ids then none else st (dataKey n)) ∧
    (∀ x, (∀ n, x ≠ dataKey n) → (run os (verifyFile (ids.map dataKey)) st).1 x = st x) := by
  have key := C104_after_verify (ids.map dataKey) (by
    intro k hk
    obtain ⟨n, _, rfl⟩ := List.mem_map.1 hk
    exact dataKey_ok n) os st hok
  refine ⟨fun n => ?_, fun x hx => ?_⟩
  · rw [key]
    have : dataKey n ∈ ids.map dataKey ↔ n ∈ ids := by
      rw [List.mem_map]
      constructor
      · rintro ⟨m, hm, he⟩
        rwa [← Codec.decStr_inj m n (List.append_cancel_left he)]
      · exact fun h => ⟨n, h, rfl⟩
    by_cases h : n ∈ ids
    · rw [if_pos h, if_pos (this.2 h)]
    · rw [if_neg h, if_neg (fun hh => h (this.1 hh))]
  · rw [key, if_neg]
    intro hm
    obtain ⟨n, _, he⟩ := List.mem_map.1 hm
    exact hx n he.symm

/-- C104, violated: a blank line is taken for a key.  With an S3 storage URL without a prefix, the request `DELETE` is then not about any object, but about the bucket (the server deletes it if it is
empty). -/
theorem C104_blank_line (base : Str) (b : Backend.Addr.S3c) (hu : Backend.Addr.Usable base b) (hb : '/' ∉ b.bucket) (hp : b.pfx = []) (es : List Entry) (h : ∀ e ∈ es, e.Ok) (rest : Str) :
    ∃ k ∈ requests (fileOf es ++ '\n' :: rest), Backend.Addr.s3Server base b.hostname (b.target (b.objPath k) none []) = some ⟨Codec.utf8 b.bucket, [], []⟩ := by
  refine ⟨[], ?_, ?_⟩
  · rw [requests_append es h]
    refine List.mem_append.2 (Or.inr ?_)
    unfold requests
    have : nl false ('\n' :: rest) = '\n' :: nl false rest := by simp [nl]
    rw [this, lines, if_pos rfl, List.map_cons]
    exact List.mem_cons_self
  · have := Backend.Addr.C68_s3_object_partial base b hu hb [] none (fun _ h => nomatch h) []
    rw [hp] at this
    exact this

/-- C104, violated: an object whose key ends with white space is not deleted; the one whose key lacks the white space is. -/
theorem C104_trailing_space {δ : Type} (st : Store δ) (x : Str) :
    (run [] "backup \n".toList st).2 = true ∧ (run [] "backup \n".toList st).1 x = if x = "backup".toList then none else st x := by
  have : requests "backup \n".toList = ["backup".toList] := by decide +kernel
  unfold run
  rw [this]
  exact ⟨rfl, rfl⟩

/-- Entries that meet the hypotheses of the theorems. -/
def sample : List Entry := [{ key := "s3ql_data_1".toList }, { key := "a b".toList, blank := [' ', '\t'], eol := ['\r', '\n'] }]

example : ∀ e ∈ sample, e.Ok := by
  intro e he
  simp only [sample, List.mem_cons, List.not_mem_nil, or_false] at he
  rcases he with rfl | rfl
  · exact ⟨fun c hc => by cases hc; decide, by decide, by decide, by decide, Or.inl rfl⟩
  · exact ⟨fun c hc => by cases hc; decide, by decide, by decide, by decide, Or.inr rfl⟩

example : requests (fileOf sample ++ "s3ql_data_7 ".toList) = ["s3ql_data_1".toList, "a b".toList, "s3ql_data_7".toList] := by decide +kernel

end Verif.Contrib.RemoveObjects
