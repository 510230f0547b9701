/-
Property C38: streaming of a request body (http.py `_stream_body` 537-559 and `_stream_file` 561-585).
-/
namespace Verif.Backend.Body

/-- A part of a body: bytes, or a file with its contents and the sizes its `read` calls return (each is clipped to
between one byte and the number asked for; end of file is an empty read). -/
inductive Item where
  | bytes (b : List UInt8)
  | file (data : List UInt8) (reads : Nat → Nat)

/-- All bytes of a part. -/
def Item.all : Item → List UInt8
  | .bytes b => b
  | .file d _ => d

inductive Err where
  | excessBodyData
  | stateError
deriving DecidableEq, Repr

def bufsize : Nat := 256 * 1024

/-- The number of bytes the `k`-th `read(n)` returns from a file with `len` bytes left. -/
def readLen (reads : Nat → Nat) (k n len : Nat) : Nat := min (min (max 1 (reads k)) n) len

/-- `_stream_file` (http.py:561-585): returns the `Data` events sent and the new `remaining`. -/
def streamFile (reads : Nat → Nat) (data : List UInt8) (k remaining : Nat) : List (List UInt8) × Nat :=
  if _h : 0 < remaining ∧ data ≠ [] then
    let n := readLen reads k (min bufsize remaining) data.length
    let r := streamFile reads (data.drop n) (k + 1) (remaining - n)
    (data.take n :: r.1, r.2)
  else ([], remaining)
termination_by data.length
decreasing_by
  have : 0 < data.length := List.length_pos_iff.2 _h.2
  simp only [List.length_drop, readLen, bufsize]
  omega

/-- `_stream_body` (http.py:537-559): the `Data` events sent and the error raised, if any. -/
def streamBody (remaining : Nat) : List Item → List (List UInt8) × Option Err
  | [] => ([], if 0 < remaining then some .stateError else none)
  | item :: items =>
    if remaining = 0 then ([], none)
    else
      match item with
      | .bytes b =>
        if remaining < b.length then ([], some .excessBodyData)
        else
          let r := streamBody (remaining - b.length) items
          (if b.isEmpty then r.1 else b :: r.1, r.2)
      | .file d reads =>
        let f := streamFile reads d 0 remaining
        let r := streamBody f.2 items
        (f.1 ++ r.1, r.2)

theorem streamFile_spec (reads : Nat → Nat) (data : List UInt8) (k remaining : Nat) :
    (streamFile reads data k remaining).1.flatten = data.take remaining ∧
    (streamFile reads data k remaining).2 = remaining - data.length ∧
    ∀ c ∈ (streamFile reads data k remaining).1, c ≠ [] ∧ c.length ≤ bufsize := by
  fun_induction streamFile reads data k remaining with
  | case1 data k remaining h n r ih =>
    have hpos : 0 < data.length := List.length_pos_iff.2 h.2
    have hn : 0 < n ∧ n ≤ remaining ∧ n ≤ data.length ∧ n ≤ bufsize := by
      show 0 < readLen reads k (min bufsize remaining) data.length ∧ _
      simp only [n, readLen, bufsize]; omega
    obtain ⟨h1, h2, h3⟩ := ih
    refine ⟨?_, ?_, ?_⟩
    · simp only [List.flatten_cons, r, h1]
      have : remaining = n + (remaining - n) := by omega
      conv => rhs; rw [this, List.take_add]
    · simp only [r, h2, List.length_drop]; omega
    · intro c hc
      rcases List.mem_cons.1 hc with hc | hc
      · subst hc
        refine ⟨?_, by rw [List.length_take]; omega⟩
        intro h0
        have := congrArg List.length h0
        simp only [List.length_take, List.length_nil] at this
        omega
      · exact h3 c hc
  | case2 data k remaining h =>
    refine ⟨?_, ?_, by simp⟩
    · by_cases hr : 0 < remaining
      · have : data = [] := by
          by_cases hd : data = []
          · exact hd
          · exact absurd ⟨hr, hd⟩ h
        simp [this]
      · have : remaining = 0 := by omega
        simp [this]
    · by_cases hr : 0 < remaining
      · have : data = [] := by
          by_cases hd : data = []
          · exact hd
          · exact absurd ⟨hr, hd⟩ h
        simp [this]
      · simp only; omega

/-- **C38 (completed requests).**  If streaming a body that was announced with `total` bytes succeeds, then exactly
`total` bytes were sent, and they are the first `total` bytes of the parts of the body put together. -/
theorem C38_body_length_partial (total : Nat) (body : List Item) (h : (streamBody total body).2 = none) :
    (streamBody total body).1.flatten = (body.flatMap Item.all).take total ∧
    (streamBody total body).1.flatten.length = total := by
  induction body generalizing total with
  | nil =>
    by_cases ht : 0 < total
    · simp [streamBody, ht] at h
    · have : total = 0 := by omega
      subst this; simp [streamBody]
  | cons item items ih =>
    unfold streamBody at h ⊢
    by_cases ht : total = 0
    · subst ht; simp
    · rw [if_neg ht] at h ⊢
      cases item with
      | bytes b =>
        dsimp only at h ⊢
        by_cases hb : total < b.length
        · rw [if_pos hb] at h; cases h
        · rw [if_neg hb] at h ⊢
          obtain ⟨h1, h2⟩ := ih (total - b.length) h
          have hfl : (if b.isEmpty = true then (streamBody (total - b.length) items).1
              else b :: (streamBody (total - b.length) items).1).flatten =
              b ++ (streamBody (total - b.length) items).1.flatten := by
            cases b with
            | nil => simp
            | cons x xs => simp
          simp only [hfl]
          refine ⟨?_, by rw [List.length_append, h2]; omega⟩
          rw [h1]
          simp only [List.flatMap_cons, Item.all, List.take_append]
          rw [List.take_of_length_le (l := b) (by omega)]
      | file d reads =>
        dsimp only at h ⊢
        obtain ⟨f1, f2, _⟩ := streamFile_spec reads d 0 total
        obtain ⟨h1, h2⟩ := ih _ h
        rw [List.flatten_append, f1, h1, f2]
        refine ⟨by simp only [List.flatMap_cons, Item.all, List.take_append], ?_⟩
        rw [List.length_append, ← f2, ← h1, h2, f2, List.length_take]
        omega

/-- **C38 (errors).**  A body with fewer bytes than announced is always rejected, and whatever is sent before an error
is a proper part of what was announced, so the server never sees a complete request. -/
theorem C38_short_body_rejected (total : Nat) (body : List Item) (h : (body.flatMap Item.all).length < total) :
    (streamBody total body).2 ≠ none := by
  intro hn
  obtain ⟨h1, h2⟩ := C38_body_length_partial total body hn
  rw [h1, List.length_take] at h2
  omega

theorem C38_error_incomplete (total : Nat) (body : List Item) (h : (streamBody total body).2 ≠ none) :
    (streamBody total body).1.flatten.length < total := by
  induction body generalizing total with
  | nil =>
    unfold streamBody at h ⊢
    by_cases ht : 0 < total
    · simpa using ht
    · simp [ht] at h
  | cons item items ih =>
    unfold streamBody at h ⊢
    by_cases ht : total = 0
    · simp [ht] at h
    · rw [if_neg ht] at h ⊢
      cases item with
      | bytes b =>
        dsimp only at h ⊢
        by_cases hb : total < b.length
        · rw [if_pos hb]; simp; omega
        · rw [if_neg hb] at h ⊢
          have := ih (total - b.length) h
          dsimp only
          cases b with
          | nil => simpa using this
          | cons x xs => simp only [List.isEmpty_cons, Bool.false_eq_true, if_false, List.flatten_cons, List.length_append]; omega
      | file d reads =>
        dsimp only at h ⊢
        obtain ⟨f1, f2, _⟩ := streamFile_spec reads d 0 total
        have := ih _ h
        rw [List.flatten_append, List.length_append, f1, List.length_take]
        omega

/-- A body of byte strings whose total is exactly the announced length is sent whole and succeeds, and so is a file of
the announced length, however its reads are split. -/
theorem C38_exact_body_sent (total : Nat) (body : List Item) (h : (body.flatMap Item.all).length = total) :
    (streamBody total body).2 = none ∧ (streamBody total body).1.flatten = body.flatMap Item.all := by
  have hok : (streamBody total body).2 = none := by
    induction body generalizing total with
    | nil => simp at h; subst h; rfl
    | cons item items ih =>
      unfold streamBody
      by_cases ht : total = 0
      · simp [ht]
      · rw [if_neg ht]
        simp only [List.flatMap_cons, List.length_append] at h
        cases item with
        | bytes b =>
          simp only [Item.all] at h
          dsimp only
          rw [if_neg (by omega)]
          exact ih _ (by omega)
        | file d reads =>
          simp only [Item.all] at h
          dsimp only
          rw [(streamFile_spec reads d 0 total).2.1]
          exact ih _ (by omega)
  refine ⟨hok, ?_⟩
  rw [(C38_body_length_partial total body hok).1, List.take_of_length_le (by omega)]

/-- **C38 is not fully true**: byte strings that come after the announced length has been reached are dropped without
an error, although a byte string that crosses it is reported. -/
theorem C38_excess_item_ignored : streamBody 2 [.bytes [1, 2], .bytes [3]] = ([[1, 2]], none) ∧
    (streamBody 2 [.bytes [1], .bytes [2, 3]]).2 = some .excessBodyData := by decide

example : (streamBody 5 [.bytes [1, 2], .file [3, 4, 5] (fun _ => 2)]).2 = none :=
  (C38_exact_body_sent 5 _ rfl).1

end Verif.Backend.Body
