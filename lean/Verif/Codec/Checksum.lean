import Verif.Codec.Num
/-
Model of `checksum_basic_mapping` (backends/common.py:585-631): the byte string that is hashed.
Strings are given by their UTF-8 encoding (an injective encoding whose byte order is the code point
order used by `sorted`); floats by the 8 bytes of `struct.pack('<d', val)`.
-/
namespace Verif.Codec.Checksum

abbrev Bytes := List UInt8

/-- Elementary values. -/
inductive Val where
  | str (utf8 : Bytes)
  | none
  | bool (b : Bool)
  | int (i : Int)
  | float (b : Bytes)
  | bytes (b : Bytes)
deriving Repr, DecidableEq

/-- `'%d' % val`. -/
def decBytes (n : Nat) : Bytes := (digits 8 n).map (fun d => UInt8.ofNat (48 + d))

def intBytes : Int → Bytes
  | .ofNat n => decBytes n
  | .negSucc n => 45 :: decBytes (n + 1)

/-- `struct.pack('<I', n)`. -/
def le32 (n : Nat) : Bytes :=
  [UInt8.ofNat (n % 256), UInt8.ofNat (n / 256 % 256), UInt8.ofNat (n / 65536 % 256),
   UInt8.ofNat (n / 16777216 % 256)]

/-- What is hashed for one value (backends/common.py:614-628).  The tags are `s n t f i d b`.
The assertion on the length of byte strings is `encOk`. -/
def encVal : Val → Bytes
  | .str s => 0 :: 115 :: s ++ [0]
  | .none => [0, 110]
  | .bool true => [0, 116]
  | .bool false => [0, 102]
  | .int i => 0 :: 105 :: intBytes i ++ [0]
  | .float b => 0 :: 100 :: b
  | .bytes b => 0 :: 98 :: le32 b.length ++ b

/-- The assertion `len(val).bit_length() <= 32`; and `struct.pack` gives 8 bytes. -/
def encOk : Val → Prop
  | .bytes b => b.length < 2 ^ 32
  | .float b => b.length = 8
  | _ => True

/-- `'signature'` in UTF-8. -/
def signature : Bytes := [115, 105, 103, 110, 97, 116, 117, 114, 101]

def encItem (e : Bytes × Val) : Bytes := e.1 ++ encVal e.2

/-- Lexicographic order on byte strings, as used by `sorted(metadata.keys())`. -/
def leBytes : Bytes → Bytes → Bool
  | [], _ => true
  | _ :: _, [] => false
  | a :: s, b :: t => if a = b then leBytes s t else a < b

/-- The complete input of the hash (backends/common.py:608-629).  A Python dict is an association
list with distinct keys; only the order given by `sorted` matters. -/
def input (d : List (Bytes × Val)) : Bytes :=
  (((d.mergeSort (fun a b => leBytes a.1 b.1)).filter (fun e => e.1 ≠ signature)).map encItem).flatten

/-- `d.get(k)`. -/
def get (d : List (Bytes × Val)) (k : Bytes) : Option Val := (d.find? (fun e => e.1 = k)).map (·.2)

/-! ### Lemmas -/

/-- No NUL byte in keys or strings. -/
def NulFree : Bytes × Val → Prop
  | (k, .str s) => (0 : UInt8) ∉ k ∧ (0 : UInt8) ∉ s
  | (k, _) => (0 : UInt8) ∉ k

theorem NulFree.key {e : Bytes × Val} (h : NulFree e) : (0 : UInt8) ∉ e.1 := by
  obtain ⟨k, v⟩ := e
  cases v
  · exact h.1
  all_goals exact h

theorem split_zero (a b x y : Bytes) (ha : (0 : UInt8) ∉ a) (hb : (0 : UInt8) ∉ b)
    (h : a ++ 0 :: x = b ++ 0 :: y) : a = b ∧ x = y := by
  induction a generalizing b with
  | nil =>
    cases b with
    | nil => exact ⟨rfl, (List.cons.inj h).2⟩
    | cons c b =>
      have := (List.cons.inj h).1
      subst this
      exact absurd List.mem_cons_self hb
  | cons c a ih =>
    cases b with
    | nil =>
      have := (List.cons.inj h).1
      subst this
      exact absurd List.mem_cons_self ha
    | cons d b =>
      obtain ⟨h1, h2⟩ := List.cons.inj h
      obtain ⟨h3, h4⟩ := ih b (fun h => ha (List.mem_cons_of_mem _ h))
        (fun h => hb (List.mem_cons_of_mem _ h)) h2
      exact ⟨by rw [h1, h3], h4⟩

theorem digitByte_inj (a b : Nat) (ha : a < 10) (hb : b < 10)
    (h : UInt8.ofNat (48 + a) = UInt8.ofNat (48 + b)) : a = b := by
  have := congrArg UInt8.toNat h
  rw [UInt8.toNat_ofNat', UInt8.toNat_ofNat'] at this
  omega

theorem map_digit_inj (l m : List Nat) (hl : ∀ d ∈ l, d < 10) (hm : ∀ d ∈ m, d < 10)
    (h : l.map (fun d => UInt8.ofNat (48 + d)) = m.map (fun d => UInt8.ofNat (48 + d))) : l = m := by
  induction l generalizing m with
  | nil => cases m with
    | nil => rfl
    | cons _ _ => cases h
  | cons a l ih => cases m with
    | nil => cases h
    | cons b m =>
      obtain ⟨h1, h2⟩ := List.cons.inj h
      rw [digitByte_inj a b (hl a List.mem_cons_self) (hm b List.mem_cons_self) h1,
        ih m (fun d hd => hl d (List.mem_cons_of_mem _ hd)) (fun d hd => hm d (List.mem_cons_of_mem _ hd)) h2]

theorem decBytes_inj (m n : Nat) (h : decBytes m = decBytes n) : m = n :=
  digits_inj 8 m n (map_digit_inj _ _ (digits_lt 8 m) (digits_lt 8 n) h)

theorem mem_decBytes (n : Nat) (b : UInt8) (h : b ∈ decBytes n) : b ≠ 0 ∧ b ≠ 45 := by
  unfold decBytes at h
  rw [List.mem_map] at h
  obtain ⟨d, hd, rfl⟩ := h
  have := digits_lt 8 n d hd
  have hall : ∀ d, d < 10 → UInt8.ofNat (48 + d) ≠ 0 ∧ UInt8.ofNat (48 + d) ≠ 45 := by decide
  exact hall d this

theorem intBytes_nul (i : Int) : (0 : UInt8) ∉ intBytes i := by
  cases i with
  | ofNat n => exact fun h => (mem_decBytes n _ h).1 rfl
  | negSucc n =>
    intro h
    rcases List.mem_cons.1 h with h | h
    · exact absurd h (by decide)
    · exact (mem_decBytes _ _ h).1 rfl

theorem intBytes_inj (i j : Int) (h : intBytes i = intBytes j) : i = j := by
  cases i with
  | ofNat m => cases j with
    | ofNat n => rw [decBytes_inj m n h]
    | negSucc n =>
      exfalso
      have : (45 : UInt8) ∈ decBytes m := by
        have h : decBytes m = 45 :: decBytes (n + 1) := h
        rw [h]; exact List.mem_cons_self
      exact (mem_decBytes m _ this).2 rfl
  | negSucc m => cases j with
    | ofNat n =>
      exfalso
      have : (45 : UInt8) ∈ decBytes n := by
        have h : 45 :: decBytes (m + 1) = decBytes n := h
        rw [← h]; exact List.mem_cons_self
      exact (mem_decBytes n _ this).2 rfl
    | negSucc n =>
      have := decBytes_inj _ _ (List.cons.inj h).2
      have : m = n := by omega
      rw [this]

theorem byte_inj (a b : Nat) (h : UInt8.ofNat (a % 256) = UInt8.ofNat (b % 256)) : a % 256 = b % 256 := by
  have := congrArg UInt8.toNat h
  rw [UInt8.toNat_ofNat', UInt8.toNat_ofNat'] at this
  omega

theorem le32_inj (m n : Nat) (hm : m < 2 ^ 32) (hn : n < 2 ^ 32) (h : le32 m = le32 n) : m = n := by
  unfold le32 at h
  simp only [List.cons.injEq, and_true] at h
  obtain ⟨h1, h2, h3, h4⟩ := h
  have e1 := byte_inj _ _ h1
  have e2 := byte_inj _ _ h2
  have e3 := byte_inj _ _ h3
  have e4 := byte_inj _ _ h4
  omega

/-- One item can be split off the front in only one way. -/
theorem encItem_inj (e f : Bytes × Val) (x y : Bytes) (he : NulFree e) (hf : NulFree f)
    (he' : encOk e.2) (hf' : encOk f.2) (h : encItem e ++ x = encItem f ++ y) : e = f ∧ x = y := by
  have hk := he.key
  have hl := hf.key
  obtain ⟨k, v⟩ := e
  obtain ⟨l, w⟩ := f
  unfold encItem at h
  dsimp only at *
  have hv : ∃ r, encVal v = 0 :: r := by cases v with
    | bool b => cases b <;> exact ⟨_, rfl⟩
    | _ => exact ⟨_, rfl⟩
  have hw : ∃ r, encVal w = 0 :: r := by cases w with
    | bool b => cases b <;> exact ⟨_, rfl⟩
    | _ => exact ⟨_, rfl⟩
  obtain ⟨r, hr⟩ := hv
  obtain ⟨q, hq⟩ := hw
  rw [hr, hq, List.append_assoc, List.append_assoc, List.cons_append, List.cons_append] at h
  obtain ⟨h1, h2⟩ := split_zero _ _ _ _ hk hl h
  subst h1
  have h3 : encVal v ++ x = encVal w ++ y := by rw [hr, hq, List.cons_append, List.cons_append, h2]
  clear h2 h hr hq r q
  have key : v = w ∧ x = y := by
    cases v with
    | str s => cases w with
      | str t =>
        simp only [encVal, List.cons_append, List.append_assoc, List.nil_append] at h3
        obtain ⟨h4, h5⟩ := split_zero s t x y he.2 hf.2 (List.cons.inj (List.cons.inj h3).2).2
        exact ⟨by rw [h4], h5⟩
      | bool b => cases b <;> exact absurd (List.cons.inj (List.cons.inj h3).2).1 (by decide)
      | _ => exact absurd (List.cons.inj (List.cons.inj h3).2).1 (by decide)
    | none => cases w with
      | none => exact ⟨rfl, (List.cons.inj (List.cons.inj h3).2).2⟩
      | bool b => cases b <;> exact absurd (List.cons.inj (List.cons.inj h3).2).1 (by decide)
      | _ => exact absurd (List.cons.inj (List.cons.inj h3).2).1 (by decide)
    | bool b => cases b with
      | true => cases w with
        | bool c => cases c with
          | true => exact ⟨rfl, (List.cons.inj (List.cons.inj h3).2).2⟩
          | false => exact absurd (List.cons.inj (List.cons.inj h3).2).1 (by decide)
        | _ => exact absurd (List.cons.inj (List.cons.inj h3).2).1 (by decide)
      | false => cases w with
        | bool c => cases c with
          | false => exact ⟨rfl, (List.cons.inj (List.cons.inj h3).2).2⟩
          | true => exact absurd (List.cons.inj (List.cons.inj h3).2).1 (by decide)
        | _ => exact absurd (List.cons.inj (List.cons.inj h3).2).1 (by decide)
    | int i => cases w with
      | int j =>
        simp only [encVal, List.cons_append, List.append_assoc, List.nil_append] at h3
        obtain ⟨h4, h5⟩ := split_zero _ _ x y (intBytes_nul i) (intBytes_nul j)
          (List.cons.inj (List.cons.inj h3).2).2
        exact ⟨by rw [intBytes_inj i j h4], h5⟩
      | bool b => cases b <;> exact absurd (List.cons.inj (List.cons.inj h3).2).1 (by decide)
      | _ => exact absurd (List.cons.inj (List.cons.inj h3).2).1 (by decide)
    | float s => cases w with
      | float t =>
        have h4 : s ++ x = t ++ y := (List.cons.inj (List.cons.inj h3).2).2
        have hst : s.length = t.length := by rw [show s.length = 8 from he', show t.length = 8 from hf']
        obtain ⟨h5, h6⟩ := List.append_inj h4 hst
        exact ⟨by rw [h5], h6⟩
      | bool b => cases b <;> exact absurd (List.cons.inj (List.cons.inj h3).2).1 (by decide)
      | _ => exact absurd (List.cons.inj (List.cons.inj h3).2).1 (by decide)
    | bytes s => cases w with
      | bytes t =>
        have h4 : le32 s.length ++ s ++ x = le32 t.length ++ t ++ y :=
          (List.cons.inj (List.cons.inj h3).2).2
        rw [List.append_assoc, List.append_assoc] at h4
        obtain ⟨h5, h6⟩ := List.append_inj h4 rfl
        obtain ⟨h7, h8⟩ := List.append_inj h6 (le32_inj _ _ he' hf' h5)
        exact ⟨by rw [h7], h8⟩
      | bool b => cases b <;> exact absurd (List.cons.inj (List.cons.inj h3).2).1 (by decide)
      | _ => exact absurd (List.cons.inj (List.cons.inj h3).2).1 (by decide)
  exact ⟨by rw [key.1], key.2⟩

theorem encItem_ne_nil (e : Bytes × Val) : encItem e ≠ [] := by
  obtain ⟨k, v⟩ := e
  unfold encItem
  cases v with
  | bool b => cases b <;> simp [encVal]
  | _ => simp [encVal]

theorem flatten_inj (s t : List (Bytes × Val)) (hs : ∀ e ∈ s, NulFree e ∧ encOk e.2)
    (ht : ∀ e ∈ t, NulFree e ∧ encOk e.2) (h : (s.map encItem).flatten = (t.map encItem).flatten) :
    s = t := by
  induction s generalizing t with
  | nil =>
    cases t with
    | nil => rfl
    | cons f t =>
      simp only [List.map_nil, List.flatten_nil, List.map_cons, List.flatten_cons] at h
      exact absurd (List.append_eq_nil_iff.1 h.symm).1 (encItem_ne_nil f)
  | cons e s ih =>
    cases t with
    | nil =>
      simp only [List.map_nil, List.flatten_nil, List.map_cons, List.flatten_cons] at h
      exact absurd (List.append_eq_nil_iff.1 h).1 (encItem_ne_nil e)
    | cons f t =>
      simp only [List.map_cons, List.flatten_cons] at h
      obtain ⟨h1, h2⟩ := encItem_inj e f _ _ (hs e List.mem_cons_self).1 (ht f List.mem_cons_self).1
        (hs e List.mem_cons_self).2 (ht f List.mem_cons_self).2 h
      rw [h1, ih t (fun e he => hs e (List.mem_cons_of_mem _ he))
        (fun e he => ht e (List.mem_cons_of_mem _ he)) h2]

theorem get_eq_some {d : List (Bytes × Val)} (hd : (d.map (·.1)).Nodup) (k : Bytes) (v : Val) :
    get d k = some v ↔ (k, v) ∈ d := by
  unfold get
  constructor
  · intro h
    cases hf : d.find? (fun e => e.1 = k) with
    | none => rw [hf] at h; cases h
    | some e =>
      rw [hf] at h
      have h1 := List.find?_some hf
      have h2 := List.mem_of_find?_eq_some hf
      simp only [decide_eq_true_eq] at h1
      simp only [Option.map_some, Option.some.injEq] at h
      rw [← h1, ← h]; exact h2
  · intro h
    induction d with
    | nil => cases h
    | cons e d ih =>
      rw [List.map_cons, List.nodup_cons] at hd
      rw [List.find?_cons]
      by_cases hek : e.1 = k
      · rw [decide_eq_true hek]
        rcases List.mem_cons.1 h with rfl | h
        · rfl
        · exact absurd (List.mem_map.2 ⟨_, h, hek.symm⟩) hd.1
      · rw [decide_eq_false hek]
        rcases List.mem_cons.1 h with rfl | h
        · exact absurd rfl hek
        · exact ih hd.2 h

theorem get_ext {c d : List (Bytes × Val)} (hc : (c.map (·.1)).Nodup) (hd : (d.map (·.1)).Nodup)
    (k : Bytes) (h : ∀ v, (k, v) ∈ c ↔ (k, v) ∈ d) : get c k = get d k := by
  cases h1 : get c k with
  | some v => exact ((get_eq_some hd k v).2 ((h v).1 ((get_eq_some hc k v).1 h1))).symm
  | none =>
    cases h2 : get d k with
    | none => rfl
    | some v =>
      have := (get_eq_some hc k v).2 ((h v).2 ((get_eq_some hd k v).1 h2))
      rw [h1] at this; exact this

end Verif.Codec.Checksum
