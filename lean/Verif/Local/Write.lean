/-
C48: writing, reading and deleting in the local backend, with any number of writers and readers at work at the same time and
writers that are killed at any point (backends/local.py:118-193, 270-281; common.py:398-424).
-/
import Verif.Local.Props

namespace Verif.Local.Write

abbrev Bytes := List UInt8

/-! #### Model -/

def magic : Bytes := [0x73, 0x33, 0x71, 0x6c, 0x5f, 0x31, 0x0a]
/-- `struct.pack('<H', n)` -/
def le16 (n : Nat) : Bytes := [UInt8.ofNat (n % 256), UInt8.ofNat (n / 256)]
def unLe16 (a b : UInt8) : Nat := a.toNat + 256 * b.toNat

inductive Status where
  | active | ok (size : Nat) | failed
deriving DecidableEq

/-- A call of `write_fh`: the key, process and thread number as they appear in the name of the temporary file, the open file and
the position in it, and what is still to be written, in the pieces that are given to `write`. -/
structure Writer where
  key : Str
  suf : Str
  ino : Nat
  pos : Nat
  rest : List Bytes
  status : Status

/-- A call of `readinto_fh`: the open file, the position in it, and what has been read. -/
structure Reader where
  ino : Nat
  pos : Nat
  got : Bytes
  done : Bool

/-- The directory tree, the contents of the files, the number of the next file, and the calls. -/
structure St where
  names : FileAt → Option Nat
  data : Nat → Bytes
  next : Nat
  writers : List Writer
  readers : List Reader

/-- `begin key suf buf chunks`: call of `write_fh` with metadata that is serialised to `buf`, and a file that is read in `chunks`.
`write w short`: writer `w` writes its next piece; the operating system omits the last `short` bytes.
`stop w`: exception in writer `w`, or its process is killed. -/
inductive Ev where
  | begin (key suf : Str) (buf : Bytes) (chunks : List Bytes)
  | write (w short : Nat)
  | rename (w : Nat)
  | stop (w : Nat)
  | delete (key : Str)
  | open (key : Str)
  | read (r n : Nat)

def upd {A B : Type} [DecidableEq A] (f : A → B) (a : A) (b : B) : A → B := fun x => if x = a then b else f x

/-- `write` at a position of a file. -/
def pwrite (d : Bytes) (pos : Nat) (c : Bytes) : Bytes :=
  (d ++ List.replicate (pos - d.length) 0).take pos ++ c ++ d.drop (pos + c.length)

/-- The pieces that `write_fh` writes (backends/local.py:187-190). -/
def pieces (buf : Bytes) (chunks : List Bytes) : List Bytes := magic :: le16 buf.length :: buf :: chunks

/-- A step of one of the calls.  Directories are not modelled: they exist when needed, and a call of `delete` leaves them. -/
def step (s : St) : Ev → Option St
  | .begin key suf buf chunks =>
    -- backends/local.py:161-162: ValueError
    if 65536 ≤ buf.length then some s
    else
      -- backends/local.py:172-185
      match s.names (tmpOf key suf) with
      | some i => some { s with data := upd s.data i [], writers := s.writers ++ [⟨key, suf, i, 0, pieces buf chunks, .active⟩] }
      | none => some { s with names := upd s.names (tmpOf key suf) (some s.next), data := upd s.data s.next [], next := s.next + 1, writers := s.writers ++ [⟨key, suf, s.next, 0, pieces buf chunks, .active⟩] }
  | .write w short =>
    -- backends/local.py:187-190; the return value of `write` is ignored
    match s.writers[w]? with
    | none => none
    | some wr =>
      if wr.status = .active then
        match wr.rest with
        | [] => none
        | c :: rest =>
          let c := c.take (c.length - short)
          some { s with data := upd s.data wr.ino (pwrite (s.data wr.ino) wr.pos c), writers := s.writers.set w { wr with pos := wr.pos + c.length, rest := rest } }
      else none
  | .rename w =>
    -- backends/local.py:191-193
    match s.writers[w]? with
    | none => none
    | some wr =>
      if wr.status = .active ∧ wr.rest = [] then
        match s.names (tmpOf wr.key wr.suf) with
        | none => some { s with writers := s.writers.set w { wr with status := .failed } }
        | some i => some { s with names := upd (upd s.names (tmpOf wr.key wr.suf) none) (fileOf wr.key) (some i), writers := s.writers.set w { wr with status := .ok wr.pos } }
      else none
  | .stop w =>
    match s.writers[w]? with
    | none => none
    | some wr => if wr.status = .active then some { s with writers := s.writers.set w { wr with status := .failed } } else none
  -- backends/local.py:204-220
  | .delete key => some { s with names := upd s.names (fileOf key) none }
  | .open key =>
    -- backends/local.py:130-137
    match s.names (fileOf key) with
    | none => some s
    | some i => some { s with readers := s.readers ++ [⟨i, 0, [], false⟩] }
  | .read r n =>
    -- backends/local.py:139-144; reading ends when nothing is returned
    match s.readers[r]? with
    | none => none
    | some rd =>
      if rd.done then none
      else
        let c := ((s.data rd.ino).drop rd.pos).take (n + 1)
        if c = [] then some { s with readers := s.readers.set r { rd with done := true } }
        else some { s with readers := s.readers.set r { rd with pos := rd.pos + c.length, got := rd.got ++ c } }

/-- `_read_meta` (backends/local.py:270-281) and the copying of the rest: the serialised metadata, and the data.  (C29 is about the
metadata.) -/
def parse (d : Bytes) : Option (Bytes × Bytes) :=
  let h := d.take 9
  if magic.isPrefixOf h then
    match h.drop 7 with
    | [a, b] => some ((d.drop 9).take (unLe16 a b), (d.drop 9).drop (unLe16 a b))
    | _ => none
  else none

/-! #### Specification -/

/-- The file with the complete object. -/
def whole (buf : Bytes) (chunks : List Bytes) : Bytes := magic ++ le16 buf.length ++ buf ++ chunks.flatten

/-- The contents of the file of an object. -/
def current (s : St) (key : Str) : Option Bytes := (s.names (fileOf key)).map s.data

/-- The storage directory at the start: each key at most one file, perhaps temporary files of earlier processes, no calls. -/
structure Start (s : St) : Prop where
  inj : ∀ a b i, s.names a = some i → s.names b = some i → a = b
  lt : ∀ a i, s.names a = some i → i < s.next
  writers : s.writers = []
  readers : s.readers = []

/-- The operating system writes what it is told to, and no process and thread has two calls for the same key at the same time. -/
def Fair (s : St) : Ev → Prop
  | .write _ short => short = 0
  | .begin key suf _ _ => ∀ wr ∈ s.writers, wr.status = .active → wr.key = key → wr.suf ≠ suf
  | _ => True

inductive Run (s0 : St) : List Ev → St → Prop where
  | nil : Run s0 [] s0
  | step {es : List Ev} {s s' : St} (ev : Ev) : Run s0 es s → Fair s ev → step s ev = some s' → Run s0 (es ++ [ev]) s'

/-- `buf` and `chunks` were given to the call of `write_fh` for `key` that became writer `w`: it is the `w`-th accepted call. -/
def Accepted (es : List Ev) : List (Str × Bytes × List Bytes) :=
  es.filterMap fun
    | .begin key _ buf chunks => if buf.length < 65536 then some (key, buf, chunks) else none
    | _ => none

/-! #### Lemmas -/

theorem fileOf_inj {a b : Str} (h : fileOf a = fileOf b) : a = b := by
  unfold fileOf at h
  exact escape_inj _ _ (Prod.mk.inj h).2

theorem fileOf_ne_tmpOf (k k' suf : Str) : fileOf k ≠ tmpOf k' suf := C31_tmp_files_disjoint k k' suf

theorem tmpOf_inj {a b s t : Str} (h : tmpOf a s = tmpOf b t) : a = b ∧ s = t := by
  unfold tmpOf at h
  have h2 := (Prod.mk.inj h).2
  have key : ∀ (x y u v : Str), '#' ∉ x → '#' ∉ y → x ++ '#' :: u = y ++ '#' :: v → x = y ∧ u = v := by
    intro x
    induction x with
    | nil =>
      intro y u v _ hy h
      cases y with
      | nil => exact ⟨rfl, (List.cons.inj h).2⟩
      | cons c y =>
        have := (List.cons.inj h).1
        exact absurd (this ▸ List.mem_cons_self) hy
    | cons c x ih =>
      intro y u v hx hy h
      cases y with
      | nil =>
        have := (List.cons.inj h).1
        exact absurd (this ▸ List.mem_cons_self) hx
      | cons d y =>
        obtain ⟨e1, e2⟩ := List.cons.inj h
        obtain ⟨e3, e4⟩ := ih y u v (fun hm => hx (List.mem_cons_of_mem _ hm)) (fun hm => hy (List.mem_cons_of_mem _ hm)) e2
        exact ⟨by rw [e1, e3], e4⟩
  rw [List.append_assoc, List.append_assoc] at h2
  obtain ⟨e1, e2⟩ := key _ _ _ _ (C31_escaped_safe a).2 (C31_escaped_safe b).2 h2
  exact ⟨escape_inj _ _ e1, List.append_cancel_right e2⟩

theorem upd_self {A B : Type} [DecidableEq A] (f : A → B) (a : A) (b : B) : upd f a b a = b := by simp [upd]
theorem upd_ne {A B : Type} [DecidableEq A] (f : A → B) {a x : A} (b : B) (h : x ≠ a) : upd f a b x = f x := by simp [upd, h]

theorem pwrite_end (d c : Bytes) : pwrite d d.length c = d ++ c := by
  unfold pwrite; simp

/-- What holds in every state: writers have their own temporary files, which contain what was written so far. -/
structure Inv (acc : List (Str × Bytes × List Bytes)) (s : St) : Prop where
  inj : ∀ a b i, s.names a = some i → s.names b = some i → a = b
  lt : ∀ a i, s.names a = some i → i < s.next
  len : s.writers.length = acc.length
  key : ∀ (w : Nat) (wr : Writer) (x : Str × Bytes × List Bytes), s.writers[w]? = some wr → acc[w]? = some x → wr.key = x.1
  tmp : ∀ (w : Nat) (wr : Writer), s.writers[w]? = some wr → wr.status = .active → s.names (tmpOf wr.key wr.suf) = some wr.ino
  data : ∀ (w : Nat) (wr : Writer) (x : Str × Bytes × List Bytes), s.writers[w]? = some wr → acc[w]? = some x → wr.status = .active →
    wr.pos = (s.data wr.ino).length ∧ s.data wr.ino ++ wr.rest.flatten = whole x.2.1 x.2.2
  own : ∀ (w v : Nat) (wr vr : Writer), s.writers[w]? = some wr → s.writers[v]? = some vr → wr.status = .active → vr.status = .active →
    wr.ino = vr.ino → w = v
  size : ∀ (w : Nat) (wr : Writer) (x : Str × Bytes × List Bytes) (n : Nat), s.writers[w]? = some wr → acc[w]? = some x → wr.status = .ok n →
    n = (whole x.2.1 x.2.2).length
  bound : ∀ (w : Nat) (wr : Writer), s.writers[w]? = some wr → wr.ino < s.next

theorem Start.inv {s : St} (h : Start s) : Inv [] s := by
  have hw : ∀ (w : Nat) (wr : Writer), s.writers[w]? = some wr → False := by
    intro w wr hh; rw [h.writers] at hh; cases hh
  exact ⟨h.inj, h.lt, by rw [h.writers]; rfl, fun w wr _ hh => (hw w wr hh).elim, fun w wr hh => (hw w wr hh).elim,
    fun w wr _ hh => (hw w wr hh).elim, fun w v wr vr hh => (hw w wr hh).elim, fun w wr _ _ hh => (hw w wr hh).elim, fun w wr hh => (hw w wr hh).elim⟩

theorem get_snoc {A : Type} {l : List A} {a x : A} {i : Nat} (h : (l ++ [a])[i]? = some x) :
    (l[i]? = some x ∧ i < l.length) ∨ (i = l.length ∧ x = a) := by
  by_cases hi : i < l.length
  · rw [List.getElem?_append_left hi] at h; exact Or.inl ⟨h, hi⟩
  · rw [List.getElem?_append_right (by omega)] at h
    by_cases h0 : i - l.length = 0
    · rw [h0] at h; cases h; exact Or.inr ⟨by omega, rfl⟩
    · have : i - l.length = (i - l.length - 1) + 1 := by omega
      rw [this] at h; cases h

theorem get_set {A : Type} {l : List A} {a x : A} {i j : Nat} (h : (l.set i a)[j]? = some x) :
    (i = j ∧ x = a) ∨ (i ≠ j ∧ l[j]? = some x) := by
  rw [List.getElem?_set] at h
  by_cases hij : i = j
  · rw [if_pos hij] at h
    split at h
    · cases h; exact Or.inl ⟨hij, rfl⟩
    · cases h
  · rw [if_neg hij] at h; exact Or.inr ⟨hij, h⟩

theorem Accepted_snoc (es : List Ev) (ev : Ev) : Accepted (es ++ [ev]) = Accepted es ++ Accepted [ev] := by
  unfold Accepted; rw [List.filterMap_append]

theorem get_acc_snoc {acc : List (Str × Bytes × List Bytes)} {a : Str × Bytes × List Bytes} {s : St} (hl : s.writers.length = acc.length)
    {w : Nat} {x : Str × Bytes × List Bytes} (hw : w < s.writers.length) (h : (acc ++ [a])[w]? = some x) : acc[w]? = some x := by
  rw [List.getElem?_append_left (by omega)] at h; exact h

theorem Inv.begin {acc : List (Str × Bytes × List Bytes)} {s s' : St} {key suf : Str} {buf : Bytes} {chunks : List Bytes} (hi : Inv acc s)
    (hf : Fair s (.begin key suf buf chunks)) (hlt : buf.length < 65536) (hs : step s (.begin key suf buf chunks) = some s') :
    Inv (acc ++ [(key, buf, chunks)]) s' := by
  have hwhole : ([] : Bytes) ++ (pieces buf chunks).flatten = whole buf chunks := by simp [pieces, whole]
  simp only [step] at hs
  rw [if_neg (by omega)] at hs
  have hlen : ∀ (x : Writer), (s.writers ++ [x]).length = (acc ++ [(key, buf, chunks)]).length := by
    intro x; simp [hi.len]
  have hlast : ∀ x, (acc ++ [(key, buf, chunks)])[s.writers.length]? = some x → x = (key, buf, chunks) := by
    intro x hx
    rw [hi.len] at hx
    rw [List.getElem?_append_right (Nat.le_refl _)] at hx
    simp at hx; exact hx.symm
  cases hn : s.names (tmpOf key suf) with
  | some i =>
    rw [hn] at hs
    replace hs := (Option.some.inj hs).symm; subst hs
    -- no active writer has this file
    have hno : ∀ (w : Nat) (wr : Writer), s.writers[w]? = some wr → wr.status = .active → wr.ino ≠ i := by
      intro w wr hw ha he
      have h1 := hi.tmp w wr hw ha
      obtain ⟨e1, e2⟩ := tmpOf_inj (hi.inj _ _ _ (he ▸ h1) hn)
      exact hf wr (List.mem_of_getElem? hw) ha e1 e2
    refine ⟨hi.inj, hi.lt, hlen _, ?_, ?_, ?_, ?_, ?_, ?_⟩
    · intro w wr x hw hx
      rcases get_snoc hw with ⟨h, hlt⟩ | ⟨rfl, rfl⟩
      · exact hi.key w wr x h (get_acc_snoc hi.len hlt hx)
      · rw [hlast x hx]
    · intro w wr hw ha
      rcases get_snoc hw with ⟨h, _⟩ | ⟨rfl, rfl⟩
      · exact hi.tmp w wr h ha
      · exact hn
    · intro w wr x hw hx ha
      rcases get_snoc hw with ⟨h, hlt⟩ | ⟨rfl, rfl⟩
      · have := hi.data w wr x h (get_acc_snoc hi.len hlt hx) ha
        show wr.pos = (upd s.data i [] wr.ino).length ∧ upd s.data i [] wr.ino ++ _ = _
        rw [upd_ne _ _ (hno w wr h ha)]; exact this
      · rw [hlast x hx]
        show 0 = (upd s.data i [] i).length ∧ upd s.data i [] i ++ _ = _
        rw [upd_self]; exact ⟨rfl, hwhole⟩
    · intro w v wr vr hw hv ha hb he
      rcases get_snoc hw with ⟨h, _⟩ | ⟨rfl, rfl⟩
      · rcases get_snoc hv with ⟨h', _⟩ | ⟨rfl, rfl⟩
        · exact hi.own w v wr vr h h' ha hb he
        · exact absurd he (hno w wr h ha)
      · rcases get_snoc hv with ⟨h', _⟩ | ⟨rfl, rfl⟩
        · exact absurd he.symm (hno v vr h' hb)
        · rfl
    · intro w wr x n hw hx ho
      rcases get_snoc hw with ⟨h, hlt⟩ | ⟨rfl, rfl⟩
      · exact hi.size w wr x n h (get_acc_snoc hi.len hlt hx) ho
      · cases ho
    · intro w wr hw
      rcases get_snoc hw with ⟨h, _⟩ | ⟨rfl, rfl⟩
      · exact hi.bound w wr h
      · exact hi.lt _ _ hn
  | none =>
    rw [hn] at hs
    replace hs := (Option.some.inj hs).symm; subst hs
    have hname : ∀ a i, upd s.names (tmpOf key suf) (some s.next) a = some i → (a = tmpOf key suf ∧ i = s.next) ∨ (a ≠ tmpOf key suf ∧ s.names a = some i) := by
      intro a i h
      by_cases ha : a = tmpOf key suf
      · rw [ha, upd_self] at h; exact Or.inl ⟨ha, (Option.some.inj h).symm⟩
      · rw [upd_ne _ _ ha] at h; exact Or.inr ⟨ha, h⟩
    refine ⟨?_, ?_, hlen _, ?_, ?_, ?_, ?_, ?_, ?_⟩
    · intro a b i h1 h2
      rcases hname a i h1 with ⟨ea, ei⟩ | ⟨na, h1⟩ <;> rcases hname b i h2 with ⟨eb, ei'⟩ | ⟨nb, h2⟩
      · rw [ea, eb]
      · have := hi.lt _ _ h2; omega
      · have := hi.lt _ _ h1; omega
      · exact hi.inj a b i h1 h2
    · intro a i h1
      show i < s.next + 1
      rcases hname a i h1 with ⟨ea, ei⟩ | ⟨na, h1⟩
      · omega
      · have := hi.lt _ _ h1; omega
    · intro w wr x hw hx
      rcases get_snoc hw with ⟨h, hlt⟩ | ⟨rfl, rfl⟩
      · exact hi.key w wr x h (get_acc_snoc hi.len hlt hx)
      · rw [hlast x hx]
    · intro w wr hw ha
      rcases get_snoc hw with ⟨h, _⟩ | ⟨rfl, rfl⟩
      · have := hi.tmp w wr h ha
        show upd s.names _ _ _ = _
        rw [upd_ne]; exact this
        intro he; rw [he, hn] at this; cases this
      · show upd s.names _ _ _ = _
        rw [upd_self]
    · intro w wr x hw hx ha
      rcases get_snoc hw with ⟨h, hlt⟩ | ⟨rfl, rfl⟩
      · have := hi.data w wr x h (get_acc_snoc hi.len hlt hx) ha
        have hb := hi.bound w wr h
        show wr.pos = (upd s.data s.next [] wr.ino).length ∧ upd s.data s.next [] wr.ino ++ _ = _
        rw [upd_ne _ _ (by omega)]; exact this
      · rw [hlast x hx]
        show 0 = (upd s.data s.next [] s.next).length ∧ upd s.data s.next [] s.next ++ _ = _
        rw [upd_self]; exact ⟨rfl, hwhole⟩
    · intro w v wr vr hw hv ha hb he
      rcases get_snoc hw with ⟨h, _⟩ | ⟨rfl, rfl⟩
      · rcases get_snoc hv with ⟨h', _⟩ | ⟨rfl, rfl⟩
        · exact hi.own w v wr vr h h' ha hb he
        · have := hi.bound w wr h
          have he : wr.ino = s.next := he
          omega
      · rcases get_snoc hv with ⟨h', _⟩ | ⟨rfl, rfl⟩
        · have := hi.bound v vr h'
          have he : s.next = vr.ino := he
          omega
        · rfl
    · intro w wr x n hw hx ho
      rcases get_snoc hw with ⟨h, hlt⟩ | ⟨rfl, rfl⟩
      · exact hi.size w wr x n h (get_acc_snoc hi.len hlt hx) ho
      · cases ho
    · intro w wr hw
      show wr.ino < s.next + 1
      rcases get_snoc hw with ⟨h, _⟩ | ⟨rfl, rfl⟩
      · have := hi.bound w wr h; omega
      · exact Nat.lt_succ_self _

/-- A change of one writer that ends it, with the same names and data. -/
theorem Inv.ended {acc : List (Str × Bytes × List Bytes)} {s : St} {w : Nat} {wr : Writer} {st : Status} (hi : Inv acc s) (hw : s.writers[w]? = some wr)
    (hst : st ≠ .active) (hn : ∀ n, st = .ok n → ∀ x, acc[w]? = some x → n = (whole x.2.1 x.2.2).length) :
    Inv acc { s with writers := s.writers.set w { wr with status := st } } := by
  refine ⟨hi.inj, hi.lt, by show (s.writers.set w _).length = _; rw [List.length_set]; exact hi.len, ?_, ?_, ?_, ?_, ?_, ?_⟩
  · intro v vr x hv hx
    rcases get_set hv with ⟨rfl, rfl⟩ | ⟨_, h⟩
    · exact hi.key w wr x hw hx
    · exact hi.key v vr x h hx
  · intro v vr hv ha
    rcases get_set hv with ⟨rfl, rfl⟩ | ⟨_, h⟩
    · exact absurd ha hst
    · exact hi.tmp v vr h ha
  · intro v vr x hv hx ha
    rcases get_set hv with ⟨rfl, rfl⟩ | ⟨_, h⟩
    · exact absurd ha hst
    · exact hi.data v vr x h hx ha
  · intro v u vr ur hv hu ha hb he
    rcases get_set hv with ⟨rfl, rfl⟩ | ⟨_, h⟩
    · exact absurd ha hst
    · rcases get_set hu with ⟨rfl, rfl⟩ | ⟨_, h'⟩
      · exact absurd hb hst
      · exact hi.own v u vr ur h h' ha hb he
  · intro v vr x n hv hx ho
    rcases get_set hv with ⟨rfl, rfl⟩ | ⟨_, h⟩
    · exact hn n ho x hx
    · exact hi.size v vr x n h hx ho
  · intro v vr hv
    rcases get_set hv with ⟨rfl, rfl⟩ | ⟨_, h⟩
    · exact hi.bound w wr hw
    · exact hi.bound v vr h

/-- A change of the names of objects to files that no name of an active writer refers to. -/
theorem Inv.names {acc : List (Str × Bytes × List Bytes)} {s : St} {f : FileAt → Option Nat} (hi : Inv acc s)
    (inj : ∀ a b i, f a = some i → f b = some i → a = b) (lt : ∀ a i, f a = some i → i < s.next)
    (tmp : ∀ (w : Nat) (wr : Writer), s.writers[w]? = some wr → wr.status = .active → f (tmpOf wr.key wr.suf) = s.names (tmpOf wr.key wr.suf)) :
    Inv acc { s with names := f } :=
  ⟨inj, lt, hi.len, hi.key, fun w wr hw ha => (tmp w wr hw ha).trans (hi.tmp w wr hw ha), hi.data, hi.own, hi.size, hi.bound⟩

theorem Inv.readers {acc : List (Str × Bytes × List Bytes)} {s : St} (hi : Inv acc s) (l : List Reader) : Inv acc { s with readers := l } :=
  ⟨hi.inj, hi.lt, hi.len, hi.key, hi.tmp, hi.data, hi.own, hi.size, hi.bound⟩

theorem get_of_len {A B : Type} {l : List A} {m : List B} (h : l.length = m.length) {w : Nat} {a : A} (hw : l[w]? = some a) : ∃ x, m[w]? = some x := by
  obtain ⟨hlt, _⟩ := List.getElem?_eq_some_iff.1 hw
  exact ⟨m[w]'(by omega), List.getElem?_eq_getElem _⟩

theorem Inv.step {es : List Ev} {s s' : St} {ev : Ev} (hi : Inv (Accepted es) s) (hf : Fair s ev) (hs : step s ev = some s') :
    Inv (Accepted (es ++ [ev])) s' := by
  rw [Accepted_snoc]
  cases ev with
  | begin key suf buf chunks =>
    by_cases hlt : buf.length < 65536
    · have : Accepted [Ev.begin key suf buf chunks] = [(key, buf, chunks)] := by simp [Accepted, hlt]
      rw [this]
      exact hi.begin hf hlt hs
    · have : Accepted [Ev.begin key suf buf chunks] = [] := by simp [Accepted, hlt]
      rw [this, List.append_nil]
      simp only [Write.step] at hs
      rw [if_pos (by omega)] at hs
      cases hs; exact hi
  | write w short =>
    show Inv (Accepted es ++ []) s'
    rw [List.append_nil]
    have hf : short = 0 := hf
    simp only [Write.step] at hs
    cases hw : s.writers[w]? with
    | none => rw [hw] at hs; cases hs
    | some wr =>
      rw [hw] at hs
      dsimp only at hs
      by_cases ha : wr.status = .active
      · rw [if_pos ha] at hs
        cases hr : wr.rest with
        | nil => rw [hr] at hs; cases hs
        | cons c rest =>
          rw [hr, hf] at hs
          dsimp only at hs
          rw [Nat.sub_zero, List.take_length] at hs
          replace hs := (Option.some.inj hs).symm; subst hs
          refine ⟨hi.inj, hi.lt, by show (s.writers.set w _).length = _; rw [List.length_set]; exact hi.len, ?_, ?_, ?_, ?_, ?_, ?_⟩
          · intro v vr x hv hx
            rcases get_set hv with ⟨rfl, rfl⟩ | ⟨_, h⟩
            · exact hi.key w wr x hw hx
            · exact hi.key v vr x h hx
          · intro v vr hv hb
            rcases get_set hv with ⟨rfl, rfl⟩ | ⟨_, h⟩
            · exact hi.tmp w wr hw ha
            · exact hi.tmp v vr h hb
          · intro v vr x hv hx hb
            rcases get_set hv with ⟨rfl, rfl⟩ | ⟨hne, h⟩
            · obtain ⟨d1, d2⟩ := hi.data w wr x hw hx ha
              show wr.pos + c.length = (upd s.data wr.ino _ wr.ino).length ∧ upd s.data wr.ino _ wr.ino ++ rest.flatten = _
              rw [upd_self, d1, pwrite_end]
              refine ⟨by rw [List.length_append], ?_⟩
              rw [hr] at d2
              rw [← d2, List.flatten_cons, List.append_assoc]
            · show vr.pos = (upd s.data wr.ino _ vr.ino).length ∧ upd s.data wr.ino _ vr.ino ++ _ = _
              rw [upd_ne _ _ (fun he => hne (hi.own v w vr wr h hw hb ha he).symm)]
              exact hi.data v vr x h hx hb
          · intro v u vr ur hv hu hb hc he
            rcases get_set hv with ⟨rfl, rfl⟩ | ⟨_, h⟩
            · rcases get_set hu with ⟨rfl, rfl⟩ | ⟨_, h'⟩
              · rfl
              · exact hi.own w u wr ur hw h' ha hc he
            · rcases get_set hu with ⟨rfl, rfl⟩ | ⟨_, h'⟩
              · exact hi.own v w vr wr h hw hb ha he
              · exact hi.own v u vr ur h h' hb hc he
          · intro v vr x n hv hx ho
            rcases get_set hv with ⟨rfl, rfl⟩ | ⟨_, h⟩
            · exact absurd (ha.symm.trans ho) (fun h => by cases h)
            · exact hi.size v vr x n h hx ho
          · intro v vr hv
            rcases get_set hv with ⟨rfl, rfl⟩ | ⟨_, h⟩
            · exact hi.bound w wr hw
            · exact hi.bound v vr h
      · rw [if_neg ha] at hs; cases hs
  | rename w =>
    show Inv (Accepted es ++ []) s'
    rw [List.append_nil]
    simp only [Write.step] at hs
    cases hw : s.writers[w]? with
    | none => rw [hw] at hs; cases hs
    | some wr =>
      rw [hw] at hs
      dsimp only at hs
      by_cases ha : wr.status = .active ∧ wr.rest = []
      · rw [if_pos ha, hi.tmp w wr hw ha.1] at hs
        replace hs := (Option.some.inj hs).symm; subst hs
        have ht := hi.tmp w wr hw ha.1
        have he : Inv (Accepted es) { s with writers := s.writers.set w { wr with status := .ok wr.pos } } := by
          refine hi.ended hw (fun h => by cases h) ?_
          intro n hn x hx
          cases hn
          obtain ⟨d1, d2⟩ := hi.data w wr x hw hx ha.1
          rw [ha.2] at d2
          rw [← d2, d1]; simp
        have hname : ∀ a i, upd (upd s.names (tmpOf wr.key wr.suf) none) (fileOf wr.key) (some wr.ino) a = some i →
            (a = fileOf wr.key ∧ i = wr.ino) ∨ (a ≠ fileOf wr.key ∧ a ≠ tmpOf wr.key wr.suf ∧ s.names a = some i) := by
          intro a i h
          by_cases h1 : a = fileOf wr.key
          · rw [h1, upd_self] at h; exact Or.inl ⟨h1, (Option.some.inj h).symm⟩
          · rw [upd_ne _ _ h1] at h
            by_cases h2 : a = tmpOf wr.key wr.suf
            · rw [h2, upd_self] at h; cases h
            · rw [upd_ne _ _ h2] at h; exact Or.inr ⟨h1, h2, h⟩
        refine he.names (f := upd (upd s.names (tmpOf wr.key wr.suf) none) (fileOf wr.key) (some wr.ino)) ?_ ?_ ?_
        · intro a b i h1 h2
          rcases hname a i h1 with ⟨ea, ei⟩ | ⟨_, na, h1⟩ <;> rcases hname b i h2 with ⟨eb, ei'⟩ | ⟨_, nb, h2⟩
          · rw [ea, eb]
          · exact absurd (hi.inj _ _ _ (ei ▸ h2) ht) nb
          · exact absurd (hi.inj _ _ _ (ei' ▸ h1) ht) na
          · exact hi.inj a b i h1 h2
        · intro a i h1
          rcases hname a i h1 with ⟨ea, ei⟩ | ⟨_, na, h1⟩
          · rw [ei]; exact hi.lt _ _ ht
          · exact hi.lt _ _ h1
        · intro v vr hv hb
          rcases get_set hv with ⟨rfl, rfl⟩ | ⟨hne, h⟩
          · cases hb
          · show upd _ _ _ _ = s.names _
            rw [upd_ne _ _ (fileOf_ne_tmpOf _ _ _).symm, upd_ne]
            intro he
            have h1 := hi.tmp v vr h hb
            rw [he, ht] at h1
            exact hne (hi.own w v wr vr hw h ha.1 hb (Option.some.inj h1))
      · rw [if_neg ha] at hs; cases hs
  | stop w =>
    show Inv (Accepted es ++ []) s'
    rw [List.append_nil]
    simp only [Write.step] at hs
    cases hw : s.writers[w]? with
    | none => rw [hw] at hs; cases hs
    | some wr =>
      rw [hw] at hs
      dsimp only at hs
      by_cases ha : wr.status = .active
      · rw [if_pos ha] at hs
        replace hs := (Option.some.inj hs).symm; subst hs
        exact hi.ended hw (fun h => by cases h) (fun n h => by cases h)
      · rw [if_neg ha] at hs; cases hs
  | delete key =>
    show Inv (Accepted es ++ []) s'
    rw [List.append_nil]
    simp only [Write.step] at hs
    replace hs := (Option.some.inj hs).symm; subst hs
    have hname : ∀ a i, upd s.names (fileOf key) none a = some i → s.names a = some i := by
      intro a i h
      by_cases h1 : a = fileOf key
      · rw [h1, upd_self] at h; cases h
      · rw [upd_ne _ _ h1] at h; exact h
    refine hi.names (fun a b i h1 h2 => hi.inj a b i (hname a i h1) (hname b i h2)) (fun a i h => hi.lt a i (hname a i h)) ?_
    intro w wr _ _
    exact upd_ne _ _ (fileOf_ne_tmpOf _ _ _).symm
  | «open» key =>
    show Inv (Accepted es ++ []) s'
    rw [List.append_nil]
    simp only [Write.step] at hs
    split at hs <;> (replace hs := (Option.some.inj hs).symm; subst hs)
    · exact hi
    · exact hi.readers _
  | read r n =>
    show Inv (Accepted es ++ []) s'
    rw [List.append_nil]
    simp only [Write.step] at hs
    split at hs
    · cases hs
    · split at hs
      · cases hs
      · split at hs <;> (replace hs := (Option.some.inj hs).symm; subst hs) <;> exact hi.readers _

theorem run_inv {s0 s : St} {es : List Ev} (h0 : Start s0) (h : Run s0 es s) : Inv (Accepted es) s := by
  induction h with
  | nil => exact h0.inv
  | step ev _ hf hs ih => exact ih.step hf hs

/-- A file that has the name of an object is not written to. -/
theorem data_stable {es : List Ev} {s s' : St} {ev : Ev} {i : Nat} (hi : Inv (Accepted es) s) (hs : step s ev = some s') (hlt : i < s.next)
    (hno : ∀ k t, s.names (tmpOf k t) ≠ some i) :
    s'.data i = s.data i ∧ i < s'.next ∧ ∀ k t, s'.names (tmpOf k t) ≠ some i := by
  cases ev with
  | begin key suf buf chunks =>
    simp only [Write.step] at hs
    split at hs
    · cases hs; exact ⟨rfl, hlt, hno⟩
    · cases hn : s.names (tmpOf key suf) with
      | some j =>
        rw [hn] at hs
        replace hs := (Option.some.inj hs).symm; subst hs
        refine ⟨upd_ne _ _ ?_, hlt, hno⟩
        rintro rfl; exact hno _ _ hn
      | none =>
        rw [hn] at hs
        replace hs := (Option.some.inj hs).symm; subst hs
        refine ⟨upd_ne _ _ (by omega), Nat.lt_succ_of_lt hlt, ?_⟩
        intro k t h
        replace h : upd s.names (tmpOf key suf) (some s.next) (tmpOf k t) = some i := h
        by_cases he : tmpOf k t = tmpOf key suf
        · rw [he, upd_self] at h; have := Option.some.inj h; omega
        · rw [upd_ne _ _ he] at h; exact hno k t h
  | write w short =>
    simp only [Write.step] at hs
    cases hw : s.writers[w]? with
    | none => rw [hw] at hs; cases hs
    | some wr =>
      rw [hw] at hs
      dsimp only at hs
      by_cases ha : wr.status = .active
      · rw [if_pos ha] at hs
        cases hr : wr.rest with
        | nil => rw [hr] at hs; cases hs
        | cons c rest =>
          rw [hr] at hs
          replace hs := (Option.some.inj hs).symm; subst hs
          refine ⟨upd_ne _ _ ?_, hlt, hno⟩
          rintro rfl; exact hno _ _ (hi.tmp w wr hw ha)
      · rw [if_neg ha] at hs; cases hs
  | rename w =>
    simp only [Write.step] at hs
    cases hw : s.writers[w]? with
    | none => rw [hw] at hs; cases hs
    | some wr =>
      rw [hw] at hs
      dsimp only at hs
      by_cases ha : wr.status = .active ∧ wr.rest = []
      · rw [if_pos ha, hi.tmp w wr hw ha.1] at hs
        replace hs := (Option.some.inj hs).symm; subst hs
        refine ⟨rfl, hlt, ?_⟩
        intro k t h
        replace h : upd _ _ _ (tmpOf k t) = some i := h
        rw [upd_ne _ _ (fileOf_ne_tmpOf _ _ _).symm] at h
        by_cases he : tmpOf k t = tmpOf wr.key wr.suf
        · rw [he, upd_self] at h; cases h
        · rw [upd_ne _ _ he] at h; exact hno k t h
      · rw [if_neg ha] at hs; cases hs
  | stop w =>
    simp only [Write.step] at hs
    split at hs
    · cases hs
    · split at hs
      · cases hs; exact ⟨rfl, hlt, hno⟩
      · cases hs
  | delete key =>
    simp only [Write.step] at hs
    replace hs := (Option.some.inj hs).symm; subst hs
    refine ⟨rfl, hlt, ?_⟩
    intro k t h
    replace h : upd _ _ _ (tmpOf k t) = some i := h
    rw [upd_ne _ _ (fileOf_ne_tmpOf _ _ _).symm] at h
    exact hno k t h
  | «open» key =>
    simp only [Write.step] at hs
    split at hs <;> (replace hs := (Option.some.inj hs).symm; subst hs) <;> exact ⟨rfl, hlt, hno⟩
  | read r n =>
    simp only [Write.step] at hs
    split at hs
    · cases hs
    · split at hs
      · cases hs
      · split at hs <;> (replace hs := (Option.some.inj hs).symm; subst hs) <;> exact ⟨rfl, hlt, hno⟩

theorem named_no_tmp {acc : List (Str × Bytes × List Bytes)} {s : St} {key : Str} {i : Nat} (hi : Inv acc s) (h : s.names (fileOf key) = some i) :
    i < s.next ∧ ∀ k t, s.names (tmpOf k t) ≠ some i :=
  ⟨hi.lt _ _ h, fun k t h' => fileOf_ne_tmpOf key k t (hi.inj _ _ _ h h')⟩

/-- The current contents, if the names of objects stay the same. -/
theorem current_same {es : List Ev} {s s' : St} {ev : Ev} {key : Str} (hi : Inv (Accepted es) s) (hs : step s ev = some s')
    (hn : s'.names (fileOf key) = s.names (fileOf key)) : current s' key = current s key := by
  unfold current
  rw [hn]
  cases h : s.names (fileOf key) with
  | none => rfl
  | some i =>
    obtain ⟨h1, h2⟩ := named_no_tmp hi h
    show some (s'.data i) = some (s.data i)
    rw [(data_stable hi hs h1 h2).1]

/-! #### Theorems -/

/-- Each step leaves what is stored under a key, except that deleting the key removes it, and that the last step of a writer stores its
complete object.  So an object that can be seen is always complete, whatever other calls do and wherever they are killed. -/
theorem C48_atomic_partial {s0 s s' : St} {es : List Ev} {ev : Ev} (h0 : Start s0) (h : Run s0 es s) (hf : Fair s ev) (hs : step s ev = some s') (key : Str) :
    current s' key = current s key ∨ (ev = .delete key ∧ current s' key = none) ∨
      ∃ (w : Nat) (buf : Bytes) (chunks : List Bytes), ev = .rename w ∧ (Accepted es)[w]? = some (key, buf, chunks) ∧
        current s' key = some (whole buf chunks) ∧ (s'.writers[w]?).map (·.status) = some (.ok (whole buf chunks).length) := by
  have hi := run_inv h0 h
  cases ev with
  | begin k suf buf chunks =>
    refine Or.inl (current_same hi hs ?_)
    simp only [Write.step] at hs
    split at hs
    · cases hs; rfl
    · split at hs <;> (replace hs := (Option.some.inj hs).symm; subst hs)
      · rfl
      · exact upd_ne _ _ (fileOf_ne_tmpOf _ _ _)
  | write w short =>
    refine Or.inl (current_same hi hs ?_)
    simp only [Write.step] at hs
    split at hs
    · cases hs
    · split at hs
      · split at hs
        · cases hs
        · replace hs := (Option.some.inj hs).symm; subst hs; rfl
      · cases hs
  | rename w =>
    have hs0 := hs
    simp only [Write.step] at hs
    cases hw : s.writers[w]? with
    | none => rw [hw] at hs; cases hs
    | some wr =>
      rw [hw] at hs
      dsimp only at hs
      by_cases ha : wr.status = .active ∧ wr.rest = []
      · rw [if_pos ha, hi.tmp w wr hw ha.1] at hs
        replace hs := (Option.some.inj hs).symm
        by_cases hk : key = wr.key
        · obtain ⟨x, hx⟩ := get_of_len hi.len hw
          obtain ⟨d1, d2⟩ := hi.data w wr x hw hx ha.1
          rw [ha.2] at d2
          replace d2 : s.data wr.ino ++ [] = _ := d2
          rw [List.append_nil] at d2
          have hkx := hi.key w wr x hw hx
          refine Or.inr (Or.inr ⟨w, x.2.1, x.2.2, rfl, ?_, ?_, ?_⟩)
          · rw [hx, hk, hkx]
          · subst hs
            show Option.map s.data (upd _ _ _ (fileOf key)) = _
            rw [hk, upd_self]
            show some (s.data wr.ino) = _
            rw [d2]
          · subst hs
            show ((s.writers.set w _)[w]?).map _ = _
            have hlt : w < s.writers.length := (List.getElem?_eq_some_iff.1 hw).1
            rw [List.getElem?_set_self hlt]
            show some (Status.ok wr.pos) = _
            rw [d1, d2]
        · refine Or.inl (current_same hi hs0 ?_)
          subst hs
          show upd _ _ _ (fileOf key) = _
          rw [upd_ne _ _ (fun he => hk (fileOf_inj he)), upd_ne _ _ (fileOf_ne_tmpOf _ _ _)]
      · rw [if_neg ha] at hs; cases hs
  | stop w =>
    refine Or.inl (current_same hi hs ?_)
    simp only [Write.step] at hs
    split at hs
    · cases hs
    · split at hs
      · cases hs; rfl
      · cases hs
  | delete k =>
    have hs0 := hs
    simp only [Write.step] at hs
    replace hs := (Option.some.inj hs).symm
    by_cases hk : k = key
    · refine Or.inr (Or.inl ⟨by rw [hk], ?_⟩)
      subst hs
      show Option.map _ (upd _ _ _ (fileOf key)) = _
      rw [hk, upd_self]; rfl
    · refine Or.inl (current_same hi hs0 ?_)
      subst hs
      exact upd_ne _ _ (fun he => hk (fileOf_inj he).symm)
  | «open» k =>
    refine Or.inl (current_same hi hs ?_)
    simp only [Write.step] at hs
    split at hs <;> (replace hs := (Option.some.inj hs).symm; subst hs) <;> rfl
  | read r n =>
    refine Or.inl (current_same hi hs ?_)
    simp only [Write.step] at hs
    split at hs
    · cases hs
    · split at hs
      · cases hs
      · split at hs <;> (replace hs := (Option.some.inj hs).symm; subst hs) <;> rfl

/-- A writer with nothing left to write can always complete: nothing takes its temporary file away. -/
theorem C48_writer_completes {s0 s : St} {es : List Ev} {w : Nat} {wr : Writer} (h0 : Start s0) (h : Run s0 es s)
    (hw : s.writers[w]? = some wr) (ha : wr.status = .active) (hr : wr.rest = []) :
    ∃ s', step s (.rename w) = some s' ∧ (s'.writers[w]?).map (·.status) = some (.ok wr.pos) := by
  have hi := run_inv h0 h
  have ht := hi.tmp w wr hw ha
  have hlt : w < s.writers.length := (List.getElem?_eq_some_iff.1 hw).1
  simp only [step, hw, ha, hr, ht]
  refine ⟨_, rfl, ?_⟩
  show ((s.writers.set w _)[w]?).map _ = _
  rw [List.getElem?_set_self hlt]; rfl

/-- The reader number `r` in the states after it was opened. -/
def Reading (r i : Nat) (d : Bytes) (s : St) : Prop :=
  s.data i = d ∧ i < s.next ∧ (∀ k t, s.names (tmpOf k t) ≠ some i) ∧
    ∃ rd, s.readers[r]? = some rd ∧ rd.ino = i ∧ rd.got = d.take rd.pos ∧ rd.pos ≤ d.length ∧ (rd.done = true → rd.got = d)

theorem Reading.step {r i : Nat} {d : Bytes} {es : List Ev} {s s' : St} {ev : Ev} (h : Reading r i d s) (hi : Inv (Accepted es) s) (hs : step s ev = some s') :
    Reading r i d s' := by
  obtain ⟨h1, h2, h3, rd, h4, h5, h6, h7, h8⟩ := h
  obtain ⟨g1, g2, g3⟩ := data_stable hi hs h2 h3
  refine ⟨g1.trans h1, g2, g3, ?_⟩
  have same : s'.readers[r]? = s.readers[r]? → _ := fun he => (⟨rd, he.trans h4, h5, h6, h7, h8⟩ :
    ∃ rd, s'.readers[r]? = some rd ∧ rd.ino = i ∧ rd.got = d.take rd.pos ∧ rd.pos ≤ d.length ∧ (rd.done = true → rd.got = d))
  cases ev with
  | begin k suf buf chunks =>
    apply same
    simp only [Write.step] at hs
    split at hs
    · cases hs; rfl
    · split at hs <;> (replace hs := (Option.some.inj hs).symm; subst hs) <;> rfl
  | write w short =>
    apply same
    simp only [Write.step] at hs
    split at hs
    · cases hs
    · split at hs
      · split at hs
        · cases hs
        · replace hs := (Option.some.inj hs).symm; subst hs; rfl
      · cases hs
  | rename w =>
    apply same
    simp only [Write.step] at hs
    split at hs
    · cases hs
    · split at hs
      · split at hs <;> (replace hs := (Option.some.inj hs).symm; subst hs) <;> rfl
      · cases hs
  | stop w =>
    apply same
    simp only [Write.step] at hs
    split at hs
    · cases hs
    · split at hs
      · cases hs; rfl
      · cases hs
  | delete k =>
    apply same
    simp only [Write.step] at hs
    replace hs := (Option.some.inj hs).symm; subst hs; rfl
  | «open» k =>
    apply same
    simp only [Write.step] at hs
    have hlt : r < s.readers.length := (List.getElem?_eq_some_iff.1 h4).1
    split at hs <;> (replace hs := (Option.some.inj hs).symm; subst hs)
    · rfl
    · exact List.getElem?_append_left hlt
  | read q n =>
    simp only [Write.step] at hs
    cases hq : s.readers[q]? with
    | none => rw [hq] at hs; cases hs
    | some qd =>
      rw [hq] at hs
      dsimp only at hs
      by_cases hd : qd.done = true
      · rw [if_pos hd] at hs; cases hs
      · rw [if_neg hd] at hs
        by_cases hqr : q = r
        · subst hqr
          rw [h4] at hq
          cases hq
          have hlt : q < s.readers.length := (List.getElem?_eq_some_iff.1 h4).1
          rw [h5, h1] at hs
          by_cases hc : List.take (n + 1) (List.drop rd.pos d) = []
          · rw [if_pos hc] at hs
            replace hs := (Option.some.inj hs).symm; subst hs
            refine ⟨{ rd with ino := i, done := true }, List.getElem?_set_self hlt, rfl, h6, h7, fun _ => ?_⟩
            have : rd.pos = d.length := by
              have := congrArg List.length hc
              simp only [List.length_take, List.length_drop, List.length_nil] at this
              omega
            show rd.got = d
            rw [h6, this, List.take_length]
          · rw [if_neg hc] at hs
            replace hs := (Option.some.inj hs).symm; subst hs
            refine ⟨{ rd with ino := i, pos := rd.pos + (List.take (n + 1) (List.drop rd.pos d)).length, got := rd.got ++ List.take (n + 1) (List.drop rd.pos d) }, List.getElem?_set_self hlt, rfl, ?_, ?_, fun h => absurd h hd⟩
            · show rd.got ++ _ = List.take (rd.pos + _) d
              rw [h6]
              generalize n + 1 = m
              rw [List.take_add]
              congr 1
              rw [List.length_take, List.take_eq_take_iff]
              simp only [List.length_drop]; omega
            · show rd.pos + _ ≤ _
              rw [List.length_take, List.length_drop]; omega
        · apply same
          split at hs <;> (replace hs := (Option.some.inj hs).symm; subst hs) <;> exact List.getElem?_set_ne hqr

/-- A reader that comes to the end has read exactly what was stored when it began, even if the object is replaced or deleted
meanwhile. -/
theorem C48_reader_partial {s0 s1 s2 s3 : St} {es es' : List Ev} {key : Str} {rd : Reader} (h0 : Start s0) (h : Run s0 es s1) (ho : step s1 (.open key) = some s2)
    (h' : Run s2 es' s3) (hr : s3.readers[s1.readers.length]? = some rd) (hd : rd.done = true) (hex : current s1 key ≠ none) :
    current s1 key = some rd.got := by
  have hi1 := run_inv h0 h
  have hr2 : Run s0 (es ++ [.open key]) s2 := Run.step _ h trivial ho
  unfold current at hex ⊢
  cases hn : s1.names (fileOf key) with
  | none => rw [hn] at hex; exact absurd rfl hex
  | some i =>
    have base : Reading s1.readers.length i (s1.data i) s2 := by
      obtain ⟨a1, a2⟩ := named_no_tmp hi1 hn
      simp only [step, hn] at ho
      replace ho := (Option.some.inj ho).symm; subst ho
      refine ⟨rfl, a1, a2, ⟨i, 0, [], false⟩, ?_, rfl, rfl, Nat.zero_le _, fun h => by cases h⟩
      show (s1.readers ++ [_])[_]? = _
      rw [List.getElem?_append_right (Nat.le_refl _)]; simp
    have hrd : ∃ es3, Run s0 es3 s3 ∧ Reading s1.readers.length i (s1.data i) s3 := by
      clear hr
      induction h' with
      | nil => exact ⟨_, hr2, base⟩
      | step ev _ hf hs ih =>
        obtain ⟨es3, r1, r2⟩ := ih
        exact ⟨_, Run.step ev r1 hf hs, r2.step (run_inv h0 r1) hs⟩
    obtain ⟨_, _, _, _, _, rd', g1, _, _, _, g5⟩ := hrd
    rw [hr] at g1
    cases g1
    show some (s1.data i) = _
    rw [g5 hd]

/-- The complete object is read back as the metadata and the data that were written. -/
theorem C48_parse_whole (buf : Bytes) (chunks : List Bytes) (h : buf.length < 65536) : parse (whole buf chunks) = some (buf, chunks.flatten) := by
  have hlen : unLe16 (UInt8.ofNat (buf.length % 256)) (UInt8.ofNat (buf.length / 256)) = buf.length := by
    unfold unLe16
    rw [UInt8.toNat_ofNat', UInt8.toNat_ofNat']
    omega
  have e1 : (whole buf chunks).take 9 = magic ++ le16 buf.length := by
    unfold whole
    rw [List.append_assoc (magic ++ le16 buf.length)]
    exact List.take_left' (by simp [magic, le16])
  have e2 : (whole buf chunks).drop 9 = buf ++ chunks.flatten := by
    unfold whole
    rw [List.append_assoc (magic ++ le16 buf.length)]
    exact List.drop_left' (by simp [magic, le16])
  unfold parse
  dsimp only
  rw [e1, e2]
  have hp : magic.isPrefixOf (magic ++ le16 buf.length) = true := by
    rw [List.isPrefixOf_iff_prefix]; exact List.prefix_append _ _
  rw [if_pos hp]
  have e3 : (magic ++ le16 buf.length).drop 7 = [UInt8.ofNat (buf.length % 256), UInt8.ofNat (buf.length / 256)] := rfl
  rw [e3]
  dsimp only
  rw [hlen, List.take_left' rfl, List.drop_left' rfl]

/-! #### Concrete cases, and what goes wrong otherwise -/

def s0 : St := { names := fun f => if f = fileOf ['k'] then some 0 else if f = tmpOf ['k'] ['7'] then some 1 else none, data := fun i => if i = 0 then whole [5] [[1, 2]] else [9, 9, 9], next := 2, writers := [], readers := [] }

theorem s0_start : Start s0 := by
  have hne : fileOf ['k'] ≠ tmpOf ['k'] ['7'] := fileOf_ne_tmpOf _ _ _
  refine ⟨?_, ?_, rfl, rfl⟩
  · intro a b i h1 h2
    simp only [s0] at h1 h2
    split at h1
    · rename_i ha
      split at h2
      · rename_i hb; rw [ha, hb]
      · split at h2
        · rw [← h1] at h2; cases h2
        · cases h2
    · split at h1
      · rename_i ha
        split at h2
        · rw [← h1] at h2; cases h2
        · split at h2
          · rename_i hb; rw [ha, hb]
          · cases h2
      · cases h1
  · intro a i h
    simp only [s0] at h
    split at h
    · cases h; decide
    · split at h
      · cases h; decide
      · cases h

def replay (s : St) : List Ev → Option St
  | [] => some s
  | e :: t => (step s e).bind (fun s => replay s t)

/-- Two writers and a reader; one writer is killed, and another one uses its temporary file again. -/
def story : List Ev :=
  [.begin ['k'] ['7'] [6] [[3], [4, 4]], .open ['k'], .write 0 0, .write 0 0, .begin ['k'] ['8'] [] [[5]], .write 1 0, .stop 0, .begin ['k'] ['7'] [6] [[7]],
   .write 1 0, .write 1 0, .write 1 0, .read 0 3, .rename 1, .read 0 40, .read 0 5, .write 2 0, .delete ['k'], .write 2 0, .write 2 0, .write 2 0, .rename 2]

def fairB (s : St) : Ev → Bool
  | .write _ short => short = 0
  | .begin key suf _ _ => s.writers.all (fun wr => decide (wr.status = .active → wr.key = key → wr.suf ≠ suf))
  | _ => true

def replayF (s : St) : List Ev → Option St
  | [] => some s
  | e :: t => if fairB s e then (step s e).bind (fun s => replayF s t) else none

theorem run_of_replay {s0 : St} : ∀ (es pre : List Ev) {s s' : St}, Run s0 pre s → replayF s es = some s' → ∃ es', Run s0 es' s' := by
  intro es
  induction es with
  | nil => intro pre s s' h hr; cases hr; exact ⟨pre, h⟩
  | cons e t ih =>
    intro pre s s' h hr
    unfold replayF at hr
    split at hr
    · rename_i hfb
      obtain ⟨s1, h1, h2⟩ := Option.bind_eq_some_iff.1 hr
      refine ih (pre ++ [e]) (Run.step e h ?_ h1) h2
      cases e <;> simp only [fairB, Fair, List.all_eq_true, decide_eq_true_eq] at hfb ⊢ <;> exact hfb
    · cases hr

example : ∃ es s, Run s0 es s ∧ current s ['k'] = some (whole [6] [[7]]) ∧ (s.readers[0]?).map (fun r => (r.got, r.done)) = some (whole [5] [[1, 2]], true) := by
  have h : ∃ s, replayF s0 story = some s ∧ current s ['k'] = some (whole [6] [[7]]) ∧ (s.readers[0]?).map (fun r => (r.got, r.done)) = some (whole [5] [[1, 2]], true) := by
    have hs : (replayF s0 story).isSome = true := by decide +kernel
    obtain ⟨s, hs⟩ := Option.isSome_iff_exists.1 hs
    have h1 : ((replayF s0 story).map (fun s => (current s ['k'], (s.readers[0]?).map (fun r => (r.got, r.done))))) = some (some (whole [6] [[7]]), some (whole [5] [[1, 2]], true)) := by decide +kernel
    rw [hs] at h1
    have h2 := Option.some.inj h1
    exact ⟨s, hs, (Prod.mk.inj h2).1, (Prod.mk.inj h2).2⟩
  obtain ⟨s, h1, h2⟩ := h
  obtain ⟨es, hr⟩ := run_of_replay story [] Run.nil h1
  exact ⟨es, s, hr, h2⟩

/-- All tasks of a program run in the same thread, so two calls for the same key use the same temporary file.  The second one truncates
the file that the first one is writing; the object that can be seen then is none of those written, and its parts are mixed. -/
theorem C48_same_thread_mixed : ∃ s, replay s0 [.begin ['k'] ['7'] [] [[1], [2]], .write 0 0, .write 0 0, .write 0 0, .write 0 0, .begin ['k'] ['7'] [] [[3], [4]],
    .write 0 0, .rename 0, .write 1 0, .write 1 0, .write 1 0, .write 1 0] = some s ∧
    current s ['k'] = some (whole [] [[3, 2]]) ∧ (s.writers[0]?).map (·.status) = some (.ok 11) := by
  have hs : (replay s0 [.begin ['k'] ['7'] [] [[1], [2]], .write 0 0, .write 0 0, .write 0 0, .write 0 0, .begin ['k'] ['7'] [] [[3], [4]],
    .write 0 0, .rename 0, .write 1 0, .write 1 0, .write 1 0, .write 1 0]).map (fun s => (current s ['k'], (s.writers[0]?).map (·.status))) =
    some (some (whole [] [[3, 2]]), some (.ok 11)) := by decide +kernel
  obtain ⟨s, h1, h2⟩ := Option.map_eq_some_iff.1 hs
  exact ⟨s, h1, (Prod.mk.inj h2).1, (Prod.mk.inj h2).2⟩

/-- The number of bytes that the operating system has written is ignored: if the disk is full after a part of the last piece, then the
shortened object replaces the old one, and the call succeeds. -/
theorem C48_short_write_damages : ∃ s, replay s0 [.begin ['k'] ['7'] [] [[1, 2, 3]], .write 0 0, .write 0 0, .write 0 0, .write 0 2, .rename 0] = some s ∧
    current s ['k'] = some (whole [] [[1]]) ∧ (s.writers[0]?).map (·.status) = some (.ok 10) := by
  have hs : (replay s0 [.begin ['k'] ['7'] [] [[1, 2, 3]], .write 0 0, .write 0 0, .write 0 0, .write 0 2, .rename 0]).map (fun s => (current s ['k'], (s.writers[0]?).map (·.status))) =
    some (some (whole [] [[1]]), some (.ok 10)) := by decide +kernel
  obtain ⟨s, h1, h2⟩ := Option.map_eq_some_iff.1 hs
  exact ⟨s, h1, (Prod.mk.inj h2).1, (Prod.mk.inj h2).2⟩

end Verif.Local.Write
