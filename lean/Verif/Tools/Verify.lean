/-
C52: `s3ql_verify` (verify.py:163-311) on top of the pipeline model.
-/
import Verif.Sync.Pipeline

namespace Verif.Tools.Verify
open Verif.Sync.Pipeline (Worker St Ev step init Run Returned)

abbrev Bytes := List UInt8

/-! #### Model -/

/-- A row of the table `objects`; `hash = none` is NULL.  The physical size is used for progress messages only. -/
structure Row where
  id : Nat
  hash : Option Bytes
  length : Nat

/-- `ObjectToVerify` (verify.py:57-61). -/
structure Obj where
  id : Nat
  hash : Bytes
  size : Nat

/-- What `readinto_fh` or `lookup` do for an object.  `other`: any other exception. -/
inductive Res where
  | ok | missing | corrupted | other
deriving DecidableEq

/-- The storage: what `readinto_fh` writes before it returns or raises an exception, and the outcomes of `readinto_fh` and
`lookup`.  It does not change while the program runs. -/
structure Storage where
  data : Nat → Bytes
  read : Nat → Res
  look : Nat → Res

/-- `io.BytesIO` -/
structure Buf where
  content : Bytes
  pos : Nat

def Buf.seek0 (b : Buf) : Buf := { b with pos := 0 }
def Buf.write (b : Buf) (d : Bytes) : Buf :=
  { content := b.content.take b.pos ++ d ++ b.content.drop (b.pos + d.length), pos := b.pos + d.length }
def Buf.truncate (b : Buf) : Buf := { b with content := b.content.take b.pos }

/-- What is printed for an object, or that an exception is raised. -/
inductive Verdict where
  | good | missing | corrupted | raised
deriving DecidableEq

/-- The body of the loop of `consume` (verify.py:231-286). -/
def check (H : Bytes → Bytes) (st : Storage) (full : Bool) (b : Buf) (o : Obj) : Buf × Verdict :=
  if full then
    let b := b.seek0
    let b := b.write (st.data o.id)
    match st.read o.id with
    | .missing => (b, .missing)
    | .corrupted => (b, .corrupted)
    | .other => (b, .raised)
    | .ok =>
      let b := b.truncate
      let size := b.pos
      let b := b.seek0
      let hash := H (b.content.drop b.pos)
      if o.size ≠ size then (b, .corrupted)
      else if o.hash ≠ hash then (b, .corrupted)
      else (b, .good)
  else
    match st.look o.id with
    | .missing => (b, .missing)
    | .corrupted => (b, .corrupted)
    | .other => (b, .raised)
    | .ok => (b, .good)

/-- `ORDER BY id` -/
def insertRow (r : Row) : List Row → List Row
  | [] => [r]
  | a :: t => if r.id ≤ a.id then r :: a :: t else a :: insertRow r t
def sortRows : List Row → List Row
  | [] => []
  | a :: t => insertRow a (sortRows t)

/-- `_iter_objects` (verify.py:190-229): the objects, and whether the iterator ends without an exception.  `i` is the number
of rows before. -/
def iterObjects (offset : Nat) : Nat → List Row → List Obj × Bool
  | _, [] => ([], true)
  | i, r :: t =>
    match r.hash with
    | none => ([], false)
    | some h =>
      let x := iterObjects offset (i + 1) t
      if i + 1 ≤ offset then x else (⟨r.id, h, r.length⟩ :: x.1, x.2)

/-- The state of the pipeline, the buffers of the workers, and the contents of the two files. -/
structure VSt where
  p : St Obj
  bufs : Nat → Buf
  missing : List Nat
  corrupted : List Nat

/-- An event of the pipeline.  When a worker finishes an object, it has printed its key.  A worker may fail at any time. -/
def vstep (H : Bytes → Bytes) (st : Storage) (full : Bool) (b : Nat) (endsOk : Bool) (s : VSt) (ev : Ev) : Option VSt :=
  match step b endsOk s.p ev with
  | none => none
  | some p =>
    match ev with
    | .finish i =>
      match s.p.workers[i]? with
      | some (.busy o) =>
        let r := check H st full (s.bufs i) o
        let bufs := fun j => if j = i then r.1 else s.bufs j
        match r.2 with
        | .good => some { s with p := p, bufs := bufs }
        | .missing => some { p := p, bufs := bufs, missing := s.missing ++ [o.id], corrupted := s.corrupted }
        | .corrupted => some { p := p, bufs := bufs, missing := s.missing, corrupted := s.corrupted ++ [o.id] }
        | .raised => none
      | _ => none
    | _ => some { s with p := p }

/-- `retrieve_objects` (verify.py:291-311): the iterator is not sized, and the buffer of the channel has as many places as
there are workers. -/
def vinit (offset workers : Nat) (rows : List Row) : VSt :=
  { p := init false workers (iterObjects offset 0 (sortRows rows)).1, bufs := fun _ => ⟨[], 0⟩, missing := [], corrupted := [] }

inductive VRun (H : Bytes → Bytes) (st : Storage) (full : Bool) (offset workers : Nat) (rows : List Row) : VSt → Prop where
  | nil : VRun H st full offset workers rows (vinit offset workers rows)
  | step {s s' : VSt} (ev : Ev) : VRun H st full offset workers rows s →
      vstep H st full workers (iterObjects offset 0 (sortRows rows)).2 s ev = some s' → VRun H st full offset workers rows s'

/-- The end of `verify` (verify.py:146-150): the exit code; without errors the two files are removed. -/
def exitCode (s : VSt) : Nat := if s.corrupted ≠ [] ∨ s.missing ≠ [] then 46 else 0

/-! #### Specification -/

/-- The storage has no object with this number. -/
def Missing (st : Storage) (full : Bool) (id : Nat) : Prop := if full then st.read id = .missing else st.look id = .missing

/-- The object is damaged: it does not pass the checks of the encryption layer; or, if the contents are read, its length or hash are
not those in the table. -/
def Corrupted (H : Bytes → Bytes) (st : Storage) (full : Bool) (id : Nat) (h : Option Bytes) (len : Nat) : Prop :=
  if full then st.read id = .corrupted ∨ (st.read id = .ok ∧ ((st.data id).length ≠ len ∨ some (H (st.data id)) ≠ h))
  else st.look id = .corrupted

instance (st : Storage) (full : Bool) (id : Nat) : Decidable (Missing st full id) := by unfold Missing; infer_instance
instance (H : Bytes → Bytes) (st : Storage) (full : Bool) (id : Nat) (h : Option Bytes) (len : Nat) : Decidable (Corrupted H st full id h len) := by
  unfold Corrupted; infer_instance

/-- A list of rows in the order of their numbers. -/
def Sorted (l : List Row) : Prop := l.Pairwise (fun a b => a.id ≤ b.id)

/-! #### Lemmas -/

theorem sortRows_perm (l : List Row) : (sortRows l).Perm l := by
  have ins : ∀ (r : Row) (l : List Row), (insertRow r l).Perm (r :: l) := by
    intro r l
    induction l with
    | nil => exact List.Perm.refl _
    | cons a t ih =>
      unfold insertRow
      split
      · exact List.Perm.refl _
      · exact (List.Perm.cons a ih).trans (List.Perm.swap r a t)
  induction l with
  | nil => exact List.Perm.refl _
  | cons a t ih => exact (ins a _).trans (List.Perm.cons a ih)

theorem sortRows_sorted (l : List Row) : Sorted (sortRows l) := by
  have ins : ∀ (r : Row) (l : List Row), Sorted l → Sorted (insertRow r l) := by
    intro r l
    induction l with
    | nil => intro _; exact List.pairwise_singleton _ _
    | cons a t ih =>
      intro h
      obtain ⟨h1, h2⟩ := List.pairwise_cons.1 h
      unfold insertRow
      split
      · rename_i hle
        refine List.pairwise_cons.2 ⟨?_, h⟩
        intro b hb
        rcases List.mem_cons.1 hb with rfl | hb
        · exact hle
        · exact Nat.le_trans hle (h1 b hb)
      · rename_i hle
        refine List.pairwise_cons.2 ⟨?_, ih h2⟩
        intro b hb
        have : b ∈ r :: t := by
          have hp : ∀ (r : Row) (l : List Row), ∀ x ∈ insertRow r l, x ∈ r :: l := by
            intro r l
            induction l with
            | nil => intro x hx; exact hx
            | cons c u ihu =>
              intro x hx
              unfold insertRow at hx
              split at hx
              · exact hx
              · rcases List.mem_cons.1 hx with rfl | hx
                · exact List.mem_cons_of_mem _ List.mem_cons_self
                · rcases List.mem_cons.1 (ihu x hx) with rfl | h
                  · exact List.mem_cons_self
                  · exact List.mem_cons_of_mem _ (List.mem_cons_of_mem _ h)
          exact hp r t b hb
        rcases List.mem_cons.1 this with rfl | h
        · omega
        · exact h1 b h
  induction l with
  | nil => exact List.Pairwise.nil
  | cons a t ih => exact ins a _ ih

theorem iterObjects_ok {offset i : Nat} {l : List Row} (h : (iterObjects offset i l).2 = true) :
    (∀ r ∈ l, r.hash ≠ none) ∧
      (iterObjects offset i l).1.map (fun o => (⟨o.id, some o.hash, o.size⟩ : Row)) = l.drop (offset - i) := by
  induction l generalizing i with
  | nil => exact ⟨fun r hr => absurd hr List.not_mem_nil, by simp [iterObjects]⟩
  | cons r t ih =>
    unfold iterObjects at h ⊢
    cases hh : r.hash with
    | none => rw [hh] at h; cases h
    | some x =>
      rw [hh] at h
      dsimp only at h ⊢
      have h' : (iterObjects offset (i + 1) t).2 = true := by
        split at h <;> exact h
      obtain ⟨h1, h2⟩ := ih h'
      refine ⟨?_, ?_⟩
      · intro q hq
        rcases List.mem_cons.1 hq with rfl | hq
        · rw [hh]; exact fun h => by cases h
        · exact h1 q hq
      · split
        · rename_i hle
          rw [h2]
          have : offset - i = (offset - (i + 1)) + 1 := by omega
          rw [this, List.drop_succ_cons]
        · rename_i hle
          have e1 : offset - i = 0 := by omega
          have e2 : offset - (i + 1) = 0 := by omega
          rw [List.map_cons, h2, e1, e2]
          simp only [List.drop_zero]
          rw [← hh]

theorem check_spec (H : Bytes → Bytes) (st : Storage) (full : Bool) (b : Buf) (o : Obj) :
    ((check H st full b o).2 = .missing ↔ Missing st full o.id) ∧
    ((check H st full b o).2 = .corrupted ↔ Corrupted H st full o.id (some o.hash) o.size) := by
  unfold check Missing Corrupted
  cases full with
  | false =>
    simp only [Bool.false_eq_true, if_false]
    cases st.look o.id <;> simp
  | true =>
    simp only [if_true]
    have e : ((b.seek0.write (st.data o.id)).truncate).content = st.data o.id := by
      simp [Buf.seek0, Buf.write, Buf.truncate]
    have e2 : ((b.seek0.write (st.data o.id)).truncate).pos = (st.data o.id).length := by
      simp [Buf.seek0, Buf.write, Buf.truncate]
    cases hr : st.read o.id with
    | missing => simp
    | corrupted => simp
    | other => simp
    | ok =>
      have e3 : ((b.seek0.write (st.data o.id)).truncate.seek0).content.drop ((b.seek0.write (st.data o.id)).truncate.seek0).pos = st.data o.id := by
        show List.drop 0 _ = _
        rw [List.drop_zero]; exact e
      dsimp only
      rw [e2, e3]
      by_cases h1 : o.size = (st.data o.id).length
      · by_cases h2 : o.hash = H (st.data o.id)
        · simp [← h1, ← h2]
        · have h2' : ¬ H (st.data o.id) = o.hash := fun h => h2 h.symm
          simp [h1, h2, h2']
      · have h1' : ¬ (st.data o.id).length = o.size := fun h => h1 h.symm
        simp [h1, h1']

/-- The files contain the keys of the finished objects. -/
def Files (H : Bytes → Bytes) (st : Storage) (full : Bool) (s : VSt) : Prop :=
  s.missing = (s.p.done.filter (fun o => decide (Missing st full o.id))).map (·.id) ∧
    s.corrupted = (s.p.done.filter (fun o => decide (Corrupted H st full o.id (some o.hash) o.size))).map (·.id)

theorem step_done {b : Nat} {e : Bool} {s s' : St Obj} {ev : Ev} (h : step b e s ev = some s') :
    (∀ i, ev ≠ .finish i) → s'.done = s.done := by
  intro hne
  cases ev <;> simp only [step] at h <;> (repeat' split at h) <;> cases h <;> first | rfl | exact absurd rfl (hne _)

theorem vstep_run {H : Bytes → Bytes} {st : Storage} {full : Bool} {b : Nat} {e : Bool} {s s' : VSt} {ev : Ev}
    (h : vstep H st full b e s ev = some s') : step b e s.p ev = some s'.p := by
  unfold vstep at h
  cases hp : step b e s.p ev with
  | none => rw [hp] at h; cases h
  | some p =>
    rw [hp] at h
    dsimp only at h
    repeat' split at h
    all_goals (cases h; try rfl)

theorem vstep_files {H : Bytes → Bytes} {st : Storage} {full : Bool} {b : Nat} {e : Bool} {s s' : VSt} {ev : Ev}
    (h : vstep H st full b e s ev = some s') (hf : Files H st full s) : Files H st full s' := by
  unfold vstep at h
  cases hp : step b e s.p ev with
  | none => rw [hp] at h; cases h
  | some p =>
    rw [hp] at h
    dsimp only at h
    split at h
    · rename_i i
      split at h
      · rename_i o hw
        have hd : p.done = s.p.done ++ [o] := by
          simp only [step, hw] at hp
          cases hp; rfl
        obtain ⟨c1, c2⟩ := check_spec H st full (s.bufs i) o
        obtain ⟨f1, f2⟩ := hf
        have m0 : ∀ {l : List Obj} {P : Obj → Bool}, P o = false → (l ++ [o]).filter P = l.filter P := by
          intro l P hP; rw [List.filter_append]; simp [hP]
        have m1 : ∀ {l : List Obj} {P : Obj → Bool}, P o = true → (l ++ [o]).filter P = l.filter P ++ [o] := by
          intro l P hP; rw [List.filter_append]; simp [hP]
        split at h
        · rename_i hv
          cases h
          rw [hv] at c1 c2
          have n1 : ¬ Missing st full o.id := fun hm => by cases c1.2 hm
          have n2 : ¬ Corrupted H st full o.id (some o.hash) o.size := fun hm => by cases c2.2 hm
          constructor
          · show s.missing = _
            rw [hd, m0 (by simpa using n1)]; exact f1
          · show s.corrupted = _
            rw [hd, m0 (by simpa using n2)]; exact f2
        · rename_i hv
          cases h
          rw [hv] at c1 c2
          have n1 : Missing st full o.id := c1.1 rfl
          have n2 : ¬ Corrupted H st full o.id (some o.hash) o.size := fun hm => by cases c2.2 hm
          constructor
          · show s.missing ++ [o.id] = _
            rw [hd, m1 (by simpa using n1), f1, List.map_append]; rfl
          · show s.corrupted = _
            rw [hd, m0 (by simpa using n2)]; exact f2
        · rename_i hv
          cases h
          rw [hv] at c1 c2
          have n1 : ¬ Missing st full o.id := fun hm => by cases c1.2 hm
          have n2 : Corrupted H st full o.id (some o.hash) o.size := c2.1 rfl
          constructor
          · show s.missing = _
            rw [hd, m0 (by simpa using n1)]; exact f1
          · show s.corrupted ++ [o.id] = _
            rw [hd, m1 (by simpa using n2), f2, List.map_append]; rfl
        · cases h
      · cases h
    · rename_i hne
      cases h
      have hd := step_done hp (fun i hi => hne i hi)
      unfold Files
      dsimp only
      rw [hd]; exact hf

theorem vrun_run {H : Bytes → Bytes} {st : Storage} {full : Bool} {offset workers : Nat} {rows : List Row} {s : VSt}
    (h : VRun H st full offset workers rows s) :
    (∃ es, Run workers (iterObjects offset 0 (sortRows rows)).2 (init false workers (iterObjects offset 0 (sortRows rows)).1) es s.p) ∧ Files H st full s := by
  induction h with
  | nil => exact ⟨⟨[], Run.nil⟩, rfl, rfl⟩
  | step ev _ hs ih =>
    obtain ⟨⟨es, h1⟩, h2⟩ := ih
    exact ⟨⟨es ++ [ev], Run.step ev h1 (vstep_run hs)⟩, vstep_files hs h2⟩

/-! #### Theorem -/

/-- If the run ends without an exception, then the files list exactly the objects after the start offset that are missing
and that are damaged, each once; the exit code tells if there are any.  No row has a NULL hash. -/
theorem C52_reports_exactly {H : Bytes → Bytes} {st : Storage} {full : Bool} {offset workers : Nat} {rows : List Row} {s : VSt}
    (h : VRun H st full offset workers rows s) (hr : Returned s.p) :
    ∃ sorted : List Row, Sorted sorted ∧ sorted.Perm rows ∧
      s.missing.Perm (((sorted.drop offset).filter (fun r => decide (Missing st full r.id))).map (·.id)) ∧
      s.corrupted.Perm (((sorted.drop offset).filter (fun r => decide (Corrupted H st full r.id r.hash r.length))).map (·.id)) ∧
      (exitCode s = 46 ↔ ∃ r ∈ sorted.drop offset, Missing st full r.id ∨ Corrupted H st full r.id r.hash r.length) ∧
      (∀ r ∈ rows, r.hash ≠ none) := by
  obtain ⟨⟨es, h1⟩, f1, f2⟩ := vrun_run h
  obtain ⟨hp, he⟩ := Verif.Sync.Pipeline.C47_each_exactly_once h1 hr
  obtain ⟨n1, n2⟩ := iterObjects_ok he
  refine ⟨sortRows rows, sortRows_sorted rows, sortRows_perm rows, ?_, ?_, ?_, ?_⟩
  · rw [f1]
    refine ((hp.filter _).map _).trans ?_
    rw [show sortRows rows = (sortRows rows) from rfl]
    have : (sortRows rows).drop offset = _ := (n2).symm
    rw [this, List.filter_map, List.map_map]
    exact List.Perm.refl _
  · rw [f2]
    refine ((hp.filter _).map _).trans ?_
    have : (sortRows rows).drop offset = _ := (n2).symm
    rw [this, List.filter_map, List.map_map]
    exact List.Perm.refl _
  · have this : (sortRows rows).drop offset = _ := (n2).symm
    rw [this]
    unfold exitCode
    have a : s.missing ≠ [] ↔ ∃ o ∈ (iterObjects offset 0 (sortRows rows)).1, Missing st full o.id := by
      rw [f1]
      constructor
      · intro hne
        obtain ⟨x, hx⟩ := List.exists_mem_of_ne_nil _ hne
        obtain ⟨o, ho, _⟩ := List.mem_map.1 hx
        obtain ⟨o1, o2⟩ := List.mem_filter.1 ho
        exact ⟨o, hp.mem_iff.1 o1, by simpa using o2⟩
      · rintro ⟨o, ho, hm⟩
        exact List.ne_nil_of_mem (List.mem_map.2 ⟨o, List.mem_filter.2 ⟨hp.mem_iff.2 ho, by simpa using hm⟩, rfl⟩)
    have b : s.corrupted ≠ [] ↔ ∃ o ∈ (iterObjects offset 0 (sortRows rows)).1, Corrupted H st full o.id (some o.hash) o.size := by
      rw [f2]
      constructor
      · intro hne
        obtain ⟨x, hx⟩ := List.exists_mem_of_ne_nil _ hne
        obtain ⟨o, ho, _⟩ := List.mem_map.1 hx
        obtain ⟨o1, o2⟩ := List.mem_filter.1 ho
        exact ⟨o, hp.mem_iff.1 o1, by simpa using o2⟩
      · rintro ⟨o, ho, hm⟩
        exact List.ne_nil_of_mem (List.mem_map.2 ⟨o, List.mem_filter.2 ⟨hp.mem_iff.2 ho, by simpa using hm⟩, rfl⟩)
    constructor
    · intro hx
      split at hx
      · rename_i hc
        rcases hc with hc | hc
        · obtain ⟨o, ho, hm⟩ := b.1 hc
          exact ⟨⟨o.id, some o.hash, o.size⟩, List.mem_map.2 ⟨o, ho, rfl⟩, Or.inr hm⟩
        · obtain ⟨o, ho, hm⟩ := a.1 hc
          exact ⟨⟨o.id, some o.hash, o.size⟩, List.mem_map.2 ⟨o, ho, rfl⟩, Or.inl hm⟩
      · cases hx
    · rintro ⟨r, hr, hm⟩
      obtain ⟨o, ho, rfl⟩ := List.mem_map.1 hr
      rw [if_pos]
      rcases hm with hm | hm
      · exact Or.inr (a.2 ⟨o, ho, hm⟩)
      · exact Or.inl (b.2 ⟨o, ho, hm⟩)
  · intro r hr
    exact n1 r ((sortRows_perm rows).mem_iff.2 hr)

/-! #### Concrete case -/

def st0 : Storage :=
  { data := fun i => if i = 3 then [1, 2, 3] else if i = 5 then [9] else [7, 7], read := fun i => if i = 4 then .missing else if i = 8 then .corrupted else .ok, look := fun _ => .ok }
def rows0 : List Row := [⟨5, some [9], 1⟩, ⟨3, some [1, 2, 4], 3⟩, ⟨4, some [], 0⟩, ⟨1, some [0], 1⟩]

def vreplay (s : VSt) : List Ev → Option VSt
  | [] => some s
  | e :: t => (vstep id st0 true 2 true s e).bind (fun s => vreplay s t)

theorem vrun_of_replay (es : List Ev) : ∀ {s s' : VSt}, VRun id st0 true 1 2 rows0 s → vreplay s es = some s' → VRun id st0 true 1 2 rows0 s' := by
  induction es with
  | nil => intro s s' h hr; cases hr; exact h
  | cons e t ih =>
    intro s s' h hr
    obtain ⟨s1, h1, h2⟩ := Option.bind_eq_some_iff.1 hr
    exact ih (VRun.step e h h1) h2

/-- Object 1 is skipped, object 3 has the wrong hash, object 4 is missing, object 5 is good. -/
example : ∃ s, VRun id st0 true 1 2 rows0 s ∧ Returned s.p ∧ s.missing = [4] ∧ s.corrupted = [3] ∧ exitCode s = 46 := by
  have h : ∃ s, vreplay (vinit 1 2 rows0) [.send, .recv 0, .send, .recv 1, .finish 1, .send, .recv 1, .close, .finish 0, .finish 1, .eof 1, .eof 0] = some s ∧
      Returned s.p ∧ s.missing = [4] ∧ s.corrupted = [3] ∧ exitCode s = 46 := by
    refine ⟨_, rfl, ⟨rfl, ?_, rfl⟩, rfl, rfl, rfl⟩
    intro w hw
    have : w = .ended := by
      rcases List.mem_cons.1 hw with h | h
      · exact h
      · rcases List.mem_cons.1 h with h | h
        · exact h
        · cases h
    rw [this]; rfl
  obtain ⟨s, h1, h2⟩ := h
  exact ⟨s, vrun_of_replay _ VRun.nil h1, h2⟩

end Verif.Tools.Verify
