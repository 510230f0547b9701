/-
Property C80: a block in the cache is a file (block_cache.py:45-141).

`CacheEntry` keeps the position and the size of its file in attributes of its own, and does not ask the operating system for
them.  Here the operating system is part of the model: it has its own position, and it may write fewer bytes than it was
given (which is what happens when the disk is full), since the file is opened without a buffer (block_cache.py:86).
-/

namespace Verif.CacheEntry

/-! ### Specification: a file with a position -/

/-- The bytes of a file and a position in it. -/
structure SFile where
  data : List UInt8
  pos : Nat
deriving DecidableEq, Repr

inductive Op where
  /-- `read(size)`; all of the rest without a size -/
  | read (size : Option Nat)
  /-- `seek(off, whence)` -/
  | seek (off : Int) (whence : Nat)
  | tell
  /-- `truncate(size)`; at the position without a size -/
  | truncate (size : Option Nat)
  | write (buf : List UInt8)
deriving DecidableEq, Repr

inductive Res where
  | bytes (b : List UInt8)
  | num (n : Nat)
  | unit
  /-- an exception -/
  | err
deriving DecidableEq, Repr

/-- `n` bytes, with zeros if there are not that many. -/
def fit (n : Nat) (d : List UInt8) : List UInt8 := d.take n ++ List.replicate (n - d.length) 0

/-- `buf` is put at position `pos`; a gap is filled with zeros. -/
def put (d : List UInt8) (pos : Nat) (buf : List UInt8) : List UInt8 :=
  if buf = [] then d else fit pos d ++ buf ++ d.drop (pos + buf.length)

/-- Where `seek` leads to. -/
def target (len pos : Nat) (off : Int) (whence : Nat) : Int :=
  if whence = 0 then off else if whence = 1 then (pos : Int) + off else (len : Int) + off

/-- What the operations of a file do. -/
def sstep (f : SFile) : Op → Res × SFile
  | .read size =>
    let b := match size with
      | some n => (f.data.drop f.pos).take n
      | none => f.data.drop f.pos
    (.bytes b, { f with pos := f.pos + b.length })
  | .seek off whence =>
    if target f.data.length f.pos off whence < 0 ∨ 2 < whence then (.err, f)
    else (.num (target f.data.length f.pos off whence).toNat, { f with pos := (target f.data.length f.pos off whence).toNat })
  | .tell => (.num f.pos, f)
  | .truncate size => (.unit, { f with data := fit (size.getD f.pos) f.data })
  | .write buf => (.unit, ⟨put f.data f.pos buf, f.pos + buf.length⟩)

/-- How much of a write the operating system does: all of it, only the first bytes, or nothing, with an error. -/
inductive Disk where
  | ok
  | short (n : Nat)
  | fail
deriving DecidableEq, Repr

/-- The same with a disk that may refuse a write: that is an exception, and changes nothing. -/
def sstepD (f : SFile) (d : Disk) (op : Op) : Res × SFile :=
  match op, d with
  | .write _, .fail => (.err, f)
  | op, _ => sstep f op

def srun (f : SFile) : List (Op × Disk) → List Res × SFile
  | [] => ([], f)
  | (op, d) :: t => let r := sstepD f d op; let r' := srun r.2 t; (r.1 :: r'.1, r'.2)

/-- The operating system does each write completely or not at all. -/
def Full (l : List (Op × Disk)) : Prop := ∀ x ∈ l, ∀ n buf, x.1 = .write buf → x.2 = .short n → buf.length ≤ n

/-! ### Model -/

/-- The file as the operating system has it: its bytes and the position of the descriptor. -/
structure Os where
  data : List UInt8
  off : Nat
deriving DecidableEq, Repr

/-- `lseek`; `none` is `EINVAL`. -/
def Os.lseek (f : Os) (off : Int) (whence : Nat) : Option Os :=
  if target f.data.length f.off off whence < 0 ∨ 2 < whence then none
  else some { f with off := (target f.data.length f.off off whence).toNat }

/-- `CacheEntry` (block_cache.py:45-141), without the attributes that are not about the file. -/
structure Entry where
  fh : Os
  dirty : Bool
  pos : Nat
  size : Nat
deriving DecidableEq, Repr

/-- `__init__` (block_cache.py:81-93) on a file with the given contents. -/
def Entry.make (data : List UInt8) : Entry := ⟨⟨data, 0⟩, false, 0, data.length⟩

/-- `read` (block_cache.py:95-98).  A read of a regular file returns all bytes there are. -/
def Entry.read (e : Entry) (size : Option Nat) : Res × Entry :=
  let b := match size with
    | some n => (e.fh.data.drop e.fh.off).take n
    | none => e.fh.data.drop e.fh.off
  (.bytes b, { e with fh := { e.fh with off := e.fh.off + b.length }, pos := e.pos + b.length })

/-- `seek` (block_cache.py:103-110).  Simplified: `whence` is 0, 1 or 2 (Linux has two more, which nothing uses). -/
def Entry.seek (e : Entry) (off : Int) (whence : Nat) : Res × Entry :=
  if whence ≠ 0 then
    match e.fh.lseek off whence with
    | none => (.err, e)
    | some f => (.num f.off, { e with fh := f, pos := f.off })
  else if (e.pos : Int) ≠ off then
    match e.fh.lseek off 0 with
    | none => (.err, e)
    | some f => (.num off.toNat, { e with fh := f, pos := off.toNat })
  else (.num e.pos, e)

/-- `truncate` (block_cache.py:115-121).  Without a size it is the position of the descriptor that counts. -/
def Entry.truncate (e : Entry) (size : Option Nat) : Res × Entry :=
  (.unit, { e with dirty := true, fh := { e.fh with data := fit (size.getD e.fh.off) e.fh.data }, size := size.getD e.pos })

/-- `write` (block_cache.py:123-128): how many bytes were written is not looked at. -/
def Entry.write (e : Entry) (buf : List UInt8) (d : Disk) : Res × Entry :=
  let done (b : List UInt8) : Entry :=
    { fh := ⟨put e.fh.data e.fh.off b, e.fh.off + b.length⟩, dirty := true, pos := e.pos + buf.length, size := max (e.pos + buf.length) e.size }
  match d with
  | .ok => (.unit, done buf)
  | .short n => (.unit, done (buf.take n))
  | .fail => (.err, { e with dirty := true })

def step (e : Entry) (d : Disk) : Op → Res × Entry
  | .read size => e.read size
  | .seek off whence => e.seek off whence
  | .tell => (.num e.pos, e)
  | .truncate size => e.truncate size
  | .write buf => e.write buf d

/-- A sequence of calls, each with what the disk does, and their results. -/
def run (e : Entry) : List (Op × Disk) → List Res × Entry
  | [] => ([], e)
  | (op, d) :: t => let r := step e d op; let r' := run r.2 t; (r.1 :: r'.1, r'.2)

/-! ### Lemmas -/

theorem length_fit (n : Nat) (d : List UInt8) : (fit n d).length = n := by
  unfold fit; rw [List.length_append, List.length_take, List.length_replicate]; omega

theorem length_put (d : List UInt8) (p : Nat) (b : List UInt8) : b ≠ [] → (put d p b).length = max (p + b.length) d.length := by
  intro h
  unfold put
  rw [if_neg h, List.length_append, List.length_append, length_fit, List.length_drop]
  omega

/-- The entry agrees with the file. -/
structure Agree (e : Entry) (f : SFile) : Prop where
  data : e.fh.data = f.data
  off : e.fh.off = f.pos
  pos : e.pos = f.pos

theorem agree_make (data : List UInt8) : Agree (.make data) ⟨data, 0⟩ := ⟨rfl, rfl, rfl⟩

theorem agree_step {e : Entry} {f : SFile} (h : Agree e f) (op : Op) (d : Disk) (hd : ∀ n buf, op = .write buf → d = .short n → buf.length ≤ n) :
    (step e d op).1 = (sstepD f d op).1 ∧ Agree (step e d op).2 (sstepD f d op).2 := by
  obtain ⟨⟨data, off⟩, dirty, pos, size⟩ := e
  obtain ⟨fd, fp⟩ := f
  obtain ⟨h1, h2, h3⟩ := h
  dsimp only at h1 h2 h3
  subst h1 h2 h3
  cases op with
  | read sz => cases sz <;> exact ⟨rfl, rfl, rfl, rfl⟩
  | tell => exact ⟨rfl, rfl, rfl, rfl⟩
  | truncate sz => cases sz <;> exact ⟨rfl, rfl, rfl, rfl⟩
  | write buf =>
    cases d with
    | ok => exact ⟨rfl, rfl, rfl, rfl⟩
    | fail => exact ⟨rfl, rfl, rfl, rfl⟩
    | short n =>
      have : buf.take n = buf := List.take_of_length_le (hd n buf rfl rfl)
      simp only [step, sstepD, sstep, Entry.write, this]
      exact ⟨trivial, rfl, rfl, rfl⟩
  | seek o w =>
    simp only [step, sstepD, sstep, Entry.seek, Os.lseek]
    by_cases hw : w = 0
    · subst hw
      simp only [ne_eq, not_true_eq_false, if_false, target, if_true]
      by_cases ho : (pos : Int) = o
      · subst ho
        simp only [not_true_eq_false, if_false]
        rw [if_neg (by omega)]
        exact ⟨rfl, rfl, rfl, rfl⟩
      · rw [if_pos ho]
        by_cases hn : o < 0 ∨ 2 < 0
        · rw [if_pos hn, if_pos hn]; exact ⟨rfl, rfl, rfl, rfl⟩
        · rw [if_neg hn, if_neg hn]; exact ⟨rfl, rfl, rfl, rfl⟩
    · rw [if_pos hw]
      by_cases hn : target data.length pos o w < 0 ∨ 2 < w
      · rw [if_pos hn, if_pos hn]; exact ⟨rfl, rfl, rfl, rfl⟩
      · rw [if_neg hn, if_neg hn]; exact ⟨rfl, rfl, rfl, rfl⟩

theorem agree_run {e : Entry} {f : SFile} (h : Agree e f) : ∀ {l : List (Op × Disk)}, Full l → (run e l).1 = (srun f l).1 ∧ Agree (run e l).2 (srun f l).2 := by
  intro l
  induction l generalizing e f with
  | nil => intro _; exact ⟨rfl, h⟩
  | cons x t ih =>
    obtain ⟨op, d⟩ := x
    intro hf
    have h1 := agree_step h op d (fun n buf => hf (op, d) (List.mem_cons_self ..) n buf)
    have h2 := ih h1.2 (fun y hy => hf y (List.mem_cons_of_mem _ hy))
    refine ⟨?_, h2.2⟩
    show (step e d op).1 :: (run (step e d op).2 t).1 = (sstepD f d op).1 :: (srun (sstepD f d op).2 t).1
    rw [h1.1, h2.1]

/-! ### C80 -/

/-- C80: whatever calls are made on the block, each returns what it would return on a file, and in the end the cache file has the
contents of that file and its next bytes are read and written at the same position.  Missing: writes that the operating system
does only in part (`C80_short_write`). -/
theorem C80_file_partial (data : List UInt8) (l : List (Op × Disk)) (h : Full l) :
    (run (.make data) l).1 = (srun ⟨data, 0⟩ l).1 ∧ (run (.make data) l).2.fh.data = (srun ⟨data, 0⟩ l).2.data ∧
    (run (.make data) l).2.fh.off = (srun ⟨data, 0⟩ l).2.pos := by
  have h := agree_run (agree_make data) h
  exact ⟨h.1, h.2.data, h.2.off⟩

/-- A sequence of calls with a gap, a refused write and a truncation. -/
example : Full [(.seek 2 0, .ok), (.write [7, 8], .ok), (.write [9], .fail), (.write [9], .short 1), (.truncate (some 4), .ok), (.seek 0 0, .ok), (.read none, .ok)] ∧
    (run (.make [1]) [(.seek 2 0, .ok), (.write [7, 8], .ok), (.write [9], .fail), (.write [9], .short 1), (.truncate (some 4), .ok), (.seek 0 0, .ok), (.read none, .ok)]).1 =
      [.num 2, .unit, .err, .unit, .unit, .num 0, .bytes [1, 0, 7, 8]] := by
  refine ⟨?_, by decide⟩
  intro x hx n buf h1 h2
  simp only [List.mem_cons, List.not_mem_nil, or_false] at hx
  rcases hx with rfl | rfl | rfl | rfl | rfl | rfl | rfl <;> cases h1 <;> cases h2
  decide

/-- C80: the size that the cache counts and stores in the database is the size of the file, if nothing empty is written. -/
theorem C80_size_partial (data : List UInt8) (l : List (Op × Disk)) (h : Full l) (hne : ∀ x ∈ l, x.1 ≠ .write []) :
    (run (.make data) l).2.size = (run (.make data) l).2.fh.data.length := by
  have key : ∀ (l : List (Op × Disk)) (e : Entry), Full l → (∀ x ∈ l, x.1 ≠ .write []) → e.pos = e.fh.off → e.size = e.fh.data.length →
      (run e l).2.size = (run e l).2.fh.data.length := by
    intro l
    induction l with
    | nil => intro e _ _ _ h; exact h
    | cons x t ih =>
      obtain ⟨op, d⟩ := x
      intro e hf hn hp hs
      have hfull := fun n buf => hf (op, d) (List.mem_cons_self ..) n buf
      have hag : Agree e ⟨e.fh.data, e.pos⟩ := ⟨rfl, hp.symm, rfl⟩
      have h2 := (agree_step hag op d hfull).2
      refine ih _ (fun y hy => hf y (List.mem_cons_of_mem _ hy)) (fun y hy => hn y (List.mem_cons_of_mem _ hy)) (h2.pos.trans h2.off.symm) ?_
      cases op with
      | read sz => exact hs
      | tell => exact hs
      | seek o w =>
        show (e.seek o w).2.size = (e.seek o w).2.fh.data.length
        unfold Entry.seek Os.lseek
        by_cases hw : w ≠ 0
        · rw [if_pos hw]; split
          · exact hs
          · rename_i f hl
            split at hl
            · cases hl
            · cases hl; exact hs
        · rw [if_neg hw]; split
          · split
            · exact hs
            · rename_i f hl
              split at hl
              · cases hl
              · cases hl; exact hs
          · exact hs
      | truncate sz =>
        show sz.getD e.pos = (fit (sz.getD e.fh.off) e.fh.data).length
        rw [length_fit, hp]
      | write buf =>
        have hb : buf ≠ [] := fun e => hn (.write buf, d) (List.mem_cons_self ..) (by rw [e])
        have hok : (e.write buf .ok).2.size = (e.write buf .ok).2.fh.data.length := by
          show max (e.pos + buf.length) e.size = (put e.fh.data e.fh.off buf).length
          rw [length_put _ _ _ hb, hs, hp]
        cases d with
        | ok => exact hok
        | fail => exact hs
        | short n =>
          have : buf.take n = buf := List.take_of_length_le (hfull n buf rfl rfl)
          show max (e.pos + buf.length) e.size = (put e.fh.data e.fh.off (buf.take n)).length
          rw [this]; exact hok
  exact key l (.make data) h hne rfl rfl

example : (run (.make [1, 2]) [(.seek 5 0, .ok), (.write [7], .ok)]).2.size = 6 := by decide

/-- C80: a block that is not marked dirty has the contents it was made with, even if writes failed or were cut short. -/
theorem C80_clean (data : List UInt8) (l : List (Op × Disk)) (h : (run (.make data) l).2.dirty = false) : (run (.make data) l).2.fh.data = data := by
  have key : ∀ (l : List (Op × Disk)) (e : Entry), (run e l).2.dirty = false → e.dirty = false ∧ (run e l).2.fh.data = e.fh.data := by
    intro l
    induction l with
    | nil => intro e h; exact ⟨h, rfl⟩
    | cons x t ih =>
      obtain ⟨op, d⟩ := x
      intro e h
      obtain ⟨h1, h2⟩ := ih (step e d op).2 h
      show e.dirty = false ∧ (run (step e d op).2 t).2.fh.data = e.fh.data
      rw [h2]
      cases op with
      | read sz => exact ⟨h1, rfl⟩
      | tell => exact ⟨h1, rfl⟩
      | truncate sz => cases h1
      | write buf => cases d <;> cases h1
      | seek o w =>
        have hs : (e.seek o w).2.dirty = e.dirty ∧ (e.seek o w).2.fh.data = e.fh.data := by
          unfold Entry.seek Os.lseek
          by_cases hw : w ≠ 0
          · rw [if_pos hw]; split
            · exact ⟨rfl, rfl⟩
            · rename_i f hl
              split at hl
              · cases hl
              · cases hl; exact ⟨rfl, rfl⟩
          · rw [if_neg hw]; split
            · split
              · exact ⟨rfl, rfl⟩
              · rename_i f hl
                split at hl
                · cases hl
                · cases hl; exact ⟨rfl, rfl⟩
            · exact ⟨rfl, rfl⟩
        exact ⟨hs.1.symm.trans h1, hs.2⟩
  exact (key l (.make data) h).2

example : (run (.make [1, 2]) [(.seek 1 0, .ok), (.read none, .ok)]).2.dirty = false := by decide

/-- C80 is violated when the operating system writes only a part, as it does when the disk gets full.  The call reports success;
the next bytes, although written to the position after, end up in the place of those that are missing. -/
theorem C80_short_write : ∃ l : List (Op × Disk), (∀ r ∈ (run (.make []) l).1, r ≠ .err) ∧ (run (.make []) l).1 ≠ (srun ⟨[], 0⟩ l).1 ∧
    (srun ⟨[], 0⟩ l).2.data = [1, 2, 3, 4, 5, 6, 7, 8] ∧ (run (.make []) l).2.fh.data = [1, 2, 5, 6, 7, 8] ∧ (run (.make []) l).2.size = 8 :=
  ⟨[(.seek 0 0, .ok), (.write [1, 2, 3, 4], .short 2), (.seek 4 0, .ok), (.write [5, 6, 7, 8], .ok), (.seek 0 0, .ok), (.read none, .ok)], by decide⟩

/-- A write that is cut short is never noticed. -/
theorem C80_short_silent (e : Entry) (buf : List UInt8) (n : Nat) : (step e (.short n) (.write buf)).1 = .unit ∧
    (step e (.short n) (.write buf)).2.pos = e.pos + buf.length := ⟨rfl, rfl⟩

/-- An empty write after the end makes the size wrong. -/
theorem C80_empty_write : (run (.make [1]) [(.seek 5 0, .ok), (.write [], .ok)]).2.size = 5 ∧ (run (.make [1]) [(.seek 5 0, .ok), (.write [], .ok)]).2.fh.data = [1] := by decide

end Verif.CacheEntry
