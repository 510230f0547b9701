/-
C55: transactions in batches (database.py:606-652, and its users fs.py:379-424, 426-502, 504-638).

Any number of passes over the directory tree run as tasks on one database connection, together with tasks that execute single statements.  Every event below
runs without interruption; tasks can be switched between any two events (more often than in the program).
-/
import Verif.Util.AList

namespace Verif.Sync.Batch

/-! #### Model -/

/-- `BatchedTransactionManager`: `in_tx`, `stamp`, `batch_size`. -/
structure Mgr where
  inTx : Bool
  stamp : Int
  size : Int
  deriving DecidableEq, Repr

/-- Where a pass is: in the body of `async with` (`mgr.in_tx` tells if in a batch), between `finish_batch` and `start_batch`, or done. -/
inductive Pc where
  | ready
  | body
  | between
  | done
  /-- an exception has been raised and `__aexit__` is still to come -/
  | failing
  deriving DecidableEq, Repr

structure Pass where
  mgr : Mgr
  pc : Pc
  deriving DecidableEq, Repr

/-- A statement: who executed it, and whether it is committed. -/
structure Stmt where
  by_ : Option Nat
  committed : Bool
  deriving DecidableEq, Repr

structure St where
  /-- the connection is in an explicit transaction -/
  tx : Bool
  stmts : List Stmt
  pass : Nat → Pass
  /-- a `COMMIT` without a transaction has been attempted -/
  badCommit : Bool

inductive Ev where
  /-- `__aenter__` (line 614), or `start_batch` after `finish_batch`; with the clock -/
  | start (i : Nat) (now : Int)
  /-- a statement in the body of a pass -/
  | stmt (i : Nat)
  /-- a statement of another task -/
  | other
  /-- `finish_batch(processed)`; with the clock after the checkpoint -/
  | finish (i : Nat) (processed target now : Int)
  /-- an exception in the body of a pass (from the file system, or a cancellation at an `await`) -/
  | raise_ (i : Nat)
  /-- `__aexit__` -/
  | exit (i : Nat)

def upd (f : Nat → Pass) (i : Nat) (p : Pass) : Nat → Pass := fun j => if j = i then p else f j

/-- SQLite: `COMMIT`. -/
def commit (s : St) : St :=
  if s.tx then { s with tx := false, stmts := s.stmts.map (fun x => { x with committed := true }) } else { s with badCommit := true }

/-- One event; events that the program cannot do at this point do nothing. -/
def step (s : St) : Ev → St
  | .start i now =>
    let p := s.pass i
    if p.pc = .ready ∨ p.pc = .between then
      -- lines 629-631
      if s.tx then
        -- SQLite: cannot start a transaction within a transaction.  In `__aenter__` there is no `__aexit__`.
        { s with pass := upd s.pass i ⟨{ p.mgr with stamp := now }, if p.pc = .ready then .done else .failing⟩ }
      else { s with tx := true, pass := upd s.pass i ⟨{ p.mgr with stamp := now, inTx := true }, .body⟩ }
    else s
  | .stmt i => if (s.pass i).pc = .body then { s with stmts := s.stmts ++ [⟨some i, !s.tx⟩] } else s
  | .other => { s with stmts := s.stmts ++ [⟨none, !s.tx⟩] }
  | .finish i processed target now =>
    let p := s.pass i
    if p.pc = .body then
      if p.mgr.inTx = false then { s with pass := upd s.pass i ⟨p.mgr, .failing⟩ }
      else
        let s := commit s
        let dt := now - p.mgr.stamp
        -- lines 642-646; a division by zero raises
        if dt = 0 then { s with pass := upd s.pass i ⟨{ p.mgr with inTx := false }, .failing⟩ }
        else { s with pass := upd s.pass i ⟨{ p.mgr with inTx := false, size := max 100 (Int.tdiv (processed * target) dt) }, .between⟩ }
    else s
  | .raise_ i => if (s.pass i).pc = .body ∨ (s.pass i).pc = .between then { s with pass := upd s.pass i ⟨(s.pass i).mgr, .failing⟩ } else s
  | .exit i =>
    let p := s.pass i
    if p.pc = .body ∨ p.pc = .failing then
      -- lines 624-626
      let s := if p.mgr.inTx then commit s else s
      { s with pass := upd s.pass i ⟨{ p.mgr with inTx := false }, .done⟩ }
    else s

def init : St := { tx := false, stmts := [], pass := fun _ => ⟨⟨false, 0, 100⟩, .ready⟩, badCommit := false }

inductive Reach : St → Prop where
  | init : Reach init
  | step {s : St} (e : Ev) (h : Reach s) : Reach (step s e)

/-! #### Invariant -/

structure Inv (s : St) : Prop where
  good : s.badCommit = false
  /-- the transaction of the connection belongs to one pass -/
  owner : s.tx = true → ∃ i, (s.pass i).mgr.inTx = true
  intx : ∀ i, (s.pass i).mgr.inTx = true → s.tx = true ∧ ((s.pass i).pc = .body ∨ (s.pass i).pc = .failing)
  one : ∀ i j, (s.pass i).mgr.inTx = true → (s.pass j).mgr.inTx = true → i = j
  body : ∀ i, (s.pass i).pc = .body → (s.pass i).mgr.inTx = true
  /-- uncommitted statements are in the transaction; those of a pass are in its own -/
  open_ : ∀ x ∈ s.stmts, x.committed = false → s.tx = true ∧ ∀ i, x.by_ = some i → (s.pass i).mgr.inTx = true
  size : ∀ i, 100 ≤ (s.pass i).mgr.size

theorem upd_self (f : Nat → Pass) (i : Nat) (p : Pass) : upd f i p i = p := if_pos rfl
theorem upd_ne (f : Nat → Pass) {i j : Nat} (p : Pass) (h : j ≠ i) : upd f i p j = f j := if_neg h

theorem init_inv : Inv init where
  good := rfl
  owner := fun h => by cases h
  intx := fun i h => by cases h
  one := fun i j h => by cases h
  body := fun i h => by cases h
  open_ := fun x hx => absurd hx List.not_mem_nil
  size := fun i => Int.le_refl 100

theorem commit_eq {s : St} (h : s.tx = true) : commit s = { s with tx := false, stmts := s.stmts.map (fun x => { x with committed := true }) } := if_pos h

theorem committed_all {l : List Stmt} : ∀ x ∈ l.map (fun x : Stmt => { x with committed := true }), x.committed = true := by
  intro x hx
  obtain ⟨y, _, rfl⟩ := List.mem_map.1 hx
  rfl

/-- After the commit of its owner, nobody is in a batch. -/
theorem end_batch {s : St} (h : Inv s) {i : Nat} {p : Pass} (hi : (s.pass i).mgr.inTx = true) (hp1 : p.mgr.inTx = false) (hp2 : p.pc ≠ .body) (hp3 : 100 ≤ p.mgr.size) :
    Inv { s with tx := false, stmts := s.stmts.map (fun x => { x with committed := true }), pass := upd s.pass i p } := by
  have hn : ∀ j, (upd s.pass i p j).mgr.inTx = false := by
    intro j
    by_cases hj : j = i
    · rw [hj, upd_self]; exact hp1
    · rw [upd_ne _ _ hj]
      cases hb : (s.pass j).mgr.inTx with
      | false => rfl
      | true => exact absurd (h.one j i hb hi) hj
  refine ⟨h.good, fun h => (Bool.false_ne_true h).elim, ?_, ?_, ?_, ?_, ?_⟩
  · intro j hj
    have := hn j
    rw [this] at hj; cases hj
  · intro j k hj
    have := hn j
    rw [this] at hj; cases hj
  · intro j hj
    by_cases he : j = i
    · rw [he] at hj
      have hj : (upd s.pass i p i).pc = .body := hj
      rw [upd_self] at hj; exact absurd hj hp2
    · have hj : (upd s.pass i p j).pc = .body := hj
      rw [upd_ne _ _ he] at hj
      have := h.body j hj
      exact absurd (h.one j i this hi) he
  · intro x hx hc
    rw [committed_all x hx] at hc; cases hc
  · intro j
    show 100 ≤ (upd s.pass i p j).mgr.size
    by_cases hj : j = i
    · rw [hj, upd_self]; exact hp3
    · rw [upd_ne _ _ hj]; exact h.size j

/-- A pass that is not in a batch goes on without one. -/
theorem move {s : St} (h : Inv s) {i : Nat} {p : Pass} (hi : (s.pass i).mgr.inTx = false) (hp1 : p.mgr.inTx = false) (hp2 : p.pc ≠ .body) (hp3 : 100 ≤ p.mgr.size) :
    Inv { s with pass := upd s.pass i p } := by
  have hin : ∀ j, (upd s.pass i p j).mgr.inTx = (s.pass j).mgr.inTx := by
    intro j
    by_cases hj : j = i
    · rw [hj, upd_self, hi, hp1]
    · rw [upd_ne _ _ hj]
  refine ⟨h.good, ?_, ?_, ?_, ?_, ?_, ?_⟩
  · intro ht
    obtain ⟨j, hj⟩ := h.owner ht
    exact ⟨j, by show (upd s.pass i p j).mgr.inTx = true; rw [hin]; exact hj⟩
  · intro j hj
    have hj : (upd s.pass i p j).mgr.inTx = true := hj
    show _ ∧ ((upd s.pass i p j).pc = _ ∨ (upd s.pass i p j).pc = _)
    by_cases he : j = i
    · rw [he, upd_self, hp1] at hj; cases hj
    · rw [upd_ne _ _ he] at hj ⊢
      exact h.intx j hj
  · intro j k hj hk
    have hj : (upd s.pass i p j).mgr.inTx = true := hj
    have hk : (upd s.pass i p k).mgr.inTx = true := hk
    rw [hin] at hj hk
    exact h.one j k hj hk
  · intro j hj
    have hj : (upd s.pass i p j).pc = .body := hj
    show (upd s.pass i p j).mgr.inTx = true
    by_cases he : j = i
    · rw [he, upd_self] at hj; exact absurd hj hp2
    · rw [upd_ne _ _ he] at hj ⊢; exact h.body j hj
  · intro x hx hc
    obtain ⟨h1, h2⟩ := h.open_ x hx hc
    refine ⟨h1, fun j hj => ?_⟩
    show (upd s.pass i p j).mgr.inTx = true
    rw [hin]; exact h2 j hj
  · intro j
    show 100 ≤ (upd s.pass i p j).mgr.size
    by_cases hj : j = i
    · rw [hj, upd_self]; exact hp3
    · rw [upd_ne _ _ hj]; exact h.size j

theorem step_inv {s : St} (h : Inv s) (e : Ev) : Inv (step s e) := by
  cases e with
  | start i now =>
    unfold step
    dsimp only
    split
    · rename_i hpc
      have hni : (s.pass i).mgr.inTx = false := by
        cases hb : (s.pass i).mgr.inTx with
        | false => rfl
        | true =>
          rcases (h.intx i hb).2 with e | e <;> rw [e] at hpc <;> rcases hpc with hpc | hpc <;> cases hpc
      split
      · refine move h hni ?_ ?_ (h.size i)
        · exact hni
        · dsimp only; split <;> exact fun he => by cases he
      · rename_i ht
        have ht : s.tx = false := by cases hb : s.tx with
          | false => rfl
          | true => exact absurd hb ht
        have hno : ∀ j, (s.pass j).mgr.inTx = false := by
          intro j
          cases hb : (s.pass j).mgr.inTx with
          | false => rfl
          | true => have := (h.intx j hb).1; rw [ht] at this; cases this
        refine ⟨h.good, fun _ => ⟨i, by show (upd _ _ _ i).mgr.inTx = true; rw [upd_self]⟩, ?_, ?_, ?_, ?_, ?_⟩
        · intro j hj
          have hj : (upd s.pass i _ j).mgr.inTx = true := hj
          by_cases he : j = i
          · subst he
            exact ⟨rfl, Or.inl (by show (upd _ _ _ j).pc = _; rw [upd_self])⟩
          · rw [upd_ne _ _ he, hno] at hj; cases hj
        · intro j k hj hk
          have hj : (upd s.pass i _ j).mgr.inTx = true := hj
          have hk : (upd s.pass i _ k).mgr.inTx = true := hk
          by_cases he : j = i
          · by_cases he' : k = i
            · rw [he, he']
            · rw [upd_ne _ _ he', hno] at hk; cases hk
          · rw [upd_ne _ _ he, hno] at hj; cases hj
        · intro j hj
          have hj : (upd s.pass i _ j).pc = .body := hj
          show (upd s.pass i _ j).mgr.inTx = true
          by_cases he : j = i
          · rw [he, upd_self]
          · rw [upd_ne _ _ he] at hj ⊢; exact h.body j hj
        · intro x hx hc
          obtain ⟨h1, _⟩ := h.open_ x hx hc
          rw [ht] at h1; cases h1
        · intro j
          show 100 ≤ (upd s.pass i _ j).mgr.size
          by_cases he : j = i
          · rw [he, upd_self]; exact h.size i
          · rw [upd_ne _ _ he]; exact h.size j
    · exact h
  | stmt i =>
    unfold step
    dsimp only
    split
    · rename_i hpc
      have hin := h.body i hpc
      refine ⟨h.good, h.owner, h.intx, h.one, h.body, ?_, h.size⟩
      intro x hx hc
      rcases List.mem_append.1 hx with hx | hx
      · exact h.open_ x hx hc
      · rw [List.mem_singleton.1 hx] at hc ⊢
        exact ⟨(h.intx i hin).1, fun j hj => by cases hj; exact hin⟩
    · exact h
  | other =>
    unfold step
    refine ⟨h.good, h.owner, h.intx, h.one, h.body, ?_, h.size⟩
    intro x hx hc
    rcases List.mem_append.1 hx with hx | hx
    · exact h.open_ x hx hc
    · rw [List.mem_singleton.1 hx] at hc ⊢
      refine ⟨?_, fun j hj => by cases hj⟩
      show s.tx = true
      cases hb : s.tx with
      | true => rfl
      | false => rw [hb] at hc; cases hc
  | finish i processed target now =>
    unfold step
    dsimp only
    split
    · rename_i hpc
      have hin := h.body i hpc
      have htx := (h.intx i hin).1
      rw [if_neg (by rw [hin]; exact fun h => Bool.false_ne_true h.symm), commit_eq htx]
      split
      · exact end_batch h hin rfl (fun he => by cases he) (h.size i)
      · exact end_batch h hin rfl (fun he => by cases he) (Int.le_max_left _ _)
    · exact h
  | raise_ i =>
    unfold step
    dsimp only
    split
    · rename_i hpc
      refine ⟨h.good, ?_, ?_, ?_, ?_, ?_, ?_⟩
      all_goals
        have hin : ∀ j, (upd s.pass i ⟨(s.pass i).mgr, .failing⟩ j).mgr = (s.pass j).mgr := by
          intro j
          by_cases hj : j = i
          · rw [hj, upd_self]
          · rw [upd_ne _ _ hj]
      · intro ht
        obtain ⟨j, hj⟩ := h.owner ht
        exact ⟨j, by show (upd s.pass i _ j).mgr.inTx = true; rw [hin]; exact hj⟩
      · intro j hj
        have hj : (upd s.pass i _ j).mgr.inTx = true := hj
        rw [hin] at hj
        refine ⟨(h.intx j hj).1, ?_⟩
        show (upd s.pass i _ j).pc = _ ∨ (upd s.pass i _ j).pc = _
        by_cases he : j = i
        · rw [he, upd_self]; exact Or.inr rfl
        · rw [upd_ne _ _ he]; exact (h.intx j hj).2
      · intro j k hj hk
        have hj : (upd s.pass i _ j).mgr.inTx = true := hj
        have hk : (upd s.pass i _ k).mgr.inTx = true := hk
        rw [hin] at hj hk
        exact h.one j k hj hk
      · intro j hj
        have hj : (upd s.pass i _ j).pc = .body := hj
        show (upd s.pass i _ j).mgr.inTx = true
        rw [hin]
        by_cases he : j = i
        · rw [he, upd_self] at hj; cases hj
        · rw [upd_ne _ _ he] at hj; exact h.body j hj
      · intro x hx hc
        obtain ⟨h1, h2⟩ := h.open_ x hx hc
        refine ⟨h1, fun j hj => ?_⟩
        show (upd s.pass i _ j).mgr.inTx = true
        rw [hin]; exact h2 j hj
      · intro j
        show 100 ≤ (upd s.pass i _ j).mgr.size
        rw [hin]; exact h.size j
    · exact h
  | exit i =>
    unfold step
    dsimp only
    split
    · rename_i hpc
      cases hin : (s.pass i).mgr.inTx with
      | true =>
        rw [if_pos rfl, commit_eq (h.intx i hin).1]
        exact end_batch h hin rfl (fun he => by cases he) (h.size i)
      | false =>
        rw [if_neg (by decide)]
        exact move h hin rfl (fun he => by cases he) (h.size i)
    · exact h

theorem reach_inv {s : St} (h : Reach s) : Inv s := by
  induction h with
  | init => exact init_inv
  | step e _ ih => exact step_inv ih e

/-! #### Theorems -/

/-- A pass that has ended, in whatever way, leaves nothing uncommitted that it did. -/
theorem C55_all_committed {s : St} (h : Reach s) {i : Nat} (hd : (s.pass i).pc = .done) : ∀ x ∈ s.stmts, x.by_ = some i → x.committed = true := by
  intro x hx hi
  cases hc : x.committed with
  | true => rfl
  | false =>
    have := ((reach_inv h).open_ x hx hc).2 i hi
    rcases ((reach_inv h).intx i this).2 with e | e <;> rw [hd] at e <;> cases e

/-- If no pass is in a batch, nothing at all is uncommitted, so a statement of any task is uncommitted only while some pass is in a batch. -/
theorem C55_others_committed {s : St} (h : Reach s) (hd : ∀ i, (s.pass i).pc ≠ .body ∧ (s.pass i).pc ≠ .failing) : s.tx = false ∧ ∀ x ∈ s.stmts, x.committed = true := by
  have hno : s.tx = false := by
    cases hb : s.tx with
    | false => rfl
    | true =>
      obtain ⟨i, hi⟩ := (reach_inv h).owner hb
      rcases ((reach_inv h).intx i hi).2 with e | e
      · exact absurd e (hd i).1
      · exact absurd e (hd i).2
  refine ⟨hno, fun x hx => ?_⟩
  cases hc : x.committed with
  | true => rfl
  | false =>
    have := ((reach_inv h).open_ x hx hc).1
    rw [hno] at this; cases this

/-- Every statement in the body of a pass is executed in the transaction of that pass, the batches are never smaller than 100, and `COMMIT` never fails. -/
theorem C55_in_transaction {s : St} (h : Reach s) : s.badCommit = false ∧ ∀ i, 100 ≤ (s.pass i).mgr.size ∧
    ((s.pass i).pc = .body → s.tx = true ∧ ∀ j, (s.pass j).pc = .body → j = i) := by
  have hi := reach_inv h
  refine ⟨hi.good, fun i => ⟨hi.size i, fun hb => ⟨(hi.intx i (hi.body i hb)).1, fun j hj => hi.one j i (hi.body j hj) (hi.body i hb)⟩⟩⟩

/-- What happens if a pass ends: only its own transaction is committed, and everything executed so far is then committed. -/
theorem C55_exit {s : St} (h : Reach s) {i : Nat} (hpc : (s.pass i).pc = .body) :
    ((step s (.exit i)).pass i).pc = .done ∧ (step s (.exit i)).tx = false ∧ (∀ x ∈ (step s (.exit i)).stmts, x.committed = true) ∧
    (step s (.exit i)).stmts.map (·.by_) = s.stmts.map (·.by_) := by
  have hi := reach_inv h
  have hin := hi.body i hpc
  have htx := (hi.intx i hin).1
  simp only [step]
  rw [if_pos (Or.inl hpc), hin, if_pos rfl, commit_eq htx]
  refine ⟨by dsimp only; rw [upd_self], rfl, committed_all, ?_⟩
  dsimp only
  rw [List.map_map]; rfl

/-- No rollback ever: statements stay, and what is committed stays committed. -/
theorem C55_nothing_undone (s : St) (e : Ev) : ∃ l, (step s e).stmts.map (·.by_) = s.stmts.map (·.by_) ++ l ∧
    ∀ (n : Nat) (x : Stmt), s.stmts[n]? = some x → x.committed = true → ∃ y : Stmt, (step s e).stmts[n]? = some y ∧ y.committed = true ∧ y.by_ = x.by_ := by
  have same : ∀ s' : St, s'.stmts = s.stmts → ∃ l, s'.stmts.map (·.by_) = s.stmts.map (·.by_) ++ l ∧
      ∀ (n : Nat) (x : Stmt), s.stmts[n]? = some x → x.committed = true → ∃ y : Stmt, s'.stmts[n]? = some y ∧ y.committed = true ∧ y.by_ = x.by_ := by
    intro s' h
    exact ⟨[], by rw [h, List.append_nil], fun n x hx hc => ⟨x, by rw [h]; exact hx, hc, rfl⟩⟩
  have add : ∀ (s' : St) (y : Stmt), s'.stmts = s.stmts ++ [y] → ∃ l, s'.stmts.map (·.by_) = s.stmts.map (·.by_) ++ l ∧
      ∀ (n : Nat) (x : Stmt), s.stmts[n]? = some x → x.committed = true → ∃ y : Stmt, s'.stmts[n]? = some y ∧ y.committed = true ∧ y.by_ = x.by_ := by
    intro s' y h
    refine ⟨[y.by_], by rw [h, List.map_append]; rfl, fun n x hx hc => ⟨x, ?_, hc, rfl⟩⟩
    rw [h]
    have hn : n < s.stmts.length := by
      rcases Nat.lt_or_ge n s.stmts.length with h | h
      · exact h
      · rw [List.getElem?_eq_none h] at hx; cases hx
    rw [List.getElem?_append_left hn]; exact hx
  have all : ∀ s' : St, s'.stmts = s.stmts.map (fun x => { x with committed := true }) → ∃ l, s'.stmts.map (·.by_) = s.stmts.map (·.by_) ++ l ∧
      ∀ (n : Nat) (x : Stmt), s.stmts[n]? = some x → x.committed = true → ∃ y : Stmt, s'.stmts[n]? = some y ∧ y.committed = true ∧ y.by_ = x.by_ := by
    intro s' h
    refine ⟨[], by rw [h, List.append_nil, List.map_map]; rfl, fun n x hx hc => ⟨{ x with committed := true }, ?_, rfl, rfl⟩⟩
    rw [h, List.getElem?_map, hx]; rfl
  have hcommit : (commit s).stmts = s.stmts ∨ (commit s).stmts = s.stmts.map (fun x => { x with committed := true }) := by
    unfold commit; split
    · exact Or.inr rfl
    · exact Or.inl rfl
  cases e with
  | start i now =>
    apply same; simp only [step]; repeat' first | rfl | split
  | stmt i =>
    simp only [step]
    split
    · exact add _ _ rfl
    · exact same _ rfl
  | other => exact add _ _ rfl
  | raise_ i => apply same; simp only [step]; split <;> rfl
  | finish i p t n =>
    simp only [step]
    split
    · split
      · exact same _ rfl
      · split
        · rcases hcommit with hc | hc
          · exact same _ hc
          · exact all _ hc
        · rcases hcommit with hc | hc
          · exact same _ hc
          · exact all _ hc
    · exact same _ rfl
  | exit i =>
    simp only [step]
    split
    · split
      · rcases hcommit with hc | hc
        · exact same _ hc
        · exact all _ hc
      · exact same _ rfl
    · exact same _ rfl

/-- Two passes at a time: one of them fails, whatever it is that they do.  (`s3qlrm` while `s3qlcp` or `s3qllock` runs.) -/
theorem C55_second_pass_fails {s : St} (h : Reach s) {i j : Nat} (hi : (s.pass i).pc = .body) (hj : (s.pass j).pc = .ready) (now : Int) :
    ((step s (.start j now)).pass j).pc = .done ∧ (step s (.start j now)).stmts = s.stmts := by
  have hinv := reach_inv h
  have htx := (hinv.intx i (hinv.body i hi)).1
  simp only [step]
  rw [if_pos (Or.inl hj), if_pos htx]
  refine ⟨?_, rfl⟩
  dsimp only
  rw [upd_self, if_pos hj]

/-- A second pass can also begin between two batches of the first, which then fails in the middle. -/
theorem C55_first_pass_fails {s : St} (h : Reach s) {i j : Nat} (hi : (s.pass i).pc = .between) (hj : (s.pass j).pc = .body) (now : Int) :
    ((step s (.start i now)).pass i).pc = .failing := by
  have hinv := reach_inv h
  have htx := (hinv.intx j (hinv.body j hj)).1
  simp only [step]
  rw [if_pos (Or.inr hi), if_pos htx]
  dsimp only
  rw [upd_self, if_neg (by rw [hi]; exact fun h => by cases h)]

/-! #### Concrete cases -/

/-- A pass with two batches, with a statement of another task in the second one; an exception ends it. -/
def run0 : List Ev := [.start 0 0, .stmt 0, .stmt 0, .finish 0 400 60 10, .other, .start 0 10, .stmt 0, .other, .raise_ 0]

def after (l : List Ev) : St := l.foldl step init

theorem reach_after (l : List Ev) : Reach (after l) := by
  have : ∀ (l : List Ev) s, Reach s → Reach (l.foldl step s) := by
    intro l
    induction l with
    | nil => exact fun s h => h
    | cons e t ih => exact fun s h => ih _ (Reach.step e h)
  exact this l _ Reach.init

example : (after run0).stmts.map (·.committed) = [true, true, true, false, false] ∧ ((after run0).pass 0).mgr.size = 2400 ∧
    (after (run0 ++ [.exit 0])).stmts.map (·.committed) = [true, true, true, true, true] := by decide +kernel

example : ∀ x ∈ (after (run0 ++ [.exit 0])).stmts, x.by_ = some 0 → x.committed = true := C55_all_committed (reach_after _) (by decide +kernel)

example : ((step (after [.start 0 0, .stmt 0]) (.start 1 5)).pass 1).pc = .done := (C55_second_pass_fails (reach_after _) (i := 0) (by decide +kernel) (by decide +kernel) 5).1

example : ((step (after [.start 0 0, .stmt 0, .finish 0 1 1 1, .start 1 1]) (.start 0 5)).pass 0).pc = .failing :=
  C55_first_pass_fails (reach_after _) (j := 1) (by decide +kernel) (by decide +kernel) 5

end Verif.Sync.Batch
