/-
`lock_tree` locks the whole tree, although other requests may run between its batches.
-/
import Verif.Fs.Lock
import Verif.Fs.Seq

namespace Verif.Fs

/-- `lock_tree` at work (fs.py:379-424): it has started on `id0` and made some iterations; between two batches (that is
when no query is open) other requests were handled. -/
inductive Locking (repl fail : Bool) (id0 : Nat) : St → (Nat → Int) → Walk → Prop
  | start {s s' : St} {K : Nat → Int} {w : Walk} : Hist repl fail s K → lockStart s id0 = .ok (s', w) → Locking repl fail id0 s' K w
  | row {s s' : St} {K : Nat → Int} {w w' : Walk} (brk : Bool) : Locking repl fail id0 s K w →
      lockStep brk s w = some (s', w') → Locking repl fail id0 s' K w'
  | req {s : St} {K : Nat → Int} {w : Walk} (op : Op) : Locking repl fail id0 s K w → w.cur = none → Req K s op → Handled s op →
      (repl = false → ¬Replaces s op) → (fail = false → looksUp op → ∃ r, (step s op).1 = .ok r) →
      Locking repl fail id0 (step s op).2 (fun i => K i + kernelDelta op (step s op).1 i) w

/-- The directories that are still to be read, with the name id to go on from. -/
def Walk.todo (w : Walk) : List (Nat × Nat) := w.cur.toList ++ w.queue

/-- The set `V` of inodes that were locked so far: every entry of one of them leads to another, or is still to be read. -/
structure Progress (id0 : Nat) (s : St) (w : Walk) (V : Nat → Prop) : Prop where
  root : V id0
  le : ∀ v, V v → v ≤ s.db.seq
  lock : ∀ v a, V v → AL.get s.db.inodes v = some a → a.locked = true
  row : ∀ v k x, V v → AL.get s.db.contents (v, k) = some x → V x ∨ ∃ lo, (v, lo) ∈ w.todo ∧ lo ≤ k

theorem lockInode_facts {s s' : St} {id : Nat} (h : lockInode s id = some s') :
    AL.get s.db.inodes id ≠ none ∧ s'.db.contents = s.db.contents ∧ s'.db.seq = s.db.seq ∧ s'.failsafe = s.failsafe ∧
    ∀ i, AL.get s'.db.inodes i = if i = id then (AL.get s.db.inodes i).map (fun a => { a with locked := true }) else AL.get s.db.inodes i := by
  unfold lockInode at h
  split at h
  · cases h
  · rename_i x hx
    cases h
    have hr := modInode_rest s.db id (fun i => { i with locked := true })
    refine ⟨by rw [hx]; simp, hr.2.1, hr.2.2.2.2.2.2, rfl, fun i => ?_⟩
    show AL.get (s.db.modInode _ _).inodes i = _
    rw [modInode_get]
    split
    · rename_i e; rw [e]
    · rfl

theorem hasChildren_congr {db db' : Db} (h : db'.contents = db.contents) (i : Nat) : db'.hasChildren i = db.hasChildren i := by
  unfold Db.hasChildren; rw [h]

theorem hasChildren_row {db : Db} {i k x : Nat} (h : AL.get db.contents (i, k) = some x) : db.hasChildren i = true := by
  unfold Db.hasChildren
  exact List.any_eq_true.2 ⟨((i, k), x), AL.get_some_mem h, by simp⟩

/-- The entries of a locked directory keep their name ids. -/
theorem locked_rows {repl fail : Bool} {s : St} {K : Nat → Int} (h : Hist repl fail s K) {op : Op} (hq : Req K s op) (hh : Handled s op)
    {v : Nat} (hl : ∀ a, AL.get s.db.inodes v = some a → a.locked = true) (hle : v ≤ s.db.seq) {k x : Nat}
    (hr : AL.get (step s op).2.db.contents (v, k) = some x) : AL.get s.db.contents (v, k) = some x := by
  obtain ⟨L, g⟩ := h.good
  obtain ⟨L', he, _⟩ := step_eff g.inv (kernelOk_of g.inv g.res g.le hq hh)
  obtain ⟨n, hn⟩ := he.inv.acc.nm_of_C (he.inv.Lnn k) hr
  have hc := (he.inv.acc.child_iff v n x).2 ⟨k, hn, hr⟩
  have hex : AL.get s.db.inodes v ≠ none := by
    intro h0
    have := (he.fresh v h0 (he.inv.child_pos hc).2.2.2).1
    omega
  obtain ⟨a, ha⟩ := Option.ne_none_iff_exists'.1 hex
  rw [locked_child he ha (hl a ha)] at hc
  obtain ⟨k0, hn0, hr0⟩ := (g.inv.acc.child_iff v n x).1 hc
  rw [nameId_stable g.inv.acc he.inv.acc hn0 hn]
  exact hr0

theorem Locking.good {repl fail : Bool} {id0 : Nat} {s : St} {K : Nat → Int} {w : Walk} (h : Locking repl fail id0 s K w) :
    Hist repl fail s K ∧ ∃ V, Progress id0 s w V := by
  induction h with
  | @start s s' K w hh hs =>
    unfold lockStart at hs
    split at hs
    · cases hs
    · rename_i hf
      split at hs
      · cases hs
      · rename_i s1 hl
        cases hs
        obtain ⟨h1, h2, h3, _, h5⟩ := lockInode_facts hl
        obtain ⟨L, g⟩ := hh.good
        refine ⟨hh.lock id0 hl, fun i => i = id0, rfl, ?_, ?_, ?_⟩
        · rintro v rfl; rw [h3]; exact g.inv.acc.seq _ h1
        · rintro v a rfl ha
          rw [h5, if_pos rfl] at ha
          obtain ⟨b, _, rfl⟩ := Option.map_eq_some_iff.1 ha
          rfl
        · rintro v k x rfl _
          exact Or.inr ⟨0, by simp [Walk.todo], Nat.zero_le _⟩
  | @row s s' K w w' brk h1 hs ih =>
    obtain ⟨hh, V, hP⟩ := ih
    obtain ⟨L, g⟩ := hh.good
    unfold lockStep at hs
    split at hs
    · rename_i hcur
      split at hs
      · cases hs
        exact ⟨hh, V, hP⟩
      · rename_i t q hq
        cases hs
        refine ⟨hh, V, hP.root, hP.le, hP.lock, fun v k x hv hr => ?_⟩
        have := hP.row v k x hv hr
        simpa [Walk.todo, hcur, hq] using this
    · rename_i p lo hcur
      split at hs
      · rename_i hnr
        cases hs
        refine ⟨hh, V, hP.root, hP.le, hP.lock, fun v k x hv hr => ?_⟩
        rcases hP.row v k x hv hr with h | ⟨lo', hm, hle⟩
        · exact Or.inl h
        · simp only [Walk.todo, hcur, Option.toList, List.cons_append, List.nil_append, List.mem_cons, Prod.mk.injEq] at hm
          rcases hm with ⟨rfl, rfl⟩ | hm
          · rw [nextRow_none hnr hle] at hr; cases hr
          · exact Or.inr ⟨lo', by simpa [Walk.todo] using hm, hle⟩
      · rename_i k id hnr
        obtain ⟨hrow, hlo, hmin⟩ := nextRow_some g.inv.acc.nkC hnr
        split at hs
        · cases hs
        · rename_i s1 hl
          obtain ⟨e1, e2, e3, e4, e5⟩ := lockInode_facts hl
          have hh1 := hh.lock id hl
          have hP1 : ∀ W : Walk, (p, k + 1) ∈ W.todo → (∀ t ∈ w.queue, t ∈ W.todo) → (s1.db.hasChildren id = true → (id, 0) ∈ W.todo) →
              Progress id0 s1 W (fun v => V v ∨ v = id) := by
            intro W m1 m2 m3
            refine ⟨Or.inl hP.root, ?_, ?_, ?_⟩
            · rintro v (hv | rfl)
              · rw [e3]; exact hP.le v hv
              · rw [e3]; exact g.inv.acc.seq _ e1
            · intro v a hv ha
              rw [e5] at ha
              split at ha
              · obtain ⟨b, _, rfl⟩ := Option.map_eq_some_iff.1 ha
                rfl
              · rename_i hne
                rcases hv with hv | hv
                · exact hP.lock v a hv ha
                · exact absurd hv hne
            · intro v k' x hv hr
              by_cases hvi : v = id
              · refine Or.inr ⟨0, ?_, Nat.zero_le _⟩
                rw [hvi]; rw [hvi] at hr
                exact m3 (hasChildren_row hr)
              · have hv' : V v := by rcases hv with hv | hv; · exact hv
                                     · exact absurd hv hvi
                rw [e2] at hr
                rcases hP.row v k' x hv' hr with h | ⟨lo', hm, hle⟩
                · exact Or.inl (Or.inl h)
                · simp only [Walk.todo, hcur, Option.toList, List.cons_append, List.nil_append, List.mem_cons, Prod.mk.injEq] at hm
                  rcases hm with ⟨rfl, rfl⟩ | hm
                  · have hk := hmin k' x hr hle
                    by_cases hkk : k' = k
                    · rw [hkk, hrow] at hr
                      cases hr
                      exact Or.inl (Or.inr rfl)
                    · exact Or.inr ⟨k + 1, m1, by omega⟩
                  · exact Or.inr ⟨lo', m2 _ hm, hle⟩
          simp only at hs
          split at hs
          · cases hs
            refine ⟨hh1, _, hP1 _ ?_ ?_ ?_⟩
            · simp [Walk.todo]
            · intro t ht; simp only [Walk.todo]; split <;> simp [ht]
            · intro hc; simp only [Walk.todo, hc, if_true]; simp
          · cases hs
            refine ⟨hh1, _, hP1 _ ?_ ?_ ?_⟩
            · simp [Walk.todo]
            · intro t ht; simp only [Walk.todo]; split <;> simp [ht]
            · intro hc; simp only [Walk.todo, hc, if_true]; simp
  | @req s K w op h1 hcur hq hhd hr hf ih =>
    obtain ⟨hh, V, hP⟩ := ih
    have hh2 := hh.step op hq hhd hr hf
    have hsq := (Next.step (K := K) op hq hhd hr hf).seq hh
    refine ⟨hh2, V, hP.root, fun v hv => Nat.le_trans (hP.le v hv) hsq.1, fun v b hv hb => ?_, fun v k x hv hrow => ?_⟩
    · cases hg : AL.get s.db.inodes v with
      | none => rw [hsq.2 v (hP.le v hv) hg] at hb; cases hb
      | some a =>
        have hl := hP.lock v a hv hg
        have := ((hh.kept hq hhd v a hg hl).2 b hb).1.1.2.2.2.2.2
        rw [← this]; exact hl
    · exact hP.row v k x hv (locked_rows hh hq hhd (fun a ha => hP.lock v a hv ha) (hP.le v hv) hrow)

/-- C22: when `lock_tree` has come to its end, everything in the tree is locked, whatever requests were handled while it
was at work. -/
theorem lock_tree_complete {repl fail : Bool} {id0 : Nat} {s : St} {K : Nat → Int} {w : Walk} (h : Locking repl fail id0 s K w)
    (hc : w.cur = none) (hq : w.queue = []) {i : Nat} (hi : Below s id0 i) {a : Inode} (ha : seenAttr s i = some a) : a.locked = true := by
  obtain ⟨hh, V, hP⟩ := h.good
  obtain ⟨L, g⟩ := hh.good
  rw [seenAttr_eq] at ha
  refine hP.lock i a ?_ ha
  have hd := (below_iff g.inv g.res).1 hi
  clear ha hi
  induction hd with
  | refl => exact hP.root
  | @entry b c n _ hch ih =>
    obtain ⟨k, _, hk⟩ := (g.inv.acc.child_iff b n c).1 hch
    rcases hP.row b k c ih hk with h | ⟨lo, hm, _⟩
    · exact h
    · simp [Walk.todo, hc, hq] at hm

/-- C22: `lock_tree` does not fail on the way. -/
theorem lock_tree_no_crash {repl fail : Bool} {id0 : Nat} {s : St} {K : Nat → Int} {w : Walk} (h : Locking repl fail id0 s K w) (brk : Bool) :
    lockStep brk s w ≠ none := by
  obtain ⟨hh, _⟩ := h.good
  obtain ⟨L, g⟩ := hh.good
  intro hs
  unfold lockStep at hs
  split at hs
  · split at hs <;> cases hs
  · rename_i p lo hcur
    split at hs
    · cases hs
    · rename_i k id hnr
      obtain ⟨hrow, _, _⟩ := nextRow_some g.inv.acc.nkC hnr
      obtain ⟨n, hn⟩ := g.inv.acc.nm_of_C (g.inv.Lnn k) hrow
      have hc := (g.inv.acc.child_iff p n id).2 ⟨k, hn, hrow⟩
      obtain ⟨x, hx⟩ := Option.ne_none_iff_exists'.1 (g.inv.child_pos hc).2.1
      simp only [lockInode, hx] at hs
      split at hs <;> cases hs

/-- A tree that `lock_tree` has been through, and that has at least one entry, stays as it is (`locked_tree_frozen_partial`). -/
theorem lock_tree_frozen_partial {repl fail : Bool} {id0 : Nat} {s s' : St} {K K' : Nat → Int} {w : Walk} (h : Locking repl fail id0 s K w)
    (hc : w.cur = none) (hq : w.queue = []) (hne : ∃ n c, n ≠ ctrlName ∧ seenEntry s id0 n = some c)
    (hl : Later repl fail id0 s K s' K') {i : Nat} (hi : Below s id0 i) :
    (∀ n, n ≠ ctrlName → seenEntry s' i n = seenEntry s i n) ∧
    ∃ x y, seenAttr s i = some x ∧ seenAttr s' i = some y ∧ SameAttr x y ∧ y.mtime = x.mtime ∧
      (∀ n, seenXattr s' i n = seenXattr s i n) ∧ seenLink s' i = seenLink s i := by
  have hh := h.good.1
  obtain ⟨L, g⟩ := hh.good
  refine locked_tree_frozen_partial hh ?_ hne hl hi
  intro j hj
  have hex : AL.get s.db.inodes j ≠ none := by
    refine DbBelow.ex g.inv ((below_iff g.inv g.res).1 hj) ?_
    obtain ⟨n, c, hn, hc'⟩ := hne
    rw [seenEntry_eq g.inv, if_neg hn] at hc'
    exact (g.inv.child_pos hc').2.2.2
  obtain ⟨x, hx⟩ := Option.ne_none_iff_exists'.1 hex
  exact ⟨x, by rw [seenAttr_eq]; exact hx, lock_tree_complete h hc hq hj (by rw [seenAttr_eq]; exact hx)⟩

end Verif.Fs
