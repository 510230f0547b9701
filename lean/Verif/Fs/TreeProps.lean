/-
Properties of `s3qlrm` and `s3qlcp`.
-/
import Verif.Fs.TreeEnd

namespace Verif.Fs

/-! #### C23 -/

/-- C23: `remove_tree` either refuses (failsafe mode, locked or unknown directory, no such entry) and changes nothing, or
removes the entry and every entry of every directory below it, and no other entry.  Inodes that are left keep their
attributes, extended attributes, link targets and blocks, and there are no new inodes. -/
theorem rmtree_exact {repl fail : Bool} {s s' : St} {K : Nat → Int} (h : Hist repl fail s K) {p : Nat} {n : Bytes} (hn : n ≠ ctrlName)
    (hnl : ∀ a, seenEntry s p n = some a → ¬Below s a p) {res : Except Err Unit} (hr : RmTree s p n res s') :
    (∃ e, res = .error e ∧ s' = s ∧ ((s.failsafe = true ∧ e = .EPERM) ∨ (seenAttr s p = none ∧ e = .crash) ∨
      ((seenAttr s p).map (·.locked) = some true ∧ e = .EPERM) ∨ (seenEntry s p n = none ∧ e = .ENOENT))) ∨
    (∃ a, res = .ok () ∧ s.failsafe = false ∧ (seenAttr s p).map (·.locked) = some false ∧ seenEntry s p n = some a ∧
      (∀ q m, m ≠ ctrlName → (q = p ∧ m = n) ∨ Below s a q → seenEntry s' q m = none) ∧
      (∀ q m, m ≠ ctrlName → ¬(q = p ∧ m = n) → ¬Below s a q → seenEntry s' q m = seenEntry s q m) ∧
      (∀ i y, seenAttr s' i = some y → ∃ x, seenAttr s i = some x ∧ SameAttr x y ∧
        (∀ m, seenXattr s' i m = seenXattr s i m) ∧ seenLink s' i = seenLink s i ∧
        ∀ k, AL.get s'.db.blocks (i, k) = AL.get s.db.blocks (i, k))) := by
  obtain ⟨L, g⟩ := h.good
  obtain ⟨L', g'⟩ := (h.rmtree hn hnl hr).good
  have hnb : ∀ id0, s.db.child p n = some id0 → ¬DbBelow s id0 p := fun id0 hc hd =>
    hnl id0 (by rw [seenEntry_eq g.inv, if_neg hn]; exact hc) ((below_iff g.inv g.res).2 hd)
  simp only [seenAttr_eq]
  rcases hr.spec g.inv hn hnb with ⟨e, h1, h2, h3⟩ | ⟨id0, h1, h2, h3, hc, _, hrest, _, _, hgone, hkeep, hino⟩
  · refine Or.inl ⟨e, h1, h2, ?_⟩
    rw [seenEntry_eq g.inv, if_neg hn]
    exact h3
  · refine Or.inr ⟨id0, h1, h2, h3, by rw [seenEntry_eq g.inv, if_neg hn]; exact hc, ?_, ?_, ?_⟩
    · intro q m hm hq
      rw [seenEntry_eq g'.inv, if_neg hm]
      exact hgone q m (by rw [← below_iff g.inv g.res]; exact hq)
    · intro q m hm hq hb
      rw [seenEntry_eq g'.inv, seenEntry_eq g.inv, if_neg hm, if_neg hm]
      exact hkeep q m hq (by rw [← below_iff g.inv g.res]; exact hb)
    · intro i y hy
      rcases hino i with e | ⟨a, b, ha, hb, hs, _⟩
      · rw [e] at hy; cases hy
      · rw [hy] at hb; cases hb
        have n1 : AL.get s.db.inodes i ≠ none := by rw [ha]; simp
        have n2 : AL.get s'.db.inodes i ≠ none := by rw [hy]; simp
        refine ⟨a, ha, hs, fun m => ?_, ?_, fun k => hrest.blk i k n1 n2⟩
        · rw [seenXattr_eq, seenXattr_eq, hrest.xval i m n1 n2]
        · rw [seenLink_eq, seenLink_eq, if_neg n1, if_neg n2, hrest.sym i n1 n2]

/-- C23: every inode that has no link left and that the kernel does not know is deleted; all others exist.  (Without
failed lookups before: see `inode_exists_iff_partial`.) -/
theorem rmtree_deletes {repl : Bool} {s s' : St} {K : Nat → Int} (h : Hist repl false s K) {p : Nat} {n : Bytes} (hn : n ≠ ctrlName)
    (hnl : ∀ a, seenEntry s p n = some a → ¬Below s a p) {res : Except Err Unit} (hr : RmTree s p n res s')
    {i : Nat} (h1 : i ≠ rootInode) (h2 : i ≠ ctrlInode) : seenAttr s' i ≠ none ↔ 0 < entriesTo s' i ∨ 0 < K i :=
  inode_exists_iff_partial (h.rmtree hn hnl hr) h1 h2

/-- C23: link counts and all other counts are exact afterwards. -/
theorem rmtree_counts {repl fail : Bool} {s s' : St} {K : Nat → Int} (h : Hist repl fail s K) {p : Nat} {n : Bytes} (hn : n ≠ ctrlName)
    (hnl : ∀ a, seenEntry s p n = some a → ¬Below s a p) {res : Except Err Unit} (hr : RmTree s p n res s') :
    LinksExact s' ∧ EntriesValid s' ∧ NoDup s' ∧ ObjectsExact s' := by
  have h' := h.rmtree hn hnl hr
  obtain ⟨a, b, c⟩ := links_exact_partial h'
  exact ⟨a, b, c, objects_exact_partial h'⟩

/-- Nowhere below `a` does a directory contain itself. -/
def Acyclic (s : St) (a : Nat) : Prop := ∀ d, Below s a d → NoLoop s d

theorem rmSt_start {repl fail : Bool} {s : St} {K : Nat → Int} (h : Hist repl fail s K) {p a : Nat} {n : Bytes} (hn : n ≠ ctrlName)
    (ha : seenEntry s p n = some a) (hac : Acyclic s a) : ∃ L, RmSt L (s.addOpen a 1, [a]) ∧ lookup s p n = (.ok a, s.addOpen a 1) := by
  obtain ⟨L, g⟩ := h.good
  rw [seenEntry_eq g.inv, if_neg hn] at ha
  rcases lookup_spec g.inv p n with ⟨e, he, hc⟩ | ⟨id, he, hex, hinv1, hch, _⟩
  · exfalso
    unfold lookup at he
    rw [if_neg hn, ha] at he
    obtain ⟨x, hx⟩ := Option.ne_none_iff_exists'.1 (g.inv.child_pos ha).2.1
    simp only [hx] at he
    cases he
  have := hch hn
  rw [ha] at this; cases this
  refine ⟨L, ⟨hinv1, ?_⟩, he⟩
  intro d hd b c m hb hc hcb
  rw [List.mem_singleton] at hd
  subst hd
  have tr : ∀ x y, DbBelow (s.addOpen d 1) x y → DbBelow s x y := by
    intro x y hxy
    induction hxy with
    | refl => exact DbBelow.refl
    | entry _ hc ih => exact ih.entry hc
  have hc0 : s.db.child b m = some c := hc
  have hcb' := tr _ _ hcb
  have hbb := tr _ _ hb
  -- `c` is below `d` and leads back to itself
  refine noLoop_db g.inv g.res (hac c ((below_iff g.inv g.res).2 (hbb.entry hc0))) b m hcb' hc0

/-- C23: the loop of `remove_tree` always comes to an end: there is no infinite sequence of iterations, whatever the sizes
of the batches. -/
theorem rmtree_terminates {repl fail : Bool} {s : St} {K : Nat → Int} (h : Hist repl fail s K) {p a : Nat} {n : Bytes} (hn : n ≠ ctrlName)
    (ha : seenEntry s p n = some a) (hac : Acyclic s a) :
    ¬∃ f : Nat → St × List Nat, f 0 = (s.addOpen a 1, [a]) ∧ ∀ k, RmIter (f k) (f (k + 1)) := by
  rintro ⟨f, h0, hf⟩
  obtain ⟨L, hst, _⟩ := rmSt_start h hn ha hac
  have hacc := rm_acc _ (f 0) (Nat.le_refl _) (by rw [h0]; exact hst)
  have : ∀ a, _root_.Acc (fun b a => RmIter a b) a → ∀ k, f k ≠ a := by
    intro a hacc
    induction hacc with
    | intro a _ ih =>
      rintro k rfl
      exact ih (f (k + 1)) (hf k) (k + 1) rfl
  exact this _ hacc 0 rfl

/-- C23: `remove_tree` of an existing entry of a directory that is not locked succeeds. -/
theorem rmtree_succeeds {repl fail : Bool} {s : St} {K : Nat → Int} (h : Hist repl fail s K) {p a : Nat} {n : Bytes} (hn : n ≠ ctrlName)
    (hf : s.failsafe = false) (hp : (seenAttr s p).map (·.locked) = some false) (ha : seenEntry s p n = some a) (hac : Acyclic s a)
    (hnl : ¬Below s a p) : ∃ s', RmTree s p n (.ok ()) s' := by
  obtain ⟨L, g⟩ := h.good
  obtain ⟨L1, hst, hlk⟩ := rmSt_start h hn ha hac
  obtain ⟨s2, hrun⟩ := rm_run (rm_acc _ _ (Nat.le_refl _) hst) hst
  rw [seenAttr_eq] at hp
  obtain ⟨ip, hip, hil⟩ := Option.map_eq_some_iff.1 hp
  -- whatever follows, the result is described by `rmtree_exact`
  cases hrm : remove s2 p n a true 0 with
  | mk r s3 =>
    cases r with
    | error e =>
      have hT : RmTree s p n (.error e) s3 := RmTree.last hf hip hil hlk hrun hrm
      rcases rmtree_exact h hn (fun b hb => by rw [ha] at hb; cases hb; exact hnl) hT with ⟨e', _, _, h1 | h1 | h1 | h1⟩ | ⟨_, h1, _⟩
      · rw [hf] at h1; cases h1.1
      · rw [seenAttr_eq, hip] at h1; cases h1.1
      · rw [seenAttr_eq, hip] at h1; simp [hil] at h1
      · rw [ha] at h1; cases h1.1
      · cases h1
    | ok u =>
      cases hfo : forget s3 [(a, 1)] with
      | mk r4 s4 =>
        have hT : RmTree s p n r4 s4 := RmTree.finish hf hip hil hlk hrun hrm hfo
        rcases rmtree_exact h hn (fun b hb => by rw [ha] at hb; cases hb; exact hnl) hT with ⟨e', _, _, h1 | h1 | h1 | h1⟩ | ⟨_, h1, _⟩
        · rw [hf] at h1; cases h1.1
        · rw [seenAttr_eq, hip] at h1; cases h1.1
        · rw [seenAttr_eq, hip] at h1; simp [hil] at h1
        · rw [ha] at h1; cases h1.1
        · subst h1; exact ⟨s4, hT⟩

/-! #### C24 -/

/-- C24: after `copy_tree` the target has a copy of everything below the source.  `φ` maps each inode to its copy.  The copies are
new and different inodes with the same attributes, extended attributes, link target and blocks as the originals; their
entries, and those added to the target, are those of the originals.  So hard links in the source are hard links in the
copy.  Nothing else changes, except that the target gets the attributes of the source (and blocks that were waiting for
their upload may be uploaded).  Missing: the extended attributes of the source directory itself are not copied; other
requests do not run in between (for those see `copy_exact_partial`). -/
theorem cptree_exact_partial {repl fail : Bool} {s s' : St} {K : Nat → Int} (h : Hist repl fail s K) {src tgt : Nat} (hnl : NoLoop s src)
    (ht : Linked s tgt) (hc : CpTree s src tgt s') :
    ∃ φ : Nat → Nat, φ src = tgt ∧
      (∀ d, Below s src d → d ≠ src → seenAttr s (φ d) = none ∧ ∃ a b, seenAttr s' d = some a ∧ seenAttr s' (φ d) = some b ∧ CopyOf a b ∧
        (∀ n, seenXattr s' (φ d) n = seenXattr s' d n) ∧ seenLink s' (φ d) = seenLink s' d ∧
        (∀ k, AL.get s'.db.blocks (φ d, k) = AL.get s'.db.blocks (d, k))) ∧
      (∀ d e, Below s src d → Below s src e → φ d = φ e → d = e) ∧
      (∀ d n, n ≠ ctrlName → Below s src d → d ≠ src → seenEntry s' (φ d) n = (seenEntry s d n).map φ) ∧
      (∀ n, n ≠ ctrlName → seenEntry s' tgt n = ((seenEntry s src n).map φ).or (seenEntry s tgt n)) ∧
      (∀ i, seenAttr s i = none → seenAttr s' i ≠ none → ∃ d, Below s src d ∧ d ≠ src ∧ i = φ d) ∧
      (∃ a t, seenAttr s src = some a ∧ seenAttr s tgt = some t ∧ seenAttr s' tgt =
        some { t with atime := a.atime, ctime := a.ctime, mtime := a.mtime, mode := a.mode, uid := a.uid, gid := a.gid }) ∧
      (∀ i, seenAttr s i ≠ none → (i ≠ tgt → seenAttr s' i = seenAttr s i ∧ ∀ n, n ≠ ctrlName → seenEntry s' i n = seenEntry s i n) ∧
        (∀ n, seenXattr s' i n = seenXattr s i n) ∧ seenLink s' i = seenLink s i ∧
        (AL.get s.opened i = none → ∀ k, AL.get s'.db.blocks (i, k) = AL.get s.db.blocks (i, k))) := by
  obtain ⟨L, g⟩ := h.good
  obtain ⟨L', g'⟩ := (h.cptree hnl ht hc).good
  obtain ⟨_, hinv, _, _, _, hsq, hI, ⟨a, t, ha, htt, hta⟩, hC, hX, hS, hB, φ, h1, h2, h3, h4, h5, h6⟩ :=
    hc.spec g.inv (noLoop_db g.inv g.res hnl) (linked_rc g.inv ht)
  have hbi : ∀ {d}, Below s src d ↔ DbBelow s src d := below_iff g.inv g.res
  have hE : ∀ p n, n ≠ ctrlName → seenEntry s p n = s.db.child p n := fun p n hn => by rw [seenEntry_eq g.inv, if_neg hn]
  have hE' : ∀ p n, n ≠ ctrlName → seenEntry s' p n = s'.db.child p n := fun p n hn => by rw [seenEntry_eq g'.inv, if_neg hn]
  simp only [seenAttr_eq]
  refine ⟨φ, h1, ?_, fun d e hd he => h3 d e (hbi.1 hd) (hbi.1 he), ?_, ?_, ?_, ⟨a, t, ha, htt, hta⟩, ?_⟩
  · intro d hd hds
    obtain ⟨e1, x, y, hx, hy, e2, e3, e4, e5⟩ := h2 d (hbi.1 hd) hds
    refine ⟨?_, x, y, hx, hy, e2, fun n => ?_, ?_, e5⟩
    · cases hg : AL.get s.db.inodes (φ d) with
      | none => rfl
      | some z => have := g.inv.acc.seq (φ d) (by rw [hg]; simp); omega
    · rw [seenXattr_eq, seenXattr_eq, e3]
    · rw [seenLink_eq, seenLink_eq, hx, hy, e4]; simp
  · intro d n hn hd hds
    rw [hE _ _ hn, hE' _ _ hn]; exact h4 d n (hbi.1 hd) hds
  · intro n hn
    rw [hE _ _ hn, hE' _ _ hn, hE _ _ hn]; exact h5 n
  · intro i hi hi'
    have : s.db.seq < i := by
      apply Nat.lt_of_not_le
      intro hle
      have hit : i ≠ tgt := by rintro rfl; rw [hi] at htt; cases htt
      rw [hI i hle hit] at hi'
      exact hi' hi
    obtain ⟨d, hd, hds, e⟩ := h6 i this hi'
    exact ⟨d, hbi.2 hd, hds, e⟩
  · intro i hi
    have hle := g.inv.acc.seq i hi
    refine ⟨fun hit => ⟨hI i hle hit, fun n hn => ?_⟩, fun n => ?_, ?_, fun ho k => hB i k hle ho⟩
    · rw [hE _ _ hn, hE' _ _ hn]; exact hC i n hle hit
    · rw [seenXattr_eq, seenXattr_eq, hX i n hle]
    · have hi' : AL.get s'.db.inodes i ≠ none := by
        by_cases hit : i = tgt
        · subst hit; rw [hta]; simp
        · rw [hI i hle hit]; exact hi
      rw [seenLink_eq, seenLink_eq, if_neg hi, if_neg hi', hS i hle]

/-- C24: all counts are exact afterwards. -/
theorem cptree_counts {repl fail : Bool} {s s' : St} {K : Nat → Int} (h : Hist repl fail s K) {src tgt : Nat} (hnl : NoLoop s src)
    (ht : Linked s tgt) (hc : CpTree s src tgt s') : LinksExact s' ∧ EntriesValid s' ∧ NoDup s' ∧ ObjectsExact s' := by
  have h' := h.cptree hnl ht hc
  obtain ⟨a, b, c⟩ := links_exact_partial h'
  exact ⟨a, b, c, objects_exact_partial h'⟩

/-! The loop of `copy_tree` ends. -/

theorem flush_contents (s : St) (cache : List (Nat × Nat)) (id : Nat) (ups : List (Nat × Nat)) :
    (flushInode s cache id ups).db.contents = s.db.contents := by
  have up : ∀ (s : St) (b o : Nat), (bgUpload s id b o).db.contents = s.db.contents := by
    intro s b o
    unfold bgUpload
    repeat' first | rfl | (dsimp only; done) | split | (dsimp only)
  have fold : ∀ (ups : List (Nat × Nat)) (s : St), (ups.foldl (fun s u => bgUpload s id u.1 u.2) s).db.contents = s.db.contents := by
    intro ups
    induction ups with
    | nil => intro s; rfl
    | cons u t ih => intro s; rw [List.foldl_cons, ih, up]
  unfold flushInode
  split
  · exact fold ups s
  · rfl

theorem set_length_new {κ ν : Type} [DecidableEq κ] : ∀ {l : List (κ × ν)} {k : κ} (v : ν), AL.get l k = none → (AL.set l k v).length = l.length + 1
  | [], _, _, _ => rfl
  | (k', x) :: t, k, v, h => by
    simp only [AL.get] at h
    split at h
    · cases h
    · rename_i hne
      simp only [AL.set, if_neg hne, List.length_cons, set_length_new v h]

/-- Work that is left on the stack. -/
def CpWalk.work (w : CpWalk) : Nat := 2 * (w.cur.toList ++ w.queue).length + (if w.cur = none then 1 else 0)

theorem copyStep_measure {brk : Bool} {ups : List (Nat × Nat)} {c c' : St} {w w' : CpWalk} (h : copyStep brk ups c w = some (c', w'))
    (hw : ¬(w.cur = none ∧ w.queue = [])) :
    (c'.db.contents.length = c.db.contents.length ∧ w'.work < w.work) ∨
    (c'.db.contents.length = c.db.contents.length + 1 ∧ w'.work ≤ w.work + 3) := by
  obtain ⟨cur, queue, cache⟩ := w
  unfold copyStep at h
  cases cur with
  | none =>
    cases queue with
    | nil => exact absurd ⟨rfl, rfl⟩ hw
    | cons t q =>
      cases h
      left
      refine ⟨rfl, ?_⟩
      simp [CpWalk.work]
  | some t =>
    obtain ⟨sd, dd, lo⟩ := t
    simp only at h
    split at h
    · cases h
      left
      refine ⟨rfl, ?_⟩
      simp [CpWalk.work]; omega
    · rename_i k id hnr
      have hfl := flush_contents c cache id ups
      split at h
      · cases h
      · rename_i s1 new queue' cache' hcr
        have hrow : s1.db.contents = c.db.contents ∧ queue'.length ≤ queue.length + 1 := by
          unfold copyRow at hcr
          split at hcr
          · split at hcr
            · cases hcr
            · cases hcr
              refine ⟨?_, Nat.le_succ _⟩
              rw [← hfl]
              exact (modInode_rest _ _ _).2.1
          · split at hcr
            · cases hcr
            · cases hcr
              refine ⟨hfl, ?_⟩
              simp only
              split
              · simp
              · exact Nat.le_succ _
        split at h
        · cases h
        · rename_i db hadd
          have hdb : db.contents.length = s1.db.contents.length + 1 := by
            unfold Db.addCopy at hadd
            split at hadd
            · cases hadd
            · rename_i hg
              cases hadd
              exact set_length_new new hg
          right
          rw [hrow.1] at hdb
          have hq := hrow.2
          split at h
          · cases h
            refine ⟨hdb, ?_⟩
            simp [CpWalk.work]; omega
          · cases h
            refine ⟨hdb, ?_⟩
            simp [CpWalk.work]; omega

/-- The copy has at most as many entries as the whole file system had. -/
theorem Cp.bound {L : Nat → Int} {s : St} {src tmp : Nat} {c : St} {W : List (Nat × Nat × Nat)} {cache M : List (Nat × Nat)}
    (h : Cp L s src tmp c W cache M) (htmp : tmp = s.db.seq + 1) : c.db.contents.length ≤ 2 * s.db.contents.length := by
  have hnk := h.nkC
  unfold AL.NK at hnk
  let A := s.db.contents.map (·.1)
  let B := s.db.contents.map (fun e => ((AL.get M e.1.1).getD 0, e.1.2))
  have hsub : ∀ e ∈ c.db.contents.map (·.1), e ∈ A ++ B := by
    rintro ⟨p, k⟩ he
    obtain ⟨⟨key, v⟩, hm, e⟩ := List.mem_map.1 he
    simp only at e
    subst e
    have hg := AL.mem_get_some h.nkC hm
    by_cases hp : p < tmp
    · rw [h.oldC p k hp] at hg
      exact List.mem_append_left _ (List.mem_map.2 ⟨_, AL.get_some_mem hg, rfl⟩)
    · have hM : ∃ i, AL.get M i = some p := by
        by_cases hpt : p = tmp
        · exact ⟨src, by rw [hpt]; exact h.mSrc⟩
        · have hle : p ≤ c.db.seq := by
            have hacc := h.acc
            have hC : (tdb c.db tmp).contents = c.db.contents := by rw [tdb_eq]
            have h2 := hacc.seq p (rc_pos_ne (hacc.par0 p k v (by rw [hC]; exact hg)))
            rw [tdb_eq] at h2
            exact h2
          obtain ⟨i, hi, _⟩ := h.mAll p (by omega) hle
          exact ⟨i, hi⟩
      obtain ⟨i, hi⟩ := hM
      obtain ⟨x, hx, _⟩ := h.ent i p k v hi hg
      refine List.mem_append_right _ (List.mem_map.2 ⟨_, AL.get_some_mem hx, ?_⟩)
      simp only [hi, Option.getD_some]
  have hlen := List.Nodup.length_le_of_subset hnk hsub
  simp only [A, B, List.length_map, List.length_append] at hlen
  omega

/-- A bound for the iterations that are left. -/
def cpLeft (N : Nat) (c : St) (w : CpWalk) : Nat := 4 * (2 * N - c.db.contents.length) + w.work

theorem Cp.left {L : Nat → Int} {s : St} {src tmp : Nat} {c : St} {w : CpWalk} {M : List (Nat × Nat)}
    (h : Cp L s src tmp c (w.cur.toList ++ w.queue) w.cache M) (hs : Inv NoT L s) (htmp : tmp = s.db.seq + 1)
    (hcyc : ∀ d k, DbBelow s src d → AL.get s.db.contents (d, k) ≠ some src) {brk : Bool} {ups : List (Nat × Nat)} {c' : St} {w' : CpWalk}
    (hst : copyStep brk ups c w = some (c', w')) (hw : ¬(w.cur = none ∧ w.queue = [])) :
    cpLeft s.db.contents.length c' w' < cpLeft s.db.contents.length c w ∧
      ∃ M', Cp L s src tmp c' (w'.cur.toList ++ w'.queue) w'.cache M' := by
  obtain ⟨c2, w2, M2, e, h2⟩ := h.step hs htmp hcyc brk ups
  rw [hst] at e; cases e
  refine ⟨?_, M2, h2⟩
  have b2 := h2.bound htmp
  unfold cpLeft
  rcases copyStep_measure hst hw with ⟨h3, h4⟩ | ⟨h3, h4⟩
  · rw [h3]; omega
  · rw [h3] at b2 ⊢; omega

theorem Cp.start' {repl fail : Bool} {s : St} {K : Nat → Int} (h : Hist repl fail s K) {src tgt : Nat} (hnl : NoLoop s src)
    {now : Int} {s1 : St} {w1 : CpWalk} (hst : copyStart s src tgt now = .ok (s1, w1)) :
    ∃ L s0, Inv NoT L s0 ∧ s0.db.seq = s.db.seq ∧ s0.db.contents = s.db.contents ∧ s1.db.contents = s.db.contents ∧ w1.work = 3 ∧
      (∀ d k, DbBelow s0 src d → AL.get s0.db.contents (d, k) ≠ some src) ∧
      Cp L s0 src (s.db.seq + 1) s1 (w1.cur.toList ++ w1.queue) w1.cache [(src, s.db.seq + 1)] := by
  obtain ⟨L, g⟩ := h.good
  obtain ⟨_, i, hi, _, hinv, hcp⟩ := Cp.start g.inv hst
  have hrest := modInode_rest s.db tgt (fun t => { t with atime := i.atime, ctime := i.ctime, mtime := i.mtime, mode := i.mode, uid := i.uid, gid := i.gid })
  have hco : (attrState s tgt i).db.contents = s.db.contents := hrest.2.1
  have hnm : (attrState s tgt i).db.names = s.db.names := hrest.1
  have hch : ∀ p n, (attrState s tgt i).db.child p n = s.db.child p n := by
    intro p n
    unfold Db.child Db.nameId
    rw [hco, hnm]
  have hsq : (attrState s tgt i).db.seq = s.db.seq := by
    unfold attrState Db.modInode
    split <;> rfl
  have tr : ∀ x y, DbBelow (attrState s tgt i) x y → DbBelow s x y := by
    intro x y hxy
    induction hxy with
    | refl => exact DbBelow.refl
    | entry _ hc ih => rw [hch] at hc; exact ih.entry hc
  refine ⟨L, attrState s tgt i, hinv, hsq, hco, ?_, ?_, ?_, hcp⟩
  · unfold copyStart at hst
    split at hst
    · cases hst
    split at hst
    · cases hst
      exact (modInode_rest s.db tgt _).2.1
    · cases hst
  · unfold copyStart at hst
    split at hst
    · cases hst
    split at hst
    · cases hst; rfl
    · cases hst
  · intro d k hd hk
    obtain ⟨nm, hn⟩ := hinv.acc.nm_of_C (hinv.Lnn k) hk
    have : (attrState s tgt i).db.child d nm = some src := by
      unfold Db.child
      rw [(hinv.acc.nameId_iff nm k).2 hn]
      exact hk
    rw [hch] at this
    exact noLoop_db g.inv g.res hnl d nm (tr _ _ hd) this

/-- C24: the loop of `copy_tree` ends after at most `4 * N + 3` iterations, where `N` is the number of entries of the
file system, however the batches are cut. -/
theorem cptree_terminates {repl fail : Bool} {s : St} {K : Nat → Int} (h : Hist repl fail s K) {src tgt : Nat} (hnl : NoLoop s src)
    {now : Int} {s1 : St} {w1 : CpWalk} (hst : copyStart s src tgt now = .ok (s1, w1)) (f : Nat → St × CpWalk) (h0 : f 0 = (s1, w1)) (n : Nat)
    (hf : ∀ k, k < n → ¬((f k).2.cur = none ∧ (f k).2.queue = []) ∧ ∃ brk ups, copyStep brk ups (f k).1 (f k).2 = some (f (k + 1))) :
    n ≤ 4 * s.db.contents.length + 3 := by
  obtain ⟨L, s0, hinv, hsq, hco, hc1, hw1, hcyc, hcp⟩ := Cp.start' h hnl hst
  have key : ∀ k, k ≤ n → cpLeft s0.db.contents.length (f k).1 (f k).2 + k ≤ 4 * s.db.contents.length + 3 ∧
      ∃ M, Cp L s0 src (s.db.seq + 1) (f k).1 ((f k).2.cur.toList ++ (f k).2.queue) (f k).2.cache M := by
    intro k
    induction k with
    | zero =>
      intro _
      rw [h0]
      refine ⟨?_, _, hcp⟩
      unfold cpLeft
      simp only [hw1, hc1, hco]; omega
    | succ k ih =>
      intro hk
      obtain ⟨hl, M, hm⟩ := ih (by omega)
      obtain ⟨hw, brk, ups, hs⟩ := hf k (by omega)
      obtain ⟨h2, M', h3⟩ := hm.left hinv (by rw [hsq]) hcyc (c' := (f (k + 1)).1) (w' := (f (k + 1)).2) hs hw
      exact ⟨by omega, M', h3⟩
  have := (key n (Nat.le_refl _)).1
  omega

theorem Cp.finish {L : Nat → Int} {s : St} {src tmp : Nat} {s1 : St} {w1 : CpWalk} (hs : Inv NoT L s) (htmp : tmp = s.db.seq + 1)
    (hcyc : ∀ d k, DbBelow s src d → AL.get s.db.contents (d, k) ≠ some src) :
    ∀ (m : Nat) (c : St) (w : CpWalk) (M : List (Nat × Nat)), cpLeft s.db.contents.length c w ≤ m → CpRun s1 w1 (some (c, w)) →
      Cp L s src tmp c (w.cur.toList ++ w.queue) w.cache M →
      ∃ c' w' M', CpRun s1 w1 (some (c', w')) ∧ w'.cur = none ∧ w'.queue = [] ∧ Cp L s src tmp c' [] w'.cache M' := by
  intro m
  induction m with
  | zero =>
    intro c w M hm hr h
    by_cases hw : w.cur = none ∧ w.queue = []
    · exact ⟨c, w, M, hr, hw.1, hw.2, by rw [hw.1, hw.2] at h; exact h⟩
    · obtain ⟨c', w', M', e, _⟩ := h.step hs htmp hcyc true []
      have := (h.left hs htmp hcyc e hw).1
      omega
  | succ m ih =>
    intro c w M hm hr h
    by_cases hw : w.cur = none ∧ w.queue = []
    · exact ⟨c, w, M, hr, hw.1, hw.2, by rw [hw.1, hw.2] at h; exact h⟩
    · obtain ⟨c', w', M', e, h'⟩ := h.step hs htmp hcyc true []
      have := (h.left hs htmp hcyc e hw).1
      exact ih c' w' M' (by omega) (hr.step e) h'

/-- C24: `copy_tree` of an existing directory succeeds if the target has no entry with a name that the source also has
(`s3qlcp` makes the target itself, so it is empty). -/
theorem cptree_succeeds {repl fail : Bool} {s : St} {K : Nat → Int} (h : Hist repl fail s K) {src tgt : Nat} (hnl : NoLoop s src)
    (hf : s.failsafe = false) (hs : seenAttr s src ≠ none) (ht : seenAttr s tgt ≠ none)
    (hd : ∀ n, n ≠ ctrlName → seenEntry s src n = none ∨ seenEntry s tgt n = none) : ∃ s', CpTree s src tgt s' := by
  obtain ⟨L0, g⟩ := h.good
  rw [seenAttr_eq] at hs ht
  obtain ⟨i, hi⟩ := Option.ne_none_iff_exists'.1 hs
  obtain ⟨t, ht⟩ := Option.ne_none_iff_exists'.1 ht
  cases hst : copyStart s src tgt 0 with
  | error e => simp [copyStart, hf, hi, ht] at hst
  | ok r =>
    obtain ⟨s1, w1⟩ := r
    obtain ⟨L, s0, hinv, hsq, hco, hc1, hw1, hcyc, hcp⟩ := Cp.start' h hnl hst
    obtain ⟨c', w', M', hrun, e1, e2, hfin⟩ := Cp.finish hinv (by rw [hsq]) hcyc _ s1 w1 _ (Nat.le_refl _) CpRun.here hcp
    have htl : tgt ≤ s.db.seq := g.inv.acc.seq tgt (by rw [ht]; simp)
    cases he : copyEnd c' tgt (s.db.seq + 1) with
    | some s3 => exact ⟨s3, CpTree.finish hst hrun e1 e2 he⟩
    | none =>
      exfalso
      unfold copyEnd at he
      split at he
      · rename_i hany
        obtain ⟨⟨⟨p, k⟩, v⟩, hm, hx⟩ := List.any_eq_true.1 hany
        simp only [Bool.and_eq_true, beq_iff_eq] at hx
        obtain ⟨rfl, hx⟩ := hx
        have hg := AL.mem_get_some hfin.nkC hm
        obtain ⟨x, hx1, _⟩ := hfin.ent src _ k v hfin.mSrc hg
        rw [hfin.oldC tgt k (by omega), hco] at hx
        rw [hco] at hx1
        obtain ⟨y, hy⟩ := Option.isSome_iff_exists.1 hx
        obtain ⟨nm, hn⟩ := g.inv.acc.nm_of_C (g.inv.Lnn k) hx1
        have hch : ∀ p, s.db.child p nm = AL.get s.db.contents (p, k) := by
          intro p
          unfold Db.child
          rw [(g.inv.acc.nameId_iff nm k).2 hn]
          rfl
        by_cases hcn : nm = ctrlName
        · have := g.res.ctrl src
          rw [← hcn, hch, hx1] at this
          cases this
        · rcases hd nm hcn with h | h <;> rw [seenEntry_eq g.inv, if_neg hcn, hch] at h
          · rw [hx1] at h; cases h
          · rw [hy] at h; cases h
      · cases he

end Verif.Fs
