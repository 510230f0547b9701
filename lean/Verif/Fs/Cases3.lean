/-
Cases that meet the hypotheses of the theorems about locking, removing and copying trees, and the cases in which the
properties C22-C24 fail.
-/
import Verif.Fs.Cases
import Verif.Fs.Lock2
import Verif.Fs.Seq
import Verif.Fs.TreeProps

namespace Verif.Fs

theorem okE {x : Except Err Reply} (h : isOk x = true) : ∃ r, x = .ok r := by
  cases x with
  | ok r => exact ⟨r, rfl⟩
  | error e => cases h

def nT : Bytes := [116]

/-- A set of inodes that contains everything below `a`. -/
theorem below_sub {repl fail : Bool} {s : St} {K : Nat → Int} (h : Hist repl fail s K) {a : Nat} (l : List Nat) (ha : a ∈ l)
    (hl : ∀ e ∈ s.db.contents, e.1.1 ∈ l → e.2 ∈ l) {d : Nat} (hd : Below s a d) : d ∈ l := by
  obtain ⟨L, g⟩ := h.good
  replace hd := (below_iff g.inv g.res).1 hd
  induction hd with
  | refl => exact ha
  | entry _ hc ih =>
    obtain ⟨k, _, hk⟩ := (g.inv.acc.child_iff _ _ _).1 hc
    exact hl _ (AL.get_some_mem hk) ih

theorem entry_row {repl fail : Bool} {s : St} {K : Nat → Int} (h : Hist repl fail s K) {d b : Nat} {n : Bytes} (hn : n ≠ ctrlName)
    (hc : seenEntry s d n = some b) : ∃ k, ((d, k), b) ∈ s.db.contents := by
  obtain ⟨L, g⟩ := h.good
  rw [seenEntry_eq g.inv, if_neg hn] at hc
  obtain ⟨k, _, hk⟩ := (g.inv.acc.child_iff _ _ _).1 hc
  exact ⟨k, AL.get_some_mem hk⟩

/-- A numbering that grows along all entries shows that there are no loops. -/
theorem noLoop_of {repl fail : Bool} {s : St} {K : Nat → Int} (h : Hist repl fail s K) (r : Nat → Nat)
    (hr : ∀ e ∈ s.db.contents, r e.1.1 < r e.2) (a : Nat) : NoLoop s a := by
  intro d n hd hn hc
  have : r a ≤ r d := by
    clear hc
    induction hd with
    | refl => exact Nat.le_refl _
    | entry _ hn hc ih =>
      obtain ⟨k, hk⟩ := entry_row h hn hc
      have := hr _ hk
      simp only at this
      omega
  obtain ⟨k, hk⟩ := entry_row h hn hc
  have := hr _ hk
  simp only at this
  omega

/-- `mkdir /d; mknod /d/f; mkdir /d/g; ln /d/f /d/g/x; write /d/f; upload`. -/
def treeStory : List Op := [
  .mknod 1 nD 0o40755 0 7 7 10, .mknod 4 nF 0o100644 0 7 7 11, .mknod 4 nG 0o40755 0 7 7 12, .link 5 6 nX 13,
  .write 5 0 25 false 14, .upload 5 0 1, .setxattr 5 nX [1, 2] 15]

def treeSt : St := run s0 treeStory
def treeK : Nat → Int := runK s0 k0 treeStory

theorem tree_hist : Hist false false treeSt treeK := hist0 treeStory (by decide +kernel)

/-- 5 is below 6, which has the larger number. -/
def rk (i : Nat) : Nat := if i = 5 then 7 else i

theorem tree_noLoop (a : Nat) : NoLoop treeSt a := noLoop_of tree_hist rk (by decide +kernel) a

theorem tree_acyclic (a : Nat) : Acyclic treeSt a := fun d _ => tree_noLoop d

theorem tree_notBelow : ¬Below treeSt 4 1 := fun h => by
  have := below_sub tree_hist [4, 5, 6] (by decide) (by decide +kernel) h
  revert this; decide

/-! #### C23 -/

/-- `s3qlrm /d` is possible and removes the directory, the file and the directory in it. -/
example : ∃ s', RmTree treeSt 1 nD (.ok ()) s' ∧ seenEntry s' 1 nD = none ∧ seenEntry s' 4 nF = none ∧ seenEntry s' 6 nX = none ∧
    seenEntry s' 1 lostFound = some 3 ∧ seenEntry treeSt 6 nX = some 5 := by
  have ha : seenEntry treeSt 1 nD = some 4 := by decide +kernel
  obtain ⟨s', hs⟩ := rmtree_succeeds tree_hist (by decide) (by decide +kernel) (by decide +kernel) ha (tree_acyclic 4) tree_notBelow
  have hnl : ∀ a, seenEntry treeSt 1 nD = some a → ¬Below treeSt a 1 := fun a h => by rw [ha] at h; cases h; exact tree_notBelow
  refine ⟨s', hs, ?_⟩
  rcases rmtree_exact tree_hist (by decide) hnl hs with ⟨e, h, _⟩ | ⟨a, _, _, _, h3, h4, h5, _⟩
  · cases h
  rw [ha] at h3; cases h3
  have b4 : Below treeSt 4 4 := Below.refl
  have b6 : Below treeSt 4 6 := b4.entry (n := nG) (by decide) (by decide +kernel)
  refine ⟨h4 1 nD (by decide) (Or.inl ⟨rfl, rfl⟩), h4 4 nF (by decide) (Or.inr b4), h4 6 nX (by decide) (Or.inr b6), ?_, by decide +kernel⟩
  rw [h5 1 lostFound (by decide) (by decide) tree_notBelow]; decide +kernel

/-- C23 fails for the control file: `s3qlrm` of its name (which the kernel forwards like any other) finds the inode of the
control file, which no directory contains, and crashes. -/
theorem rmtree_ctrl_crashes : ∃ s', RmTree treeSt 1 ctrlName (.error .crash) s' := by
  refine ⟨(remove (treeSt.addOpen 2 1) 1 ctrlName 2 true 20).2, RmTree.last (now := 20) (s1 := treeSt.addOpen 2 1) (s2 := treeSt.addOpen 2 1)
    (ip := (AL.get treeSt.db.inodes 1).getD ⟨0, 0, 0, 0, 0, 0, 0, 0, 0, false⟩) (id0 := 2)
    (by decide +kernel) (by decide +kernel) (by decide +kernel) (by decide +kernel)
    (RmRun.dir (batch := 1) (chunk := []) (by decide) ⟨[], by decide +kernel, by decide +kernel⟩ rfl RmRun.done) ?_⟩
  have : (remove (treeSt.addOpen 2 1) 1 ctrlName 2 true 20).1 = .error .crash := by decide +kernel
  rw [← this]

/-- The loop of `remove_tree` makes real iterations: the directory of the example is not empty. -/
example : ∃ s', RmIter (treeSt.addOpen 4 1, [4]) s' :=
  rm_next (rmSt_start tree_hist (p := 1) (n := nD) (by decide) (by decide +kernel) (tree_acyclic 4)).choose_spec.1

/-! #### C24 -/

/-- The tree, and an empty directory `/t` with number 7, as `s3qlcp /d /t` makes it. -/
def cpSt : St := run s0 (treeStory ++ [.mknod 1 nT 0o40700 0 7 7 20])

theorem cp_hist : Hist false false cpSt (runK s0 k0 (treeStory ++ [.mknod 1 nT 0o40700 0 7 7 20])) := hist0 _ (by decide +kernel)

theorem cp_noLoop (a : Nat) : NoLoop cpSt a := noLoop_of cp_hist rk (by decide +kernel) a

/-- `s3qlcp /d /t` is possible; the copy of the file `/d/f` is also `/t/g/x`, as in the original, and has the same size
and data. -/
example : ∃ s' f, CpTree cpSt 4 7 s' ∧ seenEntry s' 7 nF = some f ∧ f ≠ 5 ∧ (∃ g, seenEntry s' 7 nG = some g ∧ seenEntry s' g nX = some f) ∧
    (seenAttr s' f).map (·.size) = some 25 ∧ seenXattr s' f nX = some [1, 2] := by
  have ht : Linked cpSt 7 := Or.inr ⟨1, nT, by decide, by decide +kernel⟩
  have e : ∀ n, n ≠ ctrlName → seenEntry cpSt 7 n = none := by
    intro n hn
    cases hc : seenEntry cpSt 7 n with
    | none => rfl
    | some b =>
      obtain ⟨k, hk⟩ := entry_row cp_hist hn hc
      have : ∀ e ∈ cpSt.db.contents, e.1.1 ≠ 7 := by decide +kernel
      exact absurd rfl (this _ hk)
  obtain ⟨s', hs⟩ := cptree_succeeds cp_hist (cp_noLoop 4) (by decide +kernel) (by decide +kernel) (by decide +kernel) (tgt := 7) (fun n hn => Or.inr (e n hn))
  obtain ⟨φ, h1, h2, h3, h4, h5, h6, _, h7⟩ := cptree_exact_partial cp_hist (cp_noLoop 4) ht hs
  have b4 : Below cpSt 4 4 := Below.refl
  have b5 : Below cpSt 4 5 := b4.entry (n := nF) (by decide) (by decide +kernel)
  have b6 : Below cpSt 4 6 := b4.entry (n := nG) (by decide) (by decide +kernel)
  have e5 : seenEntry cpSt 4 nF = some 5 := by decide +kernel
  have e6 : seenEntry cpSt 4 nG = some 6 := by decide +kernel
  have e7 : seenEntry cpSt 6 nX = some 5 := by decide +kernel
  obtain ⟨n5, a, b, ha, hb, hco, hx, _⟩ := h2 5 b5 (by decide)
  have old : seenAttr cpSt 5 ≠ none := by decide +kernel
  refine ⟨s', φ 5, hs, ?_, ?_, ⟨φ 6, ?_, ?_⟩, ?_, ?_⟩
  · rw [h5 nF (by decide), e5]; rfl
  · intro h; rw [h] at n5; exact old n5
  · rw [h5 nG (by decide), e6]; rfl
  · rw [h4 6 nX (by decide) b6 (by decide), e7]; rfl
  · rw [hb, Option.map_some, hco.2.2.2.2.2.2.1]
    rw [((h7 5 old).1 (by decide)).1] at ha
    have : (seenAttr cpSt 5).map (·.size) = some 25 := by decide +kernel
    rw [ha] at this
    exact this
  · rw [hx, (h7 5 old).2.1]; decide +kernel

/-- The source has one extended attribute more. -/
def cpSt2 : St := run s0 (treeStory ++ [.mknod 1 nT 0o40700 0 7 7 20, .setxattr 4 nX [3] 21])

theorem cp_hist2 : Hist false false cpSt2 (runK s0 k0 (treeStory ++ [.mknod 1 nT 0o40700 0 7 7 20, .setxattr 4 nX [3] 21])) := hist0 _ (by decide +kernel)

/-- C24 fails for the source directory itself: its extended attributes are not copied. -/
theorem cptree_root_xattr : ∃ s', CpTree cpSt2 4 7 s' ∧ seenXattr s' 4 nX = some [3] ∧ seenXattr s' 7 nX = none := by
  have hnl : NoLoop cpSt2 4 := noLoop_of cp_hist2 rk (by decide +kernel) 4
  have ht : Linked cpSt2 7 := Or.inr ⟨1, nT, by decide, by decide +kernel⟩
  have e : ∀ n, n ≠ ctrlName → seenEntry cpSt2 7 n = none := by
    intro n hn
    cases hc : seenEntry cpSt2 7 n with
    | none => rfl
    | some b =>
      obtain ⟨k, hk⟩ := entry_row cp_hist2 hn hc
      have : ∀ e ∈ cpSt2.db.contents, e.1.1 ≠ 7 := by decide +kernel
      exact absurd rfl (this _ hk)
  obtain ⟨s', hs⟩ := cptree_succeeds cp_hist2 hnl (by decide +kernel) (by decide +kernel) (by decide +kernel) (tgt := 7) (fun n hn => Or.inr (e n hn))
  obtain ⟨φ, _, _, _, _, _, _, _, h7⟩ := cptree_exact_partial cp_hist2 hnl ht hs
  refine ⟨s', hs, ?_, ?_⟩
  · rw [(h7 4 (by decide +kernel)).2.1]; decide +kernel
  · rw [(h7 7 (by decide +kernel)).2.1]; decide +kernel

/-! #### C22 -/

/-- The iterations of `lock_tree`. -/
def lockRun : Nat → Bool → St × Walk → Option (St × Walk)
  | 0, _, x => some x
  | n + 1, brk, x => (lockStep brk x.1 x.2).bind (lockRun n brk)

theorem Locking.run {repl fail : Bool} {id0 : Nat} {K : Nat → Int} (brk : Bool) : ∀ (n : Nat) {s : St} {w : Walk} {x : St × Walk},
    Locking repl fail id0 s K w → lockRun n brk (s, w) = some x → Locking repl fail id0 x.1 K x.2
  | 0, _, _, _, h, e => by cases e; exact h
  | n + 1, s, w, x, h, e => by
    simp only [lockRun] at e
    cases hs : lockStep brk s w with
    | none => rw [hs] at e; cases e
    | some y =>
      rw [hs] at e
      exact Locking.run brk n (Locking.row brk h hs) e

/-- `s3qllock /d`. -/
def lockSt : St × Walk := ((lockRun 14 true ((lockInode treeSt 4).getD treeSt, ⟨none, [(4, 0)]⟩)).getD (treeSt, ⟨none, []⟩))

theorem lock_locking : Locking false false 4 lockSt.1 treeK lockSt.2 := by
  have h : lockStart treeSt 4 = .ok ((lockInode treeSt 4).getD treeSt, ⟨none, [(4, 0)]⟩) := by
    unfold lockStart
    rw [if_neg (by decide +kernel)]
    cases hl : lockInode treeSt 4 with
    | none => exact absurd hl (by decide +kernel)
    | some s => rfl
  refine Locking.run true 14 (Locking.start tree_hist h) ?_
  unfold lockSt
  cases hr : lockRun 14 true ((lockInode treeSt 4).getD treeSt, ⟨none, [(4, 0)]⟩) with
  | none => exact absurd hr (by decide +kernel)
  | some x => rfl

theorem lock_done : lockSt.2.cur = none ∧ lockSt.2.queue = [] := by decide +kernel

theorem lock_hist : Hist false false lockSt.1 treeK := lock_locking.good.1

/-- All requests that would change the tree are refused. -/
example : (step lockSt.1 (.write 5 0 3 false 20)).1 = .error .EPERM ∧ (step lockSt.1 (.unlink 4 nF 20)).1 = .error .EPERM ∧
    (step lockSt.1 (.mknod 6 nF 0o100644 0 7 7 20)).1 = .error .EPERM ∧ (step lockSt.1 (.rename 4 nF 1 nF 0 20)).1 = .error .EPERM := by
  decide +kernel

/-- A history goes on after the tree is locked, and then something is done outside it. -/
example : ∃ s' K', Later false false 4 lockSt.1 treeK s' K' ∧ seenEntry s' 1 nT ≠ none ∧ (∃ n c, n ≠ ctrlName ∧ seenEntry lockSt.1 4 n = some c) :=
  ⟨_, _, Later.step (.write 5 0 3 false 21) (Later.step (.mknod 1 nT 0o100644 0 7 7 20) Later.refl (by decide +kernel) (by decide +kernel) (by decide +kernel)
    (fun _ _ => okE (by decide +kernel))) (by decide +kernel) (by decide +kernel) (by decide +kernel)
    (fun _ h => absurd h (by decide)), by decide +kernel, nF, 5, by decide, by decide +kernel⟩

/-- C22 fails for link count and change time: a link outside the locked tree can be made. -/
theorem locked_link_changes : isOk (step lockSt.1 (.link 5 1 nT 30)).1 = true ∧
    (seenAttr (step lockSt.1 (.link 5 1 nT 30)).2 5).map (fun a => (a.refcount, a.ctime)) = some (3, 30) ∧
    (seenAttr lockSt.1 5).map (fun a => (a.refcount, a.ctime)) = some (2, 15) := by decide +kernel

/-- C22 fails for a single file: locked by `s3qllock`, it can be deleted all the same, as its directory is not locked. -/
theorem locked_file_removed : ∃ s K, Hist false false s K ∧ (seenAttr s 4).map (·.locked) = some true ∧ isOk (step s (.unlink 1 nF 30)).1 = true := by
  have h := hist0 (repl := false) (fail := false) [.mknod 1 nF 0o100644 0 7 7 10] (by decide +kernel)
  let s := run s0 [.mknod 1 nF 0o100644 0 7 7 10]
  have hl : lockInode s 4 = some ((lockInode s 4).getD s) := by
    cases hl : lockInode s 4 with
    | none => exact absurd hl (by decide +kernel)
    | some x => rfl
  exact ⟨_, _, h.lock 4 hl, by decide +kernel, by decide +kernel⟩

/-- C22 fails for `s3qlcp` into a locked directory: the entries are added, and the attributes of the directory change. -/
theorem locked_cptree_changes : ∃ s' K, Hist false false s' K ∧ CpTree (run lockSt.1 [.mknod 1 nT 0o40700 0 7 7 20, .mknod 7 nT 0o100644 0 7 7 21]) 7 4 s' ∧
    seenEntry (run lockSt.1 [.mknod 1 nT 0o40700 0 7 7 20, .mknod 7 nT 0o100644 0 7 7 21]) 4 nT = none ∧ seenEntry s' 4 nT ≠ none ∧
    (seenAttr lockSt.1 4).map (·.locked) = some true := by
  have hh : Hist false false (run lockSt.1 [.mknod 1 nT 0o40700 0 7 7 20, .mknod 7 nT 0o100644 0 7 7 21]) (runK lockSt.1 treeK [.mknod 1 nT 0o40700 0 7 7 20, .mknod 7 nT 0o100644 0 7 7 21]) :=
    Hist.run _ lock_hist (by decide +kernel)
  generalize hs : run lockSt.1 [.mknod 1 nT 0o40700 0 7 7 20, .mknod 7 nT 0o100644 0 7 7 21] = s at hh ⊢
  have hnl : NoLoop s 7 := noLoop_of hh (fun i => if i = 5 then 9 else i) (by rw [← hs]; decide +kernel) 7
  have e7 : seenEntry s 7 nT = some 8 := by rw [← hs]; decide +kernel
  have ht : Linked s 4 := Or.inr ⟨1, nD, by decide, by rw [← hs]; decide +kernel⟩
  have e : ∀ n, n ≠ ctrlName → seenEntry s 7 n = none ∨ seenEntry s 4 n = none := by
    intro n hn
    by_cases h : n = nT
    · subst h; right; rw [← hs]; decide +kernel
    · left
      cases hc : seenEntry s 7 n with
      | none => rfl
      | some b =>
        exfalso
        obtain ⟨L, g⟩ := hh.good
        rw [seenEntry_eq g.inv, if_neg hn] at hc
        obtain ⟨k, hk, hr⟩ := (g.inv.acc.child_iff _ _ _).1 hc
        have : ∀ e ∈ s.db.contents, e.1.1 = 7 → s.db.nm e.1.2 = some nT := by rw [← hs]; decide +kernel
        have := this _ (AL.get_some_mem hr) rfl
        simp only at this
        rw [hk] at this
        cases this
        exact h rfl
  obtain ⟨s', hc⟩ := cptree_succeeds hh hnl (by rw [← hs]; decide +kernel) (by rw [← hs]; decide +kernel) (by rw [← hs]; decide +kernel) (tgt := 4) e
  refine ⟨s', _, hh.cptree hnl ht hc, hc, by rw [← hs]; decide +kernel, ?_, by decide +kernel⟩
  obtain ⟨φ, _, _, _, _, h5, _⟩ := cptree_exact_partial hh hnl ht hc
  rw [h5 nT (by decide), e7]
  simp

/-! #### C20 -/

/-- The file with number 4 is deleted; the next file has another number. -/
example : ∃ s1 s2 K1 K2, Reach false false (run s0 [.mknod 1 nF 0o100644 0 7 7 10]) (runK s0 k0 [.mknod 1 nF 0o100644 0 7 7 10]) s1 K1 ∧ seenAttr s1 4 = none ∧
    Reach false false s1 K1 s2 K2 ∧ seenEntry s2 1 nF = some 5 ∧ seenAttr (run s0 [.mknod 1 nF 0o100644 0 7 7 10]) 4 ≠ none :=
  ⟨_, _, _, _, (Reach.refl.next (Next.step (.unlink 1 nF 11) (by decide +kernel) (by decide +kernel) (by decide +kernel) (fun _ _ => okE (by decide +kernel)))).next
      (Next.step (.forget [(4, 1)]) (by decide +kernel) (by decide +kernel) (by decide +kernel) (fun _ h => absurd h (by decide))), by decide +kernel,
    Reach.refl.next (Next.step (.mknod 1 nF 0o100644 0 7 7 12) (by decide +kernel) (by decide +kernel) (by decide +kernel) (fun _ _ => okE (by decide +kernel))),
    by decide +kernel, by decide +kernel⟩

end Verif.Fs
