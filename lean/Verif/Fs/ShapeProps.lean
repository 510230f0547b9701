/-
C67: the directory tree is a tree.
-/
import Verif.Fs.Shape4
import Verif.Fs.Cases3

namespace Verif.Fs

theorem row_child {repl fail : Bool} {s : St} {K L : Nat → Int} (hh : Hist repl fail s K) (h : Inv NoT L s) {e : (Nat × Nat) × Nat} (he : e ∈ s.db.contents) :
    ∃ n, s.db.nm e.1.2 = some n ∧ s.db.child e.1.1 n = some e.2 := by
  obtain ⟨_, _, r, hr, hk⟩ := (links_exact_partial hh).2.1 e he
  have h1 : AL.get s.db.names r.1 = some r.2 := AL.mem_get_some h.acc.nkN hr
  have h2 : s.db.nm e.1.2 = some r.2.1 := by unfold Db.nm; rw [← hk, h1]; rfl
  exact ⟨r.2.1, h2, (h.acc.child_iff _ _ _).2 ⟨_, h2, AL.mem_get_some h.acc.nkC he⟩⟩

theorem linked_of_rc {repl fail : Bool} {s : St} {K L : Nat → Int} (hh : Hist repl fail s K) (h : Inv NoT L s) {i : Nat} (h1 : i ≠ rootInode) (h2 : i ≠ ctrlInode)
    (hr : 0 < s.db.rc i) : ∃ p n, s.db.child p n = some i := by
  have h3 := h.acc.rc i
  have h4 : base i = 0 := by unfold base; rw [if_neg (show ¬i = 1 from h1), if_neg (show ¬i = 2 from h2)]
  have h5 : 0 < entriesTo s i := by have := links_eq s i; omega
  obtain ⟨e, he⟩ := List.exists_mem_of_length_pos h5
  obtain ⟨he1, he2⟩ := List.mem_filter.1 he
  have he3 : e.2 = i := by simpa using he2
  obtain ⟨n, _, hn⟩ := row_child hh h he1
  exact ⟨e.1.1, n, by rw [← he3]; exact hn⟩

theorem dir_not_ctrl {s : St} (h : Shape s) {i : Nat} (hd : DirIn s i) : i ≠ ctrlInode := by
  rintro rfl
  obtain ⟨a, ha, hd⟩ := hd
  have := h.ctrlReg a ha
  rw [dir_not_reg hd] at this; cases this

/-! #### C67 -/

/-- **C67**: nothing below an entry of a directory leads back to that directory. -/
theorem tree_no_loops {repl fail : Bool} {s : St} {K : Nat → Int} (h : KHist repl fail s K) {p a : Nat} {n : Bytes} (hn : n ≠ ctrlName)
    (hc : seenEntry s p n = some a) : ¬Below s a p := by
  obtain ⟨hh, hs⟩ := h.shape
  obtain ⟨L, g⟩ := hh.good
  rw [seenEntry_eq g.inv, if_neg hn] at hc
  exact fun hb => hs.noLoop hc ((below_iff g.inv g.res).1 hb)

/-- **C67**: a directory has one entry at most: it is in one directory only, under one name only. -/
theorem dir_single_entry {repl fail : Bool} {s : St} {K : Nat → Int} (h : KHist repl fail s K) {p q a : Nat} {n k : Bytes} (hn : n ≠ ctrlName)
    (hk : k ≠ ctrlName) (hd : SeesDir s a) (h1 : seenEntry s p n = some a) (h2 : seenEntry s q k = some a) : p = q ∧ n = k := by
  obtain ⟨hh, hs⟩ := h.shape
  obtain ⟨L, g⟩ := hh.good
  rw [seenEntry_eq g.inv, if_neg hn] at h1
  rw [seenEntry_eq g.inv, if_neg hk] at h2
  obtain ⟨b, hb, hbd⟩ := hd
  exact hs.one _ _ _ _ _ ⟨b, by rw [← seenAttr_eq]; exact hb, hbd⟩ h1 h2

/-- **C67**: the root directory is a directory and is in no directory. -/
theorem root_on_top {repl fail : Bool} {s : St} {K : Nat → Int} (h : KHist repl fail s K) :
    SeesDir s rootInode ∧ ∀ p n, n ≠ ctrlName → seenEntry s p n ≠ some rootInode := by
  obtain ⟨hh, hs⟩ := h.shape
  obtain ⟨L, g⟩ := hh.good
  obtain ⟨a, ha, hd⟩ := hs.rootDir
  refine ⟨⟨a, by rw [seenAttr_eq]; exact ha, hd⟩, ?_⟩
  intro p n hn hc
  rw [seenEntry_eq g.inv, if_neg hn] at hc
  exact hs.noRoot p n hc

/-- **C67**: everything that has an entry can be reached from the root, and only directories have entries. -/
theorem tree_connected {repl fail : Bool} {s : St} {K : Nat → Int} (h : KHist repl fail s K) {p a : Nat} {n : Bytes} (hn : n ≠ ctrlName)
    (hc : seenEntry s p n = some a) : Below s rootInode a ∧ SeesDir s p := by
  obtain ⟨hh, hs⟩ := h.shape
  obtain ⟨L, g⟩ := hh.good
  have hc0 := hc
  rw [seenEntry_eq g.inv, if_neg hn] at hc
  have parent : ∀ p n a, s.db.child p n = some a → 0 < s.db.rc p := by
    intro p n a hc
    obtain ⟨k, _, hk⟩ := (g.inv.acc.child_iff _ _ _).1 hc
    exact g.inv.acc.par0 _ _ _ hk
  have dir : ∀ p n a, s.db.child p n = some a → DirIn s p := by
    intro p n a hc
    obtain ⟨b, hb⟩ := Option.ne_none_iff_exists'.1 (rc_pos_ne (parent p n a hc))
    exact ⟨b, hb, (hs.types p b hb).kids n a hc⟩
  obtain ⟨r, hr⟩ := hs.rank
  have up : ∀ (m p : Nat) (n : Bytes) (a : Nat), r p ≤ m → s.db.child p n = some a → DbBelow s rootInode p := by
    intro m
    induction m with
    | zero =>
      intro p n a hm hc
      by_cases hp : p = rootInode
      · rw [hp]; exact DbBelow.refl
      · exfalso
        obtain ⟨q, k, hq⟩ := linked_of_rc hh g.inv hp (dir_not_ctrl hs (dir p n a hc)) (parent p n a hc)
        have := hr _ _ _ hq
        omega
    | succ m ih =>
      intro p n a hm hc
      by_cases hp : p = rootInode
      · rw [hp]; exact DbBelow.refl
      · obtain ⟨q, k, hq⟩ := linked_of_rc hh g.inv hp (dir_not_ctrl hs (dir p n a hc)) (parent p n a hc)
        have := hr _ _ _ hq
        exact (ih q k p (by omega) hq).entry hq
  refine ⟨(below_iff g.inv g.res).2 ((up _ p n a (Nat.le_refl _) hc).entry hc), ?_⟩
  obtain ⟨b, hb, hd⟩ := dir p n a hc
  exact ⟨b, by rw [seenAttr_eq]; exact hb, hd⟩

/-- **C67**: exactly the symbolic links have a target, and their size is the length of the target; only regular files and
symbolic links have a size, and only devices have a device number. -/
theorem types_agree {repl fail : Bool} {s : St} {K : Nat → Int} (h : KHist repl fail s K) {i : Nat} {a : Inode} (ha : seenAttr s i = some a) :
    (isLnk a.mode = true ↔ seenLink s i ≠ none) ∧ (∀ t, seenLink s i = some t → a.size = t.length) ∧
    (a.size ≠ 0 → isReg a.mode = true ∨ isLnk a.mode = true) ∧ (a.rdev ≠ 0 → isBlk a.mode = true ∨ isChr a.mode = true) := by
  obtain ⟨hh, hs⟩ := h.shape
  rw [seenAttr_eq] at ha
  have ht := hs.types i a ha
  rw [seenLink_eq, if_neg (by rw [ha]; simp)]
  exact ⟨ht.lnk, ht.len, ht.empty, ht.dev⟩

/-! #### C23 and C24 without assumptions about loops -/

theorem KHist.notBelow {repl fail : Bool} {s : St} {K : Nat → Int} (h : KHist repl fail s K) {p : Nat} {n : Bytes} (hn : n ≠ ctrlName) :
    ∀ a, seenEntry s p n = some a → ¬Below s a p := fun _ ha => tree_no_loops h hn ha

theorem KHist.noLoop {repl fail : Bool} {s : St} {K : Nat → Int} (h : KHist repl fail s K) (a : Nat) : NoLoop s a :=
  fun _ _ hb hn hc => tree_no_loops h hn hc hb

/-- **C23**: `remove_tree` ends, whatever the directory contains, and succeeds unless the file system is in failsafe mode or
the directory is locked. -/
theorem rmtree_works {repl fail : Bool} {s : St} {K : Nat → Int} (h : KHist repl fail s K) {p a : Nat} {n : Bytes} (hn : n ≠ ctrlName)
    (hf : s.failsafe = false) (hp : (seenAttr s p).map (·.locked) = some false) (ha : seenEntry s p n = some a) :
    (∃ s', RmTree s p n (.ok ()) s') ∧ ¬∃ f : Nat → St × List Nat, f 0 = (s.addOpen a 1, [a]) ∧ ∀ k, RmIter (f k) (f (k + 1)) :=
  ⟨rmtree_succeeds h.shape.1 hn hf hp ha (fun d _ => h.noLoop d) (tree_no_loops h hn ha),
   rmtree_terminates h.shape.1 hn ha (fun d _ => h.noLoop d)⟩

/-- **C23**: what `remove_tree` does (`rmtree_exact`), for all trees. -/
theorem rmtree_exact_tree {repl fail : Bool} {s s' : St} {K : Nat → Int} (h : KHist repl fail s K) {p : Nat} {n : Bytes} (hn : n ≠ ctrlName)
    (hr : RmTree s p n (.ok ()) s') :
    ∃ a, seenEntry s p n = some a ∧
      (∀ q m, m ≠ ctrlName → (q = p ∧ m = n) ∨ Below s a q → seenEntry s' q m = none) ∧
      (∀ q m, m ≠ ctrlName → ¬(q = p ∧ m = n) → ¬Below s a q → seenEntry s' q m = seenEntry s q m) ∧
      (∀ i y, seenAttr s' i = some y → ∃ x, seenAttr s i = some x ∧ SameAttr x y ∧
        (∀ m, seenXattr s' i m = seenXattr s i m) ∧ seenLink s' i = seenLink s i ∧
        ∀ k, AL.get s'.db.blocks (i, k) = AL.get s.db.blocks (i, k)) := by
  rcases rmtree_exact h.shape.1 hn (h.notBelow hn) hr with ⟨e, h1, _⟩ | ⟨a, _, _, _, h1, h2⟩
  · cases h1
  · exact ⟨a, h1, h2⟩

/-- **C24**: what `copy_tree` does (`cptree_exact_partial`), for all trees: the copy has the same shape, names, attributes,
extended attributes, link targets and blocks; hard links in the tree become hard links in the copy. -/
theorem cptree_exact_tree_partial {repl fail : Bool} {s s' : St} {K : Nat → Int} (h : KHist repl fail s K) {src tgt : Nat}
    (ht : Linked s tgt) (hc : CpTree s src tgt s') :
    ∃ φ : Nat → Nat, φ src = tgt ∧
      (∀ d, Below s src d → d ≠ src → seenAttr s (φ d) = none ∧ ∃ a b, seenAttr s' d = some a ∧ seenAttr s' (φ d) = some b ∧ CopyOf a b ∧
        (∀ n, seenXattr s' (φ d) n = seenXattr s' d n) ∧ seenLink s' (φ d) = seenLink s' d ∧
        (∀ k, AL.get s'.db.blocks (φ d, k) = AL.get s'.db.blocks (d, k))) ∧
      (∀ d e, Below s src d → Below s src e → φ d = φ e → d = e) ∧
      (∀ d n, n ≠ ctrlName → Below s src d → d ≠ src → seenEntry s' (φ d) n = (seenEntry s d n).map φ) ∧
      (∀ n, n ≠ ctrlName → seenEntry s' tgt n = ((seenEntry s src n).map φ).or (seenEntry s tgt n)) := by
  obtain ⟨φ, h1, h2, h3, h4, h5, _⟩ := cptree_exact_partial h.shape.1 (h.noLoop src) ht hc
  exact ⟨φ, h1, h2, h3, h4, h5⟩

/-! #### Cases -/

instance (s : St) (i : Nat) : Decidable (SeesDir s i) :=
  match h : seenAttr s i with
  | some a => if hd : isDir a.mode = true then isTrue ⟨a, h, hd⟩ else isFalse (by rintro ⟨b, hb, hbd⟩; rw [h] at hb; cases hb; exact hd hbd)
  | none => isFalse (by rintro ⟨b, hb, _⟩; rw [h] at hb; cases hb)

instance (s : St) (i : Nat) : Decidable (SeesReg s i) :=
  match h : seenAttr s i with
  | some a => if hd : isReg a.mode = true then isTrue ⟨a, h, hd⟩ else isFalse (by rintro ⟨b, hb, hbd⟩; rw [h] at hb; cases hb; exact hd hbd)
  | none => isFalse (by rintro ⟨b, hb, _⟩; rw [h] at hb; cases hb)

/-- `Vfs`, for requests other than `rename`. -/
def VfsB (s : St) : Op → Prop
  | .mknod p _ mode rdev _ _ _ => SeesDir s p ∧ mode &&& sIFMT ≠ 0 ∧ isLnk mode = false ∧ (rdev ≠ 0 → isBlk mode = true ∨ isChr mode = true)
  | .symlink p _ _ _ _ _ => SeesDir s p
  | .create p _ mode _ _ _ _ => SeesDir s p ∧ isReg mode = true
  | .link id p _ _ => SeesDir s p ∧ ¬SeesDir s id
  | .rename _ _ _ _ _ _ => False
  | .setattr id r _ _ _ => r.mode = none ∧ (r.size ≠ none → SeesReg s id)
  | .write id _ _ _ _ => SeesReg s id
  | _ => True

instance (s : St) (op : Op) : Decidable (VfsB s op) := by cases op <;> (unfold VfsB; infer_instance)

theorem vfsB {s : St} {op : Op} (h : VfsB s op) : Vfs s op := by
  cases op with
  | rename => exact h.elim
  | setattr id r c m now =>
    refine ⟨?_, h.2⟩
    intro x hx
    rw [h.1] at hx; cases hx
  | _ => exact h

def VFine : St → List Op → Prop
  | _, [] => True
  | s, op :: t => VfsB s op ∧ VFine (step s op).2 t

instance decVFine : (l : List Op) → (s : St) → Decidable (VFine s l)
  | [], _ => isTrue trivial
  | op :: t, s =>
    have := decVFine t (step s op).2
    (inferInstance : Decidable (VfsB s op ∧ VFine (step s op).2 t))

theorem KHist.run {repl fail : Bool} : ∀ (l : List Op) {s : St} {K : Nat → Int}, KHist repl fail s K → Fine repl fail s K l → VFine s l →
    KHist repl fail (Fs.run s l) (runK s K l)
  | [], _, _, h, _, _ => h
  | op :: t, s, K, h, hf, hv => by
    refine KHist.run t (KHist.step op h hf.1.1 (vfsB hv.1) hf.1.2.1 hf.1.2.2.1 ?_) hf.2 hv.2
    intro h1 h2
    exact okE (hf.1.2.2.2 h1 h2)

theorem khist0 {repl fail : Bool} (l : List Op) (h : Fine repl fail s0 k0 l) (hv : VFine s0 l) : KHist repl fail (run s0 l) (runK s0 k0 l) :=
  KHist.run l (KHist.init 1000 100 5 10 (by decide)) h hv

theorem tree_khist : KHist false false treeSt treeK := khist0 treeStory (by decide +kernel) (by decide +kernel)

/-- A tree with directories, a file with two names and data, to which the theorems of C67 apply. -/
example : seenEntry treeSt 1 nD = some 4 ∧ seenEntry treeSt 4 nG = some 6 ∧ seenEntry treeSt 4 nF = some 5 ∧ seenEntry treeSt 6 nX = some 5 ∧
    SeesDir treeSt 6 ∧ ¬SeesDir treeSt 5 := by decide +kernel

example : ¬Below treeSt 6 4 := tree_no_loops tree_khist (n := nG) (by decide) (by decide +kernel)
example : Below treeSt rootInode 5 := (tree_connected tree_khist (p := 6) (n := nX) (by decide) (by decide +kernel)).1
example : ∃ s', RmTree treeSt 1 nD (.ok ()) s' := (rmtree_works tree_khist (by decide) (by decide +kernel) (by decide +kernel) (a := 4) (by decide +kernel)).1

/-- It is the kernel that refuses to move a directory below itself (`mv /d /d/g/x`): the code does as it is told, after
which the directory contains itself and cannot be reached any more. -/
theorem rename_trusts_kernel : ∃ s K, Hist false false s K ∧ seenEntry s 6 nT = some 4 ∧ Below s 4 6 ∧ ¬Below s rootInode 4 := by
  have hh : Hist false false (step treeSt (.rename 1 nD 6 nT 0 20)).2 (fun i => treeK i + kernelDelta (.rename 1 nD 6 nT 0 20) (step treeSt (.rename 1 nD 6 nT 0 20)).1 i) := by
    refine tree_hist.step _ ⟨by decide +kernel, by decide +kernel, Or.inr ⟨4, nG, by decide, by decide +kernel⟩, ?_⟩ trivial (fun _ h => h) (fun _ _ => okE (by decide +kernel))
    intro _ _ a ha
    have h2 : seenEntry treeSt 6 nT = none := by decide +kernel
    rw [h2]; simp
  refine ⟨_, _, hh, by decide +kernel, ?_, ?_⟩
  · exact (Below.refl).entry (n := nG) (by decide) (by decide +kernel)
  · intro hb
    have := below_sub hh [1, 3] (by decide) (by decide +kernel) hb
    revert this; decide

end Verif.Fs
