/-
Cases for C66: a file system to which the theorem applies, and the histories it excludes.
-/
import Verif.Fsck.FromFs

namespace Verif.Fsck
open Verif.Fs (Bytes Inode rootInode ctrlInode ctrlName seenEntry SeesDir KHist)

/-- Rows with numbers, from 1. -/
def number {α β : Type} (f : α → β) : Nat → List α → List (Nat × β)
  | _, [] => []
  | k, a :: t => (k, f a) :: number f (k + 1) t

/-- The database that fsck reads, with objects of one byte that differ in contents. -/
def tables (g : Fs.Db) : Db :=
  { inodes := g.inodes, iseq := g.seq, names := g.names.map (fun e => (e.1, ⟨false, e.2.1, e.2.2⟩)), contents := number (fun e => ⟨e.1.1, e.1.2, e.2⟩) 1 g.contents, cseq := g.contents.length, xattrs := number (fun e => ⟨e.1.1, e.1.2, e.2⟩) 1 g.xattrs, symlinks := g.symlinks, blocks := number (fun e => ⟨e.1.1, e.1.2, e.2⟩) 1 g.blocks, objects := g.objects.map (fun e => (e.1, ⟨e.2, some [UInt8.ofNat e.1], 1, 1⟩)), oseq := (g.objects.map (·.1)).foldl max 0 }

def disk (g : Fs.Db) : St :=
  { db := tables g, backend := g.objects.map (fun e => (e.1, [UInt8.ofNat e.1])), temps := 0, cache := [], found := false, uncorr := false, unlinked := [] }

theorem number_map {α β : Type} (f : α → β) (h : β → α) (hf : ∀ a, h (f a) = a) : ∀ (l : List α) (k : Nat), (number f k l).map (fun e => h e.2) = l
  | [], _ => rfl
  | a :: t, k => by
    show h (f a) :: _ = _
    rw [hf, number_map f h hf t (k + 1)]

theorem tables_same (g : Fs.Db) : SameTables g (tables g) := by
  refine ⟨.refl _, ?_, ?_, ?_, ?_, .refl _, ?_, ?_⟩
  · show ((g.names.map _).map _).Perm _
    rw [List.map_map]
    exact .of_eq (by rw [show (_ ∘ _ : Nat × (Bytes × Int) → _) = id from rfl, List.map_id])
  · intro e he
    obtain ⟨x, _, rfl⟩ := List.mem_map.1 he
    rfl
  · exact .of_eq (number_map (fun e : (Nat × Nat) × Nat => (⟨e.1.1, e.1.2, e.2⟩ : CRow)) (fun r => ((r.parent, r.nameId), r.inode)) (fun _ => rfl) _ 1)
  · exact .of_eq (number_map (fun e : (Nat × Nat) × Bytes => (⟨e.1.1, e.1.2, e.2⟩ : XRow)) (fun r => ((r.inode, r.nameId), r.value)) (fun _ => rfl) _ 1)
  · exact .of_eq (number_map (fun e : (Nat × Nat) × Nat => (⟨e.1.1, e.1.2, e.2⟩ : BRow)) (fun r => ((r.inode, r.blockno), r.obj)) (fun _ => rfl) _ 1)
  · show ((g.objects.map _).map _).Perm _
    rw [List.map_map]
    exact .of_eq (by rw [show (_ ∘ _ : Nat × Int → _) = id from rfl, List.map_id])

theorem disk_uploaded (g : Fs.Db) (h : ∀ b ∈ (tables g).blocks, ∀ e ∈ g.inodes, b.2.inode = e.1 → b.2.blockno * cfg0.blockSize + 1 ≤ e.2.size) :
    Uploaded cfg0 (disk g) := by
  refine ⟨rfl, ?_, ?_, ?_, ?_, ?_⟩
  · intro e he
    obtain ⟨x, _, rfl⟩ := List.mem_map.1 he
    simp
  · intro e he
    obtain ⟨x, _, rfl⟩ := List.mem_map.1 he
    simp
  · intro e he
    obtain ⟨x, hx, rfl⟩ := List.mem_map.1 he
    exact ⟨_, List.mem_map.2 ⟨x, hx, rfl⟩⟩
  · intro e he
    obtain ⟨x, hx, rfl⟩ := List.mem_map.1 he
    exact ⟨_, List.mem_map.2 ⟨x, hx, rfl⟩⟩
  · intro e he b hb hbe o ho
    obtain ⟨x, _, hx⟩ := List.mem_map.1 ho
    have h2 := (Prod.mk.inj hx).2
    rw [← h2]
    exact h b hb e he hbe

theorem usual_of {repl fail : Bool} {s : Fs.St} {K : Nat → Int} (h : Fs.Hist repl fail s K) {depth : Nat} (d : Nat → Nat)
    (hl : ∃ a, seenEntry s rootInode lofName = some a ∧ SeesDir s a) (hs : ∀ r ∈ s.db.names, r.2.1.length ≤ 255)
    (hd : ∀ e ∈ s.db.contents, d e.1.1 + 1 ≤ d e.2 ∧ d e.2 ≤ depth) : Usual depth s := by
  obtain ⟨L, g⟩ := h.good
  refine ⟨hl, ?_, ?_⟩
  · intro p n a hn hc
    rw [Fs.seenEntry_eq g.inv, if_neg hn] at hc
    obtain ⟨k, hk, _⟩ := (g.inv.acc.child_iff _ _ _).1 hc
    unfold Fs.Db.nm at hk
    obtain ⟨r, hr, hr2⟩ := Option.map_eq_some_iff.1 hk
    rw [← hr2]
    exact hs _ (AL.get_some_mem hr)
  · intro m i ha
    have : m ≤ d i ∧ (m = 0 ∨ d i ≤ depth) := by
      induction ha with
      | root => exact ⟨Nat.zero_le _, Or.inl rfl⟩
      | entry _ hn hc ih =>
        obtain ⟨k, hk⟩ := Fs.entry_row h hn hc
        have h3 := hd _ hk
        dsimp only at h3
        exact ⟨by omega, Or.inr h3.2⟩
    omega

/-! #### A case -/

/-- Unmounted after `Fs.treeStory`: directories, a file with two names, a stored block and an attribute. -/
def treeV : Fs.St := (Fs.remount Fs.treeSt).2

set_option maxRecDepth 100000

example : ∃ s', check cfg0 20 .yes (disk treeV.db) = some s' ∧ s'.found = false ∧ s'.db = tables treeV.db ∧ s'.backend = (disk treeV.db).backend :=
  C66_fsck_after_unmount_partial Fs.tree_khist (tables_same _) (schema_of (by decide +kernel)) cfg0_listing
    (disk_uploaded _ (by decide +kernel)) (fun _ f hf => by cases hf) rfl rfl
    (usual_of (KHist.remount Fs.tree_khist).shape.1 (fun i => if i = 1 then 0 else if i = 5 then 3 else if i = 6 then 2 else 1)
      ⟨3, by decide +kernel, by decide +kernel⟩ (by decide +kernel) (by decide +kernel))

example : (tables treeV.db).contents.length = 5 ∧ (tables treeV.db).blocks.length = 1 ∧ (tables treeV.db).xattrs.length = 1 := by decide +kernel

/-! #### What is excluded -/

/-- All hypotheses of C66 but one about the history, and yet fsck reports errors. -/
def Reports (repl : Bool) (depth : Nat) (Q : Fs.St → Prop) : Prop :=
  ∃ (g : Fs.St) (K : Nat → Int) (s : St), KHist repl false g K ∧ SameTables (Fs.remount g).2.db s.db ∧ Schema s.db ∧ Uploaded cfg0 s ∧
    s.cache = [] ∧ s.found = false ∧ s.unlinked = [] ∧ Q (Fs.remount g).2 ∧ (check cfg0 depth .yes s).map (·.found) = some true

/-- After an extended attribute was replaced, fsck reports (and corrects) the count of its name. -/
theorem C66_replaced_xattr : Reports true 20 (Usual 20) := by
  have h : KHist true false (Fs.run Fs.s0 [.setxattr 1 Fs.nX [1] 10, .setxattr 1 Fs.nX [2] 11]) _ := Fs.khist0 _ (by decide +kernel) (by decide +kernel)
  refine ⟨_, _, disk _, h, tables_same _, schema_of (by decide +kernel), disk_uploaded _ (by decide +kernel), rfl, rfl, rfl, ?_, by decide +kernel⟩
  exact usual_of (KHist.remount h).shape.1 (fun i => if i = 1 then 0 else 1) ⟨3, by decide +kernel, by decide +kernel⟩ (by decide +kernel) (by decide +kernel)

/-- A file with a name of 256 bytes can be created; fsck reports it in every run. -/
theorem C66_long_name : Reports false 20 (fun v => ∃ n, n.length = 256 ∧ seenEntry v 1 n = some 4) := by
  have h : KHist false false (Fs.run Fs.s0 [.mknod 1 (List.replicate 256 97) 0o100644 0 7 7 10]) _ := Fs.khist0 _ (by decide +kernel) (by decide +kernel)
  exact ⟨_, _, disk _, h, tables_same _, schema_of (by decide +kernel), disk_uploaded _ (by decide +kernel), rfl, rfl, rfl,
    ⟨List.replicate 256 97, by decide +kernel, by decide +kernel⟩, by decide +kernel⟩

/-- `rmdir /lost+found` is an error for fsck. -/
theorem C66_no_lost_found : Reports false 20 (fun v => seenEntry v 1 lofName = none) := by
  have h : KHist false false (Fs.run Fs.s0 [.rmdir 1 lofName 10]) _ := Fs.khist0 _ (by decide +kernel) (by decide +kernel)
  exact ⟨_, _, disk _, h, tables_same _, schema_of (by decide +kernel), disk_uploaded _ (by decide +kernel), rfl, rfl, rfl,
    by decide +kernel, by decide +kernel⟩

/-- A tree deeper than Python's recursion limit (here 2) ends fsck with an exception. -/
theorem C66_deep_tree : ∃ (g : Fs.St) (K : Nat → Int) (s : St), KHist false false g K ∧ SameTables (Fs.remount g).2.db s.db ∧ Schema s.db ∧
    Uploaded cfg0 s ∧ s.cache = [] ∧ s.found = false ∧ s.unlinked = [] ∧ check cfg0 2 .yes s = none :=
  ⟨_, _, disk _, Fs.tree_khist, tables_same _, schema_of (by decide +kernel), disk_uploaded _ (by decide +kernel), rfl, rfl, rfl, by decide +kernel⟩

end Verif.Fsck
