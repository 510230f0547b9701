/-
C66: after a clean unmount fsck has nothing to repair.

The tables that the file system leaves behind are the tables that fsck reads; the parts of the database and of the storage
that the model of the file system does not have (lengths and hashes of objects, the storage itself) enter through the
conditions that uploading establishes.
-/
import Verif.Fsck.Props
import Verif.Fs.ShapeProps

namespace Verif.Fsck
open Verif.Fs (Bytes Inode rootInode ctrlInode ctrlName seenEntry SeesDir KHist)

/-! #### Specification -/

/-- The same tables: the model of the file system leaves out the rowids of `contents`, `ext_attributes` and `inode_blocks`
and the columns of `objects` other than the reference count.  SQLite returns rows in any order. -/
structure SameTables (f : Fs.Db) (db : Db) : Prop where
  inodes : db.inodes.Perm f.inodes
  names : (db.names.map (fun e => (e.1, (e.2.name, e.2.refcount)))).Perm f.names
  blob : ∀ e ∈ db.names, e.2.text = false
  contents : (db.contents.map (fun e => ((e.2.parent, e.2.nameId), e.2.inode))).Perm f.contents
  xattrs : (db.xattrs.map (fun e => ((e.2.inode, e.2.nameId), e.2.value))).Perm f.xattrs
  symlinks : db.symlinks.Perm f.symlinks
  blocks : (db.blocks.map (fun e => ((e.2.inode, e.2.blockno), e.2.obj))).Perm f.blocks
  objects : (db.objects.map (fun e => (e.1, e.2.refcount))).Perm f.objects

/-- What is true when all uploads have ended: exactly the objects of the table are stored, their hashes and sizes are
known, and no block extends beyond the end of its file. -/
structure Uploaded (cfg : Cfg) (s : St) : Prop where
  temps : s.temps = 0
  hashes : ∀ e ∈ s.db.objects, e.2.hash ≠ none
  phys : ∀ e ∈ s.db.objects, e.2.phys ≠ -1
  stored : ObjsStored s
  only : ∀ e ∈ s.backend, HasObj s.db e.1
  sizes : SizesOk cfg.blockSize s.db

/-- The inode can be reached from the root in `n` steps. -/
inductive AtDepth (s : Fs.St) : Nat → Nat → Prop
  | root : AtDepth s 0 rootInode
  | entry {m p a : Nat} {n : Bytes} : AtDepth s m p → n ≠ ctrlName → seenEntry s p n = some a → AtDepth s (m + 1) a

/-- What a user must not do: remove `lost+found` (or replace it by something else), create names of more than 255 bytes,
and create trees deeper than fsck can follow. -/
structure Usual (depth : Nat) (s : Fs.St) : Prop where
  lof : ∃ a, seenEntry s rootInode lofName = some a ∧ SeesDir s a
  short : ∀ p n a, n ≠ ctrlName → seenEntry s p n = some a → n.length ≤ 255
  shallow : ∀ m i, AtDepth s m i → m ≤ depth

/-! #### Proof -/

theorem beq_dec (a b : Nat) : (a == b) = decide (a = b) := by
  by_cases h : a = b <;> simp [h]

theorem perm_count {α β : Type} {l : List α} {l' : List β} {f : α → β} (h : (l.map f).Perm l') (p : β → Bool) :
    (l'.filter p).length = l.countP (fun x => p (f x)) := by
  rw [← List.countP_eq_length_filter, ← h.countP_eq, List.countP_map]
  rfl

section
variable {fail : Bool} {g : Fs.St} {K L : Nat → Int} {s : St}

theorem SameTables.ino {f : Fs.Db} {db : Db} (h : SameTables f db) (hn : AL.NK f.inodes) {i : Nat} {a : Inode} :
    (i, a) ∈ db.inodes ↔ AL.get f.inodes i = some a := by
  rw [h.inodes.mem_iff]
  exact ⟨fun h => AL.mem_get_some hn h, AL.get_some_mem⟩

theorem SameTables.nameRow {f : Fs.Db} {db : Db} (h : SameTables f db) {k : Nat} {n : Bytes} {r : Int} (hn : (k, (n, r)) ∈ f.names) :
    ∃ x, (k, x) ∈ db.names ∧ x.name = n ∧ x.refcount = r := by
  rw [← h.names.mem_iff] at hn
  obtain ⟨e, he, hk⟩ := List.mem_map.1 hn
  cases hk
  exact ⟨e.2, he, rfl, rfl⟩

theorem SameTables.toName {f : Fs.Db} {db : Db} (h : SameTables f db) {e : Nat × NRow} (he : e ∈ db.names) :
    (e.1, (e.2.name, e.2.refcount)) ∈ f.names := h.names.mem_iff.1 (List.mem_map.2 ⟨e, he, rfl⟩)

theorem SameTables.toEntry {f : Fs.Db} {db : Db} (h : SameTables f db) {e : Nat × CRow} (he : e ∈ db.contents) :
    ((e.2.parent, e.2.nameId), e.2.inode) ∈ f.contents := h.contents.mem_iff.1 (List.mem_map.2 ⟨e, he, rfl⟩)

theorem SameTables.entryRow {f : Fs.Db} {db : Db} (h : SameTables f db) {p k c : Nat} (hn : ((p, k), c) ∈ f.contents) :
    ∃ e ∈ db.contents, e.2.parent = p ∧ e.2.nameId = k ∧ e.2.inode = c := by
  rw [← h.contents.mem_iff] at hn
  obtain ⟨e, he, hk⟩ := List.mem_map.1 hn
  cases hk
  exact ⟨e, he, rfl, rfl, rfl⟩

theorem SameTables.toBlock {f : Fs.Db} {db : Db} (h : SameTables f db) {e : Nat × BRow} (he : e ∈ db.blocks) :
    ((e.2.inode, e.2.blockno), e.2.obj) ∈ f.blocks := h.blocks.mem_iff.1 (List.mem_map.2 ⟨e, he, rfl⟩)

theorem SameTables.toXattr {f : Fs.Db} {db : Db} (h : SameTables f db) {e : Nat × XRow} (he : e ∈ db.xattrs) :
    ((e.2.inode, e.2.nameId), e.2.value) ∈ f.xattrs := h.xattrs.mem_iff.1 (List.mem_map.2 ⟨e, he, rfl⟩)

theorem above_eq {hh : KHist false fail g K} (ht : SameTables g.db s.db) (hi : Fs.Inv Fs.NoT L g) {p q k : Nat}
    (hd : Fs.DirIn g p) (he : AL.get g.db.contents (q, k) = some p) : above s.db p = some q := by
  obtain ⟨e, h1, h2, h3, h4⟩ := ht.entryRow (AL.get_some_mem he)
  unfold above
  cases hf : s.db.contents.find? (fun e => e.2.inode = p) with
  | none => exact absurd h4 (by simpa using List.find?_eq_none.1 hf e h1)
  | some e' =>
    have h5 : e'.2.inode = p := by simpa using List.find?_some hf
    have h6 := ht.toEntry (List.mem_of_find?_eq_some hf)
    obtain ⟨n, _, hn⟩ := Fs.row_child hh.shape.1 hi (AL.get_some_mem he)
    obtain ⟨n', _, hn'⟩ := Fs.row_child hh.shape.1 hi h6
    have h7 := hh.shape.2.one _ _ _ _ _ hd hn (by rw [← h5]; exact hn')
    exact congrArg some h7.1.symm

theorem climb_root {hh : KHist false fail g K} (ht : SameTables g.db s.db) (hi : Fs.Inv Fs.NoT L g) (hr : Fs.Res g) {r : Nat → Nat}
    (hrk : ∀ p n c, g.db.child p n = some c → r p < r c) : ∀ (m p : Nat), r p ≤ m → Fs.DirIn g p → 0 < g.db.rc p →
    ∃ n, climb s.db n p = some rootInode ∧ AtDepth g n p := by
  intro m
  induction m with
  | zero =>
    intro p hm hd hp
    by_cases e : p = rootInode
    · exact ⟨0, by rw [e]; rfl, by rw [e]; exact .root⟩
    · obtain ⟨q, n, hq⟩ := Fs.linked_of_rc hh.shape.1 hi e (Fs.dir_not_ctrl hh.shape.2 hd) hp
      have := hrk _ _ _ hq
      omega
  | succ m ih =>
    intro p hm hd hp
    by_cases e : p = rootInode
    · exact ⟨0, by rw [e]; rfl, by rw [e]; exact .root⟩
    · obtain ⟨q, n, hq⟩ := Fs.linked_of_rc hh.shape.1 hi e (Fs.dir_not_ctrl hh.shape.2 hd) hp
      have h1 := hrk _ _ _ hq
      obtain ⟨k, hk, hk2⟩ := (hi.acc.child_iff _ _ _).1 hq
      have h2 := hi.acc.par0 _ _ _ hk2
      obtain ⟨b, hb⟩ := Option.ne_none_iff_exists'.1 (Fs.rc_pos_ne h2)
      obtain ⟨j, hj1, hj2⟩ := ih q (by omega) ⟨b, hb, (hh.shape.2.types q b hb).kids n p hq⟩ h2
      have hn : n ≠ ctrlName := by rintro rfl; rw [hr.ctrl] at hq; cases hq
      refine ⟨j + 1, ?_, hj2.entry hn (by rw [Fs.seenEntry_eq hi, if_neg hn]; exact hq)⟩
      show (above s.db p).bind (climb s.db j) = _
      rw [above_eq (hh := hh) ht hi hd hk2]
      exact hj1

end

theorem countP_pos_of {α : Type} {p : α → Bool} {l : List α} {a : α} (h : a ∈ l) (hp : p a = true) : 0 < l.countP p :=
  List.countP_pos_iff.2 ⟨a, h, hp⟩

/-- The tables after unmounting are without errors. -/
theorem clean_after_unmount {fail : Bool} {g : Fs.St} {K : Nat → Int} {cfg : Cfg} {depth : Nat} {s : St} (hh : KHist false fail g K)
    (ht : SameTables (Fs.remount g).2.db s.db) (hup : Uploaded cfg s) (hu : Usual depth (Fs.remount g).2) :
    Clean cfg depth s := by
  have hk := KHist.remount hh
  have hused : ∀ i a, AL.get (Fs.remount g).2.db.inodes i = some a → 0 < a.refcount := by
    obtain ⟨L, gg⟩ := hh.shape.1.good
    obtain ⟨s1, h1, _, _, h2⟩ := Fs.remount_spec gg.inv
    intro i a hi
    rw [h1] at hi
    exact h2 i a hi
  generalize (Fs.remount g).2 = v at ht hu hk hused
  obtain ⟨hhist, hshape⟩ := hk.shape
  obtain ⟨L, gg⟩ := hhist.good
  have hi := gg.inv
  have hA := hi.acc
  obtain ⟨hlinks, hval, _⟩ := Fs.links_exact_partial hhist
  have hnames := Fs.names_exact_partial hhist
  obtain ⟨hobj, hbobj⟩ := Fs.objects_exact_partial hhist
  have einode : EntriesHaveInode s.db := by
    intro e he
    obtain ⟨⟨r, hr, hr2⟩, _, _⟩ := hval _ (ht.toEntry he)
    refine ⟨r.2, ht.inodes.mem_iff.2 ?_⟩
    rw [← show r.1 = e.2.inode from hr2]; exact hr
  have eparent : EntriesHaveParent s.db := by
    intro e he
    obtain ⟨_, ⟨r, hr, hr2⟩, _⟩ := hval _ (ht.toEntry he)
    refine ⟨r.2, ht.inodes.mem_iff.2 ?_⟩
    rw [← show r.1 = e.2.parent from hr2]; exact hr
  have ename : EntriesHaveName s.db := by
    intro e he
    obtain ⟨_, _, ⟨r, hr, hr2⟩⟩ := hval _ (ht.toEntry he)
    obtain ⟨x, hx, _⟩ := ht.nameRow hr
    rw [show r.1 = e.2.nameId from hr2] at hx
    exact ⟨x, hx⟩
  have toSeen : ∀ p n a, v.db.child p n = some a → n ≠ ctrlName ∧ seenEntry v p n = some a := by
    intro p n a hc
    have hn : n ≠ ctrlName := by rintro rfl; rw [gg.res.ctrl] at hc; cases hc
    exact ⟨hn, by rw [Fs.seenEntry_eq hi, if_neg hn]; exact hc⟩
  have irefs : InodeRefsExact s.db := by
    intro e he hp
    have h1 := hlinks e (ht.inodes.mem_iff.1 he)
    rw [if_neg hp.1, if_neg hp.2] at h1
    rw [h1]
    unfold Fs.entriesTo entriesTo
    rw [perm_count ht.contents]
    simp only [beq_dec]
    omega
  refine ⟨?_, ?_, ename, einode, eparent, hup.temps, hup.hashes, ?_, ?_, hup.stored, hup.only, hup.phys, ?_, ?_, irefs, ?_, hup.sizes, ?_, ?_, ?_, ⟨?_, ?_, ?_⟩, ?_, ?_⟩
  · -- lof
    obtain ⟨a, h1, h2⟩ := hu.lof
    rw [Fs.seenEntry_eq hi, if_neg (by decide)] at h1
    obtain ⟨k, hk1, hk2⟩ := (hA.child_iff _ _ _).1 h1
    obtain ⟨e, he, he1, he2, he3⟩ := ht.entryRow (AL.get_some_mem hk2)
    obtain ⟨b, hb, hd⟩ := h2
    rw [Fs.seenAttr_eq] at hb
    refine ⟨e, he, he1, ?_, b, ?_, hd⟩
    · unfold Fs.Db.nm at hk1
      obtain ⟨r, hr, hr2⟩ := Option.map_eq_some_iff.1 hk1
      obtain ⟨x, hx, hx1, _⟩ := ht.nameRow (AL.get_some_mem hr)
      exact ⟨x, by rw [he2]; exact hx, ht.blob _ hx, hx1.trans hr2⟩
    · rw [he3]; exact (ht.ino hA.nkI).2 hb
  · -- nameRefs
    intro e he
    have h1 := (hnames _ (ht.toName he)).1
    rw [show e.2.refcount = _ from h1]
    unfold Fs.usesOf usesOfName
    rw [perm_count ht.contents, perm_count ht.xattrs]
    simp only [beq_dec]
  · -- objRefs
    intro e he
    have h1 := (hobj (e.1, e.2.refcount) (ht.objects.mem_iff.1 (List.mem_map.2 ⟨e, he, rfl⟩))).1
    rw [show e.2.refcount = _ from h1]
    unfold usesOfObj
    rw [perm_count ht.blocks]
    simp only [beq_dec]
  · -- objUsed
    intro e he h0
    obtain ⟨h1, h2⟩ := hobj (e.1, e.2.refcount) (ht.objects.mem_iff.1 (List.mem_map.2 ⟨e, he, rfl⟩))
    rw [perm_count ht.blocks] at h1
    unfold usesOfObj at h0
    simp only [beq_dec] at h1
    dsimp only at h1 h2
    omega
  · -- blocksObj
    intro e he
    obtain ⟨r, hr, hr2⟩ := hbobj _ (ht.toBlock he)
    rw [← ht.objects.mem_iff] at hr
    obtain ⟨x, hx, rfl⟩ := List.mem_map.1 hr
    refine ⟨x.2, ?_⟩
    rw [← show x.1 = e.2.obj from hr2]; exact hx
  · -- blocksInode
    intro e he
    obtain ⟨a, ha, _⟩ := hA.bin _ _ _ (AL.mem_get_some hA.nkB (ht.toBlock he))
    exact ⟨a, (ht.ino hA.nkI).2 ha⟩
  · -- inodeUsed
    intro e he hp h0
    have h1 := irefs e he hp
    have h2 := hused e.1 e.2 ((ht.ino hA.nkI).1 he)
    omega
  · -- xattrsName
    intro e he
    have h1 := hA.nr e.2.nameId
    have h2 := Fs.uses_eq v e.2.nameId
    have h3 : 0 < Fs.usesOf v e.2.nameId := by
      unfold Fs.usesOf
      rw [perm_count ht.xattrs]
      have := countP_pos_of (p := fun (x : Nat × XRow) => x.2.nameId == e.2.nameId) he (by simp)
      dsimp only
      omega
    have h4 := hi.Lnn e.2.nameId
    have h5 : 0 < v.db.nr e.2.nameId := by omega
    unfold Fs.Db.nr at h5
    cases hg : AL.get v.db.names e.2.nameId with
    | none => rw [hg] at h5; simp at h5
    | some r =>
      obtain ⟨x, hx, _⟩ := ht.nameRow (AL.get_some_mem hg)
      exact ⟨x, hx⟩
  · -- xattrsInode
    intro e he
    obtain ⟨a, ha⟩ := Option.ne_none_iff_exists'.1 (hA.xin _ _ _ (AL.mem_get_some hA.nkX (ht.toXattr he)))
    exact ⟨a, (ht.ino hA.nkI).2 ha⟩
  · -- symlinks
    intro e he
    obtain ⟨a, ha⟩ := Option.ne_none_iff_exists'.1 (hA.sin _ _ (AL.mem_get_some hA.nkS (ht.symlinks.mem_iff.1 he)))
    exact ⟨a, (ht.ino hA.nkI).2 ha⟩
  · -- depth
    obtain ⟨a, h1, _⟩ := hu.lof
    have := hu.shallow _ _ (AtDepth.root.entry (by decide) h1)
    omega
  · -- noRoot
    intro e he h0
    obtain ⟨n, _, hn⟩ := Fs.row_child hhist hi (ht.toEntry he)
    exact hshape.noRoot _ _ (by rw [← h0]; exact hn)
  · -- climb
    intro e he
    obtain ⟨n, _, hn⟩ := Fs.row_child hhist hi (ht.toEntry he)
    have hpar := hA.par0 _ _ _ (AL.mem_get_some hA.nkC (ht.toEntry he))
    obtain ⟨b, hb⟩ := Option.ne_none_iff_exists'.1 (Fs.rc_pos_ne hpar)
    obtain ⟨r, hr⟩ := hshape.rank
    obtain ⟨m, hm1, hm2⟩ := climb_root (hh := hk) ht hi gg.res hr _ e.2.parent (Nat.le_refl _) ⟨b, hb, (hshape.types _ b hb).kids n _ hn⟩ hpar
    obtain ⟨hc, hse⟩ := toSeen _ _ _ hn
    have := hu.shallow _ _ (hm2.entry hc hse)
    exact ⟨m, by omega, hm1⟩
  · -- types
    intro e he
    have hg := (ht.ino hA.nkI).1 he
    have hty := hshape.types _ _ hg
    have hsym : ∀ t, (e.1, t) ∈ s.db.symlinks ↔ AL.get v.db.symlinks e.1 = some t := by
      intro t
      rw [ht.symlinks.mem_iff]
      exact ⟨fun h => AL.mem_get_some hA.nkS h, AL.get_some_mem⟩
    refine ⟨hty.typed, ?_, ?_, ?_, ?_, ?_, ?_⟩
    · rw [show isLnk e.2.mode = Fs.isLnk e.2.mode from rfl, hty.lnk, Option.ne_none_iff_exists']
      exact exists_congr (fun t => (hsym t).symm)
    · intro _ t h2; exact hty.len t ((hsym t).1 h2)
    · intro h0
      rcases hty.empty h0 with h1 | h1
      · exact Or.inl h1
      · exact Or.inr (Or.inl h1)
    · exact hty.dev
    · intro c hc hp
      obtain ⟨n, _, hn⟩ := Fs.row_child hhist hi (ht.toEntry hc)
      exact hty.kids n _ (by rw [← hp]; exact hn)
    · intro b hb hp
      exact hty.blk b.2.blockno b.2.obj (by rw [← hp]; exact AL.mem_get_some hA.nkB (ht.toBlock hb))
  · -- lengths
    intro e he r hr
    obtain ⟨n, hn1, hn⟩ := Fs.row_child hhist hi (ht.toEntry he)
    obtain ⟨hc, hse⟩ := toSeen _ _ _ hn
    have h1 := hu.short _ _ _ hc hse
    have h2 := AL.mem_get_some hA.nkN (ht.toName hr)
    have h3 : v.db.nm e.2.nameId = some r.name := by unfold Fs.Db.nm; rw [h2]; rfl
    rw [h3] at hn1
    cases hn1
    exact h1

/-! #### C66 -/

/-- **C66**: after any history of requests, once the file system is unmounted and everything is uploaded, fsck completes
without reporting an error, and changes neither the tables nor the storage.  Missing for the full statement: histories in
which an extended attribute was replaced, the control file was removed or an attribute that is not set was removed
(`Handled`, see C17), and users who do what `Usual` excludes; the theorems below show that fsck then does report errors. -/
theorem C66_fsck_after_unmount_partial {fail : Bool} {g : Fs.St} {K : Nat → Int} {cfg : Cfg} {depth : Nat} {c : CacheArg} {s : St}
    (hh : KHist false fail g K) (ht : SameTables (Fs.remount g).2.db s.db) (hs : Schema s.db) (hl : ListingExact cfg)
    (hup : Uploaded cfg s) (hc : c ≠ .no → CacheOk cfg s) (h0 : s.found = false) (hul : s.unlinked = []) (hu : Usual depth (Fs.remount g).2) :
    ∃ s', check cfg depth c s = some s' ∧ s'.found = false ∧ s'.db = s.db ∧ s'.backend = s.backend := by
  obtain ⟨s', h1, h2⟩ := (C63_reports_exactly_errors hs hl h0 hul).2 ⟨clean_after_unmount hh ht hup hu, hc⟩
  obtain ⟨h3, h4, _⟩ := C63_quiet_run_changes_nothing hs hl hul h1 h2
  exact ⟨s', h1, h2, h3, h4⟩

end Verif.Fsck
