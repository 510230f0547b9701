/-
Properties of fsck: C42, C43, C44 and C63.
-/
import Verif.Fsck.Second

namespace Verif.Fsck
open Verif.Fs (Bytes Inode rootInode ctrlInode)

/-- A run that is not ended by an exception, and that does not abort with uncorrectable errors (fsck.py:1453-1457). -/
def Completed (cfg : Cfg) (depth : Nat) (c : CacheArg) (s s' : St) : Prop :=
  check cfg depth c s = some s' ∧ s'.uncorr = false

/-! #### C42: reference counts -/

/-- After a completed run, whatever the tables contained before, the reference count of every inode and every object is
the number of its references; that of every name as well, unless the tables referred to missing names with numbers that
SQLite gives to new names.  Missing for the full statement: names in that case, see `C42_name_captured`. -/
theorem C42_refcounts_exact_partial {cfg : Cfg} {depth : Nat} {c : CacheArg} {s s' : St} (hs : Schema s.db)
    (h : Completed cfg depth c s s') :
    InodeRefsExact s'.db ∧ ObjRefsExact s'.db ∧ (NamesKnown s.db → NameRefsExact s'.db) := by
  obtain ⟨g, n, _, _⟩ := check_good hs h.1
  exact ⟨g.inodeRefs, g.objRefs, fun hn => (n hn).refs g.schema.names⟩

/-! #### C43: references and connectedness -/

/-- After a completed run, whatever the tables contained before, every reference leads to a row that exists, every object
of the table is stored, and every inode is reachable from the root. -/
theorem C43_references_valid {cfg : Cfg} {depth : Nat} {c : CacheArg} {s s' : St} (hs : Schema s.db)
    (h : Completed cfg depth c s s') :
    (EntriesHaveName s'.db ∧ EntriesHaveInode s'.db ∧ EntriesHaveParent s'.db) ∧
    (BlocksHaveObj s'.db ∧ BlocksHaveInode s'.db) ∧
    (XattrsHaveName s'.db ∧ XattrsHaveInode s'.db ∧ SymlinksHaveInode s'.db) ∧
    (ListingSound cfg → ObjsStored s') ∧
    Connected s'.db := by
  obtain ⟨g, _, o, u⟩ := check_good hs h.1
  exact ⟨⟨(u h.2).1, g.entriesInode, g.entriesParent⟩, ⟨g.blocksObj, g.blocksInode⟩,
    ⟨(u h.2).2, g.xattrsInode, g.symlinksInode⟩, o, g.connected⟩

/-! #### C44: the second run -/

/-- The second of two runs reports no error and changes nothing, if after the first one lost+found is a directory in the
root, the tree is not deeper than the recursion limit, and the errors that fsck only reports are not present; and if the
first one found no missing names with captured numbers and no blocks of missing inodes.  Missing for the full statement:
these cases, in which the second run may report errors; see `C44_object_left` and `C44_reported_again`. -/
theorem C44_second_run_partial {cfg : Cfg} {depth : Nat} {s s' : St} (hs : Schema s.db) (hl : ListingExact cfg)
    (h : Completed cfg depth .yes s s') (hn : NamesKnown s.db) (hb : BlocksHaveInode s.db)
    (hc : CacheInodes s) (h1 : LofOk s'.db) (h2 : TreeOk s'.db depth) (h3 : UnixOk s'.db) :
    check cfg depth .yes (again s') = some (again s') := by
  obtain ⟨hcl, hcache⟩ := check_clean_of hs hl h.1 h.2 hn hb (fun _ => hc) h1 h2 h3
  have hg := (check_good hs h.1).1.schema
  have he : s'.cache = [] := hcache rfl
  have hok : CacheOk cfg (again s') := by
    intro f hf
    have : f ∈ s'.cache := hf
    rw [he] at this; cases this
  rw [check_clean (s := again s') hg hl (fun _ => hok) hcl]
  unfold cacheAfter again cacheLeft
  dsimp only
  rw [he]
  rfl

/-! #### C63: errors are found exactly if there are any -/

/-- A run that starts without reported errors completes without any if and only if the file system has none, and then it
changes nothing but the cache directory. -/
theorem C63_reports_exactly_errors {cfg : Cfg} {depth : Nat} {c : CacheArg} {s : St} (hs : Schema s.db) (hl : ListingExact cfg)
    (h0 : s.found = false) (hul : s.unlinked = []) :
    (∃ s', check cfg depth c s = some s' ∧ s'.found = false) ↔ (Clean cfg depth s ∧ (c ≠ .no → CacheOk cfg s)) := by
  constructor
  · rintro ⟨s', h, hf⟩
    obtain ⟨_, a, b⟩ := check_quiet hs hl hul h hf
    exact ⟨b, a⟩
  · rintro ⟨h, hc⟩
    refine ⟨cacheAfter c s, check_clean hs hl hc h, ?_⟩
    cases c <;> exact h0

theorem C63_quiet_run_changes_nothing {cfg : Cfg} {depth : Nat} {c : CacheArg} {s s' : St} (hs : Schema s.db)
    (hl : ListingExact cfg) (hul : s.unlinked = []) (h : check cfg depth c s = some s') (hf : s'.found = false) :
    s'.db = s.db ∧ s'.backend = s.backend ∧ (c = .no → s' = s) := by
  obtain ⟨e, _, _⟩ := check_quiet hs hl hul h hf
  subst e
  refine ⟨?_, ?_, fun hc => ?_⟩
  · cases c <;> rfl
  · cases c <;> rfl
  · subst hc; rfl

/-! #### Example: a damaged file system -/

def cfg0 : Cfg := { blockSize := 10, sha := fun d => d, physOf := fun d => d.length, toStr := fun d => d, list := fun b => b.map (·.1), uid := 0, gid := 0, now := 7 }

theorem cfg0_listing : ListingExact cfg0 := by
  intro b o
  show o ∈ b.map (·.1) ↔ _
  exact mem_keys

def dirI (ref : Int) : Inode := { mode := 0o040755, uid := 0, gid := 0, mtime := 1, atime := 1, ctime := 1, refcount := ref, size := 0, rdev := 0, locked := false }
def fileI (ref : Int) (size : Nat) : Inode := { mode := 0o100644, uid := 0, gid := 0, mtime := 1, atime := 1, ctime := 1, refcount := ref, size := size, rdev := 0, locked := false }

/-- The tables after mkfs (mkfs.py:63-112). -/
def db0 : Db := { inodes := [(1, dirI 1), (2, fileI 42 0), (3, dirI 1)], iseq := 3, names := [(1, ⟨false, lofName, 1⟩)], contents := [(1, ⟨1, 1, 3⟩)], cseq := 1, xattrs := [], symlinks := [], blocks := [], objects := [], oseq := 0 }
def st0 : St := { db := db0, backend := [], temps := 0, cache := [], found := false, uncorr := false, unlinked := [] }

/-- A file system with many errors: a file without an entry (4), a wrong count (5), a block without its object, a block
of no object in the storage, a spurious object, an entry without an inode, an entry in no directory, a loop of two
directories (6, 7), a cached block that was not stored and a wrong size. -/
def dbBad : Db :=
  { inodes := [(1, dirI 1), (2, fileI 42 0), (3, dirI 1), (4, fileI 1 0), (5, fileI 9 1), (6, dirI 1), (7, dirI 1), (8, fileI 1 0)], iseq := 8, names := [(1, ⟨false, lofName, 1⟩), (2, ⟨false, [97], 1⟩), (3, ⟨false, [98], 7⟩), (4, ⟨false, [99], 2⟩)], contents := [(1, ⟨1, 1, 3⟩), (2, ⟨1, 2, 5⟩), (3, ⟨1, 3, 99⟩), (4, ⟨77, 4, 8⟩), (5, ⟨6, 2, 7⟩), (6, ⟨7, 2, 6⟩)], cseq := 6, xattrs := [], symlinks := [], blocks := [(1, ⟨5, 0, 1⟩), (2, ⟨5, 1, 2⟩), (3, ⟨8, 0, 3⟩)], objects := [(1, ⟨4, some [1, 2, 3], 3, -1⟩), (3, ⟨1, some [5], 1, 1⟩)], oseq := 3 }
def stBad : St := { db := dbBad, backend := [(1, [1, 2, 3]), (9, [0])], temps := 2, cache := [CFile.blk 4 0 [8, 8]], found := false, uncorr := false, unlinked := [] }

set_option maxRecDepth 100000

def schemaB (db : Db) : Bool :=
  decide ((keys db.inodes).Nodup ∧ (keys db.names).Nodup ∧ (keys db.contents).Nodup ∧ (keys db.xattrs).Nodup ∧ (keys db.blocks).Nodup ∧ (keys db.objects).Nodup ∧ (keys db.symlinks).Nodup)
   && decide (∀ e ∈ db.inodes, e.1 ≤ db.iseq) && decide (∀ e ∈ db.contents, e.1 ≤ db.cseq) && decide (∀ e ∈ db.objects, e.1 ≤ db.oseq)
   && decide (∀ e ∈ db.names, ∀ f ∈ db.names, e.2.text = f.2.text → e.2.name = f.2.name → e = f)
   && decide (∀ e ∈ db.contents, ∀ f ∈ db.contents, e.2.parent = f.2.parent → e.2.nameId = f.2.nameId → e = f)
   && decide (∀ e ∈ db.blocks, ∀ f ∈ db.blocks, e.2.inode = f.2.inode → e.2.blockno = f.2.blockno → e = f)
   && decide (∀ e ∈ db.objects, ∀ f ∈ db.objects, e.2.hash ≠ none → e.2.hash = f.2.hash → e = f)

theorem schema_of {db : Db} (h : schemaB db = true) : Schema db := by
  unfold schemaB at h
  simp only [Bool.and_eq_true, decide_eq_true_eq] at h
  obtain ⟨⟨⟨⟨⟨⟨⟨⟨a, b, c, d, e, f, g⟩, i⟩, j⟩, k⟩, l⟩, m⟩, n⟩, o⟩ := h
  exact ⟨a, b, c, d, e, f, g, i, j, k, l, m, n, o⟩

/-- The result of the run on the damaged file system. -/
def stFixed : St := (check cfg0 20 .yes stBad).getD stBad

theorem stBad_run : Completed cfg0 20 .yes stBad stFixed := by
  have : (check cfg0 20 .yes stBad) = some stFixed ∧ stFixed.uncorr = false := by decide +kernel
  exact this

theorem stBad_schema : Schema stBad.db := schema_of (by decide +kernel)

/-- The damaged file system meets the hypotheses of C42 and C43, and is not left as it is. -/
example : Schema stBad.db ∧ Completed cfg0 20 .yes stBad stFixed ∧ NamesKnown stBad.db ∧ stFixed.db ≠ stBad.db ∧ stFixed.found = true :=
  ⟨stBad_schema, stBad_run, ⟨by decide +kernel, fun e he => absurd he List.not_mem_nil⟩, by decide +kernel, by decide +kernel⟩

/-- What the result looks like: the file without an entry is in lost+found, with the block from the cache. -/
example : (stFixed.db.entry 3 [105, 110, 111, 100, 101, 45, 52]).map (fun e => e.2.inode) = some 4 ∧ AL.get stFixed.backend 4 = some [8, 8] := by decide +kernel

theorem stFixed_again : check cfg0 20 .yes (again stFixed) = some (again stFixed) := by decide +kernel

/-- It also meets the hypotheses of C44. -/
example : BlocksHaveInode stBad.db ∧ CacheInodes stBad ∧ LofOk stFixed.db ∧ TreeOk stFixed.db 20 ∧ UnixOk stFixed.db := by
  have hc := (check_quiet (s := again stFixed) (schema_of (by decide +kernel)) cfg0_listing rfl stFixed_again rfl).2.2
  refine ⟨?_, ?_, hc.lof, hc.tree, hc.unix⟩
  · intro e he
    apply isSome_iff_mem.1
    revert e
    decide +kernel
  · intro id b d h
    have : CFile.blk id b d = CFile.blk 4 0 [8, 8] := by
      have h' : CFile.blk id b d ∈ [CFile.blk 4 0 [8, 8]] := h
      simpa using h'
    cases this
    exact ⟨fileI 1 0, by decide +kernel⟩

/-- The file system after mkfs is clean (C63), and so is the repaired one, which has files with blocks. -/
example : Clean cfg0 20 st0 ∧ Clean cfg0 20 (again stFixed) ∧ stFixed.db.blocks.length = 2 :=
  ⟨(check_quiet (c := .yes) (s' := st0) (schema_of (by decide +kernel)) cfg0_listing rfl (by decide +kernel) rfl).2.2,
    (check_quiet (s := again stFixed) (schema_of (by decide +kernel)) cfg0_listing rfl stFixed_again rfl).2.2, by decide +kernel⟩

/-! #### Where the code does not have the property -/

/-- An entry and an attribute with the same missing name: the entry gets a new name, which has the number that the
attribute refers to. -/
def stCapture : St :=
  { st0 with db := { db0 with inodes := db0.inodes ++ [(4, fileI 1 0)], iseq := 4, contents := db0.contents ++ [(2, ⟨1, 2, 4⟩)], cseq := 2, xattrs := [(1, ⟨4, 2, [1]⟩)] } }

/-- After a completed run, a name with two uses has reference count one. -/
theorem C42_name_captured :
    ∃ s s' : St, Schema s.db ∧ Completed cfg0 20 .yes s s' ∧ ∃ r, (2, r) ∈ s'.db.names ∧ r.refcount = 1 ∧ usesOfName s'.db 2 = 2 := by
  refine ⟨stCapture, (check cfg0 20 .yes stCapture).getD stCapture, schema_of (by decide +kernel), ?_, ?_⟩
  · have : check cfg0 20 .yes stCapture = some ((check cfg0 20 .yes stCapture).getD stCapture) ∧ ((check cfg0 20 .yes stCapture).getD stCapture).uncorr = false := by decide +kernel
    exact this
  · refine ⟨⟨false, 45 :: dec 4, 1⟩, ?_, rfl, ?_⟩
    · decide +kernel
    · decide +kernel

/-- The block of an inode that does not exist. -/
def stOrphan : St :=
  { st0 with db := { db0 with blocks := [(1, ⟨99, 0, 1⟩)], objects := [(1, ⟨1, some [1], 1, 1⟩)], oseq := 1 }, backend := [(1, [1])] }

/-- The first run removes the block and keeps its object with reference count zero; the second one reports the object,
and removes it. -/
theorem C44_object_left :
    ∃ s s' s'' : St, Schema s.db ∧ Completed cfg0 20 .yes s s' ∧ Completed cfg0 20 .yes (again s') s'' ∧
      s''.found = true ∧ s''.db.objects ≠ s'.db.objects := by
  refine ⟨stOrphan, (check cfg0 20 .yes stOrphan).getD stOrphan, (check cfg0 20 .yes (again ((check cfg0 20 .yes stOrphan).getD stOrphan))).getD stOrphan, schema_of (by decide +kernel), ?_, ?_, ?_⟩
  · have : check cfg0 20 .yes stOrphan = some ((check cfg0 20 .yes stOrphan).getD stOrphan) ∧ ((check cfg0 20 .yes stOrphan).getD stOrphan).uncorr = false := by decide +kernel
    exact this
  · have : check cfg0 20 .yes (again ((check cfg0 20 .yes stOrphan).getD stOrphan)) = some ((check cfg0 20 .yes (again ((check cfg0 20 .yes stOrphan).getD stOrphan))).getD stOrphan) ∧ ((check cfg0 20 .yes (again ((check cfg0 20 .yes stOrphan).getD stOrphan))).getD stOrphan).uncorr = false := by decide +kernel
    exact this
  · decide +kernel

/-- A symbolic link without a target. -/
def stLink : St :=
  { st0 with db := { db0 with inodes := db0.inodes ++ [(4, { fileI 1 0 with mode := 0o120777 })], iseq := 4, names := db0.names ++ [(2, ⟨false, [97], 1⟩)], contents := db0.contents ++ [(2, ⟨1, 2, 4⟩)], cseq := 2 } }

/-- Errors of some kinds are reported and not repaired: every run reports them again. -/
theorem C44_reported_again :
    ∃ s s' : St, Schema s.db ∧ s.found = false ∧ Completed cfg0 20 .yes s s' ∧ s'.found = true ∧ again s' = s := by
  refine ⟨stLink, (check cfg0 20 .yes stLink).getD stLink, schema_of (by decide +kernel), rfl, ?_, ?_⟩
  · have : check cfg0 20 .yes stLink = some ((check cfg0 20 .yes stLink).getD stLink) ∧ ((check cfg0 20 .yes stLink).getD stLink).uncorr = false := by decide +kernel
    exact this
  · decide +kernel

/-- Two attributes of a file; the name of the first one is missing, the second one is named `lost+found_1`. -/
def stAttr : St :=
  { st0 with db := { db0 with inodes := db0.inodes ++ [(4, fileI 1 0)], iseq := 4, names := db0.names ++ [(2, ⟨false, [97], 1⟩), (3, ⟨true, xName 1, 1⟩)], contents := db0.contents ++ [(2, ⟨1, 2, 4⟩)], cseq := 2, xattrs := [(1, ⟨4, 9, [1]⟩), (2, ⟨4, 3, [2]⟩)] } }

/-- The run renames the attribute that has a name, keeps the one that has none, and then aborts with an uncorrectable
error. -/
theorem C43_wrong_attribute_renamed :
    ∃ s' : St, Schema stAttr.db ∧ check cfg0 20 .yes stAttr = some s' ∧ s'.uncorr = true ∧
      AL.get s'.db.xattrs 1 = some ⟨4, 9, [1]⟩ ∧ (∃ x r, AL.get s'.db.xattrs 2 = some x ∧ AL.get s'.db.names x.nameId = some r ∧ r.name = xName 2) := by
  refine ⟨(check cfg0 20 .yes stAttr).getD stAttr, schema_of (by decide +kernel), by decide +kernel, by decide +kernel, by decide +kernel, ?_⟩
  exact ⟨⟨4, 4, [2]⟩, ⟨true, xName 2, 1⟩, by decide +kernel, by decide +kernel, rfl⟩

end Verif.Fsck
