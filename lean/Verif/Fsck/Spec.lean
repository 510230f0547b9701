/-
What fsck has to achieve, independently of how the checks work.
-/
import Verif.Fsck.Model

namespace Verif.Fsck
open Verif.Fs (Bytes Inode rootInode ctrlInode)

/-- The constraints that SQLite enforces on the tables, whatever was written to them (database.py:696-846): primary
keys and UNIQUE constraints, and AUTOINCREMENT counters. -/
structure Schema (db : Db) : Prop where
  inodes : AL.NK db.inodes
  names : AL.NK db.names
  contents : AL.NK db.contents
  xattrs : AL.NK db.xattrs
  blocks : AL.NK db.blocks
  objects : AL.NK db.objects
  symlinks : AL.NK db.symlinks
  iseq : ∀ e ∈ db.inodes, e.1 ≤ db.iseq
  cseq : ∀ e ∈ db.contents, e.1 ≤ db.cseq
  oseq : ∀ e ∈ db.objects, e.1 ≤ db.oseq
  nameUnique : ∀ e ∈ db.names, ∀ f ∈ db.names, e.2.text = f.2.text → e.2.name = f.2.name → e = f
  entryUnique : ∀ e ∈ db.contents, ∀ f ∈ db.contents, e.2.parent = f.2.parent → e.2.nameId = f.2.nameId → e = f
  blockUnique : ∀ e ∈ db.blocks, ∀ f ∈ db.blocks, e.2.inode = f.2.inode → e.2.blockno = f.2.blockno → e = f
  hashUnique : ∀ e ∈ db.objects, ∀ f ∈ db.objects, e.2.hash ≠ none → e.2.hash = f.2.hash → e = f

/-! #### Existence of rows -/

def HasInode (db : Db) (id : Nat) : Prop := ∃ i, (id, i) ∈ db.inodes
def HasName (db : Db) (id : Nat) : Prop := ∃ n, (id, n) ∈ db.names
def HasObj (db : Db) (id : Nat) : Prop := ∃ o, (id, o) ∈ db.objects

/-! #### Reference counts -/

/-- Number of directory entries of an inode. -/
def entriesTo (db : Db) (id : Nat) : Nat := db.contents.countP (fun e => e.2.inode = id)
/-- Number of directory entries and extended attributes with a name. -/
def usesOfName (db : Db) (nid : Nat) : Nat :=
  db.contents.countP (fun e => e.2.nameId = nid) + db.xattrs.countP (fun e => e.2.nameId = nid)
/-- Number of blocks stored in an object. -/
def usesOfObj (db : Db) (o : Nat) : Nat := db.blocks.countP (fun e => e.2.obj = o)

/-- The root directory and the control file have no directory entries. -/
def Plain (id : Nat) : Prop := id ≠ rootInode ∧ id ≠ ctrlInode

def InodeRefsExact (db : Db) : Prop := ∀ e ∈ db.inodes, Plain e.1 → e.2.refcount = (entriesTo db e.1 : Nat)
def NameRefsExact (db : Db) : Prop := ∀ e ∈ db.names, e.2.refcount = (usesOfName db e.1 : Nat)
def ObjRefsExact (db : Db) : Prop := ∀ e ∈ db.objects, e.2.refcount = (usesOfObj db e.1 : Nat)

/-! #### References -/

def EntriesHaveInode (db : Db) : Prop := ∀ e ∈ db.contents, HasInode db e.2.inode
def EntriesHaveParent (db : Db) : Prop := ∀ e ∈ db.contents, HasInode db e.2.parent
def EntriesHaveName (db : Db) : Prop := ∀ e ∈ db.contents, HasName db e.2.nameId
def BlocksHaveInode (db : Db) : Prop := ∀ e ∈ db.blocks, HasInode db e.2.inode
def BlocksHaveObj (db : Db) : Prop := ∀ e ∈ db.blocks, HasObj db e.2.obj
def XattrsHaveInode (db : Db) : Prop := ∀ e ∈ db.xattrs, HasInode db e.2.inode
def XattrsHaveName (db : Db) : Prop := ∀ e ∈ db.xattrs, HasName db e.2.nameId
def SymlinksHaveInode (db : Db) : Prop := ∀ e ∈ db.symlinks, HasInode db e.1
/-- Every object of the table is in the storage. -/
def ObjsStored (s : St) : Prop := ∀ e ∈ s.db.objects, ∃ d, (e.1, d) ∈ s.backend

/-! #### The tree -/

/-- `Reach db id`: there is a path from the root to the inode. -/
inductive Reach (db : Db) : Nat → Prop
  | root : Reach db rootInode
  | step {e : Nat × CRow} : e ∈ db.contents → Reach db e.2.parent → Reach db e.2.inode

/-- Every inode but the control file can be reached from the root. -/
def Connected (db : Db) : Prop := ∀ e ∈ db.inodes, e.1 ≠ ctrlInode → Reach db e.1

/-! #### A file system without errors -/

/-- The directory above an inode: the parent of its first entry. -/
def above (db : Db) (id : Nat) : Option Nat := (db.contents.find? (fun e => e.2.inode = id)).map (fun e => e.2.parent)

/-- The inode `n` steps above. -/
def climb (db : Db) : Nat → Nat → Option Nat
  | 0, id => some id
  | n + 1, id => (above db id).bind (climb db n)

/-- The root is in no directory, and from every directory with entries the root is fewer than `depth` steps away. -/
def TreeOk (db : Db) (depth : Nat) : Prop :=
  0 < depth ∧ (∀ e ∈ db.contents, e.2.inode ≠ rootInode) ∧
    ∀ e ∈ db.contents, ∃ n, n < depth ∧ climb db n e.2.parent = some rootInode

/-- There is a directory `lost+found` in the root directory. -/
def LofOk (db : Db) : Prop :=
  ∃ e ∈ db.contents, e.2.parent = rootInode ∧ (∃ r, (e.2.nameId, r) ∈ db.names ∧ r.text = false ∧ r.name = lofName) ∧
    ∃ i, (e.2.inode, i) ∈ db.inodes ∧ Fs.isDir i.mode = true

/-- Every file in the cache is a block that is stored with the same hash. -/
def CacheOk (cfg : Cfg) (s : St) : Prop :=
  ∀ f ∈ s.cache, ∃ id b data e o, f = CFile.blk id b data ∧ e ∈ s.db.blocks ∧ e.2.inode = id ∧ e.2.blockno = b ∧
    (e.2.obj, o) ∈ s.db.objects ∧ o.hash = some (cfg.sha data)

/-- The size of every inode covers its blocks. -/
def SizesOk (bs : Nat) (db : Db) : Prop :=
  ∀ e ∈ db.inodes, ∀ b ∈ db.blocks, b.2.inode = e.1 → ∀ o, (b.2.obj, o) ∈ db.objects → b.2.blockno * bs + o.length ≤ e.2.size

/-- The conditions on one inode: it has a type; symlinks and only symlinks have a target, of the size of the inode;
other things than regular files, symlinks and directories have size zero; only devices have a device number; only
directories have entries; only regular files have blocks. -/
structure UnixInode (db : Db) (id : Nat) (i : Inode) : Prop where
  typed : i.mode &&& Fs.sIFMT ≠ 0
  target : isLnk i.mode = true ↔ ∃ t, (id, t) ∈ db.symlinks
  length : isLnk i.mode = true → ∀ t, (id, t) ∈ db.symlinks → i.size = t.length
  empty : i.size ≠ 0 → Fs.isReg i.mode = true ∨ isLnk i.mode = true ∨ Fs.isDir i.mode = true
  device : i.rdev ≠ 0 → Fs.isBlk i.mode = true ∨ isChr i.mode = true
  children : ∀ e ∈ db.contents, e.2.parent = id → Fs.isDir i.mode = true
  blocks : ∀ e ∈ db.blocks, e.2.inode = id → Fs.isReg i.mode = true

/-- Types agree with the tables, and names have at most 255 bytes. -/
def UnixOk (db : Db) : Prop :=
  (∀ e ∈ db.inodes, UnixInode db e.1 e.2) ∧
    ∀ e ∈ db.contents, ∀ r, (e.2.nameId, r) ∈ db.names → r.name.length ≤ 255

/-- A file system without errors. -/
structure Clean (cfg : Cfg) (depth : Nat) (s : St) : Prop where
  lof : LofOk s.db
  nameRefs : NameRefsExact s.db
  entriesName : EntriesHaveName s.db
  entriesInode : EntriesHaveInode s.db
  entriesParent : EntriesHaveParent s.db
  temps : s.temps = 0
  hashes : ∀ e ∈ s.db.objects, e.2.hash ≠ none
  objRefs : ObjRefsExact s.db
  objUsed : ∀ e ∈ s.db.objects, usesOfObj s.db e.1 ≠ 0
  objStored : ObjsStored s
  noSpurious : ∀ e ∈ s.backend, HasObj s.db e.1
  phys : ∀ e ∈ s.db.objects, e.2.phys ≠ -1
  blocksObj : BlocksHaveObj s.db
  blocksInode : BlocksHaveInode s.db
  inodeRefs : InodeRefsExact s.db
  inodeUsed : ∀ e ∈ s.db.inodes, Plain e.1 → entriesTo s.db e.1 ≠ 0
  sizes : SizesOk cfg.blockSize s.db
  xattrsName : XattrsHaveName s.db
  xattrsInode : XattrsHaveInode s.db
  symlinks : SymlinksHaveInode s.db
  tree : TreeOk s.db depth
  unix : UnixOk s.db

end Verif.Fsck
