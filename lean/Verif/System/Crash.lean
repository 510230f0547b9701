import Verif.System.Extent
import Verif.Fsck.Crash
/-
C76: the mount process dies at any moment, and fsck.s3ql is run on the same computer.
-/
namespace Verif.System
open Verif.FileData (at0 at0_ge ext_at0)

/-! #### Specification -/

/-- The contents of file `i` that the database and the objects in the storage have: as many bytes as the size of the inode
says, from the blocks; what is in no block is zero. -/
def fileOf (bs : Nat) (s : Fsck.St) (i : Nat) : Option Bytes :=
  (AL.get s.db.inodes i).map (fun n => (List.range n.size).map (fun x => at0 (Fsck.blockData s i (x / bs)) (x % bs)))

/-- What fsck finds when the mount process with the file system `s` has died: the tables `inode_blocks` and `objects`
(changes are committed at once, block_cache.py:476-517), the objects in the storage, and in the cache directory one file for every
entry of the block cache (cache files are not buffered, block_cache.py:86), and perhaps files with the suffix `.tmp`.
The other tables are arbitrary; in particular the sizes of inodes may be older (inode_cache.py:283-297). -/
structure Image (s : Fs) (st : Fsck.St) : Prop where
  rows : ∀ i b o, AL.get s.c.rows (i, b) = some o ↔ ∃ e ∈ st.db.blocks, e.2.inode = i ∧ e.2.blockno = b ∧ e.2.obj = o
  objs : ∀ k, (AL.get st.db.objects k).map (·.hash) = (AL.get s.c.objs k).map (·.hash)
  lens : Fsck.LenOk st
  backend : ∀ k, AL.get st.backend k = s.c.backend k
  files : ∀ i b d, Fsck.CFile.blk i b d ∈ st.cache ↔ (AL.get s.c.cache (i, b)).map (·.content) = some d
  names : Fsck.CacheNames st.cache
  schema : Fsck.Schema st.db

/-- Nothing that file `i` needs is missing in the storage: every block that is not in the cache is stored under a hash, and every
object that has the hash of a block that is in the cache is stored. -/
def Backed (H : Bytes → Bytes) (s : Fs) (i : Nat) : Prop :=
  ∀ b, (∀ o ob, AL.get s.c.cache (i, b) = none → AL.get s.c.rows (i, b) = some o → AL.get s.c.objs o = some ob → s.c.backend o ≠ none ∧ ob.hash ≠ none) ∧
    ∀ e, AL.get s.c.cache (i, b) = some e → ∀ o ob, AL.get s.c.objs o = some ob → ob.hash = some (H e.content) → s.c.backend o ≠ none

/-! #### Proof -/

section
variable {cfg : Meta.Cfg} {H : Bytes → Bytes} {dec : Bytes → Option Tables}

theorem Image.hash {s : Fs} {st : Fsck.St} (hm : Image s st) {k : Nat} {o : Fsck.Obj} (h : (k, o) ∈ st.db.objects) :
    ∃ ob, AL.get s.c.objs k = some ob ∧ ob.hash = o.hash := by
  have := hm.objs k
  rw [AL.mem_get_some hm.schema.objects h] at this
  obtain ⟨ob, h1, h2⟩ := Option.map_eq_some_iff.1 this.symm
  exact ⟨ob, h1, h2⟩

theorem Image.obj {s : Fs} {st : Fsck.St} (hm : Image s st) {k : Nat} {ob : Cache.Obj} (h : AL.get s.c.objs k = some ob) :
    ∃ o, (k, o) ∈ st.db.objects ∧ o.hash = ob.hash := by
  have := hm.objs k
  rw [h] at this
  obtain ⟨o, h1, h2⟩ := Option.map_eq_some_iff.1 this
  exact ⟨o, AL.get_some_mem h1, h2⟩

theorem image_sound {s : Fs} {st : Fsck.St} {fc : Fsck.Cfg} {A : Nat → Bytes} {mem : Cache.Key → Bytes} {D : Nat → Bytes} {i : Nat}
    (hi : FInv H s A mem D) (hm : Image s st) (hsha : fc.sha = H) (hst : Backed H s i) :
    Fsck.Sound fc st i (fun b => mem (i, b)) := by
  have hc := hi.cache
  have full : ∀ o, s.c.backend o ≠ none → s.c.backend o = some (D o) := by
    intro o ho
    cases hb : s.c.backend o with
    | some d' => rw [(hc.backD _ _ hb).1]
    | none => exact absurd hb ho
  constructor
  · intro b d hd
    obtain ⟨e, he, hed⟩ := Option.map_eq_some_iff.1 ((hm.files i b d).1 hd)
    have hcont := hc.cont _ _ he
    refine ⟨by rw [← hed]; exact hcont, ?_⟩
    intro x hx hxh
    obtain ⟨ob, ho, hoh⟩ := hm.hash (k := x.1) (o := x.2) hx
    rw [hxh, hsha] at hoh
    have hD := hc.objHash _ _ _ ho hoh
    have hback := full x.1 ((hst b).2 e he _ _ ho (by rw [hed]; exact hoh))
    exact ⟨D x.1, by rw [hm.backend]; exact hback, by rw [hsha, ← hD]⟩
  · intro b hnc
    have hcn : AL.get s.c.cache (i, b) = none := by
      cases he : AL.get s.c.cache (i, b) with
      | none => rfl
      | some e => exact absurd ((hm.files i b e.content).2 (by rw [he]; rfl)) (hnc _)
    have habs := hc.absent _ hcn
    cases hr : AL.get s.c.rows (i, b) with
    | none =>
      rw [hr] at habs
      refine Or.inl ⟨?_, habs.symm⟩
      intro e he hei
      have := (hm.rows i b e.2.obj).2 ⟨e, he, hei.1, hei.2, rfl⟩
      rw [hr] at this; cases this
    | some o =>
      rw [hr] at habs
      have habs : D o = mem (i, b) := habs
      obtain ⟨ob, ho⟩ := hc.rowObj _ _ hr
      obtain ⟨hb, hne⟩ := (hst b).1 o ob hcn hr ho
      obtain ⟨h, hh⟩ := Option.ne_none_iff_exists'.1 hne
      have hD := hc.objHash _ _ _ ho hh
      obtain ⟨e, he, e1, e2, e3⟩ := (hm.rows i b o).1 hr
      obtain ⟨o', h1, h2⟩ := hm.obj ho
      refine Or.inr ⟨e, o', D o, he, e1, e2, by rw [e3]; exact h1, ?_, by rw [e3, hm.backend]; exact full o hb, by rw [hsha, habs]⟩
      rw [h2, hh, hD, hsha, habs]

theorem at0_range (f : Nat → UInt8) (n x : Nat) : at0 ((List.range n).map f) x = if x < n then f x else 0 := by
  unfold at0
  split
  · rename_i h; simp [h]
  · rename_i h; simp [h]

/-- The file after fsck. -/
theorem crash_file {s : Fs} {st st' : Fsck.St} {fc : Fsck.Cfg} {A : Nat → Bytes} {mem : Cache.Key → Bytes} {D : Nat → Bytes} {i : Nat}
    (hH : Function.Injective H) (hi : FInv H s A mem D) (hm : Image s st) (hsha : fc.sha = H) (hbs : fc.blockSize = s.bs) (hst : Backed H s i)
    (hc : s.changing i = false) {z : Fs.Inode} (hz : (i, z) ∈ st.db.inodes) {depth : Nat} {ca : Fsck.CacheArg} (hca : ca ≠ .no)
    (hck : Fsck.Completed fc depth ca st st') :
    ∃ data, fileOf s.bs st' i = some data ∧ z.size ≤ data.length ∧ (∀ x, at0 data x = at0 (A i) x) ∧
      ∀ n, z.size ≤ n → (∀ b, Fsck.HasBlock st i b → b * s.bs + (mem (i, b)).length ≤ n) → data.length ≤ n := by
  obtain ⟨hsz, hby⟩ := hi.rest i (changing_false hc)
  obtain ⟨h1, j, h2, h3, h4, h5⟩ := Fsck.sound_after hm.schema (by rw [hsha]; exact hH) hck hca hm.names hm.lens hz (image_sound hi hm hsha hst)
  refine ⟨(List.range j.size).map (fun x => at0 (Fsck.blockData st' i (x / s.bs)) (x % s.bs)), by unfold fileOf; rw [h2]; rfl, ?_, ?_, ?_⟩
  · rw [List.length_map, List.length_range]; exact h3.2.1
  · intro x
    rw [at0_range, ← hby x]
    unfold byte
    split
    · rw [h1]
    · rename_i hx
      symm
      apply at0_ge
      by_cases he : mem (i, x / s.bs) = []
      · rw [he]; exact Nat.zero_le _
      · have := h4 (x / s.bs) he
        rw [hbs] at this
        have hdm := Nat.div_add_mod x s.bs
        rw [Nat.mul_comm] at hdm
        omega
  · intro n hn hb
    rw [List.length_map, List.length_range]
    exact h5 n hn (by rw [hbs]; exact hb)

/-! #### Theorems -/

/-- C76, if nothing that the file needs is missing in the storage (`Backed`): after the mount process has died and fsck has completed,
the file has the contents that the successful writes and truncations before the crash gave it, except perhaps for zeros at the end;
and it is not shorter than the database said.  What is missing is false of the code, see `C76_upload_lost`. -/
theorem C76_contents_partial (hH : Function.Injective H) {bs m now : Nat} {f : Bytes} (hb : 0 < bs) (hf : dec f = some noTables) {evs : List Ev} {w : World}
    (hd : ∀ ev ∈ evs, Plain ev) (he : exec cfg H dec (mkfs cfg bs m now f) evs = some w)
    {i : Nat} (hc : w.fs.changing i = false) (hst : Backed H w.fs i)
    {st st' : Fsck.St} (hm : Image w.fs st) {z : Fs.Inode} (hz : (i, z) ∈ st.db.inodes)
    {fc : Fsck.Cfg} (hsha : fc.sha = H) (hbs : fc.blockSize = w.fs.bs) {depth : Nat} {ca : Fsck.CacheArg} (hca : ca ≠ .no)
    (hck : Fsck.Completed fc depth ca st st') :
    ∃ data, fileOf w.fs.bs st' i = some data ∧ z.size ≤ data.length ∧
      ∀ x, at0 data x = at0 (contents cfg H dec (mkfs cfg bs m now f) evs (fun _ => []) i) x := by
  obtain ⟨t0, m0, D0, h0⟩ := WInv.exec hH evs _ w _ _ _ _ (winv_mkfs cfg H m now hb hf) hd he
  obtain ⟨data, h1, h2, h3, _⟩ := crash_file hH h0.fi hm hsha hbs hst hc hz hca hck
  exact ⟨data, h1, h2, h3⟩

/-- C76: nothing is missing in the storage if no upload has failed and none is under way. -/
theorem C76_backed (hH : Function.Injective H) {bs m now : Nat} {f : Bytes} (hb : 0 < bs) (hf : dec f = some noTables) {evs : List Ev} {w : World}
    (hd : ∀ ev ∈ evs, Plain ev) (hu : ∀ ev ∈ evs, noUpFail ev = true) (he : exec cfg H dec (mkfs cfg bs m now f) evs = some w)
    (hi : w.fs.c.inflight = []) (i : Nat) : Backed H w.fs i := by
  obtain ⟨t0, m0, D0, h0⟩ := WInv.exec hH evs _ w _ _ _ _ (winv_mkfs cfg H m now hb hf) hd he
  have hn := exec_nf hH evs _ w _ _ _ _ (winv_mkfs cfg H m now hb hf) hd hu he Cache.nf_init
  have key : ∀ o ob, AL.get w.fs.c.objs o = some ob → w.fs.c.backend o ≠ none := by
    intro o ob ho
    rcases hn.up o ob ho with h | h
    · rw [h0.fi.cache.upl o ob ho h]; exact Option.some_ne_none _
    · rw [hi] at h; cases h
  intro b
  refine ⟨fun o ob _ _ ho => ⟨key o ob ho, ?_⟩, fun e _ o ob ho _ => key o ob ho⟩
  obtain ⟨h, hh⟩ := hn.hashed o ob ho
  rw [hh]; exact Option.some_ne_none _

/-- C76: … and the contents are exactly those if the size of the file had been written to the database,
unless a read of a hole beyond the end, which a truncation overtook, left an empty cache file. -/
theorem C76_exact_partial (hH : Function.Injective H) {bs m now : Nat} {f : Bytes} (hb : 0 < bs) (hf : dec f = some noTables) {evs : List Ev} {w : World}
    (hd : ∀ ev ∈ evs, Plain ev) (he : exec cfg H dec (mkfs cfg bs m now f) evs = some w)
    {i : Nat} (hc : w.fs.changing i = false) (hst : Backed H w.fs i)
    {st st' : Fsck.St} (hm : Image w.fs st) {z : Fs.Inode} (hz : (i, z) ∈ st.db.inodes)
    (hsz : z.size = (contents cfg H dec (mkfs cfg bs m now f) evs (fun _ => []) i).length)
    (hin : ∀ b e, AL.get w.fs.c.cache (i, b) = some e → e.content = [] → b * w.fs.bs ≤ z.size)
    {fc : Fsck.Cfg} (hsha : fc.sha = H) (hbs : fc.blockSize = w.fs.bs) {depth : Nat} {ca : Fsck.CacheArg} (hca : ca ≠ .no)
    (hck : Fsck.Completed fc depth ca st st') :
    fileOf w.fs.bs st' i = some (contents cfg H dec (mkfs cfg bs m now f) evs (fun _ => []) i) := by
  obtain ⟨t0, m0, D0, h0⟩ := WInv.exec hH evs _ w _ _ _ _ (winv_mkfs cfg H m now hb hf) hd he
  obtain ⟨data, h1, h2, h3, h4⟩ := crash_file hH h0.fi hm hsha hbs hst hc hz hca hck
  have hi := h0.fi.cache
  have hne := exec_ne hH evs _ w _ _ _ _ (winv_mkfs cfg H m now hb hf) hd he (Cache.ne_init H)
  have hsize := (h0.fi.rest i (changing_false hc)).1
  have hle := h4 z.size (Nat.le_refl _) (by
    intro b hb'
    by_cases hm0 : m0 (i, b) = []
    · rw [hm0]
      cases hg : AL.get w.fs.c.cache (i, b) with
      | some e => exact hin b e hg (by rw [hi.cont _ _ hg]; exact hm0)
      | none =>
        rcases hb' with ⟨e, e1, e2, e3⟩ | ⟨d, hd'⟩
        · have hr := (hm.rows i b e.2.obj).2 ⟨e, e1, e2, e3, rfl⟩
          obtain ⟨ob, ho⟩ := hi.rowObj _ _ hr
          obtain ⟨_, hhash⟩ := (hst b).1 _ _ hg hr ho
          obtain ⟨x, hx⟩ := Option.ne_none_iff_exists'.1 hhash
          have habs := hi.absent _ hg
          rw [hr] at habs
          have habs : D0 e.2.obj = m0 (i, b) := habs
          have h5 := hi.objHash _ _ _ ho hx
          rw [habs, hm0] at h5
          exact absurd h5 (hne.hash _ _ _ ho hx)
        · have := (hm.files i b d).1 hd'
          rw [hg] at this; cases this
    · rw [hsz, ← hsize]
      exact h0.fi.extRest i (changing_false hc) b hm0)
  rw [h1]
  congr 1
  refine ext_at0 _ _ (by omega) (fun x _ => h3 x)

/-! #### Histories that meet the hypotheses -/

/-- Two blocks were written; one was uploaded and evicted, the other is only in the cache when the mount process dies. -/
def crashEvs : List Ev := demoEvs.take 18 ++ [.fs (.cache (.evict (5, 0))) []]

/-- Two blocks were written; when the mount process dies, the first one is being uploaded. -/
def lostEvs : List Ev := demoEvs.take 16

/-- The files are in the root directory; the inodes were not written to the database since the first file was created. -/
def crashDb (size : Nat) : Fsck.Db :=
  { Fsck.db0 with inodes := Fsck.db0.inodes ++ [(5, Fsck.fileI 1 size)], iseq := 5, names := Fsck.db0.names ++ [(2, ⟨false, [97], 1⟩)], contents := Fsck.db0.contents ++ [(2, ⟨1, 2, 5⟩)], cseq := 2, blocks := [(1, ⟨5, 0, 1⟩)], objects := [(1, ⟨1, some [0, 7], 2, -1⟩)], oseq := 1 }

def crashSt (size : Nat) : Fsck.St := { Fsck.st0 with db := crashDb size, backend := [(1, [0, 7])], cache := [Fsck.CFile.tmp, Fsck.CFile.blk 5 1 [8, 9]] }

def lostSt : Fsck.St := { Fsck.st0 with db := crashDb 4, backend := [], cache := [Fsck.CFile.blk 5 0 [0, 7], Fsck.CFile.blk 5 1 [8, 9]] }

def crashFc : Fsck.Cfg := { Fsck.cfg0 with blockSize := 2 }

/-- How to see that `st` is what fsck finds after a history. -/
theorem image_of {evs : List Ev} {w : World} (hH : Function.Injective H) {bs m now : Nat} {f : Bytes} (hb : 0 < bs) (hf : dec f = some noTables)
    (hd : ∀ ev ∈ evs, Plain ev) (he : exec cfg H dec (mkfs cfg bs m now f) evs = some w) {st : Fsck.St}
    {rows : List (Cache.Key × Nat)} {objs : List (Nat × Cache.Obj)} {cache : List (Cache.Key × Cache.Entry)} {n : Nat}
    (hr : w.fs.c.rows = rows) (ho : w.fs.c.objs = objs) (hca : w.fs.c.cache = cache) (hn : w.fs.c.nextId = n)
    (hbk : ∀ k < n, AL.get st.backend k = w.fs.c.backend k) (hbn : ∀ k, n ≤ k → AL.get st.backend k = none)
    (hrows : ∀ i b o, AL.get rows (i, b) = some o ↔ ∃ e ∈ st.db.blocks, e.2.inode = i ∧ e.2.blockno = b ∧ e.2.obj = o)
    (hobjs : ∀ k, (AL.get st.db.objects k).map (·.hash) = (AL.get objs k).map (·.hash))
    (hl : Fsck.LenOk st) (hfiles : ∀ i b d, Fsck.CFile.blk i b d ∈ st.cache ↔ (AL.get cache (i, b)).map (·.content) = some d)
    (hnames : Fsck.CacheNames st.cache) (hs : Fsck.Schema st.db) : Image w.fs st := by
  obtain ⟨t0, m0, D0, h0⟩ := WInv.exec hH evs _ w _ _ _ _ (winv_mkfs cfg H m now hb hf) hd he
  subst hr ho hca hn
  refine ⟨hrows, hobjs, hl, ?_, hfiles, hnames, hs⟩
  intro k
  by_cases hk : k < w.fs.c.nextId
  · exact hbk k hk
  · rw [hbn k (by omega)]
    cases hx : w.fs.c.backend k with
    | none => rfl
    | some d => exact absurd (h0.fi.cache.backD _ _ hx).2 hk

/-- No fsck, no restore-metadata and no download. -/
def plainB : Ev → Bool
  | .proto (.dlEnd _) => false
  | .proto op => isProto op
  | _ => true

theorem plain_of {evs : List Ev} (h : evs.all plainB = true) : ∀ ev ∈ evs, Plain ev := by
  intro ev hev op hop
  have := List.all_eq_true.1 h ev hev
  subst hop
  constructor
  · cases op <;> first | rfl | (simp [plainB, isProto] at this)
  · intro order ho; subst ho; cases this

theorem inj_id : Function.Injective (id : Bytes → Bytes) := fun _ _ h => h

theorem crashRows {i b o : Nat} {size : Nat} :
    AL.get [((5, 0), 1)] (i, b) = some o ↔ ∃ e ∈ (crashDb size).blocks, e.2.inode = i ∧ e.2.blockno = b ∧ e.2.obj = o := by
  show _ ↔ ∃ e ∈ [((1, ⟨5, 0, 1⟩) : Nat × Fsck.BRow)], _
  simp only [AL.get, List.mem_singleton, exists_eq_left, Prod.mk.injEq]
  grind

set_option maxRecDepth 100000

/-- The first history: its image, … -/
theorem crash_image (size : Nat) {w : World} (he : exec demoCfg id demoDec (mkfs demoCfg 2 0 1 [0]) crashEvs = some w)
    (hs : Fsck.Schema (crashSt size).db) : Image w.fs (crashSt size) := by
  have hx : (exec demoCfg id demoDec (mkfs demoCfg 2 0 1 [0]) crashEvs).map (fun w => (w.fs.c.rows, w.fs.c.objs, w.fs.c.nextId)) =
    some ([((5, 0), 1)], [(1, ⟨1, some [0, 7], true⟩)], 2) := by decide +kernel
  have hy : (exec demoCfg id demoDec (mkfs demoCfg 2 0 1 [0]) crashEvs).map (fun w => (w.fs.c.cache, w.fs.c.backend 0, w.fs.c.backend 1)) =
    some ([((5, 1), ⟨[8, 9], true, false⟩)], none, some [0, 7]) := by decide +kernel
  rw [he] at hx hy
  simp only [Option.map_some, Option.some.injEq, Prod.mk.injEq] at hx hy
  obtain ⟨h1, h2, h4⟩ := hx
  obtain ⟨h3, h5, h6⟩ := hy
  refine image_of inj_id (by decide) rfl (plain_of (by decide +kernel)) he h1 h2 h3 h4 ?_ ?_ (fun _ _ _ => crashRows) ?_ ?_ ?_ ?_ hs
  · intro k hk
    match k, hk with
    | 0, _ => rw [h5]; rfl
    | 1, _ => rw [h6]; rfl
  · intro k hk
    show AL.get [(1, [0, 7])] k = none
    grind [AL.get]
  · intro k
    show (AL.get [((1, ⟨1, some [0, 7], 2, -1⟩) : Nat × Fsck.Obj)] k).map _ = _
    grind [AL.get]
  · intro k o d ho hd
    have ho : (k, o) ∈ [((1, ⟨1, some [0, 7], 2, -1⟩) : Nat × Fsck.Obj)] := ho
    have hd : AL.get [(1, [0, 7])] k = some d := hd
    grind [AL.get]
  · intro i b d
    show _ ∈ [Fsck.CFile.tmp, Fsck.CFile.blk 5 1 [8, 9]] ↔ _
    grind [AL.get]
  · unfold Fsck.CacheNames crashSt
    simp

theorem exec_some {α : Type} {x : Option World} {g : World → α} {a : α} (h : x.map g = some a) : ∃ w, x = some w := by
  cases x with
  | none => cases h
  | some w => exact ⟨w, rfl⟩

/-- … and the hypotheses of `C76_contents_partial` and `C76_backed` (the database has the old size 0) … -/
example : ∃ w, exec demoCfg id demoDec (mkfs demoCfg 2 0 1 [0]) crashEvs = some w ∧ (∀ ev ∈ crashEvs, Plain ev) ∧ (∀ ev ∈ crashEvs, noUpFail ev = true) ∧
    w.fs.c.inflight = [] ∧ w.fs.changing 5 = false ∧ Image w.fs (crashSt 0) ∧ (∃ z, (5, z) ∈ (crashSt 0).db.inodes ∧ z.size = 0) ∧ crashFc.sha = id ∧
    crashFc.blockSize = w.fs.bs ∧ ∃ st', Fsck.Completed crashFc 20 .yes (crashSt 0) st' ∧ fileOf 2 st' 5 = some [0, 7, 8, 9] := by
  have hx : (exec demoCfg id demoDec (mkfs demoCfg 2 0 1 [0]) crashEvs).map (fun w => (w.fs.c.inflight, w.fs.changing 5, w.fs.bs)) = some ([], false, 2) := by decide +kernel
  obtain ⟨w, he⟩ := exec_some hx
  have hx' := hx
  rw [he] at hx'
  simp only [Option.map_some, Option.some.injEq, Prod.mk.injEq] at hx'
  refine ⟨w, he, plain_of (by decide +kernel), by decide +kernel, hx'.1, hx'.2.1, crash_image 0 he (Fsck.schema_of (by decide +kernel)), ⟨Fsck.fileI 1 0, by decide +kernel, rfl⟩, rfl,
    hx'.2.2.symm, (Fsck.check crashFc 20 .yes (crashSt 0)).getD (crashSt 0), ?_, by decide +kernel⟩
  have : Fsck.check crashFc 20 .yes (crashSt 0) = some ((Fsck.check crashFc 20 .yes (crashSt 0)).getD (crashSt 0)) ∧ ((Fsck.check crashFc 20 .yes (crashSt 0)).getD (crashSt 0)).uncorr = false := by decide +kernel
  exact this

/-- … and those of `C76_exact_partial` (the database has the size). -/
example : ∃ w, exec demoCfg id demoDec (mkfs demoCfg 2 0 1 [0]) crashEvs = some w ∧ Image w.fs (crashSt 4) ∧ (∃ z, (5, z) ∈ (crashSt 4).db.inodes ∧
    z.size = (contents demoCfg id demoDec (mkfs demoCfg 2 0 1 [0]) crashEvs (fun _ => []) 5).length ∧ ∀ b e, AL.get w.fs.c.cache (5, b) = some e → e.content = [] → b * w.fs.bs ≤ z.size) ∧
    ∃ st', Fsck.Completed crashFc 20 .yes (crashSt 4) st' ∧ fileOf 2 st' 5 = some [0, 7, 8, 9] := by
  have hx : (exec demoCfg id demoDec (mkfs demoCfg 2 0 1 [0]) crashEvs).map (fun w => (w.fs.c.cache, w.fs.c.backend 1, w.fs.bs)) =
    some ([((5, 1), ⟨[8, 9], true, false⟩)], some [0, 7], 2) := by decide +kernel
  have hy : (exec demoCfg id demoDec (mkfs demoCfg 2 0 1 [0]) crashEvs).map (fun w => w.fs.c.rows) = some [((5, 0), 1)] := by decide +kernel
  obtain ⟨w, he⟩ := exec_some hx
  rw [he] at hx hy
  simp only [Option.map_some, Option.some.injEq, Prod.mk.injEq] at hx hy
  obtain ⟨h2, h3, h4⟩ := hx
  have h1 := hy
  refine ⟨w, he, crash_image 4 he (Fsck.schema_of (by decide +kernel)), ⟨Fsck.fileI 1 4, by decide +kernel, by decide +kernel, ?_⟩,
    (Fsck.check crashFc 20 .yes (crashSt 4)).getD (crashSt 4), ?_, by decide +kernel⟩
  · intro b e h he
    rw [h2] at h
    match b with
    | 0 => simp [AL.get] at h
    | 1 =>
      have h : some (⟨[8, 9], true, false⟩ : Cache.Entry) = some e := h
      cases h; cases he
    | n + 2 => simp [AL.get] at h
  · have : Fsck.check crashFc 20 .yes (crashSt 4) = some ((Fsck.check crashFc 20 .yes (crashSt 4)).getD (crashSt 4)) ∧ ((Fsck.check crashFc 20 .yes (crashSt 4)).getD (crashSt 4)).uncorr = false := by decide +kernel
    exact this

/-- C76 is false while a block is being uploaded: the row of the object already has the hash, so that fsck takes the block for stored
and removes the cache file; then it finds that the object is missing, and removes the row.  The bytes that were written are gone,
although the write succeeded, no upload failed, the cache file was complete and fsck reports that the file system is repaired. -/
theorem C76_upload_lost : ∃ (w : World) (st' : Fsck.St), exec demoCfg id demoDec (mkfs demoCfg 2 0 1 [0]) lostEvs = some w ∧ (∀ ev ∈ lostEvs, Plain ev) ∧
    (∀ ev ∈ lostEvs, noUpFail ev = true) ∧ w.fs.changing 5 = false ∧ Image w.fs lostSt ∧ Fsck.CFile.blk 5 0 [0, 7] ∈ lostSt.cache ∧ Fsck.Completed crashFc 20 .yes lostSt st' ∧
    contents demoCfg id demoDec (mkfs demoCfg 2 0 1 [0]) lostEvs (fun _ => []) 5 = [0, 7, 8, 9] ∧ fileOf 2 st' 5 = some [0, 0, 8, 9] ∧ st'.cache = [] := by
  have hx : (exec demoCfg id demoDec (mkfs demoCfg 2 0 1 [0]) lostEvs).map (fun w => (w.fs.c.rows, w.fs.c.objs, w.fs.c.nextId)) =
    some ([((5, 0), 1)], [(1, ⟨1, some [0, 7], false⟩)], 2) := by decide +kernel
  have hy : (exec demoCfg id demoDec (mkfs demoCfg 2 0 1 [0]) lostEvs).map (fun w => (w.fs.c.cache, w.fs.c.backend 0, w.fs.c.backend 1, w.fs.changing 5)) =
    some ([((5, 0), ⟨[0, 7], true, true⟩), ((5, 1), ⟨[8, 9], true, false⟩)], none, none, false) := by decide +kernel
  obtain ⟨w, he⟩ := exec_some hx
  rw [he] at hx hy
  simp only [Option.map_some, Option.some.injEq, Prod.mk.injEq] at hx hy
  obtain ⟨h1, h2, h4⟩ := hx
  obtain ⟨h3, h5, h6, h7⟩ := hy
  have hp : ∀ ev ∈ lostEvs, Plain ev := plain_of (by decide +kernel)
  refine ⟨w, (Fsck.check crashFc 20 .yes lostSt).getD lostSt, he, hp, by decide +kernel, h7, ?_, by decide +kernel, ?_, by decide +kernel, by decide +kernel, by decide +kernel⟩
  · refine image_of inj_id (by decide) rfl hp he h1 h2 h3 h4 ?_ ?_ (fun _ _ _ => crashRows) ?_ ?_ ?_ ?_ (Fsck.schema_of (by decide +kernel))
    · intro k hk
      match k, hk with
      | 0, _ => rw [h5]; rfl
      | 1, _ => rw [h6]; rfl
    · intro k hk; rfl
    · intro k
      show (AL.get [((1, ⟨1, some [0, 7], 2, -1⟩) : Nat × Fsck.Obj)] k).map _ = _
      grind [AL.get]
    · intro k o d ho hd
      cases hd
    · intro i b d
      show _ ∈ [Fsck.CFile.blk 5 0 [0, 7], Fsck.CFile.blk 5 1 [8, 9]] ↔ _
      grind [AL.get]
    · unfold Fsck.CacheNames lostSt
      simp
      grind
  · have : Fsck.check crashFc 20 .yes lostSt = some ((Fsck.check crashFc 20 .yes lostSt).getD lostSt) ∧ ((Fsck.check crashFc 20 .yes lostSt).getD lostSt).uncorr = false := by decide +kernel
    exact this

end
end Verif.System
