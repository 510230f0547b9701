import Verif.System.Crash
import Verif.Fsck.FromFsCases
/-
C66: what uploading establishes, from the model of the whole system: after a clean unmount exactly the objects of the
table are stored, with hashes and sizes, and no block extends beyond the end of its file.
-/
namespace Verif.System
open Verif.Fs (KHist)

/-- The column `phys_size` of the table `objects` is -1 until the object is uploaded (block_cache.py:380-384), and the inodes have been
written to the database (inode_cache.py:263-281). -/
structure Flushed (s : Fs) (st : Fsck.St) : Prop where
  phys : ∀ k o ob, (k, o) ∈ st.db.objects → AL.get s.c.objs k = some ob → ob.uploaded = true → o.phys ≠ -1
  sizes : ∀ i z, (i, z) ∈ st.db.inodes → (∃ e ∈ st.db.blocks, e.2.inode = i) → z.size = s.size i
  temps : st.temps = 0
  keys : AL.NK st.backend

section
variable {cfg : Meta.Cfg} {H : Bytes → Bytes} {dec : Bytes → Option Tables}

/-- C66: the condition `Uploaded` of `C66_fsck_after_unmount_partial` holds when the mount ends, unless an upload failed. -/
theorem C66_uploaded (hH : Function.Injective H) {bs m now : Nat} {f : Bytes} (hb : 0 < bs) (hf : dec f = some noTables) {evs : List Ev} {w : World}
    (hd : ∀ ev ∈ evs, Plain ev) (hu : ∀ ev ∈ evs, noUpFail ev = true) (he : exec cfg H dec (mkfs cfg bs m now f) evs = some w)
    {keep : Bool} (hidle : w.fs.idle keep = true) {st : Fsck.St} (hm : Image w.fs st) (hfl : Flushed w.fs st) {fc : Fsck.Cfg} (hbs : fc.blockSize = w.fs.bs) :
    Fsck.Uploaded fc st := by
  obtain ⟨t0, m0, D0, h0⟩ := WInv.exec hH evs _ w _ _ _ _ (winv_mkfs cfg H m now hb hf) hd he
  have hn := exec_nf hH evs _ w _ _ _ _ (winv_mkfs cfg H m now hb hf) hd hu he Cache.nf_init
  have hne := exec_ne hH evs _ w _ _ _ _ (winv_mkfs cfg H m now hb hf) hd he (Cache.ne_init H)
  have hi := h0.fi.cache
  obtain ⟨i1, i2, i3, i4, i5, i6⟩ := idle_parts hidle
  have hup : ∀ o ob, AL.get w.fs.c.objs o = some ob → ob.uploaded = true := by
    intro o ob ho
    rcases hn.up o ob ho with h | h
    · exact h
    · rw [i3] at h; cases h
  refine ⟨hfl.temps, ?_, ?_, ?_, ?_, ?_⟩
  · intro e he'
    obtain ⟨ob, h1, h2⟩ := hm.hash (k := e.1) (o := e.2) he'
    obtain ⟨x, hx⟩ := hn.hashed _ _ h1
    rw [← h2, hx]; exact Option.some_ne_none _
  · intro e he'
    obtain ⟨ob, h1, _⟩ := hm.hash (k := e.1) (o := e.2) he'
    exact hfl.phys e.1 e.2 ob he' h1 (hup _ _ h1)
  · intro e he'
    obtain ⟨ob, h1, _⟩ := hm.hash (k := e.1) (o := e.2) he'
    refine ⟨D0 e.1, AL.get_some_mem ?_⟩
    rw [hm.backend]; exact hi.upl _ _ h1 (hup _ _ h1)
  · intro e he'
    have hg := AL.mem_get_some hfl.keys (k := e.1) (v := e.2) he'
    rw [hm.backend] at hg
    rcases hn.bk _ _ hg with ⟨ob, h1⟩ | h1
    · obtain ⟨o, h2, _⟩ := hm.obj h1
      exact ⟨o, h2⟩
    · rw [i6] at h1; cases h1
  · intro e he' b hb' hbe o ho
    have hsz := hfl.sizes e.1 e.2 he' ⟨b, hb', hbe⟩
    have hr := (hm.rows b.2.inode b.2.blockno b.2.obj).2 ⟨b, hb', rfl, rfl, rfl⟩
    obtain ⟨ob, h1, h2⟩ := hm.hash ho
    have hbk := hi.upl _ _ h1 (hup _ _ h1)
    have hlen := hm.lens _ _ _ ho (by rw [hm.backend]; exact hbk)
    have hmem : D0 b.2.obj = m0 (b.2.inode, b.2.blockno) := by
      cases hg : AL.get w.fs.c.cache (b.2.inode, b.2.blockno) with
      | none => have := hi.absent _ hg; rw [hr] at this; exact this
      | some x => have := hi.clean _ x hg (i2 _ (AL.get_some_mem hg)); rw [hr] at this; exact this
    have hnon : m0 (b.2.inode, b.2.blockno) ≠ [] := by
      obtain ⟨x, hx⟩ := hn.hashed _ _ h1
      have h3 := hi.objHash _ _ _ h1 hx
      intro h4
      rw [hmem, h4] at h3
      exact hne.hash _ _ _ h1 hx h3
    have := h0.fi.extRest b.2.inode (fun t x hx => not_running (i1 (t, x) (AL.get_some_mem hx)) _) b.2.blockno hnon
    rw [hbs, hlen, hmem, hsz, ← hbe]
    exact this

/-- C66 without assumptions about what is stored: the tables belong to a history of requests (`g`, the model of all requests) and a
history of the whole system (`w`, the model of contents, cache and uploads), which has ended. -/
theorem C66_system_partial (hH : Function.Injective H) {bs m now : Nat} {f : Bytes} (hb : 0 < bs) (hf : dec f = some noTables) {evs : List Ev} {w : World}
    (hd : ∀ ev ∈ evs, Plain ev) (hu : ∀ ev ∈ evs, noUpFail ev = true) (he : exec cfg H dec (mkfs cfg bs m now f) evs = some w)
    {keep : Bool} (hidle : w.fs.idle keep = true) {st : Fsck.St} (hm : Image w.fs st) (hfl : Flushed w.fs st) {fc : Fsck.Cfg} (hbs : fc.blockSize = w.fs.bs)
    {fail : Bool} {g : Verif.Fs.St} {K : Nat → Int} {depth : Nat} (hh : KHist false fail g K) (ht : Fsck.SameTables (Verif.Fs.remount g).2.db st.db) (hl : Fsck.ListingExact fc)
    (h0 : st.found = false) (hul : st.unlinked = []) (hus : Fsck.Usual depth (Verif.Fs.remount g).2) :
    ∃ s', Fsck.check fc depth .no st = some s' ∧ s'.found = false ∧ s'.db = st.db ∧ s'.backend = st.backend :=
  Fsck.C66_fsck_after_unmount_partial hh ht hm.schema hl (C66_uploaded hH hb hf hd hu he hidle hm hfl hbs) (fun h => absurd rfl h) h0 hul hus

/-! #### A history that meets the hypotheses -/

/-- The requests of the history `demoEvs`: two files are created, and three bytes written at offset 1 of the second one. -/
def unmountOps : List Verif.Fs.Op := [.mknod 1 [97] 0o100644 0 7 7 10, .mknod 1 [98] 0o100644 0 7 7 11, .write 5 1 3 false 12, .upload 5 0 1, .upload 5 1 2]

def unmountG : Verif.Fs.St := Verif.Fs.run (Verif.Fs.init 1000 100 5 2) unmountOps

/-- The tables, with hashes, lengths and sizes of objects. -/
def unmountDb : Fsck.Db := { Fsck.tables (Verif.Fs.remount unmountG).2.db with objects := [(1, ⟨1, some [0, 7], 2, 2⟩), (2, ⟨1, some [8, 9], 2, 2⟩)] }

def unmountSt : Fsck.St := { Fsck.st0 with db := unmountDb, backend := [(1, [0, 7]), (2, [8, 9])] }

set_option maxRecDepth 100000

theorem unmount_khist : KHist false false unmountG (Verif.Fs.runK (Verif.Fs.init 1000 100 5 2) Verif.Fs.k0 unmountOps) :=
  KHist.run unmountOps (KHist.init 1000 100 5 2 (by decide)) (by decide +kernel) (by decide +kernel)

theorem unmount_same : Fsck.SameTables (Verif.Fs.remount unmountG).2.db unmountSt.db := by
  have h := Fsck.tables_same (Verif.Fs.remount unmountG).2.db
  refine ⟨h.inodes, h.names, h.blob, h.contents, h.xattrs, h.symlinks, h.blocks, .of_eq (by decide +kernel)⟩

example : ∃ w s', exec demoCfg id demoDec (mkfs demoCfg 2 0 1 [0]) (demoEvs.take 34) = some w ∧ w.fs.idle false = true ∧ Image w.fs unmountSt ∧ Flushed w.fs unmountSt ∧
    Fsck.Usual 20 (Verif.Fs.remount unmountG).2 ∧ Fsck.check crashFc 20 .no unmountSt = some s' ∧ s'.found = false := by
  have hx : (exec demoCfg id demoDec (mkfs demoCfg 2 0 1 [0]) (demoEvs.take 34)).map (fun w => (w.fs.c.rows, w.fs.c.objs, w.fs.c.nextId)) =
    some ([((5, 0), 1), ((5, 1), 2)], [(1, ⟨1, some [0, 7], true⟩), (2, ⟨1, some [8, 9], true⟩)], 3) := by decide +kernel
  have hy : (exec demoCfg id demoDec (mkfs demoCfg 2 0 1 [0]) (demoEvs.take 34)).map (fun w => (w.fs.c.cache, w.fs.c.backend 0, w.fs.c.backend 1)) =
    some ([], none, some [0, 7]) := by decide +kernel
  have hz : (exec demoCfg id demoDec (mkfs demoCfg 2 0 1 [0]) (demoEvs.take 34)).map (fun w => (w.fs.c.backend 2, w.fs.idle false, w.fs.size 5)) =
    some (some [8, 9], true, 4) := by decide +kernel
  have hv : (exec demoCfg id demoDec (mkfs demoCfg 2 0 1 [0]) (demoEvs.take 34)).map (fun w => w.fs.bs) = some 2 := by decide +kernel
  obtain ⟨w, he⟩ := exec_some hx
  rw [he] at hx hy hz hv
  simp only [Option.map_some, Option.some.injEq, Prod.mk.injEq] at hx hy hz hv
  obtain ⟨h1, h2, h4⟩ := hx
  obtain ⟨h3, h5, h6⟩ := hy
  obtain ⟨h7, h8, h9⟩ := hz
  have hp : ∀ ev ∈ demoEvs.take 34, Plain ev := plain_of (by decide +kernel)
  have hbl : unmountSt.db.blocks = [(1, ⟨5, 0, 1⟩), (2, ⟨5, 1, 2⟩)] := by decide +kernel
  have hob : unmountSt.db.objects = [(1, ⟨1, some [0, 7], 2, 2⟩), (2, ⟨1, some [8, 9], 2, 2⟩)] := rfl
  have hbk : unmountSt.backend = [(1, [0, 7]), (2, [8, 9])] := rfl
  have hsc : Fsck.Schema unmountSt.db := Fsck.schema_of (by decide +kernel)
  have hus : Fsck.Usual 20 (Verif.Fs.remount unmountG).2 :=
    Fsck.usual_of (KHist.remount unmount_khist).shape.1 (fun i => if i = 1 then 0 else 1) ⟨3, by decide +kernel, by decide +kernel⟩ (by decide +kernel) (by decide +kernel)
  have hm : Image w.fs unmountSt := by
    refine image_of inj_id (by decide) rfl hp he h1 h2 h3 h4 ?_ ?_ ?_ ?_ ?_ ?_ ?_ hsc
    · intro k hk
      match k, hk with
      | 0, _ => rw [h5]; rfl
      | 1, _ => rw [h6]; rfl
      | 2, _ => rw [h7]; rfl
    · intro k hk
      rw [hbk]; grind [AL.get]
    · intro i b o
      rw [hbl]; simp only [AL.get, List.mem_cons, List.not_mem_nil, or_false, exists_eq_or_imp, exists_eq_left, Prod.mk.injEq]; grind
    · intro k
      rw [hob]; grind [AL.get]
    · intro k o d ho hd
      rw [hob] at ho; rw [hbk] at hd
      grind [AL.get]
    · intro i b d
      show _ ∈ [] ↔ _
      simp [AL.get]
    · exact List.Pairwise.nil
  have hfl : Flushed w.fs unmountSt := by
    refine ⟨?_, ?_, rfl, by unfold AL.NK; decide +kernel⟩
    · intro k o ob ho _ _
      rw [hob] at ho
      grind
    · intro i z hi hb
      rw [hbl] at hb
      have hi5 : i = 5 := by grind
      subst hi5
      have : ∀ e ∈ unmountSt.db.inodes, e.1 = 5 → e.2.size = 4 := by decide +kernel
      rw [h9]; exact this _ hi rfl
  obtain ⟨s', hs1, hs2, _⟩ := C66_system_partial (fc := crashFc) (keep := false) inj_id (by decide) rfl hp (by decide +kernel) he h8 hm hfl hv.symm unmount_khist unmount_same
    (fun b o => Fsck.cfg0_listing b o) rfl rfl hus
  exact ⟨w, s', he, h8, hm, hfl, hus, hs1, hs2⟩

end
end Verif.System
