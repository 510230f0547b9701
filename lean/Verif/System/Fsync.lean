import Verif.System.Crashes
import Verif.Inode.Sync
/-
C98: what `fsync` returns for survives the death of the mount process.
-/
namespace Verif.System
open Verif.FileData (at0 at0_ge ext_at0)

/-! #### Model -/

/-- The mounted file system, and the sizes in the table `inodes` of the database. -/
structure Sy where
  fs : Fs
  db : Nat → Nat

inductive SEv where
  | ev (e : FEv)
  /-- the inode cache writes an inode to the database: it is evicted, or flushed by the background thread
  (inode_cache.py:212-231, 264-304, 320-347) -/
  | back (i : Nat)
  /-- `fsync` (fs.py:1372-1380) -/
  | fsync (i : Nat) (datasync : Bool)

/-- One event.  `flush_local` (block_cache.py:843-851) calls `flush` of a file that has no buffer (block_cache.py:86), which does nothing.
`flush_id` (inode_cache.py:264-266) writes the attributes of the inode, see `Inode.C98_row`. -/
def Sy.step (H : Bytes → Bytes) (s : Sy) : SEv → Option Sy
  | .ev e => (s.fs.step H e).map (fun f => { s with fs := f })
  | .back i => some { s with db := fun j => if j = i then s.fs.size i else s.db j }
  | .fsync i datasync => if datasync then some s else some { s with db := fun j => if j = i then s.fs.size i else s.db j }

def Sy.run (H : Bytes → Bytes) : Sy → List SEv → Option Sy
  | s, [] => some s
  | s, e :: es => (s.step H e).bind (fun s' => Sy.run H s' es)

/-! #### Specification -/

/-- The event does not begin to change file `i`. -/
def SEv.leaves (i : Nat) : SEv → Bool
  | .ev (.startWrite _ j _ _) => j ≠ i
  | .ev (.startTrunc _ j _) => j ≠ i
  | _ => true

/-! #### Proof -/

section
variable {cfg : Meta.Cfg} {H : Bytes → Bytes} {dec : Bytes → Option Tables}

theorem leaves_starts {i : Nat} {e : FEv} (h : SEv.leaves i (.ev e) = true) : startsChange i (.fs e []) = false := by
  cases e <;> simp_all [SEv.leaves, startsChange]

theorem run_quiet (hH : Function.Injective H) {i : Nat} : ∀ {es : List SEv} {s s' : Sy} {A : Nat → Bytes} {mem : Cache.Key → Bytes} {D : Nat → Bytes}, FInv H s.fs A mem D →
    Cache.NE H s.fs.c → (∀ e ∈ es, e.leaves i = true) → Sy.run H s es = some s' → s.fs.changing i = false → s.db i = s.fs.size i →
    ∃ A' mem' D', FInv H s'.fs A' mem' D' ∧ Cache.NE H s'.fs.c ∧ s'.fs.changing i = false ∧ s'.db i = s'.fs.size i ∧ A' i = A i ∧ s'.fs.bs = s.fs.bs
  | [], s, _, A, mem, D, h, hn, _, hr, hc, hd => by cases hr; exact ⟨A, mem, D, h, hn, hc, hd, rfl, rfl⟩
  | e :: es, s, s', A, mem, D, h, hn, hq, hr, hc, hd => by
    obtain ⟨s1, h1, h2⟩ := Option.bind_eq_some_iff.1 hr
    have hq' : ∀ e ∈ es, e.leaves i = true := fun e he => hq e (List.mem_cons_of_mem _ he)
    have hb : ∀ j : Nat, (if i = j then s.fs.size j else s.db i) = s.fs.size i := by
      intro j
      split
      · rename_i hj; rw [hj]
      · exact hd
    cases e with
    | ev e =>
      obtain ⟨f, h3, h4⟩ := Option.map_eq_some_iff.1 h1
      subst h4
      have hl := leaves_starts (hq _ List.mem_cons_self)
      obtain ⟨m1, D1, h5⟩ := h.step hH h3
      have hfree : AL.get s.fs.tasks (Fsck.maxKey s.fs.tasks + 1) = none := by
        cases hx : AL.get s.fs.tasks (Fsck.maxKey s.fs.tasks + 1) with
        | none => rfl
        | some y =>
          have := Fsck.le_maxKey (AL.get_some_mem hx)
          dsimp only at this
          omega
      obtain ⟨q1, q2, _⟩ := fs_quiet (t := Fsck.maxKey s.fs.tasks + 1) h h3 hc hl (fun x hx => by rw [hfree] at hx; cases hx)
      have hc' := unchanging h5.nk q1
      have hs : f.size i = s.fs.size i := by
        rw [(h5.rest i (changing_false hc')).1, (h.rest i (changing_false hc)).1, q2]
      obtain ⟨A', mem', D', g1, g2, g3, g4, g5, g6⟩ := run_quiet hH (s := ⟨f, s.db⟩) h5 (fs_ne hH h hn h3) hq' h2 hc' (hd.trans hs.symm)
      exact ⟨A', mem', D', g1, g2, g3, g4, g5.trans q2, g6.trans (step_bs h3)⟩
    | back j =>
      cases h1
      exact run_quiet hH (s := ⟨s.fs, fun x => if x = j then s.fs.size j else s.db x⟩) h hn hq' h2 hc (hb j)
    | fsync j ds =>
      cases ds with
      | true => cases h1; exact run_quiet hH h hn hq' h2 hc hd
      | false =>
        cases h1
        exact run_quiet hH (s := ⟨s.fs, fun x => if x = j then s.fs.size j else s.db x⟩) h hn hq' h2 hc (hb j)

/-! #### Theorems -/

/-- C98: `fsync` is called for a file that no request is changing.  From then on, as long as no request changes the file, the mount process may die at any moment at which nothing
that the file needs is missing in the storage; after fsck the file is exactly what it was when `fsync` was called.
The last hypothesis excludes empty cache files beyond the end, cf. `C76_exact_partial`.  What is missing is false of the code, see `C76_upload_lost`. -/
theorem C98_fsync_partial (hH : Function.Injective H) {bs m now : Nat} {f : Bytes} (hb : 0 < bs) (hf : dec f = some noTables) {evs : List Ev} {w : World}
    (hd : ∀ ev ∈ evs, Plain ev) (he : exec cfg H dec (mkfs cfg bs m now f) evs = some w) {i : Nat} (hc : w.fs.changing i = false)
    {db : Nat → Nat} {later : List SEv} (hl : ∀ e ∈ later, e.leaves i = true) {s : Sy} (hr : Sy.run H ⟨w.fs, db⟩ (.fsync i false :: later) = some s)
    {st st' : Fsck.St} (hm : Image s.fs st) (hrow : ∀ j z, (j, z) ∈ st.db.inodes → z.size = s.db j) (hino : Fsck.HasInode st.db i) (hst : Backed H s.fs i)
    (hin : ∀ b e, AL.get s.fs.c.cache (i, b) = some e → e.content = [] → b * w.fs.bs ≤ s.fs.size i)
    {fc : Fsck.Cfg} (hsha : fc.sha = H) (hbs : fc.blockSize = w.fs.bs) {depth : Nat} {ca : Fsck.CacheArg} (hca : ca ≠ .no) (hck : Fsck.Completed fc depth ca st st') :
    fileOf w.fs.bs st' i = some (contents cfg H dec (mkfs cfg bs m now f) evs (fun _ => []) i) := by
  obtain ⟨t0, m0, D0, h0⟩ := WInv.exec hH evs _ w _ _ _ _ (winv_mkfs cfg H m now hb hf) hd he
  have hne0 := exec_ne hH evs _ w _ _ _ _ (winv_mkfs cfg H m now hb hf) hd he (Cache.ne_init H)
  have hr' : Sy.run H ⟨w.fs, fun j => if j = i then w.fs.size i else db j⟩ later = some s := hr
  obtain ⟨A, mem, D, g1, hne, g3, g4, g5, g6⟩ := run_quiet (s := ⟨w.fs, fun j => if j = i then w.fs.size i else db j⟩) hH h0.fi hne0 hl hr' hc (if_pos rfl)
  have g6 : s.fs.bs = w.fs.bs := g6
  rw [← g5]
  rw [← g6] at hbs hin ⊢
  obtain ⟨z, hz⟩ := hino
  have hsz := hrow i z hz
  rw [g4] at hsz
  obtain ⟨data, h1, h2, h3, h4⟩ := crash_file hH g1 hm hsha hbs hst g3 hz hca hck
  have hi := g1.cache
  have hsize := (g1.rest i (changing_false g3)).1
  have hle := h4 z.size (Nat.le_refl _) (by
    intro b hb'
    by_cases hm0 : mem (i, b) = []
    · rw [hm0]
      cases hg : AL.get s.fs.c.cache (i, b) with
      | some e => rw [hsz]; exact hin b e hg (by rw [hi.cont _ _ hg]; exact hm0)
      | none =>
        rcases hb' with ⟨e, e1, e2, e3⟩ | ⟨d, hd'⟩
        · have hr := (hm.rows i b e.2.obj).2 ⟨e, e1, e2, e3, rfl⟩
          obtain ⟨ob, ho⟩ := hi.rowObj _ _ hr
          obtain ⟨_, hhash⟩ := (hst b).1 _ _ hg hr ho
          obtain ⟨x, hx⟩ := Option.ne_none_iff_exists'.1 hhash
          have habs := hi.absent _ hg
          rw [hr] at habs
          have habs : D e.2.obj = mem (i, b) := habs
          have h5 := hi.objHash _ _ _ ho hx
          rw [habs, hm0] at h5
          exact absurd h5 (hne.hash _ _ _ ho hx)
        · have := (hm.files i b d).1 hd'
          rw [hg] at this; cases this
    · rw [hsz]
      exact g1.extRest i (changing_false g3) b hm0)
  rw [h1]
  congr 1
  refine ext_at0 _ _ (by omega) (fun x _ => h3 x)

/-! #### Histories -/

set_option maxRecDepth 100000

theorem image_cache {s s' : Fs} {st : Fsck.St} (h : Image s st) (e : s'.c = s.c) : Image s' st :=
  ⟨by rw [e]; exact h.rows, by rw [e]; exact h.objs, h.lens, by rw [e]; exact h.backend, by rw [e]; exact h.files, h.names, h.schema⟩

theorem crash_rows (n : Nat) : ∀ j z, (j, z) ∈ (crashSt n).db.inodes → z.size = if j = 5 then n else 0 := by
  intro j z h
  have h : (j, z) ∈ Fsck.db0.inodes ++ [(5, Fsck.fileI 1 n)] := h
  rcases List.mem_append.1 h with h | h
  · have key : ∀ x ∈ Fsck.db0.inodes, x.1 ≠ 5 ∧ x.2.size = 0 := by decide +kernel
    have := key _ h
    rw [if_neg this.1]
    exact this.2
  · cases List.mem_singleton.1 h
    rfl

/-- After `fsync`, the file is read and the inodes are written. -/
def syncLater : List SEv := [.ev (.startRead 9 5 0 1), .back 5, .fsync 4 true]

/-- A history that meets the hypotheses of `C98_fsync_partial`: two blocks were written, one is only in the cache; `fsync` is called, a read begins, and the mount process dies. -/
example : ∃ (w : World) (s : Sy) (st' : Fsck.St), exec demoCfg id demoDec (mkfs demoCfg 2 0 1 [0]) crashEvs = some w ∧ (∀ ev ∈ crashEvs, Plain ev) ∧ w.fs.changing 5 = false ∧
    (∀ e ∈ syncLater, e.leaves 5 = true) ∧ Sy.run id ⟨w.fs, fun _ => 0⟩ (.fsync 5 false :: syncLater) = some s ∧ Image s.fs (crashSt 4) ∧
    (∀ j z, (j, z) ∈ (crashSt 4).db.inodes → z.size = s.db j) ∧ Fsck.HasInode (crashSt 4).db 5 ∧ Backed id s.fs 5 ∧
    (∀ b e, AL.get s.fs.c.cache (5, b) = some e → e.content = [] → b * w.fs.bs ≤ s.fs.size 5) ∧ crashFc.sha = id ∧ crashFc.blockSize = w.fs.bs ∧
    Fsck.Completed crashFc 20 .yes (crashSt 4) st' ∧ fileOf 2 st' 5 = some [0, 7, 8, 9] := by
  have hx : (exec demoCfg id demoDec (mkfs demoCfg 2 0 1 [0]) crashEvs).map (fun w => (w.fs.c.cache, w.fs.c.backend 1, w.fs.bs, w.fs.changing 5)) =
    some ([((5, 1), ⟨[8, 9], true, false⟩)], some [0, 7], 2, false) := by decide +kernel
  have hy : (exec demoCfg id demoDec (mkfs demoCfg 2 0 1 [0]) crashEvs).map (fun w => (w.fs.c.objs, w.fs.size 5, w.fs.busy 9)) = some ([(1, ⟨1, some [0, 7], true⟩)], 4, false) := by decide +kernel
  obtain ⟨w, he⟩ := exec_some hx
  rw [he] at hx hy
  simp only [Option.map_some, Option.some.injEq, Prod.mk.injEq] at hx hy
  obtain ⟨h1, h2, h3, h4⟩ := hx
  obtain ⟨h5, h6, h7⟩ := hy
  have hr : Sy.run id ⟨w.fs, fun _ => 0⟩ (.fsync 5 false :: syncLater) =
      some ⟨{ w.fs with tasks := AL.set w.fs.tasks 9 (.rd 5 0 1 (min (w.fs.size 5 - 0) 1) []) }, fun j => if j = 5 then w.fs.size 5 else if j = 5 then w.fs.size 5 else 0⟩ := by
    simp only [Sy.run, syncLater, Sy.step, Fs.step, h7, Option.bind_some, Option.map_some, Bool.false_eq_true, if_false, if_true]
    rfl
  have key : ∀ o ob, AL.get w.fs.c.objs o = some ob → w.fs.c.backend o ≠ none ∧ ob.hash ≠ none := by
    intro o ob ho
    rw [h5] at ho
    have : o = 1 ∧ ob = ⟨1, some [0, 7], true⟩ := by grind [AL.get]
    rw [this.1, this.2, h2]
    exact ⟨Option.some_ne_none _, Option.some_ne_none _⟩
  have hck : Fsck.Completed crashFc 20 .yes (crashSt 4) ((Fsck.check crashFc 20 .yes (crashSt 4)).getD (crashSt 4)) := by
    have : Fsck.check crashFc 20 .yes (crashSt 4) = some ((Fsck.check crashFc 20 .yes (crashSt 4)).getD (crashSt 4)) ∧ ((Fsck.check crashFc 20 .yes (crashSt 4)).getD (crashSt 4)).uncorr = false := by decide +kernel
    exact this
  refine ⟨w, _, _, he, plain_of (by decide +kernel), h4, by decide, hr, image_cache (crash_image 4 he (Fsck.schema_of (by decide +kernel))) rfl, ?_, ⟨Fsck.fileI 1 4, by decide +kernel⟩,
    fun b => ⟨fun o ob _ _ ho => key o ob ho, fun e _ o ob ho _ => (key o ob ho).1⟩, ?_, rfl, h3.symm, hck, by decide +kernel⟩
  · intro j z hz
    rw [crash_rows 4 j z hz]
    show _ = if j = 5 then w.fs.size 5 else if j = 5 then w.fs.size 5 else 0
    rw [h6]
    split
    · rfl
    · rfl
  · intro b e h hc
    have h : AL.get w.fs.c.cache (5, b) = some e := h
    rw [h1] at h
    match b with
    | 0 => simp [AL.get] at h
    | 1 =>
      have h : some (⟨[8, 9], true, false⟩ : Cache.Entry) = some e := h
      cases h; cases hc
    | n + 2 => simp [AL.get] at h

/-- The file is truncated to ten bytes, and `fdatasync` is called. -/
def dataSync : List SEv := [.fsync 5 false, .ev (.startTrunc 9 5 10), .ev (.go 9), .fsync 5 true]

/-- C98 is false of `fdatasync`: it does not write the size to the database.  A file is extended by a truncation and `fdatasync` succeeds; the mount process dies, with nothing under way and
nothing missing, and after fsck the file is as short as before. -/
theorem C98_fdatasync_lost : ∃ (w : World) (s : Sy) (st' : Fsck.St), exec demoCfg id demoDec (mkfs demoCfg 2 0 1 [0]) crashEvs = some w ∧ (∀ ev ∈ crashEvs, Plain ev) ∧
    Sy.run id ⟨w.fs, fun _ => 0⟩ dataSync = some s ∧ AL.get s.fs.tasks 9 = some (.trOk 5 10) ∧ s.fs.changing 5 = false ∧ s.fs.size 5 = 10 ∧ Image s.fs (crashSt 4) ∧
    (∀ j z, (j, z) ∈ (crashSt 4).db.inodes → z.size = s.db j) ∧ Backed id s.fs 5 ∧ Fsck.Completed crashFc 20 .yes (crashSt 4) st' ∧ fileOf 2 st' 5 = some [0, 7, 8, 9] := by
  have hx : (exec demoCfg id demoDec (mkfs demoCfg 2 0 1 [0]) crashEvs).map (fun w => (w.fs.c.backend 1, w.fs.bs, w.fs.changing 5)) = some (some [0, 7], 2, false) := by decide +kernel
  have hy : (exec demoCfg id demoDec (mkfs demoCfg 2 0 1 [0]) crashEvs).map (fun w => (w.fs.c.objs, w.fs.size 5, w.fs.busy 9)) = some ([(1, ⟨1, some [0, 7], true⟩)], 4, false) := by decide +kernel
  have hz : (exec demoCfg id demoDec (mkfs demoCfg 2 0 1 [0]) crashEvs).map (fun w => w.fs.tasks) = some [(0, .wrOk 5 1 [7, 8, 9])] := by decide +kernel
  obtain ⟨w, he⟩ := exec_some hx
  rw [he] at hx hy hz
  simp only [Option.map_some, Option.some.injEq, Prod.mk.injEq] at hx hy hz
  obtain ⟨h2, h3, h4⟩ := hx
  obtain ⟨h5, h6, h7⟩ := hy
  have hr : Sy.run id ⟨w.fs, fun _ => 0⟩ dataSync =
      some ⟨{ w.fs with sizes := AL.set w.fs.sizes 5 10, tasks := [(0, .wrOk 5 1 [7, 8, 9]), (9, .trOk 5 10)] }, fun j => if j = 5 then w.fs.size 5 else 0⟩ := by
    simp only [Sy.run, dataSync, Sy.step, Fs.step, h7, h4, Option.bind_some, Option.map_some, Bool.false_eq_true, if_false, if_true, Bool.or_false, goTask, hz, h3, h6]
    rfl
  have key : ∀ o ob, AL.get w.fs.c.objs o = some ob → w.fs.c.backend o ≠ none ∧ ob.hash ≠ none := by
    intro o ob ho
    rw [h5] at ho
    have : o = 1 ∧ ob = ⟨1, some [0, 7], true⟩ := by grind [AL.get]
    rw [this.1, this.2, h2]
    exact ⟨Option.some_ne_none _, Option.some_ne_none _⟩
  have hck : Fsck.Completed crashFc 20 .yes (crashSt 4) ((Fsck.check crashFc 20 .yes (crashSt 4)).getD (crashSt 4)) := by
    have : Fsck.check crashFc 20 .yes (crashSt 4) = some ((Fsck.check crashFc 20 .yes (crashSt 4)).getD (crashSt 4)) ∧ ((Fsck.check crashFc 20 .yes (crashSt 4)).getD (crashSt 4)).uncorr = false := by decide +kernel
    exact this
  refine ⟨w, _, _, he, plain_of (by decide +kernel), hr, rfl, rfl, ?_, image_cache (crash_image 4 he (Fsck.schema_of (by decide +kernel))) rfl, ?_,
    fun b => ⟨fun o ob _ _ ho => key o ob ho, fun e _ o ob ho _ => (key o ob ho).1⟩, hck, by decide +kernel⟩
  · show (AL.get (AL.set w.fs.sizes 5 10) 5).getD 0 = 10
    rw [AL.get_set_self]
    rfl
  · intro j z hz
    rw [crash_rows 4 j z hz]
    show _ = if j = 5 then w.fs.size 5 else 0
    rw [h6]

end
end Verif.System
