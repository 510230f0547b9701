/-
Any number of `copy_tree` commands at once (fs.py:504-638), with other requests in between: definitions, and the invariant of
such histories.
-/
import Verif.Fs.TreeMix2
import Verif.Fs.Frame
import Verif.Fs.Seq

namespace Verif.Fs

/-! #### Histories -/

/-- A `copy_tree(src, tgt)` with its temporary inode (fs.py:535-538) and where it is. -/
structure Job where
  src : Nat
  tgt : Nat
  tmp : Nat
  pc : CpPc

/-- One piece of `copy_tree` (fs.py:546-638), as in `copyStep` and `Copying`.  The uploads of blocks of open files (fs.py:561-562)
are requests (`upload`) of their own. -/
inductive JobStep (tgt tmp : Nat) : St → CpPc → St → CpPc → Prop
  /-- The next directory (fs.py:547). -/
  | pop {s : St} {t : Nat × Nat × Nat} {q : List (Nat × Nat × Nat)} {cache : List (Nat × Nat)} :
      JobStep tgt tmp s (.walk ⟨none, t :: q, cache⟩) s (.walk ⟨some t, q, cache⟩)
  /-- The next row of the query (fs.py:557-559). -/
  | read {s : St} {sd dd lo k id : Nat} {q : List (Nat × Nat × Nat)} {cache : List (Nat × Nat)} : s.db.nextRow sd lo = some (k, id) →
      JobStep tgt tmp s (.walk ⟨some (sd, dd, lo), q, cache⟩) s (.row ⟨none, q, cache⟩ sd dd k id)
  /-- The query has no more rows. -/
  | over {s : St} {sd dd lo : Nat} {q : List (Nat × Nat × Nat)} {cache : List (Nat × Nat)} : s.db.nextRow sd lo = none →
      JobStep tgt tmp s (.walk ⟨some (sd, dd, lo), q, cache⟩) s (.walk ⟨none, q, cache⟩)
  /-- The row is handled (fs.py:564-624). -/
  | handle {s s1 : St} {sd dd k id new : Nat} {w : CpWalk} {q : List (Nat × Nat × Nat)} {cache : List (Nat × Nat)} {db : Db} (brk : Bool) :
      copyRow s w id = some (s1, new, q, cache) → s1.db.addCopy dd k new = some db →
      JobStep tgt tmp s (.row w sd dd k id) { s1 with db := db }
        (.walk (if brk then ⟨none, (sd, dd, k + 1) :: q, cache⟩ else ⟨some (sd, dd, k + 1), q, cache⟩))
  /-- The inode is gone (`KeyError`, fs.py:567, 612). -/
  | noInode {s : St} {sd dd k id : Nat} {w : CpWalk} : copyRow s w id = none → JobStep tgt tmp s (.row w sd dd k id) s .crashed
  /-- The copy has an entry of this name already (violation of the uniqueness, fs.py:615). -/
  | dup {s s1 : St} {sd dd k id new : Nat} {w : CpWalk} {q : List (Nat × Nat × Nat)} {cache : List (Nat × Nat)} :
      copyRow s w id = some (s1, new, q, cache) → s1.db.addCopy dd k new = none → JobStep tgt tmp s (.row w sd dd k id) s1 .crashed
  | finish {s s' : St} {cache : List (Nat × Nat)} : copyEnd s tgt tmp = some s' → JobStep tgt tmp s (.walk ⟨none, [], cache⟩) s' .done
  | clash {s : St} {cache : List (Nat × Nat)} : copyEnd s tgt tmp = none → JobStep tgt tmp s (.walk ⟨none, [], cache⟩) s .crashed

/-- The temporary inodes: those of the commands that have not come to their end. -/
def Running (J : List Job) (t : Nat) : Prop := ∃ j ∈ J, j.tmp = t ∧ j.pc ≠ .done

/-- The inode is in a copy that is not finished. -/
def InCopy (s : St) (J : List Job) (i : Nat) : Prop := ∃ t, Running J t ∧ Below s t i

/-- What is assumed of the requests that come in between: when a row is handled, the directory still has an entry with the
name that was read, and at the end the target is not deleted.  (Without these, see `cptree_stale_name` and
`cptree_target_removed`.) -/
def Undisturbed (s : St) (tgt : Nat) (pc pc' : CpPc) : Prop :=
  (∀ w sd dd k id, pc = .row w sd dd k id → ∃ e ∈ s.db.contents, e.1 = (sd, k)) ∧ (pc' = .done → Linked s tgt)

/-- One event: a piece of a `copy_tree`, a request, the locking of an inode or the removal of an entry by another tree
command.  The arguments of tree commands and the blocks that are uploaded are not in an unfinished copy.  The file system is
unmounted only when all copies are complete. -/
inductive MixStep (repl fail : Bool) : St → (Nat → Int) → List Job → St → (Nat → Int) → List Job → Prop
  | start {s s' : St} {K : Nat → Int} {J : List Job} {src tgt : Nat} {now : Int} {w : CpWalk} : ¬InCopy s J tgt →
      copyStart s src tgt now = .ok (s', w) → MixStep repl fail s K J s' K (⟨src, tgt, s.db.seq + 1, .walk w⟩ :: J)
  | work {s s' : St} {K : Nat → Int} {J1 J2 : List Job} {src tgt tmp : Nat} {pc pc' : CpPc} : JobStep tgt tmp s pc s' pc' →
      Undisturbed s tgt pc pc' → MixStep repl fail s K (J1 ++ ⟨src, tgt, tmp, pc⟩ :: J2) s' K (J1 ++ ⟨src, tgt, tmp, pc'⟩ :: J2)
  | step {s : St} {K : Nat → Int} {J : List Job} (op : Op) : Req K s op → Handled s op →
      (repl = false → ¬Replaces s op) → (fail = false → looksUp op → ∃ r, (Fs.step s op).1 = .ok r) → (∀ i b o, op = .upload i b o → ¬InCopy s J i) →
      MixStep repl fail s K J (Fs.step s op).2 (fun i => K i + kernelDelta op (Fs.step s op).1 i) J
  | lock {s s' : St} {K : Nat → Int} {J : List Job} (id : Nat) : ¬InCopy s J id → lockInode s id = some s' → MixStep repl fail s K J s' K J
  | rmrow {s s' : St} {K : Nat → Int} {J : List Job} {p id : Nat} {n : Bytes} {now : Int} {res : Except Err Unit} : ¬InCopy s J p →
      n ≠ ctrlName → seenEntry s p n = some id → remove s p n id true now = (res, s') → MixStep repl fail s K J s' K J
  | remount {s : St} {K : Nat → Int} {J : List Job} : (∀ j ∈ J, j.pc = .done) →
      MixStep repl fail s K J (Fs.remount s).2 (fun i => if i = rootInode then 1 else 0) J

/-- Histories with any number of `copy_tree` commands in progress. -/
inductive Mixed (repl fail : Bool) : St → (Nat → Int) → List Job → Prop
  | init {s : St} {K : Nat → Int} : Hist repl fail s K → Mixed repl fail s K []
  | next {s s' : St} {K K' : Nat → Int} {J J' : List Job} : Mixed repl fail s K J → MixStep repl fail s K J s' K' J' → Mixed repl fail s' K' J'

/-! #### The invariant -/

/-- Below, in terms of rows. -/
inductive RB (db : Db) (a : Nat) : Nat → Prop
  | refl : RB db a a
  | row {b c k : Nat} : RB db a b → AL.get db.contents (b, k) = some c → RB db a c

/-- `H` is what is below the temporary inode `t`: not open, and with no entries from outside. -/
structure Hidden (s : St) (t : Nat) (H : Nat → Prop) : Prop where
  top : H t
  opn : ∀ i, H i → AL.get s.opened i = none
  ex : ∀ i, H i → AL.get s.db.inodes i ≠ none
  out : ∀ p k c, H p → AL.get s.db.contents (p, k) = some c → H c
  into : NoInto H s.db
  reach : ∀ i, H i → RB s.db t i
  ctrl : ¬H ctrlInode
  xat : ∀ k, AL.get s.db.xattrs (t, k) = none
  sym : AL.get s.db.symlinks t = none
  blk : ∀ b, AL.get s.db.blocks (t, b) = none

/-- The directories that are still to be worked on. -/
def CpPc.work : CpPc → List (Nat × Nat × Nat)
  | .walk w => w.cur.toList ++ w.queue
  | .row w sd dd k _ => (sd, dd, k) :: w.queue
  | _ => []

def CpPc.cache : CpPc → List (Nat × Nat)
  | .walk w => w.cache
  | .row w _ _ _ _ => w.cache
  | _ => []

structure JobOk (s : St) (H : Nat → Prop) (tmp : Nat) (pc : CpPc) : Prop where
  cache : ∀ i x, AL.get pc.cache i = some x → H x ∧ x ≠ tmp
  work : ∀ sd dd lo, (sd, dd, lo) ∈ pc.work → H dd ∧ ∀ k, lo ≤ k → AL.get s.db.contents (dd, k) = none
  wnd : (pc.work.map (·.2.1)).Nodup

structure JobsInv (repl fail : Bool) (s : St) (K : Nat → Int) (J : List Job) (L : Nat → Int) (H : Nat → Nat → Prop) : Prop where
  inv : Inv (Running J) L s
  res : Res s
  exact : repl = false → L = fun _ => 0
  le : ∀ i, K i ≤ s.cnt i
  eq : fail = false → ∀ i, K i = s.cnt i
  hid : ∀ t, Running J t → Hidden s t (H t)
  disj : ∀ t t', Running J t → Running J t' → ∀ i, H t i → H t' i → t = t'
  nodup : (J.map (·.tmp)).Nodup
  seq : ∀ j ∈ J, j.tmp ≤ s.db.seq ∧ j.tgt ≤ s.db.seq
  tgt : ∀ j ∈ J, ∀ t, Running J t → ¬H t j.tgt
  jobs : ∀ j ∈ J, JobOk s (H j.tmp) j.tmp j.pc

/-! #### Requests -/

theorem Hidden.frame {s s' : St} {t : Nat} {H : Nat → Prop} (h : Hidden s t H) (hf : Fr H s s') : Hidden s' t H := by
  refine ⟨h.top, fun i hi => by rw [hf.opn i hi]; exact h.opn i hi, fun i hi => by rw [hf.db.ino i hi]; exact h.ex i hi, fun p k c hp hc => ?_,
    hf.db.inc h.into, fun i hi => ?_, h.ctrl, fun k => by rw [hf.db.xat t k h.top]; exact h.xat k, by rw [hf.db.sym t h.top]; exact h.sym,
    fun b => by rw [hf.db.blk t b h.top]; exact h.blk b⟩
  · rw [hf.db.con p k hp] at hc; exact h.out p k c hp hc
  · have := h.reach i hi
    clear hi
    have key : RB s'.db t i ∧ H i := by
      induction this with
      | refl => exact ⟨.refl, h.top⟩
      | @row b c k _ hc ih => exact ⟨.row ih.1 (by rw [hf.db.con b k ih.2]; exact hc), h.out _ _ _ ih.2 hc⟩
    exact key.1

theorem JobOk.frame {s s' : St} {H : Nat → Prop} {tmp : Nat} {pc : CpPc} (h : JobOk s H tmp pc) (hf : Fr H s s') : JobOk s' H tmp pc :=
  ⟨h.cache, fun sd dd lo hm => ⟨(h.work sd dd lo hm).1, fun k hk => by rw [hf.db.con dd k (h.work sd dd lo hm).1]; exact (h.work sd dd lo hm).2 k hk⟩, h.wnd⟩

theorem Hidden.apart {s : St} {t : Nat} {H : Nat → Prop} {T : Nat → Prop} {L : Nat → Int} (h : Hidden s t H) (hi : Inv T L s) : Apart H s :=
  ⟨h.opn, h.into, h.ctrl, fun i hi' => hi.acc.seq i (h.ex i hi')⟩

/-- In `H`, all but the temporary inode have links. -/
theorem Hidden.rc {s : St} {t i : Nat} {H : Nat → Prop} {T : Nat → Prop} {L : Nat → Int} (h : Hidden s t H) (hi : Inv T L s) (hh : H i) :
    i = t ∨ 0 < s.db.rc i := by
  cases h.reach i hh with
  | refl => exact Or.inl rfl
  | row _ hc =>
    right
    have h1 := hi.acc.rc i
    have h2 := links_pos hc
    have h3 : 0 ≤ base i := by unfold base; split; · omega
                               split <;> omega
    omega

theorem dbBelow_of {T : Nat → Prop} {L : Nat → Int} {s : St} (h : Inv T L s) {a b : Nat} (hb : RB s.db a b) : DbBelow s a b := by
  induction hb with
  | refl => exact .refl
  | @row b c k _ hc ih =>
    obtain ⟨n, hn⟩ := h.acc.nm_of_C (h.Lnn k) hc
    exact ih.entry ((h.acc.child_iff _ _ _).2 ⟨k, hn, hc⟩)

theorem rb_of {T : Nat → Prop} {L : Nat → Int} {s : St} (h : Inv T L s) {a b : Nat} (hb : DbBelow s a b) : RB s.db a b := by
  induction hb with
  | refl => exact .refl
  | entry _ hc ih =>
    obtain ⟨k, _, hk⟩ := (h.acc.child_iff _ _ _).1 hc
    exact ih.row hk

theorem below_iffT {T : Nat → Prop} {L : Nat → Int} {s : St} (h : Inv T L s) (hr : Res s) {a b : Nat} : Below s a b ↔ RB s.db a b := by
  constructor
  · intro hb
    refine rb_of h ?_
    induction hb with
    | refl => exact DbBelow.refl
    | entry _ hn hc ih => rw [seenEntry_eq h, if_neg hn] at hc; exact ih.entry hc
  · intro hb
    replace hb := dbBelow_of h hb
    induction hb with
    | refl => exact Below.refl
    | @entry b c n _ hc ih =>
      have hn : n ≠ ctrlName := by rintro rfl; rw [hr.ctrl] at hc; cases hc
      exact ih.entry hn (by rw [seenEntry_eq h, if_neg hn]; exact hc)

theorem Hidden.iff {s : St} {t i : Nat} {H : Nat → Prop} {T : Nat → Prop} {L : Nat → Int} (h : Hidden s t H) (hi : Inv T L s) (hr : Res s) :
    H i ↔ Below s t i := by
  rw [below_iffT hi hr]
  constructor
  · exact h.reach i
  · intro hb
    induction hb with
    | refl => exact h.top
    | row _ hc ih => exact h.out _ _ _ ih hc

theorem JobsInv.inCopy {repl fail : Bool} {s : St} {K : Nat → Int} {J : List Job} {L : Nat → Int} {H : Nat → Nat → Prop} (g : JobsInv repl fail s K J L H)
    {i : Nat} (h : ¬InCopy s J i) : ∀ t, Running J t → ¬H t i :=
  fun t ht hh => h ⟨t, ht, ((g.hid t ht).iff g.inv g.res).1 hh⟩

/-- Whatever leaves the copies alone keeps the invariant. -/
theorem JobsInv.other {repl fail : Bool} {s s' : St} {K K' : Nat → Int} {J : List Job} {L L' : Nat → Int} {H : Nat → Nat → Prop} (g : JobsInv repl fail s K J L H)
    (hi : Inv (Running J) L' s') (hr : Res s') (he : repl = false → L' = fun _ => 0) (hle : ∀ i, K' i ≤ s'.cnt i) (heq : fail = false → ∀ i, K' i = s'.cnt i)
    (hs : s.db.seq ≤ s'.db.seq) (hf : ∀ t, Running J t → Fr (H t) s s') : JobsInv repl fail s' K' J L' H := by
  refine ⟨hi, hr, he, hle, heq, fun t ht => (g.hid t ht).frame (hf t ht), g.disj, g.nodup, fun j hj => ?_, g.tgt, fun j hj => ?_⟩
  · have := g.seq j hj; omega
  · by_cases hd : j.pc = .done
    · have := g.jobs j hj
      rw [hd] at this ⊢
      exact ⟨this.cache, fun _ _ _ hm => (by cases hm), this.wnd⟩
    · exact (g.jobs j hj).frame (hf _ ⟨j, hj, rfl, hd⟩)

theorem JobsInv.step {repl fail : Bool} {s : St} {K : Nat → Int} {J : List Job} {L : Nat → Int} {H : Nat → Nat → Prop} (g : JobsInv repl fail s K J L H)
    {op : Op} (hq : Req K s op) (hh : Handled s op) (hrep : repl = false → ¬Replaces s op)
    (hfail : fail = false → looksUp op → ∃ r, (Fs.step s op).1 = .ok r) (hup : ∀ i b o, op = .upload i b o → ¬InCopy s J i) :
    ∃ L', JobsInv repl fail (Fs.step s op).2 (fun i => K i + kernelDelta op (Fs.step s op).1 i) J L' H := by
  have hko := kernelOk_of g.inv g.res g.le hq hh
  obtain ⟨L', he, hl⟩ := step_eff g.inv hko
  refine ⟨L', g.other he.inv (g.res.step g.inv he) ?_ ?_ ?_ (seq_step (Nat.le_refl s.db.seq) op) ?_⟩
  · intro hr
    rw [hl ?_, g.exact hr]
    intro id n v now hop
    subst hop
    have h1 := hrep hr
    have h2 : seenXattr s id n = none := Classical.byContradiction h1
    rw [seenXattr_eq] at h2
    split at h2
    · rename_i hn
      obtain ⟨ino, hi⟩ := g.inv.known_ex ((g.inv.cnt_pos_iff id).1 (by have := g.le id; have := hq.1; omega))
      exact g.res.acl id n (by rw [hi]; simp) hn
    · exact h2
  · intro i
    have := (he.cnt i).1
    have := g.le i
    omega
  · intro hf i
    have h1 := (he.cnt i).2 (by
      by_cases hlk : looksUp op
      · exact Or.inl (hfail hf hlk)
      · exact Or.inr hlk)
    rw [h1, g.eq hf i]
  · intro t ht
    refine step_frame g.inv ((g.hid t ht).apart g.inv) hko ?_
    cases op with
    | upload i b o => exact g.inCopy (hup i b o rfl) t ht
    | _ => trivial

/-- The attributes of an inode outside of the copies change. -/
theorem JobsInv.mod {repl fail : Bool} {s : St} {K : Nat → Int} {J : List Job} {L : Nat → Int} {H : Nat → Nat → Prop} (g : JobsInv repl fail s K J L H)
    {id : Nat} (hn : ¬InCopy s J id) (f : Inode → Inode) (hr : ∀ i, (f i).refcount = i.refcount) (hs : ∀ i, i.size ≤ (f i).size) :
    JobsInv repl fail { s with db := s.db.modInode id f } K J L H := by
  refine g.other (g.inv.modInode id _ hr hs) ⟨fun p => ?_, fun i n hi hn => ?_⟩ g.exact g.le g.eq
    (Nat.le_of_eq (modInode_rest _ _ _).2.2.2.2.2.2.symm) (fun t ht => Fr.ofDb ((FrD.refl _).mod (g.inCopy hn t ht) _))
  · exact (modInode_child _ _ _ _ _).trans (g.res.ctrl p)
  · refine (modInode_xval _ _ _ _ _).trans (g.res.acl i n ?_ hn)
    intro e
    apply hi
    show AL.get (s.db.modInode id _).inodes i = none
    rw [modInode_get]
    split
    · rename_i e2; rw [← e2, e]; rfl
    · exact e

theorem JobsInv.lock {repl fail : Bool} {s s' : St} {K : Nat → Int} {J : List Job} {L : Nat → Int} {H : Nat → Nat → Prop} (g : JobsInv repl fail s K J L H)
    {id : Nat} (hn : ¬InCopy s J id) (hl : lockInode s id = some s') : JobsInv repl fail s' K J L H := by
  unfold lockInode at hl
  split at hl
  · cases hl
  · cases hl
    exact g.mod hn _ (fun _ => rfl) (fun _ => Nat.le_refl _)

theorem JobsInv.rmrow {repl fail : Bool} {s s' : St} {K : Nat → Int} {J : List Job} {L : Nat → Int} {H : Nat → Nat → Prop} (g : JobsInv repl fail s K J L H)
    {p id : Nat} {n : Bytes} {now : Int} {res : Except Err Unit} (hp : ¬InCopy s J p) (hn : n ≠ ctrlName) (hc : seenEntry s p n = some id)
    (hr : remove s p n id true now = (res, s')) : JobsInv repl fail s' K J L H := by
  rw [seenEntry_eq g.inv, if_neg hn] at hc
  rcases remove_row g.inv hc hr with rfl | ⟨rfl, he⟩
  · exact g
  · refine g.other he.inv ⟨fun q => ?_, fun i m hi hm => ?_⟩ g.exact (fun i => ?_) (fun hf i => ?_) (Nat.le_of_eq he.seq.symm) (fun t ht => ?_)
    · cases hx : s'.db.child q ctrlName with
      | none => rfl
      | some c => have := he.mono _ _ _ hx; rw [g.res.ctrl q] at this; cases this
    · rcases he.inode i with h1 | ⟨a, b, ha, hb, _⟩
      · exact absurd h1 hi
      · rw [he.rest.xval i m (by rw [ha]; simp) hi]
        exact g.res.acl i m (by rw [ha]; simp) hm
    · have := g.le i; unfold St.cnt at this ⊢; rw [he.opened]; exact this
    · have := g.eq hf i; unfold St.cnt at this ⊢; rw [he.opened]; exact this
    · have h1 := g.inCopy hp t ht
      obtain ⟨k, _, hk⟩ := (g.inv.acc.child_iff _ _ _).1 hc
      have h2 := (g.hid t ht).into p k id hk h1
      have := Fr.remove (s := s) h1 h2 n true now
      rw [hr] at this
      exact this

theorem JobsInv.remount {repl fail : Bool} {s : St} {K : Nat → Int} {J : List Job} {L : Nat → Int} {H : Nat → Nat → Prop} (g : JobsInv repl fail s K J L H)
    (hd : ∀ j ∈ J, j.pc = .done) : JobsInv repl fail (Fs.remount s).2 (fun i => if i = rootInode then 1 else 0) J L H := by
  have hno : ∀ t, ¬Running J t := by rintro t ⟨j, hj, _, hne⟩; exact hne (hd j hj)
  have hT : Running J = NoT := by funext t; exact propext ⟨fun h => hno t h, fun h => h.elim⟩
  have hinv := g.inv
  rw [hT] at hinv
  obtain ⟨s1, he, hi, hfg, _⟩ := remount_spec hinv
  have h0 : ∀ i, ({ s1 with opened := [(rootInode, 1)], failsafe := false } : St).cnt i = if i = rootInode then 1 else 0 := by
    intro i
    simp only [St.cnt, AL.get]
    by_cases hi : i = rootInode
    · rw [if_pos hi.symm, if_pos hi]; rfl
    · rw [if_neg (fun e => hi e.symm), if_neg hi]; rfl
  rw [he]
  refine g.other (by rw [hT]; exact hi) ⟨fun p => (hfg.child p ctrlName).trans (g.res.ctrl p), fun i n hi hn => (hfg.xval i n hi).trans (g.res.acl i n (hfg.noNew i hi) hn)⟩
    g.exact (fun i => ?_) (fun _ i => (h0 i).symm) (Nat.le_of_eq hfg.sq.symm) (fun t ht => absurd ht (hno t))
  show _ ≤ ({ s1 with opened := [(rootInode, 1)], failsafe := false } : St).cnt i
  rw [h0 i]; exact Int.le_refl _

end Verif.Fs
