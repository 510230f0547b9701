/-
`copy_tree` (fs.py:504-638) with other requests in between: if nothing changes the source in the meantime, the copy is exact.
Definitions, and the invariant of the copy that is watched.
-/
import Verif.Fs.TreeMix5

namespace Verif.Fs

/-! #### Definitions -/

/-- Attributes without the access time (reading a file or directory changes it, fs.py:208-209, 227-228, 1256-1257). -/
def noAtime (a : Inode) : Inode := { a with atime := 0 }

/-- The inodes in `S` have the same entries, attributes (except for the access time), extended attributes and link targets in
both states, and those in `C` have the same blocks. -/
structure SameTree (S : Nat → Prop) (C : List Nat) (s s' : St) : Prop where
  con : ∀ i k, S i → AL.get s'.db.contents (i, k) = AL.get s.db.contents (i, k)
  ino : ∀ i, S i → (AL.get s'.db.inodes i).map noAtime = (AL.get s.db.inodes i).map noAtime
  xat : ∀ i k, S i → AL.get s'.db.xattrs (i, k) = AL.get s.db.xattrs (i, k)
  sym : ∀ i, S i → AL.get s'.db.symlinks i = AL.get s.db.symlinks i
  blk : ∀ i b, i ∈ C → AL.get s'.db.blocks (i, b) = AL.get s.db.blocks (i, b)

/-- The inode of the row that is handled next. -/
def CpPc.handles : CpPc → List Nat
  | .row _ _ _ _ id => [id]
  | _ => []

/-- Histories in which `copy_tree(src, tgt)` starts in the state `s0`, and from then on other events change nothing that was
below `src` in `s0`, except for access times, and the blocks of files that it has not copied yet (which it uploads
before it copies them, fs.py:561-562).  `pc` is where it is, and `C` are the inodes it has copied. -/
inductive Watched (repl fail : Bool) (src tgt : Nat) (s0 : St) : St → (Nat → Int) → List Job → CpPc → List Nat → Prop
  | start {s' : St} {K : Nat → Int} {J : List Job} {now : Int} {w : CpWalk} : Mixed repl fail s0 K J → ¬InCopy s0 J tgt → NoLoop s0 src →
      copyStart s0 src tgt now = .ok (s', w) → Watched repl fail src tgt s0 s' K (⟨src, tgt, s0.db.seq + 1, .walk w⟩ :: J) (.walk w) []
  | work {s s' : St} {K : Nat → Int} {J1 J2 : List Job} {pc pc' : CpPc} {C : List Nat} :
      Watched repl fail src tgt s0 s K (J1 ++ ⟨src, tgt, s0.db.seq + 1, pc⟩ :: J2) pc C → JobStep tgt (s0.db.seq + 1) s pc s' pc' → Undisturbed s tgt pc pc' →
      Watched repl fail src tgt s0 s' K (J1 ++ ⟨src, tgt, s0.db.seq + 1, pc'⟩ :: J2) pc' (pc.handles ++ C)
  | other {s s' : St} {K K' : Nat → Int} {J J' : List Job} {pc : CpPc} {C : List Nat} : Watched repl fail src tgt s0 s K J pc C →
      MixStep repl fail s K J s' K' J' → (⟨src, tgt, s0.db.seq + 1, pc⟩ : Job) ∈ J' → SameTree (Below s0 src) C s s' →
      Watched repl fail src tgt s0 s' K' J' pc C

/-- The attributes of a copy, except for the access time. -/
def CopyOf' (a b : Inode) : Prop := CopyOf { a with atime := b.atime } b

/-! #### What an event does to a copy in progress -/

theorem Hidden.mem {s : St} {t i : Nat} {H : Nat → Prop} (h : Hidden s t H) (hb : RB s.db t i) : H i := by
  induction hb with
  | refl => exact h.top
  | row _ hc ih => exact h.out _ _ _ ih hc

theorem RowEff.frame {T : Nat → Prop} {L : Nat → Int} {s s1 : St} {id new : Nat} (he : RowEff T L s s1 id new) {H : Nat → Prop} (hn : ¬H new) : Fr H s s1 :=
  ⟨⟨fun i hi => he.ino i (fun e => hn (e ▸ hi)), fun i k _ => by rw [he.con], fun i k hi => he.xat i k (fun e => hn (e ▸ hi)),
    fun i hi => he.sym i (fun e => hn (e ▸ hi)), fun i k hi => he.blk i k (fun e => hn (e ▸ hi)), fun h0 => by unfold NoInto; rw [he.con]; exact h0⟩,
    fun i _ => by rw [he.op]⟩

theorem FrD.names {H : Nat → Prop} {d0 d : Db} (h : FrD H d0 d) (ns : List (Nat × (Bytes × Int))) : FrD H d0 { d with names := ns } :=
  ⟨h.ino, h.con, h.xat, h.sym, h.blk, h.inc⟩

theorem copyEnd_frame {s s' : St} {tgt tmp : Nat} {H : Nat → Prop} (hC : AL.NK s.db.contents) (hne : tgt ≠ tmp) (he : copyEnd s tgt tmp = some s')
    (h1 : ¬H tmp) (h2 : ¬H tgt) (h3 : ∀ k c, AL.get s.db.contents (tmp, k) = some c → ¬H c) : Fr H s s' := by
  unfold copyEnd at he
  split at he
  · cases he
  rename_i hany
  have hn : ∀ k, AL.get s.db.contents (tmp, k) ≠ none → AL.get s.db.contents (tgt, k) = none := by
    intro k hk
    cases hg : AL.get s.db.contents (tgt, k) with
    | none => rfl
    | some c =>
      exfalso; apply hany
      obtain ⟨v, hv⟩ := Option.ne_none_iff_exists'.1 hk
      rw [List.any_eq_true]
      exact ⟨((tmp, k), v), AL.get_some_mem hv, by simp [hg]⟩
  have e := Option.some.inj he
  subst e
  have hget := fun p k => get_moveRows (l := s.db.contents) hC hne hn p k
  refine ⟨⟨fun i hi => ?_, fun i k hi => ?_, fun _ _ _ => rfl, fun _ _ => rfl, fun _ _ _ => rfl, fun h0 p k c hc hp => ?_⟩, fun _ _ => rfl⟩
  · exact AL.get_erase_ne _ (fun e => h1 (e ▸ hi))
  · show AL.get (moveRows s.db.contents tmp tgt) (i, k) = _
    rw [hget, if_neg (fun e : i = tmp => h1 (e ▸ hi)), if_neg (fun e : i = tgt => h2 (e ▸ hi))]
  · have hc : AL.get (moveRows s.db.contents tmp tgt) (p, k) = some c := hc
    rw [hget] at hc
    split at hc
    · cases hc
    · split at hc
      · cases hx : AL.get s.db.contents (tmp, k) with
        | none => rw [hx] at hc; exact h0 tgt k c hc h2
        | some c' => rw [hx] at hc; cases hc; exact h3 k _ hx
      · exact h0 p k c hc hp

theorem copyStart_frame {s s' : St} {src tgt : Nat} {now : Int} {w : CpWalk} {H : Nat → Prop} (hs : copyStart s src tgt now = .ok (s', w))
    (h1 : ¬H tgt) (h2 : ¬H (s.db.seq + 1)) : Fr H s s' := by
  unfold copyStart at hs
  split at hs
  · cases hs
  split at hs
  rotate_left
  · cases hs
  rename_i a b ha hb
  dsimp only at hs
  have e1 := (Prod.mk.inj (Except.ok.inj hs)).1
  have r7 := (modInode_rest s.db tgt (fun t : Inode => ({ t with atime := a.atime, ctime := a.ctime, mtime := a.mtime, mode := a.mode, uid := a.uid, gid := a.gid } : Inode))).2.2.2.2.2.2
  rw [r7] at e1
  subst e1
  refine Fr.ofDb (((FrD.refl _).mod h1 _).trans ⟨fun i hi => ?_, fun _ _ _ => rfl, fun _ _ _ => rfl, fun _ _ => rfl, fun _ _ _ => rfl, fun h => h⟩)
  exact AL.get_set_ne _ _ (fun e => h2 (e ▸ hi))

theorem job_unique {J1 J2 : List Job} {j x : Job} (hn : ((J1 ++ j :: J2).map (·.tmp)).Nodup) (hx : x ∈ J1 ∨ x ∈ J2) : x.tmp ≠ j.tmp := by
  rw [List.map_append, List.map_cons, List.nodup_append, List.nodup_cons] at hn
  obtain ⟨_, ⟨h2, _⟩, h3⟩ := hn
  intro e
  rcases hx with hx | hx
  · exact h3 x.tmp (List.mem_map.2 ⟨x, hx, rfl⟩) j.tmp (List.mem_cons_self ..) e
  · exact h2 (List.mem_map.2 ⟨x, hx, e⟩)

/-- Any event is either a piece of this command, or it leaves the copy alone. -/
theorem JobsInv.event {repl fail : Bool} {s s' : St} {K K' : Nat → Int} {J J' : List Job} {L : Nat → Int} {H : Nat → Nat → Prop} (g : JobsInv repl fail s K J L H)
    (h : MixStep repl fail s K J s' K' J') {src tgt tmp : Nat} {pc : CpPc} (hj : (⟨src, tgt, tmp, pc⟩ : Job) ∈ J) (hpc : pc ≠ .done) :
    (Fr (H tmp) s s' ∧ (⟨src, tgt, tmp, pc⟩ : Job) ∈ J') ∨
    (∃ pc', JobStep tgt tmp s pc s' pc' ∧ Undisturbed s tgt pc pc' ∧ (⟨src, tgt, tmp, pc'⟩ : Job) ∈ J') := by
  have hrun : Running J tmp := ⟨_, hj, rfl, hpc⟩
  have hh := g.hid tmp hrun
  cases h with
  | start ht hs =>
    left
    refine ⟨copyStart_frame hs (g.inCopy ht tmp hrun) ?_, List.mem_cons_of_mem _ hj⟩
    intro h
    have := g.inv.acc.seq _ (hh.ex _ h)
    omega
  | step op hq hh' hrep hfail hup =>
    left
    refine ⟨step_frame g.inv (hh.apart g.inv) (kernelOk_of g.inv g.res g.le hq hh') ?_, hj⟩
    cases op with
    | upload i b o => exact g.inCopy (hup i b o rfl) tmp hrun
    | _ => trivial
  | lock id hn hl =>
    left
    refine ⟨?_, hj⟩
    unfold lockInode at hl
    split at hl
    · cases hl
    · cases hl
      exact Fr.ofDb ((FrD.refl _).mod (g.inCopy hn tmp hrun) _)
  | @rmrow _ _ _ p id n now res hp hn hc hr =>
    left
    refine ⟨?_, hj⟩
    rw [seenEntry_eq g.inv, if_neg hn] at hc
    have h1 := g.inCopy hp tmp hrun
    obtain ⟨k, _, hk⟩ := (g.inv.acc.child_iff _ _ _).1 hc
    have := Fr.remove (s := s) h1 (hh.into p k id hk h1) n true now
    rw [hr] at this
    exact this
  | remount hd => exact absurd (hd _ hj) hpc
  | @work _ _ J1 J2 src' tgt' tmp' pc0 pc' hs hu =>
    have hme : (⟨src', tgt', tmp', pc0⟩ : Job) ∈ J1 ++ ⟨src', tgt', tmp', pc0⟩ :: J2 := (mem_mid _).2 (Or.inl rfl)
    rcases (mem_mid _).1 hj with e | hj'
    · cases e
      exact Or.inr ⟨pc', hs, hu, (mem_mid _).2 (Or.inl rfl)⟩
    · left
      refine ⟨?_, (mem_mid _).2 (Or.inr hj')⟩
      have hne : tmp ≠ tmp' := job_unique (j := ⟨src', tgt', tmp', pc0⟩) (x := ⟨src, tgt, tmp, pc⟩) g.nodup hj'
      have hok : JobOk s (H tmp') tmp' pc0 := g.jobs _ hme
      have out : ∀ i, Running (J1 ++ ⟨src', tgt', tmp', pc0⟩ :: J2) tmp' → H tmp' i → ¬H tmp i := fun i hr hi hi' => hne (g.disj tmp tmp' hrun hr i hi' hi)
      have spec : ∀ {w sd dd k id s1 new q cache}, pc0 = .row w sd dd k id → copyRow s w id = some (s1, new, q, cache) →
          RowEff (Running (J1 ++ ⟨src', tgt', tmp', pc0⟩ :: J2)) L s s1 id new ∧ ¬H tmp new ∧ ¬H tmp dd := by
        intro w sd dd k id s1 new q cache epc hc
        subst epc
        have hr : Running (J1 ++ ⟨src', tgt', tmp', .row w sd dd k id⟩ :: J2) tmp' := running_mid (by intro h; cases h)
        have hsp := copyRow_spec g.inv hc (fun x hx => by
          obtain ⟨h1, h2⟩ := hok.cache id x hx
          exact ((g.hid tmp' hr).rc g.inv h1).resolve_left h2)
        refine ⟨hsp.1, ?_, out dd hr (hok.work sd dd k (List.mem_cons_self ..)).1⟩
        rcases hsp.2 with ⟨h1, _⟩ | ⟨h1, _⟩
        · exact out new hr (hok.cache id new h1).1
        · intro h
          have := g.inv.acc.seq _ (hh.ex _ h)
          omega
      cases hs with
      | pop => exact Fr.refl _
      | read _ => exact Fr.refl _
      | over _ => exact Fr.refl _
      | noInode _ => exact Fr.refl _
      | clash _ => exact Fr.refl _
      | dup hc ha => obtain ⟨h1, h2, _⟩ := spec rfl hc; exact h1.frame h2
      | handle brk hc ha =>
        obtain ⟨h1, h2, h3⟩ := spec rfl hc
        unfold Db.addCopy at ha
        split at ha
        · cases ha
        · have e := Option.some.inj ha
          subst e
          have hf := h1.frame h2
          exact ⟨(hf.db.setC h3 _ h2).names _, hf.opn⟩
      | @finish _ cache he =>
        have hr : Running (J1 ++ ⟨src', tgt', tmp', .walk ⟨none, [], cache⟩⟩ :: J2) tmp' := running_mid (by intro h; cases h)
        have ht := g.tgt _ hme
        have ht : ∀ t, Running _ t → ¬H t tgt' := ht
        exact copyEnd_frame g.inv.acc.nkC (fun e : tgt' = tmp' => ht tmp' hr (e ▸ (g.hid tmp' hr).top)) he (out _ hr (g.hid tmp' hr).top) (ht tmp hrun)
          (fun k c hc => out c hr ((g.hid tmp' hr).out _ _ _ (g.hid tmp' hr).top hc))

/-! #### The invariant -/

structure Ex (S : Nat → Prop) (src tmp : Nat) (c : St) (pc : CpPc) (C : List Nat) (M : List (Nat × Nat)) : Prop where
  sLt : ∀ i, S i → i < tmp
  sOut : ∀ p k x, S p → AL.get c.db.contents (p, k) = some x → S x ∧ x ≠ src
  mInj : ∀ i j x, AL.get M i = some x → AL.get M j = some x → i = j
  mSrc : AL.get M src = some tmp
  mNew : ∀ i i', AL.get M i = some i' → i ≠ src → tmp < i'
  mIn : ∀ i i', AL.get M i = some i' → RB c.db tmp i'
  mS : ∀ i i', AL.get M i = some i' → S i
  mC : ∀ i i', AL.get M i = some i' → i ≠ src → i ∈ C
  copy : ∀ i i', AL.get M i = some i' → i ≠ src → ∃ a b, AL.get c.db.inodes i = some a ∧ AL.get c.db.inodes i' = some b ∧ CopyOf' a b ∧
    (∀ k, AL.get c.db.xattrs (i', k) = AL.get c.db.xattrs (i, k)) ∧ AL.get c.db.symlinks i' = AL.get c.db.symlinks i ∧
    (∀ k, AL.get c.db.blocks (i', k) = AL.get c.db.blocks (i, k))
  ent : ∀ i i' k c', AL.get M i = some i' → AL.get c.db.contents (i', k) = some c' →
    ∃ x, AL.get c.db.contents (i, k) = some x ∧ AL.get M x = some c' ∧ x ≠ src
  todo : ∀ i i' k x, AL.get M i = some i' → AL.get c.db.contents (i, k) = some x →
    AL.get c.db.contents (i', k) ≠ none ∨ ∃ lo, (i, i', lo) ∈ pc.work ∧ lo ≤ k
  work : ∀ i i' lo, (i, i', lo) ∈ pc.work → AL.get M i = some i'
  link : ∀ i i', AL.get M i = some i' → i ≠ src → ∃ j j' k, AL.get M j = some j' ∧ AL.get c.db.contents (j', k) = some i'
  cacheM : ∀ i i', AL.get pc.cache i = some i' → AL.get M i = some i' ∧ i ≠ src
  cacheAll : ∀ i i', AL.get M i = some i' → i ≠ src → c.db.rc i ≠ 1 → AL.get pc.cache i = some i'
  row : ∀ w sd dd k id, pc = .row w sd dd k id → AL.get c.db.contents (sd, k) = some id

theorem CopyOf'.of_same {a a' b : Inode} (h : CopyOf' a b) (e : noAtime a' = noAtime a) : CopyOf' a' b := by
  cases a; cases a'
  unfold noAtime at e
  injection e with e1 e2 e3 e4 e5 e6 e7 e8 e9 e10
  subst e1 e2 e3 e4 e6 e7 e8 e9 e10
  exact h

theorem Ex.frame {S : Nat → Prop} {src tmp : Nat} {c c' : St} {pc : CpPc} {C : List Nat} {M : List (Nat × Nat)} {H : Nat → Prop} (h : Ex S src tmp c pc C M)
    (hh : Hidden c tmp H) (hf : Fr H c c') (hs : SameTree S C c c') : Ex S src tmp c' pc C M := by
  have hM : ∀ {i i'}, AL.get M i = some i' → H i' := fun hi => hh.mem (h.mIn _ _ hi)
  have hC : ∀ {i i'} k, AL.get M i = some i' → AL.get c'.db.contents (i', k) = AL.get c.db.contents (i', k) := fun k hi => hf.db.con _ k (hM hi)
  have hrc : ∀ i, S i → c'.db.rc i = c.db.rc i := by
    intro i hi
    have := hs.ino i hi
    unfold Db.rc
    cases h1 : AL.get c'.db.inodes i with
    | none =>
      cases h2 : AL.get c.db.inodes i with
      | none => rfl
      | some b => rw [h1, h2] at this; cases this
    | some a =>
      cases h2 : AL.get c.db.inodes i with
      | none => rw [h1, h2] at this; cases this
      | some b =>
        rw [h1, h2] at this
        have e : noAtime a = noAtime b := Option.some.inj this
        have e2 : (noAtime a).refcount = (noAtime b).refcount := by rw [e]
        exact e2
  refine ⟨h.sLt, fun p k x hp hx => ?_, h.mInj, h.mSrc, h.mNew, fun i i' hi => (hh.frame hf).reach i' (hM hi), h.mS, h.mC, fun i i' hi hne => ?_, fun i i' k c'' hi hc => ?_,
    fun i i' k x hi hx => ?_, h.work, fun i i' hi hne => ?_, h.cacheM, fun i i' hi hne hr => ?_, fun w sd dd k id e => ?_⟩
  · rw [hs.con p k hp] at hx; exact h.sOut p k x hp hx
  · obtain ⟨a, b, ha, hb, h1, h2, h3, h4⟩ := h.copy i i' hi hne
    have hS := h.mS i i' hi
    have := hs.ino i hS
    rw [ha] at this
    obtain ⟨a', ha', e⟩ := Option.map_eq_some_iff.1 this
    refine ⟨a', b, ha', by rw [hf.db.ino _ (hM hi)]; exact hb, h1.of_same e, fun k => ?_, ?_, fun k => ?_⟩
    · rw [hf.db.xat _ _ (hM hi), hs.xat _ _ hS]; exact h2 k
    · rw [hf.db.sym _ (hM hi), hs.sym _ hS]; exact h3
    · rw [hf.db.blk _ _ (hM hi), hs.blk _ _ (h.mC i i' hi hne)]; exact h4 k
  · rw [hC k hi] at hc
    obtain ⟨x, h1, h2⟩ := h.ent i i' k c'' hi hc
    exact ⟨x, by rw [hs.con _ _ (h.mS _ _ hi)]; exact h1, h2⟩
  · rw [hs.con _ _ (h.mS _ _ hi)] at hx
    rw [hC k hi]
    exact h.todo i i' k x hi hx
  · obtain ⟨j, j', k, hj, hc⟩ := h.link i i' hi hne
    exact ⟨j, j', k, hj, by rw [hC k hj]; exact hc⟩
  · rw [hrc i (h.mS _ _ hi)] at hr; exact h.cacheAll i i' hi hne hr
  · have h1 := h.row w sd dd k id e
    have h2 := h.work sd dd k (by rw [e]; exact List.mem_cons_self ..)
    rw [hs.con _ _ (h.mS _ _ h2)]; exact h1

theorem Ex.pop {S : Nat → Prop} {src tmp : Nat} {c : St} {t : Nat × Nat × Nat} {q : List (Nat × Nat × Nat)} {cache M : List (Nat × Nat)} {C : List Nat}
    (h : Ex S src tmp c (.walk ⟨none, t :: q, cache⟩) C M) : Ex S src tmp c (.walk ⟨some t, q, cache⟩) C M :=
  ⟨h.sLt, h.sOut, h.mInj, h.mSrc, h.mNew, h.mIn, h.mS, h.mC, h.copy, h.ent, h.todo, h.work, h.link, h.cacheM, h.cacheAll, fun _ _ _ _ _ e => (by cases e)⟩

theorem Ex.read {S : Nat → Prop} {src tmp : Nat} {c : St} {sd dd lo k id : Nat} {q : List (Nat × Nat × Nat)} {cache M : List (Nat × Nat)} {C : List Nat}
    (h : Ex S src tmp c (.walk ⟨some (sd, dd, lo), q, cache⟩) C M) (hC : AL.NK c.db.contents) (hn : c.db.nextRow sd lo = some (k, id)) :
    Ex S src tmp c (.row ⟨none, q, cache⟩ sd dd k id) C M := by
  obtain ⟨h1, h2, h3⟩ := nextRow_some hC hn
  have hM : AL.get M sd = some dd := h.work sd dd lo (List.mem_cons_self ..)
  refine ⟨h.sLt, h.sOut, h.mInj, h.mSrc, h.mNew, h.mIn, h.mS, h.mC, h.copy, h.ent, fun i i' k' x hi hx => ?_, fun i i' l hm => ?_, h.link, h.cacheM, h.cacheAll, fun _ _ _ _ _ e => ?_⟩
  · rcases h.todo i i' k' x hi hx with h4 | ⟨l, h4, h5⟩
    · exact Or.inl h4
    · rcases List.mem_cons.1 h4 with e | h4
      · cases e
        exact Or.inr ⟨k, List.mem_cons_self .., h3 k' x hx h5⟩
      · exact Or.inr ⟨l, List.mem_cons_of_mem _ h4, h5⟩
  · rcases List.mem_cons.1 hm with e | hm
    · cases e; exact hM
    · exact h.work i i' l (List.mem_cons_of_mem _ hm)
  · cases e; exact h1

theorem Ex.over {S : Nat → Prop} {src tmp : Nat} {c : St} {sd dd lo : Nat} {q : List (Nat × Nat × Nat)} {cache M : List (Nat × Nat)} {C : List Nat}
    (h : Ex S src tmp c (.walk ⟨some (sd, dd, lo), q, cache⟩) C M) (hn : c.db.nextRow sd lo = none) : Ex S src tmp c (.walk ⟨none, q, cache⟩) C M := by
  refine ⟨h.sLt, h.sOut, h.mInj, h.mSrc, h.mNew, h.mIn, h.mS, h.mC, h.copy, h.ent, fun i i' k x hi hx => ?_, fun i i' l hm => h.work i i' l (List.mem_cons_of_mem _ hm), h.link, h.cacheM, h.cacheAll,
    fun _ _ _ _ _ e => (by cases e)⟩
  rcases h.todo i i' k x hi hx with h4 | ⟨l, h4, h5⟩
  · exact Or.inl h4
  · rcases List.mem_cons.1 h4 with e | h4
    · cases e
      rw [nextRow_none hn h5] at hx; cases hx
    · exact Or.inr ⟨l, h4, h5⟩

theorem copyRow_cases {s s1 : St} {w : CpWalk} {id new : Nat} {q : List (Nat × Nat × Nat)} {cache : List (Nat × Nat)} (hc : copyRow s w id = some (s1, new, q, cache)) :
    (∃ a, AL.get w.cache id = some new ∧ AL.get s.db.inodes new = some a ∧
      s1 = { s with db := s.db.modInode new (fun i => { i with refcount := i.refcount + 1 }) } ∧ q = w.queue ∧ cache = w.cache) ∨
    (∃ a, AL.get w.cache id = none ∧ AL.get s.db.inodes id = some a ∧ new = s.db.seq + 1 ∧ s1 = { s with db := s.db.copyInode id a } ∧
      q = (if s.db.hasChildren id then (id, new, 0) :: w.queue else w.queue) ∧ cache = (if a.refcount ≠ 1 then AL.set w.cache id new else w.cache)) := by
  unfold copyRow at hc
  split at hc
  · rename_i x hx
    split at hc
    · cases hc
    · rename_i a ha
      cases hc
      exact Or.inl ⟨a, hx, ha, rfl, rfl, rfl⟩
  · rename_i hx
    split at hc
    · cases hc
    · rename_i a ha
      dsimp only at hc
      have e := Option.some.inj hc
      have e1 := (Prod.mk.inj e).1
      have e2 := (Prod.mk.inj (Prod.mk.inj e).2).1
      have e3 := (Prod.mk.inj (Prod.mk.inj (Prod.mk.inj e).2).2).1
      have e4 := (Prod.mk.inj (Prod.mk.inj (Prod.mk.inj e).2).2).2
      subst e2
      exact Or.inr ⟨a, hx, ha, rfl, e1.symm, e3.symm, e4.symm⟩

theorem RB.mono {d d' : Db} {a b : Nat} (h : RB d a b) (hc : ∀ p k c, AL.get d.contents (p, k) = some c → AL.get d'.contents (p, k) = some c) : RB d' a b := by
  induction h with
  | refl => exact .refl
  | row _ h ih => exact ih.row (hc _ _ _ h)

theorem mem_hasChildren {db : Db} {p k x : Nat} (h : AL.get db.contents (p, k) = some x) : db.hasChildren p = true := by
  unfold Db.hasChildren
  rw [List.any_eq_true]
  exact ⟨((p, k), x), AL.get_some_mem h, by simp⟩

/-- Two rows for an inode: it has more than one link. -/
theorem two_rows {T : Nat → Prop} {m : Nat} {db : Db} {L : Nat → Int} (h : Acc T m db (fun _ => 0) L) {p k p' k' x : Nat} (h1 : AL.get db.contents (p, k) = some x)
    (h2 : AL.get db.contents (p', k') = some x) (hd : (p, k) ≠ (p', k')) : db.rc x ≠ 1 := by
  have hlinks : 2 ≤ db.links x := by
    have e := AL.sumBy_erase (fun (_ : Nat × Nat) (c : Nat) => if c = x then (1 : Int) else 0) h.nkC (p, k)
    have hle := AL.le_sumBy (fun (_ : Nat × Nat) (c : Nat) => if c = x then (1 : Int) else 0) (AL.erase db.contents (p, k))
      (by intros; split <;> omega) (AL.get_some_mem (k := (p', k')) (v := x) (by rw [AL.get_erase_ne _ (fun e => hd e.symm)]; exact h2))
    rw [h1] at e
    simp only [if_true, Option.map_some, Option.getD_some] at hle e
    unfold Db.links
    omega
  have := h.rc x
  have hbn : 0 ≤ base x := by unfold base; split; omega; split <;> omega
  omega

/-- A row is handled: what the bookkeeping of the copies needs to know. -/
structure Handled1 (src : Nat) (c c' : St) (w : CpWalk) (dd k id new : Nat) (q : List (Nat × Nat × Nat)) (cache M M' : List (Nat × Nat)) : Prop where
  ext : ∀ i i', AL.get M i = some i' → AL.get M' i = some i'
  spl : ∀ i i', AL.get M' i = some i' → AL.get M i = some i' ∨ (AL.get M id = none ∧ new = c.db.seq + 1 ∧ i = id ∧ i' = new)
  me : AL.get M' id = some new
  con : ∀ p j, AL.get c'.db.contents (p, j) = if (p, j) = (dd, k) then some new else AL.get c.db.contents (p, j)
  ino : ∀ i, i ≠ new → AL.get c'.db.inodes i = AL.get c.db.inodes i
  xat : ∀ i k, i ≠ new → AL.get c'.db.xattrs (i, k) = AL.get c.db.xattrs (i, k)
  sym : ∀ i, i ≠ new → AL.get c'.db.symlinks i = AL.get c.db.symlinks i
  blk : ∀ i k, i ≠ new → AL.get c'.db.blocks (i, k) = AL.get c.db.blocks (i, k)
  copy : ∃ a b, AL.get c'.db.inodes id = some a ∧ AL.get c'.db.inodes new = some b ∧ CopyOf' a b ∧
    (∀ k, AL.get c'.db.xattrs (new, k) = AL.get c'.db.xattrs (id, k)) ∧ AL.get c'.db.symlinks new = AL.get c'.db.symlinks id ∧
    (∀ k, AL.get c'.db.blocks (new, k) = AL.get c'.db.blocks (id, k))
  qu : ∀ t, t ∈ q → t ∈ w.queue ∨ t = (id, new, 0)
  que : ∀ t, t ∈ w.queue → t ∈ q
  qn : AL.get M id = none → ∀ k x, AL.get c.db.contents (id, k) = some x → (id, new, 0) ∈ q
  ca : ∀ i x, AL.get cache i = some x → AL.get w.cache i = some x ∨ (i = id ∧ x = new)
  cae : ∀ i x, AL.get w.cache i = some x → AL.get cache i = some x
  can : AL.get M id = none → c.db.rc id ≠ 1 → AL.get cache id = some new
  hnew : c.db.seq < new ∨ AL.get M id = some new

theorem Ex.put {S : Nat → Prop} {src tmp : Nat} {c c' : St} {w : CpWalk} {sd dd k id new : Nat} {q : List (Nat × Nat × Nat)} {cache M M' : List (Nat × Nat)} {C : List Nat}
    (h : Ex S src tmp c (.row w sd dd k id) C M) (e : Handled1 src c c' w dd k id new q cache M M') (hseq : tmp ≤ c.db.seq) (hfree : AL.get c.db.contents (dd, k) = none)
    (hfr : ∀ j, c.db.seq < new → AL.get c.db.contents (new, j) = none) (hval : ∀ i i', AL.get M i = some i' → i' ≤ c.db.seq) {pc' : CpPc}
    (hw1 : ∀ t, t ∈ pc'.work ↔ t = (sd, dd, k + 1) ∨ t ∈ q) (hw2 : pc'.cache = cache) (hw3 : ∀ w sd dd k id, pc' ≠ .row w sd dd k id) :
    Ex S src tmp c' pc' (id :: C) M' := by
  have hM : AL.get M sd = some dd := h.work sd dd k (List.mem_cons_self ..)
  have hge : ∀ i i', AL.get M i = some i' → tmp ≤ i' := by
    intro i i' hi
    by_cases hs : i = src
    · subst hs; rw [h.mSrc] at hi; cases hi; exact Nat.le_refl _
    · exact Nat.le_of_lt (h.mNew i i' hi hs)
  have hdd := hge sd dd hM
  have hrow := h.row w sd dd k id rfl
  obtain ⟨hSid, hids⟩ := h.sOut sd k id (h.mS sd dd hM) hrow
  have hidlt := h.sLt id hSid
  have hnt : tmp < new := by
    rcases e.hnew with h1 | h1
    · omega
    · exact h.mNew id new h1 hids
  have hSn : ∀ i, S i → i ≠ new := fun i hi e => by have := h.sLt i hi; omega
  have hSc : ∀ i j, S i → AL.get c'.db.contents (i, j) = AL.get c.db.contents (i, j) := fun i j hi => by
    rw [e.con, if_neg]
    intro e; cases e
    have := h.sLt _ hi; omega
  have hS' : ∀ i i', AL.get M' i = some i' → S i := by
    intro i i' hi
    rcases e.spl i i' hi with h1 | ⟨_, _, h1, _⟩
    · exact h.mS i i' h1
    · exact h1 ▸ hSid
  have hinj : ∀ i j x, AL.get M' i = some x → AL.get M' j = some x → i = j := by
    intro i j x hi hj
    rcases e.spl i x hi with h1 | ⟨_, h1, h2, h3⟩ <;> rcases e.spl j x hj with h4 | ⟨_, h4, h5, h6⟩
    · exact h.mInj i j x h1 h4
    · have := hval i x h1; omega
    · have := hval j x h4; omega
    · rw [h2, h5]
  have hcm : ∀ p j x, AL.get c.db.contents (p, j) = some x → AL.get c'.db.contents (p, j) = some x := by
    intro p j x hx
    rw [e.con, if_neg]
    · exact hx
    · intro e; cases e; rw [hfree] at hx; cases hx
  refine ⟨h.sLt, fun p j x hp hx => ?_, hinj, e.ext _ _ h.mSrc, fun i i' hi hne => ?_, fun i i' hi => ?_, hS', fun i i' hi hne => ?_, fun i i' hi hne => ?_, fun i i' j c'' hi hc => ?_,
    fun i i' j x hi hx => ?_, fun i i' lo hm => ?_, fun i i' hi hne => ?_, fun i i' hi => ?_, fun i i' hi hne hr => ?_, fun w' sd' dd' k' id' ee => absurd ee (hw3 _ _ _ _ _)⟩
  · rw [hSc p j hp] at hx; exact h.sOut p j x hp hx
  · rcases e.spl i i' hi with h1 | ⟨_, _, _, h3⟩
    · exact h.mNew i i' h1 hne
    · rw [h3]; exact hnt
  · rcases e.spl i i' hi with h1 | ⟨_, _, _, h3⟩
    · exact (h.mIn i i' h1).mono hcm
    · rw [h3]
      exact ((h.mIn sd dd hM).mono hcm).row (k := k) (by rw [e.con, if_pos rfl])
  · rcases e.spl i i' hi with h1 | ⟨_, _, h2, _⟩
    · exact List.mem_cons_of_mem _ (h.mC i i' h1 hne)
    · rw [h2]; exact List.mem_cons_self ..
  · by_cases hid : i = id
    · subst hid
      rw [e.me] at hi; cases hi
      exact e.copy
    · have hn : i' ≠ new := fun e1 => hid (hinj i id new (e1 ▸ hi) e.me)
      have hold : AL.get M i = some i' := (e.spl i i' hi).resolve_right (fun h1 => hid h1.2.2.1)
      have hni := hSn i (hS' i i' hi)
      obtain ⟨a, b, h1, h2, h3, h4, h5, h6⟩ := h.copy i i' hold hne
      refine ⟨a, b, by rw [e.ino i hni]; exact h1, by rw [e.ino i' hn]; exact h2, h3, fun j => ?_, ?_, fun j => ?_⟩
      · rw [e.xat _ _ hn, e.xat _ _ hni]; exact h4 j
      · rw [e.sym _ hn, e.sym _ hni]; exact h5
      · rw [e.blk _ _ hn, e.blk _ _ hni]; exact h6 j
  · rw [e.con] at hc
    rw [hSc i j (hS' i i' hi)]
    split at hc
    · rename_i e1
      cases e1; cases hc
      have : i = sd := hinj i sd dd hi (e.ext _ _ hM)
      subst this
      exact ⟨id, hrow, e.me, hids⟩
    · rcases e.spl i i' hi with h1 | ⟨_, h1, _, h3⟩
      · obtain ⟨x, hx, hm, hxs⟩ := h.ent i i' j c'' h1 hc
        exact ⟨x, hx, e.ext _ _ hm, hxs⟩
      · rw [h3, hfr j (by omega)] at hc; cases hc
  · rw [hSc i j (hS' i i' hi)] at hx
    rcases e.spl i i' hi with h1 | ⟨h0, h1, h2, h3⟩
    · rcases h.todo i i' j x h1 hx with h2 | ⟨lo, h2, h3⟩
      · left
        obtain ⟨y, hy⟩ := Option.ne_none_iff_exists'.1 h2
        rw [hcm _ _ _ hy]; simp
      · rcases List.mem_cons.1 h2 with e1 | h2
        · cases e1
          by_cases hj : j = k
          · subst hj
            left; rw [e.con, if_pos rfl]; simp
          · right
            exact ⟨k + 1, (hw1 _).2 (Or.inl rfl), by omega⟩
        · exact Or.inr ⟨lo, (hw1 _).2 (Or.inr (e.que _ h2)), h3⟩
    · right
      subst h2 h3
      exact ⟨0, (hw1 _).2 (Or.inr (e.qn h0 j x hx)), Nat.zero_le _⟩
  · rcases (hw1 _).1 hm with e1 | hm
    · cases e1; exact e.ext _ _ hM
    · rcases e.qu _ hm with h1 | h1
      · exact e.ext _ _ (h.work i i' lo (List.mem_cons_of_mem _ h1))
      · cases h1; exact e.me
  · rcases e.spl i i' hi with h1 | ⟨_, _, h2, h3⟩
    · obtain ⟨j, j', l, hj, hc⟩ := h.link i i' h1 hne
      exact ⟨j, j', l, e.ext _ _ hj, hcm _ _ _ hc⟩
    · subst h2 h3
      exact ⟨sd, dd, k, e.ext _ _ hM, by rw [e.con, if_pos rfl]⟩
  · rw [hw2] at hi
    rcases e.ca i i' hi with h1 | ⟨h1, h2⟩
    · obtain ⟨h2, h3⟩ := h.cacheM i i' h1
      exact ⟨e.ext _ _ h2, h3⟩
    · subst h1 h2; exact ⟨e.me, hids⟩
  · have hr : c.db.rc i ≠ 1 := by
      unfold Db.rc at hr ⊢
      rw [e.ino i (hSn i (hS' i i' hi))] at hr; exact hr
    rw [hw2]
    rcases e.spl i i' hi with h1 | ⟨h0, _, h2, h3⟩
    · exact e.cae _ _ (h.cacheAll i i' h1 hne hr)
    · subst h2 h3; exact e.can h0 hr

end Verif.Fs
