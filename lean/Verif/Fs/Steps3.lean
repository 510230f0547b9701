/-
The effect of `rename`, `setattr`, `open`, `create` and `readdir`, and of every operation.
-/
import Verif.Fs.Steps2

namespace Verif.Fs

variable {T : Nat → Prop}

/-! #### Renaming -/

set_option maxHeartbeats 1000000 in
theorem eff_rename {L : Nat → Int} {s : St} (h : Inv T L s) {po pn : Nat} {no nn : Bytes} (flags : Nat) (now : Int)
    (hpo : Known s po) (hpn : Known s pn) (hrcp : 0 < s.db.rc pn)
    (hdiff : no ≠ ctrlName → nn ≠ ctrlName → ∀ a, s.db.child po no = some a → s.db.child pn nn ≠ some a) :
    Eff T L s (.rename po no pn nn flags now) (opRename s po no pn nn flags now).1 (opRename s po no pn nn flags now).2 := by
  unfold opRename
  split
  · exact Eff.same h rfl rfl rfl (fun _ => rfl) (by intro h; cases h)
  split
  · refine Eff.same h ?_ ?_ ?_ ?_ ?_
    · dsimp only; split <;> rfl
    · dsimp only; split <;> rfl
    · dsimp only; split <;> rfl
    · intro i; dsimp only; split <;> rfl
    · dsimp only
      split
      · intro h; cases h
      · rename_i hg
        intro _
        left
        cases h1 : s.db.getPathOk po with
        | false => exact ⟨po, by simp [dirsOf], h1⟩
        | true =>
          refine ⟨pn, by simp [dirsOf], ?_⟩
          cases h2 : s.db.getPathOk pn with
          | false => rfl
          | true => exact absurd ⟨h1, h2⟩ hg
  rename_i hctrl
  have hnn : nn ≠ ctrlName := fun h => hctrl (Or.inl h)
  have hno : no ≠ ctrlName := fun h => hctrl (Or.inr h)
  split
  · exact Eff.same h rfl rfl rfl (fun _ => rfl) (by intro h; cases h)
  obtain ⟨ipo, hipo⟩ := h.known_ex hpo
  obtain ⟨ipn, hipn⟩ := h.known_ex hpn
  simp only [hipo, hipn]
  split
  · exact Eff.same h rfl rfl rfl (fun _ => rfl) (by intro h; cases h)
  split
  · exact Eff.same h rfl rfl rfl (fun _ => rfl) (by intro h; cases h)
  rcases lookup_spec h po no with ⟨e, h1, h2⟩ | ⟨idOld, h1, hex, hinv1, hc, _⟩
  · rw [h1]
    refine Eff.same h rfl rfl rfl (fun _ => rfl) ?_
    intro hcr; rw [(h2 hno).1] at hcr; cases hcr
  rw [h1]
  simp only
  have hco := hc hno
  rcases lookup_spec hinv1 pn nn with ⟨e, h3, h4⟩ | ⟨idNew, h3, hex2, hinv2, hc2, _⟩
  · -- no entry at the target
    rw [h3]
    obtain ⟨he, hcn⟩ := h4 hnn
    subst he
    simp only
    have hcn' : s.db.child pn nn = none := hcn
    obtain ⟨db', hre, hA, hch, hino, hxa, hsy, hbl, hob, hsq, hcomp⟩ := h.acc.moveEntry h.Lnn now hco hcn' hrcp
    have hre' : renameTo (s.addOpen idOld 1).db po no pn nn now = some db' := hre
    simp only [hre']
    have hinv3 : Inv T L { s.addOpen idOld 1 with db := db' } := by
      refine ⟨hA, h.mpos, h.Lnn, hinv1.nkOp, ?_, ?_, ?_⟩
      · intro i c hi
        have := hinv1.opn i c hi
        refine ⟨?_, this.2⟩
        show AL.get db'.inodes i ≠ none
        have t1 : AL.get s.db.inodes i ≠ none := this.1
        rw [hino]; simpa using t1
      · intro i ino hi hz
        have hi' : AL.get db'.inodes i = some ino := hi
        rw [hino] at hi'
        cases hg : AL.get s.db.inodes i with
        | none => simp [hg] at hi'
        | some x =>
          rw [hg] at hi'; simp only [Option.map_some, Option.some.injEq] at hi'
          refine hinv1.zero i x hg ?_
          rw [← hz, ← hi']; split <;> rfl
      · refine hinv1.hid_of (fun t ht => (hinv1.hid t ht).1) ?_
        intro t i _ hi
        have hi : AL.get s.db.inodes t = some i := hi
        exact ⟨_, by rw [hino, hi]; rfl, by dsimp only; split <;> rfl⟩
    have hcnt3 : ∀ i, ({ s.addOpen idOld 1 with db := db' } : St).cnt i = s.cnt i + if i = idOld then 1 else 0 := by
      intro i; rw [← cnt_addOpen]; rfl
    have hfo : ForgetOk ({ s.addOpen idOld 1 with db := db' } : St).cnt [(idOld, 1)] := by
      refine ⟨by omega, ?_, trivial⟩
      rw [hcnt3, if_pos rfl]; have := h.cnt_nonneg idOld; omega
    obtain ⟨s4, hfe, hinv4, hfg, hcnt4⟩ := forget_spec [(idOld, 1)] hinv3 hfo
    simp only [hfe, finish]
    have hrest : Rest s { s.addOpen idOld 1 with db := db' } := by
      refine ⟨?_, ?_, ?_, rfl, rfl⟩
      · intro i n _ _
        exact xval_of_compat h.acc hA h.Lnn h.Lnn hcomp i (fun k => by rw [hxa]) n
      · intro i _ _; show AL.get db'.symlinks i = _; rw [hsy]
      · intro i k _ _; show AL.get db'.blocks (i, k) = _; rw [hbl]
    have hnn3 : NoNew s { s.addOpen idOld 1 with db := db' } := by
      intro i hi
      have hi' : AL.get db'.inodes i ≠ none := hi
      rw [hino] at hi'; simpa using hi'
    have hat3 : AttrsOk s { s.addOpen idOld 1 with db := db' } := by
      intro i a b ha hb
      have hb' : AL.get db'.inodes i = some b := hb
      rw [hino, ha] at hb'
      simp only [Option.map_some, Option.some.injEq] at hb'
      rw [← hb']; split
      · exact ⟨rfl, rfl, rfl, rfl, rfl, rfl⟩
      · exact SameAttr.refl a
    refine Eff.ns hinv4 (hrest.trans hfg.rest (fun i _ h3 => hfg.noNew i h3)) (hnn3.trans hfg.noNew) (hat3.trans hfg.attrs hfg.noNew) ?_ rfl rfl ?_ (by intro h; cases h)
    · intro p' n'
      rw [hfg.child]
      refine (hch p' n').trans ?_
      simp only [specEntries, hco]
    · intro i
      rw [hcnt4, hcnt3]
      simp only [forgetSum, kernelDelta]
      exact ⟨by omega, fun _ => by omega⟩
  · -- replacing
    rw [h3]
    simp only
    have hcn : s.db.child pn nn = some idNew := hc2 hnn
    have hne : idOld ≠ idNew := by rintro rfl; exact hdiff hno hnn _ hco hcn
    have hcnt2 : ∀ i, ((s.addOpen idOld 1).addOpen idNew 1).cnt i = s.cnt i + (if i = idOld then 1 else 0) + if i = idNew then 1 else 0 := by
      intro i; rw [cnt_addOpen, cnt_addOpen]
    have hco2 : ((s.addOpen idOld 1).addOpen idNew 1).db.child po no = some idOld := hco
    have hcn2 : ((s.addOpen idOld 1).addOpen idNew 1).db.child pn nn = some idNew := hcn
    rcases replace_spec hinv2 hco2 hcn2 hne now with ⟨e, hre, _, hee⟩ | ⟨s3, hre, _, hinv3, hrest, hop, _, hchild, hino⟩
    · rw [hre]
      refine Eff.quiet hinv2 rfl rfl rfl rfl rfl ?_ ?_
      · intro i; dsimp only; rw [hcnt2]
        refine ⟨by simp only [kernelDelta]; split <;> split <;> omega, ?_⟩
        rintro (⟨r, hr⟩ | hr)
        · cases hr
        · exact absurd trivial hr
      · intro hcr
        have hec : e = .crash := by simpa using hcr
        left
        refine ⟨pn, by simp [dirsOf], ?_⟩
        cases hp : s.db.getPathOk pn with
        | false => rfl
        | true =>
          have hp' : ((s.addOpen idOld 1).addOpen idNew 1).db.getPathOk pn = true := hp
          rw [if_pos hp', hec] at hee; cases hee
    · rw [hre]
      simp only
      have hcnt3 : ∀ i, s3.cnt i = s.cnt i + (if i = idOld then 1 else 0) + if i = idNew then 1 else 0 := by
        intro i; rw [← hcnt2]; unfold St.cnt; rw [hop]
      have hfo : ForgetOk s3.cnt [(idOld, 1), (idNew, 1)] := by
        refine ⟨by omega, ?_, by omega, ?_, trivial⟩
        · rw [hcnt3, if_pos rfl]; have := h.cnt_nonneg idOld; split <;> omega
        · have := h.cnt_nonneg idNew
          have e : idNew ≠ idOld := fun e => hne e.symm
          simp only [hcnt3, if_neg e, if_true]; omega
      obtain ⟨s4, hfe, hinv4, hfg, hcnt4⟩ := forget_spec _ hinv3 hfo
      simp only [hfe, finish]
      have hrest03 : Rest s s3 := ⟨hrest.xval, hrest.sym, hrest.blk, hrest.fs, hrest.mx⟩
      have hnn3 : NoNew s s3 := by
        intro i hi
        rcases hino i with h1 | h1
        · exact absurd h1.1 hi
        · rw [h1] at hi
          intro h0
          have h0' : AL.get ((s.addOpen idOld 1).addOpen idNew 1).db.inodes i = none := h0
          rw [h0'] at hi; exact absurd rfl hi
      have hat3 : AttrsOk s s3 := by
        intro i a b ha hb
        have ha' : AL.get ((s.addOpen idOld 1).addOpen idNew 1).db.inodes i = some a := ha
        rcases hino i with h1 | h1
        · rw [h1.1] at hb; cases hb
        · rw [h1, ha'] at hb
          simp only [Option.map_some, Option.some.injEq] at hb
          rw [← hb]; exact replacedF_same _ _ _ _ _ _
      refine Eff.ns hinv4 (hrest03.trans hfg.rest (fun i _ h3 => hfg.noNew i h3)) (hnn3.trans hfg.noNew) (hat3.trans hfg.attrs hfg.noNew) ?_ rfl rfl ?_ (by intro h; cases h)
      · intro p' n'
        rw [hfg.child]
        refine (hchild p' n').trans ?_
        simp only [specEntries, hco]
        by_cases e1 : p' = po ∧ n' = no
        · by_cases e2 : p' = pn ∧ n' = nn
          · obtain ⟨rfl, rfl⟩ := e1
            obtain ⟨rfl, rfl⟩ := e2
            rw [hco] at hcn; cases hcn; exact absurd rfl hne
          · rw [if_pos e1, if_neg e2, if_pos e1]
        · rw [if_neg e1]
          by_cases e2 : p' = pn ∧ n' = nn
          · rw [if_pos e2, if_pos e2]
          · rw [if_neg e2, if_neg e2, if_neg e1]; rfl
      · intro i
        rw [hcnt4, hcnt3]
        simp only [forgetSum, kernelDelta]
        exact ⟨by omega, fun _ => by omega⟩

/-! #### Attributes and sizes -/

/-- What `setattr` of an inode leaves alone. -/
structure Cut (T : Nat → Prop) (L : Nat → Int) (s : St) (id : Nat) (s' : St) : Prop where
  inv : Inv T L s'
  opened : s'.opened = s.opened
  child : ∀ p n, s'.db.child p n = s.db.child p n
  xval : ∀ i n, s'.db.xval i n = s.db.xval i n
  sym : s'.db.symlinks = s.db.symlinks
  ex : ∀ i, AL.get s'.db.inodes i = none ↔ AL.get s.db.inodes i = none
  other : ∀ i, i ≠ id → AL.get s'.db.inodes i = AL.get s.db.inodes i
  blk : ∀ i k, i ≠ id → AL.get s'.db.blocks (i, k) = AL.get s.db.blocks (i, k)
  mx : s'.maxObj = s.maxObj
  con : s'.db.contents = s.db.contents ∧ s'.db.names = s.db.names ∧ s'.db.xattrs = s.db.xattrs ∧ s'.db.seq = s.db.seq

theorem Cut.refl {L : Nat → Int} {s : St} (h : Inv T L s) (id : Nat) : Cut T L s id s :=
  ⟨h, rfl, fun _ _ => rfl, fun _ _ => rfl, rfl, fun _ => Iff.rfl, fun _ _ => rfl, fun _ _ _ => rfl, rfl, rfl, rfl, rfl, rfl⟩

theorem modInode_cacheRemove (db : Db) (id lo hi : Nat) (f : Inode → Inode) :
    (db.modInode id f).cacheRemove id lo hi = (db.cacheRemove id lo hi).modInode id f := by
  unfold Db.modInode
  show Db.cacheRemove _ _ _ _ = match AL.get db.inodes id with | _ => _
  cases hg : AL.get db.inodes id with
  | none => simp only [Db.cacheRemove, hg]
  | some i => simp only [Db.cacheRemove, hg]

theorem modInode_const {db : Db} {id : Nat} {i : Inode} (g : Inode → Inode) (h : AL.get db.inodes id = some i) :
    db.modInode id (fun _ => g i) = db.modInode id g := by
  unfold Db.modInode; rw [h]

theorem removeBlocks_empty (id a : Nat) : ∀ (bl : List ((Nat × Nat) × Nat)) (ob : List (Nat × Int)), removeBlocks id a a bl ob = (bl, ob)
  | [], _ => rfl
  | ((i, b), o) :: t, ob => by
    unfold removeBlocks
    rw [if_neg (by omega), removeBlocks_empty id a t ob]

theorem cut_of {L : Nat → Int} {s : St} (h : Inv T L s) (id lo up : Nat) (g : Inode → Inode) (fsv : Bool)
    (hr : ∀ i, (g i).refcount = i.refcount)
    (hs : ∀ i, AL.get s.db.inodes id = some i → i.size ≤ (g i).size ∨
      ∀ b o, AL.get s.db.blocks (id, b) = some o → b * s.maxObj < (g i).size ∨ (lo ≤ b ∧ b < up)) :
    Cut T L s id { s with db := (s.db.cacheRemove id lo up).modInode id g, failsafe := fsv } := by
  obtain ⟨ha, hget⟩ := h.acc.cacheRemove id lo up
  have ha2 := ha.modInode id g hr (by
    intro i hi'
    rcases hs i hi' with h1 | h1
    · left; exact h1
    · right
      intro b o hb
      rw [hget] at hb
      split at hb
      · cases hb
      · rename_i hn
        rcases h1 b o hb with h2 | h2
        · exact h2
        · exact absurd ⟨rfl, h2⟩ hn)
  have hin : ∀ i, AL.get ((s.db.cacheRemove id lo up).modInode id g).inodes i = if i = id then (AL.get s.db.inodes id).map g else AL.get s.db.inodes i := by
    intro i; rw [modInode_get]; rfl
  have hrr := modInode_rest (s.db.cacheRemove id lo up) id g
  have hex : ∀ i, AL.get ((s.db.cacheRemove id lo up).modInode id g).inodes i = none ↔ AL.get s.db.inodes i = none := by
    intro i; rw [hin]; split
    · rename_i e; subst e; simp
    · rfl
  refine ⟨⟨ha2, h.mpos, h.Lnn, h.nkOp, ?_, ?_, ?_⟩, rfl, ?_, ?_, hrr.2.2.2.1, hex, ?_, ?_, rfl, hrr.2.1, hrr.1, hrr.2.2.1, hrr.2.2.2.2.2.2⟩
  · intro i c hc
    have := h.opn i c hc
    exact ⟨fun h0 => this.1 ((hex i).1 h0), this.2⟩
  · intro i ino hi hz
    have hi' : AL.get ((s.db.cacheRemove id lo up).modInode id g).inodes i = some ino := hi
    rw [hin] at hi'
    split at hi'
    · rename_i e; subst e
      cases hg : AL.get s.db.inodes i with
      | none => simp [hg] at hi'
      | some x =>
        rw [hg] at hi'; simp only [Option.map_some, Option.some.injEq] at hi'
        exact h.zero i x hg (by rw [← hr, hi']; exact hz)
    · exact h.zero i ino hi' hz
  · refine h.hid_of (fun t ht => (h.hid t ht).1) ?_
    intro t i _ hi
    rw [hin]
    split
    · rename_i e; subst e; rw [hi]; exact ⟨_, rfl, hr i⟩
    · exact ⟨i, hi, rfl⟩
  · intro p n; exact modInode_child _ id g p n
  · intro i n; exact modInode_xval _ id g i n
  · intro i hi; show AL.get ((s.db.cacheRemove id lo up).modInode id g).inodes i = _; rw [hin, if_neg hi]
  · intro i k hi
    show AL.get ((s.db.cacheRemove id lo up).modInode id g).blocks (i, k) = _
    rw [hrr.2.2.2.2.1, hget, if_neg (fun e => hi e.1)]

theorem cut_mod {L : Nat → Int} {s : St} (h : Inv T L s) (id : Nat) (g : Inode → Inode)
    (hr : ∀ i, (g i).refcount = i.refcount) (hs : ∀ i, i.size ≤ (g i).size) :
    Cut T L s id { s with db := s.db.modInode id g } := by
  have := cut_of h id 0 0 g s.failsafe hr (fun i _ => Or.inl (hs i))
  have e : s.db.cacheRemove id 0 0 = s.db := by unfold Db.cacheRemove; rw [removeBlocks_empty]
  rw [e] at this; exact this

theorem setattr_cut {L : Nat → Int} {s : St} (h : Inv T L s) {id : Nat} (hk : AL.get s.db.inodes id ≠ none) (a : SetAttr) (corrupt missing : Bool) (now : Int) :
    Cut T L s id (opSetattr s id a corrupt missing now).2 ∧
    ((opSetattr s id a corrupt missing now).1 = .error .crash → missing = true) ∧
    (∀ r, (opSetattr s id a corrupt missing now).1 = .ok r → ∃ ino, r = .entry id ino ∧ AL.get (opSetattr s id a corrupt missing now).2.db.inodes id = some ino) := by
  obtain ⟨i, hi⟩ := Option.ne_none_iff_exists'.1 hk
  unfold opSetattr
  simp only [hi]
  split
  · exact ⟨Cut.refl h id, (by intro h; cases h), (by intro r h; cases h)⟩
  split
  · refine ⟨?_, (by intro h; cases h), (by intro r h; cases h)⟩
    rw [modInode_const (fun i => { i with mode := a.mode.getD i.mode, uid := a.uid.getD i.uid, gid := a.gid.getD i.gid }) hi]
    exact cut_mod h id _ (fun _ => rfl) (fun _ => Nat.le_refl _)
  split
  · refine ⟨?_, (by intro h; cases h), (by intro r h; cases h)⟩
    rw [modInode_const (fun i => { i with mode := a.mode.getD i.mode, uid := a.uid.getD i.uid, gid := a.gid.getD i.gid, atime := a.atime.getD i.atime }) hi]
    exact cut_mod h id _ (fun _ => rfl) (fun _ => Nat.le_refl _)
  cases hsz : a.size with
  | none =>
    simp only
    refine ⟨?_, (by intro h; cases h), ?_⟩
    · rw [modInode_const (fun i => { i with mode := a.mode.getD i.mode, uid := a.uid.getD i.uid, gid := a.gid.getD i.gid, atime := a.atime.getD i.atime, mtime := a.mtime.getD i.mtime, ctime := now }) hi]
      exact cut_mod h id _ (fun _ => rfl) (fun _ => Nat.le_refl _)
    · intro r hr
      cases hr
      refine ⟨_, rfl, ?_⟩
      simp only [modInode_get, if_true, hi, Option.map_some]
  | some len =>
    simp only
    have hfits : ∀ lo, lo * s.maxObj = len ∨ (lo - 1) * s.maxObj < len ∧ len < lo * s.maxObj → ∀ b o, AL.get s.db.blocks (id, b) = some o → b * s.maxObj < len ∨ (lo ≤ b ∧ b < ceilDiv i.size s.maxObj) := by
      intro lo hlo b o hb
      obtain ⟨ino, hino, hlt⟩ := h.acc.bin id b o hb
      rw [hi] at hino; cases hino
      by_cases hbl : b < lo
      · left
        rcases hlo with h1 | h1
        · rw [← h1]; exact Nat.mul_lt_mul_of_pos_right hbl h.mpos
        · exact Nat.lt_of_le_of_lt (Nat.mul_le_mul_right _ (by omega)) h1.1
      · right; exact ⟨by omega, lt_ceilDiv h.mpos hlt⟩
    have hg : s.db.modInode id (fun _ => { i with mode := a.mode.getD i.mode, uid := a.uid.getD i.uid, gid := a.gid.getD i.gid, atime := a.atime.getD i.atime, mtime := a.mtime.getD i.mtime, ctime := now, size := len }) = s.db.modInode id (fun i => { i with mode := a.mode.getD i.mode, uid := a.uid.getD i.uid, gid := a.gid.getD i.gid, atime := a.atime.getD i.atime, mtime := a.mtime.getD i.mtime, ctime := now, size := len }) :=
      modInode_const (fun i => { i with mode := a.mode.getD i.mode, uid := a.uid.getD i.uid, gid := a.gid.getD i.gid, atime := a.atime.getD i.atime, mtime := a.mtime.getD i.mtime, ctime := now, size := len }) hi
    have hdm := Nat.div_add_mod len s.maxObj
    have hml := Nat.mod_lt len h.mpos
    split
    · rename_i hmod
      rw [hg, modInode_cacheRemove]
      refine ⟨?_, (by intro h; cases h), ?_⟩
      · refine cut_of h id _ _ _ s.failsafe (fun _ => rfl) ?_
        intro i' hi'; rw [hi] at hi'; cases hi'
        right
        exact hfits (len / s.maxObj) (Or.inl (by rw [Nat.mul_comm]; omega))
      · intro r hr
        cases hr
        refine ⟨_, rfl, ?_⟩
        simp only [modInode_get, if_true]
        show (AL.get s.db.inodes id).map _ = _
        rw [hi]; rfl
    · rename_i hmod
      have hlo : (len / s.maxObj + 1 - 1) * s.maxObj < len ∧ len < (len / s.maxObj + 1) * s.maxObj := by
        refine ⟨?_, ?_⟩
        · rw [Nat.add_sub_cancel, Nat.mul_comm]; omega
        · rw [Nat.add_mul, Nat.one_mul, Nat.mul_comm]; omega
      have hcut : ∀ fsv, Cut T L s id { s with db := (s.db.modInode id (fun _ => { i with mode := a.mode.getD i.mode, uid := a.uid.getD i.uid, gid := a.gid.getD i.gid, atime := a.atime.getD i.atime, mtime := a.mtime.getD i.mtime, ctime := now, size := len })).cacheRemove id (len / s.maxObj + 1) (ceilDiv i.size s.maxObj), failsafe := fsv } := by
        intro fsv
        rw [hg, modInode_cacheRemove]
        refine cut_of h id _ _ _ fsv (fun _ => rfl) ?_
        intro i' hi'; rw [hi] at hi'; cases hi'
        right
        exact hfits _ (Or.inr hlo)
      split
      · rename_i hmis
        exact ⟨hcut s.failsafe, fun _ => hmis, (by intro r h; cases h)⟩
      split
      · exact ⟨hcut true, (by intro h; cases h), (by intro r h; cases h)⟩
      · refine ⟨hcut s.failsafe, (by intro h; cases h), ?_⟩
        intro r hr
        cases hr
        refine ⟨_, rfl, ?_⟩
        rw [modInode_cacheRemove]
        simp only [modInode_get, if_true]
        show (AL.get s.db.inodes id).map _ = _
        rw [hi]; rfl

theorem Cut.eff {L : Nat → Int} {s s' : St} {id : Nat} {op : Op} {res : Except Err Reply} (h : Cut T L s id s') (hw : writesTo op id)
    (he : specEntries s.db.child op res = s.db.child) (hx : specXattrs s.db.xval op res = s.db.xval)
    (hs : specSymlinks (AL.get s.db.symlinks) op res = AL.get s.db.symlinks)
    (hk : ∀ i, kernelDelta op res i = 0)
    (hcr : res = .error .crash → (∃ p ∈ dirsOf op, s.db.getPathOk p = false) ∨ (∃ id a c now, op = .setattr id a c true now)) :
    Eff T L s op res s' := by
  refine ⟨h.inv, ?_, ?_, ?_, ?_, ?_, ?_, hcr, h.mx⟩
  · intro p n; rw [he, h.child]
  · intro i n _; rw [hx, h.xval]
  · intro i _; rw [hs, h.sym]
  · intro i a b ha hb hnw
    have hi : i ≠ id := by rintro rfl; exact hnw hw
    rw [h.other i hi, ha] at hb; cases hb
    exact ⟨SameAttr.refl a, fun k => h.blk i k hi⟩
  · intro i hi hi'; exact absurd ((h.ex i).2 hi) hi'
  · intro i
    have : s'.cnt i = s.cnt i := by unfold St.cnt; rw [h.opened]
    rw [this, hk]; exact ⟨by omega, fun _ => by omega⟩

theorem eff_setattr {L : Nat → Int} {s : St} (h : Inv T L s) {id : Nat} (hk : Known s id) (a : SetAttr) (c m : Bool) (now : Int) :
    Eff T L s (.setattr id a c m now) (opSetattr s id a c m now).1 (opSetattr s id a c m now).2 := by
  obtain ⟨ino, hino⟩ := h.known_ex hk
  obtain ⟨h1, h2, h3⟩ := setattr_cut h (id := id) (by rw [hino]; simp) a c m now
  refine h1.eff rfl ?_ ?_ ?_ ?_ ?_
  · rfl
  · rfl
  · rfl
  · intro i; rfl
  · intro hc
    have := h2 hc
    subst this
    exact Or.inr ⟨id, a, c, now, rfl⟩

theorem open_cut {L : Nat → Int} {s : St} (h : Inv T L s) {id : Nat} (hk : AL.get s.db.inodes id ≠ none) (flags : Nat) (now : Int) :
    Cut T L s id (opOpen s id flags now).2 ∧ (opOpen s id flags now).1 ≠ .error .crash ∧
    (∀ r, (opOpen s id flags now).1 = .ok r → r = .fh id) := by
  obtain ⟨i, hi⟩ := Option.ne_none_iff_exists'.1 hk
  unfold opOpen
  simp only [hi]
  split
  · exact ⟨Cut.refl h id, (by intro h; cases h), (by intro r h; cases h)⟩
  split
  · split
    · exact ⟨Cut.refl h id, (by intro h; cases h), (by intro r h; cases h)⟩
    · split
      · obtain ⟨h1, h2, h3⟩ := setattr_cut h hk { mtime := some now, size := some 0 } false false now
        generalize opSetattr s id { mtime := some now, size := some 0 } false false now = r at *
        obtain ⟨r1, r2⟩ := r
        cases r1 with
        | ok r => exact ⟨h1, (by intro h; cases h), (by intro r h; cases h; rfl)⟩
        | error e =>
          refine ⟨h1, ?_, (by intro r h; cases h)⟩
          intro he
          have := h2 he
          cases this
      · split
        · exact ⟨Cut.refl h id, (by intro h; cases h), (by intro r h; cases h; rfl)⟩
        · exact ⟨Cut.refl h id, (by intro h; cases h), (by intro r h; cases h)⟩
  · exact ⟨Cut.refl h id, (by intro h; cases h), (by intro r h; cases h; rfl)⟩

theorem eff_open {L : Nat → Int} {s : St} (h : Inv T L s) {id : Nat} (hk : Known s id) (flags : Nat) (now : Int) :
    Eff T L s (.open id flags now) (opOpen s id flags now).1 (opOpen s id flags now).2 := by
  obtain ⟨ino, hino⟩ := h.known_ex hk
  obtain ⟨h1, h2, h3⟩ := open_cut h (id := id) (by rw [hino]; simp) flags now
  exact h1.eff rfl rfl rfl rfl (fun _ => rfl) (fun hc => absurd hc h2)

theorem eff_create {L : Nat → Int} {s : St} (h : Inv T L s) {p : Nat} (hk : Known s p) (n : Bytes) (mode flags uid gid : Nat) (now : Int) :
    Eff T L s (.create p n mode flags uid gid now) (opCreate s p n mode flags uid gid now).1 (opCreate s p n mode flags uid gid now).2 := by
  unfold opCreate
  split
  · exact Eff.same h rfl rfl rfl (fun _ => rfl) (by intro h; cases h)
  cases hc : s.db.child p n with
  | none =>
    exact eff_creation h mode uid gid 0 0 now hc hk none (fun _ => rfl) (fun _ _ => rfl) (fun _ => rfl) (fun _ => rfl)
      (fun _ _ => by simp [specSymlinks]) (fun _ _ => rfl) (fun _ _ _ => rfl) (by simp [dirsOf]) rfl
  | some id =>
    simp only
    have hex := (h.child_pos hc).2.1
    obtain ⟨h1, h2, h3⟩ := open_cut h hex flags now
    generalize opOpen s id flags now = r at *
    obtain ⟨r1, s'⟩ := r
    cases r1 with
    | error e => exact h1.eff trivial rfl rfl rfl (fun _ => rfl) (fun hc => absurd hc h2)
    | ok r =>
      simp only at h1 ⊢
      have hex' : AL.get s'.db.inodes id ≠ none := fun h0 => hex ((h1.ex id).1 h0)
      obtain ⟨ino, hino⟩ := Option.ne_none_iff_exists'.1 hex'
      have hee : entryReply s' id = (.ok (.entry id ino), s'.addOpen id 1) := by
        unfold entryReply
        have : AL.get (s'.addOpen id 1).db.inodes id = some ino := hino
        simp only [this]
      rw [hee]
      refine ⟨h1.inv.addOpen hex' (by omega) (h.notT_child hc), ?_, ?_, ?_, ?_, ?_, ?_, (by intro h; cases h), h1.mx⟩
      · intro p' n'
        refine (h1.child p' n').trans ?_
        simp only [specEntries]
        split
        · rename_i e; obtain ⟨rfl, rfl⟩ := e; exact hc
        · rfl
      · intro i n' _; exact h1.xval i n'
      · intro i _; show AL.get s'.db.symlinks i = _; rw [h1.sym]; rfl
      · intro i a b _ _ hw; exact absurd trivial hw
      · intro i hi hi'; exact absurd ((h1.ex i).2 hi) hi'
      · intro i
        rw [cnt_addOpen]
        have : s'.cnt i = s.cnt i := by unfold St.cnt; rw [h1.opened]
        rw [this]
        exact ⟨Int.le_refl _, fun _ => rfl⟩

end Verif.Fs
