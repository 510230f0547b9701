/-
The effect of every file system operation, proved for each from the post-conditions of its parts.
-/
import Verif.Fs.Parts
import Verif.Fs.Spec

namespace Verif.Fs

variable {T : Nat → Prop}

/-- The kernel knows an inode while it holds lookups of it that it has not forgotten. -/
def Known (s : St) (id : Nat) : Prop := AL.get s.opened id ≠ none

/-- The requests in terms of the tables. -/
def KernelOk (s : St) : Op → Prop
  | .lookup p _ => Known s p
  | .getattr id => Known s id
  | .readlink id _ => Known s id
  | .readdir p _ _ _ => Known s p
  | .getxattr id _ => Known s id
  | .listxattr id => Known s id
  | .setxattr id _ _ _ => Known s id
  | .removexattr id n _ => Known s id ∧ (s.db.xval id n ≠ none ∨ s.db.nameId n = none)
  | .unlink p n _ => Known s p ∧ n ≠ ctrlName
  | .rmdir p n _ => Known s p ∧ n ≠ ctrlName
  | .mknod p n _ _ _ _ _ => Known s p ∧ s.db.child p n = none
  | .symlink p n _ _ _ _ => Known s p ∧ s.db.child p n = none
  | .link id p n _ => Known s id ∧ Known s p ∧ s.db.child p n = none
  | .rename po no pn nn _ _ => Known s po ∧ Known s pn ∧ 0 < s.db.rc pn ∧
      (no ≠ ctrlName → nn ≠ ctrlName → ∀ a, s.db.child po no = some a → s.db.child pn nn ≠ some a)
  | .setattr id _ _ _ _ => Known s id
  | .open id _ _ => Known s id
  | .create p _ _ _ _ _ _ => Known s p
  | .read id _ _ => Known s id
  | .write id _ _ _ _ => Known s id
  | .forget l => ForgetOk s.cnt l
  | .upload _ _ _ => True

/-- Everything that is known about one step. -/
structure Eff (T : Nat → Prop) (L' : Nat → Int) (s : St) (op : Op) (res : Except Err Reply) (s' : St) : Prop where
  inv : Inv T L' s'
  child : ∀ p n, s'.db.child p n = specEntries s.db.child op res p n
  xval : ∀ i n, AL.get s'.db.inodes i ≠ none → s'.db.xval i n = specXattrs s.db.xval op res i n
  sym : ∀ i, AL.get s'.db.inodes i ≠ none → AL.get s'.db.symlinks i = specSymlinks (AL.get s.db.symlinks) op res i
  body : ∀ i a b, AL.get s.db.inodes i = some a → AL.get s'.db.inodes i = some b → ¬writesTo op i →
    SameAttr a b ∧ ∀ k, AL.get s'.db.blocks (i, k) = AL.get s.db.blocks (i, k)
  fresh : ∀ i, AL.get s.db.inodes i = none → AL.get s'.db.inodes i ≠ none →
    i = s.db.seq + 1 ∧ (∃ ino, res = .ok (.entry i ino)) ∧ ∀ k, AL.get s'.db.blocks (i, k) = none
  cnt : ∀ i, s.cnt i + kernelDelta op res i ≤ s'.cnt i ∧
    ((∃ r, res = .ok r) ∨ ¬looksUp op → s'.cnt i = s.cnt i + kernelDelta op res i)
  crash : res = .error .crash → (∃ p ∈ dirsOf op, s.db.getPathOk p = false) ∨ (∃ id a c now, op = .setattr id a c true now)
  mx : s'.maxObj = s.maxObj

theorem SameAttr.refl (a : Inode) : SameAttr a a := ⟨rfl, rfl, rfl, rfl, rfl, rfl⟩

theorem SameAttr.trans {a b c : Inode} (h : SameAttr a b) (h' : SameAttr b c) : SameAttr a c := by
  obtain ⟨h1, h2, h3, h4, h5, h6⟩ := h
  obtain ⟨g1, g2, g3, g4, g5, g6⟩ := h'
  exact ⟨h1.trans g1, h2.trans g2, h3.trans g3, h4.trans g4, h5.trans g5, h6.trans g6⟩

/-- An operation that changes nothing (or only lookup counts it does not report). -/
theorem Eff.quiet {L : Nat → Int} {s s' : St} {op : Op} {res : Except Err Reply} (h : Inv T L s') (hdb : s'.db = s.db)
    (hmx : s'.maxObj = s.maxObj)
    (he : specEntries s.db.child op res = s.db.child) (hx : specXattrs s.db.xval op res = s.db.xval)
    (hs : specSymlinks (AL.get s.db.symlinks) op res = AL.get s.db.symlinks)
    (hcnt : ∀ i, s.cnt i + kernelDelta op res i ≤ s'.cnt i ∧
      ((∃ r, res = .ok r) ∨ ¬looksUp op → s'.cnt i = s.cnt i + kernelDelta op res i))
    (hcr : res = .error .crash → (∃ p ∈ dirsOf op, s.db.getPathOk p = false) ∨ (∃ id a c now, op = .setattr id a c true now)) :
    Eff T L s op res s' := by
  refine ⟨h, ?_, ?_, ?_, ?_, ?_, hcnt, hcr, hmx⟩
  · intro p n; rw [he, hdb]
  · intro i n _; rw [hx, hdb]
  · intro i _; rw [hs, hdb]
  · intro i a b ha hb _
    rw [hdb] at hb ⊢; rw [ha] at hb; cases hb
    exact ⟨SameAttr.refl a, fun _ => rfl⟩
  · intro i hi hi'; rw [hdb] at hi'; exact absurd hi hi'

/-- An operation that changes nothing. -/
theorem Eff.same {L : Nat → Int} {s : St} {op : Op} {res : Except Err Reply} (h : Inv T L s)
    (he : specEntries s.db.child op res = s.db.child) (hx : specXattrs s.db.xval op res = s.db.xval)
    (hs : specSymlinks (AL.get s.db.symlinks) op res = AL.get s.db.symlinks)
    (hk : ∀ i, kernelDelta op res i = 0)
    (hcr : res = .error .crash → (∃ p ∈ dirsOf op, s.db.getPathOk p = false) ∨ (∃ id a c now, op = .setattr id a c true now)) :
    Eff T L s op res s :=
  Eff.quiet h rfl rfl he hx hs (fun i => ⟨by rw [hk i]; omega, fun _ => by rw [hk i]; omega⟩) hcr

theorem modInode_xval (db : Db) (id : Nat) (f : Inode → Inode) (i : Nat) (n : Bytes) :
    (db.modInode id f).xval i n = db.xval i n := by
  unfold Db.xval Db.nameId
  rw [(modInode_rest db id f).1, (modInode_rest db id f).2.2.1]

/-- `modInode` keeps the invariant if the reference count does not change and the size does not shrink. -/
theorem Inv.modInode {L : Nat → Int} {s : St} (h : Inv T L s) (id : Nat) (f : Inode → Inode)
    (hr : ∀ i, (f i).refcount = i.refcount) (hs : ∀ i, i.size ≤ (f i).size) :
    Inv T L { s with db := s.db.modInode id f } := by
  refine ⟨h.acc.modInode id f hr (fun i _ => Or.inl (hs i)), h.mpos, h.Lnn, h.nkOp, ?_, ?_, ?_⟩
  · intro i c hc
    have := h.opn i c hc
    refine ⟨?_, this.2⟩
    show AL.get (s.db.modInode id f).inodes i ≠ none
    rw [modInode_get]; split
    · rename_i he; subst he; simpa using this.1
    · exact this.1
  · intro i ino hi hz
    have hi' : AL.get (s.db.modInode id f).inodes i = some ino := hi
    rw [modInode_get] at hi'
    split at hi'
    · rename_i he; subst he
      cases hg : AL.get s.db.inodes i with
      | none => simp [hg] at hi'
      | some x =>
        rw [hg] at hi'; simp only [Option.map_some, Option.some.injEq] at hi'
        exact h.zero i x hg (by rw [← hr, hi']; exact hz)
    · exact h.zero i ino hi' hz
  · refine h.hid_of (fun t ht => (h.hid t ht).1) ?_
    intro t i _ hi
    rw [modInode_get]
    split
    · rename_i he; subst he; rw [hi]; exact ⟨f i, rfl, hr i⟩
    · exact ⟨i, hi, rfl⟩

/-- Operations that only modify one inode. -/
theorem Eff.modInode {L : Nat → Int} {s : St} {op : Op} {res : Except Err Reply} (h : Inv T L s) (id : Nat) (f : Inode → Inode) (fsv : Bool)
    (hr : ∀ i, (f i).refcount = i.refcount) (hsz : ∀ i, i.size ≤ (f i).size)
    (hsame : ¬writesTo op id → ∀ i, SameAttr i (f i))
    (he : specEntries s.db.child op res = s.db.child) (hx : specXattrs s.db.xval op res = s.db.xval)
    (hs : specSymlinks (AL.get s.db.symlinks) op res = AL.get s.db.symlinks)
    (hk : ∀ i, kernelDelta op res i = 0)
    (hcr : res = .error .crash → (∃ p ∈ dirsOf op, s.db.getPathOk p = false) ∨ (∃ id a c now, op = .setattr id a c true now)) :
    Eff T L s op res { s with db := s.db.modInode id f, failsafe := fsv } := by
  have hinv := h.modInode id f hr hsz
  refine ⟨⟨hinv.acc, hinv.mpos, hinv.Lnn, hinv.nkOp, hinv.opn, hinv.zero, hinv.hid⟩, ?_, ?_, ?_, ?_, ?_, ?_, hcr, rfl⟩
  · intro p n; rw [he]; exact modInode_child s.db id f p n
  · intro i n _; rw [hx]; exact modInode_xval s.db id f i n
  · intro i _; rw [hs]; show AL.get (s.db.modInode id f).symlinks i = _; rw [(modInode_rest s.db id f).2.2.2.1]
  · intro i a b ha hb hw
    have hb' : AL.get (s.db.modInode id f).inodes i = some b := hb
    rw [modInode_get] at hb'
    refine ⟨?_, ?_⟩
    · split at hb'
      · rename_i hi; subst hi
        rw [ha] at hb'; simp only [Option.map_some, Option.some.injEq] at hb'
        rw [← hb']; exact hsame hw a
      · rw [ha] at hb'; cases hb'; exact SameAttr.refl a
    · intro k; show AL.get (s.db.modInode id f).blocks (i, k) = _; rw [(modInode_rest s.db id f).2.2.2.2.1]
  · intro i hi hi'
    have hi2 : AL.get (s.db.modInode id f).inodes i ≠ none := hi'
    rw [modInode_get] at hi2
    split at hi2
    · rename_i h1; subst h1; rw [hi] at hi2; exact absurd rfl hi2
    · exact absurd hi hi2
  · intro i
    have : ({ s with db := s.db.modInode id f, failsafe := fsv } : St).cnt i = s.cnt i := rfl
    rw [this, hk i]
    exact ⟨by omega, fun _ => by omega⟩

theorem Inv.known_ex {L : Nat → Int} {s : St} (h : Inv T L s) {id : Nat} (hk : Known s id) : ∃ ino, AL.get s.db.inodes id = some ino := by
  obtain ⟨c, hc⟩ := Option.ne_none_iff_exists'.1 hk
  exact Option.ne_none_iff_exists'.1 (h.opn _ _ hc).1

theorem touchAtime_same (now : Int) (i : Inode) : SameAttr i (touchAtime now i) := by
  unfold touchAtime SameAttr; split <;> simp

theorem touchAtime_rc (now : Int) (i : Inode) : (touchAtime now i).refcount = i.refcount := by
  unfold touchAtime; split <;> rfl

theorem touchAtime_size (now : Int) (i : Inode) : (touchAtime now i).size = i.size := by
  unfold touchAtime; split <;> rfl

/-- the control file always exists -/
theorem Inv.ctrl_ex {L : Nat → Int} {s : St} (h : Inv T L s) : AL.get s.db.inodes ctrlInode ≠ none := by
  apply rc_pos_ne
  have := h.acc.rc ctrlInode
  have h2 := links_nonneg s.db ctrlInode
  have : base ctrlInode = 42 := rfl
  omega

/-! #### Simple operations -/

theorem eff_lookup {L : Nat → Int} {s : St} (h : Inv T L s) (p : Nat) (n : Bytes) :
    Eff T L s (.lookup p n) (opLookup s p n).1 (opLookup s p n).2 := by
  have hcr : ∀ e s', lookup s p n = (.error e, s') → e ≠ .crash := by
    intro e s' he
    rcases lookup_spec h p n with ⟨e', h1, h2⟩ | ⟨id, h1, _⟩
    · rw [h1] at he; cases he
      by_cases hn : n = ctrlName
      · unfold lookup at h1
        rw [if_pos hn] at h1
        cases hg : AL.get s.db.inodes ctrlInode with
        | none => exact absurd hg h.ctrl_ex
        | some v => rw [hg] at h1; cases h1
      · rw [(h2 hn).1]; simp
    · rw [h1] at he; cases he
  unfold opLookup
  rcases lookup_spec h p n with ⟨e, h1, h2⟩ | ⟨id, h1, hex, hinv, _, _⟩
  · rw [h1]
    exact Eff.same h rfl rfl rfl (fun _ => rfl) (fun hc => absurd (by simpa using hc) (hcr e s h1))
  · rw [h1]
    obtain ⟨ino, hino⟩ := Option.ne_none_iff_exists'.1 hex
    have : AL.get (s.addOpen id 1).db.inodes id = some ino := hino
    simp only [this]
    refine Eff.quiet hinv rfl rfl rfl rfl rfl ?_ (by intro h; cases h)
    intro i
    rw [cnt_addOpen]
    exact ⟨Int.le_refl _, fun _ => rfl⟩

theorem eff_getattr {L : Nat → Int} {s : St} (h : Inv T L s) {id : Nat} (hk : Known s id) :
    Eff T L s (.getattr id) (opGetattr s id).1 (opGetattr s id).2 := by
  obtain ⟨ino, hi⟩ := h.known_ex hk
  unfold opGetattr
  simp only [hi]
  exact Eff.same h rfl rfl rfl (fun _ => rfl) (by intro h; cases h)

theorem eff_readlink {L : Nat → Int} {s : St} (h : Inv T L s) {id : Nat} (hk : Known s id) (now : Int) :
    Eff T L s (.readlink id now) (opReadlink s id now).1 (opReadlink s id now).2 := by
  obtain ⟨ino, hi⟩ := h.known_ex hk
  unfold opReadlink
  simp only [hi]
  split
  all_goals
    exact Eff.modInode h id (touchAtime now) s.failsafe (touchAtime_rc now) (fun i => Nat.le_of_eq (touchAtime_size now i).symm)
      (fun _ i => touchAtime_same now i) rfl rfl rfl (fun _ => rfl) (by intro h; cases h)

theorem eff_getxattr {L : Nat → Int} {s : St} (h : Inv T L s) (id : Nat) (n : Bytes) :
    Eff T L s (.getxattr id n) (opGetxattr s id n).1 (opGetxattr s id n).2 := by
  unfold opGetxattr
  split
  · exact Eff.same h rfl rfl rfl (fun _ => rfl) (by intro h; cases h)
  · split <;> exact Eff.same h rfl rfl rfl (fun _ => rfl) (by intro h; cases h)

theorem eff_listxattr {L : Nat → Int} {s : St} (h : Inv T L s) (id : Nat) :
    Eff T L s (.listxattr id) (opListxattr s id).1 (opListxattr s id).2 :=
  Eff.same h rfl rfl rfl (fun _ => rfl) (by intro h; cases h)

theorem eff_read {L : Nat → Int} {s : St} (h : Inv T L s) {id : Nat} (hk : Known s id) (b : Bool) (now : Int) :
    Eff T L s (.read id b now) (opRead s id b now).1 (opRead s id b now).2 := by
  obtain ⟨ino, hi⟩ := h.known_ex hk
  unfold opRead
  simp only [hi]
  split
  · exact Eff.quiet ⟨h.acc, h.mpos, h.Lnn, h.nkOp, h.opn, h.zero, h.hid⟩ rfl rfl rfl rfl rfl
      (fun i => ⟨by simp [kernelDelta, St.cnt], fun _ => by simp [kernelDelta, St.cnt]⟩) (by intro h; cases h)
  · exact Eff.modInode h id (touchAtime now) s.failsafe (touchAtime_rc now) (fun i => Nat.le_of_eq (touchAtime_size now i).symm)
      (fun _ i => touchAtime_same now i) rfl rfl rfl (fun _ => rfl) (by intro h; cases h)

theorem eff_write {L : Nat → Int} {s : St} (h : Inv T L s) {id : Nat} (hk : Known s id) (off len : Nat) (b : Bool) (now : Int) :
    Eff T L s (.write id off len b now) (opWrite s id off len b now).1 (opWrite s id off len b now).2 := by
  obtain ⟨ino, hi⟩ := h.known_ex hk
  unfold opWrite
  simp only [hi]
  split
  · exact Eff.same h rfl rfl rfl (fun _ => rfl) (by intro h; cases h)
  split
  · exact Eff.same h rfl rfl rfl (fun _ => rfl) (by intro h; cases h)
  split
  · exact Eff.quiet ⟨h.acc, h.mpos, h.Lnn, h.nkOp, h.opn, h.zero, h.hid⟩ rfl rfl rfl rfl rfl
      (fun i => ⟨by simp [kernelDelta, St.cnt], fun _ => by simp [kernelDelta, St.cnt]⟩) (by intro h; cases h)
  · exact Eff.modInode h id _ s.failsafe (fun _ => rfl) (fun i => Nat.le_max_left _ _)
      (fun hw => absurd rfl hw) rfl rfl rfl (fun _ => rfl) (by intro h; cases h)

theorem eff_upload {L : Nat → Int} {s : St} (h : Inv T L s) (id b o : Nat) :
    Eff T L s (.upload id b o) (.ok .unit) (bgUpload s id b o) := by
  unfold bgUpload
  cases hi : AL.get s.db.inodes id with
  | none => exact Eff.same h rfl rfl rfl (fun _ => rfl) (by intro h; cases h)
  | some ino =>
    simp only
    split
    · rename_i hb
      split
      · exact Eff.same h rfl rfl rfl (fun _ => rfl) (by intro h; cases h)
      · rename_i hne
        have hA := h.acc.upload (o := o) hi hb.2 hne
        refine ⟨⟨hA, h.mpos, h.Lnn, h.nkOp, h.opn, h.zero, h.hid⟩, fun _ _ => rfl, fun _ _ _ => rfl, fun _ _ => rfl, ?_, ?_, ?_, (by intro h; cases h), rfl⟩
        · intro i a c ha hc hw
          have hc' : AL.get s.db.inodes i = some c := hc
          rw [ha] at hc'; cases hc'
          refine ⟨SameAttr.refl a, ?_⟩
          intro k
          simp only [writesTo] at hw
          show AL.get (AL.set s.db.blocks (id, b) o) (i, k) = _
          rw [AL.get_set_ne]
          intro he; cases he; exact hw rfl
        · intro i hi1 hi2; exact absurd hi1 hi2
        · intro i; exact ⟨by simp [kernelDelta, St.cnt], fun _ => by simp [kernelDelta, St.cnt]⟩
    · exact Eff.same h rfl rfl rfl (fun _ => rfl) (by intro h; cases h)

theorem eff_forget {L : Nat → Int} {s : St} (h : Inv T L s) (l : List (Nat × Int)) (hf : ForgetOk s.cnt l) :
    Eff T L s (.forget l) (finish (forget s l)).1 (finish (forget s l)).2 := by
  obtain ⟨s', he, hinv, hfg, hcnt⟩ := forget_spec l h hf
  rw [he]
  simp only [finish]
  refine ⟨hinv, hfg.child, fun i n hi => hfg.xval i n hi, fun i hi => hfg.sym i hi, ?_, ?_, ?_, (by intro h; cases h), hfg.mx⟩
  · intro i a b ha hb _
    rcases hfg.inode i with h1 | h1
    · rw [h1, ha] at hb; cases hb
      refine ⟨SameAttr.refl a, fun k => hfg.blk i k ?_⟩
      rw [h1, ha]; simp
    · rw [h1.1] at hb; cases hb
  · intro i hi hi'
    rcases hfg.inode i with h1 | h1
    · rw [h1] at hi'; exact absurd hi hi'
    · exact absurd h1.1 hi'
  · intro i; rw [hcnt]; simp only [kernelDelta, ← forgetSum_eq]; exact ⟨by omega, fun _ => by omega⟩

/-! #### Extended attributes -/

theorem setxattr_inv {L L' : Nat → Int} {s : St} (h : Inv T L s) {db : Db} (hA : Acc T s.maxObj db (fun _ => 0) L') (hL : ∀ k, 0 ≤ L' k)
    (hg : ∀ i, AL.get db.inodes i ≠ none ↔ AL.get s.db.inodes i ≠ none)
    (hr : ∀ i a b, AL.get db.inodes i = some a → AL.get s.db.inodes i = some b → a.refcount = b.refcount) :
    Inv T L' { s with db := db } := by
  refine ⟨hA, h.mpos, hL, h.nkOp, ?_, ?_, ?_⟩
  · intro i c hc
    have := h.opn i c hc
    exact ⟨(hg i).2 this.1, this.2⟩
  · intro i ino hi hz
    obtain ⟨b, hb⟩ := Option.ne_none_iff_exists'.1 ((hg i).1 (by rw [show AL.get db.inodes i = some ino from hi]; simp))
    exact h.zero i b hb (by rw [← hr i ino b hi hb]; exact hz)
  · refine h.hid_of (fun t ht => (h.hid t ht).1) ?_
    intro t i _ hi
    obtain ⟨b, hb⟩ := Option.ne_none_iff_exists'.1 ((hg t).2 (by rw [hi]; simp))
    exact ⟨b, hb, hr t b i hb hi⟩

theorem eff_setxattr {L : Nat → Int} {s : St} (h : Inv T L s) {id : Nat} (hk : Known s id) (n v : Bytes) (now : Int) :
    ∃ L', Eff T L' s (.setxattr id n v now) (opSetxattr s id n v now).1 (opSetxattr s id n v now).2 ∧
      (s.db.xval id n = none → L' = L) := by
  obtain ⟨ino, hi⟩ := h.known_ex hk
  unfold opSetxattr
  simp only [hi]
  split
  · exact ⟨L, Eff.same h rfl rfl rfl (fun _ => rfl) (by intro h; cases h), fun _ => rfl⟩
  split
  · exact ⟨L, Eff.same h rfl rfl rfl (fun _ => rfl) (by intro h; cases h), fun _ => rfl⟩
  split
  · exact ⟨L, Eff.same h rfl rfl rfl (fun _ => rfl) (by intro h; cases h), fun _ => rfl⟩
  have hA1 := (h.acc.addName n).1
  obtain ⟨h1, h2, h3, h4⟩ := h.acc.nm_addName n
  have hr1 := addName_rest s.db n
  have hcomp := h.acc.compat_add n
  generalize s.db.addName n = e at *
  obtain ⟨db1, k⟩ := e
  simp only at *
  have hA2 := hA1.setX (i := id) (k := k) v (by rw [hr1.1, hi]; simp)
  have hA3 := hA2.modInode id (fun i => { i with ctime := now }) (fun _ => rfl) (fun i _ => Or.inl (Nat.le_refl _))
  have hr3 := modInode_rest ({ db1 with xattrs := AL.set db1.xattrs (id, k) v } : Db) id (fun i => { i with ctime := now })
  have hg3 := modInode_get ({ db1 with xattrs := AL.set db1.xattrs (id, k) v } : Db) id (fun i => { i with ctime := now })
  generalize ({ db1 with xattrs := AL.set db1.xattrs (id, k) v } : Db).modInode id (fun i => { i with ctime := now }) = db3 at *
  have hg : ∀ i, AL.get db3.inodes i = (AL.get s.db.inodes i).map (fun x => if i = id then { x with ctime := now } else x) := by
    intro i
    rw [hg3]
    show (if i = id then (AL.get db1.inodes id).map _ else AL.get db1.inodes i) = _
    rw [hr1.1]
    by_cases he : i = id
    · subst he; simp
    · simp [he]
  have hxk : AL.get db1.xattrs (id, k) = s.db.xval id n := by
    rw [hr1.2.2.1]
    unfold Db.xval
    rcases h3 with h3 | h3
    · rw [no_X_of_fresh h.acc (h.Lnn k) h3]
      cases hq : s.db.nameId n with
      | none => rfl
      | some j =>
        have := h4 j ((h.acc.nameId_iff n j).1 hq)
        subst this
        rw [(h.acc.nameId_iff n j).1 hq] at h3; cases h3
    · rw [(h.acc.nameId_iff n k).2 h3]; rfl
  have hL3 : ∀ j, 0 ≤ bump (bump L k 1) k (if (AL.get db1.xattrs (id, k)).isSome then 0 else -1) j := by
    intro j
    have := h.Lnn j
    simp only [bump]
    split
    · split <;> omega
    · omega
  have hcomp3 : Compat s.db db3 := by
    intro j
    have : db3.nm j = db1.nm j := by unfold Db.nm; rw [hr3.1]
    rw [this]; exact hcomp j
  have hcon3 : db3.contents = s.db.contents := by rw [hr3.2.1]; exact hr1.2.1
  have hinv := setxattr_inv h hA3 hL3
    (by intro i; rw [hg]; simp)
    (by
      intro i a b ha hb
      rw [hg, hb] at ha
      simp only [Option.map_some, Option.some.injEq] at ha
      rw [← ha]; split <;> rfl)
  refine ⟨bump (bump L k 1) k (if (AL.get db1.xattrs (id, k)).isSome then 0 else -1), ?_, ?_⟩
  · refine ⟨hinv, ?_, ?_, ?_, ?_, ?_, ?_, (by intro h; cases h), rfl⟩
    · intro p n'
      exact child_of_compat h.acc hA3 h.Lnn hL3 hcomp3 hcon3 p n'
    · intro i n' hi'
      show db3.xval i n' = if i = id ∧ n' = n then some v else s.db.xval i n'
      apply Option.ext
      intro w
      rw [hA3.xval_iff]
      have hx3 : ∀ j q, AL.get db3.xattrs (j, q) = if j = id ∧ q = k then some v else AL.get s.db.xattrs (j, q) := by
        intro j q
        rw [hr3.2.2.1]
        show AL.get (AL.set db1.xattrs (id, k) v) (j, q) = _
        rw [AL.get_set, hr1.2.2.1]
        by_cases h' : j = id ∧ q = k
        · simp [h']
        · rw [if_neg, if_neg h']
          simpa using h'
      have hnm3 : ∀ q, db3.nm q = db1.nm q := by intro q; unfold Db.nm; rw [hr3.1]
      constructor
      · rintro ⟨q, hq, hw⟩
        rw [hnm3] at hq
        rw [hx3] at hw
        split at hw
        · rename_i hc
          obtain ⟨rfl, rfl⟩ := hc
          rw [h1] at hq; cases hq
          rw [if_pos ⟨rfl, rfl⟩]; exact hw
        · rename_i hc
          obtain ⟨x, hx⟩ := h.acc.nm_of_X (h.Lnn q) hw
          have hxn : x = n' := by
            rcases hcomp q with hh | hh | hh
            · rw [hx, hq] at hh; cases hh; rfl
            · rw [hx] at hh; cases hh
            · rw [hq] at hh; cases hh
          subst hxn
          rw [if_neg]
          · exact (h.acc.xval_iff _ _ _).2 ⟨q, hx, hw⟩
          · rintro ⟨rfl, rfl⟩
            exact hc ⟨rfl, h4 q hx⟩
      · intro hw
        split at hw
        · rename_i hc
          obtain ⟨rfl, rfl⟩ := hc
          exact ⟨k, by rw [hnm3]; exact h1, by rw [hx3, if_pos ⟨rfl, rfl⟩]; exact hw⟩
        · rename_i hc
          obtain ⟨q, hq, hw2⟩ := (h.acc.xval_iff _ _ _).1 hw
          have hne : ¬(i = id ∧ q = k) := by
            rintro ⟨rfl, rfl⟩
            rcases h3 with h3 | h3
            · rw [h3] at hq; cases hq
            · rw [h3] at hq; cases hq; exact hc ⟨rfl, rfl⟩
          refine ⟨q, ?_, by rw [hx3, if_neg hne]; exact hw2⟩
          rw [hnm3]
          by_cases hqk : q = k
          · subst hqk
            rcases h3 with h3 | h3
            · rw [h3] at hq; cases hq
            · rw [h3] at hq; cases hq; exact h1
          · rw [h2 q hqk]; exact hq
    · intro i _; show AL.get db3.symlinks i = _; rw [hr3.2.2.2.1]; show AL.get db1.symlinks i = _; rw [hr1.2.2.2.1]; rfl
    · intro i a b ha hb _
      have hb' : AL.get db3.inodes i = some b := hb
      rw [hg, ha] at hb'
      simp only [Option.map_some, Option.some.injEq] at hb'
      refine ⟨?_, ?_⟩
      · rw [← hb']; split
        · exact ⟨rfl, rfl, rfl, rfl, rfl, rfl⟩
        · exact SameAttr.refl a
      · intro q; show AL.get db3.blocks (i, q) = _; rw [hr3.2.2.2.2.1]; show AL.get db1.blocks (i, q) = _; rw [hr1.2.2.2.2.1]
    · intro i hi1 hi2
      have hi3 : AL.get db3.inodes i ≠ none := hi2
      rw [hg, hi1] at hi3; exact absurd rfl hi3
    · intro i; exact ⟨by simp [kernelDelta, St.cnt], fun _ => by simp [kernelDelta, St.cnt]⟩
  · intro hno
    rw [hxk, hno]
    funext j
    simp only [bump, Option.isSome_none, Bool.false_eq_true, if_false]
    split <;> omega

theorem eff_removexattr {L : Nat → Int} {s : St} (h : Inv T L s) {id : Nat} (hk : Known s id) (n : Bytes) (now : Int)
    (hh : s.db.xval id n ≠ none ∨ s.db.nameId n = none) :
    Eff T L s (.removexattr id n now) (opRemovexattr s id n now).1 (opRemovexattr s id n now).2 := by
  obtain ⟨ino, hi⟩ := h.known_ex hk
  unfold opRemovexattr
  simp only [hi]
  split
  · exact Eff.same h rfl rfl rfl (fun _ => rfl) (by intro h; cases h)
  split
  · exact Eff.same h rfl rfl rfl (fun _ => rfl) (by intro h; cases h)
  cases hd : s.db.delName n with
  | none => exact Eff.same h rfl rfl rfl (fun _ => rfl) (by intro h; cases h)
  | some e =>
    obtain ⟨db1, k⟩ := e
    have hA1 := (h.acc.delName hd).1
    obtain ⟨h1, h2, h3⟩ := h.acc.nm_delName hd
    have hr1 := delName_rest hd
    have hcomp := h.acc.compat_del hd
    have hx : s.db.xval id n ≠ none := by
      rcases hh with hh | hh
      · exact hh
      · rw [(h.acc.nameId_iff n k).2 h1] at hh; cases hh
    have hxk : AL.get s.db.xattrs (id, k) = s.db.xval id n := by
      unfold Db.xval; rw [(h.acc.nameId_iff n k).2 h1]; rfl
    obtain ⟨v0, hv0⟩ := Option.ne_none_iff_exists'.1 hx
    have hgx : AL.get db1.xattrs (id, k) = some v0 := by rw [hr1.2.2.1, hxk, hv0]
    simp only [hgx]
    have hA2 := hA1.delX hgx
    have hA3 := (hA2.modInode id (fun i => { i with ctime := now }) (fun _ => rfl) (fun i _ => Or.inl (Nat.le_refl _))).congr
      (δ' := fun _ => 0) (L' := L) (fun _ => rfl) (by intro i; simp only [bump]; split <;> omega)
    have hr3 := modInode_rest ({ db1 with xattrs := AL.erase db1.xattrs (id, k) } : Db) id (fun i => { i with ctime := now })
    have hg3 := modInode_get ({ db1 with xattrs := AL.erase db1.xattrs (id, k) } : Db) id (fun i => { i with ctime := now })
    generalize ({ db1 with xattrs := AL.erase db1.xattrs (id, k) } : Db).modInode id (fun i => { i with ctime := now }) = db3 at *
    have hg : ∀ i, AL.get db3.inodes i = (AL.get s.db.inodes i).map (fun x => if i = id then { x with ctime := now } else x) := by
      intro i
      rw [hg3]
      show (if i = id then (AL.get db1.inodes id).map _ else AL.get db1.inodes i) = _
      rw [hr1.1]
      by_cases he : i = id
      · subst he; simp
      · simp [he]
    have hcomp3 : Compat s.db db3 := by
      intro j
      have : db3.nm j = db1.nm j := by unfold Db.nm; rw [hr3.1]
      rw [this]; exact hcomp j
    have hcon3 : db3.contents = s.db.contents := by rw [hr3.2.1]; exact hr1.2.1
    have hinv := setxattr_inv h hA3 h.Lnn
      (by intro i; rw [hg]; simp)
      (by
        intro i a b ha hb
        rw [hg, hb] at ha
        simp only [Option.map_some, Option.some.injEq] at ha
        rw [← ha]; split <;> rfl)
    refine ⟨hinv, ?_, ?_, ?_, ?_, ?_, ?_, (by intro h; cases h), rfl⟩
    · intro p n'
      exact child_of_compat h.acc hA3 h.Lnn h.Lnn hcomp3 hcon3 p n'
    · intro i n' hi'
      show db3.xval i n' = if i = id ∧ n' = n then none else s.db.xval i n'
      apply Option.ext
      intro w
      rw [hA3.xval_iff]
      have hx3 : ∀ j q, AL.get db3.xattrs (j, q) = if j = id ∧ q = k then none else AL.get s.db.xattrs (j, q) := by
        intro j q
        rw [hr3.2.2.1]
        show AL.get (AL.erase db1.xattrs (id, k)) (j, q) = _
        rw [AL.get_erase, hr1.2.2.1]
        by_cases h' : j = id ∧ q = k
        · simp [h']
        · rw [if_neg, if_neg h']
          simpa using h'
      constructor
      · rintro ⟨q, hq, hw⟩
        rw [hx3] at hw
        split at hw
        · cases hw
        · rename_i hc
          obtain ⟨x, hnx⟩ := h.acc.nm_of_X (h.Lnn q) hw
          have hxn : x = n' := by
            rcases hcomp3 q with hh | hh | hh
            · rw [hnx, hq] at hh; cases hh; rfl
            · rw [hnx] at hh; cases hh
            · rw [hq] at hh; cases hh
          subst hxn
          rw [if_neg]
          · exact (h.acc.xval_iff _ _ _).2 ⟨q, hnx, hw⟩
          · rintro ⟨rfl, rfl⟩
            exact hc ⟨rfl, h.acc.nm_inj hnx h1⟩
      · intro hw
        split at hw
        · cases hw
        · rename_i hc
          obtain ⟨q, hq, hw2⟩ := (h.acc.xval_iff _ _ _).1 hw
          have hne : ¬(i = id ∧ q = k) := by
            rintro ⟨rfl, rfl⟩
            rw [h1] at hq; cases hq; exact hc ⟨rfl, rfl⟩
          have hrow : AL.get db3.xattrs (i, q) = some w := by rw [hx3, if_neg hne]; exact hw2
          refine ⟨q, ?_, hrow⟩
          obtain ⟨x, hx⟩ := hA3.nm_of_X (h.Lnn q) hrow
          rcases hcomp3 q with hh | hh | hh
          · rw [← hh]; exact hq
          · rw [hq] at hh; cases hh
          · rw [hx] at hh; cases hh
    · intro i _; show AL.get db3.symlinks i = _; rw [hr3.2.2.2.1]; show AL.get db1.symlinks i = _; rw [hr1.2.2.2.1]; rfl
    · intro i a b ha hb _
      have hb' : AL.get db3.inodes i = some b := hb
      rw [hg, ha] at hb'
      simp only [Option.map_some, Option.some.injEq] at hb'
      refine ⟨?_, ?_⟩
      · rw [← hb']; split
        · exact ⟨rfl, rfl, rfl, rfl, rfl, rfl⟩
        · exact SameAttr.refl a
      · intro q; show AL.get db3.blocks (i, q) = _; rw [hr3.2.2.2.2.1]; show AL.get db1.blocks (i, q) = _; rw [hr1.2.2.2.2.1]
    · intro i hi1 hi2
      have hi3 : AL.get db3.inodes i ≠ none := hi2
      rw [hg, hi1] at hi3; exact absurd rfl hi3
    · intro i; exact ⟨by simp [kernelDelta, St.cnt], fun _ => by simp [kernelDelta, St.cnt]⟩

end Verif.Fs
