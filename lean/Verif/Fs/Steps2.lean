/-
The effect of the namespace operations.
-/
import Verif.Fs.Steps

namespace Verif.Fs

variable {T : Nat → Prop}

theorem removedF_same (id p : Nat) (now : Int) (i : Nat) (a : Inode) : SameAttr a (removedF id p now i a) := by
  unfold removedF touchDir SameAttr; dsimp only; split <;> split <;> simp

theorem linkedF_same (id p : Nat) (now : Int) (i : Nat) (a : Inode) : SameAttr a (linkedF id p now i a) := by
  unfold linkedF touchDir SameAttr; dsimp only; split <;> split <;> simp

theorem replacedF_same (id po pn : Nat) (now : Int) (i : Nat) (a : Inode) : SameAttr a (replacedF id po pn now i a) := by
  unfold replacedF touchDir SameAttr; dsimp only; split <;> split <;> simp

/-- inodes of the second state exist in the first -/
def NoNew (s s' : St) : Prop := ∀ i, AL.get s'.db.inodes i ≠ none → AL.get s.db.inodes i ≠ none

/-- attributes of common inodes agree -/
def AttrsOk (s s' : St) : Prop := ∀ i a b, AL.get s.db.inodes i = some a → AL.get s'.db.inodes i = some b → SameAttr a b

theorem Fgt.noNew {s s' : St} (h : Fgt s s') : NoNew s s' := by
  intro i hi
  rcases h.inode i with h1 | h1
  · rw [← h1]; exact hi
  · exact absurd h1.1 hi

theorem Fgt.attrs {s s' : St} (h : Fgt s s') : AttrsOk s s' := by
  intro i a b ha hb
  rcases h.inode i with h1 | h1
  · rw [h1, ha] at hb; cases hb; exact SameAttr.refl a
  · rw [h1.1] at hb; cases hb

theorem AttrsOk.trans {s1 s2 s3 : St} (h1 : AttrsOk s1 s2) (h2 : AttrsOk s2 s3) (hn : NoNew s2 s3) : AttrsOk s1 s3 := by
  intro i a b ha hb
  obtain ⟨c, hc⟩ := Option.ne_none_iff_exists'.1 (hn i (by rw [hb]; simp))
  exact (h1 i a c ha hc).trans (h2 i c b hc hb)

theorem NoNew.trans {s1 s2 s3 : St} (h1 : NoNew s1 s2) (h2 : NoNew s2 s3) : NoNew s1 s3 := fun i hi => h1 i (h2 i hi)

/-- A namespace operation that creates no inode. -/
theorem Eff.ns {L : Nat → Int} {s s' : St} {op : Op} {res : Except Err Reply} (hinv : Inv T L s') (hrest : Rest s s')
    (hnew : NoNew s s') (hattr : AttrsOk s s')
    (hchild : ∀ p n, s'.db.child p n = specEntries s.db.child op res p n)
    (hx : specXattrs s.db.xval op res = s.db.xval)
    (hs : specSymlinks (AL.get s.db.symlinks) op res = AL.get s.db.symlinks)
    (hcnt : ∀ i, s.cnt i + kernelDelta op res i ≤ s'.cnt i ∧
      ((∃ r, res = .ok r) ∨ ¬looksUp op → s'.cnt i = s.cnt i + kernelDelta op res i))
    (hcr : res = .error .crash → (∃ p ∈ dirsOf op, s.db.getPathOk p = false) ∨ (∃ id a c now, op = .setattr id a c true now)) :
    Eff T L s op res s' := by
  refine ⟨hinv, hchild, ?_, ?_, ?_, ?_, hcnt, hcr, hrest.mx⟩
  · intro i n hi; rw [hx]; exact hrest.xval i n (hnew i hi) hi
  · intro i hi; rw [hs]; exact hrest.sym i (hnew i hi) hi
  · intro i a b ha hb _
    exact ⟨hattr i a b ha hb, fun k => hrest.blk i k (by rw [ha]; simp) (by rw [hb]; simp)⟩
  · intro i hi hi'; exact absurd hi (hnew i hi')

/-! #### Removing -/

theorem eff_removal {L : Nat → Int} {s : St} (h : Inv T L s) {p : Nat} {n : Bytes} {id : Nat} (hc : s.db.child p n = some id) (now : Int)
    {op : Op} (he0 : ∀ e, specEntries s.db.child op (.error e) = s.db.child)
    (he1 : specEntries s.db.child op (.ok .unit) = fun p' n' => if p' = p ∧ n' = n then none else s.db.child p' n')
    (hx : ∀ r, specXattrs s.db.xval op r = s.db.xval)
    (hs : ∀ r, specSymlinks (AL.get s.db.symlinks) op r = AL.get s.db.symlinks)
    (hkd : ∀ r i, kernelDelta op r i = 0) (hl : looksUp op) (hd : p ∈ dirsOf op) {r : R}
    (hr : r = match remove (s.addOpen id 1) p n id false now with
      | (.error e, s) => (.error e, s)
      | (.ok (), s) => finish (forget s [(id, 1)])) :
    Eff T L s op r.1 r.2 := by
  have hex := (h.child_pos hc).2.1
  have hinv1 := h.addOpen hex (n := 1) (by omega) (h.notT_child hc)
  have hc1 : (s.addOpen id 1).db.child p n = some id := hc
  have hcnt1 := cnt_addOpen s id 1
  rcases remove_spec hinv1 hc1 false now with ⟨e, hre, hrs⟩ | ⟨s2, hre, _, _, hinv2, hrest, hop, _, hchild, hino⟩
  · rw [hre] at hr
    subst hr
    refine Eff.ns hinv1 (rest_addOpen s id 1) (fun i hi => hi) (fun i a b ha hb => ?_) (fun p n => ?_) (hx _) (hs _) ?_ ?_
    · have hb' : AL.get s.db.inodes i = some b := hb
      rw [ha] at hb'; cases hb'; exact SameAttr.refl a
    · simp only [he0]; rfl
    · intro i; rw [hcnt1, hkd]
      refine ⟨by split <;> omega, ?_⟩
      rintro (⟨r, hr⟩ | hr)
      · cases hr
      · exact absurd hl hr
    · intro hcr
      left
      refine ⟨p, hd, ?_⟩
      have hec : e = .crash := by simpa using hcr
      rcases hrs with ⟨_, hrs⟩ | ⟨_, _, hrs, _⟩
      · by_cases hp : s.db.getPathOk p
        · have hp' : (s.addOpen id 1).db.getPathOk p = true := hp
          rw [if_pos hp', hec] at hrs; cases hrs
        · simpa using hp
      · rw [hec] at hrs; cases hrs
  · rw [hre] at hr
    have hcnt2 : ∀ i, s2.cnt i = s.cnt i + if i = id then 1 else 0 := by
      intro i; rw [← hcnt1]; unfold St.cnt; rw [hop]
    have hfo : ForgetOk s2.cnt [(id, 1)] := by
      refine ⟨by omega, ?_, trivial⟩
      rw [hcnt2, if_pos rfl]; have := h.cnt_nonneg id; omega
    obtain ⟨s3, hfe, hinv3, hfg, hcnt3⟩ := forget_spec [(id, 1)] hinv2 hfo
    simp only [hfe, finish] at hr
    subst hr
    have hnn2 : NoNew s s2 := by
      intro i hi
      rcases hino i with h1 | h1
      · exact absurd h1.1 hi
      · rw [h1] at hi
        intro h0
        have h0' : AL.get (s.addOpen id 1).db.inodes i = none := h0
        rw [h0'] at hi; exact absurd rfl hi
    have hat2 : AttrsOk s s2 := by
      intro i a b ha hb
      have ha' : AL.get (s.addOpen id 1).db.inodes i = some a := ha
      rcases hino i with h1 | h1
      · rw [h1.1] at hb; cases hb
      · rw [h1, ha'] at hb
        simp only [Option.map_some, Option.some.injEq] at hb
        rw [← hb]; exact removedF_same _ _ _ _ _
    have hrest02 : Rest s s2 := ⟨hrest.xval, hrest.sym, hrest.blk, hrest.fs, hrest.mx⟩
    refine Eff.ns hinv3 (hrest02.trans hfg.rest (fun i _ h3 => hfg.noNew i h3)) (hnn2.trans hfg.noNew) (hat2.trans hfg.attrs hfg.noNew) ?_ (hx _) (hs _) ?_ (by intro h; cases h)
    · intro p' n'
      rw [hfg.child, hchild]
      simp only [he1]; rfl
    · intro i
      rw [hcnt3, hcnt2, hkd]
      simp only [forgetSum]
      exact ⟨by omega, fun _ => by omega⟩

theorem eff_unlink {L : Nat → Int} {s : St} (h : Inv T L s) {p : Nat} {n : Bytes} (hn : n ≠ ctrlName) (now : Int) :
    Eff T L s (.unlink p n now) (opUnlink s p n now).1 (opUnlink s p n now).2 := by
  unfold opUnlink
  split
  · exact Eff.same h rfl rfl rfl (fun _ => rfl) (by intro h; cases h)
  rcases lookup_spec h p n with ⟨e, h1, h2⟩ | ⟨id, h1, hex, hinv, hc, _⟩
  · rw [h1]
    refine Eff.same h rfl rfl rfl (fun _ => rfl) ?_
    intro hcr; rw [(h2 hn).1] at hcr; cases hcr
  · rw [h1]
    simp only
    obtain ⟨ino, hino⟩ := Option.ne_none_iff_exists'.1 hex
    have hino' : AL.get (s.addOpen id 1).db.inodes id = some ino := hino
    simp only [hino']
    split
    · refine Eff.quiet hinv rfl rfl rfl rfl rfl ?_ (by intro h; cases h)
      intro i; rw [cnt_addOpen]
      refine ⟨by simp only [kernelDelta]; split <;> omega, ?_⟩
      rintro (⟨r, hr⟩ | hr)
      · cases hr
      · exact absurd trivial hr
    · exact eff_removal h (hc hn) now (fun _ => rfl) rfl (fun _ => rfl) (fun _ => rfl) (fun _ _ => rfl) (by trivial) (by simp [dirsOf]) rfl

theorem eff_rmdir {L : Nat → Int} {s : St} (h : Inv T L s) {p : Nat} {n : Bytes} (hn : n ≠ ctrlName) (hk : Known s p) (now : Int) :
    Eff T L s (.rmdir p n now) (opRmdir s p n now).1 (opRmdir s p n now).2 := by
  unfold opRmdir
  split
  · exact Eff.same h rfl rfl rfl (fun _ => rfl) (by intro h; cases h)
  rcases lookup_spec h p n with ⟨e, h1, h2⟩ | ⟨id, h1, hex, hinv, hc, _⟩
  · rw [h1]
    refine Eff.same h rfl rfl rfl (fun _ => rfl) ?_
    intro hcr; rw [(h2 hn).1] at hcr; cases hcr
  · rw [h1]
    simp only
    obtain ⟨ip, hip⟩ := h.known_ex hk
    have hip' : AL.get (s.addOpen id 1).db.inodes p = some ip := hip
    obtain ⟨ino, hino⟩ := Option.ne_none_iff_exists'.1 hex
    have hino' : AL.get (s.addOpen id 1).db.inodes id = some ino := hino
    simp only [hip', hino']
    have hq : ∀ e, e ≠ .crash → Eff T L s (.rmdir p n now) (.error e) (s.addOpen id 1) := by
      intro e he
      refine Eff.quiet hinv rfl rfl rfl rfl rfl ?_ (by intro h; exact absurd (by simpa using h) he)
      intro i; rw [cnt_addOpen]
      refine ⟨by simp only [kernelDelta]; split <;> omega, ?_⟩
      rintro (⟨r, hr⟩ | hr)
      · cases hr
      · exact absurd trivial hr
    split
    · exact hq _ (by simp)
    split
    · exact hq _ (by simp)
    · exact eff_removal h (hc hn) now (fun _ => rfl) rfl (fun _ => rfl) (fun _ => rfl) (fun _ _ => rfl) (by trivial) (by simp [dirsOf]) rfl

/-! #### Creating -/

/-- the part of `symlink` after the inode exists, or nothing -/
def putTgt (tgt : Option Bytes) (id : Nat) (s : St) : St := match tgt with
  | none => s
  | some t => { s with db := { s.db with symlinks := AL.set s.db.symlinks id t } }

theorem putTgt_db (tgt : Option Bytes) (id : Nat) (s : St) : ∃ y, (putTgt tgt id s).db = { s.db with symlinks := y } ∧
    (∀ i, AL.get y i = if i = id ∧ tgt ≠ none then tgt else AL.get s.db.symlinks i) := by
  cases tgt with
  | none => exact ⟨s.db.symlinks, rfl, fun i => by simp⟩
  | some t => exact ⟨AL.set s.db.symlinks id t, rfl, fun i => by rw [AL.get_set]; simp⟩

theorem eff_creation {L : Nat → Int} {s : St} (h : Inv T L s) {p : Nat} {n : Bytes} (mode uid gid rdev size : Nat) (now : Int)
    (hn : s.db.child p n = none) (hp : Known s p) {op : Op} (tgt : Option Bytes)
    (he0 : ∀ e, specEntries s.db.child op (.error e) = s.db.child)
    (he1 : ∀ id ino, specEntries s.db.child op (.ok (.entry id ino)) = fun p' n' => if p' = p ∧ n' = n then some id else s.db.child p' n')
    (hx : ∀ r, specXattrs s.db.xval op r = s.db.xval)
    (hs0 : ∀ e, specSymlinks (AL.get s.db.symlinks) op (.error e) = AL.get s.db.symlinks)
    (hs1 : ∀ id ino, specSymlinks (AL.get s.db.symlinks) op (.ok (.entry id ino)) = fun i => if i = id ∧ tgt ≠ none then tgt else AL.get s.db.symlinks i)
    (hk0 : ∀ e i, kernelDelta op (.error e) i = 0) (hk1 : ∀ id ino i, kernelDelta op (.ok (.entry id ino)) i = if i = id then 1 else 0)
    (hd : p ∈ dirsOf op) {r : R}
    (hr : r = match create s p n mode uid gid rdev size now with
      | (.error e, s) => (.error e, s)
      | (.ok id, s) => entryReply (putTgt tgt id s) id) :
    Eff T L s op r.1 r.2 := by
  rcases create_spec h mode uid gid rdev size now hn hp with ⟨e, hre, hcase⟩ | ⟨s', ip, hre, hctrl, hip, _, _, hfr, hinv, hrest, hop, hchild, hino, hnx, hnsym, hnb⟩
  · rw [hre] at hr
    subst hr
    refine Eff.same h (he0 _) (hx _) (hs0 _) (hk0 _) ?_
    intro hc
    have hec : e = .crash := by simpa using hc
    subst hec
    left
    refine ⟨p, hd, ?_⟩
    rcases hcase with ⟨_, h1⟩ | ⟨h1, _⟩ | ⟨h1, _⟩
    · by_cases hp : s.db.getPathOk p
      · rw [if_pos hp] at h1; cases h1
      · simpa using hp
    · cases h1
    · cases h1
  · rw [hre] at hr
    simp only at hr
    -- the state with the target of the link
    obtain ⟨y, hdb2, hy⟩ := putTgt_db tgt (s.db.seq + 1) s'
    have hinv2 : Inv T L (putTgt tgt (s.db.seq + 1) s') := by
      have hnew : AL.get s'.db.inodes (s.db.seq + 1) ≠ none := by rw [hino]; simp
      cases tgt with
      | none => exact hinv
      | some t => exact ⟨hinv.acc.newSym t hnew, hinv.mpos, hinv.Lnn, hinv.nkOp, hinv.opn, hinv.zero, hinv.hid⟩
    have hop2 : (putTgt tgt (s.db.seq + 1) s').opened = s'.opened := by cases tgt <;> rfl
    have hmx2 : (putTgt tgt (s.db.seq + 1) s').maxObj = s'.maxObj := by cases tgt <;> rfl
    generalize putTgt tgt (s.db.seq + 1) s' = s2 at *
    have hinew : AL.get s2.db.inodes (s.db.seq + 1) = some (newInode ip mode uid gid rdev size now) := by
      rw [hdb2]; show AL.get s'.db.inodes _ = _; rw [hino, if_pos rfl]
    have hrr : r = (.ok (.entry (s.db.seq + 1) (newInode ip mode uid gid rdev size now)), s2.addOpen (s.db.seq + 1) 1) := by
      rw [hr]
      unfold entryReply
      have : AL.get (s2.addOpen (s.db.seq + 1) 1).db.inodes (s.db.seq + 1) = some (newInode ip mode uid gid rdev size now) := hinew
      simp only [this]
    subst hrr
    have hinvf := hinv2.addOpen (id := s.db.seq + 1) (n := 1) (by rw [hinew]; simp) (by omega) (fun ht => (h.hid _ ht).2.1 hfr)
    have hdbf : (s2.addOpen (s.db.seq + 1) 1).db = s2.db := rfl
    have hidb : s2.db.inodes = s'.db.inodes := by rw [hdb2]
    have hmono : ∀ i, AL.get s.db.inodes i ≠ none → AL.get s'.db.inodes i ≠ none := by
      intro i hi; rw [hino]; split
      · simp
      · simpa using hi
    refine ⟨hinvf, ?_, ?_, ?_, ?_, ?_, ?_, (by intro h; cases h), ?_⟩
    · intro p' n'
      rw [he1]
      refine Eq.trans ?_ (hchild p' n')
      show s2.db.child p' n' = _
      rw [hdb2]; rfl
    · intro i n' hi'
      rw [hdbf] at hi' ⊢
      rw [hx]
      have e1 : s2.db.xval i n' = s'.db.xval i n' := by rw [hdb2]; rfl
      rw [e1]
      rw [hidb] at hi'
      by_cases hii : i = s.db.seq + 1
      · have z : ∀ k, AL.get s.db.xattrs (i, k) = none := by
          intro k
          cases hg : AL.get s.db.xattrs (i, k) with
          | none => rfl
          | some v => rw [hii] at hg; exact absurd hfr (h.acc.xin _ _ _ hg)
        have a1 : s'.db.xval i n' = none := by
          cases hq : s'.db.xval i n' with
          | none => rfl
          | some v =>
            obtain ⟨k, _, hk⟩ := (hinv.acc.xval_iff _ _ _).1 hq
            rw [hii, hnx] at hk; cases hk
        have a2 : s.db.xval i n' = none := by
          cases hq : s.db.xval i n' with
          | none => rfl
          | some v =>
            obtain ⟨k, _, hk⟩ := (h.acc.xval_iff _ _ _).1 hq
            rw [z] at hk; cases hk
        rw [a1, a2]
      · refine hrest.xval i n' ?_ hi'
        intro h0; rw [hino, if_neg hii, h0] at hi'; exact absurd rfl hi'
    · intro i hi'
      rw [hdbf, hidb] at hi'
      rw [hdbf, hs1, hdb2]
      show AL.get y i = _
      rw [hy]
      by_cases hii : i = s.db.seq + 1
      · have e1 : AL.get s'.db.symlinks i = AL.get s.db.symlinks i := by
          rw [hii, hnsym]
          cases hg : AL.get s.db.symlinks (s.db.seq + 1) with
          | none => rfl
          | some v => exact absurd hfr (h.acc.sin _ _ hg)
        rw [e1]
      · have e1 : AL.get s'.db.symlinks i = AL.get s.db.symlinks i := by
          refine hrest.sym i ?_ hi'
          intro h0; rw [hino, if_neg hii, h0] at hi'; exact absurd rfl hi'
        rw [e1]
    · intro i a b ha hb _
      rw [hdbf, hidb, hino] at hb
      have hii : i ≠ s.db.seq + 1 := by rintro rfl; rw [hfr] at ha; cases ha
      rw [if_neg hii, ha] at hb
      simp only [Option.map_some, Option.some.injEq] at hb
      refine ⟨?_, ?_⟩
      · rw [← hb]; split
        · exact ⟨rfl, rfl, rfl, rfl, rfl, rfl⟩
        · exact SameAttr.refl a
      · intro k
        rw [hdbf, hdb2]
        exact hrest.blk i k (by rw [ha]; simp) (hmono i (by rw [ha]; simp))
    · intro i hi hi'
      rw [hdbf, hidb, hino] at hi'
      split at hi'
      · rename_i hii
        subst hii
        refine ⟨rfl, ⟨_, rfl⟩, ?_⟩
        intro k; rw [hdbf, hdb2]; exact hnb k
      · rw [hi] at hi'; exact absurd rfl hi'
    · intro i
      rw [cnt_addOpen, hk1]
      have : s2.cnt i = s.cnt i := by unfold St.cnt; rw [hop2, hop]
      rw [this]
      exact ⟨Int.le_refl _, fun _ => rfl⟩
    · show s2.maxObj = _; rw [hmx2, hrest.mx]

theorem eff_mknod {L : Nat → Int} {s : St} (h : Inv T L s) {p : Nat} {n : Bytes} (mode rdev uid gid : Nat) (now : Int)
    (hp : Known s p) (hn : s.db.child p n = none) :
    Eff T L s (.mknod p n mode rdev uid gid now) (opMknod s p n mode rdev uid gid now).1 (opMknod s p n mode rdev uid gid now).2 := by
  unfold opMknod
  split
  · exact Eff.same h rfl rfl rfl (fun _ => rfl) (by intro h; cases h)
  · exact eff_creation h mode uid gid rdev 0 now hn hp none (fun _ => rfl) (fun _ _ => rfl) (fun _ => rfl) (fun _ => rfl)
      (fun _ _ => by simp [specSymlinks]) (fun _ _ => rfl) (fun _ _ _ => rfl) (by simp [dirsOf]) rfl

theorem eff_symlink {L : Nat → Int} {s : St} (h : Inv T L s) {p : Nat} {n : Bytes} (t : Bytes) (uid gid : Nat) (now : Int)
    (hp : Known s p) (hn : s.db.child p n = none) :
    Eff T L s (.symlink p n t uid gid now) (opSymlink s p n t uid gid now).1 (opSymlink s p n t uid gid now).2 := by
  unfold opSymlink
  split
  · exact Eff.same h rfl rfl rfl (fun _ => rfl) (by intro h; cases h)
  · exact eff_creation h symlinkMode uid gid 0 t.length now hn hp (some t) (fun _ => rfl) (fun _ _ => rfl) (fun _ => rfl) (fun _ => rfl)
      (fun _ _ => by simp [specSymlinks]) (fun _ _ => rfl) (fun _ _ _ => rfl) (by simp [dirsOf]) rfl

theorem eff_link {L : Nat → Int} {s : St} (h : Inv T L s) {id p : Nat} {n : Bytes} (now : Int)
    (hid : Known s id) (hp : Known s p) (hn : s.db.child p n = none) :
    Eff T L s (.link id p n now) (opLink s id p n now).1 (opLink s id p n now).2 := by
  rcases link_spec h now hn hp hid with ⟨e, hre, hcase⟩ | ⟨s', ino', hre, hino', _, _, _, _, hinv, hrest, hop, _, hchild, ht⟩
  · rw [hre]
    refine Eff.same h rfl rfl rfl (fun _ => rfl) ?_
    intro hc
    have hec : e = .crash := by simpa using hc
    subst hec
    left
    refine ⟨p, by simp [dirsOf], ?_⟩
    rcases hcase with ⟨_, h1⟩ | ⟨h1, _⟩ | ⟨h1, _⟩
    · by_cases hp : s.db.getPathOk p
      · rw [if_pos hp] at h1; cases h1
      · simpa using hp
    · cases h1
    · cases h1
  · rw [hre]
    refine Eff.ns (hinv.addOpen (by rw [hino']; simp) (by omega) (h.notT_open hid)) ?_ ?_ ?_ ?_ rfl rfl ?_ (by intro h; cases h)
    · exact ⟨hrest.xval, hrest.sym, hrest.blk, hrest.fs, hrest.mx⟩
    · intro i hi
      have hi' : AL.get s'.db.inodes i ≠ none := hi
      rw [ht] at hi'; simpa using hi'
    · intro i a b ha hb
      have hb' : AL.get s'.db.inodes i = some b := hb
      rw [ht, ha] at hb'
      simp only [Option.map_some, Option.some.injEq] at hb'
      rw [← hb']; exact linkedF_same _ _ _ _ _
    · intro p' n'; exact hchild p' n'
    · intro i
      rw [cnt_addOpen]
      have : s'.cnt i = s.cnt i := by unfold St.cnt; rw [hop]
      rw [this]
      exact ⟨Int.le_refl _, fun _ => rfl⟩

end Verif.Fs
