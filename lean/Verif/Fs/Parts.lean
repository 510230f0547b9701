/-
Post-conditions of the parts of the namespace operations: `remove`, `create`, `link`, `replace`, `rename`.
-/
import Verif.Fs.Inv

namespace Verif.Fs

variable {T : Nat → Prop}

/-- What namespace operations never change in inodes that exist before and after. -/
structure Rest (s s' : St) : Prop where
  xval : ∀ i n, AL.get s.db.inodes i ≠ none → AL.get s'.db.inodes i ≠ none → s'.db.xval i n = s.db.xval i n
  sym : ∀ i, AL.get s.db.inodes i ≠ none → AL.get s'.db.inodes i ≠ none → AL.get s'.db.symlinks i = AL.get s.db.symlinks i
  blk : ∀ i b, AL.get s.db.inodes i ≠ none → AL.get s'.db.inodes i ≠ none → AL.get s'.db.blocks (i, b) = AL.get s.db.blocks (i, b)
  fs : s'.failsafe = s.failsafe
  mx : s'.maxObj = s.maxObj

theorem Rest.refl (s : St) : Rest s s := ⟨fun _ _ _ _ => rfl, fun _ _ _ => rfl, fun _ _ _ _ => rfl, rfl, rfl⟩

theorem Fgt.rest {s s' : St} (h : Fgt s s') : Rest s s' :=
  ⟨fun i n _ hi => h.xval i n hi, fun i _ hi => h.sym i hi, fun i b _ hi => h.blk i b hi, h.fs, h.mx⟩

theorem rest_addOpen (s : St) (id : Nat) (n : Int) : Rest s (s.addOpen id n) :=
  ⟨fun _ _ _ _ => rfl, fun _ _ _ => rfl, fun _ _ _ _ => rfl, rfl, rfl⟩

/-- Composition, if no inode disappears in the first step that exists at the end. -/
theorem Rest.trans {s1 s2 s3 : St} (h1 : Rest s1 s2) (h2 : Rest s2 s3)
    (h : ∀ i, AL.get s1.db.inodes i ≠ none → AL.get s3.db.inodes i ≠ none → AL.get s2.db.inodes i ≠ none) : Rest s1 s3 :=
  ⟨fun i n a b => by rw [h2.xval i n (h i a b) b, h1.xval i n a (h i a b)],
   fun i a b => by rw [h2.sym i (h i a b) b, h1.sym i a (h i a b)],
   fun i x a b => by rw [h2.blk i x (h i a b) b, h1.blk i x a (h i a b)],
   by rw [h2.fs, h1.fs], by rw [h2.mx, h1.mx]⟩

/-- The inode table changed only by functions on the rows. -/
def Touched (db db' : Db) (f : Nat → Inode → Inode) : Prop := ∀ i, AL.get db'.inodes i = (AL.get db.inodes i).map (f i)

theorem hasChildren_false {m : Nat} {db : Db} {δ L : Nat → Int} (_ : Acc T m db δ L) {p : Nat} (hc : db.hasChildren p = false) (k : Nat) :
    AL.get db.contents (p, k) = none := by
  unfold Db.hasChildren at hc
  rw [List.any_eq_false] at hc
  cases hg : AL.get db.contents (p, k) with
  | none => rfl
  | some c => have := hc _ (AL.get_some_mem hg); simp at this

theorem hasChildren_true {m : Nat} {db : Db} {δ L : Nat → Int} (h : Acc T m db δ L) {p : Nat} (hc : db.hasChildren p = true) :
    ∃ k c, AL.get db.contents (p, k) = some c := by
  unfold Db.hasChildren at hc
  rw [List.any_eq_true] at hc
  obtain ⟨⟨⟨a, k⟩, c⟩, hm, he⟩ := hc
  simp at he; subst he
  exact ⟨k, c, AL.mem_get_some h.nkC hm⟩

/-- Change of the removed inode and its directory in `_remove`. -/
def removedF (id p : Nat) (now : Int) (i : Nat) (ino : Inode) : Inode :=
  let ino := if i = id then { ino with refcount := ino.refcount - 1, ctime := now } else ino
  if i = p then touchDir now ino else ino

/-- The last part of `_remove` and `_replace`: the inode is purged if it has no links and is not open. -/
theorem purge_or_not {L : Nat → Int} {s0 : St} (hop : ∀ i c, AL.get s0.opened i = some c → AL.get s0.db.inodes i ≠ none ∧ 0 < c)
    (hnk : AL.NK s0.opened) (hm : 0 < s0.maxObj) (hL : ∀ k, 0 ≤ L k)
    (hA : Acc T s0.maxObj s0.db (fun _ => 0) L) {id : Nat} {i : Inode} (hi : AL.get s0.db.inodes id = some i)
    (hz : ∀ j ino, j ≠ id → AL.get s0.db.inodes j = some ino → ino.refcount = 0 → AL.get s0.opened j ≠ none ∨ T j)
    (hT : ∀ t, T t → t ≠ id ∧ AL.get s0.opened t = none ∧ AL.get s0.db.inodes t ≠ none ∧ s0.db.rc t = 0) :
    let s' := if i.refcount = 0 ∧ AL.get s0.opened id = none then { s0 with db := s0.db.purge id i.size s0.maxObj } else s0
    Inv T L s' ∧ Fgt s0 s' ∧ s'.opened = s0.opened ∧
    (∀ j, j ≠ id → AL.get s'.db.inodes j = AL.get s0.db.inodes j) ∧
    (AL.get s'.db.inodes id = none ↔ i.refcount = 0 ∧ AL.get s0.opened id = none) ∧
    (AL.get s'.db.inodes id ≠ none → AL.get s'.db.inodes id = some i) := by
  intro s'
  by_cases hc : i.refcount = 0 ∧ AL.get s0.opened id = none
  · have e : s' = { s0 with db := s0.db.purge id i.size s0.maxObj } := if_pos hc
    have hp := purge_inv (s := s0) hA hm hL hnk hi hc.1 hc.2 hop hz hT
    rw [e]
    refine ⟨hp.1, hp.2, rfl, ?_, ?_, ?_⟩
    · intro j hj
      show AL.get (s0.db.purge id i.size s0.maxObj).inodes j = _
      rw [(purge_rest _ _ _ _).2.2, if_neg hj]
    · show AL.get (s0.db.purge id i.size s0.maxObj).inodes id = none ↔ _
      rw [(purge_rest _ _ _ _).2.2, if_pos rfl]; simp [hc]
    · show AL.get (s0.db.purge id i.size s0.maxObj).inodes id ≠ none → _
      rw [(purge_rest _ _ _ _).2.2, if_pos rfl]; intro h; exact absurd rfl h
  · have e : s' = s0 := if_neg hc
    rw [e]
    refine ⟨⟨hA, hm, hL, hnk, hop, ?_, fun t ht => (hT t ht).2⟩, Fgt.refl _, rfl, fun _ _ => rfl, ?_, fun _ => hi⟩
    · intro j ino hj hjz
      by_cases hji : j = id
      · subst hji; rw [hi] at hj; cases hj
        left; intro ho; exact hc ⟨hjz, ho⟩
      · exact hz j ino hji hj hjz
    · simp [hi, hc]

theorem remove_spec {L : Nat → Int} {s : St} (h : Inv T L s) {p : Nat} {n : Bytes} {id : Nat} (hc : s.db.child p n = some id)
    (force : Bool) (now : Int) :
    (∃ e, remove s p n id force now = (.error e, s) ∧
      ((s.db.hasChildren id = true ∧ e = if s.db.getPathOk p then .ENOTEMPTY else .crash) ∨
       (s.db.hasChildren id = false ∧ force = false ∧ e = .EPERM ∧ (AL.get s.db.inodes p).map (·.locked) = some true))) ∨
    (∃ s', remove s p n id force now = (.ok (), s') ∧ s.db.hasChildren id = false ∧
      ((AL.get s.db.inodes p).map (·.locked) = some true → force = true) ∧
      Inv T L s' ∧ Rest s s' ∧ s'.opened = s.opened ∧ s'.db.seq = s.db.seq ∧
      (∀ p' n', s'.db.child p' n' = if p' = p ∧ n' = n then none else s.db.child p' n') ∧
      (∀ i, AL.get s'.db.inodes i = none ∧ i = id ∧ s.db.rc id = 1 ∧ AL.get s.opened id = none ∨
        AL.get s'.db.inodes i = (AL.get s.db.inodes i).map (removedF id p now i))) := by
  obtain ⟨hcp, hcex, hpp, hpex⟩ := h.child_pos hc
  unfold remove
  by_cases hch : s.db.hasChildren id = true
  · rw [if_pos hch]
    left; exact ⟨if s.db.getPathOk p then .ENOTEMPTY else .crash, by split <;> rfl, Or.inl ⟨hch, rfl⟩⟩
  · rw [if_neg hch]
    have hch : s.db.hasChildren id = false := by simpa using hch
    obtain ⟨ip, hip⟩ := Option.ne_none_iff_exists'.1 hpex
    simp only [hip]
    by_cases hlk : ip.locked = true ∧ force = false
    · rw [if_pos hlk]
      left; exact ⟨_, rfl, Or.inr ⟨hch, hlk.2, rfl, by simp [hlk.1]⟩⟩
    · rw [if_neg hlk]
      obtain ⟨db', k, hd, hk, hA, hchild⟩ := h.acc.delEntry h.Lnn hc
      have hrest := delName_rest hd
      simp only [hd]
      obtain ⟨ino, hino⟩ := Option.ne_none_iff_exists'.1 hcex
      have hino' : AL.get db'.inodes id = some ino := by rw [hrest.1]; exact hino
      simp only [hino']
      generalize hdb1 : ({ db' with contents := AL.erase db'.contents (p, k) } : Db) = db1 at *
      have hdb1i : db1.inodes = s.db.inodes := by rw [← hdb1]; exact hrest.1
      have hrc1 : ∀ i, db1.rc i = s.db.rc i := by intro i; unfold Db.rc; rw [hdb1i]
      have hnochild : ∀ j, AL.get db1.contents (id, j) = none := by
        intro j
        rw [← hdb1]
        simp only [AL.get_erase, hrest.2.1]
        rw [hasChildren_false h.acc hch]; split <;> rfl
      have hA2 := hA.modRc id (-1) (fun i => { i with refcount := i.refcount - 1, ctime := now })
        (fun i => by simp only; omega) (fun _ => rfl) (by rw [hdb1i]; exact hcex) (Or.inr hnochild)
      have hA3 := (hA2.congr (δ' := fun _ => 0) (L' := L) (by intro i; simp only [bump]; split <;> omega) (fun _ => rfl)).modInode p (touchDir now) (fun _ => rfl) (fun i _ => Or.inl (Nat.le_refl _))
      generalize hdb2 : (db1.modInode id (fun i => { i with refcount := i.refcount - 1, ctime := now })).modInode p (touchDir now) = db2 at *
      have hget : ∀ i, AL.get db2.inodes i = (AL.get s.db.inodes i).map (removedF id p now i) := by
        intro i
        rw [← hdb2, modInode_get, modInode_get, modInode_get, hdb1i]
        unfold removedF
        by_cases e1 : i = p
        · subst e1
          by_cases e2 : i = id
          · subst e2; simp [Option.map_map, Function.comp_def]
          · simp [e2]
        · by_cases e2 : i = id
          · subst e2; simp [e1]
          · simp [e1, e2]
      have hid : AL.get db2.inodes id = some (removedF id p now id ino) := by rw [hget, hino]; rfl
      simp only [hid]
      have hr1 := modInode_rest (db1.modInode id (fun i => { i with refcount := i.refcount - 1, ctime := now })) p (touchDir now)
      have hr2 := modInode_rest db1 id (fun i => { i with refcount := i.refcount - 1, ctime := now })
      rw [hdb2] at hr1
      have hcomp : Compat s.db db2 := by
        have c1 := h.acc.compat_del hd
        intro j
        have : db2.nm j = db'.nm j := by unfold Db.nm; rw [hr1.1, hr2.1, ← hdb1]
        rw [this]; exact c1 j
      have hrefc : (removedF id p now id ino).refcount = ino.refcount - 1 := by
        unfold removedF touchDir; simp only [if_true]; split <;> rfl
      have hrcid : s.db.rc id = ino.refcount := by simp [Db.rc, hino]
      have hpn := purge_or_not (L := L) (s0 := { s with db := db2 }) (id := id) (i := removedF id p now id ino)
        (by
          intro i c hc'
          have := h.opn i c hc'
          refine ⟨?_, this.2⟩
          show AL.get db2.inodes i ≠ none
          rw [hget]; simpa using this.1)
        h.nkOp h.mpos h.Lnn hA3 hid (by
          intro j ino' hj hj' hz'
          have hj2 : AL.get db2.inodes j = some ino' := hj'
          rw [hget] at hj2
          cases hg : AL.get s.db.inodes j with
          | none => simp [hg] at hj2
          | some x =>
            rw [hg] at hj2
            simp only [Option.map_some, Option.some.injEq] at hj2
            refine h.zero j x hg ?_
            rw [← hz', ← hj2]
            unfold removedF touchDir
            simp only [if_neg hj]; split <;> rfl) (by
          intro t ht
          have hne : t ≠ id := by rintro rfl; exact h.notT_rc hcp ht
          refine ⟨hne, h.hid_of (fun t ht => (h.hid t ht).1) ?_ t ht⟩
          intro t i ht hi
          refine ⟨_, by show AL.get db2.inodes t = _; rw [hget, hi]; rfl, ?_⟩
          unfold removedF touchDir
          have : t ≠ id := by rintro rfl; exact h.notT_rc hcp ht
          simp only [if_neg this]; split <;> rfl)
      right
      have hif : ∀ (a b : St), (if (removedF id p now id ino).refcount = 0 ∧ AL.get s.opened id = none then ((.ok (), a) : Except Err Unit × St) else (.ok (), b)) =
          (.ok (), if (removedF id p now id ino).refcount = 0 ∧ AL.get s.opened id = none then a else b) := by
        intro a b; split <;> rfl
      rw [hif]
      refine ⟨_, rfl, hch, ?_, hpn.1, ?_, hpn.2.2.1, ?_, ?_, ?_⟩
      · intro hl
        simp only [Option.map_some, Option.some.injEq] at hl
        cases hf : force with
        | true => rfl
        | false => exact absurd ⟨hl, hf⟩ hlk
      · have hR : Rest s { s with db := db2 } := by
          refine ⟨?_, ?_, ?_, rfl, rfl⟩
          · intro i n' _ _
            refine xval_of_compat h.acc hA3 h.Lnn h.Lnn hcomp i ?_ n'
            intro k'
            rw [hr1.2.2.1, hr2.2.2.1, ← hdb1, hrest.2.2.1]
          · intro i _ _; show AL.get db2.symlinks i = _
            rw [hr1.2.2.2.1, hr2.2.2.2.1, ← hdb1, hrest.2.2.2.1]
          · intro i b _ _; show AL.get db2.blocks (i, b) = _
            rw [hr1.2.2.2.2.1, hr2.2.2.2.2.1, ← hdb1, hrest.2.2.2.2.1]
        refine hR.trans hpn.2.1.rest ?_
        intro i hi _
        show AL.get db2.inodes i ≠ none
        rw [hget]; simpa using hi
      · rw [hpn.2.1.sq]
        show db2.seq = _
        rw [hr1.2.2.2.2.2.2, hr2.2.2.2.2.2.2, ← hdb1, hrest.2.2.2.2.2.2]
      · intro p' n'
        rw [hpn.2.1.child]
        show db2.child p' n' = _
        rw [← hdb2, modInode_child, modInode_child, hchild]
      · intro i
        by_cases hi : i = id
        · by_cases hz : (removedF id p now id ino).refcount = 0 ∧ AL.get s.opened id = none
          · left
            refine ⟨by rw [hi]; exact hpn.2.2.2.2.1.2 hz, hi, by rw [hrcid]; omega, hz.2⟩
          · right
            have h1 := hpn.2.2.2.2.2 (fun h' => hz (hpn.2.2.2.2.1.1 h'))
            rw [hi, h1, hino]; rfl
        · right
          rw [hpn.2.2.2.1 i hi]
          exact hget i

/-! #### Creating -/

/-- The row of a new inode (fs.py:1201-1219). -/
def newInode (ip : Inode) (mode uid gid rdev size : Nat) (now : Int) : Inode :=
  ⟨if ip.mode &&& sISGID ≠ 0 ∧ isDir mode then mode ||| sISGID else mode, uid,
    if ip.mode &&& sISGID ≠ 0 then ip.gid else gid, now, now, now, 1, size, rdev, false⟩

theorem create_spec {L : Nat → Int} {s : St} (h : Inv T L s) {p : Nat} {n : Bytes} (mode uid gid rdev size : Nat) (now : Int)
    (hn : s.db.child p n = none) (hp : AL.get s.opened p ≠ none) :
    (∃ e, create s p n mode uid gid rdev size now = (.error e, s) ∧
      ((n = ctrlName ∧ e = if s.db.getPathOk p then .EACCES else .crash) ∨
       (e = .EPERM ∧ (AL.get s.db.inodes p).map (·.locked) = some true) ∨
       (e = .EINVAL ∧ s.db.rc p = 0))) ∨
    (∃ s' ip, create s p n mode uid gid rdev size now = (.ok (s.db.seq + 1), s') ∧
      n ≠ ctrlName ∧ AL.get s.db.inodes p = some ip ∧ ip.locked = false ∧ 0 < ip.refcount ∧
      AL.get s.db.inodes (s.db.seq + 1) = none ∧
      Inv T L s' ∧ Rest s s' ∧ s'.opened = s.opened ∧
      (∀ p' n', s'.db.child p' n' = if p' = p ∧ n' = n then some (s.db.seq + 1) else s.db.child p' n') ∧
      (∀ i, AL.get s'.db.inodes i = if i = s.db.seq + 1 then some (newInode ip mode uid gid rdev size now)
        else (AL.get s.db.inodes i).map (fun x => if i = p then touchDir now x else x)) ∧
      (∀ k, AL.get s'.db.xattrs (s.db.seq + 1, k) = none) ∧ AL.get s'.db.symlinks (s.db.seq + 1) = none ∧
      (∀ b, AL.get s'.db.blocks (s.db.seq + 1, b) = none)) := by
  obtain ⟨c, hpc⟩ := Option.ne_none_iff_exists'.1 hp
  have hpex := (h.opn _ _ hpc).1
  obtain ⟨ip, hip⟩ := Option.ne_none_iff_exists'.1 hpex
  have hrcp : s.db.rc p = ip.refcount := by simp [Db.rc, hip]
  have hnn := h.rc_nonneg p
  unfold create
  by_cases hctrl : n = ctrlName
  · rw [if_pos hctrl]
    left; exact ⟨if s.db.getPathOk p then .EACCES else .crash, by split <;> rfl, Or.inl ⟨hctrl, rfl⟩⟩
  rw [if_neg hctrl]
  simp only [hip]
  by_cases hlk : ip.locked = true
  · rw [if_pos hlk]; left; exact ⟨_, rfl, Or.inr (Or.inl ⟨rfl, by simp [hlk]⟩)⟩
  rw [if_neg hlk]
  by_cases hz : ip.refcount = 0
  · rw [if_pos hz]; left; exact ⟨_, rfl, Or.inr (Or.inr ⟨rfl, by rw [hrcp]; exact hz⟩)⟩
  rw [if_neg hz]
  right
  have hfresh : AL.get s.db.inodes (s.db.seq + 1) = none := by
    cases hg : AL.get s.db.inodes (s.db.seq + 1) with
    | none => rfl
    | some v => have := h.acc.seq (s.db.seq + 1) (by simp [hg]); omega
  have hA1 := h.acc.modInode p (touchDir now) (fun _ => rfl) (fun i _ => Or.inl (Nat.le_refl _))
  have hr1 := modInode_rest s.db p (touchDir now)
  have hg1 := modInode_get s.db p (touchDir now)
  have hc1 := modInode_child s.db p (touchDir now)
  generalize hdb1 : s.db.modInode p (touchDir now) = db1 at *
  have hseq : db1.seq = s.db.seq := hr1.2.2.2.2.2.2
  have hA2 := hA1.newInode (newInode ip mode uid gid rdev size now) rfl
  simp only [hseq] at hA2 ⊢
  show ∃ s' ip', (match ({ db1 with seq := s.db.seq + 1, inodes := AL.set db1.inodes (s.db.seq + 1) (newInode ip mode uid gid rdev size now) } : Db).addName n with
    | (db, nid) => match AL.get db.contents (p, nid) with
      | some _ => (.error .crash, { s with db := db })
      | none => (.ok (s.db.seq + 1), { s with db := { db with contents := AL.set db.contents (p, nid) (s.db.seq + 1) } })) = ((.ok (s.db.seq + 1), s') : Except Err Nat × St) ∧ _
  have hg2 : ∀ i, AL.get (AL.set db1.inodes (s.db.seq + 1) (newInode ip mode uid gid rdev size now)) i =
      if i = s.db.seq + 1 then some (newInode ip mode uid gid rdev size now) else
        (AL.get s.db.inodes i).map (fun x => if i = p then touchDir now x else x) := by
    intro i
    rw [AL.get_set]
    split
    · rfl
    · rw [hg1]
      by_cases he : i = p
      · subst he; simp
      · simp [he]
  generalize hdb2 : ({ db1 with seq := s.db.seq + 1, inodes := AL.set db1.inodes (s.db.seq + 1) (newInode ip mode uid gid rdev size now) } : Db) = db2 at *
  have hi2 : db2.inodes = AL.set db1.inodes (s.db.seq + 1) (newInode ip mode uid gid rdev size now) := by rw [← hdb2]
  have hnm2 : db2.names = s.db.names := by rw [← hdb2]; exact hr1.1
  have hch2 : ∀ p' n', db2.child p' n' = s.db.child p' n' := by
    intro p' n'; rw [← hc1, ← hdb2]; rfl
  have hpne : p ≠ s.db.seq + 1 := by rintro rfl; rw [hfresh] at hip; cases hip
  have hrcp2 : db2.rc p = ip.refcount := by
    unfold Db.rc; rw [hi2, hg2, if_neg hpne, hip]; simp [touchDir]
  obtain ⟨hnone, hA3, hchild⟩ := hA2.addEntry h.Lnn (p := p) (n := n) (s.db.seq + 1) (by rw [hrcp2]; omega) (by rw [hch2]; exact hn)
  have hra := addName_rest db2 n
  have hcomp : Compat s.db (db2.addName n).1 := by
    intro k
    have h1 := hA2.compat_add n k
    have : db2.nm k = s.db.nm k := by unfold Db.nm; rw [hnm2]
    rw [this] at h1; exact h1
  generalize hadd : db2.addName n = e at *
  obtain ⟨db3, nid⟩ := e
  simp only at *
  rw [hnone]
  have hA4 : Acc T s.maxObj { db3 with contents := AL.set db3.contents (p, nid) (s.db.seq + 1) } (fun _ => 0) L := by
    refine hA3.congr ?_ (fun _ => rfl)
    intro i; simp only [bump]; split <;> omega
  have hgi : ∀ i, AL.get db3.inodes i = if i = s.db.seq + 1 then some (newInode ip mode uid gid rdev size now) else
        (AL.get s.db.inodes i).map (fun x => if i = p then touchDir now x else x) := by
    intro i; rw [hra.1, hi2]; exact hg2 i
  have hxs : db3.xattrs = s.db.xattrs := by rw [hra.2.2.1, ← hdb2]; exact hr1.2.2.1
  have hss : db3.symlinks = s.db.symlinks := by rw [hra.2.2.2.1, ← hdb2]; exact hr1.2.2.2.1
  have hbs : db3.blocks = s.db.blocks := by rw [hra.2.2.2.2.1, ← hdb2]; exact hr1.2.2.2.2.1
  refine ⟨_, ip, rfl, hctrl, rfl, by simpa using hlk, by omega, hfresh, ?_, ?_, rfl, ?_, hgi, ?_, ?_, ?_⟩
  · refine ⟨hA4, h.mpos, h.Lnn, h.nkOp, ?_, ?_, ?_⟩
    · intro i c hc
      have := h.opn i c hc
      refine ⟨?_, this.2⟩
      show AL.get db3.inodes i ≠ none
      rw [hgi]
      split
      · simp
      · simpa using this.1
    · intro i ino hi hz'
      have hi' : AL.get db3.inodes i = some ino := hi
      rw [hgi] at hi'
      split at hi'
      · cases hi'; simp [newInode] at hz'
      · cases hg : AL.get s.db.inodes i with
        | none => simp [hg] at hi'
        | some x =>
          rw [hg] at hi'
          simp only [Option.map_some, Option.some.injEq] at hi'
          refine h.zero i x hg ?_
          rw [← hz', ← hi']
          split <;> rfl
    · refine h.hid_of (fun t ht => (h.hid t ht).1) ?_
      intro t i _ hi
      refine ⟨if t = p then touchDir now i else i, ?_, by split <;> rfl⟩
      show AL.get db3.inodes t = _
      rw [hgi, if_neg (by rintro rfl; rw [hfresh] at hi; cases hi), hi]; rfl
  · refine ⟨?_, ?_, ?_, rfl, rfl⟩
    · intro i n' _ _
      refine xval_of_compat h.acc hA4 h.Lnn h.Lnn hcomp i ?_ n'
      intro k; show AL.get db3.xattrs (i, k) = _; rw [hxs]
    · intro i _ _; show AL.get db3.symlinks i = _; rw [hss]
    · intro i b _ _; show AL.get db3.blocks (i, b) = _; rw [hbs]
  · intro p' n'
    rw [← hch2]; exact hchild p' n'
  · intro k; show AL.get db3.xattrs _ = _; rw [hxs]
    cases hg : AL.get s.db.xattrs (s.db.seq + 1, k) with
    | none => rfl
    | some v => exact absurd hfresh (h.acc.xin _ _ _ hg)
  · show AL.get db3.symlinks _ = _; rw [hss]
    cases hg : AL.get s.db.symlinks (s.db.seq + 1) with
    | none => rfl
    | some v => exact absurd hfresh (h.acc.sin _ _ hg)
  · intro b; show AL.get db3.blocks _ = _; rw [hbs]
    cases hg : AL.get s.db.blocks (s.db.seq + 1, b) with
    | none => rfl
    | some v => obtain ⟨_, h1, _⟩ := h.acc.bin _ _ _ hg; rw [hfresh] at h1; cases h1

/-! #### Hard links -/

/-- Change of the linked inode and its new directory in `link`. -/
def linkedF (id p : Nat) (now : Int) (i : Nat) (ino : Inode) : Inode :=
  let ino := if i = p then touchDir now ino else ino
  if i = id then { ino with refcount := ino.refcount + 1, ctime := now } else ino

theorem link_spec {L : Nat → Int} {s : St} (h : Inv T L s) {id p : Nat} {n : Bytes} (now : Int)
    (hn : s.db.child p n = none) (hp : AL.get s.opened p ≠ none) (hid : AL.get s.opened id ≠ none) :
    (∃ e, opLink s id p n now = (.error e, s) ∧
      (((n = ctrlName ∨ id = ctrlInode) ∧ e = if s.db.getPathOk p then .EACCES else .crash) ∨
       (e = .EINVAL ∧ s.db.rc p = 0) ∨
       (e = .EPERM ∧ (s.failsafe = true ∨ (AL.get s.db.inodes p).map (·.locked) = some true)))) ∨
    (∃ s' ino', opLink s id p n now = (.ok (.entry id ino'), s'.addOpen id 1) ∧ AL.get s'.db.inodes id = some ino' ∧
      s.failsafe = false ∧ (AL.get s.db.inodes p).map (·.locked) = some false ∧ 0 < s.db.rc p ∧ n ≠ ctrlName ∧
      Inv T L s' ∧ Rest s s' ∧ s'.opened = s.opened ∧ s'.db.seq = s.db.seq ∧
      (∀ p' n', s'.db.child p' n' = if p' = p ∧ n' = n then some id else s.db.child p' n') ∧
      Touched s.db s'.db (linkedF id p now)) := by
  obtain ⟨c, hpc⟩ := Option.ne_none_iff_exists'.1 hp
  have hpex := (h.opn _ _ hpc).1
  obtain ⟨ip, hip⟩ := Option.ne_none_iff_exists'.1 hpex
  obtain ⟨c', hidc⟩ := Option.ne_none_iff_exists'.1 hid
  have hidex := (h.opn _ _ hidc).1
  have hrcp : s.db.rc p = ip.refcount := by simp [Db.rc, hip]
  have hnn := h.rc_nonneg p
  unfold opLink
  by_cases hctrl : n = ctrlName ∨ id = ctrlInode
  · rw [if_pos hctrl]
    left; exact ⟨if s.db.getPathOk p then .EACCES else .crash, by split <;> rfl, Or.inl ⟨hctrl, rfl⟩⟩
  rw [if_neg hctrl]
  simp only [hip]
  by_cases hz : ip.refcount = 0
  · rw [if_pos hz]; left; exact ⟨_, rfl, Or.inr (Or.inl ⟨rfl, by rw [hrcp]; exact hz⟩)⟩
  rw [if_neg hz]
  by_cases hlk : s.failsafe = true ∨ ip.locked = true
  · rw [if_pos hlk]; left; exact ⟨_, rfl, Or.inr (Or.inr ⟨rfl, by simpa using hlk⟩)⟩
  rw [if_neg hlk]
  right
  have hA1 := h.acc.modInode p (touchDir now) (fun _ => rfl) (fun i _ => Or.inl (Nat.le_refl _))
  have hr1 := modInode_rest s.db p (touchDir now)
  have hg1 := modInode_get s.db p (touchDir now)
  have hc1 := modInode_child s.db p (touchDir now)
  generalize hdb1 : s.db.modInode p (touchDir now) = db1 at *
  have hrcp1 : db1.rc p = ip.refcount := by
    unfold Db.rc; rw [hg1, if_pos rfl, hip]; simp [touchDir]
  obtain ⟨hnone, hA3, hchild⟩ := hA1.addEntry h.Lnn (p := p) (n := n) id (by rw [hrcp1]; omega) (by rw [hc1]; exact hn)
  have hra := addName_rest db1 n
  have hcomp : Compat s.db (db1.addName n).1 := by
    intro k
    have h1 := hA1.compat_add n k
    have : db1.nm k = s.db.nm k := by unfold Db.nm; rw [hr1.1]
    rw [this] at h1; exact h1
  generalize hadd : db1.addName n = e at *
  obtain ⟨db3, nid⟩ := e
  simp only at *
  rw [hnone]
  have hid1 : AL.get db1.inodes id ≠ none := by
    rw [hg1]; split
    · simpa using hpex
    · exact hidex
  obtain ⟨ino1, hino1⟩ := Option.ne_none_iff_exists'.1 hid1
  have hino3 : AL.get db3.inodes id = some ino1 := by rw [hra.1]; exact hino1
  simp only [hino3]
  have hr3 := modInode_rest ({ db3 with contents := AL.set db3.contents (p, nid) id } : Db) id (fun i => { i with refcount := i.refcount + 1, ctime := now })
  have hg3 := modInode_get ({ db3 with contents := AL.set db3.contents (p, nid) id } : Db) id (fun i => { i with refcount := i.refcount + 1, ctime := now })
  have hc3 := modInode_child ({ db3 with contents := AL.set db3.contents (p, nid) id } : Db) id (fun i => { i with refcount := i.refcount + 1, ctime := now })
  have hA4 := (hA3.modRc id 1 (fun i => { i with refcount := i.refcount + 1, ctime := now }) (fun _ => rfl) (fun _ => rfl) (by show AL.get db3.inodes id ≠ none; rw [hino3]; simp)
    (Or.inl (by
      have e : ({ db3 with contents := AL.set db3.contents (p, nid) id } : Db).rc id = s.db.rc id := by
        unfold Db.rc
        show ((AL.get db3.inodes id).map _).getD 0 = _
        rw [hra.1, hg1]; split
        · rename_i he; subst he; cases AL.get s.db.inodes id <;> rfl
        · rfl
      rw [e]; have := h.rc_nonneg id; omega))).congr (δ' := fun _ => 0) (L' := L) (by intro i; simp only [bump]; split <;> omega) (fun _ => rfl)
  generalize hdb4 : ({ db3 with contents := AL.set db3.contents (p, nid) id } : Db).modInode id (fun i => { i with refcount := i.refcount + 1, ctime := now }) = db4 at *
  have ht : Touched s.db db4 (linkedF id p now) := by
    intro i
    rw [hg3]
    show (if i = id then (AL.get db3.inodes id).map _ else AL.get db3.inodes i) = _
    rw [hra.1, hg1, hg1]
    unfold linkedF
    by_cases e1 : i = id
    · subst e1
      by_cases e2 : i = p
      · subst e2; simp [Option.map_map, Function.comp_def]
      · simp [e2]
    · by_cases e2 : i = p
      · subst e2; simp [e1]
      · simp [e1, e2]
  obtain ⟨ino0, hino0⟩ := Option.ne_none_iff_exists'.1 hidex
  have hid4 : AL.get db4.inodes id = some (linkedF id p now id ino0) := by rw [ht, hino0]; rfl
  refine ⟨{ s with db := db4 }, linkedF id p now id ino0, ?_, hid4, by simpa using fun h' => hlk (Or.inl h'), by simpa using fun h' => hlk (Or.inr h'),
    by omega, fun h' => hctrl (Or.inl h'), ?_, ?_, rfl, ?_, ?_, ht⟩
  · unfold entryReply
    have : AL.get ((({ s with db := db4 } : St).addOpen id 1).db.inodes) id = some (linkedF id p now id ino0) := hid4
    simp only [this]
  · refine ⟨hA4, h.mpos, h.Lnn, h.nkOp, ?_, ?_, ?_⟩
    · intro i c hc
      have := h.opn i c hc
      refine ⟨?_, this.2⟩
      show AL.get db4.inodes i ≠ none
      rw [ht]; simpa using this.1
    · intro i ino hi hz'
      have hi' : AL.get db4.inodes i = some ino := hi
      rw [ht] at hi'
      cases hg : AL.get s.db.inodes i with
      | none => simp [hg] at hi'
      | some x =>
        rw [hg] at hi'
        simp only [Option.map_some, Option.some.injEq] at hi'
        by_cases hii : i = id
        · subst hii; exact Or.inl hid
        · refine h.zero i x hg ?_
          rw [← hz', ← hi']
          unfold linkedF; simp only [if_neg hii]; split <;> rfl
    · refine h.hid_of (fun t ht => (h.hid t ht).1) ?_
      intro t i hT hi
      refine ⟨linkedF id p now t i, by show AL.get db4.inodes t = _; rw [ht, hi]; rfl, ?_⟩
      have : t ≠ id := by rintro rfl; exact h.notT_open hid hT
      unfold linkedF; simp only [if_neg this]; split <;> rfl
  · refine ⟨?_, ?_, ?_, rfl, rfl⟩
    · intro i n' _ _
      refine xval_of_compat (db' := db4) h.acc hA4 h.Lnn h.Lnn ?_ i ?_ n'
      · intro k
        have : db4.nm k = db3.nm k := by unfold Db.nm; rw [hr3.1]
        rw [this]; exact hcomp k
      · intro k; rw [hr3.2.2.1]; show AL.get db3.xattrs (i, k) = _; rw [hra.2.2.1, hr1.2.2.1]
    · intro i _ _; show AL.get db4.symlinks i = _; rw [hr3.2.2.2.1]; show AL.get db3.symlinks i = _; rw [hra.2.2.2.1, hr1.2.2.2.1]
    · intro i b _ _; show AL.get db4.blocks (i, b) = _; rw [hr3.2.2.2.2.1]; show AL.get db3.blocks (i, b) = _; rw [hra.2.2.2.2.1, hr1.2.2.2.2.1]
  · show db4.seq = _
    rw [hr3.2.2.2.2.2.2]; show db3.seq = _; rw [hra.2.2.2.2.2.2, hr1.2.2.2.2.2.2]
  · intro p' n'
    show db4.child p' n' = _
    rw [hc3, hchild, hc1]

/-! #### Replacing -/

/-- Change of the replaced inode and the directories in `_replace`. -/
def replacedF (id po pn : Nat) (now : Int) (i : Nat) (ino : Inode) : Inode :=
  let ino := if i = id then { ino with refcount := ino.refcount - 1, ctime := now } else ino
  if i = po ∨ i = pn then touchDir now ino else ino

theorem replacedF_rc (id po pn : Nat) (now : Int) (i : Nat) (ino : Inode) :
    (replacedF id po pn now i ino).refcount = ino.refcount - if i = id then 1 else 0 := by
  unfold replacedF touchDir
  dsimp only
  split <;> split <;> simp

theorem replace_spec {L : Nat → Int} {s : St} (h : Inv T L s) {po pn idOld idNew : Nat} {no nn : Bytes}
    (hco : s.db.child po no = some idOld) (hcn : s.db.child pn nn = some idNew) (hne : idOld ≠ idNew) (now : Int) :
    (∃ e, replace s po no pn nn idOld idNew now = (.error e, s) ∧ s.db.hasChildren idNew = true ∧
      e = if s.db.getPathOk pn then .EINVAL else .crash) ∨
    (∃ s', replace s po no pn nn idOld idNew now = (.ok (), s') ∧ s.db.hasChildren idNew = false ∧
      Inv T L s' ∧ Rest s s' ∧ s'.opened = s.opened ∧ s'.db.seq = s.db.seq ∧
      (∀ p' n', s'.db.child p' n' = if p' = po ∧ n' = no then none else if p' = pn ∧ n' = nn then some idOld else s.db.child p' n') ∧
      (∀ i, AL.get s'.db.inodes i = none ∧ i = idNew ∧ s.db.rc idNew = 1 ∧ AL.get s.opened idNew = none ∨
        AL.get s'.db.inodes i = (AL.get s.db.inodes i).map (replacedF idNew po pn now i))) := by
  obtain ⟨_, hoex, _, hpoex⟩ := h.child_pos hco
  obtain ⟨hnp, hnex, hpnp, hpnex⟩ := h.child_pos hcn
  have hkne : ¬(po = pn ∧ no = nn) := by
    rintro ⟨rfl, rfl⟩; rw [hco] at hcn; cases hcn; exact hne rfl
  unfold replace
  by_cases hch : s.db.hasChildren idNew = true
  · rw [if_pos hch]
    left; exact ⟨if s.db.getPathOk pn then .EINVAL else .crash, by split <;> rfl, hch, rfl⟩
  rw [if_neg hch]
  have hch : s.db.hasChildren idNew = false := by simpa using hch
  right
  obtain ⟨kn, hkn, hkn2⟩ := (h.acc.child_iff _ _ _).1 hcn
  rw [(h.acc.nameId_iff nn kn).2 hkn]
  simp only [hkn2]
  obtain ⟨hA1, hch1⟩ := h.acc.repEntry idOld hkn hkn2
  generalize hdb1 : ({ s.db with contents := AL.set s.db.contents (pn, kn) idOld } : Db) = db1 at *
  have hco1 : db1.child po no = some idOld := by rw [hch1, if_neg hkne]; exact hco
  obtain ⟨db2, k, hd, hk, hA2, hch2⟩ := hA1.delEntry h.Lnn hco1
  have hr2 := delName_rest hd
  have hcd := hA1.compat_del hd
  simp only [hd]
  generalize hdb3 : ({ db2 with contents := AL.erase db2.contents (po, k) } : Db) = db3 at *
  have hi3 : db3.inodes = s.db.inodes := by rw [← hdb3]; show db2.inodes = _; rw [hr2.1, ← hdb1]
  obtain ⟨ino, hino⟩ := Option.ne_none_iff_exists'.1 hnex
  have hino3 : AL.get db3.inodes idNew = some ino := by rw [hi3]; exact hino
  have hino2 : AL.get db2.inodes idNew = some ino := by rw [hr2.1, ← hdb1]; exact hino
  simp only [hino2]
  have hnochild : ∀ j, AL.get db3.contents (idNew, j) = none := by
    intro j
    have h0 := hasChildren_false h.acc hch j
    rw [← hdb3]
    simp only [AL.get_erase, hr2.2.1]
    split
    · rfl
    · rw [← hdb1]
      simp only [AL.get_set]
      split
      · rename_i he; rw [← he] at hkn2; rw [h0] at hkn2; cases hkn2
      · exact h0
  have hA4 := (hA2.modRc idNew (-1) (fun i => { i with refcount := i.refcount - 1, ctime := now })
    (fun i => by simp only; omega) (fun _ => rfl) (by rw [hino3]; simp) (Or.inr hnochild)).congr (δ' := fun _ => 0) (L' := L)
    (by intro i; simp only [bump]; split <;> split <;> omega) (fun _ => rfl)
  have hr4 := modInode_rest db3 idNew (fun i => { i with refcount := i.refcount - 1, ctime := now })
  have hg4 := modInode_get db3 idNew (fun i => { i with refcount := i.refcount - 1, ctime := now })
  have hc4 := modInode_child db3 idNew (fun i => { i with refcount := i.refcount - 1, ctime := now })
  generalize hdb4 : db3.modInode idNew (fun i => { i with refcount := i.refcount - 1, ctime := now }) = db4 at *
  have hA5 := (hA4.modInode po (touchDir now) (fun _ => rfl) (fun i _ => Or.inl (Nat.le_refl _))).modInode pn (touchDir now) (fun _ => rfl) (fun i _ => Or.inl (Nat.le_refl _))
  have hr5 := modInode_rest (db4.modInode po (touchDir now)) pn (touchDir now)
  have hr5' := modInode_rest db4 po (touchDir now)
  have hg5 := modInode_get (db4.modInode po (touchDir now)) pn (touchDir now)
  have hc5 := modInode_child (db4.modInode po (touchDir now)) pn (touchDir now)
  simp only [modInode_get db4] at hg5
  simp only [modInode_child db4] at hc5
  generalize hdb5 : (db4.modInode po (touchDir now)).modInode pn (touchDir now) = db5 at *
  have hget : ∀ i, AL.get db5.inodes i = (AL.get s.db.inodes i).map (replacedF idNew po pn now i) := by
    intro i
    rw [hg5]
    simp only [hg4, hi3]
    unfold replacedF touchDir
    by_cases e1 : i = idNew <;> by_cases e2 : i = po <;> by_cases e3 : i = pn <;>
      first | (subst e1; subst e2; subst e3; cases AL.get s.db.inodes i <;> simp_all)
            | (cases hx : AL.get s.db.inodes i <;> grind)
  have hid : AL.get db5.inodes idNew = some (replacedF idNew po pn now idNew ino) := by rw [hget, hino]; rfl
  simp only [hid]
  have hrefc : (replacedF idNew po pn now idNew ino).refcount = ino.refcount - 1 := by rw [replacedF_rc]; simp
  have hrcid : s.db.rc idNew = ino.refcount := by simp [Db.rc, hino]
  have hpn' := purge_or_not (L := L) (s0 := { s with db := db5 }) (id := idNew) (i := replacedF idNew po pn now idNew ino)
    (by
      intro i c hc'
      have := h.opn i c hc'
      refine ⟨?_, this.2⟩
      show AL.get db5.inodes i ≠ none
      rw [hget]; simpa using this.1)
    h.nkOp h.mpos h.Lnn hA5 hid (by
      intro j ino' hj hj' hz'
      have hj2 : AL.get db5.inodes j = some ino' := hj'
      rw [hget] at hj2
      cases hg : AL.get s.db.inodes j with
      | none => simp [hg] at hj2
      | some x =>
        rw [hg] at hj2
        simp only [Option.map_some, Option.some.injEq] at hj2
        refine h.zero j x hg ?_
        rw [← hz', ← hj2, replacedF_rc, if_neg hj]; omega) (by
      intro t ht
      have hne : ∀ t, T t → t ≠ idNew := by rintro t ht rfl; exact h.notT_rc hnp ht
      refine ⟨hne t ht, h.hid_of (fun t ht => (h.hid t ht).1) ?_ t ht⟩
      intro t i ht hi
      refine ⟨_, by show AL.get db5.inodes t = _; rw [hget, hi]; rfl, ?_⟩
      rw [replacedF_rc, if_neg (hne t ht)]; omega)
  have hif : ∀ (a b : St), (if (replacedF idNew po pn now idNew ino).refcount = 0 ∧ AL.get s.opened idNew = none then ((.ok (), a) : Except Err Unit × St) else (.ok (), b)) =
      (.ok (), if (replacedF idNew po pn now idNew ino).refcount = 0 ∧ AL.get s.opened idNew = none then a else b) := by
    intro a b; split <;> rfl
  rw [hif]
  have hnames5 : db5.names = db2.names := by rw [hr5.1, hr5'.1, hr4.1, ← hdb3]
  refine ⟨_, rfl, hch, hpn'.1, ?_, hpn'.2.2.1, ?_, ?_, ?_⟩
  · have hR : Rest s { s with db := db5 } := by
      refine ⟨?_, ?_, ?_, rfl, rfl⟩
      · intro i n' _ _
        refine xval_of_compat (db' := db5) h.acc hA5 h.Lnn h.Lnn ?_ i ?_ n'
        · intro k'
          have e1 : db5.nm k' = db2.nm k' := by unfold Db.nm; rw [hnames5]
          have e2 : db1.nm k' = s.db.nm k' := by unfold Db.nm; rw [← hdb1]
          rw [e1, ← e2]; exact hcd k'
        · intro k'
          rw [hr5.2.2.1, hr5'.2.2.1, hr4.2.2.1, ← hdb3, hr2.2.2.1, ← hdb1]
      · intro i _ _; show AL.get db5.symlinks i = _
        rw [hr5.2.2.2.1, hr5'.2.2.2.1, hr4.2.2.2.1, ← hdb3, hr2.2.2.2.1, ← hdb1]
      · intro i b _ _; show AL.get db5.blocks (i, b) = _
        rw [hr5.2.2.2.2.1, hr5'.2.2.2.2.1, hr4.2.2.2.2.1, ← hdb3, hr2.2.2.2.2.1, ← hdb1]
    refine hR.trans hpn'.2.1.rest ?_
    intro i hi _
    show AL.get db5.inodes i ≠ none
    rw [hget]; simpa using hi
  · rw [hpn'.2.1.sq]
    show db5.seq = _
    rw [hr5.2.2.2.2.2.2, hr5'.2.2.2.2.2.2, hr4.2.2.2.2.2.2, ← hdb3, hr2.2.2.2.2.2.2, ← hdb1]
  · intro p' n'
    rw [hpn'.2.1.child]
    show db5.child p' n' = _
    rw [hc5, hc4, hch2, hch1]
  · intro i
    by_cases hi : i = idNew
    · by_cases hz : (replacedF idNew po pn now idNew ino).refcount = 0 ∧ AL.get s.opened idNew = none
      · left
        refine ⟨by rw [hi]; exact hpn'.2.2.2.2.1.2 hz, hi, by rw [hrcid]; omega, hz.2⟩
      · right
        have h1 := hpn'.2.2.2.2.2 (fun h' => hz (hpn'.2.2.2.2.1.1 h'))
        rw [hi, h1, hino]; rfl
    · right
      rw [hpn'.2.2.2.1 i hi]
      exact hget i

end Verif.Fs
