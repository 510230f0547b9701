/-
C64: what a run of fsck keeps.
-/
import Verif.Fsck.Dirty

namespace Verif.Fsck
open Verif.Fs (Bytes Inode rootInode ctrlInode isDir sIFMT)

/-! #### Specification -/

/-- An inode keeps all attributes, except that the link count is corrected, the size may grow, and an inode without a
type becomes a directory or a regular file. -/
def InodeKept (i j : Inode) : Prop :=
  j = { i with refcount := j.refcount, size := j.size, mode := j.mode } ∧ i.size ≤ j.size ∧
    (j.mode = i.mode ∨ (i.mode &&& sIFMT = 0 ∧ (j.mode = i.mode ||| 0o040000 ∨ j.mode = i.mode ||| 0o100000)))

/-- The entry is named `lost+found`, and leads to something else than a directory. -/
def FalseLof (db : Db) (r : CRow) : Prop :=
  (∃ n, (r.nameId, n) ∈ db.names ∧ n.text = false ∧ n.name = lofName) ∧ ∀ i, (r.inode, i) ∈ db.inodes → isDir i.mode = false

/-- Inodes stay; their symlink targets and extended attributes stay, the latter perhaps under another name; their
directory entries stay, perhaps under another name or in another directory. -/
structure Keeps (ex : CRow → Prop) (a b : Db) : Prop where
  inodes : ∀ id i, (id, i) ∈ a.inodes → ∃ j, (id, j) ∈ b.inodes ∧ InodeKept i j
  symlinks : ∀ id t, (id, t) ∈ a.symlinks → HasInode a id → (id, t) ∈ b.symlinks
  xattrs : ∀ k x, (k, x) ∈ a.xattrs → HasInode a x.inode → ∃ y, (k, y) ∈ b.xattrs ∧ y.inode = x.inode ∧ y.value = x.value
  entries : ∀ k r, (k, r) ∈ a.contents → HasInode a r.inode → ¬ ex r → ∃ q, (k, q) ∈ b.contents ∧ q.inode = r.inode

/-! #### Proof -/

abbrev never : CRow → Prop := fun _ => False

theorem typed_dir (m : Nat) : (m ||| 0o040000) &&& sIFMT ≠ 0 := by
  intro h
  have h1 : ((m ||| 0o040000) &&& sIFMT).testBit 14 = true := by
    rw [Nat.testBit_and, Nat.testBit_or]
    have a : (0o040000 : Nat).testBit 14 = true := by decide
    have b : sIFMT.testBit 14 = true := by decide
    rw [a, b]; simp
  rw [h] at h1
  simp at h1

theorem typed_reg (m : Nat) : (m ||| 0o100000) &&& sIFMT ≠ 0 := by
  intro h
  have h1 : ((m ||| 0o100000) &&& sIFMT).testBit 15 = true := by
    rw [Nat.testBit_and, Nat.testBit_or]
    have a : (0o100000 : Nat).testBit 15 = true := by decide
    have b : sIFMT.testBit 15 = true := by decide
    rw [a, b]; simp
  rw [h] at h1
  simp at h1

theorem InodeKept.refl (i : Inode) : InodeKept i i := ⟨rfl, Nat.le_refl _, Or.inl rfl⟩

theorem InodeKept.trans {i j k : Inode} (h1 : InodeKept i j) (h2 : InodeKept j k) : InodeKept i k := by
  obtain ⟨a1, a2, a3⟩ := h1
  obtain ⟨b1, b2, b3⟩ := h2
  refine ⟨by rw [b1, a1], Nat.le_trans a2 b2, ?_⟩
  rcases b3 with b3 | ⟨b3, b4⟩
  · rw [b3]; exact a3
  · rcases a3 with a3 | ⟨a3, a4 | a4⟩
    · rw [a3] at b3 b4
      exact Or.inr ⟨b3, b4⟩
    · rw [a4] at b3; exact absurd b3 (typed_dir _)
    · rw [a4] at b3; exact absurd b3 (typed_reg _)

theorem Keeps.refl (a : Db) : Keeps never a a :=
  ⟨fun _ i h => ⟨i, h, InodeKept.refl i⟩, fun _ _ h _ => h, fun _ x h _ => ⟨x, h, rfl, rfl⟩, fun _ r h _ _ => ⟨r, h, rfl⟩⟩

theorem Keeps.has {ex : CRow → Prop} {a b : Db} (h : Keeps ex a b) {id : Nat} (hi : HasInode a id) : HasInode b id := by
  obtain ⟨i, hi⟩ := hi
  obtain ⟨j, hj, _⟩ := h.inodes id i hi
  exact ⟨j, hj⟩

theorem Keeps.trans {ex : CRow → Prop} {a b c : Db} (h1 : Keeps ex a b) (h2 : Keeps never b c) : Keeps ex a c := by
  refine ⟨?_, ?_, ?_, ?_⟩
  · intro id i hi
    obtain ⟨j, hj, k1⟩ := h1.inodes id i hi
    obtain ⟨k, hk, k2⟩ := h2.inodes id j hj
    exact ⟨k, hk, k1.trans k2⟩
  · intro id t ht hi
    exact h2.symlinks id t (h1.symlinks id t ht hi) (h1.has hi)
  · intro k x hx hi
    obtain ⟨y, hy, y1, y2⟩ := h1.xattrs k x hx hi
    obtain ⟨z, hz, z1, z2⟩ := h2.xattrs k y hy (by rw [y1]; exact h1.has hi)
    exact ⟨z, hz, z1.trans y1, z2.trans y2⟩
  · intro k r hr hi he
    obtain ⟨q, hq, q1⟩ := h1.entries k r hr hi he
    obtain ⟨p, hp, p1⟩ := h2.entries k q hq (by rw [q1]; exact h1.has hi) (fun h => h)
    exact ⟨p, hp, p1.trans q1⟩

/-- Tables that do not matter here may change. -/
theorem Keeps.other {a b : Db} (hi : b.inodes = a.inodes) (hl : b.symlinks = a.symlinks) (hx : b.xattrs = a.xattrs)
    (hc : b.contents = a.contents) : Keeps never a b := by
  refine ⟨?_, ?_, ?_, ?_⟩
  · intro id i h; exact ⟨i, by rw [hi]; exact h, InodeKept.refl i⟩
  · intro id t h _; rw [hl]; exact h
  · intro k x h _; exact ⟨x, by rw [hx]; exact h, rfl, rfl⟩
  · intro k r h _ _; exact ⟨r, by rw [hc]; exact h, rfl⟩

theorem Keeps.moved {a b : Db} (h : Moved a b) : Keeps never a b := by
  refine ⟨?_, ?_, ?_, ?_⟩
  · intro id i hi; exact ⟨i, by rw [h.1]; exact hi, InodeKept.refl i⟩
  · intro id t ht _; rw [h.1]; exact ht
  · intro k x hx _; exact ⟨x, by rw [h.1]; exact hx, rfl, rfl⟩
  · intro k r hr _ _
    have : (k, r.inode) ∈ col b := by rw [h.2.1]; exact mem_col.2 ⟨r, hr, rfl⟩
    obtain ⟨q, hq, h2⟩ := mem_col.1 this
    exact ⟨q, hq, h2⟩

/-- Changed inodes. -/
theorem Keeps.setInode {a : Db} (hs : Schema a) {id : Nat} {i j : Inode} (hg : AL.get a.inodes id = some i) (hk : InodeKept i j) :
    Keeps never a { a with inodes := AL.set a.inodes id j } := by
  refine ⟨?_, fun _ _ h _ => h, fun _ x h _ => ⟨x, h, rfl, rfl⟩, fun _ r h _ _ => ⟨r, h, rfl⟩⟩
  intro id' i' h
  by_cases he : id' = id
  · subst he
    have := AL.mem_get_some hs.inodes h
    rw [hg] at this; cases this
    exact ⟨j, (mem_set hs.inodes).2 (Or.inl rfl), hk⟩
  · exact ⟨i', (mem_set hs.inodes).2 (Or.inr ⟨h, he⟩), InodeKept.refl i'⟩

theorem moveRows_get {f : CRow → CRow} (hf : ∀ r, f (f r) = f r) {l : List Nat} : ∀ {db db' : Db},
    db.moveRows f l = some db' →
    db' = { db with contents := db'.contents } ∧ ∀ k, AL.get db'.contents k = if k ∈ l then (AL.get db.contents k).map f else AL.get db.contents k := by
  induction l with
  | nil => intro db db' h; cases h; exact ⟨rfl, fun k => by simp⟩
  | cons a t ih =>
    intro db db' h
    unfold Db.moveRows at h
    cases hg : AL.get db.contents a with
    | none =>
      rw [hg] at h
      obtain ⟨h1, h2⟩ := ih h
      refine ⟨h1, fun k => ?_⟩
      rw [h2 k]
      by_cases hk : k = a
      · subst hk; rw [hg]; simp
      · simp [hk]
    | some r =>
      rw [hg] at h
      dsimp only at h
      cases hp : db.putEntry a (f r) with
      | none => rw [hp] at h; cases h
      | some d =>
        rw [hp] at h
        obtain ⟨hd, _⟩ := putEntry_some hp
        obtain ⟨h1, h2⟩ := ih h
        refine ⟨by rw [h1, hd], fun k => ?_⟩
        rw [h2 k, hd]
        dsimp only
        rw [AL.get_set]
        by_cases hk : k = a
        · subst hk
          rw [hg]
          simp [hf]
        · simp [hk, Ne.symm hk]

theorem addName_has {db : Db} (hn : AL.NK db.names) (x : Bool) (n : Bytes) :
    ∃ r, ((db.addName x n).2, r) ∈ (db.addName x n).1.names ∧ r.text = x ∧ r.name = n := by
  rcases addName_get hn x n with ⟨r, h1, h2, h3, h4⟩ | ⟨h1, h2, h3⟩
  · refine ⟨{ r with refcount := r.refcount + 1 }, ?_, h2, h3⟩
    rw [h4]; exact (mem_set hn).2 (Or.inl rfl)
  · refine ⟨⟨x, n, 1⟩, ?_, rfl, rfl⟩
    rw [h3, h2]; exact (mem_set hn).2 (Or.inl rfl)

/-- The first part of check_lof: nothing is lost, and the entry that it returns is there. -/
theorem findLof_spec {cfg : Cfg} {s s1 : St} {id nid : Nat} (hs : Schema s.db) (h : findLof cfg s = some (s1, id, nid)) :
    Keeps never s.db s1.db ∧ (∃ k r, (k, r) ∈ s1.db.contents ∧ r.parent = rootInode ∧ r.nameId = nid ∧ r.inode = id ∧
      (∀ i, (id, i) ∈ s1.db.inodes → isDir i.mode = false → ∃ q, (k, q) ∈ s.db.contents ∧ q.inode = id ∧ q.nameId = nid ∧ (id, i) ∈ s.db.inodes ∧ ∃ n, (nid, n) ∈ s.db.names ∧ n.text = false ∧ n.name = lofName)) ∧
    (∃ n, (nid, n) ∈ s1.db.names ∧ n.text = false ∧ n.name = lofName) := by
  unfold findLof at h
  cases he : s.db.entry rootInode lofName with
  | some e =>
    rw [he] at h
    cases h
    unfold Db.entry at he
    obtain ⟨i, h1, h2⟩ := Option.bind_eq_some_iff.1 he
    obtain ⟨c1, c2, c3⟩ := findEntry_spec h2
    obtain ⟨n, n1, n2, n3⟩ := findName_spec h1
    subst c3
    exact ⟨Keeps.refl _, ⟨e.1, e.2, c1, c2, rfl, rfl, fun i hi _ => ⟨e.2, c1, rfl, rfl, hi, n, n1, n2, n3⟩⟩, ⟨n, n1, n2, n3⟩⟩
  | none =>
    rw [he] at h
    dsimp only at h
    split at h
    · rename_i e hself
      split at h
      · cases h
      · rename_i db hmv
        cases h
        obtain ⟨m1, m2⟩ := moveRows_get (f := fun r => { r with parent := rootInode }) (fun r => rfl) hmv
        have hmem : e ∈ s.db.selfLof := by rw [hself]; exact List.mem_singleton.2 rfl
        unfold Db.selfLof at hmem
        split at hmem
        · cases hmem
        · rename_i i hn
          obtain ⟨e1, e2⟩ := List.mem_filter.1 hmem
          simp only [Bool.and_eq_true, beq_iff_eq] at e2
          obtain ⟨n, n1, n2, n3⟩ := findName_spec hn
          have hin : e.1 ∈ keys (s.db.contents.filter (fun x => x.2.inode == e.2.inode)) :=
            List.mem_map.2 ⟨e, List.mem_filter.2 ⟨e1, by simp⟩, rfl⟩
          have hgk := m2 e.1
          rw [if_pos hin, AL.mem_get_some hs.contents (k := e.1) (v := e.2) e1] at hgk
          refine ⟨⟨?_, ?_, ?_, ?_⟩, ⟨e.1, { e.2 with parent := rootInode }, AL.get_some_mem hgk, rfl, rfl, rfl, ?_⟩, ?_⟩
          · intro id i hi; exact ⟨i, by show (id, i) ∈ db.inodes; rw [m1]; exact hi, InodeKept.refl i⟩
          · intro id t ht _; show (id, t) ∈ db.symlinks; rw [m1]; exact ht
          · intro k x hx _; exact ⟨x, by show (k, x) ∈ db.xattrs; rw [m1]; exact hx, rfl, rfl⟩
          · intro k r hr _ _
            have hg := AL.mem_get_some hs.contents hr
            have h2 := m2 k
            rw [hg] at h2
            split at h2
            · exact ⟨_, AL.get_some_mem h2, rfl⟩
            · exact ⟨_, AL.get_some_mem h2, rfl⟩
          · intro i hi _
            refine ⟨e.2, e1, rfl, rfl, ?_, n, by rw [e2.1]; exact n1, n2, n3⟩
            have hi' : (e.2.inode, i) ∈ db.inodes := hi
            rw [m1] at hi'; exact hi'
          · show ∃ n, (e.2.nameId, n) ∈ db.names ∧ _
            rw [m1, e2.1]; exact ⟨n, n1, n2, n3⟩
    · rename_i hself

      split at h
      · cases h
      · rename_i db hins
        cases h
        obtain ⟨i1, _⟩ := insEntry_some hins
        have hs1 : Schema (s.db.createLof cfg).1 := hs.createLof cfg
        have ao := addName_other hs1.names false lofName
        have hcs : ((s.db.createLof cfg).1.addName false lofName).1.contents = s.db.contents := by rw [ao]; rfl
        have hcq : ((s.db.createLof cfg).1.addName false lofName).1.cseq = s.db.cseq := by rw [ao]; rfl
        have hin : ((s.db.createLof cfg).1.addName false lofName).1.inodes = AL.set s.db.inodes (s.db.iseq + 1) (lofInode cfg) := by rw [ao]; rfl
        rw [hcs, hcq] at i1
        refine ⟨⟨?_, ?_, ?_, ?_⟩, ⟨s.db.cseq + 1, ⟨rootInode, ((s.db.createLof cfg).1.addName false lofName).2, (s.db.createLof cfg).2⟩, ?_, rfl, rfl, rfl, ?_⟩, ?_⟩
        · intro id i hi
          refine ⟨i, ?_, InodeKept.refl i⟩
          show (id, i) ∈ db.inodes
          rw [i1]
          show (id, i) ∈ ((s.db.createLof cfg).1.addName false lofName).1.inodes
          rw [hin]
          refine (mem_set hs.inodes).2 (Or.inr ⟨hi, ?_⟩)
          have := hs.iseq _ hi
          dsimp only at this ⊢; omega
        · intro id t ht _
          show (id, t) ∈ db.symlinks
          rw [i1, ao]; exact ht
        · intro k x hx _
          refine ⟨x, ?_, rfl, rfl⟩
          show (k, x) ∈ db.xattrs
          rw [i1, ao]; exact hx
        · intro k r hr _ _
          refine ⟨r, ?_, rfl⟩
          show (k, r) ∈ db.contents
          rw [i1]
          refine (mem_set hs.contents).2 (Or.inr ⟨hr, ?_⟩)
          have := hs.cseq _ hr
          dsimp only at this ⊢; omega
        · show _ ∈ db.contents
          rw [i1]
          exact (mem_set hs.contents).2 (Or.inl rfl)
        · intro i hi hd
          exfalso
          have hi' : ((s.db.createLof cfg).2, i) ∈ db.inodes := hi
          rw [i1] at hi'
          have hi2 : ((s.db.createLof cfg).2, i) ∈ ((s.db.createLof cfg).1.addName false lofName).1.inodes := hi'
          rw [hin] at hi2
          rcases (mem_set hs.inodes).1 hi2 with h1 | ⟨h1, h2⟩
          · cases h1
            exact absurd hd (by dsimp only [lofInode]; decide)
          · exact h2 rfl
        · have := addName_has (db := (s.db.createLof cfg).1) hs1.names false lofName
          obtain ⟨n, n1, n2, n3⟩ := this
          refine ⟨n, ?_, n2, n3⟩
          show (_, n) ∈ db.names
          rw [i1]; exact n1
    · cases h

theorem checkLof_spec {cfg : Cfg} {s s' : St} (hs : Schema s.db) (h : checkLof cfg s = some s') :
    Keeps (FalseLof s.db) s.db s'.db ∧ LofOk s'.db := by
  unfold checkLof at h
  cases hf : findLof cfg s with
  | none => rw [hf] at h; cases h
  | some x =>
    obtain ⟨s1, id, nid⟩ := x
    rw [hf] at h
    have hs1 := findLof_schema hs hf
    obtain ⟨k1, ⟨k, r, hk, hp, hn, hid, hold⟩, n, n1, n2, n3⟩ := findLof_spec hs hf
    dsimp only at h
    cases hg : AL.get s1.db.inodes id with
    | none => rw [hg] at h; cases h
    | some i =>
      rw [hg] at h
      dsimp only at h
      have hi := AL.get_some_mem hg
      by_cases hd : isDir i.mode = true
      · rw [if_pos hd] at h
        cases h
        refine ⟨⟨k1.inodes, k1.symlinks, k1.xattrs, fun k r hr hi _ => k1.entries k r hr hi (fun h => h)⟩, ?_⟩
        exact ⟨(k, r), hk, hp, ⟨n, by dsimp only; rw [hn]; exact n1, n2, n3⟩, i, by dsimp only; rw [hid]; exact hi, hd⟩
      · rw [if_neg hd] at h
        have hfe : findEntry (s1.db.createLof cfg).1.contents rootInode nid = some (k, r) := by
          show findEntry s1.db.contents rootInode nid = some (k, r)
          cases hx : findEntry s1.db.contents rootInode nid with
          | none => exact absurd ⟨hp, hn⟩ (findEntry_none hx _ hk)
          | some e =>
            obtain ⟨c1, c2, c3⟩ := findEntry_spec hx
            rw [hs1.entryUnique e c1 (k, r) hk (c2.trans hp.symm) (c3.trans hn.symm)]
        rw [hfe] at h
        dsimp only at h
        cases h
        obtain ⟨q, q1, q2, q3, q4, nq, nq1, nq2, nq3⟩ := hold i hi (Bool.eq_false_iff.2 hd)
        have hin : (s1.db.createLof cfg).1.inodes = AL.set s1.db.inodes (s1.db.iseq + 1) (lofInode cfg) := rfl
        refine ⟨⟨?_, k1.symlinks, k1.xattrs, ?_⟩, ?_⟩
        · intro id i hi
          obtain ⟨j, hj, kj⟩ := k1.inodes id i hi
          refine ⟨j, (mem_set hs1.inodes).2 (Or.inr ⟨hj, ?_⟩), kj⟩
          have := hs1.iseq _ hj
          dsimp only at this ⊢; omega
        · intro k' r' hr' hi' hex
          obtain ⟨q', hq', e'⟩ := k1.entries k' r' hr' hi' (fun h => h)
          refine ⟨q', (mem_set hs1.contents).2 (Or.inr ⟨hq', ?_⟩), e'⟩
          dsimp only
          rintro rfl
          refine hex ?_
          have : r' = q := by
            have a := AL.mem_get_some hs.contents hr'
            rw [AL.mem_get_some hs.contents q1] at a
            exact (Option.some.inj a).symm
          subst this
          refine ⟨⟨nq, by rw [q3]; exact nq1, nq2, nq3⟩, ?_⟩
          intro i' hi2
          rw [q2] at hi2
          have a := AL.mem_get_some hs.inodes hi2
          rw [AL.mem_get_some hs.inodes q4] at a
          rw [← Option.some.inj a]
          exact Bool.eq_false_iff.2 hd
        · exact ⟨(k, { r with inode := (s1.db.createLof cfg).2 }), (mem_set hs1.contents).2 (Or.inl rfl), hp, ⟨n, by dsimp only; rw [hn]; exact n1, n2, n3⟩, lofInode cfg, (mem_set hs1.inodes).2 (Or.inl rfl), by dsimp only [lofInode]; decide⟩

theorem checkA_keeps {cfg : Cfg} {c : CacheArg} {s s' : St} (hs : Schema s.db) (h : checkA cfg c s = some s') :
    Keeps (FalseLof s.db) s.db s'.db := by
  unfold checkA at h
  obtain ⟨s1, h1, h⟩ := Option.bind_eq_some_iff.1 h
  obtain ⟨s2, h2, h⟩ := Option.bind_eq_some_iff.1 h
  obtain ⟨s4, h4, h⟩ := Option.bind_eq_some_iff.1 h
  obtain ⟨s5, h5, h6⟩ := Option.bind_eq_some_iff.1 h
  have hs1 := checkLof_schema hs h1
  have hs2 := cachePart_schema hs1 h2
  have hs3 := checkNamesRefcount_schema hs2
  obtain ⟨hs4, m4⟩ := checkContentsName_moved hs3 h4
  have hs5 := checkContentsInode_schema hs4 h5
  obtain ⟨_, m6⟩ := checkContentsParent_step hs5 h6
  have k1 := (checkLof_spec hs h1).1
  have k2 : Keeps never s1.db (checkNamesRefcount s2).db := by
    have o := cachePart_other h2
    refine Keeps.other ?_ ?_ ?_ ?_ <;> show _ <;> dsimp only [checkNamesRefcount] <;> rw [o]
  have k5 : Keeps never s4.db s5.db := by
    have d5 := checkContentsInode_db h5
    rw [dropAll_other] at d5
    refine ⟨?_, ?_, ?_, ?_⟩
    · intro id i hi; exact ⟨i, by rw [d5]; exact hi, InodeKept.refl i⟩
    · intro id t ht _; rw [d5]; exact ht
    · intro k x hx _; exact ⟨x, by rw [d5]; exact hx, rfl, rfl⟩
    · intro k r hr hi _
      refine ⟨r, ?_, rfl⟩
      rw [d5]
      exact List.mem_filter.2 ⟨hr, isSome_iff_mem.2 hi⟩
  exact (((k1.trans k2).trans (Keeps.moved m4)).trans k5).trans (Keeps.moved m6)

theorem checkB_keepsRows {cfg : Cfg} {s s' : St} (hs : Schema s.db) (h : checkB cfg s = some s') : Keeps never s.db s'.db := by
  unfold checkB at h
  obtain ⟨s9, h9, h⟩ := Option.bind_eq_some_iff.1 h
  obtain ⟨s10, h10, h⟩ := Option.bind_eq_some_iff.1 h
  obtain ⟨s11, h11, h⟩ := Option.bind_eq_some_iff.1 h
  obtain ⟨s12, h12, h13⟩ := Option.bind_eq_some_iff.1 h
  have hs8 : Schema (checkObjectsHash (checkObjectsTemp s)).db := checkObjectsHash_schema (s := checkObjectsTemp s) hs
  obtain ⟨hs9, o9, _⟩ := checkObjectsRefcount_step hs8 h9
  obtain ⟨hs10, o10, _⟩ := checkObjectsId_step hs9 h10
  obtain ⟨hs11, o11, _⟩ := checkObjectsPhys_step hs10 h11
  obtain ⟨s1, _, m12, _, d12⟩ := checkBlocksObj_step hs11 h12
  obtain ⟨d13, _⟩ := checkBlocksInode_db h13
  have k11 : Keeps never s.db s11.db := by
    have := (o9.trans o10).trans o11
    refine Keeps.other ?_ ?_ ?_ ?_ <;> rw [this] <;> rfl
  have k12 : Keeps never s1.db s12.db := by
    refine Keeps.other ?_ ?_ ?_ ?_ <;> rw [d12]
  have k13 : Keeps never s12.db s'.db := by
    refine Keeps.other ?_ ?_ ?_ ?_ <;> rw [d13]
  exact ((k11.trans (Keeps.moved m12)).trans k12).trans k13

theorem addName_keeps {db : Db} (hn : AL.NK db.names) (x : Bool) (n : Bytes) : Keeps never db (db.addName x n).1 := by
  have o := addName_other hn x n
  refine Keeps.other ?_ ?_ ?_ ?_ <;> rw [o]

theorem delName_keeps (db : Db) (n : Nat) : Keeps never db (db.delName n) := by
  have o := delName_other db n
  refine Keeps.other ?_ ?_ ?_ ?_ <;> rw [o]

theorem insEntry_keeps {db db' : Db} (hs : Schema db) {r : CRow} (h : db.insEntry r = some db') : Keeps never db db' := by
  obtain ⟨hdb, _⟩ := insEntry_some h
  subst hdb
  refine ⟨fun _ i h => ⟨i, h, InodeKept.refl i⟩, fun _ _ h _ => h, fun _ x h _ => ⟨x, h, rfl, rfl⟩, ?_⟩
  intro k q hq _ _
  refine ⟨q, (mem_set hs.contents).2 (Or.inr ⟨hq, ?_⟩), rfl⟩
  have := hs.cseq _ hq
  dsimp only at this ⊢; omega

theorem fixRef_keeps {w : Nat × Nat} {s s' : St} (hs : Schema s.db) (h : fixRef w s = some s') : Schema s'.db ∧ Keeps never s.db s'.db := by
  rcases fixRef_some h with ⟨rfl, _⟩ | ⟨i, hg, ⟨_, n, p, n', db, _, hi, rfl⟩ | ⟨_, rfl⟩⟩
  · exact ⟨hs, Keeps.refl _⟩
  · have k1 := addName_keeps hs.names false n'
    have hs1 := hs.addName false n'
    have k2 := insEntry_keeps hs1 hi
    have hs2 : Schema db := hs1.insEntry hi
    have hg2 : AL.get db.inodes w.1 = some i := by
      obtain ⟨hdb, hm⟩ := insEntry_some hi
      subst hdb
      show AL.get (s.db.addName false n').1.inodes w.1 = some i
      rw [addName_other hs.names]; exact hg
    exact ⟨hs2.setInode _ hg2, (k1.trans k2).trans (Keeps.setInode hs2 hg2 ⟨rfl, Nat.le_refl _, Or.inl rfl⟩)⟩
  · exact ⟨hs.setInode _ hg, Keeps.setInode hs hg ⟨rfl, Nat.le_refl _, Or.inl rfl⟩⟩

theorem checkInodesRefcount_keeps {s s' : St} (hs : Schema s.db) (h : checkInodesRefcount s = some s') : Keeps never s.db s'.db := by
  have : Schema s'.db ∧ Keeps never s.db s'.db := by
    refine iter_inv (f := fixRef) (fun t => Schema t.db ∧ Keeps never s.db t.db) ?_ h ⟨hs, Keeps.refl _⟩
    intro w _ t t' ht hf
    obtain ⟨a, b⟩ := fixRef_keeps ht.1 hf
    exact ⟨a, ht.2.trans b⟩
  exact this.2

theorem checkInodesSize_keeps {cfg : Cfg} {s s' : St} (hs : Schema s.db) (h : checkInodesSize cfg s = some s') : Keeps never s.db s'.db := by
  have : Schema s'.db ∧ Keeps never s.db s'.db := by
    refine iter_inv (f := fixSize cfg) (fun t => Schema t.db ∧ Keeps never s.db t.db) ?_ h ⟨hs, Keeps.refl _⟩
    intro k _ t t' ht hf
    unfold fixSize at hf
    cases hg : AL.get t.db.inodes k with
    | none => rw [hg] at hf; cases hf; exact ht
    | some i =>
      rw [hg] at hf
      dsimp only at hf
      by_cases hlt : i.size < minSize cfg.blockSize t.db k
      · rw [if_pos hlt] at hf
        split at hf
        · cases hf
          exact ⟨ht.1.setInode _ hg, ht.2.trans (Keeps.setInode ht.1 hg ⟨rfl, Nat.le_of_lt hlt, Or.inl rfl⟩)⟩
        · cases hf
      · rw [if_neg hlt] at hf
        cases hf; exact ht
  exact this.2

theorem renameAttr_keeps {inode : Nat} {fuel rowid : Nat} {db db' : Db} (hs : Schema db)
    (h : renameAttr inode fuel rowid db = some db') : Keeps never db db' := by
  induction fuel generalizing rowid db with
  | zero => cases h
  | succ n ih =>
    unfold renameAttr at h
    dsimp only at h
    have hs1 := hs.addName true (xName rowid)
    have k1 := addName_keeps hs.names true (xName rowid)
    split at h
    · exact (k1.trans (delName_keeps _ _)).trans (ih (hs1.delName _) h)
    · split at h
      · cases h; exact k1
      · rename_i x hx
        split at h
        · cases h
        · cases h
          refine k1.trans ⟨fun _ i h => ⟨i, h, InodeKept.refl i⟩, fun _ _ h _ => h, ?_, fun _ r h _ _ => ⟨r, h, rfl⟩⟩
          intro k y hy _
          by_cases hk : k = rowid
          · subst hk
            have := AL.mem_get_some hs1.xattrs hy
            rw [hx] at this; cases this
            exact ⟨_, (mem_set hs1.xattrs).2 (Or.inl rfl), rfl, rfl⟩
          · exact ⟨y, (mem_set hs1.xattrs).2 (Or.inr ⟨hy, hk⟩), rfl, rfl⟩

theorem checkXattrName_keeps {s s' : St} (hs : Schema s.db) (h : checkXattrName s = some s') : Keeps never s.db s'.db := by
  have : Schema s'.db ∧ Keeps never s.db s'.db := by
    refine iter_inv (f := fixAttrName) (fun t => Schema t.db ∧ Keeps never s.db t.db) ?_ h ⟨hs, Keeps.refl _⟩
    intro k _ t t' ht hf
    refine ⟨(fixAttrName_step ht.1 hf).1, ht.2.trans ?_⟩
    unfold fixAttrName at hf
    split at hf
    · cases hf; exact Keeps.refl _
    · split at hf
      · cases hf; exact Keeps.refl _
      · split at hf
        · split at hf
          · cases hf
          · rename_i db hdb
            cases hf
            exact renameAttr_keeps ht.1 hdb
        · cases hf
  exact this.2

theorem checkUnix_keeps {s s' : St} (hs : Schema s.db) (h : checkUnix s = some s') : Keeps never s.db s'.db := by
  unfold checkUnix at h
  split at h
  · cases h
  · rename_i s1 h1
    have a : Schema s1.db ∧ Keeps never s.db s1.db := by
      refine iter_inv (f := unixInode) (fun t => Schema t.db ∧ Keeps never s.db t.db) ?_ h1 ⟨hs, Keeps.refl _⟩
      intro k _ t t' ht hf
      rcases unixInode_some hf with rfl | ⟨i, hg, rfl⟩
      · exact ht
      · refine ⟨ht.1.setInode _ hg, ht.2.trans (Keeps.setInode ht.1 hg ⟨rfl, Nat.le_refl _, ?_⟩)⟩
        dsimp only
        unfold fixMode
        by_cases hm : i.mode &&& sIFMT = 0
        · rw [if_pos hm]
          refine Or.inr ⟨hm, ?_⟩
          split
          · exact Or.inl rfl
          · exact Or.inr rfl
        · rw [if_neg hm]; exact Or.inl rfl
    refine iter_inv (f := unixName) (fun t => Keeps never s.db t.db) ?_ h a.2
    intro e _ t t' ht hf
    unfold unixName at hf
    split at hf
    · cases hf; exact ht
    · cases hf

theorem checkC_keeps {cfg : Cfg} {depth : Nat} {s s' : St} (hs : Schema s.db) (h : checkC cfg depth s = some s') : Keeps never s.db s'.db := by
  unfold checkC at h
  obtain ⟨s14, h14, h⟩ := Option.bind_eq_some_iff.1 h
  obtain ⟨s15, h15, h⟩ := Option.bind_eq_some_iff.1 h
  obtain ⟨s16, h16, h⟩ := Option.bind_eq_some_iff.1 h
  obtain ⟨s17, h17, h⟩ := Option.bind_eq_some_iff.1 h
  obtain ⟨s19, h19, h⟩ := Option.bind_eq_some_iff.1 h
  obtain ⟨s20, h20, h21⟩ := Option.bind_eq_some_iff.1 h
  replace h21 := (Option.some.inj h21).symm
  subst h21
  have hs14 := (checkInodesRefcount_step hs h14).1
  have hs15 := (checkInodesSize_step hs14 h15).1
  have hs16 := (checkXattrName_step hs15 h16).1
  have hs17 : Schema s17.db := (checkXattrInode_step hs16 h17).1
  have hs18 := (checkSymlinks_step hs17).1
  obtain ⟨hs19, m19, _⟩ := checkLoops_step hs18 h19
  have k17 : Keeps never s16.db s17.db := by
    obtain ⟨d, _⟩ := checkXattrInode_db h17
    rw [dropAll_other] at d
    refine ⟨?_, ?_, ?_, ?_⟩
    · intro id i hi; exact ⟨i, by rw [d]; exact hi, InodeKept.refl i⟩
    · intro id t ht _; rw [d]; exact ht
    · intro k x hx hi
      refine ⟨x, ?_, rfl, rfl⟩
      rw [d]
      exact List.mem_filter.2 ⟨hx, isSome_iff_mem.2 hi⟩
    · intro k r hr _ _; exact ⟨r, by rw [d]; exact hr, rfl⟩
  have k18 : Keeps never s17.db (checkSymlinks s17).db := by
    refine ⟨fun _ i h => ⟨i, h, InodeKept.refl i⟩, ?_, fun _ x h _ => ⟨x, h, rfl, rfl⟩, fun _ r h _ _ => ⟨r, h, rfl⟩⟩
    intro id t ht hi
    exact List.mem_filter.2 ⟨ht, isSome_iff_mem.2 hi⟩
  have k21 : Keeps never s20.db (checkForeign s20).db := by
    unfold checkForeign
    split <;> exact Keeps.refl _
  exact (((((((checkInodesRefcount_keeps hs h14).trans (checkInodesSize_keeps hs14 h15)).trans (checkXattrName_keeps hs15 h16)).trans k17).trans k18).trans (Keeps.moved m19)).trans (checkUnix_keeps hs19 h20)).trans k21

/-! #### Theorems -/

/-- A run that completes loses no inode, no attributes of an inode, no symbolic link, no extended attribute and no directory
entry of an inode that exists; only an entry `lost+found` that is not a directory is set to a new directory. -/
theorem C64_nothing_lost {cfg : Cfg} {depth : Nat} {c : CacheArg} {s s' : St} (hs : Schema s.db) (h : Completed cfg depth c s s') :
    Keeps (FalseLof s.db) s.db s'.db := by
  obtain ⟨h, _⟩ := h
  unfold check at h
  obtain ⟨s6, h6, h⟩ := Option.bind_eq_some_iff.1 h
  obtain ⟨s13, h13, h20⟩ := Option.bind_eq_some_iff.1 h
  have hs6 := (checkA_step hs h6).1
  have hs13 := (checkB_step hs6 h13).1
  exact ((checkA_keeps hs h6).trans (checkB_keepsRows hs6 h13)).trans (checkC_keeps hs13 h20)

/-- The first check makes sure that there is a directory `lost+found`. -/
theorem C64_lost_and_found {cfg : Cfg} {s s' : St} (hs : Schema s.db) (h : checkLof cfg s = some s') : LofOk s'.db :=
  (checkLof_spec hs h).2

theorem objectFor_keeps {cfg : Cfg} {s : St} (hs : Schema s.db) (data : Bytes) {k : Nat} {o : Obj} (hk : (k, o) ∈ s.db.objects) :
    (∃ o', (k, o') ∈ (objectFor cfg s data).1.db.objects ∧ o'.hash = o.hash) ∧ AL.get (objectFor cfg s data).1.backend k = AL.get s.backend k := by
  unfold objectFor
  cases hf : findHash s.db.objects (cfg.sha data) with
  | some i => exact ⟨(addRef_hash hs.objects).1 k o hk, rfl⟩
  | none =>
    dsimp only
    have := hs.oseq (k, o) hk
    have hne : k ≠ s.db.oseq + 1 := by dsimp only at this; omega
    exact ⟨⟨o, (mem_set hs.objects).2 (Or.inr ⟨hk, hne⟩), rfl⟩, AL.get_set_ne _ _ hne⟩

theorem cacheFile_others {cfg : Cfg} {f : CFile} {s s' : St} (hs : Schema s.db) (h : cacheFile cfg f s = some s')
    {id b : Nat} {x : Bytes} (hne : ∀ d, f ≠ CFile.blk id b d) (hb : BlockStored cfg s id b x) : BlockStored cfg s' id b x := by
  cases f with
  | strange => cases h
  | tmp => cases h; exact hb
  | blk i n data =>
    simp only [cacheFile] at h
    split at h
    · cases h; exact hb
    · have p3 := fun k o => objectFor_keeps (cfg := cfg) (s := s.err) hs data (k := k) (o := o)
      have hoth := objectFor_other cfg s.err data
      have hs1 := objectFor_schema (s := s.err) (cfg := cfg) hs data
      generalize objectFor cfg s.err data = y at h p3 hoth hs1
      obtain ⟨s1, oid⟩ := y
      dsimp only at h p3 hoth hs1
      have eb : s1.db.blocks = s.db.blocks := by rw [hoth]; rfl
      split at h
      · cases h
        refine hb.keep ?_ ?_ ?_
        · intro e he _ _ _
          have he1 : e ∈ s1.db.blocks := by rw [eb]; exact he
          refine (mem_set hs1.blocks).2 (Or.inr ⟨he1, ?_⟩)
          have := le_maxKey he1
          omega
        · intro k o hk _ _ _; exact (p3 k o hk).1
        · intro k o hk; exact (p3 k o hk).2
      · rename_i rowid r hg
        cases h
        obtain ⟨g1, g2, g3⟩ := findBlock_spec hg
        obtain ⟨a1, a2⟩ := addRef_hash hs1.objects (k := r.obj) (n := -1)
        refine hb.keep ?_ ?_ ?_
        · intro e he hei heb _
          have he1 : e ∈ s1.db.blocks := by rw [eb]; exact he
          refine (mem_set hs1.blocks).2 (Or.inr ⟨he1, ?_⟩)
          intro hk
          have : e = (rowid, r) := by
            have q1 := AL.mem_get_some hs1.blocks (k := e.1) (v := e.2) he1
            have q2 := AL.mem_get_some hs1.blocks g1
            rw [hk, q2] at q1
            cases q1
            exact Prod.ext hk rfl
          rw [this] at hei heb
          refine hne data ?_
          dsimp only at g2 g3 hei heb
          rw [← g2, ← g3, hei, heb]
        · intro k o hk _ _ _
          obtain ⟨o', q1, q2⟩ := (p3 k o hk).1
          obtain ⟨o'', q3, q4⟩ := a1 _ _ q1
          exact ⟨o'', q3, q4.trans q2⟩
        · intro k o hk; exact (p3 k o hk).2

/-- A block of a file whose object is in the storage stays there, unless there is a newer block in the cache. -/
theorem C64_blocks_stay {cfg : Cfg} {depth : Nat} {c : CacheArg} {s s' : St} (hs : Schema s.db) (h : Completed cfg depth c s s')
    {id b : Nat} {x : Bytes} (hid : HasInode s.db id) (hb : BlockStored cfg s id b x) (hc : c = .no ∨ ∀ d, CFile.blk id b d ∉ s.cache) :
    BlockStored cfg s' id b x := by
  refine stored_after hs h.1 hid ?_
  intro s1 s2 h1 h2
  have hs1 := checkLof_schema hs h1
  obtain ⟨bl, c1, _⟩ := checkLof_keeps h1
  obtain ⟨lo, lb⟩ := checkLof_objects h1
  have hb1 : BlockStored cfg s1 id b x := by
    refine hb.keep ?_ ?_ ?_
    · intro e he _ _ _; rw [bl]; exact he
    · intro k o hk _ _ _; exact ⟨o, by rw [lo]; exact hk, rfl⟩
    · intro k o _; rw [lb]
  have aux : ∀ keep s2, (∀ d, CFile.blk id b d ∉ s.cache) → checkCache cfg keep s1 = some s2 → BlockStored cfg s2 id b x := by
    intro keep s2 hd h2
    unfold checkCache at h2
    obtain ⟨t, ht, rfl⟩ := Option.map_eq_some_iff.1 h2
    rw [c1] at ht
    have : Schema t.db ∧ BlockStored cfg t id b x := by
      refine iter_inv (f := cacheFile cfg) (fun t => Schema t.db ∧ BlockStored cfg t id b x) ?_ ht ⟨hs1, hb1⟩
      intro f hf u u' hu hcf
      refine ⟨cacheFile_schema hu.1 hcf, cacheFile_others hu.1 hcf ?_ hu.2⟩
      intro d hd'
      exact hd d (hd' ▸ hf)
    exact this.2
  cases c with
  | no => cases h2; exact hb1
  | yes => exact aux _ _ (hc.resolve_left (by decide)) h2
  | keep => exact aux _ _ (hc.resolve_left (by decide)) h2

/-! #### Concrete cases -/

example : Schema stBad.db ∧ Completed cfg0 20 .yes stBad stFixed ∧ HasInode stBad.db 5 ∧ BlockStored cfg0 stBad 5 0 [1, 2, 3] ∧
    (∀ d, CFile.blk 5 0 d ∉ stBad.cache) := by
  refine ⟨schema_of (by decide +kernel), stBad_run, ⟨fileI 9 1, by decide +kernel⟩, ⟨(1, ⟨5, 0, 1⟩), ⟨4, some [1, 2, 3], 3, -1⟩, [1, 2, 3], ?_⟩, ?_⟩
  · decide +kernel
  · intro d h; cases h with | tail _ h => cases h

/-- A file `lost+found`, and one with an extended attribute and a symbolic link. -/
def stLofFile : St :=
  { db := { inodes := [(1, dirI 1), (3, fileI 1 5), (4, { fileI 1 2 with mode := 0o120777 }), (5, fileI 1 1)], iseq := 5, names := [(1, ⟨false, lofName, 1⟩), (2, ⟨false, [97], 1⟩), (3, ⟨true, [97], 2⟩)], contents := [(1, ⟨1, 1, 3⟩), (2, ⟨1, 2, 4⟩)], cseq := 2, xattrs := [(1, ⟨3, 3, [7]⟩), (2, ⟨9, 3, [8]⟩)], symlinks := [(4, [98, 99])], blocks := [], objects := [], oseq := 0 }, backend := [], temps := 0, cache := [], found := false, uncorr := false, unlinked := [] }

def stLofFixed : St := (check cfg0 20 .yes stLofFile).getD stLofFile

example : Schema stLofFile.db ∧ Completed cfg0 20 .yes stLofFile stLofFixed ∧ FalseLof stLofFile.db ⟨1, 1, 3⟩ ∧ ¬ FalseLof stLofFile.db ⟨1, 2, 4⟩ ∧
    (∃ k p n, p ≠ rootInode ∧ (k, (⟨p, n, 3⟩ : CRow)) ∈ stLofFixed.db.contents) := by
  refine ⟨schema_of (by decide +kernel), ?_, ⟨⟨⟨false, lofName, 1⟩, by decide +kernel⟩, ?_⟩, ?_, ?_⟩
  · have : check cfg0 20 .yes stLofFile = some stLofFixed ∧ stLofFixed.uncorr = false := by decide +kernel
    exact this
  · intro i hi
    have := AL.mem_get_some (schema_of (db := stLofFile.db) (by decide +kernel)).inodes hi
    cases this
    decide
  · rintro ⟨⟨n, hn, _, h⟩, _⟩
    have := AL.mem_get_some (schema_of (db := stLofFile.db) (by decide +kernel)).names hn
    cases this
    exact absurd h (by decide +kernel)
  · exact ⟨3, 6, 4, by decide +kernel⟩

/-- A `lost+found` that is its own parent. -/
def stLofSelf : St :=
  { db := { inodes := [(1, dirI 1), (3, dirI 1)], iseq := 3, names := [(1, ⟨false, lofName, 1⟩)], contents := [(1, ⟨3, 1, 3⟩)], cseq := 1, xattrs := [], symlinks := [], blocks := [], objects := [], oseq := 0 }, backend := [], temps := 0, cache := [], found := false, uncorr := false, unlinked := [] }

example : Schema stLofSelf.db ∧ ∃ s', checkLof cfg0 stLofSelf = some s' :=
  ⟨schema_of (by decide +kernel), (checkLof cfg0 stLofSelf).getD stLofSelf, by decide +kernel⟩

end Verif.Fsck
