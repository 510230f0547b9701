/-
Theorems about the file system operations: when namespace requests succeed (C19), read-only mode (C21), and `open` (C56).
-/
import Verif.Fs.Props

namespace Verif.Fs

/-! #### Success of namespace requests (C19) -/

theorem hasChildren_iff {L : Nat → Int} {s : St} (h : Inv NoT L s) (hr : Res s) (i : Nat) :
    s.db.hasChildren i = true ↔ ∃ n c, n ≠ ctrlName ∧ seenEntry s i n = some c := by
  constructor
  · intro hc
    obtain ⟨k, c, hk⟩ := hasChildren_true h.acc hc
    obtain ⟨n, hn⟩ := h.acc.nm_of_C (h.Lnn k) hk
    have hch := (h.acc.child_iff i n c).2 ⟨k, hn, hk⟩
    have hne : n ≠ ctrlName := by rintro rfl; rw [hr.ctrl] at hch; cases hch
    exact ⟨n, c, hne, by rw [seenEntry_eq h, if_neg hne]; exact hch⟩
  · rintro ⟨n, c, hn, hc⟩
    rw [seenEntry_eq h, if_neg hn] at hc
    obtain ⟨k, _, hk⟩ := (h.acc.child_iff i n c).1 hc
    cases hx : s.db.hasChildren i with
    | true => rfl
    | false => have := hasChildren_false h.acc hx k; rw [hk] at this; cases this

theorem removal_ok_iff {L : Nat → Int} {s : St} (h : Inv NoT L s) {p : Nat} {n : Bytes} {id : Nat} (hc : s.db.child p n = some id) (now : Int) :
    ((∃ r, (match remove (s.addOpen id 1) p n id false now with
      | (.error e, s) => ((.error e, s) : R)
      | (.ok (), s) => finish (forget s [(id, 1)])).1 = .ok r) ↔
      s.db.hasChildren id = false ∧ (AL.get s.db.inodes p).map (·.locked) ≠ some true) := by
  have hex := (h.child_pos hc).2.1
  have hinv1 := h.addOpen hex (n := 1) (by omega) (fun h => h)
  have hc1 : (s.addOpen id 1).db.child p n = some id := hc
  rcases remove_spec hinv1 hc1 false now with ⟨e, hre, hrs⟩ | ⟨s2, hre, h1, h2, hinv2, _, hop, _⟩
  · rw [hre]
    constructor
    · rintro ⟨r, hr⟩; cases hr
    · rintro ⟨h1, h2⟩
      rcases hrs with ⟨h3, _⟩ | ⟨_, _, _, h3⟩
      · have : s.db.hasChildren id = true := h3
        rw [h1] at this; cases this
      · exact absurd h3 h2
  · rw [hre]
    have hcnt2 : ∀ i, s2.cnt i = s.cnt i + if i = id then 1 else 0 := by
      intro i; rw [← cnt_addOpen]; unfold St.cnt; rw [hop]
    have hfo : ForgetOk s2.cnt [(id, 1)] := by
      refine ⟨by omega, ?_, trivial⟩
      rw [hcnt2, if_pos rfl]; have := h.cnt_nonneg id; omega
    obtain ⟨s3, hfe, _⟩ := forget_spec [(id, 1)] hinv2 hfo
    simp only [hfe, finish]
    constructor
    · intro _
      refine ⟨h1, ?_⟩
      intro h3
      have := h2 h3
      cases this
    · intro _; exact ⟨_, rfl⟩

/-- `unlink` succeeds exactly if the entry exists, is not a directory and has no entries itself, the directory is not
locked, and the file system is writable. -/
theorem unlink_ok_iff {repl fail : Bool} {s : St} {K : Nat → Int} (h : Hist repl fail s K) {p : Nat} {n : Bytes} (hp : 0 < K p) (hn : n ≠ ctrlName) (now : Int) :
    (∃ r, (step s (.unlink p n now)).1 = .ok r) ↔
      s.failsafe = false ∧ (seenAttr s p).map (·.locked) = some false ∧
      ∃ id a, seenEntry s p n = some id ∧ seenAttr s id = some a ∧ isDir a.mode = false ∧
        ∀ m c, m ≠ ctrlName → seenEntry s id m ≠ some c := by
  obtain ⟨L, g⟩ := h.good
  simp only [seenAttr_eq]
  obtain ⟨ip, hip⟩ := g.inv.known_ex ((g.inv.cnt_pos_iff p).1 (by have := g.le p; omega))
  simp only [hip, Option.map_some, Option.some.injEq]
  have hse : seenEntry s p n = s.db.child p n := by rw [seenEntry_eq g.inv, if_neg hn]
  rw [hse]
  simp only [step, opUnlink]
  by_cases hf : s.failsafe = true
  · rw [if_pos hf]
    constructor
    · rintro ⟨r, hr⟩; cases hr
    · rintro ⟨h1, _⟩; rw [hf] at h1; cases h1
  rw [if_neg hf]
  have hf' : s.failsafe = false := by simpa using hf
  rcases lookup_spec g.inv p n with ⟨e, h1, h2⟩ | ⟨id, h1, hex, hinv, hc, _⟩
  · rw [h1]
    constructor
    · rintro ⟨r, hr⟩; cases hr
    · rintro ⟨_, _, id, a, h3, _⟩; rw [(h2 hn).2] at h3; cases h3
  · rw [h1]
    obtain ⟨ino, hino⟩ := Option.ne_none_iff_exists'.1 hex
    have hino' : AL.get (s.addOpen id 1).db.inodes id = some ino := hino
    simp only [hino']
    have hcc := hc hn
    by_cases hd : isDir ino.mode = true
    · rw [if_pos hd]
      constructor
      · rintro ⟨r, hr⟩; cases hr
      · rintro ⟨_, _, id', a, h3, h4, h5, _⟩
        rw [hcc] at h3; cases h3
        rw [hino] at h4; cases h4
        rw [hd] at h5; cases h5
    · rw [if_neg hd]
      refine (removal_ok_iff g.inv hcc now).trans ?_
      rw [hip]
      constructor
      · rintro ⟨h3, h4⟩
        refine ⟨hf', by simpa using h4, id, ino, hcc, hino, by simpa using hd, ?_⟩
        intro m c hm hmc
        have := (hasChildren_iff g.inv g.res id).2 ⟨m, c, hm, hmc⟩
        rw [h3] at this; cases this
      · rintro ⟨_, h4, id', a, h5, h6, h7, h8⟩
        rw [hcc] at h5; cases h5
        refine ⟨?_, by simp [h4]⟩
        cases hx : s.db.hasChildren id with
        | false => rfl
        | true =>
          obtain ⟨m, c, hm, hmc⟩ := (hasChildren_iff g.inv g.res id).1 hx
          exact absurd hmc (h8 m c hm)

/-- `rmdir` succeeds exactly if the entry exists, is an empty directory, the parent is not locked, and the file system is
writable. -/
theorem rmdir_ok_iff {repl fail : Bool} {s : St} {K : Nat → Int} (h : Hist repl fail s K) {p : Nat} {n : Bytes} (hp : 0 < K p) (hn : n ≠ ctrlName) (now : Int) :
    (∃ r, (step s (.rmdir p n now)).1 = .ok r) ↔
      s.failsafe = false ∧ (seenAttr s p).map (·.locked) = some false ∧
      ∃ id a, seenEntry s p n = some id ∧ seenAttr s id = some a ∧ isDir a.mode = true ∧
        ∀ m c, m ≠ ctrlName → seenEntry s id m ≠ some c := by
  obtain ⟨L, g⟩ := h.good
  simp only [seenAttr_eq]
  obtain ⟨ip, hip⟩ := g.inv.known_ex ((g.inv.cnt_pos_iff p).1 (by have := g.le p; omega))
  simp only [hip, Option.map_some, Option.some.injEq]
  have hse : seenEntry s p n = s.db.child p n := by rw [seenEntry_eq g.inv, if_neg hn]
  rw [hse]
  simp only [step, opRmdir]
  by_cases hf : s.failsafe = true
  · rw [if_pos hf]
    constructor
    · rintro ⟨r, hr⟩; cases hr
    · rintro ⟨h1, _⟩; rw [hf] at h1; cases h1
  rw [if_neg hf]
  have hf' : s.failsafe = false := by simpa using hf
  rcases lookup_spec g.inv p n with ⟨e, h1, h2⟩ | ⟨id, h1, hex, hinv, hc, _⟩
  · rw [h1]
    constructor
    · rintro ⟨r, hr⟩; cases hr
    · rintro ⟨_, _, id, a, h3, _⟩; rw [(h2 hn).2] at h3; cases h3
  · rw [h1]
    obtain ⟨ino, hino⟩ := Option.ne_none_iff_exists'.1 hex
    have hino' : AL.get (s.addOpen id 1).db.inodes id = some ino := hino
    have hip' : AL.get (s.addOpen id 1).db.inodes p = some ip := hip
    simp only [hino', hip']
    have hcc := hc hn
    by_cases hl : ip.locked = true
    · rw [if_pos hl]
      constructor
      · rintro ⟨r, hr⟩; cases hr
      · rintro ⟨_, h3, _⟩; rw [hl] at h3; cases h3
    rw [if_neg hl]
    by_cases hd : isDir ino.mode = false
    · rw [if_pos hd]
      constructor
      · rintro ⟨r, hr⟩; cases hr
      · rintro ⟨_, _, id', a, h3, h4, h5, _⟩
        rw [hcc] at h3; cases h3
        rw [hino] at h4; cases h4
        rw [hd] at h5; cases h5
    · rw [if_neg hd]
      refine (removal_ok_iff g.inv hcc now).trans ?_
      rw [hip]
      constructor
      · rintro ⟨h3, h4⟩
        refine ⟨hf', by simpa using hl, id, ino, hcc, hino, by simpa using hd, ?_⟩
        intro m c hm hmc
        have := (hasChildren_iff g.inv g.res id).2 ⟨m, c, hm, hmc⟩
        rw [h3] at this; cases this
      · rintro ⟨_, h4, id', a, h5, h6, h7, h8⟩
        rw [hcc] at h5; cases h5
        refine ⟨?_, by simp [h4]⟩
        cases hx : s.db.hasChildren id with
        | false => rfl
        | true =>
          obtain ⟨m, c, hm, hmc⟩ := (hasChildren_iff g.inv g.res id).1 hx
          exact absurd hmc (h8 m c hm)

theorem create_ok_iff {L : Nat → Int} {s : St} (h : Inv NoT L s) {p : Nat} {n : Bytes} (mode uid gid rdev size : Nat) (now : Int)
    (hn : s.db.child p n = none) (hp : Known s p) {ip : Inode} (hip : AL.get s.db.inodes p = some ip) (tgt : Option Bytes) :
    (∃ r, (match create s p n mode uid gid rdev size now with
      | (.error e, s) => ((.error e, s) : R)
      | (.ok id, s) => entryReply (putTgt tgt id s) id).1 = .ok r) ↔ n ≠ ctrlName ∧ ip.locked = false ∧ 0 < ip.refcount := by
  have hrc : s.db.rc p = ip.refcount := by simp [Db.rc, hip]
  rcases create_spec h mode uid gid rdev size now hn hp with ⟨e, hre, hcase⟩ | ⟨s', ip', hre, hctrl, hip', hlk, hpos, hfr, hinv, hrest, hop, hchild, hino, hnx, hnsym, hnb⟩
  · rw [hre]
    constructor
    · rintro ⟨r, hr⟩; cases hr
    · rintro ⟨h1, h2, h3⟩
      rcases hcase with ⟨h4, _⟩ | ⟨_, h4⟩ | ⟨_, h4⟩
      · exact absurd h4 h1
      · rw [hip] at h4; simp [h2] at h4
      · omega
  · rw [hre]
    rw [hip] at hip'; cases hip'
    constructor
    · intro _; exact ⟨hctrl, hlk, hpos⟩
    · intro _
      obtain ⟨y, hdb2, _⟩ := putTgt_db tgt (s.db.seq + 1) s'
      refine ⟨.entry (s.db.seq + 1) (newInode ip mode uid gid rdev size now), ?_⟩
      simp only [entryReply]
      have : AL.get ((putTgt tgt (s.db.seq + 1) s').addOpen (s.db.seq + 1) 1).db.inodes (s.db.seq + 1) = some (newInode ip mode uid gid rdev size now) := by
        show AL.get (putTgt tgt (s.db.seq + 1) s').db.inodes _ = _
        rw [hdb2]; show AL.get s'.db.inodes _ = _; rw [hino, if_pos rfl]
      rw [this]

/-- The number of links of a directory that the kernel knows is positive unless it was removed. -/
theorem rc_iff {L : Nat → Int} {s : St} (h : Inv NoT L s) {p : Nat} {ip : Inode} (hip : AL.get s.db.inodes p = some ip) (h2 : p ≠ ctrlInode) :
    0 < ip.refcount ↔ p = rootInode ∨ 0 < entriesTo s p := by
  have hrc := h.acc.rc p
  have h3 : s.db.rc p = ip.refcount := by simp [Db.rc, hip]
  rw [links_eq, h3] at hrc
  have h4 : base p = if p = rootInode then 1 else 0 := by
    unfold base; show (if p = 1 then _ else _) = if p = 1 then _ else _
    rw [if_neg (show ¬p = 2 from h2)]
  rw [hrc, h4]
  constructor
  · intro h5
    by_cases h6 : p = rootInode
    · exact Or.inl h6
    · rw [if_neg h6] at h5; right; omega
  · rintro (h5 | h5)
    · rw [if_pos h5]; omega
    · split <;> omega

/-- `mknod` and `mkdir` succeed exactly if the name is not reserved, the directory is not locked and not deleted, and the
file system is writable. -/
theorem mknod_ok_iff {repl fail : Bool} {s : St} {K : Nat → Int} (h : Hist repl fail s K) {p : Nat} {n : Bytes} {mode rdev uid gid : Nat} {now : Int}
    (hq : Req K s (.mknod p n mode rdev uid gid now)) (h2 : p ≠ ctrlInode) :
    (∃ r, (step s (.mknod p n mode rdev uid gid now)).1 = .ok r) ↔
      s.failsafe = false ∧ n ≠ ctrlName ∧ (seenAttr s p).map (·.locked) = some false ∧ (p = rootInode ∨ 0 < entriesTo s p) := by
  obtain ⟨L, g⟩ := h.good
  have hk := kernelOk_of g.inv g.res g.le hq trivial
  obtain ⟨ip, hip⟩ := g.inv.known_ex hk.1
  rw [seenAttr_eq, hip, ← rc_iff g.inv hip h2]
  simp only [step, opMknod, Option.map_some, Option.some.injEq]
  by_cases hf : s.failsafe = true
  · rw [if_pos hf]
    constructor
    · rintro ⟨r, hr⟩; cases hr
    · rintro ⟨h1, _⟩; rw [hf] at h1; cases h1
  · rw [if_neg hf]
    have := create_ok_iff g.inv mode uid gid rdev 0 now hk.2 hk.1 hip none
    constructor
    · intro h3; exact ⟨by simpa using hf, this.1 h3⟩
    · intro h3; exact this.2 h3.2

/-- `symlink` likewise. -/
theorem symlink_ok_iff {repl fail : Bool} {s : St} {K : Nat → Int} (h : Hist repl fail s K) {p : Nat} {n t : Bytes} {uid gid : Nat} {now : Int}
    (hq : Req K s (.symlink p n t uid gid now)) (h2 : p ≠ ctrlInode) :
    (∃ r, (step s (.symlink p n t uid gid now)).1 = .ok r) ↔
      s.failsafe = false ∧ n ≠ ctrlName ∧ (seenAttr s p).map (·.locked) = some false ∧ (p = rootInode ∨ 0 < entriesTo s p) := by
  obtain ⟨L, g⟩ := h.good
  have hk := kernelOk_of g.inv g.res g.le hq trivial
  obtain ⟨ip, hip⟩ := g.inv.known_ex hk.1
  rw [seenAttr_eq, hip, ← rc_iff g.inv hip h2]
  simp only [step, opSymlink, Option.map_some, Option.some.injEq]
  by_cases hf : s.failsafe = true
  · rw [if_pos hf]
    constructor
    · rintro ⟨r, hr⟩; cases hr
    · rintro ⟨h1, _⟩; rw [hf] at h1; cases h1
  · rw [if_neg hf]
    have := create_ok_iff g.inv symlinkMode uid gid 0 t.length now hk.2 hk.1 hip (some t)
    constructor
    · intro h3; exact ⟨by simpa using hf, this.1 h3⟩
    · intro h3; exact this.2 h3.2

/-- `link` likewise; the control file cannot be linked. -/
theorem link_ok_iff {repl fail : Bool} {s : St} {K : Nat → Int} (h : Hist repl fail s K) {id p : Nat} {n : Bytes} {now : Int}
    (hq : Req K s (.link id p n now)) (h2 : p ≠ ctrlInode) :
    (∃ r, (step s (.link id p n now)).1 = .ok r) ↔
      s.failsafe = false ∧ n ≠ ctrlName ∧ id ≠ ctrlInode ∧ (seenAttr s p).map (·.locked) = some false ∧ (p = rootInode ∨ 0 < entriesTo s p) := by
  obtain ⟨L, g⟩ := h.good
  have hk := kernelOk_of g.inv g.res g.le hq trivial
  obtain ⟨ip, hip⟩ := g.inv.known_ex hk.2.1
  have hrc : s.db.rc p = ip.refcount := by simp [Db.rc, hip]
  rw [seenAttr_eq, hip, ← rc_iff g.inv hip h2]
  simp only [step, Option.map_some, Option.some.injEq]
  by_cases hid : id = ctrlInode
  · constructor
    · rintro ⟨r, hr⟩
      simp only [opLink, hid, or_true, if_true] at hr
      split at hr <;> cases hr
    · rintro ⟨_, _, h3, _⟩; exact absurd hid h3
  rcases link_spec g.inv now hk.2.2 hk.2.1 hk.1 with ⟨e, hre, hcase⟩ | ⟨s', ino', hre, _, hfs, hlk, hpos, hnc, _⟩
  · rw [hre]
    constructor
    · rintro ⟨r, hr⟩; cases hr
    · rintro ⟨h3, h4, h5, h6, h7⟩
      rcases hcase with ⟨h8 | h8, _⟩ | ⟨_, h8⟩ | ⟨_, h8 | h8⟩
      · exact absurd h8 h4
      · exact absurd h8 h5
      · omega
      · rw [h3] at h8; cases h8
      · rw [hip] at h8; simp [h6] at h8
  · rw [hre]
    constructor
    · intro _
      rw [hip] at hlk
      exact ⟨hfs, hnc, hid, by simpa using hlk, by omega⟩
    · intro _; exact ⟨_, rfl⟩

/-- `rename` succeeds exactly if there are no flags, no reserved names, both directories are not locked, the file system
is writable, the entry exists, and a target that is to be replaced has no entries. -/
theorem rename_ok_iff {repl fail : Bool} {s : St} {K : Nat → Int} (h : Hist repl fail s K) {po pn : Nat} {no nn : Bytes} {flags : Nat} {now : Int}
    (hq : Req K s (.rename po no pn nn flags now)) :
    (∃ r, (step s (.rename po no pn nn flags now)).1 = .ok r) ↔
      flags = 0 ∧ no ≠ ctrlName ∧ nn ≠ ctrlName ∧ s.failsafe = false ∧
      (seenAttr s po).map (·.locked) = some false ∧ (seenAttr s pn).map (·.locked) = some false ∧
      seenEntry s po no ≠ none ∧
      ∀ t, seenEntry s pn nn = some t → ∀ m c, m ≠ ctrlName → seenEntry s t m ≠ some c := by
  obtain ⟨L, g⟩ := h.good
  have hk := kernelOk_of g.inv g.res g.le hq trivial
  obtain ⟨ipo, hipo⟩ := g.inv.known_ex hk.1
  obtain ⟨ipn, hipn⟩ := g.inv.known_ex hk.2.1
  simp only [seenAttr_eq, hipo, hipn, Option.map_some, Option.some.injEq, step, opRename]
  by_cases hfl : flags = 0
  case neg =>
    rw [if_pos hfl]
    constructor
    · rintro ⟨r, hr⟩; cases hr
    · rintro ⟨h1, _⟩; exact absurd h1 hfl
  rw [if_neg (fun h => h hfl)]
  by_cases hct : nn = ctrlName ∨ no = ctrlName
  · rw [if_pos hct]
    constructor
    · rintro ⟨r, hr⟩
      dsimp only at hr
      split at hr <;> cases hr
    · rintro ⟨_, h1, h2, _⟩
      rcases hct with h3 | h3
      · exact absurd h3 h2
      · exact absurd h3 h1
  rw [if_neg hct]
  have hnn : nn ≠ ctrlName := fun h => hct (Or.inl h)
  have hno : no ≠ ctrlName := fun h => hct (Or.inr h)
  by_cases hf : s.failsafe = true
  · rw [if_pos hf]
    constructor
    · rintro ⟨r, hr⟩; cases hr
    · rintro ⟨_, _, _, h1, _⟩; rw [hf] at h1; cases h1
  rw [if_neg hf]
  by_cases hl1 : ipo.locked = true
  · rw [if_pos hl1]
    constructor
    · rintro ⟨r, hr⟩; cases hr
    · rintro ⟨_, _, _, _, h1, _⟩; rw [hl1] at h1; cases h1
  rw [if_neg hl1]
  by_cases hl2 : ipn.locked = true
  · rw [if_pos hl2]
    constructor
    · rintro ⟨r, hr⟩; cases hr
    · rintro ⟨_, _, _, _, _, h1, _⟩; rw [hl2] at h1; cases h1
  rw [if_neg hl2]
  have e1 : seenEntry s po no = s.db.child po no := by rw [seenEntry_eq g.inv, if_neg hno]
  have e2 : seenEntry s pn nn = s.db.child pn nn := by rw [seenEntry_eq g.inv, if_neg hnn]
  rw [e1, e2]
  rcases lookup_spec g.inv po no with ⟨e, h1, h2⟩ | ⟨idOld, h1, hex, hinv1, hc, _⟩
  · rw [h1]
    constructor
    · rintro ⟨r, hr⟩; cases hr
    · rintro ⟨_, _, _, _, _, _, h3, _⟩; exact absurd (h2 hno).2 h3
  rw [h1]
  simp only
  have hco := hc hno
  have hbase : flags = 0 ∧ no ≠ ctrlName ∧ nn ≠ ctrlName ∧ s.failsafe = false ∧ ipo.locked = false ∧ ipn.locked = false ∧ s.db.child po no ≠ none :=
    ⟨hfl, hno, hnn, by simpa using hf, by simpa using hl1, by simpa using hl2, by rw [hco]; simp⟩
  rcases lookup_spec hinv1 pn nn with ⟨e, h3, h4⟩ | ⟨idNew, h3, hex2, hinv2, hc2, _⟩
  · rw [h3]
    obtain ⟨he, hcn⟩ := h4 hnn
    subst he
    simp only
    have hcn' : s.db.child pn nn = none := hcn
    obtain ⟨db', hre, hA, hch, hino, hxa, hsy, hbl, hob, hsq, hcomp⟩ := g.inv.acc.moveEntry g.inv.Lnn now hco hcn' hk.2.2.1
    have hre' : renameTo (s.addOpen idOld 1).db po no pn nn now = some db' := hre
    simp only [hre']
    constructor
    · intro _
      obtain ⟨a1, a2, a3, a4, a5, a6, a7⟩ := hbase
      exact ⟨a1, a2, a3, a4, a5, a6, a7, fun t ht => by rw [hcn'] at ht; cases ht⟩
    · intro _
      have hinv3 : Inv NoT L { s.addOpen idOld 1 with db := db' } := by
        refine ⟨hA, g.inv.mpos, g.inv.Lnn, hinv1.nkOp, ?_, ?_, fun _ h => h.elim⟩
        · intro i c hi
          have := hinv1.opn i c hi
          refine ⟨?_, this.2⟩
          show AL.get db'.inodes i ≠ none
          have t1 : AL.get s.db.inodes i ≠ none := this.1
          rw [hino]; simpa using t1
        · intro i ino hi hz
          have hi' : AL.get db'.inodes i = some ino := hi
          rw [hino] at hi'
          cases hg : AL.get s.db.inodes i with
          | none => simp [hg] at hi'
          | some x =>
            rw [hg] at hi'; simp only [Option.map_some, Option.some.injEq] at hi'
            refine hinv1.zero i x hg ?_
            rw [← hz, ← hi']; split <;> rfl
      have hcnt3 : ∀ i, ({ s.addOpen idOld 1 with db := db' } : St).cnt i = s.cnt i + if i = idOld then 1 else 0 := by
        intro i; rw [← cnt_addOpen]; rfl
      have hfo : ForgetOk ({ s.addOpen idOld 1 with db := db' } : St).cnt [(idOld, 1)] := by
        refine ⟨by omega, ?_, trivial⟩
        rw [hcnt3, if_pos rfl]; have := g.inv.cnt_nonneg idOld; omega
      obtain ⟨s4, hfe, _⟩ := forget_spec [(idOld, 1)] hinv3 hfo
      rw [hfe]; exact ⟨_, rfl⟩
  · rw [h3]
    simp only
    have hcn : s.db.child pn nn = some idNew := hc2 hnn
    have hne : idOld ≠ idNew := by rintro rfl; exact hk.2.2.2 hno hnn _ hco hcn
    have hcnt2 : ∀ i, ((s.addOpen idOld 1).addOpen idNew 1).cnt i = s.cnt i + (if i = idOld then 1 else 0) + if i = idNew then 1 else 0 := by
      intro i; rw [cnt_addOpen, cnt_addOpen]
    have hco2 : ((s.addOpen idOld 1).addOpen idNew 1).db.child po no = some idOld := hco
    have hcn2 : ((s.addOpen idOld 1).addOpen idNew 1).db.child pn nn = some idNew := hcn
    have hcc := hasChildren_iff g.inv g.res idNew
    rcases replace_spec hinv2 hco2 hcn2 hne now with ⟨e, hre, hhc, hee⟩ | ⟨s3, hre, hhc, hinv3, hrest, hop, _⟩
    · rw [hre]
      constructor
      · rintro ⟨r, hr⟩; cases hr
      · rintro ⟨_, _, _, _, _, _, _, h8⟩
        obtain ⟨m, c, hm, hmc⟩ := hcc.1 hhc
        exact absurd hmc (h8 idNew hcn m c hm)
    · rw [hre]
      simp only
      have hcnt3 : ∀ i, s3.cnt i = s.cnt i + (if i = idOld then 1 else 0) + if i = idNew then 1 else 0 := by
        intro i; rw [← hcnt2]; unfold St.cnt; rw [hop]
      have hfo : ForgetOk s3.cnt [(idOld, 1), (idNew, 1)] := by
        refine ⟨by omega, ?_, by omega, ?_, trivial⟩
        · rw [hcnt3, if_pos rfl]; have := g.inv.cnt_nonneg idOld; split <;> omega
        · have := g.inv.cnt_nonneg idNew
          have e : idNew ≠ idOld := fun e => hne e.symm
          simp only [hcnt3, if_neg e, if_true]; omega
      obtain ⟨s4, hfe, _⟩ := forget_spec _ hinv3 hfo
      simp only [hfe, finish]
      constructor
      · intro _
        obtain ⟨a1, a2, a3, a4, a5, a6, a7⟩ := hbase
        refine ⟨a1, a2, a3, a4, a5, a6, a7, ?_⟩
        intro t ht m c hm hmc
        rw [hcn] at ht; cases ht
        have h9 := hcc.2 ⟨m, c, hm, hmc⟩
        have h10 : s.db.hasChildren idNew = false := hhc
        rw [h10] at h9; cases h9
      · intro _; exact ⟨_, rfl⟩

end Verif.Fs
