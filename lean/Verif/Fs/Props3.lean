/-
Theorems about the file system operations: read-only mode (C21) and `open` (C56).
-/
import Verif.Fs.Props

namespace Verif.Fs

/-! #### C21 -/

/-- Requests to change directory entries, attributes or data.  Access modes and O_TRUNC: see `open(2)`. -/
def modifying : Op → Prop
  | .setxattr _ _ _ _ | .removexattr _ _ _ | .unlink _ _ _ | .rmdir _ _ _ | .mknod _ _ _ _ _ _ _ | .symlink _ _ _ _ _ _
  | .link _ _ _ _ | .rename _ _ _ _ _ _ | .setattr _ _ _ _ _ | .create _ _ _ _ _ _ _ | .write _ _ _ _ _ => True
  | .open _ flags _ => flags % 4 ≠ 0 ∨ flags.testBit 9 = true
  | _ => False

theorem and_pow_ne (n i : Nat) : n &&& 2 ^ i ≠ 0 ↔ n.testBit i = true := by
  constructor
  · intro h
    cases hb : n.testBit i with
    | true => rfl
    | false =>
      exfalso; apply h
      apply Nat.eq_of_testBit_eq
      intro j
      rw [Nat.testBit_and, Nat.testBit_two_pow, Nat.zero_testBit]
      by_cases e : i = j
      · subst e; simp [hb]
      · simp [e]
  · intro h h0
    have : (n &&& 2 ^ i).testBit i = false := by rw [h0, Nat.zero_testBit]
    rw [Nat.testBit_and, h, Nat.testBit_two_pow] at this
    simp at this

theorem wr_iff (flags : Nat) : (flags &&& oRDWR ≠ 0 ∨ flags &&& oWRONLY ≠ 0) ↔ flags % 4 ≠ 0 := by
  have h2 := and_pow_ne flags 1
  have h1 := and_pow_ne flags 0
  show (flags &&& 2 ^ 1 ≠ 0 ∨ flags &&& 2 ^ 0 ≠ 0) ↔ _
  rw [h1, h2]
  simp only [Nat.testBit, Nat.shiftRight_eq_div_pow, Nat.one_and_eq_mod_two, bne_iff_ne]
  omega

theorem trunc_iff (flags : Nat) : flags &&& oTRUNC ≠ 0 ↔ flags.testBit 9 = true := and_pow_ne flags 9

/-- C21: in failsafe mode, every modifying request fails and changes nothing at all. -/
theorem failsafe_refuses {s : St} (hf : s.failsafe = true) {op : Op} (hm : modifying op) :
    (∃ e, (step s op).1 = .error e) ∧ (step s op).2 = s := by
  cases op <;> try (exact absurd hm id)
  case setxattr id n v now =>
    simp only [step, opSetxattr, hf, if_true]; split <;> exact ⟨⟨_, rfl⟩, by trivial⟩
  case removexattr => simp only [step, opRemovexattr, hf, if_true]; exact ⟨⟨_, rfl⟩, by trivial⟩
  case unlink => simp only [step, opUnlink, hf, if_true]; exact ⟨⟨_, rfl⟩, by trivial⟩
  case rmdir => simp only [step, opRmdir, hf, if_true]; exact ⟨⟨_, rfl⟩, by trivial⟩
  case mknod => simp only [step, opMknod, hf, if_true]; exact ⟨⟨_, rfl⟩, by trivial⟩
  case symlink => simp only [step, opSymlink, hf, if_true]; exact ⟨⟨_, rfl⟩, by trivial⟩
  case link =>
    simp only [step, opLink, hf, true_or, if_true]
    split
    · constructor
      · split <;> exact ⟨_, rfl⟩
      · rfl
    · split
      · exact ⟨⟨_, rfl⟩, by trivial⟩
      · split <;> exact ⟨⟨_, rfl⟩, by trivial⟩
  case rename =>
    simp only [step, opRename, hf, if_true]
    split
    · exact ⟨⟨_, rfl⟩, by trivial⟩
    · split
      · constructor
        · dsimp only; split <;> exact ⟨_, rfl⟩
        · rfl
      · exact ⟨⟨_, rfl⟩, by trivial⟩
  case setattr => simp only [step, opSetattr, hf, true_or, if_true]; split <;> exact ⟨⟨_, rfl⟩, by trivial⟩
  case «open» id flags now =>
    simp only [modifying] at hm
    simp only [step, opOpen, hf, true_or, and_true]
    simp only [wr_iff, trunc_iff]
    split
    · exact ⟨⟨_, rfl⟩, by trivial⟩
    · by_cases hw : flags % 4 ≠ 0
      · rw [if_pos hw]; exact ⟨⟨_, rfl⟩, by trivial⟩
      · rw [if_neg hw]
        rcases hm with hm | hm
        · exact absurd hm hw
        · rw [if_pos hm, if_pos hw]; exact ⟨⟨_, rfl⟩, by trivial⟩
  case create => simp only [step, opCreate, hf, if_true]; exact ⟨⟨_, rfl⟩, by trivial⟩
  case write => simp only [step, opWrite, hf, if_true]; exact ⟨⟨_, rfl⟩, by trivial⟩

/-- The arguments are such that the request could succeed otherwise, as far as they are checked before the mode. -/
def plainArgs (s : St) : Op → Prop
  | .setxattr _ n _ _ => n ≠ aclAccess ∧ n ≠ aclDefault
  | .link id p n _ => n ≠ ctrlName ∧ id ≠ ctrlInode ∧ ∃ a, seenAttr s p = some a ∧ a.refcount ≠ 0
  | .rename _ no _ nn flags _ => flags = 0 ∧ no ≠ ctrlName ∧ nn ≠ ctrlName
  | .setattr id _ _ _ _ => seenAttr s id ≠ none
  | .open id flags _ => seenAttr s id ≠ none ∧ flags % 4 ≠ 0
  | _ => True

/-- The error is EPERM. -/
theorem failsafe_eperm {s : St} (hf : s.failsafe = true) {op : Op} (hm : modifying op) (ha : plainArgs s op) :
    (step s op).1 = .error .EPERM := by
  cases op <;> try (exact absurd hm id)
  case setxattr id n v now =>
    simp only [plainArgs] at ha
    simp only [step, opSetxattr, hf, if_true, ha.1, ha.2, or_self, if_false]
  case removexattr => simp only [step, opRemovexattr, hf, if_true]
  case unlink => simp only [step, opUnlink, hf, if_true]
  case rmdir => simp only [step, opRmdir, hf, if_true]
  case mknod => simp only [step, opMknod, hf, if_true]
  case symlink => simp only [step, opSymlink, hf, if_true]
  case link =>
    simp only [plainArgs] at ha
    obtain ⟨h1, h2, a, h3, h4⟩ := ha
    rw [seenAttr_eq] at h3
    simp only [step, opLink, hf, true_or, if_true, h1, h2, or_self, if_false, h3, h4]
  case rename =>
    simp only [plainArgs] at ha
    obtain ⟨h1, h2, h3⟩ := ha
    subst h1
    simp only [step, opRename, hf, if_true, h2, h3, or_self, if_false, ne_eq, not_true_eq_false]
  case setattr =>
    simp only [plainArgs, seenAttr_eq] at ha
    obtain ⟨a, h1⟩ := Option.ne_none_iff_exists'.1 ha
    simp only [step, opSetattr, hf, true_or, if_true, h1]
  case «open» id flags now =>
    simp only [plainArgs, seenAttr_eq] at ha
    obtain ⟨a, h1⟩ := Option.ne_none_iff_exists'.1 ha.1
    simp only [step, opOpen, hf, true_or, and_true, h1, wr_iff]
    rw [if_pos ha.2]
  case create => simp only [step, opCreate, hf, if_true]
  case write => simp only [step, opWrite, hf, if_true]

theorem foldl_addOpen_db : ∀ (rows : List (Nat × Bytes × Nat)) (s : St),
    (rows.foldl (fun s r => s.addOpen r.2.2 1) s).db = s.db ∧ (rows.foldl (fun s r => s.addOpen r.2.2 1) s).failsafe = s.failsafe
  | [], _ => ⟨rfl, rfl⟩
  | r :: t, s => by rw [List.foldl_cons]; exact foldl_addOpen_db t (s.addOpen r.2.2 1)

theorem touch_inodes (db : Db) (id : Nat) (now : Int) (i : Nat) :
    ∃ t : Inode → Int, AL.get (db.modInode id (touchAtime now)).inodes i = (AL.get db.inodes i).map (fun a => { a with atime := t a }) := by
  unfold Db.modInode
  cases hg : AL.get db.inodes id with
  | none => exact ⟨fun a => a.atime, by simp⟩
  | some x =>
    simp only
    rw [AL.get_set]
    split
    · rename_i e; subst e
      rw [hg]
      simp only [Option.map_some]
      unfold touchAtime
      split
      · exact ⟨fun _ => now, rfl⟩
      · exact ⟨fun a => a.atime, rfl⟩
    · exact ⟨fun a => a.atime, by simp⟩

theorem lookup_keeps (s : St) (p : Nat) (n : Bytes) :
    (step s (.lookup p n)).2.db = s.db ∧ (step s (.lookup p n)).2.failsafe = s.failsafe := by
  have h : (lookup s p n).2.db = s.db ∧ (lookup s p n).2.failsafe = s.failsafe := by
    unfold lookup
    repeat' first | exact ⟨rfl, rfl⟩ | split
  simp only [step, opLookup]
  cases hl : lookup s p n with
  | mk r s1 =>
    rw [hl] at h
    cases r with
    | error e => exact h
    | ok id => simp only; split <;> exact h

/-- All other requests change at most access times; except that `forget` removes inodes that have no directory entry. -/
theorem reading_changes_atime {s : St} {op : Op} (hm : ¬modifying op) (h1 : ∀ l, op ≠ .forget l) (h2 : ∀ i b o, op ≠ .upload i b o) :
    (∀ i, ∃ t : Inode → Int, seenAttr (step s op).2 i = (seenAttr s i).map (fun a => { a with atime := t a })) ∧
    ∃ ino, (step s op).2.db = { s.db with inodes := ino } := by
  simp only [seenAttr_eq]
  have same : ∀ {s' : St}, s'.db = s.db → ((∀ i, ∃ t : Inode → Int, AL.get s'.db.inodes i = (AL.get s.db.inodes i).map (fun a => { a with atime := t a })) ∧
      ∃ ino, s'.db = { s.db with inodes := ino }) := by
    intro s' e
    rw [e]
    exact ⟨fun i => ⟨fun a => a.atime, by simp⟩, s.db.inodes, rfl⟩
  have touch : ∀ {s' : St} (id : Nat) (now : Int), s'.db = s.db.modInode id (touchAtime now) →
      ((∀ i, ∃ t : Inode → Int, AL.get s'.db.inodes i = (AL.get s.db.inodes i).map (fun a => { a with atime := t a })) ∧
      ∃ ino, s'.db = { s.db with inodes := ino }) := by
    intro s' id now e
    rw [e]
    refine ⟨touch_inodes s.db id now, ?_⟩
    unfold Db.modInode
    split
    · exact ⟨_, rfl⟩
    · exact ⟨s.db.inodes, rfl⟩
  cases op <;> try (exact absurd trivial hm)
  case lookup p n =>
    apply same
    exact (lookup_keeps s p n).1
  case getattr => apply same; simp only [step, opGetattr]; split <;> rfl
  case readlink id now =>
    simp only [step, opReadlink]
    cases hg : AL.get s.db.inodes id with
    | none => exact same rfl
    | some a => simp only; split <;> exact touch id now rfl
  case readdir p off room now =>
    simp only [step, opReaddir]
    cases hg : AL.get s.db.inodes p with
    | none => exact same rfl
    | some a =>
      simp only
      split
      · exact touch p now (foldl_addOpen_db _ _).1
      · exact touch p now rfl
  case getxattr =>
    apply same
    simp only [step, opGetxattr]
    split
    · rfl
    · split <;> rfl
  case listxattr => exact same rfl
  case «open» id flags now =>
    have ⟨h3, h4⟩ : flags % 4 = 0 ∧ flags.testBit 9 = false := by
      constructor
      · exact Classical.byContradiction (fun h => hm (Or.inl h))
      · exact Bool.eq_false_iff.2 (fun h => hm (Or.inr h))
    apply same
    simp only [step, opOpen]
    simp only [wr_iff, trunc_iff, h3, h4, ne_eq, not_true_eq_false, false_and, if_false, Bool.false_eq_true]
    split <;> rfl
  case read id b now =>
    simp only [step, opRead]
    cases hg : AL.get s.db.inodes id with
    | none => exact same rfl
    | some a =>
      simp only
      split
      · exact same rfl
      · exact touch id now rfl
  case forget l => exact absurd rfl (h1 l)
  case upload i b o => exact absurd rfl (h2 i b o)

theorem forget_failsafe : ∀ (l : List (Nat × Int)) (s : St), (forget s l).2.failsafe = s.failsafe
  | [], _ => rfl
  | (id, n) :: t, s => by
    have h1 : (forgetOne s id n).2.failsafe = s.failsafe := by
      unfold forgetOne; dsimp only
      split
      · split
        · rfl
        · split <;> rfl
      · rfl
    unfold forget
    cases h : forgetOne s id n with
    | mk r s1 =>
      rw [h] at h1
      cases r with
      | error e => exact h1
      | ok u => simp only; rw [forget_failsafe t s1]; exact h1

/-- The mode lasts until the file system is unmounted. -/
theorem failsafe_lasts {s : St} (hf : s.failsafe = true) (op : Op) : (step s op).2.failsafe = true := by
  by_cases hm : modifying op
  · rw [(failsafe_refuses hf hm).2]; exact hf
  cases op <;> try (exact absurd trivial hm)
  case lookup p n =>
    rw [(lookup_keeps s p n).2]; exact hf
  case getattr => simp only [step, opGetattr]; split <;> exact hf
  case readlink id now => simp only [step, opReadlink]; split; exact hf; split <;> exact hf
  case readdir p off room now =>
    simp only [step, opReaddir]
    split
    · exact hf
    · split
      · rw [(foldl_addOpen_db _ _).2]; exact hf
      · exact hf
  case getxattr => simp only [step, opGetxattr]; split; exact hf; split <;> exact hf
  case listxattr => exact hf
  case «open» id flags now =>
    have ⟨h3, h4⟩ : flags % 4 = 0 ∧ flags.testBit 9 = false := by
      constructor
      · exact Classical.byContradiction (fun h => hm (Or.inl h))
      · exact Bool.eq_false_iff.2 (fun h => hm (Or.inr h))
    simp only [step, opOpen]
    simp only [wr_iff, trunc_iff, h3, h4, ne_eq, not_true_eq_false, false_and, if_false, Bool.false_eq_true]
    split <;> exact hf
  case read id b now => simp only [step, opRead]; split; exact hf; split; rfl; exact hf
  case forget l =>
    simp only [step]
    have := forget_failsafe l s
    cases h : forget s l with
    | mk r s1 => rw [h] at this; cases r <;> (simp only [finish]; rw [← hf]; exact this)
  case upload i b o =>
    simp only [step, bgUpload]
    split
    · exact hf
    · split
      · split <;> exact hf
      · exact hf

/-- A request that finds a damaged block turns the mode on. -/
theorem damage_turns_on {repl fail : Bool} {s : St} {K : Nat → Int} (h : Hist repl fail s K) {id : Nat} (hk : 0 < K id) (now : Int) :
    (step s (.read id true now)).2.failsafe = true := by
  obtain ⟨L, g⟩ := h.good
  obtain ⟨ino, hino⟩ := g.inv.known_ex ((g.inv.cnt_pos_iff id).1 (by have := g.le id; omega))
  simp only [step, opRead, hino, if_true]

/-- So does a write, unless it is refused. -/
theorem damage_turns_on_write {repl fail : Bool} {s : St} {K : Nat → Int} (h : Hist repl fail s K) {id : Nat} (hk : 0 < K id) (off len : Nat) (now : Int)
    (hl : (seenAttr s id).map (·.locked) = some false) :
    (step s (.write id off len true now)).2.failsafe = true ∧ ∃ e, (step s (.write id off len true now)).1 = .error e := by
  obtain ⟨L, g⟩ := h.good
  obtain ⟨ino, hino⟩ := g.inv.known_ex ((g.inv.cnt_pos_iff id).1 (by have := g.le id; omega))
  rw [seenAttr_eq, hino] at hl
  simp only [Option.map_some, Option.some.injEq] at hl
  by_cases hf : s.failsafe = true
  · simp only [step, opWrite, if_pos hf]
    exact ⟨hf, _, rfl⟩
  · simp only [step, opWrite, if_neg hf, hino, hl, if_true, Bool.false_eq_true, if_false]
    exact ⟨trivial, _, rfl⟩

/-! #### C56 -/

/-- `open` for writing fails with EPERM exactly if the file system is read-only or the inode is locked. -/
theorem open_eperm_iff {s : St} {id flags : Nat} {now : Int} {a : Inode} (ha : seenAttr s id = some a) (ht : now.natAbs < 2 ^ 63) :
    (step s (.open id flags now)).1 = .error .EPERM ↔ flags % 4 ≠ 0 ∧ (s.failsafe = true ∨ a.locked = true) := by
  rw [seenAttr_eq] at ha
  simp only [step, opOpen, ha, wr_iff, trunc_iff]
  by_cases h1 : flags % 4 ≠ 0 ∧ (s.failsafe = true ∨ a.locked = true)
  · rw [if_pos h1]; simp [h1]
  · rw [if_neg h1]
    refine ⟨fun h => ?_, fun h => absurd h h1⟩
    exfalso
    split at h
    · split at h
      · cases h
      · rename_i hw
        have hlk : ¬(s.failsafe = true ∨ a.locked = true) := fun hx => h1 ⟨Classical.byContradiction hw, hx⟩
        split at h
        · have hbad : badTime now = false := by unfold badTime; simp; omega
          simp only [opSetattr, ha, if_neg hlk, Option.map_none, Option.getD_none, Option.map_some, Option.getD_some, hbad, Bool.false_eq_true, if_false, Nat.zero_mod, if_true] at h
          cases h
        · split at h <;> cases h
    · cases h

/-- It fails with EINVAL exactly if truncation is requested without write access or for a file that has no size. -/
theorem open_einval_iff {s : St} {id flags : Nat} {now : Int} {a : Inode} (ha : seenAttr s id = some a) (ht : now.natAbs < 2 ^ 63) :
    (step s (.open id flags now)).1 = .error .EINVAL ↔ flags.testBit 9 = true ∧
      (flags % 4 = 0 ∨ (isReg a.mode = false ∧ isFifo a.mode = false ∧ isBlk a.mode = false ∧ s.failsafe = false ∧ a.locked = false)) := by
  rw [seenAttr_eq] at ha
  simp only [step, opOpen, ha, wr_iff, trunc_iff]
  by_cases h1 : flags % 4 ≠ 0 ∧ (s.failsafe = true ∨ a.locked = true)
  · rw [if_pos h1]
    constructor
    · intro h; cases h
    · rintro ⟨_, h2 | ⟨_, _, _, h3, h4⟩⟩
      · exact absurd h2 h1.1
      · rcases h1.2 with h5 | h5
        · rw [h3] at h5; cases h5
        · rw [h4] at h5; cases h5
  · rw [if_neg h1]
    by_cases h2 : flags.testBit 9 = true
    · rw [if_pos h2]
      by_cases h3 : flags % 4 = 0
      · rw [if_pos (by simp [h3])]; simp [h2, h3]
      · rw [if_neg (by simp [h3])]
        have hlk : ¬(s.failsafe = true ∨ a.locked = true) := fun hx => h1 ⟨h3, hx⟩
        have hlk' : s.failsafe = false ∧ a.locked = false := by
          cases hx : s.failsafe <;> cases hy : a.locked <;> simp_all
        by_cases h4 : isReg a.mode = true
        · rw [if_pos h4]
          have hbad : badTime now = false := by unfold badTime; simp; omega
          simp only [opSetattr, ha, if_neg hlk, Option.map_none, Option.getD_none, Option.map_some, Option.getD_some, hbad, Bool.false_eq_true, if_false, Nat.zero_mod, if_true]
          simp [h3, h4]
        · rw [if_neg h4]
          by_cases h5 : isFifo a.mode = true ∨ isBlk a.mode = true
          · rw [if_pos h5]
            simp only [reduceCtorEq, false_iff]
            rintro ⟨_, h6 | ⟨_, h6, h7, _⟩⟩
            · exact absurd h6 h3
            · rcases h5 with h5 | h5
              · rw [h6] at h5; cases h5
              · rw [h7] at h5; cases h5
          · rw [if_neg h5]
            have h6 : isFifo a.mode = false := by cases hx : isFifo a.mode; rfl; exact absurd (Or.inl hx) h5
            have h7 : isBlk a.mode = false := by cases hx : isBlk a.mode; rfl; exact absurd (Or.inr hx) h5
            simp [h2, h4, h6, h7, hlk']
    · rw [if_neg h2]; simp [h2]

/-- Otherwise it succeeds. -/
theorem open_ok {s : St} {id flags : Nat} {now : Int} {a : Inode} (ha : seenAttr s id = some a) (ht : now.natAbs < 2 ^ 63)
    (h1 : (step s (.open id flags now)).1 ≠ .error .EPERM) (h2 : (step s (.open id flags now)).1 ≠ .error .EINVAL) :
    (step s (.open id flags now)).1 = .ok (.fh id) := by
  rw [seenAttr_eq] at ha
  revert h1 h2
  simp only [step, opOpen, ha, wr_iff, trunc_iff]
  split
  · intro h; exact absurd rfl h
  · rename_i h1
    split
    · split
      · intro _ h; exact absurd rfl h
      · rename_i hw
        have hlk : ¬(s.failsafe = true ∨ a.locked = true) := fun hx => h1 ⟨Classical.byContradiction hw, hx⟩
        split
        · have hbad : badTime now = false := by unfold badTime; simp; omega
          simp only [opSetattr, ha, if_neg hlk, Option.map_none, Option.getD_none, Option.map_some, Option.getD_some, hbad, Bool.false_eq_true, if_false, Nat.zero_mod, if_true]
          intros; trivial
        · split
          · intros; rfl
          · intro _ h; exact absurd rfl h
    · intros; rfl

/-- Opening a regular file with O_TRUNC leaves an empty file: size zero and no blocks; mode and owner are unchanged. -/
theorem open_truncates {repl fail : Bool} {s : St} {K : Nat → Int} (h : Hist repl fail s K) {id flags : Nat} {now : Int} {a : Inode}
    (ha : seenAttr s id = some a) (hreg : isReg a.mode = true) (htr : flags.testBit 9 = true) (hok : (step s (.open id flags now)).1 = .ok (.fh id)) :
    seenAttr (step s (.open id flags now)).2 id = some { a with size := 0, mtime := now, ctime := now } ∧
    ∀ b, AL.get (step s (.open id flags now)).2.db.blocks (id, b) = none := by
  obtain ⟨L, g⟩ := h.good
  rw [seenAttr_eq] at ha ⊢
  revert hok
  simp only [step, opOpen, ha, wr_iff, trunc_iff, htr, hreg, if_true]
  split
  · intro h; cases h
  rename_i h1
  split
  · intro h; cases h
  rename_i hw
  have hlk : ¬(s.failsafe = true ∨ a.locked = true) := fun hx => h1 ⟨Classical.byContradiction hw, hx⟩
  simp only [opSetattr, ha, if_neg hlk, Option.map_none, Option.getD_none, Option.map_some, Option.getD_some, Bool.false_eq_true, if_false, Nat.zero_mod, if_true]
  by_cases hb : badTime now = true
  · rw [if_pos hb]; intro h; cases h
  · rw [if_neg hb]
    intro _
    simp only
    have hacc := g.inv.acc
    constructor
    · show AL.get (Db.cacheRemove _ _ _ _).inodes id = _
      simp only [Db.cacheRemove, Db.modInode, ha, AL.get_set, if_true]
    · intro b
      rw [modInode_cacheRemove]
      have e : ((s.db.cacheRemove id (0 / s.maxObj) (ceilDiv a.size s.maxObj)).modInode id
          (fun _ => { a with mtime := now, ctime := now, size := 0 })).blocks = (s.db.cacheRemove id (0 / s.maxObj) (ceilDiv a.size s.maxObj)).blocks := by
        unfold Db.modInode; split <;> rfl
      rw [e, (hacc.cacheRemove id _ _).2 id b]
      split
      · rfl
      · rename_i hnot
        cases hg : AL.get s.db.blocks (id, b) with
        | none => rfl
        | some o =>
          exfalso
          obtain ⟨ino, hi, hlt⟩ := hacc.bin _ _ _ hg
          rw [ha] at hi; cases hi
          apply hnot
          refine ⟨rfl, by simp, ?_⟩
          unfold ceilDiv
          have hm := g.inv.mpos
          rw [Nat.lt_div_iff_mul_lt hm]
          omega

/-- In all other cases `open` changes nothing. -/
theorem open_keeps {s : St} {id flags : Nat} {now : Int}
    (hno : ¬(flags.testBit 9 = true ∧ flags % 4 ≠ 0 ∧ ∃ a, seenAttr s id = some a ∧ isReg a.mode = true ∧ a.locked = false ∧ s.failsafe = false)) :
    (step s (.open id flags now)).2 = s := by
  simp only [seenAttr_eq] at hno
  simp only [step, opOpen, wr_iff, trunc_iff]
  cases ha : AL.get s.db.inodes id with
  | none => rfl
  | some a =>
    simp only
    split
    · rfl
    rename_i h1
    split
    · rename_i h2
      split
      · rfl
      rename_i hw
      have hw' : flags % 4 ≠ 0 := Classical.byContradiction hw
      have hlk : ¬(s.failsafe = true ∨ a.locked = true) := fun hx => h1 ⟨hw', hx⟩
      split
      · rename_i h3
        exfalso
        refine hno ⟨h2, hw', a, ha, h3, ?_, ?_⟩
        · cases hx : a.locked; rfl; exact absurd (Or.inr hx) hlk
        · cases hx : s.failsafe; rfl; exact absurd (Or.inl hx) hlk
      · split <;> rfl
    · rfl

end Verif.Fs
