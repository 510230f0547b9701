/-
The effect of `readdir`, of every operation, and of unmounting; reachable states.
-/
import Verif.Fs.Steps3

namespace Verif.Fs

variable {T : Nat → Prop}

/-! #### Listing -/

theorem mem_insByKey (e x : Nat × Bytes × Nat) : ∀ l, x ∈ insByKey e l ↔ x = e ∨ x ∈ l
  | [] => by simp [insByKey]
  | f :: t => by
    unfold insByKey
    split
    · simp
    · simp only [List.mem_cons, mem_insByKey e x t]
      constructor
      · rintro (h | h | h)
        · exact Or.inr (Or.inl h)
        · exact Or.inl h
        · exact Or.inr (Or.inr h)
      · rintro (h | h | h)
        · exact Or.inr (Or.inl h)
        · exact Or.inl h
        · exact Or.inr (Or.inr h)

theorem mem_insAll (x : Nat × Bytes × Nat) : ∀ l : List (Nat × Bytes × Nat), x ∈ l.foldr insByKey [] ↔ x ∈ l
  | [] => by simp
  | e :: t => by rw [List.foldr_cons, mem_insByKey, mem_insAll x t]; simp

theorem mem_readdirRows {m : Nat} {db : Db} {δ L : Nat → Int} (h : Acc T m db δ L) (p : Nat) (keep : Nat → Bool) (r : Nat × Bytes × Nat) :
    r ∈ db.readdirRows p keep ↔ AL.get db.contents (p, r.1) = some r.2.2 ∧ db.nm r.1 = some r.2.1 ∧ keep r.1 = true := by
  unfold Db.readdirRows
  rw [mem_insAll, List.mem_filterMap]
  constructor
  · rintro ⟨⟨⟨p', k⟩, c⟩, hm, he⟩
    simp only at he
    split at he
    · rename_i hc
      obtain ⟨rfl, hk⟩ := hc
      cases hg : AL.get db.names k with
      | none => simp [hg] at he
      | some v =>
        rw [hg] at he
        simp only [Option.map_some, Option.some.injEq] at he
        subst he
        exact ⟨AL.mem_get_some h.nkC hm, by simp [Db.nm, hg], hk⟩
    · cases he
  · rintro ⟨h1, h2, h3⟩
    refine ⟨((p, r.1), r.2.2), AL.get_some_mem h1, ?_⟩
    simp only [true_and, h3, if_true]
    unfold Db.nm at h2
    cases hg : AL.get db.names r.1 with
    | none => simp [hg] at h2
    | some v =>
      rw [hg] at h2
      simp only [Option.map_some, Option.some.injEq] at h2 ⊢
      rw [h2]

theorem foldl_addOpen {L : Nat → Int} : ∀ (rows : List (Nat × Bytes × Nat)) {s : St}, Inv T L s →
    (∀ r ∈ rows, 0 < s.db.rc r.2.2) →
    Inv T L (rows.foldl (fun s r => s.addOpen r.2.2 1) s) ∧ (rows.foldl (fun s r => s.addOpen r.2.2 1) s).db = s.db ∧
    (rows.foldl (fun s r => s.addOpen r.2.2 1) s).maxObj = s.maxObj ∧
    (rows.foldl (fun s r => s.addOpen r.2.2 1) s).failsafe = s.failsafe ∧
    (∀ i, (rows.foldl (fun s r => s.addOpen r.2.2 1) s).cnt i = s.cnt i + ((rows.filter (fun r => r.2.2 == i)).length : Int))
  | [], s, h, _ => ⟨h, rfl, rfl, rfl, fun i => by simp⟩
  | r :: t, s, h, hr => by
    have h1 := h.addOpen (id := r.2.2) (n := 1) (rc_pos_ne (hr r (by simp))) (by omega) (h.notT_rc (hr r (by simp)))
    obtain ⟨a, b, c, e, d⟩ := foldl_addOpen t h1 (fun x hx => hr x (by simp [hx]))
    refine ⟨a, b, c, e, ?_⟩
    intro i
    rw [List.foldl_cons, d, cnt_addOpen]
    by_cases hi : r.2.2 = i
    · rw [List.filter_cons_of_pos (by simp [hi]), if_pos hi.symm]
      simp only [List.length_cons]; omega
    · rw [List.filter_cons_of_neg (by simp [hi]), if_neg (fun e => hi e.symm)]
      omega

theorem eff_readdir {L : Nat → Int} {s : St} (h : Inv T L s) {p : Nat} (hk : Known s p) (off room : Nat) (now : Int) :
    Eff T L s (.readdir p off room now) (opReaddir s p off room now).1 (opReaddir s p off room now).2 := by
  obtain ⟨ip, hip⟩ := h.known_ex hk
  unfold opReaddir
  simp only [hip]
  have hcut := cut_mod h p (touchAtime now) (touchAtime_rc now) (fun i => by rw [touchAtime_size]; exact Nat.le_refl _)
  generalize hs1 : ({ s with db := s.db.modInode p (touchAtime now) } : St) = s1 at *
  have hdb1 : s1.db = s.db.modInode p (touchAtime now) := by rw [← hs1]
  have hmx1 : s1.maxObj = s.maxObj := by rw [← hs1]
  rw [← hdb1]
  have hrows : ∀ r ∈ (s1.db.readdirRows p (fun i => off = 0 || decide (off < i + 3))).take room, 0 < s1.db.rc r.2.2 := by
    intro r hr
    have := (mem_readdirRows hcut.inv.acc p _ r).1 (List.mem_of_mem_take hr)
    have h2 := hcut.inv.acc.rc r.2.2
    have h3 := links_pos this.1
    have hb : 0 ≤ base r.2.2 := by unfold base; split <;> (try split) <;> omega
    omega
  generalize hrw : (s1.db.readdirRows p (fun i => off = 0 || decide (off < i + 3))).take room = rows at *
  have hall : rows.all (fun r => (AL.get s1.db.inodes r.2.2).isSome) = true := by
    rw [List.all_eq_true]; intro r hr
    exact Option.isSome_iff_ne_none.2 (rc_pos_ne (hrows r hr))
  rw [if_pos hall]
  obtain ⟨a, b, c, _, d⟩ := foldl_addOpen rows hcut.inv hrows
  generalize rows.foldl (fun s r => s.addOpen r.2.2 1) s1 = s2 at *
  refine ⟨a, ?_, ?_, ?_, ?_, ?_, ?_, (by intro h; cases h), by rw [c, hmx1]⟩
  · intro p' n; rw [b]; exact hcut.child p' n
  · intro i n _; rw [b]; exact hcut.xval i n
  · intro i _; rw [b, hcut.sym]; rfl
  · intro i x y hx hy _
    rw [b] at hy
    rw [hdb1, modInode_get] at hy
    refine ⟨?_, ?_⟩
    · split at hy
      · rename_i e; subst e
        rw [hx] at hy; simp only [Option.map_some, Option.some.injEq] at hy
        rw [← hy]; exact touchAtime_same _ _
      · rw [hx] at hy; cases hy; exact SameAttr.refl x
    · intro k; rw [b, hdb1, (modInode_rest _ _ _).2.2.2.2.1]
  · intro i hi hi'; rw [b] at hi'; exact absurd ((hcut.ex i).2 hi) hi'
  · intro i
    rw [d]
    have e1 : s1.cnt i = s.cnt i := by unfold St.cnt; rw [hcut.opened]
    have e2 : (((rows.map (fun r => (r.2.1, r.2.2, r.1 + 3))).filter (fun e => e.2.1 == i)).length : Int) = ((rows.filter (fun r => r.2.2 == i)).length : Int) := by
      rw [List.filter_map, List.length_map]; rfl
    simp only [kernelDelta, e2, e1]
    exact ⟨Int.le_refl _, fun _ => trivial⟩

/-! #### Every operation -/

theorem step_eff {L : Nat → Int} {s : St} (h : Inv T L s) {op : Op} (hk : KernelOk s op) :
    ∃ L', Eff T L' s op (step s op).1 (step s op).2 ∧ ((∀ id n v now, op = .setxattr id n v now → s.db.xval id n = none) → L' = L) := by
  cases op with
  | lookup p n => exact ⟨L, eff_lookup h p n, fun _ => rfl⟩
  | getattr id => exact ⟨L, eff_getattr h hk, fun _ => rfl⟩
  | readlink id now => exact ⟨L, eff_readlink h hk now, fun _ => rfl⟩
  | readdir p off room now => exact ⟨L, eff_readdir h hk off room now, fun _ => rfl⟩
  | getxattr id n => exact ⟨L, eff_getxattr h id n, fun _ => rfl⟩
  | listxattr id => exact ⟨L, eff_listxattr h id, fun _ => rfl⟩
  | setxattr id n v now =>
    obtain ⟨L', h1, h2⟩ := eff_setxattr h hk n v now
    exact ⟨L', h1, fun hr => h2 (hr id n v now rfl)⟩
  | removexattr id n now => exact ⟨L, eff_removexattr h hk.1 n now hk.2, fun _ => rfl⟩
  | unlink p n now => exact ⟨L, eff_unlink h hk.2 now, fun _ => rfl⟩
  | rmdir p n now => exact ⟨L, eff_rmdir h hk.2 hk.1 now, fun _ => rfl⟩
  | mknod p n mode rdev uid gid now => exact ⟨L, eff_mknod h mode rdev uid gid now hk.1 hk.2, fun _ => rfl⟩
  | symlink p n t uid gid now => exact ⟨L, eff_symlink h t uid gid now hk.1 hk.2, fun _ => rfl⟩
  | link id p n now => exact ⟨L, eff_link h now hk.1 hk.2.1 hk.2.2, fun _ => rfl⟩
  | rename po no pn nn flags now => exact ⟨L, eff_rename h flags now hk.1 hk.2.1 hk.2.2.1 hk.2.2.2, fun _ => rfl⟩
  | setattr id a c m now => exact ⟨L, eff_setattr h hk a c m now, fun _ => rfl⟩
  | «open» id flags now => exact ⟨L, eff_open h hk flags now, fun _ => rfl⟩
  | create p n mode flags uid gid now => exact ⟨L, eff_create h hk n mode flags uid gid now, fun _ => rfl⟩
  | read id b now => exact ⟨L, eff_read h hk b now, fun _ => rfl⟩
  | write id off len b now => exact ⟨L, eff_write h hk off len b now, fun _ => rfl⟩
  | forget l => exact ⟨L, eff_forget h l hk, fun _ => rfl⟩
  | upload id b o => exact ⟨L, eff_upload h id b o, fun _ => rfl⟩

/-! #### Unmounting -/

theorem forgetOk_all : ∀ (l : List (Nat × Int)) (cnt : Nat → Int), AL.NK l → (∀ i c, AL.get l i = some c → 0 < c ∧ cnt i = c) → ForgetOk cnt l
  | [], _, _, _ => trivial
  | (id, c) :: t, cnt, hk, h => by
    have h0 := h id c (by simp [AL.get])
    obtain ⟨hk1, hk2⟩ := hk.cons_inv
    refine ⟨h0.1, by omega, forgetOk_all t _ hk2 ?_⟩
    intro i c' hi
    have hne : i ≠ id := by rintro rfl; rw [hk1] at hi; cases hi
    have := h i c' (by simp only [AL.get]; rw [if_neg (fun e => hne e.symm)]; exact hi)
    refine ⟨this.1, ?_⟩
    simp only [if_neg hne]; omega

theorem forgetSum_all : ∀ (l : List (Nat × Int)) (i : Nat), AL.NK l → forgetSum l i = (AL.get l i).getD 0
  | [], _, _ => rfl
  | (id, c) :: t, i, hk => by
    obtain ⟨hk1, hk2⟩ := hk.cons_inv
    simp only [forgetSum, forgetSum_all t i hk2, AL.get]
    by_cases hi : i = id
    · subst hi; simp [hk1]
    · rw [if_neg hi, if_neg (fun e => hi e.symm)]; simp

theorem remount_spec {L : Nat → Int} {s : St} (h : Inv NoT L s) :
    ∃ s1, remount s = (.ok .unit, { s1 with opened := [(rootInode, 1)], failsafe := false }) ∧ Inv NoT L { s1 with opened := [(rootInode, 1)], failsafe := false } ∧ Fgt s s1 ∧
      ∀ i ino, AL.get s1.db.inodes i = some ino → 0 < ino.refcount := by
  have hfo : ForgetOk s.cnt s.opened := forgetOk_all s.opened s.cnt h.nkOp (fun i c hi => ⟨(h.opn i c hi).2, by simp [St.cnt, hi]⟩)
  obtain ⟨s1, he, hinv, hfg, hcnt⟩ := forget_spec s.opened h hfo
  have hz : ∀ i, AL.get s1.opened i = none := by
    intro i
    have : s1.cnt i = 0 := by rw [hcnt, forgetSum_all _ _ h.nkOp]; unfold St.cnt; omega
    cases hg : AL.get s1.opened i with
    | none => rfl
    | some c =>
      have h1 := (hinv.opn i c hg).2
      unfold St.cnt at this; rw [hg] at this; simp at this; omega
  have hnz : ∀ i ino, AL.get s1.db.inodes i = some ino → 0 < ino.refcount := by
    intro i ino hi
    have h1 := hinv.rc_nonneg i
    have h2 : s1.db.rc i = ino.refcount := by simp [Db.rc, hi]
    have h3 : ino.refcount ≠ 0 := fun h0 => (hinv.zero i ino hi h0).elim (fun h => h (hz i)) id
    omega
  refine ⟨s1, by unfold remount; rw [he], ?_, hfg, hnz⟩
  refine ⟨hinv.acc, hinv.mpos, hinv.Lnn, ?_, ?_, ?_, fun t ht => ht.elim⟩
  · simp [AL.NK]
  · intro i c hi
    have hi' : AL.get [(rootInode, (1 : Int))] i = some c := hi
    simp only [AL.get] at hi'
    split at hi'
    · rename_i e
      cases hi'
      refine ⟨?_, by omega⟩
      rw [← e]
      apply rc_pos_ne
      have h1 := hinv.acc.rc rootInode
      have h2 := links_nonneg s1.db rootInode
      have : base rootInode = 1 := rfl
      show 0 < s1.db.rc rootInode
      omega
    · cases hi'
  · intro i ino hi h0
    have := hnz i ino hi
    omega

/-! #### Reachable states -/

theorem init_inv (uid gid : Nat) (now : Int) {m : Nat} (hm : 0 < m) : Inv NoT (fun _ => 0) (init uid gid now m) := by
  have key : ∀ {α : Type} (x : Nat × α), AL.NK [x] := by intro α x; simp [AL.NK]
  refine ⟨⟨?_, ?_, ?_, ?_, ?_, ?_, ?_, ?_, ?_, ?_, ?_, ?_, ?_, ?_, ?_, ?_, ?_, ?_⟩, hm, fun _ => Int.le_refl _, ?_, ?_, ?_, fun t ht => ht.elim⟩
  · simp [init, initDb, AL.NK]
  · simp [init, initDb, AL.NK]
  · simp [init, initDb, AL.NK]
  · simp [init, initDb, AL.NK]
  · simp [init, initDb, AL.NK]
  · simp [init, initDb, AL.NK]
  · simp [init, initDb, AL.NK]
  · intro i j n r q hi hj
    simp only [init, initDb, AL.get] at hi hj
    split at hi
    · split at hj
      · omega
      · cases hj
    · cases hi
  · intro i
    simp only [Db.rc, Db.links, init, initDb, AL.get, AL.sumBy, base]
    by_cases h1 : i = 1
    · subst h1; rfl
    · by_cases h2 : i = 2
      · subst h2; rfl
      · by_cases h3 : i = 3
        · subst h3; rfl
        · rw [if_neg (fun e => h1 e.symm), if_neg (fun e => h2 e.symm), if_neg (fun e => h3 e.symm), if_neg h1, if_neg h2, if_neg (fun e => h3 e.symm)]; rfl
  · intro k
    simp only [Db.nr, Db.usesC, Db.usesX, init, initDb, AL.get, AL.sumBy]
    by_cases h1 : k = 1
    · subst h1; rfl
    · rw [if_neg (fun e => h1 e.symm), if_neg (fun e => h1 e.symm)]; rfl
  · intro k n r hk
    simp only [init, initDb, AL.get] at hk
    split at hk
    · cases hk; omega
    · cases hk
  · intro p k c hc
    simp only [init, initDb, AL.get] at hc
    split at hc
    · rename_i e
      cases e
      refine Or.inl ?_
      show (0 : Int) < 1
      omega
    · cases hc
  · intro i k v hv; simp [init, initDb, AL.get] at hv
  · intro i v hv; simp [init, initDb, AL.get] at hv
  · intro i b o hv; simp [init, initDb, AL.get] at hv
  · intro o; simp [Db.orc, Db.usesB, init, initDb, AL.get, AL.sumBy]
  · intro o r hv; simp [init, initDb, AL.get] at hv
  · intro i hi
    simp only [init, initDb, AL.get] at hi ⊢
    split at hi
    · omega
    · split at hi
      · omega
      · split at hi
        · omega
        · exact absurd rfl hi
  · simp [init, AL.NK]
  · intro i c hi
    simp only [init, AL.get] at hi
    split at hi
    · rename_i e
      cases hi
      refine ⟨?_, by omega⟩
      rw [← e]; simp [init, initDb, AL.get]
    · cases hi
  · intro i ino hi h0
    exfalso
    simp only [init, initDb, AL.get] at hi
    split at hi
    · cases hi; cases h0
    · split at hi
      · cases hi; cases h0
      · split at hi
        · cases hi; cases h0
        · cases hi

/-! #### Histories -/

theorem seenEntry_eq {L : Nat → Int} {s : St} (h : Inv T L s) (p : Nat) (n : Bytes) :
    seenEntry s p n = if n = ctrlName then some ctrlInode else s.db.child p n := by
  unfold seenEntry step opLookup lookup
  by_cases hn : n = ctrlName
  · simp only [hn, if_true]
    obtain ⟨v, hv⟩ := Option.ne_none_iff_exists'.1 h.ctrl_ex
    have hv' : AL.get (s.addOpen ctrlInode 1).db.inodes ctrlInode = some v := hv
    simp only [hv, hv']
  · simp only [if_neg hn]
    cases hc : s.db.child p n with
    | none => rfl
    | some id =>
      obtain ⟨v, hv⟩ := Option.ne_none_iff_exists'.1 (h.child_pos hc).2.1
      have hv' : AL.get (s.addOpen id 1).db.inodes id = some v := hv
      simp only [hv, hv']

theorem seenXattr_eq (s : St) (i : Nat) (n : Bytes) :
    seenXattr s i n = if n = aclAccess ∨ n = aclDefault then none else s.db.xval i n := by
  unfold seenXattr step opGetxattr Db.xval
  by_cases hn : n = aclAccess ∨ n = aclDefault
  · simp only [if_pos hn]
  · simp only [if_neg hn]
    cases (s.db.nameId n).bind (fun i_1 => AL.get s.db.xattrs (i, i_1)) <;> rfl

theorem seenAttr_eq (s : St) (i : Nat) : seenAttr s i = AL.get s.db.inodes i := by
  unfold seenAttr
  simp only [step, opGetattr]
  cases AL.get s.db.inodes i <;> rfl

theorem seenLink_eq (s : St) (i : Nat) : seenLink s i = if AL.get s.db.inodes i = none then none else AL.get s.db.symlinks i := by
  unfold seenLink
  simp only [step, opReadlink]
  cases hi : AL.get s.db.inodes i with
  | none => rfl
  | some a =>
    simp only [(modInode_rest s.db i (touchAtime 0)).2.2.2.1]
    cases AL.get s.db.symlinks i <;> rfl

theorem nameId_none_of {db : Db} {n : Bytes} (h : ∀ e ∈ db.names, e.2.1 ≠ n) : db.nameId n = none := by
  unfold Db.nameId
  cases hf : findName db.names n with
  | none => rfl
  | some v =>
    exfalso
    generalize db.names = l at *
    induction l with
    | nil => simp [findName] at hf
    | cons e t ih =>
      obtain ⟨i, n', r⟩ := e
      unfold findName at hf
      rw [if_neg (h (i, n', r) (by simp))] at hf
      exact ih (fun e he => h e (by simp [he])) hf

theorem ForgetOk.mono : ∀ (l : List (Nat × Int)) {K c : Nat → Int}, (∀ i, K i ≤ c i) → ForgetOk K l → ForgetOk c l
  | [], _, _, _, _ => trivial
  | (id, n) :: t, K, c, h, hf => by
    have h1 := h id
    have h2 := hf.2.1
    refine ⟨hf.1, by omega, ForgetOk.mono t (fun i => ?_) hf.2.2⟩
    have := h i; omega

/-- no directory entry has the name of the control file, and no attribute the names of ACLs -/
structure Res (s : St) : Prop where
  ctrl : ∀ p, s.db.child p ctrlName = none
  acl : ∀ i n, AL.get s.db.inodes i ≠ none → (n = aclAccess ∨ n = aclDefault) → s.db.xval i n = none

theorem kernelOk_of {L : Nat → Int} {s : St} (h : Inv T L s) (hr : Res s) {K : Nat → Int} (hK : ∀ i, K i ≤ s.cnt i) {op : Op}
    (hq : Req K s op) (hh : Handled s op) : KernelOk s op := by
  have kn : ∀ i, 0 < K i → Known s i := by
    intro i hi
    have := hK i
    exact (h.cnt_pos_iff i).1 (by omega)
  have hnew : ∀ p n, (n ≠ ctrlName → seenEntry s p n = none) → s.db.child p n = none := by
    intro p n hn
    by_cases hc : n = ctrlName
    · rw [hc]; exact hr.ctrl p
    · have := hn hc
      rw [seenEntry_eq h, if_neg hc] at this; exact this
  cases op with
  | lookup p n => exact kn _ hq
  | getattr id => exact kn _ hq
  | readlink id now => exact kn _ hq
  | readdir p off room now => exact kn _ hq
  | getxattr id n => exact kn _ hq.1
  | listxattr id => exact kn _ hq
  | setxattr id n v now => exact kn _ hq.1
  | removexattr id n now =>
    refine ⟨kn _ hq, ?_⟩
    rcases hh with h1 | h1
    · left
      rw [seenXattr_eq] at h1
      split at h1
      · exact absurd rfl h1
      · exact h1
    · right; exact nameId_none_of h1
  | unlink p n now => exact ⟨kn _ hq, hh⟩
  | rmdir p n now => exact ⟨kn _ hq, hh⟩
  | mknod p n mode rdev uid gid now => exact ⟨kn _ hq.1, hnew _ _ hq.2⟩
  | symlink p n t uid gid now => exact ⟨kn _ hq.1, hnew _ _ hq.2⟩
  | link id p n now => exact ⟨kn _ hq.1, kn _ hq.2.1, hnew _ _ hq.2.2⟩
  | rename po no pn nn flags now =>
    refine ⟨kn _ hq.1, kn _ hq.2.1, ?_, ?_⟩
    · rcases hq.2.2.1 with h1 | ⟨p, n, hn, h1⟩
      · subst h1
        have h1 := h.acc.rc rootInode
        have h2 := links_nonneg s.db rootInode
        have : base rootInode = 1 := rfl
        omega
      · rw [seenEntry_eq h, if_neg hn] at h1
        exact (h.child_pos h1).1
    · intro h1 h2 a ha
      have := hq.2.2.2 h1 h2 a
      rw [seenEntry_eq h, if_neg h1, seenEntry_eq h, if_neg h2] at this
      exact this ha
  | setattr id a c m now => exact kn _ hq
  | «open» id flags now => exact kn _ hq
  | create p n mode flags uid gid now => exact kn _ hq
  | read id b now => exact kn _ hq
  | write id off len b now => exact kn _ hq
  | forget l => exact ForgetOk.mono l hK hq
  | upload id b o => trivial

theorem create_ctrl (s : St) (p mode uid gid rdev size : Nat) (now : Int) : ∃ e, create s p ctrlName mode uid gid rdev size now = (.error e, s) := by
  unfold create; rw [if_pos rfl]
  exact ⟨if s.db.getPathOk p then .EACCES else .crash, by split <;> rfl⟩

theorem Res.step {L L' : Nat → Int} {s : St} (hI : Inv T L s) (h : Res s) {op : Op} (he : Eff T L' s op (step s op).1 (step s op).2) : Res (step s op).2 := by
  constructor
  · intro p
    rw [he.child]
    cases hres : (Fs.step s op).1 with
    | error e => cases op <;> exact h.ctrl p
    | ok r =>
      have hnew : ∀ p1 n, specEntries s.db.child op (.ok r) p ctrlName = (if p = p1 ∧ ctrlName = n then (specEntries s.db.child op (.ok r) p ctrlName) else none) → n ≠ ctrlName → specEntries s.db.child op (.ok r) p ctrlName = none := by
        intro p1 n h1 hn
        rw [h1, if_neg (fun e => hn e.2.symm)]
      cases op with
      | mknod p1 n mode rdev uid gid now =>
        cases r <;> try exact h.ctrl p
        simp only [specEntries]
        split
        · rename_i hc
          exfalso
          rw [← hc.2] at hres
          simp only [Fs.step, opMknod] at hres
          split at hres
          · cases hres
          · obtain ⟨e, hce⟩ := create_ctrl s p1 mode uid gid rdev 0 now
            rw [hce] at hres; cases hres
        · exact h.ctrl p
      | symlink p1 n tg uid gid now =>
        cases r <;> try exact h.ctrl p
        simp only [specEntries]
        split
        · rename_i hc
          exfalso
          rw [← hc.2] at hres
          simp only [Fs.step, opSymlink] at hres
          split at hres
          · cases hres
          · obtain ⟨e, hce⟩ := create_ctrl s p1 symlinkMode uid gid 0 tg.length now
            rw [hce] at hres; cases hres
        · exact h.ctrl p
      | create p1 n mode flags uid gid now =>
        cases r <;> try exact h.ctrl p
        simp only [specEntries]
        split
        · rename_i hc
          exfalso
          rw [← hc.2] at hres
          simp only [Fs.step, opCreate, h.ctrl] at hres
          split at hres
          · cases hres
          · obtain ⟨e, hce⟩ := create_ctrl s p1 mode uid gid 0 0 now
            rw [hce] at hres; cases hres
        · exact h.ctrl p
      | link id p1 n now =>
        simp only [specEntries]
        split
        · rename_i hc
          exfalso
          rw [← hc.2] at hres
          simp only [Fs.step, opLink, true_or, if_true] at hres
          split at hres <;> cases hres
        · exact h.ctrl p
      | rename po no pn nn flags now =>
        simp only [specEntries]
        split
        · rename_i hc
          exfalso
          rw [← hc.2] at hres
          simp only [Fs.step, opRename, true_or, if_true] at hres
          split at hres
          · cases hres
          · split at hres <;> cases hres
        · split
          · rfl
          · exact h.ctrl p
      | unlink p1 n now => simp only [specEntries]; split <;> first | rfl | exact h.ctrl p
      | rmdir p1 n now => simp only [specEntries]; split <;> first | rfl | exact h.ctrl p
      | lookup => exact h.ctrl p
      | getattr => exact h.ctrl p
      | readlink => exact h.ctrl p
      | readdir => exact h.ctrl p
      | getxattr => exact h.ctrl p
      | listxattr => exact h.ctrl p
      | setxattr => exact h.ctrl p
      | removexattr => exact h.ctrl p
      | setattr => exact h.ctrl p
      | «open» => exact h.ctrl p
      | read => exact h.ctrl p
      | write => exact h.ctrl p
      | forget => exact h.ctrl p
      | upload => exact h.ctrl p
  · intro i n hi hn
    rw [he.xval i n hi]
    have h0 : s.db.xval i n = none := by
      by_cases hex : AL.get s.db.inodes i = none
      · cases hq : s.db.xval i n with
        | none => rfl
        | some v =>
          obtain ⟨k, _, hk⟩ := (hI.acc.xval_iff _ _ _).1 hq
          exact absurd hex (hI.acc.xin _ _ _ hk)
      · exact h.acl i n hex hn
    cases hres : (Fs.step s op).1 with
    | error e => cases op <;> exact h0
    | ok r =>
      cases op with
      | setxattr id n' v now =>
        simp only [specXattrs]
        split
        · rename_i hc
          exfalso
          rw [← hc.2] at hres
          simp only [Fs.step, opSetxattr, if_pos hn] at hres
          cases hres
        · exact h0
      | removexattr id n' now => simp only [specXattrs]; split <;> first | rfl | exact h0
      | _ => exact h0

theorem Fgt.res {s s' : St} (h : Fgt s s') (hr : Res s) : Res s' := by
  constructor
  · intro p; rw [h.child]; exact hr.ctrl p
  · intro i n hi hn
    rw [h.xval i n hi]
    exact hr.acl i n (h.noNew i hi) hn

end Verif.Fs
