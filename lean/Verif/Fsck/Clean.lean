/-
fsck reports an error if and only if there is one, and a run that reports none changes nothing.
-/
import Verif.Fsck.Quiet

namespace Verif.Fsck
open Verif.Fs (Bytes Inode rootInode ctrlInode)

/-! #### Loops -/

/-- `DescN t r n x`: `n` pointers lead from `x` to `r`. -/
inductive DescN (t : List (Nat × Option Nat)) (r : Nat) : Nat → Nat → Prop
  | refl : DescN t r 0 r
  | step {x y n : Nat} : (x, some y) ∈ t → DescN t r n y → DescN t r (n + 1) x

theorem DescN.child {t : List (Nat × Option Nat)} {r i n q : Nat} (hi : (i, some r) ∈ t) (h : DescN t i n q) : DescN t r (n + 1) q := by
  induction h with
  | refl => exact DescN.step hi DescN.refl
  | step hx _ ih => exact DescN.step hx ih

theorem deleteTrees_some {t : List (Nat × Option Nat)} {fuel : Nat} {l : List Nat} (h : ∀ i ∈ l, ∃ d, deleteTree t fuel i = some d) :
    ∃ d, deleteAll (deleteTree t fuel) l = some d := by
  induction l with
  | nil => exact ⟨[], by unfold deleteAll; rfl⟩
  | cons a r ih =>
    obtain ⟨d1, h1⟩ := h a List.mem_cons_self
    obtain ⟨d2, h2⟩ := ih (fun i hi => h i (List.mem_cons_of_mem _ hi))
    refine ⟨d1 ++ d2, ?_⟩
    unfold deleteAll
    rw [h1, h2]

theorem deleteTree_short {t : List (Nat × Option Nat)} {fuel : Nat} : ∀ {r : Nat}, (∀ q n, DescN t r n q → n < fuel) →
    ∃ d, deleteTree t fuel r = some d := by
  induction fuel with
  | zero => intro r h; exact absurd (h r 0 DescN.refl) (by omega)
  | succ f ih =>
    intro r h
    obtain ⟨d, hd⟩ := deleteTrees_some (t := t) (fuel := f) (l := (t.filter (fun e => e.2 == some r)).map (·.1)) (by
      intro i hi
      apply ih
      intro q n hq
      have := h q (n + 1) (hq.child (children_mem.1 hi))
      omega)
    refine ⟨d ++ [r], ?_⟩
    unfold deleteTree
    rw [hd]

theorem deleteTree_fuel {t : List (Nat × Option Nat)} {q n : Nat} : ∀ {fuel : Nat} {r : Nat} {d : List Nat},
    deleteTree t fuel r = some d → DescN t r n q → ∃ d', n < fuel ∧ deleteTree t (fuel - n) q = some d' := by
  intro fuel r d h hq
  induction hq with
  | refl =>
    obtain ⟨f, l, rfl, _, _⟩ := deleteTree_succ h
    exact ⟨d, by omega, by simpa using h⟩
  | step hx _ ih =>
    obtain ⟨d', hlt, hd'⟩ := ih
    obtain ⟨f, l, hf, hl, _⟩ := deleteTree_succ hd'
    obtain ⟨d2, h2, _⟩ := (deleteTrees_each hl).1 _ (children_mem.2 hx)
    obtain ⟨f', _, hf', _, _⟩ := deleteTree_succ h2
    exact ⟨d2, by omega, by rw [show fuel - (_ + 1) = f by omega]; exact h2⟩

theorem loopTable_mem {db : Db} {i : Nat} {p : Option Nat} :
    (i, p) ∈ loopTable db ↔ (∃ e ∈ db.contents, e.2.parent = i) ∧ above db i = p := by
  unfold loopTable
  rw [List.mem_map]
  constructor
  · rintro ⟨j, hj, he⟩
    obtain ⟨rfl, rfl⟩ := Prod.mk.inj he
    obtain ⟨e, he, hp⟩ := List.mem_map.1 (dedup_mem.1 hj)
    refine ⟨⟨e, he, hp⟩, ?_⟩
    unfold above
    congr 1
  · rintro ⟨⟨e, he, rfl⟩, rfl⟩
    refine ⟨e.2.parent, dedup_mem.2 (List.mem_map.2 ⟨e, he, rfl⟩), ?_⟩
    unfold above
    congr 2

theorem above_parent {db : Db} {i p : Nat} (h : above db i = some p) : ∃ e ∈ db.contents, e.2.parent = p ∧ e.2.inode = i := by
  unfold above at h
  obtain ⟨e, he, rfl⟩ := Option.map_eq_some_iff.1 h
  exact ⟨e, List.mem_of_find?_eq_some he, rfl, by simpa using List.find?_some he⟩

theorem above_none {db : Db} {i : Nat} (h : above db i = none) : ∀ e ∈ db.contents, e.2.inode ≠ i := by
  unfold above at h
  intro e he hi
  have := List.find?_eq_none.1 (Option.map_eq_none_iff.1 h) e he
  exact this (by simpa using hi)

theorem above_of {db : Db} {i : Nat} (h : ∀ e ∈ db.contents, e.2.inode ≠ i) : above db i = none := by
  cases ha : above db i with
  | none => rfl
  | some p =>
    obtain ⟨e, he, _, hi⟩ := above_parent ha
    exact absurd hi (h e he)

theorem climb_descN {db : Db} {n x : Nat} (h : climb db n x = some rootInode) (hx : ∃ e ∈ db.contents, e.2.parent = x) :
    DescN (loopTable db) rootInode n x := by
  induction n generalizing x with
  | zero =>
    have := Option.some.inj h
    subst this
    exact DescN.refl
  | succ n ih =>
    obtain ⟨y, hy, h2⟩ := Option.bind_eq_some_iff.1 h
    obtain ⟨e, he, hp, _⟩ := above_parent hy
    exact DescN.step (loopTable_mem.2 ⟨hx, hy⟩) (ih h2 ⟨e, he, hp⟩)

theorem descN_climb {db : Db} {n x : Nat} (h : DescN (loopTable db) rootInode n x) : climb db n x = some rootInode := by
  induction h with
  | refl => rfl
  | step hx _ ih =>
    unfold climb
    rw [(loopTable_mem.1 hx).2]
    exact ih

theorem DescN.desc {t : List (Nat × Option Nat)} {r n x : Nat} (h : DescN t r n x) : Desc t r x := by
  induction h with
  | refl => exact Desc.refl
  | step hx _ ih => exact Desc.step hx ih

theorem Desc.count {t : List (Nat × Option Nat)} {r x : Nat} (h : Desc t r x) : ∃ n, DescN t r n x := by
  induction h with
  | refl => exact ⟨0, DescN.refl⟩
  | step hx _ ih => obtain ⟨n, hn⟩ := ih; exact ⟨n + 1, DescN.step hx hn⟩

/-- With the root in no directory, the number of steps to it is unique. -/
theorem climb_unique {db : Db} (hr : above db rootInode = none) {n m x : Nat} (h1 : climb db n x = some rootInode)
    (h2 : climb db m x = some rootInode) : n = m := by
  induction n generalizing m x with
  | zero =>
    have := Option.some.inj h1
    subst this
    cases m with
    | zero => rfl
    | succ m => unfold climb at h2; rw [hr] at h2; cases h2
  | succ n ih =>
    obtain ⟨y, hy, h3⟩ := Option.bind_eq_some_iff.1 h1
    cases m with
    | zero =>
      have := Option.some.inj h2
      subst this
      rw [hr] at hy; cases hy
    | succ m =>
      unfold climb at h2
      rw [hy] at h2
      rw [ih h3 h2]

theorem reanchor_found {inode : Nat} {s s' : St} {p : Nat} (h : reanchor inode s = some (s', p)) : s'.found = true := by
  unfold reanchor at h
  split at h
  · cases h
  · split at h
    · cases h
    · dsimp only at h
      split at h
      · cases h
      · cases h; rfl

theorem loopRun_found {depth : Nat} : ∀ {fuel : Nat} {root : Nat} {t : List (Nat × Option Nat)} {left : List Nat} {s s' : St},
    loopRun depth fuel root t left s = some s' → s.found = true → s'.found = true := by
  intro fuel
  induction fuel with
  | zero => intro root t left s s' h; cases h
  | succ f ih =>
    intro root t left s s' h hf
    unfold loopRun at h
    split at h
    · cases h
    · dsimp only at h
      split at h
      · cases h; exact hf
      · split at h
        · cases h
        · rename_i s1 p hr
          exact ih h (reanchor_found hr)

theorem checkLoops_quiet {depth : Nat} {s s' : St} (h : checkLoops depth s = some s') (hf : s'.found = false) :
    s' = s ∧ TreeOk s.db depth := by
  unfold checkLoops loopRun at h
  dsimp only at h
  split at h
  · cases h
  · rename_i del hdel
    split at h
    · rename_i hc
      cases h
      refine ⟨rfl, ?_⟩
      have hnil := culprit_none hc
      have hall : ∀ e ∈ s.db.contents, Desc (loopTable s.db) rootInode e.2.parent := by
        intro e he
        have hk : e.2.parent ∈ keys (loopTable s.db) := by
          rw [keys_loopTable]; exact dedup_mem.2 (List.mem_map.2 ⟨e, he, rfl⟩)
        have := List.filter_eq_nil_iff.1 hnil _ hk
        exact (deleteTree_iff hdel).1 (by simpa using this)
      refine ⟨?_, ?_, ?_⟩
      · obtain ⟨f, _, hf', _, _⟩ := deleteTree_succ hdel
        omega
      · intro e he hroot
        -- the root is a directory with entries
        have hkey : ∃ e' ∈ s.db.contents, e'.2.parent = rootInode := by
          have hd := hall e he
          clear hc hnil
          generalize hx : e.2.parent = x at hd
          have hx' : ∃ e' ∈ s.db.contents, e'.2.parent = x := ⟨e, he, hx⟩
          clear hx
          induction hd with
          | refl => exact hx'
          | step hxy _ ih =>
            obtain ⟨_, ha⟩ := loopTable_mem.1 hxy
            obtain ⟨e', he', hp, _⟩ := above_parent ha
            exact ih ⟨e', he', hp⟩
        cases ha : above s.db rootInode with
        | none => exact above_none ha e he hroot
        | some q =>
          obtain ⟨e', he', hp, _⟩ := above_parent ha
          have h1 : (rootInode, some q) ∈ loopTable s.db := loopTable_mem.2 ⟨hkey, ha⟩
          have h2 := hall e' he'
          rw [hp] at h2
          rw [deleteTree_loop h1 h2 depth] at hdel
          cases hdel
      · intro e he
        obtain ⟨n, hn⟩ := (hall e he).count
        obtain ⟨_, hlt, _⟩ := deleteTree_fuel hdel hn
        exact ⟨n, hlt, descN_climb hn⟩
    · split at h
      · cases h
      · rename_i s1 p hr
        rw [loopRun_found h (reanchor_found hr)] at hf
        cases hf

theorem checkLoops_clean {depth : Nat} {s : St} (h : TreeOk s.db depth) : checkLoops depth s = some s := by
  obtain ⟨hd, hroot, hall⟩ := h
  have hr := above_of hroot
  obtain ⟨del, hdel⟩ := deleteTree_short (t := loopTable s.db) (fuel := depth) (r := rootInode) (by
    intro q n hq
    have hc := descN_climb hq
    cases hq with
    | refl => exact hd
    | step hx _ =>
      obtain ⟨⟨e, he, hp⟩, _⟩ := loopTable_mem.1 hx
      obtain ⟨m, hm, hcm⟩ := hall e he
      rw [hp] at hcm
      rw [climb_unique hr hc hcm]
      exact hm)
  unfold checkLoops loopRun
  dsimp only
  rw [hdel]
  dsimp only
  have hnil : (keys (loopTable s.db)).filter (fun i => !del.contains i) = [] := by
    apply nil_filter
    intro i hi
    obtain ⟨p, hp⟩ := mem_keys.1 hi
    obtain ⟨⟨e, he, hei⟩, _⟩ := loopTable_mem.1 hp
    obtain ⟨n, _, hc⟩ := hall e he
    rw [hei] at hc
    have := (deleteTree_iff hdel).2 (climb_descN hc ⟨e, he, hei⟩).desc
    simpa using this
  rw [hnil]
  rfl

/-! #### check_unix -/

theorem fixMode_typed {db : Db} {id m : Nat} : fixMode db id m = m ↔ m &&& Fs.sIFMT ≠ 0 := by
  unfold fixMode
  constructor
  · intro h hz
    rw [if_pos hz] at h
    have b14 : Nat.testBit (m &&& Fs.sIFMT) 14 = false := by rw [hz]; exact Nat.zero_testBit _
    have b15 : Nat.testBit (m &&& Fs.sIFMT) 15 = false := by rw [hz]; exact Nat.zero_testBit _
    rw [Nat.testBit_and] at b14 b15
    split at h
    · have := congrArg (fun x => Nat.testBit x 14) h
      simp only [Nat.testBit_or] at this
      have e1 : Nat.testBit 0o040000 14 = true := by decide
      have e2 : Nat.testBit Fs.sIFMT 14 = true := by decide
      rw [e1, Bool.or_true] at this
      rw [e2, ← this] at b14
      cases b14
    · have := congrArg (fun x => Nat.testBit x 15) h
      simp only [Nat.testBit_or] at this
      have e1 : Nat.testBit 0o100000 15 = true := by decide
      have e2 : Nat.testBit Fs.sIFMT 15 = true := by decide
      rw [e1, Bool.or_true] at this
      rw [e2, ← this] at b15
      cases b15
  · intro h; rw [if_neg h]

theorem lnk_not_reg {m : Nat} (h : isLnk m = true) : Fs.isReg m = false ∧ Fs.isDir m = false := by
  unfold isLnk at h
  unfold Fs.isReg Fs.isDir
  rw [eq_of_beq h]
  decide

theorem unixBad_iff {db : Db} (hs : Schema db) {id : Nat} {i : Inode} :
    unixBad db id i = false ↔ ((isLnk i.mode = true ↔ ∃ t, (id, t) ∈ db.symlinks) ∧
      (isLnk i.mode = true → ∀ t, (id, t) ∈ db.symlinks → i.size = t.length) ∧
      (i.size ≠ 0 → Fs.isReg i.mode = true ∨ isLnk i.mode = true ∨ Fs.isDir i.mode = true) ∧
      (i.rdev ≠ 0 → Fs.isBlk i.mode = true ∨ isChr i.mode = true) ∧
      (∀ e ∈ db.contents, e.2.parent = id → Fs.isDir i.mode = true) ∧
      (∀ e ∈ db.blocks, e.2.inode = id → Fs.isReg i.mode = true)) := by
  unfold unixBad
  dsimp only
  have c1 : db.contents.any (fun e => e.2.parent == id) = false ↔ ∀ e ∈ db.contents, e.2.parent ≠ id := by
    simp [List.any_eq_false]
  have c2 : db.blocks.any (fun e => e.2.inode == id) = false ↔ ∀ e ∈ db.blocks, e.2.inode ≠ id := by
    simp [List.any_eq_false]
  generalize hb1 : db.contents.any (fun e => e.2.parent == id) = b1 at c1
  generalize hb2 : db.blocks.any (fun e => e.2.inode == id) = b2 at c2
  have d1 : (∀ e ∈ db.contents, e.2.parent = id → Fs.isDir i.mode = true) ↔ (b1 = true → Fs.isDir i.mode = true) := by
    constructor
    · intro h hb
      by_cases hd : Fs.isDir i.mode = true
      · exact hd
      · have : b1 = false := c1.2 (fun e he hp => hd (h e he hp))
        rw [hb] at this; cases this
    · intro h e he hp
      apply h
      cases b1 with
      | true => rfl
      | false => exact absurd hp (c1.1 rfl e he)
  have d2 : (∀ e ∈ db.blocks, e.2.inode = id → Fs.isReg i.mode = true) ↔ (b2 = true → Fs.isReg i.mode = true) := by
    constructor
    · intro h hb
      by_cases hd : Fs.isReg i.mode = true
      · exact hd
      · have : b2 = false := c2.2 (fun e he hp => hd (h e he hp))
        rw [hb] at this; cases this
    · intro h e he hp
      apply h
      cases b2 with
      | true => rfl
      | false => exact absurd hp (c2.1 rfl e he)
  rw [d1, d2]
  clear d1 d2 c1 c2
  cases hg : AL.get db.symlinks id with
  | none =>
    have hn : ¬ ∃ t, (id, t) ∈ db.symlinks := fun h => by
      have := isSome_iff_mem.2 h
      rw [hg] at this; cases this
    have hn' : ∀ t, (id, t) ∉ db.symlinks := fun t ht => hn ⟨t, ht⟩
    simp only [hn, hn', iff_false]
    cases isLnk i.mode <;> cases Fs.isReg i.mode <;> cases Fs.isDir i.mode <;> cases Fs.isBlk i.mode <;> cases isChr i.mode <;>
      cases b1 <;> cases b2 <;> simp
  | some t =>
    have hm := AL.get_some_mem hg
    have hn : ∃ t, (id, t) ∈ db.symlinks := ⟨t, hm⟩
    have hn' : (∀ t, (id, t) ∈ db.symlinks → i.size = t.length) ↔ i.size = t.length := by
      constructor
      · intro h; exact h t hm
      · intro h t' ht'
        have := AL.mem_get_some hs.symlinks ht'
        rw [hg] at this
        cases this; exact h
    simp only [hn, hn', iff_true]
    cases isLnk i.mode <;> cases Fs.isReg i.mode <;> cases Fs.isDir i.mode <;> cases Fs.isBlk i.mode <;> cases isChr i.mode <;>
      cases b1 <;> cases b2 <;> simp

theorem unixInode_clean {s : St} (hs : Schema s.db) {id : Nat} (h : ∀ i, AL.get s.db.inodes id = some i → UnixInode s.db id i) :
    unixInode id s = some s := by
  unfold unixInode
  split
  · rfl
  · rename_i i hg
    have hu := h i hg
    have hm := fixMode_typed (db := s.db) (id := id) |>.2 hu.typed
    dsimp only
    rw [hm]
    have hb : unixBad s.db id i = false := (unixBad_iff hs).2 ⟨hu.target, hu.length, hu.empty, hu.device, hu.children, hu.blocks⟩
    rw [if_neg]
    rintro (h | h)
    · exact h rfl
    · have h' : unixBad s.db id i = true := h
      rw [hb] at h'; cases h'

theorem unixInode_quiet {s s' : St} {id : Nat} (h : unixInode id s = some s') (hf : s'.found = false) :
    s' = s ∧ (Schema s.db → ∀ i, AL.get s.db.inodes id = some i → UnixInode s.db id i) := by
  unfold unixInode at h
  split at h
  · rename_i hg
    cases h; exact ⟨rfl, fun _ i hi => by rw [hg] at hi; cases hi⟩
  · rename_i i hg
    dsimp only at h
    split at h
    · split at h
      · cases h; cases hf
      · cases h
    · rename_i hn
      cases h
      refine ⟨rfl, fun hs j hj => ?_⟩
      rw [hg] at hj
      cases hj
      have hm : fixMode s.db id i.mode = i.mode := by
        by_cases he : fixMode s.db id i.mode = i.mode
        · exact he
        · exact absurd (Or.inl he) hn
      have hb : unixBad s.db id i = false := by
        cases hb : unixBad s.db id i with
        | false => rfl
        | true => rw [hm] at hn; exact absurd (Or.inr hb) hn
      obtain ⟨a, b, c, d, e, f⟩ := (unixBad_iff hs).1 hb
      exact ⟨fixMode_typed.1 hm, a, b, c, d, e, f⟩

theorem longEntries_nil {db : Db} (hs : Schema db) :
    longEntries db = [] ↔ ∀ e ∈ db.contents, ∀ r, (e.2.nameId, r) ∈ db.names → r.name.length ≤ 255 := by
  unfold longEntries
  rw [List.filter_eq_nil_iff]
  constructor
  · intro h e he r hr
    have := h e he
    rw [AL.mem_get_some hs.names hr] at this
    simpa using this
  · intro h e he
    cases hg : AL.get db.names e.2.nameId with
    | none => simp
    | some r => simpa using h e he r (AL.get_some_mem hg)

theorem checkUnix_clean {s : St} (hs : Schema s.db) (h : UnixOk s.db) : checkUnix s = some s := by
  unfold checkUnix
  rw [iter_same (f := unixInode) (s := s) (fun k _ => unixInode_clean hs (fun i hi => h.1 (k, i) (AL.get_some_mem hi)))]
  dsimp only
  rw [(longEntries_nil hs).2 h.2]
  rfl

theorem checkUnix_quiet {s s' : St} (h : checkUnix s = some s') (hf : s'.found = false) :
    s' = s ∧ (Schema s.db → UnixOk s.db) := by
  unfold checkUnix at h
  split at h
  · cases h
  · rename_i s1 h1
    obtain ⟨hnil, he⟩ := iter_err (f := unixName) (fun a t t' ht => by
      unfold unixName at ht
      split at ht
      · cases ht; rfl
      · cases ht) h hf
    subst he
    obtain ⟨he, hall⟩ := iter_quiet (f := unixInode) (fun k t t' hk hf => (unixInode_quiet hk hf).1) h1 hf
    subst he
    exact ⟨rfl, fun hs => ⟨fun e he => (unixInode_quiet (hall e.1 (mem_keys.2 ⟨e.2, he⟩)) hf).2 hs e.2 (AL.mem_get_some hs.inodes he),
      (longEntries_nil hs).1 hnil⟩⟩

theorem checkForeign_quiet {s : St} (h : (checkForeign s).found = false) : checkForeign s = s := by
  unfold checkForeign at h ⊢
  split at h
  · cases h
  · rename_i hd; rw [if_neg hd]


/-! #### All checks -/

theorem found_or {a b : Bool} (h : (a || b) = false) : a = false := (Bool.or_eq_false_iff.1 h).1

theorem checkObjectsRefcount_mono {s s' : St} (h : checkObjectsRefcount s = some s') (hf : s'.found = false) : s.found = false := by
  rw [checkObjectsRefcount_eq] at h
  cases h
  exact found_or hf

theorem delSpurious_mono {o : Nat} {s s' : St} (h : delSpurious o s = some s') (hf : s'.found = false) : s.found = false := by
  unfold delSpurious at h
  split at h
  · cases h; exact hf
  · dsimp only at h
    split at h
    · cases h; exact hf
    · cases h; cases hf

theorem checkObjectsId_mono {cfg : Cfg} {s s' : St} (h : checkObjectsId cfg s = some s') (hf : s'.found = false) :
    s.found = false := by
  unfold checkObjectsId at h
  dsimp only at h
  split at h
  · cases h
  · rename_i s1 h1
    cases h
    have hf1 : s1.found = false := found_or hf
    clear hf
    by_cases hs : s.found = false
    · exact hs
    · exfalso
      have ht : s.found = true := by simpa using hs
      have : s1.found = true := by
        refine iter_inv (f := delSpurious) (fun t => t.found = true) ?_ h1 ht
        intro o _ t t' ht' hd
        cases hx : t'.found with
        | true => rfl
        | false => rw [delSpurious_mono hd hx] at ht'; cases ht'
      rw [this] at hf1; cases hf1

theorem checkA_clean {cfg : Cfg} {c : CacheArg} {s : St} (hs : Schema s.db) (h1 : LofOk s.db) (h2 : c ≠ .no → CacheOk cfg s)
    (h3 : NameRefsExact s.db) (h4 : EntriesHaveName s.db) (h5 : EntriesHaveInode s.db) (h6 : EntriesHaveParent s.db) :
    checkA cfg c s = some (cacheAfter c s) := by
  have hdb : (cacheAfter c s).db = s.db := by cases c <;> rfl
  unfold checkA
  rw [checkLof_clean hs h1]
  dsimp only [Option.bind_some, bind]
  rw [cachePart_clean hs h2]
  dsimp only [Option.bind_some, bind]
  rw [checkNamesRefcount_clean (by rw [hdb]; exact h3), checkContentsName_clean (by rw [hdb]; exact h4)]
  dsimp only [Option.bind_some, bind]
  rw [checkContentsInode_clean (by rw [hdb]; exact h5)]
  dsimp only [Option.bind_some, bind]
  rw [checkContentsParent_clean (by rw [hdb]; exact h6)]

theorem checkA_quiet {cfg : Cfg} {c : CacheArg} {s s' : St} (h : checkA cfg c s = some s') (hf : s'.found = false) :
    s' = cacheAfter c s ∧ LofOk s.db ∧ NameRefsExact s.db ∧ EntriesHaveInode s.db ∧
      (Schema s.db → (c ≠ .no → CacheOk cfg s) ∧ EntriesHaveName s.db ∧ EntriesHaveParent s.db) := by
  have hdb : (cacheAfter c s).db = s.db := by cases c <;> rfl
  unfold checkA at h
  obtain ⟨s1, h1, h⟩ := Option.bind_eq_some_iff.1 h
  obtain ⟨s2, h2, h⟩ := Option.bind_eq_some_iff.1 h
  obtain ⟨s4, h4, h⟩ := Option.bind_eq_some_iff.1 h
  obtain ⟨s5, h5, h6⟩ := Option.bind_eq_some_iff.1 h
  obtain ⟨e6, p6⟩ := checkContentsParent_quiet h6 hf
  subst e6
  obtain ⟨e5, p5⟩ := checkContentsInode_quiet h5 hf
  subst e5
  obtain ⟨e4, p4⟩ := checkContentsName_quiet h4 hf
  subst e4
  obtain ⟨e3, p3⟩ := checkNamesRefcount_quiet hf
  rw [e3] at h4 h5 h6 hf p4 p5 p6 ⊢
  obtain ⟨e2, p2⟩ := cachePart_quiet h2 hf
  subst e2
  have hf1 : s1.found = false := by rw [← hf]; cases c <;> rfl
  obtain ⟨e1, p1⟩ := checkLof_quiet h1 hf1
  subst e1
  rw [hdb] at p3 p4 p5 p6
  exact ⟨rfl, p1, p3, p5, fun hs => ⟨p2 hs, p4 hs, p6 hs⟩⟩

theorem checkB_clean {cfg : Cfg} {s : St} (hl : ListingExact cfg) (h0 : s.temps = 0)
    (h1 : ∀ e ∈ s.db.objects, e.2.hash ≠ none) (h2 : ObjRefsExact s.db) (h3 : ∀ e ∈ s.db.objects, usesOfObj s.db e.1 ≠ 0)
    (h4 : ObjsStored s) (h5 : ∀ e ∈ s.backend, HasObj s.db e.1) (h6 : ∀ e ∈ s.db.objects, e.2.phys ≠ -1)
    (h7 : BlocksHaveObj s.db) (h8 : BlocksHaveInode s.db) : checkB cfg s = some s := by
  unfold checkB
  dsimp only
  rw [checkObjectsTemp_clean h0, checkObjectsHash_clean h1, checkObjectsRefcount_clean h2 h3]
  dsimp only [Option.bind_some, bind]
  rw [checkObjectsId_clean hl h4 h5]
  dsimp only [Option.bind_some, bind]
  rw [checkObjectsPhys_clean h6]
  dsimp only [Option.bind_some, bind]
  rw [checkBlocksObj_clean h7]
  dsimp only [Option.bind_some, bind]
  rw [checkBlocksInode_clean h8]

theorem checkB_mono {cfg : Cfg} {s s' : St} (h : checkB cfg s = some s') (hf : s'.found = false) : s.found = false := by
  unfold checkB at h
  obtain ⟨s9, h9, h⟩ := Option.bind_eq_some_iff.1 h
  obtain ⟨s10, h10, h⟩ := Option.bind_eq_some_iff.1 h
  obtain ⟨s11, h11, h⟩ := Option.bind_eq_some_iff.1 h
  obtain ⟨s12, h12, h13⟩ := Option.bind_eq_some_iff.1 h
  obtain ⟨e13, _⟩ := checkBlocksInode_quiet h13 hf
  subst e13
  obtain ⟨e12, _⟩ := checkBlocksObj_quiet h12 hf
  subst e12
  obtain ⟨e11, _⟩ := checkObjectsPhys_quiet h11 hf
  subst e11
  have f8 := checkObjectsRefcount_mono h9 (checkObjectsId_mono h10 hf)
  have f7 : (checkObjectsTemp s).found = false := found_or f8
  exact found_or f7

theorem checkB_quiet {cfg : Cfg} {s s' : St} (hl : ListingExact cfg) (hul : s.unlinked = []) (h : checkB cfg s = some s')
    (hf : s'.found = false) : s' = s ∧ s.temps = 0 ∧ (∀ e ∈ s.db.objects, e.2.hash ≠ none) ∧ ObjRefsExact s.db ∧
      (∀ e ∈ s.db.objects, usesOfObj s.db e.1 ≠ 0) ∧ ObjsStored s ∧ (∀ e ∈ s.backend, HasObj s.db e.1) ∧
      (Schema s.db → ∀ e ∈ s.db.objects, e.2.phys ≠ -1) ∧ BlocksHaveObj s.db ∧ BlocksHaveInode s.db := by
  unfold checkB at h
  obtain ⟨s9, h9, h⟩ := Option.bind_eq_some_iff.1 h
  obtain ⟨s10, h10, h⟩ := Option.bind_eq_some_iff.1 h
  obtain ⟨s11, h11, h⟩ := Option.bind_eq_some_iff.1 h
  obtain ⟨s12, h12, h13⟩ := Option.bind_eq_some_iff.1 h
  obtain ⟨e13, p13⟩ := checkBlocksInode_quiet h13 hf
  subst e13
  obtain ⟨e12, p12⟩ := checkBlocksObj_quiet h12 hf
  subst e12
  obtain ⟨e11, p11⟩ := checkObjectsPhys_quiet h11 hf
  subst e11
  have f9 := checkObjectsId_mono h10 hf
  have f8 := checkObjectsRefcount_mono h9 f9
  have f7 : (checkObjectsTemp s).found = false := found_or f8
  obtain ⟨e7, p7⟩ := checkObjectsTemp_quiet f7
  rw [e7] at h9 f8
  obtain ⟨e8, p8⟩ := checkObjectsHash_quiet f8
  rw [e8] at h9
  obtain ⟨e9, p9, p9'⟩ := checkObjectsRefcount_quiet h9 f9 hul
  subst e9
  obtain ⟨e10, p10, p10'⟩ := checkObjectsId_quiet hl h10 hf hul
  subst e10
  exact ⟨rfl, p7, p8, p9, p9', p10, p10', p11, p12, p13⟩

theorem checkC_clean {cfg : Cfg} {depth : Nat} {s : St} (hs : Schema s.db) (h1 : RefsOk s.db) (h2 : SizesOk cfg.blockSize s.db)
    (h3 : XattrsHaveName s.db) (h4 : XattrsHaveInode s.db) (h5 : SymlinksHaveInode s.db) (h6 : TreeOk s.db depth)
    (h7 : UnixOk s.db) (h8 : s.db.dangling = false) : checkC cfg depth s = some s := by
  unfold checkC
  rw [checkInodesRefcount_clean h1]
  dsimp only [Option.bind_some, bind]
  rw [checkInodesSize_clean hs h2]
  dsimp only [Option.bind_some, bind]
  rw [checkXattrName_clean h3]
  dsimp only [Option.bind_some, bind]
  rw [checkXattrInode_clean h4]
  dsimp only [Option.bind_some, bind]
  rw [checkSymlinks_clean h5, checkLoops_clean h6]
  dsimp only [Option.bind_some, bind]
  rw [checkUnix_clean hs h7]
  dsimp only [Option.bind_some, bind]
  unfold checkForeign
  rw [h8]
  rfl

theorem checkC_quiet {cfg : Cfg} {depth : Nat} {s s' : St} (h : checkC cfg depth s = some s') (hf : s'.found = false) :
    s' = s ∧ (Schema s.db → RefsOk s.db ∧ SizesOk cfg.blockSize s.db ∧ XattrsHaveName s.db ∧ UnixOk s.db) ∧
      XattrsHaveInode s.db ∧ SymlinksHaveInode s.db ∧ TreeOk s.db depth := by
  unfold checkC at h
  obtain ⟨s14, h14, h⟩ := Option.bind_eq_some_iff.1 h
  obtain ⟨s15, h15, h⟩ := Option.bind_eq_some_iff.1 h
  obtain ⟨s16, h16, h⟩ := Option.bind_eq_some_iff.1 h
  obtain ⟨s17, h17, h⟩ := Option.bind_eq_some_iff.1 h
  obtain ⟨s19, h19, h⟩ := Option.bind_eq_some_iff.1 h
  obtain ⟨s20, h20, h21⟩ := Option.bind_eq_some_iff.1 h
  replace h21 := (Option.some.inj h21).symm
  subst h21
  have e21 := checkForeign_quiet hf
  rw [e21] at hf ⊢
  obtain ⟨e20, p20⟩ := checkUnix_quiet h20 hf
  subst e20
  obtain ⟨e19, p19⟩ := checkLoops_quiet h19 hf
  subst e19
  obtain ⟨e18, p18⟩ := checkSymlinks_quiet hf
  rw [e18] at h19 h20 p19 p20 hf ⊢
  obtain ⟨e17, p17⟩ := checkXattrInode_quiet h17 hf
  subst e17
  obtain ⟨e16, p16⟩ := checkXattrName_quiet h16 hf
  subst e16
  obtain ⟨e15, p15⟩ := checkInodesSize_quiet h15 hf
  subst e15
  obtain ⟨e14, p14⟩ := checkInodesRefcount_quiet h14 hf
  subst e14
  exact ⟨rfl, fun hs => ⟨p14 hs, p15 hs, p16 hs, p20 hs⟩, p17, p18, p19⟩

/-- A run on a file system without errors reports none and changes nothing but the cache directory. -/
theorem check_clean {cfg : Cfg} {depth : Nat} {c : CacheArg} {s : St} (hs : Schema s.db) (hl : ListingExact cfg)
    (hc : c ≠ .no → CacheOk cfg s) (h : Clean cfg depth s) : check cfg depth c s = some (cacheAfter c s) := by
  have hdb : (cacheAfter c s).db = s.db := by cases c <;> rfl
  have hb : (cacheAfter c s).backend = s.backend := by cases c <;> rfl
  have ht : (cacheAfter c s).temps = s.temps := by cases c <;> rfl
  unfold check
  rw [checkA_clean hs h.lof hc h.nameRefs h.entriesName h.entriesInode h.entriesParent]
  dsimp only [Option.bind_some, bind]
  rw [checkB_clean hl (by rw [ht]; exact h.temps) (by rw [hdb]; exact h.hashes) (by rw [hdb]; exact h.objRefs)
    (by rw [hdb]; exact h.objUsed) (by intro e he; rw [hdb] at he; rw [hb]; exact h.objStored e he)
    (by rw [hdb, hb]; exact h.noSpurious) (by rw [hdb]; exact h.phys) (by rw [hdb]; exact h.blocksObj) (by rw [hdb]; exact h.blocksInode)]
  dsimp only [Option.bind_some, bind]
  rw [checkC_clean (by rw [hdb]; exact hs)
    (by rw [hdb]; exact fun e he hp => ⟨h.inodeRefs e he hp, h.inodeUsed e he hp⟩) (by rw [hdb]; exact h.sizes)
    (by rw [hdb]; exact h.xattrsName) (by rw [hdb]; exact h.xattrsInode) (by rw [hdb]; exact h.symlinks)
    (by rw [hdb]; exact h.tree) (by rw [hdb]; exact h.unix)
    (by rw [hdb]; exact dangling_of h.blocksInode h.blocksObj h.symlinks h.entriesName h.entriesInode h.entriesParent h.xattrsInode h.xattrsName)]

/-- A run that reports no error was on a file system without errors. -/
theorem check_quiet {cfg : Cfg} {depth : Nat} {c : CacheArg} {s s' : St} (hs : Schema s.db) (hl : ListingExact cfg)
    (hul : s.unlinked = []) (h : check cfg depth c s = some s') (hf : s'.found = false) :
    s' = cacheAfter c s ∧ (c ≠ .no → CacheOk cfg s) ∧ Clean cfg depth s := by
  have hdb : (cacheAfter c s).db = s.db := by cases c <;> rfl
  have hb : (cacheAfter c s).backend = s.backend := by cases c <;> rfl
  have ht : (cacheAfter c s).temps = s.temps := by cases c <;> rfl
  have hu : (cacheAfter c s).unlinked = [] := by cases c <;> exact hul
  unfold check at h
  obtain ⟨s6, h6, h⟩ := Option.bind_eq_some_iff.1 h
  obtain ⟨s13, h13, h20⟩ := Option.bind_eq_some_iff.1 h
  obtain ⟨e20, q1, q2, q3, q4⟩ := checkC_quiet h20 hf
  subst e20
  have f6 := checkB_mono h13 hf
  obtain ⟨e6, a1, a2, a3, a4⟩ := checkA_quiet h6 f6
  subst e6
  obtain ⟨e13, b1, b2, b3, b4, b5, b6, b7, b8, b9⟩ := checkB_quiet hl hu h13 hf
  subst e13
  rw [hdb] at q1 q2 q3 q4 b2 b3 b4 b6 b7 b8 b9
  rw [hb] at b6
  rw [ht] at b1
  obtain ⟨q5, q6, q7, q8⟩ := q1 hs
  obtain ⟨a5, a6, a7⟩ := a4 hs
  have b5' : ObjsStored s := by
    intro e he
    have := b5 e (by rw [hdb]; exact he)
    rw [hb] at this
    exact this
  exact ⟨rfl, a5, a1, a2, a6, a3, a7, b1, b2, b3, b4, b5', b6, b7 hs, b8, b9, fun e he hp => (q5 e he hp).1,
    fun e he hp => (q5 e he hp).2, q6, q7, q2, q3, q4, q8⟩

end Verif.Fsck
