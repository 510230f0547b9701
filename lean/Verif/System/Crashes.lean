import Verif.System.Crash
import Verif.Fsck.Rows
/-
C92: a file system on one computer, whose mount process dies any number of times, each time followed by fsck.s3ql.
-/
namespace Verif.System
open Verif.FileData (at0 at0_ge ext_at0 store_at0)

/-! #### Model -/

/-- What mount reads from the tables that fsck leaves (block_cache.py:437-500, 540-560, inode_cache.py:200-240). -/
def tablesOf (db : Fsck.Db) : Tables :=
  ⟨db.blocks.map (fun e => ((e.2.inode, e.2.blockno), e.2.obj)), db.objects.map (fun e => (e.1, ⟨e.2.refcount.toNat, e.2.hash, decide (e.2.phys ≠ -1)⟩)), db.oseq + 1, db.inodes.map (fun e => (e.1, e.2.size))⟩

/-- The file system as it is mounted after fsck (mount.py:329-420).  fsck has removed the files in the cache directory (fsck.py:321-332, without `--keep-cache`). -/
def restart (bs : Nat) (st : Fsck.St) : Fs := Fs.start bs (tablesOf st.db) (AL.get st.backend) [] []

/-! #### Specification -/

/-- The bytes that may be at offset `x` of file `i`. -/
abbrev May := Nat → Nat → UInt8 → Prop

/-- A successful write or truncation determines the bytes. -/
def May.after (M : May) : Option (Nat × FileData.Op) → May
  | some (i, .write o d) => fun j x v => if j = i ∧ o ≤ x ∧ x < o + d.length then v = at0 d (x - o) else M j x v
  | some (i, .truncate n) => fun j x v => if j = i ∧ n ≤ x then v = 0 else M j x v
  | _ => M

/-- When the mount process dies, no request is changing file `i`, the database has its inode, and nothing that it needs is missing in the storage. -/
def Safe (H : Bytes → Bytes) (s : Fs) (st : Fsck.St) (i : Nat) : Prop := s.changing i = false ∧ Backed H s i ∧ Fsck.HasInode st.db i

/-- A crash changes nothing for such files.  In other files, bytes may become zero, or what a write that was under way has written there. -/
def May.crash (H : Bytes → Bytes) (s : Fs) (st : Fsck.St) (M : May) : May := fun i x v =>
  M i x v ∨ (¬ Safe H s st i ∧ (v = 0 ∨ ∃ t o d k, AL.get s.tasks t = some (.wr i o d k) ∧ o ≤ x ∧ x < o + k ∧ v = at0 d (x - o)))

/-- Histories of a file system on one computer: requests and everything that the block cache does by itself in any order; unmounting and mounting;
and any number of crashes at any point, each followed by a completed run of fsck.s3ql, which sees an exact listing of the storage. -/
inductive Life (H : Bytes → Bytes) (bs : Nat) : Fs → May → Prop
  | new : Life H bs (Fs.start bs noTables (fun _ => none) [] []) (fun _ _ v => v = 0)
  | ev {s s' : Fs} {M : May} {e : FEv} : Life H bs s M → s.step H e = some s' → Life H bs s' (M.after (ended s s' e))
  | remount {s : Fs} {M : May} {keep : Bool} {dir : CacheDir} : Life H bs s M → s.idle keep = true → (dir = s.left keep ∨ dir = []) →
      Life H bs (Fs.start s.bs s.tables s.c.backend s.c.leaked dir) M
  | crash {s : Fs} {M : May} {st st' : Fsck.St} {fc : Fsck.Cfg} {depth : Nat} : Life H bs s M → Image s st → fc.sha = H → fc.blockSize = bs →
      Fsck.ListingExact fc → Fsck.Completed fc depth .yes st st' → Life H bs (restart bs st') (M.crash H s st)

/-- Events on a mounted file system, one after the other. -/
def runs (H : Bytes → Bytes) : Fs → List FEv → Option Fs
  | s, [] => some s
  | s, e :: es => (s.step H e).bind (fun s' => runs H s' es)

/-- Later histories in which no request starts to change file `i`, and all crashes are at moments that are safe for it. -/
inductive Later (H : Bytes → Bytes) (bs i : Nat) : Fs → Fs → Prop
  | refl {s : Fs} : Later H bs i s s
  | ev {s s1 s2 : Fs} {e : FEv} : Later H bs i s s1 → startsChange i (.fs e []) = false → s1.step H e = some s2 → Later H bs i s s2
  | remount {s s1 : Fs} {keep : Bool} {dir : CacheDir} : Later H bs i s s1 → s1.idle keep = true → (dir = s1.left keep ∨ dir = []) →
      Later H bs i s (Fs.start s1.bs s1.tables s1.c.backend s1.c.leaked dir)
  | crash {s s1 : Fs} {st st' : Fsck.St} {fc : Fsck.Cfg} {depth : Nat} : Later H bs i s s1 → Image s1 st → fc.sha = H → fc.blockSize = bs →
      Fsck.ListingExact fc → Fsck.Completed fc depth .yes st st' → Safe H s1 st i → Later H bs i s (restart bs st')

/-! #### Proof -/

section
variable {H : Bytes → Bytes}

theorem get_rows (l : List (Nat × Fsck.BRow)) (i b : Nat) :
    AL.get (l.map (fun e => (((e.2.inode, e.2.blockno) : Cache.Key), e.2.obj))) (i, b) = (l.find? (fun e => e.2.inode == i && e.2.blockno == b)).map (·.2.obj) := by
  induction l with
  | nil => rfl
  | cons e l ih =>
    rw [List.map_cons, List.find?_cons]
    unfold AL.get
    by_cases h : e.2.inode = i ∧ e.2.blockno = b
    · have h1 : (e.2.inode == i && e.2.blockno == b) = true := by simp [h]
      rw [h1, if_pos (by rw [h.1, h.2])]
      rfl
    · have h1 : (e.2.inode == i && e.2.blockno == b) = false := by
        rw [Bool.eq_false_iff]; intro hx; simp only [Bool.and_eq_true, beq_iff_eq] at hx; exact h hx
      rw [h1, if_neg (fun hx => h ⟨(Prod.mk.inj hx).1, (Prod.mk.inj hx).2⟩)]
      exact ih

theorem get_nat_map {β γ : Type} (g : β → γ) : ∀ (l : List (Nat × β)) (k : Nat), AL.get (l.map (fun x => (x.1, g x.2))) k = (AL.get l k).map g
  | [], _ => rfl
  | (a, v) :: l, k => by
    rw [List.map_cons]
    unfold AL.get
    split
    · rfl
    · exact get_nat_map g l k

theorem nk_nat_map {β γ : Type} (g : β → γ) {l : List (Nat × β)} (h : AL.NK l) : AL.NK (l.map (fun x => (x.1, g x.2))) := by
  unfold AL.NK at *
  rw [List.map_map]
  exact h

theorem nk_rows : ∀ {l : List (Nat × Fsck.BRow)}, AL.NK l → (∀ e ∈ l, ∀ f ∈ l, e.2.inode = f.2.inode → e.2.blockno = f.2.blockno → e = f) →
    AL.NK (l.map (fun e => (((e.2.inode, e.2.blockno) : Cache.Key), e.2.obj)))
  | [], _, _ => by simp [AL.NK]
  | e :: l, hn, hu => by
    unfold AL.NK at hn ⊢
    rw [List.map_cons, List.nodup_cons] at hn
    rw [List.map_cons, List.map_cons, List.nodup_cons]
    refine ⟨?_, nk_rows hn.2 (fun a ha b hb => hu a (List.mem_cons_of_mem _ ha) b (List.mem_cons_of_mem _ hb))⟩
    intro hm
    rw [List.map_map] at hm
    obtain ⟨f, hf, hfe⟩ := List.mem_map.1 hm
    have h1 : f.2.inode = e.2.inode := (Prod.mk.inj hfe).1
    have h2 : f.2.blockno = e.2.blockno := (Prod.mk.inj hfe).2
    have := hu f (List.mem_cons_of_mem _ hf) e List.mem_cons_self h1 h2
    exact hn.1 (by rw [← this]; exact List.mem_map_of_mem hf)

theorem cnt_rows (l : List (Nat × Fsck.BRow)) (o : Nat) :
    Cache.cnt (l.map (fun e => (((e.2.inode, e.2.blockno) : Cache.Key), e.2.obj))) o = (l.countP (fun e => e.2.obj = o) : Nat) := by
  unfold Cache.cnt
  induction l with
  | nil => rfl
  | cons e l ih =>
    rw [List.map_cons, List.countP_cons]
    unfold AL.sumBy
    rw [ih]
    by_cases h : e.2.obj = o <;> simp [h] <;> omega

/-- After a crash and fsck, the invariant holds again. -/
theorem crash_inv {s : Fs} {st st' : Fsck.St} {fc : Fsck.Cfg} {A : Nat → Bytes} {mem : Cache.Key → Bytes} {D : Nat → Bytes}
    (hH : Function.Injective H) (hi : FInv H s A mem D) (hm : Image s st) (hsha : fc.sha = H) (hbs : fc.blockSize = s.bs) (hl : Fsck.ListingExact fc)
    {depth : Nat} (hck : Fsck.Completed fc depth .yes st st') :
    FInv H (restart s.bs st') (fun i => (fileOf s.bs st' i).getD []) (fun k => Fsck.blockData st' k.1 k.2) (fun o => (AL.get st'.backend o).getD []) ∧
      ∀ i b, Fsck.blockData st' i b = mem (i, b) ∨ Fsck.blockData st' i b = [] := by
  have hc := hi.cache
  have hinj : Function.Injective fc.sha := by rw [hsha]; exact hH
  have hash0 : Fsck.HashOk fc st := by
    intro k o d h hk hd hh
    obtain ⟨ob, h1, h2⟩ := hm.hash hk
    rw [hm.backend] at hd
    rw [hsha, (hc.backD _ _ hd).1]
    exact hc.objHash _ _ _ h1 (h2.trans hh)
  have rows0 : Fsck.BlocksHaveObj st.db := by
    intro e he
    obtain ⟨ob, h1⟩ := hc.rowObj _ _ ((hm.rows e.2.inode e.2.blockno e.2.obj).2 ⟨e, he, rfl, rfl, rfl⟩)
    obtain ⟨o, h2, _⟩ := hm.obj h1
    exact ⟨o, h2⟩
  obtain ⟨q1, q2, q3, q4, q5⟩ := Fsck.rows_after (m := fun i n => mem (i, n)) hm.schema hinj hck (fun h => by cases h) hash0 rows0
    (fun i n d hd => by
      obtain ⟨e, he, hed⟩ := Option.map_eq_some_iff.1 ((hm.files i n d).1 hd)
      rw [← hed]; exact hc.cont _ _ he)
    (fun e he hp d hd => by
      have hr := (hm.rows e.2.inode e.2.blockno e.2.obj).2 ⟨e, he, rfl, rfl, rfl⟩
      have hcn : AL.get s.c.cache (e.2.inode, e.2.blockno) = none := by
        cases hx : AL.get s.c.cache (e.2.inode, e.2.blockno) with
        | none => rfl
        | some y => exact absurd ((hm.files _ _ y.content).2 (by rw [hx]; rfl)) (hp _)
      have habs := hc.absent _ hcn
      rw [hr] at habs
      have habs : D e.2.obj = mem (e.2.inode, e.2.blockno) := habs
      rw [hm.backend] at hd
      rw [(hc.backD _ _ hd).1]; exact habs)
  obtain ⟨good, _, hstored, _⟩ := Fsck.check_good hm.schema hck.1
  have hstored := hstored hl.sound
  have hlen := q3 hm.lens
  have hs' := good.schema
  have stored : ∀ k o, (k, o) ∈ st'.db.objects → AL.get st'.backend k = some ((AL.get st'.backend k).getD []) := by
    intro k o hk
    obtain ⟨d, hd⟩ := hstored (k, o) hk
    have := Fsck.isSome_iff_mem.2 ⟨d, hd⟩
    cases hx : AL.get st'.backend k with
    | none => rw [hx] at this; cases this
    | some y => rfl
  have hobj : ∀ k ob, AL.get (tablesOf st'.db).objs k = some ob → ∃ o, (k, o) ∈ st'.db.objects ∧ ob = ⟨o.refcount.toNat, o.hash, decide (o.phys ≠ -1)⟩ := by
    intro k ob h
    unfold tablesOf at h
    dsimp only at h
    rw [get_nat_map (fun o : Fsck.Obj => (⟨o.refcount.toNat, o.hash, decide (o.phys ≠ -1)⟩ : Cache.Obj))] at h
    obtain ⟨o, h1, h2⟩ := Option.map_eq_some_iff.1 h
    exact ⟨o, AL.get_some_mem h1, h2.symm⟩
  have hrow : ∀ k, Cache.rowData (fun o => (AL.get st'.backend o).getD []) (AL.get (tablesOf st'.db).rows k) = Fsck.blockData st' k.1 k.2 := by
    intro ⟨i, b⟩
    unfold tablesOf
    dsimp only
    rw [get_rows]
    unfold Fsck.blockData
    cases st'.db.blocks.find? (fun e => e.2.inode == i && e.2.blockno == b) <;> rfl
  have ext : ∀ i b, Fsck.blockData st' i b ≠ [] → ∃ z, AL.get st'.db.inodes i = some z ∧ b * s.bs + (Fsck.blockData st' i b).length ≤ z.size := by
    intro i b hne
    unfold Fsck.blockData at hne ⊢
    cases hf : st'.db.blocks.find? (fun e => e.2.inode == i && e.2.blockno == b) with
    | none => rw [hf] at hne; exact absurd rfl hne
    | some e =>
      rw [hf] at hne
      dsimp only at hne ⊢
      have he := List.mem_of_find?_eq_some hf
      have hp := List.find?_some hf
      simp only [Bool.and_eq_true, beq_iff_eq] at hp
      obtain ⟨z, hz⟩ := good.blocksInode e he
      obtain ⟨o, ho⟩ := good.blocksObj e he
      have h1 := q4 (e.2.inode, z) hz e he rfl o ho
      rw [hlen _ o _ ho (stored _ o ho), hbs] at h1
      refine ⟨z, by rw [← hp.1]; exact AL.mem_get_some hs'.inodes hz, ?_⟩
      rw [← hp.2]; exact h1
  have hsize : ∀ i, (restart s.bs st').size i = ((AL.get st'.db.inodes i).map (·.size)).getD 0 := by
    intro i
    show (AL.get (tablesOf st'.db).sizes i).getD 0 = _
    unfold tablesOf
    dsimp only
    rw [get_nat_map (fun z : Fs.Inode => z.size)]
  refine ⟨⟨hi.bs, ?_, by simp [restart, Fs.start, AL.NK], fun _ _ _ _ _ h1 => by simp [restart, Fs.start, AL.get] at h1, ?_,
    fun _ _ _ h1 => by simp [restart, Fs.start, AL.get] at h1, ?_, ?_, fun _ _ _ h1 => by simp [restart, Fs.start, AL.get] at h1⟩, q2⟩
  · constructor
    case nkr => exact nk_rows hs'.blocks hs'.blockUnique
    case nko => exact nk_nat_map (fun o : Fsck.Obj => (⟨o.refcount.toNat, o.hash, decide (o.phys ≠ -1)⟩ : Cache.Obj)) hs'.objects
    case rowObj =>
      intro ⟨i, b⟩ o h
      have h : AL.get (tablesOf st'.db).rows (i, b) = some o := h
      unfold tablesOf at h
      dsimp only at h
      rw [get_rows] at h
      obtain ⟨e, h1, h2⟩ := Option.map_eq_some_iff.1 h
      obtain ⟨x, hx⟩ := good.blocksObj e (List.mem_of_find?_eq_some h1)
      refine ⟨⟨x.refcount.toNat, x.hash, decide (x.phys ≠ -1)⟩, ?_⟩
      show AL.get (tablesOf st'.db).objs o = _
      unfold tablesOf
      dsimp only
      rw [get_nat_map (fun o : Fsck.Obj => (⟨o.refcount.toNat, o.hash, decide (o.phys ≠ -1)⟩ : Cache.Obj)), ← h2, AL.mem_get_some hs'.objects hx]
      rfl
    case objId =>
      intro o ob h
      obtain ⟨x, hx, _⟩ := hobj o ob h
      have := hs'.oseq _ hx
      show o < st'.db.oseq + 1
      dsimp only at this
      omega
    case objHash =>
      intro o ob h h1 h2
      obtain ⟨x, hx, rfl⟩ := hobj o ob h1
      rw [← hsha]
      exact q1 o x _ h hx (stored o x hx) h2
    case backD =>
      intro o d h
      have h : AL.get st'.backend o = some d := h
      refine ⟨by rw [h]; rfl, ?_⟩
      obtain ⟨x, hx⟩ := q5 hl o d h
      have := hs'.oseq _ hx
      show o < st'.db.oseq + 1
      dsimp only at this
      omega
    case upl =>
      intro o ob h _
      obtain ⟨x, hx, _⟩ := hobj o ob h
      exact stored o x hx
    case refc =>
      intro o ob h
      obtain ⟨x, hx, rfl⟩ := hobj o ob h
      have h1 := good.objRefs _ hx
      have h2 : Cache.cnt (restart s.bs st').c.rows o = (Fsck.usesOfObj st'.db o : Nat) := cnt_rows st'.db.blocks o
      rw [h2]
      dsimp only at h1 ⊢
      rw [h1]
      simp [restart, Fs.start, Cache.cnt, AL.sumBy]
    case absent => exact fun k _ => hrow k
    case uniq =>
      intro o o' ob ob' h h1 h2 h3 h4
      obtain ⟨x, hx, rfl⟩ := hobj o ob h1
      obtain ⟨y, hy, rfl⟩ := hobj o' ob' h2
      have h3 : x.hash = some h := h3
      have h4 : y.hash = some h := h4
      have := hs'.hashUnique _ hx _ hy (by dsimp only; rw [h3]; exact Option.some_ne_none _) (by dsimp only; rw [h3, h4])
      exact congrArg Prod.fst this
    all_goals simp [restart, Fs.start, AL.NK, AL.get, Cache.upObj, Cache.isUser, AL.sumBy]
  · intro i _
    rw [hsize]
    unfold fileOf
    cases hg : AL.get st'.db.inodes i with
    | none =>
      refine ⟨rfl, fun x => ?_⟩
      show at0 (Fsck.blockData st' i (x / s.bs)) (x % s.bs) = at0 [] x
      by_cases he : Fsck.blockData st' i (x / s.bs) = []
      · rw [he]; rfl
      · obtain ⟨z, hz, _⟩ := ext i _ he
        rw [hg] at hz; cases hz
    | some z =>
      refine ⟨by simp, fun x => ?_⟩
      show at0 (Fsck.blockData st' i (x / s.bs)) (x % s.bs) = at0 ((List.range z.size).map _) x
      rw [at0_range]
      split
      · rfl
      · rename_i hx
        apply at0_ge
        by_cases he : Fsck.blockData st' i (x / s.bs) = []
        · rw [he]; exact Nat.zero_le _
        · obtain ⟨z', hz', h1⟩ := ext i _ he
          rw [hg] at hz'; cases hz'
          have hdm := Nat.div_add_mod x s.bs
          rw [Nat.mul_comm] at hdm
          omega
  · intro ⟨i, b⟩
    show (Fsck.blockData st' i b).length ≤ s.bs
    rcases q2 i b with h | h
    · rw [h]; exact hi.small _
    · rw [h]; exact Nat.zero_le _
  · intro i _ b hb
    obtain ⟨z, hz, h1⟩ := ext i b hb
    rw [hsize, hz]
    exact h1

theorem step_bs {s s' : Fs} {e : FEv} (hs : s.step H e = some s') : s'.bs = s.bs := by
  cases e with
  | cache ev =>
    unfold Fs.step at hs
    dsimp only at hs
    split at hs
    · split at hs
      · cases hs; rfl
      · cases hs
    · cases hs
  | startRead t i o n =>
    unfold Fs.step at hs
    dsimp only at hs
    split at hs
    · cases hs
    · cases hs; rfl
  | startWrite t i o d =>
    unfold Fs.step at hs
    dsimp only at hs
    split at hs
    · cases hs
    · cases hs; rfl
  | startTrunc t i len =>
    unfold Fs.step at hs
    dsimp only at hs
    split at hs
    · cases hs
    · cases hs; rfl
  | fail t =>
    unfold Fs.step at hs
    dsimp only at hs
    split at hs
    · cases hs; rfl
    · cases hs
  | go t =>
    unfold Fs.step goTask at hs
    dsimp only at hs
    split at hs
    · split at hs
      · cases hs; rfl
      · split at hs
        · cases hs; rfl
        · cases hs
    · split at hs
      · cases hs; rfl
      · split at hs
        · cases hs; rfl
        · cases hs
    · split at hs
      · split at hs
        · cases hs; rfl
        · cases hs; rfl
      · split at hs
        · cases hs; rfl
        · cases hs
    · split at hs
      · cases hs; rfl
      · cases hs
    · cases hs

theorem may_apply {M : May} {A : Nat → Bytes} (h : ∀ i x, M i x (at0 (A i) x)) (op : Option (Nat × FileData.Op)) (i x : Nat) : M.after op i x (at0 (apply A op i) x) := by
  unfold May.after apply
  split
  · rename_i j o d
    dsimp only
    by_cases hj : i = j
    · subst hj
      rw [if_pos rfl]
      show if _ then _ = _ else _
      have : at0 (FileData.Spec.step (A i) (.write o d)).1 x = if o ≤ x ∧ x < o + d.length then at0 d (x - o) else at0 (A i) x := store_at0 _ _ _ _
      rw [this]
      by_cases hx : o ≤ x ∧ x < o + d.length
      · rw [if_pos ⟨rfl, hx⟩, if_pos hx]
      · rw [if_neg (fun g => hx g.2), if_neg hx]
        exact h i x
    · rw [if_neg hj, if_neg (fun g => hj g.1)]
      exact h i x
  · rename_i j n
    dsimp only
    by_cases hj : i = j
    · subst hj
      rw [if_pos rfl]
      have : at0 (FileData.Spec.step (A i) (.truncate n)).1 x = if x < n then at0 (A i) x else 0 := resize_at0 _ _ _
      rw [this]
      by_cases hx : n ≤ x
      · rw [if_pos ⟨rfl, hx⟩, if_neg (by omega)]
      · rw [if_neg (fun g => hx g.2), if_pos (by omega)]
        exact h i x
    · rw [if_neg hj, if_neg (fun g => hj g.1)]
      exact h i x
  · rename_i h1 h2
    split
    · rename_i j op
      cases op with
      | read o n =>
        split
        · rename_i hj; subst hj; exact h _ x
        · exact h i x
      | write o d => exact absurd rfl (h1 j o d)
      | truncate n => exact absurd rfl (h2 j n)
    · exact h i x

/-- What the blocks of a file have while a request may be changing it. -/
theorem busy_byte {s : Fs} {A : Nat → Bytes} {mem : Cache.Key → Bytes} {D : Nat → Bytes} (hi : FInv H s A mem D) (i x : Nat) :
    byte s.bs mem i x = at0 (A i) x ∨ byte s.bs mem i x = 0 ∨
      ∃ t o d k, AL.get s.tasks t = some (.wr i o d k) ∧ o ≤ x ∧ x < o + k ∧ byte s.bs mem i x = at0 d (x - o) := by
  by_cases hc : ∃ t y, AL.get s.tasks t = some y ∧ y.changes i = true
  · obtain ⟨t, y, h1, h2⟩ := hc
    have hr := hi.rel t y i h1 h2
    cases y with
    | wr j o d k =>
      have hj : j = i := of_decide_eq_true h2
      subst hj
      obtain ⟨_, _, h3⟩ := hr
      have h3 := h3 x
      by_cases hx : o ≤ x ∧ x < o + k
      · rw [if_pos hx] at h3
        exact Or.inr (Or.inr ⟨t, o, d, k, h1, hx.1, hx.2, h3⟩)
      · rw [if_neg hx] at h3; exact Or.inl h3
    | tr j len b e =>
      obtain ⟨_, _, _, h3⟩ := hr
      have h3 := h3 x
      split at h3
      · exact Or.inr (Or.inl h3)
      · exact Or.inl h3
    | cut j len =>
      obtain ⟨_, _, h3⟩ := hr
      have h3 := h3 x
      split at h3
      · exact Or.inl h3
      · exact Or.inr (Or.inl h3)
    | rd => cases h2
    | rdOk => cases h2
    | rdErr => cases h2
    | wrOk => cases h2
    | trOk => cases h2
  · refine Or.inl ((hi.rest i (fun t y hy => ?_)).2 x)
    cases hx : y.changes i with
    | false => rfl
    | true => exact absurd ⟨t, y, hy, hx⟩ hc

/-- The invariant of all histories. -/
theorem Life.inv (hH : Function.Injective H) {bs : Nat} (hb : 0 < bs) {s : Fs} {M : May} (h : Life H bs s M) :
    ∃ A mem D, FInv H s A mem D ∧ s.bs = bs ∧ ∀ i x, M i x (at0 (A i) x) := by
  induction h with
  | new =>
    refine ⟨fun _ => [], fun _ => [], fun _ => [], ?_, rfl, fun i x => rfl⟩
    exact ⟨hb, Cache.inv_init H, by simp [Fs.start, AL.NK], fun _ _ _ _ _ h1 => by simp [Fs.start, AL.get] at h1, fun i _ => ⟨rfl, fun x => by unfold byte; rfl⟩,
      fun _ _ _ h1 => by simp [Fs.start, AL.get] at h1, fun _ => Nat.zero_le _, fun _ _ _ h1 => absurd rfl h1, fun _ _ _ h1 => by simp [Fs.start, AL.get] at h1⟩
  | @ev s s' M e _ hs ih =>
    obtain ⟨A, mem, D, h1, h2, h3⟩ := ih
    obtain ⟨mem', D', h4⟩ := h1.step hH hs
    exact ⟨_, mem', D', h4, (step_bs hs).trans h2, fun i x => may_apply h3 _ i x⟩
  | @remount s M keep dir _ hid hd ih =>
    obtain ⟨A, mem, D, h1, h2, h3⟩ := ih
    refine ⟨A, mem, D, h1.start hid ?_, h2, h3⟩
    rcases hd with rfl | rfl
    · exact valid_left h1.cache
    · exact ⟨by simp [AL.NK], fun k b hk => by cases hk⟩
  | @crash s M st st' fc depth _ hm hsha hbs hl hck ih =>
    obtain ⟨A, mem, D, h1, h2, h3⟩ := ih
    subst h2
    obtain ⟨h4, h5⟩ := crash_inv hH h1 hm hsha hbs hl hck
    refine ⟨_, _, _, h4, rfl, fun i x => ?_⟩
    by_cases hsafe : Safe H s st i
    · obtain ⟨c1, c2, z, hz⟩ := hsafe
      obtain ⟨data, d1, _, d3, _⟩ := crash_file hH h1 hm hsha hbs c2 c1 hz (fun h => by cases h) hck
      left
      rw [d1]
      show M i x (at0 data x)
      rw [d3 x]; exact h3 i x
    · have h0 := (h4.rest i (fun t y hy => by simp [restart, Fs.start, AL.get] at hy)).2 x
      rw [← h0]
      have hz : byte (restart s.bs st').bs (fun k => Fsck.blockData st' k.1 k.2) i x = byte s.bs mem i x ∨ byte (restart s.bs st').bs (fun k => Fsck.blockData st' k.1 k.2) i x = 0 := by
        show at0 (Fsck.blockData st' i (x / s.bs)) (x % s.bs) = _ ∨ at0 (Fsck.blockData st' i (x / s.bs)) (x % s.bs) = _
        rcases h5 i (x / s.bs) with h | h
        · left; rw [h]; rfl
        · right; rw [h]; rfl
      rcases hz with hz | hz
      · rw [hz]
        rcases busy_byte h1 i x with h | h | ⟨t, o, d, k, g1, g2, g3, g4⟩
        · left; rw [h]; exact h3 i x
        · exact Or.inr ⟨hsafe, Or.inl h⟩
        · exact Or.inr ⟨hsafe, Or.inr ⟨t, o, d, k, g1, g2, g3, g4⟩⟩
      · exact Or.inr ⟨hsafe, Or.inl hz⟩

/-- Only a request that was changing a file can end a change of it. -/
theorem ended_changing {s s' : Fs} {e : FEv} {j : Nat} {op : FileData.Op} (hs : s.step H e = some s') (h : ended s s' e = some (j, op)) : s.changing j = true := by
  have key : ∀ t x, AL.get s.tasks t = some x → x.changes j = true → s.changing j = true := by
    intro t x h1 h2
    unfold Fs.changing
    rw [List.any_eq_true]
    exact ⟨(t, x), AL.get_some_mem h1, h2⟩
  cases e with
  | cache => cases h
  | startRead => cases h
  | startWrite => cases h
  | startTrunc => cases h
  | fail => cases h
  | go t =>
    have fin : ∀ x0 y0, AL.get s.tasks t = some y0 → y0.running = true → s'.tasks = AL.set s.tasks t x0 → endOp x0 = some (j, op) := by
      intro x0 y0 hy hr he
      rw [← ended_go (s := s) (s' := s') (by unfold Fs.busy; rw [hy]; exact hr) (by rw [he, AL.get_set_self])]
      exact h
    unfold Fs.step goTask at hs
    dsimp only at hs
    split at hs
    · rename_i ht
      split at hs
      · cases hs; cases fin _ _ ht rfl rfl
      · split at hs
        · cases hs; cases fin _ _ ht rfl rfl
        · cases hs
    · rename_i ht
      split at hs
      · cases hs; cases fin _ _ ht rfl rfl; exact key t _ ht (decide_eq_true rfl)
      · split at hs
        · cases hs; cases fin _ _ ht rfl rfl
        · cases hs
    · rename_i ht
      split at hs
      · split at hs
        · cases hs; cases fin _ _ ht rfl rfl; exact key t _ ht (decide_eq_true rfl)
        · cases hs; cases fin _ _ ht rfl rfl
      · split at hs
        · cases hs; cases fin _ _ ht rfl rfl
        · cases hs
    · rename_i ht
      split at hs
      · cases hs; cases fin _ _ ht rfl rfl; exact key t _ ht (decide_eq_true rfl)
      · cases hs
    · cases hs

theorem runs_life {bs : Nat} : ∀ {es : List FEv} {s s' : Fs} {M : May}, Life H bs s M → runs H s es = some s' → ∃ M', Life H bs s' M'
  | [], _, _, M, h, hr => by cases hr; exact ⟨M, h⟩
  | e :: es, s, s', M, h, hr => by
    obtain ⟨s1, h1, h2⟩ := Option.bind_eq_some_iff.1 hr
    exact runs_life (h.ev h1) h2

theorem runs_quiet (hH : Function.Injective H) {i t : Nat} {a : Bytes} : ∀ {es : List FEv} {s s' : Fs} {A : Nat → Bytes} {mem : Cache.Key → Bytes} {D : Nat → Bytes}, FInv H s A mem D →
    (∀ e ∈ es, startsChange i (.fs e []) = false) → runs H s es = some s' → s.changing i = false → A i = a → (∀ x, AL.get s.tasks t = some x → Good i a x) →
    ∀ x, AL.get s'.tasks t = some x → Good i a x
  | [], _, _, _, _, _, _, _, hr, _, _, hg => by cases hr; exact hg
  | e :: es, s, s', A, mem, D, h, hq, hr, hc, ha, hg => by
    obtain ⟨s1, h1, h2⟩ := Option.bind_eq_some_iff.1 hr
    obtain ⟨m1, D1, h3⟩ := h.step hH h1
    subst ha
    obtain ⟨q1, q2, q3⟩ := fs_quiet (t := t) h h1 hc (hq e List.mem_cons_self) hg
    exact runs_quiet hH h3 (fun e he => hq e (List.mem_cons_of_mem _ he)) h2 (unchanging h3.nk q1) q2 q3

/-! #### Theorems -/

/-- C92: at any time in such a history, a read of a file that no request is changing gives, at every offset, one of the bytes that may be there: the one that was written there
last, or, if the mount process died at a bad moment since then, perhaps zero or a byte of a write that was under way.  No file ever shows anything else. -/
theorem C92_read (hH : Function.Injective H) {bs : Nat} (hb : 0 < bs) {s s' : Fs} {M : May} (h : Life H bs s M) {i t o n : Nat} (hc : s.changing i = false)
    (ht : AL.get s.tasks t = none) {es : List FEv} (hq : ∀ e ∈ es, startsChange i (.fs e []) = false) (hr : runs H s es = some s') {res : Bytes}
    (hres : AL.get s'.tasks t = some (.rdOk i o n res)) :
    res.length = min (s.size i - o) n ∧ ∀ y, y < res.length → M i (o + y) (at0 res y) := by
  obtain ⟨A, mem, D, h1, h2, h3⟩ := h.inv hH hb
  have hg := runs_quiet (t := t) hH h1 hq hr hc rfl (fun x hx => by rw [ht] at hx; cases hx) _ hres
  have hg : res = ((A i).drop o).take n := hg rfl
  have hsz := (h1.rest i (changing_false hc)).1
  subst hg
  refine ⟨by rw [List.length_take, List.length_drop, hsz]; omega, fun y hy => ?_⟩
  rw [List.length_take] at hy
  rw [FileData.at0_take, if_pos (by omega), FileData.at0_drop]
  exact h3 i (o + y)

/-- C92: a file is not shorter than its last byte that cannot be zero. -/
theorem C92_length (hH : Function.Injective H) {bs : Nat} (hb : 0 < bs) {s : Fs} {M : May} (h : Life H bs s M) {i x : Nat} (hc : s.changing i = false)
    (hx : ¬ M i x 0) : x < s.size i := by
  obtain ⟨A, mem, D, h1, h2, h3⟩ := h.inv hH hb
  rw [(h1.rest i (changing_false hc)).1]
  apply Nat.lt_of_not_le
  intro hle
  have := h3 i x
  rw [at0_ge _ _ hle] at this
  exact hx this

/-- C92: whatever is known about the bytes of a file when no request is changing it is known as long as no request changes it,
after any number of mounts and crashes, if the crashes are at moments that are safe for the file. -/
theorem C92_kept (hH : Function.Injective H) {bs : Nat} (hb : 0 < bs) {s s' : Fs} {M : May} (h : Life H bs s M) {i : Nat} (hc : s.changing i = false) (hl : Later H bs i s s') :
    ∃ M', Life H bs s' M' ∧ s'.changing i = false ∧ ∀ x v, M' i x v ↔ M i x v := by
  induction hl with
  | refl => exact ⟨M, h, hc, fun _ _ => Iff.rfl⟩
  | @ev s1 s2 e _ hq hs ih =>
    obtain ⟨M1, g1, g2, g3⟩ := ih
    obtain ⟨A, mem, D, i1, _, _⟩ := g1.inv hH hb
    obtain ⟨mem', D', i2⟩ := i1.step hH hs
    have hfree : AL.get s1.tasks (Fsck.maxKey s1.tasks + 1) = none := by
      cases hx : AL.get s1.tasks (Fsck.maxKey s1.tasks + 1) with
      | none => rfl
      | some y =>
        have := Fsck.le_maxKey (AL.get_some_mem hx)
        dsimp only at this
        omega
    obtain ⟨q1, _, _⟩ := fs_quiet (t := Fsck.maxKey s1.tasks + 1) i1 hs g2 hq (fun x hx => by rw [hfree] at hx; cases hx)
    refine ⟨_, g1.ev hs, unchanging i2.nk q1, fun x v => Iff.trans ?_ (g3 x v)⟩
    cases ho : ended s1 s2 e with
    | none => exact Iff.rfl
    | some p =>
      obtain ⟨j, op⟩ := p
      have hj : j ≠ i := by
        intro e'
        have := ended_changing hs ho
        rw [e', g2] at this; cases this
      cases op with
      | read o n => exact Iff.rfl
      | write o d =>
        show (if _ then _ else _) ↔ _
        rw [if_neg (fun g => hj g.1.symm)]
      | truncate n =>
        show (if _ then _ else _) ↔ _
        rw [if_neg (fun g => hj g.1.symm)]
  | @remount s1 keep dir _ hid hd ih =>
    obtain ⟨M1, g1, g2, g3⟩ := ih
    exact ⟨M1, g1.remount hid hd, rfl, g3⟩
  | @crash s1 st st' fc depth _ hm hsha hbs hx hck hsafe ih =>
    obtain ⟨M1, g1, g2, g3⟩ := ih
    exact ⟨_, g1.crash hm hsha hbs hx hck, rfl, fun x v => ⟨fun y => (g3 x v).1 (y.elim id (fun g => absurd hsafe g.1)), fun y => Or.inl ((g3 x v).2 y)⟩⟩

/-! #### A history that meets the hypotheses -/

/-- Two blocks are written; one is uploaded and evicted, the other is only in the cache. -/
def lifeEvs : List FEv := [.startWrite 0 5 1 [7, 8, 9], .cache (.getNew (5, 0)), .go 0, .cache (.unlock (5, 0)), .cache (.getNew (5, 1)), .go 0, .cache (.unlock (5, 1)), .go 0,
  .cache (.upStart (5, 0)), .cache (.register (5, 0)), .cache (.send (5, 0)), .cache (.store (5, 0)), .cache (.upOk (5, 0)), .cache (.evict (5, 0))]

/-- The whole file is read. -/
def lifeRead : List FEv := [.startRead 1 5 0 10, .cache (.getMiss (5, 0)), .cache (.download (5, 0)), .go 1, .cache (.unlock (5, 0)), .cache (.getMiss (5, 1)), .cache (.download (5, 1)), .go 1,
  .cache (.unlock (5, 1)), .go 1]

def life0 : Fs := Fs.start 2 noTables (fun _ => none) [] []

def lifeEnd : Fs := (runs id life0 lifeEvs).getD life0

theorem lifeEnd_eq : runs id life0 lifeEvs = some lifeEnd := by
  have h : (runs id life0 lifeEvs).isSome = true := by decide +kernel
  unfold lifeEnd
  cases hx : runs id life0 lifeEvs with
  | none => rw [hx] at h; cases h
  | some s => rfl

theorem lifeEnd_life : ∃ M, Life id 2 lifeEnd M := runs_life Life.new lifeEnd_eq

set_option maxRecDepth 100000

theorem lifeEnd_image : Image lifeEnd (crashSt 0) := by
  obtain ⟨M, hM⟩ := lifeEnd_life
  obtain ⟨A, mem, D, hi, _, _⟩ := hM.inv inj_id (by decide)
  have h1 : lifeEnd.c.rows = [((5, 0), 1)] := by decide +kernel
  have h2 : lifeEnd.c.objs = [(1, ⟨1, some [0, 7], true⟩)] := by decide +kernel
  have h3 : lifeEnd.c.cache = [((5, 1), ⟨[8, 9], true, false⟩)] := by decide +kernel
  have h4 : lifeEnd.c.nextId = 2 := by decide +kernel
  have h5 : lifeEnd.c.backend 0 = none := by decide +kernel
  have h6 : lifeEnd.c.backend 1 = some [0, 7] := by decide +kernel
  refine ⟨fun i b o => by rw [h1]; exact crashRows, ?_, ?_, ?_, ?_, ?_, Fsck.schema_of (by decide +kernel)⟩
  · intro k
    rw [h2]
    show (AL.get [((1, ⟨1, some [0, 7], 2, -1⟩) : Nat × Fsck.Obj)] k).map _ = _
    grind [AL.get]
  · intro k o d ho hd
    have ho : (k, o) ∈ [((1, ⟨1, some [0, 7], 2, -1⟩) : Nat × Fsck.Obj)] := ho
    have hd : AL.get [(1, [0, 7])] k = some d := hd
    grind [AL.get]
  · intro k
    show AL.get [(1, [0, 7])] k = _
    match k with
    | 0 => rw [h5]; rfl
    | 1 => rw [h6]; rfl
    | n + 2 =>
      cases hx : lifeEnd.c.backend (n + 2) with
      | none => rfl
      | some d =>
        have := (hi.cache.backD _ _ hx).2
        omega
  · intro i b d
    rw [h3]
    show _ ∈ [Fsck.CFile.tmp, Fsck.CFile.blk 5 1 [8, 9]] ↔ _
    grind [AL.get]
  · unfold Fsck.CacheNames crashSt
    simp

theorem lifeEnd_safe : Safe id lifeEnd (crashSt 0) 5 := by
  have h1 : lifeEnd.c.rows = [((5, 0), 1)] := by decide +kernel
  have h2 : lifeEnd.c.objs = [(1, ⟨1, some [0, 7], true⟩)] := by decide +kernel
  have h6 : lifeEnd.c.backend 1 = some [0, 7] := by decide +kernel
  have key : ∀ o ob, AL.get lifeEnd.c.objs o = some ob → lifeEnd.c.backend o ≠ none ∧ ob.hash ≠ none := by
    intro o ob ho
    rw [h2] at ho
    have : o = 1 ∧ ob = ⟨1, some [0, 7], true⟩ := by grind [AL.get]
    rw [this.1, this.2, h6]
    exact ⟨Option.some_ne_none _, Option.some_ne_none _⟩
  refine ⟨by decide +kernel, fun b => ⟨fun o ob _ _ ho => key o ob ho, fun e _ o ob ho _ => (key o ob ho).1⟩, Fsck.fileI 1 0, by decide +kernel⟩

/-- The mount process dies, fsck is run (the database has the old size 0), and everything that was written is read. -/
example : ∃ st', Fsck.Completed crashFc 20 .yes (crashSt 0) st' ∧ (∃ M, Life id 2 (restart 2 st') M) ∧ Later id 2 5 lifeEnd (restart 2 st') ∧ (restart 2 st').changing 5 = false ∧
    (∀ e ∈ lifeRead, startsChange 5 (.fs e []) = false) ∧ AL.get (restart 2 st').tasks 1 = none ∧
    (runs id (restart 2 st') lifeRead).map (fun s => AL.get s.tasks 1) = some (some (.rdOk 5 0 10 [0, 7, 8, 9])) := by
  have hck : Fsck.Completed crashFc 20 .yes (crashSt 0) ((Fsck.check crashFc 20 .yes (crashSt 0)).getD (crashSt 0)) := by
    have : Fsck.check crashFc 20 .yes (crashSt 0) = some ((Fsck.check crashFc 20 .yes (crashSt 0)).getD (crashSt 0)) ∧ ((Fsck.check crashFc 20 .yes (crashSt 0)).getD (crashSt 0)).uncorr = false := by decide +kernel
    exact this
  have hl : Fsck.ListingExact crashFc := Fsck.cfg0_listing
  obtain ⟨M, hM⟩ := lifeEnd_life
  exact ⟨_, hck, ⟨_, hM.crash lifeEnd_image rfl rfl hl hck⟩, Later.refl.crash lifeEnd_image rfl rfl hl hck lifeEnd_safe, rfl, by decide, rfl, by decide +kernel⟩

end
end Verif.System
