/-
Every iteration of the loop of `copy_tree` keeps its invariant.
-/
import Verif.Fs.TreeCp

namespace Verif.Fs

theorem Cp.nkC {L : Nat → Int} {s : St} {src tmp : Nat} {c : St} {W : List (Nat × Nat × Nat)} {cache M : List (Nat × Nat)}
    (h : Cp L s src tmp c W cache M) : AL.NK c.db.contents := by
  have := h.acc.nkC; rw [tdb_eq] at this; exact this

/-- Values of `M` are not old. -/
theorem Cp.mGe {L : Nat → Int} {s : St} {src tmp : Nat} {c : St} {W : List (Nat × Nat × Nat)} {cache M : List (Nat × Nat)}
    (h : Cp L s src tmp c W cache M) {i i' : Nat} (hi : AL.get M i = some i') : tmp ≤ i' ∧ i' ≤ c.db.seq := by
  by_cases hs : i = src
  · subst hs; rw [h.mSrc] at hi; cases hi; exact ⟨Nat.le_refl _, h.seq⟩
  · have := h.mNew _ _ hi hs; omega

/-- The query is at its end. -/
theorem Cp.stepEnd {L : Nat → Int} {s : St} {src tmp : Nat} {c : St} {sd dd lo : Nat} {q : List (Nat × Nat × Nat)} {cache M : List (Nat × Nat)}
    (h : Cp L s src tmp c ((sd, dd, lo) :: q) cache M) (hn : c.db.nextRow sd lo = none) : Cp L s src tmp c q cache M := by
  have hsd := h.work sd dd lo (List.mem_cons_self ..)
  refine { h with todo := ?_, work := ?_, wnd := ?_ }
  · intro i i' k x hi hx
    rcases h.todo i i' k x hi hx with h1 | ⟨l, h1, h2⟩
    · exact Or.inl h1
    · rcases List.mem_cons.1 h1 with h3 | h3
      · cases h3
        have := nextRow_none hn h2
        rw [h.oldC _ _ (h.mBelow _ _ hi).2, hx] at this
        cases this
      · exact Or.inr ⟨l, h3, h2⟩
  · intro i i' l hm; exact h.work i i' l (List.mem_cons_of_mem _ hm)
  · have := h.wnd; rw [List.map_cons, List.nodup_cons] at this; exact this.2

/-- What the next row of the query is. -/
theorem Cp.row {L : Nat → Int} {s : St} {src tmp : Nat} {c : St} {sd dd lo k id : Nat} {q : List (Nat × Nat × Nat)} {cache M : List (Nat × Nat)}
    (h : Cp L s src tmp c ((sd, dd, lo) :: q) cache M) (hs : Inv NoT L s) (htmp : tmp = s.db.seq + 1)
    (hcyc : ∀ d k, DbBelow s src d → AL.get s.db.contents (d, k) ≠ some src)
    (hn : c.db.nextRow sd lo = some (k, id)) :
    AL.get M sd = some dd ∧ AL.get s.db.contents (sd, k) = some id ∧ lo ≤ k ∧ id < tmp ∧ id ≠ src ∧ DbBelow s src id ∧
    AL.get c.db.contents (dd, k) = none ∧ AL.get c.db.names k ≠ none ∧ 0 < (tdb c.db tmp).rc dd ∧
    (∀ k' x, AL.get s.db.contents (sd, k') = some x → lo ≤ k' → k ≤ k') ∧
    (AL.get cache id = none → AL.get M id = none) := by
  obtain ⟨hM, hfree⟩ := h.work sd dd lo (List.mem_cons_self ..)
  obtain ⟨h1, h2, h3⟩ := nextRow_some h.nkC hn
  obtain ⟨hb, hlt⟩ := h.mBelow _ _ hM
  rw [h.oldC _ _ hlt] at h1
  obtain ⟨n, hnm⟩ := hs.acc.nm_of_C (hs.Lnn k) h1
  have hchild : s.db.child sd n = some id := (hs.acc.child_iff sd n id).2 ⟨k, hnm, h1⟩
  have hex := (hs.child_pos hchild).2.1
  have hidlt : id < tmp := by have := hs.acc.seq id hex; omega
  have hne : id ≠ src := fun e => hcyc sd k hb (by rw [h1, e])
  have hk : AL.get c.db.names k ≠ none := by
    have := h.nm k
    rw [hnm, nm_some] at this
    obtain ⟨r, hr⟩ := this
    rw [hr]; simp
  have hrc : 0 < (tdb c.db tmp).rc dd := by
    by_cases hsrc : sd = src
    · subst hsrc
      rw [h.mSrc] at hM; cases hM
      obtain ⟨a, ha, _⟩ := h.tmpI
      rw [tdb_eq]; unfold Db.rc
      show 0 < ((AL.get (tI c.db.inodes tmp) tmp).map _).getD 0
      rw [get_tI, if_pos rfl, ha]
      show (0 : Int) < 1
      omega
    · obtain ⟨a, b, _, hb', _, hpos, _⟩ := h.copy _ _ hM hsrc
      rw [tdb_rc _ _ _ (by have := (h.mNew _ _ hM hsrc).1; omega)]
      unfold Db.rc; rw [hb']; exact hpos
  refine ⟨hM, h1, h2, hidlt, hne, hb.entry hchild, hfree k h2, hk, hrc, ?_, ?_⟩
  · intro k' x hx hl
    exact h3 k' x (by rw [h.oldC _ _ hlt]; exact hx) hl
  · intro hc
    cases hm : AL.get M id with
    | none => rfl
    | some new =>
      exfalso
      by_cases hr : s.db.rc id = 1
      · obtain ⟨j, j', k', hj, hjc⟩ := h.link id new hm hne
        obtain ⟨x, hx, hxm, _⟩ := h.ent j j' k' new hj hjc
        have hxi : x = id := h.mInj _ _ _ hxm hm
        subst hxi
        -- two different entries
        have hdiff : (j, k') ≠ (sd, k) := by
          intro e; cases e
          rw [hj] at hM; cases hM
          rw [hfree k h2] at hjc; cases hjc
        have hlinks : 2 ≤ s.db.links x := by
          have e := AL.sumBy_erase (fun (_ : Nat × Nat) (c : Nat) => if c = x then (1 : Int) else 0) hs.acc.nkC (j, k')
          have hle := AL.le_sumBy (fun (_ : Nat × Nat) (c : Nat) => if c = x then (1 : Int) else 0) (AL.erase s.db.contents (j, k'))
            (by intros; split <;> omega) (AL.get_some_mem (k := (sd, k)) (v := x) (by rw [AL.get_erase_ne _ (fun e => hdiff e.symm)]; exact h1))
          rw [hx] at e
          simp only [if_true, Option.map_some, Option.getD_some] at hle e
          unfold Db.links
          omega
        have := hs.acc.rc x
        have hbn : 0 ≤ base x := by unfold base; split; omega; split <;> omega
        omega
      · rw [h.cacheAll id new hm hne hr] at hc; cases hc

theorem copyInode_xattrs {db : Db} {id : Nat} {i : Inode} (hf : ∀ k, AL.get db.xattrs (db.seq + 1, k) = none) (x k : Nat) :
    AL.get (db.copyInode id i).xattrs (x, k) = if x = db.seq + 1 then AL.get db.xattrs (id, k) else AL.get db.xattrs (x, k) :=
  get_append_rekey db.xattrs id (db.seq + 1) x k hf

theorem copyInode_blocks {db : Db} {id : Nat} {i : Inode} (hf : ∀ k, AL.get db.blocks (db.seq + 1, k) = none) (x k : Nat) :
    AL.get (db.copyInode id i).blocks (x, k) = if x = db.seq + 1 then AL.get db.blocks (id, k) else AL.get db.blocks (x, k) :=
  get_append_rekey db.blocks id (db.seq + 1) x k hf

theorem copyInode_symlinks {db : Db} {id : Nat} {i : Inode} (hf : AL.get db.symlinks (db.seq + 1) = none) (x : Nat) :
    AL.get (db.copyInode id i).symlinks x = if x = db.seq + 1 then AL.get db.symlinks id else AL.get db.symlinks x := by
  unfold Db.copyInode
  simp only
  cases h : AL.get db.symlinks id with
  | none =>
    simp only
    split
    · rename_i e; rw [e, hf]
    · rfl
  | some t => simp only [AL.get_set]

theorem copyInode_nm (db : Db) (id : Nat) (i : Inode) (x : Nat) (ks : List Nat) :
    (AL.get (incNames (db.copyInode id i).names ks) x).map (·.1) = db.nm x := by
  have h1 := nm_incNames { db with names := (db.copyInode id i).names } ks x
  have h2 := nm_incNames db (xattrNames db.xattrs id) x
  exact h1.trans h2

set_option maxHeartbeats 1000000 in
/-- The inode of the row is copied. -/
theorem Cp.stepNew {L : Nat → Int} {s : St} {src tmp : Nat} {c : St} {sd dd lo k id : Nat} {q : List (Nat × Nat × Nat)} {cache M : List (Nat × Nat)}
    (h : Cp L s src tmp c ((sd, dd, lo) :: q) cache M) (hs : Inv NoT L s) (htmp : tmp = s.db.seq + 1)
    (hcyc : ∀ d k, DbBelow s src d → AL.get s.db.contents (d, k) ≠ some src)
    (hn : c.db.nextRow sd lo = some (k, id)) (hc : AL.get cache id = none) {i : Inode} (hi : AL.get c.db.inodes id = some i)
    {bl : List ((Nat × Nat) × Nat)} {ob : List (Nat × Int)} (hbl : ∀ i k, i ≠ id → AL.get bl (i, k) = AL.get c.db.blocks (i, k))
    (hbo : AL.get c.opened id = none → bl = c.db.blocks)
    (hacc : Acc NoT s.maxObj (tdb { c.db with blocks := bl, objects := ob } tmp) (fun i => if i = tmp then 1 else 0) L)
    {db1 : Db} (hdb1 : db1 = { c.db with blocks := bl, objects := ob })
    {db' : Db} (hdb' : db' = { db1.copyInode id i with contents := AL.set c.db.contents (dd, k) (c.db.seq + 1), names := incNames (db1.copyInode id i).names [k] })
    {q' : List (Nat × Nat × Nat)} (hq' : q' = if c.db.hasChildren id = true then (id, c.db.seq + 1, 0) :: q else q)
    {cache' : List (Nat × Nat)} (hcache : cache' = if i.refcount ≠ 1 then AL.set cache id (c.db.seq + 1) else cache) :
    Cp L s src tmp { c with db := db' } ((sd, dd, k + 1) :: q') cache' (AL.set M id (c.db.seq + 1)) := by
  obtain ⟨hM, hent, hlo, hidlt, hne, hbelow, hfree, hnk, hrc, hmin, hMn⟩ := h.row hs htmp hcyc hn
  have hMid := hMn hc
  have hfr := h.acc.fresh (i := c.db.seq + 1) (by rw [tdb_eq]; show c.db.seq < _; omega)
  rw [tdb_eq] at hfr
  obtain ⟨f1, f2, f3, f4, f5⟩ := hfr
  replace f5 := f5 (fun h => h)
  simp only at f2 f3 f4 f5
  have hge : ∀ {x y}, AL.get M x = some y → tmp ≤ y ∧ y ≤ c.db.seq := fun hx => h.mGe hx
  have hddge := hge hM
  have htseq := h.seq
  have hidne : id ≠ c.db.seq + 1 := by omega
  have f3' : ∀ k, AL.get bl (c.db.seq + 1, k) = none := fun k => by rw [hbl _ _ (by omega)]; exact f3 k
  -- the tables afterwards
  have eI : ∀ x, AL.get db'.inodes x = if x = c.db.seq + 1 then some { i with refcount := 1, locked := false } else AL.get c.db.inodes x := by
    intro x; rw [hdb', hdb1]; show AL.get (AL.set c.db.inodes (c.db.seq + 1) _) x = _; rw [AL.get_set]
  have eX : ∀ x y, AL.get db'.xattrs (x, y) = if x = c.db.seq + 1 then AL.get c.db.xattrs (id, y) else AL.get c.db.xattrs (x, y) := by
    intro x y
    have := copyInode_xattrs (db := db1) (id := id) (i := i) (by rw [hdb1]; exact f2) x y
    rw [hdb']
    show AL.get (db1.copyInode id i).xattrs (x, y) = _
    rw [this, hdb1]
  have eB : ∀ x y, AL.get db'.blocks (x, y) = if x = c.db.seq + 1 then AL.get bl (id, y) else AL.get bl (x, y) := by
    intro x y
    have := copyInode_blocks (db := db1) (id := id) (i := i) (by rw [hdb1]; exact f3') x y
    rw [hdb']
    show AL.get (db1.copyInode id i).blocks (x, y) = _
    rw [this, hdb1]
  have eS : ∀ x, AL.get db'.symlinks x = if x = c.db.seq + 1 then AL.get c.db.symlinks id else AL.get c.db.symlinks x := by
    intro x
    have := copyInode_symlinks (db := db1) (id := id) (i := i) (by rw [hdb1]; exact f4) x
    rw [hdb']
    show AL.get (db1.copyInode id i).symlinks x = _
    rw [this, hdb1]
  have eC : ∀ x y, AL.get db'.contents (x, y) = if x = dd ∧ y = k then some (c.db.seq + 1) else AL.get c.db.contents (x, y) := by
    intro x y; rw [hdb']; show AL.get (AL.set c.db.contents (dd, k) _) (x, y) = _; rw [AL.get_set]
    simp only [Prod.mk.injEq]
  have eN : ∀ x, db'.nm x = c.db.nm x := by
    intro x; rw [hdb']
    exact (copyInode_nm db1 id i x [k]).trans (by rw [hdb1]; rfl)
  have eQ : db'.seq = c.db.seq + 1 := by rw [hdb', hdb1]; rfl
  have eM : ∀ x, AL.get (AL.set M id (c.db.seq + 1)) x = if x = id then some (c.db.seq + 1) else AL.get M x := fun x => AL.get_set _ _ _ _
  have hacc' : Acc NoT s.maxObj (tdb db' tmp) (fun i => if i = tmp then 1 else 0) L := by
    rw [← hdb1] at hacc
    have hI1 : AL.get db1.inodes id = some i := by rw [hdb1]; exact hi
    have hC1 : db1.contents = c.db.contents := by rw [hdb1]
    have hQ1 : db1.seq = c.db.seq := by rw [hdb1]
    have hN1 : db1.names = c.db.names := by rw [hdb1]
    have hR1 : (tdb db1 tmp).rc dd = (tdb c.db tmp).rc dd := by rw [hdb1, tdb_eq, tdb_eq]; rfl
    have := accNew (dd := dd) (k := k) hacc hs.Lnn hI1 (by omega) (by omega) (by rw [hR1]; exact hrc) (by rw [hC1]; exact hfree) (by rw [hN1]; exact hnk)
    rw [hC1, hQ1] at this
    rw [hdb']; exact this
  clear hdb'
  have hq : ∀ e, e ∈ q' ↔ e ∈ q ∨ (c.db.hasChildren id = true ∧ e = (id, c.db.seq + 1, 0)) := by
    intro e; rw [hq']
    by_cases hh : c.db.hasChildren id = true
    · rw [if_pos hh, List.mem_cons]
      exact ⟨fun o => o.elim (fun e => Or.inr ⟨hh, e⟩) Or.inl, fun o => o.elim Or.inr (fun e => Or.inl e.2)⟩
    · rw [if_neg hh]
      exact ⟨Or.inl, fun o => o.elim (fun e => e) (fun e => absurd e.1 hh)⟩
  have hWne : ∀ e ∈ (sd, dd, lo) :: q, e.1 ≠ id := by
    rintro ⟨a, b, l⟩ he e
    simp only at e; subst e
    rw [(h.work _ _ _ he).1] at hMid; cases hMid
  have hnd := h.wnd
  rw [List.map_cons, List.nodup_cons] at hnd
  refine ⟨?_, ?_, ?_, h.opened, h.fs, h.mx, ?_, ?_, ?_, ?_, ?_, ?_, ?_, h.mNK.set _ _, ?_, ?_, ?_, ?_, ?_, ?_, ?_, ?_, ?_, ?_, ?_, ?_, ?_⟩
  · exact hacc'
  · obtain ⟨a, ha, h0⟩ := h.tmpI
    exact ⟨a, by rw [eI, if_neg (by omega)]; exact ha, h0⟩
  · refine ⟨fun y => ?_, fun y => ?_, ?_⟩
    · rw [eX, if_neg (by omega)]; exact h.tmpX.1 y
    · rw [eB, if_neg (by omega), hbl _ _ (by omega)]; exact h.tmpX.2.1 y
    · rw [eS, if_neg (by omega)]; exact h.tmpX.2.2
  · show tmp ≤ db'.seq; omega
  · intro x hx; rw [eI, if_neg (by omega)]; exact h.oldI x hx
  · intro x y hx; rw [eC, if_neg (by rintro ⟨e, _⟩; omega)]; exact h.oldC x y hx
  · intro x y hx; rw [eX, if_neg (by omega)]; exact h.oldX x y hx
  · intro x hx; rw [eS, if_neg (by omega)]; exact h.oldS x hx
  · intro x y hx ho
    rw [eB, if_neg (by omega)]
    by_cases hxi : x = id
    · subst hxi; rw [hbo (by rw [h.opened]; exact ho)]; exact h.oldB x y hx ho
    · rw [hbl _ _ hxi]; exact h.oldB x y hx ho
  · intro x; rw [eN]; exact h.nm x
  · -- mInj
    intro x y z hx hy
    rw [eM] at hx hy
    split at hx <;> split at hy
    · rename_i e1 e2; rw [e1, e2]
    · cases hx; have := hge hy; omega
    · cases hy; have := hge hx; omega
    · exact h.mInj _ _ _ hx hy
  · rw [eM, if_neg (Ne.symm hne)]; exact h.mSrc
  · intro x y hx hxs
    rw [eM] at hx
    show _ ∧ y ≤ db'.seq
    split at hx
    · cases hx; omega
    · have := h.mNew _ _ hx hxs; omega
  · intro x y hx
    rw [eM] at hx
    split at hx
    · rename_i e; rw [e]; exact ⟨hbelow, hidlt⟩
    · exact h.mBelow _ _ hx
  · intro y h1 h2
    have h2 : y ≤ db'.seq := h2
    by_cases hy : y = c.db.seq + 1
    · exact ⟨id, by rw [eM, if_pos rfl, hy], hne⟩
    · obtain ⟨x, hx, hxs⟩ := h.mAll y h1 (by omega)
      refine ⟨x, ?_, hxs⟩
      rw [eM, if_neg]
      · exact hx
      · rintro rfl; rw [hMid] at hx; cases hx
  · -- copy
    intro x y hx hxs
    rw [eM] at hx
    split at hx
    · rename_i e; subst e; cases hx
      refine ⟨i, { i with refcount := 1, locked := false }, by rw [eI, if_neg hidne]; exact hi, by rw [eI, if_pos rfl],
        ⟨rfl, rfl, rfl, rfl, rfl, rfl, rfl, rfl, rfl⟩, by show (0 : Int) < 1; omega, fun y => ?_, ?_, fun y => ?_⟩
      · rw [eX, if_pos rfl, eX, if_neg hidne]
      · rw [eS, if_pos rfl, eS, if_neg hidne]
      · rw [eB, if_pos rfl, eB, if_neg hidne]
    · rename_i e
      obtain ⟨a, b, ha, hb, h1, h2, h3, h4, h5⟩ := h.copy x y hx hxs
      have hy := h.mNew _ _ hx hxs
      have hxl := (h.mBelow _ _ hx).2
      refine ⟨a, b, by rw [eI, if_neg (by omega)]; exact ha, by rw [eI, if_neg (by omega)]; exact hb, h1, h2, fun z => ?_, ?_, fun z => ?_⟩
      · rw [eX, if_neg (by omega), eX, if_neg (by omega)]; exact h3 z
      · rw [eS, if_neg (by omega), eS, if_neg (by omega)]; exact h4
      · rw [eB, if_neg (by omega), eB, if_neg (by omega), hbl _ _ (by omega), hbl _ _ e]; exact h5 z
  · -- ent
    intro x y z w hx hw
    rw [eM] at hx
    rw [eC] at hw
    split at hx
    · rename_i e; cases hx
      rw [if_neg (by rintro ⟨e, _⟩; omega), f5 z] at hw; cases hw
    · split at hw
      · rename_i e1 e2; cases hw
        obtain ⟨rfl, rfl⟩ := e2
        have : x = sd := h.mInj _ _ _ hx hM
        subst this
        exact ⟨id, hent, by rw [eM, if_pos rfl], hne⟩
      · obtain ⟨v, hv1, hv2, hv3⟩ := h.ent x y z w hx hw
        refine ⟨v, hv1, ?_, hv3⟩
        rw [eM, if_neg]
        · exact hv2
        · rintro rfl; rw [hMid] at hv2; cases hv2
  · -- todo
    intro x y z v hx hv
    rw [eM] at hx
    split at hx
    · rename_i e; subst e; cases hx
      right
      refine ⟨0, List.mem_cons_of_mem _ ((hq _).2 (Or.inr ⟨?_, rfl⟩)), Nat.zero_le _⟩
      unfold Db.hasChildren
      rw [List.any_eq_true]
      exact ⟨((x, z), v), AL.get_some_mem (by rw [h.oldC _ _ hidlt]; exact hv), by simp⟩
    · rcases h.todo x y z v hx hv with h1 | ⟨l, h1, h2⟩
      · left; rw [eC]; split
        · simp
        · exact h1
      · rcases List.mem_cons.1 h1 with h3 | h3
        · cases h3
          by_cases hzk : z = k
          · left; rw [eC, if_pos ⟨rfl, hzk⟩]; simp
          · right
            refine ⟨k + 1, List.mem_cons_self .., ?_⟩
            have := hmin z v hv h2
            omega
        · right; exact ⟨l, List.mem_cons_of_mem _ ((hq _).2 (Or.inl h3)), h2⟩
  · -- work
    intro x y l hm
    rcases List.mem_cons.1 hm with h1 | h1
    · cases h1
      refine ⟨by rw [eM, if_neg (hWne _ (List.mem_cons_self ..))]; exact hM, fun z hz => ?_⟩
      rw [eC, if_neg (by rintro ⟨_, e⟩; omega)]
      exact (h.work _ _ _ (List.mem_cons_self ..)).2 z (by omega)
    · rcases (hq _).1 h1 with h2 | ⟨_, h2⟩
      · have h3 := h.work _ _ _ (List.mem_cons_of_mem _ h2)
        refine ⟨by rw [eM, if_neg (hWne _ (List.mem_cons_of_mem _ h2))]; exact h3.1, fun z hz => ?_⟩
        rw [eC, if_neg]
        · exact h3.2 z hz
        · rintro ⟨e, _⟩
          subst e
          have : x = sd := h.mInj _ _ _ h3.1 hM
          subst this
          exact hnd.1 (List.mem_map.2 ⟨_, h2, rfl⟩)
      · cases h2
        refine ⟨by rw [eM, if_pos rfl], fun z _ => ?_⟩
        rw [eC, if_neg (by rintro ⟨e, _⟩; omega)]; exact f5 z
  · -- wnd
    rw [List.map_cons, List.nodup_cons]
    have hidq : id ∉ q.map (·.1) := by
      intro hm
      obtain ⟨e, he, hee⟩ := List.mem_map.1 hm
      exact hWne e (List.mem_cons_of_mem _ he) hee
    have hsdid : sd ≠ id := hWne _ (List.mem_cons_self ..)
    rw [hq']
    split
    · rw [List.map_cons, List.mem_cons, List.nodup_cons]
      refine ⟨?_, hidq, hnd.2⟩
      rintro (e | e)
      · exact hsdid e
      · exact hnd.1 e
    · exact hnd
  · -- link
    intro x y hx hxs
    rw [eM] at hx
    split at hx
    · rename_i e; subst e; cases hx
      exact ⟨sd, dd, k, by rw [eM, if_neg (hWne _ (List.mem_cons_self ..))]; exact hM, by rw [eC, if_pos ⟨rfl, rfl⟩]⟩
    · obtain ⟨j, j', k', hj, hjc⟩ := h.link x y hx hxs
      refine ⟨j, j', k', ?_, ?_⟩
      · rw [eM, if_neg]
        · exact hj
        · rintro rfl; rw [hMid] at hj; cases hj
      · rw [eC, if_neg]
        · exact hjc
        · rintro ⟨rfl, rfl⟩; rw [hfree] at hjc; cases hjc
  · -- cacheM
    intro x y hx
    rw [hcache] at hx
    rw [eM]
    have old : AL.get cache x = some y → (if x = id then some (c.db.seq + 1) else AL.get M x) = some y ∧ x ≠ src := by
      intro hx2
      rw [if_neg]
      · exact h.cacheM x y hx2
      · intro e; rw [e, hc] at hx2; cases hx2
    split at hx
    · rw [AL.get_set] at hx
      split at hx
      · rename_i e; rw [if_pos e, e]; exact ⟨hx, hne⟩
      · exact old hx
    · exact old hx
  · -- cacheAll
    intro x y hx hxs hr
    rw [eM] at hx
    rw [hcache]
    split at hx
    · rename_i e; subst e; cases hx
      have : i.refcount ≠ 1 := by
        intro e; apply hr
        unfold Db.rc
        rw [← h.oldI _ hidlt, hi]; exact e
      rw [if_pos this, AL.get_set_self]
    · rename_i e
      have := h.cacheAll x y hx hxs hr
      split
      · rw [AL.get_set_ne _ _ e]; exact this
      · exact this

set_option maxHeartbeats 1000000 in
/-- The inode of the row has a copy already. -/
theorem Cp.stepCached {L : Nat → Int} {s : St} {src tmp : Nat} {c : St} {sd dd lo k id new : Nat} {q : List (Nat × Nat × Nat)} {cache M : List (Nat × Nat)}
    (h : Cp L s src tmp c ((sd, dd, lo) :: q) cache M) (hs : Inv NoT L s) (htmp : tmp = s.db.seq + 1)
    (hcyc : ∀ d k, DbBelow s src d → AL.get s.db.contents (d, k) ≠ some src)
    (hn : c.db.nextRow sd lo = some (k, id)) (hc : AL.get cache id = some new)
    {db' : Db} (hdb' : db' = { c.db.modInode new (fun i => { i with refcount := i.refcount + 1 }) with contents := AL.set c.db.contents (dd, k) new, names := incNames c.db.names [k] }) :
    Cp L s src tmp { c with db := db' } ((sd, dd, k + 1) :: q) cache M := by
  obtain ⟨hM, hent, hlo, hidlt, hne, hbelow, hfree, hnk, hrc, hmin, _⟩ := h.row hs htmp hcyc hn
  obtain ⟨hMid, _⟩ := h.cacheM _ _ hc
  have hnew := h.mNew _ _ hMid hne
  have hddge := h.mGe hM
  have htseq := h.seq
  obtain ⟨a0, b0, ha0, hb0, _, hpos, _⟩ := h.copy _ _ hMid hne
  have eI : ∀ x, AL.get db'.inodes x = if x = new then (AL.get c.db.inodes new).map (fun i => { i with refcount := i.refcount + 1 }) else AL.get c.db.inodes x := by
    intro x; rw [hdb']
    show AL.get (c.db.modInode new _).inodes x = _
    rw [modInode_get]
  have eC : ∀ x y, AL.get db'.contents (x, y) = if x = dd ∧ y = k then some new else AL.get c.db.contents (x, y) := by
    intro x y; rw [hdb']; show AL.get (AL.set c.db.contents (dd, k) _) (x, y) = _; rw [AL.get_set]
    simp only [Prod.mk.injEq]
  have hrest := modInode_rest c.db new (fun i => { i with refcount := i.refcount + 1 })
  have eX : db'.xattrs = c.db.xattrs := by rw [hdb']; unfold Db.modInode; split <;> rfl
  have eB : db'.blocks = c.db.blocks := by rw [hdb']; unfold Db.modInode; split <;> rfl
  have eS : db'.symlinks = c.db.symlinks := by rw [hdb']; unfold Db.modInode; split <;> rfl
  have eQ : db'.seq = c.db.seq := by rw [hdb']; unfold Db.modInode; split <;> rfl
  have eN : ∀ x, db'.nm x = c.db.nm x := by
    intro x; rw [hdb']; exact nm_incNames c.db [k] x
  have hacc' : Acc NoT s.maxObj (tdb db' tmp) (fun i => if i = tmp then 1 else 0) L := by
    have := accCached (dd := dd) (k := k) h.acc hb0 hpos (by omega) hrc hfree hnk
    rw [hdb']; exact this
  clear hdb'
  have hnd := h.wnd
  rw [List.map_cons, List.nodup_cons] at hnd
  refine ⟨hacc', ?_, ?_, h.opened, h.fs, h.mx, ?_, ?_, ?_, ?_, ?_, ?_, ?_, h.mNK, h.mInj, h.mSrc, ?_, h.mBelow, ?_, ?_, ?_, ?_, ?_, h.wnd, ?_, h.cacheM, h.cacheAll⟩
  · obtain ⟨a, ha, h0⟩ := h.tmpI
    exact ⟨a, by rw [eI, if_neg (by omega)]; exact ha, h0⟩
  · simp only [eX, eB, eS]; exact h.tmpX
  · show tmp ≤ db'.seq; omega
  · intro x hx; rw [eI, if_neg (by omega)]; exact h.oldI x hx
  · intro x y hx; rw [eC, if_neg (by rintro ⟨e, _⟩; omega)]; exact h.oldC x y hx
  · intro x y hx; simp only [eX]; exact h.oldX x y hx
  · intro x hx; simp only [eS]; exact h.oldS x hx
  · intro x y hx ho; simp only [eB]; exact h.oldB x y hx ho
  · intro x; rw [eN]; exact h.nm x
  · intro x y hx hxs; show _ ∧ y ≤ db'.seq; rw [eQ]; exact h.mNew x y hx hxs
  · intro y h1 h2; exact h.mAll y h1 (by have : y ≤ db'.seq := h2; omega)
  · intro x y hx hxs
    obtain ⟨a, b, ha, hb, h1, h2, h3, h4, h5⟩ := h.copy x y hx hxs
    have hy := h.mNew _ _ hx hxs
    have hxl := (h.mBelow _ _ hx).2
    simp only [eX, eB, eS]
    by_cases hyn : y = new
    · refine ⟨a, { b with refcount := b.refcount + 1 }, by rw [eI, if_neg (by omega)]; exact ha, by rw [eI, if_pos hyn, ← hyn, hb]; rfl, ?_, ?_, h3, h4, h5⟩
      · exact h1
      · show 0 < b.refcount + 1; omega
    · exact ⟨a, b, by rw [eI, if_neg (by omega)]; exact ha, by rw [eI, if_neg hyn]; exact hb, h1, h2, h3, h4, h5⟩
  · intro x y z w hx hw
    rw [eC] at hw
    split at hw
    · rename_i e2; cases hw
      obtain ⟨rfl, rfl⟩ := e2
      have : x = sd := h.mInj _ _ _ hx hM
      subst this
      exact ⟨id, hent, hMid, hne⟩
    · exact h.ent x y z w hx hw
  · intro x y z v hx hv
    rcases h.todo x y z v hx hv with h1 | ⟨l, h1, h2⟩
    · left; rw [eC]; split
      · simp
      · exact h1
    · rcases List.mem_cons.1 h1 with h3 | h3
      · cases h3
        by_cases hzk : z = k
        · left; rw [eC, if_pos ⟨rfl, hzk⟩]; simp
        · right
          refine ⟨k + 1, List.mem_cons_self .., ?_⟩
          have := hmin z v hv h2
          omega
      · right; exact ⟨l, List.mem_cons_of_mem _ h3, h2⟩
  · intro x y l hm
    rcases List.mem_cons.1 hm with h1 | h1
    · cases h1
      refine ⟨hM, fun z hz => ?_⟩
      rw [eC, if_neg (by rintro ⟨_, e⟩; omega)]
      exact (h.work _ _ _ (List.mem_cons_self ..)).2 z (by omega)
    · have h3 := h.work _ _ _ (List.mem_cons_of_mem _ h1)
      refine ⟨h3.1, fun z hz => ?_⟩
      rw [eC, if_neg]
      · exact h3.2 z hz
      · rintro ⟨e, _⟩
        subst e
        have : x = sd := h.mInj _ _ _ h3.1 hM
        subst this
        exact hnd.1 (List.mem_map.2 ⟨_, h1, rfl⟩)
  · intro x y hx hxs
    obtain ⟨j, j', k', hj, hjc⟩ := h.link x y hx hxs
    refine ⟨j, j', k', hj, ?_⟩
    rw [eC, if_neg]
    · exact hjc
    · rintro ⟨rfl, rfl⟩; rw [hfree] at hjc; cases hjc

end Verif.Fs
