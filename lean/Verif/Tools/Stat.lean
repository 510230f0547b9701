/-
C83: the figures that `df` and `s3qlstat` show (fs.py:1037-1111, statfs.py:66-104, block_cache.py:896-922).
-/

namespace Verif.Tools.Stat

/-! #### The state the figures are about -/

/-- A row of `objects`; `phys = -1` while it is being uploaded. -/
structure Obj where
  length : Nat
  phys : Int
deriving DecidableEq

/-- The tables: names, objects, the sizes of the inodes (number, size), and the size of the database file. -/
structure Db where
  entries : Nat
  objects : List Obj
  inodes : List (Nat × Nat)
  bytes : Nat
deriving DecidableEq

/-- The mounted file system: the database, the attributes that are changed only in memory (number, size), and the cached blocks
(size, modified). -/
structure Fs where
  db : Db
  dirty : List (Nat × Nat)
  cache : List (Nat × Bool)

/-! #### Specification -/

/-- The size of an inode as the user sees it. -/
def sizeOf (fs : Fs) (i : Nat × Nat) : Nat := (fs.dirty.lookup i.1).getD i.2

/-- The figures of `s3qlstat`, in words. -/
structure Figures where
  entries : Nat
  objects : Nat
  inodes : Nat
  total : Nat
  dedup : Nat
  compr : Nat
  dbSize : Nat
  cached : Nat
  cacheSize : Nat
  dirty : Nat
  dirtySize : Nat
  removals : Nat
deriving DecidableEq

def figures (fs : Fs) : Figures where
  entries := fs.db.entries
  objects := fs.db.objects.length
  inodes := fs.db.inodes.length
  total := (fs.db.inodes.map (sizeOf fs)).sum
  dedup := (fs.db.objects.map (·.length)).sum
  compr := (fs.db.objects.map (·.phys.toNat)).sum
  dbSize := fs.db.bytes
  cached := fs.cache.length
  cacheSize := (fs.cache.map (·.1)).sum
  dirty := (fs.cache.filter (·.2)).length
  dirtySize := ((fs.cache.filter (·.2)).map (·.1)).sum
  removals := 0

/-! #### Model of `extstat` and `s3qlstat` -/

inductive Err where
  | overflow    -- SQLite: `integer overflow`
  | struct      -- `struct.error`
deriving DecidableEq

/-- The aggregate function `SUM` of SQLite for integers: it fails when a partial sum does not fit into 64 bits with sign.
The empty sum is NULL, which `or 0` makes 0. -/
def sqlSum (l : List Int) : Except Err Int :=
  l.foldl (fun acc v => match acc with
    | .error e => .error e
    | .ok a => if a + v < -2 ^ 63 ∨ 2 ^ 63 ≤ a + v then .error .overflow else .ok (a + v)) (.ok 0)

/-- `InodeCache.flush` (inode_cache.py:283-297): the attributes that were changed in memory are written. -/
def flush (fs : Fs) : Fs :=
  { fs with db := { fs.db with inodes := fs.db.inodes.map fun i => (i.1, (fs.dirty.lookup i.1).getD i.2) }, dirty := [] }

/-- `get_usage` (block_cache.py:896-922).  Simplified: `cache.size` is the sum of the sizes, which the model of the cache proves. -/
def getUsage (cache : List (Nat × Bool)) : List Nat :=
  let used := (cache.map (·.1)).sum
  let (dirtySize, dirtyCnt) := cache.foldl (fun (s, c) el => if el.2 then (s + el.1, c + 1) else (s, c)) (0, 0)
  [cache.length, used, dirtyCnt, dirtySize, 0]

/-- One value packed as `Q`: eight bytes, the least significant first. -/
def packQ (v : Int) : Except Err (List UInt8) :=
  if v < 0 ∨ 2 ^ 64 ≤ v then .error .struct
  else .ok ((List.range 8).map fun k => UInt8.ofNat (v.toNat / 256 ^ k))

def packAll : List Int → Except Err (List UInt8)
  | [] => .ok []
  | v :: l => match packQ v with
    | .error e => .error e
    | .ok b => match packAll l with
      | .error e => .error e
      | .ok r => .ok (b ++ r)

/-- `Operations.extstat` (fs.py:1037-1064). -/
def extstat (fs : Fs) : Except Err (List UInt8) :=
  let fs := flush fs
  match sqlSum (fs.db.inodes.map fun i => (i.2 : Int)) with
  | .error e => .error e
  | .ok fsSize =>
    match sqlSum (fs.db.objects.map fun o => (o.length : Int)) with
    | .error e => .error e
    | .ok dedup =>
      match sqlSum ((fs.db.objects.filter fun o => o.phys > 0).map fun o => o.phys) with
      | .error e => .error e
      | .ok compr =>
        packAll ([(fs.db.entries : Int), (fs.db.objects.length : Int), (fs.db.inodes.length : Int), fsSize, dedup, compr, (fs.db.bytes : Int)] ++
          (getUsage fs.cache).map fun n : Nat => (n : Int))

/-- The value of eight bytes. -/
def unpackQ (b : List UInt8) : Nat := b.foldr (fun x acc => x.toNat + 256 * acc) 0

/-- `struct.unpack` with `n` times `Q`; the length must be right. -/
def unpackAll : Nat → List UInt8 → Option (List Nat)
  | 0, [] => some []
  | 0, _ :: _ => none
  | n + 1, b => if b.length < 8 then none else (unpackAll n (b.drop 8)).map (unpackQ (b.take 8) :: ·)

/-- `s3qlstat` (statfs.py:66-86): the twelve values, by name. -/
def s3qlstat (b : List UInt8) : Option Figures :=
  match unpackAll 12 b with
  | some [entries, objects, inodes, fsSize, dedup, compr, dbSize, cacheCnt, cacheSize, dirtyCnt, dirtySize, removalCnt] =>
    some ⟨entries, objects, inodes, fsSize, dedup, compr, dbSize, cacheCnt, cacheSize, dirtyCnt, dirtySize, removalCnt⟩
  | _ => none

/-! #### Model of `statfs` -/

/-- What the kernel gets (fs.py:1085-1111), from the number of objects, of inodes and the total length of the objects. -/
structure Statvfs where
  frsize : Nat
  bsize : Nat
  blocks : Nat
  bfree : Nat
  bavail : Nat
  files : Nat
  ffree : Nat
  favail : Nat
deriving DecidableEq

def statvfs (objects inodes size : Nat) : Statvfs :=
  let frsize := if objects ≠ 0 then max 4096 (size / objects) else 4096
  let fsSize := max (2 * size) (1024 ^ 4)
  let total := max (2 * inodes) 1000000
  { frsize := frsize, bsize := frsize, blocks := fsSize / frsize, bfree := (fsSize - size) / frsize, bavail := (fsSize - size) / frsize,
    files := total, ffree := total - inodes, favail := total - inodes }

/-- The figures of a database. -/
def counts (db : Db) : Nat × Nat × Nat := (db.objects.length, db.inodes.length, (db.objects.map (·.length)).sum)

/-- What happens to a mounted file system.  Times are readings of the clock, in microseconds.  `statfs now later`: the call, which reads
the clock at its beginning and, if it asks the database, once more. -/
inductive Ev where
  | change (db : Db)
  | statfs (now later : Int)
deriving DecidableEq

/-- The database and the default argument `_cache` (fs.py:1066-1070). -/
structure St where
  db : Db
  cache : Option ((Nat × Nat × Nat) × Int)

/-- `statfs` (fs.py:1077-1086); `SUM` cannot overflow for objects that exist. -/
def step (s : St) : Ev → Option Statvfs × St
  | .change db => (none, { s with db := db })
  | .statfs now later =>
    match s.cache with
    | some (c, τ) =>
      if now - τ < 30000000 then (some (statvfs c.1 c.2.1 c.2.2), s)
      else (some (statvfs (counts s.db).1 (counts s.db).2.1 (counts s.db).2.2), { s with cache := some (counts s.db, later) })
    | none => (some (statvfs (counts s.db).1 (counts s.db).2.1 (counts s.db).2.2), { s with cache := some (counts s.db, later) })

def run (s : St) : List Ev → St
  | [] => s
  | e :: l => run (step s e).2 l

/-- The answer to a call at the end of a history. -/
def answer (s : St) (l : List Ev) (now later : Int) : Option Statvfs := (step (run s l) (.statfs now later)).1

/-! #### Specification of `statfs` -/

/-- The database after a history. -/
def dbAfter (db : Db) : List Ev → Db
  | [] => db
  | .change d :: l => dbAfter d l
  | .statfs _ _ :: l => dbAfter db l

/-- `τ` is a moment at which exactly the events `l` had happened, of those before the call that reads `now`: the moment of the call itself,
or that of the last event of `l`. -/
def Moment (l rest : List Ev) (now τ : Int) : Prop :=
  (rest = [] ∧ τ = now) ∨ ∃ l0 t, l = l0 ++ [.statfs t τ]

/-- The answer describes a database: used space up to one block, the space and the inodes that are free at least (about) as much. -/
structure Describes (r : Statvfs) (db : Db) : Prop where
  used_le : (r.blocks - r.bfree) * r.frsize < (db.objects.map (·.length)).sum + r.frsize
  used_ge : (db.objects.map (·.length)).sum < (r.blocks - r.bfree) * r.frsize + r.frsize
  half : r.blocks ≤ 2 * r.bfree + 1
  space : (db.objects.map (·.length)).sum < (r.bfree + 1) * r.frsize ∧ 1024 ^ 4 ≤ 2 * ((r.bfree + 1) * r.frsize)
  avail : r.bavail = r.bfree ∧ r.favail = r.ffree ∧ r.bfree ≤ r.blocks ∧ r.bsize = r.frsize ∧ 4096 ≤ r.frsize
  files : r.files = r.ffree + db.inodes.length ∧ db.inodes.length ≤ r.ffree

/-! #### Proofs: `statfs` -/

theorem statvfs_describes (db : Db) : Describes (statvfs (counts db).1 (counts db).2.1 (counts db).2.2) db := by
  unfold counts statvfs
  dsimp only
  generalize hs : (db.objects.map (·.length)).sum = S
  generalize hf : (if db.objects.length ≠ 0 then max 4096 (S / db.objects.length) else 4096) = f
  generalize hF : max (2 * S) (1024 ^ 4) = F
  have f4 : 4096 ≤ f := by
    rw [← hf]; split
    · exact Nat.le_max_left _ _
    · exact Nat.le_refl _
  have F1 : 2 * S ≤ F := by rw [← hF]; exact Nat.le_max_left _ _
  have F2 : 1024 ^ 4 ≤ F := by rw [← hF]; exact Nat.le_max_right _ _
  have b1 : F / f * f ≤ F := Nat.div_mul_le_self _ _
  have b2 : F < (F / f + 1) * f := by
    have := Nat.lt_mul_div_succ F (show 0 < f by omega)
    rw [Nat.mul_comm] at this; exact this
  have g1 : (F - S) / f * f ≤ F - S := Nat.div_mul_le_self _ _
  have g2 : F - S < ((F - S) / f + 1) * f := by
    have := Nat.lt_mul_div_succ (F - S) (show 0 < f by omega)
    rw [Nat.mul_comm] at this; exact this
  have gb : (F - S) / f ≤ F / f := Nat.div_le_div_right (Nat.sub_le _ _)
  generalize F / f = B at *
  generalize (F - S) / f = G at *
  have e : (B - G) * f = B * f - G * f := Nat.sub_mul _ _ _
  have ge : G * f ≤ B * f := Nat.mul_le_mul_right _ gb
  rw [Nat.add_mul, Nat.one_mul] at b2 g2
  refine ⟨?_, ?_, ?_, ?_, ?_, ?_⟩ <;> dsimp only
  · rw [hs, e]; omega
  · rw [hs, e]; omega
  · apply Nat.le_of_lt_succ
    apply Nat.lt_of_mul_lt_mul_right (a := f)
    have : (2 * G + 1).succ * f = 2 * (G * f) + 2 * f := by
      rw [show (2 * G + 1).succ = 2 * (G + 1) by omega, Nat.mul_assoc, Nat.add_mul, Nat.one_mul, Nat.mul_add]
    rw [this]; omega
  · rw [hs, Nat.add_mul, Nat.one_mul]; omega
  · exact ⟨rfl, rfl, gb, rfl, f4⟩
  · have : 2 * db.inodes.length ≤ max (2 * db.inodes.length) 1000000 := Nat.le_max_left _ _
    omega

theorem run_append (s : St) (l l' : List Ev) : run s (l ++ l') = run (run s l) l' := by
  induction l generalizing s with
  | nil => rfl
  | cons e l ih => exact ih _

theorem dbAfter_append (db : Db) (l l' : List Ev) : dbAfter db (l ++ l') = dbAfter (dbAfter db l) l' := by
  induction l generalizing db with
  | nil => rfl
  | cons e l ih => cases e <;> exact ih _

/-- What is known about the state: the database is the current one, the cache comes from a call in the history. -/
def Inv (db0 : Db) (l : List Ev) (s : St) : Prop :=
  s.db = dbAfter db0 l ∧ ∀ c τ, s.cache = some (c, τ) → ∃ l1 l2 t, l = l1 ++ .statfs t τ :: l2 ∧ c = counts (dbAfter db0 l1)

theorem inv_run (db0 : Db) (l : List Ev) : Inv db0 l (run ⟨db0, none⟩ l) := by
  suffices h : ∀ (l l0 : List Ev) (s : St), Inv db0 l0 s → Inv db0 (l0 ++ l) (run s l) by
    exact h l [] _ ⟨rfl, fun _ _ h => nomatch h⟩
  intro l
  induction l with
  | nil => intro l0 s h; rw [List.append_nil]; exact h
  | cons e l ih =>
    intro l0 s h
    have key : Inv db0 (l0 ++ [e]) (step s e).2 := by
      refine ⟨?_, ?_⟩
      · rw [dbAfter_append, ← h.1]
        cases e with
        | change d => rfl
        | statfs t τ =>
          show (step s (.statfs t τ)).2.db = s.db
          unfold step; dsimp only
          split
          · split <;> rfl
          · rfl
      · intro c τ hc
        have old : s.cache = some (c, τ) → ∃ l1 l2 t, l0 ++ [e] = l1 ++ .statfs t τ :: l2 ∧ c = counts (dbAfter db0 l1) := by
          intro hc
          obtain ⟨l1, l2, t, e1, e2⟩ := h.2 c τ hc
          exact ⟨l1, l2 ++ [e], t, by rw [e1]; simp, e2⟩
        cases e with
        | change d => exact old hc
        | statfs t later =>
          have new : some (counts s.db, later) = some (c, τ) → ∃ l1 l2 t', l0 ++ [.statfs t later] = l1 ++ .statfs t' τ :: l2 ∧ c = counts (dbAfter db0 l1) := by
            intro e
            cases e
            exact ⟨l0, [], t, rfl, by rw [h.1]⟩
          unfold step at hc
          dsimp only at hc
          split at hc
          · split at hc
            · exact old hc
            · exact new hc
          · exact new hc
    have := ih (l0 ++ [e]) _ key
    rw [List.append_assoc] at this
    exact this

/-- **C83 (df), partial.** For every history: the answer describes the file system at some moment of the history, and unless the clock
was set back, this moment is less than 30 seconds ago.  Missing: clocks that are set back (`C83_clock_set_back`). -/
theorem C83_df_partial (db0 : Db) (l : List Ev) (now later : Int) : ∃ r, answer ⟨db0, none⟩ l now later = some r ∧
    ∃ l1 l2 τ, l = l1 ++ l2 ∧ Moment l1 l2 now τ ∧ now - τ < 30000000 ∧ Describes r (dbAfter db0 l1) := by
  have hi := inv_run db0 l
  generalize hs : run ⟨db0, none⟩ l = s at hi
  have fresh : Describes (statvfs (counts s.db).1 (counts s.db).2.1 (counts s.db).2.2) (dbAfter db0 l) := by
    rw [← hi.1]; exact statvfs_describes _
  unfold answer
  rw [hs]
  unfold step
  dsimp only
  split
  · rename_i c τ hc
    obtain ⟨l1, l2, t, e1, e2⟩ := hi.2 c τ hc
    split
    · rename_i hlt
      refine ⟨_, rfl, l1 ++ [.statfs t τ], l2, τ, by rw [e1]; simp, .inr ⟨l1, t, rfl⟩, hlt, ?_⟩
      have : dbAfter db0 (l1 ++ [.statfs t τ]) = dbAfter db0 l1 := by rw [dbAfter_append]; rfl
      rw [this, e2]
      exact statvfs_describes _
    · exact ⟨_, rfl, l, [], now, (List.append_nil _).symm, .inl ⟨rfl, rfl⟩, by omega, fresh⟩
  · exact ⟨_, rfl, l, [], now, (List.append_nil _).symm, .inl ⟨rfl, rfl⟩, by omega, fresh⟩

example : (answer ⟨⟨3, [⟨1000000, 500000⟩], [(1, 4096)], 9⟩, none⟩ [.statfs 0 1] 40000000 40000000).map (fun r => ((r.blocks - r.bfree) * r.frsize, r.frsize)) =
    some (1000000, 1000000) := by decide

def small : Db := ⟨1, [], [], 0⟩
def large : Db := ⟨1, [⟨8796093022208, 1⟩], [], 0⟩

/-- C83 is violated if the clock is set back: for as long as it was set back, calls answer with the old figures.  Here by 10⁶ seconds, and
8 TiB are missing. -/
theorem C83_clock_set_back : ∃ l : List Ev, dbAfter small l = large ∧ l.getLast? = some (.statfs 0 0) ∧
    ∃ r, answer ⟨small, none⟩ l 999999000000 999999000000 = some r ∧ (r.blocks - r.bfree) * r.frsize = 0 :=
  ⟨[.statfs 1000000000000 1000000000000, .change large, .statfs 0 0], by decide, by decide, _, rfl, by decide⟩

/-! #### Proofs: `extstat` -/

theorem sqlSum_ok (l : List Int) (h : ∀ v ∈ l, 0 ≤ v) (hs : l.sum < 2 ^ 63) : sqlSum l = .ok l.sum := by
  unfold sqlSum
  suffices k : ∀ (l : List Int) (a : Int), 0 ≤ a → (∀ v ∈ l, 0 ≤ v) → a + l.sum < 2 ^ 63 →
      l.foldl (fun acc v => match acc with
        | .error e => .error e
        | .ok a => if a + v < -2 ^ 63 ∨ 2 ^ 63 ≤ a + v then .error Err.overflow else .ok (a + v)) (.ok a : Except Err Int) = .ok (a + l.sum) by
    have := k l 0 (Int.le_refl _) h (by omega)
    rw [this, Int.zero_add]
  intro l
  induction l with
  | nil => intro a _ _ _; simp
  | cons v l ih =>
    intro a ha hv hs
    rw [List.foldl_cons]
    have hv0 := hv v (List.mem_cons_self ..)
    have hl : ∀ v ∈ l, 0 ≤ v := fun u hu => hv u (List.mem_cons_of_mem _ hu)
    have hn : ∀ l : List Int, (∀ v ∈ l, 0 ≤ v) → 0 ≤ l.sum := by
      intro l
      induction l with
      | nil => intro _; exact Int.le_refl _
      | cons u l ih =>
        intro h
        rw [List.sum_cons]
        have := ih fun w hw => h w (List.mem_cons_of_mem _ hw)
        have := h u (List.mem_cons_self ..)
        omega
    have := hn l hl
    rw [List.sum_cons] at hs
    dsimp only
    rw [if_neg (by omega), ih (a + v) (by omega) hl (by omega), List.sum_cons]
    congr 1
    omega

theorem sum_cast (l : List Nat) : (l.map fun n : Nat => (n : Int)).sum = ((l.sum : Nat) : Int) := by
  induction l with
  | nil => rfl
  | cons a l ih => rw [List.map_cons, List.sum_cons, List.sum_cons, ih]; omega

theorem sqlSum_nat (l : List Nat) (h : l.sum < 2 ^ 63) : sqlSum (l.map fun n : Nat => (n : Int)) = .ok (l.sum : Int) := by
  rw [sqlSum_ok, sum_cast]
  · intro v hv
    obtain ⟨n, _, rfl⟩ := List.mem_map.1 hv
    exact Int.natCast_nonneg n
  · rw [sum_cast]; omega

theorem unpack_pack (n k : Nat) (m : Nat) : unpackQ ((List.range' k n).map fun j => UInt8.ofNat (m / 256 ^ j)) = m / 256 ^ k % 256 ^ n := by
  induction n generalizing k with
  | zero => simp [unpackQ, Nat.mod_one]
  | succ n ih =>
    rw [List.range'_succ, List.map_cons]
    show (UInt8.ofNat (m / 256 ^ k)).toNat + 256 * unpackQ _ = _
    rw [ih (k + 1)]
    rw [UInt8.toNat_ofNat', show m / 256 ^ (k + 1) = m / 256 ^ k / 256 by rw [Nat.pow_succ, Nat.div_div_eq_div_mul]]
    rw [show 256 ^ (n + 1) = 256 * 256 ^ n by rw [Nat.pow_succ, Nat.mul_comm], Nat.mod_mul]

theorem packQ_ok {m : Nat} (h : m < 2 ^ 64) : ∃ b, packQ m = .ok b ∧ b.length = 8 ∧ unpackQ b = m := by
  refine ⟨_, if_neg (by omega), by simp, ?_⟩
  have := unpack_pack 8 0 m
  rw [← List.range_eq_range'] at this
  rw [show (m : Int).toNat = m from rfl, this]
  rw [show m / 256 ^ 0 = m by simp]
  exact Nat.mod_eq_of_lt (by omega)

theorem packAll_ok : ∀ l : List Nat, (∀ m ∈ l, m < 2 ^ 64) → ∃ b, packAll (l.map fun n : Nat => (n : Int)) = .ok b ∧ unpackAll l.length b = some l := by
  intro l
  induction l with
  | nil => intro _; exact ⟨[], rfl, rfl⟩
  | cons m l ih =>
    intro h
    obtain ⟨b, e1, e2⟩ := ih fun x hx => h x (List.mem_cons_of_mem _ hx)
    obtain ⟨a, p1, p2, p3⟩ := packQ_ok (h m (List.mem_cons_self ..))
    refine ⟨a ++ b, ?_, ?_⟩
    · rw [List.map_cons]; unfold packAll; rw [p1, e1]
    · rw [List.length_cons]
      unfold unpackAll
      rw [if_neg (by rw [List.length_append]; omega), ← p2, List.drop_left, List.take_left, e2, p3]
      rfl

theorem usage_fold (l : List (Nat × Bool)) (s c : Nat) :
    l.foldl (fun (s, c) el => if el.2 then (s + el.1, c + 1) else (s, c)) (s, c) = (s + ((l.filter (·.2)).map (·.1)).sum, c + (l.filter (·.2)).length) := by
  induction l generalizing s c with
  | nil => rfl
  | cons a l ih =>
    rw [List.foldl_cons]
    cases h : a.2 with
    | true =>
      simp only [if_true, ih, List.filter_cons, h, List.map_cons, List.sum_cons, List.length_cons, Prod.mk.injEq]
      omega
    | false =>
      simp [ih, h]

theorem compr_sum (l : List Obj) : ((l.filter fun o => o.phys > 0).map fun o => o.phys).sum = (((l.map (·.phys.toNat)).sum : Nat) : Int) := by
  induction l with
  | nil => rfl
  | cons o l ih =>
    rw [List.filter_cons, List.map_cons, List.sum_cons]
    by_cases h : o.phys > 0
    · rw [if_pos (by simpa using h), List.map_cons, List.sum_cons, ih]; omega
    · rw [if_neg (by simpa using h), ih]; omega

/-- The twelve figures in the order of `struct.pack`. -/
def Figures.list (f : Figures) : List Nat :=
  [f.entries, f.objects, f.inodes, f.total, f.dedup, f.compr, f.dbSize, f.cached, f.cacheSize, f.dirty, f.dirtySize, f.removals]

/-- **C83 (s3qlstat), partial.** `s3qlstat` shows the figures of the file system as it is, including the changes that are not yet in the
database.  Missing: file systems whose files have together 8 EiB or more (`C83_overflow`). -/
theorem C83_s3qlstat_partial (fs : Fs) (h : ∀ n ∈ (figures fs).list, n < 2 ^ 63) : ∃ b, extstat fs = .ok b ∧ s3qlstat b = some (figures fs) := by
  have h1 := h (figures fs).total (by simp [Figures.list])
  have h2 := h (figures fs).dedup (by simp [Figures.list])
  have h3 := h (figures fs).compr (by simp [Figures.list])
  have s1 : sqlSum ((flush fs).db.inodes.map fun i => (i.2 : Int)) = .ok ((figures fs).total : Int) := by
    have : ((flush fs).db.inodes.map fun i => (i.2 : Int)) = (fs.db.inodes.map (sizeOf fs)).map fun n : Nat => (n : Int) := by
      unfold flush; simp only [List.map_map]; rfl
    rw [this]; exact sqlSum_nat _ h1
  have s2 : sqlSum ((flush fs).db.objects.map fun o => (o.length : Int)) = .ok ((figures fs).dedup : Int) := by
    have : ((flush fs).db.objects.map fun o => (o.length : Int)) = (fs.db.objects.map (·.length)).map fun n : Nat => (n : Int) := by
      unfold flush; simp only [List.map_map]; rfl
    rw [this]; exact sqlSum_nat _ h2
  have s3 : sqlSum (((flush fs).db.objects.filter fun o => o.phys > 0).map fun o => o.phys) = .ok ((figures fs).compr : Int) := by
    rw [sqlSum_ok]
    · rw [show (flush fs).db.objects = fs.db.objects from rfl, compr_sum]; rfl
    · intro v hv
      obtain ⟨o, ho, rfl⟩ := List.mem_map.1 hv
      have := (List.mem_filter.1 ho).2
      have := of_decide_eq_true this
      omega
    · rw [show (flush fs).db.objects = fs.db.objects from rfl, compr_sum]
      have : (figures fs).compr = (fs.db.objects.map (·.phys.toNat)).sum := rfl
      omega
  obtain ⟨b, e1, e2⟩ := packAll_ok (figures fs).list fun m hm => by have := h m hm; omega
  refine ⟨b, ?_, ?_⟩
  · unfold extstat
    dsimp only
    rw [s1]; dsimp only
    rw [s2]; dsimp only
    rw [s3]; dsimp only
    rw [← e1]
    congr 1
    unfold getUsage flush
    dsimp only
    rw [usage_fold]
    simp [Figures.list, figures]
  · unfold s3qlstat
    rw [show (12 : Nat) = (figures fs).list.length from rfl, e2]
    rfl

example : let fs : Fs := ⟨⟨2, [⟨10, 4⟩, ⟨7, -1⟩], [(1, 0), (2, 10)], 4096⟩, [(2, 17)], [(7, true), (10, false)]⟩
    (∀ n ∈ (figures fs).list, n < 2 ^ 63) ∧ (figures fs).list = [2, 2, 2, 17, 17, 4, 4096, 2, 17, 1, 7, 0] := by decide

/-- C83 is violated: two files, each no larger than a file can be, make `s3qlstat` fail, because the sum of the sizes does not fit. -/
theorem C83_overflow : ∃ fs : Fs, (∀ i ∈ fs.db.inodes, sizeOf fs i < 2 ^ 63) ∧ fs.db.objects = [] ∧ (extstat fs).toOption = none :=
  ⟨⟨⟨2, [], [(2, 2 ^ 62), (3, 2 ^ 62)], 0⟩, [], []⟩, by decide, rfl, rfl⟩

end Verif.Tools.Stat
