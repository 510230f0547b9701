/-
C60: the depth at which the code fails, in terms of the directory tree.
-/
import Verif.Fs.ShapeProps
import Verif.Fs.TreeMix

namespace Verif.Fs

/-- `i` is reached from the root through `d` directory entries. -/
inductive AtDepth (s : St) : Nat → Nat → Prop
  | root : AtDepth s 0 rootInode
  | entry {d p c : Nat} {n : Bytes} : AtDepth s d p → n ≠ ctrlName → seenEntry s p n = some c → AtDepth s (d + 1) c

theorem depth_of_below {s : St} {i : Nat} (h : Below s rootInode i) : ∃ d, AtDepth s d i := by
  induction h with
  | refl => exact ⟨0, .root⟩
  | entry _ hn hc ih => obtain ⟨d, hd⟩ := ih; exact ⟨d + 1, .entry hd hn hc⟩

theorem pathOk_depth {repl fail : Bool} {s : St} {K : Nat → Int} (h : KHist repl fail s K) {d p : Nat} (ha : AtDepth s d p) :
    SeesDir s p → ∀ fuel, pathOk s.db fuel p = true ↔ d < fuel := by
  obtain ⟨hh, hs⟩ := h.shape
  obtain ⟨L, g⟩ := hh.good
  induction ha with
  | root =>
    intro _ fuel
    cases fuel with
    | zero => simp [pathOk]
    | succ f => simp [pathOk]
  | @entry d q c n _ hn hc ih =>
    intro hd fuel
    have hq := (tree_connected h hn hc).2
    have hcr : c ≠ rootInode := fun e => (root_on_top h).2 q n hn (e ▸ hc)
    rw [seenEntry_eq g.inv, if_neg hn] at hc
    obtain ⟨b, hb, hbd⟩ := hd
    have hdir : DirIn s c := ⟨b, by rw [← seenAttr_eq]; exact hb, hbd⟩
    cases fuel with
    | zero => simp [pathOk]
    | succ f =>
      unfold pathOk
      rw [if_neg hcr]
      cases hf : s.db.contents.find? (fun e => e.2 == c && (AL.get s.db.names e.1.2).isSome) with
      | none =>
        exfalso
        obtain ⟨k, hk, hg⟩ := (g.inv.acc.child_iff _ _ _).1 hc
        have := List.find?_eq_none.1 hf ((q, k), c) (AL.get_some_mem hg)
        unfold Db.nm at hk
        cases hx : AL.get s.db.names k with
        | none => rw [hx] at hk; cases hk
        | some v => rw [hx] at this; simp at this
      | some e =>
        have h1 := List.mem_of_find?_eq_some hf
        have h2 := List.find?_some hf
        obtain ⟨n', _, hn'⟩ := row_child hh g.inv h1
        have h3 : e.2 = c := by simp only [Bool.and_eq_true, beq_iff_eq] at h2; exact h2.1
        rw [h3] at hn'
        have h4 : e.1.1 = q := (hs.one _ _ _ _ _ hdir hn' hc).1
        show pathOk s.db f e.1.1 = true ↔ _
        rw [h4, ih hq f]; omega

/-- Directories that are not deleted have a depth, and only one. -/
theorem depth_exists {repl fail : Bool} {s : St} {K : Nat → Int} (h : KHist repl fail s K) {p : Nat} (hl : Linked s p) : ∃ d, AtDepth s d p := by
  rcases hl with rfl | ⟨q, n, hn, hc⟩
  · exact ⟨0, .root⟩
  · exact depth_of_below (tree_connected h hn hc).1

theorem depth_unique {repl fail : Bool} {s : St} {K : Nat → Int} (h : KHist repl fail s K) {p d d' : Nat} (hd : SeesDir s p)
    (h1 : AtDepth s d p) (h2 : AtDepth s d' p) : d = d' := by
  have a1 := pathOk_depth h h1 hd
  have a2 := pathOk_depth h h2 hd
  rcases Nat.lt_trichotomy d d' with hl | he | hl
  · have := (a2 _).1 ((a1 d').2 hl); omega
  · exact he
  · have := (a1 _).1 ((a2 d).2 hl); omega

/-! #### C60 -/

/-- **C60**, as far as it holds: a request whose directories are less than 255 levels below the root does not end the file
system process, unless it has to cut a block that is missing in the backend. -/
theorem no_crash_depth_partial {repl fail : Bool} {s : St} {K : Nat → Int} (h : KHist repl fail s K) {op : Op} (hq : Req K s op) (hh : Handled s op)
    (hd : ∀ p ∈ dirsOf op, SeesDir s p ∧ ∃ d, d < 255 ∧ AtDepth s d p) (hm : ∀ id a c now, op ≠ .setattr id a c true now) :
    (step s op).1 ≠ .error .crash := by
  intro hcr
  rcases no_crash_partial h.shape.1 hq hh hcr with ⟨p, hp, hf⟩ | ⟨id, a, c, now, he⟩
  · obtain ⟨h1, d, h2, h3⟩ := hd p hp
    have := (pathOk_depth h h3 h1 255).2 h2
    unfold Db.getPathOk at hf
    rw [this] at hf; cases hf
  · exact hm _ _ _ _ he

/-- The depth is the reason: `rmdir` of a directory that is not empty ends the file system process if the directory that
contains it is 255 levels or more below the root. -/
theorem deep_rmdir_crashes {repl fail : Bool} {s : St} {K : Nat → Int} (h : KHist repl fail s K) {p c x d : Nat} {n m : Bytes} {now : Int}
    (hf : s.failsafe = false) (hp : ∃ a, seenAttr s p = some a ∧ a.locked = false) (ha : AtDepth s d p) (hd : 255 ≤ d)
    (hn : n ≠ ctrlName) (hc : seenEntry s p n = some c) (hcd : SeesDir s c) (hm : m ≠ ctrlName) (hx : seenEntry s c m = some x) :
    (step s (.rmdir p n now)).1 = .error .crash := by
  have hpd := (tree_connected h hn hc).2
  have hpath : s.db.getPathOk p = false := by
    cases hg : s.db.getPathOk p with
    | false => rfl
    | true => have := (pathOk_depth h ha hpd 255).1 hg; omega
  obtain ⟨hh, hs⟩ := h.shape
  obtain ⟨L, g⟩ := hh.good
  have hch : s.db.hasChildren c = true := (hasChildren_iff g.inv g.res c).2 ⟨m, x, hm, hx⟩
  obtain ⟨a, ha1, ha2⟩ := hp
  rw [seenAttr_eq] at ha1
  obtain ⟨b, hb1, hb2⟩ := hcd
  rw [seenAttr_eq] at hb1
  rw [seenEntry_eq g.inv, if_neg hn] at hc
  show (opRmdir s p n now).1 = _
  unfold opRmdir lookup remove
  simp [hf, hn, hc, hb1, hb2, ha1, ha2, hch, hpath, St.addOpen]

/-! #### Directories of any depth -/

/-- A directory in which an entry with the name `nD` can be created. -/
structure Leaf (s : St) (K : Nat → Int) (d p : Nat) : Prop where
  depth : AtDepth s d p
  dir : ∃ a, seenAttr s p = some a ∧ isDir a.mode = true ∧ a.locked = false
  known : 0 < K p
  free : seenEntry s p nD = none

/-- `mkdir` in such a directory makes one that is a level deeper. -/
theorem Leaf.mkdir {s : St} {K : Nat → Int} {d p : Nat} (h : KHist false false s K) (hf : s.failsafe = false) (hl : Leaf s K d p) :
    ∃ s' K' c, KHist false false s' K' ∧ s'.failsafe = false ∧ Leaf s' K' (d + 1) c ∧
      (∀ e q, AtDepth s e q → AtDepth s' e q) ∧ (∀ q, 0 < K q → 0 < K' q) ∧
      (∀ q a, seenAttr s q = some a → ∃ b, seenAttr s' q = some b ∧ b.mode = a.mode ∧ b.locked = a.locked) ∧
      (∀ q n x, n ≠ ctrlName → seenEntry s q n = some x → seenEntry s' q n = some x) ∧ seenEntry s' p nD = some c := by
  have hnD : nD ≠ ctrlName := by decide
  have hq : Req K s (.mknod p nD 0o40755 0 7 7 10) := ⟨hl.known, fun _ => hl.free⟩
  obtain ⟨a, ha, had, hal⟩ := hl.dir
  have hdir : SeesDir s p := ⟨a, ha, had⟩
  have hv : Vfs s (.mknod p nD 0o40755 0 7 7 10) := ⟨hdir, by decide, by decide, by decide⟩
  obtain ⟨hh, hs⟩ := h.shape
  obtain ⟨L, g⟩ := hh.good
  have hk := kernelOk_of g.inv g.res g.le hq trivial
  rw [seenAttr_eq] at ha
  have hrc : s.db.rc p ≠ 0 := by
    cases hl.depth with
    | root =>
      have h1 := g.inv.acc.rc rootInode
      have h2 := links_eq s rootInode
      have h3 : base rootInode = 1 := rfl
      omega
    | entry _ hn hc =>
      rw [seenEntry_eq g.inv, if_neg hn] at hc
      obtain ⟨k, _, hk⟩ := (g.inv.acc.child_iff _ _ _).1 hc
      have h1 := g.inv.acc.rc p
      have h2 := links_eq s p
      have h3 : 0 < entriesTo s p := List.length_pos_of_mem (List.mem_filter.2 ⟨AL.get_some_mem hk, by simp⟩)
      have h4 : 0 ≤ base p := by unfold base; repeat' split <;> omega
      omega
  rcases create_spec g.inv 0o40755 7 7 0 0 10 hk.2 hk.1 with ⟨e, _, h1 | ⟨_, h1⟩ | ⟨_, h1⟩⟩ | ⟨s', ip, he, _, hip, _, _, hfr, hI, hR, hop, hch, hino, _⟩
  · exact absurd h1.1 hnD
  · rw [ha] at h1; simp [hal] at h1
  · exact absurd h1 hrc
  · have hst : step s (.mknod p nD 0o40755 0 7 7 10) =
        (.ok (.entry (s.db.seq + 1) (newInode ip 0o40755 7 7 0 0 10)), s'.addOpen (s.db.seq + 1) 1) := by
      show opMknod s p nD 0o40755 0 7 7 10 = _
      unfold opMknod
      rw [if_neg (by rw [hf]; simp), he]
      have : AL.get (s'.addOpen (s.db.seq + 1) 1).db.inodes (s.db.seq + 1) = some (newInode ip 0o40755 7 7 0 0 10) := by
        show AL.get s'.db.inodes _ = _
        rw [hino, if_pos rfl]
      simp only [entryReply, this]
    have hH := KHist.step _ h hq hv trivial (fun _ => id) (fun _ _ => ⟨_, by rw [hst]⟩)
    rw [hst] at hH
    have hpc : p ≠ s.db.seq + 1 := by rintro rfl; rw [hfr] at ha; cases ha
    obtain ⟨L', g'⟩ := hH.shape.1.good
    have hse : ∀ q n, n ≠ ctrlName → seenEntry (s'.addOpen (s.db.seq + 1) 1) q n =
        if q = p ∧ n = nD then some (s.db.seq + 1) else seenEntry s q n := by
      intro q n hn
      rw [seenEntry_eq g'.inv, if_neg hn, seenEntry_eq g.inv, if_neg hn]
      exact hch q n
    have hsa : ∀ i, seenAttr (s'.addOpen (s.db.seq + 1) 1) i = if i = s.db.seq + 1 then some (newInode ip 0o40755 7 7 0 0 10)
        else (AL.get s.db.inodes i).map (fun x => if i = p then touchDir 10 x else x) := by
      intro i; rw [seenAttr_eq]; exact hino i
    have hdep : ∀ d q, AtDepth s d q → AtDepth (s'.addOpen (s.db.seq + 1) 1) d q := by
      intro d q hq
      induction hq with
      | root => exact .root
      | @entry d q c n _ hn hc ih =>
        refine .entry ih hn ?_
        rw [hse q n hn]
        by_cases hx : q = p ∧ n = nD
        · rw [hx.1, hx.2, hl.free] at hc; cases hc
        · rw [if_neg hx]; exact hc
    have hent : seenEntry (s'.addOpen (s.db.seq + 1) 1) p nD = some (s.db.seq + 1) := by rw [hse p nD hnD, if_pos ⟨rfl, rfl⟩]
    refine ⟨_, _, s.db.seq + 1, hH, by show s'.failsafe = false; rw [hR.fs]; exact hf, ⟨.entry (hdep d p hl.depth) hnD hent, ⟨_, by rw [hsa, if_pos rfl], ?_, rfl⟩, ?_, ?_⟩, hdep, ?_, ?_, ?_, hent⟩
    · unfold newInode isDir; dsimp only; split <;> decide
    · have := hh.nonneg (s.db.seq + 1)
      simp only [kernelDelta, if_pos]; omega
    · rw [hse _ _ hnD, if_neg (fun e => hpc e.1.symm), seenEntry_eq g.inv, if_neg hnD]
      cases hc : s.db.child (s.db.seq + 1) nD with
      | none => rfl
      | some x =>
        obtain ⟨k, _, hk⟩ := (g.inv.acc.child_iff _ _ _).1 hc
        have := rc_pos_ne (g.inv.acc.par0 _ _ _ hk)
        exact absurd hfr this
    · intro q hq
      simp only [kernelDelta]; split <;> omega
    · intro q b hb
      rw [seenAttr_eq] at hb
      have hqc : q ≠ s.db.seq + 1 := by rintro rfl; rw [hfr] at hb; cases hb
      refine ⟨_, by rw [hsa, if_neg hqc, hb]; rfl, ?_, ?_⟩ <;> split <;> rfl
    · intro q n x hn hx
      rw [hse q n hn, if_neg, hx]
      rintro ⟨rfl, rfl⟩
      rw [hl.free] at hx; cases hx

theorem leaf_at : ∀ d, ∃ s K p, KHist false false s K ∧ s.failsafe = false ∧ Leaf s K d p
  | 0 => by
    exact ⟨s0, k0, rootInode, khist0 [] (by decide) (by decide), rfl, .root, by decide +kernel, by decide, by decide +kernel⟩
  | d + 1 => by
    obtain ⟨s, K, p, h1, h2, h3⟩ := leaf_at d
    obtain ⟨s', K', c, h4, h5, h6, _⟩ := h3.mkdir h1 h2
    exact ⟨s', K', c, h4, h5, h6⟩

/-- C60 fails: at any depth from 255 on there is a directory whose `rmdir` ends the file system process because it is not
empty, after requests that all succeed. -/
theorem deep_rmdir_witness (d : Nat) (hd : 255 ≤ d) : ∃ s K p c x, KHist false false s K ∧ s.failsafe = false ∧ AtDepth s d p ∧
    seenEntry s p nD = some c ∧ seenEntry s c nD = some x ∧ Req K s (.rmdir p nD 20) ∧ Handled s (.rmdir p nD 20) ∧
    (step s (.rmdir p nD 20)).1 = .error .crash := by
  have hnD : nD ≠ ctrlName := by decide
  obtain ⟨s, K, p, h1, h2, h3⟩ := leaf_at d
  obtain ⟨a, ha, had, hal⟩ := h3.dir
  obtain ⟨s1, K1, c, a1, a2, a3, a4, a5, a6, a7, a8⟩ := h3.mkdir h1 h2
  obtain ⟨b, hb, hbd, hbl⟩ := a3.dir
  obtain ⟨s2, K2, x, b1, b2, b3, b4, b5, b6, b7, b8⟩ := a3.mkdir a1 a2
  obtain ⟨a', ha', hm, hl⟩ := a6 p a ha
  obtain ⟨a2', ha2', _, hl2⟩ := b6 p a' ha'
  obtain ⟨b', hb', hbm, _⟩ := b6 c b hb
  have hpd := b4 _ _ (a4 _ _ h3.depth)
  have hpc := b7 _ _ _ hnD a8
  exact ⟨s2, K2, p, c, x, b1, b2, hpd, hpc, b8, b5 _ (a5 _ h3.known), hnD,
    deep_rmdir_crashes b1 b2 ⟨a2', ha2', by rw [hl2, hl]; exact hal⟩ hpd hd hnD hpc ⟨b', hb', by rw [hbm]; exact hbd⟩ hnD b8⟩

/-- The hypotheses of `no_crash_depth_partial` are met at all smaller depths. -/
example (d : Nat) (hd : d < 255) : ∃ s K p, KHist false false s K ∧ AtDepth s d p ∧ (step s (.mknod p ctrlName 0o40755 0 7 7 20)).1 ≠ .error .crash := by
  obtain ⟨s, K, p, h1, h2, h3⟩ := leaf_at d
  refine ⟨s, K, p, h1, h3.depth, no_crash_depth_partial h1 ⟨h3.known, fun h => absurd rfl h⟩ trivial ?_ (by intros; simp)⟩
  intro q hq
  obtain rfl : q = p := by simpa [dirsOf] using hq
  obtain ⟨a, ha, had, _⟩ := h3.dir
  exact ⟨⟨a, ha, had⟩, d, hd, h3.depth⟩

end Verif.Fs
