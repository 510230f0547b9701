import Verif.Meta.ExpLemmas
/-
Theorems about the metadata store taken by itself (C10, C11, C12).  The protocol that uses it is in
Verif.Meta.Proto.
-/
namespace Verif.Meta

/-! ### C12: incremental uploads -/

/-- C12 (write tracking without holes).  The remote copy is a complete snapshot of the database file
when write tracking starts.  Then, after any sequence of writes and truncations by which SQLite never
leaves a hole, an incremental upload of the tracked blocks (in any order) under a sequence number not
below those in the backend makes a download give exactly the database file, whatever the order in
which the download workers finish. -/
theorem C12_incremental_partial (cfg : Cfg) (blocks : Blocks) (p0 p : Params) (f0 : Bytes) (ops : List FileOp)
    (hsnap : Snapshot cfg blocks p0 f0) (hbelow : ∀ b s, (AL.get blocks (b, s)).isSome → s ≤ p0.seq)
    (hseq : p0.seq ≤ p.seq) (hdense : DenseAll f0 ops)
    (bl : List Nat) (hbl : bl.Perm (upBlocks cfg true (ops.foldl (track cfg.bs) []) (applyAll f0 ops).length))
    (order : List DlJob → List DlJob) (ho : ∀ l, (order l).Perm l) :
    download cfg (upload cfg blocks p.seq (applyAll f0 ops) bl)
      (finalize cfg p (applyAll f0 ops).length (applyAll f0 ops)) false order = some (applyAll f0 ops) := by
  apply download_snapshot _ _ _ _ _ _ ho
  refine ⟨rfl, rfl, ?_⟩
  have h1 := track_all cfg ops blocks p0.seq f0 [] hsnap.2.2 hdense
  refine upload_sync bl blocks ?_
  refine (h1.mono hbelow hseq).weaken ?_
  intro b hb
  exact hbl.mem_iff.2 (by simpa [upBlocks] using hb)

/-- C12 (full upload).  A full upload needs no assumption about what is in the backend below its
sequence number. -/
theorem C12_full (cfg : Cfg) (blocks : Blocks) (p : Params) (f : Bytes) (dirty bl : List Nat)
    (hbl : bl.Perm (upBlocks cfg false dirty f.length))
    (order : List DlJob → List DlJob) (ho : ∀ l, (order l).Perm l) :
    download cfg (upload cfg blocks p.seq f bl) (finalize cfg p f.length f) false order = some f := by
  apply download_snapshot _ _ _ _ _ _ ho
  refine ⟨rfl, rfl, ?_⟩
  refine upload_sync bl blocks ?_
  intro b hlt hb
  exfalso
  apply hb
  rw [hbl.mem_iff]
  simp only [upBlocks, Bool.false_eq_true, if_false, List.mem_range]
  exact (mem_nBlocks cfg f.length b).2 hlt

/-- Without the assumption that SQLite leaves no holes C12 is false: blocks skipped by a write beyond
the end of the file are not marked, so that old objects of these blocks show through. -/
theorem C12_holes : ∃ (cfg : Cfg) (blocks : Blocks) (p0 p : Params) (f0 : Bytes) (ops : List FileOp),
    Snapshot cfg blocks p0 f0 ∧ (∀ b s, (AL.get blocks (b, s)).isSome → s ≤ p0.seq) ∧ p0.seq < p.seq ∧
    download cfg (upload cfg blocks p.seq (applyAll f0 ops) (upBlocks cfg true (ops.foldl (track cfg.bs) []) (applyAll f0 ops).length))
      (finalize cfg p (applyAll f0 ops).length (applyAll f0 ops)) false id ≠ some (applyAll f0 ops) := by
  let cfg : Cfg := { bs := 2, pos := by decide, hash := fun f => f.length * 1000 + (f.map UInt8.toNat).sum }
  let f0 : Bytes := [1, 2, 3, 4, 5, 6]
  let p0 : Params := { seq := 1, dbSize := 6, digest := cfg.hash f0, mounted := false, needsFsck := false, lastFsck := 0, lastMod := 0 }
  let blocks : Blocks := [((0, 1), [1, 2]), ((1, 1), [3, 4]), ((2, 1), [5, 6])]
  refine ⟨cfg, blocks, p0, { p0 with seq := 2 }, f0, [.trunc 2, .write 4 [9, 9]], ⟨rfl, rfl, ?_⟩, ?_, by decide, ?_⟩
  · intro b hb _
    have hb3 : b = 0 ∨ b = 1 ∨ b = 2 := by
      have : b * 2 < 6 := hb
      omega
    have mk : ∀ b, b < 3 → ∃ c, AL.get blocks (b, 1) = some c ∧ c.length ≤ 2 ∧ ∀ i, i < 2 → c.getD i 0 = f0.getD (b * 2 + i) 0 := by decide
    have nw : ∀ s, (AL.get blocks (b, s)).isSome → s ≤ 1 := by
      intro s hs
      rw [isSome_iff_mem] at hs
      simp [blocks] at hs
      omega
    obtain ⟨c, h1, h2, h3⟩ := mk b (by omega)
    exact ⟨1, c, ⟨by rw [h1]; rfl, Nat.le_refl _, fun s hs _ => nw s hs⟩, h1, h2, fun i hi _ => h3 i hi⟩
  · intro b s hs
    rw [isSome_iff_mem] at hs
    simp [blocks] at hs
    show s ≤ 1
    omega
  · have hblocks : upload cfg blocks 2 (applyAll f0 [.trunc 2, .write 4 [9, 9]]) [2] =
        [((0, 1), [1, 2]), ((1, 1), [3, 4]), ((2, 1), [5, 6]), ((2, 2), [9, 9])] := by decide
    have hup : upBlocks cfg true ([FileOp.trunc 2, .write 4 [9, 9]].foldl (track cfg.bs) []) (applyAll f0 [.trunc 2, .write 4 [9, 9]]).length = [2] := by decide
    show download cfg (upload cfg blocks 2 _ _) _ false id ≠ _
    rw [hup, hblocks]
    decide

/-! ### C11: expiration -/

/-- C11.  When expiration succeeds, the parameter objects that remain are exactly those with fewer than
`keep` newer ones (`keep` = 32 unless the caller says otherwise), unchanged; the block objects that
remain are exactly those that one of the retained versions needs: the newest object not above the
version, of a block inside the database file of that version. -/
theorem C11_expire (cfg : Cfg) (r r' : Remote) (keep : Nat) (hnk : AL.NK r.vers) (hk : 0 < keep)
    (h : expire cfg r keep = some r') :
    (∀ n p, AL.get r'.vers n = some p ↔
      (AL.get r.vers n = some p ∧ ((r.vers.map (·.1)).filter (fun x => decide (n < x))).length < keep)) ∧
    (∀ b s c, AL.get r'.blocks (b, s) = some c ↔
      (AL.get r.blocks (b, s) = some c ∧
        ∃ n p, AL.get r'.vers n = some p ∧ b * cfg.bs < p.dbSize ∧ Newest r.blocks b n s)) ∧
    r'.cur = r.cur := by
  unfold expire at h
  rw [Option.map_eq_some_iff] at h
  obtain ⟨l, hl, rfl⟩ := h
  obtain ⟨h1, h2⟩ := expireList_spec cfg r keep hnk hk hl
  obtain ⟨g1, g2, g3⟩ := get_delKeys l r
  have hv : ∀ n p, AL.get (l.foldl delKey r).vers n = some p ↔ (AL.get r.vers n = some p ∧ Kept r.vers keep n) := by
    intro n p
    rw [g1]
    constructor
    · intro h
      split at h
      · cases h
      · rename_i hn
        refine ⟨h, ?_⟩
        apply Classical.byContradiction
        intro hk2
        exact hn ((h1 n).2 ⟨by rw [h]; rfl, hk2⟩)
    · rintro ⟨h, hk2⟩
      rw [if_neg, h]
      intro hm
      exact ((h1 n).1 hm).2 hk2
  refine ⟨hv, ?_, g3⟩
  intro b s c
  have hneed : (∃ n p, AL.get (l.foldl delKey r).vers n = some p ∧ b * cfg.bs < p.dbSize ∧ Newest r.blocks b n s) ↔
      Needed cfg r keep b s := by
    unfold Needed
    constructor
    · rintro ⟨n, p, hp, h3⟩
      have := (hv n p).1 hp
      exact ⟨n, p, this.1, this.2, h3⟩
    · rintro ⟨n, p, hp, hk2, h3⟩
      exact ⟨n, p, (hv n p).2 ⟨hp, hk2⟩, h3⟩
  rw [hneed, g2]
  constructor
  · intro h
    split at h
    · cases h
    · rename_i hn
      refine ⟨h, ?_⟩
      apply Classical.byContradiction
      intro hk2
      exact hn ((h2 b s).2 ⟨by rw [h]; rfl, hk2⟩)
  · rintro ⟨h, hk2⟩
    rw [if_neg, h]
    intro hm
    exact ((h2 b s).1 hm).2 hk2

/-- C11 (when it succeeds).  Expiration fails exactly if one of the versions to retain has parameters
with another sequence number, or lacks an object for a block of its database file that has objects
in the backend. -/
theorem C11_succeeds (cfg : Cfg) (r : Remote) (keep : Nat) (hnk : AL.NK r.vers) (hk : 0 < keep) :
    (expire cfg r keep).isSome ↔
      ∀ n p, AL.get r.vers n = some p → ((r.vers.map (·.1)).filter (fun x => decide (n < x))).length < keep →
        (n = 0 ∨ p.seq = n) ∧
        ∀ b s, (AL.get r.blocks (b, s)).isSome → b * cfg.bs < p.dbSize → ∃ s', (AL.get r.blocks (b, s')).isSome ∧ s' ≤ n := by
  have h := expireList_isSome cfg r keep hnk hk
  unfold expire
  rw [Option.isSome_map, h]
  constructor
  · intro h n p hp hkept
    obtain ⟨h1, h2⟩ := h n p hp hkept
    refine ⟨h1, fun b s hs hlt => ?_⟩
    obtain ⟨s', hs'⟩ := h2 b ⟨s, hs⟩ hlt
    exact ⟨s', hs'.1, hs'.2.1⟩
  · intro h n p hp hkept
    obtain ⟨h1, h2⟩ := h n p hp hkept
    refine ⟨h1, ?_⟩
    rintro b ⟨s, hs⟩ hlt
    obtain ⟨s', hs', hle⟩ := h2 b s hs hlt
    exact newest_exists hs' hle

/-- Deleting any part of the objects that expiration wants to delete (it may be interrupted) leaves
every retained snapshot complete. -/
theorem expire_part_keeps (cfg : Cfg) (r : Remote) (keep : Nat) (hnk : AL.NK r.vers) (hk : 0 < keep) {l done : List Key}
    (h : expireList cfg r keep = some l) (hd : ∀ k ∈ done, k ∈ l) {n : Nat} {p : Params} {f : Bytes}
    (hp : AL.get r.vers n = some p) (hn : p.seq = n) (hkept : Kept r.vers keep n) (hs : Snapshot cfg r.blocks p f) :
    AL.get (done.foldl delKey r).vers n = some p ∧ Snapshot cfg (done.foldl delKey r).blocks p f := by
  obtain ⟨h1, h2⟩ := expireList_spec cfg r keep hnk hk h
  obtain ⟨g1, g2, g3⟩ := get_delKeys done r
  refine ⟨?_, hs.1, hs.2.1, ?_⟩
  · rw [g1, if_neg, hp]
    intro hm
    exact ((h1 n).1 (hd _ hm)).2 hkept
  · intro b hlt hb
    refine (hs.2.2 b hlt hb).shrink ?_ ?_
    · rintro ⟨b', s'⟩ hk2
      rw [g2] at hk2
      split at hk2
      · cases hk2
      · exact hk2
    · intro s hnew
      rw [g2, if_neg]
      intro hm
      refine ((h2 b s).1 (hd _ hm)).2 ⟨n, p, hp, hkept, by rw [hs.1]; exact hlt, by rw [← hn]; exact hnew⟩

/-! ### Concrete cases -/

section Examples

def exCfg : Cfg := { bs := 2, pos := by decide, hash := fun f => f.length * 1000 + (f.map UInt8.toNat).sum }

/-- Hypotheses of `C12_incremental_partial`: a database of three blocks that shrinks to one and a half blocks
and grows again. -/
example : DenseAll [1, 2, 3, 4, 5, 6] [.trunc 3, .write 2 [7, 8, 9], .write 0 [5]] ∧
    [FileOp.trunc 3, .write 2 [7, 8, 9], .write 0 [5]].foldl (track exCfg.bs) [] = [1, 2, 0] ∧
    applyAll [1, 2, 3, 4, 5, 6] [.trunc 3, .write 2 [7, 8, 9], .write 0 [5]] = [5, 2, 7, 8, 9] := by
  refine ⟨?_, by decide, by decide⟩
  simp only [DenseAll, FileOp.Dense, and_true]
  decide

/-- A write that ends exactly at a block boundary does not mark the next block; one that starts there
does not mark the previous one. -/
example : marks 4 4 4 = [1] ∧ marks 4 3 2 = [0, 1] ∧ marks 4 8 1 = [2] := by decide

/-- Two versions; version 5 shares block 0 with version 3.  One object is obsolete. -/
def exRemote : Remote :=
  { cur := none
    vers := [(3, ⟨3, 4, 0, false, false, 0, 0⟩), (5, ⟨5, 2, 0, false, false, 0, 0⟩), (1, ⟨1, 2, 0, false, false, 0, 0⟩)]
    blocks := [((0, 1), [1]), ((0, 3), [2]), ((1, 3), [3]), ((0, 4), [4])] }

/-- Hypotheses of `C11_expire` and `C11_succeeds` with one version to keep: version 5 needs only object
(0, 4). -/
example : AL.NK exRemote.vers ∧ (expire exCfg exRemote 1).isSome ∧
    (∀ n, n < 6 → Kept exRemote.vers 1 n → (AL.get exRemote.vers n).isSome → n = 5) := by
  have hnk : AL.NK exRemote.vers := by unfold AL.NK; decide
  have hsome : ∀ b s, (AL.get exRemote.blocks (b, s)).isSome ↔ (b, s) ∈ [(0, 1), (0, 3), (1, 3), (0, 4)] := by
    intro b s; rw [isSome_iff_mem]; rfl
  refine ⟨hnk, ?_, ?_⟩
  · rw [C11_succeeds exCfg exRemote 1 hnk (by decide)]
    intro n p hp hk
    have hn : n = 5 := by
      have hm := (isSome_iff_mem exRemote.vers n).1 (by rw [hp]; rfl)
      simp [exRemote] at hm
      rcases hm with rfl | rfl | rfl
      · revert hk; decide
      · rfl
      · revert hk; decide
    subst hn
    cases hp
    refine ⟨by decide, ?_⟩
    intro b s hs hlt
    have hb : b = 0 := by have : b * 2 < 2 := hlt; omega
    subst hb
    exact ⟨1, by decide, by decide⟩
  · decide

end Examples

end Verif.Meta
