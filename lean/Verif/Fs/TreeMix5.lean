/-
Theorems about several `copy_tree` commands (fs.py:504-638) with other requests in between: the file system stays consistent
and nobody sees the copies before they are complete (C24).
-/
import Verif.Fs.TreeMix4

namespace Verif.Fs

/-- C24: with any number of `copy_tree` commands in progress and other requests in between, all counts are exact and all
entries valid, at every moment. -/
theorem copies_consistent_partial {repl fail : Bool} {s : St} {K : Nat → Int} {J : List Job} (h : Mixed repl fail s K J) :
    LinksExact s ∧ EntriesValid s ∧ NoDup s ∧ ObjectsExact s ∧ (repl = false → NamesExact s) := by
  obtain ⟨L, H, g⟩ := h.inv
  obtain ⟨h1, h2, h3⟩ := g.inv.links_exact
  refine ⟨h1, h2, h3, g.inv.objects_exact, fun hr => ?_⟩
  have := g.inv
  rw [g.exact hr] at this
  exact this.names_exact

/-- C24: nobody sees a copy before it is complete.  The kernel knows none of its inodes, no entry from outside leads into it,
and two copies have nothing in common.  Its top has no links. -/
theorem copies_hidden {repl fail : Bool} {s : St} {K : Nat → Int} {J : List Job} (h : Mixed repl fail s K J) {t : Nat} (ht : Running J t) :
    (∀ i, Below s t i → seenAttr s i ≠ none ∧ K i ≤ 0) ∧ (∀ p n i, n ≠ ctrlName → ¬Below s t p → seenEntry s p n = some i → ¬Below s t i) ∧
    (∀ t' i, Running J t' → Below s t i → Below s t' i → t = t') ∧ (∀ p n, n ≠ ctrlName → seenEntry s p n ≠ some t) := by
  obtain ⟨L, H, g⟩ := h.inv
  have hh := g.hid t ht
  have hi : ∀ {i}, H t i ↔ Below s t i := hh.iff g.inv g.res
  refine ⟨fun i hb => ⟨?_, ?_⟩, fun p n i hn hp hc hb => ?_, fun t' i ht' h1 h2 => ?_, fun p n hn hc => ?_⟩
  · rw [seenAttr_eq]; exact hh.ex i (hi.2 hb)
  · have := g.le i
    have h0 : s.cnt i = 0 := by unfold St.cnt; rw [hh.opn i (hi.2 hb)]; rfl
    omega
  · rw [seenEntry_eq g.inv, if_neg hn] at hc
    obtain ⟨k, _, hk⟩ := (g.inv.acc.child_iff _ _ _).1 hc
    exact hh.into p k i hk (fun h => hp (hi.1 h)) (hi.2 hb)
  · exact g.disj t t' ht ht' i (hi.2 h1) (((g.hid t' ht').iff g.inv g.res).2 h2)
  · rw [seenEntry_eq g.inv, if_neg hn] at hc
    have h1 := (g.inv.child_pos hc).1
    have h2 := (g.inv.hid t ht).2.2
    omega

/-- What the kernel knows is in no unfinished copy. -/
theorem Mixed.notInCopy {repl fail : Bool} {s : St} {K : Nat → Int} {J : List Job} (h : Mixed repl fail s K J) {i : Nat} (hk : 0 < K i) : ¬InCopy s J i := by
  rintro ⟨t, ht, hb⟩
  have := ((copies_hidden h ht).1 i hb).2
  omega

/-- C24: `copy_tree` never finds an entry of the same name in the directory that it makes. -/
theorem copies_no_dup {repl fail : Bool} {s s1 : St} {K : Nat → Int} {J1 J2 : List Job} {src tgt tmp sd dd k id new : Nat} {w : CpWalk}
    {q : List (Nat × Nat × Nat)} {cache : List (Nat × Nat)} (h : Mixed repl fail s K (J1 ++ ⟨src, tgt, tmp, .row w sd dd k id⟩ :: J2))
    (hc : copyRow s w id = some (s1, new, q, cache)) : s1.db.addCopy dd k new ≠ none := by
  intro ha
  obtain ⟨L, H, g⟩ := h.inv
  have hj := g.jobs _ ((mem_mid (J1 := J1) (J2 := J2) _).2 (Or.inl rfl))
  have hrun := running_mid (J1 := J1) (J2 := J2) (src := src) (tgt := tgt) (tmp := tmp) (pc := .row w sd dd k id) (by intro h; cases h)
  have hspec := copyRow_spec g.inv hc (fun x hx => by
    obtain ⟨h1, h2⟩ := hj.cache id x hx
    exact ((g.hid tmp hrun).rc g.inv h1).resolve_left h2)
  have h1 := (hj.work sd dd k (List.mem_cons_self ..)).2 k (Nat.le_refl _)
  unfold Db.addCopy at ha
  rw [hspec.1.con, h1] at ha
  cases ha

/-! #### Cases -/

/-- Two copies at once: `/d` to `/t` and `/t` to `/d`. -/
def mxSt1 : St := match copyStart cmSt 4 6 20 with | .ok (s, _) => s | .error _ => cmSt
def mxSt2 : St := match copyStart mxSt1 6 4 21 with | .ok (s, _) => s | .error _ => cmSt
/-- A file is made in the root directory, and then `/d/f` is copied, as inode 10. -/
def mxSt3 : St := (step mxSt2 (.mknod 1 nX 0o100644 0 7 7 22)).2
def mxSt4 : St := match copyRow mxSt3 ⟨none, [], []⟩ 5 with
  | some (s, new, _, _) => (match s.db.addCopy 7 3 new with | some d => { s with db := d } | none => cmSt)
  | none => cmSt

theorem mx_two : Mixed false false mxSt2 cmK [⟨6, 4, 8, .walk ⟨none, [(6, 8, 0)], []⟩⟩, ⟨4, 6, 7, .walk ⟨none, [(4, 7, 0)], []⟩⟩] := by
  have h0 : Mixed false false cmSt cmK [] := .init cm_hist
  have h1 := h0.next (.start (src := 4) (tgt := 6) (now := 20) (w := ⟨none, [(4, 7, 0)], []⟩) (s' := mxSt1) (h0.notInCopy (by decide +kernel)) (by rfl))
  exact h1.next (.start (src := 6) (tgt := 4) (now := 21) (w := ⟨none, [(6, 8, 0)], []⟩) (s' := mxSt2) (h1.notInCopy (by decide +kernel)) (by rfl))

/-- Both copies are unfinished; the first has copied `/d/f`. -/
theorem mx_copied : ∃ K, Mixed false false mxSt4 K [⟨6, 4, 8, .walk ⟨none, [(6, 8, 0)], []⟩⟩, ⟨4, 6, 7, .walk ⟨none, [(4, 7, 4)], []⟩⟩] := by
  have h1 := mx_two.next (.step (.mknod 1 nX 0o100644 0 7 7 22) (by decide +kernel) trivial (fun _ h => h) (fun _ h => h.elim) (fun _ _ _ h => by cases h))
  have h2 := h1.next (.work (J1 := [_]) (J2 := []) .pop ⟨fun _ _ _ _ _ h => by (cases h), fun h => by (cases h)⟩)
  have h3 := h2.next (.work (J1 := [_]) (J2 := []) (.read (k := 3) (id := 5) (by decide +kernel)) ⟨fun _ _ _ _ _ h => by (cases h), fun h => by (cases h)⟩)
  have h4 := h3.next (.work (J1 := [_]) (J2 := []) (.handle true (s1 := { mxSt3 with db := mxSt3.db.copyInode 5 ((AL.get mxSt3.db.inodes 5).getD ⟨0, 0, 0, 0, 0, 0, 0, 0, 0, false⟩) })
    (new := 10) (q := []) (cache := []) (db := mxSt4.db) (by rfl) (by rfl)) ⟨fun w sd dd k id h => by cases h; decide +kernel, fun h => by (cases h)⟩)
  exact ⟨_, h4⟩

/-- The theorems apply to it: inode 10 is in the copy below inode 7. -/
example : ∃ K J, Mixed false false mxSt4 K J ∧ Running J 7 ∧ Running J 8 ∧ Below mxSt4 7 10 ∧ seenEntry mxSt4 7 nF = some 10 := by
  obtain ⟨K, h⟩ := mx_copied
  refine ⟨K, _, h, ⟨_, List.mem_cons_of_mem _ (List.mem_cons_self ..), rfl, fun h => (by cases h)⟩, ⟨_, List.mem_cons_self .., rfl, fun h => (by cases h)⟩, ?_, ?_⟩
  · exact Below.refl.entry (n := nF) (by decide) (by decide +kernel)
  · decide +kernel

/-- C24 fails if an open file is deleted while its blocks are being flushed: its inode is there still, and it is copied, but
the copy gets an entry whose name does not exist any more. -/
theorem cptree_stale_name : ∃ s K tmp, Copying false false 4 6 s K tmp .done ∧ ¬EntriesValid s ∧ seenAttr s 8 ≠ none ∧ seenEntry s 6 nF = none := by
  have h1 := cm_row.flush (by decide +kernel) (.step (.unlink 4 nF 21) (by decide +kernel) (by decide +kernel) (fun _ => by decide +kernel) (fun _ _ => okE (by decide +kernel)))
  have h2 := h1.handle true [] (new := 8) (q := []) (cache := [(5, 8)]) (s1 := match copyRow (step cmSt1 (.unlink 4 nF 21)).2 ⟨none, [], []⟩ 5 with | some (s, _) => s | none => cmSt)
    (by rfl) (db := match copyRow (step cmSt1 (.unlink 4 nF 21)).2 ⟨none, [], []⟩ 5 with | some (s, _) => ((s.db.addCopy 7 3 8).getD s.db) | none => cmSt.db) (by rfl)
  have h3 := h2.end_ (by decide +kernel)
  have h4 := h3.finish (s' := match copyRow (step cmSt1 (.unlink 4 nF 21)).2 ⟨none, [], []⟩ 5 with | some (s, _) => ((copyEnd { s with db := (s.db.addCopy 7 3 8).getD s.db } 6 7).getD cmSt) | none => cmSt) (by rfl)
  exact ⟨_, _, _, h4, by decide +kernel, by decide +kernel, by decide +kernel⟩

end Verif.Fs
