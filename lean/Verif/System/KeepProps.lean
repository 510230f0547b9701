import Verif.System.Props
/-
C74: a cache directory that was kept (`mount.s3ql --keep-cache`) is used only if it is up to date.
-/
namespace Verif.System
open Verif.FileData

section
variable {cfg : Meta.Cfg} {H : Bytes → Bytes} {dec : Bytes → Option Tables}

/-- C74: whatever was mounted on whatever computers, with or without `--keep-cache`: the blocks that are in the cache when a mount starts
to serve requests are not dirty, have the bytes that the successful writes and truncations so far made of the file (and NUL bytes after its end),
and are the same as what could be downloaded.  Missing: histories with restore-metadata (`C74_restore`). -/
theorem C74_loaded_partial (hH : Function.Injective H) {bs m now : Nat} {f : Bytes} (hb : 0 < bs) (hf : dec f = some noTables) {evs : List Ev} {w w' : World}
    (hd : ∀ ev ∈ evs, Plain ev) (he : exec cfg H dec (mkfs cfg bs m now f) evs = some w) (hs : step cfg H dec w .attach = some w')
    {i b : Nat} {e : Cache.Entry} (hc : AL.get w'.fs.c.cache (i, b) = some e) :
    e.dirty = false ∧ (∀ x, x < w'.fs.bs → at0 e.content x = at0 (contents cfg H dec (mkfs cfg bs m now f) evs (fun _ => []) i) (b * w'.fs.bs + x)) ∧
      (∀ o ob, AL.get w'.fs.c.rows (i, b) = some o → AL.get w'.fs.c.objs o = some ob → ob.uploaded = true → w'.fs.c.backend o = some e.content) ∧
      (AL.get w'.fs.c.rows (i, b) = none → e.content = []) := by
  obtain ⟨t0, m0, D0, h0⟩ := WInv.exec hH evs _ w _ _ _ _ (winv_mkfs cfg H m now hb hf) hd he
  obtain ⟨t1, m1, D1, h1⟩ := h0.step hH (fun _ e => by cases e) hs
  have hdirty : e.dirty = false ∧ w'.fs.tasks = [] := by
    unfold step at hs
    dsimp only at hs
    split at hs
    · split at hs
      · split at hs
        · cases hs
          refine ⟨?_, rfl⟩
          unfold Fs.start at hc
          dsimp only at hc
          obtain ⟨x, _, hx⟩ := List.mem_map.1 (AL.get_some_mem hc)
          rw [← (Prod.mk.inj hx).2]
        · cases hs
      · cases hs
    · cases hs
  have hi := h1.fi.cache
  have hcont := hi.cont _ _ hc
  have hrow := hi.clean _ _ hc hdirty.1
  refine ⟨hdirty.1, fun x hx => ?_, fun o ob ho hob hu => ?_, fun ho => ?_⟩
  · have := (h1.fi.rest i (fun t x hx => by rw [hdirty.2] at hx; cases hx)).2 (b * w'.fs.bs + x)
    unfold byte at this
    rw [Nat.mul_comm b, Nat.mul_add_div h1.fi.bs, Nat.div_eq_of_lt hx, Nat.add_zero, Nat.mul_add_mod, Nat.mod_eq_of_lt hx] at this
    rw [hcont, this, Nat.mul_comm b]
    rfl
  · rw [ho] at hrow
    rw [hi.upl o ob hob hu, hcont]
    exact congrArg some hrow
  · rw [ho] at hrow
    rw [hcont]
    exact hrow.symm

/-- C74: and a cache that was kept is used again: on a computer whose metadata are those in the storage, a mount starts with exactly the blocks in
its cache directory, without downloading anything. -/
theorem C74_used {w : World} {a : Nat} {r : Meta.Params} {tb : Tables} (hu : w.up = false) (hp : w.mw.proc = none) (hr : w.mw.remote.cur = some r)
    (hl : (w.mw.disk a).params = some r) (hm : r.mounted = false) (hn : r.needsFsck = false) (ht : dec (w.mw.disk a).view = some tb) :
    ∃ w', exec cfg H dec w [.proto (.startMount a), .proto .next, .proto .next, .proto .next, .attach] = some w' ∧ w'.up = true ∧ w'.fs.tables = tb ∧
      ∀ k, (AL.get w'.fs.c.cache k).map (·.content) = AL.get (w.dirs a) k := by
  have hmc : Meta.mountCheck w.mw.remote.cur (w.mw.disk a).params = .cached := by
    rw [hr, hl]; unfold Meta.mountCheck Meta.readCached; dsimp only
    rw [if_neg (Nat.lt_irrefl _)]
    dsimp only
    rw [if_neg (Nat.lt_irrefl _), if_neg (fun g => g rfl), if_neg (by rw [hm]; exact Bool.false_ne_true), if_neg (by rw [hn]; exact Bool.false_ne_true)]
  let w0 : Meta.World := w.mw.setProc { m := a, kind := .mount, p := r, dirty := [], early := false, pc := .got }
  have e0 : Meta.step cfg w.mw (.startMount a) = some w0 := by
    unfold Meta.step
    rw [hp]
    dsimp only
    rw [hmc, hr]
  obtain ⟨w3, pr, h1, h2, h3, h4, h5, h6⟩ := announce (cfg := cfg) (w := w0) rfl rfl
  have hn3 : ∀ (u : World) (w2 : Meta.World), Meta.exec cfg u.mw [.next, .next, .next] = some w2 →
      exec cfg H dec u [.proto .next, .proto .next, .proto .next, .attach] = exec cfg H dec { u with mw := w2 } [.attach] := by
    intro u w2 hex
    unfold Meta.exec at hex
    split at hex
    · cases hex
    rename_i v1 s1
    unfold Meta.exec at hex
    split at hex
    · cases hex
    rename_i v2 s2
    unfold Meta.exec at hex
    split at hex
    · cases hex
    rename_i v3 s3
    cases hex
    rw [exec_cons, sys_proto rfl s1]
    dsimp only
    rw [exec_cons, sys_proto (w := { u with mw := v1, dirs := dirsAfter u.dirs v1 .next }) rfl s2]
    dsimp only
    rw [exec_cons, sys_proto (w := { u with mw := v2, dirs := dirsAfter (dirsAfter u.dirs v1 .next) v2 .next }) rfl s3]
    rfl
  have hat : step cfg H dec { w with mw := w3 } .attach = some { mw := w3, up := true, fs := Fs.start w.fs.bs tb w.fs.c.backend w.fs.c.leaked (w.dirs a), dirs := w.dirs } := by
    unfold step
    dsimp only
    rw [h2]
    dsimp only
    rw [if_pos ⟨hu, h5, h3⟩, h4]
    have hv : (w3.disk a).view = (w.mw.disk a).view := h6
    show (match dec (w3.disk a).view with | some t => _ | none => _ : Option World) = _
    rw [hv, ht]
  refine ⟨{ mw := w3, up := true, fs := Fs.start w.fs.bs tb w.fs.c.backend w.fs.c.leaked (w.dirs a), dirs := w.dirs }, ?_, rfl, rfl, fun k => ?_⟩
  · rw [exec_cons, sys_proto rfl e0]
    dsimp only
    rw [hn3 { w with mw := w0, dirs := dirsAfter w.dirs w0 (.startMount a) } w3 h1]
    show exec cfg H dec { w with mw := w3 } [.attach] = _
    rw [exec_cons, hat]
    rfl
  · unfold Fs.start
    dsimp only
    rw [get_map (fun b : Bytes => (⟨b, false, false⟩ : Cache.Entry))]
    cases AL.get (w.dirs a) k <;> rfl

/-! ### Histories that meet the hypotheses -/

/-- Write two bytes to the new file 5 on computer 0 and upload them. -/
def keepWrite : List Ev :=
  demoMount 0 [] ++
  [.fs (.startWrite 0 5 0 [7, 8]) [], .fs (.cache (.getNew (5, 0))) [], .fs (.go 0) [], .fs (.cache (.unlock (5, 0))) [], .fs (.go 0) [.write 0 [1]],
   .fs (.cache (.upStart (5, 0))) [], .fs (.cache (.register (5, 0))) [.write 0 [2]], .fs (.cache (.send (5, 0))) [],
   .fs (.cache (.store (5, 0))) [], .fs (.cache (.upOk (5, 0))) [.write 0 [3]]] ++
  demoEnd true

def keepDec : Bytes → Option Tables
  | [0] => some noTables
  | [1] => some ⟨[], [], 1, [(5, 2)]⟩
  | [2] => some ⟨[((5, 0), 1)], [(1, ⟨1, some [7, 8], false⟩)], 2, [(5, 2)]⟩
  | [3] => some ⟨[((5, 0), 1)], [(1, ⟨1, some [7, 8], true⟩)], 2, [(5, 2)]⟩
  | [4] => some ⟨[], [], 1, [(5, 2)]⟩
  | _ => none

/-- Mounted again on the same computer, the block is there. -/
example : ((exec demoCfg id keepDec (mkfs demoCfg 2 0 1 [0]) (keepWrite ++ demoMount 0 [])).map (fun w => (w.up, w.fs.c.cache))) =
    some (true, [((5, 0), ⟨[7, 8], false, false⟩)]) := by decide +kernel

/-- … and after a mount on another computer, it is not. -/
example : ((exec demoCfg id keepDec (mkfs demoCfg 2 0 1 [0]) (keepWrite ++ demoMount 1 [.dlEnd id] ++
    .finish true 9 false :: ([.next, .next, .next, .next, .next, .next] : List Meta.Op).map .proto ++ demoMount 0 [.dlEnd id])).map
    (fun w => (w.up, w.fs.c.cache.isEmpty, w.fs.c.rows))) = some (true, true, [((5, 0), 1)]) := by decide +kernel

/-- C74, violated: after restore-metadata and fsck, the cache directory is still used although it is from a later time.  Here file 5 is written, the file
system unmounted with `--keep-cache`, and the metadata restored to the version of mkfs, in which there is no file.  A new file gets the number 5
again; it is made two bytes long and read: it shows the contents of the file that no longer exists. -/
theorem C74_restore : ∃ w w', exec demoCfg id keepDec (mkfs demoCfg 2 0 1 [0]) (keepWrite ++
      [.proto (.restore 0 1 20 id), .proto (.startFsck 0 false false), .proto .next, .proto .next, .proto .next] ++ demoEnd true ++ demoMount 0 []) = some w ∧
    w.up = true ∧ w.fs.tables = noTables ∧
    exec demoCfg id keepDec w [.fs (.startTrunc 0 5 2) [.write 0 [4]], .fs (.go 0) [], .fs (.startRead 1 5 0 2) [],
      .fs (.cache (.getHit (5, 0))) [], .fs (.go 1) [], .fs (.cache (.unlock (5, 0))) [], .fs (.go 1) []] = some w' ∧
    AL.get w'.fs.tasks 0 = some (.trOk 5 2) ∧ AL.get w'.fs.tasks 1 = some (.rdOk 5 0 2 [7, 8]) := by
  have h : ((exec demoCfg id keepDec (mkfs demoCfg 2 0 1 [0]) (keepWrite ++
      [.proto (.restore 0 1 20 id), .proto (.startFsck 0 false false), .proto .next, .proto .next, .proto .next] ++ demoEnd true ++ demoMount 0 [])).bind (fun w =>
      (exec demoCfg id keepDec w [.fs (.startTrunc 0 5 2) [.write 0 [4]], .fs (.go 0) [], .fs (.startRead 1 5 0 2) [],
      .fs (.cache (.getHit (5, 0))) [], .fs (.go 1) [], .fs (.cache (.unlock (5, 0))) [], .fs (.go 1) []]).map (fun w' =>
      (w.up, w.fs.tables, AL.get w'.fs.tasks 0, AL.get w'.fs.tasks 1)))) = some (true, noTables, some (.trOk 5 2), some (.rdOk 5 0 2 [7, 8])) := by decide +kernel
  obtain ⟨w, hw, h⟩ := Option.bind_eq_some_iff.1 h
  obtain ⟨w', hw', h⟩ := Option.map_eq_some_iff.1 h
  obtain ⟨h1, h2⟩ := Prod.mk.inj h
  obtain ⟨h2, h3⟩ := Prod.mk.inj h2
  obtain ⟨h3, h4⟩ := Prod.mk.inj h3
  exact ⟨w, w', hw, h1, h2, hw', h3, h4⟩

end
end Verif.System
