import Verif.System.Worlds
/-
C72: files keep their contents across caching, deduplication, uploads, evictions, unmounts and mounts on other computers.
-/
namespace Verif.System
open Verif.FileData

section
variable {cfg : Meta.Cfg} {H : Bytes → Bytes} {dec : Bytes → Option Tables}

/-- The event starts a change of file `i`. -/
def startsChange (i : Nat) : Ev → Bool
  | .fs (.startWrite _ j _ _) _ | .fs (.startTrunc _ j _) _ => decide (j = i)
  | _ => false

/-- What a read of file `i` has got so far, if `i` has the contents `a` all the time. -/
def Good (i : Nat) (a : Bytes) : Task → Prop
  | .rd j o n total acc => j = i → total = min (a.length - o) n ∧ acc.length ≤ total ∧ ∀ y, y < acc.length → at0 acc y = at0 a (o + y)
  | .rdOk j o n res => j = i → res = (a.drop o).take n
  | _ => True

theorem unchanging {s : Fs} {i : Nat} (hn : AL.NK s.tasks) (h : ∀ t x, AL.get s.tasks t = some x → x.changes i = false) : s.changing i = false := by
  unfold Fs.changing
  rw [List.any_eq_false]
  intro x hx
  rw [h x.1 x.2 (AL.mem_get_some hn hx)]
  exact Bool.false_ne_true

/-- Nothing happens to file `i` unless a request that changes it is running. -/
theorem fs_quiet {s s' : Fs} {A : Nat → Bytes} {mem : Cache.Key → Bytes} {D : Nat → Bytes} {ev : FEv} {ops : List Meta.FileOp} {i t : Nat} (h : FInv H s A mem D)
    (hs : s.step H ev = some s') (hc : s.changing i = false) (hst : startsChange i (.fs ev ops) = false)
    (hg : ∀ x, AL.get s.tasks t = some x → Good i (A i) x) :
    (∀ t' x, AL.get s'.tasks t' = some x → x.changes i = false) ∧ apply A (ended s s' ev) i = A i ∧
      ∀ x, AL.get s'.tasks t = some x → Good i (A i) x := by
  have hcf := changing_false hc
  obtain ⟨hsz, hby⟩ := h.rest i hcf
  have setok : ∀ t0 x0, s'.tasks = AL.set s.tasks t0 x0 → x0.changes i = false → (t0 = t → Good i (A i) x0) →
      (∀ t' x, AL.get s'.tasks t' = some x → x.changes i = false) ∧ ∀ x, AL.get s'.tasks t = some x → Good i (A i) x := by
    intro t0 x0 he hx0 hg0
    constructor
    · intro t' x hx
      rw [he, AL.get_set] at hx
      split at hx
      · cases hx; exact hx0
      · exact hcf t' x hx
    · intro x hx
      rw [he, AL.get_set] at hx
      split at hx
      · rename_i e; cases hx; exact hg0 e.symm
      · exact hg x hx
  cases ev with
  | cache ev =>
    unfold Fs.step at hs
    dsimp only at hs
    split at hs
    · split at hs
      · cases hs; exact ⟨hcf, rfl, hg⟩
      · cases hs
    · cases hs
  | startRead t0 j o n =>
    unfold Fs.step at hs
    dsimp only at hs
    split at hs
    · cases hs
    · cases hs
      obtain ⟨h1, h2⟩ := setok t0 _ rfl rfl (fun _ e => by subst e; exact ⟨by rw [hsz], Nat.zero_le _, fun y hy => absurd hy (Nat.not_lt_zero _)⟩)
      exact ⟨h1, rfl, h2⟩
  | startWrite t0 j o d =>
    have hne := hst
    unfold Fs.step at hs
    dsimp only at hs
    split at hs
    · cases hs
    · cases hs
      obtain ⟨h1, h2⟩ := setok t0 _ rfl hne (fun _ => trivial)
      exact ⟨h1, rfl, h2⟩
  | startTrunc t0 j len =>
    have hne := hst
    unfold Fs.step at hs
    dsimp only at hs
    split at hs
    · cases hs
    · cases hs
      obtain ⟨h1, h2⟩ := setok t0 _ rfl hne (fun _ => trivial)
      exact ⟨h1, rfl, h2⟩
  | fail t0 =>
    unfold Fs.step at hs
    dsimp only at hs
    split at hs
    · cases hs
      obtain ⟨h1, h2⟩ := setok t0 _ rfl rfl (fun _ => trivial)
      exact ⟨h1, rfl, h2⟩
    · cases hs
  | go t0 =>
    unfold Fs.step goTask at hs
    dsimp only at hs
    have fin : ∀ x0 y0, AL.get s.tasks t0 = some y0 → y0.running = true → s'.tasks = AL.set s.tasks t0 x0 → x0.changes i = false → (t0 = t → Good i (A i) x0) →
        (∀ j op, endOp x0 = some (j, op) → j ≠ i) →
        (∀ t' x, AL.get s'.tasks t' = some x → x.changes i = false) ∧ apply A (ended s s' (.go t0)) i = A i ∧
          ∀ x, AL.get s'.tasks t = some x → Good i (A i) x := by
      intro x0 y0 hy hr he hx0 hg0 hj
      obtain ⟨h1, h2⟩ := setok t0 x0 he hx0 hg0
      refine ⟨h1, ?_, h2⟩
      rw [ended_go (x := x0) (by unfold Fs.busy; rw [hy]; exact hr) (by rw [he, AL.get_set_self])]
      cases hop : endOp x0 with
      | none => rfl
      | some p =>
        obtain ⟨j, op⟩ := p
        exact if_neg (fun e => hj j op hop e.symm)
    split at hs
    · rename_i j o n total acc ht
      split at hs
      · rename_i hle
        cases hs
        refine fin _ _ ht rfl rfl rfl ?_ (fun _ _ h => by cases h)
        intro e hj
        subst e
        obtain ⟨g1, g2, g3⟩ := hg _ ht hj
        apply ext_at0
        · rw [List.length_take, List.length_drop]; omega
        · intro y hy
          rw [g3 y hy, at0_take, at0_drop, if_pos (by omega)]
      · rename_i hlt
        split at hs
        · rename_i c b hrd
          cases hs
          refine fin _ _ ht rfl rfl rfl ?_ (fun _ _ h => by cases h)
          intro e hj
          subst e
          obtain ⟨g1, g2, g3⟩ := hg _ ht hj
          subst hj
          have hbv : b = mem (j, (o + acc.length) / s.bs) := by
            have := (Cache.inv_read h.cache hrd).2
            cases this; rfl
          have hmod : (o + acc.length) % s.bs < s.bs := Nat.mod_lt _ h.bs
          rw [offrel]
          have hle := clipLen_le s.bs ((o + acc.length) % s.bs) (total - acc.length)
          have hfit := clipLen_fit s.bs ((o + acc.length) % s.bs) (total - acc.length) hmod
          generalize clipLen s.bs ((o + acc.length) % s.bs) (total - acc.length) = L at *
          obtain ⟨r1, r2⟩ := blkRead_at0 b ((o + acc.length) % s.bs) L
          refine ⟨g1, by rw [List.length_append, r1]; omega, fun y hy => ?_⟩
          rw [List.length_append, r1] at hy
          rw [at0_append]
          split
          · rename_i hy2; exact g3 y hy2
          · rename_i hy2
            rw [r2 _ (by omega), hbv]
            have hdiv : (o + y) / s.bs = (o + acc.length) / s.bs :=
              div_eq_of_range (o + acc.length) s.bs (o + y) L h.bs (by omega) (by omega) hfit
            have hco := coord (o + acc.length) s.bs (o + y) hdiv
            have := hby (o + y)
            unfold byte at this
            rw [hdiv] at this
            rw [← this]
            congr 1
            omega
        · cases hs
    · rename_i j o d k ht
      have hne : (Task.wr j o d k).changes i = false := hcf _ _ ht
      have hji : j ≠ i := of_decide_eq_false hne
      split at hs
      · cases hs
        exact fin _ _ ht rfl rfl rfl (fun _ => trivial) (fun _ _ h => by cases h; exact hji)
      · split at hs
        · cases hs
          exact fin _ _ ht rfl rfl hne (fun _ => trivial) (fun _ _ h => by cases h)
        · cases hs
    · rename_i j len b e ht
      have hne : (Task.tr j len b e).changes i = false := hcf _ _ ht
      have hji : j ≠ i := of_decide_eq_false hne
      split at hs
      · split at hs
        · cases hs
          exact fin _ _ ht rfl rfl rfl (fun _ => trivial) (fun _ _ h => by cases h; exact hji)
        · cases hs
          exact fin _ _ ht rfl rfl hne (fun _ => trivial) (fun _ _ h => by cases h)
      · split at hs
        · cases hs
          exact fin _ _ ht rfl rfl hne (fun _ => trivial) (fun _ _ h => by cases h)
        · cases hs
    · rename_i j len ht
      have hne : (Task.cut j len).changes i = false := hcf _ _ ht
      have hji : j ≠ i := of_decide_eq_false hne
      split at hs
      · cases hs
        exact fin _ _ ht rfl rfl rfl (fun _ => trivial) (fun _ _ h => by cases h; exact hji)
      · cases hs
    · cases hs

theorem finish_fs {w w1 : World} {keep flag : Bool} {stamp : Nat} (hs : step cfg H dec w (.finish keep stamp flag) = some w1) : w1.fs = w.fs := by
  unfold System.step at hs
  dsimp only at hs
  split at hs
  · split at hs
    · split at hs
      · split at hs
        · cases hs; rfl
        · cases hs
      · cases hs
    · split at hs
      · cases hs; rfl
      · cases hs
  · cases hs

/-- The same for the whole system. -/
theorem quiet (hH : Function.Injective H) {i t : Nat} {a : Bytes} : ∀ (evs : List Ev) (w w' : World) (A : Nat → Bytes) (tr : Bytes) (mem : Cache.Key → Bytes) (D : Nat → Bytes),
    WInv cfg H dec w A tr mem D → (∀ ev ∈ evs, Plain ev) → (∀ ev ∈ evs, startsChange i ev = false) → exec cfg H dec w evs = some w' →
    w.fs.changing i = false → A i = a → (∀ x, AL.get w.fs.tasks t = some x → Good i a x) →
    contents cfg H dec w evs A i = a ∧ ∀ x, AL.get w'.fs.tasks t = some x → Good i a x
  | [], _, _, _, _, _, _, _, _, _, he, _, ha, hg => by cases he; exact ⟨ha, hg⟩
  | ev :: evs, w, w', A, tr, mem, D, h, hd, hq, he, hc, ha, hg => by
    unfold System.exec at he
    unfold contents
    split at he
    · cases he
    · rename_i w1 hs
      rw [hs]
      dsimp only
      obtain ⟨t1, m1, D1, h1⟩ := h.step hH (hd ev List.mem_cons_self) hs
      have key : w1.fs.changing i = false ∧ next A w w1 ev i = a ∧ ∀ x, AL.get w1.fs.tasks t = some x → Good i a x := by
        cases ev with
        | proto op =>
          have hfs : w1.fs = w.fs := by
            unfold System.step at hs
            dsimp only at hs
            split at hs
            · split at hs
              · cases hs; rfl
              · cases hs
            · cases hs
          rw [hfs]; exact ⟨hc, ha, hg⟩
        | finish keep stamp flag =>
          have hfs : w1.fs = w.fs := finish_fs hs
          rw [hfs]; exact ⟨hc, ha, hg⟩
        | attach =>
          unfold System.step at hs
          dsimp only at hs
          split at hs
          · split at hs
            · split at hs
              · cases hs; exact ⟨rfl, ha, fun x hx => by cases hx⟩
              · cases hs
            · cases hs
          · cases hs
        | fs ev ops =>
          have hfs : w.fs.step H ev = some w1.fs := by
            unfold System.step at hs
            dsimp only at hs
            split at hs
            · split at hs
              · split at hs
                · rename_i hfs _
                  split at hs
                  · cases hs; exact hfs
                  · cases hs
                · cases hs
              · cases hs
            · cases hs
          subst ha
          obtain ⟨q1, q2, q3⟩ := fs_quiet (t := t) h.fi hfs hc (hq _ List.mem_cons_self) hg
          exact ⟨unchanging h1.fi.nk q1, q2, q3⟩
      obtain ⟨k1, k2, k3⟩ := key
      exact quiet hH evs w1 w' _ t1 m1 D1 h1 (fun e he => hd e (List.mem_cons_of_mem _ he)) (fun e he => hq e (List.mem_cons_of_mem _ he)) he k1 k2 k3

/-- C72: after any history, a read that starts while nothing changes the file, and during which no change of the file starts,
returns what the successful writes and truncations before it made of the file: on whatever computers they were made, and whatever
was cached, deduplicated, uploaded, evicted, deleted, unmounted and mounted in between. -/
theorem C72_read (hH : Function.Injective H) {bs m now : Nat} {f : Bytes} (hb : 0 < bs) (hf : dec f = some noTables) {evs evs' : List Ev} {w w1 w' : World}
    (hd : ∀ ev ∈ evs, Plain ev) (hd' : ∀ ev ∈ evs', Plain ev) (he : exec cfg H dec (mkfs cfg bs m now f) evs = some w)
    {t i o n : Nat} {ops : List Meta.FileOp} {res : Bytes} (hs : step cfg H dec w (.fs (.startRead t i o n) ops) = some w1)
    (hc : w.fs.changing i = false) (hq : ∀ ev ∈ evs', startsChange i ev = false) (he' : exec cfg H dec w1 evs' = some w')
    (hr : AL.get w'.fs.tasks t = some (.rdOk i o n res)) :
    res = ((contents cfg H dec (mkfs cfg bs m now f) evs (fun _ => []) i).drop o).take n := by
  obtain ⟨t0, m0, D0, h0⟩ := WInv.exec hH evs _ w _ _ _ _ (winv_mkfs cfg H m now hb hf) hd he
  have hx : exec cfg H dec w (.fs (.startRead t i o n) ops :: evs') = some w' := by
    unfold exec; rw [hs]; exact he'
  -- before the read starts, no read by `t` counts
  have hstep : (∀ x, AL.get w1.fs.tasks t = some x → Good i (contents cfg H dec (mkfs cfg bs m now f) evs (fun _ => []) i) x) ∧ w1.fs.changing i = false := by
    have hfs : w.fs.step H (.startRead t i o n) = some w1.fs := by
      unfold System.step at hs
      dsimp only at hs
      split at hs
      · split at hs
        · split at hs
          · rename_i hfs _
            split at hs
            · cases hs; exact hfs
            · cases hs
          · cases hs
        · cases hs
      · cases hs
    unfold Fs.step at hfs
    dsimp only at hfs
    split at hfs
    · cases hfs
    · have hfs := Option.some.inj hfs
      have hsz := (h0.fi.rest i (changing_false hc)).1
      have ht : w1.fs.tasks = AL.set w.fs.tasks t (.rd i o n (min (w.fs.size i - o) n) []) := by rw [← hfs]
      constructor
      · intro x hx
        rw [ht, AL.get_set_self] at hx
        cases hx
        exact fun _ => ⟨by rw [hsz], Nat.zero_le _, fun y hy => absurd hy (Nat.not_lt_zero _)⟩
      · apply unchanging (by rw [ht]; exact h0.fi.nk.set _ _)
        intro t' x hx
        rw [ht, AL.get_set] at hx
        split at hx
        · cases hx; rfl
        · exact changing_false hc t' x hx
  obtain ⟨t1, m1, D1, h1⟩ := h0.step hH (fun _ e => by cases e) hs
  have hA : next (contents cfg H dec (mkfs cfg bs m now f) evs (fun _ => [])) w w1 (.fs (.startRead t i o n) ops) i =
      contents cfg H dec (mkfs cfg bs m now f) evs (fun _ => []) i := rfl
  exact (quiet hH evs' w1 w' _ t1 m1 D1 h1 hd' hq he' hstep.2 hA hstep.1).2 _ hr rfl

/-- C72: and the size of a file that nothing is changing is what it should be. -/
theorem C72_size (hH : Function.Injective H) {bs m now : Nat} {f : Bytes} (hb : 0 < bs) (hf : dec f = some noTables) {evs : List Ev} {w : World}
    (hd : ∀ ev ∈ evs, Plain ev) (he : exec cfg H dec (mkfs cfg bs m now f) evs = some w) {i : Nat} (hc : w.fs.changing i = false) :
    w.fs.size i = (contents cfg H dec (mkfs cfg bs m now f) evs (fun _ => []) i).length := by
  obtain ⟨t0, m0, D0, h0⟩ := WInv.exec hH evs _ w _ _ _ _ (winv_mkfs cfg H m now hb hf) hd he
  exact (h0.fi.rest i (changing_false hc)).1

theorem sys_proto {w : World} {mw : Meta.World} {op : Meta.Op} (hp : isProto op = true) (h : Meta.step cfg w.mw op = some mw) :
    step cfg H dec w (.proto op) = some { w with mw := mw, dirs := dirsAfter w.dirs mw op } := by
  unfold step
  dsimp only
  rw [if_pos (by rw [hp]; rfl), h]

theorem exec_cons (w : World) (e : Ev) (es : List Ev) : exec cfg H dec w (e :: es) = match step cfg H dec w e with
    | none => none
    | some w => exec cfg H dec w es := rfl

theorem contents_cons (w : World) (e : Ev) (es : List Ev) (A : Nat → Bytes) : contents cfg H dec w (e :: es) A = match step cfg H dec w e with
    | none => A
    | some w' => contents cfg H dec w' es (next A w w' e) := rfl

/-- Proto steps, then `attach`. -/
theorem sys_run : ∀ (ops : List Meta.Op) (w : World) (mw : Meta.World) (evs : List Ev), (∀ op ∈ ops, isProto op = true) → Meta.exec cfg w.mw ops = some mw →
    ∃ d, exec cfg H dec w (ops.map .proto ++ evs) = exec cfg H dec { w with mw := mw, dirs := d } evs ∧
    ∀ A, contents cfg H dec w (ops.map .proto ++ evs) A = contents cfg H dec { w with mw := mw, dirs := d } evs A
  | [], w, mw, evs, _, h => by cases h; exact ⟨w.dirs, rfl, fun _ => rfl⟩
  | op :: ops, w, mw, evs, hp, h => by
    unfold Meta.exec at h
    split at h
    · cases h
    · rename_i mw1 hs
      have h1 := sys_proto (H := H) (dec := dec) (w := w) (hp op List.mem_cons_self) hs
      obtain ⟨d, h2, h3⟩ := sys_run ops { w with mw := mw1, dirs := dirsAfter w.dirs mw1 op } mw evs (fun o ho => hp o (List.mem_cons_of_mem _ ho)) h
      refine ⟨d, ?_, ?_⟩
      · show exec cfg H dec w (.proto op :: (ops.map .proto ++ evs)) = _
        rw [exec_cons, h1]
        exact h2
      · intro A
        show contents cfg H dec w (.proto op :: (ops.map .proto ++ evs)) A = _
        rw [contents_cons, h1]
        exact h3 A

/-- From an opened database to a running process. -/
theorem announce {w : Meta.World} {pr : Meta.Proc} (hp : w.proc = some pr) (hpc : pr.pc = .got) :
    ∃ w' pr', Meta.exec cfg w [.next, .next, .next] = some w' ∧ w'.proc = some pr' ∧ pr'.pc = .run ∧ pr'.m = pr.m ∧ pr'.kind = pr.kind ∧
      (w'.disk pr.m).view = (w.disk pr.m).view := by
  let p : Meta.Params := { pr.p with seq := pr.p.seq + 1, mounted := true }
  let w1 : Meta.World := (w.setDisk pr.m { w.disk pr.m with params := some p }).setProc { pr with p := p, pc := .mark1 }
  let w2 : Meta.World := { w1 with remote := { w1.remote with cur := some p } }.setProc { pr with p := p, pc := .mark2 }
  let w3 : Meta.World := { w2 with remote := { w2.remote with vers := AL.set w2.remote.vers p.seq p } }.setProc { pr with p := p, pc := .run }
  have e1 : Meta.step cfg w .next = some w1 := by rw [Meta.step_next hp]; unfold Meta.nextStep; rw [hpc]
  have e2 : Meta.step cfg w1 .next = some w2 := by rw [Meta.step_next (Meta.setProc_proc _ _)]; rfl
  have e3 : Meta.step cfg w2 .next = some w3 := by rw [Meta.step_next (Meta.setProc_proc _ _)]; rfl
  refine ⟨w3, _, by unfold Meta.exec; rw [e1]; unfold Meta.exec; dsimp only; rw [e2]; unfold Meta.exec; dsimp only; rw [e3]; rfl, rfl, rfl, rfl, rfl, ?_⟩
  show ((w.setDisk pr.m { w.disk pr.m with params := some p }).disk pr.m).view = _
  rw [Meta.setDisk_same]; rfl

/-- C72: a file system that was unmounted cleanly can be mounted on every computer, and there it has the same tables and the same
files. -/
theorem C72_mount_anywhere (hH : Function.Injective H) {bs m now : Nat} {f : Bytes} (hb : 0 < bs) (hf : dec f = some noTables) {evs : List Ev} {w : World}
    (hd : ∀ ev ∈ evs, Plain ev) (he : exec cfg H dec (mkfs cfg bs m now f) evs = some w)
    (hu : w.up = false) (hp : w.mw.proc = none) {r : Meta.Params} (hr : w.mw.remote.cur = some r) (hm : r.mounted = false) (hn : r.needsFsck = false) (a : Nat) :
    ∃ evs' w', (∀ ev ∈ evs', Plain ev) ∧ exec cfg H dec w evs' = some w' ∧ w'.up = true ∧ (∃ pr, w'.mw.proc = some pr ∧ pr.m = a ∧ pr.kind = .mount) ∧
      w'.fs.tables = w.fs.tables ∧ w'.fs.c.backend = w.fs.c.backend ∧
      contents cfg H dec w evs' (contents cfg H dec (mkfs cfg bs m now f) evs (fun _ => [])) = contents cfg H dec (mkfs cfg bs m now f) evs (fun _ => []) := by
  obtain ⟨t, m0, D0, h0⟩ := WInv.exec hH evs _ w _ _ _ _ (winv_mkfs cfg H m now hb hf) hd he
  obtain ⟨r', hbase, hinv⟩ := h0.mi
  rw [hp] at hinv
  dsimp only at hinv
  have er : r' = r := Option.some.inj (hbase.cur.symm.trans hr)
  subst er
  have hclean : Meta.Clean cfg w.mw.remote w.mw.disk r' t := by
    rcases hinv with h | ⟨b, l, h1, _, h3, _⟩
    · exact h
    · have := h0.calm hp r' hr hm b l h1
      have := h3 hm
      omega
  -- up to an opened database
  have hgot : ∃ ops mw pr, (∀ op ∈ ops, op = .startMount a ∨ op = .dlEnd id) ∧ Meta.exec cfg w.mw ops = some mw ∧ mw.proc = some pr ∧ pr.pc = .got ∧
      pr.m = a ∧ pr.kind = .mount ∧ (mw.disk a).view = t := by
    cases hc : Meta.readCached (w.mw.disk a).params r'.seq with
    | some p =>
      obtain ⟨e1, e2, e3⟩ := hclean.cached hc
      subst e1
      refine ⟨[.startMount a], w.mw.setProc { m := a, kind := .mount, p := p, dirty := [], early := false, pc := .got }, _,
        fun op h => Or.inl (List.mem_singleton.1 h), ?_, rfl, rfl, rfl, rfl, ?_⟩
      · unfold Meta.exec Meta.step
        rw [hp]
        dsimp only
        have hmc : Meta.mountCheck w.mw.remote.cur (w.mw.disk a).params = .cached := by
          rw [hr]; unfold Meta.mountCheck; dsimp only; rw [hc]; dsimp only
          rw [if_neg (Nat.lt_irrefl _), if_neg (fun g => g rfl), if_neg (by rw [hm]; exact Bool.false_ne_true), if_neg (by rw [hn]; exact Bool.false_ne_true)]
        rw [hmc, hr]; rfl
      · show (w.mw.disk a).view = t
        unfold Meta.Disk.view
        rw [(hclean.2.2 a).1, e3]; rfl
    | none =>
      refine ⟨[.startMount a, .dlEnd id], ((w.mw.setDisk a { w.mw.disk a with db := [] }).setDisk a { w.mw.disk a with db := t }).setProc { m := a, kind := .mount, p := r', dirty := [], early := false, pc := .got }, _,
        fun op h => ?_, ?_, rfl, rfl, rfl, rfl, ?_⟩
      · rcases List.mem_cons.1 h with h | h
        · exact Or.inl h
        · exact Or.inr (List.mem_singleton.1 h)
      · have hmc : Meta.mountCheck w.mw.remote.cur (w.mw.disk a).params = .download := by
          rw [hr]; unfold Meta.mountCheck; dsimp only; rw [hc]; dsimp only
          rw [if_neg (by rw [hm]; exact Bool.false_ne_true), if_neg (by rw [hn]; exact Bool.false_ne_true)]
        have hs1 : Meta.step cfg w.mw (.startMount a) = some ((w.mw.setDisk a { w.mw.disk a with db := [] }).setProc { m := a, kind := .mount, p := r', dirty := [], early := false, pc := .dl }) := by
          unfold Meta.step; rw [hp]; dsimp only; rw [hmc, hr]
        unfold Meta.exec
        rw [hs1]
        dsimp only
        unfold Meta.exec Meta.step
        rw [Meta.setProc_proc]
        dsimp only
        rw [if_pos rfl]
        show (match (match Meta.download cfg w.mw.remote.blocks r' (decide (Meta.Kind.mount = .fsck) && r'.mounted) id with | some f => _ | none => _ : Option Meta.World) with | none => none | some w' => Meta.exec cfg w' []) = _
        rw [hm, Bool.and_false, Meta.download_snapshot cfg _ _ _ hclean.2.1 id (fun l => List.Perm.refl l)]
        unfold Meta.exec
        simp only [Meta.setProc_disk, Meta.setDisk_same]
        rfl
      · show ((w.mw.setDisk a { w.mw.disk a with db := [] }).setDisk a { w.mw.disk a with db := t } |>.disk a).view = t
        rw [Meta.setDisk_same]
        unfold Meta.Disk.view
        dsimp only
        rw [(hclean.2.2 a).1]; rfl
  obtain ⟨ops, mw, pr, hops, hex, hpr, hpc, hpm, hpk, hv⟩ := hgot
  obtain ⟨mw', pr', hex', hpr', hpc', hpm', hpk', hv'⟩ := announce (cfg := cfg) hpr hpc
  have hall : Meta.exec cfg w.mw (ops ++ [.next, .next, .next]) = some mw' := by rw [Meta.exec_append cfg ops _ _ _ hex]; exact hex'
  have hisp : ∀ op ∈ ops ++ [.next, .next, .next], isProto op = true := by
    intro op h
    rcases List.mem_append.1 h with h | h
    · rcases hops op h with rfl | rfl <;> rfl
    · simp only [List.mem_cons, List.not_mem_nil, or_false, or_self] at h
      subst h; rfl
  obtain ⟨d, q1, q2⟩ := sys_run (H := H) (dec := dec) (ops ++ [.next, .next, .next]) w mw' [.attach] hisp hall
  have hview : (mw'.disk pr'.m).view = t := by rw [hpm', hv', hpm, hv]
  have hat : step cfg H dec { w with mw := mw', dirs := d } .attach = some { mw := mw', up := true, fs := Fs.start w.fs.bs w.fs.tables w.fs.c.backend w.fs.c.leaked (d pr'.m), dirs := d } := by
    unfold step
    dsimp only
    rw [hpr']
    dsimp only
    rw [if_pos ⟨hu, by rw [hpk', hpk], hpc'⟩, hview, h0.db]
  refine ⟨_, { mw := mw', up := true, fs := Fs.start w.fs.bs w.fs.tables w.fs.c.backend w.fs.c.leaked (d pr'.m), dirs := d }, ?_, q1.trans (by rw [exec_cons, hat]; rfl), rfl, ⟨pr', hpr', by rw [hpm', hpm], by rw [hpk', hpk]⟩, rfl, rfl, ?_⟩
  · intro ev hev
    rcases List.mem_append.1 hev with h | h
    · obtain ⟨op, hop, rfl⟩ := List.mem_map.1 h
      intro op' e
      cases e
      refine ⟨hisp _ hop, fun order e l => ?_⟩
      subst e
      rcases List.mem_append.1 hop with h | h
      · rcases hops _ h with h | h
        · cases h
        · cases h; exact List.Perm.refl _
      · simp at h
    · rw [List.mem_singleton] at h
      subst h
      intro _ e; cases e
  · rw [q2, contents_cons, hat]
    rfl

/-- The event is not a failing upload. -/
def noUpFail : Ev → Bool
  | .fs (.cache ev) _ => Cache.noUpFail ev
  | _ => true

theorem change_nf {s : Fs} {mem : Cache.Key → Bytes} {D : Nat → Bytes} (h : Cache.Inv H s.c mem D) (hn : Cache.NF s.c) {k : Cache.Key} {f : Bytes → Bytes}
    {c : Cache.State} (hc : change H s.c k f = some c) : Cache.NF c := by
  unfold change at hc
  split at hc
  · rename_i c1 b h1
    have hi := (Cache.inv_read h h1).1
    have hn1 := Cache.step_nf h hn h1 rfl
    split at hc
    · rename_i c2 o h2
      cases hc
      exact Cache.step_nf hi hn1 h2 rfl
    · cases hc
  · cases hc

theorem fs_nf {s s' : Fs} {A : Nat → Bytes} {mem : Cache.Key → Bytes} {D : Nat → Bytes} {ev : FEv} {ops : List Meta.FileOp} (h : FInv H s A mem D)
    (hn : Cache.NF s.c) (hu : noUpFail (.fs ev ops) = true) (hs : s.step H ev = some s') : Cache.NF s'.c := by
  unfold Fs.step at hs
  cases ev with
  | cache ev =>
    dsimp only at hs
    split at hs
    · split at hs
      · rename_i c o h1
        cases hs; exact Cache.step_nf h.cache hn h1 hu
      · cases hs
    · cases hs
  | startRead t0 j o n =>
    dsimp only at hs
    split at hs
    · cases hs
    · cases hs; exact hn
  | startWrite t0 j o d =>
    dsimp only at hs
    split at hs
    · cases hs
    · cases hs; exact hn
  | startTrunc t0 j len =>
    dsimp only at hs
    split at hs
    · cases hs
    · cases hs; exact hn
  | fail t0 =>
    dsimp only at hs
    split at hs
    · cases hs; exact hn
    · cases hs
  | go t0 =>
    unfold goTask at hs
    dsimp only at hs
    split at hs
    · split at hs
      · cases hs; exact hn
      · split at hs
        · rename_i c b h1
          cases hs; exact Cache.step_nf h.cache hn h1 rfl
        · cases hs
    · split at hs
      · cases hs; exact hn
      · split at hs
        · rename_i c h1
          cases hs; exact change_nf h.cache hn h1
        · cases hs
    · split at hs
      · split at hs
        · cases hs; exact hn
        · cases hs; exact hn
      · split at hs
        · rename_i c out h1
          cases hs; exact Cache.step_nf h.cache hn h1 rfl
        · cases hs
    · split at hs
      · rename_i c h1
        cases hs; exact change_nf h.cache hn h1
      · cases hs
    · cases hs

theorem start_nf {s : Fs} {keep : Bool} {dir : CacheDir} (hi : s.idle keep = true) (hn : Cache.NF s.c) : Cache.NF (Fs.start s.bs s.tables s.c.backend s.c.leaked dir).c := by
  obtain ⟨_, _, i3, i4, i5, i6⟩ := idle_parts hi
  refine ⟨fun o ob ho => ?_, hn.hashed, rfl, fun o d ho => ?_, hn.lk⟩
  · rcases hn.up o ob ho with h | h
    · exact Or.inl h
    · rw [i3] at h; cases h
  · rcases hn.bk o d ho with h | h
    · exact Or.inl h
    · rw [i6] at h; cases h

theorem exec_nf (hH : Function.Injective H) : ∀ (evs : List Ev) (w w' : World) (A : Nat → Bytes) (t : Bytes) (mem : Cache.Key → Bytes) (D : Nat → Bytes),
    WInv cfg H dec w A t mem D → (∀ ev ∈ evs, Plain ev) → (∀ ev ∈ evs, noUpFail ev = true) → exec cfg H dec w evs = some w' → Cache.NF w.fs.c → Cache.NF w'.fs.c
  | [], _, _, _, _, _, _, _, _, _, he, hn => by cases he; exact hn
  | ev :: evs, w, w', A, t, mem, D, h, hd, hu, he, hn => by
    rw [exec_cons] at he
    split at he
    · cases he
    · rename_i w1 hs
      obtain ⟨t1, m1, D1, h1⟩ := h.step hH (hd ev List.mem_cons_self) hs
      refine exec_nf hH evs w1 w' _ t1 m1 D1 h1 (fun e he => hd e (List.mem_cons_of_mem _ he)) (fun e he => hu e (List.mem_cons_of_mem _ he)) he ?_
      have hu1 := hu ev List.mem_cons_self
      unfold System.step at hs
      cases ev with
      | proto op =>
        dsimp only at hs
        split at hs
        · split at hs
          · cases hs; exact hn
          · cases hs
        · cases hs
      | finish keep stamp flag =>
        rw [finish_fs (cfg := cfg) (H := H) (dec := dec) hs]
        exact hn
      | attach =>
        dsimp only at hs
        split at hs
        · rename_i pr hpr
          split at hs
          · rename_i hc
            split at hs
            · rename_i tb htb
              cases hs
              have hv := Meta.view_of_inv h.mi hpr (by rw [hc.2.2]; simp)
              rw [hv, h.db] at htb
              cases htb
              obtain ⟨keep, hk⟩ := h.idle hc.1
              exact start_nf hk hn
            · cases hs
          · cases hs
        · cases hs
      | fs ev ops =>
        dsimp only at hs
        split at hs
        · split at hs
          · split at hs
            · rename_i hfs _
              split at hs
              · cases hs; exact fs_nf h.fi hn hu1 hfs
              · cases hs
            · cases hs
          · cases hs
        · cases hs

/-- C72: unless an upload failed, every block that has to be downloaded is there, on whatever computer. -/
theorem C72_found (hH : Function.Injective H) {bs m now : Nat} {f : Bytes} (hb : 0 < bs) (hf : dec f = some noTables) {evs : List Ev} {w : World}
    (hd : ∀ ev ∈ evs, Plain ev) (hu : ∀ ev ∈ evs, noUpFail ev = true) (he : exec cfg H dec (mkfs cfg bs m now f) evs = some w)
    {k : Cache.Key} {c : Cache.State} {out : Cache.Out} (hdl : Cache.step H w.fs.c (.download k) = some (c, out)) : out = .none := by
  obtain ⟨t0, m0, D0, h0⟩ := WInv.exec hH evs _ w _ _ _ _ (winv_mkfs cfg H m now hb hf) hd he
  have hn := exec_nf hH evs _ w _ _ _ _ (winv_mkfs cfg H m now hb hf) hd hu he Cache.nf_init
  have hi := h0.fi.cache
  simp only [Cache.step] at hdl
  split at hdl <;> try (cases hdl; done)
  rename_i o hh
  split at hdl <;> try (cases hdl; done)
  rename_i hin
  obtain ⟨ob, hob⟩ := hi.rowObj k o (hi.dl k o hh).1
  have hbk : w.fs.c.backend o = some (D0 o) := by
    rcases hn.up o ob hob with h1 | h1
    · exact hi.upl o ob hob h1
    · exact absurd (by simpa using h1) hin
  rw [hbk] at hdl
  cases hdl
  rfl

/-! ### A history that meets the hypotheses: write on computer 0, upload, evict, unmount, mount on computer 1, read -/

def demoCfg : Meta.Cfg := ⟨4, by decide, fun b => b.length⟩

/-- The databases that occur have one byte. -/
def demoDec : Bytes → Option Tables
  | [0] => some noTables
  | [1] => some ⟨[], [], 1, [(5, 4)]⟩
  | [2] => some ⟨[((5, 0), 1)], [(1, ⟨1, some [0, 7], false⟩)], 2, [(5, 4)]⟩
  | [3] => some ⟨[((5, 0), 1)], [(1, ⟨1, some [0, 7], true⟩)], 2, [(5, 4)]⟩
  | [4] => some ⟨[((5, 0), 1), ((5, 1), 2)], [(1, ⟨1, some [0, 7], true⟩), (2, ⟨1, some [8, 9], false⟩)], 3, [(5, 4)]⟩
  | [5] => some ⟨[((5, 0), 1), ((5, 1), 2)], [(1, ⟨1, some [0, 7], true⟩), (2, ⟨1, some [8, 9], true⟩)], 3, [(5, 4)]⟩
  | _ => none

def demoMount (m : Nat) (dl : List Meta.Op) : List Ev := ([.startMount m] ++ dl ++ [.next, .next, .next] : List Meta.Op).map .proto ++ [.attach]

/-- mount ends. -/
def demoEnd (keep : Bool) : List Ev := .finish keep 9 false :: ([.read 0 4, .put 0, .next, .next, .next, .next, .next, .next] : List Meta.Op).map .proto

def demoEvs : List Ev :=
  demoMount 0 [] ++
  [.fs (.startWrite 0 5 1 [7, 8, 9]) [], .fs (.cache (.getNew (5, 0))) [], .fs (.go 0) [], .fs (.cache (.unlock (5, 0))) [],
   .fs (.cache (.getNew (5, 1))) [], .fs (.go 0) [], .fs (.cache (.unlock (5, 1))) [], .fs (.go 0) [.write 0 [1]],
   .fs (.cache (.upStart (5, 0))) [], .fs (.cache (.register (5, 0))) [.write 0 [2]], .fs (.cache (.send (5, 0))) [],
   .fs (.cache (.store (5, 0))) [], .fs (.cache (.upOk (5, 0))) [.write 0 [3]],
   .fs (.cache (.upStart (5, 1))) [], .fs (.cache (.register (5, 1))) [.write 0 [4]], .fs (.cache (.send (5, 1))) [],
   .fs (.cache (.store (5, 1))) [], .fs (.cache (.upOk (5, 1))) [.write 0 [5]],
   .fs (.cache (.evict (5, 0))) [], .fs (.cache (.evict (5, 1))) []] ++
  demoEnd false ++
  demoMount 1 [.dlEnd id]

def demoRead : List Ev :=
  [.fs (.cache (.getMiss (5, 0))) [], .fs (.cache (.download (5, 0))) [], .fs (.go 0) [], .fs (.cache (.unlock (5, 0))) [],
   .fs (.cache (.getMiss (5, 1))) [], .fs (.cache (.download (5, 1))) [], .fs (.go 0) [], .fs (.cache (.unlock (5, 1))) [], .fs (.go 0) []]

example : ((exec demoCfg id demoDec (mkfs demoCfg 2 0 1 [0]) (demoEvs ++ .fs (.startRead 0 5 1 10) [] :: demoRead)).map
    (fun w => (w.up, w.mw.proc.map (·.m), AL.get w.fs.tasks 0))) = some (true, some 1, some (.rdOk 5 1 10 [7, 8, 9])) := by decide +kernel

example : contents demoCfg id demoDec (mkfs demoCfg 2 0 1 [0]) demoEvs (fun _ => []) 5 = [0, 7, 8, 9] := by decide +kernel

/-- … unmounted in between: the hypotheses of `C72_mount_anywhere`. -/
example : ((exec demoCfg id demoDec (mkfs demoCfg 2 0 1 [0]) (demoEvs.take 34)).map
    (fun w => (w.up, w.mw.proc.isNone, w.mw.remote.cur.map (fun r => (r.mounted, r.needsFsck))))) = some (false, true, some (false, false)) := by decide +kernel

/-- The download of `C72_found`. -/
example : ((exec demoCfg id demoDec (mkfs demoCfg 2 0 1 [0]) (demoEvs ++ .fs (.startRead 0 5 1 10) [] :: demoRead.take 1)).bind
    (fun w => Cache.step id w.fs.c (.download (5, 0)))).map (·.2) = some .none := by decide +kernel

end
end Verif.System
