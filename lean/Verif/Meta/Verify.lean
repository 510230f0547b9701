import Verif.Meta.ProtoCases
/-
C101: what fsck verifies about the retained metadata versions before it starts (`verify_metadata_snapshots`, fsck.py:1517-1561, called at fsck.py:1440-1446).

Not modelled: the revision check (all versions have the current revision) and `PRAGMA integrity_check` (which can only fail if the database was corrupted when it was
uploaded; the download checks that the contents are those that were uploaded).
-/
namespace Verif.Meta

/-! #### Model -/

/-- One version (fsck.py:1544-1561): `true` if it is skipped or restored successfully, `false` for an exception. -/
def verifyOne (cfg : Cfg) (rem : Remote) (order : List DlJob → List DlJob) (s : Nat) : Bool :=
  match AL.get rem.vers s with
  | none => false
  | some p =>
    if p.seq ≠ s then false
    else if p.mounted then true
    else (download cfg rem.blocks p false order).isSome

/-- The versions to check (fsck.py:1525-1541). -/
def toCheck (rem : Remote) (count : Nat) (recent : Bool) : List Nat :=
  let backups := (isort (rem.vers.map (·.1))).reverse
  if recent then backups.take count else (backups.take (count + 1)).drop 1

/-- `verify_metadata_snapshots` (fsck.py:1517-1561).  `false`: fsck ends with an exception. -/
def verify (cfg : Cfg) (rem : Remote) (count : Nat) (recent : Bool) (order : List DlJob → List DlJob) : Bool :=
  if rem.vers = [] then false
  else (toCheck rem count recent).all (verifyOne cfg rem order)

/-! #### Specification -/

/-- The number of retained versions that are newer than `s`. -/
def newer (rem : Remote) (s : Nat) : Nat := ((rem.vers.map (·.1)).filter (fun x => decide (s < x))).length

/-- The version is among those that are looked at: the `count` newest ones, counting from the newest or from the one before it. -/
def Looked (rem : Remote) (count : Nat) (recent : Bool) (s : Nat) : Prop :=
  if recent then newer rem s < count else 1 ≤ newer rem s ∧ newer rem s ≤ count

/-! #### Proofs -/

theorem rank_desc : ∀ (l : List Nat), l.Pairwise (fun a b => b < a) → ∀ (i s : Nat), l[i]? = some s → (l.filter (fun x => decide (s < x))).length = i
  | [], _, _, _, h => by simp at h
  | x :: t, hp, i, s, h => by
    rw [List.pairwise_cons] at hp
    cases i with
    | zero =>
      simp only [List.getElem?_cons_zero, Option.some.injEq] at h
      subst h
      have : (x :: t).filter (fun y => decide (x < y)) = [] := by
        rw [List.filter_eq_nil_iff]
        intro y hy
        rcases List.mem_cons.1 hy with e | e
        · subst e; simp
        · have := hp.1 y e; simp; omega
      rw [this]; rfl
    | succ i =>
      rw [List.getElem?_cons_succ] at h
      have hm := List.mem_of_getElem? h
      have := hp.1 s hm
      rw [List.filter_cons_of_pos (by simpa using this), List.length_cons, rank_desc t hp.2 i s h]

theorem mem_toCheck {rem : Remote} (hnk : AL.NK rem.vers) (count : Nat) (recent : Bool) (s : Nat) :
    s ∈ toCheck rem count recent ↔ (∃ P, AL.get rem.vers s = some P) ∧ Looked rem count recent s := by
  have hd : (isort (rem.vers.map (·.1))).reverse.Pairwise (fun a b => b < a) := List.pairwise_reverse.2 (sorted_nodup hnk)
  have hp : (isort (rem.vers.map (·.1))).reverse.Perm (rem.vers.map (·.1)) := (List.reverse_perm _).trans (isort_perm _)
  have hmem : s ∈ (isort (rem.vers.map (·.1))).reverse ↔ ∃ P, AL.get rem.vers s = some P := by
    rw [hp.mem_iff, ← isSome_iff_mem, Option.isSome_iff_exists]
  have hrank : ∀ i, (isort (rem.vers.map (·.1))).reverse[i]? = some s → newer rem s = i := by
    intro i hi
    have := rank_desc _ hd i s hi
    rwa [(hp.filter _).length_eq] at this
  rw [← hmem]
  unfold toCheck Looked
  dsimp only
  generalize (isort (rem.vers.map (·.1))).reverse = l at hrank
  cases recent with
  | true =>
    simp only [if_true]
    constructor
    · intro h
      obtain ⟨i, hi⟩ := List.mem_iff_getElem?.1 h
      rw [List.getElem?_take] at hi
      split at hi
      · exact ⟨List.mem_of_getElem? hi, by rw [hrank i hi]; assumption⟩
      · cases hi
    · rintro ⟨h, hn⟩
      obtain ⟨i, hi⟩ := List.mem_iff_getElem?.1 h
      rw [hrank i hi] at hn
      refine List.mem_iff_getElem?.2 ⟨i, ?_⟩
      rw [List.getElem?_take, if_pos hn]; exact hi
  | false =>
    simp only [Bool.false_eq_true, if_false]
    constructor
    · intro h
      obtain ⟨i, hi⟩ := List.mem_iff_getElem?.1 h
      rw [List.getElem?_drop, List.getElem?_take] at hi
      split at hi
      · exact ⟨List.mem_of_getElem? hi, by rw [hrank _ hi]; omega⟩
      · cases hi
    · rintro ⟨h, hn⟩
      obtain ⟨i, hi⟩ := List.mem_iff_getElem?.1 h
      rw [hrank i hi] at hn
      refine List.mem_iff_getElem?.2 ⟨i - 1, ?_⟩
      rw [List.getElem?_drop, List.getElem?_take, if_pos (by omega), show 1 + (i - 1) = i by omega]; exact hi

/-! There is always a version. -/

/-- Some version will survive the deletions in progress. -/
def Some1 (w : World) : Prop :=
  ∃ s P, AL.get w.remote.vers s = some P ∧ ∀ pr, w.proc = some pr → ∀ last del, pr.pc = .exp last del → Key.params s ∉ del

theorem Some1.same {w w' : World} (h : Some1 w) (hv : w'.remote.vers = w.remote.vers)
    (hp : ∀ pr' last del, w'.proc = some pr' → pr'.pc = .exp last del → ∃ pr, w.proc = some pr ∧ pr.pc = .exp last del) : Some1 w' := by
  obtain ⟨s, P, h1, h2⟩ := h
  refine ⟨s, P, by rw [hv]; exact h1, fun pr' e last del hpc => ?_⟩
  obtain ⟨pr, e1, e2⟩ := hp pr' last del e hpc
  exact h2 pr e1 last del e2

theorem some1_set {w : World} {r : Remote} {pr : Proc} {s : Nat} {p : Params} (hr : r.vers = AL.set w.remote.vers s p) (hpc : ∀ last del, pr.pc ≠ .exp last del) :
    Some1 ({ w with remote := r }.setProc pr) :=
  ⟨s, p, by show AL.get r.vers s = _; rw [hr]; exact AL.get_set_self _ _ _, fun pr' e last del h => by cases e; exact absurd h (hpc last del)⟩

/-- The newest version is not to be deleted. -/
theorem some1_expire {cfg : Cfg} {rem : Remote} (hnk : AL.NK rem.vers) (hne : ∃ s P, AL.get rem.vers s = some P) {l : List Key}
    (hl : expireList cfg rem 32 = some l) : ∃ s P, AL.get rem.vers s = some P ∧ Key.params s ∉ l := by
  have hspec := (expireList_spec cfg rem 32 hnk (by decide) hl).1
  have hmax : ∀ l : List Nat, l ≠ [] → ∃ x ∈ l, ∀ y ∈ l, y ≤ x := by
    intro l
    induction l with
    | nil => intro h; exact absurd rfl h
    | cons a t ih =>
      intro _
      by_cases ht : t = []
      · subst ht; exact ⟨a, by simp, by simp⟩
      · obtain ⟨x, hx, hy⟩ := ih ht
        rcases Nat.lt_or_ge a x with h | h
        · exact ⟨x, List.mem_cons_of_mem _ hx, fun y hy' => by
            rcases List.mem_cons.1 hy' with e | e
            · omega
            · exact hy y e⟩
        · exact ⟨a, by simp, fun y hy' => by
            rcases List.mem_cons.1 hy' with e | e
            · omega
            · have := hy y e; omega⟩
  obtain ⟨s0, P0, h0⟩ := hne
  have hm : s0 ∈ rem.vers.map (·.1) := (isSome_iff_mem _ _).1 (by rw [h0]; rfl)
  obtain ⟨s, hs, hall⟩ := hmax _ (List.ne_nil_of_mem hm)
  obtain ⟨P, hP⟩ := Option.isSome_iff_exists.1 ((isSome_iff_mem rem.vers s).2 hs)
  refine ⟨s, P, hP, fun hd => ((hspec s).1 hd).2 ?_⟩
  unfold Kept
  have : (rem.vers.map (·.1)).filter (fun x => decide (s < x)) = [] := by
    rw [List.filter_eq_nil_iff]
    intro x hx
    have := hall x hx
    simp; omega
  rw [this]; decide

theorem some1_next {cfg : Cfg} {w w' : World} {pr : Proc} (hnk : AL.NK w.remote.vers) (h : Some1 w) (hpr : w.proc = some pr)
    (hs : nextStep cfg w pr = some w') : Some1 w' := by
  unfold nextStep at hs
  dsimp only at hs
  split at hs
  · cases hs; exact h.same rfl (fun _ _ _ e h => by cases e; cases h)
  · cases hs; exact h.same rfl (fun _ _ _ e h => by cases e; cases h)
  · cases hs; exact some1_set rfl (fun _ _ h => by cases h)
  · split at hs
    all_goals (cases hs; exact h.same rfl (fun _ _ _ e h => by cases e; cases h))
  · cases hs; exact h.same rfl (fun _ _ _ e h => by cases e; cases h)
  · cases hs; exact h.same rfl (fun _ _ _ e h => by cases e; cases h)
  · rename_i last _
    cases hs; exact some1_set rfl (fun _ _ h => by cases last <;> cases h)
  · cases hs; exact h.same rfl (fun _ _ _ e h => by cases e; cases h)
  · cases hs; exact h.same rfl (fun _ _ _ e h => by cases e; cases h)
  · cases hs; exact some1_set rfl (fun _ _ h => by cases h)
  · split at hs
    · rename_i l hl
      cases hs
      obtain ⟨s, P, h1, _⟩ := h
      obtain ⟨s, P, h1, h2⟩ := some1_expire hnk ⟨s, P, h1⟩ hl
      exact ⟨s, P, h1, fun pr e last del hpc => by cases e; cases hpc; exact h2⟩
    · cases hs; exact h.same rfl (fun _ _ _ e => by cases e)
  · rename_i last k t hpc
    cases hs
    obtain ⟨s, P, h1, h2⟩ := h
    have hk := h2 pr hpr _ _ hpc
    refine ⟨s, P, ?_, fun pr' e last' del' hpc' => by cases e; cases hpc'; exact fun hm => hk (List.mem_cons_of_mem _ hm)⟩
    cases k with
    | block b n => exact h1
    | params n =>
      show AL.get (AL.erase w.remote.vers n) s = some P
      rw [AL.get_erase, if_neg (fun e => hk (by subst e; exact List.mem_cons_self))]
      exact h1
  · split at hs
    · cases hs; exact h.same rfl (fun _ _ _ e => by cases e)
    · cases hs; exact h.same rfl (fun _ _ _ e h => by cases e; cases h)
  · cases hs

theorem some1_step {cfg : Cfg} {w w' : World} {op : Op} (hnk : AL.NK w.remote.vers) (h : Some1 w) (hs : step cfg w op = some w') : Some1 w' := by
  unfold step at hs
  split at hs
  · rename_i hpr
    cases op with
    | startMount m =>
      dsimp only at hs
      split at hs
      all_goals (cases hs; first | exact h | exact h.same rfl (fun _ _ _ e h => by cases e; cases h))
    | startFsck m a b =>
      dsimp only at hs
      split at hs
      all_goals (cases hs; first | exact h | exact h.same rfl (fun _ _ _ e h => by cases e; cases h))
    | idleCkpt m =>
      dsimp only at hs
      split at hs
      · cases hs
      · cases hs; exact h.same rfl (fun pr' _ _ e h => ⟨pr', e, h⟩)
    | restoreCrash m d => cases hs; exact h.same rfl (fun pr' _ _ e h => ⟨pr', e, h⟩)
    | restore m s now order =>
      dsimp only at hs
      split at hs
      · cases hs
      · split at hs
        · cases hs
        · cases hs; exact h.same rfl (fun pr' _ _ e h => ⟨pr', e, h⟩)
    | _ => cases hs
  · rename_i pr hpr
    dsimp only at hs
    cases op with
    | crash => cases hs; exact h.same rfl (fun _ _ _ e => by cases e)
    | next => exact some1_next hnk h hpr hs
    | dlPart f =>
      dsimp only at hs
      split at hs
      · cases hs; exact h.same rfl (fun pr' _ _ e h => ⟨pr', e, h⟩)
      · cases hs
    | dlEnd order =>
      dsimp only at hs
      split at hs
      · split at hs
        · cases hs; exact h.same rfl (fun _ _ _ e h => by cases e; cases h)
        · cases hs; exact h.same rfl (fun _ _ _ e => by cases e)
      · cases hs
    | early o =>
      dsimp only at hs
      split at hs
      · cases hs; exact h.same rfl (fun pr' _ _ e h => by cases e; exact ⟨pr, hpr, h⟩)
      · cases hs
    | sql o =>
      dsimp only at hs
      split at hs
      · cases hs; exact h.same rfl (fun pr' _ _ e h => ⟨pr', e, h⟩)
      · cases hs
    | ckpt =>
      dsimp only at hs
      split at hs
      · split at hs
        · cases hs
        · cases hs; exact h.same rfl (fun pr' _ _ e h => by cases e; exact ⟨pr, hpr, h⟩)
      · cases hs
    | startPass =>
      dsimp only at hs
      split at hs
      · cases hs; exact h.same rfl (fun _ _ _ e h => by cases e; cases h)
      · cases hs
    | startSnap stamp =>
      dsimp only at hs
      split at hs
      · cases hs; exact h.same rfl (fun _ _ _ e h => by cases e; cases h)
      · cases hs
    | read b n =>
      dsimp only at hs
      split at hs
      · cases hs; exact h.same rfl (fun _ _ _ e h => by cases e; cases h)
      · cases hs
    | put b =>
      dsimp only at hs
      split at hs
      · split at hs
        · split at hs
          · cases hs; exact h.same rfl (fun _ _ _ e h => by cases e; cases h)
          · cases hs
        · cases hs
      · cases hs
    | finish stamp flag =>
      dsimp only at hs
      split at hs
      · replace hs := (Option.some.inj hs).symm
        subst hs
        exact h.same rfl (fun _ _ _ e h => by cases e; cases h)
      · cases hs
    | _ => cases hs

theorem some1_exec {cfg : Cfg} : ∀ (ops : List Op) (w w' : World) (r : Params), WF cfg w r → Some1 w → exec cfg w ops = some w' → Some1 w' ∧ ∃ r', WF cfg w' r'
  | [], w, w', r, hw, h, he => by cases he; exact ⟨h, r, hw⟩
  | op :: ops, w, w', r, hw, h, he => by
    unfold exec at he
    split at he
    · cases he
    · rename_i w1 hs
      obtain ⟨r1, h1, _⟩ := stable_step hw hs
      exact some1_exec ops w1 w' r1 h1 (some1_step hw.nkv h hs) he

theorem reach {cfg : Cfg} {m now : Nat} {f : Bytes} {ops : List Op} {w : World} (he : exec cfg (mkfs cfg m now f) ops = some w) :
    Some1 w ∧ ∃ r, WF cfg w r := by
  obtain ⟨r, hr⟩ := wf_mkfs cfg m now f
  refine some1_exec ops _ w r hr ⟨now, _, AL.get_set_self [] now _, fun pr e => by cases e⟩ he

/-! #### Theorems -/

/-- C101: after every history — any mounts, crashes, checks, restores and expirations, on any machines — there is a retained version.  (fsck never ends with "No metadata
backups found".) -/
theorem C101_version_exists (cfg : Cfg) (m now : Nat) (f : Bytes) (ops : List Op) (w : World) (he : exec cfg (mkfs cfg m now f) ops = some w) :
    ∃ s P, AL.get w.remote.vers s = some P := by
  obtain ⟨⟨s, P, h, _⟩, _⟩ := reach he
  exact ⟨s, P, h⟩

/-- C101: what the verification tells.  After every history it succeeds exactly if each version among those it looks at that was unmounted cleanly can be restored with
the recorded checksum. -/
theorem C101_verify_iff (cfg : Cfg) (m now : Nat) (f : Bytes) (ops : List Op) (w : World) (he : exec cfg (mkfs cfg m now f) ops = some w)
    (count : Nat) (recent : Bool) (order : List DlJob → List DlJob) :
    verify cfg w.remote count recent order = true ↔
      ∀ s P, AL.get w.remote.vers s = some P → Looked w.remote count recent s → P.mounted = false →
        ∃ g, download cfg w.remote.blocks P false order = some g := by
  obtain ⟨⟨s0, P0, h0, _⟩, r, hw⟩ := reach he
  have hne : w.remote.vers ≠ [] := by intro e; rw [e] at h0; cases h0
  unfold verify
  rw [if_neg hne, List.all_eq_true]
  constructor
  · intro h s P hP hl hm
    have := h s ((mem_toCheck hw.nkv count recent s).2 ⟨⟨P, hP⟩, hl⟩)
    unfold verifyOne at this
    rw [hP] at this
    dsimp only at this
    rw [if_neg (by rw [(hw.vseq s P hP).1]; simp), hm] at this
    simpa using Option.isSome_iff_exists.1 (by simpa using this)
  · intro h s hs
    obtain ⟨⟨P, hP⟩, hl⟩ := (mem_toCheck hw.nkv count recent s).1 hs
    unfold verifyOne
    rw [hP]
    dsimp only
    rw [if_neg (by rw [(hw.vseq s P hP).1]; simp)]
    cases hm : P.mounted with
    | true => rfl
    | false => simpa using Option.isSome_iff_exists.2 (h s P hP hl hm)

/-- C101: in every orderly history the verification succeeds, whenever and however often it runs, for any number of versions. -/
theorem C101_verify_partial (cfg : Cfg) (m now : Nat) (f : Bytes) (ops : List Op) (w : World)
    (ho : OrderlyRun cfg (mkfs cfg m now f) ops) (he : exec cfg (mkfs cfg m now f) ops = some w)
    (count : Nat) (recent : Bool) (order : List DlJob → List DlJob) (hord : ∀ l, (order l).Perm l) :
    verify cfg w.remote count recent order = true := by
  refine (C101_verify_iff cfg m now f ops w he count recent order).2 (fun s P hP _ hm => ?_)
  obtain ⟨k, hk⟩ := C10_versions_download_partial cfg m now f ops w ho he s P hP hm
  exact ⟨_, hk order hord⟩

/-- C101: what the verification protects.  If all clean versions among the `count` newest pass, then after any further history each of them has been expired or still
passes. -/
theorem C101_verify_stays (cfg : Cfg) (m now : Nat) (f : Bytes) (ops1 ops2 : List Op) (w1 w2 : World)
    (he1 : exec cfg (mkfs cfg m now f) ops1 = some w1) (he2 : exec cfg w1 ops2 = some w2) (s : Nat) (P : Params) (g : Bytes)
    (hP : AL.get w1.remote.vers s = some P) (hm : P.mounted = false) (hs : Snapshot cfg w1.remote.blocks P g)
    (order : List DlJob → List DlJob) (hord : ∀ l, (order l).Perm l) :
    AL.get w2.remote.vers s = none ∨ verifyOne cfg w2.remote order s = true := by
  rcases C10_snapshots_stay cfg m now f ops1 ops2 w1 w2 he1 he2 s P g hP hs (Or.inl hm) with h | ⟨h1, h2⟩
  · exact Or.inl h
  · refine Or.inr ?_
    obtain ⟨_, r, hw⟩ := reach he1
    unfold verifyOne
    rw [h1]
    dsimp only
    rw [if_neg (by rw [(hw.vseq s P hP).1]; simp), hm, h2 order hord]
    rfl

/-- C101, violated: after the history of `C10_untracked_change` — a mount is killed right after it created the index for NFS; the next mount works normally and unmounts
cleanly — the file system is marked clean, and fsck with `--force` fails in the verification, before it repairs anything.  It changes nothing, so it fails
again each time. -/
theorem C101_verify_blocks : ∃ (cfg : Cfg) (m now : Nat) (f : Bytes) (ops : List Op) (w : World) (P : Params),
    (∀ op ∈ ops, op.plain = true) ∧ exec cfg (mkfs cfg m now f) ops = some w ∧ w.proc = none ∧
    w.remote.cur = some P ∧ P.mounted = false ∧ P.needsFsck = false ∧
    (∃ p, fsckCheck w.remote.cur (w.disk m).params true false = .useLocal p ∧ p.mounted = false) ∧
    verify cfg w.remote 5 true id = false := by
  have h : check fs0 (killedEarly ++ session0) (fun w => w.proc.isNone && (match w.remote.cur with
      | some P => decide (P.mounted = false) && (decide (P.needsFsck = false) &&
        ((match fsckCheck w.remote.cur (w.disk 0).params true false with | .useLocal p => !p.mounted | _ => false) && !verify cfg2 w.remote 5 true id))
      | none => false)) = true := by decide +kernel
  obtain ⟨w, hw, hc⟩ := check_true h
  rw [Bool.and_eq_true] at hc
  have hc2 := hc.2
  split at hc2
  · rename_i P hP
    simp only [Bool.and_eq_true, decide_eq_true_eq] at hc2
    obtain ⟨c1, c2, c3, c4⟩ := hc2
    refine ⟨cfg2, 0, 5, [1, 2, 3], _, w, P, by decide, hw, by simpa using hc.1, hP, c1, c2, ?_, by simpa using c4⟩
    split at c3
    · rename_i p hp; exact ⟨p, hp, by simpa using c3⟩
    · cases c3
  · cases hc2

/-- The hypotheses of `C101_verify_partial` are met by `historyAll`, whose last version is looked at and clean; looking at too few versions would not tell anything. -/
example : OrderlyRun cfg2 fs0 historyAll ∧ ∃ w P, exec cfg2 fs0 historyAll = some w ∧ AL.get w.remote.vers 8 = some P ∧ P.mounted = false ∧
    newer w.remote 8 = 0 ∧ toCheck w.remote 5 true = [8, 7, 6, 5] ∧ toCheck w.remote 5 false = [7, 6, 5] ∧ verify cfg2 w.remote 5 true id = true := by
  refine ⟨orderly_historyAll, ?_⟩
  have h : check fs0 historyAll (fun w => match AL.get w.remote.vers 8 with
      | some P => decide (P.mounted = false ∧ newer w.remote 8 = 0 ∧ toCheck w.remote 5 true = [8, 7, 6, 5] ∧ toCheck w.remote 5 false = [7, 6, 5] ∧ verify cfg2 w.remote 5 true id = true)
      | none => false) = true := by decide +kernel
  obtain ⟨w, hw, hc⟩ := check_true h
  split at hc
  · rename_i P hP
    simp only [decide_eq_true_eq] at hc
    exact ⟨w, P, hw, hP, hc⟩
  · cases hc

end Verif.Meta
