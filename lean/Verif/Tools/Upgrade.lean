/-
C90: `s3qladm upgrade` (adm.py:352-506), completed, refused or interrupted.
-/
namespace Verif.Tools.Upgrade

/-! #### Model -/

/-- `CURRENT_FS_REV` (__init__.py:24). -/
def curRev : Nat := 26

/-- The parameters that matter: those of the `.params` file, of the metadata of the object `s3ql_metadata` (before revision 26) and of `s3ql_params`.  `bs` and `size`: size of metadata
blocks and of the database. -/
structure Params where
  seq : Nat
  rev : Nat
  needsFsck : Bool
  bs : Nat
  size : Nat
  deriving DecidableEq, Repr

structure St where
  /-- cached database and `.params` file -/
  db : Option (List Nat)
  localP : Option Params
  /-- metadata of `s3ql_metadata`, which earlier versions read -/
  old : Option Params
  /-- `s3ql_params`, and `s3ql_params_<seq>` -/
  params : Option Params
  paramsN : Nat → Option Params
  /-- `s3ql_metadata_<block>_<seq>` -/
  blocks : Nat → Nat → Option (List Nat)

inductive Answer where
  | download
  | outdated
  | unclean
  | tooOld
  | noParams
  | alreadyNew
  | go (db : List Nat) (loc : Params)
  deriving DecidableEq, Repr

/-- The checks (adm.py:388-445).  The answer to the question is "yes". -/
def check (s : St) : Answer :=
  match s.db, s.localP with
  | some db, some l =>
    match (match s.old with
      | some o => some o
      | none => s.params) with
    | none => .noParams
    | some r =>
      if l.seq < r.seq then .outdated
      else if l.seq > r.seq ∨ l.needsFsck = true then .unclean
      else if l.rev < curRev - 1 then .tooOld
      else if l.rev ≥ curRev then .alreadyNew
      else .go db l
  | _, _ => .download

/-- Block `i` of the database. -/
def block (db : List Nat) (bs i : Nat) : List Nat := (db.drop (i * bs)).take bs

/-- `math.ceil(size / bs)` (database.py:1166). -/
def count (size bs : Nat) : Nat := (size + bs - 1) / bs

/-- Where the command is interrupted: after some of the blocks have been written (they are written in parallel, in any order), after the local parameters, after `s3ql_params`, after
`s3ql_params_<seq>`, or not at all. -/
inductive Stop where
  | blocks (done : List Nat)
  | localWritten
  | paramsStored
  | paramsNStored
  | never
  deriving DecidableEq, Repr

/-- `upload_metadata(…, incremental=False)` (database.py:1119-1232): the blocks that are done. -/
def putBlocks (s : St) (db : List Nat) (bs seq : Nat) (done : Nat → Bool) : St :=
  { s with blocks := fun i q => if q = seq ∧ i < count db.length bs ∧ done i = true then some (block db bs i) else s.blocks i q }

/-- The changes (adm.py:473-503), up to the interruption. -/
def perform (s : St) (db : List Nat) (l : Params) (bs : Nat) (stop : Stop) : St :=
  let new : Params := { seq := l.seq + 1, rev := curRev, needsFsck := l.needsFsck, bs := bs, size := db.length }
  match stop with
  | .blocks done => putBlocks s db bs new.seq (fun i => done.contains i)
  | .localWritten => { putBlocks s db bs new.seq (fun _ => true) with localP := some new }
  | .paramsStored => { putBlocks s db bs new.seq (fun _ => true) with localP := some new, params := some new }
  | .paramsNStored => { putBlocks s db bs new.seq (fun _ => true) with localP := some new, params := some new, paramsN := fun q => if q = new.seq then some new else s.paramsN q }
  | .never => { putBlocks s db bs new.seq (fun _ => true) with localP := some new, params := some new, paramsN := fun q => if q = new.seq then some new else s.paramsN q, old := s.old.map (fun o => { o with rev := curRev, seq := l.seq + 1 }) }

/-- `s3qladm upgrade --metadata-block-size`. -/
def upgrade (s : St) (bs : Nat) (stop : Stop) : Answer × St :=
  match check s with
  | .go db l => (.go db l, perform s db l bs stop)
  | a => (a, s)

/-- What `mount.s3ql` of this version does first (mount.py:577-614, database.py:131-150, 1315-1330): the parameters that it uses, or its exit code. -/
def mountParams (s : St) : Except Nat Params :=
  match s.params with
  | none => .error 32
  | some p =>
    if p.rev < curRev then .error 32
    else if p.rev > curRev then .error 33
    else match s.localP with
      | some l => if l.seq > p.seq ∨ p.needsFsck = true then .error 30 else .ok p
      | none => if p.needsFsck = true then .error 30 else .ok p

/-- What a machine without cached metadata downloads (database.py:909-1012): the blocks with the sequence number of the parameters; older blocks do not exist after a full upload. -/
def download (s : St) (p : Params) : Option (List Nat) :=
  ((List.range (count p.size p.bs)).mapM (fun i => s.blocks i p.seq)).map List.flatten

/-! #### Specification -/

/-- A file system of the previous revision, cleanly unmounted, with its metadata in the cache. -/
structure Ready (s : St) (db : List Nat) (l o : Params) : Prop where
  db : s.db = some db
  localP : s.localP = some l
  old : s.old = some o
  params : s.params = none
  rev : l.rev = curRev - 1
  seq : l.seq = o.seq
  clean : l.needsFsck = false

/-! #### Proofs -/

theorem check_ready {s : St} {db : List Nat} {l o : Params} (h : Ready s db l o) : check s = .go db l := by
  unfold check
  rw [h.db, h.localP, h.old]
  simp [h.seq, h.clean, h.rev, curRev]

theorem upgrade_ready {s : St} {db : List Nat} {l o : Params} (h : Ready s db l o) (bs : Nat) (stop : Stop) : upgrade s bs stop = (.go db l, perform s db l bs stop) := by
  unfold upgrade
  rw [check_ready h]

theorem flatten_blocks (db : List Nat) (bs n : Nat) : ((List.range n).map (block db bs)).flatten = db.take (n * bs) := by
  induction n with
  | zero => simp
  | succ n ih =>
    rw [List.range_succ, List.map_append, List.flatten_append, ih]
    simp only [List.map_cons, List.map_nil, List.flatten_cons, List.flatten_nil, List.append_nil, block]
    rw [Nat.add_mul, Nat.one_mul, List.take_add]

theorem count_enough {size bs : Nat} (h : 0 < bs) : size ≤ count size bs * bs := by
  unfold count
  have h1 := Nat.div_add_mod (size + bs - 1) bs
  have h2 := Nat.mod_lt (size + bs - 1) h
  have h3 : bs * ((size + bs - 1) / bs) = (size + bs - 1) / bs * bs := Nat.mul_comm _ _
  omega

theorem mapM_some {α β : Type} (f : α → Option β) (g : α → β) (l : List α) (h : ∀ a ∈ l, f a = some (g a)) : l.mapM f = some (l.map g) := by
  induction l with
  | nil => rfl
  | cons a l ih =>
    rw [List.mapM_cons, h a List.mem_cons_self, ih (fun b hb => h b (List.mem_cons_of_mem _ hb))]
    rfl

theorem download_put {s : St} {db : List Nat} {bs seq : Nat} (hb : 0 < bs) {p : Params} (hp : p.seq = seq) (hbs : p.bs = bs) (hs : p.size = db.length) {t : St}
    (ht : t.blocks = (putBlocks s db bs seq (fun _ => true)).blocks) : download t p = some db := by
  unfold download
  rw [hbs, hs, mapM_some _ (block db bs) _ (by
    intro i hi
    have := List.mem_range.1 hi
    rw [ht]
    simp [putBlocks, hp, this])]
  simp only [Option.map_some, flatten_blocks]
  rw [List.take_of_length_le (count_enough hb)]

/-! #### Properties -/

/-- **C90 (completed).** After a completed upgrade this version mounts the file system, from the cached metadata and on any other machine from metadata that are exactly those of the
previous version, split into blocks of the given size; the previous version refuses, since the object that it reads has the new revision; and another upgrade changes nothing. -/
theorem C90_completed {s : St} {db : List Nat} {l o : Params} (h : Ready s db l o) {bs : Nat} (hb : 0 < bs) :
    ∃ p, mountParams (upgrade s bs .never).2 = .ok p ∧ p.seq = l.seq + 1 ∧ p.bs = bs ∧ (upgrade s bs .never).2.db = some db ∧ (upgrade s bs .never).2.localP = some p ∧
      download (upgrade s bs .never).2 p = some db ∧ (∃ o', (upgrade s bs .never).2.old = some o' ∧ o'.rev = curRev) ∧
      (upgrade s bs .never).2.paramsN p.seq = some p ∧
      ∀ bs' stop, upgrade (upgrade s bs .never).2 bs' stop = (.alreadyNew, (upgrade s bs .never).2) := by
  rw [upgrade_ready h]
  refine ⟨{ seq := l.seq + 1, rev := curRev, needsFsck := l.needsFsck, bs := bs, size := db.length }, ?_, rfl, rfl, h.db, rfl, ?_, ?_, ?_, ?_⟩
  · simp [mountParams, perform, h.clean]
  · exact download_put hb rfl rfl rfl rfl
  · exact ⟨{ o with rev := curRev, seq := l.seq + 1 }, by simp [perform, h.old], rfl⟩
  · simp [perform]
  · intro bs' stop
    have : check (perform s db l bs .never) = .alreadyNew := by
      unfold check
      simp [perform, putBlocks, h.db, h.old, h.clean, curRev]
    unfold upgrade
    rw [this]

/-- **C90 (refused).** Whenever the command refuses, it changes nothing; it refuses a file system that is not cleanly unmounted, whose cached metadata are not the newest, or
that is older than the previous revision. -/
theorem C90_refused {s : St} {bs : Nat} {stop : Stop} (h : ∀ db l, (upgrade s bs stop).1 ≠ .go db l) : (upgrade s bs stop).2 = s := by
  unfold upgrade at h ⊢
  split
  · rename_i db l hc
    rw [hc] at h
    exact absurd rfl (h db l)
  · rfl

theorem C90_refuses {s : St} {db : List Nat} {l o : Params} (hd : s.db = some db) (hl : s.localP = some l) (ho : s.old = some o)
    (h : l.seq ≠ o.seq ∨ l.needsFsck = true ∨ l.rev ≠ curRev - 1) (bs : Nat) (stop : Stop) : (upgrade s bs stop).2 = s := by
  apply C90_refused
  intro db' l' hc
  unfold upgrade check at hc
  rw [hd, hl, ho] at hc
  simp only at hc
  by_cases h1 : l.seq < o.seq
  · simp [h1] at hc
  · by_cases h2 : l.seq > o.seq ∨ l.needsFsck = true
    · simp only [h1, h2, if_true, if_false] at hc; cases hc
    · by_cases h3 : l.rev < curRev - 1
      · simp only [h1, h2, h3, if_true, if_false] at hc; cases hc
      · by_cases h4 : l.rev ≥ curRev
        · simp only [h1, h2, h3, h4, if_true, if_false] at hc; cases hc
        · rcases h with h | h | h
          · have : ¬ l.seq > o.seq := fun hh => h2 (Or.inl hh)
            omega
          · exact h2 (Or.inr h)
          · unfold curRev at h h3 h4; omega

/-- **C90 (interrupted and resumed).** If the command is interrupted while metadata are uploaded, whatever blocks have been stored then, it can be run again, also with another block
size, and the result is one of a completed upgrade; until then the previous version can use the file system as before.  Missing for the full claim, which the command
itself states: interruptions after that (`C90_stuck`, `C90_old_version_mounts`). -/
theorem C90_resumed_partial {s : St} {db : List Nat} {l o : Params} (h : Ready s db l o) (bs0 : Nat) (done : List Nat) :
    Ready (upgrade s bs0 (.blocks done)).2 db l o ∧ ∀ bs, 0 < bs → ∃ p, mountParams (upgrade (upgrade s bs0 (.blocks done)).2 bs .never).2 = .ok p ∧ p.bs = bs ∧
      download (upgrade (upgrade s bs0 (.blocks done)).2 bs .never).2 p = some db := by
  have hr : Ready (upgrade s bs0 (.blocks done)).2 db l o := by
    rw [upgrade_ready h]
    exact ⟨h.db, h.localP, h.old, h.params, h.rev, h.seq, h.clean⟩
  refine ⟨hr, fun bs hb => ?_⟩
  obtain ⟨p, h1, _, h2, _, _, h3, _⟩ := C90_completed hr hb
  exact ⟨p, h1, h2, h3⟩

/-- **Violation.** The command says that it can be interrupted and resumed.  If it is interrupted between writing the local parameters and storing `s3ql_params`, it cannot: this version
says that the file system has to be upgraded (32), and `s3qladm upgrade` refuses for ever, since the local sequence number is larger than that of `s3ql_metadata`. -/
theorem C90_stuck {s : St} {db : List Nat} {l o : Params} (h : Ready s db l o) (bs : Nat) :
    mountParams (upgrade s bs .localWritten).2 = .error 32 ∧
      ∀ bs' stop, upgrade (upgrade s bs .localWritten).2 bs' stop = (.unclean, (upgrade s bs .localWritten).2) := by
  rw [upgrade_ready h]
  constructor
  · simp [mountParams, perform, putBlocks, h.params]
  · intro bs' stop
    have : check (perform s db l bs .localWritten) = .unclean := by
      unfold check
      simp only [perform, putBlocks, h.db, h.old]
      have h1 : ¬ (l.seq + 1 < o.seq) := by rw [h.seq]; omega
      have h2 : l.seq + 1 > o.seq := by rw [h.seq]; omega
      simp only [h1, if_false]
      rw [if_pos (Or.inl h2)]
    unfold upgrade
    rw [this]

/-- **Violation.** If it is interrupted after `s3ql_params` has been stored, this version mounts the file system, also on other machines; but the previous version does so too, with its own metadata, since
`s3ql_metadata` still has the previous revision; and running the command again does not change that. -/
theorem C90_old_version_mounts {s : St} {db : List Nat} {l o : Params} (h : Ready s db l o) {bs : Nat} (hb : 0 < bs) (st : Stop) (hst : st = .paramsStored ∨ st = .paramsNStored) :
    (∃ p, mountParams (upgrade s bs st).2 = .ok p ∧ download (upgrade s bs st).2 p = some db) ∧ (upgrade s bs st).2.old = some o ∧
      ∀ bs' stop, upgrade (upgrade s bs st).2 bs' stop = (.unclean, (upgrade s bs st).2) := by
  rw [upgrade_ready h]
  have h1 : ¬ (l.seq + 1 < o.seq) := by rw [h.seq]; omega
  have h2 : l.seq + 1 > o.seq := by rw [h.seq]; omega
  rcases hst with rfl | rfl
  all_goals
    refine ⟨⟨{ seq := l.seq + 1, rev := curRev, needsFsck := l.needsFsck, bs := bs, size := db.length }, by simp [mountParams, perform, putBlocks, h.clean], download_put hb rfl rfl rfl rfl⟩, h.old, fun bs' stop => ?_⟩
    have : ∀ x, (x = Stop.paramsStored ∨ x = .paramsNStored) → check (perform s db l bs x) = .unclean := by
      intro x hx
      unfold check
      rcases hx with rfl | rfl <;>
      · simp only [perform, putBlocks, h.db, h.old]
        simp only [h1, if_false]
        rw [if_pos (Or.inl h2)]
    unfold upgrade
    rw [this _ (by simp)]

/-- **C90 (earlier versions).** Wherever the upgrade is interrupted, and also when it is complete, what is stored of other versions of the metadata stays as it is; a version is listed
only when all of its blocks are stored. -/
theorem C90_other_versions {s : St} {db : List Nat} {l o : Params} (h : Ready s db l o) {bs : Nat} (hb : 0 < bs) (stop : Stop) :
    (∀ q, q ≠ l.seq + 1 → (upgrade s bs stop).2.paramsN q = s.paramsN q ∧ ∀ i, (upgrade s bs stop).2.blocks i q = s.blocks i q) ∧
    ((upgrade s bs stop).2.paramsN (l.seq + 1) ≠ s.paramsN (l.seq + 1) → ∃ p, (upgrade s bs stop).2.paramsN (l.seq + 1) = some p ∧ p.seq = l.seq + 1 ∧ download (upgrade s bs stop).2 p = some db) := by
  rw [upgrade_ready h]
  have hd : ∀ st, st = Stop.paramsNStored ∨ st = .never → download (perform s db l bs st) { seq := l.seq + 1, rev := curRev, needsFsck := l.needsFsck, bs := bs, size := db.length } = some db := by
    rintro st (rfl | rfl)
    · exact download_put hb rfl rfl rfl rfl
    · exact download_put hb rfl rfl rfl rfl
  refine ⟨fun q hq => ?_, fun hne => ?_⟩
  · cases stop <;> simp [perform, putBlocks, hq]
  · cases stop with
    | blocks d => exact absurd rfl hne
    | localWritten => exact absurd rfl hne
    | paramsStored => exact absurd rfl hne
    | paramsNStored => exact ⟨_, by simp [perform], rfl, hd _ (Or.inl rfl)⟩
    | never => exact ⟨_, by simp [perform], rfl, hd _ (Or.inr rfl)⟩

/-- C90: a file system is mounted exactly if it has this version's revision, is not marked as damaged and the storage is not behind the local copy. -/
theorem C90_mounts (s : St) (p : Params) :
    mountParams s = .ok p ↔ s.params = some p ∧ p.rev = curRev ∧ p.needsFsck = false ∧ ∀ l, s.localP = some l → l.seq ≤ p.seq := by
  unfold mountParams
  cases hp : s.params with
  | none => simp
  | some q =>
    have key : ∀ (b : Prop) [Decidable b] (c : Nat), (if b then Except.error c else Except.ok q : Except Nat Params) = .ok p ↔ ¬ b ∧ q = p := by
      intro b _ c
      split
      · rename_i hb; exact ⟨(fun h => by cases h), (fun h => absurd hb h.1)⟩
      · rename_i hb; exact ⟨(fun h => ⟨hb, Except.ok.inj h⟩), (fun h => by rw [h.2])⟩
    dsimp only
    split
    · rename_i h1
      refine ⟨(fun h => by cases h), fun ⟨h, h2, _⟩ => ?_⟩
      have := Option.some.inj h; subst this; omega
    · split
      · rename_i h1
        refine ⟨(fun h => by cases h), fun ⟨h, h2, _⟩ => ?_⟩
        have := Option.some.inj h; subst this; omega
      · rename_i h1 h2
        cases hl : s.localP with
        | none =>
          dsimp only
          rw [key]
          constructor
          · rintro ⟨h, rfl⟩; exact ⟨rfl, by omega, by simpa using h, (fun l hl => by cases hl)⟩
          · rintro ⟨h, _, h3, _⟩
            have := Option.some.inj h; subst this
            exact ⟨by simp [h3], rfl⟩
        | some l =>
          dsimp only
          rw [key]
          constructor
          · rintro ⟨h, rfl⟩
            refine ⟨rfl, by omega, ?_, ?_⟩
            · cases hn : q.needsFsck
              · rfl
              · exact absurd (Or.inr hn) h
            · intro l' hl'
              cases hl'
              exact Nat.le_of_not_lt (fun hh => h (Or.inl hh))
          · rintro ⟨h, _, h3, h4⟩
            have := Option.some.inj h; subst this
            refine ⟨?_, rfl⟩
            rintro (h | h)
            · have := h4 l rfl; omega
            · rw [h3] at h; cases h

/-! #### The hypotheses can be met -/

def s0 : St :=
  { db := some [1, 2, 3, 4, 5], localP := some ⟨7, 25, false, 0, 0⟩, old := some ⟨7, 25, false, 0, 0⟩, params := none, paramsN := fun _ => none, blocks := fun _ _ => none }

theorem s0_ready : Ready s0 [1, 2, 3, 4, 5] ⟨7, 25, false, 0, 0⟩ ⟨7, 25, false, 0, 0⟩ := ⟨rfl, rfl, rfl, rfl, rfl, rfl, rfl⟩

example : (upgrade s0 2 .never).2.blocks 2 8 = some [5] ∧ (upgrade s0 2 (.blocks [0, 2])).2.blocks 1 8 = none := by decide

end Verif.Tools.Upgrade
