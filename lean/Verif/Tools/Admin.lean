/-
C57, C58: `s3qladm passphrase`, `s3qladm recover-key` (adm.py:145-232), `mkfs.s3ql` (mkfs.py:118-259) and `open_backend`
(backends/__init__.py:105-180), on top of the model of the encryption layer.
-/
import Verif.Comprenc.Props2

namespace Verif.Tools.Admin
open Verif.Comprenc

/-! #### Model -/

/-- The objects in the storage: metadata and content.  Storing an object is atomic (C48). -/
abbrev Store := Bytes → Option (Raw × Bytes)

/-- `s3ql_passphrase` -/
def kPass : Bytes := [115, 51, 113, 108, 95, 112, 97, 115, 115, 112, 104, 114, 97, 115, 101]
/-- `s3ql_passphrase_bak1` to `s3ql_passphrase_bak3` -/
def kBak (i : UInt8) : Bytes := kPass ++ [95, 98, 97, 107, 48 + i]
/-- `s3ql_params` -/
def kParams : Bytes := [115, 51, 113, 108, 95, 112, 97, 114, 97, 109, 115]
/-- `s3ql_metadata` -/
def kMetadata : Bytes := [115, 51, 113, 108, 95, 109, 101, 116, 97, 100, 97, 116, 97]

inductive FErr where
  | noSuch
  | err (e : Err)

def upd (f : Store) (k : Bytes) (v : Option (Raw × Bytes)) : Store := fun x => if x = k then v else f x

/-- `store` (backends/comprenc.py:383-384): the call of `write_fh`. -/
def storeArgs {F : Type} (clk key val : Bytes) : WriteArgs F :=
  { key := key, file := val, pos := 0, len := val.length, user := [], dontCompress := false, clock := clk, short := fun _ => bufsize }

/-- `fetch` (backends/common.py:316-324). -/
def fetch {F : Type} (env : Env F) (cfg : Cfg) (st : Store) (key : Bytes) : Except FErr Bytes :=
  match st key with
  | none => .error .noSuch
  | some (m, buf) =>
    match readinto env cfg key m buf with
    | .ok r => .ok r.2
    | .error e => .error (.err e)

inductive OErr where
  | wrongPassphrase  -- exit code 17
  | noFileSystem     -- exit code 18
  | other

/-- `open_backend` (backends/__init__.py:105-180): the passphrase of the result.  `pw` is what the user enters or the authentication
file contains.  Errors of the plain backend are not modelled. -/
def openBackend {F : Type} (env : Env F) (alg : Alg) (pw : Bytes) (st : Store) : Except OErr (Option Bytes) :=
  match st kPass with
  | some _ =>
    match fetch env ⟨some pw, alg⟩ st kPass with
    | .ok d => .ok (some d)
    | .error (.err .corrupted) => .error .wrongPassphrase
    | .error _ => .error .other
  | none => if (st kParams).isSome ∨ (st kMetadata).isSome then .ok none else .error .noFileSystem

/-- The files in the cache directory that belong to the file system. -/
structure Local where
  db : Option Bytes
  cache : Bool
  params : Option Bytes

structure World where
  st : Store
  loc : Local

/-- The steps of a program that change something. -/
inductive Act where
  | store (pass : Option Bytes) (key val : Bytes)
  | removeDb
  | removeCache
  | createDb (img : Bytes)
  | writeParams (buf : Bytes)

/-- One step; `none` if it raises an exception. -/
def act {F : Type} (env : Env F) (alg : Alg) (clk : Bytes) (w : World) : Act → Option World
  | .store pass key val =>
    match writeFh env ⟨pass, alg⟩ (storeArgs clk key val) with
    | .ok o => some { w with st := upd w.st key (some o) }
    | .error _ => none
  | .removeDb => some { w with loc := { w.loc with db := none } }
  | .removeCache => some { w with loc := { w.loc with cache := false } }
  | .createDb img => some { w with loc := { w.loc with db := some img } }
  | .writeParams buf => some { w with loc := { w.loc with params := some buf } }

/-- The state if the program is killed after `n` steps, and whether it has completed.  It stops at an exception.  `clk` is the clock. -/
def perform {F : Type} (env : Env F) (alg : Alg) (clk : Nat → Bytes) : Nat → List Act → World → World × Bool
  | _, [], w => (w, true)
  | 0, _ :: _, w => (w, false)
  | n + 1, a :: t, w =>
    match act env alg (clk 0) w a with
    | none => (w, false)
    | some w' => perform env alg (fun i => clk (i + 1)) n t w'

/-- The four copies of the master key (adm.py:184-187, 229-232, mkfs.py:201-204). -/
def keyActs (pw dataPw : Bytes) : List Act :=
  [.store (some pw) kPass dataPw, .store (some pw) (kBak 1) dataPw, .store (some pw) (kBak 2) dataPw, .store (some pw) (kBak 3) dataPw]

/-- `passphrase` (adm.py:145-188), killed after `n` steps. -/
def changePassphrase {F : Type} (env : Env F) (alg : Alg) (clk : Nat → Bytes) (old new : Bytes) (n : Nat) (w : World) : World × Bool :=
  match openBackend env alg old w.st with
  | .error _ => (w, false)
  | .ok none => (w, false)
  | .ok (some dataPw) => if dataPw = [] then (w, false) else perform env alg clk n (keyActs new dataPw) w

/-- `recover_key` (adm.py:193-232), after the key has been read (see C65). -/
def recoverKey {F : Type} (env : Env F) (alg : Alg) (clk : Nat → Bytes) (dataPw new : Bytes) (n : Nat) (w : World) : World × Bool :=
  if dataPw.length ≠ 32 then (w, false) else perform env alg clk n (keyActs new dataPw) w

/-- What `mkfs` creates: the image of the database, the metadata objects that contain it (see C12), the parameters and the key of
their copy. -/
structure NewFs where
  img : Bytes
  objs : List (Bytes × Bytes)
  params : Bytes
  seqKey : Bytes

/-- The steps of `mkfs` after the check (mkfs.py:183-242); `key` is the passphrase and the new master key. -/
def mkfsActs (key : Option (Bytes × Bytes)) (f : NewFs) : List Act :=
  (match key with | some (pw, dataPw) => keyActs pw dataPw | none => []) ++
  [.removeDb, .removeCache, .createDb f.img] ++
  f.objs.map (fun o => .store (key.map (·.2)) o.1 o.2) ++
  [.writeParams f.params, .store (key.map (·.2)) kParams f.params, .store (key.map (·.2)) f.seqKey f.params, .removeCache]

/-- `mkfs` (mkfs.py:118-259), killed after `n` steps. -/
def mkfs {F : Type} (env : Env F) (alg : Alg) (clk : Nat → Bytes) (key : Option (Bytes × Bytes)) (f : NewFs) (n : Nat) (w : World) : World × Bool :=
  if (w.st kParams).isSome ∨ (w.st kMetadata).isSome then (w, false)
  else perform env alg clk n (mkfsActs key f) w

/-! #### Specification -/

/-- With this passphrase, the user gets this master key. -/
def Opens {F : Type} (env : Env F) (pw : Bytes) (st : Store) (k : Bytes) : Prop := ∀ alg, openBackend env alg pw st = .ok (some k)

/-- The clock returns 8 bytes. -/
def ClockOk (clk : Nat → Bytes) : Prop := ∀ i, (clk i).length = 8

/-- The keys of metadata objects and of the copy of the parameters have the prefixes `s3ql_metadata_` and `s3ql_params_`. -/
structure NewFs.Ok (f : NewFs) : Prop where
  objs : ∀ o ∈ f.objs, (kMetadata ++ [95]) <+: o.1
  nodup : (f.objs.map (·.1)).Nodup
  seq : (kParams ++ [95]) <+: f.seqKey

/-! #### Lemmas -/

theorem upd_self (f : Store) (k : Bytes) (v) : upd f k v k = v := by simp [upd]
theorem upd_ne (f : Store) {k x : Bytes} (v) (h : x ≠ k) : upd f k v x = f x := by simp [upd, h]

theorem fetch_stored {F : Type} {env : Env F} (hl : env.Lawful) {pass : Option Bytes} {alg alg' : Alg} {clk key val : Bytes} {o : Raw × Bytes} {st : Store}
    (hc : clk.length = 8) (h : writeFh env ⟨pass, alg⟩ (storeArgs clk key val) = .ok o) (hst : st key = some o) :
    fetch env ⟨pass, alg'⟩ st key = .ok val := by
  have ht : (storeArgs clk key val : WriteArgs F).Typed env := ⟨List.nodup_nil, fun e he => absurd he List.not_mem_nil, hc⟩
  have hr := C26_write_read env hl ⟨pass, alg⟩ ⟨pass, alg'⟩ rfl (storeArgs clk key val) ht o.1 o.1 o.2 h (List.Perm.refl _)
  unfold fetch
  rw [hst]
  have hr' : readinto env ⟨pass, alg'⟩ key o.1 o.2 = .ok ([], val) := by
    refine Eq.trans hr ?_
    show Except.ok (([] : Meta F), (val.drop 0).take val.length) = _
    rw [List.drop_zero, List.take_length]
  show (match readinto env ⟨pass, alg'⟩ key o.1 o.2 with | .ok r => Except.ok r.2 | .error e => Except.error (FErr.err e)) = _
  rw [hr']

/-- The object under this key is one that was stored with this passphrase. -/
def Stored {F : Type} (env : Env F) (pass : Option Bytes) (st : Store) (key val : Bytes) : Prop :=
  ∃ alg clk o, clk.length = 8 ∧ writeFh env ⟨pass, alg⟩ (storeArgs clk key val) = .ok o ∧ st key = some o

theorem Stored.fetch {F : Type} {env : Env F} (hl : env.Lawful) {pass : Option Bytes} {st : Store} {key val : Bytes} (h : Stored env pass st key val) (alg : Alg) :
    fetch env ⟨pass, alg⟩ st key = .ok val := by
  obtain ⟨a, c, o, h1, h2, h3⟩ := h
  exact fetch_stored hl h1 h2 h3

theorem Stored.opens {F : Type} {env : Env F} (hl : env.Lawful) {pw : Bytes} {st : Store} {k : Bytes} (h : Stored env (some pw) st kPass k) : Opens env pw st k := by
  intro alg
  unfold openBackend
  obtain ⟨a, c, o, h1, h2, h3⟩ := id h
  rw [h3]
  dsimp only
  rw [h.fetch hl alg]

theorem perform_cons {F : Type} {env : Env F} {alg : Alg} {clk : Nat → Bytes} {n : Nat} {a : Act} {t : List Act} {w : World} :
    perform env alg clk (n + 1) (a :: t) w =
      match act env alg (clk 0) w a with
      | none => (w, false)
      | some w' => perform env alg (fun i => clk (i + 1)) n t w' := rfl

/-- Objects after some steps: as before, or stored by one of the steps. -/
theorem perform_store {F : Type} {env : Env F} {alg : Alg} {acts : List Act} : ∀ {n : Nat} {clk : Nat → Bytes} {w : World} (_ : ClockOk clk) (key : Bytes),
    (perform env alg clk n acts w).1.st key = w.st key ∨
      ∃ pass val, Act.store pass key val ∈ acts ∧ Stored env pass (perform env alg clk n acts w).1.st key val := by
  induction acts with
  | nil => intro n clk w _ key; cases n <;> exact Or.inl rfl
  | cons a t ih =>
    intro n clk w hc key
    cases n with
    | zero => exact Or.inl rfl
    | succ n =>
      unfold perform
      cases ha : act env alg (clk 0) w a with
      | none => exact Or.inl rfl
      | some w' =>
        dsimp only
        have hc' : ClockOk (fun i => clk (i + 1)) := fun i => hc _
        rcases ih (n := n) (w := w') hc' key with h | ⟨p, v, h1, h2⟩
        · cases a with
          | store pass k val =>
            simp only [act] at ha
            cases hw : writeFh env ⟨pass, alg⟩ (storeArgs (clk 0) k val) with
            | error e => rw [hw] at ha; cases ha
            | ok o =>
              rw [hw] at ha
              replace ha := (Option.some.inj ha).symm
              by_cases hk : key = k
              · refine Or.inr ⟨pass, val, by rw [hk]; exact List.mem_cons_self, alg, clk 0, o, hc 0, by rw [hk]; exact hw, ?_⟩
                rw [h, ha, hk]; exact upd_self _ _ _
              · refine Or.inl ?_
                rw [h, ha]; exact upd_ne _ _ hk
          | removeDb => simp only [act] at ha; cases ha; exact Or.inl h
          | removeCache => simp only [act] at ha; cases ha; exact Or.inl h
          | createDb i => simp only [act] at ha; cases ha; exact Or.inl h
          | writeParams b => simp only [act] at ha; cases ha; exact Or.inl h
        · exact Or.inr ⟨p, v, List.mem_cons_of_mem _ h1, h2⟩

/-- After all steps, the object of each step that stores is there, if no other step stores under the same key. -/
theorem perform_done {F : Type} {env : Env F} {alg : Alg} {acts : List Act} : ∀ {n : Nat} {clk : Nat → Bytes} {w : World} (_ : ClockOk clk)
    (_ : (perform env alg clk n acts w).2 = true) {pass : Option Bytes} {key val : Bytes} (_ : Act.store pass key val ∈ acts)
    (_ : ∀ p v, Act.store p key v ∈ acts → p = pass ∧ v = val), Stored env pass (perform env alg clk n acts w).1.st key val := by
  induction acts with
  | nil => intro n clk w _ _ pass key val h; cases h
  | cons a t ih =>
    intro n clk w hc hd pass key val hm hu
    cases n with
    | zero => cases hd
    | succ n =>
      unfold perform at hd ⊢
      cases ha : act env alg (clk 0) w a with
      | none => rw [ha] at hd; cases hd
      | some w' =>
        rw [ha] at hd
        dsimp only at hd ⊢
        have hc' : ClockOk (fun i => clk (i + 1)) := fun i => hc _
        by_cases ht : Act.store pass key val ∈ t
        · exact ih hc' hd ht (fun p v h => hu p v (List.mem_cons_of_mem _ h))
        · rcases List.mem_cons.1 hm with h | h
          · subst h
            rcases perform_store (env := env) (alg := alg) (acts := t) (n := n) (w := w') hc' key with h | ⟨p, v, h1, h2⟩
            · simp only [act] at ha
              cases hw : writeFh env ⟨pass, alg⟩ (storeArgs (clk 0) key val) with
              | error e => rw [hw] at ha; cases ha
              | ok o =>
                rw [hw] at ha
                replace ha := (Option.some.inj ha).symm
                refine ⟨alg, clk 0, o, hc 0, hw, ?_⟩
                rw [h, ha]; exact upd_self _ _ _
            · obtain ⟨rfl, rfl⟩ := hu p v (List.mem_cons_of_mem _ h1)
              exact absurd h1 ht
          · exact absurd h ht

theorem keyActs_mem {pw dataPw : Bytes} {pass : Option Bytes} {key val : Bytes} (h : Act.store pass key val ∈ keyActs pw dataPw) :
    pass = some pw ∧ val = dataPw ∧ (key = kPass ∨ key = kBak 1 ∨ key = kBak 2 ∨ key = kBak 3) := by
  unfold keyActs at h
  simp only [List.mem_cons, List.not_mem_nil, or_false, Act.store.injEq] at h
  rcases h with ⟨a, b, c⟩ | ⟨a, b, c⟩ | ⟨a, b, c⟩ | ⟨a, b, c⟩ <;> exact ⟨a, c, by simp [b]⟩

theorem keyActs_main (pw dataPw : Bytes) : Act.store (some pw) kPass dataPw ∈ keyActs pw dataPw := List.mem_cons_self

/-! #### C57 -/

/-- Wherever a change of the passphrase is killed or fails: the main key object can be opened with the old or with the new
passphrase, and yields the same master key. -/
theorem C57_old_or_new {F : Type} {env : Env F} (hl : env.Lawful) {alg : Alg} {clk : Nat → Bytes} (hc : ClockOk clk) {old new k : Bytes} {w : World}
    (h : Opens env old w.st k) (n : Nat) :
    Opens env old (changePassphrase env alg clk old new n w).1.st k ∨ Opens env new (changePassphrase env alg clk old new n w).1.st k := by
  unfold changePassphrase
  rw [h alg]
  dsimp only
  split
  · exact Or.inl h
  · rcases perform_store (env := env) (alg := alg) (acts := keyActs new k) (n := n) (w := w) hc kPass with h1 | ⟨p, v, h1, h2⟩
    · refine Or.inl (fun a => ?_)
      have := h a
      unfold openBackend fetch at this ⊢
      rw [h1]
      cases hp : w.st kPass with
      | none =>
        rw [hp] at this
        dsimp only at this
        split at this <;> cases this
      | some o => rw [hp] at this; exact this
    · obtain ⟨rfl, rfl, _⟩ := keyActs_mem h1
      exact Or.inr (h2.opens hl)

/-- When it has completed, the new passphrase opens the file system, with the same master key, and all copies can be read with it. -/
theorem C57_completed {F : Type} {env : Env F} (hl : env.Lawful) {alg : Alg} {clk : Nat → Bytes} (hc : ClockOk clk) {old new k : Bytes} {w : World}
    (h : Opens env old w.st k) {n : Nat} (hd : (changePassphrase env alg clk old new n w).2 = true) :
    Opens env new (changePassphrase env alg clk old new n w).1.st k ∧
      ∀ key ∈ [kPass, kBak 1, kBak 2, kBak 3], fetch env ⟨some new, alg⟩ (changePassphrase env alg clk old new n w).1.st key = .ok k := by
  unfold changePassphrase at hd ⊢
  rw [h alg] at hd ⊢
  dsimp only at hd ⊢
  split at hd
  · cases hd
  · rename_i hk
    rw [if_neg hk]
    have hall : ∀ key ∈ [kPass, kBak 1, kBak 2, kBak 3], Stored env (some new) (perform env alg clk n (keyActs new k) w).1.st key k := by
      intro key hkey
      refine perform_done hc hd ?_ (fun p v hm => ⟨(keyActs_mem hm).1, (keyActs_mem hm).2.1⟩)
      unfold keyActs
      simp only [List.mem_cons, List.not_mem_nil, or_false] at hkey
      rcases hkey with rfl | rfl | rfl | rfl <;> simp
    exact ⟨(hall kPass List.mem_cons_self).opens hl, fun key hkey => (hall key hkey).fetch hl alg⟩

/-- Nothing else in the storage or in the cache directory changes. -/
theorem C57_rest_unchanged {F : Type} {env : Env F} {alg : Alg} {clk : Nat → Bytes} (hc : ClockOk clk) {old new : Bytes} {w : World} (n : Nat)
    {key : Bytes} (hk : key ∉ [kPass, kBak 1, kBak 2, kBak 3]) : (changePassphrase env alg clk old new n w).1.st key = w.st key := by
  unfold changePassphrase
  split
  · rfl
  · rfl
  · split
    · rfl
    · rename_i k _ _
      rcases perform_store (env := env) (alg := alg) (acts := keyActs new k) (n := n) (w := w) hc key with h1 | ⟨p, v, h1, h2⟩
      · exact h1
      · have := (keyActs_mem h1).2.2
        refine absurd ?_ hk
        rcases this with h | h | h | h <;> simp [h]

/-- A file system that is not encrypted is left alone. -/
theorem C57_plain {F : Type} {env : Env F} {alg : Alg} {clk : Nat → Bytes} {old new : Bytes} {w : World} (n : Nat) (h : w.st kPass = none) :
    changePassphrase env alg clk old new n w = (w, false) := by
  unfold changePassphrase openBackend
  rw [h]
  dsimp only
  split
  · rename_i e _; rfl
  · rename_i e; rfl
  · rename_i k he; split at he <;> cases he

/-- The master key can be put back with any passphrase, whatever has become of the objects that contain it. -/
theorem C57_recover {F : Type} {env : Env F} (hl : env.Lawful) {alg : Alg} {clk : Nat → Bytes} (hc : ClockOk clk) {new k : Bytes} {w : World} {n : Nat}
    (hd : (recoverKey env alg clk k new n w).2 = true) : Opens env new (recoverKey env alg clk k new n w).1.st k := by
  unfold recoverKey at hd ⊢
  split at hd
  · cases hd
  · rename_i hk
    rw [if_neg hk]
    exact (perform_done hc hd (keyActs_main new k) (fun p v hm => ⟨(keyActs_mem hm).1, (keyActs_mem hm).2.1⟩)).opens hl

/-! #### C58 -/

/-- If the storage contains a file system, then `mkfs` changes nothing, in the storage or in the cache directory. -/
theorem C58_refuses {F : Type} {env : Env F} {alg : Alg} {clk : Nat → Bytes} {key : Option (Bytes × Bytes)} {f : NewFs} {w : World} (n : Nat)
    (h : (w.st kParams).isSome ∨ (w.st kMetadata).isSome) : mkfs env alg clk key f n w = (w, false) := by
  unfold mkfs
  rw [if_pos h]

theorem prefix_ne {p k x : Bytes} (h : p <+: k) (hx : p.isPrefixOf x = false) : k ≠ x := by
  rintro rfl
  rw [List.isPrefixOf_iff_prefix.2 h] at hx
  cases hx

theorem NewFs.Ok.obj_ne {f : NewFs} (h : f.Ok) {o : Bytes × Bytes} (ho : o ∈ f.objs) :
    o.1 ≠ kPass ∧ o.1 ≠ kBak 1 ∧ o.1 ≠ kBak 2 ∧ o.1 ≠ kBak 3 ∧ o.1 ≠ kParams ∧ o.1 ≠ kMetadata ∧ o.1 ≠ f.seqKey := by
  have hp := h.objs o ho
  refine ⟨prefix_ne hp (by decide), prefix_ne hp (by decide), prefix_ne hp (by decide), prefix_ne hp (by decide), prefix_ne hp (by decide), prefix_ne hp (by decide), ?_⟩
  intro he
  obtain ⟨a, ha⟩ := hp
  obtain ⟨b, hb⟩ := h.seq
  rw [← ha, ← hb] at he
  have := congrArg (List.take 6) he
  rw [List.take_append_of_le_length (by decide), List.take_append_of_le_length (by decide)] at this
  exact absurd this (by decide : ¬ List.take 6 (kMetadata ++ [95]) = List.take 6 (kParams ++ [95]))

theorem NewFs.Ok.seq_ne {f : NewFs} (h : f.Ok) :
    f.seqKey ≠ kPass ∧ f.seqKey ≠ kBak 1 ∧ f.seqKey ≠ kBak 2 ∧ f.seqKey ≠ kBak 3 ∧ f.seqKey ≠ kParams ∧ f.seqKey ≠ kMetadata :=
  ⟨prefix_ne h.seq (by decide), prefix_ne h.seq (by decide), prefix_ne h.seq (by decide), prefix_ne h.seq (by decide), prefix_ne h.seq (by decide), prefix_ne h.seq (by decide)⟩

/-- The stores of `mkfs`. -/
theorem mkfsActs_mem {key : Option (Bytes × Bytes)} {f : NewFs} {p : Option Bytes} {k v : Bytes} (h : Act.store p k v ∈ mkfsActs key f) :
    (∃ pw dataPw, key = some (pw, dataPw) ∧ Act.store p k v ∈ keyActs pw dataPw) ∨
      (p = key.map (·.2) ∧ ((k, v) ∈ f.objs ∨ (k = kParams ∧ v = f.params) ∨ (k = f.seqKey ∧ v = f.params))) := by
  unfold mkfsActs at h
  rw [List.mem_append, List.mem_append, List.mem_append] at h
  rcases h with ((h | h) | h) | h
  · cases key with
    | none => exact absurd h List.not_mem_nil
    | some x => exact Or.inl ⟨x.1, x.2, rfl, h⟩
  · simp at h
  · obtain ⟨o, ho, he⟩ := List.mem_map.1 h
    cases he
    exact Or.inr ⟨rfl, Or.inl ho⟩
  · simp only [List.mem_cons, List.not_mem_nil, or_false, Act.store.injEq, reduceCtorEq, false_or] at h
    rcases h with ⟨a, b, c⟩ | ⟨a, b, c⟩
    · exact Or.inr ⟨a, Or.inr (Or.inl ⟨b, c⟩)⟩
    · exact Or.inr ⟨a, Or.inr (Or.inr ⟨b, c⟩)⟩

/-- All objects of a new file system are there, and can be read with the master key. -/
structure Complete {F : Type} (env : Env F) (key : Option (Bytes × Bytes)) (f : NewFs) (st : Store) : Prop where
  opens : ∀ pw dataPw, key = some (pw, dataPw) → Opens env pw st dataPw
  params : ∀ alg, fetch env ⟨key.map (·.2), alg⟩ st kParams = .ok f.params
  objs : ∀ o ∈ f.objs, ∀ alg, fetch env ⟨key.map (·.2), alg⟩ st o.1 = .ok o.2

theorem objs_unique {f : NewFs} (h : f.Ok) {k v v' : Bytes} (h1 : (k, v) ∈ f.objs) (h2 : (k, v') ∈ f.objs) : v = v' := by
  have hn := h.nodup
  revert h1 h2 hn
  generalize f.objs = l
  intro h1 h2 hn
  induction l with
  | nil => cases h1
  | cons a t ih =>
    rw [List.map_cons, List.nodup_cons] at hn
    rcases List.mem_cons.1 h1 with e1 | g1 <;> rcases List.mem_cons.1 h2 with e2 | g2
    · exact (Prod.mk.inj (e1.trans e2.symm)).2
    · subst e1; exact absurd (List.mem_map.2 ⟨(k, v'), g2, rfl⟩) hn.1
    · subst e2; exact absurd (List.mem_map.2 ⟨(k, v), g1, rfl⟩) hn.1
    · exact ih g1 g2 hn.2

/-- The part of `mkfs` up to the parameters has completed, if the parameters are in the storage. -/
theorem perform_append {F : Type} {env : Env F} {alg : Alg} {a b : List Act} : ∀ {n : Nat} {clk : Nat → Bytes} {w : World},
    ((perform env alg clk n a w).2 = false ∧ perform env alg clk n (a ++ b) w = perform env alg clk n a w) ∨
    ((perform env alg clk n a w).2 = true ∧ a.length ≤ n ∧ perform env alg clk n (a ++ b) w = perform env alg (fun i => clk (i + a.length)) (n - a.length) b (perform env alg clk n a w).1) := by
  induction a with
  | nil =>
    intro n clk w
    refine Or.inr ⟨by cases n <;> rfl, Nat.zero_le _, ?_⟩
    cases n <;> rfl
  | cons x t ih =>
    intro n clk w
    cases n with
    | zero => exact Or.inl ⟨rfl, rfl⟩
    | succ n =>
      rw [List.cons_append, perform_cons, perform_cons]
      cases hx : act env alg (clk 0) w x with
      | none => exact Or.inl ⟨rfl, rfl⟩
      | some w' =>
        dsimp only
        rcases ih (n := n) (clk := fun i => clk (i + 1)) (w := w') with ⟨h1, h2⟩ | ⟨h1, h2, h3⟩
        · exact Or.inl ⟨h1, h2⟩
        · refine Or.inr ⟨h1, Nat.succ_le_succ h2, ?_⟩
          rw [h3, List.length_cons, Nat.add_sub_add_right]
          have e : (fun i => clk (i + t.length + 1)) = (fun i => clk (i + (t.length + 1))) := by funext i; congr 1
          rw [e]

/-- Wherever `mkfs` is killed or fails: either the storage does not contain the parameters, so that there is still no file system that
could be mounted and `mkfs` can be started again, or the new file system is complete. -/
theorem C58_interrupted {F : Type} {env : Env F} (hl : env.Lawful) {alg : Alg} {clk : Nat → Bytes} (hc : ClockOk clk) {key : Option (Bytes × Bytes)} {f : NewFs} (hf : f.Ok)
    {w : World} (h : ¬ ((w.st kParams).isSome ∨ (w.st kMetadata).isSome)) (n : Nat) :
    ((mkfs env alg clk key f n w).1.st kParams = none ∧ (mkfs env alg clk key f n w).1.st kMetadata = none) ∨
      Complete env key f (mkfs env alg clk key f n w).1.st := by
  have hp0 : w.st kParams = none := by
    cases hh : w.st kParams with
    | none => rfl
    | some o => exact absurd (Or.inl (by rw [hh]; rfl)) h
  have hm0 : w.st kMetadata = none := by
    cases hh : w.st kMetadata with
    | none => rfl
    | some o => exact absurd (Or.inr (by rw [hh]; rfl)) h
  unfold mkfs
  rw [if_neg h]
  -- the old metadata object is never stored
  have hmeta : (perform env alg clk n (mkfsActs key f) w).1.st kMetadata = none := by
    rcases perform_store (env := env) (alg := alg) (acts := mkfsActs key f) (n := n) (w := w) hc kMetadata with h1 | ⟨p, v, h1, _⟩
    · rw [h1, hm0]
    · rcases mkfsActs_mem h1 with ⟨_, _, _, h2⟩ | ⟨_, h2 | ⟨h2, _⟩ | ⟨h2, _⟩⟩
      · rcases (keyActs_mem h2).2.2 with h | h | h | h <;> exact absurd h (by decide)
      · exact absurd rfl (hf.obj_ne h2).2.2.2.2.2.1
      · exact absurd h2 (by decide)
      · exact absurd h2.symm hf.seq_ne.2.2.2.2.2
  let pre : List Act := (match key with | some (pw, dataPw) => keyActs pw dataPw | none => []) ++
    [.removeDb, .removeCache, .createDb f.img] ++ f.objs.map (fun o => .store (key.map (·.2)) o.1 o.2) ++ [.writeParams f.params]
  let post : List Act := [.store (key.map (·.2)) kParams f.params, .store (key.map (·.2)) f.seqKey f.params, .removeCache]
  have hsplit : mkfsActs key f = pre ++ post := by
    unfold mkfsActs
    show _ = (_ ++ [Act.writeParams f.params]) ++ _
    rw [List.append_assoc _ [Act.writeParams f.params]]
    rfl
  have hpre : ∀ p k v, Act.store p k v ∈ pre → k ≠ kParams := by
    intro p k v hm he
    have hm' : Act.store p k v ∈ (match key with | some (pw, dataPw) => keyActs pw dataPw | none => []) ++
      [.removeDb, .removeCache, .createDb f.img] ++ f.objs.map (fun o => .store (key.map (·.2)) o.1 o.2) ++ [.writeParams f.params] := hm
    rw [List.mem_append, List.mem_append, List.mem_append] at hm'
    rcases hm' with ((h | h) | h) | h
    · cases key with
      | none => exact absurd h List.not_mem_nil
      | some x =>
        subst he
        rcases (keyActs_mem h).2.2 with h | h | h | h <;> exact absurd h (by decide)
    · simp at h
    · obtain ⟨o, ho, e⟩ := List.mem_map.1 h
      cases e
      exact (hf.obj_ne ho).2.2.2.2.1 he
    · simp at h
  have hpre0 : (perform env alg clk n pre w).1.st kParams = none := by
    rcases perform_store (env := env) (alg := alg) (acts := pre) (n := n) (w := w) hc kParams with h1 | ⟨p, v, h1, _⟩
    · rw [h1, hp0]
    · exact absurd rfl (hpre _ _ _ h1)
  rw [hsplit] at hmeta ⊢
  rcases perform_append (env := env) (alg := alg) (a := pre) (b := post) (n := n) (clk := clk) (w := w) with ⟨h1, h2⟩ | ⟨h1, h2, h3⟩
  · refine Or.inl ⟨?_, hmeta⟩
    rw [h2]; exact hpre0
  · have hc' : ClockOk (fun i => clk (i + pre.length)) := fun i => hc _
    have hpost : ∀ p k v, Act.store p k v ∈ post → p = key.map (·.2) ∧ v = f.params ∧ (k = kParams ∨ k = f.seqKey) := by
      intro p k v hm
      have hm' : Act.store p k v ∈ ([.store (key.map (·.2)) kParams f.params, .store (key.map (·.2)) f.seqKey f.params, .removeCache] : List Act) := hm
      simp only [List.mem_cons, List.not_mem_nil, or_false, Act.store.injEq, reduceCtorEq] at hm'
      rcases hm' with ⟨a, b, c⟩ | ⟨a, b, c⟩
      · exact ⟨a, c, Or.inl b⟩
      · exact ⟨a, c, Or.inr b⟩
    -- objects other than the parameters stay
    have hkeep : ∀ k, k ≠ kParams → k ≠ f.seqKey → (perform env alg clk n (pre ++ post) w).1.st k = (perform env alg clk n pre w).1.st k := by
      intro k hk1 hk2
      rw [h3]
      rcases perform_store (env := env) (alg := alg) (acts := post) (n := n - pre.length) (w := (perform env alg clk n pre w).1) hc' k with h | ⟨p, v, h, _⟩
      · exact h
      · rcases (hpost _ _ _ h).2.2 with e | e
        · exact absurd e hk1
        · exact absurd e hk2
    have hstored : ∀ {p k v}, Act.store p k v ∈ pre → (∀ p' v', Act.store p' k v' ∈ pre → p' = p ∧ v' = v) → k ≠ f.seqKey →
        Stored env p (perform env alg clk n (pre ++ post) w).1.st k v := by
      intro p k v hm hu hk
      obtain ⟨a, c, o, g1, g2, g3⟩ := perform_done hc h1 hm hu
      exact ⟨a, c, o, g1, g2, by rw [hkeep k (hpre _ _ _ hm) hk]; exact g3⟩
    have hmemA : ∀ {p k v}, Act.store p k v ∈ pre → Act.store p k v ∈ mkfsActs key f := by
      intro p k v hm; rw [hsplit]; exact List.mem_append_left _ hm
    rcases perform_store (env := env) (alg := alg) (acts := post) (n := n - pre.length) (w := (perform env alg clk n pre w).1) hc' kParams with h | ⟨p, v, hm, hs⟩
    · refine Or.inl ⟨?_, hmeta⟩
      rw [h3, h]; exact hpre0
    · refine Or.inr ⟨?_, ?_, ?_⟩
      · intro pw dataPw hk
        have hin : Act.store (some pw) kPass dataPw ∈ pre := by
          show _ ∈ (match key with | some (pw, dataPw) => keyActs pw dataPw | none => []) ++ _ ++ _ ++ _
          rw [hk]
          exact List.mem_append_left _ (List.mem_append_left _ (List.mem_append_left _ (keyActs_main pw dataPw)))
        refine Stored.opens hl (hstored hin ?_ hf.seq_ne.1.symm)
        intro p' v' hm'
        rcases mkfsActs_mem (hmemA hm') with ⟨pw', d', e, h2⟩ | ⟨_, h2 | ⟨h2, _⟩ | ⟨h2, _⟩⟩
        · rw [hk] at e; cases e
          exact ⟨(keyActs_mem h2).1, (keyActs_mem h2).2.1⟩
        · exact absurd rfl (hf.obj_ne h2).1
        · exact absurd h2 (by decide)
        · exact absurd h2.symm hf.seq_ne.1
      · intro a
        obtain ⟨rfl, rfl, _⟩ := hpost _ _ _ hm
        rw [h3]
        exact hs.fetch hl a
      · intro o ho a
        have hin : Act.store (key.map (·.2)) o.1 o.2 ∈ pre :=
          List.mem_append_left _ (List.mem_append_right _ (List.mem_map.2 ⟨o, ho, rfl⟩))
        have hne := hf.obj_ne ho
        refine Stored.fetch hl (hstored hin ?_ hne.2.2.2.2.2.2) a
        intro p' v' hm'
        rcases mkfsActs_mem (hmemA hm') with ⟨_, _, _, h2⟩ | ⟨e, h2 | ⟨h2, _⟩ | ⟨h2, _⟩⟩
        · rcases (keyActs_mem h2).2.2 with h | h | h | h
          · exact absurd h hne.1
          · exact absurd h hne.2.1
          · exact absurd h hne.2.2.1
          · exact absurd h hne.2.2.2.1
        · exact ⟨e, objs_unique hf h2 ho⟩
        · exact absurd h2 hne.2.2.2.2.1
        · exact absurd h2 hne.2.2.2.2.2.2

/-- A completed `mkfs` makes a file system: it can be opened, its parameters can be read, and another `mkfs` refuses.  For
an unencrypted file system the storage must not contain a passphrase object. -/
theorem C58_completed {F : Type} {env : Env F} (hl : env.Lawful) {alg : Alg} {clk : Nat → Bytes} (hc : ClockOk clk) {key : Option (Bytes × Bytes)} {f : NewFs} (hf : f.Ok)
    {w : World} {n : Nat} (hd : (mkfs env alg clk key f n w).2 = true) (hplain : key = none → w.st kPass = none) :
    Complete env key f (mkfs env alg clk key f n w).1.st ∧
      (key = none → ∀ a pw, openBackend env a pw (mkfs env alg clk key f n w).1.st = .ok none) ∧
      (∀ alg' clk' key' f' n', mkfs env alg' clk' key' f' n' (mkfs env alg clk key f n w).1 = ((mkfs env alg clk key f n w).1, false)) := by
  by_cases h : (w.st kParams).isSome ∨ (w.st kMetadata).isSome
  · rw [C58_refuses n h] at hd; cases hd
  · have hd' : (perform env alg clk n (mkfsActs key f) w).2 = true := by
      unfold mkfs at hd; rw [if_neg h] at hd; exact hd
    have hpar : Stored env (key.map (·.2)) (mkfs env alg clk key f n w).1.st kParams f.params := by
      unfold mkfs
      rw [if_neg h]
      refine perform_done hc hd' ?_ ?_
      · unfold mkfsActs
        exact List.mem_append_right _ (by simp)
      · intro p v hm
        rcases mkfsActs_mem hm with ⟨_, _, _, h2⟩ | ⟨e, h2 | ⟨_, h2⟩ | ⟨h2, _⟩⟩
        · rcases (keyActs_mem h2).2.2 with h | h | h | h <;> exact absurd h (by decide)
        · exact absurd rfl (hf.obj_ne h2).2.2.2.2.1
        · exact ⟨e, h2⟩
        · exact absurd h2.symm hf.seq_ne.2.2.2.2.1
    obtain ⟨_, _, o, _, _, hps⟩ := id hpar
    have hsome : ((mkfs env alg clk key f n w).1.st kParams).isSome := by rw [hps]; rfl
    refine ⟨?_, ?_, fun alg' clk' key' f' n' => C58_refuses n' (Or.inl hsome)⟩
    · rcases C58_interrupted hl (alg := alg) hc (key := key) hf h n with ⟨h1, _⟩ | h1
      · rw [hps] at h1; cases h1
      · exact h1
    · intro hk a pw
      have hpass : (mkfs env alg clk key f n w).1.st kPass = none := by
        unfold mkfs
        rw [if_neg h]
        rcases perform_store (env := env) (alg := alg) (acts := mkfsActs key f) (n := n) (w := w) hc kPass with h1 | ⟨p, v, h1, _⟩
        · rw [h1, hplain hk]
        · rcases mkfsActs_mem h1 with ⟨_, _, e, _⟩ | ⟨_, h2 | ⟨h2, _⟩ | ⟨h2, _⟩⟩
          · rw [hk] at e; cases e
          · exact absurd rfl (hf.obj_ne h2).1
          · exact absurd h2 (by decide)
          · exact absurd h2.symm hf.seq_ne.1
      unfold openBackend
      rw [hpass]
      dsimp only
      rw [if_pos (Or.inl hsome)]

/-- A passphrase object that an interrupted `mkfs` has left stays when an unencrypted file system is made.  Such a file system cannot
be used: whatever passphrase is entered, opening fails, or the parameters are refused because they are not encrypted. -/
theorem C58_plain_after_interrupted {F : Type} {env : Env F} {alg : Alg} {clk : Nat → Bytes} (hc : ClockOk clk) {f : NewFs} (hf : f.Ok)
    {w : World} {n : Nat} (hd : (mkfs env alg clk none f n w).2 = true) (hleft : w.st kPass ≠ none) (a : Alg) (pw : Bytes) (k : Option Bytes)
    (ho : openBackend env a pw (mkfs env alg clk none f n w).1.st = .ok k) :
    fetch env ⟨k, a⟩ (mkfs env alg clk none f n w).1.st kParams = .error (.err .notEncrypted) := by
  by_cases h : (w.st kParams).isSome ∨ (w.st kMetadata).isSome
  · rw [C58_refuses n h] at hd; cases hd
  · have hd' : (perform env alg clk n (mkfsActs none f) w).2 = true := by
      unfold mkfs at hd; rw [if_neg h] at hd; exact hd
    have hpar : Stored env none (mkfs env alg clk none f n w).1.st kParams f.params := by
      unfold mkfs
      rw [if_neg h]
      refine perform_done (pass := none) hc hd' ?_ ?_
      · unfold mkfsActs
        exact List.mem_append_right _ (by simp)
      · intro p v hm
        rcases mkfsActs_mem hm with ⟨_, _, e, h2⟩ | ⟨e, h2 | ⟨_, h2⟩ | ⟨h2, _⟩⟩
        · cases e
        · exact absurd rfl (hf.obj_ne h2).2.2.2.2.1
        · exact ⟨e, h2⟩
        · exact absurd h2.symm hf.seq_ne.2.2.2.2.1
    have hpass : (mkfs env alg clk none f n w).1.st kPass = w.st kPass := by
      unfold mkfs
      rw [if_neg h]
      rcases perform_store (env := env) (alg := alg) (acts := mkfsActs none f) (n := n) (w := w) hc kPass with h1 | ⟨p, v, h1, _⟩
      · exact h1
      · rcases mkfsActs_mem h1 with ⟨_, _, e, _⟩ | ⟨_, h2 | ⟨h2, _⟩ | ⟨h2, _⟩⟩
        · cases e
        · exact absurd rfl (hf.obj_ne h2).1
        · exact absurd h2 (by decide)
        · exact absurd h2.symm hf.seq_ne.1
    have hk : ∃ d, k = some d := by
      unfold openBackend at ho
      cases hp : (mkfs env alg clk none f n w).1.st kPass with
      | none => rw [hpass] at hp; exact absurd hp hleft
      | some o =>
        rw [hp] at ho
        dsimp only at ho
        split at ho
        · rename_i d _; exact ⟨d, (Except.ok.inj ho).symm⟩
        · cases ho
        · cases ho
    obtain ⟨d, rfl⟩ := hk
    obtain ⟨b, c, o, g1, g2, g3⟩ := hpar
    unfold fetch
    rw [g3]
    have := C28_plain_error env ⟨some d, a⟩ ⟨none, b⟩ d kParams rfl rfl (storeArgs c kParams f.params) o.1 o.2 g2
    show (match readinto env ⟨some d, a⟩ kParams o.1 o.2 with | .ok r => Except.ok r.2 | .error e => Except.error (FErr.err e)) = _
    rw [this]

/-! #### Concrete cases -/

def clk0 : Nat → Bytes := fun i => [1, 2, 3, 4, 5, 6, 7, UInt8.ofNat i]
def empty : World := ⟨fun _ => none, ⟨some [1], true, none⟩⟩
def fs0 : NewFs := ⟨[4, 4], [(kMetadata ++ [95, 48], [4]), (kMetadata ++ [95, 49], [4])], [7, 8], kParams ++ [95, 49]⟩

theorem fs0_ok : fs0.Ok := by
  refine ⟨?_, by decide, List.prefix_append _ _⟩
  intro o ho
  unfold fs0 at ho
  simp only [List.mem_cons, List.not_mem_nil, or_false] at ho
  rcases ho with rfl | rfl <;> exact List.prefix_append _ _

def key0 : Bytes := List.replicate 32 9

theorem store0 (pass : Option Bytes) (i : Nat) (key val : Bytes) (h : ((clk0 i) ++ key).length < 2 ^ 32)
    (hm : (Verif.Codec.freeze toyEnv.fmt toyEnv.printable ((kSize, .int val.length) :: [])).length < 2 ^ 32) :
    ∃ o, writeFh toyEnv ⟨pass, .zlib⟩ (storeArgs (clk0 i) key val) = .ok o := by
  obtain ⟨m, b, hw⟩ := C26_write_succeeds toyEnv ⟨pass, .zlib⟩ (storeArgs (clk0 i) key val) (by simp [storeArgs]) h hm
  exact ⟨_, hw⟩

theorem act_store {pass : Option Bytes} {c key val : Bytes} {w : World} (h : ∃ o, writeFh toyEnv ⟨pass, .zlib⟩ (storeArgs c key val) = .ok o) :
    ∃ w', act toyEnv .zlib c w (.store pass key val) = some w' := by
  obtain ⟨o, ho⟩ := h
  exact ⟨{ w with st := upd w.st key (some o) }, by simp only [act, ho]⟩

theorem perform_ok {acts : List Act} : ∀ {n i : Nat} {w : World}, acts.length ≤ n →
    (∀ p k v, Act.store p k v ∈ acts → ∀ j, ∃ o, writeFh toyEnv ⟨p, .zlib⟩ (storeArgs (clk0 j) k v) = .ok o) →
    (perform toyEnv .zlib (fun j => clk0 (j + i)) n acts w).2 = true := by
  induction acts with
  | nil => intro n i w _ _; cases n <;> rfl
  | cons a t ih =>
    intro n i w hn ha
    cases n with
    | zero => exact absurd hn (by simp)
    | succ n =>
      unfold perform
      have hx : ∃ w', act toyEnv .zlib (clk0 (0 + i)) w a = some w' := by
        cases a with
        | store p k v => exact act_store (ha p k v List.mem_cons_self _)
        | removeDb => exact ⟨_, rfl⟩
        | removeCache => exact ⟨_, rfl⟩
        | createDb b => exact ⟨_, rfl⟩
        | writeParams b => exact ⟨_, rfl⟩
      obtain ⟨w', hw⟩ := hx
      rw [hw]
      have := ih (n := n) (i := i + 1) (w := w') (by simpa using hn) (fun p k v hm => ha p k v (List.mem_cons_of_mem _ hm))
      have e : (fun j => clk0 (j + (i + 1))) = (fun j => clk0 (j + 1 + i)) := by funext j; congr 1; omega
      rw [e] at this
      exact this

theorem stores0 (p : Option Bytes) (k v : Bytes) (hk : k.length < 100) (hv : v.length < 100) (j : Nat) :
    ∃ o, writeFh toyEnv ⟨p, .zlib⟩ (storeArgs (clk0 j) k v) = .ok o := by
  refine store0 p j k v ?_ ?_
  · rw [List.length_append]
    show 8 + k.length < _
    omega
  · have hall : ∀ n, n < 100 → (Verif.Codec.freeze toyEnv.fmt toyEnv.printable ((kSize, .int (n : Nat)) :: [])).length < 2 ^ 32 := by decide +kernel
    exact hall v.length hv

/-- An encrypted file system is made, and its passphrase is changed: the hypotheses can be met. -/
example : (mkfs toyEnv .zlib clk0 (some ([42], key0)) fs0 99 empty).2 = true ∧
    Opens toyEnv [42] (mkfs toyEnv .zlib clk0 (some ([42], key0)) fs0 99 empty).1.st key0 ∧
    (changePassphrase toyEnv .zlib clk0 [42] [43] 99 (mkfs toyEnv .zlib clk0 (some ([42], key0)) fs0 99 empty).1).2 = true := by
  have h1 : (mkfs toyEnv .zlib clk0 (some ([42], key0)) fs0 99 empty).2 = true := by
    unfold mkfs
    rw [if_neg (by decide)]
    refine perform_ok (i := 0) (by decide) ?_
    intro p k v hm j
    have : k.length < 100 ∧ v.length < 100 := by
      rcases mkfsActs_mem hm with ⟨pw, d, e, h2⟩ | ⟨_, h2 | ⟨h2, h3⟩ | ⟨h2, h3⟩⟩
      · cases e
        obtain ⟨_, rfl, h3⟩ := keyActs_mem h2
        rcases h3 with rfl | rfl | rfl | rfl <;> decide
      · unfold fs0 at h2
        simp only [List.mem_cons, List.not_mem_nil, or_false, Prod.mk.injEq] at h2
        rcases h2 with ⟨rfl, rfl⟩ | ⟨rfl, rfl⟩ <;> decide
      · rw [h2, h3]; decide
      · rw [h2, h3]; decide
    exact stores0 p k v this.1 this.2 j
  have hc : ClockOk clk0 := fun i => rfl
  have h2 := (C58_completed toyEnv_lawful hc fs0_ok h1 (fun h => by cases h)).1.opens [42] key0 rfl
  refine ⟨h1, h2, ?_⟩
  unfold changePassphrase
  rw [h2 .zlib]
  dsimp only
  rw [if_neg (by decide)]
  refine perform_ok (i := 0) (by decide) ?_
  intro p k v hm j
  obtain ⟨_, rfl, h3⟩ := keyActs_mem hm
  have : k.length < 100 := by rcases h3 with rfl | rfl | rfl | rfl <;> decide
  exact stores0 p k _ this (by decide) j

end Verif.Tools.Admin
