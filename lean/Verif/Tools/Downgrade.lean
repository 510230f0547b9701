/-
C78: what a passphrase protects when a file system is opened (`open_backend`, backends/__init__.py:105-180), if the storage
service answers as it likes.
-/
import Verif.Tools.Admin
import Verif.Comprenc.Cases

namespace Verif.Tools.Admin
open Verif.Comprenc

/-! #### Model -/

/-- `open_backend` with the passphrase that the authentication file has for the storage URL (`conf`); the user is asked if it
has none (backends/__init__.py:148-157). -/
def openWith {F : Type} (env : Env F) (alg : Alg) (conf : Option Bytes) (typed : Bytes) (st : Store) : Except OErr (Option Bytes) :=
  openBackend env alg (conf.getD typed) st

/-! #### Specification -/

/-- Objects that somebody who knows the secret `p` has written, at different times. -/
def Writes {F : Type} (env : Env F) (p : Bytes) (H : List (Cfg × WriteArgs F)) : Prop :=
  (∀ e ∈ H, e.1.pass = some p ∧ e.2.Typed env ∧ KeyOk e.2.key ∧ ∃ r, writeFh env e.1 e.2 = .ok r) ∧
  ∀ e ∈ H, ∀ e' ∈ H, e.2.nonce = e'.2.nonce → e = e'

/-- Nobody has forged a MAC for the secret `p`: those in the storage were made by the writes `H`. -/
def NoForgery {F : Type} (env : Env F) (p : Bytes) (H : List (Cfg × WriteArgs F)) (st : Store) : Prop :=
  ∀ key m buf, st key = some (m, buf) → (m.map (·.1)).Nodup ∧ Unforged env p H m buf

/-- The object is one that anybody can make: it was written without a passphrase. -/
def Plain {F : Type} (env : Env F) (st : Store) (key data : Bytes) : Prop :=
  ∃ alg m buf, ∃ w : WriteArgs F, w.Typed env ∧ w.key = key ∧ w.data = data ∧ writeFh env ⟨none, alg⟩ w = .ok (m, buf) ∧ st key = some (m, buf)

/-! #### C78 -/

/-- **C78**: how a storage is opened.  The object `s3ql_passphrase` decides: if the storage has it, the file system is
opened with the key in it or not at all; if not, without encryption, provided that there is an object `s3ql_params` or
`s3ql_metadata`. -/
theorem C78_open_exact {F : Type} (env : Env F) (alg : Alg) (conf : Option Bytes) (typed : Bytes) (st : Store) :
    (openWith env alg conf typed st = .ok none ↔ st kPass = none ∧ (st kParams ≠ none ∨ st kMetadata ≠ none)) ∧
    (∀ k, openWith env alg conf typed st = .ok (some k) ↔ fetch env ⟨some (conf.getD typed), alg⟩ st kPass = .ok k) ∧
    (openWith env alg conf typed st = .error .noFileSystem ↔ st kPass = none ∧ st kParams = none ∧ st kMetadata = none) := by
  unfold openWith openBackend
  cases hp : st kPass with
  | none =>
    have hf : ∀ k, fetch env ⟨some (conf.getD typed), alg⟩ st kPass ≠ .ok k := by
      intro k; unfold fetch; rw [hp]; simp
    dsimp only
    have hiff : ((st kParams).isSome = true ∨ (st kMetadata).isSome = true) ↔ (st kParams ≠ none ∨ st kMetadata ≠ none) := by
      simp only [Option.isSome_iff_ne_none]
    by_cases h : (st kParams).isSome = true ∨ (st kMetadata).isSome = true
    · rw [if_pos h]
      refine ⟨⟨fun _ => ⟨rfl, hiff.1 h⟩, fun _ => rfl⟩, fun k => ⟨fun e => (by cases e), fun e => absurd e (hf k)⟩, ⟨fun e => (by cases e), ?_⟩⟩
      rintro ⟨_, h1, h2⟩
      rcases hiff.1 h with h | h
      · exact absurd h1 h
      · exact absurd h2 h
    · rw [if_neg h]
      have h' := fun x => h (hiff.2 x)
      refine ⟨⟨fun e => (by cases e), fun e => absurd e.2 h'⟩, fun k => ⟨fun e => (by cases e), fun e => absurd e (hf k)⟩, ⟨fun _ => ⟨rfl, ?_, ?_⟩, fun _ => rfl⟩⟩
      · exact Classical.byContradiction fun x => h' (Or.inl x)
      · exact Classical.byContradiction fun x => h' (Or.inr x)
  | some o =>
    dsimp only
    cases hf : fetch env ⟨some (conf.getD typed), alg⟩ st kPass with
    | ok d => simp
    | error e =>
      cases e with
      | noSuch => simp
      | err e => cases e <;> simp

theorem fetch_authentic {F : Type} {env : Env F} (hl : env.Lawful) {p : Bytes} {alg : Alg} {H : List (Cfg × WriteArgs F)} (hH : Writes env p H)
    {st : Store} (hu : NoForgery env p H st) {key d : Bytes} (h : fetch env ⟨some p, alg⟩ st key = .ok d) : ∃ e ∈ H, e.2.key = key ∧ d = e.2.data := by
  unfold fetch at h
  cases hs : st key with
  | none => rw [hs] at h; cases h
  | some o =>
    obtain ⟨m, buf⟩ := o
    rw [hs] at h
    dsimp only at h
    cases hr : readinto env ⟨some p, alg⟩ key m buf with
    | error e => rw [hr] at h; cases h
    | ok r =>
      rw [hr] at h
      cases h
      obtain ⟨h1, h2⟩ := hu key m buf hs
      obtain ⟨e, he, k1, _, k3⟩ := C28_read_authentic env hl ⟨some p, alg⟩ p key rfl H hH.1 hH.2 m h1 buf h2 r.1 r.2 hr
      exact ⟨e, he, k1, k3⟩

/-- **C78**, as far as it holds: if the storage has a passphrase object, whatever the service makes of it, the file system is
opened with a key that somebody who knows the passphrase has stored as such, and what is read with it was stored under that
name by somebody who knows the key. -/
theorem C78_protected_partial {F : Type} {env : Env F} (hl : env.Lawful) {alg : Alg} {conf : Option Bytes} {typed : Bytes} {st : Store}
    {H : List (Cfg × WriteArgs F)} (hH : Writes env (conf.getD typed) H) (hu : NoForgery env (conf.getD typed) H st)
    (hs : st kPass ≠ none) {r : Option Bytes} (ho : openWith env alg conf typed st = .ok r) :
    ∃ k, r = some k ∧ (∃ e ∈ H, e.2.key = kPass ∧ e.2.data = k) ∧
      ∀ (H' : List (Cfg × WriteArgs F)) (st' : Store) (alg' : Alg) (key d : Bytes), Writes env k H' → NoForgery env k H' st' →
        fetch env ⟨r, alg'⟩ st' key = .ok d → ∃ e ∈ H', e.2.key = key ∧ e.2.data = d := by
  cases r with
  | none => exact absurd ((C78_open_exact env alg conf typed st).1.1 ho).1 hs
  | some k =>
    have hf := ((C78_open_exact env alg conf typed st).2.1 k).1 ho
    obtain ⟨e, he, h1, h2⟩ := fetch_authentic hl hH hu hf
    refine ⟨k, rfl, ⟨e, he, h1, h2.symm⟩, fun H' st' alg' key d hH' hu' h => ?_⟩
    obtain ⟨e, he, h1, h2⟩ := fetch_authentic hl hH' hu' h
    exact ⟨e, he, h1, h2.symm⟩

/-- The rest of C78 fails: a service that hides the passphrase object and has an object with the parameters is believed,
although a passphrase is configured.  Everything that anybody has put there without knowing the passphrase is then read as
it is, and everything that is stored from then on can be read by anybody. -/
theorem C78_dropped {F : Type} {env : Env F} (hl : env.Lawful) (alg : Alg) (conf : Option Bytes) (typed : Bytes) {st : Store}
    (hp : st kPass = none) (hs : st kParams ≠ none) :
    openWith env alg conf typed st = .ok none ∧
    (∀ key data, Plain env st key data → fetch env ⟨none, alg⟩ st key = .ok data) ∧
    ∀ (w : WriteArgs F) m buf, w.Typed env → writeFh env ⟨none, alg⟩ w = .ok (m, buf) →
      ∀ alg', readinto env ⟨none, alg'⟩ w.key m buf = .ok (w.user, w.data) := by
  refine ⟨(C78_open_exact env alg conf typed st).1.2 ⟨hp, Or.inl hs⟩, ?_, ?_⟩
  · rintro key data ⟨a, m, buf, w, ht, rfl, rfl, hw, hst⟩
    unfold fetch
    rw [hst]
    dsimp only
    rw [C26_write_read env hl ⟨none, a⟩ ⟨none, alg⟩ rfl w ht m m buf hw (List.Perm.refl _)]
  · intro w m buf ht hw alg'
    exact C26_write_read env hl ⟨none, alg⟩ ⟨none, alg'⟩ rfl w ht m m buf hw (List.Perm.refl _)

/-! #### Concrete cases -/

theorem signed_nodup {F : Type} {env : Env F} {cfg : Cfg} {w : WriteArgs F} {p : Bytes} (hp : cfg.pass = some p) {m : Raw} {buf : Bytes}
    (h : writeFh env cfg w = .ok (m, buf)) : (m.map (·.1)).Nodup := by
  obtain ⟨_, _, rfl, _⟩ := write_encrypted hp h
  exact signed_keys env p cfg w _

/-- A storage with a passphrase object and one object stored with the key in it: the hypotheses of `C78_protected_partial`
are met. -/
example : ∃ st H r, Writes toyEnv [42] H ∧ NoForgery toyEnv [42] H st ∧ st kPass ≠ none ∧ openWith toyEnv .none (some [42]) [] st = .ok r ∧ r = some key0 := by
  obtain ⟨⟨m, buf⟩, hw⟩ := stores0 (some [42]) kPass key0 (by decide) (by decide) 0
  have ht : (storeArgs (clk0 0) kPass key0 : WriteArgs Empty).Typed toyEnv := ⟨List.nodup_nil, fun e he => absurd he List.not_mem_nil, rfl⟩
  refine ⟨fun k => if k = kPass then some (m, buf) else none, [(⟨some [42], .zlib⟩, storeArgs (clk0 0) kPass key0)], some key0, ⟨?_, ?_⟩, ?_, by simp, ?_, rfl⟩
  · intro e he
    obtain rfl := List.mem_singleton.1 he
    refine ⟨rfl, ht, ⟨by decide, by decide, ?_⟩, _, hw⟩
    rw [← List.isSuffixOf_iff_suffix]; decide
  · intro e he e' he' _
    rw [List.mem_singleton.1 he, List.mem_singleton.1 he']
  · intro key m' buf' hs
    dsimp only at hs
    split at hs
    · cases hs
      exact ⟨signed_nodup (cfg := ⟨some [42], .zlib⟩) rfl hw, unforged_written toyEnv [42] _ ⟨some [42], .zlib⟩ _ List.mem_cons_self rfl m buf hw⟩
    · cases hs
  · refine ((C78_open_exact toyEnv .none (some [42]) [] _).2.1 key0).2 ?_
    exact Stored.fetch toyEnv_lawful (pass := some [42]) ⟨.zlib, clk0 0, (m, buf), rfl, hw, by simp⟩ .none

/-- A service that makes a file system of its own: it is opened, whatever passphrase is configured, and its parameters are used. -/
example (conf : Option Bytes) (typed : Bytes) : (mkfs toyEnv .zlib clk0 none fs0 99 empty).2 = true ∧
    openWith toyEnv .none conf typed (mkfs toyEnv .zlib clk0 none fs0 99 empty).1.st = .ok none ∧
    fetch toyEnv ⟨none, .none⟩ (mkfs toyEnv .zlib clk0 none fs0 99 empty).1.st kParams = .ok fs0.params := by
  have h1 : (mkfs toyEnv .zlib clk0 none fs0 99 empty).2 = true := by
    unfold mkfs
    rw [if_neg (by decide)]
    refine perform_ok (i := 0) (by decide) ?_
    intro p k v hm j
    have : k.length < 100 ∧ v.length < 100 := by
      rcases mkfsActs_mem hm with ⟨pw, d, e, h2⟩ | ⟨_, h2 | ⟨h2, h3⟩ | ⟨h2, h3⟩⟩
      · cases e
      · unfold fs0 at h2
        simp only [List.mem_cons, List.not_mem_nil, or_false, Prod.mk.injEq] at h2
        rcases h2 with ⟨rfl, rfl⟩ | ⟨rfl, rfl⟩ <;> decide
      · rw [h2, h3]; decide
      · rw [h2, h3]; decide
    exact stores0 p k v this.1 this.2 j
  have hc : ClockOk clk0 := fun i => rfl
  have h2 := C58_completed toyEnv_lawful hc fs0_ok h1 (fun _ => rfl)
  exact ⟨h1, h2.2.1 rfl _ _, h2.1.params .none⟩

end Verif.Tools.Admin
