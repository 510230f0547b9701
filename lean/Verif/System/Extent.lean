import Verif.System.Props
/-
No block of a file is stored that is empty, and none goes beyond the end of its file.
-/
namespace Verif.Cache
open AL (NK)

/-- Blocks that have been changed are not empty, and no object is registered with the hash of an empty block. -/
structure NE (H : Bytes → Bytes) (s : State) : Prop where
  dirty : ∀ k e, AL.get s.cache k = some e → e.dirty = true → e.content ≠ []
  hash : ∀ o ob h, AL.get s.objs o = some ob → ob.hash = some h → h ≠ H []

theorem ne_init (H : Bytes → Bytes) : NE H init := by
  constructor <;> simp [init, AL.get]

attribute [local grind =] upd_app AL.get_set AL.get_erase AL.get_toTail

/-- The event does not make a block empty. -/
def noEmpty : Ev → Bool
  | .write _ c => !c.isEmpty
  | _ => true

set_option maxHeartbeats 4000000 in
theorem step_ne {H : Bytes → Bytes} (hH : Function.Injective H) {s m D ev s' out} (hi : Inv H s m D) (hn : NE H s)
    (h : step H s ev = some (s', out)) (hv : noEmpty ev = true) : NE H s' := by
  obtain ⟨hd, hh⟩ := hn
  have hnk := hi.nkc
  cases ev with
  | register k =>
    simp only [step] at h
    split at h <;> try (cases h; done)
    rename_i e hk hc
    cases h
    have hne : e.content ≠ [] := by
      obtain ⟨e', h1, h2, _⟩ := hi.hsh k hk
      rw [hc] at h1; cases h1
      exact hd k e hc h2
    have hHe : H e.content ≠ H [] := fun he => hne (hH he)
    unfold registerStep
    dsimp only
    cases hf : findHash s.objs (H e.content) with
    | none => constructor <;> grind
    | some o =>
      dsimp only
      split
      · constructor <;> grind
      · cases ho : AL.get s.objs o <;> constructor <;> grind
  | write k c =>
    have hc : c ≠ [] := by
      intro he; subst he; cases hv
    simp only [step] at h
    repeat' split at h
    all_goals first | (cases h; done) | (cases h; constructor <;> grind)
  | upOk k =>
    simp only [step] at h
    split at h <;> try (cases h; done)
    rename_i ob e hk hc
    cases h
    cases ho : AL.get s.objs ob <;> constructor <;> grind
  | upFail k =>
    simp only [step] at h
    split at h <;> try (cases h; done)
    rename_i ob e hk hc
    cases h
    cases ho : AL.get s.objs ob <;> constructor <;> grind
  | _ =>
    all_goals
      simp only [step] at h
      repeat' split at h
      all_goals first | (cases h; done) | (cases h; constructor <;> first | assumption | grind)

end Verif.Cache

namespace Verif.System
section
variable {cfg : Meta.Cfg} {H : Bytes → Bytes} {dec : Bytes → Option Tables}

theorem change_ne (hH : Function.Injective H) {s : Fs} {mem : Cache.Key → Bytes} {D : Nat → Bytes} (h : Cache.Inv H s.c mem D) (hn : Cache.NE H s.c) {k : Cache.Key} {f : Bytes → Bytes}
    {c : Cache.State} (hf : ∀ b, f b ≠ []) (hc : change H s.c k f = some c) : Cache.NE H c := by
  unfold change at hc
  split at hc
  · rename_i c1 b h1
    have hi := (Cache.inv_read h h1).1
    have hn1 := Cache.step_ne hH h hn h1 rfl
    split at hc
    · rename_i c2 o h2
      cases hc
      exact Cache.step_ne hH hi hn1 h2 (by
        have := hf b
        cases he : f b with
        | nil => exact absurd he this
        | cons _ _ => rfl)
    · cases hc
  · cases hc

theorem fs_ne (hH : Function.Injective H) {s s' : Fs} {A : Nat → Bytes} {mem : Cache.Key → Bytes} {D : Nat → Bytes} {ev : FEv} (h : FInv H s A mem D)
    (hn : Cache.NE H s.c) (hs : s.step H ev = some s') : Cache.NE H s'.c := by
  unfold Fs.step at hs
  cases ev with
  | cache ev =>
    dsimp only at hs
    split at hs
    · rename_i hca
      split at hs
      · rename_i c o h1
        cases hs; exact Cache.step_ne hH h.cache hn h1 (by cases ev <;> first | rfl | cases hca)
      · cases hs
    · cases hs
  | startRead t0 j o n =>
    dsimp only at hs
    split at hs
    · cases hs
    · cases hs; exact hn
  | startWrite t0 j o d =>
    dsimp only at hs
    split at hs
    · cases hs
    · cases hs; exact hn
  | startTrunc t0 j len =>
    dsimp only at hs
    split at hs
    · cases hs
    · cases hs; exact hn
  | fail t0 =>
    dsimp only at hs
    split at hs
    · cases hs; exact hn
    · cases hs
  | go t0 =>
    unfold goTask at hs
    dsimp only at hs
    split at hs
    · split at hs
      · cases hs; exact hn
      · split at hs
        · rename_i c b h1
          cases hs; exact Cache.step_ne hH h.cache hn h1 rfl
        · cases hs
    · rename_i i o d k ht
      split at hs
      · cases hs; exact hn
      · rename_i hk
        split at hs
        · rename_i c h1
          cases hs
          refine change_ne hH h.cache hn (fun b => ?_) h1
          intro he
          have hlt : (o + k) % s.bs < s.bs := Nat.mod_lt _ h.bs
          have hdl : (d.drop k).length = d.length - k := List.length_drop
          rw [FileData.offrel] at he
          have hpos : 0 < FileData.clipLen s.bs ((o + k) % s.bs) (d.drop k).length := by
            unfold FileData.clipLen; split <;> omega
          have hle := FileData.clipLen_le s.bs ((o + k) % s.bs) (d.drop k).length
          have htake : ((d.drop k).take (FileData.clipLen s.bs ((o + k) % s.bs) (d.drop k).length)).length = FileData.clipLen s.bs ((o + k) % s.bs) (d.drop k).length := by
            rw [List.length_take]; omega
          have := congrArg List.length he
          rw [blkWrite_length _ _ _ (by intro he'; rw [he'] at htake; rw [← htake] at hpos; exact Nat.lt_irrefl _ hpos), htake] at this
          simp only [List.length_nil] at this
          omega
        · cases hs
    · split at hs
      · split at hs
        · cases hs; exact hn
        · cases hs; exact hn
      · split at hs
        · rename_i c out h1
          cases hs; exact Cache.step_ne hH h.cache hn h1 rfl
        · cases hs
    · rename_i i len ht
      split at hs
      · rename_i c h1
        cases hs
        refine change_ne hH h.cache hn (fun b => ?_) h1
        obtain ⟨_, r2, _⟩ := h.rel t0 _ i ht (decide_eq_true rfl)
        intro he
        have := congrArg List.length he
        rw [blkCut_length] at this
        exact r2 this
      · cases hs
    · cases hs

theorem start_ne {s : Fs} {dir : CacheDir} (hn : Cache.NE H s.c) : Cache.NE H (Fs.start s.bs s.tables s.c.backend s.c.leaked dir).c := by
  refine ⟨fun k e he hd => ?_, hn.hash⟩
  unfold Fs.start at he
  dsimp only at he
  rw [get_map (fun b : Bytes => (⟨b, false, false⟩ : Cache.Entry))] at he
  cases hb : AL.get dir k with
  | none => rw [hb] at he; cases he
  | some b => rw [hb] at he; cases he; cases hd

theorem exec_ne (hH : Function.Injective H) : ∀ (evs : List Ev) (w w' : World) (A : Nat → Bytes) (t : Bytes) (mem : Cache.Key → Bytes) (D : Nat → Bytes),
    WInv cfg H dec w A t mem D → (∀ ev ∈ evs, Plain ev) → exec cfg H dec w evs = some w' → Cache.NE H w.fs.c → Cache.NE H w'.fs.c
  | [], _, _, _, _, _, _, _, _, he, hn => by cases he; exact hn
  | ev :: evs, w, w', A, t, mem, D, h, hd, he, hn => by
    rw [exec_cons] at he
    split at he
    · cases he
    · rename_i w1 hs
      obtain ⟨t1, m1, D1, h1⟩ := h.step hH (hd ev List.mem_cons_self) hs
      refine exec_ne hH evs w1 w' _ t1 m1 D1 h1 (fun e he => hd e (List.mem_cons_of_mem _ he)) he ?_
      unfold System.step at hs
      cases ev with
      | proto op =>
        dsimp only at hs
        split at hs
        · split at hs
          · cases hs; exact hn
          · cases hs
        · cases hs
      | finish keep stamp flag =>
        rw [finish_fs (cfg := cfg) (H := H) (dec := dec) hs]
        exact hn
      | attach =>
        dsimp only at hs
        split at hs
        · rename_i pr hpr
          split at hs
          · rename_i hc
            split at hs
            · rename_i tb htb
              cases hs
              have hv := Meta.view_of_inv h.mi hpr (by rw [hc.2.2]; simp)
              rw [hv, h.db] at htb
              cases htb
              exact start_ne hn
            · cases hs
          · cases hs
        · cases hs
      | fs ev ops =>
        dsimp only at hs
        split at hs
        · split at hs
          · split at hs
            · rename_i hfs _
              split at hs
              · cases hs; exact fs_ne hH h.fi hn hfs
              · cases hs
            · cases hs
          · cases hs
        · cases hs

end
end Verif.System
