import Verif.System.Spec
import Verif.FileData.ConcProps
import Verif.Cache.Props
/-
Files on the block cache: the invariant.
-/
namespace Verif.System
open Verif.FileData (at0 at0_ge at0_append at0_take at0_drop at0_zeros zeros zeros_length clipLen ceilDiv write_at0 truncate_at0 offrel coord div_eq_of_range clipLen_le clipLen_fit store_at0 store_length ceilDiv_le)

theorem blkWrite_at0 (c : Bytes) (off : Nat) (d : Bytes) (y : Nat) :
    at0 (blkWrite c off d) y = if off ≤ y ∧ y < off + d.length then at0 d (y - off) else at0 c y := by
  unfold blkWrite FileData.CacheEntry.write
  dsimp only
  rw [write_at0]
  rw [(FileData.seek_ok (entry c) off rfl).1]
  rfl

theorem blkRead_at0 (c : Bytes) (off n : Nat) : (blkRead c off n).length = n ∧ ∀ y, y < n → at0 (blkRead c off n) y = at0 c (off + y) := by
  unfold blkRead FileData.CacheEntry.read FileData.File.read
  dsimp only
  rw [(FileData.seek_ok (entry c) off rfl).1]
  show ((if ((c.drop off).take n).length = n then (c.drop off).take n else (c.drop off).take n ++ zeros (n - ((c.drop off).take n).length) : Bytes)).length = n ∧
    ∀ y, y < n → at0 (if ((c.drop off).take n).length = n then (c.drop off).take n else (c.drop off).take n ++ zeros (n - ((c.drop off).take n).length)) y = at0 c (off + y)
  have hl : ((c.drop off).take n).length ≤ n := by rw [List.length_take]; omega
  by_cases h : ((c.drop off).take n).length = n
  · rw [if_pos h]
    refine ⟨h, fun y hy => ?_⟩
    rw [at0_take, if_pos hy, at0_drop]
  · rw [if_neg h]
    refine ⟨by rw [List.length_append, zeros_length]; omega, fun y hy => ?_⟩
    rw [at0_append]
    split
    · rw [at0_take, if_pos hy, at0_drop]
    · rename_i h
      rw [at0_zeros, at0_ge]
      rw [List.length_take, List.length_drop] at h
      omega

theorem blkCut_at0 (c : Bytes) (n y : Nat) : at0 (blkCut c n) y = if y < n then at0 c y else 0 := by
  unfold blkCut FileData.CacheEntry.truncate
  dsimp only
  rw [truncate_at0]
  rfl

theorem blkWrite_length (c : Bytes) (off : Nat) (d : Bytes) (hd : d ≠ []) : (blkWrite c off d).length = max c.length (off + d.length) := by
  unfold blkWrite FileData.CacheEntry.write
  dsimp only
  rw [FileData.write_length _ _ hd, (FileData.seek_ok (entry c) off rfl).1]
  rfl

theorem blkCut_length (c : Bytes) (n : Nat) : (blkCut c n).length = n := by
  unfold blkCut FileData.CacheEntry.truncate
  dsimp only
  rw [FileData.truncate_length]

/-- Byte `x` of file `i`, if `mem` has the contents of the blocks. -/
def byte (bs : Nat) (mem : Cache.Key → Bytes) (i x : Nat) : UInt8 := at0 (mem (i, x / bs)) (x % bs)

theorem byte_write {bs : Nat} (hb : 0 < bs) (mem : Cache.Key → Bytes) (i off len : Nat) (d : Bytes) (hl : off % bs + len ≤ bs)
    (hd : len ≤ d.length) (x : Nat) :
    byte bs (Cache.upd mem (i, off / bs) (blkWrite (mem (i, off / bs)) (off - off / bs * bs) (d.take len))) i x =
      if off ≤ x ∧ x < off + len then at0 d (x - off) else byte bs mem i x := by
  unfold byte
  rw [Cache.upd_app]
  have hlen : (d.take len).length = len := by rw [List.length_take]; omega
  by_cases hx : x / bs = off / bs
  · rw [if_pos (by rw [hx]), blkWrite_at0, hlen, offrel, hx]
    have hc := coord off bs x hx
    by_cases h : off ≤ x ∧ x < off + len
    · rw [if_pos h, if_pos (by omega), at0_take, if_pos (by omega)]
      congr 1; omega
    · rw [if_neg h, if_neg (by omega)]
  · have hne : ((i, x / bs) : Cache.Key) ≠ (i, off / bs) := by intro h; exact hx (Prod.mk.inj h).2
    rw [if_neg hne]
    rw [if_neg]
    rintro ⟨h1, h2⟩
    exact hx (div_eq_of_range off bs x len hb h1 h2 hl)

theorem byte_remove {bs : Nat} (hb : 0 < bs) (mem : Cache.Key → Bytes) (i b x : Nat) :
    byte bs (Cache.upd mem (i, b) []) i x = if b * bs ≤ x ∧ x < (b + 1) * bs then 0 else byte bs mem i x := by
  unfold byte
  rw [Cache.upd_app]
  have he : x / bs = b ↔ b * bs ≤ x ∧ x < (b + 1) * bs := by
    rw [Nat.div_eq_iff hb, Nat.succ_mul]; omega
  by_cases hx : x / bs = b
  · rw [if_pos (by rw [hx]), if_pos (he.1 hx)]; rfl
  · have hne : ((i, x / bs) : Cache.Key) ≠ (i, b) := by intro h; exact hx (Prod.mk.inj h).2
    rw [if_neg hne, if_neg (fun h => hx (he.2 h))]

theorem byte_cut {bs : Nat} (mem : Cache.Key → Bytes) (i len x : Nat) :
    byte bs (Cache.upd mem (i, len / bs) (blkCut (mem (i, len / bs)) (len % bs))) i x =
      if x / bs = len / bs ∧ len ≤ x then 0 else byte bs mem i x := by
  unfold byte
  rw [Cache.upd_app]
  by_cases hx : x / bs = len / bs
  · rw [if_pos (by rw [hx]), blkCut_at0, hx]
    have hc := coord len bs x hx
    by_cases h : len ≤ x
    · rw [if_neg (by omega), if_pos ⟨rfl, h⟩]
    · rw [if_pos (by omega), if_neg (fun g => h g.2)]
  · have hne : ((i, x / bs) : Cache.Key) ≠ (i, len / bs) := by intro h; exact hx (Prod.mk.inj h).2
    rw [if_neg hne, if_neg (fun g => hx g.1)]

/-- First block that `setattr` removes. -/
def firstGone (bs len : Nat) : Nat := if len % bs = 0 then len / bs else len / bs + 1

/-- What the blocks (`f`) and the size of a file have to do with the array `a` while a request is at work. -/
def Rel (bs : Nat) (f : Nat → UInt8) (size : Nat) (a : Bytes) : Task → Prop
  | .wr _ o d k => size = a.length ∧ k ≤ d.length ∧ ∀ x, f x = if o ≤ x ∧ x < o + k then at0 d (x - o) else at0 a x
  | .tr _ len b e => size = len ∧ e = ceilDiv a.length bs ∧ firstGone bs len ≤ b ∧
      ∀ x, f x = if firstGone bs len * bs ≤ x ∧ x < b * bs then 0 else at0 a x
  | .cut _ len => size = len ∧ len % bs ≠ 0 ∧ ∀ x, f x = if x < (len / bs + 1) * bs then at0 a x else 0
  | _ => size = a.length ∧ ∀ x, f x = at0 a x

/-- How far the blocks (`f`) of a file go while a request is at work. -/
def Ext (bs : Nat) (f : Nat → Bytes) (size : Nat) (a : Bytes) : Task → Prop
  | .wr _ o _ k => ∀ b, f b ≠ [] → b * bs + (f b).length ≤ max size (o + k)
  | .tr _ len b _ => ∀ c, f c ≠ [] → (c < firstGone bs len ∨ b ≤ c) ∧ c * bs + (f c).length ≤ max len a.length
  | .cut _ len => ∀ c, f c ≠ [] → c ≤ len / bs
  | _ => ∀ b, f b ≠ [] → b * bs + (f b).length ≤ size

structure FInv (H : Bytes → Bytes) (s : Fs) (A : Nat → Bytes) (mem : Cache.Key → Bytes) (D : Nat → Bytes) : Prop where
  bs : 0 < s.bs
  cache : Cache.Inv H s.c mem D
  nk : AL.NK s.tasks
  one : ∀ t t' x x' i, AL.get s.tasks t = some x → AL.get s.tasks t' = some x' → x.changes i = true → x'.changes i = true → t = t'
  rest : ∀ i, (∀ t x, AL.get s.tasks t = some x → x.changes i = false) →
    s.size i = (A i).length ∧ ∀ x, byte s.bs mem i x = at0 (A i) x
  rel : ∀ t x i, AL.get s.tasks t = some x → x.changes i = true → Rel s.bs (byte s.bs mem i) (s.size i) (A i) x
  small : ∀ k, (mem k).length ≤ s.bs
  extRest : ∀ i, (∀ t x, AL.get s.tasks t = some x → x.changes i = false) → ∀ b, mem (i, b) ≠ [] → b * s.bs + (mem (i, b)).length ≤ s.size i
  extRel : ∀ t x i, AL.get s.tasks t = some x → x.changes i = true → Ext s.bs (fun b => mem (i, b)) (s.size i) (A i) x

section
variable {H : Bytes → Bytes} {s s' : Fs} {A A' : Nat → Bytes} {mem mem' : Cache.Key → Bytes} {D D' : Nat → Bytes} {t : Nat}

/-- Something changes that has nothing to do with the contents of files. -/
theorem FInv.cong (h : FInv H s A mem D) (hb : s'.bs = s.bs) (hc : Cache.Inv H s'.c mem D') (hs : s'.sizes = s.sizes)
    (ht : s'.tasks = s.tasks) : FInv H s' A mem D' := by
  have hz : ∀ i, s'.size i = s.size i := by intro i; unfold Fs.size; rw [hs]
  refine ⟨by rw [hb]; exact h.bs, hc, by rw [ht]; exact h.nk, by rw [ht]; exact h.one, ?_, ?_, by rw [hb]; exact h.small, ?_, ?_⟩
  · rw [ht, hb]; intro i hi; rw [hz]; exact h.rest i hi
  · rw [ht, hb]; intro t x i h1 h2; rw [hz]; exact h.rel t x i h1 h2
  · rw [ht, hb]; intro i hi; rw [hz]; exact h.extRest i hi
  · rw [ht, hb]; intro t x i h1 h2; rw [hz]; exact h.extRel t x i h1 h2

/-- A request that changes no file gets to another point. -/
theorem FInv.reader (h : FInv H s A mem D) (hb : s'.bs = s.bs) (hc : Cache.Inv H s'.c mem D') (hs : s'.sizes = s.sizes) {x : Task}
    (ht : s'.tasks = AL.set s.tasks t x) (hx : ∀ i, x.changes i = false)
    (ho : ∀ y, AL.get s.tasks t = some y → ∀ i, y.changes i = false) : FInv H s' A mem D' := by
  have hz : ∀ i, s'.size i = s.size i := by intro i; unfold Fs.size; rw [hs]
  have hg : ∀ t' y i, AL.get s'.tasks t' = some y → y.changes i = true → t' ≠ t ∧ AL.get s.tasks t' = some y := by
    intro t' y i h1 h2
    rw [ht, AL.get_set] at h1
    split at h1
    · cases h1; rw [hx] at h2; cases h2
    · rename_i hne; exact ⟨hne, h1⟩
  have hold : ∀ i, (∀ t x, AL.get s'.tasks t = some x → x.changes i = false) → ∀ t x, AL.get s.tasks t = some x → x.changes i = false := by
    intro i hi t' y hy
    by_cases hne : t' = t
    · subst hne; exact ho y hy i
    · exact hi t' y (by rw [ht, AL.get_set_ne _ _ hne]; exact hy)
  refine ⟨by rw [hb]; exact h.bs, hc, by rw [ht]; exact h.nk.set _ _, ?_, ?_, ?_, by rw [hb]; exact h.small, ?_, ?_⟩
  · intro t1 t2 x1 x2 i h1 h2 h3 h4
    exact h.one t1 t2 x1 x2 i (hg _ _ _ h1 h3).2 (hg _ _ _ h2 h4).2 h3 h4
  · intro i hi
    rw [hz, hb]
    exact h.rest i (hold i hi)
  · intro t' y i h1 h2
    rw [hz, hb]
    exact h.rel t' y i (hg _ _ _ h1 h2).2 h2
  · intro i hi
    rw [hz, hb]
    exact h.extRest i (hold i hi)
  · intro t' y i h1 h2
    rw [hz, hb]
    exact h.extRel t' y i (hg _ _ _ h1 h2).2 h2

/-- A request that changes file `i` gets to another point. -/
theorem FInv.writer (h : FInv H s A mem D) {i : Nat} {x : Task} (hb : s'.bs = s.bs) (hc : Cache.Inv H s'.c mem' D')
    (ht : s'.tasks = AL.set s.tasks t x) (hm : ∀ j, j ≠ i → ∀ b, mem' (j, b) = mem (j, b)) (hz : ∀ j, j ≠ i → s'.size j = s.size j)
    (hA : ∀ j, j ≠ i → A' j = A j) (hx : ∀ j, x.changes j = true → j = i)
    (ho : ∀ y, AL.get s.tasks t = some y → ∀ j, y.changes j = true → j = i)
    (hoth : ∀ t' y, t' ≠ t → AL.get s.tasks t' = some y → y.changes i = false)
    (hrel : x.changes i = true → Rel s.bs (byte s.bs mem' i) (s'.size i) (A' i) x)
    (hrest : x.changes i = false → s'.size i = (A' i).length ∧ ∀ z, byte s.bs mem' i z = at0 (A' i) z)
    (hsm : ∀ b, (mem' (i, b)).length ≤ s.bs) (hext : x.changes i = true → Ext s.bs (fun b => mem' (i, b)) (s'.size i) (A' i) x)
    (hextR : x.changes i = false → ∀ b, mem' (i, b) ≠ [] → b * s.bs + (mem' (i, b)).length ≤ s'.size i) : FInv H s' A' mem' D' := by
  have hbyte : ∀ j, j ≠ i → byte s.bs mem' j = byte s.bs mem j := by
    intro j hj; funext z; unfold byte; rw [hm j hj]
  have hold : ∀ j, j ≠ i → (∀ t x, AL.get s'.tasks t = some x → x.changes j = false) → ∀ t x, AL.get s.tasks t = some x → x.changes j = false := by
    intro j e hj t' y hy
    by_cases hne : t' = t
    · subst hne
      cases hcj : y.changes j with
      | false => rfl
      | true => exact absurd (ho y hy j hcj) e
    · exact hj t' y (by rw [ht, AL.get_set_ne _ _ hne]; exact hy)
  have hme : ∀ j, j ≠ i → (fun b => mem' (j, b)) = fun b => mem (j, b) := by
    intro j hj; funext b; exact hm j hj b
  refine ⟨by rw [hb]; exact h.bs, hc, by rw [ht]; exact h.nk.set _ _, ?_, ?_, ?_, ?_, ?_, ?_⟩
  · intro t1 t2 x1 x2 j h1 h2 h3 h4
    rw [ht, AL.get_set] at h1 h2
    split at h1
    · rename_i e1
      split at h2
      · rename_i e2; rw [e1, e2]
      · rename_i e2; cases h1
        have := hx j h3; subst this
        rw [hoth _ _ e2 h2] at h4; cases h4
    · rename_i e1
      split at h2
      · cases h2
        have := hx j h4; subst this
        rw [hoth _ _ e1 h1] at h3; cases h3
      · exact h.one t1 t2 x1 x2 j h1 h2 h3 h4
  · intro j hj
    rw [hb]
    by_cases e : j = i
    · subst e
      exact hrest (hj t x (by rw [ht, AL.get_set_self]))
    · rw [hz j e, hA j e, hbyte j e]
      exact h.rest j (hold j e hj)
  · intro t' y j h1 h2
    rw [hb]
    rw [ht, AL.get_set] at h1
    split at h1
    · cases h1
      have := hx j h2; subst this
      exact hrel h2
    · rename_i hne
      by_cases e : j = i
      · subst e; rw [hoth _ _ hne h1] at h2; cases h2
      · rw [hz j e, hA j e, hbyte j e]; exact h.rel t' y j h1 h2
  · intro k
    rw [hb]
    by_cases e : k.1 = i
    · have := hsm k.2; rw [← e] at this; exact this
    · have := hm k.1 e k.2
      rw [show mem' k = mem k from this]; exact h.small k
  · intro j hj
    rw [hb]
    by_cases e : j = i
    · subst e
      exact hextR (hj t x (by rw [ht, AL.get_set_self]))
    · rw [hz j e]
      intro b hb'
      rw [hm j e b] at hb' ⊢
      exact h.extRest j (hold j e hj) b hb'
  · intro t' y j h1 h2
    rw [hb]
    rw [ht, AL.get_set] at h1
    split at h1
    · cases h1
      have := hx j h2; subst this
      exact hext h2
    · rename_i hne
      by_cases e : j = i
      · subst e; rw [hoth _ _ hne h1] at h2; cases h2
      · rw [hz j e, hA j e, hme j e]; exact h.extRel t' y j h1 h2

theorem changing_false {i : Nat} (h : s.changing i = false) : ∀ t x, AL.get s.tasks t = some x → x.changes i = false := by
  intro t x hx
  unfold Fs.changing at h
  rw [List.any_eq_false] at h
  have := h (t, x) (AL.get_some_mem hx)
  simpa using this

theorem busy_false (h : s.busy t = false) : ∀ x, AL.get s.tasks t = some x → x.running = false := by
  intro x hx
  unfold Fs.busy at h
  rw [hx] at h
  exact h

theorem not_running {x : Task} (h : x.running = false) (i : Nat) : x.changes i = false := by
  cases x <;> first | rfl | cases h

/-- A change of a block. -/
theorem change_ok (hH : Function.Injective H) (h : Cache.Inv H s.c mem D) {k : Cache.Key} {f : Bytes → Bytes} {c : Cache.State}
    (hc : change H s.c k f = some c) : ∃ D', Cache.Inv H c (Cache.upd mem k (f (mem k))) D' := by
  unfold change at hc
  split at hc
  · rename_i c1 b h1
    obtain ⟨hi, ho⟩ := Cache.inv_read h h1
    cases ho
    split at hc
    · rename_i c2 o h2
      cases hc
      obtain ⟨D', h3, _⟩ := Cache.step_inv hH hi h2
      exact ⟨D', h3⟩
    · cases hc
  · cases hc

theorem isCache_mem {ev : Cache.Ev} (h : isCache ev = true) (mem r : Cache.Key → Bytes) : (Cache.Spec.step ⟨mem, r⟩ ev).now = mem := by
  cases ev <;> first | rfl | cases h

theorem upd_other {mem : Cache.Key → Bytes} {i b : Nat} {v : Bytes} : ∀ j, j ≠ i → ∀ b', Cache.upd mem (i, b) v (j, b') = mem (j, b') := by
  intro j hj b'
  exact Cache.upd_ne _ _ (fun h => hj (Prod.mk.inj h).1)

theorem size_set {i v j : Nat} {l : List (Nat × Nat)} (h : s'.sizes = AL.set l i v) : s'.size j = if j = i then v else (AL.get l j).getD 0 := by
  unfold Fs.size; rw [h, AL.get_set]; split <;> rfl

def endOp : Task → Option (Nat × FileData.Op)
  | .wrOk i o d => some (i, .write o d)
  | .trOk i len => some (i, .truncate len)
  | _ => none

theorem ended_go {x : Task} (hb : s.busy t = true) (h : AL.get s'.tasks t = some x) : ended s s' (.go t) = endOp x := by
  show (if s.busy t = true then _ else _) = _
  rw [if_pos hb, h]
  cases x <;> rfl

theorem resize_at0 (a : Bytes) (n x : Nat) : at0 (FileData.Spec.resize a n) x = if x < n then at0 a x else 0 := by
  unfold FileData.Spec.resize
  rw [at0_append, at0_take]
  have hz : ∀ n i, at0 (List.replicate n 0) i = 0 := at0_zeros
  rw [hz, List.length_take]
  repeat' split
  all_goals first
    | rfl
    | omega
    | (rw [at0_ge _ _ (by omega)])

theorem resize_length (a : Bytes) (n : Nat) : (FileData.Spec.resize a n).length = n := by
  unfold FileData.Spec.resize
  rw [List.length_append, List.length_take, List.length_replicate]; omega

theorem FInv.go (hH : Function.Injective H) (h : FInv H s A mem D) (hs : goTask H s t = some s') :
    ∃ mem' D', FInv H s' (apply A (ended s s' (.go t))) mem' D' := by
  unfold goTask at hs
  have hbs := h.bs
  split at hs
  · -- read
    rename_i i o n total acc ht
    have hbusy : s.busy t = true := by unfold Fs.busy; rw [ht]; rfl
    have ho : ∀ y, AL.get s.tasks t = some y → ∀ i, y.changes i = false := by
      intro y hy i; rw [ht] at hy; cases hy; rfl
    split at hs
    · cases hs
      rw [ended_go hbusy (AL.get_set_self _ _ _)]
      show ∃ mem' D', FInv H _ A mem' D'
      exact ⟨mem, D, h.reader rfl h.cache rfl rfl (fun _ => rfl) ho⟩
    · dsimp only at hs
      split at hs
      · rename_i c b hc
        cases hs
        rw [ended_go hbusy (AL.get_set_self _ _ _)]
        show ∃ mem' D', FInv H _ A mem' D'
        exact ⟨mem, D, h.reader rfl (Cache.inv_read h.cache hc).1 rfl rfl (fun _ => rfl) ho⟩
      · cases hs
  · -- write
    rename_i i o d k ht
    have hbusy : s.busy t = true := by unfold Fs.busy; rw [ht]; rfl
    have hch : (Task.wr i o d k).changes i = true := decide_eq_true rfl
    have ho : ∀ y, AL.get s.tasks t = some y → ∀ j, y.changes j = true → j = i := by
      intro y hy j hj; rw [ht] at hy; cases hy; exact (of_decide_eq_true hj).symm
    have hoth : ∀ t' y, t' ≠ t → AL.get s.tasks t' = some y → y.changes i = false := by
      intro t' y hne hy
      cases hc : y.changes i with
      | false => rfl
      | true => exact absurd (h.one _ _ _ _ i hy ht hc hch) hne
    obtain ⟨r1, r2, r3⟩ := h.rel t _ i ht hch
    have hxt := h.extRel t _ i ht hch
    split at hs
    · rename_i hk
      cases hs
      rw [ended_go hbusy (AL.get_set_self _ _ _)]
      refine ⟨mem, D, h.writer (i := i) rfl h.cache rfl (fun _ _ _ => rfl) ?_ ?_ ?_ ho hoth ?_ ?_ (fun _ => h.small _) ?_ ?_⟩
      · intro j hj; rw [size_set rfl, if_neg hj]; rfl
      · intro j hj; exact if_neg hj
      · intro j hj; cases hj
      · intro hc; cases hc
      · intro _
        rw [size_set rfl, if_pos rfl]
        show _ = (if i = i then _ else _ : Bytes).length ∧ ∀ z, _ = at0 (if i = i then _ else _) z
        rw [if_pos rfl]
        show _ = (FileData.Spec.store (A i) o d).length ∧ ∀ z, _ = at0 (FileData.Spec.store (A i) o d) z
        have hkd : k = d.length := by omega
        subst hkd
        refine ⟨by rw [store_length, r1], fun z => ?_⟩
        rw [store_at0, r3]
      · intro hc; cases hc
      · intro _ b hb
        rw [size_set rfl, if_pos rfl]
        have := hxt b hb
        dsimp only at this
        omega
    · rename_i hk
      dsimp only at hs
      split at hs
      · rename_i c hc
        cases hs
        obtain ⟨D', hc'⟩ := change_ok hH h.cache hc
        rw [ended_go hbusy (AL.get_set_self _ _ _)]
        show ∃ mem' D', FInv H _ A mem' D'
        have hlt : (o + k) % s.bs < s.bs := Nat.mod_lt _ hbs
        have hle := clipLen_le s.bs ((o + k) % s.bs) (d.drop k).length
        have hfit := clipLen_fit s.bs ((o + k) % s.bs) (d.drop k).length hlt
        have hdl : (d.drop k).length = d.length - k := List.length_drop
        have hpos : 0 < clipLen s.bs ((o + k) % s.bs) (d.drop k).length := by
          unfold clipLen; split <;> omega
        have htake : ((d.drop k).take (clipLen s.bs ((o + k) % s.bs) (d.drop k).length)).length = clipLen s.bs ((o + k) % s.bs) (d.drop k).length := by
          rw [List.length_take]; omega
        have hnew : (blkWrite (mem (i, (o + k) / s.bs)) (o + k - (o + k) / s.bs * s.bs) ((d.drop k).take (clipLen s.bs (o + k - (o + k) / s.bs * s.bs) (d.drop k).length))).length =
            max (mem (i, (o + k) / s.bs)).length ((o + k) % s.bs + clipLen s.bs ((o + k) % s.bs) (d.drop k).length) := by
          rw [offrel, blkWrite_length, htake]
          intro he
          rw [he] at htake
          rw [← htake] at hpos
          exact Nat.lt_irrefl _ hpos
        refine ⟨_, D', h.writer (i := i) rfl hc' rfl upd_other (fun _ _ => rfl) (fun _ _ => rfl) ?_ ho hoth ?_ ?_ ?_ ?_ ?_⟩
        · intro j hj; exact (of_decide_eq_true hj).symm
        · intro _
          rw [offrel]
          generalize hL : clipLen s.bs ((o + k) % s.bs) (d.drop k).length = L at *
          refine ⟨r1, by omega, fun x => ?_⟩
          have hw := byte_write hbs mem i (o + k) L (d.drop k) hfit hle x
          rw [offrel] at hw
          rw [hw, r3, at0_drop]
          repeat' split
          all_goals first
            | omega
            | rfl
            | (congr 1; omega)
        · intro hc; exact absurd hc (by rw [show (Task.wr i o d _).changes i = true from decide_eq_true rfl]; simp)
        · intro b
          rw [Cache.upd_app]
          split
          · rw [hnew]; have := h.small (i, (o + k) / s.bs); omega
          · exact h.small _
        · intro _ b hb
          dsimp only at hb ⊢
          rw [Cache.upd_app] at hb ⊢
          split
          · rename_i he
            have he : b = (o + k) / s.bs := (Prod.mk.inj he).2
            rw [hnew, he]
            have hdm := Nat.div_add_mod (o + k) s.bs
            rw [Nat.mul_comm] at hdm
            rw [offrel]
            by_cases hm : mem (i, (o + k) / s.bs) = []
            · rw [hm]; simp only [List.length_nil]; show _ ≤ max (s.size i) _; omega
            · have := hxt _ hm
              dsimp only at this
              show _ ≤ max (s.size i) _
              omega
          · rename_i he
            rw [if_neg he] at hb
            have := hxt b hb
            dsimp only at this
            show _ ≤ max (s.size i) _
            omega
        · intro hc; exact absurd hc (by rw [show (Task.wr i o d _).changes i = true from decide_eq_true rfl]; simp)
      · cases hs
  · -- truncate: remove blocks
    rename_i i len b e ht
    have hbusy : s.busy t = true := by unfold Fs.busy; rw [ht]; rfl
    have hch : (Task.tr i len b e).changes i = true := decide_eq_true rfl
    have ho : ∀ y, AL.get s.tasks t = some y → ∀ j, y.changes j = true → j = i := by
      intro y hy j hj; rw [ht] at hy; cases hy; exact (of_decide_eq_true hj).symm
    have hoth : ∀ t' y, t' ≠ t → AL.get s.tasks t' = some y → y.changes i = false := by
      intro t' y hne hy
      cases hc : y.changes i with
      | false => rfl
      | true => exact absurd (h.one _ _ _ _ i hy ht hc hch) hne
    obtain ⟨r1, r2, r3, r4⟩ := h.rel t _ i ht hch
    have hxt := h.extRel t _ i ht hch
    split at hs
    · rename_i heb
      have hlen : (A i).length ≤ b * s.bs := ceilDiv_le _ _ _ hbs (by omega)
      have hall : ∀ x, byte s.bs mem i x = if x < firstGone s.bs len * s.bs then at0 (A i) x else 0 := by
        intro x
        rw [r4]
        repeat' split
        all_goals first
          | omega
          | rfl
          | (rw [at0_ge _ _ (by omega)])
      have hgone : ∀ c, mem (i, c) ≠ [] → c < firstGone s.bs len := by
        intro c hc
        obtain ⟨g1, g2⟩ := hxt c hc
        dsimp only at g2
        rcases g1 with g1 | g1
        · exact g1
        · have hl := List.length_pos_iff.2 hc
          have h1 : b * s.bs ≤ c * s.bs := Nat.mul_le_mul_right _ g1
          have h2 : firstGone s.bs len * s.bs ≤ b * s.bs := Nat.mul_le_mul_right _ r3
          have h3 : len ≤ firstGone s.bs len * s.bs := by
            have hdm := Nat.div_add_mod len s.bs
            rw [Nat.mul_comm] at hdm
            have hlt := Nat.mod_lt len hbs
            unfold firstGone
            split
            · omega
            · rw [Nat.succ_mul]; omega
          omega
      split at hs
      · rename_i hmod
        cases hs
        rw [ended_go hbusy (AL.get_set_self _ _ _)]
        refine ⟨mem, D, h.writer (i := i) rfl h.cache rfl (fun _ _ _ => rfl) (fun _ _ => rfl) ?_ ?_ ho hoth ?_ ?_ (fun _ => h.small _) ?_ ?_⟩
        · intro j hj; exact if_neg hj
        · intro j hj; cases hj
        · intro hc; cases hc
        · intro _
          show _ = (if i = i then _ else _ : Bytes).length ∧ ∀ z, _ = at0 (if i = i then _ else _) z
          rw [if_pos rfl]
          show _ = (FileData.Spec.resize (A i) len).length ∧ ∀ z, _ = at0 (FileData.Spec.resize (A i) len) z
          refine ⟨by rw [resize_length]; exact r1, fun z => ?_⟩
          have hfg : firstGone s.bs len * s.bs = len := by
            unfold firstGone; rw [if_pos hmod]
            exact Nat.div_mul_cancel (Nat.dvd_of_mod_eq_zero hmod)
          rw [resize_at0, hall, hfg]
        · intro hc; cases hc
        · intro _ c hc
          have hg := hgone c hc
          have hsm := h.small (i, c)
          unfold firstGone at hg
          rw [if_pos hmod] at hg
          have hdm := Nat.div_mul_cancel (Nat.dvd_of_mod_eq_zero hmod)
          have := Nat.mul_le_mul_right s.bs (Nat.succ_le_of_lt hg)
          rw [Nat.succ_mul] at this
          show _ ≤ s.size i
          omega
      · rename_i hmod
        cases hs
        rw [ended_go hbusy (AL.get_set_self _ _ _)]
        show ∃ mem' D', FInv H _ A mem' D'
        refine ⟨mem, D, h.writer (i := i) rfl h.cache rfl (fun _ _ _ => rfl) (fun _ _ => rfl) (fun _ _ => rfl) ?_ ho hoth ?_ ?_ (fun _ => h.small _) ?_ ?_⟩
        · intro j hj; exact (of_decide_eq_true hj).symm
        · intro _
          refine ⟨r1, hmod, fun x => ?_⟩
          rw [hall]; unfold firstGone; rw [if_neg hmod]
        · intro hc; exact absurd hc (by rw [show (Task.cut i len).changes i = true from decide_eq_true rfl]; simp)
        · intro _ c hc
          have hg := hgone c hc
          unfold firstGone at hg
          rw [if_neg hmod] at hg
          omega
        · intro hc; exact absurd hc (by rw [show (Task.cut i len).changes i = true from decide_eq_true rfl]; simp)
    · rename_i heb
      split at hs
      · rename_i c out hc
        cases hs
        obtain ⟨D', hc', _⟩ := Cache.step_inv hH h.cache hc
        rw [ended_go hbusy (AL.get_set_self _ _ _)]
        show ∃ mem' D', FInv H _ A mem' D'
        refine ⟨_, D', h.writer (i := i) rfl hc' rfl upd_other (fun _ _ => rfl) (fun _ _ => rfl) ?_ ho hoth ?_ ?_ ?_ ?_ ?_⟩
        · intro j hj; exact (of_decide_eq_true hj).symm
        · intro _
          refine ⟨r1, r2, by omega, fun x => ?_⟩
          show byte s.bs (Cache.upd mem (i, b) []) i x = _
          rw [byte_remove hbs, r4]
          have hm : firstGone s.bs len * s.bs ≤ b * s.bs := Nat.mul_le_mul_right _ r3
          have hsu : (b + 1) * s.bs = b * s.bs + s.bs := Nat.succ_mul _ _
          repeat' split
          all_goals first
            | omega
            | rfl
        · intro hc; exact absurd hc (by rw [show (Task.tr i len (b + 1) e).changes i = true from decide_eq_true rfl]; simp)
        · intro c
          show (Cache.upd mem (i, b) [] (i, c)).length ≤ _
          rw [Cache.upd_app]
          split
          · exact Nat.zero_le _
          · exact h.small _
        · intro _ c hc
          have hc : Cache.upd mem (i, b) [] (i, c) ≠ [] := hc
          show (_ ∨ _) ∧ c * s.bs + (Cache.upd mem (i, b) [] (i, c)).length ≤ _
          rw [Cache.upd_app] at hc ⊢
          by_cases he : ((i, c) : Cache.Key) = (i, b)
          · rw [if_pos he] at hc; exact absurd rfl hc
          · rw [if_neg he] at hc ⊢
            obtain ⟨g1, g2⟩ := hxt c hc
            refine ⟨?_, g2⟩
            rcases g1 with g1 | g1
            · exact Or.inl g1
            · have : c ≠ b := fun e => he (by rw [e])
              exact Or.inr (by omega)
        · intro hc; exact absurd hc (by rw [show (Task.tr i len (b + 1) e).changes i = true from decide_eq_true rfl]; simp)
      · cases hs
  · -- truncate: cut the last block
    rename_i i len ht
    have hbusy : s.busy t = true := by unfold Fs.busy; rw [ht]; rfl
    have hch : (Task.cut i len).changes i = true := decide_eq_true rfl
    have ho : ∀ y, AL.get s.tasks t = some y → ∀ j, y.changes j = true → j = i := by
      intro y hy j hj; rw [ht] at hy; cases hy; exact (of_decide_eq_true hj).symm
    have hoth : ∀ t' y, t' ≠ t → AL.get s.tasks t' = some y → y.changes i = false := by
      intro t' y hne hy
      cases hc : y.changes i with
      | false => rfl
      | true => exact absurd (h.one _ _ _ _ i hy ht hc hch) hne
    obtain ⟨r1, r2, r3⟩ := h.rel t _ i ht hch
    have hxt := h.extRel t _ i ht hch
    split at hs
    · rename_i c hc
      cases hs
      obtain ⟨D', hc'⟩ := change_ok hH h.cache hc
      rw [ended_go hbusy (AL.get_set_self _ _ _)]
      refine ⟨_, D', h.writer (i := i) rfl hc' rfl upd_other (fun _ _ => rfl) ?_ ?_ ho hoth ?_ ?_ ?_ ?_ ?_⟩
      · intro j hj; exact if_neg hj
      · intro j hj; cases hj
      · intro hc; cases hc
      · intro _
        show _ = (if i = i then _ else _ : Bytes).length ∧ ∀ z, _ = at0 (if i = i then _ else _) z
        rw [if_pos rfl]
        show _ = (FileData.Spec.resize (A i) len).length ∧ ∀ z, _ = at0 (FileData.Spec.resize (A i) len) z
        refine ⟨by rw [resize_length]; exact r1, fun z => ?_⟩
        rw [resize_at0, byte_cut, r3]
        have hd := Nat.div_add_mod len s.bs
        have hlt := Nat.mod_lt len hbs
        rw [Nat.mul_comm] at hd
        have hz : z / s.bs = len / s.bs ↔ len / s.bs * s.bs ≤ z ∧ z < len / s.bs * s.bs + s.bs := by
          rw [Nat.div_eq_iff hbs]; omega
        rw [Nat.succ_mul]
        by_cases h1 : z < len
        · rw [if_neg (fun g => by omega), if_pos (by omega), if_pos h1]
        · rw [if_neg h1]
          by_cases h2 : z < len / s.bs * s.bs + s.bs
          · rw [if_pos ⟨hz.2 ⟨by omega, h2⟩, by omega⟩]
          · rw [if_neg (fun g => h2 (hz.1 g.1).2), if_neg h2]
      · intro c
        rw [Cache.upd_app]
        split
        · rw [blkCut_length]; exact Nat.le_of_lt (Nat.mod_lt _ hbs)
        · exact h.small _
      · intro hc; cases hc
      · intro _ c hc
        have hdm := Nat.div_add_mod len s.bs
        rw [Nat.mul_comm] at hdm
        show _ ≤ s.size i
        rw [Cache.upd_app] at hc ⊢
        by_cases he : ((i, c) : Cache.Key) = (i, len / s.bs)
        · rw [if_pos he, blkCut_length]
          have : c = len / s.bs := (Prod.mk.inj he).2
          rw [this]; omega
        · rw [if_neg he] at hc ⊢
          have hg : c ≤ len / s.bs := hxt c hc
          have hne : c ≠ len / s.bs := fun e => he (by rw [e])
          have hsm := h.small (i, c)
          have := Nat.mul_le_mul_right s.bs (Nat.succ_le_of_lt (Nat.lt_of_le_of_ne hg hne))
          rw [Nat.succ_mul] at this
          omega
    · cases hs
  · cases hs

theorem FInv.step {ev : FEv} (hH : Function.Injective H) (h : FInv H s A mem D) (hs : s.step H ev = some s') :
    ∃ mem' D', FInv H s' (apply A (ended s s' ev)) mem' D' := by
  cases ev with
  | cache ev =>
    unfold Fs.step at hs
    dsimp only at hs
    split at hs
    · rename_i hc
      split at hs
      · rename_i c o h1
        cases hs
        obtain ⟨D', h3, _⟩ := Cache.step_inv hH h.cache h1
        rw [isCache_mem hc] at h3
        exact ⟨mem, D', h.cong rfl h3 rfl rfl⟩
      · cases hs
    · cases hs
  | startRead t i o n =>
    unfold Fs.step at hs
    dsimp only at hs
    split at hs
    · cases hs
    · rename_i hb
      cases hs
      exact ⟨mem, D, h.reader rfl h.cache rfl rfl (fun _ => rfl) (fun y hy i => not_running (busy_false (by simpa using hb) y hy) i)⟩
  | startWrite t i o d =>
    unfold Fs.step at hs
    dsimp only at hs
    split at hs
    · cases hs
    · rename_i hb
      cases hs
      obtain ⟨hb1, hb2⟩ : s.busy t = false ∧ s.changing i = false := by simpa using hb
      have hr := h.rest i (changing_false hb2)
      refine ⟨mem, D, h.writer (i := i) rfl h.cache rfl (fun _ _ _ => rfl) (fun _ _ => rfl) (fun _ _ => rfl) ?_ ?_ ?_ ?_ ?_ (fun _ => h.small _) ?_ ?_⟩
      · intro j hj; exact (of_decide_eq_true hj).symm
      · intro y hy j hj; rw [not_running (busy_false hb1 y hy)] at hj; cases hj
      · intro t' y _ hy; exact changing_false hb2 t' y hy
      · intro _
        refine ⟨hr.1, Nat.zero_le _, fun x => ?_⟩
        rw [if_neg (by omega)]; exact hr.2 x
      · intro hc; exact absurd hc (by rw [show (Task.wr i o d 0).changes i = true from decide_eq_true rfl]; simp)
      · intro _ b hb
        have := h.extRest i (changing_false hb2) b hb
        show _ ≤ max (s.size i) _
        dsimp only
        omega
      · intro hc; exact absurd hc (by rw [show (Task.wr i o d 0).changes i = true from decide_eq_true rfl]; simp)
  | startTrunc t i len =>
    unfold Fs.step at hs
    dsimp only at hs
    split at hs
    · cases hs
    · rename_i hb
      cases hs
      obtain ⟨hb1, hb2⟩ : s.busy t = false ∧ s.changing i = false := by simpa using hb
      have hr := h.rest i (changing_false hb2)
      refine ⟨mem, D, h.writer (i := i) rfl h.cache rfl (fun _ _ _ => rfl) ?_ (fun _ _ => rfl) ?_ ?_ ?_ ?_ ?_ (fun _ => h.small _) ?_ ?_⟩
      · intro j hj; rw [size_set rfl, if_neg hj]; rfl
      · intro j hj; exact (of_decide_eq_true hj).symm
      · intro y hy j hj; rw [not_running (busy_false hb1 y hy)] at hj; cases hj
      · intro t' y _ hy; exact changing_false hb2 t' y hy
      · intro _
        refine ⟨by rw [size_set rfl, if_pos rfl], by rw [hr.1]; rfl, Nat.le_refl _, fun x => ?_⟩
        rw [if_neg]
        · exact hr.2 x
        · unfold firstGone; omega
      · intro hc; exact absurd hc (by rw [show ∀ b e, (Task.tr i len b e).changes i = true from fun _ _ => decide_eq_true rfl]; simp)
      · intro _ c hc
        have := h.extRest i (changing_false hb2) c hc
        rw [hr.1] at this
        refine ⟨?_, by show c * s.bs + (mem (i, c)).length ≤ max len (A i).length; omega⟩
        show c < firstGone s.bs len ∨ firstGone s.bs len ≤ c
        omega
      · intro hc; exact absurd hc (by rw [show ∀ b e, (Task.tr i len b e).changes i = true from fun _ _ => decide_eq_true rfl]; simp)
  | go t => exact h.go hH hs
  | fail t =>
    unfold Fs.step at hs
    dsimp only at hs
    split at hs
    · rename_i i o n total acc ht
      cases hs
      refine ⟨mem, D, h.reader rfl h.cache rfl rfl (fun _ => rfl) ?_⟩
      intro y hy i; rw [ht] at hy; cases hy; rfl
    · cases hs
end

end Verif.System
