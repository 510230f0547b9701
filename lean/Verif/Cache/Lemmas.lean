import Verif.Cache.Spec
/-
The inductive invariant of the block cache.
-/
namespace Verif.Cache
open AL (NK sumBy sumBy_set sumBy_erase sumBy_toTail sumBy_congr)

/-- Contents of the object referenced by a row of `inode_blocks` (`D`: contents of each object). -/
def rowData (D : Nat → Bytes) : Option Nat → Bytes
  | none => []
  | some o => D o

/-- Number of rows that refer to an object. -/
def cnt (rows : List (Key × Nat)) (o : Nat) : Int := sumBy (fun _ v => if v = o then 1 else 0) rows

/-- Size with which an entry is accounted in `cache.size`. -/
def acc (holder : Key → Holder) (k : Key) (e : Entry) : Int :=
  match holder k with
  | .slow old => old
  | _ => e.content.length

structure Inv (H : Bytes → Bytes) (s : State) (m : Key → Bytes) (D : Nat → Bytes) : Prop where
  nkc : NK s.cache
  nkr : NK s.rows
  nko : NK s.objs
  rowObj : ∀ k o, AL.get s.rows k = some o → ∃ ob, AL.get s.objs o = some ob
  objId : ∀ o ob, AL.get s.objs o = some ob → o < s.nextId
  objHash : ∀ o ob h, AL.get s.objs o = some ob → ob.hash = some h → h = H (D o)
  backD : ∀ o d, s.backend o = some d → d = D o ∧ o < s.nextId
  upl : ∀ o ob, AL.get s.objs o = some ob → ob.uploaded = true → s.backend o = some (D o)
  cont : ∀ k e, AL.get s.cache k = some e → e.content = m k
  clean : ∀ k e, AL.get s.cache k = some e → e.dirty = false → rowData D (AL.get s.rows k) = m k
  absent : ∀ k, AL.get s.cache k = none → rowData D (AL.get s.rows k) = m k
  refc : ∀ o ob, AL.get s.objs o = some ob → (ob.refcount : Int) = cnt s.rows o + cnt s.pending o + s.derefs.count o + s.leaked.count o
  derefObj : ∀ o, o ∈ s.derefs → ∃ ob, AL.get s.objs o = some ob
  nkp : NK s.pending
  pendObj : ∀ k o, AL.get s.pending k = some o → (∃ ob, AL.get s.objs o = some ob) ∧ ∃ o', s.holder k = .sending o'
  leakObj : ∀ o, o ∈ s.leaked → ∃ ob, AL.get s.objs o = some ob
  upg : ∀ k o, upObj (s.holder k) = some o → AL.get s.rows k = some o ∧ o ∈ s.inflight ∧
    ∃ e, AL.get s.cache k = some e ∧ e.content = D o ∧ e.dirty = true ∧ e.inTransit = true
  upgObj : ∀ k o ob, upObj (s.holder k) = some o → AL.get s.objs o = some ob → ob.uploaded = false
  infl : ∀ o, o ∈ s.inflight → ∃ k, upObj (s.holder k) = some o
  inflNd : s.inflight.Nodup
  upgUniq : ∀ k k' o, upObj (s.holder k) = some o → upObj (s.holder k') = some o → k = k'
  hsh : ∀ k, s.holder k = .hashing → ∃ e, AL.get s.cache k = some e ∧ e.dirty = true ∧ e.inTransit = true
  usr : ∀ k, isUser (s.holder k) = true → ∃ e, AL.get s.cache k = some e ∧ e.inTransit = false
  tran : ∀ k e, AL.get s.cache k = some e → e.inTransit = true →
    s.holder k = .hashing ∨ ∃ o, upObj (s.holder k) = some o
  dl : ∀ k o, s.holder k = .downloading o → AL.get s.rows k = some o ∧ AL.get s.cache k = none
  rem : ∀ o, o ∈ s.removals → AL.get s.objs o = none ∧ o < s.nextId ∧ s.backend o = some (D o)
  remNd : s.removals.Nodup
  uniq : ∀ o o' ob ob' h, AL.get s.objs o = some ob → AL.get s.objs o' = some ob' → ob.hash = some h →
    ob'.hash = some h → o = o'
  fst : ∀ k m e, s.holder k = .fast m → AL.get s.cache k = some e → m < e.content.length
  sz : s.size = sumBy (acc s.holder) s.cache

theorem inv_init (H : Bytes → Bytes) : Inv H init (fun _ => []) (fun _ => []) := by
  constructor <;> simp [init, NK, AL.get, rowData, sumBy, isUser, upObj]

theorem upd_self {α β : Type} [DecidableEq α] (f : α → β) (a : α) (b : β) : upd f a b a = b := by
  simp [upd]
theorem upd_ne {α β : Type} [DecidableEq α] (f : α → β) {a x : α} (b : β) (h : x ≠ a) : upd f a b x = f x := by
  simp [upd, h]
theorem upd_app {α β : Type} [DecidableEq α] (f : α → β) (a x : α) (b : β) :
    upd f a b x = if x = a then b else f x := rfl

theorem sz_upd (h : Key → Holder) (c : List (Key × Entry)) (hn : NK c) (k : Key) (x : Holder) :
    sumBy (acc (upd h k x)) c = sumBy (acc h) c - ((AL.get c k).map (acc h k)).getD 0 +
      ((AL.get c k).map (acc (fun _ => x) k)).getD 0 := by
  have h1 := sumBy_erase (acc (upd h k x)) hn k
  have h2 := sumBy_erase (acc h) hn k
  have h3 : sumBy (acc (upd h k x)) (AL.erase c k) = sumBy (acc h) (AL.erase c k) := by
    apply sumBy_congr _ _ (hn.erase k)
    intro k' e he
    rw [AL.get_erase] at he
    by_cases hk : k' = k
    · rw [if_pos hk] at he; cases he
    · unfold acc; rw [upd_ne _ _ hk]
  have h4 : (AL.get c k).map (acc (upd h k x) k) = (AL.get c k).map (acc (fun _ => x) k) := by
    have : acc (upd h k x) k = acc (fun _ => x) k := by
      funext e; unfold acc; rw [upd_self]
    rw [this]
  rw [h4] at h1
  omega

theorem sz_set (h : Key → Holder) (c : List (Key × Entry)) (hn : NK c) (k : Key) (x : Holder) (e : Entry) :
    sumBy (acc (upd h k x)) (AL.set c k e) = sumBy (acc h) c - ((AL.get c k).map (acc h k)).getD 0 +
      acc (fun _ => x) k e := by
  rw [sumBy_set _ hn, sz_upd h c hn]
  have : acc (upd h k x) k = acc (fun _ => x) k := by
    funext e; unfold acc; rw [upd_self]
  rw [this]; omega

theorem cnt_set {rows : List (Key × Nat)} (hn : NK rows) (k : Key) (v o : Nat) :
    cnt (AL.set rows k v) o = cnt rows o - (if AL.get rows k = some o then 1 else 0) + (if v = o then 1 else 0) := by
  unfold cnt
  rw [sumBy_set _ hn]
  cases h : AL.get rows k with
  | none => simp
  | some w => simp only [Option.map_some, Option.getD_some, Option.some.injEq]

theorem cnt_erase {rows : List (Key × Nat)} (hn : NK rows) (k : Key) (o : Nat) :
    cnt (AL.erase rows k) o = cnt rows o - (if AL.get rows k = some o then 1 else 0) := by
  unfold cnt
  rw [sumBy_erase _ hn]
  cases h : AL.get rows k with
  | none => simp
  | some w => simp only [Option.map_some, Option.getD_some, Option.some.injEq]

theorem cnt_nonneg (rows : List (Key × Nat)) (o : Nat) : 0 ≤ cnt rows o :=
  AL.sumBy_nonneg _ _ (by intro k e; split <;> decide)

theorem cnt_pos {rows : List (Key × Nat)} (hn : NK rows) {k : Key} {o : Nat} (h : AL.get rows k = some o) :
    1 ≤ cnt rows o := by
  have h1 := cnt_erase hn k o
  rw [if_pos h] at h1
  have := cnt_nonneg (AL.erase rows k) o
  omega

theorem cnt_zero {rows : List (Key × Nat)} (hn : NK rows) {o : Nat} (h : ∀ k, AL.get rows k ≠ some o) :
    cnt rows o = 0 := by
  have h1 : cnt rows o = sumBy (fun _ _ => 0) rows := by
    apply sumBy_congr _ _ hn
    intro k e he
    rw [if_neg]
    rintro rfl
    exact h k he
  rw [h1]
  clear h h1 hn
  induction rows with
  | nil => rfl
  | cons e t ih => obtain ⟨a, b⟩ := e; simp [sumBy, ih]

theorem findHash_some {objs : List (Nat × Obj)} (hn : NK objs) {h : Bytes} {o : Nat}
    (hf : findHash objs h = some o) : ∃ ob, AL.get objs o = some ob ∧ ob.hash = some h := by
  unfold findHash at hf
  cases hx : objs.find? (fun e => e.2.hash = some h) with
  | none => rw [hx] at hf; cases hf
  | some p =>
    rw [hx] at hf
    obtain ⟨a, b⟩ := p
    cases hf
    exact ⟨b, AL.mem_get_some hn (List.mem_of_find?_eq_some hx), by simpa using List.find?_some hx⟩

theorem findHash_none {objs : List (Nat × Obj)} {h : Bytes} (hf : findHash objs h = none) {o : Nat} {ob : Obj}
    (hg : AL.get objs o = some ob) : ob.hash ≠ some h := by
  unfold findHash at hf
  rw [Option.map_eq_none_iff, List.find?_eq_none] at hf
  simpa using hf _ (AL.get_some_mem hg)

attribute [local grind =] upd_app AL.get_set AL.get_erase AL.get_toTail

macro "gr" : tactic => `(tactic| first | assumption | grind [isUser, upObj, rowData])

theorem inv_getFast {H s m D k mw s' o} (hi : Inv H s m D) (h : step H s (.getFast k mw) = some (s', o)) :
    Inv H s' (m) D := by
  simp only [step] at h
  split at h <;> try (cases h; done)
  rename_i e hh hc
  split at h <;> try (cases h; done)
  rename_i hif
  cases h
  obtain ⟨nkc, nkr, nko, rowObj, objId, objHash, backD, upl, cont, clean, absent, refc, derefObj, nkp, pendObj, leakObj, upg, upgObj, infl, inflNd, upgUniq, hsh, usr, tran, dl, rem, remNd, uniq, fst, sz⟩ := hi
  constructor
  case nkc => exact nkc.toTail k
  case sz =>
    show s.size = _
    rw [sumBy_toTail _ nkc, sz_upd _ _ nkc, hc, sz]
    simp [acc, hh]
  case refc => exact refc
  case infl =>
    intro o ho
    obtain ⟨k0, hk0⟩ := infl o ho
    refine ⟨k0, ?_⟩
    clear sz refc; gr
  all_goals (try clear sz refc); gr

theorem inv_getHit {H s m D k s' o} (hi : Inv H s m D) (h : step H s (.getHit k) = some (s', o)) :
    Inv H s' (m) D := by
  simp only [step] at h
  split at h <;> try (cases h; done)
  rename_i e hh hc
  cases h
  obtain ⟨nkc, nkr, nko, rowObj, objId, objHash, backD, upl, cont, clean, absent, refc, derefObj, nkp, pendObj, leakObj, upg, upgObj, infl, inflNd, upgUniq, hsh, usr, tran, dl, rem, remNd, uniq, fst, sz⟩ := hi
  constructor
  case nkc => exact nkc.toTail k
  case sz =>
    show s.size = _
    rw [sumBy_toTail _ nkc, sz_upd _ _ nkc, hc, sz]
    simp [acc, hh]
  case refc => exact refc
  case infl =>
    intro o ho
    obtain ⟨k0, hk0⟩ := infl o ho
    refine ⟨k0, ?_⟩
    clear sz refc; gr
  all_goals (try clear sz refc); gr

theorem inv_getNew {H s m D k s' o} (hi : Inv H s m D) (h : step H s (.getNew k) = some (s', o)) :
    Inv H s' (m) D := by
  simp only [step] at h
  split at h <;> try (cases h; done)
  rename_i hh hc hr
  cases h
  obtain ⟨nkc, nkr, nko, rowObj, objId, objHash, backD, upl, cont, clean, absent, refc, derefObj, nkp, pendObj, leakObj, upg, upgObj, infl, inflNd, upgUniq, hsh, usr, tran, dl, rem, remNd, uniq, fst, sz⟩ := hi
  constructor
  case nkc => exact nkc.set k _
  case sz =>
    show s.size = _
    rw [sz_set _ _ nkc, hc, sz]
    simp [acc]
  case refc => exact refc
  case cont =>
    have h1 := absent k hc
    rw [hr] at h1
    simp only [rowData] at h1
    clear sz refc
    gr
  case clean =>
    have h1 := absent k hc
    clear sz refc
    gr
  case usr =>
    intro k' hk
    by_cases hkk : k' = k
    · exact ⟨_, by rw [hkk, AL.get_set_self], rfl⟩
    · dsimp only at hk ⊢
      rw [upd_ne _ _ hkk] at hk
      rw [AL.get_set_ne _ _ hkk]; exact usr k' hk
  case infl =>
    intro o ho
    obtain ⟨k0, hk0⟩ := infl o ho
    refine ⟨k0, ?_⟩
    clear sz refc; gr
  all_goals (try clear sz refc); gr

theorem inv_getMiss {H s m D k s' o} (hi : Inv H s m D) (h : step H s (.getMiss k) = some (s', o)) :
    Inv H s' (m) D := by
  simp only [step] at h
  split at h <;> try (cases h; done)
  rename_i ob hh hc hr
  split at h <;> try (cases h; done)
  rename_i ho
  cases h
  obtain ⟨nkc, nkr, nko, rowObj, objId, objHash, backD, upl, cont, clean, absent, refc, derefObj, nkp, pendObj, leakObj, upg, upgObj, infl, inflNd, upgUniq, hsh, usr, tran, dl, rem, remNd, uniq, fst, sz⟩ := hi
  constructor
  case sz =>
    show s.size = _
    rw [sz_upd _ _ nkc, hc, sz]
    simp
  case refc => exact refc
  case infl =>
    intro o ho
    obtain ⟨k0, hk0⟩ := infl o ho
    refine ⟨k0, ?_⟩
    clear sz refc; gr
  all_goals (try clear sz refc); gr

theorem inv_downloadFail {H s m D k s' o} (hi : Inv H s m D) (h : step H s (.downloadFail k) = some (s', o)) :
    Inv H s' (m) D := by
  simp only [step] at h
  split at h <;> try (cases h; done)
  rename_i ob hh
  split at h <;> try (cases h; done)
  rename_i hif
  cases h
  obtain ⟨nkc, nkr, nko, rowObj, objId, objHash, backD, upl, cont, clean, absent, refc, derefObj, nkp, pendObj, leakObj, upg, upgObj, infl, inflNd, upgUniq, hsh, usr, tran, dl, rem, remNd, uniq, fst, sz⟩ := hi
  constructor
  case sz =>
    show s.size = _
    rw [sz_upd _ _ nkc, (dl _ _ hh).2, sz]
    simp
  case refc => exact refc
  case infl =>
    intro o ho
    obtain ⟨k0, hk0⟩ := infl o ho
    refine ⟨k0, ?_⟩
    clear sz refc; gr
  all_goals (try clear sz refc); gr

theorem inv_download {H s m D k s' o} (hi : Inv H s m D) (h : step H s (.download k) = some (s', o)) :
    Inv H s' (m) D := by
  simp only [step] at h
  split at h <;> try (cases h; done)
  rename_i ob hh
  split at h <;> try (cases h; done)
  rename_i hif
  split at h
  · cases h
    exact inv_downloadFail hi (k := k) (o := .err) (by simp only [step, hh]; rw [if_neg hif])
  rename_i d hd
  cases h
  obtain ⟨nkc, nkr, nko, rowObj, objId, objHash, backD, upl, cont, clean, absent, refc, derefObj, nkp, pendObj, leakObj, upg, upgObj, infl, inflNd, upgUniq, hsh, usr, tran, dl, rem, remNd, uniq, fst, sz⟩ := hi
  constructor
  case nkc => exact nkc.set k _
  case sz =>
    show s.size + _ = _
    rw [sz_set _ _ nkc, (dl _ _ hh).2, sz]
    simp [acc]
  case refc => exact refc
  case cont =>
    have h1 := absent k (dl _ _ hh).2
    rw [(dl _ _ hh).1] at h1
    simp only [rowData] at h1
    clear sz refc
    gr
  case clean =>
    have h1 := absent k (dl _ _ hh).2
    clear sz refc
    gr
  case usr =>
    intro k' hk
    by_cases hkk : k' = k
    · exact ⟨_, by rw [hkk, AL.get_set_self], rfl⟩
    · dsimp only at hk ⊢
      rw [upd_ne _ _ hkk] at hk
      rw [AL.get_set_ne _ _ hkk]; exact usr k' hk
  case infl =>
    intro o ho
    obtain ⟨k0, hk0⟩ := infl o ho
    refine ⟨k0, ?_⟩
    clear sz refc; gr
  all_goals (try clear sz refc); gr

theorem inv_read {H s m D k s' o} (hi : Inv H s m D) (h : step H s (.read k) = some (s', o)) :
    Inv H s' m D ∧ o = .data (m k) := by
  simp only [step] at h
  split at h <;> try (cases h; done)
  rename_i e hc
  split at h <;> try (cases h; done)
  cases h
  exact ⟨hi, by rw [hi.cont k e hc]⟩

theorem inv_write {H s m D k c s' o} (hi : Inv H s m D) (h : step H s (.write k c) = some (s', o)) :
    Inv H s' (upd m k c) D := by
  simp only [step] at h
  split at h <;> try (cases h; done)
  rename_i e hc
  split at h <;> try (cases h; done)
  rename_i hif
  cases h
  rw [Bool.and_eq_true] at hif
  obtain ⟨hu, hl⟩ := hif
  obtain ⟨nkc, nkr, nko, rowObj, objId, objHash, backD, upl, cont, clean, absent, refc, derefObj, nkp, pendObj, leakObj, upg, upgObj, infl, inflNd, upgUniq, hsh, usr, tran, dl, rem, remNd, uniq, fst, sz⟩ := hi
  constructor
  case nkc => exact nkc.set k _
  case sz =>
    show s.size = _
    rw [sumBy_set _ nkc, hc, sz]
    simp only [Option.map_some, Option.getD_some]
    simp only [acc]
    clear sz refc cont clean absent
    cases hh : s.holder k <;> rw [hh] at hu hl <;> simp [isUser, promised] at hu hl ⊢
    have := fst k _ e hh hc
    omega
  case fst =>
    intro k' m' e' hk' he'
    dsimp only at hk' he'
    rw [AL.get_set] at he'
    split at he'
    · rename_i hkk
      subst hkk
      cases he'
      have := fst _ m' e hk' hc
      rw [hk'] at hl
      simp [promised] at hl
      simp only
      omega
    · exact fst k' m' e' hk' he'
  case refc => exact refc
  all_goals (try clear sz refc); gr

theorem inv_unlock {H s m D k s' o} (hi : Inv H s m D) (h : step H s (.unlock k) = some (s', o)) :
    Inv H s' m D := by
  simp only [step] at h
  split at h <;> try (cases h; done)
  · rename_i e hh hc
    cases h
    obtain ⟨nkc, nkr, nko, rowObj, objId, objHash, backD, upl, cont, clean, absent, refc, derefObj, nkp, pendObj, leakObj, upg, upgObj, infl, inflNd, upgUniq, hsh, usr, tran, dl, rem, remNd, uniq, fst, sz⟩ := hi
    constructor
    case sz =>
      show s.size = _
      rw [sz_upd _ _ nkc, hc, sz]
      simp [acc, hh]
    case refc => exact refc
    case infl =>
      intro o ho
      obtain ⟨k0, hk0⟩ := infl o ho
      refine ⟨k0, ?_⟩
      clear sz refc; gr
    all_goals (try clear sz refc); gr
  · rename_i old e hh hc
    cases h
    obtain ⟨nkc, nkr, nko, rowObj, objId, objHash, backD, upl, cont, clean, absent, refc, derefObj, nkp, pendObj, leakObj, upg, upgObj, infl, inflNd, upgUniq, hsh, usr, tran, dl, rem, remNd, uniq, fst, sz⟩ := hi
    constructor
    case sz =>
      show s.size + _ = _
      rw [sz_upd _ _ nkc, hc, sz]
      simp [acc, hh]; omega
    case refc => exact refc
    case infl =>
      intro o ho
      obtain ⟨k0, hk0⟩ := infl o ho
      refine ⟨k0, ?_⟩
      clear sz refc; gr
    all_goals (try clear sz refc); gr

theorem inv_upStart {H s m D k s' o} (hi : Inv H s m D) (h : step H s (.upStart k) = some (s', o)) :
    Inv H s' (m) D := by
  simp only [step] at h
  split at h <;> try (cases h; done)
  rename_i e hh hc
  split at h <;> try (cases h; done)
  rename_i hif
  cases h
  obtain ⟨nkc, nkr, nko, rowObj, objId, objHash, backD, upl, cont, clean, absent, refc, derefObj, nkp, pendObj, leakObj, upg, upgObj, infl, inflNd, upgUniq, hsh, usr, tran, dl, rem, remNd, uniq, fst, sz⟩ := hi
  constructor
  case nkc => exact nkc.set k _
  case sz =>
    show s.size = _
    rw [sz_set _ _ nkc, hc, sz]
    simp [acc, hh]
  case refc => exact refc
  case infl =>
    intro o ho
    obtain ⟨k0, hk0⟩ := infl o ho
    refine ⟨k0, ?_⟩
    clear sz refc; gr
  all_goals (try clear sz refc); gr

theorem inv_hashFail {H s m D k s' o} (hi : Inv H s m D) (h : step H s (.hashFail k) = some (s', o)) :
    Inv H s' (m) D := by
  simp only [step] at h
  split at h <;> try (cases h; done)
  rename_i e hh hc
  cases h
  obtain ⟨nkc, nkr, nko, rowObj, objId, objHash, backD, upl, cont, clean, absent, refc, derefObj, nkp, pendObj, leakObj, upg, upgObj, infl, inflNd, upgUniq, hsh, usr, tran, dl, rem, remNd, uniq, fst, sz⟩ := hi
  constructor
  case nkc => exact nkc.set k _
  case sz =>
    show s.size = _
    rw [sz_set _ _ nkc, hc, sz]
    simp [acc, hh]
  case refc => exact refc
  case infl =>
    intro o ho
    obtain ⟨k0, hk0⟩ := infl o ho
    refine ⟨k0, ?_⟩
    clear sz refc; gr
  all_goals (try clear sz refc); gr

theorem inv_store {H s m D k s' o} (hi : Inv H s m D) (h : step H s (.store k) = some (s', o)) :
    Inv H s' (m) D := by
  simp only [step] at h
  split at h <;> try (cases h; done)
  rename_i ob e hh hc
  cases h
  have hu : upObj (s.holder k) = some ob := by rw [hh]; rfl
  obtain ⟨ob', hob⟩ := hi.rowObj k ob (hi.upg k ob hu).1
  have hid := hi.objId _ _ hob
  have hD : e.content = D ob := by
    obtain ⟨_, _, e', h1, h2, _⟩ := hi.upg k ob hu
    rw [hc] at h1; cases h1; exact h2
  obtain ⟨nkc, nkr, nko, rowObj, objId, objHash, backD, upl, cont, clean, absent, refc, derefObj, nkp, pendObj, leakObj, upg, upgObj, infl, inflNd, upgUniq, hsh, usr, tran, dl, rem, remNd, uniq, fst, sz⟩ := hi
  constructor
  case refc => exact refc
  case sz => exact sz
  all_goals (try clear sz refc); gr

theorem inv_upOk {H s m D k s' o} (hi : Inv H s m D) (h : step H s (.upOk k) = some (s', o)) :
    Inv H s' (m) D := by
  simp only [step] at h
  split at h <;> try (cases h; done)
  rename_i ob e hh hc
  cases h
  have hu : upObj (s.holder k) = some ob := by rw [hh]; rfl
  obtain ⟨ob', hob⟩ := hi.rowObj k ob (hi.upg k ob hu).1
  have hid := hi.objId _ _ hob
  have hD : e.content = D ob := by
    obtain ⟨_, _, e', h1, h2, _⟩ := hi.upg k ob hu
    rw [hc] at h1; cases h1; exact h2
  rw [hob]; dsimp only
  obtain ⟨nkc, nkr, nko, rowObj, objId, objHash, backD, upl, cont, clean, absent, refc, derefObj, nkp, pendObj, leakObj, upg, upgObj, infl, inflNd, upgUniq, hsh, usr, tran, dl, rem, remNd, uniq, fst, sz⟩ := hi
  constructor
  case nkc => exact nkc.set k _
  case nko => exact nko.set _ _
  case sz =>
    show s.size = _
    rw [sz_set _ _ nkc, hc, sz]
    simp [acc, hh]
  case refc =>
    intro o ob1 h1
    rw [AL.get_set] at h1
    by_cases ho : o = ob
    · rw [if_pos ho] at h1; cases h1
      rw [ho]; exact refc ob ob' hob
    · rw [if_neg ho] at h1; exact refc o ob1 h1
  case inflNd => exact inflNd.erase _
  case infl =>
    intro o ho
    have h1 := (inflNd.mem_erase_iff).1 ho
    obtain ⟨k0, hk0⟩ := infl o h1.2
    refine ⟨k0, ?_⟩
    clear sz refc; gr
  case upg =>
    intro k' o ho
    have hm : o ≠ ob → o ∈ s.inflight → o ∈ s.inflight.erase ob := fun a b => (inflNd.mem_erase_iff).2 ⟨a, b⟩
    clear sz refc; gr
  all_goals (try clear sz refc); gr

theorem inv_upFail {H s m D k s' o} (hi : Inv H s m D) (h : step H s (.upFail k) = some (s', o)) :
    Inv H s' (m) D := by
  simp only [step] at h
  split at h <;> try (cases h; done)
  rename_i ob e hh hc
  cases h
  have hu : upObj (s.holder k) = some ob := by rw [hh]; rfl
  obtain ⟨ob', hob⟩ := hi.rowObj k ob (hi.upg k ob hu).1
  have hid := hi.objId _ _ hob
  have hD : e.content = D ob := by
    obtain ⟨_, _, e', h1, h2, _⟩ := hi.upg k ob hu
    rw [hc] at h1; cases h1; exact h2
  rw [hob]; dsimp only
  obtain ⟨nkc, nkr, nko, rowObj, objId, objHash, backD, upl, cont, clean, absent, refc, derefObj, nkp, pendObj, leakObj, upg, upgObj, infl, inflNd, upgUniq, hsh, usr, tran, dl, rem, remNd, uniq, fst, sz⟩ := hi
  constructor
  case nkc => exact nkc.set k _
  case nko => exact nko.set _ _
  case sz =>
    show s.size = _
    rw [sz_set _ _ nkc, hc, sz]
    simp [acc, hh]
  case refc =>
    intro o ob1 h1
    rw [AL.get_set] at h1
    by_cases ho : o = ob
    · rw [if_pos ho] at h1; cases h1
      rw [ho]; exact refc ob ob' hob
    · rw [if_neg ho] at h1; exact refc o ob1 h1
  case inflNd => exact inflNd.erase _
  case infl =>
    intro o ho
    have h1 := (inflNd.mem_erase_iff).1 ho
    obtain ⟨k0, hk0⟩ := infl o h1.2
    refine ⟨k0, ?_⟩
    clear sz refc; gr
  case upg =>
    intro k' o ho
    have hm : o ≠ ob → o ∈ s.inflight → o ∈ s.inflight.erase ob := fun a b => (inflNd.mem_erase_iff).2 ⟨a, b⟩
    clear sz refc; gr
  all_goals (try clear sz refc); gr

theorem inv_evict {H s m D k s' o} (hi : Inv H s m D) (h : step H s (.evict k) = some (s', o)) :
    Inv H s' (m) D := by
  simp only [step] at h
  split at h <;> try (cases h; done)
  rename_i e hh hc
  split at h <;> try (cases h; done)
  rename_i hif
  cases h
  obtain ⟨nkc, nkr, nko, rowObj, objId, objHash, backD, upl, cont, clean, absent, refc, derefObj, nkp, pendObj, leakObj, upg, upgObj, infl, inflNd, upgUniq, hsh, usr, tran, dl, rem, remNd, uniq, fst, sz⟩ := hi
  constructor
  case nkc => exact nkc.erase k
  case sz =>
    show s.size - _ = _
    rw [sumBy_erase _ nkc, hc, sz]
    simp [acc, hh]
  case refc => exact refc
  all_goals (try clear sz refc); gr

theorem inv_registerNew {H s m D k e} (hi : Inv H s m D) (hh : s.holder k = .hashing)
    (hc : AL.get s.cache k = some e) (hf : findHash s.objs (H e.content) = none) :
    Inv H (registerStep H s k e) m (upd D s.nextId e.content) := by
  unfold registerStep
  dsimp only
  rw [hf]
  dsimp only
  have hnp : AL.get s.pending k = none := by
    cases hp : AL.get s.pending k with
    | none => rfl
    | some o =>
      obtain ⟨_, o', ho'⟩ := hi.pendObj k o hp
      rw [hh] at ho'; cases ho'
  have hnew : AL.get s.objs s.nextId = none := by
    cases hp : AL.get s.objs s.nextId with
    | none => rfl
    | some o => exact absurd (hi.objId _ _ hp) (Nat.lt_irrefl _)
  have hm := hi.cont k e hc
  have hfn : ∀ o ob, AL.get s.objs o = some ob → ob.hash ≠ some (H e.content) :=
    fun o ob hg => findHash_none hf hg
  have hD : ∀ k', rowData (upd D s.nextId e.content) (AL.get s.rows k') = rowData D (AL.get s.rows k') := by
    intro k'
    cases hr : AL.get s.rows k' with
    | none => rfl
    | some o =>
      obtain ⟨ob, h1⟩ := hi.rowObj _ _ hr
      simp only [rowData]
      rw [upd_ne _ _ (Nat.ne_of_lt (hi.objId _ _ h1))]
  obtain ⟨nkc, nkr, nko, rowObj, objId, objHash, backD, upl, cont, clean, absent, refc, derefObj, nkp, pendObj, leakObj, upg, upgObj, infl, inflNd, upgUniq, hsh, usr, tran, dl, rem, remNd, uniq, fst, sz⟩ := hi
  constructor
  case nkc => exact nkc
  case nkr => exact nkr.set _ _
  case nko => exact nko.set _ _
  case sz =>
    show s.size = _
    rw [sz_upd _ _ nkc, hc, sz]
    simp [acc, hh]
  case nkp =>
    show NK (match AL.get s.rows k with | some o' => AL.set s.pending k o' | none => s.pending)
    cases AL.get s.rows k with
    | none => exact nkp
    | some o => exact nkp.set _ _
  case refc =>
    intro o ob h1
    rw [AL.get_set] at h1
    show (ob.refcount : Int) = cnt (AL.set s.rows k s.nextId) o +
      cnt (match AL.get s.rows k with | some o' => AL.set s.pending k o' | none => s.pending) o +
      s.derefs.count o + s.leaked.count o
    have hp : cnt (match AL.get s.rows k with | some o' => AL.set s.pending k o' | none => s.pending) o =
        cnt s.pending o + (if AL.get s.rows k = some o then 1 else 0) := by
      cases AL.get s.rows k with
      | none => simp
      | some o' => dsimp only; rw [cnt_set nkp, hnp]; simp
    rw [cnt_set nkr, hp]
    by_cases ho : o = s.nextId
    · rw [if_pos ho] at h1; cases h1
      have hr : AL.get s.rows k ≠ some o := by
        intro hr; obtain ⟨ob, h1⟩ := rowObj _ _ hr
        rw [ho, hnew] at h1; cases h1
      have h1 : cnt s.rows o = 0 := cnt_zero nkr (by
        intro k' hr; obtain ⟨ob, h1⟩ := rowObj _ _ hr
        rw [ho, hnew] at h1; cases h1)
      have h2 : cnt s.pending o = 0 := cnt_zero nkp (by
        intro k' hr; obtain ⟨⟨ob, h1⟩, _⟩ := pendObj _ _ hr
        rw [ho, hnew] at h1; cases h1)
      have h3 : s.derefs.count o = 0 := List.count_eq_zero.2 (by
        intro hr; obtain ⟨ob, h1⟩ := derefObj _ hr
        rw [ho, hnew] at h1; cases h1)
      have h4 : s.leaked.count o = 0 := List.count_eq_zero.2 (by
        intro hr; obtain ⟨ob, h1⟩ := leakObj _ hr
        rw [ho, hnew] at h1; cases h1)
      rw [if_neg hr, if_pos ho.symm, h1, h2, h3, h4]
      simp
    · rw [if_neg ho] at h1
      rw [if_neg (Ne.symm ho), refc o ob h1]
      omega
  case infl =>
    intro o ho
    rcases List.mem_cons.1 ho with ho | ho
    · exact ⟨k, by dsimp only; rw [upd_self, ho]; rfl⟩
    · obtain ⟨k0, hk0⟩ := infl o ho
      refine ⟨k0, ?_⟩
      clear sz refc; gr
  case inflNd =>
    refine List.nodup_cons.2 ⟨?_, inflNd⟩
    intro ho
    obtain ⟨k0, hk0⟩ := infl _ ho
    obtain ⟨ob, h1⟩ := rowObj _ _ (upg _ _ hk0).1
    rw [hnew] at h1; cases h1
  case pendObj =>
    intro k' o hp
    dsimp only at hp ⊢
    have hp' : AL.get s.pending k' = some o ∨ (k' = k ∧ AL.get s.rows k = some o) := by
      revert hp
      cases hr : AL.get s.rows k with
      | none => exact fun hp => Or.inl hp
      | some o' =>
        dsimp only
        rw [AL.get_set]
        intro hp
        by_cases hk : k' = k
        · rw [if_pos hk] at hp; exact Or.inr ⟨hk, hp⟩
        · rw [if_neg hk] at hp; exact Or.inl hp
    rcases hp' with hp' | ⟨hk, hr⟩
    · obtain ⟨⟨ob, h1⟩, o', h2⟩ := pendObj _ _ hp'
      have hk : k' ≠ k := by
        rintro rfl
        rw [hnp] at hp'; cases hp'
      have ho : o ≠ s.nextId := by
        rintro rfl
        rw [hnew] at h1; cases h1
      exact ⟨⟨ob, by rw [AL.get_set_ne _ _ ho]; exact h1⟩, o', by rw [upd_ne _ _ hk]; exact h2⟩
    · obtain ⟨ob, h1⟩ := rowObj _ _ hr
      have ho : o ≠ s.nextId := by
        rintro rfl
        rw [hnew] at h1; cases h1
      exact ⟨⟨ob, by rw [AL.get_set_ne _ _ ho]; exact h1⟩, _, by rw [hk, upd_self]⟩
  case rowObj =>
    intro k' o hr
    dsimp only at hr ⊢
    by_cases ho : o = s.nextId
    · exact ⟨_, by rw [ho, AL.get_set_self]⟩
    · rw [AL.get_set_ne _ _ ho]
      rw [AL.get_set] at hr
      by_cases hk : k' = k
      · rw [if_pos hk] at hr; cases hr; exact absurd rfl ho
      · rw [if_neg hk] at hr; exact rowObj _ _ hr
  case clean =>
    intro k' e' h1 h2
    have h3 := hD k'
    have h4 := clean k' e' h1 h2
    dsimp only at h1 ⊢
    clear sz refc; gr
  case absent =>
    intro k' h1
    have h3 := hD k'
    have h4 := absent k' h1
    dsimp only at h1 ⊢
    clear sz refc; gr
  case tran =>
    intro k' e' h1 h2
    dsimp only at h1 ⊢
    by_cases hk : k' = k
    · exact Or.inr ⟨_, by rw [hk, upd_self]; rfl⟩
    · rw [upd_ne _ _ hk]; exact tran k' e' h1 h2
  case backD =>
    intro o d hb
    obtain ⟨h1, h2⟩ := backD o d hb
    dsimp only
    rw [upd_ne _ _ (Nat.ne_of_lt h2)]
    exact ⟨h1, Nat.lt_succ_of_lt h2⟩
  case rem =>
    intro o ho
    obtain ⟨h1, h2, h3⟩ := rem o ho
    dsimp only
    rw [upd_ne _ _ (Nat.ne_of_lt h2), AL.get_set_ne _ _ (Nat.ne_of_lt h2)]
    exact ⟨h1, Nat.lt_succ_of_lt h2, h3⟩
  all_goals (try clear sz refc); gr

theorem inv_registerOld {H s m D k e o} (hH : Function.Injective H) (hi : Inv H s m D) (hh : s.holder k = .hashing)
    (hc : AL.get s.cache k = some e) (hf : findHash s.objs (H e.content) = some o) :
    Inv H (registerStep H s k e) m D := by
  unfold registerStep
  dsimp only
  rw [hf]
  dsimp only
  have hnp : AL.get s.pending k = none := by
    cases hp : AL.get s.pending k with
    | none => rfl
    | some o =>
      obtain ⟨_, o', ho'⟩ := hi.pendObj k o hp
      rw [hh] at ho'; cases ho'
  obtain ⟨ob, hob, hoh⟩ := findHash_some hi.nko hf
  have hDo : D o = e.content := (hH (hi.objHash _ _ _ hob hoh)).symm
  have hm := hi.cont k e hc
  by_cases hold : AL.get s.rows k = some o
  · rw [if_pos hold]
    obtain ⟨nkc, nkr, nko, rowObj, objId, objHash, backD, upl, cont, clean, absent, refc, derefObj, nkp, pendObj, leakObj, upg, upgObj, infl, inflNd, upgUniq, hsh, usr, tran, dl, rem, remNd, uniq, fst, sz⟩ := hi
    constructor
    case nkc => exact nkc.set _ _
    case sz =>
      show s.size = _
      rw [sz_set _ _ nkc, hc, sz]
      simp [acc, hh]
    case refc => exact refc
    case infl =>
      intro o ho
      obtain ⟨k0, hk0⟩ := infl o ho
      refine ⟨k0, ?_⟩
      clear sz refc; gr
    all_goals (try clear sz refc); gr
  · rw [if_neg hold, hob]
    dsimp only
    obtain ⟨nkc, nkr, nko, rowObj, objId, objHash, backD, upl, cont, clean, absent, refc, derefObj, nkp, pendObj, leakObj, upg, upgObj, infl, inflNd, upgUniq, hsh, usr, tran, dl, rem, remNd, uniq, fst, sz⟩ := hi
    constructor
    case nkc => exact nkc.set _ _
    case nkr => exact nkr.set _ _
    case nko => exact nko.set _ _
    case sz =>
      show s.size = _
      rw [sz_set _ _ nkc, hc, sz]
      simp [acc, hh]
    case refc =>
      intro o1 ob1 h1
      rw [AL.get_set] at h1
      show (ob1.refcount : Int) = cnt (AL.set s.rows k o) o1 + cnt s.pending o1 +
        (match AL.get s.rows k with | some o' => o' :: s.derefs | none => s.derefs).count o1 + s.leaked.count o1
      have hd : ((match AL.get s.rows k with | some o' => o' :: s.derefs | none => s.derefs).count o1 : Int) =
          s.derefs.count o1 + (if AL.get s.rows k = some o1 then 1 else 0) := by
        cases AL.get s.rows k with
        | none => simp
        | some o' =>
          dsimp only; rw [List.count_cons]
          by_cases h : o' = o1 <;> simp [h]
      rw [cnt_set nkr, hd]
      by_cases ho : o1 = o
      · rw [if_pos ho] at h1; cases h1
        rw [if_pos ho.symm]
        have := refc o ob hob
        rw [← ho] at this
        have : ((ob.refcount + 1 : Nat) : Int) = (ob.refcount : Int) + 1 := by omega
        dsimp only
        omega
      · rw [if_neg ho] at h1
        rw [if_neg (Ne.symm ho), refc o1 ob1 h1]
        omega
    case infl =>
      intro o ho
      obtain ⟨k0, hk0⟩ := infl o ho
      refine ⟨k0, ?_⟩
      clear sz refc; gr
    case derefObj =>
      intro o1 ho1
      have h1 : ∃ ob, AL.get s.objs o1 = some ob := by
        revert ho1
        dsimp only
        cases hr : AL.get s.rows k with
        | none => exact derefObj o1
        | some o' =>
          intro ho1
          rcases List.mem_cons.1 ho1 with h | h
          · subst h; exact rowObj _ _ hr
          · exact derefObj o1 h
      obtain ⟨ob1, h1⟩ := h1
      dsimp only
      rw [AL.get_set]
      by_cases ho : o1 = o
      · exact ⟨_, by rw [if_pos ho]⟩
      · exact ⟨_, by rw [if_neg ho]; exact h1⟩
    all_goals (try clear sz refc); gr

theorem inv_send {H s m D k s' o} (hi : Inv H s m D) (h : step H s (.send k) = some (s', o)) :
    Inv H s' m D := by
  simp only [step] at h
  split at h <;> try (cases h; done)
  rename_i ob hh
  cases h
  obtain ⟨nkc, nkr, nko, rowObj, objId, objHash, backD, upl, cont, clean, absent, refc, derefObj, nkp, pendObj, leakObj, upg, upgObj, infl, inflNd, upgUniq, hsh, usr, tran, dl, rem, remNd, uniq, fst, sz⟩ := hi
  constructor
  case sz =>
    show s.size = _
    rw [sz_upd _ _ nkc, sz]
    cases AL.get s.cache k <;> simp [acc, hh]
  case nkp => exact nkp.erase _
  case refc =>
    intro o1 ob1 h1
    show (ob1.refcount : Int) = cnt s.rows o1 + cnt (AL.erase s.pending k) o1 +
      (match AL.get s.pending k with | some o' => o' :: s.derefs | none => s.derefs).count o1 + s.leaked.count o1
    have hd : ((match AL.get s.pending k with | some o' => o' :: s.derefs | none => s.derefs).count o1 : Int) =
        s.derefs.count o1 + (if AL.get s.pending k = some o1 then 1 else 0) := by
      cases AL.get s.pending k with
      | none => simp
      | some o' =>
        dsimp only; rw [List.count_cons]
        by_cases h : o' = o1 <;> simp [h]
    rw [cnt_erase nkp, hd, refc o1 ob1 h1]
    omega
  case derefObj =>
    intro o1 ho1
    revert ho1
    dsimp only
    cases hr : AL.get s.pending k with
    | none => exact derefObj o1
    | some o' =>
      intro ho1
      rcases List.mem_cons.1 ho1 with h | h
      · subst h; exact (pendObj _ _ hr).1
      · exact derefObj o1 h
  case infl =>
    intro o ho
    obtain ⟨k0, hk0⟩ := infl o ho
    refine ⟨k0, ?_⟩
    clear sz refc; gr
  all_goals (try clear sz refc); gr

theorem inv_sendFail {H s m D k s' o} (hi : Inv H s m D) (h : step H s (.sendFail k) = some (s', o)) :
    Inv H s' m D := by
  simp only [step] at h
  split at h <;> try (cases h; done)
  rename_i ob e hh hc
  cases h
  have hu : upObj (s.holder k) = some ob := by rw [hh]; rfl
  obtain ⟨nkc, nkr, nko, rowObj, objId, objHash, backD, upl, cont, clean, absent, refc, derefObj, nkp, pendObj, leakObj, upg, upgObj, infl, inflNd, upgUniq, hsh, usr, tran, dl, rem, remNd, uniq, fst, sz⟩ := hi
  constructor
  case nkc => exact nkc.set _ _
  case sz =>
    show s.size = _
    rw [sz_set _ _ nkc, hc, sz]
    simp [acc, hh]
  case nkp => exact nkp.erase _
  case refc =>
    intro o1 ob1 h1
    show (ob1.refcount : Int) = cnt s.rows o1 + cnt (AL.erase s.pending k) o1 + s.derefs.count o1 +
      (match AL.get s.pending k with | some o' => o' :: s.leaked | none => s.leaked).count o1
    have hd : ((match AL.get s.pending k with | some o' => o' :: s.leaked | none => s.leaked).count o1 : Int) =
        s.leaked.count o1 + (if AL.get s.pending k = some o1 then 1 else 0) := by
      cases AL.get s.pending k with
      | none => simp
      | some o' =>
        dsimp only; rw [List.count_cons]
        by_cases h : o' = o1 <;> simp [h]
    rw [cnt_erase nkp, hd, refc o1 ob1 h1]
    omega
  case leakObj =>
    intro o1 ho1
    revert ho1
    dsimp only
    cases hr : AL.get s.pending k with
    | none => exact leakObj o1
    | some o' =>
      intro ho1
      rcases List.mem_cons.1 ho1 with h | h
      · subst h; exact (pendObj _ _ hr).1
      · exact leakObj o1 h
  case inflNd => exact inflNd.erase _
  case infl =>
    intro o ho
    have h1 := (inflNd.mem_erase_iff).1 ho
    obtain ⟨k0, hk0⟩ := infl o h1.2
    refine ⟨k0, ?_⟩
    clear sz refc; gr
  case upg =>
    intro k' o ho
    have hm : o ≠ ob → o ∈ s.inflight → o ∈ s.inflight.erase ob := fun a b => (inflNd.mem_erase_iff).2 ⟨a, b⟩
    clear sz refc; gr
  all_goals (try clear sz refc); gr

theorem inv_remove {H s m D k s' o} (hi : Inv H s m D) (h : step H s (.remove k) = some (s', o)) :
    Inv H s' (upd m k []) D := by
  simp only [step] at h
  split at h <;> try (cases h; done)
  rename_i hh
  cases h
  obtain ⟨nkc, nkr, nko, rowObj, objId, objHash, backD, upl, cont, clean, absent, refc, derefObj, nkp, pendObj, leakObj, upg, upgObj, infl, inflNd, upgUniq, hsh, usr, tran, dl, rem, remNd, uniq, fst, sz⟩ := hi
  constructor
  case nkc => exact nkc.erase _
  case nkr => exact nkr.erase _
  case sz =>
    show s.size - _ = _
    rw [sumBy_erase _ nkc, sz]
    cases AL.get s.cache k <;> simp [acc, hh]
  case refc =>
    intro o1 ob1 h1
    show (ob1.refcount : Int) = cnt (AL.erase s.rows k) o1 + cnt s.pending o1 +
      (match AL.get s.rows k with | some o' => o' :: s.derefs | none => s.derefs).count o1 + s.leaked.count o1
    have hd : ((match AL.get s.rows k with | some o' => o' :: s.derefs | none => s.derefs).count o1 : Int) =
        s.derefs.count o1 + (if AL.get s.rows k = some o1 then 1 else 0) := by
      cases AL.get s.rows k with
      | none => simp
      | some o' =>
        dsimp only; rw [List.count_cons]
        by_cases h : o' = o1 <;> simp [h]
    rw [cnt_erase nkr, hd, refc o1 ob1 h1]
    omega
  case derefObj =>
    intro o1 ho1
    revert ho1
    dsimp only
    cases hr : AL.get s.rows k with
    | none => exact derefObj o1
    | some o' =>
      intro ho1
      rcases List.mem_cons.1 ho1 with h | h
      · subst h; exact rowObj _ _ hr
      · exact derefObj o1 h
  all_goals (try clear sz refc); gr

theorem inv_deref {H s m D o s' out} (hi : Inv H s m D) (h : step H s (.deref o) = some (s', out)) :
    Inv H s' m D ∧ out = .none ∧ (∀ ob, AL.get s.objs o = some ob → ob.refcount ≤ 1 → cnt s.rows o = 0) := by
  simp only [step] at h
  split at h <;> try (cases h; done)
  rename_i hin
  have hin' : o ∈ s.derefs := by simpa using hin
  obtain ⟨ob, hob⟩ := hi.derefObj o hin'
  have hpos : 0 < s.derefs.count o := List.count_pos_iff.2 hin'
  have hzero : ob.refcount ≤ 1 → cnt s.rows o = 0 ∧ cnt s.pending o = 0 ∧ s.leaked.count o = 0 ∧ s.derefs.count o = 1 := by
    intro hle
    have h1 := hi.refc o ob hob
    have h2 := cnt_nonneg s.rows o
    have h3 := cnt_nonneg s.pending o
    omega
  rw [hob] at h
  dsimp only at h
  by_cases hr : ob.refcount > 1
  · rw [if_pos hr] at h
    cases h
    refine ⟨?_, rfl, fun ob1 h1 h2 => by rw [hob] at h1; cases h1; omega⟩
    clear hzero
    obtain ⟨nkc, nkr, nko, rowObj, objId, objHash, backD, upl, cont, clean, absent, refc, derefObj, nkp, pendObj, leakObj, upg, upgObj, infl, inflNd, upgUniq, hsh, usr, tran, dl, rem, remNd, uniq, fst, sz⟩ := hi
    constructor
    case nko => exact nko.set _ _
    case refc =>
      intro o1 ob1 h1
      rw [AL.get_set] at h1
      show (ob1.refcount : Int) = cnt s.rows o1 + cnt s.pending o1 + (s.derefs.erase o).count o1 + s.leaked.count o1
      by_cases ho : o1 = o
      · rw [if_pos ho] at h1; cases h1
        subst ho
        have := refc o1 ob hob
        rw [List.count_erase_self]
        dsimp only
        omega
      · rw [if_neg ho] at h1
        rw [List.count_erase_of_ne ho, refc o1 ob1 h1]
    case derefObj =>
      intro o1 ho1
      obtain ⟨ob1, h1⟩ := derefObj o1 (List.mem_of_mem_erase ho1)
      dsimp only
      rw [AL.get_set]
      by_cases ho : o1 = o
      · exact ⟨_, by rw [if_pos ho]⟩
      · exact ⟨_, by rw [if_neg ho]; exact h1⟩
    case sz => exact sz
    all_goals (try clear sz refc); gr
  · rw [if_neg hr] at h
    obtain ⟨hz1, hz2, hz3, hz4⟩ := hzero (by omega)
    have hnr : ∀ k, AL.get s.rows k ≠ some o := by
      intro k hk
      have := cnt_pos hi.nkr hk
      omega
    have hnp : ∀ k, AL.get s.pending k ≠ some o := by
      intro k hk
      have := cnt_pos hi.nkp hk
      omega
    have hnl : o ∉ s.leaked := List.count_eq_zero.1 hz3
    have hnd : o ∉ s.derefs.erase o := by
      have : (s.derefs.erase o).count o = 0 := by rw [List.count_erase_self]; omega
      exact List.count_eq_zero.1 this
    split at h <;> try (cases h; done)
    rename_i hnf
    cases h
    refine ⟨?_, rfl, fun _ _ _ => hz1⟩
    clear hz1 hz2 hz3 hz4 hzero
    have hrm : o ∉ s.removals := by
      intro hrm
      have := (hi.rem o hrm).1
      rw [hob] at this; cases this
    obtain ⟨nkc, nkr, nko, rowObj, objId, objHash, backD, upl, cont, clean, absent, refc, derefObj, nkp, pendObj, leakObj, upg, upgObj, infl, inflNd, upgUniq, hsh, usr, tran, dl, rem, remNd, uniq, fst, sz⟩ := hi
    constructor
    case nko => exact nko.erase _
    case refc =>
      intro o1 ob1 h1
      rw [AL.get_erase] at h1
      show (ob1.refcount : Int) = cnt s.rows o1 + cnt s.pending o1 + (s.derefs.erase o).count o1 + s.leaked.count o1
      by_cases ho : o1 = o
      · rw [if_pos ho] at h1; cases h1
      · rw [if_neg ho] at h1
        rw [List.count_erase_of_ne ho, refc o1 ob1 h1]
    case derefObj =>
      intro o1 ho1
      have hne : o1 ≠ o := fun he => hnd (he ▸ ho1)
      dsimp only
      rw [AL.get_erase_ne _ hne]
      exact derefObj o1 (List.mem_of_mem_erase ho1)
    case rem =>
      intro o1 ho1
      dsimp only at ho1 ⊢
      have h1 : o1 ∈ s.removals ∨ (o1 = o ∧ ob.uploaded = true) := by
        cases hu : ob.uploaded with
        | true =>
          rw [hu, if_pos rfl] at ho1
          rcases List.mem_cons.1 ho1 with h | h
          · exact Or.inr ⟨h, rfl⟩
          · exact Or.inl h
        | false =>
          rw [hu] at ho1
          exact Or.inl ho1
      rcases h1 with h1 | ⟨h1, hu⟩
      · obtain ⟨a, b, c⟩ := rem o1 h1
        refine ⟨?_, b, c⟩
        rw [AL.get_erase]; split
        · rfl
        · exact a
      · subst h1
        exact ⟨AL.get_erase_self _ _, objId _ _ hob, upl _ _ hob hu⟩
    case remNd =>
      dsimp only
      split
      · exact List.nodup_cons.2 ⟨hrm, remNd⟩
      · exact remNd
    case sz => exact sz
    all_goals (try clear sz refc); gr

theorem inv_delObj {H s m D o s' out} (hi : Inv H s m D) (h : step H s (.delObj o) = some (s', out)) :
    Inv H s' m D := by
  simp only [step] at h
  split at h <;> try (cases h; done)
  rename_i hin
  have hin' : o ∈ s.removals := by simpa using hin
  cases h
  obtain ⟨hno, hid, hb⟩ := hi.rem o hin'
  obtain ⟨nkc, nkr, nko, rowObj, objId, objHash, backD, upl, cont, clean, absent, refc, derefObj, nkp, pendObj, leakObj, upg, upgObj, infl, inflNd, upgUniq, hsh, usr, tran, dl, rem, remNd, uniq, fst, sz⟩ := hi
  constructor
  case refc => exact refc
  case sz => exact sz
  case remNd => exact remNd.erase _
  case rem =>
    intro o1 ho1
    have h1 := (remNd.mem_erase_iff).1 ho1
    obtain ⟨a, b, c⟩ := rem o1 h1.2
    exact ⟨a, b, by dsimp only; rw [upd_ne _ _ h1.1]; exact c⟩
  all_goals (try clear sz refc); gr

theorem inv_copy {H s m D k k' s' out} (hi : Inv H s m D) (h : step H s (.copy k k') = some (s', out)) :
    Inv H s' (upd m k' (rowData D (AL.get s.rows k))) D := by
  simp only [step] at h
  split at h <;> try (cases h; done)
  rename_i o hr hr' hc' hh'
  split at h <;> try (cases h; done)
  rename_i ob hob
  cases h
  obtain ⟨nkc, nkr, nko, rowObj, objId, objHash, backD, upl, cont, clean, absent, refc, derefObj, nkp, pendObj, leakObj, upg, upgObj, infl, inflNd, upgUniq, hsh, usr, tran, dl, rem, remNd, uniq, fst, sz⟩ := hi
  constructor
  case nkr => exact nkr.set _ _
  case nko => exact nko.set _ _
  case sz => exact sz
  case refc =>
    intro o1 ob1 h1
    rw [AL.get_set] at h1
    show (ob1.refcount : Int) = cnt (AL.set s.rows k' o) o1 + cnt s.pending o1 + s.derefs.count o1 + s.leaked.count o1
    rw [cnt_set nkr, hr', if_neg (by simp)]
    by_cases ho : o1 = o
    · rw [if_pos ho] at h1; cases h1
      rw [if_pos ho.symm]
      have := refc o ob hob
      rw [← ho] at this
      dsimp only
      omega
    · rw [if_neg ho] at h1
      rw [if_neg (Ne.symm ho), refc o1 ob1 h1]
      omega
  case rowObj =>
    intro k1 o1 h1
    dsimp only at h1 ⊢
    rw [AL.get_set]
    by_cases ho : o1 = o
    · exact ⟨_, by rw [if_pos ho]⟩
    · rw [if_neg ho]
      clear sz refc; gr
  all_goals (try clear sz refc); gr

end Verif.Cache
