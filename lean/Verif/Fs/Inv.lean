/-
The invariant of the file system state and its preservation by the parts of the operations.
-/
import Verif.Fs.Entry
import Verif.Fs.Spec

namespace Verif.Fs

variable {T : Nat → Prop}

/-- The value of an extended attribute. -/
def Db.xval (db : Db) (i : Nat) (n : Bytes) : Option Bytes := (db.nameId n).bind (fun k => AL.get db.xattrs (i, k))

theorem Acc.xval_iff {m : Nat} {db : Db} {δ L : Nat → Int} (h : Acc T m db δ L) (p : Nat) (n : Bytes) (v : Bytes) :
    db.xval p n = some v ↔ ∃ k, db.nm k = some n ∧ AL.get db.xattrs (p, k) = some v := by
  unfold Db.xval
  constructor
  · intro hc
    cases hf : db.nameId n with
    | none => simp [hf] at hc
    | some k =>
      simp only [hf, Option.bind_some] at hc
      exact ⟨k, (h.nameId_iff n k).1 hf, hc⟩
  · rintro ⟨k, hk, hc⟩
    rw [(h.nameId_iff n k).2 hk]
    simpa using hc

/-- Name ids that are used in both databases stand for the same name. -/
def Compat (db db' : Db) : Prop := ∀ k, db.nm k = db'.nm k ∨ db.nm k = none ∨ db'.nm k = none

theorem Compat.refl (db : Db) : Compat db db := fun _ => Or.inl rfl

theorem xval_of_compat {m : Nat} {db db' : Db} {δ δ' L L' : Nat → Int} (h : Acc T m db δ L) (h' : Acc T m db' δ' L')
    (hL : ∀ k, 0 ≤ L k) (hL' : ∀ k, 0 ≤ L' k) (hc : Compat db db') (i : Nat)
    (hx : ∀ k, AL.get db'.xattrs (i, k) = AL.get db.xattrs (i, k)) (n : Bytes) : db'.xval i n = db.xval i n := by
  apply Option.ext
  intro v
  rw [h.xval_iff, h'.xval_iff]
  constructor
  · rintro ⟨k, hk, hv⟩
    have hv2 := hv
    rw [hx] at hv2
    obtain ⟨x, hx⟩ := h.nm_of_X (hL k) hv2
    refine ⟨k, ?_, hv2⟩
    rcases hc k with h1 | h1 | h1
    · rw [h1]; exact hk
    · rw [hx] at h1; cases h1
    · rw [hk] at h1; cases h1
  · rintro ⟨k, hk, hv⟩
    have hv2 := hv
    rw [← hx] at hv2
    obtain ⟨x, hx⟩ := h'.nm_of_X (hL' k) hv2
    refine ⟨k, ?_, hv2⟩
    rcases hc k with h1 | h1 | h1
    · rw [← h1]; exact hk
    · rw [hk] at h1; cases h1
    · rw [hx] at h1; cases h1

theorem child_of_compat {m : Nat} {db db' : Db} {δ δ' L L' : Nat → Int} (h : Acc T m db δ L) (h' : Acc T m db' δ' L')
    (hL : ∀ k, 0 ≤ L k) (hL' : ∀ k, 0 ≤ L' k) (hc : Compat db db') (hcon : db'.contents = db.contents) (p : Nat) (n : Bytes) :
    db'.child p n = db.child p n := by
  apply Option.ext
  intro v
  rw [h.child_iff, h'.child_iff]
  constructor
  · rintro ⟨k, hk, hv⟩
    have hv2 := hv
    rw [hcon] at hv2
    obtain ⟨x, hx⟩ := h.nm_of_C (hL k) hv2
    refine ⟨k, ?_, hv2⟩
    rcases hc k with h1 | h1 | h1
    · rw [h1]; exact hk
    · rw [hx] at h1; cases h1
    · rw [hk] at h1; cases h1
  · rintro ⟨k, hk, hv⟩
    have hv2 := hv
    rw [← hcon] at hv2
    obtain ⟨x, hx⟩ := h'.nm_of_C (hL' k) hv2
    refine ⟨k, ?_, hv2⟩
    rcases hc k with h1 | h1 | h1
    · rw [← h1]; exact hk
    · rw [hk] at h1; cases h1
    · rw [hx] at h1; cases h1

theorem Compat.of_names {db db' : Db} (h : db'.names = db.names) : Compat db db' := by
  intro k; left; unfold Db.nm; rw [h]

theorem Acc.compat_add {m : Nat} {db : Db} {δ L : Nat → Int} (h : Acc T m db δ L) (n : Bytes) : Compat db (db.addName n).1 := by
  obtain ⟨h1, h2, h3, _⟩ := h.nm_addName n
  intro k
  by_cases hk : k = (db.addName n).2
  · rcases h3 with h3 | h3
    · right; left; rw [hk]; exact h3
    · left; rw [hk, h3, h1]
  · left; rw [h2 k hk]

theorem Acc.compat_del {m : Nat} {db db' : Db} {δ L : Nat → Int} (h : Acc T m db δ L) {n : Bytes} {i : Nat}
    (hd : db.delName n = some (db', i)) : Compat db db' := by
  obtain ⟨h1, h2, h3⟩ := h.nm_delName hd
  intro k
  by_cases hk : k = i
  · subst hk
    rcases h3 with h3 | h3
    · left; rw [h1, h3]
    · right; right; exact h3
  · left; rw [h2 k hk]

theorem Acc.compat_purge {m : Nat} {db : Db} {L : Nat → Int} (h : Acc T m db (fun _ => 0) L) (id size m' : Nat) :
    Compat db (db.purge id size m') := by
  intro k
  rcases h.purge_nm id size m' k with h1 | h1
  · left; exact h1.symm
  · right; right; exact h1

/-! #### The invariant -/

/-- `L k` counts the references of name `k` that are recorded in excess (see `setxattr`). -/
structure Inv (T : Nat → Prop) (L : Nat → Int) (s : St) : Prop where
  acc : Acc T s.maxObj s.db (fun _ => 0) L
  mpos : 0 < s.maxObj
  Lnn : ∀ k, 0 ≤ L k
  nkOp : AL.NK s.opened
  opn : ∀ i c, AL.get s.opened i = some c → AL.get s.db.inodes i ≠ none ∧ 0 < c
  zero : ∀ i ino, AL.get s.db.inodes i = some ino → ino.refcount = 0 → AL.get s.opened i ≠ none ∨ T i
  hid : ∀ t, T t → AL.get s.opened t = none ∧ AL.get s.db.inodes t ≠ none ∧ s.db.rc t = 0

theorem Inv.rc_nonneg {L : Nat → Int} {s : St} (h : Inv T L s) (i : Nat) : 0 ≤ s.db.rc i := by
  have := h.acc.rc i
  have h2 := links_nonneg s.db i
  have h3 : 0 ≤ base i := by unfold base; split; · omega
                             split <;> omega
  omega

theorem Inv.zero0 {L : Nat → Int} {s : St} (h : Inv NoT L s) (i : Nat) (ino : Inode) (hi : AL.get s.db.inodes i = some ino)
    (h0 : ino.refcount = 0) : AL.get s.opened i ≠ none := (h.zero i ino hi h0).resolve_right id

theorem Inv.child_pos {L : Nat → Int} {s : St} (h : Inv T L s) {p : Nat} {n : Bytes} {c : Nat} (hc : s.db.child p n = some c) :
    0 < s.db.rc c ∧ AL.get s.db.inodes c ≠ none ∧ (0 < s.db.rc p ∨ T p) ∧ AL.get s.db.inodes p ≠ none := by
  obtain ⟨k, _, hk⟩ := (h.acc.child_iff _ _ _).1 hc
  have h1 := h.acc.rc c
  have h2 := links_pos hk
  have h3 : 0 ≤ base c := by unfold base; split; · omega
                             split <;> omega
  have h4 := h.acc.par _ _ _ hk
  have h5 : 0 < s.db.rc c := by omega
  refine ⟨h5, rc_pos_ne h5, h4, ?_⟩
  rcases h4 with h4 | h4
  · exact rc_pos_ne h4
  · exact (h.hid p h4).2.1

theorem Inv.notT_rc {L : Nat → Int} {s : St} (h : Inv T L s) {i : Nat} (hi : 0 < s.db.rc i) : ¬T i := by
  intro ht; have := (h.hid i ht).2.2; omega

theorem Inv.notT_child {L : Nat → Int} {s : St} (h : Inv T L s) {p : Nat} {n : Bytes} {c : Nat} (hc : s.db.child p n = some c) : ¬T c :=
  h.notT_rc (h.child_pos hc).1

theorem Inv.notT_open {L : Nat → Int} {s : St} (h : Inv T L s) {i : Nat} (hi : AL.get s.opened i ≠ none) : ¬T i :=
  fun ht => hi (h.hid i ht).1

theorem Inv.notT_base {L : Nat → Int} {s : St} (h : Inv T L s) {i : Nat} (hi : 0 < base i) : ¬T i := by
  refine h.notT_rc ?_
  have := h.acc.rc i
  have := links_nonneg s.db i
  omega

theorem Inv.hid_of {L : Nat → Int} {s : St} (h : Inv T L s) {db' : Db} {o' : List (Nat × Int)} (ho : ∀ t, T t → AL.get o' t = none)
    (hi : ∀ t i, T t → AL.get s.db.inodes t = some i → ∃ j, AL.get db'.inodes t = some j ∧ j.refcount = i.refcount) :
    ∀ t, T t → AL.get o' t = none ∧ AL.get db'.inodes t ≠ none ∧ db'.rc t = 0 := by
  intro t ht
  obtain ⟨_, h2, h3⟩ := h.hid t ht
  obtain ⟨i, hi'⟩ := Option.ne_none_iff_exists'.1 h2
  obtain ⟨j, hj, hr⟩ := hi t i ht hi'
  refine ⟨ho t ht, by rw [hj]; simp, ?_⟩
  rw [← h3]
  unfold Db.rc
  rw [hj, hi']; simp [hr]

/-! #### Lookups -/

theorem Inv.addOpen {L : Nat → Int} {s : St} (h : Inv T L s) {id : Nat} {n : Int} (hi : AL.get s.db.inodes id ≠ none) (hn : 0 < n) (ht : ¬T id) :
    Inv T L (s.addOpen id n) := by
  refine ⟨h.acc, h.mpos, h.Lnn, h.nkOp.set _ _, ?_, ?_, ?_⟩
  · intro i c hc
    simp only [St.addOpen, AL.get_set] at hc
    split at hc
    · rename_i he; subst he
      refine ⟨hi, ?_⟩
      cases ho : AL.get s.opened i with
      | none => simp [ho] at hc; omega
      | some c' => have := (h.opn _ _ ho).2; simp [ho] at hc; omega
    · exact h.opn _ _ hc
  · intro i ino hino hz
    simp only [St.addOpen, AL.get_set]
    split
    · simp
    · exact h.zero _ _ hino hz
  · intro t hT
    have h1 := h.hid t hT
    refine ⟨?_, h1.2⟩
    simp only [St.addOpen, AL.get_set]
    rw [if_neg (by rintro rfl; exact ht hT)]
    exact h1.1

/-- The lookup count of an inode; 0 if it is not known to the kernel. -/
def St.cnt (s : St) (i : Nat) : Int := (AL.get s.opened i).getD 0

theorem cnt_addOpen (s : St) (id : Nat) (n : Int) (i : Nat) : (s.addOpen id n).cnt i = s.cnt i + if i = id then n else 0 := by
  simp only [St.cnt, St.addOpen, AL.get_set]
  split
  · rename_i h; subst h; simp
  · simp

theorem Inv.cnt_nonneg {L : Nat → Int} {s : St} (h : Inv T L s) (i : Nat) : 0 ≤ s.cnt i := by
  unfold St.cnt
  cases ho : AL.get s.opened i with
  | none => simp
  | some c => have := (h.opn _ _ ho).2; simp; omega

theorem Inv.cnt_pos_iff {L : Nat → Int} {s : St} (h : Inv T L s) (i : Nat) : 0 < s.cnt i ↔ AL.get s.opened i ≠ none := by
  unfold St.cnt
  cases ho : AL.get s.opened i with
  | none => simp
  | some c => have := (h.opn _ _ ho).2; simp; omega

/-- Result of `lookup`: the id, and a state in which only the lookup count of that inode is one higher. -/
theorem lookup_spec {L : Nat → Int} {s : St} (h : Inv T L s) (p : Nat) (n : Bytes) :
    (∃ e, lookup s p n = (.error e, s) ∧ (n ≠ ctrlName → e = .ENOENT ∧ s.db.child p n = none)) ∨
    (∃ id, lookup s p n = (.ok id, s.addOpen id 1) ∧ AL.get s.db.inodes id ≠ none ∧ Inv T L (s.addOpen id 1) ∧
      (n ≠ ctrlName → s.db.child p n = some id) ∧ (n = ctrlName → id = ctrlInode)) := by
  unfold lookup
  by_cases hn : n = ctrlName
  · simp only [hn, if_true]
    cases hg : AL.get s.db.inodes ctrlInode with
    | none => left; exact ⟨_, rfl, fun h => absurd rfl h⟩
    | some v =>
      right; exact ⟨_, rfl, by simp [hg], h.addOpen (by simp [hg]) (by omega) (h.notT_base (by decide)), fun h => absurd rfl h, fun _ => rfl⟩
  · simp only [hn, if_false]
    cases hc : s.db.child p n with
    | none => left; exact ⟨_, rfl, fun _ => ⟨rfl, rfl⟩⟩
    | some id =>
      have := (h.child_pos hc).2.1
      cases hg : AL.get s.db.inodes id with
      | none => exact absurd hg this
      | some v =>
        right; exact ⟨id, by simp [hg], this, h.addOpen this (by omega) (h.notT_child hc), fun _ => rfl, fun h => h.elim⟩

/-! #### Forgetting -/

/-- What `forget` may do to the rest of the state: it removes inodes without links. -/
structure Fgt (s s' : St) : Prop where
  child : ∀ p n, s'.db.child p n = s.db.child p n
  inode : ∀ i, AL.get s'.db.inodes i = AL.get s.db.inodes i ∨
    (AL.get s'.db.inodes i = none ∧ s.db.rc i = 0 ∧ AL.get s'.opened i = none)
  xval : ∀ i n, AL.get s'.db.inodes i ≠ none → s'.db.xval i n = s.db.xval i n
  sym : ∀ i, AL.get s'.db.inodes i ≠ none → AL.get s'.db.symlinks i = AL.get s.db.symlinks i
  blk : ∀ i b, AL.get s'.db.inodes i ≠ none → AL.get s'.db.blocks (i, b) = AL.get s.db.blocks (i, b)
  opened : ∀ i, AL.get s'.opened i = none ∨ AL.get s.opened i ≠ none
  fs : s'.failsafe = s.failsafe
  mx : s'.maxObj = s.maxObj
  sq : s'.db.seq = s.db.seq
  con : s'.db.contents = s.db.contents

theorem Fgt.refl (s : St) : Fgt s s :=
  ⟨fun _ _ => rfl, fun _ => Or.inl rfl, fun _ _ _ => rfl, fun _ _ => rfl, fun _ _ _ => rfl,
    fun i => by by_cases h : AL.get s.opened i = none <;> simp [h], rfl, rfl, rfl, rfl⟩

theorem rc_of_get_eq {db db' : Db} {i : Nat} (h : AL.get db'.inodes i = AL.get db.inodes i) : db'.rc i = db.rc i := by
  unfold Db.rc; rw [h]

theorem Fgt.trans {s1 s2 s3 : St} (h1 : Fgt s1 s2) (h2 : Fgt s2 s3) : Fgt s1 s3 := by
  have hmono : ∀ i, AL.get s3.db.inodes i ≠ none → AL.get s2.db.inodes i ≠ none := by
    intro i hi
    rcases h2.inode i with h | h
    · rw [← h]; exact hi
    · exact absurd h.1 hi
  refine ⟨?_, ?_, ?_, ?_, ?_, ?_, ?_, ?_, ?_, ?_⟩
  · intro p n; rw [h2.child, h1.child]
  · intro i
    rcases h2.inode i with h | h
    · rcases h1.inode i with h' | h'
      · left; rw [h, h']
      · right
        refine ⟨by rw [h]; exact h'.1, h'.2.1, ?_⟩
        rcases h2.opened i with h3 | h3
        · exact h3
        · exact absurd h'.2.2 h3
    · rcases h1.inode i with h' | h'
      · right; refine ⟨h.1, ?_, h.2.2⟩
        rw [← rc_of_get_eq h']; exact h.2.1
      · right; refine ⟨h.1, h'.2.1, h.2.2⟩
  · intro i n hi; rw [h2.xval i n hi, h1.xval i n (hmono i hi)]
  · intro i hi; rw [h2.sym i hi, h1.sym i (hmono i hi)]
  · intro i b hi; rw [h2.blk i b hi, h1.blk i b (hmono i hi)]
  · intro i
    rcases h2.opened i with h | h
    · left; exact h
    · rcases h1.opened i with h' | h'
      · exact absurd h' h
      · right; exact h'
  · rw [h2.fs, h1.fs]
  · rw [h2.mx, h1.mx]
  · rw [h2.sq, h1.sq]
  · rw [h2.con, h1.con]

theorem purge_blocks_other {m : Nat} {db : Db} {δ L : Nat → Int} (h : Acc T m db δ L) (id size m' : Nat) (i b : Nat) (hi : i ≠ id) :
    AL.get (db.purge id size m').blocks (i, b) = AL.get db.blocks (i, b) := by
  have := (h.cacheRemove id 0 (ceilDiv size m')).2 i b
  rw [if_neg (by intro h; exact hi h.1)] at this
  exact this

/-- Purging an inode without links and lookups. -/
theorem purge_inv {L : Nat → Int} {s : St} (hacc : Acc T s.maxObj s.db (fun _ => 0) L) (hm : 0 < s.maxObj) (hL : ∀ k, 0 ≤ L k)
    (hnk : AL.NK s.opened)
    {id : Nat} {ino : Inode} (hi : AL.get s.db.inodes id = some ino) (hr : ino.refcount = 0) (ho : AL.get s.opened id = none)
    (hopn : ∀ i c, AL.get s.opened i = some c → AL.get s.db.inodes i ≠ none ∧ 0 < c)
    (hz : ∀ i ino, i ≠ id → AL.get s.db.inodes i = some ino → ino.refcount = 0 → AL.get s.opened i ≠ none ∨ T i)
    (hT : ∀ t, T t → t ≠ id ∧ AL.get s.opened t = none ∧ AL.get s.db.inodes t ≠ none ∧ s.db.rc t = 0) :
    Inv T L { s with db := s.db.purge id ino.size s.maxObj } ∧ Fgt s { s with db := s.db.purge id ino.size s.maxObj } := by
  have hrest := purge_rest s.db id ino.size s.maxObj
  have hp := hacc.purge hL hm hi hr
  refine ⟨⟨hp, hm, hL, hnk, ?_, ?_, ?_⟩, ⟨?_, ?_, ?_, ?_, ?_, ?_, rfl, rfl, rfl, rfl⟩⟩
  · intro i c hc
    have := hopn i c hc
    refine ⟨?_, this.2⟩
    show AL.get (s.db.purge id ino.size s.maxObj).inodes i ≠ none
    rw [hrest.2.2, if_neg]
    · exact this.1
    · rintro rfl; rw [ho] at hc; cases hc
  · intro i ino' hi' hz'
    have hi2 : AL.get (s.db.purge id ino.size s.maxObj).inodes i = some ino' := hi'
    rw [hrest.2.2] at hi2
    split at hi2
    · cases hi2
    · rename_i hne; exact hz i ino' hne hi2 hz'
  · intro t ht
    obtain ⟨h1, h2, h3, h4⟩ := hT t ht
    have he : AL.get (s.db.purge id ino.size s.maxObj).inodes t = AL.get s.db.inodes t := by rw [hrest.2.2, if_neg h1]
    refine ⟨h2, ?_, ?_⟩
    · show AL.get (s.db.purge id ino.size s.maxObj).inodes t ≠ none
      rw [he]; exact h3
    · exact (rc_of_get_eq he).trans h4
  · intro p n; exact hacc.purge_child hL hm hi hr p n
  · intro i
    show AL.get (s.db.purge id ino.size s.maxObj).inodes i = _ ∨ AL.get (s.db.purge id ino.size s.maxObj).inodes i = _ ∧ _
    rw [hrest.2.2]
    split
    · rename_i he; subst he
      right; exact ⟨rfl, by simp [Db.rc, hi, hr], ho⟩
    · left; rfl
  · intro i n hi'
    have hi2 : AL.get (s.db.purge id ino.size s.maxObj).inodes i ≠ none := hi'
    rw [hrest.2.2] at hi2
    split at hi2
    · exact absurd rfl hi2
    · rename_i hne
      refine xval_of_compat hacc hp hL hL (hacc.compat_purge _ _ _) i ?_ n
      intro k
      rw [purge_xattrs, if_neg hne]
  · intro i hi'
    have hi2 : AL.get (s.db.purge id ino.size s.maxObj).inodes i ≠ none := hi'
    rw [hrest.2.2] at hi2
    split at hi2
    · exact absurd rfl hi2
    · rename_i hne
      show AL.get (s.db.purge id ino.size s.maxObj).symlinks i = _
      rw [purge_symlinks, if_neg hne]
  · intro i b hi'
    have hi2 : AL.get (s.db.purge id ino.size s.maxObj).inodes i ≠ none := hi'
    rw [hrest.2.2] at hi2
    split at hi2
    · exact absurd rfl hi2
    · rename_i hne
      exact purge_blocks_other hacc _ _ _ _ _ hne
  · intro i
    show AL.get s.opened i = none ∨ _
    by_cases h : AL.get s.opened i = none <;> simp [h]

theorem forgetOne_spec {L : Nat → Int} {s : St} (h : Inv T L s) {id : Nat} {n : Int} (hn : 0 < n) (hc : n ≤ s.cnt id) :
    ∃ s', forgetOne s id n = (.ok (), s') ∧ Inv T L s' ∧ Fgt s s' ∧ ∀ i, s'.cnt i = s.cnt i - if i = id then n else 0 := by
  unfold forgetOne
  have hop : AL.get s.opened id ≠ none := (h.cnt_pos_iff id).1 (by omega)
  obtain ⟨c, hcc⟩ := Option.ne_none_iff_exists'.1 hop
  have hcnt : s.cnt id = c := by simp [St.cnt, hcc]
  have hex := (h.opn _ _ hcc).1
  dsimp only
  split
  · rename_i hz
    obtain ⟨ino, hino⟩ := Option.ne_none_iff_exists'.1 hex
    simp only [hino]
    have hopn : ∀ i c, AL.get (AL.erase s.opened id) i = some c → AL.get s.db.inodes i ≠ none ∧ 0 < c := by
      intro i c' hc'
      rw [AL.get_erase] at hc'
      split at hc'
      · cases hc'
      · exact h.opn _ _ hc'
    have hcnt' : ∀ (db : Db) i, ({ s with db := db, opened := AL.erase s.opened id } : St).cnt i = s.cnt i - if i = id then n else 0 := by
      intro db i
      simp only [St.cnt, AL.get_erase] at *
      split
      · rename_i he; subst he; simp only [hcc, Option.getD_some, Option.getD_none] at *; omega
      · omega
    split
    · rename_i hr
      have hp := purge_inv (s := { s with opened := AL.erase s.opened id }) h.acc h.mpos h.Lnn (h.nkOp.erase _) hino hr
        (by simp [AL.get_erase]) hopn (by
          intro i ino' hne hi' hz'
          show AL.get (AL.erase s.opened id) i ≠ none ∨ T i
          rw [AL.get_erase, if_neg hne]
          exact h.zero _ _ hi' hz') (by
          intro t ht
          have h1 := h.hid t ht
          refine ⟨by rintro rfl; exact hop h1.1, ?_, h1.2⟩
          show AL.get (AL.erase s.opened id) t = none
          rw [AL.get_erase]; split
          · rfl
          · exact h1.1)
      refine ⟨_, rfl, hp.1, ?_, hcnt' _⟩
      have f1 : Fgt s { s with opened := AL.erase s.opened id } := by
        refine ⟨fun _ _ => rfl, fun _ => Or.inl rfl, fun _ _ _ => rfl, fun _ _ => rfl, fun _ _ _ => rfl, ?_, rfl, rfl, rfl, rfl⟩
        intro i
        simp only [AL.get_erase]
        split
        · left; rfl
        · by_cases h : AL.get s.opened i = none <;> simp [h]
      exact f1.trans hp.2
    · rename_i hr
      refine ⟨_, rfl, ⟨h.acc, h.mpos, h.Lnn, h.nkOp.erase _, hopn, ?_, ?_⟩, ?_, hcnt' _⟩
      · intro i ino' hi' hz'
        show AL.get (AL.erase s.opened id) i ≠ none ∨ T i
        rw [AL.get_erase, if_neg]
        · exact h.zero _ _ hi' hz'
        · rintro rfl; rw [hino] at hi'; cases hi'; exact hr hz'
      · intro t ht
        have h1 := h.hid t ht
        refine ⟨?_, h1.2⟩
        show AL.get (AL.erase s.opened id) t = none
        rw [AL.get_erase]; split
        · rfl
        · exact h1.1
      · refine ⟨fun _ _ => rfl, fun _ => Or.inl rfl, fun _ _ _ => rfl, fun _ _ => rfl, fun _ _ _ => rfl, ?_, rfl, rfl, rfl, rfl⟩
        intro i
        simp only [AL.get_erase]
        split
        · left; rfl
        · by_cases h : AL.get s.opened i = none <;> simp [h]
  · rename_i hz
    refine ⟨_, rfl, ⟨h.acc, h.mpos, h.Lnn, h.nkOp.set _ _, ?_, ?_, ?_⟩, ?_, ?_⟩
    · intro i c' hc'
      simp only [AL.get_set] at hc'
      split at hc'
      · rename_i he; subst he
        simp only [hcc, Option.getD_some, Option.some.injEq] at hc' hz
        exact ⟨hex, by omega⟩
      · exact h.opn _ _ hc'
    · intro i ino' hi' hz'
      simp only [AL.get_set]
      split
      · simp
      · exact h.zero _ _ hi' hz'
    · intro t ht
      have h1 := h.hid t ht
      refine ⟨?_, h1.2⟩
      simp only [AL.get_set]
      rw [if_neg (by rintro rfl; exact hop h1.1)]
      exact h1.1
    · refine ⟨fun _ _ => rfl, fun _ => Or.inl rfl, fun _ _ _ => rfl, fun _ _ => rfl, fun _ _ _ => rfl, ?_, rfl, rfl, rfl, rfl⟩
      intro i
      simp only [AL.get_set]
      split
      · rename_i he; subst he; right; exact hop
      · by_cases h : AL.get s.opened i = none <;> simp [h]
    · intro i
      simp only [St.cnt, AL.get_set]
      split
      · rename_i he; subst he; simp
      · simp

def forgetSum : List (Nat × Int) → Nat → Int
  | [], _ => 0
  | (id, n) :: t, i => (if i = id then n else 0) + forgetSum t i

theorem forgetSum_eq : ∀ (l : List (Nat × Int)) (i : Nat), forgetSum l i = ((l.filter (fun e => e.1 == i)).map (·.2)).sum
  | [], _ => rfl
  | (id, n) :: t, i => by
    simp only [forgetSum, forgetSum_eq t i]
    by_cases h : id = i
    · rw [List.filter_cons_of_pos (by simp [h]), if_pos h.symm]; simp
    · rw [List.filter_cons_of_neg (by simp [h]), if_neg (fun e => h e.symm)]; simp

theorem forget_spec {L : Nat → Int} : ∀ (l : List (Nat × Int)) {s : St}, Inv T L s → ForgetOk s.cnt l →
    ∃ s', forget s l = (.ok (), s') ∧ Inv T L s' ∧ Fgt s s' ∧ ∀ i, s'.cnt i = s.cnt i - forgetSum l i
  | [], s, h, _ => ⟨s, rfl, h, Fgt.refl s, fun i => by simp [forgetSum]⟩
  | (id, n) :: t, s, h, hf => by
    obtain ⟨s1, e1, h1, f1, c1⟩ := forgetOne_spec h hf.1 hf.2.1
    have hf2 : ForgetOk s1.cnt t := by
      have : s1.cnt = fun i => s.cnt i - if i = id then n else 0 := funext c1
      rw [this]; exact hf.2.2
    obtain ⟨s2, e2, h2, f2, c2⟩ := forget_spec t h1 hf2
    refine ⟨s2, ?_, h2, f1.trans f2, ?_⟩
    · simp only [forget, e1]; exact e2
    · intro i; rw [c2, c1]; simp only [forgetSum]; omega

end Verif.Fs
