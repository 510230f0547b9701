/-
What a request does not touch: the rows of inodes that the kernel does not know and that it cannot reach in one step.  Used
for the inodes of trees that `copy_tree` is building (fs.py:504-638), which are not linked anywhere yet.
-/
import Verif.Fs.Lock

namespace Verif.Fs

/-- No entry leads into `H` from outside. -/
def NoInto (H : Nat → Prop) (d : Db) : Prop := ∀ p k c, AL.get d.contents (p, k) = some c → ¬H p → ¬H c

/-- The rows of the inodes in `H` are the same in both databases (except for the rows of `names`), and no entry leads into `H` in the second if none does in the first. -/
structure FrD (H : Nat → Prop) (d d' : Db) : Prop where
  ino : ∀ i, H i → AL.get d'.inodes i = AL.get d.inodes i
  con : ∀ i k, H i → AL.get d'.contents (i, k) = AL.get d.contents (i, k)
  xat : ∀ i k, H i → AL.get d'.xattrs (i, k) = AL.get d.xattrs (i, k)
  sym : ∀ i, H i → AL.get d'.symlinks i = AL.get d.symlinks i
  blk : ∀ i b, H i → AL.get d'.blocks (i, b) = AL.get d.blocks (i, b)
  inc : NoInto H d → NoInto H d'

/-- The same with the lookup counts. -/
structure Fr (H : Nat → Prop) (s s' : St) : Prop where
  db : FrD H s.db s'.db
  opn : ∀ i, H i → AL.get s'.opened i = AL.get s.opened i

variable {H : Nat → Prop}

theorem FrD.refl (d : Db) : FrD H d d := ⟨fun _ _ => rfl, fun _ _ _ => rfl, fun _ _ _ => rfl, fun _ _ => rfl, fun _ _ _ => rfl, fun h => h⟩

theorem FrD.trans {a b c : Db} (h : FrD H a b) (h' : FrD H b c) : FrD H a c :=
  ⟨fun i hi => (h'.ino i hi).trans (h.ino i hi), fun i k hi => (h'.con i k hi).trans (h.con i k hi),
    fun i k hi => (h'.xat i k hi).trans (h.xat i k hi), fun i hi => (h'.sym i hi).trans (h.sym i hi),
    fun i k hi => (h'.blk i k hi).trans (h.blk i k hi), fun h0 => h'.inc (h.inc h0)⟩

theorem Fr.refl (s : St) : Fr H s s := ⟨FrD.refl _, fun _ _ => rfl⟩

theorem Fr.trans {a b c : St} (h : Fr H a b) (h' : Fr H b c) : Fr H a c :=
  ⟨h.db.trans h'.db, fun i hi => (h'.opn i hi).trans (h.opn i hi)⟩

/-- Only the database changes. -/
theorem Fr.ofDb {s : St} {d : Db} (h : FrD H s.db d) : Fr H s { s with db := d } := ⟨h, fun _ _ => rfl⟩

theorem FrD.mod {d0 d : Db} (h : FrD H d0 d) {id : Nat} (hn : ¬H id) (f : Inode → Inode) : FrD H d0 (d.modInode id f) := by
  have ⟨_, r2, r3, r4, r5, _⟩ := modInode_rest d id f
  refine h.trans ⟨fun i hi => ?_, fun i k _ => by rw [r2], fun i k _ => by rw [r3], fun i _ => by rw [r4], fun i k _ => by rw [r5], fun h0 => by unfold NoInto; rw [r2]; exact h0⟩
  rw [modInode_get, if_neg (fun e : i = id => hn (e ▸ hi))]

theorem FrD.addName {d0 d : Db} (h : FrD H d0 d) (n : Bytes) : FrD H d0 (d.addName n).1 := by
  have ⟨r1, r2, r3, r4, r5, _⟩ := addName_rest d n
  exact h.trans ⟨fun i _ => by rw [r1], fun i k _ => by rw [r2], fun i k _ => by rw [r3], fun i _ => by rw [r4], fun i k _ => by rw [r5], fun h0 => by unfold NoInto; rw [r2]; exact h0⟩

theorem FrD.delName {d0 d d' : Db} {n : Bytes} {k : Nat} (h : FrD H d0 d) (hd : d.delName n = some (d', k)) : FrD H d0 d' := by
  have ⟨r1, r2, r3, r4, r5, _⟩ := delName_rest hd
  exact h.trans ⟨fun i _ => by rw [r1], fun i k _ => by rw [r2], fun i k _ => by rw [r3], fun i _ => by rw [r4], fun i k _ => by rw [r5], fun h0 => by unfold NoInto; rw [r2]; exact h0⟩

theorem ne_key {p k : Nat} (hn : ¬H p) {i k' : Nat} (hi : H i) : (i, k') ≠ (p, k) := fun e => hn ((Prod.mk.inj e).1 ▸ hi)

theorem FrD.setC {d0 d : Db} (h : FrD H d0 d) {p : Nat} (hn : ¬H p) (k : Nat) {c : Nat} (hc : ¬H c) : FrD H d0 { d with contents := AL.set d.contents (p, k) c } := by
  refine h.trans ⟨fun _ _ => rfl, fun _ _ hi => AL.get_set_ne _ _ (ne_key hn hi), fun _ _ _ => rfl, fun _ _ => rfl, fun _ _ _ => rfl, ?_⟩
  intro h0 p' k' c' hg hp
  simp only [AL.get_set] at hg
  split at hg
  · cases hg; exact hc
  · exact h0 _ _ _ hg hp

theorem FrD.eraseC {d0 d : Db} (h : FrD H d0 d) {p : Nat} (hn : ¬H p) (k : Nat) : FrD H d0 { d with contents := AL.erase d.contents (p, k) } := by
  refine h.trans ⟨fun _ _ => rfl, fun _ _ hi => AL.get_erase_ne _ (ne_key hn hi), fun _ _ _ => rfl, fun _ _ => rfl, fun _ _ _ => rfl, ?_⟩
  intro h0 p' k' c' hg hp
  simp only [AL.get_erase] at hg
  split at hg
  · cases hg
  · exact h0 _ _ _ hg hp

theorem FrD.setX {d0 d : Db} (h : FrD H d0 d) {p : Nat} (hn : ¬H p) (k : Nat) (v : Bytes) : FrD H d0 { d with xattrs := AL.set d.xattrs (p, k) v } :=
  h.trans ⟨fun _ _ => rfl, fun _ _ _ => rfl, fun _ _ hi => AL.get_set_ne _ _ (ne_key hn hi), fun _ _ => rfl, fun _ _ _ => rfl, fun h0 => h0⟩

theorem FrD.eraseX {d0 d : Db} (h : FrD H d0 d) {p : Nat} (hn : ¬H p) (k : Nat) : FrD H d0 { d with xattrs := AL.erase d.xattrs (p, k) } :=
  h.trans ⟨fun _ _ => rfl, fun _ _ _ => rfl, fun _ _ hi => AL.get_erase_ne _ (ne_key hn hi), fun _ _ => rfl, fun _ _ _ => rfl, fun h0 => h0⟩

theorem FrD.setS {d0 d : Db} (h : FrD H d0 d) {id : Nat} (hn : ¬H id) (t : Bytes) : FrD H d0 { d with symlinks := AL.set d.symlinks id t } :=
  h.trans ⟨fun _ _ => rfl, fun _ _ _ => rfl, fun _ _ _ => rfl, fun _ hi => AL.get_set_ne _ _ (fun e => hn (e ▸ hi)), fun _ _ _ => rfl, fun h0 => h0⟩

theorem removeBlocks_other (id lo hi : Nat) : ∀ (bl : List ((Nat × Nat) × Nat)) (obs : List (Nat × Int)) (i b : Nat), i ≠ id →
    AL.get (removeBlocks id lo hi bl obs).1 (i, b) = AL.get bl (i, b)
  | [], _, _, _, _ => rfl
  | ((j, c), o) :: t, obs, i, b, h => by
    unfold removeBlocks
    split
    · rename_i hc
      rw [removeBlocks_other id lo hi t _ i b h]
      have : ¬((j, c) = (i, b)) := fun e => h ((Prod.mk.inj e).1 ▸ hc.1)
      simp [AL.get, this]
    · have ih := removeBlocks_other id lo hi t obs i b h
      simp only [AL.get, ih]

theorem FrD.cacheRemove {d0 d : Db} (h : FrD H d0 d) {id : Nat} (hn : ¬H id) (lo hi : Nat) : FrD H d0 (d.cacheRemove id lo hi) :=
  h.trans ⟨fun _ _ => rfl, fun _ _ _ => rfl, fun _ _ _ => rfl, fun _ _ => rfl,
    fun i b hi' => removeBlocks_other id lo hi _ _ i b (fun e => hn (e ▸ hi')), fun h0 => h0⟩

theorem FrD.purge {d0 d : Db} (h : FrD H d0 d) {id : Nat} (hn : ¬H id) (size m : Nat) : FrD H d0 (d.purge id size m) := by
  refine (h.cacheRemove hn 0 (ceilDiv size m)).trans ?_
  unfold Db.purge
  dsimp only
  refine ⟨fun i hi => AL.get_erase_ne _ (fun e => hn (e ▸ hi)), fun _ _ _ => rfl, fun i k hi => ?_,
    fun i hi => AL.get_erase_ne _ (fun e => hn (e ▸ hi)), fun _ _ _ => rfl, fun h0 => h0⟩
  have hne : ¬(i = id) := fun e => hn (e ▸ hi)
  rw [get_filter_key _ (fun e : Nat × Nat => !(e.1 == id)) (i, k)]
  simp [hne]

theorem Fr.addOpen {s0 s : St} (h : Fr H s0 s) {id : Nat} (hn : ¬H id) (n : Int) : Fr H s0 (s.addOpen id n) :=
  h.trans ⟨FrD.refl _, fun _ hi => AL.get_set_ne _ _ (fun e => hn (e ▸ hi))⟩

theorem Fr.forgetOne {s0 s : St} (h : Fr H s0 s) {id : Nat} (hn : ¬H id) (n : Int) : Fr H s0 (forgetOne s id n).2 := by
  refine h.trans ?_
  unfold Verif.Fs.forgetOne
  dsimp only
  split
  · split
    · exact ⟨FrD.refl _, fun _ hi => AL.get_erase_ne _ (fun e => hn (e ▸ hi))⟩
    · split
      · exact ⟨(FrD.refl _).purge hn _ _, fun _ hi => AL.get_erase_ne _ (fun e => hn (e ▸ hi))⟩
      · exact ⟨FrD.refl _, fun _ hi => AL.get_erase_ne _ (fun e => hn (e ▸ hi))⟩
  · exact ⟨FrD.refl _, fun _ hi => AL.get_set_ne _ _ (fun e => hn (e ▸ hi))⟩

theorem Fr.forget : ∀ {s0 : St} (l : List (Nat × Int)) (s : St), Fr H s0 s → (∀ e ∈ l, ¬H e.1) → Fr H s0 (forget s l).2
  | _, [], _, h, _ => h
  | _, (id, n) :: t, s, h, hl => by
    have h1 := h.forgetOne (hl (id, n) List.mem_cons_self) n
    unfold Verif.Fs.forget
    cases hf : Verif.Fs.forgetOne s id n with
    | mk r s1 =>
      rw [hf] at h1
      cases r with
      | ok u => exact Fr.forget t s1 h1 (fun e he => hl e (List.mem_cons_of_mem _ he))
      | error e => exact h1

theorem Fr.finish {s0 : St} {r : Except Err Unit × St} (h : Fr H s0 r.2) : Fr H s0 (finish r).2 := by
  unfold Verif.Fs.finish
  split
  · exact h
  · exact h

theorem Fr.entryReply {s0 s : St} (h : Fr H s0 s) {id : Nat} (hn : ¬H id) : Fr H s0 (entryReply s id).2 := by
  unfold Verif.Fs.entryReply; dsimp only
  split
  · exact h.addOpen hn 1
  · exact h.addOpen hn 1

theorem Fr.lookup {s : St} {p : Nat} {n : Bytes} (hc : ¬H ctrlInode) (hk : ∀ c, s.db.child p n = some c → ¬H c) :
    Fr H s (lookup s p n).2 ∧ ∀ id, (Verif.Fs.lookup s p n).1 = .ok id → ¬H id := by
  unfold Verif.Fs.lookup
  split
  · split
    · exact ⟨(Fr.refl s).addOpen hc 1, fun id h => by cases h; exact hc⟩
    · exact ⟨Fr.refl s, fun id h => by cases h⟩
  · split
    · exact ⟨Fr.refl s, fun id h => by cases h⟩
    · rename_i id hid
      split
      · exact ⟨(Fr.refl s).addOpen (hk _ hid) 1, fun id h => by cases h; exact hk _ hid⟩
      · exact ⟨Fr.refl s, fun id h => by cases h⟩

theorem Fr.remove {s : St} {p id : Nat} (hp : ¬H p) (hi : ¬H id) (n : Bytes) (force : Bool) (now : Int) : Fr H s (remove s p n id force now).2 := by
  unfold Verif.Fs.remove
  split
  · exact Fr.refl s
  · split
    · exact Fr.refl s
    · split
      · exact Fr.refl s
      · split
        · exact Fr.refl s
        · rename_i db k hd
          have h1 := ((FrD.refl (H := H) s.db).delName hd).eraseC hp k
          dsimp only
          split
          · exact Fr.ofDb h1
          · have h2 := (h1.mod hi (fun i => { i with refcount := i.refcount - 1, ctime := now })).mod hp (touchDir now)
            split
            · exact Fr.ofDb h2
            · split
              · exact Fr.ofDb (h2.purge hi _ _)
              · exact Fr.ofDb h2

theorem Fr.create {s : St} {p : Nat} (hp : ¬H p) (hs : ¬H (s.db.seq + 1)) (n : Bytes) (mode uid gid rdev size : Nat) (now : Int) :
    Fr H s (create s p n mode uid gid rdev size now).2 ∧ ∀ id, (Verif.Fs.create s p n mode uid gid rdev size now).1 = .ok id → ¬H id := by
  unfold Verif.Fs.create
  split
  · exact ⟨Fr.refl s, fun id h => by split at h <;> cases h⟩
  · split
    · exact ⟨Fr.refl s, fun id h => by cases h⟩
    · split
      · exact ⟨Fr.refl s, fun id h => by cases h⟩
      · split
        · exact ⟨Fr.refl s, fun id h => by cases h⟩
        · dsimp only
          have h1 := (FrD.refl (H := H) s.db).mod hp (touchDir now)
          have hseq : (s.db.modInode p (touchDir now)).seq = s.db.seq := (modInode_rest _ _ _).2.2.2.2.2.2
          have hs' : ¬H ((s.db.modInode p (touchDir now)).seq + 1) := by rw [hseq]; exact hs
          have h2 : ∀ ino, FrD H s.db { s.db.modInode p (touchDir now) with seq := (s.db.modInode p (touchDir now)).seq + 1, inodes := AL.set (s.db.modInode p (touchDir now)).inodes ((s.db.modInode p (touchDir now)).seq + 1) ino } :=
            fun ino => h1.trans ⟨fun _ hi => AL.get_set_ne _ _ (fun e => hs' (e ▸ hi)), fun _ _ _ => rfl, fun _ _ _ => rfl, fun _ _ => rfl, fun _ _ _ => rfl, fun h0 => h0⟩
          split
          · exact ⟨Fr.ofDb ((h2 _).addName n), fun id h => by cases h⟩
          · exact ⟨Fr.ofDb (((h2 _).addName n).setC hp _ hs'), fun id h => by cases h; exact hs'⟩

theorem FrD.renameTo {d0 d d' : Db} {po pn : Nat} {no nn : Bytes} {now : Int} (h : FrD H d0 d) (h0 : NoInto H d) (h1 : ¬H po) (h2 : ¬H pn)
    (hr : renameTo d po no pn nn now = some d') : FrD H d0 d' := by
  unfold Verif.Fs.renameTo at hr
  dsimp only at hr
  split at hr
  · cases hr
  · rename_i db2 k hd
    cases hr
    have h3 : FrD H d0 db2 := (h.addName nn).delName hd
    refine FrD.mod (FrD.mod ?_ h1 _) h2 _
    split
    · rename_i c hc
      refine (h3.eraseC h1 k).setC h2 _ ?_
      rw [(delName_rest hd).2.1, (addName_rest _ _).2.1] at hc
      exact h0 _ _ _ hc h1
    · exact h3

theorem Fr.replace {s : St} {po pn idOld idNew : Nat} (h1 : ¬H po) (h2 : ¬H pn) (h3 : ¬H idNew) (h7 : ¬H idOld) (no nn : Bytes) (now : Int) :
    Fr H s (replace s po no pn nn idOld idNew now).2 := by
  unfold Verif.Fs.replace
  split
  · exact Fr.refl s
  · split
    · exact Fr.refl s
    · rename_i k hk
      dsimp only
      have h4 : FrD H s.db (match AL.get s.db.contents (pn, k) with
        | some _ => { s.db with contents := AL.set s.db.contents (pn, k) idOld }
        | none => s.db) := by
        split
        · exact (FrD.refl _).setC h2 _ h7
        · exact FrD.refl _
      split
      · exact Fr.ofDb h4
      · rename_i db2 k2 hd
        have h5 := (h4.delName hd).eraseC h1 k2
        split
        · exact Fr.ofDb h5
        · have h6 := ((h5.mod h3 (fun i => { i with refcount := i.refcount - 1, ctime := now })).mod h1 (touchDir now)).mod h2 (touchDir now)
          split
          · exact Fr.ofDb h6
          · split
            · exact Fr.ofDb (h6.purge h3 _ _)
            · exact Fr.ofDb h6

theorem forgetOk_known : ∀ (l : List (Nat × Int)) (K : Nat → Int), ForgetOk K l → ∀ e ∈ l, 0 < K e.1
  | [], _, _, _, h => by cases h
  | (id, n) :: t, K, h, e, he => by
    rcases List.mem_cons.1 he with he | he
    · subst he
      have h1 := h.1; have h2 := h.2.1
      show 0 < K id
      omega
    · have := forgetOk_known t _ h.2.2 e he
      have h1 := h.1
      split at this <;> omega

/-- The inodes a request may be about are not in `H`. -/
structure Apart (H : Nat → Prop) (s : St) : Prop where
  known : ∀ i, H i → AL.get s.opened i = none
  into : NoInto H s.db
  ctrl : ¬H ctrlInode
  seq : ∀ i, H i → i ≤ s.db.seq

theorem Apart.no {s : St} (h : Apart H s) {i : Nat} (hi : AL.get s.opened i ≠ none) : ¬H i := fun hH => hi (h.known i hH)

theorem Apart.kid {s : St} (h : Apart H s) {p c : Nat} {n : Bytes} (hp : AL.get s.opened p ≠ none) (hc : s.db.child p n = some c) : ¬H c := by
  unfold Db.child at hc
  cases hn : s.db.nameId n with
  | none => rw [hn] at hc; cases hc
  | some k => rw [hn] at hc; exact h.into p k c hc (h.no hp)

theorem Fr.setattr {s : St} {id : Nat} (hi : ¬H id) (at' : SetAttr) (c m : Bool) (now : Int) : Fr H s (opSetattr s id at' c m now).2 := by
  unfold opSetattr
  split
  · exact Fr.refl s
  · rename_i x hx
    split
    · exact Fr.refl s
    · have h1 : ∀ y, FrD H s.db (s.db.modInode id (fun _ => y)) := fun y => (FrD.refl _).mod hi _
      dsimp only
      split
      · exact Fr.ofDb (h1 _)
      · split
        · exact Fr.ofDb (h1 _)
        · split
          · exact Fr.ofDb (h1 _)
          · split
            · exact Fr.ofDb ((h1 _).cacheRemove hi _ _)
            · split
              · exact Fr.ofDb ((h1 _).cacheRemove hi _ _)
              · split
                · exact ⟨(h1 _).cacheRemove hi _ _, fun _ _ => rfl⟩
                · exact Fr.ofDb ((h1 _).cacheRemove hi _ _)

theorem Fr.opOpen {s : St} {id : Nat} (hi : ¬H id) (flags : Nat) (now : Int) : Fr H s (opOpen s id flags now).2 := by
  unfold Verif.Fs.opOpen; dsimp only
  split
  · exact Fr.refl s
  · split
    · exact Fr.refl s
    · split
      · split
        · exact Fr.refl s
        · split
          · have := Fr.setattr (s := s) hi { mtime := some now, size := some 0 } false false now
            split
            · rename_i s1 e; rw [e] at this; exact this
            · rename_i s1 e; rw [e] at this; exact this
          · split
            · exact Fr.refl s
            · exact Fr.refl s
      · exact Fr.refl s

theorem Fr.addOpens {s0 : St} : ∀ (rows : List (Nat × Bytes × Nat)) (s : St), Fr H s0 s → (∀ r ∈ rows, ¬H r.2.2) →
    Fr H s0 (rows.foldl (fun s r => s.addOpen r.2.2 1) s)
  | [], _, h, _ => h
  | r :: t, s, h, hr => Fr.addOpens t (s.addOpen r.2.2 1) (h.addOpen (hr r List.mem_cons_self) 1) (fun e he => hr e (List.mem_cons_of_mem _ he))

/-- The blocks uploaded belong to none of these inodes. -/
def NotUp (H : Nat → Prop) : Op → Prop
  | .upload id _ _ => ¬H id
  | _ => True

set_option maxHeartbeats 1000000 in
/-- A request leaves alone the inodes that the kernel does not know and that are not in directories it knows. -/
theorem step_frame {T : Nat → Prop} {L : Nat → Int} {s : St} {op : Op} (inv : Inv T L s) (ap : Apart H s) (hk : KernelOk s op) (hu : NotUp H op) :
    Fr H s (step s op).2 := by
  have h0 := Fr.refl (H := H) s
  have hseq : ¬H (s.db.seq + 1) := fun h => by have := ap.seq _ h; omega
  cases op with
  | lookup p n =>
    have h1 := Fr.lookup (H := H) (s := s) (p := p) (n := n) ap.ctrl (fun c hc => ap.kid hk hc)
    simp only [step, opLookup]
    cases hl : lookup s p n with
    | mk r s1 =>
      rw [hl] at h1
      cases r with
      | error e => exact h1.1
      | ok id => dsimp only; split <;> exact h1.1
  | getattr id => simp only [step, opGetattr]; split <;> exact h0
  | readlink id now =>
    simp only [step, opReadlink]
    split
    · exact h0
    · split
      · exact Fr.ofDb ((FrD.refl _).mod (ap.no hk) _)
      · exact Fr.ofDb ((FrD.refl _).mod (ap.no hk) _)
  | readdir p off room now =>
    have h1 : Fr H s { s with db := s.db.modInode p (touchAtime now) } := Fr.ofDb ((FrD.refl _).mod (ap.no hk) _)
    simp only [step, opReaddir]
    split
    · exact h0
    · split
      · refine Fr.addOpens _ _ h1 (fun r hr => ?_)
        have hr2 := List.mem_of_mem_take hr
        unfold Db.readdirRows at hr2
        rw [mem_insAll, List.mem_filterMap] at hr2
        obtain ⟨⟨⟨p', k⟩, c⟩, hm, he⟩ := hr2
        rw [(modInode_rest _ _ _).2.1] at hm
        dsimp only at he
        split at he
        · rename_i hp
          have hg := AL.mem_get_some inv.acc.nkC hm
          have : r.2.2 = c := by
            cases hn : AL.get (s.db.modInode p (touchAtime now)).names k with
            | none => rw [hn] at he; cases he
            | some v => rw [hn] at he; cases he; rfl
          rw [this]
          rw [hp.1] at hg
          exact ap.into p k c hg (ap.no hk)
        · cases he
      · exact h1
  | getxattr id n => simp only [step, opGetxattr]; repeat' first | exact h0 | split
  | listxattr id => exact h0
  | setxattr id n v now =>
    simp only [step, opSetxattr]
    split
    · exact h0
    · split
      · exact h0
      · split
        · exact h0
        · split
          · exact h0
          · exact Fr.ofDb ((((FrD.refl _).addName n).setX (ap.no hk) _ v).mod (ap.no hk) _)
  | removexattr id n now =>
    have hk := hk.1
    simp only [step, opRemovexattr]
    split
    · exact h0
    · split
      · exact h0
      · split
        · exact h0
        · split
          · exact h0
          · rename_i db k hd
            have h1 := (FrD.refl (H := H) s.db).delName hd
            split
            · exact Fr.ofDb h1
            · exact Fr.ofDb ((h1.eraseX (ap.no hk) k).mod (ap.no hk) _)
  | unlink p n now =>
    have hp := ap.no hk.1
    have h1 := Fr.lookup (H := H) (s := s) (p := p) (n := n) ap.ctrl (fun c hc => ap.kid hk.1 hc)
    simp only [step, opUnlink]
    split
    · exact h0
    · split
      · rename_i e1; rw [e1] at h1; exact h1.1
      · rename_i id s1 e1
        rw [e1] at h1
        have hid := h1.2 id rfl
        have h1 := h1.1
        split
        · exact h1
        · split
          · exact h1
          · have h2 := h1.trans (Fr.remove (s := s1) hp hid n false now)
            split
            · rename_i e2; rw [e2] at h2; exact h2
            · rename_i e2; rw [e2] at h2
              exact Fr.finish (Fr.forget _ _ h2 (fun e he => by cases List.mem_singleton.1 he; exact hid))
  | rmdir p n now =>
    have hp := ap.no hk.1
    have h1 := Fr.lookup (H := H) (s := s) (p := p) (n := n) ap.ctrl (fun c hc => ap.kid hk.1 hc)
    simp only [step, opRmdir]
    split
    · exact h0
    · split
      · rename_i e1; rw [e1] at h1; exact h1.1
      · rename_i id s1 e1
        rw [e1] at h1
        have hid := h1.2 id rfl
        have h1 := h1.1
        split
        · exact h1
        · split
          · exact h1
          · split
            · exact h1
            · split
              · exact h1
              · have h2 := h1.trans (Fr.remove (s := s1) hp hid n false now)
                split
                · rename_i e2; rw [e2] at h2; exact h2
                · rename_i e2; rw [e2] at h2
                  exact Fr.finish (Fr.forget _ _ h2 (fun e he => by cases List.mem_singleton.1 he; exact hid))
  | mknod p n mode rdev uid gid now =>
    have h1 := Fr.create (s := s) (ap.no hk.1) hseq n mode uid gid rdev 0 now
    simp only [step, opMknod]
    split
    · exact h0
    · split
      · rename_i e1; rw [e1] at h1; exact h1.1
      · rename_i id s1 e1; rw [e1] at h1; exact h1.1.entryReply (h1.2 id rfl)
  | symlink p n t uid gid now =>
    have h1 := Fr.create (s := s) (ap.no hk.1) hseq n symlinkMode uid gid 0 t.length now
    simp only [step, opSymlink]
    split
    · exact h0
    · split
      · rename_i e1; rw [e1] at h1; exact h1.1
      · rename_i id s1 e1; rw [e1] at h1
        exact (h1.1.trans (Fr.ofDb ((FrD.refl _).setS (h1.2 id rfl) t))).entryReply (h1.2 id rfl)
  | link id p n now =>
    have hi := ap.no hk.1
    have hp := ap.no hk.2.1
    have h1 := ((FrD.refl (H := H) s.db).mod hp (touchDir now)).addName n
    simp only [step, opLink]
    split
    · exact h0
    · split
      · exact h0
      · split
        · exact h0
        · split
          · exact h0
          · split
            · exact Fr.ofDb h1
            · split
              · exact Fr.ofDb (h1.setC hp _ hi)
              · exact (Fr.ofDb ((h1.setC hp _ hi).mod hi _)).entryReply hi
  | rename po no pn nn flags now =>
    have hpo := ap.no hk.1
    have hpn := ap.no hk.2.1
    have h1 := Fr.lookup (H := H) (s := s) (p := po) (n := no) ap.ctrl (fun c hc => ap.kid hk.1 hc)
    have hdb := lookup_db s po no
    simp only [step, opRename]
    split
    · exact h0
    · split
      · exact h0
      · split
        · exact h0
        · split
          · exact h0
          · split
            · exact h0
            · split
              · exact h0
              · split
                · exact h0
                · split
                  · rename_i e1; rw [e1] at h1; exact h1.1
                  · rename_i idOld s1 e1
                    rw [e1] at h1 hdb
                    have hid := h1.2 idOld rfl
                    have h1 := h1.1
                    have hdb : s1.db = s.db := hdb
                    have h2 := Fr.lookup (H := H) (s := s1) (p := pn) (n := nn) ap.ctrl (fun c hc => ap.kid hk.2.1 (by rw [hdb] at hc; exact hc))
                    split
                    · rename_i idNew s2 e2
                      rw [e2] at h2
                      have hidn := h2.2 idNew rfl
                      have h3 := (h1.trans h2.1).trans (Fr.replace (s := s2) (idOld := idOld) hpo hpn hidn hid no nn now)
                      split
                      · rename_i e3; rw [e3] at h3; exact h3
                      · rename_i e3; rw [e3] at h3
                        refine Fr.finish (Fr.forget _ _ h3 (fun e he => ?_))
                        rcases List.mem_cons.1 he with rfl | he
                        · exact hid
                        · cases List.mem_singleton.1 he; exact hidn
                    · rename_i s2 e2
                      rw [e2] at h2
                      have h3 := h1.trans h2.1
                      split
                      · exact h3
                      · rename_i db3 e3
                        exact Fr.finish (Fr.forget _ _ (h3.trans (Fr.ofDb ((FrD.refl _).renameTo (h3.db.inc ap.into) hpo hpn e3))) (fun e he => by cases List.mem_singleton.1 he; exact hid))
                    · rename_i s2 _ e2
                      rw [e2] at h2
                      exact h1.trans h2.1
  | setattr id at' c m now => exact Fr.setattr (ap.no hk) at' c m now
  | «open» id flags now => exact Fr.opOpen (ap.no hk) flags now
  | create p n mode flags uid gid now =>
    have h1 := Fr.create (s := s) (ap.no hk) hseq n mode uid gid 0 0 now
    simp only [step, opCreate]
    split
    · exact h0
    · split
      · split
        · rename_i e1; rw [e1] at h1; exact h1.1
        · rename_i id s1 e1; rw [e1] at h1; exact h1.1.entryReply (h1.2 id rfl)
      · rename_i id hid
        have hi := ap.kid hk hid
        have h2 := Fr.opOpen (s := s) hi flags now
        split
        · rename_i e1; rw [e1] at h2; exact h2
        · rename_i e1; rw [e1] at h2; exact h2.entryReply hi
  | read id b now =>
    simp only [step, opRead]
    split
    · exact h0
    · split
      · exact ⟨FrD.refl _, fun _ _ => rfl⟩
      · exact Fr.ofDb ((FrD.refl _).mod (ap.no hk) _)
  | write id off len b now =>
    simp only [step, opWrite]
    split
    · exact h0
    · split
      · exact h0
      · split
        · exact h0
        · split
          · exact ⟨FrD.refl _, fun _ _ => rfl⟩
          · exact Fr.ofDb ((FrD.refl _).mod (ap.no hk) _)
  | forget l =>
    refine Fr.finish (Fr.forget _ _ h0 (fun e he => ?_))
    have := forgetOk_known l _ hk e he
    refine ap.no (fun hn => ?_)
    unfold St.cnt at this
    rw [hn] at this
    exact absurd this (by decide)
  | upload id b o =>
    have hi : ¬H id := hu
    simp only [step, bgUpload]
    split
    · exact h0
    · split
      · split
        · exact h0
        · exact Fr.ofDb ⟨fun _ _ => rfl, fun _ _ _ => rfl, fun _ _ _ => rfl, fun _ _ => rfl, fun i k h => AL.get_set_ne _ _ (ne_key hi h), fun h0 => h0⟩
      · exact h0

end Verif.Fs
