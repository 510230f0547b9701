/-
Directory listings in several requests (C25).
-/
import Verif.Fs.Props

namespace Verif.Fs

/-! #### Specification -/

/-- The offset to continue from after a reply. -/
def lastOff (l : List (Bytes × Nat × Nat)) (off : Nat) : Nat :=
  match l.getLast? with
  | some e => e.2.2
  | none => off

/-- A listing of the directory `p` in progress, during which the name `n` exists all the time: `off` is the offset to continue from, `acc` are the
entries returned so far.  Between the parts, other requests are handled. -/
inductive Listing (p : Nat) (n : Bytes) : St → (Nat → Int) → Nat → List (Bytes × Nat × Nat) → Prop
  | start {repl fail : Bool} {s : St} {K : Nat → Int} : Hist repl fail s K → seenEntry s p n ≠ none → Listing p n s K 0 []
  | other {s : St} {K : Nat → Int} {off : Nat} {acc : List (Bytes × Nat × Nat)} (op : Op) : Listing p n s K off acc →
      Req K s op → Handled s op → seenEntry (step s op).2 p n ≠ none →
      Listing p n (step s op).2 (fun i => K i + kernelDelta op (step s op).1 i) off acc
  | part {s : St} {K : Nat → Int} {off : Nat} {acc : List (Bytes × Nat × Nat)} (room : Nat) (now : Int) {l : List (Bytes × Nat × Nat)} :
      Listing p n s K off acc → 0 < K p → (step s (.readdir p off room now)).1 = .ok (.dir l) →
      Listing p n (step s (.readdir p off room now)).2 (fun i => K i + kernelDelta (.readdir p off room now) (.ok (.dir l)) i)
        (lastOff l off) (acc ++ l)

/-! #### Ids of names do not change -/

abbrev Names := List (Nat × (Bytes × Int))

/-- Every pair of id and name was there before. -/
def NSub (l' l : Names) : Prop := ∀ e ∈ l', ∃ f ∈ l, f.1 = e.1 ∧ f.2.1 = e.2.1

/-- Or it is for a name that was not. -/
def NExt (l' l : Names) (n0 : Bytes) : Prop := ∀ e ∈ l', (∃ f ∈ l, f.1 = e.1 ∧ f.2.1 = e.2.1) ∨ (e.2.1 = n0 ∧ ∀ f ∈ l, f.2.1 ≠ n0)

theorem NSub.refl (l : Names) : NSub l l := fun e he => ⟨e, he, rfl, rfl⟩

theorem NSub.trans {l3 l2 l1 : Names} (h : NSub l3 l2) (h' : NSub l2 l1) : NSub l3 l1 := by
  intro e he
  obtain ⟨f, hf, h1, h2⟩ := h e he
  obtain ⟨g, hg, h3, h4⟩ := h' f hf
  exact ⟨g, hg, h3.trans h1, h4.trans h2⟩

theorem NSub.ext {l' l : Names} (h : NSub l' l) (n0 : Bytes) : NExt l' l n0 := fun e he => Or.inl (h e he)

theorem NExt.sub {l3 l2 l1 : Names} {n0 : Bytes} (h : NSub l3 l2) (h' : NExt l2 l1 n0) : NExt l3 l1 n0 := by
  intro e he
  obtain ⟨f, hf, h1, h2⟩ := h e he
  rcases h' f hf with ⟨g, hg, h3, h4⟩ | ⟨h3, h4⟩
  · exact Or.inl ⟨g, hg, h3.trans h1, h4.trans h2⟩
  · exact Or.inr ⟨h2.symm.trans h3, h4⟩

theorem findName_mem : ∀ {l : Names} {n : Bytes} {i : Nat} {r : Int}, findName l n = some (i, r) → (i, (n, r)) ∈ l
  | [], _, _, _, h => by cases h
  | (j, (m, q)) :: t, n, i, r, h => by
    unfold findName at h
    split at h
    · rename_i e; cases h; subst e; simp
    · exact List.mem_cons_of_mem _ (findName_mem h)

theorem findName_not : ∀ {l : Names} {n : Bytes}, findName l n = none → ∀ f ∈ l, f.2.1 ≠ n
  | [], _, _, f, hf => by cases hf
  | (j, (m, q)) :: t, n, h, f, hf => by
    unfold findName at h
    split at h
    · cases h
    · rename_i e
      rcases List.mem_cons.1 hf with rfl | hf
      · exact e
      · exact findName_not h f hf

theorem mem_AL_set {κ ν : Type} [DecidableEq κ] : ∀ {l : List (κ × ν)} {k : κ} {v : ν} {e : κ × ν}, e ∈ AL.set l k v → e = (k, v) ∨ e ∈ l
  | [], k, v, e, h => by simpa [AL.set] using h
  | (k', v') :: t, k, v, e, h => by
    unfold AL.set at h
    split at h
    · rcases List.mem_cons.1 h with h | h
      · exact Or.inl h
      · exact Or.inr (by simp [h])
    · rcases List.mem_cons.1 h with h | h
      · exact Or.inr (by simp [h])
      · rcases mem_AL_set h with h | h
        · exact Or.inl h
        · exact Or.inr (by simp [h])

theorem addName_ext (db : Db) (n : Bytes) : NExt (db.addName n).1.names db.names n := by
  unfold Db.addName
  cases h : findName db.names n with
  | none =>
    intro e he
    rcases mem_AL_set he with rfl | he
    · exact Or.inr ⟨rfl, findName_not h⟩
    · exact Or.inl ⟨e, he, rfl, rfl⟩
  | some x =>
    obtain ⟨i, r⟩ := x
    intro e he
    rcases mem_AL_set he with rfl | he
    · exact Or.inl ⟨_, findName_mem h, rfl, rfl⟩
    · exact Or.inl ⟨e, he, rfl, rfl⟩

theorem delName_sub {db db' : Db} {n : Bytes} {i : Nat} (hd : db.delName n = some (db', i)) : NSub db'.names db.names := by
  unfold Db.delName at hd
  cases h : findName db.names n with
  | none => rw [h] at hd; cases hd
  | some x =>
    obtain ⟨j, r⟩ := x
    rw [h] at hd
    simp only at hd
    split at hd
    · cases hd
      intro e he
      rcases mem_AL_set he with rfl | he
      · exact ⟨_, findName_mem h, rfl, rfl⟩
      · exact ⟨e, he, rfl, rfl⟩
    · cases hd
      intro e he
      simp only at he
      rw [AL.erase_eq_filter] at he
      exact ⟨e, (List.mem_filter.1 he).1, rfl, rfl⟩

theorem purge_sub (db : Db) (id size m : Nat) : NSub (db.purge id size m).names db.names := by
  intro e he
  have he : e ∈ purgeNames db.names (xattrNames (db.cacheRemove id 0 (ceilDiv size m)).xattrs id) := he
  generalize xattrNames (db.cacheRemove id 0 (ceilDiv size m)).xattrs id = xs at he
  have he := (List.mem_filter.1 he).1
  obtain ⟨f, hf, rfl⟩ := List.mem_map.1 he
  by_cases hx : f.1 ∈ xs
  · exact ⟨f, hf, by rw [if_pos hx], by rw [if_pos hx]⟩
  · exact ⟨f, hf, by rw [if_neg hx], by rw [if_neg hx]⟩

theorem modInode_names (db : Db) (id : Nat) (f : Inode → Inode) : (db.modInode id f).names = db.names := (modInode_rest db id f).1

theorem forgetOne_sub (s : St) (id : Nat) (n : Int) : NSub (forgetOne s id n).2.db.names s.db.names := by
  unfold forgetOne
  dsimp only
  split
  · split
    · exact NSub.refl _
    · split
      · exact purge_sub _ _ _ _
      · exact NSub.refl _
  · exact NSub.refl _

theorem forget_sub : ∀ (l : List (Nat × Int)) (s : St), NSub (forget s l).2.db.names s.db.names
  | [], _ => NSub.refl _
  | (id, n) :: t, s => by
    have h1 := forgetOne_sub s id n
    unfold forget
    cases h : forgetOne s id n with
    | mk r s1 =>
      rw [h] at h1
      cases r with
      | error e => exact h1
      | ok u => exact (forget_sub t s1).trans h1

theorem finish_snd (r : Except Err Unit × St) : (finish r).2 = r.2 := by
  obtain ⟨r, s⟩ := r; cases r <;> rfl

theorem remove_sub (s : St) (p : Nat) (n : Bytes) (id : Nat) (force : Bool) (now : Int) : NSub (remove s p n id force now).2.db.names s.db.names := by
  unfold remove
  split
  · exact NSub.refl _
  split
  · exact NSub.refl _
  split
  · exact NSub.refl _
  split
  · exact NSub.refl _
  rename_i db k hd
  have h1 := delName_sub hd
  dsimp only
  split
  · exact h1
  split
  · simp only [modInode_names]; exact h1
  split
  · refine (purge_sub _ _ _ _).trans ?_
    simp only [modInode_names]; exact h1
  · simp only [modInode_names]; exact h1

theorem lookup_db (s : St) (p : Nat) (n : Bytes) : (lookup s p n).2.db = s.db := by
  unfold lookup
  repeat' first | rfl | split

theorem create_ext (s : St) (p : Nat) (n : Bytes) (mode uid gid rdev size : Nat) (now : Int) :
    NExt (create s p n mode uid gid rdev size now).2.db.names s.db.names n := by
  unfold create
  split
  · exact (NSub.refl _).ext _
  split
  · exact (NSub.refl _).ext _
  split
  · exact (NSub.refl _).ext _
  split
  · exact (NSub.refl _).ext _
  dsimp only
  generalize hX : Db.addName _ n = e
  have h1 : NExt e.1.names s.db.names n := by
    rw [← hX]
    have h0 : ∀ db : Db, db.names = s.db.names → NExt (db.addName n).1.names s.db.names n := fun db h => h ▸ addName_ext db n
    exact h0 _ (modInode_names _ _ _)
  split
  · exact h1
  · exact h1

/-- The second half of `replace`. -/
def replaceTail (s : St) (db : Db) (po : Nat) (no : Bytes) (pn idNew : Nat) (now : Int) : Except Err Unit × St :=
  match db.delName no with
  | none => (.error .crash, { s with db := db })
  | some (db, nidOld) =>
    let db := { db with contents := AL.erase db.contents (po, nidOld) }
    match AL.get db.inodes idNew with
    | none => (.error .crash, { s with db := db })
    | some _ =>
      let db := db.modInode idNew (fun i => { i with refcount := i.refcount - 1, ctime := now })
      let db := (db.modInode po (touchDir now)).modInode pn (touchDir now)
      let s := { s with db := db }
      match AL.get db.inodes idNew with
      | none => (.error .crash, s)
      | some i =>
        if i.refcount = 0 ∧ AL.get s.opened idNew = none then
          (.ok (), { s with db := db.purge idNew i.size s.maxObj })
        else (.ok (), s)

theorem replaceTail_sub (s : St) (d : Db) (po : Nat) (no : Bytes) (pn idNew : Nat) (now : Int) :
    NSub (replaceTail s d po no pn idNew now).2.db.names d.names := by
  unfold replaceTail
  split
  · exact NSub.refl _
  rename_i db k2 hd
  have h1 := delName_sub hd
  dsimp only
  split
  · exact h1
  split
  · simp only [modInode_names]; exact h1
  split
  · refine (purge_sub _ _ _ _).trans ?_
    simp only [modInode_names]; exact h1
  · simp only [modInode_names]; exact h1

theorem replace_sub (s : St) (po : Nat) (no : Bytes) (pn : Nat) (nn : Bytes) (idOld idNew : Nat) (now : Int) :
    NSub (replace s po no pn nn idOld idNew now).2.db.names s.db.names := by
  unfold replace
  split
  · exact NSub.refl _
  split
  · exact NSub.refl _
  rename_i k _
  have key : ∀ d : Db, d.names = s.db.names → NSub (replaceTail s d po no pn idNew now).2.db.names s.db.names := by
    intro d hd
    rw [← hd]; exact replaceTail_sub _ _ _ _ _ _ _
  cases hg : AL.get s.db.contents (pn, k) with
  | none => exact key _ rfl
  | some c => exact key _ rfl

theorem renameTo_ext {db db' : Db} {po pn : Nat} {no nn : Bytes} {now : Int} (h : renameTo db po no pn nn now = some db') : NExt db'.names db.names nn := by
  unfold renameTo at h
  have h1 := addName_ext db nn
  generalize db.addName nn = e at *
  obtain ⟨db1, k⟩ := e
  simp only at h h1
  split at h
  · cases h
  · rename_i db2 k2 hd
    have h2 := delName_sub hd
    cases h
    simp only [modInode_names]
    split
    · exact NExt.sub h2 h1
    · exact NExt.sub h2 h1

theorem entryReply_db (s : St) (id : Nat) : (entryReply s id).2.db = s.db := by
  unfold entryReply; dsimp only; split <;> rfl

theorem setattr_names (s : St) (id : Nat) (a : SetAttr) (c m : Bool) (now : Int) : (opSetattr s id a c m now).2.db.names = s.db.names := by
  unfold opSetattr
  split
  · rfl
  split
  · rfl
  dsimp only
  split
  · exact modInode_names _ _ _
  split
  · exact modInode_names _ _ _
  split
  · exact modInode_names _ _ _
  split
  · exact modInode_names _ _ _
  split
  · exact modInode_names _ _ _
  split
  · exact modInode_names _ _ _
  · exact modInode_names _ _ _

theorem open_names (s : St) (id flags : Nat) (now : Int) : (opOpen s id flags now).2.db.names = s.db.names := by
  unfold opOpen
  dsimp only
  split
  · rfl
  split
  · rfl
  split
  · split
    · rfl
    split
    · have := setattr_names s id { mtime := some now, size := some 0 } false false now
      split <;> (rename_i h; rw [h] at this; exact this)
    · split <;> rfl
  · rfl

/-- No request changes the id of a name. -/
theorem step_names (s : St) (op : Op) : ∃ n0, NExt (step s op).2.db.names s.db.names n0 := by
  have same : ∀ {s' : St}, s'.db.names = s.db.names → ∃ n0, NExt s'.db.names s.db.names n0 :=
    fun h => ⟨[], by rw [h]; exact (NSub.refl _).ext _⟩
  have sub : ∀ {s' : St}, NSub s'.db.names s.db.names → ∃ n0, NExt s'.db.names s.db.names n0 := fun h => ⟨[], h.ext _⟩
  cases op with
  | lookup p n =>
    apply same
    have := lookup_db s p n
    simp only [step, opLookup]
    split
    · rename_i h; rw [h] at this; split <;> (simp only at this ⊢; rw [this])
    · rename_i h; rw [h] at this; simp only at this ⊢; rw [this]
  | getattr => apply same; simp only [step, opGetattr]; split <;> rfl
  | readlink =>
    apply same; simp only [step, opReadlink]; split
    · rfl
    · split <;> exact modInode_names _ _ _
  | readdir p off room now =>
    apply same; simp only [step, opReaddir]; split
    · rfl
    · split
      · have : ∀ (rows : List (Nat × Bytes × Nat)) (s : St), (rows.foldl (fun s r => s.addOpen r.2.2 1) s).db = s.db := by
          intro rows; induction rows with
          | nil => intro s; rfl
          | cons r t ih => intro s; rw [List.foldl_cons, ih]; rfl
        rw [this]; exact modInode_names _ _ _
      · exact modInode_names _ _ _
  | getxattr => apply same; simp only [step, opGetxattr]; split; rfl; split <;> rfl
  | listxattr => exact same rfl
  | setxattr id n v now =>
    simp only [step, opSetxattr]
    split
    · exact same rfl
    split
    · exact same rfl
    split
    · exact same rfl
    split
    · exact same rfl
    refine ⟨n, ?_⟩
    simp only [modInode_names]
    exact addName_ext _ _
  | removexattr id n now =>
    simp only [step, opRemovexattr]
    split
    · exact same rfl
    split
    · exact same rfl
    split
    · exact same rfl
    split
    · exact same rfl
    rename_i db k hd
    apply sub
    split
    · exact delName_sub hd
    · simp only [modInode_names]; exact delName_sub hd
  | unlink p n now =>
    simp only [step, opUnlink]
    split
    · exact same rfl
    have hl := lookup_db s p n
    split
    · rename_i h; rw [h] at hl; apply same; simp only at hl ⊢; rw [hl]
    · rename_i id s1 h
      rw [h] at hl
      simp only at hl
      split
      · apply same; simp only; rw [hl]
      split
      · apply same; simp only; rw [hl]
      have hr := remove_sub s1 p n id false now
      apply sub
      split
      · rename_i h; rw [h] at hr; simp only at hr ⊢; rw [← hl]; exact hr
      · rename_i h; rw [h] at hr; rw [finish_snd, ← hl]; exact (forget_sub _ _).trans hr
  | rmdir p n now =>
    simp only [step, opRmdir]
    split
    · exact same rfl
    have hl := lookup_db s p n
    split
    · rename_i h; rw [h] at hl; apply same; simp only at hl ⊢; rw [hl]
    · rename_i id s1 h
      rw [h] at hl
      simp only at hl
      split
      · apply same; simp only; rw [hl]
      split
      · apply same; simp only; rw [hl]
      split
      · apply same; simp only; rw [hl]
      split
      · apply same; simp only; rw [hl]
      have hr := remove_sub s1 p n id false now
      apply sub
      split
      · rename_i h; rw [h] at hr; simp only at hr ⊢; rw [← hl]; exact hr
      · rename_i h; rw [h] at hr; rw [finish_snd, ← hl]; exact (forget_sub _ _).trans hr
  | mknod p n mode rdev uid gid now =>
    simp only [step, opMknod]
    split
    · exact same rfl
    have hc := create_ext s p n mode uid gid rdev 0 now
    refine ⟨n, ?_⟩
    split
    · rename_i h; rw [h] at hc; exact hc
    · rename_i h; rw [h] at hc; rw [entryReply_db]; exact hc
  | symlink p n t uid gid now =>
    simp only [step, opSymlink]
    split
    · exact same rfl
    have hc := create_ext s p n symlinkMode uid gid 0 t.length now
    refine ⟨n, ?_⟩
    split
    · rename_i h; rw [h] at hc; exact hc
    · rename_i h; rw [h] at hc; rw [entryReply_db]; exact hc
  | link id p n now =>
    simp only [step, opLink]
    split
    · exact same rfl
    split
    · exact same rfl
    split
    · exact same rfl
    split
    · exact same rfl
    refine ⟨n, ?_⟩
    have h1 := addName_ext (s.db.modInode p (touchDir now)) n
    rw [modInode_names] at h1
    generalize (s.db.modInode p (touchDir now)).addName n = e at *
    obtain ⟨db1, k⟩ := e
    simp only at h1 ⊢
    split
    · exact h1
    split
    · exact h1
    rw [entryReply_db]
    simp only [modInode_names]; exact h1
  | rename po no pn nn flags now =>
    simp only [step, opRename]
    split
    · exact same rfl
    split
    · exact same rfl
    split
    · exact same rfl
    split
    · exact same rfl
    split
    · exact same rfl
    split
    · exact same rfl
    split
    · exact same rfl
    have hl := lookup_db s po no
    split
    · rename_i h; rw [h] at hl; apply same; simp only at hl ⊢; rw [hl]
    rename_i idOld s1 h
    rw [h] at hl
    simp only at hl
    have hl2 := lookup_db s1 pn nn
    split
    · rename_i idNew s2 h2
      rw [h2] at hl2
      simp only at hl2
      have hr := replace_sub s2 po no pn nn idOld idNew now
      apply sub
      split
      · rename_i h; rw [h] at hr; simp only at hr ⊢; rw [← hl, ← hl2]; exact hr
      · rename_i h; rw [h] at hr; rw [finish_snd, ← hl, ← hl2]; exact (forget_sub _ _).trans hr
    · rename_i s2 h2
      rw [h2] at hl2
      simp only at hl2
      split
      · apply same; simp only; rw [hl2, hl]
      · rename_i db hdb
        refine ⟨nn, ?_⟩
        have h3 := renameTo_ext hdb
        rw [finish_snd, ← hl, ← hl2]
        exact NExt.sub (forget_sub _ _) h3
    · rename_i h2
      rw [h2] at hl2
      simp only at hl2
      apply same; simp only; rw [hl2, hl]
  | setattr id a c m now => exact same (setattr_names s id a c m now)
  | «open» id flags now => exact same (open_names s id flags now)
  | create p n mode flags uid gid now =>
    simp only [step, opCreate]
    split
    · exact same rfl
    split
    · have hc := create_ext s p n mode uid gid 0 0 now
      refine ⟨n, ?_⟩
      split
      · rename_i h; rw [h] at hc; exact hc
      · rename_i h; rw [h] at hc; rw [entryReply_db]; exact hc
    · rename_i id _
      have ho := open_names s id flags now
      apply same
      split
      · rename_i h; rw [h] at ho; exact ho
      · rename_i h; rw [h] at ho; rw [entryReply_db]; exact ho
  | read id b now =>
    apply same; simp only [step, opRead]; split
    · rfl
    · split
      · rfl
      · exact modInode_names _ _ _
  | write id off len b now =>
    apply same; simp only [step, opWrite]; split
    · rfl
    split
    · rfl
    split
    · rfl
    split
    · rfl
    · exact modInode_names _ _ _
  | forget l => apply sub; simp only [step]; rw [finish_snd]; exact forget_sub _ _
  | upload id b o =>
    apply same; simp only [step, bgUpload]; split
    · rfl
    split
    · split <;> rfl
    · rfl

/-- The id of a name that exists before and after a request is the same. -/
theorem nameId_stable {m m' : Nat} {δ δ' L L' : Nat → Int} {s : St} {op : Op} (h : Acc NoT m s.db δ L) (_h' : Acc NoT m' (step s op).2.db δ' L') {n : Bytes} {k k' : Nat}
    (h1 : s.db.nm k = some n) (h2 : (step s op).2.db.nm k' = some n) : k' = k := by
  obtain ⟨n0, hx⟩ := step_names s op
  obtain ⟨r, hr⟩ := nm_some.1 h1
  obtain ⟨r', hr'⟩ := nm_some.1 h2
  rcases hx _ (AL.get_some_mem hr') with ⟨f, hf, e1, e2⟩ | ⟨e1, e2⟩
  · obtain ⟨fk, fn, fr⟩ := f
    simp only at e1 e2
    subst e1 e2
    exact h.nuniq _ _ _ _ _ (AL.mem_get_some h.nkN hf) hr
  · exact absurd e1.symm (by simpa using fun e => e2 _ (AL.get_some_mem hr) e.symm)

/-! #### Order of the rows -/

/-- Ordered by the first component, without duplicates. -/
def Asc : List (Nat × Bytes × Nat) → Prop
  | [] => True
  | e :: t => (∀ f ∈ t, e.1 < f.1) ∧ Asc t

theorem Asc.ins {e : Nat × Bytes × Nat} : ∀ {l : List (Nat × Bytes × Nat)}, Asc l → (∀ f ∈ l, f.1 ≠ e.1) → Asc (insByKey e l)
  | [], _, _ => ⟨by simp, trivial⟩
  | f :: t, h, hne => by
    unfold insByKey
    split
    · rename_i hle
      refine ⟨?_, h⟩
      intro g hg
      have h1 := hne f (by simp)
      rcases List.mem_cons.1 hg with rfl | hg
      · omega
      · have := h.1 g hg; omega
    · rename_i hle
      refine ⟨?_, Asc.ins h.2 (fun g hg => hne g (by simp [hg]))⟩
      intro g hg
      rcases (mem_insByKey _ _ _).1 hg with rfl | hg
      · omega
      · exact h.1 g hg

theorem Asc.all : ∀ {l : List (Nat × Bytes × Nat)}, (l.map (·.1)).Nodup → Asc (l.foldr insByKey [])
  | [], _ => trivial
  | e :: t, h => by
    rw [List.map_cons, List.nodup_cons] at h
    refine Asc.ins (Asc.all h.2) ?_
    intro f hf he
    exact h.1 (List.mem_map.2 ⟨f, (mem_insAll f t).1 hf, he⟩)

theorem readdirRows_asc {m : Nat} {db : Db} {δ L : Nat → Int} (h : Acc NoT m db δ L) (p : Nat) (keep : Nat → Bool) : Asc (db.readdirRows p keep) := by
  apply Asc.all
  have hn := h.nkC
  unfold AL.NK at hn
  generalize db.contents = l at *
  induction l with
  | nil => simp
  | cons e t ih =>
    rw [List.map_cons, List.nodup_cons] at hn
    rw [List.filterMap_cons]
    have ih' := ih hn.2
    by_cases hc : e.1.1 = p ∧ keep e.1.2 = true
    · rw [if_pos hc]
      cases hg : AL.get db.names e.1.2 with
      | none => exact ih'
      | some v =>
        simp only [Option.map_some, List.map_cons, List.nodup_cons]
        refine ⟨?_, ih'⟩
        rw [List.mem_map]
        rintro ⟨x, hx, hxe⟩
        obtain ⟨f, hf, hfe⟩ := List.mem_filterMap.1 hx
        split at hfe
        · rename_i hc2
          cases hg2 : AL.get db.names f.1.2 with
          | none => rw [hg2] at hfe; cases hfe
          | some w =>
            rw [hg2] at hfe
            simp only [Option.map_some, Option.some.injEq] at hfe
            subst hfe
            simp only at hxe
            apply hn.1
            rw [show e.1 = f.1 from Prod.ext (by rw [hc.1, hc2.1]) hxe.symm]
            exact List.mem_map_of_mem hf
        · cases hfe
    · rw [if_neg hc]; exact ih'

theorem Asc.take : ∀ {l : List (Nat × Bytes × Nat)} (r : Nat), Asc l → Asc (l.take r)
  | [], r, _ => by simp [Asc]
  | e :: t, 0, _ => by simp [Asc]
  | e :: t, r + 1, h => by
    rw [List.take_succ_cons]
    exact ⟨fun f hf => h.1 f (List.mem_of_mem_take hf), Asc.take r h.2⟩

/-- A row is among the first `r` exactly if it is not after the last of these. -/
theorem Asc.mem_take : ∀ {l : List (Nat × Bytes × Nat)} (r : Nat), Asc l → ∀ x ∈ l,
    (x ∈ l.take r ↔ ∃ z ∈ (l.take r).getLast?, x.1 ≤ z.1)
  | [], r, _, x, hx => by cases hx
  | e :: t, 0, _, x, hx => by simp
  | e :: t, r + 1, h, x, hx => by
    rw [List.take_succ_cons]
    cases ht : t.take r with
    | nil =>
      simp only [List.mem_singleton, List.getLast?_singleton, Option.mem_def, Option.some.injEq, exists_eq_left']
      constructor
      · rintro rfl; exact Nat.le_refl _
      · intro hle
        rcases List.mem_cons.1 hx with rfl | hx
        · rfl
        · have := h.1 x hx; omega
    | cons f u =>
      rw [List.getLast?_cons_cons, ← ht]
      rcases List.mem_cons.1 hx with rfl | hx
      · simp only [List.mem_cons, true_or, true_iff]
        have hne : t.take r ≠ [] := by rw [ht]; simp
        refine ⟨(t.take r).getLast hne, List.getLast?_eq_some_getLast hne, ?_⟩
        exact Nat.le_of_lt (h.1 _ (List.mem_of_mem_take (List.getLast_mem hne)))
      · rw [← Asc.mem_take r h.2 x hx, List.mem_cons]
        constructor
        · rintro (h1 | h1)
          · have := h.1 _ hx; rw [h1] at this; omega
          · exact h1
        · exact Or.inr

theorem Asc.last_max : ∀ {l : List (Nat × Bytes × Nat)}, Asc l → ∀ x ∈ l, ∀ z ∈ l.getLast?, x.1 ≤ z.1
  | [], _, x, hx, _, _ => by cases hx
  | [e], _, x, hx, z, hz => by simp at hx hz; subst hx hz; exact Nat.le_refl _
  | e :: f :: t, h, x, hx, z, hz => by
    rw [List.getLast?_cons_cons] at hz
    rcases List.mem_cons.1 hx with rfl | hx
    · exact Nat.le_of_lt (h.1 z (List.mem_of_getLast? hz))
    · exact Asc.last_max h.2 x hx z hz

/-- A name occurs at most once. -/
theorem Asc.count {l : List (Nat × Bytes × Nat)} (h : Asc l) {k : Nat} {n : Bytes} (hk : ∀ x ∈ l, x.2.1 = n ↔ x.1 = k) (hx : ∃ x ∈ l, x.1 = k) :
    (l.filter (fun e => e.2.1 == n)).length = 1 := by
  induction l with
  | nil => obtain ⟨x, hx, _⟩ := hx; cases hx
  | cons e t ih =>
    by_cases he : e.1 = k
    · rw [List.filter_cons_of_pos (by simpa using (hk e (by simp)).2 he)]
      have : t.filter (fun e => e.2.1 == n) = [] := by
        rw [List.filter_eq_nil_iff]
        intro f hf hfn
        have h1 := (hk f (by simp [hf])).1 (by simpa using hfn)
        have := h.1 f hf
        omega
      rw [this]; rfl
    · rw [List.filter_cons_of_neg (by simpa using fun hx => he ((hk e (by simp)).1 hx))]
      refine ih h.2 (fun x hx => hk x (by simp [hx])) ?_
      obtain ⟨x, hx, hxk⟩ := hx
      rcases List.mem_cons.1 hx with rfl | hx
      · exact absurd hxk he
      · exact ⟨x, hx, hxk⟩

/-! #### The invariant of listings -/

/-- How often a name occurs in a reply. -/
def occ (n : Bytes) (l : List (Bytes × Nat × Nat)) : Nat := (l.filter (fun e => e.1 == n)).length

/-- One part of a listing. -/
theorem readdir_part {L : Nat → Int} {s : St} (h : Inv NoT L s) {p : Nat} (hk : Known s p) {off room : Nat} {now : Int} {l : List (Bytes × Nat × Nat)}
    (hr : (step s (.readdir p off room now)).1 = .ok (.dir l)) {n : Bytes} {k c : Nat} (hn : s.db.nm k = some n) (hc : AL.get s.db.contents (p, k) = some c) :
    (occ n l = if (off = 0 ∨ off < k + 3) ∧ k + 3 ≤ lastOff l off then 1 else 0) ∧ (off ≤ lastOff l off) ∧
    (l = [] → 0 < room → off ≠ 0 ∧ k + 3 ≤ off) ∧ (step s (.readdir p off room now)).2.db.names = s.db.names ∧
    (step s (.readdir p off room now)).2.db.contents = s.db.contents ∧ (off = 0 → lastOff l off = 0 → l = []) := by
  obtain ⟨ip, hip⟩ := h.known_ex hk
  simp only [step, opReaddir, hip] at hr ⊢
  have hcut := cut_mod h p (touchAtime now) (touchAtime_rc now) (fun i => by rw [touchAtime_size]; exact Nat.le_refl _)
  have hacc := hcut.inv.acc
  have hnames : (s.db.modInode p (touchAtime now)).names = s.db.names := modInode_names _ _ _
  have hcons : (s.db.modInode p (touchAtime now)).contents = s.db.contents := (modInode_rest _ _ _).2.1
  generalize hdb : s.db.modInode p (touchAtime now) = db at *
  simp only at hacc
  have hn' : db.nm k = some n := by unfold Db.nm at hn ⊢; rw [hnames]; exact hn
  have hc' : AL.get db.contents (p, k) = some c := by rw [hcons]; exact hc
  split at hr
  case isFalse => cases hr
  rename_i hall
  simp only [hall, if_true]
  simp only [Except.ok.injEq, Reply.dir.injEq] at hr
  have hdb2 : ∀ rows : List (Nat × Bytes × Nat), (rows.foldl (fun s r => s.addOpen r.2.2 1) ({ s with db := db } : St)).db = db := by
    intro rows
    generalize ht : ({ s with db := db } : St) = t
    have : t.db = db := by rw [← ht]
    clear ht
    induction rows generalizing t with
    | nil => exact this
    | cons r u ih => rw [List.foldl_cons]; exact ih _ this
  rw [hdb2]
  have hasc := readdirRows_asc hacc p (fun i => off = 0 || decide (off < i + 3))
  have hmem := mem_readdirRows hacc p (fun i => off = 0 || decide (off < i + 3))
  generalize db.readdirRows p (fun i => off = 0 || decide (off < i + 3)) = rows at *
  have hlast : lastOff l off = match (rows.take room).getLast? with | some z => z.1 + 3 | none => off := by
    rw [← hr]
    unfold lastOff
    rw [List.getLast?_map]
    cases (rows.take room).getLast? <;> rfl
  have hocc : occ n l = ((rows.take room).filter (fun e => e.2.1 == n)).length := by
    rw [← hr]; unfold occ
    rw [List.filter_map, List.length_map]; rfl
  have hname : ∀ x ∈ rows, x.2.1 = n ↔ x.1 = k := by
    intro x hx
    have hx' := ((hmem x).1 hx).2.1
    constructor
    · intro e; rw [e] at hx'; exact hacc.nm_inj hx' hn'
    · intro e; rw [e, hn'] at hx'; simpa using hx'.symm
  have hkeep : (k, n, c) ∈ rows ↔ (off = 0 ∨ off < k + 3) := by
    rw [hmem]; simp [hc', hn']
  have hge : ∀ x ∈ rows, off = 0 ∨ off < x.1 + 3 := by
    intro x hx
    have := ((hmem x).1 hx).2.2
    simpa using this
  refine ⟨?_, ?_, ?_, hnames, hcons, ?_⟩
  · rw [hocc]
    by_cases hin : off = 0 ∨ off < k + 3
    · have hrow := hkeep.2 hin
      have ht := Asc.mem_take room hasc _ hrow
      by_cases htk : (k, n, c) ∈ rows.take room
      · obtain ⟨z, hz, hle⟩ := ht.1 htk
        have hz' : (rows.take room).getLast? = some z := hz
        rw [hz'] at hlast
        simp only at hlast hle
        rw [if_pos ⟨hin, by omega⟩]
        exact Asc.count (hasc.take room) (fun x hx => hname x (List.mem_of_mem_take hx)) ⟨_, htk, rfl⟩
      · have hnl : ¬((off = 0 ∨ off < k + 3) ∧ k + 3 ≤ lastOff l off) := by
          rintro ⟨_, hle⟩
          apply htk
          apply ht.2
          cases hz : (rows.take room).getLast? with
          | none =>
            rw [hz] at hlast; simp only at hlast
            omega
          | some z =>
            rw [hz] at hlast; simp only at hlast
            exact ⟨z, rfl, by show k ≤ z.1; omega⟩
        rw [if_neg hnl]
        rw [List.length_eq_zero_iff, List.filter_eq_nil_iff]
        intro x hx hxn
        apply htk
        have hxr := List.mem_of_mem_take hx
        have e1 := (hname x hxr).1 (by simpa using hxn)
        have e2 := ((hmem x).1 hxr).1
        have e3 := ((hmem x).1 hxr).2.1
        rw [e1, hc'] at e2
        rw [e1, hn'] at e3
        have : x = (k, n, c) := by
          obtain ⟨a, b, d⟩ := x
          simp only [Option.some.injEq] at e1 e2 e3
          simp [e1, e2, e3]
        rw [← this]; exact hx
    · rw [if_neg (fun h => hin h.1)]
      rw [List.length_eq_zero_iff, List.filter_eq_nil_iff]
      intro x hx hxn
      have hxr := List.mem_of_mem_take hx
      have e1 := (hname x hxr).1 (by simpa using hxn)
      have := hge x hxr
      rw [e1] at this
      exact hin this
  · rw [hlast]
    cases hz : (rows.take room).getLast? with
    | none => exact Nat.le_refl _
    | some z =>
      have := hge z (List.mem_of_mem_take (List.mem_of_getLast? hz))
      simp only; omega
  · intro hl hroom
    rw [hl] at hr
    have hr' : rows.take room = [] := by simpa using hr
    have : rows = [] := by
      cases rows with
      | nil => rfl
      | cons a b =>
        cases room with
        | zero => omega
        | succ r => simp at hr'
    have hno : ¬(off = 0 ∨ off < k + 3) := by rw [← hkeep, this]; simp
    omega
  · intro h0 hlz
    rw [hlast] at hlz
    cases hz : (rows.take room).getLast? with
    | none =>
      rw [List.getLast?_eq_none_iff] at hz
      rw [← hr, hz]; rfl
    | some z => rw [hz] at hlz; simp only at hlz; omega

theorem Listing.inv {p : Nat} {n : Bytes} (hn : n ≠ ctrlName) {s : St} {K : Nat → Int} {off : Nat} {acc : List (Bytes × Nat × Nat)} (h : Listing p n s K off acc) :
    ∃ L k c, Good true true s K L ∧ s.db.nm k = some n ∧ AL.get s.db.contents (p, k) = some c ∧
      occ n acc = if k + 3 ≤ off then 1 else 0 := by
  induction h with
  | start h he =>
    obtain ⟨L, g⟩ := h.good
    rw [seenEntry_eq g.inv, if_neg hn] at he
    obtain ⟨c, hc⟩ := Option.ne_none_iff_exists'.1 he
    obtain ⟨k, h1, h2⟩ := (g.inv.acc.child_iff p n c).1 hc
    exact ⟨L, k, c, ⟨g.inv, g.res, Bool.noConfusion, g.le, Bool.noConfusion⟩, h1, h2, by simp [occ]⟩
  | @other s K off acc op hl hq hh he ih =>
    obtain ⟨L, k, c, g, h1, h2, h3⟩ := ih
    obtain ⟨L', hf, _⟩ := step_eff g.inv (kernelOk_of g.inv g.res g.le hq hh)
    rw [seenEntry_eq hf.inv, if_neg hn] at he
    obtain ⟨c', hc'⟩ := Option.ne_none_iff_exists'.1 he
    obtain ⟨k', h1', h2'⟩ := (hf.inv.acc.child_iff p n c').1 hc'
    have := nameId_stable g.inv.acc hf.inv.acc h1 h1'
    subst this
    refine ⟨L', k', c', ⟨hf.inv, g.res.step g.inv hf, Bool.noConfusion, ?_, Bool.noConfusion⟩, h1', h2', h3⟩
    intro i
    have := (hf.cnt i).1
    have := g.le i
    omega
  | @part s K off acc room now l hl hK hr ih =>
    obtain ⟨L, k, c, g, h1, h2, h3⟩ := ih
    have hkn : Known s p := (g.inv.cnt_pos_iff p).1 (by have := g.le p; omega)
    obtain ⟨h4, h5, _, h6, h7, _⟩ := readdir_part g.inv hkn hr h1 h2
    obtain ⟨L', hf, _⟩ := step_eff g.inv (op := .readdir p off room now) hkn
    refine ⟨L', k, c, ⟨hf.inv, g.res.step g.inv hf, Bool.noConfusion, ?_, Bool.noConfusion⟩, ?_, ?_, ?_⟩
    · intro i
      have h8 := (hf.cnt i).1
      rw [hr] at h8
      have := g.le i
      omega
    · unfold Db.nm at h1 ⊢; rw [h6]; exact h1
    · rw [h7]; exact h2
    · have e : occ n (acc ++ l) = occ n acc + occ n l := by unfold occ; rw [List.filter_append, List.length_append]
      rw [e, h3, h4]
      by_cases a1 : k + 3 ≤ off
      · rw [if_pos a1, if_neg (by omega), if_pos (by omega)]
      · rw [if_neg a1]
        by_cases a2 : k + 3 ≤ lastOff l off
        · rw [if_pos ⟨by omega, a2⟩, if_pos a2]
        · rw [if_neg (fun h => a2 h.2), if_neg a2]

/-! #### C25 -/

/-- C25: a name that exists all the time is never returned twice, -/
theorem listing_at_most_once {p : Nat} {n : Bytes} (hn : n ≠ ctrlName) {s : St} {K : Nat → Int} {off : Nat} {acc : List (Bytes × Nat × Nat)}
    (h : Listing p n s K off acc) : occ n acc ≤ 1 := by
  obtain ⟨L, k, c, _, _, _, h3⟩ := h.inv hn
  rw [h3]; split <;> omega

/-- and exactly once when the end is reached (the reply to a request with room for entries is empty), -/
theorem listing_exactly_once {p : Nat} {n : Bytes} (hn : n ≠ ctrlName) {s : St} {K : Nat → Int} {off : Nat} {acc : List (Bytes × Nat × Nat)}
    (h : Listing p n s K off acc) (hK : 0 < K p) {room : Nat} (hroom : 0 < room) {now : Int}
    (he : (step s (.readdir p off room now)).1 = .ok (.dir [])) : occ n acc = 1 := by
  obtain ⟨L, k, c, g, h1, h2, h3⟩ := h.inv hn
  have hkn : Known s p := (g.inv.cnt_pos_iff p).1 (by have := g.le p; omega)
  obtain ⟨_, _, h4, _⟩ := readdir_part g.inv hkn he h1 h2
  rw [h3, if_pos (h4 rfl hroom).2]

/-- every entry in a reply is one of the directory at that time, -/
theorem listing_true {repl fail : Bool} {s : St} {K : Nat → Int} (h : Hist repl fail s K) {p off room : Nat} {now : Int} {l : List (Bytes × Nat × Nat)}
    (hK : 0 < K p) (hr : (step s (.readdir p off room now)).1 = .ok (.dir l)) {e : Bytes × Nat × Nat} (he : e ∈ l) :
    seenEntry s p e.1 = some e.2.1 ∧ occ e.1 l = 1 := by
  obtain ⟨L, g⟩ := h.good
  have hkn : Known s p := (g.inv.cnt_pos_iff p).1 (by have := g.le p; omega)
  obtain ⟨ip, hip⟩ := g.inv.known_ex hkn
  have hr0 := hr
  simp only [step, opReaddir, hip] at hr
  have hcut := cut_mod g.inv p (touchAtime now) (touchAtime_rc now) (fun i => by rw [touchAtime_size]; exact Nat.le_refl _)
  split at hr
  case isFalse => cases hr
  simp only [Except.ok.injEq, Reply.dir.injEq] at hr
  rw [← hr] at he
  obtain ⟨r, hrm, rfl⟩ := List.mem_map.1 he
  have hm := (mem_readdirRows hcut.inv.acc p _ r).1 (List.mem_of_mem_take hrm)
  simp only at hm ⊢
  have hc : s.db.child p r.2.1 = some r.2.2 := by
    rw [← hcut.child]
    exact (hcut.inv.acc.child_iff _ _ _).2 ⟨r.1, hm.2.1, hm.1⟩
  have hne : r.2.1 ≠ ctrlName := by intro e; rw [e, g.res.ctrl] at hc; cases hc
  refine ⟨by rw [seenEntry_eq g.inv, if_neg hne]; exact hc, ?_⟩
  obtain ⟨k, h1, h2⟩ := (g.inv.acc.child_iff _ _ _).1 hc
  have hp := (readdir_part g.inv hkn hr0 h1 h2).1
  have hpos : 0 < occ r.2.1 l := by
    unfold occ
    refine List.length_pos_of_mem (a := (r.2.1, r.2.2, r.1 + 3)) (List.mem_filter.2 ⟨?_, ?_⟩)
    · rw [← hr]; exact List.mem_map.2 ⟨r, hrm, rfl⟩
    · simp
  rw [hp] at hpos ⊢
  split at hpos
  · rename_i hcond; rw [if_pos hcond]
  · omega

/-- and listings make progress: each non-empty part ends at a larger offset. -/
theorem listing_progress {repl fail : Bool} {s : St} {K : Nat → Int} (h : Hist repl fail s K) {p off room : Nat} {now : Int} {l : List (Bytes × Nat × Nat)}
    (hK : 0 < K p) (hr : (step s (.readdir p off room now)).1 = .ok (.dir l)) (hl : l ≠ []) : off < lastOff l off := by
  obtain ⟨L, g⟩ := h.good
  have hkn : Known s p := (g.inv.cnt_pos_iff p).1 (by have := g.le p; omega)
  obtain ⟨ip, hip⟩ := g.inv.known_ex hkn
  simp only [step, opReaddir, hip] at hr
  have hcut := cut_mod g.inv p (touchAtime now) (touchAtime_rc now) (fun i => by rw [touchAtime_size]; exact Nat.le_refl _)
  split at hr
  case isFalse => cases hr
  simp only [Except.ok.injEq, Reply.dir.injEq] at hr
  have hlast : ∃ z, l.getLast? = some z := by
    cases hx : l.getLast? with
    | none => rw [List.getLast?_eq_none_iff] at hx; exact absurd hx hl
    | some z => exact ⟨z, rfl⟩
  obtain ⟨z, hz⟩ := hlast
  unfold lastOff; rw [hz]
  have hzm := List.mem_of_getLast? hz
  rw [← hr] at hzm
  obtain ⟨r, hrm, rfl⟩ := List.mem_map.1 hzm
  have hm := (mem_readdirRows hcut.inv.acc p _ r).1 (List.mem_of_mem_take hrm)
  have := hm.2.2
  simp only [Bool.or_eq_true, decide_eq_true_eq] at this
  show off < r.1 + 3
  omega

end Verif.Fs
