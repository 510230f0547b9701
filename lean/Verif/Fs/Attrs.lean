/-
C61: what each successful request does to the attributes of inodes.  C21: tree commands in read-only mode.
-/
import Verif.Fs.Props3
import Verif.Fs.TreeProps

namespace Verif.Fs

/-! #### Specification -/

/-- The access time after reading, as with the mount option `relatime`: it is updated if it is older than the last
modification or change. -/
def relatime (now : Int) (a : Inode) : Inode :=
  if a.atime < max a.ctime a.mtime then { a with atime := now } else a

/-- A directory whose entries change. -/
def dirChanged (now : Int) (a : Inode) : Inode := { a with mtime := now, ctime := now }

/-- The attributes of inode `j` after a successful request, if they were `a` before. -/
def specAttr (s : St) (op : Op) (j : Nat) (a : Inode) : Inode :=
  match op with
  | .readlink id now | .read id _ now | .readdir id _ _ now => if j = id then relatime now a else a
  | .write id off len _ now => if j = id then { a with size := max a.size (off + len), mtime := now, ctime := now } else a
  | .setxattr id _ _ now | .removexattr id _ now => if j = id then { a with ctime := now } else a
  | .mknod p _ _ _ _ _ now | .symlink p _ _ _ _ now => if j = p then dirChanged now a else a
  | .link id p _ now =>
    let a := if j = p then dirChanged now a else a
    if j = id then { a with refcount := a.refcount + 1, ctime := now } else a
  | .unlink p n now | .rmdir p n now =>
    let a := if seenEntry s p n = some j then { a with refcount := a.refcount - 1, ctime := now } else a
    if j = p then dirChanged now a else a
  | .rename po _ pn nn _ now =>
    let a := if seenEntry s pn nn = some j then { a with refcount := a.refcount - 1, ctime := now } else a
    if j = po ∨ j = pn then dirChanged now a else a
  | .setattr id r _ _ now =>
    if j = id then { a with mode := r.mode.getD a.mode, uid := r.uid.getD a.uid, gid := r.gid.getD a.gid, atime := r.atime.getD a.atime, mtime := r.mtime.getD a.mtime, size := r.size.getD a.size, ctime := now } else a
  | .open id flags now =>
    if j = id ∧ flags.testBit 9 = true ∧ isReg a.mode then { a with size := 0, mtime := now, ctime := now } else a
  | .create p n _ flags _ _ now =>
    match seenEntry s p n with
    | none => if j = p then dirChanged now a else a
    | some id => if j = id ∧ flags.testBit 9 = true ∧ isReg a.mode then { a with size := 0, mtime := now, ctime := now } else a
  | _ => a

/-! #### Proofs -/

theorem forgetOne_attr {s s' : St} {id : Nat} {n : Int} {r : Except Err Unit} (h : forgetOne s id n = (r, s')) {j : Nat} {b : Inode}
    (hb : AL.get s'.db.inodes j = some b) : AL.get s.db.inodes j = some b := by
  unfold forgetOne at h
  dsimp only at h
  split at h
  · split at h
    · cases h; exact hb
    · split at h
      · cases h
        simp only [Db.purge, AL.get_erase] at hb
        split at hb
        · cases hb
        · exact hb
      · cases h; exact hb
  · cases h; exact hb

theorem forget_attr {l : List (Nat × Int)} {s s' : St} {r : Except Err Unit} (h : forget s l = (r, s')) {j : Nat} {b : Inode}
    (hb : AL.get s'.db.inodes j = some b) : AL.get s.db.inodes j = some b := by
  induction l generalizing s with
  | nil => cases h; exact hb
  | cons e t ih =>
    unfold forget at h
    split at h
    · exact forgetOne_attr (by assumption) (ih h)
    · cases h; exact forgetOne_attr (by assumption) hb

theorem touchAtime_eq (now : Int) (i : Inode) : touchAtime now i = relatime now i := by
  unfold touchAtime relatime
  have : (i.atime < i.ctime ∨ i.atime < i.mtime) ↔ i.atime < max i.ctime i.mtime := by omega
  simp only [this]

theorem addOpen_fold_db (rows : List (Nat × Bytes × Nat)) (s : St) :
    (rows.foldl (fun s r => s.addOpen r.2.2 1) s).db = s.db := by
  induction rows generalizing s with
  | nil => rfl
  | cons r t ih => rw [List.foldl_cons, ih]; rfl

theorem finish_attr {s s' : St} {l : List (Nat × Int)} {r : Except Err Reply} (h : finish (forget s l) = (r, s')) {j : Nat}
    {b : Inode} (hb : AL.get s'.db.inodes j = some b) : AL.get s.db.inodes j = some b := by
  unfold finish at h
  split at h
  · cases h; exact forget_attr (by assumption) hb
  · cases h; exact forget_attr (by assumption) hb

theorem seenEntry_raw (s : St) (p : Nat) (n : Bytes) :
    seenEntry s p n = (if n = ctrlName then some ctrlInode else s.db.child p n).bind (fun i => (AL.get s.db.inodes i).map (fun _ => i)) := by
  unfold seenEntry
  simp only [step, opLookup, lookup]
  by_cases h1 : n = ctrlName
  · rw [if_pos h1, if_pos h1]
    cases h2 : AL.get s.db.inodes ctrlInode with
    | none => simp [h2]
    | some v => simp [St.addOpen, h2]
  · rw [if_neg h1, if_neg h1]
    cases h3 : s.db.child p n with
    | none => simp
    | some i =>
      cases h2 : AL.get s.db.inodes i with
      | none => simp [h2]
      | some v => simp [St.addOpen, h2]

theorem seenEntry_db {s s' : St} (h : s'.db = s.db) (p : Nat) (n : Bytes) : seenEntry s' p n = seenEntry s p n := by
  rw [seenEntry_raw, seenEntry_raw, h]

theorem lookup_seen {s s1 : St} {p : Nat} {n : Bytes} {id : Nat} (h : lookup s p n = (.ok id, s1)) :
    seenEntry s p n = some id ∧ s1.db = s.db := by
  have hdb : s1.db = s.db := by rw [← lookup_db s p n, h]
  refine ⟨?_, hdb⟩
  have hid : ∃ i, AL.get s.db.inodes id = some i := by
    unfold lookup at h
    split at h
    · split at h
      · cases h; exact ⟨_, by assumption⟩
      · cases h
    · split at h
      · cases h
      · split at h
        · cases h; exact ⟨_, by assumption⟩
        · cases h
  obtain ⟨i, hi⟩ := hid
  unfold seenEntry
  simp only [step, opLookup, h, hdb, hi]

theorem lookup_unseen {s s1 : St} {p : Nat} {n : Bytes} {e : Err} (h : lookup s p n = (.error e, s1)) :
    seenEntry s p n = none ∧ s1.db = s.db := by
  have hdb : s1.db = s.db := by rw [← lookup_db s p n, h]
  refine ⟨?_, hdb⟩
  unfold seenEntry
  simp only [step, opLookup, h]

theorem purge_attr {db : Db} {id size m j : Nat} {b : Inode} (hb : AL.get (db.purge id size m).inodes j = some b) :
    AL.get db.inodes j = some b := by
  simp only [Db.purge, AL.get_erase] at hb
  split at hb
  · cases hb
  · exact hb

/-- The attributes of `j` after an entry for `id` in the directory `p` was removed. -/
def unlinked (id p : Nat) (now : Int) (j : Nat) (a : Inode) : Inode :=
  let a := if j = id then { a with refcount := a.refcount - 1, ctime := now } else a
  if j = p then dirChanged now a else a

theorem remove_attr {s s' : St} {p id : Nat} {n : Bytes} {force : Bool} {now : Int} (h : remove s p n id force now = (.ok (), s')) {j : Nat}
    {a b : Inode} (ha : AL.get s.db.inodes j = some a) (hb : AL.get s'.db.inodes j = some b) :
    b = unlinked id p now j a := by
  unfold remove at h
  split at h
  · split at h <;> cases h
  · split at h
    · cases h
    · split at h
      · cases h
      · split at h
        · cases h
        · rename_i db nid hdel
          have hin := (delName_rest hdel).1
          dsimp only at h
          split at h
          · cases h
          · have key : ∀ b, AL.get (Db.modInode (Db.modInode { db with contents := AL.erase db.contents (p, nid) } id (fun i => { i with refcount := i.refcount - 1, ctime := now })) p (touchDir now)).inodes j = some b →
                b = unlinked id p now j a := by
              intro b hb
              simp only [modInode_get, hin] at hb
              unfold unlinked
              by_cases h1 : j = p <;> by_cases h2 : j = id
              · subst h1; subst h2
                simp only [if_true, ha, Option.map_some, Option.some.injEq] at hb ⊢
                exact hb.symm
              · subst h1
                simp only [if_true, if_neg h2, ha, Option.map_some, Option.some.injEq] at hb ⊢
                exact hb.symm
              · subst h2
                simp only [if_true, if_neg h1, ha, Option.map_some, Option.some.injEq] at hb ⊢
                exact hb.symm
              · simp only [if_neg h1, if_neg h2, ha, Option.some.injEq] at hb ⊢
                exact hb.symm
            split at h
            · cases h
            · split at h
              · cases h; exact key b (purge_attr hb)
              · cases h; exact key b hb

theorem create_attr {s s' : St} {p : Nat} {n : Bytes} {mode uid gid rdev size : Nat} {now : Int} {id : Nat}
    (h : create s p n mode uid gid rdev size now = (.ok id, s')) :
    n ≠ ctrlName ∧ id = s.db.seq + 1 ∧ ∃ ip, AL.get s.db.inodes p = some ip ∧ ∀ j, AL.get s'.db.inodes j =
      if j = id then some ⟨(if ip.mode &&& sISGID ≠ 0 ∧ isDir mode then mode ||| sISGID else mode), uid,
        (if ip.mode &&& sISGID ≠ 0 then ip.gid else gid), now, now, now, 1, size, rdev, false⟩
      else if j = p then some (dirChanged now ip) else AL.get s.db.inodes j := by
  unfold create at h
  split at h
  · split at h <;> cases h
  · rename_i hn
    split at h
    · cases h
    · rename_i ip hip
      split at h
      · cases h
      · split at h
        · cases h
        · dsimp only at h
          split at h
          · cases h
          · cases h
            refine ⟨hn, ?_, ip, hip, ?_⟩
            · rw [(modInode_rest _ _ _).2.2.2.2.2.2]
            · intro j
              dsimp only
              rw [(addName_rest _ _).1]
              dsimp only
              rw [AL.get_set, modInode_get, hip]
              rfl

theorem entryReply_attr {s s' : St} {id : Nat} {r : Except Err Reply} (h : entryReply s id = (r, s')) : s'.db = s.db := by
  rw [← entryReply_db s id, h]

theorem cacheRemove_inodes (db : Db) (id lo hi : Nat) : (db.cacheRemove id lo hi).inodes = db.inodes := rfl

theorem setattr_attr {s s' : St} {id : Nat} {r : SetAttr} {c m : Bool} {now : Int} {q : Reply}
    (h : opSetattr s id r c m now = (.ok q, s')) {j : Nat} {a b : Inode} (ha : AL.get s.db.inodes j = some a)
    (hb : AL.get s'.db.inodes j = some b) :
    b = if j = id then { a with mode := r.mode.getD a.mode, uid := r.uid.getD a.uid, gid := r.gid.getD a.gid, atime := r.atime.getD a.atime, mtime := r.mtime.getD a.mtime, size := r.size.getD a.size, ctime := now } else a := by
  unfold opSetattr at h
  split at h
  · cases h
  · rename_i i hi
    split at h
    · cases h
    · dsimp only at h
      split at h
      · cases h
      · split at h
        · cases h
        · have key : ∀ (f : Inode) b, AL.get (s.db.modInode id (fun _ => f)).inodes j = some b → b = if j = id then f else a := by
            intro f b hb
            rw [modInode_get, hi, ha] at hb
            split at hb <;> cases hb
            · rw [if_pos (by assumption)]
            · rw [if_neg (by assumption)]
          have hia : j = id → i = a := by
            intro e; rw [← e, ha] at hi; cases hi; rfl
          split at h
          · rename_i hs
            cases h
            rw [key _ b hb]
            split
            · rw [hia (by assumption), hs]; rfl
            · rfl
          · rename_i len hs
            split at h
            · cases h
              rw [key _ b hb]
              split
              · rw [hia (by assumption), hs]; rfl
              · rfl
            · split at h
              · cases h
              · split at h
                · cases h
                · cases h
                  rw [key _ b hb]
                  split
                  · rw [hia (by assumption), hs]; rfl
                  · rfl

theorem open_attr {s s' : St} {id flags : Nat} {now : Int} {q : Reply}
    (h : opOpen s id flags now = (.ok q, s')) {j : Nat} {a b : Inode} (ha : AL.get s.db.inodes j = some a)
    (hb : AL.get s'.db.inodes j = some b) :
    b = if j = id ∧ flags.testBit 9 = true ∧ isReg a.mode then { a with size := 0, mtime := now, ctime := now } else a := by
  unfold opOpen at h
  simp only [trunc_iff] at h
  have same : ∀ {b}, AL.get s.db.inodes j = some b → b = a := by
    intro b hb; rw [ha] at hb; cases hb; rfl
  split at h
  · cases h
  · rename_i i hi
    have hia : j = id → i = a := by
      intro e; rw [← e, ha] at hi; cases hi; rfl
    split at h
    · cases h
    · split at h
      · rename_i ht
        split at h
        · cases h
        · split at h
          · rename_i hreg
            split at h
            · rename_i hs
              cases h
              rw [setattr_attr hs ha hb]
              by_cases e : j = id
              · rw [if_pos e, if_pos ⟨e, ht, by rw [← hia e]; exact hreg⟩]; rfl
              · rw [if_neg e, if_neg (fun x => e x.1)]
            · cases h
          · rename_i hreg
            split at h
            · cases h
              rw [if_neg (fun x => hreg (by rw [hia x.1]; exact x.2.2))]
              exact same hb
            · cases h
      · rename_i ht
        cases h
        rw [if_neg (fun x => ht x.2.1)]
        exact same hb

theorem replace_attr {s s' : St} {po pn idOld idNew : Nat} {no nn : Bytes} {now : Int}
    (h : replace s po no pn nn idOld idNew now = (.ok (), s')) {j : Nat} {a b : Inode} (ha : AL.get s.db.inodes j = some a)
    (hb : AL.get s'.db.inodes j = some b) :
    b = (let a := if j = idNew then { a with refcount := a.refcount - 1, ctime := now } else a
      if j = po ∨ j = pn then dirChanged now a else a) := by
  unfold replace at h
  split at h
  · split at h <;> cases h
  · split at h
    · cases h
    · dsimp only at h
      split at h
      · cases h
      · rename_i nidNew _ _ db nidOld hdel
        have hin : db.inodes = s.db.inodes := by
          rw [(delName_rest hdel).1]; split <;> rfl
        split at h
        · cases h
        · have key : ∀ b, AL.get (Db.modInode (Db.modInode (Db.modInode { db with contents := AL.erase db.contents (po, nidOld) } idNew (fun i => { i with refcount := i.refcount - 1, ctime := now })) po (touchDir now)) pn (touchDir now)).inodes j = some b →
                b = (let a := if j = idNew then { a with refcount := a.refcount - 1, ctime := now } else a
      if j = po ∨ j = pn then dirChanged now a else a) := by
            intro b hb
            simp only [modInode_get, hin] at hb
            by_cases h1 : j = pn <;> by_cases h2 : j = po <;> by_cases h3 : j = idNew
            all_goals (first | subst h1 | skip); (first | subst h2 | skip); (first | subst h3 | skip)
            all_goals simp_all [dirChanged, touchDir]
          split at h
          · cases h
          · split at h
            · cases h; exact key b (purge_attr hb)
            · cases h; exact key b hb

theorem renameTo_attr {db db' : Db} {po pn : Nat} {no nn : Bytes} {now : Int} (h : renameTo db po no pn nn now = some db') {j : Nat}
    {a b : Inode} (ha : AL.get db.inodes j = some a) (hb : AL.get db'.inodes j = some b) :
    b = if j = po ∨ j = pn then dirChanged now a else a := by
  unfold renameTo at h
  dsimp only at h
  split at h
  · cases h
  · rename_i db1 nidOld hdel
    cases h
    have hin : db1.inodes = db.inodes := by rw [(delName_rest hdel).1, (addName_rest db nn).1]
    have key : ∀ db2 : Db, db2.inodes = db.inodes → AL.get ((db2.modInode po (touchDir now)).modInode pn (touchDir now)).inodes j = some b →
        b = if j = po ∨ j = pn then dirChanged now a else a := by
      intro db2 h2 hb
      simp only [modInode_get, h2] at hb
      by_cases h1 : j = pn <;> by_cases h2 : j = po
      all_goals (first | subst h1 | skip); (first | subst h2 | skip)
      all_goals simp_all [dirChanged, touchDir]
    cases hx : AL.get db1.contents (po, nidOld) with
    | none => rw [hx] at hb; refine key db1 hin ?_; exact hb
    | some c => rw [hx] at hb; exact key { db1 with contents := AL.set (AL.erase db1.contents (po, nidOld)) (pn, (db.addName nn).2) c } hin hb

/-- **C61**: a successful request changes the attributes of the inodes that exist before and after exactly as specified:
the inodes it names get the new times, sizes, link counts, modes and owners, and all others stay as they are. -/
theorem attrs_exact {repl fail : Bool} {s : St} {K : Nat → Int} (h : Hist repl fail s K) {op : Op}
    (hc : ∀ p n mode flags uid gid now, op = .create p n mode flags uid gid now → n ≠ ctrlName)
    {r : Reply} {s' : St} (hs : step s op = (.ok r, s')) {j : Nat} {a b : Inode}
    (ha : seenAttr s j = some a) (hb : seenAttr s' j = some b) : b = specAttr s op j a := by
  obtain ⟨L, g⟩ := h.good
  have hseq := g.inv.acc.seq j
  rw [seenAttr_eq] at ha hb
  have hne : j ≠ s.db.seq + 1 := by
    have := hseq (by rw [ha]; simp)
    omega
  have same : ∀ {b}, AL.get s.db.inodes j = some b → b = a := by
    intro b hb; rw [ha] at hb; cases hb; rfl
  cases op <;> simp only [specAttr] <;> simp only [step] at hs
  case lookup p n =>
    have : s'.db = s.db := by
      have := (lookup_keeps s p n).1
      simp only [step, hs] at this; exact this
    rw [this] at hb; exact same hb
  case getattr id =>
    unfold opGetattr at hs
    split at hs <;> cases hs
    exact same hb
  case readlink id now =>
    unfold opReadlink at hs
    split at hs
    · cases hs
    · dsimp only at hs
      split at hs
      · cases hs
        rw [modInode_get] at hb
        split at hb
        · rename_i e; subst e; rw [ha] at hb; cases hb; rw [if_pos rfl, touchAtime_eq]
        · rename_i e; rw [if_neg e]; exact same hb
      · cases hs
  case readdir p off room now =>
    unfold opReaddir at hs
    split at hs
    · cases hs
    · dsimp only at hs
      split at hs
      · cases hs
        rw [addOpen_fold_db, modInode_get] at hb
        split at hb
        · rename_i e; subst e; rw [ha] at hb; cases hb; rw [if_pos rfl, touchAtime_eq]
        · rename_i e; rw [if_neg e]; exact same hb
      · cases hs
  case getxattr id n =>
    unfold opGetxattr at hs
    split at hs
    · cases hs
    · split at hs <;> cases hs
      exact same hb
  case listxattr id => cases hs; exact same hb
  case setxattr id n v now =>
    unfold opSetxattr at hs
    split at hs
    · cases hs
    · split at hs
      · cases hs
      · split at hs
        · cases hs
        · split at hs
          · cases hs
          · dsimp only at hs
            cases hs
            simp only [modInode_get, (addName_rest _ _).1] at hb
            split at hb
            · rename_i e; subst e; rw [ha] at hb; cases hb; rw [if_pos rfl]
            · rename_i e; rw [if_neg e]; exact same hb
  case removexattr id n now =>
    unfold opRemovexattr at hs
    split at hs
    · cases hs
    · split at hs
      · cases hs
      · split at hs
        · cases hs
        · split at hs
          · cases hs
          · rename_i hdel
            split at hs
            · cases hs
            · cases hs
              simp only [modInode_get, (delName_rest hdel).1] at hb
              split at hb
              · rename_i e; subst e; rw [ha] at hb; cases hb; rw [if_pos rfl]
              · rename_i e; rw [if_neg e]; exact same hb
  case unlink p n now =>
    unfold opUnlink at hs
    split at hs
    · cases hs
    · split at hs
      · cases hs
      · rename_i id s1 hl
        obtain ⟨h1, h2⟩ := lookup_seen hl
        split at hs
        · cases hs
        · split at hs
          · cases hs
          · split at hs
            · cases hs
            · rename_i hr
              have := remove_attr hr (by rw [h2]; exact ha) (finish_attr hs hb)
              rw [this, unlinked, h1]
              simp only [Option.some.injEq, eq_comm]
  case rmdir p n now =>
    unfold opRmdir at hs
    split at hs
    · cases hs
    · split at hs
      · cases hs
      · rename_i id s1 hl
        obtain ⟨h1, h2⟩ := lookup_seen hl
        split at hs
        · cases hs
        · split at hs
          · cases hs
          · split at hs
            · cases hs
            · split at hs
              · cases hs
              · split at hs
                · cases hs
                · rename_i hr
                  have := remove_attr hr (by rw [h2]; exact ha) (finish_attr hs hb)
                  rw [this, unlinked, h1]
                  simp only [Option.some.injEq, eq_comm]
  case mknod p n mode rdev uid gid now =>
    unfold opMknod at hs
    split at hs
    · cases hs
    · split at hs
      · cases hs
      · rename_i hcr
        obtain ⟨_, h1, ip, h2, h3⟩ := create_attr hcr
        rw [entryReply_attr hs, h3, h1, if_neg hne] at hb
        split at hb
        · rename_i e; subst e; rw [ha] at h2; cases h2; cases hb; rw [if_pos rfl]
        · rename_i e; rw [if_neg e]; exact same hb
  case symlink p n t uid gid now =>
    unfold opSymlink at hs
    split at hs
    · cases hs
    · split at hs
      · cases hs
      · rename_i hcr
        obtain ⟨_, h1, ip, h2, h3⟩ := create_attr hcr
        rw [entryReply_attr hs] at hb
        dsimp only at hb
        rw [h3, h1, if_neg hne] at hb
        split at hb
        · rename_i e; subst e; rw [ha] at h2; cases h2; cases hb; rw [if_pos rfl]
        · rename_i e; rw [if_neg e]; exact same hb
  case link id p n now =>
    unfold opLink at hs
    split at hs
    · have h1 := (Prod.mk.inj hs).1
      split at h1 <;> cases h1
    · split at hs
      · cases hs
      · split at hs
        · cases hs
        · split at hs
          · cases hs
          · dsimp only at hs
            split at hs
            · cases hs
            · split at hs
              · cases hs
              · rw [entryReply_attr hs] at hb
                simp only [modInode_get, (addName_rest _ _).1] at hb
                by_cases h1 : j = p <;> by_cases h2 : j = id
                all_goals (first | subst h1 | skip); (first | subst h2 | skip)
                all_goals simp_all [dirChanged, touchDir]
  case rename po no pn nn flags now =>
    unfold opRename at hs
    split at hs
    · cases hs
    · split at hs
      · split at hs <;> cases hs
      · split at hs
        · cases hs
        · split at hs
          · cases hs
          · split at hs
            · cases hs
            · split at hs
              · cases hs
              · split at hs
                · cases hs
                · split at hs
                  · cases hs
                  · rename_i idOld s1 hl1
                    obtain ⟨_, hd1⟩ := lookup_seen hl1
                    split at hs
                    · rename_i idNew s2 hl2
                      obtain ⟨h1, hd2⟩ := lookup_seen hl2
                      have h1' : seenEntry s pn nn = some idNew := by
                        rw [seenEntry_db hd1] at h1; exact h1
                      split at hs
                      · cases hs
                      · rename_i hr
                        have := replace_attr hr (by rw [hd2, hd1]; exact ha) (finish_attr hs hb)
                        rw [this, h1']
                        simp only [Option.some.injEq, eq_comm]
                    · rename_i s2 hl2
                      obtain ⟨h1, hd2⟩ := lookup_unseen hl2
                      have h1' : seenEntry s pn nn = none := by
                        rw [seenEntry_db hd1] at h1; exact h1
                      split at hs
                      · cases hs
                      · rename_i hr
                        have := renameTo_attr hr (by rw [hd2, hd1]; exact ha) (finish_attr hs hb)
                        rw [this, h1']
                        simp
                    · cases hs
  case setattr id q c m now => exact setattr_attr hs ha hb
  case «open» id flags now => exact open_attr hs ha hb
  case create p n mode flags uid gid now =>
    have hn := hc _ _ _ _ _ _ _ rfl
    rw [seenEntry_eq g.inv, if_neg hn]
    unfold opCreate at hs
    split at hs
    · cases hs
    · split at hs
      · rename_i hch
        rw [hch]
        split at hs
        · cases hs
        · rename_i hcr
          obtain ⟨_, h1, ip, h2, h3⟩ := create_attr hcr
          rw [entryReply_attr hs, h3, h1, if_neg hne] at hb
          dsimp only
          split at hb
          · rename_i e; subst e; rw [ha] at h2; cases h2; cases hb; rw [if_pos rfl]
          · rename_i e; rw [if_neg e]; exact same hb
      · rename_i id hch
        rw [hch]
        split at hs
        · cases hs
        · rename_i ho
          rw [entryReply_attr hs] at hb
          exact open_attr ho ha hb
  case read id broken now =>
    unfold opRead at hs
    split at hs
    · cases hs
    · split at hs
      · cases hs
      · cases hs
        rw [modInode_get] at hb
        split at hb
        · rename_i e; subst e; rw [ha] at hb; cases hb; rw [if_pos rfl, touchAtime_eq]
        · rename_i e; rw [if_neg e]; exact same hb
  case write id off len broken now =>
    unfold opWrite at hs
    split at hs
    · cases hs
    · split at hs
      · cases hs
      · split at hs
        · cases hs
        · split at hs
          · cases hs
          · cases hs
            rw [modInode_get] at hb
            split at hb
            · rename_i e; subst e; rw [ha] at hb; cases hb; rw [if_pos rfl]
            · rename_i e; rw [if_neg e]; exact same hb
  case forget l => exact same (finish_attr hs hb)
  case upload id k o =>
    cases hs
    have : (bgUpload s id k o).db.inodes = s.db.inodes := by
      unfold bgUpload
      dsimp only
      repeat' first | rfl | split
    rw [this] at hb; exact same hb

/-- C61, new inodes: permissions, owner and times are those of the request (the group and the setgid bit are inherited
from a setgid directory, bit 10 of the mode), with one link; size 0 or the length of the link target. -/
theorem new_attrs {repl fail : Bool} {s s' : St} {K : Nat → Int} (h : Hist repl fail s K) {op : Op} {p : Nat} {n : Bytes} {mode rdev uid gid size : Nat} {now : Int} {id : Nat} {a : Inode}
    (hop : (op = .mknod p n mode rdev uid gid now ∧ size = 0) ∨
      (∃ t, op = .symlink p n t uid gid now ∧ rdev = 0 ∧ size = t.length ∧ mode = 0o120777) ∨
      (∃ flags, op = .create p n mode flags uid gid now ∧ n ≠ ctrlName ∧ seenEntry s p n = none ∧ rdev = 0 ∧ size = 0))
    (hs : step s op = (.ok (.entry id a), s')) :
    seenAttr s' id = some a ∧ ∃ d, seenAttr s p = some d ∧
      a = { mode := if d.mode.testBit 10 = true ∧ isDir mode = true then mode ||| 0o2000 else mode, uid := uid, gid := if d.mode.testBit 10 = true then d.gid else gid, atime := now, mtime := now, ctime := now, refcount := 1, size := size, rdev := rdev, locked := false } := by
  obtain ⟨L, g⟩ := h.good
  have hi : ∀ c, s.db.child p n = some c → seenAttr s c ≠ none := fun c hc => by rw [seenAttr_eq]; exact (g.inv.child_pos hc).2.1
  have hbit : ∀ m : Nat, (m &&& sISGID ≠ 0) ↔ m.testBit 10 = true := fun m => and_pow_ne m 10
  have main : ∀ {s1 : St} {k : Nat} (f : Db → Db), (∀ db, (f db).inodes = db.inodes) → create s p n mode uid gid rdev size now = (.ok k, s1) →
      entryReply { s1 with db := f s1.db } k = (.ok (.entry id a), s') → seenAttr s' id = some a ∧ ∃ d, seenAttr s p = some d ∧
      a = { mode := if d.mode.testBit 10 = true ∧ isDir mode = true then mode ||| 0o2000 else mode, uid := uid, gid := if d.mode.testBit 10 = true then d.gid else gid, atime := now, mtime := now, ctime := now, refcount := 1, size := size, rdev := rdev, locked := false } := by
    intro s1 k f hf hcr he
    obtain ⟨_, _, d, hd, hall⟩ := create_attr hcr
    have hdb := entryReply_attr he
    have hk := hall k
    rw [if_pos rfl] at hk
    have hk2 := (congrArg (fun l => AL.get l k) (hf s1.db)).trans hk
    unfold entryReply at he
    simp only [St.addOpen, hk2] at he
    cases he
    refine ⟨?_, d, by rw [seenAttr_eq]; exact hd, ?_⟩
    · rw [seenAttr_eq]; exact hk2
    · simp only [hbit]; rfl
  rcases hop with ⟨rfl, rfl⟩ | ⟨t, rfl, rfl, rfl, rfl⟩ | ⟨flags, rfl, hn, hse, rfl, rfl⟩
  · simp only [step, opMknod] at hs
    split at hs
    · cases hs
    · split at hs
      · cases hs
      · exact main (fun db => db) (fun _ => rfl) (by assumption) hs
  · simp only [step, opSymlink] at hs
    split at hs
    · cases hs
    · split at hs
      · cases hs
      · rename_i id1 s1 hcr
        exact main (fun db => { db with symlinks := AL.set db.symlinks id1 t }) (fun _ => rfl) hcr hs
  · simp only [step, opCreate] at hs
    split at hs
    · cases hs
    · split at hs
      · split at hs
        · cases hs
        · exact main (fun db => db) (fun _ => rfl) (by assumption) hs
      · rename_i c hc
        exfalso
        rw [seenEntry_raw, if_neg hn, hc] at hse
        have := hi c hc
        rw [seenAttr_eq] at this
        cases hx : AL.get s.db.inodes c with
        | none => exact this hx
        | some v => simp [hx] at hse

/-- C21: also the tree commands are refused in read-only mode, and change nothing. -/
theorem failsafe_trees {s : St} (hf : s.failsafe = true) :
    (∀ id, lockStart s id = .error .EPERM) ∧
    (∀ p n res s', RmTree s p n res s' → res = .error .EPERM ∧ s' = s) ∧
    (∀ src tgt now, copyStart s src tgt now = .error .EPERM) := by
  refine ⟨fun id => ?_, ?_, fun src tgt now => ?_⟩
  · unfold lockStart; rw [if_pos hf]
  · intro p n res s' h
    cases h <;> first | exact ⟨rfl, rfl⟩ | (rename_i h0 _; rw [hf] at h0; cases h0) | skip
    all_goals (simp_all)
  · unfold copyStart; rw [if_pos hf]

end Verif.Fs
