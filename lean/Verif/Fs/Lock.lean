/-
Locked inodes: no request changes their attributes, and no request changes the entries of a locked directory.
-/
import Verif.Fs.Props3
import Verif.Fs.Props2
import Verif.Fs.Listing

namespace Verif.Fs

variable {T : Nat → Prop}

/-- Equal in everything but link count, change time and access time. -/
def Frozen (a b : Inode) : Prop := SameAttr a b ∧ b.mtime = a.mtime

theorem Frozen.refl (a : Inode) : Frozen a a := ⟨SameAttr.refl a, rfl⟩

theorem Frozen.trans {a b c : Inode} (h : Frozen a b) (h' : Frozen b c) : Frozen a c := ⟨h.1.trans h'.1, h'.2.trans h.2⟩

/-- If the inode still exists, it is as `a`. -/
def KeepDb (i : Nat) (a : Inode) (db : Db) : Prop := ∀ b, AL.get db.inodes i = some b → Frozen a b

theorem KeepDb.eq {i : Nat} {a : Inode} {db db' : Db} (h : KeepDb i a db) (he : db'.inodes = db.inodes) : KeepDb i a db' := by
  unfold KeepDb; rw [he]; exact h

theorem KeepDb.mod {i : Nat} {a : Inode} {db : Db} (h : KeepDb i a db) (id : Nat) (f : Inode → Inode)
    (hf : id = i → ∀ b, Frozen a b → Frozen a (f b)) : KeepDb i a (db.modInode id f) := by
  intro b hb
  rw [modInode_get] at hb
  split at hb
  · rename_i e; subst e
    cases hg : AL.get db.inodes i with
    | none => rw [hg] at hb; cases hb
    | some x => rw [hg] at hb; cases hb; exact hf rfl x (h x hg)
  · exact h b hb

theorem KeepDb.purge {i : Nat} {a : Inode} {db : Db} (h : KeepDb i a db) (id size m : Nat) : KeepDb i a (db.purge id size m) := by
  intro b hb
  rw [(purge_rest db id size m).2.2] at hb
  split at hb
  · cases hb
  · exact h b hb

theorem keep_touch {i : Nat} {a : Inode} {db : Db} (h : KeepDb i a db) (id : Nat) (now : Int) : KeepDb i a (db.modInode id (touchAtime now)) :=
  h.mod id _ (fun _ b hb => by unfold touchAtime; split; · exact hb
                               · exact hb)

theorem keep_forgetOne {i : Nat} {a : Inode} {s : St} (h : KeepDb i a s.db) (id : Nat) (n : Int) : KeepDb i a (forgetOne s id n).2.db := by
  unfold forgetOne; dsimp only
  split
  · split
    · exact h
    · split
      · exact h.purge _ _ _
      · exact h
  · exact h

theorem keep_forget {i : Nat} {a : Inode} : ∀ (l : List (Nat × Int)) (s : St), KeepDb i a s.db → KeepDb i a (forget s l).2.db
  | [], _, h => h
  | (id, n) :: t, s, h => by
    have h1 := keep_forgetOne h id n
    unfold forget
    cases hf : forgetOne s id n with
    | mk r s1 =>
      rw [hf] at h1
      cases r with
      | ok u => exact keep_forget t s1 h1
      | error e => exact h1

theorem keep_finish {i : Nat} {a : Inode} {r : Except Err Unit × St} (h : KeepDb i a r.2.db) : KeepDb i a (finish r).2.db := by
  unfold finish
  split
  · exact h
  · exact h

theorem keep_remove {i : Nat} {a : Inode} {s : St} (ha : AL.get s.db.inodes i = some a) (hl : a.locked = true) (p : Nat) (n : Bytes) (id : Nat) (now : Int) :
    KeepDb i a (remove s p n id false now).2.db := by
  have h0 : KeepDb i a s.db := by intro b hb; rw [ha] at hb; cases hb; exact Frozen.refl a
  unfold remove
  split
  · exact h0
  · split
    · exact h0
    · rename_i ip hip
      split
      · exact h0
      · rename_i hlk
        have hpi : p ≠ i := by
          rintro rfl; rw [hip] at ha; cases ha; exact hlk ⟨hl, rfl⟩
        split
        · exact h0
        · rename_i db k hd
          have h1 : KeepDb i a { db with contents := AL.erase db.contents (p, k) } := h0.eq (delName_rest hd).1
          dsimp only
          split
          · exact h1
          · have h2 := (h1.mod id (fun i => { i with refcount := i.refcount - 1, ctime := now }) (fun _ _ hb => hb)).mod p (touchDir now)
              (fun e => absurd e hpi)
            split
            · exact h2
            · split
              · exact h2.purge _ _ _
              · exact h2

theorem keep_create {i : Nat} {a : Inode} {s : St} (ha : AL.get s.db.inodes i = some a) (hl : a.locked = true) (hi : i ≤ s.db.seq)
    (p : Nat) (n : Bytes) (mode uid gid rdev size : Nat) (now : Int) : KeepDb i a (create s p n mode uid gid rdev size now).2.db := by
  have h0 : KeepDb i a s.db := by intro b hb; rw [ha] at hb; cases hb; exact Frozen.refl a
  unfold create
  split
  · exact h0
  · split
    · exact h0
    · rename_i ip hip
      split
      · exact h0
      · rename_i hlk
        have hpi : p ≠ i := by
          rintro rfl; rw [hip] at ha; cases ha; exact hlk hl
        split
        · exact h0
        · dsimp only
          have h1 := h0.mod p (touchDir now) (fun e => absurd e hpi)
          have hseq : (s.db.modInode p (touchDir now)).seq = s.db.seq := (modInode_rest _ _ _).2.2.2.2.2.2
          have h2 : ∀ ino, KeepDb i a { s.db.modInode p (touchDir now) with seq := (s.db.modInode p (touchDir now)).seq + 1, inodes := AL.set (s.db.modInode p (touchDir now)).inodes ((s.db.modInode p (touchDir now)).seq + 1) ino } := by
            intro ino b hb
            have hb : AL.get (AL.set (s.db.modInode p (touchDir now)).inodes ((s.db.modInode p (touchDir now)).seq + 1) ino) i = some b := hb
            rw [AL.get_set_ne _ _ (by omega)] at hb
            exact h1 b hb
          split
          · exact (h2 _).eq (addName_rest _ _).1
          · exact (h2 _).eq (addName_rest _ _).1

theorem keep_entryReply {i : Nat} {a : Inode} {s : St} (h : KeepDb i a s.db) (id : Nat) : KeepDb i a (entryReply s id).2.db := by
  unfold entryReply; dsimp only
  split
  · exact h
  · exact h

theorem keep_renameTo {i : Nat} {a : Inode} {db db' : Db} (h : KeepDb i a db) {po pn : Nat} {no nn : Bytes} {now : Int}
    (h1 : po ≠ i) (h2 : pn ≠ i) (hr : renameTo db po no pn nn now = some db') : KeepDb i a db' := by
  unfold renameTo at hr
  dsimp only at hr
  split at hr
  · cases hr
  · rename_i db2 k hd
    cases hr
    have h3 : KeepDb i a db2 := (h.eq (addName_rest _ _).1).eq (delName_rest hd).1
    refine KeepDb.mod (KeepDb.mod ?_ po _ (fun e => absurd e h1)) pn _ (fun e => absurd e h2)
    split
    · exact h3
    · exact h3

theorem keep_replace {i : Nat} {a : Inode} {s : St} (h : KeepDb i a s.db) {po pn : Nat} (no nn : Bytes) (idOld idNew : Nat) (now : Int)
    (h1 : po ≠ i) (h2 : pn ≠ i) : KeepDb i a (replace s po no pn nn idOld idNew now).2.db := by
  unfold replace
  split
  · exact h
  · split
    · exact h
    · rename_i k hk
      dsimp only
      have h3 : KeepDb i a (match AL.get s.db.contents (pn, k) with
        | some _ => { s.db with contents := AL.set s.db.contents (pn, k) idOld }
        | none => s.db) := by
        split
        · exact h
        · exact h
      split
      · exact h3
      · rename_i db2 k2 hd
        have h4 : KeepDb i a { db2 with contents := AL.erase db2.contents (po, k2) } := h3.eq (delName_rest hd).1
        split
        · exact h4
        · have h5 := ((h4.mod idNew (fun i => { i with refcount := i.refcount - 1, ctime := now }) (fun _ _ hb => hb)).mod po (touchDir now)
            (fun e => absurd e h1)).mod pn (touchDir now) (fun e => absurd e h2)
          split
          · exact h5
          · split
            · exact h5.purge _ _ _
            · exact h5

set_option maxHeartbeats 1000000 in
/-- No request changes the attributes of a locked inode, except link count, change time and access time. -/
theorem keep_step {s : St} {i : Nat} {a : Inode} (ha : AL.get s.db.inodes i = some a) (hl : a.locked = true) (hi : i ≤ s.db.seq) (op : Op) :
    KeepDb i a (step s op).2.db := by
  have h0 : KeepDb i a s.db := by intro b hb; rw [ha] at hb; cases hb; exact Frozen.refl a
  have hne : ∀ {j : Nat} {x : Inode}, AL.get s.db.inodes j = some x → ¬x.locked = true → j ≠ i := by
    rintro j x hx hx2 rfl; rw [hx] at ha; cases ha; exact hx2 hl
  have hset : ∀ (id : Nat) (at' : SetAttr) (c m : Bool) (now : Int), KeepDb i a (opSetattr s id at' c m now).2.db := by
    intro id at' c m now
    unfold opSetattr
    split
    · exact h0
    · rename_i x hx
      split
      · exact h0
      · rename_i hlk
        have hid : id ≠ i := hne hx (fun e => hlk (Or.inr e))
        have h1 : ∀ y, KeepDb i a (s.db.modInode id (fun _ => y)) := fun y => h0.mod id _ (fun e => absurd e hid)
        dsimp only
        split
        · exact h1 _
        · split
          · exact h1 _
          · split
            · exact h1 _
            · split
              · exact (h1 _).eq rfl
              · split
                · exact (h1 _).eq rfl
                · split
                  · exact (h1 _).eq rfl
                  · exact (h1 _).eq rfl
  have hopen : ∀ (id flags : Nat) (now : Int), KeepDb i a (opOpen s id flags now).2.db := by
    intro id flags now
    unfold opOpen; dsimp only
    split
    · exact h0
    · split
      · exact h0
      · split
        · split
          · exact h0
          · split
            · have := hset id { mtime := some now, size := some 0 } false false now
              split
              · rename_i s1 e; rw [e] at this; exact this
              · rename_i s1 e; rw [e] at this; exact this
            · split
              · exact h0
              · exact h0
        · exact h0
  cases op with
  | lookup p n => rw [(lookup_keeps s p n).1]; exact h0
  | getattr id => simp only [step, opGetattr]; split <;> exact h0
  | readlink id now =>
    simp only [step, opReadlink]
    split
    · exact h0
    · split
      · exact keep_touch h0 _ _
      · exact keep_touch h0 _ _
  | readdir p off room now =>
    simp only [step, opReaddir]
    split
    · exact h0
    · split
      · rw [(foldl_addOpen_db _ _).1]; exact keep_touch h0 _ _
      · exact keep_touch h0 _ _
  | getxattr id n => simp only [step, opGetxattr]; repeat' first | exact h0 | split
  | listxattr id => exact h0
  | setxattr id n v now =>
    simp only [step, opSetxattr]
    split
    · exact h0
    · split
      · exact h0
      · split
        · exact h0
        · rename_i x hx
          split
          · exact h0
          · rename_i hlk
            refine KeepDb.mod ?_ id _ (fun e => absurd e (hne hx hlk))
            exact h0.eq (addName_rest _ _).1
  | removexattr id n now =>
    simp only [step, opRemovexattr]
    split
    · exact h0
    · split
      · exact h0
      · rename_i x hx
        split
        · exact h0
        · rename_i hlk
          split
          · exact h0
          · rename_i db k hd
            split
            · exact h0.eq (delName_rest hd).1
            · refine KeepDb.mod ?_ id _ (fun e => absurd e (hne hx hlk))
              exact h0.eq (delName_rest hd).1
  | unlink p n now =>
    simp only [step, opUnlink]
    have hdb := lookup_db s p n
    split
    · exact h0
    · split
      · rename_i s1 e1; rw [e1] at hdb; exact h0.eq (by rw [hdb])
      · rename_i id s1 e1
        rw [e1] at hdb
        have h1 : KeepDb i a s1.db := h0.eq (by rw [hdb])
        split
        · exact h1
        · split
          · exact h1
          · have h2 := keep_remove (s := s1) (by rw [hdb]; exact ha) hl p n id now
            split
            · rename_i e2; rw [e2] at h2; exact h2
            · rename_i e2; rw [e2] at h2; exact keep_finish (keep_forget _ _ h2)
  | rmdir p n now =>
    simp only [step, opRmdir]
    have hdb := lookup_db s p n
    split
    · exact h0
    · split
      · rename_i s1 e1; rw [e1] at hdb; exact h0.eq (by rw [hdb])
      · rename_i id s1 e1
        rw [e1] at hdb
        have h1 : KeepDb i a s1.db := h0.eq (by rw [hdb])
        split
        · exact h1
        · split
          · exact h1
          · split
            · exact h1
            · split
              · exact h1
              · have h2 := keep_remove (s := s1) (by rw [hdb]; exact ha) hl p n id now
                split
                · rename_i e2; rw [e2] at h2; exact h2
                · rename_i e2; rw [e2] at h2; exact keep_finish (keep_forget _ _ h2)
  | mknod p n mode rdev uid gid now =>
    simp only [step, opMknod]
    split
    · exact h0
    · have h1 := keep_create ha hl hi p n mode uid gid rdev 0 now
      split
      · rename_i e1; rw [e1] at h1; exact h1
      · rename_i e1; rw [e1] at h1; exact keep_entryReply h1 _
  | symlink p n t uid gid now =>
    simp only [step, opSymlink]
    split
    · exact h0
    · have h1 := keep_create ha hl hi p n symlinkMode uid gid 0 t.length now
      split
      · rename_i e1; rw [e1] at h1; exact h1
      · rename_i e1; rw [e1] at h1
        refine keep_entryReply ?_ _
        exact h1
  | link id p n now =>
    simp only [step, opLink]
    split
    · exact h0
    · split
      · exact h0
      · rename_i x hx
        split
        · exact h0
        · split
          · exact h0
          · rename_i hlk
            have hpi := hne hx (fun e => hlk (Or.inr e))
            have h1 : KeepDb i a ((s.db.modInode p (touchDir now)).addName n).1 := (h0.mod p (touchDir now) (fun e => absurd e hpi)).eq (addName_rest _ _).1
            split
            · exact h1
            · split
              · exact h1
              · refine keep_entryReply ?_ _
                dsimp only
                refine KeepDb.mod ?_ id _ (fun _ _ hb => hb)
                exact h1
  | rename po no pn nn flags now =>
    simp only [step, opRename]
    split
    · exact h0
    · split
      · exact h0
      · split
        · exact h0
        · split
          · exact h0
          · rename_i x hx
            split
            · exact h0
            · rename_i hlk1
              split
              · exact h0
              · rename_i y hy
                split
                · exact h0
                · rename_i hlk2
                  have hn1 := hne hx hlk1
                  have hn2 := hne hy hlk2
                  have hdb := lookup_db s po no
                  split
                  · rename_i e1; rw [e1] at hdb; exact h0.eq (by rw [hdb])
                  · rename_i idOld s1 e1
                    rw [e1] at hdb
                    have h1 : KeepDb i a s1.db := h0.eq (by rw [hdb])
                    have hdb2 := lookup_db s1 pn nn
                    split
                    · rename_i idNew s2 e2
                      rw [e2] at hdb2
                      have h2 : KeepDb i a s2.db := h1.eq (by rw [hdb2])
                      have h3 := keep_replace (s := s2) h2 no nn idOld idNew now hn1 hn2
                      split
                      · rename_i e3; rw [e3] at h3; exact h3
                      · rename_i e3; rw [e3] at h3; exact keep_finish (keep_forget _ _ h3)
                    · rename_i s2 e2
                      rw [e2] at hdb2
                      have h2 : KeepDb i a s2.db := h1.eq (by rw [hdb2])
                      split
                      · exact h2
                      · rename_i db3 e3
                        exact keep_finish (keep_forget _ _ (keep_renameTo h2 hn1 hn2 e3))
                    · rename_i s2 _ e2
                      rw [e2] at hdb2
                      exact h1.eq (by rw [hdb2])
  | setattr id at' c m now => exact hset id at' c m now
  | «open» id flags now => exact hopen id flags now
  | create p n mode flags uid gid now =>
    simp only [step, opCreate]
    split
    · exact h0
    · split
      · have h1 := keep_create ha hl hi p n mode uid gid 0 0 now
        split
        · rename_i e1; rw [e1] at h1; exact h1
        · rename_i e1; rw [e1] at h1; exact keep_entryReply h1 _
      · rename_i id hid
        have h1 := hopen id flags now
        split
        · rename_i e1; rw [e1] at h1; exact h1
        · rename_i e1; rw [e1] at h1; exact keep_entryReply h1 _
  | read id b now =>
    simp only [step, opRead]
    split
    · exact h0
    · split
      · exact h0
      · exact keep_touch h0 _ _
  | write id off len b now =>
    simp only [step, opWrite]
    split
    · exact h0
    · split
      · exact h0
      · rename_i x hx
        split
        · exact h0
        · rename_i hlk
          split
          · exact h0
          · exact KeepDb.mod h0 id _ (fun e => absurd e (hne hx hlk))
  | forget l => exact keep_finish (keep_forget _ _ h0)
  | upload id b o =>
    simp only [step, bgUpload]
    split
    · exact h0
    · split
      · split
        · exact h0
        · exact h0
      · exact h0


theorem create_locked {s : St} {p : Nat} {a : Inode} (ha : AL.get s.db.inodes p = some a) (hl : a.locked = true) (n : Bytes)
    (mode uid gid rdev size : Nat) (now : Int) : ∃ e, create s p n mode uid gid rdev size now = (.error e, s) := by
  unfold create
  split
  · split <;> exact ⟨_, rfl⟩
  · rw [ha]; simp only [hl, if_true]; exact ⟨_, rfl⟩

theorem remove_locked {s : St} {p : Nat} {a : Inode} (ha : AL.get s.db.inodes p = some a) (hl : a.locked = true) (n : Bytes)
    (id : Nat) (now : Int) : ∃ e, remove s p n id false now = (.error e, s) := by
  unfold remove
  split
  · split <;> exact ⟨_, rfl⟩
  · rw [ha]; simp only [hl]; exact ⟨_, rfl⟩

/-- Requests on a locked directory fail, except for `create` of a file that exists. -/
theorem locked_refused {s : St} {op : Op} {p : Nat} {a : Inode} (ha : AL.get s.db.inodes p = some a) (hl : a.locked = true)
    (hp : p ∈ dirsOf op) {r : Reply} (hr : (step s op).1 = .ok r) :
    ∃ n mode flags uid gid now id b, op = .create p n mode flags uid gid now ∧ s.db.child p n = some id ∧ r = .entry id b := by
  cases op with
  | unlink q n now =>
    simp only [dirsOf, List.mem_singleton] at hp; subst hp
    exfalso
    simp only [step, opUnlink] at hr
    have hdb := lookup_db s p n
    split at hr
    · cases hr
    · split at hr
      · cases hr
      · rename_i id s1 e1
        rw [e1] at hdb
        split at hr
        · cases hr
        · split at hr
          · cases hr
          · obtain ⟨e, he⟩ := remove_locked (s := s1) (by rw [hdb]; exact ha) hl n id now
            rw [he] at hr; cases hr
  | rmdir q n now =>
    simp only [dirsOf, List.mem_singleton] at hp; subst hp
    exfalso
    simp only [step, opRmdir] at hr
    have hdb := lookup_db s p n
    split at hr
    · cases hr
    · split at hr
      · cases hr
      · rename_i id s1 e1
        rw [e1] at hdb
        split at hr
        · cases hr
        · split at hr
          · cases hr
          · split at hr
            · cases hr
            · split at hr
              · cases hr
              · obtain ⟨e, he⟩ := remove_locked (s := s1) (by rw [hdb]; exact ha) hl n id now
                rw [he] at hr; cases hr
  | mknod q n mode rdev uid gid now =>
    simp only [dirsOf, List.mem_singleton] at hp; subst hp
    exfalso
    simp only [step, opMknod] at hr
    split at hr
    · cases hr
    · obtain ⟨e, he⟩ := create_locked ha hl n mode uid gid rdev 0 now
      rw [he] at hr; cases hr
  | symlink q n t uid gid now =>
    simp only [dirsOf, List.mem_singleton] at hp; subst hp
    exfalso
    simp only [step, opSymlink] at hr
    split at hr
    · cases hr
    · obtain ⟨e, he⟩ := create_locked ha hl n symlinkMode uid gid 0 t.length now
      rw [he] at hr; cases hr
  | create q n mode flags uid gid now =>
    simp only [dirsOf, List.mem_singleton] at hp; subst hp
    simp only [step, opCreate] at hr
    split at hr
    · cases hr
    · split at hr
      · obtain ⟨e, he⟩ := create_locked ha hl n mode uid gid 0 0 now
        rw [he] at hr; cases hr
      · rename_i id hid
        split at hr
        · cases hr
        · simp only [entryReply] at hr
          split at hr
          · cases hr
            exact ⟨n, mode, flags, uid, gid, now, id, _, rfl, hid, rfl⟩
          · cases hr
  | link id q n now =>
    simp only [dirsOf, List.mem_singleton] at hp; subst hp
    exfalso
    simp only [step, opLink] at hr
    split at hr
    · split at hr <;> cases hr
    · rw [ha] at hr
      simp only at hr
      split at hr
      · cases hr
      · rw [if_pos (Or.inr hl)] at hr
        cases hr
  | rename po no pn nn flags now =>
    simp only [dirsOf, List.mem_cons, List.not_mem_nil, or_false] at hp
    exfalso
    simp only [step, opRename] at hr
    split at hr
    · cases hr
    · split at hr
      · split at hr <;> cases hr
      · split at hr
        · cases hr
        · split at hr
          · cases hr
          · rename_i x hx
            split at hr
            · cases hr
            · rename_i hlk1
              split at hr
              · cases hr
              · rename_i y hy
                split at hr
                · cases hr
                · rename_i hlk2
                  rcases hp with rfl | rfl
                  · rw [ha] at hx; cases hx; exact hlk1 hl
                  · rw [ha] at hy; cases hy; exact hlk2 hl
  | _ => simp only [dirsOf, List.not_mem_nil] at hp

theorem specEntries_other (m : Nat → Bytes → Option Nat) {op : Op} (res : Except Err Reply) {p : Nat} (hp : p ∉ dirsOf op) (n : Bytes) :
    specEntries m op res p n = m p n := by
  cases op <;> cases res <;> try rfl
  all_goals
    rename_i r
    simp only [dirsOf, List.mem_cons, List.not_mem_nil, or_false, not_or] at hp
    cases r <;> try rfl
    all_goals
      simp only [specEntries]
      first
        | rw [if_neg (fun e => hp e.1)]
        | rw [if_neg (fun e => hp.2 e.1), if_neg (fun e => hp.1 e.1)]

theorem specEntries_error (m : Nat → Bytes → Option Nat) (op : Op) (e : Err) : specEntries m op (.error e) = m := by
  cases op <;> rfl

/-- No request changes the entries of a locked directory. -/
theorem locked_child {L' : Nat → Int} {s : St} {op : Op} (he : Eff T L' s op (step s op).1 (step s op).2) {p : Nat} {a : Inode}
    (ha : AL.get s.db.inodes p = some a) (hl : a.locked = true) (n : Bytes) : (step s op).2.db.child p n = s.db.child p n := by
  rw [he.child]
  by_cases hp : p ∈ dirsOf op
  · cases hres : (step s op).1 with
    | error e => rw [specEntries_error]
    | ok r =>
      obtain ⟨n', mode, flags, uid, gid, now, id, b, rfl, hc, rfl⟩ := locked_refused ha hl hp hres
      simp only [specEntries]
      split
      · rename_i e; rw [e.2]; exact hc.symm
      · rfl
  · exact specEntries_other _ _ hp n

/-- No request changes the extended attributes of a locked inode. -/
theorem locked_xval {L' : Nat → Int} {s : St} {op : Op} (he : Eff T L' s op (step s op).1 (step s op).2) {i : Nat} {a : Inode}
    (ha : AL.get s.db.inodes i = some a) (hl : a.locked = true) (hi : AL.get (step s op).2.db.inodes i ≠ none) (n : Bytes) :
    (step s op).2.db.xval i n = s.db.xval i n := by
  rw [he.xval i n hi]
  cases hres : (step s op).1 with
  | error e => cases op <;> rfl
  | ok r =>
    cases op with
    | setxattr id n' v now =>
      simp only [specXattrs]
      split
      · rename_i e; obtain ⟨rfl, rfl⟩ := e
        exfalso
        simp only [step, opSetxattr, ha, hl] at hres
        repeat' first | cases hres; done | split at hres
      · rfl
    | removexattr id n' now =>
      simp only [specXattrs]
      split
      · rename_i e; obtain ⟨rfl, rfl⟩ := e
        exfalso
        simp only [step, opRemovexattr, ha, hl] at hres
        repeat' first | cases hres; done | split at hres
      · rfl
    | _ => rfl

theorem create_blocks (s : St) (p : Nat) (n : Bytes) (mode uid gid rdev size : Nat) (now : Int) :
    (create s p n mode uid gid rdev size now).2.db.blocks = s.db.blocks := by
  unfold create
  split
  · rfl
  · split
    · rfl
    · split
      · rfl
      · split
        · rfl
        · dsimp only
          have h1 : (s.db.modInode p (touchDir now)).blocks = s.db.blocks := (modInode_rest _ _ _).2.2.2.2.1
          split
          · exact (addName_rest _ _).2.2.2.2.1.trans h1
          · exact (addName_rest _ _).2.2.2.2.1.trans h1

/-- No request changes the table of blocks for a locked inode, except that blocks written before are uploaded. -/
theorem locked_blocks {L : Nat → Int} {L' : Nat → Int} {s : St} (h : Inv T L s) {op : Op} (he : Eff T L' s op (step s op).1 (step s op).2) {i : Nat} {a b : Inode}
    (ha : AL.get s.db.inodes i = some a) (hl : a.locked = true) (hb : AL.get (step s op).2.db.inodes i = some b)
    (hu : ∀ k o, op ≠ .upload i k o) (k : Nat) :
    AL.get (step s op).2.db.blocks (i, k) = AL.get s.db.blocks (i, k) := by
  by_cases hw : writesTo op i
  · cases op with
    | setattr id at' c m now =>
      have e : i = id := hw
      subst e
      simp only [step, opSetattr, ha, hl, or_true, if_true]
    | «open» id flags now =>
      have e : i = id := hw
      subst e
      rw [open_keeps]
      rintro ⟨_, _, x, hx, _, hx2, _⟩
      rw [seenAttr_eq, ha] at hx; cases hx; rw [hl] at hx2; cases hx2
    | create p n mode flags uid gid now =>
      simp only [step, opCreate]
      split
      · rfl
      · split
        · have h1 := create_blocks s p n mode uid gid 0 0 now
          split
          · rename_i e1; rw [e1] at h1; rw [h1]
          · rename_i e1; rw [e1] at h1; rw [entryReply_db, h1]
        · rename_i id hid
          have hx : AL.get (opOpen s id flags now).2.db.blocks (i, k) = AL.get s.db.blocks (i, k) := by
            by_cases e : i = id
            · subst e
              have : (step s (.open i flags now)).2 = s := open_keeps (by
                rintro ⟨_, _, x, hx, _, hx2, _⟩
                rw [seenAttr_eq, ha] at hx; cases hx; rw [hl] at hx2; cases hx2)
              have : (opOpen s i flags now).2 = s := this
              rw [this]
            · exact (open_cut h (h.child_pos hid).2.1 flags now).1.blk i k e
          split
          · rename_i e1; rw [e1] at hx; exact hx
          · rename_i e1; rw [e1] at hx; rw [entryReply_db]; exact hx
    | write id off len br now =>
      have e : i = id := hw
      subst e
      simp only [step, opWrite, ha, hl, if_true]
      split <;> rfl
    | upload id b' o =>
      have e : i = id := hw
      subst e
      exact absurd rfl (hu b' o)
    | _ => exact absurd hw (fun h => h)
  · exact (he.body i a b ha hb hw).2 k

/-! #### The specification -/

/-- Everything that can be reached from `a` is locked. -/
def LockedTree (s : St) (a : Nat) : Prop := ∀ i, Below s a i → ∃ x, seenAttr s i = some x ∧ x.locked = true

/-- How a history can go on after the tree at `a` was locked: everything of `Hist`, except that `s3qlrm` is not used on
a tree that shares inodes with it, and `s3qlcp` does not copy into it. -/
inductive Later (repl fail : Bool) (a : Nat) (s0 : St) (K0 : Nat → Int) : St → (Nat → Int) → Prop
  | refl : Later repl fail a s0 K0 s0 K0
  | step {s : St} {K : Nat → Int} (op : Op) : Later repl fail a s0 K0 s K → Req K s op → Handled s op →
      (repl = false → ¬Replaces s op) → (fail = false → looksUp op → ∃ r, (step s op).1 = .ok r) →
      Later repl fail a s0 K0 (step s op).2 (fun i => K i + kernelDelta op (step s op).1 i)
  | remount {s : St} {K : Nat → Int} : Later repl fail a s0 K0 s K →
      Later repl fail a s0 K0 (Fs.remount s).2 (fun i => if i = rootInode then 1 else 0)
  | lock {s s' : St} {K : Nat → Int} (id : Nat) : Later repl fail a s0 K0 s K → lockInode s id = some s' →
      Later repl fail a s0 K0 s' K
  | rmtree {s s' : St} {K : Nat → Int} {p : Nat} {n : Bytes} {res : Except Err Unit} : Later repl fail a s0 K0 s K → n ≠ ctrlName →
      (∀ b, seenEntry s p n = some b → ¬Below s b p ∧ ∀ i, Below s b i → ¬Below s a i) → RmTree s p n res s' →
      Later repl fail a s0 K0 s' K
  | rmrow {s s' : St} {K : Nat → Int} {p id : Nat} {n : Bytes} {now : Int} {res : Except Err Unit} : Later repl fail a s0 K0 s K →
      n ≠ ctrlName → ¬Below s a p → seenEntry s p n = some id → remove s p n id true now = (res, s') → Later repl fail a s0 K0 s' K
  | cptree {s s' : St} {K : Nat → Int} {src tgt : Nat} : Later repl fail a s0 K0 s K → NoLoop s src → Linked s tgt →
      ¬Below s a tgt → CpTree s src tgt s' → Later repl fail a s0 K0 s' K

theorem Later.hist {repl fail : Bool} {a : Nat} {s0 s : St} {K0 K : Nat → Int} (h : Later repl fail a s0 K0 s K) (h0 : Hist repl fail s0 K0) :
    Hist repl fail s K := by
  induction h with
  | refl => exact h0
  | step op _ hq hh h1 h2 ih => exact ih.step op hq hh h1 h2
  | remount _ ih => exact ih.remount
  | lock id _ hl ih => exact ih.lock id hl
  | rmtree _ hn hb hr ih => exact ih.rmtree hn (fun b hb' => (hb b hb').1) hr
  | rmrow _ hn _ hc hr ih => exact ih.rmrow hn hc hr
  | cptree _ h1 h2 _ hc ih => exact ih.cptree h1 h2 hc

/-! #### Proofs -/

/-- What nothing changes of the locked inode `i`. -/
def Kept (s s' : St) (i : Nat) : Prop :=
  ∀ x, AL.get s.db.inodes i = some x → x.locked = true → (∀ n, s'.db.child i n = s.db.child i n) ∧
    ∀ y, AL.get s'.db.inodes i = some y → Frozen x y ∧ (∀ n, s'.db.xval i n = s.db.xval i n) ∧ AL.get s'.db.symlinks i = AL.get s.db.symlinks i

theorem Kept.refl (s : St) (i : Nat) : Kept s s i := by
  intro x hx hl
  refine ⟨fun _ => rfl, fun y hy => ?_⟩
  rw [hx] at hy; cases hy
  exact ⟨Frozen.refl x, fun _ => rfl, rfl⟩

theorem Hist.kept {repl fail : Bool} {s : St} {K : Nat → Int} (h : Hist repl fail s K) {op : Op} (hq : Req K s op) (hh : Handled s op) (i : Nat) :
    Kept s (Fs.step s op).2 i := by
  intro x hx hl
  obtain ⟨L, g⟩ := h.good
  obtain ⟨L', he, _⟩ := step_eff g.inv (kernelOk_of g.inv g.res g.le hq hh)
  have hle : i ≤ s.db.seq := g.inv.acc.seq i (by rw [hx]; simp)
  refine ⟨locked_child he hx hl, fun y hy => ⟨keep_step hx hl hle op y hy, locked_xval he hx hl (by rw [hy]; simp), ?_⟩⟩
  by_cases hw : writesTo op i
  · rw [he.sym i (by rw [hy]; simp)]
    cases op <;> first | rfl | exact absurd hw (fun h => h)
  · have := (inode_intact_partial h hq hh (by rw [seenAttr_eq]; exact hx) (by rw [seenAttr_eq]; exact hy) hw).2.2
    rw [seenLink_eq, seenLink_eq, hx, hy] at this
    simpa using this

theorem Fgt.kept {s s' : St} (h : Fgt s s') (i : Nat) : Kept s s' i := by
  intro x hx hl
  refine ⟨h.child i, fun y hy => ⟨?_, fun n => h.xval i n (by rw [hy]; simp), h.sym i (by rw [hy]; simp)⟩⟩
  rcases h.inode i with e | e
  · rw [e, hx] at hy; cases hy; exact Frozen.refl x
  · rw [e.1] at hy; cases hy

theorem xval_congr {db db' : Db} (h1 : db'.names = db.names) (h2 : db'.xattrs = db.xattrs) (i : Nat) (n : Bytes) : db'.xval i n = db.xval i n := by
  unfold Db.xval Db.nameId; rw [h1, h2]

theorem Kept.lock {s s' : St} {id : Nat} (h : lockInode s id = some s') (i : Nat) : Kept s s' i := by
  intro x hx hl
  unfold lockInode at h
  split at h
  · cases h
  · cases h
    have hr := modInode_rest s.db id (fun i => { i with locked := true })
    refine ⟨fun n => modInode_child _ _ _ _ _, fun y hy => ⟨?_, fun n => ?_, ?_⟩⟩
    · refine KeepDb.mod (a := x) ?_ id _ ?_ y hy
      · intro b hb; rw [hx] at hb; cases hb; exact Frozen.refl x
      · rintro _ b ⟨⟨h1, h2, h3, h4, h5, h6⟩, h7⟩
        exact ⟨⟨h1, h2, h3, h4, h5, hl⟩, h7⟩
    · exact xval_congr hr.1 hr.2.2.1 i n
    · show AL.get (s.db.modInode _ _).symlinks i = _; rw [hr.2.2.2.1]

theorem RmTree.kept {L : Nat → Int} {s s' : St} {p : Nat} {n : Bytes} {res : Except Err Unit} (hr : RmTree s p n res s')
    (h : Inv T L s) (hn : n ≠ ctrlName) (hnb : ∀ id0, s.db.child p n = some id0 → ¬DbBelow s id0 p)
    {i : Nat} (hi : ∀ id0, s.db.child p n = some id0 → ¬DbBelow s id0 i) : Kept s s' i := by
  intro x hx hl
  rcases hr.spec h hn hnb with ⟨e, _, rfl, _⟩ | ⟨id0, _, _, hpl, hc, hinv, hrest, _, _, _, hkeep, hino⟩
  · refine ⟨fun _ => rfl, fun y hy => ?_⟩
    rw [hx] at hy; cases hy
    exact ⟨Frozen.refl x, fun _ => rfl, rfl⟩
  · have hip : i ≠ p := by
      rintro rfl; rw [hx] at hpl; simp [hl] at hpl
    have hch : ∀ n, s'.db.child i n = s.db.child i n := fun m => hkeep i m (fun e => hip e.1) (hi id0 hc)
    refine ⟨hch, fun y hy => ⟨?_, fun n => hrest.xval i n (by rw [hx]; simp) (by rw [hy]; simp), hrest.sym i (by rw [hx]; simp) (by rw [hy]; simp)⟩⟩
    rcases hino i with e | ⟨a, b, ha, hb, h1, h2⟩
    · rw [e] at hy; cases hy
    · rw [hx] at ha; cases ha
      rw [hy] at hb; cases hb
      exact ⟨h1, (h2 hch).symm⟩

theorem RmEff.kept {R : Nat → Prop} {L : Nat → Int} {s s' : St} (he : RmEff T R L s s') {i : Nat} (hi : ¬R i) : Kept s s' i := by
  intro x hx hl
  have hch : ∀ n, s'.db.child i n = s.db.child i n := fun n => he.frame i n hi
  refine ⟨hch, fun y hy => ⟨?_, fun n => he.rest.xval i n (by rw [hx]; simp) (by rw [hy]; simp), he.rest.sym i (by rw [hx]; simp) (by rw [hy]; simp)⟩⟩
  rcases he.inode i with e | ⟨a, b, ha, hb, h1, h2⟩
  · rw [e] at hy; cases hy
  · rw [hx] at ha; cases ha
    rw [hy] at hb; cases hb
    exact ⟨h1, (h2 hch).symm⟩

theorem CpTree.kept {L : Nat → Int} {s s' : St} {src tgt : Nat} (hr : CpTree s src tgt s') (h : Inv NoT L s)
    (hcyc : ∀ d n, DbBelow s src d → s.db.child d n ≠ some src) (hrt : 0 < s.db.rc tgt) {i : Nat} (hi : i ≠ tgt) : Kept s s' i := by
  intro x hx hl
  have hle : i ≤ s.db.seq := h.acc.seq i (by rw [hx]; simp)
  obtain ⟨_, _, _, _, _, _, h1, _, h2, h3, h4, _⟩ := hr.spec h hcyc hrt
  refine ⟨fun n => h2 i n hle hi, fun y hy => ⟨?_, fun n => h3 i n hle, h4 i hle⟩⟩
  rw [h1 i hle hi, hx] at hy; cases hy; exact Frozen.refl x

theorem Later.same {repl fail : Bool} {a : Nat} {s0 s : St} {K0 K : Nat → Int} (h0 : Hist repl fail s0 K0) (hL : LockedTree s0 a)
    (hne : ∃ n c, s0.db.child a n = some c) (h : Later repl fail a s0 K0 s K) :
    ∀ i, DbBelow s0 a i → (∀ n, s.db.child i n = s0.db.child i n) ∧
      ∃ x y, AL.get s0.db.inodes i = some x ∧ x.locked = true ∧ AL.get s.db.inodes i = some y ∧ Frozen x y ∧
        (∀ n, s.db.xval i n = s0.db.xval i n) ∧ AL.get s.db.symlinks i = AL.get s0.db.symlinks i := by
  obtain ⟨L0, g0⟩ := h0.good
  -- one more step
  have next : ∀ {s1 s2 : St} {K2 : Nat → Int}, Hist repl fail s2 K2 → (∀ i, DbBelow s0 a i → Kept s1 s2 i) →
      (∀ i, DbBelow s0 a i → (∀ n, s1.db.child i n = s0.db.child i n) ∧
        ∃ x y, AL.get s0.db.inodes i = some x ∧ x.locked = true ∧ AL.get s1.db.inodes i = some y ∧ Frozen x y ∧
          (∀ n, s1.db.xval i n = s0.db.xval i n) ∧ AL.get s1.db.symlinks i = AL.get s0.db.symlinks i) →
      ∀ i, DbBelow s0 a i → (∀ n, s2.db.child i n = s0.db.child i n) ∧
        ∃ x y, AL.get s0.db.inodes i = some x ∧ x.locked = true ∧ AL.get s2.db.inodes i = some y ∧ Frozen x y ∧
          (∀ n, s2.db.xval i n = s0.db.xval i n) ∧ AL.get s2.db.symlinks i = AL.get s0.db.symlinks i := by
    intro s1 s2 K2 hh hk ih
    obtain ⟨L, g⟩ := hh.good
    have hch : ∀ i, DbBelow s0 a i → ∀ n, s2.db.child i n = s0.db.child i n := by
      intro i hi n
      obtain ⟨h1, x, y, _, hxl, hy, hf, _⟩ := ih i hi
      rw [(hk i hi y hy (hf.1.2.2.2.2.2 ▸ hxl)).1, h1]
    intro i hi
    refine ⟨hch i hi, ?_⟩
    obtain ⟨h1, x, y, hx, hxl, hy, hf, hxv, hsy⟩ := ih i hi
    obtain ⟨k1, k2⟩ := hk i hi y hy (hf.1.2.2.2.2.2 ▸ hxl)
    have hex : AL.get s2.db.inodes i ≠ none := by
      cases hi with
      | refl =>
        obtain ⟨n, c, hc⟩ := hne
        rw [← hch _ DbBelow.refl] at hc
        exact (g.inv.child_pos hc).2.2.2
      | entry hb hc =>
        rw [← hch _ hb] at hc
        exact (g.inv.child_pos hc).2.1
    obtain ⟨z, hz⟩ := Option.ne_none_iff_exists'.1 hex
    obtain ⟨f1, f2, f3⟩ := k2 z hz
    exact ⟨x, z, hx, hxl, hz, hf.trans f1, fun n => (f2 n).trans (hxv n), f3.trans hsy⟩
  -- a tree does not get smaller
  have bel : ∀ {s1 : St}, (∀ i, DbBelow s0 a i → ∀ n, s1.db.child i n = s0.db.child i n) → ∀ i, DbBelow s0 a i → DbBelow s1 a i := by
    intro s1 hc i hi
    induction hi with
    | refl => exact DbBelow.refl
    | entry hb hc' ih => exact ih.entry (by rw [hc _ hb]; exact hc')
  induction h with
  | refl =>
    intro i hi
    obtain ⟨x, hx, hl⟩ := hL i ((below_iff g0.inv g0.res).2 hi)
    rw [seenAttr_eq] at hx
    exact ⟨fun _ => rfl, x, x, hx, hl, hx, Frozen.refl x, fun _ => rfl, rfl⟩
  | step op h1 hq hh hr hf ih => exact next ((h1.step op hq hh hr hf).hist h0) (fun i _ => (h1.hist h0).kept hq hh i) ih
  | @remount s1 K1 h1 ih =>
    refine next (h1.remount.hist h0) (fun i _ => ?_) ih
    obtain ⟨L, g⟩ := (h1.hist h0).good
    obtain ⟨s2, he, _, hfg, _⟩ := remount_spec g.inv
    rw [he]
    exact hfg.kept i
  | lock id h1 hl ih => exact next ((h1.lock id hl).hist h0) (fun i _ => Kept.lock hl i) ih
  | @rmtree s1 s2 K1 p n res h1 hn hb hr ih =>
    refine next ((h1.rmtree hn hb hr).hist h0) (fun i hi => ?_) ih
    obtain ⟨L, g⟩ := (h1.hist h0).good
    have hb' : ∀ id0, s1.db.child p n = some id0 → ¬Below s1 id0 p ∧ ∀ i, Below s1 id0 i → ¬Below s1 a i := by
      intro id0 hc
      exact hb id0 (by rw [seenEntry_eq g.inv, if_neg hn]; exact hc)
    refine hr.kept g.inv hn (fun id0 hc hd => (hb' id0 hc).1 ((below_iff g.inv g.res).2 hd)) (fun id0 hc hd => ?_)
    exact (hb' id0 hc).2 i ((below_iff g.inv g.res).2 hd) ((below_iff g.inv g.res).2 (bel (fun j hj => (ih j hj).1) i hi))
  | @rmrow s1 s2 K1 p id n now res h1 hn hb hc hr ih =>
    refine next ((h1.rmrow hn hb hc hr).hist h0) (fun i hi => ?_) ih
    obtain ⟨L, g⟩ := (h1.hist h0).good
    rw [seenEntry_eq g.inv, if_neg hn] at hc
    rcases remove_row g.inv hc hr with rfl | ⟨_, he⟩
    · exact Kept.refl _ i
    · refine he.kept ?_
      rintro rfl
      exact hb ((below_iff g.inv g.res).2 (bel (fun j hj => (ih j hj).1) _ hi))
  | @cptree s1 s2 K1 src tgt h1 hnl htg hb hc ih =>
    refine next ((h1.cptree hnl htg hb hc).hist h0) (fun i hi => ?_) ih
    obtain ⟨L, g⟩ := (h1.hist h0).good
    refine hc.kept g.inv (noLoop_db g.inv g.res hnl) (linked_rc g.inv htg) ?_
    rintro rfl
    exact hb ((below_iff g.inv g.res).2 (bel (fun j hj => (ih j hj).1) _ hi))

/-! #### C22 -/

/-- C22: whatever happens after a tree was locked, its directory entries, and the attributes (other than link count, change
time and access time), extended attributes and link targets of its inodes stay the same.  The tree has at least one
entry. -/
theorem locked_tree_frozen_partial {repl fail : Bool} {a : Nat} {s s' : St} {K K' : Nat → Int} (h : Hist repl fail s K) (hL : LockedTree s a)
    (hne : ∃ n c, n ≠ ctrlName ∧ seenEntry s a n = some c) (hl : Later repl fail a s K s' K') {i : Nat} (hi : Below s a i) :
    (∀ n, n ≠ ctrlName → seenEntry s' i n = seenEntry s i n) ∧
    ∃ x y, seenAttr s i = some x ∧ seenAttr s' i = some y ∧ SameAttr x y ∧ y.mtime = x.mtime ∧
      (∀ n, seenXattr s' i n = seenXattr s i n) ∧ seenLink s' i = seenLink s i := by
  obtain ⟨L, g⟩ := h.good
  obtain ⟨L', g'⟩ := (hl.hist h).good
  have hne' : ∃ n c, s.db.child a n = some c := by
    obtain ⟨n, c, hn, hc⟩ := hne
    rw [seenEntry_eq g.inv, if_neg hn] at hc
    exact ⟨n, c, hc⟩
  obtain ⟨h1, x, y, hx, _, hy, hf, hxv, hsy⟩ := hl.same h hL hne' i ((below_iff g.inv g.res).1 hi)
  refine ⟨fun n hn => ?_, x, y, by rw [seenAttr_eq, hx], by rw [seenAttr_eq, hy], hf.1, hf.2, fun n => ?_, ?_⟩
  · rw [seenEntry_eq g'.inv, seenEntry_eq g.inv, if_neg hn, if_neg hn, h1]
  · rw [seenXattr_eq, seenXattr_eq, hxv]
  · rw [seenLink_eq, seenLink_eq, hx, hy, hsy]; simp

/-- C22, about data: requests that would write to a locked inode, change its size or its attributes are refused and
change nothing. -/
theorem locked_write_refused {s : St} {i : Nat} {a : Inode} (ha : seenAttr s i = some a) (hl : a.locked = true) {op : Op}
    (ho : (∃ off len b now, op = .write i off len b now) ∨ (∃ x c m now, op = .setattr i x c m now) ∨
      (∃ n now, op = .removexattr i n now) ∨ (∃ n v now, op = .setxattr i n v now) ∨
      (∃ flags now, op = .open i flags now ∧ flags % 4 ≠ 0)) :
    (∃ e, (step s op).1 = .error e ∧ (e = .EPERM ∨ ∃ n v now, op = .setxattr i n v now)) ∧ (step s op).2 = s := by
  rw [seenAttr_eq] at ha
  rcases ho with ⟨off, len, b, now, rfl⟩ | ⟨x, c, m, now, rfl⟩ | ⟨n, now, rfl⟩ | ⟨n, v, now, rfl⟩ | ⟨flags, now, rfl, hfl⟩
  · simp only [step, opWrite, ha, hl, if_true]
    split <;> exact ⟨⟨_, rfl, Or.inl rfl⟩, rfl⟩
  · refine ⟨⟨.EPERM, ?_, Or.inl rfl⟩, ?_⟩ <;> simp only [step, opSetattr, ha, hl, or_true, if_true]
  · simp only [step, opRemovexattr, ha, hl, if_true]
    split <;> exact ⟨⟨_, rfl, Or.inl rfl⟩, rfl⟩
  · simp only [step, opSetxattr, ha, hl, if_true]
    repeat' first | exact ⟨⟨_, rfl, Or.inr ⟨n, v, now, rfl⟩⟩, rfl⟩ | split
  · refine ⟨⟨.EPERM, ?_, Or.inl rfl⟩, ?_⟩ <;> simp only [step, opOpen, ha, hl, or_true, and_true, wr_iff, if_pos hfl]

/-- C22, about data: the table of blocks of a locked inode changes only by the upload of blocks written before. -/
theorem locked_blocks_kept {repl fail : Bool} {s : St} {K : Nat → Int} (h : Hist repl fail s K) {op : Op} (hq : Req K s op) (hh : Handled s op)
    {i : Nat} {a : Inode} (ha : seenAttr s i = some a) (hl : a.locked = true) (hi : seenAttr (step s op).2 i ≠ none)
    (hu : ∀ k o, op ≠ .upload i k o) (k : Nat) : AL.get (step s op).2.db.blocks (i, k) = AL.get s.db.blocks (i, k) := by
  obtain ⟨L, g⟩ := h.good
  obtain ⟨L', he, _⟩ := step_eff g.inv (kernelOk_of g.inv g.res g.le hq hh)
  rw [seenAttr_eq] at ha hi
  obtain ⟨b, hb⟩ := Option.ne_none_iff_exists'.1 hi
  exact locked_blocks g.inv he ha hl hb hu k

end Verif.Fs
