/-
C22: files become immutable only by `s3qllock`.
-/
import Verif.Fs.Lock

namespace Verif.Fs

/-- All locked inodes are in `L`. -/
def Lk (L : Nat → Prop) (db : Db) : Prop := ∀ i b, AL.get db.inodes i = some b → b.locked = true → L i

theorem Lk.eq {L : Nat → Prop} {db db' : Db} (h : Lk L db) (he : db'.inodes = db.inodes) : Lk L db' := by
  unfold Lk; rw [he]; exact h

theorem Lk.mod {L : Nat → Prop} {db : Db} (h : Lk L db) (id : Nat) (f : Inode → Inode) (hf : ∀ b, (f b).locked = b.locked) : Lk L (db.modInode id f) := by
  intro i b hb hl
  rw [modInode_get] at hb
  split at hb
  · rename_i e; subst e
    cases hg : AL.get db.inodes i with
    | none => rw [hg] at hb; cases hb
    | some x => rw [hg] at hb; cases hb; rw [hf] at hl; exact h _ x hg hl
  · exact h i b hb hl

theorem Lk.const {L : Nat → Prop} {db : Db} (h : Lk L db) {id : Nat} {x y : Inode} (hx : AL.get db.inodes id = some x) (hy : y.locked = x.locked) :
    Lk L (db.modInode id (fun _ => y)) := by
  intro i b hb hl
  rw [modInode_get] at hb
  split at hb
  · rename_i e; subst e
    rw [hx] at hb; cases hb; rw [hy] at hl; exact h _ x hx hl
  · exact h i b hb hl

theorem Lk.purge {L : Nat → Prop} {db : Db} (h : Lk L db) (id size m : Nat) : Lk L (db.purge id size m) := by
  intro i b hb
  rw [(purge_rest db id size m).2.2] at hb
  split at hb
  · cases hb
  · exact h i b hb

theorem lk_touch {L : Nat → Prop} {db : Db} (h : Lk L db) (id : Nat) (now : Int) : Lk L (db.modInode id (touchAtime now)) :=
  h.mod id _ (fun b => by unfold touchAtime; split <;> rfl)

theorem lk_forgetOne {L : Nat → Prop} {s : St} (h : Lk L s.db) (id : Nat) (n : Int) : Lk L (forgetOne s id n).2.db := by
  unfold forgetOne; dsimp only
  split
  · split
    · exact h
    · split
      · exact h.purge _ _ _
      · exact h
  · exact h

theorem lk_forget {L : Nat → Prop} : ∀ (l : List (Nat × Int)) (s : St), Lk L s.db → Lk L (forget s l).2.db
  | [], _, h => h
  | (id, n) :: t, s, h => by
    have h1 := lk_forgetOne h id n
    unfold forget
    cases hf : forgetOne s id n with
    | mk r s1 =>
      rw [hf] at h1
      cases r with
      | ok u => exact lk_forget t s1 h1
      | error e => exact h1

theorem lk_finish {L : Nat → Prop} {r : Except Err Unit × St} (h : Lk L r.2.db) : Lk L (finish r).2.db := by
  unfold finish
  split
  · exact h
  · exact h

theorem lk_remove {L : Nat → Prop} {s : St} (h0 : Lk L s.db) (p : Nat) (n : Bytes) (id : Nat) (now : Int) :
    Lk L (remove s p n id false now).2.db := by
  unfold remove
  split
  · exact h0
  · split
    · exact h0
    · rename_i ip hip
      split
      · exact h0
      · rename_i hlk
        split
        · exact h0
        · rename_i db k hd
          have h1 : Lk L { db with contents := AL.erase db.contents (p, k) } := h0.eq (delName_rest hd).1
          dsimp only
          split
          · exact h1
          · have h2 := (h1.mod id (fun i => { i with refcount := i.refcount - 1, ctime := now }) (fun _ => rfl)).mod p (touchDir now)
              (fun _ => rfl)
            split
            · exact h2
            · split
              · exact h2.purge _ _ _
              · exact h2

theorem lk_create {L : Nat → Prop} {s : St} (h0 : Lk L s.db)
    (p : Nat) (n : Bytes) (mode uid gid rdev size : Nat) (now : Int) : Lk L (create s p n mode uid gid rdev size now).2.db := by
  unfold create
  split
  · exact h0
  · split
    · exact h0
    · rename_i ip hip
      split
      · exact h0
      · rename_i hlk
        split
        · exact h0
        · dsimp only
          have h1 := h0.mod p (touchDir now) (fun _ => rfl)
          have h2 : ∀ ino : Inode, ino.locked = false → Lk L { s.db.modInode p (touchDir now) with seq := (s.db.modInode p (touchDir now)).seq + 1, inodes := AL.set (s.db.modInode p (touchDir now)).inodes ((s.db.modInode p (touchDir now)).seq + 1) ino } := by
            intro ino hino i b hb hl
            have hb : AL.get (AL.set (s.db.modInode p (touchDir now)).inodes ((s.db.modInode p (touchDir now)).seq + 1) ino) i = some b := hb
            by_cases e : i = (s.db.modInode p (touchDir now)).seq + 1
            · subst e
              rw [AL.get_set_self] at hb; cases hb; rw [hino] at hl; cases hl
            · rw [AL.get_set_ne _ _ e] at hb
              exact h1 i b hb hl
          split
          · exact (h2 _ rfl).eq (addName_rest _ _).1
          · exact (h2 _ rfl).eq (addName_rest _ _).1

theorem lk_entryReply {L : Nat → Prop} {s : St} (h : Lk L s.db) (id : Nat) : Lk L (entryReply s id).2.db := by
  unfold entryReply; dsimp only
  split
  · exact h
  · exact h

theorem lk_renameTo {L : Nat → Prop} {db db' : Db} (h : Lk L db) {po pn : Nat} {no nn : Bytes} {now : Int}
    (hr : renameTo db po no pn nn now = some db') : Lk L db' := by
  unfold renameTo at hr
  dsimp only at hr
  split at hr
  · cases hr
  · rename_i db2 k hd
    cases hr
    have h3 : Lk L db2 := (h.eq (addName_rest _ _).1).eq (delName_rest hd).1
    refine Lk.mod (Lk.mod ?_ po (touchDir now) (fun _ => rfl)) pn (touchDir now) (fun _ => rfl)
    split
    · exact h3
    · exact h3

theorem lk_replace {L : Nat → Prop} {s : St} (h : Lk L s.db) {po pn : Nat} (no nn : Bytes) (idOld idNew : Nat) (now : Int) : Lk L (replace s po no pn nn idOld idNew now).2.db := by
  unfold replace
  split
  · exact h
  · split
    · exact h
    · rename_i k hk
      dsimp only
      have h3 : Lk L (match AL.get s.db.contents (pn, k) with
        | some _ => { s.db with contents := AL.set s.db.contents (pn, k) idOld }
        | none => s.db) := by
        split
        · exact h
        · exact h
      split
      · exact h3
      · rename_i db2 k2 hd
        have h4 : Lk L { db2 with contents := AL.erase db2.contents (po, k2) } := h3.eq (delName_rest hd).1
        split
        · exact h4
        · have h5 := ((h4.mod idNew (fun i => { i with refcount := i.refcount - 1, ctime := now }) (fun _ => rfl)).mod po (touchDir now)
            (fun _ => rfl)).mod pn (touchDir now) (fun _ => rfl)
          split
          · exact h5
          · split
            · exact h5.purge _ _ _
            · exact h5

set_option maxHeartbeats 1000000 in
/-- No request locks an inode. -/
theorem lk_step {L : Nat → Prop} {s : St} (h0 : Lk L s.db) (op : Op) : Lk L (step s op).2.db := by
  have hset : ∀ (id : Nat) (at' : SetAttr) (c m : Bool) (now : Int), Lk L (opSetattr s id at' c m now).2.db := by
    intro id at' c m now
    unfold opSetattr
    split
    · exact h0
    · rename_i x hx
      split
      · exact h0
      · rename_i hlk
        have h1 : ∀ y : Inode, y.locked = x.locked → Lk L (s.db.modInode id (fun _ => y)) := fun y hy => h0.const hx hy
        have h1' : ∀ (y : Inode) (db' : Db), y.locked = x.locked → db'.inodes = (s.db.modInode id (fun _ => y)).inodes → Lk L db' := fun y db' hy he => (h1 y hy).eq he
        dsimp only
        split
        · exact h1 _ rfl
        · split
          · exact h1 _ rfl
          · split
            · exact h1 _ rfl
            · split
              · refine h1' _ _ ?_ rfl; rfl
              · split
                · refine h1' _ _ ?_ rfl; rfl
                · split
                  · refine h1' _ _ ?_ rfl; rfl
                  · refine h1' _ _ ?_ rfl; rfl
  have hopen : ∀ (id flags : Nat) (now : Int), Lk L (opOpen s id flags now).2.db := by
    intro id flags now
    unfold opOpen; dsimp only
    split
    · exact h0
    · split
      · exact h0
      · split
        · split
          · exact h0
          · split
            · have := hset id { mtime := some now, size := some 0 } false false now
              split
              · rename_i s1 e; rw [e] at this; exact this
              · rename_i s1 e; rw [e] at this; exact this
            · split
              · exact h0
              · exact h0
        · exact h0
  cases op with
  | lookup p n => rw [(lookup_keeps s p n).1]; exact h0
  | getattr id => simp only [step, opGetattr]; split <;> exact h0
  | readlink id now =>
    simp only [step, opReadlink]
    split
    · exact h0
    · split
      · exact lk_touch h0 _ _
      · exact lk_touch h0 _ _
  | readdir p off room now =>
    simp only [step, opReaddir]
    split
    · exact h0
    · split
      · rw [(foldl_addOpen_db _ _).1]; exact lk_touch h0 _ _
      · exact lk_touch h0 _ _
  | getxattr id n => simp only [step, opGetxattr]; repeat' first | exact h0 | split
  | listxattr id => exact h0
  | setxattr id n v now =>
    simp only [step, opSetxattr]
    split
    · exact h0
    · split
      · exact h0
      · split
        · exact h0
        · rename_i x hx
          split
          · exact h0
          · rename_i hlk
            refine Lk.mod ?_ id _ (fun _ => rfl)
            exact h0.eq (addName_rest _ _).1
  | removexattr id n now =>
    simp only [step, opRemovexattr]
    split
    · exact h0
    · split
      · exact h0
      · rename_i x hx
        split
        · exact h0
        · rename_i hlk
          split
          · exact h0
          · rename_i db k hd
            split
            · exact h0.eq (delName_rest hd).1
            · refine Lk.mod ?_ id _ (fun _ => rfl)
              exact h0.eq (delName_rest hd).1
  | unlink p n now =>
    simp only [step, opUnlink]
    have hdb := lookup_db s p n
    split
    · exact h0
    · split
      · rename_i s1 e1; rw [e1] at hdb; exact h0.eq (by rw [hdb])
      · rename_i id s1 e1
        rw [e1] at hdb
        have h1 : Lk L s1.db := h0.eq (by rw [hdb])
        split
        · exact h1
        · split
          · exact h1
          · have h2 := lk_remove (s := s1) h1 p n id now
            split
            · rename_i e2; rw [e2] at h2; exact h2
            · rename_i e2; rw [e2] at h2; exact lk_finish (lk_forget _ _ h2)
  | rmdir p n now =>
    simp only [step, opRmdir]
    have hdb := lookup_db s p n
    split
    · exact h0
    · split
      · rename_i s1 e1; rw [e1] at hdb; exact h0.eq (by rw [hdb])
      · rename_i id s1 e1
        rw [e1] at hdb
        have h1 : Lk L s1.db := h0.eq (by rw [hdb])
        split
        · exact h1
        · split
          · exact h1
          · split
            · exact h1
            · split
              · exact h1
              · have h2 := lk_remove (s := s1) h1 p n id now
                split
                · rename_i e2; rw [e2] at h2; exact h2
                · rename_i e2; rw [e2] at h2; exact lk_finish (lk_forget _ _ h2)
  | mknod p n mode rdev uid gid now =>
    simp only [step, opMknod]
    split
    · exact h0
    · have h1 := lk_create h0 p n mode uid gid rdev 0 now
      split
      · rename_i e1; rw [e1] at h1; exact h1
      · rename_i e1; rw [e1] at h1; exact lk_entryReply h1 _
  | symlink p n t uid gid now =>
    simp only [step, opSymlink]
    split
    · exact h0
    · have h1 := lk_create h0 p n symlinkMode uid gid 0 t.length now
      split
      · rename_i e1; rw [e1] at h1; exact h1
      · rename_i e1; rw [e1] at h1
        refine lk_entryReply ?_ _
        exact h1
  | link id p n now =>
    simp only [step, opLink]
    split
    · exact h0
    · split
      · exact h0
      · rename_i x hx
        split
        · exact h0
        · split
          · exact h0
          · rename_i hlk
            have h1 : Lk L ((s.db.modInode p (touchDir now)).addName n).1 := (h0.mod p (touchDir now) (fun _ => rfl)).eq (addName_rest _ _).1
            split
            · exact h1
            · split
              · exact h1
              · refine lk_entryReply ?_ _
                dsimp only
                refine Lk.mod ?_ id _ (fun _ => rfl)
                exact h1
  | rename po no pn nn flags now =>
    simp only [step, opRename]
    split
    · exact h0
    · split
      · exact h0
      · split
        · exact h0
        · split
          · exact h0
          · rename_i x hx
            split
            · exact h0
            · rename_i hlk1
              split
              · exact h0
              · rename_i y hy
                split
                · exact h0
                · rename_i hlk2
                  have hdb := lookup_db s po no
                  split
                  · rename_i e1; rw [e1] at hdb; exact h0.eq (by rw [hdb])
                  · rename_i idOld s1 e1
                    rw [e1] at hdb
                    have h1 : Lk L s1.db := h0.eq (by rw [hdb])
                    have hdb2 := lookup_db s1 pn nn
                    split
                    · rename_i idNew s2 e2
                      rw [e2] at hdb2
                      have h2 : Lk L s2.db := h1.eq (by rw [hdb2])
                      have h3 := lk_replace (s := s2) (po := po) (pn := pn) h2 no nn idOld idNew now
                      split
                      · rename_i e3; rw [e3] at h3; exact h3
                      · rename_i e3; rw [e3] at h3; exact lk_finish (lk_forget _ _ h3)
                    · rename_i s2 e2
                      rw [e2] at hdb2
                      have h2 : Lk L s2.db := h1.eq (by rw [hdb2])
                      split
                      · exact h2
                      · rename_i db3 e3
                        exact lk_finish (lk_forget _ _ (lk_renameTo h2 e3))
                    · rename_i s2 _ e2
                      rw [e2] at hdb2
                      exact h1.eq (by rw [hdb2])
  | setattr id at' c m now => exact hset id at' c m now
  | «open» id flags now => exact hopen id flags now
  | create p n mode flags uid gid now =>
    simp only [step, opCreate]
    split
    · exact h0
    · split
      · have h1 := lk_create h0 p n mode uid gid 0 0 now
        split
        · rename_i e1; rw [e1] at h1; exact h1
        · rename_i e1; rw [e1] at h1; exact lk_entryReply h1 _
      · rename_i id hid
        have h1 := hopen id flags now
        split
        · rename_i e1; rw [e1] at h1; exact h1
        · rename_i e1; rw [e1] at h1; exact lk_entryReply h1 _
  | read id b now =>
    simp only [step, opRead]
    split
    · exact h0
    · split
      · exact h0
      · exact lk_touch h0 _ _
  | write id off len b now =>
    simp only [step, opWrite]
    split
    · exact h0
    · split
      · exact h0
      · rename_i x hx
        split
        · exact h0
        · rename_i hlk
          split
          · exact h0
          · exact Lk.mod h0 id _ (fun _ => rfl)
  | forget l => exact lk_finish (lk_forget _ _ h0)
  | upload id b o =>
    simp only [step, bgUpload]
    split
    · exact h0
    · split
      · split
        · exact h0
        · exact h0
      · exact h0

/-- **C22 (nothing else is locked).** A request of the kernel never makes a file or directory immutable, and a new one never is: what is immutable afterwards was immutable before. -/
theorem C22_only_by_request (s : St) (op : Op) {i : Nat} {b : Inode} (hb : AL.get (step s op).2.db.inodes i = some b) (hl : b.locked = true) :
    ∃ a, AL.get s.db.inodes i = some a ∧ a.locked = true :=
  lk_step (L := fun i => ∃ a, AL.get s.db.inodes i = some a ∧ a.locked = true) (fun _ a ha hl => ⟨a, ha, hl⟩) op i b hb hl

/-- **C22 (a new file system).** Nothing is immutable in a new file system, after any requests. -/
theorem C22_fresh (uid gid : Nat) (now : Int) (m : Nat) (ops : List Op) {i : Nat} {b : Inode} (hb : AL.get (run (init uid gid now m) ops).db.inodes i = some b) : b.locked = false := by
  have key : ∀ (ops : List Op) (s : St), Lk (fun _ => False) s.db → Lk (fun _ => False) (run s ops).db := by
    intro ops
    induction ops with
    | nil => intro s h; exact h
    | cons o os ih => intro s h; exact ih _ (lk_step h o)
  have h0 : Lk (fun _ => False) (init uid gid now m).db := by
    intro i b hb hl
    have hm := AL.get_some_mem hb
    have hm : (i, b) ∈ (initDb uid gid now).inodes := hm
    simp only [initDb, List.mem_cons, Prod.mk.injEq, List.not_mem_nil, or_false] at hm
    rcases hm with ⟨_, rfl⟩ | ⟨_, rfl⟩ | ⟨_, rfl⟩ <;> cases hl
  cases hb2 : b.locked with
  | false => rfl
  | true => exact (key ops _ h0 i b hb hb2).elim

/-- Not vacuous: the new file is there, and not locked. -/
example : (AL.get (run (init 0 0 1 100) [.mknod 1 [97] 0o100644 0 0 0 2]).db.inodes 4).map (·.locked) = some false := by decide

end Verif.Fs
