/-
The counter of inode numbers never goes down, so inode numbers are not used again.
-/
import Verif.Fs.Props3
import Verif.Fs.Listing

namespace Verif.Fs

/-- The counter of inode numbers is at least `m`. -/
def SeqGe (m : Nat) (db : Db) : Prop := m ≤ db.seq

theorem SeqGe.mod {m : Nat} {db : Db} (h : SeqGe m db) (id : Nat) (f : Inode → Inode) : SeqGe m (db.modInode id f) := by
  unfold SeqGe; rw [(modInode_rest db id f).2.2.2.2.2.2]; exact h

theorem SeqGe.eq {m : Nat} {db db' : Db} (h : SeqGe m db) (he : db'.seq = db.seq) : SeqGe m db' := by
  unfold SeqGe; rw [he]; exact h

theorem SeqGe.add {m : Nat} {db : Db} (h : SeqGe m db) (n : Bytes) : SeqGe m (db.addName n).1 := h.eq (addName_rest _ _).2.2.2.2.2.2

theorem SeqGe.del {m : Nat} {db db' : Db} (h : SeqGe m db) {n : Bytes} {k : Nat} (hd : db.delName n = some (db', k)) : SeqGe m db' :=
  h.eq (delName_rest hd).2.2.2.2.2.2

theorem SeqGe.purge {m : Nat} {db : Db} (h : SeqGe m db) (id size mo : Nat) : SeqGe m (db.purge id size mo) := h

theorem seq_forgetOne {m : Nat} {s : St} (h : SeqGe m s.db) (id : Nat) (n : Int) : SeqGe m (forgetOne s id n).2.db := by
  unfold forgetOne; dsimp only
  repeat' first | exact h | split

theorem seq_forget {m : Nat} : ∀ (l : List (Nat × Int)) (s : St), SeqGe m s.db → SeqGe m (forget s l).2.db
  | [], _, h => h
  | (id, n) :: t, s, h => by
    have h1 := seq_forgetOne h id n
    unfold forget
    cases hf : forgetOne s id n with
    | mk r s1 =>
      rw [hf] at h1
      cases r with
      | ok u => exact seq_forget t s1 h1
      | error e => exact h1

theorem seq_finish {m : Nat} {r : Except Err Unit × St} (h : SeqGe m r.2.db) : SeqGe m (finish r).2.db := by
  unfold finish; split <;> exact h

theorem seq_remove {m : Nat} {s : St} (h0 : SeqGe m s.db) (p : Nat) (n : Bytes) (id : Nat) (force : Bool) (now : Int) :
    SeqGe m (remove s p n id force now).2.db := by
  unfold remove
  split
  · exact h0
  · split
    · exact h0
    · split
      · exact h0
      · split
        · exact h0
        · rename_i db k hd
          have h1 : SeqGe m { db with contents := AL.erase db.contents (p, k) } := SeqGe.del h0 (db' := db) hd
          dsimp only
          split
          · exact h1
          · have h2 := (h1.mod id (fun i => { i with refcount := i.refcount - 1, ctime := now })).mod p (touchDir now)
            repeat' first | exact h2 | split

theorem seq_create {m : Nat} {s : St} (h0 : SeqGe m s.db) (p : Nat) (n : Bytes) (mode uid gid rdev size : Nat) (now : Int) :
    SeqGe m (create s p n mode uid gid rdev size now).2.db := by
  unfold create
  split
  · exact h0
  · split
    · exact h0
    · split
      · exact h0
      · split
        · exact h0
        · dsimp only
          have h1 := h0.mod p (touchDir now)
          have h2 : ∀ ino, SeqGe m { s.db.modInode p (touchDir now) with seq := (s.db.modInode p (touchDir now)).seq + 1, inodes := AL.set (s.db.modInode p (touchDir now)).inodes ((s.db.modInode p (touchDir now)).seq + 1) ino } := by
            intro ino
            exact Nat.le_succ_of_le h1
          split
          · exact (h2 _).add _
          · exact (h2 _).add _

theorem seq_entryReply {m : Nat} {s : St} (h : SeqGe m s.db) (id : Nat) : SeqGe m (entryReply s id).2.db := by rw [entryReply_db]; exact h

theorem seq_renameTo {m : Nat} {db db' : Db} (h : SeqGe m db) {po pn : Nat} {no nn : Bytes} {now : Int}
    (hr : renameTo db po no pn nn now = some db') : SeqGe m db' := by
  unfold renameTo at hr
  dsimp only at hr
  split at hr
  · cases hr
  · rename_i db2 k hd
    cases hr
    have h3 : SeqGe m db2 := (h.add nn).del hd
    refine SeqGe.mod (SeqGe.mod ?_ po _) pn _
    split <;> exact h3

theorem seq_replace {m : Nat} {s : St} (h : SeqGe m s.db) (po pn : Nat) (no nn : Bytes) (idOld idNew : Nat) (now : Int) :
    SeqGe m (replace s po no pn nn idOld idNew now).2.db := by
  unfold replace
  split
  · exact h
  · split
    · exact h
    · rename_i k hk
      dsimp only
      have h3 : SeqGe m (match AL.get s.db.contents (pn, k) with
        | some _ => { s.db with contents := AL.set s.db.contents (pn, k) idOld }
        | none => s.db) := by
        split <;> exact h
      split
      · exact h3
      · rename_i db2 k2 hd
        have h4 : SeqGe m { db2 with contents := AL.erase db2.contents (po, k2) } := SeqGe.del h3 (db' := db2) hd
        split
        · exact h4
        · have h5 := ((h4.mod idNew (fun i => { i with refcount := i.refcount - 1, ctime := now })).mod po (touchDir now)).mod pn (touchDir now)
          repeat' first | exact h5 | split

theorem seq_setattr {m : Nat} {s : St} (h0 : SeqGe m s.db) (id : Nat) (at' : SetAttr) (c mi : Bool) (now : Int) :
    SeqGe m (opSetattr s id at' c mi now).2.db := by
  unfold opSetattr
  split
  · exact h0
  · split
    · exact h0
    · have h1 : ∀ y, SeqGe m (s.db.modInode id (fun _ => y)) := fun y => h0.mod id _
      dsimp only
      repeat' first | exact h0 | exact h1 _ | split

theorem seq_open {m : Nat} {s : St} (h0 : SeqGe m s.db) (id flags : Nat) (now : Int) : SeqGe m (opOpen s id flags now).2.db := by
  unfold opOpen; dsimp only
  split
  · exact h0
  · split
    · exact h0
    · split
      · split
        · exact h0
        · split
          · have := seq_setattr h0 id { mtime := some now, size := some 0 } false false now
            split
            · rename_i s1 e; rw [e] at this; exact this
            · rename_i s1 e; rw [e] at this; exact this
          · split
            · exact h0
            · exact h0
      · exact h0

set_option maxHeartbeats 1000000 in
theorem seq_step {m : Nat} {s : St} (h0 : SeqGe m s.db) (op : Op) : SeqGe m (step s op).2.db := by
  cases op with
  | lookup p n => rw [(lookup_keeps s p n).1]; exact h0
  | getattr id => simp only [step, opGetattr]; split <;> exact h0
  | readlink id now =>
    simp only [step, opReadlink]
    split
    · exact h0
    · split <;> exact h0.mod _ _
  | readdir p off room now =>
    simp only [step, opReaddir]
    split
    · exact h0
    · split
      · rw [(foldl_addOpen_db _ _).1]; exact h0.mod _ _
      · exact h0.mod _ _
  | getxattr id n => simp only [step, opGetxattr]; repeat' first | exact h0 | split
  | listxattr id => exact h0
  | setxattr id n v now =>
    simp only [step, opSetxattr]
    split
    · exact h0
    · split
      · exact h0
      · split
        · exact h0
        · split
          · exact h0
          · refine SeqGe.mod ?_ id _
            exact h0.add n
  | removexattr id n now =>
    simp only [step, opRemovexattr]
    split
    · exact h0
    · split
      · exact h0
      · split
        · exact h0
        · split
          · exact h0
          · rename_i db k hd
            split
            · exact SeqGe.del h0 (db' := db) hd
            · refine SeqGe.mod ?_ id _
              exact SeqGe.del h0 (db' := db) hd
  | unlink p n now =>
    simp only [step, opUnlink]
    have hdb := lookup_db s p n
    split
    · exact h0
    · split
      · rename_i s1 e1; rw [e1] at hdb; exact h0.eq (by rw [hdb])
      · rename_i id s1 e1
        rw [e1] at hdb
        have h1 : SeqGe m s1.db := h0.eq (by rw [hdb])
        split
        · exact h1
        · split
          · exact h1
          · have h2 := seq_remove h1 p n id false now
            split
            · rename_i e2; rw [e2] at h2; exact h2
            · rename_i e2; rw [e2] at h2; exact seq_finish (seq_forget _ _ h2)
  | rmdir p n now =>
    simp only [step, opRmdir]
    have hdb := lookup_db s p n
    split
    · exact h0
    · split
      · rename_i s1 e1; rw [e1] at hdb; exact h0.eq (by rw [hdb])
      · rename_i id s1 e1
        rw [e1] at hdb
        have h1 : SeqGe m s1.db := h0.eq (by rw [hdb])
        split
        · exact h1
        · split
          · exact h1
          · split
            · exact h1
            · split
              · exact h1
              · have h2 := seq_remove h1 p n id false now
                split
                · rename_i e2; rw [e2] at h2; exact h2
                · rename_i e2; rw [e2] at h2; exact seq_finish (seq_forget _ _ h2)
  | mknod p n mode rdev uid gid now =>
    simp only [step, opMknod]
    split
    · exact h0
    · have h1 := seq_create h0 p n mode uid gid rdev 0 now
      split
      · rename_i e1; rw [e1] at h1; exact h1
      · rename_i e1; rw [e1] at h1; exact seq_entryReply h1 _
  | symlink p n t uid gid now =>
    simp only [step, opSymlink]
    split
    · exact h0
    · have h1 := seq_create h0 p n symlinkMode uid gid 0 t.length now
      split
      · rename_i e1; rw [e1] at h1; exact h1
      · rename_i e1; rw [e1] at h1
        refine seq_entryReply ?_ _
        exact h1
  | link id p n now =>
    simp only [step, opLink]
    split
    · exact h0
    · split
      · exact h0
      · split
        · exact h0
        · split
          · exact h0
          · have h1 : SeqGe m ((s.db.modInode p (touchDir now)).addName n).1 := (h0.mod p (touchDir now)).add n
            split
            · exact h1
            · split
              · exact h1
              · refine seq_entryReply ?_ _
                dsimp only
                refine SeqGe.mod ?_ id _
                exact h1
  | rename po no pn nn flags now =>
    simp only [step, opRename]
    split
    · exact h0
    · split
      · exact h0
      · split
        · exact h0
        · split
          · exact h0
          · split
            · exact h0
            · split
              · exact h0
              · split
                · exact h0
                · have hdb := lookup_db s po no
                  split
                  · rename_i e1; rw [e1] at hdb; exact h0.eq (by rw [hdb])
                  · rename_i idOld s1 e1
                    rw [e1] at hdb
                    have h1 : SeqGe m s1.db := h0.eq (by rw [hdb])
                    have hdb2 := lookup_db s1 pn nn
                    split
                    · rename_i idNew s2 e2
                      rw [e2] at hdb2
                      have h2 : SeqGe m s2.db := h1.eq (by rw [hdb2])
                      have h3 := seq_replace h2 po pn no nn idOld idNew now
                      split
                      · rename_i e3; rw [e3] at h3; exact h3
                      · rename_i e3; rw [e3] at h3; exact seq_finish (seq_forget _ _ h3)
                    · rename_i s2 e2
                      rw [e2] at hdb2
                      have h2 : SeqGe m s2.db := h1.eq (by rw [hdb2])
                      split
                      · exact h2
                      · rename_i db3 e3
                        exact seq_finish (seq_forget _ _ (seq_renameTo h2 e3))
                    · rename_i s2 _ e2
                      rw [e2] at hdb2
                      exact h1.eq (by rw [hdb2])
  | setattr id at' c mi now => exact seq_setattr h0 id at' c mi now
  | «open» id flags now => exact seq_open h0 id flags now
  | create p n mode flags uid gid now =>
    simp only [step, opCreate]
    split
    · exact h0
    · split
      · have h1 := seq_create h0 p n mode uid gid 0 0 now
        split
        · rename_i e1; rw [e1] at h1; exact h1
        · rename_i e1; rw [e1] at h1; exact seq_entryReply h1 _
      · rename_i id hid
        have h1 := seq_open h0 id flags now
        split
        · rename_i e1; rw [e1] at h1; exact h1
        · rename_i e1; rw [e1] at h1; exact seq_entryReply h1 _
  | read id b now =>
    simp only [step, opRead]
    split
    · exact h0
    · split
      · exact h0
      · exact h0.mod _ _
  | write id off len b now =>
    simp only [step, opWrite]
    split
    · exact h0
    · split
      · exact h0
      · split
        · exact h0
        · split
          · exact h0
          · exact h0.mod _ _
  | forget l => exact seq_finish (seq_forget _ _ h0)
  | upload id b o =>
    simp only [step, bgUpload]
    split
    · exact h0
    · split
      · split
        · exact h0
        · exact h0
      · exact h0

/-- One more step of a history. -/
inductive Next (repl fail : Bool) (K : Nat → Int) (s : St) : St → (Nat → Int) → Prop
  | step (op : Op) : Req K s op → Handled s op →
      (repl = false → ¬Replaces s op) → (fail = false → looksUp op → ∃ r, (Fs.step s op).1 = .ok r) →
      Next repl fail K s (Fs.step s op).2 (fun i => K i + kernelDelta op (Fs.step s op).1 i)
  | remount : Next repl fail K s (Fs.remount s).2 (fun i => if i = rootInode then 1 else 0)
  | lock {s' : St} (id : Nat) : lockInode s id = some s' → Next repl fail K s s' K
  | rmtree {s' : St} {p : Nat} {n : Bytes} {res : Except Err Unit} : n ≠ ctrlName →
      (∀ a, seenEntry s p n = some a → ¬Below s a p) → RmTree s p n res s' → Next repl fail K s s' K
  | rmrow {s' : St} {p id : Nat} {n : Bytes} {now : Int} {res : Except Err Unit} : n ≠ ctrlName → seenEntry s p n = some id →
      remove s p n id true now = (res, s') → Next repl fail K s s' K
  | cptree {s' : St} {src tgt : Nat} : NoLoop s src → Linked s tgt → CpTree s src tgt s' → Next repl fail K s s' K

/-- Any number of steps of a history. -/
inductive Reach (repl fail : Bool) (s : St) (K : Nat → Int) : St → (Nat → Int) → Prop
  | refl : Reach repl fail s K s K
  | next {s1 s2 : St} {K1 K2 : Nat → Int} : Reach repl fail s K s1 K1 → Next repl fail K1 s1 s2 K2 → Reach repl fail s K s2 K2

theorem Next.hist {repl fail : Bool} {s s' : St} {K K' : Nat → Int} (h : Hist repl fail s K) (hn : Next repl fail K s s' K') : Hist repl fail s' K' := by
  cases hn with
  | step op h1 h2 h3 h4 => exact h.step op h1 h2 h3 h4
  | remount => exact h.remount
  | lock id h2 => exact h.lock id h2
  | rmtree h1 h2 h3 => exact h.rmtree h1 h2 h3
  | rmrow h1 h2 h3 => exact h.rmrow h1 h2 h3
  | cptree h1 h2 h3 => exact h.cptree h1 h2 h3

theorem Reach.hist {repl fail : Bool} {s s' : St} {K K' : Nat → Int} (h : Hist repl fail s K) (hr : Reach repl fail s K s' K') : Hist repl fail s' K' := by
  induction hr with
  | refl => exact h
  | next _ hn ih => exact hn.hist ih

/-- Along a step, the counter does not go down, and an inode that exists afterwards but not before has a number above
the counter. -/
theorem Next.seq {repl fail : Bool} {s s' : St} {K K' : Nat → Int} (h : Hist repl fail s K) (hn : Next repl fail K s s' K') :
    s.db.seq ≤ s'.db.seq ∧ ∀ i, i ≤ s.db.seq → AL.get s.db.inodes i = none → AL.get s'.db.inodes i = none := by
  obtain ⟨L, g⟩ := h.good
  cases hn with
  | step op hq hh h3 h4 =>
    obtain ⟨L', he, _⟩ := step_eff g.inv (kernelOk_of g.inv g.res g.le hq hh)
    refine ⟨seq_step (Nat.le_refl s.db.seq) op, fun i hi h0 => ?_⟩
    cases hg : AL.get (Fs.step s op).2.db.inodes i with
    | none => rfl
    | some x =>
      have := (he.fresh i h0 (by rw [hg]; simp)).1
      omega
  | remount =>
    obtain ⟨s1, he, _, hfg, _⟩ := remount_spec g.inv
    rw [he]
    refine ⟨Nat.le_of_eq hfg.sq.symm, fun i hi h0 => ?_⟩
    rcases hfg.inode i with e | e
    · exact e.trans h0
    · exact e.1
  | lock id h2 =>
    unfold lockInode at h2
    split at h2
    · cases h2
    · cases h2
      refine ⟨Nat.le_of_eq (modInode_rest _ _ _).2.2.2.2.2.2.symm, fun i hi h0 => ?_⟩
      show AL.get (s.db.modInode _ _).inodes i = none
      rw [modInode_get]
      split
      · rename_i e; rw [← e, h0]; rfl
      · exact h0
  | @rmtree _ p n res h1 h2 h3 =>
    rcases h3.spec g.inv h1 (fun id0 hc hd => h2 id0 (by rw [seenEntry_eq g.inv, if_neg h1]; exact hc) ((below_iff g.inv g.res).2 hd)) with
      ⟨e, _, rfl, _⟩ | ⟨id0, _, _, _, _, _, _, _, hsq, _, _, hino⟩
    · exact ⟨Nat.le_refl _, fun _ _ h => h⟩
    · refine ⟨Nat.le_of_eq hsq.symm, fun i hi h0 => ?_⟩
      rcases hino i with e | ⟨a, b, ha, _⟩
      · exact e
      · rw [h0] at ha; cases ha
  | rmrow h1 h2 h3 =>
    rw [seenEntry_eq g.inv, if_neg h1] at h2
    rcases remove_row g.inv h2 h3 with rfl | ⟨_, he⟩
    · exact ⟨Nat.le_refl _, fun _ _ h => h⟩
    · refine ⟨Nat.le_of_eq he.seq.symm, fun i hi h0 => ?_⟩
      rcases he.inode i with e | ⟨a, b, ha, _⟩
      · exact e
      · rw [h0] at ha; cases ha
  | cptree h1 h2 h3 =>
    obtain ⟨_, _, _, _, _, hsq, hino, ⟨a, t, _, ht, _⟩, _⟩ := h3.spec g.inv (noLoop_db g.inv g.res h1) (linked_rc g.inv h2)
    refine ⟨hsq, fun i hi h0 => ?_⟩
    rw [hino i hi (by rintro rfl; rw [h0] at ht; cases ht)]
    exact h0

/-- C20: inode numbers are never used again: an inode that is gone stays gone for ever, also across mounts. -/
theorem inode_never_reused {repl fail : Bool} {s s1 s2 : St} {K K1 K2 : Nat → Int} (h : Hist repl fail s K) {i : Nat}
    (hi : seenAttr s i ≠ none) (h1 : Reach repl fail s K s1 K1) (hg : seenAttr s1 i = none) (h2 : Reach repl fail s1 K1 s2 K2) :
    seenAttr s2 i = none := by
  rw [seenAttr_eq] at hi hg ⊢
  obtain ⟨L, g⟩ := h.good
  have hle : i ≤ s.db.seq := g.inv.acc.seq i hi
  have hle1 : i ≤ s1.db.seq := by
    clear hg h2
    induction h1 with
    | refl => exact hle
    | next h1 hn ih => have := (hn.seq (h1.hist h)).1; omega
  have key : i ≤ s2.db.seq ∧ AL.get s2.db.inodes i = none := by
    induction h2 with
    | refl => exact ⟨hle1, hg⟩
    | next h2 hn ih =>
      have := hn.seq (h2.hist (h1.hist h))
      exact ⟨Nat.le_trans ih.1 this.1, this.2 i ih.1 ih.2⟩
  exact key.2

end Verif.Fs
