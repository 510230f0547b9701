/-
Every step keeps the shape of the tree.
-/
import Verif.Fs.Shape

namespace Verif.Fs

theorem setattr_any {s s' : St} {id : Nat} {r : SetAttr} {c m : Bool} {now : Int} {res : Except Err Reply}
    (h : opSetattr s id r c m now = (res, s')) {j : Nat} {a b : Inode} (ha : AL.get s.db.inodes j = some a)
    (hb : AL.get s'.db.inodes j = some b) :
    b = a ∨ (j = id ∧ b.rdev = a.rdev ∧ (b.mode = a.mode ∨ r.mode = some b.mode) ∧ (b.size = a.size ∨ r.size = some b.size)) := by
  have same : ∀ {b}, AL.get s.db.inodes j = some b → b = a := by
    intro b hb; rw [ha] at hb; cases hb; rfl
  unfold opSetattr at h
  split at h
  · cases h; exact Or.inl (same hb)
  · rename_i i hi
    have key : ∀ (f : Inode), AL.get (s.db.modInode id (fun _ => f)).inodes j = some b → b = a ∨ (j = id ∧ b = f) := by
      intro f hb
      rw [modInode_get, hi, ha] at hb
      split at hb <;> cases hb
      · exact Or.inr ⟨by assumption, rfl⟩
      · exact Or.inl rfl
    have hia : j = id → i = a := by
      intro e; rw [← e, ha] at hi; cases hi; rfl
    have hm : r.mode.getD i.mode = i.mode ∨ r.mode = some (r.mode.getD i.mode) := by cases r.mode <;> simp
    split at h
    · cases h; exact Or.inl (same hb)
    · dsimp only at h
      have fin : ∀ (f : Inode), AL.get (s.db.modInode id (fun _ => f)).inodes j = some b → f.rdev = i.rdev → f.mode = r.mode.getD i.mode →
          (f.size = i.size ∨ r.size = some f.size) →
          b = a ∨ (j = id ∧ b.rdev = a.rdev ∧ (b.mode = a.mode ∨ r.mode = some b.mode) ∧ (b.size = a.size ∨ r.size = some b.size)) := by
        intro f h1 h2 h3 h4
        rcases key f h1 with h5 | ⟨h5, rfl⟩
        · exact Or.inl h5
        · right
          rw [← hia h5, h2, h3]
          exact ⟨h5, rfl, hm, h4⟩
      split at h
      · cases h; exact fin _ hb rfl rfl (Or.inl rfl)
      · split at h
        · cases h; exact fin _ hb rfl rfl (Or.inl rfl)
        · split at h
          · cases h; exact fin _ hb rfl rfl (Or.inl rfl)
          · rename_i len hs
            split at h
            · cases h; exact fin _ hb rfl rfl (Or.inr hs)
            · split at h
              · cases h; exact fin _ hb rfl rfl (Or.inr hs)
              · split at h
                · cases h; exact fin _ hb rfl rfl (Or.inr hs)
                · cases h; exact fin _ hb rfl rfl (Or.inr hs)

/-- No new blocks. -/
def BSub (s s' : St) : Prop := ∀ i k o, AL.get s'.db.blocks (i, k) = some o → AL.get s.db.blocks (i, k) = some o

theorem BSub.of_eq {s s' : St} (h : s'.db.blocks = s.db.blocks) : BSub s s' := fun i k o ho => by rw [h] at ho; exact ho

theorem modInode_blocks (db : Db) (id : Nat) (f : Inode → Inode) : (db.modInode id f).blocks = db.blocks := by
  unfold Db.modInode; split <;> rfl

theorem setattr_blocks {L : Nat → Int} {s s' : St} (hi : Inv NoT L s) {id : Nat} {r : SetAttr} {c m : Bool} {now : Int} {res : Except Err Reply}
    (h : opSetattr s id r c m now = (res, s')) : BSub s s' := by
  have cut : ∀ (f : Inode → Inode) (lo hi' : Nat) (i k o : Nat), AL.get ((s.db.modInode id f).cacheRemove id lo hi').blocks (i, k) = some o →
      AL.get s.db.blocks (i, k) = some o := by
    intro f lo hi' i k o ho
    rw [modInode_cacheRemove, modInode_blocks, (hi.acc.cacheRemove id lo hi').2] at ho
    split at ho
    · cases ho
    · exact ho
  unfold opSetattr at h
  split at h
  · cases h; exact BSub.of_eq rfl
  · split at h
    · cases h; exact BSub.of_eq rfl
    · dsimp only at h
      split at h
      · cases h; exact BSub.of_eq (modInode_blocks _ _ _)
      · split at h
        · cases h; exact BSub.of_eq (modInode_blocks _ _ _)
        · split at h
          · cases h; exact BSub.of_eq (modInode_blocks _ _ _)
          · split at h
            · cases h; exact cut _ _ _
            · split at h
              · cases h; exact cut _ _ _
              · split at h
                · cases h; exact cut _ _ _
                · cases h; exact cut _ _ _

/-- `open` changes sizes of regular files only. -/
theorem open_any {L : Nat → Int} {s s' : St} (hinv : Inv NoT L s) {id flags : Nat} {now : Int} {res : Except Err Reply} (h : opOpen s id flags now = (res, s')) :
    BSub s s' ∧ ∀ j a b, AL.get s.db.inodes j = some a → AL.get s'.db.inodes j = some b →
      b = a ∨ (b.mode = a.mode ∧ b.rdev = a.rdev ∧ isReg a.mode = true) := by
  have triv : ∀ j a b, AL.get s.db.inodes j = some a → AL.get s.db.inodes j = some b →
      b = a ∨ (b.mode = a.mode ∧ b.rdev = a.rdev ∧ isReg a.mode = true) := by
    intro j a b ha hb; rw [ha] at hb; cases hb; exact Or.inl rfl
  have hset : ∀ i, AL.get s.db.inodes id = some i → isReg i.mode = true → ∀ res1 s1, opSetattr s id { mtime := some now, size := some 0 } false false now = (res1, s1) →
      BSub s s1 ∧ ∀ j a b, AL.get s.db.inodes j = some a → AL.get s1.db.inodes j = some b →
      b = a ∨ (b.mode = a.mode ∧ b.rdev = a.rdev ∧ isReg a.mode = true) := by
    intro i hi hreg res1 s1 h1
    refine ⟨setattr_blocks hinv h1, ?_⟩
    intro j a b ha hb
    rcases setattr_any h1 ha hb with h2 | ⟨rfl, h3, h4, _⟩
    · exact Or.inl h2
    · right
      rw [ha] at hi; cases hi
      refine ⟨?_, h3, hreg⟩
      rcases h4 with h4 | h4
      · exact h4
      · cases h4
  unfold opOpen at h
  dsimp only at h
  split at h
  · cases h; exact ⟨BSub.of_eq rfl, triv⟩
  · rename_i i hi
    split at h
    · cases h; exact ⟨BSub.of_eq rfl, triv⟩
    · split at h
      · split at h
        · cases h; exact ⟨BSub.of_eq rfl, triv⟩
        · split at h
          · rename_i hreg
            split at h
            · rename_i hs
              cases h; exact hset i hi hreg _ _ hs
            · rename_i hs
              cases h; exact hset i hi hreg _ _ hs
          · split at h
            · cases h; exact ⟨BSub.of_eq rfl, triv⟩
            · cases h; exact ⟨BSub.of_eq rfl, triv⟩
      · cases h; exact ⟨BSub.of_eq rfl, triv⟩

theorem entryReply_id {s s' : St} {id i : Nat} {a : Inode} (h : entryReply s id = (.ok (.entry i a), s')) : i = id := by
  unfold entryReply at h
  dsimp only at h
  split at h <;> cases h
  rfl

theorem create_any {s s' : St} {p : Nat} {n : Bytes} {mode uid gid rdev size : Nat} {now : Int} {res : Except Err Nat}
    (h : create s p n mode uid gid rdev size now = (res, s')) :
    s'.db.blocks = s.db.blocks ∧ ∀ j a b, j ≤ s.db.seq → AL.get s.db.inodes j = some a → AL.get s'.db.inodes j = some b → b.mode = a.mode ∧ b.rdev = a.rdev ∧ b.size = a.size := by
  have triv : ∀ j a b, j ≤ s.db.seq → AL.get s.db.inodes j = some a → AL.get s.db.inodes j = some b →
      b.mode = a.mode ∧ b.rdev = a.rdev ∧ b.size = a.size := by
    intro j a b _ ha hb; rw [ha] at hb; cases hb; exact ⟨rfl, rfl, rfl⟩
  unfold create at h
  split at h
  · cases h; exact ⟨rfl, triv⟩
  · split at h
    · cases h; exact ⟨rfl, triv⟩
    · split at h
      · cases h; exact ⟨rfl, triv⟩
      · split at h
        · cases h; exact ⟨rfl, triv⟩
        · dsimp only at h
          have key : ∀ (ino : Inode) (n : Bytes), (Db.addName { s.db.modInode p (touchDir now) with seq := (s.db.modInode p (touchDir now)).seq + 1, inodes := AL.set (s.db.modInode p (touchDir now)).inodes ((s.db.modInode p (touchDir now)).seq + 1) ino } n).1.blocks = s.db.blocks ∧
              ∀ j a b, j ≤ s.db.seq → AL.get s.db.inodes j = some a → AL.get (Db.addName { s.db.modInode p (touchDir now) with seq := (s.db.modInode p (touchDir now)).seq + 1, inodes := AL.set (s.db.modInode p (touchDir now)).inodes ((s.db.modInode p (touchDir now)).seq + 1) ino } n).1.inodes j = some b → b.mode = a.mode ∧ b.rdev = a.rdev ∧ b.size = a.size := by
            intro ino n
            have hsq : (s.db.modInode p (touchDir now)).seq = s.db.seq := by unfold Db.modInode; split <;> rfl
            have e1 : ∀ db : Db, (db.addName n).1.blocks = db.blocks ∧ (db.addName n).1.inodes = db.inodes := by
              intro db; unfold Db.addName; split <;> exact ⟨rfl, rfl⟩
            rw [(e1 _).1, (e1 _).2]
            refine ⟨modInode_blocks _ _ _, ?_⟩
            intro j a b hj ha hb
            rw [hsq] at hb
            simp only [AL.get_set] at hb
            rw [if_neg (by omega), modInode_get] at hb
            split at hb
            · rename_i e
              subst e
              rw [ha] at hb; cases hb; exact ⟨rfl, rfl, rfl⟩
            · rw [ha] at hb; cases hb; exact ⟨rfl, rfl, rfl⟩
          split at h
          · cases h; exact key _ n
          · cases h; exact key _ n

/-- The inode of a new entry: a new inode, or, for `create`, the one that is there. -/
theorem new_entry {s s' : St} {op : Op} {p : Nat} {n : Bytes} {id : Nat} {a : Inode}
    (hop : (∃ mode rdev uid gid now, op = .mknod p n mode rdev uid gid now) ∨ (∃ t uid gid now, op = .symlink p n t uid gid now) ∨
      (∃ mode flags uid gid now, op = .create p n mode flags uid gid now))
    (h : step s op = (.ok (.entry id a), s')) :
    (id = s.db.seq + 1 ∧ s.db.child p n = none) ∨ (id = s.db.seq + 1 ∧ ∀ mode flags uid gid now, op ≠ .create p n mode flags uid gid now) ∨ s.db.child p n = some id := by
  rcases hop with ⟨mode, rdev, uid, gid, now, rfl⟩ | ⟨t, uid, gid, now, rfl⟩ | ⟨mode, flags, uid, gid, now, rfl⟩
  · simp only [step, opMknod] at h
    split at h
    · cases h
    · split at h
      · cases h
      · rename_i hcr
        have h2 := (create_attr hcr).2.1
        right; left
        exact ⟨by rw [entryReply_id h, h2], by intros; intro h; cases h⟩
  · simp only [step, opSymlink] at h
    split at h
    · cases h
    · split at h
      · cases h
      · rename_i hcr
        have h2 := (create_attr hcr).2.1
        right; left
        exact ⟨by rw [entryReply_id h, h2], by intros; intro h; cases h⟩
  · simp only [step, opCreate] at h
    split at h
    · cases h
    · split at h
      · rename_i hn
        split at h
        · cases h
        · rename_i hcr
          have h2 := (create_attr hcr).2.1
          left
          exact ⟨by rw [entryReply_id h, h2], hn⟩
      · rename_i i hi
        split at h
        · cases h
        · right; right
          rw [entryReply_id h]; exact hi

theorem upload_blocks {s : St} {id b o i k x : Nat} {a : Inode} (ha : AL.get s.db.inodes i = some a)
    (h : AL.get (bgUpload s id b o).db.blocks (i, k) = some x) : AL.get s.db.blocks (i, k) = some x ∨ isReg a.mode = true := by
  unfold bgUpload at h
  split at h
  · exact Or.inl h
  · rename_i j hj
    split at h
    · rename_i hc
      dsimp only at h
      split at h
      · exact Or.inl h
      · dsimp only at h
        rw [AL.get_set] at h
        split at h
        · rename_i e
          cases e
          rw [ha] at hj; cases hj
          exact Or.inr hc.1
        · exact Or.inl h
    · exact Or.inl h

theorem upload_inodes (s : St) (id b o : Nat) : (bgUpload s id b o).db.inodes = s.db.inodes := by
  unfold bgUpload
  split
  · rfl
  · split
    · dsimp only
      split <;> rfl
    · rfl

/-- One step changes types, sizes and blocks of existing inodes only as allowed. -/
theorem evolve_step {L L' : Nat → Int} {s s' : St} {op : Op} {res : Except Err Reply} (hinv : Inv NoT L s) (he : Eff NoT L' s op res s') (hv : Vfs s op)
    (hst : step s op = (res, s')) {i : Nat} {a b : Inode} (ha : AL.get s.db.inodes i = some a) (hb : AL.get s'.db.inodes i = some b)
    (ht : TypeOk s i a) : Evolves s s' i a b := by
  have hseq : i ≤ s.db.seq := hinv.acc.seq i (by rw [ha]; simp)
  have dir : ∀ p, SeesDir s p → i = p → isDir a.mode = true := by
    rintro p ⟨a', h1, h2⟩ rfl
    rw [seenAttr_eq, ha] at h1; cases h1; exact h2
  have hkids : ∀ n c, s'.db.child i n = some c → isDir a.mode = true := by
    intro n c hc
    rw [he.child] at hc
    have old : s.db.child i n = some c → isDir a.mode = true := ht.kids n c
    cases res with
    | error e => cases op <;> exact old hc
    | ok r =>
      cases op with
      | mknod p m _ _ _ _ _ =>
        cases r <;> simp only [specEntries] at hc <;> first | exact old hc | skip
        split at hc
        · rename_i e; exact dir p hv.1 e.1
        · exact old hc
      | symlink p m _ _ _ _ =>
        cases r <;> simp only [specEntries] at hc <;> first | exact old hc | skip
        split at hc
        · rename_i e; exact dir p hv e.1
        · exact old hc
      | create p m _ _ _ _ _ =>
        cases r <;> simp only [specEntries] at hc <;> first | exact old hc | skip
        split at hc
        · rename_i e; exact dir p hv.1 e.1
        · exact old hc
      | link id p m _ =>
        simp only [specEntries] at hc
        split at hc
        · rename_i e; exact dir p hv.1 e.1
        · exact old hc
      | unlink p m _ =>
        simp only [specEntries] at hc
        split at hc
        · cases hc
        · exact old hc
      | rmdir p m _ =>
        simp only [specEntries] at hc
        split at hc
        · cases hc
        · exact old hc
      | rename po no pn nn _ _ =>
        simp only [specEntries] at hc
        split at hc
        · rename_i e; exact dir pn hv.1 e.1
        · split at hc
          · cases hc
          · exact old hc
      | _ => exact old hc
  have hsym : AL.get s'.db.symlinks i = AL.get s.db.symlinks i := by
    rw [he.sym i (by rw [hb]; simp)]
    cases res with
    | error e => cases op <;> rfl
    | ok r =>
      cases op with
      | symlink p m t uid gid now =>
        cases r <;> simp only [specSymlinks]
        rename_i id ino
        rw [if_neg]
        rintro rfl
        rcases new_entry (Or.inr (Or.inl ⟨t, uid, gid, now, rfl⟩)) hst with h1 | h1 | h1
        · omega
        · omega
        · have := he.child p m
          simp only [step, opSymlink] at hst
          split at hst
          · cases hst
          · split at hst
            · cases hst
            · rename_i hcr
              have h2 := (create_attr hcr).2.1
              have h3 := entryReply_id hst
              omega
      | _ => rfl
  have fin : b.mode &&& sIFMT = a.mode &&& sIFMT → b.rdev = a.rdev → (b.size = a.size ∨ isReg a.mode = true) →
      (∀ k o, AL.get s'.db.blocks (i, k) = some o → AL.get s.db.blocks (i, k) = some o ∨ isReg a.mode = true) → Evolves s s' i a b :=
    fun h1 h2 h3 h4 => ⟨h1, h2, h3, hsym, h4, hkids⟩
  by_cases hw : writesTo op i
  · cases op with
    | setattr id r c m now =>
      have hid : i = id := hw
      subst hid
      simp only [step] at hst
      have hbl := setattr_blocks hinv hst
      have h0 : ∀ k o, AL.get s'.db.blocks (i, k) = some o → AL.get s.db.blocks (i, k) = some o ∨ isReg a.mode = true :=
        fun k o ho => Or.inl (hbl _ _ _ ho)
      rcases setattr_any hst ha hb with rfl | ⟨_, h1, h2, h3⟩
      · exact fin rfl rfl (Or.inl rfl) h0
      · refine fin ?_ h1 ?_ h0
        · rcases h2 with h2 | h2
          · rw [h2]
          · exact hv.1 _ h2 a (by rw [seenAttr_eq]; exact ha)
        · rcases h3 with h3 | h3
          · exact Or.inl h3
          · obtain ⟨a', h4, h5⟩ := hv.2 (by rw [h3]; simp)
            rw [seenAttr_eq, ha] at h4; cases h4
            exact Or.inr h5
    | «open» id flags now =>
      simp only [step] at hst
      obtain ⟨hbl, hat⟩ := open_any hinv hst
      rcases hat i a b ha hb with rfl | ⟨h1, h2, h3⟩
      · exact fin rfl rfl (Or.inl rfl) (fun k o ho => Or.inl (hbl _ _ _ ho))
      · exact fin (by rw [h1]) h2 (Or.inr h3) (fun k o ho => Or.inl (hbl _ _ _ ho))
    | create p n mode flags uid gid now =>
      simp only [step, opCreate] at hst
      split at hst
      · cases hst
        rw [ha] at hb; cases hb
        exact fin rfl rfl (Or.inl rfl) (fun k o ho => Or.inl ho)
      · split at hst
        · split at hst
          · rename_i hcr
            cases hst
            obtain ⟨h1, h2⟩ := create_any hcr
            obtain ⟨h3, h4, h5⟩ := h2 i a b hseq ha hb
            exact fin (by rw [h3]) h4 (Or.inl h5) (fun k o ho => by rw [h1] at ho; exact Or.inl ho)
          · rename_i hcr
            obtain ⟨h1, h2⟩ := create_any hcr
            have hdb := entryReply_attr hst
            rw [hdb] at hb
            obtain ⟨h3, h4, h5⟩ := h2 i a b hseq ha hb
            exact fin (by rw [h3]) h4 (Or.inl h5) (fun k o ho => by rw [hdb, h1] at ho; exact Or.inl ho)
        · split at hst
          · rename_i ho
            cases hst
            obtain ⟨hbl, hat⟩ := open_any hinv ho
            rcases hat i a b ha hb with rfl | ⟨h1, h2, h3⟩
            · exact fin rfl rfl (Or.inl rfl) (fun k o ho => Or.inl (hbl _ _ _ ho))
            · exact fin (by rw [h1]) h2 (Or.inr h3) (fun k o ho => Or.inl (hbl _ _ _ ho))
          · rename_i ho
            have hdb := entryReply_attr hst
            rw [hdb] at hb
            obtain ⟨hbl, hat⟩ := open_any hinv ho
            rcases hat i a b ha hb with rfl | ⟨h1, h2, h3⟩
            · exact fin rfl rfl (Or.inl rfl) (fun k o ho => by rw [hdb] at ho; exact Or.inl (hbl _ _ _ ho))
            · exact fin (by rw [h1]) h2 (Or.inr h3) (fun k o ho => by rw [hdb] at ho; exact Or.inl (hbl _ _ _ ho))
    | write id off len br now =>
      have hid : i = id := hw
      subst hid
      obtain ⟨a', h4, h5⟩ := hv
      rw [seenAttr_eq, ha] at h4; cases h4
      simp only [step, opWrite, ha] at hst
      split at hst
      · cases hst
        rw [ha] at hb; cases hb
        exact fin rfl rfl (Or.inl rfl) (fun k o ho => Or.inl ho)
      · split at hst
        · cases hst
          rw [ha] at hb; cases hb
          exact fin rfl rfl (Or.inl rfl) (fun k o ho => Or.inl ho)
        · split at hst
          · cases hst
            rw [ha] at hb; cases hb
            exact fin rfl rfl (Or.inl rfl) (fun k o ho => Or.inl ho)
          · cases hst
            rw [modInode_get, if_pos rfl, ha] at hb
            cases hb
            exact fin rfl rfl (Or.inr h5) (fun k o ho => by rw [modInode_blocks] at ho; exact Or.inl ho)
    | upload id k o =>
      simp only [step] at hst
      cases hst
      rw [upload_inodes, ha] at hb; cases hb
      exact fin rfl rfl (Or.inl rfl) (fun k o ho => upload_blocks ha ho)
    | _ => exact hw.elim
  · obtain ⟨⟨h1, _, _, h4, h5, _⟩, h7⟩ := he.body i a b ha hb hw
    exact fin (by rw [h1]) h5.symm (Or.inl h4.symm) (fun k o ho => by rw [h7] at ho; exact Or.inl ho)

end Verif.Fs
