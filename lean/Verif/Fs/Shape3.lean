/-
Every step keeps the shape of the tree (continued).
-/
import Verif.Fs.Shape2

namespace Verif.Fs

theorem finish_reply {r : Except Err Unit × St} {i : Nat} {a : Inode} {s' : St} : finish r ≠ (.ok (.entry i a), s') := by
  intro h
  unfold finish at h
  split at h <;> cases h

/-- The requests whose reply is an inode with attributes. -/
theorem entry_ops {s s' : St} {op : Op} {i : Nat} {a : Inode} (h : step s op = (.ok (.entry i a), s')) :
    (s'.db = s.db) ∨ (∃ p n mode rdev uid gid now, op = .mknod p n mode rdev uid gid now) ∨ (∃ p n t uid gid now, op = .symlink p n t uid gid now) ∨
      (∃ p n mode flags uid gid now, op = .create p n mode flags uid gid now) ∨
      (∃ p n now, op = .link i p n now) ∨ (∃ r c m now, op = .setattr i r c m now) := by
  cases op with
  | lookup p n =>
    left
    have := (lookup_keeps s p n).1
    rw [h] at this; exact this
  | getattr id =>
    left
    simp only [step, opGetattr] at h
    split at h <;> cases h
    rfl
  | mknod p n mode rdev uid gid now => exact Or.inr (Or.inl ⟨_, _, _, _, _, _, _, rfl⟩)
  | symlink p n t uid gid now => exact Or.inr (Or.inr (Or.inl ⟨_, _, _, _, _, _, rfl⟩))
  | create p n mode flags uid gid now => exact Or.inr (Or.inr (Or.inr (Or.inl ⟨_, _, _, _, _, _, _, rfl⟩)))
  | link id p n now =>
    simp only [step, opLink] at h
    repeat (first | (split at h) | cases h)
    all_goals first
      | (have e := entryReply_id h; subst e; exact Or.inr (Or.inr (Or.inr (Or.inr (Or.inl ⟨_, _, _, rfl⟩)))))
      | skip
  | setattr id r c m now =>
    have : i = id := by
      simp only [step, opSetattr] at h
      split at h
      · cases h
      · split at h
        · cases h
        · split at h
          · cases h
          · split at h
            · cases h
            · split at h
              · cases h; rfl
              · split at h
                · cases h; rfl
                · split at h
                  · cases h
                  · split at h <;> cases h
                    rfl
    subst this
    exact Or.inr (Or.inr (Or.inr (Or.inr (Or.inr ⟨_, _, _, _, rfl⟩))))
  | readlink id now =>
    simp only [step, opReadlink] at h
    repeat (first | (split at h) | cases h | dsimp only at h)
  | readdir p off room now =>
    simp only [step, opReaddir] at h
    repeat (first | (split at h) | cases h | dsimp only at h)
  | getxattr id n =>
    simp only [step, opGetxattr] at h
    repeat (first | (split at h) | cases h | dsimp only at h)
  | listxattr id =>
    simp only [step, opListxattr] at h
    repeat (first | (split at h) | cases h | dsimp only at h)
  | setxattr id n v now =>
    simp only [step, opSetxattr] at h
    repeat (first | (split at h) | cases h | dsimp only at h)
  | removexattr id n now =>
    simp only [step, opRemovexattr] at h
    repeat (first | (split at h) | cases h | dsimp only at h)
  | unlink p n now =>
    simp only [step, opUnlink] at h
    repeat (first | (exact absurd h finish_reply) | (split at h) | cases h | dsimp only at h)
  | rmdir p n now =>
    simp only [step, opRmdir] at h
    repeat (first | (exact absurd h finish_reply) | (split at h) | cases h | dsimp only at h)
  | rename po no pn nn flags now =>
    simp only [step, opRename] at h
    repeat (first | (exact absurd h finish_reply) | (split at h) | cases h | dsimp only at h)
  | «open» id flags now =>
    simp only [step, opOpen] at h
    repeat (first | (split at h) | cases h | dsimp only at h)
  | read id b now =>
    simp only [step, opRead] at h
    repeat (first | (split at h) | cases h | dsimp only at h)
  | write id off len b now =>
    simp only [step, opWrite] at h
    repeat (first | (split at h) | cases h | dsimp only at h)
  | forget l =>
    simp only [step] at h
    repeat (first | (exact absurd h finish_reply) | (split at h) | cases h | dsimp only at h)
  | upload id b o =>
    simp only [step] at h
    cases h

theorem setgid_type (m : Nat) : (m ||| 0o2000) &&& sIFMT = m &&& sIFMT := by
  rw [Nat.and_or_distrib_right]
  have : 0o2000 &&& sIFMT = 0 := by decide
  rw [this, Nat.or_zero]

theorem ifThen_type (c : Prop) [Decidable c] (m : Nat) : (if c then m ||| 0o2000 else m) &&& sIFMT = m &&& sIFMT := by
  split
  · exact setgid_type m
  · rfl

/-- New inodes are as they should be. -/
theorem fresh_type {repl fail : Bool} {K L' : Nat → Int} {s s' : St} {op : Op} {res : Except Err Reply} (hh : Hist repl fail s K) {L : Nat → Int} (hinv : Inv NoT L s)
    (hreq : ∀ i, (∃ p n now, op = .link i p n now) ∨ (∃ r c m now, op = .setattr i r c m now) → AL.get s.db.inodes i ≠ none)
    (he : Eff NoT L' s op res s') (hv : Vfs s op) (hst : step s op = (res, s')) {i : Nat} {b : Inode} (ha : AL.get s.db.inodes i = none)
    (hb : AL.get s'.db.inodes i = some b) : TypeOk s' i b := by
  obtain ⟨hid, ⟨ino, rfl⟩, hblk⟩ := he.fresh i ha (by rw [hb]; simp)
  have hnl : AL.get s.db.symlinks i = none := by
    cases h : AL.get s.db.symlinks i with
    | none => rfl
    | some t => exact absurd ha (hinv.acc.sin i t h)
  have hnk : ∀ n c, s.db.child i n ≠ some c := by
    intro n c hc
    obtain ⟨k, _, hk⟩ := (hinv.acc.child_iff _ _ _).1 hc
    exact rc_pos_ne (hinv.acc.par0 _ _ _ hk) ha
  have hnp : ∀ p, SeesDir s p → i ≠ p := by
    rintro p ⟨a, h1, _⟩ rfl
    rw [seenAttr_eq, ha] at h1; cases h1
  have hsym := he.sym i (by rw [hb]; simp)
  have fin : ∀ (mode : Nat), b.mode &&& sIFMT = mode &&& sIFMT → mode &&& sIFMT ≠ 0 →
      (∀ n c, s'.db.child i n ≠ some c) → ((isLnk mode = false ∧ AL.get s'.db.symlinks i = none ∧ b.size = 0) ∨ (isLnk mode = true ∧ ∃ t, AL.get s'.db.symlinks i = some t ∧ b.size = t.length)) →
      (b.rdev ≠ 0 → isBlk mode = true ∨ isChr mode = true) → TypeOk s' i b := by
    intro mode h1 h2 h3 h4 h5
    obtain ⟨t1, t2, t3, t4, t5⟩ := type_eq h1
    refine ⟨by rw [h1]; exact h2, ?_, ?_, ?_, by rw [t4, t5]; exact h5, fun n c hc => absurd hc (h3 n c), fun k o ho => by rw [hblk] at ho; cases ho⟩
    · rw [t3]
      rcases h4 with ⟨h6, h7, _⟩ | ⟨h6, t, h7, _⟩
      · rw [h6, h7]; simp
      · rw [h6, h7]; simp
    · intro t ht
      rcases h4 with ⟨_, h7, _⟩ | ⟨_, t', h7, h8⟩
      · rw [h7] at ht; cases ht
      · rw [h7] at ht; cases ht; exact h8
    · intro hz
      rcases h4 with ⟨_, _, h8⟩ | ⟨h6, _⟩
      · exact absurd h8 hz
      · rw [t3]; exact Or.inr h6
  rcases entry_ops hst with h1 | ⟨p, n, mode, rdev, uid, gid, now, rfl⟩ | ⟨p, n, t, uid, gid, now, rfl⟩ | ⟨p, n, mode, flags, uid, gid, now, rfl⟩ | h1 | h1
  · rw [h1, ha] at hb; cases hb
  · obtain ⟨h2, d, _, h3⟩ := new_attrs hh (Or.inl ⟨rfl, rfl⟩) hst
    rw [seenAttr_eq, hb] at h2; cases h2
    refine fin mode ?_ hv.2.1 ?_ (Or.inl ⟨hv.2.2.1, hsym.trans hnl, by rw [h3]⟩) (by rw [h3]; exact hv.2.2.2)
    · rw [h3]; exact ifThen_type _ _
    · intro n' c hc
      rw [he.child] at hc
      simp only [specEntries] at hc
      rw [if_neg (fun e => hnp p hv.1 e.1)] at hc
      exact hnk _ _ hc
  · obtain ⟨h2, d, _, h3⟩ := new_attrs (rdev := 0) hh (Or.inr (Or.inl ⟨t, rfl, rfl, rfl, rfl⟩)) hst
    rw [seenAttr_eq, hb] at h2; cases h2
    refine fin 0o120777 ?_ (by decide) ?_ (Or.inr ⟨by decide, t, ?_, by rw [h3]⟩) (by rw [h3]; exact fun h => absurd rfl h)
    · rw [h3]; exact ifThen_type _ _
    · intro n' c hc
      rw [he.child] at hc
      simp only [specEntries] at hc
      rw [if_neg (fun e => hnp p hv e.1)] at hc
      exact hnk _ _ hc
    · rw [hsym]; simp [specSymlinks]
  · have hn : s.db.child p n = none := by
      rcases new_entry (Or.inr (Or.inr ⟨mode, flags, uid, gid, now, rfl⟩)) hst with h1 | h1 | h1
      · exact h1.2
      · exact absurd rfl (h1.2 _ _ _ _ _)
      · exact absurd ha (hinv.child_pos h1).2.1
    have hc : n ≠ ctrlName := by
      rintro rfl
      simp only [step, opCreate] at hst
      split at hst
      · cases hst
      · rw [hn] at hst
        dsimp only at hst
        split at hst
        · cases hst
        · rename_i hcr
          exact (create_attr hcr).1 rfl
    obtain ⟨h2, d, _, h3⟩ := new_attrs (rdev := 0) hh (Or.inr (Or.inr ⟨flags, rfl, hc, by rw [seenEntry_eq hinv, if_neg hc]; exact hn, rfl, rfl⟩)) hst
    rw [seenAttr_eq, hb] at h2; cases h2
    have hreg : mode &&& sIFMT = 0o100000 := by
      have := hv.2; unfold isReg at this; simpa using this
    refine fin mode ?_ (by rw [hreg]; decide) ?_ (Or.inl ⟨reg_not_lnk hv.2, hsym.trans hnl, by rw [h3]⟩) (by rw [h3]; exact fun h => absurd rfl h)
    · rw [h3]; exact ifThen_type _ _
    · intro n' c hc
      rw [he.child] at hc
      simp only [specEntries] at hc
      rw [if_neg (fun e => hnp p hv.1 e.1)] at hc
      exact hnk _ _ hc
  · exact absurd ha (hreq i (Or.inl h1))
  · exact absurd ha (hreq i (Or.inr h1))

theorem mbelow_iff {s : St} {a b : Nat} : MBelow s.db.child a b ↔ DbBelow s a b := by
  constructor
  · intro h
    induction h with
    | refl => exact DbBelow.refl
    | entry _ hc ih => exact ih.entry hc
  · intro h
    induction h with
    | refl => exact MBelow.refl
    | entry _ hc ih => exact ih.entry hc

theorem root_ex {L : Nat → Int} {s : St} (h : Inv NoT L s) : AL.get s.db.inodes rootInode ≠ none := by
  apply rc_pos_ne
  have h1 := h.acc.rc rootInode
  have h2 := links_nonneg s.db rootInode
  have : base rootInode = 1 := rfl
  omega

/-- A request keeps the shape. -/
theorem Shape.step {repl fail : Bool} {K : Nat → Int} {s : St} {op : Op} (hsh : Shape s) (hh : Hist repl fail s K) (hq : Req K s op) (hv : Vfs s op)
    (hhd : Handled s op) : Shape (Fs.step s op).2 := by
  obtain ⟨L, g⟩ := hh.good
  obtain ⟨L', he, _⟩ := step_eff g.inv (kernelOk_of g.inv g.res g.le hq hhd)
  generalize hst : Fs.step s op = rs at he ⊢
  obtain ⟨res, s'⟩ := rs
  dsimp only at he ⊢
  have known : ∀ j, 0 < K j → AL.get s.db.inodes j ≠ none := by
    intro j hj
    obtain ⟨ino, hi⟩ := g.inv.known_ex ((g.inv.cnt_pos_iff j).1 (by have := g.le j; omega))
    rw [hi]; simp
  have hreq : ∀ i, (∃ p n now, op = .link i p n now) ∨ (∃ r c m now, op = .setattr i r c m now) → AL.get s.db.inodes i ≠ none := by
    rintro i (⟨p, n, now, rfl⟩ | ⟨r, c, m, now, rfl⟩)
    · exact known i hq.1
    · exact known i hq
  have htypes : ∀ i a, AL.get s'.db.inodes i = some a → TypeOk s' i a := by
    intro i b hb
    cases ha : AL.get s.db.inodes i with
    | none => exact fresh_type hh g.inv hreq he hv hst ha hb
    | some a => exact (hsh.types i a ha).evolve (evolve_step g.inv he hv hst ha hb (hsh.types i a ha))
  have hdir : ∀ i a, AL.get s.db.inodes i = some a → DirIn s' i → DirIn s i := by
    rintro i a ha ⟨b, hb, hd⟩
    refine ⟨a, ha, ?_⟩
    rw [← (type_eq (evolve_step g.inv he hv hst ha hb (hsh.types i a ha)).type).1]; exact hd
  have hD : ∀ q k x, s.db.child q k = some x → DirIn s' x → DirIn s x := by
    intro q k x hc hx
    obtain ⟨a, ha⟩ := Option.ne_none_iff_exists'.1 (g.inv.child_pos hc).2.1
    exact hdir x a ha hx
  have hroot : DirIn s' rootInode := by
    obtain ⟨a, ha, hd⟩ := hsh.rootDir
    obtain ⟨b, hb⟩ := Option.ne_none_iff_exists'.1 (root_ex he.inv)
    refine ⟨b, hb, ?_⟩
    rw [(type_eq (evolve_step g.inv he hv hst ha hb (hsh.types _ a ha)).type).1]; exact hd
  have hctrl : ∀ b, AL.get s'.db.inodes ctrlInode = some b → isReg b.mode = true := by
    intro b hb
    obtain ⟨a, ha⟩ := Option.ne_none_iff_exists'.1 g.inv.ctrl_ex
    rw [(type_eq (evolve_step g.inv he hv hst ha hb (hsh.types _ a ha)).type).2.1]; exact hsh.ctrlReg a ha
  have hm : s'.db.child = specEntries s.db.child op res := by
    funext p n; exact he.child p n
  have parent : ∀ q k x, s.db.child q k = some x → AL.get s.db.inodes q ≠ none := by
    intro q k x hc
    obtain ⟨j, _, hk⟩ := (g.inv.acc.child_iff _ _ _).1 hc
    exact rc_pos_ne (g.inv.acc.par0 _ _ _ hk)
  suffices h : Ranked (specEntries s.db.child op res) ∧ (∀ p n, specEntries s.db.child op res p n ≠ some rootInode) ∧
      OneEntry (specEntries s.db.child op res) (DirIn s') by
    rw [← hm] at h
    exact ⟨h.1, h.2.1, h.2.2, htypes, hroot, hctrl⟩
  have same : Ranked s.db.child ∧ (∀ p n, s.db.child p n ≠ some rootInode) ∧ OneEntry s.db.child (DirIn s') :=
    ⟨hsh.rank, hsh.noRoot, hsh.one.sub (fun _ _ _ h => h) hD⟩
  have sub : ∀ m : EMap, (∀ p n c, m p n = some c → s.db.child p n = some c) → Ranked m ∧ (∀ p n, m p n ≠ some rootInode) ∧ OneEntry m (DirIn s') := by
    intro m hs
    exact ⟨hsh.rank.sub hs, fun p n h => hsh.noRoot p n (hs _ _ _ h), hsh.one.sub hs (fun p n c h => hD p n c (hs _ _ _ h))⟩
  have seesEx : ∀ p, SeesDir s p → DirIn s p := by
    rintro p ⟨a, h1, h2⟩
    rw [seenAttr_eq] at h1
    exact ⟨a, h1, h2⟩
  have add : ∀ p n id, DirIn s p → (AL.get s.db.inodes id = none ∨ ¬DirIn s id ∧ AL.get s.db.inodes id ≠ none ∨ s.db.child p n = some id) →
      Ranked (fun p' n' => if p' = p ∧ n' = n then some id else s.db.child p' n') ∧
      (∀ p' n', (if p' = p ∧ n' = n then some id else s.db.child p' n') ≠ some rootInode) ∧
      OneEntry (fun p' n' => if p' = p ∧ n' = n then some id else s.db.child p' n') (DirIn s') := by
    intro p n id hp hid
    by_cases hex : s.db.child p n = some id
    · have : (fun p' n' => if p' = p ∧ n' = n then some id else s.db.child p' n') = s.db.child := by
        funext p' n'
        split
        · rename_i e; obtain ⟨rfl, rfl⟩ := e; exact hex.symm
        · rfl
      have h2 : ∀ p' n', (if p' = p ∧ n' = n then some id else s.db.child p' n') = s.db.child p' n' := fun p' n' => congrFun (congrFun this p') n'
      rw [this]
      exact ⟨same.1, fun p' n' => by rw [h2]; exact same.2.1 p' n', same.2.2⟩
    · have hid' : ¬DirIn s id := by
        rcases hid with h | h | h
        · rintro ⟨a, ha, _⟩; rw [h] at ha; cases ha
        · exact h.1
        · exact absurd h hex
      have hleaf : ∀ k, s.db.child id k = none := by
        intro k
        cases hc : s.db.child id k with
        | none => rfl
        | some c =>
          obtain ⟨a, ha⟩ := Option.ne_none_iff_exists'.1 (parent _ _ _ hc)
          exact absurd ⟨a, ha, (hsh.types id a ha).kids k c hc⟩ hid'
      have hne : p ≠ id := by rintro rfl; exact hid' hp
      refine ⟨hsh.rank.leaf hleaf hne, ?_, hsh.one.add ?_ hD⟩
      · intro p' n' h
        split at h
        · cases h; exact hid' hsh.rootDir
        · exact hsh.noRoot _ _ h
      · intro q k hd hc
        exact hid' (hD q k id hc hd)
  cases res with
  | error e => cases op <;> exact same
  | ok r =>
    cases op with
    | mknod p n mode rdev uid gid now =>
      cases r <;> first | exact same | skip
      rename_i id ino
      refine add p n id (seesEx p hv.1) ?_
      have hf : AL.get s.db.inodes (s.db.seq + 1) = none := by
        cases h : AL.get s.db.inodes (s.db.seq + 1) with
        | none => rfl
        | some a => have := g.inv.acc.seq _ (by rw [h]; simp); omega
      rcases new_entry (Or.inl ⟨mode, rdev, uid, gid, now, rfl⟩) hst with h1 | h1 | h1
      · rw [h1.1]; exact Or.inl hf
      · rw [h1.1]; exact Or.inl hf
      · exact Or.inr (Or.inr h1)
    | symlink p n t uid gid now =>
      cases r <;> first | exact same | skip
      rename_i id ino
      refine add p n id (seesEx p hv) ?_
      have hf : AL.get s.db.inodes (s.db.seq + 1) = none := by
        cases h : AL.get s.db.inodes (s.db.seq + 1) with
        | none => rfl
        | some a => have := g.inv.acc.seq _ (by rw [h]; simp); omega
      rcases new_entry (Or.inr (Or.inl ⟨t, uid, gid, now, rfl⟩)) hst with h1 | h1 | h1
      · rw [h1.1]; exact Or.inl hf
      · rw [h1.1]; exact Or.inl hf
      · exact Or.inr (Or.inr h1)
    | create p n mode flags uid gid now =>
      cases r <;> first | exact same | skip
      rename_i id ino
      refine add p n id (seesEx p hv.1) ?_
      have hf : AL.get s.db.inodes (s.db.seq + 1) = none := by
        cases h : AL.get s.db.inodes (s.db.seq + 1) with
        | none => rfl
        | some a => have := g.inv.acc.seq _ (by rw [h]; simp); omega
      rcases new_entry (Or.inr (Or.inr ⟨mode, flags, uid, gid, now, rfl⟩)) hst with h1 | h1 | h1
      · rw [h1.1]; exact Or.inl hf
      · rw [h1.1]; exact Or.inl hf
      · exact Or.inr (Or.inr h1)
    | link id p n now =>
      refine add p n id (seesEx p hv.1) (Or.inr (Or.inl ⟨?_, known id hq.1⟩))
      rintro ⟨a, h1, h2⟩
      exact hv.2 ⟨a, by rw [seenAttr_eq]; exact h1, h2⟩
    | unlink p n now =>
      refine sub _ ?_
      intro p' n' c h
      simp only [specEntries] at h
      split at h
      · cases h
      · exact h
    | rmdir p n now =>
      refine sub _ ?_
      intro p' n' c h
      simp only [specEntries] at h
      split at h
      · cases h
      · exact h
    | rename po no pn nn flags now =>
      cases hpo : s.db.child po no with
      | none =>
        refine sub _ ?_
        intro p' n' c h
        simp only [specEntries] at h
        split at h
        · rw [hpo] at h; cases h
        · split at h
          · cases h
          · exact h
      | some a =>
        have hn : no ≠ ctrlName := by rintro rfl; rw [g.res.ctrl] at hpo; cases hpo
        have hnb : ¬MBelow s.db.child a pn := by
          intro hb
          exact hv.2 a (by rw [seenEntry_eq g.inv, if_neg hn]; exact hpo) ((below_iff g.inv g.res).2 (mbelow_iff.1 hb))
        refine ⟨hsh.rank.move hpo hnb, ?_, hsh.one.move hD⟩
        intro p' n' h
        simp only [specEntries] at h
        split at h
        · exact hsh.noRoot _ _ h
        · split at h
          · cases h
          · exact hsh.noRoot _ _ h
    | _ => exact same

/-! #### Everything else -/

theorem Shape.init (uid gid : Nat) (now : Int) (m : Nat) : Shape (Fs.init uid gid now m) := by
  have hch : ∀ p n c, (Fs.init uid gid now m).db.child p n = some c → p = 1 ∧ n = lostFound ∧ c = 3 := by
    intro p n c h
    unfold Db.child at h
    obtain ⟨k, hk, hc⟩ := Option.bind_eq_some_iff.1 h
    have hk' : (findName [(1, (lostFound, (1 : Int)))] n).map (·.1) = some k := hk
    simp only [findName] at hk'
    have hc' : AL.get [(((1 : Nat), (1 : Nat)), (3 : Nat))] (p, k) = some c := hc
    simp only [AL.get] at hc'
    split at hc'
    · rename_i e
      cases e; cases hc'
      split at hk'
      · rename_i e; exact ⟨rfl, by simpa using e.symm, rfl⟩
      · cases hk'
    · cases hc'
  have hin : ∀ i a, AL.get (Fs.init uid gid now m).db.inodes i = some a → (i = 1 ∧ a.mode = 0o40755 ∨ i = 2 ∧ a.mode = 0o100600 ∨ i = 3 ∧ a.mode = 0o40700) ∧ a.size = 0 ∧ a.rdev = 0 := by
    intro i a h
    simp only [Fs.init, initDb, AL.get] at h
    split at h
    · cases h; rename_i e; exact ⟨Or.inl ⟨e.symm, rfl⟩, rfl, rfl⟩
    · split at h
      · cases h; rename_i e; exact ⟨Or.inr (Or.inl ⟨e.symm, rfl⟩), rfl, rfl⟩
      · split at h
        · cases h; rename_i e; exact ⟨Or.inr (Or.inr ⟨e.symm, rfl⟩), rfl, rfl⟩
        · cases h
  refine ⟨⟨fun x => if x = 3 then 1 else 0, ?_⟩, ?_, ?_, ?_, ?_, ?_⟩
  · intro p n c h
    obtain ⟨rfl, _, rfl⟩ := hch p n c h
    decide
  · intro p n h
    obtain ⟨_, _, h3⟩ := hch p n _ h
    cases h3
  · intro p n q k c _ h1 h2
    obtain ⟨rfl, rfl, _⟩ := hch p n _ h1
    obtain ⟨rfl, rfl, _⟩ := hch q k _ h2
    exact ⟨rfl, rfl⟩
  · intro i a h
    obtain ⟨h1, h2, h3⟩ := hin i a h
    refine ⟨?_, ?_, ?_, fun hz => absurd h2 hz, fun hz => absurd h3 hz, ?_, ?_⟩
    · rcases h1 with ⟨_, h1⟩ | ⟨_, h1⟩ | ⟨_, h1⟩ <;> rw [h1] <;> decide
    · have : AL.get (Fs.init uid gid now m).db.symlinks i = none := rfl
      rw [this]
      rcases h1 with ⟨_, h1⟩ | ⟨_, h1⟩ | ⟨_, h1⟩ <;> rw [h1] <;> decide
    · intro t ht; cases ht
    · intro n c hc
      obtain ⟨rfl, _, _⟩ := hch i n c hc
      rcases h1 with ⟨_, h1⟩ | ⟨h1, _⟩ | ⟨h1, _⟩
      · rw [h1]; decide
      · cases h1
      · cases h1
    · intro k o ho; cases ho
  · exact ⟨_, rfl, by show isDir 0o40755 = true; decide⟩
  · intro a h
    obtain ⟨⟨h1, _⟩ | ⟨_, h1⟩ | ⟨h1, _⟩, _⟩ := hin _ a h
    · cases h1
    · rw [h1]; decide
    · cases h1

/-- What keeps the attributes and takes entries away keeps the shape. -/
theorem Shape.less {s s' : St} (h : Shape s) (hch : ∀ p n c, s'.db.child p n = some c → s.db.child p n = some c)
    (hin : ∀ i b, AL.get s'.db.inodes i = some b → ∃ a, AL.get s.db.inodes i = some a ∧ b.mode = a.mode ∧ b.size = a.size ∧ b.rdev = a.rdev ∧
      AL.get s'.db.symlinks i = AL.get s.db.symlinks i ∧ ∀ k, AL.get s'.db.blocks (i, k) = AL.get s.db.blocks (i, k))
    (hroot : AL.get s'.db.inodes rootInode ≠ none) : Shape s' := by
  have hD : ∀ x, DirIn s' x → DirIn s x := by
    rintro x ⟨b, hb, hd⟩
    obtain ⟨a, ha, h1, _⟩ := hin x b hb
    exact ⟨a, ha, by rw [← h1]; exact hd⟩
  refine ⟨h.rank.sub hch, fun p n hc => h.noRoot p n (hch _ _ _ hc), h.one.sub hch (fun _ _ c _ => hD c), ?_, ?_, ?_⟩
  · intro i b hb
    obtain ⟨a, ha, h1, h2, h3, h4, h5⟩ := hin i b hb
    refine (h.types i a ha).evolve ⟨by rw [h1], h3, Or.inl h2, h4, fun k o ho => by rw [h5] at ho; exact Or.inl ho, fun n c hc => (h.types i a ha).kids n c (hch _ _ _ hc)⟩
  · obtain ⟨b, hb⟩ := Option.ne_none_iff_exists'.1 hroot
    obtain ⟨a, ha, h1, _⟩ := hin _ b hb
    obtain ⟨a', ha', hd⟩ := h.rootDir
    rw [ha] at ha'; cases ha'
    exact ⟨b, hb, by rw [h1]; exact hd⟩
  · intro b hb
    obtain ⟨a, ha, h1, _⟩ := hin _ b hb
    rw [h1]; exact h.ctrlReg a ha

theorem Shape.remount {L : Nat → Int} {s : St} (h : Shape s) (hi : Inv NoT L s) : Shape (Fs.remount s).2 := by
  obtain ⟨s1, he, hinv, hfg, _⟩ := remount_spec hi
  rw [he]
  refine h.less (fun p n c hc => ?_) ?_ (root_ex hinv)
  · have : s1.db.child p n = some c := hc
    rw [hfg.child] at this; exact this
  · intro i b hb
    have hb' : AL.get s1.db.inodes i = some b := hb
    rcases hfg.inode i with h1 | ⟨h1, _⟩
    · refine ⟨b, by rw [← h1]; exact hb', rfl, rfl, rfl, hfg.sym i (by rw [hb']; simp), fun k => hfg.blk i k (by rw [hb']; simp)⟩
    · rw [h1] at hb'; cases hb'

theorem Shape.lock {L : Nat → Int} {s s' : St} {id : Nat} (h : Shape s) (hi : Inv NoT L s) (hl : lockInode s id = some s') : Shape s' := by
  unfold lockInode at hl
  split at hl
  · cases hl
  · cases hl
    have hinv := hi.modInode id (fun i => { i with locked := true }) (fun _ => rfl) (fun _ => Nat.le_refl _)
    refine h.less (fun p n c hc => ?_) ?_ (root_ex hinv)
    · exact (modInode_child _ _ _ _ _).symm.trans hc
    · intro i b hb
      have hb' : AL.get (s.db.modInode id (fun i => { i with locked := true })).inodes i = some b := hb
      rw [modInode_get] at hb'
      have hs : (s.db.modInode id (fun i => { i with locked := true })).symlinks = s.db.symlinks := by unfold Db.modInode; split <;> rfl
      refine (?_ : ∃ a, AL.get s.db.inodes i = some a ∧ b.mode = a.mode ∧ b.size = a.size ∧ b.rdev = a.rdev ∧
        AL.get (s.db.modInode id (fun i => { i with locked := true })).symlinks i = AL.get s.db.symlinks i ∧
        ∀ k, AL.get (s.db.modInode id (fun i => { i with locked := true })).blocks (i, k) = AL.get s.db.blocks (i, k))
      rw [hs, modInode_blocks]
      split at hb'
      · rename_i e
        subst e
        cases ha : AL.get s.db.inodes i with
        | none => rw [ha] at hb'; cases hb'
        | some a => rw [ha] at hb'; cases hb'; exact ⟨a, rfl, rfl, rfl, rfl, rfl, fun _ => rfl⟩
      · exact ⟨b, hb', rfl, rfl, rfl, rfl, fun _ => rfl⟩

/-- Nothing below an entry leads back to its directory. -/
theorem Shape.noLoop {s : St} (h : Shape s) {p : Nat} {n : Bytes} {a : Nat} (hc : s.db.child p n = some a) : ¬DbBelow s a p :=
  fun hb => h.rank.noLoop (mbelow_iff.2 hb) hc

theorem Shape.rms {R : Nat → Prop} {L : Nat → Int} {s s' : St} (h : Shape s) (he : RmEff NoT R L s s') : Shape s' := by
  refine h.less he.mono ?_ (root_ex he.inv)
  intro i b hb
  rcases he.inode i with h1 | ⟨a, b', ha, hb', ⟨h1, _, _, h4, h5, _⟩, _⟩
  · rw [h1] at hb; cases hb
  · rw [hb] at hb'; cases hb'
    exact ⟨a, ha, h1.symm, h4.symm, h5.symm, he.rest.sym i (by rw [ha]; simp) (by rw [hb]; simp), fun k => he.rest.blk i k (by rw [ha]; simp) (by rw [hb]; simp)⟩

theorem Shape.rmtree {L : Nat → Int} {s s' : St} {p : Nat} {n : Bytes} {res : Except Err Unit} (h : Shape s) (hi : Inv NoT L s) (hn : n ≠ ctrlName)
    (hr : RmTree s p n res s') : Shape s' := by
  rcases hr.spec hi hn (fun a ha => h.noLoop ha) with ⟨e, _, rfl, _⟩ | ⟨id0, _, _, _, _, hinv, hrest, _, _, hgone, hsame, hino⟩
  · exact h
  · refine h.less ?_ ?_ (root_ex hinv)
    · intro q m c hc
      by_cases h1 : (q = p ∧ m = n) ∨ DbBelow s id0 q
      · rw [hgone q m h1] at hc; cases hc
      · rw [hsame q m (fun h2 => h1 (Or.inl h2)) (fun h2 => h1 (Or.inr h2))] at hc; exact hc
    · intro i b hb
      rcases hino i with h1 | ⟨a, b', ha, hb', ⟨h1, _, _, h4, h5, _⟩, _⟩
      · rw [h1] at hb; cases hb
      · rw [hb] at hb'; cases hb'
        refine ⟨a, ha, h1.symm, h4.symm, h5.symm, hrest.sym i (by rw [ha]; simp) (by rw [hb]; simp), fun k => hrest.blk i k (by rw [ha]; simp) (by rw [hb]; simp)⟩

end Verif.Fs
