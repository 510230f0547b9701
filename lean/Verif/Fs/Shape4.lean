/-
Copying keeps the shape of the tree, and so every history does.
-/
import Verif.Fs.Shape3

namespace Verif.Fs

/-! #### Blocks belong to regular files while a tree is copied -/

structure BReg (s : St) : Prop where
  seq : ∀ i, AL.get s.db.inodes i ≠ none → i ≤ s.db.seq
  reg : ∀ e ∈ s.db.blocks, ∃ a, AL.get s.db.inodes e.1.1 = some a ∧ isReg a.mode = true

theorem mem_set {α β : Type} [DecidableEq α] {l : List (α × β)} {k : α} {v : β} {e : α × β} (h : e ∈ AL.set l k v) : e = (k, v) ∨ e ∈ l := by
  induction l with
  | nil => simp only [AL.set, List.mem_singleton] at h; exact Or.inl h
  | cons x t ih =>
    obtain ⟨k', v'⟩ := x
    simp only [AL.set] at h
    split at h
    · rcases List.mem_cons.1 h with h1 | h1
      · exact Or.inl h1
      · exact Or.inr (List.mem_cons_of_mem _ h1)
    · rcases List.mem_cons.1 h with h1 | h1
      · exact Or.inr (by rw [h1]; exact List.mem_cons_self ..)
      · rcases ih h1 with h2 | h2
        · exact Or.inl h2
        · exact Or.inr (List.mem_cons_of_mem _ h2)

theorem BReg.upload {s : St} (h : BReg s) (id b o : Nat) : BReg (bgUpload s id b o) := by
  unfold bgUpload
  split
  · exact h
  · rename_i j hj
    split
    · rename_i hc
      dsimp only
      split
      · exact h
      · refine ⟨h.seq, ?_⟩
        intro e he
        rcases mem_set he with rfl | h1
        · exact ⟨j, hj, hc.1⟩
        · exact h.reg e h1
    · exact h

theorem BReg.uploads {id : Nat} : ∀ (ups : List (Nat × Nat)) {s : St}, BReg s → BReg (ups.foldl (fun s u => bgUpload s id u.1 u.2) s)
  | [], _, h => h
  | u :: t, _, h => BReg.uploads t (h.upload id u.1 u.2)

theorem BReg.flush {s : St} (h : BReg s) (cache : List (Nat × Nat)) (id : Nat) (ups : List (Nat × Nat)) : BReg (flushInode s cache id ups) := by
  unfold flushInode
  split
  · exact BReg.uploads ups h
  · exact h

theorem BReg.row {s s' : St} (h : BReg s) {w : CpWalk} {id new : Nat} {q : List (Nat × Nat × Nat)} {c : List (Nat × Nat)}
    (hr : copyRow s w id = some (s', new, q, c)) : BReg s' := by
  unfold copyRow at hr
  split at hr
  · split at hr
    · cases hr
    · cases hr
      refine ⟨?_, ?_⟩
      · intro i hi
        show i ≤ (s.db.modInode new _).seq
        rw [(modInode_rest _ _ _).2.2.2.2.2.2]
        apply h.seq
        intro hz
        apply hi
        show AL.get (s.db.modInode new _).inodes i = none
        rw [modInode_get]
        split
        · rename_i e; rw [← e, hz]; rfl
        · exact hz
      · intro e he
        have he' : e ∈ (s.db.modInode new (fun i => { i with refcount := i.refcount + 1 })).blocks := he
        rw [modInode_blocks] at he'
        obtain ⟨a, ha, hreg⟩ := h.reg e he'
        show ∃ a, AL.get (s.db.modInode new (fun i => { i with refcount := i.refcount + 1 })).inodes e.1.1 = some a ∧ isReg a.mode = true
        rw [modInode_get]
        split
        · rename_i e2; rw [← e2, ha]; exact ⟨_, rfl, hreg⟩
        · exact ⟨a, ha, hreg⟩
  · split at hr
    · cases hr
    · rename_i i hi
      dsimp only at hr
      cases hr
      have hseq := h.seq id (by rw [hi]; simp)
      refine ⟨?_, ?_⟩
      · intro j hj
        have hj' : AL.get (AL.set s.db.inodes (s.db.seq + 1) { i with refcount := 1, locked := false }) j ≠ none := hj
        rw [AL.get_set] at hj'
        show j ≤ s.db.seq + 1
        split at hj'
        · omega
        · have := h.seq j hj'; omega
      · intro e he
        have he' : e ∈ s.db.blocks ++ (s.db.blocks.filter (fun e => e.1.1 == id)).map (fun e => ((s.db.seq + 1, e.1.2), e.2)) := he
        show ∃ a, AL.get (AL.set s.db.inodes (s.db.seq + 1) { i with refcount := 1, locked := false }) e.1.1 = some a ∧ isReg a.mode = true
        rw [AL.get_set]
        rcases List.mem_append.1 he' with h1 | h1
        · obtain ⟨a, ha, hreg⟩ := h.reg e h1
          have := h.seq e.1.1 (by rw [ha]; simp)
          rw [if_neg (by omega)]
          exact ⟨a, ha, hreg⟩
        · obtain ⟨e0, h2, rfl⟩ := List.mem_map.1 h1
          obtain ⟨h3, h4⟩ := List.mem_filter.1 h2
          obtain ⟨a, ha, hreg⟩ := h.reg e0 h3
          have h5 : e0.1.1 = id := by simpa using h4
          rw [h5, hi] at ha; cases ha
          rw [if_pos rfl]
          exact ⟨_, rfl, hreg⟩

theorem BReg.cpStep {s s' : St} (h : BReg s) {w w' : CpWalk} {brk : Bool} {ups : List (Nat × Nat)} (hs : copyStep brk ups s w = some (s', w')) : BReg s' := by
  unfold copyStep at hs
  split at hs
  · split at hs <;> cases hs <;> exact h
  · split at hs
    · cases hs; exact h
    · split at hs
      · cases hs
      · rename_i hr
        split at hs
        · cases hs
        · rename_i db hdb
          have h1 := (h.flush w.cache _ ups).row hr
          unfold Db.addCopy at hdb
          split at hdb <;> cases hdb
          split at hs
          · cases hs; exact ⟨h1.seq, h1.reg⟩
          · cases hs; exact ⟨h1.seq, h1.reg⟩

theorem BReg.run {s : St} {w : CpWalk} {r : Option (St × CpWalk)} (h : BReg s) (hr : CpRun s w r) : ∀ s' w', r = some (s', w') → BReg s' := by
  induction hr with
  | here => intro s' w' e; cases e; exact h
  | fail _ _ _ => intro s' w' e; cases e
  | step _ hs ih => intro s' w' e; cases e; exact (ih _ _ rfl).cpStep hs

/-- After the copy, blocks belong to regular files. -/
theorem cptree_blocks {L : Nat → Int} {s s' : St} {src tgt : Nat} (h : Shape s) (hi : Inv NoT L s) (hsrc : DirIn s src) (htgt : DirIn s tgt)
    (hc : CpTree s src tgt s') : ∀ i k o a, AL.get s'.db.blocks (i, k) = some o → AL.get s'.db.inodes i = some a → isReg a.mode = true := by
  obtain ⟨hst, hrun, hcur, hq, hend⟩ := hc
  rename_i now s1 s2 w1 w2
  have h1 : BReg s1 := by
    unfold copyStart at hst
    split at hst
    · cases hst
    · split at hst
      · rename_i a t ha ht
        dsimp only at hst
        cases hst
        have hsq : ∀ f, (s.db.modInode tgt f).seq = s.db.seq := fun f => (modInode_rest _ _ _).2.2.2.2.2.2
        refine ⟨?_, ?_⟩
        · intro i hi0
          dsimp only at hi0 ⊢
          rw [hsq] at hi0 ⊢
          rw [AL.get_set, modInode_get] at hi0
          split at hi0
          · omega
          · have : AL.get s.db.inodes i ≠ none := by
              intro hz
              apply hi0
              split
              · rename_i e; rw [← e, hz]; rfl
              · exact hz
            have := hi.acc.seq i this
            omega
        · intro e he
          dsimp only at he ⊢
          rw [modInode_blocks] at he
          rw [hsq, AL.get_set, modInode_get]
          have h2 : AL.get s.db.blocks (e.1.1, e.1.2) = some e.2 := AL.mem_get_some hi.acc.nkB he
          obtain ⟨b, hb, _⟩ := hi.acc.bin _ _ _ h2
          have h3 := (h.types _ b hb).blk _ _ h2
          have h4 := hi.acc.seq e.1.1 (by rw [hb]; simp)
          rw [if_neg (by omega), if_neg]
          · exact ⟨b, hb, h3⟩
          · intro e1
            obtain ⟨t', ht', hd⟩ := htgt
            rw [← e1, hb] at ht'; cases ht'
            rw [dir_not_reg hd] at h3; cases h3
      · cases hst
  have h2 := h1.run hrun _ _ rfl
  intro i k o a ho ha
  unfold copyEnd at hend
  split at hend
  · cases hend
  · cases hend
    dsimp only at ho ha
    obtain ⟨b, hb, hreg⟩ := h2.reg _ (AL.get_some_mem ho)
    rw [AL.get_erase] at ha
    split at ha
    · cases ha
    · dsimp only at hb
      rw [ha] at hb; cases hb; exact hreg

theorem Shape.cptree {L : Nat → Int} {s s' : St} {src tgt : Nat} (h : Shape s) (hi : Inv NoT L s) (hsrc : DirIn s src) (htgt : DirIn s tgt)
    (hrt : 0 < s.db.rc tgt) (hc : CpTree s src tgt s') : Shape s' := by
  have hcyc : ∀ d n, DbBelow s src d → s.db.child d n ≠ some src := fun d n hb hc => h.noLoop hc hb
  have hblk := cptree_blocks h hi hsrc htgt hc
  obtain ⟨_, hinv, _, _, _, _, hino, ⟨sa, st, hsa, hst, hta⟩, hch, hx, hsym, _, φ, hφs, hcopy, hinj, hent, htc, hnew⟩ := hc.spec hi hcyc hrt
  obtain ⟨sa', hsa', hsd⟩ := hsrc
  rw [hsa] at hsa'; cases hsa'
  obtain ⟨st', hst', htd⟩ := htgt
  rw [hst] at hst'; cases hst'
  have hseq : ∀ i, AL.get s.db.inodes i ≠ none → i ≤ s.db.seq := hi.acc.seq
  have htseq : tgt ≤ s.db.seq := hseq tgt (by rw [hst]; simp)
  have hpar : ∀ p n c, s.db.child p n = some c → AL.get s.db.inodes p ≠ none := by
    intro p n c hc
    obtain ⟨k, _, hk⟩ := (hi.acc.child_iff _ _ _).1 hc
    exact rc_pos_ne (hi.acc.par0 _ _ _ hk)
  have hpar' : ∀ p n c, s'.db.child p n = some c → AL.get s'.db.inodes p ≠ none := by
    intro p n c hc
    obtain ⟨k, _, hk⟩ := (hinv.acc.child_iff _ _ _).1 hc
    exact rc_pos_ne (hinv.acc.par0 _ _ _ hk)
  have hchseq : ∀ p n c, s.db.child p n = some c → c ≤ s.db.seq := fun p n c hc => hseq c (hi.child_pos hc).2.1
  have hex : ∀ d, DbBelow s src d → AL.get s.db.inodes d ≠ none := fun d hd => hd.ex hi (by rw [hsa]; simp)
  -- the entries afterwards
  have cases' : ∀ p n c, s'.db.child p n = some c → (s.db.child p n = some c) ∨
      (∃ d x, DbBelow s src d ∧ s.db.child d n = some x ∧ x ≠ src ∧ p = φ d ∧ c = φ x ∧ (d = src ∨ s.db.seq < p)) := by
    intro p n c hcc
    by_cases hp : p = tgt
    · subst hp
      rw [htc] at hcc
      cases hs : s.db.child src n with
      | none => rw [hs] at hcc; exact Or.inl hcc
      | some x =>
        rw [hs] at hcc
        have : some (φ x) = some c := hcc
        cases this
        exact Or.inr ⟨src, x, DbBelow.refl, hs, fun e => hcyc src n DbBelow.refl (by rw [hs, e]), hφs.symm, rfl, Or.inl rfl⟩
    · by_cases hps : p ≤ s.db.seq
      · rw [hch p n hps hp] at hcc; exact Or.inl hcc
      · obtain ⟨d, hd, hds, rfl⟩ := hnew p (by omega) (hpar' _ _ _ hcc)
        rw [hent d n hd hds] at hcc
        cases hs : s.db.child d n with
        | none => rw [hs] at hcc; cases hcc
        | some x =>
          rw [hs] at hcc
          have : some (φ x) = some c := hcc
          cases this
          exact Or.inr ⟨d, x, hd, hs, fun e => hcyc d n hd (by rw [hs, e]), rfl, rfl, Or.inr (by omega)⟩
  have hφseq : ∀ d n x, DbBelow s src d → s.db.child d n = some x → x ≠ src → s.db.seq < φ x := by
    intro d n x hd hs hx
    exact (hcopy x (hd.entry hs) hx).1
  -- the attributes afterwards
  have hmode : ∀ i a, i ≤ s.db.seq → AL.get s'.db.inodes i = some a → ∃ b, AL.get s.db.inodes i = some b ∧
      (a = b ∨ i = tgt ∧ a.mode = sa.mode ∧ a.size = b.size ∧ a.rdev = b.rdev ∧ isDir b.mode = true) := by
    intro i a his ha
    by_cases hit : i = tgt
    · subst hit
      rw [hta] at ha; cases ha
      exact ⟨st, hst, Or.inr ⟨rfl, rfl, rfl, rfl, htd⟩⟩
    · rw [hino i his hit] at ha
      exact ⟨a, ha, Or.inl rfl⟩
  have hold : ∀ i a, i ≤ s.db.seq → AL.get s'.db.inodes i = some a → TypeOk s' i a := by
    intro i a his ha
    obtain ⟨b, hb, hab⟩ := hmode i a his ha
    have ht := h.types i b hb
    have htype : a.mode &&& sIFMT = b.mode &&& sIFMT ∧ a.size = b.size ∧ a.rdev = b.rdev := by
      rcases hab with rfl | ⟨_, h1, h2, h3, h4⟩
      · exact ⟨rfl, rfl, rfl⟩
      · refine ⟨?_, h2, h3⟩
        have h5 : sa.mode &&& sIFMT = 0o040000 := by simpa [isDir] using hsd
        have h6 : b.mode &&& sIFMT = 0o040000 := by simpa [isDir] using h4
        rw [h1, h5, h6]
    refine ht.evolve ⟨htype.1, htype.2.2, Or.inl htype.2.1, hsym i his, ?_, ?_⟩
    · intro k o ho
      right
      rw [← (type_eq htype.1).2.1]; exact hblk i k o a ho ha
    · intro n c hc
      rcases cases' i n c hc with h1 | ⟨d, x, hd, hs, hx, rfl, _, h2⟩
      · exact ht.kids n c h1
      · rcases h2 with rfl | h2
        · rw [hφs, hst] at hb; cases hb; exact htd
        · omega
  have hdirφ : ∀ d, DbBelow s src d → d ≠ src → DirIn s' (φ d) → DirIn s d := by
    rintro d hd hds ⟨b, hb, hbd⟩
    obtain ⟨_, a, b', ha, hb', hcp, _⟩ := hcopy d hd hds
    rw [hb] at hb'; cases hb'
    obtain ⟨a0, ha0, h0⟩ := hmode d a (hseq d (hex d hd)) ha
    refine ⟨a0, ha0, ?_⟩
    rcases h0 with rfl | ⟨_, _, _, _, h1⟩
    · rw [← hcp.1]; exact hbd
    · exact h1
  have hdirold : ∀ i, i ≤ s.db.seq → DirIn s' i → DirIn s i := by
    rintro i his ⟨a, ha, had⟩
    obtain ⟨b, hb, hab⟩ := hmode i a his ha
    refine ⟨b, hb, ?_⟩
    rcases hab with rfl | ⟨_, _, _, _, h1⟩
    · exact had
    · exact h1
  refine ⟨?_, ?_, ?_, ?_, ?_, ?_⟩
  · -- the copy is put behind the target
    obtain ⟨r, hr⟩ := h.rank
    have hchoose : ∃ ψ : Nat → Nat, ∀ d, DbBelow s src d → d ≠ src → ψ (φ d) = d := by
      classical
      refine ⟨fun i => if hq : ∃ d, DbBelow s src d ∧ d ≠ src ∧ i = φ d then hq.choose else 0, ?_⟩
      intro d hd hds
      have hq : ∃ d', DbBelow s src d' ∧ d' ≠ src ∧ φ d = φ d' := ⟨d, hd, hds, rfl⟩
      dsimp only
      rw [dif_pos hq]
      exact (hinj d _ hd hq.choose_spec.1 hq.choose_spec.2.2).symm
    obtain ⟨ψ, hψ⟩ := hchoose
    refine ⟨fun i => if i ≤ s.db.seq then r i else r tgt + 1 + r (ψ i), ?_⟩
    intro p n c hc
    dsimp only
    rcases cases' p n c hc with h1 | ⟨d, x, hd, hs, hx, rfl, rfl, h2⟩
    · have h3 := hr _ _ _ h1
      rw [if_pos (hseq _ (hpar _ _ _ h1)), if_pos (hchseq _ _ _ h1)]; exact h3
    · have h4 := hφseq d n x hd hs hx
      rw [if_neg (by omega : ¬φ x ≤ s.db.seq), hψ x (hd.entry hs) hx]
      by_cases hds : d = src
      · subst hds
        rw [hφs, if_pos htseq]; omega
      · have h5 := (hcopy d hd hds).1
        rw [if_neg (by omega), hψ d hd hds]
        have := hr _ _ _ hs
        omega
  · intro p n hc
    rcases cases' p n _ hc with h1 | ⟨d, x, hd, hs, hx, _, h3, _⟩
    · exact h.noRoot _ _ h1
    · have h4 := hφseq d n x hd hs hx
      have h5 := hseq rootInode (root_ex hi)
      omega
  · intro p n q k c hc h1 h2
    rcases cases' p n c h1 with h3 | ⟨d, x, hd, hs, hx, rfl, rfl, h3⟩
    · rcases cases' q k c h2 with h4 | ⟨e, y, he, ht, hy, rfl, rfl, h4⟩
      · exact h.one _ _ _ _ _ (hdirold c (hchseq _ _ _ h3) hc) h3 h4
      · have := hφseq e k y he ht hy
        have := hchseq _ _ _ h3
        omega
    · rcases cases' q k _ h2 with h4 | ⟨e, y, he, ht, hy, rfl, hxy, h4⟩
      · have := hφseq d n x hd hs hx
        have := hchseq _ _ _ h4
        omega
      · have hxy' := hinj x y (hd.entry hs) (he.entry ht) hxy
        subst hxy'
        obtain ⟨h5, h6⟩ := h.one _ _ _ _ _ (hdirφ x (hd.entry hs) hx hc) hs ht
        subst h5; subst h6
        exact ⟨rfl, rfl⟩
  · intro i a ha
    by_cases his : i ≤ s.db.seq
    · exact hold i a his ha
    · obtain ⟨d, hd, hds, rfl⟩ := hnew i (by omega) (by rw [ha]; simp)
      obtain ⟨_, a0, b0, ha0, hb0, hcp, _, hcs, hcb⟩ := hcopy d hd hds
      rw [ha] at hb0; cases hb0
      have ht := hold d a0 (hseq d (hex d hd)) ha0
      obtain ⟨h1, _, _, _, _, _, h7, h8, _⟩ := hcp
      refine ⟨by rw [h1]; exact ht.typed, by rw [h1, hcs]; exact ht.lnk, by rw [hcs, h7]; exact ht.len, by rw [h1, h7]; exact ht.empty, by rw [h1, h8]; exact ht.dev, ?_, by intro k o ho; rw [h1]; rw [hcb] at ho; exact ht.blk k o ho⟩
      intro n c hc
      rw [h1]
      rw [hent d n hd hds] at hc
      cases hs : s.db.child d n with
      | none => rw [hs] at hc; cases hc
      | some x =>
        obtain ⟨b, hb, hab⟩ := hmode d a0 (hseq d (hex d hd)) ha0
        have h9 := (h.types d b hb).kids n x hs
        rcases hab with rfl | ⟨_, h10, _⟩
        · exact h9
        · rw [h10]; exact hsd
  · obtain ⟨b, hb⟩ := Option.ne_none_iff_exists'.1 (root_ex hinv)
    obtain ⟨a, ha, hab⟩ := hmode rootInode b (hseq _ (root_ex hi)) hb
    obtain ⟨a', ha', hd⟩ := h.rootDir
    rw [ha] at ha'; cases ha'
    refine ⟨b, hb, ?_⟩
    rcases hab with rfl | ⟨_, h1, _⟩
    · exact hd
    · rw [h1]; exact hsd
  · intro b hb
    obtain ⟨a, ha, hab⟩ := hmode ctrlInode b (hseq _ hi.ctrl_ex) hb
    have h1 := h.ctrlReg a ha
    rcases hab with rfl | ⟨_, _, _, _, h2⟩
    · exact h1
    · rw [dir_not_reg h2] at h1; cases h1

/-- Histories in which the kernel behaves are histories, and in their states the shape is right. -/
theorem KHist.shape {repl fail : Bool} {s : St} {K : Nat → Int} (h : KHist repl fail s K) : Hist repl fail s K ∧ Shape s := by
  induction h with
  | init uid gid now m hm => exact ⟨.init uid gid now m hm, Shape.init uid gid now m⟩
  | step op _ hq hv hh h1 h2 ih => exact ⟨ih.1.step op hq hh h1 h2, ih.2.step ih.1 hq hv hh⟩
  | remount _ ih =>
    obtain ⟨L, g⟩ := ih.1.good
    exact ⟨ih.1.remount, ih.2.remount g.inv⟩
  | lock id _ hl ih =>
    obtain ⟨L, g⟩ := ih.1.good
    exact ⟨ih.1.lock id hl, ih.2.lock g.inv hl⟩
  | rmtree _ hn hr ih =>
    obtain ⟨L, g⟩ := ih.1.good
    refine ⟨ih.1.rmtree hn ?_ hr, ih.2.rmtree g.inv hn hr⟩
    intro a ha hb
    rw [seenEntry_eq g.inv, if_neg hn] at ha
    exact ih.2.noLoop ha ((below_iff g.inv g.res).1 hb)
  | rmrow _ hn hc hr ih =>
    obtain ⟨L, g⟩ := ih.1.good
    refine ⟨ih.1.rmrow hn hc hr, ?_⟩
    rw [seenEntry_eq g.inv, if_neg hn] at hc
    rcases remove_row g.inv hc hr with rfl | ⟨_, he⟩
    · exact ih.2
    · exact ih.2.rms he
  | cptree _ hsrc htgt hl hc ih =>
    obtain ⟨L, g⟩ := ih.1.good
    have dir : ∀ {s : St} {p : Nat}, SeesDir s p → DirIn s p := by
      rintro s p ⟨a, h1, h2⟩
      rw [seenAttr_eq] at h1
      exact ⟨a, h1, h2⟩
    refine ⟨ih.1.cptree ?_ hl hc, ih.2.cptree g.inv (dir hsrc) (dir htgt) (linked_rc g.inv hl) hc⟩
    intro d n hb hn he
    rw [seenEntry_eq g.inv, if_neg hn] at he
    exact ih.2.noLoop he ((below_iff g.inv g.res).1 hb)

end Verif.Fs
