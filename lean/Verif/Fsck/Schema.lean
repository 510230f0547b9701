/-
The table updates of the fsck model respect the constraints of the schema.
-/
import Verif.Fsck.Lemmas

namespace Verif.Fsck
open Verif.Fs (Bytes Inode rootInode ctrlInode)

theorem Schema.addName {db : Db} (h : Schema db) (x : Bool) (n : Bytes) : Schema (db.addName x n).1 := by
  rcases addName_get h.names x n with ⟨r, h1, h2, h3, h4⟩ | ⟨h1, h2, h3⟩
  · rw [h4]
    refine { h with names := h.names.set _ _, nameUnique := ?_ }
    intro e he f hf ht hn
    rcases (mem_set h.names).1 he with rfl | ⟨he, hek⟩ <;> rcases (mem_set h.names).1 hf with rfl | ⟨hf, hfk⟩
    · rfl
    · exact absurd (congrArg (·.1) (h.nameUnique _ (AL.get_some_mem h1) f hf ht hn)).symm hfk
    · exact absurd (congrArg (·.1) (h.nameUnique e he _ (AL.get_some_mem h1) ht hn)) hek
    · exact h.nameUnique e he f hf ht hn
  · rw [h3]
    refine { h with names := h.names.set _ _, nameUnique := ?_ }
    intro e he f hf ht hn
    rcases (mem_set h.names).1 he with rfl | ⟨he, hek⟩ <;> rcases (mem_set h.names).1 hf with rfl | ⟨hf, hfk⟩
    · rfl
    · exact absurd ⟨ht.symm, hn.symm⟩ (findName_none h1 f hf)
    · exact absurd ⟨ht, hn⟩ (findName_none h1 e he)
    · exact h.nameUnique e he f hf ht hn

theorem Schema.delName {db : Db} (h : Schema db) (k : Nat) : Schema (db.delName k) := by
  unfold Db.delName
  cases hg : AL.get db.names k with
  | none => exact h
  | some r =>
    dsimp only
    split
    · refine { h with names := h.names.erase _, nameUnique := ?_ }
      intro e he f hf
      exact h.nameUnique e (mem_erase.1 he).1 f (mem_erase.1 hf).1
    · refine { h with names := h.names.set _ _, nameUnique := ?_ }
      intro e he f hf ht hn
      rcases (mem_set h.names).1 he with rfl | ⟨he, hek⟩ <;> rcases (mem_set h.names).1 hf with rfl | ⟨hf, hfk⟩
      · rfl
      · exact absurd (congrArg (·.1) (h.nameUnique _ (AL.get_some_mem hg) f hf ht hn)).symm hfk
      · exact absurd (congrArg (·.1) (h.nameUnique e he _ (AL.get_some_mem hg) ht hn)) hek
      · exact h.nameUnique e he f hf ht hn

theorem clash_false {db : Db} {k p n : Nat} (h : db.clash k p n = false) :
    ∀ e ∈ db.contents, e.1 ≠ k → ¬ (e.2.parent = p ∧ e.2.nameId = n) := by
  intro e he hk hc
  unfold Db.clash at h
  have := List.any_eq_false.1 h e he
  simp [hk, hc.1, hc.2] at this

/-- Facts about an update of an entry. -/
theorem putEntry_some {db db' : Db} {k : Nat} {r : CRow} (h : db.putEntry k r = some db') :
    db' = { db with contents := AL.set db.contents k r } ∧
      ∀ e ∈ db.contents, e.1 ≠ k → ¬ (e.2.parent = r.parent ∧ e.2.nameId = r.nameId) := by
  unfold Db.putEntry at h
  split at h
  · cases h
  · rename_i hc
    exact ⟨(Option.some.inj h).symm, clash_false (by simpa using hc)⟩

theorem Schema.putEntry {db db' : Db} (hs : Schema db) {k : Nat} {r : CRow} (hk : k ≤ db.cseq)
    (h : db.putEntry k r = some db') : Schema db' := by
  obtain ⟨rfl, hc⟩ := putEntry_some h
  refine { hs with contents := hs.contents.set _ _, cseq := ?_, entryUnique := ?_ }
  · intro e he
    rcases (mem_set hs.contents).1 he with rfl | ⟨he, _⟩
    · exact hk
    · exact hs.cseq e he
  · intro e he f hf ht hn
    rcases (mem_set hs.contents).1 he with rfl | ⟨he, hek⟩ <;> rcases (mem_set hs.contents).1 hf with rfl | ⟨hf, hfk⟩
    · rfl
    · exact absurd ⟨ht.symm, hn.symm⟩ (hc f hf hfk)
    · exact absurd ⟨ht, hn⟩ (hc e he hek)
    · exact hs.entryUnique e he f hf ht hn

theorem insEntry_some {db db' : Db} {r : CRow} (h : db.insEntry r = some db') :
    db' = { db with contents := AL.set db.contents (db.cseq + 1) r, cseq := db.cseq + 1 } ∧
      ∀ e ∈ db.contents, e.1 ≠ db.cseq + 1 → ¬ (e.2.parent = r.parent ∧ e.2.nameId = r.nameId) := by
  unfold Db.insEntry at h
  cases hp : db.putEntry (db.cseq + 1) r with
  | none => rw [hp] at h; cases h
  | some d =>
    rw [hp] at h
    obtain ⟨rfl, hc⟩ := putEntry_some hp
    exact ⟨(Option.some.inj h).symm, hc⟩

theorem fresh_row {db : Db} (hs : Schema db) : AL.get db.contents (db.cseq + 1) = none := by
  rw [AL.get_none_iff]
  intro hm
  obtain ⟨e, he, h⟩ := List.mem_map.1 hm
  have := hs.cseq e he
  omega

theorem Schema.insEntry {db db' : Db} (hs : Schema db) {r : CRow} (h : db.insEntry r = some db') : Schema db' := by
  obtain ⟨rfl, hc⟩ := insEntry_some h
  have hf := fresh_row hs
  refine { hs with contents := hs.contents.set _ _, cseq := ?_, entryUnique := ?_ }
  · intro e he
    rcases (mem_set hs.contents).1 he with rfl | ⟨he, _⟩
    · exact Nat.le_refl _
    · exact Nat.le_succ_of_le (hs.cseq e he)
  · intro e he f hf ht hn
    rcases (mem_set hs.contents).1 he with rfl | ⟨he, hek⟩ <;> rcases (mem_set hs.contents).1 hf with rfl | ⟨hf, hfk⟩
    · rfl
    · exact absurd ⟨ht.symm, hn.symm⟩ (hc f hf hfk)
    · exact absurd ⟨ht, hn⟩ (hc e he hek)
    · exact hs.entryUnique e he f hf ht hn

theorem row_le {db : Db} (hs : Schema db) {k : Nat} {r : CRow} (h : AL.get db.contents k = some r) : k ≤ db.cseq :=
  hs.cseq _ (AL.get_some_mem h)

theorem Schema.moveRows {f : CRow → CRow} {l : List Nat} {db db' : Db} (hs : Schema db)
    (h : db.moveRows f l = some db') : Schema db' := by
  induction l generalizing db with
  | nil => cases h; exact hs
  | cons k t ih =>
    unfold Db.moveRows at h
    cases hg : AL.get db.contents k with
    | none => rw [hg] at h; exact ih hs h
    | some r =>
      rw [hg] at h
      dsimp only at h
      cases hp : db.putEntry k (f r) with
      | none => rw [hp] at h; cases h
      | some d => rw [hp] at h; exact ih (hs.putEntry (row_le hs hg) hp) h

theorem Schema.setInode {db : Db} (hs : Schema db) {k : Nat} {i : Inode} (j : Inode) (h : AL.get db.inodes k = some i) :
    Schema { db with inodes := AL.set db.inodes k j } := by
  refine { hs with inodes := hs.inodes.set _ _, iseq := ?_ }
  intro e he
  rcases (mem_set hs.inodes).1 he with rfl | ⟨he, _⟩
  · exact hs.iseq (k, i) (AL.get_some_mem h)
  · exact hs.iseq e he

theorem Schema.createLof {db : Db} (hs : Schema db) (cfg : Cfg) : Schema (db.createLof cfg).1 := by
  unfold Db.createLof
  refine { hs with inodes := hs.inodes.set _ _, iseq := ?_ }
  intro e he
  rcases (mem_set hs.inodes).1 he with rfl | ⟨he, _⟩
  · exact Nat.le_refl _
  · exact Nat.le_succ_of_le (hs.iseq e he)

/-- Setting an object without changing its hash. -/
theorem Schema.setObj {db : Db} (hs : Schema db) {k : Nat} {o o' : Obj} (h : AL.get db.objects k = some o)
    (hh : o'.hash = o.hash) : Schema { db with objects := AL.set db.objects k o' } := by
  refine { hs with objects := hs.objects.set _ _, oseq := ?_, hashUnique := ?_ }
  · intro e he
    rcases (mem_set hs.objects).1 he with rfl | ⟨he, _⟩
    · exact hs.oseq (k, o) (AL.get_some_mem h)
    · exact hs.oseq e he
  · intro e he f hf h1 h2
    rcases (mem_set hs.objects).1 he with rfl | ⟨he, hek⟩ <;> rcases (mem_set hs.objects).1 hf with rfl | ⟨hf, hfk⟩
    · rfl
    · exact absurd (congrArg (·.1) (hs.hashUnique _ (AL.get_some_mem h) f hf (by rw [← hh]; exact h1) (by rw [← hh]; exact h2))).symm hfk
    · exact absurd (congrArg (·.1) (hs.hashUnique e he _ (AL.get_some_mem h) h1 (by rw [← hh]; exact h2))) hek
    · exact hs.hashUnique e he f hf h1 h2

theorem Schema.addRef {db : Db} (hs : Schema db) (k : Nat) (n : Int) :
    Schema { db with objects := addRef db.objects k n } := by
  unfold Fsck.addRef
  cases h : AL.get db.objects k with
  | none => exact hs
  | some o => exact hs.setObj h rfl

theorem NK.filter {ν : Type} {l : List (Nat × ν)} (h : AL.NK l) (p : Nat × ν → Bool) : AL.NK (l.filter p) := by
  unfold AL.NK at *
  exact (List.filter_sublist.map _).nodup h

/-- Removing rows. -/
theorem Schema.sub {db db' : Db} (hs : Schema db)
    (h1 : List.Sublist db'.contents db.contents) (h2 : List.Sublist db'.xattrs db.xattrs)
    (h3 : List.Sublist db'.blocks db.blocks) (h4 : List.Sublist db'.objects db.objects)
    (h5 : List.Sublist db'.symlinks db.symlinks) (h6 : db'.inodes = db.inodes) (h7 : db'.names = db.names)
    (h8 : db'.iseq = db.iseq) (h9 : db'.cseq = db.cseq) (h10 : db'.oseq = db.oseq) : Schema db' where
  inodes := by rw [h6]; exact hs.inodes
  names := by rw [h7]; exact hs.names
  contents := (h1.map _).nodup hs.contents
  xattrs := (h2.map _).nodup hs.xattrs
  blocks := (h3.map _).nodup hs.blocks
  objects := (h4.map _).nodup hs.objects
  symlinks := (h5.map _).nodup hs.symlinks
  iseq := by rw [h6, h8]; exact hs.iseq
  cseq := fun e he => by rw [h9]; exact hs.cseq e (h1.subset he)
  oseq := fun e he => by rw [h10]; exact hs.oseq e (h4.subset he)
  nameUnique := by rw [h7]; exact hs.nameUnique
  entryUnique := fun e he f hf => hs.entryUnique e (h1.subset he) f (h1.subset hf)
  blockUnique := fun e he f hf => hs.blockUnique e (h3.subset he) f (h3.subset hf)
  hashUnique := fun e he f hf => hs.hashUnique e (h4.subset he) f (h4.subset hf)

/-! #### check_lof and check_cache -/

/-- The entry that `check_lof` finds or makes is in the table; its name is `lost+found` and it is in the root. -/
theorem findLof_schema {cfg : Cfg} {s s' : St} {id nid : Nat} (hs : Schema s.db)
    (h : findLof cfg s = some (s', id, nid)) : Schema s'.db := by
  unfold findLof at h
  cases he : s.db.entry rootInode lofName with
  | some e => rw [he] at h; cases h; exact hs
  | none =>
    rw [he] at h
    dsimp only at h
    split at h
    · split at h
      · cases h
      · rename_i db hm
        cases h
        exact hs.moveRows hm
    · split at h
      · cases h
      · rename_i db hm
        cases h
        exact ((hs.createLof cfg).addName false lofName).insEntry hm
    · cases h

theorem checkLof_schema {cfg : Cfg} {s s' : St} (hs : Schema s.db) (h : checkLof cfg s = some s') : Schema s'.db := by
  unfold checkLof at h
  cases hf : findLof cfg s with
  | none => rw [hf] at h; cases h
  | some x =>
    obtain ⟨s1, id, nid⟩ := x
    rw [hf] at h
    have h1 := findLof_schema hs hf
    dsimp only at h
    cases hg : AL.get s1.db.inodes id with
    | none => rw [hg] at h; cases h
    | some i =>
      rw [hg] at h
      dsimp only at h
      split at h
      · cases h; exact h1
      · have h2 := h1.createLof cfg
        split at h
        · rename_i rowid r hfe
          cases h
          obtain ⟨hm, hp, hn⟩ := findEntry_spec hfe
          refine { h2 with contents := h2.contents.set _ _, cseq := ?_, entryUnique := ?_ }
          · intro e he
            rcases (mem_set h2.contents).1 he with rfl | ⟨he, _⟩
            · exact h2.cseq (rowid, r) hm
            · exact h2.cseq e he
          · intro e he f hf ht hn
            rcases (mem_set h2.contents).1 he with rfl | ⟨he, hek⟩ <;> rcases (mem_set h2.contents).1 hf with rfl | ⟨hf, hfk⟩
            · rfl
            · exact absurd (congrArg (·.1) (h2.entryUnique _ hm f hf ht hn)).symm hfk
            · exact absurd (congrArg (·.1) (h2.entryUnique e he _ hm ht hn)) hek
            · exact h2.entryUnique e he f hf ht hn
        · cases h; exact h2

theorem findHash_spec {l : List (Nat × Obj)} {h : Bytes} {i : Nat} (hf : findHash l h = some i) :
    ∃ o, (i, o) ∈ l ∧ o.hash = some h := by
  induction l with
  | nil => cases hf
  | cons a t ih =>
    obtain ⟨j, r⟩ := a
    unfold findHash at hf
    split at hf
    · rename_i hc; cases hf; exact ⟨r, List.mem_cons_self, hc⟩
    · obtain ⟨o, h1, h2⟩ := ih hf
      exact ⟨o, List.mem_cons_of_mem _ h1, h2⟩

theorem findHash_none {l : List (Nat × Obj)} {h : Bytes} (hf : findHash l h = none) : ∀ e ∈ l, e.2.hash ≠ some h := by
  induction l with
  | nil => intro e he; cases he
  | cons a t ih =>
    obtain ⟨j, r⟩ := a
    unfold findHash at hf
    split at hf
    · cases hf
    · rename_i hc
      intro e he
      rcases List.mem_cons.1 he with rfl | he
      · exact hc
      · exact ih hf e he

theorem findBlock_spec {l : List (Nat × BRow)} {i b : Nat} {e : Nat × BRow} (hf : findBlock l i b = some e) :
    e ∈ l ∧ e.2.inode = i ∧ e.2.blockno = b := by
  induction l with
  | nil => cases hf
  | cons a t ih =>
    obtain ⟨j, r⟩ := a
    unfold findBlock at hf
    split at hf
    · rename_i hc; cases hf; exact ⟨List.mem_cons_self, hc⟩
    · obtain ⟨h1, h2⟩ := ih hf
      exact ⟨List.mem_cons_of_mem _ h1, h2⟩

theorem findBlock_none {l : List (Nat × BRow)} {i b : Nat} (hf : findBlock l i b = none) :
    ∀ e ∈ l, ¬ (e.2.inode = i ∧ e.2.blockno = b) := by
  induction l with
  | nil => intro e he; cases he
  | cons a t ih =>
    obtain ⟨j, r⟩ := a
    unfold findBlock at hf
    split at hf
    · cases hf
    · rename_i hc
      intro e he
      rcases List.mem_cons.1 he with rfl | he
      · exact hc
      · exact ih hf e he

theorem fresh_obj {db : Db} (hs : Schema db) : AL.get db.objects (db.oseq + 1) = none := by
  rw [AL.get_none_iff]
  intro hm
  obtain ⟨e, he, h⟩ := List.mem_map.1 hm
  have := hs.oseq e he
  omega

theorem objectFor_schema {cfg : Cfg} {s : St} (hs : Schema s.db) (data : Bytes) : Schema (objectFor cfg s data).1.db := by
  unfold objectFor
  cases hf : findHash s.db.objects (cfg.sha data) with
  | some o => exact hs.addRef o 1
  | none =>
    dsimp only
    refine { hs with objects := hs.objects.set _ _, oseq := ?_, hashUnique := ?_ }
    · intro e he
      rcases (mem_set hs.objects).1 he with rfl | ⟨he, _⟩
      · exact Nat.le_refl _
      · exact Nat.le_succ_of_le (hs.oseq e he)
    · intro e he f hf' h1 h2
      rcases (mem_set hs.objects).1 he with rfl | ⟨he, hek⟩ <;> rcases (mem_set hs.objects).1 hf' with rfl | ⟨hf', hfk⟩
      · rfl
      · exact absurd h2.symm (findHash_none hf f hf')
      · exact absurd h2 (findHash_none hf e he)
      · exact hs.hashUnique e he f hf' h1 h2

theorem cacheFile_schema {cfg : Cfg} {f : CFile} {s s' : St} (hs : Schema s.db) (h : cacheFile cfg f s = some s') :
    Schema s'.db := by
  cases f with
  | strange => cases h
  | tmp => cases h; exact hs
  | blk i b data =>
    simp only [cacheFile] at h
    split at h
    · cases h; exact hs
    · have h1 := objectFor_schema (cfg := cfg) (s := s.err) hs data
      generalize objectFor cfg s.err data = x at h h1
      obtain ⟨s1, o⟩ := x
      dsimp only at h h1
      split at h
      · rename_i hn
        cases h
        refine { h1 with blocks := h1.blocks.set _ _, blockUnique := ?_ }
        intro e he f hf ht hb
        rcases (mem_set h1.blocks).1 he with rfl | ⟨he, hek⟩ <;> rcases (mem_set h1.blocks).1 hf with rfl | ⟨hf, hfk⟩
        · rfl
        · exact absurd ⟨ht.symm, hb.symm⟩ (findBlock_none hn f hf)
        · exact absurd ⟨ht, hb⟩ (findBlock_none hn e he)
        · exact h1.blockUnique e he f hf ht hb
      · rename_i rowid r hn
        cases h
        obtain ⟨hm, _⟩ := findBlock_spec hn
        have h2 := h1.addRef r.obj (-1)
        refine { h2 with blocks := h1.blocks.set _ _, blockUnique := ?_ }
        intro e he f hf ht hb
        rcases (mem_set h1.blocks).1 he with rfl | ⟨he, hek⟩ <;> rcases (mem_set h1.blocks).1 hf with rfl | ⟨hf, hfk⟩
        · rfl
        · exact absurd (congrArg (·.1) (h1.blockUnique _ hm f hf ht hb)).symm hfk
        · exact absurd (congrArg (·.1) (h1.blockUnique e he _ hm ht hb)) hek
        · exact h1.blockUnique e he f hf ht hb

theorem cachePart_schema {cfg : Cfg} {c : CacheArg} {s s' : St} (hs : Schema s.db) (h : cachePart cfg c s = some s') :
    Schema s'.db := by
  have aux : ∀ keep s', checkCache cfg keep s = some s' → Schema s'.db := by
    intro keep s' h
    unfold checkCache at h
    obtain ⟨s1, h1, rfl⟩ := Option.map_eq_some_iff.1 h
    have := iter_inv (f := cacheFile cfg) (fun t => Schema t.db) (fun a _ t t' ht hf => cacheFile_schema ht hf) h1 hs
    exact { this with }
  cases c with
  | no => cases h; exact hs
  | yes => exact aux _ _ h
  | keep => exact aux _ _ h

theorem checkNamesRefcount_schema {s : St} (hs : Schema s.db) : Schema (checkNamesRefcount s).db := by
  unfold checkNamesRefcount
  refine { hs with names := ?_, nameUnique := ?_ }
  · have := hs.names
    unfold AL.NK at *
    rw [List.map_map]
    exact this
  · intro e he f hf ht hn
    obtain ⟨e', he', rfl⟩ := List.mem_map.1 he
    obtain ⟨f', hf', rfl⟩ := List.mem_map.1 hf
    have := hs.nameUnique e' he' f' hf' ht hn
    rw [this]

end Verif.Fsck
