/-
Theorems about the file system operations: link counts (C16), names (C17), extended attributes (C18), the namespace
(C19), deleted files (C20) and crashes (C60).
-/
import Verif.Fs.Good

namespace Verif.Fs

/-! #### Counting -/

theorem sumBy_count {κ ν : Type} (p : κ → ν → Bool) : ∀ l : List (κ × ν),
    AL.sumBy (fun k v => if p k v = true then (1 : Int) else 0) l = ((l.filter (fun e => p e.1 e.2)).length : Int)
  | [] => rfl
  | (k, v) :: t => by
    simp only [AL.sumBy, sumBy_count p t]
    by_cases h : p k v = true
    · rw [List.filter_cons, if_pos h, if_pos h]; simp only [List.length_cons]; omega
    · rw [List.filter_cons, if_neg h, if_neg h]; omega

theorem links_eq (s : St) (i : Nat) : s.db.links i = (entriesTo s i : Int) := by
  unfold Db.links entriesTo
  rw [← sumBy_count (fun (_ : Nat × Nat) (v : Nat) => v == i)]
  congr 1
  funext _ v
  simp only [beq_iff_eq]

theorem uses_eq (s : St) (k : Nat) : s.db.usesC k + s.db.usesX k = (usesOf s k : Int) := by
  unfold Db.usesC Db.usesX usesOf
  rw [Int.natCast_add, ← sumBy_count (fun (e : Nat × Nat) (_ : Nat) => e.2 == k), ← sumBy_count (fun (e : Nat × Nat) (_ : Bytes) => e.2 == k)]
  congr 1 <;> (congr 1; funext e _; simp only [beq_iff_eq])

theorem usesB_eq (db : Db) (o : Nat) : db.usesB o = ((db.blocks.filter (fun e => e.2 == o)).length : Int) := by
  unfold Db.usesB
  rw [← sumBy_count (fun (_ : Nat × Nat) (v : Nat) => v == o)]
  congr 1
  funext _ v
  simp only [beq_iff_eq]

theorem nk_nodup {κ ν : Type} {l : List (κ × ν)} (h : AL.NK l) : l.Nodup := by
  unfold AL.NK at h
  induction l with
  | nil => exact List.nodup_nil
  | cons e t ih =>
    rw [List.map_cons, List.nodup_cons] at h
    exact List.nodup_cons.2 ⟨fun hm => h.1 (List.mem_map_of_mem hm), ih h.2⟩

theorem get_ex {κ ν : Type} [DecidableEq κ] {l : List (κ × ν)} {k : κ} (h : AL.get l k ≠ none) : ∃ r ∈ l, r.1 = k := by
  obtain ⟨v, hv⟩ := Option.ne_none_iff_exists'.1 h
  exact ⟨(k, v), AL.get_some_mem hv, rfl⟩

/-! #### C16 -/

theorem Inv.links_exact {T : Nat → Prop} {L : Nat → Int} {s : St} (hinv : Inv T L s) : LinksExact s ∧ EntriesValid s ∧ NoDup s := by
  have hA := hinv.acc
  refine ⟨?_, ?_, nk_nodup hA.nkC, ?_⟩
  · rintro ⟨i, a⟩ hr
    have h1 := hA.rc i
    have h2 : s.db.rc i = a.refcount := by simp [Db.rc, AL.mem_get_some hA.nkI hr]
    rw [h2, links_eq] at h1
    simp only
    rw [h1]
    unfold base
    show _ = _ + (if i = 1 then (1 : Int) else 0) + (if i = 2 then (42 : Int) else 0)
    split
    · rename_i e; subst e; simp; omega
    · split <;> omega
  · rintro ⟨⟨p, k⟩, c⟩ he
    have hg := AL.mem_get_some hA.nkC he
    obtain ⟨n, hn⟩ := hA.nm_of_C (hinv.Lnn k) hg
    obtain ⟨r, hr⟩ := nm_some.1 hn
    have hc := (hA.child_iff p n c).2 ⟨k, hn, hg⟩
    obtain ⟨_, h2, _, h4⟩ := hinv.child_pos hc
    exact ⟨get_ex h2, get_ex h4, (k, (n, r)), AL.get_some_mem hr, rfl⟩
  · rintro ⟨⟨p, k⟩, c⟩ he ⟨⟨q, j⟩, d⟩ hf ⟨a1, a2⟩ ha ⟨b1, b2⟩ hb h1 h2 h3 h4
    simp only at h1 h2 h3 h4
    subst h1 h2 h3
    have e1 := AL.mem_get_some hA.nkN ha
    have e2 := AL.mem_get_some hA.nkN hb
    have hab : a1 = b1 := by
      obtain ⟨an, ar⟩ := a2
      obtain ⟨bn, br⟩ := b2
      simp only at h4; subst h4
      exact hA.nuniq _ _ _ _ _ e1 e2
    subst hab
    have e3 := AL.mem_get_some hA.nkC he
    have e4 := AL.mem_get_some hA.nkC hf
    rw [e3] at e4; cases e4; rfl

/-- C16: in every state of every history (of requests that are `Handled`), link counts are the numbers of directory
entries, entries refer to existing inodes, directories and names, and names are unique in a directory. -/
theorem links_exact_partial {repl fail : Bool} {s : St} {K : Nat → Int} (h : Hist repl fail s K) :
    LinksExact s ∧ EntriesValid s ∧ NoDup s := by
  obtain ⟨L, g⟩ := h.good
  exact g.inv.links_exact

theorem Inv.objects_exact {T : Nat → Prop} {L : Nat → Int} {s : St} (hinv : Inv T L s) : ObjectsExact s := by
  have hA := hinv.acc
  constructor
  · rintro ⟨o, r⟩ hr
    have hg := AL.mem_get_some hA.nkO hr
    have h1 := hA.orc o
    have h2 := hA.opos o r hg
    rw [usesB_eq] at h1
    have h3 : s.db.orc o = r := by simp [Db.orc, hg]
    exact ⟨by rw [← h3]; exact h1, h2⟩
  · rintro ⟨⟨i, b⟩, o⟩ he
    have h1 := hA.orc o
    rw [usesB_eq] at h1
    have h2 : 0 < (s.db.blocks.filter (fun e => e.2 == o)).length :=
      List.length_pos_of_mem (List.mem_filter.2 ⟨he, by simp⟩)
    have h3 : AL.get s.db.objects o ≠ none := by
      intro h0; simp [Db.orc, h0] at h1; omega
    exact get_ex h3

/-- The same for objects: their reference counts are exact, and blocks are bound to existing objects. -/
theorem objects_exact_partial {repl fail : Bool} {s : St} {K : Nat → Int} (h : Hist repl fail s K) : ObjectsExact s := by
  obtain ⟨L, g⟩ := h.good
  exact g.inv.objects_exact

/-! #### C17 -/

theorem Inv.names_exact {T : Nat → Prop} {s : St} (hinv : Inv T (fun _ => 0) s) : NamesExact s := by
  have hA := hinv.acc
  rintro ⟨k, n, r⟩ hr
  have hg := AL.mem_get_some hA.nkN hr
  have h1 := hA.nr k
  have h2 : s.db.nr k = r := by simp [Db.nr, hg]
  rw [h2, uses_eq] at h1
  have h3 := hA.npos k n r hg
  refine ⟨by simpa using h1, ?_⟩
  show 0 < usesOf s k
  have : (0 : Int) < usesOf s k := by simp at h1; omega
  omega

/-- C17, as far as it holds: while no attribute is replaced, the count of every name is the number of its uses, and no
name is unused. -/
theorem names_exact_partial {fail : Bool} {s : St} {K : Nat → Int} (h : Hist false fail s K) : NamesExact s := by
  obtain ⟨L, g⟩ := h.good
  have := g.inv
  rw [g.exact rfl] at this
  exact this.names_exact

/-- In general the counts are at least the number of uses: names in use are never removed, unused ones may stay. -/
theorem names_kept {repl fail : Bool} {s : St} {K : Nat → Int} (h : Hist repl fail s K) :
    (∀ r ∈ s.db.names, (usesOf s r.1 : Int) ≤ r.2.2 ∧ 0 < r.2.2) ∧ ∀ k, 0 < usesOf s k → ∃ r ∈ s.db.names, r.1 = k := by
  obtain ⟨L, g⟩ := h.good
  have hA := g.inv.acc
  constructor
  · rintro ⟨k, n, r⟩ hr
    have hg := AL.mem_get_some hA.nkN hr
    have h1 := hA.nr k
    have h2 : s.db.nr k = r := by simp [Db.nr, hg]
    have h3 := g.inv.Lnn k
    rw [h2, uses_eq] at h1
    exact ⟨by simp only; omega, hA.npos k n r hg⟩
  · intro k hk
    have h1 := hA.nr k
    have h3 := g.inv.Lnn k
    rw [uses_eq] at h1
    apply get_ex
    intro h0
    simp [Db.nr, h0] at h1
    omega

/-! #### C18 -/

/-- C18: the attributes of the inodes are a map that changes only as the successful `setxattr` and `removexattr`
requests say, and failing requests and all others leave it alone. -/
theorem xattrs_map_partial {repl fail : Bool} {s : St} {K : Nat → Int} (h : Hist repl fail s K) {op : Op} (hq : Req K s op) (hh : Handled s op)
    (i : Nat) (n : Bytes) (hi : seenAttr (step s op).2 i ≠ none) :
    seenXattr (step s op).2 i n = specXattrs (seenXattr s) op (step s op).1 i n := by
  obtain ⟨L, g⟩ := h.good
  obtain ⟨L', he, _⟩ := step_eff g.inv (kernelOk_of g.inv g.res g.le hq hh)
  have hr := g.res.step g.inv he
  rw [seenAttr_eq] at hi
  have key : ∀ m : Nat → Bytes → Option Bytes, (∀ i n, m i n = s.db.xval i n ∨ n = aclAccess ∨ n = aclDefault) →
      (n = aclAccess ∨ n = aclDefault → specXattrs m op (step s op).1 i n = m i n ∨ specXattrs m op (step s op).1 i n = none) := by
    intro m _ hn
    cases hres : (step s op).1 with
    | error e => left; cases op <;> rfl
    | ok r =>
      cases op with
      | setxattr id n' v now =>
        simp only [specXattrs]
        split
        · rename_i hc
          exfalso
          rw [← hc.2] at hres
          simp only [Fs.step, opSetxattr, if_pos hn] at hres
          cases hres
        · left; rfl
      | removexattr id n' now =>
        simp only [specXattrs]
        split
        · right; rfl
        · left; rfl
      | _ => left; rfl
  by_cases hn : n = aclAccess ∨ n = aclDefault
  · have h1 : seenXattr (step s op).2 i n = none := by rw [seenXattr_eq, if_pos hn]
    have h2 : seenXattr s i n = none := by rw [seenXattr_eq, if_pos hn]
    have h3 := key (seenXattr s) (fun i n => by rw [seenXattr_eq]; by_cases hx : n = aclAccess ∨ n = aclDefault; exact Or.inr hx; rw [if_neg hx]; exact Or.inl rfl) hn
    rw [h1]
    rcases h3 with h3 | h3
    · rw [h3, h2]
    · exact h3.symm
  · rw [seenXattr_eq, if_neg hn, he.xval i n hi]
    have h2 : seenXattr s i n = s.db.xval i n := by rw [seenXattr_eq, if_neg hn]
    cases hres : (step s op).1 with
    | error e => cases op <;> exact h2.symm
    | ok r =>
      cases op with
      | setxattr id n' v now => simp only [specXattrs]; rw [h2]
      | removexattr id n' now => simp only [specXattrs]; rw [h2]
      | _ => exact h2.symm

/-- `listxattr` lists exactly the attributes that are set, each once. -/
theorem listxattr_exact {repl fail : Bool} {s : St} {K : Nat → Int} (h : Hist repl fail s K) {i : Nat} (hi : 0 < K i) :
    ∃ l, (step s (.listxattr i)).1 = .ok (.names l) ∧ l.Nodup ∧ ∀ n, n ∈ l ↔ seenXattr s i n ≠ none := by
  obtain ⟨L, g⟩ := h.good
  have hA := g.inv.acc
  obtain ⟨ino, hino⟩ := g.inv.known_ex ((g.inv.cnt_pos_iff i).1 (by have := g.le i; omega))
  refine ⟨s.db.listxattr i, rfl, ?_, ?_⟩
  · unfold Db.listxattr
    have hnd : (s.db.xattrs.filter (fun e => e.1.1 == i)).Nodup := (nk_nodup hA.nkX).sublist List.filter_sublist
    have hall : ∀ e ∈ s.db.xattrs.filter (fun e => e.1.1 == i), e.1.1 = i ∧ AL.get s.db.xattrs e.1 = some e.2 := by
      intro e he
      rw [List.mem_filter] at he
      exact ⟨by simpa using he.2, AL.mem_get_some hA.nkX he.1⟩
    generalize s.db.xattrs.filter (fun e => e.1.1 == i) = l at *
    induction l with
    | nil => simp
    | cons e t ih =>
      have hnd' := List.nodup_cons.1 hnd
      have ih' := ih hnd'.2 (fun x hx => hall x (by simp [hx]))
      rw [List.filterMap_cons]
      cases hg : AL.get s.db.names e.1.2 with
      | none => simpa using ih'
      | some v =>
        simp only [Option.map_some]
        rw [List.nodup_cons]
        refine ⟨?_, ih'⟩
        rw [List.mem_filterMap]
        rintro ⟨f, hf, hfe⟩
        cases hg2 : AL.get s.db.names f.1.2 with
        | none => simp [hg2] at hfe
        | some w =>
          rw [hg2] at hfe
          simp only [Option.map_some, Option.some.injEq] at hfe
          obtain ⟨v1, v2⟩ := v
          obtain ⟨w1, w2⟩ := w
          simp only at hfe; subst hfe
          have hkk := hA.nuniq _ _ _ _ _ hg hg2
          have a1 := hall e (by simp)
          have a2 := hall f (by simp [hf])
          have hkey : e.1 = f.1 := Prod.ext (by rw [a1.1, a2.1]) hkk
          have hval : e.2 = f.2 := by
            have := a1.2; rw [hkey, a2.2] at this; simpa using this.symm
          exact hnd'.1 (by rw [Prod.ext hkey hval]; exact hf)
  · intro n
    have hkey : n ∈ s.db.listxattr i ↔ ∃ v, s.db.xval i n = some v := by
      unfold Db.listxattr
      rw [List.mem_filterMap]
      constructor
      · rintro ⟨⟨⟨j, k⟩, v⟩, hm, he⟩
        rw [List.mem_filter] at hm
        have hj : j = i := by simpa using hm.2
        subst hj
        refine ⟨v, (hA.xval_iff _ _ _).2 ⟨k, ?_, AL.mem_get_some hA.nkX hm.1⟩⟩
        exact he
      · rintro ⟨v, hv⟩
        obtain ⟨k, hk, hx⟩ := (hA.xval_iff _ _ _).1 hv
        refine ⟨((i, k), v), List.mem_filter.2 ⟨AL.get_some_mem hx, by simp⟩, hk⟩
    rw [hkey, seenXattr_eq]
    split
    · rename_i hn
      rw [g.res.acl i n (by rw [hino]; simp) hn]; simp
    · exact Option.ne_none_iff_exists'.symm

/-! #### C19 -/

/-- C19: the directory entries are a map that changes exactly as the successful requests say, and failing requests leave
it alone.  (The control file is visible in every directory and not part of the map.) -/
theorem namespace_map_partial {repl fail : Bool} {s : St} {K : Nat → Int} (h : Hist repl fail s K) {op : Op} (hq : Req K s op) (hh : Handled s op)
    (p : Nat) (n : Bytes) (hn : n ≠ ctrlName) :
    seenEntry (step s op).2 p n = specEntries (seenEntry s) op (step s op).1 p n := by
  obtain ⟨L, g⟩ := h.good
  obtain ⟨L', he, _⟩ := step_eff g.inv (kernelOk_of g.inv g.res g.le hq hh)
  rw [seenEntry_eq he.inv, if_neg hn, he.child]
  have h0 : ∀ p, seenEntry s p n = s.db.child p n := by intro p; rw [seenEntry_eq g.inv, if_neg hn]
  cases hres : (step s op).1 with
  | error e => cases op <;> exact (h0 p).symm
  | ok r =>
    cases op with
    | rename po no pn nn flags now =>
      have hno : no ≠ ctrlName := by
        rintro rfl
        simp only [Fs.step, opRename, or_true, if_true] at hres
        split at hres
        · cases hres
        · split at hres <;> cases hres
      have h1 : seenEntry s po no = s.db.child po no := by rw [seenEntry_eq g.inv, if_neg hno]
      simp only [specEntries]
      rw [h1, h0]
    | mknod => cases r <;> first | exact (h0 p).symm | (simp only [specEntries]; rw [h0])
    | symlink => cases r <;> first | exact (h0 p).symm | (simp only [specEntries]; rw [h0])
    | create => cases r <;> first | exact (h0 p).symm | (simp only [specEntries]; rw [h0])
    | link => simp only [specEntries]; rw [h0]
    | unlink => simp only [specEntries]; rw [h0]
    | rmdir => simp only [specEntries]; rw [h0]
    | _ => exact (h0 p).symm

/-- New inodes are the ones replied by the request that made them, and have no data. -/
theorem new_inode_partial {repl fail : Bool} {s : St} {K : Nat → Int} (h : Hist repl fail s K) {op : Op} (hq : Req K s op) (hh : Handled s op)
    {i : Nat} (h0 : seenAttr s i = none) (h1 : seenAttr (step s op).2 i ≠ none) :
    (∃ a, (step s op).1 = .ok (.entry i a)) ∧ ∀ k, AL.get (step s op).2.db.blocks (i, k) = none := by
  obtain ⟨L, g⟩ := h.good
  obtain ⟨L', he, _⟩ := step_eff g.inv (kernelOk_of g.inv g.res g.le hq hh)
  rw [seenAttr_eq] at h0 h1
  exact ((he.fresh i h0 h1).2)

/-! #### C20 -/

/-- A deleted file stays usable: inodes with a directory entry, or that the kernel knows, exist. -/
theorem inode_kept {repl fail : Bool} {s : St} {K : Nat → Int} (h : Hist repl fail s K) {i : Nat}
    (hi : 0 < entriesTo s i ∨ 0 < K i) : seenAttr s i ≠ none := by
  obtain ⟨L, g⟩ := h.good
  rw [seenAttr_eq]
  rcases hi with hi | hi
  · apply rc_pos_ne
    have h1 := g.inv.acc.rc i
    have hb : 0 ≤ base i := by unfold base; split <;> (try split) <;> omega
    rw [links_eq] at h1; omega
  · obtain ⟨ino, hino⟩ := g.inv.known_ex ((g.inv.cnt_pos_iff i).1 (by have := g.le i; omega))
    rw [hino]; simp

/-- C20: an inode exists exactly while it has a directory entry or the kernel holds lookups of it; provided that no
`unlink`, `rmdir` or `rename` failed since the file system was mounted. -/
theorem inode_exists_iff_partial {repl : Bool} {s : St} {K : Nat → Int} (h : Hist repl false s K) {i : Nat} (h1 : i ≠ rootInode) (h2 : i ≠ ctrlInode) :
    seenAttr s i ≠ none ↔ 0 < entriesTo s i ∨ 0 < K i := by
  constructor
  · intro hi
    rw [seenAttr_eq] at hi
    obtain ⟨L, g⟩ := h.good
    obtain ⟨ino, hino⟩ := Option.ne_none_iff_exists'.1 hi
    have hrc := g.inv.acc.rc i
    have hb : base i = 0 := by unfold base; rw [if_neg (show ¬i = 1 from h1), if_neg (show ¬i = 2 from h2)]
    have h3 : s.db.rc i = ino.refcount := by simp [Db.rc, hino]
    rw [links_eq, hb, h3] at hrc
    by_cases hz : ino.refcount = 0
    · right
      have := g.inv.zero0 i ino hino hz
      rw [g.eq rfl]; exact (g.inv.cnt_pos_iff i).2 this
    · left; omega
  · exact inode_kept h

/-- Its data and attributes (apart from link count and times) change only by requests that write to it. -/
theorem inode_intact_partial {repl fail : Bool} {s : St} {K : Nat → Int} (h : Hist repl fail s K) {op : Op} (hq : Req K s op) (hh : Handled s op)
    {i : Nat} {a b : Inode} (ha : seenAttr s i = some a) (hb : seenAttr (step s op).2 i = some b) (hw : ¬writesTo op i) :
    SameAttr a b ∧ (∀ k, AL.get (step s op).2.db.blocks (i, k) = AL.get s.db.blocks (i, k)) ∧
      seenLink (step s op).2 i = seenLink s i := by
  obtain ⟨L, g⟩ := h.good
  obtain ⟨L', he, _⟩ := step_eff g.inv (kernelOk_of g.inv g.res g.le hq hh)
  rw [seenAttr_eq] at ha hb
  obtain ⟨h1, h2⟩ := he.body i a b ha hb hw
  refine ⟨h1, h2, ?_⟩
  rw [seenLink_eq, seenLink_eq, ha, hb]
  simp only [reduceCtorEq, if_false]
  rw [he.sym i (by rw [hb]; simp)]
  cases hres : (step s op).1 with
  | error e => cases op <;> rfl
  | ok r =>
    cases op with
    | symlink p n t uid gid now =>
      cases r <;> try rfl
      rename_i id attr
      simp only [specSymlinks]
      split
      · rename_i hid
        subst hid
        -- the id of a new inode is fresh
        exfalso
        simp only [Fs.step, opSymlink] at hres
        split at hres
        · cases hres
        · have hk := kernelOk_of g.inv g.res g.le hq hh
          rcases create_spec g.inv symlinkMode uid gid 0 t.length now hk.2 hk.1 with ⟨e, hre, _⟩ | ⟨s', ip, hre, _, _, _, _, hfr, _⟩
          · rw [hre] at hres; cases hres
          · rw [hre] at hres
            simp only [entryReply] at hres
            split at hres
            · cases hres; rw [hfr] at ha; cases ha
            · cases hres
      · rfl
    | _ => rfl

/-- Once an inode is gone, nothing in the database refers to it. -/
theorem no_rows_remain {repl fail : Bool} {s : St} {K : Nat → Int} (h : Hist repl fail s K) {i : Nat} (hi : seenAttr s i = none) :
    (∀ e ∈ s.db.xattrs, e.1.1 ≠ i) ∧ (∀ e ∈ s.db.symlinks, e.1 ≠ i) ∧ (∀ e ∈ s.db.blocks, e.1.1 ≠ i) ∧
    (∀ e ∈ s.db.contents, e.1.1 ≠ i ∧ e.2 ≠ i) := by
  obtain ⟨L, g⟩ := h.good
  have hA := g.inv.acc
  rw [seenAttr_eq] at hi
  refine ⟨?_, ?_, ?_, ?_⟩
  · rintro ⟨⟨j, k⟩, v⟩ he rfl
    exact hA.xin _ _ _ (AL.mem_get_some hA.nkX he) hi
  · rintro ⟨j, v⟩ he rfl
    exact hA.sin _ _ (AL.mem_get_some hA.nkS he) hi
  · rintro ⟨⟨j, k⟩, v⟩ he rfl
    obtain ⟨ino, h1, _⟩ := hA.bin _ _ _ (AL.mem_get_some hA.nkB he)
    rw [hi] at h1; cases h1
  · rintro ⟨⟨p, k⟩, c⟩ he
    have hg := AL.mem_get_some hA.nkC he
    obtain ⟨n, hn⟩ := hA.nm_of_C (g.inv.Lnn k) hg
    have hc := (hA.child_iff p n c).2 ⟨k, hn, hg⟩
    obtain ⟨_, h2, _, h4⟩ := g.inv.child_pos hc
    refine ⟨?_, ?_⟩
    · rintro rfl; exact h4 hi
    · rintro rfl; exact h2 hi

/-- After unmounting, everything that has no directory entry is gone, even if lookups were leaked. -/
theorem remount_cleans {repl fail : Bool} {s : St} {K : Nat → Int} (h : Hist repl fail s K) {i : Nat} (h1 : i ≠ rootInode) (h2 : i ≠ ctrlInode) :
    seenAttr (remount s).2 i ≠ none ↔ 0 < entriesTo s i := by
  obtain ⟨L, g⟩ := h.good
  obtain ⟨s1, he, hinv, hfg, hpos⟩ := remount_spec g.inv
  rw [seenAttr_eq, he]
  show AL.get s1.db.inodes i ≠ none ↔ _
  have hrc := hinv.acc.rc i
  have hb : base i = 0 := by unfold base; rw [if_neg (show ¬i = 1 from h1), if_neg (show ¬i = 2 from h2)]
  have hl : s1.db.links i = (entriesTo s i : Int) := by rw [← links_eq]; unfold Db.links; rw [hfg.con]
  have hrc' : s1.db.rc i = (entriesTo s i : Int) := by
    have : s1.db.rc i = base i + s1.db.links i + 0 := hrc
    rw [this, hb, hl]; omega
  constructor
  · intro hi
    obtain ⟨ino, hino⟩ := Option.ne_none_iff_exists'.1 hi
    have h3 := hpos i ino hino
    have h4 : s1.db.rc i = ino.refcount := by simp [Db.rc, hino]
    omega
  · intro hi
    apply rc_pos_ne; omega

/-! #### C60 -/

/-- C60, as far as it holds: a request ends the file system process only if a directory in the request is so deep that its
path cannot be printed, or a block that has to be cut is missing in the backend. -/
theorem no_crash_partial {repl fail : Bool} {s : St} {K : Nat → Int} (h : Hist repl fail s K) {op : Op} (hq : Req K s op) (hh : Handled s op)
    (hcr : (step s op).1 = .error .crash) :
    (∃ p ∈ dirsOf op, s.db.getPathOk p = false) ∨ (∃ id a c now, op = .setattr id a c true now) := by
  obtain ⟨L, g⟩ := h.good
  obtain ⟨L', he, _⟩ := step_eff g.inv (kernelOk_of g.inv g.res g.le hq hh)
  exact he.crash hcr

/-- Unmounting never fails. -/
theorem remount_ok {repl fail : Bool} {s : St} {K : Nat → Int} (h : Hist repl fail s K) : (remount s).1 = .ok .unit := by
  obtain ⟨L, g⟩ := h.good
  obtain ⟨s1, he, _⟩ := remount_spec g.inv
  rw [he]

end Verif.Fs
