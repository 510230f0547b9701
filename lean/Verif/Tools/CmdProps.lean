import Verif.Tools.CmdWalk
/-
C73: s3qlrm, s3qlcp and s3qllock act on the files and directories that the user named.
-/
namespace Verif.Cmd

/-! ### Specification -/

/-- What a kernel sees: inode numbers are unique in a file system, a directory that is an entry of another one has that one as its
parent, and no entry is called `.` or `..`. -/
structure Sane (v : Vfs) : Prop where
  uniq : ∀ a b, v.dev a = v.dev b → v.ino a = v.ino b → a = b
  par : ∀ p q es c d q' es', v.node p = .dir q es → AL.get es c = some d → v.node d = .dir q' es' → q' = p
  names : ∀ p q es c d, v.node p = .dir q es → AL.get es c = some d → c ≠ [] ∧ c ≠ dot ∧ c ≠ dotdot

/-- The file of file system `dev` with inode number `ino` is `n`. -/
def At (v : Vfs) (dev ino n : Nat) : Prop := v.dev n = dev ∧ v.ino n = ino

/-- What the file system removes when it gets the command: `n`, the entry of the directory `q`. -/
def Removes (v : Vfs) (cmd : RmCmd) (q n : Nat) : Prop :=
  ∃ p es, At v cmd.dev cmd.ino q ∧ v.node q = .dir p es ∧ AL.get es cmd.name = some n

/-! ### s3qlrm -/

theorem last_step {v : Vfs} {y : Nat} {c : Str} {m : Nat} (h : Walks v false y [c] m) (hm : isLink v m = false) :
    (c = [] ∨ c = dot) ∨ c = dotdot ∨ ∃ p es, v.node y = .dir p es ∧ AL.get es c = some m := by
  cases h with
  | dot _ b _ => exact Or.inl b
  | up => exact Or.inr (Or.inl rfl)
  | step a _ g _ w => cases w; exact Or.inr (Or.inr ⟨_, _, a, g⟩)
  | link _ _ _ _ f => exact absurd ⟨rfl, rfl⟩ f
  | last _ _ _ d _ => rw [isLink_of d] at hm; cases hm

theorem start_app {v : Vfs} {cwd : Nat} {a b : Str} (h : a ≠ []) : start v cwd (a ++ b) = start v cwd a := by
  unfold start
  cases a with
  | nil => exact absurd rfl h
  | cons x a => rfl

theorem join_dotdot {a : Str} (h : a ≠ []) (hl : a.getLast? ≠ some '/') : join a dotdot = a ++ '/' :: dotdot := by
  unfold join
  rw [if_neg (by decide), if_neg (fun x => x.elim h hl)]

/-- The parent directory that s3qlrm looks at, if the name is not a symbolic link. -/
theorem parent_of {v : Vfs} {cwd : Nat} {name : Str} {n q : Nat} (hl : name.getLast? ≠ some '/')
    (hn : lstat v cwd name = .ok n) (hk : isLink v n = false) (hq : stat v cwd (join name dotdot) = .ok q) :
    ∃ es, v.node n = .dir q es := by
  obtain ⟨hne, w⟩ := resolve_sound hn
  obtain ⟨-, w'⟩ := resolve_sound hq
  rw [join_dotdot hne hl, start_app hne, split_app] at w'
  obtain ⟨x, w1, w2⟩ := w'.parts _ _ rfl (Or.inl rfl)
  have e := (w.follow hk).det w1
  subst e
  have hs : split dotdot = [dotdot] := by decide
  rw [hs] at w2
  cases w2 with
  | dot _ b => rcases b with b | b <;> cases b
  | up a w => cases w; exact ⟨_, a⟩
  | step _ o => exact absurd rfl o.2.2
  | link _ o => exact absurd rfl o.2.2
  | last _ _ _ _ e => cases e

/-- C73 (s3qlrm).  If the name (without slashes at its end) is not a symbolic link, then what the file system removes is exactly what
the name denotes, in the same file system; and if the name ends with a proper name, then it does remove it.

Missing: names that are symbolic links to directories, see `C73_rm_link`. -/
theorem C73_rm_partial {v : Vfs} {cwd : Nat} {name : Str} {cmd : RmCmd} {n : Nat} (hv : Sane v)
    (h : rm v cwd name = .ok cmd) (hn : lstat v cwd (rstrip name) = .ok n) (hk : isLink v n = false) :
    (∀ q m, Removes v cmd q m → m = n) ∧ v.dev n = cmd.dev ∧ v.s3ql cmd.dev = true ∧
    ((basename (rstrip name) ≠ [] ∧ basename (rstrip name) ≠ dot ∧ basename (rstrip name) ≠ dotdot) → ∃ q, Removes v cmd q n) := by
  unfold rm at h
  dsimp only at h
  generalize hnm : rstrip name = nm at *
  have hl : nm.getLast? ≠ some '/' := hnm ▸ rstrip_last name
  split at h
  · cases h
  next him =>
  cases hq : stat v cwd (join nm dotdot) with
  | error e => rw [hq] at h; cases h
  | ok q =>
    rw [hq] at h
    dsimp only at h
    by_cases hs : v.s3ql (v.dev q) = true
    · rw [if_pos hs] at h
      cases h
      obtain ⟨es, hd⟩ := parent_of hl hn hk hq
      have hdev : v.dev n = v.dev q := by
        unfold ismount at him
        rw [hn, hq] at him
        dsimp only at him
        rw [hk, if_neg (by decide)] at him
        simp only [Bool.or_eq_true, decide_eq_true_eq] at him
        exact Classical.byContradiction fun z => him (Or.inl z)
      obtain ⟨hne, w⟩ := resolve_sound hn
      have key : (basename nm = [] ∨ basename nm = dot) ∨ basename nm = dotdot ∨
          ∃ p es, v.node q = .dir p es ∧ AL.get es (basename nm) = some n := by
        have hw : ∃ y, Walks v false y [basename nm] n := by
          rcases split_basename nm with ⟨hb, -⟩ | ⟨a, -, hb⟩
          · rw [hb] at w; exact ⟨_, w⟩
          · rw [hb] at w
            obtain ⟨y, -, w2⟩ := w.parts _ _ rfl (Or.inr (by simp))
            exact ⟨y, w2⟩
        obtain ⟨y, w2⟩ := hw
        rcases last_step w2 hk with a | a | ⟨p, es', a, b⟩
        · exact Or.inl a
        · exact Or.inr (Or.inl a)
        · have := hv.par y p es' _ n _ es a b hd
          subst this
          exact Or.inr (Or.inr ⟨_, _, a, b⟩)
      refine ⟨?_, hdev, hs, ?_⟩
      · rintro q' m ⟨p, es', ⟨a1, a2⟩, b, c⟩
        have e := hv.uniq q' q a1 a2
        subst e
        have hn := hv.names _ _ _ _ _ b c
        rcases key with (k | k) | k | ⟨p', es'', k1, k2⟩
        · exact absurd k hn.1
        · exact absurd k hn.2.1
        · exact absurd k hn.2.2
        · rw [b] at k1
          cases k1
          rw [c] at k2
          exact Option.some.inj k2
      · rintro ⟨o1, o2, o3⟩
        rcases key with (k | k) | k | ⟨p', es'', k1, k2⟩
        · exact absurd k o1
        · exact absurd k o2
        · exact absurd k o3
        · exact ⟨q, p', es'', ⟨rfl, rfl⟩, k1, k2⟩
    · rw [if_neg hs] at h; cases h

/-! ### s3qllock -/

/-- C73 (s3qllock).  What gets locked is the directory that the name denotes (links followed), in the file system that it is in. -/
theorem C73_lock {v : Vfs} {cwd : Nat} {name : Str} {d i : Nat} (hv : Sane v) (h : lock v cwd name = .ok (d, i)) :
    ∃ n, stat v cwd (rstrip name) = .ok n ∧ isDir v n = true ∧ v.s3ql d = true ∧ ∀ y, At v d i y ↔ y = n := by
  unfold lock at h
  dsimp only at h
  split at h
  · cases h
  · cases hq : stat v cwd (rstrip name) with
    | error e => rw [hq] at h; cases h
    | ok n =>
      rw [hq] at h
      dsimp only at h
      split at h
      next hc =>
        cases h
        rw [Bool.and_eq_true] at hc
        refine ⟨n, rfl, hc.1, hc.2, fun y => ⟨fun a => hv.uniq _ _ a.1 a.2, ?_⟩⟩
        intro e
        subst e
        exact ⟨rfl, rfl⟩
      next => cases h

/-! ### s3qlcp -/

/-- `new` is not used yet, and `i` gives numbers that are not used yet. -/
structure Fresh (v : Vfs) (cwd new : Nat) (i : Nat → Nat) : Prop where
  root : v.root ≠ new
  cwd : cwd ≠ new
  ref : ∀ n p es, v.node n = .dir p es → p ≠ new ∧ ∀ c, AL.get es c ≠ some new
  ino : ∀ y, y ≠ new → v.ino y ≠ i (v.dev y)

/-- What `os.getcwd()` is: an absolute path of the working directory without `..`. -/
structure Getcwd (v : Vfs) (cwd : Nat) (wd : Str) : Prop where
  abs : wd.head? = some '/'
  noup : dotdot ∉ split wd
  here : stat v cwd wd = .ok cwd

theorem mkdir_ok {v v' : Vfs} {cwd new : Nat} {i : Nat → Nat} {s : Str} (h : mkdir v cwd new i s = .ok v') :
    ∃ x p es a c, s ≠ [] ∧ split s = a ++ [c] ∧ Ord c ∧ Walks v true (start v cwd s) a x ∧ v.node x = .dir p es ∧ AL.get es c = none ∧
      v' = { v with node := fun y => if y = new then .dir x [] else if y = x then .dir p (AL.set es c new) else v.node y,
                    dev := fun y => if y = new then v.dev x else v.dev y,
                    ino := fun y => if y = new then i (v.dev x) else v.ino y } := by
  unfold mkdir at h
  by_cases hs : s = []
  · rw [if_pos hs] at h; cases h
  · rw [if_neg hs] at h
    dsimp only at h
    have hsp : split s = (split s).dropLast ++ [(split s).getLast?.getD []] := by
      rw [List.getLast?_eq_some_getLast (split_ne s)]
      exact (List.dropLast_concat_getLast (split_ne s)).symm
    generalize (split s).dropLast = a at *
    generalize (split s).getLast?.getD [] = c at *
    cases hw : walk v true 40 (start v cwd s) a with
    | error e => rw [hw] at h; cases h
    | ok x =>
      rw [hw] at h
      dsimp only at h
      cases hx : v.node x with
      | file => rw [hx] at h; cases h
      | link t => rw [hx] at h; cases h
      | dir p es =>
        rw [hx] at h
        dsimp only at h
        by_cases hc : c = [] ∨ c = dot ∨ c = dotdot ∨ (AL.get es c).isSome = true
        · rw [if_pos hc] at h; cases h
        · rw [if_neg hc] at h
          cases h
          simp only [not_or] at hc
          refine ⟨x, p, es, a, c, hs, hsp, ⟨hc.1, hc.2.1, hc.2.2.1⟩, walk_sound _ _ _ _ hw, hx, ?_, rfl⟩
          cases hg : AL.get es c with
          | none => rfl
          | some z => rw [hg] at hc; exact absurd rfl hc.2.2.2

/-- A new directory does not change where paths lead. -/
theorem Walks.mono {v v' : Vfs} {new x p : Nat} {es : List (Str × Nat)} {c : Str} (hr : v'.root = v.root) (hroot : v.root ≠ new)
    (href : ∀ n p es, v.node n = .dir p es → p ≠ new ∧ ∀ c, AL.get es c ≠ some new)
    (hx : v.node x = .dir p es) (hc : AL.get es c = none)
    (hn : ∀ y, v'.node y = if y = new then .dir x [] else if y = x then .dir p (AL.set es c new) else v.node y)
    {n : Nat} {cs : List Str} {m : Nat} (h : Walks v true n cs m) : n ≠ new → Walks v' true n cs m := by
  have hdir : ∀ {n q e}, n ≠ new → v.node n = .dir q e → ∃ e', v'.node n = .dir q e' ∧ ∀ c z, AL.get e c = some z → AL.get e' c = some z := by
    intro n q e h1 h2
    by_cases h3 : n = x
    · subst h3
      rw [hx] at h2
      cases h2
      refine ⟨AL.set es c new, by rw [hn, if_neg h1, if_pos rfl], ?_⟩
      intro c' z hz
      rw [AL.get_set, if_neg]
      · exact hz
      · intro e
        rw [e, hc] at hz
        cases hz
    · exact ⟨e, by rw [hn, if_neg h1, if_neg h3]; exact h2, fun _ _ h => h⟩
  have hlink : ∀ {y}, y ≠ new → isLink v y = false → isLink v' y = false := by
    intro y h1 h2
    unfold isLink
    rw [hn, if_neg h1]
    by_cases h3 : y = x
    · rw [if_pos h3]
    · rw [if_neg h3]; exact h2
  have hlink2 : ∀ {y t}, y ≠ new → v.node y = .link t → v'.node y = .link t := by
    intro y t h1 h2
    rw [hn, if_neg h1, if_neg]
    · exact h2
    · intro e
      rw [e, hx] at h2
      cases h2
  induction h with
  | nil => intro _; exact .nil
  | dot a b _ ih =>
    intro h
    obtain ⟨e', h1, -⟩ := hdir h a
    exact .dot h1 b (ih h)
  | up a _ ih =>
    intro h
    obtain ⟨e', h1, -⟩ := hdir h a
    exact .up h1 (ih (href _ _ _ a).1)
  | @step n c rest m p' es x' a o g l _ ih =>
    intro h
    obtain ⟨e', h1, h2⟩ := hdir h a
    have hy : x' ≠ new := fun e => (href _ _ _ a).2 _ (e ▸ g)
    exact .step h1 o (h2 _ _ g) (hlink hy l) (ih hy)
  | @link n c rest m p' es x' t a o g l f _ ih =>
    intro h
    obtain ⟨e', h1, h2⟩ := hdir h a
    have hy : x' ≠ new := fun e => (href _ _ _ a).2 _ (e ▸ g)
    refine .link h1 o (h2 _ _ g) (hlink2 hy l) f ?_
    have hst : start v' n t = start v n t := by unfold start; rw [hr]
    rw [hst]
    apply ih
    unfold start
    split
    · exact hroot
    · exact h
  | last _ _ _ _ e => cases e

theorem start_ne {v : Vfs} {cwd new : Nat} {i : Nat → Nat} (hf : Fresh v cwd new i) (s : Str) : start v cwd s ≠ new := by
  unfold start
  split
  · exact hf.root
  · exact hf.cwd

theorem Walks.ne_new {v : Vfs} {new : Nat} (hroot : v.root ≠ new)
    (href : ∀ n p es, v.node n = .dir p es → p ≠ new ∧ ∀ c, AL.get es c ≠ some new)
    {n : Nat} {cs : List Str} {m : Nat} (h : Walks v true n cs m) : n ≠ new → m ≠ new := by
  induction h with
  | nil => exact id
  | dot a b _ ih => exact ih
  | up a _ ih => exact fun _ => ih (href _ _ _ a).1
  | step a o g l _ ih => exact fun _ => ih (fun e => (href _ _ _ a).2 _ (e ▸ g))
  | @link n c rest m p' es x' t a o g l f _ ih =>
    intro h
    apply ih
    unfold start
    split
    · exact hroot
    · exact h
  | last _ _ _ _ e => cases e

/-- The directory that s3qlcp looks at is the one where the target is created. -/
theorem same_parent {v : Vfs} {cwd : Nat} {wd target : Str} {a : List Str} {c : Str} {x p : Nat} (hwd : Getcwd v cwd wd)
    (hd : dotdot ∉ split target) (hs : split target = a ++ [c]) (hc : Ord c)
    (hx : Walks v true (start v cwd target) a x) (hp : stat v cwd (dirname (abspath wd target)) = .ok p) : p = x := by
  have hcp : List.filter plain [c] = [c] := by rw [List.filter_cons_of_pos (by simp [plain, hc.1, hc.2.1])]; rfl
  obtain ⟨-, wp⟩ := resolve_sound hp
  have wx := hx.plain [] a rfl
  rw [List.nil_append] at wx
  unfold abspath at wp
  by_cases hh : target.head? = some '/'
  · rw [if_pos hh] at wp
    obtain ⟨h1, h2⟩ := dirname_norm target hh hd (a.filter plain) c (by rw [hs, List.filter_append, hcp])
    have w2 := wp.plain [] _ rfl
    rw [List.nil_append, h2] at w2
    unfold start at w2 wx
    rw [if_pos h1] at w2
    rw [if_pos hh] at wx
    exact w2.det wx
  · rw [if_neg hh] at wp
    have hne : wd ≠ [] := by intro e; have := hwd.abs; rw [e] at this; cases this
    obtain ⟨j1, j2⟩ := split_join wd target hne hh
    have jh : (join wd target).head? = some '/' := by
      unfold join
      rw [if_neg hh]
      have := hwd.abs
      cases wd with
      | nil => cases this
      | cons z wd => split <;> exact this
    obtain ⟨h1, h2⟩ := dirname_norm _ jh (j2 hwd.noup hd) ((split wd).filter plain ++ a.filter plain) c
      (by rw [j1, hs, List.filter_append, hcp, List.append_assoc])
    have w2 := wp.plain [] _ rfl
    rw [List.nil_append, h2] at w2
    obtain ⟨-, w0⟩ := resolve_sound hwd.here
    have w3 := w0.plain [] _ rfl
    rw [List.nil_append] at w3
    unfold start at w2 wx w3
    rw [if_pos h1] at w2
    rw [if_neg hh] at wx
    rw [if_pos hwd.abs] at w3
    exact w2.det (w3.app wx)

/-- C73 (s3qlcp).  If there is no `..` in the target, then the contents of the directory that the source denotes are copied to the
directory that has just been created and that the target now denotes: an empty directory of the same file system.

Missing: targets with `..`, see `C73_cp_dotdot`. -/
theorem C73_cp_partial {v v' : Vfs} {cwd new : Nat} {i : Nat → Nat} {wd source target : Str} {cmd : CpCmd} (hv : Sane v)
    (hf : Fresh v cwd new i) (hwd : Getcwd v cwd wd) (hd : dotdot ∉ split (rstrip target))
    (h : cp v cwd wd new i source target = .ok (v', cmd)) :
    (∃ s, stat v cwd (rstrip source) = .ok s ∧ isDir v s = true ∧ (∀ y, At v' cmd.dev cmd.src y ↔ y = s)) ∧
    (∀ y, At v' cmd.dev cmd.dst y ↔ y = new) ∧ (∃ x, v'.node new = .dir x []) ∧ stat v' cwd (rstrip target) = .ok new ∧
    v.s3ql cmd.dev = true := by
  unfold cp at h
  dsimp only at h
  generalize rstrip source = src at *
  generalize rstrip target = tgt at *
  cases hs : stat v cwd src with
  | error e => rw [hs] at h; cases h
  | ok s =>
  rw [hs] at h
  dsimp only at h
  split at h
  · cases h
  cases hp : stat v cwd (dirname (abspath wd tgt)) with
  | error e => rw [hp] at h; cases h
  | ok p =>
  rw [hp] at h
  dsimp only at h
  split at h
  · cases h
  next hsd =>
  split at h
  · cases h
  split at h
  · cases h
  next hdev =>
  split at h
  · cases h
  split at h
  · cases h
  next h3 =>
  cases hm : mkdir v cwd new i tgt with
  | error e => rw [hm] at h; cases h
  | ok v1 =>
  rw [hm] at h
  dsimp only at h
  cases ht : stat v1 cwd tgt with
  | error e => rw [ht] at h; cases h
  | ok t =>
  rw [ht] at h
  cases h
  obtain ⟨x, q, es, a, c, hne, hsp, ho, hw, hx, hg, hv'⟩ := mkdir_ok hm
  have hpx := same_parent hwd hd hsp ho hw hp
  subst hpx
  have hde : v.dev p = v.dev s := Classical.byContradiction hdev
  have hnode : ∀ y, v'.node y = if y = new then .dir p [] else if y = p then .dir q (AL.set es c new) else v.node y := by rw [hv']; intro y; rfl
  have hdv : ∀ y, v'.dev y = if y = new then v.dev p else v.dev y := by rw [hv']; intro y; rfl
  have hin : ∀ y, v'.ino y = if y = new then i (v.dev p) else v.ino y := by rw [hv']; intro y; rfl
  have hroot : v'.root = v.root := by rw [hv']
  have hst : start v' cwd tgt = start v cwd tgt := by unfold start; rw [hroot]
  have hpn : p ≠ new := hw.ne_new hf.root hf.ref (start_ne hf tgt)
  have hw' := Walks.mono hroot hf.root hf.ref hx hg hnode hw (start_ne hf tgt)
  have hlast : Walks v' true p [c] new := by
    refine .step (p := q) (es := AL.set es c new) (by rw [hnode, if_neg hpn, if_pos rfl]) ho (by rw [AL.get_set, if_pos rfl]) ?_ .nil
    unfold isLink
    rw [hnode, if_pos rfl]
  obtain ⟨-, wt⟩ := resolve_sound ht
  rw [hst, hsp] at wt
  have htn := wt.det (hw'.app hlast)
  subst htn
  obtain ⟨-, ws⟩ := resolve_sound hs
  have hsn : s ≠ t := ws.ne_new hf.root hf.ref (start_ne hf src)
  refine ⟨⟨s, rfl, by simpa using hsd, ?_⟩, ?_, ⟨p, by rw [hnode, if_pos rfl]⟩, ht, by simpa using h3⟩
  · intro y
    constructor
    · rintro ⟨a1, a2⟩
      dsimp only at a1 a2
      rw [hdv] at a1
      rw [hin] at a2
      by_cases hy : y = t
      · rw [if_pos hy] at a2
        exact absurd a2.symm (by rw [hde]; exact hf.ino s hsn)
      · rw [if_neg hy] at a1 a2
        exact hv.uniq _ _ a1 a2
    · intro e
      subst e
      exact ⟨by rw [hdv, if_neg hsn], by rw [hin, if_neg hsn]⟩
  · intro y
    constructor
    · rintro ⟨a1, a2⟩
      dsimp only at a1 a2
      rw [hdv] at a1
      rw [hin, hin, if_pos rfl] at a2
      by_cases hy : y = t
      · exact hy
      · rw [if_neg hy] at a1 a2
        exact absurd a2 (by rw [hde, ← a1]; exact hf.ino y hy)
    · intro e
      subst e
      exact ⟨by rw [hdv, if_pos rfl, hde], rfl⟩

/-! ### Examples and violations -/

/-- A computer with two S3QL file systems, device 1 at `/m` and device 2 at `/n`.

    /m/s (3)   /m/k (4), with a file /m/k/f (5)   /m/l (6), a link to /n/d   /m/d (9), a link to /m/k/x
    /n/d (8)   /m/k/x (10), a directory           /m/k/d (11), a directory -/
def demo : Vfs :=
  { node := fun n =>
      if n = 0 then .dir 0 [(['m'], 1), (['n'], 2)]
      else if n = 1 then .dir 0 [(['s'], 3), (['k'], 4), (['l'], 6), (['d'], 9)]
      else if n = 2 then .dir 0 [(['d'], 8)]
      else if n = 3 then .dir 1 []
      else if n = 4 then .dir 1 [(['f'], 5), (['x'], 10), (['d'], 11)]
      else if n = 6 then .link ['/', 'n', '/', 'd']
      else if n = 8 then .dir 2 []
      else if n = 9 then .link ['/', 'm', '/', 'k', '/', 'x']
      else if n = 10 then .dir 4 []
      else if n = 11 then .dir 4 []
      else .file,
    dev := fun n => if n = 0 then 0 else if n = 2 ∨ n = 8 then 2 else if n < 12 then 1 else 3,
    ino := fun n => if n = 0 ∨ n = 1 ∨ n = 2 then 1 else n,
    root := 0,
    s3ql := fun d => decide (d ≠ 0) }

/-- The next inode numbers. -/
def demoNext (d : Nat) : Nat := if d = 2 then 4 else if d = 1 then 20 else 0

deriving instance DecidableEq for Except

example : rm demo 0 "/m/k/".toList = .ok ⟨1, 1, ['k']⟩ ∧ lstat demo 0 (rstrip "/m/k/".toList) = .ok 4 ∧ isLink demo 4 = false := by
  decide +kernel

example : (cp demo 0 ['/'] 12 demoNext "m/s".toList "m//t/".toList).map (·.2) = .ok ⟨1, 3, 20⟩ := by decide +kernel

theorem demo_small (n p : Nat) (es : List (Str × Nat)) (h : demo.node n = .dir p es) : n < 12 := by
  refine Classical.byContradiction fun hn => ?_
  have : demo.node n = .file := by
    show (if n = 0 then _ else _) = _
    repeat rw [if_neg (by omega)]
  rw [this] at h
  cases h

/-- Checks the entries of a directory of the example. -/
def demoOk (n : Nat) : Bool :=
  match demo.node n with
  | .dir p es => decide (p < 12) && es.all (fun e => decide (e.2 < 12) && decide (e.1 ≠ [] ∧ e.1 ≠ dot ∧ e.1 ≠ dotdot) &&
      (match demo.node e.2 with
       | .dir q _ => decide (q = n)
       | _ => true))
  | _ => true

theorem demo_ok {n p : Nat} {es : List (Str × Nat)} (h : demo.node n = .dir p es) :
    p < 12 ∧ ∀ c d, AL.get es c = some d → d < 12 ∧ (c ≠ [] ∧ c ≠ dot ∧ c ≠ dotdot) ∧ ∀ q es', demo.node d = .dir q es' → q = n := by
  have all : ∀ n, n < 12 → demoOk n = true := by decide +kernel
  have := all n (demo_small n p es h)
  unfold demoOk at this
  rw [h] at this
  simp only [Bool.and_eq_true, decide_eq_true_eq, List.all_eq_true] at this
  refine ⟨this.1, ?_⟩
  intro c d hg
  obtain ⟨⟨h1, h2⟩, h3⟩ := this.2 _ (AL.get_some_mem hg)
  refine ⟨h1, h2, ?_⟩
  intro q es' hd
  dsimp only at h3
  rw [hd] at h3
  exact of_decide_eq_true h3

theorem demo_sane : Sane demo where
  uniq := by
    intro a b h1 h2
    simp only [demo] at h1 h2
    grind
  par := by
    intro p q es c d q' es' h1 h2 h3
    exact ((demo_ok h1).2 _ _ h2).2.2 _ _ h3
  names := by
    intro p q es c d h1 h2
    exact ((demo_ok h1).2 _ _ h2).2.1

/-- C73: s3qlrm removes something else when it is given a symbolic link to a directory.  Here `s3qlrm /m/d`, with a link `/m/d` to
`/m/k/x`, removes `/m/k/d`: neither the link nor the directory that it points to. -/
theorem C73_rm_link : ∃ (v : Vfs) (cwd : Nat) (name : Str) (cmd : RmCmd) (q m : Nat), Sane v ∧ rm v cwd name = .ok cmd ∧ Removes v cmd q m ∧
    lstat v cwd name ≠ .ok m ∧ stat v cwd name ≠ .ok m ∧ isDir v m = true :=
  ⟨demo, 0, "/m/d".toList, ⟨1, 4, ['d']⟩, 4, 11, demo_sane, by decide +kernel, ⟨1, [(['f'], 5), (['x'], 10), (['d'], 11)], ⟨rfl, rfl⟩, by decide +kernel, by decide +kernel⟩,
    by decide +kernel, by decide +kernel, by decide +kernel⟩

theorem demo_fresh : Fresh demo 0 12 demoNext where
  root := by decide
  cwd := by decide
  ref := by
    intro n p es h
    refine ⟨Nat.ne_of_lt (demo_ok h).1, ?_⟩
    intro c hc
    exact absurd ((demo_ok h).2 _ _ hc).1 (by decide)
  ino := by
    intro y hy
    simp only [demo, demoNext]
    grind

theorem demo_cwd : Getcwd demo 0 ['/'] := ⟨by decide, by decide, by decide +kernel⟩

/-- The hypotheses of `C73_cp_partial` hold here. -/
example : ∃ v', ∀ y, At v' 1 20 y ↔ y = 12 := by
  have h : ∃ r, cp demo 0 ['/'] 12 demoNext "m/s".toList "m//t/".toList = .ok r ∧ r.2 = ⟨1, 3, 20⟩ := by
    have : (cp demo 0 ['/'] 12 demoNext "m/s".toList "m//t/".toList).map (·.2) = .ok ⟨1, 3, 20⟩ := by decide +kernel
    cases hc : cp demo 0 ['/'] 12 demoNext "m/s".toList "m//t/".toList with
    | error e => rw [hc] at this; cases this
    | ok r => rw [hc] at this; exact ⟨r, rfl, Except.ok.inj this⟩
  obtain ⟨⟨v', cmd⟩, h, e⟩ := h
  cases e
  exact ⟨v', (C73_cp_partial demo_sane demo_fresh demo_cwd (by decide) h).2.1⟩

/-- C73: with `..` after a symbolic link in the target, s3qlcp creates the target in another file system and copies to a directory that
happens to have the same inode number.  Here `s3qlcp m/s m/l/../t`, with a link `m/l` to the directory `/n/d`, copies into `/m/k`, which
existed before and has something in it. -/
theorem C73_cp_dotdot : ∃ (v v' : Vfs) (cwd new : Nat) (i : Nat → Nat) (wd source target : Str) (cmd : CpCmd) (y : Nat),
    Sane v ∧ Fresh v cwd new i ∧ Getcwd v cwd wd ∧ cp v cwd wd new i source target = .ok (v', cmd) ∧
    y ≠ new ∧ At v' cmd.dev cmd.dst y ∧ stat v cwd target ≠ .ok y ∧ stat v' cwd target ≠ .ok y ∧
    ∃ p e es, v.node y = .dir p (e :: es) := by
  have h : ∃ r, cp demo 0 ['/'] 12 demoNext "m/s".toList "m/l/../t".toList = .ok r ∧ r.2 = ⟨1, 3, 4⟩ ∧ r.1.dev 4 = 1 ∧ r.1.ino 4 = 4 ∧
      stat r.1 0 "m/l/../t".toList = .ok 12 := by
    have : (cp demo 0 ['/'] 12 demoNext "m/s".toList "m/l/../t".toList).map
        (fun r => (r.2, r.1.dev 4, r.1.ino 4, stat r.1 0 "m/l/../t".toList)) = .ok (⟨1, 3, 4⟩, 1, 4, .ok 12) := by decide +kernel
    cases hc : cp demo 0 ['/'] 12 demoNext "m/s".toList "m/l/../t".toList with
    | error e => rw [hc] at this; cases this
    | ok r =>
      rw [hc] at this
      have := Except.ok.inj this
      simp only [Prod.mk.injEq] at this
      exact ⟨r, rfl, this⟩
  obtain ⟨⟨v', cmd⟩, h, e, a, b, c⟩ := h
  cases e
  refine ⟨demo, v', 0, 12, demoNext, ['/'], _, _, _, 4, demo_sane, demo_fresh, demo_cwd, h, by decide, ⟨a, b⟩, by decide +kernel, ?_, ?_⟩
  · rw [c]
    intro z
    cases z
  · exact ⟨1, _, _, rfl⟩

end Verif.Cmd
