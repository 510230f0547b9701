import Verif.Tools.Control
/-
Property C93: theorems.
-/
namespace Verif.Control
open Verif.Codec
open Verif.Backend.Addr (splitOn join splitOn_join splitOn_none)

/-! ### Reading what `repr` wrote -/

theorem takeWhile_stop (p : Char → Bool) (tok r : Str) (c : Char) (h : ∀ x ∈ tok, p x = true) (hc : p c = false) :
    (tok ++ c :: r).takeWhile p = tok ∧ (tok ++ c :: r).dropWhile p = c :: r := by
  induction tok with
  | nil => simp [hc]
  | cons x t ih =>
    have hx := h x List.mem_cons_self
    have := ih (fun y hy => h y (List.mem_cons_of_mem _ hy))
    simp [hx, this.1, this.2]

theorem digit_ne (d : Nat) (h : d < 10) : digitChar d ≠ ',' ∧ digitChar d ≠ ')' ∧ digitChar d ≠ '(' ∧ digitChar d ≠ 'b' ∧
    digitChar d ≠ '\'' ∧ digitChar d ≠ '"' := by
  have : ∀ d, d < 10 → (digitChar d ≠ ',' ∧ digitChar d ≠ ')' ∧ digitChar d ≠ '(' ∧ digitChar d ≠ 'b' ∧
    digitChar d ≠ '\'' ∧ digitChar d ≠ '"') := by decide
  exact this d h

theorem reprInt_ne (i : Int) (c : Char) (hc : c ∈ reprInt i) : c ≠ ',' ∧ c ≠ ')' ∧ c ≠ '(' ∧ c ≠ 'b' ∧ c ≠ '\'' ∧ c ≠ '"' := by
  rcases reprInt_chars i c hc with rfl | ⟨d, hd, rfl⟩
  · decide
  · exact digit_ne d hd

theorem readSecond_int (i : Int) : readSecond (reprInt i ++ [')']) = some (.int i) := by
  cases hs : reprInt i with
  | nil => exact absurd hs (reprInt_ne_nil i)
  | cons c t =>
    have hm : c ∈ reprInt i := by rw [hs]; exact List.mem_cons_self
    obtain ⟨_, _, _, h1, h2, h3⟩ := reprInt_ne i c hm
    have key := takeWhile_stop (· ≠ ')') (reprInt i) [] ')' (fun x hx => by simpa using (reprInt_ne i x hx).2.1) (by decide)
    rw [hs] at key
    unfold readSecond
    rw [List.cons_append]
    dsimp only
    rw [if_neg h1, if_neg (by simp [h2, h3])]
    rw [List.cons_append] at key
    rw [key.2, key.1]
    dsimp only
    rw [← hs, parseInt_repr]
    rfl

theorem readSecond_str (pr : Char → Bool) (s : Str) : readSecond (reprStr pr s ++ [')']) = some (.str s) := by
  have e := reprStr_append pr s [')']
  have hp := parseStr_repr pr s [')']
  rw [e] at hp ⊢
  unfold readSecond
  dsimp only
  rcases reprQuote_ok s with h | h
  · rw [h] at hp ⊢
    rw [if_neg (by decide), if_pos (Or.inl rfl), hp]
    rfl
  · rw [h] at hp ⊢
    rw [if_neg (by decide), if_pos (Or.inr rfl), hp]
    rfl

theorem byteChar_back (b : Byte) : UInt8.ofNat (byteChar b).toNat = b := by
  have h : (byteChar b).toNat = b.toNat := by
    have hb : b.toNat < 256 := b.toNat_lt
    have hv : b.toNat.isValidChar := Or.inl (by omega)
    unfold byteChar Char.ofNat
    rw [dif_pos hv]
    rfl
  rw [h]
  exact UInt8.ofNat_toNat

theorem readSecond_bytes (b : List Byte) : readSecond (reprBytes b ++ [')']) = some (.bytes b) := by
  unfold reprBytes readSecond
  rw [List.cons_append]
  dsimp only
  rw [if_pos rfl, parseStr_repr]
  show some (Py.bytes _) = _
  rw [List.map_map]
  have : ((fun c : Char => UInt8.ofNat c.toNat) ∘ byteChar) = id := funext byteChar_back
  rw [this, List.map_id]

theorem readPy_pair (i : Int) (x : Str) (v : Py) (h : readSecond (x ++ [')']) = some v) :
    readPy (['('] ++ reprInt i ++ ", ".toList ++ x ++ [')']) = some (.pair (.int i) v) := by
  have e : ['('] ++ reprInt i ++ ", ".toList ++ x ++ [')'] = '(' :: (reprInt i ++ ',' :: (' ' :: (x ++ [')']))) := by
    simp
  rw [e]
  have key := takeWhile_stop (· ≠ ',') (reprInt i) (' ' :: (x ++ [')'])) ',' (fun y hy => by simpa using (reprInt_ne i y hy).1) (by decide)
  show readPair _ = _
  unfold readPair
  rw [key.1, key.2, parseInt_repr]
  show (readSecond (x ++ [')'])).map _ = _
  rw [h]
  rfl

theorem readPy_int (i : Int) : readPy (reprInt i) = some (.int i) := by
  unfold readPy
  split
  · rename_i t he
    have hm : '(' ∈ reprInt i := by rw [he]; exact List.mem_cons_self
    exact absurd rfl (reprInt_ne i _ hm).2.2.1
  · rw [parseInt_repr]; rfl

/-- The values that the tools send. -/
def Sent : Py → Prop
  | .int _ => True
  | .pair (.int _) (.int _) => True
  | .pair (.int _) (.bytes _) => True
  | .pair (.int _) (.str _) => True
  | _ => False

theorem readPy_repr (pr : Char → Bool) (v : Py) (h : Sent v) : readPy (reprPy pr v) = some v := by
  match v, h with
  | .int i, _ => exact readPy_int i
  | .pair (.int i) (.int j), _ => exact readPy_pair i (reprInt j) _ (readSecond_int j)
  | .pair (.int i) (.bytes b), _ => exact readPy_pair i (reprBytes b) _ (readSecond_bytes b)
  | .pair (.int i) (.str s), _ => exact readPy_pair i (reprStr pr s) _ (readSecond_str pr s)

theorem literalEval_repr (py : Python) (v : Py) (h : Sent v) :
    literalEval py.printable py.other (reprPy py.printable v) = .value v := by
  unfold literalEval
  rw [readPy_repr _ _ h]
  simp

theorem parseLit_repr (py : Python) (v : Py) (h : Sent v) (k : Py → Option Act) (a : Act) (hk : k v = some a) :
    parseLit py (utf8 (reprPy py.printable v)) k = .act a := by
  unfold parseLit
  rw [unutf8_utf8]
  dsimp only
  rw [literalEval_repr py v h]
  dsimp only
  rw [hk]

/-! ### The commands -/

/-- **C93**: s3qlcp. -/
theorem C93_copy (py : Python) (task : Bool) (src dst : Nat) :
    setxattr py task (cpCmd src dst).1 (cpCmd src dst).2 = .act (.copy src dst) :=
  parseLit_repr py (.pair (.int src) (.int dst)) trivial _ _ rfl

/-- **C93**: s3qlrm, for every name, whatever bytes it consists of. -/
theorem C93_rmtree (py : Python) (task : Bool) (dir : Nat) (name : List Byte) :
    setxattr py task (rmCmd dir name).1 (rmCmd dir name).2 = .act (.rmtree dir name) :=
  parseLit_repr py (.pair (.int dir) (.bytes name)) trivial _ _ rfl

/-- **C93**: s3qllock. -/
theorem C93_lock (py : Python) (task : Bool) (ino : Nat) :
    setxattr py task (lockCmd ino).1 (lockCmd ino).2 = .act (.lock ino) :=
  parseLit_repr py (.int ino) trivial _ _ rfl

/-- **C93**: s3qlctrl cachesize, in KiB. -/
theorem C93_cachesize (py : Python) (task : Bool) (kib : Int) :
    setxattr py task (cachesizeCmd kib).1 (cachesizeCmd kib).2 = .act (.cacheSize (kib * 1024)) :=
  parseLit_repr py (.int (kib * 1024)) trivial _ _ rfl

/-- **C93**: s3qlctrl flushcache, dropcache and backup-metadata. -/
theorem C93_simple (py : Python) (task : Bool) :
    setxattr py task flushCmd.1 flushCmd.2 = .act .flushCache ∧
    setxattr py task dropCmd.1 dropCmd.2 = .act .dropCache ∧
    setxattr py task backupCmd.1 backupCmd.2 = if task then .act .uploadMeta else .enotty := ⟨rfl, rfl, rfl⟩

theorem join_ne_nil (ms : List Str) (h : ms ≠ [[]]) (h0 : ms ≠ []) : join ',' ms ≠ [] := by
  match ms, h, h0 with
  | [], _, h0 => exact absurd rfl h0
  | [p], h, _ => intro e; exact h (by simpa [join] using e)
  | p :: q :: r, _, _ => simp [join]

/-- **C93**: s3qlctrl log.  The modules arrive as they were given; without modules, `all` is meant. -/
theorem C93_log (py : Python) (task : Bool) (level : Level) (modules : List Str) (c : Cmd)
    (hc : logCmd py.printable level modules = some c) (hm : ∀ m ∈ modules, ',' ∉ m) (hne : modules ≠ [[]]) :
    setxattr py task c.1 c.2 =
      .act (.logging level.no (some (if modules = [] then ["all".toList] else modules))) := by
  unfold logCmd at hc
  split at hc
  · cases hc
  · obtain rfl := Option.some.inj hc
    have hcomma : ∀ m ∈ (if modules = [] then ["all".toList] else modules), ',' ∉ m := by
      split
      · intro m hm; rw [List.mem_singleton] at hm; subst hm; decide
      · exact hm
    have h1 : (if modules = [] then ["all".toList] else modules) ≠ [[]] := by
      split
      · decide
      · exact hne
    have h0 : (if modules = [] then ["all".toList] else modules) ≠ [] := by
      split
      · decide
      · assumption
    generalize (if modules = [] then ["all".toList] else modules) = ms at *
    refine parseLit_repr py (.pair (.int level.no) (.str (join ',' ms))) trivial _ _ ?_
    show some (Act.logging level.no (modulesOf (join ',' ms))) = _
    unfold modulesOf
    rw [if_neg (join_ne_nil ms h1 h0), splitOn_join ms h0 hcomma]

/-! ### Other messages -/

/-- What a message means (independent of how it is processed): a literal of the right type. -/
def Means (py : Python) (value : List Byte) (v : Py) : Prop :=
  ∃ t, unutf8 value = some t ∧ literalEval py.printable py.other t = .value v

theorem parseLit_act (py : Python) (value : List Byte) (k : Py → Option Act) (a : Act) (h : parseLit py value k = .act a) :
    ∃ v, Means py value v ∧ k v = some a := by
  unfold parseLit at h
  split at h
  · cases h
  · rename_i t ht
    split at h
    · rename_i v hv
      split at h
      · rename_i b hb
        cases h
        exact ⟨v, ⟨t, ht, hv⟩, hb⟩
      · cases h
    · cases h
    · cases h

/-- **C93**, soundness: the file system changes something only if the message is a literal of exactly the right type, and
then does what it says. -/
theorem C93_only (py : Python) (task : Bool) (name : Str) (value : List Byte) (a : Act)
    (h : setxattr py task name value = .act a) :
    match a with
    | .flushCache => name = "s3ql_flushcache!".toList
    | .dropCache => name = "s3ql_dropcache!".toList
    | .uploadMeta => name = "upload-meta".toList ∧ task = true
    | .copy s d => name = "copy".toList ∧ Means py value (.pair (.int s) (.int d))
    | .lock i => name = "lock".toList ∧ Means py value (.int i)
    | .rmtree d n => name = "rmtree".toList ∧ Means py value (.pair (.int d) (.bytes n))
    | .logging l ms => name = "logging".toList ∧ ∃ s, Means py value (.pair (.int l) (.str s)) ∧ modulesOf s = ms
    | .cacheSize n => name = "cachesize".toList ∧ Means py value (.int n) := by
  unfold setxattr at h
  split at h
  · rename_i hn; cases h; exact hn
  split at h
  · rename_i hn; cases h; exact hn
  split at h
  · rename_i hn
    obtain ⟨v, hv, hk⟩ := parseLit_act py value _ a h
    split at hk
    · cases hk; exact ⟨hn, hv⟩
    · cases hk
  split at h
  · rename_i hn
    split at h
    · cases h; exact ⟨hn, by assumption⟩
    · cases h
  split at h
  · rename_i hn
    obtain ⟨v, hv, hk⟩ := parseLit_act py value _ a h
    split at hk
    · cases hk; exact ⟨hn, hv⟩
    · cases hk
  split at h
  · rename_i hn
    obtain ⟨v, hv, hk⟩ := parseLit_act py value _ a h
    split at hk
    · cases hk; exact ⟨hn, hv⟩
    · cases hk
  split at h
  · rename_i hn
    obtain ⟨v, hv, hk⟩ := parseLit_act py value _ a h
    split at hk
    · cases hk; exact ⟨hn, _, hv, rfl⟩
    · cases hk
  split at h
  · rename_i hn
    obtain ⟨v, hv, hk⟩ := parseLit_act py value _ a h
    split at hk
    · cases hk; exact ⟨hn, hv⟩
    · cases hk
  · cases h

/-- **C93**, robustness, in full: no message ends the mount process. -/
def C93_robust_statement (py : Python) : Prop :=
  ∀ task name value, setxattr py task name value ≠ .dies

/-- Messages on which `literal_eval` raises something else than ValueError or SyntaxError. -/
def Poison (py : Python) (value : List Byte) : Prop :=
  ∃ t, unutf8 value = some t ∧ literalEval py.printable py.other t = .raises

theorem parseLit_dies (py : Python) (value : List Byte) (k : Py → Option Act) (h : parseLit py value k = .dies) :
    Poison py value := by
  unfold parseLit at h
  split at h
  · cases h
  · rename_i t ht
    split at h
    · split at h <;> cases h
    · cases h
    · rename_i hr; exact ⟨t, ht, hr⟩

/-- **C93**, robustness, as far as it holds. -/
theorem C93_robust_partial (py : Python) (task : Bool) (name : Str) (value : List Byte) (hp : ¬ Poison py value) :
    setxattr py task name value ≠ .dies := by
  intro h
  have key : ∀ k, parseLit py value k ≠ .dies := fun k hk => hp (parseLit_dies py value k hk)
  unfold setxattr at h
  split at h; · cases h
  split at h; · cases h
  split at h; · exact key _ h
  split at h; · (split at h <;> cases h)
  split at h; · exact key _ h
  split at h; · exact key _ h
  split at h; · exact key _ h
  split at h; · exact key _ h
  · cases h

/-- The property is violated: the message `{[]: 0}` to any of five commands ends the mount process. -/
theorem C93_robust_violated (py : Python) (task : Bool) :
    setxattr py task "copy".toList (utf8 "{[]: 0}".toList) = .dies ∧
    setxattr py task "lock".toList (utf8 "{[]: 0}".toList) = .dies ∧
    setxattr py task "rmtree".toList (utf8 "{[]: 0}".toList) = .dies ∧
    setxattr py task "logging".toList (utf8 "{[]: 0}".toList) = .dies ∧
    setxattr py task "cachesize".toList (utf8 "{[]: 0}".toList) = .dies := by
  have key : ∀ k, parseLit py (utf8 "{[]: 0}".toList) k = .dies := by
    intro k
    unfold parseLit
    rw [unutf8_utf8]
    rfl
  refine ⟨?_, ?_, ?_, ?_, ?_⟩
  · unfold setxattr
    rw [if_neg (by decide), if_neg (by decide), if_pos rfl]; exact key _
  · unfold setxattr
    rw [if_neg (by decide), if_neg (by decide), if_neg (by decide), if_neg (by decide), if_pos rfl]; exact key _
  · unfold setxattr
    rw [if_neg (by decide), if_neg (by decide), if_neg (by decide), if_neg (by decide), if_neg (by decide), if_pos rfl]
    exact key _
  · unfold setxattr
    rw [if_neg (by decide), if_neg (by decide), if_neg (by decide), if_neg (by decide), if_neg (by decide),
      if_neg (by decide), if_pos rfl]
    exact key _
  · unfold setxattr
    rw [if_neg (by decide), if_neg (by decide), if_neg (by decide), if_neg (by decide), if_neg (by decide),
      if_neg (by decide), if_neg (by decide), if_pos rfl]
    exact key _

theorem C93_robust_false (py : Python) : ¬ C93_robust_statement py := fun h => h true _ _ (C93_robust_violated py true).1

/-! ### Log levels -/

/-- The message of a logger is covered by a list of modules: one of them is the logger's name or a package of it. -/
def Covers (ms : List Str) (logger : List Str) : Prop := "all".toList ∈ ms ∨ ∃ m ∈ ms, getLogger m <:+ logger

/-- The levels that can occur. -/
def LogInv (l : Log) : Prop := (l.root = 10 ∨ l.root = 20) ∧ (l.disabled = 0 ∨ l.disabled = 10) ∧ ∀ e ∈ l.levels, e.2 = 10 ∧ e.1 ≠ []

theorem effective_spec (l : Log) (h : LogInv l) (logger : List Str) :
    (l.effective logger = 10 ∧ (l.root = 10 ∨ ∃ e ∈ l.levels, e.1 <:+ logger)) ∨
    (l.effective logger = 20 ∧ l.root = 20 ∧ ∀ e ∈ l.levels, ¬ e.1 <:+ logger) := by
  induction logger with
  | nil =>
    rcases h.1 with hr | hr
    · exact Or.inl ⟨hr, Or.inl hr⟩
    · refine Or.inr ⟨hr, hr, fun e he hs => (h.2.2 e he).2 (List.suffix_nil.1 hs)⟩
  | cons p r ih =>
    unfold Log.effective
    cases hl : l.levels.lookup (p :: r) with
    | some n =>
      obtain ⟨l1, l2, he, _⟩ := List.lookup_eq_some_iff.1 hl
      have hm : (p :: r, n) ∈ l.levels := by rw [he]; simp
      exact Or.inl ⟨(h.2.2 _ hm).1, Or.inr ⟨_, hm, List.suffix_refl _⟩⟩
    | none =>
      dsimp only
      rcases ih with ⟨h1, h2⟩ | ⟨h1, h2, h3⟩
      · refine Or.inl ⟨h1, h2.imp id ?_⟩
        rintro ⟨e, he, hs⟩
        exact ⟨e, he, hs.trans (List.suffix_cons p r)⟩
      · refine Or.inr ⟨h1, h2, fun e he hs => ?_⟩
        rcases List.suffix_cons_iff.1 hs with h4 | h4
        · have := List.lookup_eq_none_iff.1 hl e he
          rw [h4] at this
          simp at this
        · exact h3 e he h4

/-- The loggers that were named. -/
theorem foldl_setLevel (ms : List Str) (l : Log) (h : LogInv l) :
    let l' := ms.foldl (fun l m => l.setLevel (getLogger m) 10) l
    LogInv l' ∧ l'.disabled = l.disabled ∧
    (∀ logger, (l'.root = 10 ∨ ∃ e ∈ l'.levels, e.1 <:+ logger) ↔
      ((l.root = 10 ∨ ∃ e ∈ l.levels, e.1 <:+ logger) ∨ ∃ m ∈ ms, getLogger m <:+ logger)) := by
  induction ms generalizing l with
  | nil => exact ⟨h, rfl, fun _ => by simp⟩
  | cons m ms ih =>
    have hi : LogInv (l.setLevel (getLogger m) 10) := by
      unfold Log.setLevel
      split
      · exact ⟨Or.inl rfl, h.2⟩
      · refine ⟨h.1, h.2.1, ?_⟩
        intro e he
        rcases List.mem_cons.1 he with rfl | he
        · exact ⟨rfl, by assumption⟩
        · exact h.2.2 e he
    obtain ⟨h1, h2, h3⟩ := ih _ hi
    refine ⟨h1, h2.trans ?_, fun logger => (h3 logger).trans ?_⟩
    · unfold Log.setLevel; split <;> rfl
    · simp only [List.mem_cons, exists_eq_or_imp]
      unfold Log.setLevel
      split
      · rename_i hn
        rw [hn]
        simp
      · simp only [List.mem_cons, exists_eq_or_imp]
        constructor
        · rintro ((h | h | h) | h)
          · exact Or.inl (Or.inl h)
          · exact Or.inr (Or.inl h)
          · exact Or.inl (Or.inr h)
          · exact Or.inr (Or.inr h)
        · rintro ((h | h) | h | h)
          · exact Or.inl (Or.inl h)
          · exact Or.inl (Or.inr (Or.inr h))
          · exact Or.inl (Or.inr (Or.inl h))
          · exact Or.inr h

theorem logInv_setup (debug : Bool) (ms : List Str) : LogInv (setupLogging debug ms) := by
  unfold setupLogging
  generalize (if debug = true ∧ "s3ql".toList ∉ ms then ms ++ ["s3ql".toList] else ms) = list
  dsimp only
  split
  · have hne : getLogger "__main__".toList ≠ [] := by decide
    unfold Log.setLevel
    rw [if_neg hne]
    split
    · refine ⟨Or.inl rfl, Or.inl rfl, ?_⟩
      intro e he
      rw [List.mem_singleton] at he
      subst he
      exact ⟨rfl, hne⟩
    · refine (foldl_setLevel list _ ⟨Or.inr rfl, Or.inl rfl, ?_⟩).1
      intro e he
      rw [List.mem_singleton] at he
      subst he
      exact ⟨rfl, hne⟩
  · exact ⟨Or.inr rfl, Or.inr rfl, fun e he => nomatch he⟩

theorem logInv_update (l : Log) (h : LogInv l) (n : Int) (ms : Option (List Str)) : LogInv (updateLogging l n ms) := by
  unfold updateLogging
  dsimp only
  split
  · cases ms with
    | none => exact ⟨Or.inr rfl, Or.inl rfl, h.2.2⟩
    | some ms =>
      dsimp only
      split
      · exact ⟨Or.inl rfl, Or.inl rfl, h.2.2⟩
      · exact (foldl_setLevel ms { root := 20, disabled := 0, levels := l.levels } ⟨Or.inr rfl, Or.inl rfl, h.2.2⟩).1
  · exact ⟨Or.inr rfl, Or.inr rfl, h.2.2⟩

/-- Log states that occur: from the start of the mount, with any number of `s3qlctrl log` commands. -/
inductive LogReach : Log → Prop
  | start (debug : Bool) (ms : List Str) : LogReach (setupLogging debug ms)
  | cmd {l : Log} (n : Int) (ms : Option (List Str)) : LogReach l → LogReach (updateLogging l n ms)

theorem LogReach.inv {l : Log} (h : LogReach l) : LogInv l := by
  induction h with
  | start d ms => exact logInv_setup d ms
  | cmd n ms _ ih => exact logInv_update _ ih n ms

/-- **C93**, logging: messages that are not for debugging always appear. -/
theorem C93_log_messages (l : Log) (h : LogReach l) (logger : List Str) (level : Int) (hl : 20 ≤ level) :
    l.enabled logger level = true := by
  obtain ⟨h1, h2, h3⟩ := h.inv
  have he := effective_spec l h.inv logger
  unfold Log.enabled
  refine decide_eq_true ⟨?_, ?_⟩
  · rcases h2 with h | h <;> omega
  · rcases he with h | h <;> omega

/-- The command line asks for debugging messages of a module: with `--debug-modules`, or of all of S3QL with `--debug`. -/
def Asked (debug : Bool) (ms : List Str) (m : Str) : Prop := m ∈ ms ∨ (debug = true ∧ m = "s3ql".toList)

/-- **C93**, logging: until the first `s3qlctrl log`, debugging messages of exactly the modules appear that the command line asks for; if it asks for any, then also those of the
command itself. -/
theorem C93_log_start (debug : Bool) (ms : List Str) (logger : List Str) :
    (setupLogging debug ms).enabled logger 10 = true ↔
      (∃ m, Asked debug ms m) ∧ (Asked debug ms "all".toList ∨ (∃ m, Asked debug ms m ∧ getLogger m <:+ logger) ∨ ["__main__".toList] <:+ logger) := by
  have hi := logInv_setup debug ms
  have he := effective_spec _ hi logger
  have hm : ∀ m, m ∈ (if debug = true ∧ "s3ql".toList ∉ ms then ms ++ ["s3ql".toList] else ms) ↔ Asked debug ms m := by
    intro m
    unfold Asked
    split
    · rename_i h; rw [List.mem_append, List.mem_singleton]; simp only [h.1, true_and]
    · rename_i h
      constructor
      · exact Or.inl
      · rintro (h1 | ⟨h1, rfl⟩)
        · exact h1
        · exact Decidable.byContradiction (fun h2 => h ⟨h1, h2⟩)
  revert he hi
  unfold setupLogging
  revert hm
  generalize (if debug = true ∧ "s3ql".toList ∉ ms then ms ++ ["s3ql".toList] else ms) = list
  dsimp only
  intro hm
  by_cases hl : list ≠ []
  · rw [if_pos hl]
    have hne : getLogger "__main__".toList ≠ [] := by decide
    have hmain : getLogger "__main__".toList = ["__main__".toList] := by decide
    have hex : ∃ m, Asked debug ms m := by
      obtain ⟨m, hmm⟩ := List.exists_mem_of_ne_nil _ hl
      exact ⟨m, (hm m).1 hmm⟩
    unfold Log.setLevel
    rw [if_neg hne, hmain]
    by_cases ha : "all".toList ∈ list
    · rw [if_pos ha]
      intro _ he
      refine ⟨fun _ => ⟨hex, Or.inl ((hm _).1 ha)⟩, fun _ => decide_eq_true ⟨by decide, ?_⟩⟩
      rcases he with h | h
      · omega
      · exact absurd (show (10 : Int) = 20 from h.2.1) (by decide)
    · rw [if_neg ha]
      have h0 : LogInv { root := 20, disabled := 0, levels := [(["__main__".toList], 10)] } := by
        refine ⟨Or.inr rfl, Or.inl rfl, ?_⟩
        intro e he
        rw [List.mem_singleton] at he
        subst he
        exact ⟨rfl, by decide⟩
      obtain ⟨_, h2, h3⟩ := foldl_setLevel list _ h0
      unfold Log.setLevel at h2 h3
      have h3 := h3 logger
      intro _ he
      have key : (∃ m, Asked debug ms m) ∧ (Asked debug ms "all".toList ∨ (∃ m, Asked debug ms m ∧ getLogger m <:+ logger) ∨ ["__main__".toList] <:+ logger) ↔
          (((20 : Int) = 10 ∨ ∃ e ∈ [(["__main__".toList], (10 : Int))], e.1 <:+ logger) ∨ ∃ m ∈ list, getLogger m <:+ logger) := by
        constructor
        · rintro ⟨_, h | ⟨m, h, hs⟩ | h⟩
          · exact absurd ((hm _).2 h) ha
          · exact Or.inr ⟨m, (hm m).2 h, hs⟩
          · exact Or.inl (Or.inr ⟨_, List.mem_singleton.2 rfl, h⟩)
        · rintro ((h | ⟨e, h, hs⟩) | ⟨m, h, hs⟩)
          · exact absurd h (by decide)
          · rw [List.mem_singleton] at h; subst h; exact ⟨hex, Or.inr (Or.inr hs)⟩
          · exact ⟨hex, Or.inr (Or.inl ⟨m, (hm m).1 h, hs⟩)⟩
      rw [key, ← h3]
      unfold Log.enabled
      rw [h2]
      constructor
      · intro h
        have h := (of_decide_eq_true h).2
        rcases he with h1 | h1
        · exact h1.2
        · omega
      · intro h
        refine decide_eq_true ⟨by decide, ?_⟩
        rcases he with h1 | h1
        · omega
        · rcases h with h | ⟨e, he, hs⟩
          · exact absurd (show (10 : Int) = 20 from h.symm.trans h1.2.1) (by decide)
          · exact absurd hs (h1.2.2 e he)
  · rw [if_neg hl]
    intro _ _
    constructor
    · intro h; exact absurd (show (10 : Int) < 10 from (of_decide_eq_true h).1) (by decide)
    · rintro ⟨⟨m, h⟩, -⟩
      exact absurd ((hm m).2 h) (by rw [Decidable.not_not.1 hl]; exact List.not_mem_nil)

/-- `--debug` shows the debugging messages of `s3ql.fs` and not those of `asyncio`; without it there are none. -/
example : (setupLogging true []).enabled ["fs".toList, "s3ql".toList] 10 = true ∧ (setupLogging true []).enabled ["asyncio".toList] 10 = false ∧
    (setupLogging false []).enabled ["fs".toList, "s3ql".toList] 10 = false := by decide +kernel

/-- **C93**, logging: `s3qlctrl log info` and `log warn` switch all debugging messages off. -/
theorem C93_log_off (l : Log) (n : Int) (hn : n ≠ 10) (ms : Option (List Str)) (logger : List Str) :
    (updateLogging l n ms).enabled logger 10 = false := by
  unfold updateLogging Log.enabled
  dsimp only
  rw [if_neg hn]
  exact decide_eq_false (fun h => absurd (show (10 : Int) < 10 from h.1) (by decide))

/-- **C93**, logging, in full: after `s3qlctrl log debug` exactly the debugging messages of the given modules appear. -/
def C93_log_on_statement : Prop :=
  ∀ l, LogReach l → ∀ ms logger, (updateLogging l 10 (some ms)).enabled logger 10 = true ↔ Covers ms logger

/-- **C93**, logging, as far as it holds: they appear, and others appear only if their modules were given before. -/
theorem C93_log_on_partial (l : Log) (h : LogReach l) (ms : List Str) (logger : List Str) :
    (updateLogging l 10 (some ms)).enabled logger 10 = true ↔ (Covers ms logger ∨ ∃ e ∈ l.levels, e.1 <:+ logger) := by
  have hi := h.inv
  have hi' := logInv_update l hi 10 (some ms)
  have he := effective_spec _ hi' logger
  have key : (updateLogging l 10 (some ms)).disabled = 0 ∧
      (((updateLogging l 10 (some ms)).root = 10 ∨ ∃ e ∈ (updateLogging l 10 (some ms)).levels, e.1 <:+ logger) ↔
        (Covers ms logger ∨ ∃ e ∈ l.levels, e.1 <:+ logger)) := by
    unfold updateLogging
    dsimp only
    rw [if_pos rfl]
    by_cases ha : "all".toList ∈ ms
    · rw [if_pos ha]
      exact ⟨rfl, fun _ => Or.inl (Or.inl ha), fun _ => Or.inl rfl⟩
    · rw [if_neg ha]
      obtain ⟨_, h2, h3⟩ := foldl_setLevel ms { root := 20, disabled := 0, levels := l.levels } ⟨Or.inr rfl, Or.inl rfl, hi.2.2⟩
      refine ⟨h2, (h3 logger).trans ?_⟩
      constructor
      · rintro ((h | h) | h)
        · exact absurd (show (20 : Int) = 10 from h) (by decide)
        · exact Or.inr h
        · exact Or.inl (Or.inr h)
      · rintro ((h | h) | h)
        · exact absurd h ha
        · exact Or.inr h
        · exact Or.inl (Or.inr h)
  rw [← key.2]
  unfold Log.enabled
  rw [key.1]
  constructor
  · intro h
    have h := (of_decide_eq_true h).2
    rcases he with h1 | h1
    · exact h1.2
    · omega
  · intro h
    refine decide_eq_true ⟨by decide, ?_⟩
    rcases he with h1 | h1
    · omega
    · rcases h with h | ⟨e, he, hs⟩
      · omega
      · exact absurd hs (h1.2.2 e he)

/-- The property is violated: modules that were given before stay in debugging mode. -/
theorem C93_log_stale : ¬ C93_log_on_statement := by
  intro h
  have h1 := (h _ (.cmd 20 none (.cmd 10 (some ["s3ql.fs".toList]) (.start false []))) ["s3ql.http".toList]
    ["fs".toList, "s3ql".toList]).1 (by decide +kernel)
  rcases h1 with h1 | ⟨m, hm, hs⟩
  · revert h1; decide
  · rw [List.mem_singleton] at hm
    subst hm
    revert hs
    decide

/-- `s3qlctrl log warn` does not do what it says: informational messages still appear. -/
theorem C93_log_warn (l : Log) (h : LogReach l) (logger : List Str) :
    (updateLogging l Level.warn.no (some ["all".toList])).enabled logger 20 = true :=
  C93_log_messages _ (.cmd _ _ h) _ _ (by decide)

/-! ### Examples -/

/-- A name with quotes, a backslash and bytes that are not UTF-8. -/
def demoName : List Byte := [39, 34, 92, 10, 255, 0, 97]

example (py : Python) : setxattr py true (rmCmd 17 demoName).1 (rmCmd 17 demoName).2 = .act (.rmtree 17 demoName) :=
  C93_rmtree py true 17 demoName

example : reprBytes demoName = "b'\\'\"\\\\\\n\\xff\\x00a'".toList := by decide +kernel

/-- The hypotheses of `C93_log`. -/
example : (logCmd (fun _ => true) .debug ["s3ql.fs".toList, "s3ql.http".toList]).isSome = true ∧
    ∀ m ∈ ["s3ql.fs".toList, "s3ql.http".toList], ',' ∉ m := by decide

/-- A message that is not poison: `(1, 2)` to `lock` is rejected. -/
example (py : Python) : setxattr py true "lock".toList (cpCmd 1 2).2 = .einval := by
  show parseLit py (utf8 (reprPy py.printable (.pair (.int 1) (.int 2)))) _ = _
  unfold parseLit
  rw [unutf8_utf8]
  dsimp only
  rw [literalEval_repr py (.pair (.int 1) (.int 2)) trivial]

end Verif.Control
