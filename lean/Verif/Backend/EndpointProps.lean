import Verif.Backend.Endpoint
/-
Property C95: theorems.
-/
namespace Verif.Backend.Endpoint
open Verif.Codec (Str parseDigits decStr parse_decStr digitChar digits digits_lt digits_ne_nil)

/-! ### Specification: storage URLs as the manual describes them -/

/-- `/bucket` or `/bucket/prefix`, without the first slash. -/
def bucketPart (bucket : Str) (prfx : Option Str) : Str := bucket ++ (match prfx with | some p => '/' :: p | none => [])

/-- `hostname[:port]`. -/
def hostPart (host : Str) (port : Option Nat) : Str := host ++ (match port with | some n => ':' :: decStr n | none => [])

/-- `scheme://hostname[:port]/bucket[/prefix]`. -/
def hostUrl (scheme host : Str) (port : Option Nat) (bucket : Str) (prfx : Option Str) : Str :=
  scheme ++ "://".toList ++ hostPart host port ++ '/' :: bucketPart bucket prfx

/-- `scheme://hostname[:port]/region:container[/prefix]`. -/
def ksUrl (scheme host : Str) (port : Option Nat) (region bucket : Str) (prfx : Option Str) : Str :=
  scheme ++ "://".toList ++ hostPart host port ++ '/' :: (region ++ ':' :: bucketPart bucket prfx)

def Scheme (s : Str) : Prop := s ≠ [] ∧ ∀ c ∈ s, isAlnum c = true
def HostName (s : Str) : Prop := s ≠ [] ∧ ∀ c ∈ s, c ≠ '/' ∧ c ≠ ':'
def BucketName (s : Str) : Prop := s ≠ [] ∧ '/' ∉ s
def Prefix (p : Option Str) : Prop := ∀ s, p = some s → '\n' ∉ s

/-! ### Lemmas -/

theorem take_stop (p : Char → Bool) (tok r : Str) (h : ∀ x ∈ tok, p x = true) (hc : ∀ c, r.head? = some c → p c = false) :
    (tok ++ r).takeWhile p = tok ∧ (tok ++ r).dropWhile p = r := by
  induction tok with
  | nil =>
    cases r with
    | nil => simp
    | cons c t => simp [hc c rfl]
  | cons x t ih =>
    have hx := h x List.mem_cons_self
    have := ih (fun y hy => h y (List.mem_cons_of_mem _ hy))
    simp [hx, this.1, this.2]

theorem bucketPrefix_of (bucket : Str) (prfx : Option Str) (hb : BucketName bucket) (hp : Prefix prfx) :
    bucketPrefix (bucketPart bucket prfx) = some (bucket, prfx.getD []) := by
  have hb' : ∀ x ∈ bucket, (decide (x ≠ '/')) = true := by
    intro x hx
    refine decide_eq_true ?_
    rintro rfl
    exact hb.2 hx
  obtain ⟨c, t, hct⟩ : ∃ c t, bucket = c :: t := by
    cases hbb : bucket with
    | nil => exact absurd hbb hb.1
    | cons c t => exact ⟨c, t, rfl⟩
  cases prfx with
  | none =>
    have key := take_stop (· ≠ '/') bucket [] hb' (by simp)
    rw [List.append_nil] at key
    unfold bucketPart bucketPrefix
    dsimp only
    rw [List.append_nil, key.1, key.2, hct]
    rfl
  | some p =>
    have key := take_stop (· ≠ '/') bucket ('/' :: p) hb' (by simp)
    have hp' : '\n' ∉ p := hp p rfl
    have k2 := take_stop (· ≠ '\n') p [] (fun x hx => decide_eq_true (by rintro rfl; exact hp' hx)) (by simp)
    rw [List.append_nil] at k2
    unfold bucketPart bucketPrefix
    dsimp only
    rw [key.1, key.2, hct]
    show (restOfLine p).map _ = _
    unfold restOfLine
    rw [k2.1, k2.2]
    rfl

theorem decStr_digit (n : Nat) : ∀ c ∈ decStr n, isDigit c = true := by
  intro c hc
  obtain ⟨d, hd, rfl⟩ := List.mem_map.1 hc
  have h := digits_lt 8 n d hd
  have : ∀ d, d < 10 → isDigit (digitChar d) = true := by decide
  exact this d h

theorem decStr_ne_nil (n : Nat) : decStr n ≠ [] := by simp [decStr, digits_ne_nil]

theorem portSlash_of (port : Option Nat) (r : Str) :
    portSlash ((match port with | some n => ':' :: decStr n | none => []) ++ '/' :: r) = some (port, r) := by
  cases port with
  | none => rfl
  | some n =>
    have key := take_stop isDigit (decStr n) ('/' :: r) (decStr_digit n) (by intro c hc; cases hc; decide)
    show portDigits (decStr n ++ '/' :: r) = _
    unfold portDigits
    rw [key.1, key.2]
    cases hd : decStr n with
    | nil => exact absurd hd (decStr_ne_nil n)
    | cons d ds =>
      show (parseDigits 8 (d :: ds)).map _ = _
      rw [← hd, parse_decStr]
      rfl

theorem host_stop (host : Str) (port : Option Nat) (r : Str) (hh : HostName host) :
    (hostPart host port ++ '/' :: r).takeWhile (fun c => decide (c ≠ '/' ∧ c ≠ ':')) = host ∧
    (hostPart host port ++ '/' :: r).dropWhile (fun c => decide (c ≠ '/' ∧ c ≠ ':')) =
      (match port with | some n => ':' :: decStr n | none => []) ++ '/' :: r := by
  unfold hostPart
  rw [List.append_assoc]
  refine take_stop _ host _ (fun x hx => decide_eq_true (hh.2 x hx)) ?_
  intro c hc
  cases port with
  | none => cases hc; decide
  | some n => cases hc; decide

theorem afterScheme_of (scheme r : Str) (hs : Scheme scheme) : afterScheme (scheme ++ "://".toList ++ r) = some r := by
  have key := take_stop isAlnum scheme (':' :: '/' :: '/' :: r) hs.2 (by intro c hc; cases hc; decide)
  have e : scheme ++ "://".toList ++ r = scheme ++ (':' :: '/' :: '/' :: r) := by simp
  unfold afterScheme
  rw [e, key.1, key.2]
  cases h : scheme with
  | nil => exact absurd h hs.1
  | cons c t => rfl

theorem stripPrefix_append (p s : Str) : stripPrefix p (p ++ s) = some s := by
  induction p with
  | nil => cases s <;> rfl
  | cons c t ih =>
    show (if c = c then stripPrefix t (t ++ s) else none) = _
    rw [if_pos rfl, ih]

/-! ### Storage URLs -/

/-- **C95**: a storage URL for S3-compatible storage or Swift means what it says. -/
theorem C95_host_url (ssl : Bool) (scheme host : Str) (port : Option Nat) (bucket : Str) (prfx : Option Str)
    (hs : Scheme scheme) (hh : HostName host) (hb : BucketName bucket) (hp : Prefix prfx) :
    parseHost ssl (hostUrl scheme host port bucket prfx) =
      some { host := host, port := port.getD (if ssl then 443 else 80), region := [], bucket := bucket, prfx := prfx.getD [] } := by
  unfold parseHost hostUrl
  rw [List.append_assoc, afterScheme_of _ _ hs]
  dsimp only
  obtain ⟨h1, h2⟩ := host_stop host port (bucketPart bucket prfx) hh
  rw [h1, h2, portSlash_of]
  cases hc : host with
  | nil => exact absurd hc hh.1
  | cons c t =>
    dsimp only
    rw [bucketPrefix_of bucket prfx hb hp]
    rfl

/-- **C95**: the same with Keystone, where the URL names the region. -/
theorem C95_ks_url (ssl : Bool) (scheme host : Str) (port : Option Nat) (region bucket : Str) (prfx : Option Str)
    (hs : Scheme scheme) (hh : HostName host) (hr : region ≠ [] ∧ ∀ c ∈ region, isRegion c = true) (hb : BucketName bucket)
    (hp : Prefix prfx) :
    parseKs ssl (ksUrl scheme host port region bucket prfx) =
      some { host := host, port := port.getD (if ssl then 443 else 80), region := region, bucket := bucket, prfx := prfx.getD [] } := by
  unfold parseKs ksUrl
  rw [List.append_assoc, afterScheme_of _ _ hs]
  dsimp only
  obtain ⟨h1, h2⟩ := host_stop host port (region ++ ':' :: bucketPart bucket prfx) hh
  rw [h1, h2, portSlash_of]
  have key := take_stop isRegion region (':' :: bucketPart bucket prfx) hr.2 (by intro c hc; cases hc; decide)
  cases hc : host with
  | nil => exact absurd hc hh.1
  | cons c t =>
    dsimp only
    rw [key.1, key.2]
    cases hc2 : region with
    | nil => exact absurd hc2 hr.1
    | cons c2 t2 =>
      show (bucketPrefix (bucketPart bucket prfx)).map _ = _
      rw [bucketPrefix_of bucket prfx hb hp]
      rfl

/-- **C95**: Amazon S3; `s3s://` is accepted as well. -/
theorem C95_s3_url (valid : Str → Bool) (ssl : Bool) (s : Bool) (region bucket : Str) (prfx : Option Str)
    (hr : region ≠ [] ∧ '/' ∉ region) (hb : BucketName bucket) (hv : valid bucket = true) (hp : Prefix prfx) :
    parseS3 valid ssl ((if s then "s3s://".toList else "s3://".toList) ++ region ++ '/' :: bucketPart bucket prfx) =
      some { host := s3Host region, port := if ssl then 443 else 80, region := region, bucket := bucket, prfx := prfx.getD [] } := by
  have e : ∃ u, stripPrefix "s3".toList ((if s then "s3s://".toList else "s3://".toList) ++ region ++ '/' :: bucketPart bucket prfx) = some u ∧
      stripPrefix "://".toList (if u.head? = some 's' then u.drop 1 else u) = some (region ++ '/' :: bucketPart bucket prfx) := by
    cases s with
    | true =>
      refine ⟨"s://".toList ++ (region ++ '/' :: bucketPart bucket prfx), ?_, ?_⟩
      · rw [List.append_assoc]; exact stripPrefix_append "s3".toList _
      · exact stripPrefix_append "://".toList _
    | false =>
      refine ⟨"://".toList ++ (region ++ '/' :: bucketPart bucket prfx), ?_, ?_⟩
      · rw [List.append_assoc]; exact stripPrefix_append "s3".toList _
      · exact stripPrefix_append "://".toList _
  obtain ⟨u, h1, h2⟩ := e
  have key := take_stop (· ≠ '/') region ('/' :: bucketPart bucket prfx)
    (fun x hx => decide_eq_true (by rintro rfl; exact hr.2 hx)) (by intro c hc; cases hc; decide)
  unfold parseS3
  rw [h1]
  dsimp only
  rw [h2]
  dsimp only
  rw [key.1, key.2]
  cases hc : region with
  | nil => exact absurd hc hr.1
  | cons c t =>
    dsimp only
    rw [bucketPrefix_of bucket prfx hb hp]
    dsimp only
    rw [if_pos hv]
    rfl

/-- **C95**: the servers of Amazon S3; regions in China have their own domain. -/
theorem C95_s3_host (region : Str) :
    ("cn-".toList <+: region → s3Host region = "s3.".toList ++ region ++ ".amazonaws.com.cn".toList) ∧
    (¬ "cn-".toList <+: region → s3Host region = "s3.".toList ++ region ++ ".amazonaws.com".toList) := by
  unfold s3Host
  constructor
  · intro h
    rw [if_pos (List.isPrefixOf_iff_prefix.2 h)]
  · intro h
    rw [if_neg (fun hp => h (List.isPrefixOf_iff_prefix.1 hp))]

/-- **C95**: Backblaze. -/
theorem C95_b2_url (valid : Str → Bool) (ssl : Bool) (bucket : Str) (prfx : Option Str)
    (hb : BucketName bucket) (hv : valid bucket = true) (hp : Prefix prfx) :
    parseB2 valid ssl ("b2://".toList ++ bucketPart bucket prfx) =
      some { host := "s3.us-east-005.backblazeb2.com".toList, port := if ssl then 443 else 80, region := "us-east-005".toList, bucket := bucket, prfx := prfx.getD [] } := by
  unfold parseB2
  rw [stripPrefix_append]
  dsimp only
  rw [bucketPrefix_of bucket prfx hb hp]
  dsimp only
  rw [if_pos hv]
  rfl

/-- **C95**: Rackspace. -/
theorem C95_rackspace_url (ssl : Bool) (region bucket : Str) (prfx : Option Str)
    (hr : HostName region) (hb : BucketName bucket) (hp : Prefix prfx) :
    parseRackspace ssl ("rackspace://".toList ++ (region ++ '/' :: bucketPart bucket prfx)) =
      some { host := "auth.api.rackspacecloud.com".toList, port := if ssl then 443 else 80, region := region, bucket := bucket, prfx := prfx.getD [] } := by
  unfold parseRackspace
  rw [stripPrefix_append]
  dsimp only
  have key := take_stop (fun c => decide (c ≠ '/' ∧ c ≠ ':')) region ('/' :: bucketPart bucket prfx)
    (fun x hx => decide_eq_true (hr.2 x hx)) (by intro c hc; cases hc; decide)
  rw [key.1, key.2]
  cases hc : region with
  | nil => exact absurd hc hr.1
  | cons c t =>
    show (bucketPrefix (bucketPart bucket prfx)).map _ = _
    rw [bucketPrefix_of bucket prfx hb hp]
    rfl

theorem stripPrefix_some {p s r : Str} (h : stripPrefix p s = some r) : s = p ++ r := by
  induction p generalizing s with
  | nil => cases s <;> (cases h; rfl)
  | cons c t ih =>
    cases s with
    | nil => cases h
    | cons d u =>
      have h' : (if c = d then stripPrefix t u else none) = some r := h
      split at h'
      · rename_i hcd
        rw [hcd, ih h']; rfl
      · cases h'

/-- **C95**: Google Storage (bucket names do not begin with an exclamation mark). -/
theorem C95_gs_url (bucket : Str) (prfx : Option Str) (hb : BucketName bucket) (hx : bucket.head? ≠ some '!') (hp : Prefix prfx) :
    parseGs ("gs://".toList ++ bucketPart bucket prfx) =
      some { host := "www.googleapis.com".toList, port := 443, region := [], bucket := bucket, prfx := prfx.getD [] } := by
  have hn : stripPrefix "gs://!unittest!".toList ("gs://".toList ++ bucketPart bucket prfx) = none := by
    cases h : stripPrefix "gs://!unittest!".toList ("gs://".toList ++ bucketPart bucket prfx) with
    | none => rfl
    | some r =>
      have e := stripPrefix_some h
      have e2 : "gs://!unittest!".toList ++ r = "gs://".toList ++ ("!unittest!".toList ++ r) := rfl
      rw [e2] at e
      have e3 := List.append_cancel_left e
      cases hbb : bucket with
      | nil => exact absurd hbb hb.1
      | cons c t =>
        rw [hbb] at e3
        have : c = '!' := (List.cons.inj e3).1
        rw [hbb, this] at hx
        exact absurd rfl hx
  unfold parseGs
  rw [hn, stripPrefix_append]
  dsimp only
  rw [bucketPrefix_of bucket prfx hb hp]
  rfl

/-! ### Encryption -/

/-- Kinds of storage where the login tells the address of the storage server. -/
def SwiftLike (k : Kind) : Prop := k = .swift ∨ k = .swiftks ∨ k = .rackspace

theorem fromCatalog_mem {region : Str} {l : List Entry} {a : Addr} (h : fromCatalog region l = some a) :
    ∃ e ∈ l, e.type = "object-store".toList ∧ e.region = region ∧
      (e.publicURL = some a ∨ (e.publicURL = none ∧ e.interface = "public".toList ∧ e.url = a)) := by
  induction l with
  | nil => cases h
  | cons e r ih =>
    unfold fromCatalog at h
    split at h
    · obtain ⟨e', h1, h2⟩ := ih h; exact ⟨e', List.mem_cons_of_mem _ h1, h2⟩
    · rename_i ht
      split at h
      · obtain ⟨e', h1, h2⟩ := ih h; exact ⟨e', List.mem_cons_of_mem _ h1, h2⟩
      · rename_i hr
        split at h
        · rename_i ad hp
          cases h
          exact ⟨e, List.mem_cons_self, by simpa using ht, by simpa using hr, Or.inl hp⟩
        · rename_i hp
          split at h
          · obtain ⟨e', h1, h2⟩ := ih h; exact ⟨e', List.mem_cons_of_mem _ h1, h2⟩
          · rename_i hi
            cases h
            exact ⟨e, List.mem_cons_self, by simpa using ht, by simpa using hr, Or.inr ⟨hp, by simpa using hi, rfl⟩⟩

theorem storageConn_tls {noSsl : Bool} {px : Option (Str × Nat)} {a : Addr} {d : Conn} (h : storageConn noSsl px a = some d) :
    (d.tls = true ↔ ¬ (a.scheme = "http".toList ∨ (a.scheme ≠ "https".toList ∧ noSsl = true))) ∧
    a.host = some d.host ∧ d.port = a.port.getD (if d.tls then 443 else 80) ∧ d.proxy = px := by
  unfold storageConn at h
  split at h
  · cases h
  · rename_i hh
    cases h
    refine ⟨?_, hh, rfl, rfl⟩
    show (if a.scheme = "https".toList then true else if a.scheme = "http".toList then false else !noSsl) = true ↔ _
    by_cases h1 : a.scheme = "https".toList
    · rw [if_pos h1, h1]
      simp
    · rw [if_neg h1]
      by_cases h2 : a.scheme = "http".toList
      · rw [if_pos h2, h2]; simp
      · rw [if_neg h2]
        cases noSsl with
        | false => exact ⟨fun _ h => h.elim h2 (fun h => absurd h.2 (by decide)), fun _ => rfl⟩
        | true => exact ⟨fun h => absurd h (by decide), fun h => absurd (Or.inr ⟨h1, rfl⟩) h⟩

/-- What a Swift-like login leads to. -/
def Leads (c : Config) (a : Answers) (ad : Addr) : Prop :=
  match c.kind with
  | .swift => ad = a.storageUrl
  | .swiftks => ∃ p, parseKs true c.url = some p ∧ fromCatalog p.region a.catalog = some ad
  | .rackspace => ∃ p, parseRackspace true c.url = some p ∧ fromCatalog p.region a.catalog = some ad
  | _ => False

/-- The configured server and its port. -/
def Configured (c : Config) (host : Str) (port : Nat) : Prop :=
  match c.kind with
  | .swift => ∃ p, parseHost true c.url = some p ∧ p.host = host ∧ p.port = port
  | .swiftks => ∃ p, parseKs true c.url = some p ∧ p.host = host ∧ p.port = port
  | .rackspace => ∃ p, parseRackspace true c.url = some p ∧ p.host = host ∧ p.port = port
  | .s3c => ∃ p, parseHost (!c.noSsl) c.url = some p ∧ p.host = host ∧ p.port = port
  | .s3 => ∃ p, parseS3 c.valid (!c.noSsl) c.url = some p ∧ p.host = host ∧ p.port = port
  | .b2 => host = "api.backblazeb2.com".toList ∧ port = 443
  | .gs => host = "accounts.google.com".toList ∧ port = 443

theorem b2Region_host {h reg : Str} (hr : b2Region h = some reg) : h = b2Host reg := by
  unfold b2Region at hr
  split at hr
  · cases hr
  · rename_i r hs
    have e := stripPrefix_some hs
    split at hr
    · cases hr
    · split at hr
      · rename_i hd
        have := Option.some.inj hr
        subst this
        rw [e]
        unfold b2Host
        rw [List.append_assoc, ← hd, List.takeWhile_append_dropWhile]
      · cases hr

theorem parseB2_spec {valid : Str → Bool} {ssl : Bool} {url : Str} {p : Place} (h : parseB2 valid ssl url = some p) :
    p.host = b2Host b2Default ∧ p.region = b2Default ∧ p.port = defaultPort ssl := by
  unfold parseB2 at h
  split at h
  · cases h
  · split at h
    · split at h
      · cases h; exact ⟨rfl, rfl, rfl⟩
      · cases h
    · cases h

/-- All connections. -/
theorem conns_spec (c : Config) (a : Answers) (pu : Purpose) (cn : Conn) (h : (pu, cn) ∈ connections c a) :
    (SwiftLike c.kind ∧ getProxy c.env true = some cn.proxy ∧
      ((pu = .login ∧ cn.tls = !c.noSsl ∧ Configured c cn.host cn.port) ∨
       (pu = .data ∧ ∃ ad, Leads c a ad ∧ storageConn c.noSsl cn.proxy ad = some cn))) ∨
    (c.kind = .gs ∧ getProxy c.env true = some cn.proxy ∧ cn.tls = true ∧
      ((pu = .login ∧ Configured c cn.host cn.port) ∨
       (pu = .data ∧ ∃ p, parseGs c.url = some p ∧ cn.host = p.host ∧ cn.port = p.port))) ∨
    (c.kind = .s3c ∧ getProxy c.env (!c.noSsl) = some cn.proxy ∧ cn.tls = !c.noSsl ∧ pu = .data ∧ Configured c cn.host cn.port) ∨
    (c.kind = .s3 ∧ getProxy c.env (!c.noSsl) = some cn.proxy ∧ cn.tls = !c.noSsl ∧
      (Configured c cn.host cn.port ∨
       (pu = .data ∧ ∃ l, a.location = some l ∧ l.host = some cn.host ∧
          (l.port = some cn.port ∨ (l.port = none ∧ ∃ h, Configured c h cn.port))))) ∨
    (c.kind = .b2 ∧ cn.tls = !c.noSsl ∧
      ((pu = .login ∧ cn.proxy = none ∧ Configured c cn.host cn.port) ∨
       (pu = .data ∧ getProxy c.env (!c.noSsl) = some cn.proxy ∧ cn.port = (if c.noSsl then 80 else 443) ∧
          ∃ reg, b2Region a.s3ApiHost = some reg ∧ cn.host = b2Host reg))) := by
  unfold connections at h
  unfold Configured Leads SwiftLike
  split at h <;> rename_i hk <;> rw [hk]
  · split at h
    · rename_i p px h1 h2
      rw [List.mem_singleton] at h
      obtain ⟨rfl, rfl⟩ := Prod.mk.inj h
      exact Or.inr (Or.inr (Or.inl ⟨rfl, h2, rfl, rfl, p, h1, rfl, rfl⟩))
    · cases h
  · split at h
    · rename_i p px h1 h2
      dsimp only at h
      refine Or.inr (Or.inr (Or.inr (Or.inl ?_)))
      split at h
      · simp only [List.mem_cons, List.not_mem_nil, or_false] at h
        rcases h with h | h
        · obtain ⟨rfl, rfl⟩ := Prod.mk.inj h
          exact ⟨rfl, h2, rfl, Or.inl ⟨p, h1, rfl, rfl⟩⟩
        · obtain ⟨rfl, rfl⟩ := Prod.mk.inj h
          exact ⟨rfl, h2, rfl, Or.inl ⟨p, h1, rfl, rfl⟩⟩
      · rename_i l hl
        split at h
        · rw [List.mem_singleton] at h
          obtain ⟨rfl, rfl⟩ := Prod.mk.inj h
          exact ⟨rfl, h2, rfl, Or.inl ⟨p, h1, rfl, rfl⟩⟩
        · rename_i hh hlh
          simp only [List.mem_cons, List.not_mem_nil, or_false] at h
          rcases h with h | h
          · obtain ⟨rfl, rfl⟩ := Prod.mk.inj h
            exact ⟨rfl, h2, rfl, Or.inl ⟨p, h1, rfl, rfl⟩⟩
          · obtain ⟨rfl, rfl⟩ := Prod.mk.inj h
            refine ⟨rfl, h2, rfl, Or.inr ⟨rfl, l, hl, hlh, ?_⟩⟩
            cases hp : l.port with
            | some n => exact Or.inl rfl
            | none => exact Or.inr ⟨rfl, p.host, p, h1, rfl, rfl⟩
    · cases h
  · split at h
    · rename_i p px h1 h2
      dsimp only at h
      obtain ⟨q1, q2, q3⟩ := parseB2_spec h1
      refine Or.inr (Or.inr (Or.inr (Or.inr ?_)))
      split at h
      · rw [List.mem_singleton] at h
        obtain ⟨rfl, rfl⟩ := Prod.mk.inj h
        exact ⟨rfl, rfl, Or.inl ⟨rfl, rfl, rfl, rfl⟩⟩
      · rename_i reg hreg
        simp only [List.mem_cons, List.not_mem_nil, or_false] at h
        rcases h with h | h
        · obtain ⟨rfl, rfl⟩ := Prod.mk.inj h
          exact ⟨rfl, rfl, Or.inl ⟨rfl, rfl, rfl, rfl⟩⟩
        · obtain ⟨rfl, rfl⟩ := Prod.mk.inj h
          refine ⟨rfl, rfl, Or.inr ⟨rfl, h2, ?_, reg, hreg, ?_⟩⟩
          · show p.port = _
            rw [q3]
            cases c.noSsl <;> rfl
          · show (if reg = p.region then p.host else a.s3ApiHost) = _
            split
            · rename_i he; rw [he, q1, q2]
            · exact b2Region_host hreg
    · cases h
  · split at h
    · rename_i px p h1 h2
      refine Or.inr (Or.inl ?_)
      simp only [List.mem_cons, List.not_mem_nil, or_false] at h
      rcases h with h | h
      · obtain ⟨rfl, rfl⟩ := Prod.mk.inj h
        exact ⟨rfl, h1, rfl, Or.inl ⟨rfl, rfl, rfl⟩⟩
      · obtain ⟨rfl, rfl⟩ := Prod.mk.inj h
        exact ⟨rfl, h1, rfl, Or.inr ⟨rfl, p, h2, rfl, rfl⟩⟩
    · cases h
  · split at h
    · rename_i p px h1 h2
      refine Or.inl ?_
      rcases List.mem_cons.1 h with h | h
      · obtain ⟨rfl, rfl⟩ := Prod.mk.inj h
        exact ⟨Or.inl rfl, h2, Or.inl ⟨rfl, rfl, p, h1, rfl, rfl⟩⟩
      · obtain ⟨d, hd, he⟩ := List.mem_map.1 h
        obtain ⟨rfl, rfl⟩ := Prod.mk.inj he
        have hs := Option.mem_toList.1 hd
        have hp := (storageConn_tls hs).2.2.2
        rw [hp]
        exact ⟨Or.inl rfl, h2, Or.inr ⟨rfl, _, rfl, hs⟩⟩
    · cases h
  · split at h
    · rename_i p px h1 h2
      refine Or.inl ?_
      rcases List.mem_cons.1 h with h | h
      · obtain ⟨rfl, rfl⟩ := Prod.mk.inj h
        exact ⟨Or.inr (Or.inl rfl), h2, Or.inl ⟨rfl, rfl, p, h1, rfl, rfl⟩⟩
      · obtain ⟨d, hd, he⟩ := List.mem_map.1 h
        obtain ⟨rfl, rfl⟩ := Prod.mk.inj he
        have hs := Option.mem_toList.1 hd
        obtain ⟨ad, had, hs⟩ := Option.bind_eq_some_iff.1 hs
        have hp := (storageConn_tls hs).2.2.2
        rw [hp]
        exact ⟨Or.inr (Or.inl rfl), h2, Or.inr ⟨rfl, ad, ⟨p, h1, had⟩, hs⟩⟩
    · cases h
  · split at h
    · rename_i p px h1 h2
      refine Or.inl ?_
      rcases List.mem_cons.1 h with h | h
      · obtain ⟨rfl, rfl⟩ := Prod.mk.inj h
        exact ⟨Or.inr (Or.inr rfl), h2, Or.inl ⟨rfl, rfl, p, h1, rfl, rfl⟩⟩
      · obtain ⟨d, hd, he⟩ := List.mem_map.1 h
        obtain ⟨rfl, rfl⟩ := Prod.mk.inj he
        have hs := Option.mem_toList.1 hd
        obtain ⟨ad, had, hs⟩ := Option.bind_eq_some_iff.1 hs
        have hp := (storageConn_tls hs).2.2.2
        rw [hp]
        exact ⟨Or.inr (Or.inr rfl), h2, Or.inr ⟨rfl, ad, ⟨p, h1, had⟩, hs⟩⟩
    · cases h

/-- **C95**, encryption: without `no-ssl`, everything is encrypted, except that for Swift the authentication server may say
that the storage server is to be used without encryption (as the manual says). -/
theorem C95_encrypted (c : Config) (a : Answers) (pu : Purpose) (cn : Conn) (h : (pu, cn) ∈ connections c a)
    (hn : c.noSsl = false) :
    cn.tls = true ∨ (SwiftLike c.kind ∧ pu = .data ∧ ∃ ad, Leads c a ad ∧ ad.scheme = "http".toList) := by
  rcases conns_spec c a pu cn h with ⟨hk, _, h⟩ | ⟨_, _, h, _⟩ | ⟨_, _, h, _⟩ | ⟨_, _, h, _⟩ | ⟨_, h, _⟩
  · rcases h with ⟨_, h, _⟩ | ⟨hp, ad, h1, h2⟩
    · left; rw [h, hn]; rfl
    · by_cases ht : ad.scheme = "http".toList
      · exact Or.inr ⟨hk, hp, ad, h1, ht⟩
      · refine Or.inl ((storageConn_tls h2).1.2 ?_)
        rintro (h | h)
        · exact ht h
        · rw [hn] at h; exact absurd h.2 (by decide)
  · exact Or.inl h
  · left; rw [h, hn]; rfl
  · left; rw [h, hn]; rfl
  · left; rw [h, hn]; rfl

/-- **C95**, encryption: without `no-ssl`, passwords and keys are never sent in clear. -/
theorem C95_secret (c : Config) (a : Answers) (cn : Conn) (h : (.login, cn) ∈ connections c a) (hn : c.noSsl = false) :
    cn.tls = true := by
  rcases C95_encrypted c a _ cn h hn with h | h
  · exact h
  · cases h.2.1

/-- **C95**, `no-ssl`: it does what the manual says: nothing is encrypted; for Swift, only the login is not encrypted and the
authentication server decides about the storage server.  (Google Storage has no such option.) -/
theorem C95_no_ssl (c : Config) (a : Answers) (pu : Purpose) (cn : Conn) (h : (pu, cn) ∈ connections c a)
    (hn : c.noSsl = true) (hk : c.kind ≠ .gs) :
    cn.tls = false ∨ (SwiftLike c.kind ∧ pu = .data ∧ ∃ ad, Leads c a ad ∧ ad.scheme = "https".toList) := by
  rcases conns_spec c a pu cn h with ⟨hk, _, h⟩ | ⟨h, _⟩ | ⟨_, _, h, _⟩ | ⟨_, _, h, _⟩ | ⟨_, h, _⟩
  · rcases h with ⟨_, h, _⟩ | ⟨hp, ad, h1, h2⟩
    · left; rw [h, hn]; rfl
    · by_cases ht : ad.scheme = "https".toList
      · exact Or.inr ⟨hk, hp, ad, h1, ht⟩
      · left
        cases hc : cn.tls with
        | false => rfl
        | true => exact absurd (Or.inr ⟨ht, hn⟩) ((storageConn_tls h2).1.1 hc)
  · exact absurd h hk
  · left; rw [h, hn]; rfl
  · left; rw [h, hn]; rfl
  · left; rw [h, hn]; rfl

/-! ### Servers -/

/-- **C95**, servers: logins and keys go to the configured server; data go there as well, or to a server that it names: for
S3 by a redirect, for Swift by the address in its answer, for Backblaze by a region (always below backblazeb2.com). -/
theorem C95_servers (c : Config) (a : Answers) (pu : Purpose) (cn : Conn) (h : (pu, cn) ∈ connections c a) :
    Configured c cn.host cn.port ∨
    (pu = .data ∧
      ((SwiftLike c.kind ∧ ∃ ad, Leads c a ad ∧ ad.host = some cn.host ∧ cn.port = ad.port.getD (if cn.tls then 443 else 80)) ∨
       (c.kind = .gs ∧ ∃ p, parseGs c.url = some p ∧ cn.host = p.host ∧ cn.port = p.port) ∨
       (c.kind = .s3 ∧ ∃ l, a.location = some l ∧ l.host = some cn.host) ∨
       (c.kind = .b2 ∧ ∃ reg, cn.host = "s3.".toList ++ reg ++ ".backblazeb2.com".toList))) := by
  rcases conns_spec c a pu cn h with ⟨hk, _, h⟩ | ⟨hk, _, _, h⟩ | ⟨_, _, _, _, h⟩ | ⟨hk, _, _, h⟩ | ⟨hk, _, h⟩
  · rcases h with ⟨_, _, h⟩ | ⟨hp, ad, h1, h2⟩
    · exact Or.inl h
    · exact Or.inr ⟨hp, Or.inl ⟨hk, ad, h1, (storageConn_tls h2).2.1, (storageConn_tls h2).2.2.1⟩⟩
  · rcases h with ⟨_, h⟩ | ⟨hp, h⟩
    · exact Or.inl h
    · exact Or.inr ⟨hp, Or.inr (Or.inl ⟨hk, h⟩)⟩
  · exact Or.inl h
  · rcases h with h | ⟨hp, l, h1, h2, _⟩
    · exact Or.inl h
    · exact Or.inr ⟨hp, Or.inr (Or.inr (Or.inl ⟨hk, l, h1, h2⟩))⟩
  · rcases h with ⟨_, _, h⟩ | ⟨hp, _, _, reg, _, h⟩
    · exact Or.inl h
    · exact Or.inr ⟨hp, Or.inr (Or.inr (Or.inr ⟨hk, reg, h⟩))⟩

/-- A catalog entry for object storage in the region, for public use. -/
def Offers (e : Entry) (region : Str) (ad : Addr) : Prop :=
  e.type = "object-store".toList ∧ e.region = region ∧
    (e.publicURL = some ad ∨ (e.publicURL = none ∧ e.interface = "public".toList ∧ e.url = ad))

/-- **C95**, regions: with Keystone, the storage server is one that the catalog offers in the configured region; and if the
catalog offers one, the first one is used. -/
theorem C95_region (region : Str) (l : List Entry) (ad : Addr) :
    fromCatalog region l = some ad ↔
      ∃ l1 e l2, l = l1 ++ e :: l2 ∧ Offers e region ad ∧ ∀ e' ∈ l1, ∀ ad', ¬ Offers e' region ad' := by
  induction l with
  | nil =>
    constructor
    · intro h; cases h
    · rintro ⟨l1, e, l2, h, _⟩
      exact absurd h (by simp)
  | cons e r ih =>
    have skip : (∀ ad', ¬ Offers e region ad') → fromCatalog region (e :: r) = fromCatalog region r →
        (fromCatalog region (e :: r) = some ad ↔
          ∃ l1 e' l2, e :: r = l1 ++ e' :: l2 ∧ Offers e' region ad ∧ ∀ e'' ∈ l1, ∀ ad', ¬ Offers e'' region ad') := by
      intro hno heq
      rw [heq, ih]
      constructor
      · rintro ⟨l1, e', l2, h1, h2, h3⟩
        refine ⟨e :: l1, e', l2, by rw [h1]; rfl, h2, ?_⟩
        intro e'' he''
        rcases List.mem_cons.1 he'' with rfl | h
        · exact hno
        · exact h3 _ h
      · rintro ⟨l1, e', l2, h1, h2, h3⟩
        cases l1 with
        | nil =>
          obtain ⟨rfl, rfl⟩ := List.cons.inj h1
          exact absurd h2 (hno ad)
        | cons x l1 =>
          obtain ⟨rfl, rfl⟩ := List.cons.inj h1
          exact ⟨l1, e', l2, rfl, h2, fun e'' he'' => h3 e'' (List.mem_cons_of_mem _ he'')⟩
    have hit : ∀ ad0, Offers e region ad0 → fromCatalog region (e :: r) = some ad0 → (∀ ad', Offers e region ad' → ad' = ad0) →
        (fromCatalog region (e :: r) = some ad ↔
          ∃ l1 e' l2, e :: r = l1 ++ e' :: l2 ∧ Offers e' region ad ∧ ∀ e'' ∈ l1, ∀ ad', ¬ Offers e'' region ad') := by
      intro ad0 ho heq hu
      rw [heq]
      constructor
      · intro h
        cases h
        exact ⟨[], e, r, rfl, ho, fun _ h => nomatch h⟩
      · rintro ⟨l1, e', l2, h1, h2, h3⟩
        cases l1 with
        | nil =>
          obtain ⟨rfl, rfl⟩ := List.cons.inj h1
          rw [hu ad h2]
        | cons x l1 =>
          obtain ⟨rfl, rfl⟩ := List.cons.inj h1
          exact absurd ho (h3 _ List.mem_cons_self ad0)
    by_cases h1 : e.type = "object-store".toList
    · by_cases h2 : e.region = region
      · cases h3 : e.publicURL with
        | some ad0 =>
          refine hit ad0 ⟨h1, h2, Or.inl h3⟩ ?_ ?_
          · unfold fromCatalog
            rw [if_neg (fun h => h h1), if_neg (fun h => h h2), h3]
          · rintro ad' ⟨_, _, h | h⟩
            · rw [h3] at h; exact (Option.some.inj h).symm
            · rw [h3] at h; cases h.1
        | none =>
          by_cases h4 : e.interface = "public".toList
          · refine hit e.url ⟨h1, h2, Or.inr ⟨h3, h4, rfl⟩⟩ ?_ ?_
            · unfold fromCatalog
              rw [if_neg (fun h => h h1), if_neg (fun h => h h2), h3]
              dsimp only
              rw [if_neg (fun h => h h4)]
            · rintro ad' ⟨_, _, h | h⟩
              · rw [h3] at h; cases h
              · exact h.2.2.symm
          · refine skip ?_ ?_
            · rintro ad' ⟨_, _, h | h⟩
              · rw [h3] at h; cases h
              · exact h4 h.2.1
            · conv => lhs; unfold fromCatalog
              rw [if_neg (fun h => h h1), if_neg (fun h => h h2), h3]
              dsimp only
              rw [if_pos h4]
      · refine skip (fun ad' h => h2 h.2.1) ?_
        conv => lhs; unfold fromCatalog
        rw [if_neg (fun h => h h1), if_pos h2]
    · refine skip (fun ad' h => h1 h.1) ?_
      conv => lhs; unfold fromCatalog
      rw [if_pos h1]

/-! ### The network -/

/-- **C95**, connecting: before anything is sent on an encrypted connection, TLS is established for the name of the server,
whether there is a proxy or not. -/
theorem C95_tls_first (c : Conn) (h : c.tls = true) : (connect c).getLast? = some (.startTls c.host) := by
  unfold connect
  cases hp : c.proxy <;> simp [h]

/-- **C95**, connecting: there is one TCP connection, to the proxy if there is one; on unencrypted connections there is nothing
else. -/
theorem C95_tcp (c : Conn) :
    (connect c).head? = some (match c.proxy with | some p => .tcp p.1 p.2 | none => .tcp c.host c.port) ∧
    (∀ s ∈ (connect c).tail, c.tls = true ∧ (s = .tunnel c.host c.port ∧ c.proxy.isSome ∨ s = .startTls c.host)) := by
  unfold connect
  cases hp : c.proxy <;> cases ht : c.tls <;> simp

/-! ### Proxies -/

theorem host_take (host : Str) (hh : ∀ c ∈ host, isHostChar c = true) (port : Option Nat) (slash : Bool) :
    (hostPart host port ++ (if slash then ['/'] else [])).takeWhile isHostChar = host ∧
    (hostPart host port ++ (if slash then ['/'] else [])).dropWhile isHostChar =
      (match port with | some n => ':' :: decStr n | none => []) ++ (if slash then ['/'] else []) := by
  unfold hostPart
  rw [List.append_assoc]
  refine take_stop _ host _ hh ?_
  intro c hc
  cases port with
  | some n => cases hc; decide
  | none =>
    cases slash with
    | true => cases hc; decide
    | false => cases hc

/-- A host name, with or without port, does not look like `http://...`. -/
theorem no_scheme (s : Str) (hs : ∀ c ∈ s, isHostChar c = true) (host : Str) (hh : ∀ c ∈ host, isHostChar c = true)
    (port : Option Nat) (slash : Bool) :
    stripPrefix (s ++ "://".toList) (hostPart host port ++ (if slash then ['/'] else [])) = none := by
  cases h : stripPrefix (s ++ "://".toList) (hostPart host port ++ (if slash then ['/'] else [])) with
  | none => rfl
  | some r =>
    exfalso
    have e := stripPrefix_some h
    have k1 := host_take host hh port slash
    have k2 := take_stop isHostChar s (':' :: '/' :: '/' :: r) hs (by intro c hc; cases hc; decide)
    have e' : s ++ "://".toList ++ r = s ++ (':' :: '/' :: '/' :: r) := by simp
    rw [e, e', k2.2] at k1
    have k := k1.2
    cases port with
    | none =>
      cases slash with
      | true => exact absurd (List.cons.inj k).1 (by decide)
      | false => cases k
    | some n =>
      have k3 := (List.cons.inj k).2
      cases hd : decStr n with
      | nil => exact decStr_ne_nil n hd
      | cons d ds =>
        have k4 : '/' :: '/' :: r = decStr n ++ (if slash then ['/'] else []) := k3
        rw [hd] at k4
        have hd' := decStr_digit n d (by rw [hd]; exact List.mem_cons_self)
        rw [← (List.cons.inj k4).1] at hd'
        exact absurd hd' (by decide)

theorem parseProxy_core (host : Str) (hh : host ≠ [] ∧ ∀ c ∈ host, isHostChar c = true) (port : Option Nat) (slash : Bool) :
    proxyHost (hostPart host port ++ (if slash then ['/'] else [])) = some (host, port.getD 80) := by
  obtain ⟨h1, h2⟩ := host_take host hh.2 port slash
  unfold proxyHost
  rw [h1, h2]
  cases hc : host with
  | nil => exact absurd hc hh.1
  | cons c t =>
    cases port with
    | none => cases slash <;> rfl
    | some n =>
      have key := take_stop isDigit (decStr n) (if slash then ['/'] else []) (decStr_digit n)
        (by intro c hc; cases slash with | true => cases hc; decide | false => cases hc)
      show (match (decStr n ++ (if slash then ['/'] else [])).takeWhile isDigit with
        | [] => none
        | ds => if proxyEnd ((decStr n ++ (if slash then ['/'] else [])).dropWhile isDigit) then (parseDigits 8 ds).map (fun n => (c :: t, n)) else none) = _
      rw [key.1, key.2]
      cases hd : decStr n with
      | nil => exact absurd hd (decStr_ne_nil n)
      | cons d ds =>
        dsimp only
        rw [if_pos (by cases slash <;> rfl), ← hd, parse_decStr]
        rfl

/-- **C95**, proxies: settings `[http[s]://]host[:port][/]` mean what they say; the default port is 80. -/
theorem C95_proxy_setting (scheme : Str) (hs : scheme = [] ∨ scheme = "http://".toList ∨ scheme = "https://".toList)
    (host : Str) (hh : host ≠ [] ∧ ∀ c ∈ host, isHostChar c = true) (port : Option Nat) (slash : Bool) :
    parseProxy (scheme ++ (hostPart host port ++ (if slash then ['/'] else []))) = some (host, port.getD 80) := by
  have n1 := no_scheme "https".toList (by decide) host hh.2 port slash
  have n2 := no_scheme "http".toList (by decide) host hh.2 port slash
  have core := parseProxy_core host hh port slash
  generalize hostPart host port ++ (if slash then ['/'] else []) = x at *
  have hstrip : dropHttp (scheme ++ x) = x := by
    unfold dropHttp
    rcases hs with rfl | rfl | rfl
    · rw [List.nil_append]
      rw [show stripPrefix "https://".toList x = none from n1]
      dsimp only
      rw [show stripPrefix "http://".toList x = none from n2]
      rfl
    · have : stripPrefix "https://".toList ("http://".toList ++ x) = none := rfl
      rw [this]
      dsimp only
      rw [stripPrefix_append]
      rfl
    · rw [stripPrefix_append]
  unfold parseProxy
  rw [hstrip]
  exact core

/-- A connection uses the proxy that the setting names, or none if there is no setting. -/
def FromSetting (setting : Option Str) (cn : Conn) : Prop :=
  (setting = none ∧ cn.proxy = none) ∨ ∃ s q, setting = some s ∧ parseProxy s = some q ∧ cn.proxy = some q

def UsesProxy (env : Env) (cn : Conn) : Prop :=
  (cn.tls = true → FromSetting env.https cn) ∧ (cn.tls = false → FromSetting env.http cn)

/-- **C95**, proxies, in full: connections use the proxy for their kind, encrypted ones that of `https_proxy` and others that
of `http_proxy` (as the manual says). -/
def C95_proxy_statement : Prop :=
  ∀ (c : Config) (a : Answers) (pu : Purpose) (cn : Conn), (pu, cn) ∈ connections c a → UsesProxy c.env cn

theorem usesProxy (env : Env) (cn : Conn) (b : Bool) (hb : cn.tls = b) (h : getProxy env b = some cn.proxy) : UsesProxy env cn := by
  unfold getProxy at h
  unfold UsesProxy
  rw [hb]
  cases b with
  | true =>
    refine ⟨fun _ => ?_, (fun hf => nomatch hf)⟩
    simp only [if_pos] at h
    cases he : env.https with
    | none => rw [he] at h; exact Or.inl ⟨rfl, (Option.some.inj h).symm⟩
    | some s =>
      rw [he] at h
      obtain ⟨q, h1, h2⟩ := Option.map_eq_some_iff.1 h
      exact Or.inr ⟨s, q, rfl, h1, h2.symm⟩
  | false =>
    refine ⟨(fun hf => nomatch hf), fun _ => ?_⟩
    simp only [Bool.false_eq_true, if_false] at h
    cases he : env.http with
    | none => rw [he] at h; exact Or.inl ⟨rfl, (Option.some.inj h).symm⟩
    | some s =>
      rw [he] at h
      obtain ⟨q, h1, h2⟩ := Option.map_eq_some_iff.1 h
      exact Or.inr ⟨s, q, rfl, h1, h2.symm⟩

/-- **C95**, proxies, as far as it holds: for all connections except the login to Backblaze and unencrypted ones for Swift. -/
theorem C95_proxy_partial (c : Config) (a : Answers) (pu : Purpose) (cn : Conn) (h : (pu, cn) ∈ connections c a)
    (h1 : ¬ (c.kind = .b2 ∧ pu = .login)) (h2 : SwiftLike c.kind → cn.tls = true) : UsesProxy c.env cn := by
  rcases conns_spec c a pu cn h with ⟨hk, hp, _⟩ | ⟨_, hp, ht, _⟩ | ⟨_, hp, ht, _⟩ | ⟨_, hp, ht, _⟩ | ⟨hk, ht, h⟩
  · exact usesProxy _ _ _ (h2 hk) hp
  · exact usesProxy _ _ _ ht hp
  · exact usesProxy _ _ _ ht hp
  · exact usesProxy _ _ _ ht hp
  · rcases h with ⟨hp, _⟩ | ⟨_, hp, _⟩
    · exact absurd ⟨hk, hp⟩ h1
    · exact usesProxy _ _ _ ht hp

def demoEnv : Env := { http := some "http://plain:3128".toList, https := some "secure:8080".toList }

def demoAnswers : Answers :=
  { location := none, s3ApiHost := "s3.eu-central-003.backblazeb2.com".toList,
    storageUrl := { scheme := "http".toList, host := some "store".toList, port := none },
    catalog := [] }

def demoB2 : Config :=
  { kind := .b2, url := "b2://mybucket/fs".toList, noSsl := false, env := demoEnv, valid := fun _ => true }

def demoSwift : Config :=
  { kind := .swift, url := "swift://auth.example.com/box/fs".toList, noSsl := true, env := demoEnv, valid := fun _ => true }

/-- The property is violated: the login to Backblaze ignores the proxy. -/
theorem C95_b2_proxy : (connections demoB2 demoAnswers).head? = some (.login, { host := "api.backblazeb2.com".toList, port := 443, tls := true, proxy := none }) ∧
    getProxy demoEnv true = some (some ("secure".toList, 8080)) := by decide +kernel

/-- ... and unencrypted connections for Swift use the proxy for encrypted ones.  Also, without encryption the login goes to
port 443 if the URL names no port. -/
theorem C95_swift_plain : connections demoSwift demoAnswers =
    [(.login, { host := "auth.example.com".toList, port := 443, tls := false, proxy := some ("secure".toList, 8080) }),
     (.data, { host := "store".toList, port := 80, tls := false, proxy := some ("secure".toList, 8080) })] := by decide +kernel

theorem C95_proxy_violated : ¬ C95_proxy_statement := by
  intro h
  have := h demoSwift demoAnswers .data _ (by rw [C95_swift_plain]; exact List.mem_cons_of_mem _ List.mem_cons_self)
  rcases this.2 rfl with h | ⟨s, q, h1, h2, h3⟩
  · cases h.1
  · have hs : demoEnv.http = some s := h1
    have : parseProxy "http://plain:3128".toList = some q := by
      have : s = "http://plain:3128".toList := (Option.some.inj hs).symm
      rw [← this]; exact h2
    rw [show parseProxy "http://plain:3128".toList = some ("plain".toList, 3128) by decide +kernel] at this
    cases this
    revert h3
    decide +kernel

/-- `no-ssl` with Backblaze: login and key are sent in clear to a port where only encrypted connections are understood. -/
theorem C95_b2_no_ssl : (connections { demoB2 with noSsl := true } demoAnswers).head? =
    some (.login, { host := "api.backblazeb2.com".toList, port := 443, tls := false, proxy := none }) := by decide +kernel

/-! ### Examples -/

/-- The hypotheses of the theorems about connections: two connections to Backblaze. -/
example : connections demoB2 demoAnswers =
    [(.login, { host := "api.backblazeb2.com".toList, port := 443, tls := true, proxy := none }),
     (.data, { host := "s3.eu-central-003.backblazeb2.com".toList, port := 443, tls := true, proxy := some ("secure".toList, 8080) })] := by
  decide +kernel

/-- The hypotheses of the theorems about URLs. -/
example : Scheme "s3c".toList ∧ HostName "s3.example.com".toList ∧ BucketName "box".toList ∧ Prefix (some "a/b".toList) ∧
    hostUrl "s3c".toList "s3.example.com".toList (some 8443) "box".toList (some "a/b".toList) =
      "s3c://s3.example.com:8443/box/a/b".toList := by
  refine ⟨⟨by decide, by decide⟩, ⟨by decide, by decide⟩, ⟨by decide, by decide⟩, ?_, by decide +kernel⟩
  intro s hs
  cases hs
  decide

end Verif.Backend.Endpoint
