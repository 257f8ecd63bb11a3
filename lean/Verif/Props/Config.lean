import Verif.ServerStart
import Verif.Props.Session
import Verif.Props.Connection

/-
C40 (a generated configuration opens), C41 (printing it), C52 (from a generated configuration to an unlocked client),
C53 (the connection URL leads back to the socket and the key).
-/
namespace Lair

variable {C : Crypto}

/-! ### C40 -/

/-- C40. A generated configuration opens with its passphrase, to exactly the secrets it was made with. -/
theorem C40_generated_config_opens (L : C.Lawful) {root canon pass : Bytes} {limits : PwHashLimits} {r : ConfigRand} {cfg : Config}
    (h : Config.new C L root canon pass limits r = some cfg) :
    cfg.unlock C pass = some ⟨r.contextKey, C.xPk r.idSeed, C.xSk r.idSeed⟩ := by
  unfold Config.new at h
  split at h
  · cases h
  · rename_i pre hpre
    cases h
    unfold Config.unlock
    simp only [hpre, SecretSized.decrypt_encrypt]

/-- C40. Generating fails only if the password hash does. -/
theorem C40_generation_succeeds (L : C.Lawful) (root canon pass : Bytes) (limits : PwHashLimits) (r : ConfigRand) :
    (∃ cfg, Config.new C L root canon pass limits r = some cfg) ↔
      ∃ pre, C.argon2id (C.blake2b64 pass).val r.salt limits.ops limits.mem = some pre := by
  unfold Config.new
  constructor
  · rintro ⟨cfg, h⟩
    split at h
    · cases h
    · rename_i pre hpre; exact ⟨pre, hpre⟩
  · rintro ⟨pre, hpre⟩
    simp only [hpre]
    exact ⟨_, rfl⟩

/-- The path has none of the bytes that end the path part of a URL or are dropped from it. -/
def UrlSafe (p : Bytes) : Prop := ∀ x ∈ p, x ≠ 0x23 ∧ x ≠ 0x3f ∧ x ≠ 9 ∧ x ≠ 10 ∧ x ≠ 13

theorem UrlSafe.ok {p : Bytes} (h : UrlSafe p) : ∀ x ∈ p, x ≠ 0x23 ∧ x ≠ 0x3f ∧ Url.dropped x = false := by
  intro x hx
  obtain ⟨h1, h2, h3, h4, h5⟩ := h x hx
  exact ⟨h1, h2, by simp [Url.dropped, h3, h4, h5]⟩

theorem UrlSafe.push {p : Bytes} (h : UrlSafe p) : UrlSafe (pushPath p "socket") := by
  have hs : UrlSafe (Mp.utf8 "socket") := by unfold UrlSafe; decide +kernel
  intro x hx
  unfold pushPath at hx
  split at hx
  · rcases List.mem_append.1 hx with hx | hx
    · exact h x hx
    · exact hs x hx
  · simp only [List.mem_append, List.mem_cons] at hx
    rcases hx with hx | rfl | hx
    · exact h x hx
    · decide
    · exact hs x hx

theorem generated_url (L : C.Lawful) {root canon pass : Bytes} {limits : PwHashLimits} {r : ConfigRand} {cfg : Config}
    (h : Config.new C L root canon pass limits r = some cfg) (hs : UrlSafe canon) :
    cfg.url = { path := Url.pctEncode Url.pathSet (pushPath canon "socket"),
                query := some (Url.pctEncode Url.querySet (Mp.utf8 "k=" ++ Mp.utf8 (Base64.toText (C.xPk r.idSeed).val))) } := by
  unfold Config.new at h
  split at h
  · cases h
  · cases h
    have e : Mp.utf8 "?k=" = 0x3f :: Mp.utf8 "k=" := by decide +kernel
    have hk : ∀ x ∈ Mp.utf8 "k=", x ≠ 0x23 ∧ Url.dropped x = false := by decide +kernel
    simp only
    rw [e, List.append_assoc, List.cons_append, Url.ofText_query hs.push.ok]
    intro x hx
    rcases List.mem_append.1 hx with hx | hx
    · exact hk x hx
    · have := Url.toText_plain _ x hx
      simp only [Url.plain, Bool.and_eq_true, Bool.not_eq_true', bne_iff_ne, ne_eq] at this
      exact ⟨this.1.1.1.1.2, this.1.1.1.1.1.2⟩

/-- C40. The server's identity, once started with the passphrase, is the key a client reads from the connection URL - also
    after the URL was written to the configuration file and read back. -/
theorem C40_identity_is_in_url (L : C.Lawful) {root canon pass : Bytes} {limits : PwHashLimits} {r : ConfigRand} {cfg : Config}
    (h : Config.new C L root canon pass limits r = some cfg) (hs : UrlSafe canon) :
    ∃ keys, cfg.unlock C pass = some keys ∧ cfg.url.serverPubKey = some keys.idPk ∧
      (Url.ofText cfg.url.text).serverPubKey = some keys.idPk := by
  have hk : cfg.url.serverPubKey = some (C.xPk r.idSeed) := by
    rw [generated_url L h hs]; exact Url.serverPubKey_of_query _ _
  refine ⟨_, C40_generated_config_opens L h, hk, ?_⟩
  have : Url.ofText cfg.url.text = cfg.url := by
    have : ∃ t, cfg.url = Url.ofText t := by
      unfold Config.new at h
      split at h
      · cases h
      · cases h; exact ⟨_, rfl⟩
    obtain ⟨t, ht⟩ := this
    rw [ht, Url.ofText_text]
  rw [this]; exact hk

/-- C40. Exactly the passphrases whose derived secrets authenticate both stored secrets are accepted. -/
theorem C40_accepted_iff_authenticates (cfg : Config) (pass : Bytes) :
    (∃ keys, cfg.unlock C pass = some keys) ↔
      ∃ pre ctx seed : B 32, C.argon2id (C.blake2b64 pass).val cfg.salt cfg.ops cfg.mem = some pre ∧
        C.ssDec (C.kdf pre 42 "CtxSecKy") cfg.contextKey.hdr cfg.contextKey.cipher.val = some ctx.val ∧
        C.ssDec (C.kdf pre 142 "IdnSecKy") cfg.idSeed.hdr cfg.idSeed.cipher.val = some seed.val := by
  have hd : ∀ (k : B 32) (s : SecretSized 49) (x : B 32), s.decrypt (m := 32) C k = some x ↔ C.ssDec k s.hdr s.cipher.val = some x.val := by
    intro k s x
    unfold SecretSized.decrypt
    cases hc : C.ssDec k s.hdr s.cipher.val with
    | none => simp
    | some b =>
      simp only [B.ofBytes?]
      split
      · rename_i hl
        constructor
        · intro h; cases h; rfl
        · intro h; cases h; rfl
      · rename_i hl
        constructor
        · intro h; cases h
        · intro h; cases h; exact absurd x.len hl
  unfold Config.unlock
  constructor
  · rintro ⟨keys, h⟩
    split at h
    · cases h
    · rename_i pre hpre
      split at h
      · cases h
      · rename_i ctx hctx
        split at h
        · cases h
        · rename_i seed hseed
          exact ⟨pre, ctx, seed, hpre, (hd _ _ _).1 hctx, (hd _ _ _).1 hseed⟩
  · rintro ⟨pre, ctx, seed, hpre, hctx, hseed⟩
    simp only [hpre, (hd _ _ _).2 hctx, (hd _ _ _).2 hseed]
    exact ⟨_, rfl⟩

/-- C40. If another passphrase opens a generated configuration, then it exhibits a failure of a primitive: a collision of
    the hash, of the password hash or of the key derivation, or a ciphertext that two different keys open. -/
theorem C40_other_passphrase (L : C.Lawful) {root canon pass pass' : Bytes} {limits : PwHashLimits} {r : ConfigRand} {cfg : Config}
    (h : Config.new C L root canon pass limits r = some cfg) {keys : SrvKeys} (h' : cfg.unlock C pass' = some keys)
    (hne : pass' ≠ pass) :
    (∃ a b, a ≠ b ∧ C.blake2b64 a = C.blake2b64 b) ∨
    (∃ a b pre, a ≠ b ∧ C.argon2id a r.salt limits.ops limits.mem = some pre ∧ C.argon2id b r.salt limits.ops limits.mem = some pre) ∨
    (∃ a b, a ≠ b ∧ C.kdf a 142 "IdnSecKy" = C.kdf b 142 "IdnSecKy") ∨
    (∃ k k' hdr m m', k ≠ k' ∧ C.ssDec k hdr (C.ssEnc k hdr m) = some m ∧ C.ssDec k' hdr (C.ssEnc k hdr m) = some m') := by
  obtain ⟨pre', ctx, seed, h1, h2, h3⟩ := (C40_accepted_iff_authenticates cfg pass').1 ⟨keys, h'⟩
  unfold Config.new at h
  split at h
  · cases h
  · rename_i pre hpre
    cases h
    simp only at h1 h2 h3
    by_cases hb : C.blake2b64 pass' = C.blake2b64 pass
    · exact Or.inl ⟨_, _, hne, hb⟩
    · have hbv : (C.blake2b64 pass').val ≠ (C.blake2b64 pass).val := fun e => hb (B.ext e)
      by_cases hp : pre' = pre
      · subst hp
        exact Or.inr (Or.inl ⟨_, _, _, hbv, h1, hpre⟩)
      · by_cases hkd : C.kdf pre' 142 "IdnSecKy" = C.kdf pre 142 "IdnSecKy"
        · exact Or.inr (Or.inr (Or.inl ⟨_, _, hp, hkd⟩))
        · exact Or.inr (Or.inr (Or.inr ⟨_, _, _, _, _, fun e => hkd e.symm, L.ss_dec _ _ _, h3⟩))

/-! ### C53 -/

/-- C53. For a root whose canonical path has no `#`, `?`, `%`, tab or line end, the connection URL leads a client back to the
    very path of the socket - also after it was written to the configuration file and read back. -/
theorem C53_url_leads_to_socket_partial (L : C.Lawful) {root canon pass : Bytes} {limits : PwHashLimits} {r : ConfigRand} {cfg : Config}
    (h : Config.new C L root canon pass limits r = some cfg) (hs : UrlSafe canon) (hp : (0x25 : UInt8) ∉ canon) :
    cfg.url.filePath = pushPath canon "socket" ∧ (Url.ofText cfg.url.text).filePath = pushPath canon "socket" := by
  have hpush : (0x25 : UInt8) ∉ pushPath canon "socket" := by
    have hq : (0x25 : UInt8) ∉ Mp.utf8 "socket" := by decide +kernel
    unfold pushPath
    split
    · simp [hp, hq]
    · simp [hp, hq]
  have hu := generated_url L h hs
  have h1 : cfg.url.filePath = pushPath canon "socket" := by
    rw [hu]; exact Url.pctDecode_pctEncode _ _ hpush
  refine ⟨h1, ?_⟩
  have : Url.ofText cfg.url.text = cfg.url := by
    have : ∃ t, cfg.url = Url.ofText t := by
      unfold Config.new at h
      split at h
      · cases h
      · cases h; exact ⟨_, rfl⟩
    obtain ⟨t, ht⟩ := this
    rw [ht, Url.ofText_text]
  rw [this]; exact h1

/-- C53. The files of a generated configuration lie directly in the given directory under names of their own: no two of the pid file,
    the store, the write-ahead log and shared memory of the store, the socket and the configuration file are ever the same. -/
theorem C53_files_apart (L : C.Lawful) {root canon pass : Bytes} {limits : PwHashLimits} {r : ConfigRand} {cfg : Config}
    (h : Config.new C L root canon pass limits r = some cfg) :
    cfg.pidFile = pushPath root "pid_file" ∧ cfg.storeFile = pushPath root "store_file" ∧
    (∀ p : Bytes, ["pid_file", "store_file", "store_file-wal", "store_file-shm", "socket", "lair-keystore-config.yaml"].Pairwise
      (fun a b => pushPath p a ≠ pushPath p b)) ∧
    cfg.storeFile ++ Mp.utf8 "-wal" = pushPath root "store_file-wal" ∧ cfg.storeFile ++ Mp.utf8 "-shm" = pushPath root "store_file-shm" := by
  have h1 : cfg.pidFile = pushPath root "pid_file" ∧ cfg.storeFile = pushPath root "store_file" := by
    unfold Config.new at h
    split at h
    · cases h
    · cases h; exact ⟨rfl, rfl⟩
  have hinj : ∀ (p : Bytes) (a b : String), pushPath p a = pushPath p b → Mp.utf8 a = Mp.utf8 b := by
    intro p a b e
    unfold pushPath at e
    split at e <;> simpa using e
  have happ : ∀ (p : Bytes) (a c : String) (b : Bytes), Mp.utf8 a ++ b = Mp.utf8 c → pushPath p a ++ b = pushPath p c := by
    intro p a c b e
    unfold pushPath
    split <;> simp [← e]
  refine ⟨h1.1, h1.2, ?_, ?_, ?_⟩
  · intro p
    refine List.Pairwise.imp (fun {a b} (h : Mp.utf8 a ≠ Mp.utf8 b) e => h (hinj p a b e)) ?_
    decide +kernel
  · rw [h1.2]; exact happ _ _ _ _ (by decide +kernel)
  · rw [h1.2]; exact happ _ _ _ _ (by decide +kernel)

/-- C53. Reading any URL back from its text changes nothing. -/
theorem C53_url_survives_file (t : Bytes) : Url.ofText (Url.ofText t).text = Url.ofText t := Url.ofText_text t

/-- SPECIFICATION: the characters of a URL's path and query (RFC 3986, and the URL standard's percent-encode sets): visible ASCII without the
    delimiters. -/
def UrlPathChar (b : UInt8) : Prop := 0x20 < b.toNat ∧ b.toNat < 0x7f ∧ b ∉ ([0x22, 0x23, 0x3c, 0x3e, 0x3f, 0x60, 0x7b, 0x7d] : Bytes)
def UrlQueryChar (b : UInt8) : Prop := 0x20 < b.toNat ∧ b.toNat < 0x7f ∧ b ∉ ([0x22, 0x23, 0x3c, 0x3e] : Bytes)

theorem pctEncode_chars {set : UInt8 → Bool} (h0 : set 0x25 = false) (hd : ∀ n : Fin 16, set (Url.hexDigit n.val) = false) (t : Bytes) :
    ∀ b ∈ Url.pctEncode set t, set b = false := by
  induction t with
  | nil => simp [Url.pctEncode]
  | cons c t ih =>
    intro b hb
    unfold Url.pctEncode at hb
    split at hb
    · have hc := c.toNat_lt
      simp only [List.mem_cons] at hb
      rcases hb with rfl | rfl | rfl | hb
      · exact h0
      · exact hd ⟨c.toNat / 16, by omega⟩
      · exact hd ⟨c.toNat % 16, by omega⟩
      · exact ih b hb
    · rename_i hc
      rcases List.mem_cons.1 hb with rfl | hb
      · simpa using hc
      · exact ih b hb

/-- C53. Whatever the root directory is called, the URL in the configuration consists of legal URL characters only. -/
theorem C53_url_is_legal (t : Bytes) : (∀ b ∈ (Url.ofText t).path, UrlPathChar b) ∧ ∀ q, (Url.ofText t).query = some q → ∀ b ∈ q, UrlQueryChar b := by
  refine ⟨fun b hb => ?_, fun q hq b hb => ?_⟩
  · have := pctEncode_chars (set := Url.pathSet) rfl (by decide +kernel) _ b hb
    simp only [Url.pathSet, Bool.or_eq_false_iff, decide_eq_false_iff_not, beq_eq_false_iff_ne, ne_eq] at this
    simp only [UrlPathChar, List.mem_cons, List.not_mem_nil, or_false, not_or]
    refine ⟨by omega, by omega, ?_⟩
    simp [this]
  · unfold Url.ofText at hq
    simp only at hq
    split at hq
    · cases hq
    · cases hq
      have := pctEncode_chars (set := Url.querySet) rfl (by decide +kernel) _ b hb
      simp only [Url.querySet, Bool.or_eq_false_iff, decide_eq_false_iff_not, beq_eq_false_iff_ne, ne_eq] at this
      simp only [UrlQueryChar, List.mem_cons, List.not_mem_nil, or_false, not_or]
      refine ⟨by omega, by omega, ?_⟩
      simp [this]

example : (Url.ofText (Mp.utf8 "/my <dir>/s?k=a b")).text = Mp.utf8 "/my%20%3Cdir%3E/s?k=a%20b" := by decide +kernel

/-- A byte written as `%` and two hexadecimal digits, each in upper (`true`) or lower case. -/
def pctByte (u v : Bool) (b : UInt8) : Bytes :=
  [0x25, digit u (b.toNat / 16), digit v (b.toNat % 16)]
where
  digit (upper : Bool) (n : Nat) : UInt8 := if n < 10 then UInt8.ofNat (48 + n) else UInt8.ofNat ((if upper then 55 else 87) + n)

theorem hexVal_digit (u : Bool) {n : Nat} (h : n < 16) : Url.hexVal (pctByte.digit u n) = some n := by
  have : ∀ (u : Bool) (m : Fin 16), Url.hexVal (pctByte.digit u m.val) = some m.val := by decide +kernel
  exact this u ⟨n, h⟩

/-- The hexadecimal digits. -/
def hexChars : List UInt8 := Mp.utf8 "0123456789abcdefABCDEF"

theorem hexVal_mem {b : UInt8} {n : Nat} (h : Url.hexVal b = some n) : b ∈ hexChars := by
  have : ∀ i : Fin 256, (Url.hexVal (UInt8.ofNat i.val)).isSome = true → UInt8.ofNat i.val ∈ hexChars := by decide +kernel
  have hb := this ⟨b.toNat, b.toNat_lt⟩
  simp only [UInt8.ofNat_toNat] at hb
  exact hb (by rw [h]; rfl)

/-- C53. A `%` that is not followed by two hexadecimal digits stands for itself: a path without any others is taken as it is. -/
theorem C53_stray_percent (p : Bytes) (q : Option Bytes)
    (hp : ∀ (i : Nat) (a b : UInt8), p[i]? = some 0x25 → p[i + 1]? = some a → p[i + 2]? = some b → a ∈ hexChars → b ∉ hexChars) :
    (Url.mk p q).filePath = p := by
  unfold Url.filePath
  simp only
  induction p with
  | nil => simp [Url.pctDecode]
  | cons x rest ih =>
    have ih := ih (fun i a b h1 h2 h3 => hp (i + 1) a b (by simpa using h1) (by simpa using h2) (by simpa using h3))
    by_cases hx : x = 0x25
    · subst hx
      rw [Url.pctDecode.eq_def]
      split
      · rename_i a b r he
        injection he with _ he
        subst he
        split
        · rename_i u v hu hv
          exact absurd (hexVal_mem hv) (hp 0 a b rfl rfl rfl (hexVal_mem hu))
        · rw [ih]
      · rename_i he
        injection he with h1 h2
        rw [← h1, ← h2, ih]
      · rename_i he; cases he
    · rw [Url.pctDecode_plain hx, ih]

/-- `%4G` and a `%` at the end. -/
example : (Url.mk (Mp.utf8 "/a%4G/b%") none).filePath = Mp.utf8 "/a%4G/b%" := by decide +kernel

example : ∀ (i : Nat) (a b : UInt8), (Mp.utf8 "/%4G%")[i]? = some 0x25 → (Mp.utf8 "/%4G%")[i + 1]? = some a → (Mp.utf8 "/%4G%")[i + 2]? = some b →
    a ∈ hexChars → b ∉ hexChars := by
  intro i a b h1 h2 h3
  have hu : Mp.utf8 "/%4G%" = [47, 37, 52, 71, 37] := by decide +kernel
  rw [hu] at h1 h2 h3
  match i with
  | 0 => simp at h1
  | 1 => simp at h2 h3; subst h2 h3; decide +kernel
  | 2 => simp at h1
  | 3 => simp at h1
  | i + 4 => simp at h2

/-- C53. A URL in which any of the bytes of the path are percent-encoded, the hexadecimal digits in any mixture of upper and lower
    case, leads to the same path: the list says for each byte whether and how it is encoded. -/
theorem C53_percent_spellings (l : List (UInt8 × Option (Bool × Bool))) (q : Option Bytes)
    (hl : ∀ p ∈ l, p.2 = none → p.1 ≠ 0x25) :
    (Url.mk (l.flatMap (fun p => match p.2 with | none => [p.1] | some (u, v) => pctByte u v p.1)) q).filePath = l.map Prod.fst := by
  unfold Url.filePath
  simp only
  induction l with
  | nil => simp [Url.pctDecode]
  | cons p ps ih =>
    have ih := ih (fun p' hp' => hl p' (List.mem_cons_of_mem _ hp'))
    obtain ⟨b, w⟩ := p
    cases w with
    | none =>
      have hb := hl (b, none) (List.mem_cons_self ..) rfl
      simp only [List.flatMap_cons, List.map_cons, List.cons_append, List.nil_append]
      rw [Url.pctDecode_plain hb, ih]
    | some w =>
      obtain ⟨u, v⟩ := w
      have hb : b.toNat < 256 := b.toNat_lt
      simp only [List.flatMap_cons, List.map_cons]
      rw [show pctByte u v b = [0x25, pctByte.digit u (b.toNat / 16), pctByte.digit v (b.toNat % 16)] from rfl]
      simp only [List.cons_append, List.nil_append]
      rw [Url.pctDecode_escape (hexVal_digit u (by omega)) (hexVal_digit v (by omega)), ih]
      congr 1
      rw [show 16 * (b.toNat / 16) + b.toNat % 16 = b.toNat by omega]
      exact UInt8.ofNat_toNat

example : (Url.mk (Mp.utf8 "/a%2f%2F%c3%A9") none).filePath = Mp.utf8 "/a//é" := by decide +kernel

/-- Random values of the examples. -/
def exRand : ConfigRand := ⟨B.fill 16 1, B.fill 16 2, B.fill 32 3, B.fill 32 4, B.fill 24 5, B.fill 24 6⟩

/-- C53 does not hold in general. A root directory with a `#` in its name: the URL has no key, so no client can connect, and the
    path is cut short. -/
theorem C53_hash_in_root : ∃ cfg, Config.new Toy.crypto Toy.lawful (Mp.utf8 "/a#b") (Mp.utf8 "/a#b") [1] .interactive exRand = some cfg ∧
    cfg.url.serverPubKey = none ∧ cfg.url.filePath = Mp.utf8 "/a" := by
  refine ⟨_, rfl, ?_, ?_⟩ <;> decide +kernel

/-- C53. The server key a client takes from a URL is the value of a query parameter named `k`; a URL without one, or in which it is not 32 bytes in base64,
    has no key, and connecting to it fails. -/
theorem C53_key_is_in_the_url (u : Url) (key : B 32) (h : u.serverPubKey = some key) :
    ∃ v t, (Mp.utf8 "k", v) ∈ u.queryPairs ∧ Mp.ofUtf8 v = some t ∧ Base64.ofTextSized 32 t = some key := by
  unfold Url.serverPubKey at h
  cases hf : u.queryPairs.find? (fun p => p.1 = [0x6b]) with
  | none => rw [hf] at h; cases h
  | some p =>
    rw [hf] at h
    simp only at h
    cases ht : Mp.ofUtf8 p.2 with
    | none => rw [ht] at h; cases h
    | some t =>
      rw [ht] at h
      have h1 := List.find?_some hf
      have h2 := List.mem_of_find?_eq_some hf
      have hk : Mp.utf8 "k" = [0x6b] := by decide +kernel
      refine ⟨p.2, t, ?_, ht, h⟩
      rw [hk]
      have : p.1 = [0x6b] := by simpa using h1
      rw [← this]; exact h2

/-- C53 does not hold in general. A `?` in the name: the first query parameter is not `k`. -/
theorem C53_question_mark_in_root : ∃ cfg, Config.new Toy.crypto Toy.lawful (Mp.utf8 "/a?b") (Mp.utf8 "/a?b") [1] .interactive exRand = some cfg ∧
    cfg.url.serverPubKey = none ∧ cfg.url.filePath = Mp.utf8 "/a" := by
  refine ⟨_, rfl, ?_, ?_⟩ <;> decide +kernel

/-- C53 does not hold in general. A `%` in the name: the socket is looked for - and made - in another directory. -/
theorem C53_percent_in_root : ∃ cfg, Config.new Toy.crypto Toy.lawful (Mp.utf8 "/a%41") (Mp.utf8 "/a%41") [1] .interactive exRand = some cfg ∧
    cfg.url.filePath = Mp.utf8 "/aA/socket" := by
  refine ⟨_, rfl, ?_⟩; decide +kernel

/-- The hypotheses of C40 and C53 are met: a root with a space and a non-ASCII name. -/
example : let canon := Mp.utf8 "/home/m é/lair"
    UrlSafe canon ∧ (0x25 : UInt8) ∉ canon ∧
    ∃ cfg, Config.new Toy.crypto Toy.lawful (Mp.utf8 ".") canon (Mp.utf8 "secret") .interactive exRand = some cfg ∧
      cfg.url.path = Mp.utf8 "/home/m%20%C3%A9/lair/socket" ∧ cfg.pidFile = Mp.utf8 "./pid_file" ∧
      cfg.unlock Toy.crypto (Mp.utf8 "wrong") = none := by
  refine ⟨?_, ?_, _, rfl, ?_, ?_, ?_⟩
  · unfold UrlSafe; decide +kernel
  · decide +kernel
  · decide +kernel
  · decide +kernel
  · decide +kernel

/-! ### C52 -/

/-- C52. The parts fit together. Generate a configuration with a passphrase and start a server from it with that passphrase, on
    any store. Then a client that has the connection URL and the passphrase completes the handshake, and - whatever the other
    connections do in the meantime, as long as the environment injects no failure into its two requests and its identifiers
    leave room in a frame - its hello is answered with the key from the URL, its unlock is accepted, and connecting succeeds. -/
theorem C52_client_connects (L : C.Lawful) {root canon pass : Bytes} {limits : PwHashLimits} {r : ConfigRand} {cfg : Config}
    (hnew : Config.new C L root canon pass limits r = some cfg) (hs : UrlSafe canon) :
    ∃ keys urlKey, cfg.unlock C pass = some keys ∧ (Url.ofText cfg.url.text).serverPubKey = some urlKey ∧
    ∀ (T : SStream) (K : Kx) (_ : K.Lawful C) (cr : ClientRand) (_ : C.IsXPair cr.cboxPk cr.cboxSk) (sr : ServerRand),
    ∃ (reply : Bytes) (srv cli : Session T),
      serverAccept T K keys.idPk keys.idSk sr (clientInit K urlKey cr ++ cr.header.val) = .ok (reply, srv) ∧
      clientFinish T K cr reply = .ok (cr.header.val, cli) ∧
      ∀ (S : StoreModel) (bidi : B 32 → B 32) (name version : String) (encKey decKey : Nat → B 32) (certGen : Nat → CertGen)
        (debugFmt : Msg → String) (c : Nat), decKey c = serverDecKey C srv →
        let E := cfg.env C L keys S bidi name version encKey decKey certGen debugFmt
        ∀ (st : E.S.σ), GoodStore E st → ∀ (evs : List Event) (d₁ d₂ : Done E) (i j : String) (hdr : B 24),
          d₁ ∈ (Sys.run E st evs).done → d₂ ∈ (Sys.run E st evs).done → d₂.conn = c →
          d₁.msg = .req i .hello → d₂.msg = .req j (.unlock (encryptPassphrase C L (clientEncKey C cli) hdr pass)) →
          Ev.fault ∉ (Sys.run E st evs).effects d₂.id →
          sendable (.res i (.hello name version keys.idPk)) = true → sendable d₂.msg = true →
          d₁.wire = [.hello name version urlKey] ∧ d₂.wire = [.unlock] ∧
          ∀ (answers : List Req → Res Msg) (exact : Bool) (ver : String), (exact = true → ver = version) →
            (∀ x ∈ d₁.wire, answers [.hello] = .ok (.res i x)) →
            (∀ x ∈ d₂.wire, answers [.hello, .unlock (encryptPassphrase C L (clientEncKey C cli) hdr pass)] = .ok (.res j x)) →
            ((connectProg C L urlKey exact ver (clientEncKey C cli) hdr pass).run answers []).2 = .ok () := by
  obtain ⟨keys, hk, -, hurl⟩ := C40_identity_is_in_url L hnew hs
  refine ⟨keys, keys.idPk, hk, hurl, ?_⟩
  have hkeys := C40_generated_config_opens L hnew
  rw [hk] at hkeys
  cases hkeys
  intro T K LK cr hcr sr
  obtain ⟨reply, srv, cli, h1, h2, -, -, -, -, h7, -, h9⟩ :=
    C25_handshake_agrees (S := T) L LK (C.xPk r.idSeed) (C.xSk r.idSeed) (L.xpair r.idSeed) cr hcr sr [] []
  simp only [List.append_nil] at h1 h2
  refine ⟨reply, srv, cli, h1, h2, ?_⟩
  intro S bidi name version encKey decKey certGen debugFmt c hdk E st hst evs d₁ d₂ i j hdr hd₁ hd₂ hc hm₁ hm₂ hf hs₁ hs₂
  have hw₁ : d₁.wire = [.hello name version (C.xPk r.idSeed)] := by
    have hs := done_spec hst hd₁
    rw [hm₁] at hs
    rw [done_wire hst hd₁, hs.2, hm₁]
    show deliver i (.ok (.hello name version (C.xPk r.idSeed))) = _
    simp only [deliver, hs₁, if_true]
  have hright : RightPassphrase E d₂.conn (encryptPassphrase C L (clientEncKey C cli) hdr pass) := by
    unfold Config.new at hnew
    split at hnew
    · cases hnew
    · rename_i pre hpre
      cases hnew
      refine ⟨C.blake2b64 pass, pre, r.idSeed, ?_, hpre, ?_, rfl⟩
      · rw [hc]
        show (encryptPassphrase C L (clientEncKey C cli) hdr pass).decrypt (m := 64) C (decKey c) = _
        rw [hdk]; exact h9 hdr pass
      · exact SecretSized.decrypt_encrypt C L _ _ _
  have hw₂ := ((C02_unlock_reply hst evs d₂ hd₂ j _ hm₂).2 hs₂ hright hf).1
  refine ⟨hw₁, hw₂, ?_⟩
  intro answers exact ver hver ha₁ ha₂
  have e₁ := ha₁ (.hello name version (C.xPk r.idSeed)) (by rw [hw₁]; simp)
  have e₂ := ha₂ .unlock (by rw [hw₂]; simp)
  rcases C30_unlock_only_to_verified_server L (C.xPk r.idSeed) exact ver (clientEncKey C cli) hdr pass answers _ _ rfl with
    ⟨-, h4, h5⟩ | ⟨h4, -, -⟩
  · exact h5.2 ⟨j, by rw [h4]; exact e₂⟩
  · exact absurd ⟨i, name, version, e₁, fun h => (hver h).symm⟩ h4

/-- A whole connection on the toy primitives: generate, start, shake hands, say hello, unlock with passphrase `p'`. Gives what
    the server answered. -/
def exConnect (p p' : Bytes) : Option (List (List Resp)) :=
  match Config.new Toy.crypto Toy.lawful (Mp.utf8 "/r") (Mp.utf8 "/r") p .interactive exRand with
  | none => none
  | some cfg =>
    match cfg.unlock Toy.crypto p, cfg.url.serverPubKey with
    | some keys, some urlKey =>
      let cr : ClientRand := ⟨B.fill 32 1, B.fill 32 1, B.fill 32 2, B.fill 32 3, B.fill 24 4⟩
      let sr : ServerRand := ⟨B.fill 32 5, B.fill 32 6, B.fill 24 7⟩
      match serverAccept Toy.stream Toy.kx keys.idPk keys.idSk sr (clientInit Toy.kx urlKey cr ++ cr.header.val) with
      | .error _ => none
      | .ok (reply, srv) =>
        match clientFinish Toy.stream Toy.kx cr reply with
        | .error _ => none
        | .ok (_, cli) =>
          let E := cfg.env Toy.crypto Toy.lawful keys Ex.mem id "lair" "0.6" (fun _ => serverEncKey Toy.crypto srv)
            (fun _ => serverDecKey Toy.crypto srv) (Ex.env false 1).certGen (fun _ => "m")
          let s := Sys.run E MemStore.empty (Ex.serve 0 (.req "a" .hello) 1 ++ Ex.serve 0 (.req "b" (.unlock
            (encryptPassphrase Toy.crypto Toy.lawful (clientEncKey Toy.crypto cli) (B.fill 24 8) p'))) 1)
          some (s.done.map Done.wire)
    | _, _ => none

/-- The hypotheses of C52 are met, and a wrong passphrase is refused. -/
example : exConnect [1, 2] [1, 2] = some [[.hello "lair" "0.6" (B.fill 32 4)], [.unlock]] ∧
    exConnect [1, 2] [1, 3] = some [[.hello "lair" "0.6" (B.fill 32 4)], [.error "decrypt error"]] := by
  decide +kernel

/-! ### C41 -/

/-- Blank and comment lines of a YAML document. -/
def IsRemark (l : Line) : Prop := l = [] ∨ ∃ t, l = '#' :: t

instance (l : Line) : Decidable (IsRemark l) :=
  match l with
  | [] => isTrue (Or.inl rfl)
  | c :: t => if h : c = '#' then isTrue (Or.inr ⟨t, by rw [h]⟩) else isFalse (by rintro (h' | ⟨t', h'⟩); cases h'; cases h'; exact h rfl)

/-- The lines at which a block of comments is put. -/
def IsKeyLine (l : Line) : Prop :=
  ∃ k ∈ ["connectionUrl:", "pidFile:", "storeFile:", "signatureFallback:", "databaseSalt:"], k.toList <+: l

theorem commentsFor_remark (l : Line) : ∀ c ∈ (commentsFor l).map String.toList, IsRemark c ∧ '\n' ∉ c := by
  unfold commentsFor
  split
  · decide +kernel
  · split
    · decide +kernel
    · split
      · decide +kernel
      · split
        · decide +kernel
        · split
          · decide +kernel
          · simp

theorem commentsFor_key {l : Line} (h : commentsFor l ≠ []) : IsKeyLine l ∧ ∃ t ts, commentsFor l = "" :: t :: ts ∧ ∃ t', t.toList = '#' :: t' := by
  unfold commentsFor at h ⊢
  split
  · rename_i hp; exact ⟨⟨_, by simp, List.isPrefixOf_iff_prefix.1 hp⟩, _, _, rfl, _, rfl⟩
  · rw [if_neg (by assumption)] at h
    split
    · rename_i hp; exact ⟨⟨_, by simp, List.isPrefixOf_iff_prefix.1 hp⟩, _, _, rfl, _, rfl⟩
    · rw [if_neg (by assumption)] at h
      split
      · rename_i hp; exact ⟨⟨_, by simp, List.isPrefixOf_iff_prefix.1 hp⟩, _, _, rfl, _, rfl⟩
      · rw [if_neg (by assumption)] at h
        split
        · rename_i hp; exact ⟨⟨_, by simp, List.isPrefixOf_iff_prefix.1 hp⟩, _, _, rfl, _, rfl⟩
        · rw [if_neg (by assumption)] at h
          split
          · rename_i hp; exact ⟨⟨_, by simp, List.isPrefixOf_iff_prefix.1 hp⟩, _, _, rfl, _, rfl⟩
          · rw [if_neg (by assumption)] at h; exact absurd rfl h

theorem splitLines_ne (s : List Char) : splitLines s ≠ [] := by
  cases s with
  | nil => simp [splitLines]
  | cons c cs =>
    simp only [splitLines]
    split
    · simp
    · split <;> simp

theorem splitLines_no_nl (s : List Char) : ∀ l ∈ splitLines s, '\n' ∉ l := by
  induction s with
  | nil => simp [splitLines]
  | cons c cs ih =>
    intro l hl
    simp only [splitLines] at hl
    split at hl
    · simp only [List.mem_cons] at hl
      rcases hl with rfl | hl
      · simp
      · exact ih l hl
    · rename_i hc
      split at hl
      · simp only [List.mem_cons, List.not_mem_nil, or_false] at hl
        subst hl; simpa using Ne.symm hc
      · rename_i p ps hp
        simp only [List.mem_cons] at hl
        rcases hl with rfl | hl
        · have := ih p (by rw [hp]; simp)
          simp only [List.mem_cons, not_or]
          exact ⟨Ne.symm hc, this⟩
        · exact ih l (by rw [hp]; simp [hl])

theorem joinLines_splitLines (s : List Char) : joinLines (splitLines s) = s := by
  induction s with
  | nil => rfl
  | cons c cs ih =>
    simp only [splitLines]
    split
    · rename_i hc
      subst hc
      cases h : splitLines cs with
      | nil => exact absurd h (splitLines_ne cs)
      | cons p ps => rw [h] at ih; simp [joinLines, ih]
    · split
      · rename_i h; exact absurd h (splitLines_ne cs)
      · rename_i p ps h
        rw [h] at ih
        cases ps with
        | nil => simp [joinLines] at ih ⊢; exact ih
        | cons q qs => simp [joinLines] at ih ⊢; exact ih

theorem splitLines_append_nl (l s : List Char) (h : '\n' ∉ l) : splitLines (l ++ '\n' :: s) = l :: splitLines s := by
  induction l with
  | nil => simp [splitLines]
  | cons c cs ih =>
    simp only [List.mem_cons, not_or] at h
    simp only [List.cons_append, splitLines, if_neg (Ne.symm h.1), ih h.2]

theorem splitLines_plain (l : List Char) (h : '\n' ∉ l) : splitLines l = [l] := by
  induction l with
  | nil => rfl
  | cons c cs ih =>
    simp only [List.mem_cons, not_or] at h
    simp only [splitLines, if_neg (Ne.symm h.1), ih h.2]

theorem splitLines_joinLines (ls : List Line) (hne : ls ≠ []) (h : ∀ l ∈ ls, '\n' ∉ l) : splitLines (joinLines ls) = ls := by
  induction ls with
  | nil => exact absurd rfl hne
  | cons l ls ih =>
    cases ls with
    | nil => exact splitLines_plain l (h l (by simp))
    | cons p ps =>
      simp only [joinLines]
      rw [splitLines_append_nl _ _ (h l (by simp)), ih (by simp) (fun x hx => h x (by simp [hx]))]

theorem splitLines_display (y : List Char) : splitLines (display y) = displayLines (splitLines y) := by
  have hnl := splitLines_no_nl y
  have hne := splitLines_ne y
  unfold display
  apply splitLines_joinLines
  · cases h : splitLines y with
    | nil => exact absurd h hne
    | cons l ls => simp [displayLines]
  · generalize splitLines y = ls at hnl
    have hdec : ∀ ls : List Line, (∀ l ∈ ls, '\n' ∉ l) → ∀ l ∈ decorate ls, '\n' ∉ l := by
      intro ls hls
      induction ls with
      | nil => simp [decorate]
      | cons x xs ih =>
        intro l hl
        simp only [decorate, List.mem_append, List.mem_cons] at hl
        rcases hl with hl | rfl | hl
        · exact (commentsFor_remark x l hl).2
        · exact hls _ (by simp)
        · exact ih (fun l hl => hls l (by simp [hl])) l hl
    cases ls with
    | nil => simp [displayLines]
    | cons x xs =>
      intro l hl
      simp only [displayLines, List.mem_cons] at hl
      rcases hl with rfl | hl
      · exact hnl _ (by simp)
      · exact hdec xs (fun l hl => hnl l (by simp [hl])) l hl

/-- C41. The printed text has the lines of the serialised text in order, and every other line is a comment or blank, in a
    block directly before a line that starts one of the five known keys (`gaps` are these blocks, one before each line). -/
theorem C41_only_comments_added (y : List Char) :
    ∃ gaps : List (List Line), gaps.length = (splitLines y).length ∧
      splitLines (display y) = (List.zipWith (fun g l => g ++ [l]) gaps (splitLines y)).flatten ∧
      ∀ (n : Nat) (g : List Line) (l : Line), gaps[n]? = some g → (splitLines y)[n]? = some l →
        (∀ c ∈ g, IsRemark c) ∧ (g ≠ [] → IsKeyLine l) := by
  rw [splitLines_display]
  have hdec : ∀ ls : List Line, decorate ls =
      (List.zipWith (fun g l => g ++ [l]) (ls.map (fun l => (commentsFor l).map String.toList)) ls).flatten := by
    intro ls
    induction ls with
    | nil => rfl
    | cons x xs ih => simp [decorate, ih]
  have hok : ∀ l : Line, (∀ c ∈ (commentsFor l).map String.toList, IsRemark c) ∧
      ((commentsFor l).map String.toList ≠ [] → IsKeyLine l) :=
    fun l => ⟨fun c hc => (commentsFor_remark l c hc).1, fun h => (commentsFor_key (fun e => h (by simp [e]))).1⟩
  cases h : splitLines y with
  | nil => exact absurd h (splitLines_ne y)
  | cons x xs =>
    refine ⟨[] :: xs.map (fun l => (commentsFor l).map String.toList), by simp, by simp [displayLines, hdec], ?_⟩
    intro n g l hg hl
    cases n with
    | zero =>
      simp only [List.getElem?_cons_zero, Option.some.injEq] at hg
      subst hg; simp
    | succ n =>
      simp only [List.getElem?_cons_succ, List.getElem?_map] at hg hl
      rw [hl] at hg
      simp only [Option.map_some, Option.some.injEq] at hg
      subst hg
      exact hok l

/-- C41. Without comment and blank lines, the printed text has the same lines as the serialised text. -/
theorem C41_same_content (y : List Char) :
    (splitLines (display y)).filter (fun l => ¬ IsRemark l) = (splitLines y).filter (fun l => ¬ IsRemark l) := by
  rw [splitLines_display]
  have hdec : ∀ ls : List Line, (decorate ls).filter (fun l => ¬ IsRemark l) = ls.filter (fun l => ¬ IsRemark l) := by
    intro ls
    induction ls with
    | nil => rfl
    | cons x xs ih =>
      have : ((commentsFor x).map String.toList).filter (fun l => ¬ IsRemark l) = [] := by
        apply List.filter_eq_nil_iff.2
        intro c hc
        simp [(commentsFor_remark x c hc).1]
      simp only [decorate, List.filter_append, this, List.nil_append, List.filter_cons, ih]
  cases splitLines y with
  | nil => rfl
  | cons x xs => simp only [displayLines, List.filter_cons, hdec]

/-! A small reader for YAML literal block scalars (YAML 1.2, 8.1): the only values whose meaning can depend on blank lines. -/

inductive Chomp where
  | strip | clip | keep
deriving DecidableEq

/-- The lines of a block scalar that follow its header: indented by at least `n`, or blank. -/
def blockLines (n : Nat) (ls : List Line) : List Line :=
  (ls.takeWhile (fun l => (l.take n).all (· = ' '))).map (List.drop n)

/-- Blank lines at the end. -/
def dropBlankEnd (ls : List Line) : List Line := (ls.reverse.dropWhile (· = [])).reverse

/-- The value of a literal block scalar with the given chomping. -/
def blockValue (ch : Chomp) (n : Nat) (ls : List Line) : List Char :=
  match ch with
  | .strip => joinLines (dropBlankEnd (blockLines n ls))
  | .clip => if dropBlankEnd (blockLines n ls) = [] then [] else joinLines (dropBlankEnd (blockLines n ls)) ++ ['\n']
  | .keep => ((blockLines n ls).map (fun l => l ++ ['\n'])).flatten

theorem dropBlankEnd_snoc (ls : List Line) : dropBlankEnd (ls ++ [[]]) = dropBlankEnd ls := by
  simp [dropBlankEnd]

theorem blockLines_decorate (n : Nat) (hn : 0 < n) (ls : List Line) :
    blockLines n (decorate ls) = blockLines n ls ∨ blockLines n (decorate ls) = blockLines n ls ++ [[]] := by
  induction ls with
  | nil => exact Or.inl rfl
  | cons x xs ih =>
    by_cases hc : commentsFor x = []
    · simp only [decorate, hc, List.map_nil, List.nil_append, blockLines, List.takeWhile_cons]
      split
      · rcases ih with ih | ih
        · simp only [blockLines] at ih
          exact Or.inl (by simp [ih])
        · simp only [blockLines] at ih
          exact Or.inr (by simp [ih])
      · exact Or.inl rfl
    · obtain ⟨⟨k, hk, hp⟩, t, ts, ht, t', htl⟩ := commentsFor_key hc
      right
      have hx : (x.take n).all (· = ' ') = false := by
        obtain ⟨m, rfl⟩ : ∃ m, n = m + 1 := ⟨n - 1, by omega⟩
        obtain ⟨rest, hr⟩ := hp
        simp only [List.mem_cons, List.not_mem_nil, or_false] at hk
        rcases hk with rfl | rfl | rfl | rfl | rfl <;> (subst hr; rfl)
      have ht1 : (('#' :: t').take n).all (· = ' ') = false := by
        obtain ⟨m, rfl⟩ : ∃ m, n = m + 1 := ⟨n - 1, by omega⟩
        rfl
      simp [decorate, ht, blockLines, hx, htl, ht1]

/-- C41. Multi-line values printed as literal blocks keep their meaning if trailing line ends are stripped or clipped, wherever
    the block stands (`ls` are the lines after its header). -/
theorem C41_block_values_unchanged_partial (ch : Chomp) (hch : ch ≠ .keep) (n : Nat) (hn : 0 < n) (ls : List Line) :
    blockValue ch n (decorate ls) = blockValue ch n ls := by
  cases ch with
  | keep => exact absurd rfl hch
  | strip => rcases blockLines_decorate n hn ls with h | h <;> simp only [blockValue, h, dropBlankEnd_snoc]
  | clip => rcases blockLines_decorate n hn ls with h | h <;> simp only [blockValue, h, dropBlankEnd_snoc]

/-- A configuration whose fallback command has one argument that ends in two line ends, as serialised. -/
def keptDoc : List Line := ["connectionUrl: unix:///s?k=x", "signatureFallback: !command", "  program: ./x", "  args:", "  - |+",
    "    a", "", "databaseSalt: abc"].map String.toList

/-- C41 does not hold in general. The fallback argument `"a\n\n"` is printed - the blank line before the comment is part of the
    kept block - as `"a\n\n\n"`. -/
theorem C41_kept_block_changes :
    let printed := splitLines (display (joinLines keptDoc))
    keptDoc[4]? = some "  - |+".toList ∧ printed[18]? = some "  - |+".toList ∧
      blockValue .keep 4 (keptDoc.drop 5) = "a\n\n".toList ∧ blockValue .keep 4 (printed.drop 19) = "a\n\n\n".toList := by
  decide +kernel

example : splitLines (display "connectionUrl: u\npidFile: p\nx: y\n".toList) =
    ["connectionUrl: u", "", "# The pid file for managing a running lair-keystore process", "pidFile: p", "x: y", ""].map String.toList := by
  decide +kernel

end Lair
