import Verif.Tls
import Verif.Props.Usage
import Verif.Props.Created
import Verif.Props.World
import Verif.Examples

/-
C71: certificates are good for TLS.
-/
namespace Lair.Tls

/-! ### Specification -/

/-- SPECIFICATION: a label of a DNS name as TLS libraries accept it (webpki, rustls): 1 to 63 letters, digits, hyphens and underscores, no
    hyphen at either end. -/
structure LabelOk (l : List Char) : Prop where
  nonempty : l ≠ []
  short : l.length ≤ 63
  chars : ∀ c ∈ l, c.isAlphanum ∨ c = '-' ∨ c = '_'
  first : l.head? ≠ some '-'
  last : l.getLast? ≠ some '-'

/-- SPECIFICATION: a DNS name: at most 253 characters, labels separated by dots, the last one not a number. -/
def DnsName (s : String) : Prop :=
  s.toList.length ≤ 253 ∧ ∃ (labels : List (List Char)) (top : List Char), s.toList = (labels.map (· ++ ['.'])).flatten ++ top ∧
    (∀ l ∈ labels, LabelOk l) ∧ LabelOk top ∧ ∃ c ∈ top, c.isAlpha

/-- SPECIFICATION: `info` describes a certificate that a reader understands as `x`: it is for the name reported and no other, it is signed
    with the key `caPub` of the published lair authority and says so, it may be used for TLS servers and clients but not to sign
    other certificates, its digest is that reported, and the name can be used in a TLS connection. -/
structure GoodCert (R : Rcgen) (C : Crypto) (caPub : Bytes) (info : CertInfo) (x : X509) : Prop where
  reads : R.read info.cert = some x
  names : x.names = [.dns info.sni]
  signed : R.verify caPub info.cert = true
  issuer : x.issuer = [(.commonName, "Lair Well-Known Pseudo-Self-Signing CA"), (.organizationName, "Holochain Foundation")]
  subject : x.subject = [(.commonName, "Lair Pseudo-Self-Signed Cert " ++ info.sni)]
  server : .serverAuth ∈ x.usages
  client : .clientAuth ∈ x.usages
  leaf : x.isCa = false
  digest : info.digest = C.blake2b32 info.cert
  dns : DnsName info.sni

/-- SPECIFICATION: the bytes of a private key and the certificate it belongs to. -/
def KeyOf (R : Rcgen) (key : Bytes) (x : X509) : Prop := ∃ k, R.readKey key = some k ∧ R.pubKey k = x.subjectKey

/-- The server makes its certificates with `tls_cert_self_signed_new`. -/
def Uses (E : Env) (R : Rcgen) (caKey : R.Key) : Prop := ∃ rnd : Nat → Rand, ∀ n, E.certGen n = certNew R caKey (rnd n)

/-! ### helper facts -/

theorem nanoid_length (r : B 21) : (nanoid r).length = 21 := by
  unfold nanoid
  rw [List.length_map, r.len]

theorem alphabet_get (n : Nat) (h : n < 64) : alphabet.getD n 'a' ∈ alphabet := by
  have hl : alphabet.length = 64 := by decide +kernel
  rw [List.getD_eq_getElem?_getD, List.getElem?_eq_getElem (by omega)]
  exact List.getElem_mem _

theorem alphabet_chars : ∀ c ∈ alphabet, (c.isAlphanum = true ∨ c = '-' ∨ c = '_') := by decide +kernel

theorem nanoid_chars (r : B 21) : ∀ c ∈ nanoid r, c.isAlphanum = true ∨ c = '-' ∨ c = '_' := by
  intro c hc
  unfold nanoid at hc
  obtain ⟨b, _, rfl⟩ := List.mem_map.mp hc
  exact alphabet_chars _ (alphabet_get _ (Nat.mod_lt _ (by omega)))

theorem label_ok (r : B 21) : LabelOk ('a' :: (nanoid r ++ ['a'])) where
  nonempty := by simp
  short := by simp [nanoid_length]
  chars := by
    intro c hc
    simp only [List.mem_cons, List.mem_append, List.not_mem_nil, or_false] at hc
    rcases hc with rfl | hc | rfl
    · left; decide
    · exact nanoid_chars r c hc
    · left; decide
  first := by simp
  last := by
    rw [← List.cons_append, List.getLast?_append]; simp

theorem sniOf_toList (r₁ r₂ : B 21) : (sniOf r₁ r₂).toList = ('a' :: (nanoid r₁ ++ ['a'])) ++ ['.'] ++ ('a' :: (nanoid r₂ ++ ['a'])) := by
  unfold sniOf
  rw [String.toList_ofList]; simp

theorem sni_dns (r₁ r₂ : B 21) : DnsName (sniOf r₁ r₂) := by
  refine ⟨by rw [sniOf_toList]; simp [nanoid_length], ['a' :: (nanoid r₁ ++ ['a'])], 'a' :: (nanoid r₂ ++ ['a']), ?_, ?_, label_ok r₂, 'a', by simp, by decide⟩
  · rw [sniOf_toList]; simp
  · intro l hl
    rw [List.mem_singleton] at hl
    subst hl; exact label_ok r₁

theorem sni_not_ip (r₁ r₂ : B 21) : ¬ IpLike (sniOf r₁ r₂) := by
  rintro (h | h)
  · rw [sniOf_toList] at h
    simp only [List.mem_cons, List.mem_append, List.not_mem_nil, or_false] at h
    have hn : ∀ r : B 21, ':' ∉ nanoid r := by
      intro r hr
      rcases nanoid_chars r _ hr with h | h | h <;> revert h <;> decide
    have := hn r₁
    have := hn r₂
    simp_all
  · have := h 'a' (by rw [sniOf_toList]; simp)
    revert this; decide

theorem certNew_good {R : Rcgen} (hR : R.Lawful) (C : Crypto) (caKey : R.Key) (r : Rand) :
    ∃ x, GoodCert R C (R.pubKey caKey) ⟨(certNew R caKey r).sni, C.blake2b32 (certNew R caKey r).cert, (certNew R caKey r).cert⟩ x ∧
      KeyOf R (certNew R caKey r).priv x := by
  have hip : R.isIp (sniOf r.id₁ r.id₂) = false := by
    cases h : R.isIp (sniOf r.id₁ r.id₂) with
    | false => rfl
    | true => exact absurd (hR.isIp_like _ h) (sni_not_ip _ _)
  refine ⟨_, ⟨hR.read_signed _ _ _ _ _, ?_, hR.verify_signed _ _ _ _ _, rfl, rfl, ?_, ?_, rfl, rfl, sni_dns _ _⟩, ⟨_, hR.readKey_privDer _, rfl⟩⟩
  · simp [certParams, Params.new, hip, certNew]
  · simp [certParams]
  · simp [certParams]

section
variable {E : Env} {st : E.S.σ} {R : Rcgen} {caKey : R.Key}

theorem certGen_good (hR : R.Lawful) (hE : Uses E R caKey) (n : Nat) :
    ∃ x, GoodCert R E.C (R.pubKey caKey) ⟨(E.certGen n).sni, E.C.blake2b32 (E.certGen n).cert, (E.certGen n).cert⟩ x ∧ KeyOf R (E.certGen n).priv x := by
  obtain ⟨rnd, h⟩ := hE
  rw [h]; exact certNew_good hR E.C caKey (rnd n)

/-! ### Theorems -/

/-- C71. The published authority certificate verifies with the authority's own key, is a certificate authority's, and is the one named as
    issuer in every certificate (`GoodCert.issuer`). -/
theorem C71_authority (hR : R.Lawful) (caKey : R.Key) (r : Nat) :
    R.verify (R.pubKey caKey) (wkCaCert R caKey r) = true ∧
    ∃ x, R.read (wkCaCert R caKey r) = some x ∧ x.isCa = true ∧ x.subjectKey = R.pubKey caKey ∧ x.issuer = x.subject ∧
      x.subject = [(.commonName, "Lair Well-Known Pseudo-Self-Signing CA"), (.organizationName, "Holochain Foundation")] ∧
      DnsName wkCaId := by
  refine ⟨hR.verify_signed _ _ _ _ _, _, hR.read_signed _ _ _ _ _, rfl, rfl, rfl, rfl, ?_⟩
  refine ⟨by decide +kernel, ["aKdjnmYOn1HVc_RwSdxR6qa".toList], "aQLW3d5D1nYiSSO2cOrcT7a".toList, by decide +kernel, ?_,
    ⟨by decide +kernel, by decide +kernel, by decide +kernel, by decide +kernel, by decide +kernel⟩, 'a', by decide +kernel, by decide⟩
  intro l hl
  rw [List.mem_singleton] at hl
  subst hl
  exact ⟨by decide +kernel, by decide +kernel, by decide +kernel, by decide +kernel, by decide +kernel⟩

/-- C71. Every certificate in a keystore, at any time and after any history, is a good TLS certificate. -/
theorem C71_every_certificate_good (hR : R.Lawful) (hE : Uses E R caKey) (hst : GoodStore E st) (evs : List Event) (e : Entry)
    (he : e ∈ (Sys.run E st evs).entries) (t : String) (info : CertInfo) (hi : e.info = .cert t info) :
    ∃ x, GoodCert R E.C (R.pubKey caKey) info x := by
  have hwf := (goodStore_run hst evs).wf e he
  cases e with
  | seed => simp [Entry.info] at hi
  | deep => simp [Entry.info] at hi
  | cert t' info' priv =>
    simp only [Entry.info, EntryInfo.cert.injEq] at hi
    obtain ⟨rfl, rfl⟩ := hi
    obtain ⟨n, hinfo, _⟩ := hwf
    obtain ⟨x, h, _⟩ := certGen_good hR hE n
    exact ⟨x, by rw [hinfo]; exact h⟩

/-- C71. A new-certificate request that is answered with success reports a good TLS certificate. -/
theorem C71_new_certificate_good (hR : R.Lawful) (hE : Uses E R caKey) (hst : GoodStore E st) (evs : List Event) (d : Done E)
    (hd : d ∈ (Sys.run E st evs).done) (i t : String) (hm : d.msg = .req i (.newCert t)) (resp : Resp) (ho : d.outcome = .ok resp) :
    ∃ info x, resp = .newCert t info ∧ GoodCert R E.C (R.pubKey caKey) info x := by
  obtain ⟨n, sni, priv, cert, hg, _, hr⟩ := C59_new_cert_as_asked hst evs d hd i t hm resp ho
  obtain ⟨x, h, _⟩ := certGen_good hR hE n
  rw [hg] at h
  exact ⟨_, x, hr, h⟩

/-- C71. What a get-private-key request is answered with is, for the connection that asked, the private key of the certificate under that
    tag. -/
theorem C71_key_belongs (hR : R.Lawful) (hE : Uses E R caKey) (hst : GoodStore E st) (evs : List Event) (d : Done E)
    (hd : d ∈ (Sys.run E st evs).done) (i t : String) (hm : d.msg = .req i (.getCertKey t)) (resp : Resp) (ho : d.outcome = .ok resp) :
    ∃ e ∈ (Sys.run E st evs).entries, ∃ info x sealed key, e.info = .cert t info ∧ GoodCert R E.C (R.pubKey caKey) info x ∧
      resp = .getCertKey sealed ∧ sealed.decrypt E.C (E.encKey d.conn) = some key ∧ KeyOf R key x := by
  obtain ⟨e, he, info, n, s, _, hi, hinfo, hr, hk⟩ := C23_cert_key hst evs d hd i t hm resp ho
  obtain ⟨x, h1, h2⟩ := certGen_good hR hE n
  exact ⟨e, he, info, x, s, _, hi, by rw [hinfo]; exact h1, hr, hk, h2⟩

/-- C71, from end to end: if one client got `info` for a new certificate with tag `t`, and a client - this or another one, earlier or later,
    also of another connection - got a private key for the tag `t`, then the key, opened with the session key of its connection, is that
    of the certificate in `info`, which is a good TLS certificate. -/
theorem C71_clients_key_fits_certificate {S : SStream} (L : S.Lawful) (hR : R.Lawful) (hE : Uses E R caKey) (hst : GoodStore E st)
    (evs : List (WEv S)) (c₁ k₁ c₂ k₂ : Nat) (id₁ id₂ t t' : String) (info : CertInfo) (sealed : SecretData)
    (hu₁ : (World.run E S st evs).Unforged c₁) (hf₁ : (World.run E S st evs).FreshIds c₁)
    (hu₂ : (World.run E S st evs).Unforged c₂) (hf₂ : (World.run E S st evs).FreshIds c₂)
    (hq₁ : (World.run E S st evs).request c₁ k₁ = some (id₁, .newCert t)) (hr₁ : (World.run E S st evs).result c₁ k₁ = some (.ok (.newCert t' info)))
    (hq₂ : (World.run E S st evs).request c₂ k₂ = some (id₂, .getCertKey t))
    (hr₂ : (World.run E S st evs).result c₂ k₂ = some (.ok (.getCertKey sealed))) :
    t' = t ∧ ∃ x key, GoodCert R E.C (R.pubKey caKey) info x ∧ sealed.decrypt E.C (E.encKey c₂) = some key ∧ KeyOf R key x := by
  obtain ⟨-, d₁, hd₁, -, hm₁, ho₁⟩ := C56_result_is_own L evs c₁ k₁ id₁ _ _ hu₁ hf₁ hq₁ hr₁
  obtain ⟨-, d₂, hd₂, hc₂, hm₂, ho₂⟩ := C56_result_is_own L evs c₂ k₂ id₂ _ _ hu₂ hf₂ hq₂ hr₂
  rw [C56_server_run] at hd₁ hd₂
  obtain ⟨e, _, htag, hrep, hent, _⟩ := C07_success_adds_exactly_one hst _ d₁ hd₁ id₁ t _ hm₁ rfl _ ho₁
  obtain ⟨info', x', hres, _⟩ := C71_new_certificate_good hR hE hst _ d₁ hd₁ id₁ t hm₁ _ ho₁
  cases hres
  obtain ⟨e₂, he₂, info₂, x, s, key, hi₂, hg, hs, hk, ho⟩ := C71_key_belongs hR hE hst _ d₂ hd₂ id₂ t hm₂ _ ho₂
  cases hs
  have hrep' : e.info = .cert t info := hrep
  have he : e₂ = e := by
    refine (goodStore_run hst _).distinct.eq_of_clash he₂ hent (Or.inl ?_)
    rw [htag]
    cases e₂ with
    | cert t'' _ _ => simp only [Entry.info, EntryInfo.cert.injEq] at hi₂; exact hi₂.1
    | seed => simp [Entry.info] at hi₂
    | deep => simp [Entry.info] at hi₂
  subst he
  rw [hi₂] at hrep'
  cases hrep'
  rw [hc₂] at hk
  exact ⟨rfl, x, key, hg, hk, ho⟩

/-- C71. Two certificates have the same name only if the random generator gave the same 252 bits (six of each of 42 bytes) for both. -/
theorem C71_names_differ (r₁ r₂ s₁ s₂ : B 21) :
    sniOf r₁ r₂ = sniOf s₁ s₂ ↔ r₁.val.map (·.toNat % 64) = s₁.val.map (·.toNat % 64) ∧ r₂.val.map (·.toNat % 64) = s₂.val.map (·.toNat % 64) := by
  have hnd : ∀ i < 64, ∀ j < 64, alphabet.getD i 'a' = alphabet.getD j 'a' → i = j := by decide +kernel
  have inj : ∀ a b : List UInt8, a.map (fun b => alphabet.getD (b.toNat % 64) 'a') = b.map (fun b => alphabet.getD (b.toNat % 64) 'a') ↔
      a.map (·.toNat % 64) = b.map (·.toNat % 64) := by
    intro a
    induction a with
    | nil => intro b; cases b <;> simp
    | cons x a ih =>
      intro b
      cases b with
      | nil => simp
      | cons y b =>
        simp only [List.map_cons, List.cons.injEq, ih]
        refine and_congr_left fun _ => ⟨fun h => ?_, fun h => by rw [h]⟩
        exact hnd _ (Nat.mod_lt _ (by omega)) _ (Nat.mod_lt _ (by omega)) h
  rw [← String.toList_inj, sniOf_toList, sniOf_toList]
  constructor
  · intro h
    have h1 : nanoid r₁ = nanoid s₁ ∧ nanoid r₂ = nanoid s₂ := by
      have h2 := List.append_inj h (by simp [nanoid_length])
      have h3 := List.append_inj h2.1 (by simp [nanoid_length])
      simp only [List.cons.injEq, true_and, List.append_cancel_right_eq] at h2 h3
      exact ⟨h3.1, h2.2⟩
    exact ⟨(inj _ _).mp h1.1, (inj _ _).mp h1.2⟩
  · rintro ⟨h1, h2⟩
    have e1 : nanoid r₁ = nanoid s₁ := (inj _ _).mpr h1
    have e2 : nanoid r₂ = nanoid s₂ := (inj _ _).mpr h2
    rw [e1, e2]

end

/-! ### Examples: the hypotheses are met -/

namespace TlsEx
open Ex

/-- Writing things as lists of numbers, for a toy rcgen. -/
class Ser (α : Type) where
  enc : α → List Nat → List Nat
  dec : List Nat → Option (α × List Nat)
  law : ∀ a r, dec (enc a r) = some (a, r)

instance : Ser Nat := ⟨fun n r => n :: r, fun | n :: r => some (n, r) | [] => none, fun _ _ => rfl⟩

/-- Through an injection. -/
def Ser.via {α β : Type} [Ser β] (f : α → β) (g : β → α) (h : ∀ a, g (f a) = a) : Ser α :=
  ⟨fun a r => Ser.enc (f a) r, fun l => (Ser.dec l).map fun p => (g p.1, p.2), fun a r => by rw [Ser.law]; simp [h]⟩

instance {α β : Type} [Ser α] [Ser β] : Ser (α × β) :=
  ⟨fun p r => Ser.enc p.1 (Ser.enc p.2 r),
   fun l => (Ser.dec l).bind fun p => (Ser.dec p.2).map fun q => ((p.1, q.1), q.2),
   fun p r => by simp [Ser.law]⟩

def decMany {α : Type} [Ser α] : Nat → List Nat → Option (List α × List Nat)
  | 0, l => some ([], l)
  | n + 1, l => (Ser.dec l).bind fun p => (decMany n p.2).map fun q => (p.1 :: q.1, q.2)

theorem decMany_enc {α : Type} [Ser α] (as : List α) (r : List Nat) : decMany as.length (as.foldr Ser.enc r) = some (as, r) := by
  induction as with
  | nil => rfl
  | cons a as ih => simp [decMany, Ser.law, ih]

instance {α : Type} [Ser α] : Ser (List α) :=
  ⟨fun as r => as.length :: as.foldr Ser.enc r, fun | n :: l => decMany n l | [] => none, fun as r => decMany_enc as r⟩

instance : Ser Bool := Ser.via (fun b => b.toNat) (fun n => n == 1) (by decide)
instance : Ser UInt8 := Ser.via UInt8.toNat UInt8.ofNat (by simp)
instance : Ser Char := Ser.via Char.toNat Char.ofNat (by simp)
instance : Ser String := Ser.via String.toList String.ofList (by simp)
instance : Ser DnType := Ser.via (fun | .commonName => 0 | .organizationName => 1) (fun | 0 => .commonName | _ => .organizationName) (by intro a; cases a <;> rfl)
instance : Ser Usage := Ser.via (fun | .any => 0 | .serverAuth => 1 | .clientAuth => 2) (fun | 0 => .any | 1 => .serverAuth | _ => .clientAuth)
  (by intro a; cases a <;> rfl)
instance : Ser San := Ser.via (fun | .dns s => (0, s) | .ip s => (1, s)) (fun | (0, s) => .dns s | (_, s) => .ip s) (by intro a; cases a <;> rfl)
instance : Ser X509 := Ser.via (fun x => (x.names, x.subject, x.issuer, x.subjectKey, x.isCa, x.usages))
  (fun (a, b, c, d, e, f) => ⟨a, b, c, d, e, f⟩) (fun _ => rfl)

/-- Numbers as bytes, in unary. -/
def toBytes (l : List Nat) : Bytes := l.flatMap fun n => List.replicate n 1 ++ [0]

def ofBytes : Bytes → Nat → List Nat
  | [], _ => []
  | b :: l, n => if b = 0 then n :: ofBytes l 0 else ofBytes l (n + 1)

theorem ofBytes_replicate (n k : Nat) (l : Bytes) : ofBytes (List.replicate n 1 ++ l) k = ofBytes l (k + n) := by
  induction n generalizing k with
  | zero => rfl
  | succ n ih =>
    rw [List.replicate_succ, List.cons_append, ofBytes, if_neg (by decide), ih]
    congr 1; omega

theorem ofBytes_toBytes (l : List Nat) : ofBytes (toBytes l) 0 = l := by
  induction l with
  | nil => rfl
  | cons n l ih =>
    show ofBytes ((List.replicate n 1 ++ [0]) ++ toBytes l) 0 = _
    rw [List.append_assoc, ofBytes_replicate]
    simp [ofBytes, ih]

/-- A toy: keys are numbers; a certificate says what it says and which key has signed it. -/
def rcgen : Rcgen where
  Key := Nat
  genKey := id
  pubKey := fun k => toBytes [k]
  privDer := fun k => toBytes [k]
  signed := fun p pk iss k _ => toBytes (Ser.enc ((⟨p.sans, p.dn, iss, pk, p.isCa, p.usages⟩ : X509), toBytes [k]) [])
  isIp := fun s => ':' ∈ s.toList
  read := fun b => (Ser.dec (α := X509 × Bytes) (ofBytes b 0)).map fun p => p.1.1
  verify := fun pk b => (Ser.dec (α := X509 × Bytes) (ofBytes b 0)).any fun p => p.1.2 == pk
  readKey := fun b => (ofBytes b 0).head?

theorem lawful : rcgen.Lawful where
  read_signed := by
    intro p pk iss k r
    show (Ser.dec (α := X509 × Bytes) (ofBytes (toBytes _) 0)).map _ = _
    rw [ofBytes_toBytes, Ser.law]; rfl
  verify_signed := by
    intro p pk iss k r
    show (Ser.dec (α := X509 × Bytes) (ofBytes (toBytes _) 0)).any _ = _
    rw [ofBytes_toBytes, Ser.law]; simp [rcgen]
  readKey_privDer := by
    intro k
    show (ofBytes (toBytes [k]) 0).head? = _
    rw [ofBytes_toBytes]; rfl
  isIp_like := by
    intro s h
    exact Or.inl (by simpa [rcgen] using h)

def caKey : rcgen.Key := (7 : Nat)

/-- The example server with certificates made like this. -/
def tlsEnv : Env := { env false 2 with certGen := fun n => certNew rcgen caKey ⟨B.fill 21 (UInt8.ofNat n), B.fill 21 4, n, 0⟩ }

example : Uses tlsEnv rcgen caKey := ⟨_, fun _ => rfl⟩

-- a run that makes two certificates and asks for the private key of the second
def evs : List Event := unlock 0 ++ serve 0 (.req "a" (.newCert "web")) 11 ++ serve 0 (.req "b" (.newCert "mail")) 12 ++ serve 0 (.req "c" (.getCertKey "mail")) 0

set_option maxRecDepth 100000 in
example : ((Sys.run tlsEnv MemStore.empty evs).done.map fun d => d.outcome.isOk) = [true, true, true, true] ∧
    ((Sys.run tlsEnv MemStore.empty evs).entries.filterMap fun e => match e.info with | .cert _ i => some i.sni | _ => none) =
      ["a" ++ String.ofList (List.replicate 21 '9') ++ "a.a222222222222222222222a", "a" ++ String.ofList (List.replicate 21 'a') ++ "a.a222222222222222222222a"] := by
  decide +kernel

example : GoodStore tlsEnv MemStore.empty := goodStore_empty tlsEnv

end TlsEx

end Lair.Tls
