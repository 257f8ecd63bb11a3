import Verif.Server

/-
Certificates: crates/lair_keystore_api/src/internal/tls.rs.

What rcgen, ring and the X.509 format do is a parameter (`Rcgen`) with the laws `Rcgen.Lawful`: reading a certificate gives back the
parameters it was made from, a signature made with a key verifies with that key, and a private key that was written out is read
back. Nothing is assumed about what other bytes read as. Modelled is what tls.rs does with them: which names, usages and keys it
puts in, who signs, and how the name is made from random bytes.
-/
namespace Lair.Tls

/-- `rcgen::ExtendedKeyUsagePurpose`, as far as used (tls.rs:26-28, 89-97). -/
inductive Usage where
  | any | serverAuth | clientAuth
deriving DecidableEq, Repr

/-- `rcgen::DnType`, as far as used. rcgen 0.10, as used in tls.rs. -/
inductive DnType where
  | commonName | organizationName
deriving DecidableEq, Repr

/-- `rcgen::SanType`, as far as `CertificateParams::new` makes them (rcgen 0.10: a string that parses as an IP address becomes one).
    rcgen 0.10, as used in tls.rs. -/
inductive San where
  | dns (s : String)
  | ip (s : String)
deriving DecidableEq, Repr

/-- `rcgen::CertificateParams`, the fields tls.rs sets. Algorithm (always ECDSA P-256) and validity (rcgen's default, 1975 to 4096) left out. -/
structure Params where
  sans : List San
  isCa : Bool
  usages : List Usage
  dn : List (DnType × String)
deriving DecidableEq, Repr

/-- What a reader finds in a certificate. rcgen 0.10, as used in tls.rs. -/
structure X509 where
  names : List San
  subject : List (DnType × String)
  issuer : List (DnType × String)
  subjectKey : Bytes
  isCa : Bool
  usages : List Usage
deriving DecidableEq, Repr

/-- rcgen and the readers of certificates and keys. rcgen 0.10, as used in tls.rs. -/
structure Rcgen where
  Key : Type
  /-- `KeyPair::generate` as a function of its randomness (`Certificate::from_params` without a key pair) -/
  genKey : Nat → Key
  pubKey : Key → Bytes
  /-- `serialize_private_key_der` -/
  privDer : Key → Bytes
  /-- `serialize_der_with_signer`: parameters and public key of the subject, name and key of the issuer, randomness -/
  signed : Params → Bytes → List (DnType × String) → Key → Nat → Bytes
  /-- does a string parse as an IP address? -/
  isIp : String → Bool
  read : Bytes → Option X509
  /-- is the certificate's signature good under this public key? -/
  verify : Bytes → Bytes → Bool
  readKey : Bytes → Option Key

/-- An IP address has a colon or consists of digits and dots. An assumption about rcgen; no .rs file of lair. -/
def IpLike (s : String) : Prop := ':' ∈ s.toList ∨ ∀ c ∈ s.toList, c.isDigit ∨ c = '.'

/-- The laws. An assumption about rcgen; no .rs file of lair. -/
structure Rcgen.Lawful (R : Rcgen) : Prop where
  read_signed : ∀ p pk iss k r, R.read (R.signed p pk iss k r) = some ⟨p.sans, p.dn, iss, pk, p.isCa, p.usages⟩
  verify_signed : ∀ p pk iss k r, R.verify (R.pubKey k) (R.signed p pk iss k r) = true
  readKey_privDer : ∀ k, R.readKey (R.privDer k) = some k
  isIp_like : ∀ s, R.isIp s = true → IpLike s

/-- The characters of nanoid 0.4's `SAFE` alphabet, `_-0..9a..zA..Z`. The nanoid crate, as used in tls.rs. -/
def alphabet : List Char := "_-0123456789abcdefghijklmnopqrstuvwxyzABCDEFGHIJKLMNOPQRSTUVWXYZ".toList

/-- `nanoid::nanoid!()`: 21 characters; the mask for 64 characters is 63, so each random byte gives one character.
    The nanoid crate, as used in tls.rs. -/
def nanoid (r : B 21) : List Char := r.val.map fun b => alphabet.getD (b.toNat % 64) 'a'

/-- `format!("a{}a.a{}a", nanoid!(), nanoid!())` (tls.rs:65). -/
def sniOf (r₁ r₂ : B 21) : String := String.ofList ('a' :: nanoid r₁ ++ ['a', '.', 'a'] ++ nanoid r₂ ++ ['a'])

/-- `CertificateParams::new` (rcgen 0.10.0), default values otherwise: not a CA, no usages. (The default distinguished name,
    "rcgen self signed cert", is replaced in both uses.) rcgen 0.10, as used in tls.rs. -/
def Params.new (R : Rcgen) (names : List String) : Params :=
  ⟨names.map fun s => if R.isIp s then .ip s else .dns s, false, [], []⟩

/-- `WK_CA_ID` (tls.rs:18). -/
def wkCaId : String := "aKdjnmYOn1HVc_RwSdxR6qa.aQLW3d5D1nYiSSO2cOrcT7a"

/-- The parameters of the well-known authority, `WK_CA_RCGEN_CERT` (tls.rs:22-41). Its key is read from the published constant
    `WK_CA_KEYPAIR_PEM`; here a parameter. -/
def wkCaParams (R : Rcgen) : Params :=
  { Params.new R [wkCaId] with
    isCa := true,
    usages := [.any],
    dn := [(.commonName, "Lair Well-Known Pseudo-Self-Signing CA"), (.organizationName, "Holochain Foundation")] }

/-- `WK_CA_CERT_DER` (tls.rs:44-48): the authority's certificate, signed by itself. -/
def wkCaCert (R : Rcgen) (caKey : R.Key) (r : Nat) : Bytes :=
  R.signed (wkCaParams R) (R.pubKey caKey) (wkCaParams R).dn caKey r

/-- The randomness of one certificate. rcgen 0.10, as used in tls.rs. -/
structure Rand where
  id₁ : B 21
  id₂ : B 21
  key : Nat
  sig : Nat

/-- The parameters of a new certificate (tls.rs:67-105). -/
def certParams (R : Rcgen) (sni : String) : Params :=
  { Params.new R [sni] with
    usages := [.any, .serverAuth, .clientAuth],
    dn := [(.commonName, "Lair Pseudo-Self-Signed Cert " ++ sni)] }

/-- `tls_cert_self_signed_new` (tls.rs:63-131) without the digest, which `newCert` (Server.lean) computes. -/
def certNew (R : Rcgen) (caKey : R.Key) (r : Rand) : CertGen :=
  let sni := sniOf r.id₁ r.id₂
  let key := R.genKey r.key
  ⟨sni, R.privDer key, R.signed (certParams R sni) (R.pubKey key) (wkCaParams R).dn caKey r.sig⟩

end Lair.Tls
