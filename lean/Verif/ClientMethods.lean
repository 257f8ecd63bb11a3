import Verif.ClientApi
import Verif.PwLimits

/-
The methods of `LairClient` with the arguments their callers give, passphrases in the clear
(crates/lair_keystore_api/src/lair_client.rs:149-560): the request each method sends. `hello` and `unlock` are part of
connecting (`Client.lean`).
-/
namespace Lair

/-- A call of a method by the user of the client library. Code: lair_client.rs:149-560. -/
inductive Method where
  /-- `list_entries` (lair_client.rs:150-160) -/
  | listEntries
  /-- `get_entry` (:163-173) -/
  | getEntry (tag : String)
  /-- `new_seed` (:179-203) -/
  | newSeed (tag : String) (pass : Option Bytes) (exportable : Bool)
  /-- `export_seed_by_tag` (:207-233) -/
  | exportSeed (tag : String) (sender recipient : B 32) (pass : Option Bytes)
  /-- `import_seed` (:241-276) -/
  | importSeed (sender recipient : B 32) (pass : Option Bytes) (nonce : B 24) (cipher : Bytes) (tag : String) (exportable : Bool)
  /-- `derive_seed` (:285-324) -/
  | deriveSeed (src : String) (srcPass : Option Bytes) (dst : String) (dstPass : Option Bytes) (path : List UInt32)
  /-- `sign_by_pub_key` (:328-346) -/
  | sign (pk : B 32) (pass : Option Bytes) (data : Bytes)
  /-- `crypto_box_xsalsa_by_pub_key` (:350-375) -/
  | boxEnc (sender recipient : B 32) (pass : Option Bytes) (data : Bytes)
  /-- `crypto_box_xsalsa_open_by_pub_key` (:379-406) -/
  | boxDec (sender recipient : B 32) (pass : Option Bytes) (nonce : B 24) (cipher : Bytes)
  /-- `crypto_box_xsalsa_by_sign_pub_key` (:414-440) -/
  | boxEncEd (sender recipient : B 32) (pass : Option Bytes) (data : Bytes)
  /-- `crypto_box_xsalsa_open_by_sign_pub_key` (:448-475) -/
  | boxDecEd (sender recipient : B 32) (pass : Option Bytes) (nonce : B 24) (cipher : Bytes)
  /-- `new_wka_tls_cert` (:481-491) -/
  | newCert (tag : String)
  /-- `get_wka_tls_cert_priv_key` (:495-507) -/
  | getCertKey (tag : String)
  /-- `secretbox_xsalsa_by_tag` (:511-530) -/
  | sboxEnc (tag : String) (pass : Option Bytes) (data : Bytes)
  /-- `secretbox_xsalsa_open_by_tag` (:534-558) -/
  | sboxDec (tag : String) (pass : Option Bytes) (nonce : B 24) (cipher : Bytes)

section
variable (C : Crypto) (L : C.Lawful)

/-- `match deep_lock_passphrase { None => None, Some(pass) => Some(encrypt_passphrase(pass, enc_ctx_key)) }`, as in most
    methods. `hdr` is the random header of the encryption. Code: lair_client.rs:149-560. -/
def optPass (encKey : B 32) (hdr : B 24) (p : Option Bytes) : Option (SecretSized 81) :=
  p.map (encryptPassphrase C L encKey hdr)

/-- ... with the limits in force when the method was called, `DeepLockPassphrase::new(secret, limits)` (lair_api.rs:52-64). -/
def optDeep (encKey : B 32) (lim : PwHashLimits) (hdr : B 24) (p : Option Bytes) : Option DeepPass :=
  p.map (fun p => ⟨lim.ops, lim.mem, encryptPassphrase C L encKey hdr p⟩)

/-- The request a method sends, with the client's context key, the limits in force on the calling thread, and the random
    headers used for encrypting (only `derive_seed` needs two). Code: lair_client.rs:149-560. -/
def Method.request (encKey : B 32) (lim : PwHashLimits) (hdr hdr' : B 24) : Method → Req
  | .listEntries => .listEntries
  | .getEntry t => .getEntry t
  | .newSeed t p x => .newSeed t (optDeep C L encKey lim hdr p) x
  | .exportSeed t s r p => .exportSeed t s r (optPass C L encKey hdr p)
  | .importSeed s r p n ci t x => .importSeed s r (optDeep C L encKey lim hdr p) n ci t x
  | .deriveSeed s sp d dp path => .deriveSeed s (optDeep C L encKey lim hdr sp) d (optDeep C L encKey lim hdr' dp) path
  | .sign k p m => .sign k (optPass C L encKey hdr p) m
  | .boxEnc s r p m => .boxEnc s r (optPass C L encKey hdr p) m
  | .boxDec s r p n ci => .boxDec s r (optPass C L encKey hdr p) n ci
  | .boxEncEd s r p m => .boxEncEd s r (optPass C L encKey hdr p) m
  | .boxDecEd s r p n ci => .boxDecEd s r (optPass C L encKey hdr p) n ci
  | .newCert t => .newCert t
  | .getCertKey t => .getCertKey t
  | .sboxEnc t p m => .sboxEnc t (optPass C L encKey hdr p) m
  | .sboxDec t p n ci => .sboxDec t (optPass C L encKey hdr p) n ci

/-- SPECIFICATION. A passphrase and the limits in force, as a lock. -/
def lockFor (lim : PwHashLimits) (p : Bytes) : Lock := ⟨some (C.blake2b64 p), lim.ops, lim.mem⟩

/-- SPECIFICATION. The call of the sequential keystore a method makes: passphrases count by their hash; the limits are
    those in force; the passphrases of the export, box and secret-box methods play no part. -/
def Method.call (lim : PwHashLimits) : Method → Call
  | .listEntries => .listEntries
  | .getEntry t => .getEntry t
  | .newSeed t p x => .newSeed t (p.map (lockFor C lim)) x
  | .exportSeed t s r _ => .exportSeed t s r
  | .importSeed s r p n ci t x => .importSeed s r (p.map (lockFor C lim)) n ci t x
  | .deriveSeed s sp d dp path => .deriveSeed s (sp.map (lockFor C lim)) d (dp.map (lockFor C lim)) path
  | .sign k p m => .sign k (p.map (fun p => some (C.blake2b64 p))) m
  | .boxEnc s r _ m => .boxEnc s r m
  | .boxDec s r _ n ci => .boxDec s r n ci
  | .boxEncEd s r _ m => .boxEncEd s r m
  | .boxDecEd s r _ n ci => .boxDecEd s r n ci
  | .newCert t => .newCert t
  | .getCertKey t => .getCertKey t
  | .sboxEnc t _ m => .sboxEnc t m
  | .sboxDec t _ n ci => .sboxDec t n ci

end
end Lair
