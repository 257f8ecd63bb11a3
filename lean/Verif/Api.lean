import Verif.Entry

/-
The protocol messages (crates/lair_keystore_api/src/lair_api.rs:134-249 and lair_api/*.rs).
Every variant of `LairApiEnum` is a struct with a `msg_id` plus further fields; the model factors the id out:
`Msg.req id r` for the 17 request variants, `Msg.res id r` for the 17 response variants and `ResError`.
-/
namespace Lair

/-- `DeepLockPassphrase` (lair_api.rs:40-50). -/
structure DeepPass where
  ops : UInt32
  mem : UInt32
  pass : SecretSized 81
deriving DecidableEq

/-- Request payloads. Code: lair_api.rs:134-249 and the structs in lair_api/*.rs. -/
inductive Req where
  /-- hello.rs -/
  | hello
  /-- unlock.rs -/
  | unlock (pass : SecretSized 81)
  /-- get_entry.rs -/
  | getEntry (tag : String)
  /-- list_entries.rs -/
  | listEntries
  /-- new_seed.rs -/
  | newSeed (tag : String) (deep : Option DeepPass) (exportable : Bool)
  /-- export_seed_by_tag.rs -/
  | exportSeed (tag : String) (sender recipient : B 32) (deep : Option (SecretSized 81))
  /-- import_seed.rs -/
  | importSeed (sender recipient : B 32) (deep : Option DeepPass) (nonce : B 24) (cipher : Bytes) (tag : String)
      (exportable : Bool)
  /-- derive_seed.rs -/
  | deriveSeed (srcTag : String) (srcDeep : Option DeepPass) (dstTag : String) (dstDeep : Option DeepPass)
      (path : List UInt32)
  /-- sign_by_pub_key.rs -/
  | sign (pk : B 32) (deep : Option (SecretSized 81)) (data : Bytes)
  /-- crypto_box_xsalsa_by_pub_key.rs -/
  | boxEnc (sender recipient : B 32) (deep : Option (SecretSized 81)) (data : Bytes)
  /-- crypto_box_xsalsa_open_by_pub_key.rs -/
  | boxDec (sender recipient : B 32) (deep : Option (SecretSized 81)) (nonce : B 24) (cipher : Bytes)
  /-- crypto_box_xsalsa_by_sign_pub_key.rs -/
  | boxEncEd (sender recipient : B 32) (deep : Option (SecretSized 81)) (data : Bytes)
  /-- crypto_box_xsalsa_open_by_sign_pub_key.rs -/
  | boxDecEd (sender recipient : B 32) (deep : Option (SecretSized 81)) (nonce : B 24) (cipher : Bytes)
  /-- new_wka_tls_cert.rs -/
  | newCert (tag : String)
  /-- get_wka_tls_cert_priv_key.rs -/
  | getCertKey (tag : String)
  /-- secret_box_xsalsa_by_tag.rs -/
  | sboxEnc (tag : String) (deep : Option (SecretSized 81)) (data : Bytes)
  /-- secret_box_xsalsa_open_by_tag.rs -/
  | sboxDec (tag : String) (deep : Option (SecretSized 81)) (nonce : B 24) (cipher : Bytes)
deriving DecidableEq

/-- Response payloads. Code: lair_api.rs:134-249 and the structs in lair_api/*.rs. -/
inductive Resp where
  | error (e : String)
  | hello (name version : String) (pk : B 32)
  | unlock
  | getEntry (info : EntryInfo)
  | listEntries (l : List EntryInfo)
  | newSeed (tag : String) (info : SeedInfo)
  | exportSeed (nonce : B 24) (cipher : Bytes)
  | importSeed (tag : String) (info : SeedInfo)
  | deriveSeed (info : SeedInfo)
  | sign (sig : B 64)
  | boxEnc (nonce : B 24) (cipher : Bytes)
  | boxDec (msg : Bytes)
  | boxEncEd (nonce : B 24) (cipher : Bytes)
  | boxDecEd (msg : Bytes)
  | newCert (tag : String) (info : CertInfo)
  | getCertKey (key : SecretData)
  | sboxEnc (nonce : B 24) (cipher : Bytes)
  | sboxDec (msg : Bytes)
deriving DecidableEq

/-- `LairApiEnum` (lair_api.rs:134-249). -/
inductive Msg where
  | req (id : String) (r : Req)
  | res (id : String) (r : Resp)
deriving DecidableEq

/-- `LairApiEnum::msg_id` (lair_api.rs:253-357). -/
def Msg.id : Msg → String
  | .req i _ => i
  | .res i _ => i

/-- SPECIFICATION: the pairing `AsLairRequest::Response` (lair_api/*.rs, last lines of each file). -/
def Answers : Req → Resp → Prop
  | .hello, .hello .. => True
  | .unlock .., .unlock => True
  | .getEntry .., .getEntry .. => True
  | .listEntries, .listEntries .. => True
  | .newSeed .., .newSeed .. => True
  | .exportSeed .., .exportSeed .. => True
  | .importSeed .., .importSeed .. => True
  | .deriveSeed .., .deriveSeed .. => True
  | .sign .., .sign .. => True
  | .boxEnc .., .boxEnc .. => True
  | .boxDec .., .boxDec .. => True
  | .boxEncEd .., .boxEncEd .. => True
  | .boxDecEd .., .boxDecEd .. => True
  | .newCert .., .newCert .. => True
  | .getCertKey .., .getCertKey .. => True
  | .sboxEnc .., .sboxEnc .. => True
  | .sboxDec .., .sboxDec .. => True
  | _, _ => False

end Lair
