import Verif.Codec

/- What the messages and entries look like as MessagePack values, whoever wrote them: a small specification, to be read beside the serde
   attributes in lair_api.rs and lair_store.rs. It does not mention the decoders. -/
namespace Lair.Codec
open Mp

/-- The values under the name `k` in a map. Specification: nothing in the code corresponds. -/
def valsAt (l : List (String × Val)) (k : String) : List Val := (l.filter (fun p => p.1 = k)).map Prod.snd

/-- What is said of the values under one name. Specification: nothing in the code corresponds. -/
abbrev Field := List Val → Prop

/-- A required field: it is there once. Specification: nothing in the code corresponds. -/
def one (P : Val → Prop) : Field := fun vs => ∃ v, vs = [v] ∧ P v

/-- An optional field: there once, or not there, or there as `nil`. Specification: nothing in the code corresponds. -/
def opt {α : Type} (P : α → Val → Prop) : Option α → Field
  | none => fun vs => vs = [] ∨ vs = [.nil]
  | some a => one (P a)

/-- A flag: there once, or not there and false. Specification: nothing in the code corresponds. -/
def flag (b : Bool) : Field := fun vs => vs = [.bool b] ∨ (b = false ∧ vs = [])

/-- A map with these fields: in any order, and perhaps with others. Specification: nothing in the code corresponds. -/
def Obj (fs : List (String × Field)) (v : Val) : Prop := ∃ l, v = .map (fieldsOf l) ∧ ∀ f ∈ fs, f.2 (valsAt l f.1)

/-- A list. Specification: nothing in the code corresponds. -/
def ListOf {α : Type} (P : α → Val → Prop) : List α → Vals → Prop
  | [], vs => vs = .nil
  | a :: l, vs => ∃ v r, vs = .cons v r ∧ P a v ∧ ListOf P l r

/-- A text. Specification: nothing in the code corresponds. -/
def IsText (s : String) (v : Val) : Prop := v = .str s
/-- A truth value. Specification: nothing in the code corresponds. -/
def IsBool (b : Bool) (v : Val) : Prop := v = .bool b
/-- A number (32 bit). Specification: nothing in the code corresponds. -/
def IsU32 (n : UInt32) (v : Val) : Prop := v = .uint n.toNat
/-- A number (8 bit). Specification: nothing in the code corresponds. -/
def IsU8 (n : UInt8) (v : Val) : Prop := v = .uint n.toNat
/-- Bytes as base64url text (`BinData`, `BinDataSized`). Specification: nothing in the code corresponds. -/
def IsBin (b : Bytes) (v : Val) : Prop := v = .str (Base64.toText b)
/-- Bytes as a list of numbers (`Arc<[u8]>`, `[u8; 24]`). Specification: nothing in the code corresponds. -/
def IsSeq (b : Bytes) (v : Val) : Prop := ∃ vs, v = .arr vs ∧ ListOf IsU8 b vs
/-- A derivation path: an array of numbers. Specification: nothing in the code corresponds. -/
def IsPath (l : List UInt32) (v : Val) : Prop := ∃ vs, v = .arr vs ∧ ListOf IsU32 l vs
/-- Something encrypted: header and cipher text. Specification: nothing in the code corresponds. -/
def IsSecret {n : Nat} (s : SecretSized n) (v : Val) : Prop :=
  v = .arr (.cons (.str (Base64.toText s.hdr.val)) (.cons (.str (Base64.toText s.cipher.val)) .nil))
/-- An encrypted secret: header and cipher. Specification: nothing in the code corresponds. -/
def IsSecretData (s : SecretData) (v : Val) : Prop :=
  v = .arr (.cons (.str (Base64.toText s.hdr.val)) (.cons (.str (Base64.toText s.cipher)) .nil))

/-- The public information of a seed. Specification: nothing in the code corresponds. -/
def IsSeedInfo (i : SeedInfo) : Val → Prop := Obj [("ed25519PubKey", one (IsBin i.ed.val)), ("x25519PubKey", one (IsBin i.x.val)),
  ("exportable", flag i.exportable)]
/-- The public information of a certificate. Specification: nothing in the code corresponds. -/
def IsCertInfo (i : CertInfo) : Val → Prop := Obj [("sni", one (IsText i.sni)), ("digest", one (IsBin i.digest.val)), ("cert", one (IsBin i.cert))]
/-- A deep-lock passphrase with its limits. Specification: nothing in the code corresponds. -/
def IsDeep (d : DeepPass) : Val → Prop := Obj [("opsLimit", one (IsU32 d.ops)), ("memLimit", one (IsU32 d.mem)), ("passphrase", one (IsSecret d.pass))]

/-- An entry as it is in the store. Specification: nothing in the code corresponds. -/
def IsEntry : Entry → Val → Prop
  | .seed t i s => Obj [("type", one (IsText "seed")), ("tag", one (IsText t)), ("seed_info", one (IsSeedInfo i)),
      ("seed", one (IsSecret s))]
  | .deep t i salt ops mem s => Obj [("type", one (IsText "deepLockedSeed")), ("tag", one (IsText t)), ("seed_info", one (IsSeedInfo i)),
      ("salt", one (IsBin salt.val)), ("ops_limit", one (IsU32 ops)), ("mem_limit", one (IsU32 mem)), ("seed", one (IsSecret s))]
  | .cert t i p => Obj [("type", one (IsText "wkaTlsCert")), ("tag", one (IsText t)), ("cert_info", one (IsCertInfo i)),
      ("priv_key", one (IsSecretData p))]

/-- An entry as clients see it. Specification: nothing in the code corresponds. -/
def IsEntryInfo : EntryInfo → Val → Prop
  | .seed t i => Obj [("type", one (IsText "seed")), ("tag", one (IsText t)), ("seed_info", one (IsSeedInfo i))]
  | .deep t i => Obj [("type", one (IsText "deepLockedSeed")), ("tag", one (IsText t)), ("seed_info", one (IsSeedInfo i))]
  | .cert t i => Obj [("type", one (IsText "wkaTlsCert")), ("tag", one (IsText t)), ("cert_info", one (IsCertInfo i))]
/-- A list of public information. Specification: nothing in the code corresponds. -/
def IsInfoList (l : List EntryInfo) (v : Val) : Prop := ∃ vs, v = .arr vs ∧ ListOf IsEntryInfo l vs

/-- The type and the fields of a request (lair_api.rs; lair_api/traits.rs and the files beside it). -/
def reqSpec : Req → String × List (String × Field)
  | .hello => ("reqHello", [])
  | .unlock p => ("reqUnlock", [("passphrase", one (IsSecret p))])
  | .getEntry t => ("reqGetEntry", [("tag", one (IsText t))])
  | .listEntries => ("reqListEntries", [])
  | .newSeed t d e => ("reqNewSeed", [("tag", one (IsText t)), ("deepLockPassphrase", opt IsDeep d), ("exportable", flag e)])
  | .exportSeed t s r d => ("reqExportSeedByTag", [("tag", one (IsText t)), ("senderPubKey", one (IsBin s.val)),
      ("recipientPubKey", one (IsBin r.val)), ("deepLockPassphrase", opt IsSecret d)])
  | .importSeed s r d n c t e => ("reqImportSeed", [("senderPubKey", one (IsBin s.val)), ("recipientPubKey", one (IsBin r.val)),
      ("deepLockPassphrase", opt IsDeep d), ("nonce", one (IsSeq n.val)), ("cipher", one (IsSeq c)), ("tag", one (IsText t)),
      ("exportable", one (IsBool e))])
  | .deriveSeed st sd dt dd p => ("reqDeriveSeed", [("srcTag", one (IsText st)), ("srcDeepLockPassphrase", opt IsDeep sd),
      ("dstTag", one (IsText dt)), ("dstDeepLockPassphrase", opt IsDeep dd), ("derivationPath", one (IsPath p))])
  | .sign pk d m => ("reqSignByPubKey", [("pubKey", one (IsBin pk.val)), ("deepLockPassphrase", opt IsSecret d), ("data", one (IsSeq m))])
  | .boxEnc s r d m => ("reqCryptoBoxXSalsaByPubKey", [("senderPubKey", one (IsBin s.val)), ("recipientPubKey", one (IsBin r.val)),
      ("deepLockPassphrase", opt IsSecret d), ("data", one (IsSeq m))])
  | .boxDec s r d n c => ("reqCryptoBoxXSalsaOpenByPubKey", [("senderPubKey", one (IsBin s.val)),
      ("recipientPubKey", one (IsBin r.val)), ("deepLockPassphrase", opt IsSecret d), ("nonce", one (IsSeq n.val)),
      ("cipher", one (IsSeq c))])
  | .boxEncEd s r d m => ("reqCryptoBoxXSalsaBySignPubKey", [("senderPubKey", one (IsBin s.val)),
      ("recipientPubKey", one (IsBin r.val)), ("deepLockPassphrase", opt IsSecret d), ("data", one (IsSeq m))])
  | .boxDecEd s r d n c => ("reqCryptoBoxXSalsaOpenBySignPubKey", [("senderPubKey", one (IsBin s.val)),
      ("recipientPubKey", one (IsBin r.val)), ("deepLockPassphrase", opt IsSecret d), ("nonce", one (IsSeq n.val)),
      ("cipher", one (IsSeq c))])
  | .newCert t => ("reqNewWkaTlsCert", [("tag", one (IsText t))])
  | .getCertKey t => ("reqGetWkaTlsCertPrivKey", [("tag", one (IsText t))])
  | .sboxEnc t d m => ("reqSecretBoxXSalsaByTag", [("tag", one (IsText t)), ("deepLockPassphrase", opt IsSecret d),
      ("data", one (IsSeq m))])
  | .sboxDec t d n c => ("reqSecretBoxXSalsaOpenByTag", [("tag", one (IsText t)), ("deepLockPassphrase", opt IsSecret d),
      ("nonce", one (IsSeq n.val)), ("cipher", one (IsSeq c))])

/-- The type and the fields of a response. Specification: nothing in the code corresponds. -/
def respSpec : Resp → String × List (String × Field)
  | .error e => ("resError", [("error", one (IsText e))])
  | .hello n v pk => ("resHello", [("name", one (IsText n)), ("version", one (IsText v)), ("serverPubKey", one (IsBin pk.val))])
  | .unlock => ("resUnlock", [])
  | .getEntry i => ("resGetEntry", [("entryInfo", one (IsEntryInfo i))])
  | .listEntries l => ("resListEntries", [("entryList", one (IsInfoList l))])
  | .newSeed t i => ("resNewSeed", [("tag", one (IsText t)), ("seedInfo", one (IsSeedInfo i))])
  | .exportSeed n c => ("resExportSeedByTag", [("nonce", one (IsSeq n.val)), ("cipher", one (IsSeq c))])
  | .importSeed t i => ("resImportSeed", [("tag", one (IsText t)), ("seedInfo", one (IsSeedInfo i))])
  | .deriveSeed i => ("resDeriveSeed", [("seedInfo", one (IsSeedInfo i))])
  | .sign s => ("resSignByPubKey", [("signature", one (IsBin s.val))])
  | .boxEnc n c => ("resCryptoBoxXSalsaByPubKey", [("nonce", one (IsSeq n.val)), ("cipher", one (IsSeq c))])
  | .boxDec m => ("resCryptoBoxXSalsaOpenByPubKey", [("message", one (IsSeq m))])
  | .boxEncEd n c => ("resCryptoBoxXSalsaBySignPubKey", [("nonce", one (IsSeq n.val)), ("cipher", one (IsSeq c))])
  | .boxDecEd m => ("resCryptoBoxXSalsaOpenBySignPubKey", [("message", one (IsSeq m))])
  | .newCert t i => ("resNewWkaTlsCert", [("tag", one (IsText t)), ("certInfo", one (IsCertInfo i))])
  | .getCertKey k => ("resGetWkaTlsCertPrivKey", [("privKey", one (IsSecretData k))])
  | .sboxEnc n c => ("resSecretBoxXSalsaByTag", [("nonce", one (IsSeq n.val)), ("cipher", one (IsSeq c))])
  | .sboxDec m => ("resSecretBoxXSalsaOpenByTag", [("message", one (IsSeq m))])

/-- A message. Specification: nothing in the code corresponds. -/
def IsMsg : Msg → Val → Prop
  | .req id r => Obj (("type", one (IsText (reqSpec r).1)) :: ("msgId", one (IsText id)) :: (reqSpec r).2)
  | .res id r => Obj (("type", one (IsText (respSpec r).1)) :: ("msgId", one (IsText id)) :: (respSpec r).2)

end Lair.Codec
