import Verif.Msgpack
import Verif.Base64
import Verif.Api

/-
serde (de)serialisation of lair's types to MessagePack values: struct-map mode, field names as in the derive attributes.
As in serde, unknown fields are ignored, duplicates and missing fields are errors, and `nil` is an absent option. Simplification: a struct
is accepted only as a map with text keys, and a text only as MessagePack text (serde also accepts a struct written as an array, and UTF-8
written as binary for a text).
-/
namespace Lair.Codec
open Mp

/-! ### Leaves -/

/-- `BinData` / `BinDataSized` serialise as base64 text (encoding_types.rs:72-93, 153-177, 151-180). -/
def sBin (b : Bytes) : Val := .str (Base64.toText b)
/-- Deserialisation of `BinData` (encoding_types.rs:82-93) from MessagePack binary. -/
def dBin : Val → Option Bytes
  | .str s => Base64.ofText s
  | _ => none
/-- Deserialisation of `BinDataSized<N>` (encoding_types.rs:163-177): the length is checked. -/
def dSized (n : Nat) : Val → Option (B n)
  | .str s => Base64.ofTextSized n s
  | _ => none
/-- Deserialisation of `Arc<str>` (serde).
    serde's derived code for the types of encoding_types.rs, lair_store.rs and lair_api/*.rs. -/
def dStr : Val → Option String
  | .str s => some s
  | _ => none
/-- Deserialisation of `bool` (serde).
    serde's derived code for the types of encoding_types.rs, lair_store.rs and lair_api/*.rs. -/
def dBool : Val → Option Bool
  | .bool b => some b
  | _ => none
/-- `u32`: out of range numbers are refused.
    serde's derived code for the types of encoding_types.rs, lair_store.rs and lair_api/*.rs. -/
def sU32 (n : UInt32) : Val := .uint n.toNat
/-- Deserialisation of `u32` (serde): larger numbers are refused.
    serde's derived code for the types of encoding_types.rs, lair_store.rs and lair_api/*.rs. -/
def dU32 : Val → Option UInt32
  | .uint n => if n < 2 ^ 32 then some (UInt32.ofNat n) else none
  | _ => none
/-- Deserialisation of `u8` (serde): larger numbers are refused.
    serde's derived code for the types of encoding_types.rs, lair_store.rs and lair_api/*.rs. -/
def dU8 : Val → Option UInt8
  | .uint n => if n < 2 ^ 8 then some (UInt8.ofNat n) else none
  | _ => none

/-- sequences. serde's derived code for the types of encoding_types.rs, lair_store.rs and lair_api/*.rs. -/
def valsOf {α : Type} (f : α → Val) : List α → Vals
  | [] => .nil
  | a :: as => .cons (f a) (valsOf f as)
/-- All elements, or none (serde's `Vec`).
    serde's derived code for the types of encoding_types.rs, lair_store.rs and lair_api/*.rs. -/
def dVals {α : Type} (f : Val → Option α) : Vals → Option (List α)
  | .nil => some []
  | .cons v vs =>
    match f v, dVals f vs with
    | some a, some as => some (a :: as)
    | _, _ => none
/-- Serialisation of a sequence (serde's `Vec` / slice).
    serde's derived code for the types of encoding_types.rs, lair_store.rs and lair_api/*.rs. -/
def sList {α : Type} (f : α → Val) (l : List α) : Val := .arr (valsOf f l)
/-- Deserialisation of a sequence.
    serde's derived code for the types of encoding_types.rs, lair_store.rs and lair_api/*.rs. -/
def dList {α : Type} (f : Val → Option α) : Val → Option (List α)
  | .arr vs => dVals f vs
  | _ => none

/-- `Arc<[u8]>` and `[u8; N]` without `serde_bytes`: an array of numbers.
    serde's derived code for the types of encoding_types.rs, lair_store.rs and lair_api/*.rs. -/
def sU8 (b : UInt8) : Val := .uint b.toNat
/-- Bytes serialised as a sequence of numbers: serde's default for `[u8; N]` and `Vec<u8>`, used where the type is not `BinData`.
    serde's derived code for the types of encoding_types.rs, lair_store.rs and lair_api/*.rs. -/
def sSeq (b : Bytes) : Val := sList sU8 b
/-- Inverse of `sSeq`. serde's derived code for the types of encoding_types.rs, lair_store.rs and lair_api/*.rs. -/
def dSeq (v : Val) : Option Bytes := dList dU8 v
/-- `[u8; N]` from a sequence of numbers: exactly `N` of them.
    serde's derived code for the types of encoding_types.rs, lair_store.rs and lair_api/*.rs. -/
def dSeqSized (n : Nat) (v : Val) : Option (B n) := (dSeq v).bind (B.ofBytes? n)

/-- fields. serde's derived code for the types of encoding_types.rs, lair_store.rs and lair_api/*.rs. -/
def fieldsOf : List (String × Val) → Fields
  | [] => .nil
  | (k, v) :: r => .cons k v (fieldsOf r)
/-- The fields of a map as a list.
    serde's derived code for the types of encoding_types.rs, lair_store.rs and lair_api/*.rs. -/
def Fields.list : Fields → List (String × Val)
  | .nil => []
  | .cons k v fs => (k, v) :: Fields.list fs
/-- Serialisation of a struct by field names (`rmp_serde … with_struct_map`, lair_store.rs:195-202). -/
def sMap (l : List (String × Val)) : Val := .map (fieldsOf l)
/-- A map with text keys. serde's derived code for the types of encoding_types.rs, lair_store.rs and lair_api/*.rs. -/
def dMap : Val → Option (List (String × Val))
  | .map fs => some (Fields.list fs)
  | _ => none

@[simp] theorem list_fieldsOf (l : List (String × Val)) : Fields.list (fieldsOf l) = l := by
  induction l with
  | nil => rfl
  | cons p r ih => obtain ⟨k, v⟩ := p; simp [fieldsOf, Fields.list, ih]
@[simp] theorem dMap_sMap (l : List (String × Val)) : dMap (sMap l) = some l := by simp [dMap, sMap]

/-- A field that must be present, exactly once.
    serde's derived code for the types of encoding_types.rs, lair_store.rs and lair_api/*.rs. -/
def fld (l : List (String × Val)) (k : String) : Option Val :=
  match l.filter (fun p => p.1 = k) with
  | [(_, v)] => some v
  | _ => none
/-- `nil`. serde's derived code for the types of encoding_types.rs, lair_store.rs and lair_api/*.rs. -/
def isNil : Val → Bool
  | .nil => true
  | _ => false
/-- An optional field (`Option<T>`, `#[serde(default)]`): absent or `nil` is `none`; a duplicate is an error.
    serde's derived code for the types of encoding_types.rs, lair_store.rs and lair_api/*.rs. -/
def fldOpt {α : Type} (l : List (String × Val)) (k : String) (f : Val → Option α) : Option (Option α) :=
  match l.filter (fun p => p.1 = k) with
  | [] => some none
  | [(_, v)] => if isNil v then some none else (f v).map some
  | _ => none
/-- `skip_serializing_if = "Option::is_none"`.
    serde's derived code for the types of encoding_types.rs, lair_store.rs and lair_api/*.rs. -/
def sOpt {α : Type} (k : String) (f : α → Val) : Option α → List (String × Val)
  | some a => [(k, f a)]
  | none => []
/-- `skip_serializing_if = "is_false"`, `default` (lair_api.rs:72-74, lair_store.rs:8-10). -/
def sFlag (k : String) (b : Bool) : List (String × Val) := if b then [(k, .bool true)] else []
/-- A `bool` field with `#[serde(skip_serializing_if = "is_false", default)]` (lair_store.rs:65-78): absent means false. -/
def dFlag (l : List (String × Val)) (k : String) : Option Bool :=
  match l.filter (fun p => p.1 = k) with
  | [] => some false
  | [(_, v)] => dBool v
  | _ => none

/-! ### Structs -/

/-- tuple structs `SecretDataSized(header, cipher)` and `SecretData(header, cipher)` (encoding_types.rs:200-290). -/
def sSecret {n : Nat} (s : SecretSized n) : Val := .arr (.cons (sBin s.hdr.val) (.cons (sBin s.cipher.val) .nil))
/-- Deserialisation of `SecretDataSized` (encoding_types.rs:251-257), a tuple struct: an array of two. -/
def dSecret (n : Nat) : Val → Option (SecretSized n)
  | .arr (.cons a (.cons b .nil)) =>
    match dSized 24 a, dSized n b with
    | some h, some c => some ⟨h, c⟩
    | _, _ => none
  | _ => none
/-- Serialisation of `SecretData` (encoding_types.rs:203-209), a tuple struct: an array of two. -/
def sSecretData (s : SecretData) : Val := .arr (.cons (sBin s.hdr.val) (.cons (sBin s.cipher) .nil))
/-- Inverse of `sSecretData`. Code: encoding_types.rs:200-208. -/
def dSecretData : Val → Option SecretData
  | .arr (.cons a (.cons b .nil)) =>
    match dSized 24 a, dBin b with
    | some h, some c => some ⟨h, c⟩
    | _, _ => none
  | _ => none

/-- `SeedInfo` (lair_store.rs:65-78). -/
def sSeedInfo (i : SeedInfo) : Val :=
  sMap ([("ed25519PubKey", sBin i.ed.val), ("x25519PubKey", sBin i.x.val)] ++ sFlag "exportable" i.exportable)
/-- Deserialisation of `SeedInfo` (lair_store.rs:65-78). -/
def dSeedInfo (v : Val) : Option SeedInfo := do
  let l ← dMap v
  let ed ← (← fld l "ed25519PubKey") |> dSized 32
  let x ← (← fld l "x25519PubKey") |> dSized 32
  let e ← dFlag l "exportable"
  some ⟨ed, x, e⟩

/-- `CertInfo` (lair_store.rs:84-95). -/
def sCertInfo (i : CertInfo) : Val :=
  sMap [("sni", .str i.sni), ("digest", sBin i.digest.val), ("cert", sBin i.cert)]
/-- Deserialisation of `CertInfo` (lair_store.rs:84-95). -/
def dCertInfo (v : Val) : Option CertInfo := do
  let l ← dMap v
  let sni ← (← fld l "sni") |> dStr
  let d ← (← fld l "digest") |> dSized 32
  let c ← (← fld l "cert") |> dBin
  some ⟨sni, d, c⟩

/-- `LairEntryInner` (lair_store.rs:131-191): `tag = "type"`, variants camelCase, fields as written. -/
def sEntry : Entry → Val
  | .seed t i s => sMap [("type", .str "seed"), ("tag", .str t), ("seed_info", sSeedInfo i), ("seed", sSecret s)]
  | .deep t i salt ops mem s => sMap [("type", .str "deepLockedSeed"), ("tag", .str t), ("seed_info", sSeedInfo i),
      ("salt", sBin salt.val), ("ops_limit", sU32 ops), ("mem_limit", sU32 mem), ("seed", sSecret s)]
  | .cert t i p => sMap [("type", .str "wkaTlsCert"), ("tag", .str t), ("cert_info", sCertInfo i),
      ("priv_key", sSecretData p)]
/-- Deserialisation of `LairEntryInner` (lair_store.rs:131-191, 204-209). -/
def dEntry (v : Val) : Option Entry := do
  let l ← dMap v
  let ty ← (← fld l "type") |> dStr
  let t ← (← fld l "tag") |> dStr
  if ty = "seed" then
    let i ← (← fld l "seed_info") |> dSeedInfo
    let s ← (← fld l "seed") |> dSecret 49
    some (.seed t i s)
  else if ty = "deepLockedSeed" then
    let i ← (← fld l "seed_info") |> dSeedInfo
    let salt ← (← fld l "salt") |> dSized 16
    let ops ← (← fld l "ops_limit") |> dU32
    let mem ← (← fld l "mem_limit") |> dU32
    let s ← (← fld l "seed") |> dSecret 49
    some (.deep t i salt ops mem s)
  else if ty = "wkaTlsCert" then
    let i ← (← fld l "cert_info") |> dCertInfo
    let p ← (← fld l "priv_key") |> dSecretData
    some (.cert t i p)
  else none

/-- `LairEntryInfo` (lair_store.rs:97-128). -/
def sEntryInfo : EntryInfo → Val
  | .seed t i => sMap [("type", .str "seed"), ("tag", .str t), ("seed_info", sSeedInfo i)]
  | .deep t i => sMap [("type", .str "deepLockedSeed"), ("tag", .str t), ("seed_info", sSeedInfo i)]
  | .cert t i => sMap [("type", .str "wkaTlsCert"), ("tag", .str t), ("cert_info", sCertInfo i)]
/-- Deserialisation of `LairEntryInfo` (lair_store.rs:97-128). -/
def dEntryInfo (v : Val) : Option EntryInfo := do
  let l ← dMap v
  let ty ← (← fld l "type") |> dStr
  let t ← (← fld l "tag") |> dStr
  if ty = "seed" then
    let i ← (← fld l "seed_info") |> dSeedInfo
    some (.seed t i)
  else if ty = "deepLockedSeed" then
    let i ← (← fld l "seed_info") |> dSeedInfo
    some (.deep t i)
  else if ty = "wkaTlsCert" then
    let i ← (← fld l "cert_info") |> dCertInfo
    some (.cert t i)
  else none

/-- `DeepLockPassphrase` (lair_api.rs:38-50), camelCase. -/
def sDeep (d : DeepPass) : Val :=
  sMap [("opsLimit", sU32 d.ops), ("memLimit", sU32 d.mem), ("passphrase", sSecret d.pass)]
/-- Deserialisation of `DeepLockPassphrase` (lair_api.rs:40-49). -/
def dDeep (v : Val) : Option DeepPass := do
  let l ← dMap v
  let o ← (← fld l "opsLimit") |> dU32
  let m ← (← fld l "memLimit") |> dU32
  let p ← (← fld l "passphrase") |> dSecret 81
  some ⟨o, m, p⟩

/-! ### The message enum (lair_api.rs:131-249): `tag = "type"`, camelCase variants; struct fields camelCase. -/

/-- Type tag and fields (without `msgId`) of a request. Code: lair_api.rs:134-249 and lair_api/*.rs. -/
def reqFields : Req → String × List (String × Val)
  | .hello => ("reqHello", [])
  | .unlock p => ("reqUnlock", [("passphrase", sSecret p)])
  | .getEntry t => ("reqGetEntry", [("tag", .str t)])
  | .listEntries => ("reqListEntries", [])
  | .newSeed t d e => ("reqNewSeed", [("tag", .str t)] ++ sOpt "deepLockPassphrase" sDeep d ++ sFlag "exportable" e)
  | .exportSeed t s r d => ("reqExportSeedByTag",
      [("tag", .str t), ("senderPubKey", sBin s.val), ("recipientPubKey", sBin r.val)] ++
        sOpt "deepLockPassphrase" sSecret d)
  | .importSeed s r d n c t e => ("reqImportSeed",
      [("senderPubKey", sBin s.val), ("recipientPubKey", sBin r.val)] ++ sOpt "deepLockPassphrase" sDeep d ++
        [("nonce", sSeq n.val), ("cipher", sSeq c), ("tag", .str t), ("exportable", .bool e)])
  | .deriveSeed st sd dt dd p => ("reqDeriveSeed",
      [("srcTag", .str st)] ++ sOpt "srcDeepLockPassphrase" sDeep sd ++ [("dstTag", .str dt)] ++
        sOpt "dstDeepLockPassphrase" sDeep dd ++ [("derivationPath", sList sU32 p)])
  | .sign pk d m => ("reqSignByPubKey",
      [("pubKey", sBin pk.val)] ++ sOpt "deepLockPassphrase" sSecret d ++ [("data", sSeq m)])
  | .boxEnc s r d m => ("reqCryptoBoxXSalsaByPubKey",
      [("senderPubKey", sBin s.val), ("recipientPubKey", sBin r.val)] ++ sOpt "deepLockPassphrase" sSecret d ++
        [("data", sSeq m)])
  | .boxDec s r d n c => ("reqCryptoBoxXSalsaOpenByPubKey",
      [("senderPubKey", sBin s.val), ("recipientPubKey", sBin r.val)] ++ sOpt "deepLockPassphrase" sSecret d ++
        [("nonce", sSeq n.val), ("cipher", sSeq c)])
  | .boxEncEd s r d m => ("reqCryptoBoxXSalsaBySignPubKey",
      [("senderPubKey", sBin s.val), ("recipientPubKey", sBin r.val)] ++ sOpt "deepLockPassphrase" sSecret d ++
        [("data", sSeq m)])
  | .boxDecEd s r d n c => ("reqCryptoBoxXSalsaOpenBySignPubKey",
      [("senderPubKey", sBin s.val), ("recipientPubKey", sBin r.val)] ++ sOpt "deepLockPassphrase" sSecret d ++
        [("nonce", sSeq n.val), ("cipher", sSeq c)])
  | .newCert t => ("reqNewWkaTlsCert", [("tag", .str t)])
  | .getCertKey t => ("reqGetWkaTlsCertPrivKey", [("tag", .str t)])
  | .sboxEnc t d m => ("reqSecretBoxXSalsaByTag",
      [("tag", .str t)] ++ sOpt "deepLockPassphrase" sSecret d ++ [("data", sSeq m)])
  | .sboxDec t d n c => ("reqSecretBoxXSalsaOpenByTag",
      [("tag", .str t)] ++ sOpt "deepLockPassphrase" sSecret d ++ [("nonce", sSeq n.val), ("cipher", sSeq c)])

/-- Type tag and fields (without `msgId`) of a response. Code: lair_api.rs:134-249 and lair_api/*.rs. -/
def respFields : Resp → String × List (String × Val)
  | .error e => ("resError", [("error", .str e)])
  | .hello n v pk => ("resHello", [("name", .str n), ("version", .str v), ("serverPubKey", sBin pk.val)])
  | .unlock => ("resUnlock", [])
  | .getEntry i => ("resGetEntry", [("entryInfo", sEntryInfo i)])
  | .listEntries l => ("resListEntries", [("entryList", sList sEntryInfo l)])
  | .newSeed t i => ("resNewSeed", [("tag", .str t), ("seedInfo", sSeedInfo i)])
  | .exportSeed n c => ("resExportSeedByTag", [("nonce", sSeq n.val), ("cipher", sSeq c)])
  | .importSeed t i => ("resImportSeed", [("tag", .str t), ("seedInfo", sSeedInfo i)])
  | .deriveSeed i => ("resDeriveSeed", [("seedInfo", sSeedInfo i)])
  | .sign s => ("resSignByPubKey", [("signature", sBin s.val)])
  | .boxEnc n c => ("resCryptoBoxXSalsaByPubKey", [("nonce", sSeq n.val), ("cipher", sSeq c)])
  | .boxDec m => ("resCryptoBoxXSalsaOpenByPubKey", [("message", sSeq m)])
  | .boxEncEd n c => ("resCryptoBoxXSalsaBySignPubKey", [("nonce", sSeq n.val), ("cipher", sSeq c)])
  | .boxDecEd m => ("resCryptoBoxXSalsaOpenBySignPubKey", [("message", sSeq m)])
  | .newCert t i => ("resNewWkaTlsCert", [("tag", .str t), ("certInfo", sCertInfo i)])
  | .getCertKey k => ("resGetWkaTlsCertPrivKey", [("privKey", sSecretData k)])
  | .sboxEnc n c => ("resSecretBoxXSalsaByTag", [("nonce", sSeq n.val), ("cipher", sSeq c)])
  | .sboxDec m => ("resSecretBoxXSalsaOpenByTag", [("message", sSeq m)])

/-- `Serialize for LairApiEnum`. Code: lair_api.rs:134-249 and lair_api/*.rs. -/
def sMsg : Msg → Val
  | .req id r => sMap (("type", .str (reqFields r).1) :: ("msgId", .str id) :: (reqFields r).2)
  | .res id r => sMap (("type", .str (respFields r).1) :: ("msgId", .str id) :: (respFields r).2)

/-- Decoders of the request structs, by type tag. Code: lair_api.rs:134-249 and lair_api/*.rs. -/
def dReq (ty : String) (l : List (String × Val)) : Option Req :=
  if ty = "reqHello" then some .hello
  else if ty = "reqUnlock" then do
    let p ← (← fld l "passphrase") |> dSecret 81
    some (.unlock p)
  else if ty = "reqGetEntry" then do
    let t ← (← fld l "tag") |> dStr
    some (.getEntry t)
  else if ty = "reqListEntries" then some .listEntries
  else if ty = "reqNewSeed" then do
    let t ← (← fld l "tag") |> dStr
    let d ← fldOpt l "deepLockPassphrase" dDeep
    let e ← dFlag l "exportable"
    some (.newSeed t d e)
  else if ty = "reqExportSeedByTag" then do
    let t ← (← fld l "tag") |> dStr
    let s ← (← fld l "senderPubKey") |> dSized 32
    let r ← (← fld l "recipientPubKey") |> dSized 32
    let d ← fldOpt l "deepLockPassphrase" (dSecret 81)
    some (.exportSeed t s r d)
  else if ty = "reqImportSeed" then do
    let s ← (← fld l "senderPubKey") |> dSized 32
    let r ← (← fld l "recipientPubKey") |> dSized 32
    let d ← fldOpt l "deepLockPassphrase" dDeep
    let n ← (← fld l "nonce") |> dSeqSized 24
    let c ← (← fld l "cipher") |> dSeq
    let t ← (← fld l "tag") |> dStr
    let e ← (← fld l "exportable") |> dBool
    some (.importSeed s r d n c t e)
  else if ty = "reqDeriveSeed" then do
    let st ← (← fld l "srcTag") |> dStr
    let sd ← fldOpt l "srcDeepLockPassphrase" dDeep
    let dt ← (← fld l "dstTag") |> dStr
    let dd ← fldOpt l "dstDeepLockPassphrase" dDeep
    let p ← (← fld l "derivationPath") |> dList dU32
    some (.deriveSeed st sd dt dd p)
  else if ty = "reqSignByPubKey" then do
    let pk ← (← fld l "pubKey") |> dSized 32
    let d ← fldOpt l "deepLockPassphrase" (dSecret 81)
    let m ← (← fld l "data") |> dSeq
    some (.sign pk d m)
  else if ty = "reqCryptoBoxXSalsaByPubKey" then do
    let s ← (← fld l "senderPubKey") |> dSized 32
    let r ← (← fld l "recipientPubKey") |> dSized 32
    let d ← fldOpt l "deepLockPassphrase" (dSecret 81)
    let m ← (← fld l "data") |> dSeq
    some (.boxEnc s r d m)
  else if ty = "reqCryptoBoxXSalsaOpenByPubKey" then do
    let s ← (← fld l "senderPubKey") |> dSized 32
    let r ← (← fld l "recipientPubKey") |> dSized 32
    let d ← fldOpt l "deepLockPassphrase" (dSecret 81)
    let n ← (← fld l "nonce") |> dSeqSized 24
    let c ← (← fld l "cipher") |> dSeq
    some (.boxDec s r d n c)
  else if ty = "reqCryptoBoxXSalsaBySignPubKey" then do
    let s ← (← fld l "senderPubKey") |> dSized 32
    let r ← (← fld l "recipientPubKey") |> dSized 32
    let d ← fldOpt l "deepLockPassphrase" (dSecret 81)
    let m ← (← fld l "data") |> dSeq
    some (.boxEncEd s r d m)
  else if ty = "reqCryptoBoxXSalsaOpenBySignPubKey" then do
    let s ← (← fld l "senderPubKey") |> dSized 32
    let r ← (← fld l "recipientPubKey") |> dSized 32
    let d ← fldOpt l "deepLockPassphrase" (dSecret 81)
    let n ← (← fld l "nonce") |> dSeqSized 24
    let c ← (← fld l "cipher") |> dSeq
    some (.boxDecEd s r d n c)
  else if ty = "reqNewWkaTlsCert" then do
    let t ← (← fld l "tag") |> dStr
    some (.newCert t)
  else if ty = "reqGetWkaTlsCertPrivKey" then do
    let t ← (← fld l "tag") |> dStr
    some (.getCertKey t)
  else if ty = "reqSecretBoxXSalsaByTag" then do
    let t ← (← fld l "tag") |> dStr
    let d ← fldOpt l "deepLockPassphrase" (dSecret 81)
    let m ← (← fld l "data") |> dSeq
    some (.sboxEnc t d m)
  else if ty = "reqSecretBoxXSalsaOpenByTag" then do
    let t ← (← fld l "tag") |> dStr
    let d ← fldOpt l "deepLockPassphrase" (dSecret 81)
    let n ← (← fld l "nonce") |> dSeqSized 24
    let c ← (← fld l "cipher") |> dSeq
    some (.sboxDec t d n c)
  else none

/-- Decoders of the response structs, by type tag. Code: lair_api.rs:134-249 and lair_api/*.rs. -/
def dResp (ty : String) (l : List (String × Val)) : Option Resp :=
  if ty = "resError" then do
    let e ← (← fld l "error") |> dStr
    some (.error e)
  else if ty = "resHello" then do
    let n ← (← fld l "name") |> dStr
    let v ← (← fld l "version") |> dStr
    let pk ← (← fld l "serverPubKey") |> dSized 32
    some (.hello n v pk)
  else if ty = "resUnlock" then some .unlock
  else if ty = "resGetEntry" then do
    let i ← (← fld l "entryInfo") |> dEntryInfo
    some (.getEntry i)
  else if ty = "resListEntries" then do
    let i ← (← fld l "entryList") |> dList dEntryInfo
    some (.listEntries i)
  else if ty = "resNewSeed" then do
    let t ← (← fld l "tag") |> dStr
    let i ← (← fld l "seedInfo") |> dSeedInfo
    some (.newSeed t i)
  else if ty = "resExportSeedByTag" then do
    let n ← (← fld l "nonce") |> dSeqSized 24
    let c ← (← fld l "cipher") |> dSeq
    some (.exportSeed n c)
  else if ty = "resImportSeed" then do
    let t ← (← fld l "tag") |> dStr
    let i ← (← fld l "seedInfo") |> dSeedInfo
    some (.importSeed t i)
  else if ty = "resDeriveSeed" then do
    let i ← (← fld l "seedInfo") |> dSeedInfo
    some (.deriveSeed i)
  else if ty = "resSignByPubKey" then do
    let s ← (← fld l "signature") |> dSized 64
    some (.sign s)
  else if ty = "resCryptoBoxXSalsaByPubKey" then do
    let n ← (← fld l "nonce") |> dSeqSized 24
    let c ← (← fld l "cipher") |> dSeq
    some (.boxEnc n c)
  else if ty = "resCryptoBoxXSalsaOpenByPubKey" then do
    let m ← (← fld l "message") |> dSeq
    some (.boxDec m)
  else if ty = "resCryptoBoxXSalsaBySignPubKey" then do
    let n ← (← fld l "nonce") |> dSeqSized 24
    let c ← (← fld l "cipher") |> dSeq
    some (.boxEncEd n c)
  else if ty = "resCryptoBoxXSalsaOpenBySignPubKey" then do
    let m ← (← fld l "message") |> dSeq
    some (.boxDecEd m)
  else if ty = "resNewWkaTlsCert" then do
    let t ← (← fld l "tag") |> dStr
    let i ← (← fld l "certInfo") |> dCertInfo
    some (.newCert t i)
  else if ty = "resGetWkaTlsCertPrivKey" then do
    let k ← (← fld l "privKey") |> dSecretData
    some (.getCertKey k)
  else if ty = "resSecretBoxXSalsaByTag" then do
    let n ← (← fld l "nonce") |> dSeqSized 24
    let c ← (← fld l "cipher") |> dSeq
    some (.sboxEnc n c)
  else if ty = "resSecretBoxXSalsaOpenByTag" then do
    let m ← (← fld l "message") |> dSeq
    some (.sboxDec m)
  else none

/-- `Deserialize for LairApiEnum`. Code: lair_api.rs:134-249 and lair_api/*.rs. -/
def dMsg (v : Val) : Option Msg := do
  let l ← dMap v
  let ty ← (← fld l "type") |> dStr
  let id ← (← fld l "msgId") |> dStr
  match dReq ty l with
  | some r => some (.req id r)
  | none =>
    match dResp ty l with
    | some r => some (.res id r)
    | none => none

/-- `LairEntryInner::encode` (lair_store.rs:195-202). -/
def encodeEntry (e : Entry) : Bytes := Mp.enc (sEntry e)
/-- `LairEntryInner::decode` (lair_store.rs:204-209). -/
def decodeEntry (b : Bytes) : Option Entry := (Mp.decode b).bind dEntry
/-- the serialisation in `PrivSend::send` (sodium_secretstream/inner.rs:55-59). -/
def encodeMsg (m : Msg) : Bytes := Mp.enc (sMsg m)
/-- the deserialisation in `PrivRecv` (sodium_secretstream/inner.rs:125). -/
def decodeMsg (b : Bytes) : Option Msg := (Mp.decode b).bind dMsg

end Lair.Codec
