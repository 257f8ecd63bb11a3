import Verif.CodecLemmas
import Verif.Crypto
import Verif.PwLimits

/-
Seed bundles: crates/hc_seed_bundle/src/{unlocked_seed_bundle.rs, seed_cipher.rs, seed_cipher/*.rs}.

Randomness (salt, secretstream header) is an input of each cipher. Errors are `none` (the texts are not modelled).
-/
namespace Lair.Bundle
open Mp Codec

/-- `SeedCipher` (seed_bundle.rs:63-102). -/
inductive SeedCipher where
  | pw (salt : B 16) (mem ops : UInt32) (header : B 24) (cipher : B 49)
  | qa (salt : B 16) (mem ops : UInt32) (q1 q2 q3 : String) (header : B 24) (cipher : B 49)
deriving DecidableEq

/-- `SeedBundle` (seed_bundle.rs:8-16). -/
structure SeedBundle where
  ciphers : List SeedCipher
  appData : Bytes
deriving DecidableEq

/-! ### Encoding -/

/-- `U8Array` serialises as bytes (u8array.rs:67-75). -/
def sArr {n : Nat} (b : B n) : Val := .bin b.val

/-- `U8Array` is read from bytes or an extension value of exactly `n` bytes (u8array.rs:77-108). -/
def dArr (n : Nat) : Val → Option (B n)
  | .bin b => B.ofBytes? n b
  | .ext _ b => B.ofBytes? n b
  | _ => none

/-- A list as a MessagePack array's elements. How MessagePack values are written down; no .rs file of lair. -/
def valsList : List Val → Vals
  | [] => .nil
  | v :: vs => .cons v (valsList vs)

/-- The converse. How MessagePack values are written down; no .rs file of lair. -/
def toVals : Vals → List Val
  | .nil => []
  | .cons v vs => v :: toVals vs

/-- seed_bundle.rs:104-142 -/
def sCipher : SeedCipher → Val
  | .pw salt mem ops header cipher =>
    .arr (valsList [.str "pw", sArr salt, sU32 mem, sU32 ops, sArr header, sArr cipher])
  | .qa salt mem ops q1 q2 q3 header cipher =>
    .arr (valsList [.str "qa", sArr salt, sU32 mem, sU32 ops, .str q1, .str q2, .str q3, sArr header, sArr cipher])

/-- seed_bundle.rs:144-236. Elements after the last one read are refused by rmp_serde (length mismatch). -/
def dCipher : Val → Option SeedCipher
  | .arr vs =>
    match toVals vs with
    | .str "pw" :: rest =>
      match rest with
      | [salt, mem, ops, header, cipher] =>
        match dArr 16 salt, dU32 mem, dU32 ops, dArr 24 header, dArr 49 cipher with
        | some salt, some mem, some ops, some header, some cipher => some (.pw salt mem ops header cipher)
        | _, _, _, _, _ => none
      | _ => none
    | .str "qa" :: rest =>
      match rest with
      | [salt, mem, ops, q1, q2, q3, header, cipher] =>
        match dArr 16 salt, dU32 mem, dU32 ops, dArr 24 header, dArr 49 cipher with
        | some salt, some mem, some ops, some header, some cipher =>
          match dStr q1, dStr q2, dStr q3 with
          | some q1, some q2, some q3 => some (.qa salt mem ops q1 q2 q3 header cipher)
          | _, _, _ => none
        | _, _, _, _, _ => none
      | _ => none
    | _ => none
  | _ => none

/-- `serde_bytes` reads bytes, text or a sequence of numbers (text that is not UTF-8 is not modelled).
    Code: seed_cipher.rs, seed_cipher/pw_utils.rs. -/
def dByteBuf : Val → Option Bytes
  | .bin b => some b
  | .str s => some (utf8 s)
  | v => dSeq v

/-- seed_bundle.rs:17-33 -/
def sBundle (b : SeedBundle) : Val := .arr (valsList [.str "hcsb0", sList sCipher b.ciphers, .bin b.appData])

/-- seed_bundle.rs:35-61 -/
def dBundle : Val → Option SeedBundle
  | .arr vs =>
    match toVals vs with
    | [.str v, ciphers, appData] =>
      match dList dCipher ciphers, dByteBuf appData with
      | some cs, some a => if v = "hcsb0" then some ⟨cs, a⟩ else none
      | _, _ => none
    | _ => none
  | _ => none

/-- The bytes of a locked bundle (seed_cipher.rs:131-144). -/
def encodeBundle (b : SeedBundle) : Bytes := enc (sBundle b)

/-- `rmp_serde::from_slice` (seed_cipher.rs:296-297). -/
def decodeBundle (bytes : Bytes) : Option SeedBundle := (Mp.decode bytes).bind dBundle

/-! ### Security answers (pw_utils.rs:3-63) -/

/-- `char::is_whitespace`: Unicode White_Space. std, as used by `process_security_answers`, pw_utils.rs:6-50. -/
def isWs (c : Char) : Bool :=
  let n := c.toNat
  (9 ≤ n && n ≤ 13) || n == 0x20 || n == 0x85 || n == 0xa0 || n == 0x1680 || (0x2000 ≤ n && n ≤ 0x200a) || n == 0x2028 ||
    n == 0x2029 || n == 0x202f || n == 0x205f || n == 0x3000

/-- `str::trim`. std, as used by `process_security_answers`, pw_utils.rs:6-50. -/
def trim (s : List Char) : List Char := ((s.dropWhile isWs).reverse.dropWhile isWs).reverse

/-- `make_ascii_lowercase`, on one character. std, as used by `process_security_answers`, pw_utils.rs:6-50. -/
def lower (c : Char) : Char :=
  if 'A'.toNat ≤ c.toNat ∧ c.toNat ≤ 'Z'.toNat then Char.ofNat (c.toNat + 32) else c

/-- `process_security_answers`; an answer that is not UTF-8 is refused. Code: seed_cipher.rs, seed_cipher/pw_utils.rs. -/
def processAnswers (a1 a2 a3 : Bytes) : Option Bytes :=
  match ofUtf8 a1, ofUtf8 a2, ofUtf8 a3 with
  | some s1, some s2, some s3 =>
    some (utf8 (String.ofList ((trim s1.toList ++ trim s2.toList ++ trim s3.toList).map lower)))
  | _, _, _ => none

/-! ### Locking and unlocking -/

/-- The key a passphrase gives (pw_utils.rs:77-96, 132-144). -/
def pwKey (C : Crypto) (pass : Bytes) (salt : B 16) (ops mem : UInt32) : Option (B 32) :=
  C.argon2id (C.blake2b64 pass).val salt ops mem

/-- `pw_enc` (pw_utils.rs:67-113), with the random salt and header it generates. -/
def pwEnc (C : Crypto) (seed : B 32) (pass : Bytes) (l : PwHashLimits) (salt : B 16) (header : B 24) : Option (B 49) :=
  match pwKey C pass salt l.ops l.mem with
  | some k => B.ofBytes? 49 (C.ssEnc k header seed.val)
  | none => none

/-- `pw_dec` (pw_utils.rs:120-153). -/
def pwDec (C : Crypto) (pass : Bytes) (salt : B 16) (mem ops : UInt32) (header : B 24) (cipher : B 49) : Option (B 32) :=
  match pwKey C pass salt ops mem with
  | some k =>
    match C.ssDec k header cipher.val with
    | some m => B.ofBytes? 32 m
    | none => none
  | none => none

/-- `UnlockedSeedBundle` (unlocked_seed_bundle.rs:21-27); the signing key pair is computed from the seed. -/
structure Unlocked where
  seed : B 32
  appData : Bytes
deriving DecidableEq

/-- `get_sign_pub_key` / `sign_detached` (unlocked_seed_bundle.rs:88-92, 86-115). -/
def Unlocked.signPubKey (C : Crypto) (u : Unlocked) : B 32 := C.edPk u.seed
/-- `UnlockedSeedBundle::sign_detached` (unlocked_seed_bundle.rs:95-113). -/
def Unlocked.sign (C : Crypto) (u : Unlocked) (m : Bytes) : B 64 := C.sign (C.edSk u.seed) m

/-- `derive` (unlocked_seed_bundle.rs:69-84): the application data is not kept. -/
def Unlocked.derive (C : Crypto) (u : Unlocked) (index : UInt32) : Unlocked := ⟨C.kdf u.seed index.toNat "SeedBndl", []⟩

/-- One call of `add_pwhash_cipher` / `add_security_question_cipher` (seed_cipher.rs:48-105): the secret, the limits in force
    at the call, and the randomness the cipher will use. -/
inductive LockItem where
  | pw (pass : Bytes) (limits : PwHashLimits) (salt : B 16) (header : B 24)
  | qa (q1 q2 q3 : String) (a1 a2 a3 : Bytes) (limits : PwHashLimits) (salt : B 16) (header : B 24)

/-- The cipher made for an item. Code: seed_cipher.rs, seed_cipher/pw_utils.rs. -/
def LockItem.cipher (C : Crypto) (seed : B 32) : LockItem → Option SeedCipher
  | .pw pass l salt header =>
    match pwEnc C seed pass l salt header with
    | some c => some (.pw salt l.mem l.ops header c)
    | none => none
  | .qa q1 q2 q3 a1 a2 a3 l salt header =>
    match processAnswers a1 a2 a3 with
    | some pass =>
      match pwEnc C seed pass l salt header with
      | some c => some (.qa salt l.mem l.ops q1 q2 q3 header c)
      | none => none
    | none => none

/-- `try_join_all`. Code: seed_cipher.rs, seed_cipher/pw_utils.rs. -/
def LockItem.ciphers (C : Crypto) (seed : B 32) : List LockItem → Option (List SeedCipher)
  | [] => some []
  | x :: xs =>
    match x.cipher C seed, LockItem.ciphers C seed xs with
    | some c, some cs => some (c :: cs)
    | _, _ => none

/-- `SeedCipherBuilder::lock` (seed_cipher.rs:113-145). -/
def Unlocked.lock (C : Crypto) (u : Unlocked) (items : List LockItem) : Option Bytes :=
  match LockItem.ciphers C u.seed items with
  | some cs => some (encodeBundle ⟨cs, u.appData⟩)
  | none => none

/-- `LockedSeedCipher` (seed_cipher.rs:276-290, 205-214, 275-286), with the bundle's application data. -/
structure Locked where
  cipher : SeedCipher
  appData : Bytes
deriving DecidableEq

/-- `LockedSeedCipher::from_locked` (seed_cipher.rs:292-357). -/
def fromLocked (bytes : Bytes) : Option (List Locked) :=
  (decodeBundle bytes).map (fun b => b.ciphers.map (fun c => ⟨c, b.appData⟩))

/-- `LockedSeedCipherPwHash::unlock` (seed_cipher.rs:164-203). -/
def Locked.unlockPw (C : Crypto) (l : Locked) (pass : Bytes) : Option Unlocked :=
  match l.cipher with
  | .pw salt mem ops header cipher => (pwDec C pass salt mem ops header cipher).map (fun s => ⟨s, l.appData⟩)
  | .qa .. => none

/-- `LockedSeedCipherSecurityQuestions::unlock` (seed_cipher.rs:225-274). -/
def Locked.unlockQa (C : Crypto) (l : Locked) (a1 a2 a3 : Bytes) : Option Unlocked :=
  match l.cipher with
  | .pw .. => none
  | .qa salt mem ops _ _ _ header cipher =>
    match processAnswers a1 a2 a3 with
    | some pass => (pwDec C pass salt mem ops header cipher).map (fun s => ⟨s, l.appData⟩)
    | none => none

end Lair.Bundle
