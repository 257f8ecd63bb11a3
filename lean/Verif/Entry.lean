import Verif.Crypto

/-
Keystore entries and their public information (crates/lair_keystore_api/src/lair_store.rs:64-225) and the encrypted
containers they hold (encoding_types.rs:200-290).
-/

namespace Lair

/-- `SeedInfo` (lair_store.rs:65-78). -/
structure SeedInfo where
  ed : B 32
  x : B 32
  exportable : Bool
deriving DecidableEq

/-- `CertInfo` (lair_store.rs:84-95). -/
structure CertInfo where
  sni : String
  digest : B 32
  cert : Bytes
deriving DecidableEq

/-- `SecretDataSized<M, C>` (encoding_types.rs:248-256): secretstream header and cipher of `c` bytes. -/
structure SecretSized (c : Nat) where
  hdr : B 24
  cipher : B c
deriving DecidableEq

/-- `SecretData` (encoding_types.rs:200-208): header and cipher of any length. -/
structure SecretData where
  hdr : B 24
  cipher : Bytes
deriving DecidableEq

/-- `LairEntryInner` (lair_store.rs:135-191). -/
inductive Entry where
  | seed (tag : String) (info : SeedInfo) (seed : SecretSized 49)
  | deep (tag : String) (info : SeedInfo) (salt : B 16) (ops mem : UInt32) (seed : SecretSized 49)
  | cert (tag : String) (info : CertInfo) (priv : SecretData)
deriving DecidableEq

/-- `LairEntryInfo` (lair_store.rs:97-128). -/
inductive EntryInfo where
  | seed (tag : String) (info : SeedInfo)
  | deep (tag : String) (info : SeedInfo)
  | cert (tag : String) (info : CertInfo)
deriving DecidableEq

/-- `LairEntryInner::tag` (lair_store.rs:211-217). -/
def Entry.tag : Entry → String
  | .seed t _ _ => t
  | .deep t _ _ _ _ _ => t
  | .cert t _ _ => t

/-- The conversion to public information, written out three times in the code
    (mem_store.rs:71-90, store_sqlite.rs:358-378, priv_api.rs:130-149). -/
def Entry.info : Entry → EntryInfo
  | .seed t i _ => .seed t i
  | .deep t i _ _ _ _ => .deep t i
  | .cert t i _ => .cert t i

/-- The tag of an info. Code: lair_store.rs:64-225. -/
def EntryInfo.tag : EntryInfo → String
  | .seed t _ => t
  | .deep t _ => t
  | .cert t _ => t

@[simp] theorem Entry.info_tag (e : Entry) : e.info.tag = e.tag := by cases e <;> rfl

/-- The index columns of an entry: the match in `write_entry` (mem_store.rs:100-112, store_sqlite.rs:397-410). -/
def Entry.edKey : Entry → Option (B 32)
  | .seed _ i _ => some i.ed
  | .deep _ i _ _ _ _ => some i.ed
  | .cert _ _ _ => none

/-- The x25519 public key an entry is indexed by (store_sqlite.rs:396-436, mem_store.rs:95-150): only plain and deep-locked seeds have one. -/
def Entry.xKey : Entry → Option (B 32)
  | .seed _ i _ => some i.x
  | .deep _ i _ _ _ _ => some i.x
  | .cert _ _ _ => none

/-- `SecretDataSized::encrypt` with the header the secretstream generated (encoding_types.rs:260-275). -/
def SecretSized.encrypt (C : Crypto) (L : C.Lawful) {m : Nat} (key : B 32) (hdr : B 24) (msg : B m) :
    SecretSized (m + 17) :=
  ⟨hdr, ⟨C.ssEnc key hdr msg.val, by rw [L.ss_len, msg.len]⟩⟩

/-- `SecretDataSized::decrypt` (encoding_types.rs:278-289); `none` is the authentication error. -/
def SecretSized.decrypt (C : Crypto) {m : Nat} (key : B 32) (s : SecretSized (m + 17)) : Option (B m) :=
  match C.ssDec key s.hdr s.cipher.val with
  | some b => B.ofBytes? m b
  | none => none

/-- `SecretData::encrypt` (encoding_types.rs:212-230). -/
def SecretData.encrypt (C : Crypto) (key : B 32) (hdr : B 24) (msg : Bytes) : SecretData :=
  ⟨hdr, C.ssEnc key hdr msg⟩

/-- `SecretData::decrypt` (encoding_types.rs:233-245). The Rust code computes `cipher.len() - 17` first; a shorter cipher
    panics there and is `none` here (see C28 for the panic). -/
def SecretData.decrypt (C : Crypto) (key : B 32) (s : SecretData) : Option Bytes :=
  C.ssDec key s.hdr s.cipher

@[simp] theorem SecretSized.decrypt_encrypt (C : Crypto) (L : C.Lawful) {m : Nat} (key : B 32) (hdr : B 24) (msg : B m) :
    (SecretSized.encrypt C L key hdr msg).decrypt C key = some msg := by
  simp [SecretSized.encrypt, SecretSized.decrypt, L.ss_dec]

@[simp] theorem SecretData.decrypt_encrypt (C : Crypto) (L : C.Lawful) (key : B 32) (hdr : B 24) (msg : Bytes) :
    (SecretData.encrypt C key hdr msg).decrypt C key = some msg := by
  simp [SecretData.encrypt, SecretData.decrypt, L.ss_dec]

end Lair
