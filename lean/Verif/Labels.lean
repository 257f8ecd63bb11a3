import Verif.ServerStart
import Verif.Handshake
import Verif.SeedBundle
import Verif.KeyPragma

/-
Key derivations, gathered: which parent key, which number and which text.
-/
namespace Lair

/-- The keys `SqlPool::new_sync` derives from the database key (store_sqlite.rs:147-166): the key that seals seeds in and out of
    the store (`get_bidi_ctx_key`, store_sqlite.rs:340-342), and the key given to SQLCipher. -/
structure StoreKeys where
  ctx : B 32
  dbk : B 32
deriving DecidableEq

/-- The two keys of a store (store_sqlite.rs:147-167). -/
def storeKeys (C : Crypto) (dbKey : B 32) : StoreKeys := ⟨C.kdf dbKey 42 "CtxSecKy", C.kdf dbKey 142 "DbKSecKy"⟩

/-- The statement that opens the database (store_sqlite.rs:169). -/
def storePragma (C : Crypto) (dbKey : B 32) : Res (List Char) := Pragma.keyPragma (storeKeys C dbKey).dbk

/-- A configuration with the two sealed values exchanged (not in the code: an attacker with write access to the file). -/
def Config.swapped (cfg : Config) : Config := { cfg with contextKey := cfg.idSeed, idSeed := cfg.contextKey }

/-! ### SPECIFICATION of the purposes (for C50) -/

/-- What a key is for. Specification: nothing in the code corresponds. -/
inductive Purpose where
  /-- seals the database key in the configuration -/
  | configContext
  /-- seals the identity seed in the configuration -/
  | configIdentity
  /-- seals seeds in the store -/
  | storeContext
  /-- encrypts the database file -/
  | storeDatabase
  /-- seals secrets sent from the server to the client -/
  | toClient
  /-- seals secrets sent from the client to the server -/
  | toServer
  /-- the child seed with this index -/
  | child (i : UInt32)
deriving DecidableEq

/-- What it is derived from. Code: priv_srv.rs:34-138, lair_store.rs:313-382, config.rs:136-275. -/
inductive Parent where
  | passphrase | databaseKey | sessionKey | seed
deriving DecidableEq

/-- What the key of this purpose is derived from.
    Code: priv_srv.rs:34-138, lair_store.rs:313-382, config.rs:136-275. -/
def Purpose.parent : Purpose → Parent
  | .configContext | .configIdentity => .passphrase
  | .storeContext | .storeDatabase => .databaseKey
  | .toClient | .toServer => .sessionKey
  | .child _ => .seed

/-- Number and text given to the derivation function.
    Code: priv_srv.rs:34-138, lair_store.rs:313-382, config.rs:136-275. -/
def Purpose.label : Purpose → Nat × String
  | .configContext => (42, "CtxSecKy")
  | .configIdentity => (142, "IdnSecKy")
  | .storeContext => (42, "CtxSecKy")
  | .storeDatabase => (142, "DbKSecKy")
  | .toClient => (42, "ToCliCxK")
  | .toServer => (142, "ToSrvCxK")
  | .child i => (i.toNat, "SeedBndl")

/-- The key for a purpose. Code: priv_srv.rs:34-138, lair_store.rs:313-382, config.rs:136-275. -/
def Purpose.key (C : Crypto) (p : Purpose) (parent : B 32) : B 32 := C.kdf parent p.label.1 p.label.2

/-- No two labels used by lair give the same key from this parent. Specification: nothing in the code corresponds. -/
def Crypto.LabelsSeparate (C : Crypto) (parent : B 32) : Prop :=
  ∀ p q : Purpose, p.key C parent = q.key C parent → p.label = q.label

/-- The keys for two purposes from this parent: if they differ, what one seals is not opened by the other. (Not for all pairs
    of keys: ciphers of the empty message have 17 bytes, keys 32.) Specification: nothing in the code corresponds. -/
def Crypto.SealsApart (C : Crypto) (parent : B 32) (p q : Purpose) : Prop :=
  p.key C parent ≠ q.key C parent → ∀ h m, C.ssDec (q.key C parent) h (C.ssEnc (p.key C parent) h m) = none

end Lair
