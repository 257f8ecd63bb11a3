import Verif.ConfigLemmas
import Verif.Server

/-
Starting a server from a configuration: crates/lair_keystore_api/src/lair_server/priv_srv.rs:34-138.
-/
namespace Lair

/-- What a server started from `cfg` works with, once `Config.unlock` gave `keys` (priv_srv.rs:104-135). `S` is the store and
    `bidi` the context key it derives from the database key; `encKey`, `decKey` are the context keys of the connections that
    will be accepted. Caches hold 128 entries. -/
def Config.env (C : Crypto) (L : C.Lawful) (cfg : Config) (keys : SrvKeys) (S : StoreModel) (bidi : B 32 → B 32)
    (name version : String) (encKey decKey : Nat → B 32) (certGen : Nat → CertGen) (debugFmt : Msg → String) : Env where
  C := C
  L := L
  S := S
  bidi := bidi keys.contextKey
  name := name
  version := version
  idPk := keys.idPk
  salt := cfg.salt
  ops := cfg.ops
  mem := cfg.mem
  idSeedEnc := cfg.idSeed
  hasFallback := cfg.hasFallback
  cap := 128
  encKey := encKey
  decKey := decKey
  certGen := certGen
  debugFmt := debugFmt

end Lair
