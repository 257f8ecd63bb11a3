import Verif.System
import Verif.MemStore
import Verif.SqlStore

/-
A concrete environment and concrete runs, used by the examples beside the theorems in `Verif.Props`.
-/
namespace Lair.Ex

/-- The in-memory store as a `StoreModel`. For examples only: nothing in the code corresponds. -/
def mem : StoreModel := ⟨MemStore, MemStore.impl, fun _ => true, MemStore.Ok, MemStore.tbl, MemStore.refines⟩

/-- The server's passphrase hash and pre-key of the example. For examples only: nothing in the code corresponds. -/
def pass : B 64 := B.fill 64 7
/-- Its argon2 hash in the toy cryptography. For examples only: nothing in the code corresponds. -/
def pre : B 32 := Toy.pad 32 (pass.val.take 8 ++ (B.fill 16 9).val.take 4 ++ [1, 1])
/-- The identity seed of the example keystore. For examples only: nothing in the code corresponds. -/
def idSeed : B 32 := B.fill 32 42

/-- A server on the toy primitives with an in-memory store, a fallback signer or not, caches of size `cap`.
    For examples only: nothing in the code corresponds. -/
def env (hasFallback : Bool) (cap : Nat) : Env where
  C := Toy.crypto
  L := Toy.lawful
  S := mem
  bidi := B.fill 32 5
  name := "lair"
  version := "0.6"
  idPk := idSeed
  salt := B.fill 16 9
  ops := 1
  mem := 1
  idSeedEnc := SecretSized.encrypt Toy.crypto Toy.lawful (Toy.crypto.kdf pre 142 "IdnSecKy") (B.fill 24 1) idSeed
  hasFallback := hasFallback
  cap := cap
  encKey := fun c => B.fill 32 (UInt8.ofNat (2 * c))
  decKey := fun c => B.fill 32 (UInt8.ofNat (2 * c + 1))
  certGen := fun n => ⟨"sni", [UInt8.ofNat n, 1, 2], [UInt8.ofNat n, 3, 4]⟩
  debugFmt := fun _ => "message"

/-- The environment behaves: random bytes are all `x`, no faults.
    For examples only: nothing in the code corresponds. -/
def calm (x : UInt8) : Choice := ⟨fun n => B.fill n x, x.toNat, .ok (B.fill 64 0xFA), none⟩

/-- The environment makes this step fail. For examples only: nothing in the code corresponds. -/
def faulty : Choice := ⟨fun n => B.fill n 0, 0, .ok (B.fill 64 0xFA), some "disk full"⟩

/-- Passphrase `p` as sent by the client of connection `c`. For examples only: nothing in the code corresponds. -/
def sent (c : Nat) (p : B 64) : SecretSized 81 :=
  SecretSized.encrypt Toy.crypto Toy.lawful (B.fill 32 (UInt8.ofNat (2 * c + 1))) (B.fill 24 3) p

/-- One message handled to completion with nothing else in flight.
    For examples only: nothing in the code corresponds. -/
def serve (c : Nat) (m : Msg) (x : UInt8) : List Event := .recv c m :: List.replicate 24 (.step 0 (calm x))

/-- Unlock connection `c`. For examples only: nothing in the code corresponds. -/
def unlock (c : Nat) : List Event := serve c (.req "u" (.unlock (sent c pass))) 0

/-- Outcomes of all finished requests of a run from an empty store.
    For examples only: nothing in the code corresponds. -/
def outcomes (fb : Bool) (cap : Nat) (evs : List Event) : List (Res Resp) :=
  (Sys.run (env fb cap) MemStore.empty evs).done.map Done.outcome

example : outcomes false 2 (unlock 0 ++ serve 0 (.req "a" (.newSeed "alice" none true)) 11 ++
    serve 0 (.req "b" (.getEntry "alice")) 0 ++ serve 1 (.req "c" (.getEntry "alice")) 0 ++
    serve 0 (.req "d" (.sign (B.fill 32 11) none [1, 2, 3])) 0) =
  [.ok .unlock, .ok (.newSeed "alice" ⟨B.fill 32 11, B.fill 32 11, true⟩),
    .ok (.getEntry (.seed "alice" ⟨B.fill 32 11, B.fill 32 11, true⟩)), .error "KeystoreLocked",
    .ok (.sign (B.fill 64 11))] := by decide +kernel

end Lair.Ex
