import Verif.SecretStream
import Verif.Server

/-
Connection set-up of both sides: crates/lair_keystore_api/src/sodium_secretstream.rs:108-326 (handshake),
lair_server/priv_srv.rs:141-182 (server context keys), lair_client/async_io.rs:16-44 (client context keys),
lair_client.rs:565-575 (passphrase encryption).

Byte-exact on message lengths; the randomness of each side is an explicit argument.
-/
namespace Lair

/-- The key-exchange primitives used in the handshake (`crypto_box::curve25519xchacha20poly1305::{seal, seal_open}`,
    `sodoken::kx`). Code: sodoken, as called at sodium_secretstream.rs:108-326. -/
structure Kx where
  /-- `seal(msg, pk)` with its ephemeral randomness. -/
  sealMsg : B 32 → Bytes → B 32 → Bytes
  /-- `seal_open(cipher, pk, sk)`. -/
  sealOpen : Bytes → B 32 → B 32 → Option Bytes
  /-- `kx::keypair`: public part of a secret. -/
  kxPk : B 32 → B 32
  /-- `kx::client_session_keys(pk, sk, other_pk)` as `(rx, tx)`; fails for a degenerate `other_pk`. -/
  clientKeys : B 32 → B 32 → B 32 → Option (B 32 × B 32)
  /-- `kx::server_session_keys(pk, sk, other_pk)` as `(rx, tx)`. -/
  serverKeys : B 32 → B 32 → B 32 → Option (B 32 × B 32)

/-- Functional laws. `SEALBYTES = 48`. An assumption about libsodium; no .rs file of lair. -/
structure Kx.Lawful (K : Kx) (C : Crypto) : Prop where
  seal_open : ∀ r m pk sk, C.IsXPair pk sk → K.sealOpen (K.sealMsg r m pk) pk sk = some m
  seal_len : ∀ r m pk, (K.sealMsg r m pk).length = m.length + 48
  open_len : ∀ c pk sk m, K.sealOpen c pk sk = some m → c.length = m.length + 48
  /-- the client's receive key is the server's send key and vice versa -/
  agree : ∀ a b, ∃ k k', K.clientKeys (K.kxPk a) a (K.kxPk b) = some (k, k') ∧
    K.serverKeys (K.kxPk b) b (K.kxPk a) = some (k', k)

/-- What a side has after the handshake: the secretstream keys of both directions and the stream states.
    Code: sodium_secretstream.rs:302-326. -/
structure Session (S : SStream) where
  tx : B 32
  rx : B 32
  enc : S.St
  dec : S.St

/-- The random values of the connecting client (sodium_secretstream.rs:210-218, 238; header generated at :316). -/
structure ClientRand where
  cboxPk : B 32
  cboxSk : B 32
  kxSk : B 32
  sealRand : B 32
  header : B 24

/-- The random values of the accepting server (sodium_secretstream.rs:138-146, header generated at :316). -/
structure ServerRand where
  kxSk : B 32
  sealRand : B 32
  header : B 24

variable (S : SStream) (K : Kx)

/-- The sealed initiator message of the client (sodium_secretstream.rs:220-232): 64 bytes sealed. -/
def clientInit (srvPk : B 32) (r : ClientRand) : Bytes :=
  K.sealMsg r.sealRand (r.cboxPk.val ++ (K.kxPk r.kxSk).val) srvPk

/-- `priv_init_ss` (sodium_secretstream.rs:302-326): our header goes out, theirs comes in. -/
def initSs (tx rx : B 32) (ours theirs : B 24) : Session S :=
  { tx, rx, enc := S.init tx ours, dec := S.init rx theirs }

/-- `new_s3_server` (sodium_secretstream.rs:108-189) up to the keys: from the first 112 bytes received, the 80 byte sealed
    response and `(rx, tx)`. Note that the server calls `client_session_keys`. -/
def serverKeysOf (srvPk srvSk : B 32) (r : ServerRand) (input : Bytes) : Res (Bytes × B 32 × B 32) :=
  if input.length < 112 then .error "UnexpectedEof"
  else
    match K.sealOpen (input.take 112) srvPk srvSk with
    | none => .error "decrypt error"
    | some msg =>
      match B.ofBytes? 32 (msg.take 32), B.ofBytes? 32 (msg.drop 32) with
      | some othCbox, some othKx =>
        match K.clientKeys (K.kxPk r.kxSk) r.kxSk othKx with
        | none => .error "internal"
        | some (rx, tx) => .ok (K.sealMsg r.sealRand (K.kxPk r.kxSk).val othCbox, rx, tx)
      | _, _ => .error "internal"

/-- `new_s3_server`, complete: everything the server writes, and its session. `input` is everything the peer sends before
    the first frame: 112 bytes of initiator and 24 of header. Code: sodium_secretstream.rs:108-189. -/
def serverAccept (srvPk srvSk : B 32) (r : ServerRand) (input : Bytes) : Res (Bytes × Session S) :=
  match serverKeysOf K srvPk srvSk r input with
  | .error e => .error e
  | .ok (reply, rx, tx) =>
    match B.ofBytes? 24 ((input.drop 112).take 24) with
    | none => .error "UnexpectedEof"
    | some theirs => .ok (reply ++ r.header.val, initSs S tx rx r.header theirs)

/-- `new_s3_client` (sodium_secretstream.rs:192-282) from the server's answer on: 80 bytes sealed response, then the
    server's header. Note that the client calls `server_session_keys`. Gives the client's own header bytes and session. -/
def clientFinish (r : ClientRand) (input : Bytes) : Res (Bytes × Session S) :=
  if input.length < 80 then .error "UnexpectedEof"
  else
    match K.sealOpen (input.take 80) r.cboxPk r.cboxSk with
    | none => .error "decrypt error"
    | some pk =>
      match B.ofBytes? 32 pk with
      | none => .error "internal"
      | some othKx =>
        match K.serverKeys (K.kxPk r.kxSk) r.kxSk othKx with
        | none => .error "internal"
        | some (rx, tx) =>
          match B.ofBytes? 24 ((input.drop 80).take 24) with
          | none => .error "UnexpectedEof"
          | some theirs => .ok (r.header.val, initSs S tx rx r.header theirs)

variable {S K}

/-- Context keys of the client (async_io.rs:24-44): to the server, from the server. -/
def clientEncKey (C : Crypto) (s : Session S) : B 32 := C.kdf s.tx 142 "ToSrvCxK"
/-- The client's key for secrets from the server (async_io.rs:34-42). -/
def clientDecKey (C : Crypto) (s : Session S) : B 32 := C.kdf s.rx 42 "ToCliCxK"

/-- Context keys of the server (priv_srv.rs:160-177): to the client, from the client. -/
def serverEncKey (C : Crypto) (s : Session S) : B 32 := C.kdf s.tx 42 "ToCliCxK"
/-- The server's key for secrets from the client (priv_srv.rs:169-177). -/
def serverDecKey (C : Crypto) (s : Session S) : B 32 := C.kdf s.rx 142 "ToSrvCxK"

end Lair
