import Verif.Handshake

/-
A symbolic (Dolev–Yao) model of connection set-up and unlocking, for statements about an active network attacker that
the byte-level model (`Verif.Handshake`, `Verif.Client`) cannot make: messages are terms, cryptography is perfect, the
attacker sees everything sent, decides everything that is received, and may at any time be given a server's
long-term identity key.

Code: crates/lair_keystore_api/src/sodium_secretstream.rs:108-326 (handshake), lair_client.rs:106-147 (hello,
then unlock), ipc_keystore.rs:119-144. Simplifications: lengths are not checked (a received term of any shape is
accepted where the code needs 32 bytes), the plain stream headers (sodium_secretstream.rs:316-320) are left out, stream
positions are left out (`Props/Channel` covers ordering), the passphrase stands for its hash.
-/
namespace Lair.Sym

/-- Atomic values: secrets of honest parties, each drawn once, and values of the attacker.
    Symbolic reading of sodium_secretstream.rs:108-326. -/
inductive Atom where
  /-- identity secret key of honest server `n` (derived from the id seed, lair_server/priv_srv.rs:98-101) -/
  | srv (n : Nat)
  /-- the client's ephemeral box secret of connection `i` (sodium_secretstream.rs:210-213) -/
  | cbox (i : Nat)
  /-- the client's ephemeral key-exchange secret (:215-218) -/
  | ckx (i : Nat)
  /-- the server's ephemeral key-exchange secret of accepted connection `j` (:143-146) -/
  | skx (j : Nat)
  /-- a passphrase (hash) -/
  | pass (p : Nat)
  /-- anything the attacker makes up -/
  | adv (n : Nat)
deriving DecidableEq

/-- Messages. Symbolic reading of sodium_secretstream.rs:108-326. -/
inductive Term where
  | atom (a : Atom)
  /-- the public key of a secret key -/
  | pub (sk : Term)
  | pair (a b : Term)
  /-- `crypto_box seal`: only the holder of the secret key opens it; says nothing about who made it -/
  | sealed (m pk : Term)
  /-- a session key of a key exchange between server-side secret `a` and client-side secret `b`; `toServer`: which of
      the two directions. Both sides compute the same term: this is `Kx.Lawful.agree`. -/
  | shared (toServer : Bool) (a b : Term)
  /-- the session key with a peer "public key" that is not one -/
  | odd (toServer : Bool) (sk pk : Term)
  /-- `kdf` with a label -/
  | kdf (label : Nat) (k : Term)
  /-- authenticated encryption -/
  | enc (k m : Term)
  /-- a hello answer carrying the server's public key -/
  | hello (pk : Term)
deriving DecidableEq

open Term Atom

/-- What the attacker can compute from what it has seen (`W`). The attacker; no .rs file of lair. -/
inductive Know (W : Term → Prop) : Term → Prop
  | seen {t : Term} : W t → Know W t
  | adv (n : Nat) : Know W (atom (.adv n))
  | pub {t : Term} : Know W t → Know W (pub t)
  | pair {a b : Term} : Know W a → Know W b → Know W (pair a b)
  | fst {a b : Term} : Know W (pair a b) → Know W a
  | snd {a b : Term} : Know W (pair a b) → Know W b
  | seal' {m pk : Term} : Know W m → Know W pk → Know W (sealed m pk)
  | open' {m sk : Term} : Know W (sealed m (pub sk)) → Know W sk → Know W m
  | server {d : Bool} {a b : Term} : Know W a → Know W (pub b) → Know W (shared d a b)
  | client {d : Bool} {a b : Term} : Know W b → Know W (pub a) → Know W (shared d a b)
  | odd (d : Bool) (a b : Term) : Know W (odd d a b)
  | kdf {l : Nat} {k : Term} : Know W k → Know W (kdf l k)
  | enc {k m : Term} : Know W k → Know W m → Know W (enc k m)
  | dec {k m : Term} : Know W (enc k m) → Know W k → Know W m
  | hello {t : Term} : Know W t → Know W (hello t)
  | unhello {t : Term} : Know W (hello t) → Know W t

/-- `seal_open(cipher, pk, sk)`. Symbolic reading of sodium_secretstream.rs:108-326. -/
def openSeal (sk : Term) : Term → Option Term
  | .sealed m (.pub sk') => if sk' = sk then some m else none
  | _ => none

/-- `client_session_keys(pk, sk, other)`, called by the server (sodium_secretstream.rs:158-166); `toServer` is its rx. -/
def serverKey (toServer : Bool) (sk other : Term) : Term :=
  match other with
  | .pub b => shared toServer sk b
  | t => odd toServer sk t

/-- `server_session_keys(pk, sk, other)`, called by the client (sodium_secretstream.rs:252-260); `toServer` is its tx. -/
def clientKey (toServer : Bool) (sk other : Term) : Term :=
  match other with
  | .pub a => shared toServer a sk
  | t => odd toServer sk t

/-- Whose key a client expects (the `k=` of its connection url).
    Symbolic reading of sodium_secretstream.rs:108-326. -/
inductive Target where
  | honest (n : Nat)
  /-- a key the attacker made -/
  | attacker (n : Nat)
deriving DecidableEq

/-- The public key the client was told to expect. Symbolic reading of sodium_secretstream.rs:108-326. -/
def Target.pk : Target → Term
  | .honest n => pub (atom (.srv n))
  | .attacker n => pub (atom (.adv n))

/-- A connection of a client. Symbolic reading of sodium_secretstream.rs:108-326. -/
inductive CliPhase where
  | idle
  /-- the initiator is sent -/
  | started
  /-- the handshake is complete with this key-exchange key of the peer -/
  | open (other : Term)
  /-- … and the unlock request is sent -/
  | unlocked (other : Term)
deriving DecidableEq

/-- An accepted connection of an honest server: which server, and the two keys in the initiator.
    Symbolic reading of sodium_secretstream.rs:108-326. -/
structure SrvSess where
  srv : Nat
  cbox : Term
  kx : Term
deriving DecidableEq

/-- The symbolic world: what is known to the attacker, where each client is, which sessions servers have.
    Symbolic reading of sodium_secretstream.rs:108-326. -/
structure St where
  /-- everything ever sent, by anybody honest, and leaked keys -/
  wire : List Term
  cli : Nat → CliPhase
  /-- accepted connections; connection `j` uses the ephemeral secret `skx j` -/
  sess : List SrvSess
  /-- servers whose identity key has been given to the attacker -/
  leaked : Nat → Prop
  /-- accepted connections on which an unlock request with this passphrase was received -/
  opened : List (Nat × Nat)

/-- Nothing has happened. Specification: nothing in the code corresponds. -/
def St.init : St := ⟨[], fun _ => .idle, [], fun _ => False, []⟩

/-- What the attacker knows in a state: it can compute from all that was sent; public keys of servers are public.
    Specification: nothing in the code corresponds. -/
def St.knows (s : St) (t : Term) : Prop := Know (fun t => t ∈ s.wire ∨ ∃ n, t = pub (atom (.srv n))) t

/-- The initiator of connection `i` (`clientInit`). Symbolic reading of sodium_secretstream.rs:108-326. -/
def initiator (target : Nat → Target) (i : Nat) : Term :=
  sealed (pair (pub (atom (.cbox i))) (pub (atom (.ckx i)))) (target i).pk

/-- An unlock request with passphrase `p`, twice encrypted: the passphrase under the context key (`encryptPassphrase`,
    `clientEncKey`), the message under the stream key `tx`. Symbolic reading of sodium_secretstream.rs:108-326. -/
def unlockMsg (tx : Term) (p : Nat) : Term := enc tx (enc (kdf 142 tx) (atom (.pass p)))

/-- Client `i` is now in phase `p`. Symbolic reading of sodium_secretstream.rs:108-326. -/
def setCli (f : Nat → CliPhase) (i : Nat) (p : CliPhase) : Nat → CliPhase := fun k => if k = i then p else f k

/-- What can happen. Everything received is chosen by the attacker among what it knows. Client connection `i` expects
    the key `target i` and uses passphrase `pw i`. Symbolic reading of sodium_secretstream.rs:108-326. -/
inductive Step (target : Nat → Target) (pw : Nat → Nat) : St → St → Prop
  /-- a client connects: sends its initiator (sodium_secretstream.rs:210-240) -/
  | start {s : St} (i : Nat) : s.cli i = .idle →
      Step target pw s { s with cli := setCli s.cli i .started, wire := s.wire ++ [initiator target i] }
  /-- server `n` receives `msg` as an initiator and, if it opens, answers (:120-176) -/
  | accept {s : St} (n : Nat) (msg cb kx : Term) : s.knows msg → openSeal (atom (.srv n)) msg = some (pair cb kx) →
      Step target pw s { s with
        sess := s.sess ++ [⟨n, cb, kx⟩]
        wire := s.wire ++ [sealed (pub (atom (.skx s.sess.length))) cb] }
  /-- the client receives `msg` as the answer (:242-282) -/
  | finish {s : St} (i : Nat) (msg other : Term) : s.cli i = .started → s.knows msg →
      openSeal (atom (.cbox i)) msg = some other →
      Step target pw s { s with cli := setCli s.cli i (.open other) }
  /-- a server answers a hello request (lair_server/priv_api.rs:5-40); requests themselves carry no secret -/
  | hello {s : St} (j : Nat) (e : SrvSess) : s.sess[j]? = some e →
      Step target pw s { s with wire := s.wire ++ [enc (serverKey false (atom (.skx j)) e.kx) (hello (pub (atom (.srv e.srv))))] }
  /-- the client receives the hello answer, checks the key in it and sends its passphrase (`connectProg`) -/
  | unlock {s : St} (i : Nat) (other msg : Term) : s.cli i = .open other → s.knows msg →
      msg = enc (clientKey false (atom (.ckx i)) other) (hello (target i).pk) →
      Step target pw s { s with cli := setCli s.cli i (.unlocked other), wire := s.wire ++ [unlockMsg (clientKey true (atom (.ckx i)) other) (pw i)] }
  /-- accepted connection `j` receives an unlock request that decrypts to passphrase `p` (lair_server/priv_api.rs:42-75);
      whether it is the right one is decided after that (`unlockCheck`) -/
  | opened {s : St} (j p : Nat) (e : SrvSess) : s.sess[j]? = some e →
      s.knows (unlockMsg (serverKey true (atom (.skx j)) e.kx) p) →
      Step target pw s { s with opened := s.opened ++ [(j, p)] }
  /-- the attacker gets a server's identity key -/
  | leak {s : St} (n : Nat) :
      Step target pw s { s with leaked := fun k => k = n ∨ s.leaked k, wire := s.wire ++ [atom (.srv n)] }

/-- Any number of things happen. Specification: nothing in the code corresponds. -/
inductive Steps (target : Nat → Target) (pw : Nat → Nat) : St → St → Prop
  | refl (s : St) : Steps target pw s s
  | tail {s t u : St} : Steps target pw s t → Step target pw t u → Steps target pw s u

/-- Runs from the beginning. Specification: nothing in the code corresponds. -/
def Reachable (target : Nat → Target) (pw : Nat → Nat) (s : St) : Prop := Steps target pw St.init s

/-- The handshake of connection `i` is complete. Symbolic reading of sodium_secretstream.rs:108-326. -/
def CliPhase.other? : CliPhase → Option Term
  | .open o => some o
  | .unlocked o => some o
  | _ => none

end Lair.Sym
