import Verif.Handshake

/-
Accepting connections: crates/lair_keystore_api/src/ipc_keystore.rs:42-64 (the accepting task) and
ipc_keystore/raw_ipc.rs:41-75 (`ipc_bind`: the stream of incoming connections).

The task is `con_recv.for_each_concurrent(4096, |incoming| async { srv_hnd.accept(send, recv).await })`:

* `for_each_concurrent(n, f)` takes the next item of the stream only while fewer than `n` futures returned by `f` are
  unfinished. Here the future is `priv_srv_accept` (lair_server/priv_srv.rs:141-235), which lasts exactly as long as the
  handshake; the connection itself is served by a task spawned at its end.
* the stream is `futures::stream::try_unfold(socket, ..)`: it owns the listening socket; after an item `Err(_)` it has no
  state any more and ends, and the socket has been dropped.

The operating system's queue of a listening socket is modelled as unbounded, first in first out. There is no time-out
in the handshake, so none here.
-/
namespace Lair

/-- How far a connecting client has come: in the queue of the listening socket, its handshake running, served by its own
    task, or closed by the server (or never connected, because nothing listened).
    Code: raw_ipc.rs:41-75, ipc_keystore.rs:42-64. -/
inductive Place where
  | queued | shaking | served | closed
deriving DecidableEq

/-- A connecting client as the server sees it: the bytes that have arrived from it, whether it has closed the connection,
    and the random values the server will use for it (sodium_secretstream.rs:138-146, 316). -/
structure Peer where
  sent : Bytes
  ended : Bool
  rand : ServerRand
  place : Place

/-- The accepting task. `listening`: the stream still has its socket (raw_ipc.rs:63-72). -/
structure Acceptor where
  listening : Bool
  peers : List Peer

/-- Right after `ipc_bind`. Code: raw_ipc.rs:41-75, ipc_keystore.rs:42-64. -/
def Acceptor.init : Acceptor := ⟨true, []⟩

/-- `for_each_concurrent(4096, ..)` (ipc_keystore.rs:46). -/
def acceptLimit : Nat := 4096

/-- Handshakes under way. Code: raw_ipc.rs:41-75, ipc_keystore.rs:42-64. -/
def Acceptor.shaking (a : Acceptor) : Nat := a.peers.countP (fun p => p.place == .shaking)

variable (K : Kx) (srvPk srvSk : B 32)

/-- Where a handshake is, given what has arrived (`new_s3_server`, sodium_secretstream.rs:108-189, 302-326: read 112 bytes,
    open them, answer, read 24 bytes): `none` if it waits for more bytes, else whether it succeeds. The answer of 104 bytes
    always fits into the empty buffer of a fresh socket, so writing it does not wait. -/
def Peer.handshake (p : Peer) : Option Bool :=
  if p.sent.length < 112 then (if p.ended then some false else none)
  else
    match serverKeysOf K srvPk srvSk p.rand p.sent with
    | .error _ => some false
    | .ok _ => if p.sent.length < 136 then (if p.ended then some false else none) else some true

/-- Replace the place of peer `k`. Code: raw_ipc.rs:41-75, ipc_keystore.rs:42-64. -/
def Acceptor.move (a : Acceptor) (k : Nat) (pl : Place) : Acceptor :=
  { a with peers := a.peers.modify k (fun p => { p with place := pl }) }

/-- What can happen to the listener and its connections (raw_ipc.rs:41-75, ipc_keystore.rs:42-64, priv_srv.rs:141-235). -/
inductive AccEv where
  /-- a client connects to the socket; if nothing listens it is refused -/
  | connect (r : ServerRand)
  /-- bytes of client `k` arrive / client `k` closes the connection -/
  | bytes (k : Nat) (b : Bytes)
  | leave (k : Nat)
  /-- the next connection is taken from the socket: `socket.accept().await?` (raw_ipc.rs:66) succeeds -/
  | accept
  /-- `socket.accept()` fails, e.g. because the process has too many open files -/
  | acceptFails
  /-- the handshake of client `k` goes on with what has arrived -/
  | shake (k : Nat)
  /-- the server's write to client `k`, who has closed the connection, fails -/
  | writeFails (k : Nat)

/-- The stream is polled only then (`for_each_concurrent`). Code: raw_ipc.rs:41-75, ipc_keystore.rs:42-64. -/
def Acceptor.polls (a : Acceptor) : Bool := a.listening && decide (a.shaking < acceptLimit)

/-- The oldest connection in the queue. Code: raw_ipc.rs:41-75, ipc_keystore.rs:42-64. -/
def Acceptor.oldest (a : Acceptor) : Option Nat := a.peers.findIdx? (fun p => p.place == .queued)

/-- One event. Code: raw_ipc.rs:41-75, ipc_keystore.rs:42-64. -/
def Acceptor.step (a : Acceptor) : AccEv → Acceptor
  | .connect r => { a with peers := a.peers ++ [⟨[], false, r, if a.listening then .queued else .closed⟩] }
  | .bytes k b => { a with peers := a.peers.modify k (fun p => if p.ended then p else { p with sent := p.sent ++ b }) }
  | .leave k => { a with peers := a.peers.modify k (fun p => { p with ended := true }) }
  | .accept =>
    if a.polls then
      match a.oldest with
      | some k => a.move k .shaking
      | none => a
    else a
  | .acceptFails =>
    if a.polls then
      ⟨false, a.peers.map (fun p => if p.place = .queued then { p with place := .closed } else p)⟩
    else a
  | .shake k =>
    match a.peers[k]? with
    | some p =>
      if p.place = .shaking then
        match p.handshake K srvPk srvSk with
        | some true => a.move k .served
        | some false => a.move k .closed
        | none => a
      else a
    | none => a
  | .writeFails k =>
    match a.peers[k]? with
    | some p => if p.place = .shaking ∧ p.ended then a.move k .closed else a
    | none => a

/-- A history. Code: raw_ipc.rs:41-75, ipc_keystore.rs:42-64. -/
def Acceptor.run (a : Acceptor) (evs : List AccEv) : Acceptor := evs.foldl (Acceptor.step K srvPk srvSk) a

end Lair
