import Verif.World
import Verif.Handshake

/-
Clients and server from the moment a client opens the socket: the world of World.lean with the handshake of every connection
in it, byte by byte (crates/lair_keystore_api/src/sodium_secretstream.rs:108-282, :302-326; ipc_keystore.rs:28-64 for the server,
:67-100 for the client).

Each side reads exactly the bytes of its handshake (`read_exact`: 112 and 24 on the server, 80 and 24 on the client) and then has
a session; from then on its half of the connection works as in World.lean. The two sides finish in any order, and a client
that has finished makes requests while the server still waits for the client's header. Strangers are peers that
open the socket and send whatever bytes they like.

Simplifications: the server accepts whoever opens the socket (when it does not: Accept.lean, C61); an unacceptable sealed message is noticed when the handshake is complete, not after its own bytes; a
half-made connection has placeholders in the halves of the side that has not finished, which nothing uses (`clientUp`, `serverUp` replace them).
-/
namespace Lair.Dial

variable {S : SStream} {E : Env}

/-- The server's identity keys, and the primitives of the handshake. Code: priv_srv.rs:98-101. -/
structure Ident where
  K : Kx
  pk : B 32
  sk : B 32

/-- A connection. Code: sodium_secretstream.rs:108-282, priv_srv.rs:141-236, async_io.rs:58-160. -/
structure HConn (S : SStream) where
  /-- the random values of its client; none for a stranger -/
  cr : Option ClientRand
  sr : ServerRand
  /-- what each side has read in its handshake -/
  cin : Bytes
  sin : Bytes
  /-- what each side has after its handshake -/
  cli : Option (Session S)
  srv : Option (Session S)
  /-- a handshake has come to an end without success -/
  cOver : Bool
  sOver : Bool
  /-- the server process has ended -/
  gone : Bool
  /-- the connection, as far as it is made -/
  x : Option (Conn S)

/-- A peer that has opened the socket and is no client of this library, before its handshake is complete.
    Code: sodium_secretstream.rs:108-282, priv_srv.rs:141-236, async_io.rs:58-160. -/
structure Stranger where
  sr : ServerRand
  sin : Bytes
  over : Bool

/-- The client has its session: its halves start (sodium_secretstream.rs:302-326). -/
def clientUp (x : Option (Conn S)) (gone : Bool) (s : Session S) : Conn S :=
  let x := x.getD { Conn.init s.enc s.dec with gone := gone }
  { x with
    up := { x.up with start := s.enc, snd := .init s.enc }
    down := { x.down with rcv := .init s.dec } }

/-- The server has its session: its halves start.
    Code: sodium_secretstream.rs:108-282, priv_srv.rs:141-236, async_io.rs:58-160. -/
def serverUp (x : Option (Conn S)) (gone : Bool) (s : Session S) : Conn S :=
  let x := x.getD { Conn.init s.dec s.enc with gone := gone }
  { x with
    up := { x.up with rcv := .init s.dec }
    down := { x.down with start := s.enc, snd := .init s.enc } }

/-- The server's handshake reads `b` (`new_s3_server`, sodium_secretstream.rs:108-189): it never reads more than its 136 bytes. -/
def HConn.serverReads (I : Ident) (h : HConn S) (b : Bytes) : HConn S :=
  if h.sOver || 136 < (h.sin ++ b).length then h
  else if (h.sin ++ b).length < 136 then { h with sin := h.sin ++ b }
  else
    match serverAccept S I.K I.pk I.sk h.sr (h.sin ++ b) with
    | .ok (_, s) => { h with sin := h.sin ++ b, srv := some s, x := some (serverUp h.x h.gone s) }
    | .error _ => { h with sin := h.sin ++ b, sOver := true }

/-- The client's handshake reads `b` (`new_s3_client`, sodium_secretstream.rs:192-282): it never reads more than its 104 bytes. -/
def HConn.clientReads (I : Ident) (h : HConn S) (b : Bytes) : HConn S :=
  match h.cr with
  | none => h
  | some cr =>
    if h.cOver || 104 < (h.cin ++ b).length then h
    else if (h.cin ++ b).length < 104 then { h with cin := h.cin ++ b }
    else
      match clientFinish S I.K cr (h.cin ++ b) with
      | .ok (_, s) => { h with cin := h.cin ++ b, cli := some s, x := some (clientUp h.x h.gone s) }
      | .error _ => { h with cin := h.cin ++ b, cOver := true }

/-- An event on the connection proper (World.lean).
    Code: sodium_secretstream.rs:108-282, priv_srv.rs:141-236, async_io.rs:58-160. -/
def HConn.onConn (h : HConn S) (e : NEv) : HConn S := { h with x := h.x.map (fun x => x.step e) }

/-- One event on a connection: bytes go to the handshake as long as it lasts, a side does nothing else before it has
    finished its handshake. Code: sodium_secretstream.rs:108-282, priv_srv.rs:141-236, async_io.rs:58-160. -/
def HConn.step (I : Ident) (h : HConn S) : NEv → HConn S
  | .upArrive b => if h.srv.isSome then h.onConn (.upArrive b) else h.serverReads I b
  | .upClose => if h.srv.isSome then h.onConn .upClose else { h with sOver := true }
  | .downArrive b => if h.cli.isSome then h.onConn (.downArrive b) else h.clientReads I b
  | .downClose => if h.cli.isSome then h.onConn .downClose else { h with cOver := true }
  | .downSend e => if h.srv.isSome then h.onConn (.downSend e) else h
  | .downRetry k => if h.srv.isSome then h.onConn (.downRetry k) else h
  | .downShutdown => if h.srv.isSome then h.onConn .downShutdown else h
  | e => if h.cli.isSome then h.onConn e else h

/-- Server, connections, strangers. Code: sodium_secretstream.rs:108-282, priv_srv.rs:141-236, async_io.rs:58-160. -/
structure HWorld (E : Env) (S : SStream) where
  sys : Sys E
  conns : List (HConn S)
  strangers : List Stranger

/-- What can happen while connections are made and used (sodium_secretstream.rs:108-282, ipc_keystore.rs:28-64). -/
inductive HEv where
  /-- a client opens the socket and the server accepts (ipc_keystore.rs:28-64); the random values both will use -/
  | dial (cr : ClientRand) (sr : ServerRand)
  /-- somebody else does -/
  | stranger (sr : ServerRand)
  /-- the server reads bytes of the `r`-th stranger's handshake / sees its end -/
  | strangerSends (r : Nat) (b : Bytes)
  | strangerLeaves (r : Nat)
  | net (c : Nat) (e : NEv)
  | serve (c : Nat)
  | act (i : Nat) (ch : Choice)
  | restart

/-- A handshake with a stranger goes on; when it is complete, the stranger has a connection like a client.
    Code: sodium_secretstream.rs:108-282, priv_srv.rs:141-236, async_io.rs:58-160. -/
def HWorld.strangerReads (I : Ident) (h : HWorld E S) (r : Nat) (t : Stranger) (b : Bytes) : HWorld E S :=
  if t.over || 136 < (t.sin ++ b).length then h
  else if (t.sin ++ b).length < 136 then { h with strangers := h.strangers.set r { t with sin := t.sin ++ b } }
  else
    match serverAccept S I.K I.pk I.sk t.sr (t.sin ++ b) with
    | .ok (_, s) =>
      { h with
        strangers := h.strangers.set r { t with over := true }
        conns := h.conns ++ [⟨none, t.sr, [], t.sin ++ b, none, some s, true, false, false, some (serverUp none false s)⟩] }
    | .error _ => { h with strangers := h.strangers.set r { t with over := true } }

/-- One event: handshake steps as in `Handshake`, everything after it as in `World`.
    Code: sodium_secretstream.rs:108-282, priv_srv.rs:141-236, async_io.rs:58-160. -/
def HWorld.step (I : Ident) (h : HWorld E S) : HEv → HWorld E S
  | .dial cr sr => { h with conns := h.conns ++ [⟨some cr, sr, [], [], none, none, false, false, false, none⟩] }
  | .stranger sr => { h with strangers := h.strangers ++ [⟨sr, [], false⟩] }
  | .strangerSends r b =>
    match h.strangers[r]? with
    | none => h
    | some t => h.strangerReads I r t b
  | .strangerLeaves r => { h with strangers := h.strangers.modify r (fun t => { t with over := true }) }
  | .net c e => { h with conns := h.conns.modify c (fun x => x.step I e) }
  | .serve c =>
    match h.conns[c]? with
    | none => h
    | some hc =>
      if hc.srv.isNone then h
      else
        match hc.x with
        | none => h
        | some x =>
          if x.gone then h
          else
            let h' := { h with conns := h.conns.modify c (fun y => { y with x := some { x with up := x.up.poll } }) }
            match x.up.rcv.poll.1 with
            | .item m => { h' with sys := h.sys.step (.recv c m) }
            | _ => h'
  | .act i ch =>
    let h' := { h with sys := h.sys.step (.step i ch) }
    match h.sys.threads[i]? with
    | none => h'
    | some t =>
      match outcomeOf t.prog with
      | some o => { h' with conns := h.conns.modify t.conn (fun y => { y with x := y.x.map (fun x => x.reply t.msg.id o) }) }
      | none => h'
  | .restart =>
    { h with
      sys := h.sys.step .restart
      conns := h.conns.map (fun y => { y with gone := true, sOver := true, x := y.x.map (fun x => { x with gone := true }) })
      strangers := h.strangers.map (fun t => { t with over := true }) }

/-- A server just started on `st`, nobody there.
    Code: sodium_secretstream.rs:108-282, priv_srv.rs:141-236, async_io.rs:58-160. -/
def HWorld.init (E : Env) (S : SStream) (st : E.S.σ) : HWorld E S := ⟨.init E st, [], []⟩

/-- All events in turn. Specification: nothing in the code corresponds. -/
def HWorld.run (I : Ident) (E : Env) (S : SStream) (st : E.S.σ) (evs : List HEv) : HWorld E S :=
  evs.foldl (HWorld.step I) (.init E S st)

/-! ### Vocabulary for statements -/

/-- What the `k`-th request made on connection `c` was. Specification: nothing in the code corresponds. -/
def HWorld.request (h : HWorld E S) (c k : Nat) : Option (String × Req) :=
  ((h.conns[c]?.bind HConn.x).bind (fun x => x.asked[k]?)).map (fun a => (a.id, a.req))

/-- The result of the `k`-th request made on connection `c`, if it is complete.
    Specification: nothing in the code corresponds. -/
def HWorld.result (h : HWorld E S) (c k : Nat) : Option (Res Resp) :=
  match h.conns[c]?.bind HConn.x with
  | none => none
  | some x =>
    match x.asked[k]?, x.cli.reqs[k]? with
    | some a, some ⟨_, .done r, _⟩ => some (typedResult a.req r)
    | _, _ => none

/-- What a client writes in its handshake, having read `cin`: its sealed keys, and after the server's answer its header.
    Specification: nothing in the code corresponds. -/
def clientWrites (I : Ident) (cr : ClientRand) (cin : Bytes) : Bytes :=
  clientInit I.K I.pk cr ++ (if 80 ≤ cin.length then cr.header.val else [])

/-- What the server writes in its handshake, having read `sin`: nothing before the client's sealed keys, then its own and its header.
    Specification: nothing in the code corresponds. -/
def serverWrites (I : Ident) (sr : ServerRand) (sin : Bytes) : Bytes :=
  match serverKeysOf I.K I.pk I.sk sr sin with
  | .ok (reply, _, _) => reply ++ sr.header.val
  | .error _ => []

/-- The network has brought the handshakes of the clients unaltered: what each side has read is what the other had written.
    Specification: nothing in the code corresponds. -/
def HWorld.Untampered (I : Ident) (h : HWorld E S) : Prop :=
  ∀ c ∈ h.conns, ∀ cr, c.cr = some cr → c.sin <+: clientWrites I cr c.cin ∧ c.cin <+: serverWrites I c.sr c.sin

/-- The message ids on connection `c` differ. Specification: nothing in the code corresponds. -/
def HWorld.FreshIds (h : HWorld E S) (c : Nat) : Prop := ∀ x, h.conns[c]?.bind HConn.x = some x → (x.asked.map Asked.id).Nodup

/-- On connection `c` nobody has forged since the handshake. Specification: nothing in the code corresponds. -/
def HWorld.Unforged (h : HWorld E S) (c : Nat) : Prop := ∀ x, h.conns[c]?.bind HConn.x = some x →
  Lair.Unforged S x.up.start (x.up.pushed.map (fun p => Codec.encodeMsg p.2)) (arrived x.up.net) ∧
  Lair.Unforged S x.down.start (x.down.pushed.map (fun p => Codec.encodeMsg p.2)) (arrived x.down.net)

end Lair.Dial
