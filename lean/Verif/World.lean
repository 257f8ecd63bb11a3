import Verif.System
import Verif.Sender
import Verif.Client

/-
The whole thing put together: any number of clients, each on its own encrypted connection to one server. The parts are the
models of the other files; this file only says how they are connected in the code:

* a client request registers itself in the pending table and goes through the shared sending half
  (lair_client/async_io.rs:116-160);
* the server's loop polls its receiver and starts a handler per message (lair_server/priv_srv.rs:191-223);
* a finished handler gives its response to the connection's shared sending half; if that fails the error is sent
  instead (priv_srv.rs:202-221);
* the client's loop polls its receiver and hands each message to the pending table (async_io.rs:58-84).

Between the two ends is the network, which decides which bytes arrive (any, unless a theorem says otherwise), in which
pieces, when, and when an end sees the other's end as closed.
-/
namespace Lair

variable {S : SStream} {E : Env}

/-- One direction of a connection: sending half, receiving half. `start`, `pushed` (call number and message of everything
    encrypted, in order), `net` and `got` (messages delivered) are ghost. -/
structure Link (S : SStream) where
  start : S.St
  snd : SndSt S
  rcv : MsgRecv S
  pushed : List (Nat × Msg)
  net : List RecvEv
  got : List Msg

/-- A direction right after the handshake. Code: inner.rs, crypt.rs, framed.rs (Sender.lean, SecretStream.lean). -/
def Link.init (s : S.St) : Link S := ⟨s, .init s, .init s, [], [], []⟩

/-- The message that call `k` encrypts now, if it does (`PrivSend::send`, inner.rs:66-73). -/
def SndSt.pushing (s : SndSt S) : SEv → List (Nat × Msg)
  | .push k => match s.calls[k]? with
    | some ⟨some m, .taken⟩ => [(k, m)]
    | _ => []
  | _ => []

/-- The sending half makes a step. Code: inner.rs, crypt.rs, framed.rs (Sender.lean, SecretStream.lean). -/
def Link.send (l : Link S) (e : SEv) : Link S :=
  { l with snd := l.snd.step e, pushed := l.pushed ++ l.snd.pushing e }

/-- Bytes arrive at the receiving half. Code: inner.rs, crypt.rs, framed.rs (Sender.lean, SecretStream.lean). -/
def Link.arrive (l : Link S) (c : Bytes) : Link S :=
  { l with rcv := (MsgRecv.ops S).feed l.rcv c, net := l.net ++ [.arrive c] }

/-- The receiving half sees the end of the stream.
    Code: inner.rs, crypt.rs, framed.rs (Sender.lean, SecretStream.lean). -/
def Link.close (l : Link S) : Link S :=
  { l with rcv := (MsgRecv.ops S).close l.rcv, net := l.net ++ [.close] }

/-- The messages in the result of a poll. Code: inner.rs, crypt.rs, framed.rs (Sender.lean, SecretStream.lean). -/
def Polled.toList {α : Type} : Polled α → List α
  | .item a => [a]
  | _ => []

/-- The receiving half is polled. Code: inner.rs, crypt.rs, framed.rs (Sender.lean, SecretStream.lean). -/
def Link.poll (l : Link S) : Link S :=
  { l with rcv := l.rcv.poll.2, net := l.net ++ [.poll], got := l.got ++ l.rcv.poll.1.toList }

/-- A request made by a client. `call`: its call of the sending half.
    Code: async_io.rs:58-160, priv_srv.rs:191-225. -/
structure Asked where
  id : String
  req : Req
  call : Nat
deriving DecidableEq

/-- A connection. `asked` and `cevs` are ghost (all requests; what happened to the pending table). -/
structure Conn (S : SStream) where
  cli : CliSt
  asked : List Asked
  cevs : List CEv
  /-- client to server -/
  up : Link S
  /-- server to client -/
  down : Link S
  /-- sends of the server whose failure is followed by an error message -/
  retry : List Nat
  /-- the server process this connection belonged to has ended -/
  gone : Bool

/-- A connection right after the handshake, which has given both ends the same stream states (C25).
    Code: async_io.rs:58-160, priv_srv.rs:191-225. -/
def Conn.init (u d : S.St) : Conn S := ⟨.init, [], [], .init u, .init d, [], false⟩

/-- Something happens to the pending table. Code: async_io.rs:58-160, priv_srv.rs:191-225. -/
def Conn.cliStep (x : Conn S) (e : CEv) : Conn S := { x with cli := x.cli.step e, cevs := x.cevs ++ [e] }

/-- What happens on one connection, the server's handlers apart. Code: async_io.rs:58-160, priv_srv.rs:191-225. -/
inductive NEv where
  /-- a request is made: `AsLairClient::request` (async_io.rs:116-139) and the first poll of the send -/
  | ask (id : String) (q : Req)
  /-- the send of request `k` is complete (async_io.rs:147) -/
  | asked (k : Nat)
  /-- the future of request `k` is polled / its 30 seconds are over / it is dropped by the caller -/
  | wake (k : Nat)
  | timeout (k : Nat)
  | cancel (k : Nat)
  /-- the client shuts its sending half down (`LairClient::shutdown`, and the end of the receive loop, async_io.rs:78) -/
  | shutdown
  /-- progress of the sends in the client: permit, encryption, writing, i/o errors -/
  | upSend (e : SEv)
  /-- the network brings bytes to the server / the server sees the stream closed -/
  | upArrive (c : Bytes)
  | upClose
  /-- progress of the sends in the server -/
  | downSend (e : SEv)
  /-- the send of a response has failed: send the error instead (priv_srv.rs:212-221) -/
  | downRetry (k : Nat)
  /-- the server's receive loop is over: `send.shutdown()` (priv_srv.rs:228) -/
  | downShutdown
  | downArrive (c : Bytes)
  | downClose
  /-- the client's loop polls its receiver (async_io.rs:58-84) -/
  | poll
deriving DecidableEq

/-- Progress events of a sending half that are not calls or drops of calls.
    Code: async_io.rs:58-160, priv_srv.rs:191-225. -/
def SEv.internal : SEv → Bool
  | .call _ => false
  | .drop _ => false
  | _ => true

/-- One event on a connection. Code: async_io.rs:58-160, priv_srv.rs:191-225. -/
def Conn.step (x : Conn S) : NEv → Conn S
  | .ask id q =>
    { x.cliStep (.start id) with
      asked := x.asked ++ [⟨id, q, x.up.snd.calls.length⟩]
      up := x.up.send (.call (some (.req id q))) }
  | .asked k =>
    match x.asked[k]? with
    | some a =>
      match x.up.snd.calls[a.call]? with
      | some ⟨_, .done r⟩ => x.cliStep (.sent k r)
      | _ => x
    | none => x
  | .wake k => x.cliStep (.wake k)
  | .timeout k => x.cliStep (.timeout k)
  | .cancel k =>
    match x.asked[k]? with
    | some a => { x.cliStep (.cancel k) with up := x.up.send (.drop a.call) }
    | none => x
  | .shutdown => { x with up := x.up.send (.call none) }
  | .upSend e => if e.internal then { x with up := x.up.send e } else x
  | .upArrive c => { x with up := x.up.arrive c }
  | .upClose => { x with up := x.up.close }
  | .downSend e => if e.internal && !x.gone then { x with down := x.down.send e } else x
  | .downRetry k =>
    if x.gone then x
    else if k ∈ x.retry then
      match x.down.snd.calls[k]? with
      | some ⟨some (.res id _), .done (.error e)⟩ =>
        { x with retry := x.retry.erase k, down := x.down.send (.call (some (.res id (.error e)))) }
      | _ => x
    else x
  | .downShutdown => if x.gone then x else { x with down := x.down.send (.call none) }
  | .downArrive c => { x with down := x.down.arrive c }
  | .downClose => { x with down := x.down.close }
  | .poll =>
    match x.down.rcv.poll.1 with
    | .item m => { x.cliStep (.arrive m) with down := x.down.poll }
    | .finished => { x.cliStep .connEnd with down := x.down.poll }
    | _ => { x with down := x.down.poll }

/-- A finished handler sends its response, an unsuccessful one an error (priv_srv.rs:202-221, priv_api.rs: the last action
    of each handler is `send.send(...).await?`). -/
def Conn.reply (x : Conn S) (id : String) : Res Resp → Conn S
  | .ok r => { x with retry := x.retry ++ [x.down.snd.calls.length], down := x.down.send (.call (some (.res id r))) }
  | .error e => { x with down := x.down.send (.call (some (.res id (.error e)))) }

/-- The world. `sevs` (what happened to the server) is ghost. -/
structure World (E : Env) (S : SStream) where
  sys : Sys E
  conns : List (Conn S)
  sevs : List Event

/-- A server just started on `st`, no connections. Code: priv_srv.rs:141-236, async_io.rs:58-160. -/
def World.init (E : Env) (S : SStream) (st : E.S.σ) : World E S := ⟨.init E st, [], []⟩

/-- What can happen with one server and its clients over encrypted connections (priv_srv.rs:191-227, async_io.rs:46-160). -/
inductive WEv (S : SStream) where
  /-- a client connects; the handshake gives these stream states -/
  | connect (u d : S.St)
  | net (c : Nat) (e : NEv)
  /-- the server's loop of connection `c` polls its receiver -/
  | serve (c : Nat)
  /-- the `i`-th request in flight makes a step -/
  | act (i : Nat) (ch : Choice)
  /-- the server process ends and is started again on the same store; its connections are gone -/
  | restart

/-- Something happens to the server. Code: priv_srv.rs:141-236, async_io.rs:58-160. -/
def World.sysStep (w : World E S) (e : Event) : World E S := { w with sys := w.sys.step e, sevs := w.sevs ++ [e] }

/-- What a request in flight that has come to its end has for its client.
    Code: priv_srv.rs:141-236, async_io.rs:58-160. -/
def outcomeOf : Prog Resp → Option (Res Resp)
  | .ret r => some (.ok r)
  | .fail e => some (.error e)
  | .step _ _ => none

/-- One event; what happens in the server is an event of `System`. Code: priv_srv.rs:141-236, async_io.rs:58-160. -/
def World.step (w : World E S) : WEv S → World E S
  | .connect u d => { w with conns := w.conns ++ [.init u d] }
  | .net c e => { w with conns := w.conns.modify c (fun x => x.step e) }
  | .serve c =>
    match w.conns[c]? with
    | none => w
    | some x =>
      if x.gone then w
      else
        let w' := { w with conns := w.conns.modify c (fun x => { x with up := x.up.poll }) }
        match x.up.rcv.poll.1 with
        | .item m => w'.sysStep (.recv c m)
        | _ => w'
  | .act i ch =>
    let w' := w.sysStep (.step i ch)
    match w.sys.threads[i]? with
    | none => w'
    | some t =>
      match outcomeOf t.prog with
      | some o => { w' with conns := w.conns.modify t.conn (fun x => x.reply t.msg.id o) }
      | none => w'
  | .restart => { w.sysStep .restart with conns := w.conns.map (fun x => { x with gone := true }) }

/-- All events in turn. Specification: nothing in the code corresponds. -/
def World.run (E : Env) (S : SStream) (st : E.S.σ) (evs : List (WEv S)) : World E S := evs.foldl World.step (.init E S st)

/-! ### Vocabulary for statements -/

/-- What the `k`-th request made on connection `c` was. Specification: nothing in the code corresponds. -/
def World.request (w : World E S) (c k : Nat) : Option (String × Req) :=
  (w.conns[c]?.bind (fun x => x.asked[k]?)).map (fun a => (a.id, a.req))

/-- The result of the `k`-th request made on connection `c`, if it is complete: what the typed method returns
    (lair_client.rs:45-68). -/
def World.result (w : World E S) (c k : Nat) : Option (Res Resp) :=
  match w.conns[c]? with
  | none => none
  | some x =>
    match x.asked[k]?, x.cli.reqs[k]? with
    | some a, some ⟨_, .done r, _⟩ => some (typedResult a.req r)
    | _, _ => none

/-- The message ids chosen for the requests on connection `c` (`new_msg_id`: 21 random characters each) differ.
    Specification: nothing in the code corresponds. -/
def World.FreshIds (w : World E S) (c : Nat) : Prop := ∀ x, w.conns[c]? = some x → (x.asked.map Asked.id).Nodup

/-- On connection `c` nobody has forged: among what arrived in either direction, only the sender's own ciphers, each in
    its turn, are acceptable. Specification: nothing in the code corresponds. -/
def World.Unforged (w : World E S) (c : Nat) : Prop := ∀ x, w.conns[c]? = some x →
  Lair.Unforged S x.up.start (x.up.pushed.map (fun p => Codec.encodeMsg p.2)) (arrived x.up.net) ∧
  Lair.Unforged S x.down.start (x.down.pushed.map (fun p => Codec.encodeMsg p.2)) (arrived x.down.net)

end Lair
