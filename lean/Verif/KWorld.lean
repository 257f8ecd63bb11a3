import Verif.Life
import Verif.MWorld

/-
The whole life of a keystore, as its clients see it: the files on the disk, server processes that are started from the configuration
with any passphrases and may be cut off or end at any moment (`Verif.Life`), and for each of them any number of clients on encrypted
connections and callers of its store handle (`Verif.MWorld`).

Pid file and socket are not part of this (Boot.lean): any number of servers may be at work at the same time, and a client that
connects reaches one that is at work. Connections start with their stream states, which the handshake gives (C25, C55; Dial.lean).
-/
namespace Lair

variable {S : SStream} {E : Env}

/-- The files and the processes; the connections, each with the number of its process; the processes that have ended.
    Code: server.rs:17-101, priv_srv.rs:141-236, async_io.rs:58-160. -/
structure KWorld (E : Env) (S : SStream) where
  life : Life E
  conns : List (Nat × Conn S)
  dead : List Nat

/-- In the beginning there are files, and no process. Specification: nothing in the code corresponds. -/
def KWorld.init (E : Env) (S : SStream) (fs : Migr.Fs E.S.σ) : KWorld E S := ⟨⟨fs, [], []⟩, [], []⟩

/-- What can happen in the life of a keystore with its clients: events of `Life` (starts, crashes, handle calls) and of `MWorld` (connections, requests, the network).
    Code: server.rs:17-101, priv_srv.rs:141-236, async_io.rs:58-160. -/
inductive KEv (S : SStream) where
  /-- a server is started with a passphrase, with or without migration; it may be cut off after any of its changes of the files
      (server.rs:58-88; see `LifeEv.start`) -/
  | start (pass : Bytes) (migrate : Bool) (cut : Option Nat)
  /-- a server is started with a passphrase and without migration, and goes on step by step (see `LifeEv.begin`) -/
  | begin (pass : Bytes)
  /-- the `i`-th process that is opening the store file does its next step -/
  | advance (i : Nat)
  /-- server `j` ends, or crashes; its connections are gone -/
  | ends (j : Nat)
  /-- a client connects to server `j` -/
  | connect (j : Nat) (u d : S.St)
  /-- something happens on connection `c`, the server's handlers apart (World.lean) -/
  | net (c : Nat) (e : NEv)
  /-- the server's loop of connection `c` polls its receiver (priv_srv.rs:191-223) -/
  | serve (c : Nat)
  /-- the `i`-th request in flight in server `j` makes a step -/
  | act (j i : Nat) (ch : Choice)
  /-- the program around server `j` calls the store handle (lair_server.rs:60-66; see Local.lean) -/
  | call (j : Nat) (x : LocalCall) (ch : Nat → Choice)

/-- Server `j` has been started and has not ended. Code: server.rs:17-101, priv_srv.rs:141-236, async_io.rs:58-160. -/
def KWorld.isUp (w : KWorld E S) (j : Nat) : Bool := decide (j < w.life.procs.length) && !(w.dead.contains j)

/-- Something happens to files and processes (Life.lean).
    Code: server.rs:17-101, priv_srv.rs:141-236, async_io.rs:58-160. -/
def KWorld.lifeStep (cfg : Config) (w : KWorld E S) (e : LifeEv) : KWorld E S := { w with life := w.life.step cfg e }

/-- One event; compare `Life.step` and `MWorld.step`. What a server does to its store is in the file with the step that does it.
    Code: server.rs:17-101, priv_srv.rs:141-236, async_io.rs:58-160. -/
def KWorld.step (cfg : Config) (w : KWorld E S) : KEv S → KWorld E S
  | .start pass migrate cut => w.lifeStep cfg (.start pass migrate cut)
  | .begin pass => w.lifeStep cfg (.begin pass)
  | .advance i => w.lifeStep cfg (.advance i)
  | .ends j =>
    if w.isUp j then
      { w.lifeStep cfg (.at j (.srv .restart)) with
        conns := w.conns.map (fun p => if p.1 = j then (p.1, { p.2 with gone := true }) else p), dead := j :: w.dead }
    else w
  | .connect j u d => if w.isUp j then { w with conns := w.conns ++ [(j, .init u d)] } else w
  | .net c e => { w with conns := w.conns.modify c (fun p => (p.1, p.2.step e)) }
  | .serve c =>
    match w.conns[c]? with
    | none => w
    | some (j, x) =>
      if x.gone then w
      else
        let w' := { w with conns := w.conns.modify c (fun p => (p.1, { p.2 with up := p.2.up.poll })) }
        match x.up.rcv.poll.1 with
        | .item m => w'.lifeStep cfg (.at j (.srv (.recv c m)))
        | _ => w'
  | .act j i ch =>
    if w.isUp j then
      let w' := w.lifeStep cfg (.at j (.srv (.step i ch)))
      match w.life.procs[j]?.bind (fun l => l.sys.threads[i]?) with
      | none => w'
      | some t =>
        match outcomeOf t.prog with
        | some o => { w' with conns := w.conns.modify t.conn (fun p => (p.1, p.2.reply t.msg.id o)) }
        | none => w'
    else w
  | .call j x ch => if w.isUp j then w.lifeStep cfg (.at j (.call x ch)) else w

/-- All events in turn, from a disk. Specification: nothing in the code corresponds. -/
def KWorld.run (E : Env) (S : SStream) (cfg : Config) (fs : Migr.Fs E.S.σ) (evs : List (KEv S)) : KWorld E S :=
  evs.foldl (KWorld.step cfg) (.init E S fs)

/-! ### Vocabulary for statements -/

/-- What the `k`-th request made on connection `c` was. Specification: nothing in the code corresponds. -/
def KWorld.request (w : KWorld E S) (c k : Nat) : Option (String × Req) :=
  (w.conns[c]?.bind (fun p => p.2.asked[k]?)).map (fun a => (a.id, a.req))

/-- The result of the `k`-th request made on connection `c`, if it is complete: what the typed method returns
    (lair_client.rs:45-68). -/
def KWorld.result (w : KWorld E S) (c k : Nat) : Option (Res Resp) :=
  match w.conns[c]? with
  | none => none
  | some (_, x) =>
    match x.asked[k]?, x.cli.reqs[k]? with
    | some a, some ⟨_, .done r, _⟩ => some (typedResult a.req r)
    | _, _ => none

/-- The entries in the store file. Specification: nothing in the code corresponds. -/
def KWorld.entries (w : KWorld E S) : List Entry := w.life.entries

/-- The message ids chosen for the requests on connection `c` (`new_msg_id`: 21 random characters each) differ.
    Specification: nothing in the code corresponds. -/
def KWorld.FreshIds (w : KWorld E S) (c : Nat) : Prop := ∀ j x, w.conns[c]? = some (j, x) → (x.asked.map Asked.id).Nodup

/-- On connection `c` nobody has forged. Specification: nothing in the code corresponds. -/
def KWorld.Unforged (w : KWorld E S) (c : Nat) : Prop := ∀ j x, w.conns[c]? = some (j, x) →
  Lair.Unforged S x.up.start (x.up.pushed.map (fun p => Codec.encodeMsg p.2)) (arrived x.up.net) ∧
  Lair.Unforged S x.down.start (x.down.pushed.map (fun p => Codec.encodeMsg p.2)) (arrived x.down.net)

/-! ### SPECIFICATION: one sequential history explains everything, over the whole life of the keystore -/

section Spec
variable (E : Env) (S : SStream) (cfg : Config) (fs : Migr.Fs E.S.σ) (evs : List (KEv S))

/-- After `n` events the call is over: the request has succeeded, the handle call has returned.
    Specification: nothing in the code corresponds. -/
def Who.overIn (n : Nat) : Who → Prop
  | .request c k => ∃ v, (KWorld.run E S cfg fs (evs.take n)).result c k = some (.ok v)
  | .handle p => p < n

/-- After `n` events the call has not been made yet. Specification: nothing in the code corresponds. -/
def Who.notYetIn (n : Nat) : Who → Prop
  | .request c k => (KWorld.run E S cfg fs (evs.take n)).request c k = none
  | .handle p => n ≤ p

/-- Event `p` is the call `x` of the store handle of a server at work, and this is what it returned.
    Specification: nothing in the code corresponds. -/
def HandleIn (p : Nat) (x : LocalCall) (ch : Nat → Choice) (r : Res LocalOut) : Prop :=
  ∃ j l, evs[p]? = some (.call j x ch) ∧ (KWorld.run E S cfg fs (evs.take p)).isUp j = true ∧
    (KWorld.run E S cfg fs (evs.take p)).life.procs[j]? = some l ∧ r = l.result x ch

/-- At no time has anybody forged on a connection. Specification: nothing in the code corresponds. -/
def KNeverForged : Prop := ∀ n c, (KWorld.run E S cfg fs (evs.take n)).Unforged c

/-- The history `ops` explains what all clients of all servers there ever were, and the callers of their store handles, have seen, from the
    keystore `ks₀` on (compare `ExplainsAll`). Specification: nothing in the code corresponds. -/
structure ExplainsLife (okLim : UInt32 → UInt32 → Bool) (room : Item → Bool) (ks₀ : Keystore) (ops : List WOp) : Prop where
  correct : Keystore.Correct E.C okLim room ks₀ (ops.map WOp.op)
  final : Stands E (Keystore.after E.C okLim room ks₀ (ops.map WOp.op)) (KWorld.run E S cfg fs evs).entries
  once : (ops.map WOp.who).Nodup
  order : ops.Pairwise (fun a b => ¬ ∃ n, b.who.overIn E S cfg fs evs n ∧ a.who.notYetIn E S cfg fs evs n)
  requests : ∀ c k id q call v, (KWorld.run E S cfg fs evs).request c k = some (id, q) → q.call? E c = some call →
    (E.hasFallback = true → ∀ pk p m, call ≠ .sign pk p m) →
    (KWorld.run E S cfg fs evs).result c k = some (.ok v) → ∃ o ∈ ops, o.who = .request c k
  handles : ∀ p x ch r, HandleIn E S cfg fs evs p x ch r → x.asCall ≠ none → (∀ n, (ch n).fault = none) → ∃ o ∈ ops, o.who = .handle p
  realRequest : ∀ o ∈ ops, ∀ c k, o.who = .request c k →
    ∃ id q, (KWorld.run E S cfg fs evs).request c k = some (id, q) ∧ q.call? E c = some o.call ∧
      ∀ v, (KWorld.run E S cfg fs evs).result c k = some (.ok v) → o.ans = some (answerOf E.C (E.encKey c) (.ok v))
  realHandle : ∀ o ∈ ops, ∀ p, o.who = .handle p →
    ∃ x ch r, HandleIn E S cfg fs evs p x ch r ∧ x.asCall = some o.call ∧ HandleLuck E x o.luck ∧ o.ans = some (r.map LocalOut.asAns)
  luck : ∀ o ∈ ops, (∃ n, E.certGen n = ⟨o.luck.sni, o.luck.priv, o.luck.cert⟩) ∧ (E.hasFallback = false → o.luck.fallback = none)

end Spec

/-! ### As a world of servers on one file -/

/-- What an event is for the servers on the file (`MWorld`): a start that succeeds is one there; changes of the files and failed
    starts are not seen there (an event on a connection that is not there changes nothing).
    Proof device: nothing in the code corresponds. -/
def KWorld.asM (cfg : Config) (w : KWorld E S) : KEv S → MWEv S
  | .start pass migrate cut => if (w.step cfg (.start pass migrate cut)).life.procs.length = w.life.procs.length then .net w.conns.length .shutdown else .start
  | .begin _ => .net w.conns.length .shutdown
  | .advance i => if (w.step cfg (.advance i)).life.procs.length = w.life.procs.length then .net w.conns.length .shutdown else .start
  | .ends j => if w.isUp j then .restart j else .net w.conns.length .shutdown
  | .connect j u d => if w.isUp j then .connect j u d else .net w.conns.length .shutdown
  | .net c e => .net c e
  | .serve c => .serve c
  | .act j i ch => if w.isUp j then .act j i ch else .net w.conns.length .shutdown
  | .call j x ch => if w.isUp j then .call j x ch else .net w.conns.length .shutdown

/-- A whole run for the servers on the file: event by event. Proof device: nothing in the code corresponds. -/
def KWorld.asMs (cfg : Config) : KWorld E S → List (KEv S) → List (MWEv S)
  | _, [] => []
  | w, e :: es => w.asM cfg e :: KWorld.asMs cfg (w.step cfg e) es

end Lair
