import Verif.World
import Verif.MultiLin

/-
Everything put together: any number of server processes on one store file (`Verif.Multi`), each with any number of clients on encrypted
connections (`Verif.World`), and with its store handle in use.

The pieces are those of `World.lean`; a connection belongs to the process that accepted it. Connections are numbered through all
processes, in the order they were made.
-/
namespace Lair

variable {S : SStream} {E : Env}

/-- The store file with its processes; the connections, each with the number of its process. `mevs` (what happened to the
    processes) is ghost. -/
structure MWorld (E : Env) (S : SStream) where
  multi : Multi E
  conns : List (Nat × Conn S)
  mevs : List MEvent

/-- A store file on which no process is at work. Code: priv_srv.rs:141-236, async_io.rs:58-160, once per process. -/
def MWorld.init (E : Env) (S : SStream) (st : E.S.σ) : MWorld E S := ⟨⟨st, []⟩, [], []⟩

/-- What can happen with several servers on one store file, their clients and store handles (lair_server.rs:60-66, priv_srv.rs:191-223). -/
inductive MWEv (S : SStream) where
  /-- another process starts a server on the file -/
  | start
  /-- a client connects to process `j`; the handshake gives these stream states (C25) -/
  | connect (j : Nat) (u d : S.St)
  /-- something happens on connection `c`, the server's handlers apart -/
  | net (c : Nat) (e : NEv)
  /-- the server's loop of connection `c` polls its receiver (priv_srv.rs:191-223) -/
  | serve (c : Nat)
  /-- the `i`-th request in flight in process `j` makes a step -/
  | act (j i : Nat) (ch : Choice)
  /-- process `j` ends and is started again on the same file; its connections are gone -/
  | restart (j : Nat)
  /-- the program around process `j` calls the store handle (lair_server.rs:60-66; see Local.lean) -/
  | call (j : Nat) (x : LocalCall) (ch : Nat → Choice)

/-- Something happens to the processes. Code: priv_srv.rs:141-236, async_io.rs:58-160, once per process. -/
def MWorld.multiStep (w : MWorld E S) (e : MEvent) : MWorld E S := { w with multi := w.multi.step e, mevs := w.mevs ++ [e] }

/-- One event; compare `World.step`. Code: priv_srv.rs:141-236, async_io.rs:58-160, once per process. -/
def MWorld.step (w : MWorld E S) : MWEv S → MWorld E S
  | .start => w.multiStep .start
  | .connect j u d => if j < w.multi.procs.length then { w with conns := w.conns ++ [(j, .init u d)] } else w
  | .net c e => { w with conns := w.conns.modify c (fun p => (p.1, p.2.step e)) }
  | .serve c =>
    match w.conns[c]? with
    | none => w
    | some (j, x) =>
      if x.gone then w
      else
        let w' := { w with conns := w.conns.modify c (fun p => (p.1, { p.2 with up := p.2.up.poll })) }
        match x.up.rcv.poll.1 with
        | .item m => w'.multiStep (.at j (.srv (.recv c m)))
        | _ => w'
  | .act j i ch =>
    let w' := w.multiStep (.at j (.srv (.step i ch)))
    match w.multi.procs[j]?.bind (fun l => l.sys.threads[i]?) with
    | none => w'
    | some t =>
      match outcomeOf t.prog with
      | some o => { w' with conns := w.conns.modify t.conn (fun p => (p.1, p.2.reply t.msg.id o)) }
      | none => w'
  | .restart j =>
    { w.multiStep (.at j (.srv .restart)) with conns := w.conns.map (fun p => if p.1 = j then (p.1, { p.2 with gone := true }) else p) }
  | .call j x ch => w.multiStep (.at j (.call x ch))

/-- All events in turn. Specification: nothing in the code corresponds. -/
def MWorld.run (E : Env) (S : SStream) (st : E.S.σ) (evs : List (MWEv S)) : MWorld E S := evs.foldl MWorld.step (.init E S st)

/-! ### Vocabulary for statements -/

/-- What the `k`-th request made on connection `c` was. Specification: nothing in the code corresponds. -/
def MWorld.request (w : MWorld E S) (c k : Nat) : Option (String × Req) :=
  (w.conns[c]?.bind (fun p => p.2.asked[k]?)).map (fun a => (a.id, a.req))

/-- The result of the `k`-th request made on connection `c`, if it is complete: what the typed method returns
    (lair_client.rs:45-68). -/
def MWorld.result (w : MWorld E S) (c k : Nat) : Option (Res Resp) :=
  match w.conns[c]? with
  | none => none
  | some (_, x) =>
    match x.asked[k]?, x.cli.reqs[k]? with
    | some a, some ⟨_, .done r, _⟩ => some (typedResult a.req r)
    | _, _ => none

/-- The message ids chosen for the requests on connection `c` (`new_msg_id`: 21 random characters each) differ.
    Specification: nothing in the code corresponds. -/
def MWorld.FreshIds (w : MWorld E S) (c : Nat) : Prop := ∀ j x, w.conns[c]? = some (j, x) → (x.asked.map Asked.id).Nodup

/-- On connection `c` nobody has forged. Specification: nothing in the code corresponds. -/
def MWorld.Unforged (w : MWorld E S) (c : Nat) : Prop := ∀ j x, w.conns[c]? = some (j, x) →
  Lair.Unforged S x.up.start (x.up.pushed.map (fun p => Codec.encodeMsg p.2)) (arrived x.up.net) ∧
  Lair.Unforged S x.down.start (x.down.pushed.map (fun p => Codec.encodeMsg p.2)) (arrived x.down.net)

/-! ### SPECIFICATION: one sequential history explains everything -/

section Spec
variable (E : Env) (S : SStream) (st : E.S.σ) (evs : List (MWEv S))

/-- Who made a call: it is the `k`-th request on connection `c`, or it is the store handle call that is event `p`.
    Specification: nothing in the code corresponds. -/
inductive Who where
  | request (c k : Nat)
  | handle (p : Nat)
deriving DecidableEq

/-- A call in the sequential history. Specification: nothing in the code corresponds. -/
structure WOp where
  who : Who
  call : Call
  luck : Luck
  ans : Option (Res Ans)

/-- Without saying whose it is. Specification: nothing in the code corresponds. -/
def WOp.op (o : WOp) : Op := ⟨0, o.call, o.luck, o.ans⟩

/-- After `n` events the call is over: the request has succeeded, the handle call has returned.
    Specification: nothing in the code corresponds. -/
def Who.over (n : Nat) : Who → Prop
  | .request c k => ∃ v, (MWorld.run E S st (evs.take n)).result c k = some (.ok v)
  | .handle p => p < n

/-- After `n` events the call has not been made yet. Specification: nothing in the code corresponds. -/
def Who.notYet (n : Nat) : Who → Prop
  | .request c k => (MWorld.run E S st (evs.take n)).request c k = none
  | .handle p => n ≤ p

/-- Event `p` is the call `x` of the store handle of a process, and this is what it returned.
    Specification: nothing in the code corresponds. -/
def HandleAt (p : Nat) (x : LocalCall) (ch : Nat → Choice) (r : Res LocalOut) : Prop :=
  ∃ j l, evs[p]? = some (.call j x ch) ∧ (MWorld.run E S st (evs.take p)).multi.procs[j]? = some l ∧ r = l.result x ch

/-- At no time has anybody forged on a connection. Specification: nothing in the code corresponds. -/
def MNeverForged : Prop := ∀ n c, (MWorld.run E S st (evs.take n)).Unforged c

/-- The history `ops` explains what all clients of all servers, and the callers of all store handles, have seen, from the keystore
    `ks₀` on: every answer is right, the file ends up standing for the final keystore, no call occurs twice, a call that was over
    before another was made comes before it - in whichever processes they were -, every request that has succeeded is there, with
    the result its client got, and every handle call that met no failure of the environment; and everything there is a request
    some client made or a handle call that was made, meeting a certificate of the generator, an external signer only if there is one,
    and, where the caller of the handle gives the seed, this seed. Specification: nothing in the code corresponds. -/
structure ExplainsAll (okLim : UInt32 → UInt32 → Bool) (room : Item → Bool) (ks₀ : Keystore) (ops : List WOp) : Prop where
  correct : Keystore.Correct E.C okLim room ks₀ (ops.map WOp.op)
  final : Stands E (Keystore.after E.C okLim room ks₀ (ops.map WOp.op)) (MWorld.run E S st evs).multi.entries
  once : (ops.map WOp.who).Nodup
  order : ops.Pairwise (fun a b => ¬ ∃ n, b.who.over E S st evs n ∧ a.who.notYet E S st evs n)
  requests : ∀ c k id q call v, (MWorld.run E S st evs).request c k = some (id, q) → q.call? E c = some call →
    (E.hasFallback = true → ∀ pk p m, call ≠ .sign pk p m) →
    (MWorld.run E S st evs).result c k = some (.ok v) → ∃ o ∈ ops, o.who = .request c k
  handles : ∀ p x ch r, HandleAt E S st evs p x ch r → x.asCall ≠ none → (∀ n, (ch n).fault = none) → ∃ o ∈ ops, o.who = .handle p
  realRequest : ∀ o ∈ ops, ∀ c k, o.who = .request c k →
    ∃ id q, (MWorld.run E S st evs).request c k = some (id, q) ∧ q.call? E c = some o.call ∧
      ∀ v, (MWorld.run E S st evs).result c k = some (.ok v) → o.ans = some (answerOf E.C (E.encKey c) (.ok v))
  realHandle : ∀ o ∈ ops, ∀ p, o.who = .handle p →
    ∃ x ch r, HandleAt E S st evs p x ch r ∧ x.asCall = some o.call ∧ HandleLuck E x o.luck ∧ o.ans = some (r.map LocalOut.asAns)
  luck : ∀ o ∈ ops, (∃ n, E.certGen n = ⟨o.luck.sni, o.luck.priv, o.luck.cert⟩) ∧ (E.hasFallback = false → o.luck.fallback = none)

end Spec
end Lair
