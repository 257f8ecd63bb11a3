import Verif.Basic

/-
Flow control on one connection: bounded buffers, the queue for the sending half, and the limit on requests in work.

crates/lair_keystore_api/src/sodium_secretstream/inner.rs:52-78 (senders queue for one sending half and keep it until their
frame is written), framed.rs:18-38 (`write_all` of a frame), lair_server/priv_srv.rs:191-225 (`recv.for_each_concurrent(4096, ..)`: the
receiver is polled only while fewer than 4096 requests are unfinished; a request is finished when its response is written),
lair_client/async_io.rs:58-84 (the client's loop never waits for anything but bytes), in_proc_keystore.rs:80 (`duplex(4096)`).

Only the amounts of bytes matter here, so a byte is modelled as the number of the request it belongs to and whether it is
the last one of its frame. Bytes are written and read one at a time; a larger piece is several steps. What the messages say
is the subject of `World.lean`.
-/
namespace Lair

/-- A byte of the frame of request `id` (or of the response to it).
    Code: inner.rs:52-78, framed.rs:18-38, priv_srv.rs:191-225, async_io.rs:58-84. -/
structure FByte where
  id : Nat
  last : Bool
deriving DecidableEq

/-- A frame being sent or waiting to be sent: `left + 1` bytes are not written yet.
    Code: inner.rs:52-78, framed.rs:18-38, priv_srv.rs:191-225, async_io.rs:58-84. -/
structure FFrame where
  id : Nat
  left : Nat
deriving DecidableEq

/-- The limits: bytes the pipes hold, requests in work (4096), and the length less one of the response to each request.
    Code: inner.rs:52-78, framed.rs:18-38, priv_srv.rs:191-225, async_io.rs:58-84. -/
structure FlowCfg where
  upCap : Nat
  downCap : Nat
  limit : Nat
  respLeft : Nat → Nat

/-- The number of requests of one connection the server works on at the same time (priv_srv.rs:191). -/
def serverPlaces : Nat := 4096

/-- Messages in a connection, by where they are: client's writer, the pipe to the server, the server's handlers, the pipe back, the client's reader, answered callers (priv_srv.rs:191-225, async_io.rs:58-84). -/
structure Flow where
  /-- the client's queue for its sending half; the first frame is being written -/
  cliOut : List FFrame
  up : List FByte
  /-- requests in work, not yet at their `send` -/
  running : List Nat
  /-- the server's queue for its sending half -/
  srvOut : List FFrame
  down : List FByte
  /-- requests whose response has arrived -/
  answered : List Nat
deriving DecidableEq

/-- An idle connection. Ghost: nothing in the code corresponds. -/
def Flow.init : Flow := ⟨[], [], [], [], [], []⟩

/-- Write one byte of the first frame of a queue.
    Code: inner.rs:52-78, framed.rs:18-38, priv_srv.rs:191-225, async_io.rs:58-84. -/
def writeByte (out : List FFrame) (pipe : List FByte) : List FFrame × List FByte :=
  match out with
  | [] => ([], pipe)
  | ⟨i, 0⟩ :: rest => (rest, pipe ++ [⟨i, true⟩])
  | ⟨i, n + 1⟩ :: rest => (⟨i, n⟩ :: rest, pipe ++ [⟨i, false⟩])

/-- What can move. Code: inner.rs:52-78, framed.rs:18-38, priv_srv.rs:191-225, async_io.rs:58-84. -/
inductive FlowEv where
  /-- a request of `len + 1` bytes is made -/
  | ask (id len : Nat)
  /-- the client writes a byte / the server reads a byte -/
  | cliWrite
  | srvRead
  /-- request `id` has been worked on: its response joins the queue -/
  | handled (id : Nat)
  | srvWrite
  | cliRead
deriving DecidableEq

/-- One event. Code: inner.rs:52-78, framed.rs:18-38, priv_srv.rs:191-225, async_io.rs:58-84. -/
def Flow.step (g : FlowCfg) (f : Flow) : FlowEv → Flow
  | .ask id len => { f with cliOut := f.cliOut ++ [⟨id, len⟩] }
  | .cliWrite =>
    if f.up.length < g.upCap then
      { f with cliOut := (writeByte f.cliOut f.up).1, up := (writeByte f.cliOut f.up).2 }
    else f
  | .srvRead =>
    if f.running.length + f.srvOut.length < g.limit then
      match f.up with
      | [] => f
      | b :: rest => { f with up := rest, running := if b.last then f.running ++ [b.id] else f.running }
    else f
  | .handled id =>
    if id ∈ f.running then { f with running := f.running.erase id, srvOut := f.srvOut ++ [⟨id, g.respLeft id⟩] } else f
  | .srvWrite =>
    if f.down.length < g.downCap then
      { f with srvOut := (writeByte f.srvOut f.down).1, down := (writeByte f.srvOut f.down).2 }
    else f
  | .cliRead =>
    match f.down with
    | [] => f
    | b :: rest => { f with down := rest, answered := if b.last then f.answered ++ [b.id] else f.answered }

/-- All events in turn. Ghost: nothing in the code corresponds. -/
def Flow.run (g : FlowCfg) (f : Flow) (evs : List FlowEv) : Flow := evs.foldl (Flow.step g) f

/-! ### The handshake over bounded buffers (sodium_secretstream.rs:108-189, 192-282, 302-326) -/

/-- One blocking operation of the handshake (sodium_secretstream.rs:108-282). -/
inductive IoOp where
  | wr | rd
deriving DecidableEq

/-- What a side still has to do: so many bytes to write or read (at least one), one after the other.
    Code: sodium_secretstream.rs:108-282. -/
abbrev IoScript := List (IoOp × Nat)

/-- The server: read the initiator, write the sealed response, write its header, read the client's.
    Code: sodium_secretstream.rs:108-282. -/
def srvScript : IoScript := [(.rd, 112), (.wr, 80), (.wr, 24), (.rd, 24)]

/-- The client: write the initiator, read the sealed response, write its header, read the server's.
    Code: sodium_secretstream.rs:108-282. -/
def cliScript : IoScript := [(.wr, 112), (.rd, 80), (.wr, 24), (.rd, 24)]

/-- One byte less. Code: sodium_secretstream.rs:108-282. -/
def IoScript.next : IoScript → IoScript
  | (o, n + 2) :: s => (o, n + 1) :: s
  | _ :: s => s
  | [] => []

/-- Where both sides of a handshake are, and how many bytes are in each pipe. Code: sodium_secretstream.rs:108-282. -/
structure Shake where
  cli : IoScript
  srv : IoScript
  up : Nat
  down : Nat
deriving DecidableEq

/-- Both sides at the beginning. Code: sodium_secretstream.rs:108-282. -/
def Shake.init : Shake := ⟨cliScript, srvScript, 0, 0⟩

/-- A byte is written or read by the client (`true`) or the server (`false`); nothing happens if it would have to wait.
    Code: sodium_secretstream.rs:108-282. -/
def Shake.step (cap : Nat) (x : Shake) : Bool → Shake
  | true =>
    match x.cli with
    | (.wr, _) :: _ => if x.up < cap then { x with cli := x.cli.next, up := x.up + 1 } else x
    | (.rd, _) :: _ => if 0 < x.down then { x with cli := x.cli.next, down := x.down - 1 } else x
    | [] => x
  | false =>
    match x.srv with
    | (.wr, _) :: _ => if x.down < cap then { x with srv := x.srv.next, down := x.down + 1 } else x
    | (.rd, _) :: _ => if 0 < x.up then { x with srv := x.srv.next, up := x.up - 1 } else x
    | [] => x

/-- All scheduling choices in turn (true: the client). Ghost: nothing in the code corresponds. -/
def Shake.run (cap : Nat) (x : Shake) (sched : List Bool) : Shake := sched.foldl (Shake.step cap) x

end Lair
