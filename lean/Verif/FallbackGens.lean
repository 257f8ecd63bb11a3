import Verif.FallbackLemmas

/-
The signature fallback over the life of the server: crates/lair_keystore_api/src/lair_server.rs:102-378. `Fallback.lean` is one
sub-process with its queue and two loops; this file is about which sub-process a call uses, when a new one is
started, and when one is given up.

`FallbackCmd.inner` (one lock) holds the current sub-process. Every access to it is one step here: `check_get_sub_process_sender`
holds the lock without any await (:128-190), and so do the two loops at their ends (:259-270, :338-347).

Simplifications: dropping a `Child` with `kill_on_drop` ends the process at once (the signal is sent at once); the nanoid
by which a loop recognises its own sub-process in `inner` is its number. The real receiver is dropped a moment
after the write loop has left `inner`; requests that come in between get the same answer either way.
-/
namespace Lair

/-- The operating system's process. Code: lair_server.rs:102-197, 362-377. -/
inductive FbProc where
  | running | exited | killed
deriving DecidableEq

/-- One sub-process. `evs` is ghost: what has happened to its queue and loops. -/
structure FbGen where
  st : FbSt
  proc : FbProc
  /-- the read loop / write loop has looked at `inner` at its end (:338-347 / :259-270) -/
  rLeft : Bool
  wLeft : Bool
  evs : List FbEv
deriving DecidableEq

/-- A call of `sign_by_pub_key` (:358-377). Code: lair_server.rs:102-197, 362-377. -/
inductive FbPhase where
  /-- `check_get_sub_process_sender` has not run yet -/
  | asked
  /-- it has the sender of this sub-process -/
  | has (g : Nat)
  /-- it has handed its request over, as the `k`-th of this sub-process -/
  | given (g k : Nat)
  /-- no sub-process could be started (:155-172) -/
  | failed (e : String)
deriving DecidableEq

/-- `dropped`: its future no longer exists. Code: lair_server.rs:102-197, 362-377. -/
structure FbCall where
  msgId : String
  pk : B 32
  data : Bytes
  phase : FbPhase
  dropped : Bool
deriving DecidableEq

/-- `FallbackCmd` and everything it has started. `cur` is `inner`. Code: lair_server.rs:102-197, 362-377. -/
structure FbAll where
  gens : List FbGen
  cur : Option Nat
  calls : List FbCall
deriving DecidableEq

/-- No child has been started yet (lair_server.rs:102-378). -/
def FbAll.init : FbAll := ⟨[], none, []⟩

/-- A fresh sub-process (:138-189). Code: lair_server.rs:102-197, 362-377. -/
def FbGen.fresh : FbGen := ⟨.init, .running, false, false, []⟩

/-- Something happens to the queue or the loops. Code: lair_server.rs:102-197, 362-377. -/
def FbGen.step (x : FbGen) (e : FbEv) : FbGen := { x with st := x.st.step e, evs := x.evs ++ [e] }

/-- The `Child` is dropped (`kill_on_drop(true)`, :164). Code: lair_server.rs:102-197, 362-377. -/
def FbGen.kill (x : FbGen) : FbGen := { x with proc := if x.proc = .running then .killed else x.proc }

/-- `*lock = None` if it is this sub-process (:263-269, :340-346). Code: lair_server.rs:102-197, 362-377. -/
def FbAll.leave (s : FbAll) (g : Nat) : FbAll :=
  if s.cur = some g then { s with cur := none, gens := s.gens.modify g FbGen.kill } else s

/-- The previous `FallbackCmdInner`, if any, is dropped by the assignment of a new one (:183-187).
    Code: lair_server.rs:102-197, 362-377. -/
def FbAll.dropCur (s : FbAll) : FbAll :=
  match s.cur with
  | some g => { s with gens := s.gens.modify g FbGen.kill }
  | none => s

/-- Replace the phase of a call. Code: lair_server.rs:102-197, 362-377. -/
def FbAll.setPhase (s : FbAll) (c : Nat) (p : FbPhase) : FbAll :=
  { s with calls := s.calls.modify c (fun x => { x with phase := p }) }

/-- What a caller was told, in order. Ghost: nothing in the code corresponds. -/
def FbAll.told (s : FbAll) : FbPhase → List (Res (B 64))
  | .failed e => [.error e]
  | .given g k =>
    match s.gens[g]? with
    | some x => match x.st.reqs[k]? with
      | some r => r.answers
      | none => []
    | none => []
  | _ => []

/-- A call has a sender of sub-process `g`: it has got it, and its future has neither ended nor been dropped (`send` lives until
    the end of the `async` block, :367-376). Code: lair_server.rs:102-197, 362-377. -/
def FbAll.holds (s : FbAll) (g : Nat) (c : FbCall) : Bool :=
  !c.dropped && match c.phase with
    | .has g' => g' == g
    | .given g' _ => g' == g && (s.told c.phase).isEmpty
    | _ => false

/-- Nobody has a sender of sub-process `g` any more: neither `inner` nor a call.
    Code: lair_server.rs:102-197, 362-377. -/
def FbAll.unreferenced (s : FbAll) (g : Nat) : Bool := s.cur != some g && s.calls.all (fun c => !s.holds g c)

/-- What can happen over several children, one after the other (lair_server.rs:102-378). -/
inductive GEv where
  /-- `sign_by_pub_key` is called -/
  | call (msgId : String) (pk : B 32) (data : Bytes)
  /-- call `c` runs `check_get_sub_process_sender`; `probeFails`: `try_wait` returns an error; `fail`: why a new process
      cannot be started, if it must be -/
  | get (c : Nat) (probeFails : Bool) (fail : Option String)
  /-- call `c` hands its request over (:369-372) -/
  | send (c : Nat)
  /-- the future of call `c` is dropped -/
  | drop (c : Nat)
  /-- a step of the write loop, the read loop or the output of sub-process `g` -/
  | gen (g : Nat) (e : FbEv)
  /-- the read loop / write loop of `g`, having ended, looks at `inner` -/
  | rLeave (g : Nat)
  | wLeave (g : Nat)
  /-- process `g` ends by itself -/
  | exit (g : Nat)
deriving DecidableEq

/-- The current process, if there is one and `try_wait` says it is running (:132-138).
    Code: lair_server.rs:102-197, 362-377. -/
def FbAll.usable (s : FbAll) (probeFails : Bool) : Option Nat :=
  match s.cur with
  | none => none
  | some g =>
    match s.gens[g]? with
    | none => none
    | some x => if x.proc = .running ∧ probeFails = false then some g else none

/-- One event. Code: lair_server.rs:102-197, 362-377. -/
def FbAll.step (s : FbAll) : GEv → FbAll
  | .call id pk data => { s with calls := s.calls ++ [⟨id, pk, data, .asked, false⟩] }
  | .get c probeFails fail =>
    match s.calls[c]? with
    | some ⟨_, _, _, .asked, false⟩ =>
      match s.usable probeFails with
      | some g => s.setPhase c (.has g)
      | none =>
        match fail with
        | some e => s.setPhase c (.failed e)
        | none =>
          { s.dropCur with gens := s.dropCur.gens ++ [FbGen.fresh], cur := some s.gens.length }.setPhase c (.has s.gens.length)
    | _ => s
  | .send c =>
    match s.calls[c]? with
    | some ⟨id, pk, data, .has g, false⟩ =>
      match s.gens[g]? with
      | some x => { s with gens := s.gens.modify g (fun x => x.step (.submit id pk data)) }.setPhase c (.given g x.st.reqs.length)
      | none => s
    | _ => s
  | .drop c => { s with calls := s.calls.modify c (fun x => { x with dropped := true }) }
  | .gen g e =>
    match e with
    | .submit .. => s
    | .idle => if s.unreferenced g then { s with gens := s.gens.modify g (fun x => x.step .idle) } else s
    | .drain => { s with gens := s.gens.modify g (fun x => if x.rLeft then x.step .drain else x) }
    | e => { s with gens := s.gens.modify g (fun x => x.step e) }
  | .rLeave g =>
    match s.gens[g]? with
    | some x => if x.st.rOpen = false ∧ x.rLeft = false
      then { s.leave g with gens := (s.leave g).gens.modify g (fun x => { x with rLeft := true }) } else s
    | none => s
  | .wLeave g =>
    match s.gens[g]? with
    | some x => if x.st.wOpen = false ∧ x.wLeft = false
      then { s.leave g with gens := (s.leave g).gens.modify g (fun x => { x with wLeft := true }) } else s
    | none => s
  | .exit g => { s with gens := s.gens.modify g (fun x => { x with proc := if x.proc = .running then .exited else x.proc }) }

/-- All events in turn. Ghost: nothing in the code corresponds. -/
def FbAll.run (s : FbAll) (evs : List GEv) : FbAll := evs.foldl FbAll.step s

/-- What the caller of call `c` was told, in order. Ghost: nothing in the code corresponds. -/
def FbAll.answers (s : FbAll) (c : Nat) : List (Res (B 64)) :=
  match s.calls[c]? with
  | some x => s.told x.phase
  | none => []

end Lair
