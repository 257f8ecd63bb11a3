import Verif.Basic

/-
The socket file: crates/lair_keystore_api/src/ipc_keystore/raw_ipc.rs:41-75 (`ipc_bind`), :11-38 (`ipc_connect`),
ipc_keystore.rs:28-40 (order in `IpcKeystoreServer::new`), crates/lair_keystore/src/server.rs:59-92.

Any number of server processes use the same path, each in turn or at the same time; every file operation is a step of its
own and a process may end between any two. What a file operation does:

* removing a path that does not exist fails, which the code ignores (raw_ipc.rs:58);
* binding creates the file and fails if the path exists, whoever made it and whether or not it is alive;
* a socket file survives its server, and a server keeps its socket when the file is removed;
* connecting to a path leads to the socket whose binding created the file, and is refused if that is closed.

Server processes are numbered in the order in which they come past the pid file (C42). Errors of the file system other
than these are not modelled.
-/
namespace Lair

/-- Where a server process is in starting. `bound`: the socket exists and its queue fills, but nobody is accepted
    (`spawn_lair_server_task` is running); `up`: the accepting task runs; `down`: the process, or its start, has ended.
    Code: ipc_keystore.rs:28-64, raw_ipc.rs:41-75. -/
inductive SrvPhase where
  | started | cleared | bound | up | down
deriving DecidableEq

/-- The path (whose socket the file there is, if there is one) and the server processes.
    Code: ipc_keystore.rs:28-64, raw_ipc.rs:41-75. -/
structure SockSt where
  path : Option Nat
  procs : List SrvPhase
deriving DecidableEq

/-- No socket file, no process. Specification: nothing in the code corresponds. -/
def SockSt.init : SockSt := ⟨none, []⟩

/-- What a process that starts a server does next (raw_ipc.rs:41-75, ipc_keystore.rs:28-40), or its end. -/
inductive SockEv where
  /-- a new server process comes past the pid file -/
  | start
  /-- `remove_file` (raw_ipc.rs:58) -/
  | remove (s : Nat)
  /-- `UnixListener::bind` (raw_ipc.rs:61) -/
  | bind (s : Nat)
  /-- `spawn_lair_server_task` succeeds / fails, e.g. because the passphrase is wrong (ipc_keystore.rs:32-40) -/
  | ready (s : Nat)
  | startFails (s : Nat)
  /-- the process ends: stopped, killed or crashed -/
  | ends (s : Nat)
deriving DecidableEq

/-- Process `s` is now in phase `p`. Code: ipc_keystore.rs:28-64, raw_ipc.rs:41-75. -/
def SockSt.set (st : SockSt) (s : Nat) (p : SrvPhase) : SockSt := { st with procs := st.procs.set s p }

/-- One step. Code: ipc_keystore.rs:28-64, raw_ipc.rs:41-75. -/
def SockSt.step (st : SockSt) : SockEv → SockSt
  | .start => { st with procs := st.procs ++ [.started] }
  | .remove s => if st.procs[s]? = some .started then { st.set s .cleared with path := none } else st
  | .bind s =>
    if st.procs[s]? = some .cleared then
      match st.path with
      | none => { st.set s .bound with path := some s }
      | some _ => st.set s .down
    else st
  | .ready s => if st.procs[s]? = some .bound then st.set s .up else st
  | .startFails s => if st.procs[s]? = some .bound then st.set s .down else st
  | .ends s => st.set s .down

/-- All events in turn. Specification: nothing in the code corresponds. -/
def SockSt.run (st : SockSt) (evs : List SockEv) : SockSt := evs.foldl SockSt.step st

/-- `UnixStream::connect(path)` (raw_ipc.rs:27-30): the server in whose queue the client is, `none` if it is refused. -/
def SockSt.connect (st : SockSt) : Option Nat :=
  match st.path with
  | none => none
  | some s => match st.procs[s]? with
    | some .bound => some s
    | some .up => some s
    | _ => none

end Lair
