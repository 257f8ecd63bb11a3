import Verif.PidFile
import Verif.Socket

/-
Starting the standalone server: crates/lair_keystore/src/server.rs:17-92 with bin/lair-keystore-bin/cmd_server.rs. The pid file (PidFile.lean)
comes first (`StandaloneServer::new`, server.rs:19-28), then the socket (Socket.lean; `IpcKeystoreServer::new`, ipc_keystore.rs:28-40), then the
configuration is unlocked with the passphrase and the store opened (`spawn_lair_server_task`; Life.lean). This file puts the pid file and
the socket together: any number of processes of the operating system, each of which may end at any moment.

A process whose start fails after the pid check ends (the subcommand returns the error), which may take a moment; ending is an event of
its own.
-/
namespace Lair

/-- The pid file and the processes, the socket file and the servers, and which process is which server.
    Code: pid_check.rs:14-90, then ipc_keystore.rs:32-40 and raw_ipc.rs:41-75. -/
structure Boot where
  pid : Pid.St
  sock : SockSt
  /-- the number of process `p` among those that have come past the pid check -/
  num : Nat → Option Nat

/-- What a process does after its pid check.
    Code: pid_check.rs:14-90, then ipc_keystore.rs:32-40 and raw_ipc.rs:41-75. -/
inductive BootStep where
  /-- `remove_file` of the socket (raw_ipc.rs:58) -/
  | remove
  /-- `UnixListener::bind` (raw_ipc.rs:61) -/
  | bind
  /-- `spawn_lair_server_task` succeeds / fails, e.g. because the passphrase is wrong (ipc_keystore.rs:32-40) -/
  | ready
  | fails
deriving DecidableEq

/-- The step as an event of the socket model (ipc_keystore.rs:32-40, raw_ipc.rs:58-61). -/
def BootStep.ev (n : Nat) : BootStep → SockEv
  | .remove => .remove n
  | .bind => .bind n
  | .ready => .ready n
  | .fails => .startFails n

/-- What can happen to processes starting a standalone server (server.rs:17-92). -/
inductive BootEv where
  /-- processes start and end, and make the system calls of the pid check -/
  | sys (e : Pid.Ev)
  /-- process `p` goes on after its pid check -/
  | go (p : Nat) (a : BootStep)
deriving DecidableEq

/-- Process `p` comes past the pid check.
    Code: pid_check.rs:14-90, then ipc_keystore.rs:32-40 and raw_ipc.rs:41-75. -/
def Boot.pass (s : Boot) (p : Nat) (pid' : Pid.St) : Boot :=
  ⟨pid', s.sock.step .start, fun q => if q = p then some s.sock.procs.length else s.num q⟩

/-- Process `p` ends, and with it its socket. The operating system; no .rs file of lair. -/
def Boot.exit (s : Boot) (p : Nat) (pid' : Pid.St) : Boot :=
  ⟨pid', match s.num p with | some n => s.sock.step (.ends n) | none => s.sock, fun q => if q = p then none else s.num q⟩

/-- One event. Code: pid_check.rs:14-90, then ipc_keystore.rs:32-40 and raw_ipc.rs:41-75. -/
def Boot.step (s : Boot) : BootEv → Boot
  | .sys (.step p fault) =>
    let pid' := s.pid.step (.step p fault)
    if s.num p = none ∧ pid'.phase p = some .done then s.pass p pid' else { s with pid := pid' }
  | .sys (.exit p) => s.exit p (s.pid.step (.exit p))
  | .sys e => { s with pid := s.pid.step e }
  | .go p a =>
    match s.num p with
    | some n => { s with sock := s.sock.step (a.ev n) }
    | none => s

/-- All events in turn; ghost. -/
def Boot.run (s : Boot) (evs : List BootEv) : Boot := evs.foldl Boot.step s

/-- No keystore process is alive. There may be other processes and a pid file left behind (`pid`), and a socket file left behind (`left`) by a server
    that is no more. Specification: nothing in the code corresponds. -/
def Boot.init (pid : Pid.St) (left : Bool) : Boot := ⟨pid, if left then ⟨some 0, [.down]⟩ else .init, fun _ => none⟩

/-- Process `p` is a server at work. Specification: nothing in the code corresponds. -/
def Boot.Serving (s : Boot) (p : Nat) : Prop := ∃ n, s.num p = some n ∧ s.sock.procs[n]? = some .up

/-- A client that connects to the socket file reaches process `p`. Specification: nothing in the code corresponds. -/
def Boot.Reaches (s : Boot) (p : Nat) : Prop := ∃ n, s.num p = some n ∧ s.sock.connect = some n

/-- Process `p` is in the middle of its pid check. Specification: nothing in the code corresponds. -/
def Boot.Checking (s : Boot) (p : Nat) : Prop := ∃ ph, s.pid.phase p = some ph ∧ ph ≠ .done ∧ ∀ e, ph ≠ .failed e

end Lair
