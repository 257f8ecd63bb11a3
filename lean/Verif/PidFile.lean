import Verif.Basic

/-
The pid file: crates/lair_keystore/src/pid_check.rs, called by crates/lair_keystore/src/server.rs:21-24 before the store is opened.

Any number of processes run `pid_check` on the same pid file at once; every system call is one atomic step; processes may end at
any point; any system call may fail. Files are inodes: a process that has created the file keeps writing to its own inode even if
another process has unlinked it. A write of the few digits is one system call. Not modelled: `create_dir_all`, the 10 ms pauses.
-/
namespace Lair.Pid

/-- What a pid file contains: nothing (created but not yet written), the decimal number of a process, or text that is not a
    number. Code: pid_check.rs:14-90. -/
inductive Content where
  | empty
  | pid (p : Nat)
  | junk
deriving DecidableEq

/-- Where a starting server is in `pid_check_write` (pid_check.rs:44-90). -/
inductive Phase where
  /-- about to open the file for reading (:54) -/
  | open
  /-- about to read inode `i` (:56) -/
  | read (i : Nat)
  /-- about to look up process `q` (:60-71) -/
  | check (q : Nat)
  /-- about to remove the file (:72) -/
  | remove
  /-- about to create the file (:82-84) -/
  | create
  /-- about to write to inode `i` (:86-87) -/
  | write (i : Nat)
  /-- `pid_check` succeeded: goes on to open the store -/
  | done
  /-- `pid_check` failed -/
  | failed (e : String)
deriving DecidableEq

/-- A live process: its name; for a keystore server, which attempt it is at and where. Code: pid_check.rs:14-90. -/
structure Proc where
  name : String
  lair : Option (Nat × Phase)
deriving DecidableEq

/-- The pid file and the processes (pid_check.rs:20-90). -/
structure St where
  procs : Nat → Option Proc
  /-- the pid file, if it exists -/
  dir : Option Nat
  /-- all inodes ever created -/
  inodes : List Content

/-- What a process does next, or its end. Code: pid_check.rs:14-90. -/
inductive Ev where
  /-- a keystore server whose executable has this name starts as process `p` -/
  | launch (p : Nat) (name : String)
  /-- some other process starts -/
  | other (p : Nat) (name : String)
  /-- the next system call of the starting server `p`; `fault`: it fails -/
  | step (p : Nat) (fault : Bool)
  /-- process `p` ends, crashes or is killed -/
  | exit (p : Nat)
deriving DecidableEq

/-- `env!("CARGO_PKG_NAME")` (pid_check.rs:64) -/
def pkgName : String := "lair_keystore"

/-- The name of the executable that is built (crates/lair_keystore/Cargo.toml, `[[bin]]`).
    Code: pid_check.rs:14-90. -/
def binName : String := "lair-keystore"

/-- A failed attempt: there are three (pid_check.rs:20-33). -/
def retry (n : Nat) (e : String) : Nat × Phase := if n < 2 then (n + 1, .open) else (n, .failed e)

/-- Process `p` is now at `x`. Code: pid_check.rs:14-90. -/
def St.setPhase (s : St) (p : Nat) (pr : Proc) (x : Nat × Phase) : St :=
  { s with procs := fun q => if q = p then some { pr with lair := some x } else s.procs q }

/-- One system call of `pid_check_write` by process `p`. Code: pid_check.rs:14-90. -/
def St.call (s : St) (p : Nat) (pr : Proc) (n : Nat) (fault : Bool) : Phase → St
  | .open =>
    if fault then s.setPhase p pr (retry n "io error")
    else
      match s.dir with
      | none => s.setPhase p pr (n, .create)
      | some i => s.setPhase p pr (n, .read i)
  | .read i =>
    if fault then s.setPhase p pr (retry n "io error")
    else
      match s.inodes[i]? with
      | some (.pid q) => s.setPhase p pr (n, .check q)
      | _ => s.setPhase p pr (retry n "ParseIntError")
  | .check q =>
    match s.procs q with
    | some other => if other.name = pkgName then s.setPhase p pr (retry n "ProcessAlreadyExists") else s.setPhase p pr (n, .remove)
    | none => s.setPhase p pr (n, .remove)
  | .remove =>
    if fault then s.setPhase p pr (retry n "io error")
    else
      match s.dir with
      | none => s.setPhase p pr (retry n "NotFound")
      | some _ => { s with dir := none }.setPhase p pr (n, .create)
  | .create =>
    if fault then s.setPhase p pr (retry n "io error")
    else
      match s.dir with
      | some _ => s.setPhase p pr (retry n "AlreadyExists")
      | none => { s with dir := some s.inodes.length, inodes := s.inodes ++ [Content.empty] }.setPhase p pr (n, .write s.inodes.length)
  | .write i =>
    if fault then s.setPhase p pr (retry n "io error")
    else { s with inodes := s.inodes.set i (Content.pid p) }.setPhase p pr (n, .done)
  | .done => s
  | .failed _ => s

/-- One event; each file operation of pid_check.rs:20-90 is atomic. -/
def St.step (s : St) : Ev → St
  | .launch p name =>
    match s.procs p with
    | some _ => s
    | none => { s with procs := fun q => if q = p then some ⟨name, some (0, .open)⟩ else s.procs q }
  | .other p name =>
    match s.procs p with
    | some _ => s
    | none => { s with procs := fun q => if q = p then some ⟨name, none⟩ else s.procs q }
  | .step p fault =>
    match s.procs p with
    | some pr =>
      match pr.lair with
      | some (n, ph) => s.call p pr n fault ph
      | none => s
    | none => s
  | .exit p => { s with procs := fun q => if q = p then none else s.procs q }

/-- All events in turn. Specification: nothing in the code corresponds. -/
def St.run (s : St) (evs : List Ev) : St := evs.foldl St.step s

/-- The phase of the keystore server `p`. Specification: nothing in the code corresponds. -/
def St.phase (s : St) (p : Nat) : Option Phase := (s.procs p).bind (fun pr => pr.lair.map Prod.snd)

/-- What the pid file says now. Specification: nothing in the code corresponds. -/
def St.file (s : St) : Option Content := s.dir.bind (fun i => s.inodes[i]?)

end Lair.Pid
