import Verif.System
import Verif.Oblivious
import Verif.Cli

/-
Power failures: what is on the disk and what is only in the operating system's memory.

crates/lair_keystore/src/store_sqlite.rs:203 puts the database in write-ahead-log mode, and :579 sets `synchronous = 1` (NORMAL) on every connection. In that
mode SQLite appends each transaction to the log without waiting for the disk; it waits only at a checkpoint, which
moves the log into the database (automatically every thousand pages, and when the last connection is closed). With `synchronous = 2`
(FULL) each commit waits. After a power failure the log is read up to its first damaged frame (checksums), so a prefix of the
transactions survives. `write_entry` (store_sqlite.rs:390-437) is one transaction with one row.

crates/lair_keystore/src/bin/lair-keystore-bin/cmd_init.rs:33-41 creates and writes the configuration file and never syncs it.

Simplifications: rows of an earlier life of the store are on the disk; the schema is there (a database whose schema
did not survive is empty and is given it again at the next start).
-/
namespace Lair

/-- A server on an SQLite store. Code: store_sqlite.rs:19-43. -/
abbrev sqlEnv (E : Env) : Env := { E with S := sqlModel }

namespace Power

/-- The setting of `synchronous` (store_sqlite.rs:579). -/
def synchronous : Nat := 1

/-- Does a commit to the write-ahead log wait for the disk? From `synchronous = 2` (FULL) on.
    SQLite; the setting is made at store_sqlite.rs:561-582. -/
def commitWaits (level : Nat) : Bool := 2 ≤ level

/-- What a power failure leaves of the table if the first `n` rows are on the disk.
    The operating system; no .rs file of lair. -/
def cut (s : SqlStore) (n : Nat) : SqlStore := ⟨s.rows.take n⟩

/-- A server since the last power failure, and how many rows of its store are certainly on the disk.
    Code: store_sqlite.rs:390-437 with 561-582; power failures are the environment's. -/
structure St (E : Env) where
  sys : Sys (sqlEnv E)
  sure : Nat

/-- The table as the server sees it.
    Code: store_sqlite.rs:390-437 with 561-582; power failures are the environment's. -/
def St.store {E : Env} (s : St E) : SqlStore := s.sys.sh.store

/-- What can happen to a store on a disk that may lose power (store_sqlite.rs:390-437). -/
inductive PowEv where
  /-- something happens in the server, or its process ends and is started again -/
  | ev (e : Event)
  /-- a checkpoint, also at an orderly end of the process -/
  | checkpoint
  /-- the operating system has written (at least) the first `n` rows on its own -/
  | flushed (n : Nat)
  /-- the power fails, with `n` rows on the disk if that many exist (and at least those that are certain); the server is started again -/
  | power (n : Nat)

/-- One event, with the given setting of `synchronous`.
    Code: store_sqlite.rs:390-437 with 561-582; power failures are the environment's. -/
def St.step {E : Env} (level : Nat) (s : St E) : PowEv → St E
  | .ev e =>
    let sys := s.sys.step e
    ⟨sys, if commitWaits level then (St.store ⟨sys, 0⟩).rows.length else s.sure⟩
  | .checkpoint => ⟨s.sys, s.store.rows.length⟩
  | .flushed n => ⟨s.sys, max s.sure (min n s.store.rows.length)⟩
  | .power n =>
    let k := max s.sure (min n s.store.rows.length)
    ⟨Sys.init (sqlEnv E) (cut s.store k), k⟩

/-- A history on a store found on the disk. Specification: nothing in the code corresponds. -/
def run (E : Env) (level : Nat) (st : SqlStore) (evs : List PowEv) : St E :=
  evs.foldl (St.step level) ⟨Sys.init (sqlEnv E) st, st.rows.length⟩

/-! ### The configuration file -/

/-- What a power failure leaves of a file that was written and not synced: nothing, or a part of it.
    The operating system; no .rs file of lair. -/
def cutFile (f : Option Bytes) : Option Nat → Option Bytes
  | none => none
  | some n => f.map (fun b => b.take n)

/-- `init`s (Cli.lean), and whether the operating system has written the file on its own.
    Code: cmd_init.rs; power failures are the environment's. -/
structure ISt where
  st : Init.St
  sure : Bool

/-- What can happen to `init` on a disk that may lose power (cmd_init.rs:33-41). -/
inductive InitPowEv where
  | ev (e : Init.Ev)
  | flushed
  /-- the power fails: every `init` that has not reported its result is gone -/
  | power (keep : Option Nat)

/-- One event. Any further write makes the file uncertain again.
    Code: cmd_init.rs; power failures are the environment's. -/
def ISt.step (s : ISt) : InitPowEv → ISt
  | .ev e => ⟨s.st.step e, s.sure && decide ((s.st.step e).file = s.st.file)⟩
  | .flushed => ⟨s.st, true⟩
  | .power keep => ⟨⟨if s.sure then s.st.file else cutFile s.st.file keep, []⟩, true⟩

/-- All events of a history, from a directory without a configuration.
    Specification: nothing in the code corresponds. -/
def initRun (evs : List InitPowEv) : ISt := evs.foldl ISt.step ⟨⟨none, []⟩, true⟩

end Power
end Lair
