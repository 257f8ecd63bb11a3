import Verif.Basic

/-
The connection pool of the SQLite store: crates/lair_keystore/src/store_sqlite.rs:13, 45-116, 271-314.

Connection 0 is the write connection, 1, 2, 3 are the read connections. Any number of operations run at once; each step below is
atomic (one acquisition of the pool's mutex or semaphore, or the start / end of the blocking task). Which waiting operation a free
permit goes to is left open (tokio's semaphore is fair, so this includes its behaviour).
-/
namespace Lair.Pool

/-- Where an operation on the store is. Code: store_sqlite.rs:45-115, 272-314. -/
inductive Phase where
  /-- awaiting `acquire_owned` (:276, :303) -/
  | waiting
  /-- has a permit, about to take a connection from the pool (:278-287, :305) -/
  | permitted
  /-- has a `SqlCon` with this `con` field, not in a transaction -/
  | held (c : Option Nat)
  /-- `transaction` is awaiting the blocking task that owns connection `c` (:91-111) -/
  | running (c : Nat)
  /-- `Drop` has put the connection back; the permit field is dropped next (:60-76) -/
  | releasing
  /-- finished; permit released -/
  | closed
  /-- the future was dropped during a transaction; the blocking task goes on with connection `c`, whose result nobody takes -/
  | orphan (c : Nat)
  /-- panicked: `self.con.take().unwrap()` on `None` (:91) -/
  | panicked
deriving DecidableEq

/-- One operation on the store's connection pool (store_sqlite.rs:77-115). -/
structure Op where
  isWrite : Bool
  phase : Phase
deriving DecidableEq

/-- `SqlPoolInner` (:45-51) and all operations ever started. Code: store_sqlite.rs:45-115, 272-314. -/
structure St where
  writeCon : Option Nat
  readCons : List (Option Nat)
  writePermits : Nat
  readPermits : Nat
  ops : List Op
deriving DecidableEq

/-- store_sqlite.rs:222-250; `READ_CON_COUNT = 3` -/
def St.init : St := ⟨some 0, [some 1, some 2, some 3], 1, 3, []⟩

/-- What an operation does next (store_sqlite.rs:13-115). -/
inductive Ev where
  | start (isWrite : Bool)
  /-- operation `k` gets a permit -/
  | permit (k : Nat)
  /-- operation `k` takes its connection -/
  | take (k : Nat)
  /-- operation `k` calls `transaction` -/
  | begin (k : Nat)
  /-- its blocking task returns -/
  | finish (k : Nat)
  /-- operation `k` drops its `SqlCon` -/
  | drop (k : Nat)
  | release (k : Nat)
  /-- the future of operation `k` is dropped by its caller -/
  | cancel (k : Nat)
  /-- the blocking task of operation `k` panics -/
  | taskPanic (k : Nat)
  /-- the blocking task of a cancelled operation ends -/
  | orphanEnd (k : Nat)
deriving DecidableEq

/-- Operation `k` is now in phase `p`. Code: store_sqlite.rs:45-115, 272-314. -/
def St.setOp (s : St) (k : Nat) (o : Op) (p : Phase) : St := { s with ops := s.ops.set k { o with phase := p } }

/-- Give the permit back. Code: store_sqlite.rs:45-115, 272-314. -/
def St.unpermit (s : St) (isWrite : Bool) : St :=
  if isWrite then { s with writePermits := s.writePermits + 1 } else { s with readPermits := s.readPermits + 1 }

/-- First filled slot (:281-286). Code: store_sqlite.rs:45-115, 272-314. -/
def takeSlot : List (Option Nat) → Option Nat × List (Option Nat)
  | [] => (none, [])
  | some c :: l => (some c, none :: l)
  | none :: l => let r := takeSlot l; (r.1, none :: r.2)

/-- First empty slot (:67-72); a connection that finds none is closed. Code: store_sqlite.rs:45-115, 272-314. -/
def putSlot (c : Nat) : List (Option Nat) → List (Option Nat)
  | [] => []
  | none :: l => some c :: l
  | some d :: l => some d :: putSlot c l

/-- `Drop for SqlCon` (:60-76). Code: store_sqlite.rs:45-115, 272-314. -/
def St.putBack (s : St) (isWrite : Bool) : Option Nat → St
  | none => s
  | some c => if isWrite then { s with writeCon := some c } else { s with readCons := putSlot c s.readCons }

/-- One event. Code: store_sqlite.rs:45-115, 272-314. -/
def St.step (s : St) : Ev → St
  | .start w => { s with ops := s.ops ++ [⟨w, .waiting⟩] }
  | .permit k =>
    match s.ops[k]? with
    | some ⟨true, .waiting⟩ =>
      if 0 < s.writePermits then { s with writePermits := s.writePermits - 1 }.setOp k ⟨true, .waiting⟩ .permitted else s
    | some ⟨false, .waiting⟩ =>
      if 0 < s.readPermits then { s with readPermits := s.readPermits - 1 }.setOp k ⟨false, .waiting⟩ .permitted else s
    | _ => s
  | .take k =>
    match s.ops[k]? with
    | some ⟨true, .permitted⟩ => { s with writeCon := none }.setOp k ⟨true, .permitted⟩ (.held s.writeCon)
    | some ⟨false, .permitted⟩ =>
      { s with readCons := (takeSlot s.readCons).2 }.setOp k ⟨false, .permitted⟩ (.held (takeSlot s.readCons).1)
    | _ => s
  | .begin k =>
    match s.ops[k]? with
    | some ⟨w, .held (some c)⟩ => s.setOp k ⟨w, .held (some c)⟩ (.running c)
    -- `unwrap` of `None`: unwinding drops the `SqlCon`, and with it the permit
    | some ⟨w, .held none⟩ => (s.unpermit w).setOp k ⟨w, .held none⟩ .panicked
    | _ => s
  | .finish k =>
    match s.ops[k]? with
    | some ⟨w, .running c⟩ => s.setOp k ⟨w, .running c⟩ (.held (some c))
    | _ => s
  | .drop k =>
    match s.ops[k]? with
    | some ⟨w, .held c⟩ => (s.putBack w c).setOp k ⟨w, .held c⟩ .releasing
    | _ => s
  | .release k =>
    match s.ops[k]? with
    | some ⟨w, .releasing⟩ => (s.unpermit w).setOp k ⟨w, .releasing⟩ .closed
    | _ => s
  | .cancel k =>
    match s.ops[k]? with
    | some ⟨w, .waiting⟩ => s.setOp k ⟨w, .waiting⟩ .closed
    | some ⟨w, .permitted⟩ => (s.unpermit w).setOp k ⟨w, .permitted⟩ .closed
    | some ⟨w, .held c⟩ => (s.putBack w c).setOp k ⟨w, .held c⟩ .releasing
    -- the `SqlCon` has no connection to put back; its permit is released
    | some ⟨w, .running c⟩ => (s.unpermit w).setOp k ⟨w, .running c⟩ (.orphan c)
    | _ => s
  | .taskPanic k =>
    match s.ops[k]? with
    -- the connection is dropped in the task; `transaction` returns an error
    | some ⟨w, .running c⟩ => s.setOp k ⟨w, .running c⟩ (.held none)
    | _ => s
  | .orphanEnd k =>
    match s.ops[k]? with
    | some ⟨w, .orphan c⟩ => s.setOp k ⟨w, .orphan c⟩ .closed
    | _ => s

/-- All events in turn. Specification: nothing in the code corresponds. -/
def St.run (s : St) (evs : List Ev) : St := evs.foldl St.step s

/-- Connection `c` is in use by this operation. Specification: nothing in the code corresponds. -/
def Op.uses (c : Nat) (o : Op) : Bool :=
  match o.phase with
  | .held (some d) => d == c
  | .running d => d == c
  | .orphan d => d == c
  | _ => false

end Lair.Pool
