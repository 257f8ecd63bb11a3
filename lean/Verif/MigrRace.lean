import Verif.Basic

/-
Several processes that open - and, if `LAIR_MIGRATE_UNENCRYPTED` is `true`, migrate - one store file at the same time:
crates/lair_keystore/src/store_sqlite.rs:141-253 (`SqlPool::new_sync`), :316-340 (`create_configured_db_connection`),
:584-668 (`encrypt_unencrypted_database`). `Migration.lean` is the same code run by one process at a time.

Files are modelled as the operating system has them: a directory with the two names (the store file and the temporary file
`…-encrypted`), and files ("inodes") that live on for a process that has them open after their name is gone. Simplified: all processes
have the same configuration, so one key; a transaction is one step, and what is committed is at once in the file (no WAL; that is how
it is anyway once a process has closed the store). A process may stop (an error, time-out or crash) before any of its steps. Waiting
for a lock is the step changing nothing.
-/
namespace Lair.MigrRace

/-- A database file: without any pages yet, with plain rows, with rows encrypted with the key of the keystore.
    SQLite, as used at store_sqlite.rs:584-668. -/
inductive Db (α : Type) where
  | blank
  | plain (rows : List α)
  | enc (rows : List α)
deriving DecidableEq

/-- Where a process is in `new_sync`. `i` is the file its connection has open, `j` the attached file.
    Code: store_sqlite.rs:141-253, 584-668. -/
inductive Phase where
  /-- before store_sqlite.rs:171 -/
  | fresh
  /-- the first attempt failed, migration is asked for (:174-181) -/
  | toMigrate
  /-- `Connection::open(path)` and `VACUUM` done (:615-619) -/
  | vacuumed (i : Nat)
  /-- `BEGIN EXCLUSIVE` done (:622-623) -/
  | locked (i : Nat)
  /-- the temporary file is attached (:626-634) -/
  | attached (i j : Nat)
  /-- the export is committed, both files closed (:648-658) -/
  | exported
  /-- `remove_file(path)` done (:662) -/
  | removed
  /-- `rename(encrypted_path, path)` done (:663) -/
  | renamed
  /-- connected with the key, tables not yet created (:168-172 or :187-192) -/
  | opened (i : Nat)
  /-- the pool is there (:206-252) -/
  | up (i : Nat)
  /-- stopped or failed -/
  | over
deriving DecidableEq

/-- A process: whether `LAIR_MIGRATE_UNENCRYPTED` is `true` for it. Code: store_sqlite.rs:141-253, 584-668. -/
structure Proc where
  allow : Bool
  phase : Phase
deriving DecidableEq

/-- Files, names, processes; `acked` is ghost: the entries whose insertion has been reported as successful. -/
structure St (α : Type) where
  files : List (Db α)
  main : Option Nat
  tmp : Option Nat
  procs : List Proc
  acked : List α
deriving DecidableEq

variable {α : Type}

/-- An unencrypted store with `rows`, nobody there. Specification: nothing in the code corresponds. -/
def St.init (rows : List α) : St α := ⟨[.plain rows], some 0, none, [], []⟩

/-- Contents of file `i`. Code: store_sqlite.rs:141-253, 584-668. -/
def St.file (s : St α) (i : Nat) : Db α := (s.files[i]?).getD .blank

/-- Process `p` is now in phase `ph`. Code: store_sqlite.rs:141-253, 584-668. -/
def St.goto (s : St α) (p : Nat) (ph : Phase) : St α :=
  { s with procs := s.procs.modify p (fun q => { q with phase := ph }) }

/-- Open the file `path`, creating it if there is none (`SQLITE_OPEN_CREATE`): the file opened.
    Code: store_sqlite.rs:141-253, 584-668. -/
def St.openMain (s : St α) : St α × Nat :=
  match s.main with
  | some i => (s, i)
  | none => ({ s with files := s.files ++ [.blank], main := some s.files.length }, s.files.length)

/-- The same for the temporary file (`ATTACH DATABASE`). Code: store_sqlite.rs:141-253, 584-668. -/
def St.openTmp (s : St α) : St α × Nat :=
  match s.tmp with
  | some j => (s, j)
  | none => ({ s with files := s.files ++ [.blank], tmp := some s.files.length }, s.files.length)

/-- The phase holds the exclusive lock on file `i`. SQLite, as used at store_sqlite.rs:584-668. -/
def Phase.holds (i : Nat) : Phase → Bool
  | .locked k => k == i
  | .attached k _ => k == i
  | _ => false

/-- `create_configured_db_connection` (store_sqlite.rs:317-337): a plain file is "not a database"; what then happens is `ph`. -/
def St.connect (s : St α) (p : Nat) (ph : Phase) : St α :=
  let (s', i) := s.openMain
  match s'.file i with
  | .plain _ => s'.goto p ph
  | _ => s'.goto p (.opened i)

/-- The next thing process `p`, which is at `q`, does. Code: store_sqlite.rs:141-253, 584-668. -/
def St.advance (s : St α) (p : Nat) (q : Proc) : St α :=
  match q.phase with
  | .fresh => s.connect p (if q.allow then .toMigrate else .over)
  | .toMigrate =>
    let (s', i) := s.openMain
    match s'.file i with
    | .enc _ => s'.goto p .over               -- `VACUUM`: "file is not a database"
    | _ => s'.goto p (.vacuumed i)
  | .vacuumed i =>
    match s.file i with
    | .enc _ => s.goto p .over
    | _ => if s.procs.any (fun r => r.phase.holds i) then s else s.goto p (.locked i)
  | .locked i =>
    let (s', j) := s.openTmp
    match s'.file j with
    | .plain _ => s'.goto p .over
    | _ => s'.goto p (.attached i j)
  | .attached i j =>
    match s.file i, s.file j with
    | .plain rows, .blank => { s with files := s.files.set j (.enc rows) }.goto p .exported
    | .plain _, _ => s.goto p .over           -- the tables are there already
    | _, _ => s.goto p .exported              -- nothing to export
  | .exported =>
    match s.main with
    | some _ => { s with main := none }.goto p .removed
    | none => s.goto p .over
  | .removed =>
    match s.tmp with
    | some j => { s with main := some j, tmp := none }.goto p .renamed
    | none => s.goto p .over
  | .renamed => s.connect p .over
  | .opened i =>
    -- `CREATE TABLE IF NOT EXISTS` (:206-217)
    match s.file i with
    | .blank => { s with files := s.files.set i (.enc []) }.goto p (.up i)
    | .enc _ => s.goto p (.up i)
    | .plain _ => s.goto p .over
  | .up _ => s
  | .over => s

/-- What can happen: steps of processes that open the store (store_sqlite.rs:141-253), each SQL statement or file operation atomic. -/
inductive Evt (α : Type) where
  /-- a new process begins to open the store -/
  | launch (allow : Bool)
  /-- process `p` goes on -/
  | step (p : Nat)
  /-- process `p` stops or crashes -/
  | stop (p : Nat)
  /-- process `p`, if its pool is there, inserts `a` and reports success (store_sqlite.rs:396-436) -/
  | insert (p : Nat) (a : α)

/-- One event. Code: store_sqlite.rs:141-253, 584-668. -/
def St.next (s : St α) : Evt α → St α
  | .launch allow => { s with procs := s.procs ++ [⟨allow, .fresh⟩] }
  | .step p => match s.procs[p]? with
    | some q => s.advance p q
    | none => s
  | .stop p => s.goto p .over
  | .insert p a => match s.procs[p]? with
    | some ⟨_, .up i⟩ => match s.file i with
      | .enc rows => { s with files := s.files.set i (.enc (rows ++ [a])), acked := s.acked ++ [a] }
      | _ => s
    | _ => s

/-- A history. Specification: nothing in the code corresponds. -/
def St.run (s : St α) (evs : List (Evt α)) : St α := evs.foldl St.next s

/-- What a process that opens the store now finds there: the rows of the store file.
    Specification: nothing in the code corresponds. -/
def St.stored (s : St α) : List α :=
  match s.main with
  | some i => match s.file i with
    | .enc rows => rows
    | .plain rows => rows
    | .blank => []
  | none => []

/-! ### The case in which nothing is lost -/

/-- Process `q` is asked to migrate and has not finished starting. Specification: nothing in the code corresponds. -/
def Proc.migrating (q : Proc) : Bool :=
  q.allow && (match q.phase with
    | .up _ => false
    | .over => false
    | _ => true)

/-- What may happen for the migration to be safe: nobody who is asked to migrate begins while another such process has not
    finished starting, and such a process does not stop before it has.
    Specification: nothing in the code corresponds. -/
def Orderly (s : St α) : Evt α → Prop
  | .launch true => ∀ q ∈ s.procs, q.migrating = false
  | .stop p => ∀ q, s.procs[p]? = some q → q.migrating = false
  | _ => True

/-- Every event of the history is. Specification: nothing in the code corresponds. -/
def AllOrderly (s : St α) : List (Evt α) → Prop
  | [] => True
  | ev :: evs => Orderly s ev ∧ AllOrderly (s.next ev) evs

/-- Weaker: nobody who is asked to migrate begins while another such process has not finished starting; anyone may stop at any time.
    Specification: nothing in the code corresponds. -/
def InTurn (s : St α) : List (Evt α) → Prop
  | [] => True
  | ev :: evs => (ev = .launch true → ∀ q ∈ s.procs, q.migrating = false) ∧ InTurn (s.next ev) evs

/-- File `i` contains `rows`, perhaps with more entries after them. Specification: nothing in the code corresponds. -/
def St.has (s : St α) (i : Nat) (rows : List α) : Prop := s.file i = .plain rows ∨ ∃ l, s.file i = .enc (rows ++ l)

end Lair.MigrRace
