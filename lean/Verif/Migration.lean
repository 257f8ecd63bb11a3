import Verif.Entry

/-
Opening the store file and migrating an unencrypted one: crates/lair_keystore/src/store_sqlite.rs:141-253 (`SqlPool::new_sync`),
:316-340 (`create_configured_db_connection`) and :584-668 (`encrypt_unencrypted_database`).

Modelled at the level of files: the store file and the temporary `…-encrypted` file beside it; each change of a file is atomic
(SQLite transactions, `unlink`, `rename`), a crash can happen between any two. Not modelled: WAL files, loss of completed
operations in a power failure, several processes at once (see C42).
-/
namespace Lair.Migr

/-- A database file with some contents `rows`. `enc k none` is an encrypted file whose tables have not been created.
    Code: store_sqlite.rs:141-253, 584-668. -/
inductive Db (ρ : Type) where
  | plain (rows : ρ)
  | enc (key : B 32) (rows : Option ρ)
deriving DecidableEq

/-- The store file and the temporary file. Code: store_sqlite.rs:141-253, 584-668. -/
structure Fs (ρ : Type) where
  main : Option (Db ρ)
  tmp : Option (Db ρ)
deriving DecidableEq

variable {ρ : Type}

/-- `create_configured_db_connection` + schema (store_sqlite.rs:171-216, 206-217): the file states it goes through, and the rows if it
    succeeds. A missing file is created; a plain file or one with another key gives "file is not a database". `empty` are the
    contents of new tables. -/
def openDb (empty : ρ) (key : B 32) (fs : Fs ρ) : List (Fs ρ) × Option ρ :=
  match fs.main with
  | none => ([{ fs with main := some (.enc key none) }, { fs with main := some (.enc key (some empty)) }], some empty)
  | some (.plain _) => ([], none)
  | some (.enc k rows) =>
    if k = key then
      match rows with
      | none => ([{ fs with main := some (.enc key (some empty)) }], some empty)
      | some rows => ([], some rows)
    else ([], none)

/-- `encrypt_unencrypted_database` (store_sqlite.rs:584-668): file states, and whether it succeeds. -/
def migrate (key : B 32) (fs : Fs ρ) : List (Fs ρ) × Bool :=
  match fs.main with
  | some (.plain rows) =>
    let rest : List (Fs ρ) :=
      [{ fs with tmp := some (.enc key (some rows)) },          -- COMMIT of the export
       ⟨none, some (.enc key (some rows))⟩,                     -- remove_file(path)
       ⟨some (.enc key (some rows)), none⟩]                     -- rename(encrypted_path, path)
    match fs.tmp with
    | none => ({ fs with tmp := some (.enc key none) } :: rest, true)
    | some (.enc k none) => if k = key then (rest, true) else ([], false)
    -- `sqlcipher_export` into a database that has the tables fails, as does attaching a file with another key
    | some (.enc _ (some _)) => ([], false)
    | some (.plain _) => ([], false)
  -- not a plain database: `VACUUM` fails with "file is not a database"
  | some (.enc _ _) => ([], false)
  -- an empty plain database is created and exported; cannot happen, `openDb` has created the file before
  | none => ([], false)

/-- Last state of a trace. Specification: nothing in the code corresponds. -/
def lastOr (fs : Fs ρ) (l : List (Fs ρ)) : Fs ρ := (l.getLast?).getD fs

/-- `SqlPool::new_sync` (store_sqlite.rs:168-253): open; on failure, if `LAIR_MIGRATE_UNENCRYPTED` is `true`, migrate and open again. -/
def start (empty : ρ) (allow : Bool) (key : B 32) (fs : Fs ρ) : List (Fs ρ) × Option ρ :=
  match openDb empty key fs with
  | (tr, some rows) => (tr, some rows)
  | (_, none) =>
    if allow then
      match migrate key fs with
      | (tr, false) => (tr, none)
      | (tr, true) =>
        let r := openDb empty key (lastOr fs tr)
        (tr ++ r.1, r.2)
    else ([], none)

/-- The files after a start that crashes after `n` changes (not at all if `n` is large).
    Specification: nothing in the code corresponds. -/
def after (empty : ρ) (allow : Bool) (key : B 32) (fs : Fs ρ) (n : Nat) : Fs ρ := lastOr fs ((start empty allow key fs).1.take n)

end Lair.Migr
