import Verif.Multi
import Verif.Migration
import Verif.Labels

/-
The life of a keystore on disk: starting servers from its configuration, with any passphrases, the servers at work, and crashes.
crates/lair_keystore/src/server.rs:58-88 (`StandaloneServer::run`), crates/lair_keystore_api/src/lair_server/priv_srv.rs:34-138
(`Srv::new`: first the passphrase is checked by opening the secrets of the configuration, then the store is opened with the key found
there), crates/lair_keystore/src/store_sqlite.rs:19-43 (`connect_to_store`), :141-253 (`SqlPool::new_sync`).

The configuration stays as it is. A start that the pid file (C42), the directory checks (server.rs:30-49) or the socket (C62) prevent does
not come to the store file; it is not an event here. A start without migration goes step by step (`begin`, `advance`), any number of them at the same
time; each step is one transaction or file creation, which SQLite makes atomic between processes. A start with migration is one step, in
which it may be cut off after any of its changes of the files; so two processes that migrate at the very same time are not
modelled. Servers at work are modelled step by step, any number of them (Multi.lean); one that has ended just takes no more steps.
-/
namespace Lair

/-- The environment of servers started from `cfg` (ServerStart.lean): the store's context key is what the SQLite store derives.
    Code: server.rs:17-88, priv_srv.rs:34-138. -/
def Config.sqlEnv (C : Crypto) (L : C.Lawful) (cfg : Config) (keys : SrvKeys) (S : StoreModel) (name version : String)
    (encKey decKey : Nat → B 32) (certGen : Nat → CertGen) (debugFmt : Msg → String) : Env :=
  cfg.env C L keys S (fun k => (storeKeys C k).ctx) name version encKey decKey certGen debugFmt

/-- The files and the server processes. Code: server.rs:17-88, priv_srv.rs:34-138. -/
structure Life (E : Env) where
  fs : Migr.Fs E.S.σ
  procs : List (LSys E)
  /-- processes that have passed the passphrase and are opening the store file, with this database key -/
  opening : List (B 32)

/-- What can happen. Code: server.rs:17-88, priv_srv.rs:34-138. -/
inductive LifeEv where
  /-- a server is started with a passphrase, `migrate`: `LAIR_MIGRATE_UNENCRYPTED` is `true`; `cut = some n`: it ends after `n` changes
      of the files, also one that ends for other reasons before it serves (priv_srv.rs:107-113) -/
  | start (pass : Bytes) (migrate : Bool) (cut : Option Nat)
  /-- a server is started with a passphrase and without migration, and goes on step by step; one that has crashed takes no more steps -/
  | begin (pass : Bytes)
  /-- the `i`-th process that is opening the store file does its next step -/
  | advance (i : Nat)
  /-- something happens in the `j`-th server -/
  | at (j : Nat) (ev : LEvent)

variable {E : Env}

/-- Starting with the keys found in the configuration. Code: server.rs:17-88, priv_srv.rs:34-138. -/
def Life.open (s : Life E) (keys : SrvKeys) (migrate : Bool) (cut : Option Nat) : Life E :=
  let key := (storeKeys E.C keys.contextKey).dbk
  match cut with
  | some n => { s with fs := Migr.after E.S.I.empty migrate key s.fs n }
  | none =>
    let r := Migr.start E.S.I.empty migrate key s.fs
    match r.2 with
    | none => { s with fs := Migr.lastOr s.fs r.1 }
    | some st => ⟨Migr.lastOr s.fs r.1, s.procs ++ [⟨.init E st, []⟩], s.opening⟩

/-- The next step of opening the store file (store_sqlite.rs:168-176, 199-217): the file is created, `CREATE TABLE IF NOT EXISTS` in an
    exclusive transaction, then it is ready to serve. A plain file or one with another key is "not a database". -/
def Life.advance (s : Life E) (i : Nat) (key : B 32) : Life E :=
  match s.fs.main with
  | none => { s with fs := { s.fs with main := some (.enc key none) } }
  | some (.enc k rows) =>
    if k = key then
      match rows with
      | none => { s with fs := { s.fs with main := some (.enc key (some E.S.I.empty)) } }
      | some st => { s with procs := s.procs ++ [⟨.init E st, []⟩], opening := s.opening.eraseIdx i }
    else { s with opening := s.opening.eraseIdx i }
  | some (.plain _) => { s with opening := s.opening.eraseIdx i }

/-- One event. Code: server.rs:17-88, priv_srv.rs:34-138. -/
def Life.step (cfg : Config) (s : Life E) : LifeEv → Life E
  | .start pass migrate cut =>
    match cfg.unlock E.C pass with
    | none => s
    | some keys => s.open keys migrate cut
  | .begin pass =>
    match cfg.unlock E.C pass with
    | none => s
    | some keys => { s with opening := s.opening ++ [(storeKeys E.C keys.contextKey).dbk] }
  | .advance i =>
    match s.opening[i]? with
    | none => s
    | some key => s.advance i key
  | .at j ev =>
    match s.procs[j]? with
    | none => s
    | some l =>
      let st := (l.step ev).sys.sh.store
      -- the file has been opened by a server: it is encrypted; its key stays
      let main := match s.fs.main with
        | some (.enc k _) => some (.enc k (some st))
        | m => m
      ⟨{ s.fs with main := main }, (s.procs.set j (l.step ev)).map (fun p => p.onStore st), s.opening⟩

/-- All events in turn, from a disk. Specification: nothing in the code corresponds. -/
def Life.run (E : Env) (cfg : Config) (fs : Migr.Fs E.S.σ) (evs : List LifeEv) : Life E := evs.foldl (Life.step cfg) ⟨fs, [], []⟩

/-- The entries in the store file. Specification: nothing in the code corresponds. -/
def Life.entries (s : Life E) : List Entry := match s.fs.main with
  | some (.enc _ (some st)) => E.S.tbl st
  | some (.plain st) => E.S.tbl st
  | _ => []

end Lair
