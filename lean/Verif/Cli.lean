import Verif.SeedBundle
import Verif.Base64
import Verif.Config
import Verif.Server

/-
The command line program: crates/lair_keystore/src/bin/lair-keystore-bin/{main.rs, cmd_init.rs, cmd_server.rs, cmd_import_seed.rs}.

Not modelled: argument parsing (structopt), prompts, the pid file (PidFile.lean), locked memory.
-/
namespace Lair.Cli
open Mp Bundle

/-- `read_piped_passphrase` (main.rs:59-76) on everything read from standard input. -/
def stripEol (b : Bytes) : Bytes :=
  match b.reverse with
  | 10 :: 13 :: r => r.reverse
  | 10 :: r => r.reverse
  | _ => b

/-- `multi.split('\n').filter_map(trim, drop empty)` (cmd_import_seed.rs:21-39). -/
def passphraseLines (s : String) : List Bytes :=
  ((splitLines s.toList).map trim).filterMap (fun l => if l = [] then none else some (utf8 (String.ofList l)))

/-- The passphrases `import-seed --piped` uses (cmd_import_seed.rs:13-54): keystore, bundle, deep lock. -/
def importPassphrases (deep : Bool) (stdin : Bytes) : Res (Bytes × Bytes × Option Bytes) :=
  match ofUtf8 (stripEol stdin) with
  | none => .error "invalid utf-8"
  | some s =>
    if deep then
      match passphraseLines s with
      | [a, b, c] => .ok (a, b, some c)
      | _ => .error "expected 3 newline delimited passphrases"
    else
      match passphraseLines s with
      | [a, b] => .ok (a, b, none)
      | _ => .error "expected 2 newline delimited passphrases"

/-- The first password cipher the passphrase opens; others are skipped (cmd_import_seed.rs:80-96). -/
def firstOpen (C : Crypto) (pass : Bytes) : List Locked → Option Unlocked
  | [] => none
  | l :: ls =>
    match l.cipher with
    | .pw .. =>
      match l.unlockPw C pass with
      | some u => some u
      | none => firstOpen C pass ls
    | .qa .. => firstOpen C pass ls

/-- Arguments of `import-seed` (main.rs:101-139) other than `--piped`. -/
structure ImportOpt where
  tag : String
  bundle : String
  exportable : Bool

/-- `cmd_import_seed::exec` from `server.run(store_pass)` on (cmd_import_seed.rs:70-136), given the passphrases. `serverOpens`: does
    the server start with this passphrase (`Config.unlock`, and the store can be opened)? -/
def importSeed (E : Env) (serverOpens : Bytes → Bool) (opt : ImportOpt) (pass : Bytes × Bytes × Option Bytes) : Prog SeedInfo :=
  if serverOpens pass.1 then
    match Base64.ofText opt.bundle with
    | none => .fail "invalid base64"
    | some bytes =>
      match fromLocked bytes with
      | none => .fail "invalid seed bundle"
      | some ls =>
        match firstOpen E.C pass.2.1 ls with
        | none => .fail "could not unlock seed bundle"
        | some u =>
          match pass.2.2 with
          | some dp => insertDeep E u.seed opt.tag PwHashLimits.moderate.ops PwHashLimits.moderate.mem (E.C.blake2b64 dp) opt.exportable
          | none => insertSeed E u.seed opt.tag opt.exportable
  else .fail "could not start the server"

/-- The whole command with `--piped`. Code: cmd_import_seed.rs. -/
def importPiped (E : Env) (serverOpens : Bytes → Bool) (deep : Bool) (opt : ImportOpt) (stdin : Bytes) : Prog SeedInfo :=
  match importPassphrases deep stdin with
  | .error e => .fail e
  | .ok pass => importSeed E serverOpens opt pass

/-- Run a program alone; `ch n` are the environment's choices for its `n`-th action.
    Ghost: nothing in the code corresponds. -/
def runAlone {E : Env} {α : Type} : (ch : Nat → Choice) → Shared E → Prog α → Res α × Shared E
  | _, s, .ret a => (.ok a, s)
  | _, s, .fail e => (.error e, s)
  | ch, s, .step a k => runAlone (fun n => ch (n + 1)) (exec 0 (ch 0) s a).2.1 (k (exec 0 (ch 0) s a).1)

end Lair.Cli

/-! ### `init`: processes racing for the configuration file -/
namespace Lair.Init

/-- Where an `init` is (cmd_init.rs:4-50). -/
inductive Phase where
  /-- before the `metadata` check (:17) -/
  | start
  /-- reading the passphrase, generating the configuration (:24-33) -/
  | generating
  /-- the file is created; this many bytes are written (:35-42) -/
  | writing (n : Nat)
  /-- reported success -/
  | done
  /-- reported an error -/
  | failed
  /-- killed -/
  | crashed
deriving DecidableEq

/-- One process running `lair-keystore init` (cmd_init.rs:4-50). -/
structure Proc where
  /-- the text of the configuration it generates -/
  cfg : Bytes
  phase : Phase
deriving DecidableEq

/-- The configuration file and all `init`s ever started. Code: cmd_init.rs:4-50. -/
structure St where
  file : Option Bytes
  procs : List Proc
deriving DecidableEq

/-- What one of these processes does next (cmd_init.rs:4-50), or the end of a process at any point. -/
inductive Ev where
  | launch (cfg : Bytes)
  | check (k : Nat)
  /-- `open` with `create_new` -/
  | create (k : Nat)
  /-- one `write` system call that takes `n` bytes -/
  | write (k n : Nat)
  /-- `write_all` and `shutdown` have returned -/
  | finish (k : Nat)
  /-- `LairServerConfigInner::new`, `write` or `shutdown` fails -/
  | ioError (k : Nat)
  | crash (k : Nat)
deriving DecidableEq

/-- Process `k` is now at `ph`. Code: cmd_init.rs:4-50. -/
def St.setPhase (s : St) (k : Nat) (p : Proc) (ph : Phase) : St := { s with procs := s.procs.set k { p with phase := ph } }

/-- `write(2)` at offset `off`. The operating system, for cmd_init.rs. -/
def writeAt (file : Bytes) (off : Nat) (data : Bytes) : Bytes := file.take off ++ data ++ file.drop (off + data.length)

/-- One step of one process; each file operation of cmd_init.rs:4-50 is atomic. -/
def St.step (s : St) : Ev → St
  | .launch cfg => { s with procs := s.procs ++ [⟨cfg, .start⟩] }
  | .check k =>
    match s.procs[k]? with
    | some ⟨cfg, .start⟩ => s.setPhase k ⟨cfg, .start⟩ (if s.file.isSome then .failed else .generating)
    | _ => s
  | .create k =>
    match s.procs[k]? with
    | some ⟨cfg, .generating⟩ =>
      match s.file with
      | some _ => s.setPhase k ⟨cfg, .generating⟩ .failed
      | none => { s with file := some [] }.setPhase k ⟨cfg, .generating⟩ (.writing 0)
    | _ => s
  | .write k n =>
    match s.procs[k]? with
    | some ⟨cfg, .writing w⟩ =>
      let chunk := (cfg.drop w).take n
      { s with file := s.file.map (fun f => writeAt f w chunk) }.setPhase k ⟨cfg, .writing w⟩ (.writing (w + chunk.length))
    | _ => s
  | .finish k =>
    match s.procs[k]? with
    | some ⟨cfg, .writing w⟩ => if w = cfg.length then s.setPhase k ⟨cfg, .writing w⟩ .done else s
    | _ => s
  | .ioError k =>
    match s.procs[k]? with
    | some ⟨cfg, .generating⟩ => s.setPhase k ⟨cfg, .generating⟩ .failed
    | some ⟨cfg, .writing w⟩ => s.setPhase k ⟨cfg, .writing w⟩ .failed
    | _ => s
  | .crash k =>
    match s.procs[k]? with
    | some ⟨cfg, .start⟩ => s.setPhase k ⟨cfg, .start⟩ .crashed
    | some ⟨cfg, .generating⟩ => s.setPhase k ⟨cfg, .generating⟩ .crashed
    | some ⟨cfg, .writing w⟩ => s.setPhase k ⟨cfg, .writing w⟩ .crashed
    | _ => s

/-- All events in turn. Ghost: nothing in the code corresponds. -/
def St.run (s : St) (evs : List Ev) : St := evs.foldl St.step s

end Lair.Init
