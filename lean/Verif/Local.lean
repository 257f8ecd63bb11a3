import Verif.Cli
import Verif.SystemLemmas

/-
The store handle: the process that runs a server can get a `LairStore` from it (`LairServer::store`, lair_server.rs:60-66;
`InProcKeystore::store`, in_proc_keystore.rs:50-54; `IpcKeystoreServer::store`, ipc_keystore.rs:71-75; `StandaloneServer::store`,
lair_keystore/src/server.rs:91-101, used by `import-seed`) and call its methods (lair_store.rs:229-490) while clients are served.
The calls go to the store directly: no lock check, no caches.

Simplification: a call is one step of the model. Each method accesses the store exactly once, and everything else it does
(random numbers, hashing, encryption) touches nothing shared, so it makes no difference when that happens.
-/
namespace Lair

/-- The methods of `LairStore`. Code: lair_store.rs:239-490. -/
inductive LocalCall where
  /-- lair_store.rs:239-287 -/
  | insertSeed (seed : B 32) (tag : String) (exportable : Bool)
  /-- lair_store.rs:289-306 -/
  | newSeed (tag : String) (exportable : Bool)
  /-- lair_store.rs:313-382 -/
  | insertDeep (seed : B 32) (tag : String) (ops mem : UInt32) (pass : B 64) (exportable : Bool)
  /-- lair_store.rs:384-413 -/
  | newDeep (tag : String) (ops mem : UInt32) (pass : B 64) (exportable : Bool)
  /-- lair_store.rs:418-458 -/
  | newCert (tag : String)
  /-- lair_store.rs:461-466 -/
  | list
  /-- lair_store.rs:469-490 -/
  | byTag (t : String)
  | byEd (k : B 32)
  | byX (k : B 32)

/-- What they return. Code: lair_store.rs:239-490. -/
inductive LocalOut where
  | seed (i : SeedInfo)
  | cert (i : CertInfo)
  | list (l : List EntryInfo)
  | entry (e : Entry)

/-- The methods as programs over the same actions as the request handlers. Code: lair_store.rs:239-490. -/
def LocalCall.prog (E : Env) : LocalCall → Prog LocalOut
  | .insertSeed seed tag x => (Lair.insertSeed E seed tag x).bind fun i => .ret (.seed i)
  | .newSeed tag x => (alloc.bind fun _ => .step (.random 32) fun (seed : B 32) => Lair.insertSeed E seed tag x).bind fun i => .ret (.seed i)
  | .insertDeep seed tag ops mem pass x => (Lair.insertDeep E seed tag ops mem pass x).bind fun i => .ret (.seed i)
  | .newDeep tag ops mem pass x =>
    (alloc.bind fun _ => .step (.random 32) fun (seed : B 32) => Lair.insertDeep E seed tag ops mem pass x).bind fun i => .ret (.seed i)
  | .newCert tag => (Lair.newCert E tag).bind fun i => .ret (.cert i)
  | .list => .step .list fun (r : Res (List EntryInfo)) => (Prog.ofRes r).bind fun l => .ret (.list l)
  | .byTag t => .step (.storeTag t) fun (r : Res Entry) => (Prog.ofRes r).bind fun e => .ret (.entry e)
  | .byEd k => .step (.storeEd k) fun (r : Res Entry) => (Prog.ofRes r).bind fun e => .ret (.entry e)
  | .byX k => .step (.storeX k) fun (r : Res Entry) => (Prog.ofRes r).bind fun e => .ret (.entry e)

/-- What happens in a process that serves clients and uses the store itself.
    Code: lair_server.rs:60-66, priv_srv.rs:355-381; the record is ghost. -/
inductive LEvent where
  /-- something happens to the server -/
  | srv (ev : Event)
  /-- a call of the store handle; `ch n` are the environment's choices for its `n`-th action -/
  | call (x : LocalCall) (ch : Nat → Choice)

/-- An entry of the record of everything that has come to an end. Specification: nothing in the code corresponds. -/
inductive LDone (E : Env) where
  /-- a request: connection, message, effects, outcome, what was sent -/
  | request (conn : Nat) (msg : Msg) (log : List Ev) (outcome : Res Resp) (wire : List Resp)
  /-- a call of the store handle: its result -/
  | call (x : LocalCall) (r : Res LocalOut)

/-- The server and a record (ghost). -/
structure LSys (E : Env) where
  sys : Sys E
  log : List (LDone E)

/-- A finished request, as seen from outside. Specification: nothing in the code corresponds. -/
def Done.view {E : Env} (d : Done E) : LDone E := .request d.conn d.msg d.log d.outcome d.wire

/-- One event. Code: lair_server.rs:60-66, priv_srv.rs:355-381; the record is ghost. -/
def LSys.step {E : Env} (l : LSys E) : LEvent → LSys E
  | .srv ev => ⟨l.sys.step ev, l.log ++ ((l.sys.step ev).done.drop l.sys.done.length).map Done.view⟩
  | .call x ch =>
    ⟨{ l.sys with sh := (Cli.runAlone ch l.sys.sh (x.prog E)).2 }, l.log ++ [.call x (Cli.runAlone ch l.sys.sh (x.prog E)).1]⟩

/-- A run from a server just started on store `st`. Specification: nothing in the code corresponds. -/
def LSys.run (E : Env) (st : E.S.σ) (evs : List LEvent) : LSys E := evs.foldl LSys.step ⟨.init E st, []⟩

/-! ### Specification: the same thing asked by a client -/

/-- The tag of the entry a call is about. Specification: nothing in the code corresponds. -/
def LocalCall.tag : LocalCall → String
  | .insertSeed _ t _ => t
  | .newSeed t _ => t
  | .insertDeep _ t _ _ _ _ => t
  | .newDeep t _ _ _ _ => t
  | .newCert t => t
  | .list => ""
  | .byTag t => t
  | .byEd _ => ""
  | .byX _ => ""

/-- The request with which the client of connection `c` asks for what a call does: make a seed with this tag, and so on. Inserting a
    given seed is making a seed when the random generator happens to give this one. A lookup gives a whole entry; there is no such request.
    Specification: nothing in the code corresponds. -/
def LocalCall.asReq (E : Env) (c : Nat) : LocalCall → Option Req
  | .insertSeed _ t x => some (.newSeed t none x)
  | .newSeed t x => some (.newSeed t none x)
  | .insertDeep _ t ops mem pass x => some (.newSeed t (some ⟨ops, mem, SecretSized.encrypt E.C E.L (E.decKey c) (B.fill 24 0) pass⟩) x)
  | .newDeep t ops mem pass x => some (.newSeed t (some ⟨ops, mem, SecretSized.encrypt E.C E.L (E.decKey c) (B.fill 24 0) pass⟩) x)
  | .newCert t => some (.newCert t)
  | .list => some .listEntries
  | _ => none

/-- A result as the content of a response. Specification: nothing in the code corresponds. -/
def LocalCall.asResp (x : LocalCall) : LocalOut → Resp
  | .seed i => .newSeed x.tag i
  | .cert i => .newCert x.tag i
  | .list l => .listEntries l
  | .entry e => .getEntry e.info

/-- The requests of connection `c` that stand for a call of the handle.
    Specification: nothing in the code corresponds. -/
inductive AsRequests (E : Env) (c : Nat) (p : SecretSized 81) (x : LocalCall) : List Event → Prop
  | lookup (h : x.asReq E c = none) : AsRequests E c p x []
  | request (r : Req) (h : x.asReq E c = some r) (a b : List Event) (ha : ∀ ev ∈ a, ∃ i ch, ev = .step i ch)
      (hb : ∀ ev ∈ b, ∃ i ch, ev = .step i ch) :
      AsRequests E c p x (.recv c (.req "unlock" (.unlock p)) :: a ++ .recv c (.req "call" r) :: b)

/-- What has come to an end, in order: connection, message, outcome. The calls of the handle are those of connection `c`.
    Specification: nothing in the code corresponds. -/
def LDone.seen {E : Env} (c : Nat) : LDone E → Option (Nat × Msg × Res Resp)
  | .request conn msg _ outcome _ => some (conn, msg, outcome)
  | .call x r => (x.asReq E c).map fun q => (c, .req "call" q, r.map x.asResp)

/-- The same for a server, but for the unlock requests of connection `c`.
    Specification: nothing in the code corresponds. -/
def Done.seen {E : Env} (c : Nat) (d : Done E) : Option (Nat × Msg × Res Resp) :=
  match d.msg with
  | .req _ (.unlock _) => if d.conn = c then none else some (d.conn, d.msg, d.outcome)
  | _ => some (d.conn, d.msg, d.outcome)

/-- Two lists, member by member. Proof device: nothing in the code corresponds. -/
def Pairs {α β : Type} (R : α → β → Prop) : List α → List β → Prop
  | [], [] => True
  | a :: as, b :: bs => R a b ∧ Pairs R as bs
  | _, _ => False

/-- Equal but for the flag of connection `c`. Proof device: nothing in the code corresponds. -/
structure SameBut {E : Env} (c : Nat) (s t : Shared E) : Prop where
  store : s.store = t.store
  cTag : s.cTag = t.cTag
  cEd : s.cEd = t.cEd
  cX : s.cX = t.cX
  unlocked : ∀ d, d ≠ c → s.unlocked d = t.unlocked d

/-- A request in flight on a connection other than `c`, in two systems.
    Proof device: nothing in the code corresponds. -/
structure SameThread {E : Env} (c : Nat) (t u : Thread E) : Prop where
  conn : t.conn = u.conn
  other : t.conn ≠ c
  msg : t.msg = u.msg
  log : t.log = u.log
  prog : t.prog = u.prog
  start : SameBut c t.start u.start

/-- A finished request of a connection other than `c`, in two systems.
    Proof device: nothing in the code corresponds. -/
structure SameDone {E : Env} (c : Nat) (t u : Done E) : Prop where
  conn : t.conn = u.conn
  other : t.conn ≠ c
  msg : t.msg = u.msg
  log : t.log = u.log
  outcome : t.outcome = u.outcome
  wire : t.wire = u.wire
  start : SameBut c t.start u.start
  stop : SameBut c t.stop u.stop

/-- The process with the handle in use, and a server with one more client instead.
    Specification: nothing in the code corresponds. -/
structure Beside {E : Env} (c : Nat) (l : LSys E) (s : Sys E) : Prop where
  sh : SameBut c l.sys.sh s.sh
  threads : Pairs (SameThread c) l.sys.threads s.threads
  done : Pairs (SameDone c) l.sys.done (s.done.filter fun d => d.conn ≠ c)
  log : l.log.filterMap (LDone.seen c) = s.done.filterMap (Done.seen c)

end Lair
