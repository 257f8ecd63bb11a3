import Verif.Handshake
import Verif.AMap

/-
The client side: request/response conversion, hello, unlock and connecting
(crates/lair_keystore_api/src/lair_client.rs, ipc_keystore.rs:98-161, in_proc_keystore.rs:64-110) and the table of
pending requests (lair_client/async_io.rs:46-160).
-/
namespace Lair

/-- `encrypt_passphrase` (lair_client.rs:565-575): hash, then encrypt for the server. -/
def encryptPassphrase (C : Crypto) (L : C.Lawful) (encKey : B 32) (hdr : B 24) (pass : Bytes) : SecretSized 81 :=
  SecretSized.encrypt C L encKey hdr (C.blake2b64 pass)

/-- Does the response variant belong to the request variant? `TryFrom<LairApiEnum> for R::Response`
    (at the end of each lair_api/*.rs, e.g. hello.rs:56-66), for the response types of all 17 requests. -/
def accepts : Req → Resp → Bool
  | .hello, .hello .. => true
  | .unlock .., .unlock => true
  | .getEntry .., .getEntry .. => true
  | .listEntries, .listEntries .. => true
  | .newSeed .., .newSeed .. => true
  | .exportSeed .., .exportSeed .. => true
  | .importSeed .., .importSeed .. => true
  | .deriveSeed .., .deriveSeed .. => true
  | .sign .., .sign .. => true
  | .boxEnc .., .boxEnc .. => true
  | .boxDec .., .boxDec .. => true
  | .boxEncEd .., .boxEncEd .. => true
  | .boxDecEd .., .boxDecEd .. => true
  | .newCert .., .newCert .. => true
  | .getCertKey .., .getCertKey .. => true
  | .sboxEnc .., .sboxEnc .. => true
  | .sboxDec .., .sboxDec .. => true
  | _, _ => false

/-- `priv_lair_api_request` (lair_client.rs:45-68) after the raw request returned: an error message becomes `Err`, a
    message of another type (even a request) becomes `Err`. -/
def typedResult (r : Req) : Res Msg → Res Resp
  | .error e => .error e
  | .ok (.res _ (.error e)) => .error e
  | .ok (.res _ x) => if accepts r x then .ok x else .error "InvalidType"
  | .ok (.req _ _) => .error "InvalidType"

/-- A client procedure that makes requests one after the other. Code: lair_client.rs:45-70, 106-560. -/
inductive CProg (α : Type) where
  | ret (r : Res α)
  | ask (r : Req) (k : Res Resp → CProg α)

/-- Run a client procedure against any server: `srv` says what the raw request returns, given all requests so far.
    Gives the requests made and the result. Code: lair_client.rs:45-70, 106-560. -/
def CProg.run {α : Type} (srv : List Req → Res Msg) : CProg α → List Req → List Req × Res α
  | .ret r, sent => (sent, r)
  | .ask r k, sent => (k (typedResult r (srv (sent ++ [r])))).run srv (sent ++ [r])

/-- `LairClient::hello` (lair_client.rs:106-129), then `priv_check_hello_ver` (ipc_keystore.rs:146-161), then
    `LairClient::unlock` (lair_client.rs:135-147): the part of `ipc_keystore_connect_options` (ipc_keystore.rs:119-144)
    after the encrypted channel is up. `exact` is `exact_client_server_version_match`, `ver` is `LAIR_VER`.
    `InProcKeystore::new_client` (in_proc_keystore.rs:102-106) is the same with `exact = false`. -/
def connectProg (C : Crypto) (L : C.Lawful) (expected : B 32) (exact : Bool) (ver : String) (encKey : B 32) (hdr : B 24) (pass : Bytes) :
    CProg Unit :=
  .ask .hello fun res =>
    match res with
    | .error e => .ret (.error e)
    | .ok (.hello _ version pk) =>
      if pk ≠ expected then .ret (.error "ServerPubKeyMismatch")
      else if exact && version ≠ ver then .ret (.error "Invalid lair server version")
      else
        .ask (.unlock (encryptPassphrase C L encKey hdr pass)) fun res =>
          match res with
          | .error e => .ret (.error e)
          | .ok _ => .ret (.ok ())
    | .ok _ => .ret (.error "InvalidType")

/-! ### Pending requests (async_io.rs:46-160) -/

/-- The oneshot channel of a request: `resp.send(incoming)` fills it, dropping the sender closes it.
    tokio oneshot, as used at async_io.rs:93-160. -/
inductive Slot where
  | empty
  | full (m : Msg)
  | dropped
deriving DecidableEq

/-- Progress of the future returned by `request` (async_io.rs:116-160). -/
inductive CPhase where
  /-- awaiting `send.send(request)` -/
  | sending
  /-- awaiting the oneshot, with the 30 s timeout -/
  | waiting
  /-- completed with this result -/
  | done (r : Res Msg)
  /-- the caller dropped the future -/
  | cancelled
deriving DecidableEq

/-- A call of `AsyncIo::request` (async_io.rs:116-160): the message id and type it waits for, and what it got. -/
structure CReq where
  id : String
  phase : CPhase
  slot : Slot
deriving DecidableEq

/-- `CliInner` with all requests ever made, numbered; `pending : HashMap<Arc<str>, Sender>`.
    Code: async_io.rs:93-100. -/
structure CliSt where
  pending : AMap String Nat
  reqs : List CReq
  /-- the receive loop has ended -/
  ended : Bool
deriving DecidableEq

/-- A client that has just been made (lair_client.rs:106-129): nothing pending. -/
def CliSt.init : CliSt := ⟨[], [], false⟩

/-- What can happen to a client (async_io.rs:46-160). -/
inductive CEv where
  /-- `request` is called with a message of this id -/
  | start (id : String)
  /-- the send of request `k` completes -/
  | sent (k : Nat) (r : Res Unit)
  /-- a message arrives from the server -/
  | arrive (m : Msg)
  /-- the waiting request `k` is polled -/
  | wake (k : Nat)
  /-- 30 seconds have passed for request `k` -/
  | timeout (k : Nat)
  /-- the caller drops the future of request `k` -/
  | cancel (k : Nat)
  /-- the connection ends (EOF or channel error): the receive loop finishes -/
  | connEnd
deriving DecidableEq

/-- The oneshot sender of this request is dropped: an unused channel closes (tokio oneshot).
    tokio oneshot, as used at async_io.rs:93-160. -/
def CReq.drop (q : CReq) : CReq := match q.slot with
  | .empty => { q with slot := .dropped }
  | _ => q

/-- `resp.send(incoming)` on the oneshot of this request (async_io.rs:71-73). -/
def CReq.deliver (m : Msg) (q : CReq) : CReq := match q.slot with
  | .empty => { q with slot := .full m }
  | _ => q

/-- Drop the oneshot sender of request `k`. tokio oneshot, as used at async_io.rs:93-160. -/
def dropSender (rs : List CReq) (k : Nat) : List CReq := rs.modify k CReq.drop

/-- `HashMap::remove` on the pending table; the removed sender is dropped. Code: async_io.rs:125-134. -/
def CliSt.remove (s : CliSt) (id : String) : CliSt :=
  match s.pending.get id with
  | none => s
  | some k => { s with pending := s.pending.erase id, reqs := dropSender s.reqs k }

/-- Request `k` ends in phase `p`: its `Clean` guard removes the pending entry *of its id* (async_io.rs:124-131). -/
def CliSt.finish (s : CliSt) (k : Nat) (id : String) (p : CPhase) : CliSt :=
  { s with reqs := s.reqs.modify k (fun q => { q with phase := p }) }.remove id

/-- One event. Code: async_io.rs:58-160. -/
def CliSt.step (s : CliSt) : CEv → CliSt
  | .start id =>
    -- `pending.insert(msg_id, s)`: a previous sender with the same id is dropped
    let s := s.remove id
    { s with pending := s.pending.insert id s.reqs.length, reqs := s.reqs ++ [⟨id, .sending, .empty⟩] }
  | .sent k r =>
    match s.reqs[k]? with
    | some ⟨id, .sending, _⟩ =>
      match r with
      | .ok () => { s with reqs := s.reqs.modify k (fun q => { q with phase := .waiting }) }
      | .error e => s.finish k id (.done (.error e))
    | _ => s
  | .arrive m =>
    if s.ended then s
    else
      match s.pending.get m.id with
      | none => s
      | some k =>
        { s with pending := s.pending.erase m.id,
                 reqs := s.reqs.modify k (CReq.deliver m) }
  | .wake k =>
    match s.reqs[k]? with
    | some ⟨id, .waiting, .full m⟩ => s.finish k id (.done (.ok m))
    | some ⟨id, .waiting, .dropped⟩ => s.finish k id (.done (.error "ConnectionAborted"))
    | _ => s
  | .timeout k =>
    match s.reqs[k]? with
    -- `timeout` polls the inner future first: a value that is there wins
    | some ⟨id, .waiting, .empty⟩ => s.finish k id (.done (.error "TimedOut"))
    | some ⟨id, .waiting, .full m⟩ => s.finish k id (.done (.ok m))
    | some ⟨id, .waiting, .dropped⟩ => s.finish k id (.done (.error "ConnectionAborted"))
    | _ => s
  | .cancel k =>
    match s.reqs[k]? with
    | some ⟨id, .sending, _⟩ => s.finish k id .cancelled
    | some ⟨id, .waiting, _⟩ => s.finish k id .cancelled
    | _ => s
  | .connEnd =>
    -- `pending.clear()`
    { s with pending := [], reqs := s.pending.values.foldl dropSender s.reqs, ended := true }

/-- All events in turn. Code: async_io.rs:58-160. -/
def CliSt.run (s : CliSt) (evs : List CEv) : CliSt := evs.foldl CliSt.step s

end Lair
