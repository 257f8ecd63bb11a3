import Verif.System

/-
SPECIFICATION vocabulary for the server properties: plain notions a user of the API knows, defined without reference to
the handlers. A run is `Sys.run E st evs`: any list of events (messages arriving on any connections, steps of any requests
in flight in any order with any choices of the environment, crashes / restarts) from any good store.
-/
namespace Lair

variable {E : Env}

/-- A request other than `Hello` and `Unlock`. -/
def NeedsUnlock (r : Req) : Prop := r ≠ .hello ∧ ∀ p, r ≠ .unlock p

/-- `p`, as encrypted by the client of connection `c`, contains the hash of the passphrase the keystore was made with:
    it opens the identity seed of the configuration and that seed has the announced public key. -/
def RightPassphrase (E : Env) (c : Nat) (p : SecretSized 81) : Prop :=
  ∃ (pass : B 64) (pre idSeed : B 32), p.decrypt (m := 64) E.C (E.decKey c) = some pass ∧
    E.C.argon2id pass.val E.salt E.ops E.mem = some pre ∧
    E.idSeedEnc.decrypt (m := 32) E.C (E.C.kdf pre 142 "IdnSecKy") = some idSeed ∧ E.C.xPk idSeed = E.idPk

/-- The entries of the keystore in state `s`, oldest first. -/
def Sys.entries (s : Sys E) : List Entry := E.S.tbl s.sh.store

/-- The effects of request number `k` so far: entries added, calls of the fallback signer, unlocking, and failures
    injected by the environment. -/
def Sys.effects (s : Sys E) (k : Nat) : List Ev := histOf s.hist k

/-- The entries added by request number `k` so far. -/
def Sys.added (s : Sys E) (k : Nat) : List Entry := (s.effects k).filterMap (fun ev => match ev with
  | .wrote e => some e
  | _ => none)

/-- Everything put on the wire so far: number of the request it answers, connection, message. -/
def Sys.sent (s : Sys E) : List (Nat × Nat × Msg) :=
  s.done.flatMap (fun d => d.wire.map (fun r => (d.id, d.conn, Msg.res d.msg.id r)))

/-- The request creates an entry under this tag. -/
def Creates : Req → String → Prop
  | .newSeed t _ _, t' => t = t'
  | .newCert t, t' => t = t'
  | .deriveSeed _ _ t _ _, t' => t = t'
  | .importSeed _ _ _ _ _ t _, t' => t = t'
  | _, _ => False

/-- The response to a creating request reports exactly the public information of entry `e`. -/
def Reports : Resp → Entry → Prop
  | .newSeed t i, e => e.info = .seed t i ∨ e.info = .deep t i
  | .importSeed t i, e => e.info = .seed t i ∨ e.info = .deep t i
  | .deriveSeed i, e => e.info = .seed e.tag i ∨ e.info = .deep e.tag i
  | .newCert t i, e => e.info = .cert t i
  | _, _ => False

/-- An error message. -/
def Resp.IsError (r : Resp) : Prop := ∃ e, r = .error e

/-- Was the seed created as exportable? (`none`: not a seed.) -/
def Entry.exportable? : Entry → Option Bool
  | .seed _ i _ => some i.exportable
  | .deep _ i _ _ _ _ => some i.exportable
  | .cert _ _ _ => none

/-- SPECIFICATION of a lookup without caches: read the entry from the store and decrypt its secrets. -/
def uncached (E : Env) (r : Res Entry) : Res Full :=
  match r with
  | .ok e => fullOf E.C E.bidi e
  | .error x => .error x

/-- A part of a handler run to its end with nothing else happening, every action getting the environment `ch`. -/
def Prog.alone {α : Type} (c : Nat) (ch : Choice) : Prog α → Shared E → Res α × Shared E
  | .ret a, s => (.ok a, s)
  | .fail e, s => (.error e, s)
  | .step a k, s => (k (exec c ch s a).1).alone c ch (exec c ch s a).2.1

/-- The request was received on an unlocked connection and the environment did not make any step of it fail. -/
def Served (s : Sys E) (d : Done E) : Prop := d.start.unlocked d.conn = true ∧ Ev.fault ∉ s.effects d.id

/-- `e` is an ordinary (not deep-locked) seed entry and holds `seed`. -/
def HoldsSeed (E : Env) (e : Entry) (seed : B 32) : Prop :=
  match e with
  | .seed _ _ enc => enc.decrypt (m := 32) E.C E.bidi = some seed
  | _ => False

/-- `e` is a deep-locked seed. -/
def Entry.IsDeep : Entry → Prop
  | .deep .. => True
  | _ => False

/-- `e` is an ordinary seed. -/
def Entry.IsSeed : Entry → Prop
  | .seed .. => True
  | _ => False

/-- The passphrase `pass`, as encrypted by the client of connection `c` and hashed with the given limits and the entry's
    salt, opens the deep-locked seed `e`, giving `seed`. -/
def OpensDeep (E : Env) (c : Nat) (pass : SecretSized 81) (ops mem : UInt32) (e : Entry) (seed : B 32) : Prop :=
  match e with
  | .deep _ _ salt _ _ enc => ∃ (p : B 64) (key : B 32), pass.decrypt (m := 64) E.C (E.decKey c) = some p ∧
      E.C.argon2id p.val salt ops mem = some key ∧ enc.decrypt (m := 32) E.C key = some seed
  | _ => False

/-- The limits stored with a deep-locked seed. -/
def Entry.limits? : Entry → Option (UInt32 × UInt32)
  | .deep _ _ _ ops mem _ => some (ops, mem)
  | _ => none

/-- Requests other than signing and derivation that use the secret of entry `e`. -/
def UsesSecretOf : Req → Entry → Prop
  | .exportSeed t s _ _, e => e.tag = t ∨ e.xKey = some s
  | .importSeed _ r _ _ _ _ _, e => e.xKey = some r
  | .boxEnc s _ _ _, e => e.xKey = some s
  | .boxDec _ r _ _ _, e => e.xKey = some r
  | .boxEncEd s _ _ _, e => e.edKey = some s
  | .boxDecEd _ r _ _ _, e => e.edKey = some r
  | .sboxEnc t _ _, e => e.tag = t
  | .sboxDec t _ _ _, e => e.tag = t
  | _, _ => False

/-- The client of connection `c` asks for no deep lock, or for one that can be made: the passphrase is encrypted with its session key, and the
    password hash works with the limits given. -/
def Lockable (E : Env) (c : Nat) (deep : Option DeepPass) : Prop :=
  ∀ p, deep = some p → ∃ pass : B 64, p.pass.decrypt (m := 64) E.C (E.decKey c) = some pass ∧
    ∀ salt, E.C.argon2id pass.val salt p.ops p.mem ≠ none

/-- No entry other than those request `k` itself added has this tag or one of these keys. -/
def Sys.FreeFor (s : Sys E) (k : Nat) (tag : String) (ed x : B 32) : Prop :=
  ∀ e ∈ s.entries, e.tag = tag ∨ e.edKey = some ed ∨ e.xKey = some x → e ∈ s.added k

end Lair
