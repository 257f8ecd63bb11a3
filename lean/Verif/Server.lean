import Verif.StoreSpec
import Verif.Lru
import Verif.Api
import Verif.Codec

/-
The server (crates/lair_keystore_api/src/lair_server/priv_srv.rs and priv_api.rs).

Each handler is a program (`Prog`) over atomic actions (`Act`). One action is one critical section of the Rust code:
a lock scope on the server state, one store call, one load / store of the connection's atomic flag, one call of the
random generator, one call of the fallback signer. Pure computation between actions is not interruptible in the model,
which is harmless because it touches no shared state. A scheduler (`Verif.System`) interleaves handlers.

Faults: store calls can fail for reasons of their own (disk, pool), locked memory allocation (`new_mem_locked()?`) and
the crypto worker can fail. These are injected by the environment through `Choice.fault`.
-/
namespace Lair

/-- A store together with the proof that it behaves as the write-once table (`Verif.StoreSpec`).
    Code: lair_store.rs `AsLairStore`, implemented at mem_store.rs:57 and store_sqlite.rs:339. -/
structure StoreModel where
  σ : Type
  I : StoreImpl σ
  fits : Entry → Bool
  ok : σ → Prop
  tbl : σ → List Entry
  R : Refines I fits ok tbl

/-- Result of `tls_cert_self_signed_new` (internal/tls.rs:50-60) before hashing. -/
structure CertGen where
  sni : String
  priv : Bytes
  cert : Bytes
deriving DecidableEq

/-- The fixed environment of a running server: cryptography, store, and what `Srv::new` computed (priv_srv.rs:18-30,
    115-136) and `priv_srv_accept` derived per connection (priv_srv.rs:160-177). -/
structure Env where
  C : Crypto
  L : C.Lawful
  S : StoreModel
  /-- the store's context key, `get_bidi_ctx_key` -/
  bidi : B 32
  name : String
  version : String
  idPk : B 32
  salt : B 16
  ops : UInt32
  mem : UInt32
  /-- `config.runtime_secrets_id_seed` -/
  idSeedEnc : SecretSized 49
  /-- is a fallback command configured? -/
  hasFallback : Bool
  /-- capacity of each cache; 128 in the code -/
  cap : Nat
  /-- per connection: key for data to / from the client -/
  encKey : Nat → B 32
  decKey : Nat → B 32
  /-- certificate generation as a function of its randomness -/
  certGen : Nat → CertGen
  /-- the `{:?}` rendering used in one error text (priv_srv.rs:348) -/
  debugFmt : Msg → String

/-- `FullLairEntry` (priv_srv.rs:3-16). -/
structure Full where
  entry : Entry
  exportable : Bool
  seed : Option (B 32)
  edSk : Option (B 64)
  xSk : Option (B 32)
deriving DecidableEq

/-- The mutable state shared by all handlers: the store, the three caches (priv_srv.rs:25-28) and the unlock flag of
    each connection (priv_srv.rs:182). -/
structure Shared (E : Env) where
  store : E.S.σ
  cTag : Lru String Full
  cEd : Lru (B 32) Full
  cX : Lru (B 32) Full
  unlocked : Nat → Bool

/-- The environment's choices for one action.
    The environment of priv_api.rs and priv_srv.rs: random bytes, faults, replies of the signing program. -/
structure Choice where
  /-- output of the random generator -/
  rnd : (n : Nat) → B n
  /-- randomness of certificate generation -/
  cert : Nat
  /-- the fallback signer's answer -/
  fb : Res (B 64)
  /-- an injected failure of a store call or allocation -/
  fault : Option String

/-- Atomic actions.
    Code: the lock regions and store calls of priv_api.rs, priv_srv.rs and lair_store.rs, each cited at its use below. -/
inductive Act where
  /-- `unlocked.load(Relaxed)` -/
  | loadUnlocked
  /-- `unlocked.store(true, Relaxed)` -/
  | setUnlocked
  /-- the lock scopes at priv_api.rs:907-914, 932-939, 957-964 -/
  | cacheTag (t : String)
  | cacheEd (k : B 32)
  | cacheX (k : B 32)
  /-- store lookups -/
  | storeTag (t : String)
  | storeEd (k : B 32)
  | storeX (k : B 32)
  /-- the lock scope at priv_api.rs:885-895 -/
  | register (f : Full)
  /-- `write_entry` -/
  | write (e : Entry)
  /-- `list_entries` -/
  | list
  /-- `sodoken::random::bytes_buf` -/
  | random (n : Nat)
  /-- `tls_cert_self_signed_new` -/
  | genCert
  /-- locked memory allocation / crypto worker: can fail -/
  | alloc
  /-- `FallbackCmd::sign_by_pub_key` -/
  | fallback (pk : B 32) (data : Bytes)

/-- What an action returns.
    Code: the lock regions and store calls of priv_api.rs, priv_srv.rs and lair_store.rs, each cited at its use below. -/
def Act.Out : Act → Type
  | .loadUnlocked => Bool
  | .setUnlocked => Unit
  | .cacheTag _ => Option Full
  | .cacheEd _ => Option Full
  | .cacheX _ => Option Full
  | .storeTag _ => Res Entry
  | .storeEd _ => Res Entry
  | .storeX _ => Res Entry
  | .register _ => Unit
  | .write _ => Res Unit
  | .list => Res (List EntryInfo)
  | .random n => B n
  | .genCert => CertGen
  | .alloc => Res Unit
  | .fallback _ _ => Res (B 64)

/-- Observable effects of an action, recorded in the history. Ghost: nothing in the code corresponds. -/
inductive Ev where
  /-- an entry was added to the store -/
  | wrote (e : Entry)
  /-- the fallback signer was called and answered -/
  | fell (pk : B 32) (data : Bytes) (ans : Res (B 64))
  /-- the connection was unlocked -/
  | unlocked
  /-- an injected failure happened -/
  | fault
deriving DecidableEq

/-- A handler program. How the handlers of priv_api.rs are written down; control flow only. -/
inductive Prog (α : Type) where
  | ret (a : α)
  | fail (e : String)
  | step (a : Act) (k : a.Out → Prog α)

namespace Prog

/-- Sequencing of fallible steps: `?`. Rust's `?` in priv_api.rs and lair_store.rs. -/
def bind {α β : Type} : Prog α → (α → Prog β) → Prog β
  | .ret a, f => f a
  | .fail e, _ => .fail e
  | .step a k, f => .step a (fun o => bind (k o) f)

instance : Monad Prog where
  pure := .ret
  bind := bind

/-- Turn failure into a value (the `match … { Ok .. Err .. }` at priv_api.rs:512-564). -/
def attempt {α : Type} : Prog α → Prog (Res α)
  | .ret a => .ret (.ok a)
  | .fail e => .ret (.error e)
  | .step a k => .step a (fun o => attempt (k o))

/-- One action as a program. Rust's `?` in priv_api.rs and lair_store.rs. -/
def act (a : Act) : Prog a.Out := .step a .ret

/-- `result?`. Rust's `?` in priv_api.rs and lair_store.rs. -/
def ofRes {α : Type} : Res α → Prog α
  | .ok a => .ret a
  | .error e => .fail e

/-- `option.ok_or(err)?`. Rust's `?` in priv_api.rs and lair_store.rs. -/
def ofOpt {α : Type} (e : String) : Option α → Prog α
  | some a => .ret a
  | none => .fail e

end Prog

section Handlers
variable (E : Env)

/-- `if !unlocked.load() { return Err("KeystoreLocked") }` and `priv_get_store` (priv_srv.rs:355-364). -/
def checkUnlocked : Prog Unit :=
  .step .loadUnlocked fun (u : Bool) => if u then .ret () else .fail "KeystoreLocked"

/-- A fallible allocation / crypto call. Code: sodoken calls in priv_api.rs and lair_store.rs:239-458. -/
def alloc : Prog Unit := .step .alloc fun (r : Res Unit) => Prog.ofRes r

/-- Key comparison and derivation in `priv_gen_and_register_entry` (priv_api.rs:843-883), the pure part. -/
def fullOf (C : Crypto) (bidi : B 32) (e : Entry) : Res Full :=
  match e with
  | .seed _ info enc =>
    match enc.decrypt (m := 32) C bidi with
    | none => .error "decrypt error"
    | some s =>
      if C.edPk s ≠ info.ed then .error "Ed25519 pub key generated from seed does not match"
      else if C.xPk s ≠ info.x then .error "X25519 pub key generated from seed does not match"
      else .ok ⟨e, info.exportable, some s, some (C.edSk s), some (C.xSk s)⟩
  | _ => .ok ⟨e, false, none, none, none⟩

/-- `priv_gen_and_register_entry` (priv_api.rs:837-899). -/
def genAndRegister (e : Entry) : Prog Full := do
  alloc
  let f ← Prog.ofRes (fullOf E.C E.bidi e)
  Prog.act (.register f)
  return f

/-- `priv_get_full_entry_by_tag` (priv_api.rs:902-924). -/
def fullByTag (t : String) : Prog Full :=
  .step (.cacheTag t) fun (o : Option Full) => match o with
    | some f => .ret f
    | none => .step (.storeTag t) fun (r : Res Entry) => (Prog.ofRes r).bind (genAndRegister E)

/-- `priv_get_full_entry_by_ed_pub_key` (priv_api.rs:927-949). -/
def fullByEd (k : B 32) : Prog Full :=
  .step (.cacheEd k) fun (o : Option Full) => match o with
    | some f => .ret f
    | none => .step (.storeEd k) fun (r : Res Entry) => (Prog.ofRes r).bind (genAndRegister E)

/-- `priv_get_full_entry_by_x_pub_key` (priv_api.rs:952-974). -/
def fullByX (k : B 32) : Prog Full :=
  .step (.cacheX k) fun (o : Option Full) => match o with
    | some f => .ret f
    | none => .step (.storeX k) fun (r : Res Entry) => (Prog.ofRes r).bind (genAndRegister E)

/-- `LairStore::insert_seed` (lair_store.rs:239-287). -/
def insertSeed (seed : B 32) (tag : String) (exportable : Bool) : Prog SeedInfo := do
  alloc
  let hdr ← Prog.act (.random 24)
  let info : SeedInfo := ⟨E.C.edPk seed, E.C.xPk seed, exportable⟩
  .step (.write (.seed tag info (SecretSized.encrypt E.C E.L E.bidi hdr seed))) fun (r : Res Unit) => do
    Prog.ofRes r
    return info

/-- `LairStore::insert_deep_locked_seed` (lair_store.rs:313-382). -/
def insertDeep (seed : B 32) (tag : String) (ops mem : UInt32) (pass : B 64) (exportable : Bool) : Prog SeedInfo := do
  alloc
  let salt ← Prog.act (.random 16)
  let key ← Prog.ofOpt "argon2id error" (E.C.argon2id pass.val salt ops mem)
  let hdr ← Prog.act (.random 24)
  let info : SeedInfo := ⟨E.C.edPk seed, E.C.xPk seed, exportable⟩
  .step (.write (.deep tag info salt ops mem (SecretSized.encrypt E.C E.L key hdr seed))) fun (r : Res Unit) => do
    Prog.ofRes r
    return info

/-- `secret.passphrase.decrypt(dec_ctx_key)` for connection `c`.
    Code: encoding_types.rs:233-247, called by the handlers in priv_api.rs. -/
def decPass (c : Nat) (p : SecretSized 81) : Option (B 64) := p.decrypt (m := 64) E.C (E.decKey c)

/-- `match deep_lock_passphrase { Some → insert_deep_locked_seed, None → insert_seed }` as written at
    priv_api.rs:294-321 and 439-463 (and, with a fresh random seed, at 201-220). -/
def insertMaybeDeep (c : Nat) (seed : B 32) (tag : String) (deep : Option DeepPass) (exportable : Bool) : Prog SeedInfo :=
  match deep with
  | some d => do
    let pass ← Prog.ofOpt "decrypt error" (decPass E c d.pass)
    insertDeep E seed tag d.ops d.mem pass exportable
  | none => insertSeed E seed tag exportable

/-- `LairStore::new_wka_tls_cert` (lair_store.rs:418-458). -/
def newCert (tag : String) : Prog CertInfo := do
  alloc
  let g ← Prog.act .genCert
  let hdr ← Prog.act (.random 24)
  let info : CertInfo := ⟨g.sni, E.C.blake2b32 g.cert, g.cert⟩
  .step (.write (.cert tag info (SecretData.encrypt E.C E.bidi hdr g.priv))) fun (r : Res Unit) => do
    Prog.ofRes r
    return info

/-- `priv_req_hello` (priv_api.rs:5-40). -/
def hHello : Prog Resp := .ret (.hello E.name E.version E.idPk)

/-- The decision of `priv_req_unlock` (priv_api.rs:50-100): is this the right passphrase? -/
def unlockCheck (c : Nat) (p : SecretSized 81) : Res Unit :=
  match decPass E c p with
  | none => .error "decrypt error"
  | some pass =>
    match E.C.argon2id pass.val E.salt E.ops E.mem with
    | none => .error "argon2id error"
    | some pre =>
      match E.idSeedEnc.decrypt (m := 32) E.C (E.C.kdf pre 142 "IdnSecKy") with
      | none => .error "decrypt error"
      | some idSeed => if E.idPk ≠ E.C.xPk idSeed then .error "InvalidPassphrase" else .ok ()

/-- `priv_req_unlock` (priv_api.rs:42-112). -/
def hUnlock (c : Nat) (p : SecretSized 81) : Prog Resp := do
  alloc
  Prog.ofRes (unlockCheck E c p)
  Prog.act .setUnlocked
  return .unlock

/-- `priv_req_get_entry` (priv_api.rs:114-163). -/
def hGetEntry (tag : String) : Prog Resp := do
  checkUnlocked
  let f ← fullByTag E tag
  return .getEntry f.entry.info

/-- `priv_req_list_entries` (priv_api.rs:165-189). -/
def hList : Prog Resp := do
  checkUnlocked
  .step .list fun (r : Res (List EntryInfo)) => do
    let l ← Prog.ofRes r
    return .listEntries l

/-- `priv_req_new_seed` (priv_api.rs:191-235). -/
def hNewSeed (c : Nat) (tag : String) (deep : Option DeepPass) (exportable : Bool) : Prog Resp := do
  checkUnlocked
  match deep with
  | some d => do
    let pass ← Prog.ofOpt "decrypt error" (decPass E c d.pass)
    let seed ← Prog.act (.random 32)
    let info ← insertDeep E seed tag d.ops d.mem pass exportable
    return .newSeed tag info
  | none => do
    let seed ← Prog.act (.random 32)
    let info ← insertSeed E seed tag exportable
    return .newSeed tag info

/-- `deep_unlock_key_from_passphrase` (priv_api.rs:479-497). -/
def deepKey (c : Nat) (pass : SecretSized 81) (ops mem : UInt32) (salt : B 16) : Res (B 32) :=
  match decPass E c pass with
  | none => .error "decrypt error"
  | some p => Res.ofOption "argon2id error" (E.C.argon2id p.val salt ops mem)

/-- The source seed of a derivation (priv_api.rs:248-276). Deep-locked seeds: the key is computed with the limits in
    the REQUEST (priv_api.rs:263-268), not those of the entry. -/
def deriveSource (c : Nat) (e : Entry) (deep : Option DeepPass) : Res (B 32 × SeedInfo) :=
  match e, deep with
  | .seed _ info enc, none =>
    match enc.decrypt (m := 32) E.C E.bidi with
    | some s => .ok (s, info)
    | none => .error "decrypt error"
  | .deep _ info salt _ _ enc, some d =>
    match deepKey E c d.pass d.ops d.mem salt with
    | .error x => .error x
    | .ok key =>
      match enc.decrypt (m := 32) E.C key with
      | some s => .ok (s, info)
      | none => .error "decrypt error"
  | .cert _ _ _, _ => .error "The tag provided is for a Cert, which cannot be derived. You must specify the tag for a Seed."
  | .seed _ _ _, some _ => .error "A passphrase was provided for a seed which is not deep-locked. Make the request without a `src_passphrase`."
  | .deep _ _ _ _ _ _, none => .error "A `src_passphrase` is needed to unlock the source seed which is deep-locked."

/-- The derivation loop (priv_api.rs:278-291). -/
def derivePath (C : Crypto) (seed : B 32) (path : List UInt32) : B 32 :=
  path.foldl (fun parent i => C.kdf parent i.toNat "SeedBndl") seed

/-- `priv_req_derive_seed` (priv_api.rs:236-335). -/
def hDerive (c : Nat) (src : String) (srcDeep : Option DeepPass) (dst : String) (dstDeep : Option DeepPass)
    (path : List UInt32) : Prog Resp := do
  checkUnlocked
  .step (.storeTag src) fun (r : Res Entry) => do
    let e ← Prog.ofRes r
    alloc
    let (seed, info) ← Prog.ofRes (deriveSource E c e srcDeep)
    let out ← insertMaybeDeep E c (derivePath E.C seed path) dst dstDeep info.exportable
    return .deriveSeed out

/-- `priv_req_export_seed_by_tag` (priv_api.rs:337-393). -/
def hExport (tag : String) (sender recipient : B 32) : Prog Resp := do
  checkUnlocked
  let sf ← fullByTag E tag
  let ef ← fullByX E sender
  let nonce ← Prog.act (.random 24)
  match ef.xSk with
  | none => .fail "deep_seed crypto_box not yet implemented"
  | some xSk =>
    match sf.seed with
    | none => .fail "deep_seed crypto_box not yet implemented"
    | some seed =>
      if sf.exportable = false then .fail "seed is not exportable"
      else do
        alloc
        let cipher ← Prog.ofOpt "crypto_box error" (E.C.box nonce seed.val recipient xSk)
        return .exportSeed nonce cipher

/-- `priv_req_import_seed` (priv_api.rs:395-477). -/
def hImport (c : Nat) (sender recipient : B 32) (deep : Option DeepPass) (nonce : B 24) (cipher : Bytes) (tag : String)
    (exportable : Bool) : Prog Resp := do
  checkUnlocked
  checkUnlocked
  let f ← fullByX E recipient
  if cipher.length ≠ 48 then .fail "Bad Seed Length"
  else do
    alloc
    let xSk ← Prog.ofOpt "deep_seed crypto_box not yet implemented" f.xSk
    let msg ← Prog.ofOpt "crypto_box error" (E.C.boxOpen nonce cipher sender xSk)
    let seed ← Prog.ofOpt "crypto_box error" (B.ofBytes? 32 msg)
    let info ← insertMaybeDeep E c seed tag deep exportable
    return .importSeed tag info

/-- The signing key used by `priv_req_sign_by_pub_key` (priv_api.rs:522-543). Here the limits are the entry's. -/
def signKey (c : Nat) (f : Full) (deep : Option (SecretSized 81)) : Res (B 64) :=
  match f.entry, f.edSk, deep with
  | .seed _ _ _, some sk, _ => .ok sk
  | .deep _ _ salt ops mem enc, _, some pass =>
    match deepKey E c pass ops mem salt with
    | .error x => .error x
    | .ok key =>
      match enc.decrypt (m := 32) E.C key with
      | some s => .ok (E.C.edSk s)
      | none => .error "decrypt error"
  | _, _, _ => .error "The entry for this key is not a seed which can produce a signature"

/-- `priv_req_sign_by_pub_key` (priv_api.rs:499-571). -/
def hSign (c : Nat) (pk : B 32) (deep : Option (SecretSized 81)) (data : Bytes) : Prog Resp := do
  checkUnlocked
  let r ← (fullByEd E pk).attempt
  match r with
  | .ok f => do
    alloc
    let sk ← Prog.ofRes (signKey E c f deep)
    return .sign (E.C.sign sk data)
  | .error e =>
    if E.hasFallback then
      .step (.fallback pk data) fun (s : Res (B 64)) => do
        let sig ← Prog.ofRes s
        return .sign sig
    else .fail e

/-- `priv_req_crypto_box_xsalsa_by_pub_key` (priv_api.rs:573-617). -/
def hBoxEnc (sender recipient : B 32) (data : Bytes) : Prog Resp := do
  checkUnlocked
  let f ← fullByX E sender
  let nonce ← Prog.act (.random 24)
  match f.xSk with
  | none => .fail "deep_seed crypto_box not yet implemented"
  | some xSk => do
    alloc
    let cipher ← Prog.ofOpt "crypto_box error" (E.C.box nonce data recipient xSk)
    return .boxEnc nonce cipher

/-- `priv_req_crypto_box_xsalsa_open_by_pub_key` (priv_api.rs:619-670). -/
def hBoxDec (sender recipient : B 32) (nonce : B 24) (cipher : Bytes) : Prog Resp := do
  checkUnlocked
  let f ← fullByX E recipient
  if cipher.length < 16 then .fail "InvalidCipherLength"
  else
    match f.xSk with
    | none => .fail "deep_seed crypto_box not yet implemented"
    | some xSk => do
      alloc
      let msg ← Prog.ofOpt "crypto_box error" (E.C.boxOpen nonce cipher sender xSk)
      return .boxDec msg

/-- `priv_req_crypto_box_xsalsa_by_sign_pub_key` (priv_api.rs:672-719). -/
def hBoxEncEd (sender recipient : B 32) (data : Bytes) : Prog Resp := do
  checkUnlocked
  let f ← fullByEd E sender
  let nonce ← Prog.act (.random 24)
  match f.edSk with
  | none => .fail "deep_seed crypto_box not yet implemented"
  | some edSk => do
    let xPk ← Prog.ofOpt "ed25519_pk_to_curve25519 error" (E.C.edPkToX recipient)
    alloc
    let cipher ← Prog.ofOpt "crypto_box error" (E.C.box nonce data xPk (E.C.edSkToX edSk))
    return .boxEncEd nonce cipher

/-- `priv_req_crypto_box_xsalsa_open_by_sign_pub_key` (priv_api.rs:721-773). -/
def hBoxDecEd (sender recipient : B 32) (nonce : B 24) (cipher : Bytes) : Prog Resp := do
  checkUnlocked
  let f ← fullByEd E recipient
  if cipher.length < 16 then .fail "InvalidCipherLength"
  else
    match f.edSk with
    | none => .fail "deep_seed crypto_box not yet implemented"
    | some edSk => do
      let xPk ← Prog.ofOpt "ed25519_pk_to_curve25519 error" (E.C.edPkToX sender)
      alloc
      let msg ← Prog.ofOpt "crypto_box error" (E.C.boxOpen nonce cipher xPk (E.C.edSkToX edSk))
      return .boxDecEd msg

/-- `priv_req_new_wka_tls_cert` (priv_api.rs:775-799). -/
def hNewCert (tag : String) : Prog Resp := do
  checkUnlocked
  let info ← newCert E tag
  return .newCert tag info

/-- `priv_req_get_wka_tls_cert_priv_key` (priv_api.rs:976-1016). -/
def hGetCertKey (c : Nat) (tag : String) : Prog Resp := do
  checkUnlocked
  let f ← fullByTag E tag
  match f.entry with
  | .cert _ _ priv => do
    alloc
    let key ← Prog.ofOpt "decrypt error" (priv.decrypt E.C E.bidi)
    let hdr ← Prog.act (.random 24)
    return .getCertKey (SecretData.encrypt E.C (E.encKey c) hdr key)
  | _ => .fail "invalid entry type"

/-- `priv_req_secret_box_xsalsa_by_tag` (priv_api.rs:1018-1055). -/
def hSboxEnc (tag : String) (data : Bytes) : Prog Resp := do
  checkUnlocked
  let f ← fullByTag E tag
  let nonce ← Prog.act (.random 24)
  match f.seed with
  | none => .fail "deep_seed secretbox not yet implemented"
  | some seed => do
    alloc
    return .sboxEnc nonce (E.C.secretBox nonce data seed)

/-- `priv_req_secret_box_xsalsa_open_by_tag` (priv_api.rs:1057-1098). -/
def hSboxDec (tag : String) (nonce : B 24) (cipher : Bytes) : Prog Resp := do
  checkUnlocked
  let f ← fullByTag E tag
  if cipher.length < 16 then .fail "InvalidCipherLength"
  else
    match f.seed with
    | none => .fail "deep_seed secretbox not yet implemented"
    | some seed => do
      alloc
      let msg ← Prog.ofOpt "secretbox error" (E.C.secretBoxOpen nonce cipher seed)
      return .sboxDec msg

/-- The request part of `priv_dispatch_incoming` (priv_srv.rs:246-326). -/
def handleReq (c : Nat) : Req → Prog Resp
  | .hello => hHello E
  | .unlock p => hUnlock E c p
  | .getEntry t => hGetEntry E t
  | .listEntries => hList
  | .newSeed t d x => hNewSeed E c t d x
  | .exportSeed t s r _ => hExport E t s r
  | .importSeed s r d n ci t x => hImport E c s r d n ci t x
  | .deriveSeed s sd d dd p => hDerive E c s sd d dd p
  | .sign k d m => hSign E c k d m
  | .boxEnc s r _ m => hBoxEnc E s r m
  | .boxDec s r _ n ci => hBoxDec E s r n ci
  | .boxEncEd s r _ m => hBoxEncEd E s r m
  | .boxDecEd s r _ n ci => hBoxDecEd E s r n ci
  | .newCert t => hNewCert E t
  | .getCertKey t => hGetCertKey E c t
  | .sboxEnc t _ m => hSboxEnc E t m
  | .sboxDec t _ n ci => hSboxDec E t n ci

/-- `priv_dispatch_incoming` (priv_srv.rs:238-353): the 18 response kinds are refused. -/
def handle (c : Nat) : Msg → Prog Resp
  | .req _ r => handleReq E c r
  | .res i r => .fail ("invalid request: " ++ E.debugFmt (.res i r))

end Handlers

/-! ### Executing one action -/

section Exec
variable {E : Env}

/-- Effect of one action of a handler of connection `c`.
    Code: the lock regions and store calls of priv_api.rs, priv_srv.rs and lair_store.rs, each cited at its use below. -/
def exec (c : Nat) (ch : Choice) (s : Shared E) : (a : Act) → a.Out × Shared E × List Ev
  | .loadUnlocked => (s.unlocked c, s, [])
  | .setUnlocked => ((), { s with unlocked := fun d => if d = c then true else s.unlocked d }, [.unlocked])
  | .cacheTag t => ((s.cTag.get t).1, { s with cTag := (s.cTag.get t).2 }, [])
  | .cacheEd k => ((s.cEd.get k).1, { s with cEd := (s.cEd.get k).2 }, [])
  | .cacheX k => ((s.cX.get k).1, { s with cX := (s.cX.get k).2 }, [])
  | .storeTag t => match ch.fault with
    | some e => (.error e, s, [.fault])
    | none => (E.S.I.byTag s.store t, s, [])
  | .storeEd k => match ch.fault with
    | some e => (.error e, s, [.fault])
    | none => (E.S.I.byEd s.store k, s, [])
  | .storeX k => match ch.fault with
    | some e => (.error e, s, [.fault])
    | none => (E.S.I.byX s.store k, s, [])
  | .register f =>
    ((), { s with
      cTag := s.cTag.put E.cap f.entry.tag f
      cEd := match f.entry with
        | .seed _ i _ => s.cEd.put E.cap i.ed f
        | _ => s.cEd
      cX := match f.entry with
        | .seed _ i _ => s.cX.put E.cap i.x f
        | _ => s.cX }, [])
  | .write e => match ch.fault with
    | some er => (.error er, s, [.fault])
    | none =>
      ((E.S.I.write s.store e).1, { s with store := (E.S.I.write s.store e).2 },
        match (E.S.I.write s.store e).1 with
        | .ok _ => [.wrote e]
        | .error _ => [])
  | .list => match ch.fault with
    | some e => (.error e, s, [.fault])
    | none => (E.S.I.list s.store, s, [])
  | .random n => (ch.rnd n, s, [])
  | .genCert => (E.certGen ch.cert, s, [])
  | .alloc => match ch.fault with
    | some e => (.error e, s, [.fault])
    | none => (.ok (), s, [])
  | .fallback pk data => (ch.fb, s, [.fell pk data ch.fb])

end Exec
end Lair
