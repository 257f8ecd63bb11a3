import Verif.Crypto
import Verif.Entry

/-
SPECIFICATION of the keystore as the user of the client library sees it: a list of items in the clear, and what each method of
`LairClient` returns and adds. There are no ciphers at rest, caches, connections, messages or schedules here. Only the
primitives' own functions (key pairs, signatures, boxes) appear, because their outputs are what the methods return.
An answer of `none` means: the method returns an error.
-/
namespace Lair

/-- An item of the keystore. A deep-locked seed is kept with the hash of its passphrase and the limits it was locked with.
    Specification: nothing in the code corresponds. -/
inductive Item where
  | seed (tag : String) (seed : B 32) (exportable : Bool)
  | locked (tag : String) (seed : B 32) (exportable : Bool) (pw : B 64) (ops mem : UInt32)
  | cert (tag : String) (sni : String) (cert priv : Bytes)
deriving DecidableEq

/-- What a method returns. Specification: nothing in the code corresponds. -/
inductive Ans where
  | entries (l : List EntryInfo)
  | entry (i : EntryInfo)
  | seedInfo (i : SeedInfo)
  | certInfo (i : CertInfo)
  | sig (s : B 64)
  | bytes (b : Bytes)
  | nonceCipher (n : B 24) (c : Bytes)
deriving DecidableEq

/-- A passphrase as it came with a request: its hash, or `none` if it cannot be read.
    Specification: nothing in the code corresponds. -/
abbrev Pw := Option (B 64)

/-- A passphrase to lock or unlock a seed with, and the limits to use.
    Specification: nothing in the code corresponds. -/
structure Lock where
  pw : Pw
  ops : UInt32
  mem : UInt32
deriving DecidableEq

/-- What can be asked of the keystore (the methods of `LairClient`, lair_client.rs:149-560, `hello` and `unlock` aside). -/
inductive Call where
  | listEntries
  | getEntry (tag : String)
  | newSeed (tag : String) (lock : Option Lock) (exportable : Bool)
  | exportSeed (tag : String) (sender recipient : B 32)
  | importSeed (sender recipient : B 32) (lock : Option Lock) (nonce : B 24) (cipher : Bytes) (tag : String) (exportable : Bool)
  | deriveSeed (src : String) (srcLock : Option Lock) (dst : String) (dstLock : Option Lock) (path : List UInt32)
  | sign (pk : B 32) (pw : Option Pw) (data : Bytes)
  | boxEnc (sender recipient : B 32) (data : Bytes)
  | boxDec (sender recipient : B 32) (nonce : B 24) (cipher : Bytes)
  | boxEncEd (sender recipient : B 32) (data : Bytes)
  | boxDecEd (sender recipient : B 32) (nonce : B 24) (cipher : Bytes)
  | newCert (tag : String)
  | getCertKey (tag : String)
  | sboxEnc (tag : String) (data : Bytes)
  | sboxDec (tag : String) (nonce : B 24) (cipher : Bytes)
deriving DecidableEq

/-- The randomness and the outside world a call meets: a fresh seed, a fresh nonce, a generated certificate (name,
    certificate, private key), and the answer of the fallback signer (`none`: none is configured, or it failed).
    Specification: nothing in the code corresponds. -/
structure Luck where
  seed : B 32
  nonce : B 24
  sni : String
  cert : Bytes
  priv : Bytes
  fallback : Option (B 64)

namespace Item

/-- The tag an item was made under. Specification: nothing in the code corresponds. -/
def tag : Item → String
  | .seed t _ _ => t
  | .locked t _ _ _ _ _ => t
  | .cert t _ _ _ => t

variable (C : Crypto)

/-- The public signing key. Specification: nothing in the code corresponds. -/
def edKey : Item → Option (B 32)
  | .seed _ s _ => some (C.edPk s)
  | .locked _ s _ _ _ _ => some (C.edPk s)
  | .cert .. => none

/-- The public encryption key. Specification: nothing in the code corresponds. -/
def xKey : Item → Option (B 32)
  | .seed _ s _ => some (C.xPk s)
  | .locked _ s _ _ _ _ => some (C.xPk s)
  | .cert .. => none

/-- The public information of an item. Specification: nothing in the code corresponds. -/
def info : Item → EntryInfo
  | .seed t s x => .seed t ⟨C.edPk s, C.xPk s, x⟩
  | .locked t s x _ _ _ => .deep t ⟨C.edPk s, C.xPk s, x⟩
  | .cert t sni crt _ => .cert t ⟨sni, C.blake2b32 crt, crt⟩

/-- Two items cannot be in the keystore together: same tag, or a key in common.
    Specification: nothing in the code corresponds. -/
def conflicts (a b : Item) : Bool :=
  a.tag = b.tag || (a.edKey C).isSome && a.edKey C = b.edKey C || (a.xKey C).isSome && a.xKey C = b.xKey C

end Item

/-- A keystore: the items made so far, oldest first. Specification: nothing in the code corresponds. -/
abbrev Keystore := List Item

namespace Keystore
variable (C : Crypto) (okLim : UInt32 → UInt32 → Bool) (room : Item → Bool) (r : Luck) (ks : Keystore)

/-- The item with a tag, signing key, encryption key. Specification: nothing in the code corresponds. -/
def byTag (t : String) : Option Item := ks.find? (fun i => i.tag = t)
/-- The item with this signing key. Specification: nothing in the code corresponds. -/
def byEd (k : B 32) : Option Item := ks.find? (fun i => i.edKey C = some k)
/-- The item with this encryption key. Specification: nothing in the code corresponds. -/
def byX (k : B 32) : Option Item := ks.find? (fun i => i.xKey C = some k)

/-- The seed of an item that is not deep-locked. Specification: nothing in the code corresponds. -/
def plain : Option Item → Option (B 32)
  | some (.seed _ s _) => some s
  | _ => none

/-- Add an item, unless it conflicts with one that is there or the store has no room for it.
    Specification: nothing in the code corresponds. -/
def add (i : Item) (a : Ans) : Option Ans × Keystore :=
  if ks.any (fun j => j.conflicts C i) || !room i then (none, ks) else (some a, ks ++ [i])

/-- Add a seed, deep-locked if asked for. `okLim` says with which limits passphrases can be hashed at all.
    Specification: nothing in the code corresponds. -/
def create (tag : String) (seed : B 32) (lock : Option Lock) (exportable : Bool) : Option Ans × Keystore :=
  match lock with
  | none => add C room ks (.seed tag seed exportable) (.seedInfo ⟨C.edPk seed, C.xPk seed, exportable⟩)
  | some ⟨some pw, ops, mem⟩ =>
    if okLim ops mem then
      add C room ks (.locked tag seed exportable pw ops mem) (.seedInfo ⟨C.edPk seed, C.xPk seed, exportable⟩)
    else (none, ks)
  | some ⟨none, _, _⟩ => (none, ks)

/-- The seed to derive from: a passphrase must be given exactly if the source is deep-locked; it must be the right one, and
    the limits given with it must be those the source was locked with.
    Specification: nothing in the code corresponds. -/
def source (lock : Option Lock) : Option Item → Option (B 32 × Bool)
  | some (.seed _ s x) => if lock = none then some (s, x) else none
  | some (.locked _ s x pw o m) => if lock = some ⟨some pw, o, m⟩ then some (s, x) else none
  | _ => none

/-- The descendant of a seed along a path. Specification: nothing in the code corresponds. -/
def descendant (seed : B 32) : List UInt32 → B 32
  | [] => seed
  | i :: path => descendant (C.kdf seed i.toNat "SeedBndl") path

/-- An answer that changes nothing. Specification: nothing in the code corresponds. -/
def answer (a : Option Ans) : Option Ans × Keystore := (a, ks)

/-- What a method returns, and the keystore afterwards. Specification: nothing in the code corresponds. -/
def call : Call → Option Ans × Keystore
  | .listEntries => answer ks (some (.entries (ks.map (Item.info C))))
  | .getEntry t => answer ks ((byTag ks t).map (fun i => .entry (i.info C)))
  | .newSeed t lock x => create C okLim room ks t r.seed lock x
  | .exportSeed t sender recipient => answer ks <| do
      let s ← match byTag ks t with
        | some (.seed _ s true) => some s
        | _ => none
      let me ← plain (byX C ks sender)
      let c ← C.box r.nonce s.val recipient (C.xSk me)
      return .nonceCipher r.nonce c
  | .importSeed sender recipient lock nonce cipher t x =>
      match (do
        let me ← plain (byX C ks recipient)
        let m ← C.boxOpen nonce cipher sender (C.xSk me)
        B.ofBytes? 32 m) with
      | none => (none, ks)
      | some seed => create C okLim room ks t seed lock x
  | .deriveSeed src srcLock dst dstLock path =>
      match source srcLock (byTag ks src) with
      | none => (none, ks)
      | some (seed, x) => create C okLim room ks dst (descendant C seed path) dstLock x
  | .sign pk pw data => answer ks <| match byEd C ks pk with
      | some (.seed _ s _) => some (.sig (C.sign (C.edSk s) data))
      | some (.locked _ s _ own _ _) => if pw = some (some own) then some (.sig (C.sign (C.edSk s) data)) else none
      | some (.cert ..) => none
      | none => r.fallback.map .sig
  | .boxEnc sender recipient data => answer ks <| do
      let me ← plain (byX C ks sender)
      let c ← C.box r.nonce data recipient (C.xSk me)
      return .nonceCipher r.nonce c
  | .boxDec sender recipient nonce cipher => answer ks <| do
      let me ← plain (byX C ks recipient)
      let m ← C.boxOpen nonce cipher sender (C.xSk me)
      return .bytes m
  | .boxEncEd sender recipient data => answer ks <| do
      let me ← plain (byEd C ks sender)
      let pk ← C.edPkToX recipient
      let c ← C.box r.nonce data pk (C.edSkToX (C.edSk me))
      return .nonceCipher r.nonce c
  | .boxDecEd sender recipient nonce cipher => answer ks <| do
      let me ← plain (byEd C ks recipient)
      let pk ← C.edPkToX sender
      let m ← C.boxOpen nonce cipher pk (C.edSkToX (C.edSk me))
      return .bytes m
  | .newCert t => add C room ks (.cert t r.sni r.cert r.priv) (.certInfo ⟨r.sni, C.blake2b32 r.cert, r.cert⟩)
  | .getCertKey t => answer ks <| match byTag ks t with
      | some (.cert _ _ _ priv) => some (.bytes priv)
      | _ => none
  | .sboxEnc t data => answer ks <| do
      let s ← plain (byTag ks t)
      return .nonceCipher r.nonce (C.secretBox r.nonce data s)
  | .sboxDec t nonce cipher => answer ks <| do
      let s ← plain (byTag ks t)
      let m ← C.secretBoxOpen nonce cipher s
      return .bytes m

end Keystore

/-- The answer agrees with the specification: an error exactly if the specification says so; a listing may come in any order.
    Specification: nothing in the code corresponds. -/
def Agrees : Option Ans → Res Ans → Prop
  | none, .error _ => True
  | some (.entries l), .ok (.entries l') => l'.Perm l
  | some a, .ok b => a = b
  | _, _ => False

/-! ### Sequential histories -/

/-- One call in a sequential history: the number of the request, what it asks, the luck it meets, and the answer it got
    (`none`: it got none, for instance because the server was stopped first).
    Specification: nothing in the code corresponds. -/
structure Op where
  id : Nat
  call : Call
  luck : Luck
  ans : Option (Res Ans)

namespace Keystore
variable (C : Crypto) (okLim : UInt32 → UInt32 → Bool) (room : Item → Bool)

/-- The keystore after the calls, one after the other. Specification: nothing in the code corresponds. -/
def after : Keystore → List Op → Keystore
  | ks, [] => ks
  | ks, op :: ops => after (call C okLim room op.luck ks op.call).2 ops

/-- Every answer is the one the specification gives when the calls are made one after the other.
    Specification: nothing in the code corresponds. -/
def Correct : Keystore → List Op → Prop
  | _, [] => True
  | ks, op :: ops => (∀ o, op.ans = some o → Agrees (call C okLim room op.luck ks op.call).1 o) ∧
      Correct (call C okLim room op.luck ks op.call).2 ops

end Keystore
end Lair
