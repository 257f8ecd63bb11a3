import Verif.KeystoreSpec
import Verif.Client
import Verif.Logic

/-
How the server's messages and entries stand for the calls and items of `Verif.KeystoreSpec`, and the methods of `LairClient`
(crates/lair_keystore_api/src/lair_client.rs:149-560): the request each sends and what it makes of the response.
-/
namespace Lair

section
variable (E : Env)

/-- A lock as it arrives on connection `c`: the passphrase is encrypted with the context key of the connection.
    Specification: nothing in the code corresponds. -/
def lockOf (c : Nat) (d : DeepPass) : Lock := ⟨decPass E c d.pass, d.ops, d.mem⟩

/-- The call a request makes, if it is neither `Hello` nor `Unlock`. The passphrase of the box, secret-box and export requests
    is ignored by the server. Specification: nothing in the code corresponds. -/
def Req.call? (c : Nat) : Req → Option Call
  | .hello => none
  | .unlock _ => none
  | .listEntries => some .listEntries
  | .getEntry t => some (.getEntry t)
  | .newSeed t d x => some (.newSeed t (d.map (lockOf E c)) x)
  | .exportSeed t s r _ => some (.exportSeed t s r)
  | .importSeed s r d n ci t x => some (.importSeed s r (d.map (lockOf E c)) n ci t x)
  | .deriveSeed s sd d dd p => some (.deriveSeed s (sd.map (lockOf E c)) d (dd.map (lockOf E c)) p)
  | .sign k p m => some (.sign k (p.map (decPass E c)) m)
  | .boxEnc s r _ m => some (.boxEnc s r m)
  | .boxDec s r _ n ci => some (.boxDec s r n ci)
  | .boxEncEd s r _ m => some (.boxEncEd s r m)
  | .boxDecEd s r _ n ci => some (.boxDecEd s r n ci)
  | .newCert t => some (.newCert t)
  | .getCertKey t => some (.getCertKey t)
  | .sboxEnc t _ m => some (.sboxEnc t m)
  | .sboxDec t _ n ci => some (.sboxDec t n ci)

/-- The answer a response carries; the private key of a certificate is decrypted by the client with its context key
    (lair_client.rs:503-507). -/
def answerOf (C : Crypto) (decKey : B 32) : Res Resp → Res Ans
  | .error e => .error e
  | .ok (.listEntries l) => .ok (.entries l)
  | .ok (.getEntry i) => .ok (.entry i)
  | .ok (.newSeed _ i) => .ok (.seedInfo i)
  | .ok (.exportSeed n c) => .ok (.nonceCipher n c)
  | .ok (.importSeed _ i) => .ok (.seedInfo i)
  | .ok (.deriveSeed i) => .ok (.seedInfo i)
  | .ok (.sign s) => .ok (.sig s)
  | .ok (.boxEnc n c) => .ok (.nonceCipher n c)
  | .ok (.boxDec m) => .ok (.bytes m)
  | .ok (.boxEncEd n c) => .ok (.nonceCipher n c)
  | .ok (.boxDecEd m) => .ok (.bytes m)
  | .ok (.newCert _ i) => .ok (.certInfo i)
  | .ok (.getCertKey k) => match k.decrypt C decKey with
    | some b => .ok (.bytes b)
    | none => .error "decrypt error"
  | .ok (.sboxEnc n c) => .ok (.nonceCipher n c)
  | .ok (.sboxDec m) => .ok (.bytes m)
  | .ok _ => .error "InvalidType"

/-- A stored entry stands for an item: same tag and public information, and its cipher opens - with the store's key, or with
    the key of the item's own passphrase and limits - to the item's secret.
    Specification: nothing in the code corresponds. -/
inductive Repr : Item → Entry → Prop
  | seed (t : String) (s : B 32) (x : Bool) (enc : SecretSized 49) :
      enc.decrypt (m := 32) E.C E.bidi = some s → Repr (.seed t s x) (.seed t ⟨E.C.edPk s, E.C.xPk s, x⟩ enc)
  | locked (t : String) (s : B 32) (x : Bool) (pw : B 64) (ops mem : UInt32) (salt : B 16) (key : B 32) (enc : SecretSized 49) :
      E.C.argon2id pw.val salt ops mem = some key → enc.decrypt (m := 32) E.C key = some s →
      Repr (.locked t s x pw ops mem) (.deep t ⟨E.C.edPk s, E.C.xPk s, x⟩ salt ops mem enc)
  | cert (t sni : String) (crt key : Bytes) (priv : SecretData) :
      priv.decrypt E.C E.bidi = some key → Repr (.cert t sni crt key) (.cert t ⟨sni, E.C.blake2b32 crt, crt⟩ priv)

/-- The table of a store stands for a keystore, item by item. Specification: nothing in the code corresponds. -/
def Stands : Keystore → List Entry → Prop
  | [], [] => True
  | i :: ks, e :: T => Repr E i e ∧ Stands ks T
  | _, _ => False

/-- A passphrase (hash) with limits opens a deep-locked entry. Specification: nothing in the code corresponds. -/
def Opens (e : Entry) (pw : B 64) (ops mem : UInt32) : Prop :=
  match e with
  | .deep _ _ salt _ _ enc => ∃ key s, E.C.argon2id pw.val salt ops mem = some key ∧ enc.decrypt (m := 32) E.C key = some s
  | _ => False

/-- No deep-locked entry is opened by two different combinations of a passphrase (hash) in `H` and limits in `Λ`.
    Specification: nothing in the code corresponds. -/
def Separated (H : List (B 64)) (Λ : List (UInt32 × UInt32)) (T : List Entry) : Prop :=
  ∀ e ∈ T, ∀ p ∈ H, ∀ p' ∈ H, ∀ l ∈ Λ, ∀ l' ∈ Λ, Opens E e p l.1 l.2 → Opens E e p' l'.1 l'.2 → p = p' ∧ l = l'

end

/-- The passphrases and limits of the items are among `H` and `Λ`. Specification: nothing in the code corresponds. -/
def Known (H : List (B 64)) (Λ : List (UInt32 × UInt32)) (ks : Keystore) : Prop :=
  ∀ t s x pw ops mem, Item.locked t s x pw ops mem ∈ ks → pw ∈ H ∧ (ops, mem) ∈ Λ

/-- The passphrase and limits of a lock are among `H` and `Λ`. Specification: nothing in the code corresponds. -/
def Lock.within (H : List (B 64)) (Λ : List (UInt32 × UInt32)) (l : Lock) : Prop :=
  (∀ p, l.pw = some p → p ∈ H) ∧ (l.ops, l.mem) ∈ Λ

/-- The passphrases and limits of a call are among `H` and `Λ`. Specification: nothing in the code corresponds. -/
def Call.within (H : List (B 64)) (Λ : List (UInt32 × UInt32)) : Call → Prop
  | .newSeed _ l _ => ∀ k, l = some k → k.within H Λ
  | .importSeed _ _ l _ _ _ _ => ∀ k, l = some k → k.within H Λ
  | .deriveSeed _ l _ l' _ => (∀ k, l = some k → k.within H Λ) ∧ ∀ k, l' = some k → k.within H Λ
  | .sign _ p _ => ∀ h, p = some (some h) → h ∈ H
  | _ => True

end Lair
