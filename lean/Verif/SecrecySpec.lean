import Verif.SystemLemmas

/-
SPECIFICATION for C49 (secrecy of seeds): which seeds the published operations tell apart, what an adversary may do, and which
generated seeds are protected. Nothing here refers to how the handlers work.

Idea: run the same adversary against two keystores that generate different secret seeds. If everything the server ever sends
is the same in both, no strategy computes the seed.
-/
namespace Lair

/-- The two lists correspond element by element. Specification: nothing in the code corresponds. -/
inductive All2 {α β : Type} (R : α → β → Prop) : List α → List β → Prop
  | nil : All2 R [] []
  | cons {a : α} {b : β} {as : List α} {bs : List β} : R a b → All2 R as bs → All2 R (a :: as) (b :: bs)

/-- Every operation the API performs WITH a seed gives the same results for both seeds: public keys, signatures, crypto box with
    either key pair, secret box. Specification: nothing in the code corresponds. -/
structure SameOps (C : Crypto) (s s' : B 32) : Prop where
  ed : C.edPk s = C.edPk s'
  x : C.xPk s = C.xPk s'
  sign : ∀ m, C.sign (C.edSk s) m = C.sign (C.edSk s') m
  box : ∀ n m pk, C.box n m pk (C.xSk s) = C.box n m pk (C.xSk s')
  boxOpen : ∀ n c pk, C.boxOpen n c pk (C.xSk s) = C.boxOpen n c pk (C.xSk s')
  boxEd : ∀ n m pk, C.box n m pk (C.edSkToX (C.edSk s)) = C.box n m pk (C.edSkToX (C.edSk s'))
  boxOpenEd : ∀ n c pk, C.boxOpen n c pk (C.edSkToX (C.edSk s)) = C.boxOpen n c pk (C.edSkToX (C.edSk s'))
  sbox : ∀ n m, C.secretBox n m s = C.secretBox n m s'
  sboxOpen : ∀ n c, C.secretBoxOpen n c s = C.secretBoxOpen n c s'

/-- The same for the two seeds and for everything derived from them: no use of the seeds tells them apart (perfect cryptography: the
    operations on a secret seed do not reveal which seed it is). Specification: nothing in the code corresponds. -/
def Alike (C : Crypto) (s s' : B 32) : Prop :=
  ∀ path : List UInt32, SameOps C (path.foldl (fun k i => C.kdf k i.toNat "SeedBndl") s) (path.foldl (fun k i => C.kdf k i.toNat "SeedBndl") s')

/-- Idealised authenticated encryption: opening a cipher with some key gives its plaintext or nothing, whichever it is not depending
    on the plaintext. Specification: nothing in the code corresponds. -/
def Crypto.SealsHide (C : Crypto) : Prop :=
  ∀ k k' h (m m' : Bytes), m.length = m'.length →
    (C.ssDec k' h (C.ssEnc k h m) = none ∧ C.ssDec k' h (C.ssEnc k h m') = none) ∨
    (C.ssDec k' h (C.ssEnc k h m) = some m ∧ C.ssDec k' h (C.ssEnc k h m') = some m')

/-- The keys made from passphrase `pass` are unrelated to those made from the passphrases in `Known`, whatever the limits: the
    latter open nothing sealed with the former. Specification: nothing in the code corresponds. -/
def HiddenPass (C : Crypto) (Known : B 64 → Prop) (pass : B 64) : Prop :=
  ∀ p, Known p → ∀ salt ops mem key ops' mem' key', C.argon2id pass.val salt ops mem = some key →
    C.argon2id p.val salt ops' mem' = some key' → ∀ hdr m, C.ssDec key' hdr (C.ssEnc key hdr m) = none

/-- The passphrase a request brings to OPEN a deep-locked seed (as opposed to one that locks a new seed).
    Specification: nothing in the code corresponds. -/
def OpensWith : Req → Option (SecretSized 81)
  | .sign _ d _ => d
  | .deriveSeed _ sd _ _ _ => sd.map (·.pass)
  | _ => none

/-- The message opens deep-locked seeds with passphrases in `Known` only.
    Specification: nothing in the code corresponds. -/
def UsesOnly (E : Env) (Known : B 64 → Prop) (c : Nat) (m : Msg) : Prop :=
  ∀ id r p pass, m = .req id r → OpensWith r = some p → p.decrypt (m := 64) E.C (E.decKey c) = some pass → Known pass

/-- The seed generated by a `NewSeed` request (deep-locked or not, exportable or not) may be `s` in one world and `s'` in the other:
    either they are the same, or the seed is not exportable and the worlds' seeds are alike, or the seed (exportable or not) is
    deep-locked with a passphrase nobody opens seeds with and only its two public keys agree.
    Specification: nothing in the code corresponds. -/
def Protected (E : Env) (Known : B 64 → Prop) (c : Nat) (deep : Option DeepPass) (exportable : Bool) (s s' : B 32) : Prop :=
  s = s' ∨ (exportable = false ∧ Alike E.C s s') ∨
  ∃ d, deep = some d ∧ E.C.edPk s = E.C.edPk s' ∧ E.C.xPk s = E.C.xPk s' ∧
    ∀ pass, d.pass.decrypt (m := 64) E.C (E.decKey c) = some pass → HiddenPass E.C Known pass

/-! ### Stores that do not look into sealed data -/

/-- Entries that differ at most in sealed seeds. Specification: nothing in the code corresponds. -/
def Entry.PubEq : Entry → Entry → Prop
  | .seed t i _, .seed t' i' _ => t = t' ∧ i = i'
  | .deep t i s o m _, .deep t' i' s' o' m' _ => t = t' ∧ i = i' ∧ s = s' ∧ o = o' ∧ m = m'
  | .cert t i p, .cert t' i' p' => t = t' ∧ i = i' ∧ p = p'
  | _, _ => False

/-- A store whose answers (in particular error texts and the order of listings) do not depend on sealed seeds. Both stores of
    lair are such (`mem_oblivious`, `sql_oblivious`). Specification: nothing in the code corresponds. -/
structure StoreModel.Oblivious (S : StoreModel) : Prop where
  write : ∀ s s', S.ok s → S.ok s' → All2 Entry.PubEq (S.tbl s) (S.tbl s') → ∀ e e', e.PubEq e' → (S.I.write s e).1 = (S.I.write s' e').1
  byTag : ∀ s s', S.ok s → S.ok s' → All2 Entry.PubEq (S.tbl s) (S.tbl s') → ∀ t x, S.I.byTag s t = .error x → S.I.byTag s' t = .error x
  byEd : ∀ s s', S.ok s → S.ok s' → All2 Entry.PubEq (S.tbl s) (S.tbl s') → ∀ t x, S.I.byEd s t = .error x → S.I.byEd s' t = .error x
  byX : ∀ s s', S.ok s → S.ok s' → All2 Entry.PubEq (S.tbl s) (S.tbl s') → ∀ t x, S.I.byX s t = .error x → S.I.byX s' t = .error x
  list : ∀ s s', S.ok s → S.ok s' → All2 Entry.PubEq (S.tbl s) (S.tbl s') → S.I.list s = S.I.list s'

/-! ### The adversary -/

/-- Everything the server has sent so far: request number, connection, message.
    Specification: nothing in the code corresponds. -/
abbrev Transcript := List (Nat × Nat × Msg)

/-- An adversary. From everything it has seen (the transcript after each step so far) it chooses what happens next: which message
    arrives on which connection, which request in flight makes a step, how the environment answers (failures, salts, nonces, the
    external signer), crashes. It does not choose the seeds the server generates.
    Specification: nothing in the code corresponds. -/
abbrev Strategy := List Transcript → Event

variable {E : Env}

/-- Everything put on the wire so far (as `Sys.sent`). Specification: nothing in the code corresponds. -/
def Sys.transcript (s : Sys E) : Transcript :=
  s.done.flatMap (fun d => d.wire.map (fun r => (d.id, d.conn, Msg.res d.msg.id r)))

/-- The seed generator: request number `k` draws the seed `gen k` whenever it draws 32 bytes.
    Specification: nothing in the code corresponds. -/
def Choice.withSeed (ch : Choice) (seed : B 32) : Choice :=
  { ch with rnd := fun n => if h : n = 32 then h ▸ seed else ch.rnd n }

/-- The event the adversary chose, in the world with seed generator `gen`.
    Specification: nothing in the code corresponds. -/
def inWorld (gen : Nat → B 32) (s : Sys E) : Event → Event
  | .step i ch => .step i (match s.threads[i]? with
    | some t => ch.withSeed (gen t.id)
    | none => ch)
  | ev => ev

/-- `n` steps of the adversary against a server started on `st`: the system, and what the adversary has seen.
    Specification: nothing in the code corresponds. -/
def play (E : Env) (st : E.S.σ) (gen : Nat → B 32) (adv : Strategy) : Nat → Sys E × List Transcript
  | 0 => (Sys.init E st, [])
  | n + 1 =>
    let p := play E st gen adv n
    let s := p.1.step (inWorld gen p.1 (adv p.2))
    (s, p.2 ++ [s.transcript])

end Lair
