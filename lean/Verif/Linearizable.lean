import Verif.ClientApi
import Verif.SystemLemmas

/-
SPECIFICATION: what it means that a run of the server, with any number of requests at once and any number of restarts, is
explained by a sequential history of calls to the keystore of `Verif.KeystoreSpec`.
-/
namespace Lair

/-- The luck of a request with effects `l`: the certificate comes from the generator, and an answer of the fallback signer is
    one that was really given to this request. (Fresh seeds and nonces can be anything.)
    Specification: nothing in the code corresponds. -/
def LuckOf (E : Env) (l : List Ev) (call : Call) (r : Luck) : Prop :=
  (∃ n, E.certGen n = ⟨r.sni, r.priv, r.cert⟩) ∧
  ∀ sig, r.fallback = some sig → ∃ pk pw data, call = .sign pk pw data ∧ Ev.fell pk data (.ok sig) ∈ l

variable (E : Env) (st : E.S.σ) (evs : List Event)

/-- Request `x` was finished before request `y` was received. Specification: nothing in the code corresponds. -/
def Before (x y : Nat) : Prop :=
  ∃ evs₁ evs₂, evs = evs₁ ++ evs₂ ∧ (∃ d ∈ (Sys.run E st evs₁).done, d.id = x) ∧ (received evs₁).length ≤ y

variable {E}

/-- A finished request that must be explained: one that makes a call (not `Hello` or `Unlock`), met no failure of the storage or
    of secure memory, and was not turned away because its connection was not unlocked.
    Specification: nothing in the code corresponds. -/
def Counted (d : Done E) : Prop :=
  (∃ i r call, d.msg = .req i r ∧ r.call? E d.conn = some call) ∧ Ev.fault ∉ d.log ∧
    (d.start.unlocked d.conn = true ∨ d.outcome ≠ .error "KeystoreLocked")

variable (E)

/-- An operation of the sequential history is a request of the run: its call, luck and answer are those of the request.
    Specification: nothing in the code corresponds. -/
def IsRequest (op : Op) : Prop :=
  ∃ c i r, (received evs)[op.id]? = some (c, .req i r) ∧ r.call? E c = some op.call ∧
    LuckOf E (histOf (Sys.run E st evs).hist op.id) op.call op.luck ∧
    (∀ d ∈ (Sys.run E st evs).done, d.id = op.id → op.ans = some (answerOf E.C (E.encKey c) d.outcome)) ∧
    ((∀ d ∈ (Sys.run E st evs).done, d.id ≠ op.id) → op.ans = none)

/-- The history `ops` explains the run: starting from the keystore `ks₀`, every answer is right and the store ends up standing
    for the final keystore; no request occurs twice, the order of requests that did not overlap is kept, every request that
    must be explained is there, and nothing else. Specification: nothing in the code corresponds. -/
structure Explains (okLim : UInt32 → UInt32 → Bool) (room : Item → Bool) (ks₀ : Keystore) (ops : List Op) : Prop where
  correct : Keystore.Correct E.C okLim room ks₀ ops
  final : Stands E (Keystore.after E.C okLim room ks₀ ops) (Sys.run E st evs).sh.tbl
  once : (ops.map Op.id).Nodup
  order : ops.Pairwise (fun a b => ¬ Before E st evs b.id a.id)
  all : ∀ d ∈ (Sys.run E st evs).done, Counted d → ∃ op ∈ ops, op.id = d.id
  real : ∀ op ∈ ops, IsRequest E st evs op

end Lair
