import Verif.Props.Multi
import Verif.Linearizable

/-
SPECIFICATION: what it means that a run of several server processes on one store file - each with any number of clients and with its
store handle in use - is explained by one sequential history of calls to the keystore of `Verif.KeystoreSpec`.

An operation is a request of a client or a call of a store handle. Its number is the position, in the list of events, of the event
with which it began.
-/
namespace Lair

/-- What a method of the store handle asks of the keystore. Inserting a given seed is making a seed when the random generator happens
    to give this one. A lookup by key gives an encrypted entry; there is no such call.
    Specification: nothing in the code corresponds. -/
def LocalCall.asCall : LocalCall → Option Call
  | .insertSeed _ t x => some (.newSeed t none x)
  | .newSeed t x => some (.newSeed t none x)
  | .insertDeep _ t ops mem pass x => some (.newSeed t (some ⟨some pass, ops, mem⟩) x)
  | .newDeep t ops mem pass x => some (.newSeed t (some ⟨some pass, ops, mem⟩) x)
  | .newCert t => some (.newCert t)
  | .list => some .listEntries
  | .byTag t => some (.getEntry t)
  | .byEd _ => none
  | .byX _ => none

/-- What it returns, as an answer of the keystore; of an entry the public information counts.
    Specification: nothing in the code corresponds. -/
def LocalOut.asAns : LocalOut → Ans
  | .seed i => .seedInfo i
  | .cert i => .certInfo i
  | .list l => .entries l
  | .entry e => .entry e.info

/-- The seed the caller gives. Specification: nothing in the code corresponds. -/
def LocalCall.given : LocalCall → Option (B 32)
  | .insertSeed s _ _ => some s
  | .insertDeep s _ _ _ _ _ => some s
  | _ => none

/-- The luck of a handle call: the seed is the one given, if one is given; the certificate comes from the generator; there is no
    fallback signer. Specification: nothing in the code corresponds. -/
def HandleLuck (E : Env) (x : LocalCall) (r : Luck) : Prop :=
  (∃ n, E.certGen n = ⟨r.sni, r.priv, r.cert⟩) ∧ r.fallback = none ∧ ∀ s, x.given = some s → r.seed = s

variable (E : Env) (st : E.S.σ) (evs : List MEvent)

/-- With event `p`, process `j` receives message `m` on connection `c`; it is the `k`-th message it receives (from 0).
    Specification: nothing in the code corresponds. -/
def RecvAt (p j k c : Nat) (m : Msg) : Prop :=
  evs[p]? = some (.at j (.srv (.recv c m))) ∧ ∃ l, (Multi.run E st (evs.take p)).procs[j]? = some l ∧ l.sys.inbox.length = k

/-- The request received with event `p` has come to the end `d`. Specification: nothing in the code corresponds. -/
def DoneOf (p : Nat) (d : Done E) : Prop :=
  ∃ j c m l, RecvAt E st evs p j d.id c m ∧ (Multi.run E st evs).procs[j]? = some l ∧ d ∈ l.sys.done

/-- Event `p` is a call of a store handle with choices `ch` of the environment and result `r`.
    Specification: nothing in the code corresponds. -/
def CallAt (p : Nat) (x : LocalCall) (ch : Nat → Choice) (r : Res LocalOut) : Prop :=
  ∃ j l, evs[p]? = some (.at j (.call x ch)) ∧ (Multi.run E st (evs.take p)).procs[j]? = some l ∧ r = l.result x ch

/-- The effects of the request received with event `p`. Specification: nothing in the code corresponds. -/
def EffectsOf (p : Nat) (l : List Ev) : Prop :=
  ∃ j k c m q, RecvAt E st evs p j k c m ∧ (Multi.run E st evs).procs[j]? = some q ∧ l = histOf q.sys.hist k

/-- Operation `x` was finished before operation `y` began. Specification: nothing in the code corresponds. -/
def MBefore (x y : Nat) : Prop :=
  (∃ d, DoneOf E st (evs.take y) x d) ∨ ∃ a ch r, CallAt E st (evs.take y) x a ch r

/-- An operation of the sequential history is a request of the run, or a call of a store handle: call, luck and answer are the same.
    Specification: nothing in the code corresponds. -/
def IsOperation (op : Op) : Prop :=
  (∃ j k c i r l, RecvAt E st evs op.id j k c (.req i r) ∧ r.call? E c = some op.call ∧
    EffectsOf E st evs op.id l ∧ LuckOf E l op.call op.luck ∧
    (∀ d, DoneOf E st evs op.id d → op.ans = some (answerOf E.C (E.encKey c) d.outcome)) ∧
    ((∀ d, ¬ DoneOf E st evs op.id d) → op.ans = none)) ∨
  ∃ x ch r, CallAt E st evs op.id x ch r ∧ x.asCall = some op.call ∧ HandleLuck E x op.luck ∧ op.ans = some (r.map LocalOut.asAns)

/-- The history `ops` explains the run: starting from the keystore `ks₀`, every answer is right and the file ends up standing
    for the final keystore; no operation occurs twice, the order of operations that did not overlap is kept - in whichever processes
    they were -, every request that must be explained (`Counted`) is there, and every handle call that met no failure of the
    environment, and nothing else. Specification: nothing in the code corresponds. -/
structure MExplains (okLim : UInt32 → UInt32 → Bool) (room : Item → Bool) (ks₀ : Keystore) (ops : List Op) : Prop where
  correct : Keystore.Correct E.C okLim room ks₀ ops
  final : Stands E (Keystore.after E.C okLim room ks₀ ops) (Multi.run E st evs).entries
  once : (ops.map Op.id).Nodup
  order : ops.Pairwise (fun a b => ¬ MBefore E st evs b.id a.id)
  requests : ∀ p d, DoneOf E st evs p d → Counted d → ∃ op ∈ ops, op.id = p
  calls : ∀ p x ch r, CallAt E st evs p x ch r → x.asCall ≠ none → (∀ n, (ch n).fault = none) → ∃ op ∈ ops, op.id = p
  real : ∀ op ∈ ops, IsOperation E st evs op

end Lair
