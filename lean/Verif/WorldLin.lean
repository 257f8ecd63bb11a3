import Verif.World
import Verif.Linearizable

/-
SPECIFICATION: what it means that everything any number of clients have seen of the server, over their encrypted connections, is
explained by a sequential history of calls to one keystore (`Verif.KeystoreSpec`).
-/
namespace Lair

variable (E : Env) (S : SStream) (st : E.S.σ) (evs : List (WEv S))

/-- A call in the sequential history: it is the `num`-th request made on connection `conn`.
    Specification: nothing in the code corresponds. -/
structure COp where
  conn : Nat
  num : Nat
  call : Call
  luck : Luck
  ans : Option (Res Ans)

/-- Without saying whose it is. Specification: nothing in the code corresponds. -/
def COp.op (o : COp) : Op := ⟨0, o.call, o.luck, o.ans⟩

/-- The `k`-th request on connection `c` had succeeded before the `k'`-th request on connection `c'` was made.
    Specification: nothing in the code corresponds. -/
def SucceededBefore (c k c' k' : Nat) : Prop :=
  ∃ n v, (World.run E S st (evs.take n)).result c k = some (.ok v) ∧ (World.run E S st (evs.take n)).request c' k' = none

/-- At no time has anybody forged on a connection. Specification: nothing in the code corresponds. -/
def NeverForged : Prop := ∀ n c, (World.run E S st (evs.take n)).Unforged c

/-- The history `ops` explains what the clients saw, from the keystore `ks₀` on: every answer is right, the store ends up
    standing for the final keystore, no request occurs twice, a request that had succeeded before another was made comes
    before it, every request that has succeeded is there - with the result its client got -, and everything there is a
    request some client made, meeting a certificate of the generator and an external signer only if there is one. (Requests
    that got an error, or no answer at all, may be there, once, or not.)
    Left out: signatures when an external signer is configured, who is asked also when looking up the key fails (C15).
    Specification: nothing in the code corresponds. -/
structure ExplainsClients (okLim : UInt32 → UInt32 → Bool) (room : Item → Bool) (ks₀ : Keystore) (ops : List COp) : Prop where
  correct : Keystore.Correct E.C okLim room ks₀ (ops.map COp.op)
  final : Stands E (Keystore.after E.C okLim room ks₀ (ops.map COp.op)) (World.run E S st evs).sys.sh.tbl
  once : (ops.map (fun o => (o.conn, o.num))).Nodup
  order : ops.Pairwise (fun a b => ¬ SucceededBefore E S st evs b.conn b.num a.conn a.num)
  all : ∀ c k id q call v, (World.run E S st evs).request c k = some (id, q) → q.call? E c = some call →
    (E.hasFallback = true → ∀ pk p m, call ≠ .sign pk p m) →
    (World.run E S st evs).result c k = some (.ok v) → ∃ o ∈ ops, o.conn = c ∧ o.num = k
  real : ∀ o ∈ ops, ∃ id q, (World.run E S st evs).request o.conn o.num = some (id, q) ∧ q.call? E o.conn = some o.call ∧
    ∀ v, (World.run E S st evs).result o.conn o.num = some (.ok v) → o.ans = some (answerOf E.C (E.encKey o.conn) (.ok v))
  luck : ∀ o ∈ ops, (∃ n, E.certGen n = ⟨o.luck.sni, o.luck.priv, o.luck.cert⟩) ∧ (E.hasFallback = false → o.luck.fallback = none)

end Lair
