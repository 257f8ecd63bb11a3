import Verif.WorldSeq
import Verif.Props.World

/-
C58: the server is never stuck, and over a new connection it behaves like a simple sequential machine.
-/
namespace Lair

variable {S : SStream} {E : Env} {st : E.S.σ}

/-- SPECIFICATION. A list of requests on connection `c`, handled strictly one after the other with nothing else going on: the
    outcomes, and the state afterwards. Each request comes with its message id and the environment (randomness, time, faults) its
    handler meets. -/
def seqRun (E : Env) (c : Nat) : List (String × Req × Choice) → Shared E → List (Res Resp) × Shared E
  | [], s => ([], s)
  | (_, q, ch) :: rs, s =>
    let (o, s₁) := (handleReq E c q).alone c ch s
    let (os, s₂) := seqRun E c rs s₁
    (o :: os, s₂)

/-- The requests, and the answers to them, are small enough for a frame. -/
def AllFit (E : Env) (c : Nat) : List (String × Req × Choice) → Shared E → Prop
  | [], _ => True
  | (id, q, ch) :: rs, s =>
    (Codec.encodeMsg (.req id q)).length + 17 ≤ 8192 ∧
    (Codec.encodeMsg (.res id (match ((handleReq E c q).alone c ch s).1 with | .ok v => v | .error e => .error e))).length + 17 ≤ 8192 ∧
    AllFit E c rs ((handleReq E c q).alone c ch s).2

theorem run_ext (evs more : List (WEv S)) : World.run E S st (evs ++ more) = more.foldl World.step (World.run E S st evs) := by
  simp [World.run]

/-- The answer as the typed method returns it. -/
theorem typed_outcome (hst : GoodStore E st) (evs : List (WEv S)) {c : Nat} {id : String} {q : Req} {o : Res Resp}
    (hd : ∃ d ∈ (World.run E S st evs).sys.done, d.conn = c ∧ d.msg = .req id q ∧ d.outcome = o) :
    typedResult q (.ok (.res id (.ofOutcome o))) = o := by
  obtain ⟨d, hd, -, hm, ho⟩ := hd
  cases o with
  | error e => rfl
  | ok v =>
    rw [C56_server_run] at hd
    have hs := done_spec hst hd
    rw [hm] at hs
    have := (C30_typed_result q (.ok (.res id v)) v).mpr ⟨hspec_answers hs v ho, id, rfl⟩
    exact this

theorem seq_requests (L : S.Lawful) (hst : GoodStore E st) (c : Nat) (rs : List (String × Req × Choice)) (evs : List (WEv S)) (x : Conn S)
    (hx : (World.run E S st evs).conns[c]? = some x) (h : ConnReady x) (hids : (rs.map Prod.fst).Nodup)
    (hfree : ∀ r ∈ rs, x.cli.pending.get r.1 = none) (hfit : AllFit E c rs (World.run E S st evs).sys.sh) :
    ∃ more x', (World.run E S st (evs ++ more)).conns = (World.run E S st evs).conns.set c x' ∧ ConnReady x' ∧
      (World.run E S st (evs ++ more)).sys.sh = (seqRun E c rs (World.run E S st evs).sys.sh).2 ∧
      x.asked <+: x'.asked ∧ x.cli.reqs <+: x'.cli.reqs ∧
      ∀ (k : Nat) (r : String × Req × Choice), rs[k]? = some r →
        (World.run E S st (evs ++ more)).request c (x.asked.length + k) = some (r.1, r.2.1) ∧
        (World.run E S st (evs ++ more)).result c (x.asked.length + k) = (seqRun E c rs (World.run E S st evs).sys.sh).1[k]? := by
  induction rs generalizing evs x with
  | nil =>
    refine ⟨[], x, ?_, h, by simp [seqRun], List.prefix_rfl, List.prefix_rfl, by simp⟩
    rw [List.append_nil]
    obtain ⟨h1, rfl⟩ := List.getElem?_eq_some_iff.mp hx
    exact (List.set_getElem_self _).symm
  | cons r rs ih =>
    obtain ⟨id, q, ch⟩ := r
    have hlt := (List.getElem?_eq_some_iff.mp hx).1
    obtain ⟨hf1, hf2, hf3⟩ := hfit
    obtain ⟨e1, x1, b1, b2, b3, b4, b5, b6, b7⟩ := one_request L (World.run E S st evs) c x hx h id q ch (hfree _ (List.mem_cons_self ..))
      (by simp only [Fits, decide_eq_true_eq]; exact hf1)
      (by
        simp only [Fits, decide_eq_true_eq]
        cases ho : ((handleReq E c q).alone c ch (World.run E S st evs).sys.sh).1 with
        | ok v => rw [ho] at hf2; exact hf2
        | error e => rw [ho] at hf2; exact hf2)
    rw [← run_ext] at b1 b6 b7
    have hn := List.nodup_cons.mp (by simpa only [List.map_cons] using hids)
    have hx1 : (World.run E S st (evs ++ e1)).conns[c]? = some x1 := by rw [b1]; simp [hlt]
    rw [← b6] at hf3
    obtain ⟨e2, x2, d1, d2, d3, d4, d5, d6⟩ := ih (evs ++ e1) x1 hx1 b2 hn.2 (fun r hr => b5 _ (hfree r (List.mem_cons_of_mem _ hr))) hf3
    rw [List.append_assoc] at d1 d3 d6
    refine ⟨e1 ++ e2, x2, ?_, d2, ?_, ?_, ?_, ?_⟩
    · rw [d1, b1, List.set_set]
    · rw [d3, b6]; rfl
    · exact (b3 ▸ List.prefix_append _ _).trans d4
    · exact (b4 ▸ List.prefix_append _ _).trans d5
    · intro k r hk
      cases k with
      | zero =>
        simp only [List.getElem?_cons_zero, Option.some.injEq] at hk
        subst hk
        have hx2 : (World.run E S st (evs ++ (e1 ++ e2))).conns[c]? = some x2 := by rw [d1, b1]; simp [hlt]
        have hA : x2.asked[x.asked.length]? = some ⟨id, q, x.up.snd.calls.length⟩ := by
          obtain ⟨t, ht⟩ := d4; rw [← ht, b3]; simp
        have hR : x2.cli.reqs[x.asked.length]? = some ⟨id, .done (.ok (.res id (.ofOutcome ((handleReq E c q).alone c ch (World.run E S st evs).sys.sh).1))),
            .full (.res id (.ofOutcome ((handleReq E c q).alone c ch (World.run E S st evs).sys.sh).1))⟩ := by
          obtain ⟨t, ht⟩ := d5; rw [← ht, b4, ← h.count]; simp
        refine ⟨?_, ?_⟩
        · rw [Nat.add_zero, request_of hx2 hA]
        · rw [Nat.add_zero]
          unfold World.result
          rw [hx2]
          simp only [hA, hR]
          rw [typed_outcome hst _ b7]
          rfl
      | succ k =>
        have hlen : x1.asked.length + k = x.asked.length + (k + 1) := by rw [b3]; simp; omega
        have := d6 k r (by simpa using hk)
        rw [hlen, b6] at this
        exact this

/-- C58. Whatever has happened before - any history, any other connections in any state, any requests in flight, restarts -, a client
    that connects now can make any requests, one after the other, and get them all answered: there is a way for things to go
    on (nobody else needs to do anything) after which every request has its result, the results are exactly those of the
    sequential specification, and so is the state of the server. The network has just carried the bytes
    that were sent, and no other connection is affected. -/
theorem C58_new_client_is_served (L : S.Lawful) (hst : GoodStore E st) (evs : List (WEv S)) (u d : S.St) (rs : List (String × Req × Choice))
    (hids : (rs.map Prod.fst).Nodup)
    (hfit : AllFit E (World.run E S st evs).conns.length rs (World.run E S st evs).sys.sh) :
    let c := (World.run E S st evs).conns.length
    let spec := seqRun E c rs (World.run E S st evs).sys.sh
    ∃ more, (∀ (k : Nat) (r : String × Req × Choice), rs[k]? = some r →
        (World.run E S st (evs ++ .connect u d :: more)).request c k = some (r.1, r.2.1) ∧
        (World.run E S st (evs ++ .connect u d :: more)).result c k = spec.1[k]?) ∧
      (World.run E S st (evs ++ .connect u d :: more)).sys.sh = spec.2 ∧
      (∀ x, (World.run E S st (evs ++ .connect u d :: more)).conns[c]? = some x →
        arrived x.up.net = x.up.snd.wire ∧ arrived x.down.net = x.down.snd.wire) ∧
      ∀ c', c' < c → (World.run E S st (evs ++ .connect u d :: more)).conns[c']? = (World.run E S st evs).conns[c']? := by
  intro c spec
  have hw : World.run E S st (evs ++ [.connect u d]) = { World.run E S st evs with conns := (World.run E S st evs).conns ++ [.init u d] } := by
    rw [run_ext]; rfl
  obtain ⟨more, x', h1, hr, h3, -, -, h6⟩ := seq_requests L hst c rs (evs ++ [.connect u d]) (.init u d)
    (by rw [hw]; simp [c]) (.init u d) hids (fun _ _ => rfl) (by rw [hw]; exact hfit)
  have hsh : (World.run E S st (evs ++ [.connect u d])).sys.sh = (World.run E S st evs).sys.sh := by rw [hw]
  rw [hsh] at h3 h6
  rw [List.append_assoc] at h1 h3 h6
  refine ⟨more, ?_, h3, ?_, ?_⟩
  · intro k r hk
    have := h6 k r hk
    simpa [Conn.init] using this
  · intro x hx
    rw [show evs ++ .connect u d :: more = evs ++ ([.connect u d] ++ more) from rfl, h1, hw] at hx
    simp [c] at hx
    subst hx
    exact ⟨hr.up.honest, hr.down.honest⟩
  · intro c' hc'
    rw [show evs ++ .connect u d :: more = evs ++ ([.connect u d] ++ more) from rfl, h1, hw]
    simp only
    rw [List.getElem?_set_ne (by omega), List.getElem?_append_left (by omega)]

/-- C58. In particular the server always answers a hello on a new connection, with its key. -/
theorem C58_hello_always_answered (L : S.Lawful) (hst : GoodStore E st) (evs : List (WEv S)) (u d : S.St) (id : String)
    (h1 : (Codec.encodeMsg (.req id .hello)).length + 17 ≤ 8192)
    (h2 : (Codec.encodeMsg (.res id (.hello E.name E.version E.idPk))).length + 17 ≤ 8192) :
    ∃ more, (World.run E S st (evs ++ .connect u d :: more)).result (World.run E S st evs).conns.length 0 =
      some (.ok (.hello E.name E.version E.idPk)) := by
  obtain ⟨more, h, -⟩ := C58_new_client_is_served L hst evs u d [(id, .hello, ⟨fun n => B.fill n 0, 0, .ok (B.fill 64 0), none⟩)] (by simp) ⟨h1, h2, trivial⟩
  exact ⟨more, (h 0 _ rfl).2⟩

/-! ### A concrete case -/

namespace WEx

/-- Hello, unlock, create a seed, sign with it, ask for something that does not exist. -/
def reqs : List (String × Req × Choice) :=
  [("h", .hello, Ex.calm 0), ("u", .unlock (Ex.sent 0 Ex.pass), Ex.calm 0), ("n", .newSeed "alice" none true, Ex.calm 11),
    ("s", .sign (B.fill 32 11) none [1, 2, 3], Ex.calm 0), ("g", .getEntry "bob", Ex.calm 0)]

theorem seq_ex : (seqRun (Ex.env false 4) 0 reqs ⟨MemStore.empty, [], [], [], fun _ => false⟩).1 =
    [.ok (.hello "lair" "0.6" Ex.idSeed), .ok .unlock, .ok (.newSeed "alice" ⟨B.fill 32 11, B.fill 32 11, true⟩),
      .ok (.sign (B.fill 64 11)), .error "tag not found"] := by decide +kernel

def decAllFit (E : Env) (c : Nat) : (rs : List (String × Req × Choice)) → (s : Shared E) → Decidable (AllFit E c rs s)
  | [], _ => isTrue trivial
  | (_, q, ch) :: rs, s =>
    have := decAllFit E c rs ((handleReq E c q).alone c ch s).2
    inferInstanceAs (Decidable (_ ∧ _ ∧ _))

instance (E : Env) (c : Nat) (rs : List (String × Req × Choice)) (s : Shared E) : Decidable (AllFit E c rs s) := decAllFit E c rs s

set_option maxRecDepth 100000 in
example : (reqs.map Prod.fst).Nodup ∧ AllFit (Ex.env false 4) 0 reqs ⟨MemStore.empty, [], [], [], fun _ => false⟩ := by decide +kernel

end WEx

end Lair
