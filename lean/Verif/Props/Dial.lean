import Verif.DialLemmas
import Verif.Props.EndToEnd
import Verif.Props.World

/-
C78: from opening the socket to the answers.
-/
namespace Lair.Dial

variable {S : SStream} {E : Env} {I : Ident} {st : E.S.σ}

/-- At every moment of the history the handshakes of the clients have come through unaltered. (What strangers send may be anything,
    and so may what the network does to a connection after its handshake.) -/
def NeverTampered (I : Ident) (E : Env) (S : SStream) (st : E.S.σ) (evs : List HEv) : Prop :=
  ∀ n, (HWorld.run I E S st (evs.take n)).Untampered I

/-- The clients use key pairs. -/
def ProperClients (C : Crypto) (evs : List HEv) : Prop := ∀ cr sr, HEv.dial cr sr ∈ evs → C.IsXPair cr.cboxPk cr.cboxSk

theorem sim_foldl (L : E.C.Lawful) (LK : I.K.Lawful E.C) (hs : E.C.IsXPair I.pk I.sk) (evs : List HEv) :
    ∀ (h : HWorld E S) (w : World E S), Sim I h w → ProperClients E.C evs →
      (∀ n, ((evs.take n).foldl (HWorld.step I) h).Untampered I) →
      ∃ wevs : List (WEv S), Sim I (evs.foldl (HWorld.step I) h) (wevs.foldl World.step w) ∧
        (∀ n, ∃ m, Sim I ((evs.take n).foldl (HWorld.step I) h) ((wevs.take m).foldl World.step w)) ∧
        (∀ m, ∃ n, Sim I ((evs.take n).foldl (HWorld.step I) h) ((wevs.take m).foldl World.step w)) := by
  induction evs with
  | nil => intro h w hm _ _; exact ⟨[], hm, fun n => ⟨0, by simpa using hm⟩, fun m => ⟨0, by simpa using hm⟩⟩
  | cons e es ih =>
    intro h w hm hp hun
    obtain ⟨o, ho⟩ := sim_step L LK hs hm e (fun cr sr he => hp cr sr (by simp [he])) (by simpa using hun 1)
    obtain ⟨wevs, h1, h2, h3⟩ := ih (h.step I e) (o.elim w w.step) ho (fun cr sr hd => hp cr sr (by simp [hd]))
      (fun n => by simpa using hun (n + 1))
    cases o with
    | none =>
      refine ⟨wevs, h1, ?_, ?_⟩
      · intro n
        cases n with
        | zero => exact ⟨0, by simpa using hm⟩
        | succ n => obtain ⟨m, h⟩ := h2 n; exact ⟨m, by simpa using h⟩
      · intro m
        obtain ⟨n, h⟩ := h3 m
        exact ⟨n + 1, by simpa using h⟩
    | some we =>
      refine ⟨we :: wevs, h1, ?_, ?_⟩
      · intro n
        cases n with
        | zero => exact ⟨0, by simpa using hm⟩
        | succ n => obtain ⟨m, h⟩ := h2 n; exact ⟨m + 1, by simpa using h⟩
      · intro m
        cases m with
        | zero => exact ⟨0, by simpa using hm⟩
        | succ m => obtain ⟨n, h⟩ := h3 m; exact ⟨n + 1, by simpa using h⟩

theorem sim_run (L : E.C.Lawful) (LK : I.K.Lawful E.C) (hs : E.C.IsXPair I.pk I.sk) (evs : List HEv) (hp : ProperClients E.C evs)
    (hun : NeverTampered I E S st evs) :
    ∃ wevs : List (WEv S), Sim I (HWorld.run I E S st evs) (World.run E S st wevs) ∧
      (∀ n, ∃ m, Sim I (HWorld.run I E S st (evs.take n)) (World.run E S st (wevs.take m))) ∧
      (∀ m, ∃ n, Sim I (HWorld.run I E S st (evs.take n)) (World.run E S st (wevs.take m))) :=
  sim_foldl L LK hs evs _ _ ⟨rfl, rfl, by simp [HWorld.init], by simp [HWorld.init, Sys.init]⟩ hp hun

/-! ### What corresponding moments have in common -/

theorem Sim.conn {h : HWorld E S} {w : World E S} (hm : Sim I h w) (c : Nat) :
    (∃ x, h.conns[c]?.bind HConn.x = some x ∧ w.conns[c]? = some x) ∨
    (h.conns[c]?.bind HConn.x = none ∧ (w.conns[c]? = none ∨ ∃ u d g, w.conns[c]? = some { Conn.init u d with gone := g })) := by
  cases hc : h.conns[c]? with
  | none =>
    right
    refine ⟨rfl, Or.inl ?_⟩
    rw [List.getElem?_eq_none_iff] at hc ⊢
    rw [hm.len]; exact hc
  | some hc₀ =>
    obtain ⟨u, d, -, hw⟩ := hm.conns c hc₀ hc
    cases hx : hc₀.x with
    | none => right; exact ⟨hx, Or.inr ⟨u, d, hc₀.gone, by rw [hw]; simp [HConn.abs, hx]⟩⟩
    | some x => left; exact ⟨x, hx, by rw [hw, abs_some hx]⟩

theorem Sim.request {h : HWorld E S} {w : World E S} (hm : Sim I h w) (c k : Nat) : w.request c k = h.request c k := by
  unfold World.request HWorld.request
  rcases hm.conn c with ⟨x, h1, h2⟩ | ⟨h1, h2 | ⟨u, d, g, h2⟩⟩
  · rw [h1, h2]
  · rw [h1, h2]
  · rw [h1, h2]; rfl

theorem Sim.result {h : HWorld E S} {w : World E S} (hm : Sim I h w) (c k : Nat) : w.result c k = h.result c k := by
  unfold World.result HWorld.result
  rcases hm.conn c with ⟨x, h1, h2⟩ | ⟨h1, h2 | ⟨u, d, g, h2⟩⟩
  · rw [h1, h2]; dsimp only; cases x.asked[k]? <;> cases x.cli.reqs[k]? <;> first | rfl | skip
  · rw [h1, h2]
  · rw [h1, h2]; rfl

theorem Sim.freshIds {h : HWorld E S} {w : World E S} (hm : Sim I h w) (c : Nat) (hf : h.FreshIds c) : w.FreshIds c := by
  intro x hx
  rcases hm.conn c with ⟨y, h1, h2⟩ | ⟨h1, h2 | ⟨u, d, g, h2⟩⟩
  · rw [h2] at hx; cases hx; exact hf x h1
  · rw [h2] at hx; cases hx
  · rw [h2] at hx; cases hx; exact List.nodup_nil

theorem unforged_nil (LS : S.Lawful) (s : S.St) : Lair.Unforged S s [] [] := by
  intro pre post hs c hc hp
  have : c = [] := List.infix_nil.mp hc
  subst this
  obtain ⟨⟨m, s'⟩, hp⟩ := Option.isSome_iff_exists.1 hp
  have := LS.pull_len _ _ _ _ hp
  simp at this

theorem Sim.unforged (LS : S.Lawful) {h : HWorld E S} {w : World E S} (hm : Sim I h w) (c : Nat) (hf : h.Unforged c) : w.Unforged c := by
  intro x hx
  rcases hm.conn c with ⟨y, h1, h2⟩ | ⟨h1, h2 | ⟨u, d, g, h2⟩⟩
  · rw [h2] at hx; cases hx; exact hf x h1
  · rw [h2] at hx; cases hx
  · rw [h2] at hx; cases hx; exact ⟨unforged_nil LS u, unforged_nil LS d⟩

/-! ### C78 -/

/-- C78. The handshake of a client succeeds at both ends as soon as its bytes are there, whoever else connects meanwhile and whatever strangers
    send, and then both ends have the same keys: for the two directions, and for the secrets inside messages. -/
theorem C78_handshakes_succeed (L : E.C.Lawful) (LK : I.K.Lawful E.C) (hs : E.C.IsXPair I.pk I.sk) (evs : List HEv)
    (hp : ProperClients E.C evs) (hun : NeverTampered I E S st evs) (c : Nat) (hc : HConn S) (cr : ClientRand)
    (hcon : (HWorld.run I E S st evs).conns[c]? = some hc) (hcr : hc.cr = some cr) :
    (hc.sin.length = 136 → hc.srv.isSome) ∧ (hc.cin.length = 104 → hc.cli.isSome) ∧
    ∀ s cl, hc.srv = some s → hc.cli = some cl →
      cl.enc = s.dec ∧ s.enc = cl.dec ∧ clientEncKey E.C cl = serverDecKey E.C s ∧ serverEncKey E.C s = clientDecKey E.C cl := by
  obtain ⟨wevs, hm, -, -⟩ := sim_run L LK hs evs hp hun
  obtain ⟨u, d, hi, -⟩ := hm.conns c hc hcon
  refine ⟨hi.full.1, fun h => hi.full.2 (by rw [hcr]; rfl) h, ?_⟩
  intro s cl h1 h2
  obtain ⟨s₀, cl₀, hk, -, -, g1, g2⟩ := hi.dialled cr hcr
  rw [g1 s h1, g2 cl h2]
  exact ⟨hk.enc, hk.dec, hk.toSrv, hk.toCli⟩

/-- C78. The server runs as in System.lean: everything proved about its runs holds, whatever comes over the sockets. -/
theorem C78_server_run (L : E.C.Lawful) (LK : I.K.Lawful E.C) (hs : E.C.IsXPair I.pk I.sk) (evs : List HEv)
    (hp : ProperClients E.C evs) (hun : NeverTampered I E S st evs) :
    ∃ sevs, (HWorld.run I E S st evs).sys = Sys.run E st sevs := by
  obtain ⟨wevs, hm, -, -⟩ := sim_run L LK hs evs hp hun
  exact ⟨_, hm.sys.symm.trans (C56_server_run wevs)⟩

/-- C78. A client's successful result is the server's outcome for that very request, of the kind asked for; strangers and other
    connections may do what they like. -/
theorem C78_result_is_own (L : E.C.Lawful) (LK : I.K.Lawful E.C) (LS : S.Lawful) (hs : E.C.IsXPair I.pk I.sk) (evs : List HEv)
    (hp : ProperClients E.C evs) (hun : NeverTampered I E S st evs) (c k : Nat) (id : String) (q : Req) (v : Resp)
    (hu : (HWorld.run I E S st evs).Unforged c) (hf : (HWorld.run I E S st evs).FreshIds c)
    (hq : (HWorld.run I E S st evs).request c k = some (id, q)) (hr : (HWorld.run I E S st evs).result c k = some (.ok v)) :
    Answers q v ∧ ∃ d ∈ (HWorld.run I E S st evs).sys.done, d.conn = c ∧ d.msg = .req id q ∧ d.outcome = .ok v := by
  obtain ⟨wevs, hm, -, -⟩ := sim_run L LK hs evs hp hun
  rw [← hm.request] at hq
  rw [← hm.result] at hr
  rw [← hm.sys]
  exact C56_result_is_own LS wevs c k id q v (hm.unforged LS c hu) (hm.freshIds c hf) hq hr

/-- `E` has, for each connection, the keys the server computes in its handshake (priv_srv.rs:158-178). -/
def Keyed (I : Ident) (E : Env) (h : HWorld E S) : Prop :=
  ∀ (c : Nat) (hc : HConn S) (cr : ClientRand), h.conns[c]? = some hc → hc.cr = some cr → ∀ (out : Bytes) (s : Session S),
    serverAccept S I.K I.pk I.sk hc.sr (clientInit I.K I.pk cr ++ cr.header.val) = .ok (out, s) →
    E.decKey c = serverDecKey E.C s ∧ E.encKey c = serverEncKey E.C s

theorem keyed_client (L : E.C.Lawful) (LK : I.K.Lawful E.C) (hs : E.C.IsXPair I.pk I.sk) (evs : List HEv)
    (hp : ProperClients E.C evs) (hun : NeverTampered I E S st evs) (hkey : Keyed I E (HWorld.run I E S st evs)) (c : Nat)
    (hc : HConn S) (cl : Session S) (hcon : (HWorld.run I E S st evs).conns[c]? = some hc) (hcl : hc.cli = some cl) :
    E.decKey c = clientEncKey E.C cl ∧ E.encKey c = clientDecKey E.C cl := by
  obtain ⟨wevs, hm, -, -⟩ := sim_run L LK hs evs hp hun
  obtain ⟨u, d, hi, -⟩ := hm.conns c hc hcon
  rcases Option.eq_none_or_eq_some hc.cr with hcr | ⟨cr, hcr⟩
  · rw [(hi.stranger hcr).1] at hcl; cases hcl
  · obtain ⟨s₀, cl₀, hk, -, -, g1, g2⟩ := hi.dialled cr hcr
    rw [g2 cl hcl, hk.toSrv, ← hk.toCli]
    exact hkey c hc cr hcon hcr _ _ hk.accept

/-- C78. What a client that has connected sends when one of its methods is called makes, at the server, exactly the call that was
    meant: passphrases and limits arrive as they were given. -/
theorem C78_method_makes_its_call (L : E.C.Lawful) (LK : I.K.Lawful E.C) (hs : E.C.IsXPair I.pk I.sk) (evs : List HEv)
    (hp : ProperClients E.C evs) (hun : NeverTampered I E S st evs) (hkey : Keyed I E (HWorld.run I E S st evs)) (c : Nat)
    (hc : HConn S) (cl : Session S) (hcon : (HWorld.run I E S st evs).conns[c]? = some hc) (hcl : hc.cli = some cl)
    (lim : PwHashLimits) (hdr hdr' : B 24) (m : Method) :
    (m.request E.C E.L (clientEncKey E.C cl) lim hdr hdr').call? E c = some (m.call E.C lim) := by
  rw [← (keyed_client L LK hs evs hp hun hkey c hc cl hcon hcl).1]
  exact C65_method_makes_its_call c lim hdr hdr' m

/-- The passphrase opens the identity seed of the configuration, and that has the announced public key. -/
def Opens (E : Env) (pass : Bytes) : Prop :=
  ∃ (pre idSeed : B 32), E.C.argon2id (E.C.blake2b64 pass).val E.salt E.ops E.mem = some pre ∧
    E.idSeedEnc.decrypt (m := 32) E.C (E.C.kdf pre 142 "IdnSecKy") = some idSeed ∧ E.C.xPk idSeed = E.idPk

/-- C78. A client that has connected unlocks its connection with the passphrase of the keystore, and with no other: the passphrase
    encrypted with the client's own key is accepted by the server exactly if it opens the configuration. -/
theorem C78_unlocks_with_the_passphrase (L : E.C.Lawful) (LK : I.K.Lawful E.C) (hs : E.C.IsXPair I.pk I.sk)
    (hst : GoodStore E st) (evs : List HEv)
    (hp : ProperClients E.C evs) (hun : NeverTampered I E S st evs) (hkey : Keyed I E (HWorld.run I E S st evs)) (c : Nat)
    (hc : HConn S) (cl : Session S) (hcon : (HWorld.run I E S st evs).conns[c]? = some hc) (hcl : hc.cli = some cl)
    (hdr : B 24) (pass : Bytes) (d : Done E) (hd : d ∈ (HWorld.run I E S st evs).sys.done) (hdc : d.conn = c) (i : String)
    (hm : d.msg = .req i (.unlock (encryptPassphrase E.C E.L (clientEncKey E.C cl) hdr pass)))
    (hf : Ev.fault ∉ (HWorld.run I E S st evs).sys.effects d.id) :
    (d.outcome = .ok .unlock ↔ Opens E pass) ∧ (¬ Opens E pass → ∃ e, d.outcome = .error e) := by
  obtain ⟨sevs, hsys⟩ := C78_server_run L LK hs evs hp hun
  rw [hsys] at hd hf
  obtain ⟨h1, h2⟩ := C02_unlock_iff_right_passphrase hst sevs d hd i _ hm hf
  have hkd := (keyed_client L LK hs evs hp hun hkey c hc cl hcon hcl).1
  have hright : RightPassphrase E d.conn (encryptPassphrase E.C E.L (clientEncKey E.C cl) hdr pass) ↔ Opens E pass := by
    unfold RightPassphrase Opens
    have hdec : (encryptPassphrase E.C E.L (clientEncKey E.C cl) hdr pass).decrypt (m := 64) E.C (E.decKey d.conn) =
        some (E.C.blake2b64 pass) := by
      rw [hdc, hkd]; exact SecretSized.decrypt_encrypt E.C E.L _ _ _
    constructor
    · rintro ⟨p, pre, ids, g1, g2, g3, g4⟩
      rw [hdec] at g1
      cases g1
      exact ⟨pre, ids, g2, g3, g4⟩
    · rintro ⟨pre, ids, g2, g3, g4⟩
      exact ⟨_, pre, ids, hdec, g2, g3, g4⟩
  exact ⟨h1.trans hright, fun hn => h2 (fun ho => hn (hright.1 (h1.1 ho)))⟩

/-- The `k`-th request on connection `c` had succeeded before the `k'`-th request on connection `c'` was made. -/
def HSucceededBefore (I : Ident) (E : Env) (S : SStream) (st : E.S.σ) (evs : List HEv) (c k c' k' : Nat) : Prop :=
  ∃ n v, (HWorld.run I E S st (evs.take n)).result c k = some (.ok v) ∧ (HWorld.run I E S st (evs.take n)).request c' k' = none

/-- The history `ops` explains what the clients saw: as `ExplainsClients` (WorldLin.lean), in the world with handshakes. -/
structure ExplainsDialled (I : Ident) (E : Env) (S : SStream) (st : E.S.σ) (evs : List HEv) (okLim : UInt32 → UInt32 → Bool)
    (room : Item → Bool) (ks₀ : Keystore) (ops : List COp) : Prop where
  correct : Keystore.Correct E.C okLim room ks₀ (ops.map COp.op)
  final : Stands E (Keystore.after E.C okLim room ks₀ (ops.map COp.op)) (HWorld.run I E S st evs).sys.sh.tbl
  once : (ops.map (fun o => (o.conn, o.num))).Nodup
  order : ops.Pairwise (fun a b => ¬ HSucceededBefore I E S st evs b.conn b.num a.conn a.num)
  all : ∀ c k id q call v, (HWorld.run I E S st evs).request c k = some (id, q) → q.call? E c = some call →
    (E.hasFallback = true → ∀ pk p m, call ≠ .sign pk p m) →
    (HWorld.run I E S st evs).result c k = some (.ok v) → ∃ o ∈ ops, o.conn = c ∧ o.num = k
  real : ∀ o ∈ ops, ∃ id q, (HWorld.run I E S st evs).request o.conn o.num = some (id, q) ∧ q.call? E o.conn = some o.call ∧
    ∀ v, (HWorld.run I E S st evs).result o.conn o.num = some (.ok v) → o.ans = some (answerOf E.C (E.encKey o.conn) (.ok v))
  luck : ∀ o ∈ ops, (∃ n, E.certGen n = ⟨o.luck.sni, o.luck.priv, o.luck.cert⟩) ∧ (E.hasFallback = false → o.luck.fallback = none)

/-- C78. Linearizability from the opening of the sockets on: C65, with the handshake of every connection part of the history. -/
theorem C78_clients_see_one_keystore {ks₀ : Keystore} {okLim : UInt32 → UInt32 → Bool} {room : Item → Bool} {H : List (B 64)}
    {Λ : List (UInt32 × UInt32)} (L : E.C.Lawful) (LK : I.K.Lawful E.C) (LS : S.Lawful) (hs : E.C.IsXPair I.pk I.sk)
    (hst : GoodStore E st) (evs : List HEv)
    (hp : ProperClients E.C evs) (hun : NeverTampered I E S st evs)
    (hnf : ∀ n c, (HWorld.run I E S st (evs.take n)).Unforged c) (hfr : ∀ c, (HWorld.run I E S st evs).FreshIds c)
    (hlim : ∀ p salt ops mem, (E.C.argon2id p salt ops mem).isSome = okLim ops mem)
    (hroom : ∀ i e, Repr E i e → E.S.fits e = room i)
    (hks : Stands E ks₀ (E.S.tbl st)) (hkn : Known H Λ ks₀)
    (hcalls : ∀ c k id q call, (HWorld.run I E S st evs).request c k = some (id, q) → q.call? E c = some call → call.within H Λ)
    (hsep : Separated E H Λ (HWorld.run I E S st evs).sys.sh.tbl) :
    ∃ ops, ExplainsDialled I E S st evs okLim room ks₀ ops := by
  obtain ⟨wevs, hm, hfwd, hback⟩ := sim_run L LK hs evs hp hun
  obtain ⟨ops, h⟩ := C65_clients_see_one_keystore (E := E) (S := S) (st := st) (ks₀ := ks₀) (okLim := okLim) (room := room) (H := H) (Λ := Λ)
    LS hst wevs
    (by
      intro m c
      obtain ⟨n, hn⟩ := hback m
      exact hn.unforged LS c (hnf n c))
    (fun c => hm.freshIds c (hfr c)) hlim hroom hks hkn
    (fun c k id q call hq hc => hcalls c k id q call (by rw [← hm.request]; exact hq) hc) (by rw [hm.sys]; exact hsep)
  refine ⟨ops, h.correct, by rw [← hm.sys]; exact h.final, h.once, ?_, ?_, ?_, h.luck⟩
  · refine h.order.imp ?_
    rintro a b hab ⟨n, v, h1, h2⟩
    obtain ⟨m, hn⟩ := hfwd n
    exact hab ⟨m, v, by rw [hn.result]; exact h1, by rw [hn.request]; exact h2⟩
  · intro c k id q call v hq hcall hfb hr
    exact h.all c k id q call v (by rw [hm.request]; exact hq) hcall hfb (by rw [hm.result]; exact hr)
  · intro o ho
    obtain ⟨id, q, h1, h2, h3⟩ := h.real o ho
    exact ⟨id, q, by rw [← hm.request]; exact h1, h2, fun v hv => h3 v (by rw [hm.result]; exact hv)⟩

/-! ### The next client gets in -/

theorem net_fold (es : List NEv) (n : Nat) : ∀ (h : HWorld E S),
    (es.map (HEv.net n)).foldl (HWorld.step I) h = { h with conns := h.conns.modify n (fun c => es.foldl (HConn.step I) c) } := by
  induction es with
  | nil =>
    intro h
    have : h.conns.modify n (fun c => c) = h.conns := by
      apply List.ext_getElem?; intro i; simp [List.getElem?_modify]
    simp [this]
  | cons e es ih =>
    intro h
    rw [List.map_cons, List.foldl_cons, ih]
    simp only [HWorld.step, List.foldl_cons]
    congr 1
    apply List.ext_getElem?
    intro i
    simp only [List.getElem?_modify]
    cases h.conns[i]? with
    | none => rfl
    | some c => by_cases hn : n = i <;> simp [hn]

theorem modify_append_last {α : Type} (l : List α) (x : α) (f : α → α) : (l ++ [x]).modify l.length f = l ++ [f x] := by
  apply List.ext_getElem?
  intro i
  simp only [List.getElem?_modify]
  rcases Nat.lt_trichotomy i l.length with h | h | h
  · rw [List.getElem?_append_left h, List.getElem?_append_left h]
    cases l[i]? <;> simp [Nat.ne_of_gt h]
  · subst h; simp
  · rw [List.getElem?_eq_none (by simp; omega), List.getElem?_eq_none (by simp; omega)]; rfl

/-- Bytes of the handshake before its end. -/
theorem feed_server (bs : List Bytes) : ∀ (h : HConn S), h.srv = none → h.sOver = false → h.sin.length + bs.flatten.length < 136 →
    (bs.map NEv.upArrive).foldl (HConn.step I) h = { h with sin := h.sin ++ bs.flatten } := by
  induction bs with
  | nil => intro h _ _ _; simp
  | cons b bs ih =>
    intro h h1 h2 h3
    simp only [List.flatten_cons, List.length_append] at h3
    have hst : HConn.step I h (.upArrive b) = { h with sin := h.sin ++ b } := by
      simp only [HConn.step, h1, Option.isSome_none, HConn.serverReads, h2, List.length_append]
      rw [if_neg (by simp), if_neg (by simp; omega), if_pos (by omega)]
    rw [List.map_cons, List.foldl_cons, hst, ih { h with sin := h.sin ++ b } h1 h2 (by simp only [List.length_append]; omega)]
    simp

theorem feed_client (cr : ClientRand) (bs : List Bytes) : ∀ (h : HConn S), h.cr = some cr → h.cli = none → h.cOver = false →
    h.cin.length + bs.flatten.length < 104 →
    (bs.map NEv.downArrive).foldl (HConn.step I) h = { h with cin := h.cin ++ bs.flatten } := by
  induction bs with
  | nil => intro h _ _ _ _; simp
  | cons b bs ih =>
    intro h h0 h1 h2 h3
    simp only [List.flatten_cons, List.length_append] at h3
    have hst : HConn.step I h (.downArrive b) = { h with cin := h.cin ++ b } := by
      simp only [HConn.step, h1, Option.isSome_none, HConn.clientReads, h0, h2, List.length_append]
      rw [if_neg (by simp), if_neg (by simp; omega), if_pos (by omega)]
    rw [List.map_cons, List.foldl_cons, hst, ih { h with cin := h.cin ++ b } h0 h1 h2 (by simp only [List.length_append]; omega)]
    simp

/-- The last bytes. -/
theorem finish_server {h : HConn S} {b out : Bytes} {s : Session S} (h1 : h.srv = none) (h2 : h.sOver = false) (h3 : (h.sin ++ b).length = 136)
    (ha : serverAccept S I.K I.pk I.sk h.sr (h.sin ++ b) = .ok (out, s)) :
    HConn.step I h (.upArrive b) = { h with sin := h.sin ++ b, srv := some s, x := some (serverUp h.x h.gone s) } := by
  simp only [HConn.step, h1, Option.isSome_none, HConn.serverReads, h2, ha]
  rw [if_neg (by simp), if_neg (by simp only [h3]; simp), if_neg (by omega)]

theorem finish_client {h : HConn S} {b out : Bytes} {s : Session S} {cr : ClientRand} (h0 : h.cr = some cr) (h1 : h.cli = none)
    (h2 : h.cOver = false) (h3 : (h.cin ++ b).length = 104) (ha : clientFinish S I.K cr (h.cin ++ b) = .ok (out, s)) :
    HConn.step I h (.downArrive b) = { h with cin := h.cin ++ b, cli := some s, x := some (clientUp h.x h.gone s) } := by
  simp only [HConn.step, h1, Option.isSome_none, HConn.clientReads, h0, h2, ha]
  rw [if_neg (by simp), if_neg (by simp only [h3]; simp), if_neg (by omega)]

/-- The client's part and the server's part of a handshake, each cut into pieces in any way: `a` are the client's sealed keys, `b ++ [b']`
    the server's answer, `c ++ [c']` the client's header. -/
structure Pieces (I : Ident) (cr : ClientRand) (sr : ServerRand) (a b c : List Bytes) (b' c' : Bytes) : Prop where
  keys : a.flatten = clientInit I.K I.pk cr
  answer : b.flatten ++ b' = serverWrites I sr (clientInit I.K I.pk cr)
  header : c.flatten ++ c' = cr.header.val
  last : b' ≠ [] ∧ c' ≠ []

/-- C78. Whatever has happened before - whatever strangers and other clients have sent, whatever became of their connections -, a client
    that opens the socket and is accepted (C61) gets in: with its handshake delivered in any pieces, both ends have their sessions, with the same keys, and
    nothing else has changed. -/
theorem C78_next_client_gets_in (L : E.C.Lawful) (LK : I.K.Lawful E.C) (hs : E.C.IsXPair I.pk I.sk) (evs : List HEv)
    (cr : ClientRand) (hcr : E.C.IsXPair cr.cboxPk cr.cboxSk) (sr : ServerRand) (a b c : List Bytes) (b' c' : Bytes)
    (hp : Pieces I cr sr a b c b' c') :
    let before := HWorld.run I E S st evs
    let after := HWorld.run I E S st (evs ++ .dial cr sr :: (a.map NEv.upArrive ++ b.map NEv.downArrive ++ [NEv.downArrive b'] ++
      c.map NEv.upArrive ++ [NEv.upArrive c']).map (HEv.net before.conns.length))
    after.sys = before.sys ∧ after.strangers = before.strangers ∧
    ∃ (new : HConn S) (s cl : Session S), after.conns = before.conns ++ [new] ∧ new.srv = some s ∧ new.cli = some cl ∧
      cl.enc = s.dec ∧ s.enc = cl.dec ∧ clientEncKey E.C cl = serverDecKey E.C s ∧ serverEncKey E.C s = clientDecKey E.C cl := by
  intro before after
  obtain ⟨s, cl, hk⟩ := shake (S := S) L LK hs cr hcr sr
  obtain ⟨hp1, hp2, hp3, hp4, hp5⟩ := hp
  have hbl : 0 < b'.length := List.length_pos_iff.2 hp4
  have hcl : 0 < c'.length := List.length_pos_iff.2 hp5
  have h104 := hk.writes_len
  rw [← hp2, List.length_append] at h104
  have h24 := cr.header.len
  rw [← hp3, List.length_append] at h24
  let h0 : HConn S := ⟨some cr, sr, [], [], none, none, false, false, false, none⟩
  let h1 : HConn S := { h0 with sin := a.flatten }
  let h2 : HConn S := { h1 with cin := b.flatten }
  let h3 : HConn S := { h2 with cin := b.flatten ++ b', cli := some cl, x := some (clientUp none false cl) }
  let h4 : HConn S := { h3 with sin := a.flatten ++ c.flatten }
  let h5 : HConn S := { h4 with sin := a.flatten ++ c.flatten ++ c', srv := some s, x := some (serverUp h3.x false s) }
  have e1 : (a.map NEv.upArrive).foldl (HConn.step I) h0 = h1 := by
    rw [feed_server a h0 rfl rfl (by rw [hp1, hk.init_len]; simp [h0])]
    simp [h0, h1]
  have e2 : (b.map NEv.downArrive).foldl (HConn.step I) h1 = h2 := by
    rw [feed_client cr b h1 rfl rfl rfl (by simp only [h1, h0, List.length_nil]; omega)]
    simp [h0, h1, h2]
  have e3 : HConn.step I h2 (.downArrive b') = h3 :=
    finish_client (cr := cr) (out := cr.header.val) rfl rfl rfl (by simp only [h2, List.length_append]; omega)
      (by simp only [h2]; rw [hp2]; exact hk.finish)
  have e4 : (c.map NEv.upArrive).foldl (HConn.step I) h3 = h4 := by
    rw [feed_server c h3 rfl rfl (by simp only [h3, h2, h1]; rw [hp1, hk.init_len]; omega)]
  have e5 : HConn.step I h4 (.upArrive c') = h5 :=
    finish_server (out := serverWrites I sr (clientInit I.K I.pk cr)) rfl rfl
      (by simp only [h4, List.length_append]; rw [hp1, hk.init_len]; omega)
      (by simp only [h4]; rw [hp1, List.append_assoc, hp3]; exact hk.accept)
  have hafter : after = { before with conns := before.conns ++ [h5] } := by
    show HWorld.run I E S st _ = _
    unfold HWorld.run
    rw [List.foldl_append, List.foldl_cons, net_fold]
    show ({ before with conns := (before.conns ++ [h0]).modify before.conns.length _ } : HWorld E S) = _
    congr 1
    rw [modify_append_last]
    congr 2
    simp only [List.foldl_append, List.foldl_cons, List.foldl_nil, e1, e2, e3, e4, e5]
  rw [hafter]
  exact ⟨rfl, rfl, h5, s, cl, rfl, rfl, rfl, hk.enc, hk.dec, hk.toSrv, hk.toCli⟩

end Lair.Dial
