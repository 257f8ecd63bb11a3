import Verif.WorldLin
import Verif.ClientMethods
import Verif.Props.World
import Verif.Props.Keystore

/- C65: the client library, its encrypted connections, the server and its store together are one keystore. -/
namespace Lair

variable {E : Env} {S : SStream} {st : E.S.σ}

/-! ### Methods and requests -/

theorem optPass_dec (c : Nat) (hdr : B 24) (p : Bytes) :
    decPass E c (encryptPassphrase E.C E.L (E.decKey c) hdr p) = some (E.C.blake2b64 p) :=
  SecretSized.decrypt_encrypt E.C E.L _ _ _

/-- C65. The request a method sends makes, at the server, exactly the call the caller meant: the passphrase given arrives
    as its hash, with the limits in force at the caller. (`E.decKey c` is the key both ends of connection `c` use for this
    direction, C25.) -/
theorem C65_method_makes_its_call (c : Nat) (lim : PwHashLimits) (hdr hdr' : B 24) (m : Method) :
    (m.request E.C E.L (E.decKey c) lim hdr hdr').call? E c = some (m.call E.C lim) := by
  have hd : ∀ (h : B 24) (p : Option Bytes), (optDeep E.C E.L (E.decKey c) lim h p).map (lockOf E c) = p.map (lockFor E.C lim) := by
    intro h p
    cases p with
    | none => rfl
    | some p => simp [optDeep, lockOf, lockFor, optPass_dec]
  have hp : ∀ (h : B 24) (p : Option Bytes), (optPass E.C E.L (E.decKey c) h p).map (decPass E c) = p.map (fun p => some (E.C.blake2b64 p)) := by
    intro h p
    cases p with
    | none => rfl
    | some p => simp [optPass, optPass_dec]
  cases m <;> simp [Method.request, Req.call?, Method.call, hd, hp]

/-! ### Runs of the world and their beginnings -/

theorem take_append (evs : List (WEv S)) (n : Nat) :
    World.run E S st evs = (evs.drop n).foldl World.step (World.run E S st (evs.take n)) := by
  unfold World.run
  rw [← List.foldl_append, List.take_append_drop]

theorem sevs_step (w : World E S) (e : WEv S) : w.sevs <+: (w.step e).sevs := by
  cases e with
  | connect u d => exact List.prefix_rfl
  | net c e => exact List.prefix_rfl
  | serve c =>
    simp only [World.step]
    split
    · exact List.prefix_rfl
    · split
      · exact List.prefix_rfl
      · split
        · exact List.prefix_append _ _
        · exact List.prefix_rfl
  | act i ch =>
    simp only [World.step]
    split
    · exact List.prefix_append _ _
    · split
      · exact List.prefix_append _ _
      · exact List.prefix_append _ _
  | restart => exact List.prefix_append _ _

theorem sevs_prefix (evs : List (WEv S)) (n : Nat) : (World.run E S st (evs.take n)).sevs <+: (World.run E S st evs).sevs := by
  rw [take_append evs n]
  generalize World.run E S st (evs.take n) = w
  induction evs.drop n generalizing w with
  | nil => exact List.prefix_rfl
  | cons e es ih => exact (sevs_step w e).trans (ih _)

/-- A request made stays made. -/
theorem request_prefix (evs : List (WEv S)) (n : Nat) {c k : Nat} {p : String × Req} (h : (World.run E S st (evs.take n)).request c k = some p) :
    (World.run E S st evs).request c k = some p := by
  obtain ⟨x, a, hx, ha, h1, h2⟩ := request_some (id := p.1) (q := p.2) h
  obtain ⟨y, hy, hg⟩ := grows_run (evs.drop n) _ hx
  rw [← take_append] at hy
  obtain ⟨t, ht⟩ := hg.asked
  have : y.asked[k]? = some a := by rw [← ht]; exact List.getElem?_append_left (List.getElem?_eq_some_iff.mp ha).1 ▸ ha
  rw [request_of hy this, h1, h2]

/-- A success means no failure was met, unless an external signer stepped in. -/
theorem success_no_fault {c : Nat} {s₀ s₁ : Shared E} {l : List Ev} {i : String} {r : Req} {v : Resp} {call : Call}
    (h : HSpec c s₀ s₁ l (.ok v) (.req i r)) (hc : r.call? E c = some call)
    (hf : E.hasFallback = true → ∀ pk p m, call ≠ .sign pk p m) : Ev.fault ∉ l := by
  have hF : ¬ Faulted l (.ok v) := fun h => by obtain ⟨-, x, hx⟩ := h; cases hx
  have hR : ¬ Refused l (.ok v) := fun h => by obtain ⟨-, x, hx⟩ := h; cases hx
  have hcr : ∀ seed t d x mk src, CreateSpec c s₀ s₁ l (.ok v) seed t d x mk src → Ev.fault ∉ l := by
    intro seed t d x mk src h
    rcases h with ⟨e, -, rfl, -⟩ | ⟨h, -⟩
    · simp
    · exact absurd h hR
  have hb : s₁.unlocked c = true ∧ (Faulted l (.ok v) ∨ ReqSpec c s₀ s₁ l (.ok v) r) := by
    cases r with
    | hello => cases hc
    | unlock p => cases hc
    | _ =>
      simp only [HSpec] at h
      rcases h with ⟨-, h, -⟩ | h
      · cases h
      · exact h
  obtain ⟨-, h | h⟩ := hb
  · exact absurd h hF
  cases r with
  | hello => cases hc
  | unlock p => cases hc
  | sign pk p m =>
    have hfb : E.hasFallback = false := by
      cases hb : E.hasFallback with
      | false => rfl
      | true => exact absurd (by cases hc; rfl) (hf hb pk (p.map (decPass E c)) m)
    simp only [ReqSpec, hfb] at h
    rcases h with ⟨rfl, -⟩ | ⟨-, h, -⟩ | ⟨h, -⟩ | ⟨h, -⟩
    · simp
    · exact absurd h hR
    · cases h
    · cases h
  | newSeed t d x =>
    rcases h with ⟨h, -⟩ | ⟨seed, h⟩
    · exact absurd h hR
    · exact hcr _ _ _ _ _ _ h
  | deriveSeed a b c d e =>
    rcases h with ⟨h, -⟩ | ⟨e, -, -, ⟨h, -⟩ | ⟨_, _, -, h, -⟩⟩
    · exact absurd h hR
    · exact absurd h hR
    · exact hcr _ _ _ _ _ _ h
  | importSeed a b c d e f g =>
    rcases h with ⟨h, -⟩ | ⟨e, -, -, ⟨h, -⟩ | ⟨_, _, -, -, -, h⟩⟩
    · exact absurd h hR
    · exact absurd h hR
    · exact hcr _ _ _ _ _ _ h
  | newCert t =>
    obtain ⟨n, hdr, ⟨rfl, -⟩ | ⟨h, -⟩⟩ := h
    · simp
    · exact absurd h hR
  | listEntries => rw [h.1]; simp
  | _ =>
    rcases h with ⟨h, -⟩ | ⟨rfl, -⟩
    · exact absurd h hR
    · simp

theorem request_unique {w : World E S} {c k k' : Nat} {id : String} {q q' : Req} (hf : w.FreshIds c) (h : w.request c k = some (id, q))
    (h' : w.request c k' = some (id, q')) : k = k' := by
  obtain ⟨x, a, hx, ha, h1, -⟩ := request_some h
  obtain ⟨x', b, hx', hb, h2, -⟩ := request_some h'
  rw [hx] at hx'; cases hx'
  have hn := hf x hx
  obtain ⟨l1, g1⟩ := List.getElem?_eq_some_iff.mp ha
  obtain ⟨l2, g2⟩ := List.getElem?_eq_some_iff.mp hb
  rcases Nat.lt_trichotomy k k' with hlt | heq | hgt
  · have := List.pairwise_iff_getElem.mp hn k k' (by simpa using l1) (by simpa using l2) hlt
    simp [g1, g2, h1, h2] at this
  · exact heq
  · have := List.pairwise_iff_getElem.mp hn k' k (by simpa using l2) (by simpa using l1) hgt
    simp [g1, g2, h1, h2] at this

theorem freshIds_prefix (evs : List (WEv S)) (n : Nat) {c : Nat} (h : (World.run E S st evs).FreshIds c) :
    (World.run E S st (evs.take n)).FreshIds c := by
  intro x hx
  obtain ⟨y, hy, hg⟩ := grows_run (evs.drop n) _ hx
  rw [← take_append] at hy
  obtain ⟨t, ht⟩ := hg.asked
  have := h y hy
  rw [← ht, List.map_append, List.nodup_append] at this
  exact this.1

/-- The answers and the effects do not depend on how the calls are numbered. -/
theorem after_congr {C : Crypto} {okLim : UInt32 → UInt32 → Bool} {room : Item → Bool} {α : Type} (f g : α → Op)
    (h : ∀ a, (f a).call = (g a).call ∧ (f a).luck = (g a).luck ∧ (f a).ans = (g a).ans) (l : List α) (ks : Keystore) :
    Keystore.after C okLim room ks (l.map f) = Keystore.after C okLim room ks (l.map g) ∧
    (Keystore.Correct C okLim room ks (l.map f) ↔ Keystore.Correct C okLim room ks (l.map g)) := by
  induction l generalizing ks with
  | nil => exact ⟨rfl, Iff.rfl⟩
  | cons a l ih =>
    obtain ⟨h1, h2, h3⟩ := h a
    simp only [List.map_cons, Keystore.after, Keystore.Correct, h1, h2, h3]
    exact ⟨(ih _).1, and_congr Iff.rfl (ih _).2⟩

/-- C65. Linearizability from end to end. Any number of clients use one server over encrypted connections on which nobody
    forges; requests overlap in any way, messages are split, delayed, cut off or dropped, requests time out or are abandoned, the
    server is stopped and restarted at any point. Then everything the clients saw is explained by a sequential history of
    calls to one keystore (`ExplainsClients`): every request that succeeded got the answer the specification gives at its place in
    the history, which lies after all requests that had succeeded before it was made. Assumed, as in C60: `okLim` and
    `room` say which limits and items are possible; no deep-locked entry is opened by two of the passphrases (`H`) and limits
    (`Λ`) in use. -/
theorem C65_clients_see_one_keystore {ks₀ : Keystore} {okLim : UInt32 → UInt32 → Bool} {room : Item → Bool} {H : List (B 64)}
    {Λ : List (UInt32 × UInt32)} (L : S.Lawful) (hst : GoodStore E st) (evs : List (WEv S)) (hnf : NeverForged E S st evs)
    (hfr : ∀ c, (World.run E S st evs).FreshIds c)
    (hlim : ∀ p salt ops mem, (E.C.argon2id p salt ops mem).isSome = okLim ops mem)
    (hroom : ∀ i e, Repr E i e → E.S.fits e = room i)
    (hks : Stands E ks₀ (E.S.tbl st)) (hkn : Known H Λ ks₀)
    (hcalls : ∀ c k id q call, (World.run E S st evs).request c k = some (id, q) → q.call? E c = some call → call.within H Λ)
    (hsep : Separated E H Λ (World.run E S st evs).sys.sh.tbl) :
    ∃ ops, ExplainsClients E S st evs okLim room ks₀ ops := by
  have huf : ∀ c, (World.run E S st evs).Unforged c := by
    intro c
    have := hnf evs.length c
    rwa [List.take_length] at this
  have hsys := C56_server_run (E := E) (S := S) (st := st) evs
  have hin : ∀ j : Nat, (World.run E S st evs).sys.inbox[j]? = (received (World.run E S st evs).sevs)[j]? := by
    intro j; rw [hsys, inbox_run]
  have only : ∀ (c j : Nat) (m : Msg), (received (World.run E S st evs).sevs)[j]? = some (c, m) →
      ∃ k id q, (World.run E S st evs).request c k = some (id, q) ∧ m = .req id q :=
    fun c j m h => C56_only_what_was_asked L evs c j m (huf c) (by rw [hin]; exact h)
  have one : ∀ (c j j' : Nat) (m m' : Msg), (received (World.run E S st evs).sevs)[j]? = some (c, m) →
      (received (World.run E S st evs).sevs)[j']? = some (c, m') → m.id = m'.id → j = j' :=
    fun c j j' m m' h h' => C56_handled_at_most_once L evs c j j' m m' (huf c) (hfr c) (by rw [hin]; exact h) (by rw [hin]; exact h')
  have hdone : ∀ d ∈ (World.run E S st evs).sys.done, (received (World.run E S st evs).sevs)[d.id]? = some (d.conn, d.msg) := by
    intro d hd
    have hids : IdInv (World.run E S st evs).sys := by rw [hsys]; exact idInv_run st _
    rw [← hin]; exact (hids.done d hd).1
  rw [hsys] at hsep
  obtain ⟨ops, hops⟩ := C60_linearizable (okLim := okLim) (room := room) hst (World.run E S st evs).sevs hlim hroom hks hkn (by
    intro c i r call hm hc
    obtain ⟨j, hj⟩ := List.mem_iff_getElem?.mp hm
    obtain ⟨k, id, q, h1, h2⟩ := only c j _ hj
    cases h2
    exact hcalls c k _ _ call h1 hc) hsep
  -- who made an operation
  have hwho : ∀ op : Op, ∃ o : COp, op ∈ ops → (o.call = op.call ∧ o.luck = op.luck ∧ o.ans = op.ans ∧
      ∃ i r, (received (World.run E S st evs).sevs)[op.id]? = some (o.conn, .req i r) ∧
        (World.run E S st evs).request o.conn o.num = some (i, r)) := by
    intro op
    by_cases hop : op ∈ ops
    · obtain ⟨c, i, r, h1, -⟩ := hops.real op hop
      obtain ⟨k, id, q, h2, h3⟩ := only c _ _ h1
      cases h3
      exact ⟨⟨c, k, op.call, op.luck, op.ans⟩, fun _ => ⟨rfl, rfl, rfl, i, r, h1, h2⟩⟩
    · exact ⟨⟨0, 0, op.call, op.luck, op.ans⟩, fun h => absurd h hop⟩
  let F : {op // op ∈ ops} → COp := fun op => Classical.choose (hwho op.1)
  have hF : ∀ op : {op // op ∈ ops}, (F op).call = op.1.call ∧ (F op).luck = op.1.luck ∧ (F op).ans = op.1.ans ∧
      ∃ i r, (received (World.run E S st evs).sevs)[op.1.id]? = some ((F op).conn, .req i r) ∧
        (World.run E S st evs).request (F op).conn (F op).num = some (i, r) :=
    fun op => Classical.choose_spec (hwho op.1) op.2
  have hcongr := after_congr (C := E.C) (okLim := okLim) (room := room) (fun op : {op // op ∈ ops} => op.1) (fun op => (F op).op)
    (fun op => by obtain ⟨h1, h2, h3, -⟩ := hF op; exact ⟨h1.symm, h2.symm, h3.symm⟩) ops.attach ks₀
  have hmap : ops.attach.map (fun op : {op // op ∈ ops} => op.1) = ops := List.attach_map_subtype_val ops
  have hmap' : ops.attach.map (fun op => (F op).op) = (ops.attach.map F).map COp.op := by rw [List.map_map]; rfl
  rw [hmap, hmap'] at hcongr
  -- the request of an operation, among those received
  have hreq : ∀ op : {op // op ∈ ops}, ∃ i r, (received (World.run E S st evs).sevs)[op.1.id]? = some ((F op).conn, .req i r) ∧
        (World.run E S st evs).request (F op).conn (F op).num = some (i, r) := fun op => (hF op).2.2.2
  have hsame : ∀ op op' : {op // op ∈ ops}, (F op).conn = (F op').conn → (F op).num = (F op').num → op.1.id = op'.1.id := by
    intro op op' h1 h2
    obtain ⟨i, r, a1, a2⟩ := hreq op
    obtain ⟨i', r', b1, b2⟩ := hreq op'
    rw [h1] at a1 a2
    rw [h2, b2] at a2
    cases a2
    exact one _ _ _ _ _ a1 b1 rfl
  have hfin : ∀ (c k : Nat) (id : String) (q : Req) (v : Resp), (World.run E S st evs).request c k = some (id, q) →
      (World.run E S st evs).result c k = some (.ok v) →
      ∃ d ∈ (World.run E S st evs).sys.done, d.conn = c ∧ d.msg = .req id q ∧ d.outcome = .ok v :=
    fun c k id q v hq hr => (C56_result_is_own L evs c k id q v (huf c) (hfr c) hq hr).2
  refine ⟨ops.attach.map F, ⟨hcongr.2.mp hops.correct, ?_, ?_, ?_, ?_, ?_, ?_⟩⟩
  · rw [← hcongr.1, hsys]; exact hops.final
  · have hnd : ops.attach.Pairwise (fun a b => a.1.id ≠ b.1.id) := by
      have := hops.once
      rw [← hmap, List.map_map] at this
      exact List.pairwise_map.mp this
    rw [List.map_map]
    refine List.pairwise_map.mpr (hnd.imp ?_)
    intro a b hab heq
    simp only [Function.comp, Prod.mk.injEq] at heq
    exact hab (hsame a b heq.1 heq.2)
  · have ho : ops.attach.Pairwise (fun a b => ¬ Before E st (World.run E S st evs).sevs b.1.id a.1.id) := by
      have := hops.order
      rw [← hmap] at this
      exact List.pairwise_map.mp this
    refine List.pairwise_map.mpr (ho.imp ?_)
    intro a b hab ⟨n, v, hr, hnone⟩
    apply hab
    obtain ⟨more, hmore⟩ := sevs_prefix (E := E) (st := st) evs n
    have hsys' := C56_server_run (E := E) (S := S) (st := st) (evs.take n)
    have hin' : ∀ j : Nat, (World.run E S st (evs.take n)).sys.inbox[j]? = (received (World.run E S st (evs.take n)).sevs)[j]? := by
      intro j; rw [hsys', inbox_run]
    have hrec : received (World.run E S st evs).sevs = received (World.run E S st (evs.take n)).sevs ++ received more := by
      rw [← hmore]; simp [received]
    refine ⟨_, more, hmore.symm, ?_, ?_⟩
    · -- the request of `b` was finished
      obtain ⟨i, r, b1, b2⟩ := hreq b
      have hq : (World.run E S st (evs.take n)).request (F b).conn (F b).num = some (i, r) := by
        cases hq : (World.run E S st (evs.take n)).request (F b).conn (F b).num with
        | some p => rw [← request_prefix evs n hq]; exact b2
        | none =>
          exfalso
          unfold World.request at hq
          unfold World.result at hr
          cases hx : (World.run E S st (evs.take n)).conns[(F b).conn]? with
          | none => rw [hx] at hr; cases hr
          | some x =>
            rw [hx] at hq hr
            cases ha : x.asked[(F b).num]? with
            | none => simp [ha] at hr
            | some y => simp [ha] at hq
      obtain ⟨-, d, hd, hdc, hdm, -⟩ := C56_result_is_own L (evs.take n) _ _ i r v (hnf n _) (freshIds_prefix evs n (hfr _)) hq hr
      have hids : IdInv (World.run E S st (evs.take n)).sys := by rw [hsys']; exact idInv_run st _
      have h1 := (hids.done d hd).1
      rw [hin', hdc, hdm] at h1
      have h2 : (received (World.run E S st evs).sevs)[d.id]? = some ((F b).conn, .req i r) := by
        rw [hrec, List.getElem?_append_left (List.getElem?_eq_some_iff.mp h1).1]; exact h1
      refine ⟨d, by rw [← hsys']; exact hd, one _ _ _ _ _ h2 b1 rfl⟩
    · -- the request of `a` had not been received
      apply Nat.le_of_not_lt
      intro hlt
      obtain ⟨i, r, a1, a2⟩ := hreq a
      rw [hrec, List.getElem?_append_left hlt] at a1
      obtain ⟨k, id, q, h1, h2⟩ := C56_only_what_was_asked L (evs.take n) _ _ _ (hnf n _) (by rw [hin']; exact a1)
      cases h2
      have := request_unique (hfr _) (request_prefix evs n h1) a2
      rw [this, hnone] at h1
      cases h1
  · intro c k id q call v hq hcall hf hr
    obtain ⟨d, hd, hdc, hdm, hdo⟩ := hfin c k id q v hq hr
    have hd' := hd
    rw [hsys] at hd'
    have hcount : Counted d := by
      refine ⟨⟨id, q, call, hdm, by rw [hdc]; exact hcall⟩, ?_, Or.inr (by rw [hdo]; intro h; cases h)⟩
      obtain ⟨-, -, -, hsp, -⟩ := (sysInv_run hst _).done d hd'
      rw [hdm, hdo] at hsp
      exact success_no_fault hsp (by rw [hdc]; exact hcall) hf
    obtain ⟨op, hop, hid⟩ := hops.all d hd' hcount
    have h1 := hdone d hd
    obtain ⟨i, r, a1, a2⟩ := hreq ⟨op, hop⟩
    rw [← hid, a1] at h1
    injection h1 with h1
    have h2 := congrArg Prod.fst h1
    have h3 := congrArg Prod.snd h1
    simp only at h2 h3
    rw [hdm] at h3
    cases h3
    rw [hdc] at h2
    refine ⟨F ⟨op, hop⟩, List.mem_map.mpr ⟨⟨op, hop⟩, List.mem_attach .., rfl⟩, h2, ?_⟩
    rw [h2] at a2
    exact request_unique (hfr c) a2 hq
  · intro o ho
    obtain ⟨op, -, rfl⟩ := List.mem_map.mp ho
    obtain ⟨i, r, a1, a2⟩ := hreq op
    obtain ⟨c, i', r', b1, b2, -, b4, -⟩ := hops.real op.1 op.2
    rw [a1] at b1
    injection b1 with b1
    injection b1 with b0 b1
    cases b1
    subst b0
    refine ⟨i, r, a2, by rw [(hF op).1]; exact b2, ?_⟩
    intro v hr
    obtain ⟨d, hd, hdc, hdm, hdo⟩ := hfin _ _ i r v a2 hr
    have h1 := hdone d hd
    rw [hdc, hdm] at h1
    have hid := one _ _ _ _ _ h1 a1 rfl
    rw [hsys] at hd
    rw [(hF op).2.2.1, b4 d hd hid, hdo]
  · intro o ho
    obtain ⟨op, -, rfl⟩ := List.mem_map.mp ho
    obtain ⟨c, i', r', -, -, ⟨b1, b2⟩, -⟩ := hops.real op.1 op.2
    rw [(hF op).2.1]
    refine ⟨b1, fun hfb => ?_⟩
    cases hl : op.1.luck.fallback with
    | none => rfl
    | some sig =>
      obtain ⟨pk, pw, data, -, h⟩ := b2 sig hl
      simp only [histOf, List.mem_map, List.mem_filter] at h
      obtain ⟨p, ⟨h1, h2⟩, h3⟩ := h
      have : p = (op.1.id, Ev.fell pk data (.ok sig)) := Prod.ext (by simpa using h2) h3
      rw [this] at h1
      exact absurd h1 (C15_no_fallback_configured hst _ hfb _ _ _ _)

end Lair
