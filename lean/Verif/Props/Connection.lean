import Verif.ClientLemmas

/-
C25 (handshake), C29 (matching responses to requests), C30 (passphrase only to the verified server).
-/
namespace Lair

/-! ### C25 -/

variable {S : SStream} {K : Kx} {C : Crypto}

/-- C25. Whatever keys and random values the two sides use, if the server holds the secret key of the public key the client
    expects, then the handshake succeeds on both sides - also if more bytes follow at once - and: each side's send key is
    the other's receive key, the stream states of both directions agree, the context keys of both directions agree, and the
    passphrase the client encrypts is decrypted by the server to its hash. -/
theorem C25_handshake_agrees (L : C.Lawful) (LK : K.Lawful C) (srvPk srvSk : B 32) (hs : C.IsXPair srvPk srvSk)
    (cr : ClientRand) (hc : C.IsXPair cr.cboxPk cr.cboxSk) (sr : ServerRand) (more more' : Bytes) :
    ∃ (reply : Bytes) (srv cli : Session S),
      serverAccept S K srvPk srvSk sr (clientInit K srvPk cr ++ cr.header.val ++ more) = .ok (reply, srv) ∧
      clientFinish S K cr (reply ++ more') = .ok (cr.header.val, cli) ∧
      cli.tx = srv.rx ∧ cli.rx = srv.tx ∧ cli.enc = srv.dec ∧ srv.enc = cli.dec ∧
      clientEncKey C cli = serverDecKey C srv ∧ serverEncKey C srv = clientDecKey C cli ∧
      ∀ hdr pass, (encryptPassphrase C L (clientEncKey C cli) hdr pass).decrypt (m := 64) C (serverDecKey C srv) =
        some (C.blake2b64 pass) := by
  obtain ⟨k, k', h1, h2⟩ := LK.agree sr.kxSk cr.kxSk
  have hil : (clientInit K srvPk cr).length = 112 := by
    simp [clientInit, LK.seal_len, cr.cboxPk.len, (K.kxPk cr.kxSk).len]
  have hopen : K.sealOpen (clientInit K srvPk cr) srvPk srvSk = some (cr.cboxPk.val ++ (K.kxPk cr.kxSk).val) :=
    LK.seal_open _ _ _ _ hs
  have hrl : (K.sealMsg sr.sealRand (K.kxPk sr.kxSk).val cr.cboxPk).length = 80 := by
    simp [LK.seal_len, (K.kxPk sr.kxSk).len]
  have ropen := LK.seal_open sr.sealRand (K.kxPk sr.kxSk).val _ _ hc
  have htake : ((cr.cboxPk.val ++ (K.kxPk cr.kxSk).val).take 32) = cr.cboxPk.val := by
    rw [List.take_append_of_le_length (by simp [cr.cboxPk.len])]; exact List.take_of_length_le (by simp [cr.cboxPk.len])
  have hdrop : ((cr.cboxPk.val ++ (K.kxPk cr.kxSk).val).drop 32) = (K.kxPk cr.kxSk).val := by
    rw [List.drop_append_of_le_length (by simp [cr.cboxPk.len]), List.drop_of_length_le (by simp [cr.cboxPk.len])]; rfl
  have htk : ∀ (a b : Bytes) n, a.length = n → (a ++ b).take n = a := by
    intro a b n h; subst h; simp
  have hdp : ∀ (a b : Bytes) n, a.length = n → (a ++ b).drop n = b := by
    intro a b n h; subst h; simp
  have hof : ∀ {n} (b : B n), B.ofBytes? n b.val = some b := by
    intro n b; simp [B.ofBytes?, b.len]
  refine ⟨K.sealMsg sr.sealRand (K.kxPk sr.kxSk).val cr.cboxPk ++ sr.header.val,
    initSs S k' k sr.header cr.header, initSs S k k' cr.header sr.header, ?_, ?_, rfl, rfl, rfl, rfl, rfl, rfl, ?_⟩
  · rw [List.append_assoc]
    have hlen : ¬ (clientInit K srvPk cr ++ (cr.header.val ++ more)).length < 112 := by simp; omega
    have hkeys : serverKeysOf K srvPk srvSk sr (clientInit K srvPk cr ++ (cr.header.val ++ more)) =
        .ok (K.sealMsg sr.sealRand (K.kxPk sr.kxSk).val cr.cboxPk, k, k') := by
      simp only [serverKeysOf, if_neg hlen, htk _ _ _ hil, hopen, htake, hdrop, hof, h1]
    simp only [serverAccept, hkeys, hdp _ _ _ hil, htk _ _ _ cr.header.len, hof]
  · rw [List.append_assoc]
    have hlen : ¬ (K.sealMsg sr.sealRand (K.kxPk sr.kxSk).val cr.cboxPk ++ (sr.header.val ++ more')).length < 80 := by
      simp; omega
    simp only [clientFinish, if_neg hlen, htk _ _ _ hrl, ropen, hof, h2, hdp _ _ _ hrl,
      htk _ _ _ sr.header.len]
  · intro hdr pass
    exact SecretSized.decrypt_encrypt C L _ _ _

/-- C25. The client completes the handshake only on a reply that opens with the secret key it made up for this connection -
    the public part of which it has sent only in the message sealed for the expected server key - and the session keys are
    the ones computed from what it contains. -/
theorem C25_client_needs_sealed_reply {cr : ClientRand} {input : Bytes} {out : Bytes} {cli : Session S}
    (h : clientFinish S K cr input = .ok (out, cli)) :
    ∃ othKx : B 32, K.sealOpen (input.take 80) cr.cboxPk cr.cboxSk = some othKx.val ∧
      K.serverKeys (K.kxPk cr.kxSk) cr.kxSk othKx = some (cli.rx, cli.tx) := by
  unfold clientFinish at h
  split at h
  · cases h
  · split at h
    · cases h
    · rename_i pk hp
      split at h
      · cases h
      · rename_i oth ho
        split at h
        · cases h
        · rename_i rx tx hk
          split at h
          · cases h
          · cases h
            refine ⟨oth, ?_, hk⟩
            rw [hp]
            unfold B.ofBytes? at ho
            split at ho
            · cases ho; rfl
            · cases ho

/-- C25. The server completes the handshake only on an initiator that opens with its secret key, and everything it then
    writes is its header and a message sealed for the ephemeral key found inside. -/
theorem C25_server_needs_sealed_initiator {srvPk srvSk : B 32} {sr : ServerRand} {input out : Bytes} {srv : Session S}
    (h : serverAccept S K srvPk srvSk sr input = .ok (out, srv)) :
    ∃ cbox kx : B 32, K.sealOpen (input.take 112) srvPk srvSk = some (cbox.val ++ kx.val) ∧
      out = K.sealMsg sr.sealRand (K.kxPk sr.kxSk).val cbox ++ sr.header.val ∧
      K.clientKeys (K.kxPk sr.kxSk) sr.kxSk kx = some (srv.rx, srv.tx) := by
  unfold serverAccept at h
  split at h
  · cases h
  · rename_i reply rx tx hk
    split at h
    · cases h
    · cases h
      unfold serverKeysOf at hk
      split at hk
      · cases hk
      · split at hk
        · cases hk
        · rename_i msg hm
          split at hk
          · rename_i oc ok h1 h2
            split at hk
            · cases hk
            · rename_i rx' tx' hkk
              cases hk
              refine ⟨oc, ok, ?_, rfl, hkk⟩
              rw [hm]
              have e : ∀ {n b} {x : B n}, B.ofBytes? n b = some x → x.val = b := by
                intro n b x hx
                unfold B.ofBytes? at hx
                split at hx
                · cases hx; rfl
                · cases hx
              rw [e h1, e h2, List.take_append_drop]
          · cases hk

/-! ### C30 -/

/-- The server's answer to hello identified it: the announced key is the expected one and the version is accepted. -/
def Verified (expected : B 32) (exact : Bool) (ver : String) (answer : Res Msg) : Prop :=
  ∃ id name v, answer = .ok (.res id (.hello name v expected)) ∧ (exact = true → v = ver)

/-- C30. Against every server (`srv` may answer anything, depending on everything it has seen): the first request is hello;
    an unlock request - the only one containing the passphrase - is made only if the answer to hello identified the
    server; otherwise hello is all that was sent and connecting fails; and connecting succeeds only if the server confirmed
    the unlock. -/
theorem C30_unlock_only_to_verified_server (L : C.Lawful) (expected : B 32) (exact : Bool) (ver : String) (encKey : B 32)
    (hdr : B 24) (pass : Bytes) (srv : List Req → Res Msg) (sent : List Req) (res : Res Unit)
    (hrun : (connectProg C L expected exact ver encKey hdr pass).run srv [] = (sent, res)) :
    (Verified expected exact ver (srv [.hello]) ∧ sent = [.hello, .unlock (encryptPassphrase C L encKey hdr pass)] ∧
        (res = .ok () ↔ ∃ id, srv sent = .ok (.res id .unlock)) ∨
      ¬ Verified expected exact ver (srv [.hello]) ∧ sent = [.hello] ∧ ∃ e, res = .error e) := by
  simp only [connectProg, CProg.run, List.nil_append] at hrun
  have key : ∀ (x : Res Resp), x = typedResult .hello (srv [.hello]) → ((match x with
        | .error e => CProg.ret (.error e)
        | .ok (.hello _ version pk) =>
          if pk ≠ expected then .ret (.error "ServerPubKeyMismatch")
          else if (exact && decide (version ≠ ver)) = true then .ret (.error "Invalid lair server version")
          else
            .ask (.unlock (encryptPassphrase C L encKey hdr pass)) fun res =>
              match res with
              | .error e => .ret (.error e)
              | .ok _ => .ret (.ok ())
        | .ok _ => .ret (.error "InvalidType") : CProg Unit).run srv [.hello]) = (sent, res) →
      (Verified expected exact ver (srv [.hello]) ∧ sent = [.hello, .unlock (encryptPassphrase C L encKey hdr pass)] ∧
        (res = .ok () ↔ ∃ id, srv sent = .ok (.res id .unlock)) ∨
      ¬ Verified expected exact ver (srv [.hello]) ∧ sent = [.hello] ∧ ∃ e, res = .error e) := by
    intro x hx hrun
    have hv : ∀ id name v, srv [.hello] = .ok (.res id (.hello name v expected)) → x = .ok (.hello name v expected) := by
      intro id name v h
      rw [hx, h]; rfl
    split at hrun
    · simp only [CProg.run] at hrun
      cases hrun
      refine Or.inr ⟨?_, rfl, _, rfl⟩
      rintro ⟨id, name, v, h, -⟩
      cases hv _ _ _ h
    · rename_i name v pk
      have hsrv : ∃ id, srv [.hello] = .ok (.res id (.hello name v pk)) := by
        cases hr : srv [.hello] with
        | error e => rw [hr] at hx; cases hx
        | ok m =>
          rw [hr] at hx
          cases m with
          | req i r => cases hx
          | res i r =>
            cases r <;> simp [typedResult, accepts] at hx
            obtain ⟨rfl, rfl, rfl⟩ := hx
            exact ⟨i, rfl⟩
      obtain ⟨id, hsrv⟩ := hsrv
      by_cases hpk : pk = expected
      case neg =>
        rw [if_pos hpk] at hrun
        simp only [CProg.run] at hrun
        cases hrun
        refine Or.inr ⟨?_, rfl, _, rfl⟩
        rintro ⟨id', name', v', h, -⟩
        rw [hsrv] at h; cases h; exact hpk rfl
      case pos =>
        subst hpk
        rw [if_neg (by simp)] at hrun
        by_cases hver : (exact && decide (v ≠ ver)) = true
        · rw [if_pos hver] at hrun
          simp only [CProg.run] at hrun
          cases hrun
          refine Or.inr ⟨?_, rfl, _, rfl⟩
          rintro ⟨id', name', v', h, hv'⟩
          rw [hsrv] at h; cases h
          simp at hver
          exact hver.2 (hv' hver.1)
        · rw [if_neg hver] at hrun
          refine Or.inl ⟨⟨id, name, v, hsrv, ?_⟩, ?_⟩
          · intro he
            simp [he] at hver; exact hver
          · simp only [CProg.run] at hrun
            have hs : sent = [.hello, .unlock (encryptPassphrase C L encKey hdr pass)] := by
              split at hrun <;> (simp only [CProg.run] at hrun; cases hrun; rfl)
            refine ⟨hs, ?_⟩
            have : ([Req.hello] ++ [.unlock (encryptPassphrase C L encKey hdr pass)]) = sent := hs.symm
            rw [this] at hrun
            cases hr : srv sent with
            | error e => simp [hr, typedResult, CProg.run] at hrun; simp [← hrun]
            | ok m =>
              cases m with
              | req i r => simp [hr, typedResult, CProg.run] at hrun; simp [← hrun]
              | res i r => cases r <;> simp [hr, typedResult, accepts, CProg.run] at hrun <;> simp [← hrun]
    · simp only [CProg.run] at hrun
      cases hrun
      refine Or.inr ⟨?_, rfl, _, rfl⟩
      rintro ⟨id, name, v, h, -⟩
      cases hv _ _ _ h
      rename_i hno
      exact hno _ _ _ rfl
  exact key _ rfl hrun

/-- A response is handed to the caller exactly if it is of the kind that belongs to the request; an error message from the
    server and everything else is an error. -/
theorem C30_typed_result (r : Req) (a : Res Msg) (x : Resp) :
    typedResult r a = .ok x ↔ Answers r x ∧ ∃ id, a = .ok (.res id x) := by
  cases a with
  | error e => simp [typedResult]
  | ok m =>
    cases m with
    | req i q => simp [typedResult]
    | res i y =>
      constructor
      · intro h
        cases r <;> cases y <;> simp [typedResult, accepts] at h <;> subst h <;> exact ⟨trivial, i, rfl⟩
      · rintro ⟨ha, id, h⟩
        cases h
        cases r <;> cases x <;> first | rfl | (simp [Answers] at ha)

/-! ### C29

A run of the client is `CliSt.run .init evs`: any list of events - requests being made (`start`), their sends completing,
messages arriving, requests being polled, timing out, being dropped by the caller, the connection ending. Request number
`k` is the `k`-th `start`. -/

theorem change_phase {s : CliSt} {e : CEv} {k : Nat} {q q' : CReq} (h : Change s e k q q') (hn : ¬ q.active) :
    q'.phase = q.phase ∧ q'.id = q.id := by
  cases h with
  | same => exact ⟨rfl, rfl⟩
  | dropped => exact ⟨rfl, rfl⟩
  | sent hp => exact absurd (Or.inl hp) hn
  | got => exact ⟨rfl, rfl⟩
  | ended _ _ ha => exact absurd ha hn

/-- C29. A request completes at most once: once it has a result (or was dropped by its caller), that never changes. -/
theorem C29_result_final {evs : List CEv} {k : Nat} {q : CReq} (h : (CliSt.init.run evs).reqs[k]? = some q)
    (hn : q.phase ≠ .sending ∧ q.phase ≠ .waiting) (more : List CEv) :
    ∃ q', (CliSt.init.run (evs ++ more)).reqs[k]? = some q' ∧ q'.phase = q.phase ∧ q'.id = q.id := by
  rw [CliSt.run_append]
  have hi := CInv.init.run evs
  generalize CliSt.init.run evs = s at h hi
  induction more generalizing s q with
  | nil => exact ⟨q, h, rfl, rfl⟩
  | cons e es ih =>
    obtain ⟨q', h1, h2⟩ := step_change hi e h
    have h3 := change_phase h2 (by rintro (ha | ha); exact hn.1 ha; exact hn.2 ha)
    obtain ⟨q2, h4, h5, h6⟩ := ih (by rw [h3.1]; exact hn) (s.step e) h1 (hi.step e)
    exact ⟨q2, h4, h5.trans h3.1, h6.trans h3.2⟩

theorem full_before {s : CliSt} (hi : CInv s) {e : CEv} {k : Nat} {q' : CReq} {m : Msg}
    (h : (s.step e).reqs[k]? = some q') (hf : q'.slot = .full m) :
    (∃ q, s.reqs[k]? = some q ∧ q.slot = .full m) ∨ (e = .arrive m ∧ s.pending.get m.id = some k) := by
  cases hk : s.reqs[k]? with
  | some q =>
    obtain ⟨q2, h1, h2⟩ := step_change hi e hk
    rw [h] at h1; cases h1
    cases h2 with
    | same => exact Or.inl ⟨_, rfl, hf⟩
    | dropped => simp at hf
    | sent => exact Or.inl ⟨q, rfl, hf⟩
    | got m' he hg => simp at hf; subst hf; exact Or.inr ⟨he, hg⟩
    | ended p sl _ _ _ _ _ _ _ _ _ hsl =>
      simp at hf
      rcases hsl with hsl | ⟨-, hsl⟩
      · exact Or.inl ⟨q, rfl, hsl.symm.trans hf⟩
      · rw [hsl] at hf; cases hf
  | none =>
    exfalso
    have hids := step_ids s e
    have hl : s.reqs.length ≤ k := List.getElem?_eq_none_iff.mp hk
    have hk' := (List.getElem?_eq_some_iff.mp h).1
    have hlen := congrArg List.length hids
    simp at hlen
    cases e with
    | start id =>
      have h' : ((s.remove id).reqs ++ [⟨id, .sending, .empty⟩])[k]? = some q' := h
      rw [List.getElem?_append_right (by rw [remove_length]; exact hl), remove_length] at h'
      have : q' = ⟨id, .sending, .empty⟩ := by
        have hk0 : k - s.reqs.length = 0 := by
          have := (List.getElem?_eq_some_iff.mp h').1
          simp at this; omega
        rw [hk0] at h'; simpa using h'.symm
      rw [this] at hf; cases hf
    | _ => simp [starts] at hlen; omega

/-- Where each answer came from. -/
structure Origin (pre : List CEv) (s : CliSt) (pos : Nat → Nat) : Prop where
  full : ∀ (k : Nat) (q : CReq) (m : Msg), s.reqs[k]? = some q → q.slot = .full m →
    pre[pos k]? = some (.arrive m) ∧ k < (starts (pre.take (pos k))).length
  inj : ∀ (k k' : Nat) (q q' : CReq) (m m' : Msg), s.reqs[k]? = some q → q.slot = .full m → s.reqs[k']? = some q' → q'.slot = .full m' →
    pos k = pos k' → k = k'

theorem origin_run (evs pre : List CEv) (hex : ∃ pos, Origin pre (CliSt.init.run pre) pos) :
    ∃ pos, Origin (pre ++ evs) (CliSt.init.run (pre ++ evs)) pos := by
  induction evs generalizing pre with
  | nil => simpa using hex
  | cons e es ih =>
    have : pre ++ e :: es = (pre ++ [e]) ++ es := by simp
    rw [this]
    apply ih
    obtain ⟨pos, ho⟩ := hex
    have hi := CInv.init.run pre
    have hlen : (CliSt.init.run pre).reqs.length = (starts pre).length := by
      have := congrArg List.length (run_ids pre .init)
      simpa [CliSt.init] using this
    rw [CliSt.run_append]
    generalize hs : CliSt.init.run pre = s at *
    show ∃ pos, Origin (pre ++ [e]) (s.step e) pos
    have hold : ∀ (k : Nat) (q : CReq) (m : Msg), s.reqs[k]? = some q → q.slot = .full m →
        pos k < pre.length ∧ (pre ++ [e])[pos k]? = some (.arrive m) ∧ k < (starts ((pre ++ [e]).take (pos k))).length := by
      intro k q m h1 h2
      obtain ⟨h3, h4⟩ := ho.full k q m h1 h2
      have hlt := (List.getElem?_eq_some_iff.mp h3).1
      refine ⟨hlt, ?_, ?_⟩
      · rw [List.getElem?_append_left hlt]; exact h3
      · rw [List.take_append_of_le_length (by omega)]; exact h4
    by_cases hd : ∃ m k, e = .arrive m ∧ s.pending.get m.id = some k
    · obtain ⟨m, k, rfl, hg⟩ := hd
      obtain ⟨qk, hk1, -, -, hk4⟩ := hi.pend _ _ hg
      have hklt := (List.getElem?_eq_some_iff.mp hk1).1
      refine ⟨fun j => if j = k then pre.length else pos j, ?_, ?_⟩
      · intro k' q' m' h hf
        by_cases hkk : k' = k
        · subst hkk
          simp only [if_true]
          rcases full_before hi h hf with ⟨q, h1, h2⟩ | ⟨h1, h2⟩
          · rw [hk1] at h1; cases h1; rw [hk4] at h2; cases h2
          · cases h1
            refine ⟨by simp, ?_⟩
            rw [List.take_left' rfl, ← hlen]; exact hklt
        · simp only [hkk, if_false]
          rcases full_before hi h hf with ⟨q, h1, h2⟩ | ⟨h1, h2⟩
          · exact (hold _ _ _ h1 h2).2
          · cases h1; rw [hg] at h2; exact absurd (Option.some.inj h2).symm hkk
      · intro k1 k2 q1 q2 m1 m2 h1 f1 h2 f2 he
        have aux : ∀ {j : Nat} {q : CReq} {m' : Msg}, (s.step (.arrive m)).reqs[j]? = some q → q.slot = .full m' → j ≠ k →
            ∃ q0 : CReq, s.reqs[j]? = some q0 ∧ q0.slot = .full m' := by
          intro j q m' h f hj
          rcases full_before hi h f with h | ⟨h, h'⟩
          · exact h
          · cases h; rw [hg] at h'; exact absurd (Option.some.inj h').symm hj
        by_cases e1 : k1 = k <;> by_cases e2 : k2 = k
        · rw [e1, e2]
        · simp only [e1, e2, if_true, if_false] at he
          obtain ⟨q0, a, b⟩ := aux h2 f2 e2
          have := (hold _ _ _ a b).1
          omega
        · simp only [e1, e2, if_true, if_false] at he
          obtain ⟨q0, a, b⟩ := aux h1 f1 e1
          have := (hold _ _ _ a b).1
          omega
        · simp only [e1, e2, if_false] at he
          obtain ⟨q0, a, b⟩ := aux h1 f1 e1
          obtain ⟨q0', a', b'⟩ := aux h2 f2 e2
          exact ho.inj _ _ _ _ _ _ a b a' b' he
    · have aux : ∀ {j : Nat} {q : CReq} {m' : Msg}, (s.step e).reqs[j]? = some q → q.slot = .full m' →
          ∃ q0 : CReq, s.reqs[j]? = some q0 ∧ q0.slot = .full m' := by
        intro j q m' h f
        rcases full_before hi h f with h | ⟨h, h'⟩
        · exact h
        · exact absurd ⟨_, _, h, h'⟩ hd
      refine ⟨pos, ?_, ?_⟩
      · intro k q m h f
        obtain ⟨q0, a, b⟩ := aux h f
        exact (hold _ _ _ a b).2
      · intro k1 k2 q1 q2 m1 m2 h1 f1 h2 f2 he
        obtain ⟨q0, a, b⟩ := aux h1 f1
        obtain ⟨q0', a', b'⟩ := aux h2 f2
        exact ho.inj _ _ _ _ _ _ a b a' b' he

/-- C29. Every response a request completes with bears the request's message id and is a message that arrived from the
    server after the request was made; and no arriving message is given to two requests. (`pos k` is the event at which the
    response of request `k` arrived.) -/
theorem C29_response_is_own (evs : List CEv) :
    ∃ pos : Nat → Nat,
      (∀ (k : Nat) (q : CReq) (m : Msg), (CliSt.init.run evs).reqs[k]? = some q → q.phase = .done (.ok m) →
        m.id = q.id ∧ (starts evs)[k]? = some q.id ∧ evs[pos k]? = some (.arrive m) ∧
        k < (starts (evs.take (pos k))).length) ∧
      (∀ (k k' : Nat) (q q' : CReq) (m m' : Msg), (CliSt.init.run evs).reqs[k]? = some q → q.phase = .done (.ok m) →
        (CliSt.init.run evs).reqs[k']? = some q' → q'.phase = .done (.ok m') → pos k = pos k' → k = k') := by
  obtain ⟨pos, ho⟩ := origin_run evs [] ⟨fun _ => 0, by intro k q m h; simp [CliSt.run, CliSt.init] at h,
    by intro k k' q q' m m' h; simp [CliSt.run, CliSt.init] at h⟩
  simp only [List.nil_append] at ho
  have hi := CInv.init.run evs
  refine ⟨pos, ?_, ?_⟩
  · intro k q m h hp
    have hf := hi.res _ _ _ h hp
    refine ⟨hi.ids _ _ _ h hf, ?_, ho.full _ _ _ h hf⟩
    have := run_ids evs .init
    simp only [CliSt.init, List.map_nil, List.nil_append] at this
    rw [← this, List.getElem?_map]
    exact congrArg (Option.map CReq.id) h
  · intro k k' q q' m m' h hp h' hp'
    exact ho.inj _ _ _ _ _ _ h (hi.res _ _ _ h hp) h' (hi.res _ _ _ h' hp')

/-- C29. The table never holds an entry of a request that has completed, was dropped, or has got its response. -/
theorem C29_no_stale_entry (evs : List CEv) (id : String) (k : Nat) (h : (CliSt.init.run evs).pending.get id = some k) :
    ∃ q, (CliSt.init.run evs).reqs[k]? = some q ∧ q.id = id ∧ (q.phase = .sending ∨ q.phase = .waiting) ∧
      ∀ m, q.slot ≠ .full m := by
  obtain ⟨q, h1, h2, h3, h4⟩ := (CInv.init.run evs).pend _ _ h
  exact ⟨q, h1, h2, h3, by simp [h4]⟩

/-- C29. A message that no request is waiting for (unknown id, or a late response) changes nothing. -/
theorem C29_unknown_discarded (evs : List CEv) (m : Msg)
    (h : ∀ (k : Nat) (q : CReq), (CliSt.init.run evs).reqs[k]? = some q → q.id = m.id → ¬ (q.phase = .sending ∨ q.phase = .waiting)) :
    CliSt.init.run (evs ++ [.arrive m]) = CliSt.init.run evs := by
  rw [CliSt.run_append]
  have hi := CInv.init.run evs
  generalize CliSt.init.run evs = s at *
  show s.step (.arrive m) = s
  simp only [CliSt.step]
  split
  · rfl
  · split
    · rfl
    · rename_i k hg
      obtain ⟨q, h1, h2, h3, -⟩ := hi.pend _ _ hg
      exact absurd h3 (h k q h1 h2)

theorem wake_done {s : CliSt} {k : Nat} {q : CReq} (hk : s.reqs[k]? = some q) {r : Res Msg}
    (hr : (∃ m, q.slot = .full m ∧ r = .ok m) ∨ (q.slot = .dropped ∧ r = .error "ConnectionAborted"))
    (hq : q.phase = .waiting ∨ q.phase = .done r) :
    ∃ q', (s.step (.wake k)).reqs[k]? = some q' ∧ q'.phase = .done r := by
  obtain ⟨id, ph, sl⟩ := q
  simp only at hr hq
  simp only [CliSt.step, hk]
  rcases hq with rfl | rfl
  · rcases hr with ⟨m, rfl, rfl⟩ | ⟨rfl, rfl⟩
    · rw [finish_reqs, hk]; refine ⟨_, rfl, ?_⟩; simp only [if_true]; split <;> simp
    · rw [finish_reqs, hk]; refine ⟨_, rfl, ?_⟩; simp only [if_true]; split <;> simp
  · exact ⟨_, hk, rfl⟩

theorem settled_run {s : CliSt} (hi : CInv s) {k : Nat} {q : CReq} (hk : s.reqs[k]? = some q) {r : Res Msg}
    (hr : (∃ m, q.slot = .full m ∧ r = .ok m) ∨ (q.slot = .dropped ∧ r = .error "ConnectionAborted"))
    (hq : q.phase = .waiting ∨ q.phase = .done r) (evs : List CEv) (hc : CEv.cancel k ∉ evs) :
    ∃ q', (s.run evs).reqs[k]? = some q' ∧
      ((∃ m, q'.slot = .full m ∧ r = .ok m) ∨ (q'.slot = .dropped ∧ r = .error "ConnectionAborted")) ∧
      (q'.phase = .waiting ∨ q'.phase = .done r) := by
  induction evs generalizing s q with
  | nil => exact ⟨q, hk, hr, hq⟩
  | cons e es ih =>
    obtain ⟨q', h1, h2⟩ := step_change hi e hk
    have hne : e ≠ .cancel k := by rintro rfl; simp at hc
    have hes : CEv.cancel k ∉ es := fun h => hc (List.mem_cons_of_mem _ h)
    have hn : q.slot ≠ .empty := by rcases hr with ⟨m, h, -⟩ | ⟨h, -⟩ <;> rw [h] <;> simp
    cases h2 with
    | same => exact ih (hi.step e) h1 hr hq hes
    | dropped h => exact absurd h hn
    | sent h =>
      exfalso
      rcases hq with h' | h' <;> rw [h] at h' <;> cases h'
    | got _ _ _ h => exact absurd h hn
    | ended p sl ha _ _ _ _ _ _ hdr hfu hsl =>
      have hw : q.phase = .waiting := by
        rcases hq with h' | h'
        · exact h'
        · rcases ha with ha | ha <;> rw [h'] at ha <;> cases ha
      have hsl' : sl = q.slot := by
        rcases hsl with h | ⟨h, -⟩
        · exact h
        · exact absurd h hn
      subst hsl'
      refine ih (hi.step e) h1 hr (Or.inr ?_) hes
      rcases hr with ⟨m, h, rfl⟩ | ⟨h, rfl⟩
      · exact hfu hw hne m h
      · exact hdr hw hne h

/-- C29. If the connection is up, a request is waiting for its response and a message with its id arrives, then - whatever
    happens in between, as long as the caller does not drop the request - it completes with that message when polled. -/
theorem C29_answered {evs : List CEv} {k : Nat} {q : CReq} (h : (CliSt.init.run evs).reqs[k]? = some q)
    (hw : q.phase = .waiting) (hs : q.slot = .empty) (hup : CEv.connEnd ∉ evs) (m : Msg) (hm : m.id = q.id)
    (between : List CEv) (hc : CEv.cancel k ∉ between) :
    ∃ q', (CliSt.init.run (evs ++ .arrive m :: between ++ [.wake k])).reqs[k]? = some q' ∧ q'.phase = .done (.ok m) := by
  have hi := CInv.init.run evs
  have hended : (CliSt.init.run evs).ended = false := by
    have : ∀ (evs : List CEv) (s : CliSt), s.ended = false → CEv.connEnd ∉ evs → (s.run evs).ended = false := by
      intro evs
      induction evs with
      | nil => intro s h _; exact h
      | cons e es ih =>
        intro s h hn
        refine ih (s.step e) ?_ (fun h => hn (List.mem_cons_of_mem _ h))
        cases e with
        | connEnd => simp at hn
        | start id => simp [CliSt.step, remove_ended, h]
        | sent k r => simp only [CliSt.step]; split; (split; exact h; rw [finish_ended]; exact h); exact h
        | arrive m => simp only [CliSt.step]; split; exact h; (split; exact h; exact h)
        | wake k => simp only [CliSt.step]; split <;> simp [finish_ended, h]
        | timeout k => simp only [CliSt.step]; split <;> simp [finish_ended, h]
        | cancel k => simp only [CliSt.step]; split <;> simp [finish_ended, h]
    exact this evs .init rfl hup
  rw [List.append_assoc, CliSt.run_append]
  generalize CliSt.init.run evs = s at *
  have hg := hi.wait _ _ h (Or.inr hw) hs
  have hstep : ∃ q1, (s.step (.arrive m)).reqs[k]? = some q1 ∧ q1.slot = .full m ∧ q1.phase = .waiting := by
    simp only [CliSt.step, hended, hm, hg]
    refine ⟨q.deliver m, ?_, ?_, ?_⟩
    · simp [h]
    · unfold CReq.deliver; rw [hs]
    · rw [CReq.deliver_phase]; exact hw
  obtain ⟨q1, h1, h2, h3⟩ := hstep
  show ∃ q', ((s.step (.arrive m)).run (between ++ [.wake k])).reqs[k]? = some q' ∧ _
  rw [CliSt.run_append]
  obtain ⟨q2, h4, h5, h6⟩ := settled_run (r := .ok m) (hi.step _) h1 (Or.inl ⟨m, h2, rfl⟩) (Or.inl h3) between hc
  exact wake_done h4 h5 h6

/-- C29. When the connection ends, every waiting request fails with `ConnectionAborted` when polled - unless its response
    had already arrived, which it then gets. -/
theorem C29_connection_end {evs : List CEv} {k : Nat} {q : CReq} (h : (CliSt.init.run evs).reqs[k]? = some q)
    (hw : q.phase = .waiting) (between : List CEv) (hc : CEv.cancel k ∉ between) :
    ∃ q', (CliSt.init.run (evs ++ .connEnd :: between ++ [.wake k])).reqs[k]? = some q' ∧
      (q'.phase = .done (.error "ConnectionAborted") ∨ ∃ m, m.id = q.id ∧ q'.phase = .done (.ok m)) := by
  have hi := CInv.init.run evs
  rw [List.append_assoc, CliSt.run_append]
  generalize CliSt.init.run evs = s at *
  have hi1 := hi.step .connEnd
  have hget : ∃ q1, (s.step .connEnd).reqs[k]? = some q1 ∧ q1.phase = .waiting ∧ q1.id = q.id := by
    simp only [CliSt.step, getElem?_dropAll, h, Option.map_some]
    refine ⟨_, rfl, ?_, ?_⟩
    · split
      · rw [CReq.drop_phase]; exact hw
      · exact hw
    · split
      · rw [CReq.drop_id]
      · rfl
  obtain ⟨q1, h1, hph1, hid1⟩ := hget
  have hne : q1.slot ≠ .empty := by
    intro he
    have := hi1.wait _ _ h1 (Or.inr hph1) he
    simp [CliSt.step, AMap.get] at this
  have hph : q1.phase = .waiting ∧ q1.id = q.id ∧ q1.slot ≠ .empty := ⟨hph1, hid1, hne⟩
  show ∃ q', ((s.step .connEnd).run (between ++ [.wake k])).reqs[k]? = some q' ∧ _
  rw [CliSt.run_append]
  cases hsl : q1.slot with
  | empty => exact absurd hsl hph.2.2
  | full m =>
    obtain ⟨q2, h4, h5, h6⟩ := settled_run (r := .ok m) hi1 h1 (Or.inl ⟨m, hsl, rfl⟩) (Or.inl hph.1) between hc
    obtain ⟨q3, h7, h8⟩ := wake_done h4 h5 h6
    exact ⟨q3, h7, Or.inr ⟨m, (hi1.ids _ _ _ h1 hsl).trans hph.2.1, h8⟩⟩
  | dropped =>
    obtain ⟨q2, h4, h5, h6⟩ := settled_run (r := .error "ConnectionAborted") hi1 h1 (Or.inr ⟨hsl, rfl⟩) (Or.inl hph.1)
      between hc
    obtain ⟨q3, h7, h8⟩ := wake_done h4 h5 h6
    exact ⟨q3, h7, Or.inl h8⟩

/-- C29. When its 30 seconds are over, a waiting request completes - with `TimedOut` if nothing came for it. -/
theorem C29_timeout {evs : List CEv} {k : Nat} {q : CReq} (h : (CliSt.init.run evs).reqs[k]? = some q)
    (hw : q.phase = .waiting) :
    ∃ q' r, (CliSt.init.run (evs ++ [.timeout k])).reqs[k]? = some q' ∧ q'.phase = .done r ∧
      (q.slot = .empty → r = .error "TimedOut") := by
  rw [CliSt.run_append]
  generalize CliSt.init.run evs = s at *
  show ∃ q' r, (s.step (.timeout k)).reqs[k]? = some q' ∧ _
  obtain ⟨id, ph, sl⟩ := q
  simp only at hw
  subst hw
  have aux : ∀ (sl : Slot) (r : Res Msg), s.reqs[k]? = some ⟨id, .waiting, sl⟩ →
      ∃ q', (s.finish k id (.done r)).reqs[k]? = some q' ∧ q'.phase = .done r := by
    intro sl r h
    rw [finish_reqs, h]
    refine ⟨_, rfl, ?_⟩
    simp only [if_true]
    split
    · rw [CReq.drop_phase]
    · rfl
  cases sl with
  | empty =>
    obtain ⟨q', h1, h2⟩ := aux _ (.error "TimedOut") h
    exact ⟨q', _, by simp only [CliSt.step, h]; exact h1, h2, fun _ => rfl⟩
  | full m =>
    obtain ⟨q', h1, h2⟩ := aux _ (.ok m) h
    exact ⟨q', _, by simp only [CliSt.step, h]; exact h1, h2, by simp⟩
  | dropped =>
    obtain ⟨q', h1, h2⟩ := aux _ (.error "ConnectionAborted") h
    exact ⟨q', _, by simp only [CliSt.step, h]; exact h1, h2, by simp⟩

/-- C29. If no two requests use the same message id, a request is reported as aborted only if the connection ended (or its
    own send failed that way). -/
theorem C29_aborted_only_if_connection_ended {evs : List CEv} (hd : (starts evs).Nodup) {k : Nat} {q : CReq}
    (h : (CliSt.init.run evs).reqs[k]? = some q) (hq : q.phase = .done (.error "ConnectionAborted"))
    (hs : CEv.sent k (.error "ConnectionAborted") ∉ evs) : CEv.connEnd ∈ evs := by
  have main : ∀ (evs pre : List CEv), (starts (pre ++ evs)).Nodup → CEv.sent k (.error "ConnectionAborted") ∉ pre ++ evs →
      (∀ q, (CliSt.init.run pre).reqs[k]? = some q →
        (q.active ∧ q.slot = .dropped) ∨ q.phase = .done (.error "ConnectionAborted") → CEv.connEnd ∈ pre) →
      ∀ q, (CliSt.init.run (pre ++ evs)).reqs[k]? = some q →
        (q.active ∧ q.slot = .dropped) ∨ q.phase = .done (.error "ConnectionAborted") → CEv.connEnd ∈ pre ++ evs := by
    intro evs
    induction evs with
    | nil => intro pre _ _ h; simpa using h
    | cons e es ih =>
      intro pre hnd hns hpre
      have : pre ++ e :: es = (pre ++ [e]) ++ es := by simp
      rw [this] at hnd hns ⊢
      refine ih (pre ++ [e]) hnd hns ?_
      have hi := CInv.init.run pre
      have hids := run_ids pre .init
      simp only [CliSt.init, List.map_nil, List.nil_append] at hids
      change (CliSt.run .init pre).reqs.map CReq.id = _ at hids
      have hnd1 : (starts (pre ++ [e])).Nodup := by
        rw [starts_append] at hnd; exact (List.nodup_append.mp hnd).1
      have hns1 : e ≠ .sent k (.error "ConnectionAborted") := by
        rintro rfl; simp at hns
      intro q' hq' hcond
      rw [CliSt.run_append] at hq'
      generalize CliSt.init.run pre = s at *
      change (s.step e).reqs[k]? = some q' at hq'
      cases hk : s.reqs[k]? with
      | none =>
        exfalso
        have hl : s.reqs.length ≤ k := List.getElem?_eq_none_iff.mp hk
        have hlt := (List.getElem?_eq_some_iff.mp hq').1
        have hlen := congrArg List.length (step_ids s e)
        simp at hlen
        cases e with
        | start id =>
          have h' : ((s.remove id).reqs ++ [⟨id, .sending, .empty⟩])[k]? = some q' := hq'
          rw [List.getElem?_append_right (by rw [remove_length]; exact hl), remove_length] at h'
          have : q' = ⟨id, .sending, .empty⟩ := by
            have hk0 : k - s.reqs.length = 0 := by
              have := (List.getElem?_eq_some_iff.mp h').1
              simp at this; omega
            rw [hk0] at h'; simpa using h'.symm
          rw [this] at hcond
          rcases hcond with ⟨-, h⟩ | h <;> cases h
        | _ => simp [starts] at hlen; omega
      | some q =>
        obtain ⟨q2, h1, h2⟩ := step_change hi e hk
        rw [hq'] at h1; cases h1
        have hpre' := hpre q hk
        have hidk : (starts pre)[k]? = some q.id := by rw [← hids, List.getElem?_map, hk]; rfl
        have goal : CEv.connEnd ∈ pre ∨ e = .connEnd := by
          cases h2 with
          | same => exact Or.inl (hpre' hcond)
          | dropped he hr =>
            rcases hr with hr | hr | ⟨j, q2, hj, hq2, hid⟩
            · exact Or.inr hr
            · exfalso
              subst hr
              rw [starts_append] at hnd1
              have := (List.nodup_append.mp hnd1).2.2 q.id (List.mem_of_getElem? hidk) q.id (by simp [starts])
              exact this rfl
            · exfalso
              have hidj : (starts pre)[j]? = some q.id := by rw [← hids, List.getElem?_map, hq2, ← hid]; rfl
              rw [starts_append] at hnd1
              have hnd2 := (List.nodup_append.mp hnd1).1
              obtain ⟨a1, a2⟩ := List.getElem?_eq_some_iff.mp hidk
              obtain ⟨b1, b2⟩ := List.getElem?_eq_some_iff.mp hidj
              have hpw := List.pairwise_iff_getElem.mp hnd2
              rcases Nat.lt_or_gt_of_ne hj with hlt | hlt
              · exact hpw _ _ b1 a1 hlt (b2.trans a2.symm)
              · exact hpw _ _ a1 b1 hlt (a2.trans b2.symm)
          | sent hp _ =>
            rcases hcond with ⟨-, hc⟩ | hc
            · exact Or.inl (hpre' (Or.inl ⟨Or.inl hp, hc⟩))
            · cases hc
          | got m _ _ he =>
            rcases hcond with ⟨-, hc⟩ | hc
            · cases hc
            · exact Or.inl (hpre' (Or.inr hc))
          | ended p sl ha hp1 hp2 hok hab hcan hto hdr hfu hsl =>
            rcases hcond with ⟨hc, -⟩ | hc
            · rcases hc with hc | hc
              · exact absurd hc hp1
              · exact absurd hc hp2
            · rcases hab hc with h | h
              · exact absurd h hns1
              · exact Or.inl (hpre' (Or.inl ⟨ha, h⟩))
        rcases goal with h | h
        · exact List.mem_append_left _ h
        · subst h; simp
  exact main evs [] (by simpa using hd) (by simpa using hs) (by intro q h; simp [CliSt.run, CliSt.init] at h) q h (Or.inr hq)

/-! ### Concrete cases -/

section Examples

/-- A toy key exchange: sealing prefixes the recipient's key, session keys mix the two public keys. -/
def Toy.kx : Kx where
  sealMsg := fun _ m pk => Toy.lock (Toy.pad 48 pk.val).val m
  sealOpen := fun c pk _ => Toy.unlock (Toy.pad 48 pk.val).val c
  kxPk := fun s => s
  clientKeys := fun pk _ oth => some (Toy.pad 32 (1 :: pk.val ++ oth.val), Toy.pad 32 (2 :: pk.val ++ oth.val))
  serverKeys := fun pk _ oth => some (Toy.pad 32 (2 :: oth.val ++ pk.val), Toy.pad 32 (1 :: oth.val ++ pk.val))

theorem Toy.kx_lawful : Toy.kx.Lawful Toy.crypto where
  seal_open := by intro r m pk sk _; simp [Toy.kx]
  seal_len := by intro r m pk; simp [Toy.kx, Toy.lock, (Toy.pad 48 _).len]; omega
  open_len := by
    intro c pk sk m h
    have := Toy.unlock_len h
    simpa [(Toy.pad 48 _).len] using this
  agree := by intro a b; exact ⟨_, _, rfl, rfl⟩

/-- The hypotheses of the handshake theorem: server and ephemeral key pairs. -/
example : Toy.crypto.IsXPair (B.fill 32 7) (B.fill 32 7) := rfl

/-- A toy handshake: the client expects the key `9..`, the server has the key `k`, `alter` is done to the reply. -/
def Toy.shake (k : B 32) (alter : UInt8 → UInt8) : Res Bytes :=
  let cr : ClientRand := ⟨B.fill 32 1, B.fill 32 1, B.fill 32 2, B.fill 32 3, B.fill 24 4⟩
  let sr : ServerRand := ⟨B.fill 32 5, B.fill 32 6, B.fill 24 7⟩
  match serverAccept Toy.stream Toy.kx k k sr (clientInit Toy.kx (B.fill 32 9) cr ++ cr.header.val) with
  | .error e => .error ("server: " ++ e)
  | .ok (reply, _) =>
    match clientFinish Toy.stream Toy.kx cr (reply.map alter) with
    | .error e => .error e
    | .ok (out, _) => .ok out

/-- A handshake that completes, one with an altered reply, and one with a server that has another key. -/
example : Toy.shake (B.fill 32 9) id = .ok (List.replicate 24 4) ∧
    Toy.shake (B.fill 32 9) (· + 1) = .error "decrypt error" ∧
    Toy.shake (B.fill 32 8) id = .error "server: decrypt error" := by
  decide +kernel

/-- A server announcing this key and version, and confirming the unlock. -/
def Toy.answers (pk : B 32) (v : String) (sent : List Req) : Res Msg :=
  if sent = [.hello] then .ok (.res "x" (.hello "lair" v pk)) else .ok (.res "y" .unlock)

/-- Connecting to a server with the right key, the wrong key, and the wrong version. -/
example : let go := (fun (pk : B 32) (v : String) =>
      (connectProg Toy.crypto Toy.lawful (B.fill 32 9) true "0.6" (B.fill 32 1) (B.fill 24 2) [1, 2, 3]).run
        (Toy.answers pk v) []);
    (go (B.fill 32 9) "0.6").2 = .ok () ∧ (go (B.fill 32 9) "0.6").1.length = 2 ∧
    go (B.fill 32 8) "0.6" = ([.hello], .error "ServerPubKeyMismatch") ∧
    go (B.fill 32 9) "0.5" = ([.hello], .error "Invalid lair server version") := by
  decide +kernel

/-- Two requests answered in the other order; a late and an unknown message; then the connection ends under a third. -/
example : (CliSt.init.run [.start "a", .start "b", .sent 0 (.ok ()), .sent 1 (.ok ()), .arrive (.res "b" .unlock),
    .arrive (.res "zzz" .unlock), .arrive (.res "a" (.error "no")), .wake 0, .wake 1, .arrive (.res "a" .unlock),
    .start "c", .sent 2 (.ok ()), .connEnd, .wake 2]) =
  ⟨[], [⟨"a", .done (.ok (.res "a" (.error "no"))), .full (.res "a" (.error "no"))⟩,
    ⟨"b", .done (.ok (.res "b" .unlock)), .full (.res "b" .unlock)⟩,
    ⟨"c", .done (.error "ConnectionAborted"), .dropped⟩], true⟩ := by decide +kernel

/-- The hypotheses of `C29_answered`, `C29_connection_end`, `C29_timeout`: a waiting request without answer. -/
example : (CliSt.init.run [.start "a", .start "b", .sent 1 (.ok ())]).reqs[1]? = some ⟨"b", .waiting, .empty⟩ ∧
    CEv.connEnd ∉ [CEv.start "a", .start "b", .sent 1 (.ok ())] := by decide +kernel

/-- The hypothesis of `C29_unknown_discarded`: the only request with this id has timed out. -/
example : ∀ q ∈ (CliSt.init.run [.start "a", .sent 0 (.ok ()), .timeout 0]).reqs, q.phase = .done (.error "TimedOut") := by
  decide +kernel

/-- The hypotheses of `C29_aborted_only_if_connection_ended`. -/
example : (starts [.start "a", .start "c", .sent 1 (.ok ()), .connEnd, .wake 1]).Nodup ∧
    (CliSt.init.run [.start "a", .start "c", .sent 1 (.ok ()), .connEnd, .wake 1]).reqs[1]? =
      some ⟨"c", .done (.error "ConnectionAborted"), .dropped⟩ := by decide +kernel

/-- Why distinct ids are needed there: two requests with one id abort each other although the connection is up. -/
example : (CliSt.init.run [.start "a", .start "a", .sent 0 (.ok ()), .sent 1 (.ok ()), .wake 0, .wake 1]).reqs =
    [⟨"a", .done (.error "ConnectionAborted"), .dropped⟩, ⟨"a", .done (.error "ConnectionAborted"), .dropped⟩] := by
  decide +kernel

end Examples

end Lair
