import Verif.Dial
import Verif.Props.Connection

/-
A world with handshakes is a world (World.lean) in which connections start with the states the handshakes give.
-/
namespace Lair.Dial

variable {S : SStream} {E : Env} {I : Ident} {C : Crypto}

/-- The handshake of a client and the server, undisturbed. Proof device: nothing in the code corresponds. -/
structure Shake (S : SStream) (I : Ident) (C : Crypto) (cr : ClientRand) (sr : ServerRand) (s cl : Session S) : Prop where
  init_len : (clientInit I.K I.pk cr).length = 112
  accept : serverAccept S I.K I.pk I.sk sr (clientInit I.K I.pk cr ++ cr.header.val) = .ok (serverWrites I sr (clientInit I.K I.pk cr), s)
  writes : ∀ more, serverWrites I sr (clientInit I.K I.pk cr ++ more) = serverWrites I sr (clientInit I.K I.pk cr)
  writes_len : (serverWrites I sr (clientInit I.K I.pk cr)).length = 104
  finish : clientFinish S I.K cr (serverWrites I sr (clientInit I.K I.pk cr)) = .ok (cr.header.val, cl)
  enc : cl.enc = s.dec
  dec : s.enc = cl.dec
  toSrv : clientEncKey C cl = serverDecKey C s
  toCli : serverEncKey C s = clientDecKey C cl

theorem shake (L : C.Lawful) (LK : I.K.Lawful C) (hs : C.IsXPair I.pk I.sk) (cr : ClientRand) (hc : C.IsXPair cr.cboxPk cr.cboxSk)
    (sr : ServerRand) : ∃ s cl : Session S, Shake S I C cr sr s cl := by
  obtain ⟨reply, s, cl, h1, h2, _, _, h5, h6, h7, h8, _⟩ := C25_handshake_agrees (S := S) L LK I.pk I.sk hs cr hc sr [] []
  have hil : (clientInit I.K I.pk cr).length = 112 := by
    simp [clientInit, LK.seal_len, cr.cboxPk.len, (I.K.kxPk cr.kxSk).len]
  simp only [List.append_nil] at h1 h2
  have hk : ∀ more, serverKeysOf I.K I.pk I.sk sr (clientInit I.K I.pk cr ++ more) = serverKeysOf I.K I.pk I.sk sr (clientInit I.K I.pk cr) := by
    intro more
    unfold serverKeysOf
    rw [if_neg (by simp [hil]), if_neg (by simp [hil]), List.take_append_of_le_length (by omega)]
  have hw : ∀ more, serverWrites I sr (clientInit I.K I.pk cr ++ more) = serverWrites I sr (clientInit I.K I.pk cr) := by
    intro more; unfold serverWrites; rw [hk]
  have hrep : reply = serverWrites I sr (clientInit I.K I.pk cr) := by
    unfold serverAccept at h1
    rw [hk] at h1
    unfold serverWrites
    split at h1
    · cases h1
    · rename_i rp rx tx hh
      rw [hh]
      split at h1
      · cases h1
      · cases h1; rfl
  have hlen : reply.length = 104 := by
    obtain ⟨cb, kx, _, ho, _⟩ := C25_server_needs_sealed_initiator h1
    rw [ho]
    simp [LK.seal_len, (I.K.kxPk sr.kxSk).len, sr.header.len]
  subst hrep
  exact ⟨s, cl, hil, h1, hw, hlen, h2, h5, h6, h7, h8⟩

/-- The server's halves before its handshake is complete, and the client's.
    Proof device: nothing in the code corresponds. -/
structure DInv (I : Ident) (C : Crypto) (h : HConn S) (u d : S.St) : Prop where
  dialled : ∀ cr, h.cr = some cr → ∃ s cl : Session S, Shake S I C cr h.sr s cl ∧ s.dec = u ∧ s.enc = d ∧
    (∀ s', h.srv = some s' → s' = s) ∧ (∀ cl', h.cli = some cl' → cl' = cl)
  full : (h.sin.length = 136 → h.srv.isSome) ∧ (h.cr.isSome → h.cin.length = 104 → h.cli.isSome)
  stranger : h.cr = none → h.cli = none ∧ h.srv.isSome
  fresh : h.x = none → h.cli = none ∧ h.srv = none
  made : ∀ x, h.x = some x → x.gone = h.gone ∧ x.up.start = u ∧ x.down.start = d ∧
    (h.srv = none → x.up.rcv = .init u ∧ x.down.snd = .init d) ∧ (h.cli = none → x.up.snd = .init u ∧ x.down.rcv = .init d)

/-- The connection of World.lean. Proof device: nothing in the code corresponds. -/
def HConn.abs (h : HConn S) (u d : S.St) : Conn S := h.x.getD { Conn.init u d with gone := h.gone }

/-- Two worlds at corresponding moments. Proof device: nothing in the code corresponds. -/
structure Sim (I : Ident) (h : HWorld E S) (w : World E S) : Prop where
  sys : w.sys = h.sys
  len : w.conns.length = h.conns.length
  conns : ∀ (c : Nat) (hc : HConn S), h.conns[c]? = some hc → ∃ u d, DInv I E.C hc u d ∧ w.conns[c]? = some (hc.abs u d)
  threads : ∀ t ∈ h.sys.threads, ∃ hc : HConn S, h.conns[t.conn]? = some hc ∧ hc.srv.isSome

/-! ### Steps of the connection proper -/

theorem step_start (x : Conn S) (e : NEv) : (x.step e).up.start = x.up.start ∧ (x.step e).down.start = x.down.start ∧
    (x.step e).gone = x.gone := by
  cases e <;> simp only [Conn.step] <;> repeat' split
  all_goals first | exact ⟨rfl, rfl, rfl⟩ | trivial | simp_all [Conn.cliStep, Link.send]

/-- Does the event belong to the server's halves of the connection? Proof device: nothing in the code corresponds. -/
def ofServer : NEv → Bool
  | .upArrive _ | .upClose | .downSend _ | .downRetry _ | .downShutdown => true
  | _ => false

theorem step_ofServer (x : Conn S) (e : NEv) (h : ofServer e = true) :
    (x.step e).up.snd = x.up.snd ∧ (x.step e).down.rcv = x.down.rcv := by
  cases e <;> simp [ofServer] at h <;> simp only [Conn.step] <;> repeat' split
  all_goals first | exact ⟨rfl, rfl⟩ | trivial | simp_all [Conn.cliStep, Link.send]

theorem step_ofClient (x : Conn S) (e : NEv) (h : ofServer e = false) :
    (x.step e).up.rcv = x.up.rcv ∧ (x.step e).down.snd = x.down.snd := by
  cases e <;> simp [ofServer] at h <;> simp only [Conn.step] <;> repeat' split
  all_goals first | exact ⟨rfl, rfl⟩ | trivial | simp_all [Conn.cliStep, Link.send]

/-- What an event on a connection is in World.lean: itself, or nothing (part of a handshake, or not possible yet). -/
theorem conn_step {h : HConn S} {u d : S.St} (hi : DInv I C h u d) (e : NEv)
    (hun : ∀ cr, h.cr = some cr → (h.step I e).sin <+: clientWrites I cr (h.step I e).cin ∧
      (h.step I e).cin <+: serverWrites I h.sr (h.step I e).sin) :
    DInv I C (h.step I e) u d ∧ (h.srv.isSome → (h.step I e).srv.isSome) ∧
      ((h.step I e).abs u d = h.abs u d ∨ (h.step I e).abs u d = (h.abs u d).step e) := by
  -- a step of the connection proper
  have hon : (ofServer e = true → h.srv.isSome) → (ofServer e = false → h.cli.isSome) →
      DInv I C (h.onConn e) u d ∧ (h.srv.isSome → (h.onConn e).srv.isSome) ∧
      ((h.onConn e).abs u d = h.abs u d ∨ (h.onConn e).abs u d = (h.abs u d).step e) := by
    intro hsrv hcli
    refine ⟨⟨hi.dialled, hi.full, hi.stranger, ?_, ?_⟩, fun h => h, ?_⟩
    · intro hx
      exact hi.fresh (by simpa [HConn.onConn] using hx)
    · intro x hx
      simp only [HConn.onConn, Option.map_eq_some_iff] at hx
      obtain ⟨y, hy, rfl⟩ := hx
      obtain ⟨h1, h2, h3, h4, h5⟩ := hi.made y hy
      obtain ⟨g1, g2, g3⟩ := step_start y e
      refine ⟨g3.trans h1, g1.trans h2, g2.trans h3, ?_, ?_⟩
      · intro hn
        have hn' : h.srv = .none := hn
        cases ho : ofServer e with
        | true => rw [hn'] at hsrv; cases hsrv ho
        | false =>
          obtain ⟨a, b⟩ := step_ofClient y e ho
          rw [a, b]; exact h4 hn'
      · intro hn
        have hn' : h.cli = .none := hn
        cases ho : ofServer e with
        | false => rw [hn'] at hcli; cases hcli ho
        | true =>
          obtain ⟨a, b⟩ := step_ofServer y e ho
          rw [a, b]; exact h5 hn'
    · right
      cases hx : h.x with
      | none =>
        obtain ⟨a, b⟩ := hi.fresh hx
        cases ho : ofServer e with
        | true => rw [b] at hsrv; cases hsrv ho
        | false => rw [a] at hcli; cases hcli ho
      | some y => simp [HConn.onConn, HConn.abs, hx]
  have hid : DInv I C h u d ∧ (h.srv.isSome → h.srv.isSome) ∧ (h.abs u d = h.abs u d ∨ h.abs u d = (h.abs u d).step e) :=
    ⟨hi, fun h => h, Or.inl rfl⟩
  -- nothing but the bookkeeping of a handshake
  have hbook : ∀ h' : HConn S, h'.cr = h.cr → h'.sr = h.sr → h'.cli = h.cli → h'.srv = h.srv → h'.gone = h.gone → h'.x = h.x →
      ((h'.sin.length = 136 → h.srv.isSome) ∧ (h.cr.isSome → h'.cin.length = 104 → h.cli.isSome)) →
      DInv I C h' u d ∧ (h.srv.isSome → h'.srv.isSome) ∧ (h'.abs u d = h.abs u d ∨ h'.abs u d = (h.abs u d).step e) := by
    intro h' e1 e2 e3 e4 e5 e6 e7
    refine ⟨⟨?_, ?_, ?_, ?_, ?_⟩, fun hh => by rw [e4]; exact hh, Or.inl ?_⟩
    · rw [e1, e2, e3, e4]; exact hi.dialled
    · rw [e1, e3, e4]; exact e7
    · rw [e1, e3, e4]; exact hi.stranger
    · rw [e6, e3, e4]; exact hi.fresh
    · rw [e6, e3, e4, e5]; exact hi.made
    · simp [HConn.abs, e5, e6]
  cases e with
  | upArrive b =>
    simp only [HConn.step] at hun ⊢
    by_cases hs : h.srv.isSome
    · rw [if_pos hs]; exact hon (fun _ => hs) (by simp [ofServer])
    · rw [if_neg hs] at hun ⊢
      have hsn : h.srv = .none := by simpa using hs
      unfold HConn.serverReads at hun ⊢
      split
      · exact hid
      · rename_i hle
        rw [if_neg hle] at hun
        split
        · rename_i hlt
          exact hbook _ rfl rfl rfl rfl rfl rfl ⟨fun h6 => absurd h6 (Nat.ne_of_lt hlt), hi.full.2⟩
        · rename_i hge
          rw [if_neg hge] at hun
          have hlen : (h.sin ++ b).length = 136 := by
            simp only [Bool.or_eq_true, decide_eq_true_eq, not_or] at hle
            omega
          split
          · rename_i rp s hacc
            rw [hacc] at hun
            -- the client's handshake has been brought
            rcases Option.eq_none_or_eq_some h.cr with hcr | ⟨cr, hcr⟩
            · have := (hi.stranger hcr).2; simp [hsn] at this
            ·
              obtain ⟨s₀, cl₀, hk, hu, hd, hus, huc⟩ := hi.dialled cr hcr
              have hpre : h.sin ++ b <+: clientInit I.K I.pk cr ++ cr.header.val := by
                refine (hun cr hcr).1.trans ?_
                unfold clientWrites
                by_cases h80 : 80 ≤ h.cin.length
                · simp [h80]
                · simp [h80]
              have heq : h.sin ++ b = clientInit I.K I.pk cr ++ cr.header.val :=
                hpre.eq_of_length (by rw [hlen]; simp [hk.init_len, cr.header.len])
              rw [heq, hk.accept] at hacc
              cases hacc
              subst hu hd
              refine ⟨⟨?_, ⟨fun _ => rfl, hi.full.2⟩, ?_, ?_, ?_⟩, fun _ => rfl, Or.inl ?_⟩
              · intro cr' hcr'
                rw [show h.cr = some cr' from hcr'] at hcr
                cases hcr
                exact ⟨_, cl₀, hk, rfl, rfl, fun s' hs' => by cases hs'; rfl, huc⟩
              · intro hn; rw [show h.cr = .none from hn] at hcr; cases hcr
              · intro hx; cases hx
              · intro x hx
                cases hx
                cases hx : h.x with
                | none => exact ⟨rfl, rfl, rfl, by simp, fun _ => ⟨rfl, rfl⟩⟩
                | some y =>
                  obtain ⟨h1, h2, h3, h4, h5⟩ := hi.made y hx
                  exact ⟨h1, h2, rfl, by simp, h5⟩
              · cases hx : h.x with
                | none => simp [HConn.abs, serverUp, hx, Conn.init, Link.init]
                | some y =>
                  obtain ⟨h1, h2, h3, h4, h5⟩ := hi.made y hx
                  obtain ⟨a, b⟩ := h4 hsn
                  simp only [HConn.abs, serverUp, hx, Option.getD_some]
                  rw [← a, ← b, ← h3]
          · rename_i er hacc
            rw [hacc] at hun
            exfalso
            rcases Option.eq_none_or_eq_some h.cr with hcr | ⟨cr, hcr⟩
            · have := (hi.stranger hcr).2; simp [hsn] at this
            · obtain ⟨s₀, cl₀, hk, -⟩ := hi.dialled cr hcr
              have hpre : h.sin ++ b <+: clientInit I.K I.pk cr ++ cr.header.val := by
                refine (hun cr hcr).1.trans ?_
                unfold clientWrites
                by_cases h80 : 80 ≤ h.cin.length
                · simp [h80]
                · simp [h80]
              have heq : h.sin ++ b = clientInit I.K I.pk cr ++ cr.header.val :=
                hpre.eq_of_length (by rw [hlen]; simp [hk.init_len, cr.header.len])
              rw [heq, hk.accept] at hacc
              cases hacc
  | upClose =>
    simp only [HConn.step]
    split
    · rename_i hs; exact hon (fun _ => hs) (by simp [ofServer])
    · exact hbook _ rfl rfl rfl rfl rfl rfl hi.full
  | downArrive b =>
    simp only [HConn.step] at hun ⊢
    by_cases hs : h.cli.isSome
    · rw [if_pos hs]; exact hon (by simp [ofServer]) (fun _ => hs)
    · rw [if_neg hs] at hun ⊢
      have hsn : h.cli = .none := by simpa using hs
      unfold HConn.clientReads at hun ⊢
      split
      · exact hid
      · rename_i cr hcr
        simp only [hcr] at hun
        split
        · exact hid
        · rename_i hle
          rw [if_neg hle] at hun
          split
          · rename_i hlt
            exact hbook _ (by simp [hcr]) rfl rfl rfl rfl rfl ⟨hi.full.1, fun _ h6 => absurd h6 (Nat.ne_of_lt hlt)⟩
          · rename_i hge
            rw [if_neg hge] at hun
            have hlen : (h.cin ++ b).length = 104 := by
              simp only [Bool.or_eq_true, decide_eq_true_eq, not_or] at hle
              omega
            have hgot : h.sin <+: clientWrites I cr (h.cin ++ b) → h.cin ++ b <+: serverWrites I h.sr h.sin →
                ∀ (s₀ cl₀ : Session S), Shake S I C cr h.sr s₀ cl₀ → h.cin ++ b = serverWrites I h.sr (clientInit I.K I.pk cr) := by
              intro hp1 hp2 s₀ cl₀ hk
              have hsin : ∃ more, h.sin = clientInit I.K I.pk cr ++ more := by
                have h112 : 112 ≤ h.sin.length := by
                  refine Classical.byContradiction fun hlt => ?_
                  have : serverWrites I h.sr h.sin = [] := by
                    unfold serverWrites serverKeysOf
                    rw [if_pos (by omega)]
                  rw [this] at hp2
                  have := hp2.length_le
                  rw [hlen] at this
                  simp at this
                unfold clientWrites at hp1
                refine ⟨h.sin.drop 112, ?_⟩
                obtain ⟨z, hz⟩ := hp1
                have := congrArg (List.take 112) hz
                rw [List.take_append_of_le_length h112,
                  List.take_append_of_le_length (l₁ := clientInit I.K I.pk cr) (by rw [hk.init_len]; omega),
                  List.take_of_length_le (l := clientInit I.K I.pk cr) (by rw [hk.init_len]; omega)] at this
                rw [← this, List.take_append_drop]
              obtain ⟨more, hsin⟩ := hsin
              rw [hsin, hk.writes] at hp2
              exact hp2.eq_of_length (by rw [hlen, hk.writes_len])
            split
            · rename_i rp s hacc
              rw [hacc] at hun
              obtain ⟨s₀, cl₀, hk, hu, hd, hus, huc⟩ := hi.dialled cr hcr
              have heq := hgot (hun cr rfl).1 (hun cr rfl).2 s₀ cl₀ hk
              rw [heq, hk.finish] at hacc
              cases hacc
              have he := hk.enc; have hd' := hk.dec
              subst hu hd
              refine ⟨⟨?_, ⟨hi.full.1, fun _ _ => rfl⟩, ?_, ?_, ?_⟩, fun h => h, Or.inl ?_⟩
              · intro cr' hcr'
                rw [show h.cr = some cr' from hcr'] at hcr
                cases hcr
                exact ⟨s₀, _, hk, rfl, rfl, hus, fun s' hs' => by cases hs'; rfl⟩
              · intro hn; rw [show h.cr = .none from hn] at hcr; cases hcr
              · intro hx; cases hx
              · intro x hx
                cases hx
                cases hx : h.x with
                | none => 
                  rw [hd', ← he]
                  exact ⟨rfl, rfl, rfl, fun _ => ⟨rfl, rfl⟩, by simp⟩
                | some y =>
                  obtain ⟨h1, h2, h3, h4, h5⟩ := hi.made y hx
                  exact ⟨h1, he, h3, h4, by simp⟩
              · cases hx : h.x with
                | none => simp [HConn.abs, clientUp, hx, Conn.init, Link.init, he, hd']
                | some y =>
                  obtain ⟨h1, h2, h3, h4, h5⟩ := hi.made y hx
                  obtain ⟨a, b⟩ := h5 hsn
                  simp only [HConn.abs, clientUp, hx, Option.getD_some]
                  rw [he, ← hd', ← a, ← b, ← h2]
            · rename_i er hacc
              rw [hacc] at hun
              obtain ⟨s₀, cl₀, hk, -⟩ := hi.dialled cr hcr
              have heq := hgot (hun cr rfl).1 (hun cr rfl).2 s₀ cl₀ hk
              rw [heq, hk.finish] at hacc
              cases hacc
  | downClose =>
    simp only [HConn.step]
    split
    · rename_i hs; exact hon (by simp [ofServer]) (fun _ => hs)
    · exact hbook _ rfl rfl rfl rfl rfl rfl hi.full
  | downSend e =>
    simp only [HConn.step]
    split
    · rename_i hs; exact hon (fun _ => hs) (by simp [ofServer])
    · exact hid
  | downRetry k =>
    simp only [HConn.step]
    split
    · rename_i hs; exact hon (fun _ => hs) (by simp [ofServer])
    · exact hid
  | downShutdown =>
    simp only [HConn.step]
    split
    · rename_i hs; exact hon (fun _ => hs) (by simp [ofServer])
    · exact hid
  | _ =>
    simp only [HConn.step]
    split
    · rename_i hs; exact hon (by simp [ofServer]) (fun _ => hs)
    · exact hid

/-! ### Steps of the world -/

theorem abs_some {h : HConn S} {x : Conn S} (hx : h.x = some x) (u d : S.St) : h.abs u d = x := by simp [HConn.abs, hx]

theorem modify_ne {α : Type} {c c' : Nat} (h : c' ≠ c) (f : α → α) (l : List α) : (l.modify c f)[c']? = l[c']? := by
  rw [List.getElem?_modify]
  cases l[c']? with
  | none => rfl
  | some a => simp [Ne.symm h]

theorem modify_at {α : Type} {c : Nat} {a : α} {l : List α} (h : l[c]? = some a) (f : α → α) : (l.modify c f)[c]? = some (f a) := by
  rw [List.getElem?_modify_eq, h]; rfl

/-- One event corresponds to at most one event of World.lean. -/
theorem sim_step (L : E.C.Lawful) (LK : I.K.Lawful E.C) (hs : E.C.IsXPair I.pk I.sk) {h : HWorld E S} {w : World E S} (hm : Sim I h w)
    (e : HEv) (hpair : ∀ cr sr, e = .dial cr sr → E.C.IsXPair cr.cboxPk cr.cboxSk) (hun : (h.step I e).Untampered I) :
    ∃ o : Option (WEv S), Sim I (h.step I e) (o.elim w w.step) := by
  -- nothing happens
  have hskip : ∀ h' : HWorld E S, h'.sys = h.sys → h'.conns = h.conns → ∃ o : Option (WEv S), Sim I h' (o.elim w w.step) := by
    intro h' e1 e2
    refine ⟨none, ?_⟩
    exact ⟨by rw [e1]; exact hm.sys, by rw [e2]; exact hm.len, by rw [e2]; exact hm.conns, by rw [e1, e2]; exact hm.threads⟩
  -- a connection is added
  have hadd : ∀ (h' : HWorld E S) (hc : HConn S) (u d : S.St), h'.sys = h.sys → h'.conns = h.conns ++ [hc] → DInv I E.C hc u d →
      hc.abs u d = Conn.init u d → ∃ o : Option (WEv S), Sim I h' (o.elim w w.step) := by
    intro h' hc u d e1 e2 hi ha
    refine ⟨some (.connect u d), ?_⟩
    refine ⟨by rw [e1]; exact hm.sys, by rw [e2]; simp [World.step, hm.len], ?_, ?_⟩
    · intro c hc' hc''
      rw [e2] at hc''
      rw [List.getElem?_append] at hc''
      split at hc''
      · rename_i hlt
        obtain ⟨u', d', h1, h2⟩ := hm.conns c hc' hc''
        refine ⟨u', d', h1, ?_⟩
        show (w.conns ++ [_])[c]? = _
        rw [List.getElem?_append_left (by rw [hm.len]; exact hlt)]
        exact h2
      · rename_i hge
        obtain ⟨hlt, hz⟩ := List.getElem?_eq_some_iff.mp hc''
        have h0 : c - h.conns.length = 0 := by simp at hlt; omega
        simp only [h0, List.getElem_cons_zero] at hz
        subst hz
        refine ⟨u, d, hi, ?_⟩
        show (w.conns ++ [_])[c]? = _
        rw [List.getElem?_append_right (by rw [hm.len]; omega), hm.len, h0, ha]
        rfl
    · intro t ht
      rw [e1] at ht
      obtain ⟨hc', h1, h2⟩ := hm.threads t ht
      refine ⟨hc', ?_, h2⟩
      rw [e2, List.getElem?_append_left (List.getElem?_eq_some_iff.mp h1).1]
      exact h1
  cases e with
  | dial cr sr =>
    obtain ⟨s, cl, hk⟩ := shake (S := S) L LK hs cr (hpair cr sr rfl) sr
    refine hadd _ _ s.dec s.enc rfl rfl ⟨?_, ⟨by simp, by simp⟩, ?_, ?_, ?_⟩ rfl
    · intro cr' hcr'; cases hcr'; exact ⟨s, cl, hk, rfl, rfl, by simp, by simp⟩
    · intro hn; cases hn
    · intro _; exact ⟨rfl, rfl⟩
    · intro x hx; cases hx
  | stranger sr => exact hskip _ rfl rfl
  | strangerSends r b =>
    simp only [HWorld.step]
    split
    · exact hskip _ rfl rfl
    · rename_i t ht
      unfold HWorld.strangerReads
      split
      · exact hskip _ rfl rfl
      · split
        · exact hskip _ rfl rfl
        · split
          · rename_i rp s hacc
            refine hadd _ _ s.dec s.enc rfl rfl ⟨?_, ⟨fun _ => rfl, by simp⟩, ?_, ?_, ?_⟩ rfl
            · intro cr' hcr'; cases hcr'
            · intro _; exact ⟨rfl, rfl⟩
            · intro hx; cases hx
            · intro x hx; cases hx; exact ⟨rfl, rfl, rfl, by simp, fun _ => ⟨rfl, rfl⟩⟩
          · exact hskip _ rfl rfl
  | strangerLeaves r => exact hskip _ rfl rfl
  | net c e =>
    cases hc : h.conns[c]? with
    | none =>
      refine hskip _ rfl ?_
      show h.conns.modify c _ = h.conns
      rw [List.getElem?_eq_none_iff] at hc
      exact List.modify_eq_self hc
    | some hc₀ =>
      obtain ⟨u, d, hi, hw⟩ := hm.conns c hc₀ hc
      have hun' : ∀ cr, hc₀.cr = some cr → (hc₀.step I e).sin <+: clientWrites I cr (hc₀.step I e).cin ∧
          (hc₀.step I e).cin <+: serverWrites I hc₀.sr (hc₀.step I e).sin := by
        intro cr hcr
        have hmem : hc₀.step I e ∈ (h.conns.modify c (fun x => x.step I e)) := by
          refine List.mem_of_getElem? (i := c) ?_
          exact modify_at hc _
        have hcr' : (hc₀.step I e).cr = some cr := by
          rw [← hcr]
          cases e <;> simp only [HConn.step, HConn.serverReads, HConn.clientReads] <;> repeat' split
          all_goals first | rfl | simp_all
        have hsr' : (hc₀.step I e).sr = hc₀.sr := by
          cases e <;> simp only [HConn.step, HConn.serverReads, HConn.clientReads] <;> repeat' split
          all_goals first | rfl | simp_all
        have := hun _ hmem cr hcr'
        rw [hsr'] at this
        exact this
      obtain ⟨h1, h2, h3⟩ := conn_step hi e hun'
      have hthreads : ∀ t ∈ h.sys.threads, ∃ hc : HConn S, (h.conns.modify c (fun x => x.step I e))[t.conn]? = some hc ∧ hc.srv.isSome := by
        intro t ht
        obtain ⟨hc', g1, g2⟩ := hm.threads t ht
        by_cases htc : t.conn = c
        · rw [htc, hc] at g1; cases g1
          exact ⟨_, by rw [htc]; exact modify_at hc _, h2 g2⟩
        · exact ⟨hc', by rw [modify_ne htc]; exact g1, g2⟩
      rcases h3 with h3 | h3
      · refine ⟨none, ⟨hm.sys, by simp [HWorld.step, hm.len], ?_, hthreads⟩⟩
        intro c' hc' hg
        simp only [HWorld.step] at hg
        by_cases hcc : c' = c
        · subst hcc
          rw [modify_at hc] at hg
          cases hg
          exact ⟨u, d, h1, by rw [h3]; exact hw⟩
        · rw [modify_ne hcc] at hg
          exact hm.conns c' hc' hg
      · refine ⟨some (.net c e), ⟨hm.sys, by simp [HWorld.step, World.step, hm.len], ?_, hthreads⟩⟩
        intro c' hc' hg
        simp only [HWorld.step] at hg
        show ∃ u d, _ ∧ (w.conns.modify c _)[c']? = _
        by_cases hcc : c' = c
        · subst hcc
          rw [modify_at hc] at hg
          cases hg
          exact ⟨u, d, h1, by rw [modify_at hw, h3]⟩
        · rw [modify_ne hcc] at hg
          rw [modify_ne hcc]
          exact hm.conns c' hc' hg
  | serve c =>
    simp only [HWorld.step]
    split
    · exact hskip _ rfl rfl
    · rename_i hc hcc
      split
      · exact hskip _ rfl rfl
      · rename_i hsrv
        split
        · exact hskip _ rfl rfl
        · rename_i x hx
          split
          · exact hskip _ rfl rfl
          · rename_i hgone
            refine ⟨some (.serve c), ?_⟩
            obtain ⟨u, d, hi, hw⟩ := hm.conns c hc hcc
            rw [abs_some hx] at hw
            have hsome : hc.srv.isSome := by cases hh : hc.srv <;> simp_all
            have hd' : DInv I E.C { hc with x := some { x with up := x.up.poll } } u d := by
              obtain ⟨h1, h2, h3, h4, h5⟩ := hi.made x hx
              refine ⟨hi.dialled, hi.full, hi.stranger, ?_, ?_⟩
              · intro hn; cases hn
              · intro y hy
                cases hy
                refine ⟨h1, h2, h3, ?_, h5⟩
                intro hn
                have hn' : hc.srv = none := hn
                rw [hn'] at hsome; cases hsome
            have hconns : ∀ (c' : Nat) (hc' : HConn S),
                (h.conns.modify c (fun y => { y with x := some { x with up := x.up.poll } }))[c']? = some hc' →
                ∃ u d, DInv I E.C hc' u d ∧ (w.conns.modify c (fun x => { x with up := x.up.poll }))[c']? = some (hc'.abs u d) := by
              intro c' hc' hg
              by_cases hcc' : c' = c
              · subst hcc'
                rw [modify_at hcc] at hg
                cases hg
                exact ⟨u, d, hd', by rw [modify_at hw]; rfl⟩
              · rw [modify_ne hcc'] at hg
                rw [modify_ne hcc']
                exact hm.conns c' hc' hg
            have hthr : ∀ t ∈ h.sys.threads, ∃ hc' : HConn S,
                (h.conns.modify c (fun y => { y with x := some { x with up := x.up.poll } }))[t.conn]? = some hc' ∧ hc'.srv.isSome := by
              intro t ht
              obtain ⟨hc', g1, g2⟩ := hm.threads t ht
              by_cases htc : t.conn = c
              · rw [htc, hcc] at g1; cases g1
                exact ⟨{ hc with x := some { x with up := x.up.poll } }, by rw [htc]; exact modify_at hcc _, hsome⟩
              · exact ⟨hc', by rw [modify_ne htc]; exact g1, g2⟩
            have hitem : ∀ m, x.up.rcv.poll.1 = .item m → w.step (.serve c) =
                ({ w with conns := w.conns.modify c (fun x => { x with up := x.up.poll }) } : World E S).sysStep (.recv c m) := by
              intro m hpm
              simp only [World.step, hw]
              rw [if_neg hgone, hpm]
            have hother : (∀ m, x.up.rcv.poll.1 ≠ .item m) → w.step (.serve c) =
                ({ w with conns := w.conns.modify c (fun x => { x with up := x.up.poll }) } : World E S) := by
              intro hpm
              simp only [World.step, hw]
              rw [if_neg hgone]
            show Sim I _ (w.step (.serve c))
            split
            · rename_i m hpm
              rw [hitem m hpm]
              refine ⟨?_, by simp [World.sysStep, hm.len], hconns, ?_⟩
              · simp [World.sysStep, hm.sys]
              · intro t ht
                simp only [Sys.step, List.mem_append, List.mem_singleton] at ht
                rcases ht with ht | rfl
                · exact hthr t ht
                · exact ⟨{ hc with x := some { x with up := x.up.poll } }, modify_at hcc _, hsome⟩
            · rename_i hpm
              rw [hother hpm]
              exact ⟨hm.sys, by simp [hm.len], hconns, hthr⟩
  | act i ch =>
    refine ⟨some (.act i ch), ?_⟩
    have hthr : ∀ t ∈ (h.sys.step (.step i ch)).threads, ∃ t' ∈ h.sys.threads, t'.conn = t.conn := by
      intro t ht
      simp only [Sys.step] at ht
      split at ht
      · exact ⟨t, ht, rfl⟩
      · rename_i t₀ ht₀
        have hm₀ := List.mem_of_getElem? ht₀
        split at ht
        · exact ⟨t, List.mem_of_mem_eraseIdx ht, rfl⟩
        · exact ⟨t, List.mem_of_mem_eraseIdx ht, rfl⟩
        · rcases List.mem_or_eq_of_mem_set ht with ht | rfl
          · exact ⟨t, ht, rfl⟩
          · exact ⟨t₀, hm₀, rfl⟩
    simp only [HWorld.step, Option.elim, World.step, hm.sys]
    cases hti : h.sys.threads[i]? with
    | none =>
      refine ⟨by simp [World.sysStep, hm.sys], hm.len, hm.conns, ?_⟩
      intro t ht
      obtain ⟨t', h1, h2⟩ := hthr t ht
      rw [← h2]; exact hm.threads t' h1
    | some t =>
      cases ho : outcomeOf t.prog with
      | none =>
        simp only [ho]
        refine ⟨by simp [World.sysStep, hm.sys], hm.len, hm.conns, ?_⟩
        intro t ht
        obtain ⟨t', h1, h2⟩ := hthr t ht
        rw [← h2]; exact hm.threads t' h1
      | some o =>
        obtain ⟨hc₀, g1, g2⟩ := hm.threads t (List.mem_of_getElem? hti)
        simp only [ho]
        refine ⟨by simp [World.sysStep, hm.sys], by simp [hm.len], ?_, ?_⟩
        · intro c hc hg
          simp only at hg
          by_cases hct : c = t.conn
          · subst hct
            rw [modify_at g1] at hg
            cases hg
            obtain ⟨u, d, hi, hw⟩ := hm.conns _ _ g1
            have hxs : ∃ x, hc₀.x = some x := by
              cases hx : hc₀.x with
              | none => rw [(hi.fresh hx).2] at g2; cases g2
              | some x => exact ⟨x, rfl⟩
            obtain ⟨x, hx⟩ := hxs
            rw [abs_some hx] at hw
            refine ⟨u, d, ⟨hi.dialled, hi.full, hi.stranger, ?_, ?_⟩, ?_⟩
            · intro hn; rw [hx] at hn; cases hn
            · intro y hy
              rw [hx] at hy
              cases hy
              obtain ⟨h1, h2, h3, h4, h5⟩ := hi.made x hx
              have hne : hc₀.srv ≠ none := by intro hn; rw [hn] at g2; cases g2
              cases o with
              | ok r => exact ⟨h1, h2, h3, fun hn => absurd hn hne, h5⟩
              | error e => exact ⟨h1, h2, h3, fun hn => absurd hn hne, h5⟩
            · rw [modify_at hw]
              simp [HConn.abs, hx]
          · rw [modify_ne hct] at hg
            rw [modify_ne hct]
            exact hm.conns c hc hg
        · intro t' ht'
          obtain ⟨t'', h1, h2⟩ := hthr t' ht'
          obtain ⟨hc', k1, k2⟩ := hm.threads t'' h1
          rw [h2] at k1
          by_cases hct : t'.conn = t.conn
          · rw [hct, g1] at k1; cases k1
            exact ⟨{ hc₀ with x := hc₀.x.map (fun x => x.reply t.msg.id o) }, by rw [hct]; exact modify_at g1 _, g2⟩
          · exact ⟨hc', by simp only [modify_ne hct]; exact k1, k2⟩
  | restart =>
    refine ⟨some .restart, ?_⟩
    refine ⟨by simp [HWorld.step, World.step, World.sysStep, hm.sys], by simp [HWorld.step, World.step, hm.len], ?_, ?_⟩
    · intro c hc hg
      simp only [HWorld.step, List.getElem?_map, Option.map_eq_some_iff] at hg
      obtain ⟨hc₀, hg, rfl⟩ := hg
      obtain ⟨u, d, hi, hw⟩ := hm.conns c hc₀ hg
      refine ⟨u, d, ⟨hi.dialled, hi.full, hi.stranger, ?_, ?_⟩, ?_⟩
      · intro hn; exact hi.fresh (by simpa using hn)
      · intro y hy
        simp only [Option.map_eq_some_iff] at hy
        obtain ⟨x, hx, rfl⟩ := hy
        obtain ⟨h1, h2, h3, h4, h5⟩ := hi.made x hx
        exact ⟨rfl, h2, h3, h4, h5⟩
      · simp only [Option.elim, World.step, List.getElem?_map, hw]
        cases hx : hc₀.x with
        | none => simp [HConn.abs, hx]
        | some x => simp [HConn.abs, hx]
    · intro t ht
      simp [HWorld.step, Sys.step] at ht

end Lair.Dial
