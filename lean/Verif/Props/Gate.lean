import Verif.Props.Dial

/-
C80 "The handshake is the only way in": the server handles messages only of peers that have completed their part of the handshake; a
handshake that has failed or has been broken off never becomes a session, whatever is sent afterwards; a peer gets at
most one session out of one handshake; and a peer that sends the 136 bytes of an acceptable handshake, in whatever pieces, gets in.
-/
namespace Lair.Dial

variable {S : SStream} {E : Env} {I : Ident} {st : E.S.σ}

/-! ### Specification -/

/-- The server's side of connection `c` has a session. -/
def HWorld.ServerHas (h : HWorld E S) (c : Nat) : Prop := ∃ x s, h.conns[c]? = some x ∧ x.srv = some s

/-- The client's side of connection `c` has a session. -/
def HWorld.ClientHas (h : HWorld E S) (c : Nat) : Prop := ∃ x s, h.conns[c]? = some x ∧ x.cli = some s

/-- What the server has received on connection `c` and acted on. -/
def HWorld.received (h : HWorld E S) (c : Nat) : List Msg := (h.sys.inbox.filter (fun p => p.1 == c)).map Prod.snd

/-- The end of the server's handshake on connection `c` without success, as an event in `h`: the client closes, the last bytes of
    an unacceptable handshake come in, the server's process ends. -/
inductive Breaks (I : Ident) (h : HWorld E S) (c : Nat) : HEv → Prop where
  | closed : Breaks I h c (.net c .upClose)
  | restart : Breaks I h c .restart
  | bad (x : HConn S) (b : Bytes) (e : String) : h.conns[c]? = some x → (x.sin ++ b).length = 136 →
      serverAccept S I.K I.pk I.sk x.sr (x.sin ++ b) = .error e → Breaks I h c (.net c (.upArrive b))

/-- The same for the client. -/
inductive ClientBreaks (I : Ident) (h : HWorld E S) (c : Nat) : HEv → Prop where
  | closed : ClientBreaks I h c (.net c .downClose)
  | bad (x : HConn S) (cr : ClientRand) (b : Bytes) (e : String) : h.conns[c]? = some x → x.cr = some cr → (x.cin ++ b).length = 104 →
      clientFinish S I.K cr (x.cin ++ b) = .error e → ClientBreaks I h c (.net c (.downArrive b))

/-- The same for the `r`-th stranger. -/
inductive StrangerBreaks (I : Ident) (h : HWorld E S) (r : Nat) : HEv → Prop where
  | left : StrangerBreaks I h r (.strangerLeaves r)
  | restart : StrangerBreaks I h r .restart
  | last (t : Stranger) (b : Bytes) : h.strangers[r]? = some t → (t.sin ++ b).length = 136 → StrangerBreaks I h r (.strangerSends r b)

/-! ### One connection -/

/-- A handshake of the server that has failed. -/
def HConn.SDead (x : HConn S) : Prop := x.srv = none ∧ x.sOver = true
def HConn.CDead (x : HConn S) : Prop := x.cli = none ∧ x.cOver = true

theorem serverReads_cli (x : HConn S) (b : Bytes) : (x.serverReads I b).cli = x.cli ∧ (x.serverReads I b).cOver = x.cOver ∧
    (x.serverReads I b).cr = x.cr := by
  unfold HConn.serverReads; repeat' split
  all_goals exact ⟨rfl, rfl, rfl⟩

theorem clientReads_srv (x : HConn S) (b : Bytes) : (x.clientReads I b).srv = x.srv ∧ (x.clientReads I b).sOver = x.sOver ∧
    (x.clientReads I b).sin = x.sin ∧ (x.clientReads I b).sr = x.sr := by
  unfold HConn.clientReads; repeat' split
  all_goals exact ⟨rfl, rfl, rfl, rfl⟩

theorem SDead.step {x : HConn S} (h : x.SDead) (e : NEv) : (x.step I e).SDead := by
  obtain ⟨h1, h2⟩ := h
  cases e <;> simp only [HConn.step, h1, Option.isSome_none, Bool.false_eq_true, if_false]
  case upArrive b => simp [HConn.serverReads, h2, HConn.SDead, h1]
  case downArrive b =>
    split
    · exact ⟨h1, h2⟩
    · obtain ⟨c1, c2, -⟩ := clientReads_srv (I := I) x b
      exact ⟨by rw [c1, h1], by rw [c2, h2]⟩
  all_goals first | exact ⟨h1, h2⟩ | exact ⟨h1, rfl⟩ | exact ⟨rfl, h2⟩ | exact ⟨rfl, rfl⟩ | (split <;> first | exact ⟨h1, h2⟩ | exact ⟨rfl, h2⟩)

theorem CDead.step {x : HConn S} (h : x.CDead) (e : NEv) : (x.step I e).CDead := by
  obtain ⟨h1, h2⟩ := h
  cases e <;> simp only [HConn.step, h1, Option.isSome_none, Bool.false_eq_true, if_false]
  case downArrive b =>
    unfold HConn.clientReads; split
    · exact ⟨h1, h2⟩
    · simp [h2, HConn.CDead, h1]
  case upArrive b =>
    split
    · exact ⟨h1, h2⟩
    · obtain ⟨c1, c2, -⟩ := serverReads_cli (I := I) x b
      exact ⟨by rw [c1, h1], by rw [c2, h2]⟩
  all_goals first | exact ⟨h1, h2⟩ | exact ⟨h1, rfl⟩ | exact ⟨rfl, h2⟩ | exact ⟨rfl, rfl⟩ | (split <;> first | exact ⟨h1, h2⟩ | exact ⟨rfl, h2⟩)

/-- What the server's side of a connection has read is what it has its session from. -/
def HConn.Read (I : Ident) (x : HConn S) : Prop :=
  ∀ s, x.srv = some s → x.sin.length = 136 ∧ ∃ out, serverAccept S I.K I.pk I.sk x.sr x.sin = .ok (out, s)

theorem Read.step {x : HConn S} (h : x.Read I) (e : NEv) : (x.step I e).Read I := by
  have keep : ∀ y : HConn S, y.srv = x.srv → y.sin = x.sin → y.sr = x.sr → y.Read I := by
    intro y a b c s hs; rw [b, c]; exact h s (by rw [← a]; exact hs)
  cases e with
  | upArrive b =>
    simp only [HConn.step]
    cases hsrv : x.srv with
    | some s0 => simp only [Option.isSome_some, if_true]; exact keep _ rfl rfl rfl
    | none =>
      simp only [Option.isSome_none, Bool.false_eq_true, if_false, HConn.serverReads]
      by_cases h1 : (x.sOver || decide (136 < (x.sin ++ b).length)) = true
      · rw [if_pos h1]; exact h
      rw [if_neg h1]
      by_cases h2 : (x.sin ++ b).length < 136
      · rw [if_pos h2]; intro s hs; rw [show ({ x with sin := x.sin ++ b } : HConn S).srv = x.srv from rfl, hsrv] at hs; cases hs
      rw [if_neg h2]
      have h3 : (x.sin ++ b).length = 136 := by
        have : ¬ (136 < (x.sin ++ b).length) := by intro hh; exact h1 (by rw [decide_eq_true hh, Bool.or_true])
        omega
      cases ha : serverAccept S I.K I.pk I.sk x.sr (x.sin ++ b) with
      | error e => simp only; intro s hs; rw [show ({ x with sin := x.sin ++ b, sOver := true } : HConn S).srv = x.srv from rfl, hsrv] at hs; cases hs
      | ok p =>
        obtain ⟨out, s1⟩ := p
        simp only
        intro s hs
        simp only [Option.some.injEq] at hs
        subst hs
        exact ⟨h3, out, ha⟩
  | downArrive b =>
    simp only [HConn.step]
    split
    · exact keep _ rfl rfl rfl
    · obtain ⟨c1, c2, c3, c4⟩ := clientReads_srv (I := I) x b
      exact keep _ c1 c3 c4
  | upClose => simp only [HConn.step]; split <;> exact keep _ rfl rfl rfl
  | downClose => simp only [HConn.step]; split <;> exact keep _ rfl rfl rfl
  | downSend _ => simp only [HConn.step]; split <;> exact keep _ rfl rfl rfl
  | downRetry _ => simp only [HConn.step]; split <;> exact keep _ rfl rfl rfl
  | downShutdown => simp only [HConn.step]; split <;> exact keep _ rfl rfl rfl
  | _ => simp only [HConn.step]; split <;> exact keep _ rfl rfl rfl

theorem srv_step {x : HConn S} (h : x.srv.isSome) (e : NEv) : (x.step I e).srv = x.srv := by
  cases e <;> simp only [HConn.step, h, if_true]
  case downArrive b =>
    split
    · rfl
    · exact (clientReads_srv (I := I) x b).1
  all_goals first | rfl | (split <;> rfl)

/-! ### The whole -/

/-- A property of one connection that every event on it keeps, and that the process's end and the server's replies keep. -/
structure Stable (I : Ident) (S : SStream) (P : HConn S → Prop) : Prop where
  step : ∀ x e, P x → P (HConn.step I x e)
  gone : ∀ x : HConn S, P x → P { x with gone := true, sOver := true, x := x.x.map (fun y => { y with gone := true }) }
  x : ∀ (x : HConn S) y, P x → P { x with x := y }

theorem Stable.world {P : HConn S → Prop} (hP : Stable I S P) {h : HWorld E S} {c : Nat} (hc : ∃ x, h.conns[c]? = some x ∧ P x) (ev : HEv) :
    ∃ x, (h.step I ev).conns[c]? = some x ∧ P x := by
  obtain ⟨x, hx, hp⟩ := hc
  have app : ∀ (l : List (HConn S)), (h.conns ++ l)[c]? = some x := by
    intro l; rw [List.getElem?_append_left (by
      rcases Nat.lt_or_ge c h.conns.length with hh | hh
      · exact hh
      · rw [List.getElem?_eq_none hh] at hx; cases hx)]; exact hx
  have modi : ∀ (k : Nat) (f : HConn S → HConn S), (P x → P (f x)) → ∃ y, (h.conns.modify k f)[c]? = some y ∧ P y := by
    intro k f hf
    by_cases hk : k = c
    · subst hk; exact ⟨f x, by simp [List.getElem?_modify, hx], hf hp⟩
    · exact ⟨x, by simp [List.getElem?_modify, hk, hx], hp⟩
  cases ev with
  | dial a b => exact ⟨x, app _, hp⟩
  | stranger a => exact ⟨x, hx, hp⟩
  | strangerSends r b =>
    simp only [HWorld.step]
    cases ht : h.strangers[r]? with
    | none => exact ⟨x, hx, hp⟩
    | some t =>
      simp only [HWorld.strangerReads]
      split
      · exact ⟨x, hx, hp⟩
      · split
        · exact ⟨x, hx, hp⟩
        · split
          · exact ⟨x, app _, hp⟩
          · exact ⟨x, hx, hp⟩
  | strangerLeaves r => exact ⟨x, hx, hp⟩
  | net k e => exact modi k _ (fun hp => hP.step x e hp)
  | serve k =>
    simp only [HWorld.step]
    cases hk : h.conns[k]? with
    | none => exact ⟨x, hx, hp⟩
    | some y =>
      simp only
      split
      · exact ⟨x, hx, hp⟩
      · split
        · exact ⟨x, hx, hp⟩
        · split
          · exact ⟨x, hx, hp⟩
          · split <;> exact modi k _ (fun hp => hP.x x _ hp)
  | act i ch =>
    simp only [HWorld.step]
    cases h.sys.threads[i]? with
    | none => exact ⟨x, hx, hp⟩
    | some t =>
      simp only
      cases outcomeOf t.prog with
      | none => exact ⟨x, hx, hp⟩
      | some o => exact modi t.conn _ (fun hp => hP.x x _ hp)
  | restart => exact ⟨_, by simp [HWorld.step, hx], hP.gone x hp⟩

theorem Stable.fold {P : HConn S → Prop} (hP : Stable I S P) {c : Nat} (evs : List HEv) : ∀ (h : HWorld E S),
    (∃ x, h.conns[c]? = some x ∧ P x) → ∃ x, (evs.foldl (HWorld.step I) h).conns[c]? = some x ∧ P x := by
  induction evs with
  | nil => intro h hc; exact hc
  | cons e evs ih => intro h hc; exact ih _ (hP.world hc e)

theorem stable_sdead : Stable I S HConn.SDead where
  step _ e h := SDead.step h e
  gone _ h := ⟨h.1, rfl⟩
  x _ _ h := h

theorem stable_cdead : Stable I S HConn.CDead where
  step _ e h := CDead.step h e
  gone _ h := h
  x _ _ h := h

theorem stable_has (s : Session S) : Stable I S (fun x => x.srv = some s) where
  step x e h := by rw [srv_step (by simp [h]), h]
  gone _ h := h
  x _ _ h := h

/-- Every connection of a run has read what its session is from. -/
theorem all_read (evs : List HEv) : ∀ (h : HWorld E S), (∀ x ∈ h.conns, x.Read I) → ∀ x ∈ (evs.foldl (HWorld.step I) h).conns, x.Read I := by
  induction evs with
  | nil => intro h hh; exact hh
  | cons e evs ih =>
    intro h hh
    refine ih _ ?_
    have modi : ∀ (k : Nat) (f : HConn S → HConn S), (∀ x, x ∈ h.conns → x.Read I → (f x).Read I) → ∀ y ∈ h.conns.modify k f, y.Read I := by
      intro k f hf y hy
      obtain ⟨i, hi⟩ := List.mem_iff_getElem?.1 hy
      rw [List.getElem?_modify] at hi
      cases hx : h.conns[i]? with
      | none => rw [hx] at hi; simp at hi
      | some x =>
        rw [hx] at hi
        have hm := List.mem_iff_getElem?.2 ⟨i, hx⟩
        by_cases hk : k = i
        · simp [hk] at hi; subst hi; exact hf x hm (hh x hm)
        · simp [hk] at hi; subst hi; exact hh x hm
    have app : ∀ z : HConn S, z.Read I → ∀ y ∈ h.conns ++ [z], y.Read I := by
      intro z hz y hy
      rcases List.mem_append.1 hy with h1 | h1
      · exact hh y h1
      · simp at h1; subst h1; exact hz
    cases e with
    | dial a b => exact app _ (by intro s hs; cases hs)
    | stranger a => exact hh
    | strangerSends r b =>
      simp only [HWorld.step]
      cases ht : h.strangers[r]? with
      | none => exact hh
      | some t =>
        simp only [HWorld.strangerReads]
        split
        · exact hh
        · rename_i h1
          split
          · exact hh
          · rename_i h2
            split
            · rename_i out s ha
              refine app _ ?_
              intro s1 hs1
              simp only [Option.some.injEq] at hs1
              subst hs1
              refine ⟨?_, out, ha⟩
              show (t.sin ++ b).length = 136
              have : ¬ (136 < (t.sin ++ b).length) := by intro hh; exact h1 (by rw [decide_eq_true hh, Bool.or_true])
              omega
            · exact hh
    | strangerLeaves r => exact hh
    | net k e => exact modi k _ (fun x _ hr => Read.step hr e)
    | serve k =>
      simp only [HWorld.step]
      cases hk : h.conns[k]? with
      | none => exact hh
      | some y =>
        simp only
        split
        · exact hh
        · split
          · exact hh
          · split
            · exact hh
            · split <;> exact modi k _ (fun x _ hr => hr)
    | act i ch =>
      simp only [HWorld.step]
      cases h.sys.threads[i]? with
      | none => exact hh
      | some t =>
        simp only
        cases outcomeOf t.prog with
        | none => exact hh
        | some o => exact modi t.conn _ (fun x _ hr => hr)
    | restart =>
      intro y hy
      simp only [HWorld.step, List.mem_map] at hy
      obtain ⟨x, hx, rfl⟩ := hy
      exact hh x hx

/-- Messages come only from connections where the server has a session. -/
def Inbox (h : HWorld E S) : Prop := ∀ p ∈ h.sys.inbox, h.ServerHas p.1

theorem inbox_perform (s : Sys E) (i : Nat) (ch : Choice) : (s.step (.step i ch)).inbox = s.inbox := by
  simp only [Sys.step]
  repeat' split
  all_goals first | rfl | (unfold Sys.perform; rfl) | (unfold Sys.perform; repeat' split; all_goals rfl)

theorem has_step {h : HWorld E S} {c : Nat} (hc : h.ServerHas c) (ev : HEv) : (h.step I ev).ServerHas c := by
  obtain ⟨x, s, h1, h2⟩ := hc
  obtain ⟨y, h3, h4⟩ := (stable_has (I := I) s).world (E := E) ⟨x, h1, h2⟩ ev
  exact ⟨y, s, h3, h4⟩

theorem inbox_step {h : HWorld E S} (hi : Inbox h) (ev : HEv) : Inbox (h.step I ev) := by
  have same : (h.step I ev).sys.inbox = h.sys.inbox → Inbox (h.step I ev) := by
    intro he p hp; rw [he] at hp; exact has_step (hi p hp) ev
  cases ev with
  | dial a b => exact same rfl
  | stranger a => exact same rfl
  | strangerSends r b =>
    refine same ?_
    simp only [HWorld.step]
    cases h.strangers[r]? with
    | none => rfl
    | some t => simp only [HWorld.strangerReads]; repeat' split
                all_goals rfl
  | strangerLeaves r => exact same rfl
  | net k e => exact same rfl
  | restart => exact same rfl
  | act i ch =>
    refine same ?_
    simp only [HWorld.step]
    cases h.sys.threads[i]? with
    | none => exact inbox_perform _ _ _
    | some t =>
      simp only
      cases outcomeOf t.prog with
      | none => exact inbox_perform _ _ _
      | some o => exact inbox_perform _ _ _
  | serve k =>
    intro p hp
    cases hk : h.conns[k]? with
    | none => rw [show h.step I (.serve k) = h by simp only [HWorld.step, hk]] at hp ⊢; exact hi p hp
    | some y =>
      cases hs : y.srv with
      | none => rw [show h.step I (.serve k) = h by simp [HWorld.step, hk, hs]] at hp ⊢; exact hi p hp
      | some s =>
        have hk' : h.ServerHas k := ⟨y, s, hk, hs⟩
        by_cases hpi : p ∈ h.sys.inbox
        · exact has_step (hi p hpi) _
        · suffices p.1 = k by rw [this]; exact has_step hk' _
          simp only [HWorld.step, hk] at hp
          repeat' split at hp
          all_goals first
            | exact absurd hp hpi
            | (simp only [Sys.step, List.mem_append, List.mem_singleton] at hp
               rcases hp with hp | hp
               · exact absurd hp hpi
               · rw [hp])

theorem inbox_fold (evs : List HEv) : ∀ (h : HWorld E S), Inbox h → Inbox (evs.foldl (HWorld.step I) h) := by
  induction evs with
  | nil => intro h hh; exact hh
  | cons e evs ih => intro h hh; exact ih _ (inbox_step hh e)

theorem run_append (a b : List HEv) : HWorld.run I E S st (a ++ b) = b.foldl (HWorld.step I) (HWorld.run I E S st a) := by
  unfold HWorld.run; rw [List.foldl_append]

/-! ### The property -/

/-- C80. Whatever arrives, the server acts only on messages of connections whose peer has sent, as its first 136 bytes, a handshake the
    server accepts with its secret key. -/
theorem C80_nothing_without_a_handshake (evs : List HEv) (c : Nat) (hm : (HWorld.run I E S st evs).received c ≠ []) :
    ∃ x out s, (HWorld.run I E S st evs).conns[c]? = some x ∧ x.srv = some s ∧ x.sin.length = 136 ∧
      serverAccept S I.K I.pk I.sk x.sr x.sin = .ok (out, s) := by
  obtain ⟨m, hm⟩ := List.exists_mem_of_ne_nil _ hm
  simp only [HWorld.received, List.mem_map, List.mem_filter, beq_iff_eq] at hm
  obtain ⟨p, ⟨hp, hpc⟩, -⟩ := hm
  obtain ⟨x, s, h1, h2⟩ := inbox_fold (I := I) evs (HWorld.init E S st) (by intro p hp; cases hp) p hp
  rw [hpc] at h1
  obtain ⟨h3, out, h4⟩ := all_read (I := I) evs (HWorld.init E S st) (by intro x hx; cases hx) x (List.mem_iff_getElem?.2 ⟨c, h1⟩) s h2
  exact ⟨x, out, s, h1, h2, h3, h4⟩

theorem breaks_dead {h : HWorld E S} {c : Nat} {ev : HEv} (hb : Breaks I h c ev) {x : HConn S} (hx : h.conns[c]? = some x) (hn : x.srv = none) :
    ∃ y, (h.step I ev).conns[c]? = some y ∧ y.SDead := by
  cases hb with
  | closed => exact ⟨_, by simp only [HWorld.step, List.getElem?_modify, hx]; rfl, by simp [HConn.step, hn, HConn.SDead]⟩
  | restart => exact ⟨{ x with gone := true, sOver := true, x := x.x.map (fun y => { y with gone := true }) },
      by simp only [HWorld.step, List.getElem?_map, hx, Option.map_some], hn, rfl⟩
  | bad x' b e hx' hl ha =>
    rw [hx] at hx'; cases hx'
    refine ⟨_, by simp only [HWorld.step, List.getElem?_modify, hx]; rfl, ?_⟩
    simp only [if_true, HConn.step, hn, Option.isSome_none, Bool.false_eq_true, if_false, HConn.serverReads, ha]
    by_cases ho : x.sOver = true
    · simp [ho, HConn.SDead, hn]
    · simp only [Bool.not_eq_true] at ho
      rw [if_neg (by simp only [ho, hl]; simp), if_neg (by omega)]
      first | exact ⟨hn, rfl⟩ | exact ⟨rfl, rfl⟩

/-- C80. A handshake of the server that is broken off, or fails, stays so: whatever happens later, that connection never
    gets a session of the server's, and nothing that is sent on it is ever acted on. -/
theorem C80_failed_handshake_is_final (evs : List HEv) (c : Nat) (ev : HEv) (more : List HEv)
    (hc : c < (HWorld.run I E S st evs).conns.length) (hn : ¬ (HWorld.run I E S st evs).ServerHas c)
    (hb : Breaks I (HWorld.run I E S st evs) c ev) :
    ¬ (HWorld.run I E S st (evs ++ ev :: more)).ServerHas c ∧ (HWorld.run I E S st (evs ++ ev :: more)).received c = [] := by
  have hx := List.getElem?_eq_getElem hc
  have hsn : (HWorld.run I E S st evs).conns[c].srv = none := by
    cases hs : (HWorld.run I E S st evs).conns[c].srv with
    | none => rfl
    | some s => exact absurd ⟨_, s, hx, hs⟩ hn
  have hd := breaks_dead hb hx hsn
  obtain ⟨y, h1, h2⟩ := (stable_sdead (I := I) (S := S)).fold (E := E) more _ hd
  have hrun : HWorld.run I E S st (evs ++ ev :: more) = more.foldl (HWorld.step I) ((HWorld.run I E S st evs).step I ev) := by
    rw [run_append]; rfl
  have hno : ¬ (HWorld.run I E S st (evs ++ ev :: more)).ServerHas c := by
    rintro ⟨z, s, h3, h4⟩
    rw [hrun, h1] at h3; cases h3
    rw [h2.1] at h4; cases h4
  refine ⟨hno, ?_⟩
  apply Classical.byContradiction
  intro hr
  obtain ⟨x, out, s, h3, h4, -⟩ := C80_nothing_without_a_handshake _ c hr
  exact hno ⟨x, s, h3, h4⟩

/-- C80. The same for the client: once its handshake has failed, it has no session on that connection and never makes a request on it. -/
theorem C80_client_failure_is_final (evs : List HEv) (c : Nat) (ev : HEv) (more : List HEv)
    (hc : c < (HWorld.run I E S st evs).conns.length) (hn : ¬ (HWorld.run I E S st evs).ClientHas c)
    (hb : ClientBreaks I (HWorld.run I E S st evs) c ev) :
    ¬ (HWorld.run I E S st (evs ++ ev :: more)).ClientHas c := by
  have hx := List.getElem?_eq_getElem hc
  have hsn : (HWorld.run I E S st evs).conns[c].cli = none := by
    cases hs : (HWorld.run I E S st evs).conns[c].cli with
    | none => rfl
    | some s => exact absurd ⟨_, s, hx, hs⟩ hn
  have hd : ∃ y, ((HWorld.run I E S st evs).step I ev).conns[c]? = some y ∧ y.CDead := by
    cases hb with
    | closed => exact ⟨_, by simp only [HWorld.step, List.getElem?_modify, hx]; rfl, by simp [HConn.step, hsn, HConn.CDead]⟩
    | bad x' cr b e hx' hcr hl ha =>
      rw [hx] at hx'; cases hx'
      refine ⟨_, by simp only [HWorld.step, List.getElem?_modify, hx]; rfl, ?_⟩
      simp only [if_true, HConn.step, hsn, Option.isSome_none, Bool.false_eq_true, if_false, HConn.clientReads, hcr, ha]
      by_cases ho : (HWorld.run I E S st evs).conns[c].cOver = true
      · simp [ho, HConn.CDead, hsn]
      · simp only [Bool.not_eq_true] at ho
        rw [if_neg (by simp only [ho, hl]; simp), if_neg (by omega)]
        first | exact ⟨hsn, rfl⟩ | exact ⟨rfl, rfl⟩
  obtain ⟨y, h1, h2⟩ := (stable_cdead (I := I) (S := S)).fold (E := E) more _ hd
  have hrun : HWorld.run I E S st (evs ++ ev :: more) = more.foldl (HWorld.step I) ((HWorld.run I E S st evs).step I ev) := by
    rw [run_append]; rfl
  rintro ⟨z, s, h3, h4⟩
  rw [hrun, h1] at h3; cases h3
  rw [h2.1] at h4; cases h4

/-- A stranger whose handshake has ended, well or badly. -/
theorem over_step {h : HWorld E S} {r : Nat} (ho : ∃ t, h.strangers[r]? = some t ∧ t.over = true) (ev : HEv) :
    ∃ t, (h.step I ev).strangers[r]? = some t ∧ t.over = true := by
  obtain ⟨t, ht, hto⟩ := ho
  have hlt : r < h.strangers.length := by
    rcases Nat.lt_or_ge r h.strangers.length with hh | hh
    · exact hh
    · rw [List.getElem?_eq_none hh] at ht; cases ht
  have seti : ∀ (k : Nat) (u : Stranger), (k = r → u.over = true) → ∃ t, (h.strangers.set k u)[r]? = some t ∧ t.over = true := by
    intro k u hu
    by_cases hk : k = r
    · subst hk; exact ⟨u, by simp [List.getElem?_set, hlt], hu rfl⟩
    · exact ⟨t, by simp [List.getElem?_set, hk, ht], hto⟩
  cases ev with
  | dial a b => exact ⟨t, ht, hto⟩
  | stranger a => exact ⟨t, by simp only [HWorld.step]; rw [List.getElem?_append_left hlt]; exact ht, hto⟩
  | strangerSends k b =>
    simp only [HWorld.step]
    cases hk : h.strangers[k]? with
    | none => exact ⟨t, ht, hto⟩
    | some u =>
      simp only [HWorld.strangerReads]
      by_cases hkr : k = r
      · subst hkr
        rw [ht] at hk; cases hk
        simp only [hto, Bool.true_or, if_true]
        exact ⟨t, ht, hto⟩
      · repeat' split
        all_goals first | exact ⟨t, ht, hto⟩ | exact seti k _ (fun h => absurd h hkr)
  | strangerLeaves k =>
    by_cases hk : k = r
    · subst hk; exact ⟨{ t with over := true }, by simp [HWorld.step, List.getElem?_modify, ht], rfl⟩
    · exact ⟨t, by simp [HWorld.step, List.getElem?_modify, hk, ht], hto⟩
  | net k e => exact ⟨t, ht, hto⟩
  | serve k =>
    refine ⟨t, ?_, hto⟩
    rw [← ht]
    simp only [HWorld.step]
    repeat' split
    all_goals rfl
  | act i ch =>
    refine ⟨t, ?_, hto⟩
    rw [← ht]
    simp only [HWorld.step]
    repeat' split
    all_goals rfl
  | restart => exact ⟨{ t with over := true }, by simp [HWorld.step, ht], rfl⟩

theorem over_fold {r : Nat} (evs : List HEv) : ∀ (h : HWorld E S), (∃ t, h.strangers[r]? = some t ∧ t.over = true) →
    ∃ t, (evs.foldl (HWorld.step I) h).strangers[r]? = some t ∧ t.over = true := by
  induction evs with
  | nil => intro h hh; exact hh
  | cons e evs ih => intro h hh; exact ih _ (over_step hh e)

/-- C80. Once the handshake of some other program with the server has come to its end - 136 bytes have been read, acceptable or
    not, or the program has gone away, or the server has -, nothing that program sends in that handshake has any effect, ever: in
    particular it has got at most one session out of it. -/
theorem C80_one_handshake_one_session (evs : List HEv) (r : Nat) (ev : HEv) (more : List HEv) (b : Bytes)
    (hr : r < (HWorld.run I E S st evs).strangers.length) (hb : StrangerBreaks I (HWorld.run I E S st evs) r ev) :
    HWorld.run I E S st (evs ++ ev :: (more ++ [.strangerSends r b])) = HWorld.run I E S st (evs ++ ev :: more) := by
  have hx := List.getElem?_eq_getElem hr
  have hd : ∃ t, ((HWorld.run I E S st evs).step I ev).strangers[r]? = some t ∧ t.over = true := by
    cases hb with
    | left => exact ⟨_, by simp only [HWorld.step, List.getElem?_modify, hx]; rfl, rfl⟩
    | restart => exact ⟨{ (HWorld.run I E S st evs).strangers[r] with over := true },
        by simp only [HWorld.step, List.getElem?_map, hx, Option.map_some], rfl⟩
    | last t c ht hl =>
      rw [hx] at ht; cases ht
      simp only [HWorld.step, hx, HWorld.strangerReads]
      by_cases ho : (HWorld.run I E S st evs).strangers[r].over = true
      · simp only [ho, Bool.true_or, if_true]; exact ⟨_, hx, ho⟩
      · simp only [Bool.not_eq_true] at ho
        rw [if_neg (by simp only [ho, hl]; simp), if_neg (by omega)]
        split <;> exact ⟨_, by simp only [List.getElem?_set, hr]; rfl, rfl⟩
  obtain ⟨t, h1, h2⟩ := over_fold (I := I) more _ hd
  rw [show evs ++ ev :: (more ++ [HEv.strangerSends r b]) = (evs ++ ev :: more) ++ [.strangerSends r b] by simp, run_append]
  have hrun : HWorld.run I E S st (evs ++ ev :: more) = more.foldl (HWorld.step I) ((HWorld.run I E S st evs).step I ev) := by
    rw [run_append]; rfl
  rw [← hrun] at h1
  simp only [List.foldl_cons, List.foldl_nil, HWorld.step, h1, HWorld.strangerReads, h2, Bool.true_or, if_true]

theorem feed_stranger (bs : List Bytes) : ∀ (h : HWorld E S) (t : Stranger) (r : Nat), h.strangers[r]? = some t → t.over = false →
    t.sin.length + bs.flatten.length < 136 →
    (bs.map (HEv.strangerSends r)).foldl (HWorld.step I) h = { h with strangers := h.strangers.set r { t with sin := t.sin ++ bs.flatten } } := by
  induction bs with
  | nil =>
    intro h t r ht _ _
    have : h.strangers.set r t = h.strangers := by
      apply List.ext_getElem?; intro i
      rw [List.getElem?_set]
      by_cases hi : r = i
      · subst hi
        rw [ht]; simp
        rcases Nat.lt_or_ge r h.strangers.length with hh | hh
        · exact hh
        · rw [List.getElem?_eq_none hh] at ht; cases ht
      · simp [hi]
    simp [this]
  | cons b bs ih =>
    intro h t r ht ho hl
    simp only [List.flatten_cons, List.length_append] at hl
    have hlt : r < h.strangers.length := by
      rcases Nat.lt_or_ge r h.strangers.length with hh | hh
      · exact hh
      · rw [List.getElem?_eq_none hh] at ht; cases ht
    have hst : HWorld.step I h (.strangerSends r b) = { h with strangers := h.strangers.set r { t with sin := t.sin ++ b } } := by
      simp only [HWorld.step, ht, HWorld.strangerReads, ho, List.length_append]
      rw [if_neg (by simp; omega), if_pos (by omega)]
    rw [List.map_cons, List.foldl_cons, hst, ih _ { t with sin := t.sin ++ b } r (by simp [List.getElem?_set, hlt]) ho
      (by simp only [List.length_append]; omega)]
    simp

/-- C80. A program that opens the socket and sends 136 bytes the server accepts, in whatever pieces, has a connection of its own with
    the session those bytes make, with nothing sent or received on it - and nothing else has changed. -/
theorem C80_acceptable_handshake_gets_in (evs : List HEv) (sr : ServerRand) (bs : List Bytes) (b' : Bytes) (out : Bytes) (s : Session S)
    (hl : (bs.flatten ++ b').length = 136) (hb' : b' ≠ []) (ha : serverAccept S I.K I.pk I.sk sr (bs.flatten ++ b') = .ok (out, s)) :
    let before := HWorld.run I E S st evs
    let r := before.strangers.length
    let after := HWorld.run I E S st (evs ++ .stranger sr :: (bs.map (HEv.strangerSends r) ++ [HEv.strangerSends r b']))
    after.sys = before.sys ∧ after.received before.conns.length = [] ∧
    ∃ (new : HConn S), after.conns = before.conns ++ [new] ∧ new.srv = some s ∧ new.x = some (Conn.init s.dec s.enc) := by
  intro before r after
  have hpos : 0 < b'.length := List.length_pos_iff.2 hb'
  have hlen := hl
  rw [List.length_append] at hlen
  let h0 : HWorld E S := { before with strangers := before.strangers ++ [⟨sr, [], false⟩] }
  have hr0 : h0.strangers[r]? = some ⟨sr, [], false⟩ := by simp [h0, r]
  let h1 : HWorld E S := { h0 with strangers := h0.strangers.set r ⟨sr, bs.flatten, false⟩ }
  have hr1 : h1.strangers[r]? = some ⟨sr, bs.flatten, false⟩ := by simp [h1, h0, r, List.getElem?_set]
  have e1 : (bs.map (HEv.strangerSends r)).foldl (HWorld.step I) h0 = h1 := by
    rw [feed_stranger bs h0 ⟨sr, [], false⟩ r hr0 rfl (by simp only [List.length_nil]; omega)]
    simp [h1]
  have hafter : after = h1.step I (.strangerSends r b') := by
    show HWorld.run I E S st _ = _
    rw [run_append, List.foldl_cons, List.foldl_append]
    rw [show HWorld.step I (HWorld.run I E S st evs) (.stranger sr) = h0 from rfl, e1]
    rfl
  have hstep : h1.step I (.strangerSends r b') = { h1 with
        strangers := h1.strangers.set r ⟨sr, bs.flatten, true⟩
        conns := h1.conns ++ [⟨none, sr, [], bs.flatten ++ b', none, some s, true, false, false, some (serverUp none false s)⟩] } := by
    simp only [HWorld.step, hr1, HWorld.strangerReads, ha]
    rw [if_neg (by simp only [hl]; simp), if_neg (by omega)]
  have hsys : after.sys = before.sys := by rw [hafter, hstep]
  refine ⟨hsys, ?_, ?_⟩
  · by_cases hrec : after.received before.conns.length = []
    · exact hrec
    exfalso
    have : before.received before.conns.length ≠ [] := by
      have he : after.received before.conns.length = before.received before.conns.length := by
        unfold HWorld.received; rw [hsys]
      rw [← he]; exact hrec
    obtain ⟨x, out, s, h3, -⟩ := C80_nothing_without_a_handshake evs _ this
    rw [show (HWorld.run I E S st evs).conns = before.conns from rfl, List.getElem?_eq_none (Nat.le_refl _)] at h3
    cases h3
  · rw [hafter, hstep]
    exact ⟨_, rfl, rfl, rfl⟩

/-! Concrete cases: GateEx.lean. -/

end Lair.Dial
