import Verif.Progress

/-
C87: whatever the scheduler does, every request is answered, as long as nothing breaks its connection and things that can go on do go on.

`World.Moves` (Progress.lean) is the small specification of what it means that something goes on; `World.Breaks` (Props/Usable.lean) lists what can do
damage to a connection.
-/
namespace Lair

variable {S : SStream} {E : Env} {st : E.S.σ}

/-- SPECIFICATION: what happens in `more`, after `evs`, does not break connection `c`. -/
def Unbroken (E : Env) (S : SStream) (st : E.S.σ) (c : Nat) (evs more : List (WEv S)) : Prop :=
  ∀ a e b, more = a ++ e :: b → ¬ (World.run E S st (evs ++ a)).Breaks c e

open Classical in
/-- SPECIFICATION: how many of these events bring something forward that concerns connection `c`. -/
noncomputable def World.moved (w : World E S) (c : Nat) : List (WEv S) → Nat
  | [] => 0
  | e :: es => (if w.Moves c e then 1 else 0) + World.moved (w.step e) c es

/-! ### Bounded work -/

theorem moved_le (L : S.Lawful) (c : Nat) (more : List (WEv S)) : ∀ (evs : List (WEv S)) (x : Conn S), (World.run E S st evs).conns[c]? = some x → x.Fine →
    Unbroken E S st c evs more → (∀ e ∈ more, ∀ id q, e ≠ .net c (.ask id q)) →
    (World.run E S st evs).moved c more + (World.run E S st (evs ++ more)).cost c ≤ (World.run E S st evs).cost c := by
  induction more with
  | nil => intro evs x _ _ _ _; simp [World.moved]
  | cons e more ih =>
    intro evs x hx hf hb ha
    have hbe : ¬ (World.run E S st evs).Breaks c e := by simpa using hb [] e more rfl
    obtain ⟨x1, h1, h2⟩ := C85_only_these_break L evs c x hx hf e hbe
    have hr : World.run E S st (evs ++ [e]) = (World.run E S st evs).step e := by simp [World.run]
    have hstep := cost_step L evs c x hx hf e hbe (ha e (by simp))
    have := ih (evs ++ [e]) x1 h1 h2 (fun a e' b hab => by
      have := hb (e :: a) e' b (by rw [hab]; rfl)
      simpa using this) (fun e' he' => ha e' (List.mem_cons_of_mem _ he'))
    rw [hr, List.append_assoc] at this
    simp only [List.cons_append, List.nil_append] at this
    simp only [World.moved]
    split
    · rename_i hm; have := hstep.2 hm; omega
    · have := hstep.1; omega

theorem unbroken_start (L : S.Lawful) (evs more : List (WEv S)) (u v : S.St)
    (hb : Unbroken E S st (World.run E S st evs).conns.length (evs ++ [.connect u v]) more) :
    ∃ x, (World.run E S st (evs ++ .connect u v :: more)).conns[(World.run E S st evs).conns.length]? = some x ∧ x.Fine ∧
      InFlight (World.run E S st (evs ++ .connect u v :: more)).sys (World.run E S st evs).conns.length x := by
  have hrun : World.run E S st (evs ++ [.connect u v]) = (World.run E S st evs).step (.connect u v) := by simp [World.run]
  have hx0 : (World.run E S st (evs ++ [.connect u v])).conns[(World.run E S st evs).conns.length]? = some (Conn.init u v) := by
    rw [hrun]; simp [World.step]
  have hinit : InFlight (World.run E S st (evs ++ [.connect u v])).sys (World.run E S st evs).conns.length (Conn.init u v : Conn S) := by
    refine .init u v ?_
    intro d' hd' hdc
    rw [hrun] at hd'
    have hd'' : d' ∈ (World.run E S st evs).sys.done := hd'
    have hw := worldInv_run (S := S) st evs
    have hids : IdInv (World.run E S st evs).sys := by rw [hw.sys]; exact idInv_run st _
    have := hw.known _ (List.mem_of_getElem? (hids.done d' hd'').1)
    rw [hdc] at this
    exact Nat.lt_irrefl _ this
  obtain ⟨x, h⟩ := inFlight_history L (evs ++ [.connect u v]) more _ _ hx0 ⟨rfl, .init u, .init v⟩ hinit (fun a e b hab => hb a e b hab)
  have hassoc : evs ++ [.connect u v] ++ more = evs ++ .connect u v :: more := by simp
  rw [hassoc] at h
  exact ⟨x, h⟩

/-- C87. There is a bound to what can still be done on a connection: after any undisturbed history on it, at most `N` of the events of any undisturbed
    continuation without new requests - however long, whatever happens on other connections - bring something forward on it. -/
theorem C87_work_is_bounded (L : S.Lawful) (evs more : List (WEv S)) (u v : S.St) :
    let c := (World.run E S st evs).conns.length
    let pre := evs ++ .connect u v :: more
    Unbroken E S st c (evs ++ [.connect u v]) more →
    ∃ N, ∀ cont, Unbroken E S st c pre cont → (∀ e ∈ cont, ∀ id q, e ≠ .net c (.ask id q)) → (World.run E S st pre).moved c cont ≤ N := by
  intro c pre hb
  obtain ⟨x, hx, hf, -⟩ := unbroken_start L evs more u v hb
  refine ⟨(World.run E S st pre).cost c, fun cont h1 h2 => ?_⟩
  have := moved_le L c cont pre x hx hf h1 h2
  omega

/-! ### When nothing can go on -/

theorem idle_over (L : S.Lawful) (evs : List (WEv S)) (c : Nat) (x : Conn S) (hx : (World.run E S st evs).conns[c]? = some x) (hf : x.Fine)
    (hi : InFlight (World.run E S st evs).sys c x) (hn : (x.asked.map Asked.id).Nodup) (hno : ∀ e, ¬ (World.run E S st evs).Moves c e) :
    ∀ (k : Nat) (q : CReq), x.cli.reqs[k]? = some q → ¬ q.active := by
  intro k q hq hqa
  obtain ⟨hu, hd⟩ := fine_good L hx hf
  have hc := (worldInv_run st evs).conns c x hx
  have hnet : ∀ e, ¬ x.Moves e := fun e he => hno (.net c e) ⟨rfl, x, hx, he⟩
  have fu : LinkFull x.up [] := hu.full L (fun e he => hnet (.upSend e) he) (fun b h1 h2 => hnet (.upArrive b) ⟨h1, h2⟩)
    (fun m hm => hno (.serve c) ⟨rfl, x, m, hx, hm⟩)
  have fd : LinkFull x.down [] := hd.full L (fun e he => hnet (.downSend e) he) (fun b h1 h2 => hnet (.downArrive b) ⟨h1, h2⟩)
    (fun m hm => hnet .poll ⟨m, hm⟩)
  have hlen : x.cli.reqs.length = x.asked.length := by simpa using congrArg List.length (ids_of hc)
  have hs : Settled (World.run E S st evs) c x :=
    ⟨hx, ⟨fu.quiet L, fd.quiet L, hf.here, ended_of_good L (connWire_run L st evs c x hx) hd, hlen⟩, fu, fd, hi⟩
  have hka : k < x.asked.length := by rw [← hlen]; exact (List.getElem?_eq_some_iff.mp hq).1
  have ha : x.asked[k]? = some x.asked[k] := List.getElem?_eq_getElem hka
  have hqid : q.id = x.asked[k].id := by
    have := congrArg (fun l => l[k]?) (ids_of hc)
    simp only [List.getElem?_map, hq, ha, Option.map_some, Option.some.injEq] at this
    exact this
  obtain ⟨hcall, hgot⟩ := hs.running_got hn ha hq hqa
  obtain ⟨s1, s2⟩ := hi.slot hs.ready.loop hn k q hq hqa
  rcases hi.taken hf.here _ hgot with ⟨t, ht, htc, -⟩ | ⟨d, hdm, hdc, hmsg⟩
  · obtain ⟨i, hti⟩ := List.mem_iff_getElem?.mp ht
    exact hno (.act i ⟨fun n => B.fill n 0, 0, .error "", none⟩) ⟨t, hti, htc⟩
  · have hne : q.slot ≠ .empty := by
      intro hem
      refine s2 hem _ (hs.done_got hdm hdc) ?_
      rw [hqid, hmsg]; rfl
    rcases hqa with hp | hp
    · exact hnet (.asked k) ⟨_, _, _, q, ha, hcall, hq, hp⟩
    · exact hnet (.wake k) ⟨q, hq, hp, hne⟩

/-- C87. No request is forgotten: after any undisturbed history of a connection, if a request still runs on it then something on it can go on. -/
theorem C87_running_means_something_can_move (L : S.Lawful) (evs more : List (WEv S)) (u v : S.St) :
    let c := (World.run E S st evs).conns.length
    let w := World.run E S st (evs ++ .connect u v :: more)
    Unbroken E S st c (evs ++ [.connect u v]) more → w.FreshIds c → ∀ k, w.running c k → ∃ e, w.Moves c e := by
  intro c w hb hfresh k hr
  obtain ⟨x, hx, hf, hi⟩ := unbroken_start L evs more u v hb
  by_cases hno : ∃ e, w.Moves c e
  · exact hno
  · obtain ⟨y, q, hy, hq, hqa⟩ := hr
    have hy' : (World.run E S st (evs ++ .connect u v :: more)).conns[c]? = some y := hy
    rw [hx] at hy'; cases hy'
    exact absurd hqa (idle_over L _ c x hx hf hi (hfresh x hx) (fun e he => hno ⟨e, he⟩) k q hq)

/-! ### What a request ends with -/

theorem phase_kept (s : CliSt) (e : CEv) {k : Nat} {q : CReq} (hk : s.reqs[k]? = some q) (h1 : ∀ r, e ≠ .sent k r) (h2 : e ≠ .wake k) (h3 : e ≠ .timeout k)
    (h4 : e ≠ .cancel k) (h5 : e ≠ .connEnd) (h6 : ∀ id, e ≠ .start id) : ∃ q', (s.step e).reqs[k]? = some q' ∧ q'.phase = q.phase := by
  have same : ∃ q', s.reqs[k]? = some q' ∧ q'.phase = q.phase := ⟨q, hk, rfl⟩
  have fin : ∀ j id p, j ≠ k → ∃ q', (s.finish j id p).reqs[k]? = some q' ∧ q'.phase = q.phase := by
    intro j id p hj
    rw [finish_reqs, hk]
    refine ⟨_, rfl, ?_⟩
    simp only [if_neg hj]
    split <;> simp
  cases e with
  | start id => exact absurd rfl (h6 id)
  | sent j r =>
    have hj : j ≠ k := fun hj => h1 r (by rw [hj])
    simp only [CliSt.step]
    split
    · split
      · rw [List.getElem?_modify, hk]
        exact ⟨q, by simp [hj], rfl⟩
      · exact fin j _ _ hj
    · exact same
  | arrive m =>
    simp only [CliSt.step]
    split
    · exact same
    · split
      · exact same
      · rename_i j hj
        show ∃ q', (s.reqs.modify j (CReq.deliver m))[k]? = some q' ∧ _
        rw [List.getElem?_modify, hk]
        by_cases hjk : j = k
        · refine ⟨q.deliver m, by simp [hjk], ?_⟩
          obtain ⟨id, ph, sl⟩ := q
          cases sl <;> rfl
        · exact ⟨q, by simp [hjk], rfl⟩
  | wake j =>
    have hj : j ≠ k := fun hj => h2 (by rw [hj])
    simp only [CliSt.step]
    split
    · exact fin j _ _ hj
    · exact fin j _ _ hj
    · exact same
  | timeout j =>
    have hj : j ≠ k := fun hj => h3 (by rw [hj])
    simp only [CliSt.step]
    split
    · exact fin j _ _ hj
    · exact fin j _ _ hj
    · exact fin j _ _ hj
    · exact same
  | cancel j =>
    have hj : j ≠ k := fun hj => h4 (by rw [hj])
    simp only [CliSt.step]
    split
    · exact fin j _ _ hj
    · exact fin j _ _ hj
    · exact same
  | connEnd => exact absurd rfl h5

/-- Running, or ended with a message. Proof device: nothing in the code corresponds. -/
def CReq.Well (q : CReq) : Prop := q.active ∨ ∃ m, q.phase = .done (.ok m)

theorem CReq.Well.of_phase {q q' : CReq} (h : q.Well) (hp : q'.phase = q.phase) : q'.Well := by
  rcases h with (h | h) | ⟨m, h⟩
  · exact Or.inl (Or.inl (hp.trans h))
  · exact Or.inl (Or.inr (hp.trans h))
  · exact Or.inr ⟨m, hp.trans h⟩

/-- On a connection on which nothing goes wrong a request that is not given up, and whose time is not over, runs on or ends with an answer. -/
theorem well_step (L : S.Lawful) (evs : List (WEv S)) (c : Nat) (x : Conn S) (hx : (World.run E S st evs).conns[c]? = some x) (hf : x.Fine)
    (hi : InFlight (World.run E S st evs).sys c x) (hn : (x.asked.map Asked.id).Nodup) {k : Nat} {q : CReq} (hq : x.cli.reqs[k]? = some q) (hqw : q.Well)
    (ev : WEv S) (ha : ∀ id q, ev ≠ .net c (.ask id q)) (hca : ev ≠ .net c (.cancel k)) (hti : ev ≠ .net c (.timeout k)) :
    ∃ x', (World.run E S st (evs ++ [ev])).conns[c]? = some x' ∧ x'.asked = x.asked ∧ ∃ q', x'.cli.reqs[k]? = some q' ∧ q'.Well := by
  have hr : World.run E S st (evs ++ [ev]) = (World.run E S st evs).step ev := by simp [World.run]
  rw [hr]
  obtain ⟨hu, hd⟩ := fine_good L hx hf
  have hlt := (List.getElem?_eq_some_iff.mp hx).1
  have hend := ended_of_good L (connWire_run L st evs c x hx) hd
  have hc := (worldInv_run st evs).conns c x hx
  generalize World.run E S st evs = w at *
  have keep : ∀ x' : Conn S, x'.asked = x.asked → x'.cli = x.cli → x'.asked = x.asked ∧ ∃ q', x'.cli.reqs[k]? = some q' ∧ q'.Well :=
    fun x' h1 h2 => ⟨h1, q, by rw [h2]; exact hq, hqw⟩
  have nokeep : ∀ ce : CEv, (∀ r, ce ≠ .sent k r) → ce ≠ .wake k → ce ≠ .timeout k → ce ≠ .cancel k → ce ≠ .connEnd → (∀ id, ce ≠ .start id) →
      ∃ q', (x.cli.step ce).reqs[k]? = some q' ∧ q'.Well := by
    intro ce g1 g2 g3 g4 g5 g6
    obtain ⟨q', h1, h2⟩ := phase_kept x.cli ce hq g1 g2 g3 g4 g5 g6
    exact ⟨q', h1, hqw.of_phase h2⟩
  cases ev with
  | connect u d => exact ⟨x, by simp only [World.step]; rw [List.getElem?_append_left hlt]; exact hx, rfl, q, hq, hqw⟩
  | restart =>
    refine ⟨{ x with gone := true }, ?_, keep _ rfl rfl⟩
    show (w.conns.map _)[c]? = _
    rw [List.getElem?_map, hx]; rfl
  | serve d =>
    have hmod : ∃ x', (w.conns.modify d (fun x => { x with up := x.up.poll }))[c]? = some x' ∧ x'.asked = x.asked ∧
        ∃ q', x'.cli.reqs[k]? = some q' ∧ q'.Well := by
      rw [List.getElem?_modify, hx]
      by_cases hdc : d = c
      · exact ⟨{ x with up := x.up.poll }, by simp [hdc], keep _ rfl rfl⟩
      · exact ⟨x, by simp [hdc], keep _ rfl rfl⟩
    simp only [World.step]
    split
    · exact ⟨x, hx, keep _ rfl rfl⟩
    · split
      · exact ⟨x, hx, keep _ rfl rfl⟩
      · split
        · exact hmod
        · exact hmod
  | act i ch =>
    simp only [World.step]
    split
    · exact ⟨x, hx, keep _ rfl rfl⟩
    · rename_i t ht
      split
      · rename_i o ho
        show ∃ x', (w.conns.modify t.conn (fun x => x.reply t.msg.id o))[c]? = some x' ∧ _
        rw [List.getElem?_modify, hx]
        by_cases htc : t.conn = c
        · refine ⟨x.reply t.msg.id o, by simp [htc], keep _ ?_ ?_⟩ <;> cases o <;> rfl
        · exact ⟨x, by simp [htc], keep _ rfl rfl⟩
      · exact ⟨x, hx, keep _ rfl rfl⟩
  | net d e =>
    simp only [World.step]
    rw [List.getElem?_modify, hx]
    by_cases hdc : ¬ d = c
    · exact ⟨x, by simp [hdc], keep _ rfl rfl⟩
    have hdc : d = c := Classical.not_not.mp hdc
    subst hdc
    refine ⟨x.step e, by simp, ?_⟩
    cases e with
    | ask id q => exact absurd rfl (ha id q)
    | asked j =>
      simp only [Conn.step]
      split
      · rename_i a haj
        split
        · rename_i mo r hcall
          refine ⟨rfl, ?_⟩
          show ∃ q', (x.cli.step (.sent j r)).reqs[k]? = some q' ∧ _
          by_cases hjk : j = k
          · subst hjk
            have hr : r = .ok () := by
              cases r with
              | ok u => rfl
              | error er => exact absurd (show SPhase.bad (.done (.error er)) from trivial) (hu.fine.clean.2 _ _ hcall)
            subst hr
            simp only [CliSt.step]
            split
            · rename_i id sl hq0
              rw [hq] at hq0; cases hq0
              refine ⟨⟨id, .waiting, sl⟩, ?_, Or.inl (Or.inr rfl)⟩
              show (x.cli.reqs.modify j _)[j]? = _
              rw [List.getElem?_modify, hq]; simp
            · exact ⟨q, hq, hqw⟩
          · exact nokeep _ (fun r' h => hjk (by cases h; rfl)) (by simp) (by simp) (by simp) (by simp) (by simp)
        · exact ⟨rfl, q, hq, hqw⟩
      · exact ⟨rfl, q, hq, hqw⟩
    | wake j =>
      refine ⟨rfl, ?_⟩
      show ∃ q', (x.cli.step (.wake j)).reqs[k]? = some q' ∧ _
      by_cases hjk : j = k
      · subst hjk
        simp only [CliSt.step]
        split
        · rename_i id m hq0
          obtain ⟨q', h1, h2⟩ := finish_cost x.cli j id (.ok m) hq
          exact ⟨q', h1, Or.inr ⟨m, h2⟩⟩
        · rename_i id hq0
          rw [hq] at hq0; cases hq0
          exact absurd rfl (hi.slot hend hn j _ hq (Or.inr rfl)).1
        · exact ⟨q, hq, hqw⟩
      · exact nokeep _ (by simp) (fun h => hjk (by cases h; rfl)) (by simp) (by simp) (by simp) (by simp)
    | timeout j =>
      have hjk : j ≠ k := fun h => hti (by rw [h])
      refine ⟨rfl, ?_⟩
      exact nokeep (.timeout j) (by simp) (by simp) (fun h => hjk (by cases h; rfl)) (by simp) (by simp) (by simp)
    | cancel j =>
      have hjk : j ≠ k := fun h => hca (by rw [h])
      simp only [Conn.step]
      split
      · refine ⟨rfl, ?_⟩
        exact nokeep (.cancel j) (by simp) (by simp) (by simp) (fun h => hjk (by cases h; rfl)) (by simp) (by simp)
      · exact ⟨rfl, q, hq, hqw⟩
    | poll =>
      simp only [Conn.step]
      split
      · rename_i m hp
        refine ⟨rfl, ?_⟩
        exact nokeep (.arrive m) (by simp) (by simp) (by simp) (by simp) (by simp) (by simp)
      · rename_i hp
        exfalso
        obtain ⟨-, -, _, _, -, -, -, -, -, hall⟩ := hd.poll.todo L
        have hrun : ((MsgRecv.ops S).run (.init x.down.start) (x.down.net ++ [.poll])).1 = ((MsgRecv.ops S).run (.init x.down.start) x.down.net).1 ++ [x.down.rcv.poll.1] := by
          rw [run_snoc, ← hd.hist.rcv]; rfl
        have hmem : (Polled.finished : Polled Msg) ∈ ((MsgRecv.ops S).run (.init x.down.start) (x.down.net ++ [.poll])).1 := by
          rw [hrun, hp]; simp
        rcases hall _ hmem with h | ⟨m, h⟩ <;> cases h
      · exact keep _ rfl rfl
    | upSend e => simp only [Conn.step]; split <;> exact keep _ rfl rfl
    | downSend e => simp only [Conn.step]; split <;> exact keep _ rfl rfl
    | downRetry j =>
      simp only [Conn.step]
      split
      · exact keep _ rfl rfl
      · split
        · split <;> exact keep _ rfl rfl
        · exact keep _ rfl rfl
    | downShutdown => simp only [Conn.step]; split <;> exact keep _ rfl rfl
    | shutdown => exact keep _ rfl rfl
    | upArrive b => exact keep _ rfl rfl
    | upClose => exact keep _ rfl rfl
    | downArrive b => exact keep _ rfl rfl
    | downClose => exact keep _ rfl rfl

/-- A message a request has ended with is the outcome of a handling of this request. -/
theorem done_answered (L : S.Lawful) (hst : GoodStore E st) (evs : List (WEv S)) (c : Nat) (y : Conn S) (hy : (World.run E S st evs).conns[c]? = some y)
    (hyf : y.Fine) (hy2 : InFlight (World.run E S st evs).sys c y) (hyn : (y.asked.map Asked.id).Nodup) {k : Nat} {a : Asked} {q : CReq} {m : Msg}
    (hya : y.asked[k]? = some a) (hyq : y.cli.reqs[k]? = some q) (hph : q.phase = .done (.ok m)) :
    Answered (World.run E S st evs) c k a := by
  obtain ⟨hu, hd⟩ := fine_good L hy hyf
  have typed := fun o => typed_outcome hst evs (c := c) (id := a.id) (q := a.req) (o := o)
  have handled := fun d => handled_asked (d := d) L hy hu
  have hw := worldInv_run (S := S) st evs
  generalize World.run E S st evs = w at *
  have hc := hw.conns c y hy
  obtain ⟨pos, hpos, -⟩ := C29_response_is_own y.cevs
  have hyq' := hyq
  rw [hc.cli] at hyq'
  obtain ⟨g1, g2, g3, -⟩ := hpos k q m hyq' hph
  rw [hc.starts, List.getElem?_map, hya] at g2
  simp at g2
  have hmg := hc.arr _ (List.mem_of_getElem? g3)
  obtain ⟨-, -, td, _, -, -, -, -, hall, -⟩ := hd.todo L
  have hp : m ∈ y.down.pushed.map Prod.snd := by rw [hall]; exact List.mem_append_left _ hmg
  obtain ⟨p, hp1, hp2⟩ := List.mem_map.mp hp
  obtain ⟨ph, h2, -⟩ := hc.down.mem p hp1
  obtain ⟨d, hdd, hdc, hdm⟩ := hy2.exact_ hyf.down.clean _ _ _ h2
  obtain ⟨a', ha', hda⟩ := handled d hdd hdc
  rw [hp2] at hdm
  have haa : a' = a := by
    refine nodup_map_inj hyn ha' (List.mem_of_getElem? hya) ?_
    rw [hdm, hda] at g1
    exact g1.trans g2.symm
  subst haa
  refine ⟨d, hdd, hdc, hda, ?_⟩
  have hres : w.result c k = some (typedResult a'.req (.ok m)) := by
    obtain ⟨qid, qph, qsl⟩ := q
    simp only at hph
    subst hph
    unfold World.result
    rw [hy]
    simp only [hya, hyq]
  rw [hres, hdm, hda]
  show some (typedResult a'.req (.ok (.res a'.id (.ofOutcome d.outcome)))) = _
  rw [typed d.outcome ⟨d, hdd, hdc, hda, rfl⟩]

/-! ### The requests of a connection -/

/-- One event leaves the list of requests; the client's table makes at most one step. -/
theorem table_step {w : World E S} {c : Nat} {x x' : Conn S} (hx : w.conns[c]? = some x) {ev : WEv S} (hx' : (w.step ev).conns[c]? = some x')
    (ha : ∀ id q, ev ≠ .net c (.ask id q)) :
    x'.asked = x.asked ∧ (x'.cli = x.cli ∨ ∃ ce : CEv, (∀ id, ce ≠ .start id) ∧ x'.cli = x.cli.step ce) := by
  have hlt := (List.getElem?_eq_some_iff.mp hx).1
  have hmod : ∀ {d : Nat} {f : Conn S → Conn S} {y : Conn S}, (w.conns.modify d f)[c]? = some y → y = x ∨ d = c ∧ y = f x := by
    intro d f y hy
    rw [List.getElem?_modify, hx] at hy
    by_cases hdc : d = c
    · right; simp [hdc] at hy; exact ⟨hdc, hy.symm⟩
    · left; simp [hdc] at hy; exact hy.symm
  have hsame : ∀ {y : Conn S}, w.conns[c]? = some y → y.asked = x.asked ∧ (y.cli = x.cli ∨ ∃ ce : CEv, (∀ id, ce ≠ .start id) ∧ y.cli = x.cli.step ce) := by
    intro y hy
    rw [hx] at hy; cases hy
    exact ⟨rfl, Or.inl rfl⟩
  cases ev with
  | connect u d =>
    have h : (w.conns ++ [Conn.init u d])[c]? = some x' := hx'
    rw [List.getElem?_append_left hlt] at h
    exact hsame h
  | restart =>
    have h : (w.conns.map (fun x => { x with gone := true }))[c]? = some x' := hx'
    rw [List.getElem?_map, hx] at h
    cases h
    exact ⟨rfl, Or.inl rfl⟩
  | serve d =>
    have hm : ∀ {y : Conn S}, (w.conns.modify d (fun x => { x with up := x.up.poll }))[c]? = some y →
        y.asked = x.asked ∧ (y.cli = x.cli ∨ ∃ ce : CEv, (∀ id, ce ≠ .start id) ∧ y.cli = x.cli.step ce) := by
      intro y hy
      rcases hmod hy with rfl | ⟨-, rfl⟩ <;> exact ⟨rfl, Or.inl rfl⟩
    simp only [World.step] at hx'
    split at hx'
    · exact hsame hx'
    · split at hx'
      · exact hsame hx'
      · split at hx'
        · exact hm hx'
        · exact hm hx'
  | act i ch =>
    simp only [World.step] at hx'
    split at hx'
    · exact hsame hx'
    · split at hx'
      · rename_i o _
        have h : (w.conns.modify _ (fun x => x.reply _ o))[c]? = some x' := hx'
        rcases hmod h with rfl | ⟨-, rfl⟩
        · exact ⟨rfl, Or.inl rfl⟩
        · cases o <;> exact ⟨rfl, Or.inl rfl⟩
      · exact hsame hx'
  | net d e =>
    have h : (w.conns.modify d (fun x => x.step e))[c]? = some x' := hx'
    rcases hmod h with rfl | ⟨rfl, rfl⟩
    · exact ⟨rfl, Or.inl rfl⟩
    cases e with
    | ask id q => exact absurd rfl (ha id q)
    | asked k =>
      simp only [Conn.step]
      split
      · split
        · exact ⟨rfl, Or.inr ⟨(.sent k _ : CEv), fun id h => CEv.noConfusion h, rfl⟩⟩
        · exact ⟨rfl, Or.inl rfl⟩
      · exact ⟨rfl, Or.inl rfl⟩
    | wake k => exact ⟨rfl, Or.inr ⟨(.wake k : CEv), fun id h => CEv.noConfusion h, rfl⟩⟩
    | timeout k => exact ⟨rfl, Or.inr ⟨(.timeout k : CEv), fun id h => CEv.noConfusion h, rfl⟩⟩
    | cancel k =>
      simp only [Conn.step]
      split
      · exact ⟨rfl, Or.inr ⟨(.cancel k : CEv), fun id h => CEv.noConfusion h, rfl⟩⟩
      · exact ⟨rfl, Or.inl rfl⟩
    | poll =>
      simp only [Conn.step]
      split
      · exact ⟨rfl, Or.inr ⟨(.arrive _ : CEv), fun id h => CEv.noConfusion h, rfl⟩⟩
      · exact ⟨rfl, Or.inr ⟨.connEnd, by simp, rfl⟩⟩
      · exact ⟨rfl, Or.inl rfl⟩
    | upSend e => simp only [Conn.step]; split <;> exact ⟨rfl, Or.inl rfl⟩
    | downSend e => simp only [Conn.step]; split <;> exact ⟨rfl, Or.inl rfl⟩
    | downRetry j =>
      simp only [Conn.step]
      split
      · exact ⟨rfl, Or.inl rfl⟩
      · split
        · split <;> exact ⟨rfl, Or.inl rfl⟩
        · exact ⟨rfl, Or.inl rfl⟩
    | downShutdown => simp only [Conn.step]; split <;> exact ⟨rfl, Or.inl rfl⟩
    | shutdown => exact ⟨rfl, Or.inl rfl⟩
    | upArrive b => exact ⟨rfl, Or.inl rfl⟩
    | upClose => exact ⟨rfl, Or.inl rfl⟩
    | downArrive b => exact ⟨rfl, Or.inl rfl⟩
    | downClose => exact ⟨rfl, Or.inl rfl⟩

theorem asked_kept {w : World E S} {c : Nat} {x x' : Conn S} (hx : w.conns[c]? = some x) {ev : WEv S} (hx' : (w.step ev).conns[c]? = some x')
    (ha : ∀ id q, ev ≠ .net c (.ask id q)) : x'.asked = x.asked := (table_step hx hx' ha).1

theorem active_before {w : World E S} (hw : WorldInv st w) {c : Nat} {x x' : Conn S} (hx : w.conns[c]? = some x) {ev : WEv S}
    (hx' : (w.step ev).conns[c]? = some x') (ha : ∀ id q, ev ≠ .net c (.ask id q)) {k : Nat} {q' : CReq} (hq : x'.cli.reqs[k]? = some q') (hqa : q'.active) :
    ∃ q, x.cli.reqs[k]? = some q ∧ q.active := by
  rcases (table_step hx hx' ha).2 with h | ⟨ce, hce, h⟩
  · exact ⟨q', by rw [← h]; exact hq, hqa⟩
  · rw [h] at hq
    obtain ⟨q, h1, h2⟩ := req_before (cinv_of (hw.conns c x hx)) hce hq
    exact ⟨q, h1, h2.active hqa⟩

/-! ### Any schedule -/

/-- SPECIFICATION: the state after the first `n` events of an endless schedule that goes on from a history. -/
def World.after (E : Env) (S : SStream) (st : E.S.σ) (pre : List (WEv S)) (σ : Nat → WEv S) (n : Nat) : World E S :=
  World.run E S st (pre ++ (List.range n).map σ)

theorem after_succ (pre : List (WEv S)) (σ : Nat → WEv S) (n : Nat) :
    World.after E S st pre σ (n + 1) = World.run E S st (pre ++ (List.range n).map σ ++ [σ n]) := by
  simp [World.after, List.range_succ]

theorem after_fine (L : S.Lawful) {pre : List (WEv S)} {σ : Nat → WEv S} {c : Nat} {x : Conn S} (hx : (World.run E S st pre).conns[c]? = some x) (hf : x.Fine)
    (hi : InFlight (World.run E S st pre).sys c x) (hb : ∀ n, ¬ (World.after E S st pre σ n).Breaks c (σ n)) (n : Nat) :
    ∃ x', (World.after E S st pre σ n).conns[c]? = some x' ∧ x'.Fine ∧ InFlight (World.after E S st pre σ n).sys c x' := by
  refine inFlight_history L pre _ c x hx hf hi ?_
  intro a e b hab
  have hlen : a.length < n := by
    have := congrArg List.length hab
    simp at this; omega
  have ha : a = (List.range a.length).map σ := by
    have := congrArg (List.take a.length) hab
    rw [List.take_left' rfl, ← List.map_take, List.take_range, Nat.min_eq_left (Nat.le_of_lt hlen)] at this
    exact this.symm
  have he : e = σ a.length := by
    have := congrArg (fun l => l[a.length]?) hab
    simp [hlen] at this
    exact this.symm
  have := hb a.length
  rw [he, ha]
  simpa [World.after] using this

theorem after_cost (L : S.Lawful) {pre : List (WEv S)} {σ : Nat → WEv S} {c : Nat} {x : Conn S} (hx : (World.run E S st pre).conns[c]? = some x) (hf : x.Fine)
    (hi : InFlight (World.run E S st pre).sys c x) (hb : ∀ n, ¬ (World.after E S st pre σ n).Breaks c (σ n)) (ha : ∀ n id q, σ n ≠ .net c (.ask id q)) (n : Nat) :
    (World.after E S st pre σ (n + 1)).cost c ≤ (World.after E S st pre σ n).cost c ∧
      ((World.after E S st pre σ n).Moves c (σ n) → (World.after E S st pre σ (n + 1)).cost c < (World.after E S st pre σ n).cost c) := by
  obtain ⟨x', h1, h2, -⟩ := after_fine L hx hf hi hb n
  have := cost_step L _ c x' h1 h2 (σ n) (hb n) (ha n)
  rw [after_succ, run_ext (pre ++ (List.range n).map σ)]
  exact this

theorem after_cost_mono (L : S.Lawful) {pre : List (WEv S)} {σ : Nat → WEv S} {c : Nat} {x : Conn S} (hx : (World.run E S st pre).conns[c]? = some x) (hf : x.Fine)
    (hi : InFlight (World.run E S st pre).sys c x) (hb : ∀ n, ¬ (World.after E S st pre σ n).Breaks c (σ n)) (ha : ∀ n id q, σ n ≠ .net c (.ask id q)) (n m : Nat) :
    (World.after E S st pre σ (n + m)).cost c ≤ (World.after E S st pre σ n).cost c := by
  induction m with
  | zero => exact Nat.le_refl _
  | succ m ih => exact Nat.le_trans (after_cost L hx hf hi hb ha (n + m)).1 ih

theorem eventually_idle (L : S.Lawful) {pre : List (WEv S)} {σ : Nat → WEv S} {c : Nat} {x : Conn S} (hx : (World.run E S st pre).conns[c]? = some x) (hf : x.Fine)
    (hi : InFlight (World.run E S st pre).sys c x) (hb : ∀ n, ¬ (World.after E S st pre σ n).Breaks c (σ n)) (ha : ∀ n id q, σ n ≠ .net c (.ask id q))
    (hgo : ∀ n, (∃ e, (World.after E S st pre σ n).Moves c e) → ∃ m, n ≤ m ∧ (World.after E S st pre σ m).Moves c (σ m)) :
    ∀ N n, (World.after E S st pre σ n).cost c ≤ N → ∃ T, ∀ e, ¬ (World.after E S st pre σ T).Moves c e := by
  intro N
  induction N with
  | zero =>
    intro n hn
    refine ⟨n, fun e he => ?_⟩
    obtain ⟨m, hm, hmv⟩ := hgo n ⟨e, he⟩
    have h1 := (after_cost L hx hf hi hb ha m).2 hmv
    have h2 := after_cost_mono L hx hf hi hb ha n (m - n)
    rw [show n + (m - n) = m by omega] at h2
    omega
  | succ N ih =>
    intro n hn
    by_cases h : ∃ e, (World.after E S st pre σ n).Moves c e
    · obtain ⟨m, hm, hmv⟩ := hgo n h
      have h1 := (after_cost L hx hf hi hb ha m).2 hmv
      have h2 := after_cost_mono L hx hf hi hb ha n (m - n)
      rw [show n + (m - n) = m by omega] at h2
      exact ih (m + 1) (by omega)
    · exact ⟨n, fun e he => h ⟨e, he⟩⟩

/-- C87. Every request is answered, whatever the scheduler does. A client connects; then anything happens that does not break its connection. From then
    on let the world run for ever in any way at all - any order of events, anything on the other connections, requests given up, times running
    out -, as long as (1) nothing happens that breaks this connection, (2) no further requests are made on it, (3) the schedule does
    not stall this connection: whenever something on it can go on, something on it does go on some time later. Then there
    is a time from which on no request runs on this connection any more; and every request that ran at the beginning, that was not given up
    and whose time did not run out, has for its result the outcome of a handling, by the server, of exactly this request. -/
theorem C87_every_request_is_answered (L : S.Lawful) (hst : GoodStore E st) (evs more : List (WEv S)) (u v : S.St) (σ : Nat → WEv S) :
    let c := (World.run E S st evs).conns.length
    let pre := evs ++ .connect u v :: more
    let W := World.after E S st pre σ
    Unbroken E S st c (evs ++ [.connect u v]) more → (W 0).FreshIds c →
    (∀ n, ¬ (W n).Breaks c (σ n)) →
    (∀ n id q, σ n ≠ .net c (.ask id q)) →
    (∀ n, (∃ e, (W n).Moves c e) → ∃ m, n ≤ m ∧ (W m).Moves c (σ m)) →
    ∃ T, ∀ n, T ≤ n → (∀ k, ¬ (W n).running c k) ∧
      ∀ k id q, (W 0).request c k = some (id, q) → (W 0).running c k → (∀ m, σ m ≠ .net c (.cancel k) ∧ σ m ≠ .net c (.timeout k)) →
        ∃ d ∈ (W n).sys.done, d.conn = c ∧ d.msg = .req id q ∧ (W n).result c k = some d.outcome := by
  intro c pre W hun hfresh hb ha hgo
  obtain ⟨x, hx, hf, hi⟩ := unbroken_start L evs more u v hun
  have hW0 : W 0 = World.run E S st pre := by simp [W, World.after]
  have hx0 : (W 0).conns[c]? = some x := by rw [hW0]; exact hx
  have hn0 : (x.asked.map Asked.id).Nodup := hfresh x hx0
  obtain ⟨T, hT⟩ := eventually_idle L hx hf hi hb ha hgo _ 0 (Nat.le_refl _)
  -- the requests are the same all the time
  have hasked : ∀ n, ∃ x', (W n).conns[c]? = some x' ∧ x'.Fine ∧ InFlight (W n).sys c x' ∧ x'.asked = x.asked := by
    intro n
    induction n with
    | zero => exact ⟨x, hx0, hf, by rw [hW0]; exact hi, rfl⟩
    | succ n ih =>
      obtain ⟨x1, h1, h2, h3, h4⟩ := ih
      obtain ⟨x2, g1, g2, g3⟩ := after_fine L hx hf hi hb (n + 1)
      refine ⟨x2, g1, g2, g3, ?_⟩
      have hg1 : (W (n + 1)).conns[c]? = some x2 := g1
      have hWs : W (n + 1) = (W n).step (σ n) := by
        show World.after E S st pre σ (n + 1) = _
        rw [after_succ, run_ext (pre ++ (List.range n).map σ)]; rfl
      rw [hWs] at hg1
      rw [← h4]
      exact asked_kept h1 hg1 (ha n)
  have hlen : ∀ n x', (W n).conns[c]? = some x' → x'.cli.reqs.length = x'.asked.length := by
    intro n x' hx'
    simpa using congrArg List.length (ids_of ((worldInv_run st (pre ++ (List.range n).map σ)).conns c x' hx'))
  have hquiet : ∀ n, T ≤ n → ∀ x', (W n).conns[c]? = some x' → ∀ (k : Nat) (q : CReq), x'.cli.reqs[k]? = some q → ¬ q.active := by
    intro n hn
    induction n with
    | zero =>
      have hT0 : T = 0 := by omega
      intro x' hx'
      obtain ⟨y, h1, h2, h3, h4⟩ := hasked 0
      rw [hx'] at h1; cases h1
      rw [hT0] at hT
      exact idle_over L _ c x' hx' h2 h3 (by rw [h4]; exact hn0) hT
    | succ n ih =>
      intro x' hx'
      by_cases hTn : T = n + 1
      · obtain ⟨y, h1, h2, h3, h4⟩ := hasked (n + 1)
        rw [hx'] at h1; cases h1
        rw [hTn] at hT
        exact idle_over L _ c x' hx' h2 h3 (by rw [h4]; exact hn0) hT
      · obtain ⟨y, h1, h2, h3, h4⟩ := hasked n
        intro k q hq hqa
        have hWs : W (n + 1) = (W n).step (σ n) := by
          show World.after E S st pre σ (n + 1) = _
          rw [after_succ, run_ext (pre ++ (List.range n).map σ)]; rfl
        rw [hWs] at hx'
        obtain ⟨q0, g1, g2⟩ := active_before (worldInv_run st (pre ++ (List.range n).map σ)) h1 hx' (ha n) hq hqa
        exact ih (by omega) y h1 k q0 g1 g2
  refine ⟨T, fun n hn => ⟨?_, ?_⟩⟩
  · rintro k ⟨y, q, hy, hq, hqa⟩
    exact hquiet n hn y hy k q hq hqa
  · rintro k id q hreq ⟨y, q0, hy, hq0, hqa⟩ hkeep
    rw [hx0] at hy; cases hy
    obtain ⟨y2, a, hy2, hak, rfl, rfl⟩ := request_some hreq
    rw [hx0] at hy2; cases hy2
    have hwell : ∀ n, ∃ x' q', (W n).conns[c]? = some x' ∧ x'.cli.reqs[k]? = some q' ∧ q'.Well := by
      intro n
      induction n with
      | zero => exact ⟨x, q0, hx0, hq0, Or.inl hqa⟩
      | succ n ih =>
        obtain ⟨x1, q1, h1, h2, h3⟩ := ih
        obtain ⟨y, g1, g2, g3, g4⟩ := hasked n
        rw [h1] at g1; cases g1
        obtain ⟨x2, e1, -, q2, e2, e3⟩ := well_step L _ c x1 h1 g2 g3 (by rw [g4]; exact hn0) h2 h3 (σ n) (ha n) (hkeep n).1 (hkeep n).2
        refine ⟨x2, q2, ?_, e2, e3⟩
        show (World.after E S st pre σ (n + 1)).conns[c]? = _
        rw [after_succ]; exact e1
    obtain ⟨x1, q1, h1, h2, h3⟩ := hwell n
    obtain ⟨y, g1, g2, g3, g4⟩ := hasked n
    rw [h1] at g1; cases g1
    rcases h3 with h3 | ⟨m, h3⟩
    · exact absurd h3 (hquiet n hn x1 h1 k q1 h2)
    · exact done_answered L hst _ c x1 h1 g2 g3 (by rw [g4]; exact hn0) (by rw [g4]; exact hak) h2 h3

end Lair
