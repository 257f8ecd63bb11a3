import Verif.InFlight
import Verif.Props.Usable

/-
C86: requests in flight on a connection on which nothing has gone wrong can all be answered.
-/
namespace Lair

variable {S : SStream} {E : Env} {st : E.S.σ}

/-- SPECIFICATION: request `k` of connection `c` has been made and is neither complete nor given up. -/
def World.running (w : World E S) (c k : Nat) : Prop :=
  ∃ x q, w.conns[c]? = some x ∧ x.cli.reqs[k]? = some q ∧ (q.phase = .sending ∨ q.phase = .waiting)

/-! ### Where things are, along a history -/

theorem inFlight_foldl {c : Nat} (evs : List (WEv S)) : ∀ {w : World E S} {x : Conn S}, WorldInv st w → w.conns[c]? = some x → InFlight w.sys c x →
    (∀ e ∈ evs, ∀ id q, e ≠ .net c (.ask id q)) →
    ∃ x', (evs.foldl World.step w).conns[c]? = some x' ∧ InFlight (evs.foldl World.step w).sys c x' := by
  induction evs with
  | nil => intro w x _ hx h _; exact ⟨x, hx, h⟩
  | cons e evs ih =>
    intro w x hw hx h hno
    obtain ⟨x1, h1, h2⟩ := inFlight_step hw hx h e (fun id q he => absurd he (hno e (by simp) id q))
    exact ih (hw.step e) h1 h2 (fun e' he' => hno e' (List.mem_cons_of_mem _ he'))

/-- What a client has got answers something it has asked. -/
theorem handled_asked (L : S.Lawful) {evs : List (WEv S)} {c : Nat} {x : Conn S} (hx : (World.run E S st evs).conns[c]? = some x) (hu : x.up.Good)
    {d : Done E} (hd : d ∈ (World.run E S st evs).sys.done) (hdc : d.conn = c) : ∃ a ∈ x.asked, d.msg = .req a.id a.req := by
  have hw := worldInv_run (S := S) st evs
  have hc := hw.conns c x hx
  have hids : IdInv (World.run E S st evs).sys := by rw [hw.sys]; exact idInv_run st _
  have hbox := (hids.done d hd).1
  rw [hdc] at hbox
  have hg := inbox_got hc hbox
  obtain ⟨-, -, td, _, -, -, -, -, hall, -⟩ := hu.todo L
  have hp : d.msg ∈ x.up.pushed.map Prod.snd := by rw [hall]; exact List.mem_append_left _ hg
  obtain ⟨p, hp1, hp2⟩ := List.mem_map.mp hp
  obtain ⟨ph, h2, -⟩ := hc.up.mem p hp1
  obtain ⟨a, ha, -, h3⟩ := hc.ups _ _ _ h2
  exact ⟨a, ha, by rw [← hp2]; exact h3⟩

theorem got_asked (L : S.Lawful) {evs : List (WEv S)} {c : Nat} {x : Conn S} (hx : (World.run E S st evs).conns[c]? = some x) (hf : x.Fine) :
    ∀ m ∈ x.down.got, ∃ a ∈ x.asked, a.id = m.id := by
  intro m hm
  obtain ⟨hu, hd⟩ := fine_good L hx hf
  have hc := (worldInv_run (S := S) st evs).conns c x hx
  obtain ⟨-, -, td, _, -, -, -, -, hall, -⟩ := hd.todo L
  have hp : m ∈ x.down.pushed.map Prod.snd := by rw [hall]; exact List.mem_append_left _ hm
  obtain ⟨p, hp1, hp2⟩ := List.mem_map.mp hp
  obtain ⟨ph, h2, -⟩ := hc.down.mem p hp1
  obtain ⟨d, hd, hdc, r, hr, -⟩ := hc.downs _ _ _ h2
  obtain ⟨a, ha, hda⟩ := handled_asked L hx hu hd hdc
  exact ⟨a, ha, by rw [← hp2, hr, hda]; rfl⟩

theorem inFlight_history (L : S.Lawful) (evs more : List (WEv S)) (c : Nat) (x : Conn S) (hx : (World.run E S st evs).conns[c]? = some x) (hf : x.Fine)
    (hi : InFlight (World.run E S st evs).sys c x)
    (hb : ∀ a e b, more = a ++ e :: b → ¬ (World.run E S st (evs ++ a)).Breaks c e) :
    ∃ x', (World.run E S st (evs ++ more)).conns[c]? = some x' ∧ x'.Fine ∧ InFlight (World.run E S st (evs ++ more)).sys c x' := by
  induction more generalizing evs x with
  | nil => exact ⟨x, by simpa using hx, hf, by simpa using hi⟩
  | cons e more ih =>
    obtain ⟨x1, h1, h2⟩ := C85_only_these_break L evs c x hx hf e (by simpa using hb [] e more rfl)
    obtain ⟨x1', h1', h3⟩ := inFlight_step (worldInv_run st evs) hx hi e (fun _ _ _ => got_asked L hx hf)
    have hr : World.run E S st (evs ++ [e]) = (World.run E S st evs).step e := by simp [World.run]
    rw [← hr] at h1' h3
    rw [h1] at h1'; cases h1'
    obtain ⟨x2, g1, g2, g3⟩ := ih (evs ++ [e]) x1 h1 h2 h3 (fun a e' b hab => by
      have := hb (e :: a) e' b (by rw [hab]; rfl)
      simpa using this)
    exact ⟨x2, by simpa using g1, g2, by simpa using g3⟩

/-! ### One request -/

theorem act_end (i : Nat) (ch : Choice) (t : Thread E) (w : World E S) (ht : w.sys.threads[i]? = some t) {o : Res Resp} (ho : outcomeOf t.prog = some o) :
    ∃ n o, ((List.replicate n (WEv.act i ch)).foldl World.step w).conns = w.conns.modify t.conn (fun x => x.reply t.msg.id o) ∧
      ∃ d ∈ ((List.replicate n (WEv.act i ch)).foldl World.step w).sys.done, d.conn = t.conn ∧ d.msg = t.msg ∧ d.outcome = o := by
  have hw : w.step (.act i ch) = { w.sysStep (.step i ch) with conns := w.conns.modify t.conn (fun x => x.reply t.msg.id o) } := by
    simp only [World.step, ht, ho]
  refine ⟨1, o, ?_, ?_⟩
  · simp only [List.replicate_one, List.foldl_cons, List.foldl_nil, hw]
  · simp only [List.replicate_one, List.foldl_cons, List.foldl_nil, hw]
    exact done_born w.sys i ch ht ho

/-- A request in the server is handled to its end. -/
theorem act_at (i : Nat) (ch : Choice) (p : Prog Resp) (t : Thread E) (w : World E S) (hp : t.prog = p) (ht : w.sys.threads[i]? = some t) :
    ∃ n o, ((List.replicate n (WEv.act i ch)).foldl World.step w).conns = w.conns.modify t.conn (fun x => x.reply t.msg.id o) ∧
      ∃ d ∈ ((List.replicate n (WEv.act i ch)).foldl World.step w).sys.done, d.conn = t.conn ∧ d.msg = t.msg ∧ d.outcome = o := by
  induction p generalizing t w with
  | ret r => exact act_end i ch t w ht (o := .ok r) (by rw [hp]; rfl)
  | fail e => exact act_end i ch t w ht (o := .error e) (by rw [hp]; rfl)
  | step a k ih =>
    have hw : w.step (.act i ch) = w.sysStep (.step i ch) := by simp only [World.step, ht, hp, outcomeOf]
    have ht' : (w.step (.act i ch)).sys.threads[i]? = some { t with log := t.log ++ (exec t.conn ch w.sys.sh a).2.2, prog := k (exec t.conn ch w.sys.sh a).1 } := by
      rw [hw]
      simp only [World.sysStep, step_act _ _ ch _ _ _ ht hp, Sys.perform]
      rw [List.getElem?_set_self (List.getElem?_eq_some_iff.mp ht).1]
    obtain ⟨n, o, h1, h2⟩ := ih (exec t.conn ch w.sys.sh a).1 { t with log := t.log ++ (exec t.conn ch w.sys.sh a).2.2, prog := k (exec t.conn ch w.sys.sh a).1 }
      (w.step (.act i ch)) rfl ht'
    refine ⟨n + 1, o, ?_, ?_⟩
    · simp only [List.replicate_succ, List.foldl_cons]
      rw [h1, hw]; rfl
    · simp only [List.replicate_succ, List.foldl_cons]
      exact h2

/-- The client takes an answer that is there. -/
theorem cli_end (s : CliSt) (k : Nat) {q : CReq} {m : Msg} (hk : s.reqs[k]? = some q) (ha : q.active) (hm : q.slot = .full m) :
    (∃ q', ((s.step (.sent k (.ok ()))).step (.wake k)).reqs[k]? = some q' ∧ q'.phase = .done (.ok m)) ∧
      ∀ j, j ≠ k → (((s.step (.sent k (.ok ()))).step (.wake k)).reqs[j]?).map CReq.phase = (s.reqs[j]?).map CReq.phase := by
  have key : ∀ t : CliSt, t.reqs[k]? = some ⟨q.id, .waiting, .full m⟩ → (∀ j, j ≠ k → (t.reqs[j]?).map CReq.phase = (s.reqs[j]?).map CReq.phase) →
      (∃ q', (t.step (.wake k)).reqs[k]? = some q' ∧ q'.phase = .done (.ok m)) ∧
      ∀ j, j ≠ k → ((t.step (.wake k)).reqs[j]?).map CReq.phase = (s.reqs[j]?).map CReq.phase := by
    intro t ht hj
    simp only [CliSt.step, ht]
    refine ⟨?_, ?_⟩
    · rw [finish_reqs, ht]
      refine ⟨_, rfl, ?_⟩
      simp only [if_true]
      split <;> simp
    · intro j hjk
      rw [← hj j hjk, finish_reqs]
      cases t.reqs[j]? with
      | none => rfl
      | some q2 =>
        simp only [Option.map_some, if_neg (fun h => hjk h.symm : ¬ k = j)]
        split <;> simp
  obtain ⟨id, ph, sl⟩ := q
  simp only at hm
  subst hm
  rcases ha with ha | ha
  · simp only at ha; subst ha
    refine key _ ?_ ?_
    · simp only [CliSt.step, hk]
      rw [List.getElem?_modify, hk]; simp
    · intro j hjk
      simp only [CliSt.step, hk]
      rw [List.getElem?_modify]
      simp [Ne.symm hjk]
  · simp only at ha; subst ha
    have hs : s.step (.sent k (.ok ())) = s := by simp only [CliSt.step, hk]
    rw [hs]
    exact key s hk (fun _ _ => rfl)

theorem phase_at {x y : Conn S} (h : y.cli.reqs.map CReq.phase = x.cli.reqs.map CReq.phase) (j : Nat) :
    (y.cli.reqs[j]?).map CReq.phase = (x.cli.reqs[j]?).map CReq.phase := by
  have := congrArg (fun l => l[j]?) h
  simpa using this

theorem active_at {x y : Conn S} (h : y.cli.reqs.map CReq.phase = x.cli.reqs.map CReq.phase) {j : Nat} {q : CReq} (hq : x.cli.reqs[j]? = some q)
    (ha : q.active) : ∃ q', y.cli.reqs[j]? = some q' ∧ q'.active := by
  have := phase_at h j
  rw [hq] at this
  cases hy : y.cli.reqs[j]? with
  | none => rw [hy] at this; cases this
  | some q' =>
    rw [hy] at this
    simp only [Option.map_some, Option.some.injEq] at this
    refine ⟨q', rfl, ?_⟩
    rcases ha with ha | ha
    · exact Or.inl (this.trans ha)
    · exact Or.inr (this.trans ha)

/-- Nothing has gone wrong, nothing is under way but in the server, and we know what is where. Proof device: nothing in the code corresponds. -/
structure Settled (w : World E S) (c : Nat) (x : Conn S) : Prop where
  at_ : w.conns[c]? = some x
  ready : ConnReady x
  up : LinkFull x.up []
  down : LinkFull x.down []
  flight : InFlight w.sys c x

theorem Settled.fine {w : World E S} {c : Nat} {x : Conn S} (h : Settled w c x) : x.Fine := ⟨h.ready.here, h.up.good.fine, h.down.good.fine⟩

theorem settle (L : S.Lawful) (evs : List (WEv S)) (c : Nat) (x : Conn S) (hx : (World.run E S st evs).conns[c]? = some x) (hf : x.Fine)
    (hi : InFlight (World.run E S st evs).sys c x) :
    ∃ more x', (World.run E S st (evs ++ more)).conns = (World.run E S st evs).conns.set c x' ∧ Settled (World.run E S st (evs ++ more)) c x' ∧
      x'.asked = x.asked ∧ x'.cli.reqs.map CReq.phase = x.cli.reqs.map CReq.phase ∧ (∀ e ∈ more, ∀ id q, e ≠ .net c (.ask id q)) := by
  obtain ⟨hu, hd⟩ := fine_good L hx hf
  have hc := (worldInv_run st evs).conns c x hx
  have hlen : x.cli.reqs.length = x.asked.length := by simpa using congrArg List.length (ids_of hc)
  have hlt := (List.getElem?_eq_some_iff.mp hx).1
  obtain ⟨more, x', h1, h2, h3, -, h5, h6, -, h8, h9⟩ := drain L _ c x hx hf.here hu hd (ended_of_good L (connWire_run L st evs c x hx) hd) hlen
  have hx' : (more.foldl World.step (World.run E S st evs)).conns[c]? = some x' := by rw [h1]; simp [hlt]
  obtain ⟨y, hy, hy2⟩ := inFlight_foldl more (worldInv_run st evs) hx hi h9
  rw [hx'] at hy; cases hy
  rw [← run_ext] at h1 hx' hy2
  exact ⟨more, x', h1, ⟨hx', h2, h5, h6, hy2⟩, h3, h8, h9⟩

/-- What is done is in the client's hands. -/
theorem Settled.done_got {w : World E S} {c : Nat} {x : Conn S} (h : Settled w c x) {d : Done E} (hd : d ∈ w.sys.done) (hdc : d.conn = c) :
    .res d.msg.id (.ofOutcome d.outcome) ∈ x.down.got := by
  obtain ⟨j, ph, h1, h2⟩ := h.flight.answered d hd hdc
  have hp : ph = .done (.ok ()) := by
    rcases h.down.over j _ h1 with h3 | h3
    · exact h3
    · exact absurd h3 (h2 false)
  subst hp
  have := h.flight.downP j _ _ h1 (Or.inl rfl)
  have hm := List.mem_map_of_mem (f := Prod.snd) this
  rw [h.down.all, List.append_nil] at hm
  exact hm

/-- What runs has been taken by the server. -/
theorem Settled.running_got {w : World E S} {c : Nat} {x : Conn S} (h : Settled w c x) (hn : (x.asked.map Asked.id).Nodup) {k : Nat} {a : Asked} {q : CReq}
    (ha : x.asked[k]? = some a) (hq : x.cli.reqs[k]? = some q) (hqa : q.active) :
    x.up.snd.calls[a.call]? = some ⟨some (.req a.id a.req), .done (.ok ())⟩ ∧ .req a.id a.req ∈ x.up.got := by
  obtain ⟨ph, h1, h2⟩ := h.flight.sent k a ha
  have hp : ph = .done (.ok ()) := by
    rcases h.up.over _ _ h1 with h3 | h3
    · exact h3
    · exact absurd h3 (h2 hn q hq hqa false)
  subst hp
  refine ⟨h1, ?_⟩
  have := h.flight.upP _ _ _ h1 (Or.inl rfl)
  have hm := List.mem_map_of_mem (f := Prod.snd) this
  rw [h.up.all, List.append_nil] at hm
  exact hm

theorem doneMono_step (w : World E S) (e : WEv S) : ∀ d ∈ w.sys.done, d ∈ (w.step e).sys.done := by
  intro d hd
  cases e with
  | connect u d => exact hd
  | net c e => exact hd
  | restart => exact done_step_mono w.sys .restart d hd
  | serve c =>
    simp only [World.step]
    split
    · exact hd
    · split
      · exact hd
      · split
        · exact done_step_mono w.sys (.recv c _) d hd
        · exact hd
  | act i ch =>
    simp only [World.step]
    split
    · exact done_step_mono w.sys (.step i ch) d hd
    · split
      · exact done_step_mono w.sys (.step i ch) d hd
      · exact done_step_mono w.sys (.step i ch) d hd

theorem doneMono_foldl (evs : List (WEv S)) : ∀ (w : World E S), ∀ d ∈ w.sys.done, d ∈ (evs.foldl World.step w).sys.done := by
  induction evs with
  | nil => intro w d hd; exact hd
  | cons e evs ih => intro w d hd; exact ih _ d (doneMono_step w e d hd)

/-- The answer to a request that runs gets into the client's hands. -/
theorem delivered (L : S.Lawful) (evs : List (WEv S)) (c : Nat) (x : Conn S) (hs : Settled (World.run E S st evs) c x) (hn : (x.asked.map Asked.id).Nodup)
    (k : Nat) (a : Asked) (q : CReq) (ha : x.asked[k]? = some a) (hq : x.cli.reqs[k]? = some q) (hqa : q.active) (ch : Choice)
    (hfit : ∀ more, ∀ d ∈ (World.run E S st (evs ++ more)).sys.done, d.conn = c → d.msg = .req a.id a.req →
      Fits (.res a.id (.ofOutcome d.outcome)) = true) :
    ∃ more x', (World.run E S st (evs ++ more)).conns = (World.run E S st evs).conns.set c x' ∧ Settled (World.run E S st (evs ++ more)) c x' ∧
      x'.asked = x.asked ∧ x'.cli.reqs.map CReq.phase = x.cli.reqs.map CReq.phase ∧
      ∃ q' m, x'.cli.reqs[k]? = some q' ∧ q'.active ∧ q'.slot = .full m := by
  have hlt := (List.getElem?_eq_some_iff.mp hs.at_).1
  obtain ⟨s1, s2⟩ := hs.flight.slot hs.ready.loop hn k q hq hqa
  have hself : (World.run E S st evs).conns.set c x = (World.run E S st evs).conns := by
    obtain ⟨h1, h2⟩ := List.getElem?_eq_some_iff.mp hs.at_
    rw [← h2]; exact List.set_getElem_self _
  cases hsl : q.slot with
  | dropped => exact absurd hsl s1
  | full m => exact ⟨[], x, by rw [List.append_nil, hself], by rw [List.append_nil]; exact hs, rfl, rfl, q, m, hq, hqa, hsl⟩
  | empty =>
    obtain ⟨-, hgot⟩ := hs.running_got hn ha hq hqa
    have hqid : q.id = a.id := by
      have hc := (worldInv_run st evs).conns c x hs.at_
      have := congrArg (fun l => l[k]?) (ids_of hc)
      simp only [List.getElem?_map, hq, ha, Option.map_some, Option.some.injEq] at this
      exact this
    rcases hs.flight.taken hs.ready.here _ hgot with ⟨t, ht, htc, htm⟩ | ⟨d, hd, hdc, hdm⟩
    · obtain ⟨i, hti⟩ := List.mem_iff_getElem?.mp ht
      obtain ⟨n, o, h1, d, hd, hdc, hdm, hdo⟩ := act_at i ch t.prog t (World.run E S st evs) rfl hti
      have hno : ∀ e ∈ List.replicate n (WEv.act (S := S) i ch), ∀ id q, e ≠ .net c (.ask id q) := by
        intro e he id q hh
        rw [(List.mem_replicate.mp he).2] at hh; cases hh
      obtain ⟨y, hy, hy2⟩ := inFlight_foldl _ (worldInv_run st evs) hs.at_ hs.flight hno
      rw [← run_ext] at h1 hy hy2 hd
      have hfits : Fits (.res a.id (.ofOutcome o)) = true := by
        have := hfit _ d hd (hdc.trans htc) (hdm.trans htm)
        rwa [hdo] at this
      have hy' : y = x.reply t.msg.id o := by
        rw [h1, htc, List.getElem?_modify, hs.at_] at hy
        simp at hy
        exact hy.symm
      have hid : t.msg.id = a.id := by rw [htm]; rfl
      have hyf : y.Fine ∧ y.asked = x.asked ∧ y.cli = x.cli := by
        rw [hy', hid]
        cases o with
        | ok v => exact ⟨⟨hs.ready.here, hs.up.good.fine, hs.down.good.fine.call hfits⟩, rfl, rfl⟩
        | error e => exact ⟨⟨hs.ready.here, hs.up.good.fine, hs.down.good.fine.call hfits⟩, rfl, rfl⟩
      obtain ⟨more, x', g1, g2, g3, g4, g5⟩ := settle L _ c y hy hyf.1 hy2
      rw [List.append_assoc] at g1 g2
      rw [hyf.2.1] at g3
      rw [hyf.2.2] at g4
      obtain ⟨q', hq', hqa'⟩ := active_at g4 hq hqa
      refine ⟨List.replicate n (WEv.act i ch) ++ more, x', ?_, g2, g3, g4, q', ?_⟩
      · rw [g1, h1, htc, modify_of_get hs.at_, List.set_set]
      · have hd' : d ∈ (World.run E S st (evs ++ (List.replicate n (WEv.act i ch) ++ more))).sys.done := by
          rw [← List.append_assoc, run_ext]
          exact doneMono_foldl more _ d hd
        have hin := g2.done_got hd' (hdc.trans htc)
        obtain ⟨r1, r2⟩ := g2.flight.slot g2.ready.loop (by rw [g3]; exact hn) k q' hq' hqa'
        have hqid' : q'.id = a.id := by
          have hc := (worldInv_run st (evs ++ (List.replicate n (WEv.act i ch) ++ more))).conns c x' g2.at_
          have := congrArg (fun l => l[k]?) (ids_of hc)
          simp only [List.getElem?_map, hq', g3, ha, Option.map_some, Option.some.injEq] at this
          exact this
        cases hsl' : q'.slot with
        | dropped => exact absurd hsl' r1
        | full m => exact ⟨m, hq', hqa', rfl⟩
        | empty =>
          refine absurd ?_ (r2 hsl' _ hin)
          rw [hqid', hdm]
          exact hid
    · refine absurd ?_ (s2 hsl _ (hs.done_got hd hdc))
      rw [hqid, hdm]; rfl

/-- One request that runs is answered; the others run on. -/
theorem answer_one (L : S.Lawful) (hst : GoodStore E st) (evs : List (WEv S)) (c : Nat) (x : Conn S) (hx : (World.run E S st evs).conns[c]? = some x)
    (hf : x.Fine) (hi : InFlight (World.run E S st evs).sys c x) (hn : (x.asked.map Asked.id).Nodup)
    (k : Nat) (a : Asked) (q : CReq) (ha : x.asked[k]? = some a) (hq : x.cli.reqs[k]? = some q) (hqa : q.active) (ch : Choice)
    (hfit : ∀ more, ∀ d ∈ (World.run E S st (evs ++ more)).sys.done, d.conn = c → d.msg = .req a.id a.req →
      Fits (.res a.id (.ofOutcome d.outcome)) = true) :
    ∃ more x', (World.run E S st (evs ++ more)).conns = (World.run E S st evs).conns.set c x' ∧ x'.Fine ∧
      InFlight (World.run E S st (evs ++ more)).sys c x' ∧ x'.asked = x.asked ∧
      (∀ j, j ≠ k → (x'.cli.reqs[j]?).map CReq.phase = (x.cli.reqs[j]?).map CReq.phase) ∧
      (∃ q', x'.cli.reqs[k]? = some q' ∧ ¬ q'.active) ∧
      ∃ d ∈ (World.run E S st (evs ++ more)).sys.done, d.conn = c ∧ d.msg = .req a.id a.req ∧
        (World.run E S st (evs ++ more)).result c k = some d.outcome := by
  have hlt := (List.getElem?_eq_some_iff.mp hx).1
  obtain ⟨m1, x1, a1, a2, a3, a4, -⟩ := settle L evs c x hx hf hi
  obtain ⟨q1, hq1, hqa1⟩ := active_at a4 hq hqa
  obtain ⟨m2, x2, b1, b2, b3, b4, q2, m, hq2, hqa2, hsl⟩ := delivered L (evs ++ m1) c x1 a2 (by rw [a3]; exact hn) k a q1 (by rw [a3]; exact ha) hq1 hqa1 ch
    (fun more d hd => hfit (m1 ++ more) d (by rw [← List.append_assoc]; exact hd))
  have ha2 : x2.asked[k]? = some a := by rw [b3, a3]; exact ha
  have hn2 : (x2.asked.map Asked.id).Nodup := by rw [b3, a3]; exact hn
  obtain ⟨hcall, -⟩ := b2.running_got hn2 ha2 hq2 hqa2
  have hev := nets_step _ c x2 b2.at_ [.asked k, .wake k]
  have hst2 : [NEv.asked k, NEv.wake k].foldl Conn.step x2 = (x2.cliStep (.sent k (.ok ()))).cliStep (.wake k) := by
    simp only [List.foldl_cons, List.foldl_nil, Conn.step, ha2, hcall]
  rw [hst2] at hev
  obtain ⟨⟨q4, hq4, hph⟩, hoth⟩ := cli_end x2.cli k hq2 hqa2 hsl
  obtain ⟨y, hy, hy2⟩ := inFlight_foldl ([NEv.asked k, NEv.wake k].map (WEv.net c)) (worldInv_run st (evs ++ m1 ++ m2)) b2.at_ b2.flight (by
    intro e he id q hh
    subst hh
    simp at he)
  have hlt2 := (List.getElem?_eq_some_iff.mp b2.at_).1
  have hy' : y = (x2.cliStep (.sent k (.ok ()))).cliStep (.wake k) := by
    rw [hev] at hy
    have hy' := (List.getElem?_set_self (a := (x2.cliStep (.sent k (.ok ()))).cliStep (.wake k)) hlt2).symm.trans hy
    injection hy' with hy'
    exact hy'.symm
  have hevc : (World.run E S st (evs ++ (m1 ++ m2 ++ [NEv.asked k, NEv.wake k].map (WEv.net c)))).conns = (World.run E S st evs).conns.set c y := by
    rw [← List.append_assoc, ← List.append_assoc, run_ext, hev, hy']
    show (World.run E S st (evs ++ m1 ++ m2)).conns.set c _ = _
    rw [b1, a1, List.set_set, List.set_set]
  rw [← run_ext, List.append_assoc, List.append_assoc, ← List.append_assoc m1] at hy hy2
  refine ⟨m1 ++ m2 ++ [NEv.asked k, NEv.wake k].map (WEv.net c), y, hevc, ?_, hy2, ?_, ?_, ⟨q4, by rw [hy']; exact hq4, ?_⟩, ?_⟩
  · rw [hy']; exact ⟨b2.ready.here, b2.up.good.fine, b2.down.good.fine⟩
  · rw [hy']; show x2.asked = _; rw [b3, a3]
  · intro j hjk
    rw [hy']
    refine (hoth j hjk).trans ?_
    rw [phase_at b4, phase_at a4]
  · intro hh; rcases hh with hh | hh <;> rw [hph] at hh <;> cases hh
  · have hyf : y.Fine := by rw [hy']; exact ⟨b2.ready.here, b2.up.good.fine, b2.down.good.fine⟩
    obtain ⟨hu, hd⟩ := fine_good L hy hyf
    have typed := fun o => typed_outcome hst (evs ++ (m1 ++ m2 ++ [NEv.asked k, NEv.wake k].map (WEv.net c))) (c := c) (id := a.id) (q := a.req) (o := o)
    have handled := fun d => handled_asked (d := d) L hy hu
    have hw := worldInv_run (S := S) st (evs ++ (m1 ++ m2 ++ [NEv.asked k, NEv.wake k].map (WEv.net c)))
    generalize World.run E S st (evs ++ (m1 ++ m2 ++ [NEv.asked k, NEv.wake k].map (WEv.net c))) = w at *
    have hc := hw.conns c y hy
    have hya : y.asked[k]? = some a := by rw [hy']; exact ha2
    have hyn : (y.asked.map Asked.id).Nodup := by rw [hy']; exact hn2
    have hyq : y.cli.reqs[k]? = some q4 := by rw [hy']; exact hq4
    obtain ⟨pos, hpos, -⟩ := C29_response_is_own y.cevs
    have hyq' := hyq
    rw [hc.cli] at hyq'
    obtain ⟨g1, g2, g3, -⟩ := hpos k q4 m hyq' hph
    rw [hc.starts, List.getElem?_map, hya] at g2
    simp at g2
    have hmg := hc.arr _ (List.mem_of_getElem? g3)
    obtain ⟨-, -, td, _, -, -, -, -, hall, -⟩ := hd.todo L
    have hp : m ∈ y.down.pushed.map Prod.snd := by rw [hall]; exact List.mem_append_left _ hmg
    obtain ⟨p, hp1, hp2⟩ := List.mem_map.mp hp
    obtain ⟨ph, h2, -⟩ := hc.down.mem p hp1
    obtain ⟨d, hdd, hdc, hdm⟩ := hy2.exact_ hyf.down.clean _ _ _ h2
    obtain ⟨a', ha', hda⟩ := handled d hdd hdc
    rw [hp2] at hdm
    have haa : a' = a := by
      refine nodup_map_inj hyn ha' (List.mem_of_getElem? hya) ?_
      rw [hdm, hda] at g1
      exact g1.trans g2.symm
    subst haa
    refine ⟨d, hdd, hdc, hda, ?_⟩
    have hres : w.result c k = some (typedResult a'.req (.ok m)) := by
      obtain ⟨qid, qph, qsl⟩ := q4
      simp only at hph
      subst hph
      unfold World.result
      rw [hy]
      simp only [hya, hyq]
    rw [hres, hdm, hda]
    show some (typedResult a'.req (.ok (.res a'.id (.ofOutcome d.outcome)))) = _
    rw [typed d.outcome ⟨d, hdd, hdc, hda, rfl⟩]

/-! ### All requests -/

theorem result_same {w w' : World E S} {c j : Nat} {x x' : Conn S} (hx : w.conns[c]? = some x) (hx' : w'.conns[c]? = some x') (ha : x'.asked = x.asked)
    (hp : (x'.cli.reqs[j]?).map CReq.phase = (x.cli.reqs[j]?).map CReq.phase) : w'.result c j = w.result c j := by
  unfold World.result
  rw [hx, hx']
  simp only [ha]
  cases h1 : x.cli.reqs[j]? with
  | none =>
    rw [h1] at hp
    cases h2 : x'.cli.reqs[j]? with
    | none => rfl
    | some q => rw [h2] at hp; cases hp
  | some q =>
    rw [h1] at hp
    cases h2 : x'.cli.reqs[j]? with
    | none => rw [h2] at hp; cases hp
    | some q' =>
      rw [h2] at hp
      obtain ⟨i, ph, sl⟩ := q
      obtain ⟨i', ph', sl'⟩ := q'
      simp only [Option.map_some, Option.some.injEq] at hp
      subst hp
      cases x.asked[j]? with
      | none => rfl
      | some a => cases ph' <;> rfl

/-- The request has been answered. Proof device: nothing in the code corresponds. -/
def Answered (w : World E S) (c j : Nat) (a : Asked) : Prop :=
  ∃ d ∈ w.sys.done, d.conn = c ∧ d.msg = .req a.id a.req ∧ w.result c j = some d.outcome

theorem answer_all (L : S.Lawful) (hst : GoodStore E st) (ch : Choice) (c : Nat) (ks : List Nat) : ∀ (evs : List (WEv S)) (x : Conn S),
    (World.run E S st evs).conns[c]? = some x → x.Fine → InFlight (World.run E S st evs).sys c x → (x.asked.map Asked.id).Nodup →
    (∀ (j : Nat) (a : Asked) (q : CReq), x.asked[j]? = some a → x.cli.reqs[j]? = some q → q.active →
      ∀ more, ∀ d ∈ (World.run E S st (evs ++ more)).sys.done, d.conn = c → d.msg = .req a.id a.req → Fits (.res a.id (.ofOutcome d.outcome)) = true) →
    ∃ more x', (World.run E S st (evs ++ more)).conns = (World.run E S st evs).conns.set c x' ∧ x'.asked = x.asked ∧
      (∀ j ∈ ks, ∀ q, x'.cli.reqs[j]? = some q → ¬ q.active) ∧
      ∀ (j : Nat) (a : Asked) (q : CReq), x.asked[j]? = some a → x.cli.reqs[j]? = some q →
        (x'.cli.reqs[j]?).map CReq.phase = (x.cli.reqs[j]?).map CReq.phase ∨
        (q.active ∧ Answered (World.run E S st (evs ++ more)) c j a) := by
  induction ks with
  | nil =>
    intro evs x hx _ _ _ _
    refine ⟨[], x, ?_, rfl, by simp, fun _ _ _ _ _ => Or.inl rfl⟩
    rw [List.append_nil]
    obtain ⟨h1, h2⟩ := List.getElem?_eq_some_iff.mp hx
    rw [← h2]; exact (List.set_getElem_self _).symm
  | cons k ks ih =>
    intro evs x hx hf hi hn hfit
    have hlen : x.cli.reqs.length = x.asked.length := by simpa using congrArg List.length (ids_of ((worldInv_run st evs).conns c x hx))
    have hlt := (List.getElem?_eq_some_iff.mp hx).1
    -- the first
    have first : ∃ m1 x1, (World.run E S st (evs ++ m1)).conns = (World.run E S st evs).conns.set c x1 ∧ x1.Fine ∧
        InFlight (World.run E S st (evs ++ m1)).sys c x1 ∧ x1.asked = x.asked ∧ (∀ q, x1.cli.reqs[k]? = some q → ¬ q.active) ∧
        ∀ (j : Nat) (a : Asked) (q : CReq), x.asked[j]? = some a → x.cli.reqs[j]? = some q →
          (x1.cli.reqs[j]?).map CReq.phase = (x.cli.reqs[j]?).map CReq.phase ∨
          (q.active ∧ (∀ q', x1.cli.reqs[j]? = some q' → ¬ q'.active) ∧ Answered (World.run E S st (evs ++ m1)) c j a) := by
      by_cases hk : ∃ q, x.cli.reqs[k]? = some q ∧ q.active
      · obtain ⟨q, hq, hqa⟩ := hk
        have hka : k < x.asked.length := by rw [← hlen]; exact (List.getElem?_eq_some_iff.mp hq).1
        have ha : x.asked[k]? = some x.asked[k] := List.getElem?_eq_getElem hka
        obtain ⟨m1, x1, h1, h2, h3, h4, h5, ⟨q', h6, h6'⟩, h7⟩ := answer_one L hst evs c x hx hf hi hn k _ q ha hq hqa ch (hfit k _ q ha hq hqa)
        refine ⟨m1, x1, h1, h2, h3, h4, fun q2 hq2 => by rw [h6] at hq2; cases hq2; exact h6', ?_⟩
        intro j a qj haj hqj
        by_cases hjk : j = k
        · subst hjk
          rw [hq] at hqj; cases hqj
          rw [ha] at haj; cases haj
          exact Or.inr ⟨hqa, fun q2 hq2 => by rw [h6] at hq2; cases hq2; exact h6', h7⟩
        · exact Or.inl (h5 j hjk)
      · refine ⟨[], x, ?_, hf, by rw [List.append_nil]; exact hi, rfl, fun q hq ha => hk ⟨q, hq, ha⟩, fun _ _ _ _ _ => Or.inl rfl⟩
        rw [List.append_nil]
        obtain ⟨h1, h2⟩ := List.getElem?_eq_some_iff.mp hx
        rw [← h2]; exact (List.set_getElem_self _).symm
    obtain ⟨m1, x1, h1, h2, h3, h4, h5, h6⟩ := first
    have hx1 : (World.run E S st (evs ++ m1)).conns[c]? = some x1 := by rw [h1]; simp [hlt]
    have phase_active : ∀ {q q' : CReq}, q'.phase = q.phase → q'.active → q.active := by
      intro q q' h ha
      unfold CReq.active at *
      rw [← h]; exact ha
    obtain ⟨m2, x2, g1, g2, g3, g4⟩ := ih (evs ++ m1) x1 hx1 h2 h3 (by rw [h4]; exact hn)
      (fun j a q1 haj hqj hqa more d hd => by
        rw [h4] at haj
        have hjq : x.cli.reqs[j]? = some (x.cli.reqs[j]'(by rw [hlen]; exact (List.getElem?_eq_some_iff.mp haj).1)) := List.getElem?_eq_getElem _
        refine hfit j a _ haj hjq ?_ (m1 ++ more) d (by rw [← List.append_assoc]; exact hd)
        rcases h6 j a _ haj hjq with h | ⟨h, -⟩
        · rw [hqj, hjq] at h
          simp only [Option.map_some, Option.some.injEq] at h
          exact phase_active h hqa
        · exact h)
    have hx2 : (World.run E S st (evs ++ m1 ++ m2)).conns[c]? = some x2 := by rw [g1, h1]; simp [hlt]
    have hlen1 : x1.cli.reqs.length = x1.asked.length := by simpa using congrArg List.length (ids_of ((worldInv_run st (evs ++ m1)).conns c x1 hx1))
    have hlen2 : x2.cli.reqs.length = x2.asked.length := by simpa using congrArg List.length (ids_of ((worldInv_run st (evs ++ m1 ++ m2)).conns c x2 hx2))
    rw [List.append_assoc] at g1 g4 hx2
    refine ⟨m1 ++ m2, x2, by rw [g1, h1, List.set_set], g2.trans h4, ?_, ?_⟩
    · intro j hj q2 hq2
      rcases List.mem_cons.mp hj with rfl | hj
      · have hja : j < x1.asked.length := by rw [← g2, ← hlen2]; exact (List.getElem?_eq_some_iff.mp hq2).1
        have hjq : x1.cli.reqs[j]? = some (x1.cli.reqs[j]'(by omega)) := List.getElem?_eq_getElem _
        rcases g4 j _ _ (List.getElem?_eq_getElem hja) hjq with h | ⟨h, -⟩
        · rw [hq2, hjq] at h
          simp only [Option.map_some, Option.some.injEq] at h
          exact fun hh => h5 _ hjq (phase_active h hh)
        · exact absurd h (h5 _ hjq)
      · exact g3 j hj q2 hq2
    · intro j a q haj hqj
      have hjq : x1.cli.reqs[j]? = some (x1.cli.reqs[j]'(by rw [hlen1, h4]; exact (List.getElem?_eq_some_iff.mp haj).1)) := List.getElem?_eq_getElem _
      have haj1 : x1.asked[j]? = some a := by rw [h4]; exact haj
      rcases h6 j a q haj hqj with h | ⟨hqa, hina, d, hd, hdc, hdm, hres⟩
      · rcases g4 j a _ haj1 hjq with h' | ⟨h', h''⟩
        · exact Or.inl (h'.trans h)
        · refine Or.inr ⟨?_, h''⟩
          rw [hjq, hqj] at h
          simp only [Option.map_some, Option.some.injEq] at h
          exact phase_active h h'
      · right
        refine ⟨hqa, d, ?_, hdc, hdm, ?_⟩
        · rw [← List.append_assoc, run_ext]; exact doneMono_foldl m2 _ d hd
        · rcases g4 j a _ haj1 hjq with h' | ⟨h', -⟩
          · rw [result_same hx1 hx2 g2 h']; exact hres
          · exact absurd h' (hina _ hjq)

/-- C86. A client connects; then anything happens that breaks nothing on its connection (`World.Breaks`, C85). Whatever is in flight then -
    requests waiting to be written, half written, on the way, in the hands of the server at any point of their handling, answers
    on the way back -, things can go on so that all requests still running on this connection are answered: each gets the
    outcome of a handling, by the server, of exactly this request. Nothing else changes on this connection, and
    nothing at all on others. (Message ids are distinct, and the answers to these requests fit a frame.) -/
theorem C86_in_flight_can_be_answered (L : S.Lawful) (hst : GoodStore E st) (ch : Choice) (evs more : List (WEv S)) (u v : S.St) :
    let c := (World.run E S st evs).conns.length
    let w := World.run E S st (evs ++ .connect u v :: more)
    (∀ a e b, more = a ++ e :: b → ¬ (World.run E S st (evs ++ .connect u v :: a)).Breaks c e) →
    w.FreshIds c →
    (∀ k id q, w.request c k = some (id, q) → w.running c k →
      ∀ cont, ∀ d ∈ (World.run E S st ((evs ++ .connect u v :: more) ++ cont)).sys.done, d.conn = c → d.msg = .req id q →
        (Codec.encodeMsg (.res id (match d.outcome with | .ok v => v | .error e => .error e))).length + 17 ≤ 8192) →
    ∃ cont, let w' := World.run E S st ((evs ++ .connect u v :: more) ++ cont)
      (∀ k id q, w.request c k = some (id, q) → w.running c k →
        ∃ d ∈ w'.sys.done, d.conn = c ∧ d.msg = .req id q ∧ w'.result c k = some d.outcome) ∧
      (∀ k, ¬ w'.running c k) ∧
      (∀ k, w'.request c k = w.request c k) ∧
      (∀ k, ¬ w.running c k → w'.result c k = w.result c k) ∧
      ∀ c', c' ≠ c → w'.conns[c']? = w.conns[c']? := by
  intro c w hb hfresh hfit
  have hrun : World.run E S st (evs ++ [.connect u v]) = (World.run E S st evs).step (.connect u v) := by simp [World.run]
  have hx0 : (World.run E S st (evs ++ [.connect u v])).conns[c]? = some (Conn.init u v) := by
    rw [hrun]; simp [World.step, c]
  have hinit : InFlight (World.run E S st (evs ++ [.connect u v])).sys c (Conn.init u v : Conn S) := by
    refine .init u v ?_
    intro d' hd' hdc
    rw [hrun] at hd'
    have hd'' : d' ∈ (World.run E S st evs).sys.done := hd'
    have hw := worldInv_run (S := S) st evs
    have hids : IdInv (World.run E S st evs).sys := by rw [hw.sys]; exact idInv_run st _
    have := hw.known _ (List.mem_of_getElem? (hids.done d' hd'').1)
    rw [hdc] at this
    exact Nat.lt_irrefl _ this
  obtain ⟨x, hx, hf, hi⟩ := inFlight_history L (evs ++ [.connect u v]) more c _ hx0 ⟨rfl, .init u, .init v⟩ hinit (fun a e b hab => by
    have := hb a e b hab
    simpa using this)
  have hassoc : evs ++ [.connect u v] ++ more = evs ++ .connect u v :: more := by simp
  rw [hassoc] at hx hi
  have hlt := (List.getElem?_eq_some_iff.mp hx).1
  obtain ⟨cont, x', h1, h2, h3, h4⟩ := answer_all L hst ch c (List.range x.asked.length) (evs ++ .connect u v :: more) x hx hf hi (hfresh x hx)
    (fun j a q ha hq hqa cont d hd hdc hdm => by
      have := hfit j a.id a.req (request_of hx ha) ⟨x, q, hx, hq, hqa⟩ cont d hd hdc hdm
      simp only [Fits, decide_eq_true_eq]
      cases ho : d.outcome <;> rw [ho] at this <;> exact this)
  have hx' : (World.run E S st ((evs ++ .connect u v :: more) ++ cont)).conns[c]? = some x' := by rw [h1]; simp [hlt]
  have hlen : x.cli.reqs.length = x.asked.length := by simpa using congrArg List.length (ids_of ((worldInv_run st _).conns c x hx))
  have hlen' : x'.cli.reqs.length = x'.asked.length := by simpa using congrArg List.length (ids_of ((worldInv_run st _).conns c x' hx'))
  have hreq : ∀ k, (World.run E S st ((evs ++ .connect u v :: more) ++ cont)).request c k = w.request c k := by
    intro k
    simp only [World.request, hx', Option.bind_some, h2]
    show _ = ((World.run E S st (evs ++ .connect u v :: more)).conns[c]?.bind _).map _
    rw [hx]; rfl
  have hnot : ∀ k, ¬ (World.run E S st ((evs ++ .connect u v :: more) ++ cont)).running c k := by
    rintro k ⟨y, q, hy, hq, hp⟩
    rw [hx'] at hy; cases hy
    refine h3 k ?_ q hq hp
    rw [List.mem_range, ← h2, ← hlen']
    exact (List.getElem?_eq_some_iff.mp hq).1
  have hget : ∀ {k : Nat} (hk : k < x.asked.length), x.cli.reqs[k]? = some (x.cli.reqs[k]'(by rw [hlen]; exact hk)) := fun _ => List.getElem?_eq_getElem _
  refine ⟨cont, ?_, hnot, hreq, ?_, ?_⟩
  · rintro k id q hq ⟨y, qk, hy, hqk, hp⟩
    have hy' : (World.run E S st (evs ++ .connect u v :: more)).conns[c]? = some y := hy
    rw [hx] at hy'; cases hy'
    obtain ⟨y2, a, hy2, ha, rfl, rfl⟩ := request_some hq
    have hy2' : (World.run E S st (evs ++ .connect u v :: more)).conns[c]? = some y2 := hy2
    rw [hx] at hy2'; cases hy2'
    rcases h4 k a qk ha hqk with h | ⟨-, h⟩
    · exfalso
      cases hq' : x'.cli.reqs[k]? with
      | none => rw [hq', hqk] at h; cases h
      | some q' =>
        rw [hq', hqk] at h
        simp only [Option.map_some, Option.some.injEq] at h
        exact hnot k ⟨x', q', hx', hq', by rw [h]; exact hp⟩
    · exact h
  · intro k hk
    refine result_same hx hx' h2 ?_
    by_cases hlt' : k < x.asked.length
    · rcases h4 k _ _ (List.getElem?_eq_getElem hlt') (hget hlt') with h | ⟨h, -⟩
      · exact h
      · exact absurd ⟨x, _, hx, hget hlt', h⟩ hk
    · rw [List.getElem?_eq_none (l := x'.cli.reqs) (by rw [hlen', h2]; omega), List.getElem?_eq_none (l := x.cli.reqs) (by rw [hlen]; omega)]
  · intro c' hc'
    rw [h1, List.getElem?_set_ne (fun h => hc' h.symm)]

/-! ### A concrete case -/

namespace WEx

/-- Four requests: the first has been handled and its answer is half written, the second has just been taken by the server, of the third nine
    bytes are written and four have arrived, the fourth waits for its turn. -/
def flight0 : List (WEv Toy.stream) := [.net 0 (.ask "a" .hello), .net 0 (.upSend (.acquire 0)), .net 0 (.upSend (.push 0)),
  .net 0 (.upSend (.write 0 9999)), .net 0 (.asked 0), .net 0 (.ask "b" .hello), .net 0 (.upSend (.acquire 1)), .net 0 (.upSend (.push 1)),
  .net 0 (.upSend (.write 1 9999))]
def flight1 : List (WEv Toy.stream) := flight0 ++ [.net 0 (.upArrive (wire true (run (.connect ([1], 0) ([2], 0) :: flight0)))), .serve 0, .serve 0,
  .act 0 (Ex.calm 0), .net 0 (.downSend (.acquire 0)), .net 0 (.downSend (.push 0)), .net 0 (.downSend (.write 0 7)),
  .net 0 (.ask "c" .hello), .net 0 (.upSend (.acquire 2)), .net 0 (.upSend (.push 2)), .net 0 (.upSend (.write 2 9)), .net 0 (.ask "d" .hello)]
def flight2 : List (WEv Toy.stream) := flight1 ++ [.net 0 (.upArrive (((wire true (run (.connect ([1], 0) ([2], 0) :: flight1))).drop
  (wire true (run (.connect ([1], 0) ([2], 0) :: flight0))).length).take 4)), .serve 0]

/-- Decides `World.Breaks`, on the safe side. Specification: nothing in the code corresponds. -/
def breaksB (w : World (Ex.env false 4) Toy.stream) (c : Nat) : WEv Toy.stream → Bool
  | .connect _ _ => false
  | .serve _ => false
  | .restart => true
  | .act i _ => match w.sys.threads[i]? with
    | none => false
    | some t => match outcomeOf t.prog with
      | none => false
      | some o => decide (8192 < (Codec.encodeMsg (.res t.msg.id (.ofOutcome o))).length + 17)
  | .net c' e => c' == c && match e with
    | .ask id q => decide (8192 < (Codec.encodeMsg (.req id q)).length + 17)
    | .cancel _ => true
    | .shutdown => true
    | .downShutdown => true
    | .upClose => true
    | .downClose => true
    | .upSend (.ioErr _) => true
    | .downSend (.ioErr _) => true
    | .upArrive b => match w.conns[c]? with
      | some x => !(arrived x.up.net ++ b).isPrefixOf x.up.snd.wire
      | none => false
    | .downArrive b => match w.conns[c]? with
      | some x => !(arrived x.down.net ++ b).isPrefixOf x.down.snd.wire
      | none => false
    | _ => false

theorem breaksB_spec {w : World (Ex.env false 4) Toy.stream} {c : Nat} {e : WEv Toy.stream} (h : breaksB w c e = false) : ¬ w.Breaks c e := by
  intro hb
  cases e with
  | connect u d => exact hb
  | serve d => exact hb
  | restart => cases h
  | act i ch =>
    obtain ⟨t, o, h1, -, h2, h3⟩ := hb
    simp only [breaksB, h1, h2, decide_eq_false_iff_not] at h
    exact h h3
  | net d e =>
    obtain ⟨rfl, hb⟩ := hb
    cases e with
    | ask id q =>
      simp only [breaksB, beq_self_eq_true, Bool.true_and, decide_eq_false_iff_not] at h
      exact h hb
    | upArrive b =>
      obtain ⟨x, hx, hb⟩ := hb
      simp only [breaksB, beq_self_eq_true, Bool.true_and, hx, Bool.not_eq_false', List.isPrefixOf_iff_prefix] at h
      exact hb h
    | downArrive b =>
      obtain ⟨x, hx, hb⟩ := hb
      simp only [breaksB, beq_self_eq_true, Bool.true_and, hx, Bool.not_eq_false', List.isPrefixOf_iff_prefix] at h
      exact hb h
    | upSend e =>
      cases e with
      | ioErr k => simp [breaksB] at h
      | _ => exact hb
    | downSend e =>
      cases e with
      | ioErr k => simp [breaksB] at h
      | _ => exact hb
    | cancel k => simp [breaksB] at h
    | shutdown => simp [breaksB] at h
    | downShutdown => simp [breaksB] at h
    | upClose => simp [breaksB] at h
    | downClose => simp [breaksB] at h
    | _ => exact hb

/-- None of these events breaks the connection. Specification: nothing in the code corresponds. -/
def calmly (c : Nat) (w : World (Ex.env false 4) Toy.stream) : List (WEv Toy.stream) → Bool
  | [] => true
  | e :: es => !breaksB w c e && calmly c (w.step e) es

theorem calmly_spec {c : Nat} (es : List (WEv Toy.stream)) : ∀ {w : World (Ex.env false 4) Toy.stream}, calmly c w es = true →
    ∀ a e b, es = a ++ e :: b → ¬ (a.foldl World.step w).Breaks c e := by
  induction es with
  | nil => intro w _ a e b h; simp at h
  | cons e es ih =>
    intro w h a e' b hab
    simp only [calmly, Bool.and_eq_true, Bool.not_eq_true'] at h
    cases a with
    | nil => cases hab; exact breaksB_spec h.1
    | cons e2 a => cases hab; exact ih h.2 a e' b rfl

-- everything is in flight
set_option maxRecDepth 100000 in
example : (match (run (.connect ([1], 0) ([2], 0) :: flight2)).conns[0]? with
    | some x => decide (x.asked.map Asked.id = ["a", "b", "c", "d"] ∧ x.cli.reqs.map CReq.phase = [.waiting, .sending, .sending, .sending] ∧
        x.up.snd.calls.map SCall.phase ≠ [.done (.ok ()), .done (.ok ()), .done (.ok ()), .done (.ok ())] ∧ x.up.rcv.unread.length = 4 ∧
        x.up.got.length = 2 ∧ x.down.snd.calls.length = 1 ∧ x.down.snd.wire.length = 7)
    | none => false) = true ∧ (run (.connect ([1], 0) ([2], 0) :: flight2)).sys.threads.length = 1 := by decide +kernel

set_option maxRecDepth 100000 in
theorem flight_calm : calmly 0 (run [.connect ([1], 0) ([2], 0)]) flight2 = true := by decide +kernel

set_option maxRecDepth 100000 in
theorem flight_requests : (match (run (.connect ([1], 0) ([2], 0) :: flight2)).conns[0]? with
    | some x => decide (x.asked.map (fun a => (a.id, a.req)) = [("a", .hello), ("b", .hello), ("c", .hello), ("d", .hello)])
    | none => false) = true := by decide +kernel

set_option maxRecDepth 100000 in
theorem flight_phases : (match (run (.connect ([1], 0) ([2], 0) :: flight2)).conns[0]? with
    | some x => decide (x.cli.reqs.map CReq.phase = [.waiting, .sending, .sending, .sending])
    | none => false) = true := by decide +kernel

set_option maxRecDepth 100000 in
theorem hello_fits : ∀ id ∈ ["a", "b", "c", "d"],
    (Codec.encodeMsg (.res id (.hello (Ex.env false 4).name (Ex.env false 4).version (Ex.env false 4).idPk))).length + 17 ≤ 8192 := by decide +kernel

/-- The hypotheses of `C86_in_flight_can_be_answered` hold of this history: all four requests can be answered. -/
example : ∃ cont, ∀ k, k < 4 → ∃ d ∈ (run (([] ++ .connect ([1], 0) ([2], 0) :: flight2) ++ cont)).sys.done, d.conn = 0 ∧
    (run (([] ++ .connect ([1], 0) ([2], 0) :: flight2) ++ cont)).result 0 k = some d.outcome := by
  have hreq : ∀ k id q, (run ([] ++ .connect ([1], 0) ([2], 0) :: flight2)).request 0 k = some (id, q) → q = .hello ∧ id ∈ ["a", "b", "c", "d"] := by
    intro k id q hq
    obtain ⟨x, a, hx, ha, rfl, rfl⟩ := request_some hq
    have h := flight_requests
    simp only [List.nil_append] at hx
    rw [hx] at h
    have h := of_decide_eq_true h
    have hm := List.mem_map_of_mem (f := fun a : Asked => (a.id, a.req)) (List.mem_of_getElem? ha)
    rw [h] at hm
    simp at hm
    rcases hm with ⟨h1, h2⟩ | ⟨h1, h2⟩ | ⟨h1, h2⟩ | ⟨h1, h2⟩ <;> exact ⟨h2, by rw [h1]; simp⟩
  obtain ⟨cont, h1, -⟩ := C86_in_flight_can_be_answered (S := Toy.stream) (E := Ex.env false 4) Toy.stream_lawful (goodStore_empty (Ex.env false 4)) (Ex.calm 0) [] flight2 ([1], 0) ([2], 0)
    (fun a e b hab => by
      have := calmly_spec flight2 flight_calm a e b hab
      exact this)
    (by
      intro x hx
      have h := flight_requests
      have hx' : (run (.connect ([1], 0) ([2], 0) :: flight2)).conns[0]? = some x := hx
      rw [hx'] at h
      have h := congrArg (List.map Prod.fst) (of_decide_eq_true h)
      rw [List.map_map] at h
      have h2 : x.asked.map Asked.id = ["a", "b", "c", "d"] := h
      rw [h2]; decide)
    (by
      intro k id q hq _ cont d hd _ hdm
      obtain ⟨rfl, hid⟩ := hreq k id q hq
      rw [C56_server_run] at hd
      have hs := done_spec (goodStore_empty (Ex.env false 4)) hd
      rw [hdm] at hs
      rw [hs.2]
      exact hello_fits id hid)
  refine ⟨cont, fun k hk => ?_⟩
  have h := flight_phases
  have hlen : ∀ x, (run (.connect ([1], 0) ([2], 0) :: flight2)).conns[0]? = some x → x.cli.reqs.map CReq.phase = [.waiting, .sending, .sending, .sending] := by
    intro x hx
    rw [hx] at h
    exact of_decide_eq_true h
  have h' := flight_requests
  cases hx : (run (.connect ([1], 0) ([2], 0) :: flight2)).conns[0]? with
  | none => rw [hx] at h; cases h
  | some x =>
    have hp := hlen x hx
    rw [hx] at h'
    have hr := of_decide_eq_true h'
    have hla := congrArg List.length hr
    have hlr := congrArg List.length hp
    simp only [List.length_map, List.length_cons, List.length_nil] at hla hlr
    have hka : k < x.asked.length := by omega
    have hkr : k < x.cli.reqs.length := by omega
    obtain ⟨d, hd, hdc, -, hres⟩ := h1 k _ _ (request_of (w := run ([] ++ .connect ([1], 0) ([2], 0) :: flight2)) hx (List.getElem?_eq_getElem hka)) ⟨x, x.cli.reqs[k], hx, List.getElem?_eq_getElem hkr, by
      have hm : x.cli.reqs[k].phase ∈ x.cli.reqs.map CReq.phase := List.mem_map_of_mem (List.getElem_mem hkr)
      rw [hp] at hm
      simp at hm
      exact hm.symm⟩
    exact ⟨d, hd, hdc, hres⟩

end WEx

end Lair
