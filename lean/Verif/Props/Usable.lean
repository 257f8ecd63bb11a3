import Verif.FineWorld
import Verif.Props.WorldSeq

/-
C85: a connection stays usable until something breaks it.

`Conn.Fine` (FineConn.lean) is the small specification: nothing has gone wrong on the connection. `World.Breaks` below lists
all the events after which that is no longer so.
-/
namespace Lair

variable {S : SStream} {E : Env} {st : E.S.σ}

/-- SPECIFICATION: this event, happening now, can leave connection `c` unusable: the server process ends; one half is shut
    down; the stream fails or ends; the network brings bytes other than those sent; a caller gives up a request at the moment its
    bytes are being written; a request is made, or an answer given, that does not fit a frame. -/
def World.Breaks (w : World E S) (c : Nat) : WEv S → Prop
  | .connect _ _ => False
  | .serve _ => False
  | .restart => True
  | .act i _ => ∃ t o, w.sys.threads[i]? = some t ∧ t.conn = c ∧ outcomeOf t.prog = some o ∧
      8192 < (Codec.encodeMsg (.res t.msg.id (.ofOutcome o))).length + 17
  | .net c' e => c' = c ∧ match e with
    | .ask id q => 8192 < (Codec.encodeMsg (.req id q)).length + 17
    | .cancel k => ∃ x a s, w.conns[c]? = some x ∧ x.asked[k]? = some a ∧ x.up.snd.calls[a.call]? = some s ∧
        (s.phase = .taken ∨ ∃ r, s.phase = .writing r)
    | .shutdown => True
    | .downShutdown => True
    | .upClose => True
    | .downClose => True
    | .upSend (.ioErr _) => True
    | .downSend (.ioErr _) => True
    | .upArrive b => ∃ x, w.conns[c]? = some x ∧ ¬ arrived x.up.net ++ b <+: x.up.snd.wire
    | .downArrive b => ∃ x, w.conns[c]? = some x ∧ ¬ arrived x.down.net ++ b <+: x.down.snd.wire
    | _ => False

theorem fine_good (L : S.Lawful) {evs : List (WEv S)} {c : Nat} {x : Conn S} (hx : (World.run E S st evs).conns[c]? = some x) (hf : x.Fine) :
    x.up.Good ∧ x.down.Good :=
  ⟨⟨((worldInv_run st evs).conns c x hx).up, (connWire_run L st evs c x hx).up, hf.up⟩,
    ⟨((worldInv_run st evs).conns c x hx).down, (connWire_run L st evs c x hx).down, hf.down⟩⟩

/-- C85. After any history after which nothing has gone wrong on connection `c` - whatever requests are in flight on it, sends waiting or half
    written, bytes on the way, and whatever the state of all other connections -, everything under way on it can get through
    (`first`: every send is over, the state of the server is untouched), and then any further requests can be made on it, one
    after the other, and all get answered: the results are exactly those of the sequential specification. -/
theorem C85_connection_stays_usable (L : S.Lawful) (hst : GoodStore E st) (evs : List (WEv S)) (c : Nat) (x : Conn S)
    (hx : (World.run E S st evs).conns[c]? = some x) (hf : x.Fine) (rs : List (String × Req × Choice)) (hids : (rs.map Prod.fst).Nodup)
    (hnew : ∀ r ∈ rs, ∀ a ∈ x.asked, a.id ≠ r.1) (hfit : AllFit E c rs (World.run E S st evs).sys.sh) :
    let spec := seqRun E c rs (World.run E S st evs).sys.sh
    ∃ first more,
      (World.run E S st (evs ++ first)).sys.sh = (World.run E S st evs).sys.sh ∧
      (∃ x', (World.run E S st (evs ++ first)).conns[c]? = some x' ∧ x'.asked = x.asked ∧
        (∀ s ∈ x'.up.snd.calls ++ x'.down.snd.calls, s.phase = .done (.ok ()) ∨ s.phase = .dropped false) ∧
        x'.up.got = x'.up.pushed.map Prod.snd ∧ x'.down.got = x'.down.pushed.map Prod.snd) ∧
      (∀ (k : Nat) (r : String × Req × Choice), rs[k]? = some r →
        (World.run E S st (evs ++ first ++ more)).request c (x.asked.length + k) = some (r.1, r.2.1) ∧
        (World.run E S st (evs ++ first ++ more)).result c (x.asked.length + k) = spec.1[k]?) ∧
      (World.run E S st (evs ++ first ++ more)).sys.sh = spec.2 ∧
      ∀ c', c' ≠ c → (World.run E S st (evs ++ first ++ more)).conns[c']? = (World.run E S st evs).conns[c']? := by
  intro spec
  obtain ⟨hu, hd⟩ := fine_good L hx hf
  have hi := (worldInv_run st evs).conns c x hx
  have hids' : x.cli.reqs.map CReq.id = x.asked.map Asked.id := by
    rw [hi.cli, run_ids, hi.starts]; rfl
  have hlen : x.cli.reqs.length = x.asked.length := by simpa using congrArg List.length hids'
  have hlt := (List.getElem?_eq_some_iff.mp hx).1
  obtain ⟨first, x', h1, h2, h3, h4, h5, h6, h7, -, -⟩ := drain L _ c x hx hf.here hu hd (ended_of_good L (connWire_run L st evs c x hx) hd) hlen
  rw [← run_ext] at h1 h7
  have hx' : (World.run E S st (evs ++ first)).conns[c]? = some x' := by rw [h1]; simp [hlt]
  have hfree : ∀ r ∈ rs, x'.cli.pending.get r.1 = none := by
    intro r hr
    refine h4 _ ?_
    cases hp : x.cli.pending.get r.1 with
    | none => rfl
    | some k =>
      exfalso
      have hci : CInv x.cli := by rw [hi.cli]; exact CInv.init.run _
      obtain ⟨q, hq, hqi, -⟩ := hci.pend _ _ hp
      have hm : q.id ∈ x.asked.map Asked.id := by
        rw [← hids']; exact List.mem_map_of_mem (List.mem_of_getElem? hq)
      obtain ⟨a, ha, hai⟩ := List.mem_map.mp hm
      exact hnew r hr a ha (by rw [hai, hqi])
  obtain ⟨more, x2, g1, g2, g3, -, -, g6⟩ := seq_requests L hst c rs (evs ++ first) x' hx' h2 hids hfree (by rw [h7]; exact hfit)
  rw [h3, h7] at g6
  rw [h7] at g3
  refine ⟨first, more, h7, ⟨x', hx', h3, ?_, by rw [h5.all, List.append_nil], by rw [h6.all, List.append_nil]⟩, g6, g3, ?_⟩
  · intro s hs
    rcases List.mem_append.mp hs with hs | hs
    · obtain ⟨k, hk⟩ := List.mem_iff_getElem?.mp hs; exact h5.over k s hk
    · obtain ⟨k, hk⟩ := List.mem_iff_getElem?.mp hs; exact h6.over k s hk
  · intro c' hc'
    rw [g1, h1]
    rw [List.getElem?_set_ne (fun h => hc' h.symm), List.getElem?_set_ne (fun h => hc' h.symm)]

/-- C85. Only these events do damage: as long as nothing has gone wrong on connection `c`, an event that is not in the list leaves it so. -/
theorem C85_only_these_break (L : S.Lawful) (evs : List (WEv S)) (c : Nat) (x : Conn S) (hx : (World.run E S st evs).conns[c]? = some x) (hf : x.Fine)
    (ev : WEv S) (hb : ¬ (World.run E S st evs).Breaks c ev) :
    ∃ x', (World.run E S st (evs ++ [ev])).conns[c]? = some x' ∧ x'.Fine := by
  have hr : World.run E S st (evs ++ [ev]) = (World.run E S st evs).step ev := by simp [World.run]
  rw [hr]
  obtain ⟨hu, hd⟩ := fine_good L hx hf
  have hlt := (List.getElem?_eq_some_iff.mp hx).1
  generalize World.run E S st evs = w at *
  cases ev with
  | connect u d => exact ⟨x, by simp only [World.step]; rw [List.getElem?_append_left hlt]; exact hx, hf⟩
  | restart => exact absurd trivial hb
  | serve d =>
    simp only [World.step]
    split
    · exact ⟨x, hx, hf⟩
    · split
      · exact ⟨x, hx, hf⟩
      · have : ∃ x', (w.conns.modify d (fun x => { x with up := x.up.poll }))[c]? = some x' ∧ x'.Fine := by
          rw [List.getElem?_modify, hx]
          by_cases hdc : d = c
          · exact ⟨{ x with up := x.up.poll }, by simp [hdc], ⟨hf.here, hf.up.poll, hf.down⟩⟩
          · exact ⟨x, by simp [hdc], hf⟩
        split
        · exact this
        · exact this
  | act i ch =>
    simp only [World.step]
    split
    · exact ⟨x, hx, hf⟩
    · rename_i t ht
      split
      · rename_i o ho
        show ∃ x', (w.conns.modify t.conn (fun x => x.reply t.msg.id o))[c]? = some x' ∧ x'.Fine
        rw [List.getElem?_modify, hx]
        by_cases htc : t.conn = c
        · refine ⟨x.reply t.msg.id o, by simp [htc], ?_⟩
          have hfit : Fits (.res t.msg.id (.ofOutcome o)) = true := by
            simp only [Fits, decide_eq_true_eq]
            by_cases hl : (Codec.encodeMsg (.res t.msg.id (.ofOutcome o))).length + 17 ≤ 8192
            · exact hl
            · exact absurd ⟨t, o, ht, htc, ho, by omega⟩ hb
          cases o with
          | ok v => exact ⟨hf.here, hf.up, hf.down.call hfit⟩
          | error e => exact ⟨hf.here, hf.up, hf.down.call hfit⟩
        · exact ⟨x, by simp [htc], hf⟩
      · exact ⟨x, hx, hf⟩
  | net d e =>
    simp only [World.step]
    rw [List.getElem?_modify, hx]
    by_cases hdc : d = c
    · subst hdc
      refine ⟨x.step e, by simp, ?_⟩
      have hb' : ∀ {P : Prop}, (P → w.Breaks d (.net d e)) → ¬ P := fun f p => hb (f p)
      cases e with
      | ask id q =>
        refine ⟨hf.here, hf.up.call ?_, hf.down⟩
        simp only [Fits, decide_eq_true_eq]
        have := hb' (P := 8192 < (Codec.encodeMsg (.req id q)).length + 17) (fun h => ⟨rfl, h⟩)
        omega
      | asked k =>
        simp only [Conn.step]
        split
        · split
          · exact ⟨hf.here, hf.up, hf.down⟩
          · exact hf
        · exact hf
      | wake k => exact ⟨hf.here, hf.up, hf.down⟩
      | timeout k => exact ⟨hf.here, hf.up, hf.down⟩
      | cancel k =>
        simp only [Conn.step]
        split
        · rename_i a ha
          refine ⟨hf.here, hf.up.drop _ ?_, hf.down⟩
          intro s hs hh
          refine hb ⟨rfl, x, a, s, hx, ha, hs, ?_⟩
          revert hh
          cases s.phase <;> simp [SPhase.holding]
        · exact hf
      | shutdown => exact absurd ⟨rfl, trivial⟩ hb
      | downShutdown => exact absurd ⟨rfl, trivial⟩ hb
      | upClose => exact absurd ⟨rfl, trivial⟩ hb
      | downClose => exact absurd ⟨rfl, trivial⟩ hb
      | upSend e =>
        simp only [Conn.step]
        split
        · rename_i hi
          refine ⟨hf.here, ?_, hf.down⟩
          cases e with
          | acquire k => exact hf.up.acquire hu.snt.inv k
          | push k => exact hf.up.push L k
          | write k n => exact hf.up.write k n
          | ioErr k => exact absurd ⟨rfl, trivial⟩ hb
          | call m => simp [SEv.internal] at hi
          | drop k => simp [SEv.internal] at hi
        · exact hf
      | downSend e =>
        simp only [Conn.step]
        split
        · rename_i hi
          refine ⟨hf.here, hf.up, ?_⟩
          cases e with
          | acquire k => exact hf.down.acquire hd.snt.inv k
          | push k => exact hf.down.push L k
          | write k n => exact hf.down.write k n
          | ioErr k => exact absurd ⟨rfl, trivial⟩ hb
          | call m => simp [SEv.internal] at hi
          | drop k => simp [SEv.internal] at hi
        · exact hf
      | downRetry k =>
        simp only [Conn.step]
        split
        · exact hf
        · split
          · split
            · rename_i id v e hk
              exact absurd (show SPhase.bad (.done (.error e)) from trivial) (hf.down.clean.2 _ _ hk)
            · exact hf
          · exact hf
      | upArrive b =>
        refine ⟨hf.here, hf.up.arrive ?_, hf.down⟩
        exact Classical.byContradiction (fun h => hb ⟨rfl, x, hx, h⟩)
      | downArrive b =>
        refine ⟨hf.here, hf.up, hf.down.arrive ?_⟩
        exact Classical.byContradiction (fun h => hb ⟨rfl, x, hx, h⟩)
      | poll =>
        simp only [Conn.step]
        split
        · exact ⟨hf.here, hf.up, hf.down.poll⟩
        · exact ⟨hf.here, hf.up, hf.down.poll⟩
        · exact ⟨hf.here, hf.up, hf.down.poll⟩
    · exact ⟨x, by simp [hdc], hf⟩

/-- C85, for histories: a connection on which nothing has gone wrong stays so through any history without an event of
    the list. -/
theorem C85_fine_until_broken (L : S.Lawful) (evs more : List (WEv S)) (c : Nat) (x : Conn S) (hx : (World.run E S st evs).conns[c]? = some x) (hf : x.Fine)
    (hb : ∀ a e b, more = a ++ e :: b → ¬ (World.run E S st (evs ++ a)).Breaks c e) :
    ∃ x', (World.run E S st (evs ++ more)).conns[c]? = some x' ∧ x'.Fine := by
  induction more generalizing evs x with
  | nil => exact ⟨x, by simpa using hx, hf⟩
  | cons e more ih =>
    obtain ⟨x1, h1, h2⟩ := C85_only_these_break L evs c x hx hf e (by simpa using hb [] e more rfl)
    obtain ⟨x2, h3, h4⟩ := ih (evs ++ [e]) x1 h1 h2 (fun a e' b hab => by
      have := hb (e :: a) e' b (by rw [hab]; rfl)
      simpa using this)
    exact ⟨x2, by simpa using h3, h4⟩

/-- C85, put together: a client connects; then anything happens that is not in the list for its connection - requests of its
    own and of others, in any order and interleaving, answers, timeouts, cancellations of requests that wait, failing handlers,
    anything at all on other connections. Afterwards it can make any further requests on this connection and have them answered as the
    sequential specification says. -/
theorem C85_usable_until_broken (L : S.Lawful) (hst : GoodStore E st) (evs more : List (WEv S)) (u d : S.St) (rs : List (String × Req × Choice))
    (hids : (rs.map Prod.fst).Nodup) :
    let c := (World.run E S st evs).conns.length
    let w := World.run E S st (evs ++ .connect u d :: more)
    (∀ a e b, more = a ++ e :: b → ¬ (World.run E S st (evs ++ .connect u d :: a)).Breaks c e) →
    (∀ r ∈ rs, ∀ k id q, w.request c k = some (id, q) → id ≠ r.1) →
    AllFit E c rs w.sys.sh →
    ∃ n cont, (∀ (k : Nat) (r : String × Req × Choice), rs[k]? = some r →
        (World.run E S st ((evs ++ .connect u d :: more) ++ cont)).request c (n + k) = some (r.1, r.2.1) ∧
        (World.run E S st ((evs ++ .connect u d :: more) ++ cont)).result c (n + k) = (seqRun E c rs w.sys.sh).1[k]?) ∧
      (World.run E S st ((evs ++ .connect u d :: more) ++ cont)).sys.sh = (seqRun E c rs w.sys.sh).2 := by
  intro c w hb hnew hfit
  have hx0 : (World.run E S st (evs ++ [.connect u d])).conns[c]? = some (Conn.init u d) := by
    rw [run_ext]; simp [World.step, c]
  obtain ⟨x, hx, hf⟩ := C85_fine_until_broken L (evs ++ [.connect u d]) more c _ hx0 ⟨rfl, .init u, .init d⟩ (fun a e b hab => by
    have := hb a e b hab
    simpa using this)
  have hx' : w.conns[c]? = some x := by simpa using hx
  obtain ⟨first, cont, -, -, g1, g2, -⟩ := C85_connection_stays_usable L hst (evs ++ .connect u d :: more) c x hx' hf rs hids
    (fun r hr a ha => by
      obtain ⟨k, hk⟩ := List.mem_iff_getElem?.mp ha
      exact hnew r hr k a.id a.req (request_of hx' hk)) hfit
  rw [List.append_assoc] at g1 g2
  exact ⟨x.asked.length, first ++ cont, g1, g2⟩

/-! ### The other direction: a request given up while it is being written -/

/-- What a step can do to the client's sending half. -/
theorem up_step (w : World E S) (ev : WEv S) {c : Nat} {x : Conn S} (hx : w.conns[c]? = some x) :
    ∃ y, (w.step ev).conns[c]? = some y ∧ ((y.up.snd = x.up.snd ∧ y.up.pushed = x.up.pushed) ∨
      ∃ e, y.up.snd = x.up.snd.step e ∧ y.up.pushed = x.up.pushed ++ x.up.snd.pushing e) := by
  have hlt := (List.getElem?_eq_some_iff.mp hx).1
  have hmod : ∀ (d : Nat) (f : Conn S → Conn S), ((f x).up.snd = x.up.snd ∧ (f x).up.pushed = x.up.pushed ∨
      ∃ e, (f x).up.snd = x.up.snd.step e ∧ (f x).up.pushed = x.up.pushed ++ x.up.snd.pushing e) →
      ∃ y, (w.conns.modify d f)[c]? = some y ∧ ((y.up.snd = x.up.snd ∧ y.up.pushed = x.up.pushed) ∨
        ∃ e, y.up.snd = x.up.snd.step e ∧ y.up.pushed = x.up.pushed ++ x.up.snd.pushing e) := by
    intro d f hf
    rw [List.getElem?_modify, hx]
    by_cases hdc : d = c
    · exact ⟨f x, by simp [hdc], hf⟩
    · exact ⟨x, by simp [hdc], Or.inl ⟨rfl, rfl⟩⟩
  cases ev with
  | connect u d => exact ⟨x, by simp only [World.step]; rw [List.getElem?_append_left hlt]; exact hx, Or.inl ⟨rfl, rfl⟩⟩
  | restart =>
    refine ⟨{ x with gone := true }, ?_, Or.inl ⟨rfl, rfl⟩⟩
    show (w.conns.map _)[c]? = _
    rw [List.getElem?_map, hx]; rfl
  | serve d =>
    simp only [World.step]
    split
    · exact ⟨x, hx, Or.inl ⟨rfl, rfl⟩⟩
    · split
      · exact ⟨x, hx, Or.inl ⟨rfl, rfl⟩⟩
      · split
        · exact hmod d _ (Or.inl ⟨rfl, rfl⟩)
        · exact hmod d _ (Or.inl ⟨rfl, rfl⟩)
  | act i ch =>
    simp only [World.step]
    split
    · exact ⟨x, hx, Or.inl ⟨rfl, rfl⟩⟩
    · split
      · rename_i t _ _ o _
        refine hmod t.conn _ (Or.inl ?_)
        cases o <;> exact ⟨rfl, rfl⟩
      · exact ⟨x, hx, Or.inl ⟨rfl, rfl⟩⟩
  | net d e =>
    refine hmod d _ ?_
    cases e with
    | ask id q => exact Or.inr ⟨.call (some (.req id q)), rfl, rfl⟩
    | asked k =>
      simp only [Conn.step]
      split
      · split <;> exact Or.inl ⟨rfl, rfl⟩
      · exact Or.inl ⟨rfl, rfl⟩
    | cancel k =>
      simp only [Conn.step]
      split
      · rename_i a _; exact Or.inr ⟨.drop a.call, rfl, rfl⟩
      · exact Or.inl ⟨rfl, rfl⟩
    | shutdown => exact Or.inr ⟨.call none, rfl, rfl⟩
    | upSend e =>
      simp only [Conn.step]
      split
      · exact Or.inr ⟨e, rfl, rfl⟩
      · exact Or.inl ⟨rfl, rfl⟩
    | downSend e => simp only [Conn.step]; split <;> exact Or.inl ⟨rfl, rfl⟩
    | downRetry k =>
      simp only [Conn.step]
      split
      · exact Or.inl ⟨rfl, rfl⟩
      · split
        · split <;> exact Or.inl ⟨rfl, rfl⟩
        · exact Or.inl ⟨rfl, rfl⟩
    | downShutdown => simp only [Conn.step]; split <;> exact Or.inl ⟨rfl, rfl⟩
    | poll => simp only [Conn.step]; split <;> exact Or.inl ⟨rfl, rfl⟩
    | wake k => exact Or.inl ⟨rfl, rfl⟩
    | timeout k => exact Or.inl ⟨rfl, rfl⟩
    | upArrive b => exact Or.inl ⟨rfl, rfl⟩
    | upClose => exact Or.inl ⟨rfl, rfl⟩
    | downArrive b => exact Or.inl ⟨rfl, rfl⟩
    | downClose => exact Or.inl ⟨rfl, rfl⟩

/-- After a send was given up at the wrong moment nothing is encrypted any more. -/
theorem frozen (more : List (WEv S)) (w : World E S) {c : Nat} {x : Conn S} (hx : w.conns[c]? = some x) (hi : SndInv x.up.snd)
    {k : Nat} {m : Option Msg} (hk : x.up.snd.calls[k]? = some ⟨m, .dropped true⟩) :
    ∃ y, (more.foldl World.step w).conns[c]? = some y ∧ y.up.pushed = x.up.pushed := by
  induction more generalizing w x with
  | nil => exact ⟨x, hx, rfl⟩
  | cons ev more ih =>
    obtain ⟨y, hy, h⟩ := up_step w ev hx
    have hp : y.up.pushed = x.up.pushed ∧ SndInv y.up.snd ∧ y.up.snd.calls[k]? = some ⟨m, .dropped true⟩ := by
      rcases h with ⟨h1, h2⟩ | ⟨e, h1, h2⟩
      · rw [h1]; exact ⟨h2, hi, hk⟩
      · rw [h1, h2]
        refine ⟨?_, hi.step e, SndSt.step_bad _ e hk trivial⟩
        rcases pushing_spec x.up.snd e with hn | ⟨j, m', h3, h4, -⟩
        · rw [hn, List.append_nil]
        · exfalso
          have := hi.perm j _ h4 trivial
          exact (hi.excl (by rw [this]; simp)).2 k _ hk rfl
    obtain ⟨z, hz, hz2⟩ := ih (w.step ev) hy hp.2.1 hp.2.2
    exact ⟨z, hz, by rw [hz2, hp.1]⟩

/-- C85, the other direction for one of the events (C31, end to end): once a caller has given a request up - with `select!`, say, or a timeout of its
    own - while its bytes were being written, no request made later on this connection ever succeeds. -/
theorem C85_cancel_while_writing_is_fatal (L : S.Lawful) (evs more : List (WEv S)) (c k : Nat) (v : Resp) (x : Conn S)
    (hx : (World.run E S st evs).conns[c]? = some x) (j : Nat) (m : Option Msg) (hj : x.up.snd.calls[j]? = some ⟨m, .dropped true⟩)
    (hk : (World.run E S st evs).request c k = none) (hu' : (World.run E S st (evs ++ more)).Unforged c)
    (hf : (World.run E S st (evs ++ more)).FreshIds c) :
    (World.run E S st (evs ++ more)).result c k ≠ some (.ok v) := by
  intro hr
  obtain ⟨y0, hy0, hfr⟩ := frozen more _ hx (connWire_run L st evs c x hx).up.inv hj
  have hw := worldInv_run (S := S) st evs
  have hw' := worldInv_run (S := S) st (evs ++ more)
  have own := C56_result_is_own (E := E) (st := st) L (evs ++ more) c k
  have hids' : IdInv (World.run E S st (evs ++ more)).sys := by rw [hw'.sys]; exact idInv_run st _
  obtain ⟨y, hy, hg⟩ := grows_run more _ hx
  obtain rfl : y = y0 := by rw [hy] at hy0; exact Option.some.inj hy0
  rw [← run_ext] at hy
  generalize World.run E S st (evs ++ more) = w' at *
  generalize World.run E S st evs = w at *
  have hc := hw.conns c x hx
  have hc' := hw'.conns c y hy
  obtain ⟨id, q, hq⟩ : ∃ id q, w'.request c k = some (id, q) := by
    unfold World.result at hr
    rw [hy] at hr
    cases ha : y.asked[k]? with
    | none => simp [ha] at hr
    | some a => exact ⟨_, _, request_of hy ha⟩
  obtain ⟨y', b, hy', hb, hbid, hbreq⟩ := request_some hq
  rw [hy] at hy'; cases hy'
  have notold : ∀ a ∈ x.asked, a.id ≠ id := by
    intro a ha hid
    obtain ⟨i, hi⟩ := List.mem_iff_getElem?.mp ha
    have ha' : a ∈ y.asked := hg.asked.subset ha
    have := nodup_map_inj (hf y hy) ha' (List.mem_of_getElem? hb) (by rw [hid, hbid])
    subst this
    have hik : i = k := by
      have hiy : y.asked[i]? = some a := by
        obtain ⟨t, ht⟩ := hg.asked
        rw [← ht, List.getElem?_append_left (List.getElem?_eq_some_iff.mp hi).1]; exact hi
      have hn := hf y hy
      have h1 := List.getElem?_eq_some_iff.mp hiy
      have h2 := List.getElem?_eq_some_iff.mp hb
      obtain ⟨h1, h1'⟩ := h1
      obtain ⟨h2, h2'⟩ := h2
      rcases Nat.lt_trichotomy i k with hlt | heq | hgt
      · have := List.pairwise_iff_getElem.mp hn i k (by simpa using h1) (by simpa using h2) hlt
        simp [h1', h2'] at this
      · exact heq
      · have := List.pairwise_iff_getElem.mp hn k i (by simpa using h2) (by simpa using h1) hgt
        simp [h1', h2'] at this
    subst hik
    rw [request_of hx hi] at hk; cases hk
  obtain ⟨hans, d, hd, hdc, hdm, hdo⟩ := own id q v hu' hf hq hr
  have hbox := (hids'.done d hd).1
  rw [hdc] at hbox
  have h1 := mem_of_prefix_takeWhile (hc'.up.prefix L (hu' y hy).1) (inbox_got hc' hbox)
  rw [hfr] at h1
  obtain ⟨p, hp, hp2⟩ := List.mem_map.mp h1
  obtain ⟨ph, h2, -⟩ := hc.up.mem p hp
  rw [hp2, hdm] at h2
  obtain ⟨a, ha, -, h3⟩ := hc.ups _ _ _ h2
  cases h3
  exact notold a ha rfl

/-! ### A concrete case -/

namespace WEx

/-- Decides `SCall` part of `Link.Fine`. Specification: nothing in the code corresponds. -/
def callFine (c : SCall) : Bool := match c.phase, c.msg with
  | .dropped false, _ => true
  | .waiting, some m => decide ((Codec.encodeMsg m).length + 17 ≤ 8192)
  | .taken, some m => decide ((Codec.encodeMsg m).length + 17 ≤ 8192)
  | .writing _, some m => decide ((Codec.encodeMsg m).length + 17 ≤ 8192)
  | .done (.ok _), some m => decide ((Codec.encodeMsg m).length + 17 ≤ 8192)
  | _, _ => false

/-- Decides `Link.Fine`. Specification: nothing in the code corresponds. -/
def linkFine (l : Link S) : Bool :=
  !l.snd.closed && l.snd.calls.all callFine && !l.net.contains .close && (arrived l.net).isPrefixOf l.snd.wire

theorem linkFine_spec {l : Link S} (h : linkFine l = true) : l.Fine := by
  simp only [linkFine, Bool.and_eq_true, Bool.not_eq_true', List.all_eq_true, List.isPrefixOf_iff_prefix] at h
  obtain ⟨⟨⟨h1, h2⟩, h3⟩, h4⟩ := h
  refine ⟨h1, ?_, by simpa using h3, h4⟩
  rintro k ⟨mo, ph⟩ hk
  have := h2 _ (List.mem_of_getElem? hk)
  unfold callFine at this
  split at this
  · rename_i hp; exact Or.inl hp
  · rename_i m hp hm; exact Or.inr ⟨m, hm, of_decide_eq_true this, Or.inl hp⟩
  · rename_i m hp hm; exact Or.inr ⟨m, hm, of_decide_eq_true this, Or.inr (Or.inl hp)⟩
  · rename_i r m hp hm; exact Or.inr ⟨m, hm, of_decide_eq_true this, Or.inr (Or.inr (Or.inl ⟨r, hp⟩))⟩
  · rename_i u m hp hm; exact Or.inr ⟨m, hm, of_decide_eq_true this, Or.inr (Or.inr (Or.inr hp))⟩
  · cases this

/-- Three requests: the first is with the server, being handled; of the second a part has been written and a part of that has
    arrived; the third was given up while it waited. Another client has been refused, having sent something too large. -/
def busy1 : List (WEv Toy.stream) := [.connect ([1], 0) ([2], 0), .connect ([3], 0) ([4], 0), .net 0 (.ask "a" (.unlock (Ex.sent 0 Ex.pass))),
  .net 0 (.upSend (.acquire 0)), .net 0 (.upSend (.push 0)), .net 0 (.upSend (.write 0 9999)), .net 0 (.asked 0),
  .net 1 (.ask "x" (.sign (B.fill 32 0) none (List.replicate 8192 0))), .net 1 (.upSend (.acquire 0)), .net 1 (.upSend (.push 0)), .net 1 (.asked 0)]
def busy2 : List (WEv Toy.stream) := busy1 ++ [.net 0 (.upArrive (wire true (run busy1))), .serve 0, .act 0 (Ex.calm 0), .act 0 (Ex.calm 0),
  .net 0 (.ask "b" .hello), .net 0 (.ask "c" .listEntries), .net 0 (.upSend (.acquire 1)), .net 0 (.upSend (.push 1)), .net 0 (.upSend (.write 1 9)), .net 0 (.cancel 2)]
def busy3 : List (WEv Toy.stream) := busy2 ++ [.net 0 (.upArrive (((wire true (run busy2)).drop (wire true (run busy1)).length).take 4)), .serve 0]

set_option maxRecDepth 100000 in
theorem busy3_fine : ∃ x, (run busy3).conns[0]? = some x ∧ x.Fine ∧ x.asked.map Asked.id = ["a", "b", "c"] ∧
    x.up.snd.calls.map SCall.phase ≠ [.done (.ok ()), .done (.ok ()), .dropped false] ∧ x.up.rcv.unread.length = 4 := by
  have h : (match (run busy3).conns[0]? with
    | some x => linkFine x.up && linkFine x.down && !x.gone && decide (x.asked.map Asked.id = ["a", "b", "c"]) &&
        decide (x.up.snd.calls.map SCall.phase ≠ [.done (.ok ()), .done (.ok ()), .dropped false]) && decide (x.up.rcv.unread.length = 4)
    | none => false) = true := by decide +kernel
  cases hx : (run busy3).conns[0]? with
  | none => rw [hx] at h; cases h
  | some x =>
    rw [hx] at h
    simp only [Bool.and_eq_true, Bool.not_eq_true', decide_eq_true_eq] at h
    obtain ⟨⟨⟨⟨⟨h1, h2⟩, h3⟩, h4⟩, h5⟩, h6⟩ := h
    exact ⟨x, rfl, ⟨h3, linkFine_spec h1, linkFine_spec h2⟩, h4, h5, h6⟩

-- the further requests are new, and they and their answers fit
set_option maxRecDepth 100000 in
example : (reqs.map Prod.fst).Nodup ∧ (∀ r ∈ reqs, r.1 ∉ ["a", "b", "c"]) ∧ AllFit (Ex.env false 4) 0 reqs (run busy3).sys.sh ∧
    (run busy3).sys.threads.length = 1 := by decide +kernel

-- an event that breaks nothing, and one that does: giving up the request that is being written
set_option maxRecDepth 100000 in
example : ¬ (run busy3).Breaks 0 (.net 0 (.upSend (.write 1 3))) ∧ (run busy3).Breaks 0 (.net 0 (.cancel 1)) := by
  refine ⟨fun h => h.2, rfl, ?_⟩
  have h : (match (run busy3).conns[0]? with
    | some x => (match x.asked[1]? with
      | some a => (match x.up.snd.calls[a.call]? with
        | some (SCall.mk _ (.writing _)) => true
        | _ => false)
      | none => false)
    | none => false) = true := by decide +kernel
  split at h
  · rename_i x hx
    split at h
    · rename_i a ha
      split at h
      · rename_i _ m r hs
        exact ⟨x, a, _, hx, ha, hs, Or.inr ⟨r, rfl⟩⟩
      · cases h
    · cases h
  · cases h

/-- A request is given up when five of its bytes are on the wire; another one follows. -/
def given0 : List (WEv Toy.stream) := [.connect ([1], 0) ([2], 0), .net 0 (.ask "a" .hello), .net 0 (.upSend (.acquire 0)),
  .net 0 (.upSend (.push 0)), .net 0 (.upSend (.write 0 5))]
def given1 : List (WEv Toy.stream) := given0 ++ [.net 0 (.upArrive (wire true (run given0))), .net 0 (.cancel 0)]
def given2 : List (WEv Toy.stream) := given1 ++ [.net 0 (.ask "b" .hello), .net 0 (.upSend (.acquire 1)), .serve 0]

-- the hypotheses of `C85_cancel_while_writing_is_fatal` hold
set_option maxRecDepth 100000 in
example : (match (run given1).conns[0]? with
    | some x => decide (x.up.snd.calls.map SCall.phase = [.dropped true])
    | none => false) = true ∧ (run given1).request 0 1 = none ∧ (run given2).request 0 1 = some ("b", .hello) ∧
    unforgedW (run given2) 0 = true := by decide +kernel

end WEx

end Lair
