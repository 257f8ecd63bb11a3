import Verif.FineConn

/- A connection on which nothing has gone wrong, in the world (used for C85). -/
namespace Lair

variable {S : SStream} {E : Env}

/-! ### What holds on every connection of every run -/

theorem cli_ended (s : CliSt) (e : CEv) (h : e ≠ .connEnd) : (s.step e).ended = s.ended := by
  have hrm : ∀ (t : CliSt) (id : String), (t.remove id).ended = t.ended := by
    intro t id; unfold CliSt.remove; split <;> rfl
  have hfin : ∀ (k : Nat) (id : String) (p : CPhase), (s.finish k id p).ended = s.ended := by
    intro k id p; unfold CliSt.finish; rw [hrm]
  cases e with
  | start id => simp only [CliSt.step]; exact hrm s id
  | sent k r =>
    simp only [CliSt.step]
    split
    · split
      · rfl
      · exact hfin _ _ _
    · rfl
  | arrive m =>
    simp only [CliSt.step]
    split
    · rfl
    · split <;> rfl
  | wake k => simp only [CliSt.step]; split <;> first | exact hfin _ _ _ | rfl
  | timeout k => simp only [CliSt.step]; split <;> first | exact hfin _ _ _ | rfl
  | cancel k => simp only [CliSt.step]; split <;> first | exact hfin _ _ _ | rfl
  | connEnd => exact absurd rfl h

/-- What was sent, and why the client's loop has ended. Proof device: nothing in the code corresponds. -/
structure ConnWire (x : Conn S) : Prop where
  up : WireInv x.up
  down : WireInv x.down
  ended : x.cli.ended = true → Polled.finished ∈ ((MsgRecv.ops S).run (.init x.down.start) x.down.net).1

theorem ConnWire.init (u d : S.St) : ConnWire (Conn.init u d) := ⟨.init u, .init d, by intro h; cases h⟩

theorem ConnWire.upd {x x' : Conn S} (h : ConnWire x) (h1 : WireInv x'.up) (h2 : WireInv x'.down) (hs : x'.down.start = x.down.start)
    (hn : ∃ es, x'.down.net = x.down.net ++ es) (hc : x'.cli.ended = true → x.cli.ended = true) : ConnWire x' := by
  refine ⟨h1, h2, ?_⟩
  intro he
  obtain ⟨es, hn⟩ := hn
  rw [hs, hn, recv_append]
  exact List.mem_append_left _ (h.ended (hc he))

theorem ConnWire.step (L : S.Lawful) {x : Conn S} (h : ConnWire x) (hd : LinkInv x.down) (e : NEv) : ConnWire (x.step e) := by
  have same : x.down.net = x.down.net ++ [] := (List.append_nil _).symm
  have cl : ∀ e : CEv, e ≠ .connEnd → (x.cli.step e).ended = true → x.cli.ended = true := fun e he hh => by
    rw [cli_ended _ _ he] at hh; exact hh
  cases e with
  | ask id q => exact h.upd (h.up.send L _) h.down rfl ⟨[], same⟩ (cl (.start id) (by simp))
  | asked k =>
    simp only [Conn.step]
    split
    · split
      · rename_i r _
        exact h.upd h.up h.down rfl ⟨[], same⟩ (cl (.sent k r) (by simp))
      · exact h
    · exact h
  | wake k => exact h.upd h.up h.down rfl ⟨[], same⟩ (cl (.wake k) (by simp))
  | timeout k => exact h.upd h.up h.down rfl ⟨[], same⟩ (cl (.timeout k) (by simp))
  | cancel k =>
    simp only [Conn.step]
    split
    · exact h.upd (h.up.send L _) h.down rfl ⟨[], same⟩ (cl (.cancel k) (by simp))
    · exact h
  | shutdown => exact h.upd (h.up.send L _) h.down rfl ⟨[], same⟩ id
  | upSend e =>
    simp only [Conn.step]
    split
    · exact h.upd (h.up.send L _) h.down rfl ⟨[], same⟩ id
    · exact h
  | upArrive c => exact h.upd (h.up.other rfl rfl rfl) h.down rfl ⟨[], same⟩ id
  | upClose => exact h.upd (h.up.other rfl rfl rfl) h.down rfl ⟨[], same⟩ id
  | downSend e =>
    simp only [Conn.step]
    split
    · exact h.upd h.up (h.down.send L _) rfl ⟨[], same⟩ id
    · exact h
  | downRetry k =>
    simp only [Conn.step]
    split
    · exact h
    · split
      · split
        · exact h.upd h.up (h.down.send L _) rfl ⟨[], same⟩ id
        · exact h
      · exact h
  | downShutdown =>
    simp only [Conn.step]
    split
    · exact h
    · exact h.upd h.up (h.down.send L _) rfl ⟨[], same⟩ id
  | downArrive c => exact h.upd h.up (h.down.other rfl rfl rfl) rfl ⟨[.arrive c], rfl⟩ id
  | downClose => exact h.upd h.up (h.down.other rfl rfl rfl) rfl ⟨[.close], rfl⟩ id
  | poll =>
    simp only [Conn.step]
    split
    · rename_i m _
      exact h.upd h.up (h.down.other rfl rfl rfl) rfl ⟨[.poll], rfl⟩ (cl (.arrive m) (by simp))
    · rename_i hp
      refine ⟨h.up, h.down.other rfl rfl rfl, fun _ => ?_⟩
      show Polled.finished ∈ ((MsgRecv.ops S).run (.init x.down.start) (x.down.net ++ [.poll])).1
      rw [recv_append, ← hd.rcv]
      refine List.mem_append_right _ ?_
      show Polled.finished ∈ [x.down.rcv.poll.1]
      rw [hp]; exact List.mem_singleton_self _
    · exact h.upd h.up (h.down.other rfl rfl rfl) rfl ⟨[.poll], rfl⟩ id

theorem ConnWire.reply (L : S.Lawful) {x : Conn S} (h : ConnWire x) (id : String) (o : Res Resp) : ConnWire (x.reply id o) := by
  cases o with
  | ok v => exact h.upd h.up (h.down.send L _) rfl ⟨[], (List.append_nil _).symm⟩ (fun h => h)
  | error e => exact h.upd h.up (h.down.send L _) rfl ⟨[], (List.append_nil _).symm⟩ (fun h => h)

theorem getElem?_modify_some {α : Type} {l : List α} {f : α → α} {i k : Nat} {y : α} (h : (l.modify i f)[k]? = some y) :
    ∃ x, l[k]? = some x ∧ y = if i = k then f x else x := by
  rw [List.getElem?_modify] at h
  cases hx : l[k]? with
  | none => rw [hx] at h; simp at h
  | some x =>
    rw [hx] at h
    simp only [Option.map_eq_map, Option.map_some, Option.some.injEq] at h
    exact ⟨x, rfl, h.symm⟩

theorem connWire_step (L : S.Lawful) {st : E.S.σ} {w : World E S} (hi : WorldInv st w) (h : ∀ (c : Nat) (x : Conn S), w.conns[c]? = some x → ConnWire x)
    (e : WEv S) : ∀ (c : Nat) (x : Conn S), (w.step e).conns[c]? = some x → ConnWire x := by
  intro c x hx
  cases e with
  | connect u d =>
    have hx' : (w.conns ++ [Conn.init u d])[c]? = some x := hx
    rw [List.getElem?_append] at hx'
    split at hx'
    · exact h c x hx'
    · cases hk : c - w.conns.length with
      | zero => rw [hk] at hx'; simp at hx'; subst hx'; exact .init u d
      | succ n => rw [hk] at hx'; simp at hx'
  | net d e =>
    obtain ⟨y, hy, rfl⟩ := getElem?_modify_some (show (w.conns.modify d (fun x => x.step e))[c]? = some x from hx)
    split
    · exact (h c y hy).step L (hi.conns c y hy).down e
    · exact h c y hy
  | serve d =>
    have hpoll : ∀ x, (w.conns.modify d (fun x => { x with up := x.up.poll }))[c]? = some x → ConnWire x := by
      intro x hx
      obtain ⟨y, hy, rfl⟩ := getElem?_modify_some hx
      split
      · exact (h c y hy).upd ((h c y hy).up.other rfl rfl rfl) (h c y hy).down rfl ⟨[], (List.append_nil _).symm⟩ (fun h => h)
      · exact h c y hy
    simp only [World.step] at hx
    split at hx
    · exact h c x hx
    · split at hx
      · exact h c x hx
      · split at hx
        · exact hpoll x hx
        · exact hpoll x hx
  | act i ch =>
    simp only [World.step] at hx
    split at hx
    · exact h c x hx
    · split at hx
      · obtain ⟨y, hy, rfl⟩ := getElem?_modify_some hx
        split
        · exact (h c y hy).reply L _ _
        · exact h c y hy
      · exact h c x hx
  | restart =>
    have hx' : (w.conns.map (fun x => { x with gone := true }))[c]? = some x := hx
    rw [List.getElem?_map] at hx'
    cases hy : w.conns[c]? with
    | none => rw [hy] at hx'; simp at hx'
    | some y =>
      rw [hy] at hx'
      simp only [Option.map_some, Option.some.injEq] at hx'
      subst hx'
      exact (h c y hy).upd (h c y hy).up (h c y hy).down rfl ⟨[], (List.append_nil _).symm⟩ (fun h => h)

theorem connWire_foldl (L : S.Lawful) {st : E.S.σ} (evs : List (WEv S)) : ∀ {w : World E S}, WorldInv st w →
    (∀ (c : Nat) (x : Conn S), w.conns[c]? = some x → ConnWire x) →
    ∀ (c : Nat) (x : Conn S), (evs.foldl World.step w).conns[c]? = some x → ConnWire x := by
  induction evs with
  | nil => intro w _ h; exact h
  | cons e evs ih => intro w hi h; exact ih (hi.step e) (connWire_step L hi h e)

theorem connWire_run (L : S.Lawful) (st : E.S.σ) (evs : List (WEv S)) (c : Nat) (x : Conn S) (hx : (World.run E S st evs).conns[c]? = some x) :
    ConnWire x := connWire_foldl L evs (worldInv_init st) (by simp [World.init]) c x hx

/-! ### The client's loop runs on -/

theorem ended_of_good (L : S.Lawful) {x : Conn S} (hw : ConnWire x) (hg : x.down.Good) : x.cli.ended = false := by
  cases he : x.cli.ended with
  | false => rfl
  | true =>
    obtain ⟨-, -, _, _, -, -, -, -, -, hp⟩ := hg.todo L
    rcases hp _ (hw.ended he) with h | ⟨m, h⟩ <;> cases h

/-! ### Everything under way gets through -/

theorem upSends (es : List SEv) (h : ∀ e ∈ es, e.progress = true) (x : Conn S) :
    (es.map NEv.upSend).foldl Conn.step x = { x with up := es.foldl Link.send x.up } := by
  induction es generalizing x with
  | nil => rfl
  | cons e es ih =>
    have he : x.step (.upSend e) = { x with up := x.up.send e } := by
      simp only [Conn.step, SEv.progress_internal (h e (List.mem_cons_self ..)), if_true]
    simp only [List.map_cons, List.foldl_cons, he]
    rw [ih (fun e' he' => h e' (List.mem_cons_of_mem _ he'))]

theorem downSends (es : List SEv) (h : ∀ e ∈ es, e.progress = true) (x : Conn S) (hg : x.gone = false) :
    (es.map NEv.downSend).foldl Conn.step x = { x with down := es.foldl Link.send x.down } := by
  induction es generalizing x with
  | nil => rfl
  | cons e es ih =>
    have he : x.step (.downSend e) = { x with down := x.down.send e } := by
      simp [Conn.step, SEv.progress_internal (h e (List.mem_cons_self ..)), hg]
    simp only [List.map_cons, List.foldl_cons, he]
    rw [ih (fun e' he' => h e' (List.mem_cons_of_mem _ he')) { x with down := x.down.send e } hg]

/-- The client takes out all that has arrived. -/
theorem pollAll (L : S.Lawful) (todo : List Msg) (x : Conn S) (h : LinkFull x.down todo) (he : x.cli.ended = false) :
    ∃ x', (List.replicate todo.length NEv.poll).foldl Conn.step x = x' ∧ LinkFull x'.down [] ∧ x'.up = x.up ∧ x'.asked = x.asked ∧
      x'.gone = x.gone ∧ x'.cli.ended = false ∧ x'.cli.reqs.map CReq.phase = x.cli.reqs.map CReq.phase ∧
      ∀ i, x.cli.pending.get i = none → x'.cli.pending.get i = none := by
  induction todo generalizing x with
  | nil => exact ⟨x, rfl, h, rfl, rfl, rfl, he, rfl, fun _ h => h⟩
  | cons m todo ih =>
    obtain ⟨hp, hf⟩ := h.poll L
    have hs : x.step .poll = { x.cliStep (.arrive m) with down := x.down.poll } := by
      simp only [Conn.step, hp]
    obtain ⟨x', h1, h2, h3, h4, h5, h6, h7, h8⟩ := ih (x.step .poll) (by rw [hs]; exact hf) (by
      rw [hs]; show (x.cli.step (.arrive m)).ended = false
      rw [cli_ended _ _ (by simp)]; exact he)
    refine ⟨x', by simpa [List.replicate_succ] using h1, h2, ?_, ?_, ?_, h6, ?_, ?_⟩
    · rw [h3, hs]; rfl
    · rw [h4, hs]; rfl
    · rw [h5, hs]; rfl
    · rw [h7, hs]
      show (x.cli.step (.arrive m)).reqs.map CReq.phase = _
      simp only [CliSt.step, he, Bool.false_eq_true, if_false]
      split
      · rfl
      · refine List.ext_getElem? (fun j => ?_)
        rw [List.getElem?_map, List.getElem?_map, List.getElem?_modify]
        cases x.cli.reqs[j]? with
        | none => rfl
        | some q => simp only [Option.map_eq_map, Option.map_some]; split <;> simp
    · intro i hi
      refine h8 i ?_
      rw [hs]
      show (x.cli.step (.arrive m)).pending.get i = none
      simp only [CliSt.step, he, Bool.false_eq_true, if_false]
      split
      · exact hi
      · by_cases hm : i = m.id
        · subst hm; exact AMap.get_erase_self _ _
        · rw [AMap.get_erase_ne _ hm]; exact hi

/-- The server takes out all that has arrived. -/
theorem serveAll (L : S.Lawful) (c : Nat) (todo : List Msg) (w : World E S) (x : Conn S) (hx : w.conns[c]? = some x) (hg : x.gone = false)
    (h : LinkFull x.up todo) :
    ∃ up', ((List.replicate todo.length (WEv.serve c)).foldl World.step w).conns = w.conns.set c { x with up := up' } ∧ LinkFull up' [] ∧
      ((List.replicate todo.length (WEv.serve c)).foldl World.step w).sys.sh = w.sys.sh := by
  have hlt := (List.getElem?_eq_some_iff.mp hx).1
  induction todo generalizing w x with
  | nil =>
    refine ⟨x.up, ?_, h, rfl⟩
    obtain ⟨h1, rfl⟩ := List.getElem?_eq_some_iff.mp hx
    exact (List.set_getElem_self _).symm
  | cons m todo ih =>
    obtain ⟨hp, hf⟩ := h.poll L
    have hs : w.step (.serve c) = { w with conns := w.conns.set c { x with up := x.up.poll } }.sysStep (.recv c m) := by
      simp only [World.step, hx, hg, hp]
      rw [modify_of_get hx]
      simp [hg]
    obtain ⟨up', h1, h2, h3⟩ := ih (w.step (.serve c)) { x with up := x.up.poll } (by rw [hs]; simp [World.sysStep, hlt]) hg hf (by
      rw [hs]; simpa [World.sysStep] using hlt)
    refine ⟨up', ?_, h2, ?_⟩
    · simp only [List.length_cons, List.replicate_succ, List.foldl_cons]
      rw [h1, hs]
      simp [World.sysStep]
    · simp only [List.length_cons, List.replicate_succ, List.foldl_cons]
      rw [h3, hs]
      rfl

/-- All that is under way on a connection on which nothing has gone wrong can get through. -/
theorem drain (L : S.Lawful) (w : World E S) (c : Nat) (x : Conn S) (hx : w.conns[c]? = some x) (hg : x.gone = false) (hu : x.up.Good) (hd : x.down.Good)
    (he : x.cli.ended = false) (hn : x.cli.reqs.length = x.asked.length) :
    ∃ (evs : List (WEv S)) (x' : Conn S), (evs.foldl World.step w).conns = w.conns.set c x' ∧ ConnReady x' ∧ x'.asked = x.asked ∧
      (∀ i, x.cli.pending.get i = none → x'.cli.pending.get i = none) ∧ LinkFull x'.up [] ∧ LinkFull x'.down [] ∧
      (evs.foldl World.step w).sys.sh = w.sys.sh ∧ x'.cli.reqs.map CReq.phase = x.cli.reqs.map CReq.phase ∧
      (∀ e ∈ evs, ∀ id q, e ≠ .net c (.ask id q)) := by
  have hlt := (List.getElem?_eq_some_iff.mp hx).1
  obtain ⟨es1, b1, td1, p1, f1⟩ := hu.fill L
  obtain ⟨es2, b2, td2, p2, f2⟩ := hd.fill L
  have hnet : ((es1.map NEv.upSend ++ [NEv.upArrive b1]) ++ (es2.map NEv.downSend ++ [NEv.downArrive b2])).foldl Conn.step x =
      { x with up := (es1.foldl Link.send x.up).arrive b1, down := (es2.foldl Link.send x.down).arrive b2 } := by
    simp only [List.foldl_append, List.foldl_cons, List.foldl_nil, upSends es1 p1]
    rw [downSends es2 p2 _ (by exact hg)]
    rfl
  obtain ⟨x2, q1, q2, q3, q4, q5, q6, q7, q8⟩ := pollAll L td2
    { x with up := (es1.foldl Link.send x.up).arrive b1, down := (es2.foldl Link.send x.down).arrive b2 } f2 he
  have hev := nets_step w c x hx (((es1.map NEv.upSend ++ [NEv.upArrive b1]) ++ (es2.map NEv.downSend ++ [NEv.downArrive b2])) ++ List.replicate td2.length NEv.poll)
  rw [List.foldl_append, hnet, q1] at hev
  obtain ⟨up', r1, r2, r3⟩ := serveAll L c td1 { w with conns := w.conns.set c x2 } x2 (by simp [hlt]) (by rw [q5]; exact hg) (by rw [q3]; exact f1)
  refine ⟨(((es1.map NEv.upSend ++ [NEv.upArrive b1]) ++ (es2.map NEv.downSend ++ [NEv.downArrive b2])) ++ List.replicate td2.length NEv.poll).map (WEv.net c) ++ List.replicate td1.length (WEv.serve c), { x2 with up := up' }, ?_, ⟨r2.quiet L, q2.quiet L, by rw [← hg]; exact q5, q6, ?_⟩, q4, q8, r2, q2, ?_, q7, ?_⟩
  · rw [List.foldl_append, hev, r1]
    simp
  · show x2.cli.reqs.length = x2.asked.length
    have := congrArg List.length q7
    simp only [List.length_map] at this
    rw [this, q4]; exact hn
  · rw [List.foldl_append, hev, r3]
  · intro e he id q hh
    subst hh
    simp [List.mem_append, List.mem_map, List.mem_replicate] at he

end Lair
