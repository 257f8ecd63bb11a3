import Verif.WorldLemmas
import Verif.Props.Vocab

/- One request after the other over a connection that works: what happens step by step (used for C58). -/
namespace Lair

variable {S : SStream} {E : Env}

theorem modify_of_get {α : Type} {l : List α} {i : Nat} {a : α} (h : l[i]? = some a) (f : α → α) : l.modify i f = l.set i (f a) := by
  induction l generalizing i with
  | nil => simp at h
  | cons x xs ih =>
    cases i with
    | zero => simp at h; subst h; rfl
    | succ i => simp at h; simp [ih h]

/-! ### One message through one direction -/

/-- Nothing under way in this direction, both ends in step. Proof device: nothing in the code corresponds. -/
structure LinkQuiet (l : Link S) : Prop where
  sender : l.snd.sender = true
  permit : l.snd.permit = none
  notClosed : l.snd.closed = false
  alive : l.rcv.alive
  open' : l.rcv.cr.fr.closed = false
  empty : l.rcv.unread = []
  sync : l.rcv.cr.dec = l.snd.enc
  honest : arrived l.net = l.snd.wire

theorem LinkQuiet.init (s : S.St) : LinkQuiet (Link.init s) := ⟨rfl, rfl, rfl, ⟨rfl, rfl, rfl⟩, rfl, rfl, rfl, rfl⟩

/-- The frame that carries `m` next. Proof device: nothing in the code corresponds. -/
def Link.nextFrame (l : Link S) (m : Msg) : Bytes := frame (S.push l.snd.enc (Codec.encodeMsg m)).1

/-- A send from the permit to the last byte. Proof device: nothing in the code corresponds. -/
def Link.flush (l : Link S) (k n : Nat) : Link S := ((l.send (.acquire k)).send (.push k)).send (.write k n)

theorem modify_last {α : Type} (l : List α) (a : α) (f : α → α) : (l ++ [a]).modify l.length f = l ++ [f a] := by
  induction l with
  | nil => rfl
  | cons x xs ih => simp [ih]

theorem sent_eq (L : S.Lawful) {l : Link S} (h : LinkQuiet l) {m : Msg} (hf : Fits m = true) :
    ((l.send (.call (some m))).flush l.snd.calls.length (l.nextFrame m).length).snd = { l.snd with
      enc := (S.push l.snd.enc (Codec.encodeMsg m)).2
      wire := l.snd.wire ++ l.nextFrame m
      calls := l.snd.calls ++ [⟨some m, .done (.ok ())⟩] } ∧
    ((l.send (.call (some m))).flush l.snd.calls.length (l.nextFrame m).length).rcv = l.rcv := by
  refine ⟨?_, rfl⟩
  have hm : maxFrame = 8192 := rfl
  simp only [Fits, decide_eq_true_eq] at hf
  have hfb : frameBytes (S.push l.snd.enc (Codec.encodeMsg m)).1 = .ok (l.nextFrame m) :=
    frameBytes_ok (by rw [L.push_len]; omega)
  obtain ⟨h1, h2, h3, -, -, -, -, -⟩ := h
  generalize l.nextFrame m = fr at *
  simp only [Link.flush, Link.send]
  generalize l.snd = s at *
  obtain ⟨enc, wire, closed, sender, permit, calls⟩ := s
  simp only at h1 h2 h3 hfb
  subst h1 h2 h3
  simp [SndSt.step, SndSt.set, SndSt.release, modify_last, hfb]

/-- The frame arrives and the receiver is polled: the message is delivered and the direction is quiet again. -/
theorem arrive_poll (L : S.Lawful) {l l' : Link S} (h : LinkQuiet l) {m : Msg} (hf : Fits m = true)
    (hr : l'.rcv = l.rcv) (hs : l'.snd.sender = true ∧ l'.snd.permit = none ∧ l'.snd.closed = false ∧ l'.snd.enc = (S.push l.snd.enc (Codec.encodeMsg m)).2 ∧
      l'.snd.wire = l.snd.wire ++ l.nextFrame m) (hnet : l'.net = l.net) :
    (l'.arrive (l.nextFrame m)).rcv.poll.1 = .item m ∧ LinkQuiet (l'.arrive (l.nextFrame m)).poll := by
  have hm : maxFrame = 8192 := rfl
  simp only [Fits, decide_eq_true_eq] at hf
  obtain ⟨h1, h2, h3, ha, ho, he, hy, hn⟩ := h
  have hch : (l'.arrive (l.nextFrame m)).rcv.cr.fr.chunks.flatten = frame (S.push l.snd.enc (Codec.encodeMsg m)).1 ++ [] := by
    have : l.rcv.cr.fr.chunks.flatten = [] := he
    simp only [Link.arrive, MsgRecv.ops, FrameRecv.ops, hr, List.flatten_append, this, Link.nextFrame]
    simp
  have ha' : (l'.arrive (l.nextFrame m)).rcv.alive := by
    simp only [Link.arrive, MsgRecv.ops, FrameRecv.ops, hr, MsgRecv.alive]
    exact ha
  obtain ⟨cs, hp, hcs⟩ := poll_frame ha'.2.2 (by rw [L.push_len]; omega) hch
  have hdec : (l'.arrive (l.nextFrame m)).rcv.cr.dec = l.snd.enc := by
    simp only [Link.arrive, MsgRecv.ops, hr]; exact hy
  rw [← hdec] at hp
  have hd := MsgRecv.deliver L ha' hp
  refine ⟨by rw [hd], ⟨hs.1, hs.2.1, hs.2.2.1, ?_, ?_, ?_, ?_, ?_⟩⟩
  · simp only [Link.poll, hd, MsgRecv.alive]
    exact ⟨trivial, trivial, ha'.2.2⟩
  · simp only [Link.poll, hd]
    simp only [Link.arrive, MsgRecv.ops, FrameRecv.ops, hr]; exact ho
  · simp only [Link.poll, hd, MsgRecv.unread]; exact hcs
  · simp only [Link.poll, hd]
    rw [hdec]
    exact hs.2.2.2.1.symm
  · simp only [Link.poll, Link.arrive, arrived_append, hnet, hn, arrived, List.append_nil]
    exact hs.2.2.2.2.symm

/-! ### The client's table -/

/-- A request goes out, its answer comes in. -/
theorem cli_round (s : CliSt) (id : String) (v : Resp) (he : s.ended = false) (hp : s.pending.get id = none) :
    let s' := (((s.step (.start id)).step (.sent s.reqs.length (.ok ()))).step (.arrive (.res id v))).step (.wake s.reqs.length)
    s'.reqs = s.reqs ++ [⟨id, .done (.ok (.res id v)), .full (.res id v)⟩] ∧ s'.ended = false ∧
      ∀ i, s.pending.get i = none → s'.pending.get i = none := by
  intro s'
  have h0 : s.remove id = s := by simp [CliSt.remove, hp]
  have h1 : s.step (.start id) = { s with pending := s.pending.insert id s.reqs.length, reqs := s.reqs ++ [⟨id, .sending, .empty⟩] } := by
    simp only [CliSt.step, h0]
  have h2 : (s.step (.start id)).step (.sent s.reqs.length (.ok ())) =
      { s with pending := s.pending.insert id s.reqs.length, reqs := s.reqs ++ [⟨id, .waiting, .empty⟩] } := by
    rw [h1]; simp [CliSt.step, modify_last]
  have h3 : ((s.step (.start id)).step (.sent s.reqs.length (.ok ()))).step (.arrive (.res id v)) =
      { s with pending := (s.pending.insert id s.reqs.length).erase id, reqs := s.reqs ++ [⟨id, .waiting, .full (.res id v)⟩] } := by
    rw [h2]; simp [CliSt.step, modify_last, he, Msg.id, CReq.deliver]
  have h4 : s' = { s with pending := (s.pending.insert id s.reqs.length).erase id, reqs := s.reqs ++ [⟨id, .done (.ok (.res id v)), .full (.res id v)⟩] } := by
    show CliSt.step _ (.wake s.reqs.length) = _
    rw [h3]
    simp [CliSt.step, CliSt.finish, CliSt.remove, modify_last, AMap.get_erase_self]
  rw [h4]
  refine ⟨rfl, he, ?_⟩
  intro i hi
  show ((s.pending.insert id s.reqs.length).erase id).get i = none
  by_cases h : i = id
  · subst h; exact AMap.get_erase_self _ _
  · rw [AMap.get_erase_ne _ h, AMap.get_insert_ne _ _ h, hi]

/-! ### A handler runs by itself -/

/-- What is sent for the outcome of a handler. Proof device: nothing in the code corresponds. -/
def Resp.ofOutcome : Res Resp → Resp
  | .ok v => v
  | .error e => .error e

theorem act_alone (c : Nat) (ch : Choice) (p : Prog Resp) (ts : List (Thread E)) (t : Thread E) (w : World E S)
    (hc : t.conn = c) (hp : t.prog = p) (ht : w.sys.threads = ts ++ [t]) :
    ∃ n, ((List.replicate n (WEv.act ts.length ch)).foldl World.step w).sys.sh = (p.alone c ch w.sys.sh).2 ∧
      ((List.replicate n (WEv.act ts.length ch)).foldl World.step w).sys.threads = ts ∧
      ((List.replicate n (WEv.act ts.length ch)).foldl World.step w).conns =
        w.conns.modify c (fun x => x.reply t.msg.id (p.alone c ch w.sys.sh).1) ∧
      ∃ d ∈ ((List.replicate n (WEv.act ts.length ch)).foldl World.step w).sys.done, d.conn = c ∧ d.msg = t.msg ∧
        d.outcome = (p.alone c ch w.sys.sh).1 := by
  induction p generalizing t w with
  | ret r =>
    have hg : w.sys.threads[ts.length]? = some t := by rw [ht]; simp
    refine ⟨1, ?_⟩
    have hw : w.step (.act ts.length ch) =
        { w.sysStep (.step ts.length ch) with conns := w.conns.modify t.conn (fun x => x.reply t.msg.id (.ok r)) } := by
      simp only [World.step, hg, hp, outcomeOf]
    simp only [List.replicate_one, List.foldl_cons, List.foldl_nil, hw, World.sysStep, step_ret _ _ ch _ _ hg hp, Sys.finish, Prog.alone, hc]
    refine ⟨trivial, ?_, trivial, _, List.mem_append_right _ (List.mem_singleton_self _), ?_, rfl, rfl⟩
    · rw [ht, List.eraseIdx_append_of_length_le (Nat.le_refl _)]
      simp
    · rfl
  | fail e =>
    have hg : w.sys.threads[ts.length]? = some t := by rw [ht]; simp
    refine ⟨1, ?_⟩
    have hw : w.step (.act ts.length ch) =
        { w.sysStep (.step ts.length ch) with conns := w.conns.modify t.conn (fun x => x.reply t.msg.id (.error e)) } := by
      simp only [World.step, hg, hp, outcomeOf]
    simp only [List.replicate_one, List.foldl_cons, List.foldl_nil, hw, World.sysStep, step_fail _ _ ch _ _ hg hp, Sys.finish, Prog.alone, hc]
    refine ⟨trivial, ?_, trivial, _, List.mem_append_right _ (List.mem_singleton_self _), ?_, rfl, rfl⟩
    · rw [ht, List.eraseIdx_append_of_length_le (Nat.le_refl _)]
      simp
    · rfl
  | step a k ih =>
    have hg : w.sys.threads[ts.length]? = some t := by rw [ht]; simp
    have hw : w.step (.act ts.length ch) = w.sysStep (.step ts.length ch) := by
      simp only [World.step, hg, hp, outcomeOf]
    obtain ⟨n, h1, h2, h3, h4⟩ := ih (exec c ch w.sys.sh a).1
      { t with log := t.log ++ (exec t.conn ch w.sys.sh a).2.2, prog := k (exec c ch w.sys.sh a).1 }
      (w.step (.act ts.length ch)) hc rfl (by
        rw [hw]
        simp only [World.sysStep, step_act _ _ ch _ _ _ hg hp, Sys.perform, ht, hc]
        rw [List.set_append_right _ _ (Nat.le_refl _)]
        simp)
    refine ⟨n + 1, ?_⟩
    simp only [List.replicate_succ, List.foldl_cons, Prog.alone]
    have hsh : (w.step (.act ts.length ch)).sys.sh = (exec c ch w.sys.sh a).2.1 := by
      rw [hw]
      simp only [World.sysStep, step_act _ _ ch _ _ _ hg hp, Sys.perform, hc]
    have hcn : (w.step (.act ts.length ch)).conns = w.conns := by rw [hw]; rfl
    rw [hsh] at h1 h3 h4
    rw [hcn] at h3
    exact ⟨h1, h2, h3, h4⟩

/-! ### One request -/

theorem nets_step (w : World E S) (c : Nat) (x : Conn S) (hx : w.conns[c]? = some x) (es : List NEv) :
    (es.map (WEv.net c)).foldl World.step w = { w with conns := w.conns.set c (es.foldl Conn.step x) } := by
  induction es generalizing w x with
  | nil =>
    simp only [List.map_nil, List.foldl_nil]
    have : w.conns.set c x = w.conns := by
      obtain ⟨h, rfl⟩ := List.getElem?_eq_some_iff.mp hx
      exact List.set_getElem_self _
    rw [this]
  | cons e es ih =>
    have hlt := (List.getElem?_eq_some_iff.mp hx).1
    have hs : w.step (.net c e) = { w with conns := w.conns.set c (x.step e) } := by
      simp only [World.step]
      rw [modify_of_get hx]
    simp only [List.map_cons, List.foldl_cons, hs]
    rw [ih { w with conns := w.conns.set c (x.step e) } (x.step e) (by simp [hlt])]
    simp

/-- The connection works and nothing is under way on it. Proof device: nothing in the code corresponds. -/
structure ConnReady (x : Conn S) : Prop where
  up : LinkQuiet x.up
  down : LinkQuiet x.down
  here : x.gone = false
  loop : x.cli.ended = false
  count : x.cli.reqs.length = x.asked.length

theorem ConnReady.init (u d : S.St) : ConnReady (Conn.init u d) := ⟨.init u, .init d, rfl, rfl, rfl⟩

/-- What the client and the network do until the request is with the server.
    Proof device: nothing in the code corresponds. -/
def outEvs (x : Conn S) (id : String) (q : Req) : List NEv :=
  [.ask id q, .upSend (.acquire x.up.snd.calls.length), .upSend (.push x.up.snd.calls.length),
    .upSend (.write x.up.snd.calls.length (x.up.nextFrame (.req id q)).length), .asked x.asked.length,
    .upArrive (x.up.nextFrame (.req id q))]

theorem out_eq (L : S.Lawful) {x : Conn S} (h : ConnReady x) {id : String} {q : Req} (hf : Fits (.req id q) = true) :
    ∃ cevs, (outEvs x id q).foldl Conn.step x = { x with
      cli := (x.cli.step (.start id)).step (.sent x.cli.reqs.length (.ok ()))
      asked := x.asked ++ [⟨id, q, x.up.snd.calls.length⟩]
      cevs := cevs
      up := ((x.up.send (.call (some (.req id q)))).flush x.up.snd.calls.length (x.up.nextFrame (.req id q)).length).arrive
        (x.up.nextFrame (.req id q)) } := by
  have hs := (sent_eq L h.up hf).1
  refine ⟨(x.cevs ++ [.start id]) ++ [.sent x.asked.length (.ok ())], ?_⟩
  simp only [outEvs, List.foldl_cons, List.foldl_nil]
  generalize x.up.nextFrame (.req id q) = fr at *
  simp only [Conn.step, SEv.internal, if_true, Conn.cliStep]
  simp only [Link.flush] at hs ⊢
  rw [List.getElem?_concat_length]
  simp only [hs, List.getElem?_concat_length, h.count]

/-- What the server and the network do until the answer is with the client's caller.
    Proof device: nothing in the code corresponds. -/
def backEvs (x : Conn S) (m : Msg) (k : Nat) : List NEv :=
  [.downSend (.acquire x.down.snd.calls.length), .downSend (.push x.down.snd.calls.length),
    .downSend (.write x.down.snd.calls.length (x.down.nextFrame m).length), .downArrive (x.down.nextFrame m), .poll, .wake k]

theorem back_eq (L : S.Lawful) {x : Conn S} (hq : LinkQuiet x.down) (hg : x.gone = false) {m : Msg} (k : Nat) (hf : Fits m = true) (rt : List Nat) :
    ∃ cevs, (backEvs x m k).foldl Conn.step { x with retry := rt, down := x.down.send (.call (some m)) } = { x with
      retry := rt
      cli := (x.cli.step (.arrive m)).step (.wake k)
      cevs := cevs
      down := (((x.down.send (.call (some m))).flush x.down.snd.calls.length (x.down.nextFrame m).length).arrive (x.down.nextFrame m)).poll } := by
  have hs := sent_eq L hq hf
  have ha := (arrive_poll L hq hf hs.2 (by rw [hs.1]; exact ⟨hq.sender, hq.permit, hq.notClosed, rfl, rfl⟩) rfl).1
  refine ⟨(x.cevs ++ [.arrive m]) ++ [.wake k], ?_⟩
  simp only [backEvs, List.foldl_cons, List.foldl_nil]
  generalize x.down.nextFrame m = fr at *
  simp only [Conn.step, SEv.internal, hg, Bool.not_false, Bool.and_self, if_true, Conn.cliStep]
  simp only [Link.flush] at ha ⊢
  simp only [ha]

theorem one_request (L : S.Lawful) (w : World E S) (c : Nat) (x : Conn S) (hx : w.conns[c]? = some x) (h : ConnReady x)
    (id : String) (q : Req) (ch : Choice) (hid : x.cli.pending.get id = none) (hf : Fits (.req id q) = true)
    (hr : Fits (.res id (.ofOutcome ((handleReq E c q).alone c ch w.sys.sh).1)) = true) :
    ∃ (evs : List (WEv S)) (x' : Conn S), (evs.foldl World.step w).conns = w.conns.set c x' ∧ ConnReady x' ∧
      x'.asked = x.asked ++ [⟨id, q, x.up.snd.calls.length⟩] ∧
      x'.cli.reqs = x.cli.reqs ++ [⟨id, .done (.ok (.res id (.ofOutcome ((handleReq E c q).alone c ch w.sys.sh).1))),
        .full (.res id (.ofOutcome ((handleReq E c q).alone c ch w.sys.sh).1))⟩] ∧
      (∀ i, x.cli.pending.get i = none → x'.cli.pending.get i = none) ∧
      (evs.foldl World.step w).sys.sh = ((handleReq E c q).alone c ch w.sys.sh).2 ∧
      (∃ d ∈ (evs.foldl World.step w).sys.done, d.conn = c ∧ d.msg = .req id q ∧ d.outcome = ((handleReq E c q).alone c ch w.sys.sh).1) := by
  have hlt := (List.getElem?_eq_some_iff.mp hx).1
  obtain ⟨ce1, h1⟩ := out_eq L h hf
  -- the request is with the server
  have hs := sent_eq L h.up hf
  have ha := arrive_poll L h.up hf hs.2 (by rw [hs.1]; exact ⟨h.up.sender, h.up.permit, h.up.notClosed, rfl, rfl⟩) rfl
  generalize hu : ((x.up.send (.call (some (.req id q)))).flush x.up.snd.calls.length (x.up.nextFrame (.req id q)).length).arrive
    (x.up.nextFrame (.req id q)) = up1 at h1 ha
  generalize hx1 : (outEvs x id q).foldl Conn.step x = x1 at h1
  have hw1 := nets_step w c x hx (outEvs x id q)
  rw [hx1] at hw1
  generalize hv1 : ((outEvs x id q).map (WEv.net c)).foldl World.step w = w1 at hw1
  have hw1x : w1.conns[c]? = some x1 := by rw [hw1]; simp [hlt]
  have hp1 : x1.up.rcv.poll.1 = .item (.req id q) := by rw [h1]; exact ha.1
  have hg1 : x1.gone = false := by rw [h1]; exact h.here
  -- it is received
  have hw2 : w1.step (.serve c) = { w1 with conns := w1.conns.set c { x1 with up := x1.up.poll } }.sysStep (.recv c (.req id q)) := by
    simp only [World.step, hw1x, hg1, hp1]
    rw [modify_of_get hw1x]
    simp [hg1]
  generalize hv2 : w1.step (.serve c) = w2 at hw2
  -- it is handled
  obtain ⟨n, a1, a2, a3, a4⟩ := act_alone c ch (handleReq E c q) w.sys.threads ⟨w.sys.inbox.length, c, .req id q, w.sys.sh, [], handle E c (.req id q)⟩ w2
    rfl rfl (by rw [hw2, hw1]; rfl)
  have hsh2 : w2.sys.sh = w.sys.sh := by rw [hw2, hw1]; rfl
  rw [hsh2] at a1 a3 a4
  generalize ((handleReq E c q).alone c ch w.sys.sh) = out at *
  obtain ⟨o, sh'⟩ := out
  simp only at hr a1 a3 a4
  generalize hv3 : (List.replicate n (WEv.act w.sys.threads.length ch)).foldl World.step w2 = w3 at a1 a2 a3 a4
  -- the answer
  have hc2 : w2.conns = w.conns.set c { x1 with up := x1.up.poll } := by rw [hw2, hw1]; simp [World.sysStep]
  have hrep : ∃ rt, ({ x1 with up := x1.up.poll } : Conn S).reply id o =
      { ({ x1 with up := x1.up.poll } : Conn S) with retry := rt, down := x1.down.send (.call (some (.res id (.ofOutcome o)))) } := by
    cases o with
    | ok v => exact ⟨_, rfl⟩
    | error e => exact ⟨_, rfl⟩
  obtain ⟨rt, hrep⟩ := hrep
  have hc3 : w3.conns = w.conns.set c ({ x1 with up := x1.up.poll, retry := rt, down := x1.down.send (.call (some (.res id (.ofOutcome o)))) } : Conn S) := by
    rw [a3, hc2, modify_of_get (a := ({ x1 with up := x1.up.poll } : Conn S)) (by simp [hlt])]
    simp only [List.set_set, Msg.id, hrep]
  have hx3 : w3.conns[c]? = some ({ x1 with up := x1.up.poll, retry := rt, down := x1.down.send (.call (some (.res id (.ofOutcome o)))) } : Conn S) := by
    rw [hc3]; simp [hlt]
  have hd1 : x1.down = x.down := by rw [h1]
  obtain ⟨ce2, h4⟩ := back_eq L (x := { x1 with up := x1.up.poll }) (by rw [hd1]; exact h.down) hg1 x.cli.reqs.length hr rt
  have hw4 := nets_step w3 c _ hx3 (backEvs ({ x1 with up := x1.up.poll } : Conn S) (.res id (.ofOutcome o)) x.cli.reqs.length)
  rw [h4] at hw4
  have hcli := cli_round x.cli id (.ofOutcome o) h.loop hid
  have hcl1 : x1.cli = (x.cli.step (.start id)).step (.sent x.cli.reqs.length (.ok ())) := by rw [h1]
  have hds := sent_eq L h.down hr
  have hda := arrive_poll L h.down hr hds.2 (by rw [hds.1]; exact ⟨h.down.sender, h.down.permit, h.down.notClosed, rfl, rfl⟩) rfl
  refine ⟨(outEvs x id q).map (WEv.net c) ++ [.serve c] ++ List.replicate n (WEv.act w.sys.threads.length ch) ++
    (backEvs ({ x1 with up := x1.up.poll } : Conn S) (.res id (.ofOutcome o)) x.cli.reqs.length).map (WEv.net c),
    (backEvs ({ x1 with up := x1.up.poll } : Conn S) (.res id (.ofOutcome o)) x.cli.reqs.length).foldl Conn.step
      ({ x1 with up := x1.up.poll, retry := rt, down := x1.down.send (.call (some (.res id (.ofOutcome o)))) } : Conn S), ?_, ?_, ?_, ?_, ?_, ?_, ?_⟩
  all_goals try rw [h4]
  all_goals try simp only [List.foldl_append, List.foldl_cons, List.foldl_nil, hv1, hv2, hv3, hw4]
  · rw [hc3]; simp only [List.set_set]
  · refine ⟨?_, ?_, hg1, ?_, ?_⟩
    · simp only [h1]; exact ha.2
    · simp only [hd1]; exact hda.2
    · simp only [hcl1]; exact hcli.2.1
    · simp only [hcl1]
      rw [hcli.1]
      simp only [h1, List.length_append, List.length_cons, List.length_nil, h.count]
  · simp only [h1]
  · simp only [hcl1]; exact hcli.1
  · simp only [hcl1]; exact hcli.2.2
  · exact a1
  · exact a4

end Lair
