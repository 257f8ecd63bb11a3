import Verif.Props.Progress

/-
C88: bounded pipes and the server's limit on concurrent requests cannot stop a connection: no request waits for ever behind a full buffer or behind
the limit. This is C63 in the full model, with the real messages, handlers and store in it.
-/
namespace Lair

variable {S : SStream} {E : Env} {st : E.S.σ}

/-! ### Specification -/

/-- SPECIFICATION: this send is not finished. -/
def SCall.unfinished (s : SCall) : Bool := match s.phase with
  | .waiting | .taken | .writing _ => true
  | _ => false

/-- SPECIFICATION: how many messages of connection `c` the server has taken and not finished with: handlers that run, and answers that are not yet
    written. This is what priv_srv.rs:191 `for_each_concurrent(4096, ..)` keeps at most 4096. -/
def World.inHand (w : World E S) (c : Nat) : Nat :=
  w.sys.threads.countP (fun t => decide (t.conn = c)) + (match w.conns[c]? with
    | some x => x.down.snd.calls.countP SCall.unfinished
    | none => 0)

/-- SPECIFICATION: how many bytes of this direction are in the pipe: written, and not yet read by the other end. -/
def Link.inPipe (l : Link S) : Nat := l.snd.wire.length - (arrived l.net).length

/-- SPECIFICATION: this event brings something forward that concerns connection `c`, and the limits allow it. `cap`: what a pipe holds - the
    in-process server uses `tokio::io::duplex(4096)` (in_proc_keystore.rs:66-110), a socket has its buffers; bytes are written only while they fit.
    `lim`: how many messages the server handles at the same time (priv_srv.rs:191); it takes messages, and reads bytes, only below the
    limit. Both ends read bytes only while no whole message is there (framed.rs:49-104). -/
def World.CanMove (cap lim : Nat) (w : World E S) (c : Nat) (e : WEv S) : Prop :=
  w.Moves c e ∧ ∀ x, w.conns[c]? = some x → match e with
    | .net _ (.upSend (.write _ n)) => x.up.inPipe + n ≤ cap
    | .net _ (.downSend (.write _ n)) => x.down.inPipe + n ≤ cap
    | .net _ (.upArrive _) => (∀ m, x.up.rcv.poll.1 ≠ .item m) ∧ w.inHand c < lim
    | .net _ (.downArrive _) => ∀ m, x.down.rcv.poll.1 ≠ .item m
    | .serve _ => w.inHand c < lim
    | _ => True

/-! ### Nothing is blocked for ever -/

/-- When bytes are in the pipe they can arrive. -/
theorem Link.Good.rest (L : S.Lawful) {l : Link S} (h : l.Good) (hp : 0 < l.inPipe) : ∃ b, b ≠ [] ∧ arrived l.net ++ b <+: l.snd.wire := by
  obtain ⟨b, hb⟩ := h.fine.carried.2
  refine ⟨b, ?_, by rw [hb]; exact List.prefix_refl _⟩
  rintro rfl
  rw [List.append_nil] at hb
  simp only [Link.inPipe, hb] at hp
  omega

/-- An unfinished send means that some send can be brought forward. -/
theorem Link.Good.unfinished {l : Link S} (h : l.Good) {k : Nat} {s : SCall} (hk : l.snd.calls[k]? = some s) (hs : s.unfinished = true) :
    ∃ e, l.snd.Moves e := by
  have held : ∀ j, l.snd.permit = some j → ∃ e, l.snd.Moves e := by
    intro j hp
    obtain ⟨⟨mo, ph⟩, hj, hh⟩ := h.snt.inv.held j hp
    cases ph with
    | taken => exact ⟨.push j, mo, hj⟩
    | writing r => exact ⟨.write j 1, Nat.one_pos, mo, r, hj⟩
    | waiting => exact hh.elim
    | done r => exact hh.elim
    | dropped b => exact hh.elim
    | panicked => exact hh.elim
  obtain ⟨mo, ph⟩ := s
  cases ph with
  | waiting =>
    cases hp : l.snd.permit with
    | none => exact ⟨.acquire k, hp, mo, hk⟩
    | some j => exact held j hp
  | taken => exact ⟨.push k, mo, hk⟩
  | writing r => exact ⟨.write k 1, Nat.one_pos, mo, r, hk⟩
  | done r => cases hs
  | dropped b => cases hs
  | panicked => cases hs

/-- Something that concerns the answers can go on: then it can within the limits. -/
theorem down_goes (L : S.Lawful) {cap lim : Nat} (hcap : 0 < cap) {w : World E S} {c : Nat} {x : Conn S} (hx : w.conns[c]? = some x) (hd : x.down.Good)
    {e : NEv} (he : (∃ s, e = .downSend s) ∨ (∃ b, e = .downArrive b)) (hm : x.Moves e) : ∃ e, w.CanMove cap lim c e := by
  have bytes : (∃ b, b ≠ [] ∧ arrived x.down.net ++ b <+: x.down.snd.wire) → ∃ e, w.CanMove cap lim c e := by
    rintro ⟨b, hb1, hb2⟩
    by_cases hp : ∃ m, x.down.rcv.poll.1 = .item m
    · exact ⟨.net c .poll, ⟨rfl, x, hx, hp⟩, fun y _ => trivial⟩
    · refine ⟨.net c (.downArrive b), ⟨rfl, x, hx, hb1, hb2⟩, fun y hy => ?_⟩
      rw [hx] at hy; cases hy
      exact fun m hm => hp ⟨m, hm⟩
  rcases he with ⟨s, rfl⟩ | ⟨b, rfl⟩
  · cases s with
    | write k n =>
      obtain ⟨-, m, r, hk⟩ := hm
      by_cases hg : 0 < x.down.inPipe
      · exact bytes (hd.rest L hg)
      · refine ⟨.net c (.downSend (.write k 1)), ⟨rfl, x, hx, Nat.one_pos, m, r, hk⟩, fun y hy => ?_⟩
        rw [hx] at hy; cases hy
        show x.down.inPipe + 1 ≤ cap
        omega
    | acquire k => exact ⟨.net c (.downSend (.acquire k)), ⟨rfl, x, hx, hm⟩, fun y _ => trivial⟩
    | push k => exact ⟨.net c (.downSend (.push k)), ⟨rfl, x, hx, hm⟩, fun y _ => trivial⟩
    | _ => exact hm.elim
  · exact bytes ⟨b, hm.1, hm.2⟩

/-- The server is at its limit: then something goes on. -/
theorem limit_goes (L : S.Lawful) {cap lim : Nat} (hcap : 0 < cap) {w : World E S} {c : Nat} {x : Conn S} (hx : w.conns[c]? = some x) (hd : x.down.Good)
    (hh : 0 < w.inHand c) : ∃ e, w.CanMove cap lim c e := by
  simp only [World.inHand, hx] at hh
  by_cases ht : 0 < w.sys.threads.countP (fun t => decide (t.conn = c))
  · obtain ⟨t, ht, htc⟩ := List.countP_pos_iff.mp ht
    obtain ⟨i, hi⟩ := List.mem_iff_getElem?.mp ht
    exact ⟨.act i ⟨fun n => B.fill n 0, 0, .error "", none⟩, ⟨t, hi, of_decide_eq_true htc⟩, fun y _ => trivial⟩
  · obtain ⟨s, hs, hsu⟩ := List.countP_pos_iff.mp (show 0 < x.down.snd.calls.countP SCall.unfinished by omega)
    obtain ⟨k, hk⟩ := List.mem_iff_getElem?.mp hs
    obtain ⟨e, he⟩ := hd.unfinished hk hsu
    exact down_goes L hcap hx hd (Or.inl ⟨e, rfl⟩) he

/-- What can go on without limits, or something else instead of it, can go on within the limits. -/
theorem canMove_of_moves (L : S.Lawful) {cap lim : Nat} (hcap : 0 < cap) (hlim : 0 < lim) {w : World E S} {c : Nat} {x : Conn S} (hx : w.conns[c]? = some x)
    (hu : x.up.Good) (hd : x.down.Good) (h : ∃ e, w.Moves c e) : ∃ e, w.CanMove cap lim c e := by
  by_cases hh : lim ≤ w.inHand c
  · exact limit_goes L hcap hx hd (by omega)
  have bytes : (∃ b, b ≠ [] ∧ arrived x.up.net ++ b <+: x.up.snd.wire) → ∃ e, w.CanMove cap lim c e := by
    rintro ⟨b, hb1, hb2⟩
    by_cases hp : ∃ m, x.up.rcv.poll.1 = .item m
    · obtain ⟨m, hp⟩ := hp
      exact ⟨.serve c, ⟨rfl, x, m, hx, hp⟩, fun y _ => by show w.inHand c < lim; omega⟩
    · refine ⟨.net c (.upArrive b), ⟨rfl, x, hx, hb1, hb2⟩, fun y hy => ?_⟩
      rw [hx] at hy; cases hy
      exact ⟨fun m hm => hp ⟨m, hm⟩, by omega⟩
  obtain ⟨e, he⟩ := h
  cases e with
  | act i env => exact ⟨.act i env, he, fun y _ => trivial⟩
  | serve d => exact ⟨.serve d, he, fun y _ => by show w.inHand c < lim; omega⟩
  | net d e =>
    obtain ⟨rfl, y, hy, hm⟩ := he
    have hy' := hy
    rw [hx] at hy'; cases hy'
    cases e with
    | downSend s => exact down_goes L hcap hx hd (Or.inl ⟨s, rfl⟩) hm
    | downArrive b => exact down_goes L hcap hx hd (Or.inr ⟨b, rfl⟩) hm
    | upArrive b => exact bytes ⟨b, hm.1, hm.2⟩
    | upSend s =>
      cases s with
      | write k n =>
        obtain ⟨-, m, r, hk⟩ := hm
        by_cases hg : 0 < x.up.inPipe
        · exact bytes (hu.rest L hg)
        · refine ⟨.net d (.upSend (.write k 1)), ⟨rfl, x, hx, Nat.one_pos, m, r, hk⟩, fun y hy => ?_⟩
          rw [hx] at hy; cases hy
          show x.up.inPipe + 1 ≤ cap
          omega
      | acquire k => exact ⟨.net d (.upSend (.acquire k)), ⟨rfl, x, hx, hm⟩, fun y _ => trivial⟩
      | push k => exact ⟨.net d (.upSend (.push k)), ⟨rfl, x, hx, hm⟩, fun y _ => trivial⟩
      | _ => exact hm.elim
    | poll => exact ⟨.net d .poll, ⟨rfl, x, hx, hm⟩, fun y _ => trivial⟩
    | asked k => exact ⟨.net d (.asked k), ⟨rfl, x, hx, hm⟩, fun y _ => trivial⟩
    | wake k => exact ⟨.net d (.wake k), ⟨rfl, x, hx, hm⟩, fun y _ => trivial⟩
    | _ => exact hm.elim
  | _ => exact he.elim

/-- C88. The limits never block a connection: after any undisturbed history of a connection, however full the pipes are and however many requests
    the server has in hand, if a request still runs on it then something on it can go on within the limits - with pipes that hold at least
    one byte, and a server that handles at least one request at a time. -/
theorem C88_limits_never_block (L : S.Lawful) (cap lim : Nat) (hcap : 0 < cap) (hlim : 0 < lim) (evs more : List (WEv S)) (u v : S.St) :
    let c := (World.run E S st evs).conns.length
    let w := World.run E S st (evs ++ .connect u v :: more)
    Unbroken E S st c (evs ++ [.connect u v]) more → w.FreshIds c → ∀ k, w.running c k → ∃ e, w.CanMove cap lim c e := by
  intro c w hb hfresh k hr
  obtain ⟨x, hx, hf, -⟩ := unbroken_start L evs more u v hb
  obtain ⟨hu, hd⟩ := fine_good L hx hf
  exact canMove_of_moves L hcap hlim hx hu hd (C87_running_means_something_can_move L evs more u v hb hfresh k hr)

/-- C88. Every request is answered within the limits. As `C87_every_request_is_answered`, for a world with bounded pipes and a limit on the requests in
    hand: the schedule need only not stall what the limits allow - whenever something on the connection can go on within the limits, something
    goes on, within the limits, some time later. -/
theorem C88_every_request_is_answered_within_limits (L : S.Lawful) (hst : GoodStore E st) (cap lim : Nat) (hcap : 0 < cap) (hlim : 0 < lim)
    (evs more : List (WEv S)) (u v : S.St) (σ : Nat → WEv S) :
    let c := (World.run E S st evs).conns.length
    let pre := evs ++ .connect u v :: more
    let W := World.after E S st pre σ
    Unbroken E S st c (evs ++ [.connect u v]) more → (W 0).FreshIds c →
    (∀ n, ¬ (W n).Breaks c (σ n)) →
    (∀ n id q, σ n ≠ .net c (.ask id q)) →
    (∀ n, (∃ e, (W n).CanMove cap lim c e) → ∃ m, n ≤ m ∧ (W m).CanMove cap lim c (σ m)) →
    ∃ T, ∀ n, T ≤ n → (∀ k, ¬ (W n).running c k) ∧
      ∀ k id q, (W 0).request c k = some (id, q) → (W 0).running c k → (∀ m, σ m ≠ .net c (.cancel k) ∧ σ m ≠ .net c (.timeout k)) →
        ∃ d ∈ (W n).sys.done, d.conn = c ∧ d.msg = .req id q ∧ (W n).result c k = some d.outcome := by
  intro c pre W hun hfresh hb ha hgo
  obtain ⟨x, hx, hf, hi⟩ := unbroken_start L evs more u v hun
  refine C87_every_request_is_answered L hst evs more u v σ hun hfresh hb ha (fun n he => ?_)
  obtain ⟨y, hy, hfy, -⟩ := after_fine L hx hf hi hb n
  obtain ⟨hu, hd⟩ := fine_good L hy hfy
  obtain ⟨m, hm, hmv⟩ := hgo n (canMove_of_moves L hcap hlim hy hu hd he)
  exact ⟨m, hm, hmv.1⟩


end Lair
