import Verif.World
import Verif.ClientLemmas
import Verif.Props.Channel
import Verif.Props.Vocab

/- Invariants of the composed system `World`. -/
namespace Lair

variable {S : SStream} {E : Env}

/-! ### Sending half -/

/-- The call has not come to encrypting its message. Specification: nothing in the code corresponds. -/
def SPhase.early : SPhase → Prop
  | .waiting => True
  | .taken => True
  | _ => False

theorem SndSt.set_call (s : SndSt S) (j : Nat) (p : SPhase) {k : Nat} {m : Option Msg} {ph : SPhase}
    (h : s.calls[k]? = some ⟨m, ph⟩) : (s.set j p).calls[k]? = some ⟨m, if j = k then p else ph⟩ := by
  rw [SndSt.set_get, h]; simp only [Option.map_some]; split <;> rfl

/-- Calls stay, keep their message, and never go back. -/
theorem SndSt.step_call (s : SndSt S) (e : SEv) {k : Nat} {m : Option Msg} {ph : SPhase} (h : s.calls[k]? = some ⟨m, ph⟩) :
    ∃ ph', (s.step e).calls[k]? = some ⟨m, ph'⟩ ∧ (¬ ph.early → ¬ ph'.early) := by
  have hset : ∀ (t : SndSt S) (j : Nat) (p : SPhase), t.calls = s.calls → (¬ ph.early → j = k → ¬ p.early) →
      ∃ ph', (t.set j p).calls[k]? = some ⟨m, ph'⟩ ∧ (¬ ph.early → ¬ ph'.early) := by
    intro t j p ht hp
    rw [← ht] at h
    refine ⟨_, t.set_call j p h, fun hn => ?_⟩
    split
    · exact hp hn ‹_›
    · exact hn
  have hrel : ∀ (t : SndSt S) (j : Nat) (r : Res Unit), t.calls = s.calls →
      ∃ ph', (t.release j r).calls[k]? = some ⟨m, ph'⟩ ∧ (¬ ph.early → ¬ ph'.early) :=
    fun t j r ht => hset t j (.done r) ht (fun _ _ => id)
  have same : ∃ ph', s.calls[k]? = some ⟨m, ph'⟩ ∧ (¬ ph.early → ¬ ph'.early) := ⟨ph, h, id⟩
  cases e with
  | call x =>
    refine ⟨ph, ?_, id⟩
    show (s.calls ++ [_])[k]? = _
    rw [List.getElem?_append_left (List.getElem?_eq_some_iff.mp h).1]; exact h
  | acquire j =>
    simp only [SndSt.step]
    split
    · rename_i hj
      split
      · exact same
      · split
        · exact hset s j .taken rfl (by
            rintro hn rfl; rw [h] at hj; cases hj; exact absurd trivial hn)
        · exact hset s j .panicked rfl (fun _ _ => id)
    · exact same
  | push j =>
    simp only [SndSt.step]
    split
    · split
      · exact hrel _ j _ rfl
      · split
        · exact hrel _ j _ rfl
        · exact hset _ j _ rfl (fun _ _ => id)
    · exact hrel _ j _ rfl
    · exact same
  | write j n =>
    simp only [SndSt.step]
    split
    · split
      · exact hrel _ j _ rfl
      · exact hset _ j _ rfl (fun _ _ => id)
    · exact same
  | ioErr j =>
    simp only [SndSt.step]
    split
    · exact hrel _ j _ rfl
    · exact hrel _ j _ rfl
    · exact same
  | drop j =>
    simp only [SndSt.step]
    split
    · exact hset _ j _ rfl (fun _ _ => id)
    · exact hset _ j _ rfl (fun _ _ => id)
    · exact hset _ j _ rfl (fun _ _ => id)
    · exact same

theorem SndSt.step_length (s : SndSt S) (e : SEv) (hc : ∀ x, e ≠ .call x) : (s.step e).calls.length = s.calls.length := by
  cases e with
  | call x => exact absurd rfl (hc x)
  | acquire j => simp only [SndSt.step]; repeat' split
                 all_goals simp [SndSt.set]
  | push j => simp only [SndSt.step]; repeat' split
              all_goals simp [SndSt.set, SndSt.release]
  | write j n => simp only [SndSt.step]; repeat' split
                 all_goals simp [SndSt.set, SndSt.release]
  | ioErr j => simp only [SndSt.step]; repeat' split
               all_goals simp [SndSt.set, SndSt.release]
  | drop j => simp only [SndSt.step]; repeat' split
              all_goals simp [SndSt.set]

/-- Calls after a step: the old ones and a new one if it is a call. -/
theorem SndSt.call_of_step (s : SndSt S) (e : SEv) {k : Nat} {m : Option Msg} {ph : SPhase}
    (h : (s.step e).calls[k]? = some ⟨m, ph⟩) :
    (∃ ph', s.calls[k]? = some ⟨m, ph'⟩) ∨ (e = .call m ∧ k = s.calls.length) := by
  cases hk : s.calls[k]? with
  | some c =>
    obtain ⟨m', ph'⟩ := c
    obtain ⟨ph2, h2, -⟩ := s.step_call e hk
    rw [h2] at h; cases h
    exact Or.inl ⟨ph', rfl⟩
  | none =>
    have hlen := List.getElem?_eq_none_iff.mp hk
    by_cases hc : ∃ x, e = .call x
    · obtain ⟨x, rfl⟩ := hc
      have h' : (s.calls ++ [(⟨x, .waiting⟩ : SCall)])[k]? = some ⟨m, ph⟩ := h
      rw [List.getElem?_append_right hlen] at h'
      cases hd : k - s.calls.length with
      | zero =>
        rw [hd] at h'; simp at h'
        exact Or.inr ⟨by rw [h'.1], by omega⟩
      | succ n => rw [hd] at h'; simp at h'
    · have := s.step_length e (fun x hx => hc ⟨x, hx⟩)
      have := (List.getElem?_eq_some_iff.mp h).1
      omega

/-! ### One direction -/

/-- Proof device: nothing in the code corresponds. -/
structure LinkInv (l : Link S) : Prop where
  rcv : l.rcv = ((MsgRecv.ops S).run (.init l.start) l.net).2
  got : l.got = items ((MsgRecv.ops S).run (.init l.start) l.net).1
  nodup : (l.pushed.map Prod.fst).Nodup
  mem : ∀ p ∈ l.pushed, ∃ ph : SPhase, l.snd.calls[p.1]? = some ⟨some p.2, ph⟩ ∧ ¬ ph.early

theorem LinkInv.init (s : S.St) : LinkInv (Link.init s) := ⟨rfl, rfl, by simp [Link.init], by simp [Link.init]⟩

theorem pushing_spec (s : SndSt S) (e : SEv) : s.pushing e = [] ∨
    ∃ k m, e = .push k ∧ s.calls[k]? = some ⟨some m, .taken⟩ ∧ s.pushing e = [(k, m)] := by
  unfold SndSt.pushing
  split
  · split
    · rename_i k _ m h; exact Or.inr ⟨k, m, rfl, h, rfl⟩
    · exact Or.inl rfl
  · exact Or.inl rfl

/-- Encrypting ends the early part of a call. -/
theorem push_not_early (s : SndSt S) {k : Nat} {m : Msg} (h : s.calls[k]? = some ⟨some m, .taken⟩) :
    ∃ ph : SPhase, (s.step (.push k)).calls[k]? = some ⟨some m, ph⟩ ∧ ¬ ph.early := by
  simp only [SndSt.step, h]
  have hset : ∀ (t : SndSt S) (p : SPhase), t.calls = s.calls → ¬ p.early →
      ∃ ph, (t.set k p).calls[k]? = some ⟨some m, ph⟩ ∧ ¬ ph.early := by
    intro t p ht hp
    have := t.set_call k p (k := k) (ht ▸ h)
    exact ⟨p, by rw [this, if_pos rfl], hp⟩
  split
  · exact hset _ _ rfl id
  · split
    · exact hset _ _ rfl id
    · exact hset _ _ rfl id

theorem LinkInv.send {l : Link S} (h : LinkInv l) (e : SEv) : LinkInv (l.send e) := by
  refine ⟨h.rcv, h.got, ?_, ?_⟩
  · show ((l.pushed ++ l.snd.pushing e).map Prod.fst).Nodup
    rcases pushing_spec l.snd e with hp | ⟨k, m, rfl, hk, hp⟩
    · rw [hp, List.append_nil]; exact h.nodup
    · rw [hp, List.map_append, List.nodup_append]
      refine ⟨h.nodup, by simp, ?_⟩
      intro a ha b hb hab
      simp only [List.map_cons, List.map_nil, List.mem_singleton] at hb
      obtain ⟨p, hp1, rfl⟩ := List.mem_map.mp ha
      obtain ⟨ph, h1, h2⟩ := h.mem p hp1
      rw [hab, hb, hk] at h1; cases h1
      exact h2 trivial
  · intro p hp
    rcases List.mem_append.mp hp with hp | hp
    · obtain ⟨ph, h1, h2⟩ := h.mem p hp
      obtain ⟨ph', h3, h4⟩ := l.snd.step_call e h1
      exact ⟨ph', h3, h4 h2⟩
    · rcases pushing_spec l.snd e with hq | ⟨k, m, rfl, hk, hq⟩
      · rw [hq] at hp; cases hp
      · rw [hq] at hp; simp at hp; subst hp
        exact push_not_early l.snd hk

theorem run_snoc {ρ α : Type} (O : RecvOps ρ α) (r : ρ) (es : List RecvEv) (e : RecvEv) :
    O.run r (es ++ [e]) = ((O.run r es).1 ++ (O.run (O.run r es).2 [e]).1, (O.run (O.run r es).2 [e]).2) := recv_append O r es [e]

theorem LinkInv.arrive {l : Link S} (h : LinkInv l) (c : Bytes) : LinkInv (l.arrive c) := by
  refine ⟨?_, ?_, h.nodup, h.mem⟩
  · show (MsgRecv.ops S).feed l.rcv c = _
    simp only [Link.arrive]
    rw [run_snoc, ← h.rcv]; rfl
  · show l.got = _
    simp only [Link.arrive]
    rw [run_snoc, ← h.rcv, h.got]; simp [RecvOps.run]

theorem LinkInv.close {l : Link S} (h : LinkInv l) : LinkInv l.close := by
  refine ⟨?_, ?_, h.nodup, h.mem⟩
  · show (MsgRecv.ops S).close l.rcv = _
    simp only [Link.close]
    rw [run_snoc, ← h.rcv]; rfl
  · show l.got = _
    simp only [Link.close]
    rw [run_snoc, ← h.rcv, h.got]; simp [RecvOps.run]

theorem items_single {α : Type} (p : Polled α) : items [p] = p.toList := by
  cases p <;> rfl

theorem LinkInv.poll {l : Link S} (h : LinkInv l) : LinkInv l.poll := by
  refine ⟨?_, ?_, h.nodup, h.mem⟩
  · show l.rcv.poll.2 = _
    simp only [Link.poll]
    rw [run_snoc, ← h.rcv]; rfl
  · show l.got ++ l.rcv.poll.1.toList = _
    simp only [Link.poll]
    rw [run_snoc, ← h.rcv, h.got, items_append]
    congr 1
    show _ = items [l.rcv.poll.1]
    rw [items_single]

/-- Does the message fit a frame? Proof device: nothing in the code corresponds. -/
def Fits (m : Msg) : Bool := decide ((Codec.encodeMsg m).length + 17 ≤ 8192)

/-- `adv_run`, noting that what is delivered fitted a frame: nothing is delivered from the first oversize message on. -/
theorem adv_run_fits (L : S.Lawful) (s : S.St) (dn td : List Msg) (bytes : Bytes)
    (hu : Unforged S s ((dn ++ td).map Codec.encodeMsg) bytes) (r : MsgRecv S) (evs : List RecvEv) (ha : r.alive)
    (hdec : r.cr.dec = S.after s (dn.map Codec.encodeMsg)) (hb : r.unread ++ arrived evs <:+ bytes) :
    items ((MsgRecv.ops S).run r evs).1 <+: td.takeWhile Fits := by
  induction evs generalizing r dn td with
  | nil => exact List.nil_prefix
  | cons e es ih =>
    cases e with
    | arrive c =>
      exact ih dn td hu ((MsgRecv.ops S).feed r c) ha hdec (by
        simpa [arrived, MsgRecv.ops, FrameRecv.ops, MsgRecv.unread, List.append_assoc] using hb)
    | close => exact ih dn td hu ((MsgRecv.ops S).close r) ha hdec hb
    | poll =>
      simp only [arrived] at hb
      rcases MsgRecv.poll_alive ha with ⟨g1, g2, -⟩ | ⟨⟨e, g⟩, hd, -⟩ | ⟨g, hd, -⟩ | ⟨c, fr', d, dec', m, g, g2, g3, g4⟩
      · have hp : (MsgRecv.ops S).poll r = (.pending, r) := Prod.ext g1 g2
        simp only [RecvOps.run, hp, items_cons_pending]
        exact ih dn td hu r ha hdec hb
      · have hp : (MsgRecv.ops S).poll r = (.err e, r.poll.2) := Prod.ext g rfl
        simp only [RecvOps.run, hp, items_cons_err]
        rw [items_nil_of_finished (MsgRecv.run_dead hd es).1]; exact List.nil_prefix
      · have hp : (MsgRecv.ops S).poll r = (.panicked, r.poll.2) := Prod.ext g rfl
        simp only [RecvOps.run, hp, items_cons_panicked]
        rw [items_nil_of_finished (MsgRecv.run_dead hd es).1]; exact List.nil_prefix
      · obtain ⟨-, hlen, hfr, hsplit⟩ := poll_item g
        have hin : c <:+: bytes := by
          refine List.IsInfix.trans ?_ hb.isInfix
          refine ⟨le16 c.length, fr'.chunks.flatten ++ arrived es, ?_⟩
          simp [MsgRecv.unread, hsplit, frame, List.append_assoc]
        have hu' := hu (dn.map Codec.encodeMsg) (td.map Codec.encodeMsg) (by simp) c hin (by
          rw [← hdec, g2]; rfl)
        obtain ⟨d', rest', hpost, hc⟩ := hu'
        cases td with
        | nil => simp at hpost
        | cons m' td' =>
          simp only [List.map_cons, List.cons.injEq] at hpost
          obtain ⟨rfl, rfl⟩ := hpost
          rw [← hdec] at hc
          have hfit : Fits m' = true := by
            have hm : maxFrame = 8192 := rfl
            rw [hc, L.push_len] at hlen
            simp only [Fits, decide_eq_true_eq]; omega
          rw [hc] at g
          have hdl := MsgRecv.deliver L ha g
          have hp : (MsgRecv.ops S).poll r = _ := hdl
          simp only [RecvOps.run, hp, items_cons_item]
          have := ih (dn ++ [m']) td' (by simpa using hu)
            ⟨⟨fr', (S.push r.cr.dec (Codec.encodeMsg m')).2, false⟩, false⟩ ⟨rfl, rfl, by rw [hfr]; exact ha.2.2⟩ (by
              simp only [List.map_append, List.map_cons, List.map_nil, after_append, SStream.after, hdec]) (by
              refine List.IsSuffix.trans ?_ hb
              refine ⟨frame c, ?_⟩
              simp [MsgRecv.unread, hsplit, List.append_assoc])
          obtain ⟨t, ht⟩ := this
          exact ⟨t, by rw [List.takeWhile_cons, hfit]; simp [ht]⟩

/-- What a receiving half has delivered is a prefix of what the sending half encrypted, up to the first message that does
    not fit a frame. -/
theorem LinkInv.prefix {l : Link S} (h : LinkInv l) (L : S.Lawful)
    (hu : Unforged S l.start (l.pushed.map (fun p => Codec.encodeMsg p.2)) (arrived l.net)) :
    l.got <+: (l.pushed.map Prod.snd).takeWhile Fits := by
  rw [h.got]
  refine adv_run_fits L l.start [] (l.pushed.map Prod.snd) (arrived l.net) (by simpa [Function.comp_def] using hu) (.init l.start) l.net
    ⟨rfl, rfl, rfl⟩ rfl ?_
  simp [MsgRecv.init, MsgRecv.unread, FrameRecv.init]

theorem mem_of_prefix_takeWhile {α : Type} {p : α → Bool} {a b : List α} (h : a <+: b.takeWhile p) {x : α} (hx : x ∈ a) : x ∈ b :=
  (List.takeWhile_prefix p).subset (h.subset hx)

/-! ### A connection -/

/-- What the messages on the way to the client are: the response, or an error, of a finished request of this connection.
    Proof device: nothing in the code corresponds. -/
def FromServer (sys : Sys E) (c : Nat) (m : Msg) : Prop :=
  ∃ d ∈ sys.done, d.conn = c ∧ ∃ r, m = .res d.msg.id r ∧ (d.outcome = .ok r ∨ ∃ e, r = .error e)

/-- Proof device: nothing in the code corresponds. -/
structure ConnInv (c : Nat) (sys : Sys E) (x : Conn S) : Prop where
  cli : x.cli = CliSt.init.run x.cevs
  starts : starts x.cevs = x.asked.map Asked.id
  arr : ∀ m, CEv.arrive m ∈ x.cevs → m ∈ x.down.got
  up : LinkInv x.up
  down : LinkInv x.down
  ups : ∀ (k : Nat) (m : Msg) (ph : SPhase), x.up.snd.calls[k]? = some ⟨some m, ph⟩ → ∃ a ∈ x.asked, a.call = k ∧ m = .req a.id a.req
  downs : ∀ (k : Nat) (m : Msg) (ph : SPhase), x.down.snd.calls[k]? = some ⟨some m, ph⟩ → FromServer sys c m
  inbox : (sys.inbox.filter (fun p => p.1 = c)).map Prod.snd = x.up.got

theorem run_snoc_cli (s : CliSt) (es : List CEv) (e : CEv) : (s.run es).step e = s.run (es ++ [e]) := by
  simp [CliSt.run]

theorem starts_snoc (es : List CEv) (e : CEv) (h : ∀ id, e ≠ .start id) : starts (es ++ [e]) = starts es := by
  rw [starts_append]
  cases e with
  | start id => exact absurd rfl (h id)
  | _ => simp [starts]

theorem send_calls_iff (l : Link S) (e : SEv) (he : ∀ x, e ≠ .call x) {k : Nat} {m : Option Msg} {ph : SPhase}
    (h : (l.send e).snd.calls[k]? = some ⟨m, ph⟩) : ∃ ph', l.snd.calls[k]? = some ⟨m, ph'⟩ := by
  rcases l.snd.call_of_step e h with h | ⟨rfl, -⟩
  · exact h
  · exact absurd rfl (he m)

/-- A step of the pending table that is neither a new request nor an arrival. -/
theorem ConnInv.cliStep {c : Nat} {sys : Sys E} {x : Conn S} (h : ConnInv c sys x) (e : CEv) (h1 : ∀ id, e ≠ .start id)
    (h2 : ∀ m, e ≠ .arrive m) : ConnInv c sys (x.cliStep e) := by
  refine ⟨?_, ?_, ?_, h.up, h.down, h.ups, h.downs, h.inbox⟩
  · show x.cli.step e = _
    rw [h.cli]; exact run_snoc_cli _ _ _
  · show Lair.starts (x.cevs ++ [e]) = _
    rw [starts_snoc _ _ h1]; exact h.starts
  · intro m hm
    rcases List.mem_append.mp hm with hm | hm
    · exact h.arr m hm
    · simp at hm; exact absurd hm.symm (h2 m)

theorem ConnInv.upSend {c : Nat} {sys : Sys E} {x : Conn S} (h : ConnInv c sys x) (e : SEv) (he : ∀ m, e ≠ .call (some m)) :
    ConnInv c sys { x with up := x.up.send e } := by
  refine ⟨h.cli, h.starts, h.arr, h.up.send e, h.down, ?_, h.downs, h.inbox⟩
  intro k m ph hk
  rcases x.up.snd.call_of_step e hk with ⟨ph', hk'⟩ | ⟨rfl, -⟩
  · exact h.ups k m ph' hk'
  · exact absurd rfl (he m)

theorem ConnInv.downSend {c : Nat} {sys : Sys E} {x : Conn S} (h : ConnInv c sys x) (e : SEv)
    (he : ∀ m, e = .call (some m) → FromServer sys c m) : ConnInv c sys { x with down := x.down.send e } := by
  refine ⟨h.cli, h.starts, h.arr, h.up, h.down.send e, h.ups, ?_, h.inbox⟩
  intro k m ph hk
  rcases x.down.snd.call_of_step e hk with ⟨ph', hk'⟩ | ⟨hc, -⟩
  · exact h.downs k m ph' hk'
  · exact he m hc

theorem internal_not_call {e : SEv} (h : e.internal = true) : ∀ x, e ≠ .call x := by
  rintro x rfl; cases h

theorem ConnInv.step {c : Nat} {sys : Sys E} {x : Conn S} (h : ConnInv c sys x) (e : NEv) : ConnInv c sys (x.step e) := by
  cases e with
  | ask id q =>
    refine ⟨?_, ?_, ?_, h.up.send _, h.down, ?_, h.downs, h.inbox⟩
    · show x.cli.step (.start id) = CliSt.init.run (x.cevs ++ [.start id])
      rw [h.cli]; exact run_snoc_cli _ _ _
    · show Lair.starts (x.cevs ++ [.start id]) = (x.asked ++ [_]).map Asked.id
      rw [starts_append, h.starts]; simp [Lair.starts]
    · intro m hm
      rcases List.mem_append.mp hm with hm | hm
      · exact h.arr m hm
      · simp at hm
    · intro k m ph hk
      rcases x.up.snd.call_of_step _ hk with ⟨ph', hk'⟩ | ⟨hc, hl⟩
      · obtain ⟨a, ha, h1, h2⟩ := h.ups k m ph' hk'
        exact ⟨a, List.mem_append_left _ ha, h1, h2⟩
      · simp at hc
        exact ⟨⟨id, q, x.up.snd.calls.length⟩, List.mem_append_right _ (by simp), hl.symm, hc.symm⟩
  | asked k =>
    simp only [Conn.step]
    split
    · split
      · exact h.cliStep _ (by simp) (by simp)
      · exact h
    · exact h
  | wake k => exact h.cliStep _ (by simp) (by simp)
  | timeout k => exact h.cliStep _ (by simp) (by simp)
  | cancel k =>
    simp only [Conn.step]
    split
    · exact (h.cliStep (.cancel k) (by simp) (by simp)).upSend _ (by simp)
    · exact h
  | shutdown => exact h.upSend _ (by simp)
  | upSend e =>
    simp only [Conn.step]
    split
    · exact h.upSend e (fun m => internal_not_call ‹_› _)
    · exact h
  | upArrive b => exact ⟨h.cli, h.starts, h.arr, h.up.arrive b, h.down, h.ups, h.downs, h.inbox⟩
  | upClose => exact ⟨h.cli, h.starts, h.arr, h.up.close, h.down, h.ups, h.downs, h.inbox⟩
  | downSend e =>
    simp only [Conn.step]
    split
    · rename_i hi
      simp only [Bool.and_eq_true] at hi
      exact h.downSend e (fun m hm => absurd hm (internal_not_call hi.1 _))
    · exact h
  | downRetry k =>
    simp only [Conn.step]
    split
    · exact h
    · split
      · split
        · rename_i id r er hk
          have := h.downSend (.call (some (.res id (.error er)))) (by
            intro m hm
            obtain ⟨d, hd, hc, r', hr, -⟩ := h.downs k _ _ hk
            simp at hm; subst hm
            cases hr
            exact ⟨d, hd, hc, .error er, rfl, Or.inr ⟨er, rfl⟩⟩)
          exact ⟨this.cli, this.starts, this.arr, this.up, this.down, this.ups, this.downs, this.inbox⟩
        · exact h
      · exact h
  | downShutdown =>
    simp only [Conn.step]
    split
    · exact h
    · exact h.downSend _ (by simp)
  | downArrive b => exact ⟨h.cli, h.starts, h.arr, h.up, h.down.arrive b, h.ups, h.downs, h.inbox⟩
  | downClose => exact ⟨h.cli, h.starts, h.arr, h.up, h.down.close, h.ups, h.downs, h.inbox⟩
  | poll =>
    have hgot : ∀ m, m ∈ x.down.got → m ∈ x.down.poll.got := fun m hm => List.mem_append_left _ hm
    simp only [Conn.step]
    split
    · rename_i m hp
      refine ⟨?_, ?_, ?_, h.up, h.down.poll, h.ups, h.downs, h.inbox⟩
      · show x.cli.step (.arrive m) = CliSt.init.run (x.cevs ++ [.arrive m])
        rw [h.cli]; exact run_snoc_cli _ _ _
      · show Lair.starts (x.cevs ++ [.arrive m]) = _
        rw [starts_snoc _ _ (by simp)]; exact h.starts
      · intro m' hm
        rcases List.mem_append.mp hm with hm | hm
        · exact hgot _ (h.arr m' hm)
        · simp at hm; subst hm
          exact List.mem_append_right _ (by rw [hp]; simp [Polled.toList])
    · have := h.cliStep .connEnd (by simp) (by simp)
      exact ⟨this.cli, this.starts, fun m hm => hgot _ (this.arr m hm), this.up, this.down.poll, this.ups, this.downs, this.inbox⟩
    · exact ⟨h.cli, h.starts, fun m hm => hgot _ (h.arr m hm), h.up, h.down.poll, h.ups, h.downs, h.inbox⟩

/-- Requests finish and stay finished; messages received stay received. -/
theorem ConnInv.sys {c : Nat} {s s' : Sys E} {x : Conn S} (h : ConnInv c s x) (hd : ∀ d ∈ s.done, d ∈ s'.done)
    (hi : (s'.inbox.filter (fun p => p.1 = c)).map Prod.snd = (s.inbox.filter (fun p => p.1 = c)).map Prod.snd) : ConnInv c s' x :=
  ⟨h.cli, h.starts, h.arr, h.up, h.down, h.ups, fun k m ph hk => by
    obtain ⟨d, h1, h2⟩ := h.downs k m ph hk
    exact ⟨d, hd d h1, h2⟩, by rw [hi]; exact h.inbox⟩

/-! ### The world -/

/-- Proof device: nothing in the code corresponds. -/
structure WorldInv (st : E.S.σ) (w : World E S) : Prop where
  sys : w.sys = Sys.run E st w.sevs
  conns : ∀ (c : Nat) (x : Conn S), w.conns[c]? = some x → ConnInv c w.sys x
  known : ∀ p ∈ w.sys.inbox, p.1 < w.conns.length

theorem worldInv_init (st : E.S.σ) : WorldInv st (World.init E S st) :=
  ⟨rfl, by simp [World.init], by simp [World.init, Sys.init]⟩

theorem run_snoc_sys (st : E.S.σ) (evs : List Event) (e : Event) : (Sys.run E st evs).step e = Sys.run E st (evs ++ [e]) := by
  simp [Sys.run]

theorem done_step_mono (s : Sys E) (e : Event) : ∀ d ∈ s.done, d ∈ (s.step e).done := by
  intro d hd
  cases e with
  | recv c m => exact hd
  | restart => exact hd
  | step i ch =>
    simp only [Sys.step]
    split
    · exact hd
    · split
      · exact List.mem_append_left _ hd
      · exact List.mem_append_left _ hd
      · exact hd

theorem wInbox_step (s : Sys E) (e : Event) (h : ∀ c m, e ≠ .recv c m) : (s.step e).inbox = s.inbox := by
  cases e with
  | recv c m => exact absurd rfl (h c m)
  | restart => rfl
  | step i ch =>
    simp only [Sys.step]
    split
    · rfl
    · split <;> rfl

theorem WorldInv.step {st : E.S.σ} {w : World E S} (h : WorldInv st w) (e : WEv S) : WorldInv st (w.step e) := by
  cases e with
  | connect u d =>
    refine ⟨h.sys, ?_, ?_⟩
    · intro c x hx
      show ConnInv c w.sys x
      have hx : (w.conns ++ [Conn.init u d])[c]? = some x := hx
      rw [List.getElem?_append] at hx
      split at hx
      · exact h.conns c x hx
      · rename_i hlt
        cases hcd : c - w.conns.length with
        | succ n => rw [hcd] at hx; simp at hx
        | zero =>
          rw [hcd] at hx; simp at hx; subst hx
          refine ⟨rfl, rfl, by simp [Conn.init], .init u, .init d, by simp [Conn.init, Link.init, SndSt.init],
            by simp [Conn.init, Link.init, SndSt.init], ?_⟩
          have : w.sys.inbox.filter (fun p => p.1 = c) = [] := by
            rw [List.filter_eq_nil_iff]
            intro p hp
            have := h.known p hp
            simp; omega
          rw [this]; rfl
    · intro p hp
      have := h.known p hp
      show _ < (w.conns ++ [Conn.init u d]).length
      simp; omega
  | net c e =>
    refine ⟨h.sys, ?_, ?_⟩
    · intro c' x hx
      show ConnInv c' w.sys x
      have hx : (w.conns.modify c (fun x => x.step e))[c']? = some x := hx
      rw [List.getElem?_modify] at hx
      cases hc : w.conns[c']? with
      | none => rw [hc] at hx; simp at hx
      | some y =>
        rw [hc] at hx
        simp only [Option.map_eq_map, Option.map_some, Option.some.injEq] at hx
        subst hx
        have := h.conns c' y hc
        split
        · exact this.step e
        · exact this
    · intro p hp
      have := h.known p hp
      show _ < (w.conns.modify c _).length
      simpa using this
  | serve c =>
    simp only [World.step]
    split
    · exact h
    · rename_i x hx
      split
      · exact h
      · have hlen : c < w.conns.length := (List.getElem?_eq_some_iff.mp hx).1
        have hget : ∀ (c' : Nat) (y : Conn S), (w.conns.modify c (fun x => { x with up := x.up.poll }))[c']? = some y →
            (c' = c ∧ y = { x with up := x.up.poll }) ∨ (c' ≠ c ∧ w.conns[c']? = some y) := by
          intro c' y hy
          rw [List.getElem?_modify] at hy
          by_cases hcc : c = c'
          · subst hcc
            rw [hx] at hy
            simp at hy
            exact Or.inl ⟨rfl, hy.symm⟩
          · right
            simp only [hcc, if_false] at hy
            refine ⟨fun h => hcc h.symm, ?_⟩
            cases hc : w.conns[c']? with
            | none => rw [hc] at hy; simp at hy
            | some z => rw [hc] at hy; simpa using hy
        have hci := h.conns c x hx
        split
        · rename_i m hm
          refine ⟨?_, ?_, ?_⟩
          · show w.sys.step (.recv c m) = Sys.run E st (w.sevs ++ [.recv c m])
            rw [h.sys]; exact run_snoc_sys _ _ _
          · intro c' y hy
            show ConnInv c' (w.sys.step (.recv c m)) y
            rcases hget c' y hy with ⟨rfl, rfl⟩ | ⟨hne, hy⟩
            · refine ⟨hci.cli, hci.starts, hci.arr, hci.up.poll, hci.down, hci.ups, fun k m' ph hk => ?_, ?_⟩
              · obtain ⟨d, h1, h2⟩ := hci.downs k m' ph hk
                exact ⟨d, h1, h2⟩
              · show ((w.sys.inbox ++ [(c', m)]).filter _).map _ = x.up.got ++ x.up.rcv.poll.1.toList
                rw [hm, ← hci.inbox]
                simp [Polled.toList]
            · refine (h.conns c' y hy).sys (done_step_mono _ _) ?_
              show ((w.sys.inbox ++ [(c, m)]).filter _).map _ = _
              simp [Ne.symm hne]
          · intro p hp
            have hp : p ∈ w.sys.inbox ++ [(c, m)] := hp
            show p.1 < (w.conns.modify c _).length
            rw [List.length_modify]
            rcases List.mem_append.mp hp with hp | hp
            · exact h.known p hp
            · simp at hp; subst hp; exact hlen
        · rename_i hm
          have hnil : x.up.rcv.poll.1.toList = [] := by
            cases hp : x.up.rcv.poll.1 with
            | item a => exact absurd hp (hm a)
            | _ => rfl
          refine ⟨h.sys, ?_, ?_⟩
          · intro c' y hy
            show ConnInv c' w.sys y
            rcases hget c' y hy with ⟨rfl, rfl⟩ | ⟨hne, hy⟩
            · refine ⟨hci.cli, hci.starts, hci.arr, hci.up.poll, hci.down, hci.ups, hci.downs, ?_⟩
              show _ = x.up.got ++ x.up.rcv.poll.1.toList
              rw [hnil, List.append_nil]; exact hci.inbox
            · exact h.conns c' y hy
          · intro p hp
            show p.1 < (w.conns.modify c _).length
            rw [List.length_modify]; exact h.known p hp
  | act i ch =>
    have hsame : (w.sys.step (.step i ch)).inbox = w.sys.inbox := wInbox_step _ _ (by simp)
    have base : WorldInv st (w.sysStep (.step i ch)) := by
      refine ⟨?_, ?_, ?_⟩
      · show w.sys.step (.step i ch) = Sys.run E st (w.sevs ++ [.step i ch])
        rw [h.sys]; exact run_snoc_sys _ _ _
      · intro c x hx
        exact (h.conns c x hx).sys (done_step_mono _ _) (by show ((w.sys.step (.step i ch)).inbox.filter _).map _ = _; rw [hsame])
      · intro p hp
        exact h.known p (by rw [← hsame]; exact hp)
    simp only [World.step]
    split
    · exact base
    · rename_i t ht
      split
      · rename_i o ho
        have hd : (⟨t.id, t.conn, t.msg, t.start, w.sys.sh, t.log, o, deliver t.msg.id o⟩ : Done E) ∈ (w.sys.step (.step i ch)).done := by
          cases hp : t.prog with
          | ret r =>
            rw [hp] at ho; simp [outcomeOf] at ho; subst ho
            rw [step_ret w.sys i ch t r ht hp]
            exact List.mem_append_right _ (by simp)
          | fail r =>
            rw [hp] at ho; simp [outcomeOf] at ho; subst ho
            rw [step_fail w.sys i ch t r ht hp]
            exact List.mem_append_right _ (by simp)
          | step a k => rw [hp] at ho; simp [outcomeOf] at ho
        refine ⟨base.sys, ?_, ?_⟩
        · intro c x hx
          have hx : (w.conns.modify t.conn (fun x => x.reply t.msg.id o))[c]? = some x := hx
          show ConnInv c (w.sys.step (.step i ch)) x
          rw [List.getElem?_modify] at hx
          cases hc : w.conns[c]? with
          | none => rw [hc] at hx; simp at hx
          | some y =>
            rw [hc] at hx
            simp only [Option.map_eq_map, Option.map_some, Option.some.injEq] at hx
            have hy : ConnInv c (w.sys.step (.step i ch)) y := base.conns c y hc
            subst hx
            split
            · rename_i hcc
              cases o with
              | ok r =>
                have := hy.downSend (.call (some (.res t.msg.id r))) (by
                  intro m hm
                  simp at hm; subst hm
                  exact ⟨_, hd, hcc, r, rfl, Or.inl rfl⟩)
                exact ⟨this.cli, this.starts, this.arr, this.up, this.down, this.ups, this.downs, this.inbox⟩
              | error er =>
                exact hy.downSend (.call (some (.res t.msg.id (.error er)))) (by
                  intro m hm
                  simp at hm; subst hm
                  exact ⟨_, hd, hcc, .error er, rfl, Or.inr ⟨er, rfl⟩⟩)
            · exact hy
        · intro p hp
          have := base.known p hp
          show p.1 < (w.conns.modify _ _).length
          rw [List.length_modify]; exact this
      · exact base
  | restart =>
    refine ⟨?_, ?_, ?_⟩
    · show w.sys.step .restart = Sys.run E st (w.sevs ++ [.restart])
      rw [h.sys]; exact run_snoc_sys _ _ _
    · intro c x hx
      have hx : (w.conns.map (fun x => { x with gone := true }))[c]? = some x := hx
      rw [List.getElem?_map] at hx
      cases hc : w.conns[c]? with
      | none => rw [hc] at hx; simp at hx
      | some y =>
        rw [hc] at hx
        simp only [Option.map_some, Option.some.injEq] at hx
        subst hx
        have hy := h.conns c y hc
        exact ⟨hy.cli, hy.starts, hy.arr, hy.up, hy.down, hy.ups, hy.downs, hy.inbox⟩
    · intro p hp
      have := h.known p hp
      show p.1 < (w.conns.map _).length
      simpa using this

theorem worldInv_foldl {st : E.S.σ} (evs : List (WEv S)) {w : World E S} (h : WorldInv st w) : WorldInv st (evs.foldl World.step w) := by
  induction evs generalizing w with
  | nil => exact h
  | cons e es ih => exact ih (h.step e)

theorem worldInv_run (st : E.S.σ) (evs : List (WEv S)) : WorldInv st (World.run E S st evs) := worldInv_foldl evs (worldInv_init st)

end Lair
