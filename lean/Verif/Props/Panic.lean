import Verif.Props.Channel

/-
C28, exactly: which bytes make a receiver panic. A receiver panics at a byte string if and only if that string begins with
frames that open to messages, followed by a frame of fewer than 17 bytes; and then it does so whatever the pieces in which the
bytes arrive and whenever it is polled, after having delivered the messages before.
-/
namespace Lair

variable {S : SStream}

/-- The frames `cs`, received in this order in the stream state `s`, open to the messages `ms`.
    Specification: nothing in the code corresponds. -/
inductive FramesOpen (S : SStream) : S.St → List Bytes → List Msg → Prop
  | nil {s : S.St} : FramesOpen S s [] []
  | cons {s s' : S.St} {c d : Bytes} {m : Msg} {cs : List Bytes} {ms : List Msg} (h1 : 17 ≤ c.length) (h2 : c.length ≤ 8192)
      (h3 : S.pull s c = some (d, s')) (h4 : Codec.decodeMsg d = some m) (h5 : FramesOpen S s' cs ms) : FramesOpen S s (c :: cs) (m :: ms)

/-- The bytes `b` begin with frames that open to `ms`, and then comes a frame of fewer than 17 bytes.
    Specification: nothing in the code corresponds. -/
def ShortFrameAfter (S : SStream) (s : S.St) (ms : List Msg) (b : Bytes) : Prop :=
  ∃ cs c rest, FramesOpen S s cs ms ∧ c.length < 17 ∧ b = cs.flatMap frame ++ (frame c ++ rest)

/-- C28, exactly (only if). A receiver that panics has delivered the messages of the frames before, and then been given a frame
    of fewer than 17 bytes. -/
theorem C28_panics_at_short_frame_only (s : S.St) (evs : List RecvEv)
    (h : .panicked ∈ ((MsgRecv.ops S).run (.init s) evs).1) :
    ShortFrameAfter S s (items ((MsgRecv.ops S).run (.init s) evs).1) (arrived evs) := by
  suffices H : ∀ (evs : List RecvEv) (r : MsgRecv S), (r.dead = true ∨ r.alive) →
      .panicked ∈ ((MsgRecv.ops S).run r evs).1 →
      ShortFrameAfter S r.cr.dec (items ((MsgRecv.ops S).run r evs).1) (r.unread ++ arrived evs) by
    simpa [MsgRecv.init, MsgRecv.unread, FrameRecv.init] using H evs (.init s) (Or.inr ⟨rfl, rfl, rfl⟩) h
  intro evs
  induction evs with
  | nil => intro r _ h; simp [RecvOps.run] at h
  | cons e es ih =>
    intro r hr h
    cases e with
    | arrive c =>
      have := ih ((MsgRecv.ops S).feed r c) hr h
      simpa [RecvOps.run, arrived, MsgRecv.ops, FrameRecv.ops, MsgRecv.unread, List.append_assoc] using this
    | close => exact ih ((MsgRecv.ops S).close r) hr h
    | poll =>
      rcases hr with hd | ha
      · have := (MsgRecv.run_dead hd (.poll :: es)).1 _ h; simp at this
      · rcases MsgRecv.poll_alive ha with ⟨g1, g2, -⟩ | ⟨⟨e, g⟩, hd, -⟩ | ⟨g, hd, -, c, fr', gp, hlt⟩ |
          ⟨c, fr', d, dec', m, g, g2, g3, g4⟩
        · have hp : (MsgRecv.ops S).poll r = (.pending, r) := Prod.ext g1 g2
          simp only [RecvOps.run, hp, List.mem_cons, reduceCtorEq, false_or, items_cons_pending] at h ⊢
          exact ih r (Or.inr ha) h
        · have hp : (MsgRecv.ops S).poll r = (.err e, r.poll.2) := Prod.ext g rfl
          simp only [RecvOps.run, hp, List.mem_cons, reduceCtorEq, false_or] at h
          have := (MsgRecv.run_dead hd es).1 _ h; simp at this
        · have hp : (MsgRecv.ops S).poll r = (.panicked, r.poll.2) := Prod.ext g rfl
          obtain ⟨-, -, -, hsplit⟩ := poll_item gp
          refine ⟨[], c, fr'.chunks.flatten ++ arrived es, ?_, hlt, by simp [MsgRecv.unread, hsplit, arrived]⟩
          simp only [RecvOps.run, hp, items_cons_panicked, items_nil_of_finished (MsgRecv.run_dead hd es).1]
          exact .nil
        · obtain ⟨-, hlen, hfr, hsplit⟩ := poll_item g
          have hp : (MsgRecv.ops S).poll r = _ := g4
          simp only [RecvOps.run, hp, List.mem_cons, reduceCtorEq, false_or, items_cons_item] at h ⊢
          obtain ⟨cs, x, rest, ho, hx, hb⟩ := ih _ (Or.inr ⟨rfl, rfl, by rw [hfr]; exact ha.2.2⟩) h
          refine ⟨c :: cs, x, rest, .cons ?_ hlen g2 g3 ho, hx, ?_⟩
          · rcases Nat.lt_or_ge c.length 17 with hc | hc
            · have : r.poll.1 = .panicked := by simp [MsgRecv.poll, ha.1, CryptRecv.poll, ha.2.1, g, hc]
              rw [g4] at this; simp at this
            · exact hc
          · simp only [MsgRecv.unread] at hb
            simp only [MsgRecv.unread, hsplit, arrived, List.append_assoc, hb, List.flatMap_cons]

/-- C28, exactly (if). Bytes that begin with frames that open, followed by a frame of fewer than 17 bytes, make the receiver
    panic, in whatever pieces they arrive and whenever it is polled; before that it delivers the messages, and afterwards
    nothing. -/
theorem C28_short_frame_always_panics (s : S.St) (ms : List Msg) (evs : List RecvEv) (hne : RecvEv.close ∉ evs)
    (h : ShortFrameAfter S s ms (arrived evs)) :
    .panicked ∈ ((MsgRecv.ops S).run (.init s) (evs ++ List.replicate (ms.length + 1) .poll)).1 ∧
    items ((MsgRecv.ops S).run (.init s) (evs ++ List.replicate (ms.length + 1) .poll)).1 = ms := by
  obtain ⟨cs, x, rest, ho, hx, hb⟩ := h
  have hmf : maxFrame = 8192 := rfl
  suffices H : ∀ (evs : List RecvEv) (cs : List Bytes) (ms : List Msg) (n : Nat) (r : MsgRecv S), r.alive → r.cr.fr.closed = false →
      RecvEv.close ∉ evs → ms.length + 1 ≤ n → FramesOpen S r.cr.dec cs ms →
      r.unread ++ arrived evs = cs.flatMap frame ++ (frame x ++ rest) →
      .panicked ∈ ((MsgRecv.ops S).run r (evs ++ List.replicate n .poll)).1 ∧
      items ((MsgRecv.ops S).run r (evs ++ List.replicate n .poll)).1 = ms by
    exact H evs cs ms _ (.init s) ⟨rfl, rfl, rfl⟩ rfl hne (Nat.le_refl _) ho (by
      simpa [MsgRecv.init, MsgRecv.unread, FrameRecv.init] using hb)
  clear hne hb ho evs cs ms
  -- what one poll does
  have step : ∀ (cs : List Bytes) (ms : List Msg) (r : MsgRecv S) (fut : Bytes), r.alive → r.cr.fr.closed = false →
      FramesOpen S r.cr.dec cs ms → r.unread ++ fut = cs.flatMap frame ++ (frame x ++ rest) →
      (fut ≠ [] ∧ r.poll = (.pending, r)) ∨
      (ms = [] ∧ r.poll.1 = .panicked ∧ r.poll.2.dead = true) ∨
      (∃ m ms' cs' r', ms = m :: ms' ∧ r.poll = (.item m, r') ∧ r'.alive ∧ r'.cr.fr.closed = false ∧
        FramesOpen S r'.cr.dec cs' ms' ∧ r'.unread ++ fut = cs'.flatMap frame ++ (frame x ++ rest)) := by
    intro cs ms r fut ha hc ho h
    have stuck : ∀ d : Bytes, d.length ≤ maxFrame → r.unread <+: frame d → r.unread.length < (frame d).length →
        r.poll = (.pending, r) := by
      intro d h1 h2 h3
      have hp := poll_partial ha.2.2 h1 h2 h3
      rw [hc] at hp
      simp only [Bool.false_eq_true, if_false] at hp
      obtain ⟨⟨fr, dec, d1⟩, d2⟩ := r
      obtain ⟨a1, a2, a3⟩ := ha
      simp only at a1 a2 hp
      subst a1 a2
      simp only [MsgRecv.poll, CryptRecv.poll, hp, Bool.false_eq_true, if_false]
    cases ho with
    | nil =>
      simp only [List.flatMap_nil, List.nil_append] at h
      rcases prefix_cases h with ⟨y, h1, h2⟩ | ⟨h1, h2⟩
      · obtain ⟨cs, hp, hcs⟩ := poll_frame (r := r.cr.fr) ha.2.2 (by omega) h1
        right; left
        simp [MsgRecv.poll, ha.1, CryptRecv.poll, ha.2.1, hp, hx]
      · left
        refine ⟨?_, stuck x (by omega) h1 h2⟩
        rintro rfl
        have : r.unread.length = (frame x ++ rest).length := by rw [← h]; simp
        simp at this; omega
    | @cons _ s' c d m cs' ms' k1 k2 k3 k4 k5 =>
      simp only [List.flatMap_cons, List.append_assoc] at h
      rcases prefix_cases h with ⟨y, h1, h2⟩ | ⟨h1, h2⟩
      · obtain ⟨ds, hp, hds⟩ := poll_frame (r := r.cr.fr) ha.2.2 (by omega) h1
        right; right
        have hn : ¬ c.length < 17 := by omega
        refine ⟨m, ms', cs', ⟨⟨{ r.cr.fr with chunks := ds }, s', false⟩, false⟩, rfl, ?_, ⟨rfl, rfl, ha.2.2⟩, hc, k5, ?_⟩
        · simp [MsgRecv.poll, ha.1, CryptRecv.poll, ha.2.1, hp, hn, k3, k4]
        · simpa [MsgRecv.unread, hds] using h2
      · left
        refine ⟨?_, stuck _ (by omega) h1 h2⟩
        rintro rfl
        have := congrArg List.length h
        simp at this; omega
  have fin : ∀ (r : MsgRecv S) (es : List RecvEv), r.poll.1 = .panicked → r.poll.2.dead = true →
      .panicked ∈ ((MsgRecv.ops S).run r (.poll :: es)).1 ∧ items ((MsgRecv.ops S).run r (.poll :: es)).1 = [] := by
    intro r es hp hd
    have hp' : (MsgRecv.ops S).poll r = (.panicked, r.poll.2) := Prod.ext hp rfl
    simp only [RecvOps.run, hp', List.mem_cons, true_or, items_cons_panicked, true_and]
    exact items_nil_of_finished (MsgRecv.run_dead hd es).1
  intro evs
  induction evs with
  | nil =>
    intro cs ms n
    induction n generalizing cs ms with
    | zero => intro r _ _ _ hk; omega
    | succ n ih =>
      intro r ha hc hne hk ho h
      simp only [arrived] at h
      rcases step cs ms r [] ha hc ho h with ⟨g, -⟩ | ⟨rfl, g1, g2⟩ | ⟨m, ms', cs', r', rfl, g1, g2, g3, g4, g5⟩
      · exact absurd rfl g
      · exact fin r _ g1 g2
      · obtain ⟨k1, k2⟩ := ih cs' ms' r' g2 g3 (by simp) (by simp at hk; omega) g4 g5
        have hp' : (MsgRecv.ops S).poll r = _ := g1
        simp only [List.nil_append, List.replicate_succ, RecvOps.run, hp'] at k1 k2 ⊢
        exact ⟨by simp [k1], by rw [items_cons_item, k2]⟩
  | cons e es ih =>
    intro cs ms n r ha hc hne hk ho h
    cases e with
    | arrive c =>
      exact ih cs ms n ((MsgRecv.ops S).feed r c) ha hc (by simpa using hne) hk ho (by
        simpa [arrived, MsgRecv.ops, FrameRecv.ops, MsgRecv.unread, List.append_assoc] using h)
    | close => exact absurd hne (by simp)
    | poll =>
      simp only [arrived] at h
      rcases step cs ms r (arrived es) ha hc ho h with ⟨-, g⟩ | ⟨rfl, g1, g2⟩ | ⟨m, ms', cs', r', rfl, g1, g2, g3, g4, g5⟩
      · obtain ⟨k1, k2⟩ := ih cs ms n r ha hc (by simpa using hne) hk ho h
        have hp' : (MsgRecv.ops S).poll r = _ := g
        simp only [List.cons_append, RecvOps.run, hp'] at k1 k2 ⊢
        exact ⟨by simp [k1], by rw [items_cons_pending, k2]⟩
      · exact fin r _ g1 g2
      · obtain ⟨k1, k2⟩ := ih cs' ms' n r' g2 g3 (by simpa using hne) (by simp at hk; omega) g4 g5
        have hp' : (MsgRecv.ops S).poll r = _ := g1
        simp only [List.cons_append, RecvOps.run, hp'] at k1 k2 ⊢
        exact ⟨by simp [k1], by rw [items_cons_item, k2]⟩

/-- C28, exactly. The byte strings that can make a receiver panic are those with a frame of fewer than 17 bytes after frames
    that open to messages, and no others: the safety of a receiver does not depend on its polling or on the network's timing. -/
theorem C28_panic_iff (s : S.St) (b : Bytes) :
    (∃ evs, arrived evs = b ∧ .panicked ∈ ((MsgRecv.ops S).run (.init s) evs).1) ↔ ∃ ms, ShortFrameAfter S s ms b := by
  constructor
  · rintro ⟨evs, rfl, h⟩
    exact ⟨_, C28_panics_at_short_frame_only s evs h⟩
  · rintro ⟨ms, h⟩
    have ha : ∀ n, arrived (.arrive b :: List.replicate n .poll) = b := by
      intro n
      have : arrived (List.replicate n .poll) = [] := by
        induction n with
        | zero => rfl
        | succ n ih => simpa [List.replicate_succ, arrived] using ih
      simp [arrived, this]
    exact ⟨.arrive b :: List.replicate (ms.length + 1) .poll, ha _,
      (C28_short_frame_always_panics s ms [.arrive b] (by simp) (by simpa [arrived] using h)).1⟩

/-! ### Concrete cases -/

namespace PanicEx

/-- A stream of the toy cipher. -/
def s0 : Toy.stream.St := ([1, 2, 3], 0)

/-- The frame of a genuine message, then a frame of two bytes. -/
def bytes : Bytes := frame (Toy.stream.push s0 (Codec.encodeMsg (.req "a" .hello))).1 ++ (frame [7, 7] ++ [1])

/-- They are as the theorems ask. -/
theorem short : ShortFrameAfter Toy.stream s0 [.req "a" .hello] bytes := by
  refine ⟨[(Toy.stream.push s0 (Codec.encodeMsg (.req "a" .hello))).1], [7, 7], [1], ?_, by decide, by simp [bytes]⟩
  exact .cons (s' := ([1, 2, 3], 1)) (d := Codec.encodeMsg (.req "a" .hello)) (by decide +kernel) (by decide +kernel)
    (Toy.stream_lawful.pull_push _ _) (by decide +kernel) .nil

/-- In two odd pieces, with polls in between: the message, then the panic. -/
example : .panicked ∈ ((MsgRecv.ops Toy.stream).run (.init s0)
    ([.poll, .arrive (bytes.take 11), .poll, .arrive (bytes.drop 11)] ++ List.replicate 2 .poll)).1 :=
  (C28_short_frame_always_panics s0 [.req "a" .hello] [.poll, .arrive (bytes.take 11), .poll, .arrive (bytes.drop 11)]
    (by decide) (by
      have : arrived [.poll, .arrive (bytes.take 11), .poll, .arrive (bytes.drop 11)] = bytes := by decide +kernel
      rw [this]; exact short)).1

/-- And the other way. -/
example : ∃ evs, arrived evs = bytes ∧ .panicked ∈ ((MsgRecv.ops Toy.stream).run (.init s0) evs).1 :=
  (C28_panic_iff s0 bytes).2 ⟨_, short⟩

/-- The genuine frame alone, although it contains two zero bytes one after the other (which would be a frame of no bytes):
    no panic. -/
example : ¬ ∃ ms, ShortFrameAfter Toy.stream s0 ms (frame [0, 0, 0, 0, 0, 0, 0, 0, 0, 0, 0, 0, 0, 0, 0, 0, 0, 0]) := by
  rintro ⟨ms, cs, c, rest, ho, hc, hb⟩
  cases ho with
  | nil =>
    simp only [List.flatMap_nil, List.nil_append] at hb
    have h2 := congrArg (fun b : Bytes => fromLe16 (b.take 2)) hb
    simp only [frame, List.append_assoc] at h2
    rw [List.take_append_of_le_length (by simp [le16_length]), List.take_append_of_le_length (by simp [le16_length]),
      List.take_of_length_le (by simp [le16_length]), List.take_of_length_le (by simp [le16_length]),
      fromLe16_le16 _ (by decide), fromLe16_le16 _ (by omega)] at h2
    simp at h2; omega
  | @cons _ _ x _ _ cs' _ h1 _ _ _ _ =>
    have hl := congrArg List.length hb
    simp [frame, le16_length] at hl
    omega

end PanicEx

end Lair
