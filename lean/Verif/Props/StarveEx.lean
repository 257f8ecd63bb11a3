import Verif.Props.Starve
import Verif.Props.ProgressEx

/- A concrete case for C89: four requests on one connection, some made while others are on their way, one of them given up, and an endless schedule that is
   fair to every part and serves the callers in turn. -/
namespace Lair

namespace WEx

/-- The world of the example. Specification: nothing in the code corresponds. -/
abbrev TW := World (Ex.env false 4) Toy.stream

/-- A sending half has a call that is not finished. Specification: nothing in the code corresponds. -/
def busyB (s : SndSt Toy.stream) : Bool := s.calls.any fun c => match c.phase with
  | .waiting => true
  | .taken => true
  | .writing _ => true
  | _ => false

/-- There is a message to take. Specification: nothing in the code corresponds. -/
def itemB (l : Link Toy.stream) : Bool := match l.rcv.poll.1 with | .item _ => true | _ => false

/-- The caller can learn that its request is sent. Specification: nothing in the code corresponds. -/
def askedB (x : Conn Toy.stream) (k : Nat) : Bool := match x.asked[k]? with
  | none => false
  | some a => match x.up.snd.calls[a.call]?, x.cli.reqs[k]? with
    | some ⟨_, .done _⟩, some q => decide (q.phase = .sending)
    | _, _ => false

/-- The caller can take its answer. Specification: nothing in the code corresponds. -/
def wakeB (x : Conn Toy.stream) (k : Nat) : Bool := match x.cli.reqs[k]? with
  | some q => decide (q.phase = .waiting ∧ q.slot ≠ .empty)
  | none => false

/-- Decides, on the safe side: this part of the system can go on. Specification: nothing in the code corresponds. -/
def canP (w : TW) (c : Nat) (p : Part) : Bool := match w.conns[c]? with
  | none => true
  | some x => match p with
    | .sendUp => busyB x.up.snd
    | .wireUp => decide (arrived x.up.net ≠ x.up.snd.wire)
    | .takeUp => match x.up.rcv.poll.1 with | .item _ => true | _ => false
    | .handler h => w.sys.threads.any fun t => t.id == h && t.conn == c
    | .sendDown => busyB x.down.snd
    | .wireDown => decide (arrived x.down.net ≠ x.down.snd.wire)
    | .takeDown => match x.down.rcv.poll.1 with | .item _ => true | _ => false
    | .caller k => askedB x k || wakeB x k

/-- The parts there are. Specification: nothing in the code corresponds. -/
def partsOf (w : TW) (c : Nat) : List Part := [.sendUp, .wireUp, .takeUp, .sendDown, .wireDown, .takeDown] ++ w.sys.threads.map (fun t => .handler t.id) ++
  match w.conns[c]? with
  | none => []
  | some x => (List.range x.cli.reqs.length).map .caller

theorem busy_spec {s : SndSt Toy.stream} {e : SEv} (h : s.Moves e) : busyB s = true := by
  have key : ∀ (k : Nat) (m : Option Msg) (ph : SPhase), s.calls[k]? = some ⟨m, ph⟩ → (ph = .waiting ∨ ph = .taken ∨ ∃ r, ph = .writing r) → busyB s = true := by
    intro k m ph hk hp
    refine List.any_eq_true.mpr ⟨_, List.mem_of_getElem? hk, ?_⟩
    rcases hp with rfl | rfl | ⟨r, rfl⟩ <;> rfl
  cases e with
  | acquire k => obtain ⟨-, m, hk⟩ := h; exact key _ _ _ hk (Or.inl rfl)
  | push k => obtain ⟨m, hk⟩ := h; exact key _ _ _ hk (Or.inr (Or.inl rfl))
  | write k n => obtain ⟨-, m, r, hk⟩ := h; exact key _ _ _ hk (Or.inr (Or.inr ⟨r, rfl⟩))
  | _ => exact h.elim

theorem can_spec {w : TW} {c : Nat} {p : Part} {e : WEv Toy.stream} (h : w.MovesPart c p e) : canP w c p = true ∧ p ∈ partsOf w c := by
  obtain ⟨hm, hp⟩ := h
  have noPrefix : ∀ {a d : Bytes} {b : Bytes}, b ≠ [] → a ++ b <+: d → a ≠ d := by
    intro a d b hb hpre had
    subst had
    have := hpre.length_le
    have := List.length_pos_iff.mpr hb
    simp at *
    omega
  cases e with
  | connect u d => exact hm.elim
  | restart => exact hm.elim
  | serve d =>
    obtain ⟨rfl, x, m, hx, hmv⟩ := hm
    cases p <;> first | exact hp.elim | exact ⟨by simp only [canP, hx, hmv], by simp [partsOf]⟩
  | act i ch =>
    obtain ⟨t, ht, htc⟩ := hm
    cases p with
    | handler h =>
      obtain ⟨t', ht', htid⟩ := hp
      rw [ht] at ht'; cases ht'
      refine ⟨?_, ?_⟩
      · have hany : w.sys.threads.any (fun t => t.id == h && t.conn == c) = true :=
          List.any_eq_true.mpr ⟨t, List.mem_of_getElem? ht, by simp [htid, htc]⟩
        cases hx : w.conns[c]? with
        | none => simp only [canP, hx]
        | some x => simp only [canP, hx]; exact hany
      · simp only [partsOf, List.mem_append]
        exact Or.inl (Or.inr (List.mem_map.mpr ⟨t, List.mem_of_getElem? ht, by rw [htid]⟩))
    | _ => exact hp.elim
  | net d e =>
    obtain ⟨rfl, x, hx, hmv⟩ := hm
    cases e with
    | upSend e => cases p <;> first | exact hp.elim | exact ⟨by simp only [canP, hx]; exact busy_spec hmv, by simp [partsOf]⟩
    | downSend e => cases p <;> first | exact hp.elim | exact ⟨by simp only [canP, hx]; exact busy_spec hmv, by simp [partsOf]⟩
    | upArrive b => cases p <;> first | exact hp.elim | exact ⟨by simp only [canP, hx]; exact decide_eq_true (noPrefix hmv.1 hmv.2), by simp [partsOf]⟩
    | downArrive b => cases p <;> first | exact hp.elim | exact ⟨by simp only [canP, hx]; exact decide_eq_true (noPrefix hmv.1 hmv.2), by simp [partsOf]⟩
    | poll =>
      obtain ⟨m, hmv⟩ := hmv
      cases p <;> first | exact hp.elim | exact ⟨by simp only [canP, hx, hmv], by simp [partsOf]⟩
    | asked k =>
      obtain ⟨a, m, r, q, ha, hm, hq, hph⟩ := hmv
      cases p with
      | caller j =>
        have : k = j := hp
        subst this
        refine ⟨by simp [canP, hx, askedB, ha, hm, hq, hph], ?_⟩
        simp only [partsOf, hx, List.mem_append]
        exact Or.inr (List.mem_map.mpr ⟨k, List.mem_range.mpr (List.getElem?_eq_some_iff.mp hq).1, rfl⟩)
      | _ => exact hp.elim
    | wake k =>
      obtain ⟨q, hq, hph, hsl⟩ := hmv
      cases p with
      | caller j =>
        have : k = j := hp
        subst this
        refine ⟨by simp [canP, hx, wakeB, hq, hph, hsl], ?_⟩
        simp only [partsOf, hx, List.mem_append]
        exact Or.inr (List.mem_map.mpr ⟨k, List.mem_range.mpr (List.getElem?_eq_some_iff.mp hq).1, rfl⟩)
      | _ => exact hp.elim
    | _ => exact hmv.elim

/-- Decides `SndSt.Moves`, on the safe side. Specification: nothing in the code corresponds. -/
def sndMovesB (s : SndSt Toy.stream) : SEv → Bool
  | .acquire k => s.permit.isNone && match s.calls[k]? with
    | some ⟨_, .waiting⟩ => true
    | _ => false
  | .push k => match s.calls[k]? with
    | some ⟨_, .taken⟩ => true
    | _ => false
  | .write k n => decide (0 < n) && match s.calls[k]? with
    | some ⟨_, .writing _⟩ => true
    | _ => false
  | _ => false

theorem sndMovesB_spec {s : SndSt Toy.stream} {e : SEv} (h : sndMovesB s e = true) : s.Moves e := by
  cases e with
  | acquire k =>
    simp only [sndMovesB, Bool.and_eq_true, Option.isNone_iff_eq_none] at h
    refine ⟨h.1, ?_⟩
    have h2 := h.2
    split at h2
    · rename_i m hk; exact ⟨m, hk⟩
    · cases h2
  | push k =>
    simp only [sndMovesB] at h
    split at h
    · rename_i m hk; exact ⟨m, hk⟩
    · cases h
  | write k n =>
    simp only [sndMovesB, Bool.and_eq_true, decide_eq_true_eq] at h
    refine ⟨h.1, ?_⟩
    have h2 := h.2
    split at h2
    · rename_i m r hk; exact ⟨m, r, hk⟩
    · cases h2
  | _ => cases h

/-- The part of the system that goes on at this event. Specification: nothing in the code corresponds. -/
def partMoved (w : TW) (c : Nat) (e : WEv Toy.stream) : Option Part := match w.conns[c]? with
  | none => none
  | some x => match e with
    | .net d (.upSend e) => if d == c && sndMovesB x.up.snd e then some .sendUp else none
    | .net d (.downSend e) => if d == c && sndMovesB x.down.snd e then some .sendDown else none
    | .net d (.upArrive b) => if d == c && decide (b ≠ []) && (arrived x.up.net ++ b).isPrefixOf x.up.snd.wire then some .wireUp else none
    | .net d (.downArrive b) => if d == c && decide (b ≠ []) && (arrived x.down.net ++ b).isPrefixOf x.down.snd.wire then some .wireDown else none
    | .net d .poll => if d == c && itemB x.down then some .takeDown else none
    | .net d (.asked k) => if d == c && askedB x k then some (.caller k) else none
    | .net d (.wake k) => if d == c && wakeB x k then some (.caller k) else none
    | .serve d => if d == c && itemB x.up then some .takeUp else none
    | .act i _ => match w.sys.threads[i]? with
      | some t => if t.conn == c then some (.handler t.id) else none
      | none => none
    | _ => none

theorem partMoved_spec {w : TW} {c : Nat} {e : WEv Toy.stream} {p : Part} (h : partMoved w c e = some p) : w.MovesPart c p e := by
  unfold partMoved at h
  split at h
  · cases h
  · rename_i x hx
    split at h
    · rename_i d e
      split at h
      · rename_i hc
        simp only [Bool.and_eq_true, beq_iff_eq] at hc
        cases h
        exact ⟨⟨hc.1, x, hx, sndMovesB_spec hc.2⟩, trivial⟩
      · cases h
    · rename_i d e
      split at h
      · rename_i hc
        simp only [Bool.and_eq_true, beq_iff_eq] at hc
        cases h
        exact ⟨⟨hc.1, x, hx, sndMovesB_spec hc.2⟩, trivial⟩
      · cases h
    · rename_i d b
      split at h
      · rename_i hc
        simp only [Bool.and_eq_true, beq_iff_eq, decide_eq_true_eq] at hc
        cases h
        exact ⟨⟨hc.1.1, x, hx, hc.1.2, List.isPrefixOf_iff_prefix.mp hc.2⟩, trivial⟩
      · cases h
    · rename_i d b
      split at h
      · rename_i hc
        simp only [Bool.and_eq_true, beq_iff_eq, decide_eq_true_eq] at hc
        cases h
        exact ⟨⟨hc.1.1, x, hx, hc.1.2, List.isPrefixOf_iff_prefix.mp hc.2⟩, trivial⟩
      · cases h
    · rename_i d
      split at h
      · rename_i hc
        simp only [Bool.and_eq_true, beq_iff_eq] at hc
        cases h
        refine ⟨⟨hc.1, x, hx, ?_⟩, trivial⟩
        have h2 := hc.2
        simp only [itemB] at h2
        split at h2
        · rename_i m hm; exact ⟨m, hm⟩
        · cases h2
      · cases h
    · rename_i d k
      split at h
      · rename_i hc
        simp only [Bool.and_eq_true, beq_iff_eq] at hc
        cases h
        refine ⟨⟨hc.1, x, hx, ?_⟩, rfl⟩
        have h2 := hc.2
        simp only [askedB] at h2
        split at h2
        · cases h2
        · rename_i a ha
          split at h2
          · rename_i m r q hm hq
            exact ⟨a, m, r, q, ha, hm, hq, of_decide_eq_true h2⟩
          · cases h2
      · cases h
    · rename_i d k
      split at h
      · rename_i hc
        simp only [Bool.and_eq_true, beq_iff_eq] at hc
        cases h
        refine ⟨⟨hc.1, x, hx, ?_⟩, rfl⟩
        have h2 := hc.2
        simp only [wakeB] at h2
        split at h2
        · rename_i q hq
          exact ⟨q, hq, of_decide_eq_true h2⟩
        · cases h2
      · cases h
    · rename_i d
      split at h
      · rename_i hc
        simp only [Bool.and_eq_true, beq_iff_eq] at hc
        cases h
        have h2 := hc.2
        simp only [itemB] at h2
        split at h2
        · rename_i m hm; exact ⟨⟨hc.1, x, m, hx, hm⟩, trivial⟩
        · cases h2
      · cases h
    · rename_i i ch
      split at h
      · rename_i t ht
        split at h
        · rename_i hc
          cases h
          exact ⟨⟨t, ht, by simpa using hc⟩, t, ht, rfl⟩
        · cases h
      · cases h
    · cases h

/-- Decides `World.InTurn`, on the safe side. Specification: nothing in the code corresponds. -/
def inTurnB (w : TW) (c : Nat) (e : WEv Toy.stream) : Bool := match w.conns[c]? with
  | none => false
  | some x => match e with
    | .net _ (.upSend (.acquire k)) => (x.up.snd.calls.take k).all fun s => !decide (s.phase = .waiting)
    | .net _ (.downSend (.acquire k)) => (x.down.snd.calls.take k).all fun s => !decide (s.phase = .waiting)
    | _ => true

theorem inTurnB_spec {w : TW} {c : Nat} {e : WEv Toy.stream} (h : inTurnB w c e = true) : w.InTurn c e := by
  have key : ∀ {l : List (SCall)} {k : Nat}, ((l.take k).all fun s => !decide (s.phase = .waiting)) = true →
      ∀ (i : Nat) (s : SCall), i < k → l[i]? = some s → s.phase ≠ .waiting := by
    intro l k h i s hi hs
    have := List.all_eq_true.mp h s (List.mem_of_getElem? (i := i) (by rw [List.getElem?_take, if_pos hi]; exact hs))
    simpa using this
  unfold inTurnB at h
  split at h
  · cases h
  · rename_i x hx
    split at h
    · intro _ y hy
      rw [hx] at hy; cases hy
      exact key h
    · intro _ y hy
      rw [hx] at hy; cases hy
      exact key h
    · rename_i h1 h2
      cases e with
      | net d e =>
        cases e with
        | upSend e =>
          cases e with
          | acquire k => exact absurd rfl (h1 d k)
          | _ => exact fun _ _ _ => trivial
        | downSend e =>
          cases e with
          | acquire k => exact absurd rfl (h2 d k)
          | _ => exact fun _ _ _ => trivial
        | _ => trivial
      | _ => trivial

/-- Decides `World.Breaks`, on the safe side; a send that waits may be given up. Specification: nothing in the code corresponds. -/
def breaksB2 (w : TW) (c : Nat) (e : WEv Toy.stream) : Bool := match e with
  | .net _ (.cancel k) => match w.conns[c]? with
    | none => false
    | some x => match x.asked[k]? with
      | none => false
      | some a => match x.up.snd.calls[a.call]? with
        | none => false
        | some s => !decide (s.phase = .waiting)
  | e => breaksB w c e

theorem breaksB2_spec {w : TW} {c : Nat} {e : WEv Toy.stream} (h : breaksB2 w c e = false) : ¬ w.Breaks c e := by
  unfold breaksB2 at h
  split at h
  · rintro ⟨-, x, a, s, hx, ha, hs, hp⟩
    simp only [hx, ha, hs, Bool.not_eq_false', decide_eq_true_eq] at h
    rcases hp with hp | ⟨r, hp⟩ <;> rw [h] at hp <;> cases hp
  · exact breaksB_spec h

/-- The ids on the connection differ. Specification: nothing in the code corresponds. -/
def freshB (w : TW) (c : Nat) : Bool := match w.conns[c]? with
  | none => true
  | some x => decide (x.asked.map Asked.id).Nodup

theorem freshB_spec {w : TW} {c : Nat} (h : freshB w c = true) : w.FreshIds c := by
  intro x hx
  simp only [freshB, hx] at h
  exact of_decide_eq_true h

/-- The events are fine, one after the other, and every part that can go on goes on later among them; with the parts that go on.
    Specification: nothing in the code corresponds. -/
def niceB (c : Nat) (w : TW) : List (WEv Toy.stream) → Bool × List Part
  | [] => (freshB w c && (partsOf w c).all (fun p => !canP w c p), [])
  | e :: es => match niceB c (w.step e) es with
    | (b, ms) => match (partMoved w c e).toList ++ ms with
      | ms' => (b && !breaksB2 w c e && inTurnB w c e && freshB w c && (partsOf w c).all (fun p => !canP w c p || ms'.contains p), ms')

theorem nice_moved {c : Nat} (es : List (WEv Toy.stream)) : ∀ {w : TW} {p : Part}, p ∈ (niceB c w es).2 →
    ∃ m, ∃ hm : m < es.length, ((es.take m).foldl World.step w).MovesPart c p es[m] := by
  induction es with
  | nil => intro w p h; simp [niceB] at h
  | cons e es ih =>
    intro w p h
    simp only [niceB, List.mem_append, Option.mem_toList] at h
    rcases h with h | h
    · exact ⟨0, by simp, by simpa using partMoved_spec h⟩
    · obtain ⟨m, hm, h⟩ := ih h
      exact ⟨m + 1, by simpa using hm, by simpa using h⟩

theorem nice_spec {c : Nat} (es : List (WEv Toy.stream)) : ∀ {w : TW}, (niceB c w es).1 = true → ∀ n, (hn : n < es.length) →
    ¬ ((es.take n).foldl World.step w).Breaks c es[n] ∧ ((es.take n).foldl World.step w).InTurn c es[n] ∧
      ((es.take n).foldl World.step w).FreshIds c ∧
      ∀ p e, ((es.take n).foldl World.step w).MovesPart c p e → ∃ m, n ≤ m ∧ ∃ hm : m < es.length, ((es.take m).foldl World.step w).MovesPart c p es[m] := by
  induction es with
  | nil => intro w _ n hn; simp at hn
  | cons e es ih =>
    intro w h n hn
    simp only [niceB, Bool.and_eq_true, Bool.not_eq_true'] at h
    obtain ⟨⟨⟨⟨h1, h2⟩, h3⟩, h4⟩, h5⟩ := h
    cases n with
    | zero =>
      refine ⟨breaksB2_spec h2, inTurnB_spec h3, freshB_spec h4, fun p e' hp => ?_⟩
      obtain ⟨g1, g2⟩ := can_spec hp
      have := List.all_eq_true.mp h5 p g2
      simp only [List.take_zero, List.foldl_nil] at g1
      rw [g1] at this
      simp only [Bool.not_true, Bool.false_or, List.contains_iff_mem] at this
      obtain ⟨m, hm, g⟩ := nice_moved (c := c) (w := w) (e :: es) (p := p) (by simp only [niceB]; exact this)
      exact ⟨m, Nat.zero_le _, hm, g⟩
    | succ n =>
      obtain ⟨g1, g2, g3, g4⟩ := ih h1 n (by simpa using hn)
      refine ⟨by simpa using g1, by simpa using g2, by simpa using g3, fun p e' hp => ?_⟩
      obtain ⟨m, hm1, hm2, g⟩ := g4 p e' (by simpa using hp)
      exact ⟨m + 1, by omega, by simpa using hm2, by simpa using g⟩

theorem nice_end {c : Nat} (es : List (WEv Toy.stream)) : ∀ {w : TW}, (niceB c w es).1 = true →
    (es.foldl World.step w).FreshIds c ∧ ∀ p e, ¬ (es.foldl World.step w).MovesPart c p e := by
  induction es with
  | nil =>
    intro w h
    simp only [niceB, Bool.and_eq_true] at h
    refine ⟨freshB_spec h.1, fun p e hp => ?_⟩
    obtain ⟨g1, g2⟩ := can_spec hp
    have := List.all_eq_true.mp h.2 p g2
    simp only [List.foldl_nil] at g1
    rw [g1] at this; cases this
  | cons e es ih =>
    intro w h
    simp only [niceB, Bool.and_eq_true] at h
    exact ih h.1.1.1.1

/-- The state right after the client has connected. Specification: nothing in the code corresponds. -/
def atStart : TW := run [.connect ([1], 0) ([2], 0)]

/-- The schedule: "a", "b", "c" are asked, "c" is given up, "d" is asked while "a" is being handled. -/
def turn1 : List (WEv Toy.stream) := [.net 0 (.ask "a" .hello), .net 0 (.upSend (.acquire 0)), .net 0 (.ask "b" .hello), .net 0 (.upSend (.push 0)),
  .net 0 (.upSend (.write 0 7)), .net 0 (.ask "c" .hello), .connect ([7], 0) ([8], 0), .net 0 (.cancel 2), .net 0 (.upSend (.write 0 9999)),
  .net 0 (.upSend (.acquire 1)), .net 0 (.asked 0), .net 0 (.upSend (.push 1)), .net 0 (.upSend (.write 1 9999)), .net 0 (.asked 1)]
def turn2 : List (WEv Toy.stream) := turn1 ++ [.net 0 (.upArrive (onWay true (turn1.foldl World.step atStart))), .serve 0, .serve 0,
  .net 0 (.ask "d" .hello), .net 1 (.ask "x" .hello), .act 1 (Ex.calm 0), .act 0 (Ex.calm 0), .net 0 (.downSend (.acquire 0)), .net 0 (.upSend (.acquire 3)),
  .net 0 (.upSend (.push 3)), .net 0 (.upSend (.write 3 9999)), .net 0 (.downSend (.push 0)), .net 0 (.downSend (.write 0 9999)),
  .net 0 (.downSend (.acquire 1)), .net 0 (.asked 3), .net 0 (.downSend (.push 1)), .net 0 (.downSend (.write 1 9999))]
def turn3 : List (WEv Toy.stream) := turn2 ++ [.net 0 (.upArrive (onWay true (turn2.foldl World.step atStart))), .serve 0, .act 0 (Ex.calm 0),
  .net 0 (.downSend (.acquire 2)), .net 0 (.downSend (.push 2)), .net 0 (.downSend (.write 2 9999))]
def turns : List (WEv Toy.stream) := turn3 ++ [.net 0 (.downArrive (onWay false (turn3.foldl World.step atStart))), .net 0 .poll, .net 0 .poll,
  .net 0 (.wake 0), .net 0 .poll, .net 0 .poll, .net 0 (.wake 3), .net 0 (.wake 1)]

set_option maxRecDepth 100000 in
theorem turns_nice : (niceB 0 atStart turns).1 = true ∧ turns.length = 45 ∧ (turns.foldl World.step atStart).conns[7]?.isNone = true := by decide +kernel

/-- The endless schedule: `turns`, then nothing that matters. -/
def turning (n : Nat) : WEv Toy.stream := turns.getD n (.serve 7)

/-- The state after `n` events of the schedule. Specification: nothing in the code corresponds. -/
def turnW (n : Nat) : TW := World.after (Ex.env false 4) Toy.stream MemStore.empty ([] ++ [.connect ([1], 0) ([2], 0)]) turning n

theorem turning_in {n : Nat} (hn : n < turns.length) : turning n = turns[n] := by simp [turning, List.getD_eq_getElem?_getD, hn]

theorem turning_out {n : Nat} (hn : ¬ n < turns.length) : turning n = .serve 7 := by
  simp only [turning, List.getD_eq_getElem?_getD]
  rw [List.getElem?_eq_none (by omega)]; rfl

theorem turnW_in (n : Nat) (h : n ≤ turns.length) : turnW n = (turns.take n).foldl World.step atStart := by
  have : (List.range n).map turning = turns.take n := by
    refine List.ext_getElem? ?_
    intro i
    rw [List.getElem?_map, List.getElem?_take]
    by_cases hi : i < n
    · rw [List.getElem?_range hi, if_pos hi]
      have hi' : i < turns.length := by omega
      simp [turning, List.getD_eq_getElem?_getD, hi']
    · rw [List.getElem?_eq_none (by simp; omega), if_neg hi]; rfl
  show run ([.connect ([1], 0) ([2], 0)] ++ (List.range n).map turning) = _
  rw [this]
  exact run_ext _ _

theorem turnW_out (k : Nat) : turnW (turns.length + k) = turns.foldl World.step atStart := by
  induction k with
  | zero => rw [Nat.add_zero, turnW_in _ (Nat.le_refl _), List.take_of_length_le (Nat.le_refl _)]
  | succ k ih =>
    have hs : turnW (turns.length + (k + 1)) = (turnW (turns.length + k)).step (turning (turns.length + k)) :=
      (after_succ (E := Ex.env false 4) (S := Toy.stream) _ turning (turns.length + k)).trans (run_ext _ _)
    rw [hs, ih, turning_out (by omega)]
    have hn : (turns.foldl World.step atStart).conns[7]? = none := by simpa using turns_nice.2.2
    simp only [World.step, hn]

theorem turn_ok (n : Nat) : ¬ (turnW n).Breaks 0 (turning n) ∧ (turnW n).InTurn 0 (turning n) ∧ (turnW n).FreshIds 0 ∧
    ∀ p e, (turnW n).MovesPart 0 p e → ∃ m, n ≤ m ∧ (turnW m).MovesPart 0 p (turning m) := by
  by_cases hn : n < turns.length
  · obtain ⟨h1, h2, h3, h4⟩ := nice_spec turns turns_nice.1 n hn
    rw [turnW_in n (by omega), turning_in hn]
    refine ⟨h1, h2, h3, fun p e hp => ?_⟩
    obtain ⟨m, g1, g2, g3⟩ := h4 p e hp
    exact ⟨m, g1, by rw [turnW_in m (by omega), turning_in g2]; exact g3⟩
  · obtain ⟨k, rfl⟩ : ∃ k, n = turns.length + k := ⟨n - turns.length, by omega⟩
    obtain ⟨h3, h4⟩ := nice_end turns turns_nice.1
    rw [turnW_out, turning_out hn]
    exact ⟨fun h => h, trivial, h3, fun p e hp => absurd hp (h4 p e)⟩

-- "a", "b" and "d" are requests that are not given up; "d" is asked when "a" has not been handled
set_option maxRecDepth 100000 in
theorem turns_requests : ((turns.foldl World.step atStart).conns[0]?.map fun x => x.asked.map fun a => (a.id, a.req)) =
      some [("a", .hello), ("b", .hello), ("c", .hello), ("d", .hello)] ∧
    turns.all (fun e => match e with
      | .net 0 (.cancel k) => decide (k = 2)
      | .net 0 (.timeout k) => decide (k = 2)
      | _ => true) = true := by decide +kernel

/-- The hypotheses of `C89_no_request_starves` hold of this schedule: "a", "b" and "d" are answered. -/
example : ∀ k, k = 0 ∨ k = 1 ∨ k = 3 → ∃ id q T, (turnW 45).request 0 k = some (id, q) ∧
    ∀ m, T ≤ m → ∃ d ∈ (turnW m).sys.done, d.conn = 0 ∧ d.msg = .req id q ∧ (turnW m).result 0 k = some d.outcome := by
  intro k hk
  have hr := turns_requests.1
  have hq := turns_requests.2
  have hw : turnW 45 = turns.foldl World.step atStart := by have := turnW_out 0; rwa [Nat.add_zero, turns_nice.2.1] at this
  rw [← hw] at hr
  cases hx : (turnW 45).conns[0]? with
  | none => rw [hx] at hr; cases hr
  | some x =>
    rw [hx] at hr
    have hr := Option.some.inj hr
    have hla := congrArg List.length hr
    simp only [List.length_map, List.length_cons, List.length_nil] at hla
    have hka : k < x.asked.length := by omega
    have hreq := request_of hx (List.getElem?_eq_getElem hka)
    obtain ⟨T, hT⟩ := C89_no_request_starves (S := Toy.stream) (E := Ex.env false 4) Toy.stream_lawful (goodStore_empty (Ex.env false 4)) [] ([1], 0) ([2], 0)
      turning (fun n => (turn_ok n).1) (fun n => (turn_ok n).2.2.1) (fun n => (turn_ok n).2.1) (fun p n ⟨e, he⟩ => (turn_ok n).2.2.2 p e he)
      45 k _ _ hreq (by
        intro m
        by_cases hm : m < turns.length
        · rw [turning_in hm]
          have := List.all_eq_true.mp hq _ (List.getElem_mem hm)
          constructor
          · intro he; rw [he] at this
            have := of_decide_eq_true this
            omega
          · intro he; rw [he] at this
            have := of_decide_eq_true this
            omega
        · rw [turning_out hm]
          exact ⟨by simp, by simp⟩)
    exact ⟨_, _, T, hreq, hT⟩

end WEx
end Lair
