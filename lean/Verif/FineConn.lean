import Verif.Fine

/- A connection on which nothing has gone wrong: everything under way gets through (used for C85). -/
namespace Lair

variable {S : SStream} {E : Env}

/-! ### Specification -/

/-- SPECIFICATION: nothing has gone wrong in this direction of a connection. The sending half is not shut down and nobody has
    asked for that. Every send so far was given up before it began, or carries a message that fits a frame and
    is waiting, under way or has succeeded. The network has brought bytes that were sent, in order, none changed
    or left out, and not the end of the stream. -/
structure Link.Fine (l : Link S) : Prop where
  working : l.snd.closed = false
  sends : ∀ (k : Nat) (c : SCall), l.snd.calls[k]? = some c → c.phase = .dropped false ∨
    ∃ m, c.msg = some m ∧ (Codec.encodeMsg m).length + 17 ≤ 8192 ∧
      (c.phase = .waiting ∨ c.phase = .taken ∨ (∃ r, c.phase = .writing r) ∨ c.phase = .done (.ok ()))
  carried : RecvEv.close ∉ l.net ∧ arrived l.net <+: l.snd.wire

/-- SPECIFICATION: nothing has gone wrong on this connection: the server it belongs to runs, both directions are fine. -/
structure Conn.Fine (x : Conn S) : Prop where
  here : x.gone = false
  up : x.up.Fine
  down : x.down.Fine

/-! ### One direction -/

theorem Link.Fine.init (s : S.St) : (Link.init s).Fine := ⟨rfl, by simp [Link.init, SndSt.init], by simp [Link.init], by simp [Link.init, arrived]⟩

theorem Link.Fine.clean {l : Link S} (h : l.Fine) : l.snd.Clean := by
  refine ⟨h.working, ?_⟩
  intro k c hk
  rcases h.sends k c hk with h | ⟨m, -, -, h | h | ⟨r, h⟩ | h⟩ <;> rw [h] <;> simp [SPhase.bad]

/-- The receiving half after an undisturbed run: in step with the sender as far as messages were delivered. -/
theorem msgs_run_dec (L : S.Lawful) (ms : List Msg) (rest : Bytes) (r : MsgRecv S) (evs : List RecvEv) (ha : r.alive)
    (hf : ∀ m ∈ ms, Fits m = true) (hc : r.cr.fr.closed = false) (hne : RecvEv.close ∉ evs)
    (h : r.unread ++ arrived evs ++ rest = S.wire r.cr.dec (ms.map Codec.encodeMsg)) :
    ((MsgRecv.ops S).run r evs).2.cr.dec = S.after r.cr.dec ((items ((MsgRecv.ops S).run r evs).1).map Codec.encodeMsg) := by
  induction evs generalizing r ms with
  | nil => rfl
  | cons e es ih =>
    cases e with
    | arrive c =>
      exact ih ms ((MsgRecv.ops S).feed r c) ha hf hc (by simpa using hne) (by
        simpa [arrived, MsgRecv.ops, FrameRecv.ops, MsgRecv.unread, List.append_assoc] using h)
    | close => exact absurd hne (by simp)
    | poll =>
      have hf' : ∀ m ∈ ms, (Codec.encodeMsg m).length + 17 ≤ 8192 := fun m hm => by
        have := hf m hm; simpa only [Fits, decide_eq_true_eq] using this
      obtain ⟨dn, td, g1, g2, g3, g4, g5, g6⟩ := msgs_run L ms (arrived es ++ rest) r [.poll] ha hf' hc (by simp) (by
        simpa [arrived, List.append_assoc] using h)
      have hrun : (MsgRecv.ops S).run r [.poll] = ([r.poll.1], r.poll.2) := rfl
      rw [hrun] at g2 g3 g4 g5 g6
      simp only at g2 g3 g4 g5 g6
      have h' : r.poll.2.unread ++ arrived es ++ rest = S.wire r.poll.2.cr.dec (td.map Codec.encodeMsg) := by
        rw [List.append_assoc]; exact g5
      have := ih td r.poll.2 g3 (fun m hm => hf m (by rw [g1]; exact List.mem_append_right _ hm)) g4 (by simpa using hne) h'
      have hr2 : (MsgRecv.ops S).run r (.poll :: es) = (r.poll.1 :: ((MsgRecv.ops S).run r.poll.2 es).1, ((MsgRecv.ops S).run r.poll.2 es).2) := rfl
      rw [hr2]
      simp only
      rw [this]
      rcases g6 _ (List.mem_singleton_self _) with hp | ⟨m, hp⟩
      · rw [hp, items_cons_pending]
        rcases MsgRecv.poll_alive ha with ⟨-, q2, -⟩ | ⟨⟨e, q⟩, -⟩ | ⟨q, -⟩ | ⟨c, fr', d, dec', m, -, -, -, q⟩
        · rw [q2]
        · rw [hp] at q; cases q
        · rw [hp] at q; cases q
        · rw [q] at hp; cases hp
      · have hdn : dn = [m] := by rw [← g2, hp]; rfl
        have hms : ms = m :: td := by rw [g1, hdn]; rfl
        rw [hp, items_cons_item]
        simp only [List.map_cons, SStream.after]
        congr 1
        have hfm := hf m (by rw [hms]; simp)
        have hm8 : maxFrame = 8192 := rfl
        simp only [Fits, decide_eq_true_eq] at hfm
        rw [hms] at h
        simp only [arrived, List.map_cons, SStream.wire, List.append_assoc] at h
        rcases prefix_cases h with ⟨y, q1, -⟩ | ⟨q1, q2⟩
        · obtain ⟨cs, hp', -⟩ := poll_frame (r := r.cr.fr) ha.2.2 (by rw [L.push_len]; omega) q1
          rw [MsgRecv.deliver L ha hp']
        · exfalso
          have hpp := poll_partial ha.2.2 (by rw [L.push_len]; omega) q1 q2
          rw [hc] at hpp
          simp only [Bool.false_eq_true, if_false] at hpp
          simp only [MsgRecv.poll, ha.1, CryptRecv.poll, ha.2.1, hpp, Bool.false_eq_true, if_false] at hp
          cases hp

/-- Nothing has gone wrong, and the history explains the state. Proof device: nothing in the code corresponds. -/
structure Link.Good (l : Link S) : Prop where
  hist : LinkInv l
  snt : WireInv l
  fine : l.Fine

/-- What is still to come out at the receiving half. -/
theorem Link.Good.todo (L : S.Lawful) {l : Link S} (h : l.Good) :
    l.rcv.alive ∧ l.rcv.cr.fr.closed = false ∧ ∃ todo t, (∀ m ∈ todo, Fits m = true) ∧ l.snd.enc = S.after l.rcv.cr.dec (todo.map Codec.encodeMsg) ∧
      l.snd.wire = arrived l.net ++ t ∧ l.rcv.unread ++ t ++ l.snd.rest = S.wire l.rcv.cr.dec (todo.map Codec.encodeMsg) ∧
      l.pushed.map Prod.snd = l.got ++ todo ∧
      ∀ p ∈ ((MsgRecv.ops S).run (.init l.start) l.net).1, p = .pending ∨ ∃ m, p = .item m := by
  obtain ⟨t, ht⟩ := h.fine.carried.2
  have hw := h.snt.wire h.fine.clean
  have hms : l.pushed.map (fun p => Codec.encodeMsg p.2) = (l.pushed.map Prod.snd).map Codec.encodeMsg := by simp [Function.comp_def]
  have hfit : ∀ m ∈ l.pushed.map Prod.snd, Fits m = true := by
    intro m hm
    obtain ⟨p, hp, rfl⟩ := List.mem_map.mp hm
    exact hw.2 p hp
  have hfit' : ∀ m ∈ l.pushed.map Prod.snd, (Codec.encodeMsg m).length + 17 ≤ 8192 := fun m hm => by
    have := hfit m hm; simpa only [Fits, decide_eq_true_eq] using this
  have hb : (MsgRecv.init (S := S) l.start).unread ++ arrived l.net ++ (t ++ l.snd.rest) =
      S.wire (MsgRecv.init (S := S) l.start).cr.dec ((l.pushed.map Prod.snd).map Codec.encodeMsg) := by
    rw [← hms]
    show [] ++ arrived l.net ++ (t ++ l.snd.rest) = S.wire l.start _
    rw [← hw.1, ← ht]; simp
  obtain ⟨dn, td, g1, g2, g3, g4, g5, g6⟩ := msgs_run L _ (t ++ l.snd.rest) (.init l.start) l.net ⟨rfl, rfl, rfl⟩ hfit' rfl h.fine.carried.1 hb
  have hd := msgs_run_dec L _ (t ++ l.snd.rest) (.init l.start) l.net ⟨rfl, rfl, rfl⟩ hfit rfl h.fine.carried.1 hb
  rw [← h.hist.rcv] at g3 g4 g5 hd
  refine ⟨g3, g4, td, t, fun m hm => hfit m (by rw [g1]; exact List.mem_append_right _ hm), ?_, ht.symm, by rw [List.append_assoc]; exact g5, by rw [g1, h.hist.got, g2], g6⟩
  rw [h.snt.enc, hms, g1, List.map_append, after_append, hd, g2]
  rfl

/-! ### Steps that leave a direction fine -/

theorem Link.Fine.setPhase {l l' : Link S} (h : l.Fine) {k : Nat} {m : Msg} {ph p : SPhase} (hk : l.snd.calls[k]? = some ⟨some m, ph⟩)
    (hd : ph ≠ .dropped false)
    (hc : ∀ j, l'.snd.calls[j]? = l.snd.calls[j]?.map (fun c => if k = j then { c with phase := p } else c))
    (hp : p = .dropped false ∨ p = .waiting ∨ p = .taken ∨ (∃ r, p = .writing r) ∨ p = .done (.ok ())) (hcl : l'.snd.closed = l.snd.closed)
    (hn : l'.net = l.net) (hw : l.snd.wire <+: l'.snd.wire) : l'.Fine := by
  refine ⟨by rw [hcl]; exact h.working, ?_, by rw [hn]; exact h.carried.1, by rw [hn]; exact h.carried.2.trans hw⟩
  intro j c hj
  rw [hc] at hj
  cases hj' : l.snd.calls[j]? with
  | none => rw [hj'] at hj; simp at hj
  | some c0 =>
    rw [hj'] at hj
    simp only [Option.map_some, Option.some.injEq] at hj
    by_cases hjk : k = j
    · subst hjk
      rw [if_pos rfl] at hj
      rw [hk] at hj'; cases hj'
      subst hj
      rcases hp with hp | hp
      · exact Or.inl hp
      · right
        rcases h.sends k _ hk with h' | ⟨m', h1, h2, -⟩
        · exact absurd h' hd
        · exact ⟨m', h1, h2, hp⟩
    · rw [if_neg hjk] at hj
      subst hj
      exact h.sends j c0 hj'

/-- A call whose phase is not `dropped false` carries a message that fits. -/
theorem Link.Fine.msg {l : Link S} (h : l.Fine) {k : Nat} {c : SCall} (hk : l.snd.calls[k]? = some c) (hd : c.phase ≠ .dropped false) :
    ∃ m, c.msg = some m ∧ Fits m = true := by
  rcases h.sends k c hk with h' | ⟨m, h1, h2, -⟩
  · exact absurd h' hd
  · exact ⟨m, h1, by simpa only [Fits, decide_eq_true_eq] using h2⟩

theorem Link.Fine.acquire {l : Link S} (h : l.Fine) (hi : SndInv l.snd) (k : Nat) : (l.send (.acquire k)).Fine := by
  cases hk : l.snd.calls[k]? with
  | none =>
    have : l.snd.step (.acquire k) = l.snd := by simp [SndSt.step, hk]
    exact ⟨by simp only [Link.send, this]; exact h.working, by simp only [Link.send, this]; exact h.sends, by simp only [Link.send, this]; exact h.carried⟩
  | some c =>
    obtain ⟨mo, ph⟩ := c
    by_cases hw : ph = .waiting ∧ l.snd.permit = none
    · obtain ⟨rfl, hn⟩ := hw
      obtain ⟨m, hm, -⟩ := h.msg hk (by simp)
      simp only at hm; subst hm
      have hs : l.snd.sender = true := by
        cases hs : l.snd.sender with
        | true => rfl
        | false =>
          obtain ⟨j, c, hj, hb⟩ := hi.lost hs hn
          exact absurd (show c.phase.bad by rw [hb]; trivial) (h.clean.2 j c hj)
      have hst : l.snd.step (.acquire k) = { l.snd.set k .taken with sender := false, permit := some k } := by
        simp [SndSt.step, hk, hn, hs]
      refine h.setPhase (p := .taken) hk (by simp) ?_ (by simp) ?_ rfl ?_
      · intro j; simp only [Link.send, hst]; exact SndSt.set_get _ _ _ _
      · simp only [Link.send, hst]; rfl
      · simp only [Link.send, hst]; exact List.prefix_refl _
    · have : l.snd.step (.acquire k) = l.snd := by
        simp only [SndSt.step, hk]
        split
        · rename_i heq
          cases heq
          split
          · rfl
          · rename_i hn; exact absurd ⟨rfl, hn⟩ hw
        · rfl
      exact ⟨by simp only [Link.send, this]; exact h.working, by simp only [Link.send, this]; exact h.sends, by simp only [Link.send, this]; exact h.carried⟩

theorem Link.Fine.push (L : S.Lawful) {l : Link S} (h : l.Fine) (k : Nat) : (l.send (.push k)).Fine := by
  cases hk : l.snd.calls[k]? with
  | none =>
    have : l.snd.step (.push k) = l.snd := by simp [SndSt.step, hk]
    exact ⟨by simp only [Link.send, this]; exact h.working, by simp only [Link.send, this]; exact h.sends, by simp only [Link.send, this]; exact h.carried⟩
  | some c =>
    obtain ⟨mo, ph⟩ := c
    by_cases hw : ph = .taken
    · subst hw
      obtain ⟨m, hm, hf⟩ := h.msg hk (by simp)
      simp only at hm; subst hm
      have hst : l.snd.step (.push k) = { l.snd with enc := (S.push l.snd.enc (Codec.encodeMsg m)).2 }.set k
          (.writing (frame (S.push l.snd.enc (Codec.encodeMsg m)).1)) := by
        simp [SndSt.step, hk, frameBytes_of_fits L hf, h.working]
      refine h.setPhase (p := .writing (frame (S.push l.snd.enc (Codec.encodeMsg m)).1)) hk (by simp) ?_ (by simp) ?_ rfl ?_
      · intro j; simp only [Link.send, hst]; exact SndSt.set_get _ _ _ _
      · simp only [Link.send, hst]; rfl
      · simp only [Link.send, hst]; exact List.prefix_refl _
    · have : l.snd.step (.push k) = l.snd := by
        simp only [SndSt.step, hk]
        split
        · rename_i heq; cases heq; exact absurd rfl hw
        · rename_i heq; cases heq; exact absurd rfl hw
        · rfl
      exact ⟨by simp only [Link.send, this]; exact h.working, by simp only [Link.send, this]; exact h.sends, by simp only [Link.send, this]; exact h.carried⟩

theorem Link.Fine.write {l : Link S} (h : l.Fine) (k n : Nat) : (l.send (.write k n)).Fine := by
  cases hk : l.snd.calls[k]? with
  | none =>
    have : l.snd.step (.write k n) = l.snd := by simp [SndSt.step, hk]
    exact ⟨by simp only [Link.send, this]; exact h.working, by simp only [Link.send, this]; exact h.sends, by simp only [Link.send, this]; exact h.carried⟩
  | some c =>
    obtain ⟨mo, ph⟩ := c
    by_cases hw : ∃ r, ph = .writing r
    · obtain ⟨r, rfl⟩ := hw
      obtain ⟨m, hm, -⟩ := h.msg hk (by simp)
      simp only at hm; subst hm
      by_cases hle : r.length ≤ n
      · have hst : l.snd.step (.write k n) = { l.snd with wire := l.snd.wire ++ r.take n }.release k (.ok ()) := by
          simp [SndSt.step, hk, hle]
        refine h.setPhase (p := .done (.ok ())) hk (by simp) ?_ (by simp) ?_ rfl ?_
        · intro j; simp only [Link.send, hst]; exact SndSt.release_get _ _ _ _
        · simp only [Link.send, hst]; rfl
        · simp only [Link.send, hst]; exact List.prefix_append _ _
      · have hst : l.snd.step (.write k n) = { l.snd with wire := l.snd.wire ++ r.take n }.set k (.writing (r.drop n)) := by
          simp only [SndSt.step, hk]; rw [if_neg hle]
        refine h.setPhase (p := .writing (r.drop n)) hk (by simp) ?_ (by simp) ?_ rfl ?_
        · intro j; simp only [Link.send, hst]; exact SndSt.set_get _ _ _ _
        · simp only [Link.send, hst]; rfl
        · simp only [Link.send, hst]; exact List.prefix_append _ _
    · have : l.snd.step (.write k n) = l.snd := by
        simp only [SndSt.step, hk]
        split
        · rename_i heq; cases heq; exact absurd ⟨_, rfl⟩ hw
        · rfl
      exact ⟨by simp only [Link.send, this]; exact h.working, by simp only [Link.send, this]; exact h.sends, by simp only [Link.send, this]; exact h.carried⟩

theorem Link.Fine.call {l : Link S} (h : l.Fine) {m : Msg} (hf : Fits m = true) : (l.send (.call (some m))).Fine := by
  refine ⟨h.working, ?_, h.carried⟩
  intro k c hk
  have hk' : (l.snd.calls ++ [⟨some m, .waiting⟩])[k]? = some c := hk
  rw [List.getElem?_append] at hk'
  split at hk'
  · exact h.sends k c hk'
  · cases hx : k - l.snd.calls.length with
    | zero =>
      rw [hx] at hk'; simp at hk'; subst hk'
      exact Or.inr ⟨m, rfl, by simpa only [Fits, decide_eq_true_eq] using hf, Or.inl rfl⟩
    | succ n => rw [hx] at hk'; simp at hk'

theorem Link.Fine.drop {l : Link S} (h : l.Fine) (k : Nat) (hn : ∀ c, l.snd.calls[k]? = some c → ¬ c.phase.holding) : (l.send (.drop k)).Fine := by
  have same : l.snd.step (.drop k) = l.snd → (l.send (.drop k)).Fine := fun this =>
    ⟨by simp only [Link.send, this]; exact h.working, by simp only [Link.send, this]; exact h.sends, by simp only [Link.send, this]; exact h.carried⟩
  cases hk : l.snd.calls[k]? with
  | none => exact same (by simp [SndSt.step, hk])
  | some c =>
    obtain ⟨mo, ph⟩ := c
    have hno := hn _ hk
    cases ph with
    | waiting =>
      obtain ⟨m, hm, -⟩ := h.msg hk (by simp)
      simp only at hm; subst hm
      have hst : l.snd.step (.drop k) = l.snd.set k (.dropped false) := by simp [SndSt.step, hk]
      refine h.setPhase (p := .dropped false) hk (by simp) ?_ (by simp) ?_ rfl ?_
      · intro j; simp only [Link.send, hst]; exact SndSt.set_get _ _ _ _
      · simp only [Link.send, hst]; rfl
      · simp only [Link.send, hst]; exact List.prefix_refl _
    | taken => exact absurd trivial hno
    | writing r => exact absurd trivial hno
    | done r => exact same (by simp [SndSt.step, hk])
    | dropped b => exact same (by simp [SndSt.step, hk])
    | panicked => exact same (by simp [SndSt.step, hk])

theorem Link.Fine.arrive {l : Link S} (h : l.Fine) {b : Bytes} (hb : arrived l.net ++ b <+: l.snd.wire) : (l.arrive b).Fine := by
  refine ⟨h.working, h.sends, ?_, ?_⟩
  · simp only [Link.arrive, List.mem_append, List.mem_singleton, not_or]
    exact ⟨h.carried.1, by simp⟩
  · simp only [Link.arrive, arrived_append]
    simpa [arrived] using hb

theorem Link.Fine.poll {l : Link S} (h : l.Fine) : l.poll.Fine := by
  refine ⟨h.working, h.sends, ?_, ?_⟩
  · simp only [Link.poll, List.mem_append, List.mem_singleton, not_or]
    exact ⟨h.carried.1, by simp⟩
  · simp only [Link.poll, arrived_append]
    simpa [arrived] using h.carried.2

/-- A step of a send that makes progress. Proof device: nothing in the code corresponds. -/
def SEv.progress : SEv → Bool
  | .acquire _ => true
  | .push _ => true
  | .write _ _ => true
  | _ => false

theorem SEv.progress_internal {e : SEv} (h : e.progress = true) : e.internal = true := by
  cases e <;> simp [SEv.progress, SEv.internal] at h ⊢

theorem Link.Good.progress (L : S.Lawful) {l : Link S} (h : l.Good) {e : SEv} (he : e.progress = true) : (l.send e).Good := by
  refine ⟨h.hist.send e, h.snt.send L e, ?_⟩
  cases e with
  | acquire k => exact h.fine.acquire h.snt.inv k
  | push k => exact h.fine.push L k
  | write k n => exact h.fine.write k n
  | call m => simp [SEv.progress] at he
  | ioErr k => simp [SEv.progress] at he
  | drop k => simp [SEv.progress] at he

theorem Link.Good.arrive {l : Link S} (h : l.Good) {b : Bytes} (hb : arrived l.net ++ b <+: l.snd.wire) : (l.arrive b).Good :=
  ⟨h.hist.arrive b, h.snt.other rfl rfl rfl, h.fine.arrive hb⟩

theorem Link.Good.poll {l : Link S} (h : l.Good) : l.poll.Good :=
  ⟨h.hist.poll, h.snt.other rfl rfl rfl, h.fine.poll⟩

/-! ### All sends come to their end -/

/-- How much a call still has to do. Proof device: nothing in the code corresponds. -/
def SPhase.work : SPhase → Nat
  | .waiting => 3
  | .taken => 2
  | .writing _ => 1
  | _ => 0

/-- How much all calls still have to do. Proof device: nothing in the code corresponds. -/
def callsWork : List SCall → Nat
  | [] => 0
  | c :: cs => c.phase.work + callsWork cs

theorem callsWork_modify {cs : List SCall} {k : Nat} {c : SCall} {p : SPhase} (hk : cs[k]? = some c) (h : p.work < c.phase.work) :
    callsWork (cs.modify k (fun c => { c with phase := p })) < callsWork cs := by
  induction cs generalizing k with
  | nil => simp at hk
  | cons x xs ih =>
    cases k with
    | zero =>
      simp at hk; subst hk
      simp only [List.modify_zero_cons, callsWork]; omega
    | succ k =>
      simp at hk
      simp only [List.modify_succ_cons, callsWork]
      have := ih hk
      omega

/-- Every send is over. Proof device: nothing in the code corresponds. -/
def SndSt.Over (s : SndSt S) : Prop := ∀ (k : Nat) (c : SCall), s.calls[k]? = some c → c.phase = .done (.ok ()) ∨ c.phase = .dropped false

/-- Some send can make progress, unless all are over. -/
theorem Link.Good.next (L : S.Lawful) {l : Link S} (h : l.Good) :
    l.snd.Over ∨ ∃ e : SEv, e.progress = true ∧ callsWork (l.send e).snd.calls < callsWork l.snd.calls := by
  cases hp : l.snd.permit with
  | some k =>
    right
    obtain ⟨⟨mo, ph⟩, hk, hh⟩ := h.snt.inv.held k hp
    obtain ⟨m, hm, hf⟩ := h.fine.msg hk (by rintro h; simp only at h; rw [h] at hh; exact hh)
    simp only at hm; subst hm
    cases ph with
    | taken =>
      refine ⟨.push k, rfl, ?_⟩
      have hst : l.snd.step (.push k) = { l.snd with enc := (S.push l.snd.enc (Codec.encodeMsg m)).2 }.set k
          (.writing (frame (S.push l.snd.enc (Codec.encodeMsg m)).1)) := by
        simp [SndSt.step, hk, frameBytes_of_fits L hf, h.fine.working]
      simp only [Link.send, hst]
      exact callsWork_modify hk (by simp [SPhase.work])
    | writing r =>
      refine ⟨.write k r.length, rfl, ?_⟩
      have hst : l.snd.step (.write k r.length) = { l.snd with wire := l.snd.wire ++ r.take r.length }.release k (.ok ()) := by
        simp [SndSt.step, hk]
      simp only [Link.send, hst]
      exact callsWork_modify hk (by simp [SPhase.work])
    | waiting => exact hh.elim
    | done r => exact hh.elim
    | dropped b => exact hh.elim
    | panicked => exact hh.elim
  | none =>
    by_cases hw : ∃ (k : Nat) (mo : Option Msg), l.snd.calls[k]? = some ⟨mo, .waiting⟩
    · right
      obtain ⟨k, mo, hk⟩ := hw
      refine ⟨.acquire k, rfl, ?_⟩
      have hs : l.snd.sender = true := by
        cases hs : l.snd.sender with
        | true => rfl
        | false =>
          obtain ⟨j, c, hj, hb⟩ := h.snt.inv.lost hs hp
          exact absurd (show c.phase.bad by rw [hb]; trivial) (h.fine.clean.2 j c hj)
      have hst : l.snd.step (.acquire k) = { l.snd.set k .taken with sender := false, permit := some k } := by
        simp [SndSt.step, hk, hp, hs]
      simp only [Link.send, hst]
      exact callsWork_modify hk (by simp [SPhase.work])
    · left
      intro k c hk
      rcases h.fine.sends k c hk with h' | ⟨m, -, -, h' | h' | ⟨r, h'⟩ | h'⟩
      · exact Or.inr h'
      · obtain ⟨mo, ph⟩ := c
        simp only at h'; subst h'
        exact absurd ⟨k, mo, hk⟩ hw
      · have := h.snt.inv.perm k c hk (by rw [h']; trivial)
        rw [hp] at this; cases this
      · have := h.snt.inv.perm k c hk (by rw [h']; trivial)
        rw [hp] at this; cases this
      · exact Or.inl h'

theorem Link.Good.settle (L : S.Lawful) (n : Nat) : ∀ {l : Link S}, l.Good → callsWork l.snd.calls ≤ n →
    ∃ es : List SEv, (∀ e ∈ es, e.progress = true) ∧ (es.foldl Link.send l).Good ∧ (es.foldl Link.send l).snd.Over := by
  induction n with
  | zero =>
    intro l h hn
    rcases h.next L with ho | ⟨e, -, hlt⟩
    · exact ⟨[], by simp, h, ho⟩
    · omega
  | succ n ih =>
    intro l h hn
    rcases h.next L with ho | ⟨e, he, hlt⟩
    · exact ⟨[], by simp, h, ho⟩
    · obtain ⟨es, h1, h2, h3⟩ := ih (h.progress L he) (by omega)
      refine ⟨e :: es, ?_, h2, h3⟩
      intro e' he'
      rcases List.mem_cons.mp he' with rfl | he'
      · exact he
      · exact h1 e' he'

/-! ### All that was sent is delivered -/

/-- All is sent and has arrived; `todo` is still to be taken out. Proof device: nothing in the code corresponds. -/
structure LinkFull (l : Link S) (todo : List Msg) : Prop where
  good : l.Good
  over : l.snd.Over
  honest : arrived l.net = l.snd.wire
  fits : ∀ m ∈ todo, Fits m = true
  enc : l.snd.enc = S.after l.rcv.cr.dec (todo.map Codec.encodeMsg)
  bytes : l.rcv.unread = S.wire l.rcv.cr.dec (todo.map Codec.encodeMsg)
  all : l.pushed.map Prod.snd = l.got ++ todo

theorem Link.Good.idle {l : Link S} (h : l.Good) (ho : l.snd.Over) : l.snd.permit = none ∧ l.snd.sender = true := by
  have hp : l.snd.permit = none := by
    cases hp : l.snd.permit with
    | none => rfl
    | some k =>
      obtain ⟨c, hk, hh⟩ := h.snt.inv.held k hp
      rcases ho k c hk with h' | h' <;> rw [h'] at hh <;> exact hh.elim
  refine ⟨hp, ?_⟩
  cases hs : l.snd.sender with
  | true => rfl
  | false =>
    obtain ⟨j, c, hj, hb⟩ := h.snt.inv.lost hs hp
    exact absurd (show c.phase.bad by rw [hb]; trivial) (h.fine.clean.2 j c hj)

/-- The sends come to their end, the bytes arrive. -/
theorem Link.Good.fill (L : S.Lawful) {l : Link S} (h : l.Good) :
    ∃ (es : List SEv) (b : Bytes) (todo : List Msg), (∀ e ∈ es, e.progress = true) ∧ LinkFull ((es.foldl Link.send l).arrive b) todo := by
  obtain ⟨es, h1, h2, h3⟩ := h.settle L _ (Nat.le_refl _)
  obtain ⟨t, ht⟩ := h2.fine.carried.2
  have hg : ((es.foldl Link.send l).arrive t).Good := h2.arrive (by rw [ht]; exact List.prefix_refl _)
  have ho : ((es.foldl Link.send l).arrive t).snd.Over := h3
  have harr : arrived ((es.foldl Link.send l).arrive t).net = ((es.foldl Link.send l).arrive t).snd.wire := by
    simp only [Link.arrive, arrived_append]
    simpa [arrived] using ht
  obtain ⟨-, -, todo, t', hf, he, hw, hb, hall, -⟩ := hg.todo L
  refine ⟨es, t, todo, h1, hg, ho, harr, hf, he, ?_, hall⟩
  have ht' : t' = [] := by
    rw [harr] at hw
    simpa using hw
  rw [ht', SndSt.rest_none (hg.idle ho).1] at hb
  simpa using hb

theorem LinkFull.quiet {l : Link S} (L : S.Lawful) (h : LinkFull l []) : LinkQuiet l := by
  obtain ⟨ha, hc, -⟩ := h.good.todo L
  exact ⟨(h.good.idle h.over).2, (h.good.idle h.over).1, h.good.fine.working, ha, hc, h.bytes, h.enc.symm, h.honest⟩

theorem LinkFull.poll (L : S.Lawful) {l : Link S} {m : Msg} {todo : List Msg} (h : LinkFull l (m :: todo)) :
    l.rcv.poll.1 = .item m ∧ LinkFull l.poll todo := by
  obtain ⟨ha, hc, -⟩ := h.good.todo L
  have hm : maxFrame = 8192 := rfl
  have hfm := h.fits m (List.mem_cons_self ..)
  simp only [Fits, decide_eq_true_eq] at hfm
  have hb := h.bytes
  simp only [List.map_cons, SStream.wire] at hb
  obtain ⟨cs, hp, hcs⟩ := poll_frame (r := l.rcv.cr.fr) ha.2.2 (by rw [L.push_len]; omega) hb
  have hd := MsgRecv.deliver L ha hp
  refine ⟨by rw [hd], h.good.poll, h.over, ?_, fun m' hm' => h.fits m' (List.mem_cons_of_mem _ hm'), ?_, ?_, ?_⟩
  · simp only [Link.poll, arrived_append]
    simpa [arrived] using h.honest
  · simp only [Link.poll, hd]
    exact h.enc
  · simp only [Link.poll, hd, MsgRecv.unread]
    exact hcs
  · simp only [Link.poll, hd, Polled.toList, List.append_assoc]
    exact h.all

end Lair
