import Verif.Props.InFlight

/- How much there is still to do on a connection: a number that no undisturbing event raises and every move lowers (used for C87). -/
namespace Lair

variable {S : SStream} {E : Env} {st : E.S.σ}

/-! ### Specification -/

/-- SPECIFICATION: this event brings a send forward: it gets the free permit, its message is encrypted, some of its bytes are written. -/
def SndSt.Moves (s : SndSt S) : SEv → Prop
  | .acquire k => s.permit = none ∧ ∃ m, s.calls[k]? = some ⟨m, .waiting⟩
  | .push k => ∃ m, s.calls[k]? = some ⟨m, .taken⟩
  | .write k n => 0 < n ∧ ∃ m r, s.calls[k]? = some ⟨m, .writing r⟩
  | _ => False

/-- SPECIFICATION: this event brings something forward on the connection: a send, in either direction; bytes that were written arrive; the client takes a
    message that is there; a caller learns that its request is sent; a caller whose answer is there takes it. -/
def Conn.Moves (x : Conn S) : NEv → Prop
  | .upSend e => x.up.snd.Moves e
  | .downSend e => x.down.snd.Moves e
  | .upArrive b => b ≠ [] ∧ arrived x.up.net ++ b <+: x.up.snd.wire
  | .downArrive b => b ≠ [] ∧ arrived x.down.net ++ b <+: x.down.snd.wire
  | .poll => ∃ m, x.down.rcv.poll.1 = .item m
  | .asked k => ∃ a m r q, x.asked[k]? = some a ∧ x.up.snd.calls[a.call]? = some ⟨m, .done r⟩ ∧ x.cli.reqs[k]? = some q ∧ q.phase = .sending
  | .wake k => ∃ q, x.cli.reqs[k]? = some q ∧ q.phase = .waiting ∧ q.slot ≠ .empty
  | _ => False

/-- SPECIFICATION: this event brings something forward that concerns connection `c`: something on the connection itself; the server takes a message
    that is there; the server goes on with a request that came over it. -/
def World.Moves (w : World E S) (c : Nat) : WEv S → Prop
  | .net d e => d = c ∧ ∃ x, w.conns[c]? = some x ∧ x.Moves e
  | .serve d => d = c ∧ ∃ x m, w.conns[c]? = some x ∧ x.up.rcv.poll.1 = .item m
  | .act i _ => ∃ t, w.sys.threads[i]? = some t ∧ t.conn = c
  | _ => False

/-! ### Sums -/

/-- The sum over a list. Proof device: nothing in the code corresponds. -/
def total {α : Type} (f : α → Nat) : List α → Nat
  | [] => 0
  | a :: l => f a + total f l

theorem total_append {α : Type} (f : α → Nat) (l m : List α) : total f (l ++ m) = total f l + total f m := by
  induction l with
  | nil => simp [total]
  | cons a l ih => simp only [List.cons_append, total, ih]; omega

theorem total_modify {α : Type} (f : α → Nat) (g : α → α) {l : List α} {k : Nat} {a : α} (h : l[k]? = some a) :
    total f (l.modify k g) + f a = total f l + f (g a) := by
  induction l generalizing k with
  | nil => simp at h
  | cons b l ih =>
    cases k with
    | zero =>
      simp at h; subst h
      simp only [List.modify_zero_cons, total]; omega
    | succ k =>
      simp at h
      simp only [List.modify_succ_cons, total]
      have := ih h
      omega

theorem total_set {α : Type} (f : α → Nat) {l : List α} {k : Nat} {a b : α} (h : l[k]? = some a) :
    total f (l.set k b) + f a = total f l + f b := by
  induction l generalizing k with
  | nil => simp at h
  | cons b l ih =>
    cases k with
    | zero => simp at h; subst h; simp only [List.set_cons_zero, total]; omega
    | succ k =>
      simp at h
      simp only [List.set_cons_succ, total]
      have := ih h
      omega

theorem total_erase {α : Type} (f : α → Nat) {l : List α} {k : Nat} {a : α} (h : l[k]? = some a) :
    total f (l.eraseIdx k) + f a = total f l := by
  induction l generalizing k with
  | nil => simp at h
  | cons b l ih =>
    cases k with
    | zero => simp at h; subst h; simp only [List.eraseIdx_cons_zero, total]; omega
    | succ k =>
      simp at h
      simp only [List.eraseIdx_cons_succ, total]
      have := ih h
      omega

theorem total_le {α : Type} (f : α → Nat) : ∀ {l l' : List α}, l'.length = l.length →
    (∀ (k : Nat) (a b : α), l[k]? = some a → l'[k]? = some b → f b ≤ f a) → total f l' ≤ total f l := by
  intro l
  induction l with
  | nil => intro l' hl _; cases l' with
    | nil => exact Nat.le_refl _
    | cons b l' => simp at hl
  | cons a l ih =>
    intro l' hl h
    cases l' with
    | nil => simp at hl
    | cons b l' =>
      have h1 := h 0 a b rfl rfl
      have h2 := ih (l' := l') (by simpa using hl) (fun k a' b' ha hb => h (k + 1) a' b' (by simpa using ha) (by simpa using hb))
      simp only [total]; omega

theorem total_lt {α : Type} (f : α → Nat) : ∀ {l l' : List α}, l'.length = l.length →
    (∀ (k : Nat) (a b : α), l[k]? = some a → l'[k]? = some b → f b ≤ f a) →
    ∀ {k : Nat} {a b : α}, l[k]? = some a → l'[k]? = some b → f b < f a → total f l' < total f l := by
  intro l
  induction l with
  | nil => intro l' _ _ k a b ha; simp at ha
  | cons a0 l ih =>
    intro l' hl h k a b ha hb hlt
    cases l' with
    | nil => simp at hl
    | cons b0 l' =>
      have h1 := h 0 a0 b0 rfl rfl
      have h' : ∀ (k : Nat) (a b : α), l[k]? = some a → l'[k]? = some b → f b ≤ f a :=
        fun k a' b' ha hb => h (k + 1) a' b' (by simpa using ha) (by simpa using hb)
      cases k with
      | zero =>
        simp at ha hb; subst ha; subst hb
        have := total_le f (l := l) (l' := l') (by simpa using hl) h'
        simp only [total]; omega
      | succ k =>
        have := ih (l' := l') (by simpa using hl) h' (k := k) (by simpa using ha) (by simpa using hb) hlt
        simp only [total]; omega

/-! ### One direction -/

/-- What a send still has to do; `v`: what its message will cause at the other end. Proof device: nothing in the code corresponds. -/
def SCall.cost (v : Nat) (c : SCall) : Nat := match c.phase with
  | .waiting => 16391 + v
  | .taken => 16390 + v
  | .writing r => 2 * r.length + 1
  | _ => 0

/-- What there is still to do in one direction. Proof device: nothing in the code corresponds. -/
def Link.cost (v : Nat) (l : Link S) : Nat :=
  total (SCall.cost v) l.snd.calls + (l.snd.wire.length - (arrived l.net).length) + v * (l.pushed.length - l.got.length)

theorem Link.Good.lens (L : S.Lawful) {l : Link S} (h : l.Good) :
    (arrived l.net).length ≤ l.snd.wire.length ∧ l.got.length ≤ l.pushed.length := by
  refine ⟨h.fine.carried.2.length_le, ?_⟩
  obtain ⟨-, -, td, _, -, -, -, -, hall, -⟩ := h.todo L
  have := congrArg List.length hall
  simp at this; omega

theorem frame_len (L : S.Lawful) {m : Msg} (h : Fits m = true) (s : S.St) : (frame (S.push s (Codec.encodeMsg m)).1).length ≤ 8194 := by
  simp only [Fits, decide_eq_true_eq] at h
  simp only [frame, List.length_append, L.push_len]
  have : (le16 ((Codec.encodeMsg m).length + 17)).length = 2 := rfl
  omega

theorem Link.cost_acquire {l : Link S} (h : l.Good) (v k : Nat) :
    (l.send (.acquire k)).cost v ≤ l.cost v ∧ (l.snd.Moves (.acquire k) → (l.send (.acquire k)).cost v < l.cost v) := by
  by_cases hm : l.snd.Moves (.acquire k)
  · obtain ⟨hp, m, hk⟩ := hm
    have hs : l.snd.sender = true := by
      cases hs : l.snd.sender with
      | true => rfl
      | false =>
        obtain ⟨j, c, hj, hb⟩ := h.snt.inv.lost hs hp
        exact absurd (show c.phase.bad by rw [hb]; trivial) (h.fine.clean.2 j c hj)
    have hst : l.snd.step (.acquire k) = { l.snd.set k .taken with sender := false, permit := some k } := by
      simp [SndSt.step, hk, hp, hs]
    have ht := total_modify (SCall.cost v) (fun c => { c with phase := .taken }) hk
    have : (l.send (.acquire k)).cost v < l.cost v := by
      simp only [Link.cost, Link.send, hst, SndSt.set, SndSt.pushing, List.append_nil]
      simp only [SCall.cost] at ht
      omega
    exact ⟨Nat.le_of_lt this, fun _ => this⟩
  · have hst : l.snd.step (.acquire k) = l.snd := by
      simp only [SndSt.step]
      split
      · rename_i m hk
        split
        · rfl
        · rename_i hp; exact absurd ⟨hp, m, hk⟩ hm
      · rfl
    have : (l.send (.acquire k)).cost v = l.cost v := by
      simp only [Link.cost, Link.send, hst, SndSt.pushing, List.append_nil]
    exact ⟨Nat.le_of_eq this, fun h => absurd h hm⟩

theorem Link.cost_push (L : S.Lawful) {l : Link S} (h : l.Good) (v k : Nat) :
    (l.send (.push k)).cost v ≤ l.cost v ∧ (l.snd.Moves (.push k) → (l.send (.push k)).cost v < l.cost v) := by
  by_cases hm : l.snd.Moves (.push k)
  · obtain ⟨mo, hk⟩ := hm
    obtain ⟨m, hmm, hf⟩ := h.fine.msg hk (by simp)
    simp only at hmm; subst hmm
    have hst : l.snd.step (.push k) = { l.snd with enc := (S.push l.snd.enc (Codec.encodeMsg m)).2 }.set k
        (.writing (frame (S.push l.snd.enc (Codec.encodeMsg m)).1)) := by
      simp [SndSt.step, hk, frameBytes_of_fits L hf, h.fine.working]
    have hpu : l.snd.pushing (.push k) = [(k, m)] := by simp [SndSt.pushing, hk]
    have ht := total_modify (SCall.cost v) (fun c => { c with phase := .writing (frame (S.push l.snd.enc (Codec.encodeMsg m)).1) }) hk
    have hl := frame_len L hf l.snd.enc
    obtain ⟨-, hg⟩ := h.lens L
    have : (l.send (.push k)).cost v < l.cost v := by
      simp only [Link.cost, Link.send, hst, SndSt.set, hpu, List.length_append, List.length_singleton]
      simp only [SCall.cost] at ht
      rw [show l.pushed.length + 1 - l.got.length = (l.pushed.length - l.got.length) + 1 by omega, Nat.mul_succ]
      omega
    exact ⟨Nat.le_of_lt this, fun _ => this⟩
  · have hst : l.snd.step (.push k) = l.snd ∧ l.snd.pushing (.push k) = [] := by
      simp only [SndSt.step, SndSt.pushing]
      split
      · rename_i m hk; exact absurd ⟨_, hk⟩ hm
      · rename_i hk; exact absurd ⟨_, hk⟩ hm
      · rename_i h1 h2
        refine ⟨rfl, ?_⟩
        split
        · rename_i m hk; exact absurd ⟨_, hk⟩ hm
        · rfl
    have : (l.send (.push k)).cost v = l.cost v := by
      simp only [Link.cost, Link.send, hst.1, hst.2, List.append_nil]
    exact ⟨Nat.le_of_eq this, fun h => absurd h hm⟩

theorem Link.cost_write (L : S.Lawful) {l : Link S} (h : l.Good) (v k n : Nat) :
    (l.send (.write k n)).cost v ≤ l.cost v ∧ (l.snd.Moves (.write k n) → (l.send (.write k n)).cost v < l.cost v) := by
  obtain ⟨ha, -⟩ := h.lens L
  by_cases hm : ∃ m r, l.snd.calls[k]? = some ⟨m, .writing r⟩
  · obtain ⟨m, r, hk⟩ := hm
    by_cases hle : r.length ≤ n
    · have hst : l.snd.step (.write k n) = { l.snd with wire := l.snd.wire ++ r.take n }.release k (.ok ()) := by
        simp [SndSt.step, hk, hle]
      have ht := total_modify (SCall.cost v) (fun c => { c with phase := .done (.ok ()) }) hk
      have : (l.send (.write k n)).cost v < l.cost v := by
        simp only [Link.cost, Link.send, hst, SndSt.release, SndSt.set, SndSt.pushing, List.append_nil, List.length_append, List.length_take]
        simp only [SCall.cost] at ht
        omega
      exact ⟨Nat.le_of_lt this, fun _ => this⟩
    · have hst : l.snd.step (.write k n) = { l.snd with wire := l.snd.wire ++ r.take n }.set k (.writing (r.drop n)) := by
        simp only [SndSt.step, hk]; rw [if_neg hle]
      have ht := total_modify (SCall.cost v) (fun c => { c with phase := .writing (r.drop n) }) hk
      have : (l.send (.write k n)).cost v + n ≤ l.cost v := by
        simp only [Link.cost, Link.send, hst, SndSt.set, SndSt.pushing, List.append_nil, List.length_append, List.length_take]
        simp only [SCall.cost, List.length_drop] at ht
        omega
      exact ⟨by omega, fun h => by have := h.1; omega⟩
  · have hst : l.snd.step (.write k n) = l.snd := by
      simp only [SndSt.step]
      split
      · rename_i r hk; exact absurd ⟨_, _, hk⟩ hm
      · rfl
    have : (l.send (.write k n)).cost v = l.cost v := by
      simp only [Link.cost, Link.send, hst, SndSt.pushing, List.append_nil]
    exact ⟨Nat.le_of_eq this, fun h => absurd h.2 hm⟩

theorem Link.cost_progress (L : S.Lawful) {l : Link S} (h : l.Good) (v : Nat) {e : SEv} (he : e.progress = true) :
    (l.send e).cost v ≤ l.cost v ∧ (l.snd.Moves e → (l.send e).cost v < l.cost v) := by
  cases e with
  | acquire k => exact l.cost_acquire h v k
  | push k => exact l.cost_push L h v k
  | write k n => exact l.cost_write L h v k n
  | _ => cases he

theorem Link.cost_drop {l : Link S} (_h : l.Fine) (v k : Nat) (hn : ∀ c, l.snd.calls[k]? = some c → ¬ c.phase.holding) :
    (l.send (.drop k)).cost v ≤ l.cost v := by
  have same : l.snd.step (.drop k) = l.snd → (l.send (.drop k)).cost v ≤ l.cost v := fun hst => by
    simp only [Link.cost, Link.send, hst, SndSt.pushing, List.append_nil]; exact Nat.le_refl _
  cases hk : l.snd.calls[k]? with
  | none => exact same (by simp [SndSt.step, hk])
  | some c =>
    obtain ⟨mo, ph⟩ := c
    have hno := hn _ hk
    cases ph with
    | waiting =>
      have hst : l.snd.step (.drop k) = l.snd.set k (.dropped false) := by simp [SndSt.step, hk]
      have ht := total_modify (SCall.cost v) (fun c => { c with phase := .dropped false }) hk
      simp only [Link.cost, Link.send, hst, SndSt.set, SndSt.pushing, List.append_nil]
      simp only [SCall.cost] at ht
      omega
    | taken => exact absurd trivial hno
    | writing r => exact absurd trivial hno
    | done r => exact same (by simp [SndSt.step, hk])
    | dropped b => exact same (by simp [SndSt.step, hk])
    | panicked => exact same (by simp [SndSt.step, hk])

theorem Link.cost_call (l : Link S) (v : Nat) (m : Msg) : (l.send (.call (some m))).cost v = l.cost v + (16391 + v) := by
  simp only [Link.cost, Link.send, SndSt.step, SndSt.pushing, List.append_nil, total_append, total, SCall.cost]
  omega

theorem Link.cost_arrive {l : Link S} (v : Nat) {b : Bytes} (hb : arrived l.net ++ b <+: l.snd.wire) :
    (l.arrive b).cost v ≤ l.cost v ∧ (b ≠ [] → (l.arrive b).cost v < l.cost v) := by
  have hlen := hb.length_le
  have hn : arrived (l.net ++ [.arrive b]) = arrived l.net ++ b := by rw [arrived_append]; simp [arrived]
  simp only [List.length_append] at hlen
  refine ⟨?_, fun hne => ?_⟩
  · simp only [Link.cost, Link.arrive, hn, List.length_append]; omega
  · have := List.length_pos_iff.mpr hne
    simp only [Link.cost, Link.arrive, hn, List.length_append]; omega

theorem Link.cost_poll (L : S.Lawful) {l : Link S} (h : l.Good) (v : Nat) :
    (∀ m, l.rcv.poll.1 = .item m → l.poll.cost v + v = l.cost v) ∧ (l.rcv.poll.1.toList = [] → l.poll.cost v = l.cost v) := by
  have hn : arrived (l.net ++ [.poll]) = arrived l.net := by rw [arrived_append]; simp [arrived]
  refine ⟨fun m hm => ?_, fun hp => ?_⟩
  · obtain ⟨-, hg⟩ := h.poll.lens L
    simp only [Link.poll, hm, Polled.toList, List.length_append, List.length_singleton] at hg
    simp only [Link.cost, Link.poll, hn, hm, Polled.toList, List.length_append, List.length_singleton]
    have : l.pushed.length - l.got.length = (l.pushed.length - (l.got.length + 1)) + 1 := by omega
    rw [this, Nat.mul_succ]; omega
  · simp only [Link.cost, Link.poll, hn, hp, List.append_nil]

/-- No send can be brought forward, no bytes are on the way, no message is there: all is delivered. -/
theorem Link.Good.full (L : S.Lawful) {l : Link S} (h : l.Good) (h1 : ∀ e, ¬ l.snd.Moves e) (h2 : ∀ b, b ≠ [] → ¬ arrived l.net ++ b <+: l.snd.wire)
    (h3 : ∀ m, l.rcv.poll.1 ≠ .item m) : LinkFull l [] := by
  have hp : l.snd.permit = none := by
    cases hp : l.snd.permit with
    | none => rfl
    | some k =>
      obtain ⟨⟨mo, ph⟩, hk, hh⟩ := h.snt.inv.held k hp
      cases ph with
      | taken => exact absurd ⟨mo, hk⟩ (h1 (.push k))
      | writing r => exact absurd ⟨Nat.one_pos, mo, r, hk⟩ (h1 (.write k 1))
      | waiting => exact hh.elim
      | done r => exact hh.elim
      | dropped b => exact hh.elim
      | panicked => exact hh.elim
  have ho : l.snd.Over := by
    intro k c hk
    rcases h.fine.sends k c hk with h' | ⟨m, -, -, h' | h' | ⟨r, h'⟩ | h'⟩
    · exact Or.inr h'
    · obtain ⟨mo, ph⟩ := c
      simp only at h'; subst h'
      exact absurd ⟨hp, mo, hk⟩ (h1 (.acquire k))
    · have := h.snt.inv.perm k c hk (by rw [h']; trivial)
      rw [hp] at this; cases this
    · have := h.snt.inv.perm k c hk (by rw [h']; trivial)
      rw [hp] at this; cases this
    · exact Or.inl h'
  obtain ⟨-, -, todo, t, hf, he, hw, hb, hall, -⟩ := h.todo L
  have ht : t = [] := by
    by_cases ht : t = []
    · exact ht
    · exact absurd (by rw [hw]; exact List.prefix_refl _) (h2 t ht)
  subst ht
  rw [List.append_nil] at hw
  have hfull : LinkFull l todo := by
    refine ⟨h, ho, hw.symm, hf, he, ?_, hall⟩
    rw [SndSt.rest_none hp] at hb
    simpa using hb
  cases todo with
  | nil => exact hfull
  | cons m todo => exact absurd (hfull.poll L).1 (h3 m)

/-! ### The handlers -/

open Classical in
/-- The number of actions a handler still takes at most. Proof device: nothing in the code corresponds. -/
noncomputable def Prog.depth {α : Type} (p : Prog α) : Nat → Nat
  | 0 => 0
  | n + 1 => if p.Within n then p.depth n else n + 1

theorem Prog.depth_le {α : Type} (p : Prog α) (n : Nat) : p.depth n ≤ n := by
  induction n with
  | zero => exact Nat.le_refl _
  | succ n ih => simp only [Prog.depth]; split <;> omega

theorem Prog.depth_min {α : Type} (p : Prog α) (N n : Nat) (h : p.Within n) : p.depth N ≤ n := by
  induction N with
  | zero => exact Nat.zero_le _
  | succ N ih =>
    simp only [Prog.depth]
    split
    · exact ih
    · rename_i hN
      by_cases hle : N + 1 ≤ n
      · exact hle
      · exact absurd (h.mono (by omega)) hN

theorem Prog.depth_within {α : Type} (p : Prog α) (N : Nat) (h : p.Within N) : p.Within (p.depth N) := by
  induction N with
  | zero => exact h
  | succ N ih =>
    simp only [Prog.depth]
    split
    · exact ih ‹_›
    · exact h

theorem Prog.depth_next {α : Type} {N : Nat} {a : Act} {k : a.Out → Prog α} (h : (Prog.step a k).Within N) (o : a.Out) :
    (k o).depth N < (Prog.step a k).depth N := by
  obtain ⟨n', h1, h2⟩ := (Prog.depth_within _ N h).next
  have := Prog.depth_min (k o) N n' (h2 o)
  omega

/-- What a request in the server still has to do, its answer included. Proof device: nothing in the code corresponds. -/
noncomputable def threadCost (c : Nat) (t : Thread E) : Nat := if t.conn = c then t.prog.depth 16 + 16393 else 0

/-! ### The client -/

/-- What a caller still has to do. Proof device: nothing in the code corresponds. -/
def CReq.cost (q : CReq) : Nat := match q.phase with
  | .sending => 2
  | .waiting => 1
  | _ => 0

theorem Change.cost {s : CliSt} {e : CEv} {k : Nat} {q q' : CReq} (h : Change s e k q q') : q'.cost ≤ q.cost := by
  cases h with
  | same => exact Nat.le_refl _
  | dropped _ _ => exact Nat.le_refl _
  | sent hp _ => simp [CReq.cost, hp]
  | got m _ _ _ => exact Nat.le_refl _
  | ended p sl _ h1 h2 _ _ _ _ _ _ _ =>
    cases p with
    | sending => exact absurd rfl h1
    | waiting => exact absurd rfl h2
    | _ => exact Nat.zero_le _

theorem cli_length (s : CliSt) (e : CEv) (hs : ∀ id, e ≠ .start id) : (s.step e).reqs.length = s.reqs.length := by
  have := congrArg List.length (step_ids s e)
  have hst : starts [e] = [] := by
    cases e with
    | start id => exact absurd rfl (hs id)
    | _ => rfl
  rw [hst] at this
  simpa using this

theorem cli_cost {s : CliSt} (hi : CInv s) (e : CEv) (hs : ∀ id, e ≠ .start id) : total CReq.cost (s.step e).reqs ≤ total CReq.cost s.reqs := by
  refine total_le _ (cli_length s e hs) ?_
  intro k a b ha hb
  obtain ⟨q', h1, h2⟩ := step_change hi e ha
  rw [hb] at h1; cases h1
  exact h2.cost

theorem cli_cost_lt {s : CliSt} (hi : CInv s) (e : CEv) (hs : ∀ id, e ≠ .start id) {k : Nat} {q q' : CReq} (hk : s.reqs[k]? = some q)
    (hk' : (s.step e).reqs[k]? = some q') (hlt : q'.cost < q.cost) : total CReq.cost (s.step e).reqs < total CReq.cost s.reqs := by
  refine total_lt _ (cli_length s e hs) ?_ hk hk' hlt
  intro k a b ha hb
  obtain ⟨q', h1, h2⟩ := step_change hi e ha
  rw [hb] at h1; cases h1
  exact h2.cost

theorem finish_cost (s : CliSt) (k : Nat) (id : String) (r : Res Msg) {q : CReq} (hk : s.reqs[k]? = some q) :
    ∃ q', (s.finish k id (.done r)).reqs[k]? = some q' ∧ q'.phase = .done r := by
  rw [finish_reqs, hk]
  refine ⟨_, rfl, ?_⟩
  simp only [if_true]
  split <;> simp

theorem sent_cost {s : CliSt} (hi : CInv s) (k : Nat) (r : Res Unit) {q : CReq} (hk : s.reqs[k]? = some q) (hp : q.phase = .sending) :
    total CReq.cost (s.step (.sent k r)).reqs < total CReq.cost s.reqs := by
  obtain ⟨id, ph, sl⟩ := q
  simp only at hp; subst hp
  cases r with
  | ok u =>
    refine cli_cost_lt hi _ (by simp) hk (q' := ⟨id, .waiting, sl⟩) ?_ (by simp [CReq.cost])
    simp only [CliSt.step, hk]
    rw [List.getElem?_modify, hk]; simp
  | error e =>
    obtain ⟨q', h1, h2⟩ := finish_cost s k id (.error e) hk
    refine cli_cost_lt hi _ (by simp) hk (q' := q') ?_ (by simp [CReq.cost, h2])
    simp only [CliSt.step, hk]
    exact h1

theorem wake_cost {s : CliSt} (hi : CInv s) (k : Nat) {q : CReq} (hk : s.reqs[k]? = some q) (hp : q.phase = .waiting) (hs : q.slot ≠ .empty) :
    total CReq.cost (s.step (.wake k)).reqs < total CReq.cost s.reqs := by
  obtain ⟨id, ph, sl⟩ := q
  simp only at hp; subst hp
  cases sl with
  | empty => exact absurd rfl hs
  | full m =>
    obtain ⟨q', h1, h2⟩ := finish_cost s k id (.ok m) hk
    refine cli_cost_lt hi _ (by simp) hk (q' := q') ?_ (by simp [CReq.cost, h2])
    simp only [CliSt.step, hk]
    exact h1
  | dropped =>
    obtain ⟨q', h1, h2⟩ := finish_cost s k id (.error "ConnectionAborted") hk
    refine cli_cost_lt hi _ (by simp) hk (q' := q') ?_ (by simp [CReq.cost, h2])
    simp only [CliSt.step, hk]
    exact h1

/-! ### A connection -/

/-- What there is still to do on a connection, the handlers apart. Proof device: nothing in the code corresponds. -/
def Conn.cost (x : Conn S) : Nat := x.up.cost 16410 + x.down.cost 1 + total CReq.cost x.cli.reqs

/-- What there is still to do that concerns connection `c`. Proof device: nothing in the code corresponds. -/
noncomputable def World.cost (w : World E S) (c : Nat) : Nat :=
  (match w.conns[c]? with | some x => x.cost | none => 0) + total (threadCost c) w.sys.threads

theorem World.cost_of {w : World E S} {c : Nat} {x : Conn S} (h : w.conns[c]? = some x) : w.cost c = x.cost + total (threadCost c) w.sys.threads := by
  simp only [World.cost, h]

theorem World.Breaks.net {w : World E S} {c : Nat} {e : NEv} (h : ¬ w.Breaks c (.net c e)) :
    e ≠ .shutdown ∧ e ≠ .downShutdown ∧ e ≠ .upClose ∧ e ≠ .downClose ∧ (∀ k, e ≠ .upSend (.ioErr k)) ∧ (∀ k, e ≠ .downSend (.ioErr k)) := by
  refine ⟨?_, ?_, ?_, ?_, ?_, ?_⟩
  all_goals first | (rintro rfl; exact h ⟨rfl, trivial⟩) | (rintro k rfl; exact h ⟨rfl, trivial⟩)

theorem internal_progress {e : SEv} (h : e.internal = true) (hi : ∀ k, e ≠ .ioErr k) : e.progress = true := by
  cases e with
  | ioErr k => exact absurd rfl (hi k)
  | acquire k => rfl
  | push k => rfl
  | write k n => rfl
  | call m => cases h
  | drop k => cases h

theorem Moves.progress {s : SndSt S} {e : SEv} (h : s.Moves e) : e.progress = true := by
  cases e with
  | acquire k => rfl
  | push k => rfl
  | write k n => rfl
  | _ => exact h.elim

/-- One event on the connection. -/
theorem Conn.cost_step (L : S.Lawful) {w : World E S} {c : Nat} {x : Conn S} (hx : w.conns[c]? = some x) (hc : ConnInv c w.sys x) (hf : x.Fine)
    (hu : x.up.Good) (hd : x.down.Good) (e : NEv) (hb : ¬ w.Breaks c (.net c e)) (ha : ∀ id q, e ≠ .ask id q) :
    (x.step e).cost ≤ x.cost ∧ (x.Moves e → (x.step e).cost < x.cost) := by
  have hi := cinv_of hc
  obtain ⟨b1, b2, b3, b4, b5, b6⟩ := World.Breaks.net hb
  have hsame : ¬ x.Moves e → x.step e = x → (x.step e).cost ≤ x.cost ∧ (x.Moves e → (x.step e).cost < x.cost) :=
    fun h1 h2 => ⟨by rw [h2]; exact Nat.le_refl _, fun h => absurd h h1⟩
  have hcli : ∀ ce : CEv, (∀ id, ce ≠ .start id) → (x.cliStep ce).cost ≤ x.cost := by
    intro ce hce
    have := cli_cost hi ce hce
    simp only [Conn.cost, Conn.cliStep]; omega
  cases e with
  | ask id q => exact absurd rfl (ha id q)
  | asked k =>
    simp only [Conn.step]
    split
    · rename_i a hak
      split
      · rename_i m r hcall
        refine ⟨hcli _ (by simp), ?_⟩
        rintro ⟨a', m', r', q, g1, g2, g3, g4⟩
        have := sent_cost hi k r g3 g4
        simp only [Conn.cost, Conn.cliStep]; omega
      · rename_i hno
        refine ⟨Nat.le_refl _, ?_⟩
        rintro ⟨a', m', r', q, g1, g2, g3, g4⟩
        rw [hak] at g1; cases g1
        exact absurd g2 (hno _ _)
    · rename_i hak
      refine ⟨Nat.le_refl _, ?_⟩
      rintro ⟨a', m', r', q, g1, -⟩
      rw [hak] at g1; cases g1
  | wake k =>
    refine ⟨hcli _ (by simp), ?_⟩
    rintro ⟨q, g1, g2, g3⟩
    have := wake_cost hi k g1 g2 g3
    simp only [Conn.step, Conn.cost, Conn.cliStep]; omega
  | timeout k => exact ⟨hcli _ (by simp), fun h => h.elim⟩
  | cancel k =>
    refine ⟨?_, fun h => h.elim⟩
    simp only [Conn.step]
    split
    · rename_i a hak
      have h1 := hcli (.cancel k) (by simp)
      have h2 := x.up.cost_drop hf.up 16410 a.call (fun s hs hh => by
        refine hb ⟨rfl, x, a, s, hx, hak, hs, ?_⟩
        obtain ⟨mo, ph⟩ := s
        cases ph with
        | taken => exact Or.inl rfl
        | writing r => exact Or.inr ⟨r, rfl⟩
        | _ => exact hh.elim)
      simp only [Conn.cost, Conn.cliStep] at h1 ⊢
      omega
    · exact Nat.le_refl _
  | shutdown => exact absurd rfl b1
  | upSend e =>
    simp only [Conn.step]
    split
    · rename_i he
      have := x.up.cost_progress L hu 16410 (internal_progress he (fun k hk => b5 k (by rw [hk])))
      simp only [Conn.cost]
      refine ⟨by omega, fun h => ?_⟩
      have := this.2 h
      omega
    · rename_i he
      exact ⟨Nat.le_refl _, fun h => absurd (SEv.progress_internal (Moves.progress h)) he⟩
  | upArrive b =>
    by_cases hp : arrived x.up.net ++ b <+: x.up.snd.wire
    · have := x.up.cost_arrive 16410 hp
      simp only [Conn.step, Conn.cost]
      refine ⟨by omega, fun h => ?_⟩
      have := this.2 h.1
      omega
    · exact absurd ⟨rfl, x, hx, hp⟩ hb
  | upClose => exact absurd rfl b3
  | downSend e =>
    simp only [Conn.step, hf.here, Bool.not_false, Bool.and_true]
    split
    · rename_i he
      have := x.down.cost_progress L hd 1 (internal_progress he (fun k hk => b6 k (by rw [hk])))
      simp only [Conn.cost]
      refine ⟨by omega, fun h => ?_⟩
      have := this.2 h
      omega
    · rename_i he
      exact ⟨Nat.le_refl _, fun h => absurd (SEv.progress_internal (Moves.progress h)) he⟩
  | downRetry k =>
    refine hsame (fun h => h.elim) ?_
    simp only [Conn.step, hf.here, Bool.false_eq_true, if_false]
    split
    · split
      · rename_i er hk
        exact absurd (show SPhase.bad (.done (.error er)) from trivial) (hd.fine.clean.2 _ _ hk)
      · rfl
    · rfl
  | downShutdown => exact absurd rfl b2
  | downArrive b =>
    by_cases hp : arrived x.down.net ++ b <+: x.down.snd.wire
    · have := x.down.cost_arrive 1 hp
      simp only [Conn.step, Conn.cost]
      refine ⟨by omega, fun h => ?_⟩
      have := this.2 h.1
      omega
    · exact absurd ⟨rfl, x, hx, hp⟩ hb
  | downClose => exact absurd rfl b4
  | poll =>
    obtain ⟨p1, p2⟩ := x.down.cost_poll L hd 1
    simp only [Conn.step]
    split
    · rename_i m hp
      have h1 := p1 m hp
      have h2 := hcli (.arrive m) (by simp)
      simp only [Conn.cost, Conn.cliStep] at h2 ⊢
      exact ⟨by omega, fun _ => by omega⟩
    · rename_i hp
      have h1 := p2 (by rw [hp]; rfl)
      have h2 := hcli .connEnd (by simp)
      simp only [Conn.cost, Conn.cliStep] at h2 ⊢
      refine ⟨by omega, ?_⟩
      rintro ⟨m, hm⟩
      rw [hp] at hm; cases hm
    · rename_i g1 g2
      have h1 := p2 (by
        cases hp : x.down.rcv.poll.1 with
        | item m => exact absurd hp (g1 m)
        | _ => rfl)
      simp only [Conn.cost]
      refine ⟨by omega, ?_⟩
      rintro ⟨m, hm⟩
      exact absurd hm (g1 m)

theorem Conn.cost_reply (x : Conn S) (id : String) (o : Res Resp) : (x.reply id o).cost = x.cost + 16392 := by
  cases o with
  | ok r => simp only [Conn.reply, Conn.cost, Link.cost_call]; omega
  | error e => simp only [Conn.reply, Conn.cost, Link.cost_call]; omega

/-- One event in the world. -/
theorem cost_step (L : S.Lawful) (evs : List (WEv S)) (c : Nat) (x : Conn S) (hx : (World.run E S st evs).conns[c]? = some x) (hf : x.Fine) (ev : WEv S)
    (hb : ¬ (World.run E S st evs).Breaks c ev) (ha : ∀ id q, ev ≠ .net c (.ask id q)) :
    ((World.run E S st evs).step ev).cost c ≤ (World.run E S st evs).cost c ∧
      ((World.run E S st evs).Moves c ev → ((World.run E S st evs).step ev).cost c < (World.run E S st evs).cost c) := by
  obtain ⟨hu, hd⟩ := fine_good L hx hf
  have hlt := (List.getElem?_eq_some_iff.mp hx).1
  have hw := worldInv_run (S := S) st evs
  have hc := hw.conns c x hx
  have hwi : ∀ t ∈ (World.run E S st evs).sys.threads, t.prog.Within 16 := by rw [hw.sys]; exact within_run st _
  have hwi' : ∀ d m, ∀ t ∈ ((World.run E S st evs).sys.step (.recv d m)).threads, t.prog.Within 16 := by
    intro d m; rw [hw.sys, run_snoc_sys]; exact within_run st _
  generalize World.run E S st evs = w at *
  cases ev with
  | connect u d =>
    refine ⟨?_, fun h => h.elim⟩
    have hx' : (w.step (.connect u d)).conns[c]? = some x := by simp only [World.step]; rw [List.getElem?_append_left hlt]; exact hx
    rw [World.cost_of hx', World.cost_of hx]
    exact Nat.le_refl _
  | restart => exact absurd trivial hb
  | net d e =>
    by_cases hdc : d = c
    · subst hdc
      have hx' : (w.step (.net d e)).conns[d]? = some (x.step e) := by simp only [World.step]; rw [List.getElem?_modify, hx]; simp
      have := x.cost_step L hx hc hf hu hd e hb (fun id q he => ha id q (by rw [he]))
      rw [World.cost_of hx', World.cost_of hx]
      show _ + total (threadCost d) w.sys.threads ≤ _ ∧ (_ → _ + total (threadCost d) w.sys.threads < _)
      refine ⟨by omega, ?_⟩
      rintro ⟨-, y, hy, hm⟩
      rw [hx] at hy; cases hy
      have := this.2 hm
      omega
    · have hx' : (w.step (.net d e)).conns[c]? = some x := by simp only [World.step]; rw [List.getElem?_modify, hx]; simp [hdc]
      rw [World.cost_of hx', World.cost_of hx]
      exact ⟨Nat.le_refl _, fun h => absurd h.1 hdc⟩
  | serve d =>
    by_cases hdc : d = c
    · subst hdc
      obtain ⟨p1, p2⟩ := x.up.cost_poll L hu 16410
      cases hp : x.up.rcv.poll.1 with
      | item m =>
        have hst : w.step (.serve d) = ({ w with conns := w.conns.modify d (fun x => { x with up := x.up.poll }) } : World E S).sysStep (.recv d m) := by
          simp only [World.step, hx, hf.here, hp, Bool.false_eq_true, if_false]
        have hx' : (w.step (.serve d)).conns[d]? = some { x with up := x.up.poll } := by
          rw [hst]
          show (w.conns.modify d _)[d]? = _
          rw [List.getElem?_modify, hx]; simp
        have h1 := p1 m hp
        have : (w.step (.serve d)).cost d < w.cost d := by
          rw [World.cost_of hx', World.cost_of hx, hst]
          simp only [World.sysStep, Sys.step, total_append, total, threadCost, if_true, Conn.cost]
          have := Prog.depth_le (handle E d m) 16
          omega
        exact ⟨Nat.le_of_lt this, fun _ => this⟩
      | _ =>
        have hst : w.step (.serve d) = { w with conns := w.conns.modify d (fun x => { x with up := x.up.poll }) } := by
          simp only [World.step, hx, hf.here, hp, Bool.false_eq_true, if_false]
        have hx' : (w.step (.serve d)).conns[d]? = some { x with up := x.up.poll } := by
          rw [hst]
          show (w.conns.modify d _)[d]? = _
          rw [List.getElem?_modify, hx]; simp
        have h1 := p2 (by rw [hp]; rfl)
        rw [World.cost_of hx', World.cost_of hx, hst]
        simp only [Conn.cost]
        refine ⟨by omega, ?_⟩
        rintro ⟨-, y, m, hy, hm⟩
        rw [hx] at hy; cases hy
        rw [hp] at hm; cases hm
    · refine ⟨Nat.le_of_eq ?_, fun h => absurd h.1 hdc⟩
      have hmod : (w.conns.modify d (fun x => { x with up := x.up.poll }))[c]? = some x := by
        rw [List.getElem?_modify, hx]; simp [hdc]
      simp only [World.step]
      split
      · rfl
      · split
        · rfl
        · split
          · rename_i m hp
            rw [World.cost_of (x := x) hmod, World.cost_of hx]
            simp only [World.sysStep, Sys.step, total_append, total, threadCost, if_neg hdc]
            omega
          · rw [World.cost_of (x := x) hmod, World.cost_of hx]
  | act i ch =>
    simp only [World.step]
    split
    · rename_i ht
      have hs : w.sys.step (.step i ch) = w.sys := by simp only [Sys.step, ht]
      rw [World.cost_of (w := w.sysStep (.step i ch)) (x := x) hx, World.cost_of hx]
      simp only [World.sysStep, hs]
      refine ⟨Nat.le_refl _, ?_⟩
      rintro ⟨t, ht', -⟩
      rw [ht] at ht'; cases ht'
    · rename_i t ht
      have hwt := hwi t (List.mem_of_getElem? ht)
      split
      · rename_i o ho
        have hthr : (w.sys.step (.step i ch)).threads = w.sys.threads.eraseIdx i := by
          simp only [Sys.step, ht]
          cases hp : t.prog with
          | ret r => rfl
          | fail r => rfl
          | step a k => rw [hp] at ho; cases ho
        have he := total_erase (threadCost c) ht
        by_cases htc : t.conn = c
        · have hx' : (w.conns.modify t.conn (fun x => x.reply t.msg.id o))[c]? = some (x.reply t.msg.id o) := by
            rw [List.getElem?_modify, hx]; simp [htc]
          have : World.cost { w.sysStep (.step i ch) with conns := w.conns.modify t.conn (fun x => x.reply t.msg.id o) } c < w.cost c := by
            rw [World.cost_of (w := { w.sysStep (.step i ch) with conns := w.conns.modify t.conn (fun x => x.reply t.msg.id o) }) hx', World.cost_of hx]
            simp only [World.sysStep, hthr, Conn.cost_reply]
            have hv : threadCost c t = t.prog.depth 16 + 16393 := by simp only [threadCost, if_pos htc]
            omega
          exact ⟨Nat.le_of_lt this, fun _ => this⟩
        · have hx' : (w.conns.modify t.conn (fun x => x.reply t.msg.id o))[c]? = some x := by
            rw [List.getElem?_modify, hx]; simp [htc]
          rw [World.cost_of (w := { w.sysStep (.step i ch) with conns := w.conns.modify t.conn (fun x => x.reply t.msg.id o) }) hx', World.cost_of hx]
          simp only [World.sysStep, hthr]
          refine ⟨by omega, ?_⟩
          rintro ⟨t', ht', htc'⟩
          rw [ht] at ht'; cases ht'
          exact absurd htc' htc
      · rename_i ho
        cases hp : t.prog with
        | ret r => rw [hp] at ho; cases ho
        | fail r => rw [hp] at ho; cases ho
        | step a k =>
          have hs : (w.sys.step (.step i ch)).threads = w.sys.threads.set i { t with log := t.log ++ (exec t.conn ch w.sys.sh a).2.2, prog := k (exec t.conn ch w.sys.sh a).1 } := by
            rw [step_act _ _ ch _ _ _ ht hp]; rfl
          have he := total_set (threadCost c) (b := { t with log := t.log ++ (exec t.conn ch w.sys.sh a).2.2, prog := k (exec t.conn ch w.sys.sh a).1 }) ht
          rw [hp] at hwt
          have hdn := Prog.depth_next hwt (exec t.conn ch w.sys.sh a).1
          rw [World.cost_of (w := w.sysStep (.step i ch)) (x := x) hx, World.cost_of hx]
          simp only [World.sysStep, hs]
          simp only [threadCost] at he
          by_cases htc : t.conn = c
          · simp only [if_pos htc, hp] at he
            exact ⟨by omega, fun _ => by omega⟩
          · simp only [if_neg htc] at he
            refine ⟨by omega, ?_⟩
            rintro ⟨t', ht', htc'⟩
            rw [ht] at ht'; cases ht'
            exact absurd htc' htc

end Lair
