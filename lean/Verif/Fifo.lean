import Verif.Props.Progress

/- One direction of a connection, for ever: what was given to the sending half comes out at the other end, however much is sent besides (used for C89). -/
namespace Lair

variable {S : SStream} {E : Env} {st : E.S.σ}

/-- The call an event of a sending half is about. Proof device: nothing in the code corresponds. -/
def SEv.idx : SEv → Nat
  | .call _ => 0
  | .acquire k => k
  | .push k => k
  | .write k _ => k
  | .ioErr k => k
  | .drop k => k

/-- SPECIFICATION: the semaphore of the sending half is fair: the call that gets the permit is the one that has waited longest
    (inner.rs:61-63 `limit.acquire_owned()`; tokio's semaphore serves its waiters in order). -/
def SndSt.InTurn (s : SndSt S) : SEv → Prop
  | .acquire k => ∀ (i : Nat) (c : SCall), i < k → s.calls[i]? = some c → c.phase ≠ .waiting
  | _ => True

/-- One step of a direction. Proof device: nothing in the code corresponds. -/
inductive LStep (l : Link S) : Link S → Prop where
  | same : LStep l l
  | prog {e} : e.progress = true → l.snd.InTurn e → LStep l (l.send e)
  | call {m} : LStep l (l.send (.call (some m)))
  | drop {k} : (∀ c, l.snd.calls[k]? = some c → ¬ c.phase.holding) → LStep l (l.send (.drop k))
  | arrive {b} : LStep l (l.arrive b)
  | poll : LStep l l.poll

theorem step_other (s : SndSt S) {e : SEv} (he : e.progress = true) {j : Nat} (hne : e.idx ≠ j) : (s.step e).calls[j]? = s.calls[j]? := by
  have hset : ∀ (t : SndSt S) (k : Nat) (p : SPhase), t.calls = s.calls → k ≠ j → (t.set k p).calls[j]? = s.calls[j]? := by
    intro t k p ht hk
    rw [SndSt.set_get, ht]
    cases s.calls[j]? <;> simp [hk]
  cases e with
  | acquire k =>
    simp only [SndSt.step]
    split
    · split
      · rfl
      · split
        · exact hset s k _ rfl hne
        · exact hset s k _ rfl hne
    · rfl
  | push k =>
    simp only [SndSt.step]
    split
    · split
      · exact hset _ k _ rfl hne
      · split
        · exact hset _ k _ rfl hne
        · exact hset _ k _ rfl hne
    · exact hset _ k _ rfl hne
    · rfl
  | write k n =>
    simp only [SndSt.step]
    split
    · split
      · exact hset _ k _ rfl hne
      · exact hset _ k _ rfl hne
    · rfl
  | _ => cases he

theorem Link.Good.sender {l : Link S} (h : l.Good) (hp : l.snd.permit = none) : l.snd.sender = true := by
  cases hs : l.snd.sender with
  | true => rfl
  | false =>
    obtain ⟨j, c, hj, hb⟩ := h.snt.inv.lost hs hp
    exact absurd (show c.phase.bad by rw [hb]; trivial) (h.fine.clean.2 j c hj)

/-- An event that is about this call brings it no further from its end; when it ends the permit is free. -/
theorem step_own (L : S.Lawful) {l : Link S} (h : l.Good) {e : SEv} (he : e.progress = true) {mo : Option Msg} {ph : SPhase}
    (hk : l.snd.calls[e.idx]? = some ⟨mo, ph⟩) :
    ∃ ph', (l.snd.step e).calls[e.idx]? = some ⟨mo, ph'⟩ ∧ SCall.cost 0 ⟨mo, ph'⟩ ≤ SCall.cost 0 ⟨mo, ph⟩ ∧
      (l.snd.Moves e → SCall.cost 0 ⟨mo, ph'⟩ < SCall.cost 0 ⟨mo, ph⟩) ∧ (∀ r, ph' = .done r → ph = .done r ∨ (l.snd.step e).permit = none) := by
  have same : l.snd.step e = l.snd → ¬ l.snd.Moves e → ∃ ph', (l.snd.step e).calls[e.idx]? = some ⟨mo, ph'⟩ ∧
      SCall.cost 0 ⟨mo, ph'⟩ ≤ SCall.cost 0 ⟨mo, ph⟩ ∧
      (l.snd.Moves e → SCall.cost 0 ⟨mo, ph'⟩ < SCall.cost 0 ⟨mo, ph⟩) ∧ (∀ r, ph' = .done r → ph = .done r ∨ (l.snd.step e).permit = none) := by
    intro h1 h2
    refine ⟨ph, by rw [h1]; exact hk, Nat.le_refl _, fun h => absurd h h2, fun r hr => Or.inl hr⟩
  cases e with
  | acquire k =>
    simp only [SEv.idx] at hk same ⊢
    by_cases hm : l.snd.Moves (.acquire k)
    · obtain ⟨hp, m', hk'⟩ := hm
      rw [hk'] at hk; cases hk
      have hst : l.snd.step (.acquire k) = { l.snd.set k .taken with sender := false, permit := some k } := by
        simp [SndSt.step, hk', hp, h.sender hp]
      refine ⟨.taken, ?_, ?_, ?_, by simp⟩
      · rw [hst]
        have := l.snd.set_call k .taken hk'
        simpa using this
      · simp [SCall.cost]
      · simp [SCall.cost]
    · refine same ?_ hm
      simp only [SndSt.step]
      split
      · rename_i m0 h0
        split
        · rfl
        · rename_i hp
          exact absurd ⟨hp, _, h0⟩ hm
      · rfl
  | push k =>
    simp only [SEv.idx] at hk same ⊢
    by_cases hm : l.snd.Moves (.push k)
    · obtain ⟨m', hk'⟩ := hm
      rw [hk'] at hk; cases hk
      obtain ⟨m, hmm, hf⟩ := h.fine.msg hk' (by simp)
      simp only at hmm; subst hmm
      have hst : l.snd.step (.push k) = { l.snd with enc := (S.push l.snd.enc (Codec.encodeMsg m)).2 }.set k
          (.writing (frame (S.push l.snd.enc (Codec.encodeMsg m)).1)) := by
        simp [SndSt.step, hk', frameBytes_of_fits L hf, h.fine.working]
      have hl := frame_len L hf l.snd.enc
      refine ⟨.writing (frame (S.push l.snd.enc (Codec.encodeMsg m)).1), ?_, ?_, ?_, by simp⟩
      · rw [hst]
        have := SndSt.set_call { l.snd with enc := (S.push l.snd.enc (Codec.encodeMsg m)).2 } k (.writing (frame (S.push l.snd.enc (Codec.encodeMsg m)).1)) hk'
        simpa using this
      · simp only [SCall.cost]; omega
      · simp only [SCall.cost]; omega
    · refine same ?_ hm
      simp only [SndSt.step]
      split
      · rename_i m0 h0; exact absurd ⟨_, h0⟩ hm
      · rename_i h0; exact absurd ⟨_, h0⟩ hm
      · rfl
  | write k n =>
    simp only [SEv.idx] at hk same ⊢
    by_cases hw : ∃ r, ph = .writing r
    · obtain ⟨r, rfl⟩ := hw
      by_cases hl : r.length ≤ n
      · have hst : l.snd.step (.write k n) = ({ l.snd with wire := l.snd.wire ++ r.take n }).release k (.ok ()) := by
          simp [SndSt.step, hk, hl]
        refine ⟨.done (.ok ()), ?_, ?_, ?_, fun r _ => Or.inr ?_⟩
        · rw [hst, SndSt.release_get]
          show Option.map _ (l.snd.calls[k]?) = _
          rw [hk]; simp
        · simp [SCall.cost]
        · simp [SCall.cost]
        · rw [hst]; rfl
      · have hst : l.snd.step (.write k n) = ({ l.snd with wire := l.snd.wire ++ r.take n }).set k (.writing (r.drop n)) := by
          simp [SndSt.step, hk, hl]
        refine ⟨.writing (r.drop n), ?_, ?_, ?_, by simp⟩
        · rw [hst]
          have := SndSt.set_call { l.snd with wire := l.snd.wire ++ r.take n } k (.writing (r.drop n)) hk
          simpa using this
        · simp only [SCall.cost, List.length_drop]; omega
        · rintro ⟨hn, -⟩
          simp only [SCall.cost, List.length_drop]; omega
    · refine same ?_ ?_
      · simp only [SndSt.step, hk]
        split
        · rename_i h0; cases h0; exact absurd ⟨_, rfl⟩ hw
        · rfl
      · rintro ⟨-, m0, r0, h0⟩
        rw [hk] at h0; cases h0
        exact hw ⟨_, rfl⟩
  | _ => cases he

/-- The call with the permit has no waiting call before it. Proof device: nothing in the code corresponds. -/
def SndSt.Front (s : SndSt S) : Prop :=
  ∀ i, s.permit = some i → ∀ (j : Nat) (c : SCall), j < i → s.calls[j]? = some c → c.phase ≠ .waiting

theorem permit_step (s : SndSt S) (e : SEv) : (s.step e).permit = s.permit ∨ (s.step e).permit = none ∨ ∃ k, e = .acquire k ∧ (s.step e).permit = some k := by
  cases e with
  | call m => exact Or.inl rfl
  | acquire k =>
    simp only [SndSt.step]
    split
    · split
      · exact Or.inl rfl
      · split
        · exact Or.inr (Or.inr ⟨k, rfl, rfl⟩)
        · exact Or.inl rfl
    · exact Or.inl rfl
  | push k =>
    simp only [SndSt.step]
    split
    · split
      · exact Or.inr (Or.inl rfl)
      · split
        · exact Or.inr (Or.inl rfl)
        · exact Or.inl rfl
    · exact Or.inr (Or.inl rfl)
    · exact Or.inl rfl
  | write k n =>
    simp only [SndSt.step]
    split
    · split
      · exact Or.inr (Or.inl rfl)
      · exact Or.inl rfl
    · exact Or.inl rfl
  | ioErr k =>
    simp only [SndSt.step]
    split
    · exact Or.inr (Or.inl rfl)
    · exact Or.inr (Or.inl rfl)
    · exact Or.inl rfl
  | drop k =>
    simp only [SndSt.step]
    split
    · exact Or.inl rfl
    · exact Or.inr (Or.inl rfl)
    · exact Or.inr (Or.inl rfl)
    · exact Or.inl rfl

theorem Front.step {s : SndSt S} (h : s.Front) (hi : SndInv s) (e : SEv) (ht : s.InTurn e) : (s.step e).Front := by
  have back : ∀ i, (s.step e).permit = some i → ((s.step e).permit = s.permit ∨ e = .acquire i) := by
    intro i hp
    rcases permit_step s e with h1 | h1 | ⟨k, h1, h2⟩
    · exact Or.inl h1
    · rw [h1] at hp; cases hp
    · rw [hp] at h2; cases h2; exact Or.inr h1
  intro i hp j c hj hc hw
  obtain ⟨mo, ph⟩ := c
  simp only at hw; subst hw
  have hold : ∀ {ph0 : SPhase}, s.calls[j]? = some ⟨mo, ph0⟩ → ph0 = .waiting := by
    intro ph0 h0
    obtain ⟨ph', h1, hm⟩ := s.step_move e h0
    rw [hc] at h1; cases h1
    cases hm; rfl
  rcases back i hp with h1 | rfl
  · rw [h1] at hp
    rcases s.call_of_step e hc with ⟨ph0, h0⟩ | ⟨-, rfl⟩
    · exact h i hp j _ hj h0 (hold h0)
    · obtain ⟨ci, hci, -⟩ := hi.held i hp
      have := (List.getElem?_eq_some_iff.mp hci).1
      omega
  · rcases s.call_of_step _ hc with ⟨ph0, h0⟩ | ⟨h0, -⟩
    · exact ht j _ hj h0 (hold h0)
    · cases h0

/-! ### For ever -/

/-- One direction of a connection on which nothing goes wrong, from its beginning, for ever. Proof device: nothing in the code corresponds. -/
structure Trace (l : Nat → Link S) (s0 : S.St) : Prop where
  start : l 0 = Link.init s0
  good : ∀ n, (l n).Good
  pushed : ∀ n, Pushed (l n)
  step : ∀ n, LStep (l n) (l (n + 1))
  fairS : ∀ n, (∃ e, (l n).snd.Moves e) → ∃ m, n ≤ m ∧ ∃ e, (l m).snd.Moves e ∧ (l m).snd.InTurn e ∧ l (m + 1) = (l m).send e
  fairA : ∀ n, (∃ b, b ≠ [] ∧ arrived (l n).net ++ b <+: (l n).snd.wire) → ∃ m, n ≤ m ∧ ∃ b, b ≠ [] ∧ l (m + 1) = (l m).arrive b
  fairP : ∀ n, (∃ i, (l n).rcv.poll.1 = .item i) → ∃ m, n ≤ m ∧ (∃ i, (l m).rcv.poll.1 = .item i) ∧ l (m + 1) = (l m).poll

/-- Over: done or given up. Proof device: nothing in the code corresponds. -/
def SPhase.over : SPhase → Prop
  | .done _ => True
  | .dropped _ => True
  | .panicked => True
  | _ => False

theorem Trace.front {l : Nat → Link S} {s0 : S.St} (h : Trace l s0) : ∀ n, (l n).snd.Front := by
  intro n
  induction n with
  | zero => rw [h.start]; intro i hp; cases hp
  | succ n ih =>
    have hi := (h.good n).snt.inv
    have hs := h.step n
    revert hs
    generalize l (n + 1) = l'
    intro hs
    cases hs with
    | same => exact ih
    | prog he ht => exact Front.step ih hi _ ht
    | call => exact Front.step ih hi _ trivial
    | drop _ => exact Front.step ih hi _ trivial
    | arrive => exact ih
    | poll => exact ih

/-- A call in the next state: its cost is not higher; over stays over, in the same way. -/
theorem LStep.call_next (L : S.Lawful) {l l' : Link S} (h : l.Good) (hs : LStep l l') {j : Nat} {mo : Option Msg} {ph : SPhase}
    (hj : l.snd.calls[j]? = some ⟨mo, ph⟩) : ∃ ph', l'.snd.calls[j]? = some ⟨mo, ph'⟩ ∧ SCall.cost 0 ⟨mo, ph'⟩ ≤ SCall.cost 0 ⟨mo, ph⟩ ∧
      (ph.over → ph' = ph) ∧ (∀ r, ph' = .done r → ph = .done r ∨ l'.snd.permit = none) := by
  have fin : ∀ e : SEv, ph.over → ∀ ph', (l.snd.step e).calls[j]? = some ⟨mo, ph'⟩ → (∀ er, ph' ≠ .done (.error er)) → (e = .drop j → False) → ph' = ph := by
    intro e ho ph' h1 h2 h3
    obtain ⟨ph2, g1, g2⟩ := l.snd.step_move e hj
    rw [h1] at g1; cases g1
    cases g2 with
    | same => rfl
    | failed => exact absurd rfl (h2 _)
    | drop he => exact (h3 he).elim
    | _ => exact ho.elim
  have unch : ∃ ph', l.snd.calls[j]? = some ⟨mo, ph'⟩ ∧ SCall.cost 0 ⟨mo, ph'⟩ ≤ SCall.cost 0 ⟨mo, ph⟩ ∧ (ph.over → ph' = ph) ∧
      (∀ r, ph' = .done r → ph = .done r ∨ l.snd.permit = none) := ⟨ph, hj, Nat.le_refl _, fun _ => rfl, fun r hr => Or.inl hr⟩
  cases hs with
  | same => exact unch
  | arrive => exact unch
  | poll => exact unch
  | call =>
    refine ⟨ph, ?_, Nat.le_refl _, fun _ => rfl, fun r hr => Or.inl hr⟩
    show (l.snd.calls ++ _)[j]? = _
    rw [List.getElem?_append_left (List.getElem?_eq_some_iff.mp hj).1]; exact hj
  | @prog e he ht =>
    by_cases hidx : e.idx = j
    · subst hidx
      obtain ⟨ph', g1, g2, -, g4⟩ := step_own L h he hj
      refine ⟨ph', g1, g2, fun ho => ?_, g4⟩
      have hg := h.progress L he
      refine fin e ho ph' g1 (fun er hr => ?_) (by cases e <;> simp_all [SEv.progress])
      subst hr
      exact hg.fine.clean.2 _ _ g1 trivial
    · refine ⟨ph, ?_, Nat.le_refl _, fun _ => rfl, fun r hr => Or.inl hr⟩
      show (l.snd.step e).calls[j]? = _
      rw [step_other l.snd he hidx]; exact hj
  | @drop k hn =>
    by_cases hkj : k = j
    · subst hkj
      by_cases hw : ph = .waiting
      · subst hw
        refine ⟨.dropped false, ?_, ?_, fun ho => ho.elim, by simp⟩
        · show (l.snd.step (.drop k)).calls[k]? = _
          simp only [SndSt.step, hj]
          have := l.snd.set_call k (.dropped false) hj
          simpa using this
        · simp [SCall.cost]
      · refine ⟨ph, ?_, Nat.le_refl _, fun _ => rfl, fun r hr => Or.inl hr⟩
        have := hn _ hj
        show (l.snd.step (.drop k)).calls[k]? = _
        have hst : l.snd.step (.drop k) = l.snd := by
          cases ph with
          | waiting => exact absurd rfl hw
          | taken => exact absurd trivial this
          | writing r => exact absurd trivial this
          | done r => simp [SndSt.step, hj]
          | dropped b => simp [SndSt.step, hj]
          | panicked => simp [SndSt.step, hj]
        rw [hst]; exact hj
    · refine ⟨ph, ?_, Nat.le_refl _, fun _ => rfl, fun r hr => Or.inl hr⟩
      show (l.snd.step (.drop k)).calls[j]? = _
      simp only [SndSt.step]
      split
      · rw [l.snd.set_call k _ hj]; simp [hkj]
      · rw [show ∀ s : SndSt S, ({ s.set k (.dropped true) with permit := none } : SndSt S).calls = (s.set k (.dropped true)).calls from fun _ => rfl,
          l.snd.set_call k _ hj]; simp [hkj]
      · rw [show ∀ s : SndSt S, ({ s.set k (.dropped true) with permit := none } : SndSt S).calls = (s.set k (.dropped true)).calls from fun _ => rfl,
          l.snd.set_call k _ hj]; simp [hkj]
      · exact hj

theorem Trace.later (L : S.Lawful) {l : Nat → Link S} {s0 : S.St} (h : Trace l s0) {j n : Nat} {mo : Option Msg} {ph : SPhase}
    (hj : (l n).snd.calls[j]? = some ⟨mo, ph⟩) (d : Nat) : ∃ ph', (l (n + d)).snd.calls[j]? = some ⟨mo, ph'⟩ ∧
      SCall.cost 0 ⟨mo, ph'⟩ ≤ SCall.cost 0 ⟨mo, ph⟩ ∧ (ph.over → ph' = ph) := by
  induction d with
  | zero => exact ⟨ph, hj, Nat.le_refl _, fun _ => rfl⟩
  | succ d ih =>
    obtain ⟨ph1, g1, g2, g3⟩ := ih
    obtain ⟨ph2, k1, k2, k3, -⟩ := (h.step (n + d)).call_next L (h.good (n + d)) g1
    refine ⟨ph2, k1, Nat.le_trans k2 g2, fun ho => ?_⟩
    have := g3 ho
    subst this
    exact k3 ho

theorem over_of_cost {mo : Option Msg} {ph : SPhase} (h : SCall.cost 0 ⟨mo, ph⟩ = 0) : ph.over := by
  cases ph <;> first | trivial | (simp [SCall.cost] at h)

theorem unfinished_of {ph : SPhase} (h : ¬ ph.over) : ph = .waiting ∨ ph.holding := by
  cases ph with
  | waiting => exact Or.inl rfl
  | taken => exact Or.inr trivial
  | writing r => exact Or.inr trivial
  | _ => exact absurd trivial h

/-- While the earlier calls are over, what moves is this call. -/
theorem moves_first {s : SndSt S} (hi : SndInv s) (hf : s.Front) {j : Nat} {mo : Option Msg} {ph : SPhase} (hj : s.calls[j]? = some ⟨mo, ph⟩)
    (ho : ¬ ph.over) (hb : ∀ (i : Nat) (c : SCall), i < j → s.calls[i]? = some c → c.phase.over) {e : SEv} (hm : s.Moves e) (ht : s.InTurn e) :
    e.idx = j := by
  have hold : ∀ (i : Nat) (c : SCall), s.calls[i]? = some c → c.phase.holding → i = j := by
    intro i c hc hh
    have hp := hi.perm i c hc hh
    rcases Nat.lt_trichotomy i j with hlt | rfl | hlt
    · have := hb i c hlt hc
      cases hph : c.phase <;> rw [hph] at this hh <;> first | exact this.elim | exact hh.elim
    · rfl
    · rcases unfinished_of ho with rfl | hh'
      · exact absurd rfl (hf i hp j _ hlt hj)
      · have := hi.perm j _ hj hh'
        rw [hp] at this; cases this; rfl
  cases e with
  | acquire k =>
    obtain ⟨hp, m', hk⟩ := hm
    rcases Nat.lt_trichotomy k j with hlt | rfl | hlt
    · exact (hb k _ hlt hk).elim
    · rfl
    · rcases unfinished_of ho with rfl | hh'
      · exact absurd rfl (ht j _ hlt hj)
      · have := hi.perm j _ hj hh'
        rw [hp] at this; cases this
  | push k => obtain ⟨m', hk⟩ := hm; exact hold k _ hk trivial
  | write k n => obtain ⟨-, m', r, hk⟩ := hm; exact hold k _ hk trivial
  | _ => exact hm.elim

theorem can_move {l : Link S} (h : l.Good) {j : Nat} {mo : Option Msg} {ph : SPhase} (hj : l.snd.calls[j]? = some ⟨mo, ph⟩) (ho : ¬ ph.over) :
    ∃ e, l.snd.Moves e := by
  have held : ∀ j, l.snd.permit = some j → ∃ e, l.snd.Moves e := by
    intro j hp
    obtain ⟨⟨mo, ph⟩, hj, hh⟩ := h.snt.inv.held j hp
    cases ph with
    | taken => exact ⟨.push j, mo, hj⟩
    | writing r => exact ⟨.write j 1, Nat.one_pos, mo, r, hj⟩
    | _ => exact hh.elim
  rcases unfinished_of ho with rfl | hh
  · cases hp : l.snd.permit with
    | none => exact ⟨.acquire j, hp, mo, hj⟩
    | some i => exact held i hp
  · exact held j (h.snt.inv.perm j _ hj hh)

/-- Every call comes to its end. -/
theorem Trace.ends (L : S.Lawful) {l : Nat → Link S} {s0 : S.St} (h : Trace l s0) : ∀ (j n : Nat) (mo : Option Msg) (ph : SPhase),
    (l n).snd.calls[j]? = some ⟨mo, ph⟩ → ∃ T ph', n ≤ T ∧ (l T).snd.calls[j]? = some ⟨mo, ph'⟩ ∧ ph'.over := by
  intro j
  induction j using Nat.strongRecOn with
  | ind j ih =>
    -- all earlier calls
    have early : ∀ i, i ≤ j → ∀ n, j < (l n).snd.calls.length → ∃ T, n ≤ T ∧ ∀ (i' : Nat) (c : SCall), i' < i → (l T).snd.calls[i']? = some c → c.phase.over := by
      intro i
      induction i with
      | zero => intro _ n _; exact ⟨n, Nat.le_refl _, fun i' c hi' => absurd hi' (by omega)⟩
      | succ i ihi =>
        intro hij n hn
        obtain ⟨T, hT, hb⟩ := ihi (by omega) n hn
        have hlenT : j < (l T).snd.calls.length := by
          obtain ⟨ph1, g1, -⟩ := h.later L (n := n) (j := j) (mo := (l n).snd.calls[j].msg) (ph := (l n).snd.calls[j].phase) (List.getElem?_eq_getElem hn) (T - n)
          rw [show n + (T - n) = T by omega] at g1
          exact (List.getElem?_eq_some_iff.mp g1).1
        have hi : i < (l T).snd.calls.length := by omega
        obtain ⟨T2, ph2, hT2, g1, g2⟩ := ih i (by omega) T (l T).snd.calls[i].msg (l T).snd.calls[i].phase (List.getElem?_eq_getElem hi)
        refine ⟨T2, Nat.le_trans hT hT2, fun i' c hi' hc => ?_⟩
        by_cases hii : i' = i
        · subst hii
          rw [g1] at hc; cases hc; exact g2
        · have hi'' : i' < (l T).snd.calls.length := by omega
          have h0 : (l T).snd.calls[i']? = some ⟨(l T).snd.calls[i'].msg, (l T).snd.calls[i'].phase⟩ := List.getElem?_eq_getElem hi''
          have ho := hb i' _ (by omega) h0
          obtain ⟨ph3, k1, -, k3⟩ := h.later L h0 (T2 - T)
          rw [show T + (T2 - T) = T2 by omega, hc] at k1
          cases k1
          have := k3 ho
          simp only [this]
          exact ho
    -- this call
    have main : ∀ N n mo ph, (l n).snd.calls[j]? = some ⟨mo, ph⟩ → (∀ (i : Nat) (c : SCall), i < j → (l n).snd.calls[i]? = some c → c.phase.over) →
        SCall.cost 0 ⟨mo, ph⟩ ≤ N → ∃ T ph', n ≤ T ∧ (l T).snd.calls[j]? = some ⟨mo, ph'⟩ ∧ ph'.over := by
      intro N
      induction N with
      | zero => intro n mo ph hj _ hc; exact ⟨n, ph, Nat.le_refl _, hj, over_of_cost (mo := mo) (Nat.le_zero.mp hc)⟩
      | succ N ihN =>
        intro n mo ph hj hb hc
        by_cases ho : ph.over
        · exact ⟨n, ph, Nat.le_refl _, hj, ho⟩
        obtain ⟨m, hm, e, he, ht, hl⟩ := h.fairS n (can_move (h.good n) hj ho)
        obtain ⟨ph1, g1, g2, -⟩ := h.later L hj (m - n)
        rw [show n + (m - n) = m by omega] at g1
        have hb' : ∀ (i : Nat) (c : SCall), i < j → (l m).snd.calls[i]? = some c → c.phase.over := by
          intro i c hi hci
          have hin : i < (l n).snd.calls.length := by
            have := (List.getElem?_eq_some_iff.mp hj).1
            omega
          have h0 : (l n).snd.calls[i]? = some ⟨(l n).snd.calls[i].msg, (l n).snd.calls[i].phase⟩ := List.getElem?_eq_getElem hin
          have ho := hb i _ hi h0
          obtain ⟨ph3, k1, -, k3⟩ := h.later L h0 (m - n)
          rw [show n + (m - n) = m by omega, hci] at k1
          cases k1
          have := k3 ho
          simp only [this]
          exact ho
        by_cases ho1 : ph1.over
        · exact ⟨m, ph1, hm, g1, ho1⟩
        have hidx := moves_first (h.good m).snt.inv (h.front m) g1 ho1 hb' he ht
        subst hidx
        obtain ⟨ph2, k1, -, k3, -⟩ := step_own L (h.good m) (Moves.progress he) g1
        have k1' : (l (m + 1)).snd.calls[e.idx]? = some ⟨mo, ph2⟩ := by rw [hl]; exact k1
        have hb2 : ∀ (i : Nat) (c : SCall), i < e.idx → (l (m + 1)).snd.calls[i]? = some c → c.phase.over := by
          intro i c hi hci
          rw [hl] at hci
          have : ((l m).snd.step e).calls[i]? = some c := hci
          rw [step_other _ (Moves.progress he) (by omega)] at this
          exact hb' i c hi this
        have := k3 he
        obtain ⟨T, ph', q1, q2, q3⟩ := ihN (m + 1) mo ph2 k1' hb2 (by omega)
        exact ⟨T, ph', by omega, q2, q3⟩
    intro n mo ph hj
    obtain ⟨T, hT, hb⟩ := early j (Nat.le_refl _) n (List.getElem?_eq_some_iff.mp hj).1
    obtain ⟨ph1, g1, -⟩ := h.later L hj (T - n)
    rw [show n + (T - n) = T by omega] at g1
    obtain ⟨T2, ph2, q1, q2, q3⟩ := main _ T mo ph1 g1 hb (Nat.le_refl _)
    exact ⟨T2, ph2, by omega, q2, q3⟩

/-- When a call is done there was a moment when it was done and no other call had the permit. -/
theorem Trace.moment (L : S.Lawful) {l : Nat → Link S} {s0 : S.St} (h : Trace l s0) {j : Nat} {mo : Option Msg} {r : Res Unit} :
    ∀ n, (l n).snd.calls[j]? = some ⟨mo, .done r⟩ → ∃ T, T ≤ n ∧ (l T).snd.calls[j]? = some ⟨mo, .done r⟩ ∧ (l T).snd.permit = none := by
  intro n
  induction n with
  | zero => intro hj; rw [h.start] at hj; simp [Link.init, SndSt.init] at hj
  | succ n ih =>
    intro hj
    cases hjn : (l n).snd.calls[j]? with
    | none =>
      exfalso
      have hs := h.step n
      have hex : ∀ e : SEv, (l (n + 1)).snd = (l n).snd.step e → False := by
        intro e he
        rw [he] at hj
        rcases (l n).snd.call_of_step e hj with ⟨ph', g⟩ | ⟨rfl, rfl⟩
        · rw [hjn] at g; cases g
        · simp [SndSt.step] at hj
      have hsame : (l (n + 1)).snd = (l n).snd → False := by intro he; rw [he, hjn] at hj; cases hj
      revert hs hex hsame
      generalize l (n + 1) = l'
      intro hs hex hsame
      cases hs with
      | same => exact hsame rfl
      | prog _ _ => exact hex _ rfl
      | @call m => exact hex (.call (some m)) rfl
      | @drop k _ => exact hex (.drop k) rfl
      | arrive => exact hsame rfl
      | poll => exact hsame rfl
    | some c =>
      obtain ⟨mo', ph⟩ := c
      obtain ⟨ph', g1, -, -, g4⟩ := (h.step n).call_next L (h.good n) hjn
      rw [hj] at g1; cases g1
      rcases g4 r rfl with rfl | hp
      · obtain ⟨T, h1, h2⟩ := ih hjn
        exact ⟨T, by omega, h2⟩
      · exact ⟨n + 1, Nat.le_refl _, hj, hp⟩

/-! ### Delivery -/

theorem wire_len (L : S.Lawful) (s s' : S.St) (ds : List Bytes) : (S.wire s ds).length = (S.wire s' ds).length := by
  induction ds generalizing s s' with
  | nil => rfl
  | cons d ds ih => simp only [SStream.wire, frame, List.length_append, le16_length, L.push_len]; rw [ih (S.push s d).2 (S.push s' d).2]

theorem wire_step (s : SndSt S) (e : SEv) : s.wire.length ≤ (s.step e).wire.length := by
  cases e with
  | write k n =>
    simp only [SndSt.step]
    split
    · split <;> simp [SndSt.release, SndSt.set]
    · exact Nat.le_refl _
  | _ =>
    refine Nat.le_of_eq ?_
    simp only [SndSt.step]
    repeat' split
    all_goals rfl

/-- What only grows. -/
theorem LStep.grows {l l' : Link S} (hs : LStep l l') : l'.start = l.start ∧ (∃ a, l'.pushed = l.pushed ++ a) ∧ l.snd.wire.length ≤ l'.snd.wire.length ∧
    (∃ a, l'.got = l.got ++ a) ∧ (arrived l.net).length ≤ (arrived l'.net).length := by
  have snd : ∀ e, (l.send e).start = l.start ∧ (∃ a, (l.send e).pushed = l.pushed ++ a) ∧ l.snd.wire.length ≤ (l.send e).snd.wire.length ∧
      (∃ a, (l.send e).got = l.got ++ a) ∧ (arrived l.net).length ≤ (arrived (l.send e).net).length :=
    fun e => ⟨rfl, ⟨_, rfl⟩, wire_step _ _, ⟨[], (List.append_nil _).symm⟩, Nat.le_refl _⟩
  cases hs with
  | same => exact ⟨rfl, ⟨[], (List.append_nil _).symm⟩, Nat.le_refl _, ⟨[], (List.append_nil _).symm⟩, Nat.le_refl _⟩
  | prog _ _ => exact snd _
  | call => exact snd _
  | drop _ => exact snd _
  | arrive => exact ⟨rfl, ⟨[], (List.append_nil _).symm⟩, Nat.le_refl _, ⟨[], (List.append_nil _).symm⟩, by simp [Link.arrive, arrived_append]⟩
  | poll => exact ⟨rfl, ⟨[], (List.append_nil _).symm⟩, Nat.le_refl _, ⟨_, rfl⟩, by simp [Link.poll, arrived_append]⟩

theorem Trace.grows {l : Nat → Link S} {s0 : S.St} (h : Trace l s0) (n d : Nat) : (l (n + d)).start = (l n).start ∧ (∃ a, (l (n + d)).pushed = (l n).pushed ++ a) ∧
    (l n).snd.wire.length ≤ (l (n + d)).snd.wire.length ∧ (∃ a, (l (n + d)).got = (l n).got ++ a) ∧ (arrived (l n).net).length ≤ (arrived (l (n + d)).net).length := by
  induction d with
  | zero => exact ⟨rfl, ⟨[], (List.append_nil _).symm⟩, Nat.le_refl _, ⟨[], (List.append_nil _).symm⟩, Nat.le_refl _⟩
  | succ d ih =>
    obtain ⟨a1, ⟨p, a2⟩, a3, ⟨g, a4⟩, a5⟩ := ih
    obtain ⟨b1, ⟨p', b2⟩, b3, ⟨g', b4⟩, b5⟩ := (h.step (n + d)).grows
    exact ⟨b1.trans a1, ⟨p ++ p', by rw [← Nat.add_assoc, b2, a2, List.append_assoc]⟩, Nat.le_trans a3 b3,
      ⟨g ++ g', by rw [← Nat.add_assoc, b4, a4, List.append_assoc]⟩, Nat.le_trans a5 b5⟩

/-- When all the bytes of some messages have arrived and not all these messages are taken, there is one to take. -/
theorem Link.Good.there (L : S.Lawful) {l : Link S} (h : l.Good) {P A : List (Nat × Msg)} (hp : l.pushed = P ++ A)
    (hb : (S.wire l.start (P.map (fun p => Codec.encodeMsg p.2))).length ≤ (arrived l.net).length) (hg : l.got.length < P.length) :
    ∃ i, l.rcv.poll.1 = .item i := by
  obtain ⟨ha, -, todo, t, hf, -, hw, hbytes, hall, -⟩ := h.todo L
  have hsent := (h.snt.wire h.fine.clean).1
  have hms : ∀ Q : List (Nat × Msg), Q.map (fun p => Codec.encodeMsg p.2) = (Q.map Prod.snd).map Codec.encodeMsg := by intro Q; simp [Function.comp_def]
  -- the messages of `P` that are not taken
  have hPA : P.map Prod.snd ++ A.map Prod.snd = l.got ++ todo := by rw [← hall, hp]; simp
  obtain ⟨td, h1, h2⟩ : ∃ td, P.map Prod.snd = l.got ++ td ∧ todo = td ++ A.map Prod.snd := by
    have hlen : l.got.length ≤ (P.map Prod.snd).length := by simp; omega
    rcases List.append_eq_append_iff.mp hPA with ⟨as, g1, g2⟩ | ⟨bs, g1, g2⟩
    · have : as = [] := by
        have := congrArg List.length g1
        simp at this
        have h0 : as.length = 0 := by simp at hlen; omega
        exact List.length_eq_zero_iff.mp h0
      subst this
      exact ⟨[], by simpa using g1.symm, by simpa using g2.symm⟩
    · exact ⟨bs, g1, g2⟩
  cases td with
  | nil =>
    exfalso
    have := congrArg List.length h1
    simp at this; omega
  | cons m td =>
    have e1 : (l.snd.wire ++ l.snd.rest).length = (S.wire l.start (l.got.map Codec.encodeMsg)).length + (S.wire l.rcv.cr.dec (todo.map Codec.encodeMsg)).length := by
      rw [hsent, hms, hall, List.map_append, wire_append, List.length_append, wire_len L (S.after l.start (l.got.map Codec.encodeMsg)) l.rcv.cr.dec]
    have e2 := congrArg List.length hbytes
    have e3 : (S.wire l.start (P.map (fun p => Codec.encodeMsg p.2))).length =
        (S.wire l.start (l.got.map Codec.encodeMsg)).length + (S.wire l.rcv.cr.dec ((m :: td).map Codec.encodeMsg)).length := by
      rw [hms, h1, List.map_append, wire_append, List.length_append, wire_len L (S.after l.start (l.got.map Codec.encodeMsg)) l.rcv.cr.dec]
    have e4 : (S.wire l.rcv.cr.dec ((m :: td).map Codec.encodeMsg)).length ≤ l.rcv.unread.length := by
      rw [hw] at e1
      simp only [List.length_append] at e1 e2
      omega
    have hu : l.rcv.unread ++ (t ++ l.snd.rest) = frame (S.push l.rcv.cr.dec (Codec.encodeMsg m)).1 ++
        S.wire (S.push l.rcv.cr.dec (Codec.encodeMsg m)).2 ((td ++ A.map Prod.snd).map Codec.encodeMsg) := by
      rw [← List.append_assoc, hbytes, h2]; rfl
    have hfl : (frame (S.push l.rcv.cr.dec (Codec.encodeMsg m)).1).length ≤ l.rcv.unread.length := by
      simp only [List.map_cons, SStream.wire, List.length_append] at e4
      omega
    obtain ⟨r, hr⟩ : ∃ r, l.rcv.unread = frame (S.push l.rcv.cr.dec (Codec.encodeMsg m)).1 ++ r := by
      rcases List.append_eq_append_iff.mp hu with ⟨as, g1, -⟩ | ⟨bs, g1, -⟩
      · have : as = [] := by
          have := congrArg List.length g1
          simp only [List.length_append] at this
          exact List.length_eq_zero_iff.mp (by omega)
        subst this
        exact ⟨[], by rw [g1]; simp⟩
      · exact ⟨bs, g1⟩
    have hm : maxFrame = 8192 := rfl
    have hfm := hf m (by rw [h2]; exact List.mem_cons_self ..)
    simp only [Fits, decide_eq_true_eq] at hfm
    obtain ⟨cs, hp', -⟩ := poll_frame (r := l.rcv.cr.fr) ha.2.2 (by rw [L.push_len]; omega) hr
    exact ⟨m, by rw [MsgRecv.deliver L ha hp']⟩

/-- A message given to the sending half, and not given up, comes out at the other end. -/
theorem Trace.delivered (L : S.Lawful) {l : Nat → Link S} {s0 : S.St} (h : Trace l s0) {j n : Nat} {m : Msg} {ph : SPhase}
    (hj : (l n).snd.calls[j]? = some ⟨some m, ph⟩) (hnd : ∀ d b, (l (n + d)).snd.calls[j]? ≠ some ⟨some m, .dropped b⟩) :
    ∃ T, n ≤ T ∧ ∀ d, m ∈ (l (T + d)).got ∧ (l (T + d)).snd.calls[j]? = some ⟨some m, .done (.ok ())⟩ := by
  obtain ⟨T1, ph1, hT1, hj1, ho⟩ := h.ends L j n _ ph hj
  have hd1 : ph1 = .done (.ok ()) := by
    rcases (h.good T1).fine.sends j _ hj1 with g | ⟨m', -, -, g | g | ⟨r, g⟩ | g⟩
    · simp only at g; subst g
      exact absurd hj1 (by have := hnd (T1 - n) false; rwa [show n + (T1 - n) = T1 by omega] at this)
    · simp only at g; subst g; exact ho.elim
    · simp only at g; subst g; exact ho.elim
    · simp only at g; subst g; exact ho.elim
    · exact g
  subst hd1
  obtain ⟨T0, hT0, hj0, hperm⟩ := h.moment L T1 hj1
  have hin : (j, m) ∈ (l T0).pushed := h.pushed T0 j m _ hj0 (Or.inl rfl)
  have hwire : (l T0).snd.wire = S.wire (l T0).start ((l T0).pushed.map (fun p => Codec.encodeMsg p.2)) := by
    have := ((h.good T0).snt.wire (h.good T0).fine.clean).1
    rw [SndSt.rest_none hperm] at this
    simpa using this
  -- the bytes arrive
  have arr : ∀ N k, (l T0).snd.wire.length - (arrived (l (T1 + k)).net).length ≤ N →
      ∃ k', (l T0).snd.wire.length ≤ (arrived (l (T1 + k')).net).length := by
    intro N
    induction N with
    | zero => intro k hk; exact ⟨k, by omega⟩
    | succ N ih =>
      intro k hk
      by_cases hle : (l T0).snd.wire.length ≤ (arrived (l (T1 + k)).net).length
      · exact ⟨k, hle⟩
      have hmono := (h.grows T0 (T1 + k - T0)).2.2.1
      rw [show T0 + (T1 + k - T0) = T1 + k by omega] at hmono
      obtain ⟨b, hb⟩ := (h.good (T1 + k)).fine.carried.2
      have hbne : b ≠ [] := by
        rintro rfl
        have := congrArg List.length hb
        simp at this; omega
      obtain ⟨p, hp, b', hb', hl⟩ := h.fairA (T1 + k) ⟨b, hbne, by rw [hb]; exact List.prefix_refl _⟩
      have hmono2 := (h.grows (T1 + k) (p - (T1 + k))).2.2.2.2
      rw [show T1 + k + (p - (T1 + k)) = p by omega] at hmono2
      have hlen : (arrived (l (p + 1)).net).length = (arrived (l p).net).length + b'.length := by
        rw [hl]; simp [Link.arrive, arrived_append, arrived]
      have hpos : 0 < b'.length := List.length_pos_iff.mpr hb'
      obtain ⟨k', hk'⟩ := ih (p + 1 - T1) (by rw [show T1 + (p + 1 - T1) = p + 1 by omega]; omega)
      exact ⟨k', hk'⟩
  obtain ⟨k1, hk1⟩ := arr _ 0 (Nat.le_refl _)
  -- the messages are taken
  have tak : ∀ N k, k1 ≤ k → (l T0).pushed.length - (l (T1 + k)).got.length ≤ N → ∃ k', (l T0).pushed.length ≤ (l (T1 + k')).got.length := by
    intro N
    induction N with
    | zero => intro k _ hk; exact ⟨k, by omega⟩
    | succ N ih =>
      intro k hkk hk
      by_cases hle : (l T0).pushed.length ≤ (l (T1 + k)).got.length
      · exact ⟨k, hle⟩
      obtain ⟨g1, ⟨A, g2⟩, -⟩ := h.grows T0 (T1 + k - T0)
      rw [show T0 + (T1 + k - T0) = T1 + k by omega] at g1 g2
      have hmono := (h.grows (T1 + k1) (k - k1)).2.2.2.2
      rw [show T1 + k1 + (k - k1) = T1 + k by omega] at hmono
      obtain ⟨p, hp, ⟨i, hi⟩, hl⟩ := h.fairP (T1 + k) ((h.good (T1 + k)).there L g2 (by rw [g1, ← hwire]; omega) (by omega))
      obtain ⟨-, -, -, ⟨a, ga⟩, -⟩ := h.grows (T1 + k) (p - (T1 + k))
      rw [show T1 + k + (p - (T1 + k)) = p by omega] at ga
      have hlen : (l (p + 1)).got.length = (l p).got.length + 1 := by rw [hl]; simp [Link.poll, hi, Polled.toList]
      have hlen2 : (l (T1 + k)).got.length ≤ (l p).got.length := by rw [ga]; simp
      exact ih (p + 1 - T1) (by omega) (by rw [show T1 + (p + 1 - T1) = p + 1 by omega]; omega)
  obtain ⟨k2, hk2⟩ := tak _ k1 (Nat.le_refl _) (Nat.le_refl _)
  refine ⟨T1 + k2, by omega, fun d => ⟨?_, ?_⟩⟩
  · obtain ⟨-, -, todo, t, -, -, -, -, hall, -⟩ := (h.good (T1 + k2)).todo L
    obtain ⟨-, ⟨A, g2⟩, -⟩ := h.grows T0 (T1 + k2 - T0)
    rw [show T0 + (T1 + k2 - T0) = T1 + k2 by omega] at g2
    rw [g2, List.map_append] at hall
    obtain ⟨-, -, -, ⟨a, ga⟩, -⟩ := h.grows (T1 + k2) d
    rw [ga]
    refine List.mem_append_left _ ?_
    have hmem : m ∈ (l T0).pushed.map Prod.snd := List.mem_map_of_mem (f := Prod.snd) hin
    rcases List.append_eq_append_iff.mp hall with ⟨as, g1, -⟩ | ⟨bs, g1, -⟩
    · rw [g1]; exact List.mem_append_left _ hmem
    · have : bs = [] := by
        have := congrArg List.length g1
        simp at this
        exact List.length_eq_zero_iff.mp (by omega)
      subst this
      rw [g1] at hmem
      simpa using hmem
  · obtain ⟨ph2, q1, -, q3⟩ := h.later L hj1 (k2 + d)
    rw [← Nat.add_assoc] at q1
    rw [q1, q3 trivial]

end Lair
