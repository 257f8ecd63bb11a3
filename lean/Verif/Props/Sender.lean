import Verif.Sender
import Verif.Props.Channel

/-
C31: concurrent senders on one connection. A run is `(SndSt.init s).run evs` for any list of events: calls of `send` /
`shutdown`, in any number, each advancing at each of its await points whenever the scheduler likes, frames written in
pieces of any size, futures dropped at any point. Call number `k` is the `k`-th `call` event.
-/
namespace Lair

variable {S : SStream}

/-- The messages of these calls. -/
def SndSt.msgs (s : SndSt S) (order : List Nat) : List Msg := order.filterMap (fun k => s.calls[k]?.bind SCall.msg)

theorem sendAll_append (x : CryptSend S) (a b : List Msg) : (x.sendAll (a ++ b)).2 = ((x.sendAll a).2.sendAll b).2 := by
  induction a generalizing x with
  | nil => rfl
  | cons m a ih => simp only [List.cons_append, CryptSend.sendAll]; exact ih _

theorem step_msg (s : SndSt S) (e : SEv) (k : Nat) (c : SCall) (h : s.calls[k]? = some c) :
    ∃ c', (s.step e).calls[k]? = some c' ∧ c'.msg = c.msg := by
  have hset : ∀ (t : SndSt S), t.calls = s.calls → ∀ j p, ∃ c', (t.set j p).calls[k]? = some c' ∧ c'.msg = c.msg := by
    intro t ht j p
    rw [SndSt.set_get, ht, h]
    refine ⟨_, rfl, ?_⟩
    dsimp only
    split <;> rfl
  have hrel : ∀ (t : SndSt S), t.calls = s.calls → ∀ j r, ∃ c', (t.release j r).calls[k]? = some c' ∧ c'.msg = c.msg :=
    fun t ht j r => hset t ht j (.done r)
  cases e with
  | call m =>
    exact ⟨c, by simp only [SndSt.step]; rw [List.getElem?_append_left (List.getElem?_eq_some_iff.mp h).1]; exact h, rfl⟩
  | acquire j =>
    simp only [SndSt.step]
    split
    · split
      · exact ⟨c, h, rfl⟩
      · split
        · exact hset s rfl j _
        · exact hset s rfl j _
    · exact ⟨c, h, rfl⟩
  | push j =>
    simp only [SndSt.step]
    split
    · split
      · exact hrel _ rfl j _
      · split
        · exact hrel _ rfl j _
        · exact hset _ rfl j _
    · exact hrel _ rfl j _
    · exact ⟨c, h, rfl⟩
  | write j n =>
    simp only [SndSt.step]
    split
    · split
      · exact hrel _ rfl j _
      · exact hset _ rfl j _
    · exact ⟨c, h, rfl⟩
  | ioErr j =>
    simp only [SndSt.step]
    split
    · exact hrel _ rfl j _
    · exact hrel _ rfl j _
    · exact ⟨c, h, rfl⟩
  | drop j =>
    simp only [SndSt.step]
    split
    · exact hset s rfl j _
    · exact hset s rfl j _
    · exact hset s rfl j _
    · exact ⟨c, h, rfl⟩

/-- The wire is that of sending the messages of `order` one after the other, except that `rest` is not yet written. -/
structure SeqInv (s₀ : S.St) (s : SndSt S) (order : List Nat) (rest : Bytes) : Prop where
  nodup : order.Nodup
  mem : ∀ k ∈ order, ∃ m ph, s.calls[k]? = some ⟨some m, ph⟩ ∧ ph ≠ .waiting ∧ ph ≠ .taken
  ok : ∀ (k : Nat) (m : Msg), s.calls[k]? = some ⟨some m, .done (.ok ())⟩ → k ∈ order
  wire : s.wire ++ rest = ((CryptSend.init s₀).sendAll (s.msgs order)).2.wire
  enc : s.closed = false → s.enc = ((CryptSend.init s₀).sendAll (s.msgs order)).2.enc
  cur : ∀ (k : Nat) (m : Option Msg) (r : Bytes), s.calls[k]? = some ⟨m, .writing r⟩ → rest = r ∧ order.getLast? = some k
  rst : rest ≠ [] → ∃ k c, order.getLast? = some k ∧ s.calls[k]? = some c ∧ (c.phase = .writing rest ∨ c.phase = .dropped true)

theorem SeqInv.init (s₀ : S.St) : SeqInv s₀ (SndSt.init s₀) [] [] := by
  constructor <;> simp [SndSt.init, SndSt.msgs, CryptSend.sendAll, CryptSend.init]

theorem SeqInv.msgs_step {s₀ : S.St} {s : SndSt S} {order : List Nat} {rest : Bytes} (h : SeqInv s₀ s order rest) (e : SEv) :
    (s.step e).msgs order = s.msgs order := by
  unfold SndSt.msgs
  have : ∀ l : List Nat, (∀ k ∈ l, ∃ c : SCall, s.calls[k]? = some c) →
      l.filterMap (fun k => (s.step e).calls[k]?.bind SCall.msg) = l.filterMap (fun k => s.calls[k]?.bind SCall.msg) := by
    intro l
    induction l with
    | nil => intro _; rfl
    | cons k l ih =>
      intro hl
      obtain ⟨c, hc⟩ := hl k (by simp)
      obtain ⟨c', h1, h2⟩ := step_msg s e k c hc
      have e1 : (s.step e).calls[k]?.bind SCall.msg = s.calls[k]?.bind SCall.msg := by
        rw [h1, hc]; exact h2
      rw [List.filterMap_cons, List.filterMap_cons, e1, ih (fun j hj => hl j (List.mem_cons_of_mem _ hj))]
  exact this order (fun k hk => by obtain ⟨m, ph, h1, -⟩ := h.mem k hk; exact ⟨_, h1⟩)

/-- A step that only changes the phase of call `k` (and perhaps the wire). -/
theorem SeqInv.setPhase {s₀ : S.St} {s s' : SndSt S} {order : List Nat} {rest rest' : Bytes} (h : SeqInv s₀ s order rest)
    {k : Nat} {c : SCall} {p : SPhase} (hk : s.calls[k]? = some c) (hc : c.phase = .waiting ∨ c.phase.holding)
    (hmsgs : s'.msgs order = s.msgs order)
    (h1 : ∀ j, s'.calls[j]? = s.calls[j]?.map (fun c => if k = j then { c with phase := p } else c))
    (hp : k ∈ order → p ≠ .waiting ∧ p ≠ .taken)
    (hok : p = .done (.ok ()) → c.msg ≠ none → k ∈ order)
    (hw : s'.wire ++ rest' = s.wire ++ rest) (henc : s'.closed = false → s.closed = false ∧ s'.enc = s.enc)
    (hcur : ∀ j m r, s.calls[j]? = some ⟨m, .writing r⟩ → j ≠ k → rest' = r)
    (hcur' : ∀ r, p = .writing r → rest' = r ∧ order.getLast? = some k)
    (hrst : rest' ≠ [] → ∃ j, order.getLast? = some j ∧
      (j = k ∧ (p = .writing rest' ∨ p = .dropped true) ∨
       j ≠ k ∧ ∃ c : SCall, s.calls[j]? = some c ∧ (c.phase = .writing rest' ∨ c.phase = .dropped true))) :
    SeqInv s₀ s' order rest' := by
  have hold : ∀ (j : Nat) (d : SCall), s'.calls[j]? = some d → (j = k ∧ d = { c with phase := p }) ∨ (j ≠ k ∧ s.calls[j]? = some d) := by
    intro j d hj
    rw [h1] at hj
    by_cases hjk : k = j
    · subst hjk; rw [hk] at hj; simp at hj; exact Or.inl ⟨rfl, hj.symm⟩
    · cases hcj : s.calls[j]? with
      | none => rw [hcj] at hj; simp at hj
      | some d0 => rw [hcj] at hj; simp [hjk] at hj; exact Or.inr ⟨fun h => hjk h.symm, by rw [hj]⟩
  have hkk : s'.calls[k]? = some { c with phase := p } := by rw [h1, hk]; simp
  refine ⟨h.nodup, ?_, ?_, ?_, ?_, ?_, ?_⟩
  · intro j hj
    obtain ⟨m, ph, g1, g2⟩ := h.mem j hj
    by_cases hjk : k = j
    · subst hjk
      rw [hk] at g1; cases g1
      exact ⟨m, p, hkk, hp hj⟩
    · exact ⟨m, ph, by rw [h1, g1]; simp [hjk], g2⟩
  · intro j m hj
    rcases hold j _ hj with ⟨rfl, g⟩ | ⟨-, g⟩
    · refine hok (congrArg SCall.phase g).symm ?_
      have := congrArg SCall.msg g
      simp at this; rw [← this]; simp
    · exact h.ok _ _ g
  · rw [hmsgs, hw]; exact h.wire
  · intro hcl
    obtain ⟨g1, g2⟩ := henc hcl
    rw [hmsgs, g2]; exact h.enc g1
  · intro j m r hj
    rcases hold j _ hj with ⟨rfl, g⟩ | ⟨hne, g⟩
    · exact hcur' r (congrArg SCall.phase g).symm
    · exact ⟨hcur _ _ _ g hne, (h.cur _ _ _ g).2⟩
  · intro hne
    obtain ⟨j, g1, g2⟩ := hrst hne
    rcases g2 with ⟨rfl, g2⟩ | ⟨hjk, c', g3, g4⟩
    · exact ⟨j, _, g1, hkk, g2⟩
    · exact ⟨j, c', g1, by rw [h1, g3]; simp [Ne.symm hjk], g4⟩

theorem SeqInv.step {s₀ : S.St} {s : SndSt S} {order : List Nat} {rest : Bytes} (hi : SndInv s)
    (h : SeqInv s₀ s order rest) (e : SEv) (he : ∀ k, e ≠ .ioErr k) :
    ∃ order' rest', SeqInv s₀ (s.step e) order' rest' := by
  have hmsgs := h.msgs_step e
  -- nobody but the holder is writing
  have huniq : ∀ {k : Nat} {c : SCall}, s.calls[k]? = some c → c.phase.holding → ∀ {j : Nat} {d : SCall}, s.calls[j]? = some d → d.phase.holding → j = k := by
    intro k c h1 h2 j d h3 h4
    have a := hi.perm _ _ h1 h2
    have b := hi.perm _ _ h3 h4
    rw [a] at b; exact (Option.some.inj b).symm
  have hnodrop : ∀ {k : Nat} {c : SCall}, s.calls[k]? = some c → c.phase.holding → ∀ {j : Nat} {d : SCall}, s.calls[j]? = some d → d.phase ≠ .dropped true := by
    intro k c h1 h2 j d h3
    exact (hi.excl (by rw [hi.perm _ _ h1 h2]; simp)).2 _ _ h3
  cases e with
  | call m =>
    refine ⟨order, rest, h.nodup, ?_, ?_, ?_, ?_, ?_, ?_⟩
    all_goals simp only [SndSt.step] at hmsgs ⊢
    · intro k hk
      obtain ⟨m', ph, h1, h2⟩ := h.mem k hk
      exact ⟨m', ph, by rw [List.getElem?_append_left (List.getElem?_eq_some_iff.mp h1).1]; exact h1, h2⟩
    · intro k m' hk
      rw [List.getElem?_append] at hk
      split at hk
      · exact h.ok _ _ hk
      · cases hx : k - s.calls.length with
        | zero => rw [hx] at hk; simp at hk
        | succ n => rw [hx] at hk; simp at hk
    · rw [hmsgs]; exact h.wire
    · intro hc; rw [hmsgs]; exact h.enc hc
    · intro k m' r hk
      rw [List.getElem?_append] at hk
      split at hk
      · exact h.cur _ _ _ hk
      · cases hx : k - s.calls.length with
        | zero => rw [hx] at hk; simp at hk
        | succ n => rw [hx] at hk; simp at hk
    · intro hne
      obtain ⟨k, c, h1, h2, h3⟩ := h.rst hne
      exact ⟨k, c, h1, by rw [List.getElem?_append_left (List.getElem?_eq_some_iff.mp h2).1]; exact h2, h3⟩
  | acquire k =>
    refine ⟨order, rest, ?_⟩
    revert hmsgs
    simp only [SndSt.step]
    split
    · rename_i m hk
      have hko : k ∉ order := by
        intro hko
        obtain ⟨m', ph, h1, h2, -⟩ := h.mem k hko
        rw [hk] at h1; cases h1; exact h2 rfl
      have hrst : rest ≠ [] → ∃ j, order.getLast? = some j ∧ j ≠ k ∧ ∃ c : SCall, s.calls[j]? = some c ∧ (c.phase = .writing rest ∨ c.phase = .dropped true) := by
        intro hne
        obtain ⟨j, c, h1, h2, h3⟩ := h.rst hne
        exact ⟨j, h1, by rintro rfl; exact hko (List.mem_of_getLast? h1), c, h2, h3⟩
      split
      · intro _; exact h
      · split
        · intro hmsgs
          refine h.setPhase hk (Or.inl rfl) (p := .taken) hmsgs (SndSt.set_get _ k _) (fun h => absurd h hko) (by simp) rfl
            (fun h => ⟨h, rfl⟩) (fun j m r hj _ => (h.cur _ _ _ hj).1) (by simp) ?_
          intro hne
          obtain ⟨j, h1, h2, h3⟩ := hrst hne
          exact ⟨j, h1, Or.inr ⟨h2, h3⟩⟩
        · intro hmsgs
          refine h.setPhase hk (Or.inl rfl) (p := .panicked) hmsgs (SndSt.set_get _ k _) (fun h => absurd h hko) (by simp) rfl
            (fun h => ⟨h, rfl⟩) (fun j m r hj _ => (h.cur _ _ _ hj).1) (by simp) ?_
          intro hne
          obtain ⟨j, h1, h2, h3⟩ := hrst hne
          exact ⟨j, h1, Or.inr ⟨h2, h3⟩⟩
    · intro _; exact h
  | push k =>
    revert hmsgs
    simp only [SndSt.step]
    split
    · rename_i m hk
      have hko : k ∉ order := by
        intro hko
        obtain ⟨m', ph, h1, h2, h3⟩ := h.mem k hko
        rw [hk] at h1; cases h1; exact h3 rfl
      have hr : rest = [] := by
        refine Classical.byContradiction (fun hne => ?_)
        obtain ⟨j, c, h1, h2, h3⟩ := h.rst hne
        rcases h3 with h3 | h3
        · have : j = k := huniq hk trivial h2 (by rw [h3]; trivial)
          exact hko (by rw [← this]; exact List.mem_of_getLast? h1)
        · exact hnodrop hk trivial h2 h3
      subst hr
      have hnow : ∀ (j : Nat) (m : Option Msg) (r : Bytes), s.calls[j]? = some ⟨m, .writing r⟩ → False := by
        intro j m' r hj
        have : j = k := huniq hk trivial hj trivial
        subst this; rw [hk] at hj; cases hj
      by_cases hcl : s.closed = true
      · -- nothing is written any more
        have fin : ∀ (r : String) (s' : SndSt S), s'.msgs order = s.msgs order →
            (∀ j, s'.calls[j]? = s.calls[j]?.map (fun c => if k = j then { c with phase := .done (.error r) } else c)) →
            s'.wire = s.wire → s'.closed = s.closed → SeqInv s₀ s' order [] := by
          intro r s' hm h1 hw hc
          refine h.setPhase hk (Or.inr trivial) (p := .done (.error r)) hm h1 (fun h => absurd h hko) (by simp)
            (by rw [hw]) (fun h => by rw [hc, hcl] at h; cases h) (fun j m r hj _ => (hnow _ _ _ hj).elim) (by simp) (by simp)
        split
        · intro hmsgs; exact ⟨order, [], fin _ _ hmsgs (SndSt.release_get _ k _) rfl rfl⟩
        · rw [if_pos hcl]
          intro hmsgs
          exact ⟨order, [], fin _ _ hmsgs (SndSt.release_get _ k _) rfl rfl⟩
      · have hcl : s.closed = false := by simpa using hcl
        have henc := h.enc hcl
        have hwire := h.wire
        simp only [List.append_nil] at hwire
        -- the state after sending `m` in sequence
        have hseq : ∀ x : CryptSend S, (x.sendAll [m]).2 = (x.sendMsg m).2 := fun x => rfl
        have build : ∀ (p : SPhase) (rest' : Bytes) (s' : SndSt S),
            (∀ j, s'.calls[j]? = s.calls[j]?.map (fun c => if k = j then { c with phase := p } else c)) →
            s'.msgs order = s.msgs order → s'.wire = s.wire → s'.enc = (S.push s.enc (Codec.encodeMsg m)).2 →
            s.wire ++ rest' = (CryptSend.send ⟨s.enc, s.wire⟩ (Codec.encodeMsg m)).2.wire →
            p ≠ .waiting → p ≠ .taken → p ≠ .done (.ok ()) → (∀ r, p = .writing r → rest' = r) →
            (rest' ≠ [] → p = .writing rest') → SeqInv s₀ s' (order ++ [k]) rest' := by
          intro p rest' s' h1 hm hw he hw2 p1 p2 p3 p4 p5
          have hkk : s'.calls[k]? = some ⟨some m, p⟩ := by rw [h1, hk]; simp
          have hold : ∀ (j : Nat) (d : SCall), s'.calls[j]? = some d → (j = k ∧ d = ⟨some m, p⟩) ∨ (j ≠ k ∧ s.calls[j]? = some d) := by
            intro j d hj
            rw [h1] at hj
            by_cases hjk : k = j
            · subst hjk; rw [hk] at hj; simp at hj; exact Or.inl ⟨rfl, hj.symm⟩
            · cases hcj : s.calls[j]? with
              | none => rw [hcj] at hj; simp at hj
              | some d0 => rw [hcj] at hj; simp [hjk] at hj; exact Or.inr ⟨fun h => hjk h.symm, by rw [hj]⟩
          have hms : s'.msgs (order ++ [k]) = s.msgs order ++ [m] := by
            rw [← hm]; simp [SndSt.msgs, hkk]
          have hx : ((CryptSend.init s₀).sendAll (s.msgs order)).2 = ⟨s.enc, s.wire⟩ := by
            cases hz : ((CryptSend.init s₀).sendAll (s.msgs order)).2 with
            | mk a b => rw [hz] at henc hwire; simp at henc hwire; rw [henc, hwire]
          refine ⟨?_, ?_, ?_, ?_, ?_, ?_, ?_⟩
          · refine List.nodup_append.mpr ⟨h.nodup, by simp, ?_⟩
            intro a ha b hb hab
            simp at hb; subst hb; subst hab; exact hko ha
          · intro j hj
            by_cases hjk : j = k
            · subst hjk; exact ⟨m, p, hkk, p1, p2⟩
            · have hj : j ∈ order := by simpa [hjk] using hj
              obtain ⟨m', ph, g1, g2⟩ := h.mem j hj
              exact ⟨m', ph, by rw [h1, g1]; simp [Ne.symm hjk], g2⟩
          · intro j m' hj
            rcases hold j _ hj with ⟨rfl, -⟩ | ⟨-, g⟩
            · simp
            · exact List.mem_append_left _ (h.ok _ _ g)
          · rw [hms, sendAll_append, hx, hw, hw2]; rfl
          · intro _
            rw [hms, sendAll_append, hx, he, hseq]
            unfold CryptSend.sendMsg CryptSend.send
            dsimp only
            split <;> rfl
          · intro j m' r hj
            rcases hold j _ hj with ⟨rfl, g⟩ | ⟨-, g⟩
            · cases g; exact ⟨p4 r rfl, by simp⟩
            · exact (hnow _ _ _ g).elim
          · intro hne
            exact ⟨k, _, by simp, hkk, Or.inl (p5 hne)⟩
        split
        · rename_i e hfb
          intro hmsgs
          refine ⟨order ++ [k], [], build (.done (.error e)) [] _ (SndSt.release_get _ k _) hmsgs rfl rfl ?_
            (by simp) (by simp) (by simp) (by simp) (by simp)⟩
          simp only [CryptSend.send, hfb, List.append_nil]
        · rename_i b hfb
          rw [if_neg (by simp [hcl])]
          intro hmsgs
          refine ⟨order ++ [k], b, build (.writing b) b _ (SndSt.set_get _ k _) hmsgs rfl rfl ?_
            (by simp) (by simp) (by simp) (by intro r hr; cases hr; rfl) (fun _ => rfl)⟩
          simp only [CryptSend.send, hfb]
    · rename_i hk
      have hko : k ∉ order := by
        intro hko
        obtain ⟨m', ph, h1, -⟩ := h.mem k hko
        rw [hk] at h1; cases h1
      have hr : rest = [] := by
        refine Classical.byContradiction (fun hne => ?_)
        obtain ⟨j, c, h1, h2, h3⟩ := h.rst hne
        rcases h3 with h3 | h3
        · have : j = k := huniq hk trivial h2 (by rw [h3]; trivial)
          exact hko (by rw [← this]; exact List.mem_of_getLast? h1)
        · exact hnodrop hk trivial h2 h3
      subst hr
      intro hmsgs
      refine ⟨order, [], h.setPhase hk (Or.inr trivial) (p := .done (.ok ())) hmsgs (SndSt.release_get _ k _)
        (fun h => absurd h hko) (fun _ h => absurd rfl h) rfl (fun h => by cases h) ?_ (by simp) (by simp)⟩
      intro j m r hj _
      exact (h.cur _ _ _ hj).1
    · intro _; exact ⟨order, rest, h⟩
  | write k n =>
    revert hmsgs
    simp only [SndSt.step]
    split
    · rename_i m r hk
      obtain ⟨hr, hlast⟩ := h.cur _ _ _ hk
      subst hr
      have hoth : ∀ (j : Nat) (m : Option Msg) (r : Bytes), s.calls[j]? = some ⟨m, .writing r⟩ → j ≠ k → False := by
        intro j m' r hj hne
        exact hne (huniq hk trivial hj trivial)
      split
      · rename_i hle
        intro hmsgs
        refine ⟨order, [], h.setPhase hk (Or.inr trivial) (p := .done (.ok ())) hmsgs (SndSt.release_get _ k _)
          (fun _ => ⟨by simp, by simp⟩) (fun _ _ => List.mem_of_getLast? hlast) ?_ (fun h => ⟨h, rfl⟩)
          (fun j m r hj hne => (hoth _ _ _ hj hne).elim) (by simp) (by simp)⟩
        show s.wire ++ rest.take n ++ [] = _
        rw [List.append_nil, List.take_of_length_le hle]
      · intro hmsgs
        refine ⟨order, rest.drop n, h.setPhase hk (Or.inr trivial) (p := .writing (rest.drop n)) hmsgs (SndSt.set_get _ k _)
          (fun _ => ⟨by simp, by simp⟩) (by simp) ?_ (fun h => ⟨h, rfl⟩)
          (fun j m r hj hne => (hoth _ _ _ hj hne).elim) (fun r hr => ⟨by cases hr; rfl, hlast⟩) ?_⟩
        · show s.wire ++ rest.take n ++ rest.drop n = _
          rw [List.append_assoc, List.take_append_drop]
        · intro _; exact ⟨k, hlast, Or.inl ⟨rfl, Or.inl rfl⟩⟩
    · intro _; exact ⟨order, rest, h⟩
  | ioErr k => exact absurd rfl (he k)
  | drop k =>
    refine ⟨order, rest, ?_⟩
    revert hmsgs
    simp only [SndSt.step]
    split
    · rename_i m hk
      have hko : k ∉ order := by
        intro hko
        obtain ⟨m', ph, h1, h2, -⟩ := h.mem k hko
        rw [hk] at h1; cases h1; exact h2 rfl
      intro hmsgs
      refine h.setPhase hk (Or.inl rfl) (p := .dropped false) hmsgs (SndSt.set_get _ k _) (fun h => absurd h hko) (by simp) rfl
        (fun h => ⟨h, rfl⟩) (fun j m r hj _ => (h.cur _ _ _ hj).1) (by simp) ?_
      intro hne
      obtain ⟨j, c, h1, h2, h3⟩ := h.rst hne
      exact ⟨j, h1, Or.inr ⟨by rintro rfl; exact hko (List.mem_of_getLast? h1), c, h2, h3⟩⟩
    · rename_i m hk
      intro hmsgs
      refine h.setPhase hk (Or.inr trivial) (p := .dropped true) hmsgs (SndSt.set_get _ k _) (fun _ => ⟨by simp, by simp⟩) (by simp) rfl
        (fun h => ⟨h, rfl⟩) (fun j m r hj _ => (h.cur _ _ _ hj).1) (by simp) ?_
      intro hne
      obtain ⟨j, c, h1, h2, h3⟩ := h.rst hne
      by_cases hjk : j = k
      · exact ⟨j, h1, Or.inl ⟨hjk, Or.inr rfl⟩⟩
      · exact ⟨j, h1, Or.inr ⟨hjk, c, h2, h3⟩⟩
    · rename_i m r hk
      intro hmsgs
      refine h.setPhase hk (Or.inr trivial) (p := .dropped true) hmsgs (SndSt.set_get _ k _) (fun _ => ⟨by simp, by simp⟩) (by simp) rfl
        (fun h => ⟨h, rfl⟩) (fun j m r hj _ => (h.cur _ _ _ hj).1) (by simp) ?_
      intro hne
      obtain ⟨j, c, h1, h2, h3⟩ := h.rst hne
      by_cases hjk : j = k
      · exact ⟨j, h1, Or.inl ⟨hjk, Or.inr rfl⟩⟩
      · exact ⟨j, h1, Or.inr ⟨hjk, c, h2, h3⟩⟩
    · intro _; exact h

theorem SeqInv.run {s₀ : S.St} (evs : List SEv) (hio : ∀ k, SEv.ioErr k ∉ evs) :
    ∀ {s : SndSt S} {order : List Nat} {rest : Bytes}, SndInv s → SeqInv s₀ s order rest →
    ∃ order' rest', SeqInv s₀ (s.run evs) order' rest' := by
  induction evs with
  | nil => intro s order rest _ h; exact ⟨order, rest, h⟩
  | cons e es ih =>
    intro s order rest hi h
    obtain ⟨order', rest', h'⟩ := h.step hi e (by rintro k rfl; exact hio k (by simp))
    exact ih (fun k hk => hio k (List.mem_cons_of_mem _ hk)) (hi.step e) h'

/-- C31. However the calls interleave, wherever futures are dropped: what is on the wire is what sending some of the
    messages one after the other would have written - each at most once, every completed send among them - except that the
    last frame may be incomplete, and then its call is still writing or was dropped while sending. Provided the raw stream
    reports no I/O error (after which the code would go on writing behind a truncated frame). -/
theorem C31_frames_never_interleave (s₀ : S.St) (evs : List SEv) (hio : ∀ k, SEv.ioErr k ∉ evs) :
    let s := (SndSt.init s₀).run evs
    ∃ (order : List Nat) (missing : Bytes), order.Nodup ∧
      (∀ (k : Nat) (m : Msg), s.calls[k]? = some ⟨some m, .done (.ok ())⟩ → k ∈ order) ∧
      (∀ k ∈ order, ∃ m ph, s.calls[k]? = some ⟨some m, ph⟩) ∧
      s.wire ++ missing = ((CryptSend.init s₀).sendAll (s.msgs order)).2.wire ∧
      (missing ≠ [] → ∃ k c, order.getLast? = some k ∧ s.calls[k]? = some c ∧
        (c.phase = .writing missing ∨ c.phase = .dropped true)) := by
  obtain ⟨order, rest, h⟩ := SeqInv.run (s₀ := s₀) evs hio (SndInv.init s₀) (SeqInv.init s₀)
  refine ⟨order, rest, h.nodup, h.ok, ?_, h.wire, h.rst⟩
  intro k hk
  obtain ⟨m, ph, h1, -⟩ := h.mem k hk
  exact ⟨m, ph, h1⟩

/-- C31 with C27: the peer receives, in one order and each at most once, only messages given to `send` - and, if all fit a
    frame and no call is still sending or was dropped while sending, all of those whose send completed. -/
theorem C31_peer_receives (L : S.Lawful) (s₀ : S.St) (evs : List SEv) (hio : ∀ k, SEv.ioErr k ∉ evs)
    (hfit : ∀ (k : Nat) (m : Msg) (ph : SPhase), ((SndSt.init s₀).run evs).calls[k]? = some ⟨some m, ph⟩ → (Codec.encodeMsg m).length + 17 ≤ 8192)
    (revs : List RecvEv) (hne : RecvEv.close ∉ revs) :
    let s := (SndSt.init s₀).run evs
    ∃ order : List Nat, order.Nodup ∧ (∀ (k : Nat) (m : Msg), s.calls[k]? = some ⟨some m, .done (.ok ())⟩ → k ∈ order) ∧
      (arrived revs <+: s.wire → items ((MsgRecv.ops S).run (.init s₀) revs).1 <+: s.msgs order) ∧
      ((∀ (k : Nat) (c : SCall), s.calls[k]? = some c → c.phase ≠ .dropped true ∧ ∀ r, c.phase ≠ .writing r) → arrived revs = s.wire →
        items ((MsgRecv.ops S).run (.init s₀) (revs ++ List.replicate (s.msgs order).length .poll)).1 = s.msgs order) := by
  intro s
  obtain ⟨order, rest, h⟩ := SeqInv.run (s₀ := s₀) evs hio (SndInv.init s₀) (SeqInv.init s₀)
  have hfit' : ∀ m ∈ s.msgs order, (Codec.encodeMsg m).length + 17 ≤ 8192 := by
    intro m hm
    simp only [SndSt.msgs, List.mem_filterMap] at hm
    obtain ⟨k, hk, hb⟩ := hm
    obtain ⟨m', ph, h1, -⟩ := h.mem k hk
    have h1' : s.calls[k]? = some ⟨some m', ph⟩ := h1
    rw [h1'] at hb
    simp at hb; subst hb
    exact hfit k m' ph h1
  obtain ⟨-, d1, d2⟩ := C27_messages_delivered_partial L s₀ (s.msgs order) hfit' revs hne
  refine ⟨order, h.nodup, h.ok, ?_, ?_⟩
  · intro hpre
    exact (d1 (hpre.trans ⟨rest, h.wire⟩)).1
  · intro hq harr
    have hr : rest = [] := by
      refine Classical.byContradiction (fun hne => ?_)
      obtain ⟨k, c, -, h2, h3⟩ := h.rst hne
      have := hq k c h2
      rcases h3 with h3 | h3
      · exact this.2 _ h3
      · exact this.1 h3
    have hw := h.wire
    rw [hr, List.append_nil] at hw
    exact d2 (harr.trans hw) _ (Nat.le_refl _)

/-- C31. At most one call has the sender at any time, and no call ever finds it missing - unless some call was dropped
    while it had it. -/
theorem C31_no_panic_partial (s₀ : S.St) (evs : List SEv) :
    let s := (SndSt.init s₀).run evs
    (∀ (j k : Nat) (c d : SCall), s.calls[j]? = some c → s.calls[k]? = some d → c.phase.holding → d.phase.holding → j = k) ∧
    ((∀ (k : Nat) (c : SCall), s.calls[k]? = some c → c.phase ≠ .dropped true) →
      ∀ (k : Nat) (c : SCall), s.calls[k]? = some c → c.phase ≠ .panicked) := by
  intro s
  have hi : SndInv s := (SndInv.init s₀).run evs
  refine ⟨?_, ?_⟩
  · intro j k c d h1 h2 h3 h4
    have a := hi.perm _ _ h1 h3
    have b := hi.perm _ _ h2 h4
    rw [a] at b; exact Option.some.inj b
  · intro hn k c hk hp
    obtain ⟨j, d, h1, h2⟩ := hi.pan _ _ hk hp
    exact hn _ _ h1 h2

/-- C31, negation. Dropping a `send` while it is sending - for example because the caller put a timeout around it - breaks
    the connection for everybody: every later call of `send` or `shutdown` panics when its turn comes, whatever else
    happens. -/
theorem C31_dropped_send_breaks_others (s₀ : S.St) (evs : List SEv) {k : Nat} {c : SCall}
    (hk : ((SndSt.init s₀).run evs).calls[k]? = some c) (hd : c.phase = .dropped true)
    (more : List SEv) {j : Nat} {d : SCall} (hj : ((SndSt.init s₀).run (evs ++ more)).calls[j]? = some d)
    (hw : d.phase = .waiting) :
    ∃ d', ((SndSt.init s₀).run (evs ++ more ++ [.acquire j])).calls[j]? = some d' ∧ d'.phase = .panicked := by
  have stay : ∀ (more : List SEv) (s : SndSt S), SndInv s → (∃ (k : Nat) (c : SCall), s.calls[k]? = some c ∧ c.phase = .dropped true) →
      ∃ (k : Nat) (c : SCall), (s.run more).calls[k]? = some c ∧ c.phase = .dropped true := by
    intro more
    induction more with
    | nil => intro s _ h; exact h
    | cons e es ih =>
      intro s hi ⟨k, c, h1, h2⟩
      refine ih (s.step e) (hi.step e) ⟨k, c, ?_, h2⟩
      have hset : ∀ (t : SndSt S) (i : Nat) (p : SPhase) (c' : SCall), t.calls = s.calls → s.calls[i]? = some c' →
          c'.phase ≠ .dropped true → (t.set i p).calls[k]? = some c := by
        intro t i p c' ht h h'
        have hik : ¬ i = k := by rintro rfl; rw [h1] at h; cases h; exact h' h2
        rw [SndSt.set_get, ht, h1]; simp [hik]
      cases e with
      | call m => simp only [SndSt.step]; rw [List.getElem?_append_left (List.getElem?_eq_some_iff.mp h1).1]; exact h1
      | acquire i =>
        simp only [SndSt.step]
        split
        · rename_i hi'
          split
          · exact h1
          · split
            · exact hset s i _ _ rfl hi' (by simp)
            · exact hset s i _ _ rfl hi' (by simp)
        · exact h1
      | push i =>
        simp only [SndSt.step]
        split
        · rename_i hi'
          split
          · exact hset _ i _ _ rfl hi' (by simp)
          · split
            · exact hset _ i _ _ rfl hi' (by simp)
            · exact hset _ i _ _ rfl hi' (by simp)
        · rename_i hi'; exact hset _ i _ _ rfl hi' (by simp)
        · exact h1
      | write i n =>
        simp only [SndSt.step]
        split
        · rename_i hi'
          split
          · exact hset _ i _ _ rfl hi' (by simp)
          · exact hset _ i _ _ rfl hi' (by simp)
        · exact h1
      | ioErr i =>
        simp only [SndSt.step]
        split
        · rename_i hi'; exact hset _ i _ _ rfl hi' (by simp)
        · rename_i hi'; exact hset _ i _ _ rfl hi' (by simp)
        · exact h1
      | drop i =>
        simp only [SndSt.step]
        split
        · rename_i hi'; exact hset _ i _ _ rfl hi' (by simp)
        · rename_i hi'; exact hset _ i _ _ rfl hi' (by simp)
        · rename_i hi'; exact hset _ i _ _ rfl hi' (by simp)
        · exact h1
  rw [SndSt.run_append]
  have hi : SndInv ((SndSt.init s₀).run (evs ++ more)) := (SndInv.init s₀).run _
  have hdr := stay more _ ((SndInv.init s₀).run evs) ⟨k, c, hk, hd⟩
  rw [← SndSt.run_append] at hdr
  generalize (SndSt.init s₀).run (evs ++ more) = s at *
  obtain ⟨i, e, h1, h2⟩ := hdr
  have hs : s.sender = false := by
    cases hs : s.sender with
    | false => rfl
    | true => exact absurd h2 ((hi.snd hs).2 _ _ h1)
  have hp : s.permit = none := by
    cases hp : s.permit with
    | none => rfl
    | some x => exact absurd h2 ((hi.excl (by rw [hp]; simp)).2 _ _ h1)
  obtain ⟨m, ph⟩ := d
  simp only at hw
  subst hw
  refine ⟨⟨m, .panicked⟩, ?_, rfl⟩
  show (s.step (.acquire j)).calls[j]? = _
  simp only [SndSt.step, hj, hp, hs]
  simp [SndSt.set_get, hj]

/-! ### Concrete cases -/

section Examples

/-- Three calls whose steps interleave, with a small write in the middle; the second is dropped before its turn. -/
example : let s := (SndSt.init (S := Toy.stream) ([1, 2, 3], 0)).run [.call (some (.req "a" .hello)), .acquire 0,
      .call (some (.req "b" .hello)), .call (some (.req "c" .hello)), .acquire 1, .push 0, .write 0 1, .acquire 2, .drop 1,
      .write 0 5, .write 0 9000, .acquire 2, .push 2, .write 2 9000, .call none, .acquire 3, .push 3]
    s.wire = ((CryptSend.init (S := Toy.stream) ([1, 2, 3], 0)).sendAll [.req "a" .hello, .req "c" .hello]).2.wire ∧
    s.calls.map SCall.phase = [.done (.ok ()), .dropped false, .done (.ok ()), .done (.ok ())] := by
  decide +kernel

/-- The hypothesis of `C31_dropped_send_breaks_others`: a send dropped after one byte, and what happens to the next. -/
example : let evs : List SEv := [.call (some (.req "a" .hello)), .acquire 0, .push 0, .write 0 1, .drop 0,
      .call (some (.req "b" .hello))]
    ((SndSt.init (S := Toy.stream) ([1, 2, 3], 0)).run evs).calls.map SCall.phase = [.dropped true, .waiting] ∧
    ((SndSt.init (S := Toy.stream) ([1, 2, 3], 0)).run (evs ++ [.acquire 1])).calls.map SCall.phase = [.dropped true, .panicked] := by
  decide +kernel

end Examples

end Lair
