import Verif.WorldSeq

/- A direction of a connection on which nothing has gone wrong, and what can go on from there (used for C85). -/
namespace Lair

variable {S : SStream} {E : Env}

/-! ### What the sending half has put on the wire -/

/-- The call has ended badly. Proof device: nothing in the code corresponds. -/
def SPhase.bad : SPhase → Prop
  | .done (.error _) => True
  | .dropped true => True
  | .panicked => True
  | _ => False

theorem SndSt.set_ne (s t : SndSt S) (ht : t.calls = s.calls) (j : Nat) (p : SPhase) {k : Nat} (h : j ≠ k) :
    (t.set j p).calls[k]? = s.calls[k]? := by
  rw [SndSt.set_get, ht]
  simp [h]

theorem SndSt.release_ne (s t : SndSt S) (ht : t.calls = s.calls) (j : Nat) (r : Res Unit) {k : Nat} (h : j ≠ k) :
    (t.release j r).calls[k]? = s.calls[k]? := SndSt.set_ne s t ht j (.done r) h

/-- What has ended badly stays so. -/
theorem SndSt.step_bad (s : SndSt S) (e : SEv) {k : Nat} {m : Option Msg} {ph : SPhase} (h : s.calls[k]? = some ⟨m, ph⟩) (hb : ph.bad) :
    (s.step e).calls[k]? = some ⟨m, ph⟩ := by
  have hne : ∀ {j : Nat} {m' : Option Msg} {q : SPhase}, s.calls[j]? = some ⟨m', q⟩ → ¬ q.bad → j ≠ k := by
    rintro j m' q hj hq rfl
    rw [h] at hj; cases hj; exact hq hb
  cases e with
  | call x =>
    show (s.calls ++ [_])[k]? = _
    rw [List.getElem?_append_left (List.getElem?_eq_some_iff.mp h).1]; exact h
  | acquire j =>
    simp only [SndSt.step]
    split
    · rename_i hj
      have hjk := hne hj (by simp [SPhase.bad])
      split
      · exact h
      · split
        · rw [← h]; exact SndSt.set_ne s s rfl j .taken hjk
        · rw [← h]; exact SndSt.set_ne s s rfl j .panicked hjk
    · exact h
  | push j =>
    simp only [SndSt.step]
    split
    · rename_i hj
      have hjk := hne hj (by simp [SPhase.bad])
      split
      · rw [← h]; exact SndSt.release_ne s _ (by rfl) j _ hjk
      · split
        · rw [← h]; exact SndSt.release_ne s _ (by rfl) j _ hjk
        · rw [← h]; exact SndSt.set_ne s _ (by rfl) j _ hjk
    · rename_i hj
      have hjk := hne hj (by simp [SPhase.bad])
      rw [← h]; exact SndSt.release_ne s _ (by rfl) j _ hjk
    · exact h
  | write j n =>
    simp only [SndSt.step]
    split
    · rename_i hj
      have hjk := hne hj (by simp [SPhase.bad])
      split
      · rw [← h]; exact SndSt.release_ne s _ (by rfl) j _ hjk
      · rw [← h]; exact SndSt.set_ne s _ (by rfl) j _ hjk
    · exact h
  | ioErr j =>
    simp only [SndSt.step]
    split
    · rename_i hj
      have hjk := hne hj (by simp [SPhase.bad])
      rw [← h]; exact SndSt.release_ne s _ (by rfl) j _ hjk
    · rename_i hj
      have hjk := hne hj (by simp [SPhase.bad])
      rw [← h]; exact SndSt.release_ne s _ (by rfl) j _ hjk
    · exact h
  | drop j =>
    simp only [SndSt.step]
    split
    · rename_i hj
      have hjk := hne hj (by simp [SPhase.bad])
      rw [← h]; exact SndSt.set_ne s _ (by rfl) j _ hjk
    · rename_i hj
      have hjk := hne hj (by simp [SPhase.bad])
      rw [← h]; exact SndSt.set_ne s s (by rfl) j _ hjk
    · rename_i hj
      have hjk := hne hj (by simp [SPhase.bad])
      rw [← h]; exact SndSt.set_ne s s (by rfl) j _ hjk
    · exact h

theorem SndSt.step_closed (s : SndSt S) (e : SEv) (h : s.closed = true) : (s.step e).closed = true := by
  cases e with
  | call x => exact h
  | acquire j => simp only [SndSt.step]; split <;> (try split) <;> (try split) <;> exact h
  | push j => simp only [SndSt.step]; split <;> (try split) <;> (try split) <;> first | exact h | rfl
  | write j n => simp only [SndSt.step]; split <;> (try split) <;> exact h
  | ioErr j => simp only [SndSt.step]; split <;> exact h
  | drop j => simp only [SndSt.step]; split <;> exact h

/-- No call has ended badly and the half is not shut down. Proof device: nothing in the code corresponds. -/
def SndSt.Clean (s : SndSt S) : Prop := s.closed = false ∧ ∀ (k : Nat) (c : SCall), s.calls[k]? = some c → ¬ c.phase.bad

theorem SndSt.Clean.before {s : SndSt S} {e : SEv} (h : (s.step e).Clean) : s.Clean := by
  refine ⟨?_, ?_⟩
  · cases hc : s.closed with
    | false => rfl
    | true => have := s.step_closed e hc; rw [h.1] at this; cases this
  · intro k c hk hb
    obtain ⟨m, ph⟩ := c
    exact h.2 k ⟨m, ph⟩ (s.step_bad e hk hb) hb

/-- What the call that has the permit still has to write. Proof device: nothing in the code corresponds. -/
def SndSt.rest (s : SndSt S) : Bytes := match s.permit with
  | some k => match s.calls[k]? with
    | some ⟨_, .writing r⟩ => r
    | _ => []
  | none => []

theorem SndSt.rest_none {s : SndSt S} (h : s.permit = none) : s.rest = [] := by simp [SndSt.rest, h]

theorem SndSt.rest_writing {s : SndSt S} {k : Nat} {m : Option Msg} {r : Bytes} (h : s.permit = some k)
    (hk : s.calls[k]? = some ⟨m, .writing r⟩) : s.rest = r := by simp [SndSt.rest, h, hk]

theorem SndSt.rest_taken {s : SndSt S} {k : Nat} {m : Option Msg} (h : s.permit = some k)
    (hk : s.calls[k]? = some ⟨m, .taken⟩) : s.rest = [] := by simp [SndSt.rest, h, hk]

theorem SndSt.rest_set {t : SndSt S} {k : Nat} {c : SCall} {r : Bytes} (h : t.permit = some k) (hk : t.calls[k]? = some c) :
    (t.set k (.writing r)).rest = r :=
  SndSt.rest_writing (s := t.set k (.writing r)) (m := c.msg) h (by rw [SndSt.set_get]; simp [hk])

theorem SndSt.rest_congr {s t : SndSt S} (h : t.permit = s.permit) (hc : ∀ k, s.permit = some k → t.calls[k]? = s.calls[k]?) :
    t.rest = s.rest := by
  unfold SndSt.rest
  rw [h]
  cases hp : s.permit with
  | none => rfl
  | some k => simp only; rw [hc k hp]

/-- What was encrypted, what is on the wire. Proof device: nothing in the code corresponds. -/
structure WireInv (l : Link S) : Prop where
  inv : SndInv l.snd
  enc : l.snd.enc = S.after l.start (l.pushed.map (fun p => Codec.encodeMsg p.2))
  wire : l.snd.Clean → l.snd.wire ++ l.snd.rest = S.wire l.start (l.pushed.map (fun p => Codec.encodeMsg p.2)) ∧
    ∀ p ∈ l.pushed, Fits p.2 = true

theorem WireInv.init (s : S.St) : WireInv (Link.init s) := ⟨.init s, rfl, fun _ => ⟨rfl, by simp [Link.init]⟩⟩

theorem fits_of_frameBytes (L : S.Lawful) {s : S.St} {m : Msg} {b : Bytes} (h : frameBytes (S.push s (Codec.encodeMsg m)).1 = .ok b) :
    Fits m = true ∧ b = frame (S.push s (Codec.encodeMsg m)).1 := by
  have hm : maxFrame = 8192 := rfl
  by_cases hl : (S.push s (Codec.encodeMsg m)).1.length ≤ maxFrame
  · rw [frameBytes_ok hl] at h
    refine ⟨?_, by cases h; rfl⟩
    rw [L.push_len] at hl
    simp only [Fits, decide_eq_true_eq]; omega
  · unfold frameBytes at h
    rw [if_pos (by omega)] at h
    cases h

theorem frameBytes_of_fits (L : S.Lawful) {m : Msg} (h : Fits m = true) (s : S.St) :
    frameBytes (S.push s (Codec.encodeMsg m)).1 = .ok (frame (S.push s (Codec.encodeMsg m)).1) := by
  have hm : maxFrame = 8192 := rfl
  simp only [Fits, decide_eq_true_eq] at h
  exact frameBytes_ok (by rw [L.push_len]; omega)

/-- A step that encrypts nothing, leaves the wire and what remains to be written. -/
theorem WireInv.idle {l : Link S} (h : WireInv l) {e : SEv} (hp : l.snd.pushing e = []) (he : (l.snd.step e).enc = l.snd.enc)
    (hw : (l.snd.step e).Clean → (l.snd.step e).wire ++ (l.snd.step e).rest = l.snd.wire ++ l.snd.rest) : WireInv (l.send e) := by
  refine ⟨h.inv.step e, ?_, ?_⟩
  · simp only [Link.send, hp, List.append_nil]; rw [he]; exact h.enc
  · intro hc
    simp only [Link.send, hp, List.append_nil] at hc ⊢
    have := h.wire hc.before
    rw [hw hc]
    exact this

theorem WireInv.send (L : S.Lawful) {l : Link S} (h : WireInv l) (e : SEv) : WireInv (l.send e) := by
  have hi := h.inv
  cases e with
  | call x =>
    refine h.idle rfl rfl (fun _ => ?_)
    show l.snd.wire ++ _ = _
    congr 1
    refine SndSt.rest_congr rfl ?_
    intro k hk
    obtain ⟨c, hc, -⟩ := hi.held k hk
    show (l.snd.calls ++ [_])[k]? = _
    rw [List.getElem?_append_left (List.getElem?_eq_some_iff.mp hc).1]
  | acquire j =>
    refine h.idle rfl ?_ ?_
    · simp only [SndSt.step]; split <;> (try split) <;> (try split) <;> rfl
    · intro hc
      simp only [SndSt.step] at hc ⊢
      split
      · rename_i m hj
        rw [hj] at hc
        simp only at hc
        split
        · rfl
        · rename_i hn
          rw [hn] at hc
          simp only at hc
          split
          · show l.snd.wire ++ _ = _
            congr 1
            rw [SndSt.rest_none hn]
            exact SndSt.rest_taken (k := j) (m := m) rfl (by
              show (l.snd.set j .taken).calls[j]? = _
              rw [SndSt.set_call _ j .taken hj]; simp)
          · rename_i hs
            rw [if_neg hs] at hc
            exact absurd (show SPhase.bad .panicked from trivial) (hc.2 j ⟨m, .panicked⟩ (by
              rw [SndSt.set_call _ j .panicked hj]; simp))
      · rfl
  | push j =>
    cases hj : l.snd.calls[j]? with
    | none => exact h.idle (by simp [SndSt.pushing, hj]) (by simp [SndSt.step, hj]) (fun _ => by simp [SndSt.step, hj])
    | some c =>
      obtain ⟨m, ph⟩ := c
      by_cases hph : ph = .taken
      · subst hph
        have hpm := hi.perm j _ hj trivial
        cases m with
        | none =>
          refine h.idle (by simp [SndSt.pushing, hj]) (by simp [SndSt.step, hj]; rfl) (fun hc => ?_)
          simp only [SndSt.step, hj] at hc
          exact absurd hc.1 (by simp [SndSt.release, SndSt.set])
        | some m =>
          have hpu : l.snd.pushing (.push j) = [(j, m)] := by simp [SndSt.pushing, hj]
          have henc : (l.snd.step (.push j)).enc = (S.push l.snd.enc (Codec.encodeMsg m)).2 := by
            simp only [SndSt.step, hj]
            split
            · rfl
            · split <;> rfl
          refine ⟨hi.step (.push j), ?_, ?_⟩
          · simp only [Link.send, hpu, List.map_append, after_append, List.map_cons, List.map_nil, SStream.after]
            rw [henc, ← h.enc]
          · intro hc
            have hb := h.wire hc.before
            simp only [Link.send] at hc
            simp only [Link.send, hpu]
            simp only [SndSt.step, hj] at hc ⊢
            split
            · rename_i e' he'
              rw [he'] at hc
              exact absurd (show SPhase.bad (.done (.error e')) from trivial) (hc.2 j ⟨some m, .done (.error e')⟩ (by
                rw [SndSt.release_get]; simp [hj]))
            · rename_i b hfb
              rw [hfb] at hc
              simp only at hc
              obtain ⟨hfit, rfl⟩ := fits_of_frameBytes L hfb
              split
              · rename_i hcl
                rw [if_pos hcl] at hc
                exact absurd hc.1 (by simp [SndSt.release, SndSt.set, hcl])
              · refine ⟨?_, ?_⟩
                · rw [SndSt.rest_set (c := ⟨some m, .taken⟩) (by exact hpm) (by exact hj)]
                  have hr := hb.1
                  rw [SndSt.rest_taken hpm hj, List.append_nil] at hr
                  simp only [List.map_append, wire_append, List.map_cons, List.map_nil, SStream.wire, List.append_nil]
                  rw [← hr, ← h.enc]
                  rfl
                · intro p hp
                  rcases List.mem_append.mp hp with hp | hp
                  · exact hb.2 p hp
                  · simp only [List.mem_singleton] at hp; subst hp; exact hfit
      · have h1 : l.snd.step (.push j) = l.snd := by
          simp only [SndSt.step, hj]
          split
          · rename_i heq; cases heq; exact absurd rfl hph
          · rename_i heq; cases heq; exact absurd rfl hph
          · rfl
        refine h.idle ?_ (by rw [h1]) (fun _ => by rw [h1])
        simp only [SndSt.pushing, hj]
        split
        · rename_i heq; cases heq; exact absurd rfl hph
        · rfl
  | write j n =>
    refine h.idle rfl ?_ ?_
    · simp only [SndSt.step]; split <;> (try split) <;> rfl
    · intro _
      simp only [SndSt.step]
      split
      · rename_i m r hj
        have hpm := hi.perm j _ hj trivial
        rw [SndSt.rest_writing hpm hj]
        split
        · rename_i hle
          rw [SndSt.rest_none (by rfl)]
          show (l.snd.wire ++ r.take n) ++ [] = _
          rw [List.take_of_length_le hle, List.append_nil]
        · rw [SndSt.rest_set (c := ⟨m, .writing r⟩) (by exact hpm) (by exact hj)]
          show (l.snd.wire ++ r.take n) ++ r.drop n = _
          rw [List.append_assoc, List.take_append_drop]
      · rfl
  | ioErr j =>
    refine h.idle rfl ?_ ?_
    · simp only [SndSt.step]; split <;> rfl
    · intro hc
      simp only [SndSt.step] at hc ⊢
      split
      · rename_i m r hj
        rw [hj] at hc
        exact absurd (show SPhase.bad (.done (.error _)) from trivial) (hc.2 j ⟨m, .done (.error "io error")⟩ (by
          simp only []; rw [SndSt.release_get]; simp [hj]))
      · rename_i hj
        rw [hj] at hc
        exact absurd (show SPhase.bad (.done (.error _)) from trivial) (hc.2 j ⟨none, .done (.error "io error")⟩ (by
          simp only []; rw [SndSt.release_get]; simp [hj]))
      · rfl
  | drop j =>
    refine h.idle rfl ?_ ?_
    · simp only [SndSt.step]; split <;> rfl
    · intro hc
      simp only [SndSt.step] at hc ⊢
      split
      · rename_i m hj
        show l.snd.wire ++ _ = _
        congr 1
        refine SndSt.rest_congr rfl ?_
        intro k hk
        refine SndSt.set_ne _ _ rfl j _ ?_
        rintro rfl
        obtain ⟨c, hc1, hc2⟩ := hi.held _ hk
        rw [hj] at hc1; cases hc1; exact hc2
      · rename_i m hj
        rw [hj] at hc
        exact absurd (show SPhase.bad (.dropped true) from trivial) (hc.2 j ⟨m, .dropped true⟩ (by
          simp only []; show (l.snd.set j _).calls[j]? = _; rw [SndSt.set_get]; simp [hj]))
      · rename_i m r hj
        rw [hj] at hc
        exact absurd (show SPhase.bad (.dropped true) from trivial) (hc.2 j ⟨m, .dropped true⟩ (by
          simp only []; show (l.snd.set j _).calls[j]? = _; rw [SndSt.set_get]; simp [hj]))
      · rfl

theorem WireInv.other {l l' : Link S} (h : WireInv l) (h1 : l'.snd = l.snd) (h2 : l'.start = l.start) (h3 : l'.pushed = l.pushed) : WireInv l' := by
  refine ⟨by rw [h1]; exact h.inv, by rw [h1, h2, h3]; exact h.enc, ?_⟩
  rw [h1, h2, h3]; exact h.wire

end Lair
