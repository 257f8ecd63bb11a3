import Verif.Props.StarveLim

/-
C91, the rest: no request starves within all the limits of C88 - the pipes hold `cap` bytes, the server handles `lim` requests of a connection at the
same time, and both ends read bytes only while no whole message is there.
-/
namespace Lair

variable {S : SStream} {E : Env} {st : E.S.σ}

/-! ### One direction -/

/-- Every message taken takes bytes. -/
theorem got_le (L : S.Lawful) {l : Link S} (h : l.Good) : l.got.length ≤ (arrived l.net).length := by
  obtain ⟨ha, hc, todo, t, hf, -, hw, hbytes, hall, -⟩ := h.todo L
  have hsent := (h.snt.wire h.fine.clean).1
  have hms : ∀ Q : List (Nat × Msg), Q.map (fun p => Codec.encodeMsg p.2) = (Q.map Prod.snd).map Codec.encodeMsg := by intro Q; simp [Function.comp_def]
  have e1 : (l.snd.wire ++ l.snd.rest).length = (S.wire l.start (l.got.map Codec.encodeMsg)).length + (S.wire l.rcv.cr.dec (todo.map Codec.encodeMsg)).length := by
    rw [hsent, hms, hall, List.map_append, wire_append, List.length_append, wire_len L (S.after l.start (l.got.map Codec.encodeMsg)) l.rcv.cr.dec]
  have e2 := congrArg List.length hbytes
  rw [hw] at e1
  simp only [List.length_append] at e1 e2
  have e3 : ∀ (s : S.St) (ds : List Bytes), ds.length ≤ (S.wire s ds).length := by
    intro s ds
    induction ds generalizing s with
    | nil => exact Nat.le_refl _
    | cons d ds ih =>
      have := ih (S.push s d).2
      simp only [SStream.wire, List.length_append, frame, le16_length, List.length_cons]
      omega
  have := e3 l.start (l.got.map Codec.encodeMsg)
  rw [List.length_map] at this
  omega

/-- Bytes are on the way. -/
theorem rest_of_lt {l : Link S} (h : l.Good) (hp : (arrived l.net).length < l.snd.wire.length) : ∃ b, b ≠ [] ∧ arrived l.net ++ b <+: l.snd.wire := by
  obtain ⟨b, hb⟩ := h.fine.carried.2
  refine ⟨b, ?_, by rw [hb]; exact List.prefix_refl _⟩
  rintro rfl
  rw [List.append_nil] at hb
  rw [hb] at hp; omega

theorem lt_of_rest {l : Link S} {b : Bytes} (hb : b ≠ []) (h : arrived l.net ++ b <+: l.snd.wire) : (arrived l.net).length < l.snd.wire.length := by
  have := h.length_le
  have := List.length_pos_iff.mpr hb
  simp only [List.length_append] at *
  omega

theorem grow_steps {l : Nat → Link S} (hs : ∀ n, LStep (l n) (l (n + 1))) (n d : Nat) : (l n).got.length ≤ (l (n + d)).got.length ∧
    (l n).snd.wire.length ≤ (l (n + d)).snd.wire.length ∧ (arrived (l n).net).length ≤ (arrived (l (n + d)).net).length := by
  induction d with
  | zero => exact ⟨Nat.le_refl _, Nat.le_refl _, Nat.le_refl _⟩
  | succ d ih =>
    obtain ⟨-, -, b3, ⟨a, b4⟩, b5⟩ := (hs (n + d)).grows
    have h4 : (l (n + d)).got.length ≤ (l (n + d + 1)).got.length := by rw [b4]; simp
    exact ⟨Nat.le_trans ih.1 h4, Nat.le_trans ih.2.1 b3, Nat.le_trans ih.2.2 b5⟩

/-- While no bytes arrive, what is there gets taken, until nothing is there any more. -/
theorem drained (L : S.Lawful) {l : Nat → Link S} (hg : ∀ n, (l n).Good) (hs : ∀ n, LStep (l n) (l (n + 1)))
    (hP : ∀ n, (∃ i, (l n).rcv.poll.1 = .item i) → ∃ m, n ≤ m ∧ (∃ i, (l m).rcv.poll.1 = .item i) ∧ l (m + 1) = (l m).poll)
    {n : Nat} (hA : ∀ m, n ≤ m → (arrived (l (m + 1)).net).length = (arrived (l m).net).length) :
    ∃ T, n ≤ T ∧ ∀ m, T ≤ m → ∀ i, (l m).rcv.poll.1 ≠ .item i := by
  have hconst : ∀ d, (arrived (l (n + d)).net).length = (arrived (l n).net).length := by
    intro d
    induction d with
    | zero => rfl
    | succ d ih => exact (hA (n + d) (Nat.le_add_right n d)).trans ih
  have main : ∀ N n', n ≤ n' → (arrived (l n).net).length - (l n').got.length ≤ N → ∃ T, n ≤ T ∧ ∀ m, T ≤ m → ∀ i, (l m).rcv.poll.1 ≠ .item i := by
    intro N
    induction N with
    | zero =>
      intro n' hn' hN
      refine Classical.byContradiction fun hno => ?_
      obtain ⟨m, hm, i, hi⟩ : ∃ m, n' ≤ m ∧ ∃ i, (l m).rcv.poll.1 = .item i := by
        refine Classical.byContradiction fun h => hno ⟨n', hn', fun m hm i hi => h ⟨m, hm, i, hi⟩⟩
      obtain ⟨p, hp, ⟨j, hj⟩, hl⟩ := hP m ⟨i, hi⟩
      have h1 : (l (p + 1)).got.length = (l p).got.length + 1 := by rw [hl]; simp [Link.poll, hj, Polled.toList]
      have h2 := (grow_steps hs n' (p - n')).1
      rw [show n' + (p - n') = p by omega] at h2
      have h3 := got_le L (hg (p + 1))
      have h4 := hconst (p + 1 - n)
      rw [show n + (p + 1 - n) = p + 1 by omega] at h4
      omega
    | succ N ih =>
      intro n' hn' hN
      by_cases hex : ∃ m, n' ≤ m ∧ ∃ i, (l m).rcv.poll.1 = .item i
      · obtain ⟨m, hm, i, hi⟩ := hex
        obtain ⟨p, hp, ⟨j, hj⟩, hl⟩ := hP m ⟨i, hi⟩
        have h1 : (l (p + 1)).got.length = (l p).got.length + 1 := by rw [hl]; simp [Link.poll, hj, Polled.toList]
        have h2 := (grow_steps hs n' (p - n')).1
        rw [show n' + (p - n') = p by omega] at h2
        exact ih (p + 1) (by omega) (by omega)
      · exact ⟨n', hn', fun m hm i hi => hex ⟨m, hm, i, hi⟩⟩
  exact main _ n (Nat.le_refl _) (Nat.le_refl _)

/-- While nothing is written, the pipe runs empty. -/
theorem emptied {l : Nat → Link S} (hg : ∀ n, (l n).Good) (hs : ∀ n, LStep (l n) (l (n + 1)))
    (hA : ∀ n, (∃ b, b ≠ [] ∧ arrived (l n).net ++ b <+: (l n).snd.wire) → ∃ m, n ≤ m ∧ ∃ b, b ≠ [] ∧ l (m + 1) = (l m).arrive b)
    {n : Nat} (hw : ∀ d, (l (n + d)).snd.wire.length = (l n).snd.wire.length) : ∃ d, (l (n + d)).inPipe = 0 := by
  have main : ∀ N d, (l (n + d)).inPipe ≤ N → ∃ d, (l (n + d)).inPipe = 0 := by
    intro N
    induction N with
    | zero => intro d h; exact ⟨d, by omega⟩
    | succ N ih =>
      intro d h
      by_cases h0 : (l (n + d)).inPipe = 0
      · exact ⟨d, h0⟩
      obtain ⟨p, hp, b, hb, hl⟩ := hA (n + d) (rest_of_lt (hg _) (by simp only [Link.inPipe] at h0; omega))
      have h2 := (grow_steps hs (n + d) (p - (n + d))).2.2
      rw [show n + d + (p - (n + d)) = p by omega] at h2
      have h3 : (arrived (l (p + 1)).net).length = (arrived (l p).net).length + b.length := by
        rw [hl]; simp [Link.arrive, arrived_append, arrived]
      have h4 := List.length_pos_iff.mpr hb
      have h5 := hw (p + 1 - n)
      rw [show n + (p + 1 - n) = p + 1 by omega] at h5
      have h6 := hw d
      refine ih (p + 1 - n) ?_
      rw [show n + (p + 1 - n) = p + 1 by omega]
      simp only [Link.inPipe] at h h0 ⊢
      omega
  exact main _ 0 (Nat.le_refl _)

/-! ### What a part that does not move leaves as it is -/

/-- A call that writes has something to write. Proof device: nothing in the code corresponds. -/
def SndSt.Full (s : SndSt S) : Prop := ∀ (k : Nat) (mo : Option Msg) (r : Bytes), s.calls[k]? = some ⟨mo, .writing r⟩ → r ≠ []

theorem Full.step {s : SndSt S} (h : s.Full) (e : SEv) : (s.step e).Full := by
  have hset : ∀ (t : SndSt S) (j : Nat) (p : SPhase), t.calls = s.calls → (∀ r, p = .writing r → r ≠ []) → (t.set j p).Full := by
    intro t j p ht hp k mo r hk
    rw [SndSt.set_get, ht] at hk
    cases hc : s.calls[k]? with
    | none => rw [hc] at hk; cases hk
    | some c0 =>
      rw [hc] at hk
      simp only [Option.map_some, Option.some.injEq] at hk
      split at hk
      · cases hk; exact hp r rfl
      · subst hk; exact h k mo r hc
  have hrel : ∀ (t : SndSt S) (j : Nat) (r : Res Unit), t.calls = s.calls → (t.release j r).Full := by
    intro t j r ht
    have h0 : (t.set j (.done r)).Full := hset t j (.done r) ht (fun _ he => by cases he)
    exact h0
  cases e with
  | call m =>
    intro k mo r hk
    simp only [SndSt.step] at hk
    by_cases hlt : k < s.calls.length
    · rw [List.getElem?_append_left hlt] at hk; exact h k mo r hk
    · rw [List.getElem?_append_right (by omega)] at hk
      have := List.mem_of_getElem? hk
      simp at this
  | acquire k =>
    simp only [SndSt.step]
    split
    · split
      · exact h
      · split
        · exact hset s k .taken rfl (fun _ he => by cases he)
        · exact hset s k .panicked rfl (fun _ he => by cases he)
    · exact h
  | push k =>
    simp only [SndSt.step]
    split
    · split
      · exact hrel _ k _ rfl
      · rename_i b hfb
        split
        · exact hrel _ k _ rfl
        · refine hset _ k _ rfl (fun r he => ?_)
          cases he
          simp only [frameBytes] at hfb
          repeat' split at hfb
          all_goals first | (cases hfb; simp [le16]) | cases hfb
    · exact hrel _ k _ rfl
    · exact h
  | write k n =>
    simp only [SndSt.step]
    split
    · split
      · exact hrel _ k _ rfl
      · rename_i hlt
        refine hset _ k _ rfl (fun r he => ?_)
        cases he
        intro h0
        have := congrArg List.length h0
        simp at this
        omega
    · exact h
  | ioErr k =>
    simp only [SndSt.step]
    split
    · exact hrel _ k _ rfl
    · exact hrel _ k _ rfl
    · exact h
  | drop k =>
    simp only [SndSt.step]
    split
    · exact hset s k _ rfl (fun _ he => by cases he)
    · exact hset s k _ rfl (fun _ he => by cases he)
    · exact hset s k _ rfl (fun _ he => by cases he)
    · exact h

theorem full_link {l l' : Link S} (h : l.snd.Full) (hs : LStep l l') : l'.snd.Full := by
  cases hs with
  | same => exact h
  | prog _ _ => exact Full.step h _
  | call => exact Full.step h _
  | drop _ => exact Full.step h _
  | arrive => exact h
  | poll => exact h

/-- Work of the sending half that brings nothing forward leaves a call that writes alone. -/
theorem idle_snd {s : SndSt S} (hi : SndInv s) (hf : s.Full) {e : SEv} (hp : e.progress = true) (hm : ¬ s.Moves e) {k : Nat} {mo : Option Msg} {r : Bytes}
    (hk : s.calls[k]? = some ⟨mo, .writing r⟩) : (s.step e).calls[k]? = some ⟨mo, .writing r⟩ ∧ (s.step e).wire = s.wire := by
  have hper := hi.perm k _ hk trivial
  cases e with
  | acquire j =>
    simp only [SndSt.step]
    split
    · rw [hper]; exact ⟨hk, rfl⟩
    · exact ⟨hk, rfl⟩
  | push j =>
    simp only [SndSt.step]
    split
    · rename_i m hj; exact absurd ⟨_, hj⟩ hm
    · rename_i hj; exact absurd ⟨_, hj⟩ hm
    · exact ⟨hk, rfl⟩
  | write j n =>
    cases n with
    | succ n =>
      simp only [SndSt.step]
      split
      · rename_i m r' hj; exact absurd ⟨Nat.succ_pos n, _, _, hj⟩ hm
      · exact ⟨hk, rfl⟩
    | zero =>
      simp only [SndSt.step]
      split
      · rename_i m r' hj
        have hne := hf j m r' hj
        have hlen := List.length_pos_iff.mpr hne
        rw [if_neg (by omega)]
        refine ⟨?_, by simp [SndSt.set]⟩
        have hjk := hi.perm j _ hj trivial
        rw [hper] at hjk; cases hjk
        rw [hj] at hk; cases hk
        rw [SndSt.set_call _ k _ (show ({ s with wire := s.wire ++ r.take 0 } : SndSt S).calls[k]? = _ from hj)]
        simp
      · exact ⟨hk, rfl⟩
  | _ => cases hp

theorem call_writing (s : SndSt S) (m : Option Msg) {k : Nat} {c : SCall} (hk : s.calls[k]? = some c) :
    (s.step (.call m)).calls[k]? = some c := by
  simp only [SndSt.step]
  rw [List.getElem?_append_left (List.getElem?_eq_some_iff.mp hk).1]; exact hk

theorem drop_writing (s : SndSt S) {j k : Nat} {c : SCall} (hk : s.calls[k]? = some c)
    (hj : j ≠ k) : (s.step (.drop j)).calls[k]? = some c ∧ (s.step (.drop j)).wire = s.wire := by
  have hset : ∀ (p : SPhase), (s.set j p).calls[k]? = some c := by
    intro p
    rw [SndSt.set_get, hk]
    simp [hj]
  simp only [SndSt.step]
  split
  · exact ⟨hset _, rfl⟩
  · exact ⟨hset _, rfl⟩
  · exact ⟨hset _, rfl⟩
  · exact ⟨hk, rfl⟩

/-- What the parts that do not move leave as it is, on the connection. -/
theorem Conn.idle {w : World E S} {c : Nat} {x : Conn S} (hx : w.conns[c]? = some x) (hu : x.up.Good) (hd : x.down.Good) (hfu : x.up.snd.Full)
    (hfd : x.down.snd.Full) {e : NEv} (hb : ¬ w.Breaks c (.net c e)) :
    (¬ w.MovesPart c .wireUp (.net c e) → (arrived (x.step e).up.net).length = (arrived x.up.net).length) ∧
    (¬ w.MovesPart c .wireDown (.net c e) → (arrived (x.step e).down.net).length = (arrived x.down.net).length) ∧
    (¬ w.MovesPart c .sendUp (.net c e) → ∀ (k : Nat) (mo : Option Msg) (r : Bytes), x.up.snd.calls[k]? = some ⟨mo, .writing r⟩ →
      (x.step e).up.snd.calls[k]? = some ⟨mo, .writing r⟩ ∧ (x.step e).up.snd.wire = x.up.snd.wire) ∧
    (¬ w.MovesPart c .sendDown (.net c e) → ∀ (k : Nat) (mo : Option Msg) (r : Bytes), x.down.snd.calls[k]? = some ⟨mo, .writing r⟩ →
      (x.step e).down.snd.calls[k]? = some ⟨mo, .writing r⟩ ∧ (x.step e).down.snd.wire = x.down.snd.wire) := by
  obtain ⟨b1, b2, b3, b4, b5, b6⟩ := World.Breaks.net hb
  have hpoll : ∀ l : Link S, (arrived l.poll.net).length = (arrived l.net).length := by
    intro l; simp [Link.poll, arrived_append, arrived]
  cases e with
  | ask id q =>
    refine ⟨fun _ => rfl, fun _ => rfl, fun _ k mo r hk => ⟨?_, rfl⟩, fun _ k mo r hk => ⟨hk, rfl⟩⟩
    exact call_writing x.up.snd (some (.req id q)) hk
  | asked k => simp only [Conn.step]; repeat' split
               all_goals exact ⟨fun _ => rfl, fun _ => rfl, fun _ k mo r hk => ⟨hk, rfl⟩, fun _ k mo r hk => ⟨hk, rfl⟩⟩
  | wake k => exact ⟨fun _ => rfl, fun _ => rfl, fun _ k mo r hk => ⟨hk, rfl⟩, fun _ k mo r hk => ⟨hk, rfl⟩⟩
  | timeout k => exact ⟨fun _ => rfl, fun _ => rfl, fun _ k mo r hk => ⟨hk, rfl⟩, fun _ k mo r hk => ⟨hk, rfl⟩⟩
  | cancel j =>
    simp only [Conn.step]
    split
    · rename_i a hak
      refine ⟨fun _ => rfl, fun _ => rfl, fun _ k mo r hk => ?_, fun _ k mo r hk => ⟨hk, rfl⟩⟩
      refine drop_writing x.up.snd hk ?_
      intro he
      exact hb ⟨rfl, x, a, ⟨mo, .writing r⟩, hx, hak, by rw [he]; exact hk, Or.inr ⟨r, rfl⟩⟩
    · exact ⟨fun _ => rfl, fun _ => rfl, fun _ k mo r hk => ⟨hk, rfl⟩, fun _ k mo r hk => ⟨hk, rfl⟩⟩
  | shutdown => exact absurd rfl b1
  | upSend e =>
    simp only [Conn.step]
    split
    · rename_i he
      refine ⟨fun _ => rfl, fun _ => rfl, fun hm k mo r hk => ?_, fun _ k mo r hk => ⟨hk, rfl⟩⟩
      exact idle_snd hu.snt.inv hfu (internal_progress he (fun k hk => b5 k (by rw [hk]))) (fun h => hm ⟨⟨rfl, x, hx, h⟩, trivial⟩) hk
    · exact ⟨fun _ => rfl, fun _ => rfl, fun _ k mo r hk => ⟨hk, rfl⟩, fun _ k mo r hk => ⟨hk, rfl⟩⟩
  | upArrive b =>
    refine ⟨fun hm => ?_, fun _ => rfl, fun _ k mo r hk => ⟨hk, rfl⟩, fun _ k mo r hk => ⟨hk, rfl⟩⟩
    have hb0 : b = [] := by
      refine Classical.byContradiction fun h => hm ⟨⟨rfl, x, hx, h, ?_⟩, trivial⟩
      exact Classical.byContradiction fun h2 => hb ⟨rfl, x, hx, h2⟩
    subst hb0
    simp [Conn.step, Link.arrive, arrived_append, arrived]
  | upClose => exact absurd rfl b3
  | downSend e =>
    simp only [Conn.step]
    split
    · rename_i he
      simp only [Bool.and_eq_true] at he
      refine ⟨fun _ => rfl, fun _ => rfl, fun _ k mo r hk => ⟨hk, rfl⟩, fun hm k mo r hk => ?_⟩
      exact idle_snd hd.snt.inv hfd (internal_progress he.1 (fun k hk => b6 k (by rw [hk]))) (fun h => hm ⟨⟨rfl, x, hx, h⟩, trivial⟩) hk
    · exact ⟨fun _ => rfl, fun _ => rfl, fun _ k mo r hk => ⟨hk, rfl⟩, fun _ k mo r hk => ⟨hk, rfl⟩⟩
  | downRetry j =>
    simp only [Conn.step]
    repeat' split
    all_goals first
      | exact ⟨fun _ => rfl, fun _ => rfl, fun _ k mo r hk => ⟨hk, rfl⟩, fun _ k mo r hk => ⟨hk, rfl⟩⟩
      | exact ⟨fun _ => rfl, fun _ => rfl, fun _ k mo r hk => ⟨hk, rfl⟩, fun _ k mo r hk => ⟨call_writing x.down.snd _ hk, rfl⟩⟩
  | downShutdown => exact absurd rfl b2
  | downArrive b =>
    refine ⟨fun _ => rfl, fun hm => ?_, fun _ k mo r hk => ⟨hk, rfl⟩, fun _ k mo r hk => ⟨hk, rfl⟩⟩
    have hb0 : b = [] := by
      refine Classical.byContradiction fun h => hm ⟨⟨rfl, x, hx, h, ?_⟩, trivial⟩
      exact Classical.byContradiction fun h2 => hb ⟨rfl, x, hx, h2⟩
    subst hb0
    simp [Conn.step, Link.arrive, arrived_append, arrived]
  | downClose => exact absurd rfl b4
  | poll =>
    simp only [Conn.step]
    split
    all_goals exact ⟨fun _ => rfl, fun _ => hpoll _, fun _ k mo r hk => ⟨hk, rfl⟩, fun _ k mo r hk => ⟨hk, rfl⟩⟩

/-- The same in the world. -/
theorem idle {w : World E S} {c : Nat} {x x' : Conn S} (hx : w.conns[c]? = some x) (hu : x.up.Good) (hd : x.down.Good) (hfu : x.up.snd.Full)
    (hfd : x.down.snd.Full) {ev : WEv S} (hb : ¬ w.Breaks c ev) (hx' : (w.step ev).conns[c]? = some x') :
    (¬ w.MovesPart c .wireUp ev → (arrived x'.up.net).length = (arrived x.up.net).length) ∧
    (¬ w.MovesPart c .wireDown ev → (arrived x'.down.net).length = (arrived x.down.net).length) ∧
    (¬ w.MovesPart c .sendUp ev → ∀ (k : Nat) (mo : Option Msg) (r : Bytes), x.up.snd.calls[k]? = some ⟨mo, .writing r⟩ →
      x'.up.snd.calls[k]? = some ⟨mo, .writing r⟩ ∧ x'.up.snd.wire = x.up.snd.wire) ∧
    (¬ w.MovesPart c .sendDown ev → ∀ (k : Nat) (mo : Option Msg) (r : Bytes), x.down.snd.calls[k]? = some ⟨mo, .writing r⟩ →
      x'.down.snd.calls[k]? = some ⟨mo, .writing r⟩ ∧ x'.down.snd.wire = x.down.snd.wire) := by
  have hlt := (List.getElem?_eq_some_iff.mp hx).1
  have hmod : ∀ {d : Nat} {f : Conn S → Conn S}, (w.conns.modify d f)[c]? = some x' → x' = x ∨ d = c ∧ x' = f x := by
    intro d f hy
    rw [List.getElem?_modify, hx] at hy
    by_cases hdc : d = c
    · right; simp [hdc] at hy; exact ⟨hdc, hy.symm⟩
    · left; simp [hdc] at hy; exact hy.symm
  have hsame : w.conns[c]? = some x' → x' = x := by intro h; rw [hx] at h; cases h; rfl
  cases ev with
  | connect u d =>
    simp only [World.step] at hx'
    rw [List.getElem?_append_left hlt] at hx'
    rw [hsame hx']
    exact ⟨fun _ => rfl, fun _ => rfl, fun _ k mo r hk => ⟨hk, rfl⟩, fun _ k mo r hk => ⟨hk, rfl⟩⟩
  | restart => exact absurd trivial hb
  | net d e =>
    rcases hmod hx' with rfl | ⟨rfl, rfl⟩
    · exact ⟨fun _ => rfl, fun _ => rfl, fun _ k mo r hk => ⟨hk, rfl⟩, fun _ k mo r hk => ⟨hk, rfl⟩⟩
    · exact Conn.idle hx hu hd hfu hfd hb
  | serve d =>
    have hpoll : x' = x ∨ x' = { x with up := x.up.poll } := by
      simp only [World.step] at hx'
      split at hx'
      · exact Or.inl (hsame hx')
      · split at hx'
        · exact Or.inl (hsame hx')
        · split at hx'
          all_goals
            rcases hmod hx' with h | ⟨-, h⟩
            · exact Or.inl h
            · exact Or.inr h
    rcases hpoll with rfl | rfl
    · exact ⟨fun _ => rfl, fun _ => rfl, fun _ k mo r hk => ⟨hk, rfl⟩, fun _ k mo r hk => ⟨hk, rfl⟩⟩
    · exact ⟨fun _ => by simp [Link.poll, arrived_append, arrived], fun _ => rfl, fun _ k mo r hk => ⟨hk, rfl⟩, fun _ k mo r hk => ⟨hk, rfl⟩⟩
  | act i ch =>
    have hc : x' = x ∨ ∃ m, x'.up = x.up ∧ x'.down = x.down.send (.call m) := by
      simp only [World.step] at hx'
      split at hx'
      · exact Or.inl (hsame hx')
      · split at hx'
        · rename_i o _
          rcases hmod hx' with h | ⟨-, h⟩
          · exact Or.inl h
          · subst h
            cases o <;> exact Or.inr ⟨_, rfl, rfl⟩
        · exact Or.inl (hsame hx')
    rcases hc with rfl | ⟨m, h1, h2⟩
    · exact ⟨fun _ => rfl, fun _ => rfl, fun _ k mo r hk => ⟨hk, rfl⟩, fun _ k mo r hk => ⟨hk, rfl⟩⟩
    · rw [h1, h2]
      exact ⟨fun _ => rfl, fun _ => rfl, fun _ k mo r hk => ⟨hk, rfl⟩, fun _ k mo r hk => ⟨call_writing x.down.snd _ hk, rfl⟩⟩

/-! ### No request starves within the limits -/

/-- C91. As C89, within all the limits of C88 (`World.CanMove`): pipes that hold `cap` bytes, a server that takes messages, and reads bytes, only while it
    has fewer than `lim` messages of this connection in hand, ends that read only while no whole message is there. A part of the system only has to
    go on, some time later, when it can go on within the limits; a full pipe, a reached limit, a message not yet taken excuse it. All requests are
    answered all the same. -/
theorem C91_no_request_starves_within_limits (L : S.Lawful) (hst : GoodStore E st) (cap lim : Nat) (hcap : 0 < cap) (hlim : 0 < lim)
    (evs : List (WEv S)) (u v : S.St) (σ : Nat → WEv S) :
    let c := (World.run E S st evs).conns.length
    let W := World.after E S st (evs ++ [.connect u v]) σ
    (∀ n, ¬ (W n).Breaks c (σ n)) →
    (∀ n, (W n).FreshIds c) →
    (∀ n, (W n).InTurn c (σ n)) →
    (∀ p n, (∃ e, (W n).MovesPart c p e ∧ (W n).CanMove cap lim c e) → ∃ m, n ≤ m ∧ (W m).MovesPart c p (σ m)) →
    ∀ n k id q, (W n).request c k = some (id, q) → (∀ m, σ m ≠ .net c (.cancel k) ∧ σ m ≠ .net c (.timeout k)) →
      ∃ T, ∀ m, T ≤ m → ∃ d ∈ (W m).sys.done, d.conn = c ∧ d.msg = .req id q ∧ (W m).result c k = some d.outcome := by
  intro c W hb hfresh hturn hL
  refine C89_no_request_starves L hst evs u v σ hb hfresh hturn ?_
  obtain ⟨X, R⟩ := conn_run (st := st) L evs u v σ hb hturn
  have R' := R
  obtain ⟨hX0, hX, hgood, hWs, hinv, hX1, hlinks, hXe⟩ := R'
  have hfull : ∀ n, (X n).up.snd.Full ∧ (X n).down.snd.Full := by
    intro n
    induction n with
    | zero => rw [hX0]; exact ⟨by intro k mo r hk; simp [Conn.init, Link.init, SndSt.init] at hk, by intro k mo r hk; simp [Conn.init, Link.init, SndSt.init] at hk⟩
    | succ n ih => exact ⟨full_link ih.1 (hlinks n).1, full_link ih.2 (hlinks n).2.1⟩
  have hidle := fun m => idle (hX m).1 (hgood m).1 (hgood m).2 (hfull m).1 (hfull m).2 (hb m) (hX1 m)
  -- parts without limits
  have hfree : ∀ p n, (match p with | .handler _ => True | .takeDown => True | .caller _ => True | _ => False) →
      (∃ e, (W n).MovesPart c p e) → ∃ m, n ≤ m ∧ (W m).MovesPart c p (σ m) := by
    rintro p n hp ⟨e, he⟩
    refine hL p n ⟨e, he, he.1, fun x _ => ?_⟩
    obtain ⟨-, h2⟩ := he
    cases p with
    | handler h => cases e <;> first | trivial | exact h2.elim
    | takeDown => cases e with
      | net d e => cases e <;> first | trivial | exact h2.elim
      | _ => exact h2.elim
    | caller k => cases e with
      | net d e => cases e <;> first | trivial | exact h2.elim
      | _ => exact h2.elim
    | _ => exact hp.elim
  have downP : ∀ n, (∃ i, (X n).down.rcv.poll.1 = .item i) → ∃ m, n ≤ m ∧ (∃ i, (X m).down.rcv.poll.1 = .item i) ∧ (X (m + 1)).down = (X m).down.poll := by
    rintro n ⟨i, hi⟩
    obtain ⟨m, hm, ⟨hmv, hp⟩⟩ := hfree .takeDown n trivial ⟨.net c .poll, ⟨rfl, X n, (hX n).1, i, hi⟩, trivial⟩
    have hs := hXe m
    generalize σ m = ev at *
    cases ev with
    | net d e' =>
      cases e' with
      | poll =>
        obtain ⟨rfl, y, hy, i', hmv⟩ := hmv
        have h2 := (hX m).1; rw [hy] at h2; cases h2
        refine ⟨m, hm, ⟨i', hmv⟩, ?_⟩
        show (X (m + 1)).down = _
        rw [hs _ rfl]
        simp only [Conn.step, hmv]
      | _ => exact hp.elim
    | _ => exact hp.elim
  -- the wire to the client
  have hWD : ∀ n, (∃ e, (W n).MovesPart c .wireDown e) → ∃ m, n ≤ m ∧ (W m).MovesPart c .wireDown (σ m) := by
    rintro n ⟨e, he⟩
    refine Classical.byContradiction fun hno => ?_
    have hnot : ∀ m, n ≤ m → ¬ (W m).MovesPart c .wireDown (σ m) := fun m hm h => hno ⟨m, hm, h⟩
    have hA : ∀ m, n ≤ m → (arrived (X (m + 1)).down.net).length = (arrived (X m).down.net).length := fun m hm => (hidle m).2.1 (hnot m hm)
    obtain ⟨T, hT, hitem⟩ := drained (l := fun m => (X m).down) L (fun m => (hgood m).2) (fun m => (hlinks m).2.1) downP hA
    have hlt : (arrived (X n).down.net).length < (X n).down.snd.wire.length := by
      obtain ⟨hmv, hp⟩ := he
      cases e with
      | net d e =>
        cases e with
        | downArrive b =>
          obtain ⟨rfl, y, hy, h1, h2⟩ := hmv
          have := (hX n).1; rw [hy] at this; cases this
          exact lt_of_rest h1 h2
        | _ => exact hp.elim
      | _ => exact hp.elim
    have hconst : ∀ d, (arrived (X (n + d)).down.net).length = (arrived (X n).down.net).length := by
      intro d
      induction d with
      | zero => rfl
      | succ d ih => exact (hA (n + d) (Nat.le_add_right n d)).trans ih
    have h1 := hconst (T - n)
    have h2 := (grow_steps (l := fun m => (X m).down) (fun m => (hlinks m).2.1) n (T - n)).2.1
    simp only [show n + (T - n) = T by omega] at h1 h2
    obtain ⟨b, hb1, hb2⟩ := rest_of_lt (hgood T).2 (by omega)
    obtain ⟨m, hm, h⟩ := hL .wireDown T ⟨.net c (.downArrive b), ⟨⟨rfl, X T, (hX T).1, hb1, hb2⟩, trivial⟩, ⟨rfl, X T, (hX T).1, hb1, hb2⟩, fun y hy => by
      have := (hX T).1; rw [hy] at this; cases this
      exact hitem T (Nat.le_refl _)⟩
    exact hnot m (by omega) h
  have downA : ∀ n, (∃ b, b ≠ [] ∧ arrived (X n).down.net ++ b <+: (X n).down.snd.wire) → ∃ m, n ≤ m ∧ ∃ b, b ≠ [] ∧ (X (m + 1)).down = (X m).down.arrive b := by
    rintro n ⟨b, hb1, hb2⟩
    obtain ⟨m, hm, ⟨hmv, hp⟩⟩ := hWD n ⟨.net c (.downArrive b), ⟨rfl, X n, (hX n).1, hb1, hb2⟩, trivial⟩
    have hs := hXe m
    generalize σ m = ev at *
    cases ev with
    | net d e' =>
      cases e' with
      | downArrive b' =>
        obtain ⟨rfl, y, hy, hmv⟩ := hmv
        refine ⟨m, hm, b', hmv.1, ?_⟩
        show (X (m + 1)).down = _
        rw [hs _ rfl]; rfl
      | _ => exact hp.elim
    | _ => exact hp.elim
  -- the server's sending half
  have hSD : ∀ n, (∃ e, (W n).MovesPart c .sendDown e) → ∃ m, n ≤ m ∧ (W m).MovesPart c .sendDown (σ m) := by
    rintro n ⟨e, he⟩
    obtain ⟨hmv, hp⟩ := he
    cases e with
    | net d e =>
      cases e with
      | downSend e =>
        obtain ⟨rfl, y, hy, hm⟩ := hmv
        have h0 := (hX n).1; rw [hy] at h0; cases h0
        cases e with
        | acquire k => exact hL .sendDown n ⟨.net c (.downSend (.acquire k)), ⟨⟨rfl, X n, hy, hm⟩, trivial⟩, ⟨rfl, X n, hy, hm⟩, fun _ _ => trivial⟩
        | push k => exact hL .sendDown n ⟨.net c (.downSend (.push k)), ⟨⟨rfl, X n, hy, hm⟩, trivial⟩, ⟨rfl, X n, hy, hm⟩, fun _ _ => trivial⟩
        | write k j =>
          obtain ⟨-, mo, r, hk⟩ := hm
          refine Classical.byContradiction fun hno => ?_
          have hnot : ∀ m, n ≤ m → ¬ (W m).MovesPart c .sendDown (σ m) := fun m hm h => hno ⟨m, hm, h⟩
          have hstay : ∀ i, (X (n + i)).down.snd.calls[k]? = some ⟨mo, .writing r⟩ ∧ (X (n + i)).down.snd.wire.length = (X n).down.snd.wire.length := by
            intro i
            induction i with
            | zero => exact ⟨hk, rfl⟩
            | succ i ih =>
              have := (hidle (n + i)).2.2.2 (hnot _ (by omega)) k mo r ih.1
              exact ⟨this.1, by rw [← ih.2]; exact congrArg List.length this.2⟩
          obtain ⟨i, hi⟩ := emptied (l := fun m => (X m).down) (fun m => (hgood m).2) (fun m => (hlinks m).2.1) downA (n := n) (fun i => (hstay i).2)
          have hmv : (W (n + i)).Moves c (.net c (.downSend (.write k 1))) := ⟨rfl, X (n + i), (hX (n + i)).1, Nat.one_pos, mo, r, (hstay i).1⟩
          obtain ⟨m, hm, h⟩ := hL .sendDown (n + i) ⟨.net c (.downSend (.write k 1)), ⟨hmv, trivial⟩, hmv, fun y hy => by
            have h0 := (hX (n + i)).1; rw [hy] at h0; cases h0
            show (X (n + i)).down.inPipe + 1 ≤ cap
            have hi' : (X (n + i)).down.inPipe = 0 := hi
            omega⟩
          exact hnot m (by omega) h
        | _ => exact hm.elim
      | _ => exact hp.elim
    | _ => exact hp.elim
  -- the server's receive loop
  have hgo : ∀ p n, p ≠ .takeUp ∧ p ≠ .wireUp ∧ p ≠ .sendUp → (∃ e, (W n).MovesPart c p e) → ∃ m, n ≤ m ∧ (W m).MovesPart c p (σ m) := by
    rintro p n ⟨h1, h2, h3⟩ hcan
    cases p with
    | takeUp => exact absurd rfl h1
    | wireUp => exact absurd rfl h2
    | sendUp => exact absurd rfl h3
    | sendDown => exact hSD n hcan
    | wireDown => exact hWD n hcan
    | takeDown => exact hfree .takeDown n trivial hcan
    | handler h => exact hfree (.handler h) n trivial hcan
    | caller k => exact hfree (.caller k) n trivial hcan
  have hTU := take_goes L hlim R hb hturn hgo (fun n h => by
    rintro ⟨e, he⟩
    refine hL .takeUp n ⟨e, he, he.1, fun x _ => ?_⟩
    obtain ⟨-, h2⟩ := he
    cases e with
    | serve d => exact h
    | _ => exact h2.elim)
  have upP : ∀ n, (∃ i, (X n).up.rcv.poll.1 = .item i) → ∃ m, n ≤ m ∧ (∃ i, (X m).up.rcv.poll.1 = .item i) ∧ (X (m + 1)).up = (X m).up.poll := by
    rintro n ⟨i, hi⟩
    obtain ⟨m, hm, ⟨hmv, hp⟩⟩ := hTU n ⟨.serve c, ⟨rfl, X n, i, (hX n).1, hi⟩, trivial⟩
    have hs := hX1 m
    generalize σ m = ev at *
    cases ev with
    | serve d =>
      obtain ⟨rfl, y, i', hy, hmv⟩ := hmv
      have h2 := (hX m).1; rw [hy] at h2; cases h2
      refine ⟨m, hm, ⟨i', hmv⟩, ?_⟩
      simp only [World.step, hy, (hX m).2.1.here, hmv, Bool.false_eq_true, if_false] at hs
      have hs' : ((W m).conns.modify c (fun x => { x with up := x.up.poll }))[c]? = some (X (m + 1)) := hs
      rw [List.getElem?_modify, hy] at hs'
      simp at hs'
      show (X (m + 1)).up = _
      rw [← hs']
    | _ => exact hp.elim
  -- the wire to the server
  have hWU : ∀ n, (∃ e, (W n).MovesPart c .wireUp e) → ∃ m, n ≤ m ∧ (W m).MovesPart c .wireUp (σ m) := by
    rintro n ⟨e, he⟩
    refine Classical.byContradiction fun hno => ?_
    have hnot : ∀ m, n ≤ m → ¬ (W m).MovesPart c .wireUp (σ m) := fun m hm h => hno ⟨m, hm, h⟩
    have hA : ∀ m, n ≤ m → (arrived (X (m + 1)).up.net).length = (arrived (X m).up.net).length := fun m hm => (hidle m).1 (hnot m hm)
    obtain ⟨T0, hT0, hitem⟩ := drained (l := fun m => (X m).up) L (fun m => (hgood m).1) (fun m => (hlinks m).1) upP hA
    obtain ⟨T, hT', hroom⟩ := makes_room L R hb hturn hgo (n := T0) (by
      rintro m hm ⟨hmv, hp⟩
      generalize σ m = ev at *
      cases ev with
      | serve d =>
        obtain ⟨rfl, y, i, hy, hi⟩ := hmv
        have := (hX m).1; rw [hy] at this; cases this
        exact hitem m hm i hi
      | _ => exact hp.elim)
    have hT : n ≤ T := by omega
    have hlt : (arrived (X n).up.net).length < (X n).up.snd.wire.length := by
      obtain ⟨hmv, hp⟩ := he
      cases e with
      | net d e =>
        cases e with
        | upArrive b =>
          obtain ⟨rfl, y, hy, h1, h2⟩ := hmv
          have := (hX n).1; rw [hy] at this; cases this
          exact lt_of_rest h1 h2
        | _ => exact hp.elim
      | _ => exact hp.elim
    have hconst : ∀ d, (arrived (X (n + d)).up.net).length = (arrived (X n).up.net).length := by
      intro d
      induction d with
      | zero => rfl
      | succ d ih => exact (hA (n + d) (Nat.le_add_right n d)).trans ih
    have h1 := hconst (T - n)
    have h2 := (grow_steps (l := fun m => (X m).up) (fun m => (hlinks m).1) n (T - n)).2.1
    simp only [show n + (T - n) = T by omega] at h1 h2
    obtain ⟨b, hb1, hb2⟩ := rest_of_lt (hgood T).1 (by omega)
    obtain ⟨m, hm, h⟩ := hL .wireUp T ⟨.net c (.upArrive b), ⟨⟨rfl, X T, (hX T).1, hb1, hb2⟩, trivial⟩, ⟨rfl, X T, (hX T).1, hb1, hb2⟩, fun y hy => by
      have := (hX T).1; rw [hy] at this; cases this
      exact ⟨hitem T hT', by rw [hroom]; exact hlim⟩⟩
    exact hnot m (by omega) h
  have upA : ∀ n, (∃ b, b ≠ [] ∧ arrived (X n).up.net ++ b <+: (X n).up.snd.wire) → ∃ m, n ≤ m ∧ ∃ b, b ≠ [] ∧ (X (m + 1)).up = (X m).up.arrive b := by
    rintro n ⟨b, hb1, hb2⟩
    obtain ⟨m, hm, ⟨hmv, hp⟩⟩ := hWU n ⟨.net c (.upArrive b), ⟨rfl, X n, (hX n).1, hb1, hb2⟩, trivial⟩
    have hs := hXe m
    generalize σ m = ev at *
    cases ev with
    | net d e' =>
      cases e' with
      | upArrive b' =>
        obtain ⟨rfl, y, hy, hmv⟩ := hmv
        refine ⟨m, hm, b', hmv.1, ?_⟩
        show (X (m + 1)).up = _
        rw [hs _ rfl]; rfl
      | _ => exact hp.elim
    | _ => exact hp.elim
  -- the client's sending half
  have hSU : ∀ n, (∃ e, (W n).MovesPart c .sendUp e) → ∃ m, n ≤ m ∧ (W m).MovesPart c .sendUp (σ m) := by
    rintro n ⟨e, he⟩
    obtain ⟨hmv, hp⟩ := he
    cases e with
    | net d e =>
      cases e with
      | upSend e =>
        obtain ⟨rfl, y, hy, hm⟩ := hmv
        have h0 := (hX n).1; rw [hy] at h0; cases h0
        cases e with
        | acquire k => exact hL .sendUp n ⟨.net c (.upSend (.acquire k)), ⟨⟨rfl, X n, hy, hm⟩, trivial⟩, ⟨rfl, X n, hy, hm⟩, fun _ _ => trivial⟩
        | push k => exact hL .sendUp n ⟨.net c (.upSend (.push k)), ⟨⟨rfl, X n, hy, hm⟩, trivial⟩, ⟨rfl, X n, hy, hm⟩, fun _ _ => trivial⟩
        | write k j =>
          obtain ⟨-, mo, r, hk⟩ := hm
          refine Classical.byContradiction fun hno => ?_
          have hnot : ∀ m, n ≤ m → ¬ (W m).MovesPart c .sendUp (σ m) := fun m hm h => hno ⟨m, hm, h⟩
          have hstay : ∀ i, (X (n + i)).up.snd.calls[k]? = some ⟨mo, .writing r⟩ ∧ (X (n + i)).up.snd.wire.length = (X n).up.snd.wire.length := by
            intro i
            induction i with
            | zero => exact ⟨hk, rfl⟩
            | succ i ih =>
              have := (hidle (n + i)).2.2.1 (hnot _ (by omega)) k mo r ih.1
              exact ⟨this.1, by rw [← ih.2]; exact congrArg List.length this.2⟩
          obtain ⟨i, hi⟩ := emptied (l := fun m => (X m).up) (fun m => (hgood m).1) (fun m => (hlinks m).1) upA (n := n) (fun i => (hstay i).2)
          have hmv : (W (n + i)).Moves c (.net c (.upSend (.write k 1))) := ⟨rfl, X (n + i), (hX (n + i)).1, Nat.one_pos, mo, r, (hstay i).1⟩
          obtain ⟨m, hm, h⟩ := hL .sendUp (n + i) ⟨.net c (.upSend (.write k 1)), ⟨hmv, trivial⟩, hmv, fun y hy => by
            have h0 := (hX (n + i)).1; rw [hy] at h0; cases h0
            show (X (n + i)).up.inPipe + 1 ≤ cap
            have hi' : (X (n + i)).up.inPipe = 0 := hi
            omega⟩
          exact hnot m (by omega) h
        | _ => exact hm.elim
      | _ => exact hp.elim
    | _ => exact hp.elim
  -- all
  intro p n hcan
  cases p with
  | takeUp => exact hTU n hcan
  | wireUp => exact hWU n hcan
  | sendUp => exact hSU n hcan
  | sendDown => exact hSD n hcan
  | wireDown => exact hWD n hcan
  | takeDown => exact hfree .takeDown n trivial hcan
  | handler h => exact hfree (.handler h) n trivial hcan
  | caller k => exact hfree (.caller k) n trivial hcan

end Lair
