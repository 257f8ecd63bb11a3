import Verif.Boot
import Verif.Props.PidFile
import Verif.Props.Socket

/-
C73: one server, and the socket leads to it. Whatever processes start, end and crash on one configuration, at most one of them is at work as the
server, and a client that connects to the socket file reaches that one.

The code does not have it: the pid check does not recognise the executable that is built (C42), so a second start takes the socket file away
and the running server is lost for ever; and two checks that overlap on a file left behind can both succeed. It has it for
an executable of the recognised name as long as a start begins only when no other process is in the middle of its check.
-/
namespace Lair
open Pid (pkgName binName)

/-! ### The pid check, one process at a time -/

/-- What is true of the pid file while checks do not overlap. -/
structure Pid.Alone (s : Pid.St) : Prop where
  one : ∀ p q ph ph', s.phase p = some ph → s.phase q = some ph' → ph ≠ .done → ph' ≠ .done → (∀ e, ph ≠ .failed e) → (∀ e, ph' ≠ .failed e) → p = q
  names : ∀ p pr x, s.procs p = some pr → pr.lair = some x → pr.name = pkgName
  done : ∀ q, s.phase q = some .done → s.file = some (.pid q)
  rd : ∀ p i, s.phase p = some (.read i) → s.dir = some i
  ck : ∀ p q, s.phase p = some (.check q) → s.file = some (.pid q)
  rm : ∀ p, s.phase p = some .remove ∨ s.phase p = some .create → ∀ q, s.phase q ≠ some .done
  wr : ∀ p i, s.phase p = some (.write i) → s.dir = some i ∧ i < s.inodes.length ∧ ∀ q, s.phase q ≠ some .done

theorem Pid.St.procs_of_phase {s : Pid.St} {p : Nat} {ph : Pid.Phase} (h : s.phase p = some ph) :
    ∃ pr n, s.procs p = some pr ∧ pr.lair = some (n, ph) := by
  unfold Pid.St.phase at h
  cases hp : s.procs p with
  | none => rw [hp] at h; cases h
  | some pr =>
    rw [hp] at h
    simp only [Option.bind_some, Option.map_eq_some_iff, Prod.exists, exists_eq_right] at h
    obtain ⟨n, hn⟩ := h
    exact ⟨pr, n, rfl, hn⟩

namespace Pid

theorem Alone.init {s : St} (h : ∀ q, s.phase q = none) : Alone s := by
  refine ⟨?_, ?_, ?_, ?_, ?_, ?_, ?_⟩
  · intro p q ph ph' hp; rw [h p] at hp; cases hp
  · intro p pr x hp hx
    have := h p
    simp [St.phase, hp, hx] at this
  · intro q hq; rw [h q] at hq; cases hq
  · intro p i hp; rw [h p] at hp; cases hp
  · intro p i hp; rw [h p] at hp; cases hp
  · intro p hp; rw [h p] at hp; rcases hp with hp | hp <;> cases hp
  · intro p i hp; rw [h p] at hp; cases hp

theorem names_set {s : St} (h : ∀ p pr x, s.procs p = some pr → pr.lair = some x → pr.name = pkgName) {p : Nat} {pr : Proc}
    (hpr : s.procs p = some pr) {y : Nat × Phase} (hy : pr.lair = some y) (x : Nat × Phase) :
    ∀ q qr z, (s.setPhase p pr x).procs q = some qr → qr.lair = some z → qr.name = pkgName := by
  intro q qr z hq hz
  simp only [St.setPhase] at hq
  split at hq
  · cases hq; exact h p pr y hpr hy
  · exact h q qr z hq hz

/-- One system call of the one process that is in its check. -/
theorem Alone.call {s : St} (h : Alone s) {p : Nat} {pr : Proc} {n : Nat} {ph : Phase} (hpr : s.procs p = some pr) (hl : pr.lair = some (n, ph))
    (fault : Bool) : Alone (s.call p pr n fault ph) := by
  have hph : s.phase p = some ph := by simp [St.phase, hpr, hl]
  by_cases hterm : ph = .done ∨ ∃ e, ph = .failed e
  · rcases hterm with rfl | ⟨e, rfl⟩ <;> exact h
  · have hnd : ph ≠ .done := fun e => hterm (Or.inl e)
    have hnf : ∀ e, ph ≠ .failed e := fun e he => hterm (Or.inr ⟨e, he⟩)
    -- all others have succeeded or failed
    have others : ∀ q qh, s.phase q = some qh → q ≠ p → qh = .done ∨ ∃ e, qh = .failed e := by
      intro q qh hq hqp
      by_cases h1 : qh = .done
      · exact Or.inl h1
      · by_cases h2 : ∃ e, qh = .failed e
        · exact Or.inr h2
        · exact absurd (h.one q p qh ph hq hph h1 hnd (fun e he => h2 ⟨e, he⟩) hnf) hqp
    -- a step that changes no file
    have same : ∀ x : Nat × Phase, (x.2 = .done → False) → (∀ i, x.2 = .read i → s.dir = some i) → (∀ q, x.2 = .check q → s.file = some (.pid q)) →
        (x.2 = .remove ∨ x.2 = .create → ∀ q, s.phase q ≠ some .done) → (∀ i, x.2 ≠ .write i) → Alone (s.setPhase p pr x) := by
      intro x h1 h2 h3 h4 h5
      have hp' : ∀ q, (s.setPhase p pr x).phase q = if q = p then some x.2 else s.phase q := phase_set s p pr x
      refine ⟨?_, names_set h.names hpr hl x, ?_, ?_, ?_, ?_, ?_⟩
      · intro a b pa pb ha hb h6 h7 h8 h9
        rw [hp'] at ha hb
        split at ha
        · split at hb
          · rename_i e1 e2; rw [e1, e2]
          · rename_i e1 e2
            rcases others b pb hb e2 with e | ⟨e, he⟩
            · exact absurd e h7
            · exact absurd he (h9 e)
        · rename_i e1
          rcases others a pa ha e1 with e | ⟨e, he⟩
          · exact absurd e h6
          · exact absurd he (h8 e)
      · intro q hq
        rw [hp'] at hq
        split at hq
        · cases hx : x.2 <;> rw [hx] at hq <;> cases hq
          exact absurd hx h1
        · exact h.done q hq
      · intro q i hq
        rw [hp'] at hq
        split at hq
        · exact h2 i (by injection hq)
        · rename_i e; rcases others q _ hq e with e | ⟨_, e⟩ <;> cases e
      · intro q i hq
        rw [hp'] at hq
        split at hq
        · exact h3 i (by injection hq)
        · rename_i e; rcases others q _ hq e with e | ⟨_, e⟩ <;> cases e
      · intro q hq a ha
        rw [hp'] at hq ha
        split at hq
        · have hq : x.2 = .remove ∨ x.2 = .create := by simpa using hq
          split at ha
          · rcases hq with e | e <;> rw [e] at ha <;> cases ha
          · exact h4 hq a ha
        · rename_i e
          rcases hq with hq | hq <;> rcases others q _ hq e with e | ⟨_, e⟩ <;> cases e
      · intro q i hq
        rw [hp'] at hq
        split at hq
        · exact absurd (by injection hq) (h5 i)
        · rename_i e; rcases others q _ hq e with e | ⟨_, e⟩ <;> cases e
    have again : ∀ e, Alone (s.setPhase p pr (retry n e)) := by
      intro e
      rcases retry_phase n e with hr | hr <;> exact same _ (by simp [hr]) (by simp [hr]) (by simp [hr]) (by simp [hr]) (by simp [hr])
    -- a step that changes the files when nobody has succeeded
    have chg : ∀ (t : St) (x : Nat × Phase), t.procs = s.procs → (∀ q, s.phase q ≠ some .done) →
        ((x.2 = .done ∧ t.file = some (.pid p)) ∨ x.2 = .create ∨ ∃ i, x.2 = .write i ∧ t.dir = some i ∧ i < t.inodes.length) → Alone (t.setPhase p pr x) := by
      intro t x ht hno hx
      have hpht : ∀ q, t.phase q = s.phase q := fun q => by simp [St.phase, ht]
      have hp' : ∀ q, (t.setPhase p pr x).phase q = if q = p then some x.2 else s.phase q := fun q => by rw [phase_set, hpht]
      refine ⟨?_, names_set (s := t) (by rw [ht]; exact h.names) (by rw [ht]; exact hpr) hl x, ?_, ?_, ?_, ?_, ?_⟩
      · intro a b pa pb ha hb h6 h7 h8 h9
        rw [hp'] at ha hb
        split at ha
        · split at hb
          · rename_i e1 e2; rw [e1, e2]
          · rename_i e1 e2
            rcases others b pb hb e2 with e | ⟨e, he⟩
            · exact absurd e h7
            · exact absurd he (h9 e)
        · rename_i e1
          rcases others a pa ha e1 with e | ⟨e, he⟩
          · exact absurd e h6
          · exact absurd he (h8 e)
      · intro q hq
        rw [hp'] at hq
        split at hq
        · rename_i e; subst e
          have hq : x.2 = .done := by injection hq
          rcases hx with hx | hx | ⟨i, hx, -⟩
          · exact hx.2
          · rw [hq] at hx; cases hx
          · rw [hq] at hx; cases hx
        · exact absurd hq (hno q)
      · intro q i hq
        rw [hp'] at hq
        split at hq
        · have hq : x.2 = .read i := by injection hq
          rcases hx with hx | hx | ⟨i, hx, -⟩
          · rw [hq] at hx; cases hx.1
          · rw [hq] at hx; cases hx
          · rw [hq] at hx; cases hx
        · rename_i e; rcases others q _ hq e with e | ⟨_, e⟩ <;> cases e
      · intro q i hq
        rw [hp'] at hq
        split at hq
        · have hq : x.2 = .check i := by injection hq
          rcases hx with hx | hx | ⟨i, hx, -⟩
          · rw [hq] at hx; cases hx.1
          · rw [hq] at hx; cases hx
          · rw [hq] at hx; cases hx
        · rename_i e; rcases others q _ hq e with e | ⟨_, e⟩ <;> cases e
      · intro q hq a ha
        rw [hp'] at hq ha
        split at ha
        · have ha : x.2 = .done := by injection ha
          split at hq
          · rcases hq with hq | hq <;> (rw [ha] at hq; cases hq)
          · rename_i e
            rcases hq with hq | hq <;> rcases others q _ hq e with e | ⟨_, e⟩ <;> cases e
        · exact hno a ha
      · intro q i hq
        rw [hp'] at hq
        split at hq
        · have hq : x.2 = .write i := by injection hq
          rcases hx with hx | hx | ⟨j, hx, h1, h2⟩
          · rw [hq] at hx; cases hx.1
          · rw [hq] at hx; cases hx
          · rw [hq] at hx; cases hx
            refine ⟨h1, h2, ?_⟩
            intro a ha
            rw [hp'] at ha
            split at ha
            · rw [hq] at ha; cases ha
            · exact hno a ha
        · rename_i e; rcases others q _ hq e with e | ⟨_, e⟩ <;> cases e
    cases ph with
    | «open» =>
      simp only [St.call]
      split
      · exact again _
      · split
        · rename_i hd
          refine same _ (by simp) (by simp) (by simp) (fun _ q hq => ?_) (by simp)
          have := h.done q hq
          simp [St.file, hd] at this
        · rename_i i hd
          exact same _ (by simp) (by rintro j hj; cases hj; exact hd) (by simp) (by simp) (by simp)
    | read i =>
      simp only [St.call]
      split
      · exact again _
      · split
        · rename_i q hq
          exact same _ (by simp) (by simp) (by rintro j hj; cases hj; simp [St.file, h.rd p i hph, hq]) (by simp) (by simp)
        · exact again _
    | check q =>
      simp only [St.call]
      have hck := h.ck p q hph
      split
      · rename_i other ho
        split
        · exact again _
        · rename_i hname
          refine same _ (by simp) (by simp) (by simp) (fun _ d hd => ?_) (by simp)
          have h1 := h.done d hd
          rw [hck] at h1
          cases h1
          obtain ⟨dr, m, h2, h3⟩ := St.procs_of_phase hd
          rw [ho] at h2; cases h2
          exact hname (h.names _ _ _ ho h3)
      · rename_i ho
        refine same _ (by simp) (by simp) (by simp) (fun _ d hd => ?_) (by simp)
        have h1 := h.done d hd
        rw [hck] at h1
        cases h1
        obtain ⟨dr, m, h2, h3⟩ := St.procs_of_phase hd
        rw [ho] at h2; cases h2
    | remove =>
      simp only [St.call]
      split
      · exact again _
      · split
        · exact again _
        · exact chg { s with dir := none } _ rfl (h.rm p (Or.inl hph)) (Or.inr (Or.inl rfl))
    | create =>
      simp only [St.call]
      split
      · exact again _
      · split
        · exact again _
        · exact chg { s with dir := some s.inodes.length, inodes := s.inodes ++ [Content.empty] } _ rfl (h.rm p (Or.inr hph))
            (Or.inr (Or.inr ⟨_, rfl, rfl, by simp⟩))
    | write i =>
      simp only [St.call]
      split
      · exact again _
      · obtain ⟨h1, h2, h3⟩ := h.wr p i hph
        refine chg { s with inodes := s.inodes.set i (Content.pid p) } _ rfl h3 (Or.inl ⟨rfl, ?_⟩)
        simp [St.file, h1, h2]
    | done => exact absurd rfl hnd
    | failed e => exact absurd rfl (hnf e)

/-- Every event, if a start begins only when no check is going on. -/
theorem Alone.step {s : St} (h : Alone s) (e : Ev)
    (he : ∀ p name, e = .launch p name → name = pkgName ∧ ∀ q ph, s.phase q = some ph → ph = .done ∨ ∃ e, ph = .failed e) : Alone (s.step e) := by
  cases e with
  | launch p name =>
    obtain ⟨hn, hq⟩ := he p name rfl
    simp only [St.step]
    split
    · exact h
    · rename_i hp
      have hp' : ∀ q, ({ s with procs := fun q => if q = p then some ⟨name, some (0, .open)⟩ else s.procs q } : St).phase q =
          if q = p then some .open else s.phase q := by
        intro q; simp only [St.phase]; split <;> simp
      refine ⟨?_, ?_, ?_, ?_, ?_, ?_, ?_⟩
      · intro a b pa pb ha hb h6 h7 h8 h9
        rw [hp'] at ha hb
        split at ha
        · split at hb
          · rename_i e1 e2; rw [e1, e2]
          · rcases hq b pb hb with e | ⟨e, he⟩
            · exact absurd e h7
            · exact absurd he (h9 e)
        · rcases hq a pa ha with e | ⟨e, he⟩
          · exact absurd e h6
          · exact absurd he (h8 e)
      · intro a pr x ha hx
        simp only at ha
        split at ha
        · cases ha; exact hn
        · exact h.names a pr x ha hx
      · intro a ha
        rw [hp'] at ha
        split at ha
        · cases ha
        · exact h.done a ha
      · intro a i ha
        rw [hp'] at ha
        split at ha
        · cases ha
        · exact h.rd a i ha
      · intro a i ha
        rw [hp'] at ha
        split at ha
        · cases ha
        · exact h.ck a i ha
      · intro a ha b hb
        rw [hp'] at ha hb
        split at ha
        · rcases ha with ha | ha <;> cases ha
        · split at hb
          · cases hb
          · exact h.rm a ha b hb
      · intro a i ha
        rw [hp'] at ha
        split at ha
        · cases ha
        · obtain ⟨h1, h2, h3⟩ := h.wr a i ha
          refine ⟨h1, h2, fun b hb => ?_⟩
          rw [hp'] at hb
          split at hb
          · cases hb
          · exact h3 b hb
  | other p name =>
    simp only [St.step]
    split
    · exact h
    · rename_i hp
      have hp' : ∀ q, ({ s with procs := fun q => if q = p then some ⟨name, none⟩ else s.procs q } : St).phase q = s.phase q := by
        intro q; simp only [St.phase]; split
        · rename_i e; subst e; simp [hp]
        · rfl
      refine ⟨?_, ?_, ?_, ?_, ?_, ?_, ?_⟩
      · simpa only [hp'] using h.one
      · intro a pr x ha hx
        simp only at ha
        split at ha
        · cases ha; cases hx
        · exact h.names a pr x ha hx
      · intro a ha; rw [hp'] at ha; exact h.done a ha
      · simpa only [hp'] using h.rd
      · intro a i ha; rw [hp'] at ha; exact h.ck a i ha
      · simpa only [hp'] using h.rm
      · simpa only [hp'] using h.wr
  | exit p =>
    have hp' : ∀ q, (s.step (.exit p)).phase q = if q = p then none else s.phase q := by
      intro q; simp only [St.step, St.phase]; split <;> simp
    have up : ∀ q ph, (s.step (.exit p)).phase q = some ph → s.phase q = some ph := by
      intro q ph hq
      rw [hp'] at hq
      split at hq
      · cases hq
      · exact hq
    refine ⟨?_, ?_, ?_, ?_, ?_, ?_, ?_⟩
    · intro a b pa pb ha hb; exact h.one a b pa pb (up _ _ ha) (up _ _ hb)
    · intro a pr x ha hx
      simp only [St.step] at ha
      split at ha
      · cases ha
      · exact h.names a pr x ha hx
    · intro a ha; exact h.done a (up _ _ ha)
    · intro a i ha; exact h.rd a i (up _ _ ha)
    · intro a i ha; exact h.ck a i (up _ _ ha)
    · intro a ha b hb; exact h.rm a (ha.imp (up _ _) (up _ _)) b (up _ _ hb)
    · intro a i ha
      obtain ⟨h1, h2, h3⟩ := h.wr a i (up _ _ ha)
      exact ⟨h1, h2, fun b hb => h3 b (up _ _ hb)⟩
  | step p fault =>
    simp only [St.step]
    split
    · rename_i pr hpr
      split
      · rename_i n ph hl
        exact h.call hpr hl fault
      · exact h
    · exact h

end Pid

/-- A history in which every keystore process has the name the check looks for, and starts when no other is in the middle of its check. -/
def OneCheckAtATime : Boot → List BootEv → Prop
  | _, [] => True
  | s, e :: evs => (∀ p name, e = .sys (.launch p name) → name = pkgName ∧ ∀ q, ¬ s.Checking q) ∧ OneCheckAtATime (s.step e) evs

/-- What is then true at every moment. -/
structure BInv (s : Boot) : Prop where
  alone : Pid.Alone s.pid
  num : ∀ p n, s.num p = some n → s.pid.phase p = some .done ∧ n < s.sock.procs.length
  has : ∀ p, s.pid.phase p = some .done → s.num p ≠ none
  live : ∀ n ph, s.sock.procs[n]? = some ph → ph ≠ .down → ∃ p, s.num p = some n
  sock : SockInv s.sock

/-- There is only one process past the check. -/
theorem BInv.uniq {s : Boot} (h : BInv s) {p q n m : Nat} (hp : s.num p = some n) (hq : s.num q = some m) : p = q := by
  have h1 := h.alone.done p (h.num p n hp).1
  have h2 := h.alone.done q (h.num q m hq).1
  rw [h1] at h2; cases h2; rfl

theorem Pid.St.phase_call {s : Pid.St} {p : Nat} {pr : Pid.Proc} {n : Nat} {ph : Pid.Phase} {fault : Bool} {q : Nat} (hq : q ≠ p) :
    (s.call p pr n fault ph).phase q = s.phase q := by
  have hs : ∀ (t : Pid.St) x, t.procs = s.procs → (t.setPhase p pr x).phase q = s.phase q := by
    intro t x ht; rw [Pid.phase_set, if_neg hq]; simp [Pid.St.phase, ht]
  cases ph <;> simp only [Pid.St.call] <;> repeat' split
  all_goals first | rfl | exact hs _ _ rfl

theorem Pid.St.phase_step {s : Pid.St} {p : Nat} {fault : Bool} {q : Nat} (hq : q ≠ p) : (s.step (.step p fault)).phase q = s.phase q := by
  simp only [Pid.St.step]
  repeat' split
  all_goals first | rfl | exact Pid.St.phase_call hq

theorem Pid.St.phase_step_done {s : Pid.St} {p : Nat} {fault : Bool} (h : s.phase p = some .done) :
    (s.step (.step p fault)).phase p = some .done := by
  obtain ⟨pr, n, h1, h2⟩ := Pid.St.procs_of_phase h
  simp only [Pid.St.step, h1, h2, Pid.St.call]
  exact h

theorem SockSt.step_length (st : SockSt) (e : SockEv) : st.procs.length ≤ (st.step e).procs.length := by
  cases e <;> simp only [SockSt.step] <;> repeat' split
  all_goals simp [SockSt.set]

/-- An event of one server wakes no server up. -/
theorem SockSt.step_live (st : SockSt) (e : SockEv) (he : e ≠ .start) {m : Nat} {ph : SrvPhase} (h : (st.step e).procs[m]? = some ph)
    (hd : ph ≠ .down) : ∃ ph', st.procs[m]? = some ph' ∧ ph' ≠ .down := by
  have aux : ∀ (s : Nat) (old new : SrvPhase), st.procs[s]? = some old → old ≠ .down → (st.set s new).procs[m]? = some ph →
      ∃ ph', st.procs[m]? = some ph' ∧ ph' ≠ .down := by
    intro s old new h1 h2 h3
    rw [SockSt.set_get] at h3
    split at h3
    · rename_i e; subst e; exact ⟨old, h1, h2⟩
    · exact ⟨ph, h3, hd⟩
  cases e with
  | start => exact absurd rfl he
  | remove s =>
    simp only [SockSt.step] at h
    split at h
    · rename_i hs; exact aux s _ .cleared hs (by simp) h
    · exact ⟨ph, h, hd⟩
  | bind s =>
    simp only [SockSt.step] at h
    split at h
    · rename_i hs
      split at h
      · exact aux s _ .bound hs (by simp) h
      · exact aux s _ .down hs (by simp) h
    · exact ⟨ph, h, hd⟩
  | ready s =>
    simp only [SockSt.step] at h
    split at h
    · rename_i hs; exact aux s _ .up hs (by simp) h
    · exact ⟨ph, h, hd⟩
  | startFails s =>
    simp only [SockSt.step] at h
    split at h
    · rename_i hs; exact aux s _ .down hs (by simp) h
    · exact ⟨ph, h, hd⟩
  | ends s =>
    simp only [SockSt.step, SockSt.set_get] at h
    split at h
    · split at h
      · cases h; exact absurd rfl hd
      · cases h
    · exact ⟨ph, h, hd⟩

theorem BInv.init {pid : Pid.St} (h : ∀ q, pid.phase q = none) (left : Bool) : BInv (.init pid left) := by
  refine ⟨.init h, ?_, ?_, ?_, ?_⟩
  · intro p n hn; cases hn
  · intro p hp; simp only [Boot.init] at hp; rw [h p] at hp; cases hp
  · intro n ph hn hd
    cases left
    · simp [Boot.init, SockSt.init] at hn
    · simp only [Boot.init, if_true] at hn
      cases n with
      | zero => simp at hn; exact absurd hn.symm hd
      | succ n => simp at hn
  · cases left
    · exact sockInv_init
    · have key : ∀ (j : Nat) ph, ([SrvPhase.down])[j]? = some ph → ph = .down := by
        intro j ph hj; cases j <;> simp at hj; exact hj.symm
      refine ⟨fun j ph hj hd => absurd (key j ph hj) hd, fun j hj => ?_, fun j hj => ?_⟩
      · rcases hj with hj | hj <;> cases key j _ hj
      · cases key j _ hj

theorem BInv.step {s : Boot} (h : BInv s) (e : BootEv)
    (he : ∀ p name, e = .sys (.launch p name) → name = pkgName ∧ ∀ q, ¬ s.Checking q) : BInv (s.step e) := by
  have hal : ∀ ev, e = .sys ev → Pid.Alone (s.pid.step ev) := by
    intro ev hev
    refine h.alone.step ev ?_
    intro p name hl
    obtain ⟨h1, h2⟩ := he p name (by rw [hev, hl])
    refine ⟨h1, fun q ph hq => ?_⟩
    by_cases hd : ph = .done
    · exact Or.inl hd
    · by_cases hf : ∃ e, ph = .failed e
      · exact Or.inr hf
      · exact absurd ⟨ph, hq, hd, fun e he => hf ⟨e, he⟩⟩ (h2 q)
  cases e with
  | go p a =>
    simp only [Boot.step]
    cases hn : s.num p with
    | none => exact h
    | some n =>
      have hns : a.ev n ≠ .start := by cases a <;> simp [BootStep.ev]
      refine ⟨h.alone, ?_, h.has, ?_, ?_⟩
      · intro q m hq
        exact ⟨(h.num q m hq).1, Nat.lt_of_lt_of_le (h.num q m hq).2 (SockSt.step_length _ _)⟩
      · intro m ph hm hd
        obtain ⟨ph', h1, h2⟩ := SockSt.step_live _ _ hns hm hd
        exact h.live m ph' h1 h2
      · exact sockInv_step h.sock _ (fun e => absurd e hns)
  | sys ev =>
    have ha := hal ev rfl
    have same : (∀ q, (s.pid.step ev).phase q = some .done ↔ s.pid.phase q = some .done) → BInv { s with pid := s.pid.step ev } := by
      intro hq
      exact ⟨ha, fun p n hn => ⟨(hq p).mpr (h.num p n hn).1, (h.num p n hn).2⟩, fun p hp => h.has p ((hq p).mp hp), h.live, h.sock⟩
    cases ev with
    | launch p name =>
      refine same fun q => ?_
      simp only [Pid.St.step]
      split
      · rfl
      · rename_i hp
        rw [Pid.phase_launch hp]
        split
        · rename_i e; subst e; simp [Pid.phase_none hp]
        · rfl
    | other p name =>
      refine same fun q => ?_
      simp only [Pid.St.step]
      split
      · rfl
      · rename_i hp
        rw [Pid.phase_launch hp]
        split
        · rename_i e; subst e; simp [Pid.phase_none hp]
        · rfl
    | step p fault =>
      simp only [Boot.step]
      split
      · rename_i hc
        obtain ⟨hn, hd⟩ := hc
        have hno : ∀ q m, s.num q = some m → False := by
          intro q m hq
          have hqp : q ≠ p := by intro e; subst e; rw [hn] at hq; cases hq
          have h1 : (s.pid.step (.step p fault)).phase q = some .done := by
            rw [Pid.St.phase_step hqp]; exact (h.num q m hq).1
          have h2 := ha.done q h1
          rw [ha.done p hd] at h2
          cases h2; exact hqp rfl
        have hdown : ∀ ph ∈ s.sock.procs, ph = .down := by
          intro ph hm
          obtain ⟨m, hm⟩ := List.getElem?_of_mem hm
          by_cases hph : ph = .down
          · exact hph
          · obtain ⟨q, hq⟩ := h.live m ph hm hph
            exact (hno q m hq).elim
        refine ⟨ha, ?_, ?_, ?_, ?_⟩
        · intro q m hq
          simp only [Boot.pass] at hq ⊢
          split at hq
          · rename_i e; subst e; cases hq
            exact ⟨hd, by simp [SockSt.step]⟩
          · exact (hno q m hq).elim
        · intro q hq
          simp only [Boot.pass] at hq ⊢
          split
          · simp
          · rename_i hqp
            rw [Pid.St.phase_step hqp] at hq
            exact h.has q hq
        · intro m ph hm hph
          simp only [Boot.pass] at hm ⊢
          simp only [SockSt.step, List.getElem?_append] at hm
          split at hm
          · exact absurd (hdown ph (List.mem_of_getElem? hm)) hph
          · rename_i hlt
            have : m - s.sock.procs.length < 1 := by simpa using (List.getElem?_eq_some_iff.mp hm).1
            exact ⟨p, by rw [if_pos rfl]; congr 1; omega⟩
        · exact sockInv_step h.sock _ (fun _ => hdown)
      · rename_i hc
        refine same fun q => ?_
        by_cases hqp : q = p
        · subst hqp
          refine ⟨fun hd => ?_, Pid.St.phase_step_done⟩
          cases hn : s.num q with
          | none => exact absurd ⟨hn, hd⟩ hc
          | some m => exact (h.num q m hn).1
        · rw [Pid.St.phase_step hqp]
    | exit p =>
      simp only [Boot.step]
      have hph : ∀ q, (s.pid.step (.exit p)).phase q = if q = p then none else s.pid.phase q := fun q => Pid.phase_exit q
      have hlen : s.sock.procs.length ≤ (s.exit p (s.pid.step (.exit p))).sock.procs.length := by
        simp only [Boot.exit]
        split
        · exact SockSt.step_length _ _
        · exact Nat.le_refl _
      refine ⟨ha, ?_, ?_, ?_, ?_⟩
      · intro q m hq
        simp only [Boot.exit] at hq
        split at hq
        · cases hq
        · rename_i hqp
          refine ⟨?_, Nat.lt_of_lt_of_le (h.num q m hq).2 hlen⟩
          show (s.pid.step (.exit p)).phase q = _
          rw [hph, if_neg hqp]; exact (h.num q m hq).1
      · intro q hq
        replace hq : (s.pid.step (.exit p)).phase q = some .done := hq
        rw [hph] at hq
        split at hq
        · cases hq
        · rename_i hqp
          simp only [Boot.exit, if_neg hqp]
          exact h.has q hq
      · intro m ph hm hd
        simp only [Boot.exit] at hm ⊢
        cases hn : s.num p with
        | none =>
          rw [hn] at hm
          obtain ⟨q, hq⟩ := h.live m ph hm hd
          refine ⟨q, ?_⟩
          rw [if_neg (by intro e; subst e; rw [hn] at hq; cases hq)]; exact hq
        | some n =>
          rw [hn] at hm
          obtain ⟨ph', h1, h2⟩ := SockSt.step_live _ _ (by simp) hm hd
          obtain ⟨q, hq⟩ := h.live m ph' h1 h2
          -- then it is `p` that was alive, and it has ended
          have := h.uniq hn hq
          subst this
          rw [hn] at hq; cases hq
          simp only [SockSt.step, SockSt.set_get, if_true, (h.num p _ hn).2] at hm
          cases hm; exact absurd rfl hd
      · simp only [Boot.exit]
        split
        · exact sockInv_step h.sock _ (by simp)
        · exact h.sock

theorem BInv.run : ∀ (evs : List BootEv) {s : Boot}, BInv s → OneCheckAtATime s evs → BInv (s.run evs)
  | [], _, h, _ => h
  | e :: evs, _, h, ho => BInv.run evs (h.step e ho.1) ho.2

theorem BInv.reaches {s : Boot} (h : BInv s) {p : Nat} (hp : s.Serving p) : s.Reaches p := by
  obtain ⟨n, h1, h2⟩ := hp
  have hpath := h.sock.2.1 n (.inr h2)
  exact ⟨n, h1, by simp [SockSt.connect, hpath, h2]⟩

/-- C73, what holds of it. Start with no keystore process, but perhaps with a pid file and a socket file left behind. Whatever processes then start, fail,
    crash and end: if process `p` is a server at work, clients that connect reach it, the pid file names it, and no other process is at work
    or has even come past its pid check. -/
theorem C73_one_server_partial (pid : Pid.St) (hpid : ∀ q, pid.phase q = none) (left : Bool) (evs : List BootEv)
    (ho : OneCheckAtATime (.init pid left) evs) (p : Nat) (hp : ((Boot.init pid left).run evs).Serving p) :
    let s := (Boot.init pid left).run evs
    s.Reaches p ∧ s.pid.file = some (.pid p) ∧ ∀ q, q ≠ p → ¬ s.Serving q ∧ ¬ s.Reaches q ∧ s.pid.phase q ≠ some .done := by
  have h := BInv.run evs (.init hpid left) ho
  obtain ⟨n, h1, h2⟩ := hp
  refine ⟨h.reaches ⟨n, h1, h2⟩, h.alone.done p (h.num p n h1).1, fun q hq => ⟨?_, ?_, ?_⟩⟩
  · rintro ⟨m, h3, -⟩; exact hq (h.uniq h3 h1)
  · rintro ⟨m, h3, -⟩; exact hq (h.uniq h3 h1)
  · intro h3
    cases h4 : ((Boot.init pid left).run evs).num q with
    | none => exact h.has q h3 h4
    | some m => exact hq (h.uniq h4 h1)

theorem BInv.keeps {s : Boot} (h : BInv s) {p n : Nat} (hn : s.num p = some n) (hup : s.sock.procs[n]? = some .up) (e : BootEv)
    (hx : e ≠ .sys (.exit p)) : (s.step e).num p = some n ∧ (s.step e).sock.procs[n]? = some .up := by
  have hlt := (h.num p n hn).2
  cases e with
  | go q a =>
    simp only [Boot.step]
    cases hq : s.num q with
    | none => exact ⟨hn, hup⟩
    | some m =>
      have := h.uniq hn hq
      subst this
      rw [hn] at hq; cases hq
      refine ⟨hn, ?_⟩
      cases a <;> simp [BootStep.ev, SockSt.step, hup]
  | sys ev =>
    cases ev with
    | launch q name => exact ⟨hn, hup⟩
    | other q name => exact ⟨hn, hup⟩
    | exit q =>
      have hqp : q ≠ p := fun e => hx (by rw [e])
      have hnq : s.num q = none := by
        cases hq : s.num q with
        | none => rfl
        | some m => exact absurd (h.uniq hq hn) hqp
      simp only [Boot.step, Boot.exit, hnq, if_neg (Ne.symm hqp)]
      exact ⟨hn, hup⟩
    | step q fault =>
      simp only [Boot.step]
      split
      · rename_i hc
        have hqp : p ≠ q := by intro e; subst e; rw [hn] at hc; cases hc.1
        simp only [Boot.pass, if_neg hqp]
        exact ⟨hn, by simp [SockSt.step, List.getElem?_append_left hlt, hup]⟩
      · exact ⟨hn, hup⟩

/-- C73, what holds of it. A server at work stays so, and stays reachable, until it ends, whatever else is started, fails, crashes or ends. -/
theorem C73_stays_reachable_partial (pid : Pid.St) (hpid : ∀ q, pid.phase q = none) (left : Bool) (evs more : List BootEv)
    (ho : OneCheckAtATime (.init pid left) (evs ++ more)) (p : Nat) (hp : ((Boot.init pid left).run evs).Serving p)
    (hlive : BootEv.sys (.exit p) ∉ more) :
    ((Boot.init pid left).run (evs ++ more)).Serving p ∧ ((Boot.init pid left).run (evs ++ more)).Reaches p := by
  have split : ∀ (a b : List BootEv) (s : Boot), OneCheckAtATime s (a ++ b) → OneCheckAtATime s a ∧ OneCheckAtATime (s.run a) b := by
    intro a
    induction a with
    | nil => intro b s h; exact ⟨trivial, h⟩
    | cons e a ih => intro b s h; exact ⟨⟨h.1, (ih b _ h.2).1⟩, (ih b _ h.2).2⟩
  have key : ∀ (more : List BootEv) (s : Boot), BInv s → OneCheckAtATime s more → s.Serving p → BootEv.sys (.exit p) ∉ more →
      (s.run more).Serving p ∧ BInv (s.run more) := by
    intro more
    induction more with
    | nil => intro s h _ hs _; exact ⟨hs, h⟩
    | cons e more ih =>
      intro s h ho hs hx
      simp only [List.mem_cons, not_or] at hx
      obtain ⟨n, h1, h2⟩ := hs
      exact ih (s.step e) (h.step e ho.1) ho.2 ⟨n, h.keeps h1 h2 e (Ne.symm hx.1)⟩ hx.2
  obtain ⟨o1, o2⟩ := split evs more _ ho
  have h := BInv.run evs (.init hpid left) o1
  have := key more _ h o2 hp hlive
  simp only [Boot.run, List.foldl_append] at this ⊢
  exact ⟨this.1, this.2.reaches this.1⟩

/-! ### Starting -/

/-- Process `p` starts under this name, makes the system calls of its pid check without a fault, and goes on to `last`. -/
def Boot.startup (p : Nat) (name : String) (last : BootStep) : List BootEv :=
  .sys (.launch p name) :: (List.replicate 6 (.sys (.step p false)) ++ [.go p .remove, .go p .bind, .go p last])

theorem Boot.step_after {s : Boot} {p n : Nat} (hn : s.num p = some n) (hd : s.pid.phase p = some .done) (fault : Bool) :
    s.step (.sys (.step p fault)) = s := by
  obtain ⟨pr, m, h1, h2⟩ := Pid.St.procs_of_phase hd
  simp only [Boot.step, hn, Pid.St.step, h1, h2, Pid.St.call]
  simp

theorem Boot.steps_after {s : Boot} {p n : Nat} (hn : s.num p = some n) (hd : s.pid.phase p = some .done) (k : Nat) :
    s.run (List.replicate k (.sys (.step p false))) = s := by
  induction k with
  | zero => rfl
  | succ k ih =>
    simp only [List.replicate_succ, Boot.run, List.foldl_cons]
    rw [Boot.step_after hn hd]; exact ih

/-- The check of one process, as the rest of the system sees it. -/
theorem Boot.checks (p k : Nat) : ∀ (s : Boot), s.num p = none →
    (s.pid.run (List.replicate k (.step p false))).phase p = some .done → s.pid.phase p ≠ some .done →
    s.run (List.replicate k (.sys (.step p false))) = s.pass p (s.pid.run (List.replicate k (.step p false))) := by
  induction k with
  | zero => intro s hn hd h0; exact absurd hd h0
  | succ k ih =>
    intro s hn hd h0
    simp only [List.replicate_succ, Boot.run, List.foldl_cons, Pid.St.run] at hd ⊢
    by_cases h1 : (s.pid.step (.step p false)).phase p = some .done
    · have hs : s.step (.sys (.step p false)) = s.pass p (s.pid.step (.step p false)) := by
        simp only [Boot.step, hn, h1]; simp
      rw [hs]
      have hpid : ∀ k, (s.pid.step (.step p false)).run (List.replicate k (.step p false)) = s.pid.step (.step p false) := by
        intro k
        induction k with
        | zero => rfl
        | succ k ih =>
          obtain ⟨pr, m, h3, h4⟩ := Pid.St.procs_of_phase h1
          have : (s.pid.step (.step p false)).step (.step p false) = s.pid.step (.step p false) := by
            generalize s.pid.step (.step p false) = t at *
            simp only [Pid.St.step, h3, h4, Pid.St.call]
          simp only [List.replicate_succ, Pid.St.run, List.foldl_cons]
          rw [this]; exact ih
      have := Boot.steps_after (s := s.pass p (s.pid.step (.step p false))) (p := p) (n := s.sock.procs.length) (by simp [Boot.pass]) h1 k
      simp only [Boot.run, Pid.St.run] at this hpid
      rw [this, hpid]
    · have hs : s.step (.sys (.step p false)) = { s with pid := s.pid.step (.step p false) } := by
        simp only [Boot.step, hn, h1]; simp
      rw [hs]
      exact ih { s with pid := s.pid.step (.step p false) } hn hd h1

/-- Past the check, the socket is bound, whatever was there. -/
theorem Boot.binds (s : Boot) (p : Nat) (pid' : Pid.St) (last : BootStep) :
    (s.pass p pid').run [.go p .remove, .go p .bind, .go p last] =
      { s.pass p pid' with sock := ((⟨some s.sock.procs.length, s.sock.procs ++ [.bound]⟩ : SockSt).step (last.ev s.sock.procs.length)) } := by
  simp [Boot.run, Boot.step, Boot.pass, BootStep.ev, SockSt.step, SockSt.set]

/-- The numbers of processes that are not alive are forgotten. -/
theorem Boot.num_alive (s : Boot) (h : ∀ q, s.num q ≠ none → s.pid.procs q ≠ none) (evs : List BootEv) :
    ∀ q, (s.run evs).num q ≠ none → (s.run evs).pid.procs q ≠ none := by
  induction evs generalizing s with
  | nil => exact h
  | cons e evs ih =>
    refine ih (s.step e) ?_
    intro q hq
    have keeps : ∀ ev, (∀ r, ev ≠ .exit r) → s.pid.procs q ≠ none → (s.pid.step ev).procs q ≠ none := by
      intro ev hev hp
      cases ev with
      | launch p name => simp only [Pid.St.step]; split <;> (try simp only) <;> (try split) <;> simp_all
      | other p name => simp only [Pid.St.step]; split <;> (try simp only) <;> (try split) <;> simp_all
      | exit r => exact absurd rfl (hev r)
      | step p fault =>
        simp only [Pid.St.step]
        have hs : ∀ (t : Pid.St) pr x, t.procs = s.pid.procs → (t.setPhase p pr x).procs q ≠ none := by
          intro t pr x ht; simp only [Pid.St.setPhase]; split
          · simp
          · rw [ht]; exact hp
        split
        · split
          · rename_i pr _ _ n ph _
            cases ph <;> simp only [Pid.St.call] <;> repeat' split
            all_goals first | exact hp | exact hs _ _ _ rfl
          · exact hp
        · exact hp
    cases e with
    | go p a =>
      simp only [Boot.step] at hq ⊢
      split at hq <;> exact h q hq
    | sys ev =>
      cases ev with
      | launch p name => exact keeps _ (by simp) (h q hq)
      | other p name => exact keeps _ (by simp) (h q hq)
      | exit p =>
        simp only [Boot.step, Boot.exit] at hq ⊢
        simp only [Pid.St.step]
        split at hq
        · exact absurd rfl hq
        · rename_i hqp; rw [if_neg hqp]; exact h q hq
      | step p fault =>
        simp only [Boot.step] at hq ⊢
        split at hq
        · rename_i hc
          simp only [Boot.pass] at hq
          split at hq
          · rename_i e; subst e
            rw [if_pos hc]
            obtain ⟨pr, n, h1, -⟩ := Pid.St.procs_of_phase hc.2
            show (s.pid.step _).procs q ≠ none
            rw [h1]; simp
          · rw [if_pos hc]; exact keeps _ (by simp) (h q hq)
        · rename_i hc
          rw [if_neg hc]; exact keeps _ (by simp) (h q hq)

/-- How a start without faults goes on a pid file that is missing or stale. -/
theorem Boot.started {s : Boot} {p : Nat} {name : String} (hp : s.pid.procs p = none) (hn : s.num p = none)
    (hf : s.pid.file = none ∧ s.pid.dir = none ∨
      ∃ q, s.pid.file = some (.pid q) ∧ q ≠ p ∧ ∀ pr, s.pid.procs q = some pr → pr.name ≠ pkgName) (last : BootStep) :
    ∃ pid', pid'.phase p = some .done ∧ pid'.file = some (.pid p) ∧ (∀ q, q ≠ p → pid'.procs q = s.pid.procs q) ∧
      s.run (Boot.startup p name last) =
        { s.pass p pid' with sock := ((⟨some s.sock.procs.length, s.sock.procs ++ [.bound]⟩ : SockSt).step (last.ev s.sock.procs.length)) } := by
  have hc := Pid.C42_stale_file_replaced s.pid p name hp hf
  refine ⟨s.pid.run (.launch p name :: List.replicate 6 (.step p false)), hc.1, hc.2, ?_, ?_⟩
  · intro q hq
    have hset : ∀ (t : Pid.St) pr x, t.procs q = s.pid.procs q → (t.setPhase p pr x).procs q = s.pid.procs q := by
      intro t pr x ht; simp only [Pid.St.setPhase, if_neg hq]; exact ht
    have hstep : ∀ t : Pid.St, t.procs q = s.pid.procs q → (t.step (.step p false)).procs q = s.pid.procs q := by
      intro t ht
      simp only [Pid.St.step]
      split
      · split
        · rename_i pr _ _ n ph _
          cases ph <;> simp only [Pid.St.call] <;> repeat' split
          all_goals first | exact ht | exact hset _ _ _ ht
        · exact ht
      · exact ht
    have hsteps : ∀ k (t : Pid.St), t.procs q = s.pid.procs q → (t.run (List.replicate k (.step p false))).procs q = s.pid.procs q := by
      intro k
      induction k with
      | zero => intro t ht; exact ht
      | succ k ih => intro t ht; exact ih _ (hstep t ht)
    refine hsteps 6 (s.pid.step (.launch p name)) ?_
    simp [Pid.St.step, hp, hq]
  · have hl : s.step (.sys (.launch p name)) = { s with pid := s.pid.step (.launch p name) } := rfl
    have h0 : (s.pid.step (.launch p name)).phase p ≠ some .done := by
      simp [Pid.St.step, hp, Pid.St.phase]
    simp only [Boot.startup, Boot.run, List.foldl_cons, List.foldl_append] at *
    rw [hl]
    have := Boot.checks p 6 { s with pid := s.pid.step (.launch p name) } hn hc.1 h0
    simp only [Boot.run] at this
    rw [this]
    exact Boot.binds _ p _ last

/-- C73. Whatever has happened before - servers that crashed at any moment, socket files they left - a start without faults succeeds if
    the pid file is missing or names no live keystore: afterwards process `p` is at work, clients reach it, the pid file names it. -/
theorem C73_start_succeeds (pid : Pid.St) (hpid : ∀ q, pid.phase q = none) (left : Bool) (evs : List BootEv) (p : Nat) (name : String) :
    let s := (Boot.init pid left).run evs
    s.pid.procs p = none →
    (s.pid.file = none ∧ s.pid.dir = none ∨ ∃ q, s.pid.file = some (.pid q) ∧ q ≠ p ∧ ∀ pr, s.pid.procs q = some pr → pr.name ≠ pkgName) →
    (s.run (Boot.startup p name .ready)).Serving p ∧ (s.run (Boot.startup p name .ready)).Reaches p ∧
      (s.run (Boot.startup p name .ready)).pid.file = some (.pid p) := by
  intro s hp hf
  have hn : s.num p = none := by
    cases hn : s.num p with
    | none => rfl
    | some n => exact absurd hp (Boot.num_alive (.init pid left) (fun q hq => absurd rfl hq) evs p (by rw [hn]; simp))
  obtain ⟨pid', h1, h2, -, h3⟩ := Boot.started (name := name) hp hn hf .ready
  rw [h3]
  refine ⟨⟨s.sock.procs.length, by simp [Boot.pass], ?_⟩, ⟨s.sock.procs.length, by simp [Boot.pass], ?_⟩, h2⟩
  · simp [BootStep.ev, SockSt.step, SockSt.set]
  · simp [BootStep.ev, SockSt.step, SockSt.set, SockSt.connect]

/-! ### What does not hold -/

theorem Boot.run_sock (s : Boot) (evs : List BootEv) : ∃ l, (s.run evs).sock = s.sock.run l := by
  induction evs generalizing s with
  | nil => exact ⟨[], rfl⟩
  | cons e evs ih =>
    have one : ∃ l, (s.step e).sock = s.sock.run l := by
      cases e with
      | go p a =>
        simp only [Boot.step]
        split
        · exact ⟨[_], rfl⟩
        · exact ⟨[], rfl⟩
      | sys ev =>
        cases ev with
        | launch p name => exact ⟨[], rfl⟩
        | other p name => exact ⟨[], rfl⟩
        | exit p =>
          simp only [Boot.step, Boot.exit]
          cases s.num p with
          | some n => exact ⟨[.ends n], rfl⟩
          | none => exact ⟨[], rfl⟩
        | step p fault =>
          simp only [Boot.step]
          split
          · exact ⟨[.start], rfl⟩
          · exact ⟨[], rfl⟩
    obtain ⟨l1, h1⟩ := one
    obtain ⟨l2, h2⟩ := ih (s.step e)
    exact ⟨l1 ++ l2, by
      show ((s.step e).run evs).sock = _
      rw [h2, h1]; simp [SockSt.run]⟩

theorem Boot.run_num {s : Boot} {p n : Nat} (hn : s.num p = some n) (evs : List BootEv) (hx : BootEv.sys (.exit p) ∉ evs) :
    (s.run evs).num p = some n := by
  induction evs generalizing s with
  | nil => exact hn
  | cons e evs ih =>
    simp only [List.mem_cons, not_or] at hx
    refine ih ?_ hx.2
    cases e with
    | go q a => simp only [Boot.step]; split <;> exact hn
    | sys ev =>
      cases ev with
      | launch q name => exact hn
      | other q name => exact hn
      | exit q =>
        have : p ≠ q := fun e => hx.1 (by rw [e])
        simp only [Boot.step, Boot.exit, if_neg this]; exact hn
      | step q fault =>
        simp only [Boot.step]
        split
        · rename_i hc
          have : p ≠ q := by intro e; subst e; rw [hn] at hc; cases hc.1
          simp only [Boot.pass, if_neg this]; exact hn
        · exact hn

/-- A server whose socket file is gone is not reached again. -/
theorem Boot.lost {s : Boot} {p n : Nat} (hn : s.num p = some n) (hup : s.sock.procs[n]? = some .up) (hpath : s.sock.path ≠ some n)
    (more : List BootEv) (hx : BootEv.sys (.exit p) ∉ more) : ¬ (s.run more).Reaches p := by
  rintro ⟨m, h1, h2⟩
  rw [Boot.run_num hn more hx] at h1
  cases h1
  obtain ⟨l, hl⟩ := Boot.run_sock s more
  rw [hl] at h2
  exact C62_lost_for_good s.sock n .up hup rfl hpath l h2

/-- C73 does not hold for the executable that is built. Process `p` has been started on a fresh configuration and is at work. Somebody
    starts a second one, `q`, with a wrong passphrase; `q` fails and ends. Process `p` is still at work, but no client reaches it, and none ever
    will, whatever happens while it lives. -/
theorem C73_shipped_second_start (pid : Pid.St) (left : Bool) (p q : Nat) (hpq : q ≠ p) (hp : pid.procs p = none) (hq : pid.procs q = none)
    (hd : pid.dir = none) :
    let first := (Boot.init pid left).run (Boot.startup p binName .ready)
    let second := first.run (Boot.startup q binName .fails ++ [.sys (.exit q)])
    (first.Serving p ∧ first.Reaches p) ∧ second.Serving p ∧ second.sock.connect = none ∧
    ∀ more, BootEv.sys (.exit p) ∉ more → ¬ (second.run more).Reaches p := by
  have hf : pid.file = none ∧ pid.dir = none := ⟨by simp [Pid.St.file, hd], hd⟩
  obtain ⟨pid1, a1, a2, a3, a4⟩ := Boot.started (s := .init pid left) (name := binName) hp rfl (.inl hf) .ready
  intro first second
  have hfirst : first = _ := a4
  have hn1 : first.num p = some (Boot.init pid left).sock.procs.length := by rw [hfirst]; simp [Boot.pass]
  have hs1 : first.sock.procs = (Boot.init pid left).sock.procs ++ [.up] ∧ first.sock.path = some (Boot.init pid left).sock.procs.length := by
    rw [hfirst]; simp [BootStep.ev, SockSt.step, SockSt.set]
  generalize hlen : (Boot.init pid left).sock.procs = old at hn1 hs1
  have hq1 : first.num q = none := by rw [hfirst]; simp [Boot.pass, Boot.init, hpq]
  have hpid1 : first.pid = pid1 := by rw [hfirst]; rfl
  have hpr : ∀ pr, pid1.procs p = some pr → pr.name ≠ pkgName := by
    have hname : ∀ pr, first.pid.procs p = some pr → pr.name = binName := by
      have h2 : first.pid = pid.run (.launch p binName :: List.replicate 6 (.step p false)) := by
        have := Boot.checks p 6 { (Boot.init pid left) with pid := pid.step (.launch p binName) } rfl
          (by
            have := (Pid.C42_stale_file_replaced pid p binName hp (.inl hf)).1
            exact this)
          (by simp [Pid.St.step, hp, Pid.St.phase])
        have hb := Boot.binds { (Boot.init pid left) with pid := pid.step (.launch p binName) } p
          ((pid.step (.launch p binName)).run (List.replicate 6 (.step p false))) .ready
        have hrun : first = (({ (Boot.init pid left) with pid := pid.step (.launch p binName) } : Boot).run
            (List.replicate 6 (.sys (.step p false)))).run [.go p .remove, .go p .bind, .go p .ready] := by
          show (Boot.init pid left).run _ = _
          simp only [Boot.startup, Boot.run, List.foldl_cons, List.foldl_append]
          rfl
        rw [hrun, this, hb]
        rfl
      intro pr hpr
      rw [h2] at hpr
      simp [List.replicate, Pid.St.run, Pid.St.step, hp, Pid.St.call, hd, Pid.St.setPhase] at hpr
      rw [← hpr]
    intro pr h; rw [← hpid1] at h; rw [hname pr h]; decide
  have hq2 : first.pid.procs q = none := by rw [hpid1, a3 q hpq]; exact hq
  obtain ⟨pid2, b1, b2, b3, b4⟩ := Boot.started (s := first) (name := binName) hq2 hq1
    (.inr ⟨p, by rw [hpid1]; exact a2, Ne.symm hpq, by rw [hpid1]; exact hpr⟩) .fails
  have hsecond : second = ((first.run (Boot.startup q binName .fails)).step (.sys (.exit q))) := by
    show first.run _ = _
    simp only [Boot.run, List.foldl_append]; rfl
  rw [b4] at hsecond
  have hn2 : second.num p = some old.length := by
    rw [hsecond]; simp [Boot.step, Boot.exit, Boot.pass, Ne.symm hpq, hn1]
  have hl1 : first.sock.procs.length = old.length + 1 := by simp [hs1.1]
  have hsock2 : second.sock.procs = old ++ [.up, .down] ∧ second.sock.path = some (old.length + 1) := by
    rw [hsecond]
    simp [Boot.step, Boot.exit, Boot.pass, BootStep.ev, SockSt.step, SockSt.set, hs1.1]
  have hup2 : second.sock.procs[old.length]? = some .up := by rw [hsock2.1]; simp
  refine ⟨⟨⟨_, hn1, by rw [hs1.1]; simp⟩, ⟨_, hn1, by simp [SockSt.connect, hs1.1, hs1.2]⟩⟩, ⟨_, hn2, hup2⟩, ?_, ?_⟩
  · simp [SockSt.connect, hsock2.1, hsock2.2]
  · exact Boot.lost hn2 hup2 (by rw [hsock2.2]; simp)

/-- C73 does not hold, whatever the executable is called: a crashed server `r` has left its pid file, `p` and `q` start at the same time. Both
    are at work; clients reach only `q`, and none ever reaches `p`. -/
theorem C73_race_on_stale_file (pid : Pid.St) (left : Bool) (i r p q : Nat) (name : String) (hpq : p ≠ q) (hp : pid.procs p = none)
    (hq : pid.procs q = none) (hr : pid.procs r = none) (hrp : r ≠ p) (hrq : r ≠ q) (hd : pid.dir = some i)
    (hc : pid.inodes[i]? = some (.pid r)) :
    let s := (Boot.init pid left).run ([.sys (.launch p name), .sys (.launch q name)] ++ List.replicate 3 (.sys (.step p false)) ++
      List.replicate 3 (.sys (.step q false)) ++ List.replicate 3 (.sys (.step p false)) ++ List.replicate 3 (.sys (.step q false)) ++
      [.go p .remove, .go p .bind, .go p .ready, .go q .remove, .go q .bind, .go q .ready])
    s.Serving p ∧ s.Serving q ∧ s.Reaches q ∧ ∀ more, BootEv.sys (.exit p) ∉ more → ¬ (s.run more).Reaches p := by
  intro s
  generalize hk : (Boot.init pid left).sock.procs = old
  have h1 : s.num p = some old.length ∧ s.num q = some (old.length + 1) ∧ s.sock.procs = old ++ [.up, .up] ∧ s.sock.path = some (old.length + 1) := by
    simp only [Boot.init] at hk
    simp [s, List.replicate, Boot.run, Boot.step, Boot.init, Pid.St.step, hp, hq, hr, Pid.St.call, hd, hc, Pid.St.setPhase, Pid.St.phase, hpq, Ne.symm hpq, hrp,
      hrq, Boot.pass, BootStep.ev, SockSt.step, SockSt.set, hk]
  obtain ⟨a1, a2, a3, a4⟩ := h1
  have hup : s.sock.procs[old.length]? = some .up := by rw [a3]; simp
  refine ⟨⟨_, a1, hup⟩, ⟨_, a2, by rw [a3]; simp⟩, ⟨_, a2, by simp [SockSt.connect, a3, a4]⟩, ?_⟩
  exact Boot.lost a1 hup (by rw [a4]; simp)

/-! ### Examples -/

/-- No keystore process; an editor runs as process 3; a crashed server left a pid file that names process 7. -/
def pidLeft : Pid.St := ⟨fun q => if q = 3 then some ⟨"vi", none⟩ else none, some 0, [.pid 7]⟩

/-- Process 10 starts on what was left and crashes; 11 starts and is at work; 12 tries to start. -/
def bootHistory : List BootEv :=
  Boot.startup 10 pkgName .ready ++ [.sys (.exit 10)] ++ Boot.startup 11 pkgName .ready ++
    (.sys (.launch 12 pkgName) :: List.replicate 9 (.sys (.step 12 false)))

theorem Boot.quiet_started {s : Boot} {p : Nat} {name : String} (hp : s.pid.procs p = none) (hn : s.num p = none)
    (hf : s.pid.file = none ∧ s.pid.dir = none ∨
      ∃ q, s.pid.file = some (.pid q) ∧ q ≠ p ∧ ∀ pr, s.pid.procs q = some pr → pr.name ≠ pkgName) (last : BootStep)
    (hq : ∀ q, ¬ s.Checking q) (q : Nat) : ¬ (s.run (Boot.startup p name last)).Checking q := by
  obtain ⟨pid', h1, -, h3, h4⟩ := Boot.started (name := name) hp hn hf last
  rw [h4]
  rintro ⟨ph, a, b, c⟩
  replace a : pid'.phase q = some ph := a
  by_cases hqp : q = p
  · subst hqp; rw [h1] at a; cases a; exact b rfl
  · refine hq q ⟨ph, ?_, b, c⟩
    simp only [Pid.St.phase, h3 q hqp] at a
    exact a

theorem Boot.quiet_exit {s : Boot} {p : Nat} (hq : ∀ q, ¬ s.Checking q) (q : Nat) : ¬ (s.step (.sys (.exit p))).Checking q := by
  rintro ⟨ph, a, b, c⟩
  replace a : (s.pid.step (.exit p)).phase q = some ph := a
  rw [Pid.phase_exit] at a
  split at a
  · cases a
  · exact hq q ⟨ph, a, b, c⟩

/-- The condition on the history needs to be looked at only where a process starts. -/
theorem oneCheck_append : ∀ (a b : List BootEv) (s : Boot), OneCheckAtATime s a → OneCheckAtATime (s.run a) b → OneCheckAtATime s (a ++ b)
  | [], _, _, _, h => h
  | _ :: a, b, _, h1, h2 => ⟨h1.1, oneCheck_append a b _ h1.2 h2⟩

theorem oneCheck_none : ∀ (a : List BootEv) (s : Boot), (∀ p name, BootEv.sys (.launch p name) ∉ a) → OneCheckAtATime s a
  | [], _, _ => trivial
  | e :: a, s, h => ⟨fun p name he => absurd (by rw [he]; simp) (h p name), oneCheck_none a _ (fun p name hm => h p name (by simp [hm]))⟩

theorem oneCheck_launch {s : Boot} {p : Nat} {a : List BootEv} (hq : ∀ q, ¬ s.Checking q) (h : ∀ p name, BootEv.sys (.launch p name) ∉ a) :
    OneCheckAtATime s (.sys (.launch p pkgName) :: a) :=
  ⟨fun _ _ he => by cases he; exact ⟨rfl, hq⟩, oneCheck_none a _ h⟩

/-- The hypotheses of `C73_one_server_partial` and `C73_stays_reachable_partial`: process 11 is at work, 12 has been refused. -/
example : (∀ q, pidLeft.phase q = none) ∧ OneCheckAtATime (.init pidLeft true) bootHistory ∧
    (∃ n, ((Boot.init pidLeft true).run bootHistory).num 11 = some n ∧ ((Boot.init pidLeft true).run bootHistory).sock.procs[n]? = some .up) ∧
    ((Boot.init pidLeft true).run bootHistory).pid.phase 12 = some (.failed "ProcessAlreadyExists") ∧
    BootEv.sys (.exit 11) ∉ bootHistory := by
  have h0 : ∀ q, pidLeft.phase q = none := by
    intro q; simp only [pidLeft, Pid.St.phase]; split <;> simp
  have q0 : ∀ q, ¬ (Boot.init pidLeft true).Checking q := by
    rintro q ⟨ph, a, -⟩; simp only [Boot.init] at a; rw [h0 q] at a; cases a
  have q1 := Boot.quiet_started (s := .init pidLeft true) (p := 10) (name := pkgName) rfl rfl
    (.inr ⟨7, rfl, by decide, by intro pr h; cases h⟩) .ready q0
  have q2 := fun q => Boot.quiet_exit (p := 10) q1 q
  have q3 := Boot.quiet_started (s := ((Boot.init pidLeft true).run (Boot.startup 10 pkgName .ready)).step (.sys (.exit 10))) (p := 11)
    (name := pkgName) (by decide) (by decide) (.inr ⟨10, by decide, by decide, by intro pr h; cases h⟩) .ready q2
  refine ⟨h0, ?_, ⟨2, by decide, by decide⟩, by decide, by decide⟩
  refine oneCheck_append _ _ _ (oneCheck_append _ _ _ (oneCheck_append _ _ _ (oneCheck_launch q0 ?_) (oneCheck_none _ _ ?_))
    (oneCheck_launch ?_ ?_)) (oneCheck_launch ?_ ?_)
  · simp [List.replicate]
  · simp
  · intro q; simp only [Boot.run, List.foldl_append]; exact q2 q
  · simp [List.replicate]
  · intro q; simp only [Boot.run, List.foldl_append]; exact q3 q
  · simp [List.replicate]

/-- The hypotheses of `C73_start_succeeds` after such a crash. -/
example : let s := (Boot.init pidLeft true).run (Boot.startup 10 pkgName .ready ++ [.sys (.exit 10)])
    s.pid.procs 11 = none ∧ s.pid.file = some (.pid 10) ∧ s.pid.procs 10 = none := by decide

/-- The hypotheses of the two theorems that say what does not hold. -/
example : (Pid.St.fresh.procs 1 = none ∧ Pid.St.fresh.procs 2 = none ∧ Pid.St.fresh.dir = none) ∧
    (pidLeft.procs 1 = none ∧ pidLeft.procs 2 = none ∧ pidLeft.procs 7 = none ∧ pidLeft.dir = some 0 ∧ pidLeft.inodes[0]? = some (.pid 7)) := by
  decide

end Lair
