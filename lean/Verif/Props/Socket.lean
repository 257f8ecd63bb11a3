import Verif.Socket

/-
C62: a client that connects to the path of a running server reaches that server.

The code does not have it by itself: starting another server on the same path takes the socket file away, even if that start
then fails because of a wrong passphrase, and the running server never becomes reachable again. It has it as long as the
pid file keeps a second server from starting (see C42, which says when that fails).
-/
namespace Lair

/-- Server `s` has begun, but has not bound its socket yet. -/
def SrvPhase.early : SrvPhase → Bool
  | .started => true
  | .cleared => true
  | _ => false

theorem SockSt.set_get (st : SockSt) (s j : Nat) (p : SrvPhase) :
    (st.set s p).procs[j]? = if s = j then (if j < st.procs.length then some p else none) else st.procs[j]? := by
  simp only [SockSt.set, List.getElem?_set]
  split
  · rename_i h; subst h; rfl
  · rfl

/-- C62 is violated. Let server `s` run. Somebody starts a second server on the same path and gives a
    wrong passphrase: nobody can connect any more, although `s` still runs. With the right passphrase clients reach the
    second server, and `s` still runs. -/
theorem C62_second_start_takes_the_socket (st : SockSt) (s : Nat) (hs : st.procs[s]? = some .up) :
    let n := st.procs.length
    let failed := st.run [.start, .remove n, .bind n, .startFails n]
    let succeeded := st.run [.start, .remove n, .bind n, .ready n]
    (failed.procs[s]? = some .up ∧ failed.connect = none) ∧
    (succeeded.procs[s]? = some .up ∧ succeeded.connect = some n ∧ n ≠ s) := by
  have hlt : s < st.procs.length := (List.getElem?_eq_some_iff.mp hs).1
  have hne : st.procs.length ≠ s := by omega
  simp [SockSt.run, SockSt.step, SockSt.set, SockSt.connect, hne, hlt, List.getElem?_append_left]
  obtain ⟨_, h⟩ := List.getElem?_eq_some_iff.mp hs
  exact h

/-- C62 is violated: and `s` never becomes reachable again, whatever happens. -/
theorem C62_lost_for_good (st : SockSt) (s : Nat) (p : SrvPhase) (hs : st.procs[s]? = some p) (hp : p.early = false)
    (hc : st.path ≠ some s) (evs : List SockEv) : (st.run evs).connect ≠ some s := by
  have hinv : ∀ (evs : List SockEv) (st : SockSt) p, st.procs[s]? = some p → p.early = false → st.path ≠ some s →
      (st.run evs).path ≠ some s := by
    intro evs
    induction evs with
    | nil => intro st p _ _ h; exact h
    | cons e evs ih =>
      intro st p hs hp hc
      have hlt : s < st.procs.length := (List.getElem?_eq_some_iff.mp hs).1
      have key : ∃ q, (st.step e).procs[s]? = some q ∧ q.early = false := by
        cases e with
        | start => exact ⟨p, by simp [SockSt.step, List.getElem?_append_left hlt, hs], hp⟩
        | remove j =>
          simp only [SockSt.step]
          split
          · rename_i hj
            refine ⟨p, ?_, hp⟩
            by_cases hjs : j = s
            · subst hjs; rw [hs] at hj; cases hj; simp [SrvPhase.early] at hp
            · show (st.set j .cleared).procs[s]? = _
              rw [SockSt.set_get, if_neg hjs, hs]
          · exact ⟨p, hs, hp⟩
        | bind j =>
          simp only [SockSt.step]
          split
          · rename_i hj
            refine ⟨p, ?_, hp⟩
            by_cases hjs : j = s
            · subst hjs; rw [hs] at hj; cases hj; simp [SrvPhase.early] at hp
            · split
              · show (st.set j .bound).procs[s]? = _
                rw [SockSt.set_get, if_neg hjs, hs]
              · rw [SockSt.set_get, if_neg hjs, hs]
          · exact ⟨p, hs, hp⟩
        | ready j =>
          simp only [SockSt.step]
          split
          · by_cases hjs : j = s
            · subst hjs; exact ⟨.up, by simp [SockSt.set_get, hlt], rfl⟩
            · exact ⟨p, by rw [SockSt.set_get, if_neg hjs, hs], hp⟩
          · exact ⟨p, hs, hp⟩
        | startFails j =>
          simp only [SockSt.step]
          split
          · by_cases hjs : j = s
            · subst hjs; exact ⟨.down, by simp [SockSt.set_get, hlt], rfl⟩
            · exact ⟨p, by rw [SockSt.set_get, if_neg hjs, hs], hp⟩
          · exact ⟨p, hs, hp⟩
        | ends j =>
          simp only [SockSt.step]
          by_cases hjs : j = s
          · subst hjs; exact ⟨.down, by simp [SockSt.set_get, hlt], rfl⟩
          · exact ⟨p, by rw [SockSt.set_get, if_neg hjs, hs], hp⟩
      obtain ⟨q, hq, hq'⟩ := key
      refine ih _ q hq hq' ?_
      cases e with
      | remove j => simp only [SockSt.step]; split <;> simp_all
      | bind j =>
        simp only [SockSt.step]
        split
        · rename_i hj
          split
          · intro h
            simp only [Option.some.injEq] at h
            subst h; rw [hs] at hj; cases hj; simp [SrvPhase.early] at hp
          · exact hc
        · exact hc
      | start => exact hc
      | ready j => simp only [SockSt.step]; split <;> exact hc
      | startFails j => simp only [SockSt.step]; split <;> exact hc
      | ends j => exact hc
  have := hinv evs st p hs hp hc
  unfold SockSt.connect
  split
  · simp
  · rename_i t ht
    rw [ht] at this
    split <;> simp_all

/-- A history in which a server starts only when all earlier ones have ended, which is what the pid file is for. -/
def OneAtATime : SockSt → List SockEv → Prop
  | _, [] => True
  | st, e :: evs => (e = .start → ∀ p ∈ st.procs, p = .down) ∧ OneAtATime (st.step e) evs

/-- All servers but the last have ended; the last one, if it has bound its socket, owns the file; and if it has removed the
    file, there is none. -/
def SockInv (st : SockSt) : Prop :=
  (∀ (j : Nat) p, st.procs[j]? = some p → p ≠ .down → j + 1 = st.procs.length) ∧
  (∀ j : Nat, (st.procs[j]? = some .bound ∨ st.procs[j]? = some .up) → st.path = some j) ∧
  (∀ j : Nat, st.procs[j]? = some .cleared → st.path = none)

theorem sockInv_step {st : SockSt} (h : SockInv st) (e : SockEv) (he : e = .start → ∀ p ∈ st.procs, p = .down) :
    SockInv (st.step e) := by
  obtain ⟨h1, h2, h3⟩ := h
  -- a change of one process, given that it is the live one
  have upd : ∀ (s : Nat) (p q : SrvPhase) (path : Option Nat), st.procs[s]? = some p → p ≠ .down →
      ((q = .bound ∨ q = .up) → path = some s) → (q = .cleared → path = none) →
      SockInv { st.set s q with path := path } := by
    intro s p q path hs hp hb hc
    have hl := h1 s p hs hp
    have others : ∀ (j : Nat) r, j ≠ s → st.procs[j]? = some r → r = .down := by
      intro j r hj hr
      by_cases hd : r = .down
      · exact hd
      · have := h1 j r hr hd; omega
    refine ⟨?_, ?_, ?_⟩
    · intro j r hj hr
      change (st.set s q).procs[j]? = some r at hj
      rw [SockSt.set_get] at hj
      show j + 1 = (st.procs.set s q).length
      rw [List.length_set]
      split at hj
      · omega
      · rename_i hne; exact absurd (others j r (fun h => hne h.symm) hj) hr
    · intro j hj
      change (st.set s q).procs[j]? = _ ∨ (st.set s q).procs[j]? = _ at hj
      rw [SockSt.set_get] at hj
      show path = some j
      split at hj
      · rename_i hsj; subst hsj
        split at hj <;> simp at hj
        exact hb hj
      · rename_i hne
        rcases hj with hj | hj <;> have := others j _ (fun h => hne h.symm) hj <;> simp at this
    · intro j hj
      change (st.set s q).procs[j]? = _ at hj
      rw [SockSt.set_get] at hj
      show path = none
      split at hj
      · split at hj <;> simp at hj
        exact hc hj
      · rename_i hne
        have := others j _ (fun h => hne h.symm) hj; simp at this
  cases e with
  | start =>
    have hd := he rfl
    refine ⟨?_, ?_, ?_⟩
    · intro j p hj hp
      simp only [SockSt.step, List.getElem?_append] at hj ⊢
      split at hj
      · exact absurd (hd p (List.mem_of_getElem? hj)) hp
      · have : j - st.procs.length = 0 := by
          have := (List.getElem?_eq_some_iff.mp hj).1; simp at this; omega
        simp; omega
    · intro j hj
      simp only [SockSt.step, List.getElem?_append] at hj ⊢
      split at hj
      · rcases hj with hj | hj <;> have := hd _ (List.mem_of_getElem? hj) <;> simp at this
      · have h0 : ∀ x : Nat, ([SrvPhase.started])[x]? ≠ some .bound ∧ ([SrvPhase.started])[x]? ≠ some .up := by
          intro x; cases x <;> simp
        rcases hj with hj | hj
        · exact absurd hj (h0 _).1
        · exact absurd hj (h0 _).2
    · intro j hj
      simp only [SockSt.step, List.getElem?_append] at hj ⊢
      split at hj
      · have := hd _ (List.mem_of_getElem? hj); simp at this
      · have h0 : ∀ x : Nat, ([SrvPhase.started])[x]? ≠ some .cleared := by
          intro x; cases x <;> simp
        exact absurd hj (h0 _)
  | remove s =>
    simp only [SockSt.step]
    split
    · rename_i hs
      exact upd s _ _ none hs (by simp) (by simp) (by simp)
    · exact ⟨h1, h2, h3⟩
  | bind s =>
    simp only [SockSt.step]
    split
    · rename_i hs
      split
      · exact upd s _ _ (some s) hs (by simp) (by simp) (by simp)
      · rename_i hpath
        exact upd s _ _ st.path hs (by simp) (by simp) (by simp)
    · exact ⟨h1, h2, h3⟩
  | ready s =>
    simp only [SockSt.step]
    split
    · rename_i hs
      exact upd s _ _ st.path hs (by simp) (fun _ => h2 s (.inl hs)) (by simp)
    · exact ⟨h1, h2, h3⟩
  | startFails s =>
    simp only [SockSt.step]
    split
    · rename_i hs
      exact upd s _ _ st.path hs (by simp) (by simp) (by simp)
    · exact ⟨h1, h2, h3⟩
  | ends s =>
    simp only [SockSt.step]
    cases hs : st.procs[s]? with
    | none =>
      have : st.set s .down = st := by
        simp only [SockSt.set]; rw [List.set_eq_of_length_le (List.getElem?_eq_none_iff.mp hs)]
      rw [this]; exact ⟨h1, h2, h3⟩
    | some p =>
      by_cases hp : p = .down
      · have : st.set s .down = st := by
          subst hp
          obtain ⟨hl, he⟩ := List.getElem?_eq_some_iff.mp hs
          simp only [SockSt.set]
          rw [← he, List.set_getElem_self]
        rw [this]; exact ⟨h1, h2, h3⟩
      · exact upd s _ _ st.path hs hp (by simp) (by simp)

theorem sockInv_run : ∀ (evs : List SockEv) (st : SockSt), SockInv st → OneAtATime st evs → SockInv (st.run evs)
  | [], _, h, _ => h
  | e :: evs, st, h, ho => sockInv_run evs (st.step e) (sockInv_step h e ho.1) ho.2

theorem sockInv_init : SockInv SockSt.init := by
  refine ⟨?_, ?_, ?_⟩ <;> intro j <;> simp [SockSt.init]

/-- C62, what holds of it. If servers start only one at a time, then - whatever crashes happened and whatever files they left
    behind - a client that connects while a server runs, or after it has bound its socket while it is still starting, reaches that
    server. -/
theorem C62_reaches_the_running_server_partial (evs : List SockEv) (ho : OneAtATime .init evs) (s : Nat)
    (hs : (SockSt.init.run evs).procs[s]? = some .up ∨ (SockSt.init.run evs).procs[s]? = some .bound) :
    (SockSt.init.run evs).connect = some s := by
  have h := sockInv_run evs _ sockInv_init ho
  have hp := h.2.1 s hs.symm
  rcases hs with hs | hs <;> simp [SockSt.connect, hp, hs]

/-- C62, what holds of it. Then the socket file of an earlier server is never in the way: a server that has come to binding
    its socket succeeds. -/
theorem C62_leftover_file_is_harmless_partial (evs : List SockEv) (ho : OneAtATime .init evs) (s : Nat)
    (hs : (SockSt.init.run evs).procs[s]? = some .cleared) :
    ((SockSt.init.run evs).step (.bind s)).procs[s]? = some .bound := by
  have h := (sockInv_run evs _ sockInv_init ho).2.2 s hs
  have hlt := (List.getElem?_eq_some_iff.mp hs).1
  simp only [SockSt.step, hs, if_true, h]
  show (SockSt.set _ s .bound).procs[s]? = _
  rw [SockSt.set_get, if_pos rfl, if_pos hlt]

/-- C62. Two starts racing past each other's removal cannot both succeed in binding with only one removal after the other's
    binding: the one that finds the file there gives up. -/
theorem C62_bind_never_overwrites (st : SockSt) (s t : Nat) (hs : st.procs[s]? = some .cleared) (hp : st.path = some t) :
    (st.step (.bind s)).path = some t ∧ (st.step (.bind s)).procs[s]? = some .down := by
  have hlt := (List.getElem?_eq_some_iff.mp hs).1
  simp only [SockSt.step, hs, if_true, hp]
  exact ⟨hp, by rw [SockSt.set_get, if_pos rfl, if_pos hlt]⟩

/-! Examples: a first server that crashes and leaves its file, a second one that runs. -/

def sockHistory : List SockEv := [.start, .remove 0, .bind 0, .ready 0, .ends 0, .start, .remove 1, .bind 1, .ready 1]

/-- The hypotheses of the two theorems that hold. -/
example : OneAtATime .init sockHistory ∧ (SockSt.init.run sockHistory).procs = [.down, .up] ∧
    (SockSt.init.run (sockHistory.take 7)).procs = [.down, .cleared] := by
  refine ⟨?_, by decide, by decide⟩
  simp [OneAtATime, sockHistory, SockSt.step, SockSt.set, SockSt.init]

/-- The hypotheses of `C62_second_start_takes_the_socket`. -/
example : (SockSt.init.run sockHistory).procs[1]? = some .up ∧ (SockSt.init.run sockHistory).connect = some 1 := by decide

/-- The hypotheses of `C62_lost_for_good`: server 1 still runs, server 2 has removed its file. -/
example : (SockSt.init.run (sockHistory ++ [.start, .remove 2])).procs[1]? = some .up ∧
    (SockSt.init.run (sockHistory ++ [.start, .remove 2])).path ≠ some 1 := by decide

/-- The hypotheses of `C62_bind_never_overwrites`: two servers start at the same time. -/
example : (SockSt.init.run [.start, .start, .remove 0, .remove 1, .bind 1]).procs[0]? = some .cleared ∧
    (SockSt.init.run [.start, .start, .remove 0, .remove 1, .bind 1]).path = some 1 := by decide

end Lair
