import Verif.Accept

/- Lemmas for C61: how each event changes the peers. -/
namespace Lair

variable {K : Kx} {srvPk srvSk : B 32}

/-- Where client `k` is; `none` if it has not connected yet. Specification: nothing in the code corresponds. -/
def Acceptor.placeOf (a : Acceptor) (k : Nat) : Option Place := (a.peers[k]?).map (·.place)

theorem countP_mono_idx {α : Type} {P Q : α → Bool} : ∀ {l l' : List α},
    (∀ (k : Nat) p, l[k]? = some p → P p = true → ∃ p', l'[k]? = some p' ∧ Q p' = true) → l.countP P ≤ l'.countP Q
  | [], l', _ => by simp
  | x :: l, [], h => by
    have : ∀ p ∈ x :: l, P p ≠ true := by
      intro p hp hP
      obtain ⟨k, hk⟩ := List.getElem?_of_mem hp
      obtain ⟨p', h', _⟩ := h k p hk hP
      simp at h'
    rw [List.countP_eq_zero.mpr this]; simp
  | x :: l, y :: l', h => by
    have ih := countP_mono_idx (P := P) (Q := Q) (l := l) (l' := l') (fun k p hk hp => by
      simpa using h (k + 1) p (by simpa using hk) hp)
    have h0 := h 0 x rfl
    simp only [List.countP_cons]
    by_cases hx : P x = true
    · obtain ⟨p', h1, h2⟩ := h0 hx
      simp at h1; subst h1
      simp [hx, h2]; exact ih
    · simp [hx]; omega

theorem Acceptor.move_get (a : Acceptor) (k j : Nat) (pl : Place) :
    (a.move k pl).peers[j]? = if k = j then (a.peers[j]?).map (fun p => { p with place := pl }) else a.peers[j]? := by
  simp only [Acceptor.move, List.getElem?_modify]
  split <;> simp_all

theorem Acceptor.oldest_spec {a : Acceptor} {k : Nat} (h : a.oldest = some k) :
    ∃ p, a.peers[k]? = some p ∧ p.place = .queued := by
  unfold Acceptor.oldest at h
  rw [List.findIdx?_eq_some_iff_getElem] at h
  obtain ⟨hk, hp, _⟩ := h
  exact ⟨a.peers[k], by simp [hk], by simpa using hp⟩

theorem Acceptor.oldest_none {a : Acceptor} (h : a.oldest = none) :
    ∀ p ∈ a.peers, p.place ≠ .queued := by
  unfold Acceptor.oldest at h
  rw [List.findIdx?_eq_none_iff] at h
  intro p hp; simpa using h p hp

/-- What an event can do to a given client. -/
theorem Acceptor.step_peer (a : Acceptor) (e : AccEv) (k : Nat) (p : Peer) (hp : a.peers[k]? = some p) :
    ∃ p', (a.step K srvPk srvSk e).peers[k]? = some p' ∧
      ((p'.place = p.place) ∨
       (p.place = .queued ∧ p'.place = .shaking ∧ a.polls = true ∧ e = .accept) ∨
       (p.place = .queued ∧ p'.place = .closed ∧ a.polls = true ∧ e = .acceptFails) ∨
       (p.place = .shaking ∧ p'.place = .served ∧ p.handshake K srvPk srvSk = some true) ∨
       (p.place = .shaking ∧ p'.place = .closed ∧ (p.handshake K srvPk srvSk = some false ∨ p.ended = true))) ∧
      (p' = { p with place := p'.place } ∨ (∃ b, e = .bytes k b) ∨ e = .leave k) := by
  cases e with
  | connect r =>
    have : k < a.peers.length := (List.getElem?_eq_some_iff.mp hp).1
    refine ⟨p, ?_, .inl rfl, .inl rfl⟩
    simp [Acceptor.step, List.getElem?_append_left this, hp]
  | bytes j b =>
    by_cases hj : j = k
    · subst hj
      refine ⟨if p.ended then p else { p with sent := p.sent ++ b }, ?_, ?_, .inr (.inl ⟨b, rfl⟩)⟩
      · simp [Acceptor.step, hp]
      · left; split <;> rfl
    · refine ⟨p, ?_, .inl rfl, .inl rfl⟩
      simp [Acceptor.step, hp, hj]
  | leave j =>
    by_cases hj : j = k
    · subst hj
      refine ⟨{ p with ended := true }, ?_, .inl rfl, .inr (.inr rfl)⟩
      simp [Acceptor.step, hp]
    · refine ⟨p, ?_, .inl rfl, .inl rfl⟩
      simp [Acceptor.step, hp, hj]
  | accept =>
    simp only [Acceptor.step]
    split
    · rename_i hpl
      cases ho : a.oldest with
      | none => exact ⟨p, hp, .inl rfl, .inl rfl⟩
      | some j =>
        simp only [Acceptor.move_get]
        by_cases hj : j = k
        · subst hj
          obtain ⟨q, hq, hqp⟩ := Acceptor.oldest_spec ho
          rw [hp] at hq; cases hq
          exact ⟨{ p with place := .shaking }, by simp [hp], .inr (.inl ⟨hqp, rfl, hpl, by trivial⟩), .inl rfl⟩
        · exact ⟨p, by simp [hj, hp], .inl rfl, .inl rfl⟩
    · exact ⟨p, hp, .inl rfl, .inl rfl⟩
  | acceptFails =>
    simp only [Acceptor.step]
    split
    · rename_i hpl
      simp only [List.getElem?_map, hp, Option.map_some]
      by_cases hq : p.place = .queued
      · exact ⟨_, rfl, .inr (.inr (.inl ⟨hq, by simp [hq], hpl, by trivial⟩)), .inl (by simp [hq])⟩
      · exact ⟨_, rfl, .inl (by simp [hq]), .inl (by simp [hq])⟩
    · exact ⟨p, hp, .inl rfl, .inl rfl⟩
  | shake j =>
    simp only [Acceptor.step]
    cases hj : a.peers[j]? with
    | none => exact ⟨p, hp, .inl rfl, .inl rfl⟩
    | some q =>
      simp only
      split
      · rename_i hs
        by_cases hjk : j = k
        · subst hjk
          rw [hp] at hj; cases hj
          cases hh : p.handshake K srvPk srvSk with
          | none => exact ⟨p, hp, .inl rfl, .inl rfl⟩
          | some b =>
            cases b
            · exact ⟨{ p with place := .closed }, by simp [Acceptor.move_get, hp], .inr (.inr (.inr (.inr ⟨hs, rfl, .inl rfl⟩))), .inl rfl⟩
            · exact ⟨{ p with place := .served }, by simp [Acceptor.move_get, hp], .inr (.inr (.inr (.inl ⟨hs, rfl, by trivial⟩))), .inl rfl⟩
        · refine ⟨p, ?_, .inl rfl, .inl rfl⟩
          split <;> simp [Acceptor.move_get, hjk, hp]
      · exact ⟨p, hp, .inl rfl, .inl rfl⟩
  | writeFails j =>
    simp only [Acceptor.step]
    cases hj : a.peers[j]? with
    | none => exact ⟨p, hp, .inl rfl, .inl rfl⟩
    | some q =>
      simp only
      split
      · rename_i hs
        by_cases hjk : j = k
        · subst hjk
          rw [hp] at hj; cases hj
          exact ⟨{ p with place := .closed }, by simp [Acceptor.move_get, hp], .inr (.inr (.inr (.inr ⟨hs.1, rfl, .inr hs.2⟩))), .inl rfl⟩
        · exact ⟨p, by simp [Acceptor.move_get, hjk, hp], .inl rfl, .inl rfl⟩
      · exact ⟨p, hp, .inl rfl, .inl rfl⟩

/-- The listening socket is lost only by a failing `accept`, and never regained. -/
theorem Acceptor.step_listening (a : Acceptor) (e : AccEv) :
    (a.step K srvPk srvSk e).listening = (a.listening && !(e matches .acceptFails && a.polls)) := by
  cases e <;> simp only [Acceptor.step] <;> (repeat' split) <;> simp_all [Acceptor.move]

/-- Clients are only added by `connect`, one at a time. -/
theorem Acceptor.step_new (a : Acceptor) (e : AccEv) {k : Nat} {p : Peer} (hk : a.peers.length ≤ k)
    (h : (a.step K srvPk srvSk e).peers[k]? = some p) :
    p.place = if a.listening then .queued else .closed := by
  have key : ∀ b : Acceptor, b.peers.length = a.peers.length → b.peers[k]? ≠ some p := by
    intro b hb hp
    have := (List.getElem?_eq_some_iff.mp hp).1
    omega
  cases e with
  | connect r =>
    simp only [Acceptor.step] at h
    by_cases hk' : k = a.peers.length
    · subst hk'
      simp at h; subst h; rfl
    · have := (List.getElem?_eq_some_iff.mp h).1
      simp at this; omega
  | _ =>
    exfalso
    refine key _ ?_ h
    simp only [Acceptor.step]
    repeat' split
    all_goals simp [Acceptor.move]

theorem Acceptor.run_nil (a : Acceptor) : a.run K srvPk srvSk [] = a := rfl
theorem Acceptor.run_cons (a : Acceptor) (e : AccEv) (evs : List AccEv) :
    a.run K srvPk srvSk (e :: evs) = (a.step K srvPk srvSk e).run K srvPk srvSk evs := rfl
theorem Acceptor.run_append (a : Acceptor) (evs evs' : List AccEv) :
    a.run K srvPk srvSk (evs ++ evs') = (a.run K srvPk srvSk evs).run K srvPk srvSk evs' := by
  simp [Acceptor.run]

/-- While the stream of connections is not polled, nobody new gets in. -/
theorem Acceptor.step_blocked (a : Acceptor) (hpl : a.polls = false) (e : AccEv) {k : Nat}
    (h : (a.step K srvPk srvSk e).placeOf k = some .shaking ∨ (a.step K srvPk srvSk e).placeOf k = some .served) :
    a.placeOf k = some .shaking ∨ a.placeOf k = some .served := by
  cases hk : a.peers[k]? with
  | none =>
    exfalso
    have hlen : a.peers.length ≤ k := List.getElem?_eq_none_iff.mp hk
    cases hs : (a.step K srvPk srvSk e).peers[k]? with
    | none => simp [Acceptor.placeOf, hs] at h
    | some p =>
      have := a.step_new e hlen hs
      simp only [Acceptor.placeOf, hs, Option.map_some, this] at h
      split at h <;> simp at h
  | some p =>
    obtain ⟨p', hp', hc, _⟩ := a.step_peer (K := K) (srvPk := srvPk) (srvSk := srvSk) e k p hk
    simp only [Acceptor.placeOf, hp', hk, Option.map_some, Option.some.injEq] at h ⊢
    rcases hc with h1 | ⟨_, _, h1, _⟩ | ⟨_, _, h1, _⟩ | ⟨h1, _⟩ | ⟨h1, _⟩
    · rwa [h1] at h
    · simp [hpl] at h1
    · simp [hpl] at h1
    · exact .inl h1
    · exact .inl h1

end Lair
