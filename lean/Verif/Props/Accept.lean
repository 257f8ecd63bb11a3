import Verif.AcceptLemmas
import Verif.Props.Connection
import Verif.Examples

/-
C61: every client that connects and does its part of the handshake is accepted, whatever other clients do.

The code does not have it: one failing `accept` ends accepting for good, and 4096 clients that connect and stay silent
keep everybody else out. Both are proved. What holds is proved too: while the listening socket is there and fewer than 4096
handshakes are held up by their clients, everybody else is accepted, in whatever order the server's tasks run.
-/
namespace Lair

variable {K : Kx} {srvPk srvSk : B 32}

/-- The events that are the server's own doing; the others are done by clients, the network or the operating system. -/
def AccEv.own : AccEv → Bool
  | .accept => true
  | .shake _ => true
  | _ => false

/-- The server has nothing left to do. -/
def Acceptor.Quiet (K : Kx) (srvPk srvSk : B 32) (a : Acceptor) : Prop :=
  ∀ e : AccEv, e.own = true → a.step K srvPk srvSk e = a

/-- The server's steps `evs`, none of them idle. -/
def Acceptor.Busy (K : Kx) (srvPk srvSk : B 32) : Acceptor → List AccEv → Prop
  | _, [] => True
  | a, e :: evs => e.own = true ∧ a.step K srvPk srvSk e ≠ a ∧ Busy K srvPk srvSk (a.step K srvPk srvSk e) evs

/-- SPECIFICATION. The first 112 bytes are a message sealed for the server's key, with two public keys in it. -/
def Peer.greeted (K : Kx) (srvPk srvSk : B 32) (p : Peer) : Bool :=
  match K.sealOpen (p.sent.take 112) srvPk srvSk with
  | some msg => msg.length == 64 && (K.clientKeys (K.kxPk p.rand.kxSk) p.rand.kxSk ((B.ofBytes? 32 (msg.drop 32)).getD (B.fill 32 0))).isSome
  | none => false

/-- SPECIFICATION. What should become of a client: it is served if it has sent its greeting and the 24 bytes after; closed if
    the greeting is wrong, or if it has left before all of this had arrived; and otherwise waited for. -/
def Peer.outcome (K : Kx) (srvPk srvSk : B 32) (p : Peer) : Place :=
  if 112 ≤ p.sent.length ∧ p.greeted K srvPk srvSk = false then .closed
  else if 136 ≤ p.sent.length then .served
  else if p.ended then .closed
  else .shaking

/-- A client whose handshake, begun or to be begun, is waiting for bytes that have not come. -/
def Peer.stalled (K : Kx) (srvPk srvSk : B 32) (p : Peer) : Bool :=
  (p.place == .queued || p.place == .shaking) && p.outcome K srvPk srvSk == .shaking

/-- The number of clients holding up a handshake. -/
def Acceptor.holdups (K : Kx) (srvPk srvSk : B 32) (a : Acceptor) : Nat := a.peers.countP (Peer.stalled K srvPk srvSk)

theorem greeted_iff (p : Peer) (h : 112 ≤ p.sent.length) :
    p.greeted K srvPk srvSk = true ↔ ∃ x, serverKeysOf K srvPk srvSk p.rand p.sent = .ok x := by
  unfold Peer.greeted serverKeysOf
  rw [if_neg (by omega)]
  cases K.sealOpen (p.sent.take 112) srvPk srvSk with
  | none => simp
  | some msg =>
    simp only [Bool.and_eq_true, beq_iff_eq]
    by_cases hl : msg.length = 64
    · have h1 : (msg.take 32).length = 32 := by simp [hl]
      have h2 : (msg.drop 32).length = 32 := by simp [hl]
      simp only [B.ofBytes?, h1, h2, dite_true, hl, true_and, Option.getD_some]
      cases K.clientKeys (K.kxPk p.rand.kxSk) p.rand.kxSk ⟨msg.drop 32, h2⟩ with
      | none => simp
      | some y => simp
    · simp only [hl, false_and, false_iff]
      rintro ⟨x, hx⟩
      by_cases h1 : (msg.take 32).length = 32
      · have h2 : (msg.drop 32).length ≠ 32 := by simp at h1 ⊢; omega
        simp only [B.ofBytes?, dif_pos h1, dif_neg h2] at hx
        cases hx
      · simp only [B.ofBytes?, dif_neg h1] at hx
        cases hx

theorem outcome_handshake (p : Peer) : p.outcome K srvPk srvSk = match p.handshake K srvPk srvSk with
    | some true => .served
    | some false => .closed
    | none => .shaking := by
  unfold Peer.outcome Peer.handshake
  by_cases h : p.sent.length < 112
  · rw [if_neg (by omega), if_neg (by omega), if_pos h]
    cases p.ended <;> rfl
  · rw [if_neg h]
    have hg := greeted_iff (K := K) (srvPk := srvPk) (srvSk := srvSk) p (by omega)
    cases hk : serverKeysOf K srvPk srvSk p.rand p.sent with
    | error e =>
      rw [hk] at hg
      rw [if_pos ⟨by omega, by simpa using hg⟩]
    | ok x =>
      rw [if_neg (by rw [hg.mpr ⟨x, hk⟩]; simp)]
      by_cases h2 : p.sent.length < 136
      · rw [if_neg (by omega), if_pos h2]
        cases p.ended <;> rfl
      · rw [if_pos (by omega), if_neg h2]

/-! ### The violations -/

/-- C61 is violated. Once a call of `accept` has failed, no client is ever taken from the socket again, whatever happens
    afterwards: served are at most the clients whose handshake was already under way. -/
theorem C61_accept_failure_is_final (a : Acceptor) (ha : a.polls = true) (evs : List AccEv) (k : Nat)
    (h : ((a.step K srvPk srvSk .acceptFails).run K srvPk srvSk evs).placeOf k = some .served) :
    a.placeOf k = some .shaking ∨ a.placeOf k = some .served := by
  have gen : ∀ (evs : List AccEv) (b : Acceptor), b.listening = false →
      ((b.run K srvPk srvSk evs).placeOf k = some .shaking ∨ (b.run K srvPk srvSk evs).placeOf k = some .served) →
      b.placeOf k = some .shaking ∨ b.placeOf k = some .served := by
    intro evs
    induction evs with
    | nil => intro b _ h; exact h
    | cons e evs ih =>
      intro b hb h
      have hb' : (b.step K srvPk srvSk e).listening = false := by rw [Acceptor.step_listening, hb]; rfl
      exact b.step_blocked (by simp [Acceptor.polls, hb]) e (ih _ hb' h)
  have hl : (a.step K srvPk srvSk .acceptFails).listening = false := by
    rw [Acceptor.step_listening]; simp [ha]
  have := gen evs _ hl (.inr h)
  simp only [Acceptor.step, ha, if_true, Acceptor.placeOf, List.getElem?_map] at this ⊢
  cases hk : a.peers[k]? with
  | none => simp [hk] at this
  | some p =>
    simp only [hk, Option.map_some, Option.some.injEq] at this ⊢
    split at this
    · simp at this
    · exact this

/-- The accepting loop of a server that has just started can meet such a failure. -/
example : Acceptor.init.polls = true := by decide

/-- While 4096 handshakes are held up by their clients nobody else gets in, and those stay where they are. -/
theorem acceptor_blocked (a : Acceptor) (silent : Nat → Prop)
    (hs : ∀ k, silent k → ∃ p, a.peers[k]? = some p ∧ p.place = .shaking ∧ p.handshake K srvPk srvSk = none ∧ p.ended = false)
    (hn : acceptLimit ≤ a.peers.countP (fun p => p.place == .shaking && (p.handshake K srvPk srvSk).isNone && !p.ended))
    (hall : ∀ k p, a.peers[k]? = some p → p.place = .shaking → p.handshake K srvPk srvSk = none → p.ended = false → silent k)
    (evs : List AccEv) (hq : ∀ e ∈ evs, ∀ k, silent k → (∀ b, e ≠ .bytes k b) ∧ e ≠ .leave k) (k : Nat)
    (h : (a.run K srvPk srvSk evs).placeOf k = some .served) :
    (a.placeOf k = some .shaking ∨ a.placeOf k = some .served) ∧ ¬ silent k := by
  have gen : ∀ (evs : List AccEv) (b : Acceptor), (∀ k, silent k → b.peers[k]? = a.peers[k]?) →
      (∀ e ∈ evs, ∀ k, silent k → (∀ x, e ≠ .bytes k x) ∧ e ≠ .leave k) →
      ((b.run K srvPk srvSk evs).placeOf k = some .shaking ∨ (b.run K srvPk srvSk evs).placeOf k = some .served) →
      (b.placeOf k = some .shaking ∨ b.placeOf k = some .served) ∧
        (silent k → (b.run K srvPk srvSk evs).peers[k]? = a.peers[k]?) := by
    intro evs
    induction evs with
    | nil => intro b hb _ h; exact ⟨h, hb k⟩
    | cons e evs ih =>
      intro b hb hq h
      have hpolls : b.polls = false := by
        have : acceptLimit ≤ b.shaking := by
          refine Nat.le_trans hn (countP_mono_idx ?_)
          intro j p hj hp
          simp only [Bool.and_eq_true, beq_iff_eq, Option.isNone_iff_eq_none, Bool.not_eq_true'] at hp
          exact ⟨p, by rw [hb j (hall j p hj hp.1.1 hp.1.2 hp.2), hj], by simp [hp.1.1]⟩
        simp [Acceptor.polls]; intro; exact this
      have hnext : ∀ j, silent j → (b.step K srvPk srvSk e).peers[j]? = a.peers[j]? := ?_
      · have := ih _ hnext (fun e' he' => hq e' (List.mem_cons_of_mem _ he')) h
        exact ⟨b.step_blocked hpolls e this.1, this.2⟩
      intro j hj
      obtain ⟨p, hp, h1, h2, h3⟩ := hs j hj
      rw [hp]
      obtain ⟨p', hp', hc, hd⟩ := b.step_peer (K := K) (srvPk := srvPk) (srvSk := srvSk) e j p (by rw [hb j hj, hp])
      have hno := hq e List.mem_cons_self j hj
      have hsame : p' = { p with place := p'.place } := by
        rcases hd with h | ⟨x, h⟩ | h
        · exact h
        · exact absurd h (hno.1 x)
        · exact absurd h hno.2
      rcases hc with h | ⟨h, _⟩ | ⟨h, _⟩ | ⟨_, _, h⟩ | ⟨_, _, h | h⟩
      · rw [hp', hsame, h]
      · simp [h1] at h
      · simp [h1] at h
      · simp [h2] at h
      · simp [h2] at h
      · simp [h3] at h
  have := gen evs a (fun _ _ => rfl) hq (.inr h)
  refine ⟨this.1, fun hk => ?_⟩
  obtain ⟨p, hp, h1, _⟩ := hs k hk
  simp [Acceptor.placeOf, this.2 hk, hp, h1] at h

theorem modify_middle {α : Type} (l : List α) (x : α) (l' : List α) (f : α → α) :
    (l ++ x :: l').modify l.length f = l ++ f x :: l' := by
  induction l with
  | nil => simp
  | cons y l ih => simpa using ih

theorem connects_run (r : ServerRand) (l : List Peer) : ∀ n,
    (Acceptor.mk true l).run K srvPk srvSk (List.replicate n (.connect r)) =
      ⟨true, l ++ List.replicate n ⟨[], false, r, .queued⟩⟩ := by
  intro n
  induction n generalizing l with
  | zero => simp [Acceptor.run]
  | succ n ih =>
    rw [List.replicate_succ, Acceptor.run_cons]
    show (Acceptor.mk true (l ++ [⟨[], false, r, .queued⟩])).run K srvPk srvSk _ = _
    rw [ih]; simp [List.replicate_succ]

theorem accepts_run (r : ServerRand) : ∀ (n m : Nat), m + n ≤ acceptLimit →
    (Acceptor.mk true (List.replicate m ⟨[], false, r, .shaking⟩ ++ List.replicate n ⟨[], false, r, .queued⟩)).run K srvPk srvSk
      (List.replicate n .accept) = ⟨true, List.replicate (m + n) ⟨[], false, r, .shaking⟩⟩ := by
  intro n
  induction n with
  | zero => intro m _; simp [Acceptor.run]
  | succ n ih =>
    intro m hm
    rw [List.replicate_succ (a := AccEv.accept), Acceptor.run_cons]
    have hstep : (Acceptor.mk true (List.replicate m (⟨[], false, r, .shaking⟩ : Peer) ++
        List.replicate (n + 1) ⟨[], false, r, .queued⟩)).step K srvPk srvSk .accept =
        ⟨true, List.replicate (m + 1) ⟨[], false, r, .shaking⟩ ++ List.replicate n ⟨[], false, r, .queued⟩⟩ := by
      have h1 : (Acceptor.mk true (List.replicate m (⟨[], false, r, .shaking⟩ : Peer) ++
          List.replicate (n + 1) ⟨[], false, r, .queued⟩)).polls = true := by
        simp [Acceptor.polls, Acceptor.shaking, List.countP_append, List.countP_replicate]; omega
      have h2 : (Acceptor.mk true (List.replicate m (⟨[], false, r, .shaking⟩ : Peer) ++
          List.replicate (n + 1) ⟨[], false, r, .queued⟩)).oldest = some m := by
        simp [Acceptor.oldest, List.findIdx?_append, List.findIdx?_replicate, List.replicate_succ, List.findIdx?_cons]
      simp only [Acceptor.step, h1, h2, if_true, Acceptor.move]
      congr 1
      have hm := modify_middle (List.replicate m (⟨[], false, r, .shaking⟩ : Peer)) ⟨[], false, r, .queued⟩
        (List.replicate n ⟨[], false, r, .queued⟩) (fun p => { p with place := .shaking })
      rw [List.length_replicate] at hm
      rw [List.replicate_succ, hm, List.replicate_succ']
      simp
    rw [hstep, ih (m + 1) (by omega)]
    congr 2; omega

/-- C61 is violated. 4096 clients that connect and then send nothing suffice: from then on, whatever anybody else does and
    however the server's tasks are scheduled, no other client is ever served, although the socket is open. -/
theorem C61_silent_clients_keep_others_out (K : Kx) (srvPk srvSk : B 32) (r : ServerRand) :
    ∃ evs : List AccEv, (Acceptor.init.run K srvPk srvSk evs).listening = true ∧
      ∀ evs' : List AccEv, (∀ e ∈ evs', ∀ k < 4096, (∀ b, e ≠ .bytes k b) ∧ e ≠ .leave k) →
        ∀ k, ((Acceptor.init.run K srvPk srvSk evs).run K srvPk srvSk evs').placeOf k ≠ some .served := by
  have hlim : ∃ n, n = 4096 ∧ n = acceptLimit := ⟨_, rfl, rfl⟩
  obtain ⟨n, hn, hn'⟩ := hlim
  rw [← hn]
  clear hn
  refine ⟨List.replicate n (.connect r) ++ List.replicate n .accept, ?_⟩
  have hrun : Acceptor.init.run K srvPk srvSk (List.replicate n (.connect r) ++ List.replicate n .accept) =
      ⟨true, List.replicate n ⟨[], false, r, .shaking⟩⟩ := by
    rw [Acceptor.run_append, Acceptor.init, connects_run]
    have := accepts_run (K := K) (srvPk := srvPk) (srvSk := srvSk) r n 0 (by omega)
    simpa only [Nat.zero_add, List.replicate_zero] using this
  rw [hrun]
  refine ⟨rfl, ?_⟩
  intro evs' hq k h
  have hshake : ∀ p : Peer, p.sent = [] → p.ended = false → p.handshake K srvPk srvSk = none := by
    intro p h1 h2; simp [Peer.handshake, h1, h2]
  have hget : ∀ k p, (List.replicate n (⟨[], false, r, .shaking⟩ : Peer))[k]? = some p →
      k < n ∧ p = ⟨[], false, r, .shaking⟩ := by
    intro k p hk
    obtain ⟨h1, h2⟩ := List.getElem?_eq_some_iff.mp hk
    rw [List.getElem_replicate] at h2
    exact ⟨by simpa using h1, h2.symm⟩
  have := acceptor_blocked (K := K) (srvPk := srvPk) (srvSk := srvSk)
    ⟨true, List.replicate n ⟨[], false, r, .shaking⟩⟩ (fun k => k < n)
    (fun k hk => ⟨⟨[], false, r, .shaking⟩, by rw [List.getElem?_replicate, if_pos hk], rfl, hshake _ rfl rfl, rfl⟩)
    (by
      rw [List.countP_replicate, if_pos (by simp [hshake])]; omega)
    (fun k p hk _ _ _ => (hget k p hk).1) evs' hq k h
  exact this.2 (by
    rcases this.1 with h | h
    all_goals
      simp only [Acceptor.placeOf, Option.map_eq_some_iff] at h
      obtain ⟨p, hp, _⟩ := h
      exact (hget k p hp).1)

/-! ### What holds -/

/-- C61, what holds of it. A client that is served stays so, whatever happens to the listening socket and to others. -/
theorem C61_served_stays_partial (a : Acceptor) (evs : List AccEv) (k : Nat) (h : a.placeOf k = some .served) :
    (a.run K srvPk srvSk evs).placeOf k = some .served := by
  induction evs generalizing a with
  | nil => exact h
  | cons e evs ih =>
    refine ih _ ?_
    simp only [Acceptor.placeOf, Option.map_eq_some_iff] at h ⊢
    obtain ⟨p, hp, hpl⟩ := h
    obtain ⟨p', hp', hc, _⟩ := a.step_peer (K := K) (srvPk := srvPk) (srvSk := srvSk) e k p hp
    exact ⟨p', hp', by simpa [hpl] using hc⟩

theorem Peer.handshake_place (p : Peer) (pl : Place) :
    ({ p with place := pl } : Peer).handshake K srvPk srvSk = p.handshake K srvPk srvSk := rfl

/-- What the server's own steps do to a client. -/
def OwnMoved (K : Kx) (srvPk srvSk : B 32) (p p' : Peer) : Prop :=
  p' = { p with place := p'.place } ∧
  (p'.place = p.place ∨ (p.place = .queued ∧ p'.place = .shaking) ∨
    ((p.place = .queued ∨ p.place = .shaking) ∧ p'.place = p.outcome K srvPk srvSk ∧ p'.place ≠ .shaking))

theorem OwnMoved.trans {p q r : Peer} (h1 : OwnMoved K srvPk srvSk p q) (h2 : OwnMoved K srvPk srvSk q r) :
    OwnMoved K srvPk srvSk p r := by
  obtain ⟨e1, c1⟩ := h1
  obtain ⟨e2, c2⟩ := h2
  have ho : q.outcome K srvPk srvSk = p.outcome K srvPk srvSk := by rw [e1]; rfl
  have hne : p.outcome K srvPk srvSk ≠ .queued := by rw [outcome_handshake]; split <;> simp
  refine ⟨by rw [e2, e1], ?_⟩
  rw [ho] at c2
  rcases c1 with c1 | ⟨c1, c1'⟩ | ⟨c1, c1', c1''⟩
  · rw [c1] at c2; exact c2
  · rcases c2 with c2 | ⟨c2, c2'⟩ | ⟨c2, c2', c2''⟩
    · exact .inr (.inl ⟨c1, c2.trans c1'⟩)
    · rw [c1'] at c2; simp at c2
    · exact .inr (.inr ⟨.inl c1, c2', c2''⟩)
  · rcases c2 with c2 | ⟨c2, c2'⟩ | ⟨c2, c2', c2''⟩
    · exact .inr (.inr ⟨c1, c2.trans c1', by rw [c2]; exact c1''⟩)
    · rw [c1'] at c2; exact absurd c2 hne
    · exact .inr (.inr ⟨c1, c2', c2''⟩)

theorem own_step {a : Acceptor} {e : AccEv} (he : e.own = true) {k : Nat} {p : Peer} (hp : a.peers[k]? = some p) :
    ∃ p', (a.step K srvPk srvSk e).peers[k]? = some p' ∧ OwnMoved K srvPk srvSk p p' := by
  obtain ⟨p', hp', hc, hd⟩ := a.step_peer (K := K) (srvPk := srvPk) (srvSk := srvSk) e k p hp
  refine ⟨p', hp', ?_, ?_⟩
  · rcases hd with h | ⟨b, h⟩ | h
    · exact h
    · rw [h] at he; simp [AccEv.own] at he
    · rw [h] at he; simp [AccEv.own] at he
  · cases e with
    | accept =>
      simp only [Acceptor.step] at hp'
      split at hp'
      · cases ho : a.oldest with
        | none => rw [ho] at hp'; simp only [hp, Option.some.injEq] at hp'; exact .inl (by rw [hp'])
        | some j =>
          rw [ho] at hp'
          simp only [Acceptor.move_get] at hp'
          split at hp'
          · rename_i hj; subst hj
            obtain ⟨q, hq, hqp⟩ := Acceptor.oldest_spec ho
            rw [hp] at hq; cases hq
            simp only [hp, Option.map_some, Option.some.injEq] at hp'
            exact .inr (.inl ⟨hqp, by rw [← hp']⟩)
          · simp only [hp, Option.some.injEq] at hp'; exact .inl (by rw [hp'])
      · simp only [hp, Option.some.injEq] at hp'; exact .inl (by rw [hp'])
    | shake j =>
      simp only [Acceptor.step] at hp'
      cases hj : a.peers[j]? with
      | none => rw [hj] at hp'; simp only [hp, Option.some.injEq] at hp'; exact .inl (by rw [hp'])
      | some q =>
        rw [hj] at hp'
        simp only at hp'
        split at hp'
        · rename_i hsh
          cases hh : q.handshake K srvPk srvSk with
          | none => rw [hh] at hp'; simp only [hp, Option.some.injEq] at hp'; exact .inl (by rw [hp'])
          | some b =>
            by_cases hjk : j = k
            · subst hjk
              rw [hp] at hj; cases hj
              have hout : p'.place = p.outcome K srvPk srvSk ∧ p'.place ≠ .shaking := by
                rw [hh] at hp'
                cases b <;> simp [Acceptor.move_get, hp] at hp' <;> simp [← hp', outcome_handshake, hh]
              exact .inr (.inr ⟨.inr hsh, hout⟩)
            · rw [hh] at hp'
              refine .inl ?_
              cases b <;> simp [Acceptor.move_get, hjk, hp] at hp' <;> rw [hp']
        · simp only [hp, Option.some.injEq] at hp'; exact .inl (by rw [hp'])
    | _ => simp [AccEv.own] at he

theorem own_length {a : Acceptor} {e : AccEv} (he : e.own = true) :
    (a.step K srvPk srvSk e).peers.length = a.peers.length := by
  cases e <;> simp only [AccEv.own, Bool.false_eq_true] at he <;> simp only [Acceptor.step] <;> (repeat' split) <;>
    simp [Acceptor.move]

theorem own_run (evs : List AccEv) : ∀ (a : Acceptor), (∀ e ∈ evs, e.own = true) →
    (a.run K srvPk srvSk evs).peers.length = a.peers.length ∧ (a.run K srvPk srvSk evs).listening = a.listening ∧
    ∀ (k : Nat) p, a.peers[k]? = some p → ∃ p', (a.run K srvPk srvSk evs).peers[k]? = some p' ∧ OwnMoved K srvPk srvSk p p' := by
  induction evs with
  | nil => intro a _; exact ⟨rfl, rfl, fun k p hp => ⟨p, hp, rfl, .inl rfl⟩⟩
  | cons e evs ih =>
    intro a he
    have h0 := he e List.mem_cons_self
    obtain ⟨h1, h2, h3⟩ := ih (a.step K srvPk srvSk e) (fun e' h' => he e' (List.mem_cons_of_mem _ h'))
    refine ⟨h1.trans (own_length h0), h2.trans ?_, ?_⟩
    · rw [Acceptor.step_listening]; cases e <;> simp_all [AccEv.own]
    · intro k p hp
      obtain ⟨q, hq, mq⟩ := own_step (K := K) (srvPk := srvPk) (srvSk := srvSk) h0 hp
      obtain ⟨r, hr, mr⟩ := h3 k q hq
      exact ⟨r, hr, mq.trans mr⟩

/-- C61, what holds of it. Suppose the socket is open and fewer than 4096 clients hold up their handshake. Let the server do
    what it can, its tasks in any order, until nothing is left to do. Then every client that was waiting or shaking hands
    has come exactly as far as the bytes it has sent allow: served if they make a complete and proper handshake, closed
    if they are wrong or end too early, and its handshake begun if they are not complete. -/
theorem C61_everybody_gets_through_partial (a : Acceptor) (hl : a.listening = true)
    (hh : a.holdups K srvPk srvSk < 4096) (evs : List AccEv) (he : ∀ e ∈ evs, e.own = true)
    (hq : (a.run K srvPk srvSk evs).Quiet K srvPk srvSk) (k : Nat) (p : Peer) (hp : a.peers[k]? = some p)
    (hw : p.place = .queued ∨ p.place = .shaking) :
    (a.run K srvPk srvSk evs).placeOf k = some (p.outcome K srvPk srvSk) := by
  obtain ⟨hlen, hlis, hrun⟩ := own_run (K := K) (srvPk := srvPk) (srvSk := srvSk) evs a he
  rw [hl] at hlis
  generalize hb : a.run K srvPk srvSk evs = b at *
  -- a client shaking hands in `b` is held up
  have hsh : ∀ (j : Nat) q, b.peers[j]? = some q → q.place = .shaking → q.handshake K srvPk srvSk = none := by
    intro j q hj hs
    cases hc : q.handshake K srvPk srvSk with
    | none => rfl
    | some c =>
      exfalso
      have := hq (.shake j) rfl
      simp only [Acceptor.step, hj, hs, if_true, hc] at this
      have h2 : (b.move j (if c then .served else .closed)).peers[j]? = b.peers[j]? := by
        cases c
        · exact congrArg (fun x : Acceptor => x.peers[j]?) this
        · exact congrArg (fun x : Acceptor => x.peers[j]?) this
      simp only [Acceptor.move_get, if_true, hj, Option.map_some, Option.some.injEq] at h2
      have h3 := congrArg Peer.place h2
      rw [hs] at h3
      cases c <;> simp at h3
  -- so there is room for another handshake
  have hroom : b.shaking < acceptLimit := by
    refine Nat.lt_of_le_of_lt (countP_mono_idx (Q := Peer.stalled K srvPk srvSk) (l' := a.peers) ?_) hh
    intro j q hj hs
    have hs' : q.place = .shaking := by simpa using hs
    have hja : j < a.peers.length := by rw [← hlen]; exact (List.getElem?_eq_some_iff.mp hj).1
    refine ⟨a.peers[j], by simp [hja], ?_⟩
    obtain ⟨q', hq', hm, hc⟩ := hrun j a.peers[j] (by simp [hja])
    rw [hj] at hq'; cases hq'
    have hnone := hsh j q hj hs'
    rw [hm, Peer.handshake_place] at hnone
    rw [hs'] at hc
    simp only [Peer.stalled, outcome_handshake, hnone, beq_self_eq_true, Bool.and_true, Bool.or_eq_true, beq_iff_eq]
    rcases hc with h | h | h
    · exact .inr h.symm
    · exact .inl h.1
    · exact absurd rfl h.2.2
  have hnq : ∀ q ∈ b.peers, q.place ≠ .queued := by
    apply Acceptor.oldest_none
    cases ho : b.oldest with
    | none => rfl
    | some j =>
      exfalso
      have := hq .accept rfl
      obtain ⟨q, hj, hs⟩ := Acceptor.oldest_spec ho
      have hpl : b.polls = true := by simp [Acceptor.polls, hlis, hroom]
      simp only [Acceptor.step, hpl, if_true, ho] at this
      have h2 : (b.move j .shaking).peers[j]? = b.peers[j]? := congrArg (fun x : Acceptor => x.peers[j]?) this
      simp only [Acceptor.move_get, if_true, hj, Option.map_some, Option.some.injEq] at h2
      have h3 := congrArg Peer.place h2
      rw [hs] at h3
      simp at h3
  obtain ⟨p', hp', hm, hc⟩ := hrun k p hp
  simp only [Acceptor.placeOf, hp', Option.map_some, Option.some.injEq]
  have hnq' := hnq p' (List.mem_of_getElem? hp')
  have hstill : p'.place = .shaking → p'.place = p.outcome K srvPk srvSk := by
    intro h
    have := hsh k p' hp' h
    rw [hm, Peer.handshake_place] at this
    rw [h]; simp [outcome_handshake, this]
  rcases hc with h | h | h
  · rcases hw with hw | hw
    · rw [hw] at h; exact absurd h hnq'
    · exact hstill (h.trans hw)
  · exact hstill h.2
  · exact h.2.1

/-- The weight of a client for `C61_terminates`. -/
def Place.todo : Place → Nat
  | .queued => 2
  | .shaking => 1
  | _ => 0

theorem move_todo {l : List Peer} {k : Nat} {p : Peer} (hp : l[k]? = some p) (pl : Place) (h : pl.todo < p.place.todo) :
    ((l.modify k (fun p => { p with place := pl })).map (·.place.todo)).sum < (l.map (·.place.todo)).sum := by
  induction l generalizing k with
  | nil => simp at hp
  | cons x l ih =>
    cases k with
    | zero => simp at hp; subst hp; simpa using h
    | succ k => simp at hp; simpa using ih hp

/-- C61, what holds of it. The server comes to an end of what it can do: after at most two steps per client. -/
theorem C61_terminates_partial (a : Acceptor) (evs : List AccEv) (hb : a.Busy K srvPk srvSk evs) :
    evs.length ≤ 2 * a.peers.length := by
  have hdec : ∀ (a : Acceptor) (e : AccEv), e.own = true → a.step K srvPk srvSk e ≠ a →
      ((a.step K srvPk srvSk e).peers.map (·.place.todo)).sum < (a.peers.map (·.place.todo)).sum := by
    intro a e he hne
    cases e with
    | accept =>
      simp only [Acceptor.step] at hne ⊢
      split
      · rename_i hpl
        rw [if_pos hpl] at hne
        cases ho : a.oldest with
        | none => rw [ho] at hne; exact absurd rfl hne
        | some k =>
          obtain ⟨p, hp, hq⟩ := Acceptor.oldest_spec ho
          exact move_todo hp _ (by simp [hq, Place.todo])
      · rename_i hpl
        rw [if_neg hpl] at hne; exact absurd rfl hne
    | shake k =>
      simp only [Acceptor.step] at hne ⊢
      cases hk : a.peers[k]? with
      | none => rw [hk] at hne; exact absurd rfl hne
      | some p =>
        rw [hk] at hne
        simp only at hne ⊢
        by_cases hs : p.place = .shaking
        · rw [if_pos hs] at hne ⊢
          cases hh : p.handshake K srvPk srvSk with
          | none => rw [hh] at hne; exact absurd rfl hne
          | some b => cases b <;> exact move_todo hk _ (by simp [hs, Place.todo])
        · rw [if_neg hs] at hne; exact absurd rfl hne
    | _ => simp [AccEv.own] at he
  have main : ∀ (evs : List AccEv) (a : Acceptor), a.Busy K srvPk srvSk evs →
      evs.length ≤ (a.peers.map (·.place.todo)).sum := by
    intro evs
    induction evs with
    | nil => intros; simp
    | cons e evs ih =>
      intro a hb
      obtain ⟨h1, h2, h3⟩ := hb
      have := ih _ h3
      have := hdec a e h1 h2
      simp; omega
  refine Nat.le_trans (main evs a hb) ?_
  generalize a.peers = l
  induction l with
  | nil => simp
  | cons x l ih =>
    have : x.place.todo ≤ 2 := by cases x.place <;> simp [Place.todo]
    simp; omega

/-- C61, what holds of it. In particular an honest client - one that knows the server's public key and has sent its two
    messages of the handshake - is served. -/
theorem C61_honest_client_served_partial {C : Crypto} (L : C.Lawful) (LK : K.Lawful C) (hs : C.IsXPair srvPk srvSk)
    (cr : ClientRand) (hc : C.IsXPair cr.cboxPk cr.cboxSk) (more : Bytes)
    (a : Acceptor) (hl : a.listening = true) (hh : a.holdups K srvPk srvSk < 4096)
    (k : Nat) (p : Peer) (hp : a.peers[k]? = some p) (hw : p.place = .queued ∨ p.place = .shaking)
    (hsent : p.sent = clientInit K srvPk cr ++ cr.header.val ++ more)
    (evs : List AccEv) (he : ∀ e ∈ evs, e.own = true) (hq : (a.run K srvPk srvSk evs).Quiet K srvPk srvSk) :
    (a.run K srvPk srvSk evs).placeOf k = some .served := by
  rw [C61_everybody_gets_through_partial a hl hh evs he hq k p hp hw]
  obtain ⟨reply, srv, cli, h1, _⟩ := C25_handshake_agrees (S := ⟨Unit, fun _ _ => (), fun s m => (m, s), fun s c => some (c, s)⟩) L LK srvPk srvSk hs cr hc p.rand more []
  rw [← hsent] at h1
  have hil : (clientInit K srvPk cr).length = 112 := by
    simp [clientInit, LK.seal_len, cr.cboxPk.len, (K.kxPk cr.kxSk).len]
  have hlen : 136 ≤ p.sent.length := by rw [hsent]; simp [hil, cr.header.len]; omega
  have : p.handshake K srvPk srvSk = some true := by
    unfold Peer.handshake
    rw [if_neg (by omega)]
    unfold serverAccept at h1
    cases hk : serverKeysOf K srvPk srvSk p.rand p.sent with
    | error e => rw [hk] at h1; simp at h1
    | ok x => simp only; rw [if_neg (by omega)]
  simp [outcome_handshake, this]

section Examples

def Toy.cliRand : ClientRand := ⟨B.fill 32 1, B.fill 32 1, B.fill 32 2, B.fill 32 3, B.fill 24 4⟩
def Toy.srvRand : ServerRand := ⟨B.fill 32 5, B.fill 32 6, B.fill 24 7⟩

/-- Four clients connect: a silent one, one that sends garbage, an honest one and one that leaves before it has sent anything.
    The server has begun the first handshake. -/
def Toy.arrivals : Acceptor :=
  Acceptor.init.run Toy.kx (B.fill 32 9) (B.fill 32 9)
    [.connect Toy.srvRand, .connect Toy.srvRand, .connect Toy.srvRand, .connect Toy.srvRand, .accept, .leave 3,
     .bytes 1 (List.replicate 112 0), .bytes 2 (clientInit Toy.kx (B.fill 32 9) Toy.cliRand), .bytes 2 Toy.cliRand.header.val]

/-- What the server then does. -/
def Toy.work : List AccEv := [.accept, .shake 0, .accept, .shake 2, .accept, .shake 3, .shake 1]

/-- The hypotheses of the three theorems above: `Toy.arrivals` has an open socket and fewer than 4096 silent clients, and
    `Toy.work` consists of steps of the server. -/
example : Toy.arrivals.listening = true ∧ Toy.arrivals.holdups Toy.kx (B.fill 32 9) (B.fill 32 9) = 1 ∧
    (∀ e ∈ Toy.work, e.own = true) ∧
    Toy.arrivals.peers[2]?.map (·.sent) = some (clientInit Toy.kx (B.fill 32 9) Toy.cliRand ++ Toy.cliRand.header.val ++ []) ∧
    (List.range 4).map Toy.arrivals.placeOf = [some .shaking, some .queued, some .queued, some .queued] := by decide +kernel

/-- ... after which it has nothing left to do ... -/
example : (Toy.arrivals.run Toy.kx (B.fill 32 9) (B.fill 32 9) Toy.work).Quiet Toy.kx (B.fill 32 9) (B.fill 32 9) := by
  have h : (Toy.arrivals.run Toy.kx (B.fill 32 9) (B.fill 32 9) Toy.work).peers.map
        (fun p => (p.place, p.handshake Toy.kx (B.fill 32 9) (B.fill 32 9))) =
      [(.shaking, none), (.closed, some false), (.served, some true), (.closed, some false)] := by decide +kernel
  generalize Toy.arrivals.run Toy.kx (B.fill 32 9) (B.fill 32 9) Toy.work = b at h
  have hall : ∀ p ∈ b.peers, p.place ≠ .queued ∧ (p.place = .shaking → p.handshake Toy.kx (B.fill 32 9) (B.fill 32 9) = none) := by
    intro p hp
    have := List.mem_map_of_mem (f := fun p : Peer => (p.place, p.handshake Toy.kx (B.fill 32 9) (B.fill 32 9))) hp
    rw [h] at this
    simp only [List.mem_cons, Prod.mk.injEq, List.not_mem_nil, or_false] at this
    rcases this with ⟨h1, h2⟩ | ⟨h1, h2⟩ | ⟨h1, h2⟩ | ⟨h1, h2⟩ <;> simp [h1, h2]
  intro e he
  cases e with
  | accept =>
    simp only [Acceptor.step]
    split
    · split
      · rename_i ho
        obtain ⟨p, hp, hq⟩ := Acceptor.oldest_spec ho
        exact absurd hq (hall p (List.mem_of_getElem? hp)).1
      · rfl
    · rfl
  | shake k =>
    simp only [Acceptor.step]
    cases hk : b.peers[k]? with
    | none => rfl
    | some p =>
      simp only
      split
      · rename_i hs
        rw [(hall p (List.mem_of_getElem? hk)).2 hs]
      · rfl
  | _ => simp [AccEv.own] at he

/-- ... and this is where everybody is. -/
example : (List.range 4).map (Toy.arrivals.run Toy.kx (B.fill 32 9) (B.fill 32 9) Toy.work).placeOf =
    [some .shaking, some .closed, some .served, some .closed] := by decide +kernel

/-- The hypothesis of `C61_terminates_partial`. -/
example : Toy.arrivals.Busy Toy.kx (B.fill 32 9) (B.fill 32 9) [.accept, .accept, .shake 2] := by
  refine ⟨rfl, ?_, rfl, ?_, rfl, ?_, trivial⟩
  · intro h
    have := congrArg (fun a : Acceptor => a.placeOf 1) h
    revert this; decide +kernel
  · intro h
    have := congrArg (fun a : Acceptor => a.placeOf 2) h
    revert this; decide +kernel
  · intro h
    have := congrArg (fun a : Acceptor => a.placeOf 2) h
    revert this; decide +kernel

end Examples

end Lair
