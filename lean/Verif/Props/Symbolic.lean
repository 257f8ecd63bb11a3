import Verif.SymbolicLemmas

/- C25 (authentication) and C55: connection set-up against an active network attacker. -/
namespace Lair.Sym
open Term Atom

variable {target : Nat → Target} {pw : Nat → Nat}

/-- C25. Whatever the attacker sends, a client that completes the handshake while the key it expects belongs to an
    honest server (and has not leaked) is talking to that server: the server accepted exactly this client's initiator,
    and both ends have the same keys in both directions. -/
theorem C25_symbolic_client_authenticates {s : St} (h : Reachable target pw s) (i n : Nat) (o : Term)
    (ht : target i = .honest n) (ho : (s.cli i).other? = some o) (hl : ¬ s.leaked n) :
    ∃ j e, s.sess[j]? = some e ∧ e.srv = n ∧ e.cbox = pub (atom (.cbox i)) ∧ e.kx = pub (atom (.ckx i)) ∧
      ∀ d, clientKey d (atom (.ckx i)) o = serverKey d (atom (.skx j)) e.kx := by
  obtain ⟨j, rfl, e, h1, h2, h3, h4⟩ := (sinv_reachable h).auth i n o ht ho hl
  rw [ht] at h4; cases h4
  exact ⟨j, e, h1, rfl, h2, h3, fun d => by rw [h3]; rfl⟩

/-- C55. The keys of such a connection are never known to the attacker, not even if the server's identity key leaks
    later, and neither is any key derived from them. -/
theorem C55_session_keys_secret {s s' : St} (h : Reachable target pw s) (i n : Nat) (o : Term)
    (ht : target i = .honest n) (ho : (s.cli i).other? = some o) (hl : ¬ s.leaked n) (h' : Steps target pw s s') (d : Bool)
    (l : Nat) : ¬ s'.knows (clientKey d (atom (.ckx i)) o) ∧ ¬ s'.knows (kdf l (clientKey d (atom (.ckx i)) o)) := by
  have hi' := sinv_steps (sinv_reachable h) h'
  obtain ⟨j, rfl, _⟩ := (sinv_reachable h).auth i n o ht ho hl
  have hu : UnsafeKey (clientKey d (atom (.ckx i)) (pub (atom (.skx j)))) := by show UnsafeKey (shared d _ _); trivial
  exact ⟨fun hk => not_safe_of_unsafe hu (hi'.knows hk), fun hk => not_safe_of_unsafe (k := kdf l (clientKey d (atom (.ckx i)) (pub (atom (.skx j))))) hu (hi'.knows hk)⟩

/-- C55. A passphrase stays secret for ever if each connection that uses it completed its handshake, if at all, at a time
    when the key it expected was an honest server's and had not leaked. -/
theorem C55_passphrase_secret {s s' : St} (h : Reachable target pw s) (h' : Steps target pw s s') (p : Nat)
    (hp : ∀ i, pw i = p → (s'.cli i).other? = none ∨
      ∃ n o, target i = .honest n ∧ (s.cli i).other? = some o ∧ ¬ s.leaked n) :
    ¬ s'.knows (atom (.pass p)) := by
  intro hk
  obtain ⟨i, o, h1, h2, h3⟩ := (sinv_steps (sinv_reachable h) h').knows hk
  rcases hp i h1 with h4 | ⟨n, o', h4, h5, h6⟩
  · rw [h4] at h2; cases h2
  · obtain ⟨j, rfl, _⟩ := (sinv_reachable h).auth i n o' h4 h5 h6
    have := (later_steps h').other i _ h5
    rw [h2] at this; cases this
    exact h3 j rfl

/-- C55. If no connection that uses passphrase `p` was completed with a wrong or leaked server, a server receives an
    unlock request with that passphrase only on a connection whose other end is an honest client that sent it there:
    recorded or diverted unlock requests are of no use to the attacker. -/
theorem C55_unlock_authentic {s : St} (h : Reachable target pw s) (j p : Nat) (hj : (j, p) ∈ s.opened)
    (hp : ∀ i o, pw i = p → (s.cli i).other? = some o → ∃ n, target i = .honest n ∧ ¬ s.leaked n) :
    ∃ i o e, pw i = p ∧ s.cli i = .unlocked o ∧ s.sess[j]? = some e ∧ target i = .honest e.srv ∧
      e.kx = pub (atom (.ckx i)) ∧ ∀ d, clientKey d (atom (.ckx i)) o = serverKey d (atom (.skx j)) e.kx := by
  have hi := sinv_reachable h
  rcases hi.opened j p hj with ⟨i, o, h1, h2, h3⟩ | ⟨i, e, h1, h2, h3, h4⟩
  · obtain ⟨n, h4, h5⟩ := hp i o h1 h2
    obtain ⟨j', rfl, _⟩ := hi.auth i n o h4 h2 h5
    exact absurd rfl (h3 j')
  · obtain ⟨n, h5, h6⟩ := hp i _ h3 (by rw [h4]; rfl)
    obtain ⟨j', h7, e', h8, h9⟩ := hi.auth i n _ h5 (by rw [h4]; rfl) h6
    cases h7
    rw [h1] at h8; cases h8
    exact ⟨i, _, e, h3, h4, h1, h9.2.2, h2, fun d => by rw [h2]; rfl⟩

/-- C55. One client connection shares its keys with at most one connection of a server, so by
    `C55_unlock_authentic` no two server connections are unlocked by one client connection. -/
theorem C55_unlock_injective (j j' i : Nat) (o kx kx' : Term)
    (hk : clientKey true (atom (.ckx i)) o = serverKey true (atom (.skx j)) kx)
    (hk' : clientKey true (atom (.ckx i)) o = serverKey true (atom (.skx j')) kx') : j = j' := by
  have key : ∀ (j : Nat) (kx : Term), clientKey true (atom (.ckx i)) o = serverKey true (atom (.skx j)) kx →
      o = pub (atom (.skx j)) := by
    intro j kx hx
    unfold clientKey serverKey at hx
    split at hx
    · split at hx
      · injection hx with _ h1 h2; rw [h1]
      · cases hx
    · split at hx
      · cases hx
      · injection hx with _ h1 h2; cases h1
  have h1 := key j _ hk
  have h2 := key j' _ hk'
  rw [h1] at h2
  cases h2; rfl

/-! ### Non-vacuity: an honest run, and the attack after a leak -/

section Examples

/-- Connection 0 expects honest server 0; connection 1 too, and uses the same passphrase. -/
def exTarget : Nat → Target := fun _ => .honest 0
def exPw : Nat → Nat := fun _ => 7

theorem knows_wire {s : St} {t : Term} (h : t ∈ s.wire) : s.knows t := Know.seen (Or.inl h)

def ex1 : St := { St.init with cli := setCli St.init.cli 0 .started, wire := [initiator exTarget 0] }
def ex2 : St := { ex1 with
  sess := [⟨0, pub (atom (.cbox 0)), pub (atom (.ckx 0))⟩]
  wire := [initiator exTarget 0, sealed (pub (atom (.skx 0))) (pub (atom (.cbox 0)))] }
def ex3 : St := { ex2 with cli := setCli ex2.cli 0 (.open (pub (atom (.skx 0)))) }
def ex4 : St := { ex3 with wire := ex3.wire ++ [enc (shared false (atom (.skx 0)) (atom (.ckx 0))) (hello (pub (atom (.srv 0))))] }
def ex5 : St := { ex4 with
  cli := setCli ex4.cli 0 (.unlocked (pub (atom (.skx 0))))
  wire := ex4.wire ++ [unlockMsg (shared true (atom (.skx 0)) (atom (.ckx 0))) 7] }
def ex6 : St := { ex5 with opened := [(0, 7)] }
def ex7 : St := { ex6 with leaked := fun k => k = 0 ∨ False, wire := ex6.wire ++ [atom (.srv 0)] }

theorem ex3_reachable : Reachable exTarget exPw ex3 := by
  have h1 : Steps exTarget exPw St.init ex1 := .tail (.refl _) (.start 0 rfl)
  have h2 : Steps exTarget exPw St.init ex2 := .tail h1 (.accept 0 (initiator exTarget 0) _ _ (knows_wire (by simp [ex1])) rfl)
  exact .tail h2 (.finish 0 (sealed (pub (atom (.skx 0))) (pub (atom (.cbox 0)))) _ rfl (knows_wire (by simp [ex2])) rfl)

theorem ex6_steps : Steps exTarget exPw ex3 ex6 := by
  have h4 : Steps exTarget exPw ex3 ex4 := .tail (.refl _) (.hello (s := ex3) 0 ⟨0, pub (atom (.cbox 0)), pub (atom (.ckx 0))⟩ rfl)
  have h5 : Steps exTarget exPw ex3 ex5 := .tail h4 (.unlock 0 (pub (atom (.skx 0))) _ rfl (knows_wire (by simp [ex4]; exact Or.inr ⟨rfl, rfl⟩)) rfl)
  exact .tail h5 (.opened 0 7 _ rfl (knows_wire (by simp [ex5, serverKey])))

theorem ex6_reachable : Reachable exTarget exPw ex6 := by
  have h1 := ex3_reachable
  have h2 := ex6_steps
  have tr : ∀ {a b c : St}, Steps exTarget exPw a b → Steps exTarget exPw b c → Steps exTarget exPw a c := by
    intro a b c hab hbc
    induction hbc with
    | refl => exact hab
    | tail _ h ih => exact ih.tail h
  exact tr h1 h2

/-- The honest run completes, the server gets the passphrase, and the theorems apply — also after the leak. -/
example : (ex3.cli 0).other? = some (pub (atom (.skx 0))) ∧ ¬ ex3.leaked 0 ∧ (0, 7) ∈ ex6.opened ∧
    Steps exTarget exPw ex6 ex7 ∧ ex7.leaked 0 ∧ ¬ ex6.knows (atom (.pass 7)) := by
  refine ⟨rfl, id, by simp [ex6], .tail (.refl _) (.leak 0), Or.inl rfl, ?_⟩
  refine C55_passphrase_secret ex3_reachable ex6_steps 7 (fun i hi => ?_)
  by_cases h0 : i = 0
  · subst h0; exact Or.inr ⟨0, _, rfl, rfl, id⟩
  · left; simp [ex6, ex5, ex4, ex3, ex2, ex1, setCli, h0, St.init, CliPhase.other?]

example : ∃ i o e, exPw i = 7 ∧ ex6.cli i = .unlocked o ∧ ex6.sess[0]? = some e ∧ exTarget i = .honest e.srv ∧
    e.kx = pub (atom (.ckx i)) ∧ ∀ d, clientKey d (atom (.ckx i)) o = serverKey d (atom (.skx 0)) e.kx :=
  C55_unlock_authentic ex6_reachable 0 7 (by simp [ex6]) (fun _ _ _ _ => ⟨0, rfl, id⟩)

/-- The condition on leaks is needed: with the server's identity key the attacker answers in its place and learns the
    passphrase. -/
def at1 : St := { St.init with leaked := fun k => k = 0 ∨ False, wire := [atom (.srv 0)] }
def at2 : St := { at1 with cli := setCli at1.cli 0 .started, wire := [atom (.srv 0), initiator exTarget 0] }
def at3 : St := { at2 with cli := setCli at2.cli 0 (.open (pub (atom (.adv 1)))) }
def at4 : St := { at3 with
  cli := setCli at3.cli 0 (.unlocked (pub (atom (.adv 1))))
  wire := at3.wire ++ [unlockMsg (shared true (atom (.adv 1)) (atom (.ckx 0))) 7] }

theorem C55_leaked_identity_key_suffices : Reachable exTarget exPw at4 ∧ at4.knows (atom (.pass 7)) := by
  have hpair : ∀ {s : St}, s.wire = at2.wire → s.knows (pair (pub (atom (.cbox 0))) (pub (atom (.ckx 0)))) := by
    intro s hs
    exact Know.open' (sk := atom (.srv 0)) (knows_wire (by rw [hs]; simp [at2, initiator, exTarget, Target.pk]))
      (knows_wire (by rw [hs]; simp [at2]))
  have h1 : Steps exTarget exPw St.init at1 := .tail (.refl _) (.leak 0)
  have h2 : Steps exTarget exPw St.init at2 := .tail h1 (.start 0 rfl)
  have h3 : Steps exTarget exPw St.init at3 := .tail h2 (.finish 0 (sealed (pub (atom (.adv 1))) (pub (atom (.cbox 0)))) _ rfl
    (Know.seal' (Know.pub (Know.adv 1)) (Know.fst (hpair rfl))) rfl)
  have h4 : Steps exTarget exPw St.init at4 := .tail h3 (.unlock 0 (pub (atom (.adv 1))) _ rfl
    (Know.enc (Know.server (Know.adv 1) (Know.snd (hpair rfl))) (Know.hello (Know.seen (Or.inr ⟨0, rfl⟩)))) rfl)
  refine ⟨h4, ?_⟩
  have hkx : at4.knows (pub (atom (.ckx 0))) :=
    Know.snd (Know.open' (sk := atom (.srv 0)) (m := pair (pub (atom (.cbox 0))) (pub (atom (.ckx 0))))
      (knows_wire (by simp [at4, at3, at2, initiator, exTarget, Target.pk])) (knows_wire (by simp [at4, at3, at2])))
  have hkey : at4.knows (shared true (atom (.adv 1)) (atom (.ckx 0))) := Know.server (Know.adv 1) hkx
  exact Know.dec (Know.dec (knows_wire (t := unlockMsg (shared true (atom (.adv 1)) (atom (.ckx 0))) 7) (by simp [at4])) hkey)
    (Know.kdf hkey)

/-- A recorded initiator is accepted again (the server cannot tell), but that gives the attacker nothing. -/
example : ∃ s, Reachable exTarget exPw s ∧ s.sess.length = 2 ∧ (∀ e ∈ s.sess, e.kx = pub (atom (.ckx 0))) :=
  ⟨_, Steps.tail ex3_reachable (.accept 0 (initiator exTarget 0) _ _ (knows_wire (by simp [ex3, ex2])) rfl), by simp [ex3, ex2],
    by simp [ex3, ex2]⟩

end Examples
end Lair.Sym
