import Verif.Blind

/-
C82, C83: non-interference for clients without the passphrase. The specification (what a client sees, which keystores look
the same from outside) is in the first section of `Verif.Blind`.
-/
namespace Lair

variable {E E' : Env}

theorem alone_init (E E' : Env) (st : E.S.σ) (st' : E'.S.σ) (c : Nat) : SoloSim c st' (Sys.init E st) (Sys.init E' st') :=
  ⟨.nil, rfl, rfl, rfl⟩

theorem others_init (E : Env) (st : E.S.σ) (c : Nat) : RestSim c (Sys.init E st) (Sys.init E st) :=
  ⟨.nil, by simp [Sys.init], rfl, rfl, rfl⟩

/-- C82. Whatever happens on a server - any store, other clients doing anything, crashes - what a client sees that never
    presents the right passphrase it could equally see, with the same messages of its own, on any other store of any other
    keystore that looks the same from outside, with nobody else connected, and without that store changing. -/
theorem C82_locked_client_learns_nothing (c : Nat) (hf : SameFront E E' c) (st : E.S.σ) (st' : E'.S.σ) (evs : List Event)
    (hno : NeverRight E c (seen E st c evs)) :
    ∃ evs', OnlyFrom c evs' ∧ seen E' st' c evs' = seen E st c evs ∧ (Sys.run E' st' evs').sh.store = st' := by
  obtain ⟨evs', h1, h2, h3⟩ := alone_run hf evs _ _ (alone_init E E' st st' c) hno
  exact ⟨evs', h1, h3, h2.store⟩

/-- C82. So the possible views of such a client are the same whatever the keystore holds. -/
theorem C82_same_views (c : Nat) (hf : SameFront E E' c) (st : E.S.σ) (st' : E'.S.σ) (tr : List Seen)
    (hno : NeverRight E c tr) : (∃ evs, seen E st c evs = tr) ↔ (∃ evs, seen E' st' c evs = tr) := by
  constructor
  · rintro ⟨evs, h⟩
    obtain ⟨evs', _, h2, _⟩ := C82_locked_client_learns_nothing c hf st st' evs (by rw [h]; exact hno)
    exact ⟨evs', by rw [h2, h]⟩
  · rintro ⟨evs, h⟩
    obtain ⟨evs', _, h2, _⟩ := C82_locked_client_learns_nothing c hf.symm st' st evs (by rw [h]; exact hf.never hno)
    exact ⟨evs', by rw [h2, h]⟩

/-- C83. Whatever happens on a server, the same can happen without the messages of a client that never presents the right
    passphrase: every other client sees the same, the store ends the same, the same entries are added and the fallback
    signer is called for the same data. -/
theorem C83_locked_client_disturbs_nobody (c : Nat) (st : E.S.σ) (evs : List Event)
    (hno : NeverRight E c (seen E st c evs)) :
    ∃ evs', NoneFrom c evs' ∧ (∀ d, d ≠ c → seen E st d evs' = seen E st d evs) ∧
      (Sys.run E st evs').sh.store = (Sys.run E st evs).sh.store ∧ (Sys.run E st evs').deeds = (Sys.run E st evs).deeds := by
  obtain ⟨evs', h1, h2, h3⟩ := others_run evs _ _ (others_init E st c) hno
  exact ⟨evs', h1, h3, by have := h2.sh; unfold Sys.run; rw [this], h2.deeds⟩

theorem said_of_recv (c : Nat) (m : Msg) (evs : List Event) (s : Sys E) (h : Event.recv c m ∈ evs) :
    Seen.said m ∈ seenFrom c s evs := by
  induction evs generalizing s with
  | nil => simp at h
  | cons ev evs ih =>
    simp only [seenFrom]
    rcases List.mem_cons.1 h with h | h
    · subst h; rw [seenAt_recv]; simp
    · exact List.mem_append_right _ (ih _ h)

theorem said_at (c : Nat) (m : Msg) (s : Sys E) (ev : Event) (h : Seen.said m ∈ seenAt c s ev) : ev = .recv c m := by
  unfold seenAt at h
  rcases List.mem_append.1 h with h | h
  · cases ev with
    | recv d m' =>
      by_cases hd : d = c
      · simp [hd] at h; rw [hd, h]
      · simp [hd] at h
    | restart => simp at h
    | step i ch => simp at h
  · simp at h

theorem recv_of_said (c : Nat) (m : Msg) (evs : List Event) (s : Sys E) (h : Seen.said m ∈ seenFrom c s evs) :
    Event.recv c m ∈ evs := by
  induction evs generalizing s with
  | nil => simp [seenFrom] at h
  | cons ev evs ih =>
    simp only [seenFrom] at h
    rcases List.mem_append.1 h with h | h
    · rw [said_at c m s ev h]; simp
    · exact List.mem_cons_of_mem _ (ih _ h)

/-- C83. The same for any number of such clients at once. -/
theorem C83_locked_clients_disturb_nobody (cs : List Nat) (st : E.S.σ) (evs : List Event)
    (hno : ∀ c ∈ cs, NeverRight E c (seen E st c evs)) :
    ∃ evs', (∀ c ∈ cs, NoneFrom c evs') ∧ (∀ d, d ∉ cs → seen E st d evs' = seen E st d evs) ∧
      (Sys.run E st evs').sh.store = (Sys.run E st evs).sh.store ∧ (Sys.run E st evs').deeds = (Sys.run E st evs).deeds := by
  induction cs generalizing evs with
  | nil => exact ⟨evs, by simp, fun _ _ => rfl, rfl, rfl⟩
  | cons c cs ih =>
    obtain ⟨e1, a1, a2, a3, a4⟩ := C83_locked_client_disturbs_nobody c st evs (hno c (by simp))
    obtain ⟨e2, b1, b2, b3, b4⟩ := ih e1 (by
      intro d hd
      by_cases hdc : d = c
      · subst hdc
        intro i p hp
        exact absurd rfl (a1 _ _ (recv_of_said _ _ _ _ hp))
      · rw [a2 d hdc]; exact hno d (List.mem_cons_of_mem _ hd))
    refine ⟨e2, ?_, ?_, by rw [b3, a3], by rw [b4, a4]⟩
    · intro x hx
      rcases List.mem_cons.1 hx with rfl | hx
      · by_cases hxc : x ∈ cs
        · exact b1 x hxc
        · intro d m hm hd
          subst hd
          have := said_of_recv d m e2 (Sys.init E st) hm
          rw [show seenFrom d (Sys.init E st) e2 = seen E st d e2 from rfl, b2 d hxc] at this
          exact a1 _ _ (recv_of_said _ _ _ _ this) rfl
      · exact b1 x hx
    · intro d hd
      rw [List.mem_cons, not_or] at hd
      rw [b2 d hd.2, a2 d hd.1]

/-! ### Concrete cases -/

section Examples
open Ex

/-- What happens here: connection 0 unlocks and creates a seed; connection 1 says hello, guesses a passphrase wrongly, asks for
    the seed while the creation is under way, and asks for the list; the process is restarted; it asks again. -/
def busyRun : List Event :=
  unlock 0 ++ [.recv 1 (.req "h" .hello), .recv 0 (.req "n" (.newSeed "bob" none true)), .recv 1 (.req "g" (.getEntry "bob")),
    .step 1 (calm 3), .step 0 (calm 3)] ++ List.replicate 8 (.step 0 (calm 3)) ++ List.replicate 8 (.step 0 (calm 3)) ++
  serve 1 (.req "u" (.unlock (sent 1 (B.fill 64 8)))) 0 ++ serve 1 (.req "l" .listEntries) 0 ++ [.restart] ++
  serve 1 (.req "l" .listEntries) 0

set_option maxRecDepth 100000 in
theorem busyRun_seen : seen (env true 2) MemStore.empty 1 busyRun =
    [.said (.req "h" .hello), .said (.req "g" (.getEntry "bob")), .heard "h" (.hello "lair" "0.6" idSeed),
      .heard "g" (.error "KeystoreLocked"),
      .said (.req "u" (.unlock (sent 1 (B.fill 64 8)))), .heard "u" (.error "decrypt error"),
      .said (.req "l" .listEntries), .heard "l" (.error "KeystoreLocked"), .lost,
      .said (.req "l" .listEntries), .heard "l" (.error "KeystoreLocked")] := by decide +kernel

set_option maxRecDepth 100000 in
example : (Sys.run (env true 2) MemStore.empty busyRun).entries.map Entry.tag = ["bob"] := by decide +kernel

/-- The hypotheses of the theorems: the client of connection 1 never presents the right passphrase; a keystore with a fallback
    signer and caches looks like one without either. -/
theorem busyRun_never : NeverRight (env true 2) 1 (seen (env true 2) MemStore.empty 1 busyRun) := by
  intro i p hp
  rw [busyRun_seen] at hp
  have h : p = sent 1 (B.fill 64 8) := by
    simp only [List.mem_cons, reduceCtorEq, Seen.said.injEq, Msg.req.injEq, Req.unlock.injEq, false_or, or_false,
      List.not_mem_nil, and_false] at hp
    exact hp.2
  rw [← rightPassphrase_iff]
  subst h
  decide +kernel

theorem front_env : SameFront (env true 2) (env false 0) 1 := ⟨rfl, rfl, rfl, rfl, rfl, rfl, rfl, rfl, rfl, rfl⟩

/-- The conclusions for this run. -/
example : (∃ evs', OnlyFrom 1 evs' ∧ seen (env false 0) MemStore.empty 1 evs' = seen (env true 2) MemStore.empty 1 busyRun ∧
      (Sys.run (env false 0) MemStore.empty evs').sh.store = MemStore.empty) ∧
    (∃ evs', NoneFrom 1 evs' ∧ seen (env true 2) MemStore.empty 0 evs' = seen (env true 2) MemStore.empty 0 busyRun) := by
  refine ⟨C82_locked_client_learns_nothing 1 front_env MemStore.empty MemStore.empty busyRun busyRun_never, ?_⟩
  obtain ⟨e, h1, h2, _⟩ := C83_locked_client_disturbs_nobody (E := env true 2) 1 MemStore.empty busyRun busyRun_never
  exact ⟨e, h1, h2 0 (by decide)⟩

-- A client with the passphrase does see what the keystore holds, and whether a fallback signer is configured.
set_option maxRecDepth 100000 in
example : seen (env true 2) MemStore.empty 0 (unlock 0 ++ serve 0 (.req "n" (.newSeed "bob" none true)) 3 ++
      serve 0 (.req "s" (.sign (B.fill 32 9) none [1])) 0) ≠
    seen (env false 2) MemStore.empty 0 (unlock 0 ++ serve 0 (.req "n" (.newSeed "bob" none true)) 3 ++
      serve 0 (.req "s" (.sign (B.fill 32 9) none [1])) 0) := by decide +kernel

end Examples
end Lair
