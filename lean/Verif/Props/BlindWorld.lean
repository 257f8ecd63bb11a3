import Verif.BlindWorld
import Verif.Props.Blind
import Verif.Props.EndToEndEx

/-
C84: non-interference for clients without the passphrase, on the wire. The specification (`World.NeverRight`, `QuietOn`,
`OnlyOn`) is in `Verif.BlindWorld`; `SameFront` in `Verif.Blind`.
-/
namespace Lair

variable {S : SStream} {E E' : Env}

/-- C84. Whatever happens between a server, its clients and the network: if no right passphrase has reached the server on
    connection `c`, then connection `c` - what its client did and was told, every byte both sides have put on the wire,
    every byte the network has delivered - could be exactly the same with any other store of any other keystore that
    looks the same from outside, with nothing happening on any other connection, and without that store changing. -/
theorem C84_stranger_learns_nothing (c : Nat) (hf : SameFront E E' c) (st : E.S.σ) (st' : E'.S.σ) (evs : List (WEv S))
    (hno : (World.run E S st evs).NeverRight c) :
    ∃ evs', OnlyOn c evs' ∧ (World.run E' S st' evs').conns[c]? = (World.run E S st evs).conns[c]? ∧
      (World.run E' S st' evs').sys.sh.store = st' := by
  obtain ⟨evs', h1, h2⟩ := worldSolo_run hf st st' evs hno
  exact ⟨evs', h1, h2.same, h2.sys.store⟩

/-- C84. So what a connection can look like that never brought the right passphrase does not depend on the contents of the
    keystore. -/
theorem C84_same_connections (c : Nat) (hf : SameFront E E' c) (st : E.S.σ) (st' : E'.S.σ) (x : Conn S)
    (hno : ∀ i p, Msg.req i (.unlock p) ∈ x.up.got → ¬ RightPassphrase E c p) :
    (∃ evs, (World.run E S st evs).conns[c]? = some x) ↔ (∃ evs, (World.run E' S st' evs).conns[c]? = some x) := by
  constructor
  · rintro ⟨evs, h⟩
    obtain ⟨evs', _, h2, _⟩ := C84_stranger_learns_nothing (S := S) c hf st st' evs
      (fun y hy => by rw [h] at hy; cases hy; exact hno)
    exact ⟨evs', by rw [h2, h]⟩
  · rintro ⟨evs, h⟩
    obtain ⟨evs', _, h2, _⟩ := C84_stranger_learns_nothing (S := S) c hf.symm st' st evs
      (fun y hy => by rw [h] at hy; cases hy; exact fun i p hm hr => hno i p hm ((hf.right p).2 hr))
    exact ⟨evs', by rw [h2, h]⟩

/-- C84. Whatever happens, the same can happen with nothing happening on a connection on which no right passphrase has
    reached the server: all other connections are the same to the last byte, the store ends the same, the same entries
    are added and the fallback signer is called for the same data. -/
theorem C84_stranger_disturbs_nobody (c : Nat) (st : E.S.σ) (evs : List (WEv S)) (hno : (World.run E S st evs).NeverRight c) :
    ∃ evs', QuietOn c evs' ∧ (∀ d, d ≠ c → (World.run E S st evs').conns[d]? = (World.run E S st evs).conns[d]?) ∧
      (World.run E S st evs').sys.sh.store = (World.run E S st evs).sys.sh.store ∧
      (World.run E S st evs').sys.deeds = (World.run E S st evs).sys.deeds := by
  obtain ⟨evs', h1, _, h2⟩ := worldRest_run st evs hno
  exact ⟨evs', h1, h2.same, by rw [h2.sys.sh], h2.sys.deeds⟩

/-- C84. The same for any number of such connections at once. -/
theorem C84_strangers_disturb_nobody (cs : List Nat) (st : E.S.σ) (evs : List (WEv S))
    (hno : ∀ c ∈ cs, (World.run E S st evs).NeverRight c) :
    ∃ evs', (∀ c ∈ cs, QuietOn c evs') ∧
      (∀ d, d ∉ cs → (World.run E S st evs').conns[d]? = (World.run E S st evs).conns[d]?) ∧
      (World.run E S st evs').sys.sh.store = (World.run E S st evs).sys.sh.store ∧
      (World.run E S st evs').sys.deeds = (World.run E S st evs).sys.deeds := by
  suffices ∃ evs', (∀ c ∈ cs, QuietOn c evs') ∧ Within evs' evs ∧
      (∀ d, d ∉ cs → (World.run E S st evs').conns[d]? = (World.run E S st evs).conns[d]?) ∧
      (World.run E S st evs').sys.sh.store = (World.run E S st evs).sys.sh.store ∧
      (World.run E S st evs').sys.deeds = (World.run E S st evs).sys.deeds by
    obtain ⟨e, h1, _, h2⟩ := this
    exact ⟨e, h1, h2⟩
  induction cs with
  | nil => exact ⟨evs, by simp, fun d => ⟨fun _ h => h, fun h => h⟩, fun _ _ => rfl, rfl, rfl⟩
  | cons c cs ih =>
    obtain ⟨e1, a1, a2, a3, a4, a5⟩ := ih (fun d hd => hno d (List.mem_cons_of_mem _ hd))
    by_cases hc : c ∈ cs
    · refine ⟨e1, ?_, a2, ?_, a4, a5⟩
      · intro d hd
        rcases List.mem_cons.1 hd with rfl | hd
        · exact a1 _ hc
        · exact a1 d hd
      · intro d hd
        rw [List.mem_cons, not_or] at hd
        exact a3 d hd.2
    · have hn : (World.run E S st e1).NeverRight c := by
        intro x hx
        rw [a3 c hc] at hx
        exact hno c List.mem_cons_self x hx
      obtain ⟨e2, b1, b2, b3⟩ := worldRest_run st e1 hn
      refine ⟨e2, ?_, ?_, ?_, by rw [b3.sys.sh, a4], by rw [b3.sys.deeds, a5]⟩
      · intro d hd
        rcases List.mem_cons.1 hd with rfl | hd
        · exact b1
        · intro ev hev
          constructor
          · rintro e rfl
            exact (a1 d hd _ ((b2 d).1 e hev)).1 e rfl
          · rintro rfl
            exact (a1 d hd _ ((b2 d).2 hev)).2 rfl
      · intro d
        exact ⟨fun e he => (a2 d).1 e ((b2 d).1 e he), fun he => (a2 d).2 ((b2 d).2 he)⟩
      · intro d hd
        rw [List.mem_cons, not_or] at hd
        rw [b3.same d hd.1, a3 d hd.2]

/-- C84. In particular every other client gets the same results for its requests. -/
theorem C84_same_results_for_others (cs : List Nat) (st : E.S.σ) (evs : List (WEv S))
    (hno : ∀ c ∈ cs, (World.run E S st evs).NeverRight c) :
    ∃ evs', (∀ c ∈ cs, QuietOn c evs') ∧ ∀ d, d ∉ cs → ∀ k,
      (World.run E S st evs').request d k = (World.run E S st evs).request d k ∧
      (World.run E S st evs').result d k = (World.run E S st evs).result d k := by
  obtain ⟨e, h1, h2, _⟩ := C84_strangers_disturb_nobody cs st evs hno
  refine ⟨e, h1, fun d hd k => ?_⟩
  unfold World.request World.result
  rw [h2 d hd]
  exact ⟨rfl, rfl⟩

/-- C84. Who is meant: a client that never asks with the right passphrase, on a connection on which nobody has forged. -/
theorem C84_wrong_passphrase_never_right (L : S.Lawful) (c : Nat) (st : E.S.σ) (evs : List (WEv S))
    (hu : (World.run E S st evs).Unforged c)
    (h : ∀ k i p, (World.run E S st evs).request c k = some (i, .unlock p) → ¬ RightPassphrase E c p) :
    (World.run E S st evs).NeverRight c := by
  intro x hx i p hm
  have hw := worldInv_run (S := S) st evs
  have hc := hw.conns c x hx
  rw [← hc.inbox] at hm
  obtain ⟨⟨c', m'⟩, hf, rfl⟩ := List.mem_map.1 hm
  obtain ⟨hf1, hf2⟩ := List.mem_filter.1 hf
  simp only [decide_eq_true_eq] at hf2
  subst hf2
  obtain ⟨j, hj⟩ := List.mem_iff_getElem?.1 hf1
  obtain ⟨k, i', q, h1, h2⟩ := C56_only_what_was_asked L evs c' j _ hu hj
  cases h2
  exact h k i p h1

/-! ### Concrete cases -/

section Examples
namespace WEx

/-- Connection 0 unlocks, creates a seed and signs (`story`); then connection 1 is made, whose client guesses a wrong
    passphrase and asks for the list. -/
def strangerStory : List (WEv Toy.stream) :=
  exchange 1 1 "l" .listEntries 0 <|
  exchange 1 0 "g" (.unlock (Ex.sent 1 (B.fill 64 8))) 0 (story ++ [.connect ([203], 0) ([204], 0)])

set_option maxRecDepth 100000 in
theorem stranger_results : ((run strangerStory).result 0 2, (run strangerStory).result 1 0, (run strangerStory).result 1 1) =
    (some (.ok (.sign (B.fill 64 9))), some (.error "decrypt error"), some (.error "KeystoreLocked")) := by decide +kernel

/-- Does the message bring the right passphrase? -/
def brings (m : Msg) : Bool :=
  match m with
  | .req _ (.unlock p) => decide (unlockCheck (Ex.env false 4) 1 p = Except.ok ())
  | _ => false

set_option maxRecDepth 100000 in
theorem stranger_got : (run strangerStory).conns[1]?.map (fun x => x.up.got.map brings) = some [false, false] := by decide +kernel

/-- The hypothesis of the theorems. -/
theorem stranger_never : (run strangerStory).NeverRight 1 := by
  intro x hx i p hm hr
  have h := stranger_got
  rw [hx] at h
  simp only [Option.map_some, Option.some.injEq] at h
  have h' : brings (.req i (.unlock p)) ∈ x.up.got.map brings := List.mem_map_of_mem hm
  rw [h] at h'
  simp only [List.mem_cons, List.not_mem_nil, or_false, or_self, brings, decide_eq_false_iff_not] at h'
  exact h' ((rightPassphrase_iff 1 p).2 hr)

theorem front_env4 : SameFront (Ex.env false 4) (Ex.env true 0) 1 := ⟨rfl, rfl, rfl, rfl, rfl, rfl, rfl, rfl, rfl, rfl⟩

/-- The conclusions for this run: the stranger's connection could look the same on an empty keystore with a fallback signer;
    and connection 0 gets its signature all the same if the stranger does nothing. -/
example : (∃ evs', OnlyOn 1 evs' ∧
      (World.run (Ex.env true 0) Toy.stream MemStore.empty evs').conns[1]? = (run strangerStory).conns[1]? ∧
      (World.run (Ex.env true 0) Toy.stream MemStore.empty evs').sys.sh.store = MemStore.empty) ∧
    (∃ evs', QuietOn 1 evs' ∧ (run evs').result 0 2 = some (.ok (.sign (B.fill 64 9)))) := by
  refine ⟨C84_stranger_learns_nothing 1 front_env4 MemStore.empty MemStore.empty strangerStory stranger_never, ?_⟩
  obtain ⟨e, h1, h2⟩ := C84_same_results_for_others (E := Ex.env false 4) [1] MemStore.empty strangerStory
    (by simpa using stranger_never)
  refine ⟨e, h1 1 (by simp), ?_⟩
  rw [(h2 0 (by simp) 2).2]
  have := stranger_results
  simp only [Prod.mk.injEq] at this
  exact this.1

set_option maxRecDepth 100000 in
theorem stranger_unforged : unforgedAll (run strangerStory) = true := by decide +kernel

set_option maxRecDepth 100000 in
theorem stranger_asked : (run strangerStory).conns[1]?.map (fun x => x.asked.map (fun a => (a.id, a.req))) =
    some [("g", .unlock (Ex.sent 1 (B.fill 64 8))), ("l", .listEntries)] := by decide +kernel

/-- The hypotheses of `C84_wrong_passphrase_never_right`. -/
example : (run strangerStory).NeverRight 1 := by
  have hu : (run strangerStory).Unforged 1 := unforgedAll_spec stranger_unforged 1
  refine C84_wrong_passphrase_never_right (E := Ex.env false 4) (S := Toy.stream) Toy.stream_lawful 1 MemStore.empty
    strangerStory hu ?_
  intro k i p h hr
  obtain ⟨x, a, hx, ha, rfl, hq⟩ := request_some h
  have hs := stranger_asked
  rw [hx] at hs
  simp only [Option.map_some, Option.some.injEq] at hs
  have hm := List.mem_map_of_mem (f := fun a : Asked => (a.id, a.req)) (List.mem_of_getElem? ha)
  rw [hs, hq] at hm
  simp only [List.mem_cons, Prod.mk.injEq, Req.unlock.injEq, List.not_mem_nil, or_false, reduceCtorEq, and_false] at hm
  obtain ⟨_, rfl⟩ := hm
  exact absurd ((rightPassphrase_iff 1 _).2 hr) (by decide +kernel)

-- A client with the passphrase does learn what is in the keystore.
set_option maxRecDepth 100000 in
example : (run (exchange 0 3 "l" .listEntries 0 story)).result 0 3 ≠
    (run (exchange 0 1 "l" .listEntries 0 <| exchange 0 0 "u" (.unlock (Ex.sent 0 Ex.pass)) 0 [.connect ([201], 0) ([202], 0)])).result 0 1 := by
  decide +kernel

end WEx
end Examples
end Lair
