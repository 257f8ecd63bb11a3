import Verif.Props.Progress

/- A concrete case for C87: the four requests of Props/InFlight.lean, in all stages, and an endless schedule on which they are all answered. -/
namespace Lair

namespace WEx

/-- A cheap test for "nothing can go on". Specification: nothing in the code corresponds. -/
def idleB (w : World (Ex.env false 4) Toy.stream) (c : Nat) : Bool := match w.conns[c]? with
  | none => false
  | some x => x.up.snd.calls.all (fun s => s.phase = .done (.ok ())) && x.down.snd.calls.all (fun s => s.phase = .done (.ok ())) &&
      decide (arrived x.up.net = x.up.snd.wire) && decide (arrived x.down.net = x.down.snd.wire) &&
      (match x.up.rcv.poll.1 with | .item _ => false | _ => true) && (match x.down.rcv.poll.1 with | .item _ => false | _ => true) &&
      x.cli.reqs.all (fun q => !(decide (q.phase = .sending) || decide (q.phase = .waiting))) && w.sys.threads.all (fun t => t.conn != c)

theorem idle_snd {s : SndSt Toy.stream} (h : s.calls.all (fun s => s.phase = .done (.ok ())) = true) (e : SEv) : ¬ s.Moves e := by
  have key : ∀ (k : Nat) (m : Option Msg) (ph : SPhase), s.calls[k]? = some ⟨m, ph⟩ → ph = .done (.ok ()) := by
    intro k m ph hk
    have := List.all_eq_true.mp h _ (List.mem_of_getElem? hk)
    simpa using this
  cases e with
  | acquire k => rintro ⟨-, m, hk⟩; cases key _ _ _ hk
  | push k => rintro ⟨m, hk⟩; cases key _ _ _ hk
  | write k n => rintro ⟨-, m, r, hk⟩; cases key _ _ _ hk
  | _ => exact fun h => h

theorem idleB_spec {w : World (Ex.env false 4) Toy.stream} {c : Nat} (h : idleB w c = true) : ∀ e, ¬ w.Moves c e := by
  cases hx : w.conns[c]? with
  | none => simp [idleB, hx] at h
  | some x =>
    simp only [idleB, hx, Bool.and_eq_true, decide_eq_true_eq] at h
    obtain ⟨⟨⟨⟨⟨⟨⟨h1, h2⟩, h3⟩, h4⟩, h5⟩, h6⟩, h7⟩, h8⟩ := h
    have noPrefix : ∀ {a b : Bytes}, b ≠ [] → ¬ a ++ b <+: a := by
      intro a b hb hp
      have := hp.length_le
      have := List.length_pos_iff.mpr hb
      simp at *
      omega
    have hreq : ∀ (k : Nat) (q : CReq), x.cli.reqs[k]? = some q → q.phase ≠ .sending ∧ q.phase ≠ .waiting := by
      intro k q hq
      have := List.all_eq_true.mp h7 _ (List.mem_of_getElem? hq)
      simpa using this
    intro e
    cases e with
    | connect u d => exact fun h => h
    | restart => exact fun h => h
    | serve d =>
      rintro ⟨-, y, m, hy, hm⟩
      rw [hx] at hy; cases hy
      rw [hm] at h5; cases h5
    | act i ch =>
      rintro ⟨t, ht, htc⟩
      have := List.all_eq_true.mp h8 _ (List.mem_of_getElem? ht)
      simp [htc] at this
    | net d e =>
      rintro ⟨-, y, hy, hm⟩
      rw [hx] at hy; cases hy
      cases e with
      | upSend e => exact idle_snd h1 e hm
      | downSend e => exact idle_snd h2 e hm
      | upArrive b => obtain ⟨g1, g2⟩ := hm; rw [h3] at g2; exact noPrefix g1 g2
      | downArrive b => obtain ⟨g1, g2⟩ := hm; rw [h4] at g2; exact noPrefix g1 g2
      | poll => obtain ⟨m, hm⟩ := hm; rw [hm] at h6; cases h6
      | asked k => obtain ⟨_, _, _, q, -, -, hq, hp⟩ := hm; exact (hreq k q hq).1 hp
      | wake k => obtain ⟨q, hq, hp, -⟩ := hm; exact (hreq k q hq).2 hp
      | _ => exact hm

/-- The bytes that were written to the server / to the client and have not arrived. Specification: nothing in the code corresponds. -/
def onWay (up : Bool) (w : World (Ex.env false 4) Toy.stream) : Bytes := match w.conns[0]? with
  | none => []
  | some x => if up then x.up.snd.wire.drop (arrived x.up.net).length else x.down.snd.wire.drop (arrived x.down.net).length

/-- The state in which everything is in flight. -/
def flying : World (Ex.env false 4) Toy.stream := run (.connect ([1], 0) ([2], 0) :: flight2)

/-- The rest of the way, with some other things in between. -/
def home1 : List (WEv Toy.stream) := [.net 0 (.upSend (.write 2 9999)), .connect ([7], 0) ([8], 0), .net 0 (.upSend (.acquire 3)), .net 0 (.asked 1),
  .net 0 (.upSend (.push 3)), .net 1 (.ask "x" .hello), .net 0 (.upSend (.write 3 9999)), .net 0 (.asked 2), .net 0 (.asked 3)]
def home2 : List (WEv Toy.stream) := home1 ++ [.net 0 (.upArrive (onWay true (home1.foldl World.step flying))), .serve 0, .serve 0, .serve 0,
  .act 0 (Ex.calm 0), .net 1 (.cancel 0), .act 1 (Ex.calm 0), .act 0 (Ex.calm 0), .net 0 (.downSend (.write 0 9999)), .net 0 (.downSend (.acquire 2)),
  .net 0 (.downSend (.push 2)), .net 0 (.downSend (.write 2 9999)), .net 0 (.downSend (.acquire 1)), .net 0 (.downSend (.push 1)),
  .net 0 (.downSend (.write 1 9999)), .net 0 (.downSend (.acquire 3)), .net 0 (.downSend (.push 3)), .net 0 (.downSend (.write 3 9999))]
def home : List (WEv Toy.stream) := home2 ++ [.net 0 (.downArrive (onWay false (home2.foldl World.step flying))), .net 0 .poll, .net 0 .poll, .net 0 .poll,
  .net 0 (.wake 0), .net 0 .poll, .net 0 .poll, .net 0 (.wake 1), .net 0 (.wake 2), .net 0 (.wake 3)]

/-- The endless schedule: `home`, then nothing that matters. -/
def homeward (n : Nat) : WEv Toy.stream := home.getD n (.serve 7)

set_option maxRecDepth 100000 in
theorem home_calm : calmly 0 flying home = true := by decide +kernel

set_option maxRecDepth 100000 in
theorem home_idle : idleB (home.foldl World.step flying) 0 = true ∧ (home.foldl World.step flying).conns[7]?.isNone = true := by decide +kernel

set_option maxRecDepth 100000 in
theorem home_last : (match ((home.take 36).foldl World.step flying).conns[0]? with
    | some x => match x.cli.reqs[3]? with
      | some q => decide (q.phase = .waiting ∧ q.slot ≠ .empty)
      | none => false
    | none => false) = true ∧ home.length = 37 := by decide +kernel

/-- Decides: this is not a new request on connection 0, and gives up no request on it. Specification: nothing in the code corresponds. -/
def quietB : WEv Toy.stream → Bool
  | .net 0 (.ask _ _) => false
  | .net 0 (.cancel _) => false
  | .net 0 (.timeout _) => false
  | _ => true

set_option maxRecDepth 100000 in
theorem home_quiet : home.all quietB = true := by decide +kernel

/-- The state after `n` events of the schedule. -/
def wayW (n : Nat) : World (Ex.env false 4) Toy.stream := World.after (Ex.env false 4) Toy.stream MemStore.empty ([] ++ .connect ([1], 0) ([2], 0) :: flight2) homeward n

theorem after_home (n : Nat) (h : n ≤ 37) : wayW n =
    (home.take n).foldl World.step flying := by
  have : (List.range n).map homeward = home.take n := by
    have hl := home_last.2
    refine List.ext_getElem? ?_
    intro i
    rw [List.getElem?_map, List.getElem?_take]
    by_cases hi : i < n
    · rw [List.getElem?_range hi, if_pos hi]
      have hi' : i < home.length := by omega
      simp [homeward, List.getD_eq_getElem?_getD, hi']
    · rw [List.getElem?_eq_none (by simp; omega), if_neg hi]; rfl
  show run ((.connect ([1], 0) ([2], 0) :: flight2) ++ (List.range n).map homeward) = _
  rw [this]
  exact run_ext _ _

theorem after_idle (k : Nat) : wayW (37 + k) =
    home.foldl World.step flying := by
  induction k with
  | zero =>
    rw [after_home 37 (Nat.le_refl _), List.take_of_length_le (Nat.le_of_eq home_last.2)]
  | succ k ih =>
    have hev : homeward (37 + k) = .serve 7 := by
      have hl := home_last.2
      simp only [homeward, List.getD_eq_getElem?_getD]
      rw [List.getElem?_eq_none (by omega)]; rfl
    have hs : wayW (37 + (k + 1)) = (wayW (37 + k)).step (homeward (37 + k)) :=
      (after_succ (E := Ex.env false 4) (S := Toy.stream) _ homeward (37 + k)).trans (run_ext _ _)
    rw [hs, ih, hev]
    have hn : (home.foldl World.step flying).conns[7]? = none := by simpa using home_idle.2
    simp only [World.step, hn]

theorem homeward_quiet (n : Nat) : quietB (homeward n) = true := by
  by_cases hn : n < home.length
  · have : homeward n = home[n] := by simp [homeward, List.getD_eq_getElem?_getD, hn]
    rw [this]
    exact List.all_eq_true.mp home_quiet _ (List.getElem_mem hn)
  · have : homeward n = .serve 7 := by
      simp only [homeward, List.getD_eq_getElem?_getD]
      rw [List.getElem?_eq_none (by omega)]; rfl
    rw [this]; rfl

theorem way0 : wayW 0 = run (.connect ([1], 0) ([2], 0) :: flight2) := by
  rw [after_home 0 (by omega), List.take_zero, List.foldl_nil, flying]

theorem flight_unbroken : Unbroken (Ex.env false 4) Toy.stream MemStore.empty 0 ([] ++ [.connect ([1], 0) ([2], 0)]) flight2 := by
  intro a e b hab
  have := calmly_spec flight2 flight_calm a e b hab
  show ¬ (run ([.connect ([1], 0) ([2], 0)] ++ a)).Breaks 0 e
  have hrun : run ([.connect ([1], 0) ([2], 0)] ++ a) = a.foldl World.step (run [.connect ([1], 0) ([2], 0)]) := run_ext _ _
  rw [hrun]
  exact this

/-- The hypothesis of `C87_work_is_bounded` holds of the four requests in flight. -/
example : ∃ N, ∀ cont, Unbroken (Ex.env false 4) Toy.stream MemStore.empty 0 ([] ++ .connect ([1], 0) ([2], 0) :: flight2) cont →
    (∀ e ∈ cont, ∀ id q, e ≠ .net 0 (.ask id q)) → (run ([] ++ .connect ([1], 0) ([2], 0) :: flight2)).moved 0 cont ≤ N :=
  C87_work_is_bounded (S := Toy.stream) (E := Ex.env false 4) Toy.stream_lawful [] flight2 ([1], 0) ([2], 0) flight_unbroken

-- in that state something can go on, as `C87_running_means_something_can_move` says of every state in which a request runs
set_option maxRecDepth 100000 in
example : (match flying.conns[0]? with
    | some x => match x.up.snd.calls[2]? with
      | some s => (match s.phase with | .writing _ => true | _ => false) && decide (x.cli.reqs.map CReq.phase = [.waiting, .sending, .sending, .sending])
      | none => false
    | none => false) = true := by decide +kernel

theorem way_fresh : (wayW 0).FreshIds 0 := by
  intro x hx
  have h := flight_requests
  have hx' : (wayW 0).conns[0]? = some x := hx
  rw [way0] at hx'
  rw [hx'] at h
  have h := congrArg (List.map Prod.fst) (of_decide_eq_true h)
  rw [List.map_map] at h
  have h2 : x.asked.map Asked.id = ["a", "b", "c", "d"] := h
  rw [h2]; decide

theorem way_unbroken (n : Nat) : ¬ (wayW n).Breaks 0 (homeward n) := by
  by_cases hn : n < 37
  · rw [after_home n (by omega)]
    have hl : n < home.length := by rw [home_last.2]; exact hn
    have he : homeward n = home[n] := by simp [homeward, List.getD_eq_getElem?_getD, hl]
    rw [he]
    refine calmly_spec home home_calm (home.take n) home[n] (home.drop (n + 1)) ?_
    rw [← List.drop_eq_getElem_cons hl, List.take_append_drop]
  · have : homeward n = .serve 7 := by
      have hl := home_last.2
      simp only [homeward, List.getD_eq_getElem?_getD]
      rw [List.getElem?_eq_none (by omega)]; rfl
    rw [this]; exact fun h => h

theorem way_noask (n : Nat) (id : String) (q : Req) : homeward n ≠ .net 0 (.ask id q) := by
  intro he
  have h := homeward_quiet n
  rw [he] at h; cases h

theorem way_kept (k m : Nat) : homeward m ≠ .net 0 (.cancel k) ∧ homeward m ≠ .net 0 (.timeout k) := by
  have hq := homeward_quiet m
  constructor
  · intro he; rw [he] at hq; cases hq
  · intro he; rw [he] at hq; cases hq

theorem way_36 : (wayW 36).Moves 0 (homeward 36) := by
  rw [after_home 36 (by omega)]
  have h := home_last.1
  generalize (home.take 36).foldl World.step flying = w at *
  show 0 = 0 ∧ ∃ x, w.conns[0]? = some x ∧ x.Moves (.wake 3)
  refine ⟨rfl, ?_⟩
  cases hx : w.conns[0]? with
  | none => rw [hx] at h; cases h
  | some x =>
    simp only [hx] at h
    cases hq : x.cli.reqs[3]? with
    | none => rw [hq] at h; cases h
    | some q =>
      rw [hq] at h
      exact ⟨x, rfl, q, hq, of_decide_eq_true h⟩

theorem way_over (n : Nat) (hn : ¬ n < 37) (e : WEv Toy.stream) : ¬ (wayW n).Moves 0 e := by
  obtain ⟨k, rfl⟩ : ∃ k, n = 37 + k := ⟨n - 37, by omega⟩
  rw [after_idle]
  exact idleB_spec home_idle.1 e

theorem way_running (k : Nat) (hk : k < 4) : (∃ id q, (wayW 0).request 0 k = some (id, q)) ∧ (wayW 0).running 0 k := by
  have h := flight_phases
  have h' := flight_requests
  cases hx : (run (.connect ([1], 0) ([2], 0) :: flight2)).conns[0]? with
  | none => rw [hx] at h; cases h
  | some x =>
    rw [hx] at h h'
    have hp := of_decide_eq_true h
    have hr := of_decide_eq_true h'
    have hla := congrArg List.length hr
    have hlr := congrArg List.length hp
    simp only [List.length_map, List.length_cons, List.length_nil] at hla hlr
    have hka : k < x.asked.length := by omega
    have hkr : k < x.cli.reqs.length := by omega
    rw [← way0] at hx
    refine ⟨⟨_, _, request_of hx (List.getElem?_eq_getElem hka)⟩, x, x.cli.reqs[k], hx, List.getElem?_eq_getElem hkr, ?_⟩
    have hm : x.cli.reqs[k].phase ∈ x.cli.reqs.map CReq.phase := List.mem_map_of_mem (List.getElem_mem hkr)
    rw [hp] at hm
    simp at hm
    exact hm.symm

/-- The hypotheses of `C87_every_request_is_answered` hold of this schedule: there is a time from which on all four requests have their answers. -/
example : ∃ T, ∀ n, T ≤ n → ∀ k, k < 4 → ∃ d ∈ (wayW n).sys.done,
    d.conn = 0 ∧ (wayW n).result 0 k = some d.outcome := by
  obtain ⟨T, hT⟩ := C87_every_request_is_answered (S := Toy.stream) (E := Ex.env false 4) Toy.stream_lawful (goodStore_empty (Ex.env false 4)) [] flight2 ([1], 0) ([2], 0)
    homeward flight_unbroken way_fresh way_unbroken way_noask
    (by
      rintro n ⟨e, he⟩
      by_cases hn : n < 37
      · exact ⟨36, by omega, way_36⟩
      · exact absurd he (way_over n hn e))
  refine ⟨T, fun n hn k hk => ?_⟩
  obtain ⟨⟨id, q, h1⟩, h2⟩ := way_running k hk
  obtain ⟨d, hd, hdc, -, hres⟩ := (hT n hn).2 k id q h1 h2 (way_kept k)
  exact ⟨d, hd, hdc, hres⟩

end WEx

end Lair
