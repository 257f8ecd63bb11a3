import Verif.Props.MWorld
import Verif.Props.EndToEndEx

/- C74: a concrete run of two servers with their clients meets the hypotheses. -/
namespace Lair
namespace MWorldEx
open Ex WEx

abbrev M := MWorld (Ex.env false 4) Toy.stream
abbrev mrun := MWorld.run (Ex.env false 4) Toy.stream MemStore.empty

def munforgedAll (w : M) : Bool := w.conns.all fun p =>
  decide (p.2.up.start.1 ≠ [] ∧ p.2.down.start.1 ≠ [] ∧ (arrived p.2.up.net).length < 65536 ∧ (arrived p.2.down.net).length < 65536) &&
  unforgedToy p.2.up.start (arrived p.2.up.net) (p.2.up.pushed.map (fun p => Codec.encodeMsg p.2)) &&
  unforgedToy p.2.down.start (arrived p.2.down.net) (p.2.down.pushed.map (fun p => Codec.encodeMsg p.2))

theorem munforgedAll_spec {w : M} (h : munforgedAll w = true) (c : Nat) : w.Unforged c := by
  intro j x hx
  have := List.all_eq_true.mp h (j, x) (List.mem_of_getElem? hx)
  simp only [Bool.and_eq_true, decide_eq_true_eq] at this
  obtain ⟨⟨⟨h1, h2, h3, h4⟩, h5⟩, h6⟩ := this
  exact ⟨unforgedToy_spec h1 h3 h5, unforgedToy_spec h2 h4 h6⟩

def mneverForgedB (w : M) : List (MWEv Toy.stream) → Bool
  | [] => munforgedAll w
  | e :: es => munforgedAll w && mneverForgedB (w.step e) es

theorem mneverForged_of {evs : List (MWEv Toy.stream)} (h : mneverForgedB (.init (Ex.env false 4) Toy.stream MemStore.empty) evs = true) :
    MNeverForged (Ex.env false 4) Toy.stream MemStore.empty evs := by
  have : ∀ (evs : List (MWEv Toy.stream)) (w : M), mneverForgedB w evs = true → ∀ n c, ((evs.take n).foldl MWorld.step w).Unforged c := by
    intro evs
    induction evs with
    | nil => intro w h n c; simpa using munforgedAll_spec h c
    | cons e es ih =>
      intro w h n c
      simp only [mneverForgedB, Bool.and_eq_true] at h
      cases n with
      | zero => exact munforgedAll_spec h.1 c
      | succ n => exact ih _ h.2 n c
  exact fun n c => this evs _ h n c

def mwire (up : Bool) (c : Nat) (w : M) : Bytes :=
  match w.conns[c]? with
  | some (_, x) => if up then x.up.snd.wire else x.down.snd.wire
  | none => []

/-- The `k`-th request of connection `c` is made and received. -/
def asks (c k : Nat) (id : String) (q : Req) (evs : List (MWEv Toy.stream)) : List (MWEv Toy.stream) :=
  let a := evs ++ [.net c (.ask id q), .net c (.upSend (.acquire k)), .net c (.upSend (.push k)), .net c (.upSend (.write k 9999)),
    .net c (.asked k)]
  a ++ [.net c (.upArrive ((mwire true c (mrun a)).drop (mwire true c (mrun evs)).length)), .serve c]

/-- Its response is sent, received and handed over. -/
def gets (c k : Nat) (evs : List (MWEv Toy.stream)) : List (MWEv Toy.stream) :=
  let b := evs ++ [.net c (.downSend (.acquire k)), .net c (.downSend (.push k)), .net c (.downSend (.write k 9999))]
  b ++ [.net c (.downArrive ((mwire false c (mrun b)).drop (mwire false c (mrun evs)).length)), .net c .poll, .net c (.wake k)]

/-- Process `j` works on its first request. -/
def works (j : Nat) (r : UInt8) (evs : List (MWEv Toy.stream)) : List (MWEv Toy.stream) := evs ++ List.replicate 12 (.act j 0 (calm r))

/-- Two servers with a client each, both unlocked. Both clients ask for a seed "a" at the same time, the servers work in turns. -/
def story1 : List (MWEv Toy.stream) :=
  let e := gets 1 0 <| works 1 0 <| asks 1 0 "u" (.unlock (sent 1 pass)) <| gets 0 0 <| works 0 0 <| asks 0 0 "u" (.unlock (sent 0 pass)) <|
    [.start, .start, .connect 0 ([201], 0) ([202], 0), .connect 1 ([203], 0) ([204], 0)]
  let e := asks 1 1 "n" (.newSeed "a" none true) <| asks 0 1 "n" (.newSeed "a" none true) e
  let e := e ++ (List.replicate 12 [.act 1 0 (calm 8), .act 0 0 (calm 9)]).flatten
  gets 0 1 <| gets 1 1 e

/-- Then the client of the first, whose request was refused, lists the entries; the handle of the first server makes "b", the client of
    the second signs with the seed that was made, and the client of the first asks for "a". -/
def story2 : List (MWEv Toy.stream) :=
  let e := gets 0 2 <| works 0 0 <| asks 0 2 "l" .listEntries story1
  let e := e ++ [.call 0 (.newSeed "b" false) (fun _ => calm 5)]
  let e := gets 1 2 <| works 1 0 <| asks 1 2 "s" (.sign (B.fill 32 8) none [1, 2]) e
  gets 0 3 <| works 0 0 <| asks 0 3 "g" (.getEntry "a") e

set_option maxRecDepth 100000 in
theorem story2_results : ((mrun story2).result 1 1, (mrun story2).result 0 1, (mrun story2).result 1 2) =
    (some (.ok (.newSeed "a" ⟨B.fill 32 8, B.fill 32 8, true⟩)), some (.error "tag already registered"), some (.ok (.sign (B.fill 64 8)))) ∧
    (mrun story2).multi.entries.map Entry.tag = ["a", "b"] := by
  decide +kernel

set_option maxRecDepth 100000 in
theorem story2_unforged : mneverForgedB (.init (Ex.env false 4) Toy.stream MemStore.empty) story2 = true := by decide +kernel

set_option maxRecDepth 100000 in
theorem story2_fresh : ∀ p ∈ (mrun story2).conns, (p.2.asked.map Asked.id).Nodup := by decide +kernel

/-- The calls made on a connection. -/
def mcallsOn (w : M) (c : Nat) : List Call := match w.conns[c]? with
  | some (_, x) => x.asked.filterMap (fun a => a.req.call? (Ex.env false 4) c)
  | none => []

set_option maxRecDepth 100000 in
theorem story2_calls : (List.range (mrun story2).conns.length).all (fun c => (mcallsOn (mrun story2) c).all (callWithin [] [])) = true := by
  decide +kernel

def handleCalls (evs : List (MWEv Toy.stream)) : List Call := evs.filterMap fun e => match e with
  | .call _ x _ => x.asCall
  | _ => none

set_option maxRecDepth 100000 in
theorem story2_handles : (handleCalls story2).all (callWithin [] []) = true := by decide +kernel

set_option maxRecDepth 100000 in
theorem story2_separated : separatedB (Ex.env false 4) [] [] (mrun story2).multi.entries = true := by decide +kernel

/-- C74: the hypotheses hold of this run, so what both clients saw is explained, and the seed made by the one and the signature are in
    the explanation. -/
theorem story2_explained : ∃ ops, ExplainsAll (Ex.env false 4) Toy.stream MemStore.empty story2 toyLim (fun _ => true) [] ops ∧
    (∃ o ∈ ops, o.who = .request 1 1) ∧ (∃ o ∈ ops, o.who = .request 1 2) := by
  obtain ⟨ops, h⟩ := C74_all_clients_see_one_keystore (E := Ex.env false 4) (S := Toy.stream) (st := MemStore.empty) (ks₀ := [])
    (okLim := toyLim) (room := fun _ => true) (H := []) (Λ := []) Toy.stream_lawful ⟨0, sent 0 pass, by decide +kernel⟩
    (goodStore_empty (Ex.env false 4)) story2
    (mneverForged_of story2_unforged) (fun c j x hx => story2_fresh (j, x) (List.mem_of_getElem? hx)) toy_lim (fun _ _ _ => rfl) trivial
    (by intro t s x pw ops mem h; cases h)
    (by
      intro c k id q call hq hc
      obtain ⟨j, x, a, hx, ha, -, rfl⟩ := mrequest_some hq
      have h1 := List.all_eq_true.mp story2_calls c (by simpa using (List.getElem?_eq_some_iff.mp hx).1)
      refine callWithin_iff (List.all_eq_true.mp h1 call ?_)
      simp only [mcallsOn, hx]
      exact List.mem_filterMap.mpr ⟨a, List.mem_of_getElem? ha, hc⟩)
    (by
      intro j x ch call hm hc
      exact callWithin_iff (List.all_eq_true.mp story2_handles call (List.mem_filterMap.mpr ⟨_, hm, hc⟩)))
    (separated_of story2_separated)
  have hr := story2_results.1
  simp only [Prod.mk.injEq] at hr
  refine ⟨ops, h, h.requests 1 1 "n" (.newSeed "a" none true) (.newSeed "a" none true) _ ?_ rfl (fun h => by cases h) hr.1,
    h.requests 1 2 "s" (.sign (B.fill 32 8) none [1, 2]) (.sign (B.fill 32 8) none [1, 2]) _ ?_ rfl (fun h => by cases h) hr.2.2⟩
  · set_option maxRecDepth 100000 in decide +kernel
  · set_option maxRecDepth 100000 in decide +kernel

end MWorldEx
end Lair
