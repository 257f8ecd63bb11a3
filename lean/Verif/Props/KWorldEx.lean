import Verif.Props.KWorld
import Verif.Props.EndToEndEx

/- C81: a concrete life of a keystore meets the hypotheses. -/
namespace Lair
namespace KWorldEx
open Ex WEx

abbrev E : Env := LifeEx.E
abbrev K := KWorld E Toy.stream
abbrev fs0 : Migr.Fs E.S.σ := ⟨none, none⟩
abbrev krun := KWorld.run E Toy.stream LifeEx.cfg fs0

def kunforgedAll (w : K) : Bool := w.conns.all fun p =>
  decide (p.2.up.start.1 ≠ [] ∧ p.2.down.start.1 ≠ [] ∧ (arrived p.2.up.net).length < 65536 ∧ (arrived p.2.down.net).length < 65536) &&
  unforgedToy p.2.up.start (arrived p.2.up.net) (p.2.up.pushed.map (fun p => Codec.encodeMsg p.2)) &&
  unforgedToy p.2.down.start (arrived p.2.down.net) (p.2.down.pushed.map (fun p => Codec.encodeMsg p.2))

theorem kunforgedAll_spec {w : K} (h : kunforgedAll w = true) (c : Nat) : w.Unforged c := by
  intro j x hx
  have := List.all_eq_true.mp h (j, x) (List.mem_of_getElem? hx)
  simp only [Bool.and_eq_true, decide_eq_true_eq] at this
  obtain ⟨⟨⟨h1, h2, h3, h4⟩, h5⟩, h6⟩ := this
  exact ⟨unforgedToy_spec h1 h3 h5, unforgedToy_spec h2 h4 h6⟩

def kneverForgedB (w : K) : List (KEv Toy.stream) → Bool
  | [] => kunforgedAll w
  | e :: es => kunforgedAll w && kneverForgedB (w.step LifeEx.cfg e) es

theorem kneverForged_of {evs : List (KEv Toy.stream)} (h : kneverForgedB (.init E Toy.stream fs0) evs = true) :
    KNeverForged E Toy.stream LifeEx.cfg fs0 evs := by
  have : ∀ (evs : List (KEv Toy.stream)) (w : K), kneverForgedB w evs = true → ∀ n c, ((evs.take n).foldl (KWorld.step LifeEx.cfg) w).Unforged c := by
    intro evs
    induction evs with
    | nil => intro w h n c; simpa using kunforgedAll_spec h c
    | cons e es ih =>
      intro w h n c
      simp only [kneverForgedB, Bool.and_eq_true] at h
      cases n with
      | zero => exact kunforgedAll_spec h.1 c
      | succ n => exact ih _ h.2 n c
  exact fun n c => this evs _ h n c

def kwire (up : Bool) (c : Nat) (w : K) : Bytes :=
  match w.conns[c]? with
  | some (_, x) => if up then x.up.snd.wire else x.down.snd.wire
  | none => []

/-- The `k`-th request of connection `c` is made and received. -/
def asks (c k : Nat) (id : String) (q : Req) (evs : List (KEv Toy.stream)) : List (KEv Toy.stream) :=
  let a := evs ++ [.net c (.ask id q), .net c (.upSend (.acquire k)), .net c (.upSend (.push k)), .net c (.upSend (.write k 9999)),
    .net c (.asked k)]
  a ++ [.net c (.upArrive ((kwire true c (krun a)).drop (kwire true c (krun evs)).length)), .serve c]

/-- Its response is sent, received and handed over. -/
def gets (c k : Nat) (evs : List (KEv Toy.stream)) : List (KEv Toy.stream) :=
  let b := evs ++ [.net c (.downSend (.acquire k)), .net c (.downSend (.push k)), .net c (.downSend (.write k 9999))]
  b ++ [.net c (.downArrive ((kwire false c (krun b)).drop (kwire false c (krun evs)).length)), .net c .poll, .net c (.wake k)]

/-- Server `j` works on its first request. -/
def works (j : Nat) (r : UInt8) (evs : List (KEv Toy.stream)) : List (KEv Toy.stream) := evs ++ List.replicate 12 (.act j 0 (calm r))

def pass64 (c : Nat) : SecretSized 81 := SecretSized.encrypt Toy.crypto Toy.lawful (E.decKey c) (B.fill 24 0) (Toy.crypto.blake2b64 [1, 2])

/-- A wrong passphrase; a start cut off when the file is made; a server, and a client that makes "alice". -/
def story1 : List (KEv Toy.stream) :=
  let e : List (KEv Toy.stream) := [.start [1, 3] true none, .start [1, 2] false (some 1), .start [1, 2] false none, .connect 0 ([201], 0) ([202], 0)]
  gets 0 1 <| works 0 8 <| asks 0 1 "n" (.newSeed "alice" none true) <| gets 0 0 <| works 0 0 <| asks 0 0 "u" (.unlock (pass64 0)) e

/-- The server crashes. Somebody tries a wrong passphrase; two servers are started at the same time; a client of the second one, after its
    unlocking, asks for "alice" and tries to make it again. -/
def story2 : List (KEv Toy.stream) :=
  let e := story1 ++ [.ends 0, .start [1, 3] false none, .begin [1, 2], .begin [1, 2], .advance 0, .advance 0, .connect 2 ([203], 0) ([204], 0),
    .call 1 (.newSeed "bob" false) (fun _ => calm 5)]
  let e := gets 1 0 <| works 2 0 <| asks 1 0 "u" (.unlock (pass64 1)) e
  let e := gets 1 1 <| works 2 0 <| asks 1 1 "g" (.getEntry "alice") e
  gets 1 2 <| works 2 9 <| asks 1 2 "n" (.newSeed "alice" none true) e

set_option maxRecDepth 100000 in
theorem story2_results : ((krun story2).result 0 1, (krun story2).result 1 1, (krun story2).result 1 2) =
    (some (.ok (.newSeed "alice" ⟨B.fill 32 8, B.fill 32 8, true⟩)), some (.ok (.getEntry (.seed "alice" ⟨B.fill 32 8, B.fill 32 8, true⟩))),
      some (.error "tag already registered")) ∧
    (krun story2).entries.map Entry.tag = ["alice", "bob"] := by
  decide +kernel

set_option maxRecDepth 100000 in
theorem story2_unforged : kneverForgedB (.init E Toy.stream fs0) story2 = true := by decide +kernel

set_option maxRecDepth 100000 in
theorem story2_fresh : ∀ p ∈ (krun story2).conns, (p.2.asked.map Asked.id).Nodup := by decide +kernel

/-- The calls made on a connection. -/
def kcallsOn (w : K) (c : Nat) : List Call := match w.conns[c]? with
  | some (_, x) => x.asked.filterMap (fun a => a.req.call? E c)
  | none => []

set_option maxRecDepth 100000 in
theorem story2_calls : (List.range (krun story2).conns.length).all (fun c => (kcallsOn (krun story2) c).all (callWithin [] [])) = true := by
  decide +kernel

def handleCalls (evs : List (KEv Toy.stream)) : List Call := evs.filterMap fun e => match e with
  | .call _ x _ => x.asCall
  | _ => none

set_option maxRecDepth 100000 in
theorem story2_handles : (handleCalls story2).all (callWithin [] []) = true := by decide +kernel

set_option maxRecDepth 100000 in
theorem story2_separated : separatedB E [] [] (krun story2).entries = true := by decide +kernel

theorem krequest_some {w : K} {c k : Nat} {id : String} {q : Req} (h : w.request c k = some (id, q)) :
    ∃ j x a, w.conns[c]? = some (j, x) ∧ x.asked[k]? = some a ∧ a.req = q := by
  unfold KWorld.request at h
  cases hc : w.conns[c]? with
  | none => simp [hc] at h
  | some p =>
    obtain ⟨j, x⟩ := p
    cases ha : x.asked[k]? with
    | none => simp [hc, ha] at h
    | some a =>
      simp only [hc, Option.bind_some, ha, Option.map_some, Option.some.injEq, Prod.mk.injEq] at h
      exact ⟨j, x, a, rfl, ha, h.2⟩

theorem not_plain : ¬ fs0.isPlain := by rintro ⟨st, h⟩; cases h

theorem story2_assumed : LifeAssumed E Toy.stream LifeEx.cfg LifeEx.keys fs0 MemStore.empty story2 toyLim (fun _ => true) [] [] [] where
  lawful := Toy.stream_lawful
  secret := LifeEx.oneSecret_of_committing Toy.committing LifeEx.opens
  files := .nothing none
  cut := fun h => absurd h not_plain
  unforged := kneverForged_of story2_unforged
  ids := fun c j x hx => story2_fresh (j, x) (List.mem_of_getElem? hx)
  limits := toy_lim
  space := fun _ _ _ => rfl
  first := trivial
  known := by intro t s x pw ops mem h; cases h
  calls := by
    intro c k id q call hq hc
    obtain ⟨j, x, a, hx, ha, rfl⟩ := krequest_some hq
    have h1 := List.all_eq_true.mp story2_calls c (by simpa using (List.getElem?_eq_some_iff.mp hx).1)
    refine callWithin_iff (List.all_eq_true.mp h1 call ?_)
    simp only [kcallsOn, hx]
    exact List.mem_filterMap.mpr ⟨a, List.mem_of_getElem? ha, hc⟩
  handles := by
    intro j x ch call hm hc
    exact callWithin_iff (List.all_eq_true.mp story2_handles call (List.mem_filterMap.mpr ⟨_, hm, hc⟩))
  separated := separated_of story2_separated

/-- C81: the assumptions hold of this life, so there is one history that explains it. -/
example : ∃ ops, ExplainsLife E Toy.stream LifeEx.cfg fs0 story2 toyLim (fun _ => true) [] ops :=
  C81_one_keystore_for_life (L := Toy.lawful) LifeEx.opens fs0 MemStore.empty story2 story2_assumed

theorem asks_prefix (c k : Nat) (id : String) (q : Req) (evs : List (KEv Toy.stream)) : evs <+: asks c k id q evs := by
  simp only [asks, List.append_assoc]; exact List.prefix_append _ _

theorem gets_prefix (c k : Nat) (evs : List (KEv Toy.stream)) : evs <+: gets c k evs := by
  simp only [gets, List.append_assoc]; exact List.prefix_append _ _

theorem works_prefix (j : Nat) (r : UInt8) (evs : List (KEv Toy.stream)) : evs <+: works j r evs := List.prefix_append _ _

theorem story1_take : ∃ n, story2.take n = story1 := by
  have : story1 <+: story2 := by
    unfold story2
    refine List.IsPrefix.trans ?_ (gets_prefix ..)
    refine List.IsPrefix.trans ?_ (works_prefix ..)
    refine List.IsPrefix.trans ?_ (asks_prefix ..)
    refine List.IsPrefix.trans ?_ (gets_prefix ..)
    refine List.IsPrefix.trans ?_ (works_prefix ..)
    refine List.IsPrefix.trans ?_ (asks_prefix ..)
    refine List.IsPrefix.trans ?_ (gets_prefix ..)
    refine List.IsPrefix.trans ?_ (works_prefix ..)
    refine List.IsPrefix.trans ?_ (asks_prefix ..)
    exact List.prefix_append _ _
  exact ⟨_, (List.prefix_iff_eq_take.1 this).symm⟩

set_option maxRecDepth 100000 in
theorem story1_made : (krun story1).result 0 1 = some (.ok (.newSeed "alice" ⟨B.fill 32 8, B.fill 32 8, true⟩)) := by decide +kernel

set_option maxRecDepth 100000 in
theorem story1_notYet : (krun story1).request 1 1 = none := by decide +kernel

set_option maxRecDepth 100000 in
theorem story2_asked : ((krun story2).request 0 1, (krun story2).request 1 1) =
    (some ("n", .newSeed "alice" none true), some ("g", .getEntry "alice")) := by decide +kernel

/-- C81: what the client of the later server must have been told, the first having crashed. -/
example (e : EntryInfo) (he : (krun story2).result 1 1 = some (.ok (.getEntry e))) : e = .seed "alice" ⟨B.fill 32 8, B.fill 32 8, true⟩ := by
  obtain ⟨n, hn⟩ := story1_take
  have ha := story2_asked
  simp only [Prod.mk.injEq] at ha
  have := C81_made_once_found_for_life (L := Toy.lawful) LifeEx.opens fs0 MemStore.empty story2 story2_assumed n 0 1 1 1 _ _ _ _ _ _ _ e
    ha.1 (by rw [hn]; exact story1_made) (by rw [hn]; exact story1_notYet) ha.2 he
  simpa using this

/-- C81: the hypotheses of `C81_made_once_in_file` hold of the same life. -/
example : ∃ e ∈ (krun story2).entries, e.tag = "alice" ∧ e.info = .seed "alice" ⟨B.fill 32 8, B.fill 32 8, true⟩ := by
  have ha := story2_asked
  have hr := story2_results.1
  simp only [Prod.mk.injEq] at ha hr
  have := C81_made_once_in_file (L := Toy.lawful) LifeEx.opens fs0 MemStore.empty story2 story2_assumed 0 1 _ _ _ _ _ _ ha.1 hr.1
  exact this

-- C81: servers 1 and 2 are at work at the end of this life, server 0 is not
set_option maxRecDepth 100000 in
example : ((krun story2).isUp 0, (krun story2).isUp 1, (krun story2).isUp 2, (krun story2).isUp 3) = (false, true, true, false) := by decide +kernel

-- C81: a wrong passphrase; and a server can be started again (the hypothesis about unencrypted files holds)
example : LifeEx.cfg.unlock E.C [1, 3] = none := by decide +kernel
example : (krun story2).life.fs.isPlain → true = true := fun _ => rfl

end KWorldEx
end Lair
