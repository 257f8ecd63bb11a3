import Verif.Props.EndToEnd

/- C65: a concrete run of the whole system meets the hypotheses. -/
namespace Lair

/-! ### Concrete cases -/

section Examples
namespace WEx

/-- One place of the bytes: what is accepted there is the next cipher. Most places are ruled out by the key in the tag. -/
def unforgedAt (s : Toy.stream.St) (d : Option Bytes) (l : Bytes) : Bool :=
  match l with
  | a :: b :: c :: rest =>
    if a != UInt8.ofNat s.2 then true
    else if rest.head? != s.1.head? then true
    else
      let x := l.take (fromLe16 [b, c] + 17)
      (Toy.stream.pull s x).isNone || (match d with
        | some d => x == (Toy.stream.push s d).1
        | none => false)
  | _ => true

def unforgedFrom (s : Toy.stream.St) (d : Option Bytes) : Bytes → Bool
  | [] => true
  | a :: l => unforgedAt s d (a :: l) && unforgedFrom s d l

/-- Decide `Unforged` for the toy stream: the tag of a cipher fixes its length. -/
def unforgedToy (s : Toy.stream.St) (bytes : Bytes) : List Bytes → Bool
  | [] => unforgedFrom s none bytes
  | d :: ds => unforgedFrom s (some d) bytes && unforgedToy (Toy.stream.push s d).2 bytes ds

theorem toy_pull_len {s : Toy.stream.St} {c : Bytes} (hl : c.length < 65536) (h : (Toy.stream.pull s c).isSome) :
    17 ≤ c.length ∧ fromLe16 ((c.drop 1).take 2) + 17 = c.length := by
  simp only [Toy.stream] at h
  split at h
  · cases h
  · rename_i hlen
    refine ⟨by omega, ?_⟩
    simp only [Option.isSome_map, Toy.unlock] at h
    split at h
    · rename_i ht
      rw [(Toy.streamTag s (c.length - 17)).len] at ht
      have h3 : (c.drop 1).take 2 = le16 (c.length - 17) := by
        have h4 : c.take 3 = UInt8.ofNat s.2 :: le16 (c.length - 17) := by
          have : c.take 3 = (c.take 17).take 3 := by rw [List.take_take]; rfl
          rw [this, ht]
          simp [Toy.streamTag, Toy.pad, le16]
        have : (c.drop 1).take 2 = (c.take 3).drop 1 := by rw [List.drop_take]
        rw [this, h4]; rfl
      rw [h3]
      simp only [le16, fromLe16]
      simp
      omega
    · cases h

theorem toy_pull_tag {s : Toy.stream.St} {c : Bytes} (h : (Toy.stream.pull s c).isSome) :
    c.take 17 = (Toy.streamTag s (c.length - 17)).val := by
  simp only [Toy.stream] at h
  split at h
  · cases h
  · simp only [Option.isSome_map, Toy.unlock] at h
    split at h
    · rename_i ht
      rw [(Toy.streamTag s (c.length - 17)).len] at ht
      exact ht
    · cases h

theorem unforgedFrom_spec {s : Toy.stream.St} {d : Option Bytes} {bytes : Bytes} (hk : s.1 ≠ []) (hl : bytes.length < 65536)
    (h : unforgedFrom s d bytes = true) {c : Bytes} (hc : c <:+: bytes) (hp : (Toy.stream.pull s c).isSome) :
    ∃ d', d = some d' ∧ c = (Toy.stream.push s d').1 := by
  induction bytes with
  | nil =>
    have : c = [] := List.infix_nil.mp hc
    subst this
    simp [Toy.stream] at hp
  | cons a l ih =>
    simp only [unforgedFrom, Bool.and_eq_true] at h
    rcases List.infix_cons_iff.mp hc with hpre | hinf
    · obtain ⟨y, hy⟩ := hpre
      have hcl : c.length < 65536 := by
        have := congrArg List.length hy
        simp at this hl
        omega
      obtain ⟨h17, hn⟩ := toy_pull_len hcl hp
      have htag := toy_pull_tag hp
      have h1 := h.1
      rw [← hy] at h1
      match c, h17, hn, hp, htag, hy with
      | a :: b :: e :: f :: rest, h17, hn, hp, htag, hy =>
        obtain ⟨k, ks, hk'⟩ := List.exists_cons_of_ne_nil hk
        have t0 : a = UInt8.ofNat s.2 := by
          have := congrArg (fun l => l[0]?) htag
          simpa only [Toy.streamTag, Toy.pad, hk', le16, List.cons_append, List.take_succ_cons, List.getElem?_cons_zero, List.getElem?_cons_succ, Option.some.injEq] using this
        have t3 : f = k := by
          have := congrArg (fun l => l[3]?) htag
          simpa only [Toy.streamTag, Toy.pad, hk', le16, List.cons_append, List.nil_append, List.take_succ_cons, List.getElem?_cons_zero, List.getElem?_cons_succ, Option.some.injEq] using this
        have hn' : fromLe16 [b, e] + 17 = (a :: b :: e :: f :: rest).length := by simpa using hn
        simp only [unforgedAt, List.cons_append] at h1
        rw [if_neg (by simp [t0]), if_neg (by simp [hk', t3])] at h1
        have ht : (a :: b :: e :: f :: (rest ++ y)).take (fromLe16 [b, e] + 17) = a :: b :: e :: f :: rest := by
          rw [hn']
          exact List.take_left (l₁ := a :: b :: e :: f :: rest) (l₂ := y)
        simp only [ht] at h1
        cases hx : Toy.stream.pull s (a :: b :: e :: f :: rest) with
        | none => rw [hx] at hp; cases hp
        | some z =>
          rw [hx] at h1
          cases d with
          | none => simp at h1
          | some d => exact ⟨d, rfl, by simpa using h1⟩
    · exact ih (by simp at hl; omega) h.2 hinf

theorem unforgedToy_spec {s : Toy.stream.St} {ds : List Bytes} {bytes : Bytes} (hk : s.1 ≠ []) (hl : bytes.length < 65536)
    (h : unforgedToy s bytes ds = true) : Unforged Toy.stream s ds bytes := by
  induction ds generalizing s with
  | nil =>
    intro pre post hs c hc hp
    obtain ⟨rfl, rfl⟩ := List.nil_eq_append_iff.mp hs
    obtain ⟨d, hd, -⟩ := unforgedFrom_spec hk hl h hc hp
    cases hd
  | cons d ds ih =>
    simp only [unforgedToy, Bool.and_eq_true] at h
    intro pre post hs c hc hp
    cases pre with
    | nil =>
      simp only [List.nil_append] at hs
      subst hs
      obtain ⟨d', hd, hcc⟩ := unforgedFrom_spec hk hl h.1 hc hp
      cases hd
      exact ⟨d, ds, rfl, hcc⟩
    | cons p pre =>
      simp only [List.cons_append, List.cons.injEq] at hs
      obtain ⟨rfl, hs⟩ := hs
      exact ih (s := (Toy.stream.push s d).2) hk h.2 pre post hs c hc hp

abbrev W := World (Ex.env false 4) Toy.stream

/-- Nobody has forged on any connection. -/
def unforgedAll (w : W) : Bool := w.conns.all fun x =>
  decide (x.up.start.1 ≠ [] ∧ x.down.start.1 ≠ [] ∧ (arrived x.up.net).length < 65536 ∧ (arrived x.down.net).length < 65536) &&
  unforgedToy x.up.start (arrived x.up.net) (x.up.pushed.map (fun p => Codec.encodeMsg p.2)) &&
  unforgedToy x.down.start (arrived x.down.net) (x.down.pushed.map (fun p => Codec.encodeMsg p.2))

theorem unforgedAll_spec {w : W} (h : unforgedAll w = true) (c : Nat) : w.Unforged c := by
  intro x hx
  have := List.all_eq_true.mp h x (List.mem_of_getElem? hx)
  simp only [Bool.and_eq_true, decide_eq_true_eq] at this
  obtain ⟨⟨⟨h1, h2, h3, h4⟩, h5⟩, h6⟩ := this
  exact ⟨unforgedToy_spec h1 h3 h5, unforgedToy_spec h2 h4 h6⟩

/-- ... at any time. -/
def neverForgedB (w : W) : List (WEv Toy.stream) → Bool
  | [] => unforgedAll w
  | e :: es => unforgedAll w && neverForgedB (w.step e) es

theorem neverForged_of {evs : List (WEv Toy.stream)} (h : neverForgedB (.init (Ex.env false 4) Toy.stream MemStore.empty) evs = true) :
    NeverForged (Ex.env false 4) Toy.stream MemStore.empty evs := by
  have : ∀ (evs : List (WEv Toy.stream)) (w : W), neverForgedB w evs = true → ∀ n c, ((evs.take n).foldl World.step w).Unforged c := by
    intro evs
    induction evs with
    | nil => intro w h n c; simpa using unforgedAll_spec h c
    | cons e es ih =>
      intro w h n c
      simp only [neverForgedB, Bool.and_eq_true] at h
      cases n with
      | zero => exact unforgedAll_spec h.1 c
      | succ n => exact ih _ h.2 n c
  exact fun n c => this evs _ h n c

/-- One whole exchange on connection `c`, whose `k`-th request it is: the request is sent, received, handled, the response
    sent, received and handed over. -/
def wireOf (up : Bool) (c : Nat) (w : W) : Bytes :=
  match w.conns[c]? with
  | some x => if up then x.up.snd.wire else x.down.snd.wire
  | none => []

def exchange (c k : Nat) (id : String) (q : Req) (r : UInt8) (evs : List (WEv Toy.stream)) : List (WEv Toy.stream) :=
  let a := evs ++ [.net c (.ask id q), .net c (.upSend (.acquire k)), .net c (.upSend (.push k)), .net c (.upSend (.write k 9999)),
    .net c (.asked k)]
  let b := a ++ [.net c (.upArrive ((wireOf true c (run a)).drop (wireOf true c (run evs)).length)), .serve c] ++
    List.replicate 12 (.act 0 (Ex.calm r)) ++
    [.net c (.downSend (.acquire k)), .net c (.downSend (.push k)), .net c (.downSend (.write k 9999))]
  b ++ [.net c (.downArrive ((wireOf false c (run b)).drop (wireOf false c (run evs)).length)), .net c .poll, .net c (.wake k)]

/-- A client connects, unlocks, creates a seed through the method `newSeed`, and signs with it. -/
def story : List (WEv Toy.stream) :=
  exchange 0 2 "s" (.sign (B.fill 32 9) none [1, 2]) 0 <|
  exchange 0 1 "n" ((Method.newSeed "a" none true).request Toy.crypto Toy.lawful (B.fill 32 1) .interactive (B.fill 24 0) (B.fill 24 0)) 9 <|
  exchange 0 0 "u" (.unlock (Ex.sent 0 Ex.pass)) 0 [.connect ([201], 0) ([202], 0)]

set_option maxRecDepth 100000 in
theorem story_results : ((run story).result 0 0, (run story).result 0 1, (run story).result 0 2) =
    (some (.ok .unlock), some (.ok (.newSeed "a" ⟨B.fill 32 9, B.fill 32 9, true⟩)), some (.ok (.sign (B.fill 64 9)))) := by
  decide +kernel

set_option maxRecDepth 100000 in
theorem story_unforged : neverForgedB (.init (Ex.env false 4) Toy.stream MemStore.empty) story = true := by decide +kernel

set_option maxRecDepth 100000 in
theorem story_fresh : ∀ y ∈ (run story).conns, (y.asked.map Asked.id).Nodup := by decide +kernel

/-- The calls made on a connection. -/
def callsOn (w : W) (c : Nat) : List Call := match w.conns[c]? with
  | some x => x.asked.filterMap (fun a => a.req.call? (Ex.env false 4) c)
  | none => []

set_option maxRecDepth 100000 in
theorem story_calls : (List.range (run story).conns.length).all (fun c => (callsOn (run story) c).all (callWithin [] [])) = true := by
  decide +kernel

set_option maxRecDepth 100000 in
theorem story_separated : separatedB (Ex.env false 4) [] [] (run story).sys.sh.tbl = true := by decide +kernel

/-- C65: the hypotheses hold of this run, so what the client saw - a seed made, a signature with it - is explained, and
    the two requests are in the explanation. -/
example : ∃ ops, ExplainsClients (Ex.env false 4) Toy.stream MemStore.empty story toyLim (fun _ => true) [] ops ∧
    (∃ o ∈ ops, o.conn = 0 ∧ o.num = 1) ∧ (∃ o ∈ ops, o.conn = 0 ∧ o.num = 2) := by
  obtain ⟨ops, h⟩ := C65_clients_see_one_keystore (E := Ex.env false 4) (S := Toy.stream) (st := MemStore.empty) (ks₀ := [])
    (okLim := toyLim) (room := fun _ => true) (H := []) (Λ := []) Toy.stream_lawful (goodStore_empty (Ex.env false 4)) story
    (neverForged_of story_unforged) (fun c x hx => story_fresh x (List.mem_of_getElem? hx)) toy_lim (fun _ _ _ => rfl) trivial
    (by intro t s x pw ops mem h; cases h)
    (by
      intro c k id q call hq hc
      obtain ⟨x, a, hx, ha, -, rfl⟩ := request_some hq
      have h1 := List.all_eq_true.mp story_calls c (by simpa using (List.getElem?_eq_some_iff.mp hx).1)
      refine callWithin_iff (List.all_eq_true.mp h1 call ?_)
      simp only [callsOn, hx]
      exact List.mem_filterMap.mpr ⟨a, List.mem_of_getElem? ha, hc⟩)
    (separated_of story_separated)
  have hr := story_results
  simp only [Prod.mk.injEq] at hr
  refine ⟨ops, h, h.all 0 1 "n" (.newSeed "a" none true) (.newSeed "a" none true) _ ?_ rfl (fun h => by cases h) hr.2.1,
    h.all 0 2 "s" (.sign (B.fill 32 9) none [1, 2]) (.sign (B.fill 32 9) none [1, 2]) _ ?_ rfl (fun h => by cases h) hr.2.2⟩
  · set_option maxRecDepth 100000 in decide +kernel
  · set_option maxRecDepth 100000 in decide +kernel

end WEx
end Examples
end Lair
