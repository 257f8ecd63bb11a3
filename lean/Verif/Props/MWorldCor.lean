import Verif.Props.MWorldEx

/-
C74, what the explanation by one keystore means for clients of different servers.
-/
namespace Lair

/-! ### Sequential histories -/

section Spec
variable {C : Crypto} {okLim : UInt32 → UInt32 → Bool} {room : Item → Bool}

theorem add_grows (ks : Keystore) (i : Item) (a : Ans) : ks <+: (Keystore.add C room ks i a).2 := by
  unfold Keystore.add
  split
  · exact List.prefix_rfl
  · exact List.prefix_append _ _

theorem create_grows (ks : Keystore) (t : String) (s : B 32) (l : Option Lock) (x : Bool) : ks <+: (Keystore.create C okLim room ks t s l x).2 := by
  unfold Keystore.create
  split
  · exact add_grows ..
  · split
    · exact add_grows ..
    · exact List.prefix_rfl
  · exact List.prefix_rfl

/-- Nothing is ever removed. -/
theorem call_grows (r : Luck) (ks : Keystore) (c : Call) : ks <+: (Keystore.call C okLim room r ks c).2 := by
  cases c with
  | newSeed t l x => exact create_grows ..
  | importSeed a b c d e f g =>
    simp only [Keystore.call]
    split
    · exact List.prefix_rfl
    · exact create_grows ..
  | deriveSeed a b c d e =>
    simp only [Keystore.call]
    split
    · exact List.prefix_rfl
    · exact create_grows ..
  | newCert t => exact add_grows ..
  | _ => exact List.prefix_rfl

theorem kafter_grows (ops : List Op) (ks : Keystore) : ks <+: Keystore.after C okLim room ks ops := by
  induction ops generalizing ks with
  | nil => exact List.prefix_rfl
  | cons op ops ih => exact (call_grows ..).trans (ih _)

theorem byTag_grows {ks ks' : Keystore} {t : String} {i : Item} (h : ks <+: ks') (hi : Keystore.byTag ks t = some i) : Keystore.byTag ks' t = some i := by
  obtain ⟨more, rfl⟩ := h
  unfold Keystore.byTag at *
  rw [List.find?_append, hi]; rfl

/-- The answers of two calls of a correct history, the first before the second. -/
theorem correct_two {ops : List Op} {ks₀ : Keystore} (h : Keystore.Correct C okLim room ks₀ ops) {A B D : List Op} {a b : Op}
    (hs : ops = A ++ a :: (B ++ b :: D)) : ∃ ks ks', (Keystore.call C okLim room a.luck ks a.call).2 <+: ks' ∧
      (∀ o, a.ans = some o → Agrees (Keystore.call C okLim room a.luck ks a.call).1 o) ∧
      (∀ o, b.ans = some o → Agrees (Keystore.call C okLim room b.luck ks' b.call).1 o) := by
  subst hs
  rw [correct_append] at h
  obtain ⟨-, h1, h2⟩ := h
  rw [correct_append] at h2
  obtain ⟨-, h3, -⟩ := h2
  exact ⟨_, _, kafter_grows _ _, h1, h3⟩

end Spec

/-! ### Clients -/

variable {S : SStream} {E : Env} {st : E.S.σ} {evs : List (MWEv S)} {okLim : UInt32 → UInt32 → Bool} {room : Item → Bool} {ks₀ : Keystore}
  {ops : List WOp}

/-- C74. Only a request that was made has a result, and a result is final. -/
theorem C74_result_final (evs : List (MWEv S)) (c k n : Nat) (r : Res Resp) (h : (MWorld.run E S st (evs.take n)).result c k = some r) :
    (∃ q, (MWorld.run E S st (evs.take n)).request c k = some q) ∧ (MWorld.run E S st evs).result c k = some r := by
  have hi := mworldInv_run (S := S) st (evs.take n)
  obtain ⟨j, x, a, rid, m, sl, hx, ha, hk, rfl⟩ := mresult_some h
  refine ⟨⟨_, mrequest_of hx ha⟩, ?_⟩
  obtain ⟨l, -, hc⟩ := hi.conns c j x hx
  obtain ⟨y, hy, hg⟩ := mgrows_run (evs.drop n) _ hx
  rw [← mw_take] at hy
  obtain ⟨l', -, hcy⟩ := (mworldInv_run (S := S) st evs).conns c j y hy
  obtain ⟨as, has⟩ := hg.asked
  obtain ⟨cs, hcs⟩ := hg.cevs
  have hay : y.asked[k]? = some a := by
    rw [← has, List.getElem?_append_left (List.getElem?_eq_some_iff.mp ha).1]; exact ha
  rw [hc.cli] at hk
  obtain ⟨q', h1, h2, -⟩ := C29_result_final hk (by simp) cs
  rw [hcs, ← hcy.cli] at h1
  obtain ⟨i', p', s'⟩ := q'
  simp only at h2
  subst h2
  simp only [MWorld.result, hy, hay, h1]

theorem split_two {α : Type} {l : List α} {a b : α} {R : α → α → Prop} (hp : l.Pairwise R) (ha : a ∈ l) (hb : b ∈ l) (hne : a ≠ b) (hR : ¬ R b a) :
    ∃ A B D, l = A ++ a :: (B ++ b :: D) := by
  obtain ⟨A, l', rfl⟩ := List.append_of_mem hb
  rcases List.mem_append.1 ha with h | h
  · obtain ⟨X, Y, rfl⟩ := List.append_of_mem h
    exact ⟨X, Y, l', by simp⟩
  · rcases List.mem_cons.1 h with h | h
    · exact absurd h hne
    · rw [List.pairwise_append, List.pairwise_cons] at hp
      exact absurd (hp.2.1.1 a h) hR

/-- Two requests, the second made after the first had succeeded: their places in the history. -/
theorem two_requests (h : ExplainsAll E S st evs okLim room ks₀ ops) {c k c' k' n : Nat} {id id' : String} {q q' : Req} {call call' : Call}
    {v v' : Resp} (hq : (MWorld.run E S st evs).request c k = some (id, q)) (hcall : q.call? E c = some call)
    (hfb : E.hasFallback = true → ∀ pk p m, call ≠ .sign pk p m) (hv : (MWorld.run E S st (evs.take n)).result c k = some (.ok v))
    (hno : (MWorld.run E S st (evs.take n)).request c' k' = none)
    (hq' : (MWorld.run E S st evs).request c' k' = some (id', q')) (hcall' : q'.call? E c' = some call')
    (hfb' : E.hasFallback = true → ∀ pk p m, call' ≠ .sign pk p m) (hv' : (MWorld.run E S st evs).result c' k' = some (.ok v')) :
    ∃ ks ks' r r', (Keystore.call E.C okLim room r ks call).2 <+: ks' ∧
      Agrees (Keystore.call E.C okLim room r ks call).1 (answerOf E.C (E.encKey c) (.ok v)) ∧
      Agrees (Keystore.call E.C okLim room r' ks' call').1 (answerOf E.C (E.encKey c') (.ok v')) := by
  have hfin := (C74_result_final evs c k n _ hv).2
  obtain ⟨a, ha, hau⟩ := h.requests c k id q call v hq hcall hfb hfin
  obtain ⟨b, hb, hbu⟩ := h.requests c' k' id' q' call' v' hq' hcall' hfb' hv'
  have hover : a.who.over E S st evs n := by rw [hau]; exact ⟨v, hv⟩
  have hnot : b.who.notYet E S st evs n := by rw [hbu]; exact hno
  have hne : a ≠ b := by
    rintro rfl
    rw [hau] at hbu
    cases hbu
    obtain ⟨p, hp⟩ := (C74_result_final evs c k n _ hv).1
    rw [hp] at hno; cases hno
  obtain ⟨A, B, D, hs⟩ := split_two h.order ha hb hne (fun hR => hR ⟨n, hover, hnot⟩)
  obtain ⟨i1, q1, e1, e2, e3⟩ := h.realRequest a ha c k hau
  obtain ⟨i2, q2, f1, f2, f3⟩ := h.realRequest b hb c' k' hbu
  rw [hq] at e1; cases e1
  rw [hq'] at f1; cases f1
  rw [hcall] at e2
  rw [hcall'] at f2
  injection e2 with e2
  injection f2 with f2
  obtain ⟨ks, ks', g1, g2, g3⟩ := correct_two h.correct (A := A.map WOp.op) (B := B.map WOp.op) (D := D.map WOp.op) (a := a.op) (b := b.op)
    (by rw [hs]; simp)
  refine ⟨ks, ks', a.luck, b.luck, ?_, ?_, ?_⟩
  · rw [e2]; exact g1
  · rw [e2]; exact g2 _ (e3 v hfin)
  · rw [f2]; exact g3 _ (f3 v' hv')

/-- A seed that was made is in the keystore. -/
theorem made_byTag {C : Crypto} {r : Luck} {ks : Keystore} {t : String} {l : Option Lock} {x : Bool} {i : SeedInfo}
    (h : Agrees (Keystore.call C okLim room r ks (.newSeed t l x)).1 (.ok (.seedInfo i))) :
    ∃ it, Keystore.byTag (Keystore.call C okLim room r ks (.newSeed t l x)).2 t = some it ∧
      it.info C = (if l.isSome then .deep t i else .seed t i) := by
  have key : ∀ (it : Item) (a : Ans), it.tag = t → Agrees (Keystore.add C room ks it a).1 (.ok (.seedInfo i)) →
      Keystore.byTag (Keystore.add C room ks it a).2 t = some it ∧ a = .seedInfo i := by
    intro it a htag h
    unfold Keystore.add at h ⊢
    split at h
    · simp [Agrees] at h
    · rename_i hc
      rw [if_neg hc]
      simp only [Bool.or_eq_true, not_or, Bool.not_eq_true] at hc
      refine ⟨?_, ?_⟩
      · unfold Keystore.byTag
        rw [List.find?_append]
        have : ks.find? (fun i => i.tag = t) = none := by
          rw [List.find?_eq_none]
          intro j hj hjt
          simp only [decide_eq_true_eq] at hjt
          have := List.any_eq_false.1 hc.1 j hj
          simp [Item.conflicts, hjt, htag] at this
        rw [this]
        simp [htag]
      · cases a <;> simp [Agrees] at h
        rw [h]
  simp only [Keystore.call, Keystore.create] at h ⊢
  cases l with
  | none =>
    obtain ⟨h1, h2⟩ := key _ _ rfl h
    injection h2 with h2
    exact ⟨_, h1, by simp [Item.info, h2]⟩
  | some l =>
    obtain ⟨pw, o, m⟩ := l
    cases pw with
    | none => simp [Agrees] at h
    | some pw =>
      simp only at h ⊢
      split at h
      · rename_i hl
        rw [if_pos hl]
        obtain ⟨h1, h2⟩ := key _ _ rfl h
        injection h2 with h2
        exact ⟨_, h1, by simp [Item.info, h2]⟩
      · simp [Agrees] at h

/-- C74. A seed made through one server is there for the clients of all: once the request that made it has succeeded, a client of
    whichever server that asks for the entry with this tag, and gets an answer, gets this seed's public information. -/
theorem C74_made_here_found_there (h : ExplainsAll E S st evs okLim room ks₀ ops) {c k c' k' n : Nat} {id id' t t' : String}
    {d : Option DeepPass} {x : Bool} {i : SeedInfo} {e : EntryInfo}
    (hq : (MWorld.run E S st evs).request c k = some (id, .newSeed t d x))
    (hv : (MWorld.run E S st (evs.take n)).result c k = some (.ok (.newSeed t' i)))
    (hno : (MWorld.run E S st (evs.take n)).request c' k' = none)
    (hq' : (MWorld.run E S st evs).request c' k' = some (id', .getEntry t))
    (hv' : (MWorld.run E S st evs).result c' k' = some (.ok (.getEntry e))) :
    e = if d.isSome then .deep t i else .seed t i := by
  obtain ⟨ks, ks', r, r', h1, h2, h3⟩ := two_requests h hq rfl (fun _ _ _ _ => by simp) hv hno hq' rfl (fun _ _ _ _ => by simp) hv'
  obtain ⟨it, h4, h5⟩ := made_byTag h2
  have h6 := byTag_grows h1 h4
  simp only [Keystore.call, Keystore.answer, h6, Option.map_some, answerOf, Agrees, Ans.entry.injEq] at h3
  rw [← h3, h5]
  simp

/-- C74. And it is in every listing. -/
theorem C74_made_here_listed_there (h : ExplainsAll E S st evs okLim room ks₀ ops) {c k c' k' n : Nat} {id id' t t' : String}
    {d : Option DeepPass} {x : Bool} {i : SeedInfo} {es : List EntryInfo}
    (hq : (MWorld.run E S st evs).request c k = some (id, .newSeed t d x))
    (hv : (MWorld.run E S st (evs.take n)).result c k = some (.ok (.newSeed t' i)))
    (hno : (MWorld.run E S st (evs.take n)).request c' k' = none)
    (hq' : (MWorld.run E S st evs).request c' k' = some (id', .listEntries))
    (hv' : (MWorld.run E S st evs).result c' k' = some (.ok (.listEntries es))) :
    (if d.isSome then EntryInfo.deep t i else .seed t i) ∈ es := by
  obtain ⟨ks, ks', r, r', h1, h2, h3⟩ := two_requests h hq rfl (fun _ _ _ _ => by simp) hv hno hq' rfl (fun _ _ _ _ => by simp) hv'
  obtain ⟨it, h4, h5⟩ := made_byTag h2
  have h6 := byTag_grows h1 h4
  simp only [Keystore.call, Keystore.answer, answerOf, Agrees] at h3
  rw [h3.mem_iff, List.mem_map]
  exact ⟨it, List.mem_of_find?_eq_some h6, by rw [h5]; simp⟩

/-- C74. A tag is given once, whichever servers are asked: of several requests to make a seed with the same tag at most one succeeds. -/
theorem C74_tag_given_once (h : ExplainsAll E S st evs okLim room ks₀ ops) {c k c' k' : Nat} {id id' t : String}
    {d d' : Option DeepPass} {x x' : Bool} {v v' : Resp}
    (hq : (MWorld.run E S st evs).request c k = some (id, .newSeed t d x)) (hv : (MWorld.run E S st evs).result c k = some (.ok v))
    (hq' : (MWorld.run E S st evs).request c' k' = some (id', .newSeed t d' x')) (hv' : (MWorld.run E S st evs).result c' k' = some (.ok v')) :
    c = c' ∧ k = k' := by
  have kind : ∀ {c k id d x v}, (MWorld.run E S st evs).request c k = some (id, .newSeed t d x) → (MWorld.run E S st evs).result c k = some (.ok v) →
      ∃ t' i, v = .newSeed t' i := by
    intro c k id d x v hq hv
    obtain ⟨j, y, a, hx, ha, -, hreq⟩ := mrequest_some hq
    obtain ⟨j', y', a', rid, m, sl, hx', ha', -, he⟩ := mresult_some hv
    rw [hx] at hx'; cases hx'
    rw [ha] at ha'; cases ha'
    obtain ⟨hans, -⟩ := (C30_typed_result _ _ _).mp he.symm
    rw [hreq] at hans
    cases v <;> simp [Answers] at hans
    exact ⟨_, _, rfl⟩
  obtain ⟨t1, i1, rfl⟩ := kind hq hv
  obtain ⟨t2, i2, rfl⟩ := kind hq' hv'
  obtain ⟨a, ha, hau⟩ := h.requests c k id _ _ _ hq rfl (fun _ _ _ _ => by simp) hv
  obtain ⟨b, hb, hbu⟩ := h.requests c' k' id' _ _ _ hq' rfl (fun _ _ _ _ => by simp) hv'
  obtain ⟨_, q1, e1, e2, e3⟩ := h.realRequest a ha c k hau
  obtain ⟨_, q2, f1, f2, f3⟩ := h.realRequest b hb c' k' hbu
  rw [hq] at e1; cases e1
  rw [hq'] at f1; cases f1
  injection e2 with e2
  injection f2 with f2
  by_cases hab : a = b
  · subst hab
    rw [hau] at hbu
    cases hbu
    exact ⟨rfl, rfl⟩
  · exfalso
    -- one of them comes first; the second finds the tag taken
    have second : ∀ (l : Option Lock) (y : Bool) (l' : Option Lock) (y' : Bool) (a b : WOp) (A B D : List WOp) (i i' : SeedInfo),
        a.call = .newSeed t l y → b.call = .newSeed t l' y' → a.ans = some (.ok (.seedInfo i)) → b.ans = some (.ok (.seedInfo i')) →
        ops = A ++ a :: (B ++ b :: D) → False := by
      intro l y l' y' a b A B D i i' ha hb haa hba hs
      obtain ⟨ks, ks', g1, g2, g3⟩ := correct_two h.correct (A := A.map WOp.op) (B := B.map WOp.op) (D := D.map WOp.op) (a := a.op)
        (b := b.op) (by rw [hs]; simp)
      have g2' := g2 _ haa
      have g3' := g3 _ hba
      simp only [WOp.op, ha, hb] at g1 g2' g3'
      obtain ⟨it, h4, -⟩ := made_byTag g2'
      have h6 := byTag_grows g1 h4
      have htaken : ∀ (jt : Item) (an : Ans), jt.tag = t → (Keystore.add E.C room ks' jt an).1 = none := by
        intro jt an htag
        unfold Keystore.add
        rw [if_pos]
        simp only [Bool.or_eq_true]
        left
        rw [List.any_eq_true]
        refine ⟨it, List.mem_of_find?_eq_some h6, ?_⟩
        have := List.find?_some h6
        simp only [decide_eq_true_eq] at this
        simp [Item.conflicts, this, htag]
      simp only [Keystore.call, Keystore.create] at g3'
      cases l' with
      | none => simp only at g3'; rw [htaken _ _ rfl] at g3'; exact g3'
      | some l' =>
        obtain ⟨pw, o, m⟩ := l'
        cases pw with
        | none => exact g3'
        | some pw =>
          simp only at g3'
          split at g3'
          · rw [htaken _ _ rfl] at g3'; exact g3'
          · exact g3'
    obtain ⟨A, l', rfl⟩ := List.append_of_mem hb
    rcases List.mem_append.1 ha with hm | hm
    · obtain ⟨X, Y, rfl⟩ := List.append_of_mem hm
      exact second _ _ _ _ a b X Y l' i1 i2 e2.symm f2.symm (e3 _ hv) (f3 _ hv') (by simp)
    · rcases List.mem_cons.1 hm with hm | hm
      · exact hab hm
      · obtain ⟨X, Y, rfl⟩ := List.append_of_mem hm
        exact second _ _ _ _ b a A X Y i2 i1 f2.symm e2.symm (f3 _ hv') (e3 _ hv) (by simp)

/-! ### A concrete case -/

namespace MWorldEx
open Ex WEx

def seedA : SeedInfo := ⟨B.fill 32 8, B.fill 32 8, true⟩

set_option maxRecDepth 100000 in
theorem story1_made : (mrun story1).result 1 1 = some (.ok (.newSeed "a" seedA)) := by decide +kernel

set_option maxRecDepth 100000 in
theorem story1_notYet : (mrun story1).request 0 2 = none ∧ (mrun story1).request 0 3 = none := by decide +kernel

set_option maxRecDepth 100000 in
theorem story2_new : (mrun story2).request 1 1 = some ("n", .newSeed "a" none true) := by decide +kernel

set_option maxRecDepth 100000 in
theorem story2_get : (mrun story2).request 0 3 = some ("g", .getEntry "a") := by decide +kernel

set_option maxRecDepth 100000 in
theorem story2_got : (mrun story2).result 0 3 = some (.ok (.getEntry (.seed "a" seedA))) := by decide +kernel

set_option maxRecDepth 100000 in
theorem story2_list : (mrun story2).request 0 2 = some ("l", .listEntries) := by decide +kernel

set_option maxRecDepth 100000 in
theorem story2_listed : (match (mrun story2).result 0 2 with
    | some (.ok (.listEntries l)) => l.length
    | _ => 100) = 1 := by decide +kernel

theorem asks_prefix (c k : Nat) (id : String) (q : Req) (evs : List (MWEv Toy.stream)) : evs <+: asks c k id q evs := by
  simp only [asks, List.append_assoc]; exact List.prefix_append _ _

theorem gets_prefix (c k : Nat) (evs : List (MWEv Toy.stream)) : evs <+: gets c k evs := by
  simp only [gets, List.append_assoc]; exact List.prefix_append _ _

theorem works_prefix (j : Nat) (r : UInt8) (evs : List (MWEv Toy.stream)) : evs <+: works j r evs := List.prefix_append _ _

theorem story1_take : ∃ n, story2.take n = story1 := by
  have : story1 <+: story2 := by
    unfold story2
    refine List.IsPrefix.trans ?_ (gets_prefix ..)
    refine List.IsPrefix.trans ?_ (works_prefix ..)
    refine List.IsPrefix.trans ?_ (asks_prefix ..)
    refine List.IsPrefix.trans ?_ (gets_prefix ..)
    refine List.IsPrefix.trans ?_ (works_prefix ..)
    refine List.IsPrefix.trans ?_ (asks_prefix ..)
    refine List.IsPrefix.trans ?_ (List.prefix_append _ _)
    refine List.IsPrefix.trans ?_ (gets_prefix ..)
    refine List.IsPrefix.trans ?_ (works_prefix ..)
    exact asks_prefix ..
  exact ⟨_, (List.prefix_iff_eq_take.1 this).symm⟩

/-- C74: the hypotheses of the theorems above hold: the seed made through the second server is found through the first, where the
    request for the same tag was refused. The theorem says what the client must have been told. -/
example (e : EntryInfo) (he : (mrun story2).result 0 3 = some (.ok (.getEntry e))) : e = .seed "a" seedA := by
  obtain ⟨ops, h, -⟩ := story2_explained
  obtain ⟨n, hn⟩ := story1_take
  have := C74_made_here_found_there (n := n) h story2_new (by rw [hn]; exact story1_made) (by rw [hn]; exact story1_notYet.2) story2_get he
  simpa using this

example (es : List EntryInfo) (he : (mrun story2).result 0 2 = some (.ok (.listEntries es))) : .seed "a" seedA ∈ es := by
  obtain ⟨ops, h, -⟩ := story2_explained
  obtain ⟨n, hn⟩ := story1_take
  have := C74_made_here_listed_there (n := n) h story2_new (by rw [hn]; exact story1_made) (by rw [hn]; exact story1_notYet.1) story2_list he
  simpa using this

end MWorldEx
end Lair
