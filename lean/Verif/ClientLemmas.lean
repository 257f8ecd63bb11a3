import Verif.Client

/- Invariants of the client's table of pending requests. -/
namespace Lair

/-- The future is still running. Proof device: nothing in the code corresponds. -/
def CReq.active (q : CReq) : Prop := q.phase = .sending ∨ q.phase = .waiting

@[simp] theorem CReq.drop_id (q : CReq) : q.drop.id = q.id := by unfold CReq.drop; split <;> rfl
@[simp] theorem CReq.drop_phase (q : CReq) : q.drop.phase = q.phase := by unfold CReq.drop; split <;> rfl
theorem CReq.drop_slot (q : CReq) : q.drop.slot ≠ .empty := by
  unfold CReq.drop; split <;> simp_all
theorem CReq.drop_full (q : CReq) (m : Msg) : q.drop.slot = .full m ↔ q.slot = .full m := by
  unfold CReq.drop; split <;> simp_all
@[simp] theorem CReq.deliver_id (q : CReq) (m : Msg) : (q.deliver m).id = q.id := by unfold CReq.deliver; split <;> rfl
@[simp] theorem CReq.deliver_phase (q : CReq) (m : Msg) : (q.deliver m).phase = q.phase := by
  unfold CReq.deliver; split <;> rfl
theorem CReq.deliver_slot (q : CReq) (m : Msg) : (q.deliver m).slot ≠ .empty := by
  unfold CReq.deliver; split <;> simp_all

theorem getElem?_dropSender (rs : List CReq) (k j : Nat) :
    (dropSender rs k)[j]? = rs[j]?.map (fun q => if k = j then q.drop else q) := by
  unfold dropSender
  rw [List.getElem?_modify]
  rfl

theorem getElem?_dropAll (ks : List Nat) (rs : List CReq) (j : Nat) :
    (ks.foldl dropSender rs)[j]? = rs[j]?.map (fun q => if j ∈ ks then q.drop else q) := by
  induction ks generalizing rs with
  | nil => simp
  | cons k ks ih =>
    rw [List.foldl_cons, ih, getElem?_dropSender, Option.map_map]
    congr 1
    funext q
    by_cases h1 : k = j
    · subst h1
      simp only [Function.comp, List.mem_cons, true_or, if_true]
      split
      · obtain ⟨id, ph, sl⟩ := q; cases sl <;> rfl
      · rfl
    · have : ¬ j = k := fun h => h1 h.symm
      simp [Function.comp, h1, this]

theorem dropAll_length (ks : List Nat) (rs : List CReq) : (ks.foldl dropSender rs).length = rs.length := by
  induction ks generalizing rs with
  | nil => rfl
  | cons k ks ih => rw [List.foldl_cons, ih]; simp [dropSender]

theorem remove_pending (s : CliSt) (id : String) : (s.remove id).pending = s.pending.erase id := by
  unfold CliSt.remove
  split
  · rename_i h; rw [AMap.erase_of_get_none _ _ h]
  · rfl

theorem remove_reqs (s : CliSt) (id : String) (j : Nat) :
    (s.remove id).reqs[j]? = s.reqs[j]?.map (fun q => if s.pending.get id = some j then q.drop else q) := by
  unfold CliSt.remove
  split
  · rename_i h; simp [h]
  · rename_i k h; simp only [getElem?_dropSender, h, Option.some.injEq]

theorem remove_ended (s : CliSt) (id : String) : (s.remove id).ended = s.ended := by
  unfold CliSt.remove; split <;> rfl

theorem remove_length (s : CliSt) (id : String) : (s.remove id).reqs.length = s.reqs.length := by
  unfold CliSt.remove; split
  · rfl
  · simp [dropSender]

theorem finish_pending (s : CliSt) (k : Nat) (id : String) (p : CPhase) :
    (s.finish k id p).pending = s.pending.erase id := by
  unfold CliSt.finish; rw [remove_pending]

theorem finish_reqs (s : CliSt) (k : Nat) (id : String) (p : CPhase) (j : Nat) :
    (s.finish k id p).reqs[j]? = s.reqs[j]?.map (fun q =>
      let q' := if k = j then { q with phase := p } else q
      if s.pending.get id = some j then q'.drop else q') := by
  unfold CliSt.finish
  rw [remove_reqs]
  simp only [List.getElem?_modify, Option.map_eq_map, Option.map_map]
  rfl

theorem finish_ended (s : CliSt) (k : Nat) (id : String) (p : CPhase) : (s.finish k id p).ended = s.ended := by
  unfold CliSt.finish; rw [remove_ended]

theorem finish_length (s : CliSt) (k : Nat) (id : String) (p : CPhase) :
    (s.finish k id p).reqs.length = s.reqs.length := by
  unfold CliSt.finish; rw [remove_length]; simp

/-- The table and the requests agree. Proof device: nothing in the code corresponds. -/
structure CInv (s : CliSt) : Prop where
  /-- a pending entry belongs to a running request of that id that has no answer yet -/
  pend : ∀ id k, s.pending.get id = some k → ∃ q, s.reqs[k]? = some q ∧ q.id = id ∧ q.active ∧ q.slot = .empty
  /-- every running request without answer has its entry -/
  wait : ∀ (k : Nat) (q : CReq), s.reqs[k]? = some q → q.active → q.slot = .empty → s.pending.get q.id = some k
  /-- an answer has the right id, and results come from answers -/
  ids : ∀ (k : Nat) (q : CReq) (m : Msg), s.reqs[k]? = some q → q.slot = .full m → m.id = q.id
  res : ∀ (k : Nat) (q : CReq) (m : Msg), s.reqs[k]? = some q → q.phase = .done (.ok m) → q.slot = .full m

theorem CInv.init : CInv .init where
  pend := by intro id k h; simp [CliSt.init, AMap.get] at h
  wait := by intro k q h; simp [CliSt.init] at h
  ids := by intro k q m h; simp [CliSt.init] at h
  res := by intro k q m h; simp [CliSt.init] at h

theorem CInv.finish {s : CliSt} (hi : CInv s) {k : Nat} {q : CReq} {p : CPhase} (hk : s.reqs[k]? = some q)
    (hp : p ≠ .sending ∧ p ≠ .waiting) (hres : ∀ m, p = .done (.ok m) → q.slot = .full m) : CInv (s.finish k q.id p) := by
  refine ⟨?_, ?_, ?_, ?_⟩
  · intro id' k' h
    rw [finish_pending] at h
    have hne : id' ≠ q.id := by rintro rfl; rw [AMap.get_erase_self] at h; simp at h
    rw [AMap.get_erase_ne _ hne] at h
    obtain ⟨q', h1, h2, h3, h4⟩ := hi.pend _ _ h
    have hkk : ¬ k = k' := by rintro rfl; rw [hk] at h1; cases h1; exact hne h2.symm
    have hg : ¬ s.pending.get q.id = some k' := by
      intro hg
      obtain ⟨q2, h5, h6, -⟩ := hi.pend _ _ hg
      rw [h1] at h5; cases h5; exact hne (h2.symm.trans h6)
    refine ⟨q', ?_, h2, h3, h4⟩
    rw [finish_reqs, h1]; simp [hkk, hg]
  · intro k' q' h ha hs
    rw [finish_reqs] at h
    cases h1 : s.reqs[k']? with
    | none => rw [h1] at h; simp at h
    | some q0 =>
      rw [h1] at h
      simp only [Option.map_some, Option.some.injEq] at h
      by_cases hkk : k = k'
      · subst hkk
        exfalso
        simp only [if_true] at h
        have : q'.phase = p := by rw [← h]; split <;> simp
        rcases ha with ha | ha <;> rw [this] at ha
        · exact hp.1 ha
        · exact hp.2 ha
      · simp only [hkk, if_false] at h
        split at h
        · exact absurd hs (by rw [← h]; exact q0.drop_slot)
        · rename_i hg
          subst h
          have h2 := hi.wait _ _ h1 ha hs
          rw [finish_pending, AMap.get_erase_ne _ (by intro he; exact hg (by rw [← he]; exact h2))]
          exact h2
  · intro k' q' m h hs
    rw [finish_reqs] at h
    cases h1 : s.reqs[k']? with
    | none => rw [h1] at h; simp at h
    | some q0 =>
      rw [h1] at h
      simp only [Option.map_some, Option.some.injEq] at h
      have h2 : q0.slot = .full m ∧ q'.id = q0.id := by
        rw [← h] at hs ⊢
        split at hs
        · rw [CReq.drop_full] at hs
          constructor
          · split at hs <;> exact hs
          · split <;> (try simp) <;> split <;> rfl
        · constructor
          · split at hs <;> exact hs
          · split <;> (try simp) <;> split <;> rfl
      rw [h2.2]; exact hi.ids _ _ _ h1 h2.1
  · intro k' q' m h hs
    rw [finish_reqs] at h
    cases h1 : s.reqs[k']? with
    | none => rw [h1] at h; simp at h
    | some q0 =>
      rw [h1] at h
      simp only [Option.map_some, Option.some.injEq] at h
      by_cases hkk : k = k'
      · subst hkk
        rw [hk] at h1; cases h1
        simp only [if_true] at h
        have : q'.phase = p := by rw [← h]; split <;> simp
        have h3 := hres m (this.symm.trans hs)
        rw [← h]
        split
        · rw [CReq.drop_full]; exact h3
        · exact h3
      · simp only [hkk, if_false] at h
        split at h
        · rw [← h, CReq.drop_full]; rw [← h] at hs; simp at hs; exact hi.res _ _ _ h1 hs
        · rw [← h]; rw [← h] at hs; exact hi.res _ _ _ h1 hs

theorem CInv.step {s : CliSt} (hi : CInv s) (e : CEv) : CInv (s.step e) := by
  cases e with
  | start id =>
    simp only [CliSt.step]
    have hlen : (s.remove id).reqs.length = s.reqs.length := remove_length s id
    refine ⟨?_, ?_, ?_, ?_⟩
    · intro id' k' h
      simp only [remove_pending, hlen] at h
      by_cases he : id' = id
      · subst he
        rw [AMap.get_insert_self] at h; cases h
        refine ⟨⟨id', .sending, .empty⟩, ?_, rfl, Or.inl rfl, rfl⟩
        simp [hlen]
      · rw [AMap.get_insert_ne _ _ he, AMap.get_erase_ne _ he] at h
        obtain ⟨q, h1, h2, h3, h4⟩ := hi.pend _ _ h
        refine ⟨q, ?_, h2, h3, h4⟩
        have hlt : k' < s.reqs.length := (List.getElem?_eq_some_iff.mp h1).1
        have hg : ¬ s.pending.get id = some k' := by
          intro hg
          obtain ⟨q2, h5, h6, -⟩ := hi.pend _ _ hg
          rw [h1] at h5; cases h5; exact he (h2.symm.trans h6)
        show ((s.remove id).reqs ++ _)[k']? = _
        rw [List.getElem?_append_left (by omega), remove_reqs, h1]
        simp [hg]
    · intro k' q' h ha hs
      simp only [remove_pending, hlen]
      have h' : ((s.remove id).reqs ++ [⟨id, .sending, .empty⟩])[k']? = some q' := h
      by_cases hlt : k' < s.reqs.length
      · rw [List.getElem?_append_left (by omega), remove_reqs] at h'
        cases h1 : s.reqs[k']? with
        | none => rw [h1] at h'; simp at h'
        | some q0 =>
          rw [h1] at h'
          simp only [Option.map_some, Option.some.injEq] at h'
          split at h'
          · exact absurd hs (by rw [← h']; exact q0.drop_slot)
          · rename_i hg
            subst h'
            have h2 := hi.wait _ _ h1 ha hs
            have hne : q0.id ≠ id := by intro he; exact hg (by rw [← he]; exact h2)
            rw [AMap.get_insert_ne _ _ hne, AMap.get_erase_ne _ hne]; exact h2
      · rw [List.getElem?_append_right (by omega), hlen] at h'
        have hk : k' = s.reqs.length := by
          have := (List.getElem?_eq_some_iff.mp h').1
          simp at this; omega
        subst hk
        simp at h'
        subst h'
        simp
    · intro k' q' m h hs
      have h' : ((s.remove id).reqs ++ [⟨id, .sending, .empty⟩])[k']? = some q' := h
      by_cases hlt : k' < s.reqs.length
      · rw [List.getElem?_append_left (by omega), remove_reqs] at h'
        cases h1 : s.reqs[k']? with
        | none => rw [h1] at h'; simp at h'
        | some q0 =>
          rw [h1] at h'
          simp only [Option.map_some, Option.some.injEq] at h'
          subst h'
          split at hs
          · rw [CReq.drop_full] at hs; split <;> simp [hi.ids _ _ _ h1 hs]
          · split <;> simp [hi.ids _ _ _ h1 hs]
      · rw [List.getElem?_append_right (by omega), hlen] at h'
        have hk : k' = s.reqs.length := by
          have := (List.getElem?_eq_some_iff.mp h').1
          simp at this; omega
        subst hk
        simp at h'
        subst h'
        simp at hs
    · intro k' q' m h hs
      have h' : ((s.remove id).reqs ++ [⟨id, .sending, .empty⟩])[k']? = some q' := h
      by_cases hlt : k' < s.reqs.length
      · rw [List.getElem?_append_left (by omega), remove_reqs] at h'
        cases h1 : s.reqs[k']? with
        | none => rw [h1] at h'; simp at h'
        | some q0 =>
          rw [h1] at h'
          simp only [Option.map_some, Option.some.injEq] at h'
          subst h'
          split at hs
          · rename_i hg
            simp only [hg, if_true, CReq.drop_full]; simp at hs; exact hi.res _ _ _ h1 hs
          · rename_i hg; simp only [hg, if_false]; exact hi.res _ _ _ h1 hs
      · rw [List.getElem?_append_right (by omega), hlen] at h'
        have hk : k' = s.reqs.length := by
          have := (List.getElem?_eq_some_iff.mp h').1
          simp at this; omega
        subst hk
        simp at h'
        subst h'
        simp at hs
  | sent k r =>
    simp only [CliSt.step]
    split
    · rename_i id sl hk
      split
      · -- waiting
        have hget : ∀ j, (s.reqs.modify k (fun q => { q with phase := .waiting }))[j]? =
            s.reqs[j]?.map (fun q => if k = j then { q with phase := .waiting } else q) := by
          intro j; rw [List.getElem?_modify]; rfl
        refine ⟨?_, ?_, ?_, ?_⟩
        · intro id' k' h
          obtain ⟨q, h1, h2, h3, h4⟩ := hi.pend _ _ h
          by_cases hkk : k = k'
          · subst hkk; exact ⟨{ q with phase := .waiting }, by simp only [hget, h1]; simp, h2, Or.inr rfl, h4⟩
          · exact ⟨q, by simp only [hget, h1]; simp [hkk], h2, h3, h4⟩
        · intro k' q' h ha hs
          simp only [hget] at h
          cases h1 : s.reqs[k']? with
          | none => rw [h1] at h; simp at h
          | some q0 =>
            rw [h1] at h
            simp only [Option.map_some, Option.some.injEq] at h
            by_cases hkk : k = k'
            · subst hkk
              rw [hk] at h1; cases h1
              simp only [if_true] at h; subst h
              exact hi.wait k ⟨id, .sending, sl⟩ hk (Or.inl rfl) hs
            · simp only [hkk, if_false] at h; subst h; exact hi.wait _ _ h1 ha hs
        · intro k' q' m h hs
          simp only [hget] at h
          cases h1 : s.reqs[k']? with
          | none => rw [h1] at h; simp at h
          | some q0 =>
            rw [h1] at h
            simp only [Option.map_some, Option.some.injEq] at h
            subst h
            split at hs <;> (split <;> simp_all [hi.ids _ _ _ h1])
        · intro k' q' m h hs
          simp only [hget] at h
          cases h1 : s.reqs[k']? with
          | none => rw [h1] at h; simp at h
          | some q0 =>
            rw [h1] at h
            simp only [Option.map_some, Option.some.injEq] at h
            subst h
            split at hs
            · simp at hs
            · rename_i hkk; simp only [hkk, if_false]; exact hi.res _ _ _ h1 hs
      · exact hi.finish hk ⟨by simp, by simp⟩ (by simp)
    · exact hi
  | arrive m =>
    simp only [CliSt.step]
    split
    · exact hi
    · split
      · exact hi
      · rename_i k hg
        have hget : ∀ j, (s.reqs.modify k (CReq.deliver m))[j]? = s.reqs[j]?.map (fun q => if k = j then q.deliver m else q) := by
          intro j; rw [List.getElem?_modify]; rfl
        obtain ⟨q, h1, h2, h3, h4⟩ := hi.pend _ _ hg
        refine ⟨?_, ?_, ?_, ?_⟩
        · intro id' k' h
          have hne : id' ≠ m.id := by rintro rfl; simp only [AMap.get_erase_self] at h; simp at h
          simp only [AMap.get_erase_ne _ hne] at h
          obtain ⟨q', g1, g2, g3, g4⟩ := hi.pend _ _ h
          have hkk : ¬ k = k' := by rintro rfl; rw [h1] at g1; cases g1; exact hne (g2.symm.trans h2)
          exact ⟨q', by simp only [hget, g1]; simp [hkk], g2, g3, g4⟩
        · intro k' q' h ha hs
          simp only [hget] at h
          cases g1 : s.reqs[k']? with
          | none => rw [g1] at h; simp at h
          | some q0 =>
            rw [g1] at h
            simp only [Option.map_some, Option.some.injEq] at h
            by_cases hkk : k = k'
            · simp only [hkk, if_true] at h; exact absurd hs (by rw [← h]; exact q0.deliver_slot m)
            · simp only [hkk, if_false] at h; subst h
              have g2 := hi.wait _ _ g1 ha hs
              have hne : q0.id ≠ m.id := by
                intro he; rw [he, hg] at g2; exact hkk (Option.some.inj g2)
              simp only [AMap.get_erase_ne _ hne]; exact g2
        · intro k' q' m' h hs
          simp only [hget] at h
          cases g1 : s.reqs[k']? with
          | none => rw [g1] at h; simp at h
          | some q0 =>
            rw [g1] at h
            simp only [Option.map_some, Option.some.injEq] at h
            by_cases hkk : k = k'
            · subst hkk; rw [h1] at g1; cases g1
              simp only [if_true] at h
              have : q.deliver m = { q with slot := .full m } := by unfold CReq.deliver; rw [h4]
              rw [this] at h; subst h
              simp at hs; subst hs; exact h2.symm
            · simp only [hkk, if_false] at h; subst h; exact hi.ids _ _ _ g1 hs
        · intro k' q' m' h hs
          simp only [hget] at h
          cases g1 : s.reqs[k']? with
          | none => rw [g1] at h; simp at h
          | some q0 =>
            rw [g1] at h
            simp only [Option.map_some, Option.some.injEq] at h
            by_cases hkk : k = k'
            · subst hkk; rw [h1] at g1; cases g1
              simp only [if_true] at h
              rw [← h, CReq.deliver_phase] at hs
              rcases h3 with h3 | h3 <;> rw [h3] at hs <;> simp at hs
            · simp only [hkk, if_false] at h; subst h; exact hi.res _ _ _ g1 hs
  | wake k =>
    simp only [CliSt.step]
    split
    · rename_i id m hk; exact hi.finish hk ⟨by simp, by simp⟩ (by intro m' h; cases h; rfl)
    · rename_i id hk; exact hi.finish hk ⟨by simp, by simp⟩ (by simp)
    · exact hi
  | timeout k =>
    simp only [CliSt.step]
    split
    · rename_i id hk; exact hi.finish hk ⟨by simp, by simp⟩ (by simp)
    · rename_i id m hk; exact hi.finish hk ⟨by simp, by simp⟩ (by intro m' h; cases h; rfl)
    · rename_i id hk; exact hi.finish hk ⟨by simp, by simp⟩ (by simp)
    · exact hi
  | cancel k =>
    simp only [CliSt.step]
    split
    · rename_i id sl hk; exact hi.finish hk ⟨by simp, by simp⟩ (by simp)
    · rename_i id sl hk; exact hi.finish hk ⟨by simp, by simp⟩ (by simp)
    · exact hi
  | connEnd =>
    simp only [CliSt.step]
    refine ⟨?_, ?_, ?_, ?_⟩
    · intro id k h; simp [AMap.get] at h
    · intro k q h ha hs
      simp only [getElem?_dropAll] at h
      cases h1 : s.reqs[k]? with
      | none => rw [h1] at h; simp at h
      | some q0 =>
        rw [h1] at h
        simp only [Option.map_some, Option.some.injEq] at h
        split at h
        · exact absurd hs (by rw [← h]; exact q0.drop_slot)
        · rename_i hn
          subst h
          have := AMap.mem_of_get (hi.wait _ _ h1 ha hs)
          exact absurd (List.mem_map.mpr ⟨_, this, rfl⟩) hn
    · intro k q m h hs
      simp only [getElem?_dropAll] at h
      cases h1 : s.reqs[k]? with
      | none => rw [h1] at h; simp at h
      | some q0 =>
        rw [h1] at h
        simp only [Option.map_some, Option.some.injEq] at h
        subst h
        split at hs
        · rw [CReq.drop_full] at hs; split <;> simp [hi.ids _ _ _ h1 hs]
        · split <;> simp [hi.ids _ _ _ h1 hs]
    · intro k q m h hs
      simp only [getElem?_dropAll] at h
      cases h1 : s.reqs[k]? with
      | none => rw [h1] at h; simp at h
      | some q0 =>
        rw [h1] at h
        simp only [Option.map_some, Option.some.injEq] at h
        subst h
        split at hs
        · rename_i hg; simp only [hg, if_true, CReq.drop_full]; simp at hs; exact hi.res _ _ _ h1 hs
        · rename_i hg; simp only [hg, if_false]; exact hi.res _ _ _ h1 hs

theorem CInv.run (evs : List CEv) {s : CliSt} (hi : CInv s) : CInv (s.run evs) := by
  induction evs generalizing s with
  | nil => exact hi
  | cons e es ih => exact ih (hi.step e)

theorem CliSt.run_append (s : CliSt) (a b : List CEv) : s.run (a ++ b) = (s.run a).run b := by
  simp [CliSt.run]

/-! ### One event, seen from one request -/

/-- The ids of the requests made, in order. Specification: nothing in the code corresponds. -/
def starts (evs : List CEv) : List String := evs.filterMap (fun e => match e with
  | .start id => some id
  | _ => none)

theorem starts_append (a b : List CEv) : starts (a ++ b) = starts a ++ starts b := by simp [starts]

theorem finish_ids (s : CliSt) (k : Nat) (id : String) (p : CPhase) :
    (s.finish k id p).reqs.map CReq.id = s.reqs.map CReq.id := by
  apply List.ext_getElem?
  intro j
  simp only [List.getElem?_map, finish_reqs, Option.map_map]
  congr 1
  funext q
  simp only [Function.comp]
  split <;> (try simp) <;> split <;> rfl

theorem step_ids (s : CliSt) (e : CEv) : (s.step e).reqs.map CReq.id = s.reqs.map CReq.id ++ starts [e] := by
  have hmod : ∀ (f : CReq → CReq) k, (∀ q, (f q).id = q.id) → (s.reqs.modify k f).map CReq.id = s.reqs.map CReq.id := by
    intro f k hf
    apply List.ext_getElem?
    intro j
    simp only [List.getElem?_map, List.getElem?_modify, Option.map_eq_map, Option.map_map]
    congr 1
    funext q
    simp only [Function.comp]
    split <;> simp [hf]
  cases e with
  | start id =>
    have : (s.remove id).reqs.map CReq.id = s.reqs.map CReq.id := by
      apply List.ext_getElem?
      intro j
      simp only [List.getElem?_map, remove_reqs, Option.map_map]
      congr 1
      funext q
      simp only [Function.comp]
      split <;> simp
    simp [CliSt.step, starts, this]
  | sent k r =>
    simp only [CliSt.step, starts, List.filterMap_cons, List.filterMap_nil, List.append_nil]
    split
    · split
      · exact hmod _ k (fun _ => rfl)
      · exact finish_ids ..
    · rfl
  | arrive m =>
    simp only [CliSt.step, starts, List.filterMap_cons, List.filterMap_nil, List.append_nil]
    split
    · rfl
    · split
      · rfl
      · exact hmod _ _ (fun q => q.deliver_id m)
  | wake k =>
    simp only [CliSt.step, starts, List.filterMap_cons, List.filterMap_nil, List.append_nil]
    split <;> first | exact finish_ids .. | rfl
  | timeout k =>
    simp only [CliSt.step, starts, List.filterMap_cons, List.filterMap_nil, List.append_nil]
    split <;> first | exact finish_ids .. | rfl
  | cancel k =>
    simp only [CliSt.step, starts, List.filterMap_cons, List.filterMap_nil, List.append_nil]
    split <;> first | exact finish_ids .. | rfl
  | connEnd =>
    simp only [CliSt.step, starts, List.filterMap_cons, List.filterMap_nil, List.append_nil]
    apply List.ext_getElem?
    intro j
    simp only [List.getElem?_map, getElem?_dropAll, Option.map_map]
    congr 1
    funext q
    simp only [Function.comp]
    split <;> simp

theorem run_ids (evs : List CEv) (s : CliSt) : (s.run evs).reqs.map CReq.id = s.reqs.map CReq.id ++ starts evs := by
  induction evs generalizing s with
  | nil => simp [CliSt.run, starts]
  | cons e es ih =>
    have : s.run (e :: es) = (s.step e).run es := rfl
    rw [this, ih, step_ids, List.append_assoc, ← starts_append]; rfl

/-- How one event can change a request that exists. Proof device: nothing in the code corresponds. -/
inductive Change (s : CliSt) (e : CEv) (k : Nat) (q : CReq) : CReq → Prop where
  | same : Change s e k q q
  | dropped : q.slot = .empty →
      (e = .connEnd ∨ e = .start q.id ∨ ∃ j q', j ≠ k ∧ s.reqs[j]? = some q' ∧ q'.id = q.id) →
      Change s e k q { q with slot := .dropped }
  | sent : q.phase = .sending → e = .sent k (.ok ()) → Change s e k q { q with phase := .waiting }
  | got (m : Msg) : e = .arrive m → s.pending.get m.id = some k → q.slot = .empty → Change s e k q { q with slot := .full m }
  | ended (p : CPhase) (sl : Slot) : q.active → p ≠ .sending → p ≠ .waiting →
      (∀ m, p = .done (.ok m) → q.slot = .full m) → (p = .done (.error "ConnectionAborted") → e = .sent k (.error "ConnectionAborted") ∨ q.slot = .dropped) →
      (p = .cancelled → e = .cancel k) → (q.phase = .waiting → p = .done (.error "TimedOut") → q.slot = .empty) → 
      (q.phase = .waiting → e ≠ .cancel k → q.slot = .dropped → p = .done (.error "ConnectionAborted")) →
      (q.phase = .waiting → e ≠ .cancel k → ∀ m, q.slot = .full m → p = .done (.ok m)) →
      (sl = q.slot ∨ q.slot = .empty ∧ sl = .dropped) → Change s e k q { q with phase := p, slot := sl }

theorem CReq.drop_cases (q : CReq) : q.drop = q ∨ q.slot = .empty ∧ q.drop = { q with slot := .dropped } := by
  obtain ⟨id, ph, sl⟩ := q
  cases sl
  · exact Or.inr ⟨rfl, rfl⟩
  · exact Or.inl rfl
  · exact Or.inl rfl

theorem change_finish {s : CliSt} (hi : CInv s) {e : CEv} {k k' : Nat} {q q' : CReq} {p : CPhase}
    (hk : s.reqs[k]? = some q) (hk' : s.reqs[k']? = some q')
    (hc : ∀ sl, (sl = q.slot ∨ q.slot = .empty ∧ sl = .dropped) → Change s e k q { q with phase := p, slot := sl }) :
    ∃ q₂, (s.finish k q.id p).reqs[k']? = some q₂ ∧ Change s e k' q' q₂ := by
  rw [finish_reqs, hk']
  refine ⟨_, rfl, ?_⟩
  by_cases hkk : k = k'
  · subst hkk
    rw [hk] at hk'; cases hk'
    simp only [if_true]
    split
    · rcases ({ q with phase := p } : CReq).drop_cases with h | ⟨h1, h⟩
      · rw [h]; exact hc q.slot (Or.inl rfl)
      · rw [h]; exact hc .dropped (Or.inr ⟨h1, rfl⟩)
    · exact hc q.slot (Or.inl rfl)
  · simp only [hkk, if_false]
    split
    · rename_i hg
      rcases q'.drop_cases with h | ⟨h1, h⟩
      · rw [h]; exact .same
      · rw [h]
        obtain ⟨q2, h5, h6, -⟩ := hi.pend _ _ hg
        rw [hk'] at h5; cases h5
        exact .dropped h1 (Or.inr (Or.inr ⟨k, q, hkk, hk, h6.symm⟩))
    · exact .same

theorem step_change {s : CliSt} (hi : CInv s) (e : CEv) {k : Nat} {q : CReq} (hk : s.reqs[k]? = some q) :
    ∃ q', (s.step e).reqs[k]? = some q' ∧ Change s e k q q' := by
  cases e with
  | start id =>
    have hlt : k < s.reqs.length := (List.getElem?_eq_some_iff.mp hk).1
    show ∃ q', ((s.remove id).reqs ++ _)[k]? = some q' ∧ _
    rw [List.getElem?_append_left (by rw [remove_length]; exact hlt), remove_reqs, hk]
    refine ⟨_, rfl, ?_⟩
    split
    · rename_i hg
      rcases q.drop_cases with h | ⟨h1, h⟩
      · dsimp only; rw [h]; exact .same
      · dsimp only; rw [h]
        obtain ⟨q2, h5, h6, -⟩ := hi.pend _ _ hg
        rw [hk] at h5; cases h5
        exact .dropped h1 (Or.inr (Or.inl (by rw [h6])))
    · exact .same
  | sent j r =>
    simp only [CliSt.step]
    split
    · rename_i id sl hj
      split
      · rw [List.getElem?_modify, hk]
        refine ⟨_, rfl, ?_⟩
        dsimp only
        by_cases hjk : j = k
        · subst hjk; rw [hj] at hk; cases hk; simp only [if_true]; exact .sent rfl rfl
        · simp only [hjk, if_false]; exact .same
      · rename_i e
        refine change_finish hi hj hk (fun sl' hsl => ?_)
        refine .ended _ _ (Or.inl rfl) (by simp) (by simp) (by simp) ?_ (by simp) (by simp) (by simp) (by simp) hsl
        intro h; cases h; exact Or.inl rfl
    · exact ⟨q, hk, .same⟩
  | arrive m =>
    simp only [CliSt.step]
    split
    · exact ⟨q, hk, .same⟩
    · split
      · exact ⟨q, hk, .same⟩
      · rename_i hg
        rw [List.getElem?_modify, hk]
        refine ⟨_, rfl, ?_⟩
        dsimp only
        split
        · rename_i hkk
          subst hkk
          obtain ⟨id, ph, sl⟩ := q
          cases sl with
          | empty => exact .got m rfl hg rfl
          | full _ => exact .same
          | dropped => exact .same
        · exact .same
  | wake j =>
    simp only [CliSt.step]
    split
    · rename_i id m hj
      refine change_finish hi hj hk (fun sl' hsl => ?_)
      exact .ended _ _ (Or.inr rfl) (by simp) (by simp) (by simp) (by simp) (by simp) (by simp) (by simp) (by simp) hsl
    · rename_i id hj
      refine change_finish hi hj hk (fun sl' hsl => ?_)
      exact .ended _ _ (Or.inr rfl) (by simp) (by simp) (by simp) (by simp) (by simp) (by simp) (by simp) (by simp) hsl
    · exact ⟨q, hk, .same⟩
  | timeout j =>
    simp only [CliSt.step]
    split
    · rename_i id hj
      refine change_finish hi hj hk (fun sl' hsl => ?_)
      exact .ended _ _ (Or.inr rfl) (by simp) (by simp) (by simp) (by simp) (by simp) (by simp) (by simp) (by simp) hsl
    · rename_i id m hj
      refine change_finish hi hj hk (fun sl' hsl => ?_)
      exact .ended _ _ (Or.inr rfl) (by simp) (by simp) (by simp) (by simp) (by simp) (by simp) (by simp) (by simp) hsl
    · rename_i id hj
      refine change_finish hi hj hk (fun sl' hsl => ?_)
      exact .ended _ _ (Or.inr rfl) (by simp) (by simp) (by simp) (by simp) (by simp) (by simp) (by simp) (by simp) hsl
    · exact ⟨q, hk, .same⟩
  | cancel j =>
    simp only [CliSt.step]
    split
    · rename_i id sl hj
      refine change_finish hi hj hk (fun sl' hsl => ?_)
      exact .ended _ _ (Or.inl rfl) (by simp) (by simp) (by simp) (by simp) (by simp) (by simp) (by simp) (by simp) hsl
    · rename_i id sl hj
      refine change_finish hi hj hk (fun sl' hsl => ?_)
      exact .ended _ _ (Or.inr rfl) (by simp) (by simp) (by simp) (by simp) (by simp) (by simp) (by simp) (by simp) hsl
    · exact ⟨q, hk, .same⟩
  | connEnd =>
    simp only [CliSt.step, getElem?_dropAll, hk]
    refine ⟨_, rfl, ?_⟩
    split
    · rename_i hm
      rcases q.drop_cases with h | ⟨h1, h⟩
      · dsimp only; rw [h]; exact .same
      · dsimp only; rw [h]; exact .dropped h1 (Or.inl rfl)
    · exact .same

end Lair
