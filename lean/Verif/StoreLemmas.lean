import Verif.StoreSpec

/- Helper lemmas: an implementation satisfying `Refines` runs every history as the table does. -/

namespace Lair

theorem SameObs.symm {a b : StoreObs} (h : SameObs a b) : SameObs b a := by
  cases a <;> cases b <;> simp [SameObs] at h ⊢
  · exact h.symm
  · exact h.symm
  · rename_i x y
    cases x <;> cases y <;> simp at h ⊢
    exact h.symm

theorem SameObs.trans {a b c : StoreObs} (h : SameObs a b) (h2 : SameObs b c) : SameObs a c := by
  cases a <;> cases b <;> cases c <;> simp [SameObs] at h h2 ⊢
  · exact h.trans h2
  · exact h.trans h2
  · rename_i x y z
    cases x <;> cases y <;> cases z <;> simp at h h2 ⊢
    exact h.trans h2

theorem SameObsList.symm {a b : List StoreObs} (h : SameObsList a b) : SameObsList b a := by
  induction h with
  | nil => exact .nil
  | cons h _ ih => exact .cons h.symm ih

theorem SameObsList.trans {a b c : List StoreObs} (h : SameObsList a b) (h2 : SameObsList b c) : SameObsList a c := by
  induction h generalizing c with
  | nil => cases h2; exact .nil
  | cons h _ ih => cases h2 with
    | cons h' t' => exact .cons (h.trans h') (ih t')

theorem find_eq_of_iff {t : List Entry} (p : Entry → Bool) (r : Res Entry)
    (h : ∀ e, r = .ok e ↔ e ∈ t ∧ p e = true) : r.opt = t.find? p := by
  cases hf : t.find? p with
  | none =>
    rw [List.find?_eq_none] at hf
    cases hr : r with
    | error m => rfl
    | ok e =>
      have := (h e).1 hr
      exact absurd this.2 (hf e this.1)
  | some e =>
    have hm := List.mem_of_find?_eq_some hf
    have hp := List.find?_some hf
    have := (h e).2 ⟨hm, hp⟩
    rw [this]; rfl

/-- Invariant carried along a history. Proof device: nothing in the code corresponds. -/
def RunInv {σ : Type} (ok : σ → Prop) (tbl : σ → List Entry) (s : σ) : Prop := ok s ∧ Distinct (tbl s)

theorem refines_step {σ : Type} {I : StoreImpl σ} {fits : Entry → Bool} {ok : σ → Prop} {tbl : σ → List Entry} (R : Refines I fits ok tbl)
    (s : σ) (h : RunInv ok tbl s) (op : StoreOp) :
    SameObs (I.step s op).1 (tableStep fits (tbl s) op).1 ∧ tbl (I.step s op).2 = (tableStep fits (tbl s) op).2 ∧
      RunInv ok tbl (I.step s op).2 := by
  obtain ⟨hok, hd⟩ := h
  cases op with
  | write e =>
    by_cases hc : fits e = false ∨ ∃ e' ∈ tbl s, Clash e' e
    · obtain ⟨⟨m, hm⟩, hs⟩ := R.write_clash s e hok hc
      simp only [StoreImpl.step, tableStep, if_pos hc, hm, hs]
      exact ⟨rfl, trivial, hok, hd⟩
    · have hn : ∀ e' ∈ tbl s, ¬ Clash e' e := fun e' he' hcl => hc (Or.inr ⟨e', he', hcl⟩)
      obtain ⟨h1, h2, h3⟩ := R.write_new s e hok (by
        cases hf : fits e with
        | true => rfl
        | false => exact absurd (Or.inl hf) hc) hn
      simp only [StoreImpl.step, tableStep, if_neg hc, h1]
      refine ⟨rfl, h3, h2, ?_⟩
      rw [h3]; exact hd.append_one hn
  | byTag t =>
    refine ⟨?_, rfl, hok, hd⟩
    simp only [StoreImpl.step, tableStep, SameObs]
    apply find_eq_of_iff
    intro e; simpa using R.byTag_iff s t e hok
  | byEd k =>
    refine ⟨?_, rfl, hok, hd⟩
    simp only [StoreImpl.step, tableStep, SameObs]
    apply find_eq_of_iff
    intro e; simpa using R.byEd_iff s k e hok
  | byX k =>
    refine ⟨?_, rfl, hok, hd⟩
    simp only [StoreImpl.step, tableStep, SameObs]
    apply find_eq_of_iff
    intro e; simpa using R.byX_iff s k e hok
  | list =>
    obtain ⟨l, h1, h2⟩ := R.list_perm s hok
    refine ⟨?_, rfl, hok, hd⟩
    simp only [StoreImpl.step, tableStep, h1]
    exact h2

theorem refines_run {σ : Type} {I : StoreImpl σ} {fits : Entry → Bool} {ok : σ → Prop} {tbl : σ → List Entry} (R : Refines I fits ok tbl)
    (s : σ) (h : RunInv ok tbl s) (ops : List StoreOp) :
    SameObsList (I.run s ops).1 (tableRun fits (tbl s) ops).1 ∧ tbl (I.run s ops).2 = (tableRun fits (tbl s) ops).2 ∧
      RunInv ok tbl (I.run s ops).2 := by
  induction ops generalizing s with
  | nil => exact ⟨.nil, rfl, h⟩
  | cons op ops ih =>
    obtain ⟨h1, h2, h3⟩ := refines_step R s h op
    obtain ⟨i1, i2, i3⟩ := ih _ h3
    simp only [StoreImpl.run, tableRun]
    rw [← h2]
    exact ⟨.cons h1 i1, i2, i3⟩

theorem refines_init {σ : Type} {I : StoreImpl σ} {fits : Entry → Bool} {ok : σ → Prop} {tbl : σ → List Entry} (R : Refines I fits ok tbl) :
    RunInv ok tbl I.empty := ⟨R.empty_ok, by rw [R.empty_tbl]; exact List.Pairwise.nil⟩

end Lair
