import Verif.FallbackGens

/- Invariants of the fallback over the life of the server. -/
namespace Lair

theorem rOpen_step (s : FbSt) (e : FbEv) (h : s.rOpen = false) : (s.step e).rOpen = false := by
  cases e <;> simp only [FbSt.step] <;> (repeat' split) <;> simp_all [FbSt.wExit, FbSt.rExit, FbSt.rBreak, FbSt.answer]

theorem wOpen_step (s : FbSt) (e : FbEv) (h : s.wOpen = false) : (s.step e).wOpen = false := by
  cases e <;> simp only [FbSt.step] <;> (repeat' split) <;> simp_all [FbSt.wExit, FbSt.rExit, FbSt.rBreak, FbSt.answer]

theorem running_step (s : FbSt) (e : FbEv) (he : e ≠ .drain) : (s.step e).running = s.running := by
  cases e <;> simp only [FbSt.step] <;> (repeat' split) <;> simp_all [FbSt.wExit, FbSt.rExit, FbSt.rBreak, FbSt.answer]

/-- Good flags. Proof device: nothing in the code corresponds. -/
def FbGen.Fine (x : FbGen) : Prop :=
  x.st = FbSt.init.run x.evs ∧ (x.rLeft = true → x.st.rOpen = false) ∧ (x.wLeft = true → x.st.wOpen = false) ∧
  (x.st.running = false → x.rLeft = true)

/-- One sub-process later: its requests are still there. Proof device: nothing in the code corresponds. -/
structure FbGen.Later (x y : FbGen) : Prop where
  fine : x.Fine → y.Fine
  proc : y.proc = .running → x.proc = .running
  reqs : x.Fine → ∀ (k : Nat) (r : FbReq), x.st.reqs[k]? = some r → ∃ r' : FbReq, y.st.reqs[k]? = some r' ∧ r'.triple = r.triple

theorem FbGen.Later.refl (x : FbGen) : x.Later x := ⟨id, id, fun _ k r h => ⟨r, h, rfl⟩⟩

theorem FbGen.Later.trans {x y z : FbGen} (h : x.Later y) (h' : y.Later z) : x.Later z :=
  ⟨fun f => h'.fine (h.fine f), fun p => h.proc (h'.proc p), fun f k r hr => by
    obtain ⟨r', h1, h2⟩ := h.reqs f k r hr
    obtain ⟨r'', h3, h4⟩ := h'.reqs (h.fine f) k r' h1
    exact ⟨r'', h3, h4.trans h2⟩⟩

theorem later_step (x : FbGen) (e : FbEv) (he : e = .drain → x.rLeft = true) : x.Later (x.step e) := by
  refine ⟨?_, id, ?_⟩
  · rintro ⟨h1, h2, h3, h4⟩
    refine ⟨?_, fun h => rOpen_step _ _ (h2 h), fun h => wOpen_step _ _ (h3 h), ?_⟩
    · show x.st.step e = FbSt.init.run (x.evs ++ [e])
      rw [FbSt.run_append, ← h1]; rfl
    · intro h
      by_cases hd : e = .drain
      · exact he hd
      · refine h4 ?_
        rw [← running_step x.st e hd]; exact h
  · intro hf k r hr
    obtain ⟨r', h1, h2, h3, h4, -⟩ := step_next (by rw [hf.1]; exact FInv.init.run _) e hr
    exact ⟨r', h1, by simp [FbReq.triple, h2, h3, h4]⟩

theorem later_kill (x : FbGen) : x.Later x.kill := by
  refine ⟨id, ?_, fun _ k r h => ⟨r, h, rfl⟩⟩
  simp only [FbGen.kill]
  split
  · intro h; cases h
  · exact id

theorem kill_proc (x : FbGen) : x.kill.proc ≠ .running := by
  simp only [FbGen.kill]
  split
  · simp
  · assumption

/-- The invariant. Proof device: nothing in the code corresponds. -/
structure GInv (s : FbAll) : Prop where
  fine : ∀ (g : Nat) (x : FbGen), s.gens[g]? = some x → x.Fine
  run : ∀ (g : Nat) (x : FbGen), s.gens[g]? = some x → x.proc = .running → s.cur = some g
  cur : ∀ g, s.cur = some g → ∃ x, s.gens[g]? = some x ∧ x.rLeft = false ∧ x.wLeft = false
  has : ∀ (c : Nat) (x : FbCall) (g : Nat), s.calls[c]? = some x → x.phase = .has g → g < s.gens.length
  given : ∀ (c : Nat) (x : FbCall) (g k : Nat), s.calls[c]? = some x → x.phase = .given g k →
    ∃ (y : FbGen) (r : FbReq), s.gens[g]? = some y ∧ y.st.reqs[k]? = some r ∧ r.triple = (x.msgId, x.pk, x.data)
  inj : ∀ (c c' : Nat) (x x' : FbCall) (g k : Nat), s.calls[c]? = some x → s.calls[c']? = some x' → x.phase = .given g k →
    x'.phase = .given g k → c = c'

theorem GInv.init : GInv .init := by constructor <;> simp [FbAll.init]

theorem fresh_fine : FbGen.fresh.Fine := ⟨rfl, by simp [FbGen.fresh], by simp [FbGen.fresh], by simp [FbGen.fresh, FbSt.init]⟩

/-- Only sub-processes change. -/
theorem GInv.gens {s : FbAll} (hi : GInv s) {gens' : List FbGen} (hlen : s.gens.length = gens'.length)
    (hl : ∀ (g : Nat) (x : FbGen), s.gens[g]? = some x → ∃ y, gens'[g]? = some y ∧ x.Later y ∧ y.rLeft = x.rLeft ∧ y.wLeft = x.wLeft) :
    GInv { s with gens := gens' } := by
  have back : ∀ (g : Nat) (y : FbGen), gens'[g]? = some y → ∃ x, s.gens[g]? = some x ∧ x.Later y ∧ y.rLeft = x.rLeft ∧ y.wLeft = x.wLeft := by
    intro g y hy
    have hg : g < s.gens.length := by rw [hlen]; exact (List.getElem?_eq_some_iff.mp hy).1
    obtain ⟨y', h1, h2⟩ := hl g _ (List.getElem?_eq_getElem hg)
    rw [hy] at h1; cases h1
    exact ⟨_, List.getElem?_eq_getElem hg, h2⟩
  refine ⟨?_, ?_, ?_, ?_, ?_, hi.inj⟩
  · intro g y hy
    obtain ⟨x, hx, h, -⟩ := back g y hy
    exact h.fine (hi.fine g x hx)
  · intro g y hy hr
    obtain ⟨x, hx, h, -⟩ := back g y hy
    exact hi.run g x hx (h.proc hr)
  · intro g hg
    obtain ⟨x, hx, h1, h2⟩ := hi.cur g hg
    obtain ⟨y, hy, -, h3, h4⟩ := hl g x hx
    exact ⟨y, hy, h3.trans h1, h4.trans h2⟩
  · intro c x g hc hp
    have := hi.has c x g hc hp
    show g < gens'.length
    omega
  · intro c x g k hc hp
    obtain ⟨y, r, h1, h2, h3⟩ := hi.given c x g k hc hp
    obtain ⟨y', h4, h5, -⟩ := hl g y h1
    obtain ⟨r', h6, h7⟩ := h5.reqs (hi.fine g y h1) k r h2
    exact ⟨y', r', h4, h6, h7.trans h3⟩

theorem GInv.modify {s : FbAll} (hi : GInv s) (g : Nat) (f : FbGen → FbGen)
    (hf : ∀ x, s.gens[g]? = some x → x.Later (f x) ∧ (f x).rLeft = x.rLeft ∧ (f x).wLeft = x.wLeft) :
    GInv { s with gens := s.gens.modify g f } := by
  refine hi.gens (by simp) ?_
  intro g' x hx
  rw [List.getElem?_modify, hx]
  by_cases h : g = g'
  · subst h
    exact ⟨f x, by simp, hf x hx⟩
  · exact ⟨x, by simp [h], FbGen.Later.refl x, rfl, rfl⟩

theorem setPhase_get (s : FbAll) (c c' : Nat) (p : FbPhase) :
    (s.setPhase c p).calls[c']? = s.calls[c']?.map (fun x => if c = c' then { x with phase := p } else x) := by
  unfold FbAll.setPhase; rw [List.getElem?_modify]; rfl

/-- A call goes to another phase. -/
theorem GInv.phase {s : FbAll} (hi : GInv s) (c : Nat) (p : FbPhase) (hh : ∀ g, p = .has g → g < s.gens.length)
    (hg : ∀ (g k : Nat) (x : FbCall), p = .given g k → s.calls[c]? = some x →
      (∃ (y : FbGen) (r : FbReq), s.gens[g]? = some y ∧ y.st.reqs[k]? = some r ∧ r.triple = (x.msgId, x.pk, x.data)) ∧
      ∀ (c' : Nat) (x' : FbCall), s.calls[c']? = some x' → x'.phase ≠ .given g k) :
    GInv (s.setPhase c p) := by
  have back : ∀ (c' : Nat) (x : FbCall), (s.setPhase c p).calls[c']? = some x →
      ∃ x₀, s.calls[c']? = some x₀ ∧ x.msgId = x₀.msgId ∧ x.pk = x₀.pk ∧ x.data = x₀.data ∧
        (x.phase = x₀.phase ∨ c = c' ∧ x.phase = p) := by
    intro c' x h
    rw [setPhase_get, Option.map_eq_some_iff] at h
    obtain ⟨x₀, h1, h2⟩ := h
    refine ⟨x₀, h1, ?_⟩
    split at h2
    · rename_i hc
      subst h2; exact ⟨rfl, rfl, rfl, Or.inr ⟨hc, rfl⟩⟩
    · subst h2; exact ⟨rfl, rfl, rfl, Or.inl rfl⟩
  refine ⟨hi.fine, hi.run, hi.cur, ?_, ?_, ?_⟩
  · intro c' x g h hp
    obtain ⟨x₀, h1, -, -, -, h2 | ⟨-, h2⟩⟩ := back c' x h
    · exact hi.has c' x₀ g h1 (h2 ▸ hp)
    · exact hh g (h2 ▸ hp)
  · intro c' x g k h hp
    obtain ⟨x₀, h1, a1, a2, a3, h2 | ⟨rfl, h2⟩⟩ := back c' x h
    · rw [a1, a2, a3]
      exact hi.given c' x₀ g k h1 (h2 ▸ hp)
    · rw [a1, a2, a3]
      exact (hg g k x₀ (h2 ▸ hp) h1).1
  · intro c₁ c₂ x₁ x₂ g k h1 h2 p1 p2
    obtain ⟨y₁, b1, -, -, -, e1⟩ := back c₁ x₁ h1
    obtain ⟨y₂, b2, -, -, -, e2⟩ := back c₂ x₂ h2
    rcases e1 with e1 | ⟨f1, e1⟩
    · rcases e2 with e2 | ⟨f2, e2⟩
      · exact hi.inj c₁ c₂ y₁ y₂ g k b1 b2 (e1 ▸ p1) (e2 ▸ p2)
      · subst f2
        exact absurd (e1 ▸ p1) ((hg g k y₂ (e2 ▸ p2) b2).2 c₁ y₁ b1)
    · rcases e2 with e2 | ⟨f2, e2⟩
      · subst f1
        exact absurd (e2 ▸ p2) ((hg g k y₁ (e1 ▸ p1) b1).2 c₂ y₂ b2)
      · rw [← f1, ← f2]

theorem GInv.leave {s : FbAll} (hi : GInv s) (g : Nat) : GInv (s.leave g) ∧ (s.leave g).cur ≠ some g ∧
    ∀ x, s.gens[g]? = some x → ∃ y, (s.leave g).gens[g]? = some y ∧ y.st = x.st ∧ y.rLeft = x.rLeft ∧ y.wLeft = x.wLeft := by
  unfold FbAll.leave
  split
  · rename_i hc
    refine ⟨?_, by simp, fun x hx => ⟨x.kill, by simp [List.getElem?_modify, hx], rfl, rfl, rfl⟩⟩
    have h1 := hi.modify g FbGen.kill (fun x _ => ⟨later_kill x, rfl, rfl⟩)
    refine ⟨h1.fine, ?_, ?_, h1.has, h1.given, h1.inj⟩
    · intro g' x hx hr
      have h2 := h1.run g' x hx hr
      change s.cur = some g' at h2
      rw [hc] at h2
      cases h2
      have hx' : (s.gens.modify g FbGen.kill)[g]? = some x := hx
      rw [List.getElem?_modify] at hx'
      simp only [if_true] at hx'
      obtain ⟨y, -, hy⟩ := Option.map_eq_some_iff.mp hx'
      rw [← hy] at hr
      exact absurd hr (kill_proc y)
    · intro g' h; cases h
  · rename_i hc
    exact ⟨hi, hc, fun x hx => ⟨x, hx, rfl, rfl, rfl⟩⟩

/-- A loop has left `inner` and says so. -/
theorem GInv.setLeft {s : FbAll} (hi : GInv s) (g : Nat) (hc : s.cur ≠ some g) (f : FbGen → FbGen)
    (hf : ∀ x, s.gens[g]? = some x → x.Later (f x)) : GInv { s with gens := s.gens.modify g f } := by
  have hget : ∀ g' : Nat, (s.gens.modify g f)[g']? = s.gens[g']?.map (fun x => if g = g' then f x else x) := by
    intro g'; rw [List.getElem?_modify]
    by_cases h : g = g' <;> simp [h]
  have back : ∀ (g' : Nat) (y : FbGen), (s.gens.modify g f)[g']? = some y → ∃ x, s.gens[g']? = some x ∧ x.Later y := by
    intro g' y hy
    rw [hget, Option.map_eq_some_iff] at hy
    obtain ⟨x, h1, h2⟩ := hy
    refine ⟨x, h1, ?_⟩
    split at h2
    · rename_i h; subst h; subst h2; exact hf x h1
    · subst h2; exact FbGen.Later.refl _
  refine ⟨?_, ?_, ?_, ?_, ?_, hi.inj⟩
  · intro g' y hy
    obtain ⟨x, h1, h2⟩ := back g' y hy
    exact h2.fine (hi.fine g' x h1)
  · intro g' y hy hr
    obtain ⟨x, h1, h2⟩ := back g' y hy
    exact hi.run g' x h1 (h2.proc hr)
  · intro g' h
    obtain ⟨x, hx, h1, h2⟩ := hi.cur g' h
    have hne : ¬ g = g' := by rintro rfl; exact hc h
    exact ⟨x, by show (s.gens.modify g f)[g']? = _; rw [hget, hx]; simp [hne], h1, h2⟩
  · intro c x g' h hp
    have := hi.has c x g' h hp
    show g' < (s.gens.modify g f).length
    simpa using this
  · intro c x g' k h hp
    obtain ⟨y, r, h1, h2, h3⟩ := hi.given c x g' k h hp
    by_cases hg : g = g'
    · subst hg
      obtain ⟨r', h4, h5⟩ := (hf y h1).reqs (hi.fine g y h1) k r h2
      exact ⟨f y, r', by show (s.gens.modify g f)[g]? = _; rw [hget, h1]; simp, h4, h5.trans h3⟩
    · exact ⟨y, r, by show (s.gens.modify g f)[g']? = _; rw [hget, h1]; simp [hg], h2, h3⟩

theorem GInv.spawn {s : FbAll} (hi : GInv s) (hno : ∀ (g : Nat) (x : FbGen), s.gens[g]? = some x → x.proc ≠ .running) :
    GInv { s with gens := s.gens ++ [FbGen.fresh], cur := some s.gens.length } := by
  have hget : ∀ (g : Nat) (x : FbGen), (s.gens ++ [FbGen.fresh])[g]? = some x → s.gens[g]? = some x ∨ (g = s.gens.length ∧ x = .fresh) := by
    intro g x h
    rw [List.getElem?_append] at h
    split at h
    · exact Or.inl h
    · rename_i hlt
      right
      cases hj : g - s.gens.length with
      | zero => rw [hj] at h; simp at h; exact ⟨by omega, h.symm⟩
      | succ n => rw [hj] at h; simp at h
  refine ⟨?_, ?_, ?_, ?_, ?_, hi.inj⟩
  · intro g x h
    rcases hget g x h with h | ⟨-, rfl⟩
    · exact hi.fine g x h
    · exact fresh_fine
  · intro g x h hr
    rcases hget g x h with h | ⟨rfl, -⟩
    · exact absurd hr (hno g x h)
    · rfl
  · intro g h
    simp only [Option.some.injEq] at h
    subst h
    exact ⟨.fresh, by simp, rfl, rfl⟩
  · intro c x g h hp
    have := hi.has c x g h hp
    simp; omega
  · intro c x g k h hp
    obtain ⟨y, r, h1, h2⟩ := hi.given c x g k h hp
    exact ⟨y, r, by rw [List.getElem?_append_left (List.getElem?_eq_some_iff.mp h1).1]; exact h1, h2⟩

theorem dropCur_len (s : FbAll) : s.dropCur.gens.length = s.gens.length := by unfold FbAll.dropCur; split <;> simp

theorem dropCur_calls (s : FbAll) : s.dropCur.calls = s.calls := by unfold FbAll.dropCur; split <;> rfl

theorem GInv.step {s : FbAll} (hi : GInv s) (e : GEv) : GInv (s.step e) := by
  cases e with
  | call id pk data =>
    have back : ∀ (c : Nat) (x : FbCall), (s.calls ++ [⟨id, pk, data, .asked, false⟩])[c]? = some x → s.calls[c]? = some x ∨ x.phase = .asked := by
      intro c x h
      rw [List.getElem?_append] at h
      split at h
      · exact Or.inl h
      · right
        cases hj : c - s.calls.length with
        | zero => rw [hj] at h; simp at h; rw [← h]
        | succ n => rw [hj] at h; simp at h
    refine ⟨hi.fine, hi.run, hi.cur, ?_, ?_, ?_⟩
    · intro c x g h hp
      rcases back c x h with h | h
      · exact hi.has c x g h hp
      · rw [h] at hp; cases hp
    · intro c x g k h hp
      rcases back c x h with h | h
      · exact hi.given c x g k h hp
      · rw [h] at hp; cases hp
    · intro c c' x x' g k h h' hp hp'
      rcases back c x h with h | h
      · rcases back c' x' h' with h' | h'
        · exact hi.inj c c' x x' g k h h' hp hp'
        · rw [h'] at hp'; cases hp'
      · rw [h] at hp; cases hp
  | get c pf fail =>
    simp only [FbAll.step]
    split
    · split
      · rename_i g hu
        refine hi.phase c _ ?_ ?_
        · intro g' h
          cases h
          unfold FbAll.usable at hu
          split at hu
          · cases hu
          · split at hu
            · cases hu
            · rename_i hx
              split at hu
              · cases hu; exact (List.getElem?_eq_some_iff.mp hx).1
              · cases hu
        · intro g k x h; cases h
      · split
        · exact hi.phase c _ (by intro g h; cases h) (by intro g k x h; cases h)
        · -- a new process; the previous one is over
          have h1 : GInv s.dropCur ∧ ∀ (g : Nat) (x : FbGen), s.dropCur.gens[g]? = some x → x.proc ≠ .running := by
            unfold FbAll.dropCur
            split
            rotate_left
            · rename_i hc
              refine ⟨hi, fun g x hx hr => ?_⟩
              have := hi.run g x hx hr
              rw [hc] at this; cases this
            · rename_i g₀ hc
              refine ⟨hi.modify g₀ _ (fun x _ => ⟨later_kill x, rfl, rfl⟩), fun g x hx hr => ?_⟩
              change (s.gens.modify g₀ FbGen.kill)[g]? = some x at hx
              rw [List.getElem?_modify] at hx
              obtain ⟨y, hy, hxy⟩ := Option.map_eq_some_iff.mp hx
              split at hxy
              · rw [← hxy] at hr; exact kill_proc y hr
              · rename_i hne
                rw [← hxy] at hr
                have := hi.run g y hy hr
                rw [hc] at this
                exact hne (Option.some.inj this)
          have h2 := h1.1.spawn h1.2
          rw [dropCur_len] at h2
          refine h2.phase c _ ?_ ?_
          · intro g h; cases h; rw [List.length_append, dropCur_len]; exact Nat.lt_succ_self _
          · intro g k x h; cases h
    · exact hi
  | send c =>
    simp only [FbAll.step]
    split
    · rename_i id pk data g hc
      split
      · rename_i x hx
        have h1 := hi.modify g (fun x => x.step (.submit id pk data)) (fun x _ => ⟨later_step x _ (by simp), rfl, rfl⟩)
        refine h1.phase c _ (by intro g h; cases h) ?_
        intro g' k y h hy
        cases h
        change s.calls[c]? = some y at hy
        rw [hc] at hy
        cases hy
        refine ⟨⟨x.step (.submit id pk data), ?_⟩, ?_⟩
        · have hr : ∃ a, (x.st.step (.submit id pk data)).reqs[x.st.reqs.length]? = some ⟨id, pk, data, a⟩ := by
            simp only [FbSt.step]
            split <;> exact ⟨_, by simp; rfl⟩
          obtain ⟨a, ha⟩ := hr
          exact ⟨_, by simp [List.getElem?_modify, hx], ha, rfl⟩
        · intro c' x' hc' hp
          obtain ⟨y, r, g1, g2, -⟩ := hi.given c' x' _ _ hc' hp
          rw [hx] at g1; cases g1
          have := (List.getElem?_eq_some_iff.mp g2).1
          omega
      · exact hi
    · exact hi
  | drop c =>
    have back : ∀ (c' : Nat) (x : FbCall), (s.calls.modify c (fun x => { x with dropped := true }))[c']? = some x →
        ∃ x₀, s.calls[c']? = some x₀ ∧ x.msgId = x₀.msgId ∧ x.pk = x₀.pk ∧ x.data = x₀.data ∧ x.phase = x₀.phase := by
      intro c' x h
      rw [List.getElem?_modify] at h
      obtain ⟨x₀, h1, h2⟩ := Option.map_eq_some_iff.mp h
      refine ⟨x₀, h1, ?_⟩
      split at h2 <;> (subst h2; exact ⟨rfl, rfl, rfl, rfl⟩)
    refine ⟨hi.fine, hi.run, hi.cur, ?_, ?_, ?_⟩
    · intro c' x g h hp
      obtain ⟨x₀, h1, -, -, -, h2⟩ := back c' x h
      exact hi.has c' x₀ g h1 (h2 ▸ hp)
    · intro c' x g k h hp
      obtain ⟨x₀, h1, a1, a2, a3, h2⟩ := back c' x h
      rw [a1, a2, a3]
      exact hi.given c' x₀ g k h1 (h2 ▸ hp)
    · intro c₁ c₂ x₁ x₂ g k h1 h2 p1 p2
      obtain ⟨y₁, b1, -, -, -, e1⟩ := back c₁ x₁ h1
      obtain ⟨y₂, b2, -, -, -, e2⟩ := back c₂ x₂ h2
      exact hi.inj c₁ c₂ y₁ y₂ g k b1 b2 (e1 ▸ p1) (e2 ▸ p2)
  | gen g e =>
    simp only [FbAll.step]
    split
    · exact hi
    · split
      · exact hi.modify g _ (fun x _ => ⟨later_step x _ (by simp), rfl, rfl⟩)
      · exact hi
    · refine hi.modify g _ (fun x _ => ?_)
      split
      · rename_i h; exact ⟨later_step x _ (fun _ => h), rfl, rfl⟩
      · exact ⟨FbGen.Later.refl x, rfl, rfl⟩
    · rename_i h1 h2 h3
      exact hi.modify g _ (fun x _ => ⟨later_step x _ (fun h => absurd h h3), rfl, rfl⟩)
  | rLeave g =>
    simp only [FbAll.step]
    split
    · rename_i x hx
      split
      · rename_i hh
        obtain ⟨h1, h2, h3⟩ := hi.leave g
        refine h1.setLeft g h2 _ ?_
        intro y hy
        obtain ⟨y', g1, g2, -⟩ := h3 x hx
        rw [hy] at g1; cases g1
        refine ⟨?_, id, fun _ k r h => ⟨r, h, rfl⟩⟩
        rintro ⟨a1, a2, a3, a4⟩
        exact ⟨a1, fun _ => by show y.st.rOpen = false; rw [g2]; exact hh.1, a3, fun _ => rfl⟩
      · exact hi
    · exact hi
  | wLeave g =>
    simp only [FbAll.step]
    split
    · rename_i x hx
      split
      · rename_i hh
        obtain ⟨h1, h2, h3⟩ := hi.leave g
        refine h1.setLeft g h2 _ ?_
        intro y hy
        obtain ⟨y', g1, g2, -⟩ := h3 x hx
        rw [hy] at g1; cases g1
        refine ⟨?_, id, fun _ k r h => ⟨r, h, rfl⟩⟩
        rintro ⟨a1, a2, a3, a4⟩
        exact ⟨a1, a2, fun _ => by show y.st.wOpen = false; rw [g2]; exact hh.1, a4⟩
      · exact hi
    · exact hi
  | exit g =>
    refine hi.modify g _ (fun x _ => ⟨⟨id, ?_, fun _ k r h => ⟨r, h, rfl⟩⟩, rfl, rfl⟩)
    dsimp only
    split
    · intro h; cases h
    · exact id

theorem GInv.run_ok (evs : List GEv) {s : FbAll} (hi : GInv s) : GInv (s.run evs) := by
  induction evs generalizing s with
  | nil => exact hi
  | cons e es ih => exact ih (hi.step e)

/-! ### One step, seen from a sub-process and from a call -/

theorem modify_get {α : Type} (l : List α) (i j : Nat) (f : α → α) :
    (l.modify i f)[j]? = l[j]?.map (fun x => if i = j then f x else x) := by
  rw [List.getElem?_modify]; rfl

/-- What a step does to the queue and loops of sub-process `g`. Proof device: nothing in the code corresponds. -/
def GenStep (s : FbAll) (e : GEv) (g : Nat) (x y : FbGen) : Prop :=
  y.st = x.st ∨ ∃ e', y.st = x.st.step e' ∧ (e = .gen g e' ∨
    ∃ (c : Nat) (q : FbCall), e = .send c ∧ s.calls[c]? = some q ∧ q.phase = .has g ∧ q.dropped = false ∧
      e' = .submit q.msgId q.pk q.data)

theorem modify_st {s : FbAll} {e : GEv} {g g' : Nat} {x : FbGen} (hx : s.gens[g]? = some x) (f : FbGen → FbGen)
    (hf : (f x).st = x.st) : ∃ y, (s.gens.modify g' f)[g]? = some y ∧ GenStep s e g x y := by
  rw [modify_get, hx]
  refine ⟨_, rfl, Or.inl ?_⟩
  dsimp only
  split
  · exact hf
  · rfl

theorem modify_step {s : FbAll} {e : GEv} {g g' : Nat} {x : FbGen} (hx : s.gens[g]? = some x) (f : FbGen → FbGen)
    (hf : g' = g → GenStep s e g x (f x)) : ∃ y, (s.gens.modify g' f)[g]? = some y ∧ GenStep s e g x y := by
  rw [modify_get, hx]
  refine ⟨_, rfl, ?_⟩
  dsimp only
  split
  · rename_i h; exact hf h
  · exact Or.inl rfl

theorem leave_gens (s : FbAll) (g₀ g : Nat) (x : FbGen) (hx : s.gens[g]? = some x) :
    ∃ y, (s.leave g₀).gens[g]? = some y ∧ y.st = x.st := by
  unfold FbAll.leave
  split
  · show ∃ y, (s.gens.modify g₀ FbGen.kill)[g]? = some y ∧ _
    rw [modify_get, hx]
    refine ⟨_, rfl, ?_⟩
    dsimp only
    split <;> rfl
  · exact ⟨x, hx, rfl⟩

theorem gen_step (s : FbAll) (e : GEv) (g : Nat) (x : FbGen) (hx : s.gens[g]? = some x) :
    ∃ y, (s.step e).gens[g]? = some y ∧ GenStep s e g x y := by
  have same : ∃ y, s.gens[g]? = some y ∧ GenStep s e g x y := ⟨x, hx, Or.inl rfl⟩
  have lv : ∀ (g₀ : Nat) (f : FbGen → FbGen), (∀ z, (f z).st = z.st) →
      ∃ y, ((s.leave g₀).gens.modify g₀ f)[g]? = some y ∧ GenStep s e g x y := by
    intro g₀ f hf
    obtain ⟨y, h1, h2⟩ := leave_gens s g₀ g x hx
    rw [modify_get, h1]
    refine ⟨_, rfl, Or.inl ?_⟩
    dsimp only
    split
    · rw [hf]; exact h2
    · exact h2
  cases e with
  | call => exact same
  | get c pf fail =>
    simp only [FbAll.step]
    split
    · split
      · exact same
      · split
        · exact same
        · have h1 : ∃ y, s.dropCur.gens[g]? = some y ∧ y.st = x.st := by
            unfold FbAll.dropCur
            split
            · show ∃ y, (s.gens.modify _ FbGen.kill)[g]? = some y ∧ _
              rw [modify_get, hx]
              refine ⟨_, rfl, ?_⟩
              dsimp only
              split <;> rfl
            · exact ⟨x, hx, rfl⟩
          obtain ⟨y, h2, h3⟩ := h1
          refine ⟨y, ?_, Or.inl h3⟩
          show (_ ++ [FbGen.fresh])[g]? = _
          rw [List.getElem?_append_left (List.getElem?_eq_some_iff.mp h2).1]; exact h2
    · exact same
  | send c =>
    simp only [FbAll.step]
    split
    · rename_i id pk data g' hc
      split
      · refine modify_step hx _ (fun h => Or.inr ⟨.submit id pk data, rfl, Or.inr ?_⟩)
        subst h
        exact ⟨c, _, rfl, hc, rfl, rfl, rfl⟩
      · exact same
    · exact same
  | drop => exact same
  | gen g' e' =>
    simp only [FbAll.step]
    split
    · exact same
    · split
      · exact modify_step hx _ (fun h => Or.inr ⟨.idle, rfl, Or.inl (by rw [h])⟩)
      · exact same
    · refine modify_step hx _ (fun h => ?_)
      split
      · exact Or.inr ⟨.drain, rfl, Or.inl (by rw [h])⟩
      · exact Or.inl rfl
    · exact modify_step hx _ (fun h => Or.inr ⟨_, rfl, Or.inl (by rw [h])⟩)
  | rLeave g' =>
    simp only [FbAll.step]
    split
    · split
      · exact lv g' _ (fun _ => rfl)
      · exact same
    · exact same
  | wLeave g' =>
    simp only [FbAll.step]
    split
    · split
      · exact lv g' _ (fun _ => rfl)
      · exact same
    · exact same
  | exit g' => exact modify_st hx _ rfl

/-- What a step does to call `c`. Proof device: nothing in the code corresponds. -/
def CallStep (s : FbAll) (e : GEv) (c : Nat) (x x' : FbCall) : Prop :=
  (x'.msgId = x.msgId ∧ x'.pk = x.pk ∧ x'.data = x.data ∧ (x.dropped = true → x'.dropped = true)) ∧
  (x'.phase = x.phase ∨
   (∃ pf f, e = .get c pf f ∧ x.phase = .asked ∧ ((∃ g, x'.phase = .has g) ∨ ∃ er, f = some er ∧ x'.phase = .failed er)) ∨
   ∃ g y, e = .send c ∧ x.phase = .has g ∧ s.gens[g]? = some y ∧ x'.phase = .given g y.st.reqs.length)

theorem call_step (s : FbAll) (e : GEv) (c : Nat) (x : FbCall) (hx : s.calls[c]? = some x) :
    ∃ x', (s.step e).calls[c]? = some x' ∧ CallStep s e c x x' := by
  have same : ∃ x', s.calls[c]? = some x' ∧ CallStep s e c x x' := ⟨x, hx, ⟨rfl, rfl, rfl, id⟩, Or.inl rfl⟩
  have lv : ∀ g, (s.leave g).calls = s.calls := by intro g; unfold FbAll.leave; split <;> rfl
  have ph : ∀ (s' : FbAll) (c' : Nat) (p : FbPhase), s'.calls = s.calls →
      (c' = c → CallStep s e c x { x with phase := p }) →
      ∃ x', (s'.setPhase c' p).calls[c]? = some x' ∧ CallStep s e c x x' := by
    intro s' c' p h1 h2
    rw [setPhase_get, h1, hx]
    refine ⟨_, rfl, ?_⟩
    dsimp only
    split
    · rename_i h; exact h2 h
    · exact ⟨⟨rfl, rfl, rfl, id⟩, Or.inl rfl⟩
  cases e with
  | call =>
    refine ⟨x, ?_, ⟨rfl, rfl, rfl, id⟩, Or.inl rfl⟩
    show (s.calls ++ _)[c]? = _
    rw [List.getElem?_append_left (List.getElem?_eq_some_iff.mp hx).1]; exact hx
  | get c' pf fail =>
    simp only [FbAll.step]
    split
    · rename_i id pk data hc
      have ha : c' = c → x.phase = .asked := by rintro rfl; rw [hc] at hx; cases hx; rfl
      split
      · exact ph s c' _ rfl (fun h => ⟨⟨rfl, rfl, rfl, fun h => h⟩, Or.inr (Or.inl ⟨pf, fail, by rw [h], ha h, Or.inl ⟨_, rfl⟩⟩)⟩)
      · split
        · exact ph s c' _ rfl (fun h => ⟨⟨rfl, rfl, rfl, fun h => h⟩, Or.inr (Or.inl ⟨pf, _, by rw [h], ha h, Or.inr ⟨_, rfl, rfl⟩⟩)⟩)
        · refine ph _ c' _ ?_ (fun h => ⟨⟨rfl, rfl, rfl, fun h => h⟩, Or.inr (Or.inl ⟨pf, _, by rw [h], ha h, Or.inl ⟨_, rfl⟩⟩)⟩)
          exact dropCur_calls s
    · exact same
  | send c' =>
    simp only [FbAll.step]
    split
    · rename_i id pk data g hc
      split
      · rename_i y hy
        refine ph _ c' _ rfl (fun h => ?_)
        subst h
        rw [hc] at hx; cases hx
        exact ⟨⟨rfl, rfl, rfl, fun h => h⟩, Or.inr (Or.inr ⟨g, y, rfl, rfl, hy, rfl⟩)⟩
      · exact same
    · exact same
  | drop c' =>
    show ∃ x', (s.calls.modify c' _)[c]? = some x' ∧ _
    rw [modify_get, hx]
    refine ⟨_, rfl, ?_⟩
    dsimp only
    split
    · exact ⟨⟨rfl, rfl, rfl, fun _ => rfl⟩, Or.inl rfl⟩
    · exact ⟨⟨rfl, rfl, rfl, id⟩, Or.inl rfl⟩
  | gen g e' =>
    simp only [FbAll.step]
    split
    · exact same
    · split <;> exact same
    · exact same
    · exact same
  | rLeave g =>
    simp only [FbAll.step]
    split
    · split
      · show ∃ x', (s.leave g).calls[c]? = some x' ∧ _
        rw [lv]; exact same
      · exact same
    · exact same
  | wLeave g =>
    simp only [FbAll.step]
    split
    · split
      · show ∃ x', (s.leave g).calls[c]? = some x' ∧ _
        rw [lv]; exact same
      · exact same
    · exact same
  | exit g => exact same

/-- The calls made. Specification: nothing in the code corresponds. -/
def made (evs : List GEv) : List (String × B 32 × Bytes) :=
  evs.filterMap (fun e => match e with | .call id pk data => some (id, pk, data) | _ => none)

theorem calls_len (s : FbAll) (e : GEv) : (s.step e).calls.length = s.calls.length + (made [e]).length := by
  have lv : ∀ g, (s.leave g).calls = s.calls := by intro g; unfold FbAll.leave; split <;> rfl
  cases e with
  | call => simp [FbAll.step, made]
  | get c pf fail =>
    simp only [FbAll.step, FbAll.setPhase, made]
    (repeat' split) <;> simp_all [dropCur_calls]
  | send c =>
    simp only [FbAll.step, FbAll.setPhase, made]
    (repeat' split) <;> simp_all
  | drop c => simp [FbAll.step, made]
  | gen g e => simp only [FbAll.step, made]; (repeat' split) <;> simp_all
  | rLeave g => simp only [FbAll.step, made]; (repeat' split) <;> simp_all
  | wLeave g => simp only [FbAll.step, made]; (repeat' split) <;> simp_all
  | exit g => simp [FbAll.step, made]

/-- Proof device: nothing in the code corresponds. -/
def FbCall.triple (x : FbCall) : String × B 32 × Bytes := (x.msgId, x.pk, x.data)

theorem calls_triples (s : FbAll) (e : GEv) : (s.step e).calls.map FbCall.triple = s.calls.map FbCall.triple ++ made [e] := by
  apply List.ext_getElem?
  intro i
  by_cases hlt : i < s.calls.length
  · obtain ⟨x, hx⟩ : ∃ x, s.calls[i]? = some x := ⟨_, List.getElem?_eq_getElem hlt⟩
    obtain ⟨x', h1, ⟨h2, h3, h4, -⟩, -⟩ := call_step s e i x hx
    rw [List.getElem?_append_left (by simpa using hlt), List.getElem?_map, List.getElem?_map, h1, hx]
    simp [FbCall.triple, h2, h3, h4]
  · have hl := calls_len s e
    by_cases hlen : i < (s.step e).calls.length
    · cases e with
      | call id pk data =>
        have hi' : i = s.calls.length := by simp [made] at hl; omega
        subst hi'
        simp [FbAll.step, made, FbCall.triple]
      | _ => simp [made] at hl; omega
    · rw [List.getElem?_eq_none (by simpa using Nat.le_of_not_lt hlen), List.getElem?_eq_none]
      simp; omega

theorem FbAll.run_append (s : FbAll) (a b : List GEv) : s.run (a ++ b) = (s.run a).run b := by simp [FbAll.run]

theorem made_append (a b : List GEv) : made (a ++ b) = made a ++ made b := by simp [made]

theorem run_calls (evs : List GEv) (s : FbAll) : (s.run evs).calls.map FbCall.triple = s.calls.map FbCall.triple ++ made evs := by
  induction evs generalizing s with
  | nil => simp [FbAll.run, made]
  | cons e es ih =>
    rw [show s.run (e :: es) = (s.step e).run es from rfl, ih, calls_triples, show e :: es = [e] ++ es from rfl, made_append]
    simp

/-- Every request of a sub-process is of a call. Proof device: nothing in the code corresponds. -/
def GSur (s : FbAll) : Prop :=
  ∀ (g : Nat) (y : FbGen) (k : Nat), s.gens[g]? = some y → k < y.st.reqs.length →
    ∃ (c : Nat) (x : FbCall), s.calls[c]? = some x ∧ x.phase = .given g k

theorem GSur.step {s : FbAll} (h : GSur s) (e : GEv) : GSur (s.step e) := by
  have old : ∀ (g k : Nat), (∃ (c : Nat) (x : FbCall), s.calls[c]? = some x ∧ x.phase = .given g k) →
      ∃ (c : Nat) (x : FbCall), (s.step e).calls[c]? = some x ∧ x.phase = .given g k := by
    rintro g k ⟨c, x, h1, h2⟩
    obtain ⟨x', h3, -, h4 | ⟨_, _, -, h4, -⟩ | ⟨_, _, -, h4, -⟩⟩ := call_step s e c x h1
    · exact ⟨c, x', h3, h4.trans h2⟩
    · rw [h2] at h4; cases h4
    · rw [h2] at h4; cases h4
  intro g y k hy hk
  by_cases hg : g < s.gens.length
  · obtain ⟨x, hx⟩ : ∃ x, s.gens[g]? = some x := ⟨_, List.getElem?_eq_getElem hg⟩
    obtain ⟨y', h1, h2⟩ := gen_step s e g x hx
    rw [hy] at h1; cases h1
    by_cases hkx : k < x.st.reqs.length
    · exact old g k (h g x k hx hkx)
    · rcases h2 with h2 | ⟨e', h2, h3⟩
      · rw [h2] at hk; omega
      · have hl := fbStep_len x.st e'
        rw [← h2] at hl
        rcases h3 with h3 | ⟨c, q, h3, h4, h5, h6, h7⟩
        · subst h3
          cases e' with
          | submit id pk data =>
            have : y = x := by
              have e2 : (s.step (.gen g (.submit id pk data))).gens[g]? = s.gens[g]? := rfl
              rw [hy, hx] at e2; exact Option.some.inj e2
            subst this; exact absurd hk hkx
          | _ => simp [submits] at hl; omega
        · subst h3 h7
          have hk' : k = x.st.reqs.length := by simp [submits] at hl; omega
          subst hk'
          obtain ⟨x', h8, -, h9⟩ := call_step s (.send c) c q h4
          refine ⟨c, x', h8, ?_⟩
          obtain ⟨id, pk, data, ph, dr⟩ := q
          simp only at h5 h6
          subst h5 h6
          simp only [FbAll.step, h4, hx] at h8
          rw [setPhase_get] at h8
          simp [h4] at h8
          rw [← h8]
  · -- a fresh sub-process has no requests
    exfalso
    have lvl : ∀ g₀, (s.leave g₀).gens.length = s.gens.length := by intro g₀; unfold FbAll.leave; split <;> simp
    have no : ∀ l : List FbGen, l.length = s.gens.length → l[g]? = some y → False := by
      intro l hl hy'
      have := (List.getElem?_eq_some_iff.mp hy').1
      omega
    cases e with
    | call => exact no _ rfl hy
    | get c pf fail =>
      simp only [FbAll.step] at hy
      split at hy
      · split at hy
        · exact no _ rfl hy
        · split at hy
          · exact no _ rfl hy
          · change (_ ++ [FbGen.fresh])[g]? = some y at hy
            have hlen := dropCur_len s
            rw [List.getElem?_append_right (by rw [hlen]; omega)] at hy
            rw [hlen] at hy
            cases hj : g - s.gens.length with
            | zero => rw [hj] at hy; simp at hy; rw [← hy] at hk; simp [FbGen.fresh, FbSt.init] at hk
            | succ n => rw [hj] at hy; simp at hy
      · exact no _ rfl hy
    | send c =>
      simp only [FbAll.step] at hy
      (repeat' split at hy)
      · exact no _ (by simp [FbAll.setPhase]) hy
      all_goals exact no _ rfl hy
    | drop => exact no _ rfl hy
    | gen g' e' =>
      simp only [FbAll.step] at hy
      (repeat' split at hy)
      all_goals exact no _ (by simp) hy
    | rLeave g' =>
      simp only [FbAll.step] at hy
      (repeat' split at hy)
      · exact no _ (by simp [lvl]) hy
      all_goals exact no _ rfl hy
    | wLeave g' =>
      simp only [FbAll.step] at hy
      (repeat' split at hy)
      · exact no _ (by simp [lvl]) hy
      all_goals exact no _ rfl hy
    | exit g' => exact no _ (by simp [FbAll.step]) hy

theorem GSur.init : GSur .init := by intro g y k h; simp [FbAll.init] at h

theorem GSur.run (evs : List GEv) {s : FbAll} (h : GSur s) : GSur (s.run evs) := by
  induction evs generalizing s with
  | nil => exact h
  | cons e es ih => exact ih (h.step e)

end Lair
