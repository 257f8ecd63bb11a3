import Verif.Pool

/-
C44: connections of the pool are never shared and, without cancellations and panics, never lost. `St.init.run evs` is any
interleaving of any number of operations.
-/
namespace Lair.Pool

/-! ### Counting -/

def bit (b : Bool) : Nat := if b then 1 else 0

theorem countP_setOp {p : Op → Bool} {l : List Op} {k : Nat} {o o' : Op} (h : l[k]? = some o) :
    (l.set k o').countP p + bit (p o) = l.countP p + bit (p o') := by
  obtain ⟨hk, he⟩ := List.getElem?_eq_some_iff.1 h
  have h1 := List.countP_set (p := p) (l := l) (a := o') hk
  rw [he] at h1
  have h2 : bit (p o) ≤ l.countP p := by
    unfold bit
    split
    · rename_i hp
      exact List.countP_pos_iff.2 ⟨o, List.mem_of_getElem? h, hp⟩
    · omega
  unfold bit at *
  rw [h1]
  omega

theorem countP_le_of_mem {p : Op → Bool} {l : List Op} {k : Nat} {o : Op} (h : l[k]? = some o) (hp : p o = true) : 0 < l.countP p :=
  List.countP_pos_iff.2 ⟨o, List.mem_of_getElem? h, hp⟩

/-- Filled slots. -/
def filled (l : List (Option Nat)) : Nat := l.countP Option.isSome

theorem takeSlot_spec (l : List (Option Nat)) :
    ((takeSlot l).1 = none ∧ filled l = 0 ∧ (takeSlot l).2 = l) ∨
    (∃ c, (takeSlot l).1 = some c ∧ filled (takeSlot l).2 + 1 = filled l ∧ (takeSlot l).2.length = l.length ∧
      ∀ d, (takeSlot l).2.count (some d) + bit (c == d) = l.count (some d)) := by
  induction l with
  | nil => exact Or.inl ⟨rfl, rfl, rfl⟩
  | cons x xs ih =>
    cases x with
    | some c =>
      refine Or.inr ⟨c, rfl, by simp [takeSlot, filled], by simp [takeSlot], ?_⟩
      intro d
      simp only [takeSlot, List.count_cons, bit]
      by_cases h : c = d <;> simp [h]
    | none =>
      rcases ih with ⟨h1, h2, h3⟩ | ⟨c, h1, h2, h3, h4⟩
      · exact Or.inl ⟨h1, by simpa [filled] using h2, by simp [takeSlot, h3]⟩
      · refine Or.inr ⟨c, h1, ?_, by simp [takeSlot, h3], ?_⟩
        · simp only [takeSlot, filled, List.countP_cons, Option.isSome_none] at h2 ⊢
          simpa using h2
        · intro d
          have := h4 d
          simp only [takeSlot, List.count_cons]
          simpa using this

theorem putSlot_spec (c : Nat) (l : List (Option Nat)) :
    (filled l < l.length → filled (putSlot c l) = filled l + 1 ∧ ∀ d, (putSlot c l).count (some d) = l.count (some d) + bit (c == d)) ∧
    (putSlot c l).length = l.length ∧ ∀ d, (putSlot c l).count (some d) ≤ l.count (some d) + bit (c == d) := by
  induction l with
  | nil => simp [putSlot, filled]
  | cons x xs ih =>
    cases x with
    | none =>
      refine ⟨fun _ => ⟨by simp [putSlot, filled], ?_⟩, by simp [putSlot], ?_⟩
      · intro d
        simp only [putSlot, List.count_cons, bit]
        by_cases h : c = d <;> simp [h]
      · intro d
        simp only [putSlot, List.count_cons, bit]
        by_cases h : c = d <;> simp [h]
    | some e =>
      obtain ⟨h1, h2, h3⟩ := ih
      refine ⟨fun hl => ?_, by simp [putSlot, h2], ?_⟩
      · have hl' : filled xs < xs.length := by simp [filled] at hl ⊢; omega
        obtain ⟨h4, h5⟩ := h1 hl'
        refine ⟨by simp [putSlot, filled] at h4 ⊢; omega, ?_⟩
        intro d
        have := h5 d
        simp only [putSlot, List.count_cons]
        omega
      · intro d
        have := h3 d
        simp only [putSlot, List.count_cons]
        omega

/-- How many times connection `c` is somewhere: idle in a slot, or in use by an operation. -/
def St.places (s : St) (c : Nat) : Nat :=
  bit (s.writeCon == some c) + s.readCons.count (some c) + s.ops.countP (Op.uses c)

theorem run_append (s : St) (a b : List Ev) : s.run (a ++ b) = (s.run a).run b := by simp [St.run, List.foldl_append]

/-! ### Never shared -/

theorem bit_le (b : Bool) : bit b ≤ 1 := by unfold bit; split <;> omega

theorem bit_true : bit true = 1 := rfl
theorem bit_false : bit false = 0 := rfl

theorem setOp_places {s t : St} {k : Nat} {o : Op} {p : Phase} (hk : s.ops[k]? = some o) (ht : t.ops = s.ops) (c : Nat) :
    (t.setOp k o p).places c + bit (o.uses c) =
      bit (t.writeCon == some c) + t.readCons.count (some c) + s.ops.countP (Op.uses c) + bit (Op.uses c { o with phase := p }) := by
  have := countP_setOp (p := Op.uses c) (o' := { o with phase := p }) hk
  simp only [St.places, St.setOp, ht]
  omega

theorem unpermit_same (s : St) (w : Bool) : (s.unpermit w).ops = s.ops ∧ (s.unpermit w).writeCon = s.writeCon ∧ (s.unpermit w).readCons = s.readCons := by
  unfold St.unpermit; split <;> exact ⟨rfl, rfl, rfl⟩

theorem putBack_ops (s : St) (w : Bool) (x : Option Nat) : (s.putBack w x).ops = s.ops := by
  unfold St.putBack; split
  · rfl
  · split <;> rfl

theorem putBack_places (s : St) (w : Bool) (x : Option Nat) (c : Nat) :
    bit ((s.putBack w x).writeCon == some c) + (s.putBack w x).readCons.count (some c) ≤
      bit (s.writeCon == some c) + s.readCons.count (some c) + bit (x == some c) := by
  cases x with
  | none => simp [St.putBack]
  | some d =>
    cases w with
    | true =>
      show bit (some d == some c) + s.readCons.count (some c) ≤ _
      omega
    | false =>
      show bit (s.writeCon == some c) + (putSlot d s.readCons).count (some c) ≤ _
      have := (putSlot_spec d s.readCons).2.2 c
      have e : (some d == some c) = (d == c) := by simp
      rw [e]
      omega

/-- No step makes a second copy of a connection. -/
theorem step_places (s : St) (ev : Ev) (c : Nat) : (s.step ev).places c ≤ s.places c := by
  have hp : s.places c = bit (s.writeCon == some c) + s.readCons.count (some c) + s.ops.countP (Op.uses c) := rfl
  cases ev with
  | start w => simp [St.step, St.places, Op.uses]
  | permit k =>
    simp only [St.step]
    split
    · rename_i hk
      split
      · have := setOp_places (t := { s with writePermits := s.writePermits - 1 }) (p := .permitted) hk rfl c
        simp only [Op.uses, bit_false] at this; omega
      · exact Nat.le_refl _
    · rename_i hk
      split
      · have := setOp_places (t := { s with readPermits := s.readPermits - 1 }) (p := .permitted) hk rfl c
        simp only [Op.uses, bit_false] at this; omega
      · exact Nat.le_refl _
    · exact Nat.le_refl _
  | take k =>
    simp only [St.step]
    split
    · rename_i hk
      have := setOp_places (t := { s with writeCon := none }) (p := .held s.writeCon) hk rfl c
      have hn : (none == some c) = false := by simp
      simp only [hn, bit_false] at this
      cases hw : s.writeCon with
      | none => rw [hw] at this hp; simp only [Op.uses, bit_false, hn] at this hp; rw [hp]; omega
      | some d =>
        rw [hw] at this hp
        have e : (some d == some c) = (d == c) := by simp
        simp only [Op.uses, bit_false] at this
        rw [hp, e]; omega
    · rename_i hk
      have := setOp_places (t := { s with readCons := (takeSlot s.readCons).2 }) (p := .held (takeSlot s.readCons).1) hk rfl c
      rcases takeSlot_spec s.readCons with ⟨h1, h2, h3⟩ | ⟨d, h1, h2, h3, h4⟩
      · rw [h1, h3] at this
        rw [h1, h3]
        simp only [Op.uses, bit_false] at this; omega
      · rw [h1] at this
        rw [h1]
        have := h4 c
        simp only [Op.uses, bit_false] at *; omega
    · exact Nat.le_refl _
  | begin k =>
    simp only [St.step]
    split
    · rename_i w d hk
      have := setOp_places (t := s) (p := .running d) hk rfl c
      simp only [Op.uses] at this; omega
    · rename_i w hk
      obtain ⟨u1, u2, u3⟩ := unpermit_same s w
      have := setOp_places (t := s.unpermit w) (p := .panicked) hk u1 c
      rw [u2, u3] at this
      simp only [Op.uses, bit_false] at this; omega
    · exact Nat.le_refl _
  | finish k =>
    simp only [St.step]
    split
    · rename_i w d hk
      have := setOp_places (t := s) (p := .held (some d)) hk rfl c
      simp only [Op.uses] at this; omega
    · exact Nat.le_refl _
  | drop k =>
    simp only [St.step]
    split
    · rename_i w x hk
      have h1 := setOp_places (t := s.putBack w x) (p := .releasing) hk (putBack_ops s w x) c
      have h2 := putBack_places s w x c
      have e : Op.uses c ⟨w, .held x⟩ = (x == some c) := by cases x <;> simp [Op.uses]
      simp only [e] at h1
      simp only [Op.uses, bit_false] at h1; omega
    · exact Nat.le_refl _
  | release k =>
    simp only [St.step]
    split
    · rename_i w hk
      obtain ⟨u1, u2, u3⟩ := unpermit_same s w
      have := setOp_places (t := s.unpermit w) (p := .closed) hk u1 c
      rw [u2, u3] at this
      simp only [Op.uses, bit_false] at this; omega
    · exact Nat.le_refl _
  | cancel k =>
    simp only [St.step]
    split
    · rename_i w hk
      have := setOp_places (t := s) (p := .closed) hk rfl c
      simp only [Op.uses, bit_false] at this; omega
    · rename_i w hk
      obtain ⟨u1, u2, u3⟩ := unpermit_same s w
      have := setOp_places (t := s.unpermit w) (p := .closed) hk u1 c
      rw [u2, u3] at this
      simp only [Op.uses, bit_false] at this; omega
    · rename_i w x hk
      have h1 := setOp_places (t := s.putBack w x) (p := .releasing) hk (putBack_ops s w x) c
      have h2 := putBack_places s w x c
      have e : Op.uses c ⟨w, .held x⟩ = (x == some c) := by cases x <;> simp [Op.uses]
      simp only [e] at h1
      simp only [Op.uses, bit_false] at h1; omega
    · rename_i w d hk
      obtain ⟨u1, u2, u3⟩ := unpermit_same s w
      have := setOp_places (t := s.unpermit w) (p := .orphan d) hk u1 c
      rw [u2, u3] at this
      simp only [Op.uses] at this; omega
    · exact Nat.le_refl _
  | taskPanic k =>
    simp only [St.step]
    split
    · rename_i w d hk
      have := setOp_places (t := s) (p := .held none) hk rfl c
      simp only [Op.uses, bit_false] at this; omega
    · exact Nat.le_refl _
  | orphanEnd k =>
    simp only [St.step]
    split
    · rename_i w d hk
      have := setOp_places (t := s) (p := .closed) hk rfl c
      simp only [Op.uses, bit_false] at this; omega
    · exact Nat.le_refl _

theorem run_places (s : St) (evs : List Ev) (c : Nat) : (s.run evs).places c ≤ s.places c := by
  induction evs generalizing s with
  | nil => exact Nat.le_refl _
  | cons e es ih => exact Nat.le_trans (ih (s.step e)) (step_places s e c)

theorem init_places (c : Nat) : St.init.places c ≤ 1 := by
  match c with
  | 0 => decide
  | 1 => decide
  | 2 => decide
  | 3 => decide
  | c + 4 => simp [St.places, St.init, bit]

theorem countP_two {p : Op → Bool} {l : List Op} {i j : Nat} {a b : Op} (hij : i < j) (ha : l[i]? = some a) (hb : l[j]? = some b)
    (hpa : p a = true) (hpb : p b = true) : 2 ≤ l.countP p := by
  have h : l = l.take j ++ l.drop j := (List.take_append_drop j l).symm
  rw [h, List.countP_append]
  have h1 : 0 < (l.take j).countP p := by
    apply List.countP_pos_iff.2
    exact ⟨a, List.mem_of_getElem? (i := i) (by rw [List.getElem?_take, if_pos hij]; exact ha), hpa⟩
  have h2 : 0 < (l.drop j).countP p := by
    apply List.countP_pos_iff.2
    exact ⟨b, List.mem_of_getElem? (i := 0) (by rw [List.getElem?_drop]; exact hb), hpb⟩
  omega

/-- C44. At every moment of every run - with cancellations and panics - a connection is used by at most one operation (including
    transactions that go on after their operation was cancelled), and while it is used it is not in the pool. -/
theorem C44_never_shared (evs : List Ev) (c : Nat) (i : Nat) (a : Op) (ha : (St.init.run evs).ops[i]? = some a) (hua : a.uses c = true) :
    (∀ (j : Nat) (b : Op), (St.init.run evs).ops[j]? = some b → b.uses c = true → j = i) ∧
      (St.init.run evs).writeCon ≠ some c ∧ some c ∉ (St.init.run evs).readCons := by
  have h := Nat.le_trans (run_places St.init evs c) (init_places c)
  generalize St.init.run evs = s at *
  have hpos := countP_le_of_mem (p := Op.uses c) ha hua
  unfold St.places at h
  refine ⟨?_, ?_, ?_⟩
  · intro j b hb hub
    apply Classical.byContradiction
    intro hne
    have : 2 ≤ s.ops.countP (Op.uses c) := by
      rcases Nat.lt_or_gt_of_ne hne with hlt | hlt
      · exact countP_two hlt hb ha hub hua
      · exact countP_two hlt ha hb hua hub
    omega
  · intro e
    have : bit (s.writeCon == some c) = 1 := by rw [e]; simp [bit]
    omega
  · intro hm
    have := List.count_pos_iff.2 hm
    omega

/-! ### Right kind -/

/-- Writers use the write connection, readers the read connections. -/
structure Kind (s : St) : Prop where
  w : ∀ c, s.writeCon = some c → c = 0
  r : ∀ c, some c ∈ s.readCons → 1 ≤ c ∧ c ≤ 3
  ops : ∀ o ∈ s.ops, ∀ c, o.uses c = true → if o.isWrite then c = 0 else 1 ≤ c ∧ c ≤ 3

theorem mem_takeSlot {l : List (Option Nat)} {c : Nat} (h : some c ∈ (takeSlot l).2) : some c ∈ l := by
  induction l with
  | nil => simp [takeSlot] at h
  | cons x xs ih =>
    cases x with
    | some d => simp [takeSlot] at h; simp [h]
    | none => simp [takeSlot] at h; simp [ih h]

theorem takeSlot_mem {l : List (Option Nat)} {c : Nat} (h : (takeSlot l).1 = some c) : some c ∈ l := by
  induction l with
  | nil => simp [takeSlot] at h
  | cons x xs ih =>
    cases x with
    | some d => simp [takeSlot] at h; simp [h]
    | none => simp [takeSlot] at h; simp [ih h]

theorem mem_putSlot {l : List (Option Nat)} {c d : Nat} (h : some c ∈ putSlot d l) : some c ∈ l ∨ c = d := by
  induction l with
  | nil => simp [putSlot] at h
  | cons x xs ih =>
    cases x with
    | some e =>
      simp [putSlot] at h
      rcases h with h | h
      · exact Or.inl (by simp [h])
      · rcases ih h with h | h
        · exact Or.inl (by simp [h])
        · exact Or.inr h
    | none => simp [putSlot] at h; rcases h with h | h; exact Or.inr h; exact Or.inl (by simp [h])

theorem Kind.setOp {s t : St} (h : Kind s) {k : Nat} {o : Op} {p : Phase} (ht : t.ops = s.ops)
    (hw : ∀ c, t.writeCon = some c → c = 0) (hr : ∀ c, some c ∈ t.readCons → 1 ≤ c ∧ c ≤ 3)
    (ho : ∀ c, Op.uses c { o with phase := p } = true → if o.isWrite then c = 0 else 1 ≤ c ∧ c ≤ 3) : Kind (t.setOp k o p) := by
  refine ⟨hw, hr, ?_⟩
  intro o' ho' c hc
  simp only [St.setOp, ht] at ho'
  rcases List.mem_or_eq_of_mem_set ho' with h1 | rfl
  · exact h.ops o' h1 c hc
  · exact ho c hc

theorem Kind.putBack {s : St} (h : Kind s) (w : Bool) (x : Option Nat) (hx : ∀ c, x = some c → if w then c = 0 else 1 ≤ c ∧ c ≤ 3) :
    (∀ c, (s.putBack w x).writeCon = some c → c = 0) ∧ (∀ c, some c ∈ (s.putBack w x).readCons → 1 ≤ c ∧ c ≤ 3) := by
  cases x with
  | none => exact ⟨h.w, h.r⟩
  | some d =>
    have hd := hx d rfl
    cases w with
    | true =>
      refine ⟨?_, h.r⟩
      intro c hc
      have e : d = c := Option.some.inj hc
      simp only [if_true] at hd
      omega
    | false =>
      refine ⟨h.w, ?_⟩
      simp only [Bool.false_eq_true, if_false] at hd
      intro c hc
      rcases mem_putSlot hc with h1 | rfl
      · exact h.r c h1
      · exact hd

theorem Kind.step {s : St} (h : Kind s) (ev : Ev) : Kind (s.step ev) := by
  have nope : ∀ (o : Op) (p : Phase), (p = .permitted ∨ p = .panicked ∨ p = .releasing ∨ p = .closed ∨ p = .held none) →
      ∀ c, Op.uses c { o with phase := p } = true → if o.isWrite then c = 0 else 1 ≤ c ∧ c ≤ 3 := by
    intro o p hp c hc
    rcases hp with rfl | rfl | rfl | rfl | rfl <;> simp [Op.uses] at hc
  have keep : ∀ {k : Nat} {o : Op} {p : Phase} {d : Nat}, s.ops[k]? = some o → o.uses d = true → (p = .running d ∨ p = .held (some d) ∨ p = .orphan d) →
      ∀ c, Op.uses c { o with phase := p } = true → if o.isWrite then c = 0 else 1 ≤ c ∧ c ≤ 3 := by
    intro k o p d hk hu hp c hc
    have : c = d := by rcases hp with rfl | rfl | rfl <;> simp [Op.uses] at hc <;> exact hc.symm
    subst this
    exact h.ops o (List.mem_of_getElem? hk) c hu
  cases ev with
  | start w =>
    refine ⟨h.w, h.r, ?_⟩
    intro o ho c hc
    simp only [St.step, List.mem_append, List.mem_singleton] at ho
    rcases ho with ho | rfl
    · exact h.ops o ho c hc
    · simp [Op.uses] at hc
  | permit k =>
    simp only [St.step]
    split
    · split
      · exact h.setOp rfl h.w h.r (nope _ _ (Or.inl rfl))
      · exact h
    · split
      · exact h.setOp rfl h.w h.r (nope _ _ (Or.inl rfl))
      · exact h
    · exact h
  | take k =>
    simp only [St.step]
    split
    · refine h.setOp (t := { s with writeCon := none }) rfl (by simp) h.r ?_
      intro c hc
      simp only [if_true]
      cases hw : s.writeCon with
      | none => rw [hw] at hc; simp [Op.uses] at hc
      | some d => rw [hw] at hc; simp [Op.uses] at hc; subst hc; exact h.w d hw
    · refine h.setOp (t := { s with readCons := (takeSlot s.readCons).2 }) rfl h.w (fun c hc => h.r c (mem_takeSlot hc)) ?_
      intro c hc
      simp only [Bool.false_eq_true, if_false]
      cases hw : (takeSlot s.readCons).1 with
      | none => rw [hw] at hc; simp [Op.uses] at hc
      | some d => rw [hw] at hc; simp [Op.uses] at hc; subst hc; exact h.r d (takeSlot_mem hw)
    · exact h
  | begin k =>
    simp only [St.step]
    split
    · rename_i w d hk
      exact h.setOp rfl h.w h.r (keep hk (by simp [Op.uses]) (Or.inl rfl))
    · rename_i w hk
      obtain ⟨u1, u2, u3⟩ := unpermit_same s w
      exact h.setOp u1 (by rw [u2]; exact h.w) (by rw [u3]; exact h.r) (nope _ _ (Or.inr (Or.inl rfl)))
    · exact h
  | finish k =>
    simp only [St.step]
    split
    · rename_i w d hk
      exact h.setOp rfl h.w h.r (keep hk (by simp [Op.uses]) (Or.inr (Or.inl rfl)))
    · exact h
  | drop k =>
    simp only [St.step]
    split
    · rename_i w x hk
      have hb := h.putBack w x (fun c hc => by have := h.ops _ (List.mem_of_getElem? hk) c (by rw [hc]; simp [Op.uses]); simpa using this)
      exact h.setOp (putBack_ops s w x) hb.1 hb.2 (nope _ _ (Or.inr (Or.inr (Or.inl rfl))))
    · exact h
  | release k =>
    simp only [St.step]
    split
    · rename_i w hk
      obtain ⟨u1, u2, u3⟩ := unpermit_same s w
      exact h.setOp u1 (by rw [u2]; exact h.w) (by rw [u3]; exact h.r) (nope _ _ (Or.inr (Or.inr (Or.inr (Or.inl rfl)))))
    · exact h
  | cancel k =>
    simp only [St.step]
    split
    · exact h.setOp rfl h.w h.r (nope _ _ (Or.inr (Or.inr (Or.inr (Or.inl rfl)))))
    · rename_i w hk
      obtain ⟨u1, u2, u3⟩ := unpermit_same s w
      exact h.setOp u1 (by rw [u2]; exact h.w) (by rw [u3]; exact h.r) (nope _ _ (Or.inr (Or.inr (Or.inr (Or.inl rfl)))))
    · rename_i w x hk
      have hb := h.putBack w x (fun c hc => by have := h.ops _ (List.mem_of_getElem? hk) c (by rw [hc]; simp [Op.uses]); simpa using this)
      exact h.setOp (putBack_ops s w x) hb.1 hb.2 (nope _ _ (Or.inr (Or.inr (Or.inl rfl))))
    · rename_i w d hk
      obtain ⟨u1, u2, u3⟩ := unpermit_same s w
      exact h.setOp u1 (by rw [u2]; exact h.w) (by rw [u3]; exact h.r) (keep hk (by simp [Op.uses]) (Or.inr (Or.inr rfl)))
    · exact h
  | taskPanic k =>
    simp only [St.step]
    split
    · exact h.setOp rfl h.w h.r (nope _ _ (Or.inr (Or.inr (Or.inr (Or.inr rfl)))))
    · exact h
  | orphanEnd k =>
    simp only [St.step]
    split
    · exact h.setOp rfl h.w h.r (nope _ _ (Or.inr (Or.inr (Or.inr (Or.inl rfl)))))
    · exact h

theorem Kind.run {s : St} (h : Kind s) (evs : List Ev) : Kind (s.run evs) := by
  induction evs generalizing s with
  | nil => exact h
  | cons e es ih => exact ih (h.step e)

theorem Kind.init : Kind St.init := ⟨by simp [St.init], by simp [St.init], by simp [St.init]⟩

/-- An operation in a transaction, or one whose transaction goes on although it was cancelled. -/
def Op.inTransaction (o : Op) : Prop := ∃ c, o.phase = .running c ∨ o.phase = .orphan c

/-- C44. At most one writing transaction is in progress at any time, even after cancellations; at most three reading ones. -/
theorem C44_one_writer_three_readers (evs : List Ev) :
    (∀ (i j : Nat) (a b : Op), (St.init.run evs).ops[i]? = some a → (St.init.run evs).ops[j]? = some b → a.isWrite = true → b.isWrite = true →
      a.inTransaction → b.inTransaction → i = j) ∧
    ∀ idx : List Nat, idx.Nodup → (∀ i ∈ idx, ∃ a, (St.init.run evs).ops[i]? = some a ∧ a.isWrite = false ∧ a.inTransaction) → idx.length ≤ 3 := by
  have hk := Kind.init.run evs
  have huse : ∀ (a : Op) (c : Nat), (a.phase = .running c ∨ a.phase = .orphan c) → a.uses c = true := by
    intro a c h; rcases h with h | h <;> simp [Op.uses, h]
  refine ⟨?_, ?_⟩
  · rintro i j a b ha hb hwa hwb ⟨c, hc⟩ ⟨d, hd⟩
    have h1 := hk.ops a (List.mem_of_getElem? ha) c (huse a c hc)
    have h2 := hk.ops b (List.mem_of_getElem? hb) d (huse b d hd)
    rw [hwa, if_pos rfl] at h1
    rw [hwb, if_pos rfl] at h2
    subst h1; subst h2
    exact ((C44_never_shared evs 0 i a ha (huse a 0 hc)).1 j b hb (huse b 0 hd)).symm
  · intro idx hnd hall
    -- the map from operations to connections is injective into {1, 2, 3}
    have hcon : ∀ i ∈ idx, ∃ c, 1 ≤ c ∧ c ≤ 3 ∧ ∃ a, (St.init.run evs).ops[i]? = some a ∧ a.uses c = true := by
      intro i hi
      obtain ⟨a, ha, hw, c, hc⟩ := hall i hi
      have h1 := hk.ops a (List.mem_of_getElem? ha) c (huse a c hc)
      rw [hw] at h1
      simp only [Bool.false_eq_true, if_false] at h1
      exact ⟨c, h1.1, h1.2, a, ha, huse a c hc⟩
    have hinj : ∀ (c i j : Nat) (a b : Op), (St.init.run evs).ops[i]? = some a → (St.init.run evs).ops[j]? = some b →
        a.uses c = true → b.uses c = true → i = j := by
      intro c i j a b ha hb hua hub
      exact ((C44_never_shared evs c i a ha hua).1 j b hb hub).symm
    generalize (St.init.run evs).ops = ops at hcon hinj
    clear hall hk
    have key : ∀ (idx cs : List Nat), idx.Nodup → cs.Nodup → (∀ i ∈ idx, ∃ c ∈ cs, ∃ a : Op, ops[i]? = some a ∧ a.uses c = true) →
        idx.length ≤ cs.length := by
      intro idx
      induction idx with
      | nil => intro cs _ _ _; simp
      | cons i is ih =>
        intro cs hnd hcs hall
        obtain ⟨c, hc, a, ha, hua⟩ := hall i (by simp)
        have hlen := List.length_erase_of_mem hc
        have hpos : 0 < cs.length := List.length_pos_of_mem hc
        have := ih (cs.erase c) (List.nodup_cons.1 hnd).2 (hcs.erase c) (by
          intro j hj
          obtain ⟨d, hd, b, hb, hub⟩ := hall j (by simp [hj])
          refine ⟨d, ?_, b, hb, hub⟩
          have hne : d ≠ c := by
            rintro rfl
            have := hinj d i j a b ha hb hua hub
            subst this
            exact (List.nodup_cons.1 hnd).1 hj
          exact (List.mem_erase_of_ne hne).2 hd)
        simp only [List.length_cons]
        omega
    exact key idx [1, 2, 3] hnd (by decide) (by
      intro i hi
      obtain ⟨c, h1, h2, a, ha, hua⟩ := hcon i hi
      exact ⟨c, by simp; omega, a, ha, hua⟩)

/-! ### Never lost, without cancellation during a transaction and without panics -/

def Op.bare (w : Bool) (o : Op) : Bool := (o.isWrite == w) && (match o.phase with | .permitted | .releasing => true | _ => false)
def Op.has (w : Bool) (o : Op) : Bool := (o.isWrite == w) && (match o.phase with | .held (some _) | .running _ => true | _ => false)

structure Full (s : St) : Prop where
  len : s.readCons.length = 3
  good : ∀ o ∈ s.ops, o.phase ≠ .held none ∧ o.phase ≠ .panicked ∧ ∀ c, o.phase ≠ .orphan c
  w1 : bit s.writeCon.isSome = s.writePermits + s.ops.countP (Op.bare true)
  w2 : bit s.writeCon.isSome + s.ops.countP (Op.has true) = 1
  r1 : filled s.readCons = s.readPermits + s.ops.countP (Op.bare false)
  r2 : filled s.readCons + s.ops.countP (Op.has false) = 3

theorem Full.init : Full St.init := ⟨rfl, by simp [St.init], rfl, rfl, rfl, rfl⟩

theorem setOp_counts {s t : St} {k : Nat} {o : Op} (hk : s.ops[k]? = some o) (ht : t.ops = s.ops) (p : Phase) (f : Op → Bool) :
    (t.setOp k o p).ops.countP f + bit (f o) = s.ops.countP f + bit (f { o with phase := p }) := by
  simp only [St.setOp, ht]; exact countP_setOp hk

theorem setOp_good {s t : St} {k : Nat} {o : Op} {p : Phase} (ht : t.ops = s.ops)
    (h : ∀ o ∈ s.ops, o.phase ≠ .held none ∧ o.phase ≠ .panicked ∧ ∀ c, o.phase ≠ .orphan c)
    (hp : p ≠ .held none ∧ p ≠ .panicked ∧ ∀ c, p ≠ .orphan c) :
    ∀ o' ∈ (t.setOp k o p).ops, o'.phase ≠ .held none ∧ o'.phase ≠ .panicked ∧ ∀ c, o'.phase ≠ .orphan c := by
  intro o' ho'
  simp only [St.setOp, ht] at ho'
  rcases List.mem_or_eq_of_mem_set ho' with h1 | rfl
  · exact h o' h1
  · exact hp

/-- Events that lose no connection. -/
def Harmless (s : St) : Ev → Prop
  | .taskPanic _ => False
  | .cancel k => ∀ w c, s.ops[k]? ≠ some ⟨w, .running c⟩
  | _ => True

theorem Full.step {s : St} (h : Full s) (ev : Ev) (hev : Harmless s ev) : Full (s.step ev) := by
  obtain ⟨hl, hg, hw1, hw2, hr1, hr2⟩ := h
  have full : Full s := ⟨hl, hg, hw1, hw2, hr1, hr2⟩
  cases ev with
  | start w =>
    refine ⟨hl, ?_, ?_, ?_, ?_, ?_⟩
    · intro o ho
      simp only [St.step, List.mem_append, List.mem_singleton] at ho
      rcases ho with ho | rfl
      · exact hg o ho
      · simp
    · simpa [St.step, Op.bare] using hw1
    · simpa [St.step, Op.has] using hw2
    · simpa [St.step, Op.bare] using hr1
    · simpa [St.step, Op.has] using hr2
  | permit k =>
    simp only [St.step]
    split
    · rename_i hk
      split
      · rename_i hp
        have a := setOp_counts (t := { s with writePermits := s.writePermits - 1 }) hk rfl .permitted
        have a1 := a (Op.bare true); have a2 := a (Op.has true); have a3 := a (Op.bare false); have a4 := a (Op.has false)
        simp [Op.bare, Op.has, bit] at a1 a2 a3 a4
        refine ⟨hl, setOp_good rfl hg (by simp), ?_, ?_, ?_, ?_⟩ <;> simp only [St.setOp] at * <;> omega
      · exact full
    · rename_i hk
      split
      · rename_i hp
        have a := setOp_counts (t := { s with readPermits := s.readPermits - 1 }) hk rfl .permitted
        have a1 := a (Op.bare true); have a2 := a (Op.has true); have a3 := a (Op.bare false); have a4 := a (Op.has false)
        simp [Op.bare, Op.has, bit] at a1 a2 a3 a4
        refine ⟨hl, setOp_good rfl hg (by simp), ?_, ?_, ?_, ?_⟩ <;> simp only [St.setOp] at * <;> omega
      · exact full
    · exact full
  | take k =>
    simp only [St.step]
    split
    · rename_i hk
      have hb := countP_le_of_mem (p := Op.bare true) hk (by simp [Op.bare])
      cases hwc : s.writeCon with
      | none => rw [hwc] at hw1; simp [bit] at hw1; omega
      | some c =>
        have a := setOp_counts (t := { s with writeCon := none }) hk rfl (.held (some c))
        have a1 := a (Op.bare true); have a2 := a (Op.has true); have a3 := a (Op.bare false); have a4 := a (Op.has false)
        simp [Op.bare, Op.has, bit] at a1 a2 a3 a4
        rw [hwc] at hw1 hw2
        simp only [Option.isSome_some, bit_true] at hw1 hw2
        refine ⟨hl, setOp_good rfl hg (by simp), ?_, ?_, ?_, ?_⟩
        · show bit false = s.writePermits + _
          rw [bit_false]; omega
        · show bit false + _ = 1
          rw [bit_false]; omega
        · show filled s.readCons = s.readPermits + _
          omega
        · show filled s.readCons + _ = 3
          omega
    · rename_i hk
      have hb := countP_le_of_mem (p := Op.bare false) hk (by simp [Op.bare])
      rcases takeSlot_spec s.readCons with ⟨h1, h2, h3⟩ | ⟨c, h1, h2, h3, h4⟩
      · omega
      · rw [h1]
        have a := setOp_counts (t := { s with readCons := (takeSlot s.readCons).2 }) hk rfl (.held (some c))
        have a1 := a (Op.bare true); have a2 := a (Op.has true); have a3 := a (Op.bare false); have a4 := a (Op.has false)
        simp [Op.bare, Op.has, bit] at a1 a2 a3 a4
        refine ⟨h3.trans hl, setOp_good rfl hg (by simp), ?_, ?_, ?_, ?_⟩ <;> simp only [St.setOp] at * <;> omega
    · exact full
  | begin k =>
    simp only [St.step]
    split
    · rename_i w c hk
      have a := setOp_counts (t := s) hk rfl (.running c)
      have a1 := a (Op.bare true); have a2 := a (Op.has true); have a3 := a (Op.bare false); have a4 := a (Op.has false)
      refine ⟨hl, setOp_good rfl hg (by simp), ?_, ?_, ?_, ?_⟩ <;> cases w <;>
        simp [Op.bare, Op.has, bit] at a1 a2 a3 a4 <;> simp only [St.setOp] at * <;> omega
    · rename_i w hk
      exact absurd rfl (hg _ (List.mem_of_getElem? hk)).1
    · exact full
  | finish k =>
    simp only [St.step]
    split
    · rename_i w c hk
      have a := setOp_counts (t := s) hk rfl (.held (some c))
      have a1 := a (Op.bare true); have a2 := a (Op.has true); have a3 := a (Op.bare false); have a4 := a (Op.has false)
      refine ⟨hl, setOp_good rfl hg (by simp), ?_, ?_, ?_, ?_⟩ <;> cases w <;>
        simp [Op.bare, Op.has, bit] at a1 a2 a3 a4 <;> simp only [St.setOp] at * <;> omega
    · exact full
  | drop k =>
    simp only [St.step]
    split
    · rename_i w x hk
      exact putBack_full full hk
    · exact full
  | release k =>
    simp only [St.step]
    split
    · rename_i w hk
      have a := setOp_counts (t := s.unpermit w) hk (unpermit_same s w).1 .closed
      have a1 := a (Op.bare true); have a2 := a (Op.has true); have a3 := a (Op.bare false); have a4 := a (Op.has false)
      refine ⟨?_, setOp_good (unpermit_same s w).1 hg (by simp), ?_, ?_, ?_, ?_⟩ <;> cases w <;>
        simp [Op.bare, Op.has, bit, St.unpermit] at a1 a2 a3 a4 <;> simp [St.setOp, St.unpermit] at * <;> omega
    · exact full
  | cancel k =>
    simp only [St.step]
    split
    · rename_i w hk
      have a := setOp_counts (t := s) hk rfl .closed
      have a1 := a (Op.bare true); have a2 := a (Op.has true); have a3 := a (Op.bare false); have a4 := a (Op.has false)
      refine ⟨hl, setOp_good rfl hg (by simp), ?_, ?_, ?_, ?_⟩ <;> cases w <;>
        simp [Op.bare, Op.has, bit] at a1 a2 a3 a4 <;> simp only [St.setOp] at * <;> omega
    · rename_i w hk
      have a := setOp_counts (t := s.unpermit w) hk (unpermit_same s w).1 .closed
      have a1 := a (Op.bare true); have a2 := a (Op.has true); have a3 := a (Op.bare false); have a4 := a (Op.has false)
      refine ⟨?_, setOp_good (unpermit_same s w).1 hg (by simp), ?_, ?_, ?_, ?_⟩ <;> cases w <;>
        simp [Op.bare, Op.has, bit, St.unpermit] at a1 a2 a3 a4 <;> simp [St.setOp, St.unpermit] at * <;> omega
    · rename_i w x hk
      exact putBack_full full hk
    · rename_i w c hk
      exact absurd hk (hev w c)
    · exact full
  | taskPanic k => exact absurd hev id
  | orphanEnd k =>
    simp only [St.step]
    split
    · rename_i w c hk
      exact absurd rfl ((hg _ (List.mem_of_getElem? hk)).2.2 c)
    · exact full
where
  putBack_full {s : St} {k : Nat} {w : Bool} {x : Option Nat} (full : Full s) (hk : s.ops[k]? = some ⟨w, .held x⟩) :
      Full ((s.putBack w x).setOp k ⟨w, .held x⟩ .releasing) := by
    obtain ⟨hl, hg, hw1, hw2, hr1, hr2⟩ := full
    cases x with
    | none => exact absurd rfl (hg _ (List.mem_of_getElem? hk)).1
    | some c =>
      have hb := countP_le_of_mem (p := Op.has w) hk (by simp [Op.has])
      have a := setOp_counts (t := s.putBack w (some c)) hk (putBack_ops s w (some c)) .releasing
      have a1 := a (Op.bare true); have a2 := a (Op.has true); have a3 := a (Op.bare false); have a4 := a (Op.has false)
      cases w with
      | true =>
        simp [Op.bare, Op.has, bit, St.putBack] at a1 a2 a3 a4
        have : bit s.writeCon.isSome = 0 := by omega
        rw [this] at hw1 hw2
        refine ⟨hl, setOp_good (putBack_ops s _ _) hg (by simp), ?_, ?_, ?_, ?_⟩
        · show bit true = s.writePermits + _
          simp only [St.putBack, if_true, bit_true] at *; omega
        · show bit true + _ = 1
          simp only [St.putBack, if_true, bit_true] at *; omega
        · show filled s.readCons = s.readPermits + _
          simp only [St.putBack, if_true] at *; omega
        · show filled s.readCons + _ = 3
          simp only [St.putBack, if_true] at *; omega
      | false =>
        simp [Op.bare, Op.has, bit, St.putBack] at a1 a2 a3 a4
        have hs := (putSlot_spec c s.readCons)
        have hlt : filled s.readCons < s.readCons.length := by omega
        have hf := (hs.1 hlt).1
        have hlen := hs.2.1
        refine ⟨?_, setOp_good (putBack_ops s _ _) hg (by simp), ?_, ?_, ?_, ?_⟩ <;> simp [St.setOp, St.putBack] at * <;> omega

/-- All events of the run are harmless when they happen: no operation is cancelled in the middle of a transaction, no transaction
    panics. -/
def Calm : St → List Ev → Prop
  | _, [] => True
  | s, e :: es => Harmless s e ∧ Calm (s.step e) es

theorem Full.run {s : St} (h : Full s) (evs : List Ev) (hc : Calm s evs) : Full (s.run evs) := by
  induction evs generalizing s with
  | nil => exact h
  | cons e es ih => exact ih (h.step e hc.1) hc.2

/-- C44. If no operation is cancelled during a transaction and no transaction panics: no operation ever finds its connection missing
    or panics, and as soon as no operation is in progress all four connections and all permits are back in the pool. -/
theorem C44_never_lost_partial (evs : List Ev) (hc : Calm St.init evs) :
    (∀ o ∈ (St.init.run evs).ops, o.phase ≠ .held none ∧ o.phase ≠ .panicked) ∧
    ((∀ o ∈ (St.init.run evs).ops, o.phase = .closed ∨ o.phase = .waiting) →
      (St.init.run evs).writeCon = some 0 ∧ (St.init.run evs).readCons.length = 3 ∧ none ∉ (St.init.run evs).readCons ∧
      (St.init.run evs).writePermits = 1 ∧ (St.init.run evs).readPermits = 3) := by
  have h := Full.init.run evs hc
  have hkind := Kind.init.run evs
  generalize St.init.run evs = s at h hkind
  refine ⟨fun o ho => ⟨(h.good o ho).1, (h.good o ho).2.1⟩, ?_⟩
  intro hall
  have z : ∀ f : Op → Bool, (∀ o, (o.phase = .closed ∨ o.phase = .waiting) → f o = false) → s.ops.countP f = 0 := by
    intro f hf
    apply List.countP_eq_zero.2
    intro o ho
    simp [hf o (hall o ho)]
  have b : ∀ w, s.ops.countP (Op.bare w) = 0 := fun w => z _ (fun o ho => by rcases ho with h | h <;> simp [Op.bare, h])
  have g : ∀ w, s.ops.countP (Op.has w) = 0 := fun w => z _ (fun o ho => by rcases ho with h | h <;> simp [Op.has, h])
  obtain ⟨hl, hg, hw1, hw2, hr1, hr2⟩ := h
  rw [b] at hw1 hr1
  rw [g] at hw2 hr2
  refine ⟨?_, hl, ?_, by omega, by omega⟩
  · cases hw : s.writeCon with
    | none => rw [hw] at hw2; simp [bit] at hw2
    | some c => rw [hkind.w c hw]
  · intro hn
    have : filled s.readCons = s.readCons.length := by omega
    have := List.countP_eq_length.1 this none hn
    simp at this

/-- C44. In such a run, every operation that has a permit gets a connection. -/
theorem C44_permit_means_connection_partial (evs : List Ev) (hc : Calm St.init evs) (k : Nat) (w : Bool)
    (hk : (St.init.run evs).ops[k]? = some ⟨w, .permitted⟩) :
    ∃ c, (St.init.run (evs ++ [.take k])).ops[k]? = some ⟨w, .held (some c)⟩ := by
  have h := Full.init.run evs hc
  rw [run_append]
  generalize St.init.run evs = s at h hk
  show ∃ c, (s.step (.take k)).ops[k]? = _
  have h2 : Full (s.step (.take k)) := h.step _ trivial
  have hlt := (List.getElem?_eq_some_iff.1 hk).1
  cases w with
  | true =>
    have e : (s.step (.take k)).ops[k]? = some ⟨true, .held s.writeCon⟩ := by
      simp only [St.step, hk]
      simp [St.setOp, hlt]
    have := (h2.good _ (List.mem_of_getElem? e)).1
    cases hw : s.writeCon with
    | none => rw [hw] at this; exact absurd rfl this
    | some c => exact ⟨c, by rw [e, hw]⟩
  | false =>
    have e : (s.step (.take k)).ops[k]? = some ⟨false, .held (takeSlot s.readCons).1⟩ := by
      simp only [St.step, hk]
      simp [St.setOp, hlt]
    have := (h2.good _ (List.mem_of_getElem? e)).1
    cases hw : (takeSlot s.readCons).1 with
    | none => rw [hw] at this; exact absurd rfl this
    | some c => exact ⟨c, by rw [e, hw]⟩

/-- C44 does not hold in general: a write that is cancelled during its transaction loses the write connection; the next write panics. -/
theorem C44_cancelled_write_loses_connection :
    let s := St.init.run [.start true, .permit 0, .take 0, .begin 0, .cancel 0, .orphanEnd 0]
    s.places 0 = 0 ∧ s.writePermits = 1 ∧
      (s.run [.start true, .permit 1, .take 1, .begin 1]).ops[1]? = some ⟨true, .panicked⟩ := by
  decide +kernel

/-- C44 does not hold in general, and the loss is for ever: once the write connection is gone, no later write transaction begins, in any
    run. -/
theorem C44_lost_connection_never_returns (before evs : List Ev) (h : (St.init.run before).places 0 = 0) :
    ∀ o ∈ (St.init.run (before ++ evs)).ops, o.isWrite = true → ∀ c, o.phase ≠ .running c := by
  rw [run_append]
  have hs := Kind.init.run before
  generalize St.init.run before = s at h hs
  intro o ho hw c hp
  have h1 := run_places s evs 0
  have hu : o.uses c = true := by simp [Op.uses, hp]
  have hk := (hs.run evs).ops o ho c hu
  rw [hw, if_pos rfl] at hk
  subst hk
  have : 0 < (s.run evs).ops.countP (Op.uses 0) := List.countP_pos_iff.2 ⟨o, ho, hu⟩
  unfold St.places at *
  omega

/-- C44. A panicking transaction loses its connection, too. -/
theorem C44_panic_loses_connection :
    let s := St.init.run [.start false, .permit 0, .take 0, .begin 0, .taskPanic 0, .drop 0, .release 0]
    s.places 1 = 0 ∧ s.readPermits = 3 := by
  decide +kernel

/-- The operation has a permit and has not given it back. -/
def Op.busy (o : Op) : Bool := match o.phase with
  | .waiting | .closed => false
  | _ => true

theorem countP_split (l : List Op) (w : Bool) (hg : ∀ o ∈ l, o.phase ≠ .held none ∧ o.phase ≠ .panicked ∧ ∀ c, o.phase ≠ .orphan c) :
    l.countP (Op.bare w) + l.countP (Op.has w) = l.countP (fun o => (o.isWrite == w) && o.busy) := by
  induction l with
  | nil => rfl
  | cons o l ih =>
    have ih := ih fun o ho => hg o (List.mem_cons_of_mem _ ho)
    have ho := hg o List.mem_cons_self
    have : (if Op.bare w o then 1 else 0) + (if Op.has w o then 1 else 0) = if ((o.isWrite == w) && o.busy) = true then 1 else 0 := by
      obtain ⟨ow, ph⟩ := o
      by_cases hw : (ow == w) = true
      · cases ph with
        | held c => cases c with
          | none => exact absurd rfl ho.1
          | some c => simp [Op.bare, Op.has, Op.busy, hw]
        | orphan c => exact absurd rfl (ho.2.2 c)
        | panicked => exact absurd rfl ho.2.1
        | _ => simp [Op.bare, Op.has, Op.busy, hw]
      · simp [Op.bare, Op.has, hw]
    simp only [List.countP_cons]
    omega

/-- C44. In such a run, nobody is kept waiting without need: a read operation goes ahead as soon as fewer than three others are in progress, a
    write operation as soon as no other is. -/
theorem C44_not_kept_waiting_partial (evs : List Ev) (hc : Calm St.init evs) (k : Nat) (w : Bool)
    (hk : (St.init.run evs).ops[k]? = some ⟨w, .waiting⟩)
    (hfree : (St.init.run evs).ops.countP (fun o => (o.isWrite == w) && o.busy) < if w then 1 else 3) :
    (St.init.run (evs ++ [.permit k])).ops[k]? = some ⟨w, .permitted⟩ := by
  have h := Full.init.run evs hc
  rw [run_append]
  generalize St.init.run evs = s at h hk hfree
  show (s.step (.permit k)).ops[k]? = _
  rw [← countP_split _ _ h.good] at hfree
  obtain ⟨-, -, hw1, hw2, hr1, hr2⟩ := h
  have hlt := (List.getElem?_eq_some_iff.1 hk).1
  cases w with
  | true =>
    simp only [if_true] at hfree
    have : 0 < s.writePermits := by omega
    simp only [St.step, hk, if_pos this]
    simp [St.setOp, hlt]
  | false =>
    have hfree : _ < 3 := hfree
    have : 0 < s.readPermits := by omega
    simp only [St.step, hk, if_pos this]
    simp [St.setOp, hlt]

/-- Met when two readers are at work and a third comes. -/
example : let s := St.init.run [.start false, .start false, .start false, .permit 0, .take 0, .begin 0, .permit 1];
    s.ops[2]? = some ⟨false, .waiting⟩ ∧ s.ops.countP (fun o => (o.isWrite == false) && o.busy) = 2 := by decide +kernel

/-- The hypotheses are met: a calm run with two writers and four readers. -/
example : Calm St.init [.start true, .start true, .permit 0, .take 0, .begin 0, .cancel 1, .start false, .start false, .start false,
    .start false, .permit 2, .permit 3, .permit 4, .permit 5, .take 3, .take 2, .begin 2, .finish 2, .drop 2, .release 2, .permit 5,
    .finish 0, .cancel 0] := by
  simp [Calm, Harmless, St.step, St.init, St.setOp, takeSlot, putSlot, St.putBack, St.unpermit]

end Lair.Pool
