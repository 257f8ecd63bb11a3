import Verif.PwLimits

/-
C39: password-hash limits apply within their scope and are restored after it. True only for scopes that are not nested and
do not panic.
-/
namespace Lair

theorem plain_exec (p : LProg) (h : p.plain = true) (c : PwHashLimits) :
    p.exec c = ⟨c, (p.spec c).1, false⟩ ∧ (p.spec c).2 = false := by
  induction p with
  | done => exact ⟨rfl, rfl⟩
  | use rest ih => have := ih h; simp [LProg.exec, LProg.spec, this.1, this.2]
  | scope l b r ib ir => cases h
  | panic => cases h
  | «catch» b r ib ir =>
    simp only [LProg.plain, Bool.and_eq_true] at h
    have h1 := ib h.1; have h2 := ir h.2
    simp [LProg.exec, LProg.spec, h1.1, h2.1, h2.2]

/-- Full statement (false, see `C39_nested_scope_lost` and `C39_panic_leaks`): for **every** program.
    Proved: for every program whose scopes are not nested and in which nothing panics inside a scope, the limits used are
    exactly those of the scope each use stands in - Moderate outside all scopes - and after it Moderate is in force. -/
theorem C39_scoped_limits_partial (p : LProg) (h : p.flat = true) :
    p.run.used = (p.spec .moderate).1 ∧ p.run.panicked = (p.spec .moderate).2 ∧ p.run.tls = .moderate := by
  unfold LProg.run
  induction p with
  | done => exact ⟨rfl, rfl, rfl⟩
  | use rest ih => have := ih h; simp [LProg.exec, LProg.spec, this.1, this.2]
  | scope l b r ib ir =>
    simp only [LProg.flat, Bool.and_eq_true] at h
    have h1 := plain_exec b h.1 l
    have h2 := ir h.2
    simp [LProg.exec, LProg.spec, h1.1, h1.2, h2.1, h2.2.1, h2.2.2]
  | panic => exact ⟨rfl, rfl, rfl⟩
  | «catch» b r ib ir =>
    simp only [LProg.flat, Bool.and_eq_true] at h
    have h1 := ib h.1; have h2 := ir h.2
    simp [LProg.exec, LProg.spec, h1.1, h1.2.2, h2.1, h2.2.1, h2.2.2]

/-- **C39** Inside any scope, wherever it stands and whatever was done before, up to the first scope inside it, the chosen
    limits are used. -/
theorem C39_within_scope (l c : PwHashLimits) (body rest : LProg) (h : body.plain = true) :
    ∃ after, ((LProg.scope l body rest).exec c).used = (body.spec l).1 ++ after ∧ ∀ x ∈ (body.spec l).1, x = l := by
  have h1 := plain_exec body h l
  refine ⟨(rest.exec .moderate).used, by simp [LProg.exec, h1.1], ?_⟩
  clear h1
  induction body with
  | done => simp [LProg.spec]
  | use r ih => intro x hx; simp only [LProg.spec, List.mem_cons] at hx; rcases hx with hx | hx; exact hx; exact ih h x hx
  | scope l b r ib ir => cases h
  | panic => cases h
  | «catch» b r ib ir =>
    simp only [LProg.plain, Bool.and_eq_true] at h
    intro x hx; simp only [LProg.spec, List.mem_append] at hx
    rcases hx with hx | hx
    · exact ib h.1 x hx
    · exact ir h.2 x hx

/-- **C39** (violation) After an inner scope the outer scope's limits do not apply again: Moderate is used. -/
theorem C39_nested_scope_lost (outer inner : PwHashLimits) :
    (LProg.scope outer (.scope inner .done (.use .done)) .done).run.used = [.moderate] ∧
    ((LProg.scope outer (.scope inner .done (.use .done)) .done).spec .moderate).1 = [outer] := by
  constructor <;> simp [LProg.run, LProg.exec, LProg.spec]

/-- **C39** (violation) A panic inside a scope leaves its limits in force after it. -/
theorem C39_panic_leaks (l : PwHashLimits) :
    (LProg.catch (.scope l .panic .done) (.use .done)).run.used = [l] ∧
    ((LProg.catch (.scope l .panic .done) (.use .done)).spec .moderate).1 = [.moderate] := by
  constructor <;> simp [LProg.run, LProg.exec, LProg.spec]

/-- Specification: what libsodium publishes for Argon2id under these four names - memory in bytes, number of passes. -/
def sodiumPreset : PwHashLimits → Nat × Nat
  | .minimum => (8 * 1024, 1)
  | .interactive => (64 * 1024 * 1024, 2)
  | .moderate => (256 * 1024 * 1024, 3)
  | .sensitive => (1024 * 1024 * 1024, 4)

/-- **C39** The limits that are used, and stored with what they lock, are libsodium's of the same name; from one to the next
    both the memory and the number of passes grow. -/
theorem C39_presets (l : PwHashLimits) :
    (l.mem.toNat, l.ops.toNat) = sodiumPreset l ∧
    (PwHashLimits.minimum.mem < PwHashLimits.interactive.mem ∧ PwHashLimits.interactive.mem < PwHashLimits.moderate.mem ∧
      PwHashLimits.moderate.mem < PwHashLimits.sensitive.mem) ∧
    (PwHashLimits.minimum.ops < PwHashLimits.interactive.ops ∧ PwHashLimits.interactive.ops < PwHashLimits.moderate.ops ∧
      PwHashLimits.moderate.ops < PwHashLimits.sensitive.ops) := by
  cases l <;> decide

/-- A concrete program meeting the hypothesis. -/
example :
    let p : LProg := .use (.scope .minimum (.use .done) (.use (.scope .sensitive (.use .done) (.use .done))));
    p.flat = true ∧ p.run.used = [.moderate, .minimum, .moderate, .sensitive, .moderate] := by decide

example : (LProg.use .done).plain = true := rfl

end Lair
