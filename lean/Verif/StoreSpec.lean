import Verif.Entry

/-
SPECIFICATION of a keystore store, independent of any implementation: a write-once table.
A store state stands for the list of entries accepted so far, oldest first.
`StoreImpl` is the interface both stores implement (trait `AsLairStore`, lair_store.rs:16-52); `Refines` says that an
implementation behaves as the table.
-/

namespace Lair

/-- The interface `AsLairStore` (lair_store.rs:16-52). -/
structure StoreImpl (σ : Type) where
  empty : σ
  write : σ → Entry → Res Unit × σ
  byTag : σ → String → Res Entry
  byEd : σ → B 32 → Res Entry
  byX : σ → B 32 → Res Entry
  list : σ → Res (List EntryInfo)

/-- Two entries clash: same tag, same signing public key or same encryption public key.
    Specification: nothing in the code corresponds. -/
def Clash (a b : Entry) : Prop :=
  a.tag = b.tag ∨ (∃ k, a.edKey = some k ∧ b.edKey = some k) ∨ (∃ k, a.xKey = some k ∧ b.xKey = some k)

instance (a b : Entry) : Decidable (Clash a b) := by
  unfold Clash
  have h : ∀ (x y : Option (B 32)), Decidable (∃ k, x = some k ∧ y = some k) := by
    intro x y
    cases x with
    | none => exact isFalse (by simp)
    | some v =>
      cases y with
      | none => exact isFalse (by simp)
      | some w => exact if h : v = w then isTrue ⟨v, rfl, by rw [h]⟩ else isFalse (by
          rintro ⟨k, h1, h2⟩; cases h1; cases h2; exact h rfl)
  have := h a.edKey b.edKey
  have := h a.xKey b.xKey
  infer_instance

/-- A table without clashes. Specification: nothing in the code corresponds. -/
def Distinct (t : List Entry) : Prop := t.Pairwise (fun a b => ¬ Clash a b)

/-- Implementation `I` behaves as the write-once table `tbl s` in every state satisfying the invariant `ok`.
    `fits` says which entries the store has room for (everything in memory; up to a billion bytes in SQLite).
    Specification: nothing in the code corresponds. -/
structure Refines {σ : Type} (I : StoreImpl σ) (fits : Entry → Bool) (ok : σ → Prop) (tbl : σ → List Entry) :
    Prop where
  /-- a new store is empty -/
  empty_ok : ok I.empty
  empty_tbl : tbl I.empty = []
  /-- a write that clashes with no stored entry is accepted and appends it -/
  write_new : ∀ s e, ok s → fits e = true → (∀ e' ∈ tbl s, ¬ Clash e' e) →
    (I.write s e).1 = .ok () ∧ ok (I.write s e).2 ∧ tbl (I.write s e).2 = tbl s ++ [e]
  /-- a clashing (or too large) write is refused and changes nothing -/
  write_clash : ∀ s e, ok s → (fits e = false ∨ ∃ e' ∈ tbl s, Clash e' e) →
    (∃ m, (I.write s e).1 = .error m) ∧ (I.write s e).2 = s
  /-- lookups return exactly the stored entry with that tag / key -/
  byTag_iff : ∀ s t e, ok s → (I.byTag s t = .ok e ↔ e ∈ tbl s ∧ e.tag = t)
  byEd_iff : ∀ s k e, ok s → (I.byEd s k = .ok e ↔ e ∈ tbl s ∧ e.edKey = some k)
  byX_iff : ∀ s k e, ok s → (I.byX s k = .ok e ↔ e ∈ tbl s ∧ e.xKey = some k)
  /-- listing returns the public information of each stored entry once -/
  list_perm : ∀ s, ok s → ∃ l, I.list s = .ok l ∧ l.Perm ((tbl s).map Entry.info)

/-- Consequence: tables of reachable states have no clashes (invariant form used by clients). -/
theorem clash_symm {a b : Entry} (h : Clash a b) : Clash b a := by
  rcases h with h | ⟨k, h1, h2⟩ | ⟨k, h1, h2⟩
  · exact Or.inl h.symm
  · exact Or.inr (Or.inl ⟨k, h2, h1⟩)
  · exact Or.inr (Or.inr ⟨k, h2, h1⟩)

theorem Distinct.append_one {t : List Entry} {e : Entry} (h : Distinct t) (hn : ∀ e' ∈ t, ¬ Clash e' e) :
    Distinct (t ++ [e]) := by
  unfold Distinct at *
  rw [List.pairwise_append]
  refine ⟨h, by simp, ?_⟩
  intro a ha b hb
  simp at hb; subst hb
  exact hn a ha

theorem Distinct.eq_of_clash {t : List Entry} (h : Distinct t) {a b : Entry} (ha : a ∈ t) (hb : b ∈ t)
    (hc : Clash a b) : a = b := by
  unfold Distinct at h
  induction t with
  | nil => cases ha
  | cons x xs ih =>
    rw [List.pairwise_cons] at h
    rcases List.mem_cons.mp ha with rfl | ha'
    · rcases List.mem_cons.mp hb with rfl | hb'
      · rfl
      · exact absurd hc (h.1 b hb')
    · rcases List.mem_cons.mp hb with rfl | hb'
      · exact absurd (clash_symm hc) (h.1 a ha')
      · exact ih h.2 ha' hb'

/-! ### Histories -/

/-- One call on a store. Specification: nothing in the code corresponds. -/
inductive StoreOp where
  | write (e : Entry)
  | byTag (t : String)
  | byEd (k : B 32)
  | byX (k : B 32)
  | list

/-- What a caller observes of a call, error texts aside. Specification: nothing in the code corresponds. -/
inductive StoreObs where
  | wrote (accepted : Bool)
  | got (e : Option Entry)
  | listed (l : Option (List EntryInfo))
deriving DecidableEq

/-- Forget the error text. Specification: nothing in the code corresponds. -/
def Res.opt {α : Type} : Res α → Option α
  | .ok a => some a
  | .error _ => none

/-- One call against an implementation. Specification: nothing in the code corresponds. -/
def StoreImpl.step {σ : Type} (I : StoreImpl σ) (s : σ) : StoreOp → StoreObs × σ
  | .write e => (.wrote (I.write s e).1.isOk, (I.write s e).2)
  | .byTag t => (.got (I.byTag s t).opt, s)
  | .byEd k => (.got (I.byEd s k).opt, s)
  | .byX k => (.got (I.byX s k).opt, s)
  | .list => (.listed (I.list s).opt, s)

/-- A history of calls: the observations and the final state. Specification: nothing in the code corresponds. -/
def StoreImpl.run {σ : Type} (I : StoreImpl σ) (s : σ) : List StoreOp → List StoreObs × σ
  | [] => ([], s)
  | op :: ops =>
    let r := I.step s op
    let rest := I.run r.2 ops
    (r.1 :: rest.1, rest.2)

/-- SPECIFICATION: one call against the table. -/
def tableStep (fits : Entry → Bool) (t : List Entry) : StoreOp → StoreObs × List Entry
  | .write e => if fits e = false ∨ ∃ e' ∈ t, Clash e' e then (.wrote false, t) else (.wrote true, t ++ [e])
  | .byTag tag => (.got (t.find? (fun e => e.tag = tag)), t)
  | .byEd k => (.got (t.find? (fun e => e.edKey = some k)), t)
  | .byX k => (.got (t.find? (fun e => e.xKey = some k)), t)
  | .list => (.listed (some (t.map Entry.info)), t)

/-- SPECIFICATION: a history of calls against the table. -/
def tableRun (fits : Entry → Bool) (t : List Entry) : List StoreOp → List StoreObs × List Entry
  | [] => ([], t)
  | op :: ops =>
    let r := tableStep fits t op
    let rest := tableRun fits r.2 ops
    (r.1 :: rest.1, rest.2)

/-- Observations agree, listings up to order. Specification: nothing in the code corresponds. -/
def SameObs : StoreObs → StoreObs → Prop
  | .wrote a, .wrote b => a = b
  | .got a, .got b => a = b
  | .listed (some a), .listed (some b) => a.Perm b
  | .listed none, .listed none => True
  | _, _ => False

/-- Two observation sequences agree. Specification: nothing in the code corresponds. -/
inductive SameObsList : List StoreObs → List StoreObs → Prop
  | nil : SameObsList [] []
  | cons {a b : StoreObs} {as bs : List StoreObs} : SameObs a b → SameObsList as bs → SameObsList (a :: as) (b :: bs)

end Lair
