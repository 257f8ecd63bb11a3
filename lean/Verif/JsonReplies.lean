import Verif.JsonGrammar

/- Which JSON values are replies, and that the read loop takes exactly those. -/
namespace Lair.Json

/-! ### What a reply is -/

/-- The text a string stands for: `\u` escapes are UTF-16, and a surrogate must be part of a pair.
    Specification: nothing in the code corresponds. -/
inductive Text : List JUnit → List Char → Prop
  | nil : Text [] []
  | ch {c : Char} {us : List JUnit} {s : List Char} (h : Text us s) : Text (.ch c :: us) (c :: s)
  | u {c : Char} {us : List JUnit} {s : List Char} (h : Text us s) : Text (.u c.toNat :: us) (c :: s)
  | pair {c : Char} {us : List JUnit} {s : List Char} {hi lo : Nat} (h : Text us s) (hh : 0xD800 ≤ hi ∧ hi < 0xDC00)
      (hl : 0xDC00 ≤ lo ∧ lo < 0xE000) (hc : c.toNat = 0x10000 + (hi - 0xD800) * 1024 + (lo - 0xDC00)) :
      Text (.u hi :: .u lo :: us) (c :: s)

/-- The value of the only member of that name. Specification: nothing in the code corresponds. -/
def Only (fs : List (List JUnit × JVal)) (name : String) (v : JVal) : Prop :=
  ∃ pre k post, fs = pre ++ (k, v) :: post ∧ Text k name.toList ∧ ∀ m ∈ pre ++ post, ¬ Text m.1 name.toList

/-- A string. Specification: nothing in the code corresponds. -/
def IsStr (v : JVal) (s : List Char) : Prop := ∃ us, v = .str us ∧ Text us s

/-- A string, or null. Specification: nothing in the code corresponds. -/
def IsOptStr (v : JVal) (s : Option (List Char)) : Prop := v = .null ∧ s = none ∨ ∃ x, s = some x ∧ IsStr v x

/-- A member that may be missing. Specification: nothing in the code corresponds. -/
def OptMember (fs : List (List JUnit × JVal)) (name : String) (s : Option (List Char)) : Prop :=
  (s = none ∧ ∀ m ∈ fs, ¬ Text m.1 name.toList) ∨ ∃ v, Only fs name v ∧ IsOptStr v s

/-- A reply: an object with a message id and perhaps a signature and an error, none of them twice; or an array of these three.
    Specification: nothing in the code corresponds. -/
def IsReply (v : JVal) (id : List Char) (sig err : Option (List Char)) : Prop :=
  (∃ fs, v = .obj fs ∧ (∀ m ∈ fs, ∃ k, Text m.1 k) ∧ (∃ w, Only fs "msgId" w ∧ IsStr w id) ∧
    OptMember fs "signature" sig ∧ OptMember fs "error" err) ∨
  ∃ a b c, v = .arr [a, b, c] ∧ IsStr a id ∧ IsOptStr b sig ∧ IsOptStr c err

/-! ### The text of a string -/

theorem ofNat_valid {n : Nat} (h : n.isValidChar) : (Char.ofNat n).toNat = n := by
  simp [Char.ofNat, dif_pos h, Char.ofNatAux, Char.toNat]

theorem hex4_lt {w x y z : Char} {n : Nat} (h : hex4 w x y z = some n) : n < 65536 := by
  obtain ⟨a, b, c, d, h1, h2, h3, h4, rfl⟩ := hex4_spec h
  have k : ∀ {c : Char} {n : Nat}, Hex c n → n < 16 := by
    intro c n h
    rcases h with h | h <;> exact (List.getElem?_eq_some_iff.mp h).1
  have := k h1; have := k h2; have := k h3; have := k h4
  omega

/-- Units that came from a text: escapes have four digits. Specification: nothing in the code corresponds. -/
def Units (us : List JUnit) : Prop := ∀ n, JUnit.u n ∈ us → n < 65536

theorem units_of_spells {us : List JUnit} {t : List Char} (h : SpellsUnits us t) : Units us := by
  induction h with
  | nil => intro n hn; cases hn
  | @cons u cs t us h ht ih =>
    intro n hn
    rcases List.mem_cons.mp hn with hn | hn
    · subst hn
      cases h with
      | hex w x y z n h => exact hex4_lt (hex4_of h)
    · exact ih n hn

theorem text_u {n : Nat} {us : List JUnit} {s : List Char} (hn : n < 65536) (hs : n < 0xD800 ∨ 0xE000 ≤ n) (h : Text us s) :
    Text (.u n :: us) (Char.ofNat n :: s) := by
  have hv : n.isValidChar := by
    rcases hs with hs | hs
    · exact Or.inl hs
    · exact Or.inr ⟨by omega, by omega⟩
  have := Text.u (c := Char.ofNat n) h
  rwa [ofNat_valid hv] at this

theorem toChars_text (k : Nat) (us : List JUnit) (hk : us.length ≤ k) (hu : Units us) (s : List Char) (h : toChars us = some s) : Text us s := by
  induction k generalizing us s with
  | zero =>
    have : us = [] := List.length_eq_zero_iff.mp (by omega)
    subst this
    simp [toChars] at h
    subst h
    exact .nil
  | succ k ih =>
    rw [toChars.eq_def] at h
    split at h
    · cases h; exact .nil
    · rename_i c r
      obtain ⟨s', h1, rfl⟩ := Option.map_eq_some_iff.mp h
      exact .ch (ih r (by simpa using hk) (fun n hn => hu n (by simp [hn])) s' h1)
    · rename_i n
      split at h
      · rename_i hs
        cases h
        exact text_u (hu n (by simp)) hs .nil
      · cases h
    · rename_i n x r
      split at h
      · rename_i hs
        obtain ⟨s', h1, rfl⟩ := Option.map_eq_some_iff.mp h
        exact text_u (hu n (by simp)) hs (ih (x :: r) (by simpa using hk) (fun n hn => hu n (List.mem_cons_of_mem _ hn)) s' h1)
      · rename_i hs
        split at h
        · rename_i m
          split at h
          · rename_i hm
            obtain ⟨s', h1, rfl⟩ := Option.map_eq_some_iff.mp h
            refine .pair (ih r (by simp at hk ⊢; omega) (fun n hn => hu n (by simp [hn])) s' h1) ⟨by omega, hm.1⟩ hm.2 ?_
            apply ofNat_valid
            exact Or.inr ⟨by omega, by omega⟩
          · cases h
        · cases h

theorem text_toChars {us : List JUnit} {s : List Char} (h : Text us s) : toChars us = some s := by
  induction h with
  | nil => rfl
  | @ch c us s h ih => rw [toChars.eq_def]; simp [ih]
  | @u c us s h ih =>
    rw [tc_u (char_not_surrogate c), ih, Char.ofNat_toNat]; rfl
  | @pair c us s hi lo h hh hl hc ih =>
    rw [toChars.eq_def]
    simp only
    rw [if_neg (by omega), if_pos ⟨hh.2, hl.1, hl.2⟩, ih, ← hc, Char.ofNat_toNat]; rfl

theorem toChars_iff {us : List JUnit} (hu : Units us) (s : List Char) : toChars us = some s ↔ Text us s :=
  ⟨toChars_text us.length us (Nat.le_refl _) hu s, text_toChars⟩

/-! ### Values that came from a text -/

mutual
/-- All strings in the value are without lone surrogates. Specification: nothing in the code corresponds. -/
def GoodVal : JVal → Prop
  | .str us => Units us
  | .arr l => GoodVals l
  | .obj l => GoodFields l
  | _ => True
/-- The same for the elements of an array. Specification: nothing in the code corresponds. -/
def GoodVals : List JVal → Prop
  | [] => True
  | v :: r => GoodVal v ∧ GoodVals r
/-- The same for the fields of an object. Specification: nothing in the code corresponds. -/
def GoodFields : List (List JUnit × JVal) → Prop
  | [] => True
  | m :: r => Units m.1 ∧ GoodVal m.2 ∧ GoodFields r
end

theorem spells_good {v : JVal} {t : List Char} (h : Spells v t) : GoodVal v := by
  refine Spells.rec (motive_1 := fun v _ _ => GoodVal v) (motive_2 := fun fs _ _ => GoodFields fs) (motive_3 := fun vs _ _ => GoodVals vs)
    ?_ ?_ ?_ ?_ ?_ ?_ ?_ ?_ ?_ ?_ ?_ ?_ ?_ h
  · exact trivial
  · exact trivial
  · exact trivial
  · intro t h; exact trivial
  · intro us t h; exact units_of_spells h
  · intro w h; exact trivial
  · intro fs t h ih; simpa only [GoodVal] using ih
  · intro w h; exact trivial
  · intro fs t h ih; simpa only [GoodVal] using ih
  · intro k v kt vt w₁ w₂ w₃ w₄ hk hv _ _ _ _ ih
    simp only [GoodFields]
    exact ⟨units_of_spells hk, ih, trivial⟩
  · intro k v kt vt w₁ w₂ w₃ w₄ t fs hk hv _ _ _ _ ht ih ih'
    simp only [GoodFields]
    exact ⟨units_of_spells hk, ih, ih'⟩
  · intro v vt w₁ w₂ hv _ _ ih
    simp only [GoodVals]
    exact ⟨ih, trivial⟩
  · intro v vt w₁ w₂ t vs hv _ _ ht ih ih'
    simp only [GoodVals]
    exact ⟨ih, ih'⟩

theorem string_iff {v : JVal} (hv : GoodVal v) (s : List Char) : v.string? = some s ↔ IsStr v s := by
  unfold IsStr
  cases v with
  | str us =>
    simp only [JVal.string?, GoodVal] at hv ⊢
    rw [toChars_iff hv]
    constructor
    · intro h; exact ⟨us, rfl, h⟩
    · rintro ⟨us', h1, h2⟩; cases h1; exact h2
  | _ => simp [JVal.string?]

theorem optString_iff {v : JVal} (hv : GoodVal v) (s : Option (List Char)) : v.optString? = some s ↔ IsOptStr v s := by
  unfold IsOptStr
  have other : ∀ (o : Option (List Char)), (o.map some = some s) ↔ ∃ x, s = some x ∧ o = some x := by
    intro o
    cases o with
    | none => simp
    | some y =>
      constructor
      · intro h; exact ⟨y, by simpa using h.symm, rfl⟩
      · rintro ⟨x, rfl, h⟩; simpa using h
  cases v with
  | null =>
    simp only [JVal.optString?, true_and]
    constructor
    · intro h; cases h; exact Or.inl rfl
    · rintro (rfl | ⟨x, -, us, h, -⟩)
      · rfl
      · cases h
  | _ =>
    simp only [JVal.optString?]
    rw [other]
    simp only [string_iff hv]
    simp

/-! ### One field at a time -/

/-- What is read of the field `name`, with the reader `p` for its value.
    Specification: nothing in the code corresponds. -/
def fieldFold {α : Type} (name : String) (p : JVal → Option α) : Option α → List (List JUnit × JVal) → Option (Option α)
  | x, [] => some x
  | x, (k, v) :: r =>
    if toChars k = some name.toList then
      match x, p v with
      | none, some s => fieldFold name p (some s) r
      | _, _ => none
    else fieldFold name p x r

theorem addAll_folds (a : ResAcc) (js : List (List JUnit × JVal)) (b : ResAcc) :
    ResAcc.addAll a js = some b ↔ (∀ m ∈ js, (toChars m.1).isSome) ∧ fieldFold "msgId" JVal.string? a.msgId js = some b.msgId ∧
      fieldFold "signature" JVal.optString? a.signature js = some b.signature ∧ fieldFold "error" JVal.optString? a.error js = some b.error := by
  induction js generalizing a with
  | nil =>
    obtain ⟨a1, a2, a3⟩ := a
    obtain ⟨b1, b2, b3⟩ := b
    simp only [ResAcc.addAll, fieldFold, Option.some.injEq, ResAcc.mk.injEq, List.not_mem_nil, false_imp_iff, implies_true, true_and]
  | cons m js ih =>
    obtain ⟨k, v⟩ := m
    simp only [ResAcc.addAll, fieldFold, List.forall_mem_cons]
    cases hk : toChars k with
    | none => simp
    | some k =>
      simp only [Option.isSome_some, true_and, Option.some.injEq]
      by_cases h1 : k = "msgId".toList
      · have n2 : ¬ k = "signature".toList := by rw [h1]; decide
        have n3 : ¬ k = "error".toList := by rw [h1]; decide
        simp only [if_pos h1, if_neg n2, if_neg n3, ResAcc.add]
        cases hx : a.msgId with
        | some x => simp
        | none =>
          cases hs : v.string? with
          | none => simp
          | some s => simp only; rw [ih]
      · by_cases h2 : k = "signature".toList
        · have n3 : ¬ k = "error".toList := by rw [h2]; decide
          simp only [if_neg h1, if_pos h2, if_neg n3, ResAcc.add]
          cases hx : a.signature with
          | some x => simp
          | none =>
            cases hs : v.optString? with
            | none => simp
            | some s => simp only; rw [ih]
        · by_cases h3 : k = "error".toList
          · simp only [if_neg h1, if_neg h2, if_pos h3, ResAcc.add]
            cases hx : a.error with
            | some x => simp
            | none =>
              cases hs : v.optString? with
              | none => simp
              | some s => simp only; rw [ih]
          · simp only [if_neg h1, if_neg h2, if_neg h3, ResAcc.add]
            rw [ih]

theorem fold_some {α : Type} (name : String) (p : JVal → Option α) (x : α) (js : List (List JUnit × JVal)) (y : Option α) :
    fieldFold name p (some x) js = some y ↔ y = some x ∧ ∀ m ∈ js, ¬ toChars m.1 = some name.toList := by
  induction js with
  | nil => simp [fieldFold, eq_comm]
  | cons m js ih =>
    obtain ⟨k, v⟩ := m
    simp only [fieldFold, List.forall_mem_cons]
    split
    · rename_i h; simp [h]
    · rename_i h; rw [ih]; simp [h]

theorem fold_none {α : Type} (name : String) (p : JVal → Option α) (js : List (List JUnit × JVal)) (y : Option α) :
    fieldFold name p none js = some y ↔ (y = none ∧ ∀ m ∈ js, ¬ toChars m.1 = some name.toList) ∨
      ∃ v, (∃ pre k post, js = pre ++ (k, v) :: post ∧ toChars k = some name.toList ∧ ∀ m ∈ pre ++ post, ¬ toChars m.1 = some name.toList) ∧
        ∃ s, y = some s ∧ p v = some s := by
  induction js with
  | nil =>
    constructor
    · intro h; cases h; exact Or.inl ⟨rfl, fun m hm => by cases hm⟩
    · rintro (⟨rfl, -⟩ | ⟨v, ⟨pre, k, post, h, -⟩, -⟩)
      · rfl
      · simp at h
  | cons m js ih =>
    obtain ⟨k, v⟩ := m
    simp only [fieldFold]
    split
    · rename_i h
      constructor
      · intro hf
        cases hp : p v with
        | none => rw [hp] at hf; cases hf
        | some s =>
          rw [hp] at hf
          simp only at hf
          obtain ⟨h1, h2⟩ := (fold_some ..).mp hf
          exact Or.inr ⟨v, ⟨[], k, js, rfl, h, by simpa using h2⟩, s, h1, hp⟩
      · rintro (⟨-, h2⟩ | ⟨v', ⟨pre, k', post, e1, e2, e3⟩, s, rfl, h4⟩)
        · exact absurd h (h2 (k, v) (by simp))
        · cases pre with
          | nil =>
            simp at e1
            obtain ⟨⟨rfl, rfl⟩, rfl⟩ := e1
            rw [h4]
            simp only
            exact (fold_some ..).mpr ⟨rfl, by simpa using e3⟩
          | cons m' pre =>
            simp only [List.cons_append, List.cons.injEq] at e1
            obtain ⟨rfl, -⟩ := e1
            exact absurd h (e3 (k, v) (by simp))
    · rename_i h
      rw [ih]
      constructor
      · rintro (⟨h1, h2⟩ | ⟨v', ⟨pre, k', post, rfl, e2, e3⟩, s, h3⟩)
        · refine Or.inl ⟨h1, ?_⟩
          intro m hm
          rcases List.mem_cons.mp hm with rfl | hm
          · exact h
          · exact h2 m hm
        · refine Or.inr ⟨v', ⟨(k, v) :: pre, k', post, rfl, e2, ?_⟩, s, h3⟩
          intro m hm
          rcases List.mem_cons.mp hm with rfl | hm
          · exact h
          · exact e3 m hm
      · rintro (⟨h1, h2⟩ | ⟨v', ⟨pre, k', post, e1, e2, e3⟩, s, h3⟩)
        · exact Or.inl ⟨h1, fun m hm => h2 m (by simp [hm])⟩
        · cases pre with
          | nil =>
            simp at e1
            obtain ⟨⟨rfl, rfl⟩, rfl⟩ := e1
            exact absurd e2 h
          | cons m' pre =>
            simp only [List.cons_append, List.cons.injEq] at e1
            obtain ⟨rfl, rfl⟩ := e1
            exact Or.inr ⟨v', ⟨pre, k', post, rfl, e2, fun m hm => e3 m (by simp at hm ⊢; exact Or.inr hm)⟩, s, h3⟩

theorem good_mem {fs : List (List JUnit × JVal)} (h : GoodFields fs) : ∀ m ∈ fs, Units m.1 ∧ GoodVal m.2 := by
  induction fs with
  | nil => intro m hm; cases hm
  | cons x fs ih =>
    simp only [GoodFields] at h
    intro m hm
    rcases List.mem_cons.mp hm with rfl | hm
    · exact ⟨h.1, h.2.1⟩
    · exact ih h.2.2 m hm

theorem only_iff {fs : List (List JUnit × JVal)} (h : GoodFields fs) (name : String) (v : JVal) :
    (∃ pre k post, fs = pre ++ (k, v) :: post ∧ toChars k = some name.toList ∧ ∀ m ∈ pre ++ post, ¬ toChars m.1 = some name.toList) ↔
      Only fs name v := by
  have hg := good_mem h
  unfold Only
  constructor
  · rintro ⟨pre, k, post, rfl, e2, e3⟩
    refine ⟨pre, k, post, rfl, (toChars_iff (hg (k, v) (by simp)).1 _).mp e2, ?_⟩
    intro m hm ht
    exact e3 m hm (text_toChars ht)
  · rintro ⟨pre, k, post, rfl, e2, e3⟩
    refine ⟨pre, k, post, rfl, text_toChars e2, ?_⟩
    intro m hm ht
    exact e3 m hm ((toChars_iff (hg m (by simp at hm ⊢; rcases hm with hm | hm <;> simp [hm])).1 _).mp ht)

theorem none_iff {fs : List (List JUnit × JVal)} (h : GoodFields fs) (name : String) :
    (∀ m ∈ fs, ¬ toChars m.1 = some name.toList) ↔ ∀ m ∈ fs, ¬ Text m.1 name.toList := by
  have hg := good_mem h
  constructor
  · intro hn m hm ht; exact hn m hm (text_toChars ht)
  · intro hn m hm ht; exact hn m hm ((toChars_iff (hg m hm).1 _).mp ht)

theorem only_good {fs : List (List JUnit × JVal)} (h : GoodFields fs) {name : String} {v : JVal} (ho : Only fs name v) : GoodVal v := by
  obtain ⟨pre, k, post, rfl, -⟩ := ho
  exact (good_mem h (k, v) (by simp)).2

/-- A field that may be missing: what the fold gives, seen through `join`. -/
theorem opt_fold {fs : List (List JUnit × JVal)} (h : GoodFields fs) (name : String) (s : Option (List Char)) :
    (∃ y, fieldFold name JVal.optString? none fs = some y ∧ y.join = s) ↔ OptMember fs name s := by
  unfold OptMember
  rw [← none_iff h]
  constructor
  · rintro ⟨y, h1, rfl⟩
    rcases (fold_none ..).mp h1 with ⟨rfl, h2⟩ | ⟨v, hv, x, rfl, hx⟩
    · exact Or.inl ⟨rfl, h2⟩
    · have ho := (only_iff h name v).mp hv
      exact Or.inr ⟨v, ho, (optString_iff (only_good h ho) _).mp hx⟩
  · rintro (⟨rfl, h2⟩ | ⟨v, ho, hx⟩)
    · exact ⟨none, (fold_none ..).mpr (Or.inl ⟨rfl, h2⟩), rfl⟩
    · exact ⟨some s, (fold_none ..).mpr (Or.inr ⟨v, (only_iff h name v).mpr ho, s, rfl, (optString_iff (only_good h ho) _).mpr hx⟩), rfl⟩

theorem id_fold {fs : List (List JUnit × JVal)} (h : GoodFields fs) (name : String) (s : List Char) :
    fieldFold name JVal.string? none fs = some (some s) ↔ ∃ w, Only fs name w ∧ IsStr w s := by
  rw [fold_none]
  constructor
  · rintro (⟨h1, -⟩ | ⟨v, hv, x, h1, hx⟩)
    · cases h1
    · cases h1
      have ho := (only_iff h name v).mp hv
      exact ⟨v, ho, (string_iff (only_good h ho) _).mp hx⟩
  · rintro ⟨v, ho, hx⟩
    exact Or.inr ⟨v, (only_iff h name v).mpr ho, s, rfl, (string_iff (only_good h ho) _).mpr hx⟩

theorem keys_iff {fs : List (List JUnit × JVal)} (h : GoodFields fs) : (∀ m ∈ fs, (toChars m.1).isSome) ↔ ∀ m ∈ fs, ∃ k, Text m.1 k := by
  have hg := good_mem h
  constructor
  · intro hn m hm
    obtain ⟨k, hk⟩ := Option.isSome_iff_exists.mp (hn m hm)
    exact ⟨k, (toChars_iff (hg m hm).1 _).mp hk⟩
  · intro hn m hm
    obtain ⟨k, hk⟩ := hn m hm
    rw [text_toChars hk]; rfl

theorem resOf_obj (fs : List (List JUnit × JVal)) (id : List Char) (sig err : Option (List Char)) :
    resOf (.obj fs) = some (id, sig, err) ↔
      ∃ b : ResAcc, ResAcc.addAll ⟨none, none, none⟩ fs = some b ∧ b.msgId = some id ∧ b.signature.join = sig ∧ b.error.join = err := by
  unfold resOf
  simp only
  cases hb : ResAcc.addAll ⟨none, none, none⟩ fs with
  | none => simp
  | some b =>
    obtain ⟨b1, b2, b3⟩ := b
    cases b1 with
    | none =>
      simp only [Option.some.injEq, exists_eq_left']
      simp
    | some i =>
      simp only [Option.some.injEq, exists_eq_left', Prod.mk.injEq]

/-- The struct is read from exactly the replies. -/
theorem resOf_iff {v : JVal} (hv : GoodVal v) (id : List Char) (sig err : Option (List Char)) :
    resOf v = some (id, sig, err) ↔ IsReply v id sig err := by
  unfold IsReply
  cases v with
  | obj fs =>
    have hg : GoodFields fs := by simpa only [GoodVal] using hv
    rw [resOf_obj]
    constructor
    · rintro ⟨b, hb, h1, h2, h3⟩
      obtain ⟨k0, k1, k2, k3⟩ := (addAll_folds ..).mp hb
      rw [h1] at k1
      exact Or.inl ⟨fs, rfl, (keys_iff hg).mp k0, (id_fold hg _ _).mp k1, (opt_fold hg _ _).mp ⟨_, k2, h2⟩, (opt_fold hg _ _).mp ⟨_, k3, h3⟩⟩
    · rintro (⟨fs', he, k0, k1, k2, k3⟩ | ⟨a, b, c, he, -⟩)
      · cases he
        obtain ⟨y2, k2, e2⟩ := (opt_fold hg _ _).mpr k2
        obtain ⟨y3, k3, e3⟩ := (opt_fold hg _ _).mpr k3
        exact ⟨⟨some id, y2, y3⟩, (addAll_folds ..).mpr ⟨(keys_iff hg).mpr k0, (id_fold hg _ _).mpr k1, k2, k3⟩, rfl, e2, e3⟩
      · cases he
  | arr l =>
    have hg : GoodVals l := by simpa only [GoodVal] using hv
    constructor
    · intro h
      unfold resOf at h
      split at h
      · rename_i he; cases he
      · rename_i a b c he
        cases he
        simp only [GoodVals] at hg
        split at h
        · rename_i i s e h1 h2 h3
          simp only [Option.some.injEq, Prod.mk.injEq] at h
          obtain ⟨rfl, rfl, rfl⟩ := h
          exact Or.inr ⟨a, b, c, rfl, (string_iff hg.1 _).mp h1, (optString_iff hg.2.1 _).mp h2, (optString_iff hg.2.2.1 _).mp h3⟩
        · cases h
      · cases h
    · rintro (⟨fs, he, -⟩ | ⟨a, b, c, he, h1, h2, h3⟩)
      · cases he
      · cases he
        simp only [GoodVals] at hg
        simp [resOf, (string_iff hg.1 _).mpr h1, (optString_iff hg.2.1 _).mpr h2, (optString_iff hg.2.2.1 _).mpr h3]
  | _ => simp [resOf]

theorem isJson_good {v : JVal} {t : List Char} (h : IsJson v t) : GoodVal v := by
  obtain ⟨w, u, w', -, -, hu, -⟩ := h
  exact spells_good hu

end Lair.Json
