import Verif.JsonLemmas

/- The grammar of all JSON texts (RFC 8259), independent of the reader. -/
namespace Lair.Json

/-! ### Grammar -/

/-- The ways to write one unit of a string: a character, or a `\u` escape.
    Specification: nothing in the code corresponds. -/
inductive SpellsUnit : JUnit → List Char → Prop
  | raw (c : Char) (h : 32 ≤ c.toNat) (hq : c ≠ '"') (hb : c ≠ '\\') : SpellsUnit (.ch c) [c]
  | quote : SpellsUnit (.ch '"') ['\\', '"']
  | backslash : SpellsUnit (.ch '\\') ['\\', '\\']
  | slash : SpellsUnit (.ch '/') ['\\', '/']
  | bs : SpellsUnit (.ch (Char.ofNat 8)) ['\\', 'b']
  | ff : SpellsUnit (.ch (Char.ofNat 12)) ['\\', 'f']
  | nl : SpellsUnit (.ch '\n') ['\\', 'n']
  | cr : SpellsUnit (.ch '\r') ['\\', 'r']
  | tab : SpellsUnit (.ch '\t') ['\\', 't']
  | hex (w x y z : Char) (n : Nat) (h : Hex4 w x y z n) : SpellsUnit (.u n) ['\\', 'u', w, x, y, z]

/-- What is between the quotes. Specification: nothing in the code corresponds. -/
inductive SpellsUnits : List JUnit → List Char → Prop
  | nil : SpellsUnits [] []
  | cons {u : JUnit} {cs t : List Char} {us : List JUnit} (h : SpellsUnit u cs) (ht : SpellsUnits us t) :
      SpellsUnits (u :: us) (cs ++ t)

/-- A decimal digit (RFC 8259). Specification: nothing in the code corresponds. -/
def Digit (c : Char) : Prop := c ∈ "0123456789".toList

/-- One or more digits. Specification: nothing in the code corresponds. -/
def Digits (t : List Char) : Prop := t ≠ [] ∧ ∀ c ∈ t, Digit c

/-- No leading zero. Specification: nothing in the code corresponds. -/
def IntPart (t : List Char) : Prop := t = ['0'] ∨ Digits t ∧ t.head? ≠ some '0'

/-- An optional fraction. Specification: nothing in the code corresponds. -/
def FracPart (t : List Char) : Prop := t = [] ∨ ∃ d, Digits d ∧ t = '.' :: d

/-- An optional exponent. Specification: nothing in the code corresponds. -/
def ExpPart (t : List Char) : Prop :=
  t = [] ∨ ∃ e s d, (e = 'e' ∨ e = 'E') ∧ (s = [] ∨ s = ['+'] ∨ s = ['-']) ∧ Digits d ∧ t = e :: (s ++ d)

/-- A number (RFC 8259, section 6). Specification: nothing in the code corresponds. -/
def IsNumber (t : List Char) : Prop :=
  ∃ m i f e, (m = [] ∨ m = ['-']) ∧ IntPart i ∧ FracPart f ∧ ExpPart e ∧ t = m ++ (i ++ (f ++ e))

mutual
/-- The ways to write a value. Specification: nothing in the code corresponds. -/
inductive Spells : JVal → List Char → Prop
  | null : Spells .null "null".toList
  | true : Spells (.bool true) "true".toList
  | false : Spells (.bool false) "false".toList
  | num {t : List Char} (h : IsNumber t) : Spells .num t
  | str {us : List JUnit} {t : List Char} (h : SpellsUnits us t) : Spells (.str us) ('"' :: (t ++ ['"']))
  | obj0 {w : List Char} (h : Ws w) : Spells (.obj []) ('{' :: (w ++ ['}']))
  | obj {fs : List (List JUnit × JVal)} {t : List Char} (h : SpellsMembersG fs t) : Spells (.obj fs) ('{' :: t)
  | arr0 {w : List Char} (h : Ws w) : Spells (.arr []) ('[' :: (w ++ [']']))
  | arr {vs : List JVal} {t : List Char} (h : SpellsElems vs t) : Spells (.arr vs) ('[' :: t)
/-- The members of an object, with its closing brace. Specification: nothing in the code corresponds. -/
inductive SpellsMembersG : List (List JUnit × JVal) → List Char → Prop
  | last {k : List JUnit} {v : JVal} {kt vt w₁ w₂ w₃ w₄ : List Char} (hk : SpellsUnits k kt) (hv : Spells v vt)
      (h₁ : Ws w₁) (h₂ : Ws w₂) (h₃ : Ws w₃) (h₄ : Ws w₄) :
      SpellsMembersG [(k, v)] (w₁ ++ '"' :: (kt ++ '"' :: (w₂ ++ ':' :: (w₃ ++ (vt ++ (w₄ ++ ['}']))))))
  | more {k : List JUnit} {v : JVal} {kt vt w₁ w₂ w₃ w₄ t : List Char} {fs : List (List JUnit × JVal)}
      (hk : SpellsUnits k kt) (hv : Spells v vt) (h₁ : Ws w₁) (h₂ : Ws w₂) (h₃ : Ws w₃) (h₄ : Ws w₄) (ht : SpellsMembersG fs t) :
      SpellsMembersG ((k, v) :: fs) (w₁ ++ '"' :: (kt ++ '"' :: (w₂ ++ ':' :: (w₃ ++ (vt ++ (w₄ ++ ',' :: t))))))
/-- The elements of an array, with its closing bracket. Specification: nothing in the code corresponds. -/
inductive SpellsElems : List JVal → List Char → Prop
  | last {v : JVal} {vt w₁ w₂ : List Char} (hv : Spells v vt) (h₁ : Ws w₁) (h₂ : Ws w₂) : SpellsElems [v] (w₁ ++ (vt ++ (w₂ ++ [']'])))
  | more {v : JVal} {vt w₁ w₂ t : List Char} {vs : List JVal} (hv : Spells v vt) (h₁ : Ws w₁) (h₂ : Ws w₂) (ht : SpellsElems vs t) :
      SpellsElems (v :: vs) (w₁ ++ (vt ++ (w₂ ++ ',' :: t)))
end

/-- A JSON text. Specification: nothing in the code corresponds. -/
def IsJson (v : JVal) (t : List Char) : Prop := ∃ w u w', Ws w ∧ Ws w' ∧ Spells v u ∧ t = w ++ (u ++ w')

/-! ### Pieces -/

theorem ws_iff {c : Char} : isWs c = true ↔ c = ' ' ∨ c = '\n' ∨ c = '\t' ∨ c = '\r' := by
  simp [isWs, or_assoc]

theorem skipWs_split (cs : List Char) : ∃ w, Ws w ∧ cs = w ++ skipWs cs := by
  induction cs with
  | nil => exact ⟨[], (fun c hc => by cases hc), rfl⟩
  | cons c r ih =>
    cases h : isWs c with
    | true =>
      obtain ⟨w, h1, h2⟩ := ih
      refine ⟨c :: w, ?_, ?_⟩
      · intro d hd
        rcases List.mem_cons.mp hd with rfl | hd
        · exact ws_iff.mp h
        · exact h1 d hd
      · have : skipWs (c :: r) = skipWs r := by simp [skipWs, h]
        rw [this, List.cons_append, ← h2]
    | false => exact ⟨[], (fun c hc => by cases hc), by rw [skipWs_cons h]; rfl⟩

theorem digit_iff {c : Char} : isDigit c = true ↔ Digit c := by
  constructor
  · intro h
    have h' : 48 ≤ c.toNat ∧ c.toNat ≤ 57 := by simpa [isDigit] using h
    have key : ∀ n : Fin 10, Digit (Char.ofNat (48 + n.val)) := by unfold Digit; decide +kernel
    have := key ⟨c.toNat - 48, by omega⟩
    simp only at this
    rw [show 48 + (c.toNat - 48) = c.toNat by omega, Char.ofNat_toNat] at this
    exact this
  · intro h
    simp [Digit] at h
    rcases h with rfl | rfl | rfl | rfl | rfl | rfl | rfl | rfl | rfl | rfl <;> decide

theorem hex_of_val {c : Char} {n : Nat} (h : hexVal c = some n) : Hex c n := by
  unfold hexVal at h
  simp only at h
  split at h
  · rename_i hc
    simp at h
    have key : ∀ m : Fin 10, "0123456789abcdef".toList[m.val]? = some (Char.ofNat (48 + m.val)) := by decide +kernel
    have := key ⟨c.toNat - 48, by omega⟩
    simp only at this
    rw [show 48 + (c.toNat - 48) = c.toNat by omega, Char.ofNat_toNat, h] at this
    exact Or.inl this
  · split at h
    · rename_i hc
      simp at h
      have key : ∀ m : Fin 6, "0123456789abcdef".toList[m.val + 10]? = some (Char.ofNat (97 + m.val)) := by decide +kernel
      have := key ⟨c.toNat - 97, by omega⟩
      simp only at this
      rw [show 97 + (c.toNat - 97) = c.toNat by omega, Char.ofNat_toNat, show c.toNat - 97 + 10 = n by omega] at this
      exact Or.inl this
    · split at h
      · rename_i hc
        simp at h
        have key : ∀ m : Fin 6, "0123456789ABCDEF".toList[m.val + 10]? = some (Char.ofNat (65 + m.val)) := by decide +kernel
        have := key ⟨c.toNat - 65, by omega⟩
        simp only at this
        rw [show 65 + (c.toNat - 65) = c.toNat by omega, Char.ofNat_toNat, show c.toNat - 65 + 10 = n by omega] at this
        exact Or.inr this
      · cases h

theorem hex4_spec {w x y z : Char} {n : Nat} (h : hex4 w x y z = some n) : Hex4 w x y z n := by
  unfold hex4 at h
  split at h
  · rename_i a b c d h1 h2 h3 h4
    simp at h
    exact ⟨a, b, c, d, hex_of_val h1, hex_of_val h2, hex_of_val h3, hex_of_val h4, h.symm⟩
  · cases h

theorem esc_spec {e c : Char} (h : simpleEsc e = some c) : SpellsUnit (.ch c) ['\\', e] := by
  unfold simpleEsc at h
  split at h
  · rename_i he
    cases h
    rcases he with rfl | rfl | rfl
    · exact .quote
    · exact .backslash
    · exact .slash
  · split at h
    · rename_i he; cases h; subst he; exact .bs
    · split at h
      · rename_i he; cases h; subst he; exact .ff
      · split at h
        · rename_i he; cases h; subst he; exact .nl
        · split at h
          · rename_i he; cases h; subst he; exact .cr
          · split at h
            · rename_i he; cases h; subst he; exact .tab
            · cases h

theorem units_some {u : Option JUnit} {r : Option (List JUnit × List Char)} {us : List JUnit} {t : List Char}
    (h : unit? u r = some (us, t)) : ∃ v vs, u = some v ∧ r = some (vs, t) ∧ us = v :: vs := by
  unfold unit? at h
  split at h
  · rename_i v vs t'
    cases h
    exact ⟨_, _, rfl, rfl, rfl⟩
  · cases h

/-! ### What the reader accepts is in the grammar -/

theorem units_sound (n : Nat) (cs : List Char) (hn : cs.length ≤ n) (us : List JUnit) (r : List Char) (h : parseUnits cs = some (us, r)) :
    ∃ t, SpellsUnits us t ∧ cs = t ++ '"' :: r := by
  induction n generalizing cs us r with
  | zero =>
    have : cs = [] := List.length_eq_zero_iff.mp (by omega)
    subst this
    simp [parseUnits] at h
  | succ n ih =>
    rw [parseUnits.eq_def] at h
    split at h
    · cases h
    · rename_i c
      split at h
      · rename_i hc; subst hc; cases h; exact ⟨[], .nil, rfl⟩
      · cases h
    · rename_i c e r'
      simp only [List.length_cons] at hn
      split at h
      · rename_i hc; subst hc; cases h; exact ⟨[], .nil, rfl⟩
      · rename_i hq
        split at h
        · rename_i hb
          subst hb
          split at h
          · rename_i he
            subst he
            split at h
            · rename_i w x y z r''
              obtain ⟨v, vs, h1, h2, rfl⟩ := units_some h
              obtain ⟨k, hk, rfl⟩ := Option.map_eq_some_iff.mp h1
              simp only [List.length_cons] at hn
              obtain ⟨t, ht, rfl⟩ := ih _ (by omega) _ _ h2
              exact ⟨['\\', 'u', w, x, y, z] ++ t, .cons (.hex w x y z k (hex4_spec hk)) ht, by simp⟩
            · cases h
          · obtain ⟨v, vs, h1, h2, rfl⟩ := units_some h
            obtain ⟨k, hk, rfl⟩ := Option.map_eq_some_iff.mp h1
            obtain ⟨t, ht, rfl⟩ := ih _ (by omega) _ _ h2
            exact ⟨['\\', e] ++ t, .cons (esc_spec hk) ht, by simp⟩
        · rename_i hb
          split at h
          · cases h
          · rename_i h32
            obtain ⟨v, vs, h1, h2, rfl⟩ := units_some h
            cases h1
            obtain ⟨t, ht, he⟩ := ih _ (by simp; omega) _ _ h2
            exact ⟨[c] ++ t, .cons (.raw c (by omega) hq hb) ht, by rw [he]; simp⟩

theorem dropWhile_digits (cs : List Char) : ∃ d, (∀ c ∈ d, Digit c) ∧ cs = d ++ cs.dropWhile isDigit := by
  refine ⟨cs.takeWhile isDigit, ?_, (List.takeWhile_append_dropWhile ..).symm⟩
  intro c hc
  exact digit_iff.mp (List.all_eq_true.mp (List.all_takeWhile) c hc)

theorem digits1_sound {cs r : List Char} (h : digits1 cs = some r) : ∃ d, Digits d ∧ cs = d ++ r := by
  unfold digits1 at h
  split at h
  · rename_i c r'
    split at h
    · rename_i hc
      cases h
      obtain ⟨d, h1, h2⟩ := dropWhile_digits r'
      refine ⟨c :: d, ⟨by simp, ?_⟩, by rw [List.cons_append, ← h2]⟩
      intro x hx
      rcases List.mem_cons.mp hx with rfl | hx
      · exact digit_iff.mp hc
      · exact h1 x hx
    · cases h
  · cases h

theorem exp_sound {cs r : List Char} (h : parseExp cs = some r) : ∃ e, ExpPart e ∧ cs = e ++ r := by
  unfold parseExp at h
  split at h
  · rename_i c r'
    split at h
    · rename_i hc
      split at h
      · rename_i s r''
        split at h
        · rename_i hs
          obtain ⟨d, h1, rfl⟩ := digits1_sound h
          refine ⟨c :: ([s] ++ d), Or.inr ⟨c, [s], d, hc, ?_, h1, rfl⟩, by simp⟩
          rcases hs with rfl | rfl <;> simp
        · obtain ⟨d, h1, h2⟩ := digits1_sound h
          exact ⟨c :: ([] ++ d), Or.inr ⟨c, [], d, hc, Or.inl rfl, h1, rfl⟩, by rw [h2]; simp⟩
      · cases h
    · cases h; exact ⟨[], Or.inl rfl, rfl⟩
  · cases h; exact ⟨[], Or.inl rfl, rfl⟩

theorem frac_sound {cs r : List Char} (h : parseFrac cs = some r) : ∃ f e, FracPart f ∧ ExpPart e ∧ cs = f ++ (e ++ r) := by
  unfold parseFrac at h
  split at h
  · rename_i c r'
    split at h
    · rename_i hc
      subst hc
      obtain ⟨q, h1, h2⟩ := Option.bind_eq_some_iff.mp h
      obtain ⟨d, h3, rfl⟩ := digits1_sound h1
      obtain ⟨e, h4, rfl⟩ := exp_sound h2
      exact ⟨'.' :: d, e, Or.inr ⟨d, h3, rfl⟩, h4, by simp⟩
    · obtain ⟨e, h4, h5⟩ := exp_sound h
      exact ⟨[], e, Or.inl rfl, h4, h5⟩
  · cases h; exact ⟨[], [], Or.inl rfl, Or.inl rfl, rfl⟩

theorem int_sound {cs r : List Char} (h : parseInt cs = some r) :
    ∃ i f e, IntPart i ∧ FracPart f ∧ ExpPart e ∧ cs = i ++ (f ++ (e ++ r)) := by
  unfold parseInt at h
  split at h
  · rename_i c r'
    split at h
    · rename_i hc
      subst hc
      split at h
      · rename_i d r''
        split at h
        · cases h
        · obtain ⟨f, e, h1, h2, h3⟩ := frac_sound h
          exact ⟨['0'], f, e, Or.inl rfl, h1, h2, by rw [h3]; rfl⟩
      · cases h; exact ⟨['0'], [], [], Or.inl rfl, Or.inl rfl, Or.inl rfl, rfl⟩
    · rename_i h0
      split at h
      · rename_i hc
        obtain ⟨f, e, h1, h2, h3⟩ := frac_sound h
        obtain ⟨d, h4, h5⟩ := dropWhile_digits r'
        refine ⟨c :: d, f, e, Or.inr ⟨⟨by simp, ?_⟩, by simpa using h0⟩, h1, h2, by rw [List.cons_append, ← h3, ← h5]⟩
        intro x hx
        rcases List.mem_cons.mp hx with rfl | hx
        · exact digit_iff.mp hc
        · exact h4 x hx
      · cases h
  · cases h

theorem num_sound {cs r : List Char} (h : parseNum cs = some r) : ∃ t, IsNumber t ∧ cs = t ++ r := by
  unfold parseNum at h
  split at h
  · rename_i c r'
    split at h
    · rename_i hc
      subst hc
      obtain ⟨i, f, e, h1, h2, h3, rfl⟩ := int_sound h
      exact ⟨['-'] ++ (i ++ (f ++ e)), ⟨['-'], i, f, e, Or.inr rfl, h1, h2, h3, rfl⟩, by simp⟩
    · obtain ⟨i, f, e, h1, h2, h3, h4⟩ := int_sound h
      exact ⟨[] ++ (i ++ (f ++ e)), ⟨[], i, f, e, Or.inl rfl, h1, h2, h3, rfl⟩, by rw [h4]; simp⟩
  · cases h

theorem prefix_drop {p cs : List Char} (h : p.isPrefixOf cs = true) : cs = p ++ cs.drop p.length := by
  obtain ⟨t, rfl⟩ := List.isPrefixOf_iff_prefix.mp h
  simp

theorem sound_all (n : Nat) :
    (∀ cs v r, parseVal n cs = some (v, r) → ∃ w t, Ws w ∧ Spells v t ∧ cs = w ++ (t ++ r)) ∧
    (∀ cs fs r, parseMembers n cs = some (fs, r) → ∃ t, SpellsMembersG fs t ∧ cs = t ++ r) ∧
    ∀ cs vs r, parseElems n cs = some (vs, r) → ∃ t, SpellsElems vs t ∧ cs = t ++ r := by
  induction n with
  | zero =>
    refine ⟨?_, ?_, ?_⟩
    · intro cs v r h; simp [parseVal] at h
    · intro cs v r h; simp [parseMembers] at h
    · intro cs v r h; simp [parseElems] at h
  | succ n ih =>
    obtain ⟨ihv, ihm, ihe⟩ := ih
    refine ⟨?_, ?_, ?_⟩
    · intro cs v r h
      obtain ⟨w, hw, hcs⟩ := skipWs_split cs
      rw [parseVal] at h
      cases hsk : skipWs cs with
      | nil => rw [hsk] at h; cases h
      | cons c r' =>
        rw [hsk] at h hcs
        suffices hs : ∃ t, Spells v t ∧ c :: r' = t ++ r by
          obtain ⟨t, h1, h2⟩ := hs
          exact ⟨w, t, hw, h1, by rw [hcs, h2]⟩
        simp only at h
        split at h
        · rename_i hc
          subst hc
          obtain ⟨⟨us, q⟩, h1, h2⟩ := Option.map_eq_some_iff.mp h
          cases h2
          obtain ⟨t, h3, rfl⟩ := units_sound _ _ (Nat.le_refl _) _ _ h1
          exact ⟨_, .str h3, by simp⟩
        · split at h
          · rename_i hc
            subst hc
            obtain ⟨w', hw', hr'⟩ := skipWs_split r'
            cases hk : skipWs r' with
            | nil => rw [hk] at h; cases h
            | cons d r'' =>
              rw [hk] at h hr'
              simp only at h
              split at h
              · rename_i hd
                subst hd
                cases h
                exact ⟨_, .obj0 hw', by rw [hr']; simp⟩
              · obtain ⟨⟨fs, q⟩, h1, h2⟩ := Option.map_eq_some_iff.mp h
                cases h2
                obtain ⟨t, h3, h4⟩ := ihm _ _ _ h1
                have h5 : SpellsMembersG fs (w' ++ t) := by
                  cases h3 with
                  | @last k v kt vt w₁ w₂ w₃ w₄ hk hv h₁ h₂ h₃ h₄ =>
                    rw [← List.append_assoc]
                    refine .last hk hv ?_ h₂ h₃ h₄
                    intro c hc
                    rcases List.mem_append.mp hc with hc | hc
                    · exact hw' c hc
                    · exact h₁ c hc
                  | @more k v kt vt w₁ w₂ w₃ w₄ t fs hk hv h₁ h₂ h₃ h₄ ht =>
                    rw [← List.append_assoc]
                    refine .more hk hv ?_ h₂ h₃ h₄ ht
                    intro c hc
                    rcases List.mem_append.mp hc with hc | hc
                    · exact hw' c hc
                    · exact h₁ c hc
                exact ⟨_, .obj h5, by rw [hr', h4]; simp⟩
          · split at h
            · rename_i hc
              subst hc
              obtain ⟨w', hw', hr'⟩ := skipWs_split r'
              cases hk : skipWs r' with
              | nil => rw [hk] at h; cases h
              | cons d r'' =>
                rw [hk] at h hr'
                simp only at h
                split at h
                · rename_i hd
                  subst hd
                  cases h
                  exact ⟨_, .arr0 hw', by rw [hr']; simp⟩
                · obtain ⟨⟨fs, q⟩, h1, h2⟩ := Option.map_eq_some_iff.mp h
                  cases h2
                  obtain ⟨t, h3, h4⟩ := ihe _ _ _ h1
                  have h5 : SpellsElems fs (w' ++ t) := by
                    cases h3 with
                    | @last v vt w₁ w₂ hv h₁ h₂ =>
                      rw [← List.append_assoc]
                      refine .last hv ?_ h₂
                      intro c hc
                      rcases List.mem_append.mp hc with hc | hc
                      · exact hw' c hc
                      · exact h₁ c hc
                    | @more v vt w₁ w₂ t vs hv h₁ h₂ ht =>
                      rw [← List.append_assoc]
                      refine .more hv ?_ h₂ ht
                      intro c hc
                      rcases List.mem_append.mp hc with hc | hc
                      · exact hw' c hc
                      · exact h₁ c hc
                  exact ⟨_, .arr h5, by rw [hr', h4]; simp⟩
            · split at h
              · rename_i hp
                cases h
                exact ⟨_, .null, prefix_drop hp⟩
              · split at h
                · rename_i hp
                  cases h
                  exact ⟨_, .true, prefix_drop hp⟩
                · split at h
                  · rename_i hp
                    cases h
                    exact ⟨_, .false, prefix_drop hp⟩
                  · obtain ⟨q, h1, h2⟩ := Option.map_eq_some_iff.mp h
                    cases h2
                    obtain ⟨t, h3, h4⟩ := num_sound h1
                    exact ⟨t, .num h3, h4⟩
    · intro cs fs r h
      obtain ⟨w₁, hw₁, hcs⟩ := skipWs_split cs
      rw [parseMembers] at h
      cases hk : skipWs cs with
      | nil => rw [hk] at h; cases h
      | cons c r₁ =>
        rw [hk] at h hcs
        simp only at h
        split at h
        · rename_i hc
          subst hc
          split at h
          · cases h
          · rename_i key r₂ hu
            obtain ⟨kt, hkt, rfl⟩ := units_sound _ _ (Nat.le_refl _) _ _ hu
            obtain ⟨w₂, hw₂, hr₂⟩ := skipWs_split r₂
            cases hk2 : skipWs r₂ with
            | nil => rw [hk2] at h; cases h
            | cons c r₃ =>
              rw [hk2] at h hr₂
              simp only at h
              split at h
              · rename_i hc
                subst hc
                split at h
                · cases h
                · rename_i v r₄ hv
                  obtain ⟨w₃, vt, hw₃, hvt, hr₃⟩ := ihv _ _ _ hv
                  obtain ⟨w₄, hw₄, hr₄⟩ := skipWs_split r₄
                  cases hk4 : skipWs r₄ with
                  | nil => rw [hk4] at h; cases h
                  | cons c r₅ =>
                    rw [hk4] at h hr₄
                    simp only at h
                    split at h
                    · rename_i hc
                      subst hc
                      cases h
                      exact ⟨_, .last hkt hvt hw₁ hw₂ hw₃ hw₄, by rw [hcs, hr₂, hr₃, hr₄]; simp⟩
                    · split at h
                      · rename_i hc
                        subst hc
                        obtain ⟨⟨gs, q⟩, h1, h2⟩ := Option.map_eq_some_iff.mp h
                        cases h2
                        obtain ⟨t, h3, h4⟩ := ihm _ _ _ h1
                        exact ⟨_, .more hkt hvt hw₁ hw₂ hw₃ hw₄ h3, by rw [hcs, hr₂, hr₃, hr₄, h4]; simp⟩
                      · cases h
              · cases h
        · cases h
    · intro cs vs r h
      rw [parseElems] at h
      split at h
      · cases h
      · rename_i v r₁ hv
        obtain ⟨w₁, vt, hw₁, hvt, hcs⟩ := ihv _ _ _ hv
        obtain ⟨w₂, hw₂, hr₁⟩ := skipWs_split r₁
        cases hk : skipWs r₁ with
        | nil => rw [hk] at h; cases h
        | cons c r₂ =>
          rw [hk] at h hr₁
          simp only at h
          split at h
          · rename_i hc
            subst hc
            cases h
            exact ⟨_, .last hvt hw₁ hw₂, by rw [hcs, hr₁]; simp⟩
          · split at h
            · rename_i hc
              subst hc
              obtain ⟨⟨gs, q⟩, h1, h2⟩ := Option.map_eq_some_iff.mp h
              cases h2
              obtain ⟨t, h3, h4⟩ := ihe _ _ _ h1
              exact ⟨_, .more hvt hw₁ hw₂ h3, by rw [hcs, hr₁, h4]; simp⟩
            · cases h

/-! ### What is in the grammar, the reader accepts -/

/-- What may follow a number. Specification: nothing in the code corresponds. -/
def Stop (r : List Char) : Prop := ∀ c, r.head? = some c → ¬ Digit c ∧ c ≠ '.' ∧ c ≠ 'e' ∧ c ≠ 'E'

theorem units_complete {us : List JUnit} {t : List Char} (h : SpellsUnits us t) (r : List Char) : parseUnits (t ++ '"' :: r) = some (us, r) := by
  induction h with
  | nil => exact pu_quote r
  | @cons u cs t us h ht ih =>
    have ih' := ih
    cases h with
    | raw c h hq hb =>
      rw [List.append_assoc]
      cases hx : t ++ '"' :: r with
      | nil => simp at hx
      | cons e q =>
        rw [hx] at ih'
        show parseUnits (c :: e :: q) = _
        rw [pu_raw hq hb h, ih']; rfl
    | quote => show parseUnits ('\\' :: '"' :: (t ++ '"' :: r)) = _; rw [pu_esc (by decide), ih']; rfl
    | backslash => show parseUnits ('\\' :: '\\' :: (t ++ '"' :: r)) = _; rw [pu_esc (by decide), ih']; rfl
    | slash => show parseUnits ('\\' :: '/' :: (t ++ '"' :: r)) = _; rw [pu_esc (by decide), ih']; rfl
    | bs => show parseUnits ('\\' :: 'b' :: (t ++ '"' :: r)) = _; rw [pu_esc (by decide), ih']; rfl
    | ff => show parseUnits ('\\' :: 'f' :: (t ++ '"' :: r)) = _; rw [pu_esc (by decide), ih']; rfl
    | nl => show parseUnits ('\\' :: 'n' :: (t ++ '"' :: r)) = _; rw [pu_esc (by decide), ih']; rfl
    | cr => show parseUnits ('\\' :: 'r' :: (t ++ '"' :: r)) = _; rw [pu_esc (by decide), ih']; rfl
    | tab => show parseUnits ('\\' :: 't' :: (t ++ '"' :: r)) = _; rw [pu_esc (by decide), ih']; rfl
    | hex w x y z n h =>
      show parseUnits ('\\' :: 'u' :: w :: x :: y :: z :: (t ++ '"' :: r)) = _
      rw [pu_hex, hex4_of h, ih']; rfl

/-- Dropping digits stops after them. -/
theorem drop_digits {d r : List Char} (hd : ∀ c ∈ d, Digit c) (hr : ∀ c, r.head? = some c → ¬ Digit c) : (d ++ r).dropWhile isDigit = r := by
  induction d with
  | nil =>
    cases r with
    | nil => rfl
    | cons c r =>
      have : isDigit c = false := by
        cases h : isDigit c with
        | false => rfl
        | true => exact absurd (digit_iff.mp h) (hr c rfl)
      simp [this]
  | cons c d ih =>
    have hc := digit_iff.mpr (hd c (by simp))
    rw [List.cons_append, List.dropWhile_cons, if_pos hc]
    exact ih (fun x hx => hd x (by simp [hx]))

theorem digits1_complete {d r : List Char} (hd : Digits d) (hr : ∀ c, r.head? = some c → ¬ Digit c) : digits1 (d ++ r) = some r := by
  obtain ⟨hne, hall⟩ := hd
  cases d with
  | nil => exact absurd rfl hne
  | cons c d =>
    show (if isDigit c then some ((d ++ r).dropWhile isDigit) else none) = _
    rw [if_pos (digit_iff.mpr (hall c (by simp))), drop_digits (fun x hx => hall x (by simp [hx])) hr]

theorem exp_complete {e r : List Char} (he : ExpPart e) (hr : Stop r) : parseExp (e ++ r) = some r := by
  rcases he with rfl | ⟨c, s, d, hc, hs, hd, rfl⟩
  · cases r with
    | nil => rfl
    | cons c r =>
      have := hr c rfl
      show (if c = 'e' ∨ c = 'E' then _ else _) = _
      rw [if_neg (fun h => h.elim this.2.2.1 this.2.2.2)]
      rfl
  · show (if c = 'e' ∨ c = 'E' then _ else _) = _
    rw [if_pos hc]
    have hdr := digits1_complete hd (fun c hc => (hr c hc).1)
    rcases hs with rfl | rfl | rfl
    · obtain ⟨hne, hall⟩ := hd
      cases d with
      | nil => exact absurd rfl hne
      | cons x d =>
        have hx := digit_iff.mpr (hall x (by simp))
        show (if x = '+' ∨ x = '-' then _ else _) = _
        rw [if_neg (by rintro (h | h) <;> subst h <;> exact absurd hx (by decide))]
        exact hdr
    · show (if ('+' : Char) = '+' ∨ ('+' : Char) = '-' then _ else _) = _
      rw [if_pos (Or.inl rfl)]; exact hdr
    · show (if ('-' : Char) = '+' ∨ ('-' : Char) = '-' then _ else _) = _
      rw [if_pos (Or.inr rfl)]; exact hdr

/-- An exponent (or its absence) and what follows begins with no digit or point. -/
theorem exp_head {e r : List Char} (he : ExpPart e) (hr : Stop r) : ∀ c, (e ++ r).head? = some c → ¬ Digit c ∧ c ≠ '.' := by
  rcases he with rfl | ⟨c, s, d, hc, hs, hd, rfl⟩
  · intro c hc; exact ⟨(hr c hc).1, (hr c hc).2.1⟩
  · intro x hx
    simp at hx
    subst hx
    rcases hc with rfl | rfl <;> exact ⟨by rw [← digit_iff]; decide, by decide⟩

theorem frac_complete {f e r : List Char} (hf : FracPart f) (he : ExpPart e) (hr : Stop r) : parseFrac (f ++ (e ++ r)) = some r := by
  rcases hf with rfl | ⟨d, hd, rfl⟩
  · have hh := exp_head he hr
    have hx := exp_complete he hr
    show parseFrac (e ++ r) = _
    cases ht : e ++ r with
    | nil =>
      rw [ht] at hx
      exact hx
    | cons c q =>
      rw [ht] at hh hx
      show (if c = '.' then _ else parseExp (c :: q)) = _
      rw [if_neg (hh c rfl).2, hx]
  · have : parseFrac ('.' :: d ++ (e ++ r)) = (digits1 (d ++ (e ++ r))).bind parseExp := by simp [parseFrac]
    rw [this, digits1_complete hd (fun c hc => (exp_head he hr c hc).1)]
    exact exp_complete he hr

theorem frac_head {f e r : List Char} (hf : FracPart f) (he : ExpPart e) (hr : Stop r) : ∀ c, (f ++ (e ++ r)).head? = some c → ¬ Digit c := by
  rcases hf with rfl | ⟨d, hd, rfl⟩
  · intro c hc; exact (exp_head he hr c hc).1
  · intro c hc
    simp at hc
    subst hc
    rw [← digit_iff]; decide

theorem int_complete {i f e r : List Char} (hi : IntPart i) (hf : FracPart f) (he : ExpPart e) (hr : Stop r) :
    parseInt (i ++ (f ++ (e ++ r))) = some r := by
  have hx := frac_complete hf he hr
  have hh := frac_head hf he hr
  rcases hi with rfl | ⟨⟨hne, hall⟩, h0⟩
  · show parseInt ('0' :: (f ++ (e ++ r))) = _
    cases ht : f ++ (e ++ r) with
    | nil =>
      rw [ht] at hx
      simpa [parseInt, parseFrac] using hx
    | cons c q =>
      rw [ht] at hx hh
      have : isDigit c = false := by
        cases h : isDigit c with
        | false => rfl
        | true => exact absurd (digit_iff.mp h) (hh c rfl)
      simp [parseInt, this, hx]
  · cases i with
    | nil => exact absurd rfl hne
    | cons c i =>
      have h0' : ¬ c = '0' := by simpa using h0
      show (if c = '0' then _ else if isDigit c then parseFrac ((i ++ (f ++ (e ++ r))).dropWhile isDigit) else none) = _
      rw [if_neg h0', if_pos (digit_iff.mpr (hall c (by simp))), drop_digits (fun x hx => hall x (by simp [hx])) hh]
      exact hx

theorem int_head {i : List Char} (hi : IntPart i) : ∃ c q, i = c :: q ∧ Digit c := by
  rcases hi with rfl | ⟨⟨hne, hall⟩, h0⟩
  · exact ⟨'0', [], rfl, by rw [← digit_iff]; decide⟩
  · cases i with
    | nil => exact absurd rfl hne
    | cons c q => exact ⟨c, q, rfl, hall c (by simp)⟩

theorem num_complete {t r : List Char} (h : IsNumber t) (hr : Stop r) : parseNum (t ++ r) = some r := by
  obtain ⟨m, i, f, e, hm, hi, hf, he, rfl⟩ := h
  have hx := int_complete hi hf he hr
  rcases hm with rfl | rfl
  · obtain ⟨c, q, rfl, hc⟩ := int_head hi
    simp only [List.append_assoc, List.cons_append, List.nil_append] at hx ⊢
    show (if c = '-' then _ else _) = _
    rw [if_neg (by rintro rfl; exact absurd (digit_iff.mpr hc) (by decide))]
    exact hx
  · simp only [List.append_assoc, List.cons_append, List.nil_append] at hx ⊢
    simpa [parseNum] using hx

/-- How a number begins. -/
theorem num_head {t : List Char} (h : IsNumber t) : ∃ c q, t = c :: q ∧ (c = '-' ∨ Digit c) := by
  obtain ⟨m, i, f, e, hm, hi, hf, he, rfl⟩ := h
  obtain ⟨c, q, rfl, hc⟩ := int_head hi
  rcases hm with rfl | rfl
  · exact ⟨c, _, rfl, Or.inr hc⟩
  · exact ⟨'-', _, rfl, Or.inl rfl⟩

theorem stop_of_ws {w : List Char} (hw : Ws w) {c : Char} {r : List Char} (hc : c = ',' ∨ c = '}' ∨ c = ']') : Stop (w ++ c :: r) := by
  intro x hx
  cases w with
  | nil =>
    simp at hx
    subst hx
    rcases hc with rfl | rfl | rfl <;> exact ⟨by rw [← digit_iff]; decide, by decide, by decide, by decide⟩
  | cons d w =>
    simp at hx
    subst hx
    rcases hw d (by simp) with rfl | rfl | rfl | rfl <;> exact ⟨by rw [← digit_iff]; decide, by decide, by decide, by decide⟩

theorem stop_ws {w : List Char} (hw : Ws w) : Stop w := by
  intro x hx
  cases w with
  | nil => cases hx
  | cons d w =>
    simp at hx
    subst hx
    rcases hw d (by simp) with rfl | rfl | rfl | rfl <;> exact ⟨by rw [← digit_iff]; decide, by decide, by decide, by decide⟩

/-- How a value begins. -/
theorem val_head {v : JVal} {t : List Char} (h : Spells v t) : ∃ c q, t = c :: q ∧ isWs c = false ∧ c ≠ '}' ∧ c ≠ ']' := by
  cases h with
  | null => exact ⟨_, _, rfl, by decide, by decide, by decide⟩
  | true => exact ⟨_, _, rfl, by decide, by decide, by decide⟩
  | false => exact ⟨_, _, rfl, by decide, by decide, by decide⟩
  | num h =>
    obtain ⟨c, q, rfl, hc⟩ := num_head h
    refine ⟨c, q, rfl, ?_⟩
    rcases hc with rfl | hc
    · exact ⟨by decide, by decide, by decide⟩
    · simp [Digit] at hc
      rcases hc with rfl | rfl | rfl | rfl | rfl | rfl | rfl | rfl | rfl | rfl <;> exact ⟨by decide, by decide, by decide⟩
  | str h => exact ⟨_, _, rfl, by decide, by decide, by decide⟩
  | obj0 h => exact ⟨_, _, rfl, by decide, by decide, by decide⟩
  | obj h => exact ⟨_, _, rfl, by decide, by decide, by decide⟩
  | arr0 h => exact ⟨_, _, rfl, by decide, by decide, by decide⟩
  | arr h => exact ⟨_, _, rfl, by decide, by decide, by decide⟩

theorem skipWs_val {w t r : List Char} {v : JVal} (hw : Ws w) (hv : Spells v t) : skipWs (w ++ (t ++ r)) = t ++ r := by
  obtain ⟨c, q, rfl, h, -⟩ := val_head hv
  rw [skipWs_append hw, List.cons_append, skipWs_cons h]

theorem complete_all (n : Nat) :
    (∀ v t, Spells v t → t.length ≤ n → ∀ w r, Ws w → Stop r → parseVal n (w ++ (t ++ r)) = some (v, r)) ∧
    (∀ fs t, SpellsMembersG fs t → t.length ≤ n → ∀ r, parseMembers n (t ++ r) = some (fs, r) ∧
      parseMembers n (skipWs (t ++ r)) = some (fs, r) ∧ ∃ d q, skipWs (t ++ r) = d :: q ∧ d ≠ '}') ∧
    ∀ vs t, SpellsElems vs t → t.length ≤ n → ∀ r, parseElems n (t ++ r) = some (vs, r) ∧
      parseElems n (skipWs (t ++ r)) = some (vs, r) ∧ ∃ d q, skipWs (t ++ r) = d :: q ∧ d ≠ ']' := by
  induction n with
  | zero =>
    refine ⟨?_, ?_, ?_⟩
    · intro v t h hl
      obtain ⟨c, q, rfl, -⟩ := val_head h
      simp at hl
    · intro fs t h hl
      cases h <;> simp at hl
    · intro vs t h hl
      cases h <;> simp at hl
  | succ n ih =>
    obtain ⟨ihv, ihm, ihe⟩ := ih
    refine ⟨?_, ?_, ?_⟩
    · intro v t h hl w r hw hr
      rw [parseVal, skipWs_val hw h]
      cases h with
      | null => simp
      | true => simp [List.isPrefixOf]
      | false => simp [List.isPrefixOf]
      | num h =>
        have hx := num_complete h hr
        obtain ⟨c, q, rfl, hc⟩ := num_head h
        rw [List.cons_append] at hx ⊢
        have hcs : c ≠ '"' ∧ c ≠ '{' ∧ c ≠ '[' ∧ c ≠ 'n' ∧ c ≠ 't' ∧ c ≠ 'f' := by
          rcases hc with rfl | hc
          · decide
          · simp [Digit] at hc
            rcases hc with rfl | rfl | rfl | rfl | rfl | rfl | rfl | rfl | rfl | rfl <;> decide
        obtain ⟨c1, c2, c3, c4, c5, c6⟩ := hcs
        simp only [c1, c2, c3, if_false]
        rw [if_neg (by simp [List.isPrefixOf, Ne.symm c4]), if_neg (by simp [List.isPrefixOf, Ne.symm c5]),
          if_neg (by simp [List.isPrefixOf, Ne.symm c6]), hx]
        rfl
      | @str us t h =>
        have := units_complete h r
        simp [this]
      | @obj0 w' h =>
        have : skipWs (w' ++ '}' :: r) = '}' :: r := by rw [skipWs_append h, skipWs_cons (by decide)]
        simp [this]
      | @obj fs t h =>
        simp only [List.length_cons] at hl
        obtain ⟨-, h1, d, q, h2, h3⟩ := ihm _ _ h (by omega) r
        rw [h2] at h1
        rw [List.cons_append]
        simp only [show ('{' : Char) ≠ '"' by decide, if_false, if_true, h2, h3, h1]
        rfl
      | @arr0 w' h =>
        have : skipWs (w' ++ ']' :: r) = ']' :: r := by rw [skipWs_append h, skipWs_cons (by decide)]
        simp [this]
      | @arr vs t h =>
        simp only [List.length_cons] at hl
        obtain ⟨-, h1, d, q, h2, h3⟩ := ihe _ _ h (by omega) r
        rw [h2] at h1
        rw [List.cons_append]
        simp only [show ('[' : Char) ≠ '"' by decide, show ('[' : Char) ≠ '{' by decide, if_false, if_true, h2, h3, h1]
        rfl
    · intro fs t h hl r
      have hskip : ∃ q, skipWs (t ++ r) = '"' :: q := by
        cases h with
        | last hk hv h₁ =>
          simp only [List.append_assoc, List.cons_append]
          exact ⟨_, by rw [skipWs_append h₁, skipWs_cons (by decide)]⟩
        | more hk hv h₁ =>
          simp only [List.append_assoc, List.cons_append]
          exact ⟨_, by rw [skipWs_append h₁, skipWs_cons (by decide)]⟩
      obtain ⟨q, hq⟩ := hskip
      have hsame : parseMembers (n + 1) (skipWs (t ++ r)) = parseMembers (n + 1) (t ++ r) := by
        rw [parseMembers, parseMembers, skipWs_idem]
      refine (fun (hp : parseMembers (n + 1) (t ++ r) = some (fs, r)) => ⟨hp, by rw [hsame, hp], '"', q, hq, by decide⟩) ?_
      cases h with
      | @last k v kt vt w₁ w₂ w₃ w₄ hk hv h₁ h₂ h₃ h₄ =>
        simp only [List.length_append, List.length_cons] at hl
        simp only [List.append_assoc, List.cons_append, List.nil_append]
        rw [parseMembers, skipWs_append h₁, skipWs_cons (by decide)]
        simp only [if_true]
        rw [units_complete hk]
        simp only
        rw [skipWs_append h₂, skipWs_cons (by decide)]
        simp only [if_true]
        rw [ihv _ _ hv (by omega) _ _ h₃ (stop_of_ws h₄ (by simp))]
        simp only
        rw [skipWs_append h₄, skipWs_cons (by decide)]
        simp
      | @more k v kt vt w₁ w₂ w₃ w₄ t fs hk hv h₁ h₂ h₃ h₄ ht =>
        simp only [List.length_append, List.length_cons] at hl
        simp only [List.append_assoc, List.cons_append, List.nil_append]
        rw [parseMembers, skipWs_append h₁, skipWs_cons (by decide)]
        simp only [if_true]
        rw [units_complete hk]
        simp only
        rw [skipWs_append h₂, skipWs_cons (by decide)]
        simp only [if_true]
        rw [ihv _ _ hv (by omega) _ _ h₃ (stop_of_ws h₄ (by simp))]
        simp only
        rw [skipWs_append h₄, skipWs_cons (by decide)]
        simp [(ihm _ _ ht (by omega) r).1]
    · intro vs t h hl r
      have hskip : ∃ d q, skipWs (t ++ r) = d :: q ∧ d ≠ ']' := by
        cases h with
        | last hv h₁ h₂ =>
          obtain ⟨c, q, rfl, h, h', h''⟩ := val_head hv
          simp only [List.append_assoc, List.cons_append]
          exact ⟨c, _, by rw [skipWs_append h₁, skipWs_cons h], h''⟩
        | more hv h₁ h₂ =>
          obtain ⟨c, q, rfl, h, h', h''⟩ := val_head hv
          simp only [List.append_assoc, List.cons_append]
          exact ⟨c, _, by rw [skipWs_append h₁, skipWs_cons h], h''⟩
      have hsame : parseElems (n + 1) (skipWs (t ++ r)) = parseElems (n + 1) (t ++ r) := by
        rw [parseElems, parseElems]
        have : parseVal n (skipWs (t ++ r)) = parseVal n (t ++ r) := by
          cases n with
          | zero => rw [parseVal, parseVal]
          | succ m => rw [parseVal, parseVal, skipWs_idem]
        rw [this]
      refine (fun (hp : parseElems (n + 1) (t ++ r) = some (vs, r)) => ⟨hp, by rw [hsame, hp], hskip⟩) ?_
      cases h with
      | @last v vt w₁ w₂ hv h₁ h₂ =>
        simp only [List.length_append, List.length_cons] at hl
        simp only [List.append_assoc, List.cons_append, List.nil_append]
        rw [parseElems, ihv _ _ hv (by omega) _ _ h₁ (stop_of_ws h₂ (by simp))]
        simp only
        rw [skipWs_append h₂, skipWs_cons (by decide)]
        simp
      | @more v vt w₁ w₂ t vs hv h₁ h₂ ht =>
        simp only [List.length_append, List.length_cons] at hl
        simp only [List.append_assoc, List.cons_append, List.nil_append]
        rw [parseElems, ihv _ _ hv (by omega) _ _ h₁ (stop_of_ws h₂ (by simp))]
        simp only
        rw [skipWs_append h₂, skipWs_cons (by decide)]
        simp [(ihe _ _ ht (by omega) r).1]

/-- The reader accepts exactly the JSON texts, and finds in them what they say. -/
theorem parse_iff (t : List Char) (v : JVal) : parse t = some v ↔ IsJson v t := by
  constructor
  · intro h
    unfold parse at h
    split at h
    · rename_i v' r hp
      split at h
      · rename_i hr
        cases h
        obtain ⟨w, u, hw, hu, he⟩ := (sound_all _).1 _ _ _ hp
        refine ⟨w, u, r, hw, ?_, hu, he⟩
        obtain ⟨w', hw', hr'⟩ := skipWs_split r
        rw [hr, List.append_nil] at hr'
        rw [hr']; exact hw'
      · cases h
    · cases h
  · rintro ⟨w, u, w', hw, hw', hu, rfl⟩
    unfold parse
    have hskip : skipWs w' = [] := by
      have := skipWs_append hw' []
      simpa [skipWs] using this
    rw [(complete_all _).1 _ _ hu (by simp; omega) _ _ hw (stop_ws hw')]
    simp [hskip]

end Lair.Json
