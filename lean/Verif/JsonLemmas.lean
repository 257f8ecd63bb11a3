import Verif.Json

/- The grammar of the JSON texts a program may print, and that the reader understands them. -/
namespace Lair.Json

/-! ### Grammar (RFC 8259) -/

/-- White space. Proof device: nothing in the code corresponds. -/
def Ws (w : List Char) : Prop := ∀ c ∈ w, c = ' ' ∨ c = '\n' ∨ c = '\t' ∨ c = '\r'

/-- A hexadecimal digit and its value. Proof device: nothing in the code corresponds. -/
def Hex (c : Char) (n : Nat) : Prop := "0123456789abcdef".toList[n]? = some c ∨ "0123456789ABCDEF".toList[n]? = some c

/-- Four of them. Proof device: nothing in the code corresponds. -/
def Hex4 (w x y z : Char) (n : Nat) : Prop :=
  ∃ a b c d, Hex w a ∧ Hex x b ∧ Hex y c ∧ Hex z d ∧ n = a * 4096 + b * 256 + c * 16 + d

/-- The ways to write one character within a string. Proof device: nothing in the code corresponds. -/
inductive SpellsChar : Char → List Char → Prop
  | raw (c : Char) (h : 32 ≤ c.toNat) (hq : c ≠ '"') (hb : c ≠ '\\') : SpellsChar c [c]
  | quote : SpellsChar '"' ['\\', '"']
  | backslash : SpellsChar '\\' ['\\', '\\']
  | slash : SpellsChar '/' ['\\', '/']
  | bs : SpellsChar (Char.ofNat 8) ['\\', 'b']
  | ff : SpellsChar (Char.ofNat 12) ['\\', 'f']
  | nl : SpellsChar '\n' ['\\', 'n']
  | cr : SpellsChar '\r' ['\\', 'r']
  | tab : SpellsChar '\t' ['\\', 't']
  | hex (c w x y z : Char) (h : Hex4 w x y z c.toNat) : SpellsChar c ['\\', 'u', w, x, y, z]
  | pair (c w x y z w' x' y' z' : Char) (hi lo : Nat) (h : Hex4 w x y z hi) (h' : Hex4 w' x' y' z' lo)
      (hh : 0xD800 ≤ hi ∧ hi < 0xDC00) (hl : 0xDC00 ≤ lo ∧ lo < 0xE000)
      (hc : c.toNat = 0x10000 + (hi - 0xD800) * 1024 + (lo - 0xDC00)) :
      SpellsChar c ['\\', 'u', w, x, y, z, '\\', 'u', w', x', y', z']

/-- The ways to write a string, between the quotes. Proof device: nothing in the code corresponds. -/
inductive SpellsBody : List Char → List Char → Prop
  | nil : SpellsBody [] []
  | cons {c : Char} {cs : List Char} {s t : List Char} (h : SpellsChar c cs) (ht : SpellsBody s t) : SpellsBody (c :: s) (cs ++ t)

/-- Proof device: nothing in the code corresponds. -/
def SpellsStr (s t : List Char) : Prop := ∃ b, SpellsBody s b ∧ t = '"' :: (b ++ ['"'])

/-- A value that is a string or `null`. Proof device: nothing in the code corresponds. -/
def SpellsVal (v : Option (List Char)) (t : List Char) : Prop :=
  match v with
  | some s => SpellsStr s t
  | none => t = ['n', 'u', 'l', 'l']

/-- The members of an object, with its closing brace. Proof device: nothing in the code corresponds. -/
inductive SpellsMembers : List (List Char × Option (List Char)) → List Char → Prop
  | last {k : List Char} {v : Option (List Char)} {kt vt w₁ w₂ w₃ w₄ : List Char} (hk : SpellsStr k kt) (hv : SpellsVal v vt)
      (h₁ : Ws w₁) (h₂ : Ws w₂) (h₃ : Ws w₃) (h₄ : Ws w₄) :
      SpellsMembers [(k, v)] (w₁ ++ kt ++ w₂ ++ ':' :: (w₃ ++ vt ++ w₄ ++ ['}']))
  | more {k : List Char} {v : Option (List Char)} {kt vt w₁ w₂ w₃ w₄ t : List Char} {fs : List (List Char × Option (List Char))}
      (hk : SpellsStr k kt) (hv : SpellsVal v vt) (h₁ : Ws w₁) (h₂ : Ws w₂) (h₃ : Ws w₃) (h₄ : Ws w₄) (ht : SpellsMembers fs t) :
      SpellsMembers ((k, v) :: fs) (w₁ ++ kt ++ w₂ ++ ':' :: (w₃ ++ vt ++ w₄ ++ ',' :: t))

/-- `t` is a way to write the object with these fields, in this order.
    Specification: nothing in the code corresponds. -/
def SpellsObj (fs : List (List Char × Option (List Char))) (t : List Char) : Prop :=
  ∃ w m w', Ws w ∧ Ws w' ∧ SpellsMembers fs m ∧ t = w ++ '{' :: (m ++ w')

/-! ### Strings -/

theorem hexVal_of {c : Char} {n : Nat} (h : Hex c n) : hexVal c = some n := by
  have key : ∀ m : Fin 16, (∀ d, "0123456789abcdef".toList[m.val]? = some d → hexVal d = some m.val) ∧
      ∀ d, "0123456789ABCDEF".toList[m.val]? = some d → hexVal d = some m.val := by
    intro m
    have h1 : ∀ m : Fin 16, ("0123456789abcdef".toList[m.val]?.bind hexVal) = some m.val ∧
      ("0123456789ABCDEF".toList[m.val]?.bind hexVal) = some m.val := by decide +kernel
    refine ⟨fun d hd => ?_, fun d hd => ?_⟩
    · have := (h1 m).1; rw [hd] at this; exact this
    · have := (h1 m).2; rw [hd] at this; exact this
  have hn : n < 16 := by
    rcases h with h | h <;> exact (List.getElem?_eq_some_iff.mp h).1
  rcases h with h | h
  · exact (key ⟨n, hn⟩).1 c h
  · exact (key ⟨n, hn⟩).2 c h

theorem hex4_of {w x y z : Char} {n : Nat} (h : Hex4 w x y z n) : hex4 w x y z = some n := by
  obtain ⟨a, b, c, d, h1, h2, h3, h4, rfl⟩ := h
  simp [hex4, hexVal_of h1, hexVal_of h2, hexVal_of h3, hexVal_of h4]

theorem char_not_surrogate (c : Char) : c.toNat < 0xD800 ∨ 0xE000 ≤ c.toNat := by
  have := c.valid
  rcases this with h | ⟨h, -⟩
  · exact Or.inl h
  · exact Or.inr (by
      have h : 0xDFFF < c.toNat := h
      omega)

theorem pu_quote (r : List Char) : parseUnits ('"' :: r) = some ([], r) := by
  rw [parseUnits.eq_def]
  cases r <;> simp

theorem pu_raw {c : Char} (hq : c ≠ '"') (hb : c ≠ '\\') (h : 32 ≤ c.toNat) (e : Char) (r : List Char) :
    parseUnits (c :: e :: r) = unit? (some (.ch c)) (parseUnits (e :: r)) := by
  rw [parseUnits.eq_def]
  simp only [hq, hb, if_false]
  rw [if_neg (by omega)]

theorem pu_esc {e : Char} (he : e ≠ 'u') (r : List Char) :
    parseUnits ('\\' :: e :: r) = unit? ((simpleEsc e).map .ch) (parseUnits r) := by
  rw [parseUnits.eq_def]
  simp [he]

theorem pu_hex (w x y z : Char) (r : List Char) :
    parseUnits ('\\' :: 'u' :: w :: x :: y :: z :: r) = unit? ((hex4 w x y z).map .u) (parseUnits r) := by
  rw [parseUnits.eq_def]
  simp

theorem tc_u {n : Nat} (h : n < 0xD800 ∨ 0xE000 ≤ n) (vs : List JUnit) : toChars (.u n :: vs) = (toChars vs).map (Char.ofNat n :: ·) := by
  cases vs with
  | nil => rw [toChars.eq_def]; simp only [if_pos h]; simp [toChars]
  | cons v vs => rw [toChars.eq_def]; simp only [if_pos h]

/-- Reading one spelled character. -/
theorem parse_char {c : Char} {cs : List Char} (h : SpellsChar c cs) (rest : List Char) (hr : rest ≠ []) :
    ∃ us, (∀ p, parseUnits rest = some p → parseUnits (cs ++ rest) = some (us ++ p.1, p.2)) ∧
      ∀ s, ∀ vs, toChars vs = some s → toChars (us ++ vs) = some (c :: s) := by
  have single : ∀ d : Char, ∀ vs s, toChars vs = some s → toChars ([JUnit.ch d] ++ vs) = some (d :: s) := by
    intro d vs s h; simp [toChars, h]
  cases h with
  | raw c h hq hb =>
    refine ⟨[.ch c], ?_, fun s vs h => single c vs s h⟩
    intro p hp
    cases rest with
    | nil => exact absurd rfl hr
    | cons e r =>
      show parseUnits (c :: e :: r) = _
      rw [pu_raw hq hb h, hp]; rfl
  | quote => exact ⟨[.ch '"'], fun p hp => by show parseUnits ('\\' :: '"' :: rest) = _; rw [pu_esc (by decide), hp]; rfl, fun s vs h => single _ vs s h⟩
  | backslash => exact ⟨[.ch '\\'], fun p hp => by show parseUnits ('\\' :: '\\' :: rest) = _; rw [pu_esc (by decide), hp]; rfl, fun s vs h => single _ vs s h⟩
  | slash => exact ⟨[.ch '/'], fun p hp => by show parseUnits ('\\' :: '/' :: rest) = _; rw [pu_esc (by decide), hp]; rfl, fun s vs h => single _ vs s h⟩
  | bs => exact ⟨[.ch _], fun p hp => by show parseUnits ('\\' :: 'b' :: rest) = _; rw [pu_esc (by decide), hp]; rfl, fun s vs h => single _ vs s h⟩
  | ff => exact ⟨[.ch _], fun p hp => by show parseUnits ('\\' :: 'f' :: rest) = _; rw [pu_esc (by decide), hp]; rfl, fun s vs h => single _ vs s h⟩
  | nl => exact ⟨[.ch _], fun p hp => by show parseUnits ('\\' :: 'n' :: rest) = _; rw [pu_esc (by decide), hp]; rfl, fun s vs h => single _ vs s h⟩
  | cr => exact ⟨[.ch _], fun p hp => by show parseUnits ('\\' :: 'r' :: rest) = _; rw [pu_esc (by decide), hp]; rfl, fun s vs h => single _ vs s h⟩
  | tab => exact ⟨[.ch _], fun p hp => by show parseUnits ('\\' :: 't' :: rest) = _; rw [pu_esc (by decide), hp]; rfl, fun s vs h => single _ vs s h⟩
  | hex c w x y z h =>
    refine ⟨[.u c.toNat], fun p hp => ?_, ?_⟩
    · show parseUnits ('\\' :: 'u' :: w :: x :: y :: z :: rest) = _
      rw [pu_hex, hex4_of h, hp]; rfl
    · intro s vs hs
      show toChars (.u c.toNat :: vs) = _
      rw [tc_u (char_not_surrogate c), hs, Char.ofNat_toNat]; rfl
  | pair c w x y z w' x' y' z' hi lo h h' hh hl hc =>
    refine ⟨[.u hi, .u lo], fun p hp => ?_, ?_⟩
    · show parseUnits ('\\' :: 'u' :: w :: x :: y :: z :: '\\' :: 'u' :: w' :: x' :: y' :: z' :: rest) = _
      rw [pu_hex, pu_hex, hex4_of h, hex4_of h', hp]; rfl
    · intro s vs hs
      show toChars (.u hi :: .u lo :: vs) = _
      rw [toChars.eq_def]
      simp only
      rw [if_neg (by omega), if_pos ⟨hh.2, hl.1, hl.2⟩, hs, ← hc, Char.ofNat_toNat]; rfl

theorem parse_body {s b : List Char} (h : SpellsBody s b) (rest : List Char) :
    ∃ us, parseUnits (b ++ '"' :: rest) = some (us, rest) ∧ toChars us = some s := by
  induction h with
  | nil => exact ⟨[], pu_quote rest, rfl⟩
  | @cons c cs s t h ht ih =>
    obtain ⟨us, h1, h2⟩ := ih
    obtain ⟨us', h3, h4⟩ := parse_char h (t ++ '"' :: rest) (by simp)
    exact ⟨us' ++ us, by rw [List.append_assoc]; exact h3 _ h1, h4 s us h2⟩

/-! ### White space -/

theorem skipWs_append {w : List Char} (h : Ws w) (cs : List Char) : skipWs (w ++ cs) = skipWs cs := by
  induction w with
  | nil => rfl
  | cons c w ih =>
    have hc : isWs c = true := by
      rcases h c (by simp) with rfl | rfl | rfl | rfl <;> decide
    show ((c :: (w ++ cs)).dropWhile isWs) = _
    rw [List.dropWhile_cons, if_pos hc]
    exact ih (fun d hd => h d (by simp [hd]))

theorem skipWs_cons {c : Char} (h : isWs c = false) (cs : List Char) : skipWs (c :: cs) = c :: cs := by
  simp [skipWs, List.dropWhile_cons, h]

/-! ### Objects -/

/-- Reading a value that is a string or null. -/
theorem parse_val {v : Option (List Char)} {t w : List Char} (hv : SpellsVal v t) (hw : Ws w) (n : Nat) (rest : List Char) :
    ∃ j, parseVal (n + 1) (w ++ t ++ rest) = some (j, rest) ∧ j.optString? = some v := by
  cases v with
  | none =>
    have ht : t = ['n', 'u', 'l', 'l'] := hv
    subst ht
    refine ⟨.null, ?_, rfl⟩
    rw [parseVal, List.append_assoc, skipWs_append hw]
    simp [skipWs_cons (show isWs 'n' = false by decide)]
  | some s =>
    obtain ⟨b, hb, rfl⟩ := hv
    obtain ⟨us, h1, h2⟩ := parse_body hb rest
    refine ⟨.str us, ?_, by simp [JVal.optString?, JVal.string?, h2]⟩
    rw [parseVal, List.append_assoc, skipWs_append hw]
    simp [skipWs_cons (show isWs '"' = false by decide), h1]

/-- What was read of the members. Proof device: nothing in the code corresponds. -/
inductive Reads : List (List Char × Option (List Char)) → List (List JUnit × JVal) → Prop
  | nil : Reads [] []
  | cons {k : List Char} {v : Option (List Char)} {us : List JUnit} {j : JVal} {fs : List (List Char × Option (List Char))}
      {js : List (List JUnit × JVal)} (h : toChars us = some k ∧ j.optString? = some v) (ht : Reads fs js) :
      Reads ((k, v) :: fs) ((us, j) :: js)

theorem skipWs_idem (cs : List Char) : skipWs (skipWs cs) = skipWs cs := by
  induction cs with
  | nil => rfl
  | cons c r ih =>
    cases h : isWs c with
    | true => rw [show skipWs (c :: r) = skipWs r by simp [skipWs, h]]; exact ih
    | false => rw [skipWs_cons h, skipWs_cons h]

theorem parse_members {fs : List (List Char × Option (List Char))} {t : List Char} (h : SpellsMembers fs t) (n : Nat) (hn : fs.length < n)
    (rest : List Char) : ∃ js, parseMembers n (t ++ rest) = some (js, rest) ∧ Reads fs js := by
  induction h generalizing n with
  | @last k v kt vt w₁ w₂ w₃ w₄ hk hv h₁ h₂ h₃ h₄ =>
    obtain ⟨b, hb, rfl⟩ := hk
    simp at hn
    obtain ⟨m, rfl⟩ : ∃ m, n = m + 1 + 1 := ⟨n - 2, by omega⟩
    obtain ⟨us, e1, e2⟩ := parse_body hb (w₂ ++ ':' :: (w₃ ++ vt ++ w₄ ++ ['}']) ++ rest)
    obtain ⟨j, e3, e4⟩ := parse_val hv h₃ m (w₄ ++ '}' :: rest)
    refine ⟨[(us, j)], ?_, .cons ⟨e2, e4⟩ .nil⟩
    have a1 : w₁ ++ '"' :: (b ++ ['"']) ++ w₂ ++ ':' :: (w₃ ++ vt ++ w₄ ++ ['}']) ++ rest
        = w₁ ++ ('"' :: (b ++ '"' :: (w₂ ++ ':' :: (w₃ ++ vt ++ w₄ ++ ['}']) ++ rest))) := by simp
    rw [a1, parseMembers, skipWs_append h₁, skipWs_cons (by decide)]
    simp only [if_true, e1]
    have a2 : w₂ ++ ':' :: (w₃ ++ vt ++ w₄ ++ ['}']) ++ rest = w₂ ++ ':' :: (w₃ ++ vt ++ (w₄ ++ '}' :: rest)) := by simp
    rw [a2, skipWs_append h₂, skipWs_cons (by decide)]
    simp only [if_true, e3]
    rw [skipWs_append h₄, skipWs_cons (by decide)]
    simp
  | @more k v kt vt w₁ w₂ w₃ w₄ t fs hk hv h₁ h₂ h₃ h₄ ht ih =>
    obtain ⟨b, hb, rfl⟩ := hk
    simp at hn
    obtain ⟨m, rfl⟩ : ∃ m, n = m + 1 + 1 := ⟨n - 2, by omega⟩
    obtain ⟨us, e1, e2⟩ := parse_body hb (w₂ ++ ':' :: (w₃ ++ vt ++ w₄ ++ ',' :: t) ++ rest)
    obtain ⟨j, e3, e4⟩ := parse_val hv h₃ m (w₄ ++ ',' :: (t ++ rest))
    obtain ⟨js, e5, e6⟩ := ih (m + 1) (by omega)
    refine ⟨(us, j) :: js, ?_, .cons ⟨e2, e4⟩ e6⟩
    have a1 : w₁ ++ '"' :: (b ++ ['"']) ++ w₂ ++ ':' :: (w₃ ++ vt ++ w₄ ++ ',' :: t) ++ rest
        = w₁ ++ ('"' :: (b ++ '"' :: (w₂ ++ ':' :: (w₃ ++ vt ++ w₄ ++ ',' :: t) ++ rest))) := by simp
    rw [a1, parseMembers, skipWs_append h₁, skipWs_cons (by decide)]
    simp only [if_true, e1]
    have a2 : w₂ ++ ':' :: (w₃ ++ vt ++ w₄ ++ ',' :: t) ++ rest = w₂ ++ ':' :: (w₃ ++ vt ++ (w₄ ++ ',' :: (t ++ rest))) := by simp
    rw [a2, skipWs_append h₂, skipWs_cons (by decide)]
    simp only [if_true, e3]
    rw [skipWs_append h₄, skipWs_cons (by decide)]
    simp [e5]

theorem members_len {fs : List (List Char × Option (List Char))} {t : List Char} (h : SpellsMembers fs t) : fs.length < t.length := by
  induction h with
  | last => simp; omega
  | more _ _ _ _ _ _ _ ih => simp at ih ⊢; omega

theorem parse_obj {fs : List (List Char × Option (List Char))} {t : List Char} (h : SpellsObj fs t) :
    ∃ js, parse t = some (.obj js) ∧ Reads fs js := by
  obtain ⟨w, m, w', hw, hw', hm, rfl⟩ := h
  obtain ⟨js, h1, h2⟩ := parse_members hm (w ++ '{' :: (m ++ w')).length (by have := members_len hm; simp; omega) w'
  refine ⟨js, ?_, h2⟩
  have hne : ∃ d r, skipWs (m ++ w') = d :: r ∧ d ≠ '}' ∧ parseMembers (w ++ '{' :: (m ++ w')).length (d :: r) = some (js, w') := by
    have key : ∃ d r, skipWs (m ++ w') = d :: r ∧ d ≠ '}' := by
      have k0 : ∀ (w₁ r : List Char), Ws w₁ → ∃ d r', skipWs (w₁ ++ '"' :: r) = d :: r' ∧ d ≠ '}' := by
        intro w₁ r h₁
        exact ⟨'"', r, by rw [skipWs_append h₁, skipWs_cons (by decide)], by decide⟩
      cases hm with
      | last hk hv h₁ =>
        obtain ⟨b, hb, rfl⟩ := hk
        simp only [List.append_assoc, List.cons_append]
        exact k0 _ _ h₁
      | more hk hv h₁ =>
        obtain ⟨b, hb, rfl⟩ := hk
        simp only [List.append_assoc, List.cons_append]
        exact k0 _ _ h₁
    obtain ⟨d, r, k1, k2⟩ := key
    refine ⟨d, r, k1, k2, ?_⟩
    have hidem : skipWs (d :: r) = d :: r := by
      rw [← k1]; exact skipWs_idem _
    have : parseMembers (w ++ '{' :: (m ++ w')).length (m ++ w') = parseMembers (w ++ '{' :: (m ++ w')).length (d :: r) := by
      cases hl : (w ++ '{' :: (m ++ w')).length with
      | zero => rfl
      | succ k => rw [parseMembers, parseMembers, k1, hidem]
    rw [← this]; exact h1
  obtain ⟨d, r, k1, k2, k3⟩ := hne
  have hskip : skipWs w' = [] := by
    have := skipWs_append hw' []
    simpa [skipWs] using this
  unfold parse
  rw [parseVal, skipWs_append hw, skipWs_cons (by decide)]
  simp only [show ('{' : Char) ≠ '"' by decide, if_false, if_true, k1, k2, k3, Option.map_some, hskip]

/-! ### Standard base64 -/

theorem enc_mem (b : Bytes) : ∀ c ∈ Base64.encode b, ∃ n, n < 64 ∧ c = Base64.enc6 n := by
  fun_induction Base64.encode b with
  | case1 a b c rest n ih =>
    have ha := a.toNat_lt; have hb := b.toNat_lt; have hc := c.toNat_lt
    have hn : n = a.toNat * 65536 + b.toNat * 256 + c.toNat := rfl
    intro d hd
    simp only [List.mem_cons] at hd
    rcases hd with rfl | rfl | rfl | rfl | hd
    · exact ⟨_, by omega, rfl⟩
    · exact ⟨_, by omega, rfl⟩
    · exact ⟨_, by omega, rfl⟩
    · exact ⟨_, by omega, rfl⟩
    · exact ih d hd
  | case2 a b n =>
    have ha := a.toNat_lt; have hb := b.toNat_lt
    have hn : n = a.toNat * 65536 + b.toNat * 256 := rfl
    intro d hd
    simp only [List.mem_cons, List.not_mem_nil, or_false] at hd
    rcases hd with rfl | rfl | rfl
    · exact ⟨_, by omega, rfl⟩
    · exact ⟨_, by omega, rfl⟩
    · exact ⟨_, by omega, rfl⟩
  | case3 a n =>
    have ha := a.toNat_lt
    have hn : n = a.toNat * 65536 := rfl
    intro d hd
    simp only [List.mem_cons, List.not_mem_nil, or_false] at hd
    rcases hd with rfl | rfl
    · exact ⟨_, by omega, rfl⟩
    · exact ⟨_, by omega, rfl⟩
  | case4 => intro d hd; cases hd

theorem enc_len (b : Bytes) : (Base64.encode b).length % 4 ≠ 1 := by
  fun_induction Base64.encode b with
  | case1 a b c rest n ih => simp only [List.length_cons]; omega
  | case2 => simp
  | case3 => simp
  | case4 => simp

theorem std_char (n : Nat) (h : n < 64) : ofStd (toStd (Base64.enc6 n)) = Base64.enc6 n ∧ toStd (Base64.enc6 n) ≠ '=' ∧
    32 ≤ (toStd (Base64.enc6 n)).toNat ∧ 32 ≤ (Base64.enc6 n).toNat := by
  have : ∀ m : Fin 64, ofStd (toStd (Base64.enc6 m.val)) = Base64.enc6 m.val ∧ toStd (Base64.enc6 m.val) ≠ '=' ∧
    32 ≤ (toStd (Base64.enc6 m.val)).toNat ∧ 32 ≤ (Base64.enc6 m.val).toNat := by decide +kernel
  exact this ⟨n, h⟩

theorem dropPad_pad (l : List Char) (h : l.getLast? ≠ some '=') (k : Nat) (hk : k ≤ 2) : dropPad (l ++ List.replicate k '=') = l := by
  have hr : l.reverse.head? ≠ some '=' := by simpa using h
  have h0 : ∀ r, l.reverse ≠ '=' :: r := by intro r e; rw [e] at hr; exact hr rfl
  unfold dropPad
  match k, hk with
  | 0, _ =>
    simp only [List.replicate, List.append_nil]
    split
    · rename_i r e; exact absurd e (h0 _)
    · rename_i r _ e; exact absurd e (h0 _)
    · rfl
  | 1, _ =>
    rw [show (l ++ List.replicate 1 '=').reverse = '=' :: l.reverse by simp]
    split
    · rename_i r e
      simp only [List.cons.injEq, true_and] at e
      exact absurd e (h0 _)
    · rename_i r _ e
      simp only [List.cons.injEq, true_and] at e
      rw [← e]; simp
    · rename_i h1 h2; exact absurd rfl (h2 _)
  | 2, _ =>
    rw [show (l ++ List.replicate 2 '=').reverse = '=' :: '=' :: l.reverse by simp [List.replicate]]
    split
    · rename_i r e
      simp only [List.cons.injEq, true_and] at e
      rw [← e]; simp
    · rename_i r h1 e
      simp only [List.cons.injEq, true_and] at e
      exact absurd e.symm (h1 _)
    · rename_i h1 h2; exact absurd rfl (h1 _)

/-- Decoding undoes encoding. -/
theorem decodeStd_encodeStd (b : Bytes) : decodeStd (encodeStd b) = some b := by
  have hl := enc_len b
  have hlen : ((Base64.encode b).map toStd).length = (Base64.encode b).length := by simp
  unfold decodeStd encodeStd
  simp only
  rw [if_pos (by simp only [List.length_append, List.length_replicate, hlen]; omega)]
  rw [dropPad_pad _ ?_ _ (by rw [hlen]; omega)]
  · rw [List.map_map]
    have : (Base64.encode b).map (ofStd ∘ toStd) = Base64.encode b := by
      conv => rhs; rw [← List.map_id (Base64.encode b)]
      apply List.map_congr_left
      intro c hc
      obtain ⟨n, h1, rfl⟩ := enc_mem b c hc
      exact (std_char n h1).1
    rw [this, Base64.decode_encode]
  · intro h
    have := List.mem_of_getLast? h
    rw [List.mem_map] at this
    obtain ⟨c, hc, he⟩ := this
    obtain ⟨n, h1, rfl⟩ := enc_mem b c hc
    exact (std_char n h1).2.1 he

/-! ### What the server writes is a way to write the request -/

theorem char_eq {c : Char} {n : Nat} (h : c.toNat = n) : c = Char.ofNat n := by rw [← h, Char.ofNat_toNat]

theorem spells_esc (c : Char) : SpellsChar c (escChar c) := by
  unfold escChar
  split
  · rename_i h; subst h; exact .quote
  · rename_i hq
    split
    · rename_i h; subst h; exact .backslash
    · rename_i hb
      split
      · rename_i h; rw [char_eq h]; exact .bs
      · split
        · rename_i h; rw [char_eq h]; exact .tab
        · split
          · rename_i h; rw [char_eq h]; exact .nl
          · split
            · rename_i h; rw [char_eq h]; exact .ff
            · split
              · rename_i h; rw [char_eq h]; exact .cr
              · split
                · rename_i h
                  refine .hex c _ _ _ _ ⟨0, 0, c.toNat / 16, c.toNat % 16, Or.inl rfl, Or.inl rfl, Or.inl ?_, Or.inl ?_, by omega⟩
                  · have : ∀ m : Fin 32, "0123456789abcdef".toList[m.val / 16]? = some (hexDigit (m.val / 16)) := by decide +kernel
                    exact this ⟨_, h⟩
                  · have : ∀ m : Fin 32, "0123456789abcdef".toList[m.val % 16]? = some (hexDigit (m.val % 16)) := by decide +kernel
                    exact this ⟨_, h⟩
                · rename_i h; exact .raw c (by omega) hq hb

/-- No control character is written. -/
theorem esc_printable (c d : Char) (h : d ∈ escChar c) : 32 ≤ d.toNat := by
  unfold escChar at h
  split at h
  · simp at h; rcases h with rfl | rfl <;> decide
  · split at h
    · simp at h; subst h; decide
    · split at h
      · simp at h; rcases h with rfl | rfl <;> decide
      · split at h
        · simp at h; rcases h with rfl | rfl <;> decide
        · split at h
          · simp at h; rcases h with rfl | rfl <;> decide
          · split at h
            · simp at h; rcases h with rfl | rfl <;> decide
            · split at h
              · simp at h; rcases h with rfl | rfl <;> decide
              · split at h
                · rename_i hlt
                  have hx : ∀ m : Fin 32, 32 ≤ (hexDigit (m.val / 16)).toNat ∧ 32 ≤ (hexDigit (m.val % 16)).toNat := by decide +kernel
                  simp at h
                  rcases h with rfl | rfl | rfl | rfl | rfl
                  · decide
                  · decide
                  · decide
                  · exact (hx ⟨_, hlt⟩).1
                  · exact (hx ⟨_, hlt⟩).2
                · rename_i h1; simp at h; subst h; omega

theorem spells_str (s : List Char) : SpellsStr s (writeStr s) := by
  refine ⟨s.flatMap escChar, ?_, rfl⟩
  induction s with
  | nil => exact .nil
  | cons c s ih => rw [List.flatMap_cons]; exact .cons (spells_esc c) ih

theorem str_printable (s : List Char) : ∀ d ∈ writeStr s, 32 ≤ d.toNat := by
  intro d hd
  simp only [writeStr, List.mem_cons, List.mem_append, List.mem_flatMap, List.not_mem_nil, or_false] at hd
  rcases hd with rfl | ⟨c, -, hd⟩ | rfl
  · decide
  · exact esc_printable c d hd
  · decide

theorem fields_printable (fs : List (String × List Char)) : ∀ d ∈ writeFields fs, 32 ≤ d.toNat := by
  induction fs with
  | nil => intro d hd; cases hd
  | cons f rest ih =>
    obtain ⟨k, v⟩ := f
    intro d hd
    cases rest with
    | nil =>
      simp only [writeFields, List.mem_append, List.mem_cons] at hd
      rcases hd with hd | rfl | hd
      · exact str_printable _ d hd
      · decide
      · exact str_printable _ d hd
    | cons g rest =>
      simp only [writeFields, List.mem_append, List.mem_cons] at hd
      rcases hd with hd | rfl | hd | rfl | hd
      · exact str_printable _ d hd
      · decide
      · exact str_printable _ d hd
      · decide
      · exact ih d hd

theorem line_printable (fs : List (String × List Char)) : ∀ d ∈ requestLine fs, 32 ≤ d.toNat := by
  intro d hd
  simp only [requestLine, List.mem_cons, List.mem_append, List.not_mem_nil, or_false] at hd
  rcases hd with rfl | hd | rfl
  · decide
  · exact fields_printable fs d hd
  · decide

theorem spells_fields (fs : List (String × List Char)) (h : fs ≠ []) :
    SpellsMembers (fs.map (fun f => (f.1.toList, some f.2))) (writeFields fs ++ ['}']) := by
  have w0 : Ws [] := by intro c hc; cases hc
  induction fs with
  | nil => exact absurd rfl h
  | cons f rest ih =>
    obtain ⟨k, v⟩ := f
    cases rest with
    | nil =>
      have := SpellsMembers.last (v := some v) (spells_str k.toList) (spells_str v) w0 w0 w0 w0
      simpa [writeFields] using this
    | cons g rest =>
      have := SpellsMembers.more (v := some v) (spells_str k.toList) (spells_str v) w0 w0 w0 w0 (ih (by simp))
      simpa [writeFields] using this

theorem spells_line (fs : List (String × List Char)) (h : fs ≠ []) : SpellsObj (fs.map (fun f => (f.1.toList, some f.2))) (requestLine fs) := by
  have w0 : Ws [] := by intro c hc; cases hc
  exact ⟨[], _, [], w0, w0, spells_fields fs h, by simp [requestLine]⟩

/-! ### Lines -/

theorem linesFrom_line (acc l rest : List Char) (h : '\n' ∉ l) : linesFrom acc (l ++ '\n' :: rest) = stripCr (acc ++ l) :: linesFrom [] rest := by
  induction l generalizing acc with
  | nil => simp [linesFrom]
  | cons c l ih =>
    simp only [List.mem_cons, not_or] at h
    have hc : ¬ c = '\n' := fun e => h.1 e.symm
    rw [List.cons_append, linesFrom, if_neg hc, ih _ h.2]
    simp

theorem stripCr_printable (l : List Char) (h : ∀ d ∈ l, 32 ≤ d.toNat) : stripCr l = l := by
  unfold stripCr
  rw [if_neg]
  intro e
  exact absurd (h _ (List.mem_of_getLast? e)) (by decide)

theorem lines_flatMap (ls : List (List Char)) (h : ∀ l ∈ ls, ∀ d ∈ l, 32 ≤ d.toNat) : lines (ls.flatMap (· ++ ['\n'])) = ls := by
  induction ls with
  | nil => rfl
  | cons l ls ih =>
    unfold lines at ih ⊢
    have hl := h l (by simp)
    rw [List.flatMap_cons, List.append_assoc, List.singleton_append, linesFrom_line _ _ _ (by intro hm; exact absurd (hl _ hm) (by decide)),
      List.nil_append, stripCr_printable l hl, ih (fun l' hl' => h l' (by simp [hl']))]

/-! ### Reading fields -/

/-- The string under a name, if the first field of that name is one. Proof device: nothing in the code corresponds. -/
def field (fs : List (List JUnit × JVal)) (name : String) : Option (List Char) :=
  match fs with
  | [] => none
  | (k, v) :: rest => if toChars k = some name.toList then v.string? else field rest name

/-- What a program that reads JSON finds in a line: the message id, the key and the data to sign.
    Specification: nothing in the code corresponds. -/
def readRequest (cs : List Char) : Option (String × B 32 × Bytes) :=
  match parse cs with
  | some (.obj fs) =>
    match field fs "msgId", field fs "pubKey", field fs "dataToSign" with
    | some id, some pk, some data =>
      match (Base64.decode pk).bind (B.ofBytes? 32), decodeStd data with
      | some pk, some data => some (String.ofList id, pk, data)
      | _, _ => none
    | _, _, _ => none
  | _ => none

theorem opt_string {j : JVal} {s : List Char} (h : j.optString? = some (some s)) : j.string? = some s := by
  cases j with
  | null => simp [JVal.optString?] at h
  | _ => simpa [JVal.optString?, Option.map_eq_some_iff] using h

theorem field_reads {fs : List (List Char × Option (List Char))} {js : List (List JUnit × JVal)} (h : Reads fs js)
    (hn : (fs.map (·.1)).Nodup) (name : String) (v : List Char) (hm : (name.toList, some v) ∈ fs) : field js name = some v := by
  induction h with
  | nil => cases hm
  | @cons k w us j fs js h ht ih =>
    obtain ⟨h1, h2⟩ := h
    simp only [List.map_cons, List.nodup_cons] at hn
    simp only [field, h1]
    rcases List.mem_cons.mp hm with hm | hm
    · cases hm
      simp only [if_true]
      exact opt_string h2
    · have hne : ¬ some k = some name.toList := by
        intro e
        rw [Option.some.inj e] at hn
        exact hn.1 (List.mem_map_of_mem (f := (·.1)) hm)
      rw [if_neg hne]
      exact ih hn.2 hm

/-! ### Replies -/

theorem addAll_reads {fs : List (List Char × Option (List Char))} {js : List (List JUnit × JVal)} (h : Reads fs js)
    (hn : (fs.map (·.1)).Nodup) (hid : ("msgId".toList, none) ∉ fs) (a : ResAcc)
    (h1 : a.msgId ≠ none → "msgId".toList ∉ fs.map (·.1)) (h2 : a.signature ≠ none → "signature".toList ∉ fs.map (·.1))
    (h3 : a.error ≠ none → "error".toList ∉ fs.map (·.1)) :
    ResAcc.addAll a js = some ⟨a.msgId.or ((fs.lookup "msgId".toList).join), a.signature.or (fs.lookup "signature".toList),
      a.error.or (fs.lookup "error".toList)⟩ := by
  have d1 : ("msgId".toList == "signature".toList) = false := by decide
  have d2 : ("msgId".toList == "error".toList) = false := by decide
  have d3 : ("signature".toList == "error".toList) = false := by decide
  have d4 : ("signature".toList == "msgId".toList) = false := by decide
  have d5 : ("error".toList == "msgId".toList) = false := by decide
  have d6 : ("error".toList == "signature".toList) = false := by decide
  induction h generalizing a with
  | nil => simp [ResAcc.addAll]
  | @cons k v us j fs js h ht ih =>
    obtain ⟨e1, e2⟩ := h
    simp only [List.map_cons, List.nodup_cons] at hn
    have hid' : ("msgId".toList, none) ∉ fs := fun hm => hid (List.mem_cons_of_mem _ hm)
    have g1 : a.msgId ≠ none → "msgId".toList ∉ fs.map (·.1) := fun x hm => h1 x (by simp only [List.map_cons]; exact List.mem_cons_of_mem _ hm)
    have g2 : a.signature ≠ none → "signature".toList ∉ fs.map (·.1) := fun x hm => h2 x (by simp only [List.map_cons]; exact List.mem_cons_of_mem _ hm)
    have g3 : a.error ≠ none → "error".toList ∉ fs.map (·.1) := fun x hm => h3 x (by simp only [List.map_cons]; exact List.mem_cons_of_mem _ hm)
    simp only [ResAcc.addAll, e1]
    by_cases hk1 : k = "msgId".toList
    · subst hk1
      have ha : a.msgId = none := by
        cases hc : a.msgId with
        | none => rfl
        | some x => exact absurd (by simp) (h1 (by simp [hc]))
      obtain ⟨s, rfl⟩ : ∃ s, v = some s := by
        cases v with
        | none => exact absurd (by simp) hid
        | some s => exact ⟨s, rfl⟩
      have hadd : a.add "msgId".toList j = some { a with msgId := some s } := by
        unfold ResAcc.add; rw [if_pos rfl, ha, opt_string e2]
      rw [hadd]
      simp only
      rw [ha, ih hn.2 hid' { a with msgId := some s } (fun _ => hn.1) g2 g3]
      simp [List.lookup_cons, d4, d5]
    · by_cases hk2 : k = "signature".toList
      · subst hk2
        have ha : a.signature = none := by
          cases hc : a.signature with
          | none => rfl
          | some x => exact absurd (by simp) (h2 (by simp [hc]))
        have hadd : a.add "signature".toList j = some { a with signature := some v } := by
          unfold ResAcc.add; rw [if_neg hk1, if_pos rfl, ha, e2]
        rw [hadd]
        simp only
        rw [ha, ih hn.2 hid' { a with signature := some v } g1 (fun _ => hn.1) g3]
        simp [List.lookup_cons, d1, d6]
      · by_cases hk3 : k = "error".toList
        · subst hk3
          have ha : a.error = none := by
            cases hc : a.error with
            | none => rfl
            | some x => exact absurd (by simp) (h3 (by simp [hc]))
          have hadd : a.add "error".toList j = some { a with error := some v } := by
            unfold ResAcc.add; rw [if_neg hk1, if_neg hk2, if_pos rfl, ha, e2]
          rw [hadd]
          simp only
          rw [ha, ih hn.2 hid' { a with error := some v } g1 g2 (fun _ => hn.1)]
          simp [List.lookup_cons, d2, d3]
        · have hadd : a.add k j = some a := by
            unfold ResAcc.add; rw [if_neg hk1, if_neg hk2, if_neg hk3]
          rw [hadd]
          simp only
          rw [ih hn.2 hid' a g1 g2 g3]
          have b1 : ("msgId".toList == k) = false := by simpa using fun e : "msgId".toList = k => hk1 e.symm
          have b2 : ("signature".toList == k) = false := by simpa using fun e : "signature".toList = k => hk2 e.symm
          have b3 : ("error".toList == k) = false := by simpa using fun e : "error".toList = k => hk3 e.symm
          simp only [List.lookup_cons, b1, b2, b3]

theorem lookup_mem {fs : List (List Char × Option (List Char))} (hn : (fs.map (·.1)).Nodup) {k : List Char} {v : Option (List Char)}
    (h : (k, v) ∈ fs) : fs.lookup k = some v := by
  induction fs with
  | nil => cases h
  | cons f fs ih =>
    obtain ⟨k', v'⟩ := f
    simp only [List.map_cons, List.nodup_cons] at hn
    rcases List.mem_cons.mp h with h | h
    · cases h; simp
    · have : (k == k') = false := by
        simp only [beq_eq_false_iff_ne, ne_eq]
        intro e
        rw [← e] at hn
        exact hn.1 (List.mem_map_of_mem (f := fun x : List Char × Option (List Char) => x.1) h)
      rw [List.lookup_cons, this]
      exact ih hn.2 h

theorem lookup_some_mem {fs : List (List Char × Option (List Char))} {k : List Char} {v : Option (List Char)}
    (h : fs.lookup k = some v) : (k, v) ∈ fs := by
  induction fs with
  | nil => cases h
  | cons f fs ih =>
    obtain ⟨k', v'⟩ := f
    rw [List.lookup_cons] at h
    cases hb : k == k' with
    | true =>
      rw [hb] at h
      have : k = k' := by simpa using hb
      cases h; subst this; exact List.mem_cons_self
    | false =>
      rw [hb] at h
      exact List.mem_cons_of_mem _ (ih h)

/-- What the read loop makes of an object, however it is written. -/
theorem reply_obj {fs : List (List Char × Option (List Char))} {t : List Char} (h : SpellsObj fs t) (hn : (fs.map (·.1)).Nodup)
    (id : List Char) (hid : ("msgId".toList, some id) ∈ fs) :
    replyLine t = .reply (String.ofList id) ((fs.lookup "signature".toList).join.map decodeStd)
      ((fs.lookup "error".toList).join.map String.ofList) := by
  obtain ⟨js, h1, h2⟩ := parse_obj h
  have hl := lookup_mem hn hid
  have hid0 : ("msgId".toList, none) ∉ fs := by
    intro hm
    have := lookup_mem hn hm
    rw [hl] at this; cases this
  have := addAll_reads h2 hn hid0 ⟨none, none, none⟩ (by simp) (by simp) (by simp)
  unfold replyLine
  simp only [h1, Option.bind_some, resOf, this, hl, Option.join_some, Option.none_or]

end Lair.Json
