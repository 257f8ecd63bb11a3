import Verif.Props.Config

/-
C53, exactly: for which root directories the connection URL of a generated configuration leads back to the socket.
-/
namespace Lair
open Url

variable {C : Crypto}

/-- No `%` followed by two hexadecimal digits. -/
def NoEscape (p : Bytes) : Prop :=
  ∀ (i : Nat) (a b : UInt8), p[i]? = some 0x25 → p[i + 1]? = some a → p[i + 2]? = some b → a ∈ hexChars → b ∉ hexChars

theorem mem_hexVal {b : UInt8} (h : b ∈ hexChars) : ∃ n, hexVal b = some n := by
  have : ∀ x ∈ hexChars, (hexVal x).isSome = true := by decide +kernel
  exact Option.isSome_iff_exists.1 (this b h)

theorem hexChars_safe {b : UInt8} (h : b ∈ hexChars) : pathSet b = false ∧ b ≠ 0x25 ∧ b ≠ 0x2f := by
  have : ∀ x ∈ hexChars, pathSet x = false ∧ x ≠ 0x25 ∧ x ≠ 0x2f := by decide +kernel
  exact this b h

/-- Does the text after a `%` start with two hexadecimal digits? -/
def Esc (l : Bytes) : Prop := ∃ x y r, l = x :: y :: r ∧ x ∈ hexChars ∧ y ∈ hexChars

theorem pctDecode_stray {l : Bytes} (h : ¬ Esc l) : pctDecode (0x25 :: l) = 0x25 :: pctDecode l := by
  rw [pctDecode.eq_def]
  split
  · rename_i x y r he
    injection he with _ he
    subst he
    split
    · rename_i u v hu hv
      exact absurd ⟨x, y, r, rfl, hexVal_mem hu, hexVal_mem hv⟩ h
    · rfl
  · rename_i he
    injection he with h1 h2
    rw [← h1, ← h2]
  · rename_i he; cases he

theorem esc_of_encode {l : Bytes} (h : Esc (pctEncode pathSet l)) : Esc l := by
  obtain ⟨x, y, r, he, hx, hy⟩ := h
  cases l with
  | nil => simp [pctEncode] at he
  | cons a l =>
    simp only [pctEncode] at he
    split at he
    · injection he with h1 _
      exact absurd h1.symm (hexChars_safe hx).2.1
    · injection he with h1 he
      subst h1
      cases l with
      | nil => simp [pctEncode] at he
      | cons b l =>
        simp only [pctEncode] at he
        split at he
        · injection he with h1 _
          exact absurd h1.symm (hexChars_safe hy).2.1
        · injection he with h1 _
          subst h1
          exact ⟨a, b, l, rfl, hx, hy⟩

/-- Encoding before decoding makes no difference. -/
theorem pctDecode_encode : ∀ (n : Nat) (s : Bytes), s.length ≤ n → pctDecode (pctEncode pathSet s) = pctDecode s
  | _, [], _ => rfl
  | 0, _ :: _, h => by simp at h
  | n + 1, x :: xs, h => by
    have hl := x.toNat_lt
    have ih : pctDecode (pctEncode pathSet xs) = pctDecode xs := pctDecode_encode n xs (by simpa using h)
    by_cases hx : x = 0x25
    · subst hx
      have e : pctEncode pathSet (0x25 :: xs) = 0x25 :: pctEncode pathSet xs := by
        simp only [pctEncode]; rw [if_neg (by decide)]
      rw [e]
      by_cases hE : Esc xs
      · obtain ⟨a, b, r, rfl, ha, hb⟩ := hE
        obtain ⟨u, hu⟩ := mem_hexVal ha
        obtain ⟨v, hv⟩ := mem_hexVal hb
        have e2 : pctEncode pathSet (a :: b :: r) = a :: b :: pctEncode pathSet r := by
          simp [pctEncode, (hexChars_safe ha).1, (hexChars_safe hb).1]
        rw [e2, pctDecode_escape hu hv, pctDecode_escape hu hv, pctDecode_encode n r (by simp at h; omega)]
      · rw [pctDecode_stray (fun h' => hE (esc_of_encode h')), pctDecode_stray hE, ih]
    · rw [pctDecode_plain hx]
      simp only [pctEncode]
      split
      · rw [pctDecode_escape (hexVal_hexDigit (by omega)) (hexVal_hexDigit (by omega)), ih]
        have : UInt8.ofNat (16 * (x.toNat / 16) + x.toNat % 16) = x := by rw [Nat.div_add_mod]; simp
        rw [this]
      · rw [pctDecode_plain hx, ih]

/-- Decoding shortens a text exactly if there is something to decode. -/
theorem pctDecode_length : ∀ (n : Nat) (s : Bytes), s.length ≤ n → (pctDecode s).length ≤ s.length ∧ ((pctDecode s).length = s.length → NoEscape s)
  | _, [], _ => ⟨by simp [pctDecode], fun _ i a b h => by simp at h⟩
  | 0, _ :: _, h => by simp at h
  | n + 1, x :: xs, h => by
    obtain ⟨i1, i2⟩ := pctDecode_length n xs (by simpa using h)
    by_cases hE : x = 0x25 ∧ Esc xs
    · obtain ⟨rfl, a, b, r, rfl, ha, hb⟩ := hE
      obtain ⟨u, hu⟩ := mem_hexVal ha
      obtain ⟨v, hv⟩ := mem_hexVal hb
      have := (pctDecode_length n r (by simp at h; omega)).1
      rw [pctDecode_escape hu hv]
      simp only [List.length_cons]
      exact ⟨by omega, fun hh => by omega⟩
    · have e : pctDecode (x :: xs) = x :: pctDecode xs := by
        by_cases hx : x = 0x25
        · subst hx; exact pctDecode_stray fun h' => hE ⟨rfl, h'⟩
        · exact pctDecode_plain hx _
      rw [e]
      refine ⟨by simpa using i1, fun hh => ?_⟩
      have hn := i2 (by simpa using hh)
      intro i a b h1 h2 h3 ha hb
      cases i with
      | succ i => exact hn i a b (by simpa using h1) (by simpa using h2) (by simpa using h3) ha hb
      | zero =>
        refine hE ⟨by simpa using h1, ?_⟩
        simp only [Nat.zero_add, List.getElem?_cons_succ] at h2 h3
        cases xs with
        | nil => simp at h2
        | cons y ys =>
          cases ys with
          | nil => simp at h3
          | cons z zs =>
            simp only [List.getElem?_cons_zero, List.getElem?_cons_succ, Option.some.injEq] at h2 h3
            subst h2; subst h3
            exact ⟨y, z, zs, rfl, ha, hb⟩

theorem takeWhile_length (p : UInt8 → Bool) (l : Bytes) : (l.takeWhile p).length ≤ l.length ∧
    ((l.takeWhile p).length = l.length → ∀ x ∈ l, p x = true) := by
  induction l with
  | nil => simp
  | cons a l ih =>
    by_cases h : p a = true
    · simp only [List.takeWhile, h, List.length_cons, List.mem_cons]
      refine ⟨by omega, fun hl x hx => ?_⟩
      rcases hx with rfl | hx
      · exact h
      · exact ih.2 (by omega) x hx
    · simp [List.takeWhile, h]

/-- The part of the text that becomes the path, whatever comes after the `?`. -/
theorem path_part (T q : Bytes) : (((T ++ 0x3f :: q).filter (fun b => !dropped b)).takeWhile (· != 0x23)).takeWhile (· != 0x3f) =
    ((T.filter (fun b => !dropped b)).takeWhile (· != 0x23)).takeWhile (· != 0x3f) := by
  have hd : dropped 0x3f = false := by decide
  rw [List.filter_append, List.filter_cons, hd]
  simp only [Bool.not_false, ↓reduceIte]
  generalize T.filter (fun b => !dropped b) = A
  generalize q.filter (fun b => !dropped b) = R
  induction A with
  | nil => simp
  | cons a A ih =>
    rw [List.cons_append]
    by_cases h : a = 0x23
    · subst h; simp
    · have h1 : (a != 0x23) = true := by simp [h]
      simp only [List.takeWhile, h1]
      by_cases h2 : a = 0x3f
      · subst h2; simp
      · have h3 : (a != 0x3f) = true := by simp [h2]
        simp only [h3]
        rw [ih]

theorem generated_filePath (L : C.Lawful) {root canon pass : Bytes} {limits : PwHashLimits} {r : ConfigRand} {cfg : Config}
    (h : Config.new C L root canon pass limits r = some cfg) :
    cfg.url.filePath =
      pctDecode ((((pushPath canon "socket").filter (fun b => !dropped b)).takeWhile (· != 0x23)).takeWhile (· != 0x3f)) := by
  unfold Config.new at h
  split at h
  · cases h
  · cases h
    have e : Mp.utf8 "?k=" = 0x3f :: Mp.utf8 "k=" := by decide +kernel
    simp only [filePath, ofText]
    rw [e, List.append_assoc, List.cons_append, pctDecode_encode _ _ (Nat.le_refl _), path_part]

theorem noEscape_push {p : Bytes} (h : NoEscape p) : NoEscape (pushPath p "socket") := by
  have hs : (0x25 : UInt8) ∉ Mp.utf8 "socket" := by decide +kernel
  have hs' : (0x25 : UInt8) ∉ 0x2f :: Mp.utf8 "socket" := by decide +kernel
  intro i a b h1 h2 h3 ha hb
  unfold pushPath at h1 h2 h3
  split at h1
  · rename_i hc
    rw [if_pos hc] at h2 h3
    have hi : i < p.length := by
      rcases Nat.lt_or_ge i p.length with hi | hi
      · exact hi
      · rw [List.getElem?_append_right hi] at h1
        exact absurd (List.mem_of_getElem? h1) hs
    rw [List.getElem?_append_left hi] at h1
    rcases hc with rfl | hc
    · simp at hi
    · rw [List.getLast?_eq_getElem?] at hc
      have hi1 : i + 1 < p.length := by
        rcases Nat.lt_or_ge (i + 1) p.length with hi' | hi'
        · exact hi'
        · have : p.length - 1 = i := by omega
          rw [this, h1] at hc; cases hc
      rw [List.getElem?_append_left hi1] at h2
      have hi2 : i + 2 < p.length := by
        rcases Nat.lt_or_ge (i + 2) p.length with hi' | hi'
        · exact hi'
        · have : p.length - 1 = i + 1 := by omega
          rw [this, h2] at hc; cases hc
          exact absurd rfl (hexChars_safe ha).2.2
      rw [List.getElem?_append_left hi2] at h3
      exact h i a b h1 h2 h3 ha hb
  · rename_i hc
    rw [if_neg hc] at h2 h3
    have hi : i < p.length := by
      rcases Nat.lt_or_ge i p.length with hi | hi
      · exact hi
      · rw [List.getElem?_append_right hi] at h1
        exact absurd (List.mem_of_getElem? h1) hs'
    rw [List.getElem?_append_left hi] at h1
    have hi1 : i + 1 < p.length := by
      rcases Nat.lt_or_ge (i + 1) p.length with hi' | hi'
      · exact hi'
      · have : i + 1 - p.length = 0 := by omega
        rw [List.getElem?_append_right hi', this] at h2
        simp at h2
        exact absurd h2.symm (hexChars_safe ha).2.2
    rw [List.getElem?_append_left hi1] at h2
    have hi2 : i + 2 < p.length := by
      rcases Nat.lt_or_ge (i + 2) p.length with hi' | hi'
      · exact hi'
      · have : i + 2 - p.length = 0 := by omega
        rw [List.getElem?_append_right hi', this] at h3
        simp at h3
        exact absurd h3.symm (hexChars_safe hb).2.2
    rw [List.getElem?_append_left hi2] at h3
    exact h i a b h1 h2 h3 ha hb

theorem push_prefix (p : Bytes) : ∃ q, pushPath p "socket" = p ++ q := by
  unfold pushPath; split <;> exact ⟨_, rfl⟩

/-- C53. Exactly these root directories have a connection URL that leads back to the socket: those whose canonical path has no `#`, no `?`,
    no tab or line end, and no `%` followed by two hexadecimal digits. -/
theorem C53_leads_to_socket_iff (L : C.Lawful) {root canon pass : Bytes} {limits : PwHashLimits} {r : ConfigRand} {cfg : Config}
    (h : Config.new C L root canon pass limits r = some cfg) :
    cfg.url.filePath = pushPath canon "socket" ↔ UrlSafe canon ∧ NoEscape canon := by
  have hF := generated_filePath L h
  obtain ⟨q, hq⟩ := push_prefix canon
  constructor
  · intro hp
    rw [hp] at hF
    generalize hT : pushPath canon "socket" = T at hF
    have l1 := pctDecode_length _ ((((T.filter (fun b => !dropped b)).takeWhile (· != 0x23)).takeWhile (· != 0x3f))) (Nat.le_refl _)
    have l2 := takeWhile_length (· != 0x3f) ((T.filter (fun b => !dropped b)).takeWhile (· != 0x23))
    have l3 := takeWhile_length (· != 0x23) (T.filter (fun b => !dropped b))
    have l4 := List.length_filter_le (fun b => !dropped b) T
    have hl := congrArg List.length hF
    have e4 : T.filter (fun b => !dropped b) = T := by
      refine List.filter_eq_self.2 (List.length_filter_eq_length_iff.1 (by omega))
    have m4 := List.filter_eq_self.1 e4
    rw [e4] at l1 l2 l3
    have m3 := l3.2 (by rw [e4] at hl; omega)
    have e3 : T.takeWhile (· != 0x23) = T := takeWhile_all m3
    rw [e3] at l1 l2
    have m2 := l2.2 (by rw [e4, e3] at hl; omega)
    have e2 : T.takeWhile (· != 0x3f) = T := takeWhile_all m2
    rw [e2] at l1
    have m1 := l1.2 (by rw [e4, e3, e2] at hl; omega)
    rw [hq] at hT
    subst hT
    refine ⟨fun x hx => ?_, fun i a b h1 h2 h3 => ?_⟩
    · have hx' : x ∈ canon ++ q := List.mem_append_left _ hx
      have a1 := m4 x hx'
      have a2 := m3 x hx'
      have a3 := m2 x hx'
      simp only [dropped, Bool.not_eq_true', Bool.or_eq_false_iff, beq_eq_false_iff_ne, bne_iff_ne] at a1 a2 a3
      exact ⟨a2, a3, a1.1.1, a1.1.2, a1.2⟩
    · have gl : ∀ {j : Nat} {v : UInt8}, canon[j]? = some v → (canon ++ q)[j]? = some v := by
        intro j v hj
        rw [List.getElem?_append_left (List.getElem?_eq_some_iff.1 hj).1]; exact hj
      exact m1 i a b (gl h1) (gl h2) (gl h3)
  · rintro ⟨hs, hn⟩
    rw [generated_url L h hs]
    show pctDecode (pctEncode pathSet _) = _
    rw [pctDecode_encode _ _ (Nat.le_refl _)]
    exact C53_stray_percent _ none (noEscape_push hn)

/-- C53 does not hold in general. Tabs and line ends in the name of the root directory are left out of the URL, so it leads to another directory, or none. -/
theorem C53_tab_in_root (L : C.Lawful) {root canon pass : Bytes} {limits : PwHashLimits} {r : ConfigRand} {cfg : Config}
    (h : Config.new C L root canon pass limits r = some cfg) (hs : ∀ x ∈ canon, x ≠ 0x23 ∧ x ≠ 0x3f ∧ x ≠ 0x25) :
    cfg.url.filePath = (pushPath canon "socket").filter (fun b => b ≠ 9 ∧ b ≠ 10 ∧ b ≠ 13) := by
  rw [generated_filePath L h]
  have hp : ∀ x ∈ pushPath canon "socket", x ≠ 0x23 ∧ x ≠ 0x3f ∧ x ≠ 0x25 := by
    have hq : ∀ x ∈ Mp.utf8 "socket", x ≠ 0x23 ∧ x ≠ 0x3f ∧ x ≠ 0x25 := by decide +kernel
    intro x hx
    unfold pushPath at hx
    split at hx
    · rcases List.mem_append.1 hx with hx | hx
      · exact hs x hx
      · exact hq x hx
    · simp only [List.mem_append, List.mem_cons] at hx
      rcases hx with hx | rfl | hx
      · exact hs x hx
      · decide
      · exact hq x hx
  generalize pushPath canon "socket" = T at hp ⊢
  have hf : ∀ x ∈ T.filter (fun b => !dropped b), x ≠ 0x23 ∧ x ≠ 0x3f ∧ x ≠ 0x25 := fun x hx => hp x (List.mem_filter.1 hx).1
  rw [takeWhile_all (p := (· != 0x23)) (fun x hx => by simp [(hf x hx).1]), takeWhile_all (p := (· != 0x3f)) (fun x hx => by simp [(hf x hx).2.1]),
    pctDecode_id _ fun h' => (hf _ h').2.2 rfl]
  congr 1
  funext b
  simp only [dropped]
  by_cases h1 : b = 9 <;> by_cases h2 : b = 10 <;> by_cases h3 : b = 13 <;> simp_all

/-! ### The hypotheses are met -/

/-- A root with a stray `%` is fine. -/
example : UrlSafe (Mp.utf8 "/100%/a") ∧ NoEscape (Mp.utf8 "/100%/a") := by
  refine ⟨by unfold UrlSafe; decide +kernel, ?_⟩
  have e := (pctDecode_length _ (Mp.utf8 "/100%/a") (Nat.le_refl _)).2
  exact e (by decide +kernel)

/-- A tab in the name. -/
example : ∃ cfg, Config.new Toy.crypto Toy.lawful (Mp.utf8 "/a\tb") (Mp.utf8 "/a\tb") [1] .interactive exRand = some cfg ∧
    cfg.url.filePath = Mp.utf8 "/ab/socket" := by
  refine ⟨_, rfl, ?_⟩
  decide +kernel

end Lair
