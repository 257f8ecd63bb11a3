import Verif.Cli
import Verif.BundleLemmas

/-
Lemmas about the text handling of the command line program.
-/
namespace Lair.Cli
open Mp Bundle

theorem utf8_append (a b : List Char) : utf8 (String.ofList (a ++ b)) = utf8 (String.ofList a) ++ utf8 (String.ofList b) := by
  have : String.ofList (a ++ b) = String.ofList a ++ String.ofList b := by apply String.toList_inj.1; simp
  rw [this]
  simp [utf8]

theorem utf8_one (c : Char) : utf8 (String.ofList [c]) = String.utf8EncodeChar c := by
  simp [utf8, List.utf8Encode_singleton]

theorem encodeChar_last (c : Char) : ∃ pre b, String.utf8EncodeChar c = pre ++ [b] ∧ (b.toNat < 128 → pre = [] ∧ b.toNat = c.toNat) := by
  unfold String.utf8EncodeChar
  simp only
  split
  · rename_i h
    refine ⟨[], _, rfl, fun _ => ⟨rfl, ?_⟩⟩
    simp only [UInt8.toNat_ofNat']
    show c.toNat % 256 = c.toNat
    have : c.toNat ≤ 127 := h
    omega
  · split
    · refine ⟨[_], _, rfl, ?_⟩
      intro h; simp only [UInt8.toNat_ofNat'] at h; omega
    · split
      · refine ⟨[_, _], _, rfl, ?_⟩
        intro h; simp only [UInt8.toNat_ofNat'] at h; omega
      · refine ⟨[_, _, _], _, rfl, ?_⟩
        intro h; simp only [UInt8.toNat_ofNat'] at h; omega

/-- The last byte of a text, if ASCII, is its last character. -/
theorem utf8_last (l : List Char) (c : Char) : ∃ pre b, utf8 (String.ofList (l ++ [c])) = pre ++ [b] ∧
    (b.toNat < 128 → pre = utf8 (String.ofList l) ∧ b.toNat = c.toNat) := by
  obtain ⟨p, b, h1, h2⟩ := encodeChar_last c
  refine ⟨utf8 (String.ofList l) ++ p, b, ?_, ?_⟩
  · rw [utf8_append, utf8_one, h1, List.append_assoc]
  · intro h
    obtain ⟨h3, h4⟩ := h2 h
    exact ⟨by rw [h3, List.append_nil], h4⟩

theorem stripEol_crlf (b : Bytes) : stripEol (b ++ [13, 10]) = b := by
  simp [stripEol]

theorem stripEol_lf (b : Bytes) (h : b.getLast? ≠ some 13) : stripEol (b ++ [10]) = b := by
  unfold stripEol
  rw [List.reverse_append]
  simp only [List.reverse_cons, List.reverse_nil, List.nil_append, List.cons_append]
  have hr : b.reverse.head? = b.getLast? := by simp
  rw [← hr] at h
  split
  · rename_i r e
    have e := (List.cons.inj e).2
    rw [e] at h; simp at h
  · rename_i r _ e
    have e := (List.cons.inj e).2
    rw [← e]; simp
  · rename_i h1 h2
    exact absurd rfl (h2 _)

theorem stripEol_none (b : Bytes) (h : b.getLast? ≠ some 10) : stripEol b = b := by
  have hr : b.reverse.head? = b.getLast? := by simp
  rw [← hr] at h
  unfold stripEol
  split
  · rename_i e; rw [e] at h; simp at h
  · rename_i e; rw [e] at h; simp at h
  · rfl

theorem trim_last (l : List Char) (c : Char) (h : trim (l ++ [c]) = l ++ [c]) : isWs c = false := by
  cases hc : isWs c with
  | false => rfl
  | true =>
    have h1 := trim_pad [] l [c] (by simp) (by simpa using hc)
    simp only [List.nil_append] at h1
    rw [h] at h1
    have h2 := congrArg List.length h1
    have h3 : (trim l).length ≤ l.length := by
      unfold trim
      have a := (List.dropWhile_sublist isWs (l := l)).length_le
      have b := (List.dropWhile_sublist isWs (l := (l.dropWhile isWs).reverse)).length_le
      simp only [List.length_reverse] at *
      omega
    simp only [List.length_append, List.length_singleton] at h2
    omega

/-- A text that ends in a character other than white space ends in neither LF nor CR. -/
theorem utf8_last_solid (l : List Char) (c : Char) (h : isWs c = false) :
    (utf8 (String.ofList (l ++ [c]))).getLast? ≠ some 10 ∧ (utf8 (String.ofList (l ++ [c]))).getLast? ≠ some 13 := by
  obtain ⟨p, b, h1, h2⟩ := utf8_last l c
  rw [h1]
  simp only [List.getLast?_append, List.getLast?_singleton, Option.some_or, ne_eq, Option.some.injEq]
  constructor
  · rintro rfl
    have := (h2 (by decide)).2
    have e : c.toNat = 10 := this.symm
    unfold isWs at h
    simp [e] at h
  · rintro rfl
    have := (h2 (by decide)).2
    have e : c.toNat = 13 := this.symm
    unfold isWs at h
    simp [e] at h

/-! ### Lines -/

theorem splitLines_line (a b : List Char) (h : '\n' ∉ a) : splitLines (a ++ '\n' :: b) = a :: splitLines b := by
  induction a with
  | nil => simp [splitLines]
  | cons x xs ih =>
    have hx : x ≠ '\n' := fun e => h (by simp [e])
    simp only [List.cons_append, splitLines, hx, if_false]
    rw [ih (fun e => h (by simp [e]))]

theorem splitLines_last (a : List Char) (h : '\n' ∉ a) : splitLines a = [a] := by
  induction a with
  | nil => rfl
  | cons x xs ih =>
    have hx : x ≠ '\n' := fun e => h (by simp [e])
    simp only [splitLines, hx, if_false]
    rw [ih (fun e => h (by simp [e]))]

theorem splitLines_mem (s : List Char) : ∀ l ∈ splitLines s, '\n' ∉ l := by
  induction s with
  | nil => intro l hl; simp [splitLines] at hl; simp [hl]
  | cons x xs ih =>
    intro l hl
    unfold splitLines at hl
    split at hl
    · rcases List.mem_cons.1 hl with rfl | hl
      · simp
      · exact ih l hl
    · rename_i hx
      split at hl
      · have : l = [x] := by simpa using hl
        subst this
        simp only [List.mem_singleton]
        exact fun e => hx e.symm
      · rename_i l0 ls e
        rcases List.mem_cons.1 hl with rfl | hl
        · simp only [List.mem_cons, not_or]
          exact ⟨fun e => hx e.symm, ih l0 (by rw [e]; simp)⟩
        · exact ih l (by rw [e]; simp [hl])

theorem trim_sub (l : List Char) : ∀ c ∈ trim l, c ∈ l := by
  intro c hc
  unfold trim at hc
  rw [List.mem_reverse] at hc
  have h1 := (List.dropWhile_sublist isWs).subset hc
  rw [List.mem_reverse] at h1
  exact (List.dropWhile_sublist isWs).subset h1

theorem dropWhile_idem (l : List Char) : (l.dropWhile isWs).dropWhile isWs = l.dropWhile isWs := by
  induction l with
  | nil => rfl
  | cons x xs ih =>
    rw [List.dropWhile_cons]
    split
    · exact ih
    · rename_i h; rw [List.dropWhile_cons, if_neg h]

theorem trim_idem (l : List Char) : trim (trim l) = trim l := by
  unfold trim
  generalize hm : l.dropWhile isWs = m
  have hmm : m.dropWhile isWs = m := by rw [← hm]; exact dropWhile_idem l
  generalize hk : m.reverse.dropWhile isWs = k
  have hkk : k.dropWhile isWs = k := by rw [← hk]; exact dropWhile_idem _
  -- the first character of k.reverse is the first of m unless k is empty
  have hfirst : k.reverse.dropWhile isWs = k.reverse := by
    cases hr : k.reverse with
    | nil => rfl
    | cons c r =>
      have hpre : k.reverse <+: m := by
        have : k <:+ m.reverse := by rw [← hk]; exact List.dropWhile_suffix _
        have := List.reverse_prefix.2 this
        rwa [List.reverse_reverse] at this
      rw [hr] at hpre
      obtain ⟨t, ht⟩ := hpre
      rw [← ht, List.cons_append, List.dropWhile_cons] at hmm
      split at hmm
      · rename_i hc
        have := congrArg List.length hmm
        have le := (List.dropWhile_sublist isWs (l := r ++ t)).length_le
        simp only [List.length_cons] at this
        omega
      · rename_i hc
        rw [List.dropWhile_cons, if_neg hc]
  rw [hfirst, List.reverse_reverse, hkk]

end Lair.Cli
