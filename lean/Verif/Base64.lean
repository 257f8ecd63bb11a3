import Verif.Basic

/-
URL-safe, unpadded base64 as used for all binary values (encoding_types.rs:5-40, `base64` crate engine
`URL_SAFE_NO_PAD`, which refuses padding, foreign symbols and non-zero trailing bits).
-/
namespace Lair.Base64

/-- The URL-safe alphabet `A-Z a-z 0-9 - _`. Code: encoding_types.rs:8-18 and the base64 crate. -/
def enc6 (n : Nat) : Char :=
  if n < 26 then Char.ofNat (65 + n)
  else if n < 52 then Char.ofNat (71 + n)
  else if n < 62 then Char.ofNat (n - 4)
  else if n = 62 then '-' else '_'

/-- Inverse of the alphabet. Code: encoding_types.rs:8-18 and the base64 crate. -/
def dec6 (c : Char) : Option Nat :=
  let n := c.toNat
  if 65 ≤ n ∧ n ≤ 90 then some (n - 65)
  else if 97 ≤ n ∧ n ≤ 122 then some (n - 71)
  else if 48 ≤ n ∧ n ≤ 57 then some (n + 4)
  else if n = 45 then some 62
  else if n = 95 then some 63
  else none

/-- `to_base64_url` (encoding_types.rs): 3 bytes become 4 symbols, a rest of 1 or 2 bytes 2 or 3 symbols. -/
def encode : Bytes → List Char
  | a :: b :: c :: rest =>
    let n := a.toNat * 65536 + b.toNat * 256 + c.toNat
    enc6 (n / 262144) :: enc6 (n / 4096 % 64) :: enc6 (n / 64 % 64) :: enc6 (n % 64) :: encode rest
  | [a, b] =>
    let n := a.toNat * 65536 + b.toNat * 256
    [enc6 (n / 262144), enc6 (n / 4096 % 64), enc6 (n / 64 % 64)]
  | [a] =>
    let n := a.toNat * 65536
    [enc6 (n / 262144), enc6 (n / 4096 % 64)]
  | [] => []

/-- `from_base64_url` (encoding_types.rs): strict decoding. -/
def decode : List Char → Option Bytes
  | w :: x :: y :: z :: rest =>
    match dec6 w, dec6 x, dec6 y, dec6 z, decode rest with
    | some w, some x, some y, some z, some r =>
      let n := w * 262144 + x * 4096 + y * 64 + z
      some (UInt8.ofNat (n / 65536) :: UInt8.ofNat (n / 256) :: UInt8.ofNat n :: r)
    | _, _, _, _, _ => none
  | [w, x, y] =>
    match dec6 w, dec6 x, dec6 y with
    | some w, some x, some y =>
      if y % 4 = 0 then
        let n := w * 262144 + x * 4096 + y * 64
        some [UInt8.ofNat (n / 65536), UInt8.ofNat (n / 256)]
      else none
    | _, _, _ => none
  | [w, x] =>
    match dec6 w, dec6 x with
    | some w, some x =>
      if x % 16 = 0 then some [UInt8.ofNat ((w * 262144 + x * 4096) / 65536)] else none
    | _, _ => none
  | [_] => none
  | [] => some []

theorem dec6_enc6 (n : Nat) (h : n < 64) : dec6 (enc6 n) = some n := by
  have : ∀ m : Fin 64, dec6 (enc6 m.val) = some m.val := by decide +kernel
  exact this ⟨n, h⟩

theorem enc6_dec6 {c : Char} {n : Nat} (h : dec6 c = some n) : n < 64 ∧ enc6 n = c := by
  have hc : ∀ k : Nat, c.toNat = k → c = Char.ofNat k := by
    intro k hk; rw [← hk, Char.ofNat_toNat]
  unfold dec6 at h
  simp only at h
  split at h
  · rename_i hr; cases h
    refine ⟨by omega, ?_⟩
    unfold enc6
    rw [if_pos (by omega), hc _ rfl]
    congr 1
    rw [Char.ofNat_toNat]; omega
  · split at h
    · rename_i hr; cases h
      refine ⟨by omega, ?_⟩
      unfold enc6
      rw [if_neg (by omega), if_pos (by omega), hc _ rfl]
      congr 1
      rw [Char.ofNat_toNat]; omega
    · split at h
      · rename_i hr; cases h
        refine ⟨by omega, ?_⟩
        unfold enc6
        rw [if_neg (by omega), if_neg (by omega), if_pos (by omega), hc _ rfl]
        congr 1
        rw [Char.ofNat_toNat]; omega
      · split at h
        · rename_i hr; cases h
          exact ⟨by omega, (hc _ hr).symm ▸ by decide⟩
        · split at h
          · rename_i hr; cases h
            exact ⟨by omega, (hc _ hr).symm ▸ by decide⟩
          · cases h

theorem ofNat_eq (a : UInt8) (n : Nat) (h : n % 256 = a.toNat) : UInt8.ofNat n = a := by
  apply UInt8.toNat_inj.1
  simp [h]

theorem decode_encode (b : Bytes) : decode (encode b) = some b := by
  fun_induction encode b with
  | case1 a b c rest n ih =>
    have ha := a.toNat_lt; have hb := b.toNat_lt; have hc := c.toNat_lt
    have hn : n = a.toNat * 65536 + b.toNat * 256 + c.toNat := rfl
    simp only [decode]
    rw [dec6_enc6 _ (by omega), dec6_enc6 _ (by omega), dec6_enc6 _ (by omega), dec6_enc6 _ (by omega), ih]
    simp only [Option.some.injEq]
    rw [ofNat_eq a _ (by omega), ofNat_eq b _ (by omega), ofNat_eq c _ (by omega)]
  | case2 a b n =>
    have ha := a.toNat_lt; have hb := b.toNat_lt
    have hn : n = a.toNat * 65536 + b.toNat * 256 := rfl
    simp only [decode]
    rw [dec6_enc6 _ (by omega), dec6_enc6 _ (by omega), dec6_enc6 _ (by omega)]
    simp only
    rw [if_pos (by omega), ofNat_eq a _ (by omega), ofNat_eq b _ (by omega)]
  | case3 a n =>
    have ha := a.toNat_lt
    have hn : n = a.toNat * 65536 := rfl
    simp only [decode]
    rw [dec6_enc6 _ (by omega), dec6_enc6 _ (by omega)]
    simp only
    rw [if_pos (by omega), ofNat_eq a _ (by omega)]
  | case4 => rfl

theorem toNat_ofNat (n : Nat) : (UInt8.ofNat n).toNat = n % 256 := by simp

theorem encode_decode (s : List Char) (b : Bytes) (h : decode s = some b) : encode b = s := by
  fun_induction decode s generalizing b with
  | case1 w x y z rest w' x' y' z' r h5 h1 h2 h3 h4 n ih =>
    cases h
    obtain ⟨l1, e1⟩ := enc6_dec6 h1
    obtain ⟨l2, e2⟩ := enc6_dec6 h2
    obtain ⟨l3, e3⟩ := enc6_dec6 h3
    obtain ⟨l4, e4⟩ := enc6_dec6 h4
    have hn : n = w' * 262144 + x' * 4096 + y' * 64 + z' := rfl
    simp only [encode, toNat_ofNat]
    clear_value n
    rw [ih r h5]
    rw [show (n / 65536 % 256 * 65536 + n / 256 % 256 * 256 + n % 256) = n by omega]
    rw [show n / 262144 = w' by omega, show n / 4096 % 64 = x' by omega, show n / 64 % 64 = y' by omega,
      show n % 64 = z' by omega, e1, e2, e3, e4]
  | case2 => cases h
  | case3 w x y w' x' y' h1 h2 h3 hy n =>
    cases h
    obtain ⟨l1, e1⟩ := enc6_dec6 h1
    obtain ⟨l2, e2⟩ := enc6_dec6 h2
    obtain ⟨l3, e3⟩ := enc6_dec6 h3
    have hn : n = w' * 262144 + x' * 4096 + y' * 64 := rfl
    simp only [encode, toNat_ofNat]
    clear_value n
    have hm : n % 256 = 0 := by omega
    have hl : n / 65536 < 256 := by omega
    rw [show (n / 65536 % 256 * 65536 + n / 256 % 256 * 256) = n by omega]
    rw [show n / 262144 = w' by omega, show n / 4096 % 64 = x' by omega, show n / 64 % 64 = y' by omega, e1, e2, e3]
  | case4 => cases h
  | case5 => cases h
  | case6 w x w' x' h1 h2 hx =>
    cases h
    obtain ⟨l1, e1⟩ := enc6_dec6 h1
    obtain ⟨l2, e2⟩ := enc6_dec6 h2
    simp only [encode, toNat_ofNat]
    rw [show (w' * 262144 + x' * 4096) / 65536 % 256 * 65536 = w' * 262144 + x' * 4096 by omega]
    rw [show (w' * 262144 + x' * 4096) / 262144 = w' by omega,
      show (w' * 262144 + x' * 4096) / 4096 % 64 = x' by omega, e1, e2]
  | case7 => cases h
  | case8 => cases h
  | case9 => cases h
  | case10 => cases h; rfl

/-- `BinData::to_string` as text (`serialize_str`). Code: encoding_types.rs:8-18 and the base64 crate. -/
def toText (b : Bytes) : String := String.ofList (encode b)

/-- `from_base64_url(text)`. Code: encoding_types.rs:8-18 and the base64 crate. -/
def ofText (s : String) : Option Bytes := decode s.toList

/-- `BinDataSized::<N>::from_str` (encoding_types.rs): decode, then the length must be exactly `n`. -/
def ofTextSized (n : Nat) (s : String) : Option (B n) := (ofText s).bind (B.ofBytes? n)

theorem ofText_toText (b : Bytes) : ofText (toText b) = some b := by
  simp [ofText, toText, decode_encode]

theorem toText_of_ofText {s : String} {b : Bytes} (h : ofText s = some b) : s = toText b := by
  have := encode_decode _ _ h
  rw [toText, this]; simp

theorem ofTextSized_toText {n : Nat} (b : B n) : ofTextSized n (toText b.val) = some b := by
  simp [ofTextSized, ofText_toText]

end Lair.Base64
