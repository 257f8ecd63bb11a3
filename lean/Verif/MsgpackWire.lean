import Verif.Msgpack

/- The MessagePack formats (the specification at msgpack.org), independent of encoder and decoder, and that the decoder reads exactly these. -/
namespace Lair.Mp

/-! ### The formats -/

/-- `l` are the `k` bytes of `n`, most significant first. Specification: nothing in the code corresponds. -/
def Be (k n : Nat) (l : Bytes) : Prop := l.length = k ∧ l.foldl (fun a b => a * 256 + b.toNat) 0 = n

/-- A header that carries a number: in its first byte (`base + n`, for `n < small`), or in the `k` bytes after a first byte `m`.
    Specification: nothing in the code corresponds. -/
def Head (base small : Nat) (wide : List (UInt8 × Nat)) (n : Nat) (h : Bytes) : Prop :=
  (n < small ∧ h = [UInt8.ofNat (base + n)]) ∨ ∃ m k l, (m, k) ∈ wide ∧ Be k n l ∧ h = m :: l

/-- Unsigned integers of the MessagePack specification. Specification: nothing in the code corresponds. -/
def UintHead := Head 0 128 [(0xcc, 1), (0xcd, 2), (0xce, 4), (0xcf, 8)]
/-- Texts. Specification: nothing in the code corresponds. -/
def StrHead := Head 0xa0 32 [(0xd9, 1), (0xda, 2), (0xdb, 4)]
/-- Binary. Specification: nothing in the code corresponds. -/
def BinHead := Head 0 0 [(0xc4, 1), (0xc5, 2), (0xc6, 4)]
/-- Arrays. Specification: nothing in the code corresponds. -/
def ArrHead := Head 0x90 16 [(0xdc, 2), (0xdd, 4)]
/-- Maps. Specification: nothing in the code corresponds. -/
def MapHead := Head 0x80 16 [(0xde, 2), (0xdf, 4)]

/-- Extension lengths: five have a first byte of their own. Specification: nothing in the code corresponds. -/
def ExtHead (n : Nat) (h : Bytes) : Prop :=
  (∃ m, (m, n) ∈ [((0xd4 : UInt8), 1), (0xd5, 2), (0xd6, 4), (0xd7, 8), (0xd8, 16)] ∧ h = [m]) ∨
    Head 0 0 [(0xc7, 1), (0xc8, 2), (0xc9, 4)] n h

/-- Signed numbers of `k` bytes. Specification: nothing in the code corresponds. -/
def intWidths : List (UInt8 × Nat) := [(0xd0, 1), (0xd1, 2), (0xd2, 4), (0xd3, 8)]

/-- A string: its UTF-8 bytes after the header. Specification: nothing in the code corresponds. -/
def StrWire (s : String) (b : Bytes) : Prop := ∃ h, StrHead (utf8 s).length h ∧ b = h ++ utf8 s

mutual
/-- `b` is a way to write the value. Specification: nothing in the code corresponds. -/
inductive Wire : Val → Bytes → Prop
  | nil : Wire .nil [0xc0]
  | false : Wire (.bool false) [0xc2]
  | true : Wire (.bool true) [0xc3]
  | uint {n : Nat} {b : Bytes} (h : UintHead n b) : Wire (.uint n) b
  | int {m : UInt8} {k n : Nat} {l : Bytes} (hm : (m, k) ∈ intWidths) (h : Be k n l) (hs : 2 * n < 256 ^ k) : Wire (.uint n) (m :: l)
  | negFix {n : Nat} (h : n < 32) : Wire (.neg n) [UInt8.ofNat (0xff - n)]
  | neg {m : UInt8} {k n : Nat} {l : Bytes} (hm : (m, k) ∈ intWidths) (h : Be k (256 ^ k - 1 - n) l) (hs : 2 * n + 2 ≤ 256 ^ k) :
      Wire (.neg n) (m :: l)
  | float32 {b : Bytes} (h : b.length = 4) : Wire (.float b) (0xca :: b)
  | float64 {b : Bytes} (h : b.length = 8) : Wire (.float b) (0xcb :: b)
  | str {s : String} {b : Bytes} (h : StrWire s b) : Wire (.str s) b
  | bin {d h : Bytes} (hh : BinHead d.length h) : Wire (.bin d) (h ++ d)
  | ext {ty : UInt8} {d h : Bytes} (hh : ExtHead d.length h) : Wire (.ext ty d) (h ++ ty :: d)
  | arr {vs : Vals} {h b : Bytes} (hh : ArrHead vs.length h) (hv : WireVals vs b) : Wire (.arr vs) (h ++ b)
  | map {fs : Fields} {h b : Bytes} (hh : MapHead fs.length h) (hv : WireFields fs b) : Wire (.map fs) (h ++ b)
/-- One value after the other. Specification: nothing in the code corresponds. -/
inductive WireVals : Vals → Bytes → Prop
  | nil : WireVals .nil []
  | cons {v : Val} {vs : Vals} {b c : Bytes} (h : Wire v b) (ht : WireVals vs c) : WireVals (.cons v vs) (b ++ c)
/-- Names and values. Specification: nothing in the code corresponds. -/
inductive WireFields : Fields → Bytes → Prop
  | nil : WireFields .nil []
  | cons {k : String} {v : Val} {fs : Fields} {a b c : Bytes} (hk : StrWire k a) (h : Wire v b) (ht : WireFields fs c) :
      WireFields (.cons k v fs) (a ++ (b ++ c))
end

/-! ### Numbers -/

theorem foldl_be (l : Bytes) (a : Nat) :
    l.foldl (fun a b => a * 256 + b.toNat) a = a * 256 ^ l.length + l.foldl (fun a b => a * 256 + b.toNat) 0 := by
  induction l generalizing a with
  | nil => simp
  | cons b l ih =>
    simp only [List.foldl_cons, List.length_cons]
    rw [ih (a * 256 + b.toNat), ih (0 * 256 + b.toNat)]
    rw [Nat.pow_succ, Nat.add_mul, Nat.zero_mul, Nat.zero_add, Nat.mul_assoc a 256, Nat.mul_comm 256, Nat.add_assoc]

theorem readBe_complete {k n : Nat} {l : Bytes} (h : Be k n l) (r : Bytes) : readBe k (l ++ r) = some (n, r) := by
  obtain ⟨h1, h2⟩ := h
  induction l generalizing k n with
  | nil => simp at h1; subst h1; simp at h2; subst h2; rfl
  | cons b l ih =>
    simp at h1
    subst h1
    rw [List.foldl_cons, foldl_be] at h2
    rw [List.cons_append, readBe, ih rfl rfl]
    simp only [Option.some.injEq, Prod.mk.injEq, and_true]
    rw [← h2]; simp

theorem readBe_sound {k n : Nat} {bs r : Bytes} (h : readBe k bs = some (n, r)) : ∃ l, Be k n l ∧ bs = l ++ r := by
  induction k generalizing n bs with
  | zero =>
    rw [readBe] at h
    cases h
    exact ⟨[], ⟨rfl, rfl⟩, rfl⟩
  | succ k ih =>
    cases bs with
    | nil => simp [readBe] at h
    | cons b bs =>
      rw [readBe] at h
      split at h
      · rename_i m rest hm
        cases h
        obtain ⟨l, ⟨h1, h2⟩, rfl⟩ := ih hm
        refine ⟨b :: l, ⟨by simp [h1], ?_⟩, rfl⟩
        rw [List.foldl_cons, foldl_be, h2, h1]; simp
      · cases h

theorem be_bound {k n : Nat} {l : Bytes} (h : Be k n l) : n < 256 ^ k := by
  obtain ⟨h1, h2⟩ := h
  induction l generalizing k n with
  | nil => simp at h1; subst h1; simp at h2; omega
  | cons b l ih =>
    simp at h1
    subst h1
    rw [List.foldl_cons, foldl_be] at h2
    have := ih rfl rfl
    have hb := b.toNat_lt
    rw [← h2, Nat.pow_succ, Nat.zero_mul, Nat.zero_add]
    have hm : (b.toNat + 1) * 256 ^ l.length ≤ 256 * 256 ^ l.length := Nat.mul_le_mul_right _ (by omega)
    rw [Nat.add_mul] at hm
    rw [Nat.mul_comm (256 ^ l.length) 256]
    omega

/-! ### Headers -/

/-- What the header says, as a relation. Specification: nothing in the code corresponds. -/
inductive WireHdr : Hdr → Bytes → Prop
  | nil : WireHdr .nil [0xc0]
  | false : WireHdr (.bool false) [0xc2]
  | true : WireHdr (.bool true) [0xc3]
  | uint {n : Nat} {b : Bytes} (h : UintHead n b) : WireHdr (.uint n) b
  | int {m : UInt8} {k n : Nat} {l : Bytes} (hm : (m, k) ∈ intWidths) (h : Be k n l) (hs : 2 * n < 256 ^ k) : WireHdr (.uint n) (m :: l)
  | negFix {n : Nat} (h : n < 32) : WireHdr (.neg n) [UInt8.ofNat (0xff - n)]
  | neg {m : UInt8} {k n : Nat} {l : Bytes} (hm : (m, k) ∈ intWidths) (h : Be k (256 ^ k - 1 - n) l) (hs : 2 * n + 2 ≤ 256 ^ k) :
      WireHdr (.neg n) (m :: l)
  | float32 : WireHdr (.float 4) [0xca]
  | float64 : WireHdr (.float 8) [0xcb]
  | str {n : Nat} {b : Bytes} (h : StrHead n b) : WireHdr (.str n) b
  | bin {n : Nat} {b : Bytes} (h : BinHead n b) : WireHdr (.bin n) b
  | ext {n : Nat} {b : Bytes} (h : ExtHead n b) : WireHdr (.ext n) b
  | arr {n : Nat} {b : Bytes} (h : ArrHead n b) : WireHdr (.arr n) b
  | map {n : Nat} {b : Bytes} (h : MapHead n b) : WireHdr (.map n) b

theorem hdrBe_complete {f : Nat → Hdr} {k n : Nat} {l : Bytes} (h : Be k n l) (r : Bytes) : hdrBe f k (l ++ r) = some (f n, r) := by
  rw [hdrBe, readBe_complete h]

theorem hdrBe_sound {f : Nat → Hdr} {k : Nat} {bs r : Bytes} {h : Hdr} (hh : hdrBe f k bs = some (h, r)) :
    ∃ n l, Be k n l ∧ h = f n ∧ bs = l ++ r := by
  unfold hdrBe at hh
  split at hh
  · rename_i n rest hb
    cases hh
    obtain ⟨l, h1, h2⟩ := readBe_sound hb
    exact ⟨n, l, h1, rfl, h2⟩
  · cases hh

theorem hdrInt_sound {k : Nat} {bs r : Bytes} {h : Hdr} {m : UInt8} (hm : (m, k) ∈ intWidths) (hh : hdrInt k bs = some (h, r)) :
    ∃ hb, WireHdr h hb ∧ m :: bs = hb ++ r := by
  unfold hdrInt at hh
  split at hh
  · rename_i n rest hb
    obtain ⟨l, h1, rfl⟩ := readBe_sound hb
    have hlt := be_bound h1
    have heven : ∃ j, 256 ^ k = 2 * j := by
      simp only [intWidths, List.mem_cons, Prod.mk.injEq, List.not_mem_nil, or_false] at hm
      rcases hm with ⟨-, rfl⟩ | ⟨-, rfl⟩ | ⟨-, rfl⟩ | ⟨-, rfl⟩
      · exact ⟨128, by decide⟩
      · exact ⟨32768, by decide⟩
      · exact ⟨2147483648, by decide⟩
      · exact ⟨9223372036854775808, by decide⟩
    obtain ⟨j, hj⟩ := heven
    simp only [Option.some.injEq, Prod.mk.injEq] at hh
    obtain ⟨h2, rfl⟩ := hh
    split at h2
    · rename_i hs
      subst h2
      exact ⟨_, .int hm h1 hs, rfl⟩
    · rename_i hs
      subst h2
      refine ⟨_, .neg hm (n := 256 ^ k - 1 - n) ?_ (by omega), rfl⟩
      rw [show 256 ^ k - 1 - (256 ^ k - 1 - n) = n by omega]
      exact h1
  · cases hh

theorem byte_eq {b : UInt8} {n : Nat} (h : b.toNat = n) : b = UInt8.ofNat n := by rw [← h]; simp

theorem ite_or {α : Type} {p : Prop} [Decidable p] {x y z : α} (h : (if p then x else y) = z) : (p ∧ x = z) ∨ (¬ p ∧ y = z) := by
  by_cases hp : p
  · rw [if_pos hp] at h; exact Or.inl ⟨hp, h⟩
  · rw [if_neg hp] at h; exact Or.inr ⟨hp, h⟩

theorem readHdr_sound {bs r : Bytes} {h : Hdr} (hh : readHdr bs = some (h, r)) : ∃ hb, WireHdr h hb ∧ bs = hb ++ r := by
  cases bs with
  | nil => simp [readHdr] at hh
  | cons b bs =>
    have hlt := b.toNat_lt
    have hb : b = UInt8.ofNat b.toNat := by simp
    unfold readHdr at hh
    dsimp only at hh
    rcases ite_or hh with ⟨ht, hh⟩ | ⟨hn, hh⟩
    · cases hh
      exact ⟨[b], .uint (Or.inl ⟨ht, by rw [Nat.zero_add]; exact congrArg (fun x => [x]) hb⟩), rfl⟩
    rcases ite_or hh with ⟨ht, hh⟩ | ⟨hn, hh⟩
    · cases hh
      exact ⟨[b], .map (Or.inl ⟨by omega, by rw [show 0x80 + (b.toNat - 0x80) = b.toNat by omega, ← hb]⟩), rfl⟩
    rcases ite_or hh with ⟨ht, hh⟩ | ⟨hn, hh⟩
    · cases hh
      exact ⟨[b], .arr (Or.inl ⟨by omega, by rw [show 0x90 + (b.toNat - 0x90) = b.toNat by omega, ← hb]⟩), rfl⟩
    rcases ite_or hh with ⟨ht, hh⟩ | ⟨hn, hh⟩
    · cases hh
      exact ⟨[b], .str (Or.inl ⟨by omega, by rw [show 0xa0 + (b.toNat - 0xa0) = b.toNat by omega, ← hb]⟩), rfl⟩
    rcases ite_or hh with ⟨ht, hh⟩ | ⟨hn, hh⟩
    · cases hh; rw [byte_eq ht]; exact ⟨_, .nil, rfl⟩
    rcases ite_or hh with ⟨ht, hh⟩ | ⟨hn, hh⟩
    · cases hh; rw [byte_eq ht]; exact ⟨_, .false, rfl⟩
    rcases ite_or hh with ⟨ht, hh⟩ | ⟨hn, hh⟩
    · cases hh; rw [byte_eq ht]; exact ⟨_, .true, rfl⟩
    rcases ite_or hh with ⟨ht, hh⟩ | ⟨hn, hh⟩
    · obtain ⟨n, l, h1, rfl, rfl⟩ := hdrBe_sound hh
      exact ⟨_, .bin (Or.inr ⟨b, 1, l, by rw [byte_eq ht]; simp, h1, rfl⟩), rfl⟩
    rcases ite_or hh with ⟨ht, hh⟩ | ⟨hn, hh⟩
    · obtain ⟨n, l, h1, rfl, rfl⟩ := hdrBe_sound hh
      exact ⟨_, .bin (Or.inr ⟨b, 2, l, by rw [byte_eq ht]; simp, h1, rfl⟩), rfl⟩
    rcases ite_or hh with ⟨ht, hh⟩ | ⟨hn, hh⟩
    · obtain ⟨n, l, h1, rfl, rfl⟩ := hdrBe_sound hh
      exact ⟨_, .bin (Or.inr ⟨b, 4, l, by rw [byte_eq ht]; simp, h1, rfl⟩), rfl⟩
    rcases ite_or hh with ⟨ht, hh⟩ | ⟨hn, hh⟩
    · obtain ⟨n, l, h1, rfl, rfl⟩ := hdrBe_sound hh
      exact ⟨_, .ext (Or.inr (Or.inr ⟨b, 1, l, by rw [byte_eq ht]; simp, h1, rfl⟩)), rfl⟩
    rcases ite_or hh with ⟨ht, hh⟩ | ⟨hn, hh⟩
    · obtain ⟨n, l, h1, rfl, rfl⟩ := hdrBe_sound hh
      exact ⟨_, .ext (Or.inr (Or.inr ⟨b, 2, l, by rw [byte_eq ht]; simp, h1, rfl⟩)), rfl⟩
    rcases ite_or hh with ⟨ht, hh⟩ | ⟨hn, hh⟩
    · obtain ⟨n, l, h1, rfl, rfl⟩ := hdrBe_sound hh
      exact ⟨_, .ext (Or.inr (Or.inr ⟨b, 4, l, by rw [byte_eq ht]; simp, h1, rfl⟩)), rfl⟩
    rcases ite_or hh with ⟨ht, hh⟩ | ⟨hn, hh⟩
    · cases hh; rw [byte_eq ht]; exact ⟨_, .float32, rfl⟩
    rcases ite_or hh with ⟨ht, hh⟩ | ⟨hn, hh⟩
    · cases hh; rw [byte_eq ht]; exact ⟨_, .float64, rfl⟩
    rcases ite_or hh with ⟨ht, hh⟩ | ⟨hn, hh⟩
    · obtain ⟨n, l, h1, rfl, rfl⟩ := hdrBe_sound hh
      exact ⟨_, .uint (Or.inr ⟨b, 1, l, by rw [byte_eq ht]; simp, h1, rfl⟩), rfl⟩
    rcases ite_or hh with ⟨ht, hh⟩ | ⟨hn, hh⟩
    · obtain ⟨n, l, h1, rfl, rfl⟩ := hdrBe_sound hh
      exact ⟨_, .uint (Or.inr ⟨b, 2, l, by rw [byte_eq ht]; simp, h1, rfl⟩), rfl⟩
    rcases ite_or hh with ⟨ht, hh⟩ | ⟨hn, hh⟩
    · obtain ⟨n, l, h1, rfl, rfl⟩ := hdrBe_sound hh
      exact ⟨_, .uint (Or.inr ⟨b, 4, l, by rw [byte_eq ht]; simp, h1, rfl⟩), rfl⟩
    rcases ite_or hh with ⟨ht, hh⟩ | ⟨hn, hh⟩
    · obtain ⟨n, l, h1, rfl, rfl⟩ := hdrBe_sound hh
      exact ⟨_, .uint (Or.inr ⟨b, 8, l, by rw [byte_eq ht]; simp, h1, rfl⟩), rfl⟩
    rcases ite_or hh with ⟨ht, hh⟩ | ⟨hn, hh⟩
    · exact hdrInt_sound (by rw [byte_eq ht]; simp [intWidths]) hh
    rcases ite_or hh with ⟨ht, hh⟩ | ⟨hn, hh⟩
    · exact hdrInt_sound (by rw [byte_eq ht]; simp [intWidths]) hh
    rcases ite_or hh with ⟨ht, hh⟩ | ⟨hn, hh⟩
    · exact hdrInt_sound (by rw [byte_eq ht]; simp [intWidths]) hh
    rcases ite_or hh with ⟨ht, hh⟩ | ⟨hn, hh⟩
    · exact hdrInt_sound (by rw [byte_eq ht]; simp [intWidths]) hh
    rcases ite_or hh with ⟨ht, hh⟩ | ⟨hn, hh⟩
    · cases hh; rw [byte_eq ht]; exact ⟨[0xd4], .ext (Or.inl ⟨0xd4, by simp, rfl⟩), rfl⟩
    rcases ite_or hh with ⟨ht, hh⟩ | ⟨hn, hh⟩
    · cases hh; rw [byte_eq ht]; exact ⟨[0xd5], .ext (Or.inl ⟨0xd5, by simp, rfl⟩), rfl⟩
    rcases ite_or hh with ⟨ht, hh⟩ | ⟨hn, hh⟩
    · cases hh; rw [byte_eq ht]; exact ⟨[0xd6], .ext (Or.inl ⟨0xd6, by simp, rfl⟩), rfl⟩
    rcases ite_or hh with ⟨ht, hh⟩ | ⟨hn, hh⟩
    · cases hh; rw [byte_eq ht]; exact ⟨[0xd7], .ext (Or.inl ⟨0xd7, by simp, rfl⟩), rfl⟩
    rcases ite_or hh with ⟨ht, hh⟩ | ⟨hn, hh⟩
    · cases hh; rw [byte_eq ht]; exact ⟨[0xd8], .ext (Or.inl ⟨0xd8, by simp, rfl⟩), rfl⟩
    rcases ite_or hh with ⟨ht, hh⟩ | ⟨hn, hh⟩
    · obtain ⟨n, l, h1, rfl, rfl⟩ := hdrBe_sound hh
      exact ⟨_, .str (Or.inr ⟨b, 1, l, by rw [byte_eq ht]; simp, h1, rfl⟩), rfl⟩
    rcases ite_or hh with ⟨ht, hh⟩ | ⟨hn, hh⟩
    · obtain ⟨n, l, h1, rfl, rfl⟩ := hdrBe_sound hh
      exact ⟨_, .str (Or.inr ⟨b, 2, l, by rw [byte_eq ht]; simp, h1, rfl⟩), rfl⟩
    rcases ite_or hh with ⟨ht, hh⟩ | ⟨hn, hh⟩
    · obtain ⟨n, l, h1, rfl, rfl⟩ := hdrBe_sound hh
      exact ⟨_, .str (Or.inr ⟨b, 4, l, by rw [byte_eq ht]; simp, h1, rfl⟩), rfl⟩
    rcases ite_or hh with ⟨ht, hh⟩ | ⟨hn, hh⟩
    · obtain ⟨n, l, h1, rfl, rfl⟩ := hdrBe_sound hh
      exact ⟨_, .arr (Or.inr ⟨b, 2, l, by rw [byte_eq ht]; simp, h1, rfl⟩), rfl⟩
    rcases ite_or hh with ⟨ht, hh⟩ | ⟨hn, hh⟩
    · obtain ⟨n, l, h1, rfl, rfl⟩ := hdrBe_sound hh
      exact ⟨_, .arr (Or.inr ⟨b, 4, l, by rw [byte_eq ht]; simp, h1, rfl⟩), rfl⟩
    rcases ite_or hh with ⟨ht, hh⟩ | ⟨hn, hh⟩
    · obtain ⟨n, l, h1, rfl, rfl⟩ := hdrBe_sound hh
      exact ⟨_, .map (Or.inr ⟨b, 2, l, by rw [byte_eq ht]; simp, h1, rfl⟩), rfl⟩
    rcases ite_or hh with ⟨ht, hh⟩ | ⟨hn, hh⟩
    · obtain ⟨n, l, h1, rfl, rfl⟩ := hdrBe_sound hh
      exact ⟨_, .map (Or.inr ⟨b, 4, l, by rw [byte_eq ht]; simp, h1, rfl⟩), rfl⟩
    rcases ite_or hh with ⟨ht, hh⟩ | ⟨hn, hh⟩
    · cases hh
      refine ⟨[b], ?_, rfl⟩
      have h1 := WireHdr.negFix (n := 0xff - b.toNat) (by omega)
      rwa [show 0xff - (0xff - b.toNat) = b.toNat by omega, ← hb] at h1
    · cases hh

theorem readHdr_complete {h : Hdr} {hb : Bytes} (hh : WireHdr h hb) (r : Bytes) : readHdr (hb ++ r) = some (h, r) := by
  cases hh with
  | nil => rfl
  | false => rfl
  | true => rfl
  | float32 => rfl
  | float64 => rfl
  | uint h =>
    rcases h with ⟨h1, rfl⟩ | ⟨m, k, l, hm, hl, rfl⟩
    · simp only [List.cons_append, List.nil_append, readHdr]
      rw [u8_toNat (by omega), if_pos (by omega), Nat.zero_add]
    · simp only [List.mem_cons, Prod.mk.injEq, List.not_mem_nil, or_false] at hm
      rcases hm with ⟨rfl, rfl⟩ | ⟨rfl, rfl⟩ | ⟨rfl, rfl⟩ | ⟨rfl, rfl⟩ <;> simp [readHdr, hdrBe_complete hl]
  | @int m k n l hm hl hs =>
    have hx : hdrInt k (l ++ r) = some (.uint n, r) := by rw [hdrInt, readBe_complete hl]; simp only [if_pos hs]
    simp only [intWidths, List.mem_cons, Prod.mk.injEq, List.not_mem_nil, or_false] at hm
    rcases hm with ⟨rfl, rfl⟩ | ⟨rfl, rfl⟩ | ⟨rfl, rfl⟩ | ⟨rfl, rfl⟩ <;> simp [readHdr, hx]
  | @neg m k n l hm hl hs =>
    have hx : hdrInt k (l ++ r) = some (.neg n, r) := by
      rw [hdrInt, readBe_complete hl]
      simp only
      rw [if_neg (by omega), show 256 ^ k - 1 - (256 ^ k - 1 - n) = n by omega]
    simp only [intWidths, List.mem_cons, Prod.mk.injEq, List.not_mem_nil, or_false] at hm
    rcases hm with ⟨rfl, rfl⟩ | ⟨rfl, rfl⟩ | ⟨rfl, rfl⟩ | ⟨rfl, rfl⟩ <;> simp [readHdr, hx]
  | @negFix n h =>
    have := readHdr_neg n (by omega) r
    rwa [encNeg, if_pos h] at this
  | @str n b h =>
    rcases h with ⟨h1, rfl⟩ | ⟨m, k, l, hm, hl, rfl⟩
    · have := readHdr_str n (by omega) r
      rwa [encStrHdr, if_pos h1] at this
    · simp only [List.mem_cons, Prod.mk.injEq, List.not_mem_nil, or_false] at hm
      rcases hm with ⟨rfl, rfl⟩ | ⟨rfl, rfl⟩ | ⟨rfl, rfl⟩ <;> simp [readHdr, hdrBe_complete hl]
  | bin h =>
    rcases h with ⟨h1, rfl⟩ | ⟨m, k, l, hm, hl, rfl⟩
    · omega
    · simp only [List.mem_cons, Prod.mk.injEq, List.not_mem_nil, or_false] at hm
      rcases hm with ⟨rfl, rfl⟩ | ⟨rfl, rfl⟩ | ⟨rfl, rfl⟩ <;> simp [readHdr, hdrBe_complete hl]
  | ext h =>
    rcases h with ⟨m, hm, rfl⟩ | ⟨h1, rfl⟩ | ⟨m, k, l, hm, hl, rfl⟩
    · simp only [List.mem_cons, Prod.mk.injEq, List.not_mem_nil, or_false] at hm
      rcases hm with ⟨rfl, rfl⟩ | ⟨rfl, rfl⟩ | ⟨rfl, rfl⟩ | ⟨rfl, rfl⟩ | ⟨rfl, rfl⟩ <;> simp [readHdr]
    · omega
    · simp only [List.mem_cons, Prod.mk.injEq, List.not_mem_nil, or_false] at hm
      rcases hm with ⟨rfl, rfl⟩ | ⟨rfl, rfl⟩ | ⟨rfl, rfl⟩ <;> simp [readHdr, hdrBe_complete hl]
  | @arr n b h =>
    rcases h with ⟨h1, rfl⟩ | ⟨m, k, l, hm, hl, rfl⟩
    · have := readHdr_arr n (by omega) r
      rwa [encArrHdr, if_pos h1] at this
    · simp only [List.mem_cons, Prod.mk.injEq, List.not_mem_nil, or_false] at hm
      rcases hm with ⟨rfl, rfl⟩ | ⟨rfl, rfl⟩ <;> simp [readHdr, hdrBe_complete hl]
  | @map n b h =>
    rcases h with ⟨h1, rfl⟩ | ⟨m, k, l, hm, hl, rfl⟩
    · have := readHdr_map n (by omega) r
      rwa [encMapHdr, if_pos h1] at this
    · simp only [List.mem_cons, Prod.mk.injEq, List.not_mem_nil, or_false] at hm
      rcases hm with ⟨rfl, rfl⟩ | ⟨rfl, rfl⟩ <;> simp [readHdr, hdrBe_complete hl]

theorem hdr_pos {h : Hdr} {hb : Bytes} (hh : WireHdr h hb) : 1 ≤ hb.length := by
  have := readHdr_complete hh []
  cases hb with
  | nil => simp [readHdr] at this
  | cons b l => simp

/-! ### Strings -/

theorem takeN_sound {n : Nat} {bs b r : Bytes} (h : takeN n bs = some (b, r)) : b.length = n ∧ bs = b ++ r := by
  unfold takeN at h
  split at h
  · cases h
  · rename_i hl
    cases h
    exact ⟨by simp; omega, (List.take_append_drop n bs).symm⟩

theorem utf8_ofUtf8 {b : Bytes} {s : String} (h : ofUtf8 b = some s) : b = utf8 s := by
  unfold ofUtf8 String.fromUTF8? at h
  split at h
  · cases h; simp [utf8, String.fromUTF8]
  · cases h

theorem strBody_sound {n : Nat} {bs r : Bytes} {s : String} (h : readStrBody n bs = some (s, r)) : (utf8 s).length = n ∧ bs = utf8 s ++ r := by
  unfold readStrBody at h
  split at h
  · rename_i b rest ht
    split at h
    · rename_i s' hs
      cases h
      obtain ⟨h1, h2⟩ := takeN_sound ht
      rw [utf8_ofUtf8 hs] at h1 h2
      exact ⟨h1, h2⟩
    · cases h
  · cases h

theorem key_sound {bs r : Bytes} {s : String} (h : readKey bs = some (s, r)) : ∃ b, StrWire s b ∧ bs = b ++ r := by
  unfold readKey at h
  split at h
  · rename_i n rest hh
    obtain ⟨hb, h1, rfl⟩ := readHdr_sound hh
    obtain ⟨h2, rfl⟩ := strBody_sound h
    cases h1 with
    | str h1 => exact ⟨hb ++ utf8 s, ⟨hb, h2 ▸ h1, rfl⟩, by simp⟩
  · cases h

theorem key_complete {s : String} {b : Bytes} (h : StrWire s b) (r : Bytes) : readKey (b ++ r) = some (s, r) := by
  obtain ⟨hb, h1, rfl⟩ := h
  rw [readKey, List.append_assoc, readHdr_complete (.str h1)]
  simp [readStrBody_utf8]

/-! ### Values -/

theorem dec_sound_all (fuel : Nat) :
    (∀ bs v r, dec fuel bs = some (v, r) → ∃ b, Wire v b ∧ bs = b ++ r) ∧
    (∀ n bs vs r, decVals fuel n bs = some (vs, r) → vs.length = n ∧ ∃ b, WireVals vs b ∧ bs = b ++ r) ∧
    ∀ n bs fs r, decFields fuel n bs = some (fs, r) → fs.length = n ∧ ∃ b, WireFields fs b ∧ bs = b ++ r := by
  induction fuel with
  | zero =>
    refine ⟨?_, ?_, ?_⟩
    · intro bs v r h; simp [dec] at h
    · intro n bs vs r h
      cases n with
      | zero => simp [decVals] at h; obtain ⟨rfl, rfl⟩ := h; exact ⟨rfl, [], .nil, rfl⟩
      | succ n => simp [decVals] at h
    · intro n bs vs r h
      cases n with
      | zero => simp [decFields] at h; obtain ⟨rfl, rfl⟩ := h; exact ⟨rfl, [], .nil, rfl⟩
      | succ n => simp [decFields] at h
  | succ fuel ih =>
    obtain ⟨ihv, ihs, ihf⟩ := ih
    refine ⟨?_, ?_, ?_⟩
    · intro bs v r h
      rw [dec] at h
      split at h
      · cases h
      · rename_i q hh; cases h
        obtain ⟨hb, h1, rfl⟩ := readHdr_sound hh
        cases h1; exact ⟨_, .nil, rfl⟩
      · rename_i b q hh; cases h
        obtain ⟨hb, h1, rfl⟩ := readHdr_sound hh
        cases h1 with
        | true => exact ⟨_, .true, rfl⟩
        | false => exact ⟨_, .false, rfl⟩
      · rename_i n q hh; cases h
        obtain ⟨hb, h1, rfl⟩ := readHdr_sound hh
        cases h1 with
        | uint h1 => exact ⟨_, .uint h1, rfl⟩
        | int h1 h2 h3 => exact ⟨_, .int h1 h2 h3, rfl⟩
      · rename_i n q hh; cases h
        obtain ⟨hb, h1, rfl⟩ := readHdr_sound hh
        cases h1 with
        | negFix h1 => exact ⟨_, .negFix h1, rfl⟩
        | neg h1 h2 h3 => exact ⟨_, .neg h1 h2 h3, rfl⟩
      · rename_i n q hh
        obtain ⟨hb, h1, rfl⟩ := readHdr_sound hh
        split at h
        · rename_i b q' ht
          cases h
          obtain ⟨h2, rfl⟩ := takeN_sound ht
          cases h1 with
          | float32 => exact ⟨_, .float32 h2, rfl⟩
          | float64 => exact ⟨_, .float64 h2, rfl⟩
        · cases h
      · rename_i n q hh
        obtain ⟨hb, h1, rfl⟩ := readHdr_sound hh
        split at h
        · rename_i s q' ht
          cases h
          obtain ⟨h2, rfl⟩ := strBody_sound ht
          cases h1 with
          | str h1 => exact ⟨hb ++ utf8 s, .str ⟨hb, h2 ▸ h1, rfl⟩, by simp⟩
        · cases h
      · rename_i n q hh
        obtain ⟨hb, h1, rfl⟩ := readHdr_sound hh
        split at h
        · rename_i b q' ht
          cases h
          obtain ⟨h2, rfl⟩ := takeN_sound ht
          cases h1 with
          | bin h1 => exact ⟨hb ++ b, .bin (h2 ▸ h1), by simp⟩
        · cases h
      · rename_i n q hh
        obtain ⟨hb, h1, rfl⟩ := readHdr_sound hh
        split at h
        · rename_i ty b q' ht
          cases h
          obtain ⟨h2, rfl⟩ := takeN_sound ht
          simp at h2
          cases h1 with
          | ext h1 => exact ⟨hb ++ ty :: b, .ext (h2 ▸ h1), by simp⟩
        · cases h
      · rename_i n q hh
        obtain ⟨hb, h1, rfl⟩ := readHdr_sound hh
        split at h
        · rename_i vs q' ht
          cases h
          obtain ⟨h2, b, h3, rfl⟩ := ihs _ _ _ _ ht
          cases h1 with
          | arr h1 => exact ⟨hb ++ b, .arr (h2 ▸ h1) h3, by simp⟩
        · cases h
      · rename_i n q hh
        obtain ⟨hb, h1, rfl⟩ := readHdr_sound hh
        split at h
        · rename_i vs q' ht
          cases h
          obtain ⟨h2, b, h3, rfl⟩ := ihf _ _ _ _ ht
          cases h1 with
          | map h1 => exact ⟨hb ++ b, .map (h2 ▸ h1) h3, by simp⟩
        · cases h
    · intro n bs vs r h
      cases n with
      | zero => simp [decVals] at h; obtain ⟨rfl, rfl⟩ := h; exact ⟨rfl, [], .nil, rfl⟩
      | succ n =>
        rw [decVals] at h
        split at h
        · rename_i v q hv
          split at h
          · rename_i vs' q' hs
            cases h
            obtain ⟨b, h1, rfl⟩ := ihv _ _ _ hv
            obtain ⟨h2, c, h3, rfl⟩ := ihs _ _ _ _ hs
            exact ⟨by simp [Vals.length, h2], b ++ c, .cons h1 h3, by simp⟩
          · cases h
        · cases h
    · intro n bs vs r h
      cases n with
      | zero => simp [decFields] at h; obtain ⟨rfl, rfl⟩ := h; exact ⟨rfl, [], .nil, rfl⟩
      | succ n =>
        rw [decFields] at h
        split at h
        · rename_i k q hk
          split at h
          · rename_i v q hv
            split at h
            · rename_i vs' q' hs
              cases h
              obtain ⟨a, h0, rfl⟩ := key_sound hk
              obtain ⟨b, h1, rfl⟩ := ihv _ _ _ hv
              obtain ⟨h2, c, h3, rfl⟩ := ihf _ _ _ _ hs
              exact ⟨by simp [Fields.length, h2], a ++ (b ++ c), .cons h0 h1 h3, by simp⟩
            · cases h
          · cases h
        · cases h

theorem wire_all {v : Val} {b : Bytes} (h : Wire v b) :
    v.size + 1 ≤ 2 * b.length ∧ ∀ fuel r, v.size ≤ fuel → dec fuel (b ++ r) = some (v, r) := by
  refine Wire.rec
    (motive_1 := fun v b _ => v.size + 1 ≤ 2 * b.length ∧ ∀ fuel r, v.size ≤ fuel → dec fuel (b ++ r) = some (v, r))
    (motive_2 := fun vs b _ => vs.size ≤ 2 * b.length ∧ ∀ fuel r, vs.size ≤ fuel → decVals fuel vs.length (b ++ r) = some (vs, r))
    (motive_3 := fun fs b _ => fs.size ≤ 2 * b.length ∧ ∀ fuel r, fs.size ≤ fuel → decFields fuel fs.length (b ++ r) = some (fs, r))
    ?_ ?_ ?_ ?_ ?_ ?_ ?_ ?_ ?_ ?_ ?_ ?_ ?_ ?_ ?_ ?_ ?_ ?_ h
  -- a value that is its header
  · refine ⟨by simp [Val.size], fun fuel r hf => ?_⟩
    obtain ⟨f, rfl⟩ : ∃ f, fuel = f + 1 := ⟨fuel - 1, by simp [Val.size] at hf; omega⟩
    rw [dec, readHdr_complete .nil]
  · refine ⟨by simp [Val.size], fun fuel r hf => ?_⟩
    obtain ⟨f, rfl⟩ : ∃ f, fuel = f + 1 := ⟨fuel - 1, by simp [Val.size] at hf; omega⟩
    rw [dec, readHdr_complete .false]
  · refine ⟨by simp [Val.size], fun fuel r hf => ?_⟩
    obtain ⟨f, rfl⟩ : ∃ f, fuel = f + 1 := ⟨fuel - 1, by simp [Val.size] at hf; omega⟩
    rw [dec, readHdr_complete .true]
  · intro n b h
    refine ⟨by have := hdr_pos (.uint h); simp [Val.size]; omega, fun fuel r hf => ?_⟩
    obtain ⟨f, rfl⟩ : ∃ f, fuel = f + 1 := ⟨fuel - 1, by simp [Val.size] at hf; omega⟩
    rw [dec, readHdr_complete (.uint h)]
  · intro m k n l hm h hs
    refine ⟨by simp [Val.size]; omega, fun fuel r hf => ?_⟩
    obtain ⟨f, rfl⟩ : ∃ f, fuel = f + 1 := ⟨fuel - 1, by simp [Val.size] at hf; omega⟩
    rw [dec, readHdr_complete (.int hm h hs)]
  · intro n h
    refine ⟨by simp [Val.size], fun fuel r hf => ?_⟩
    obtain ⟨f, rfl⟩ : ∃ f, fuel = f + 1 := ⟨fuel - 1, by simp [Val.size] at hf; omega⟩
    rw [dec, readHdr_complete (.negFix h)]
  · intro m k n l hm h hs
    refine ⟨by simp [Val.size]; omega, fun fuel r hf => ?_⟩
    obtain ⟨f, rfl⟩ : ∃ f, fuel = f + 1 := ⟨fuel - 1, by simp [Val.size] at hf; omega⟩
    rw [dec, readHdr_complete (.neg hm h hs)]
  · intro b h
    refine ⟨by simp [Val.size]; omega, fun fuel r hf => ?_⟩
    obtain ⟨f, rfl⟩ : ∃ f, fuel = f + 1 := ⟨fuel - 1, by simp [Val.size] at hf; omega⟩
    have := readHdr_complete .float32 (b ++ r)
    rw [dec, show (0xca :: b) ++ r = [0xca] ++ (b ++ r) from rfl, this]
    simp only
    rw [← h, takeN_append]
  · intro b h
    refine ⟨by simp [Val.size]; omega, fun fuel r hf => ?_⟩
    obtain ⟨f, rfl⟩ : ∃ f, fuel = f + 1 := ⟨fuel - 1, by simp [Val.size] at hf; omega⟩
    have := readHdr_complete .float64 (b ++ r)
    rw [dec, show (0xcb :: b) ++ r = [0xcb] ++ (b ++ r) from rfl, this]
    simp only
    rw [← h, takeN_append]
  · rintro s b ⟨hb, h1, rfl⟩
    refine ⟨by have := hdr_pos (.str h1); simp [Val.size]; omega, fun fuel r hf => ?_⟩
    obtain ⟨f, rfl⟩ : ∃ f, fuel = f + 1 := ⟨fuel - 1, by simp [Val.size] at hf; omega⟩
    rw [dec, List.append_assoc, readHdr_complete (.str h1)]
    simp only [readStrBody_utf8]
  · intro d hb hh
    refine ⟨by have := hdr_pos (.bin hh); simp [Val.size]; omega, fun fuel r hf => ?_⟩
    obtain ⟨f, rfl⟩ : ∃ f, fuel = f + 1 := ⟨fuel - 1, by simp [Val.size] at hf; omega⟩
    rw [dec, List.append_assoc, readHdr_complete (.bin hh)]
    simp only [takeN_append]
  · intro ty d hb hh
    refine ⟨by have := hdr_pos (.ext hh); simp [Val.size]; omega, fun fuel r hf => ?_⟩
    obtain ⟨f, rfl⟩ : ∃ f, fuel = f + 1 := ⟨fuel - 1, by simp [Val.size] at hf; omega⟩
    have ht : takeN (d.length + 1) (ty :: (d ++ r)) = some (ty :: d, r) := takeN_append (ty :: d) r
    rw [dec, List.append_assoc, readHdr_complete (.ext hh)]
    simp only [List.cons_append, ht]
  · rintro vs hb b hh hv ⟨i1, i2⟩
    refine ⟨by have := hdr_pos (.arr hh); simp [Val.size]; omega, fun fuel r hf => ?_⟩
    obtain ⟨f, rfl⟩ : ∃ f, fuel = f + 1 := ⟨fuel - 1, by simp [Val.size] at hf; omega⟩
    rw [dec, List.append_assoc, readHdr_complete (.arr hh)]
    simp only
    rw [i2 f r (by simp [Val.size] at hf; omega)]
  · rintro vs hb b hh hv ⟨i1, i2⟩
    refine ⟨by have := hdr_pos (.map hh); simp [Val.size]; omega, fun fuel r hf => ?_⟩
    obtain ⟨f, rfl⟩ : ∃ f, fuel = f + 1 := ⟨fuel - 1, by simp [Val.size] at hf; omega⟩
    rw [dec, List.append_assoc, readHdr_complete (.map hh)]
    simp only
    rw [i2 f r (by simp [Val.size] at hf; omega)]
  · exact ⟨by simp [Vals.size], fun fuel r _ => by simp [decVals, Vals.length]⟩
  · rintro v vs b c - - ⟨i1, i2⟩ ⟨i3, i4⟩
    refine ⟨by simp [Vals.size]; omega, fun fuel r hf => ?_⟩
    simp only [Vals.size] at hf
    obtain ⟨f, rfl⟩ : ∃ f, fuel = f + 1 := ⟨fuel - 1, by omega⟩
    rw [Vals.length, decVals, List.append_assoc, i2 f _ (by omega)]
    simp only
    rw [i4 f r (by omega)]
  · exact ⟨by simp [Fields.size], fun fuel r _ => by simp [decFields, Fields.length]⟩
  · rintro k v fs a b c hk - - ⟨i1, i2⟩ ⟨i3, i4⟩
    refine ⟨by simp [Fields.size]; omega, fun fuel r hf => ?_⟩
    simp only [Fields.size] at hf
    obtain ⟨f, rfl⟩ : ∃ f, fuel = f + 1 := ⟨fuel - 1, by omega⟩
    rw [Fields.length, decFields, List.append_assoc, key_complete hk]
    simp only
    rw [List.append_assoc, i2 f _ (by omega)]
    simp only
    rw [i4 f r (by omega)]

/-- The decoder reads exactly the values of the format, and looks at nothing after the first. -/
theorem decode_iff (bs : Bytes) (v : Val) : decode bs = some v ↔ ∃ b r, Wire v b ∧ bs = b ++ r := by
  constructor
  · intro h
    obtain ⟨⟨v', r⟩, h1, h2⟩ := Option.map_eq_some_iff.mp h
    cases h2
    obtain ⟨b, h3, h4⟩ := (dec_sound_all _).1 _ _ _ h1
    exact ⟨b, r, h3, h4⟩
  · rintro ⟨b, r, h1, rfl⟩
    obtain ⟨h2, h3⟩ := wire_all h1
    rw [decode, h3 _ r (by simp only [List.length_append]; omega)]
    rfl

end Lair.Mp
