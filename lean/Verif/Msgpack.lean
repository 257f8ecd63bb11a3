import Verif.Basic

/-
MessagePack as produced by `rmp_serde` (struct-map mode, lair_store.rs:195-208, lair_api.rs:23-50;
hc_seed_bundle/src/seed_cipher/seed_bundle.rs:178-216): every format of msgpack.org. The encoder picks the shortest form, the decoder accepts
every form. Simplifications: in maps only text keys decode (serde also takes byte strings and field numbers as the name of a field), text that
is not UTF-8 does not decode, and there is no limit to the nesting (rmp_serde: 1024).
-/
namespace Lair.Mp

mutual
/-- A MessagePack value. rmp / rmp_serde, as used at lair_store.rs:195-209 and inner.rs:55-59, 125. -/
inductive Val where
  | nil
  | bool (b : Bool)
  | uint (n : Nat)
  /-- the number `-1 - n` -/
  | neg (n : Nat)
  /-- the bits of an `f32` or `f64` -/
  | float (b : Bytes)
  | str (s : String)
  | bin (b : Bytes)
  | ext (ty : UInt8) (b : Bytes)
  | arr (vs : Vals)
  | map (fs : Fields)

/-- Elements of an array. rmp / rmp_serde, as used at lair_store.rs:195-209 and inner.rs:55-59, 125. -/
inductive Vals where
  | nil
  | cons (v : Val) (vs : Vals)

/-- Fields of a map. rmp / rmp_serde, as used at lair_store.rs:195-209 and inner.rs:55-59, 125. -/
inductive Fields where
  | nil
  | cons (k : String) (v : Val) (fs : Fields)
end

/-- Number of elements. rmp / rmp_serde, as used at lair_store.rs:195-209 and inner.rs:55-59, 125. -/
def Vals.length : Vals → Nat
  | .nil => 0
  | .cons _ vs => vs.length + 1

/-- Number of fields. rmp / rmp_serde, as used at lair_store.rs:195-209 and inner.rs:55-59, 125. -/
def Fields.length : Fields → Nat
  | .nil => 0
  | .cons _ _ fs => fs.length + 1

/-- UTF-8 bytes of a string (`str::as_bytes`).
    rmp / rmp_serde, as used at lair_store.rs:195-209 and inner.rs:55-59, 125. -/
def utf8 (s : String) : Bytes := s.toByteArray.data.toList

/-- `str::from_utf8`. rmp / rmp_serde, as used at lair_store.rs:195-209 and inner.rs:55-59, 125. -/
def ofUtf8 (b : Bytes) : Option String := String.fromUTF8? ⟨b.toArray⟩

@[simp] theorem ofUtf8_utf8 (s : String) : ofUtf8 (utf8 s) = some s := by
  have h : (⟨(utf8 s).toArray⟩ : ByteArray) = s.toByteArray := by simp [utf8]
  rw [ofUtf8, h, String.fromUTF8?, dif_pos s.isValidUTF8]
  rfl

/-- Big-endian `k` byte representation (`rmp` `write_data_u16/u32/u64`).
    rmp / rmp_serde, as used at lair_store.rs:195-209 and inner.rs:55-59, 125. -/
def be : Nat → Nat → Bytes
  | 0, _ => []
  | k + 1, n => UInt8.ofNat (n / 256 ^ k) :: be k (n % 256 ^ k)

/-- Read a `k` byte big-endian number. rmp / rmp_serde, as used at lair_store.rs:195-209 and inner.rs:55-59, 125. -/
def readBe : Nat → Bytes → Option (Nat × Bytes)
  | 0, bs => some (0, bs)
  | _ + 1, [] => none
  | k + 1, b :: bs =>
    match readBe k bs with
    | some (m, rest) => some (b.toNat * 256 ^ k + m, rest)
    | none => none

/-- `read_exact(n)` from a slice. rmp / rmp_serde, as used at lair_store.rs:195-209 and inner.rs:55-59, 125. -/
def takeN (n : Nat) (bs : Bytes) : Option (Bytes × Bytes) :=
  if bs.length < n then none else some (bs.take n, bs.drop n)

theorem readBe_be (k n : Nat) (rest : Bytes) (h : n < 256 ^ k) : readBe k (be k n ++ rest) = some (n, rest) := by
  induction k generalizing n with
  | zero => simp at h; subst h; rfl
  | succ k ih =>
    have hpos : 0 < 256 ^ k := Nat.pow_pos (by decide)
    have h1 : n / 256 ^ k < 256 := by
      rw [Nat.div_lt_iff_lt_mul hpos]; rw [Nat.pow_succ] at h; omega
    simp only [be, List.cons_append, readBe, ih (n % 256 ^ k) (Nat.mod_lt _ hpos)]
    simp only [UInt8.toNat_ofNat', Option.some.injEq, Prod.mk.injEq, and_true]
    rw [show n / 256 ^ k % 2 ^ 8 = n / 256 ^ k from Nat.mod_eq_of_lt (by omega), Nat.mul_comm]
    exact Nat.div_add_mod n (256 ^ k)

theorem be_length (k n : Nat) : (be k n).length = k := by
  induction k generalizing n with
  | zero => rfl
  | succ k ih => simp [be, ih]

theorem takeN_append (b rest : Bytes) : takeN b.length (b ++ rest) = some (b, rest) := by
  simp [takeN]

/-- Unsigned integer, shortest form (`rmp::encode::write_uint`).
    rmp / rmp_serde, as used at lair_store.rs:195-209 and inner.rs:55-59, 125. -/
def encUint (n : Nat) : Bytes :=
  if n < 0x80 then [UInt8.ofNat n]
  else if n < 0x100 then 0xcc :: be 1 n
  else if n < 0x10000 then 0xcd :: be 2 n
  else if n < 0x100000000 then 0xce :: be 4 n
  else 0xcf :: be 8 n

/-- Negative integer `-1 - n`, shortest form (`rmp::encode::write_sint`).
    rmp / rmp_serde, as used at lair_store.rs:195-209 and inner.rs:55-59, 125. -/
def encNeg (n : Nat) : Bytes :=
  if n < 0x20 then [UInt8.ofNat (0xff - n)]
  else if n < 0x80 then 0xd0 :: be 1 (0x100 - 1 - n)
  else if n < 0x8000 then 0xd1 :: be 2 (0x10000 - 1 - n)
  else if n < 0x80000000 then 0xd2 :: be 4 (0x100000000 - 1 - n)
  else 0xd3 :: be 8 (2 ^ 64 - 1 - n)

/-- `write_f32`, `write_f64`. rmp / rmp_serde, as used at lair_store.rs:195-209 and inner.rs:55-59, 125. -/
def encFloat (b : Bytes) : Bytes := (if b.length = 4 then 0xca else 0xcb) :: b

/-- `write_str_len`. rmp / rmp_serde, as used at lair_store.rs:195-209 and inner.rs:55-59, 125. -/
def encStrHdr (n : Nat) : Bytes :=
  if n < 32 then [UInt8.ofNat (0xa0 + n)]
  else if n < 0x100 then 0xd9 :: be 1 n
  else if n < 0x10000 then 0xda :: be 2 n
  else 0xdb :: be 4 n

/-- `write_bin_len`. rmp / rmp_serde, as used at lair_store.rs:195-209 and inner.rs:55-59, 125. -/
def encBinHdr (n : Nat) : Bytes :=
  if n < 0x100 then 0xc4 :: be 1 n
  else if n < 0x10000 then 0xc5 :: be 2 n
  else 0xc6 :: be 4 n

/-- `write_ext_meta` without the type byte.
    rmp / rmp_serde, as used at lair_store.rs:195-209 and inner.rs:55-59, 125. -/
def encExtHdr (n : Nat) : Bytes :=
  if n = 1 then [0xd4]
  else if n = 2 then [0xd5]
  else if n = 4 then [0xd6]
  else if n = 8 then [0xd7]
  else if n = 16 then [0xd8]
  else if n < 0x100 then 0xc7 :: be 1 n
  else if n < 0x10000 then 0xc8 :: be 2 n
  else 0xc9 :: be 4 n

/-- `write_array_len`. rmp / rmp_serde, as used at lair_store.rs:195-209 and inner.rs:55-59, 125. -/
def encArrHdr (n : Nat) : Bytes :=
  if n < 16 then [UInt8.ofNat (0x90 + n)]
  else if n < 0x10000 then 0xdc :: be 2 n
  else 0xdd :: be 4 n

/-- `write_map_len`. rmp / rmp_serde, as used at lair_store.rs:195-209 and inner.rs:55-59, 125. -/
def encMapHdr (n : Nat) : Bytes :=
  if n < 16 then [UInt8.ofNat (0x80 + n)]
  else if n < 0x10000 then 0xde :: be 2 n
  else 0xdf :: be 4 n

/-- A text: header, then its UTF-8. rmp / rmp_serde, as used at lair_store.rs:195-209 and inner.rs:55-59, 125. -/
def encStr (s : String) : Bytes := encStrHdr (utf8 s).length ++ utf8 s

mutual
/-- Serialise a value. rmp / rmp_serde, as used at lair_store.rs:195-209 and inner.rs:55-59, 125. -/
def enc : Val → Bytes
  | .nil => [0xc0]
  | .bool b => [if b then 0xc3 else 0xc2]
  | .uint n => encUint n
  | .neg n => encNeg n
  | .float b => encFloat b
  | .str s => encStr s
  | .bin b => encBinHdr b.length ++ b
  | .ext ty b => encExtHdr b.length ++ ty :: b
  | .arr vs => encArrHdr vs.length ++ encVals vs
  | .map fs => encMapHdr fs.length ++ encFields fs

/-- The elements one after the other. rmp / rmp_serde, as used at lair_store.rs:195-209 and inner.rs:55-59, 125. -/
def encVals : Vals → Bytes
  | .nil => []
  | .cons v vs => enc v ++ encVals vs

/-- Key, value, key, value …. rmp / rmp_serde, as used at lair_store.rs:195-209 and inner.rs:55-59, 125. -/
def encFields : Fields → Bytes
  | .nil => []
  | .cons k v fs => encStr k ++ (enc v ++ encFields fs)
end

/-- What the first byte of a value announces.
    rmp / rmp_serde, as used at lair_store.rs:195-209 and inner.rs:55-59, 125. -/
inductive Hdr where
  | nil
  | bool (b : Bool)
  | uint (n : Nat)
  | neg (n : Nat)
  | float (n : Nat)
  | str (n : Nat)
  | bin (n : Nat)
  | ext (n : Nat)
  | arr (n : Nat)
  | map (n : Nat)

/-- Continue with a length / number of `k` bytes.
    rmp / rmp_serde, as used at lair_store.rs:195-209 and inner.rs:55-59, 125. -/
def hdrBe (f : Nat → Hdr) (k : Nat) (bs : Bytes) : Option (Hdr × Bytes) :=
  match readBe k bs with
  | some (n, rest) => some (f n, rest)
  | none => none

/-- Continue with a signed number of `k` bytes (two's complement).
    rmp / rmp_serde, as used at lair_store.rs:195-209 and inner.rs:55-59, 125. -/
def hdrInt (k : Nat) (bs : Bytes) : Option (Hdr × Bytes) :=
  match readBe k bs with
  | some (n, rest) => some (if 2 * n < 256 ^ k then .uint n else .neg (256 ^ k - 1 - n), rest)
  | none => none

/-- Read the marker byte and its length (`rmp::decode::read_marker` and friends).
    rmp / rmp_serde, as used at lair_store.rs:195-209 and inner.rs:55-59, 125. -/
def readHdr : Bytes → Option (Hdr × Bytes)
  | [] => none
  | b :: bs =>
    let t := b.toNat
    if t < 0x80 then some (.uint t, bs)
    else if t < 0x90 then some (.map (t - 0x80), bs)
    else if t < 0xa0 then some (.arr (t - 0x90), bs)
    else if t < 0xc0 then some (.str (t - 0xa0), bs)
    else if t = 0xc0 then some (.nil, bs)
    else if t = 0xc2 then some (.bool false, bs)
    else if t = 0xc3 then some (.bool true, bs)
    else if t = 0xc4 then hdrBe .bin 1 bs
    else if t = 0xc5 then hdrBe .bin 2 bs
    else if t = 0xc6 then hdrBe .bin 4 bs
    else if t = 0xc7 then hdrBe .ext 1 bs
    else if t = 0xc8 then hdrBe .ext 2 bs
    else if t = 0xc9 then hdrBe .ext 4 bs
    else if t = 0xca then some (.float 4, bs)
    else if t = 0xcb then some (.float 8, bs)
    else if t = 0xcc then hdrBe .uint 1 bs
    else if t = 0xcd then hdrBe .uint 2 bs
    else if t = 0xce then hdrBe .uint 4 bs
    else if t = 0xcf then hdrBe .uint 8 bs
    else if t = 0xd0 then hdrInt 1 bs
    else if t = 0xd1 then hdrInt 2 bs
    else if t = 0xd2 then hdrInt 4 bs
    else if t = 0xd3 then hdrInt 8 bs
    else if t = 0xd4 then some (.ext 1, bs)
    else if t = 0xd5 then some (.ext 2, bs)
    else if t = 0xd6 then some (.ext 4, bs)
    else if t = 0xd7 then some (.ext 8, bs)
    else if t = 0xd8 then some (.ext 16, bs)
    else if t = 0xd9 then hdrBe .str 1 bs
    else if t = 0xda then hdrBe .str 2 bs
    else if t = 0xdb then hdrBe .str 4 bs
    else if t = 0xdc then hdrBe .arr 2 bs
    else if t = 0xdd then hdrBe .arr 4 bs
    else if t = 0xde then hdrBe .map 2 bs
    else if t = 0xdf then hdrBe .map 4 bs
    else if 0xe0 ≤ t then some (.neg (0xff - t), bs)
    else none

/-- Read a string body of `n` bytes. rmp / rmp_serde, as used at lair_store.rs:195-209 and inner.rs:55-59, 125. -/
def readStrBody (n : Nat) (bs : Bytes) : Option (String × Bytes) :=
  match takeN n bs with
  | some (b, rest) =>
    match ofUtf8 b with
    | some s => some (s, rest)
    | none => none
  | none => none

/-- Read a map key. rmp / rmp_serde, as used at lair_store.rs:195-209 and inner.rs:55-59, 125. -/
def readKey (bs : Bytes) : Option (String × Bytes) :=
  match readHdr bs with
  | some (.str n, rest) => readStrBody n rest
  | _ => none

mutual
/-- Deserialise a value; `fuel` bounds the nesting (the byte length suffices).
    rmp / rmp_serde, as used at lair_store.rs:195-209 and inner.rs:55-59, 125. -/
def dec : Nat → Bytes → Option (Val × Bytes)
  | 0, _ => none
  | fuel + 1, bs =>
    match readHdr bs with
    | none => none
    | some (.nil, r) => some (.nil, r)
    | some (.bool b, r) => some (.bool b, r)
    | some (.uint n, r) => some (.uint n, r)
    | some (.neg n, r) => some (.neg n, r)
    | some (.float n, r) =>
      match takeN n r with
      | some (b, r) => some (.float b, r)
      | none => none
    | some (.str n, r) =>
      match readStrBody n r with
      | some (s, r) => some (.str s, r)
      | none => none
    | some (.bin n, r) =>
      match takeN n r with
      | some (b, r) => some (.bin b, r)
      | none => none
    | some (.ext n, r) =>
      match takeN (n + 1) r with
      | some (ty :: b, r) => some (.ext ty b, r)
      | _ => none
    | some (.arr n, r) =>
      match decVals fuel n r with
      | some (vs, r) => some (.arr vs, r)
      | none => none
    | some (.map n, r) =>
      match decFields fuel n r with
      | some (fs, r) => some (.map fs, r)
      | none => none

/-- `n` elements; the first number is fuel.
    rmp / rmp_serde, as used at lair_store.rs:195-209 and inner.rs:55-59, 125. -/
def decVals : Nat → Nat → Bytes → Option (Vals × Bytes)
  | _, 0, bs => some (.nil, bs)
  | 0, _ + 1, _ => none
  | fuel + 1, n + 1, bs =>
    match dec fuel bs with
    | some (v, r) =>
      match decVals fuel n r with
      | some (vs, r) => some (.cons v vs, r)
      | none => none
    | none => none

/-- `n` fields; the first number is fuel.
    rmp / rmp_serde, as used at lair_store.rs:195-209 and inner.rs:55-59, 125. -/
def decFields : Nat → Nat → Bytes → Option (Fields × Bytes)
  | _, 0, bs => some (.nil, bs)
  | 0, _ + 1, _ => none
  | fuel + 1, n + 1, bs =>
    match readKey bs with
    | some (k, r) =>
      match dec fuel r with
      | some (v, r) =>
        match decFields fuel n r with
        | some (fs, r) => some (.cons k v fs, r)
        | none => none
      | none => none
    | none => none
end

/-- `rmp_serde::from_read` on a whole buffer: trailing bytes are not looked at.
    rmp / rmp_serde, as used at lair_store.rs:195-209 and inner.rs:55-59, 125. -/
def decode (bs : Bytes) : Option Val := (dec (2 * bs.length + 2) bs).map Prod.fst

mutual
/-- The sizes MessagePack can express (a longer string or array cannot be written).
    Specification: nothing in the code corresponds. -/
def Val.Fits : Val → Prop
  | .nil => True
  | .bool _ => True
  | .uint n => n < 2 ^ 64
  | .neg n => n < 2 ^ 63
  | .float b => b.length = 4 ∨ b.length = 8
  | .str s => (utf8 s).length < 2 ^ 32
  | .bin b => b.length < 2 ^ 32
  | .ext _ b => b.length < 2 ^ 32
  | .arr vs => vs.length < 2 ^ 32 ∧ vs.Fits
  | .map fs => fs.length < 2 ^ 32 ∧ fs.Fits

/-- All elements have an encoding. Specification: nothing in the code corresponds. -/
def Vals.Fits : Vals → Prop
  | .nil => True
  | .cons v vs => v.Fits ∧ vs.Fits

/-- All fields have an encoding. Specification: nothing in the code corresponds. -/
def Fields.Fits : Fields → Prop
  | .nil => True
  | .cons k v fs => (utf8 k).length < 2 ^ 32 ∧ v.Fits ∧ fs.Fits
end

/-! ### Round trip -/

theorem u8_toNat {n : Nat} (h : n < 256) : (UInt8.ofNat n).toNat = n := by
  rw [UInt8.toNat_ofNat']; omega

theorem readHdr_uint (n : Nat) (h : n < 2 ^ 64) (r : Bytes) : readHdr (encUint n ++ r) = some (.uint n, r) := by
  unfold encUint
  split
  · rename_i h1; simp [readHdr, u8_toNat (show n < 256 by omega), h1]
  · split
    · simp [readHdr, hdrBe, readBe_be 1 n r (by omega)]
    · split
      · simp [readHdr, hdrBe, readBe_be 2 n r (by omega)]
      · split
        · simp [readHdr, hdrBe, readBe_be 4 n r (by omega)]
        · simp [readHdr, hdrBe, readBe_be 8 n r (by omega)]

theorem readHdr_neg (n : Nat) (h : n < 2 ^ 63) (r : Bytes) : readHdr (encNeg n ++ r) = some (.neg n, r) := by
  unfold encNeg
  split
  · rename_i h1
    simp only [List.cons_append, List.nil_append, readHdr, u8_toNat (show 0xff - n < 256 by omega)]
    repeat rw [if_neg (by omega)]
    rw [if_pos (by omega), show 255 - (255 - n) = n by omega]
  · split
    · have h2 : hdrInt 1 (be 1 (0x100 - 1 - n) ++ r) = some (.neg n, r) := by
        simp only [hdrInt, readBe_be 1 (0x100 - 1 - n) r (by omega)]
        rw [if_neg (by omega), show 256 ^ 1 - 1 - (0x100 - 1 - n) = n by omega]
      simpa [readHdr] using h2
    · split
      · have h2 : hdrInt 2 (be 2 (0x10000 - 1 - n) ++ r) = some (.neg n, r) := by
          simp only [hdrInt, readBe_be 2 (0x10000 - 1 - n) r (by omega)]
          rw [if_neg (by omega), show 256 ^ 2 - 1 - (0x10000 - 1 - n) = n by omega]
        simpa [readHdr] using h2
      · split
        · have h2 : hdrInt 4 (be 4 (0x100000000 - 1 - n) ++ r) = some (.neg n, r) := by
            simp only [hdrInt, readBe_be 4 (0x100000000 - 1 - n) r (by omega)]
            rw [if_neg (by omega), show 256 ^ 4 - 1 - (0x100000000 - 1 - n) = n by omega]
          simpa [readHdr] using h2
        · have h2 : hdrInt 8 (be 8 (2 ^ 64 - 1 - n) ++ r) = some (.neg n, r) := by
            simp only [hdrInt, readBe_be 8 (2 ^ 64 - 1 - n) r (by omega)]
            rw [if_neg (by omega), show 256 ^ 8 - 1 - (2 ^ 64 - 1 - n) = n by omega]
          simpa [readHdr] using h2

theorem readHdr_str (n : Nat) (h : n < 2 ^ 32) (r : Bytes) : readHdr (encStrHdr n ++ r) = some (.str n, r) := by
  unfold encStrHdr
  split
  · rename_i h1
    simp only [List.cons_append, List.nil_append, readHdr, u8_toNat (show 0xa0 + n < 256 by omega)]
    rw [if_neg (by omega), if_neg (by omega), if_neg (by omega), if_pos (by omega), Nat.add_sub_cancel_left]
  · split
    · simp [readHdr, hdrBe, readBe_be 1 n r (by omega)]
    · split
      · simp [readHdr, hdrBe, readBe_be 2 n r (by omega)]
      · simp [readHdr, hdrBe, readBe_be 4 n r (by omega)]

theorem readHdr_bin (n : Nat) (h : n < 2 ^ 32) (r : Bytes) : readHdr (encBinHdr n ++ r) = some (.bin n, r) := by
  unfold encBinHdr
  split
  · simp [readHdr, hdrBe, readBe_be 1 n r (by omega)]
  · split
    · simp [readHdr, hdrBe, readBe_be 2 n r (by omega)]
    · simp [readHdr, hdrBe, readBe_be 4 n r (by omega)]

theorem readHdr_ext (n : Nat) (h : n < 2 ^ 32) (r : Bytes) : readHdr (encExtHdr n ++ r) = some (.ext n, r) := by
  unfold encExtHdr
  split; (subst n; simp [readHdr])
  split; (subst n; simp [readHdr])
  split; (subst n; simp [readHdr])
  split; (subst n; simp [readHdr])
  split; (subst n; simp [readHdr])
  split
  · simp [readHdr, hdrBe, readBe_be 1 n r (by omega)]
  · split
    · simp [readHdr, hdrBe, readBe_be 2 n r (by omega)]
    · simp [readHdr, hdrBe, readBe_be 4 n r (by omega)]

theorem readHdr_arr (n : Nat) (h : n < 2 ^ 32) (r : Bytes) : readHdr (encArrHdr n ++ r) = some (.arr n, r) := by
  unfold encArrHdr
  split
  · rename_i h1
    simp only [List.cons_append, List.nil_append, readHdr, u8_toNat (show 0x90 + n < 256 by omega)]
    rw [if_neg (by omega), if_neg (by omega), if_pos (by omega), Nat.add_sub_cancel_left]
  · split
    · simp [readHdr, hdrBe, readBe_be 2 n r (by omega)]
    · simp [readHdr, hdrBe, readBe_be 4 n r (by omega)]

theorem readHdr_map (n : Nat) (h : n < 2 ^ 32) (r : Bytes) : readHdr (encMapHdr n ++ r) = some (.map n, r) := by
  unfold encMapHdr
  split
  · rename_i h1
    simp only [List.cons_append, List.nil_append, readHdr, u8_toNat (show 0x80 + n < 256 by omega)]
    rw [if_neg (by omega), if_pos (by omega), Nat.add_sub_cancel_left]
  · split
    · simp [readHdr, hdrBe, readBe_be 2 n r (by omega)]
    · simp [readHdr, hdrBe, readBe_be 4 n r (by omega)]

theorem readStrBody_utf8 (s : String) (r : Bytes) : readStrBody (utf8 s).length (utf8 s ++ r) = some (s, r) := by
  simp [readStrBody, takeN_append]

theorem readKey_enc (k : String) (h : (utf8 k).length < 2 ^ 32) (r : Bytes) : readKey (encStr k ++ r) = some (k, r) := by
  simp [readKey, encStr, readHdr_str _ h, readStrBody_utf8]

mutual
/-- Nodes of a value: enough fuel. Proof device: nothing in the code corresponds. -/
def Val.size : Val → Nat
  | .nil => 1
  | .bool _ => 1
  | .uint _ => 1
  | .neg _ => 1
  | .float _ => 1
  | .str _ => 1
  | .bin _ => 1
  | .ext _ _ => 1
  | .arr vs => vs.size + 1
  | .map fs => fs.size + 1

/-- Structural size, a measure for fuel. Proof device: nothing in the code corresponds. -/
def Vals.size : Vals → Nat
  | .nil => 0
  | .cons v vs => v.size + vs.size + 1

/-- Structural size, a measure for fuel. Proof device: nothing in the code corresponds. -/
def Fields.size : Fields → Nat
  | .nil => 0
  | .cons _ v fs => v.size + fs.size + 1
end

mutual
theorem dec_enc : (v : Val) → v.Fits → ∀ fuel r, v.size ≤ fuel → dec fuel (enc v ++ r) = some (v, r)
  | .nil, _, fuel, r, hf => by
    obtain ⟨f, rfl⟩ : ∃ f, fuel = f + 1 := ⟨fuel - 1, by simp [Val.size] at hf; omega⟩
    simp [dec, enc, readHdr]
  | .bool b, _, fuel, r, hf => by
    obtain ⟨f, rfl⟩ : ∃ f, fuel = f + 1 := ⟨fuel - 1, by simp [Val.size] at hf; omega⟩
    cases b <;> simp [dec, enc, readHdr]
  | .uint n, h, fuel, r, hf => by
    obtain ⟨f, rfl⟩ : ∃ f, fuel = f + 1 := ⟨fuel - 1, by simp [Val.size] at hf; omega⟩
    simp only [dec, enc, readHdr_uint n (by simpa [Val.Fits] using h)]
  | .neg n, h, fuel, r, hf => by
    obtain ⟨f, rfl⟩ : ∃ f, fuel = f + 1 := ⟨fuel - 1, by simp [Val.size] at hf; omega⟩
    simp only [dec, enc, readHdr_neg n (by simpa [Val.Fits] using h)]
  | .float b, h, fuel, r, hf => by
    obtain ⟨f, rfl⟩ : ∃ f, fuel = f + 1 := ⟨fuel - 1, by simp [Val.size] at hf; omega⟩
    simp only [Val.Fits] at h
    have ht := takeN_append b r
    rcases h with h | h <;> rw [h] at ht <;> simp [dec, enc, encFloat, h, readHdr, ht]
  | .str s, h, fuel, r, hf => by
    obtain ⟨f, rfl⟩ : ∃ f, fuel = f + 1 := ⟨fuel - 1, by simp [Val.size] at hf; omega⟩
    simp only [dec, enc, encStr, List.append_assoc, readHdr_str _ (by simpa [Val.Fits] using h), readStrBody_utf8]
  | .bin b, h, fuel, r, hf => by
    obtain ⟨f, rfl⟩ : ∃ f, fuel = f + 1 := ⟨fuel - 1, by simp [Val.size] at hf; omega⟩
    simp only [dec, enc, List.append_assoc, readHdr_bin _ (by simpa [Val.Fits] using h), takeN_append]
  | .ext ty b, h, fuel, r, hf => by
    obtain ⟨f, rfl⟩ : ∃ f, fuel = f + 1 := ⟨fuel - 1, by simp [Val.size] at hf; omega⟩
    have ht : takeN (b.length + 1) (ty :: (b ++ r)) = some (ty :: b, r) := takeN_append (ty :: b) r
    simp only [dec, enc, List.append_assoc, List.cons_append, readHdr_ext _ (by simpa [Val.Fits] using h), ht]
  | .arr vs, h, fuel, r, hf => by
    obtain ⟨f, rfl⟩ : ∃ f, fuel = f + 1 := ⟨fuel - 1, by simp [Val.size] at hf; omega⟩
    simp only [Val.Fits] at h
    simp only [Val.size] at hf
    simp only [dec, enc, List.append_assoc, readHdr_arr _ h.1, decVals_enc vs h.2 f r (by omega)]
  | .map fs, h, fuel, r, hf => by
    obtain ⟨f, rfl⟩ : ∃ f, fuel = f + 1 := ⟨fuel - 1, by simp [Val.size] at hf; omega⟩
    simp only [Val.Fits] at h
    simp only [Val.size] at hf
    simp only [dec, enc, List.append_assoc, readHdr_map _ h.1, decFields_enc fs h.2 f r (by omega)]

theorem decVals_enc : (vs : Vals) → vs.Fits → ∀ fuel r, vs.size ≤ fuel →
    decVals fuel vs.length (encVals vs ++ r) = some (vs, r)
  | .nil, _, fuel, r, _ => by simp [decVals, encVals, Vals.length]
  | .cons v vs, h, fuel, r, hf => by
    obtain ⟨f, rfl⟩ : ∃ f, fuel = f + 1 := ⟨fuel - 1, by simp [Vals.size] at hf; omega⟩
    simp only [Vals.Fits] at h
    simp only [Vals.size] at hf
    simp only [Vals.length, decVals, encVals, List.append_assoc, dec_enc v h.1 f _ (by omega),
      decVals_enc vs h.2 f r (by omega)]

theorem decFields_enc : (fs : Fields) → fs.Fits → ∀ fuel r, fs.size ≤ fuel →
    decFields fuel fs.length (encFields fs ++ r) = some (fs, r)
  | .nil, _, fuel, r, _ => by simp [decFields, encFields, Fields.length]
  | .cons k v fs, h, fuel, r, hf => by
    obtain ⟨f, rfl⟩ : ∃ f, fuel = f + 1 := ⟨fuel - 1, by simp [Fields.size] at hf; omega⟩
    simp only [Fields.Fits] at h
    simp only [Fields.size] at hf
    simp only [Fields.length, decFields, encFields, List.append_assoc, readKey_enc k h.1, dec_enc v h.2.1 f _ (by omega),
      decFields_enc fs h.2.2 f r (by omega)]
end

theorem encStr_pos (s : String) : 1 ≤ (encStr s).length := by
  unfold encStr encStrHdr
  split <;> (try split) <;> (try split) <;> simp <;> omega

mutual
theorem size_le : (v : Val) → v.size + 1 ≤ 2 * (enc v).length
  | .nil => by simp [Val.size, enc]
  | .bool b => by simp [Val.size, enc]
  | .uint n => by
    simp only [Val.size, enc, encUint]
    split <;> (try split) <;> (try split) <;> (try split) <;> simp <;> omega
  | .neg n => by
    simp only [Val.size, enc, encNeg]
    split <;> (try split) <;> (try split) <;> (try split) <;> simp <;> omega
  | .float b => by simp only [Val.size, enc, encFloat, List.length_cons]; omega
  | .str s => by have := encStr_pos s; simp only [Val.size, enc]; omega
  | .bin b => by
    simp only [Val.size, enc, encBinHdr]
    split <;> (try split) <;> simp <;> omega
  | .ext ty b => by
    simp only [Val.size, enc, List.length_append, List.length_cons]
    have : 1 ≤ (encExtHdr b.length).length := by
      unfold encExtHdr
      repeat' split
      all_goals simp
    omega
  | .arr vs => by
    have := sizes_le vs
    simp only [Val.size, enc, encArrHdr, List.length_append]
    split <;> (try split) <;> simp <;> omega
  | .map fs => by
    have := fields_le fs
    simp only [Val.size, enc, encMapHdr, List.length_append]
    split <;> (try split) <;> simp <;> omega

theorem sizes_le : (vs : Vals) → vs.size ≤ 2 * (encVals vs).length
  | .nil => by simp [Vals.size]
  | .cons v vs => by
    have := size_le v; have := sizes_le vs
    simp only [Vals.size, encVals, List.length_append]; omega

theorem fields_le : (fs : Fields) → fs.size ≤ 2 * (encFields fs).length
  | .nil => by simp [Fields.size]
  | .cons k v fs => by
    have := size_le v; have := fields_le fs; have := encStr_pos k
    simp only [Fields.size, encFields, List.length_append]; omega
end

/-- Decoding the encoding of any expressible value returns it, whatever follows. -/
theorem decode_enc (v : Val) (h : v.Fits) (r : Bytes) : decode (enc v ++ r) = some v := by
  have := size_le v
  rw [decode, dec_enc v h _ r (by simp only [List.length_append]; omega)]
  rfl

end Lair.Mp
