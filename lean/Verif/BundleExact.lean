import Verif.CodecExact
import Verif.SeedBundle

/- The bundle decoder reads exactly the bundles of a small specification. -/
namespace Lair.Bundle
open Mp Codec

/-! ### Specification -/

/-- Bytes: as bytes or as an extension value (`U8Array`). Proof device: nothing in the code corresponds. -/
def IsArr (b : Bytes) (v : Val) : Prop := v = .bin b ∨ ∃ ty, v = .ext ty b

/-- Bytes: as bytes, as text or as a list of numbers (`serde_bytes`).
    Proof device: nothing in the code corresponds. -/
def IsBuf (b : Bytes) (v : Val) : Prop := v = .bin b ∨ (∃ s, v = .str s ∧ b = utf8 s) ∨ IsSeq b v

/-- A cipher: a list that begins with the name of the kind. Proof device: nothing in the code corresponds. -/
def IsCipher : SeedCipher → Val → Prop
  | .pw salt mem ops header cipher => fun v => ∃ vs vm vo vh vc, v = .arr (valsList [.str "pw", vs, vm, vo, vh, vc]) ∧
      IsArr salt.val vs ∧ IsU32 mem vm ∧ IsU32 ops vo ∧ IsArr header.val vh ∧ IsArr cipher.val vc
  | .qa salt mem ops q1 q2 q3 header cipher => fun v => ∃ vs vm vo w1 w2 w3 vh vc,
      v = .arr (valsList [.str "qa", vs, vm, vo, w1, w2, w3, vh, vc]) ∧
      IsArr salt.val vs ∧ IsU32 mem vm ∧ IsU32 ops vo ∧ IsText q1 w1 ∧ IsText q2 w2 ∧ IsText q3 w3 ∧ IsArr header.val vh ∧ IsArr cipher.val vc

/-- A bundle: version, ciphers, application data. Specification: nothing in the code corresponds. -/
def IsBundle (b : SeedBundle) (v : Val) : Prop := ∃ cs a, v = .arr (valsList [.str "hcsb0", .arr cs, a]) ∧
  ListOf IsCipher b.ciphers cs ∧ IsBuf b.appData a

/-! ### Proof -/

theorem isArr_iff (n : Nat) (v : Val) (b : B n) : dArr n v = some b ↔ IsArr b.val v := by
  cases v with
  | bin c => simp [dArr, IsArr, B.ofBytes?_eq_some]
  | ext t c => simp [dArr, IsArr, B.ofBytes?_eq_some]
  | _ => simp [dArr, IsArr]

theorem isBuf_iff (v : Val) (b : Bytes) : dByteBuf v = some b ↔ IsBuf b v := by
  cases v with
  | bin c => simp [dByteBuf, IsBuf, IsSeq]
  | str s => simp [dByteBuf, IsBuf, IsSeq]; exact ⟨Eq.symm, Eq.symm⟩
  | _ => simp [dByteBuf, IsBuf, isSeq_iff]

theorem valsList_toVals : (vs : Vals) → valsList (toVals vs) = vs
  | .nil => rfl
  | .cons v vs => by simp [toVals, valsList, valsList_toVals vs]

theorem toVals_iff {vs : Vals} {l : List Val} : toVals vs = l ↔ vs = valsList l := by
  constructor
  · rintro rfl; exact (valsList_toVals vs).symm
  · rintro rfl
    induction l with
    | nil => rfl
    | cons v l ih => simp [valsList, toVals, ih]

theorem isCipher_iff (v : Val) (c : SeedCipher) : dCipher v = some c ↔ IsCipher c v := by
  constructor
  · intro h
    unfold dCipher at h
    split at h
    · rename_i vs
      split at h
      · rename_i rest ht
        split at h
        · rename_i salt mem ops header cipher
          split at h
          · rename_i a b c d e h1 h2 h3 h4 h5
            cases h
            exact ⟨_, _, _, _, _, by rw [toVals_iff.mp ht], (isArr_iff _ _ _).mp h1, (isU32_iff _ _).mp h2, (isU32_iff _ _).mp h3,
              (isArr_iff _ _ _).mp h4, (isArr_iff _ _ _).mp h5⟩
          · cases h
        · cases h
      · rename_i rest ht
        split at h
        · split at h
          · rename_i a b c d e h1 h2 h3 h4 h5
            split at h
            · rename_i g1 g2 g3
              cases h
              exact ⟨_, _, _, _, _, _, _, _, by rw [toVals_iff.mp ht], (isArr_iff _ _ _).mp h1, (isU32_iff _ _).mp h2, (isU32_iff _ _).mp h3,
                (isText_iff _ _).mp g1, (isText_iff _ _).mp g2, (isText_iff _ _).mp g3,
                (isArr_iff _ _ _).mp h4, (isArr_iff _ _ _).mp h5⟩
            · cases h
          · cases h
        · cases h
      · cases h
    · cases h
  · intro h
    cases c with
    | pw salt mem ops header cipher =>
      obtain ⟨vs, vm, vo, vh, vc, rfl, h1, h2, h3, h4, h5⟩ := h
      simp only [dCipher, toVals, valsList]
      rw [(isArr_iff _ _ _).mpr h1, (isU32_iff _ _).mpr h2, (isU32_iff _ _).mpr h3, (isArr_iff _ _ _).mpr h4, (isArr_iff _ _ _).mpr h5]
    | qa salt mem ops q1 q2 q3 header cipher =>
      obtain ⟨vs, vm, vo, w1, w2, w3, vh, vc, rfl, h1, h2, h3, g1, g2, g3, h4, h5⟩ := h
      simp only [dCipher, toVals, valsList]
      rw [(isArr_iff _ _ _).mpr h1, (isU32_iff _ _).mpr h2, (isU32_iff _ _).mpr h3, (isArr_iff _ _ _).mpr h4, (isArr_iff _ _ _).mpr h5,
        (isText_iff _ _).mpr g1, (isText_iff _ _).mpr g2, (isText_iff _ _).mpr g3]

theorem isBundle_iff (v : Val) (b : SeedBundle) : dBundle v = some b ↔ IsBundle b v := by
  constructor
  · intro h
    unfold dBundle at h
    split at h
    · split at h
      · rename_i vs s ciphers appData ht
        split at h
        · rename_i cs a h1 h2
          split at h
          · rename_i hv
            cases h
            obtain ⟨ws, rfl, hw⟩ := (list_iff isCipher_iff _ _).mp h1
            exact ⟨ws, appData, by rw [toVals_iff.mp ht, hv], hw, (isBuf_iff _ _).mp h2⟩
          · cases h
        · cases h
      · cases h
    · cases h
  · rintro ⟨cs, a, rfl, h1, h2⟩
    simp only [dBundle, toVals, valsList]
    rw [(list_iff isCipher_iff _ _).mpr ⟨cs, rfl, h1⟩, (isBuf_iff _ _).mpr h2]
    simp

end Lair.Bundle
