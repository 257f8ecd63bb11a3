import Verif.SeedBundle

namespace Lair.Bundle
open Mp Codec

@[simp] theorem toVals_valsList (l : List Val) : toVals (valsList l) = l := by
  induction l with
  | nil => rfl
  | cons v vs ih => simp [valsList, toVals, ih]

@[simp] theorem dArr_sArr {n : Nat} (b : B n) : dArr n (sArr b) = some b := by simp [dArr, sArr]

theorem dCipher_s (c : SeedCipher) : dCipher (sCipher c) = some c := by
  cases c <;> simp [dCipher, sCipher]

theorem dBundle_s (b : SeedBundle) : dBundle (sBundle b) = some b := by
  simp [dBundle, sBundle, dList_sList dCipher_s, dByteBuf]

theorem ints_vals (l : List Val) (h : ∀ v ∈ l, v.Ints) : (Val.arr (valsList l)).Ints := by
  induction l with
  | nil => trivial
  | cons v vs ih => exact ⟨h v (by simp), ih (fun w hw => h w (by simp [hw]))⟩

@[simp] theorem ints_rawBin (b : Bytes) : (Val.bin b).Ints := trivial
@[simp] theorem ints_arr {n : Nat} (b : B n) : (sArr b).Ints := trivial

theorem ints_cipher (c : SeedCipher) : (sCipher c).Ints := by
  cases c <;> apply ints_vals <;> simp

theorem ints_bundle (b : SeedBundle) : (sBundle b).Ints := by
  apply ints_vals
  simp [ints_list _ ints_cipher]

theorem pwDec_pwEnc {C : Crypto} (L : C.Lawful) {seed : B 32} {pass : Bytes} {l : PwHashLimits} {salt : B 16} {header : B 24} {c : B 49}
    (h : pwEnc C seed pass l salt header = some c) : pwDec C pass salt l.mem l.ops header c = some seed := by
  unfold pwEnc at h
  unfold pwDec
  split at h
  · rename_i k hk
    rw [B.ofBytes?_eq_some] at h
    simp only [← h, L.ss_dec, B.ofBytes?_val]
  · cases h

theorem pwEnc_some {C : Crypto} (L : C.Lawful) {seed : B 32} {pass : Bytes} {l : PwHashLimits} {salt : B 16} (header : B 24) {k : B 32}
    (h : C.argon2id (C.blake2b64 pass).val salt l.ops l.mem = some k) : ∃ c, pwEnc C seed pass l salt header = some c := by
  have hl : (C.ssEnc k header seed.val).length = 49 := by rw [L.ss_len, seed.len]
  exact ⟨⟨_, hl⟩, by simp [pwEnc, pwKey, h, B.ofBytes?, hl]⟩

theorem ciphers_len {C : Crypto} {seed : B 32} {items : List LockItem} {cs : List SeedCipher}
    (h : LockItem.ciphers C seed items = some cs) : cs.length = items.length := by
  induction items generalizing cs with
  | nil => simp only [LockItem.ciphers, Option.some.injEq] at h; subst h; rfl
  | cons x xs ih =>
    simp only [LockItem.ciphers] at h
    split at h
    · rename_i c cs' h1 h2; cases h; simp [ih h2]
    · cases h

theorem ciphers_get {C : Crypto} {seed : B 32} {items : List LockItem} {cs : List SeedCipher}
    (h : LockItem.ciphers C seed items = some cs) {i : Nat} {x : LockItem} (hx : items[i]? = some x) :
    ∃ c, cs[i]? = some c ∧ x.cipher C seed = some c := by
  induction items generalizing cs i with
  | nil => simp at hx
  | cons y ys ih =>
    simp only [LockItem.ciphers] at h
    split at h
    · rename_i c cs' h1 h2
      cases h
      cases i with
      | zero => simp at hx; subst hx; exact ⟨c, rfl, h1⟩
      | succ i => simpa using ih h2 (by simpa using hx)
    · cases h

/-! ### Answers -/

theorem lower_eq (c : Char) : lower c = c.toLower := by
  unfold lower Char.toLower
  have e1 : ('A'.toNat ≤ c.toNat ∧ c.toNat ≤ 'Z'.toNat) ↔ (c.val ≥ 'A'.val ∧ c.val ≤ 'Z'.val) := by
    simp only [Char.toNat, ge_iff_le, UInt32.le_iff_toNat_le]
  by_cases h : c.val ≥ 'A'.val ∧ c.val ≤ 'Z'.val
  · rw [if_pos (e1.mpr h), dif_pos h]
    apply Char.ext
    have hc := e1.mpr h
    have h1 : c.toNat ≤ 90 := hc.2
    have hv : (c.toNat + 32).isValidChar := by left; omega
    have h2 : (Char.ofNat (c.toNat + 32)).toNat = c.toNat + 32 := by
      rw [Char.ofNat, dif_pos hv]
      rfl
    apply UInt32.toNat_inj.mp
    show (Char.ofNat (c.toNat + 32)).toNat = _
    rw [h2, UInt32.toNat_add]
    show _ = (c.toNat + 32) % 2 ^ 32
    omega
  · rw [if_neg (fun hh => h (e1.mp hh)), dif_neg h]

theorem isWs_lower (c : Char) : isWs (lower c) = isWs c := by
  unfold lower
  split
  · rename_i h
    have h0 : 65 ≤ c.toNat := h.1
    have h1 : c.toNat ≤ 90 := h.2
    have hv : (c.toNat + 32).isValidChar := by left; omega
    have h2 : (Char.ofNat (c.toNat + 32)).toNat = c.toNat + 32 := by
      rw [Char.ofNat, dif_pos hv]
      rfl
    have key : ∀ n : Nat, 65 ≤ n → n ≤ 122 → ((9 ≤ n && n ≤ 13) || n == 0x20 || n == 0x85 || n == 0xa0 || n == 0x1680 || (0x2000 ≤ n && n ≤ 0x200a) || n == 0x2028 ||
        n == 0x2029 || n == 0x202f || n == 0x205f || n == 0x3000) = false := by
      intro n h1 h2
      simp
      omega
    simp only [isWs, h2]
    rw [key _ (by omega) (by omega), key _ (by omega) (by omega)]
  · rfl

theorem dropWhile_map_lower (s : List Char) : (s.map lower).dropWhile isWs = (s.dropWhile isWs).map lower := by
  induction s with
  | nil => rfl
  | cons c s ih =>
    simp only [List.map_cons, List.dropWhile_cons, isWs_lower]
    split
    · exact ih
    · simp

theorem trim_map_lower (s : List Char) : trim (s.map lower) = (trim s).map lower := by
  unfold trim
  rw [dropWhile_map_lower, ← List.map_reverse, dropWhile_map_lower, ← List.map_reverse]

theorem dropWhile_pre (w s : List Char) (hw : ∀ c ∈ w, isWs c = true) : (w ++ s).dropWhile isWs = s.dropWhile isWs := by
  induction w with
  | nil => rfl
  | cons c w ih =>
    simp only [List.cons_append, List.dropWhile_cons, hw c (by simp), if_true]
    exact ih (fun d hd => hw d (by simp [hd]))

theorem dropWhile_all (w : List Char) (hw : ∀ c ∈ w, isWs c = true) : w.dropWhile isWs = [] := by
  have := dropWhile_pre w [] hw
  simpa using this

theorem trim_pad (w s w' : List Char) (hw : ∀ c ∈ w, isWs c = true) (hw' : ∀ c ∈ w', isWs c = true) :
    trim (w ++ s ++ w') = trim s := by
  unfold trim
  rw [List.append_assoc, dropWhile_pre _ _ hw, List.dropWhile_append]
  split
  · rename_i h
    have h : s.dropWhile isWs = [] := by simpa using h
    rw [h, dropWhile_all _ hw']
  · rw [List.reverse_append, dropWhile_pre]
    intro c hc; exact hw' c (by simpa using hc)

theorem trim_solid (s : List Char) (h : ∀ c ∈ s, isWs c = false) : trim s = s := by
  have : ∀ t : List Char, (∀ c ∈ t, isWs c = false) → t.dropWhile isWs = t := by
    intro t ht
    cases t with
    | nil => rfl
    | cons c t => simp [ht c (by simp)]
  unfold trim
  rw [this s h, this s.reverse (fun c hc => h c (by simpa using hc)), List.reverse_reverse]

end Lair.Bundle
