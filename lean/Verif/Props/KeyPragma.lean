import Verif.KeyPragma

/-
C45: the statements that set the key and the salt say exactly the key and the salt.
-/
namespace Lair.Pragma

/-! ### Specification: how SQLCipher reads these statements
(https://www.zetetic.net/sqlcipher/sqlcipher-api/#key, "Raw Key Data": a key given as `x'` + 64 hexadecimal digits + `'` is used as the
32 byte key itself; anything else is a passphrase). Written independently of the functions of the model. -/

/-- Value of a hexadecimal digit, either case. -/
def digitVal (c : Char) : Option Nat :=
  if '0'.toNat ≤ c.toNat ∧ c.toNat ≤ '9'.toNat then some (c.toNat - '0'.toNat)
  else if 'A'.toNat ≤ c.toNat ∧ c.toNat ≤ 'F'.toNat then some (c.toNat - 'A'.toNat + 10)
  else if 'a'.toNat ≤ c.toNat ∧ c.toNat ≤ 'f'.toNat then some (c.toNat - 'a'.toNat + 10)
  else none

/-- Hexadecimal text as bytes. -/
def unhex : List Char → Option Bytes
  | [] => some []
  | [_] => none
  | a :: b :: rest =>
    match digitVal a, digitVal b, unhex rest with
    | some x, some y, some r => some (UInt8.ofNat (16 * x + y) :: r)
    | _, _, _ => none

/-- Bytes of a text of the form `x'…'`. -/
def blob (s : List Char) : Option Bytes :=
  match s with
  | 'x' :: '\'' :: rest => if rest.getLast? = some '\'' then unhex rest.dropLast else none
  | _ => none

/-- The key SQLCipher uses, if the value is raw key data: 67 characters, `x'` … `'`. -/
def rawKey (s : List Char) : Option Bytes := if s.length = 67 then blob s else none

/-- The text between the double quotes of `PRAGMA <name> = "…";`, with nothing after the semicolon. -/
def pragmaValue (name : String) (s : List Char) : Option (List Char) :=
  let pre := "PRAGMA ".toList ++ name.toList ++ " = \"".toList
  if pre <+: s then
    let rest := s.drop pre.length
    let v := rest.takeWhile (· ≠ '"')
    if rest.drop v.length = "\";".toList then some v else none
  else none

/-! ### Lemmas -/

theorem upperHex_spec : ∀ n : Fin 16, digitVal (upperHex n.val) = some n.val ∧ upperHex n.val ≠ '"' ∧
    upperHex n.val ∈ "0123456789ABCDEF".toList := by decide +kernel

theorem unhex_hex (b : Bytes) : unhex (b.map hexByte).flatten = some b := by
  induction b with
  | nil => rfl
  | cons x xs ih =>
    have hx := x.toNat_lt
    have h1 := (upperHex_spec ⟨x.toNat / 16, by omega⟩).1
    have h2 := (upperHex_spec ⟨x.toNat % 16, by omega⟩).1
    simp only [List.map_cons, List.flatten_cons, hexByte, List.cons_append, List.nil_append] at *
    unfold unhex
    rw [h1, h2, ih]
    have : 16 * (x.toNat / 16) + x.toNat % 16 = x.toNat := by omega
    simp [this]

theorem hex_length (b : Bytes) : (b.map hexByte).flatten.length = 2 * b.length := by
  induction b with
  | nil => rfl
  | cons x xs ih => simp only [List.map_cons, List.flatten_cons, List.length_append, ih, List.length_cons]; simp [hexByte]; omega

theorem hex_digits (b : Bytes) : ∀ c ∈ (b.map hexByte).flatten, c ≠ '"' ∧ c ∈ "0123456789ABCDEF".toList := by
  intro c hc
  simp only [List.mem_flatten, List.mem_map] at hc
  obtain ⟨l, ⟨x, _, rfl⟩, hc⟩ := hc
  have hx := x.toNat_lt
  simp only [hexByte, List.mem_cons, List.not_mem_nil, or_false] at hc
  rcases hc with rfl | rfl
  · exact (upperHex_spec ⟨x.toNat / 16, by omega⟩).2
  · exact (upperHex_spec ⟨x.toNat % 16, by omega⟩).2

theorem writeKey_spec (b : Bytes) : ∀ (done rest : List Char), rest.length = 2 * b.length →
    writeKey (done ++ rest) done.length b = .ok (done ++ (b.map hexByte).flatten) := by
  induction b with
  | nil =>
    intro done rest h
    have : rest = [] := List.length_eq_zero_iff.1 (by simpa using h)
    simp [writeKey, this]
  | cons x xs ih =>
    intro done rest h
    match rest, h with
    | r1 :: r2 :: rest, h =>
      have hlen : rest.length = 2 * xs.length := by simp at h; omega
      have hc : cursorWrite (done ++ r1 :: r2 :: rest) done.length (hexByte x) =
          .ok ((done ++ hexByte x) ++ rest, (done ++ hexByte x).length) := by
        unfold cursorWrite
        rw [if_pos (by simp [hexByte])]
        simp [hexByte, List.drop_append]
      unfold writeKey
      rw [hc]
      simp only
      rw [ih _ _ hlen]
      simp
    | [], h => simp at h
    | [_], h => simp at h; omega

theorem blob_hex (b : Bytes) : blob ("x'".toList ++ (b.map hexByte).flatten ++ "'".toList) = some b := by
  show blob ('x' :: '\'' :: ((b.map hexByte).flatten ++ ['\''])) = some b
  simp [blob, unhex_hex]

theorem pragmaValue_of (name : String) (v : List Char) (hv : ∀ c ∈ v, c ≠ '"') :
    pragmaValue name ("PRAGMA ".toList ++ name.toList ++ " = \"".toList ++ v ++ "\";".toList) = some v := by
  unfold pragmaValue
  simp only
  generalize "PRAGMA ".toList ++ name.toList ++ " = \"".toList = pre
  have htw : (v ++ "\";".toList).takeWhile (· ≠ '"') = v := by
    rw [List.takeWhile_append_of_pos (by simpa using hv)]
    have : "\";".toList = ['"', ';'] := rfl
    simp [this]
  rw [List.append_assoc, if_pos (List.prefix_append _ _), List.drop_left, htw, List.drop_left, if_pos rfl]

/-! ### Theorems -/

/-- C45. For every key the statement is built, and it is the fixed text with the 64 upper-case hexadecimal digits of the key. -/
theorem C45_pragma_text (key : B 32) :
    keyPragma key = .ok ("PRAGMA key = \"x'".toList ++ (key.val.map hexByte).flatten ++ "'\";".toList) ∧
    (key.val.map hexByte).flatten.length = 64 ∧ (∀ c ∈ (key.val.map hexByte).flatten, c ∈ "0123456789ABCDEF".toList) := by
  refine ⟨?_, by rw [hex_length, key.len], fun c hc => (hex_digits _ c hc).2⟩
  have h := writeKey_spec key.val [] ((template.drop 16).take 64) (by rw [key.len]; decide +kernel)
  unfold keyPragma
  simp only [List.nil_append, List.length_nil] at h
  rw [h]
  have h1 : template.take 16 = "PRAGMA key = \"x'".toList := by decide +kernel
  have h2 : template.drop 80 = "'\";".toList := by decide +kernel
  rw [h1, h2]

/-- C45. What SQLCipher reads from the statement is the key, as raw key data: not a passphrase to be stretched. -/
theorem C45_key_read_back (key : B 32) :
    ∃ s v, keyPragma key = .ok s ∧ pragmaValue "key" s = some v ∧ rawKey v = some key.val := by
  obtain ⟨h, hl, _⟩ := C45_pragma_text key
  refine ⟨_, "x'".toList ++ (key.val.map hexByte).flatten ++ "'".toList, h, ?_, ?_⟩
  · have := pragmaValue_of "key" ("x'".toList ++ (key.val.map hexByte).flatten ++ "'".toList) (by
      intro c hc
      simp only [List.mem_append] at hc
      rcases hc with (hc | hc) | hc
      · have : c = 'x' ∨ c = '\'' := by simpa using hc
        rcases this with rfl | rfl <;> decide
      · exact (hex_digits _ c hc).1
      · have : c = '\'' := by simpa using hc
        subst this; decide)
    rw [← this]
    congr 1
    simp
  · unfold rawKey
    rw [if_pos (by simp only [List.length_append, hl]; rfl), blob_hex]

/-- C45. Different keys give different statements. -/
theorem C45_different_keys (a b : B 32) (h : keyPragma a = keyPragma b) : a = b := by
  obtain ⟨s, v, h1, h2, h3⟩ := C45_key_read_back a
  obtain ⟨s', v', h1', h2', h3'⟩ := C45_key_read_back b
  rw [h, h1'] at h1
  cases h1
  rw [h2'] at h2
  cases h2
  rw [h3'] at h3
  exact B.ext (Option.some.inj h3).symm

/-- C45. The migrated copy is encrypted with the same key the store is opened with. -/
theorem C45_attach_uses_same_key (key : B 32) (s : List Char) (h : keyPragma key = .ok s) :
    rawKey (attachKey s) = some key.val ∧ pragmaValue "key" s = some (attachKey s) := by
  obtain ⟨s', v, h1, h2, h3⟩ := C45_key_read_back key
  rw [h] at h1; cases h1
  have hs : attachKey s = v := by
    obtain ⟨ht, hl, _⟩ := C45_pragma_text key
    rw [h] at ht
    have ht := Except.ok.inj ht
    have hv : v = "x'".toList ++ (key.val.map hexByte).flatten ++ "'".toList := by
      have hvl : v.length = 67 := by
        unfold rawKey at h3; split at h3
        · assumption
        · cases h3
      unfold pragmaValue at h2
      simp only at h2
      split at h2
      · split at h2
        · rename_i hp hd
          have e := Option.some.inj h2
          have hpre := List.prefix_iff_eq_append.1 hp
          rw [e] at hd
          have hrest : s.drop ("PRAGMA ".toList ++ "key".toList ++ " = \"".toList).length = v ++ "\";".toList := by
            rw [← hd]
            generalize s.drop ("PRAGMA ".toList ++ "key".toList ++ " = \"".toList).length = r at e hd
            rw [← e]
            have h4 := List.takeWhile_append_dropWhile (p := fun c => decide (c ≠ '"')) (l := r)
            conv => lhs; rw [← h4]
            congr 1
            conv => rhs; arg 2; rw [← h4]
            rw [List.drop_left]
          have h14 : ("PRAGMA ".toList ++ "key".toList ++ " = \"".toList).length = 14 := by decide +kernel
          rw [h14, ht] at hrest
          have e2 : "PRAGMA key = \"x'".toList = "PRAGMA key = \"".toList ++ "x'".toList := by decide +kernel
          have e3 : "'\";".toList = "'".toList ++ "\";".toList := by decide +kernel
          rw [e2, e3, List.append_assoc, List.append_assoc, List.drop_left' (by decide +kernel)] at hrest
          rw [← List.append_assoc, ← List.append_assoc] at hrest
          exact (List.append_cancel_right hrest).symm
        · cases h2
      · cases h2
    rw [hv]
    subst ht
    unfold attachKey
    have e2 : "PRAGMA key = \"x'".toList = "PRAGMA key = \"".toList ++ "x'".toList := by decide +kernel
    have e3 : "'\";".toList = "'".toList ++ "\";".toList := by decide +kernel
    rw [e2, e3, List.append_assoc, List.append_assoc, List.drop_left' (by decide +kernel)]
    rw [← List.append_assoc, ← List.append_assoc]
    rw [List.take_left' (by simp only [List.length_append, hl]; decide +kernel)]
  rw [hs]
  exact ⟨h3, h2⟩

/-- C45. The salt statement says exactly the salt, for both databases it is used with. -/
theorem C45_salt_read_back (name : String) (salt : B 16) :
    ∃ v, pragmaValue name (saltPragma name salt) = some v ∧ blob v = some salt.val := by
  refine ⟨"x'".toList ++ (salt.val.map hexByte).flatten ++ "'".toList, ?_, blob_hex _⟩
  have := pragmaValue_of name ("x'".toList ++ (salt.val.map hexByte).flatten ++ "'".toList) (by
      intro c hc
      simp only [List.mem_append] at hc
      rcases hc with (hc | hc) | hc
      · have : c = 'x' ∨ c = '\'' := by simpa using hc
        rcases this with rfl | rfl <;> decide
      · exact (hex_digits _ c hc).1
      · have : c = '\'' := by simpa using hc
        subst this; decide)
  have e : saltPragma name salt = "PRAGMA ".toList ++ name.toList ++ " = \"".toList ++
      ("x'".toList ++ (salt.val.map hexByte).flatten ++ "'".toList) ++ "\";".toList := by
    have e2 : " = \"x'".toList = " = \"".toList ++ "x'".toList := by decide +kernel
    have e3 : "'\";".toList = "'".toList ++ "\";".toList := by decide +kernel
    unfold saltPragma
    rw [e2, e3]
    simp only [List.append_assoc]
  rw [e]
  exact this

/-- C43. The temporary file of the migration is never the store file. -/
theorem C43_temporary_file_is_another_file (name : List Char) : encryptedName name ≠ name := by
  intro h
  have h1 := congrArg List.length h
  unfold encryptedName at h1
  have hlen : ∀ stem ext, splitExt name = (stem, some ext) → stem.length + 1 + ext.length = name.length := by
    intro stem ext he
    have hs : ∀ l : List Char, (l.takeWhile (· ≠ '.')).length + (l.dropWhile (· ≠ '.')).length = l.length := by
      intro l
      rw [← List.length_append, List.takeWhile_append_dropWhile]
    have hr := hs name.reverse
    unfold splitExt at he
    split at he
    · cases he
    · cases he
    · rename_i hd st hsp
      rw [hsp] at hr
      cases he
      simp at hr ⊢
      omega
  split at h1
  · rename_i stem he
    have : stem = name := by
      unfold splitExt at he
      split at he
      · exact (Prod.mk.inj he).1.symm
      · exact (Prod.mk.inj he).1.symm
      · cases he
    subst this
    simp at h1
  · rename_i stem ext he
    have := hlen stem ext he
    simp at h1
    omega

/-- A key with every byte value class: digits and letters. -/
example : keyPragma ⟨(List.range 32).map (fun n => UInt8.ofNat (n * 8 + 3)), by simp⟩ =
    .ok "PRAGMA key = \"x'030B131B232B333B434B535B636B737B838B939BA3ABB3BBC3CBD3DBE3EBF3FB'\";".toList := by decide +kernel

example : encryptedName "store_file".toList = "store_file-encrypted".toList ∧ encryptedName "a.b.db".toList = "a.b-encrypted.db".toList ∧
    encryptedName ".store".toList = ".store-encrypted".toList := by decide +kernel

end Lair.Pragma
