import Verif.BundleLemmas
import Verif.Server

/-
C36 (seed bundle encoding), C37 (every cipher unlocks the same seed), C38 (security answers), C18 (bundle derivation agrees
with the keystore's).
-/
namespace Lair
open Mp Codec Bundle

/-! ### C36 -/

/-- **C36** Decoding the bytes of any bundle MessagePack can express (also with other bytes after it) yields the same ciphers
    and application data. -/
theorem C36_roundtrip (b : SeedBundle) (h : (encodeBundle b).length < 2 ^ 32) (r : Bytes) :
    decodeBundle (encodeBundle b ++ r) = some b := by
  rw [decodeBundle, encodeBundle, decode_enc _ (fits_of _ (ints_bundle b) h) r]
  exact dBundle_s b

/-- **C36** Different bundles have different bytes. -/
theorem C36_injective (b b' : SeedBundle) (h : (encodeBundle b).length < 2 ^ 32) (he : encodeBundle b = encodeBundle b') : b = b' := by
  have h1 := C36_roundtrip b h []
  have h2 := C36_roundtrip b' (he ▸ h) []
  rw [he, h2] at h1
  simpa using h1.symm

/-- **C36** Bytes that announce another version are refused, whatever follows the version. -/
theorem C36_other_version_refused (v : String) (hv : v ≠ "hcsb0") (rest : List Val) (bytes : Bytes)
    (hb : Mp.decode bytes = some (.arr (valsList (.str v :: rest)))) : decodeBundle bytes = none := by
  rw [decodeBundle, hb]
  simp only [Option.bind_some, dBundle, toVals_valsList]
  match rest with
  | [] | [_] | _ :: _ :: _ :: _ => rfl
  | [a, c] =>
    simp only [hv, if_false]
    split <;> rfl

/-- **C36** A bundle with a cipher of an unknown type is refused as a whole - also if it has ciphers of known types (so
    `LockedSeedCipher::UnsupportedCipher` never occurs). -/
theorem C36_unknown_cipher_refused (ver : Val) (cs : List Val) (app : Val) (t : String) (fields : List Val) (ht : t ≠ "pw" ∧ t ≠ "qa")
    (hc : Val.arr (valsList (.str t :: fields)) ∈ cs) (bytes : Bytes)
    (hb : Mp.decode bytes = some (.arr (valsList [ver, .arr (valsList cs), app]))) : decodeBundle bytes = none := by
  have h0 : dCipher (.arr (valsList (.str t :: fields))) = none := by
    simp only [dCipher, toVals_valsList]
    split
    · rename_i h; cases h; exact absurd rfl ht.1
    · rename_i h; cases h; exact absurd rfl ht.2
    · rfl
  have h1 : dVals dCipher (valsList cs) = none := by
    induction cs with
    | nil => cases hc
    | cons c cs ih =>
      simp only [valsList, dVals]
      rcases List.mem_cons.mp hc with hc | hc
      · rw [← hc, h0]
      · clear hb; rw [show dVals dCipher (valsList cs) = none from by
          clear ih
          induction cs with
          | nil => cases hc
          | cons d ds ih =>
            simp only [valsList, dVals]
            rcases List.mem_cons.mp hc with hc | hc
            · rw [← hc, h0]
            · rw [ih (by simp [hc]) hc]; split <;> simp_all]
        split <;> simp_all
  rw [decodeBundle, hb]
  simp only [Option.bind_some, dBundle, toVals_valsList]
  split
  · rename_i v ciphers appData h
    cases h
    simp only [dList, h1]
  · rfl

/-- A cipher with its binary fields written by another program (`f`). -/
def sCipherAs (f : Bytes → Val) : SeedCipher → Val
  | .pw salt mem ops header cipher =>
    .arr (valsList [.str "pw", f salt.val, sU32 mem, sU32 ops, f header.val, f cipher.val])
  | .qa salt mem ops q1 q2 q3 header cipher =>
    .arr (valsList [.str "qa", f salt.val, sU32 mem, sU32 ops, .str q1, .str q2, .str q3, f header.val, f cipher.val])

/-- **C36** A bundle whose binary fields are written as extension values (as JavaScript encoders do), each with any type
    number, is read like one with plain binary fields. -/
theorem C36_ext_fields_accepted (f : Bytes → Val) (hf : ∀ b, f b = .bin b ∨ ∃ ty, f b = .ext ty b) (b : SeedBundle) (bytes : Bytes)
    (hb : Mp.decode bytes = some (.arr (valsList [.str "hcsb0", sList (sCipherAs f) b.ciphers, .bin b.appData]))) :
    decodeBundle bytes = some b := by
  have hd : ∀ {n : Nat} (x : B n), dArr n (f x.val) = some x := by
    intro n x
    rcases hf x.val with h | ⟨ty, h⟩ <;> simp [h, dArr]
  have hc : ∀ c, dCipher (sCipherAs f c) = some c := by
    intro c; cases c <;> simp [dCipher, sCipherAs, hd]
  rw [decodeBundle, hb]
  simp [dBundle, dList_sList hc, dByteBuf]

/-- **C36** Binary fields of a wrong size are refused. -/
theorem C36_wrong_size_refused (salt header cipher : Bytes) (mem ops : UInt32)
    (h : ¬ (salt.length = 16 ∧ header.length = 24 ∧ cipher.length = 49)) :
    dCipher (.arr (valsList [.str "pw", .bin salt, sU32 mem, sU32 ops, .bin header, .bin cipher])) = none := by
  simp only [dCipher, toVals_valsList]
  split
  · rename_i h1 h2 h3 h4 h5
    exfalso; apply h
    simp only [dArr, B.ofBytes?_eq_some] at h1 h4 h5
    exact ⟨by rw [h1]; exact B.len _, by rw [h4]; exact B.len _, by rw [h5]; exact B.len _⟩
  · rfl

/-! ### C37 -/

/-- **C37** Whatever passphrases and answers a seed is locked with: if locking succeeds, reading the bytes back gives one
    cipher per secret, in order, and unlocking the i-th with the i-th secret returns the seed and the application data. -/
theorem C37_every_cipher_unlocks (C : Crypto) (L : C.Lawful) (u : Unlocked) (items : List LockItem) (bytes : Bytes)
    (hl : u.lock C items = some bytes) (hf : bytes.length < 2 ^ 32) :
    ∃ ls, fromLocked bytes = some ls ∧ ls.length = items.length ∧
      (∀ (i : Nat) (pass : Bytes) (lim : PwHashLimits) (salt : B 16) (header : B 24), items[i]? = some (LockItem.pw pass lim salt header) →
        ∃ l, ls[i]? = some l ∧ l.unlockPw C pass = some u) ∧
      (∀ (i : Nat) (q1 q2 q3 : String) (a1 a2 a3 : Bytes) (lim : PwHashLimits) (salt : B 16) (header : B 24),
        items[i]? = some (LockItem.qa q1 q2 q3 a1 a2 a3 lim salt header) →
        ∃ l, ls[i]? = some l ∧ l.unlockQa C a1 a2 a3 = some u) := by
  unfold Unlocked.lock at hl
  split at hl
  · rename_i cs hcs
    cases hl
    have hd := C36_roundtrip ⟨cs, u.appData⟩ hf []
    rw [List.append_nil] at hd
    refine ⟨cs.map (fun c => ⟨c, u.appData⟩), by simp [fromLocked, hd], by simp [ciphers_len hcs], ?_, ?_⟩
    · intro i pass lim salt header hi
      obtain ⟨c, h1, h2⟩ := ciphers_get hcs hi
      refine ⟨⟨c, u.appData⟩, by simp [h1], ?_⟩
      simp only [LockItem.cipher] at h2
      split at h2
      · rename_i x hx
        cases h2
        simp [Locked.unlockPw, pwDec_pwEnc L hx]
      · cases h2
    · intro i q1 q2 q3 a1 a2 a3 lim salt header hi
      obtain ⟨c, h1, h2⟩ := ciphers_get hcs hi
      refine ⟨⟨c, u.appData⟩, by simp [h1], ?_⟩
      simp only [LockItem.cipher] at h2
      split at h2
      · rename_i pass hp
        split at h2
        · rename_i x hx
          cases h2
          simp [Locked.unlockQa, hp, pwDec_pwEnc L hx]
        · cases h2
      · cases h2
  · cases hl

/-- **C37** Locking fails only if password hashing fails or an answer is not UTF-8. -/
theorem C37_lock_succeeds (C : Crypto) (L : C.Lawful) (u : Unlocked) (items : List LockItem)
    (hh : ∀ (p : Bytes) (s : B 16) (l : PwHashLimits), (C.argon2id p s l.ops l.mem).isSome)
    (ha : ∀ q1 q2 q3 a1 a2 a3 l s h, LockItem.qa q1 q2 q3 a1 a2 a3 l s h ∈ items →
      (∃ s1 s2 s3, a1 = utf8 s1 ∧ a2 = utf8 s2 ∧ a3 = utf8 s3)) :
    ∃ bytes, u.lock C items = some bytes := by
  have : ∃ cs, LockItem.ciphers C u.seed items = some cs := by
    induction items with
    | nil => exact ⟨[], rfl⟩
    | cons x xs ih =>
      obtain ⟨cs, hcs⟩ := ih (fun q1 q2 q3 a1 a2 a3 l s h hm => ha q1 q2 q3 a1 a2 a3 l s h (by simp [hm]))
      have : ∃ c, x.cipher C u.seed = some c := by
        cases x with
        | pw pass l salt header =>
          obtain ⟨k, hk⟩ := Option.isSome_iff_exists.mp (hh (C.blake2b64 pass).val salt l)
          obtain ⟨c, hc⟩ := pwEnc_some L (seed := u.seed) header hk
          exact ⟨.pw salt l.mem l.ops header c, by simp only [LockItem.cipher, hc]⟩
        | qa q1 q2 q3 a1 a2 a3 l salt header =>
          obtain ⟨s1, s2, s3, rfl, rfl, rfl⟩ := ha _ _ _ _ _ _ _ _ _ (List.mem_cons_self ..)
          have hp : ∃ p, processAnswers (utf8 s1) (utf8 s2) (utf8 s3) = some p := by simp only [processAnswers, ofUtf8_utf8]; exact ⟨_, rfl⟩
          obtain ⟨p, hp⟩ := hp
          obtain ⟨k, hk⟩ := Option.isSome_iff_exists.mp (hh (C.blake2b64 p).val salt l)
          obtain ⟨c, hc⟩ := pwEnc_some L (seed := u.seed) header hk
          exact ⟨.qa salt l.mem l.ops q1 q2 q3 header c, by simp only [LockItem.cipher, hp, hc]⟩
      obtain ⟨c, hc⟩ := this
      exact ⟨c :: cs, by simp only [LockItem.ciphers, hc, hcs]⟩
  obtain ⟨cs, hcs⟩ := this
  exact ⟨encodeBundle ⟨cs, u.appData⟩, by simp only [Unlocked.lock, hcs]⟩

/-- **C37** If no key makes anything else of an encryption of the seed (`hcm`: that would be a forgery), then no secret whatsoever - right,
    wrong or of another cipher - makes a cipher of the bundle yield anything but the locked seed and the application data. -/
theorem C37_nothing_else_unlocks (C : Crypto) (L : C.Lawful) (u : Unlocked) (items : List LockItem) (bytes : Bytes)
    (hl : u.lock C items = some bytes) (hf : bytes.length < 2 ^ 32) (ls : List Locked) (hls : fromLocked bytes = some ls)
    (hcm : ∀ k k' h m, C.ssDec k' h (C.ssEnc k h u.seed.val) = some m → m = u.seed.val) (l : Locked) (hm : l ∈ ls) (v : Unlocked) :
    (∀ pass, l.unlockPw C pass = some v → v = u) ∧ (∀ a1 a2 a3, l.unlockQa C a1 a2 a3 = some v → v = u) := by
  unfold Unlocked.lock at hl
  split at hl
  · rename_i cs hcs
    cases hl
    have hd := C36_roundtrip ⟨cs, u.appData⟩ hf []
    rw [List.append_nil] at hd
    simp only [fromLocked, hd, Option.map_some, Option.some.injEq] at hls
    subst hls
    obtain ⟨c, hc, rfl⟩ := List.mem_map.mp hm
    obtain ⟨i, hi⟩ := List.mem_iff_getElem?.mp hc
    obtain ⟨x, hx⟩ : ∃ x, items[i]? = some x := by
      have := (List.getElem?_eq_some_iff.mp hi).1
      rw [ciphers_len hcs] at this
      exact ⟨_, List.getElem?_eq_getElem this⟩
    obtain ⟨c', h1, h2⟩ := ciphers_get hcs hx
    rw [hi] at h1; cases h1
    -- any opening of a cipher made by `pwEnc` is the seed
    have key : ∀ (pass pass' : Bytes) (lim : PwHashLimits) (salt : B 16) (header : B 24) (ci : B 49) (s : B 32),
        pwEnc C u.seed pass lim salt header = some ci → pwDec C pass' salt lim.mem lim.ops header ci = some s → s = u.seed := by
      intro pass pass' lim salt header ci s he hd
      unfold pwEnc at he
      split at he
      · rename_i k hk
        rw [B.ofBytes?_eq_some] at he
        unfold pwDec at hd
        split at hd
        · split at hd
          · rename_i k' hk' m hm'
            rw [← he] at hm'
            have := hcm _ _ _ _ hm'
            rw [B.ofBytes?_eq_some] at hd
            exact B.ext (by rw [← hd, this])
          · cases hd
        · cases hd
      · cases he
    cases x with
    | pw pass lim salt header =>
      simp only [LockItem.cipher] at h2
      split at h2
      · rename_i ci hci
        cases h2
        refine ⟨?_, fun a1 a2 a3 h => by simp [Locked.unlockQa] at h⟩
        intro pass' h
        simp only [Locked.unlockPw, Option.map_eq_some_iff] at h
        obtain ⟨s, hs, rfl⟩ := h
        rw [key _ _ _ _ _ _ _ hci hs]
      · cases h2
    | qa q1 q2 q3 b1 b2 b3 lim salt header =>
      simp only [LockItem.cipher] at h2
      split at h2
      · split at h2
        · rename_i p hp ci hci
          cases h2
          refine ⟨fun pass h => by simp [Locked.unlockPw] at h, ?_⟩
          intro a1 a2 a3 h
          simp only [Locked.unlockQa] at h
          split at h
          · simp only [Option.map_eq_some_iff] at h
            obtain ⟨s, hs, rfl⟩ := h
            rw [key _ _ _ _ _ _ _ hci hs]
          · cases h
        · cases h2
      · cases h2
  · cases hl

/-- **C37** An unlocked bundle signs with the key pair of its seed. -/
theorem C37_signature_verifies (C : Crypto) (L : C.Lawful) (u : Unlocked) (m : Bytes) :
    C.verify (u.signPubKey C) m (u.sign C m) = true := L.verify_sign u.seed m

/-- **C18** Deriving a bundle step by step and deriving in the keystore along the same path give the same seed, so the keys
    the keystore reports for a derived seed are those of the derived bundle. -/
theorem C18_bundle_derivation_agrees (C : Crypto) (u : Unlocked) (path : List UInt32) :
    (path.foldl (Unlocked.derive C) u).seed = derivePath C u.seed path := by
  induction path generalizing u with
  | nil => rfl
  | cons i is ih => rw [List.foldl_cons, ih]; rfl

/-- **C18** A derived bundle starts without application data: nothing of the parent's data is passed on. -/
theorem C18_derived_bundle_has_no_app_data (C : Crypto) (u : Unlocked) (path : List UInt32) (h : path ≠ []) :
    (path.foldl (Unlocked.derive C) u).appData = [] := by
  obtain ⟨is, i, rfl⟩ := List.eq_nil_or_concat path |>.resolve_left h
  rw [List.concat_eq_append, List.foldl_append]
  rfl

/-- **C18** So two parents with the same seed have the same children, whatever their application data. -/
theorem C18_children_depend_on_seed_only (C : Crypto) (u v : Unlocked) (h : u.seed = v.seed) (i : UInt32) :
    u.derive C i = v.derive C i := by
  simp [Unlocked.derive, h]

example : (([3, 5] : List UInt32).foldl (Unlocked.derive Toy.crypto) ⟨B.fill 32 1, [9, 9]⟩).appData = [] := by decide +kernel

/-! ### C38 -/

/-- The answers are the same up to surrounding white space and ASCII letter case. -/
def SameAnswer (a b : String) : Prop :=
  ∃ l core r l' core' r' : List Char, a.toList = l ++ core ++ r ∧ b.toList = l' ++ core' ++ r' ∧
    (∀ c ∈ l ++ r ++ l' ++ r', isWs c = true) ∧ core.map Char.toLower = core'.map Char.toLower

theorem same_norm {a b : String} (h : SameAnswer a b) : (trim a.toList).map lower = (trim b.toList).map lower := by
  obtain ⟨l, core, r, l', core', r', h1, h2, h3, h4⟩ := h
  have hl : lower = Char.toLower := funext lower_eq
  rw [h1, h2, trim_pad _ _ _ (fun c hc => h3 c (by simp [hc])) (fun c hc => h3 c (by simp [hc])),
    trim_pad _ _ _ (fun c hc => h3 c (by simp [hc])) (fun c hc => h3 c (by simp [hc])), ← trim_map_lower, ← trim_map_lower, hl, h4]

/-- **C38** Answers that are the same up to surrounding white space and ASCII case open (or do not open) a cipher alike, with
    the same result. -/
theorem C38_answers_up_to_blanks_and_case (C : Crypto) (l : Locked) (a1 a2 a3 b1 b2 b3 : String)
    (h1 : SameAnswer a1 b1) (h2 : SameAnswer a2 b2) (h3 : SameAnswer a3 b3) :
    l.unlockQa C (utf8 a1) (utf8 a2) (utf8 a3) = l.unlockQa C (utf8 b1) (utf8 b2) (utf8 b3) := by
  have : processAnswers (utf8 a1) (utf8 a2) (utf8 a3) = processAnswers (utf8 b1) (utf8 b2) (utf8 b3) := by
    simp only [processAnswers, ofUtf8_utf8, List.map_append, same_norm h1, same_norm h2, same_norm h3]
  simp only [Locked.unlockQa, this]

/-- **C38** The passphrase made from answers is exactly the lower-cased concatenation of the trimmed answers: two triples of
    answers give the same passphrase if and only if these texts are equal. -/
theorem C38_passphrase_of_answers (a1 a2 a3 b1 b2 b3 : String) :
    processAnswers (utf8 a1) (utf8 a2) (utf8 a3) = processAnswers (utf8 b1) (utf8 b2) (utf8 b3) ↔
      (trim a1.toList ++ trim a2.toList ++ trim a3.toList).map Char.toLower = (trim b1.toList ++ trim b2.toList ++ trim b3.toList).map Char.toLower := by
  have hl : lower = Char.toLower := funext lower_eq
  simp only [processAnswers, ofUtf8_utf8, hl, Option.some.injEq]
  constructor
  · intro h
    have h := congrArg ofUtf8 h
    rw [ofUtf8_utf8, ofUtf8_utf8] at h
    simp only [Option.some.injEq] at h
    have h := congrArg String.toList h
    simpa using h
  · intro h; rw [h]

/-- **C38** An answer that is not UTF-8 is refused. -/
theorem C38_invalid_utf8_refused (a1 a2 a3 : Bytes) (h : ofUtf8 a1 = none ∨ ofUtf8 a2 = none ∨ ofUtf8 a3 = none) :
    processAnswers a1 a2 a3 = none := by
  unfold processAnswers
  split
  · rename_i h1 h2 h3; rw [h1, h2, h3] at h; simp at h
  · rfl

/-- **C38** (violation) The boundary between answers does not matter: text can be moved from one answer to the next. So
    answers that are wrong for two of the three questions unlock the bundle. -/
theorem C38_boundary_ignored (C : Crypto) (l : Locked) (x y z w : List Char) (hs : ∀ c ∈ x ++ y ++ z ++ w, isWs c = false) :
    l.unlockQa C (utf8 (String.ofList (x ++ y))) (utf8 (String.ofList z)) (utf8 (String.ofList w))
      = l.unlockQa C (utf8 (String.ofList x)) (utf8 (String.ofList (y ++ z))) (utf8 (String.ofList w)) := by
  have : processAnswers (utf8 (String.ofList (x ++ y))) (utf8 (String.ofList z)) (utf8 (String.ofList w))
      = processAnswers (utf8 (String.ofList x)) (utf8 (String.ofList (y ++ z))) (utf8 (String.ofList w)) := by
    simp only [processAnswers, ofUtf8_utf8, String.toList_ofList]
    rw [trim_solid (x ++ y) (fun c hc => hs c (by simp at hc ⊢; rcases hc with h | h <;> simp [h])), trim_solid z (fun c hc => hs c (by simp [hc])),
      trim_solid x (fun c hc => hs c (by simp [hc])), trim_solid (y ++ z) (fun c hc => hs c (by simp at hc ⊢; rcases hc with h | h <;> simp [h]))]
    simp
  simp only [Locked.unlockQa, this]

/-! ### Concrete cases -/

/-- A bundle with a passphrase and a question cipher, locked and unlocked. -/
example :
    let C := Toy.crypto;
    let u : Unlocked := ⟨B.fill 32 7, [1, 2, 3]⟩;
    let items : List LockItem := [.pw [97, 98] .minimum (B.fill 16 5) (B.fill 24 6),
      .qa "q1" "q2" "q3" (utf8 " Rex ") (utf8 "Bern") (utf8 "BLUE") .moderate (B.fill 16 3) (B.fill 24 4)];
    ((u.lock C items).bind fromLocked).map (fun ls => ls.map (fun l => (l.unlockPw C [97, 98], l.unlockPw C [97, 99])))
      = some [(some u, none), (none, none)] ∧
    ((u.lock C items).bind fromLocked).map (fun ls => ls.map (fun l =>
        (l.unlockQa C (utf8 "rex") (utf8 " bern") (utf8 "Blue"), l.unlockQa C (utf8 "max") (utf8 "bern") (utf8 "blue"))))
      = some [(none, none), (some u, none)] ∧
    -- the boundary between answers
    ((u.lock C items).bind fromLocked).map (fun ls => ls.map (fun l => l.unlockQa C (utf8 "rexb") (utf8 "ern") (utf8 "blue")))
      = some [none, some u] ∧
    (u.lock C items).map (·.length) = some 230 := by
  decide +kernel

example : SameAnswer " Rex" "rEX  " :=
  ⟨[' '], ['R', 'e', 'x'], [], [], ['r', 'E', 'X'], [' ', ' '], by decide +kernel, by decide +kernel, by decide +kernel, by decide +kernel⟩

/-- Hypotheses of `C36_other_version_refused`, `C36_unknown_cipher_refused` and `C36_ext_fields_accepted` are met by actual
    bytes. -/
example :
    let b1 := enc (.arr (valsList [.str "hcsb1", .arr .nil, .bin []]));
    decodeBundle b1 = none ∧
    (let b2 := enc (.arr (valsList [.str "hcsb0", .arr (valsList [.arr (valsList [.str "zz"])]), .bin []]));
    decodeBundle b2 = none) ∧
    (let c : SeedCipher := .pw (B.fill 16 1) 8192 1 (B.fill 24 2) (B.fill 49 3);
     let b3 := enc (.arr (valsList [.str "hcsb0", sList (sCipherAs (.ext 1)) [c], .bin [9]]));
     decodeBundle b3 = some ⟨[c], [9]⟩) := by decide +kernel

end Lair
