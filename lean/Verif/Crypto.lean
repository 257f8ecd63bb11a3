import Verif.Basic

/-
The cryptographic primitives lair uses (through `sodoken`/libsodium), as an abstract interface with the
functional-correctness laws the code relies on. Nothing here is an axiom: every theorem takes the interface `C` and a
proof `L : C.Lawful` as arguments, and `toy` below is a concrete lawful instance (so the laws are consistent).
Computational security (unforgeability, secrecy) is NOT part of the laws.
-/

namespace Lair

/-- Primitives used by lair. Where the Rust call can return an error for some inputs the model returns `Option`.
    Code: sodoken, as called in lair_store.rs, encoding_types.rs, priv_srv.rs and priv_api.rs. -/
structure Crypto where
  /-- `sodoken::hash::blake2b::hash` with a 64 byte output (priv_srv.rs:44-45, lair_client.rs:565-575). -/
  blake2b64 : Bytes → B 64
  /-- `sodoken::hash::blake2b::hash` with a 32 byte output (internal/tls.rs). -/
  blake2b32 : Bytes → B 32
  /-- `sodoken::hash::argon2id::hash(out32, passphrase, salt, ops, mem)`; can fail (bad limits, memory). -/
  argon2id : Bytes → B 16 → UInt32 → UInt32 → Option (B 32)
  /-- `sodoken::kdf::derive_from_key(out, subkey_id, ctx, parent)`. -/
  kdf : B 32 → Nat → String → B 32
  /-- `sodoken::sign::seed_keypair`: public / secret part. -/
  edPk : B 32 → B 32
  edSk : B 32 → B 64
  /-- `sodoken::crypto_box::curve25519xchacha20poly1305::seed_keypair`: public / secret part. -/
  xPk : B 32 → B 32
  xSk : B 32 → B 32
  /-- `sodoken::sign::detached` / libsodium's verification. -/
  sign : B 64 → Bytes → B 64
  verify : B 32 → Bytes → B 64 → Bool
  /-- `crypto_box::curve25519xsalsa20poly1305::easy(nonce, msg, pk, sk)`; fails for a degenerate `pk`. -/
  box : B 24 → Bytes → B 32 → B 32 → Option Bytes
  /-- `open_easy(nonce, cipher, pk, sk)`; `none` = authentication failure. -/
  boxOpen : B 24 → Bytes → B 32 → B 32 → Option Bytes
  /-- `sodoken::secretbox::xsalsa20poly1305::{easy, open_easy}`. -/
  secretBox : B 24 → Bytes → B 32 → Bytes
  secretBoxOpen : B 24 → Bytes → B 32 → Option Bytes
  /-- One-message secretstream (`SecretStreamEncrypt::new` + `push_final`), given the 24 byte header it generated
      (encoding_types.rs:216-221, 264-269). -/
  ssEnc : B 32 → B 24 → Bytes → Bytes
  /-- One-message secretstream decryption (`SecretStreamDecrypt::new` + `pull`). -/
  ssDec : B 32 → B 24 → Bytes → Option Bytes
  /-- `sodoken::sign::ed25519_pk_to_curve25519`, fails for invalid points. -/
  edPkToX : B 32 → Option (B 32)
  /-- `sodoken::sign::ed25519_sk_to_curve25519`. -/
  edSkToX : B 64 → B 32
  /-- `(pk, sk)` is a Curve25519 key pair. Only used to state laws. -/
  IsXPair : B 32 → B 32 → Prop

/-- The laws of the primitives used in proofs. An assumption about libsodium; no .rs file of lair. -/
structure Crypto.Lawful (C : Crypto) : Prop where
  /-- A detached signature by a seed's key pair verifies. -/
  verify_sign : ∀ (s : B 32) (m : Bytes), C.verify (C.edPk s) m (C.sign (C.edSk s) m) = true
  /-- Key pairs from a seed, and their conversions from the signing key, are Curve25519 pairs. -/
  xpair : ∀ s, C.IsXPair (C.xPk s) (C.xSk s)
  edpair : ∀ s, ∃ pk, C.edPkToX (C.edPk s) = some pk ∧ C.IsXPair pk (C.edSkToX (C.edSk s))
  /-- `crypto_box` between two key pairs succeeds, adds 16 bytes, and is opened by the other side. -/
  box_open : ∀ n m pa sa pb sb, C.IsXPair pa sa → C.IsXPair pb sb →
    ∃ c, C.box n m pb sa = some c ∧ C.boxOpen n c pa sb = some m
  box_len : ∀ n m pk sk c, C.box n m pk sk = some c → c.length = m.length + 16
  boxOpen_len : ∀ n c pk sk m, C.boxOpen n c pk sk = some m → c.length = m.length + 16
  /-- `secretbox` round trip. -/
  secretBox_open : ∀ n m k, C.secretBoxOpen n (C.secretBox n m k) k = some m
  secretBox_len : ∀ n m k, (C.secretBox n m k).length = m.length + 16
  secretBoxOpen_len : ∀ n c k m, C.secretBoxOpen n c k = some m → c.length = m.length + 16
  /-- one-message secretstream round trip; ciphers are 17 bytes longer. -/
  ss_dec : ∀ k h m, C.ssDec k h (C.ssEnc k h m) = some m
  ss_len : ∀ k h m, (C.ssEnc k h m).length = m.length + 17
  ssDec_len : ∀ k h c m, C.ssDec k h c = some m → c.length = m.length + 17

/-- This very cipher opens, under two keys, to two different plaintexts: authentication has failed.
    Specification: nothing in the code corresponds. -/
def Crypto.OpensTwice (C : Crypto) (h : B 24) (c : Bytes) : Prop :=
  ∃ k k' m m', C.ssDec k h c = some m ∧ C.ssDec k' h c = some m' ∧ m ≠ m'

/-- The one-message secretstream commits to its key: a cipher opens to at most one plaintext, whatever keys are tried.
    (Not among the laws: libsodium does not promise it for adversarially chosen ciphers. Named where it is used.)
    An assumption about libsodium; no .rs file of lair. -/
def Crypto.Committing (C : Crypto) : Prop :=
  ∀ k k' h c m m', C.ssDec k h c = some m → C.ssDec k' h c = some m' → m = m'

/-! ### A concrete lawful instance -/

namespace Toy

/-- First `n` bytes, padded with zeros. For examples only: nothing in the code corresponds. -/
def pad (n : Nat) (b : Bytes) : B n :=
  ⟨(b ++ List.replicate n 0).take n, by simp⟩

/-- A commutative mixture of two byte strings. For examples only: nothing in the code corresponds. -/
def mix (a b : Bytes) : Bytes := List.zipWith (· + ·) a b

theorem mix_comm (a b : Bytes) : mix a b = mix b a := by
  unfold mix
  exact List.zipWith_comm_of_comm (fun x y => UInt8.add_comm x y)

/-- Authenticate by prefixing the tag. For examples only: nothing in the code corresponds. -/
def lock (tag : Bytes) (m : Bytes) : Bytes := tag ++ m

/-- Open: the tag must match. For examples only: nothing in the code corresponds. -/
def unlock (tag : Bytes) (c : Bytes) : Option Bytes :=
  if c.take tag.length = tag then some (c.drop tag.length) else none

@[simp] theorem unlock_lock (t m : Bytes) : unlock t (lock t m) = some m := by
  simp [unlock, lock]

theorem unlock_len {t c m : Bytes} (h : unlock t c = some m) : c.length = m.length + t.length := by
  unfold unlock at h
  split at h
  · rename_i h2
    cases h
    have : (c.take t.length).length = t.length := by rw [h2]
    simp at this ⊢
    omega
  · cases h

/-- hash: length byte followed by the content. For examples only: nothing in the code corresponds. -/
def hash (n : Nat) (b : Bytes) : B n := pad n (UInt8.ofNat b.length :: b)

/-- A lawful (insecure) instance in which tags depend on keys, so wrong keys are refused when they differ in the
    first bytes. For examples only: nothing in the code corresponds. -/
def crypto : Crypto where
  blake2b64 := hash 64
  blake2b32 := hash 32
  argon2id := fun p s ops mem =>
    if ops = 0 ∨ mem = 0 then none
    else some (pad 32 ((p.take 8) ++ (s.val.take 4) ++ [UInt8.ofNat ops.toNat, UInt8.ofNat mem.toNat]))
  kdf := fun k i ctx => pad 32 (UInt8.ofNat i :: UInt8.ofNat ctx.length :: k.val)
  edPk := fun s => s
  edSk := fun s => ⟨s.val ++ s.val, by simp [s.len]⟩
  xPk := fun s => s
  xSk := fun s => s
  sign := fun sk _ => sk
  verify := fun pk _ sig => decide (sig.val = pk.val ++ pk.val)
  box := fun _ m pk sk => some (lock (pad 16 (mix pk.val sk.val)).val m)
  boxOpen := fun _ c pk sk => unlock (pad 16 (mix pk.val sk.val)).val c
  secretBox := fun _ m k => lock (pad 16 k.val).val m
  secretBoxOpen := fun _ c k => unlock (pad 16 k.val).val c
  ssEnc := fun k _ m => lock (pad 17 k.val).val m
  ssDec := fun k _ c => unlock (pad 17 k.val).val c
  edPkToX := fun pk => some pk
  edSkToX := fun sk => pad 32 sk.val
  IsXPair := fun pk sk => pk = sk

theorem pad_self_append (s : B 32) : pad 32 (s.val ++ s.val) = s := by
  apply B.ext
  simp [pad, s.len]

/-- The laws are consistent. -/
theorem lawful : crypto.Lawful where
  verify_sign := by intro s m; simp [crypto]
  xpair := by intro s; simp [crypto]
  edpair := by intro s; refine ⟨s, rfl, ?_⟩; simp [crypto, pad_self_append]
  box_open := by
    intro n m pa sa pb sb ha hb
    cases ha; cases hb
    exact ⟨_, rfl, by simp [crypto, mix_comm pa.val pb.val]⟩
  box_len := by
    intro n m pk sk c h
    simp only [crypto, Option.some.injEq] at h
    subst h; simp [lock, (pad 16 _).len]; omega
  boxOpen_len := by
    intro n c pk sk m h
    have := unlock_len h
    simpa [(pad 16 _).len] using this
  secretBox_open := by intro n m k; simp [crypto]
  secretBox_len := by intro n m k; simp [crypto, lock, (pad 16 _).len]; omega
  secretBoxOpen_len := by
    intro n c k m h
    have := unlock_len h
    simpa [(pad 16 _).len] using this
  ss_dec := by intro k h m; simp [crypto]
  ss_len := by intro k h m; simp [crypto, lock, (pad 17 _).len]; omega
  ssDec_len := by
    intro k h c m hh
    have := unlock_len hh
    simpa [(pad 17 _).len] using this

theorem committing : crypto.Committing := by
  intro k k' h c m m' h1 h2
  have e : ∀ {t c m : Bytes}, unlock t c = some m → m = c.drop t.length := by
    intro t c m h
    unfold unlock at h
    split at h
    · cases h; rfl
    · cases h
  have a := e h1
  have b := e h2
  rw [a, b, (pad 17 k.val).len, (pad 17 k'.val).len]

end Toy
end Lair
