/-
Basic vocabulary shared by all modules of the model.

* `Bytes`    models `Vec<u8>`, `Box<[u8]>`, `Arc<[u8]>` (immutable values suffice).
* `B n`      models `BinDataSized<N>` / `[u8; N]` / `BufReadSized<N>`
             (crates/lair_keystore_api/src/encoding_types.rs:94-177): a byte string with its length in the type.
* `Res α`    models `LairResult<α>` (lair_keystore_api/src/lib.rs); `one_err::OneErr` is reduced to its text.
-/

namespace Lair

/-- Byte strings: `Arc<[u8]>`, `Box<[u8]>`, `Vec<u8>`. Code: encoding_types.rs:21, and wherever bytes are carried. -/
abbrev Bytes := List UInt8

/-- A byte string of exactly `n` bytes (`BinDataSized<N>`, encoding_types.rs:94-177). -/
structure B (n : Nat) where
  val : Bytes
  len : val.length = n
deriving DecidableEq

theorem B.ext {n : Nat} {a b : B n} (h : a.val = b.val) : a = b := by
  cases a; cases b; cases h; rfl

/-- `[x; N]`: a constant byte string. Code: encoding_types.rs:94-177. -/
def B.fill (n : Nat) (x : UInt8) : B n := ⟨List.replicate n x, by simp⟩

/-- `TryFrom<&[u8]> for BinDataSized<N>`: accept exactly `n` bytes. Code: encoding_types.rs:94-177. -/
def B.ofBytes? (n : Nat) (b : Bytes) : Option (B n) :=
  if h : b.length = n then some ⟨b, h⟩ else none

@[simp] theorem B.ofBytes?_val {n : Nat} (b : B n) : B.ofBytes? n b.val = some b := by
  simp [B.ofBytes?, b.len]

theorem B.ofBytes?_eq_some {n : Nat} {b : Bytes} {x : B n} :
    B.ofBytes? n b = some x ↔ b = x.val := by
  unfold B.ofBytes?
  constructor
  · intro h; split at h
    · cases h; rfl
    · cases h
  · intro h; subst h; simp [x.len]

instance (n : Nat) : Inhabited (B n) := ⟨B.fill n 0⟩

/-- `LairResult<T>`. std, used in every .rs file of lair. -/
abbrev Res (α : Type) := Except String α

instance {α : Type} [DecidableEq α] : DecidableEq (Res α) := fun a b =>
  match a, b with
  | .ok x, .ok y => if h : x = y then isTrue (by rw [h]) else isFalse (by intro e; cases e; exact h rfl)
  | .error x, .error y => if h : x = y then isTrue (by rw [h]) else isFalse (by intro e; cases e; exact h rfl)
  | .ok _, .error _ => isFalse (by intro e; cases e)
  | .error _, .ok _ => isFalse (by intro e; cases e)

/-- `Result::is_ok`. std, used in every .rs file of lair. -/
def Res.isOk {α : Type} : Res α → Bool
  | .ok _ => true
  | .error _ => false

/-- `Option::ok_or_else`. std, used in every .rs file of lair. -/
def Res.ofOption {α : Type} (err : String) : Option α → Res α
  | some a => .ok a
  | none => .error err

@[simp] theorem Res.ofOption_some {α : Type} (err : String) (a : α) : Res.ofOption err (some a) = .ok a := rfl
@[simp] theorem Res.ofOption_none {α : Type} (err : String) : Res.ofOption (α := α) err none = .error err := rfl

theorem Res.ofOption_eq_ok {α : Type} {err : String} {o : Option α} {a : α} :
    Res.ofOption err o = .ok a ↔ o = some a := by
  cases o <;> simp [Res.ofOption]

end Lair
