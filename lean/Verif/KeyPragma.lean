import Verif.Basic

/-
The text of the statements that hand the key and the salt to SQLCipher, and the name of the temporary database file:
crates/lair_keystore/src/store_sqlite.rs:507-559, 584-645. Texts are ASCII, so `char`s stand for bytes.
-/
namespace Lair.Pragma

/-- `KEY_PRAGMA` (store_sqlite.rs:508-509), 83 bytes. -/
def template : List Char :=
  "PRAGMA key = \"x'0000000000000000000000000000000000000000000000000000000000000000'\";".toList

/-- One digit of `{:02X}`. Code: store_sqlite.rs:512-531. -/
def upperHex (n : Nat) : Char := if n < 10 then Char.ofNat (48 + n) else Char.ofNat (55 + n)

/-- `format!("{b:02X}")`. Code: store_sqlite.rs:512-531. -/
def hexByte (b : UInt8) : List Char := [upperHex (b.toNat / 16), upperHex (b.toNat % 16)]

/-- `write!(c, …)` with `c : Cursor<&mut [u8]>` at position `pos`: overwrites, and fails when the slice is full.
    Code: store_sqlite.rs:512-531. -/
def cursorWrite (buf : List Char) (pos : Nat) (chunk : List Char) : Res (List Char × Nat) :=
  if pos + chunk.length ≤ buf.length then
    .ok (buf.take pos ++ chunk ++ buf.drop (pos + chunk.length), pos + chunk.length)
  else .error "failed to write whole buffer"

/-- The loop of `secure_write_key_pragma` (store_sqlite.rs:525-527). -/
def writeKey (buf : List Char) (pos : Nat) : Bytes → Res (List Char)
  | [] => .ok buf
  | b :: bs =>
    match cursorWrite buf pos (hexByte b) with
    | .ok (buf, pos) => writeKey buf pos bs
    | .error e => .error e

/-- `secure_write_key_pragma` (store_sqlite.rs:512-531): the digits go into `key_pragma[16..80]`. -/
def keyPragma (key : B 32) : Res (List Char) :=
  match writeKey ((template.drop 16).take 64) 0 key.val with
  | .ok mid => .ok (template.take 16 ++ mid ++ template.drop 80)
  | .error e => .error e

/-- The `KEY` argument of `ATTACH DATABASE`: `&lock[14..81]` (store_sqlite.rs:632-639). -/
def attachKey (pragma : List Char) : List Char := (pragma.drop 14).take 67

/-- `set_salt` (store_sqlite.rs:547-559). -/
def saltPragma (name : String) (salt : B 16) : List Char :=
  "PRAGMA ".toList ++ name.toList ++ " = \"x'".toList ++ (salt.val.map hexByte).flatten ++ "'\";".toList

/-! ### Name of the temporary file -/

/-- `Path::file_stem` / `Path::extension` on a file name other than `..`: split at the last `.`, unless that is the first character or
    there is none. std, as used at store_sqlite.rs:584-668. -/
def splitExt (name : List Char) : List Char × Option (List Char) :=
  match name.reverse.dropWhile (· ≠ '.') with
  | [] => (name, none)
  | [_] => (name, none)
  | _ :: stem => (stem.reverse, some (name.reverse.takeWhile (· ≠ '.')).reverse)

/-- store_sqlite.rs:590-607, the last component: `store_file` → `store_file-encrypted`, `a.db` → `a-encrypted.db`. -/
def encryptedName (name : List Char) : List Char :=
  match splitExt name with
  | (stem, none) => stem ++ "-encrypted".toList
  | (stem, some ext) => stem ++ "-encrypted".toList ++ '.' :: ext

end Lair.Pragma
