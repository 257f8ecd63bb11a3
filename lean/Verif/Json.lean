import Verif.Base64
import Verif.Fallback

/-
The text the server and the signature fallback program exchange: one JSON object per line (lair_server.rs:233-245 and :273-335), written by
`serde_json::to_string`, read by `serde_json::from_str` into a derived struct.

Texts are lists of characters (UTF-8 decoding of the pipe is not modelled; a line that is not UTF-8 ends the read loop like the
end of the output does). `serde_json` is modelled from its documentation and RFC 8259: which strings it writes, and which texts
it accepts.
-/
namespace Lair.Json

/-! ### Standard base64 (`BASE64_STANDARD`, padded) -/

/-- The URL-safe base64 alphabet read as the standard one. The base64 crate, as used at lair_server.rs:300-335. -/
def toStd (c : Char) : Char := if c = '-' then '+' else if c = '_' then '/' else c

/-- Symbols of the other alphabet are refused (`=` is in no alphabet).
    The base64 crate, as used at lair_server.rs:300-335. -/
def ofStd (c : Char) : Char := if c = '+' then '-' else if c = '/' then '_' else if c = '-' ∨ c = '_' then '=' else c

/-- `BASE64_STANDARD.encode` (lair_server.rs:235-236). -/
def encodeStd (b : Bytes) : List Char :=
  let body := (Base64.encode b).map toStd
  body ++ List.replicate ((4 - body.length % 4) % 4) '='

/-- Up to two padding characters at the end are dropped. The base64 crate, as used at lair_server.rs:300-335. -/
def dropPad (s : List Char) : List Char :=
  match s.reverse with
  | '=' :: '=' :: r => r.reverse
  | '=' :: r => r.reverse
  | _ => s

/-- `BASE64_STANDARD.decode` (lair_server.rs:304-308): padding is required and canonical. -/
def decodeStd (s : List Char) : Option Bytes :=
  if s.length % 4 = 0 then Base64.decode ((dropPad s).map ofStd) else none

/-! ### Writing -/

/-- A lower-case hexadecimal digit. serde_json, as used at lair_server.rs:220-300. -/
def hexDigit (n : Nat) : Char := if n < 10 then Char.ofNat (48 + n) else Char.ofNat (87 + n)

/-- How `serde_json` writes a character of a string. serde_json, as used at lair_server.rs:220-300. -/
def escChar (c : Char) : List Char :=
  if c = '"' then ['\\', '"']
  else if c = '\\' then ['\\', '\\']
  else if c.toNat = 8 then ['\\', 'b']
  else if c.toNat = 9 then ['\\', 't']
  else if c.toNat = 10 then ['\\', 'n']
  else if c.toNat = 12 then ['\\', 'f']
  else if c.toNat = 13 then ['\\', 'r']
  else if c.toNat < 32 then ['\\', 'u', '0', '0', hexDigit (c.toNat / 16), hexDigit (c.toNat % 16)]
  else [c]

/-- A JSON string as serde_json writes it (lair_server.rs:233-245). -/
def writeStr (s : List Char) : List Char := '"' :: (s.flatMap escChar ++ ['"'])

/-- An object whose values are strings. serde_json, as used at lair_server.rs:220-300. -/
def writeFields : List (String × List Char) → List Char
  | [] => []
  | [(k, v)] => writeStr k.toList ++ ':' :: writeStr v
  | (k, v) :: rest => writeStr k.toList ++ ':' :: (writeStr v ++ ',' :: writeFields rest)

/-- The fields of a request (lair_server.rs:239-243). -/
def requestFields (id : String) (pk : B 32) (data : Bytes) : List (String × List Char) :=
  [("msgId", id.toList), ("pubKey", Base64.encode pk.val), ("dataToSign", encodeStd data)]

/-- The line written to the program, with the fields in some order (the order depends on how `serde_json` is configured), without
    the newline. Code: lair_server.rs:220-271. -/
def requestLine (fs : List (String × List Char)) : List Char := '{' :: (writeFields fs ++ ['}'])

/-! ### Reading -/

/-- What is between the quotes: characters, and `\u` escapes. serde_json, as used at lair_server.rs:220-300. -/
inductive JUnit where
  | ch (c : Char)
  | u (n : Nat)
deriving DecidableEq

/-- JSON values as far as the code looks at them (lair_server.rs:280-296). -/
inductive JVal where
  | null
  | bool (b : Bool)
  | num
  | str (s : List JUnit)
  | arr (l : List JVal)
  | obj (l : List (List JUnit × JVal))

/-- JSON white space. serde_json, as used at lair_server.rs:220-300. -/
def isWs (c : Char) : Bool := c == ' ' || c == '\n' || c == '\t' || c == '\r'

/-- Skip white space. serde_json, as used at lair_server.rs:220-300. -/
def skipWs (cs : List Char) : List Char := cs.dropWhile isWs

/-- The value of a hexadecimal digit. serde_json, as used at lair_server.rs:220-300. -/
def hexVal (c : Char) : Option Nat :=
  let n := c.toNat
  if 48 ≤ n ∧ n ≤ 57 then some (n - 48)
  else if 97 ≤ n ∧ n ≤ 102 then some (n - 87)
  else if 65 ≤ n ∧ n ≤ 70 then some (n - 55)
  else none

/-- The value of four hexadecimal digits (`\\u`). serde_json, as used at lair_server.rs:220-300. -/
def hex4 (a b c d : Char) : Option Nat :=
  match hexVal a, hexVal b, hexVal c, hexVal d with
  | some a, some b, some c, some d => some (a * 4096 + b * 256 + c * 16 + d)
  | _, _, _, _ => none

/-- The one-letter escapes of JSON strings. serde_json, as used at lair_server.rs:220-300. -/
def simpleEsc (c : Char) : Option Char :=
  if c = '"' ∨ c = '\\' ∨ c = '/' then some c
  else if c = 'b' then some (Char.ofNat 8)
  else if c = 'f' then some (Char.ofNat 12)
  else if c = 'n' then some '\n'
  else if c = 'r' then some '\r'
  else if c = 't' then some '\t'
  else none

/-- One more unit of a string, if there is one. serde_json, as used at lair_server.rs:220-300. -/
def unit? (u : Option JUnit) (r : Option (List JUnit × List Char)) : Option (List JUnit × List Char) :=
  match u, r with
  | some u, some (us, r) => some (u :: us, r)
  | _, _ => none

/-- After the opening quote. serde_json, as used at lair_server.rs:220-300. -/
def parseUnits : List Char → Option (List JUnit × List Char)
  | [] => none
  | [c] => if c = '"' then some ([], []) else none
  | c :: e :: r =>
    if c = '"' then some ([], e :: r)
    else if c = '\\' then
      if e = 'u' then
        match r with
        | w :: x :: y :: z :: r' => unit? ((hex4 w x y z).map .u) (parseUnits r')
        | _ => none
      else unit? ((simpleEsc e).map .ch) (parseUnits r)
    else if c.toNat < 32 then none
    else unit? (some (.ch c)) (parseUnits (e :: r))

/-- The characters; a surrogate that is not part of a pair is refused.
    serde_json, as used at lair_server.rs:220-300. -/
def toChars : List JUnit → Option (List Char)
  | [] => some []
  | .ch c :: r => (toChars r).map (c :: ·)
  | [.u n] => if n < 0xD800 ∨ 0xE000 ≤ n then some [Char.ofNat n] else none
  | .u n :: x :: r =>
    if n < 0xD800 ∨ 0xE000 ≤ n then (toChars (x :: r)).map (Char.ofNat n :: ·)
    else match x with
      | .u m => if n < 0xDC00 ∧ 0xDC00 ≤ m ∧ m < 0xE000 then (toChars r).map (Char.ofNat (0x10000 + (n - 0xD800) * 1024 + (m - 0xDC00)) :: ·) else none
      | .ch _ => none

/-- A decimal digit. serde_json, as used at lair_server.rs:220-300. -/
def isDigit (c : Char) : Bool := 48 ≤ c.toNat && c.toNat ≤ 57

/-- At least one digit. serde_json, as used at lair_server.rs:220-300. -/
def digits1 (cs : List Char) : Option (List Char) :=
  match cs with
  | c :: r => if isDigit c then some (r.dropWhile isDigit) else none
  | [] => none

/-- The exponent of a number. serde_json, as used at lair_server.rs:220-300. -/
def parseExp (cs : List Char) : Option (List Char) :=
  match cs with
  | c :: r =>
    if c = 'e' ∨ c = 'E' then
      match r with
      | s :: r' => if s = '+' ∨ s = '-' then digits1 r' else digits1 r
      | [] => none
    else some cs
  | [] => some []

/-- The fraction of a number. serde_json, as used at lair_server.rs:220-300. -/
def parseFrac (cs : List Char) : Option (List Char) :=
  match cs with
  | c :: r => if c = '.' then (digits1 r).bind parseExp else parseExp cs
  | [] => some []

/-- The integer part of a number: no leading zero. serde_json, as used at lair_server.rs:220-300. -/
def parseInt (cs : List Char) : Option (List Char) :=
  match cs with
  | c :: r => if c = '0' then (match r with
        | d :: _ => if isDigit d then none else parseFrac r
        | [] => some [])
      else if isDigit c then parseFrac (r.dropWhile isDigit) else none
  | [] => none

/-- A number; its value is never used. serde_json, as used at lair_server.rs:220-300. -/
def parseNum (cs : List Char) : Option (List Char) :=
  match cs with
  | c :: r => if c = '-' then parseInt r else parseInt cs
  | [] => none

mutual
/-- A value, perhaps after white space. The first argument bounds the depth of the recursion; the length of the text is enough.
    serde_json, as used at lair_server.rs:220-300. -/
def parseVal : Nat → List Char → Option (JVal × List Char)
  | 0, _ => none
  | n + 1, cs =>
    match skipWs cs with
    | [] => none
    | c :: r =>
      if c = '"' then (parseUnits r).map (fun p => (.str p.1, p.2))
      else if c = '{' then
        match skipWs r with
        | [] => none
        | d :: r' => if d = '}' then some (.obj [], r') else (parseMembers n (d :: r')).map (fun p => (.obj p.1, p.2))
      else if c = '[' then
        match skipWs r with
        | [] => none
        | d :: r' => if d = ']' then some (.arr [], r') else (parseElems n (d :: r')).map (fun p => (.arr p.1, p.2))
      else if ['n', 'u', 'l', 'l'].isPrefixOf (c :: r) then some (.null, (c :: r).drop 4)
      else if ['t', 'r', 'u', 'e'].isPrefixOf (c :: r) then some (.bool true, (c :: r).drop 4)
      else if ['f', 'a', 'l', 's', 'e'].isPrefixOf (c :: r) then some (.bool false, (c :: r).drop 5)
      else (parseNum (c :: r)).map (fun r => (.num, r))
/-- The rest of an object. serde_json, as used at lair_server.rs:220-300. -/
def parseMembers : Nat → List Char → Option (List (List JUnit × JVal) × List Char)
  | 0, _ => none
  | n + 1, cs =>
    match skipWs cs with
    | [] => none
    | c :: r =>
      if c = '"' then
        match parseUnits r with
        | none => none
        | some (key, r) =>
          match skipWs r with
          | [] => none
          | c :: r =>
            if c = ':' then
              match parseVal n r with
              | none => none
              | some (v, r) =>
                match skipWs r with
                | [] => none
                | c :: r =>
                  if c = '}' then some ([(key, v)], r)
                  else if c = ',' then (parseMembers n r).map (fun p => ((key, v) :: p.1, p.2))
                  else none
            else none
      else none
/-- The rest of an array. serde_json, as used at lair_server.rs:220-300. -/
def parseElems : Nat → List Char → Option (List JVal × List Char)
  | 0, _ => none
  | n + 1, cs =>
    match parseVal n cs with
    | none => none
    | some (v, r) =>
      match skipWs r with
      | [] => none
      | c :: r =>
        if c = ']' then some ([v], r)
        else if c = ',' then (parseElems n r).map (fun p => (v :: p.1, p.2))
        else none
end

/-- A text that is one value. serde_json, as used at lair_server.rs:220-300. -/
def parse (cs : List Char) : Option JVal :=
  match parseVal (cs.length + 1) cs with
  | some (v, r) => if skipWs r = [] then some v else none
  | none => none

/-! ### Replies -/

/-- `Arc<str>` / `String`. serde_json, as used at lair_server.rs:220-300. -/
def JVal.string? : JVal → Option (List Char)
  | .str s => toChars s
  | _ => none

/-- `Option<String>`. serde_json, as used at lair_server.rs:220-300. -/
def JVal.optString? : JVal → Option (Option (List Char))
  | .null => some none
  | v => v.string?.map some

/-- What has been read of the struct `Res` (lair_server.rs:280-286); the outer option says whether the field was there. -/
structure ResAcc where
  msgId : Option (List Char)
  signature : Option (Option (List Char))
  error : Option (Option (List Char))

/-- A field: a second one of the same name is refused, one of another name is ignored.
    Code: lair_server.rs:282-300. -/
def ResAcc.add (a : ResAcc) (key : List Char) (v : JVal) : Option ResAcc :=
  if key = "msgId".toList then
    match a.msgId, v.string? with
    | none, some s => some { a with msgId := some s }
    | _, _ => none
  else if key = "signature".toList then
    match a.signature, v.optString? with
    | none, some s => some { a with signature := some s }
    | _, _ => none
  else if key = "error".toList then
    match a.error, v.optString? with
    | none, some s => some { a with error := some s }
    | _, _ => none
  else some a

/-- All fields of the object in turn (serde's derived visitor for the response struct, lair_server.rs:280-286). -/
def ResAcc.addAll (a : ResAcc) : List (List JUnit × JVal) → Option ResAcc
  | [] => some a
  | (k, v) :: rest =>
    match toChars k with
    | none => none
    | some k =>
      match a.add k v with
      | none => none
      | some a => a.addAll rest

/-- The derived `Deserialize` of `Res`: an object, or an array of exactly the three fields.
    Code: lair_server.rs:282-300. -/
def resOf : JVal → Option (List Char × Option (List Char) × Option (List Char))
  | .obj fs =>
    match ResAcc.addAll ⟨none, none, none⟩ fs with
    | some ⟨some id, sig, err⟩ => some (id, sig.join, err.join)
    | _ => none
  | .arr [a, b, c] =>
    match a.string?, b.optString?, c.optString? with
    | some id, some sig, some err => some (id, sig, err)
    | _, _, _ => none
  | _ => none

/-- What the read loop makes of a line (lair_server.rs:287-331). -/
def replyLine (cs : List Char) : FbLine :=
  match (parse cs).bind resOf with
  | none => .malformed
  | some (id, sig, err) => .reply (String.ofList id) (sig.map decodeStd) (err.map String.ofList)

/-- `lines()` of tokio: the text is cut at each newline, a carriage return before it is dropped; a last line without newline counts if it
    is not empty. tokio, as used at lair_server.rs:274-280. -/
def stripCr (l : List Char) : List Char := if l.getLast? = some '\r' then l.dropLast else l

/-- `BufReader::lines` (lair_server.rs:276-278): `acc` is the line so far. -/
def linesFrom (acc : List Char) : List Char → List (List Char)
  | [] => if acc = [] then [] else [acc]
  | c :: r => if c = '\n' then stripCr acc :: linesFrom [] r else linesFrom (acc ++ [c]) r

/-- The lines of the child's output (lair_server.rs:276-278). -/
def lines (cs : List Char) : List (List Char) := linesFrom [] cs

end Lair.Json
