import Verif.Msgpack
import Verif.Base64
import Verif.Entry
import Verif.PwLimits

/-
Server configuration: crates/lair_keystore_api/src/config.rs, and the part of crates/lair_keystore_api/src/lair_server/
priv_srv.rs:34-106 that opens it.

Not modelled: the YAML format itself (serde_yaml), file-system effects of `canonicalize`, Windows. URLs are modelled as the
`url` crate treats a `unix` URL: tab and line ends are dropped, `#` starts the fragment, `?` the query, other characters are
percent-encoded where needed; dot segments (which canonical paths do not have) are not modelled.
-/
namespace Lair

/-! ### URLs, as bytes -/
namespace Url

/-- `%XY`. The url crate, as used at config.rs:277-323. -/
def hexDigit (n : Nat) : UInt8 := if n < 10 then UInt8.ofNat (48 + n) else UInt8.ofNat (55 + n)

/-- Value of a hexadecimal digit. The url crate, as used at config.rs:277-323. -/
def hexVal (b : UInt8) : Option Nat :=
  if 48 ≤ b.toNat ∧ b.toNat ≤ 57 then some (b.toNat - 48)
  else if 65 ≤ b.toNat ∧ b.toNat ≤ 70 then some (b.toNat - 55)
  else if 97 ≤ b.toNat ∧ b.toNat ≤ 102 then some (b.toNat - 87)
  else none

/-- The path percent-encode set: controls, space, `"#<>?`{}` and non-ASCII.
    The url crate, as used at config.rs:277-323. -/
def pathSet (b : UInt8) : Bool :=
  b.toNat ≤ 0x20 || 0x7f ≤ b.toNat || b == 0x22 || b == 0x23 || b == 0x3c || b == 0x3e || b == 0x3f || b == 0x60 || b == 0x7b || b == 0x7d

/-- The query percent-encode set. The url crate, as used at config.rs:277-323. -/
def querySet (b : UInt8) : Bool := b.toNat ≤ 0x20 || 0x7f ≤ b.toNat || b == 0x22 || b == 0x23 || b == 0x3c || b == 0x3e

/-- Percent-encoding of the bytes in `set` (the `url` crate, used by config.rs:310-319). -/
def pctEncode (set : UInt8 → Bool) : Bytes → Bytes
  | [] => []
  | b :: bs => if set b then 0x25 :: hexDigit (b.toNat / 16) :: hexDigit (b.toNat % 16) :: pctEncode set bs else b :: pctEncode set bs

/-- A `%` not followed by two hexadecimal digits stays. The url crate, as used at config.rs:277-323. -/
def pctDecode : Bytes → Bytes
  | 0x25 :: x :: y :: rest =>
    match hexVal x, hexVal y with
    | some a, some b => UInt8.ofNat (16 * a + b) :: pctDecode rest
    | _, _ => 0x25 :: pctDecode (x :: y :: rest)
  | b :: rest => b :: pctDecode rest
  | [] => []
termination_by b => b.length

end Url

/-- A parsed `unix` URL: percent-encoded path and query. The url crate, as used at config.rs:277-323. -/
structure Url where
  path : Bytes
  query : Option Bytes
deriving DecidableEq

namespace Url

/-- Characters the URL parser drops: tab, LF, CR. The url crate, as used at config.rs:277-323. -/
def dropped (b : UInt8) : Bool := b == 9 || b == 10 || b == 13

/-- `Url::parse("unix://" ++ rest)`, for `rest` starting with `/`. The url crate, as used at config.rs:277-323. -/
def ofText (rest : Bytes) : Url :=
  let s := (rest.filter (fun b => !dropped b)).takeWhile (· != 0x23)
  { path := pctEncode pathSet (s.takeWhile (· != 0x3f)),
    query := match s.dropWhile (· != 0x3f) with
      | [] => none
      | _ :: q => some (pctEncode querySet q) }

/-- The text after `unix://` (how the URL is stored in the configuration file).
    The url crate, as used at config.rs:277-323. -/
def text (u : Url) : Bytes :=
  match u.query with
  | none => u.path
  | some q => u.path ++ 0x3f :: q

/-- `get_connection_path` = `to_file_path` (config.rs:295-308). -/
def filePath (u : Url) : Bytes := pctDecode u.path

/-- Split at a byte. The url crate, as used at config.rs:277-323. -/
def splitOn (c : UInt8) : Bytes → List Bytes
  | [] => [[]]
  | b :: bs =>
    if b = c then [] :: splitOn c bs
    else
      match splitOn c bs with
      | [] => [[b]]
      | p :: ps => (b :: p) :: ps

/-- `+` is a space in a query. The url crate, as used at config.rs:277-323. -/
def formDecode (b : Bytes) : Bytes := pctDecode (b.map (fun x => if x = 0x2b then 0x20 else x))

/-- One `name=value` piece of a query. The url crate, as used at config.rs:277-323. -/
def pair (p : Bytes) : Bytes × Bytes :=
  (formDecode (p.takeWhile (· != 0x3d)), formDecode ((p.dropWhile (· != 0x3d)).drop 1))

/-- `query_pairs`: pieces between `&`, empty ones skipped, split at the first `=`.
    The url crate, as used at config.rs:277-323. -/
def queryPairs (u : Url) : List (Bytes × Bytes) :=
  match u.query with
  | none => []
  | some q => ((splitOn 0x26 q).filter (· ≠ [])).map pair

/-- `get_server_pub_key_from_connection_url` (config.rs:310-319). -/
def serverPubKey (u : Url) : Option (B 32) :=
  match u.queryPairs.find? (fun p => p.1 = [0x6b]) with
  | none => none
  | some p =>
    match Mp.ofUtf8 p.2 with
    | some s => Base64.ofTextSized 32 s
    | none => none

end Url

/-! ### Generating and opening a configuration -/

/-- `LairServerConfigInner` (config.rs:36-73). -/
structure Config where
  url : Url
  pidFile : Bytes
  storeFile : Bytes
  /-- `signature_fallback` is a command -/
  hasFallback : Bool
  dbSalt : B 16
  salt : B 16
  mem : UInt32
  ops : UInt32
  contextKey : SecretSized 49
  idSeed : SecretSized 49

/-- The random values of `LairServerConfigInner::new`. Code: config.rs:136-275. -/
structure ConfigRand where
  dbSalt : B 16
  salt : B 16
  contextKey : B 32
  idSeed : B 32
  hdrKey : B 24
  hdrSeed : B 24

/-- `PathBuf::push` of a relative name: one separator, unless there is already one or the path is empty.
    std, as used at config.rs:136-160. -/
def pushPath (p : Bytes) (name : String) : Bytes :=
  if p = [] ∨ p.getLast? = some 0x2f then p ++ Mp.utf8 name else p ++ 0x2f :: Mp.utf8 name

/-- `LairServerConfigInner::new` (config.rs:134-274). `root` is the path given, `canon` its canonical form; both as bytes. -/
def Config.new (C : Crypto) (L : C.Lawful) (root canon : Bytes) (pass : Bytes) (limits : PwHashLimits) (r : ConfigRand) : Option Config :=
  match C.argon2id (C.blake2b64 pass).val r.salt limits.ops limits.mem with
  | none => none
  | some pre => some {
      url := Url.ofText (pushPath canon "socket" ++ Mp.utf8 "?k=" ++ Mp.utf8 (Base64.toText (C.xPk r.idSeed).val)),
      pidFile := pushPath root "pid_file",
      storeFile := pushPath root "store_file",
      hasFallback := false,
      dbSalt := r.dbSalt,
      salt := r.salt,
      mem := limits.mem,
      ops := limits.ops,
      contextKey := SecretSized.encrypt C L (C.kdf pre 42 "CtxSecKy") r.hdrKey r.contextKey,
      idSeed := SecretSized.encrypt C L (C.kdf pre 142 "IdnSecKy") r.hdrSeed r.idSeed }

/-- What `Srv::new` computes from a configuration and a passphrase (priv_srv.rs:42-103): the store's key and the server's
    identity key pair. -/
structure SrvKeys where
  contextKey : B 32
  idPk : B 32
  idSk : B 32
deriving DecidableEq

/-- priv_srv.rs:34-103 -/
def Config.unlock (C : Crypto) (cfg : Config) (pass : Bytes) : Option SrvKeys :=
  match C.argon2id (C.blake2b64 pass).val cfg.salt cfg.ops cfg.mem with
  | none => none
  | some pre =>
    match cfg.contextKey.decrypt (m := 32) C (C.kdf pre 42 "CtxSecKy") with
    | none => none
    | some ctx =>
      match cfg.idSeed.decrypt (m := 32) C (C.kdf pre 142 "IdnSecKy") with
      | none => none
      | some seed => some ⟨ctx, C.xPk seed, C.xSk seed⟩

/-! ### Printing (config.rs:75-126) -/

/-- A line of the configuration text, without its end. Code: config.rs:75-126. -/
abbrev Line := List Char

/-- `s.split('\n')`. Code: config.rs:75-126. -/
def splitLines : List Char → List Line
  | [] => [[]]
  | c :: cs =>
    if c = '\n' then [] :: splitLines cs
    else
      match splitLines cs with
      | [] => [[c]]
      | l :: ls => (c :: l) :: ls

/-- `lines.join("\n")`. Code: config.rs:75-126. -/
def joinLines : List Line → List Char
  | [] => []
  | [l] => l
  | l :: l' :: ls => l ++ '\n' :: joinLines (l' :: ls)

/-- The lines put before a line (config.rs:83-119). -/
def commentsFor (line : Line) : List String :=
  if "connectionUrl:".toList.isPrefixOf line then
    ["", "# The connection url for communications between server / client.", "# - `unix:///path/to/unix/socket?k=Yada`",
      "# - `named_pipe:\\\\.\\pipe\\my_pipe_name?k=Yada`", "# - (not yet supported) `tcp://127.0.0.1:12345?k=Yada`"]
  else if "pidFile:".toList.isPrefixOf line then ["", "# The pid file for managing a running lair-keystore process"]
  else if "storeFile:".toList.isPrefixOf line then ["", "# The sqlcipher store file for persisting secrets"]
  else if "signatureFallback:".toList.isPrefixOf line then
    ["", "# Configuration for managing sign_by_pub_key fallback", "# in case the pub key does not exist in the lair store.",
      "# - `signatureFallback: none`", "# - ```", "#   signatureFallback: !command",
      "#     # 'program' will resolve to a path, specifying 'echo'", "#     # will try to run './echo', probably not what you want.",
      "#     program: \"./my-executable\"", "#     # args are optional", "#     args:", "#       - test-arg1", "#       - test-arg2", "#   ```"]
  else if "databaseSalt:".toList.isPrefixOf line then
    ["", "# -- cryptographic secrets --", "# If you modify the data below, you risk losing access to your keys."]
  else []

/-- The lines after the first. Code: config.rs:75-126. -/
def decorate : List Line → List Line
  | [] => []
  | l :: ls => (commentsFor l).map String.toList ++ l :: decorate ls

/-- `Display` from the serialised text: the first line gets no comment. Code: config.rs:75-126. -/
def displayLines : List Line → List Line
  | [] => []
  | l :: ls => l :: decorate ls

/-- `impl Display for LairServerConfigInner` (config.rs:75-126): explanations put between the lines of the YAML text. -/
def display (yaml : List Char) : List Char := joinLines (displayLines (splitLines yaml))

end Lair
