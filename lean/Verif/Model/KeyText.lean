import Verif.Model.Hex
import Verif.Model.Credentials

/-! Model of the key-reading part of src/cli/credentials.rs (lines 352-403) and of the key texts of src/commands/gen_keys.rs. -/

namespace Rypt.KeyText

open Text Hex

/-- The messages of the errors below are fixed strings. src/util.rs:69-79. -/
def hexErr : ParseHexError → Err
  | .invalidChar _ => .other "invalid hex character"
  | .invalidLength => .other "odd number of hex characters"
  | .invalidChecksum _ => .other "invalid checksum"

/-- A `Result` of `util` as a `Fallible` result (`?`). src/cli/credentials.rs:354-356. -/
def liftHex : Except ParseHexError Bytes → Res Bytes
  | .ok b => .ok b
  | .error e => .err (hexErr e)

/-- src/cli/credentials.rs:352-358. -/
def tryParseHex (sha512 : Bytes → Bytes) (s : List Char) (skipChecksum : Bool) : Res Bytes :=
  if skipChecksum then liftHex (tryParseHexString s) else liftHex (tryParseHexStringChecksummed sha512 s)

/-- src/cli/credentials.rs:360-366. -/
def fromHex32 (sha512 : Bytes → Bytes) (line : List Char) (skipChecksum : Bool) : Res Bytes := do
  let bytes ← tryParseHex sha512 line skipChecksum
  if bytes.length = 32 then pure bytes else .err (.other "invalid key length")

/-- `dst.copy_from_slice(src)` for a destination of `n` bytes: panics on other lengths. src/cli/credentials.rs:385-386. -/
def copyFromSlice (n : Nat) (src : Bytes) : Res Bytes := if src.length = n then .ok src else .panic

/-- src/cli/credentials.rs:368-388. `PRIVATE_KEY_LEN` is 64, `PUBLIC_KEY_LEN` 32 (src/crypto/mod.rs). -/
def fromHex64PrivateKey (sha512 : Bytes → Bytes) (line : List Char) (skipChecksum : Bool) : Res Bytes := do
  let line := removeWhitespace line
  if strLen line ≠ 64 * 2 then .err (.other "invalid private key length")
  else
    let (privatePart, publicPart) ← strSplitAt line ((64 - 32) * 2)
    let privatePart ← tryParseHex sha512 privatePart skipChecksum
    let publicPart ← tryParseHex sha512 publicPart skipChecksum
    let a ← copyFromSlice 32 privatePart
    let b ← copyFromSlice 32 publicPart
    pure (a ++ b)

/-- `map(f).collect::<Fallible<Vec<_>>>()`: stops at the first error. src/cli/credentials.rs:399. -/
def collect {α β : Type} (f : α → Res β) : List α → Res (List β)
  | [] => .ok []
  | a :: rest => do
    let b ← f a
    let bs ← collect f rest
    pure (b :: bs)

/-- src/cli/credentials.rs:390-403. `content` is the file; `none` if it cannot be read. -/
def readFileLines (content : Option Bytes) (f : List Char → Res Credential) : Res (List Credential) :=
  match content with
  | none => .err .io
  | some bytes =>
    match fromUtf8 bytes with
    | .err _ => .err .io
    | .ok text => do
      let creds ← collect f ((lines text).map trim |>.filter (fun s => !s.isEmpty))
      if creds.isEmpty then .err (.other "file does not contain any keys") else pure creds

/-- src/cli/credentials.rs:261-266: the line function for password files. -/
def passwordLine (line : List Char) : Res Credential := .ok (.password (encode line))

/-- src/cli/credentials.rs:267-274: symmetric keys have no checksum. -/
def symmetricKeyLine (sha512 : Bytes → Bytes) (line : List Char) : Res Credential := do
  let k ← fromHex32 sha512 line true
  pure (.symmetricKey k)

/-- src/cli/credentials.rs:280-282: the line function for public key files. -/
def publicKeyLine (sha512 : Bytes → Bytes) (skipChecksum : Bool) (line : List Char) : Res Credential := do
  let k ← fromHex32 sha512 line skipChecksum
  pure (.publicKey k)

/-- src/cli/credentials.rs:301-306: the line function for private key files. -/
def privateKeyLine (sha512 : Bytes → Bytes) (skipChecksum : Bool) (line : List Char) : Res Credential := do
  let k ← fromHex64PrivateKey sha512 line skipChecksum
  pure (.privateKey k)

/-- src/commands/gen_keys.rs:38: the public key file. -/
def publicKeyText (sha512 : Bytes → Bytes) (pk : Bytes) : List Char := toHexStringChecksummed sha512 pk ++ ['\n']

/-- src/commands/gen_keys.rs:33-39: the private key file. Panics if the private key does not end with the public key. -/
def privateKeyText (sha512 : Bytes → Bytes) (pk sk : Bytes) : Res (List Char) :=
  if pk = sk.drop 32 then .ok (toHexStringChecksummed sha512 (sk.take 32) ++ publicKeyText sha512 pk) else .panic

end Rypt.KeyText
