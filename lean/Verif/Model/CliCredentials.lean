import Verif.Model.Getopts
import Verif.Model.KeyText
import Verif.Model.Passwords

/-! Model of src/cli/credentials.rs: from the options on the command line to credentials. -/

namespace Rypt.Cli

open Getopts UI KeyText

/-- What the parser of credentials takes from outside: the hash function of `libsodium` (it is only known
to give 64 bytes), and the contents of files
(`fs::read_to_string`; a file is read at most once per mention, its content does not change meanwhile).
src/util.rs:43, src/cli/credentials.rs:394. -/
structure Env where
  sha512 : Bytes → Bytes
  sha512_length : ∀ b, (sha512 b).length = 64
  readFile : List Char → Option Bytes

/-- src/cli/credentials.rs:69-85. -/
inductive Token where
  | keyThreshold (n : Nat)
  | requireAllKeys
  | keyShares (n : Nat)
  | startGroup
  | endGroup
  | interactivePassword
  | namedInteractivePassword (name : List Char)
  | passwordFile (path : List Char)
  | symmetricKeyFile (path : List Char)
  | publicKeyFile (path : List Char)
  | publicKeyText (text : List Char)
  | privateKeyFile (path : List Char)
  deriving DecidableEq, Repr

/-- The digits of `usize::from_str`, most significant first: `none` for anything else or a value of 2^64 and more.
src/cli/credentials.rs:113 `val.parse()`. -/
def parseDigits (acc : Nat) : List Char → Option Nat
  | [] => some acc
  | c :: rest =>
    if c.isDigit then
      if acc * 10 + (c.toNat - '0'.toNat) < 2 ^ 64 then parseDigits (acc * 10 + (c.toNat - '0'.toNat)) rest else none
    else none

/-- `str::parse::<usize>()`: at least one digit, possibly after a `+`. src/cli/credentials.rs:113. -/
def parseUsize : List Char → Option Nat
  | [] => none
  | ['+'] => none
  | '+' :: rest => parseDigits 0 rest
  | s => parseDigits 0 s

/-- src/cli/credentials.rs:94-104: options without value. -/
def flagTokens (m : Matches) : List (Nat × Token) :=
  (m.positions .password).map (·, .interactivePassword)
    ++ (m.positions .startGroup).map (·, .startGroup)
    ++ (m.positions .endGroup).map (·, .endGroup)
    ++ (m.positions .requireAllKeys).map (·, .requireAllKeys)

/-- src/cli/credentials.rs:111-115: the occurrences of an option with an integer value. -/
def intOption (mk : Nat → Token) : List (Nat × Arg) → Res (List (Nat × Token))
  | [] => .ok []
  | (pos, val) :: rest =>
    match parseUsize val with
    | none => .err (.other "invalid integer")
    | some n => do
      let toks ← intOption mk rest
      pure ((pos, mk n) :: toks)

/-- src/cli/credentials.rs:106-115: options with integer value. -/
def intTokens (m : Matches) : Res (List (Nat × Token)) := do
  let a ← intOption .keyThreshold (m.strsPos .keyThreshold)
  let b ← intOption .keyShares (m.strsPos .keyShares)
  pure (a ++ b)

/-- src/cli/credentials.rs:117-130: options with string value. -/
def strTokens (m : Matches) : List (Nat × Token) :=
  (m.strsPos .passwordNamed).map (fun (pos, val) => (pos, .namedInteractivePassword val))
    ++ (m.strsPos .passwordFile).map (fun (pos, val) => (pos, .passwordFile val))
    ++ (m.strsPos .symmetricKey).map (fun (pos, val) => (pos, .symmetricKeyFile val))
    ++ (m.strsPos .publicKey).map (fun (pos, val) => (pos, .publicKeyFile val))
    ++ (m.strsPos .publicKeyText).map (fun (pos, val) => (pos, .publicKeyText val))
    ++ (m.strsPos .privateKey).map (fun (pos, val) => (pos, .privateKeyFile val))

/-- `dedup_by_key(|(pos, _)| *pos)`: of neighbours with equal positions, the first is kept. src/cli/credentials.rs:162. -/
def dedupByPos : List (Nat × Token) → List (Nat × Token)
  | [] => []
  | [x] => [x]
  | x :: y :: rest => if x.1 = y.1 then dedupByPos (x :: rest) else x :: dedupByPos (y :: rest)
termination_by l => l.length

/-- Insert before the first element with the same or a later position. One step of src/cli/credentials.rs:155. -/
def insertByPos (x : Nat × Token) : List (Nat × Token) → List (Nat × Token)
  | [] => [x]
  | y :: rest => if x.1 ≤ y.1 then x :: y :: rest else y :: insertByPos x rest

/-- `sort_by_key(|(pos, _)| *pos)`: a stable sort; all stable sorts have the same result. src/cli/credentials.rs:155. -/
def sortByPos : List (Nat × Token) → List (Nat × Token)
  | [] => []
  | x :: rest => insertByPos x (sortByPos rest)

/-- src/cli/credentials.rs:90-169. -/
def extractTokens (m : Matches) : Res (List Token) := do
  let ints ← intTokens m
  let tokens := sortByPos (flagTokens m ++ ints ++ strTokens m)
  let deduped := dedupByPos tokens
  if deduped.length < tokens.length ∧ deduped.length > 1 then .err (.other "merged short arguments are not supported")
  else pure (tokens.map (·.2))

/-- src/cli/credentials.rs:185-188. -/
inductive KeyThresholdType where
  | allKeys
  | threshold (n : Nat)
  deriving DecidableEq, Repr

/-- The local variables of src/cli/credentials.rs:181-190. -/
structure Acc where
  subCreds : List (Nat × Credential)
  numShares : Nat
  nextKeyShares : Nat
  threshold : Option KeyThresholdType

/-- src/cli/credentials.rs:181-189: the initial values. -/
def Acc.init : Acc := ⟨[], 0, 1, none⟩

/-- src/cli/credentials.rs:194-207: allowed on decryption. -/
def decryptAllowed : Token → Bool
  | .startGroup | .endGroup | .requireAllKeys | .keyThreshold _ | .keyShares _ => false
  | _ => true

/-- src/cli/credentials.rs:194-207: may follow `--key-shares`. -/
def keySharesAllowed : Token → Bool
  | .endGroup | .requireAllKeys | .keyThreshold _ | .keyShares _ => false
  | _ => true

/-- src/cli/credentials.rs:253-260: interactive passwords are stored as text. -/
def passwordCred : Res (List Char) × Term → Res (List Credential) × Term
  | (.ok p, t) => (.ok [.password (Text.encode p)], t)
  | (.err e, t) => (.err e, t)
  | (.panic, t) => (.panic, t)

/-- src/cli/credentials.rs:253-309: the key-providing arguments. Other tokens do not get here. The context added to errors is not
modelled. -/
def readKeys (env : Env) (dir : CryptDirection) (skipChecksum : Bool) (t : Term) : Token → Res (List Credential) × Term
  | .interactivePassword => passwordCred (readPasswordInteractively dir t none)
  | .namedInteractivePassword name => passwordCred (readPasswordInteractively dir t (some name))
  | .passwordFile path => (readFileLines (env.readFile path) passwordLine, t)
  | .symmetricKeyFile path => (readFileLines (env.readFile path) (symmetricKeyLine env.sha512), t)
  | .publicKeyFile path =>
    if dir = .decrypt then (.err (.other "public keys should not be passed in when decrypting"), t)
    else (readFileLines (env.readFile path) (publicKeyLine env.sha512 skipChecksum), t)
  | .publicKeyText text =>
    if dir = .decrypt then (.err (.other "public keys should not be passed in when decrypting"), t)
    else
      (do let k ← fromHex32 env.sha512 text skipChecksum
          pure [.publicKey k], t)
  | .privateKeyFile path =>
    if dir = .encrypt then (.err (.other "private keys should not be passed in when encrypting"), t)
    else (readFileLines (env.readFile path) (privateKeyLine env.sha512 skipChecksum), t)
  | _ => (.panic, t)

/-- src/cli/credentials.rs:312-321; arithmetic as in release builds. -/
def Acc.add (acc : Acc) (creds : List Credential) : Res Acc :=
  if creds.isEmpty then .err (.other "no credentials provided in one of the files")
  else
    .ok { acc with
      numShares := wrap64 (acc.numShares + wrap64 (acc.nextKeyShares * creds.length))
      subCreds := acc.subCreds ++ creds.map (acc.nextKeyShares, ·)
      nextKeyShares := 1 }

/-- src/cli/credentials.rs:332-336. -/
def Acc.finalThreshold (acc : Acc) : Nat :=
  match acc.threshold with
  | none => 1
  | some (.threshold minKeys) => minKeys
  | some .allKeys => acc.numShares

/-- src/cli/credentials.rs:324-349. -/
def Acc.finish (acc : Acc) (level : Nat) (endGroup : Bool) : Res ComplexCredential :=
  if level = 0 ∧ endGroup then .err (.other "unexpected extraneous end-group argument")
  else if level > 0 ∧ ¬ endGroup then .err (.other "credential group is not closed")
  else if ¬ acc.numShares > 0 then .err (.other "credential group cannot be empty")
  else if ¬ acc.finalThreshold > 0 then .err (.other "key threshold can't be zero")
  else if ¬ acc.finalThreshold ≤ acc.numShares then .err (.other "key threshold too large")
  else .ok ⟨acc.subCreds, acc.numShares, acc.finalThreshold⟩

/-- src/cli/credentials.rs:192-349: the loop over the tokens, with the variables `acc`, and what follows it. A group is parsed by
a recursive call on the rest of the tokens; the result includes the tokens left over. `fuel` bounds the number of tokens
(running out of it is a panic, which never happens: `Proofs/CliCredentials.lean`). The depth of the recursion is not limited in the model (in Rust, by the stack). -/
def parseLoop (env : Env) (dir : CryptDirection) (skipChecksum : Bool) :
    Nat → Nat → Acc → List Token → Term → Res (ComplexCredential × List Token) × Term
  | _, level, acc, [], t =>
    match acc.finish level false with
    | .ok c => (.ok (c, []), t)
    | .err e => (.err e, t)
    | .panic => (.panic, t)
  | 0, _, _, _ :: _, t => (.panic, t)
  | fuel + 1, level, acc, token :: tokens, t =>
    if dir = .decrypt ∧ ¬ decryptAllowed token then (.err (.other "key combinators are not allowed on decryption"), t)
    else if acc.nextKeyShares ≠ 1 ∧ ¬ keySharesAllowed token then
      (.err (.other "--key-shares argument needs to be followed by a key-providing argument"), t)
    else
      match token with
      | .startGroup =>
        match parseLoop env dir skipChecksum fuel (level + 1) Acc.init tokens t with
        | (.ok (c, rest), t) =>
          match acc.add [.complex c.subCreds c.numShares c.threshold] with
          | .ok acc => parseLoop env dir skipChecksum fuel level acc rest t
          | .err e => (.err e, t)
          | .panic => (.panic, t)
        | (.err e, t) => (.err e, t)
        | (.panic, t) => (.panic, t)
      | .endGroup =>
        match acc.finish level true with
        | .ok c => (.ok (c, tokens), t)
        | .err e => (.err e, t)
        | .panic => (.panic, t)
      | .keyShares n =>
        if ¬ n > 0 then (.err (.other "--key-shares can't be zero"), t)
        else parseLoop env dir skipChecksum fuel level { acc with nextKeyShares := n } tokens t
      | .requireAllKeys =>
        if acc.threshold ≠ none then (.err (.other "multiple key threshold arguments are not allowed"), t)
        else parseLoop env dir skipChecksum fuel level { acc with threshold := some .allKeys } tokens t
      | .keyThreshold n =>
        if acc.threshold ≠ none then (.err (.other "multiple key threshold arguments are not allowed"), t)
        else parseLoop env dir skipChecksum fuel level { acc with threshold := some (.threshold n) } tokens t
      | token =>
        match readKeys env dir skipChecksum t token with
        | (.ok creds, t) =>
          match acc.add creds with
          | .ok acc => parseLoop env dir skipChecksum fuel level acc tokens t
          | .err e => (.err e, t)
          | .panic => (.panic, t)
        | (.err e, t) => (.err e, t)
        | (.panic, t) => (.panic, t)

/-- src/cli/credentials.rs:174-350, called at level 0. -/
def parseComplexCredential (env : Env) (tokens : List Token) (dir : CryptDirection) (skipChecksum : Bool) (t : Term) :
    Res ComplexCredential × Term :=
  match parseLoop env dir skipChecksum tokens.length 0 Acc.init tokens t with
  | (.ok (c, _), t) => (.ok c, t)
  | (.err e, t) => (.err e, t)
  | (.panic, t) => (.panic, t)

/-- src/cli/credentials.rs:23-26, 42-45: a password is asked for by default. -/
def defaultTokens (tokens : List Token) : List Token := if tokens.isEmpty then [.interactivePassword] else tokens

/-- src/cli/credentials.rs:18-35. -/
def getEncryptCredential (env : Env) (m : Matches) (force : Bool) (t : Term) : Res ComplexCredential × Term :=
  match extractTokens m with
  | .ok tokens => parseComplexCredential env (defaultTokens tokens) .encrypt force t
  | .err e => (.err e, t)
  | .panic => (.panic, t)

/-- src/cli/credentials.rs:58-64: every member must have one share. -/
def singleShares : List (Nat × Credential) → Res (List Credential)
  | [] => .ok []
  | (n, c) :: rest =>
    if n = 1 then do
      let cs ← singleShares rest
      pure (c :: cs)
    else .panic

/-- src/cli/credentials.rs:37-65. -/
def getDecryptCredentials (env : Env) (m : Matches) (force : Bool) (t : Term) : Res (List Credential) × Term :=
  match extractTokens m with
  | .ok tokens =>
    match parseComplexCredential env (defaultTokens tokens) .decrypt force t with
    | (.ok c, t) =>
      if c.numShares = 0 then (.panic, t)
      else if c.threshold ≠ 1 then (.panic, t)
      else (singleShares c.subCreds, t)
    | (.err e, t) => (.err e, t)
    | (.panic, t) => (.panic, t)
  | .err e => (.err e, t)
  | .panic => (.panic, t)

end Rypt.Cli
