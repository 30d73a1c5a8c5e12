import Verif.Model.CliCredentials
import Verif.Spec.KeyText

/-! The grammar of credential arguments. -/

namespace Rypt.Cli

open Getopts UI

/-- Key-providing arguments. -/
def Token.IsKey : Token → Prop
  | .interactivePassword | .namedInteractivePassword _ | .passwordFile _ | .symmetricKeyFile _ | .publicKeyFile _
  | .publicKeyText _ | .privateKeyFile _ => True
  | _ => False

/-- Arguments that set a threshold. -/
def Token.isThreshold : Token → Bool
  | .keyThreshold _ | .requireAllKeys => true
  | _ => false

/-- The keys an argument provides: typed by the user, or one for each non-blank line of the file. Public and private keys are
checked unless the check is skipped. What typing a password means is stated in C47. -/
inductive Provides (env : Env) (dir : CryptDirection) (skipChecksum : Bool) : Token → Term → List Credential → Term → Prop where
  | password (t t' : Term) (p : List Char) : readPasswordInteractively dir t none = (.ok p, t') →
      Provides env dir skipChecksum .interactivePassword t [.password (Spec.utf8 p)] t'
  | named (name : List Char) (t t' : Term) (p : List Char) : readPasswordInteractively dir t (some name) = (.ok p, t') →
      Provides env dir skipChecksum (.namedInteractivePassword name) t [.password (Spec.utf8 p)] t'
  | passwordFile (path : List Char) (t : Term) (ls : List (List Char)) : Spec.KeyLines (env.readFile path) ls → ls ≠ [] →
      Provides env dir skipChecksum (.passwordFile path) t (ls.map (fun s => .password (Spec.utf8 s))) t
  | symmetricKeyFile (path : List Char) (t : Term) (ls : List (List Char)) (ks : List Bytes) :
      Spec.KeyLines (env.readFile path) ls → ls ≠ [] → List.Forall₂ (Spec.IsKeyText env.sha512 false) ls ks →
      Provides env dir skipChecksum (.symmetricKeyFile path) t (ks.map .symmetricKey) t
  | publicKeyFile (path : List Char) (t : Term) (ls : List (List Char)) (ks : List Bytes) : dir = .encrypt →
      Spec.KeyLines (env.readFile path) ls → ls ≠ [] → List.Forall₂ (Spec.IsKeyText env.sha512 (!skipChecksum)) ls ks →
      Provides env dir skipChecksum (.publicKeyFile path) t (ks.map .publicKey) t
  | publicKeyText (text : List Char) (t : Term) (k : Bytes) : dir = .encrypt → Spec.IsKeyText env.sha512 (!skipChecksum) text k →
      Provides env dir skipChecksum (.publicKeyText text) t [.publicKey k] t
  | privateKeyFile (path : List Char) (t : Term) (ls : List (List Char)) (ks : List Bytes) : dir = .decrypt →
      Spec.KeyLines (env.readFile path) ls → ls ≠ [] → List.Forall₂ (Spec.IsPrivateKeyText env.sha512 (!skipChecksum)) ls ks →
      Provides env dir skipChecksum (.privateKeyFile path) t (ks.map .privateKey) t

/-- The keys of several arguments, in order. -/
inductive ProvidesAll (env : Env) (dir : CryptDirection) (skipChecksum : Bool) : List Token → Term → List Credential → Term → Prop where
  | nil (t : Term) : ProvidesAll env dir skipChecksum [] t [] t
  | cons (tok : Token) (toks : List Token) (t t1 t2 : Term) (cs cs' : List Credential) : Provides env dir skipChecksum tok t cs t1 →
      ProvidesAll env dir skipChecksum toks t1 cs' t2 → ProvidesAll env dir skipChecksum (tok :: toks) t (cs ++ cs') t2

/-- The number of shares of a list of members. -/
def totalShares (ms : List (Nat × Credential)) : Nat := (ms.map (·.1)).sum

/-- The threshold that was asked for: 1 by default. -/
def thresholdOf (thr : Option KeyThresholdType) (numShares : Nat) : Nat :=
  match thr with
  | none => 1
  | some .allKeys => numShares
  | some (.threshold n) => n

/-- The group of these members with this threshold. The number of shares is a 64-bit number. -/
structure Closed (ms : List (Nat × Credential)) (thr : Option KeyThresholdType) (c : ComplexCredential) : Prop where
  subCreds : c.subCreds = ms
  numShares : c.numShares = totalShares ms % 2 ^ 64
  threshold : c.threshold = thresholdOf thr c.numShares
  threshold_pos : 1 ≤ c.threshold
  threshold_le : c.threshold ≤ c.numShares

/-- `--key-shares n`, or nothing for 1. -/
inductive Shares : List Token → Nat → Prop where
  | default : Shares [] 1
  | given (n : Nat) : 1 ≤ n → Shares [.keyShares n] n

/-- `Body top tokens t members threshold t'`: the arguments describe these members and this threshold, and reading them takes the
terminal from `t` to `t'`. `top` for arguments outside of all groups. -/
inductive Body (env : Env) (dir : CryptDirection) (skipChecksum : Bool) :
    Bool → List Token → Term → List (Nat × Credential) → Option KeyThresholdType → Term → Prop where
  | nil (top : Bool) (t : Term) : Body env dir skipChecksum top [] t [] none t
  /-- a key-providing argument -/
  | keys (top : Bool) (pre : List Token) (n : Nat) (token : Token) (rest : List Token) (t t1 t2 : Term) (cs : List Credential)
      (ms : List (Nat × Credential)) (thr : Option KeyThresholdType) : Shares pre n → token.IsKey →
      Provides env dir skipChecksum token t cs t1 → cs ≠ [] → Body env dir skipChecksum top rest t1 ms thr t2 →
      Body env dir skipChecksum top (pre ++ token :: rest) t (cs.map (n, ·) ++ ms) thr t2
  /-- a group in parentheses -/
  | group (top : Bool) (pre : List Token) (n : Nat) (inner rest : List Token) (t t1 t2 : Term) (ms' ms : List (Nat × Credential))
      (thr' thr : Option KeyThresholdType) (c : ComplexCredential) : Shares pre n → Body env dir skipChecksum false inner t ms' thr' t1 →
      Closed ms' thr' c → Body env dir skipChecksum top rest t1 ms thr t2 →
      Body env dir skipChecksum top (pre ++ .startGroup :: (inner ++ .endGroup :: rest)) t
        ((n, .complex c.subCreds c.numShares c.threshold) :: ms) thr t2
  | allKeys (top : Bool) (rest : List Token) (t t' : Term) (ms : List (Nat × Credential)) :
      Body env dir skipChecksum top rest t ms none t' →
      Body env dir skipChecksum top (.requireAllKeys :: rest) t ms (some .allKeys) t'
  | threshold (top : Bool) (k : Nat) (rest : List Token) (t t' : Term) (ms : List (Nat × Credential)) :
      Body env dir skipChecksum top rest t ms none t' →
      Body env dir skipChecksum top (.keyThreshold k :: rest) t ms (some (.threshold k)) t'
  /-- `--key-shares 1` may stand anywhere -/
  | oneShare (top : Bool) (rest : List Token) (t t' : Term) (ms : List (Nat × Credential)) (thr : Option KeyThresholdType) :
      Body env dir skipChecksum top rest t ms thr t' → Body env dir skipChecksum top (.keyShares 1 :: rest) t ms thr t'
  /-- `--key-shares` at the very end is ignored -/
  | danglingShares (n : Nat) (t : Term) : 1 ≤ n → Body env dir skipChecksum true [.keyShares n] t [] none t

/-- The arguments describe the credential. -/
def Describes (env : Env) (dir : CryptDirection) (skipChecksum : Bool) (tokens : List Token) (t : Term) (c : ComplexCredential)
    (t' : Term) : Prop :=
  ∃ ms thr, Body env dir skipChecksum true tokens t ms thr t' ∧ Closed ms thr c

/-- The credential option that an occurrence of an option is. -/
inductive IsToken : Occ → Token → Prop where
  | password (pos : Nat) (v : Option Arg) : IsToken ⟨.password, pos, v⟩ .interactivePassword
  | startGroup (pos : Nat) (v : Option Arg) : IsToken ⟨.startGroup, pos, v⟩ .startGroup
  | endGroup (pos : Nat) (v : Option Arg) : IsToken ⟨.endGroup, pos, v⟩ .endGroup
  | requireAllKeys (pos : Nat) (v : Option Arg) : IsToken ⟨.requireAllKeys, pos, v⟩ .requireAllKeys
  | keyThreshold (pos : Nat) (v : Arg) (n : Nat) : Spec.IsNumber v n → IsToken ⟨.keyThreshold, pos, some v⟩ (.keyThreshold n)
  | keyShares (pos : Nat) (v : Arg) (n : Nat) : Spec.IsNumber v n → IsToken ⟨.keyShares, pos, some v⟩ (.keyShares n)
  | passwordNamed (pos : Nat) (v : Arg) : IsToken ⟨.passwordNamed, pos, some v⟩ (.namedInteractivePassword v)
  | passwordFile (pos : Nat) (v : Arg) : IsToken ⟨.passwordFile, pos, some v⟩ (.passwordFile v)
  | symmetricKey (pos : Nat) (v : Arg) : IsToken ⟨.symmetricKey, pos, some v⟩ (.symmetricKeyFile v)
  | publicKey (pos : Nat) (v : Arg) : IsToken ⟨.publicKey, pos, some v⟩ (.publicKeyFile v)
  | publicKeyText (pos : Nat) (v : Arg) : IsToken ⟨.publicKeyText, pos, some v⟩ (.publicKeyText v)
  | privateKey (pos : Nat) (v : Arg) : IsToken ⟨.privateKey, pos, some v⟩ (.privateKeyFile v)

/-- Options that are about credentials. -/
def aboutCredentials : Opt → Bool
  | .password | .passwordNamed | .passwordFile | .publicKey | .publicKeyText | .privateKey | .symmetricKey | .keyThreshold
  | .requireAllKeys | .keyShares | .startGroup | .endGroup => true
  | _ => false

/-- The credential options as typed, from left to right. -/
inductive TypedTokens : List Occ → List Token → Prop where
  | nil : TypedTokens [] []
  | skip (x : Occ) (occs : List Occ) (toks : List Token) : aboutCredentials x.opt = false → TypedTokens occs toks →
      TypedTokens (x :: occs) toks
  | cons (x : Occ) (occs : List Occ) (tok : Token) (toks : List Token) : IsToken x tok → TypedTokens occs toks →
      TypedTokens (x :: occs) (tok :: toks)

/-- No private key in the credential, at any depth. -/
inductive NoPrivate : Credential → Prop where
  | password (p : Bytes) : NoPrivate (.password p)
  | symmetricKey (k : Bytes) : NoPrivate (.symmetricKey k)
  | publicKey (pk : Bytes) : NoPrivate (.publicKey pk)
  | complex (ms : List (Nat × Credential)) (n k : Nat) : (∀ m ∈ ms, NoPrivate m.2) → NoPrivate (.complex ms n k)

end Rypt.Cli

namespace Rypt

mutual

/-- In every group, the shares of the members add up to less than 2^64. -/
def Credential.NoWrap : Credential → Prop
  | .complex ms _ _ => Cli.totalShares ms < 2 ^ 64 ∧ MembersNoWrap ms
  | _ => True

def MembersNoWrap : List (Nat × Credential) → Prop
  | [] => True
  | (_, c) :: rest => c.NoWrap ∧ MembersNoWrap rest

end

/-- See `Credential.NoWrap`. -/
def ComplexCredential.NoWrap (c : ComplexCredential) : Prop := (Credential.complex c.subCreds c.numShares c.threshold).NoWrap

end Rypt
