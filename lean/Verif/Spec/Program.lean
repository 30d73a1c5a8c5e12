import Verif.Model.Program
import Verif.Spec.Cli
import Verif.Spec.CliCredentials
import Verif.Spec.File
import Verif.Spec.GenKeys

/-! Notions used to state the properties of the whole program. -/

namespace Rypt.Program

open Getopts Cli UI Filesystem CryptStreams HeaderCrypto

/-- `F` is an encryption of `b`: framed header and sealed chunks, for some random choices. -/
def EncryptionOf (L : CryptoLib) (opts : EncryptOptions) (b F : Bytes) : Prop :=
  ∃ draw tape hdr codec cs, draw < 1024 ∧ encryptHeader L opts draw tape = .ok (hdr, codec, cs) ∧
    F = Spec.file codec.crypto codec.payloadKey hdr cs b ∧ hdr.length ≤ Spec.maxHeader

/-- `F` is the complete result of decrypting `b`. -/
def DecryptionOf (L : CryptoLib) (S : List Credential) (b F : Bytes) : Prop :=
  ∃ flt, CryptFile.Conversion L b (.decrypt S) ⟨F, some (.ok ()), flt⟩

/-- `F` is the complete result of converting `b`. -/
def ResultOf (L : CryptoLib) (b F : Bytes) : DirectionOpts → Prop
  | .encrypt c fast => EncryptionOf L ⟨c, fast⟩ b F
  | .decrypt S => DecryptionOf L S b F

/-- `w` is what a conversion of `b` has written at some moment; for an encryption, it is the beginning of an encrypted file. -/
def PartOf (L : CryptoLib) (b w : Bytes) : DirectionOpts → Prop
  | .encrypt c fast => w = [] ∨ ∃ F, EncryptionOf L ⟨c, fast⟩ b F ∧ w <+: F
  | .decrypt S => ∃ r flt, CryptFile.Conversion L b (.decrypt S) ⟨w, r, flt⟩

/-- The header `hdr` and what belongs to it come from an encryption with the options `opts`, and `F` is the encrypted file. -/
def Encrypted (L : CryptoLib) (opts : EncryptOptions) (b F hdr : Bytes) (codec : Codec) (cs : Nat) : Prop :=
  ∃ draw tape, draw < 1024 ∧ encryptHeader L opts draw tape = .ok (hdr, codec, cs) ∧
    F = Spec.file codec.crypto codec.payloadKey hdr cs b ∧ hdr.length ≤ Spec.maxHeader

/-- The credentials `S` open `F'`, which passes for an encrypted file although it does not come from the encryption of `b`: its
header opens to another payload key (somebody else has encrypted it), or it contains a forged box, or its header is another
string with the same hash. `ph` is the protected part of the header. -/
def Passes (L : CryptoLib) (S : List Credential) (b F' hdr : Bytes) (codec : Codec) (cs : Nat) (ph : Bytes) : Prop :=
  ∃ hdr' body codec' cs', F' = Spec.frame hdr' ++ body ∧ decryptHeader L hdr' S = .ok (codec', cs') ∧
    (codec'.payloadKey ≠ codec.payloadKey ∨
     Spec.ContainsForgery codec'.crypto codec.payloadKey (codec'.crypto.hash hdr') cs' body
       (Spec.SealedBy codec.crypto codec.payloadKey (codec.crypto.hash hdr) cs b ph) ∨
     hdr' ≠ hdr ∧ codec.crypto.hash hdr' = codec.crypto.hash hdr)

/-- The output of `a` is `q`, and no other argument has it. -/
def OnlyOutput (p : Start) (dir : CryptDirection) (occs : List Occ) (free : List Arg) (a q : Arg) : Prop :=
  ∃ ext, SuffixOf occs ext ∧ OutputName false ext a dir (some q) ∧
    ∀ a' ∈ free, ∀ q', OutputName false ext a' dir (some q') → p.fs.loc q' = p.fs.loc q → p.fs.loc a' = p.fs.loc a

/-- The credentials are those that the command line asks for (a password by default), and `--fast` is as given. Reading them takes
the terminal to `t'`. -/
def Asked (p : Start) (occs : List Occ) (t' : Term) (d : DirectionOpts) : Prop :=
  ∃ typed v force, TypedTokens occs typed ∧ (force = true ↔ Given occs .force) ∧
    match d with
    | .encrypt c fast => (fast = true ↔ Given occs .fast) ∧
      Describes p.env .encrypt force (if typed = [] then [.interactivePassword] else typed) { p.ui.term with verbosity := v } c t'
    | .decrypt S =>
      ProvidesAll p.env .decrypt force (if typed = [] then [.interactivePassword] else typed) { p.ui.term with verbosity := v } S t'

/-- The command line asks for a conversion of the files `free`. -/
structure ConvertsFiles (p : Start) (dir : CryptDirection) (occs : List Occ) (free : List Arg) : Prop where
  typed : Typed 0 p.args occs free
  mode : LastMode occs (.crypt dir)
  stream : ¬ Given occs .stream
  some : free ≠ []
  dash : free ≠ [['-']]

/-- The command line asks for a conversion to standard output. -/
structure ConvertsStream (p : Start) (dir : CryptDirection) (occs : List Occ) (free : List Arg) : Prop where
  typed : Typed 0 p.args occs free
  mode : LastMode occs (.crypt dir)
  stream : Given occs .stream ∨ free = [] ∨ free = [['-']]
  help : ¬ (p.args = [] ∧ p.ttys.stdout = true)

/-- No output is at the place of an input. -/
def NoChain (p : Start) (dir : CryptDirection) (occs : List Occ) (free : List Arg) : Prop :=
  ∀ a ∈ free, ∀ a' ∈ free, ∀ force ext q, SuffixOf occs ext → OutputName force ext a' dir (some q) → p.fs.loc a ≠ p.fs.loc q

/-- Nothing is wrong with the command line: no option is given twice (unless it may be), at most two `-v` or `-q`, no `-` among the
files, inputs are not both to be kept and to be deleted, and options for credentials are in arguments of their own. `tokens` are
the credentials asked for. -/
structure Proper (p : Start) (dir : CryptDirection) (occs : List Occ) (free : List Arg) (tokens : List Token) : Prop where
  files : ConvertsFiles p dir occs free
  duplicates : NoDuplicates occs
  verbosity : -2 ≤ askedVerbosity occs ∧ askedVerbosity occs ≤ 2
  noDash : ∀ a ∈ free, ¬ Spec.TrimsTo a ['-']
  policy : ¬ (Given occs .keepInputs ∧ Given occs .discardInputs)
  separate : occs.Pairwise (fun x y => aboutCredentials x.opt = true → aboutCredentials y.opt = true → x.pos ≠ y.pos)
  force : ¬ Given occs .force
  tokens : ∃ typed, TypedTokens occs typed ∧ tokens = if typed = [] then [.interactivePassword] else typed

/-- The arguments are files with one name, and the names of the outputs are unused and different. -/
structure FilesReady (p : Start) (dir : CryptDirection) (occs : List Occ) (free : List Arg) : Prop where
  plain : ∀ a ∈ free, ∃ ino, p.fs.entry (p.fs.loc a) = some (.file ino) ∧ p.fs.nlink ino = 1
  unused : ∀ ext, SuffixOf occs ext → ∀ a ∈ free, ∃ q, OutputName false ext a dir (some q) ∧ p.fs.entry (p.fs.loc q) = none
  different : ∀ ext, SuffixOf occs ext → free.Pairwise (fun a a' => ∀ q q', OutputName false ext a dir (some q) →
    OutputName false ext a' dir (some q') → p.fs.loc q ≠ p.fs.loc q')

/-- The program ends at `m`, not by a crash, and every output that a failed conversion had created could be deleted. -/
def EndsTidily (p : Start) (m : Moment) : Prop :=
  Reaches p m ∧ (m.exit = some 0 ∨ m.exit = some 1) ∧
    ∀ streams policy force d ui, p.parse = (.ok (.cryptStreams streams policy force d), ui) → ∃ ls st,
      Run (p.config streams policy force d ui) (State.start (p.config streams policy force d ui) p.fs) ls st ∧
        m = ⟨st.fs, st.stdout, exitOf st.pc, none⟩ ∧ ∀ s, Label.outputNotDeleted s ∉ ls

/-- The library makes the same key pairs whatever the AEAD algorithm (src/crypto/libsodium.rs:251-259). -/
def SameKeys (L : CryptoLib) : Prop :=
  ∀ alg alg' C C', L.instantiate alg = .ok C → L.instantiate alg' = .ok C' → C.keypair = C'.keypair

/-- Command lines that are to be refused. -/
inductive Refusable (p : Start) : Prop where
  /-- not a command line, or an option given twice -/
  | unreadable : (¬ ∃ occs free, Typed 0 p.args occs free ∧ NoDuplicates occs) → Refusable p
  /-- more than two `-v` or `-q` -/
  | verbosity (occs : List Occ) (free : List Arg) : Typed 0 p.args occs free →
      askedVerbosity occs < -2 ∨ 2 < askedVerbosity occs → Refusable p
  /-- key generation without a path, or with two private keys on standard output -/
  | keyPaths (occs : List Occ) (free : List Arg) : Typed 0 p.args occs free → LastMode occs .generateKeypair →
      free = [] ∨ 2 ≤ free.count ['-'] → Refusable p
  /-- inputs both to be kept and to be deleted -/
  | policies (occs : List Occ) (free : List Arg) (dir : CryptDirection) : Typed 0 p.args occs free → LastMode occs (.crypt dir) →
      Given occs .keepInputs → Given occs .discardInputs → Refusable p
  /-- encrypted data on a terminal -/
  | terminal (occs : List Occ) (free : List Arg) (dir : CryptDirection) : Typed 0 p.args occs free → LastMode occs (.crypt dir) →
      ¬ (p.args = [] ∧ p.ttys.stdout = true) → ¬ Given occs .force →
      (dir = .decrypt ∧ (free = [] ∨ free = [['-']]) ∧ p.ttys.stdin = true) ∨
        (dir = .encrypt ∧ (Given occs .stream ∨ free = [] ∨ free = [['-']]) ∧ p.ttys.stdout = true) → Refusable p
  /-- several inputs for one stream -/
  | streams (occs : List Occ) (free : List Arg) (dir : CryptDirection) : Typed 0 p.args occs free → LastMode occs (.crypt dir) →
      2 ≤ free.length → Given occs .stream ∨ ['-'] ∈ free → Refusable p
  /-- a mistyped public key -/
  | key (occs : List Occ) (free : List Arg) (dir : CryptDirection) (pos : Nat) (text : Arg) : Typed 0 p.args occs free →
      LastMode occs (.crypt dir) → ¬ Given occs .force → ⟨.publicKeyText, pos, some text⟩ ∈ occs →
      (∀ k, ¬ Spec.IsKeyText p.sha512 true text k) → Refusable p
  /-- a key file that is missing or has no lines -/
  | keyFile (occs : List Occ) (free : List Arg) (dir : CryptDirection) (o : Opt) (pos : Nat) (path : Arg) :
      Typed 0 p.args occs free → LastMode occs (.crypt dir) →
      o = .passwordFile ∨ o = .symmetricKey ∨ o = .publicKey ∨ o = .privateKey → ⟨o, pos, some path⟩ ∈ occs →
      p.fs.entry (p.fs.loc path) = none ∨ p.fs.holds path [] → Refusable p

end Rypt.Program
