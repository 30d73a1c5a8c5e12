import Verif.Model.Getopts

/-! The syntax of the command line, as a grammar. -/

namespace Rypt.Getopts

/-- The letter of an option, as in the help text. -/
def Opt.letter : Opt → Option Char
  | .encrypt => some 'e' | .decrypt => some 'd' | .genKeypair => some 'g' | .help => some 'h' | .version => some 'V'
  | .verbose => some 'v' | .quiet => some 'q' | .force => some 'f'
  | .keepInputs => some 'K' | .discardInputs => some 'D' | .stream => some 's' | .suffix => some 'S'
  | .password => some 'p' | .keyThreshold => some 't' | .requireAllKeys => some 'a'
  | .startGroup => some '(' | .endGroup => some ')'
  | .fast | .passwordNamed | .passwordFile | .publicKey | .publicKeyText | .privateKey | .symmetricKey | .keyShares => none

/-- The name of an option, as in the help text. -/
def Opt.longName : Opt → Arg
  | .encrypt => "encrypt".toList
  | .decrypt => "decrypt".toList
  | .genKeypair => "gen-keypair".toList
  | .help => "help".toList
  | .version => "version".toList
  | .verbose => "verbose".toList
  | .quiet => "quiet".toList
  | .force => "force".toList
  | .fast => "fast".toList
  | .keepInputs => "keep-inputs".toList
  | .discardInputs => "discard-inputs".toList
  | .stream => "stream".toList
  | .suffix => "suffix".toList
  | .password => "password".toList
  | .passwordNamed => "password-named".toList
  | .passwordFile => "password-file".toList
  | .publicKey => "public-key".toList
  | .publicKeyText => "public-key-text".toList
  | .privateKey => "private-key".toList
  | .symmetricKey => "symmetric-key".toList
  | .keyThreshold => "key-threshold".toList
  | .requireAllKeys => "require-all-keys".toList
  | .keyShares => "key-shares".toList
  | .startGroup => "start-group".toList
  | .endGroup => "end-group".toList

/-- A flag: an option without value. -/
def Opt.IsFlag (o : Opt) : Prop :=
  o ∉ [.suffix, .passwordNamed, .passwordFile, .publicKey, .publicKeyText, .privateKey, .symmetricKey, .keyThreshold,
    .keyShares]

/-- An option that may be given several times: `-v`, `-q` and everything about credentials. -/
def Opt.Repeatable (o : Opt) : Prop :=
  o ∈ [.verbose, .quiet, .password, .passwordNamed, .passwordFile, .publicKey, .publicKeyText, .privateKey, .symmetricKey,
    .keyThreshold, .requireAllKeys, .keyShares, .startGroup, .endGroup]

/-- The option is called `--name`: by its name, or by its letter. -/
def Opt.Called (o : Opt) (name : Arg) : Prop := name = o.longName ∨ ∃ c, name = [c] ∧ o.letter = some c

/-- The letters are flags. -/
inductive Letters (n : Nat) : Arg → List Occ → Prop where
  | nil : Letters n [] []
  | cons (c : Char) (o : Opt) (cs : Arg) (occs : List Occ) : o.letter = some c → o.IsFlag → Letters n cs occs →
      Letters n (c :: cs) (⟨o, n, none⟩ :: occs)

/-- `Typed n args occs free`: the arguments, of which the first has number `n`, mean these options, in the order they were typed, and
these file names. An option and the argument that is its value have one number. -/
inductive Typed : Nat → List Arg → List Occ → List Arg → Prop where
  | nil (n : Nat) : Typed n [] [] []
  /-- `-` and arguments without a dash are file names -/
  | free (n : Nat) (a : Arg) (args : List Arg) (occs : List Occ) (free : List Arg) : a = ['-'] ∨ a.head? ≠ some '-' →
      Typed (n + 1) args occs free → Typed n (a :: args) occs (a :: free)
  /-- everything after `--` is a file name -/
  | stop (n : Nat) (args : List Arg) : Typed n (['-', '-'] :: args) [] args
  | longFlag (n : Nat) (name : Arg) (o : Opt) (args : List Arg) (occs : List Occ) (free : List Arg) : o.Called name → o.IsFlag →
      Typed (n + 1) args occs free → Typed n (('-' :: '-' :: name) :: args) (⟨o, n, none⟩ :: occs) free
  /-- `--name=value` -/
  | longEq (n : Nat) (name v : Arg) (o : Opt) (args : List Arg) (occs : List Occ) (free : List Arg) : o.Called name → ¬ o.IsFlag →
      Typed (n + 1) args occs free →
      Typed n (('-' :: '-' :: (name ++ '=' :: v)) :: args) (⟨o, n, some v⟩ :: occs) free
  /-- `--name value`, whatever the value looks like -/
  | longNext (n : Nat) (name v : Arg) (o : Opt) (args : List Arg) (occs : List Occ) (free : List Arg) : o.Called name → ¬ o.IsFlag →
      Typed (n + 1) args occs free → Typed n (('-' :: '-' :: name) :: v :: args) (⟨o, n, some v⟩ :: occs) free
  /-- `-abc` -/
  | letters (n : Nat) (cs : Arg) (flags : List Occ) (args : List Arg) (occs : List Occ) (free : List Arg) : cs ≠ [] →
      Letters n cs flags → Typed (n + 1) args occs free → Typed n (('-' :: cs) :: args) (flags ++ occs) free
  /-- `-abcVALUE` -/
  | lettersValue (n : Nat) (cs : Arg) (flags : List Occ) (c : Char) (o : Opt) (v : Arg) (args : List Arg) (occs : List Occ)
      (free : List Arg) : Letters n cs flags → o.letter = some c → ¬ o.IsFlag → v ≠ [] → Typed (n + 1) args occs free →
      Typed n (('-' :: (cs ++ c :: v)) :: args) (flags ++ ⟨o, n, some v⟩ :: occs) free
  /-- `-abc VALUE` -/
  | lettersNext (n : Nat) (cs : Arg) (flags : List Occ) (c : Char) (o : Opt) (v : Arg) (args : List Arg) (occs : List Occ)
      (free : List Arg) : Letters n cs flags → o.letter = some c → ¬ o.IsFlag → Typed (n + 1) args occs free →
      Typed n (('-' :: (cs ++ [c])) :: v :: args) (flags ++ ⟨o, n, some v⟩ :: occs) free

/-- No option is given twice, except those that may be. -/
def NoDuplicates (occs : List Occ) : Prop :=
  ∀ o : Opt, ¬ o.Repeatable → occs.countP (fun x => x.opt = o) ≤ 1

end Rypt.Getopts
