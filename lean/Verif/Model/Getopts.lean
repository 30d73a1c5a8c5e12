import Verif.Model.Base

/-!
Model of the option parser: the table of options of src/cli/options.rs and `getopts::Options::parse` (getopts 0.2.21, which is not
part of the repository; modelled from its documented behaviour, see DESIGN.md).

Arguments are Unicode texts: `parse` refuses other arguments before anything else.
-/

namespace Rypt.Getopts

/-- An argument of the command line. src/cli/mod.rs:62; arguments that are not Unicode are left out: `getopts` refuses them. -/
abbrev Arg := List Char

/-- src/cli/options.rs:5-138: the options. -/
inductive Opt where
  | encrypt | decrypt | genKeypair | help | version
  | verbose | quiet | force
  | fast | keepInputs | discardInputs | stream | suffix
  | password | passwordNamed | passwordFile | publicKey | publicKeyText | privateKey | symmetricKey
  | keyThreshold | requireAllKeys | keyShares | startGroup | endGroup
  deriving DecidableEq, Repr

/-- Definition of an option. Made by the calls in src/cli/options.rs:5-138. -/
structure Desc where
  short : Option Char
  long : Arg
  hasArg : Bool
  multi : Bool

/-- `optflag`. src/cli/options.rs:7-11, 27, 37-52. -/
def optflag (short long : String) : Desc := ⟨short.toList.head?, long.toList, false, false⟩
/-- `optflagmulti`. src/cli/options.rs:17-22, 72, 125, 136-137. -/
def optflagmulti (short long : String) : Desc := ⟨short.toList.head?, long.toList, false, true⟩
/-- `optopt`. src/cli/options.rs:58. -/
def optopt (short long : String) : Desc := ⟨short.toList.head?, long.toList, true, false⟩
/-- `optmulti`. src/cli/options.rs:77-108, 119, 130. -/
def optmulti (short long : String) : Desc := ⟨short.toList.head?, long.toList, true, true⟩

/-- src/cli/options.rs:5-138. -/
def desc : Opt → Desc
  | .encrypt => optflag "e" "encrypt"
  | .decrypt => optflag "d" "decrypt"
  | .genKeypair => optflag "g" "gen-keypair"
  | .help => optflag "h" "help"
  | .version => optflag "V" "version"
  | .verbose => optflagmulti "v" "verbose"
  | .quiet => optflagmulti "q" "quiet"
  | .force => optflag "f" "force"
  | .fast => optflag "" "fast"
  | .keepInputs => optflag "K" "keep-inputs"
  | .discardInputs => optflag "D" "discard-inputs"
  | .stream => optflag "s" "stream"
  | .suffix => optopt "S" "suffix"
  | .password => optflagmulti "p" "password"
  | .passwordNamed => optmulti "" "password-named"
  | .passwordFile => optmulti "" "password-file"
  | .publicKey => optmulti "" "public-key"
  | .publicKeyText => optmulti "" "public-key-text"
  | .privateKey => optmulti "" "private-key"
  | .symmetricKey => optmulti "" "symmetric-key"
  | .keyThreshold => optmulti "t" "key-threshold"
  | .requireAllKeys => optflagmulti "a" "require-all-keys"
  | .keyShares => optmulti "" "key-shares"
  | .startGroup => optflagmulti "(" "start-group"
  | .endGroup => optflagmulti ")" "end-group"

/-- src/cli/options.rs:140-148: all options, in order of definition. -/
def allOpts : List Opt :=
  [.encrypt, .decrypt, .genKeypair, .help, .version, .verbose, .quiet, .force, .fast, .keepInputs, .discardInputs, .stream,
    .suffix, .password, .passwordNamed, .passwordFile, .publicKey, .publicKeyText, .privateKey, .symmetricKey, .keyThreshold,
    .requireAllKeys, .keyShares, .startGroup, .endGroup]

/-- `getopts::Name`. Made from the names in src/cli/options.rs:5-138. -/
inductive Name where
  | short (c : Char)
  | long (s : Arg)
  deriving DecidableEq, Repr

/-- `Name::from_str`: one byte is a short name. (A single character that is not ASCII is a long name; no option is affected.).
Looked up by the names in src/cli/mod.rs:37-43, 72, 78 and src/cli/credentials.rs:94-125. -/
def Name.fromStr : Arg → Name
  | [c] => if c.toNat < 0x80 then .short c else .long [c]
  | s => .long s

/-- `find_opt`. Part of `getopts`, called by src/cli/mod.rs:71. -/
def findOpt : Name → Option Opt
  | .short c => allOpts.find? (fun o => (desc o).short = some c)
  | .long s => allOpts.find? (fun o => (desc o).long = s)

/-- An occurrence of an option: which one, `arg_pos`, its value. `vals[opt_id]` is the list of occurrences of that option.
Inside `getopts::Matches`, src/cli/mod.rs:71. -/
structure Occ where
  opt : Opt
  pos : Nat
  val : Option Arg
  deriving DecidableEq, Repr

/-- `getopts::Matches`; `vals` keeps all occurrences in the order they were found. src/cli/mod.rs:71. -/
structure Matches where
  vals : List Occ
  free : List Arg
  deriving DecidableEq, Repr

/-- `is_arg`. Part of `getopts`, called by src/cli/mod.rs:71. -/
def isArg : Arg → Bool
  | '-' :: _ :: _ => true
  | _ => false

/-- A cluster of short options without its dash: the flags found, and the option with a value, if any, with the value given in the
cluster itself. Part of `getopts`, called by src/cli/mod.rs:71. -/
def parseCluster (pos : Nat) : Arg → Res (List Occ × Option (Opt × Option Arg))
  | [] => .ok ([], none)
  | c :: rest =>
    match findOpt (.short c) with
    | none => .err (.other "unrecognized option")
    | some o =>
      if (desc o).hasArg then .ok ([], some (o, if rest = [] then none else some rest))
      else do
        let (occs, pending) ← parseCluster pos rest
        pure (⟨o, pos, none⟩ :: occs, pending)

/-- `splitn(2, '=')`: before the first `=`, and after it. Part of `getopts`, called by src/cli/mod.rs:71. -/
def splitEq (s : Arg) : Arg × Option Arg :=
  match s.dropWhile (· ≠ '=') with
  | [] => (s.takeWhile (· ≠ '='), none)
  | _ :: rest => (s.takeWhile (· ≠ '='), some rest)

/-- One argument that is an option (not `--`): the occurrences found, and the option that takes the next argument as its value.
Part of `getopts`, called by src/cli/mod.rs:71. -/
def parseOption (pos : Nat) (cur : Arg) : Res (List Occ × Option Opt) :=
  match cur with
  | '-' :: '-' :: tail =>
    match splitEq tail with
    | (name, iArg) =>
      match findOpt (Name.fromStr name) with
      | none => .err (.other "unrecognized option")
      | some o =>
        if (desc o).hasArg then
          match iArg with
          | some v => .ok ([⟨o, pos, some v⟩], none)
          | none => .ok ([], some o)
        else if iArg.isSome then .err (.other "unexpected argument")
        else .ok ([⟨o, pos, none⟩], none)
  | _ => do
    let (occs, pending) ← parseCluster pos (cur.drop 1)
    match pending with
    | none => pure (occs, none)
    | some (o, some v) => pure (occs ++ [⟨o, pos, some v⟩], none)
    | some (o, none) => pure (occs, some o)

/-- The main loop of `parse`; `pos` is `arg_pos`. An option and the argument it takes count as one position.
Part of `getopts`, called by src/cli/mod.rs:71. -/
def parseLoop (pos : Nat) (m : Matches) : List Arg → Res Matches
  | [] => .ok m
  | cur :: args =>
    if ¬ isArg cur then parseLoop (pos + 1) { m with free := m.free ++ [cur] } args
    else if cur = ['-', '-'] then .ok { m with free := m.free ++ args }
    else
      match parseOption pos cur with
      | .ok (occs, none) => parseLoop (pos + 1) { m with vals := m.vals ++ occs } args
      | .ok (occs, some o) =>
        match args with
        | [] => .err (.other "argument missing")
        | v :: args => parseLoop (pos + 1) { m with vals := m.vals ++ occs ++ [⟨o, pos, some v⟩] } args
      | .err e => .err e
      | .panic => .panic

/-- Occurrences of an option: `opt_vals`. Used by the functions called in src/cli/credentials.rs:101, 112, 127. -/
def Matches.of (m : Matches) (o : Opt) : List Occ := m.vals.filter (·.opt = o)

/-- `Options::parse`: the loop, and the check for duplicates. Called in src/cli/mod.rs:71. -/
def parse (args : List Arg) : Res Matches := do
  let m ← parseLoop 0 ⟨[], []⟩ args
  if allOpts.any (fun o => !(desc o).multi && decide (1 < (m.of o).length)) then .err (.other "option duplicated")
  else pure m

/-- `opt_present`. Called in src/cli/mod.rs:78, 110-111, 128, src/cli/io_streams.rs:18. -/
def Matches.present (m : Matches) (o : Opt) : Bool := !(m.of o).isEmpty
/-- `opt_count`. Called in src/cli/mod.rs:72. -/
def Matches.count (m : Matches) (o : Opt) : Nat := (m.of o).length
/-- `opt_positions`. Called in src/cli/mod.rs:50, src/cli/credentials.rs:101. -/
def Matches.positions (m : Matches) (o : Opt) : List Nat := (m.of o).map (·.pos)
/-- `opt_strs_pos`. Called in src/cli/credentials.rs:112, 127. -/
def Matches.strsPos (m : Matches) (o : Opt) : List (Nat × Arg) := (m.of o).filterMap (fun x => x.val.map (x.pos, ·))
/-- `opt_str`. Called in src/cli/io_streams.rs:73. -/
def Matches.str (m : Matches) (o : Opt) : Option Arg := (m.of o).head?.bind (·.val)

end Rypt.Getopts
