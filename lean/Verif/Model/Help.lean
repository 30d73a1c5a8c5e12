import Verif.Model.Getopts
import Verif.Model.Text

/-!
Model of src/commands/help.rs: the text of `--help`, with the names of values and the descriptions in src/cli/options.rs and the
layout of `getopts::Options::usage_with_format` (getopts 0.2.21, which is not part of the repository).
-/

namespace Rypt.Help

open Getopts

/-- The name shown for the value of an option. src/cli/options.rs:65, 82, 88, 94, 100, 106, 112, 123, 134. -/
def hint : Opt → List Char
  | .suffix => "SUFFIX".toList
  | .passwordNamed => "PASSWORD_NAME".toList
  | .passwordFile => "FILENAME".toList
  | .publicKey => "FILENAME".toList
  | .publicKeyText => "PUBLIC_KEY".toList
  | .privateKey => "FILENAME".toList
  | .symmetricKey => "FILENAME".toList
  | .keyThreshold => "NUM_KEYS".toList
  | .keyShares => "NUM_SHARES".toList
  | _ => []

/-- The descriptions. src/cli/options.rs:7-137; the suffix of line 63 is that of src/cli/mod.rs:21. -/
def description : Opt → List Char
  | .encrypt => "encrypt files (default)".toList
  | .decrypt => "decrypt files".toList
  | .genKeypair => "generate public/private key pair(s)".toList
  | .help => "display this short help".toList
  | .version => "display version".toList
  | .verbose => "be more verbose; specify twice for even more verbosity".toList
  | .quiet => "suppress messages and warnings; specify twice to skip error messages as well".toList
  | .force => "make sanity checks warnings instead of errors".toList
  | .fast => "use AES256-GCM, a faster encryption algorithm only supported on newer x86 CPUs; run `rypt -V` to check".toList
  | .keepInputs => "keep original files on successful operation (specify to avoid prompt at the end)".toList
  | .discardInputs => "delete original files on successful operation".toList
  | .stream => "streaming mode: single stream, non-file inputs allowed, writes to standard output; enabled by default if no inputs or '-' is specified".toList
  | .suffix => "encrypted files suffix; default is \".rypt\"".toList
  | .password => "prompt for one password interactively; specify several times for multiple passwords".toList
  | .passwordNamed => "prompt for a password identified by name (e.g. 'Master password'); name is only used for prompt, not saved".toList
  | .passwordFile => "read password(s) from a file, one per line".toList
  | .publicKey => "(encryption only) read public key(s) from a file, one per line".toList
  | .publicKeyText => "(encryption only) read public key directly as a command line argument".toList
  | .privateKey => "(decryption only) read private key(s) from a file, one per line".toList
  | .symmetricKey => "(advanced) read 32-byte hex symmetric secret key(s) from a file, one per line".toList
  | .keyThreshold => "number of keys/passwords required to decrypt the file or the current group; default is 1".toList
  | .requireAllKeys => "require all keys to decrypt the file or the current group".toList
  | .keyShares => "(very advanced) number of key shares provided by the following key; default is 1".toList
  | .startGroup => "start a group of keys".toList
  | .endGroup => "end a group of keys".toList

/-- `define_mode_options`, src/cli/options.rs:5-12. -/
def modeOptions : List Opt := [.encrypt, .decrypt, .genKeypair, .help, .version]
/-- `define_common_options`, src/cli/options.rs:15-32. -/
def commonOptions : List Opt := [.verbose, .quiet, .force]
/-- `define_crypt_options`, src/cli/options.rs:35-67. -/
def cryptOptions : List Opt := [.fast, .keepInputs, .discardInputs, .stream, .suffix]
/-- `define_credential_options`, src/cli/options.rs:70-114. -/
def credentialOptions : List Opt :=
  [.password, .passwordNamed, .passwordFile, .publicKey, .publicKeyText, .privateKey, .symmetricKey]
/-- `define_credential_combinator_options`, src/cli/options.rs:117-138. -/
def combinatorOptions : List Opt := [.keyThreshold, .requireAllKeys, .keyShares, .startGroup, .endGroup]

/-- The words of a text. Part of `each_split_within` of getopts, used by `usage_with_format`, src/commands/help.rs:14. -/
def words : List Char → List Char → List (List Char)
  | [], w => if w = [] then [] else [w]
  | c :: rest, w =>
    if Text.isWhitespace c then (if w = [] then words rest [] else w :: words rest []) else words rest (w ++ [c])

/-- Words to rows of at most `limit` characters, longer words in rows of their own. Part of `each_split_within` of getopts, used by
`usage_with_format`, src/commands/help.rs:14. Simplified: the width of a text is its number of characters, which is right for the
ASCII texts of src/cli/options.rs. -/
def fill (limit : Nat) : List (List Char) → List Char → List (List Char)
  | [], row => [row]
  | w :: rest, row =>
    if row.length + w.length + (if row = [] then 0 else 1) ≤ limit then fill limit rest (if row = [] then w else row ++ ' ' :: w)
    else if row = [] then fill limit rest w
    else row :: fill limit rest w

/-- Texts with a separator between them (`join`). src/commands/help.rs:14. -/
def join (sep : List Char) : List (List Char) → List Char
  | [] => []
  | [x] => x
  | x :: y :: rest => x ++ sep ++ join sep (y :: rest)

/-- Between the rows of a description, in `usage_with_format`, src/commands/help.rs:14. -/
def descSep : List Char := '\n' :: List.replicate 24 ' '

/-- The usage of one option, in `usage_with_format`, src/commands/help.rs:14. `anyShort`: some option of the section has a short name.
Simplified: descriptions are one line, and widths are numbers of characters, as in src/cli/options.rs. -/
def usageItem (anyShort : Bool) (o : Opt) : List Char :=
  let row := "    ".toList ++
    (match (desc o).short with
      | none => if anyShort then "    ".toList else []
      | some c => '-' :: c :: (if (desc o).long = [] then [' '] else [',', ' '])) ++
    (if (desc o).long = [] then [] else '-' :: '-' :: (desc o).long ++ [' ']) ++
    (if (desc o).hasArg then hint o else [])
  (if row.length < 24 then row ++ List.replicate (24 - row.length) ' ' else row ++ descSep) ++
    join descSep (fill 54 (words (description o) []) [])

/-- src/commands/help.rs:11-15 `opt_usage`. -/
def optUsage (opts : List Opt) : List Char :=
  join ['\n'] (opts.map (usageItem (opts.any fun o => (desc o).short.isSome)))

/-- The text after the name of the program. src/commands/help.rs:22-42. -/
def body : List Char :=
  " [OPTION].. [FILE]..\nEncrypt/decrypt FILE-s using passwords and/or public keys. \n\nCommands (use one):\n".toList ++
  optUsage modeOptions ++ "\n\nCommon flags:\n".toList ++ optUsage commonOptions ++
  "\n\nEncryption/decryption options:\n".toList ++ optUsage cryptOptions ++ "\n\nCredentials:\n".toList ++
  optUsage credentialOptions ++ "\n\nCredential combinators (encryption only, advanced):\n".toList ++ optUsage combinatorOptions ++
  "\n\nWith no FILE, or when FILE is '-', read standard input. Use '-s' to write to standard output.\n\nHome page and documentation: <https://github.com/ashtuchkin/rypt>\n".toList

/-- src/commands/help.rs:20-51. -/
def text (programName : List Char) : List Char := "Usage: ".toList ++ programName ++ body

end Rypt.Help
