# Formal model of rypt: design

Subject: `ashtuchkin/rypt`, source in `/repo` (Rust). The source is read as text only;
nothing is built or run. The model is Lean 4.33.0 + Mathlib, in `/verif/lean`.

## 1. Trusted base

* Lean's kernel, and the axioms `propext`, `Classical.choice`, `Quot.sound` (Lean/Mathlib's
  standard three). No axioms are added; no `sorry`, `admit`, `native_decide`, `bv_decide`.
  Section 6 lists how the axioms of each property theorem are checked (`#print axioms`).
* The correspondence between the Rust text and the Lean definitions, which is by reading. Every
  definition of the model carries a comment with the file and lines it models and the
  simplifications made.
* Behaviour of things that are not in `/repo`: libsodium, prost, getopts, crossbeam-channel, rand, std.
  Each is represented as described in section 3.

## 2. Layout

| directory | contents |
|---|---|
| `lean/Verif/Model/*` | the model: one Lean file per Rust file (approximately), total computable functions and small transition systems |
| `lean/Verif/Spec/*` | small independent specifications used in the statements (carry-less multiplication, access structure, chunk layout, ...) |
| `lean/Verif/Proofs/*` | helper lemmas |
| `lean/Verif/Props/*` | the property theorems, one section per property, with a concrete instance beside each theorem. Cases that serve several theorems are at the end of the file (`Sample`, "Concrete cases", "Samples") or in a file of their own: `ProgramSamples` (C82-C88, C97), `ProgramFailureSamples` (C89-C92), `StreamSamples` (the same for pipes, C98), `TalkSamples` (C101-C104, C107), `TalkDoneSamples` (C106), `RerunSamples` (C119) |

## 3. What is modelled, and how

| Rust file | Lean model | left out |
|---|---|---|
| `src/shamir/gf256.rs`, `src/shamir/mod.rs` | `Gf256`, `Shamir` | Debug impls, tests |
| `src/header_io.rs` | `HeaderIO` | |
| `src/proto/*`, `header.proto` | `Proto`, `Credentials` | prost itself (see below) |
| `src/header_crypto.rs` | `HeaderCrypto` | Debug output of the header |
| `src/crypto/mod.rs`, `rng.rs`, `libsodium.rs` | `Crypto` (interface), `Sodium` (instantiation, every wrapper with the codes it checks, the version text, random integers) | libsodium itself (functions of a structure `Ffi`, documented laws in `Spec.Documented`); `aead_keygen`, where random bytes come from, wiping of memory |
| `src/stream_crypto.rs` | `StreamCrypto` | |
| `src/stream_pipeline.rs` | `Pipeline`, `PipelineFine` | what a panic prints |
| `src/io_streams.rs` | `Filesystem`, `CryptStreams` | Windows branches |
| `src/commands/crypt.rs` | `CryptStreams`, `CryptFile`, `Reports`, `Talk`, `ProgramTalk` | the texts of errors (arbitrary) |
| `src/commands/gen_keys.rs`, `src/cli/key_management.rs` | `GenKeys`, `GenKeysShared`, `KeyText`, `Cli`, `Permissions` | |
| `src/commands/help.rs` | `Help`, `Program`, `Sodium.versionText` | |
| `src/cli/options.rs`, `src/cli/mod.rs`, `src/cli/io_streams.rs` | `Getopts`, `Cli`, `Naming`, `Paths` | |
| `src/cli/credentials.rs` | `CliCredentials`, `Passwords`, `KeyText`, `Hex` | |
| `src/credentials.rs` | `CredentialTraits`, `Credentials` | |
| `src/ui.rs`, `src/terminal.rs` | `UI`, `Termios`, `Text` | `isatty`, console calls of Windows |
| `src/progress.rs`, `src/util.rs` | `Progress`, `ProgressText`, `Human`, `Hex`, `Endian` | |
| `src/main.rs`, `src/commands/mod.rs`, `src/lib.rs`, `src/errors.rs` | `Program` | the panic hook |

* **Results.** `Res α = ok a | err e | panic`: `Fallible` results, with every Rust panic path
  (assert, slice index, `expect`, `split_at`, `chunks_exact(0)`, division by zero) an explicit value.
  Errors are an enumeration, one constructor per error message; texts of messages are not modelled, except where a
  property is about what appears on the terminal.
* **Integers.** `u8` is `UInt8`; lengths are `Nat`; `usize`/`u64` arithmetic that can wrap in a release
  build is modelled with an explicit wrap modulo 2^64 (debug builds panic there instead; noted at each place).
  A 64-bit platform is assumed. The counts of `-v`/`-q` are not limited to 32 bits.
* **Crypto primitives.** A structure `Crypto` of arbitrary functions (hash, HMAC, password KDF, detached AEAD,
  detached box, keypair). A predicate `Crypto.Lawful` collects what libsodium documents (lengths, decrypt after
  encrypt). It is a hypothesis of round-trip theorems only, and shown satisfiable by a toy instance.
  Authenticity theorems do not assume unforgeability: they are reductions whose conclusion names the forged
  ciphertext or the hash collision. Theorems in which a wrong credential must be noticed say so as a hypothesis about this
  header. SHA-512, for key files, is any function with 64-byte results.
* **Randomness.** An infinite byte tape `Nat → UInt8` consumed in the order of the code's calls. Secrecy is
  stated as "XORing the tape with a fixed mask maps view to view", which is equality of distributions under a
  uniform tape. The result of `gen_range` is a separate argument.
* **Protobuf.** prost 0.5 is not in `/repo`; the codec is modelled from the proto3 wire format for the four
  messages of `header.proto`, including default-skipping, unknown-field skipping, last-one-wins and nested messages.
* **getopts.** getopts 0.2.21 is not in `/repo`; `Getopts` is modelled from its documented behaviour (clusters of short
  options, values attached or in the next argument, `--name=value`, `--`, single-use options, positions, layout of the usage text). Arguments are Unicode texts;
  arguments that are not are refused before anything else happens. `Spec/Getopts.lean` states independently what a
  command line means, and C70 relates the two.
* **Threads.** `convert_stream` is a labelled transition system: three worker threads, the main loop, four
  crossbeam channels (FIFO, bounded(1)/unbounded, disconnect semantics), an environment that picks read sizes, EINTR
  and faults. Theorems quantify over all reachable states.
* **Filesystem.** Entries of directories (files with content and link count, directories, links, others) and a fixed directory
  tree. No other process modifies files during a run, except in C108 and C109 (`SharedRun`, `QuietRun`), where others change the files
  in any way between the steps, while an input is opened and while it is read, and in C110 (`InstancesRun`), where the others are further
  instances of the program. `crypt_streams` is a transition system whose labels are what it does
  to the filesystem, so that crash points are its reachable states. Only process crashes (kill) are modelled, not loss of OS
  buffers (the code never calls fsync, so nothing can be proved for power loss). `lstat` sizes of non-files are 0.
* **Key generation** is a function of the random choices and of the fates of all file operations and terminal writes (each may fail
  after any number of bytes). For C116 and C117 it is also a transition system (`ManyRun`): any number of instances write byte by
  byte, in any order, among other processes. `keygen_alone_is_shared` relates the two.
* **Terminal.** Standard input is a list of bytes, interrupts and errors; writes to standard error may fail at any point;
  what is written, and whether echo was on when input was read, is recorded.
* **Strings and paths.** Rust `Path` handling (`file_name`, `extension`, `with_extension`, ...) is modelled on
  char lists for Unix paths. `char::is_whitespace` is the Unicode property White_Space; UTF-8 decoding rejects what Rust rejects.
* **Numbers as text.** Conversion of `u64` to `f64` is rounding to 53 bits, ties to even; `{:.1}` is rounding of the exact value; division and
  multiplication in the percentage round to 53 bits each.
* **Sorting.** `sort_by_key` is stable insertion sort.
* **The whole program** (`Program`): from arguments, terminal, files and standard input to files, standard output and exit status; conversions at every
  moment, key generation after every single byte written.

Not modelled: the Windows `cfg` branches,
allocation failure, stack exhaustion (C120 says how deep recursion on headers goes), prost's treatment of group wire types, side channels,
OS-level durability.

## 4. Properties

`properties.jsonl` has the full statements. For each: model, proof method.

| id | modelled | method |
|---|---|---|
| C01 | header + framing + stream composition | equational, from C02, C14, C18, C29 |
| C02 | `encrypt_composite_key` / `decrypt_composite_key` on trees | mutual induction over the tree; access structure is a separate spec |
| C03 | same | same induction, negative side |
| C04 | tree of key parts, random tape | linearity over XOR + existence of a mask, induction over the tree |
| C05 | `create_secret_shares`, `recover_secret` | GF(256) as a Mathlib field, Lagrange interpolation |
| C06 | same | explicit masking polynomial |
| C07 | same | case analysis, both directions |
| C08 | tables, arithmetic | kernel evaluation of the full tables, then algebra |
| C09 | whole decryption path on arbitrary bytes | reduction: divergence point of the two chunk sequences |
| C10 | same, with partial output | same |
| C11 | same | corollary of C09 plus length argument |
| C12, C13 | nonce builders, traces of nonces used | injectivity of little-endian encodings, induction over the tree |
| C14–C16 | `read_header`, `write_header` | equational |
| C17, C18 | `read_stream` loop with environment-chosen read sizes | invariant of the loop |
| C19–C25 | pipeline transition system | inductive invariant, ranking function |
| C26 | sequential file encoding | arithmetic |
| C27, C28 | chunk size choice, protected header encoding | arithmetic, encoding lengths |
| C29 | wire codec | induction over trees |
| C30 | `decrypt_header` | case analysis |
| C31–C35 | `crypt_streams` as an effectful program over the filesystem model | invariants over the operation list (all prefixes) |
| C36 | `InputStream::open` | decision table |
| C37–C39 | path functions | list lemmas |
| C40–C43 | `get_mode`, stream selection, verbosity | decision logic |
| C44–C46 | token extraction and the recursive parser | induction |
| C47–C49, C66 | UI loops over an input byte stream | induction on the input |
| C50–C52 | hex and checksum code, key texts | induction |
| C53, C65 | `gen_keys` effects, path choice | invariants |
| C54, C56, C57, C61 | error/panic paths | negation proved with a witness; positive part `_partial` |
| C55, C63 | shape functions | mutual induction |
| C58 | integer part of the formatting code | arithmetic |
| C59 | decryptor list | monotonicity over the tree |
| C60 | `read_file_lines` | equational |
| C62 | easy wrappers | equational |
| C64 | splitter | XOR algebra, C05 |
| C65 | `get_keypair_streams` | decision logic on paths |
| C67 | `encrypt_file` as bytes | equational, from C26, C29 |
| C68, C78, C86 | `crypt_streams` transition system | invariants over all executions |
| C69 | terminal record with its settings and the fates of the calls that change them | induction over the dialogue |
| C70 | `Getopts.parse` against a declarative reading | soundness and completeness, induction over the arguments |
| C71 | command line construction for every credential tree | induction over the tree |
| C72, C73 | credential parser, whole command line, panic paths | negation with a witness; positive part `_partial` |
| C74 | `PartialEq` of credentials | mutual induction |
| C75 | progress printer over sequences of updates | invariant |
| C76 | terminal record of key generation | case analysis over the runs |
| C77 | `crypt_streams` on standard input and output | refinement to C01 |
| C79–C81 | option values reaching the command, key texts, defaults | decision logic |
| C82–C86 | the whole program | composition of the parts: parse, run, exit status |
| C89–C92 | failing, cut short and tampered conversions of the whole program | invariants over all executions, C03, C09, C22 |
| C97 | `set_stdin_echo` on the bits of `struct termios` | bitwise, then the frame of C69 through the command line and key generation |
| C98 | panics of the whole program | the step before a panic, invariants of C27/C89 for what is converted, causes of C56, C57, C72, C73 |
| C99 | the help text, computed as getopts lays it out | a reader of lines proved equivalent to the layout the user sees; the grammar of C70; the text itself is finite and evaluated by the kernel |
| C100 | `format_progress_line`, with the float arithmetic of the percentage | error bounds of the three roundings; invariant of the printer for the sizes |
| C101–C104 | conversions with the terminal: what is said, the question | a transition system that refines the one of C31–C36; a grammar of what is on the terminal as invariant; lifting of executions |
| C105 | what is reported to the progress display during a conversion | the transition system of the pipeline, with the reports; invariant over all schedules |
| C106 | the progress lines of a file against its conversion | the transition systems of C101 and C105 joined; size of the opened file as invariant; C75, C100 |
| C107 | how late the progress display crashes | sublist invariant on the kept instants; sizes of consecutive chunks (C105) |
| C108 | conversions among other processes that do anything | guarantee of every single move of the program, with an invariant over the moves so far |
| C109 | conversions among other processes that work elsewhere | simulation by an undisturbed execution, up to inode numbers |
| C110 | several instances of the program on the same files | invariant over interleavings: which instance writes which file |
| C111 | what key generation shows, pair by pair | case analysis of one pair, induction over the pairs |
| C112 | `convert_stream` with threads starting one by one and channel ends dropped one by one | stuttering refinement of the model of C17–C25 |
| C113 | memory for data in `convert_stream`, with the chunk sizes of `encrypt_header` and `decrypt_header` | invariant of C22 (six buffers), C27, C88 |
| C114 | permissions of files, kept beside the filesystem | every execution is a sequence of creations, writes and deletions; permissions follow from it |
| C115 | `crypt_streams` as a whole: no livelock, the end stays reachable | ranking function, C22 |
| C116, C117 | key generation by several instances, byte by byte, among other processes | invariant over interleavings; simulation of the function by the system |
| C118 | key files cut off, or read while they are written | text of key files, prefix arguments |
| C119 | a second run after a failed one, on the files it left | case analysis of every stream's state, C87 |
| C120 | decoding, encryption and decryption of keys; nesting as a measure of the structure | induction on credentials and on the decoder; a family of headers |
| C121 | one run for many files against a sequence of runs for one file each | division of runs into phases; a relation between files with and without one input, simulated in both directions |
| C122 | headers with unknown fields at any level against the same headers without | what reading a message does depends only on its known fields; the bound on nesting does not matter |
| C123 | headers opened or made with two libraries that differ on inputs other than the allowed ones | induction over the credential tree; congruence |
| C124 | two command lines whose readings (`Typed`) have the same file names and options (`SameOptions`): equal results of parsing, equal executions | canonical form: everything but credentials depends on counts, credentials on the order typed; case analysis of executions |
| C125 | credentials that differ in the order of members (`Reordered`), headers made with them, supplied credentials in any order; permuted arguments | induction over the reordering, with C02 and the grammar of C44 |
| C126 | headers, and relations `SharesOf`, `SealedFor`, `HeaderFor` (on top of `ReadsHeader` of C127) written without reference to the code or to random choices | induction over the tree in both directions; every choice of shares comes from some tape, which reduces opening to C02 |
| C127 | strings of bytes, and relations `Fields`, `ReadsGroup`, `ReadsHeader`, `ReadsProtected` that follow header.proto and the encoding of protobuf | parsing inverted field by field; every merge step against 'the last value' or 'all values'; groups and members by induction on the length |
| C128 | whole runs of the program against the format (`InFormat`) | C83, C87, C126 |
| C93–C96 | what is got from libsodium, `--version` | a structure of arbitrary functions with documented laws as hypothesis, decision tables, C87, C92 |
| C87, C88 | existence of successful executions, exact conditions for headers | construction of executions, induction over the tree |

## 5. Places where code and expectation disagree

Each was found while proving; the theorem named is the formal witness (or the exact condition).

Panics (crash instead of an error message):

* `hostile_header_can_panic`, `hostile_header_can_panic_empty` (C56): a header whose composite key parts have unequal or zero
  length passes all checks until `recover_secret`/`chunks_exact`. Whoever can encrypt to one of the supplied credentials can crash decryption.
* `panic_leaves_output` (C32): such a panic leaves the (empty) output behind and skips the remaining files.
* `private_key_line_can_panic` (C54), `command_line_can_panic` (C73): a private key file line of 128 bytes with a
  multi-byte character across byte 64 panics in `split_at`. `command_line_panic_cause` and `command_line_panics_iff` say that nothing else
  on the command line does.
* `huge_shares_panic` (C72): share counts that sum to a small number modulo 2^64 are accepted and crash when parts are handed out
  (a release build; a debug build crashes on the addition). No header is ever made from such counts (`accepted_credential_no_header_if_wraps`),
  so the round trip (C84) needs no assumption about them.
* `empty_file_slow_start_panics`, `first_update_panics_iff` (C57): the progress display divides by the measured speed, which is 0 if
  the first update comes after more than a second with fewer bytes than seconds. Encrypting an empty file with slow password hashing is enough.
  The crash is in the main thread: the output is complete but not cleaned up, and the remaining files are not dealt with.
* `decrypt` of a last chunk shorter than the MAC panics in the codec thread. The pipeline turns this into an error (C21), so
  the file is refused as it should be.

* C98 says that these are all crashes of the model. Outside of it: memory or stack exhausted, and the failing key derivation of C95. The times
  at which the progress display is told something are an arbitrary set of histories (`Start.histories`); the bytes it is told are linked to the
  bytes converted (`Told`), so a crash of the display takes more seconds than there are bytes in the first chunk (C107). File sizes are
  below 2^63.
* The exit status of a panic is 101 in the model. If the progress display panics after it has printed a line, it panics again while it is
  dropped during unwinding, and the process is aborted instead (134 in a shell). Both are failures. What the panic hook prints is not modelled.

Sizes and wrap-around:

* `split_key_guard_wraps` (C61): the check of the product `parts * length` wraps; 2^59 parts of 32 bytes pass.
* `check_chunk_size_iff` (C27): a chunk size of 0 passes `check_chunk_size` on decryption.
* `decryption_memory_can_be_large` (C113): the README promises less than 10 MB of memory. Chunk sizes up to 1 GiB are accepted, so a header of
  a few bytes, by anybody who can encrypt to the key, makes the program allocate more than 6 GiB before it reads anything.
* `deep_header` (C120): nothing limits how deep keys are nested in a header. A header of 16 MB that anybody can write makes the program call
  itself more than 1.6 million times, before anything is authenticated; the stack of a process is usually 8 MB. The model, which has no
  stack, reports insufficient credentials.
* `shamir_recover_outcome` (C07) excludes indices at 2^64 − 1, where `idx + 1` wraps.

Files:

* `chained_files_differ` (C121): inputs are deleted after all conversions, so a name that one of them gives up is not free for the output
  of a later one; separate commands would succeed.
* `forced_failure_destroys_output` (C31): with `--force` an existing output is lost even if the conversion fails.
* `link_to_directory_opened` (C36): with `--force`, or in stream mode, a link to a directory is opened (reading then fails).
* `link_size_shown`, `link_size_wrong` (C106): in stream mode (which the program recommends for links) and with `--force` the size of an input
  that is a link is taken from the link itself, that is, the length of the path it holds. The progress display never shows more than the
  size, so it stays at `100.0 %` of a few bytes from the first update on, however large the file is.
* `replaced_input_is_deleted`, `replaced_output_is_deleted` (C108): inputs and failed outputs are deleted by their paths, after everything else or
  after the failure. What someone else has put there meanwhile is deleted unread. `swapped_link_is_followed` (C108): a path is opened and then
  looked at, so a link that is replaced by a file in between is not refused. C109 says that nothing of this happens if others leave the
  inputs and outputs alone; C108 says what holds in any case.
* `chained_instances_lose_data` (C110): if one instance encrypts the output of another one while it is being written, and deletes it afterwards,
  both report success and the data is gone: what was encrypted was an incomplete file, and the complete one has no name any more. C110
  excludes this by assuming that no output of one is an input of one.
* `dot_name_collision` (C38): `a` and `a.` have the same encrypted name; `encrypted_names_collide_iff` and `own_output_iff` are exact. `forced_empty_suffix_overwrites` (C39): `-S "" --force`
  encrypts a file onto itself. `dotted_suffix_never_decrypts` (C37): with `-S tar.rypt` nothing can be decrypted under its name.
* `privacy_is_lost`, `private_key_can_be_read` (C114): files are created with the permissions of any new file. With the usual umask everybody can
  read what was decrypted from a file only the owner could read, and everybody can read new private keys. NOTES.md (which calls itself stale)
  says that permissions are copied.
* `keygen_orphan_public_key`, `keygen_forced_collision`, `public_paths_can_collide` (C53, C65): a public key file can be left without its private key;
  `a.x` and `a.y` share the public file `a.pub`, and with `--force` the first one is overwritten silently.
* `half_private_key_file_is_public_key_file` (C118): a private key file cut off after 64 bytes is accepted as a public key file; the "public key" is the
  secret half.
* `refused_key_blocks_decryption` (C59): a private key that libsodium refuses makes decryption fail although another credential opens the file.
* `key_derivation_panics_iff` (C95): if libsodium cannot derive a key from a password (no memory), the program panics by an assertion instead of
  reporting an error. The rest of the model takes the derivation as total, so C73 (no panics) does not speak of this case.

Terminal:

* `password_switches_echo_on` (C97): a terminal whose echo was off before has it on after a password was asked for. `password_ruins_settings`
  (C97): if the settings cannot be read at the end, zeros are written over all of them.
* `password_shown_if_refused` (C69): if the echo cannot be switched off, the program goes on and the password is shown.
* A process killed while a password is typed leaves the echo off: by `password_not_echoed` it is off at every such moment, and nothing restores it.

Command line:

* `dangling_shares_ignored` (C44): `--key-shares` at the very end is ignored.
* `merged_with_others_refused` (C46): `-pp -t 2` is refused though `-p -p -t 2` is accepted.
* C40: the last mode option wins, but inside one cluster (`-de`) the order of the code's list decides, not the order of the letters.
* C43: explicit `-v`/`-q` leave the progress display as it was set.
* C60/C47: passwords read from files are trimmed, typed passwords are not (`password_file_agrees_with_typing` says when both agree).
* `messages_on_fresh_lines` (C101) ends at the question: if the answer cannot be read, the error is written behind it on the same line.
* An input that cannot be deleted is reported (not with `--force`), but the exit status stays 0 (`exit_status` does not mention it).
* A write error on the terminal during key generation ends the run; pairs not yet reached are not written (C53).

## 6. How to check

`cd lean && lake build`. `Verif/Axioms.lean` prints the axioms of every property theorem (`lake env lean Verif/Axioms.lean`).
At the time of writing: `opens_only_plain_files`, `refusals`, `link_to_directory_opened`, `private_key_line_can_panic`, `input_given_away` depend on
`propext` only; `gf256_add_sub_is_xor`, `encrypt_chunk_size_never_refused`, `protected_header_length`, `last_mode_unique`,
`private_key_text_ends_with_public`, `trim_removes_ends`, `easy_wrappers_roundtrip`, `easy_wrappers_reject`, `credential_eq_iff`,
`members_eq_iff` on `propext` and `Quot.sound`; all others on `propext`, `Classical.choice` and `Quot.sound`.

Tools (run from `/verif`):

* `tools/mkprops.py` writes `properties.jsonl`; `tools/mkmanifest.py` writes `MANIFEST.json`, `lean/Verif.lean` and `lean/Verif/Axioms.lean`
  from `tools/claims.txt`.
* `tools/mutants.py` is the list of wrong programs; `tools/mutate.py` builds each in `/tmp/mut` and asks which property
  theorems are still proved; `tools/mklog.py` writes the outcome to `seeded/LOG.jsonl`. A theorem counts as failed if its proof, or the proof
  of a lemma it uses, no longer checks.
