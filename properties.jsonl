{"id": "C01", "title": "Encrypt then decrypt gives the plaintext back", "statement": "If a file is encrypted successfully with some credential tree, then decrypting the resulting bytes with any list of credentials that satisfies the tree succeeds and writes exactly the original plaintext.", "quantifier": "every plaintext (any length, including empty and exact multiples of the chunk size), every well-formed credential tree, every random tape, every chunk size the tool can draw, every satisfying credential list, every lawful set of crypto primitives", "why_tests_cant": "tests sample a handful of sizes and one threshold shape; boundary sizes and nested trees are unbounded", "anchors": ["src/header_crypto.rs: encrypt_header, decrypt_header", "src/header_io.rs: write_header, read_header", "src/stream_crypto.rs: convert_chunk", "src/stream_pipeline.rs: read_stream", "src/commands/crypt.rs: crypt_streams"]}
{"id": "C02", "title": "A file opens exactly for the credential sets its access structure allows", "statement": "The payload key of a header produced by encryption is recovered, byte for byte, if and only if the supplied credentials satisfy the credential tree: a leaf is satisfied when the same password / symmetric key / matching private key is supplied, a group when the satisfied members' shares sum to at least its threshold.", "quantifier": "every well-formed credential tree of any depth and width (OR, AND, M-of-N, weighted shares), every list of supplied credentials in any order, every random tape", "why_tests_cant": "the space of trees and credential subsets is infinite; tests check 3-of-5 and 5-of-5 with single shares", "anchors": ["src/header_crypto.rs: encrypt_composite_key, decrypt_composite_key, decrypt_key_parts, split_key_into_key_parts", "src/shamir/mod.rs"]}
{"id": "C03", "title": "Insufficient credentials always end in the 'insufficient credentials' error and write nothing", "statement": "Decrypting an honestly produced file with credentials that do not satisfy its tree ends with the 'Invalid or insufficient credentials' error and no plaintext byte is written.", "quantifier": "every honest file, every unsatisfying credential list", "why_tests_cant": "tests try two passwords out of five only", "anchors": ["src/header_crypto.rs: decrypt_header", "src/commands/crypt.rs: crypt_streams"]}
{"id": "C04", "title": "A coalition below threshold learns nothing about the payload key", "statement": "For a credential tree not satisfied by coalition S, the key material S can decrypt has exactly the same distribution for every payload key: there is a fixed mask such that XORing the random tape with it maps the view under one key to the identical view under any other key. This holds for the whole header: the payload key is fresh randomness, independent of the ephemeral key pair and of the sharing.", "quantifier": "every well-formed tree (arbitrary nesting), every unsatisfying coalition, every pair of equal-length keys, every random tape", "why_tests_cant": "perfect secrecy is a statement about all random tapes and all keys; no test can observe it", "anchors": ["src/header_crypto.rs: split_key_into_key_parts, encrypt_composite_key", "src/shamir/mod.rs: create_secret_shares"]}
{"id": "C05", "title": "Any threshold-many shares recover the secret", "statement": "create_secret_shares(secret, n, t) with 1<=t<=n<=255 followed by recover_secret on any list of at least t of the shares with their distinct indices, in any order, returns the secret.", "quantifier": "every secret, every n and t in range, every random tape, every selection and order of shares", "why_tests_cant": "the unit test checks n=5, t=3 with one secret", "anchors": ["src/shamir/mod.rs: create_secret_shares, recover_secret"]}
{"id": "C06", "title": "Fewer than threshold shares are independent of the secret", "statement": "For any set of fewer than t share indices the selected shares of any two equal-length secrets coincide after XORing the random tape with a fixed mask; hence the selected shares carry no information on the secret.", "quantifier": "every n, t, every index set smaller than t, every pair of secrets, every tape", "why_tests_cant": "an information-theoretic claim over all tapes", "anchors": ["src/shamir/mod.rs: create_secret_shares"]}
{"id": "C07", "title": "Secret sharing rejects exactly the invalid requests", "statement": "create_secret_shares fails iff t=0, n<t or n>255; recover_secret fails iff t=0, indices repeat, fewer than t shares are given, one of the first t indices exceeds 254, or the first t shares differ in length; each with its own error and never a panic.", "quantifier": "every n, t, every list of (index, share) pairs", "why_tests_cant": "error boundaries over unbounded inputs", "anchors": ["src/shamir/mod.rs: create_secret_shares, recover_secret, SecretShareError"]}
{"id": "C08", "title": "The GF(256) tables implement the AES field", "statement": "Table multiplication equals carry-less polynomial multiplication modulo x^8+x^4+x^3+x+1, addition and subtraction are XOR, division inverts multiplication, and all field axioms hold.", "quantifier": "all bytes a, b, c", "why_tests_cant": "quickcheck samples; 2^24 triples are not enumerated", "anchors": ["src/shamir/gf256.rs: GF256_EXP, GF256_LOG, Mul, Div, Add, Sub"]}
{"id": "C09", "title": "Any change to an encrypted file is rejected", "statement": "If decryption of a byte string different from an honestly encrypted file succeeds, with any credentials, then an AEAD ciphertext was accepted under the payload key that the encryption did not produce, or two different headers have the same hash, or the header opens to another payload key (senders are anonymous: it is somebody else's file). With an unchanged header only the first is possible.", "quantifier": "every honest file, every other byte string (bit flips, truncation, extension, chunk reordering or splicing, header edits), every credential list", "why_tests_cant": "the set of modifications is infinite", "anchors": ["src/stream_crypto.rs: convert_chunk", "src/header_io.rs: read_header", "src/header_crypto.rs: decrypt_header", "README.md: '100% Authenticated Encryption'"]}
{"id": "C10", "title": "Whatever decryption writes is an authentic prefix", "statement": "While decrypting any modified file, the bytes already written when an error is reported are a prefix of the original plaintext (a whole number of chunks), unless an AEAD forgery or hash collision occurred.", "quantifier": "every honest file, every modified byte string, every position where decryption stops", "why_tests_cant": "quantifies over all tampered streams and failure points", "anchors": ["src/stream_pipeline.rs: convert_stream", "src/stream_crypto.rs: convert_chunk"]}
{"id": "C11", "title": "Truncated files are never accepted", "statement": "Cutting an encrypted file at any byte position (including chunk boundaries and just after the header) makes decryption fail, unless an AEAD forgery occurred.", "quantifier": "every honest file, every proper prefix of it", "why_tests_cant": "every cut position of every file", "anchors": ["src/stream_pipeline.rs: read_stream (is_last_chunk)", "src/stream_crypto.rs: authed_data", "src/header_io.rs: read_header"]}
{"id": "C12", "title": "No nonce is used twice with the payload key", "statement": "Within a file the nonces of the protected header and of all payload chunks are pairwise different.", "quantifier": "every plaintext shorter than 2^64 chunks; all chunk indices", "why_tests_cant": "all indices up to 2^64", "anchors": ["src/stream_crypto.rs: CHUNK_NONCE, convert_chunk", "src/header_crypto.rs: ENCRYPTED_HEADER_NONCE"]}
{"id": "C13", "title": "No nonce is used twice for wrapping key parts", "statement": "The key parts of a header are wrapped under consecutive recipient indices, so their nonces are pairwise different, and differ from chunk and protected-header nonces.", "quantifier": "every credential tree with fewer than 2^32 leaves", "why_tests_cant": "all trees", "anchors": ["src/header_crypto.rs: encrypt_composite_key, recipient_secret_nonce, recipient_box_nonce"]}
{"id": "C14", "title": "Header framing round-trips and stays 8-byte aligned", "statement": "For every header of 1..16 MiB bytes, write_header succeeds, its output length is a multiple of 8, and read_header on that output followed by arbitrary data returns the header, the number of bytes read, and leaves the data untouched.", "quantifier": "every header byte string within the size limit, every following stream", "why_tests_cant": "all lengths and contents", "anchors": ["src/header_io.rs: write_header, read_header, padding_len"]}
{"id": "C15", "title": "Only canonical headers are accepted", "statement": "read_header succeeds on a stream iff the stream begins with exactly the bytes write_header would produce for the returned non-empty header; bad signature, zero or oversized length, non-zero padding and early end of data are errors, never panics.", "quantifier": "every byte string", "why_tests_cant": "all malformed inputs", "anchors": ["src/header_io.rs: read_header"]}
{"id": "C16", "title": "A hostile length field cannot force a large allocation", "statement": "read_header never requests more than 8 + 16 MiB bytes in total, whatever the input; write_header refuses larger headers.", "quantifier": "every byte string", "why_tests_cant": "all inputs", "anchors": ["src/header_io.rs: MAX_HEADER_LEN, read_header, write_header"]}
{"id": "C17", "title": "Chunking does not depend on how the OS splits reads", "statement": "The sequence of chunks handed to the codec depends only on the stream's bytes and the chunk size, not on short reads, EINTR retries or timing.", "quantifier": "every byte stream, every schedule of read sizes and interruptions", "why_tests_cant": "infinitely many read schedules", "anchors": ["src/stream_pipeline.rs: read_stream"]}
{"id": "C18", "title": "Chunk layout", "statement": "All chunks but the last have exactly the chunk size, exactly the last one carries the last flag, concatenating them gives the input, and the last is non-empty unless the whole input is empty.", "quantifier": "every byte stream, every positive buffer size", "why_tests_cant": "boundary sizes for every chunk size", "anchors": ["src/stream_pipeline.rs: read_stream"]}
{"id": "C19", "title": "Every thread interleaving writes the same ordered bytes", "statement": "At every moment of every interleaving of the reader, codec, writer and main threads, the bytes written are a prefix of the in-order concatenation of converted chunks.", "quantifier": "every input, every codec, every interleaving, every fault point", "why_tests_cant": "the number of interleavings is unbounded", "anchors": ["src/stream_pipeline.rs: convert_stream, read_stream, convert_chunks, write_stream"]}
{"id": "C20", "title": "Success means everything was converted, written and flushed", "statement": "If convert_stream returns Ok, the bytes written are exactly the conversion of the entire input and the output was flushed after the last chunk.", "quantifier": "every execution of the pipeline, including those with faults or early termination", "why_tests_cant": "early-termination races cannot be enumerated", "anchors": ["src/stream_pipeline.rs: convert_stream (join_results handling, SendError suppression)"]}
{"id": "C21", "title": "Every fault is reported", "statement": "If reading, converting, writing or flushing fails or a worker panics, convert_stream returns an error; if none does, it returns Ok.", "quantifier": "every execution, every fault at every point in every thread", "why_tests_cant": "fault points x interleavings", "anchors": ["src/stream_pipeline.rs: convert_stream"]}
{"id": "C22", "title": "The pipeline never deadlocks and always terminates", "statement": "In every reachable state either the pipeline has finished or some thread can take a step, and the number of steps other than EINTR retries is bounded by the input size.", "quantifier": "every reachable state, every interleaving, every fault pattern", "why_tests_cant": "liveness over all schedules", "anchors": ["src/stream_pipeline.rs: convert_stream"]}
{"id": "C23", "title": "At most six buffers are ever in use and none is reallocated", "statement": "At every moment the pipeline holds at most six chunk buffers and every buffer's length stays within its initial capacity, so the capacity assertion in the main loop cannot fail.", "quantifier": "every reachable state", "why_tests_cant": "all interleavings", "anchors": ["src/stream_pipeline.rs: NUM_CHUNKS_IN_PIPELINE, buffer_capacity, assert_eq! on capacity"]}
{"id": "C24", "title": "Chunks are numbered consecutively in stream order", "statement": "The k-th chunk of the stream is converted with chunk index k, however buffers are recycled.", "quantifier": "every execution", "why_tests_cant": "index assignment happens in a different thread from reading", "anchors": ["src/stream_pipeline.rs: chunk_idx in convert_stream"]}
{"id": "C25", "title": "Progress adds up to the input size", "statement": "On success the progress callback has been given byte counts summing exactly to the number of input bytes, and the subtraction computing each count never underflows.", "quantifier": "every successful execution", "why_tests_cant": "all sizes and interleavings", "anchors": ["src/stream_pipeline.rs: written_bytes"]}
{"id": "C26", "title": "Encrypted size is header + plaintext + 16 bytes per chunk", "statement": "The encrypted file has length |framed header| + |plaintext| + 16 * max(1, ceil(|plaintext| / chunk size)).", "quantifier": "every plaintext and chunk size", "why_tests_cant": "all lengths", "anchors": ["src/stream_crypto.rs: convert_chunk", "src/stream_pipeline.rs: read_stream"]}
{"id": "C27", "title": "Chunk sizes are always valid", "statement": "Encryption always picks a chunk size that is a multiple of 8 within 1 MiB +- 4 KiB and passes the validity check; decryption rejects every chunk size that is above 1 GiB or not a multiple of 8.", "quantifier": "every random draw; every chunk size found in a header", "why_tests_cant": "all draws and all 64-bit sizes", "anchors": ["src/header_crypto.rs: encrypt_header, check_chunk_size, decrypt_header"]}
{"id": "C28", "title": "The protected header's size reveals nothing", "statement": "The encrypted protected header always has the same length for every chunk size encryption can choose and every sender key.", "quantifier": "every chunk size encryption can choose, every 32-byte key", "why_tests_cant": "all values", "anchors": ["src/proto/header.proto: ProtectedHeader", "src/header_crypto.rs: encrypt_header"]}
{"id": "C29", "title": "Header protobuf round-trips", "statement": "Decoding the serialization of any header message yields the same message, and the same for the protected header.", "quantifier": "every header message with any composite key tree", "why_tests_cant": "trees of unbounded depth and width, arbitrary byte fields", "anchors": ["src/proto/header.proto", "src/util.rs: serialize_proto", "src/header_crypto.rs: decrypt_header"]}
{"id": "C30", "title": "Unsupported or inconsistent headers are rejected", "statement": "Decryption fails if the crypto family or algorithm is unknown, the ephemeral key is not 32 bytes, the payload key is missing or not 32 bytes, the sender auth type is not Anonymous, or the protected sender key differs from the ephemeral key.", "quantifier": "every header message, every credential list", "why_tests_cant": "all malformed headers", "anchors": ["src/header_crypto.rs: decrypt_header, cryptosys_from_proto"]}
{"id": "C31", "title": "Without --force no existing file is modified except deleting converted inputs", "statement": "When encryption or decryption runs without --force, every file that existed beforehand has unchanged contents afterwards or is an input that was successfully converted and then deleted under the cleanup policy.", "quantifier": "every initial filesystem, every list of inputs, every outcome (success, failure, I/O error) of every conversion", "why_tests_cant": "all filesystem states and fault combinations", "anchors": ["src/io_streams.rs: OutputStream::open (create_new)", "src/commands/crypt.rs: crypt_streams"]}
{"id": "C32", "title": "A failed conversion leaves no output and keeps its input", "statement": "If converting an input ends with an error, the output file it created is removed and the input file is left as it was.", "quantifier": "every failing conversion at any failure point, without --force and with deletions succeeding", "why_tests_cant": "all failure points", "anchors": ["src/commands/crypt.rs: crypt_streams (output_cleanup_cb_opt)", "src/io_streams.rs: open_with_cleanup_cb"]}
{"id": "C33", "title": "Inputs are deleted only on success and with consent", "statement": "An input file is deleted only if its conversion succeeded and the policy is 'discard', or the policy is 'prompt' and the user answered y or yes.", "quantifier": "every run, every policy, every sequence of user answers, every set of outcomes", "why_tests_cant": "all answers and outcomes", "anchors": ["src/commands/crypt.rs: crypt_streams", "src/ui.rs: read_prompt_bool"]}
{"id": "C34", "title": "Killing the process never loses data", "statement": "If the process is killed after any number of filesystem operations of a run without --force, then for every input file either it still has its original content or its complete converted output exists (if that output was itself listed as an input and deleted, what it was converted to exists, and so on).", "quantifier": "every run without --force, every crash point between filesystem operations", "why_tests_cant": "all crash points of all runs", "anchors": ["src/commands/crypt.rs: crypt_streams"]}
{"id": "C35", "title": "Failures are isolated and reflected in the exit status", "statement": "The command returns an error iff at least one input failed (or user interaction failed), and a failing input does not prevent the others from being converted.", "quantifier": "every list of inputs and outcomes", "why_tests_cant": "all combinations", "anchors": ["src/commands/crypt.rs: crypt_streams", "src/errors.rs: CompositeError", "src/main.rs: main"]}
{"id": "C36", "title": "Only plain files are converted in place", "statement": "Without --force, file mode opens an input iff it is a regular file, not a symlink, with exactly one hard link; a path that is itself a directory is refused always.", "quantifier": "every file kind and link count, both force settings", "why_tests_cant": "full decision table over unbounded link counts", "anchors": ["src/io_streams.rs: InputStream::open"]}
{"id": "C37", "title": "Decrypting restores the original file name", "statement": "For every path with a file name not ending in '.', and every suffix that is non-empty without '.' or '/', encrypting the path is accepted unless it already has that suffix, the output name differs from the input name, and decrypting the output name gives back the original name.", "quantifier": "every path string and suffix within the stated bounds", "why_tests_cant": "all names, hidden files, multiple dots, trailing slashes", "anchors": ["src/cli/io_streams.rs: add_extension, remove_extension, get_encrypted_file_extension"]}
{"id": "C38", "title": "Different inputs are written to different outputs", "statement": "Distinct input names (with a file name, up to trailing slashes) get distinct output names. False for names ending in '.': 'foo' and 'foo.' both map to 'foo.rypt'; proved for names not ending in '.'.", "quantifier": "every pair of paths, every suffix", "why_tests_cant": "all pairs", "anchors": ["src/cli/io_streams.rs: add_extension"]}
{"id": "C39", "title": "The input is never its own output", "statement": "Encryption never chooses the input path as output path. False with --force and an empty suffix; proved whenever --force is absent or the suffix is non-empty, for paths with a file name.", "quantifier": "every path, suffix, force flag", "why_tests_cant": "all names and suffixes", "anchors": ["src/cli/io_streams.rs: add_extension", "src/io_streams.rs: OutputStream::open"]}
{"id": "C40", "title": "The last mode flag wins", "statement": "An accepted command line does what the last argument with a mode option says, encrypts when there is none, and shows help when it is empty and stdout is a terminal. Within one argument of merged letters the priority is version, help, key generation, decryption, encryption, not the order typed.", "quantifier": "every argument list, every terminal state", "why_tests_cant": "all argument lists", "anchors": ["src/cli/mod.rs: get_mode, parse_command_line"]}
{"id": "C41", "title": "Standard input and output are used by at most one stream", "statement": "An accepted conversion either has exactly one stream, from stdin or the one named file to stdout (stream mode, no arguments, or '-'), or one file-to-file stream per argument in order with no '-' among them; several inputs in stream mode or with '-' are refused.", "quantifier": "every argument list", "why_tests_cant": "all argument lists", "anchors": ["src/cli/io_streams.rs: get_input_output_streams"]}
{"id": "C42", "title": "Ciphertext never goes to or comes from a terminal without --force", "statement": "Without --force, a run that would write encrypted data to a terminal stdout or read it from a terminal stdin is refused before any data moves; with --force it is not refused for that reason.", "quantifier": "every argument list, direction and terminal state", "why_tests_cant": "all combinations", "anchors": ["src/cli/mod.rs: check_and_adjust_ui_verbosity, parse_command_line"]}
{"id": "C43", "title": "Verbosity and progress rules", "statement": "More than two -v or -q in excess are refused; otherwise an explicit level is respected and the progress flag kept; without one the level of a conversion becomes 1 iff stderr is a terminal and stdin/stdout are terminals or carry ciphertext, else -1, and the progress bar is shown iff the level is 1 and no data stream is a terminal; other commands keep level 0.", "quantifier": "every argument list, every terminal state", "why_tests_cant": "all combinations", "anchors": ["src/cli/mod.rs: check_and_adjust_ui_verbosity, parse_command_line"]}
{"id": "C44", "title": "Credential arguments are parsed as the grammar says", "statement": "A sequence of credential options is accepted iff the grammar gives it a meaning, and the credential is that meaning, in the order typed; accepted credentials have a threshold between 1 and the number of shares and are well-formed unless share counts wrap; unbalanced or empty groups, zero shares, repeated thresholds, and --key-shares followed by a non-key are refused (a final --key-shares is ignored).", "quantifier": "every argument list, file contents and user input", "why_tests_cant": "unbounded nesting", "anchors": ["src/cli/credentials.rs: parse_complex_credential, extract_tokens", "src/cli/mod.rs: parse_command_line", "src/cli/options.rs"]}
{"id": "C45", "title": "Wrong-direction credentials never reach the crypto code", "statement": "Credentials accepted for encryption contain no private key at any depth; those accepted for decryption are a non-empty list of passwords, symmetric keys and private keys.", "quantifier": "every token sequence, files' contents, user input", "why_tests_cant": "all argument sequences", "anchors": ["src/cli/credentials.rs: get_encrypt_credential, get_decrypt_credentials", "src/header_crypto.rs: recipient_secret_key, decryptor_from_credential, encrypt_composite_key"]}
{"id": "C46", "title": "Merged short options are never silently misread", "statement": "If a command line with credential options merged into one argument is accepted, the result is that of the options in the order typed, nothing dropped; options in arguments of their own are always taken in order.", "quantifier": "every argument list", "why_tests_cant": "all clusters", "anchors": ["src/cli/credentials.rs: extract_tokens"]}
{"id": "C47", "title": "An encryption password is used only if confirmed", "statement": "Interactive password entry returns a non-empty password; when encrypting, the user typed it twice identically in succession; all other attempts are retried.", "quantifier": "every sequence of user inputs", "why_tests_cant": "unbounded retries", "anchors": ["src/cli/credentials.rs: read_password_interactively"]}
{"id": "C48", "title": "A prompt consumes exactly one line", "statement": "Reading a prompt answer returns the line without its LF or CRLF and leaves every following byte in the stream; invalid UTF-8 and end of input are errors. Nothing is read before the whole question has been written.", "quantifier": "every UTF-8 line, every following byte stream, every failure of writing", "why_tests_cant": "all byte strings", "anchors": ["src/ui.rs: read_prompt"]}
{"id": "C49", "title": "Yes/no prompts need an explicit answer", "statement": "A yes/no prompt returns true only on y/yes (any case) or an empty line with default yes; it returns nothing without reading when prompting is impossible; other answers are asked again.", "quantifier": "every sequence of answers, verbosity and terminal state", "why_tests_cant": "unbounded retries", "anchors": ["src/ui.rs: read_prompt_bool, can_read, will_print"]}
{"id": "C50", "title": "Hex text round-trips", "statement": "Parsing the hex text of any byte string, in upper or lower case and with whitespace between bytes, returns the bytes; text is accepted iff it is hex digit pairs separated by whitespace.", "quantifier": "every byte string, every casing, every whitespace placement", "why_tests_cant": "all strings", "anchors": ["src/util.rs: to_hex_string, try_parse_hex_string"]}
{"id": "C51", "title": "The key checksum catches every case change", "statement": "A checksummed hex text is accepted iff its letters have exactly the case pattern derived from the SHA-512 of the bytes; changing the case of any letter is rejected with the checksum error.", "quantifier": "every byte string, every case change, every hash function", "why_tests_cant": "all strings", "anchors": ["src/util.rs: to_hex_string_checksummed, try_parse_hex_string_checksummed"]}
{"id": "C52", "title": "Generated key files can be read back", "statement": "The public and private key texts written by key generation parse, with checksum verification on, to exactly the generated key pair, and the last 64 characters of the private key text are the public key text.", "quantifier": "every key pair", "why_tests_cant": "all keys", "anchors": ["src/commands/gen_keys.rs: generate_key_pair_files", "src/cli/credentials.rs: from_hex32, from_hex64_private_key, read_file_lines"]}
{"id": "C53", "title": "Key generation never overwrites files without --force", "statement": "Without --force, key generation leaves every pre-existing file unchanged at every moment (also if the process is killed halfway), and the files it adds have the names asked for and contain their key or the beginning of it; whenever it reports no error for a pair both files contain the pair's texts; with --force the latter holds for separate files. A failing pair does not stop the others. Only the pair for - goes to standard output. A public key file can be left without a private key file.", "quantifier": "every filesystem, every list of key paths, every I/O outcome, every moment of the run", "why_tests_cant": "all states", "anchors": ["src/commands/gen_keys.rs", "src/cli/key_management.rs: get_keypair_streams"]}
{"id": "C54", "title": "Reading a malformed private key line is an error, not a crash", "statement": "from_hex64_private_key never panics. False: a 128-byte line whose 64th byte falls inside a multi-byte character panics in str::split_at; proved for all lines of ASCII characters.", "quantifier": "every line of text", "why_tests_cant": "all strings", "anchors": ["src/cli/credentials.rs: from_hex64_private_key"]}
{"id": "C55", "title": "Debug output never reveals secrets", "statement": "The Debug rendering of a credential depends only on its shape, never on passwords or keys; and it shows the whole shape: kinds, numbers of shares, threshold and weights of members under their names.", "quantifier": "every pair of credentials of equal shape", "why_tests_cant": "all secrets", "anchors": ["src/credentials.rs: Debug for Credential"]}
{"id": "C56", "title": "A hostile header is rejected without crashing", "statement": "decrypt_header never panics. False: key parts of unequal length reach the length assertion in xor_vec, and an empty key blob with several parts reaches chunks_exact(0); proved that a panic requires one of these two situations.", "quantifier": "every header byte string and credential list", "why_tests_cant": "all headers", "anchors": ["src/header_crypto.rs: decrypt_key_parts, decrypt_composite_key", "src/util.rs: xor_vec"]}
{"id": "C57", "title": "Progress display never crashes", "statement": "Updating the progress display never panics. False: for a file of known size, a first update with b bytes after more than a second and more than b seconds divides by zero (an empty file after a slow start, for example). Proved: it does not when the size is unknown or at least one byte per second is reported; when it does, then a stretch of updates that took more than a second, and that begins at the start or has at least 99 updates, reported less than a byte per second.", "quantifier": "every history of timestamps and byte counts", "why_tests_cant": "all timings", "anchors": ["src/progress.rs: print_progress, print_progress_line"]}
{"id": "C58", "title": "Human-readable sizes and durations are right", "statement": "human_duration shows the duration as h:mm:ss / m:ss with the fields reassembling to the seconds; human_file_size shows small sizes exactly and others in the unit of which they are at least 1 and less than 1024, off by less than 0.01 of the unit.", "quantifier": "every 64-bit size and duration", "why_tests_cant": "all values", "anchors": ["src/util.rs: human_duration, human_file_size"]}
{"id": "C59", "title": "Extra credentials never hurt", "statement": "Adding credentials to a list that opens a file keeps it opening. False when an added private key makes the primitive report an invalid key pair; proved when no credential makes the primitive fail that way.", "quantifier": "every honest file, every list, every additional credential", "why_tests_cant": "all lists", "anchors": ["src/header_crypto.rs: decryptor_from_credential, decrypt_key_parts"]}
{"id": "C60", "title": "Password files give the trimmed non-empty lines", "statement": "A password file yields one password per non-blank line, trimmed; it agrees with typing the password iff it has no surrounding whitespace and is not blank.", "quantifier": "every file content", "why_tests_cant": "all texts", "anchors": ["src/cli/credentials.rs: read_file_lines"]}
{"id": "C61", "title": "The key-space guard bounds key material", "statement": "Splitting a key refuses requests whose parts would exceed 16 MiB in total. False for products wrapping around 2^64 (release build); proved when the product does not wrap.", "quantifier": "every key length and number of parts", "why_tests_cant": "all 64-bit values", "anchors": ["src/header_crypto.rs: split_key_into_key_parts"]}
{"id": "C62", "title": "Easy AEAD and box wrappers", "statement": "The wrappers append a 16-byte MAC, reject ciphertexts shorter than 16 bytes, and decrypt what they encrypted.", "quantifier": "every plaintext, key, nonce", "why_tests_cant": "all inputs", "anchors": ["src/crypto/mod.rs: aead_encrypt_easy, aead_decrypt_easy, box_encrypt_easy, box_decrypt_easy"]}
{"id": "C63", "title": "The header does not reveal credential kinds", "statement": "Two credential trees of the same shape (shares, thresholds, nesting) give headers of equal length field by field, whatever the kinds of credentials and the secrets.", "quantifier": "every pair of same-shaped trees, every payload key and tape", "why_tests_cant": "all trees", "anchors": ["src/header_crypto.rs: encrypt_composite_key (const_assert_eq on MAC lengths)"]}
{"id": "C64", "title": "Splitting a key into parts loses nothing", "statement": "Combining all (OR: any; AND: all by XOR; M-of-N: any M) key parts produced by the splitter returns the key, and every part has the key's length.", "quantifier": "every key, number of parts, threshold, tape", "why_tests_cant": "all parameters", "anchors": ["src/header_crypto.rs: split_key_into_key_parts", "src/util.rs: xor_vec"]}
{"id": "C65", "title": "Key-pair paths", "statement": "Key generation refuses an empty path list and more than one '-'; for each other path the public key goes to the path with extension replaced by 'pub', which differs from the private path unless the path already ends in '.pub'.", "quantifier": "every list of paths", "why_tests_cant": "all paths", "anchors": ["src/cli/key_management.rs: get_keypair_streams"]}
{"id": "C66", "title": "Prompts are impossible once stdin carries data", "statement": "After the input stream has been handed over as data, or when verbosity is -2, or when stdin or stderr is not a terminal, no prompt is shown and nothing is read from stdin by the UI.", "quantifier": "every UI state", "why_tests_cant": "all states", "anchors": ["src/ui.rs: can_read, input_stream_extractor, read_prompt"]}
{"id": "C67", "title": "Format of the encrypted file", "statement": "Whatever the thread schedule, a successful encryption writes exactly: the framed header, then each chunk of the plaintext sealed under the payload key with nonce 'rych' + 64-bit chunk number and associated data header hash + last-chunk flag, ciphertext followed by MAC.", "quantifier": "every plaintext, credential tree, random tape, schedule", "why_tests_cant": "all plaintexts and schedules", "anchors": ["src/commands/crypt.rs: crypt_streams", "src/stream_crypto.rs: convert_chunk"]}
{"id": "C68", "title": "Only named files are touched, even with --force", "statement": "With or without --force and whatever fails, a directory entry changes only if it is the place of an output (or a symbolic link there leads to it) or belongs to an input deleted after its conversion; the content of a file changes only if it is at the place of an output (or a symbolic link there leads to it).", "quantifier": "every initial filesystem with links, every list of inputs, every outcome, both force settings", "why_tests_cant": "all filesystems and outcomes", "anchors": ["src/io_streams.rs: OutputStream::open, open_with_cleanup_cb", "src/commands/crypt.rs: crypt_streams"]}
{"id": "C69", "title": "Typed passwords stay invisible", "statement": "On a terminal that accepts changes of its settings, the echo is off for every byte read while a password is typed, and on again when the entry ends, also after an error. On any terminal only fixed messages are written, never what was typed.", "quantifier": "every terminal state, every sequence of typed bytes, end of input and faults, every write fault", "why_tests_cant": "all interleavings of errors with the echo state", "anchors": ["src/ui.rs: read_password", "src/cli/credentials.rs: read_password_interactively", "src/terminal.rs: set_stdin_echo"]}
{"id": "C70", "title": "The command line has one reading", "statement": "A command line is split into options and file names exactly if it has a reading by the option grammar (long, short, merged, attached and separate values, --) with no repeated single-use option; the reading is unique; anything else is an error, not a crash; --force, --fast, --keep-inputs and --discard-inputs reach the command.", "quantifier": "every argument list", "why_tests_cant": "all argument lists", "anchors": ["src/cli/options.rs", "src/cli/mod.rs: parse_command_line"]}
{"id": "C71", "title": "Every access structure can be asked for", "statement": "For every well-formed credential tree whose passwords and keys are available as files or text there are command-line options with which the program encrypts any files to exactly this tree, without asking for anything. For every list of passwords and keys that are available, there are options with which it decrypts any files with exactly these.", "quantifier": "every credential tree of any depth, every list of keys, every list of files, every terminal", "why_tests_cant": "unbounded nesting", "anchors": ["src/cli/credentials.rs: parse_complex_credential, extract_tokens", "src/cli/mod.rs: parse_command_line", "src/cli/options.rs"]}
{"id": "C72", "title": "Accepted credentials never crash encryption", "statement": "Building a header for a credential accepted on the command line never panics. False: share counts whose sum wraps around 2^64 are accepted and panic in split_at; proved whenever the share counts of each group add up to less than 2^64.", "quantifier": "every argument list, file contents and user input, every library and random tape", "why_tests_cant": "all argument lists", "anchors": ["src/cli/credentials.rs: parse_complex_credential", "src/header_crypto.rs: encrypt_composite_key"]}
{"id": "C73", "title": "Parsing a command line never crashes", "statement": "Whatever the arguments, files and user input, parsing the command line ends with a command or an error, not a panic. False: a private key file with a certain non-ASCII line panics; proved whenever no file has such a line, in particular for ASCII files.", "quantifier": "every argument list, file contents and user input", "why_tests_cant": "all inputs", "anchors": ["src/cli/mod.rs: parse_command_line", "src/cli/credentials.rs"]}
{"id": "C74", "title": "Credentials are equal only if they are the same", "statement": "Comparing two credentials says they are equal exactly if they have the same structure, thresholds, share counts, passwords and keys.", "quantifier": "every pair of credential trees", "why_tests_cant": "unbounded nesting", "anchors": ["src/credentials.rs: PartialEq for Credential"]}
{"id": "C75", "title": "Progress lines are right", "statement": "Every progress line shows the bytes processed so far (at most the size of the file), once more than a second has passed the speed, measured over the whole time or at least the last 9.8 seconds, and if the size is known the time to go at that speed rounded up; the bytes never go backwards; the final line shows the whole file and is printed exactly if others were; at most one line per tenth of a second is printed.", "quantifier": "every history of timestamps and byte counts within 64-bit range", "why_tests_cant": "all timings", "anchors": ["src/progress.rs", "src/commands/crypt.rs: crypt_streams"]}
{"id": "C76", "title": "Key generation never shows private keys", "statement": "What key generation prints on the terminal, and whether it fails, does not depend on the private keys.", "quantifier": "every list of key pairs, every filesystem, every I/O outcome", "why_tests_cant": "all keys and outcomes", "anchors": ["src/commands/gen_keys.rs"]}
{"id": "C77", "title": "Standard output gets exactly the result", "statement": "When one stream (standard input, or a file with --stream) is converted to standard output, no file changes, what is on standard output at any moment is what a conversion of the input has written so far, and when the command succeeds it is exactly the complete result. So a decryption command reading what an encryption command wrote prints the original.", "quantifier": "every execution, input, fault and random tape", "why_tests_cant": "all executions and interruption points", "anchors": ["src/commands/crypt.rs: crypt_streams", "src/io_streams.rs: OutputStream::open"]}
{"id": "C78", "title": "Inputs are discarded exactly when asked", "statement": "When the command returns, deletion was tried for exactly the successfully converted files, in order, if --discard-inputs was given or the user said yes, and for none otherwise. A deleted input is gone.", "quantifier": "every list of files, every execution, every pattern of failures and answers", "why_tests_cant": "all executions", "anchors": ["src/commands/crypt.rs: crypt_streams", "src/io_streams.rs: InputStream::open"]}
{"id": "C79", "title": "The algorithm asked for is used and recorded", "statement": "Encryption uses AES-256-GCM if --fast was given and ChaCha20-Poly1305 otherwise, the header says which, and decryption uses the algorithm the header names.", "quantifier": "every command, header and library", "why_tests_cant": "all headers and options", "anchors": ["src/header_crypto.rs: encrypt_header, decrypt_header", "src/cli/mod.rs: parse_command_line"]}
{"id": "C80", "title": "A mistyped or empty key refuses the command", "statement": "Without --force, a conversion is refused if a public key on the command line, or any line of a public or private key file, is not a hex key with a matching checksum; an empty, unreadable or non-text key file or password file refuses it with or without --force. Nothing is encrypted to a key other than the one meant.", "quantifier": "every command line, every content of the key files, every hash function of 64 bytes", "why_tests_cant": "all texts of keys and files", "anchors": ["src/cli/credentials.rs: try_parse_hex, from_hex32, from_hex64_private_key, read_file_lines", "src/util.rs: try_parse_hex_string_checksummed", "src/cli/mod.rs: parse_command_line"]}
{"id": "C81", "title": "A proper command line is accepted, asking for a password if no credential is given", "statement": "A conversion is accepted, with exactly the credential described, whenever the command line can be read, its options are not contradictory, no encrypted data would be sent to or read from a terminal (unless forced), and the credential options describe a credential; without credential options a password is asked for, and the one typed (twice when encrypting) is used.", "quantifier": "every command line, every credential, everything typed at the terminal", "why_tests_cant": "all command lines", "anchors": ["src/cli/mod.rs: parse_command_line", "src/cli/credentials.rs: get_encrypt_credential, get_decrypt_credentials, read_password_interactively"]}
{"id": "C82", "title": "The exit status tells what happened, and a refusal changes nothing", "statement": "The program ends with status 0, 1, or (after a panic) 101. A command line that is to be refused (unreadable, contradictory, encrypted data on a terminal, several inputs for one stream, a mistyped public key, a missing or empty key file) never ends with status 0, changes no file and writes nothing to standard output; with status 1 it ends with a message naming the program, unless -qq. Help changes no file and, with status 0, prints exactly the help text.", "quantifier": "every start of the program: arguments, files, terminals, everything typed, every failure, at every moment", "why_tests_cant": "all command lines and environments", "anchors": ["src/main.rs: main", "src/commands/mod.rs: run_command", "src/cli/mod.rs: parse_command_line", "src/commands/help.rs"]}
{"id": "C83", "title": "Exit status 0 means every file was converted", "statement": "When a conversion without --force ends with status 0, every file named has next to it, under the name with the suffix added or removed, the complete result of converting its content with the credentials that the command line asks for. When a conversion to standard output ends with status 0, no file has changed and standard output is the complete result.", "quantifier": "every start of the program and every execution of it", "why_tests_cant": "all executions, with all failures", "anchors": ["src/main.rs: main", "src/commands/crypt.rs: crypt_streams", "src/cli/mod.rs: parse_command_line"]}
{"id": "C84", "title": "Encrypting in one run and decrypting in another restores the content and the name", "statement": "If a run encrypts files or a stream and another run (elsewhere, later, through a copy or a pipe; as files or as a stream, whichever way it was encrypted) decrypts what it wrote, both with status 0, then the decrypted content is the original, if the credentials given satisfy the tree asked for at encryption; and, for files, the name is the original name.", "quantifier": "every pair of starts and executions of the program, all contents, trees and credentials", "why_tests_cant": "all executions of two runs", "anchors": ["src/main.rs: main", "src/commands/crypt.rs: crypt_streams", "src/cli/io_streams.rs"]}
{"id": "C85", "title": "The keys a user has work", "statement": "Key pairs made by the program with status 0 can be read back from their files as one matching pair; encryption with the public key file and decryption with the private key file restore the content. So does entering the same password in both runs, or giving the same password file or symmetric key file.", "quantifier": "every start and execution of the three runs, every random choice, password and key", "why_tests_cant": "all executions of three runs", "anchors": ["src/main.rs: main", "src/commands/gen_keys.rs: generate_key_pair_files", "src/cli/credentials.rs", "src/ui.rs: UI::read_password, BasicUI"]}
{"id": "C86", "title": "Without --force nothing is ever lost", "statement": "Whatever the arguments are and whatever happens, at every moment of a run without --force: each file that existed is there with its content, or it was an argument of a conversion whose inputs were not to be kept, and the complete result of converting it is there. Everything that is not an argument stays exactly as it was.", "quantifier": "every start of the program, every moment of every execution, every pattern of failures", "why_tests_cant": "all interruption points and failures", "anchors": ["src/main.rs: main", "src/commands/crypt.rs: crypt_streams", "src/io_streams.rs", "src/commands/gen_keys.rs"]}
{"id": "C87", "title": "A proper conversion can succeed", "statement": "If nothing is wrong with the command line, the files named are plain, the output names are unused and different, and the credentials can be had and used, then the conversion has an execution that ends with status 0. In particular, encryption with a password entered twice, decryption with the same password, and encryption and decryption with generated key files.", "quantifier": "every such start of the program, all contents, passwords and keys", "why_tests_cant": "all command lines, contents and credentials", "anchors": ["src/main.rs: main", "src/cli/mod.rs: parse_command_line", "src/commands/crypt.rs: crypt_streams", "src/header_crypto.rs: encrypt_header"]}
{"id": "C88", "title": "Which credentials can be encrypted to, and how large headers become", "statement": "A header can be made exactly if the algorithm is available, every group of the tree can be split (its parts are together, modulo 2^64, smaller than 16 MiB; at most 255 parts unless one suffices or all are needed) and every public key is acceptable; otherwise there is an error, never a panic. The header is at most 280 bytes longer than what the credentials take, and any content can then be encrypted.", "quantifier": "every well-formed tree of credentials, every content and random tape", "why_tests_cant": "all trees", "anchors": ["src/header_crypto.rs: encrypt_header, encrypt_composite_key, split_key_into_key_parts", "src/shamir/mod.rs: create_secret_shares"]}
{"id": "C89", "title": "Unfinished outputs contain nothing but the beginning of a result", "statement": "At every moment of a conversion without --force, whatever happens, each file that was not there before is the output of an argument and holds what a conversion of that argument, with the credentials asked for, writes up to some moment; for an encryption, that is the beginning of an encrypted file. The same holds for standard output in stream mode (with --force too), where moreover no file changes.", "quantifier": "every start of the program, every moment of every execution, every pattern of failures", "why_tests_cant": "all interruption points and failures", "anchors": ["src/main.rs: main", "src/commands/crypt.rs: crypt_streams", "src/stream_pipeline.rs: convert_stream"]}
{"id": "C90", "title": "With the wrong credentials the program fails and writes nothing", "statement": "If the credentials given do not satisfy the tree a file was encrypted for, decrypting it never ends with status 0, the file stays as it is, and nothing is ever written to its output or to standard output, provided the wrong keys are noticed by the primitives when they are tried on the parts of this header.", "quantifier": "every start of the program, every moment of every execution, all trees, contents and credentials", "why_tests_cant": "all trees, credentials and executions", "anchors": ["src/main.rs: main", "src/commands/crypt.rs: crypt_streams", "src/header_crypto.rs: decrypt_header"]}
{"id": "C91", "title": "A changed file is refused by the program, and only true plaintext is ever written", "statement": "If an encrypted file was changed in any way (damaged, cut off, tampered with), decrypting it never ends with status 0, the changed file stays as it is, and all that is ever written to the output or to standard output is a beginning of the original plaintext, unless it passes for an encrypted file: its header opens to another payload key, or it contains a forged box, or a header with the same hash. While an intact file is decrypted, whatever goes wrong, the output is a beginning of the plaintext.", "quantifier": "every start of the program, every moment of every execution, all contents and all changes", "why_tests_cant": "all changes and executions", "anchors": ["src/main.rs: main", "src/commands/crypt.rs: crypt_streams", "src/stream_crypto.rs", "src/header_crypto.rs: decrypt_header"]}
{"id": "C92", "title": "Without AES in the hardware, --fast and files made with it are refused and nothing is lost", "statement": "On a machine where the library does not offer AES, encryption with --fast never ends with status 0 if there is a file to encrypt; files that were there stay as they are, and new files stay empty. Decrypting a file made with --fast elsewhere does not end with status 0, leaves the file as it is and writes nothing.", "quantifier": "every start of the program, every moment of every execution, all contents and credentials", "why_tests_cant": "hardware of the machine running the tests; all executions", "anchors": ["src/main.rs: main", "src/header_crypto.rs: cryptosys_from_proto, cryptofamily_from_opts", "src/crypto/libsodium.rs: LibSodiumCryptoSystem::new"]}
{"id": "C93", "title": "The primitives rypt gets from libsodium do what the rest of the program needs", "statement": "If libsodium behaves as documented, the cryptosystem obtained for any algorithm has all properties the encryption, decryption and key handling rely on: lengths of digests, keys, nonces and tags, decryption undoing encryption, boxes opening for the partner. Keys are interchangeable between both algorithms. The default algorithm does not depend on AES, --fast does not depend on ChaCha20. Every code returned by libsodium for decryption and boxes decides the outcome. Each primitive calls the documented function with every argument in its documented role (the hash being the first 32 bytes of SHA-512), so that files can be exchanged with any other program that does.", "quantifier": "every implementation of libsodium's functions meeting the documentation, all algorithms, keys, messages, nonces", "why_tests_cant": "tests use one version of libsodium on one machine", "anchors": ["src/crypto/libsodium.rs: LibSodiumCryptoSystem::new, aead_encrypt, aead_decrypt, box_beforenm, box_encrypt, box_decrypt, hash, hmac", "src/crypto/mod.rs: CryptoSystem"]}
{"id": "C94", "title": "--version tells truly whether --fast works on this machine", "statement": "A cryptosystem is available exactly if libsodium can be initialised and, for AES, the hardware supports it; the reported reason is the right one. `rypt --version` changes nothing and ends with the sentence that AES is supported exactly if it is available. If the output does not say so, encrypting a file with --fast never ends with status 0 and loses nothing; if it does, an encryption with --fast can succeed. Algorithm numbers in headers are exactly those of the library.", "quantifier": "every start and execution of the program with --version, every other start on the same machine with --fast, every libsodium", "why_tests_cant": "hardware of the machine running the tests; all executions", "anchors": ["src/crypto/libsodium.rs: LibSodiumCryptoSystem::new, version, TryFrom<i32>", "src/commands/help.rs: print_version", "src/main.rs: main"]}
{"id": "C95", "title": "Boxes and signatures from the library work between the partners; password derivation fails only by a panic", "statement": "A box sealed for a partner's public key with one's own private key opens for the partner, and for oneself, to the same message with the same length and a 16 byte tag. A signature of 64 bytes is accepted under the signer's public key; acceptance is exactly libsodium's. Deriving a key from a password panics exactly if libsodium reports it could not finish.", "quantifier": "every libsodium meeting its documentation, all key pairs, messages, nonces, passwords", "why_tests_cant": "all keys and messages; memory exhaustion is not provoked by tests", "anchors": ["src/crypto/libsodium.rs: box_encrypt, box_decrypt, sign, verify, key_derivation"]}
{"id": "C96", "title": "Random integers are uniform in the random bytes", "statement": "The random source used for shares gives 32-bit and 64-bit integers such that every value in range comes from exactly one string of 4 or 8 random bytes, and uses up exactly that many bytes.", "quantifier": "every tape of random bytes, every value", "why_tests_cant": "uniformity over 2^32 and 2^64 values cannot be sampled", "anchors": ["src/crypto/rng.rs: CryptoSystemRng::next_u32, next_u64"]}
{"id": "C97", "title": "Asking for passwords leaves the terminal as it was", "statement": "Whenever the program ends after asking for passwords, also after errors, all settings of the terminal (struct termios) are those it was started with.", "quantifier": "every terminal and its settings, every failure of reading or changing them, every command line, every sequence of typed bytes, every write fault", "why_tests_cant": "tests have no terminal; all settings and failures", "anchors": ["src/terminal.rs: set_stdin_echo", "src/ui.rs: read_password", "src/cli/credentials.rs: read_password_interactively", "src/main.rs: main"]}
{"id": "C98", "title": "The program crashes only for known reasons", "statement": "The program ends with status 101 (a crash) only while encrypting or decrypting; help, version, key generation and refused command lines never crash. When a conversion without --force of files, or any conversion to standard output, crashes, then a private key file has a line that the parser cannot cut (C73), or the share counts of a group add up to 2^64 or more (C72), or the input to be decrypted has a header in which parts opened by the supplied credentials have sizes that do not fit (C56), or the clock ran backwards, or updates of the progress display for one of the files still came after the time of C107 (for standard input, only the clock matters).", "quantifier": "every start of the program, every moment of every execution, all inputs, credentials and reports of progress", "why_tests_cant": "all inputs and executions; a crash that no test provokes stays unseen", "anchors": ["src/main.rs: main", "src/commands/crypt.rs: crypt_streams", "src/header_crypto.rs: decrypt_header, encrypt_header", "src/progress.rs", "src/commands/gen_keys.rs", "src/cli/mod.rs: parse_command_line"]}
{"id": "C99", "title": "The help tells the truth", "statement": "The text of --help shows the options the program accepts, no others, each in one way: every name and letter it shows is accepted and means one and the same option, which needs a value exactly if the help shows one; every option that can appear in an accepted command line, under every name or letter, is shown; the default suffix in the text is the one used. Lines about options have at most 78 characters, and descriptions are in line.", "quantifier": "every program name (without newline), every line of the text, every accepted command line, every value", "why_tests_cant": "the parser accepts infinitely many command lines; a missing or wrong line shows in no test", "anchors": ["src/commands/help.rs: print_help, opt_usage", "src/cli/options.rs: define_all_options"]}
{"id": "C100", "title": "What a progress line says is right", "statement": "The text of a progress line shows, in columns of fixed width, the percentage of the file that was converted (off by at most 0.05, up to 2^-39 tenths for the floating point computation; never more than 100.0; --- if the size is not known; 100.0 for the whole file and 0.0 for nothing), the number of bytes, the speed and the time to go if they are known; all texts are right in the sense of C58. It has visible characters and spaces only. Every line ever due can be made into such a text: the formatting never panics.", "quantifier": "every file size or none, every number of bytes, speed and duration, every history of timestamps and byte counts", "why_tests_cant": "2^64 sizes and byte counts, floating point rounding", "anchors": ["src/progress.rs: format_progress_line, print_progress_line", "src/util.rs: human_file_size, human_duration"]}
{"id": "C101", "title": "What a conversion writes on the terminal", "statement": "For every file, in order, a conversion writes: the name of the input and of the output with the number of the file and the number of all files; progress lines, each of which is cleared by the next one, and a last one that stays; the error message if the file failed, another one if the incomplete output could not be deleted (unless --force); an empty line. After the last file there is the question whether to delete the inputs, if there is somebody to answer it, repeated until the answer can be understood; and a message for every input that could not be deleted. Nothing else is written. Everything is subject to the verbosity. Until the question no message runs into another: every one ends its line or is cleared by the next one. Every progress line shows a number of bytes that had been converted at some moment (C75), in the right words (C100).", "quantifier": "every list of files, every verbosity, every sequence of outcomes of files, progress reports, answers and failures of deletion, every moment", "why_tests_cant": "unboundedly many interleavings of outcomes, timings and answers", "anchors": ["src/commands/crypt.rs: crypt_streams", "src/progress.rs: ProgressPrinter", "src/ui.rs: BasicUI", "src/io_streams.rs: InputStream::open_with_cleanup_cb"]}
{"id": "C102", "title": "-qq is silent, -q speaks of failures only", "statement": "With -qq nothing at all is written to standard error once the command line can be read: by no conversion, key generation, refusal or question, whatever happens (what the language prints about a crash excepted). At verbosity -1 a conversion that succeeds, and whose inputs could be deleted if they were to be, writes nothing.", "quantifier": "every command line with -qq (in any notation, weighed against -v), every state of files, terminal and standard input, every execution", "why_tests_cant": "all programs that use the tool in scripts rely on it for all failures, which tests cannot enumerate", "anchors": ["src/ui.rs: BasicUI", "src/cli/mod.rs: parse_command_line", "src/commands/crypt.rs: crypt_streams", "src/commands/gen_keys.rs"]}
{"id": "C103", "title": "No conversion fails silently", "statement": "Unless the verbosity is -2, whenever the exit status of a conversion is not 0 an error message with the name of the program was written, provided that standard error can be written to.", "quantifier": "every list of files, all failures, every verbosity from -1", "why_tests_cant": "every failure path of every file has to be looked at", "anchors": ["src/commands/crypt.rs: crypt_streams", "src/main.rs: main"]}
{"id": "C104", "title": "Inputs are deleted only if the user wanted it", "statement": "An input is deleted only if --discard-inputs is on the command line, or if neither this nor --keep-inputs is, and somebody typed yes at a terminal, after everything that was read for passwords. In files: without --force an entry of a directory that disappears during a conversion was an input which had been converted, and one of these conditions holds. In particular data that is piped in is never taken for an answer.", "quantifier": "every command line, every content of standard input, every state of the filesystem, every moment of every execution", "why_tests_cant": "what is typed, and what was read before, can be anything", "anchors": ["src/commands/crypt.rs: crypt_streams", "src/ui.rs: read_prompt_bool, input_stream_extractor", "src/cli/mod.rs: parse_command_line"]}
{"id": "C105", "title": "What is reported as done has been done", "statement": "At every moment of a conversion, whatever the schedule of the threads and whatever fails, the byte counts reported to the progress display are those of the first pieces of the input, in order (after the header, when decrypting), and the outcome of converting these pieces has been written to the output. They never add up to more than the size of the input; after success they add up to it exactly, also if it is empty, and there was at least one report.", "quantifier": "all inputs, options, credentials, schedules, read and write sizes, failures and moments", "why_tests_cant": "the reports come from one of three threads; that they never run ahead of the output is a property of all schedules", "anchors": ["src/commands/crypt.rs: crypt_streams", "src/stream_pipeline.rs: convert_stream"]}
{"id": "C106", "title": "The progress display tells the truth about the file", "statement": "Every progress line shows no more bytes than had been converted and written to the output at some moment before, and never more than the input has. When a file has been converted, the last line about it that stays on the terminal shows all of the input: its size in bytes; 100.0 %, if the size was known at the beginning and is not 0; and no time to go, if a time is shown.", "quantifier": "all files, kinds of input, sizes below 2^64/1000 bytes, options, credentials, schedules, timings and verbosities", "why_tests_cant": "what the display is told depends on the schedule of the threads, the timing and the files; a test sees some of the moments of one run", "anchors": ["src/progress.rs: ProgressPrinter", "src/commands/crypt.rs: crypt_streams", "src/io_streams.rs: InputStream::open"]}
{"id": "C107", "title": "The progress display crashes only late", "statement": "When the progress display crashes while n bytes are encrypted, then more than a second has passed since the start of this file, and more than n seconds (or more than 12 days, if n is a megabyte or more). For n up to 1044480 this is exact: it crashes if and only if something is reported after that time. When it crashes while a file is decrypted, more than 16 seconds have passed.", "quantifier": "every input, direction, credentials and random choices, every state of the conversion, every history of timestamps, every file size", "why_tests_cant": "all timings and all sizes; the crash needs a slow device or slow password hashing", "anchors": ["src/progress.rs: print_progress, print_progress_line", "src/commands/crypt.rs: crypt_streams", "src/stream_pipeline.rs: convert_stream"]}
{"id": "C108", "title": "Files of other processes are safe from a conversion", "statement": "While other processes create, replace, change and delete files in any way, also between opening an input and checking it and while it is read: without --force the program changes the content of a file only if it has itself created this file, at the path of an output where there was nothing, and then the file holds what a conversion has written so far; it puts new files only where there is nothing, and removes only what is at the path of an output it had created (when that conversion has failed) or at the path of an input that it has converted (if this was asked for or agreed to). With --force it changes only files that the path of an output denoted when it was opened.", "quantifier": "every filesystem, every list of files, every interleaving with arbitrary changes by others, every outcome and moment", "why_tests_cant": "races with other processes cannot be provoked by tests in all interleavings", "anchors": ["src/io_streams.rs: InputStream::open, OutputStream::open, open_with_cleanup_cb", "src/commands/crypt.rs: crypt_streams"]}
{"id": "C109", "title": "Other processes elsewhere make no difference", "statement": "If other processes leave alone the places of the inputs and outputs, and those that links lead to from there, then with or without --force a conversion does what it could have done alone: same events, same standard output, same exit status, same things at these places, at every moment. In particular, without --force, at every moment each input is there with its original content or a complete output of its conversion is there.", "quantifier": "every filesystem, every list of files, every interleaving with changes elsewhere, every outcome and moment", "why_tests_cant": "all interleavings with all changes elsewhere", "anchors": ["src/io_streams.rs: InputStream::open, OutputStream::open, open_with_cleanup_cb", "src/commands/crypt.rs: crypt_streams"]}
{"id": "C110", "title": "Several instances at once never lose data", "statement": "Any number of instances of the program may work on the same files at the same time, without --force and even with the same inputs and outputs, as long as no output of one is an input of one. Then at every moment every file that there was in the beginning is there with its content, or an instance that was allowed to delete it has converted it and the complete output is there. Other files are not touched. A conversion that was reported as done was one of the original content, its output stays as it was written whatever the other instances do, and no other conversion to the same output succeeds.", "quantifier": "every number of instances, their arguments, every filesystem, every interleaving of their steps and of the two system calls that open an input, every outcome and moment", "why_tests_cant": "all interleavings of all numbers of processes", "anchors": ["src/io_streams.rs: InputStream::open, OutputStream::open, open_with_cleanup_cb", "src/commands/crypt.rs: crypt_streams"]}
{"id": "C111", "title": "What key generation shows", "statement": "As long as messages can be printed, rypt --gen-keypair shows one paragraph for each key pair, in order: its number out of how many, its public key, the name of the public key file if there is one and the name of the private key file (or (stdout)). The public key is shown as one word that the program accepts as this key with and without a look at the checksum, and it is exactly the line in the public key file and the end of the line in the private key file. A pair has an error message in its paragraph iff writing it failed; the message comes after the name of the file it is about, and without --force an error with the private key file means that the public key file is complete. With --quiet only the errors are shown, one per failed pair; with --quiet twice nothing.", "quantifier": "every number of pairs, every key, every choice of files, every filesystem, every sequence of failures, every verbosity, with and without --force", "why_tests_cant": "all keys and all combinations of failures; tests look at one output", "anchors": ["src/commands/gen_keys.rs: generate_key_pair_files", "src/ui.rs: UI::println, UI::print_error", "src/util.rs: to_hex_string_checksummed"]}
{"id": "C112", "title": "Threads may start one by one, fail to start, and let go of their channels in two steps", "statement": "Conversions of streams behave the same when it is taken into account that the three threads are started one after the other, that starting one may fail, and that an ending thread drops its receiver first and its sender some time later: nothing gets stuck, the number of steps is bounded, output and result are those of converting chunk after chunk, and success means that no thread, read, write or flush failed. When the conversion has returned, all threads have ended and dropped their channels. If a thread cannot be started, an error is returned and nothing is read, converted, written or reported; to the rest of the program it looks like a failure of the first read.", "quantifier": "every input, chunk size and lawful converter, every interleaving of starting, working and letting go, every failure", "why_tests_cant": "all interleavings; failing to start a thread cannot be provoked in a test", "anchors": ["src/stream_pipeline.rs: convert_stream, read_stream, convert_chunks, write_stream"]}
{"id": "C113", "title": "How much memory a conversion needs for data", "statement": "However long the file, while it is encrypted, or decrypted if rypt made it, the buffers that exist have room for less than 6.32 million bytes altogether at every moment, all data read and not yet written are in them, and together with the header it is less than 10 million bytes unless there are very many recipients. For files made by others the bound is six times 1 GiB (and a little), and a file of a few bytes made by somebody who can encrypt to the key really makes the program ask for that much.", "quantifier": "every file of every length, every header, every interleaving of the threads, every moment", "why_tests_cant": "all lengths and all interleavings; tests look at small files", "anchors": ["src/stream_pipeline.rs: convert_stream", "src/header_crypto.rs: check_chunk_size, encrypt_header, decrypt_header", "README.md"]}
{"id": "C114", "title": "Permissions of the files written", "statement": "Whatever the program does, at every moment files that were there in the beginning have the permissions they had (also if overwritten), and all other files have those of new files: nobody can execute them, and everybody can read and write them whom the umask of the process does not exclude. In particular the permissions of inputs are not copied to outputs, so what is decrypted from a private file can be public, and the private key file of a new pair has the same permissions as the public key file.", "quantifier": "every command line, every filesystem, all permissions and umasks, every execution and moment", "why_tests_cant": "all permissions, umasks and executions", "anchors": ["src/io_streams.rs: OutputStream::open", "src/commands/crypt.rs: crypt_streams", "src/commands/gen_keys.rs: generate_key_pair_files"]}
{"id": "C115", "title": "A conversion of files always comes to an end", "statement": "Whatever files are given and whatever goes wrong, from every moment of a conversion the program can get to its end, and when it has ended nothing more happens. It never runs in circles: an execution that is never over stays in one and the same state from some moment on, while a stream is being converted (so it waits for the operating system to read, write or schedule; the threads themselves have only finitely many steps to make, C22).", "quantifier": "every list of files, every filesystem, every sequence of failures and answers, every infinite execution", "why_tests_cant": "infinite executions cannot be observed by tests", "anchors": ["src/commands/crypt.rs: crypt_streams", "src/stream_pipeline.rs: convert_stream"]}
{"id": "C116", "title": "Files of other processes are safe from key generation", "statement": "While other processes create, replace, change and delete files in any way: without --force, key generation changes the content of a file only if it has itself made this file, at the path of a key where there was nothing, and all it does is to put the bytes of the text of this key to their positions. With --force it changes only files that the path of a key denoted when it was opened. In no case does it remove or replace a directory entry. Everything that key generation does when it is alone is among the executions this is proved of.", "quantifier": "every number of instances, every filesystem, every list of key files, every interleaving with arbitrary changes by others, every failure and moment", "why_tests_cant": "races with other processes cannot be provoked by tests in all interleavings", "anchors": ["src/commands/gen_keys.rs: generate_key_pair_files", "src/io_streams.rs: OutputStream::open"]}
{"id": "C117", "title": "Key generations at once never mix up their pairs", "statement": "Any number of instances may generate keys at the same time, without --force and even for the same file names, among other processes that leave alone what is at the places of the key files. A pair reported as written is in its files, completely, and stays there; no other pair reported as written has a file in common with it. At every moment a private key at the place of a key file has its public key, complete, in the file of its own pair, so that public and private keys of different pairs never come together. What was there before stays as it was.", "quantifier": "every number of instances, every list of key files, every interleaving byte by byte, every failure and moment", "why_tests_cant": "all interleavings of all numbers of processes", "anchors": ["src/commands/gen_keys.rs: generate_key_pair_files", "src/io_streams.rs: OutputStream::open", "src/cli/key_management.rs: get_keypair_streams"]}
{"id": "C118", "title": "An incomplete key file is never taken for another key", "statement": "Any piece of a public key file, used as a public key file, and any piece of a private key file, used as a private key file, is the key itself if all its digits are there (the newline may be missing), and is refused otherwise, with or without checksum verification. A file with several public keys that was cut off is refused, or gives exactly the keys before the cut. So while any number of instances generate keys, a private key file they are making, read at any moment, is refused or is a private key that one of them has generated for this name, with its public key complete in its own file; a public key file they are making is refused or is a public key one of them has generated for this name. (The limit: the first half of a private key file is a valid public key file.)", "quantifier": "all keys, all hash functions, all pieces of the files, all lists of keys and all cuts, all interleavings of all numbers of key generations and all moments", "why_tests_cant": "keys, cuts and moments are unbounded; tests read complete files only", "anchors": ["src/cli/credentials.rs: read_file_lines, from_hex32, from_hex64_private_key", "src/commands/gen_keys.rs: generate_key_pair_files", "src/util.rs: try_parse_hex_string_checksummed"]}
{"id": "C119", "title": "A failed run can be repeated for the rest", "statement": "When an encryption or decryption of files without --force has ended by itself (status 0 or 1) and no output of a failed conversion resisted deletion, every file is done or as ready as before: its output holds the complete result, or there is no output and the file still has its content and its only name. So the files whose outputs are missing can be given to a second run, which again meets what the first one required; if that one ends with status 0, the complete results for all the files are there, those of the first run untouched by the second.", "quantifier": "all starting situations, all lists of distinct plain files with unused output names, all ways in which the first run can fail, all second runs (other passwords or keys, other library randomness)", "why_tests_cant": "the combinations of files that fail, of reasons for it and of second runs are unbounded", "anchors": ["src/commands/crypt.rs: crypt_streams", "src/io_streams.rs: InputStream::open_with_cleanup_cb, OutputStream::open_with_cleanup_cb", "src/main.rs: main"]}
{"id": "C120", "title": "How deep the keys of a header are nested", "statement": "The functions that decode, encrypt and decrypt the keys of a header call themselves once per level of nesting. In a header made by encryption the levels are those of the groups in the credential. In any header that decodes there are at most (length + 2) / 4 levels. This is the only bound: for every n up to 1,677,718 there is a header of at most 10 n + 33 bytes with n levels, which is within the accepted size; it decodes, and decryption goes through all levels to find that no credential is sufficient. Encryption itself makes headers with more than 200,000 levels if asked to. (Exhaustion of the stack is outside the model.)", "quantifier": "every credential and every header; every depth up to the limit set by the size", "why_tests_cant": "hostile headers of 16 MB; depth as a function of length", "anchors": ["src/header_crypto.rs: decrypt_composite_key, decrypt_key_parts, encrypt_composite_key, decrypt_header", "src/proto/header.proto: CompositeKey, EncryptedKeyParts", "src/header_io.rs: MAX_HEADER_LEN"]}
{"id": "C121", "title": "One command for several files is as one command for each", "statement": "Suppose --force is not given, every input is a file (not a stream), no file is given twice, and no output is at the place of an input. Then whatever one command for all files can lead to (the files left, what is on standard output, and success), commands for one file after the other can lead to, and the other way round, if the question whether to remove the inputs is always answered in the same way. Success of the one command is success of all the others. In the same way files may be given in parts to several commands. If an output is wanted at the place of another input this is false: one after the other both files can be converted, with one command they never are, because inputs are deleted in the end.", "quantifier": "every list of files, every state of the files, every execution of either kind with all failures, every answer, every way to divide the list", "why_tests_cant": "the executions of one command and of many are both unbounded, and each of one kind must be matched by one of the other", "anchors": ["src/commands/crypt.rs: crypt_streams", "src/io_streams.rs: InputStream::open_with_cleanup_cb, OutputStream::open_with_cleanup_cb"]}
{"id": "C122", "title": "Fields added by later versions are ignored", "statement": "A header with fields that this version does not know (in the header itself, in the groups and parts of keys, in the protected part; at any place, of any kind, as many as one likes) is read as if they were not there: it opens for the same credentials, to the same key and chunk size, and is refused for the same reasons. A file that a later version makes with such a header, and otherwise as this one does, is decrypted. The payload is bound to the whole header, including what was added.", "quantifier": "every header, every set of fields added, every credential tree and set of credentials, all contents and executions", "why_tests_cant": "all headers that later versions may come to write", "anchors": ["src/proto/header.proto", "src/header_crypto.rs: decrypt_header"]}
{"id": "C123", "title": "Passwords and keys are used once per file, and only for it", "statement": "To open a header, each password given goes into one key derivation only, whose salt belongs to the ephemeral key of the file; each symmetric key is hashed together with this ephemeral key only; private keys meet no other public key than it. This holds whatever the header contains, so no header can make the program derive passwords more often. The same is true of the passwords and keys of the tree when a header is made.", "quantifier": "every header, every set of credentials, every credential tree, all random choices; whatever the primitives do for other inputs", "why_tests_cant": "all headers, and all behaviours of the primitives elsewhere", "anchors": ["src/header_crypto.rs: decrypt_header, recipient_secret_key, encrypt_header"]}
{"id": "C124", "title": "Options can be written anywhere and in any spelling", "statement": "Two command lines with the same file names in the same order and the same options are read as the same command, after the same questions, or refused for the same reason, and the program does the same for both: it does not matter whether an option is written by its letter or name, merged with others or not, with its value attached or separate, before, between or after the file names; nor in which order options are that are not about credentials, as long as the same one decides what to do.", "quantifier": "every pair of argument lists that say the same with credential options in arguments of their own, every terminal state, every content of key files, every state of the file system", "why_tests_cant": "the ways to write one command are infinitely many, and tests fix one of them", "anchors": ["src/cli/mod.rs: parse_command_line, get_mode", "src/cli/credentials.rs: extract_tokens", "src/cli/io_streams.rs: get_input_output_streams", "src/cli/options.rs"]}
{"id": "C125", "title": "The order of keys makes no difference to who can decrypt", "statement": "Files encrypted to groups whose members are in another order, at any depth, with whatever random choices and algorithm, are opened by the same sets of credentials, in whatever order these are supplied, and by no others. On the command line, options that read keys from files and thresholds can be given in any order: the result is the same up to the order of members.", "quantifier": "every pair of well-formed credentials that differ in the order of members, every list of supplied credentials, every random tape, every permutation of options", "why_tests_cant": "number of orders and of sets of credentials is unbounded; key parts are handed out and collected by position, so an error shows only for some orders", "anchors": ["src/header_crypto.rs: encrypt_composite_key, decrypt_composite_key", "src/cli/credentials.rs: parse_complex_credential"]}
{"id": "C126", "title": "Format of the header, and reading what other programs write in it", "statement": "A header that is written contains: the number of the algorithm, the public ephemeral key, the payload key split by groups (every share is the key, or the XOR of all shares is, or shares are values at 1, 2, ... of polynomials over the AES field), every part sealed for its password or key under the documented key and nonce, thresholds and share counts of 1 left out, and the chunk size, sender type and ephemeral key sealed under the payload key. Conversely every header of this form is opened, whoever made it, whatever the random choices and the chunk size (a multiple of 8 up to 1 GiB), by exactly the credentials that satisfy its groups; and the file with that header is decrypted.", "quantifier": "every credential tree, random tape, algorithm; every header of the form, every choice of shares, every list of supplied credentials, every plaintext and schedule", "why_tests_cant": "tests only read back what the same program wrote, so an error made the same way in both directions goes unnoticed, and files of other versions cannot be enumerated", "anchors": ["src/header_crypto.rs: encrypt_header, decrypt_header, encrypt_composite_key, split_key_into_key_parts, recipient_secret_key", "src/shamir/mod.rs: create_secret_shares", "src/proto/header.proto"]}
{"id": "C127", "title": "Encoding of the header", "statement": "Which strings of bytes are headers, and what they stand for, is given by the encoding of protobuf and the numbers and kinds of the fields: 1 family, 6 ephemeral key, 7 payload key, 8 protected part; in a group 1 threshold, 2 members; in a member 1 number of shares, 2 sealed shares or 3 a group; in the protected part 1 sender type, 2 sender key, 4 chunk size in eight bytes. Fields come in any order, numbers in any length up to ten bytes; of fields that occur more than once the last one counts, the pieces of the payload key are put together, the members add up; other fields are skipped. Exactly these strings are read, as just this; everything else is refused; and what is written is of this encoding.", "quantifier": "every string of bytes, every header message and tree of keys", "why_tests_cant": "there are infinitely many encodings of one message and the program writes only one of them; exchanging two numbers in both directions keeps all round trips but makes all existing files unreadable", "anchors": ["src/proto/header.proto", "src/util.rs: serialize_proto", "src/header_crypto.rs: decrypt_header"]}
{"id": "C128", "title": "The program and other programs that follow the format can read each other's files", "statement": "If `rypt` encrypts files or standard input and exits with status 0, every output is a file in the format of C67, C126 and C127 for the credentials asked for, with the input as content. Conversely, if a file in the format, whoever made it, with chunks of any permitted size, is decrypted with exit status 0 and the credentials given satisfy its groups, the output is its content, in a file or on standard output; and there is nothing in the way of such a decryption: with sufficient credentials a file in the format has a decryption, which is its content, and for a password that is entered the program can exit with status 0. Files encrypted on one machine can be decrypted on another whose library agrees on the algorithm asked for; without --fast, whatever there is of AES on either.", "quantifier": "every start of the program, all credentials, contents, schedules; every file in the format", "why_tests_cant": "tests have only files made by the version under test; all executions", "anchors": ["src/main.rs: main", "src/commands/crypt.rs: crypt_streams", "src/header_crypto.rs: encrypt_header, decrypt_header", "src/stream_crypto.rs"]}
