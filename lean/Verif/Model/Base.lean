/-!
Shared vocabulary of the model: byte strings, results with explicit errors and panics,
64-bit wrapping, the random tape.
-/

namespace Rypt

/-- Byte strings (`Vec<u8>`, `&[u8]`). E.g. src/stream_pipeline.rs:13. -/
abbrev Bytes := List UInt8

/-- Errors, one constructor per error message of the code that the model distinguishes.
The payload of the messages is kept only where a property mentions it.
The `ensure!`, `bail!` and `?` in src/header_crypto.rs:53-495, src/header_io.rs:38-77, src/stream_crypto.rs:38-73,
src/stream_pipeline.rs:134-149, src/io_streams.rs:29-49, src/cli/mod.rs:71-186, src/cli/credentials.rs:90-400. -/
inductive Err where
  -- src/shamir/mod.rs:11-39
  | zeroThreshold
  | notEnoughShares (numShares threshold : Nat)
  | tooManyShares (numShares : Nat)
  | differentLengthShares
  | shareIndexTooLarge (idx : Nat)
  | sharesSameIndices
  -- src/header_io.rs (reader/writer faults are `unexpectedEof` / `io`)
  | unexpectedEof
  | io
  | badSignature
  | headerEmpty
  | headerTooLong
  | headerBadPadding
  -- src/util.rs, src/crypto/mod.rs, src/crypto/libsodium.rs
  | protoDecode
  | invalidCiphertext
  | invalidKeyPair
  | cryptoInit
  -- src/header_crypto.rs
  | unknownCryptoFamily
  | unknownAlgorithm
  | invalidThreshold
  | keyPartsTooLarge
  | chunkSizeTooLarge
  | chunkSizeMisaligned
  | ephemeralPkLen
  | payloadKeyMissing
  | payloadKeyLen
  | insufficientCredentials
  | senderAuth
  | senderPkMismatch
  | missingKeyData
  | keyDataLen
  | shares (e : Err)
  -- src/stream_pipeline.rs
  | threadPanic
  -- anything else, named
  | other (msg : String)
  deriving DecidableEq, Repr

/-- Outcome of a Rust function returning `Fallible<T>` (or `Result<T, _>`), with panics explicit.
`failure::Fallible`, e.g. src/header_io.rs:35; panics: the `assert!`s and `unwrap`s, e.g. src/header_io.rs:52. -/
inductive Res (α : Type u) where
  | ok (a : α)
  | err (e : Err)
  | panic
  deriving DecidableEq, Repr

namespace Res

/-- `?` operator: errors and panics propagate. E.g. src/header_io.rs:38. -/
def bind {α : Type u} {β : Type v} : Res α → (α → Res β) → Res β
  | ok a, f => f a
  | err e, _ => err e
  | panic, _ => panic

instance : Monad Res where
  pure := ok
  bind := bind

@[simp] theorem pure_def {α : Type u} (a : α) : (pure a : Res α) = ok a := rfl
@[simp] theorem bind_ok {α β : Type u} (a : α) (f : α → Res β) : (ok a >>= f) = f a := rfl
@[simp] theorem bind_err {α β : Type u} (e : Err) (f : α → Res β) : (err e >>= f) = err e := rfl
@[simp] theorem bind_panic {α β : Type u} (f : α → Res β) : ((panic : Res α) >>= f) = panic := rfl

@[simp] theorem map_def {α β : Type u} (f : α → β) (x : Res α) : f <$> x = (x >>= fun a => ok (f a)) := by
  cases x <;> rfl

/-- A bind succeeds iff both parts do. -/
theorem bind_eq_ok {α β : Type u} {x : Res α} {f : α → Res β} {b : β} :
    (x >>= f) = ok b ↔ ∃ a, x = ok a ∧ f a = ok b := by
  cases x <;> simp

theorem bind_eq_panic {α β : Type u} {x : Res α} {f : α → Res β} :
    (x >>= f) = panic ↔ x = panic ∨ ∃ a, x = ok a ∧ f a = panic := by
  cases x <;> simp

theorem bind_eq_err {α β : Type u} {x : Res α} {f : α → Res β} {e : Err} :
    (x >>= f) = err e ↔ x = err e ∨ ∃ a, x = ok a ∧ f a = err e := by
  cases x <;> simp

/-- `Result::map_err`. `with_context`, e.g. src/io_streams.rs:32, src/commands/gen_keys.rs:59. -/
def mapErr {α : Type u} (g : Err → Err) : Res α → Res α
  | ok a => ok a
  | err e => err (g e)
  | panic => panic

/-- The call returned `Ok`. src/commands/crypt.rs:71-72. -/
def isOk {α : Type u} : Res α → Bool
  | ok _ => true
  | _ => false

instance : LawfulMonad Res := LawfulMonad.mk' _
  (id_map := by intro α x; cases x <;> rfl)
  (pure_bind := by intros; rfl)
  (bind_assoc := by intro α β γ x f g; cases x <;> rfl)
  (bind_pure_comp := by intro α β f x; cases x <;> rfl)

end Res

/-- Wrapping of 64-bit unsigned arithmetic in release builds (`usize`, `u64`).
Debug builds panic on overflow instead. E.g. src/progress.rs:65, src/stream_pipeline.rs:82-100. -/
def wrap64 (n : Nat) : Nat := n % 2 ^ 64

/-- The stream of random bytes handed out by the random generator, in order of consumption.
src/crypto/rng.rs:29-31, `fill_random_bytes`. -/
abbrev Tape := Nat → UInt8

namespace Tape

/-- `rng.fill(buf)` for a buffer of `n` bytes: the next `n` bytes of the tape, and the rest. src/crypto/rng.rs:29-32. -/
def fill (t : Tape) (n : Nat) : Bytes × Tape :=
  ((List.range n).map t, fun i => t (n + i))

/-- Position-wise XOR of two tapes. Used only to state properties; the bytes are XORed as in src/util.rs:125-128. -/
def xor (t m : Tape) : Tape := fun i => t i ^^^ m i

end Tape

end Rypt
