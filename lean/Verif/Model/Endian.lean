import Verif.Model.Base

/-! Little-endian integer encodings (`to_le_bytes` / `from_le_bytes` of the Rust standard library). -/

namespace Rypt

/-- The low `k` bytes of `n`, least significant first.
`to_le_bytes` in src/header_io.rs:78, src/header_crypto.rs:93, 99, src/stream_crypto.rs:51. -/
def leBytes : Nat → Nat → Bytes
  | 0, _ => []
  | k + 1, n => UInt8.ofNat (n % 256) :: leBytes k (n / 256)

/-- The number denoted by a little-endian byte string. `from_le_bytes` in src/header_io.rs:48, src/crypto/rng.rs:20, 26. -/
def leNat : Bytes → Nat
  | [] => 0
  | b :: bs => b.toNat + 256 * leNat bs

end Rypt
