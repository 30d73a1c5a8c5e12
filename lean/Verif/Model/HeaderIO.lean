import Verif.Model.Endian

/-!
Model of src/header_io.rs: framing of the serialized header.
-/

namespace Rypt

/-- A byte source (`&mut dyn Read`): the bytes it will deliver, whether it ends in an I/O error instead of
end-of-file, and the total size of the buffers it was asked to fill. The argument of src/header_io.rs:35. -/
structure Reader where
  data : Bytes
  faulty : Bool := false
  requested : Nat := 0
  deriving DecidableEq, Repr

namespace HeaderIO

/-- src/header_io.rs:6. -/
def MAX_HEADER_LEN : Nat := 16 * 1024 * 1024
/-- src/header_io.rs:7. -/
def FILE_SIGNATURE_LEN : Nat := 4
/-- src/header_io.rs:8, ASCII "rypt". -/
def FILE_SIGNATURE : Bytes := [0x72, 0x79, 0x70, 0x74]
/-- src/header_io.rs:9. -/
def FILE_ALIGNMENT : Nat := 8
/-- src/header_io.rs:10. -/
def PREHEADER_LEN : Nat := FILE_SIGNATURE_LEN + 4

/-- src/header_io.rs:15-20. -/
def paddingLen (len alignment : Nat) : Nat :=
  match len % alignment with
  | 0 => 0
  | remainder => alignment - remainder

/-- `Read::read_exact` (std) for a buffer of `n` bytes: retries short reads and EINTR, fails at end of data with
`UnexpectedEof`, or with the source's I/O error. Called in src/header_io.rs:38, 56. -/
def readExact (n : Nat) (r : Reader) : Res Bytes × Reader :=
  let requested := r.requested + n
  if n ≤ r.data.length then (.ok (r.data.take n), { r with data := r.data.drop n, requested := requested })
  else (.err (if r.faulty then .io else .unexpectedEof), { r with data := [], requested := requested })

/-- src/header_io.rs:35-65 `read_header`. Returns the header and the number of bytes read. -/
def readHeader (r : Reader) : Res (Bytes × Nat) × Reader :=
  match readExact PREHEADER_LEN r with
  | (.err e, r) => (.err e, r)
  | (.panic, r) => (.panic, r)
  | (.ok preHeader, r) =>
    let signature := preHeader.take FILE_SIGNATURE_LEN
    let headerLenBytes := preHeader.drop FILE_SIGNATURE_LEN
    if ¬ signature = FILE_SIGNATURE then (.err .badSignature, r)
    else
      let headerLen := leNat headerLenBytes
      if ¬ headerLen > 0 then (.err .headerEmpty, r)
      else if ¬ headerLen ≤ MAX_HEADER_LEN then (.err .headerTooLong, r)
      else
        let headerPadding := paddingLen headerLen FILE_ALIGNMENT
        if ¬ (headerLen + headerPadding) % FILE_ALIGNMENT = 0 then (.panic, r)
        else
          match readExact (headerLen + headerPadding) r with
          | (.err e, r) => (.err e, r)
          | (.panic, r) => (.panic, r)
          | (.ok buffer, r) =>
            if ¬ (buffer.drop headerLen).all (· == 0) then (.err .headerBadPadding, r)
            else (.ok (buffer.take headerLen, PREHEADER_LEN + headerLen + headerPadding), r)

/-- src/header_io.rs:67-93 `write_header`: the byte strings passed to `write_all`, in order. A failing writer is
modelled where the calls are composed (a prefix of these bytes may have been written). -/
def writeHeader (header : Bytes) : Res (List Bytes) :=
  if ¬ header.length ≤ MAX_HEADER_LEN then .err .headerTooLong
  else
    let preHeader := FILE_SIGNATURE ++ leBytes 4 header.length
    if ¬ preHeader.length = PREHEADER_LEN then .panic
    else
      let headerPadding := paddingLen header.length FILE_ALIGNMENT
      let padding := if headerPadding > 0 then [List.replicate headerPadding 0] else []
      .ok ([preHeader, header] ++ padding)

end HeaderIO
end Rypt
