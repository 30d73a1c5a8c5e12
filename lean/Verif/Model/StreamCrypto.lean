import Verif.Model.HeaderCrypto

/-!
Model of src/stream_crypto.rs: conversion of one chunk.
-/

namespace Rypt

/-- src/stream_pipeline.rs:11-16. `idx` is a `u64` counter. -/
structure Chunk where
  buffer : Bytes
  isLast : Bool
  idx : Nat
  deriving DecidableEq, Repr

namespace StreamCrypto

open HeaderCrypto

/-- src/stream_crypto.rs:11. -/
def CHUNK_NONCE : Bytes := ascii "rych########"
/-- src/stream_crypto.rs:12. -/
def CHUNK_IDX_POS : Nat := AEAD_NONCE_LEN - 8

/-- src/stream_crypto.rs:50-51. -/
def chunkNonce (idx : Nat) : Bytes := CHUNK_NONCE.take CHUNK_IDX_POS ++ leBytes 8 idx

/-- src/stream_crypto.rs:46-48. -/
def authedData (headerHash : Bytes) (isLast : Bool) : Bytes :=
  headerHash ++ [if isLast then 1 else 0]

/-- src/stream_crypto.rs:40, `input_chunk_asize`. -/
def inputAsize (codec : Codec) : Nat := if codec.isEncrypting then 0 else AEAD_MAC_LEN

/-- src/stream_crypto.rs:41, `output_chunk_asize`. -/
def outputAsize (codec : Codec) : Nat := if codec.isEncrypting then AEAD_MAC_LEN else 0

/-- src/stream_crypto.rs:45-72 `convert_chunk`. When decrypting fewer than 16 bytes the subtraction of line 56
overflows (debug) or `split_at_mut` fails (release): a panic in both builds. The code works in place. -/
def convertChunk (codec : Codec) (chunk : Chunk) : Res Chunk :=
  let ad := authedData codec.headerHash chunk.isLast
  let nonce := chunkNonce chunk.idx
  if codec.isEncrypting then
    let (ct, mac) := codec.crypto.aeadEncrypt codec.payloadKey nonce ad chunk.buffer
    .ok { chunk with buffer := ct ++ mac }
  else if chunk.buffer.length < AEAD_MAC_LEN then .panic
  else
    let messageLen := chunk.buffer.length - AEAD_MAC_LEN
    match codec.crypto.aeadDecrypt codec.payloadKey nonce ad (chunk.buffer.take messageLen)
        (chunk.buffer.drop messageLen) with
    | some m => .ok { chunk with buffer := m }
    | none => .err .invalidCiphertext

end StreamCrypto
end Rypt
