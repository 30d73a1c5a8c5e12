import Verif.Model.Gf256

/-!
Model of src/shamir/mod.rs: Shamir secret sharing over GF(256).
-/

namespace Rypt.Shamir

open Gf256

/-- src/shamir/mod.rs:41. -/
def MAX_SHARES : Nat := 255

/-- One share under construction: `x`, the running power of `x`, and the share's bytes
(src/shamir/mod.rs:73-83). -/
structure ShareState where
  x : Gf256
  xi : Gf256
  share : List Gf256

/-- src/shamir/mod.rs:89-93: multiply the running power by `x` and add `random * xi`. -/
def stepShare (random : List Gf256) (s : ShareState) : Res ShareState := do
  let xi := s.xi * s.x
  let share ← addMulSlice s.share random xi
  return { s with xi := xi, share := share }

/-- src/shamir/mod.rs:86-94: `k` more iterations of the loop over the polynomial's degrees, each with a
fresh random vector of the secret's length. -/
def addDegrees (secretLen : Nat) : Nat → List ShareState → Tape → Res (List ShareState × Tape)
  | 0, ss, tape => .ok (ss, tape)
  | k + 1, ss, tape => do
    let (random, tape) := tape.fill secretLen
    let ss ← ss.mapM (stepShare (asSlice random))
    addDegrees secretLen k ss tape

/-- src/shamir/mod.rs:46-97 `create_secret_shares`. `(i + 1) as u8` truncates modulo 256
(never relevant: at most 255 shares). Returns the shares and the rest of the random tape. -/
def createSecretShares (secret : Bytes) (numShares threshold : Nat) (tape : Tape) :
    Res (List Bytes × Tape) :=
  if threshold = 0 then .err .zeroThreshold
  else if numShares < threshold then .err (.notEnoughShares numShares threshold)
  else if numShares > MAX_SHARES then .err (.tooManyShares numShares)
  else do
    let init := (List.range numShares).map fun i =>
      { x := ⟨UInt8.ofNat (i + 1)⟩, xi := 1, share := asSlice secret : ShareState }
    let (ss, tape) ← addDegrees secret.length (threshold - 1) init tape
    return (ss.map fun s => toBytes s.share, tape)

/-- src/shamir/mod.rs:129-137: share index to field element. `idx + 1` wraps at 2^64 in release builds. -/
def shareX (p : Nat × Bytes) : Res (Gf256 × List Gf256) :=
  let idx := wrap64 (p.1 + 1)
  if idx < 256 then .ok (⟨UInt8.ofNat idx⟩, asSlice p.2)
  else .err (.shareIndexTooLarge p.1)

/-- src/shamir/mod.rs:151-154: Lagrange coefficient at zero of the point `ui` among the points `us`. -/
def lagrangeAtZero (us : List Gf256) (ui : Gf256) : Res Gf256 :=
  (us.filter (· ≠ ui)).foldlM (fun acc uj => (acc * uj).div (uj - ui)) 1

/-- src/shamir/mod.rs:149-159: the accumulation loop. -/
def accumulate (us : List Gf256) : List (Gf256 × List Gf256) → List Gf256 → Res (List Gf256)
  | [], secret => .ok secret
  | (ui, share) :: rest, secret => do
    let li ← lagrangeAtZero us ui
    let secret ← addMulSlice secret share li
    accumulate us rest secret

/-- src/shamir/mod.rs:100-161 `recover_secret`. The sort/dedup length comparison of lines 109-114 is
written as the duplicate test it performs. `shares[0]` of line 141 exists since `threshold ≥ 1`;
the model panics otherwise. -/
def recoverSecret (shares : List (Nat × Bytes)) (threshold : Nat) : Res Bytes :=
  if threshold = 0 then .err .zeroThreshold
  else if ¬ (shares.map Prod.fst).Nodup then .err .sharesSameIndices
  else if shares.length < threshold then .err (.notEnoughShares shares.length threshold)
  else do
    let pts ← (shares.take threshold).mapM shareX
    match pts with
    | [] => .panic
    | p0 :: _ =>
      let secretLen := p0.2.length
      if pts.any (fun p => p.2.length ≠ secretLen) then .err .differentLengthShares
      else do
        let secret ← accumulate (pts.map Prod.fst) pts (List.replicate secretLen 0)
        return toBytes secret

end Rypt.Shamir
