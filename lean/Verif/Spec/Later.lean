import Verif.Model.Base

/-! How messages look on the wire (protobuf), and what later versions may add to them. -/

namespace Rypt.Spec

/-- The number `n` in base 128, lowest digit first; all bytes but the last have the top bit set. -/
inductive Base128 : Nat → Bytes → Prop where
  | last (b : UInt8) : b.toNat < 128 → Base128 b.toNat [b]
  | more (b : UInt8) (n : Nat) (bs : Bytes) : 128 ≤ b.toNat → Base128 n bs → Base128 (b.toNat - 128 + 128 * n) (b :: bs)

/-- Numbers on the wire: 64 bits, at most ten bytes; they need not be as short as possible. -/
structure WireNumber (n : Nat) (bs : Bytes) : Prop where
  digits : Base128 n bs
  short : bs.length ≤ 10
  fits : n < 2 ^ 64

/-- A field with the number `tag`, of any of the four kinds in use. -/
inductive WireField (tag : Nat) : Bytes → Prop where
  | number (k v : Bytes) (n : Nat) : WireNumber (8 * tag) k → WireNumber n v → WireField tag (k ++ v)
  | eight (k v : Bytes) : WireNumber (8 * tag + 1) k → v.length = 8 → WireField tag (k ++ v)
  | bytes (k l v : Bytes) : WireNumber (8 * tag + 2) k → WireNumber v.length l → WireField tag (k ++ l ++ v)
  | four (k v : Bytes) : WireNumber (8 * tag + 5) k → v.length = 4 → WireField tag (k ++ v)

/-- The messages in a header (src/proto/header.proto). -/
inductive Message where
  | header
  | family
  | group
  | parts
  | protectedPart

/-- The numbers of the fields that this version of the program knows. -/
def Message.known : Message → List Nat
  | .header => [1, 6, 7, 8]
  | .family => [1]
  | .group => [1, 2]
  | .parts => [1, 2, 3]
  | .protectedPart => [1, 2, 4]

/-- The fields that are messages. -/
def Message.inner : Message → Nat → Option Message
  | .header, 1 => some .family
  | .header, 7 => some .group
  | .group, 2 => some .parts
  | .parts, 3 => some .group
  | _, _ => none

/-- The message `b` is `a` with fields added, in it and in the messages within, that this version does not know: at the front, at the
end or in between. -/
inductive Added : Message → Bytes → Bytes → Prop where
  | nil (m : Message) : Added m [] []
  | later (m : Message) (tag : Nat) (f a b : Bytes) : 0 < tag → tag < 2 ^ 29 → tag ∉ m.known → WireField tag f → Added m a b →
      Added m a (f ++ b)
  | same (m : Message) (tag : Nat) (f a b : Bytes) : 0 < tag → tag < 2 ^ 29 → WireField tag f → Added m a b →
      Added m (f ++ a) (f ++ b)
  | within (m m' : Message) (tag : Nat) (k l l' v v' a b : Bytes) : m.inner tag = some m' → WireNumber (8 * tag + 2) k →
      WireNumber v.length l → WireNumber v'.length l' → Added m' v v' → Added m a b →
      Added m (k ++ l ++ v ++ a) (k ++ l' ++ v' ++ b)

end Rypt.Spec
