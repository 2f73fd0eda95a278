import Verif.Model.Common

/-! # Hexadecimal identities: zkidentity/zkidentity.go

`encoding/hex` of the Go library: EncodeToString writes two lower case digits per byte, most
significant first; DecodeString accepts both cases and fails on any other character and on odd
length. Strings are byte strings. -/

namespace Verif.Hex

/-- Lower case digit. -/
def digit (n : Nat) : UInt8 := if n < 10 then UInt8.ofNat (48 + n) else UInt8.ofNat (87 + n)

/-- `hex.EncodeToString`. -/
def encode : Bytes → Bytes
  | [] => []
  | b :: bs => digit (b.toNat / 16) :: digit (b.toNat % 16) :: encode bs

/-- `fromHexChar` of encoding/hex. -/
def fromHexChar (c : UInt8) : Option Nat :=
  if 48 ≤ c ∧ c ≤ 57 then some (c.toNat - 48)
  else if 97 ≤ c ∧ c ≤ 102 then some (c.toNat - 87)
  else if 65 ≤ c ∧ c ≤ 70 then some (c.toNat - 55)
  else none

/-- `hex.DecodeString`. -/
def decode : Bytes → Option Bytes
  | [] => some []
  | [_] => none
  | a :: b :: rest =>
    match fromHexChar a, fromHexChar b with
    | some x, some y => (decode rest).map (UInt8.ofNat (16 * x + y) :: ·)
    | _, _ => none

/-- `Fingerprint` and `PublicIdentity.String`, /repo/zkidentity/zkidentity.go:106-108, 140-146. -/
def fingerprint (id : Bytes) : Bytes := encode id

/-- `String2ID`, /repo/zkidentity/zkidentity.go:196-209; `none` is an error. -/
def string2ID (s : Bytes) : Option Bytes :=
  match decode s with
  | none => none
  | some id => if id.length ≠ 32 then none else some id

end Verif.Hex
