import Verif.Model.Common

/-! # ratchet/ratchet.go: validateECDHpoint, inv32 -/

namespace Verif.Point

/-- `inv32`, /repo/ratchet/ratchet.go:520-529, on a slice of 32 bytes (the only use, :165, is
guarded by the length test). -/
def inv32 (x : Bytes) : Bytes := (List.range 32).map fun i => x.getD (31 - i) 0

/-- `new(big.Int).SetBytes`: big-endian value. -/
def setBytes (b : Bytes) : Nat := b.foldl (fun acc x => 256 * acc + x.toNat) 0

/-- `validateECDHpoint`, /repo/ratchet/ratchet.go:161-176; `true` is a nil error. -/
def validateECDHpoint (p : Bytes) : Bool :=
  if p.length ≠ 32 then false
  else if setBytes (inv32 p) < 3 then false
  else if ¬ (setBytes (inv32 p) < 2 ^ 255 - 19) then false
  else true

end Verif.Point
