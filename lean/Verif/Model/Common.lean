/-!
# Common conventions

* `Outcome` models the result of a Go call: a value, an error value, or a run-time panic
  (index out of range, nil dereference, ...).  A panic is an explicit result so that
  theorems can speak about it.
* A `byte` is a `Nat` below 256 when it is stored in a `UInt8`, a byte string is a
  `List UInt8` (Go `[]byte` or `string`).
-/

namespace Verif

/-- Result of a Go call: normal return, returned `error`, or run-time panic. -/
inductive Outcome (ε α : Type) where
  | ok (a : α)
  | err (e : ε)
  | panic
  deriving DecidableEq, Repr

/-- Go byte strings. -/
abbrev Bytes := List UInt8

end Verif
