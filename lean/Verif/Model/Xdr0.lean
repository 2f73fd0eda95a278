import Verif.Model.Common

/-!
# XDR primitives used for framing

`davecgh/go-xdr/xdr2` is a dependency that is not part of /repo; these definitions follow
its documentation (RFC 4506): unsigned 32-bit big-endian integers, variable length opaque
data = length, bytes, zero padding to a multiple of four.
-/

namespace Verif.Xdr

/-- Big-endian 32-bit encoding (RFC 4506 §4.2); the Go conversion `uint32(n)` truncates. -/
def be32 (n : Nat) : Bytes :=
  [UInt8.ofNat (n / 2 ^ 24), UInt8.ofNat (n / 2 ^ 16), UInt8.ofNat (n / 2 ^ 8), UInt8.ofNat n]

/-- Value of four big-endian bytes. -/
def ofBe32 (a b c d : UInt8) : Nat :=
  2 ^ 24 * a.toNat + 2 ^ 16 * b.toNat + 2 ^ 8 * c.toNat + d.toNat

/-- Number of padding bytes after `n` bytes of opaque data (RFC 4506 §4.9). -/
def padLen (n : Nat) : Nat := (4 - n % 4) % 4

/-- `Encoder.EncodeOpaque`: length, data, zero padding. -/
def encOpaque (p : Bytes) : Bytes := be32 p.length ++ p ++ List.replicate (padLen p.length) 0

/-- Result of reading from a connection buffer. -/
inductive Rd (α : Type) where
  /-- not enough bytes have arrived yet -/
  | blocked
  /-- decoding error; `rest` is what remains unread -/
  | bad (rest : Bytes)
  | got (a : α) (rest : Bytes)
  deriving DecidableEq, Repr

/-- Length check of `DecodeOpaque`: above `MaxInt32`, or above the limit when one is set. -/
def tooLong (limit n : Nat) : Bool := decide (n ≥ 2147483648) || (limit != 0 && decide (n > limit))

/-- Second half of `DecodeOpaque`: the length word `n` has been read, `rest` follows. -/
def decBody (limit n : Nat) (rest : Bytes) : Rd Bytes :=
  if tooLong limit n then .bad rest
  else if rest.length < n + padLen n then .blocked
  else .got (rest.take n) (rest.drop (n + padLen n))

/-- `Decoder.DecodeOpaque` with a size limit (`UnmarshalLimited`). A length above the
limit (or above `MaxInt32`) is an error after consuming only the length word; padding
contents are not inspected. -/
def decOpaque (limit : Nat) (buf : Bytes) : Rd Bytes :=
  match buf with
  | a :: b :: c :: d :: rest => decBody limit (ofBe32 a b c d) rest
  | _ => .blocked

end Verif.Xdr
