import Verif.Model.Xdr

/-! # Messages stored on the server: zkserver/account/account.go -/

namespace Verif.Stored

open Verif Verif.Xdr

/-- `diskMessage`, /repo/zkserver/account/account.go:57-66. -/
structure DiskMessage where
  from_ : Bytes
  received : Int
  payload : Bytes
  cleartext : Bool
  deriving DecidableEq, Repr

/-- The zero value of `diskMessage`. -/
def zero : DiskMessage := ⟨List.replicate 32 0, 0, [], false⟩

/-- The fields that the old format had: From, Received, Payload. -/
def marshalOld (m : DiskMessage) : Bytes :=
  encFixed m.from_ ++ (be64 (m.received % 2 ^ 64).toNat ++ (be32 m.payload.length ++ encFixed m.payload))

/-- `xdr.Marshal(&b, dm)` in `Deliver`, /repo/zkserver/account/account.go:320-331: From, Received,
Payload, Cleartext. -/
def marshal (m : DiskMessage) : Bytes := marshalOld m ++ be32 (if m.cleartext then 1 else 0)

/-- Reading a stored file, /repo/zkserver/account/account.go:467-489: `xdr.Unmarshal` into a zero
`diskMessage`, field by field. `io.EOF`, that is, the end of the file where an item would start, is
ignored and leaves the remaining fields zero; `none` is any other error, which is reported. -/
def unmarshal (file : Bytes) : Option DiskMessage :=
  match readFixed 32 file with
  | .eof => some zero
  | .unexpected | .bad => none
  | .ok f r1 =>
    let m := { zero with from_ := f }
    match readU64 r1 with
    | .eof => some m
    | .unexpected | .bad => none
    | .ok t r2 =>
      let m := { m with received := signed 64 t }
      match readU32 r2 with
      | .eof => some m
      | .unexpected | .bad => none
      | .ok n r3 =>
        if tooLong 0 n then none
        else match readFixed n r3 with
          | .eof => some m
          | .unexpected | .bad => none
          | .ok p r4 =>
            let m := { m with payload := p }
            match readU32 r4 with
            | .eof => some m
            | .unexpected | .bad => none
            | .ok c _ =>
              if c = 0 then some { m with cleartext := false }
              else if c = 1 then some { m with cleartext := true }
              else none

end Verif.Stored
