import Verif.Model.Common

/-! # base64.StdEncoding of the Go library

Used by /repo/zkserver/rendezvous.go:95 and 187. -/

namespace Verif.Base64

open Verif

/-- The character for six bits. -/
def chr (n : Nat) : UInt8 :=
  if n < 26 then UInt8.ofNat (65 + n)
  else if n < 52 then UInt8.ofNat (71 + n)
  else if n < 62 then UInt8.ofNat (n - 4)
  else if n = 62 then 43 else 47

/-- The six bits of a character. -/
def val (c : UInt8) : Option Nat :=
  let n := c.toNat
  if 65 ≤ n ∧ n ≤ 90 then some (n - 65)
  else if 97 ≤ n ∧ n ≤ 122 then some (n - 71)
  else if 48 ≤ n ∧ n ≤ 57 then some (n + 4)
  else if n = 43 then some 62
  else if n = 47 then some 63
  else none

/-- `EncodeToString`: three bytes are four characters, an incomplete group is padded with `=`. -/
def encode : Bytes → Bytes
  | [] => []
  | [a] => [chr (a.toNat / 4), chr (a.toNat % 4 * 16), 61, 61]
  | [a, b] => [chr (a.toNat / 4), chr (a.toNat % 4 * 16 + b.toNat / 16), chr (b.toNat % 16 * 4), 61]
  | a :: b :: c :: r =>
    chr (a.toNat / 4) :: chr (a.toNat % 4 * 16 + b.toNat / 16) ::
      chr (b.toNat % 16 * 4 + c.toNat / 64) :: chr (c.toNat % 64) :: encode r

/-- `DecodeString` without line breaks. -/
def decodeGroups : Bytes → Option Bytes
  | [] => some []
  | a :: b :: c :: d :: r =>
    match val a, val b with
    | some x, some y =>
      if c = 61 then
        if d = 61 ∧ r = [] then some [UInt8.ofNat (x * 4 + y / 16)] else none
      else match val c with
        | none => none
        | some z =>
          if d = 61 then
            if r = [] then some [UInt8.ofNat (x * 4 + y / 16), UInt8.ofNat (y % 16 * 16 + z / 4)] else none
          else match val d with
            | none => none
            | some w => (decodeGroups r).map fun t =>
                UInt8.ofNat (x * 4 + y / 16) :: UInt8.ofNat (y % 16 * 16 + z / 4) ::
                  UInt8.ofNat (z % 4 * 64 + w) :: t
    | _, _ => none
  | _ => none

/-- `DecodeString`: line breaks are skipped. -/
def decode (s : Bytes) : Option Bytes := decodeGroups (s.filter fun c => c != 10 && c != 13)

end Verif.Base64
