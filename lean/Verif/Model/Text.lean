import Verif.Model.Common

/-! # Functions of the Go packages `strings` and `unicode/utf8`

As far as the client uses them on nicks, commands and messages. Strings are byte strings; nothing says that
they are valid UTF-8. -/

namespace Verif.Text

open Verif

/-- `strings.Split(s, " ")`: cut at every space (32). -/
def split : Bytes → List Bytes
  | [] => [[]]
  | c :: r =>
    if c = 32 then [] :: split r
    else
      match split r with
      | [] => [[c]]
      | w :: ws => (c :: w) :: ws

/-- `strings.TrimPrefix`. -/
def trimPrefix (s p : Bytes) : Bytes := if p.isPrefixOf s then s.drop p.length else s

/-- `strings.TrimRight(s, " ")`. -/
def trimRightBlank (s : Bytes) : Bytes := (s.reverse.dropWhile (· = 32)).reverse

/-- UTF-8 of the runes for which `unicode.IsSpace` holds: tab, newline, vertical tab, form feed, carriage
return, space, U+0085, U+00A0, U+1680, U+2000 to U+200A, U+2028, U+2029, U+202F, U+205F, U+3000. -/
def spaces : List Bytes :=
  [[9], [10], [11], [12], [13], [32], [0xc2, 0x85], [0xc2, 0xa0], [0xe1, 0x9a, 0x80],
   [0xe2, 0x80, 0x80], [0xe2, 0x80, 0x81], [0xe2, 0x80, 0x82], [0xe2, 0x80, 0x83], [0xe2, 0x80, 0x84],
   [0xe2, 0x80, 0x85], [0xe2, 0x80, 0x86], [0xe2, 0x80, 0x87], [0xe2, 0x80, 0x88], [0xe2, 0x80, 0x89],
   [0xe2, 0x80, 0x8a], [0xe2, 0x80, 0xa8], [0xe2, 0x80, 0xa9], [0xe2, 0x80, 0xaf], [0xe2, 0x81, 0x9f],
   [0xe3, 0x80, 0x80]]

/-- Remove words of `ws` from the front as long as there are any. Every word removed has at least one byte, so
as many rounds as bytes are enough. -/
def dropWords (ws : List Bytes) : Nat → Bytes → Bytes
  | 0, s => s
  | n + 1, s =>
    match ws.find? (fun w => w.isPrefixOf s) with
    | none => s
    | some w => dropWords ws n (s.drop w.length)

/-- The left half of `strings.TrimSpace`: decoding the first rune gives white space exactly if the string
begins with the UTF-8 of one. -/
def trimLeftSpace (s : Bytes) : Bytes := dropWords spaces s.length s

/-- The right half of `strings.TrimSpace`, on the reversed string. -/
def trimRightSpace (s : Bytes) : Bytes := (dropWords (spaces.map List.reverse) s.length s.reverse).reverse

/-- `strings.TrimSpace`. -/
def trimSpace (s : Bytes) : Bytes := trimRightSpace (trimLeftSpace s)

/-- `strings.Index`: where `sub` occurs first. -/
def index (sub : Bytes) : Bytes → Option Nat
  | [] => if sub = [] then some 0 else none
  | c :: r => if sub.isPrefixOf (c :: r) then some 0 else (index sub r).map (· + 1)

/-- A continuation byte between `lo` and `hi`. -/
def between (lo hi b : UInt8) : Bool := lo ≤ b && b ≤ hi

/-- `utf8.DecodeRune`: the rune and its width. Bytes that are no UTF-8 give U+FFFD and width 1. -/
def decodeRune : Bytes → Nat × Nat
  | [] => (0xfffd, 0)
  | a :: r =>
    let bad := (0xfffd, 1)
    if a < 0x80 then (a.toNat, 1)
    else if between 0xc2 0xdf a then
      match r with
      | b :: _ => if between 0x80 0xbf b then ((a.toNat - 0xc0) * 64 + (b.toNat - 0x80), 2) else bad
      | _ => bad
    else if between 0xe0 0xef a then
      let lo := if a = 0xe0 then 0xa0 else 0x80
      let hi := if a = 0xed then 0x9f else 0xbf
      match r with
      | b :: c :: _ =>
        if between lo hi b && between 0x80 0xbf c then
          ((a.toNat - 0xe0) * 4096 + (b.toNat - 0x80) * 64 + (c.toNat - 0x80), 3)
        else bad
      | _ => bad
    else if between 0xf0 0xf4 a then
      let lo := if a = 0xf0 then 0x90 else 0x80
      let hi := if a = 0xf4 then 0x8f else 0xbf
      match r with
      | b :: c :: d :: _ =>
        if between lo hi b && between 0x80 0xbf c && between 0x80 0xbf d then
          ((a.toNat - 0xf0) * 262144 + (b.toNat - 0x80) * 4096 + (c.toNat - 0x80) * 64 + (d.toNat - 0x80), 4)
        else bad
      | _ => bad
    else bad

/-- `utf8.EncodeRune`; what is no rune is written as U+FFFD. -/
def encodeRune (r : Nat) : Bytes :=
  if r < 0x80 then [UInt8.ofNat r]
  else if r < 0x800 then [UInt8.ofNat (0xc0 + r / 64), UInt8.ofNat (0x80 + r % 64)]
  else if r < 0x10000 ∧ ¬ (0xd800 ≤ r ∧ r < 0xe000) then
    [UInt8.ofNat (0xe0 + r / 4096), UInt8.ofNat (0x80 + r / 64 % 64), UInt8.ofNat (0x80 + r % 64)]
  else if 0x10000 ≤ r ∧ r < 0x110000 then
    [UInt8.ofNat (0xf0 + r / 262144), UInt8.ofNat (0x80 + r / 4096 % 64), UInt8.ofNat (0x80 + r / 64 % 64),
      UInt8.ofNat (0x80 + r % 64)]
  else [0xef, 0xbf, 0xbd]

/-- `strings.Map`, one rune after the other. A rune that is mapped to itself is copied, but a byte that is no
UTF-8 is written as the three bytes of what U+FFFD is mapped to. -/
def mapRunes (f : Nat → Nat) : Nat → Bytes → Bytes
  | 0, _ => []
  | _ + 1, [] => []
  | n + 1, c :: s =>
    let (r, w) := decodeRune (c :: s)
    (if f r = r ∧ ¬ (r = 0xfffd ∧ w = 1) then (c :: s).take w else encodeRune (f r)) ++
      mapRunes f n ((c :: s).drop w)

/-- Upper case of a byte below 128. -/
def asciiUpper (b : UInt8) : UInt8 := if 97 ≤ b ∧ b ≤ 122 then b - 32 else b

/-- `strings.ToUpper`: strings of bytes below 128 have their own loop, others are mapped rune by rune. `up` is
`unicode.ToUpper`. -/
def toUpper (up : Nat → Nat) (s : Bytes) : Bytes :=
  if s.all (· < 128) then s.map asciiUpper else mapRunes up s.length s

end Verif.Text
