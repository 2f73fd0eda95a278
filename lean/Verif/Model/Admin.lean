import Verif.Model.Accounts
import Verif.Model.Text

/-! # The tools of the administrator: tools/zkserverctl, tools/zkserverdump, and the socket they talk to

zkserverctl sends two JSON values over a socket, which the server answers with one; zkserverdump reads the users
directory. Modelled are the bytes on the socket, as `encoding/json` writes and reads them, and what is printed. -/

namespace Verif.Admin

open Verif Text Accounts

/-! ## Strings in JSON -/

/-- What `encoding/json` writes for a byte below 128 of a string: quotes, backslashes, control characters and the
characters HTML cares about are escaped. -/
def escByte (c : UInt8) : Bytes :=
  if c = 34 ∨ c = 92 then [92, c]
  else if c = 10 then [92, 110]
  else if c = 13 then [92, 114]
  else if c = 9 then [92, 116]
  else if c < 32 ∨ c = 38 ∨ c = 60 ∨ c = 62 then
    [92, 117, 48, 48, Hex.digit (c.toNat / 16), Hex.digit (c.toNat % 16)]
  else [c]

/-- The inside of a string as `encoding/json` writes it: what is no UTF-8 becomes U+FFFD, and U+2028 and U+2029 are
escaped. The number bounds the rounds. -/
def escape : Nat → Bytes → Bytes
  | 0, _ => []
  | _ + 1, [] => []
  | n + 1, c :: s =>
    if c < 128 then escByte c ++ escape n s
    else
      let (r, w) := decodeRune (c :: s)
      (if r = 0xfffd ∧ w = 1 then [92, 117, 102, 102, 102, 100]
        else if r = 0x2028 ∨ r = 0x2029 then [92, 117, 50, 48, 50, Hex.digit (r % 16)]
        else (c :: s).take w) ++ escape n ((c :: s).drop w)

/-- A string in quotes. -/
def quoted (s : Bytes) : Bytes := 34 :: escape s.length s ++ [34]

/-- Four hexadecimal digits. -/
def four : Bytes → Option (Nat × Bytes)
  | a :: b :: c :: d :: r =>
    match Hex.fromHexChar a, Hex.fromHexChar b, Hex.fromHexChar c, Hex.fromHexChar d with
    | some w, some x, some y, some z => some (w * 4096 + x * 256 + y * 16 + z, r)
    | _, _, _, _ => none
  | _ => none

/-- Escapes of one character. -/
def simple (c : UInt8) : Option UInt8 :=
  if c = 34 ∨ c = 92 ∨ c = 47 then some c
  else if c = 98 then some 8
  else if c = 102 then some 12
  else if c = 110 then some 10
  else if c = 114 then some 13
  else if c = 116 then some 9
  else none

/-- Put bytes before the result. -/
def before (b : Bytes) (r : Option (Bytes × Bytes)) : Option (Bytes × Bytes) := r.map fun (t, rest) => (b ++ t, rest)

/-- A string after its first quote, as `encoding/json` reads it: its contents and what comes after the last quote.
`none` is an error. The number bounds the rounds. -/
def unquote : Nat → Bytes → Option (Bytes × Bytes)
  | 0, _ => none
  | _ + 1, [] => none
  | n + 1, c :: s =>
    if c = 34 then some ([], s)
    else if c < 32 then none
    else if c = 92 then
      match s with
      | [] => none
      | e :: s =>
        if e = 117 then
          match four s with
          | none => none
          | some (r, s) =>
            if 0xd800 ≤ r ∧ r < 0xdc00 then
              match s with
              | 92 :: 117 :: s' =>
                match four s' with
                | none => none
                | some (r', s'') =>
                  if 0xdc00 ≤ r' ∧ r' < 0xe000 then
                    before (encodeRune ((r - 0xd800) * 1024 + (r' - 0xdc00) + 0x10000)) (unquote n s'')
                  else before (encodeRune 0xfffd) (unquote n s)
              | _ => before (encodeRune 0xfffd) (unquote n s)
            else before (encodeRune r) (unquote n s)
        else
          match simple e with
          | none => none
          | some b => before [b] (unquote n s)
    else if c < 128 then before [c] (unquote n s)
    else
      let (r, w) := decodeRune (c :: s)
      before (encodeRune r) (unquote n ((c :: s).drop w))

/-! ## Objects -/

inductive Val where
  | str (s : Bytes)
  | num (n : Nat)
  deriving DecidableEq, Repr

/-- White space of JSON. -/
def skip (s : Bytes) : Bytes := s.dropWhile fun c => c = 32 || c = 9 || c = 10 || c = 13

/-- Digits, and what follows them. -/
def digits (acc : Nat) : Bytes → Nat × Bytes
  | [] => (acc, [])
  | c :: s => if 48 ≤ c ∧ c ≤ 57 then digits (acc * 10 + (c.toNat - 48)) s else (acc, c :: s)

/-- A value: strings and natural numbers. Simplification: other values are refused, the code reads them and
complains unless the name is unknown to it. -/
def value : Bytes → Option (Val × Bytes)
  | [] => none
  | c :: s =>
    if c = 34 then (unquote (s.length + 1) s).map fun (t, r) => (.str t, r)
    else if c = 48 then some (.num 0, s)
    else if 49 ≤ c ∧ c ≤ 57 then some (.num (digits 0 (c :: s)).1, (digits 0 (c :: s)).2)
    else none

/-- Members of an object up to its closing brace. -/
def members : Nat → Bytes → Option (List (Bytes × Val) × Bytes)
  | 0, _ => none
  | n + 1, s =>
    match skip s with
    | 34 :: s =>
      match unquote (s.length + 1) s with
      | none => none
      | some (k, s) =>
        match skip s with
        | 58 :: s =>
          match value (skip s) with
          | none => none
          | some (v, s) =>
            match skip s with
            | 125 :: s => some ([(k, v)], s)
            | 44 :: s => (members n s).map fun (ms, r) => ((k, v) :: ms, r)
            | _ => none
        | _ => none
    | _ => none

/-- `Decode` of an object: its members, and what was not read. -/
def object (s : Bytes) : Option (List (Bytes × Val) × Bytes) :=
  match skip s with
  | 123 :: s =>
    match skip s with
    | 125 :: r => some ([], r)
    | _ => members s.length s
  | _ => none

/-- The last value for a field. Names are compared without case; simplification: only that of ASCII. -/
def field (name : Bytes) (ms : List (Bytes × Val)) : Option Val :=
  (ms.filter fun m => m.1.map asciiUpper = name.map asciiUpper).getLast?.map Prod.snd

/-- A field of type `string`: empty if it is missing, an error if it is a number. -/
def strField (name : Bytes) (ms : List (Bytes × Val)) : Option Bytes :=
  match field name ms with
  | none => some []
  | some (.str s) => some s
  | some (.num _) => none

/-- A field of type `uint`. -/
def numField (name : Bytes) (ms : List (Bytes × Val)) : Option Nat :=
  match field name ms with
  | none => some 0
  | some (.num n) => if n < 2 ^ 64 then some n else none
  | some (.str _) => none

/-! ## The protocol: zkserver/socketapi/socketapi.go -/

/-- "version", "command", "identity", "error", lines 13-40. -/
def kVersion : Bytes := [118, 101, 114, 115, 105, 111, 110]
def kCommand : Bytes := [99, 111, 109, 109, 97, 110, 100]
def kIdentity : Bytes := [105, 100, 101, 110, 116, 105, 116, 121]
def kError : Bytes := [101, 114, 114, 111, 114]

/-- "userenable" and "userdisable", lines 7-8. -/
def cEnable : Bytes := [117, 115, 101, 114, 101, 110, 97, 98, 108, 101]
def cDisable : Bytes := [117, 115, 101, 114, 100, 105, 115, 97, 98, 108, 101]

/-- An object with one string, and the line break `Encode` adds. -/
def one (k v : Bytes) : Bytes := [123] ++ quoted k ++ [58] ++ quoted v ++ [125, 10]

/-- `Encode` of `SocketCommandID` with version 1. -/
def ident (cmd : Bytes) : Bytes :=
  [123] ++ quoted kVersion ++ [58, 49, 44] ++ quoted kCommand ++ [58] ++ quoted cmd ++ [125, 10]

/-- What zkserverctl writes, /repo/tools/zkserverctl/zkserverctl.go:65-80 and 110-125. -/
def request (cmd arg : Bytes) : Bytes := ident cmd ++ one kIdentity (trimSpace arg)

/-- What zkserverctl tells the administrator, lines 82-97 and 127-142. -/
inductive Says where
  | ok
  /-- the error of the server -/
  | refused (why : Bytes)
  /-- the answer could not be read -/
  | failed
  deriving DecidableEq, Repr

/-- What zkserverctl makes of the answer. -/
def tells (answer : Bytes) : Says :=
  match object answer with
  | none => .failed
  | some (ms, _) =>
    match strField kError ms with
    | none => .failed
    | some [] => .ok
    | some e => .refused e

/-- What became of a connection: what was written to it, the accounts, the sessions that were closed, and whether the
server died. -/
structure Served where
  out : Bytes
  acc : State
  closed : List Nat
  died : Bool
  deriving DecidableEq, Repr

/-- The reply; `why` is the text of the error, which is not modelled. -/
def reply (ok : Bool) (why : Bytes) : Bytes := one kError (if ok then [] else why)

/-- `socketHandler`, /repo/zkserver/zkserver.go:721-794, for a client that sends `s` and waits. The number bounds the
commands. -/
def serve (why : Bytes) (sessions : GoMap Bytes Nat) : Nat → State → Bytes → Served
  | 0, a, _ => ⟨[], a, [], false⟩
  | n + 1, a, s =>
    match object s with
    | none => ⟨[], a, [], false⟩
    | some (ms, s) =>
      match numField kVersion ms, strField kCommand ms with
      | some v, some cmd =>
        if v ≠ 1 then ⟨[], a, [], false⟩
        else if cmd = cDisable then
          match object s with
          | none => ⟨[], a, [], false⟩
          | some (ms, s) =>
            match strField kIdentity ms with
            | none => ⟨[], a, [], false⟩
            | some id =>
              match socketDisable a sessions id with
              | (.ok b, a, c) =>
                let r := serve why sessions n a s
                { r with out := reply b why ++ r.out, closed := c.toList ++ r.closed }
              | (_, a, _) => ⟨[], a, [], true⟩
        else if cmd = cEnable then
          match object s with
          | none => ⟨[], a, [], false⟩
          | some (ms, s) =>
            match strField kIdentity ms with
            | none => ⟨[], a, [], false⟩
            | some id =>
              match handleIdentityEnable a id with
              | (.ok b, a) =>
                let r := serve why sessions n a s
                { r with out := reply b why ++ r.out }
              | (_, a) => ⟨[], a, [], true⟩
        else ⟨[], a, [], false⟩
      | _, _ => ⟨[], a, [], false⟩

/-- A run of zkserverctl against a server nobody else talks to: what the administrator is told, and what became of
the server. -/
def ctl (why : Bytes) (sessions : GoMap Bytes Nat) (a : State) (cmd arg : Bytes) : Says × Served :=
  let r := serve why sessions (request cmd arg).length a (request cmd arg)
  (tells r.out, r)

/-! ## zkserverdump -/

/-- The names of directories, `accountDir` and `accountDirDisabled`, /repo/zkserver/account/account.go:105-113. -/
def nameOf (disabled : Bool) (id : Id) : Bytes := if disabled then 46 :: Hex.encode id else Hex.encode id

/-- The users directory. -/
def entries (s : State) : List (Bytes × Acct) :=
  s.disabled.map (fun e => (nameOf true e.1, e.2)) ++ s.enabled.map fun e => (nameOf false e.1, e.2)

/-- A line of the listing, /repo/tools/zkserverdump/zkserverdump.go:91. -/
def line (name nick : Bytes) : Bytes := name ++ [32] ++ nick ++ [10]

/-- The loop, lines 71-92, over the users directory in the order of names: what is printed, and whether the program
came to the end. -/
def dump : List (Bytes × Acct) → Bytes × Bool
  | [] => ([], true)
  | (name, a) :: r =>
    match a.user.bind User.identity with
    | none => ([], false)
    | some p => (line name p.nick ++ (dump r).1, (dump r).2)

end Verif.Admin
