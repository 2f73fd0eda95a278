import Verif.Model.Common
import Verif.Model.Xdr
import Verif.Model.Crpc
import Verif.Model.Policy
import Verif.Model.Rendezvous

/-! # The welcome message: zkserver/zkserver.go, zkclient/zkclient.go

The server sends it after the key exchange and the client takes the parameters of the session from it. The channel
is C06. Go's `int` and `uint` have 64 bits. -/

namespace Verif.Welcome

open Verif Verif.Crpc

/-- `ServerProperty`, /repo/rpc/rpc.go:136-140: key, value, required. -/
abbrev Prop' := Bytes × Bytes × Bool

def welcomeCmd : Bytes := ascii ['w', 'e', 'l', 'c', 'o', 'm', 'e']
def unwelcomeCmd : Bytes := ascii ['u', 'n', 'w', 'e', 'l', 'c', 'o', 'm', 'e']

/-! The keys, /repo/rpc/rpc.go:142-180. -/
def kTagDepth : Bytes := ascii ['t', 'a', 'g', 'd', 'e', 'p', 't', 'h']
def kMOTD : Bytes := ascii ['m', 'o', 't', 'd']
def kMaxAttachmentSize : Bytes :=
  ascii ['m', 'a', 'x', 'a', 't', 't', 'a', 'c', 'h', 'm', 'e', 'n', 't', 's', 'i', 'z', 'e']
def kMaxChunkSize : Bytes := ascii ['m', 'a', 'x', 'c', 'h', 'u', 'n', 'k', 's', 'i', 'z', 'e']
def kMaxMsgSize : Bytes := ascii ['m', 'a', 'x', 'm', 's', 'g', 's', 'i', 'z', 'e']
def kServerTime : Bytes := ascii ['s', 'e', 'r', 'v', 'e', 'r', 't', 'i', 'm', 'e']
def kDirectory : Bytes := ascii ['d', 'i', 'r', 'e', 'c', 't', 'o', 'r', 'y']

/-- `tagDepth` of client and server, /repo/zkclient/zkclient.go:670, /repo/zkserver/zkserver.go:48. -/
def tagDepth : Nat := 32

/-- `ProtocolVersion`, /repo/rpc/rpc.go:113. -/
def version : Int := 9

/-- `strconv.ParseBool` of the Go library. -/
def parseBool (s : Bytes) : Option Bool :=
  if s ∈ [ascii ['1'], ascii ['t'], ascii ['T'], ascii ['T', 'R', 'U', 'E'], ascii ['t', 'r', 'u', 'e'],
      ascii ['T', 'r', 'u', 'e']] then some true
  else if s ∈ [ascii ['0'], ascii ['f'], ascii ['F'], ascii ['F', 'A', 'L', 'S', 'E'],
      ascii ['f', 'a', 'l', 's', 'e'], ascii ['F', 'a', 'l', 's', 'e']] then some false
  else none

/-- `strconv.FormatBool` of the Go library. -/
def formatBool (b : Bool) : Bytes :=
  if b then ascii ['t', 'r', 'u', 'e'] else ascii ['f', 'a', 'l', 's', 'e']

/-- `strconv.FormatInt(n, 10)` of the Go library. -/
def formatInt (x : Int) : Bytes :=
  if x < 0 then 45 :: Rendezvous.format x.natAbs else Rendezvous.format x.natAbs

/-- The local variables of `welcomePhase`, /repo/zkclient/zkclient.go:834-841. -/
structure Params where
  td : Int
  pt : Int
  cs : Nat
  ms : Nat
  as : Nat
  dir : Bool
  deriving DecidableEq, Repr

def Params.start : Params := ⟨-1, -1, 0, 0, 0, false⟩

inductive Err where
  /-- the header or the payload does not decode, or it is another command -/
  | malformed
  | unwelcome (reason : Bytes)
  | version
  /-- the value of a property is malformed -/
  | value
  | unknown
  /-- a property is missing or out of range -/
  | range
  deriving DecidableEq, Repr

/-- One property, /repo/zkclient/zkclient.go:848-898. -/
def take (p : Params) (v : Prop') : Outcome Err Params :=
  if v.1 = kTagDepth then
    match Policy.parseInt64 v.2.1 with
    | none => .err .value
    | some x => .ok { p with td := x }
  else if v.1 = kServerTime then
    match Policy.parseInt64 v.2.1 with
    | none => .err .value
    | some x => .ok { p with pt := x }
  else if v.1 = kMaxChunkSize then
    match Policy.parseUint64 v.2.1 with
    | none => .err .value
    | some x => .ok { p with cs := x }
  else if v.1 = kMaxMsgSize then
    match Policy.parseUint64 v.2.1 with
    | none => .err .value
    | some x => .ok { p with ms := x }
  else if v.1 = kMaxAttachmentSize then
    match Policy.parseUint64 v.2.1 with
    | none => .err .value
    | some x => .ok { p with as := x }
  else if v.1 = kMOTD then .ok p
  else if v.1 = kDirectory then
    match parseBool v.2.1 with
    | none => .err .value
    | some x => .ok { p with dir := x }
  else .err .unknown

/-- The loop. -/
def takeAll (p : Params) : List Prop' → Outcome Err Params
  | [] => .ok p
  | v :: l =>
    match take p v with
    | .ok p' => takeAll p' l
    | .err e => .err e
    | .panic => .panic

/-- The rest of `welcomePhase`, /repo/zkclient/zkclient.go:900-949. `tagstack.New` of a negative depth is a
panic. -/
def check (p : Params) : Outcome Err Params :=
  if p.td = -1 then .err .range
  else if p.td > tagDepth then .err .range
  else if p.pt = -1 then .err .range
  else if p.as = 0 then .err .range
  else if p.cs = 0 then .err .range
  else if p.ms = 0 then .err .range
  else if p.ms < p.cs then .err .range
  else if p.td < 0 then .panic
  else .ok p

/-- A decoded welcome, /repo/zkclient/zkclient.go:826-949. -/
def accept (v : Int) (l : List Prop') : Outcome Err Params :=
  if v ≠ version then .err .version
  else
    match takeAll .start l with
    | .ok p => check p
    | .err e => .err e
    | .panic => .panic

/-- `welcomePhase`, /repo/zkclient/zkclient.go:776-950, of what was received. -/
def welcomePhase (buf : Bytes) : Outcome Err Params :=
  match Xdr.dec 0 Xdr.message buf with
  | .ok m rest =>
    if m.1 = welcomeCmd then
      match Xdr.dec 0 Xdr.welcome rest with
      | .ok w _ => accept w.1 w.2.2
      | _ => .err .malformed
    else if m.1 = unwelcomeCmd then
      match Xdr.dec 0 Xdr.unwelcome rest with
      | .ok u _ => .err (.unwelcome u.2)
      | _ => .err .malformed
    else .err .malformed
  | _ => .err .malformed

/-! ## The server -/

/-- The settings that are announced, /repo/zkserver/settings/settings.go:20-38. -/
structure Settings where
  maxAttachmentSize : Nat
  maxChunkSize : Nat
  maxMsgSize : Nat
  directory : Bool
  deriving DecidableEq, Repr

/-- `New`, /repo/zkserver/settings/settings.go:43-64, with /repo/rpc/rpc.go:142-180. -/
def Settings.default : Settings := ⟨10 * 1024 * 1024, 256 * 1024, 256 * 1024 + 1024, false⟩

/-- The sizes in `Load`, /repo/zkserver/settings/settings.go:134-150, with the two entries of the file. There is no
entry for the size of messages. -/
def Settings.load (s : Settings) (asz csz : Option Bytes) : Option Settings :=
  match asz with
  | some a =>
    match Policy.parseUint64 a with
    | none => none
    | some n =>
      match csz with
      | some c =>
        match Policy.parseUint64 c with
        | none => none
        | some m => some { s with maxAttachmentSize := n, maxChunkSize := m }
      | none => some { s with maxAttachmentSize := n }
  | none =>
    match csz with
    | some c =>
      match Policy.parseUint64 c with
      | none => none
      | some m => some { s with maxChunkSize := m }
    | none => some s

/-- The properties in `welcome`, /repo/zkserver/zkserver.go:168-186, in the order of `SupportedServerProperties`,
/repo/rpc/rpc.go:223-234. That the list is shared by all sessions is left out here; it is
in `SharedProps`. -/
def properties (s : Settings) (now : Int) (motd : Bytes) : List Prop' :=
  [(kTagDepth, Rendezvous.format tagDepth, true),
   (kMaxAttachmentSize, Rendezvous.format s.maxAttachmentSize, true),
   (kMaxChunkSize, Rendezvous.format s.maxChunkSize, true),
   (kMaxMsgSize, Rendezvous.format s.maxMsgSize, true),
   (kServerTime, formatInt now, true),
   (kDirectory, formatBool s.directory, true),
   (kMOTD, motd, false)]

/-- `welcome`, /repo/zkserver/zkserver.go:161-215. -/
def welcome (s : Settings) (now : Int) (motd : Bytes) : Bytes :=
  Xdr.enc Xdr.message (welcomeCmd, (0 : Int), false, (0 : Nat)) ++ Xdr.enc Xdr.welcome (version, (0 : Int), properties s now motd)

/-- `unwelcome`, /repo/zkserver/zkserver.go:128-159. -/
def unwelcome (reason : Bytes) : Bytes :=
  Xdr.enc Xdr.message (unwelcomeCmd, (0 : Int), false, (0 : Nat)) ++ Xdr.enc Xdr.unwelcome (version, reason)

end Verif.Welcome
