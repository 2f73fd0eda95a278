import Verif.Model.AddressBook
import Verif.Model.Invites

/-! # What `/list` shows: zkclient/zkclient.go, zkclient/groupinvites.go

The five lists, line by line as the text that is given to `PrintfT`, which puts the time before it. Lines about invitations are
left as fields: how Go prints a time is not modelled. Go walks maps in any order, so the maps are given in some order here and
nothing is said of the order of lines, except for windows and members. -/

namespace Verif.Lists

open Verif Verif.AddressBook

/-- `%v` of a number. -/
def num (n : Nat) : Bytes := (Nat.toDigits 10 n).map fun c => UInt8.ofNat c.toNat

/-- A line of `listAddressBook`, /repo/zkclient/zkclient.go:522; `name` is the name in the identity. -/
def contactLine (name : Nat → Bytes) (v : PubId) : Bytes :=
  v.nick ++ [32] ++ name v.other ++ [32] ++ Hex.fingerprint v.identity

/-- `listAddressBook`, /repo/zkclient/zkclient.go:519-524. -/
def listAddressBook (name : Nat → Bytes) (order : List (Bytes × PubId)) : List Bytes :=
  (AddressBook.all order).map (contactLine name)

/-- A window, as far as it is listed: `nick`, `id.Name`, `id.Identity` of `conversation`. The window of a group has the name of
the group as nick, the name "group chat" and an identity of zeros, /repo/zkclient/zkclient.go:353-359. -/
structure Win where
  nick : Bytes
  name : Bytes
  identity : Bytes
  deriving DecidableEq, Repr

/-- A line of `listConversations`, /repo/zkclient/zkclient.go:511-515. -/
def winLine (k : Nat) (w : Win) : Bytes :=
  [91] ++ num k ++ [93, 32] ++ w.nick ++ [32] ++ w.name ++ [32] ++ Hex.fingerprint w.identity

/-- `listConversations`, /repo/zkclient/zkclient.go:499-517: the windows from number `k` on; the first one is the console. -/
def listFrom (k : Nat) : List (Option Win) → List Bytes
  | [] => []
  | none :: ws => listFrom (k + 1) ws
  | some w :: ws => (if k = 0 then [] else [winLine k w]) ++ listFrom (k + 1) ws

def listConversations (ws : List (Option Win)) : List Bytes := listFrom 0 ws

/-- `addressBookFind`, /repo/zkclient/addressbook.go:100-105. -/
def find (me : PubId) (order : List (Bytes × PubId)) (id : Bytes) : Option PubId :=
  if id = me.identity then some me else findIdentity id order

/-- `" (admin)"` -/
def adminText : Bytes := [32, 40, 97, 100, 109, 105, 110, 41]

/-- `"UNKNOWN"` -/
def unknownText : Bytes := [85, 78, 75, 78, 79, 87, 78]

/-- A line of `listGroupchat` for member number `k`, /repo/zkclient/zkclient.go:549-564; `c` is `PmColor`, `z` is `RESET`. -/
def memberLine (me : PubId) (order : List (Bytes × PubId)) (c z : Bytes) (k : Nat) (id : Bytes) : Bytes :=
  let post := if k = 0 then adminText else []
  let (fp, nick) :=
    match find me order id with
    | some p => (Hex.fingerprint p.identity, p.nick)
    | none => (unknownText, Hex.encode id)
  [32, 32, 32, 32] ++ fp ++ [32] ++ (c ++ nick ++ z) ++ [32] ++ post

/-- `listGroupchat` of one group, /repo/zkclient/zkclient.go:549-565: the members in the order in which they are stored. -/
def listMembers (me : PubId) (order : List (Bytes × PubId)) (c z : Bytes) (members : List Bytes) : List Bytes :=
  members.mapIdx (memberLine me order c z)

/-- A line of `listInvitesJoins`, /repo/zkclient/groupinvites.go:115-119. -/
structure Row where
  group : Invites.Str
  nick : Bytes
  token : Nat
  expires : Int
  deriving DecidableEq, Repr

/-- The loop over the records of a group, /repo/zkclient/groupinvites.go:91-120; what is left out is logged. -/
def row (order : List (Bytes × PubId)) (group : Invites.Str) (kr : Invites.Str × Invites.Str) : Option Row :=
  match Invites.unmarshalInvite kr.2 with
  | none => none
  | some v =>
    match Invites.idOf kr.1 with
    | none => none
    | some id =>
      match findIdentity id order with
      | none => none
      | some p => some ⟨group, p.nick, Invites.tokenOf v, v.2.2.2.2⟩

/-- `listInvitesJoins`, /repo/zkclient/groupinvites.go:87-122. -/
def listInvitesJoins (order : List (Bytes × PubId)) (i : IniDB.DB) : List Row :=
  (IniDB.tableNames i).flatMap fun group => (IniDB.records i group).filterMap (row order group)

/-- `listJoins` and `listInvites`, /repo/zkclient/groupinvites.go:60-84: nothing if the file cannot be opened. -/
def listFile (base : Invites.Str) (order : List (Bytes × PubId)) (d : IniDB.Dir) : List Row :=
  match (Invites.opened base false d []).1 with
  | none => []
  | some i => listInvitesJoins order i

end Verif.Lists
