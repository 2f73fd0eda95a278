import Verif.Model.GoMap
import Verif.Model.Hex

/-! # zkclient/addressbook/addressbook.go

Every method holds the lock for its whole body, so a call is one step. -/

namespace Verif.AddressBook

open Verif

/-- `zkidentity.PublicIdentity`, as far as the address book looks at it: nick, identity, and
everything else. -/
structure PubId where
  nick : Bytes
  identity : Bytes
  other : Nat
  deriving DecidableEq, Repr

/-- `AddressBook`, /repo/zkclient/addressbook/addressbook.go:27-31. -/
abbrev Book := GoMap Bytes PubId

/-- `New`, /repo/zkclient/addressbook/addressbook.go:34-38. -/
def new : Book := []

/-- The loop of `Add`, /repo/zkclient/addressbook/addressbook.go:54-66: the nick finally used and
whether it was changed. `fuel` bounds the iterations (95 is '_'); `none` would mean that the loop is
still running. -/
def addLoop (b : Book) (id : PubId) (dup : Bool) : Nat → Option (PubId × Bool)
  | 0 => none
  | fuel + 1 =>
    match b.get id.nick with
    | none => some (id, dup)
    | some i =>
      if id.identity = i.identity then some (id, dup)
      else addLoop b { id with nick := id.nick ++ [95] } true fuel

/-- `Add`, /repo/zkclient/addressbook/addressbook.go:44-69: nick used, whether `ErrDuplicateNick` is
returned, new book. A Go map has no more entries than the list, so more iterations are not needed
(`C43_add_terminates`). -/
def add (b : Book) (id : PubId) : Option ((Bytes × Bool) × Book) :=
  (addLoop b id false (b.length + 1)).map fun r => ((r.1.nick, r.2), b.set r.1.nick r.1)

/-- `Del`, /repo/zkclient/addressbook/addressbook.go:72-86. `order` is the order in which Go happens
to walk the map; `none` is `ErrNotFound`. -/
def del (b : Book) (id : Bytes) : (order : List (Bytes × PubId)) → Option Book
  | [] => none
  | (k, v) :: rest => if v.identity ≠ id then del b id rest else some (b.del k)

/-- `FindNick`, /repo/zkclient/addressbook/addressbook.go:89-99. -/
def findNick (b : Book) (nick : Bytes) : Option PubId := b.get nick

/-- `FindIdentity`, /repo/zkclient/addressbook/addressbook.go:102-113, walking in `order`. -/
def findIdentity (id : Bytes) : (order : List (Bytes × PubId)) → Option PubId
  | [] => none
  | (_, v) :: rest => if v.identity = id then some v else findIdentity id rest

/-- `FindIdentityS`, /repo/zkclient/addressbook/addressbook.go:116-127. -/
def findIdentityS (sid : Bytes) (order : List (Bytes × PubId)) : Outcome Bool PubId :=
  match Hex.decode sid with
  | none => .err false
  | some x =>
    if x.length ≠ 32 then .err false
    else
      match findIdentity x order with
      | none => .err true
      | some v => .ok v

/-- `All`, /repo/zkclient/addressbook/addressbook.go:130-140. -/
def all (order : List (Bytes × PubId)) : List PubId := order.map Prod.snd

/-- Calls that change the book. -/
inductive Call
  | add (id : PubId)
  | del (id : Bytes) (order : List (Bytes × PubId))

/-- Books that calls lead to; `Del` may walk the map in any order. -/
inductive Reach : Book → Prop
  | new : Reach new
  | add {b id r b'} : Reach b → add b id = some (r, b') → Reach b'
  | del {b id order b'} : Reach b → order.Perm b → del b id order = some b' → Reach b'

end Verif.AddressBook
