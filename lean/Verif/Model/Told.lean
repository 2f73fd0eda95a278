import Verif.Model.Groups
import Verif.Model.AddressBook

/-! # What is told about the members of a group: zkclient/groupinvites.go, zkclient/groupchat.go, zkclient/push.go

The messages of a group are in Verif.Model.Groups. There an invitation is its token; here is the list of names that goes
with it, and what the client of the one who is invited makes of that list.

Simplifications.
* What is on file about an identity is the name in it (publicidentity.xdr).
* A fingerprint stands for the identity it is computed from.
* The lookups in the directory that are made for names that are not known are in Verif.Model.Lookup. -/

namespace Verif.Told

open Verif

/-- `plist` of `inviteDBAdd`, /repo/zkclient/groupinvites.go:130-136: the name on file of each member, and the empty name
if there is no file. Nobody has a file about oneself. -/
def participants {α : Type} (files : α → Option Bytes) (members : List α) : List Bytes :=
  members.map fun i => (files i).getD []

/-- The loop of `handleGroupInvite`, /repo/zkclient/push.go:743-757: the names that are in the address book are shown with
the fingerprint of whoever has that name there. -/
def shown (b : AddressBook.Book) (names : List Bytes) : List (Bytes × Bytes) :=
  names.filterMap fun n => (AddressBook.findNick b n).map fun v => (n, v.identity)

/-- What a message tells about who is in a group: the identities in a list, or the names in an invitation. The latter are
those of the group at the time it is made, /repo/zkclient/groupchat.go:155. -/
inductive Tells
  | nothing
  | ids (members : List Groups.Id)
  | names (l : List Bytes)
  deriving DecidableEq, Repr

/-- A message that is sent in the state `s`. -/
def tells (files : Groups.Id → Option Bytes) (s : Groups.State) : Groups.Msg → Tells
  | .list gl | .update gl | .kick _ _ gl => .ids gl.members
  | .invite name _ =>
    match s.groups.get name with
    | none => .nothing
    | some g => .names (participants files g.members)
  | _ => .nothing

end Verif.Told
