import Verif.Model.Groups
import Verif.Model.Path
import Verif.Model.Xdr

/-! # The files of the groups: zkclient/groupchat.go, zkclient/zkclient.go

The groups in memory are those of Model/Groups, here with everything that is saved. Which handler changes a group
is of no concern here. -/

namespace Verif.GroupFiles

open Verif Verif.Path Verif.Groups

/-- What is saved of a group, `rpc.GroupList`, /repo/rpc/rpc.go:441-449. -/
abbrev Group := Xdr.Val Xdr.groupList

/-- The name in a list. -/
def nameOf (g : Group) : Bytes := g.1

/-- Memory and disk. -/
structure State where
  groups : GoMap Bytes Group
  fs : FS

/-- `os.Remove`: a file, or a directory with nothing in it. `none`: error. -/
def remove (fs : FS) (p : Path) : Option FS :=
  match fs.get p with
  | some (.file _) => some (fs.del p)
  | some .dir => if fs.any fun e => e.1 ≠ [] ∧ e.1.dropLast = p then none else some (fs.del p)
  | none => none

/-- `_gcSaveDisk`, /repo/zkclient/groupchat.go:64-84. An error leaves everything as it is. -/
def saveDisk (base : Path) (s : State) (name : Bytes) : State :=
  if validName name then
    match s.groups.get name with
    | none => s
    | some g =>
      match create s.fs (join base name) (Xdr.enc Xdr.groupList g) with
      | none => s
      | some fs => { s with fs := fs }
  else s

/-- `_deleteGroup`, /repo/zkclient/groupchat.go:54-62. -/
def deleteGroup (base : Path) (s : State) (name : Bytes) : State :=
  if validName name then
    { groups := s.groups.del name, fs := (remove s.fs (join base name)).getD s.fs }
  else s

/-- `gcNew`, /repo/zkclient/groupchat.go:86-121, with the list `g` that it makes. -/
def gcNew (base : Path) (s : State) (name : Bytes) (g : Group) : State :=
  if exist s.fs (join base name) then s
  else if (s.groups.get name).isSome then s
  else saveDisk base { s with groups := s.groups.set name g } name

/-- The common end of `gcJoin`, `gcKick`, `handleGroupJoin`, `handleGroupPart` and `_updateGroupList`:
/repo/zkclient/groupchat.go:202-211 and 336-340, push.go:806-813 and 882-889, zkclient.go:1914-1915.
`handleGroupJoin` takes the change back if the name is not accepted, which is then no operation at all. -/
def change (base : Path) (s : State) (name : Bytes) (g : Group) : State :=
  saveDisk base { s with groups := s.groups.set name g } name

inductive Op where
  | new (name : Bytes) (g : Group)
  | change (name : Bytes) (g : Group)
  | delete (name : Bytes)

/-- One of them. -/
def apply (base : Path) (s : State) : Op → State
  | .new name g => gcNew base s name g
  | .change name g => change base s name g
  | .delete name => deleteGroup base s name

/-- `loadGroupchat`, /repo/zkclient/zkclient.go:1941-1981: the entries of the directory one after the other.
Directories, and files that do not decode, are passed over, and so is a group that is already there. -/
def load (fs : FS) (base : Path) (names : List Bytes) : GoMap Bytes Group :=
  names.foldl (fun m n =>
    match read fs (join base n) with
    | none => m
    | some data =>
      match Xdr.dec 0 Xdr.groupList data with
      | .ok g _ => if (m.get (nameOf g)).isSome then m else m.set (nameOf g) g
      | _ => m) []

end Verif.GroupFiles
