import Verif.Model.Groups

/-! # What the client says about groups

zkclient/push.go 764-1217 and zkclient/groupchat.go 86-121, 172-223, 302-362, 434-494: the notices in window 0 about
groups that are made and killed and about members that come and go, beside what the model of groups does with
`z.groups`. Identities stand for the nicks and fingerprints that are printed. Usage and error messages, reasons,
colours, and the header "Received new group chat list" are left out. -/

namespace Verif.Reports

open Verif Groups

/-- A notice. -/
inductive Report where
  /-- "- ..." in the difference of a new list -/
  | minus (g : Bytes) (m : Id)
  /-- "+ ..." -/
  | plus (g : Bytes) (m : Id)
  /-- "Unknown identities in group chat" -/
  | unknown (g : Bytes) (m : Id)
  /-- "... joined group chat" -/
  | joined (g : Bytes) (m : Id)
  /-- "... left group chat" -/
  | left (g : Bytes) (m : Id)
  /-- "... was kicked of group chat" -/
  | kicked (g : Bytes) (m : Id)
  /-- "left group chat" -/
  | youLeft (g : Bytes)
  /-- "you were kicked of group chat" -/
  | youKicked (g : Bytes)
  /-- "group chat killed" -/
  | killed (g : Bytes)
  /-- "group chat created" -/
  | created (g : Bytes)
  /-- "Joined group chat" -/
  | youJoined (g : Bytes)
  deriving DecidableEq, Repr

/-- `diffGroupListPrint` with `diffGroupList`, /repo/zkclient/push.go:1049-1139. -/
def sayDiff (s : State) (gl : GroupList) : List Report :=
  match s.groups.get gl.name with
  | none => []
  | some g =>
    (g.members.filter fun m => !gl.members.contains m).map (.minus gl.name) ++
    (gl.members.filter fun m => !g.members.contains m).map (.plus gl.name)

/-- `warnGroupListMissingKeys`, /repo/zkclient/push.go:1141-1164. -/
def sayUnknown (s : State) (gl : GroupList) : List Report :=
  (gl.members.filter fun m => m ≠ s.self && !s.known.contains m).map (.unknown gl.name)

/-- `handleGroupList` and `handleGroupUpdate`, /repo/zkclient/push.go:1166-1217: who sent the list is looked at
later. -/
def sayList (s : State) (gl : GroupList) : List Report := sayDiff s gl ++ sayUnknown s gl

/-- `handleGroupJoin`, /repo/zkclient/push.go:764-834. -/
def sayJoin (s : State) (src : Id) (name : Bytes) (token : Nat) (flt : Fault) : List Report :=
  match s.groups.get name with
  | none => []
  | some g =>
    if admin g ≠ some s.self then []
    else
      match s.invites.get (name, src) with
      | none => []
      | some i =>
        if i.token ≠ token then []
        else if flt.db then []
        else if src ∉ s.known then []
        else if src ∈ g.members.tail then []
        else if !validName name || flt.group then []
        else [.joined name src]

/-- `handleGroupPart`, /repo/zkclient/push.go:836-916. -/
def sayPart (s : State) (src : Id) (name : Bytes) (flt : Fault) : List Report :=
  match s.groups.get name with
  | none => []
  | some g =>
    if admin g ≠ some s.self then []
    else if src ∉ g.members.tail then []
    else if !validName name || flt.group then []
    else if src ∉ s.known then []
    else [.left name src]

/-- `handleGroupKick`, /repo/zkclient/push.go:918-1013: what is printed comes first. -/
def sayKick (s : State) (src member : Id) (parted : Bool) (gl : GroupList) : List Report :=
  match s.groups.get gl.name with
  | none => []
  | some g =>
    if admin g ≠ some src then []
    else if member = s.self then [if parted then .youLeft gl.name else .youKicked gl.name]
    else [if parted then .left gl.name member else .kicked gl.name member]

/-- `handleGroupKill`, /repo/zkclient/push.go:1015-1047. -/
def sayKill (s : State) (src : Id) (name : Bytes) (flt : Fault) : List Report :=
  match s.groups.get name with
  | none => []
  | some g => if admin g ≠ some src then [] else if !validName name || flt.group then [] else [.killed name]

/-- Messages, /repo/zkclient/push.go:500-694. -/
def sayRecv (s : State) (src : Id) (m : Msg) (flt : Fault) : List Report :=
  match m with
  | .join name token => sayJoin s src name token flt
  | .part name => sayPart s src name flt
  | .kill name => sayKill s src name flt
  | .kick member parted gl => sayKick s src member parted gl
  | .list gl => sayList s gl
  | .update gl => sayList s gl
  | _ => []

/-- `gcNew`, /repo/zkclient/groupchat.go:86-121. -/
def sayNew (s : State) (name : Bytes) (onDisk : Bool) (flt : Fault) : List Report :=
  if onDisk then [] else if (s.groups.get name).isSome then []
  else if !validName name || flt.group then [] else [.created name]

/-- `gcJoin`, /repo/zkclient/groupchat.go:172-223. -/
def sayJoined (s : State) (name : Bytes) (token : Nat) (src : Id) (flt : Fault) : List Report :=
  if (s.groups.get name).isSome then []
  else
    match s.joins.get (name, src) with
    | none => []
    | some i =>
      if i.token ≠ token then []
      else if !validName name || flt.group then []
      else if (joinsOf s.joins name).length ≠ 1 then []
      else if flt.db then []
      else [.youJoined name]

/-- `gcKill`, /repo/zkclient/groupchat.go:434-494. -/
def sayKilled (s : State) (name : Bytes) (online : Bool) (flt : Fault) : List Report :=
  if !online then []
  else
    match s.groups.get name with
    | none => []
    | some g =>
      if g.members ≠ [] ∧ admin g ≠ some s.self then []
      else if !validName name || flt.group then [] else [.killed name]

/-- Commands. -/
def sayCmd (s : State) (c : Cmd) (flt : Fault) : List Report :=
  match c with
  | .new name onDisk => sayNew s name onDisk flt
  | .join name token src => sayJoined s name token src flt
  | .kill name online => sayKilled s name online flt
  | _ => []

/-- The callback of a kick, /repo/zkclient/groupchat.go:304-362. -/
def sayAck (s : State) (n : Nat) (saves : Bool) : List Report :=
  match s.kicks[n]? with
  | none => []
  | some k =>
    if k.got + 1 ≠ k.want then []
    else
      match s.groups.get k.name with
      | none => []
      | some _ => if !validName k.name || !saves then [] else [.kicked k.name k.who]

/-- What is said when an event is handled. `saves`: the callback of a kick can save the group. -/
def say (s : State) (ev : Ev) (saves : Bool) : List Report :=
  match ev with
  | .recv src m flt => sayRecv s src m flt
  | .cmd c flt => sayCmd s c flt
  | .ack n => sayAck s n saves
  | _ => []

/-- The window a notice about group `g` is repeated in, given the `id.Nick` of all windows, for instance
/repo/zkclient/push.go:822-830. -/
def echo (wins : List Bytes) (g : Bytes) : Option Nat := wins.findIdx? (· = g)

/-- The same in the callback of a kick, /repo/zkclient/groupchat.go:316-324 and 358-361: `k` is a variable outside of
the loop, and keeps the last index if there is no such window. -/
def echoAck (wins : List Bytes) (g : Bytes) : Option Nat :=
  match wins.findIdx? (· = g) with
  | some k => if k > 0 then some k else none
  | none => if wins.length - 1 > 0 then some (wins.length - 1) else none

end Verif.Reports
