import Verif.Model.GoMap

/-! # Group chat of one client: zkclient/groupchat.go, zkclient/groupinvites.go, zkclient/push.go

Every handler and command runs under the lock of the client. The authenticated sender of a message is part of the
event (C12, C55). Whether a file can be written or removed is part of the event as well; the files themselves are
in Model/GroupFiles. Time stamps of lists, reasons, descriptions, and what is told to the user are left out,
except for the messages of a group that are shown. -/

namespace Verif.Groups

open Verif

/-- Identities. -/
abbrev Id := Nat

/-- `validLetters`, /repo/zkclient/groupchat.go:24-27; there is no `x` and no `X`. -/
def validLetters : Bytes :=
  [97, 98, 99, 100, 101, 102, 103, 104, 105, 106, 107, 108, 109, 110, 111, 112, 113, 114, 115, 116, 117, 118, 119, 121, 122,
   65, 66, 67, 68, 69, 70, 71, 72, 73, 74, 75, 76, 77, 78, 79, 80, 81, 82, 83, 84, 85, 86, 87, 89, 90,
   49, 50, 51, 52, 53, 54, 55, 56, 57, 48,
   95, 45, 64, 46]

/-- `validName`, /repo/zkclient/groupchat.go:29-45. -/
def validName (name : Bytes) : Bool := name.all fun c => validLetters.contains c

/-- `rpc.GroupList`, /repo/rpc/rpc.go:441-449. -/
structure GroupList where
  name : Bytes
  gen : Nat
  members : List Id
  deriving DecidableEq, Repr

/-- `Generation++` of a `uint64`. -/
def inc (n : Nat) : Nat := (n + 1) % 2 ^ 64

/-- The part of an invitation that matters, in both directions. -/
structure Invite where
  token : Nat
  expires : Nat
  deriving DecidableEq, Repr

/-- The messages, /repo/rpc/rpc.go:396-457. -/
inductive Msg where
  | invite (name : Bytes) (i : Invite)
  | join (name : Bytes) (token : Nat)
  | part (name : Bytes)
  | kill (name : Bytes)
  | kick (member : Id) (parted : Bool) (gl : GroupList)
  | list (gl : GroupList)
  | update (gl : GroupList)
  /-- `me`: the mode is `MessageModeMe` -/
  | message (name : Bytes) (gen : Nat) (text : Bytes) (me : Bool)
  deriving DecidableEq, Repr

/-- A kick under way: the variables of the closure in `gcKick`, /repo/zkclient/groupchat.go:302-362. `who` and
`was` are not part of the program. -/
structure Kick where
  name : Bytes
  ngc : GroupList
  got : Nat
  want : Nat
  who : Id
  was : GroupList
  deriving DecidableEq, Repr

/-- The client. `out`, `shown`, `issued` and `admitted` are not part of the program: the messages handed to the
scheduler, the group messages shown, the invitations stored, the joins honoured. -/
structure State where
  self : Id
  nick : Bytes
  groups : GoMap Bytes GroupList
  /-- invites.ini: group and invited identity -/
  invites : GoMap (Bytes × Id) Invite
  /-- joins.ini: group and inviting identity -/
  joins : GoMap (Bytes × Id) Invite
  /-- the address book -/
  known : List Id
  /-- the time -/
  now : Nat
  kicks : List Kick
  out : List (Id × Msg)
  shown : List (Bytes × Id × Bytes)
  issued : List (Bytes × Id × Nat)
  admitted : List (Bytes × Id × Nat)
  deriving DecidableEq, Repr

inductive Res where
  | ok (s : State)
  | panic
  deriving DecidableEq, Repr

/-- Index of the first occurrence, `strings.Index`. -/
def indexOf (needle : Bytes) : Bytes → Nat → Option Nat
  | [], i => if needle = [] then some i else none
  | c :: r, i => if needle.isPrefixOf (c :: r) then some i else indexOf needle r (i + 1)

/-- The nick in a message is shown in another colour, /repo/zkclient/push.go:1262-1279: the position is looked for
in the upper case forms, and the slices are taken of the message. `none`: a slice is out of range, which is a
panic. `upper` is `strings.ToUpper`. The colours are `m` and `r`. -/
def highlight (upper : Bytes → Bytes) (nick text : Bytes) (me : Bool) (m r : Bytes) : Option Bytes :=
  match indexOf (upper nick) (upper text) 0 with
  | none => some text
  | some x =>
    if me then some text
    else if x + nick.length ≤ text.length then
      some (text.take x ++ m ++ (text.drop x).take nick.length ++ r ++ text.drop (x + nick.length))
    else none

/-- First member: the administrator. -/
def admin (gl : GroupList) : Option Id := gl.members.head?

/-- `_deleteGroup`, /repo/zkclient/groupchat.go:54-62. Removing the file comes last. -/
def deleteGroup (s : State) (name : Bytes) : State :=
  if validName name then { s with groups := s.groups.del name } else s

/-- `_updateGroupList`, /repo/zkclient/zkclient.go:1891-1916. A generation that does not grow is only warned
about; saving comes last and its failure changes nothing in memory. -/
def updateGroupList (s : State) (src : Id) (gl : GroupList) : State :=
  match s.groups.get gl.name with
  | none => s
  | some g => if admin g ≠ some src then s else { s with groups := s.groups.set gl.name gl }

/-- Sending `m` to each of `l`. -/
def sendAll (s : State) (l : List Id) (m : Msg) : State := { s with out := s.out ++ l.map fun i => (i, m) }

/-- What goes wrong while an event is handled: the group can not be saved; the invites or joins can not be
saved; the file of the group can not be removed. -/
structure Fault where
  group : Bool
  db : Bool
  deriving DecidableEq, Repr

def Fault.none : Fault := ⟨false, false⟩

/-- `handleGroupInvite` and `joinDBAdd`, /repo/zkclient/push.go:721-762, groupinvites.go:203-242. -/
def recvInvite (s : State) (src : Id) (name : Bytes) (i : Invite) (flt : Fault) : State :=
  if src ∉ s.known then s
  else if (s.joins.get (name, src)).isSome then s
  else if flt.db then s
  else { s with joins := s.joins.set (name, src) i }

/-- `handleGroupJoin`, `delInvite`, `_addIdGroupchat`, /repo/zkclient/push.go:764-834, groupinvites.go:324-363,
zkclient.go:1918-1939. The administrator is not compared with the new member. -/
def recvJoin (s : State) (src : Id) (name : Bytes) (token : Nat) (flt : Fault) : State :=
  match s.groups.get name with
  | none => s
  | some g =>
    if admin g ≠ some s.self then s
    else
      match s.invites.get (name, src) with
      | none => s
      | some i =>
        if i.token ≠ token then s
        else if flt.db then s
        else
          let s1 := { s with invites := s.invites.del (name, src) }
          if src ∉ s.known then s1
          else if src ∈ g.members.tail then s1
          else
            let g' : GroupList := ⟨g.name, inc (inc g.gen), g.members ++ [src]⟩
            if !validName name || flt.group then s1
            else
              sendAll { s1 with groups := s1.groups.set name g',
                                admitted := s1.admitted ++ [(name, src, token)] } g'.members.tail (.list g')

/-- `handleGroupPart`, /repo/zkclient/push.go:836-916: the first occurrence after the administrator is removed. -/
def recvPart (s : State) (src : Id) (name : Bytes) : State :=
  match s.groups.get name with
  | none => s
  | some g =>
    if admin g ≠ some s.self then s
    else if src ∉ g.members.tail then s
    else
      let g' : GroupList := ⟨g.name, inc g.gen, g.members.take 1 ++ g.members.tail.erase src⟩
      sendAll { s with groups := s.groups.set name g' } g.members.tail (.kick src true g')

/-- `handleGroupKick`, /repo/zkclient/push.go:918-1013. -/
def recvKick (s : State) (src member : Id) (gl : GroupList) : State :=
  match s.groups.get gl.name with
  | none => s
  | some g =>
    if admin g ≠ some src then s
    else if member = s.self then deleteGroup s gl.name
    else updateGroupList s src gl

/-- `handleGroupKill`, /repo/zkclient/push.go:1015-1047. The first member is taken without looking at the
length. -/
def recvKill (s : State) (src : Id) (name : Bytes) : Res :=
  match s.groups.get name with
  | none => .ok s
  | some g =>
    match g.members with
    | [] => .panic
    | a :: _ => if a ≠ src then .ok s else .ok (deleteGroup s name)

/-- `handleGroupMessage`, /repo/zkclient/push.go:1219-1296. -/
def recvMessage (upper : Bytes → Bytes) (s : State) (src : Id) (name text : Bytes) (me : Bool) : Res :=
  match s.groups.get name with
  | none => .ok s
  | some g =>
    if src ∉ g.members then .ok s
    else
      match highlight upper s.nick text me [] [] with
      | none => .panic
      | some _ => .ok { s with shown := s.shown ++ [(name, src, text)] }

/-- A message of the authenticated sender `src`, /repo/zkclient/push.go:500-694. The errors of the handlers are
printed and the message is acknowledged in any case, /repo/zkclient/zkclient.go:1394-1430. -/
def recv (upper : Bytes → Bytes) (s : State) (src : Id) (m : Msg) (flt : Fault) : Res :=
  match m with
  | .invite name i => .ok (recvInvite s src name i flt)
  | .join name token => .ok (recvJoin s src name token flt)
  | .part name => .ok (recvPart s src name)
  | .kill name => recvKill s src name
  | .kick member _ gl => .ok (recvKick s src member gl)
  | .list gl => .ok (updateGroupList s src gl)
  | .update gl => .ok (updateGroupList s src gl)
  | .message name _ text me => recvMessage upper s src name text me

/-- The commands of the user. -/
inductive Cmd where
  /-- `onDisk`: there is a file of that name already -/
  | new (name : Bytes) (onDisk : Bool)
  /-- `token` is random -/
  | invite (name : Bytes) (who : Id) (token : Nat)
  /-- `src`: the first in the order of the map whose invitation has the token -/
  | join (name : Bytes) (token : Nat) (src : Id)
  | kick (name : Bytes) (who : Id)
  | part (name : Bytes)
  | partForce (name : Bytes)
  | kill (name : Bytes) (online : Bool)
  | message (name text : Bytes) (me : Bool)
  deriving DecidableEq, Repr

/-- `gcNew`, /repo/zkclient/groupchat.go:86-121. The group stays in memory if it can not be saved. -/
def cmdNew (s : State) (name : Bytes) (onDisk : Bool) : State :=
  if onDisk then s
  else if (s.groups.get name).isSome then s
  else { s with groups := s.groups.set name ⟨name, 0, [s.self]⟩ }

/-- `gcInvite` and `inviteDBAdd`, /repo/zkclient/groupchat.go:123-170, groupinvites.go:126-201. The token is
random modulo 1000000 and the expiration one day (86400 s) later. -/
def cmdInvite (s : State) (name : Bytes) (who : Id) (token : Nat) (flt : Fault) : State :=
  if who ∉ s.known then s
  else
    match s.groups.get name with
    | none => s
    | some g =>
      if admin g ≠ some s.self then s
      else if who ∈ g.members then s
      else if (s.invites.get (g.name, who)).isSome then s
      else if flt.db then s
      else
        let i : Invite := ⟨token % 1000000, s.now + 86400⟩
        sendAll { s with invites := s.invites.set (g.name, who) i,
                         issued := s.issued ++ [(g.name, who, i.token)] } [who] (.invite g.name i)

/-- The records of a group in joins.ini. -/
def joinsOf (joins : GoMap (Bytes × Id) Invite) (name : Bytes) : List ((Bytes × Id) × Invite) :=
  joins.filter fun r => r.1.1 = name

/-- `gcJoin`, `getJoin` and `delJoin`, /repo/zkclient/groupchat.go:172-223, groupinvites.go:244-322. The message is
sent and the group is in memory even if saving fails. The record is deleted only if it is the only one of the
group. -/
def cmdJoin (s : State) (name : Bytes) (token : Nat) (src : Id) (flt : Fault) : State :=
  if (s.groups.get name).isSome then s
  else
    match s.joins.get (name, src) with
    | none => s
    | some i =>
      if i.token ≠ token then s
      else
        let s1 := sendAll { s with groups := s.groups.set name ⟨name, 0, [src]⟩ } [src] (.join name token)
        if !validName name || flt.group then s1
        else if (joinsOf s.joins name).length ≠ 1 then s1
        else if flt.db then s1
        else { s1 with joins := s1.joins.del (name, src) }

/-- `gcKick`, /repo/zkclient/groupchat.go:225-376. Nothing changes in memory before the last acknowledgement. -/
def cmdKick (s : State) (name : Bytes) (who : Id) : State :=
  match s.groups.get name with
  | none => s
  | some g =>
    if admin g ≠ some s.self then s
    else if who = s.self then s
    else
      let ngc : GroupList := ⟨g.name, inc g.gen, g.members.filter (· ≠ who)⟩
      sendAll { s with kicks := s.kicks ++ [⟨name, ngc, 0, g.members.length - 1, who, g⟩] } g.members.tail
        (.kick who false ngc)

/-- `gcPart`, /repo/zkclient/groupchat.go:396-432. -/
def cmdPart (s : State) (name : Bytes) : State :=
  match s.groups.get name with
  | none => s
  | some g =>
    match g.members with
    | [] => s
    | a :: _ => if a = s.self then s else sendAll s [a] (.part name)

/-- `gcKill`, /repo/zkclient/groupchat.go:434-494. -/
def cmdKill (s : State) (name : Bytes) (online : Bool) : State :=
  if !online then s
  else
    match s.groups.get name with
    | none => s
    | some g =>
      match g.members with
      | [] => deleteGroup s name
      | a :: rest => if a ≠ s.self then s else deleteGroup (sendAll s rest (.kill name)) name

/-- `gcMessage`, /repo/zkclient/groupchat.go:496-540. -/
def cmdMessage (s : State) (name text : Bytes) (me : Bool) : State :=
  match s.groups.get name with
  | none => s
  | some g => sendAll s (g.members.filter (· ≠ s.self)) (.message name g.gen text me)

/-- A command. -/
def cmd (s : State) (c : Cmd) (flt : Fault) : State :=
  match c with
  | .new name onDisk => cmdNew s name onDisk
  | .invite name who token => cmdInvite s name who token flt
  | .join name token src => cmdJoin s name token src flt
  | .kick name who => cmdKick s name who
  | .part name => cmdPart s name
  | .partForce name => deleteGroup s name
  | .kill name online => cmdKill s name online
  | .message name text me => cmdMessage s name text me

/-- The callback of a kick, /repo/zkclient/groupchat.go:304-362. -/
def ack (s : State) (n : Nat) : State :=
  match s.kicks[n]? with
  | none => s
  | some k =>
    let s1 := { s with kicks := s.kicks.set n { k with got := k.got + 1 } }
    if k.got + 1 ≠ k.want then s1
    else
      match s.groups.get k.name with
      | none => s1
      | some _ => { s1 with groups := s1.groups.set k.name k.ngc }

inductive Ev where
  | recv (src : Id) (m : Msg) (flt : Fault)
  | cmd (c : Cmd) (flt : Fault)
  /-- a message of the `n`-th kick is acknowledged -/
  | ack (n : Nat)
  /-- a contact is added -/
  | meet (i : Id)
  /-- time passes -/
  | tick (d : Nat)
  deriving DecidableEq, Repr

/-- A step. -/
def step (upper : Bytes → Bytes) (s : State) : Ev → Res
  | .recv src m flt => recv upper s src m flt
  | .cmd c flt => .ok (cmd s c flt)
  | .ack n => .ok (ack s n)
  | .meet i => .ok { s with known := i :: s.known }
  | .tick d => .ok { s with now := s.now + d }

/-- A client with an identity and a nick. -/
def init (self : Id) (nick : Bytes) : State := ⟨self, nick, [], [], [], [], 0, [], [], [], [], []⟩

/-- Executions in which every step satisfies `G`. -/
inductive Run (upper : Bytes → Bytes) (G : State → Ev → Prop) : State → List Ev → State → Prop
  | nil (s) : Run upper G s [] s
  | cons {s e s' es s''} : G s e → step upper s e = .ok s' → Run upper G s' es s'' → Run upper G s (e :: es) s''

end Verif.Groups
