import Verif.Model.AddressBook
import Verif.Model.Text

/-! # Conversation windows of the client

zkclient/zkclient.go 160-240 (printing), 240-280 (focus), 342-497 (finding and opening windows), zkclient/mainwindow.go
354-660 (commands), 727-829 (saving and restoring windows), zkclient/push.go 696-720 and 1215-1290 (messages
that arrive), zkclient/groupchat.go 496-540, zkclient/addressbook.go 20-140.

What is shown is put on a queue and appears later; a command of the user can come in between. A step of the
model is one command, one message that arrives, or one entry of the queue. Waiting for the creation of a
console (`ttk.Queue` and `<-done` in `getConversation`) is left out: only entries of the queue happen
meanwhile. -/

namespace Verif.Windows

open Verif AddressBook Text

/-- A line in a window. The party is part of the line here, on the screen it is the nick. -/
inductive Line where
  /-- A private message from an identity. -/
  | inPm (src : Bytes) (text : Bytes)
  /-- A message to a group, from a member. -/
  | inGm (group src text : Bytes)
  /-- The echo of a private message. -/
  | outPm (dst text : Bytes)
  /-- The echo of a message to a group. -/
  | outGm (group text : Bytes)
  /-- Anything else. -/
  | info
  deriving DecidableEq, Repr

/-- `conversation`, /repo/zkclient/zkclient.go:282-292, with the lines that were written to its console. -/
structure Conv where
  id : PubId
  nick : Bytes
  group : Bool
  lines : List Line
  deriving DecidableEq, Repr

/-- A closure given to `ttk.Queue`: print a line in a window (`none`: the one that is active when the closure
runs), or change the active window. -/
inductive Job where
  | print (win : Option Nat) (line : Line)
  | focus (win : Nat)
  deriving DecidableEq, Repr

/-- What is handed to `scheduleCRPC`: a private message or a message to a group. -/
inductive Msg where
  | pm (text : Bytes)
  | gm (group text : Bytes)
  deriving DecidableEq, Repr

/-- The client, as far as windows are concerned. `disk` are the identities in the inbound directory, `groups`
the groups with their members, `sent` what was handed to `scheduleCRPC`, with the recipient. -/
structure Z where
  own : PubId
  disk : GoMap Bytes PubId
  book : Book
  groups : GoMap Bytes (List Bytes)
  conv : List Conv
  active : Nat
  queue : List Job
  sent : List (Bytes × Msg)
  deriving DecidableEq, Repr

/-- "console" -/
def consoleText : Bytes := [99, 111, 110, 115, 111, 108, 101]

/-- Window 0, /repo/zkclient/mainwindow.go:143-148 and 278. -/
def console (own : PubId) : Conv := ⟨own, consoleText, false, []⟩

/-- A client that was just started and knows nobody. -/
def init (own : PubId) : Z := ⟨own, [], [], [], [console own], 0, [], []⟩

/-- The identity of the conversation of a group: a new one, all bytes zero, with the group as the nick,
/repo/zkclient/zkclient.go:353-357. -/
def groupId (group : Bytes) : PubId := ⟨group, List.replicate 32 0, 0⟩

/-- `c.nick` in `getConversation`, /repo/zkclient/zkclient.go:411-415. -/
def nickOf (p : PubId) (id : Bytes) : Bytes := if p.nick = [] then Hex.encode id else p.nick

/-- Append to the queue. -/
def Z.push (z : Z) (js : List Job) : Z := { z with queue := z.queue ++ js }

/-- Hand messages to `scheduleCRPC`. -/
def Z.send (z : Z) (ms : List (Bytes × Msg)) : Z := { z with sent := z.sent ++ ms }

/-- The first window for which the test holds. -/
def Z.find (z : Z) (test : Conv → Bool) : Option Nat := z.conv.findIdx? test

/-- A new window at the end, and the two lines that say so. There are no free slots, /repo/zkclient/zkclient.go:388-400
and 448-464. -/
def Z.addConv (z : Z) (c : Conv) : Z :=
  { z with conv := z.conv ++ [c] }.push [.print (some 0) .info, .print (some z.conv.length) .info]

/-- `groupConversation`, /repo/zkclient/zkclient.go:342-401. `none` is an error. -/
def groupConversation (z : Z) (group : Bytes) : Option (Z × Nat) :=
  match z.groups.get group with
  | none => none
  | some _ =>
    match z.find (fun v => v.id.nick = group) with
    | some k => some (z, k)
    | none => some (z.addConv ⟨groupId group, group, true, []⟩, z.conv.length)

/-- `getConversation`, /repo/zkclient/zkclient.go:403-466. -/
def getConversation (z : Z) (id : Bytes) : Option (Z × Nat) :=
  match z.disk.get id with
  | none => none
  | some p =>
    match z.find (fun v => v.id.identity = id) with
    | some k => some (z, k)
    | none => some (z.addConv ⟨p, nickOf p id, false, []⟩, z.conv.length)

/-- `addressBookConversation`, /repo/zkclient/addressbook.go:74-96. That an unknown nick is looked up in the
directory of the server is part of the model of contacts. -/
def addressBookConversation (z : Z) (nick : Bytes) : Option (Z × Nat) :=
  if nick = z.own.nick then none
  else
    match findNick z.book nick with
    | none => none
    | some p => getConversation z p.identity

/-- An error that the user sees in the active window. -/
def Z.complain (z : Z) : Z := z.push [.print none .info]

/-- `query`, /repo/zkclient/zkclient.go:468-497. -/
def query (z : Z) (nick : Bytes) : Z :=
  match z.find (fun v => v.nick = nick) with
  | some k => z.push [.focus k]
  | none =>
    match groupConversation z nick with
    | some (z', k) => z'.push [.focus k]
    | none =>
      match addressBookConversation z nick with
      | some (z', k) => z'.push [.focus k]
      | none => z.complain

/-- The text of `/m nick text`, /repo/zkclient/mainwindow.go:535-536. -/
def textM (cmd a0 a1 : Bytes) : Bytes :=
  trimRightBlank (trimPrefix (trimSpace (trimPrefix cmd a0)) (a1 ++ [32]))

/-- `/m` and `/msg`, /repo/zkclient/mainwindow.go:530-583. -/
def cmdM (z : Z) (cmd a0 a1 : Bytes) : Z :=
  let msg := textM cmd a0 a1
  match (match z.find (fun v => a1 = v.nick) with
    | some k => some (z, k)
    | none => addressBookConversation z a1) with
  | none => z.complain
  | some (z', k) =>
    match z'.conv[k]? with
    | none => z'
    | some c =>
      (z'.send [(c.id.identity, .pm msg)]).push [.print (some k) (.outPm c.id.identity msg)]

/-- The text of `/gc m group text`, /repo/zkclient/groupchat.go:673-675; `sub` is "m" or "me". -/
def textGc (cmd sub a2 : Bytes) : Bytes :=
  trimRightBlank (trimPrefix (trimSpace (trimPrefix (trimSpace (trimPrefix cmd [47, 103, 99])) sub)) (a2 ++ [32]))

/-- `gcMessage`, /repo/zkclient/groupchat.go:496-540. -/
def gcMessage (z : Z) (nargs : Nat) (group msg : Bytes) : Z :=
  if nargs < 4 then z.complain
  else
    match groupConversation z group with
    | none => z.complain
    | some (z', k) =>
      (z'.send ((((z'.groups.get group).getD []).filter (· ≠ z'.own.identity)).map
          fun m => (m, .gm group msg))).push [.print (some k) (.outGm group msg)]

/-- `/me`, /repo/zkclient/mainwindow.go:486-528. `none`: index out of range. -/
def cmdMe (z : Z) (cmd a0 : Bytes) : Option Z :=
  if z.active = 0 then some z.complain
  else
    match z.conv[z.active]? with
    | none => none
    | some c =>
      let msg := trimSpace (trimPrefix cmd a0)
      if c.group then some (gcMessage z 4 c.nick msg)
      else
        some ((z.send [(c.id.identity, .pm msg)]).push [.print none (.outPm c.id.identity msg)])

/-- `/wc`, /repo/zkclient/mainwindow.go:633-651. -/
def cmdWc (z : Z) : Z :=
  if z.active = 0 ∨ z.conv.length ≤ z.active then z
  else { z with conv := z.conv.take z.active ++ z.conv.drop (z.active + 1) }.push [.focus 0]

/-- `closeAll`, /repo/zkclient/mainwindow.go:770-777. -/
def closeAll (z : Z) : Z := { z with conv := z.conv.take 1 }.push [.focus 0]

/-- What `saveConversations` stores, /repo/zkclient/mainwindow.go:727-768: identity, nick and kind of every
window. The encoding in the file is left out. -/
def save (z : Z) : List (PubId × Bytes × Bool) := z.conv.map fun c => (c.id, c.nick, c.group)

/-- `restoreConversations`, /repo/zkclient/mainwindow.go:793-829, for a file that can be read: of every window
but the first only the nick is used. -/
def restore (z : Z) (saved : List (PubId × Bytes × Bool)) : Z :=
  ((saved.drop 1).foldl (fun z c => query z c.2.1) (closeAll z)).push [.focus 0]

/-- The command that stands for text without a leading "/", /repo/zkclient/mainwindow.go:360-373. `none`: index
out of range. -/
def expand (z : Z) (cmd : Bytes) : Option Bytes :=
  if [47].isPrefixOf cmd then some cmd
  else if z.active = 0 then some cmd
  else
    match z.conv[z.active]? with
    | none => none
    | some c => some ((if c.group then [47, 103, 99, 32, 109, 32] else [47, 109, 32]) ++ c.nick ++ [32] ++ cmd)

/-- The commands about windows and messages, /repo/zkclient/mainwindow.go:388-660; the others only print. After
`strings.Split` the parts contain no spaces, so trimming them (380-386) does nothing. -/
def dispatch (z : Z) (cmd : Bytes) : Option Z :=
  match split cmd with
  | [] => some z
  | a0 :: as =>
    if a0 = [47, 109, 101] then -- "/me"
      if as.length < 1 then some z.complain else cmdMe z cmd a0
    else if a0 = [47, 109] ∨ a0 = [47, 109, 115, 103] then -- "/m", "/msg"
      if as.length < 2 then some z.complain else some (cmdM z cmd a0 (as.headD []))
    else if a0 = [47, 103, 99] then -- "/gc"
      match as with
      | [] => some z.complain
      | a1 :: r =>
        if a1 = [109] ∨ a1 = [109, 101] then -- "m", "me"
          match r with
          | [] => some z.complain
          | a2 :: _ => some (gcMessage z (as.length + 1) a2 (textGc cmd a1 a2))
        else some z.complain
    else if a0 = [47, 119, 99] then -- "/wc"
      if as.length ≠ 0 then some z.complain else some (cmdWc z)
    else if a0 = [47, 113] ∨ a0 = [47, 113, 117, 101, 114, 121] then -- "/q", "/query"
      if as.length ≠ 1 then some z.complain else some (query z (as.headD []))
    else some z.complain

/-- `action`, /repo/zkclient/mainwindow.go:354-720, what the user enters. `none`: the client crashes. -/
def action (z : Z) (cmd : Bytes) : Option Z :=
  if cmd = [] then some z
  else
    match expand z cmd with
    | none => none
    | some cmd => dispatch z cmd

/-- `handlePm`, /repo/zkclient/push.go:696-720. -/
def handlePm (z : Z) (src text : Bytes) : Z :=
  match getConversation z src with
  | none => z
  | some (z', k) => z'.push [.print (some k) (.inPm src text)]

/-- `handleGroupMessage`, /repo/zkclient/push.go:1218-1297, without the colours. -/
def handleGm (z : Z) (group src text : Bytes) : Z :=
  match z.groups.get group with
  | none => z
  | some members =>
    if src ∈ members then
      match groupConversation z group with
      | none => z
      | some (z', k) => z'.push [.print (some k) (.inGm group src text)]
    else z

/-- Append a line to a window. A window that does not exist is ignored, /repo/zkclient/zkclient.go:161. -/
def Z.write (z : Z) (k : Nat) (l : Line) : Z :=
  { z with conv := z.conv.modify k fun c => { c with lines := c.lines ++ [l] } }

/-- The first entry of the queue, /repo/zkclient/zkclient.go:155-196 (`printf`) and 240-280 (`focus`). Both compute
the status line, which looks at the active window (71, 84): index out of range (`none`) if there is none. -/
def work (z : Z) : Option Z :=
  match z.queue with
  | [] => some z
  | .print win l :: r =>
    let z' := { z with queue := r }
    let z' := z'.write (win.getD z'.active) l
    if z'.active < z'.conv.length then some z' else none
  | .focus k :: r =>
    let z' := { z with queue := r }
    if k ≠ 0 ∧ k = z.active then some z'
    else if z.conv.length ≤ k then some (z'.push [.print (some 0) .info])
    else some { z' with active := k }

/-- A new contact: `saveIdentity` if there is none yet, and `addressBookAdd`, /repo/zkclient/identity.go:193-240 and
/repo/zkclient/addressbook.go:60-72. -/
def learn (z : Z) (p : PubId) : Z :=
  if p.identity = z.own.identity ∨ (z.disk.get p.identity).isSome then z
  else
    match add z.book p with
    | none => z
    | some (_, b) => { z with disk := z.disk.set p.identity p, book := b }

/-- Deleting a contact, /repo/zkclient/addressbook.go:21-56: identity and entry are removed. `order` is how
the map happens to be walked; nothing happens in the model if it is none of its orders. -/
def forget (z : Z) (id : Bytes) (order : List (Bytes × PubId)) : Z :=
  if order.Perm z.book then
    match del z.book id order with
    | none => z
    | some b => { z with disk := z.disk.del id, book := b }
  else z

/-- `addressBookAdd`, /repo/zkclient/addressbook.go:60-72. -/
def addressBookAdd (own : PubId) (b : Book) (p : PubId) : Book :=
  if p.identity = own.identity then b
  else
    match add b p with
    | none => b
    | some (_, b') => b'

/-- `loadIdentities`, /repo/zkclient/addressbook.go:108-140, when the directory lists the identities in this order. -/
def loadIdentities (own : PubId) (order : List PubId) : Book := order.foldl (addressBookAdd own) new

/-- Starting the client again. -/
def restart (z : Z) (order : List PubId) : Z :=
  { init z.own with disk := z.disk, book := loadIdentities z.own order, groups := z.groups, sent := z.sent }

/-- What can happen. `focus` is `/w` or a key that changes the window, /repo/zkclient/zkclient.go:294-340 and
/repo/zkclient/mainwindow.go:620-629. -/
inductive Ev where
  | learn (p : PubId)
  | forget (id : Bytes) (order : List (Bytes × PubId))
  | setGroup (name : Bytes) (members : List Bytes)
  | delGroup (name : Bytes)
  | pm (src text : Bytes)
  | gm (group src text : Bytes)
  | enter (cmd : Bytes)
  | focus (win : Nat)
  | restore (saved : List (PubId × Bytes × Bool))
  | work

/-- One step; `none` is a crash. -/
def step (z : Z) : Ev → Option Z
  | .learn p => some (learn z p)
  | .forget id order => some (forget z id order)
  | .setGroup name members => some { z with groups := z.groups.set name members }
  | .delGroup name => some { z with groups := z.groups.del name }
  | .pm src text => some (handlePm z src text)
  | .gm group src text => some (handleGm z group src text)
  | .enter cmd => action z cmd
  | .focus k => some (z.push [.focus k])
  | .restore saved => some (restore z saved)
  | .work => work z

/-- States that events with property `ok` lead to. -/
inductive Runs (ok : Z → Ev → Prop) (own : PubId) : Z → Prop
  | init : Runs ok own (init own)
  | step {z ev z'} : Runs ok own z → ok z ev → step z ev = some z' → Runs ok own z'

/-- All states. -/
abbrev Reach := Runs fun _ _ => True

end Verif.Windows
