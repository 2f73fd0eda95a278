import Verif.Model.Text
import Verif.Model.Policy

/-! # What the user types

`action`, /repo/zkclient/mainwindow.go:354-720, and the functions it hands its arguments to, as far as they look at the
arguments: which request a line stands for.  What the requests do is the matter of other models.  The history of
commands, mainwindow.go:217-233, 300-352. -/

namespace Verif.Commands

open Verif Text

/-! ## Words, /repo/zkclient/help.go:14-45 -/

/-- "/acceptnewcert" -/
abbrev c_acceptnewcert : Bytes := [47, 97, 99, 99, 101, 112, 116, 110, 101, 119, 99, 101, 114, 116]
/-- "/version" -/
abbrev c_version : Bytes := [47, 118, 101, 114, 115, 105, 111, 110]
/-- "/help" -/
abbrev c_help : Bytes := [47, 104, 101, 108, 112]
/-- "/fetch" -/
abbrev c_fetch : Bytes := [47, 102, 101, 116, 99, 104]
/-- "/gc" -/
abbrev c_gc : Bytes := [47, 103, 99]
/-- "/info" -/
abbrev c_info : Bytes := [47, 105, 110, 102, 111]
/-- "/kx" -/
abbrev c_kx : Bytes := [47, 107, 120]
/-- "/list" -/
abbrev c_list : Bytes := [47, 108, 105, 115, 116]
/-- "/m" -/
abbrev c_m : Bytes := [47, 109]
/-- "/me" -/
abbrev c_me : Bytes := [47, 109, 101]
/-- "/msg" -/
abbrev c_msg : Bytes := [47, 109, 115, 103]
/-- "/offline" -/
abbrev c_offline : Bytes := [47, 111, 102, 102, 108, 105, 110, 101]
/-- "/online" -/
abbrev c_online : Bytes := [47, 111, 110, 108, 105, 110, 101]
/-- "/q" -/
abbrev c_q : Bytes := [47, 113]
/-- "/query" -/
abbrev c_query : Bytes := [47, 113, 117, 101, 114, 121]
/-- "/quit" -/
abbrev c_quit : Bytes := [47, 113, 117, 105, 116]
/-- "/send" -/
abbrev c_send : Bytes := [47, 115, 101, 110, 100]
/-- "/wc" -/
abbrev c_wc : Bytes := [47, 119, 99]
/-- "/w" -/
abbrev c_w : Bytes := [47, 119]
/-- "/win" -/
abbrev c_win : Bytes := [47, 119, 105, 110]
/-- "/addressbook" -/
abbrev c_addressbook : Bytes := [47, 97, 100, 100, 114, 101, 115, 115, 98, 111, 111, 107]
/-- "/ab" -/
abbrev c_ab : Bytes := [47, 97, 98]
/-- "/save" -/
abbrev c_save : Bytes := [47, 115, 97, 118, 101]
/-- "/restore" -/
abbrev c_restore : Bytes := [47, 114, 101, 115, 116, 111, 114, 101]
/-- "/find" -/
abbrev c_find : Bytes := [47, 102, 105, 110, 100]
/-- "/reset" -/
abbrev c_reset : Bytes := [47, 114, 101, 115, 101, 116]
/-- "new" -/
abbrev s_new : Bytes := [110, 101, 119]
/-- "invite" -/
abbrev s_invite : Bytes := [105, 110, 118, 105, 116, 101]
/-- "join" -/
abbrev s_join : Bytes := [106, 111, 105, 110]
/-- "kick" -/
abbrev s_kick : Bytes := [107, 105, 99, 107]
/-- "update" -/
abbrev s_update : Bytes := [117, 112, 100, 97, 116, 101]
/-- "me" -/
abbrev s_me : Bytes := [109, 101]
/-- "m" -/
abbrev s_m : Bytes := [109]
/-- "part" -/
abbrev s_part : Bytes := [112, 97, 114, 116]
/-- "kill" -/
abbrev s_kill : Bytes := [107, 105, 108, 108]
/-- "force" -/
abbrev s_force : Bytes := [102, 111, 114, 99, 101]
/-- "del" -/
abbrev s_del : Bytes := [100, 101, 108]
/-- "c" -/
abbrev s_c : Bytes := [99]
/-- "conversations" -/
abbrev s_conversations : Bytes := [99, 111, 110, 118, 101, 114, 115, 97, 116, 105, 111, 110, 115]
/-- "a" -/
abbrev s_a : Bytes := [97]
/-- "addressbook" -/
abbrev s_addressbook : Bytes := [97, 100, 100, 114, 101, 115, 115, 98, 111, 111, 107]
/-- "gc" -/
abbrev s_gc : Bytes := [103, 99]
/-- "groupchat" -/
abbrev s_groupchat : Bytes := [103, 114, 111, 117, 112, 99, 104, 97, 116]
/-- "invites" -/
abbrev s_invites : Bytes := [105, 110, 118, 105, 116, 101, 115]
/-- "joins" -/
abbrev s_joins : Bytes := [106, 111, 105, 110, 115]
/-- "message" -/
abbrev s_message : Bytes := [109, 101, 115, 115, 97, 103, 101]

/-- What a line asks for. -/
inductive Req
  /-- An empty line. -/
  | nothing
  | acceptCert
  | online
  | offline
  | kx
  | fetch (pin : Bytes)
  | send (nick file desc : Bytes)
  | me (text : Bytes)
  | msg (nick text : Bytes)
  | infoSelf
  | info (who : Bytes)
  | gcNew (group : Bytes)
  | gcInvite (group nick : Bytes)
  | gcJoin (group : Bytes) (token : Nat)
  | gcKick (group nick : Bytes)
  | gcUpdate (group : Bytes)
  | gcMe (group text : Bytes)
  | gcMsg (group text : Bytes)
  | gcPart (group : Bytes)
  | gcPartForce (group : Bytes)
  | gcKill (group : Bytes)
  | listWindows
  | listBook
  | listGroups
  | listGroup (group : Bytes)
  | listInvites
  | listJoins
  | win (n : Int)
  | close
  | restore
  | query (nick : Bytes)
  | quit (force : Bool)
  | version
  | help
  | helpOn (command : Bytes)
  | del (nick : Bytes)
  | save
  | find (nick : Bytes)
  | reset (nick : Bytes)
  /-- `doUsage`, mainwindow.go:80-89: the usage is printed if it is found. -/
  | usage (found : Bool)
  /-- Any other message about the line. -/
  | refuse
  deriving DecidableEq, Repr

/-- The commands in `helpArray`, help.go:47-234. -/
def table : List Bytes :=
  [c_acceptnewcert, c_version, c_help, c_fetch, c_gc, c_info, c_kx, c_list, c_offline, c_online, c_m, c_me, c_msg, c_q, c_query, c_quit, c_send, c_wc, c_w, c_win, c_addressbook, c_ab, c_save, c_restore, c_find, c_reset]

/-- `doUsage`, mainwindow.go:80-89. -/
def doUsage (a0 : Bytes) : Req := .usage (table.contains a0)

/-- `doHelp`, mainwindow.go:91-119; `args` without the command. -/
def doHelp : List Bytes → Req
  | [] => .help
  | [a1] =>
    match table.find? (fun c => a1 == c || a1 == c.drop 1) with
    | some c => .helpOn c
    | none => .refuse
  | _ => .refuse

/-- The description in `/send nick file description`, mainwindow.go:450-457. -/
def sendDesc (cmd a1 a2 : Bytes) : Bytes :=
  let d := trimSpace (trimPrefix cmd c_send)
  let d := trimSpace (trimPrefix d a1)
  let d := trimRightBlank (trimPrefix d (a2 ++ [32]))
  if d = a2 then [] else d

/-- mainwindow.go:535-536. -/
def msgText (cmd a0 a1 : Bytes) : Bytes := trimRightBlank (trimPrefix (trimSpace (trimPrefix cmd a0)) (a1 ++ [32]))

/-- groupchat.go:664-666, 673-675. -/
def gcText (cmd sub a2 : Bytes) : Bytes :=
  trimRightBlank (trimPrefix (trimSpace (trimPrefix (trimSpace (trimPrefix cmd c_gc)) sub)) (a2 ++ [32]))

/-- `gc`, /repo/zkclient/groupchat.go:643-689, with the checks of arguments in 86-126, 172-180, 225-232, 378-405, 434-437,
496-499, 542-543; `as` are the arguments after the subcommand. -/
def gc (cmd a1 : Bytes) (as : List Bytes) : Req :=
  if a1 = s_new then (match as with | [g] => .gcNew g | _ => .refuse)
  else if a1 = s_invite then (match as with | [g, n] => .gcInvite g n | _ => .refuse)
  else if a1 = s_join then
    (match as with
    | [g, t] =>
      match Policy.parseUint64 t with
      | some n => .gcJoin g n
      | none => .refuse
    | _ => .refuse)
  else if a1 = s_kick then (match as with | [g, n] => .gcKick g (trimSpace n) | _ => .refuse)
  else if a1 = s_update then .refuse
  else if a1 = s_me then
    (match as with
    | g :: _ :: _ => .gcMe g (gcText cmd s_me g)
    | _ => .refuse)
  else if a1 = s_m then
    (match as with
    | g :: _ :: _ => .gcMsg g (gcText cmd s_m g)
    | _ => .refuse)
  else if a1 = s_part then
    (match as with
    | [g] => .gcPart g
    | [g, f] => if f = s_force then .gcPartForce g else .refuse
    | _ => .refuse)
  else if a1 = s_kill then (match as with | [g] => .gcKill g | _ => .refuse)
  else .refuse

/-- `list`, /repo/zkclient/zkclient.go:572-596, 526-570; `low` is `strings.ToLower`. -/
def list (low : Bytes → Bytes) (a1 : Bytes) (as : List Bytes) : Req :=
  let w := low a1
  if w = s_c ∨ w = s_conversations then .listWindows
  else if w = s_a ∨ w = s_addressbook then .listBook
  else if w = s_gc ∨ w = s_groupchat then
    (match as with
    | [] => .listGroups
    | [g] => .listGroup g
    | _ => .refuse)
  else if w = s_invites then .listInvites
  else if w = s_joins then .listJoins
  else .refuse

/-- What comes after the line was cut into words, mainwindow.go:388-720. -/
def act (low : Bytes → Bytes) (cmd a0 : Bytes) (as : List Bytes) : Req :=
  if a0 = c_acceptnewcert then .acceptCert
  else if a0 = c_online then .online
  else if a0 = c_offline then .offline
  else if a0 = c_kx then .kx
  else if a0 = c_fetch then (match as with | [p] => .fetch p | _ => doUsage a0)
  else if a0 = c_send then
    (match as with
    | n :: f :: _ => .send n f (sendDesc cmd n f)
    | _ => doUsage a0)
  else if a0 = c_me then
    (match as with
    | _ :: _ => .me (trimSpace (trimPrefix cmd a0))
    | [] => doUsage a0)
  else if a0 = c_msg ∨ a0 = c_m then
    (match as with
    | n :: _ :: _ => .msg n (msgText cmd a0 n)
    | _ => doUsage a0)
  else if a0 = c_info then
    (match as with
    | [] => .infoSelf
    | [w] => .info w
    | _ => doUsage a0)
  else if a0 = c_gc then
    (match as with
    | [] => doUsage a0
    | a1 :: as => gc cmd a1 as)
  else if a0 = c_list then
    (match as with
    | [] => doUsage a0
    | a1 :: as => list low a1 as)
  else if a0 = c_w ∨ a0 = c_win then
    (match as with
    | [n] =>
      match Policy.parseInt64 n with
      | some x => .win x
      | none => .refuse
    | _ => doUsage a0)
  else if a0 = c_wc then (match as with | [] => .close | _ => doUsage a0)
  else if a0 = c_restore then .restore
  else if a0 = c_q ∨ a0 = c_query then (match as with | [n] => .query n | _ => doUsage a0)
  else if a0 = c_quit then .quit (as = [s_force])
  else if a0 = c_version then .version
  else if a0 = c_help then doHelp as
  else if a0 = c_addressbook ∨ a0 = c_ab then
    (match as with
    | [d, n] => if d = s_del then .del n else .refuse
    | _ => doUsage a0)
  else if a0 = c_save then .save
  else if a0 = c_find then (match as with | [n] => .find n | _ => doUsage a0)
  else if a0 = c_reset then (match as with | [n] => .reset n | _ => doUsage a0)
  else .refuse

/-- `action`, /repo/zkclient/mainwindow.go:354-720, for a line that is not text for the party of a window; after
`strings.Split` the parts contain no spaces, so trimming them (380-386) does nothing. -/
def parse (low : Bytes → Bytes) (cmd : Bytes) : Req :=
  if cmd = [] then .nothing
  else
    match split cmd with
    | [] => .nothing
    | a0 :: as => act low cmd a0 as

/-! ## History -/

/-- The history, where one is in it, the line in the editor, and the file; `saves`: the setting `savehistory`. -/
structure Hist where
  saves : Bool
  lines : List Bytes
  pos : Nat
  edit : Bytes
  file : Bytes
  deriving DecidableEq, Repr

/-- The lines `readHistory` finds, mainwindow.go:315-326: up to each newline, without newlines and carriage returns at
their ends; what follows the last newline is left out.  `acc`: the line so far. -/
def readLines (acc : Bytes) : Bytes → List Bytes
  | [] => []
  | c :: r =>
    if c = 10 then (acc.reverse.dropWhile (fun x => x = 13 ∨ x = 10)).reverse :: readLines [] r else readLines (acc ++ [c]) r

/-- The client is started with this file, mainwindow.go:300-328. -/
def Hist.start (saves : Bool) (file : Bytes) : Hist :=
  let ls := if saves then readLines [] file else []
  ⟨saves, ls, ls.length, [], file⟩

inductive Key
  /-- Enter, with this line in the editor: 170-190, 330-352.  `n`: how much of it reaches the file, if not all. -/
  | enter (cmd : Bytes) (n : Option Nat)
  /-- 217-223 -/
  | up
  /-- 225-233 -/
  | down
  /-- The client is ended and started again. -/
  | restart
  deriving DecidableEq, Repr

/-- One key. `none`: index out of range. -/
def Hist.key (h : Hist) : Key → Option Hist
  | .enter cmd n =>
    if cmd = [] then some h
    else
      let w := cmd ++ [10]
      some { h with
        lines := h.lines ++ [cmd]
        pos := h.lines.length + 1
        edit := []
        file := if h.saves then h.file ++ (match n with | none => w | some n => w.take n) else h.file }
  | .up =>
    if h.pos = 0 then some h
    else
      match h.lines[h.pos - 1]? with
      | none => none
      | some l => some { h with pos := h.pos - 1, edit := l }
  | .down =>
    if h.lines.length ≤ h.pos + 1 then some { h with pos := h.lines.length, edit := [] }
    else
      match h.lines[h.pos + 1]? with
      | none => none
      | some l => some { h with pos := h.pos + 1, edit := l }
  | .restart => some (Hist.start h.saves h.file)

def Hist.keys (h : Hist) : List Key → Option Hist
  | [] => some h
  | k :: ks => (h.key k).bind fun h' => h'.keys ks

end Verif.Commands
