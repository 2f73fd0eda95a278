import Verif.Model.Common

/-! # What the status line tells about windows

zkclient/zkclient.go 49-111 (the status line, changes of the day), 113-197 (printing), 242-279 (changing the
window), 294-340 (keys that change the window), 385-400 and 448-464 (a new window), zkclient/mainwindow.go
238-254 (scrolling), 633-651 and 770-777 (closing windows), zkclient/push.go 1262-1279 (messages that mention
the user).

Every window has marks that say whether it has something new. Printing and changing the window happen on a
queue, as in the model of conversations; here only the marks and the rows of the windows are of interest, not
who a window belongs to. `key`, `unseen`, `mark` and `visible` are not in the code: they record what the user
has in front of them. Free slots in the list of windows do not occur, the text of the status line is a list of
windows with their colour, and what scrolling does to a list is left out. -/

namespace Verif.Status

/-- A line that is printed: whether it mentions the user, the day it was received on (`none` for lines with
the local time, which `updateTS` is not called for), and the length of its time stamp as printed. -/
structure Line where
  mention : Bool
  day : Option Nat
  stamp : Nat
  deriving DecidableEq, Repr

/-- A row of a console: a separator, a notice of a day ("first message received on", "day changed to"), or a
line. -/
inductive Row where
  | sep
  | day (d : Nat)
  | line (l : Line)
  deriving DecidableEq, Repr

/-- `conversation`, /repo/zkclient/zkclient.go:282-292. `last` is the day of `lastMsg`, `none` if it is zero.
`key` tells windows apart, `unseen` are the lines since the window was last in front of the user, and `mark` is
the number of rows it had then. -/
structure Win where
  key : Nat
  rows : List Row
  dirty : Bool
  separator : Bool
  mentioned : Bool
  last : Option Nat
  unseen : List Line
  mark : Nat
  deriving DecidableEq, Repr

/-- A closure given to `ttk.Queue`: print a line in a window (`none`: the one that is active then), change the
window, or scroll. -/
inductive Job where
  | print (win : Option Nat) (l : Line)
  | focus (win : Nat)
  | page
  deriving DecidableEq, Repr

/-- The client. `status` is the list of windows in the status line, with whether they are coloured as ones
where the user is mentioned. `width` is the width of the consoles and `separators` the setting. `visible` is
the key of the window that is in front of the user, if it is still there. -/
structure Z where
  conv : List Win
  active : Nat
  queue : List Job
  status : List (Nat × Bool)
  width : Nat
  separators : Bool
  visible : Option Nat
  fresh : Nat
  deriving DecidableEq, Repr

/-- A window without rows. -/
def blank (key : Nat) : Win := ⟨key, [], false, false, false, none, [], 0⟩

/-- A client at its start: the console, which is shown. -/
def init (separators : Bool) : Z := ⟨[blank 0], 0, [], [], 80, separators, some 0, 1⟩

/-- Append to the queue. -/
def Z.push (z : Z) (js : List Job) : Z := { z with queue := z.queue ++ js }

/-- The list in the status line, /repo/zkclient/zkclient.go:50-68. -/
def dirtyList (conv : List Win) : List (Nat × Bool) :=
  (conv.zipIdx.filter fun p => p.1.dirty).map fun p => (p.2, p.1.mentioned)

/-- `calculateStatus`, /repo/zkclient/zkclient.go:49-86, and showing it. `none`: index out of range (71, 84). -/
def Z.calculateStatus (z : Z) : Option Z :=
  if z.active < z.conv.length then some { z with status := dirtyList z.conv } else none

/-- Whether `strings.Repeat` gets a negative number, /repo/zkclient/zkclient.go:167-175. -/
def repeatFails (width stamp : Nat) : Bool := decide (width ≤ stamp + 1) && decide (80 < stamp + 1)

/-- `updateTS`, /repo/zkclient/zkclient.go:93-111. A first message on the day that is Go's zero time does not
occur here. -/
def updateTS (w : Win) : Option Nat → Win
  | none => w
  | some d =>
    match w.last with
    | none => { w with rows := w.rows ++ [.day d], last := some d }
    | some e => if d ≠ e then { w with rows := w.rows ++ [.day d], last := some d } else { w with last := some d }

/-- What the user notices of a line that was just put in a window. -/
def notice (visible : Option Nat) (l : Line) (w : Win) : Win :=
  if visible = some w.key then { w with mark := w.rows.length } else { w with unseen := w.unseen ++ [l] }

/-- Whether a separator is needed before a line, /repo/zkclient/zkclient.go:164-166. -/
def needSep (z : Z) (k : Nat) (w : Win) : Bool :=
  decide (z.active ≠ k) && z.separators && !w.rows.isEmpty && decide (k ≠ 0) && !w.separator

/-- A line in a window, /repo/zkclient/zkclient.go:162-187. -/
def write (z : Z) (k : Nat) (l : Line) (w : Win) : Win :=
  let w := if needSep z k w then { w with rows := w.rows ++ [.sep], separator := true } else w
  let w := updateTS w l.day
  let w := { w with rows := w.rows ++ [.line l] }
  notice z.visible l (if z.active ≠ k then { w with dirty := true } else w)

/-- The closure of `printf`, /repo/zkclient/zkclient.go:153-196. `none`: the client crashes. -/
def Z.print (z : Z) (win : Option Nat) (l : Line) : Option Z :=
  let k := win.getD z.active
  match z.conv[k]? with
  | none => z.calculateStatus
  | some w =>
    if needSep z k w && repeatFails z.width l.stamp then none
    else { z with conv := z.conv.set k (write z k l w) }.calculateStatus

/-- A window that is shown, /repo/zkclient/zkclient.go:262-265. -/
def shown (w : Win) : Win :=
  { w with dirty := false, separator := false, mentioned := false, unseen := [], mark := w.rows.length }

/-- The closure of `focus`, /repo/zkclient/zkclient.go:243-278. -/
def Z.focus (z : Z) (k : Nat) : Option Z :=
  if k ≠ 0 ∧ k = z.active then some z
  else
    match z.conv[k]? with
    | none => some (z.push [.print (some 0) ⟨false, none, 0⟩])
    | some w =>
      { z with conv := z.conv.set k (shown w), active := k, visible := some w.key }.calculateStatus

/-- The first entry of the queue. Scrolling, /repo/zkclient/mainwindow.go:238-254, computes the status line as
well. -/
def work (z : Z) : Option Z :=
  match z.queue with
  | [] => some z
  | .print win l :: r => { z with queue := r }.print win l
  | .focus k :: r => { z with queue := r }.focus k
  | .page :: r => { z with queue := r }.calculateStatus

/-- The window that `nextConversation` goes to, /repo/zkclient/zkclient.go:294-310. -/
def nextWin (z : Z) : Nat := if z.active + 1 > z.conv.length - 1 then 0 else z.active + 1

/-- The window that `prevConversation` goes to, /repo/zkclient/zkclient.go:312-340. `none`: index out of range
(330). -/
def prevWin (z : Z) : Option Nat :=
  if z.active = 0 then some (z.conv.length - 1)
  else if z.active - 1 < z.conv.length then some (z.active - 1)
  else none

/-- A message to a group that was found to have window `k`, /repo/zkclient/push.go:1262-1289: if the user is
mentioned the window is marked at once, the line comes later. That the window is looked up, marked and printed to
under three separate locks is left out. -/
def gm (z : Z) (k : Nat) (l : Line) : Z :=
  match z.conv[k]? with
  | none => z
  | some w =>
    let w := if l.mention = true ∧ z.active ≠ k then { w with mentioned := true } else w
    { z with conv := z.conv.set k w }.push [.print (some k) l]

/-- A new window, /repo/zkclient/zkclient.go:385-400 and 448-464, and the two lines that say so. -/
def openWin (z : Z) (stamp : Nat) : Z :=
  { z with conv := z.conv ++ [blank z.fresh], fresh := z.fresh + 1 }.push
    [.print (some 0) ⟨false, none, stamp⟩, .print (some z.conv.length) ⟨false, none, stamp⟩]

/-- Windows that are left; one that is gone is not in front of the user. -/
def Z.keep (z : Z) (conv : List Win) : Z :=
  { z with conv := conv, visible := if z.visible ∈ conv.map (fun w => some w.key) then z.visible else none }

/-- `/wc`, /repo/zkclient/mainwindow.go:633-651. -/
def close (z : Z) : Z :=
  if z.active = 0 ∨ z.conv.length ≤ z.active then z
  else (z.keep (z.conv.take z.active ++ z.conv.drop (z.active + 1))).push [.focus 0]

/-- `closeAll`, /repo/zkclient/mainwindow.go:770-777. -/
def closeAll (z : Z) : Z := (z.keep (z.conv.take 1)).push [.focus 0]

/-- What can happen. `say` is any other use of `PrintfT` and `PrintfTS`. -/
inductive Ev where
  | say (win : Option Nat) (day : Option Nat) (stamp : Nat)
  | gm (win : Nat) (l : Line)
  | openWin (stamp : Nat)
  | focus (win : Nat)
  | next
  | prev
  | page
  | close
  | closeAll
  | resize (width : Nat)
  | work

/-- One step; `none` is a crash. -/
def step (z : Z) : Ev → Option Z
  | .say win day stamp => some (z.push [.print win ⟨false, day, stamp⟩])
  | .gm k l => some (gm z k l)
  | .openWin stamp => some (openWin z stamp)
  | .focus k => some (z.push [.focus k])
  | .next => some (z.push [.focus (nextWin z)])
  | .prev => (prevWin z).map fun k => z.push [.focus k]
  | .page => some (z.push [.page])
  | .close => some (close z)
  | .closeAll => some (closeAll z)
  | .resize n => some { z with width := n }
  | .work => work z

/-- States that events with property `ok` lead to. -/
inductive Runs (ok : Z → Ev → Prop) (sep : Bool) : Z → Prop
  | init : Runs ok sep (init sep)
  | step {z ev z'} : Runs ok sep z → ok z ev → step z ev = some z' → Runs ok sep z'

/-- All states. -/
abbrev Reach := Runs fun _ _ => True

end Verif.Status
