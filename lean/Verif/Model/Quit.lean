import Verif.Model.Scheduler

/-! # Leaving the program: /repo/zkclient/mainwindow.go:659-677, /repo/zkclient/zkclient.go:2226-2282,
/repo/zkclient/msg.go:124-133 and 197-205

Three goroutines besides those that queue messages: the one that runs the commands, the one that transmits (with the
scheduler of `Verif.Scheduler`), and the main loop, whose return ends the program. -/

namespace Verif.Quit

open Scheduler

/-- Where the program is. -/
inductive Phase where
  | running
  /-- `mw.quitC` is closed; the main loop has not yet seen it -/
  | closing
  /-- the main loop has returned: nothing runs any more -/
  | ended
  /-- `mw.quitC` was closed twice, which panics -/
  | crashed
  deriving DecidableEq, Repr

/-- `asked`: the goroutine that runs the commands has sent on `z.depth`, the one that transmits has received it and will
answer on `z.queueW`, msg.go:127-133 and 204. `refused` is not part of the program: how often the user was told that the
queue is not empty, mainwindow.go:672. -/
structure State (M : Type) where
  s : Scheduler.State M
  asked : Bool
  phase : Phase
  refused : Nat
  deriving DecidableEq, Repr

def init (M : Type) : State M := ⟨Scheduler.init M, false, .running, 0⟩

inductive Ev (M : Type) where
  /-- a step of the scheduler, or somebody queues a message -/
  | sched (e : Scheduler.Ev M)
  /-- `/quit`, and the goroutine that transmits is waiting, so that it gets the question: msg.go:199, mainwindow.go:668 -/
  | ask
  /-- `/quit`, and it is not waiting: `default`, msg.go:200-201; "just exit", mainwindow.go:670 -/
  | busy
  /-- the lengths are returned and looked at, msg.go:128-133, mainwindow.go:671-676 -/
  | answer
  /-- `/quit force`, mainwindow.go:660-665 -/
  | force
  /-- control-Q, zkclient.go:2231-2232 -/
  | key
  /-- the main loop sees `quitC`, zkclient.go:2279-2280 -/
  | leave
  deriving DecidableEq, Repr

/-- A step of the goroutine that transmits. -/
def ofSender {M : Type} : Scheduler.Ev M → Bool
  | .wake | .pick | .transmit _ | .remove => true
  | _ => false

/-- The goroutine that transmits is in its `select`, msg.go:124. -/
def waits {M : Type} : Sender M → Bool
  | .idle => true
  | _ => false

/-- `close(mw.quitC)` -/
def Phase.close : Phase → Phase
  | .running => .closing
  | _ => .crashed

/-- Goroutines run until the main loop returns. -/
def Phase.live : Phase → Bool
  | .running | .closing => true
  | _ => false

/-- A step. `none`: can not happen in this state. A goroutine that has a signal to receive may or may not be found waiting;
one that has none to receive is. While it answers it does nothing else; the lengths are read and sent under the lock that
the appending to the slices takes too, so this is one step here. That commands are run one after the other, and not while
one waits for the answer, is ttk's. -/
def step {M : Type} (q : State M) (e : Ev M) : Option (State M) :=
  if q.phase.live then
    match e with
    | .sched e =>
      if q.asked && ofSender e then none else (Scheduler.step q.s e).map fun s => { q with s := s }
    | .ask => if !q.asked && waits q.s.sender then some { q with asked := true } else none
    | .busy =>
      if !q.asked && (!waits q.s.sender || q.s.signals != 0) then some { q with phase := q.phase.close }
      else none
    | .answer =>
      if q.asked then
        if q.s.hi.length != 0 || q.s.lo.length != 0 then some { q with asked := false, refused := q.refused + 1 }
        else some { q with asked := false, phase := q.phase.close }
      else none
    | .force => if q.asked then none else some { q with phase := q.phase.close }
    | .key => some { q with phase := .ended }
    | .leave => if q.phase = .closing then some { q with phase := .ended } else none
  else none

/-- Executions in which every step satisfies `G`. -/
inductive Run {M : Type} (G : State M → Ev M → Prop) : State M → List (Ev M) → State M → Prop
  | nil (s) : Run G s [] s
  | cons {s e s' es s''} : G s e → step s e = some s' → Run G s' es s'' → Run G s (e :: es) s''

end Verif.Quit
