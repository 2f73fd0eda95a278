import Verif.Model.Common

/-! # The scheduler of outgoing messages: zkclient/msg.go

Producers put messages into one of two channels; a first goroutine moves them into two slices; a second one
transmits them, the slice of high priority first. All of the steps of the two goroutines and of any number of
producers interleave. -/

namespace Verif.Scheduler

/-- What comes of an attempt to transmit, /repo/zkclient/msg.go:156-181 and 437-519. -/
inductive Outcome where
  /-- written, no error -/
  | ok
  /-- there is no ratchet for the recipient: nothing is written, no error, lines 447-457 -/
  | dropped
  /-- an error, and nothing has been written -/
  | failed
  /-- written, but then the ratchet could not be saved, which is an error, lines 512-516 -/
  | unsaved
  deriving DecidableEq, Repr

/-- The message leaves the queue. -/
def Outcome.finished : Outcome → Bool
  | .ok | .dropped => true
  | .failed | .unsaved => false

/-- The message is written to the connection. -/
def Outcome.written : Outcome → Bool
  | .ok | .unsaved => true
  | .dropped | .failed => false

/-- Where the first goroutine is, /repo/zkclient/msg.go:87-113. `k` is a message of low priority that it has
received and not yet queued. -/
inductive Worker (M : Type) where
  /-- in the `select`, line 90 -/
  | idle
  /-- it has received `m` from `z.hi` and is in `queueHi`, line 62 -/
  | gotHi (m : M) (k : Option M)
  /-- `m` has been appended, the signal is next, line 67 -/
  | sigHi (k : Option M)
  /-- in `drainHi`, line 75 -/
  | drain (k : Option M)
  /-- the message of low priority has been appended, the signal is next, line 107 -/
  | sigLo
  deriving DecidableEq, Repr

/-- Where the second goroutine is, /repo/zkclient/msg.go:116-194. -/
inductive Sender (M : Type) where
  /-- in the `select`, line 124 -/
  | idle
  /-- at the top of the inner loop, line 137 -/
  | loop
  /-- it has picked `m` from the slice of high priority, or from the other one, line 152 -/
  | picked (hi : Bool) (m : M)
  /-- transmitted, to be removed from the slice, line 184 -/
  | dequeue (hi : Bool)
  deriving DecidableEq, Repr

/-- `queued` and `log` are not part of the program: the messages that producers have put into the channels,
and the attempts to transmit, in order. -/
structure State (M : Type) where
  /-- `z.hi`, capacity 16 -/
  chHi : List M
  /-- `z.lo`, capacity 4 -/
  chLo : List M
  hi : List M
  lo : List M
  /-- signals in `execute`, capacity 2 -/
  signals : Nat
  worker : Worker M
  sender : Sender M
  queued : List (Bool × M)
  log : List (Bool × M × Outcome)
  deriving DecidableEq, Repr

def init (M : Type) : State M := ⟨[], [], [], [], 0, .idle, .idle, [], []⟩

inductive Ev (M : Type) where
  /-- `scheduleCRPC`, `scheduleCRPCCB` and `schedulePRPC`, lines 207-251 -/
  | schedule (hi : Bool) (m : M)
  /-- the first goroutine receives from `z.hi`, line 94 -/
  | takeHi
  /-- it receives from `z.lo`, line 98 -/
  | takeLo
  /-- its next step otherwise -/
  | work
  /-- the second goroutine receives a signal, line 134 -/
  | wake
  /-- it picks a message, or finds none, lines 137-152 -/
  | pick
  /-- it transmits, lines 156-181 -/
  | transmit (o : Outcome)
  /-- it removes the message, lines 184-190 -/
  | remove
  deriving DecidableEq, Repr

/-- A signal is dropped if there are two already, lines 67-70 and 107-110. -/
def signal (n : Nat) : Nat := if n < 2 then n + 1 else n

/-- A step. `none`: can not happen in this state; the goroutine waits. The end of the program (`z.done`) and
the reports of the queue lengths (`z.depth`) are left out. -/
def step {M : Type} (s : State M) : Ev M → Option (State M)
  | .schedule true m =>
    if s.chHi.length < 16 then some { s with chHi := s.chHi ++ [m], queued := s.queued ++ [(true, m)] } else none
  | .schedule false m =>
    if s.chLo.length < 4 then some { s with chLo := s.chLo ++ [m], queued := s.queued ++ [(false, m)] } else none
  | .takeHi =>
    match s.worker, s.chHi with
    | .idle, m :: r => some { s with chHi := r, worker := .gotHi m none }
    | _, _ => none
  | .takeLo =>
    match s.worker, s.chLo with
    | .idle, b :: r => some { s with chLo := r, worker := .drain (some b) }
    | _, _ => none
  | .work =>
    match s.worker with
    | .idle => none
    | .gotHi m k => some { s with hi := s.hi ++ [m], worker := .sigHi k }
    | .sigHi k => some { s with signals := signal s.signals, worker := .drain k }
    | .drain k =>
      match s.chHi, k with
      | m :: r, k => some { s with chHi := r, worker := .gotHi m k }
      | [], none => some { s with worker := .idle }
      | [], some b => some { s with lo := s.lo ++ [b], worker := .sigLo }
    | .sigLo => some { s with signals := signal s.signals, worker := .idle }
  | .wake =>
    match s.sender, s.signals with
    | .idle, n + 1 => some { s with signals := n, sender := .loop }
    | _, _ => none
  | .pick =>
    match s.sender, s.hi, s.lo with
    | .loop, m :: _, _ => some { s with sender := .picked true m }
    | .loop, [], m :: _ => some { s with sender := .picked false m }
    | .loop, [], [] => some { s with sender := .idle }
    | _, _, _ => none
  | .transmit o =>
    match s.sender with
    | .picked b m =>
      some { s with sender := if o.finished then .dequeue b else .idle, log := s.log ++ [(b, m, o)] }
    | _ => none
  | .remove =>
    match s.sender with
    | .dequeue true => some { s with hi := s.hi.tail, sender := .loop }
    | .dequeue false => some { s with lo := s.lo.tail, sender := .loop }
    | _ => none

/-- Executions in which every step satisfies `G`. -/
inductive Run {M : Type} (G : State M → Ev M → Prop) : State M → List (Ev M) → State M → Prop
  | nil (s) : Run G s [] s
  | cons {s e s' es s''} : G s e → step s e = some s' → Run G s' es s'' → Run G s (e :: es) s''

end Verif.Scheduler
