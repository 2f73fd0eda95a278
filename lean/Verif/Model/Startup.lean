import Verif.Model.GoMap

/-! # The start of the server: `_main`, `listenSocket` and `listen` of zkserver/zkserver.go

The files zkserver.id, zkserver.crt and zkserver.key, the UNIX socket for zkserverctl and the TCP port, in steps of
single system calls. Two processes use the same root directory. Identities and certificates are numbers, a new one for
each that is generated. Left out: settings, logs and user directories; calls that fail, apart from reads. -/

namespace Verif.Startup

/-- A file: not there, cut short by a write that has begun, or whole. -/
inductive File where
  | absent
  | torn
  | whole (n : Nat)
  deriving DecidableEq, Repr

/-- Where a process is in `_main`, /repo/zkserver/zkserver.go:862-1011. -/
inductive Pc where
  /-- not running -/
  | down
  /-- before `ReadFile` of the identity, line 897 -/
  | boot
  /-- reading failed, before `WriteFile` of a new identity -/
  | noId
  /-- `WriteFile` of identity `n` has truncated the file, line 909 -/
  | makeId (n : Nat)
  /-- before `LoadX509KeyPair`, line 921, with identity `i` -/
  | certs (i : Nat)
  /-- loading failed, before `WriteFile` of a new certificate -/
  | noCrt (i : Nat)
  /-- `WriteFile` of certificate `m` has truncated the file, line 934 -/
  | makeCrt (i m : Nat)
  /-- before `WriteFile` of the key, line 939 -/
  | madeCrt (i m : Nat)
  /-- which has truncated the file -/
  | makeKey (i m : Nat)
  /-- before `RemoveAll` of the socket, line 982 -/
  | clear (i : Nat)
  /-- before `listenSocket`, line 987 -/
  | cleared (i : Nat)
  /-- before `LoadX509KeyPair` in `listen`, line 826 -/
  | ctl (i : Nat)
  /-- before `net.Listen`, line 839, with certificate `c` -/
  | bind (i c : Nat)
  /-- serving -/
  | up (i c : Nat)
  deriving DecidableEq, Repr

/-- The directory, the processes and the port. `sock` is the process that made the socket that is in the directory;
`served` lists identity and certificate of each server that went into service. -/
structure State where
  id : File := .absent
  crt : File := .absent
  key : File := .absent
  sock : Option Bool := none
  port : Option Bool := none
  first : Pc := .down
  second : Pc := .down
  next : Nat := 0
  served : List (Nat × Nat) := []
  deriving DecidableEq, Repr

/-- The process `p`; `false` is the first one. -/
def State.pc (s : State) (p : Bool) : Pc := if p then s.second else s.first

/-- Move a process. -/
def State.put (s : State) (p : Bool) (c : Pc) : State :=
  if p then { s with second := c } else { s with first := c }

/-- A process ends: the kernel frees its port; the socket stays in the directory. -/
def State.exit (s : State) (p : Bool) : State :=
  { s with port := if s.port = some p then none else s.port }.put p .down

/-- Generate an identity and begin to write it, /repo/zkserver/zkserver.go:899-910. -/
def newId (s : State) (p : Bool) : State :=
  { s with id := .torn, next := s.next + 1 }.put p (.makeId s.next)

/-- Generate a certificate and begin to write it, /repo/zkserver/zkserver.go:924-935. -/
def newCert (s : State) (p : Bool) (i : Nat) : State :=
  { s with crt := .torn, next := s.next + 1 }.put p (.makeCrt i s.next)

/-- `LoadX509KeyPair`: both files are there, and they belong together. -/
def pair (s : State) : Option Nat :=
  match s.crt, s.key with
  | .whole a, .whole b => if a = b then some a else none
  | _, _ => none

/-- The next system call of a process. -/
def advance (s : State) (p : Bool) : State :=
  match s.pc p with
  | .down => s
  | .boot =>
    match s.id with
    | .absent => s.put p .noId
    | .torn => s.exit p
    | .whole i => s.put p (.certs i)
  | .noId => newId s p
  | .makeId n => { s with id := .whole n }.put p (.certs n)
  | .certs i =>
    match pair s with
    | some _ => s.put p (.clear i)
    | none => s.put p (.noCrt i)
  | .noCrt i => newCert s p i
  | .makeCrt i m => { s with crt := .whole m }.put p (.madeCrt i m)
  | .madeCrt i m => { s with key := .torn }.put p (.makeKey i m)
  | .makeKey i m => { s with key := .whole m }.put p (.clear i)
  | .clear i => { s with sock := none }.put p (.cleared i)
  | .cleared i =>
    match s.sock with
    | none => { s with sock := some p }.put p (.ctl i)
    | some _ => s.exit p
  | .ctl i =>
    match pair s with
    | some c => s.put p (.bind i c)
    | none => s.exit p
  | .bind i c =>
    match s.port with
    | none => { s with port := some p, served := s.served ++ [(i, c)] }.put p (.up i c)
    | some _ => s.exit p
  | .up _ _ => s

/-- The same when reading fails for some other reason, such as too many open files or lacking permission: the code at
lines 899 and 924 does not look at what the error is. -/
def failing (s : State) (p : Bool) : State :=
  match s.pc p with
  | .boot => s.put p .noId
  | .certs i => s.put p (.noCrt i)
  | .ctl _ => s.exit p
  | _ => s

/-- What happens. -/
inductive Ev where
  | start (p : Bool)
  | step (p : Bool)
  /-- the next call is a read, and fails -/
  | fail (p : Bool)
  | kill (p : Bool)
  deriving DecidableEq, Repr

/-- One event. -/
def step (s : State) : Ev → State
  | .start p => if s.pc p = .down then s.put p .boot else s
  | .step p => advance s p
  | .fail p => failing s p
  | .kill p => s.exit p

/-- A run. -/
def exec (s : State) (evs : List Ev) : State := evs.foldl step s

/-- A command of zkserverctl gets to process `p`: it made the socket in the directory and still runs. -/
def State.reaches (s : State) (p : Bool) : Prop := s.sock = some p ∧ s.pc p ≠ .down

instance (s : State) (p : Bool) : Decidable (s.reaches p) := inferInstanceAs (Decidable (_ ∧ _))

end Verif.Startup
