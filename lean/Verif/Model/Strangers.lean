import Verif.Model.Common

/-! # Connections to the server, and what the process may have open

`listen`, /repo/zkserver/zkserver.go:818-857, `preSession`, lines 592-716, the deadline of `handleSession`, lines 423-432,
`listenSocket`, lines 791-816, and `socketHandler`, lines 718-789: only how long connections last and what they need. An
operating system lets a process have so many files and connections open and no more; when there are as many, `Accept` and
`open` return an error.

Left out: what is said on a connection. The kernel takes connections before `Accept` does and lets them wait; that there is
a limit to how many wait is left out. A client whose machine is gone is found out by TCP, which is an event (`leave`). -/

namespace Verif.Strangers

/-- How far a connection is: before the session, where nothing limits the time (`preSession` sets no deadline, and the
handshake of TLS takes place in its first read); or in a session, with the time of the last message. -/
inductive Stage where
  | pre
  | session (since : Nat)
  deriving DecidableEq, Repr

/-- A connection. -/
structure Conn where
  id : Nat
  stage : Stage
  deriving DecidableEq, Repr

/-- The process. `limit`: how much may be open besides what always is. `waiting` and `adminWaiting`: connections that were
not yet accepted, at the port and at the control socket. `files`: what is open while a request is served. `control`: the
goroutine of `listenSocket` is there. `log`: how many lines there are about `Accept`. `refused`: how often a file could not
be opened. -/
structure Server where
  limit : Nat
  now : Nat
  conns : List Conn
  files : Nat
  waiting : List Nat
  admins : List Nat
  adminWaiting : List Nat
  control : Bool
  answered : List Nat
  log : Nat
  refused : Nat

/-- A server that was started. -/
def Server.new (limit : Nat) : Server := ⟨limit, 0, [], 0, [], [], [], true, [], 0, 0⟩

/-- What is open. -/
def Server.used (s : Server) : Nat := s.conns.length + s.files + s.admins.length

/-- What happens. `request`: something is asked before a session, such as who the server is. `login` and `message`: a
session begins, and a message of it is read. `leave`: the other side closes, or is gone, or says something that ends
`preSession`. `tick`: a second passes. -/
inductive Ev where
  | arrive (i : Nat)
  | accept
  | request (i : Nat)
  | login (i : Nat)
  | message (i : Nat)
  | leave (i : Nat)
  | tick
  | openFile
  | closeFile
  | adminArrive (a : Nat)
  | adminAccept
  | adminLeave (a : Nat)
  deriving DecidableEq, Repr

/-- A session begins. -/
def Conn.login (now i : Nat) (c : Conn) : Conn := if c.id = i ∧ c.stage = .pre then ⟨c.id, .session now⟩ else c

/-- A message is read. -/
def Conn.message (now i : Nat) (c : Conn) : Conn :=
  match c.stage with
  | .pre => c
  | .session _ => if c.id = i then ⟨c.id, .session now⟩ else c

/-- The deadline, 15 seconds after the last message, has not passed. -/
def Conn.alive (now : Nat) (c : Conn) : Bool :=
  match c.stage with
  | .pre => true
  | .session since => now < since + 15

/-- One event. When nothing more may be open, the loop of `listen`, lines 845-852, goes on with a line in the log, and the one
of `listenSocket`, lines 804-811, ends. -/
def step (s : Server) : Ev → Server
  | .arrive i => { s with waiting := s.waiting ++ [i] }
  | .accept =>
    match s.waiting with
    | [] => s
    | i :: r =>
      if s.used < s.limit then { s with waiting := r, conns := s.conns ++ [⟨i, .pre⟩] } else { s with log := s.log + 1 }
  | .request _ => s
  | .login i => { s with conns := s.conns.map (Conn.login s.now i) }
  | .message i => { s with conns := s.conns.map (Conn.message s.now i) }
  | .leave i => { s with conns := s.conns.filter fun c => c.id ≠ i }
  | .tick => { s with now := s.now + 1, conns := s.conns.filter (Conn.alive (s.now + 1)) }
  | .openFile => if s.used < s.limit then { s with files := s.files + 1 } else { s with refused := s.refused + 1 }
  | .closeFile => { s with files := s.files - 1 }
  | .adminArrive a => { s with adminWaiting := s.adminWaiting ++ [a] }
  | .adminAccept =>
    if s.control then
      match s.adminWaiting with
      | [] => s
      | a :: r =>
        if s.used < s.limit then { s with adminWaiting := r, admins := s.admins ++ [a], answered := s.answered ++ [a] }
        else { s with control := false }
    else s
  | .adminLeave a => { s with admins := s.admins.filter (· ≠ a) }

/-- Several events. -/
def run (s : Server) (es : List Ev) : Server := es.foldl step s

end Verif.Strangers
