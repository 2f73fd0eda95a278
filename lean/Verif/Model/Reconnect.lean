/-! # Going online, going offline and reconnecting

The client goes online when it starts, when the user types `/online`, and by itself after it has lost its
connection: the goroutine that reads from the server starts `goOnlineRetry` when it ends
(/repo/zkclient/zkclient.go:1193-1213), which tries every thirty seconds (zkclient.go:1008-1037).  All this goes
through `goOnline` (zkclient.go:954-986), which holds the client's lock from its first line to its last.

Simplifications.
* Time is left out: a running timer may come at any moment.
* What the network and the server do in one call of `goOnline` is one value (`Meeting`): no connection, or a
  server showing some certificate and then failing, refusing or welcoming the client.  Certificates are numbers.
* Messages and tags are left out (`Verif.Model.ClientTags` has the tags).  Of `writeMessage` and `welcomeUser`
  only the use of `z.kx` is kept.
* A connection that was closed from within stays `shut` until the reading goroutine has noticed.
* The welcome window of a client that has no identity yet is left out. -/

namespace Verif.Reconnect

/-- `z.online` and `z.kx` together: they are set together (zkclient.go:940-943) and unset together
(zkclient.go:1197-1201), both under the lock. -/
inductive Conn
  /-- `z.online = false`, `z.kx = nil`. -/
  | off
  /-- Connected to a server that showed this certificate. -/
  | up (cert : Nat)
  /-- `z.kx.Close()` was called; the reading goroutine has not ended yet, `z.online` still holds. -/
  | shut
  deriving DecidableEq, Repr

/-- `z.online`. -/
def Conn.online : Conn → Bool
  | .off => false
  | _ => true

/-- Talking to a server. -/
def Conn.isUp : Conn → Bool
  | .up _ => true
  | _ => false

/-- What the server says once the certificate is accepted (zkclient.go:748-943). -/
inductive Answer
  /-- The key exchange, or reading the welcome, fails. -/
  | broken
  /-- `Unwelcome` (zkclient.go:801-815). -/
  | refused
  | welcome
  deriving DecidableEq, Repr

/-- One attempt to reach the server. -/
inductive Meeting
  /-- `preSessionPhase` fails (zkclient.go:726-746). -/
  | nobody
  | met (cert : Nat) (a : Answer)
  deriving DecidableEq, Repr

/-- Where a goroutine stands that goes online. -/
inductive Pc
  /-- Ended. -/
  | gone
  /-- At start (zkclient.go:2207-2210) or for `/online` (mainwindow.go:411-416): about to call `goOnline`. -/
  | dial
  /-- The same, `goOnline` succeeded, before `welcomeUser` uses `z.kx` (zkclient.go:1002, 1654). -/
  | greet
  /-- The same, or a retry: `goOnline` returned `errCert`, before the fingerprint is printed
  (zkclient.go:991-998).  Both end after it. -/
  | show
  /-- `goOnlineRetry` at the top of the loop, its timer running (zkclient.go:1012). -/
  | top
  /-- Waiting for a running timer (zkclient.go:1019). -/
  | armed
  /-- The timer came; before `z.online` is looked at (zkclient.go:1020). -/
  | fired
  /-- Before `goOnlineAndPrint` (zkclient.go:1029). -/
  | trying
  /-- `goOnline` succeeded, before `welcomeUser` uses `z.kx`. -/
  | greeting
  /-- Before `timer.Reset` (zkclient.go:1034). -/
  | again
  /-- At the top of the loop, its timer used up: `continue` (zkclient.go:1021-1024) skips the reset. -/
  | dry
  /-- Waiting for a timer that is used up. -/
  | stuck
  deriving DecidableEq, Repr

structure State where
  conn : Conn := .off
  /-- `z.offline`. -/
  offline : Bool := false
  /-- `z.cert`. -/
  cert : Nat := 0
  /-- `z.provisionalCert`. -/
  provisional : Option Nat := none
  threads : List Pc := [.dial]
  /-- The sending goroutine is past `isOnline` in `writeMessage` and before `z.kx.Write`
  (zkclient.go:1844-1866). -/
  sending : Bool := false
  /-- A nil pointer was used; the process is gone. -/
  crashed : Bool := false
  /-- Kept for the statements only: the last of `/online` and `/offline` was `/offline`. -/
  told : Bool := false
  /-- Kept for the statements only: the certificate whose fingerprint was printed last. -/
  shown : Option Nat := none
  deriving DecidableEq, Repr

/-- What `goOnline` returns. -/
inductive Result
  | ok
  | errCert
  | err
  deriving DecidableEq, Repr

/-- `goOnline` (zkclient.go:954-986), with `welcomePhase` setting `offline` on `Unwelcome`
(zkclient.go:811-812) and the connection on `Welcome` (zkclient.go:940-943). -/
def goOnline (s : State) (m : Meeting) : State × Result :=
  if s.conn.online then (s, .err)
  else
    match m with
    | .nobody => (s, .err)
    | .met c a =>
      if c ≠ s.cert then ({ s with provisional := some c }, .errCert)
      else
        match a with
        | .broken => (s, .err)
        | .refused => ({ s with offline := true }, .err)
        | .welcome => ({ s with conn := .up c }, .ok)

def State.put (s : State) (i : Nat) (pc : Pc) : State := { s with threads := s.threads.set i pc }

/-- Goroutine `i`, standing at `pc`, goes on; `m` is what it meets if it calls `goOnline`. -/
def advance (s : State) (i : Nat) (m : Meeting) : Pc → State
  | .gone => s
  | .stuck => s
  | .dial =>
    match goOnline s m with
    | (s', .ok) => s'.put i .greet
    | (s', .errCert) => s'.put i .show
    | (s', .err) => s'.put i .gone
  | .greet => if s.conn.online then s.put i .gone else { s with crashed := true }
  | .show => ({ s with shown := s.provisional }).put i .gone
  | .top => s.put i (if s.offline then .gone else .armed)
  | .armed => s.put i .fired
  | .fired => s.put i (if s.conn.online then .dry else .trying)
  | .trying =>
    match goOnline s m with
    | (s', .ok) => s'.put i .greeting
    | (s', .errCert) => s'.put i .show
    | (s', .err) => s'.put i .again
  | .greeting => if s.conn.online then s.put i .again else { s with crashed := true }
  | .again => s.put i .top
  | .dry => s.put i (if s.offline then .gone else .stuck)

inductive Ev
  /-- Goroutine `i` goes on. -/
  | run (i : Nat) (m : Meeting)
  /-- `/online` (mainwindow.go:411-416). -/
  | online
  /-- `/offline` (mainwindow.go:418-427). -/
  | offline
  /-- `/acceptnewcert` (mainwindow.go:389-409). -/
  | accept
  /-- The heartbeat closes the connection (zkclient.go:1240-1244, 1258-1264). -/
  | timeout
  /-- The reading goroutine finds the connection closed and ends (zkclient.go:1193-1213, 1285-1299). -/
  | drop
  /-- The sending goroutine sees `isOnline()` (zkclient.go:1844). -/
  | look
  /-- The sending goroutine uses `z.kx` (zkclient.go:1866). -/
  | write
  deriving DecidableEq, Repr

def step (s : State) (e : Ev) : State :=
  if s.crashed then s
  else
    match e with
    | .run i m => advance s i m (s.threads.getD i .gone)
    | .online => { s with offline := false, told := false, threads := s.threads ++ [.dial] }
    | .offline =>
      if s.conn.online then { s with offline := true, told := true, conn := .shut }
      else { s with told := true }
    | .accept =>
      match s.conn.online, s.provisional with
      | false, some c => { s with cert := c, provisional := none }
      | _, _ => s
    | .timeout => if s.conn.online then { s with conn := .shut } else s
    | .drop => if s.conn.online then { s with conn := .off, threads := s.threads ++ [.top] } else s
    | .look => if s.conn.online then { s with sending := true } else s
    | .write =>
      if s.sending then
        if s.conn.online then { s with sending := false } else { s with crashed := true }
      else s

def exec (s : State) (evs : List Ev) : State := evs.foldl step s

end Verif.Reconnect
