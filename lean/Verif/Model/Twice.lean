import Verif.Model.Groups

/-! # A user who has the client open twice

Two clients with the same identity: on two machines, or twice in the same directory, which nothing prevents (there is no lock
file). `Online`: what the server and the clients do about their connections, with the clock. `Shared`: the file of a group
in a directory that both use, and what each has in memory. `Keys`: the ratchet of a contact in such a directory. -/

namespace Verif.Twice

/-! ## Connections

/repo/zkserver/zkserver.go:355-388: who logs in while the account is online closes the connection of the other session, and is
then refused as well, after it was welcomed (lines 694-707). /repo/zkclient/zkclient.go:1190-1214: a client whose connection
ended starts a goroutine that reconnects; lines 1008-1037: it tries every thirty seconds, and does not end after it has
succeeded.

Simplifications: the server is there and accepts both; the session that was closed is removed at once (C37); what a client
takes for an attempt is part of `δ`; the user types neither `/offline` nor `/online`; of the goroutines that reconnect only
those are kept that may still try (one that finds the client online when its timer comes waits for ever, C92). -/

/-- The connection of a client: none; there since some time; closed by the server some time ago, which the client has not
noticed yet, so that `z.online` still holds. -/
inductive Conn where
  | off
  | up (since : Nat)
  | dead (since : Nat)
  deriving DecidableEq, Repr

/-- A client: its connection, and when the timers of its goroutines that reconnect come. -/
structure Client where
  runs : Bool
  conn : Conn
  loops : List Nat
  deriving DecidableEq, Repr

/-- The time, in milliseconds; whose session the server has; the clients; and, for the statements, the sessions that a login
has ended: whose, from when, until when. -/
structure State where
  now : Nat
  slot : Option Bool
  cl : Bool → Client
  log : List (Bool × Nat × Nat)

def init : State := ⟨0, none, fun _ => ⟨false, .off, []⟩, []⟩

/-- The timer of zkclient.go:1009. -/
def pause : Nat := 30000

def State.put (s : State) (c : Bool) (x : Client) : State := { s with cl := fun b => if b = c then x else s.cl b }

/-- The connection of a client is closed by the server. -/
def Conn.close (now : Nat) : Conn → Conn
  | .up _ => .dead now
  | x => x

/-- A client logs in: zkserver.go:354-388. -/
def login (s : State) (c : Bool) : State :=
  match s.slot with
  | none => { s.put c { s.cl c with conn := .up s.now } with slot := some c }
  | some o =>
    let t := match (s.cl o).conn with
      | .up u => u
      | _ => s.now
    let s' := s.put o { s.cl o with conn := (s.cl o).conn.close s.now }
    { s'.put c { s'.cl c with conn := .dead s.now } with slot := none, log := s.log ++ [(o, t, s.now)] }

inductive Ev where
  /-- time passes -/
  | pass (d : Nat)
  /-- the client is started, zkclient.go:2205-2208 -/
  | start (c : Bool)
  /-- the user leaves it -/
  | quit (c : Bool)
  /-- a timer comes that was set to `d`, zkclient.go:1019-1034 -/
  | fire (c : Bool) (d : Nat)
  /-- the client notices that its connection was closed, zkclient.go:1193-1213 -/
  | notice (c : Bool)
  deriving DecidableEq, Repr

/-- At the time `t` nothing of this client has been due for longer than `δ`. -/
def Client.inTime (x : Client) (t δ : Nat) : Bool :=
  x.loops.all (fun d => decide (t ≤ d + δ)) &&
    match x.conn with
    | .dead w => decide (t ≤ w + δ)
    | _ => true

/-- A step. `none`: cannot happen. Timers and closed connections are noticed within `δ`. -/
def step (δ : Nat) (s : State) : Ev → Option State
  | .pass d =>
    if (s.cl false).inTime (s.now + d) δ && (s.cl true).inTime (s.now + d) δ then some { s with now := s.now + d }
    else none
  | .start c => if (s.cl c).runs then none else some (login (s.put c ⟨true, .off, []⟩) c)
  | .quit c => some { s.put c ⟨false, .off, []⟩ with slot := if s.slot = some c then none else s.slot }
  | .fire c d =>
    if d ∈ (s.cl c).loops ∧ d ≤ s.now then
      let rest := (s.cl c).loops.erase d
      if (s.cl c).conn = .off then some (login (s.put c { s.cl c with loops := rest ++ [s.now + pause] }) c)
      else some (s.put c { s.cl c with loops := rest })
    else none
  | .notice c =>
    match (s.cl c).conn with
    | .dead _ => some (s.put c { s.cl c with conn := .off, loops := (s.cl c).loops ++ [s.now + pause] })
    | _ => none

inductive Run (δ : Nat) : State → List Ev → State → Prop
  | nil (s) : Run δ s [] s
  | cons {s e s' es s''} : step δ s e = some s' → Run δ s' es s'' → Run δ s (e :: es) s''

end Verif.Twice

/-! ## A group in one directory -/

namespace Verif.Twice.Shared

open Verif Groups

/-- What the administrator does to a group: removes a member (groupchat.go:225-376; here when the last acknowledgement has
come), or lets one in (push.go:764-834, zkclient.go:1918-1939). -/
inductive Change where
  | kick (who : Id)
  | join (who : Id)
  deriving DecidableEq, Repr

def Change.apply (g : GroupList) : Change → GroupList
  | .kick w => ⟨g.name, inc g.gen, g.members.filter (· ≠ w)⟩
  | .join w => ⟨g.name, inc (inc g.gen), g.members ++ [w]⟩

/-- The file; what each of the clients has in memory (`none`: it does not run). -/
structure State where
  file : GroupList
  mem : Bool → Option GroupList

/-- A client is started, which reads the file (zkclient.go:1941-1980); ends; or changes the group, and writes it
(groupchat.go:64-84). -/
inductive Ev where
  | start (c : Bool)
  | quit (c : Bool)
  | change (c : Bool) (x : Change)
  deriving DecidableEq, Repr

def step (s : State) : Ev → State
  | .start c => { s with mem := fun b => if b = c then some s.file else s.mem b }
  | .quit c => { s with mem := fun b => if b = c then none else s.mem b }
  | .change c x =>
    match s.mem c with
    | none => s
    | some g => ⟨x.apply g, fun b => if b = c then some (x.apply g) else s.mem b⟩

def run (s : State) (es : List Ev) : State := es.foldl step s

end Verif.Twice.Shared

/-! ## A ratchet in one directory -/

namespace Verif.Twice.Keys

/-- The file of a ratchet, whose states are numbered; what each of the clients has loaded to send with it, if anything, and
whether that was sent (both can be online in turn); the states with which messages were sent. `cacheCRPC`, /repo/zkclient/msg.go:437-519: load, encrypt,
write, save, all under a lock of the process. -/
structure State where
  file : Nat
  held : Bool → Option (Nat × Bool)
  sent : List Nat

inductive Ev where
  | load (c : Bool)
  | write (c : Bool)
  | save (c : Bool)
  deriving DecidableEq, Repr

/-- A step. `none`: cannot happen. -/
def step (s : State) : Ev → Option State
  | .load c =>
    match s.held c with
    | none => some { s with held := fun b => if b = c then some (s.file, false) else s.held b }
    | some _ => none
  | .write c =>
    match s.held c with
    | some (n, false) => some { s with held := fun b => if b = c then some (n, true) else s.held b, sent := s.sent ++ [n] }
    | _ => none
  | .save c =>
    match s.held c with
    | some (n, true) => some { s with file := n + 1, held := fun b => if b = c then none else s.held b }
    | _ => none

inductive Run : State → List Ev → State → Prop
  | nil (s) : Run s [] s
  | cons {s e s' es s''} : step s e = some s' → Run s' es s'' → Run s (e :: es) s''

def init : State := ⟨0, fun _ => none, []⟩

end Verif.Twice.Keys
