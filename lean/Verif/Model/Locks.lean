/-! # Locks of the client and of the server

Goroutines as sequences of what can make them wait: taking a lock, handing work to the goroutine that owns the screen
(`ttk.Queue`), waiting for it, and waiting for the other end of the connection.  Everything between is left out.

* Locks are numbered; 0-6 are those of the client, 10-14 those of the server.
* A Go `sync.RWMutex`: readers share it, a writer has it alone, and readers that come after a waiting writer wait.
* `ttk.Queue` hands over a closure; closures are run one after the other by the goroutine of the screen.  The source
  of ttk is not part of the repository: how many closures can be queued is a parameter (`cap`, `none`: any number).
* Operations on files and everything else that needs neither a lock nor another goroutine ends.
* `z.hi <- m` (/repo/zkclient/msg.go:204-251) waits for the goroutine that empties the channel into a slice; that one
  only ever takes `mtx`.  It is modelled as taking `mtx`. -/

namespace Verif.Locks

/-- What the goroutine of the screen is given. -/
inductive Closure
  /-- `printf`, /repo/zkclient/zkclient.go:153-196. -/
  | print
  /-- `focus`, zkclient.go:242-279; `bad`: there is no such window. -/
  | focus (bad : Bool)
  /-- `page`, mainwindow.go:259-270, and the status line, zkclient.go:2216-2223. -/
  | page
  /-- A list for a new conversation, zkclient.go:361-371 and 420-430. -/
  | list
  deriving DecidableEq, Repr

inductive Op
  /-- `Lock` -/
  | acq (l : Nat)
  /-- `RLock` -/
  | racq (l : Nat)
  /-- `Unlock`, `RUnlock` -/
  | rel (l : Nat)
  /-- `ttk.Queue`. -/
  | queue (k : Closure)
  /-- `ttk.Queue`, and then wait for the closure. -/
  | ask (k : Closure)
  /-- Read from or write to the connection. -/
  | net
  deriving DecidableEq, Repr

/-- `z.ratchetMtx` -/
abbrev ratchet : Nat := 0
/-- `z.pendingIdentitiesMutex` -/
abbrev pending : Nat := 1
/-- `z` itself. -/
abbrev zkc : Nat := 2
/-- `z.write` -/
abbrev tick : Nat := 3
/-- `mtx` in `scheduler`. -/
abbrev mtx : Nat := 4
/-- The address book. -/
abbrev book : Nat := 5
/-- The log file, /repo/debug/debug.go:110-150. -/
abbrev log : Nat := 6

/-- What the closures do. -/
def Closure.ops : Closure → List Op
  | .print => [.acq zkc, .acq log, .rel log, .rel zkc]
  | .focus true => [.acq zkc, .queue .print, .rel zkc]
  | .focus false => [.acq zkc, .rel zkc]
  | .page => [.racq zkc, .rel zkc]
  | .list => [.acq zkc, .rel zkc]

/-- A goroutine: what it still does; the locks it holds, `true` if for writing; whether it is waiting in `Lock`;
whether the closure it waits for is queued. -/
structure Thread where
  prog : List Op
  held : List (Nat × Bool) := []
  wait : Bool := false
  asked : Bool := false
  deriving DecidableEq, Repr

/-- Whether the other end of the connection a goroutine uses answers; how many closures can be queued. -/
structure Cfg where
  srv : Nat → Bool
  cap : Option Nat

structure State where
  threads : List Thread
  /-- The goroutine of the screen. -/
  ui : Thread
  /-- Who waits for the closure it runs. -/
  owner : Option Nat
  queue : List (Option Nat × Closure)
  deriving DecidableEq, Repr

/-- Goroutines that are about to start.  That a goroutine is started later is the same as that it waits. -/
def start (gs : List (List Op)) : State := ⟨gs.map fun g => ⟨g, [], false, false⟩, ⟨[], [], false, false⟩, none, []⟩

def State.all (s : State) : List Thread := s.ui :: s.threads

/-- Nobody has the lock. -/
def State.free (s : State) (l : Nat) : Bool := s.all.all fun t => t.held.all fun h => h.1 != l

/-- Nobody has it for writing or waits to have it so. -/
def State.readable (s : State) (l : Nat) : Bool :=
  s.all.all fun t => t.held.all (fun h => h != (l, true)) && !(t.wait && t.prog.head? == some (.acq l))

/-- One more closure can be queued. -/
def State.room (c : Cfg) (s : State) : Bool :=
  match c.cap with
  | none => true
  | some k => decide (s.queue.length < k)

/-- The next step of a goroutine, and what it puts into the queue; `none`: it waits, or is at its end. -/
def act (c : Cfg) (s : State) (me : Option Nat) (t : Thread) : Option (Thread × List (Option Nat × Closure)) :=
  match t.prog with
  | [] => none
  | .acq l :: r =>
    if t.wait then if s.free l then some ({ t with prog := r, held := (l, true) :: t.held, wait := false }, []) else none
    else some ({ t with wait := true }, [])
  | .racq l :: r => if s.readable l then some ({ t with prog := r, held := (l, false) :: t.held }, []) else none
  | .rel l :: r => some ({ t with prog := r, held := t.held.filter fun h => h.1 != l }, [])
  | .queue k :: r => if s.room c then some ({ t with prog := r }, [(none, k)]) else none
  | .ask k :: _ =>
    if t.asked then none else if s.room c then some ({ t with asked := true }, [(me, k)]) else none
  | .net :: r => if me.elim false c.srv then some ({ t with prog := r }, []) else none

inductive Move
  | run (i : Nat)
  | ui
  deriving DecidableEq, Repr

/-- One step of one goroutine.  The screen: when a closure is done, tell who waits for it (`done <- struct{}{}`), then
take the next. -/
def step (c : Cfg) (s : State) : Move → Option State
  | .run i =>
    match s.threads[i]? with
    | none => none
    | some t =>
      match act c s (some i) t with
      | none => none
      | some (t', q) => some { s with threads := s.threads.set i t', queue := s.queue ++ q }
  | .ui =>
    match s.ui.prog, s.owner with
    | [], none =>
      match s.queue with
      | [] => none
      | (o, k) :: q => some { s with ui := { s.ui with prog := k.ops }, owner := o, queue := q }
    | [], some i =>
      match s.threads[i]? with
      | some t =>
        match t.prog with
        | .ask _ :: r =>
          if t.asked then some { s with threads := s.threads.set i { t with prog := r, asked := false }, owner := none }
          else none
        | _ => none
      | none => none
    | _ :: _, _ =>
      match act c s none s.ui with
      | none => none
      | some (t', q) => some { s with ui := t', queue := s.queue ++ q }

def exec (c : Cfg) (s : State) : List Move → Option State
  | [] => some s
  | m :: ms => (step c s m).bind fun s' => exec c s' ms

/-! ## The client -/

/-- `n` lines printed. -/
def prints (n : Nat) : List Op := List.replicate n (.queue .print)

/-- `n` messages scheduled. -/
def sched : Nat → List Op
  | 0 => []
  | n + 1 => .acq mtx :: .rel mtx :: sched n

/-- `n` lines in the log. -/
def logs : Nat → List Op
  | 0 => []
  | n + 1 => .acq log :: .rel log :: logs n

/-- Members of a group, each looked up and printed, /repo/zkclient/zkclient.go:549-565. -/
def members : Nat → List Op
  | 0 => []
  | n + 1 => .racq book :: .rel book :: .queue .print :: members n

/-- `writeMessage`, /repo/zkclient/zkclient.go:1843-1885. -/
def write : List Op := [.racq zkc, .rel zkc, .net, .acq tick, .rel tick]

/-- What goroutines of the client do between two moments at which they hold no lock. -/
inductive Body
  /-- `PrintfT`, `PrintfTS`, zkclient.go:113-119. -/
  | print
  /-- `FloodfT`, zkclient.go:124-151, after its first line. -/
  | flood (n : Nat)
  /-- `nextConversation`, `prevConversation`, zkclient.go:296-340; `query` of an open window, 467-479. -/
  | switch
  /-- `focus`, zkclient.go:242. -/
  | focus (bad : Bool)
  /-- `page`, mainwindow.go:258; the status line, zkclient.go:2214. -/
  | page
  /-- `groupConversation`, zkclient.go:342-401. -/
  | groupConversation (known new : Bool)
  /-- `getConversation`, zkclient.go:403-465. -/
  | getConversation (new : Bool)
  /-- `listConversations`, zkclient.go:499-517; `handleJanitorMessage`, reset.go:40-47. -/
  | list (n : Nat)
  /-- `listGroupchat`, zkclient.go:526-570. -/
  | listGroup (n : Nat)
  /-- `goOnline`, zkclient.go:954-988: connect, key exchange, welcome. -/
  | goOnline (n : Nat)
  /-- `isOnline` msg.go:431-435; `goOnlineRetry` zkclient.go:1012-1025; `diffGroupList` push.go:1052; `/kx`, `/m`, `/me`. -/
  | look
  /-- `/online`, `/offline`, `/acceptnewcert`, mainwindow.go:389-427; the end of `handleRPC`, zkclient.go:1197-1201;
  `Acknowledge` 1441-1450; `loadGroupchat` 1967-1977; `gcNew`, groupchat.go:80-100. -/
  | change
  /-- `handleDisabledUser`, zkclient.go:1119-1178. -/
  | disabled (n : Nat)
  /-- The heartbeat and `Pong`, zkclient.go:1222-1271, 1336-1339. -/
  | tick
  /-- `scheduleCRPC`, `schedulePRPC`, msg.go:204-251, and the queues of the scheduler, 60-190. -/
  | schedule
  /-- `cacheCRPC` for a contact without a ratchet, msg.go:437-457. -/
  | cacheNone
  /-- `cacheCRPC`, msg.go:437-519. -/
  | cache
  /-- `handlePush`, push.go:453-476; key exchanges, push.go:96-127, 239-245, 357-363, zkclient.go:1107-1115,
  acceptclientfingerprint.go:196-203. -/
  | ratchet
  /-- `writeMessage` without a lock, msg.go:172. -/
  | write
  /-- `kx.Read`, zkclient.go:1288. -/
  | read
  /-- `find`, zkclient.go:1735-1765. -/
  | find
  /-- `IdentityFindReply`, zkclient.go:1492-1494. -/
  | found
  /-- `FindNick`, `FindIdentity`, `All`, addressbook/addressbook.go:90-150. -/
  | lookup
  /-- `Add`, `Del`, addressbook.go:45-87. -/
  | book
  /-- `gcInvite`, `gcPart`, `gcMessage`, groupchat.go:131-167, 395-431, 496-540. -/
  | groupRead (n m : Nat)
  /-- `gcJoin`, `gcKick`, `gcPartForce`, `gcKill`, groupchat.go:172-494; `handleGroupJoin`, `handleGroupPart`,
  `handleGroupKick`, `handleGroupKill`, `updateGroupList`, `handleGroupMessage`, push.go:764-1047, 1218-1273,
  zkclient.go:1883-1917. -/
  | groupWrite (lookup : Bool) (l n m : Nat)
  /-- `/wc` and `closeAll`, mainwindow.go:633-651, 770-777. -/
  | close
  /-- Debug messages. -/
  | log
  deriving DecidableEq, Repr

def Body.ops : Body → List Op
  | .print => [.queue .print]
  | .flood n => [.racq zkc, .rel zkc] ++ prints n
  | .switch => [.racq zkc, .queue (.focus false), .rel zkc]
  | .focus bad => [.queue (.focus bad)]
  | .page => [.queue .page]
  | .groupConversation known new =>
    [.racq zkc, .rel zkc] ++ if known then .ask .list :: .acq zkc :: (prints (if new then 2 else 0) ++ [.rel zkc]) else []
  | .getConversation new => .ask .list :: .acq zkc :: (prints (if new then 2 else 0) ++ [.rel zkc])
  | .list n => .racq zkc :: (prints n ++ [.rel zkc])
  | .listGroup n => .racq zkc :: .queue .print :: (members n ++ [.rel zkc])
  | .goOnline n => .acq zkc :: (List.replicate n .net ++ [.rel zkc])
  | .look => [.racq zkc, .rel zkc]
  | .change => [.acq zkc, .rel zkc]
  | .disabled n => .racq Locks.book :: .rel Locks.book :: .acq zkc :: (prints n ++ [.rel zkc])
  | .tick => [.acq Locks.tick, .rel Locks.tick]
  | .schedule => sched 1
  | .cacheNone => [.racq zkc, .rel zkc, .acq Locks.ratchet] ++ prints 2 ++ [.rel Locks.ratchet]
  | .cache => [.racq zkc, .rel zkc, .acq Locks.ratchet, .acq zkc, .rel zkc] ++ Locks.write ++ [.rel Locks.ratchet]
  | .ratchet => [.acq Locks.ratchet, .rel Locks.ratchet]
  | .write => Locks.write
  | .read => [.net]
  | .find => .acq pending :: (sched 1 ++ [.rel pending])
  | .found => [.acq pending, .rel pending]
  | .lookup => [.racq Locks.book, .rel Locks.book]
  | .book => [.acq Locks.book, .rel Locks.book]
  | .groupRead n m => .racq zkc :: (sched n ++ prints m ++ [.rel zkc])
  | .groupWrite f l n m =>
    .acq zkc :: ((if f then [.racq Locks.book, .rel Locks.book] else []) ++ logs l ++ sched n ++ prints m ++ [.rel zkc])
  | .close => [.acq zkc, .queue (.focus false), .rel zkc]
  | .log => logs 1

/-- A goroutine of the client. -/
def client (bs : List Body) : List Op := bs.flatMap Body.ops

/-! ## The server -/

/-- `z`, /repo/zkserver/zkserver.go: the sessions. -/
abbrev sessions : Nat := 10
/-- `a`, /repo/zkserver/account/account.go. -/
abbrev account : Nat := 11
/-- `sc`, the tags of a session. -/
abbrev tags : Nat := 12
/-- `ephemeralMutex`, /repo/session/kx.go. -/
abbrev ephemeral : Nat := 13
/-- The log file. -/
abbrev slog : Nat := 14

/-- What goroutines of the server do between two moments at which they hold no lock.  `wait` is everything for which a
client may let them wait: reads and writes, `sc.writer <-`, `tagStack.Pop`, `dn.send`. -/
inductive Part
  /-- /repo/zkserver/zkserver.go:365-377, 387-389, 414-416, 763-769. -/
  | sessions
  /-- /repo/zkserver/account/account.go:194-227, 247, 268, 340, 366, 396-454. -/
  | account
  /-- /repo/zkserver/zkserver.go:298-325, 516-518, 548-550. -/
  | tags
  /-- /repo/session/kx.go:61-64, 327-330. -/
  | ephemeral
  /-- Debug messages. -/
  | log
  /-- Wait for the client. -/
  | wait
  deriving DecidableEq, Repr

def Part.ops : Part → List Op
  | .sessions => [.acq Locks.sessions, .acq slog, .rel slog, .rel Locks.sessions]
  | .account => [.acq Locks.account, .rel Locks.account]
  | .tags => [.acq Locks.tags, .rel Locks.tags]
  | .ephemeral => [.acq Locks.ephemeral, .rel Locks.ephemeral]
  | .log => [.acq slog, .rel slog]
  | .wait => [.net]

/-- A goroutine of the server. -/
def server (ps : List Part) : List Op := ps.flatMap Part.ops

end Verif.Locks
