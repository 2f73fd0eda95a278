/-! # The ratchet of a contact on disk, and the goroutines that use it

One client and one contact.  Sending, receiving, the steps of a key exchange and resets each read and write the files
`ratchet.xdr` and `halfratchet.xdr` (/repo/zkclient/msg.go:437-519, push.go:54-130, 293-365, 398-476, reset.go:52-71,
zkclient.go:1053-1115, 1768-1840, identity.go).

Simplifications.
* A ratchet is the number of the key exchange it comes from, and how often it has been saved since.  `Contact` and
  `RatchetConv` have the ratchet itself.
* Writing a message and saving the ratchet after it are one step: nobody else may change the file in between, and a
  reset may come before as well as after.  Reading or writing one file is one step.  The client is not killed
  (`SendCrash` and `Store` have that), and files can be read and written.
* The identity file is there. -/

namespace Verif.RatchetFile

/-- What a contact may send. -/
inductive Push
  /-- encrypted with the ratchet of an exchange -/
  | text (k : Nat)
  /-- the offer of a key exchange -/
  | offer
  /-- the answer to the offer with half ratchet `h` -/
  | answer (h : Nat)
  /-- `ProxyCmdResetRatchet` -/
  | reset
  deriving DecidableEq, Repr

inductive Result
  | sent
  /-- "Message cannot be delivered" -/
  | undelivered
  /-- the connection failed; the message stays in the queue -/
  | kept
  | shown
  /-- an error of `handlePush` -/
  | dropped
  /-- a full ratchet was saved -/
  | talking
  /-- a half ratchet was saved -/
  | offered
  | resetting
  | refused
  deriving DecidableEq, Repr

inductive Pc
  /-- `cacheCRPC`, msg.go:443-519 -/
  | sLock | sLoad | sWrite (k n : Nat)
  /-- `handlePush`, push.go:398-476: first it looks which files there are -/
  | gStart (m : Push) | gLock (m : Push) | gLoad (m : Push) | gSave (k n : Nat)
  /-- `step2IDKX`, push.go:351-363: `saveIdentity`, then the ratchet -/
  | aSaveId | aLock | aSave
  /-- `step3IDKX`, push.go:96-127 -/
  | fLock (h : Nat) | fLoad (h : Nat) | fSave (h : Nat) | fRm
  /-- `reset`, zkclient.go:1806-1822 -/
  | uRmHalf | uStat | uRm
  /-- `handleResetRatchet`, reset.go:60-70, and the end of `step1IDKX`, zkclient.go:1092-1114 -/
  | tRmHalf | tRm | tSaveId | tLock | tSave
  | unlock (r : Result)
  | done (r : Result)
  deriving DecidableEq, Repr

structure State where
  /-- ratchet.xdr -/
  full : Option (Nat × Nat)
  /-- halfratchet.xdr -/
  half : Option Nat
  /-- `ratchetMtx` -/
  mutex : Option Nat
  /-- the next key exchange -/
  next : Nat
  procs : Nat → Option Pc
  /-- the exchanges whose ratchets were saved as full ones, newest first -/
  installed : List Nat
  /-- the ratchets with which messages were encrypted that were written, oldest first -/
  uses : List (Nat × Nat)

def start : State := ⟨none, none, none, 0, fun _ => none, [], []⟩

def State.put (s : State) (p : Nat) (c : Pc) : State :=
  { s with procs := fun q => if q = p then some c else s.procs q }

/-- What may begin. -/
inductive Call
  | send
  | push (m : Push)
  | reset
  deriving DecidableEq, Repr

inductive Ev
  | begin (p : Nat) (c : Call)
  /-- `ok`: the connection carries what is written -/
  | go (p : Nat) (ok : Bool)
  deriving DecidableEq, Repr

/-- `identityExists`, identity.go:31-49. -/
def State.exists_ (s : State) : Bool := s.full.isSome || s.half.isSome

/-- `ratchetMtx.Lock()`. -/
def lock (s : State) (p : Nat) (c : Pc) : Option State :=
  if s.mutex = none then some ({ s with mutex := some p }.put p c) else none

def go (s : State) (p : Nat) (ok : Bool) : Pc → Option State
  | .sLock => lock s p .sLoad
  | .sLoad =>
    match s.full with
    | none => some (s.put p (.unlock .undelivered))
    | some (k, n) => some (s.put p (.sWrite k n))
  | .sWrite k n =>
    if ok then some ({ s with uses := s.uses ++ [(k, n)], full := some (k, n + 1) }.put p (.unlock .sent))
    else some (s.put p (.unlock .kept))
  | .gStart m =>
    if m = .reset then some (s.put p .tRmHalf)
    else if !s.exists_ then some (s.put p (if m = .offer then .aSaveId else .done .dropped))
    else if s.full = none then
      match m with
      | .answer h => some (s.put p (.fLock h))
      | _ => some (s.put p (.done .dropped))
    else some (s.put p (.gLock m))
  | .gLock m => lock s p (.gLoad m)
  | .gLoad m =>
    match s.full with
    | none => some (s.put p (.unlock .dropped))
    | some (k, n) => some (s.put p (if m = .text k then .gSave k n else .unlock .dropped))
  | .gSave k n => some ({ s with full := some (k, n + 1) }.put p (.unlock .shown))
  | .aSaveId => some (s.put p (if s.exists_ then .done .dropped else .aLock))
  | .aLock => lock s p .aSave
  | .aSave =>
    some ({ s with full := some (s.next, 0), next := s.next + 1, installed := s.next :: s.installed }.put p
      (.unlock .talking))
  | .fLock h => lock s p (.fLoad h)
  | .fLoad h => some (s.put p (if s.half = some h then .fSave h else .unlock .dropped))
  | .fSave h => some ({ s with full := some (h, 0), installed := h :: s.installed }.put p .fRm)
  | .fRm => some ({ s with half := none }.put p (.unlock .talking))
  | .uRmHalf => some ({ s with half := none }.put p .uStat)
  | .uStat => some (s.put p (if s.full = none then .done .refused else .uRm))
  | .uRm => some ({ s with full := none }.put p (.done .resetting))
  | .tRmHalf => some ({ s with half := none }.put p .tRm)
  | .tRm => some ({ s with full := none }.put p .tSaveId)
  | .tSaveId => some (s.put p (if s.exists_ then .done .dropped else .tLock))
  | .tLock => lock s p .tSave
  | .tSave => some ({ s with half := some s.next, next := s.next + 1 }.put p (.unlock .offered))
  | .unlock r => some ({ s with mutex := none }.put p (.done r))
  | .done _ => none

def step (s : State) : Ev → Option State
  | .begin p c =>
    match s.procs p with
    | some _ => none
    | none =>
      some (s.put p (match c with | .send => .sLock | .push m => .gStart m | .reset => .uRmHalf))
  | .go p ok =>
    match s.procs p with
    | none => none
    | some c => go s p ok c

def run : State → List Ev → Option State
  | s, [] => some s
  | s, e :: es => (step s e).bind fun s' => run s' es

end Verif.RatchetFile
