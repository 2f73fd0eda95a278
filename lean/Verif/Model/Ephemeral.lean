/-! # The ephemeral key of a process

/repo/session/kx.go keeps one ephemeral key pair for the whole process: `Initiate` makes a new one, uses it where it
is, and erases it; `Init` makes a new one each minute; `Respond` copies it (kx.go:46-98, 245-316, 323-397).

Simplifications.
* A key pair is a number; 0 is an array of zeros, which is what the arrays hold at first and after erasing.
* The copying of one array, and each use of one, is one step.  Real ones are shorter and can be torn.
* The peer is honest: it answers with a ciphertext under the public key that it was sent, and with a proof over that
  key.  A ciphertext opens with the private key that goes with the public key and with no other (`KX` has the whole
  exchange).  What the network does is an argument of the step.
* `GenerateKey` does not fail and never gives the same pair twice. -/

namespace Verif.Ephemeral

inductive Kind
  | initiate
  | respond
  | rotate
  deriving DecidableEq, Repr

/-- Where a call is. -/
inductive Pc
  /-- `regenerateEphemeral`, kx.go:56-66: before Lock, the two copies, Unlock -/
  | lock | pub | priv | unlock
  /-- `Initiate`: step 2 sends the public key, kx.go:262 -/
  | hello
  /-- step 3 opens the answer with the private key, kx.go:268 -/
  | answer
  /-- step 5 checks the proof over the public key, kx.go:278 -/
  | proof
  /-- steps 6 to 10, kx.go:283-308 -/
  | rest
  /-- `zeroEphemeral` on the way out, without the lock, kx.go:69-76, 249 -/
  | zeroPub | zeroPriv
  /-- `Respond`, step 0, kx.go:325-330 -/
  | rlock | rpub | rpriv | runlock
  /-- `Respond`, steps 1 to 10, kx.go:337-395 -/
  | use
  | done
  deriving DecidableEq, Repr

structure Proc where
  kind : Kind
  pc : Pc
  /-- the key that `GenerateKey` gave this call -/
  key : Nat
  /-- the public key that `Initiate` sent -/
  sent : Option Nat
  /-- the private key that opened the answer -/
  opened : Option Nat
  /-- what the exchange came to -/
  good : Bool
  /-- the copies that `Respond` has -/
  cpub : Nat
  cpriv : Nat
  deriving DecidableEq, Repr

structure State where
  /-- `ephemeralPublic`, `ephemeralPrivate`, `ephemeralMutex`, kx.go:48-52 -/
  pub : Nat
  priv : Nat
  mutex : Option Nat
  /-- the next key of the generator -/
  next : Nat
  procs : Nat → Option Proc

/-- A process that has not called anything. -/
def start : State := ⟨0, 0, none, 1, fun _ => none⟩

/-- A server: `Init` has made the first key before the first connection is accepted, zkserver.go:844-860. -/
def served : State := ⟨1, 1, none, 2, fun _ => none⟩

def State.put (s : State) (p : Nat) (x : Proc) : State :=
  { s with procs := fun q => if q = p then some x else s.procs q }

inductive Ev
  /-- call `p` begins -/
  | begin (p : Nat) (k : Kind)
  /-- call `p` takes a step; `ok`: the connection carries what is written or read -/
  | go (p : Nat) (ok : Bool)
  deriving DecidableEq, Repr

/-- A step of a call. -/
def go (s : State) (p : Nat) (x : Proc) (ok : Bool) : Option State :=
  match x.pc with
  | .lock => if s.mutex = none then some ({ s with mutex := some p }.put p { x with pc := .pub }) else none
  | .pub => some ({ s with pub := x.key }.put p { x with pc := .priv })
  | .priv => some ({ s with priv := x.key }.put p { x with pc := .unlock })
  | .unlock => some ({ s with mutex := none }.put p { x with pc := match x.kind with | .initiate => .hello | _ => .done })
  | .hello =>
    some (if ok then s.put p { x with pc := .answer, sent := some s.pub } else s.put p { x with pc := .zeroPub })
  | .answer =>
    some (if ok && s.priv != 0 && x.sent == some s.priv then s.put p { x with pc := .proof, opened := some s.priv }
      else s.put p { x with pc := .zeroPub })
  | .proof =>
    some (if ok && x.sent == some s.pub then s.put p { x with pc := .rest } else s.put p { x with pc := .zeroPub })
  | .rest => some (s.put p { x with pc := .zeroPub, good := ok })
  | .zeroPub => some ({ s with pub := 0 }.put p { x with pc := .zeroPriv })
  | .zeroPriv => some ({ s with priv := 0 }.put p { x with pc := .done })
  | .rlock => if s.mutex = none then some ({ s with mutex := some p }.put p { x with pc := .rpub }) else none
  | .rpub => some (s.put p { x with pc := .rpriv, cpub := s.pub })
  | .rpriv => some (s.put p { x with pc := .runlock, cpriv := s.priv })
  | .runlock => some ({ s with mutex := none }.put p { x with pc := .use })
  | .use => some (s.put p { x with pc := .done, good := ok && x.cpriv != 0 && x.cpub == x.cpriv })
  | .done => none

def step (s : State) : Ev → Option State
  | .begin p k =>
    match s.procs p with
    | some _ => none
    | none =>
      match k with
      | .respond => some (s.put p ⟨k, .rlock, 0, none, none, false, 0, 0⟩)
      | _ => some ({ s with next := s.next + 1 }.put p ⟨k, .lock, s.next, none, none, false, 0, 0⟩)
  | .go p ok =>
    match s.procs p with
    | none => none
    | some x => go s p x ok

def run : State → List Ev → Option State
  | s, [] => some s
  | s, e :: es => (step s e).bind fun s' => run s' es

end Verif.Ephemeral
