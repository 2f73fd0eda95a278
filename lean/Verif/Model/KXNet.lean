import Verif.Model.KX

/-!
# session/kx.go: any number of key exchanges and an attacker

Clients and servers run `Initiate` and `Respond` (`Verif.Model.KX`) any number of times, at the same time, with
whomever they like. The attacker is the network: it sees everything that is sent, and everything that is received
comes from it. It can compute whatever follows from what it knows, and over time it gets hold of long-term keys.

Cryptography is symbolic: keys, ciphertexts, codes and frames are terms, and the attacker's computations are the
rules of `Know`.

Simplifications.

* Randomness and the ephemeral key of an initiator (kx.go:246) are named by the number of the run: the generator
  never repeats itself. The ephemeral key of a responder is that of the server at the time, which other runs may use
  as well (kx.go:325-330).
* An encapsulated key is a hash of the randomness, as it is in Streamlined NTRU Prime: it does not depend on the
  recipient, and whoever has the private key learns the randomness and can encapsulate the same key to somebody else.
* The ephemeral keys are not stored and are erased (kx.go:69-78); the attacker does not get hold of them.
* After a completed exchange a side can write messages; that it reads is of no consequence here.
* The TLS connection around all this is left out: the attacker may open connections itself.
-/

namespace Verif.KXNet

open Verif.KX

/-- Key pairs by their origin. -/
inductive KeyName where
  /-- the long-term key of an identity -/
  | long (i : Nat)
  /-- the ephemeral key of the initiator in a run -/
  | cli (run : Nat)
  /-- an ephemeral key of a server -/
  | srv (e : Nat)
  /-- made by the attacker -/
  | adv (n : Nat)
  deriving DecidableEq, Repr

/-- Randomness of an encapsulation: the first or second one of a run, or chosen by the attacker. -/
inductive Rnd where
  | own (run : Nat) (second : Bool)
  | adv (n : Nat)
  deriving DecidableEq, Repr

/-- Keys. -/
inductive SKey where
  /-- the key of an encapsulation, which depends on its randomness only -/
  | kem (r : Rnd)
  | kdf (side : Bool) (k1 k2 k3 k4 : SKey)
  deriving DecidableEq, Repr

/-- Authentication codes. -/
inductive SMac where
  | key (k : SKey)
  | consPk (p : KeyName) (rest : SMac)
  | consMac (m rest : SMac)
  deriving DecidableEq, Repr

/-- HMAC of parts. -/
def SMac.of (k : SKey) : List (Part KeyName SMac) → SMac
  | [] => .key k
  | .pk p :: l => .consPk p (SMac.of k l)
  | .mac m :: l => .consMac m (SMac.of k l)

abbrev Pay := Payload KeyName (KeyName × Rnd) SMac

/-- The symbolic primitives. -/
@[reducible] def Sym : Prims where
  PK := KeyName
  SK := KeyName
  CT := KeyName × Rnd
  Mac := SMac
  Key := SKey
  Rnd := Rnd
  Frame := SKey × Nat × Pay
  Id := KeyName
  pub sk := sk
  encap pk r := ((pk, r), .kem r)
  decap c sk := if c.1 = sk then some (.kem c.2) else none
  decap_encap := by intro sk r; simp
  hmac := SMac.of
  decMac := inferInstance
  sealF k n p := (k, n, p)
  openF k n f := if f.1 = k ∧ f.2.1 = n then some f.2.2 else none
  open_seal := by intro k n p; simp
  kdf k1 k2 k3 k4 := (.kdf false k1 k2 k3 k4, .kdf true k1 k2 k3 k4)
  sha256 p := p

abbrev M := Msg Sym

/-- What the attacker can know. -/
inductive Term where
  | sk (x : KeyName)
  | rnd (r : Rnd)
  | key (k : SKey)
  | pay (p : Pay)
  | frame (f : SKey × Nat × Pay)
  deriving DecidableEq

/-- A message as a term. -/
def ofMsg : M → Term
  | .raw c => .pay (.ct c)
  | .frame f => .frame f

/-- The part of a hash input as a term. -/
def ofPart : Part KeyName SMac → Term
  | .pk p => .pay (.pk p)
  | .mac m => .pay (.mac m)

/-- What the attacker knows, given the long-term keys it has got hold of and what has been sent. -/
inductive Know (leak : Nat → Prop) (net : M → Prop) : Term → Prop
  | msg {m} : net m → Know leak net (ofMsg m)
  | leaked {i} : leak i → Know leak net (.sk (.long i))
  | ownSk (n) : Know leak net (.sk (.adv n))
  | ownRnd (n) : Know leak net (.rnd (.adv n))
  /-- public keys are public -/
  | pk (p) : Know leak net (.pay (.pk p))
  | other (b) : Know leak net (.pay (.other b))
  | encapC {p r} : Know leak net (.rnd r) → Know leak net (.pay (.ct (p, r)))
  | encapK {r} : Know leak net (.rnd r) → Know leak net (.key (.kem r))
  /-- decapsulation recovers the randomness -/
  | decap {p r} : Know leak net (.sk p) → Know leak net (.pay (.ct (p, r))) → Know leak net (.rnd r)
  | encrypt {k n p} : Know leak net (.key k) → Know leak net (.pay p) → Know leak net (.frame (k, n, p))
  | decrypt {k n p} : Know leak net (.key k) → Know leak net (.frame (k, n, p)) → Know leak net (.pay p)
  | hmac {k l} : Know leak net (.key k) → (∀ x ∈ l, Know leak net (ofPart x)) →
      Know leak net (.pay (.mac (SMac.of k l)))
  | kdf {s k1 k2 k3 k4} : Know leak net (.key k1) → Know leak net (.key k2) → Know leak net (.key k3) →
      Know leak net (.key k4) → Know leak net (.key (.kdf s k1 k2 k3 k4))

/-- An initiator with identity `a` and the public key of its peer, or a responder with identity `b` and ephemeral
key `e`. -/
inductive Role where
  | init (a : Nat) (peer : KeyName)
  | resp (b e : Nat)
  deriving DecidableEq, Repr

/-- A run: its role, what it has received, and what it has written after completing. -/
structure Run where
  role : Role
  ins : List M
  data : List Bytes

/-- The program of run `j`. -/
def proc (j : Nat) : Role → Proc Sym
  | .init a peer => initiate (P := Sym) (.long a) (.cli j) peer (.own j false) (.own j true)
  | .resp b e => respond (P := Sym) (.long b) (.srv e) (.own j false) (.own j true)

/-- What run `j` has computed, if it has completed. -/
def result (j : Nat) (r : Run) : Option (Result Sym) :=
  match (runAlone (proc j r.role) r.ins).2 with
  | .done x => some x
  | _ => none

/-- The frames of the messages written (kx.go:413-429), with increasing numbers. -/
def dataFrames (k : SKey) (n : Nat) : List Bytes → List M
  | [] => []
  | b :: l => .frame (k, n, .other b) :: dataFrames k (n + 1) l

/-- Everything that run `j` has sent. -/
def outs (j : Nat) (r : Run) : List M :=
  (runAlone (proc j r.role) r.ins).1 ++
    match result j r with
    | some x => dataFrames x.writeKey x.wseq r.data
    | none => []

/-- All runs so far, by number, and the long-term keys the attacker has. -/
structure State where
  runs : List Run
  leaked : List Nat

/-- A message that has been sent. -/
def State.net (s : State) (m : M) : Prop := ∃ j r, s.runs[j]? = some r ∧ m ∈ outs j r

/-- What the attacker knows in a state. -/
def State.Knows (s : State) (t : Term) : Prop := Know (· ∈ s.leaked) s.net t

/-- One step. -/
inductive Step : State → State → Prop
  /-- somebody starts a run -/
  | start (s : State) (role : Role) : Step s { s with runs := s.runs ++ [⟨role, [], []⟩] }
  /-- the attacker gives a message to a run -/
  | deliver (s : State) (j : Nat) (r : Run) (m : M) : s.runs[j]? = some r → s.Knows (ofMsg m) →
      Step s { s with runs := s.runs.set j { r with ins := r.ins ++ [m] } }
  /-- a run that has completed writes a message -/
  | write (s : State) (j : Nat) (r : Run) (b : Bytes) : s.runs[j]? = some r → (result j r).isSome →
      Step s { s with runs := s.runs.set j { r with data := r.data ++ [b] } }
  /-- the attacker gets hold of a long-term key -/
  | leak (s : State) (i : Nat) : Step s { s with leaked := i :: s.leaked }

/-- Executions. -/
inductive Steps : State → State → Prop
  | refl (s) : Steps s s
  | tail {s t u} : Steps s t → Step t u → Steps s u

/-- States that can occur. -/
def Reach (s : State) : Prop := Steps ⟨[], []⟩ s

end Verif.KXNet
