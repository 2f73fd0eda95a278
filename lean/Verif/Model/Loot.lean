import Verif.Model.KXNet

/-!
# session/kx.go: what is stolen after an exchange

The network of `Verif.Model.KXNet` with a thief: besides the private keys of identities it gets hold of ephemeral private keys,
those of clients (kx.go:246-249, `zeroEphemeral` at the end of `Initiate`) and those of servers (kx.go:56-102, replaced every
minute; the copy in kx.go:325-330 is erased by nobody). What is stolen is used at once, against all exchanges that go on.

Simplifications: as in KXNet. The four keys of an exchange and the session keys themselves are not stolen: they are in memory
as long as the session lasts.
-/

namespace Verif.Loot

open Verif.KX Verif.KXNet

/-- What the thief knows: `KXNet.Know`, with any private key that is lost. -/
inductive Know (lost : KeyName → Prop) (net : M → Prop) : Term → Prop
  | msg {m} : net m → Know lost net (ofMsg m)
  | lost {x} : lost x → Know lost net (.sk x)
  | ownSk (n) : Know lost net (.sk (.adv n))
  | ownRnd (n) : Know lost net (.rnd (.adv n))
  | pk (p) : Know lost net (.pay (.pk p))
  | other (b) : Know lost net (.pay (.other b))
  | encapC {p r} : Know lost net (.rnd r) → Know lost net (.pay (.ct (p, r)))
  | encapK {r} : Know lost net (.rnd r) → Know lost net (.key (.kem r))
  | decap {p r} : Know lost net (.sk p) → Know lost net (.pay (.ct (p, r))) → Know lost net (.rnd r)
  | encrypt {k n p} : Know lost net (.key k) → Know lost net (.pay p) → Know lost net (.frame (k, n, p))
  | decrypt {k n p} : Know lost net (.key k) → Know lost net (.frame (k, n, p)) → Know lost net (.pay p)
  | hmac {k l} : Know lost net (.key k) → (∀ x ∈ l, Know lost net (ofPart x)) →
      Know lost net (.pay (.mac (SMac.of k l)))
  | kdf {s k1 k2 k3 k4} : Know lost net (.key k1) → Know lost net (.key k2) → Know lost net (.key k3) →
      Know lost net (.key k4) → Know lost net (.key (.kdf s k1 k2 k3 k4))

/-- The exchanges and the keys that are lost. -/
structure State where
  on : KXNet.State
  lost : List KeyName

def State.Knows (s : State) (t : Term) : Prop := Know (· ∈ s.lost) s.on.net t

/-- One step. -/
inductive Step : State → State → Prop
  | start (s : State) (role : Role) : Step s { s with on := { s.on with runs := s.on.runs ++ [⟨role, [], []⟩] } }
  | deliver (s : State) (j : Nat) (r : Run) (m : M) : s.on.runs[j]? = some r → s.Knows (ofMsg m) →
      Step s { s with on := { s.on with runs := s.on.runs.set j { r with ins := r.ins ++ [m] } } }
  | write (s : State) (j : Nat) (r : Run) (b : Bytes) : s.on.runs[j]? = some r → (result j r).isSome →
      Step s { s with on := { s.on with runs := s.on.runs.set j { r with data := r.data ++ [b] } } }
  /-- a private key is stolen -/
  | lose (s : State) (x : KeyName) : Step s { s with lost := x :: s.lost }

inductive Steps : State → State → Prop
  | refl (s) : Steps s s
  | tail {s t u} : Steps s t → Step t u → Steps s u

/-- The thief comes to a network in which the private keys of some identities are lost already. -/
def after (s : KXNet.State) : State := ⟨s, s.leaked.map .long⟩

end Verif.Loot
