import Verif.Model.Common

/-!
# session/kx.go: key exchange

`Initiate` and `Respond` as sequential processes that send and receive messages.

Simplifications, all stated here once:
* Byte arrays of fixed, pairwise different length are separate types: NTRU Prime public
  keys (1218 bytes) `PK`, ciphertexts (1047 bytes) `CT`, HMAC values (32 bytes) `Mac`; a
  decrypted payload of any other length is `Payload.other`. The length checks in the code
  (kx.go:172, 214, 233) are exactly tests for these kinds.
* `hmac` takes the list of parts. The code hashes their concatenation; because of the
  fixed lengths of the parts used ([pk, pk] or [mac, pk]) the concatenation determines the
  list.
* Framing and sizes are those of `Verif.Model.Session` and not repeated; the nonce of a
  frame is its number (C03).
* Failures of the random generator are not modelled.
-/

namespace Verif.KX

/-- Parts of the data hashed by `sendProof`/`recvProof`. -/
inductive Part (PK Mac : Type) where
  | pk (p : PK)
  | mac (m : Mac)
  deriving DecidableEq, Repr

/-- Decrypted payloads by length. -/
inductive Payload (PK CT Mac : Type) where
  | pk (p : PK)
  | ct (c : CT)
  | mac (m : Mac)
  | other (b : Bytes)
  deriving DecidableEq, Repr

/-- Primitives used by the key exchange: NTRU Prime KEM, HMAC-SHA256, secretbox, the
SHA-512 key derivation and SHA-256, with the correctness laws that hold of them. -/
structure Prims where
  (PK SK CT Mac Key Rnd Frame Id : Type)
  pub : SK → PK
  encap : PK → Rnd → CT × Key
  decap : CT → SK → Option Key
  decap_encap : ∀ sk r, decap (encap (pub sk) r).1 sk = some (encap (pub sk) r).2
  hmac : Key → List (Part PK Mac) → Mac
  decMac : DecidableEq Mac
  sealF : Key → Nat → Payload PK CT Mac → Frame
  openF : Key → Nat → Frame → Option (Payload PK CT Mac)
  open_seal : ∀ k n p, openF k n (sealF k n p) = some p
  kdf : Key → Key → Key → Key → Key × Key
  sha256 : PK → Id

attribute [instance] Prims.decMac

variable (P : Prims)

/-- What travels on the connection: the unencrypted first ciphertext (kx.go:157, 177) or an
encrypted frame. -/
inductive Msg where
  | raw (c : P.CT)
  | frame (f : P.Frame)

/-- Result of a completed key exchange: `readKey`, `writeKey`, `TheirPublicKey` and the two
frame counters (kx.go:33-43). -/
structure Result where
  readKey : P.Key
  writeKey : P.Key
  theirPK : P.PK
  wseq : Nat
  rseq : Nat

/-- A sequential process on a connection. -/
inductive Proc where
  | done (r : Result P)
  | fail
  | send (m : Msg P) (k : Proc)
  | recv (k : Msg P → Proc)

/-- Counters of the connection during the exchange. -/
structure Ctr where
  w : Nat := 0
  r : Nat := 0

variable {P}

/-- `writeWithKey` (kx.go:418-429) for payloads that fit. -/
def writeWithKey (s : Ctr) (p : Payload P.PK P.CT P.Mac) (ek : P.Key) (k : Ctr → Proc P) : Proc P :=
  .send (.frame (P.sealF ek s.w p)) (k { s with w := s.w + 1 })

/-- `readWithKey` (kx.go:399-411). -/
def readWithKey (s : Ctr) (ek : P.Key) (k : Ctr → Payload P.PK P.CT P.Mac → Proc P) : Proc P :=
  .recv fun
    | .raw _ => .fail
    | .frame f =>
      match P.openF ek s.r f with
      | some p => k { s with r := s.r + 1 } p
      | none => .fail

/-- `genKeyAndSendCipher` (kx.go:149-160). -/
def genKeyAndSendCipher (s : Ctr) (rnd : P.Rnd) (pk : P.PK) (ek : Option P.Key)
    (k : Ctr → P.Key → Proc P) : Proc P :=
  let (c, key) := P.encap pk rnd
  match ek with
  | some e => writeWithKey s (.ct c) e fun s => k s key
  | none => .send (.raw c) (k s key)

/-- `recvCipherAndGetKey` (kx.go:165-183). -/
def recvCipherAndGetKey (s : Ctr) (sk : P.SK) (ek : Option P.Key)
    (k : Ctr → P.Key → Proc P) : Proc P :=
  match ek with
  | some e => readWithKey s e fun s p =>
    match p with
    | .ct c =>
      match P.decap c sk with
      | some key => k s key
      | none => .fail
    | _ => .fail
  | none => .recv fun
    | .raw c =>
      match P.decap c sk with
      | some key => k s key
      | none => .fail
    | .frame _ => .fail

/-- `sendProof` (kx.go:188-199). -/
def sendProof (s : Ctr) (mk ek : P.Key) (parts : List (Part P.PK P.Mac))
    (k : Ctr → P.Mac → Proc P) : Proc P :=
  let d := P.hmac mk parts
  writeWithKey s (.mac d) ek fun s => k s d

/-- `recvProof` (kx.go:204-223). -/
def recvProof (s : Ctr) (mk ek : P.Key) (parts : List (Part P.PK P.Mac))
    (k : Ctr → P.Mac → Proc P) : Proc P :=
  let d := P.hmac mk parts
  readWithKey s ek fun s p =>
    match p with
    | .mac rd => if d = rd then k s d else .fail
    | _ => .fail

/-- `recvEncryptedIdentity` (kx.go:227-238). -/
def recvEncryptedIdentity (s : Ctr) (ek : P.Key) (k : Ctr → P.PK → Proc P) : Proc P :=
  readWithKey s ek fun s p =>
    match p with
    | .pk q => k s q
    | _ => .fail

/-- `Initiate` (kx.go:245-316). `esk` is the fresh ephemeral key (kx.go:246), `r1`, `r3` the
randomness of the two encapsulations. -/
def initiate (ourSK esk : P.SK) (theirPK : P.PK) (r1 r3 : P.Rnd) : Proc P :=
  -- Step 1
  genKeyAndSendCipher {} r1 theirPK none fun s k1 =>
  -- Step 2
  writeWithKey s (.pk (P.pub esk)) k1 fun s =>
  -- Step 3
  recvCipherAndGetKey s esk (some k1) fun s k2 =>
  -- Step 4
  recvEncryptedIdentity s k2 fun s theirEph =>
  -- Step 5
  recvProof s k1 k2 [.pk (P.pub esk), .pk theirEph] fun s sp =>
  -- Step 6
  genKeyAndSendCipher s r3 theirEph (some k2) fun s k3 =>
  -- Step 7
  writeWithKey s (.pk (P.pub ourSK)) k3 fun s =>
  -- Step 8
  sendProof s k2 k3 [.mac sp, .pk (P.pub ourSK)] fun s cp =>
  -- Step 9
  recvCipherAndGetKey s ourSK (some k3) fun s k4 =>
  -- Step 10
  recvProof s k3 k4 [.mac cp, .pk theirPK] fun s _ =>
  let (rk, wk) := P.kdf k1 k2 k3 k4
  .done { readKey := rk, writeKey := wk, theirPK := theirPK, wseq := s.w, rseq := s.r }

/-- `Respond` (kx.go:323-397). `esk` is the copy of the current ephemeral key
(kx.go:325-330), `r2`, `r4` the randomness of the two encapsulations. -/
def respond (ourSK esk : P.SK) (r2 r4 : P.Rnd) : Proc P :=
  -- Step 1
  recvCipherAndGetKey {} ourSK none fun s k1 =>
  -- Step 2
  recvEncryptedIdentity s k1 fun s theirEph =>
  -- Step 3
  genKeyAndSendCipher s r2 theirEph (some k1) fun s k2 =>
  -- Step 4
  writeWithKey s (.pk (P.pub esk)) k2 fun s =>
  -- Step 5
  sendProof s k1 k2 [.pk theirEph, .pk (P.pub esk)] fun s sp =>
  -- Step 6
  recvCipherAndGetKey s esk (some k2) fun s k3 =>
  -- Step 7
  recvEncryptedIdentity s k3 fun s theirPK =>
  -- Step 8
  recvProof s k2 k3 [.mac sp, .pk theirPK] fun s cp =>
  -- Step 9
  genKeyAndSendCipher s r4 theirPK (some k3) fun s k4 =>
  -- Step 10
  sendProof s k3 k4 [.mac cp, .pk (P.pub ourSK)] fun s _ =>
  let (wk, rk) := P.kdf k1 k2 k3 k4
  .done { readKey := rk, writeKey := wk, theirPK := theirPK, wseq := s.w, rseq := s.r }

/-! ## Executions -/

/-- Two processes and the two directions of the connection between them. -/
structure Config (P : Prims) where
  a : Proc P
  b : Proc P
  ab : List (Msg P) := []
  ba : List (Msg P) := []

/-- One step of either side over an undisturbed connection (`net.Conn` is a reliable FIFO
byte stream; receiving waits until something is there). -/
inductive Step : Config P → Config P → Prop where
  | sendA (m k b ab ba) : Step ⟨.send m k, b, ab, ba⟩ ⟨k, b, ab ++ [m], ba⟩
  | recvA (k b ab m ba) : Step ⟨.recv k, b, ab, m :: ba⟩ ⟨k m, b, ab, ba⟩
  | sendB (m k a ab ba) : Step ⟨a, .send m k, ab, ba⟩ ⟨a, k, ab, ba ++ [m]⟩
  | recvB (k a m ab ba) : Step ⟨a, .recv k, m :: ab, ba⟩ ⟨a, k m, ab, ba⟩

/-- A process alone, fed with the messages `ins` by an arbitrary network: what it sent and
where it ended. -/
def runAlone : Proc P → List (Msg P) → List (Msg P) × Proc P
  | .send m k, ins => let (o, p) := runAlone k ins; (m :: o, p)
  | .recv k, i :: ins => runAlone (k i) ins
  | p, _ => ([], p)

end Verif.KX
