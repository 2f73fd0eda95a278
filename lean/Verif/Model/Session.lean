import Verif.Model.Xdr0

/-!
# session/kx.go: record layer

`incSeq`, `readWithKey`, `writeWithKey`, `Read`, `Write`.
-/

namespace Verif.Session

open Verif.Xdr

/-- `secretbox` of golang.org/x/crypto, with the functional facts that are used about it:
opening what was sealed gives the plaintext, a box is 16 bytes longer than its plaintext,
and whatever opens to `m` is the (deterministic) sealing of `m`. -/
structure SecretBox (Key : Type) where
  sealB : Key → Bytes → Bytes → Bytes
  openB : Key → Bytes → Bytes → Option Bytes
  open_seal : ∀ k n m, openB k n (sealB k n m) = some m
  seal_length : ∀ k n m, (sealB k n m).length = m.length + 16
  open_eq : ∀ k n c m, openB k n c = some m → c = sealB k n m

/-- `incSeq` loop body (kx.go:439-443): `n` is the carry, a `uint32` that never exceeds
511 here and is therefore a `Nat`. -/
def incLoop (n : Nat) : Bytes → Bytes
  | [] => []
  | b :: bs => UInt8.ofNat (n + b.toNat) :: incLoop ((n + b.toNat) / 256) bs

/-- `incSeq` (kx.go:437-444): the loop touches the first eight bytes only. -/
def incSeq (seq : Bytes) : Bytes := incLoop 1 (seq.take 8) ++ seq.drop 8

/-- Initial sequence number: zero value of `[24]byte` (kx.go:41-42). -/
def seq0 : Bytes := List.replicate 24 0

/-- Errors of the record layer (kx.go:22-28); `io` stands for the error returned by
`xdr.UnmarshalLimited`. -/
inductive Err where
  | decrypt | overflow | marshal | io
  deriving DecidableEq, Repr

/-- `writeWithKey` (kx.go:418-429). Returns the result, the new sequence number and the
bytes put on the wire. The sequence number is advanced before the size check, as in the
code. `xdr.Marshal` fails only for data of 2^32 bytes or more (connection failures are
separate events of the system model). -/
def writeWithKey {Key : Type} (B : SecretBox Key) (max : Nat) (k : Key) (seq data : Bytes) :
    Outcome Err Unit × Bytes × Bytes :=
  let payload := B.sealB k seq data
  let seq' := incSeq seq
  if payload.length > max then (.err .overflow, seq', [])
  else if payload.length ≥ 2 ^ 32 then (.err .marshal, seq', [])
  else (.ok (), seq', encOpaque payload)

/-- Result of a read attempt on the bytes that have arrived. -/
inductive ReadRes where
  | blocked
  | fail (e : Err)
  | data (m : Bytes)
  deriving DecidableEq, Repr

/-- `readWithKey` (kx.go:399-411): result, new sequence number, unread bytes. The sequence
number is advanced whenever a frame was consumed, even if it does not decrypt. -/
def readWithKey {Key : Type} (B : SecretBox Key) (max : Nat) (k : Key) (seq buf : Bytes) :
    ReadRes × Bytes × Bytes :=
  match decOpaque max buf with
  | .blocked => (.blocked, seq, buf)
  | .bad rest => (.fail .io, seq, rest)
  | .got payload rest =>
    match B.openB k seq payload with
    | some m => (.data m, incSeq seq, rest)
    | none => (.fail .decrypt, incSeq seq, rest)

/-- One direction of an established session: the writing end (`writeKey`, `writeSeq`), the
reading end (`readKey`, `readSeq`, both keys equal, see C07) and the bytes that arrived at
the reader but have not been read. The ghost fields record what happened: `written` all
`Write` calls with their result, `wire` the bytes put on the connection, `reads` the results of all `Read` calls that consumed
a frame, `ioErrs` the number of reads that failed in the XDR layer. -/
structure Dir where
  wseq : Bytes := seq0
  rseq : Bytes := seq0
  wire : Bytes := []
  buf : Bytes := []
  written : List (Bytes × Bool) := []
  reads : List (Option Bytes) := []
  ioErrs : Nat := 0
  deriving DecidableEq, Repr

/-- Events: the user writes; the network (attacker) makes arbitrary bytes arrive; the
network or a deadline discards arrived bytes; the user reads. -/
inductive Ev where
  | write (m : Bytes)
  | arrive (bs : Bytes)
  | discard (n : Nat)
  | read
  deriving DecidableEq, Repr

/-- One step of a direction whose both ends use key `k` and limit `max` (the server and
client set MaxMessageSize, zkserver.go and zkclient.go). -/
def step {Key : Type} (B : SecretBox Key) (max : Nat) (k : Key) (d : Dir) : Ev → Dir
  | .write m =>
    match writeWithKey B max k d.wseq m with
    | (.ok (), s', out) =>
      { d with wseq := s', wire := d.wire ++ out, written := d.written ++ [(m, true)] }
    | (_, s', out) =>
      { d with wseq := s', wire := d.wire ++ out, written := d.written ++ [(m, false)] }
  | .arrive bs => { d with buf := d.buf ++ bs }
  | .discard n => { d with buf := d.buf.drop n }
  | .read =>
    match readWithKey B max k d.rseq d.buf with
    | (.blocked, _, _) => d
    | (.fail .decrypt, s', rest) =>
      { d with rseq := s', buf := rest, reads := d.reads ++ [none] }
    | (.fail _, s', rest) => { d with rseq := s', buf := rest, ioErrs := d.ioErrs + 1 }
    | (.data m, s', rest) =>
      { d with rseq := s', buf := rest, reads := d.reads ++ [some m] }

/-- Run a schedule from a fresh direction. -/
def run {Key : Type} (B : SecretBox Key) (max : Nat) (k : Key) (evs : List Ev) : Dir :=
  evs.foldl (step B max k) {}

/-- Events of a session over an undisturbed connection: the network hands over the next
`n` bytes of what was written, in order. -/
inductive HEv where
  | write (m : Bytes)
  | transfer (n : Nat)
  | read
  deriving DecidableEq, Repr

/-- Step over an undisturbed connection; the state is the direction and how many bytes
of the wire have been handed over. -/
def hstep {Key : Type} (B : SecretBox Key) (max : Nat) (k : Key) (s : Dir × Nat) :
    HEv → Dir × Nat
  | .write m => (step B max k s.1 (.write m), s.2)
  | .transfer n =>
    let bs := (s.1.wire.drop s.2).take n
    (step B max k s.1 (.arrive bs), s.2 + bs.length)
  | .read => (step B max k s.1 .read, s.2)

/-- Run an undisturbed schedule from a fresh direction. -/
def hrun {Key : Type} (B : SecretBox Key) (max : Nat) (k : Key) (evs : List HEv) : Dir × Nat :=
  evs.foldl (hstep B max k) ({}, 0)

/-- The messages passed to `Write`, in order. -/
def writesOf : List HEv → List Bytes
  | [] => []
  | .write m :: es => m :: writesOf es
  | _ :: es => writesOf es

/-- A toy `SecretBox` used in examples: sixteen zero bytes ("tag") followed by nonce-free
plaintext. It shows that the laws are satisfiable; it is of course not secure. -/
def plainBox : SecretBox Unit where
  sealB _ _ m := List.replicate 16 0 ++ m
  openB _ _ c := if c.take 16 = List.replicate 16 0 then some (c.drop 16) else none
  open_seal := by
    intro k n m
    simp
  seal_length := by intro k n m; simp; try omega
  open_eq := by
    intro k n c m h
    split at h
    · rename_i hc
      simp at h
      rw [← hc, ← h, List.take_append_drop]
    · simp at h

end Verif.Session
