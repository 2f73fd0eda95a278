import Verif.Model.Chunks

/-! # Sending a file that others change: zkclient/send.go

`send` and `completeSend` open the file once and then read it three times: for its type, for its digest, and for
the chunks. Between any two reads other programs may put anything into the file (`Ev.change`); an open file is
followed, so putting another file in its place changes nothing. Each read gives a part of what is there at that
time. The parameters of the server are read again for each chunk, and may have changed (`cs` in the events).
What the scheduler does with the messages is in `Verif.Model.Scheduler`; here they are listed in the order in
which they are given to it. -/

namespace Verif.Upload

open Verif Chunks

/-- What is fixed: the digest, `http.DetectContentType`, the allowed size of a file, the path and the
description. -/
structure Cfg where
  H : Bytes → Digest
  T : Bytes → Bytes
  att : Nat
  file : Bytes
  descr : Bytes

/-- What the user sees. -/
inductive Told where
  /-- `file too large`, /repo/zkclient/send.go:66-69 -/
  | large
  /-- `could not obtain mime type`, lines 73-77; also any other error of `send` -/
  | noType
  /-- `send failed`, lines 108-113, 118-124, 134-140 -/
  | failed
  /-- `Send completed`, line 157 -/
  | completed
  deriving DecidableEq, Repr

/-- Where the sender is. -/
inductive Pc where
  /-- `os.Open` is done, line 55. -/
  | opened
  /-- The size is known and allowed, line 70. -/
  | sized (n : Nat)
  /-- `io.Copy` has given `acc` to the digest, lines 105-107; the announcement is complete but for the digest. -/
  | digest (n cs : Nat) (mime acc : Bytes)
  /-- The loop of lines 129-155, `off` bytes have been sent. -/
  | sending (d : Digest) (off : Nat)
  | over
  /-- The program has crashed. -/
  | dead
  deriving DecidableEq, Repr

/-- `cur`: what is in the file now; `out`: the messages for the other side; `told`: what the user was told. -/
structure State where
  cur : Bytes
  pc : Pc
  out : List Msg
  told : List Told
  deriving DecidableEq, Repr

/-- The state after `os.Open`. -/
def start (b : Bytes) : State := ⟨b, .opened, [], []⟩

/-- What happens. `k` is the number of bytes that a read gives. -/
inductive Ev where
  /-- somebody changes the file -/
  | change (b : Bytes)
  /-- `f.Stat` and the check of the size, lines 60-69 -/
  | stat
  /-- `FileMIME`, lines 21-42, and the announcement with the chunk size of the time, lines 72-91 -/
  | type (cs k : Nat)
  /-- one read of `io.Copy` -/
  | hash (k : Nat)
  /-- the read of `io.Copy` that finds the end, the rewinding, and the announcement, lines 105-127 -/
  | announce
  /-- a chunk, lines 130-154 -/
  | chunk (cs k : Nat)
  /-- the read that finds the end, lines 133-135, and the message, line 157 -/
  | finish
  /-- an error of reading or seeking -/
  | fail
  deriving DecidableEq, Repr

/-- What a read into a buffer of `m` bytes may give at `pos` while `b` is in the file: `k` bytes, at least one and
no more than there are. `none`: not possible; in particular not at the end of the file. A buffer without bytes is
filled at once, also at the end. -/
def readAt (b : Bytes) (pos m k : Nat) : Option Bytes :=
  if m = 0 then (if k = 0 then some [] else none)
  else if 1 ≤ k ∧ k ≤ m ∧ pos + k ≤ b.length then some ((b.drop pos).take k)
  else none

/-- A read at `pos` finds the end. -/
def atEnd (b : Bytes) (pos : Nat) : Prop := b.length ≤ pos

instance (b : Bytes) (pos : Nat) : Decidable (atEnd b pos) := inferInstanceAs (Decidable (_ ≤ _))

/-- The buffer of `FileMIME` after reading: what was read, and zeros up to 512 bytes, lines 29-30. -/
def padded (p : Bytes) : Bytes := p ++ List.replicate (512 - p.length) 0

/-- One step; `none`: it can not happen now. -/
def step (c : Cfg) (s : State) : Ev → Option State
  | .change b => some { s with cur := b }
  | .stat =>
    match s.pc with
    | .opened =>
      if s.cur.length > c.att then some { s with pc := .over, told := s.told ++ [.large] }
      else some { s with pc := .sized s.cur.length }
    | _ => none
  | .type cs k =>
    match s.pc with
    | .sized n =>
      if atEnd s.cur 0 then (if k = 0 then some { s with pc := .over, told := s.told ++ [.noType] } else none)
      else
        match readAt s.cur 0 512 k with
        | none => none
        | some p => some { s with pc := .digest n cs (c.T (padded p)) [] }
    | _ => none
  | .hash k =>
    match s.pc with
    | .digest n cs mime acc =>
      match readAt s.cur acc.length 32768 k with
      | none => none
      | some p => some { s with pc := .digest n cs mime (acc ++ p) }
    | _ => none
  | .announce =>
    match s.pc with
    | .digest n cs mime acc =>
      if atEnd s.cur acc.length then
        some { s with pc := .sending (c.H acc) 0,
                      out := s.out ++ [.new ⟨n, cs, pathBase c.file, c.descr, mime, c.H acc⟩] }
      else none
    | _ => none
  | .chunk cs k =>
    match s.pc with
    | .sending d off =>
      -- `make` with a length that is no int
      if 2 ^ 63 ≤ cs then some { s with pc := .dead }
      else
        match readAt s.cur off cs k with
        | none => none
        | some p => some { s with pc := .sending d (off + p.length), out := s.out ++ [.chunk ⟨off, d, p⟩] }
    | _ => none
  | .finish =>
    match s.pc with
    | .sending _ off =>
      if atEnd s.cur off then some { s with pc := .over, told := s.told ++ [.completed] } else none
    | _ => none
  | .fail =>
    match s.pc with
    | .opened | .sized _ => some { s with pc := .over, told := s.told ++ [.noType] }
    | .digest .. | .sending .. => some { s with pc := .over, told := s.told ++ [.failed] }
    | .over | .dead => none

/-- Steps, one after the other. -/
def run (c : Cfg) (s : State) : List Ev → Option State
  | [] => some s
  | e :: es =>
    match step c s e with
    | none => none
    | some t => run c t es

end Verif.Upload
