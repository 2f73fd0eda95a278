import Verif.Model.Common

/-!
# tagstack/tagstack.go

Both variants of the tag pool.  All methods of the non-blocking variant take the mutex for
their whole body (lines 71-72, 91-92), so each call is one atomic step.  The blocking
variant consists of single channel operations.
-/

namespace Verif.TagStack

/-- `uint32(k)` conversion (tagstack.go:43, 56). -/
def u32 (n : Nat) : Nat := n % 2 ^ 32

/-- Errors of the package (tagstack.go:19-22). -/
inductive Err where
  | overflow
  | underflow
  deriving DecidableEq, Repr

/-- Non-blocking `TagStack` (tagstack.go:25-33, fields `at` and `stack`). The slice never
changes its length; slots at index `≥ at` hold stale values. -/
structure Stack where
  at_ : Nat
  stack : List Nat
  deriving DecidableEq, Repr

/-- `New` (tagstack.go:50-61). A negative depth panics in Go and is not modelled here
(see `Verif.Model.Welcome`). -/
def new (depth : Nat) : Stack :=
  { at_ := depth, stack := (List.range depth).map u32 }

/-- `Push`, non-blocking part (tagstack.go:71-80). `List.set` is `s.stack[s.at] = x`,
which is in range because of the test. -/
def Stack.push (s : Stack) (x : Nat) : Outcome Err Unit × Stack :=
  if s.at_ < s.stack.length then
    (.ok (), { at_ := s.at_ + 1, stack := s.stack.set s.at_ x })
  else
    (.err .overflow, s)

/-- `Pop`, non-blocking part (tagstack.go:91-99). The read `s.stack[s.at]` is bounds
checked and panics when out of range. -/
def Stack.pop (s : Stack) : Outcome Err Nat × Stack :=
  if s.at_ > 0 then
    match s.stack[s.at_ - 1]? with
    | some t => (.ok t, { s with at_ := s.at_ - 1 })
    | none => (.panic, { s with at_ := s.at_ - 1 })
  else
    (.err .underflow, s)

/-- `Depth`, non-blocking (tagstack.go:108). -/
def Stack.depth (s : Stack) : Nat := s.stack.length

/-- Blocking `TagStack` (tagstack.go:31-32): a channel of capacity `cap`, oldest element
first. -/
structure Chan where
  cap : Nat
  buf : List Nat
  deriving DecidableEq, Repr

/-- `NewBlocking` (tagstack.go:36-47). The loop performs `depth` sends into an empty
channel of capacity `depth`, so it never blocks. -/
def newBlocking (depth : Nat) : Chan :=
  { cap := depth, buf := (List.range depth).map u32 }

/-- `Push`, blocking part (tagstack.go:66-69). `none` = the caller has to wait. -/
def Chan.push (c : Chan) (x : Nat) : Option Chan :=
  if c.buf.length < c.cap then some { c with buf := c.buf ++ [x] } else none

/-- `Pop`, blocking part (tagstack.go:86-89). `none` = the caller has to wait. -/
def Chan.pop (c : Chan) : Option (Nat × Chan) :=
  match c.buf with
  | [] => none
  | t :: r => some (t, { c with buf := r })

/-- `Depth`, blocking (tagstack.go:104-106): `len` of the channel. -/
def Chan.depth (c : Chan) : Nat := c.buf.length

end Verif.TagStack
