import Verif.Model.Common

/-! # zkclient/completion.go: Next -/

namespace Verif.Completion

/-- `completion`, /repo/zkclient/completion.go:16-21, without `mode`, which `Next` does not use. -/
structure Completion where
  all : List Bytes
  at_ : Int
  previous : Int
  deriving DecidableEq, Repr

/-- `c.all[i]`; out of range is a panic. -/
def idx (l : List Bytes) (i : Int) : Option Bytes := if 0 ≤ i then l[i.toNat]? else none

/-- First candidate with prefix `s` from position `i` on,
/repo/zkclient/completion.go:48-55. -/
def findFrom (s : Bytes) : List Bytes → Nat → Option (Nat × Bytes)
  | [], _ => none
  | v :: vs, i => if s <+: v then some (i, v) else findFrom s vs (i + 1)

/-- The part of `Next` after the test for the previous completion,
/repo/zkclient/completion.go:48-60. -/
def search (c : Completion) (s : Bytes) : Outcome Empty Bytes × Completion :=
  match findFrom s c.all 0 with
  | some (i, v) => (.ok v, { c with at_ := i, previous := i })
  | none => (.ok s, { c with at_ := 0, previous := -1 })

/-- `Next`, /repo/zkclient/completion.go:28-61. -/
def next (c : Completion) (s : Bytes) : Outcome Empty Bytes × Completion :=
  if c.all.length = 0 then (.ok s, { c with at_ := 0 })
  else if s = [] then
    match idx c.all 0 with
    | some v => (.ok v, { c with at_ := 0, previous := 0 })
    | none => (.panic, { c with at_ := 0, previous := 0 })
  else if c.at_ = c.previous then
    match idx c.all c.at_ with
    | none => (.panic, c)
    | some v =>
      if v = s then
        if c.at_ + 1 < c.all.length then
          match idx c.all (c.at_ + 1) with
          | some w => (.ok w, { c with at_ := c.at_ + 1, previous := c.at_ + 1 })
          | none => (.panic, { c with at_ := c.at_ + 1, previous := c.at_ + 1 })
        else
          match idx c.all 0 with
          | some w => (.ok w, { c with at_ := 0, previous := 0 })
          | none => (.panic, { c with at_ := 0, previous := 0 })
      else search c s
  else search c s

/-- A new completion context, /repo/zkclient/completion.go:67-72, 112-116. -/
def fresh (all : List Bytes) : Completion := ⟨all, 0, -1⟩

/-- Pressing tab again and again: each result is the next input,
/repo/zkclient/completion.go:84-99. Stops at a panic. -/
def presses (c : Completion) (s : Bytes) : Nat → List (Outcome Empty Bytes)
  | 0 => []
  | n + 1 =>
    match next c s with
    | (.ok v, c') => .ok v :: presses c' v n
    | (o, _) => [o]

end Verif.Completion
