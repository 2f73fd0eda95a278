import Verif.Model.Rendezvous

/-! # Tokens for accounts: tools/zkservertoken

The program that makes tokens, tools/zkservertoken/zkservertoken.go 28-104 and tools/tools.go 84-95, and what the
client makes of the text the user types, zkclient/welcome.go 187 and 196. The file of tokens, and what the server does
with it, is that of `Verif.Policy`. Finding the file (the configuration file and its entry "root") is left out. -/

namespace Verif.Tokens

open Verif Policy

/-- `InFours`, /repo/tools/tools.go:84-95; a part of four characters is printed as it is with `%4v`. -/
def inFours (x : Bytes) : Option Bytes :=
  if x.length = 16 then
    some (x.take 4 ++ [32] ++ (x.drop 4).take 4 ++ [32] ++ (x.drop 8).take 4 ++ [32] ++ (x.drop 12).take 4)
  else none

/-- The loop, /repo/tools/zkservertoken/zkservertoken.go:65-86, with the values of the random number generator (64 bits
each; running out of entropy ends the program). The token and what will be printed; `none`: still searching. -/
def draw (db : DB) : List Nat → Option (Bytes × Bytes)
  | [] => none
  | x :: r =>
    if x < 10000000000000000 then draw db r
    else
      let xs := Rendezvous.format (x % 10000000000000000)
      if (db.get xs).isSome then draw db r
      else
        match inFours xs with
        | none => draw db r
        | some p => some (xs, p)

/-- `time.Duration(*hours) * time.Hour`, line 89, in nanoseconds: 64 bits. -/
def duration (hours : Nat) : Int := Int.bmod (Int.bmod hours (2 ^ 64) * 3600000000000) (2 ^ 64)

/-- `time.Now().Add(d).Unix()`, line 89. -/
def later (now : Time) (d : Int) : Int := now.sec + (now.nsec + d) / 1000000000

/-- The value of the record, lines 89-90: the conversion to 64 bits without sign comes before the formatting. -/
def expires (hours : Nat) (now : Time) : Bytes :=
  Rendezvous.format ((later now (duration hours)) % 2 ^ 64).toNat

/-- What the client sends of the token the user typed, /repo/zkclient/welcome.go:187 and 196. -/
def typed (text : Bytes) : Bytes := text.filter (· ≠ 32)

/-- A run of zkservertoken that nobody disturbs, from opening the file to printing, lines 59-104: what is printed, and
the steps of the model of the file. `none` if the program is still searching. -/
def issue (db : DB) (rand : List Nat) (hours : Nat) (now : Time) : Option (Bytes × Bytes × List Ev) :=
  (draw db rand).map fun (t, p) => (t, p, [.toolOpen, .toolSave db t (expires hours now) .ok])

end Verif.Tokens
