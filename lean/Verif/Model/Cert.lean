import Verif.Model.GoMap

/-! # The certificate of a server: /repo/zkserver/cert.go

`newTLSCertPair` makes a certificate that is signed by its own key, and the server makes one when it finds none,
/repo/zkserver/zkserver.go:919-947.

Simplifications.
* Addresses, `net.ParseIP` and `IP.String` are a parameter, with the law that an address is read back from its text.
* The signature and the encodings of DER and PEM are left out; the key pair is a number.  A certificate holds whole seconds.
* Times are nanoseconds since the beginning of 1970. -/

namespace Verif.Cert

open Verif

abbrev Str := List Char

/-- What the package `net` knows of addresses. -/
structure Net where
  Ip : Type
  parse : Str → Option Ip
  str : Ip → Str
  back : ∀ ip, parse (str ip) = some ip
  /-- 127.0.0.1 and ::1 -/
  four : Ip
  six : Ip
  four_str : str four = "127.0.0.1".toList
  six_str : str six = "::1".toList

/-- Index of the first element with this property. -/
def index (c : Char) : Str → Option Nat
  | [] => none
  | d :: s => if d = c then some 0 else (index c s).map (· + 1)

/-- Index of the last one. -/
def last (c : Char) : Str → Option Nat
  | [] => none
  | d :: s =>
    match last c s with
    | some i => some (i + 1)
    | none => if d = c then some 0 else none

/-- `net.SplitHostPort`; `none` is an error. -/
def splitHostPort (s : Str) : Option (Str × Str) :=
  match last ':' s with
  | none => none
  | some i =>
    let parts : Option (Str × Nat × Nat) :=
      if s.head? = some '[' then
        match index ']' s with
        | none => none
        | some e => if e + 1 = i then some ((s.take e).drop 1, 1, e + 1) else none
      else if ':' ∈ s.take i then none
      else some (s.take i, 0, 0)
    match parts with
    | none => none
    | some (host, j, k) =>
      if '[' ∈ s.drop j then none
      else if ']' ∈ s.drop k then none
      else some (host, s.drop (i + 1))

/-- `for _, hostStr := range extraHosts`, the name that is used, cert.go:98-101. -/
def hostOf (s : Str) : Str :=
  match splitHostPort s with
  | none => s
  | some (host, _) => host

/-- A second in nanoseconds. -/
def second : Int := 1000000000

/-- 2049-12-31 23:59:59 UTC, cert.go:45. -/
def endOfTime : Int := 2524607999 * second

/-- What the machine gives: the clock, a key pair and a serial number (`none`: no randomness), the name of the host, the
addresses of its interfaces as text (the part of `a.String()` before the slash if it is one of an address and a mask, which
is what `net.ParseCIDR` asks for), and the order in which a map is walked through. -/
structure Machine (N : Net) where
  now : Int
  key : Option Nat
  serial : Option Nat
  host : Option Str
  addrs : Option (List (Option N.Ip))
  order : {α : Type} → List α → List α

/-- The certificate. `notBefore` and `notAfter` are in seconds. -/
structure Cert (N : Net) where
  serial : Nat
  org : Str
  notBefore : Int
  notAfter : Int
  dns : List Str
  ips : List N.Ip
  /-- the public key in it, and the key that signed it -/
  key : Nat
  signer : Nat
  /-- `IsCA` with `KeyUsageCertSign`, `KeyUsageDigitalSignature`, `KeyUsageKeyEncipherment` -/
  ca : Bool
  signs : Bool
  enciphers : Bool

inductive Err
  | expired | key | serial | host | addrs
  deriving DecidableEq, Repr

/-- The map of addresses, cert.go:77-80 and 91-96. -/
def ips0 (N : Net) : GoMap Str N.Ip := [("127.0.0.1".toList, N.four), ("::1".toList, N.six)]

def addAddrs {N : Net} (m : GoMap Str N.Ip) (as : List (Option N.Ip)) : GoMap Str N.Ip :=
  as.foldl (fun m a => match a with | none => m | some ip => m.set (N.str ip) ip) m

/-- The map of names, cert.go:81-84. -/
def dns0 (host : Str) : GoMap Str Bool := GoMap.set [(host, true)] "localhost".toList true

/-- The names and addresses that were asked for, cert.go:98-108. -/
def addHosts {N : Net} (m : GoMap Str N.Ip × GoMap Str Bool) (hs : List Str) : GoMap Str N.Ip × GoMap Str Bool :=
  hs.foldl (fun m h =>
    match N.parse (hostOf h) with
    | some ip => (m.1.set (N.str ip) ip, m.2)
    | none => (m.1, m.2.set (hostOf h) true)) m

/-- `newTLSCertPair`, cert.go:32-151; the second result is the private key. -/
def newTLSCertPair {N : Net} (w : Machine N) (org : Str) (validUntil : Int) (extra : List Str) :
    Except Err (Cert N × Nat) :=
  if validUntil < w.now then .error .expired
  else
    match w.key with
    | none => .error .key
    | some key =>
      let validUntil := if endOfTime < validUntil then endOfTime else validUntil
      match w.serial with
      | none => .error .serial
      | some serial =>
        match w.host with
        | none => .error .host
        | some host =>
          match w.addrs with
          | none => .error .addrs
          | some addrs =>
            let dns := dns0 host
            let m := addHosts (addAddrs (ips0 N) addrs, dns) extra
            .ok ({ serial, org
                   notBefore := (w.now - 24 * 3600 * second) / second
                   notAfter := validUntil / second
                   dns := w.order m.2.keys
                   ips := (w.order m.1).map Prod.snd
                   key, signer := key, ca := true, signs := true, enciphers := true }, key)

/-- What the server asks for, /repo/zkserver/zkserver.go:925-926. -/
def serverPair {N : Net} (w : Machine N) : Except Err (Cert N × Nat) := newTLSCertPair w [] endOfTime []

end Verif.Cert
