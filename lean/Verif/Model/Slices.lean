/-! # Lists of members in memory: zkclient/groupchat.go, zkclient/push.go, zkclient/zkclient.go

The lists of members are Go slices: an array, a length and a capacity. Lists that are handed on share their array, and what is
queued for sending (/repo/zkclient/msg.go:207-237) holds a pointer to an element of such an array, the recipient, and a slice in
its payload; both are read when it is sent (msg.go:441-510), which may be much later. All other modules take lists for values.

* Only what changes lists or hands them on is here; generations, times and texts are a number (`what`).
* Invitations, tokens and files are left out: whether they let something happen is part of the event.
* `append` takes a new array if the capacity is not enough; how much larger is up to Go (`extra`). -/

namespace Verif.Slices

abbrev Id := Nat
abbrev Name := Nat

/-- A slice that begins where its array begins; no other slices are made of members. -/
structure Slice where
  arr : Nat
  len : Nat
  cap : Nat
  deriving DecidableEq, Repr

/-- What is in memory: the elements of every array, and the number of the next array. -/
structure Heap where
  mem : Nat → Nat → Id
  next : Nat

/-- The elements of a slice. -/
def Heap.get (h : Heap) (s : Slice) : List Id := (List.range s.len).map (h.mem s.arr)

/-- `make` with capacity `cap`, filled with `xs`. -/
def Heap.alloc (h : Heap) (xs : List Id) (cap : Nat) : Heap × Slice :=
  (⟨fun a i => if a = h.next then xs.getD i 0 else h.mem a i, h.next + 1⟩, ⟨h.next, xs.length, cap⟩)

/-- `append` -/
def Heap.append (h : Heap) (s : Slice) (xs : List Id) (extra : Nat) : Heap × Slice :=
  if s.len + xs.length ≤ s.cap then
    (⟨fun a i => if a = s.arr ∧ s.len ≤ i ∧ i < s.len + xs.length then xs.getD (i - s.len) 0 else h.mem a i, h.next⟩,
      { s with len := s.len + xs.length })
  else h.alloc (h.get s ++ xs) (s.len + xs.length + extra)

/-- `wireMsg`, msg.go:32-43: the recipient, the payload, and the list in it. -/
structure Item where
  to_ : Nat × Nat
  what : Nat
  list : Option Slice
  deriving DecidableEq, Repr

/-- `z.groups`, what the callbacks of kicks hold, what is queued, and what was sent. -/
structure State where
  heap : Heap
  groups : Name → Option Slice
  kicks : List (Name × Slice)
  queue : List Item
  sent : List (Id × Nat × Option (List Id))

/-- Items for members `js` of a list. -/
def items (s : Slice) (js : List Nat) (what : Nat) (list : Option Slice) : List Item :=
  js.map fun j => ⟨(s.arr, j), what, list⟩

/-- `1, …, n - 1` -/
def rest (n : Nat) : List Nat := (List.range n).drop 1

/-- To whom something is sent. -/
inductive Whom
  /-- everybody but the user, `gcMessage`, groupchat.go:515-528 -/
  | others
  /-- everybody but the first, `gcKill`, groupchat.go:466-472 -/
  | notFirst
  /-- the first, `gcPart`, groupchat.go:426 -/
  | first
  deriving DecidableEq, Repr

def Whom.pick (self : Id) (w : Whom) (l : List Id) : List Nat :=
  match w with
  | .others => (List.range l.length).filter fun j => l.getD j 0 != self
  | .notFirst => rest l.length
  | .first => (List.range l.length).take 1

inductive Ev
  /-- A new list comes, and takes the place of another one if there is one: `gcNew`, groupchat.go:105-110, `gcJoin`, 203-206,
  `_updateGroupList`, zkclient.go:1914, `loadGroupchat`, 1976. -/
  | adopt (n : Name) (l : List Id) (extra : Nat)
  /-- `handleGroupJoin`, push.go:764-818; `saved`: the file could be written -/
  | joined (n : Name) (who : Id) (what extra : Nat) (saved : Bool)
  /-- `gcKick`, groupchat.go:252-374 -/
  | kick (n : Name) (who : Id) (what : Nat)
  /-- the last acknowledgement of kick number `k`, groupchat.go:304-340 -/
  | acked (k : Nat)
  /-- `handleGroupPart`, push.go:836-891 -/
  | parted (n : Name) (who : Id) (what extra : Nat)
  /-- `_deleteGroup`, groupchat.go:54-62 -/
  | drop (n : Name)
  /-- something without a list is sent -/
  | tell (n : Name) (w : Whom) (what : Nat)
  /-- `cacheCRPC` of number `k` of what is queued, msg.go:128-190: there are two queues, and what could not be sent is queued
  again -/
  | send (k : Nat)
  deriving DecidableEq, Repr

def State.set (s : State) (n : Name) (g : Option Slice) : State :=
  { s with groups := fun x => if x = n then g else s.groups x }

/-- The user is the first of the list. -/
def isAdmin (self : Id) (l : List Id) : Bool := l.head? == some self

def step (self : Id) (s : State) : Ev → State
  | .adopt n l extra =>
    let (h, g) := s.heap.alloc l (l.length + extra)
    { s with heap := h }.set n (some g)
  | .joined n who what extra saved =>
    match s.groups n with
    | none => s
    | some g =>
      let l := s.heap.get g
      if isAdmin self l && !(l.drop 1).contains who then
        let (h, g') := s.heap.append g [who] extra
        let s' := { s with heap := h }.set n (some g')
        if saved then { s' with queue := s'.queue ++ items g' (rest g'.len) what (some g') }
        else s'.set n (some g)
      else s
  | .kick n who what =>
    match s.groups n with
    | none => s
    | some g =>
      let l := s.heap.get g
      if isAdmin self l && who != self then
        let (h, g') := s.heap.alloc (l.filter (· != who)) g.len
        { s with heap := h, kicks := s.kicks ++ [(n, g')], queue := s.queue ++ items g (rest g.len) what (some g') }
      else s
  | .acked k =>
    match s.kicks[k]? with
    | none => s
    | some (n, g) =>
      let s' := { s with kicks := s.kicks.eraseIdx k }
      if (s.groups n).isSome then s'.set n (some g) else s'
  | .parted n who what extra =>
    match s.groups n with
    | none => s
    | some g =>
      let l := s.heap.get g
      if isAdmin self l then
        match (l.drop 1).idxOf? who with
        | none => s
        | some j =>
          let i := j + 1
          -- `append(gc.Members[:i:i], gc.Members[i+1:]...)`
          let (h, g') := s.heap.append ⟨g.arr, i, i⟩ (l.drop (i + 1)) extra
          { s with heap := h, queue := s.queue ++ items g (rest g.len) what (some g') }.set n (some g')
      else s
  | .drop n => s.set n none
  | .tell n w what =>
    match s.groups n with
    | none => s
    | some g => { s with queue := s.queue ++ items g (w.pick self (s.heap.get g)) what none }
  | .send k =>
    match s.queue[k]? with
    | none => s
    | some i =>
      { s with queue := s.queue.eraseIdx k, sent := s.sent ++ [(s.heap.mem i.to_.1 i.to_.2, i.what, i.list.map s.heap.get)] }

def start : State := ⟨⟨fun _ _ => 0, 0⟩, fun _ => none, [], [], []⟩

def run (self : Id) (es : List Ev) : State := es.foldl (step self) start

end Verif.Slices
