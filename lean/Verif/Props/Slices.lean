import Verif.Model.Slices

/-! # C153: lists that are handed on are not changed by what happens later -/

namespace Verif.Slices

/-! ## Specification: the same with lists as values -/

namespace Spec

structure State where
  groups : Name → Option (List Id)
  kicks : List (Name × List Id)
  queue : List (Id × Nat × Option (List Id))
  sent : List (Id × Nat × Option (List Id))

def State.set (s : State) (n : Name) (g : Option (List Id)) : State :=
  { s with groups := fun x => if x = n then g else s.groups x }

/-- The same for everybody in a list. -/
def toAll (l : List Id) (what : Nat) (list : Option (List Id)) : List (Id × Nat × Option (List Id)) :=
  l.map fun i => (i, what, list)

/-- The user is the administrator: the first. -/
def isAdmin (self : Id) : List Id → Bool
  | [] => false
  | i :: _ => i == self

def whom (self : Id) : Whom → List Id → List Id
  | .others, l => l.filter (· != self)
  | .notFirst, l => l.drop 1
  | .first, l => l.take 1

/-- What each event does. -/
def step (self : Id) (s : State) : Ev → State
  | .adopt n l _ => s.set n (some l)
  | .joined n who what _ saved =>
    match s.groups n with
    | none => s
    | some l =>
      if isAdmin self l && !(l.drop 1).contains who && saved then
        { s with queue := s.queue ++ toAll ((l ++ [who]).drop 1) what (some (l ++ [who])) }.set n (some (l ++ [who]))
      else s
  | .kick n who what =>
    match s.groups n with
    | none => s
    | some l =>
      if isAdmin self l && who != self then
        { s with kicks := s.kicks ++ [(n, l.filter (· != who))],
                 queue := s.queue ++ toAll (l.drop 1) what (some (l.filter (· != who))) }
      else s
  | .acked k =>
    match s.kicks[k]? with
    | none => s
    | some (n, l) =>
      let s' := { s with kicks := s.kicks.eraseIdx k }
      if (s.groups n).isSome then s'.set n (some l) else s'
  | .parted n who what _ =>
    match s.groups n with
    | none => s
    | some l =>
      if isAdmin self l then
        match (l.drop 1).idxOf? who with
        | none => s
        | some j =>
          { s with queue := s.queue ++ toAll (l.drop 1) what (some (l.eraseIdx (j + 1))) }.set n (some (l.eraseIdx (j + 1)))
      else s
  | .drop n => s.set n none
  | .tell n w what =>
    match s.groups n with
    | none => s
    | some l => { s with queue := s.queue ++ toAll (whom self w l) what none }
  | .send k =>
    match s.queue[k]? with
    | none => s
    | some i => { s with queue := s.queue.eraseIdx k, sent := s.sent ++ [i] }

def start : State := ⟨fun _ => none, [], [], []⟩

def run (self : Id) (es : List Ev) : State := es.foldl (step self) start

end Spec

/-- What a queued message says now, and to whom it would go. -/
def Item.view (h : Heap) (i : Item) : Id × Nat × Option (List Id) := (h.mem i.to_.1 i.to_.2, i.what, i.list.map h.get)

/-- What can be seen of the state. -/
def State.view (s : State) : Spec.State :=
  ⟨fun n => (s.groups n).map s.heap.get, s.kicks.map fun x => (x.1, s.heap.get x.2), s.queue.map (Item.view s.heap), s.sent⟩

/-! ## Memory -/

theorem get_length (h : Heap) (s : Slice) : (h.get s).length = s.len := by simp [Heap.get]

theorem get_getElem? (h : Heap) (s : Slice) (i : Nat) : (h.get s)[i]? = if i < s.len then some (h.mem s.arr i) else none := by
  simp only [Heap.get, List.getElem?_map]
  by_cases hi : i < s.len
  · simp [hi]
  · rw [List.getElem?_eq_none (by simpa using hi)]; simp [hi]

theorem get_congr {h h' : Heap} {s : Slice} (e : ∀ i, i < s.len → h'.mem s.arr i = h.mem s.arr i) : h'.get s = h.get s := by
  refine List.map_congr_left fun i hi => e i ?_
  simpa using hi

theorem alloc_get (h : Heap) (xs : List Id) (cap : Nat) : (h.alloc xs cap).1.get (h.alloc xs cap).2 = xs := by
  refine List.ext_getElem? fun i => ?_
  rw [get_getElem?]
  simp only [Heap.alloc, if_true]
  split
  · next hi => rw [List.getD_eq_getElem?_getD, List.getElem?_eq_getElem hi]; rfl
  · next hi => rw [List.getElem?_eq_none (by simpa using hi)]

theorem alloc_old (h : Heap) (xs : List Id) (cap : Nat) {a : Nat} (ha : a < h.next) (i : Nat) :
    (h.alloc xs cap).1.mem a i = h.mem a i := by
  simp only [Heap.alloc]
  rw [if_neg (by omega)]

theorem append_get (h : Heap) (s : Slice) (xs : List Id) (extra : Nat) :
    (h.append s xs extra).1.get (h.append s xs extra).2 = h.get s ++ xs := by
  unfold Heap.append
  split
  · refine List.ext_getElem? fun i => ?_
    rw [get_getElem?, List.getElem?_append, get_length, get_getElem?]
    simp only [true_and]
    by_cases h1 : i < s.len
    · rw [if_pos (by omega), if_pos h1, if_pos h1, if_neg (by omega)]
    · rw [if_neg h1]
      by_cases h2 : i < s.len + xs.length
      · rw [if_pos h2, if_pos ⟨by omega, h2⟩, List.getD_eq_getElem?_getD, List.getElem?_eq_getElem (by omega)]; rfl
      · rw [if_neg h2, List.getElem?_eq_none (by omega)]
  · exact alloc_get _ _ _

/-! ## The invariant -/

/-- A list that may be appended to later. -/
def Owner (s : State) (o : Slice) : Prop := (∃ n, s.groups n = some o) ∨ ∃ n, (n, o) ∈ s.kicks

/-- The first `e` elements of an array are safe from appending to `o`. -/
def SafeFrom (o : Slice) (a e : Nat) : Prop := o.arr = a → e ≤ o.len ∨ o.cap ≤ o.len

structure Inv (s : State) : Prop where
  fresh : ∀ o, Owner s o → o.arr < s.heap.next
  names : ∀ n m o p, s.groups n = some o → s.groups m = some p → o.arr = p.arr → n = m
  apart : ∀ n o k, s.groups n = some o → k ∈ s.kicks → o.arr ≠ k.2.arr
  kicks : (s.kicks.map fun k => k.2.arr).Nodup
  ptr : ∀ i ∈ s.queue, i.to_.1 < s.heap.next ∧ ∀ o, Owner s o → SafeFrom o i.to_.1 (i.to_.2 + 1)
  list : ∀ i ∈ s.queue, ∀ p, i.list = some p → p.arr < s.heap.next ∧ ∀ o, Owner s o → SafeFrom o p.arr p.len

theorem inv_start : Inv start := by
  refine ⟨fun o h => ?_, fun _ _ _ _ h => ?_, fun _ _ _ h => ?_, List.nodup_nil, fun _ h => ?_, fun _ h => ?_⟩
  · rcases h with ⟨n, h⟩ | ⟨n, h⟩ <;> cases h
  all_goals cases h

/-- Nothing that is in use sees the change of memory. -/
theorem view_heap {s : State} {h : Heap} (hg : ∀ o, Owner s o → h.get o = s.heap.get o)
    (hq : ∀ i ∈ s.queue, i.view h = i.view s.heap) : ({ s with heap := h } : State).view = s.view := by
  have e1 : (fun n => (s.groups n).map h.get) = fun n => (s.groups n).map s.heap.get := by
    funext n
    cases e : s.groups n with
    | none => rfl
    | some o => simp only [Option.map_some]; rw [hg o (.inl ⟨n, e⟩)]
  have e2 : (s.kicks.map fun x => (x.1, h.get x.2)) = s.kicks.map fun x => (x.1, s.heap.get x.2) :=
    List.map_congr_left fun x hx => by rw [hg x.2 (.inr ⟨x.1, hx⟩)]
  have e3 : s.queue.map (Item.view h) = s.queue.map (Item.view s.heap) := List.map_congr_left hq
  simp only [State.view, e1, e2, e3]

/-- A new array changes nothing that is in use. -/
theorem view_alloc {s : State} (hi : Inv s) (xs : List Id) (cap : Nat) :
    (∀ o : Slice, o.arr < s.heap.next → (s.heap.alloc xs cap).1.get o = s.heap.get o) ∧
    ({ s with heap := (s.heap.alloc xs cap).1 } : State).view = s.view := by
  have key : ∀ o : Slice, o.arr < s.heap.next → (s.heap.alloc xs cap).1.get o = s.heap.get o := fun o ho =>
    get_congr fun i _ => alloc_old _ _ _ ho i
  refine ⟨key, view_heap (fun o ho => key o (hi.fresh o ho)) fun i hi' => ?_⟩
  unfold Item.view
  rw [alloc_old _ _ _ (hi.ptr i hi').1]
  cases e : i.list with
  | none => rfl
  | some p => simp only [Option.map_some]; rw [key p (hi.list i hi' p e).1]

theorem map_range_drop (f : Nat → Id) (n : Nat) : (rest n).map f = ((List.range n).map f).drop 1 := by
  unfold rest
  rw [List.map_drop]

theorem mem_rest {j n : Nat} (h : j ∈ rest n) : j < n := by
  have := List.mem_of_mem_drop h
  simpa using this

/-- What is queued for a list. -/
theorem view_items (h : Heap) (s : Slice) (js : List Nat) (what : Nat) (list : Option Slice) :
    (items s js what list).map (Item.view h) = (js.map (h.mem s.arr)).map fun i => (i, what, list.map h.get) := by
  unfold items
  rw [List.map_map, List.map_map]
  rfl

theorem map_pick (h : Heap) (g : Slice) (self : Id) (w : Whom) :
    (w.pick self (h.get g)).map (h.mem g.arr) = Spec.whom self w (h.get g) := by
  have hr : (List.range (h.get g).length).map (h.mem g.arr) = h.get g := by rw [get_length]; rfl
  cases w with
  | others =>
    unfold Whom.pick Spec.whom
    have : ((List.range (h.get g).length).filter fun j => (h.get g).getD j 0 != self) =
        (List.range (h.get g).length).filter ((· != self) ∘ h.mem g.arr) := by
      refine List.filter_congr fun j hj => ?_
      have hj' : j < g.len := by rw [get_length] at hj; simpa using hj
      rw [List.getD_eq_getElem?_getD, get_getElem?, if_pos hj']
      rfl
    simp only [this]
    rw [← List.filter_map, hr]
  | notFirst =>
    show (rest _).map _ = _
    rw [map_range_drop, hr]
    rfl
  | first =>
    show ((List.range _).take 1).map _ = _
    rw [List.map_take, hr]
    rfl

theorem mem_pick {h : Heap} {g : Slice} {self : Id} {w : Whom} {j : Nat} (hj : j ∈ w.pick self (h.get g)) : j < g.len := by
  have : j ∈ List.range (h.get g).length := by
    cases w with
    | others => exact (List.mem_filter.1 hj).1
    | notFirst => exact List.mem_of_mem_drop hj
    | first => exact List.mem_of_mem_take hj
  rw [get_length] at this
  simpa using this

theorem admin_spec (self : Id) (l : List Id) : isAdmin self l = Spec.isAdmin self l := by
  cases l <;> simp [isAdmin, Spec.isAdmin]

/-! ## Steps -/

/-- A list takes the place of that of `n`: one that nobody else has. -/
theorem inv_set {s : State} (hi : Inv s) {n : Name} {g : Slice} (h1 : g.arr < s.heap.next)
    (h2 : ∀ m o, m ≠ n → s.groups m = some o → o.arr ≠ g.arr) (h3 : ∀ k ∈ s.kicks, g.arr ≠ k.2.arr)
    (h4 : ∀ i ∈ s.queue, SafeFrom g i.to_.1 (i.to_.2 + 1)) (h5 : ∀ i ∈ s.queue, ∀ p, i.list = some p → SafeFrom g p.arr p.len) :
    Inv (s.set n (some g)) := by
  have own : ∀ o, Owner (s.set n (some g)) o → o = g ∨ Owner s o := by
    rintro o (⟨m, hm⟩ | ⟨m, hm⟩)
    · simp only [State.set] at hm
      split at hm
      · cases hm; exact .inl rfl
      · exact .inr (.inl ⟨m, hm⟩)
    · exact .inr (.inr ⟨m, hm⟩)
  refine ⟨fun o ho => ?_, fun m m' o p hm hm' e => ?_, fun m o k hm hk => ?_, hi.kicks, fun i hi' => ⟨(hi.ptr i hi').1, fun o ho => ?_⟩,
    fun i hi' p hp => ⟨(hi.list i hi' p hp).1, fun o ho => ?_⟩⟩
  · rcases own o ho with rfl | ho
    · exact h1
    · exact hi.fresh o ho
  · simp only [State.set] at hm hm'
    split at hm <;> split at hm'
    · next e1 e2 => rw [e1, e2]
    · next e1 e2 => cases hm; exact absurd e.symm (h2 m' p e2 hm')
    · next e1 e2 => cases hm'; exact absurd e (h2 m o e1 hm)
    · exact hi.names m m' o p hm hm' e
  · simp only [State.set] at hm
    split at hm
    · cases hm; exact h3 k hk
    · exact hi.apart m o k hm hk
  · rcases own o ho with rfl | ho
    · exact h4 i hi'
    · exact (hi.ptr i hi').2 o ho
  · rcases own o ho with rfl | ho
    · exact h5 i hi' p hp
    · exact (hi.list i hi' p hp).2 o ho

/-- More memory is no harm. -/
theorem inv_heap {s : State} (hi : Inv s) {h : Heap} (hn : s.heap.next ≤ h.next) : Inv { s with heap := h } :=
  ⟨fun o ho => Nat.lt_of_lt_of_le (hi.fresh o ho) hn, hi.names, hi.apart, hi.kicks,
    fun i hi' => ⟨Nat.lt_of_lt_of_le (hi.ptr i hi').1 hn, (hi.ptr i hi').2⟩,
    fun i hi' p hp => ⟨Nat.lt_of_lt_of_le (hi.list i hi' p hp).1 hn, (hi.list i hi' p hp).2⟩⟩

/-- More is queued. -/
theorem inv_queue {s : State} (hi : Inv s) {is : List Item}
    (h1 : ∀ i ∈ is, i.to_.1 < s.heap.next ∧ ∀ o, Owner s o → SafeFrom o i.to_.1 (i.to_.2 + 1))
    (h2 : ∀ i ∈ is, ∀ p, i.list = some p → p.arr < s.heap.next ∧ ∀ o, Owner s o → SafeFrom o p.arr p.len) :
    Inv { s with queue := s.queue ++ is } :=
  ⟨hi.fresh, hi.names, hi.apart, hi.kicks,
    fun i hi' => (List.mem_append.1 hi').elim (hi.ptr i) (h1 i), fun i hi' => (List.mem_append.1 hi').elim (hi.list i) (h2 i)⟩

/-- The list of a group is safe from everybody who may append. -/
theorem safe_group {s : State} (hi : Inv s) {n : Name} {g : Slice} (hg : s.groups n = some g) {o : Slice} (ho : Owner s o) {e : Nat}
    (he : e ≤ g.len) : SafeFrom o g.arr e := by
  intro ha
  rcases ho with ⟨m, hm⟩ | ⟨m, hm⟩
  · cases hi.names m n o g hm hg ha
    rw [hg] at hm
    cases hm
    exact .inl he
  · exact absurd ha.symm (hi.apart n g _ hg hm)

theorem eraseIdx_map {α β : Type} (f : α → β) (l : List α) (k : Nat) : (l.map f).eraseIdx k = (l.eraseIdx k).map f := by
  rw [List.eraseIdx_eq_take_drop_succ, List.eraseIdx_eq_take_drop_succ, List.map_append, List.map_take, List.map_drop]

theorem view_set (s : State) (n : Name) (g : Option Slice) : (s.set n g).view = s.view.set n (g.map s.heap.get) := by
  simp only [State.view, State.set, Spec.State.set]
  congr 1
  funext x
  split <;> rfl

theorem view_groups (s : State) (n : Name) : s.view.groups n = (s.groups n).map s.heap.get := rfl

theorem get_take (h : Heap) (g : Slice) {i : Nat} (hi : i ≤ g.len) (c : Nat) : h.get ⟨g.arr, i, c⟩ = (h.get g).take i := by
  unfold Heap.get
  rw [← List.map_take, List.take_range, Nat.min_eq_left hi]

/-- One step: nothing but what the specification says changes, and the invariant is kept. -/
theorem step_spec (self : Id) {s : State} (hi : Inv s) (e : Ev) :
    (step self s e).view = Spec.step self s.view e ∧ Inv (step self s e) := by
  cases e with
  | adopt n l extra =>
    have ha := view_alloc hi l (l.length + extra)
    constructor
    · simp only [step, Spec.step]
      rw [view_set, ha.2, Option.map_some]
      show s.view.set n (some ((s.heap.alloc l (l.length + extra)).1.get (s.heap.alloc l (l.length + extra)).2)) = _
      rw [alloc_get]
    · simp only [step]
      refine inv_set (inv_heap hi (Nat.le_succ _)) (Nat.lt_succ_self _) (fun m o _ hm => Nat.ne_of_lt (hi.fresh o (.inl ⟨m, hm⟩)))
        (fun k hk => (Nat.ne_of_lt (hi.fresh k.2 (.inr ⟨k.1, hk⟩))).symm) (fun i hi' ha => ?_) (fun i hi' p hp ha => ?_)
      · exact absurd ha (Nat.ne_of_lt (hi.ptr i hi').1).symm
      · exact absurd ha (Nat.ne_of_lt (hi.list i hi' p hp).1).symm
  | joined n who what extra saved =>
    simp only [step, Spec.step, view_groups, ← admin_spec]
    cases hg : s.groups n with
    | none => exact ⟨rfl, hi⟩
    | some g =>
      simp only [Option.map_some]
      by_cases hc : (isAdmin self (s.heap.get g) && !((s.heap.get g).drop 1).contains who) = true
      rotate_left
      · rw [if_neg hc, if_neg (by simp only [Bool.and_eq_true] at hc ⊢; exact fun h => hc h.1)]
        exact ⟨rfl, hi⟩
      rw [if_pos hc]
      have hget := append_get s.heap g [who] extra
      -- memory that is in use is as it was
      have hold : ({ s with heap := (s.heap.append g [who] extra).1 } : State).view = s.view ∧
          s.heap.next ≤ (s.heap.append g [who] extra).1.next ∧
          (s.heap.append g [who] extra).1.get g = s.heap.get g := by
        by_cases hcap : g.len + [who].length ≤ g.cap
        · have e : s.heap.append g [who] extra =
              (⟨fun a i => if a = g.arr ∧ g.len ≤ i ∧ i < g.len + [who].length then [who].getD (i - g.len) 0 else s.heap.mem a i,
                s.heap.next⟩, { g with len := g.len + [who].length }) := by
            unfold Heap.append; rw [if_pos hcap]
          rw [e]
          have hsafe : ∀ a k, (∀ o, Owner s o → SafeFrom o a k) → ∀ i, i < k →
              (if a = g.arr ∧ g.len ≤ i ∧ i < g.len + [who].length then [who].getD (i - g.len) 0 else s.heap.mem a i) =
                s.heap.mem a i := by
            intro a k hs i hik
            rw [if_neg]
            rintro ⟨rfl, h1, h2⟩
            rcases hs g (.inl ⟨n, hg⟩) rfl with h | h
            · omega
            · simp only [List.length_singleton] at hcap; omega
          refine ⟨view_heap (fun o ho => get_congr fun i hi' => ?_) fun i hi' => ?_, Nat.le_refl _, get_congr fun i hi' => ?_⟩
          · show (if o.arr = g.arr ∧ _ then _ else _) = _
            rw [if_neg]
            rintro ⟨h0, h1, h2⟩
            have := safe_group hi hg ho (Nat.le_refl _) h0
            rcases ho with ⟨m, hm⟩ | ⟨m, hm⟩
            · cases hi.names m n o g hm hg h0
              rw [hg] at hm; cases hm; omega
            · exact hi.apart n g _ hg hm h0.symm
          · unfold Item.view
            show ((if i.to_.1 = g.arr ∧ _ then _ else _), _, _) = _
            rw [hsafe _ _ (hi.ptr i hi').2 _ (Nat.lt_succ_self _)]
            cases e : i.list with
            | none => rfl
            | some p =>
              simp only [Option.map_some]
              rw [get_congr (h := s.heap) fun j hj => hsafe _ _ (hi.list i hi' p e).2 j hj]
          · show (if g.arr = g.arr ∧ _ then _ else _) = _
            rw [if_neg (by omega)]
        · have e : s.heap.append g [who] extra = s.heap.alloc (s.heap.get g ++ [who]) (g.len + [who].length + extra) := by
            unfold Heap.append; rw [if_neg hcap]
          rw [e]
          have ha := view_alloc hi (s.heap.get g ++ [who]) (g.len + [who].length + extra)
          exact ⟨ha.2, Nat.le_succ _, ha.1 g (hi.fresh g (.inl ⟨n, hg⟩))⟩
      -- the new list is as safe as the old one
      have hnew : (s.heap.append g [who] extra).2.arr = g.arr ∧ g.len ≤ (s.heap.append g [who] extra).2.len ∧ g.len < g.cap ∨
          (s.heap.append g [who] extra).2.arr = s.heap.next ∧
            s.heap.next < (s.heap.append g [who] extra).1.next := by
        unfold Heap.append
        split
        · next h => exact .inl ⟨rfl, Nat.le_add_right .., Nat.lt_of_lt_of_le (Nat.lt_succ_self _) h⟩
        · exact .inr ⟨rfl, Nat.lt_succ_self _⟩
      generalize s.heap.append g [who] extra = hh at hget hold hnew
      obtain ⟨h, g'⟩ := hh
      simp only at hget hold hnew
      have hlen : g'.len = (s.heap.get g ++ [who]).length := by rw [← hget, get_length]
      have hi1 : Inv { s with heap := h } := inv_heap hi hold.2.1
      have hi2 : Inv (State.set { s with heap := h } n (some g')) := by
        rcases hnew with ⟨e1, e2, e3⟩ | ⟨e1, e2⟩
        · refine inv_set hi1 (e1 ▸ hi1.fresh g (.inl ⟨n, hg⟩)) (fun m o hm ho ha => hm (hi.names m n o g ho hg (by rw [ha, e1])))
            (fun k hk ha => hi.apart n g k hg hk (by rw [← ha, e1])) (fun i hi' ha => ?_) (fun i hi' p hp ha => ?_)
          · rcases (hi.ptr i hi').2 g (.inl ⟨n, hg⟩) (by rw [← e1, ha]) with h | h
            · exact .inl (Nat.le_trans h e2)
            · omega
          · rcases (hi.list i hi' p hp).2 g (.inl ⟨n, hg⟩) (by rw [← e1, ha]) with h | h
            · exact .inl (Nat.le_trans h e2)
            · omega
        · refine inv_set hi1 (by rw [e1]; exact e2) (fun m o _ hm => by rw [e1]; exact Nat.ne_of_lt (hi.fresh o (.inl ⟨m, hm⟩)))
            (fun k hk => by rw [e1]; exact (Nat.ne_of_lt (hi.fresh k.2 (.inr ⟨k.1, hk⟩))).symm) (fun i hi' ha => ?_)
            (fun i hi' p hp ha => ?_)
          · rw [e1] at ha; exact absurd ha (Nat.ne_of_lt (hi.ptr i hi').1).symm
          · rw [e1] at ha; exact absurd ha (Nat.ne_of_lt (hi.list i hi' p hp).1).symm
      have hv2 : (State.set { s with heap := h } n (some g')).view = s.view.set n (some (s.heap.get g ++ [who])) := by
        rw [view_set, hold.1, Option.map_some]
        show s.view.set n (some (h.get g')) = _
        rw [hget]
      cases saved with
      | true =>
        rw [if_pos rfl, Bool.and_true, if_pos hc]
        have hown : (State.set { s with heap := h } n (some g')).groups n = some g' := by simp [State.set]
        have hprop : ∀ i ∈ items g' (rest g'.len) what (some g'), i.to_.1 = g'.arr ∧ i.to_.2 < g'.len ∧ i.list = some g' := by
          intro i hi'
          obtain ⟨j, hj, rfl⟩ := List.mem_map.1 hi'
          exact ⟨rfl, mem_rest hj, rfl⟩
        refine ⟨?_, inv_queue hi2 (fun i hi' => ?_) (fun i hi' p hp => ?_)⟩
        · have hq : (items g' (rest g'.len) what (some g')).map (Item.view h) =
              Spec.toAll ((s.heap.get g ++ [who]).drop 1) what (some (s.heap.get g ++ [who])) := by
            rw [view_items, map_range_drop]
            show ((h.get g').drop 1).map _ = _
            rw [hget, Option.map_some, hget]
            rfl
          have e3 : ∀ (t : State) (q : List Item), ({ t with queue := t.queue ++ q } : State).view =
              { t.view with queue := t.view.queue ++ q.map (Item.view t.heap) } := by
            intro t q
            simp [State.view]
          rw [e3, hv2]
          show ({ s.view.set n _ with queue := s.view.queue ++ (items g' (rest g'.len) what (some g')).map (Item.view h) } :
            Spec.State) = _
          rw [hq]
          rfl
        · obtain ⟨h1, h2, _⟩ := hprop i hi'
          rw [h1]
          exact ⟨hi2.fresh g' (.inl ⟨n, hown⟩), fun o ho => safe_group hi2 hown ho h2⟩
        · obtain ⟨_, _, h3⟩ := hprop i hi'
          rw [h3] at hp
          cases hp
          exact ⟨hi2.fresh g' (.inl ⟨n, hown⟩), fun o ho => safe_group hi2 hown ho (Nat.le_refl _)⟩
      | false =>
        rw [if_neg (by simp), Bool.and_false, if_neg (by simp)]
        have e : (State.set { s with heap := h } n (some g')).set n (some g) = { s with heap := h } := by
          simp only [State.set]
          congr 1
          funext x
          by_cases hx : x = n
          · subst hx; rw [if_pos rfl, hg]
          · rw [if_neg hx, if_neg hx]
        rw [e]
        exact ⟨hold.1, hi1⟩
  | kick n who what =>
    simp only [step, Spec.step, view_groups, ← admin_spec]
    cases hg : s.groups n with
    | none => exact ⟨rfl, hi⟩
    | some g =>
      simp only [Option.map_some]
      by_cases hc : (isAdmin self (s.heap.get g) && who != self) = true
      rotate_left
      · rw [if_neg hc, if_neg hc]; exact ⟨rfl, hi⟩
      rw [if_pos hc, if_pos hc]
      have ha := view_alloc hi ((s.heap.get g).filter (· != who)) g.len
      have hget := alloc_get s.heap ((s.heap.get g).filter (· != who)) g.len
      have harr : (s.heap.alloc ((s.heap.get g).filter (· != who)) g.len).2.arr = s.heap.next := rfl
      have hnext : (s.heap.alloc ((s.heap.get g).filter (· != who)) g.len).1.next = s.heap.next + 1 := rfl
      generalize s.heap.alloc ((s.heap.get g).filter (· != who)) g.len = hh at ha hget harr hnext
      obtain ⟨h, g'⟩ := hh
      simp only at ha hget harr hnext
      have hi1 : Inv { s with heap := h } := inv_heap hi (by rw [hnext]; exact Nat.le_succ _)
      have hi2 : Inv { s with heap := h, kicks := s.kicks ++ [(n, g')] } := by
        have own : ∀ o, Owner { s with heap := h, kicks := s.kicks ++ [(n, g')] } o → o = g' ∨ Owner s o := by
          rintro o (⟨m, hm⟩ | ⟨m, hm⟩)
          · exact .inr (.inl ⟨m, hm⟩)
          · rcases List.mem_append.1 hm with hm | hm
            · exact .inr (.inr ⟨m, hm⟩)
            · cases List.mem_singleton.1 hm; exact .inl rfl
        refine ⟨fun o ho => ?_, hi.names, fun m o k hm hk => ?_, ?_, fun i hi' => ⟨(hi1.ptr i hi').1, fun o ho => ?_⟩,
          fun i hi' p hp => ⟨(hi1.list i hi' p hp).1, fun o ho => ?_⟩⟩
        · rcases own o ho with rfl | ho
          · rw [harr]; show _ < h.next; rw [hnext]; exact Nat.lt_succ_self _
          · exact hi1.fresh o ho
        · rcases List.mem_append.1 hk with hk | hk
          · exact hi.apart m o k hm hk
          · cases List.mem_singleton.1 hk
            show o.arr ≠ g'.arr
            rw [harr]
            exact Nat.ne_of_lt (hi.fresh o (.inl ⟨m, hm⟩))
        · show ((s.kicks ++ [(n, g')]).map fun k => k.2.arr).Nodup
          rw [List.map_append, List.nodup_append]
          refine ⟨hi.kicks, by simp, fun a ha b hb => ?_⟩
          obtain ⟨k, hk, rfl⟩ := List.mem_map.1 ha
          simp only [List.map_cons, List.map_nil, List.mem_singleton] at hb
          rw [hb, harr]
          exact Nat.ne_of_lt (hi.fresh k.2 (.inr ⟨k.1, hk⟩))
        · rcases own o ho with rfl | ho
          · intro e; rw [harr] at e; exact absurd e (Nat.ne_of_lt (hi.ptr i hi').1).symm
          · exact (hi.ptr i hi').2 o ho
        · rcases own o ho with rfl | ho
          · intro e; rw [harr] at e; exact absurd e (Nat.ne_of_lt (hi.list i hi' p hp).1).symm
          · exact (hi.list i hi' p hp).2 o ho
      have hgo : h.get g = s.heap.get g := ha.1 g (hi.fresh g (.inl ⟨n, hg⟩))
      have hprop : ∀ i ∈ items g (rest g.len) what (some g'), i.to_.1 = g.arr ∧ i.to_.2 < g.len ∧ i.list = some g' := by
        intro i hi'
        obtain ⟨j, hj, rfl⟩ := List.mem_map.1 hi'
        exact ⟨rfl, mem_rest hj, rfl⟩
      refine ⟨?_, inv_queue hi2 (fun i hi' => ?_) (fun i hi' p hp => ?_)⟩
      · have hq : (items g (rest g.len) what (some g')).map (Item.view h) =
            Spec.toAll ((s.heap.get g).drop 1) what (some ((s.heap.get g).filter (· != who))) := by
          rw [view_items, map_range_drop]
          show ((h.get g).drop 1).map _ = _
          rw [hgo, Option.map_some, hget]
          rfl
        have hv := ha.2
        simp only [State.view, Spec.State.mk.injEq] at hv ⊢
        refine ⟨hv.1, ?_, ?_, trivial⟩
        · rw [List.map_append, hv.2.1]
          simp [hget]
        · rw [List.map_append, hv.2.2.1, hq]
      · obtain ⟨h1, h2, _⟩ := hprop i hi'
        rw [h1]
        exact ⟨hi1.fresh g (.inl ⟨n, hg⟩), fun o ho => safe_group hi2 hg ho h2⟩
      · obtain ⟨_, _, h3⟩ := hprop i hi'
        rw [h3] at hp
        cases hp
        refine ⟨hi2.fresh g' (.inr ⟨n, by simp⟩), fun o ho e => ?_⟩
        rcases ho with ⟨m, hm⟩ | ⟨m, hm⟩
        · exact absurd e (hi2.apart m o (n, g') hm (by simp))
        · rcases List.mem_append.1 hm with hm | hm
          · rw [harr] at e
            exact absurd e (Nat.ne_of_lt (hi.fresh o (.inr ⟨m, hm⟩)))
          · cases List.mem_singleton.1 hm
            exact .inl (Nat.le_refl _)
  | acked k =>
    simp only [step, Spec.step]
    have hk : s.view.kicks[k]? = (s.kicks[k]?).map fun x => (x.1, s.heap.get x.2) := by simp [State.view]
    rw [hk]
    cases e : s.kicks[k]? with
    | none => exact ⟨rfl, hi⟩
    | some x =>
      obtain ⟨n, g⟩ := x
      simp only [Option.map_some]
      have hmem : (n, g) ∈ s.kicks := List.mem_of_getElem? e
      have sub : (s.kicks.eraseIdx k).Sublist s.kicks := List.eraseIdx_sublist ..
      have hi1 : Inv { s with kicks := s.kicks.eraseIdx k } := by
        have own : ∀ o, Owner { s with kicks := s.kicks.eraseIdx k } o → Owner s o := by
          rintro o (h | ⟨m, hm⟩)
          · exact .inl h
          · exact .inr ⟨m, sub.subset hm⟩
        exact ⟨fun o ho => hi.fresh o (own o ho), hi.names, fun m o k' hm hk' => hi.apart m o k' hm (sub.subset hk'),
          (sub.map _).nodup hi.kicks, fun i hi' => ⟨(hi.ptr i hi').1, fun o ho => (hi.ptr i hi').2 o (own o ho)⟩,
          fun i hi' p hp => ⟨(hi.list i hi' p hp).1, fun o ho => (hi.list i hi' p hp).2 o (own o ho)⟩⟩
      have hv1 : ({ s with kicks := s.kicks.eraseIdx k } : State).view = { s.view with kicks := s.view.kicks.eraseIdx k } := by
        simp only [State.view, eraseIdx_map]
      have hsome : (s.view.groups n).isSome = (s.groups n).isSome := by rw [view_groups, Option.isSome_map]
      rw [hsome]
      by_cases hs : (s.groups n).isSome = true
      · rw [if_pos hs, if_pos hs]
        have hown : Owner s g := .inr ⟨n, hmem⟩
        refine ⟨?_, inv_set hi1 (hi.fresh g hown) (fun m o _ hm => hi.apart m o _ hm hmem) (fun k' hk' ha => ?_)
          (fun i hi' => (hi.ptr i hi').2 g hown) (fun i hi' p hp => (hi.list i hi' p hp).2 g hown)⟩
        · rw [view_set, hv1]; rfl
        · -- the arrays of other kicks are different
          have h1 : (s.kicks.map fun k => k.2.arr)[k]? = some g.arr := by simp [e]
          have h2 : k'.2.arr ∈ (s.kicks.map fun k => k.2.arr).eraseIdx k := by
            rw [eraseIdx_map]; exact List.mem_map.2 ⟨k', hk', rfl⟩
          rw [← ha] at h2
          obtain ⟨hlt, hv⟩ := List.getElem?_eq_some_iff.1 h1
          have hnd := hi.kicks
          rw [List.mem_eraseIdx_iff_getElem?] at h2
          obtain ⟨j, hj, hje⟩ := h2
          obtain ⟨hjl, hjv⟩ := List.getElem?_eq_some_iff.1 hje
          exact hj ((List.getElem_inj hnd).1 (hjv.trans hv.symm))
      · rw [if_neg hs, if_neg hs]
        exact ⟨hv1, hi1⟩
  | parted n who what extra =>
    simp only [step, Spec.step, view_groups, ← admin_spec]
    cases hg : s.groups n with
    | none => exact ⟨rfl, hi⟩
    | some g =>
      simp only [Option.map_some]
      by_cases hc : isAdmin self (s.heap.get g) = true
      rotate_left
      · rw [if_neg hc, if_neg hc]; exact ⟨rfl, hi⟩
      rw [if_pos hc, if_pos hc]
      cases hx : ((s.heap.get g).drop 1).idxOf? who with
      | none => exact ⟨rfl, hi⟩
      | some j =>
        simp only
        have hj : j + 1 < g.len := by
          have := List.of_findIdx?_eq_some hx
          have hl : j < ((s.heap.get g).drop 1).length := by
            rcases Nat.lt_or_ge j ((s.heap.get g).drop 1).length with h | h
            · exact h
            · rw [List.getElem?_eq_none h] at this; cases this
          rw [List.length_drop, get_length] at hl
          omega
        have hget := append_get s.heap ⟨g.arr, j + 1, j + 1⟩ ((s.heap.get g).drop (j + 1 + 1)) extra
        rw [get_take _ _ (Nat.le_of_lt hj), ← List.eraseIdx_eq_take_drop_succ] at hget
        -- no memory that is in use is written
        have hold : ({ s with heap := (s.heap.append ⟨g.arr, j + 1, j + 1⟩ ((s.heap.get g).drop (j + 1 + 1)) extra).1 } : State).view =
              s.view ∧ s.heap.next ≤ (s.heap.append ⟨g.arr, j + 1, j + 1⟩ ((s.heap.get g).drop (j + 1 + 1)) extra).1.next ∧
            (s.heap.append ⟨g.arr, j + 1, j + 1⟩ ((s.heap.get g).drop (j + 1 + 1)) extra).1.get g = s.heap.get g := by
          by_cases hcap : j + 1 + ((s.heap.get g).drop (j + 1 + 1)).length ≤ j + 1
          · have h0 : ((s.heap.get g).drop (j + 1 + 1)).length = 0 := by omega
            have e : (s.heap.append ⟨g.arr, j + 1, j + 1⟩ ((s.heap.get g).drop (j + 1 + 1)) extra).1 = s.heap := by
              unfold Heap.append
              rw [if_pos hcap, h0]
              simp only
              have : (fun a i => if a = g.arr ∧ j + 1 ≤ i ∧ i < j + 1 + 0 then
                  ((s.heap.get g).drop (j + 1 + 1)).getD (i - (j + 1)) 0 else s.heap.mem a i) = s.heap.mem := by
                funext a i
                rw [if_neg (by omega)]
              rw [this]
            rw [e]
            exact ⟨rfl, Nat.le_refl _, rfl⟩
          · have e : s.heap.append ⟨g.arr, j + 1, j + 1⟩ ((s.heap.get g).drop (j + 1 + 1)) extra = s.heap.alloc
                (s.heap.get ⟨g.arr, j + 1, j + 1⟩ ++ (s.heap.get g).drop (j + 1 + 1))
                (j + 1 + ((s.heap.get g).drop (j + 1 + 1)).length + extra) := by
              unfold Heap.append; rw [if_neg hcap]
            rw [e]
            have ha := view_alloc hi (s.heap.get ⟨g.arr, j + 1, j + 1⟩ ++ (s.heap.get g).drop (j + 1 + 1))
                (j + 1 + ((s.heap.get g).drop (j + 1 + 1)).length + extra)
            exact ⟨ha.2, Nat.le_succ _, ha.1 g (hi.fresh g (.inl ⟨n, hg⟩))⟩
        have hnew : (s.heap.append ⟨g.arr, j + 1, j + 1⟩ ((s.heap.get g).drop (j + 1 + 1)) extra).2.arr = g.arr ∧
              (s.heap.append ⟨g.arr, j + 1, j + 1⟩ ((s.heap.get g).drop (j + 1 + 1)) extra).2.cap ≤
              (s.heap.append ⟨g.arr, j + 1, j + 1⟩ ((s.heap.get g).drop (j + 1 + 1)) extra).2.len ∨
            (s.heap.append ⟨g.arr, j + 1, j + 1⟩ ((s.heap.get g).drop (j + 1 + 1)) extra).2.arr = s.heap.next ∧
              s.heap.next < (s.heap.append ⟨g.arr, j + 1, j + 1⟩ ((s.heap.get g).drop (j + 1 + 1)) extra).1.next := by
          unfold Heap.append
          split
          · exact .inl ⟨rfl, Nat.le_add_right ..⟩
          · exact .inr ⟨rfl, Nat.lt_succ_self _⟩
        generalize s.heap.append ⟨g.arr, j + 1, j + 1⟩ ((s.heap.get g).drop (j + 1 + 1)) extra = hh at hget hold hnew
        obtain ⟨h, g'⟩ := hh
        simp only at hget hold hnew
        have hi1 : Inv { s with heap := h } := inv_heap hi hold.2.1
        have hgo : s.heap.get g = h.get g := hold.2.2.symm
        have hprop : ∀ i ∈ items g (rest g.len) what (some g'), i.to_.1 = g.arr ∧ i.to_.2 < g.len ∧ i.list = some g' := by
          intro i hi'
          obtain ⟨j, hj, rfl⟩ := List.mem_map.1 hi'
          exact ⟨rfl, mem_rest hj, rfl⟩
        have hg'lt : g'.arr < h.next := by
          rcases hnew with ⟨e1, _⟩ | ⟨e1, e2⟩
          · rw [e1]; exact hi1.fresh g (.inl ⟨n, hg⟩)
          · rw [e1]; exact e2
        -- the new list: alone in its array, or cut off at its length
        have hi2 : Inv (State.set { s with heap := h } n (some g')) := by
          rcases hnew with ⟨e1, e2⟩ | ⟨e1, e2⟩
          · exact inv_set hi1 hg'lt (fun m o hm ho ha => hm (hi.names m n o g ho hg (by rw [ha, e1])))
              (fun k hk ha => hi.apart n g k hg hk (by rw [← ha, e1])) (fun i hi' ha => .inr e2) (fun i hi' p hp ha => .inr e2)
          · refine inv_set hi1 hg'lt (fun m o _ hm => by rw [e1]; exact Nat.ne_of_lt (hi.fresh o (.inl ⟨m, hm⟩)))
              (fun k hk => by rw [e1]; exact (Nat.ne_of_lt (hi.fresh k.2 (.inr ⟨k.1, hk⟩))).symm) (fun i hi' ha => ?_)
              (fun i hi' p hp ha => ?_)
            · rw [e1] at ha; exact absurd ha (Nat.ne_of_lt (hi.ptr i hi').1).symm
            · rw [e1] at ha; exact absurd ha (Nat.ne_of_lt (hi.list i hi' p hp).1).symm
        have hown : (State.set { s with heap := h } n (some g')).groups n = some g' := by simp [State.set]
        refine ⟨?_, inv_queue (s := State.set { s with heap := h } n (some g')) hi2 (fun i hi' => ?_) (fun i hi' p hp => ?_)⟩
        · have hq : (items g (rest g.len) what (some g')).map (Item.view h) =
              Spec.toAll ((s.heap.get g).drop 1) what (some ((s.heap.get g).eraseIdx (j + 1))) := by
            rw [view_items, map_range_drop]
            show ((h.get g).drop 1).map _ = _
            rw [← hgo, Option.map_some, hget]
            rfl
          have hv := hold.1
          rw [view_set, Option.map_some]
          show Spec.State.set _ n (some (h.get g')) = _
          rw [hget]
          congr 1
          simp only [State.view, Spec.State.mk.injEq] at hv ⊢
          exact ⟨hv.1, hv.2.1, by rw [List.map_append, hv.2.2.1, hq], trivial⟩
        · obtain ⟨h1, h2, _⟩ := hprop i hi'
          rw [h1]
          refine ⟨hi1.fresh g (.inl ⟨n, hg⟩), fun o ho e => ?_⟩
          -- who may append to the old array: only the new list, which is full
          rcases ho with ⟨m, hm⟩ | ⟨m, hm⟩
          · by_cases hmn : m = n
            · rw [hmn, hown] at hm
              cases hm
              rcases hnew with ⟨_, e2⟩ | ⟨e1, _⟩
              · exact .inr e2
              · rw [e1] at e; exact absurd e (Nat.ne_of_lt (hi.fresh g (.inl ⟨n, hg⟩))).symm
            · simp only [State.set, if_neg hmn] at hm
              exact absurd (hi.names m n o g hm hg e) hmn
          · exact absurd e.symm (hi.apart n g _ hg hm)
        · obtain ⟨_, _, h3⟩ := hprop i hi'
          rw [h3] at hp
          cases hp
          exact ⟨hg'lt, fun o ho => safe_group hi2 hown ho (Nat.le_refl _)⟩
  | drop n =>
    simp only [step, Spec.step]
    refine ⟨view_set s n none, ?_⟩
    have own : ∀ m o, (s.set n none).groups m = some o → s.groups m = some o := by
      intro m o hm
      simp only [State.set] at hm
      split at hm
      · cases hm
      · exact hm
    have own' : ∀ o, Owner (s.set n none) o → Owner s o := by
      rintro o (⟨m, hm⟩ | h)
      · exact .inl ⟨m, own m o hm⟩
      · exact .inr h
    exact ⟨fun o ho => hi.fresh o (own' o ho), fun m m' o p hm hm' => hi.names m m' o p (own m o hm) (own m' p hm'),
      fun m o k hm => hi.apart m o k (own m o hm), hi.kicks,
      fun i hi' => ⟨(hi.ptr i hi').1, fun o ho => (hi.ptr i hi').2 o (own' o ho)⟩,
      fun i hi' p hp => ⟨(hi.list i hi' p hp).1, fun o ho => (hi.list i hi' p hp).2 o (own' o ho)⟩⟩
  | tell n w what =>
    simp only [step, Spec.step, view_groups]
    cases hg : s.groups n with
    | none => exact ⟨rfl, hi⟩
    | some g =>
      simp only [Option.map_some]
      have hprop : ∀ i ∈ items g (w.pick self (s.heap.get g)) what none, i.to_.1 = g.arr ∧ i.to_.2 < g.len ∧ i.list = none := by
        intro i hi'
        obtain ⟨j, hj, rfl⟩ := List.mem_map.1 hi'
        exact ⟨rfl, mem_pick hj, rfl⟩
      refine ⟨?_, inv_queue hi (fun i hi' => ?_) (fun i hi' p hp => ?_)⟩
      · have hq : (items g (w.pick self (s.heap.get g)) what none).map (Item.view s.heap) =
            Spec.toAll (Spec.whom self w (s.heap.get g)) what none := by
          rw [view_items, map_pick]
          rfl
        simp only [State.view, List.map_append, hq]
      · obtain ⟨h1, h2, _⟩ := hprop i hi'
        rw [h1]
        exact ⟨hi.fresh g (.inl ⟨n, hg⟩), fun o ho => safe_group hi hg ho h2⟩
      · rw [(hprop i hi').2.2] at hp; cases hp
  | send k =>
    simp only [step, Spec.step]
    have hk : s.view.queue[k]? = (s.queue[k]?).map (Item.view s.heap) := by simp [State.view]
    rw [hk]
    cases hq : s.queue[k]? with
    | none => exact ⟨rfl, hi⟩
    | some i =>
      have sub : ∀ x ∈ s.queue.eraseIdx k, x ∈ s.queue := fun x hx => List.mem_of_mem_eraseIdx hx
      refine ⟨?_, hi.fresh, hi.names, hi.apart, hi.kicks, fun x hx => hi.ptr x (sub x hx), fun x hx => hi.list x (sub x hx)⟩
      simp only [State.view, eraseIdx_map, Option.map_some]
      rfl

theorem run_spec (self : Id) (es : List Ev) {s : State} (hi : Inv s) :
    (es.foldl (step self) s).view = es.foldl (Spec.step self) s.view ∧ Inv (es.foldl (step self) s) := by
  induction es generalizing s with
  | nil => exact ⟨rfl, hi⟩
  | cons e es ih =>
    have h := step_spec self hi e
    rw [List.foldl_cons, List.foldl_cons, ← h.1]
    exact ih h.2

/-- **C153** The client behaves as if every list were copied: with arrays that are shared, and recipients that are pointers into
them, everything that can be seen is what it is with lists as values. -/
theorem C153_values (self : Id) (es : List Ev) : (run self es).view = Spec.run self es := (run_spec self es inv_start).1

theorem perm_eraseIdx {α : Type} {l : List α} {k : Nat} {x : α} (h : l[k]? = some x) : (x :: l.eraseIdx k).Perm l := by
  induction l generalizing k with
  | nil => cases h
  | cons y l ih =>
    cases k with
    | zero => cases h; exact .refl _
    | succ k => exact (List.Perm.swap y x _).trans ((ih h).cons y)

theorem spec_step_queue (self : Id) (s : Spec.State) (e : Ev) :
    ∃ more, ((Spec.step self s e).sent ++ (Spec.step self s e).queue).Perm (s.sent ++ s.queue ++ more) ∧
      s.sent <+: (Spec.step self s e).sent := by
  cases e with
  | send k =>
    simp only [Spec.step]
    split
    · exact ⟨[], by rw [List.append_nil], List.prefix_rfl⟩
    · next i h =>
      refine ⟨[], ?_, List.prefix_append ..⟩
      simp only [List.append_nil, List.append_assoc]
      exact (perm_eraseIdx h).append_left _
  | _ =>
    simp only [Spec.step]
    repeat' split
    all_goals first
      | exact ⟨[], .of_eq (List.append_nil _).symm, List.prefix_rfl⟩
      | exact ⟨_, .of_eq (List.append_assoc ..).symm, List.prefix_rfl⟩

/-- **C153** What was queued is sent as it was when it was queued, to whom it was meant for then, whatever happens between and in
whatever order it is sent: later, all of it is still queued or was sent, unchanged. -/
theorem C153_queue (self : Id) (es es' : List Ev) :
    ∃ more, ((run self (es ++ es')).sent ++ (run self (es ++ es')).view.queue).Perm
        ((run self es).sent ++ (run self es).view.queue ++ more) ∧
      (run self es).sent <+: (run self (es ++ es')).sent := by
  have h : ∀ x, (run self x).sent = (run self x).view.sent := fun _ => rfl
  rw [h, h, C153_values, C153_values]
  unfold Spec.run
  rw [List.foldl_append]
  generalize es.foldl (Spec.step self) Spec.start = s
  induction es' generalizing s with
  | nil => exact ⟨[], .of_eq (List.append_nil _).symm, List.prefix_rfl⟩
  | cons e es' ih =>
    obtain ⟨m, h1, h2⟩ := spec_step_queue self s e
    obtain ⟨m', h3, h4⟩ := ih (Spec.step self s e)
    refine ⟨m ++ m', ?_, h2.trans h4⟩
    rw [← List.append_assoc]
    exact h3.trans (h1.append_right m')

/-- **C153** The list of a group changes only by what happens to that group. -/
theorem C153_others (self : Id) (es : List Ev) (e : Ev) (n : Name)
    (hn : match e with
      | .adopt m .. | .joined m .. | .parted m .. | .drop m => m ≠ n
      | .acked k => ∀ x, (run self es).view.kicks[k]? = some x → x.1 ≠ n
      | _ => True) :
    (run self (es ++ [e])).view.groups n = (run self es).view.groups n := by
  rw [C153_values] at hn ⊢
  rw [C153_values]
  unfold Spec.run at hn ⊢
  rw [List.foldl_append, List.foldl_cons, List.foldl_nil]
  generalize es.foldl (Spec.step self) Spec.start = s at hn
  cases e with
  | acked k =>
    simp only [Spec.step]
    simp only at hn
    split
    · rfl
    · next m l h =>
      have := hn _ h
      split
      · simp only [Spec.State.set]
        rw [if_neg (Ne.symm this)]
      · rfl
  | _ =>
    simp only [Spec.step]
    simp only at hn
    repeat' split
    all_goals first
      | rfl
      | simp [Spec.State.set, Ne.symm hn]

/-- Someone leaves, and the next who comes does not get the message that tells them that they left. -/
example : (run 0 [.adopt 7 [0, 1, 2] 5, .parted 7 2 40 0, .joined 7 3 41 0 true, .send 3, .send 0, .send 0, .send 0]).sent =
    [(3, 41, some [0, 1, 3]), (1, 40, some [0, 1]), (2, 40, some [0, 1]), (1, 41, some [0, 1, 3])] := by decide

/-- A file cannot be written, a kick is under way, and another one joins into the same array. -/
example : (run 0 [.adopt 7 [0, 1] 5, .joined 7 2 41 0 false, .tell 7 .others 9, .kick 7 1 42, .joined 7 3 43 0 true, .acked 0,
    .send 0, .send 0, .send 0, .send 0]).sent = [(1, 9, none), (1, 42, some [0]), (1, 43, some [0, 1, 3]), (3, 43, some [0, 1, 3])] := by
  decide

end Verif.Slices
