import Verif.Model.Ends

/-! # C100: nothing of a session outlives it -/

namespace Verif.Ends

/-- All four goroutines have returned. -/
def State.over (s : State) : Prop := s.r = .done ∧ s.w = .done ∧ s.n = .done ∧ s.a = .done

/-- Nothing happens any more unless somebody outside does something. -/
def State.still (d : Nat) (s : State) : Prop := ∀ e, e.inner = true → step d s e = none

/-- The session can come to this state. -/
def Reach (d : Nat) (s : State) : Prop := ∃ todo es, exec d (init d todo) es = some s

structure Inv (d : Nat) (s : State) : Prop where
  quit : s.quit = true ↔ s.r = .quit ∨ s.r = .offline ∨ s.r = .done
  off : s.off = true ↔ s.r = .offline ∨ s.r = .done
  wDone : s.w = .done → s.closed = true
  nDone : s.n = .done → s.closed = true
  rDone : s.r = .done → s.closed = true
  scan : ∀ k, s.a = .scan k ∨ s.a = .send k → k ≤ s.todo
  wq : s.wq ≤ d
  nq : s.nq ≤ d
  tags : s.tags ≤ d

theorem inv_init (d todo : Nat) : Inv d (init d todo) := by
  constructor <;> simp [init]

theorem inv_step {d : Nat} {s s' : State} (h : Inv d s) (e : Ev) (hs : step d s e = some s') : Inv d s' := by
  obtain ⟨h1, h2, h3, h4, h5, h6, h7, h8, h9⟩ := h
  cases e <;> simp only [step] at hs
  case aNext =>
    split at hs
    · rename_i k e
      cases hs
      have := h6 _ (Or.inl e)
      constructor <;> simp_all
      omega
    · cases hs
  case aSend =>
    split at hs
    · rename_i k e
      split at hs
      · cases hs
        have := h6 _ (Or.inr e)
        constructor <;> simp_all
        omega
      · cases hs
    · cases hs
  case aSkip =>
    split at hs
    · rename_i k e
      split at hs
      · cases hs
        have := h6 _ (Or.inr e)
        constructor <;> simp_all
      · cases hs
    · cases hs
  case hangup =>
    cases hs
    constructor <;> simp_all
  case deliver =>
    cases hs
    constructor <;> simp_all
    rintro k e; have := h6 k e; omega
  all_goals
    split at hs
    · cases hs
      constructor <;> simp_all
      all_goals omega
    · cases hs

theorem inv_exec {d : Nat} : ∀ (es : List Ev) {s s' : State}, Inv d s → exec d s es = some s' → Inv d s'
  | [], s, s', h, e => by cases e; exact h
  | a :: es, s, s', h, e => by
    obtain ⟨s1, e1, e2⟩ := Option.bind_eq_some_iff.1 e
    exact inv_exec es (inv_step h a e1) e2

theorem inv_reach {d : Nat} {s : State} (h : Reach d s) : Inv d s := by
  obtain ⟨t, es, e⟩ := h
  exact inv_exec es (inv_init d t) e

/-! ## It comes to rest -/

def R.rank : R → Nat
  | .send => 5 | .push => 5 | .read => 4 | .quit => 3 | .offline => 2 | .done => 0

def W.rank : W → Nat
  | .select => 3 | .write => 2 | .done => 0

def N.rank : N → Nat
  | .pop => 3 | .send => 2 | .select => 1 | .done => 0

def State.aRank (s : State) : Nat :=
  match s.a with
  | .init => 11 + 3 * s.todo | .select => 1 | .scan k => 3 * k + 2 | .send k => 3 * k + 8 | .done => 0

/-- What is left to do once the connection is closed. -/
def State.weight (s : State) : Nat :=
  s.r.rank + s.w.rank + s.n.rank + 4 * s.nq + s.aRank + 8 * s.todo + (if s.work then 8 + 3 * s.todo else 0)

theorem weight_step {d : Nat} {s s' : State} (h : Inv d s) (hc : s.closed = true) (e : Ev) (hi : e.inner = true)
    (hs : step d s e = some s') : s'.weight < s.weight ∧ s'.closed = true := by
  obtain ⟨r, w, n, a, closed, quit, off, wq, nq, tags, work, todo⟩ := s
  have h6 := h.scan
  dsimp only at hc h6
  subst hc
  cases e <;> simp only [step] at hs
  case hangup => cases hi
  case deliver => cases hi
  case aNext =>
    split at hs
    · rename_i k
      cases hs
      have := h6 _ (Or.inl rfl)
      refine ⟨?_, rfl⟩
      simp only [State.weight, State.aRank]
      split <;> omega
    · cases hs
  case aSend =>
    split at hs
    · rename_i k
      split at hs
      · cases hs
        refine ⟨?_, rfl⟩
        simp only [State.weight, State.aRank]
        omega
      · cases hs
    · cases hs
  case aSkip =>
    split at hs
    · rename_i k
      split at hs
      · cases hs
        refine ⟨?_, rfl⟩
        simp only [State.weight, State.aRank]
        omega
      · cases hs
    · cases hs
  all_goals
    split at hs
    · rename_i hg
      cases hs
      first
        | (exact absurd trivial hg.2)
        | (obtain ⟨e1, e2⟩ := hg; subst e1
           refine ⟨?_, rfl⟩
           simp_all only [State.weight, State.aRank, R.rank, W.rank, N.rank, Bool.not_eq_true, if_true, if_false, Bool.false_eq_true]
           omega)
        | (subst hg
           refine ⟨?_, rfl⟩
           simp_all only [State.weight, State.aRank, R.rank, W.rank, N.rank]
           omega)
    · cases hs

theorem weight_exec {d : Nat} : ∀ (es : List Ev) {s s' : State}, Inv d s → s.closed = true → (∀ e ∈ es, e.inner = true) →
    exec d s es = some s' → s'.weight + es.length ≤ s.weight ∧ s'.closed = true
  | [], s, s', _, hc, _, e => by cases e; exact ⟨Nat.le_refl _, hc⟩
  | a :: es, s, s', h, hc, hi, e => by
    obtain ⟨s1, e1, e2⟩ := Option.bind_eq_some_iff.1 e
    obtain ⟨h1, h2⟩ := weight_step h hc a (hi a List.mem_cons_self) e1
    obtain ⟨h3, h4⟩ := weight_exec es (inv_step h a e1) h2 (fun e he => hi e (List.mem_cons_of_mem _ he)) e2
    exact ⟨by rw [List.length_cons]; omega, h4⟩

/-- Once the connection is closed, what the goroutines do comes to rest, if no more messages arrive. -/
theorem C100_rest (d : Nat) (s s' : State) (h : Reach d s) (hc : s.closed = true) (es : List Ev) (hi : ∀ e ∈ es, e.inner = true)
    (he : exec d s es = some s') : es.length ≤ s.weight := by
  have := (weight_exec es (inv_reach h) hc hi he).1
  omega

/-! ## Who may be left -/

/-- The reader waits for room in the queue of a writer that is gone. -/
def State.rRoom (d : Nat) (s : State) : Prop := s.r = .send ∧ s.wq = d ∧ s.w = .done
/-- The reader waits for room for a tag that was not handed out. -/
def State.rTag (d : Nat) (s : State) : Prop := s.r = .push ∧ s.tags = d
/-- The notifier waits for a tag. -/
def State.nTag (s : State) : Prop := s.n = .pop ∧ s.tags = 0
/-- The notifier waits for room in the queue of a writer that is gone. -/
def State.nRoom (d : Nat) (s : State) : Prop := s.n = .send ∧ s.wq = d ∧ s.w = .done
/-- The goroutine of the account wants to say that there is work, but a delivery already has. -/
def State.aWork (s : State) : Prop := s.a = .init ∧ s.work = true

/-- The exact reasons for which a goroutine is left when nothing moves any more. -/
theorem C100_exact (d : Nat) (hd : 0 < d) (s : State) (h : Reach d s) (hs : s.still d) :
    s.over ↔ ¬ s.rRoom d ∧ ¬ s.rTag d ∧ ¬ s.nTag ∧ ¬ s.nRoom d ∧ ¬ s.aWork := by
  have hi := inv_reach h
  constructor
  · rintro ⟨h1, h2, h3, h4⟩
    refine ⟨?_, ?_, ?_, ?_, ?_⟩ <;> intro hx <;> have := hx.1 <;> simp_all
  · rintro ⟨n1, n2, n3, n4, n5⟩
    have hw : s.w = .done ∨ (s.w = .select ∧ s.wq = 0 ∧ s.quit = false) := by
      cases hw : s.w with
      | done => exact Or.inl rfl
      | write => have := hs .wFail rfl; simp [step, hw] at this
      | select =>
        have h1 := hs .wQuit rfl
        have h2 := hs .wTake rfl
        simp [step, hw] at h1 h2
        exact Or.inr ⟨rfl, by omega, by simpa using h1⟩
    have hr : s.r = .done := by
      cases hr : s.r with
      | done => rfl
      | read => have := hs .fail rfl; simp [step, hr] at this
      | quit => have := hs .rOffline rfl; simp [step, hr] at this
      | offline => have := hs .rDone rfl; simp [step, hr] at this
      | push =>
        have h1 := hs .rPush rfl
        simp [step, hr] at h1
        exact absurd ⟨hr, Nat.le_antisymm hi.tags h1⟩ n2
      | send =>
        have h1 := hs .rSend rfl
        simp [step, hr] at h1
        rcases hw with hw | hw
        · exact absurd ⟨hr, Nat.le_antisymm hi.wq h1, hw⟩ n1
        · omega
    have hq : s.quit = true := hi.quit.2 (Or.inr (Or.inr hr))
    have ho : s.off = true := hi.off.2 (Or.inr hr)
    have hw : s.w = .done := by
      rcases hw with hw | hw
      · exact hw
      · rw [hq] at hw; cases hw.2.2
    refine ⟨hr, hw, ?_, ?_⟩
    · cases hn : s.n with
      | done => rfl
      | select => have := hs .nQuit rfl; simp [step, hn, hq] at this
      | pop =>
        have := hs .nPop rfl
        simp [step, hn] at this
        exact absurd ⟨hn, this⟩ n3
      | send =>
        have := hs .nSend rfl
        simp [step, hn] at this
        exact absurd ⟨hn, Nat.le_antisymm hi.wq this, hw⟩ n4
    · cases ha : s.a with
      | done => rfl
      | init =>
        have := hs .aInit rfl
        simp [step, ha] at this
        exact absurd ⟨ha, this⟩ n5
      | select => have := hs .aQuit rfl; simp [step, ha, ho] at this
      | scan k =>
        cases k with
        | zero => have := hs .aEnd rfl; simp [step, ha] at this
        | succ k => have := hs .aNext rfl; simp [step, ha] at this
      | send k => have := hs .aSkip rfl; simp [step, ha, ho] at this

/-- Four of the five are for ever, whatever else happens. -/
theorem C100_forever (d : Nat) (s s' : State) (es : List Ev) (he : exec d s es = some s') :
    (s.rRoom d → s'.rRoom d) ∧ (s.nRoom d → s'.nRoom d) ∧ (s.aWork → s'.aWork) ∧ (s.r = .done ∧ s.nTag → s'.r = .done ∧ s'.nTag) := by
  induction es generalizing s with
  | nil => cases he; exact ⟨id, id, id, id⟩
  | cons e es ih =>
    obtain ⟨s1, e1, e2⟩ := Option.bind_eq_some_iff.1 he
    obtain ⟨i1, i2, i3, i4⟩ := ih s1 e2
    have key : (s.rRoom d → s1.rRoom d) ∧ (s.nRoom d → s1.nRoom d) ∧ (s.aWork → s1.aWork) ∧
        (s.r = .done ∧ s.nTag → s1.r = .done ∧ s1.nTag) := by
      unfold State.rRoom State.nRoom State.aWork State.nTag
      cases e <;> simp only [step] at e1
      case hangup => cases e1; exact ⟨id, id, id, id⟩
      case deliver =>
        cases e1
        refine ⟨id, id, ?_, id⟩
        rintro ⟨h1, h2⟩
        refine ⟨h1, ?_⟩
        dsimp only
        split
        · exact h2
        · rfl
      case aNext =>
        split at e1
        · cases e1; simp_all
        · cases e1
      case aSend =>
        split at e1
        · split at e1
          · cases e1; simp_all
          · cases e1
        · cases e1
      case aSkip =>
        split at e1
        · split at e1
          · cases e1; simp_all
          · cases e1
        · cases e1
      all_goals
        split at e1
        · rename_i hg
          cases e1
          refine ⟨?_, ?_, ?_, ?_⟩ <;> intro hh <;> simp_all
        · cases e1
    exact ⟨i1 ∘ key.1, i2 ∘ key.2.1, i3 ∘ key.2.2.1, i4 ∘ key.2.2.2⟩

/-! ## When nothing is left -/

def A.one : A → Nat
  | .init => 1 | .send _ => 1 | _ => 0

/-- The notifications that may still come to the notifier. -/
def State.coming (s : State) : Nat :=
  s.nq + s.todo + (if s.work then 1 else 0) + s.a.one

/-- There are tags and there is room for all that may still come. -/
structure State.calm (d : Nat) (s : State) : Prop where
  tags : s.coming + (if s.n = .pop then 1 else 0) ≤ s.tags
  room : s.wq + s.coming + (if s.n = .pop ∨ s.n = .send then 1 else 0) + (if s.r = .send then 1 else 0) ≤ d
  push : s.r = .push → s.tags < d
  work : s.a = .init → s.work = false

theorem calm_step {d : Nat} {s s' : State} (h : Inv d s) (hc : s.closed = true) (hm : s.calm d) (e : Ev) (hi : e.inner = true)
    (hs : step d s e = some s') : s'.calm d := by
  obtain ⟨m1, m2, m3, m4⟩ := hm
  obtain ⟨r, w, n, a, closed, quit, off, wq, nq, tags, work, todo⟩ := s
  have h6 := h.scan
  dsimp only at hc h6 m1 m2 m3 m4
  subst hc
  simp only [State.coming] at m1 m2
  cases e <;> simp only [step] at hs
  case hangup => cases hi
  case deliver => cases hi
  case aNext =>
    split at hs
    · rename_i k
      cases hs
      have := h6 _ (Or.inl rfl)
      dsimp only [A.one] at m1 m2
      constructor <;> simp only [State.coming, A.one] <;> first | omega | assumption | simp
    · cases hs
  case aSend =>
    split at hs
    · rename_i k
      split at hs
      · cases hs
        dsimp only [A.one] at m1 m2
        constructor <;> simp only [State.coming, A.one] <;> first | omega | assumption | simp
      · cases hs
    · cases hs
  case aSkip =>
    split at hs
    · rename_i k
      split at hs
      · cases hs
        dsimp only [A.one] at m1 m2
        constructor <;> simp only [State.coming, A.one] <;> first | omega | assumption | simp
      · cases hs
    · cases hs
  all_goals
    split at hs
    · rename_i hg
      cases hs
      first
        | (exact absurd trivial hg.2)
        | (obtain ⟨e1, e2⟩ := hg; subst e1
           constructor <;> simp_all [State.coming, A.one] <;>
             first | done | omega | (intro hr; have := m3 hr; omega) | (split <;> omega))
        | (subst hg
           constructor <;> simp_all [State.coming, A.one] <;>
             first | done | omega | (intro hr; have := m3 hr; omega) | (split <;> omega))
    · cases hs

theorem calm_exec {d : Nat} : ∀ (es : List Ev) {s s' : State}, Inv d s → s.closed = true → s.calm d → (∀ e ∈ es, e.inner = true) →
    exec d s es = some s' → s'.calm d
  | [], s, s', _, _, hm, _, e => by cases e; exact hm
  | a :: es, s, s', h, hc, hm, hi, e => by
    obtain ⟨s1, e1, e2⟩ := Option.bind_eq_some_iff.1 e
    have hia := hi a List.mem_cons_self
    exact calm_exec es (inv_step h a e1) (weight_step h hc a hia e1).2 (calm_step h hc hm a hia e1)
      (fun e he => hi e (List.mem_cons_of_mem _ he)) e2

theorem reach_exec {d : Nat} {s s' : State} {es : List Ev} (h : Reach d s) (he : exec d s es = some s') : Reach d s' := by
  obtain ⟨t, es0, h0⟩ := h
  refine ⟨t, es0 ++ es, ?_⟩
  have app : ∀ (a b : List Ev) (x : State), exec d x (a ++ b) = (exec d x a).bind fun y => exec d y b := by
    intro a
    induction a with
    | nil => intro b x; rfl
    | cons e a ih =>
      intro b x
      simp only [List.cons_append, exec]
      cases step d x e with
      | none => rfl
      | some y => exact ih b y
  rw [app, h0]
  exact he

/-- A session whose connection is closed while there are tags and room for all that may still come: whatever order things
happen in, when they are over all four goroutines are. -/
theorem C100_ends_partial (d : Nat) (hd : 0 < d) (s s' : State) (h : Reach d s) (hc : s.closed = true) (hm : s.calm d)
    (es : List Ev) (hi : ∀ e ∈ es, e.inner = true) (he : exec d s es = some s') (hs : s'.still d) : s'.over := by
  have m := calm_exec es (inv_reach h) hc hm hi he
  refine (C100_exact d hd s' (reach_exec h he) hs).2 ⟨?_, ?_, ?_, ?_, ?_⟩
  · rintro ⟨h1, h2, -⟩
    have := m.room
    rw [if_pos h1] at this
    omega
  · rintro ⟨h1, h2⟩
    have := m.push h1
    omega
  · rintro ⟨h1, h2⟩
    have := m.tags
    rw [if_pos h1] at this
    omega
  · rintro ⟨h1, h2, -⟩
    have := m.room
    rw [if_pos (Or.inr h1)] at this
    omega
  · rintro ⟨h1, h2⟩
    have := m.work h1
    rw [h2] at this
    cases this

/-- One announcement after the other, none of them acknowledged. -/
def announce : Nat → List Ev
  | 0 => []
  | n + 1 => [.aNext, .aSend, .nTake, .nPop, .nSend, .wTake, .wOk] ++ announce n

/-- Ten messages, seven of them written when the client goes away. -/
example : ∃ s, Reach 32 s ∧ s.closed = true ∧ s.calm 32 ∧ s.n = .pop ∧ s.tags = 25 ∧
    ∃ es s', (∀ e ∈ es, e.inner = true) ∧ exec 32 s es = some s' ∧ s'.over := by
  refine ⟨⟨.read, .select, .pop, .send 1, true, false, false, 0, 0, 25, false, 1⟩,
    ⟨10, [.aInit, .aWork] ++ announce 7 ++ [.aNext, .aSend, .nTake, .aNext, .hangup], by decide +kernel⟩, rfl,
    ⟨by decide, by decide, by decide, by decide⟩, rfl, rfl,
    [.fail, .wQuit, .nPop, .nSend, .nQuit, .rOffline, .aSkip, .aNext, .aSend, .aEnd, .aQuit, .rDone],
    ⟨.done, .done, .done, .done, true, true, true, 1, 1, 24, false, 0⟩, by decide, by decide +kernel, by decide, by decide, by decide, by decide⟩

/-! ## When something is left -/

instance (d : Nat) (s : State) (e : Ev) : Decidable (step d s e = none) := inferInstance

def Ev.all : List Ev :=
  [.request, .ack, .fail, .rSend, .rPush, .rOffline, .rDone, .wQuit, .wTake, .wOk, .wFail, .nQuit, .nTake, .nError, .nPop,
   .nDup, .nSend, .aInit, .aQuit, .aWork, .aError, .aNext, .aEnd, .aSend, .aSkip]

theorem still_of {d : Nat} {s : State} (h : ∀ e ∈ Ev.all, step d s e = none) : s.still d := by
  intro e hi
  refine h e ?_
  cases e <;> first | decide | cases hi

/-- A client that has 33 messages waiting connects, is sent 32 of them, and loses its connection before it has acknowledged
one.  The session ends, but `sessionNtfn` waits for a tag for ever. -/
theorem C100_tag_violated : ∃ s, Reach 32 s ∧ s.r = .done ∧ s.closed = true ∧ s.still 32 ∧ s.n = .pop ∧
    ∀ es s', exec 32 s es = some s' → s'.n = .pop := by
  refine ⟨⟨.done, .done, .pop, .done, true, true, true, 0, 0, 0, false, 0⟩,
    ⟨33, [.aInit, .aWork] ++ announce 32 ++ [.aNext, .aSend, .nTake, .aEnd, .hangup, .fail, .rOffline, .rDone, .wQuit, .aQuit],
      by decide +kernel⟩, rfl, rfl, still_of (by decide), rfl, ?_⟩
  intro es s' he
  exact ((C100_forever 32 _ s' es he).2.2.2 ⟨rfl, rfl, rfl⟩).2.1

/-- A client sends requests and does not read the answers, then goes away: the session never ends. -/
theorem C100_reader_violated : ∃ s, Reach 32 s ∧ s.closed = true ∧ s.still 32 ∧
    ∀ es s', exec 32 s es = some s' → s'.r = .send := by
  refine ⟨⟨.send, .done, .select, .select, true, false, false, 32, 0, 32, false, 0⟩,
    ⟨0, [.aInit, .aWork, .aEnd, .request, .rSend, .wTake] ++ (List.replicate 32 [Ev.request, .rSend]).flatten ++
      [.request, .hangup, .wFail], by decide +kernel⟩, rfl, still_of (by decide), ?_⟩
  intro es s' he
  exact ((C100_forever 32 _ s' es he).1 ⟨rfl, rfl, rfl⟩).1

/-- A message arrives while the user is going online, before the goroutine of the account has begun: it never does, and is
left when the session is over. -/
theorem C100_work_violated : ∃ s, Reach 32 s ∧ s.r = .done ∧ s.closed = true ∧ s.still 32 ∧
    ∀ es s', exec 32 s es = some s' → s'.a = .init := by
  refine ⟨⟨.done, .done, .done, .init, true, true, true, 0, 0, 32, true, 1⟩,
    ⟨0, [.deliver, .hangup, .fail, .rOffline, .rDone, .wQuit, .nQuit], by decide +kernel⟩, rfl, rfl, still_of (by decide), ?_⟩
  intro es s' he
  exact ((C100_forever 32 _ s' es he).2.2.1 ⟨rfl, rfl⟩).1

end Verif.Ends
