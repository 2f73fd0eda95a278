import Verif.Model.Quit
import Verif.Props.Scheduler

/-! # C125: the program does not end, unless forced, while something waits to be sent -/

namespace Verif.Quit

open Scheduler (queuedOf attempts doneIn pending AtRest inHand)

variable {M : Type}

/-- Something that was queued has not been transmitted. -/
def Waiting (q : State M) : Prop := ∃ p, queuedOf p q.s ≠ doneIn (attempts p q.s)

/-- The user has left: the program has ended or is about to. -/
def Left (q : State M) : Prop := q.phase = .closing ∨ q.phase = .ended

abbrev Any : State M → Ev M → Prop := fun _ _ => True

/-! ## The scheduler underneath -/

/-- What is known of the scheduler in every state of an execution. -/
def Inv (q : State M) : Prop := Scheduler.Head q.s ∧ Scheduler.Fifo q.s ∧ (q.asked = true → q.s.sender = .idle)

theorem sender_step {s s' : Scheduler.State M} {e : Scheduler.Ev M} (h : ofSender e = false)
    (hs : Scheduler.step s e = some s') : s'.sender = s.sender := by
  cases e <;> try cases h
  all_goals simp only [Scheduler.step] at hs
  case schedule p m => cases p <;> simp only at hs <;> split at hs <;> cases hs <;> rfl
  case takeHi => split at hs <;> cases hs; rfl
  case takeLo => split at hs <;> cases hs; rfl
  case work =>
    split at hs <;> try cases hs
    all_goals try rfl
    split at hs <;> cases hs <;> rfl

theorem inv_step {q q' : State M} {e : Ev M} (h : Inv q) (hs : step q e = some q') : Inv q' := by
  unfold step at hs
  split at hs
  swap
  · cases hs
  cases e with
  | sched e =>
    simp only at hs
    split at hs
    · cases hs
    · next hb =>
      simp only [Option.map_eq_some_iff] at hs
      obtain ⟨s, h1, rfl⟩ := hs
      refine ⟨Scheduler.head_step h.1 h1, Scheduler.fifo_step h.1 h.2.1 h1, fun ha => ?_⟩
      have ha' : q.asked = true := ha
      have : ofSender e = false := by
        cases hx : ofSender e
        · rfl
        · exact absurd (by rw [ha', hx]; rfl) hb
      exact (sender_step this h1).trans (h.2.2 ha')
  | ask =>
    simp only at hs
    split at hs
    · next hb =>
      cases hs
      refine ⟨h.1, h.2.1, fun _ => ?_⟩
      simp only [Bool.and_eq_true] at hb
      show q.s.sender = .idle
      rcases hx : q.s.sender with _ | _ | ⟨b, m⟩ | b
      · rfl
      all_goals rw [hx] at hb; exact absurd hb.2 (by simp [waits])
    · cases hs
  | busy =>
    simp only at hs
    split at hs <;> cases hs
    exact h
  | answer =>
    simp only at hs
    split at hs
    · split at hs <;> cases hs <;> exact ⟨h.1, h.2.1, fun ha => by cases ha⟩
    · cases hs
  | force =>
    simp only at hs
    split at hs <;> cases hs
    exact h
  | key => cases hs; exact h
  | leave =>
    simp only at hs
    split at hs <;> cases hs
    exact h

theorem inv_init : Inv (init M) := ⟨Scheduler.head_init, Scheduler.fifo_init, fun h => by cases h⟩

theorem inv_run {G : State M → Ev M → Prop} {q q' : State M} {es : List (Ev M)} (h : Inv q) (hr : Run G q es q') :
    Inv q' := by
  induction hr with
  | nil => exact h
  | cons _ hs _ ih => exact ih (inv_step h hs)

theorem waiting_iff {q : State M} (h : Inv q) : Waiting q ↔ ∃ p, pending p q.s ≠ [] := by
  unfold Waiting
  refine exists_congr fun p => ?_
  rw [h.2.1 p]
  constructor
  · intro hn hp
    rw [hp, List.append_nil] at hn
    exact hn rfl
  · intro hn hp
    exact hn (List.append_right_eq_self.mp hp)

/-! ## What the answer means -/

/-- **C125** Whenever the user is told that the queue is not empty, something waits to be sent, and the program goes on as
it was. -/
theorem C125_refused (es : List (Ev M)) (q q' : State M) (hr : Run Any (init M) es q) (hs : step q .answer = some q')
    (hn : q'.refused ≠ q.refused) : Waiting q ∧ q'.s = q.s ∧ q'.phase = q.phase := by
  have h := inv_run inv_init hr
  unfold step at hs
  split at hs
  swap
  · cases hs
  simp only at hs
  split at hs
  swap
  · cases hs
  next ha =>
  split at hs <;> cases hs
  · next hb =>
    refine ⟨(waiting_iff h).mpr ?_, rfl, rfl⟩
    have hi := h.2.2 ha
    simp only [Bool.or_eq_true, bne_iff_ne, ne_eq, List.length_eq_zero_iff] at hb
    rcases hb with hb | hb
    · exact ⟨true, by simp [pending, Scheduler.slice, Scheduler.rest, hi, Scheduler.State.sl, hb]⟩
    · exact ⟨false, by simp [pending, Scheduler.slice, Scheduler.rest, hi, Scheduler.State.sl, hb]⟩
  · exact absurd rfl hn

/-- **C125** (partial: more could wait in the channels.) If the question of `/quit` was answered and the program ends, then
everything that was queued is transmitted but what had not yet come to the slices: what is in the channels, and what the
first goroutine has in its hands. -/
theorem C125_answered_partial (es : List (Ev M)) (q q' : State M) (hr : Run Any (init M) es q)
    (hs : step q .answer = some q') (hn : q'.phase ≠ q.phase) (p : Bool) :
    queuedOf p q.s = doneIn (attempts p q.s) ++ (inHand p q.s.worker ++ q.s.ch p) := by
  have h := inv_run inv_init hr
  unfold step at hs
  split at hs
  swap
  · cases hs
  simp only at hs
  split at hs
  swap
  · cases hs
  next ha =>
  split at hs <;> cases hs
  · exact absurd rfl hn
  · next hb =>
    have hi := h.2.2 ha
    simp only [Bool.or_eq_true, bne_iff_ne, ne_eq, List.length_eq_zero_iff, not_or, Decidable.not_not] at hb
    rw [h.2.1 p]
    cases p <;> simp [pending, Scheduler.slice, Scheduler.rest, hi, Scheduler.State.sl, hb.1, hb.2]

/-- **C125** The user is always answered: while the question is open, the answer is possible. -/
theorem C125_always_answered (q : State M) (ha : q.asked = true)
    (hl : q.phase = .running ∨ q.phase = .closing) : ∃ q', step q .answer = some q' ∧ q'.asked = false := by
  have hv : q.phase.live = true := by rcases hl with h | h <;> rw [h] <;> rfl
  unfold step
  rw [hv, if_pos rfl]
  simp only [ha, if_true]
  split
  · exact ⟨_, rfl, rfl⟩
  · exact ⟨_, rfl, rfl⟩

/-- **C125** `/quit force` ends the program whatever waits, and takes no notice of it. -/
theorem C125_force (q : State M) (hp : q.phase = .running) (ha : q.asked = false) :
    ∃ q1 q2, step q .force = some q1 ∧ step q1 .leave = some q2 ∧ q2.phase = .ended ∧ q2.s = q.s ∧ q2.refused = q.refused := by
  have hv : q.phase.live = true := by rw [hp]; rfl
  refine ⟨{ q with phase := .closing }, { q with phase := .ended }, ?_, ?_, rfl, rfl, rfl⟩
  · simp [step, ha, hp, Phase.close, Phase.live]
  · simp [step, Phase.live]

/-- **C125** Once the program has ended, or crashed, nothing is done any more: no message is queued or transmitted, and
nobody is answered. -/
theorem C125_over {G : State M → Ev M → Prop} (q q' : State M) (es : List (Ev M))
    (hp : q.phase = .ended ∨ q.phase = .crashed) (hr : Run G q es q') : es = [] ∧ q' = q := by
  cases hr with
  | nil => exact ⟨rfl, rfl⟩
  | cons _ hs _ =>
    unfold step at hs
    rcases hp with hp | hp <;> rw [hp] at hs <;> cases hs

/-! ## A user who waits until nothing moves -/

theorem atRest_parts {s : Scheduler.State M} (h : AtRest s) :
    s.worker = .idle ∧ s.chHi = [] ∧ s.chLo = [] ∧ s.sender = .idle ∧ s.signals = 0 := by
  have hwk : s.worker = .idle := by
    have := h .work trivial
    simp only [Scheduler.step] at this
    split at this <;> first | assumption | cases this | skip
    split at this <;> cases this
  have hch : s.chHi = [] := by
    have := h .takeHi trivial
    simp only [Scheduler.step, hwk] at this
    rcases hx : s.chHi with _ | ⟨a, r⟩
    · rfl
    · rw [hx] at this; cases this
  have hcl : s.chLo = [] := by
    have := h .takeLo trivial
    simp only [Scheduler.step, hwk] at this
    rcases hx : s.chLo with _ | ⟨a, r⟩
    · rfl
    · rw [hx] at this; cases this
  have hsd : s.sender = .idle := by
    rcases hx : s.sender with _ | _ | ⟨b, m⟩ | b
    · rfl
    · have := h .pick trivial
      simp only [Scheduler.step, hx] at this
      rcases h1 : s.hi with _ | ⟨a, r⟩ <;> rcases h2 : s.lo with _ | ⟨a', r'⟩ <;> simp [h1, h2] at this
    · have := h (.transmit .ok) trivial
      simp [Scheduler.step, hx] at this
    · have := h .remove trivial
      cases b <;> simp [Scheduler.step, hx] at this
  have hsig : s.signals = 0 := by
    have := h .wake trivial
    simp only [Scheduler.step, hsd] at this
    rcases hx : s.signals with _ | n
    · rfl
    · rw [hx] at this; cases this
  exact ⟨hwk, hch, hcl, hsd, hsig⟩

theorem pending_atRest {s : Scheduler.State M} (h : AtRest s) (p : Bool) : pending p s = s.sl p := by
  obtain ⟨h1, h2, h3, h4, h5⟩ := atRest_parts h
  cases p <;> simp [pending, Scheduler.slice, Scheduler.rest, h4, Scheduler.State.ch, h1, inHand, h2, h3]

/-- **C125** (partial: for a user who waits until nothing moves.) When the scheduler is at rest, `/quit` asks, and the
program ends exactly if nothing waits to be sent; otherwise the user is told. -/
theorem C125_quiet_partial (es : List (Ev M)) (q : State M) (hr : Run Any (init M) es q) (hrest : AtRest q.s)
    (hp : q.phase = .running) (ha : q.asked = false) :
    step q .busy = none ∧ ∃ q1 q2, step q .ask = some q1 ∧ step q1 .answer = some q2 ∧
      (Waiting q → q2.phase = .running ∧ q2.refused = q.refused + 1) ∧ (¬ Waiting q → q2.phase = .closing) := by
  have h := inv_run inv_init hr
  obtain ⟨h1, h2, h3, h4, h5⟩ := atRest_parts hrest
  have hv : q.phase.live = true := by rw [hp]; rfl
  refine ⟨by simp [step, hv, ha, waits, h4, h5], { q with asked := true }, ?_⟩
  have hask : step q .ask = some { q with asked := true } := by simp [step, hv, ha, waits, h4]
  by_cases hw : Waiting q
  · obtain ⟨p, hw'⟩ := (waiting_iff h).mp hw
    rw [pending_atRest hrest] at hw'
    refine ⟨{ q with asked := false, refused := q.refused + 1 }, hask, ?_, fun _ => ⟨hp, rfl⟩, fun hn => absurd hw hn⟩
    have : (q.s.hi.length != 0 || q.s.lo.length != 0) = true := by
      cases p
      · have : q.s.lo ≠ [] := hw'
        simp [this]
      · have : q.s.hi ≠ [] := hw'
        simp [this]
    simp only [step, hv, if_true, this]
  · have hn : ∀ p, pending p q.s = [] := fun p => Decidable.not_not.mp fun hx =>
      hw ((waiting_iff h).mpr ⟨p, hx⟩)
    have e1 : q.s.hi = [] := by rw [← show q.s.sl true = q.s.hi from rfl, ← pending_atRest hrest]; exact hn true
    have e2 : q.s.lo = [] := by rw [← show q.s.sl false = q.s.lo from rfl, ← pending_atRest hrest]; exact hn false
    refine ⟨{ q with asked := false, phase := q.phase.close }, hask, ?_, fun hx => absurd hx hw, fun _ => ?_⟩
    · simp [step, hv, e1, e2]
    · show q.phase.close = .closing
      rw [hp]; rfl

/-- A patient user: leaves with `/quit` only, only while nothing moves, types it no second time once it was accepted, and
nothing is queued after that. -/
def Patient (q : State M) : Ev M → Prop
  | .ask => AtRest q.s ∧ q.phase = .running
  | .sched (.schedule _ _) => q.asked = false ∧ q.phase = .running
  | .busy | .force | .key => False
  | _ => True

/-- What holds while the user is patient. -/
structure Calm (q : State M) : Prop where
  inv : Inv q
  asked : q.asked = true → AtRest q.s ∧ q.phase = .running
  left : q.phase = .running ∨ (AtRest q.s ∧ q.s.hi = [] ∧ q.s.lo = []) ∧ Left q

theorem calm_step {q q' : State M} {e : Ev M} (h : Calm q) (hg : Patient q e) (hs : step q e = some q') : Calm q' := by
  have hi := inv_step h.inv hs
  unfold step at hs
  split at hs
  swap
  · cases hs
  cases e with
  | sched e =>
    simp only at hs
    split at hs
    · cases hs
    simp only [Option.map_eq_some_iff] at hs
    obtain ⟨s, h1, rfl⟩ := hs
    have hb : q.asked = false ∧ q.phase = .running := by
      have hr : ¬ AtRest q.s ∨ (q.asked = false ∧ q.phase = .running) := by
        cases e with
        | schedule p m => exact .inr hg
        | _ => exact .inl fun hr => Option.some_ne_none _ (h1.symm.trans (hr _ (by trivial)))
      rcases hr with hr | hr
      · refine ⟨?_, ?_⟩
        · cases hx : q.asked
          · rfl
          · exact absurd (h.asked hx).1 hr
        · rcases h.left with hl | hl
          · exact hl
          · exact absurd hl.1.1 hr
      · exact hr
    exact ⟨hi, fun ha => absurd (ha.symm.trans hb.1) (by simp), .inl hb.2⟩
  | ask =>
    simp only at hs
    split at hs <;> cases hs
    exact ⟨hi, fun _ => hg, .inl hg.2⟩
  | answer =>
    simp only at hs
    split at hs
    swap
    · cases hs
    next ha =>
    obtain ⟨hr, hp⟩ := h.asked ha
    split at hs <;> cases hs
    · exact ⟨hi, fun ha => (by cases ha), .inl hp⟩
    · next hb =>
      simp only [Bool.or_eq_true, bne_iff_ne, ne_eq, List.length_eq_zero_iff, not_or, Decidable.not_not] at hb
      exact ⟨hi, fun ha => (by cases ha), .inr ⟨⟨hr, hb⟩, .inl (by show q.phase.close = _; rw [hp]; rfl)⟩⟩
  | leave =>
    simp only at hs
    split at hs <;> cases hs
    next hp =>
    rcases h.left with hl | hl
    · rw [hl] at hp; cases hp
    · refine ⟨hi, fun ha => ?_, .inr ⟨hl.1, .inr rfl⟩⟩
      have := (h.asked ha).2
      rw [hp] at this; cases this
  | busy => exact hg.elim
  | force => exact hg.elim
  | key => exact hg.elim

/-- **C125** (partial: for a patient user.) Once the user has left, everything that was ever queued has been transmitted; and
leaving never crashes. -/
theorem C125_patient_partial (es : List (Ev M)) (q : State M) (hr : Run Patient (init M) es q) :
    (Left q → ¬ Waiting q) ∧ q.phase ≠ .crashed := by
  have h : Calm q := by
    suffices hg : ∀ t : State M, Calm t → Run Patient t es q → Calm q from
      hg _ ⟨inv_init, fun h => (by cases h), .inl rfl⟩ hr
    clear hr
    intro t ht hr
    induction hr with
    | nil => exact ht
    | cons hg hs _ ih => exact ih (calm_step ht hg hs)
  refine ⟨fun hl hw => ?_, fun hc => ?_⟩
  · rcases h.left with hx | ⟨⟨hr, e1, e2⟩, _⟩
    · rcases hl with hl | hl <;> rw [hx] at hl <;> cases hl
    · obtain ⟨p, hp⟩ := (waiting_iff h.inv).mp hw
      rw [pending_atRest hr] at hp
      cases p
      · exact hp e2
      · exact hp e1
  · rcases h.left with hx | ⟨_, hx | hx⟩ <;> rw [hx] at hc <;> cases hc

/-! ## What goes wrong -/

def exec (q : State M) : List (Ev M) → Option (State M)
  | [] => some q
  | e :: es => match step q e with | none => none | some q' => exec q' es

theorem run_of_exec {q q' : State M} {es : List (Ev M)} (h : exec q es = some q') : Run Any q es q' := by
  induction es generalizing q with
  | nil => cases h; exact .nil _
  | cons e es ih =>
    simp only [exec] at h
    split at h
    · cases h
    · next s1 h1 => exact .cons trivial h1 (ih h)

/-- A message is typed and on its way to the slice of what waits. -/
def typed : List (Ev Nat) := [.sched (.schedule true 5), .sched .takeHi, .sched .work, .sched .work, .sched .work]

/-- **C125** The full statement is false: while a message is being transmitted the question can not be put, and the program
ends although that message and another one wait. The other one is never sent. -/
theorem C125_busy_violated : ∃ q : State Nat,
    Run Any (init Nat) (typed ++ [.sched .wake, .sched .pick, .sched (.schedule true 6), .sched .takeHi, .sched .work, .sched .work, .sched .work,
      .busy, .leave]) q ∧ q.phase = .ended ∧ queuedOf true q.s = [5, 6] ∧ attempts true q.s = [] ∧ q.s.hi = [5, 6] :=
  ⟨_, run_of_exec rfl, rfl, rfl, rfl, rfl⟩

/-- **C125** A message that has just been typed is not counted: the question is answered with nothing, and the message is
lost. -/
theorem C125_just_typed_violated : ∃ q : State Nat,
    Run Any (init Nat) [.sched (.schedule true 5), .ask, .answer, .leave] q ∧ q.phase = .ended ∧ queuedOf true q.s = [5] ∧
      attempts true q.s = [] ∧ q.refused = 0 :=
  ⟨_, run_of_exec rfl, rfl, rfl, rfl, rfl⟩

/-- **C125** Control-Q asks nothing. -/
theorem C125_key_violated : ∃ q : State Nat,
    Run Any (init Nat) (typed ++ [.sched .wake, .sched .pick, .sched (.transmit .failed), .key]) q ∧ q.phase = .ended ∧
      queuedOf true q.s = [5] ∧ doneIn (attempts true q.s) = [] :=
  ⟨_, run_of_exec rfl, rfl, rfl, rfl⟩

/-- **C125** `/quit` that is typed twice crashes the program, even with nothing to send. -/
theorem C125_twice_violated : ∃ q : State Nat,
    Run Any (init Nat) [.ask, .answer, .ask, .answer] q ∧ q.phase = .crashed ∧ ¬ Waiting q :=
  ⟨_, run_of_exec rfl, rfl, fun ⟨p, h⟩ => h (by cases p <;> rfl)⟩

/-! ## Examples -/

/-- The message could not be sent: the user is told, and stays; after it has been sent, `/quit` ends the program. -/
example : ∃ q : State Nat, Run Any (init Nat) (typed ++ [.sched .wake, .sched .pick, .sched (.transmit .failed), .ask, .answer,
    .sched (.schedule true 6), .sched .takeHi, .sched .work, .sched .work, .sched .work, .sched .wake, .sched .pick,
    .sched (.transmit .ok), .sched .remove, .sched .pick, .sched (.transmit .ok), .sched .remove, .sched .pick,
    .ask, .answer, .leave]) q ∧ q.phase = .ended ∧ q.refused = 1 ∧ doneIn (attempts true q.s) = [5, 6] :=
  ⟨_, run_of_exec rfl, rfl, rfl, rfl⟩

/-- A patient user. -/
example : ∃ q : State Nat, Run Patient (init Nat) [.sched (.schedule true 5), .sched .takeHi, .sched .work, .sched .work,
    .sched .work, .sched .wake, .sched .pick, .sched (.transmit .ok), .sched .remove, .sched .pick, .ask, .answer, .leave] q ∧
    q.phase = .ended ∧ doneIn (attempts true q.s) = [5] := by
  refine ⟨_, .cons ⟨rfl, rfl⟩ rfl (.cons trivial rfl (.cons trivial rfl (.cons trivial rfl (.cons trivial rfl
    (.cons trivial rfl (.cons trivial rfl (.cons trivial rfl (.cons trivial rfl (.cons trivial rfl
    (.cons ⟨?_, rfl⟩ rfl (.cons trivial rfl (.cons trivial rfl (.nil _))))))))))))), rfl, rfl⟩
  intro e he
  cases e <;> first | rfl | exact he.elim

/-- At rest, and something waits. -/
example : ∃ q : State Nat, Run Any (init Nat) (typed ++ [.sched .wake, .sched .pick, .sched (.transmit .failed)]) q ∧
    AtRest q.s ∧ Waiting q ∧ q.phase = .running ∧ q.asked = false := by
  refine ⟨_, run_of_exec rfl, ?_, ⟨true, by decide⟩, rfl, rfl⟩
  intro e he
  cases e <;> first | rfl | exact he.elim

end Verif.Quit
