import Verif.Model.Scheduler
import Mathlib.Tactic.Common

/-! # C44: outgoing messages are neither lost, duplicated nor reordered -/

namespace Verif.Scheduler

variable {M : Type}

/-- The messages of priority `p` that producers have queued, in order. -/
def queuedOf (p : Bool) (s : State M) : List M := s.queued.filterMap fun q => if q.1 = p then some q.2 else none

/-- The attempts to transmit messages of priority `p`, in order. -/
def attempts (p : Bool) (s : State M) : List (M × Outcome) := s.log.filterMap fun q => if q.1 = p then some q.2 else none

/-- The messages that attempts have removed from the queue. -/
def doneIn (l : List (M × Outcome)) : List M := l.filterMap fun q => if q.2.finished then some q.1 else none

/-- The messages that attempts have written to the connection. -/
def wireIn (l : List (M × Outcome)) : List M := l.filterMap fun q => if q.2.written then some q.1 else none

def State.ch (s : State M) (p : Bool) : List M := if p then s.chHi else s.chLo
def State.sl (s : State M) (p : Bool) : List M := if p then s.hi else s.lo

/-- Without the message that is transmitted and not yet removed. -/
def rest (p : Bool) : Sender M → List M → List M
  | .dequeue q, l => if q = p then l.tail else l
  | _, l => l

/-- What the slice contains that is not yet transmitted. -/
def slice (p : Bool) (s : State M) : List M := rest p s.sender (s.sl p)

/-- What the first goroutine has in its hands. -/
def inHand (p : Bool) : Worker M → List M
  | .gotHi m k => if p then [m] else k.toList
  | .sigHi k | .drain k => if p then [] else k.toList
  | _ => []

/-- Queued and not transmitted, in order. -/
def pending (p : Bool) (s : State M) : List M := slice p s ++ (inHand p s.worker ++ s.ch p)

/-- What the sender is busy with is the first message of the slice. -/
def Head (s : State M) : Prop :=
  (∀ b m, s.sender = .picked b m → (s.sl b).head? = some m) ∧ (∀ b, s.sender = .dequeue b → s.sl b ≠ [])

theorem head_step {s s' : State M} {e : Ev M} (h : Head s) (hs : step s e = some s') : Head s' := by
  cases e with
  | schedule p m =>
    cases p <;> simp only [step] at hs <;> split at hs <;> cases hs <;> exact h
  | takeHi =>
    simp only [step] at hs
    split at hs <;> cases hs; exact h
  | takeLo =>
    simp only [step] at hs
    split at hs <;> cases hs; exact h
  | work =>
    simp only [step] at hs
    split at hs
    · cases hs
    · cases hs
      refine ⟨fun b x hb => ?_, fun b hb => ?_⟩
      · have := h.1 b x hb
        cases b
        · exact this
        · simp only [State.sl, if_true, List.head?_append] at this ⊢
          rw [this]; rfl
      · have := h.2 b hb
        cases b
        · exact this
        · simp [State.sl]
    · cases hs; exact h
    · split at hs
      · cases hs; exact h
      · cases hs; exact h
      · cases hs
        refine ⟨fun b x hb => ?_, fun b hb => ?_⟩
        · have := h.1 b x hb
          cases b
          · simp only [State.sl, Bool.false_eq_true, if_false] at this ⊢
            rw [List.head?_append, this]; rfl
          · exact this
        · have := h.2 b hb
          cases b
          · simp [State.sl]
          · exact this
    · cases hs; exact h
  | wake =>
    simp only [step] at hs
    split at hs <;> cases hs
    exact ⟨fun b m hb => (by cases hb), fun b hb => by cases hb⟩
  | pick =>
    simp only [step] at hs
    split at hs <;> cases hs
    · next hh => exact ⟨fun b m hb => (by cases hb; simp [State.sl, hh]), fun b hb => by cases hb⟩
    · next hl => exact ⟨fun b m hb => (by cases hb; simp [State.sl, hl]), fun b hb => by cases hb⟩
    · exact ⟨fun b m hb => (by cases hb), fun b hb => by cases hb⟩
  | transmit o =>
    simp only [step] at hs
    split at hs <;> cases hs
    next c m hsd =>
    refine ⟨fun b m hb => (by simp only at hb; split at hb <;> cases hb), fun b hb => ?_⟩
    simp only at hb
    split at hb <;> cases hb
    have := h.1 _ _ hsd
    intro he
    rw [show s.sl _ = [] from he] at this; cases this
  | remove =>
    simp only [step] at hs
    split at hs <;> cases hs <;> exact ⟨fun b m hb => (by cases hb), fun b hb => by cases hb⟩

theorem rest_append {p : Bool} {x : Sender M} {l : List M} (m : M) (h : x = .dequeue p → l ≠ []) :
    rest p x (l ++ [m]) = rest p x l ++ [m] := by
  unfold rest
  split
  · next q =>
    split
    · next e => subst e; exact List.tail_append_of_ne_nil (h rfl)
    · rfl
  · rfl

/-- Every message queued is transmitted or pending, in order. -/
def Fifo (s : State M) : Prop := ∀ p, queuedOf p s = doneIn (attempts p s) ++ pending p s

theorem fifo_step {s s' : State M} {e : Ev M} (hh : Head s) (h : Fifo s) (hs : step s e = some s') : Fifo s' := by
  cases e with
  | schedule q m =>
    intro p
    have hp := h p
    cases q <;> simp only [step] at hs <;> split at hs <;> cases hs <;> cases p <;>
      simp_all [queuedOf, attempts, pending, slice, State.ch, State.sl]
  | takeHi =>
    simp only [step] at hs
    split at hs <;> cases hs
    next hw hc =>
    intro p
    have hp := h p
    cases p <;> simp_all [queuedOf, attempts, pending, slice, State.ch, State.sl, inHand]
  | takeLo =>
    simp only [step] at hs
    split at hs <;> cases hs
    next hw hc =>
    intro p
    have hp := h p
    cases p <;> simp_all [queuedOf, attempts, pending, slice, State.ch, State.sl, inHand]
  | work =>
    simp only [step] at hs
    split at hs
    · cases hs
    · next hw =>
      cases hs
      intro p
      have hp := h p
      have hr : ∀ m, rest true s.sender (s.hi ++ [m]) = rest true s.sender s.hi ++ [m] := fun m =>
        rest_append m fun e => hh.2 true e
      cases p <;> simp_all [queuedOf, attempts, pending, slice, State.ch, State.sl, inHand]
    · next hw =>
      cases hs
      intro p
      have hp := h p
      cases p <;> simp_all [queuedOf, attempts, pending, slice, State.ch, State.sl, inHand]
    · next hw =>
      split at hs
      · cases hs
        intro p
        have hp := h p
        cases p <;> simp_all [queuedOf, attempts, pending, slice, State.ch, State.sl, inHand]
      · cases hs
        intro p
        have hp := h p
        cases p <;> simp_all [queuedOf, attempts, pending, slice, State.ch, State.sl, inHand]
      · next hc =>
        cases hs
        intro p
        have hp := h p
        have hr : ∀ m, rest false s.sender (s.lo ++ [m]) = rest false s.sender s.lo ++ [m] := fun m =>
          rest_append m fun e => hh.2 false e
        cases p <;> simp_all [queuedOf, attempts, pending, slice, State.ch, State.sl, inHand]
    · next hw =>
      cases hs
      intro p
      have hp := h p
      cases p <;> simp_all [queuedOf, attempts, pending, slice, State.ch, State.sl, inHand]
  | wake =>
    simp only [step] at hs
    split at hs <;> cases hs
    intro p
    have hp := h p
    cases p <;> simp_all [queuedOf, attempts, pending, slice, State.ch, State.sl, inHand, rest]
  | pick =>
    simp only [step] at hs
    split at hs <;> cases hs <;>
    (intro p
     have hp := h p
     cases p <;> simp_all [queuedOf, attempts, pending, slice, State.ch, State.sl, inHand, rest])
  | transmit o =>
    simp only [step] at hs
    split at hs <;> cases hs
    next b m hsd =>
    have hd := hh.1 b m hsd
    intro p
    have hp := h p
    rcases hx : s.sl b with _ | ⟨m', r⟩
    · rw [hx] at hd; cases hd
    · rw [hx] at hd
      simp only [List.head?_cons, Option.some.injEq] at hd
      subst hd
      cases p <;> cases b <;> cases o <;>
        simp_all [queuedOf, attempts, pending, slice, State.ch, State.sl, inHand, rest, Outcome.finished, doneIn]
  | remove =>
    simp only [step] at hs
    split at hs <;> cases hs <;>
    (intro p
     have hp := h p
     cases p <;> simp_all [queuedOf, attempts, pending, slice, State.ch, State.sl, inHand, rest])

theorem inv_run {G : State M → Ev M → Prop} {s s' : State M} {es : List (Ev M)} (h1 : Head s) (h2 : Fifo s)
    (hr : Run G s es s') : Head s' ∧ Fifo s' := by
  induction hr with
  | nil => exact ⟨h1, h2⟩
  | cons _ hs _ ih => exact ih (head_step h1 hs) (fifo_step h1 h2 hs)

theorem head_init : Head (init M) := ⟨fun b m h => (by cases h), fun b h => (by cases h)⟩
theorem fifo_init : Fifo (init M) := by
  intro p
  cases p <;> rfl

/-- Executions with any outcomes. -/
abbrev Any : State M → Ev M → Prop := fun _ _ => True

/-- **C44** In every execution, for each priority: the messages queued are those whose transmission is
complete, followed by those still pending, in the order in which they were queued. None is left out, none is
completed twice. -/
theorem C44_fifo (es : List (Ev M)) (s : State M) (hr : Run Any (init M) es s) (p : Bool) :
    queuedOf p s = doneIn (attempts p s) ++ pending p s := (inv_run head_init fifo_init hr).2 p

/-! ## Attempts -/

/-- Every attempt concerns the first message, in the order of queueing, that was not complete before. -/
def Sequential (s : State M) : Prop := ∀ p pre m o post, attempts p s = pre ++ (m, o) :: post →
  (queuedOf p s)[(doneIn pre).length]? = some m

theorem sequential_step {s s' : State M} {e : Ev M} (hh : Head s) (hf : Fifo s) (h : Sequential s)
    (hs : step s e = some s') : Sequential s' := by
  have key : s'.log = s.log → (∃ x, s'.queued = s.queued ++ x) → Sequential s' := by
    rintro h1 ⟨x, hx⟩ p pre m o post ha
    have ha' : attempts p s = pre ++ (m, o) :: post := by unfold attempts at ha ⊢; rw [← h1]; exact ha
    have := h p pre m o post ha'
    have hq : queuedOf p s' = queuedOf p s ++ x.filterMap fun q => if q.1 = p then some q.2 else none := by
      unfold queuedOf; rw [hx, List.filterMap_append]
    rw [hq, List.getElem?_append_left (List.getElem?_eq_some_iff.1 this).1]
    exact this
  cases e with
  | transmit o' =>
    simp only [step] at hs
    split at hs <;> cases hs
    next b m' hsd =>
    have hd := hh.1 b m' hsd
    intro p pre m o post ha
    show (queuedOf p s)[_]? = _
    have ha : s.log.filterMap (fun q => if q.1 = p then some q.2 else none) ++
        (if b = p then [(m', o')] else []) = pre ++ (m, o) :: post := by
      have : attempts p { s with sender := if o'.finished then Sender.dequeue b else .idle, log := s.log ++ [(b, m', o')] }
        = _ := ha
      unfold attempts at this
      rw [List.filterMap_append] at this
      rw [← this]
      by_cases e : b = p <;> simp [e]
    change attempts p s ++ _ = _ at ha
    by_cases e : b = p
    · subst e
      rw [if_pos rfl] at ha
      rcases List.eq_nil_or_concat post with rfl | ⟨post', y, rfl⟩
      · obtain ⟨h1, h2⟩ := List.append_inj' ha rfl
        simp only [List.cons.injEq, Prod.mk.injEq, and_true] at h2
        rw [hf b, ← h1, List.getElem?_append_right (Nat.le_refl _), Nat.sub_self]
        obtain ⟨rfl, -⟩ := h2
        have hsl : slice b s = s.sl b := by unfold slice rest; rw [hsd]
        rcases hx : s.sl b with _ | ⟨m1, r⟩
        · rw [hx] at hd; cases hd
        · rw [hx] at hd
          simp only [List.head?_cons, Option.some.injEq] at hd
          simp [pending, hsl, hx, hd]
      · have ha' : attempts b s ++ [(m', o')] = (pre ++ (m, o) :: post') ++ [y] := by rw [ha]; simp
        exact h b pre m o post' (List.append_inj' ha' rfl).1
    · rw [if_neg e, List.append_nil] at ha
      exact h p pre m o post ha
  | schedule p m =>
    refine key ?_ ?_ <;> cases p <;> simp only [step] at hs <;> split at hs <;> cases hs <;> first | rfl | exact ⟨_, rfl⟩
  | takeHi => simp only [step] at hs; split at hs <;> cases hs; exact key rfl ⟨[], by simp⟩
  | takeLo => simp only [step] at hs; split at hs <;> cases hs; exact key rfl ⟨[], by simp⟩
  | work =>
    simp only [step] at hs
    split at hs
    · cases hs
    · cases hs; exact key rfl ⟨[], by simp⟩
    · cases hs; exact key rfl ⟨[], by simp⟩
    · split at hs <;> cases hs <;> exact key rfl ⟨[], by simp⟩
    · cases hs; exact key rfl ⟨[], by simp⟩
  | wake => simp only [step] at hs; split at hs <;> cases hs; exact key rfl ⟨[], by simp⟩
  | pick => simp only [step] at hs; split at hs <;> cases hs <;> exact key rfl ⟨[], by simp⟩
  | remove => simp only [step] at hs; split at hs <;> cases hs <;> exact key rfl ⟨[], by simp⟩

/-- **C44** In every execution each attempt concerns the first message of its priority, in the order of
queueing, whose transmission was not complete before: after a failure the same message is transmitted again,
and nothing overtakes it. -/
theorem C44_retry (es : List (Ev M)) (s : State M) (hr : Run Any (init M) es s) (p : Bool)
    (pre post : List (M × Outcome)) (m : M) (o : Outcome) (ha : attempts p s = pre ++ (m, o) :: post) :
    (queuedOf p s)[(doneIn pre).length]? = some m := by
  suffices hg : ∀ s0 : State M, Run Any s0 es s → Head s0 → Fifo s0 → Sequential s0 → Sequential s by
    refine hg _ hr head_init fifo_init ?_ p pre m o post ha
    intro p pre m o post h
    exact absurd h (by simp [attempts, init])
  clear hr ha
  intro s0 hr h1 h2 h3
  induction hr with
  | nil => exact h3
  | cons _ hs _ ih => exact ih (head_step h1 hs) (fifo_step h1 h2 hs) (sequential_step h1 h2 h3 hs)

/-- Transmissions either succeed or fail without anything being written. -/
def Clean : State M → Ev M → Prop
  | _, .transmit o => o = .ok ∨ o = .failed
  | _, _ => True

theorem clean_log {s s' : State M} {es : List (Ev M)} (hr : Run Clean s es s')
    (h : ∀ q ∈ s.log, q.2.2 = .ok ∨ q.2.2 = .failed) : ∀ q ∈ s'.log, q.2.2 = .ok ∨ q.2.2 = .failed := by
  induction hr with
  | nil => exact h
  | @cons s e s' es s'' hg hs _ ih =>
    apply ih
    cases e with
    | transmit o =>
      simp only [step] at hs
      split at hs <;> cases hs
      intro q hq
      rcases List.mem_append.1 hq with hq | hq
      · exact h q hq
      · simp only [List.mem_singleton] at hq; subst hq; exact hg
    | schedule p m => cases p <;> simp only [step] at hs <;> split at hs <;> cases hs <;> exact h
    | takeHi => simp only [step] at hs; split at hs <;> cases hs; exact h
    | takeLo => simp only [step] at hs; split at hs <;> cases hs; exact h
    | work =>
      simp only [step] at hs
      split at hs
      · cases hs
      · cases hs; exact h
      · cases hs; exact h
      · split at hs <;> cases hs <;> exact h
      · cases hs; exact h
    | wake => simp only [step] at hs; split at hs <;> cases hs; exact h
    | pick => simp only [step] at hs; split at hs <;> cases hs <;> exact h
    | remove => simp only [step] at hs; split at hs <;> cases hs <;> exact h

theorem run_weaken {G G' : State M → Ev M → Prop} (hg : ∀ s e, G s e → G' s e) {s s' : State M} {es : List (Ev M)}
    (hr : Run G s es s') : Run G' s es s' := by
  induction hr with
  | nil => exact .nil _
  | cons h hs _ ih => exact .cons (hg _ _ h) hs ih

theorem filterMap_congr' {α β : Type} {f g : α → Option β} {l : List α} (h : ∀ x ∈ l, f x = g x) :
    l.filterMap f = l.filterMap g := by
  induction l with
  | nil => rfl
  | cons a l ih =>
    simp only [List.filterMap_cons, h a List.mem_cons_self, ih fun x hx => h x (List.mem_cons_of_mem _ hx)]

/-- **C44** If every transmission either succeeds or fails before anything is written, then what has been
written of each priority, followed by what is pending, is exactly what was queued, in that order. Without
the condition this is false, see below. -/
theorem C44_exact_partial (es : List (Ev M)) (s : State M) (hr : Run Clean (init M) es s) (p : Bool) :
    queuedOf p s = wireIn (attempts p s) ++ pending p s := by
  rw [C44_fifo es s (run_weaken (fun _ _ _ => trivial) hr) p]
  congr 1
  have hl := clean_log hr (by simp [init])
  unfold doneIn wireIn
  apply filterMap_congr'
  intro q hq
  unfold attempts at hq
  obtain ⟨a, ha, hb⟩ := List.mem_filterMap.1 hq
  split at hb
  · cases hb
    rcases hl a ha with h | h <;> simp [h, Outcome.finished, Outcome.written]
  · cases hb

/-! ## Priority -/

theorem done_append (l l' : List (M × Outcome)) : doneIn (l ++ l') = doneIn l ++ doneIn l' := by
  unfold doneIn; rw [List.filterMap_append]

/-- How many messages of high priority are complete or in the slice. -/
def reached (s : State M) : Nat := (doneIn (attempts true s)).length + (slice true s).length

theorem reached_step {s s' : State M} {e : Ev M} (hh : Head s) (hs : step s e = some s') : reached s ≤ reached s' := by
  cases e with
  | schedule p m => cases p <;> simp only [step] at hs <;> split at hs <;> cases hs <;> exact Nat.le_refl _
  | takeHi => simp only [step] at hs; split at hs <;> cases hs; exact Nat.le_refl _
  | takeLo => simp only [step] at hs; split at hs <;> cases hs; exact Nat.le_refl _
  | work =>
    simp only [step] at hs
    split at hs
    · cases hs
    · next m k hw =>
      cases hs
      have hr : rest true s.sender (s.hi ++ [m]) = rest true s.sender s.hi ++ [m] := rest_append m fun e => hh.2 true e
      show _ + (rest true s.sender s.hi).length ≤ _ + (rest true s.sender (s.hi ++ [m])).length
      rw [hr, List.length_append]
      exact Nat.add_le_add_left (Nat.le_add_right _ _) _
    · cases hs; exact Nat.le_refl _
    · split at hs <;> cases hs <;> exact Nat.le_refl _
    · cases hs; exact Nat.le_refl _
  | wake =>
    simp only [step] at hs
    split at hs <;> cases hs
    next h1 h2 =>
    simp [reached, attempts, slice, rest, State.sl, h1]
  | pick =>
    simp only [step] at hs
    split at hs <;> cases hs <;> simp_all [reached, attempts, slice, rest, State.sl]
  | transmit o =>
    simp only [step] at hs
    split at hs <;> cases hs
    next b m hsd =>
    have hd := hh.1 b m hsd
    rcases hx : s.sl b with _ | ⟨m1, r⟩
    · rw [hx] at hd; cases hd
    · cases b <;> cases o <;> simp_all [reached, attempts, slice, rest, State.sl, Outcome.finished, doneIn]
      all_goals omega
  | remove =>
    simp only [step] at hs
    split at hs <;> cases hs <;> simp_all [reached, attempts, slice, rest, State.sl]

/-- **C44** A message of high priority in the slice comes before any message of low priority not yet picked:
when, after some state in which the sender has not picked a message of low priority, the next message of low
priority is picked or transmitted, all messages of high priority that were in the slice are complete. -/
theorem C44_priority (es0 es : List (Ev M)) (s s' : State M) (h0 : Run Any (init M) es0 s) (hr : Run Any s es s')
    (hs : ∀ m, s.sender ≠ .picked false m)
    (hlow : attempts false s' ≠ attempts false s ∨ ∃ m, s'.sender = .picked false m) :
    (doneIn (attempts true s)).length + (slice true s).length ≤ (doneIn (attempts true s')).length := by
  have hinv := inv_run head_init fifo_init h0
  suffices hg : ∀ n (t : State M), n ≤ reached t → Head t →
      ((attempts false t = attempts false s ∧ ∀ m, t.sender ≠ .picked false m) ∨ n ≤ (doneIn (attempts true t)).length) →
      Run Any t es s' →
      ((attempts false s' = attempts false s ∧ ∀ m, s'.sender ≠ .picked false m) ∨ n ≤ (doneIn (attempts true s')).length) by
    rcases hg (reached s) s (Nat.le_refl _) hinv.1 (.inl ⟨rfl, hs⟩) hr with ⟨h1, h2⟩ | h
    · rcases hlow with h | ⟨m, h⟩
      · exact absurd h1 h
      · exact absurd h (h2 m)
    · exact h
  clear hr hs hlow hinv h0
  intro n t hn hh hJ hr
  induction hr with
  | nil => exact hJ
  | @cons t e t' es t'' _ hst _ ih =>
    refine ih (Nat.le_trans hn (reached_step hh hst)) (head_step hh hst) ?_
    rcases hJ with ⟨h1, h2⟩ | hJ
    · cases e with
      | schedule p m => left; cases p <;> simp only [step] at hst <;> split at hst <;> cases hst <;> exact ⟨h1, h2⟩
      | takeHi => left; simp only [step] at hst; split at hst <;> cases hst; exact ⟨h1, h2⟩
      | takeLo => left; simp only [step] at hst; split at hst <;> cases hst; exact ⟨h1, h2⟩
      | work =>
        left
        simp only [step] at hst
        split at hst
        · cases hst
        · cases hst; exact ⟨h1, h2⟩
        · cases hst; exact ⟨h1, h2⟩
        · split at hst <;> cases hst <;> exact ⟨h1, h2⟩
        · cases hst; exact ⟨h1, h2⟩
      | wake => left; simp only [step] at hst; split at hst <;> cases hst; exact ⟨h1, by simp⟩
      | pick =>
        simp only [step] at hst
        split at hst <;> cases hst
        · left; exact ⟨h1, by simp⟩
        · next hsd hhi hlo _ =>
          right
          have : reached t = (doneIn (attempts true t)).length := by
            simp [reached, slice, rest, State.sl, hsd, hhi]
          rw [this] at hn; exact hn
        · left; exact ⟨h1, by simp⟩
      | transmit o =>
        left
        simp only [step] at hst
        split at hst <;> cases hst
        next b m hsd _ =>
        cases b
        · exact absurd hsd (h2 m)
        · refine ⟨?_, ?_⟩
          · rw [← h1]; simp [attempts]
          · intro m; simp only; split <;> simp
      | remove => left; simp only [step] at hst; split at hst <;> cases hst <;> exact ⟨h1, by simp⟩
    · right
      refine Nat.le_trans hJ ?_
      cases e with
      | transmit o =>
        simp only [step] at hst
        split at hst <;> cases hst
        next b m hsd =>
        simp only [attempts, List.filterMap_append, done_append, List.length_append]
        exact Nat.le_add_right _ _
      | schedule p m => cases p <;> simp only [step] at hst <;> split at hst <;> cases hst <;> exact Nat.le_refl _
      | takeHi => simp only [step] at hst; split at hst <;> cases hst; exact Nat.le_refl _
      | takeLo => simp only [step] at hst; split at hst <;> cases hst; exact Nat.le_refl _
      | work =>
        simp only [step] at hst
        split at hst
        · cases hst
        · cases hst; exact Nat.le_refl _
        · cases hst; exact Nat.le_refl _
        · split at hst <;> cases hst <;> exact Nat.le_refl _
        · cases hst; exact Nat.le_refl _
      | wake => simp only [step] at hst; split at hst <;> cases hst; exact Nat.le_refl _
      | pick => simp only [step] at hst; split at hst <;> cases hst <;> exact Nat.le_refl _
      | remove => simp only [step] at hst; split at hst <;> cases hst <;> exact Nat.le_refl _

/-! ## Everything is transmitted -/

/-- A step of the program itself, as opposed to somebody queueing another message. -/
def Internal : Ev M → Prop
  | .schedule _ _ => False
  | _ => True

/-- How many steps the program can take at most. -/
def wWorker : Worker M → Nat
  | .idle => 0
  | .gotHi _ k => 10 + k.elim 0 fun _ => 8
  | .sigHi k => 6 + k.elim 0 fun _ => 8
  | .drain k => 1 + k.elim 0 fun _ => 8
  | .sigLo => 5

def wSender : Sender M → Nat
  | .idle => 0
  | .loop => 3
  | .picked _ _ => 2
  | .dequeue _ => 1

def weight (s : State M) : Nat :=
  11 * s.chHi.length + 10 * s.chLo.length + 3 * s.hi.length + 3 * s.lo.length + 4 * s.signals + wWorker s.worker
    + wSender s.sender

theorem signal_le (n : Nat) : signal n ≤ n + 1 := by unfold signal; split <;> omega

theorem weight_step {s s' : State M} {e : Ev M} (hh : Head s) (hi : Internal e) (hs : step s e = some s') :
    weight s' < weight s := by
  cases e with
  | schedule p m => exact hi.elim
  | takeHi =>
    simp only [step] at hs; split at hs <;> cases hs
    next h1 h2 => simp [weight, h1, h2, wWorker]; omega
  | takeLo =>
    simp only [step] at hs; split at hs <;> cases hs
    next h1 h2 => simp [weight, h1, h2, wWorker]; omega
  | work =>
    simp only [step] at hs
    split at hs
    · cases hs
    · next m k hw => cases hs; simp [weight, hw, wWorker]; omega
    · next k hw =>
      cases hs
      have := signal_le s.signals
      simp [weight, hw, wWorker]; omega
    · next k hw =>
      split at hs
      · next m r hc => cases hs; simp [weight, hw, hc, wWorker]; omega
      · next hc => cases hs; simp [weight, hw, hc, wWorker]
      · next b hc => cases hs; simp [weight, hw, hc, wWorker]; omega
    · next hw =>
      cases hs
      have := signal_le s.signals
      simp [weight, hw, wWorker]; omega
  | wake =>
    simp only [step] at hs; split at hs <;> cases hs
    next h1 h2 => simp [weight, h1, h2, wSender]; omega
  | pick =>
    simp only [step] at hs
    split at hs <;> cases hs <;> simp_all [weight, wSender]
  | transmit o =>
    simp only [step] at hs; split at hs <;> cases hs
    next h1 => cases o <;> simp [weight, h1, wSender, Outcome.finished]
  | remove =>
    simp only [step] at hs
    split at hs
    · next h1 =>
      cases hs
      have := hh.2 true h1
      rcases hx : s.hi with _ | ⟨a, r⟩
      · exact absurd hx this
      · simp [weight, h1, hx, wSender]; omega
    · next h1 =>
      cases hs
      have := hh.2 false h1
      rcases hx : s.lo with _ | ⟨a, r⟩
      · exact absurd hx this
      · simp [weight, h1, hx, wSender]; omega
    · cases hs

/-- **C44** Left to itself the program comes to rest: the number of its steps is bounded. -/
theorem C44_terminates (es0 es : List (Ev M)) (s s' : State M) (h0 : Run Any (init M) es0 s)
    (hr : Run (fun _ e => Internal e) s es s') : es.length ≤ weight s := by
  have hh := (inv_run head_init fifo_init h0).1
  clear h0
  induction hr with
  | nil => exact Nat.zero_le _
  | cons hg hs _ ih =>
    have h1 := weight_step hh hg hs
    have h2 := ih (head_step hh hs)
    simp only [List.length_cons]; omega

/-- No step is possible unless somebody queues a message. -/
def AtRest (s : State M) : Prop := ∀ e, Internal e → step s e = none

/-- Transmissions succeed. -/
def Working : State M → Ev M → Prop
  | _, .transmit o => o = .ok
  | _, _ => True

/-- The sender is awake or will be woken. -/
def Woken (s : State M) : Prop :=
  s.sender = .idle → (s.hi ≠ [] ∨ s.lo ≠ []) → 0 < s.signals ∨ (∃ k, s.worker = .sigHi k) ∨ s.worker = .sigLo

theorem signal_pos (n : Nat) : 0 < signal n := by unfold signal; split <;> omega

theorem woken_step {s s' : State M} {e : Ev M} (h : Woken s) (hg : Working s e) (hs : step s e = some s') : Woken s' := by
  cases e with
  | schedule p m => cases p <;> simp only [step] at hs <;> split at hs <;> cases hs <;> exact h
  | takeHi =>
    simp only [step] at hs; split at hs <;> cases hs
    next h1 h2 =>
    intro hi hq
    rcases h hi hq with a | ⟨k, a⟩ | a
    · exact .inl a
    · rw [h1] at a; cases a
    · rw [h1] at a; cases a
  | takeLo =>
    simp only [step] at hs; split at hs <;> cases hs
    next h1 h2 =>
    intro hi hq
    rcases h hi hq with a | ⟨k, a⟩ | a
    · exact .inl a
    · rw [h1] at a; cases a
    · rw [h1] at a; cases a
  | work =>
    simp only [step] at hs
    split at hs
    · cases hs
    · cases hs; intro _ _; exact .inr (.inl ⟨_, rfl⟩)
    · cases hs; intro _ _; exact .inl (signal_pos _)
    · next k hw =>
      have hx : s.sender = .idle → (s.hi ≠ [] ∨ s.lo ≠ []) → 0 < s.signals := by
        intro hi hq
        rcases h hi hq with a | ⟨k, a⟩ | a
        · exact a
        · rw [hw] at a; cases a
        · rw [hw] at a; cases a
      split at hs
      · cases hs; intro hi hq; exact .inl (hx hi hq)
      · cases hs; intro hi hq; exact .inl (hx hi hq)
      · cases hs; intro hi hq; exact .inr (.inr rfl)
    · cases hs; intro _ _; exact .inl (signal_pos _)
  | wake => simp only [step] at hs; split at hs <;> cases hs; intro hi; cases hi
  | pick =>
    simp only [step] at hs
    split at hs <;> cases hs
    · intro hi; cases hi
    · intro hi; cases hi
    · next h1 h2 h3 => intro _ hq; simp [h2, h3] at hq
  | transmit o =>
    simp only [step] at hs
    split at hs <;> cases hs
    have : o = .ok := hg
    subst this
    intro hi; simp [Outcome.finished] at hi
  | remove => simp only [step] at hs; split at hs <;> cases hs <;> (intro hi; cases hi)

/-- **C44** If all transmissions succeed then, whenever the program has come to rest, every message that was
queued has been written exactly once, in order for each priority. -/
theorem C44_all_sent_partial (es : List (Ev M)) (s : State M) (hr : Run Working (init M) es s) (hrest : AtRest s)
    (p : Bool) : wireIn (attempts p s) = queuedOf p s := by
  have hex := C44_exact_partial es s (run_weaken (fun s e h => by cases e <;> first | exact .inl h | trivial) hr) p
  have hh := (inv_run head_init fifo_init (run_weaken (G' := Any) (fun _ _ _ => trivial) hr)).1
  have hw : Woken s := by
    suffices hg : ∀ t : State M, Woken t → Run Working t es s → Woken s from hg _ (by intro _ h; simp [init] at h) hr
    clear hex hh hrest hr
    intro t ht hr
    induction hr with
    | nil => exact ht
    | cons hg hs _ ih => exact ih (woken_step ht hg hs)
  have hwk : s.worker = .idle := by
    have := hrest .work trivial
    simp only [step] at this
    split at this <;> first | assumption | cases this | skip
    split at this <;> cases this
  have hch : s.chHi = [] := by
    have := hrest .takeHi trivial
    simp only [step, hwk] at this
    rcases hx : s.chHi with _ | ⟨a, r⟩
    · rfl
    · rw [hx] at this; cases this
  have hcl : s.chLo = [] := by
    have := hrest .takeLo trivial
    simp only [step, hwk] at this
    rcases hx : s.chLo with _ | ⟨a, r⟩
    · rfl
    · rw [hx] at this; cases this
  have hsd : s.sender = .idle := by
    rcases hx : s.sender with _ | _ | ⟨b, m⟩ | b
    · rfl
    · have := hrest .pick trivial
      simp only [step, hx] at this
      rcases h1 : s.hi with _ | ⟨a, r⟩ <;> rcases h2 : s.lo with _ | ⟨a', r'⟩ <;> simp [h1, h2] at this
    · have := hrest (.transmit .ok) trivial
      simp [step, hx] at this
    · have := hrest .remove trivial
      cases b <;> simp [step, hx] at this
  have hsig : s.signals = 0 := by
    have := hrest .wake trivial
    simp only [step, hsd] at this
    rcases hx : s.signals with _ | n
    · rfl
    · rw [hx] at this; cases this
  have hq : s.hi = [] ∧ s.lo = [] := by
    by_cases hq : s.hi ≠ [] ∨ s.lo ≠ []
    · rcases hw hsd hq with a | ⟨k, a⟩ | a
      · omega
      · rw [hwk] at a; cases a
      · rw [hwk] at a; cases a
    · simpa using hq
  rw [hex]
  have : pending p s = [] := by
    cases p <;> simp [pending, slice, rest, hsd, State.sl, State.ch, hq.1, hq.2, hwk, inHand, hch, hcl]
  rw [this, List.append_nil]

/-! ## What goes wrong -/

def exec [DecidableEq M] (s : State M) : List (Ev M) → Option (State M)
  | [] => some s
  | e :: es => match step s e with | none => none | some s' => exec s' es

theorem run_of_exec [DecidableEq M] {s s' : State M} {es : List (Ev M)} (h : exec s es = some s') : Run Any s es s' := by
  induction es generalizing s with
  | nil => cases h; exact .nil _
  | cons e es ih =>
    simp only [exec] at h
    split at h
    · cases h
    · next s1 h1 => exact .cons trivial h1 (ih h)

/-- **C44** The channels hold 16 messages of high and 4 of low priority, and a producer waits exactly while its channel is
full. -/
theorem C44_room (es : List (Ev M)) (s : State M) (hr : Run Any (init M) es s) :
    s.chHi.length ≤ 16 ∧ s.chLo.length ≤ 4 ∧
    ∀ m : M, (step s (.schedule true m) = none ↔ s.chHi.length = 16) ∧
      (step s (.schedule false m) = none ↔ s.chLo.length = 4) := by
  suffices hg : ∀ t : State M, t.chHi.length ≤ 16 ∧ t.chLo.length ≤ 4 → Run Any t es s →
      s.chHi.length ≤ 16 ∧ s.chLo.length ≤ 4 by
    obtain ⟨h1, h2⟩ := hg (init M) ⟨Nat.zero_le _, Nat.zero_le _⟩ hr
    refine ⟨h1, h2, fun m => ⟨?_, ?_⟩⟩
    · simp only [step]
      split
      · simp; omega
      · simp; omega
    · simp only [step]
      split
      · simp; omega
      · simp; omega
  clear hr
  intro t ht hr
  induction hr with
  | nil => exact ht
  | @cons s e s' es s'' _ hs _ ih =>
    apply ih
    obtain ⟨h1, h2⟩ := ht
    cases e with
    | schedule b m =>
      cases b <;> (simp only [step] at hs; split at hs <;> simp at hs; subst hs; simp; omega)
    | takeHi =>
      simp only [step] at hs
      split at hs
      · rename_i h3
        rw [h3, List.length_cons] at h1
        cases hs
        exact ⟨Nat.le_of_succ_le h1, h2⟩
      · cases hs
    | takeLo =>
      simp only [step] at hs
      split at hs
      · rename_i h3
        rw [h3, List.length_cons] at h2
        cases hs
        exact ⟨h1, Nat.le_of_succ_le h2⟩
      · cases hs
    | work =>
      simp only [step] at hs
      split at hs
      · cases hs
      · cases hs; exact ⟨h1, h2⟩
      · cases hs; exact ⟨h1, h2⟩
      · split at hs
        · rename_i h3 _
          rw [h3, List.length_cons] at h1
          cases hs
          exact ⟨Nat.le_of_succ_le h1, h2⟩
        · cases hs; exact ⟨h1, h2⟩
        · cases hs; exact ⟨h1, h2⟩
      · cases hs; exact ⟨h1, h2⟩
    | wake => simp only [step] at hs; split at hs <;> cases hs; exact ⟨h1, h2⟩
    | pick => simp only [step] at hs; split at hs <;> cases hs <;> exact ⟨h1, h2⟩
    | transmit o => simp only [step] at hs; split at hs <;> cases hs; exact ⟨h1, h2⟩
    | remove => simp only [step] at hs; split at hs <;> cases hs <;> exact ⟨h1, h2⟩

/-- **C44** A signal that is still there after a failure makes the program try once more by itself, and takes none of the
others: with `n` signals a message that fails is tried `n` times. -/
theorem C44_signals (s : State M) (m : M) (r : List M) (hi : s.hi = m :: r) (hw : s.sender = .idle) (n : Nat)
    (hn : s.signals = n) : ∃ s', Run Any s (List.replicate n [Ev.wake, .pick, .transmit .failed]).flatten s' ∧
      s'.signals = 0 ∧ s'.hi = s.hi ∧ s'.log = s.log ++ List.replicate n (true, m, .failed) := by
  induction n generalizing s with
  | zero => exact ⟨s, .nil _, hn, rfl, by simp⟩
  | succ n ih =>
    obtain ⟨s', h1, h2, h3, h4⟩ := ih
      { s with signals := n, sender := .idle, log := s.log ++ [(true, m, .failed)] } hi rfl rfl
    refine ⟨s', ?_, h2, h3, by rw [h4]; simp [List.replicate_succ]⟩
    rw [List.replicate_succ, List.flatten_cons]
    refine .cons (s' := { s with signals := n, sender := .loop }) trivial (by simp [step, hw, hn]) ?_
    refine .cons (s' := { s with signals := n, sender := .picked true m }) trivial (by simp [step, hi]) ?_
    exact .cons trivial (by simp [step, Outcome.finished]) h1

/-- **C44** The full statement is false: a message that has been written but whose ratchet could not be saved
is transmitted again when the next signal comes. -/
theorem C44_duplicate_violated : ∃ s : State Nat,
    Run Any (init Nat) [.schedule true 5, .takeHi, .work, .work, .work, .wake, .pick, .transmit .unsaved,
      .schedule true 6, .takeHi, .work, .work, .wake, .pick, .transmit .ok, .remove] s ∧
    queuedOf true s = [5, 6] ∧ wireIn (attempts true s) = [5, 5] :=
  ⟨_, run_of_exec rfl, rfl, rfl⟩

/-- **C44** A message to somebody for whom there is no ratchet is lost: it leaves the queue without being
written. -/
theorem C44_lost_violated : ∃ s : State Nat,
    Run Any (init Nat) [.schedule true 5, .takeHi, .work, .work, .work, .wake, .pick, .transmit .dropped, .remove, .pick] s ∧
    queuedOf true s = [5] ∧ wireIn (attempts true s) = [] ∧ pending true s = [] :=
  ⟨_, run_of_exec rfl, rfl, rfl, rfl⟩

/-- **C44** After a failed transmission the message is not transmitted again unless somebody queues another
one: the program is at rest with the message still pending. -/
theorem C44_stalled_violated : ∃ s : State Nat,
    Run Clean (init Nat) [.schedule true 5, .takeHi, .work, .work, .work, .wake, .pick, .transmit .failed] s ∧
    AtRest s ∧ pending true s = [5] := by
  refine ⟨_, .cons trivial rfl (.cons trivial rfl (.cons trivial rfl (.cons trivial rfl (.cons trivial rfl
    (.cons trivial rfl (.cons trivial rfl (.cons (.inr rfl) rfl (.nil _)))))))), ?_, rfl⟩
  intro e he
  cases e <;> first | rfl | exact he.elim

/-- While a message of high priority is waiting to be transmitted. -/
def Front (m : M) (s : State M) : Prop :=
  (∃ r, s.hi = m :: r) ∧ (s.sender = .idle ∨ s.sender = .loop ∨ s.sender = .picked true m)

/-- **C44** As long as one message of high priority can not be transmitted, for instance because it is too
long, nothing else is: neither a later one nor one of low priority. -/
theorem C44_head_of_line (m : M) (es : List (Ev M)) (s s' : State M)
    (hr : Run (fun t e => ∀ o, e = .transmit o → t.sender = .picked true m → o = .failed) s es s') (hf : Front m s) :
    Front m s' ∧ ∃ n, s'.log = s.log ++ List.replicate n (true, m, .failed) := by
  induction hr with
  | nil => exact ⟨hf, 0, by simp⟩
  | @cons s e s' es s'' hg hs _ ih =>
    obtain ⟨⟨r, hhi⟩, hsd⟩ := hf
    have key : Front m s' ∧ ∃ n, s'.log = s.log ++ List.replicate n (true, m, .failed) := by
      cases e with
      | schedule p m => cases p <;> simp only [step] at hs <;> split at hs <;> cases hs <;> exact ⟨⟨⟨r, hhi⟩, hsd⟩, 0, by simp⟩
      | takeHi => simp only [step] at hs; split at hs <;> cases hs; exact ⟨⟨⟨r, hhi⟩, hsd⟩, 0, by simp⟩
      | takeLo => simp only [step] at hs; split at hs <;> cases hs; exact ⟨⟨⟨r, hhi⟩, hsd⟩, 0, by simp⟩
      | work =>
        simp only [step] at hs
        split at hs
        · cases hs
        · cases hs; exact ⟨⟨⟨r ++ [_], by simp [hhi]; rfl⟩, hsd⟩, 0, by simp⟩
        · cases hs; exact ⟨⟨⟨r, hhi⟩, hsd⟩, 0, by simp⟩
        · split at hs <;> cases hs <;> exact ⟨⟨⟨r, hhi⟩, hsd⟩, 0, by simp⟩
        · cases hs; exact ⟨⟨⟨r, hhi⟩, hsd⟩, 0, by simp⟩
      | wake => simp only [step] at hs; split at hs <;> cases hs; exact ⟨⟨⟨r, hhi⟩, .inr (.inl rfl)⟩, 0, by simp⟩
      | pick =>
        simp only [step] at hs
        split at hs <;> cases hs
        · next hx _ =>
          rw [hhi] at hx
          obtain ⟨h1, -⟩ := List.cons.inj hx
          exact ⟨⟨⟨r, hhi⟩, .inr (.inr (by simp [h1]))⟩, 0, by simp⟩
        · next hx _ _ => rw [hhi] at hx; cases hx
        · next hx _ _ => rw [hhi] at hx; cases hx
      | transmit o =>
        simp only [step] at hs
        split at hs <;> cases hs
        next b m' hx _ =>
        rcases hsd with h | h | h
        · rw [hx] at h; cases h
        · rw [hx] at h; cases h
        · have := hg o rfl h
          subst this
          rw [hx] at h; cases h
          exact ⟨⟨⟨r, hhi⟩, .inl rfl⟩, 1, by simp⟩
      | remove =>
        simp only [step] at hs
        split at hs
        · next hx => rcases hsd with h | h | h <;> (rw [hx] at h; cases h)
        · next hx => rcases hsd with h | h | h <;> (rw [hx] at h; cases h)
        · cases hs
    obtain ⟨h1, n, h2⟩ := key
    obtain ⟨h3, k, h4⟩ := ih h1
    exact ⟨h3, n + k, by rw [h4, h2, List.append_assoc, List.replicate_append_replicate]⟩

/-! ## Examples -/

/-- A bulk message is queued first; an urgent one, queued while it is being transmitted, comes before the
second bulk message. -/
def exTrace : List (Ev Nat) :=
  [.schedule false 1, .schedule false 2, .takeLo, .work, .work, .takeLo, .work, .work, .wake, .pick, .schedule true 9,
    .takeHi, .work, .transmit .ok, .work, .remove, .pick, .transmit .failed, .work, .wake, .pick, .transmit .ok, .remove, .pick,
    .transmit .ok, .remove, .pick]

example : ∃ s, Run Any (init Nat) exTrace s ∧ s.log = [(false, 1, .ok), (true, 9, .failed), (true, 9, .ok), (false, 2, .ok)] ∧
    queuedOf false s = [1, 2] ∧ pending false s = [] :=
  ⟨_, run_of_exec rfl, rfl, rfl, rfl⟩

/-- Two signals: a message that fails is tried twice although nothing more is queued. -/
example : ∃ s, Run Any (init Nat) [.schedule true 5, .schedule true 6, .takeHi, .work, .work, .work, .work, .work, .work] s ∧
    s.hi = [5, 6] ∧ s.sender = .idle ∧ s.signals = 2 := ⟨_, run_of_exec rfl, rfl, rfl, rfl⟩

/-- A full channel. -/
example : ∃ s, Run Any (init Nat) ((List.range 16).map (.schedule true)) s ∧ step s (.schedule true 16) = none :=
  ⟨_, run_of_exec rfl, rfl⟩

example : ∃ s, Run Working (init Nat) [.schedule true 5, .takeHi, .work, .work, .work, .wake, .pick, .transmit .ok, .remove, .pick] s ∧
    AtRest s ∧ wireIn (attempts true s) = [5] := by
  refine ⟨_, .cons trivial rfl (.cons trivial rfl (.cons trivial rfl (.cons trivial rfl (.cons trivial rfl
    (.cons trivial rfl (.cons trivial rfl (.cons rfl rfl (.cons trivial rfl (.cons trivial rfl (.nil _)))))))))), ?_, rfl⟩
  intro e he
  cases e <;> first | rfl | exact he.elim

end Verif.Scheduler
