import Verif.Proofs.TagStack
import Mathlib.Tactic.Common

/-!
# C01, C02: tag pool
-/

namespace Verif.TagStack

/-! ## C01: callers and the tags they hold -/

/-- An action of the users of a pool: take a tag, or give back the tag `x`. -/
inductive Use where
  | take
  | give (x : Nat)
  deriving DecidableEq, Repr

/-- One action on a non-blocking pool, with the list of tags currently held by users.
`none` means that a user gives back a tag nobody holds (misbehaviour) or that the pool
panicked or reported an overflow. A `take` that fails leaves everything as it is. -/
def useStack : Stack × List Nat → Use → Option (Stack × List Nat)
  | (s, held), .take =>
    match s.pop with
    | (.ok t, s') => some (s', t :: held)
    | (.err _, s') => some (s', held)
    | (.panic, _) => none
  | (s, held), .give x =>
    if x ∈ held then
      match s.push x with
      | (.ok (), s') => some (s', held.erase x)
      | (.err _, s') => some (s', held)
      | (.panic, _) => none
    else none

/-- The same for a blocking pool; a blocked action waits, i.e. changes nothing. -/
def useChan : Chan × List Nat → Use → Option (Chan × List Nat)
  | (c, held), .take =>
    match c.pop with
    | some (t, c') => some (c', t :: held)
    | none => some (c, held)
  | (c, held), .give x =>
    if x ∈ held then
      match c.push x with
      | some c' => some (c', held.erase x)
      | none => some (c, held)
    else none

/-- C01 (non-blocking): in every history of well-behaved users, outstanding tags are
distinct, below `d`, and held and pooled tags together are exactly `0..d-1`. -/
theorem C01_tags_distinct (d : Nat) (hd : d ≤ 2 ^ 32) (ops : List Use) (s : Stack)
    (held : List Nat) (h : ops.foldlM useStack (new d, []) = some (s, held)) :
    held.Nodup ∧ (∀ t ∈ held, t < d) ∧
      (held ++ s.stack.take s.at_).Perm (List.range d) := by
  have hinv := foldlM_inv useStack (StackInv d) (fun a op b ha hb => by
    obtain ⟨s, held⟩ := a
    obtain ⟨s', held'⟩ := b
    cases op with
    | take =>
      simp only [useStack] at hb
      have := stackInv_pop ha
      split at hb <;> rename_i heq <;> rw [heq] at this <;> simp at hb this
      · obtain ⟨rfl, rfl⟩ := hb; exact this
      · obtain ⟨rfl, rfl⟩ := hb; exact this
    | give x =>
      simp only [useStack] at hb
      split at hb
      · rename_i hx
        have := stackInv_push ha hx
        rw [this.1] at hb
        simp at hb
        obtain ⟨rfl, rfl⟩ := hb
        exact this.2
      · simp at hb) ops (new d, []) (s, held) (stackInv_new d hd) h
  exact hinv.conclude

/-- A well-behaved history is never cut short: taking is always possible or reports
underflow, and giving back a held tag always succeeds (never overflow, never panic). -/
theorem C01_no_spurious_failure (d : Nat) (hd : d ≤ 2 ^ 32) (ops : List Use) (s : Stack)
    (held : List Nat) (h : ops.foldlM useStack (new d, []) = some (s, held)) :
    (∃ r, useStack (s, held) .take = some r) ∧
    (∀ x ∈ held, (s.push x).1 = .ok ()) := by
  have hinv := foldlM_inv useStack (StackInv d) (fun a op b ha hb => by
    obtain ⟨s, held⟩ := a
    obtain ⟨s', held'⟩ := b
    cases op with
    | take =>
      simp only [useStack] at hb
      have := stackInv_pop ha
      split at hb <;> rename_i heq <;> rw [heq] at this <;> simp at hb this
      · obtain ⟨rfl, rfl⟩ := hb; exact this
      · obtain ⟨rfl, rfl⟩ := hb; exact this
    | give x =>
      simp only [useStack] at hb
      split at hb
      · rename_i hx
        have := stackInv_push ha hx
        rw [this.1] at hb
        simp at hb
        obtain ⟨rfl, rfl⟩ := hb
        exact this.2
      · simp at hb) ops (new d, []) (s, held) (stackInv_new d hd) h
  refine ⟨?_, fun x hx => by rw [(stackInv_push hinv hx).1]⟩
  have := stackInv_pop hinv
  simp only [useStack]
  split
  · exact ⟨_, rfl⟩
  · exact ⟨_, rfl⟩
  · rename_i heq; rw [heq] at this; simp at this

/-- C01 (blocking). -/
theorem C01_tags_distinct_blocking (d : Nat) (hd : d ≤ 2 ^ 32) (ops : List Use) (c : Chan)
    (held : List Nat) (h : ops.foldlM useChan (newBlocking d, []) = some (c, held)) :
    held.Nodup ∧ (∀ t ∈ held, t < d) ∧ (held ++ c.buf).Perm (List.range d) ∧
      (∀ x ∈ held, (c.push x).isSome) := by
  have hinv := foldlM_inv useChan (ChanInv d) (fun a op b ha hb => by
    obtain ⟨c, held⟩ := a
    obtain ⟨c', held'⟩ := b
    cases op with
    | take =>
      simp only [useChan] at hb
      split at hb <;> rename_i heq
      · simp at hb; obtain ⟨rfl, rfl⟩ := hb; exact chanInv_pop ha heq
      · simp at hb; obtain ⟨rfl, rfl⟩ := hb; exact ha
    | give x =>
      simp only [useChan] at hb
      split at hb
      · rename_i hx
        split at hb <;> rename_i heq
        · simp at hb; obtain ⟨rfl, rfl⟩ := hb; exact chanInv_push ha hx heq
        · simp at hb; obtain ⟨rfl, rfl⟩ := hb; exact ha
      · simp at hb) ops (newBlocking d, []) (c, held) (chanInv_new d hd) h
  exact hinv.conclude

/-- Non-triviality: after taking three and returning one, a fourth take succeeds. -/
example : [Use.take, .take, .take, .give 3, .take].foldlM useStack (new 5, []) =
    some (⟨2, [0, 1, 3, 3, 4]⟩, [3, 2, 4]) := by decide

example : [Use.take, .take, .give 0, .take].foldlM useChan (newBlocking 3, []) =
    some (⟨3, [0]⟩, [2, 1]) := by decide

/-! ## C02: refinement to a bounded LIFO / FIFO -/

/-- Calls to a pool. -/
inductive Call where
  | push (x : Nat)
  | pop
  | depth
  deriving DecidableEq, Repr

/-- Observable results. -/
inductive Res where
  | done
  | tag (t : Nat)
  | overflow
  | underflow
  | len (n : Nat)
  | crash
  deriving DecidableEq, Repr

/-- One call on the implementation. -/
def implStep (s : Stack) : Call → Res × Stack
  | .push x =>
    match s.push x with
    | (.ok (), s') => (.done, s')
    | (.err .overflow, s') => (.overflow, s')
    | (.err .underflow, s') => (.underflow, s')
    | (.panic, s') => (.crash, s')
  | .pop =>
    match s.pop with
    | (.ok t, s') => (.tag t, s')
    | (.err .overflow, s') => (.overflow, s')
    | (.err .underflow, s') => (.underflow, s')
    | (.panic, s') => (.crash, s')
  | .depth => (.len s.depth, s)

/-- Specification: a stack (top first) of at most `d` elements. -/
def specStep (d : Nat) (l : List Nat) : Call → Res × List Nat
  | .push x => if l.length = d then (.overflow, l) else (.done, x :: l)
  | .pop =>
    match l with
    | [] => (.underflow, [])
    | t :: r => (.tag t, r)
  | .depth => (.len d, l)

/-- Results of a sequence of calls. -/
def trace {σ : Type} (step : σ → Call → Res × σ) : σ → List Call → List Res
  | _, [] => []
  | s, c :: cs => (step s c).1 :: trace step (step s c).2 cs

/-- C02 (non-blocking): for every depth and every sequence of calls the results are those
of a bounded LIFO that initially contains `d-1` on top of `d-2` ... on top of `0`. -/
theorem C02_bounded_lifo (d : Nat) (hd : d ≤ 2 ^ 32) (cs : List Call) :
    trace implStep (new d) cs = trace (specStep d) (List.range d).reverse cs := by
  suffices H : ∀ (s : Stack) (l : List Nat), Rep d s l →
      trace implStep s cs = trace (specStep d) l cs from H _ _ (rep_new d hd)
  induction cs with
  | nil => intros; rfl
  | cons c cs ih =>
    intro s l hr
    have : (implStep s c).1 = (specStep d l c).1 ∧
        Rep d (implStep s c).2 (specStep d l c).2 := by
      cases c with
      | push x =>
        have := rep_push hr x
        simp only [implStep, specStep]
        by_cases hl : l.length = d <;> simp only [hl, if_true, if_false] at this ⊢
        · rw [this]; exact ⟨rfl, hr⟩
        · obtain ⟨h1, h2⟩ := this
          rcases hp : s.push x with ⟨r, s'⟩
          rw [hp] at h1 h2
          simp only at h1 h2
          subst h1
          exact ⟨rfl, h2⟩
      | pop =>
        have := rep_pop hr
        simp only [implStep, specStep]
        cases l with
        | nil => simp only at this ⊢; rw [this]; exact ⟨rfl, hr⟩
        | cons t r =>
          simp only at this ⊢
          obtain ⟨h1, h2⟩ := this
          rcases hp : s.pop with ⟨q, s'⟩
          rw [hp] at h1 h2
          simp only at h1 h2
          subst h1
          exact ⟨rfl, h2⟩
      | depth => exact ⟨by simp [implStep, specStep, Stack.depth, hr.len], hr⟩
    simp only [trace]
    rw [this.1, ih _ _ this.2]

/-- A failing call leaves the pool unchanged (for every state). -/
theorem C02_failure_no_effect (s : Stack) (x : Nat) :
    (∀ e, (s.push x).1 = .err e → (s.push x).2 = s) ∧
    (∀ e, s.pop.1 = .err e → s.pop.2 = s) := by
  constructor
  · intro e; unfold Stack.push; split <;> simp
  · intro e; unfold Stack.pop; split
    · split <;> simp
    · simp

/-- Blocking pool: executing calls in the order in which they complete. `none` = the call
waits. -/
def chanStep (c : Chan) : Call → Option (Res × Chan)
  | .push x => (c.push x).map fun c' => (.done, c')
  | .pop => c.pop.map fun (t, c') => (.tag t, c')
  | .depth => some (.len c.depth, c)

/-- Specification of the blocking pool: a queue (oldest first) of at most `d` elements. -/
def queueStep (d : Nat) (q : List Nat) : Call → Option (Res × List Nat)
  | .push x => if q.length = d then none else some (.done, q ++ [x])
  | .pop =>
    match q with
    | [] => none
    | t :: r => some (.tag t, r)
  | .depth => some (.len q.length, q)

/-- Results of a sequence of calls; stops at the first call that has to wait. -/
def traceO {σ : Type} (step : σ → Call → Option (Res × σ)) : σ → List Call → List (Option Res)
  | _, [] => []
  | s, c :: cs =>
    match step s c with
    | none => [none]
    | some (r, s') => some r :: traceO step s' cs

/-- C02 (blocking). -/
theorem C02_bounded_fifo (d : Nat) (hd : d ≤ 2 ^ 32) (cs : List Call) :
    traceO chanStep (newBlocking d) cs = traceO (queueStep d) (List.range d) cs := by
  suffices H : ∀ (c : Chan), c.cap = d → c.buf.length ≤ d →
      traceO chanStep c cs = traceO (queueStep d) c.buf cs by
    have := H (newBlocking d) rfl (by simp [newBlocking])
    rw [this]
    simp [newBlocking, map_u32_range hd]
  induction cs with
  | nil => intros; rfl
  | cons a cs ih =>
    intro c hc hl
    cases a with
    | push x =>
      simp only [traceO, chanStep, queueStep, Chan.push, hc]
      by_cases h : c.buf.length = d
      · simp [h]
      · have h' : c.buf.length < d := by omega
        simp only [h', h, if_true, if_false, Option.map_some]
        rw [ih ⟨d, c.buf ++ [x]⟩ rfl (by simp; omega)]
    | pop =>
      simp only [traceO, chanStep, queueStep, Chan.pop]
      cases hb : c.buf with
      | nil => simp
      | cons t r =>
        simp only [Option.map_some]
        rw [ih { c with buf := r } hc (by simp [hb] at hl; simp; omega)]
    | depth =>
      simp only [traceO, chanStep, queueStep, Chan.depth]
      rw [ih c hc hl]

example : trace implStep (new 2) [.pop, .pop, .pop, .push 7, .push 8, .push 9, .pop, .depth] =
    [.tag 1, .tag 0, .underflow, .done, .done, .overflow, .tag 8, .len 2] := by decide

example : traceO chanStep (newBlocking 2) [.pop, .push 7, .depth, .pop, .pop, .depth, .pop] =
    [some (.tag 0), some .done, some (.len 2), some (.tag 1), some (.tag 7), some (.len 0),
      none] := by decide

end Verif.TagStack
