import Verif.Model.Handshake

/-! # C87: killed in the middle of an exchange of PINs -/

namespace Verif.Handshake

/-- Nothing is left to do for either client or the server. -/
structure Rest (s : State) : Prop where
  pcA : s.a.pc = .idle
  outA : s.a.out = []
  inA : s.a.inbox = []
  ui : s.b.ui = .idle
  pcB : s.b.pc = .idle
  outB : s.b.out = []
  inB : s.b.inbox = []

/-- Both are in the address book of the other, and their ratchets fit. -/
def Contacts (s : State) : Prop :=
  s.a.book = true ∧ s.b.book = true ∧ ∃ r, s.a.full = some r ∧ s.b.full = some r

/-- Neither has a ratchet, whole or half, and `B` can say yes. -/
def Again (s : State) : Prop := s.a.full = none ∧ s.b.full = none ∧ s.b.half = none ∧ s.b.ui = .idle

/-- `A` has the ratchet but the answer has not been sent. -/
def BetweenA (a : A) : Prop := (∃ n m, a.pc = .full n m) ∨ ∃ n m, .kx n m ∈ a.out

/-- The offer of `B` has not been sent. -/
def Unsent (b : B) : Prop := ∃ n, .offer n ∈ b.out

/-- Events outside of the windows in which the order of steps matters: `A` is not killed between saving the ratchet and
sending the answer; `B` is not killed with the offer sent and the half ratchet not saved, or the other way around; and the
answer does not overtake the window of `B`. `B` does not reset. -/
def Safe (s : State) : Ev → Prop
  | .crashA => ¬ BetweenA s.a
  | .crashB => s.b.ui ≠ .idle ↔ Unsent s.b
  | .recvB => s.b.ui = .idle
  | .reset => False
  | _ => True

/-! ## The phases -/

inductive AClean : A → Prop
  | mk {k bk} : AClean ⟨k, none, bk, .idle, [], [], 0⟩

inductive AAsked (n : Nat) : A → Prop
  | wait {k bk} : AAsked n ⟨k, none, bk, .idle, [], [n], 0⟩
  | got {k bk} : AAsked n ⟨k, none, bk, .got n, [], [n], 1⟩
  | saved {bk} : AAsked n ⟨true, none, bk, .saved n, [], [n], 1⟩

inductive AAnswering (n m : Nat) : A → Prop
  | full {bk} : AAnswering n m ⟨true, some (n, m), bk, .full n m, [], [n], 1⟩
  | queued {bk} : AAnswering n m ⟨true, some (n, m), bk, .queued, [.kx n m], [n], 1⟩
  | done : AAnswering n m ⟨true, some (n, m), true, .idle, [.kx n m, .ack], [n], 1⟩

inductive AAnswered (n m : Nat) : A → Prop
  | queued {bk} : AAnswered n m ⟨true, some (n, m), bk, .queued, [], [n], 1⟩
  | ack : AAnswered n m ⟨true, some (n, m), true, .idle, [.ack], [n], 1⟩
  | again : AAnswered n m ⟨true, some (n, m), true, .idle, [], [n], 0⟩
  | done : AAnswered n m ⟨true, some (n, m), true, .idle, [], [], 0⟩

/-- `B` with this queue and inbox, no answer handled. -/
inductive BStage (n : Nat) (o : List OutB) (i : List (Nat × Nat)) : B → Prop
  | queued {k ky bk} : BStage n o i ⟨k, ky, none, none, bk, .queued n, .idle, o, i, 0⟩
  | saved {ky bk} : BStage n o i ⟨true, ky, none, none, bk, .saved n, .idle, o, i, 0⟩
  | key {bk} : BStage n o i ⟨true, true, none, none, bk, .key n, .idle, o, i, 0⟩
  | half {bk} : BStage n o i ⟨true, true, some n, none, bk, .idle, .idle, o, i, 0⟩

inductive BClean : B → Prop
  | mk {k ky bk} : BClean ⟨k, ky, none, none, bk, .idle, .idle, [], [], 0⟩

inductive BEnd (n m : Nat) : B → Prop
  | stage {b} (h : BStage n [] [(n, m)] b) : BEnd n m b
  | got {bk} : BEnd n m ⟨true, true, some n, none, bk, .idle, .got m, [], [(n, m)], 1⟩
  | saved {h bk} : BEnd n m ⟨true, true, h, some (n, m), bk, .idle, .saved, [], [(n, m)], 1⟩
  | removed {h bk} : BEnd n m ⟨true, true, h, some (n, m), bk, .idle, .removed, [], [(n, m)], 1⟩
  | ack {h} : BEnd n m ⟨true, true, h, some (n, m), true, .idle, .idle, [.ack], [(n, m)], 1⟩
  | again {h} : BEnd n m ⟨true, true, h, some (n, m), true, .idle, .idle, [], [(n, m)], 0⟩
  | done {h} : BEnd n m ⟨true, true, h, some (n, m), true, .idle, .idle, [], [], 0⟩

inductive Phase : State → Prop
  | idle {a b x} : AClean a → BClean b → Phase ⟨a, b, x⟩
  | sending {a b x n} : AClean a → BStage n [.offer n] [] b → Phase ⟨a, b, x⟩
  | asked {a b x n} : AAsked n a → BStage n [] [] b → Phase ⟨a, b, x⟩
  | answering {a b x n m} : AAnswering n m a → BStage n [] [] b → Phase ⟨a, b, x⟩
  | answered {a b x n m} : AAnswered n m a → BEnd n m b → Phase ⟨a, b, x⟩

/-! ### `B` alone -/

theorem bClean_ui {b : B} (h : BClean b) : stepUi b = b := by cases h; rfl

theorem bStage_ui {n : Nat} {o : List OutB} {i : List (Nat × Nat)} {b : B} (h : BStage n o i b) :
    BStage n o i (stepUi b) := by
  cases h with
  | @queued k ky bk => cases k <;> exact .saved
  | saved => exact .key
  | key => exact .half
  | half => exact .half

theorem bEnd_ui {n m : Nat} {b : B} (h : BEnd n m b) : BEnd n m (stepUi b) := by
  cases h with
  | stage h => exact .stage (bStage_ui h)
  | got => exact .got
  | saved => exact .saved
  | removed => exact .removed
  | ack => exact .ack
  | again => exact .again
  | done => exact .done

theorem bStage_net {n : Nat} {o : List OutB} {i : List (Nat × Nat)} {b : B} (h : BStage n o i b) : netB b = b := by
  cases h <;> rfl

theorem bEnd_net {n m : Nat} {b : B} (h : BEnd n m b) : BEnd n m (netB b) := by
  cases h with
  | stage h => rw [bStage_net h]; exact .stage h
  | got => exact .saved
  | saved => exact .removed
  | removed => exact .ack
  | ack => exact .ack
  | again => exact .again
  | done => exact .done

theorem bStage_recv {n : Nat} {o : List OutB} {b : B} (h : BStage n o [] b) : recvB b = b := by
  cases h <;> rfl

theorem bEnd_recv {n m : Nat} {b : B} (h : BEnd n m b) (hu : b.ui = .idle) : BEnd n m (recvB b) := by
  cases h with
  | stage h =>
    cases h with
    | queued => cases hu
    | saved => cases hu
    | key => cases hu
    | half => exact .got
  | got => exact .got
  | saved => exact .saved
  | removed => exact .removed
  | ack => exact .ack
  | @again h => cases h <;> exact .ack
  | done => exact .done

theorem bEnd_crash {n m : Nat} {b : B} (h : BEnd n m b) (hs : b.ui ≠ .idle ↔ Unsent b) : BEnd n m (crashB b) := by
  have no {o : B} (ho : o.out = []) : ¬ Unsent o := by rintro ⟨n, hn⟩; rw [ho] at hn; cases hn
  cases h with
  | stage h =>
    cases h with
    | queued => exact absurd (hs.mp (by intro h; cases h)) (no rfl)
    | saved => exact absurd (hs.mp (by intro h; cases h)) (no rfl)
    | key => exact absurd (hs.mp (by intro h; cases h)) (no rfl)
    | half => exact .stage .half
  | got => exact .stage .half
  | saved => exact .again
  | removed => exact .again
  | ack => exact .again
  | again => exact .again
  | done => exact .done

theorem bStage_crash {n : Nat} {b : B} (h : BStage n [] [] b) (hs : b.ui ≠ .idle ↔ Unsent b) : BStage n [] [] (crashB b) := by
  have no {o : B} (ho : o.out = []) : ¬ Unsent o := by rintro ⟨n, hn⟩; rw [ho] at hn; cases hn
  cases h with
  | queued => exact absurd (hs.mp (by intro h; cases h)) (no rfl)
  | saved => exact absurd (hs.mp (by intro h; cases h)) (no rfl)
  | key => exact absurd (hs.mp (by intro h; cases h)) (no rfl)
  | half => exact .half

theorem sending_crash {n : Nat} {b : B} (h : BStage n [.offer n] [] b) (hs : b.ui ≠ .idle ↔ Unsent b) : BClean (crashB b) := by
  cases h with
  | queued => exact .mk
  | saved => exact .mk
  | key => exact .mk
  | half => exact absurd rfl (hs.mpr ⟨n, by simp⟩)

/-! ### `A` alone -/

theorem aClean_recv {a : A} (h : AClean a) : recvA a = a := by cases h; rfl
theorem aClean_net {a : A} (h : AClean a) (r : Nat) : netA a r = a := by cases h; rfl

theorem aAsked_recv {n : Nat} {a : A} (h : AAsked n a) : AAsked n (recvA a) := by
  cases h with
  | @wait k bk => cases k <;> exact .got
  | got => exact .got
  | saved => exact .saved

theorem aAsked_net {n : Nat} {a : A} (h : AAsked n a) (r : Nat) : AAsked n (netA a r) ∨ AAnswering n r (netA a r) := by
  cases h with
  | wait => exact .inl .wait
  | got => exact .inl .saved
  | saved => exact .inr .full

theorem aAsked_crash {n : Nat} {a : A} (h : AAsked n a) : AAsked n (crashA a) := by
  cases h <;> exact .wait

theorem aAnswering_recv {n m : Nat} {a : A} (h : AAnswering n m a) : AAnswering n m (recvA a) := by
  cases h with
  | full => exact .full
  | queued => exact .queued
  | done => exact .done

theorem aAnswering_net {n m : Nat} {a : A} (h : AAnswering n m a) (r : Nat) : AAnswering n m (netA a r) := by
  cases h with
  | full => exact .queued
  | queued => exact .done
  | done => exact .done

theorem aAnswering_between {n m : Nat} {a : A} (h : AAnswering n m a) : BetweenA a := by
  cases h with
  | full => exact .inl ⟨n, m, rfl⟩
  | queued => exact .inr ⟨n, m, by simp⟩
  | done => exact .inr ⟨n, m, by simp⟩

theorem aAnswered_recv {n m : Nat} {a : A} (h : AAnswered n m a) : AAnswered n m (recvA a) := by
  cases h with
  | queued => exact .queued
  | ack => exact .ack
  | again => exact .ack
  | done => exact .done

theorem aAnswered_net {n m : Nat} {a : A} (h : AAnswered n m a) (r : Nat) : AAnswered n m (netA a r) := by
  cases h with
  | queued => exact .ack
  | ack => exact .ack
  | again => exact .again
  | done => exact .done

theorem aAnswered_crash {n m : Nat} {a : A} (h : AAnswered n m a) : AAnswered n m (crashA a) := by
  cases h with
  | queued => exact .again
  | ack => exact .again
  | again => exact .again
  | done => exact .done

/-! ### Together -/

theorem no_yes {n : Nat} {o : List OutB} {i : List (Nat × Nat)} {b : B} (h : BStage n o i b) :
    ¬ (b.ui = .idle ∧ b.exists_ = false) := by
  cases h <;> rintro ⟨h1, h2⟩ <;> cases h1 <;> cases h2

theorem no_yes' {n m : Nat} {b : B} (h : BEnd n m b) : ¬ (b.ui = .idle ∧ b.exists_ = false) := by
  cases h with
  | stage h => exact no_yes h
  | got => rintro ⟨h1, h2⟩; cases h2
  | @saved h => cases h <;> rintro ⟨h1, h2⟩ <;> cases h2
  | @removed h => cases h <;> rintro ⟨h1, h2⟩ <;> cases h2
  | @ack h => cases h <;> rintro ⟨h1, h2⟩ <;> cases h2
  | @again h => cases h <;> rintro ⟨h1, h2⟩ <;> cases h2
  | @done h => cases h <;> rintro ⟨h1, h2⟩ <;> cases h2

theorem phase_step {s : State} (h : Phase s) {e : Ev} (hs : Safe s e) : Phase (step s e) := by
  cases e with
  | yes =>
    simp only [step]
    split
    · next hy =>
      cases h with
      | idle ha hb => cases hb with | mk => exact .sending ha .queued
      | sending ha hb => exact absurd hy (no_yes hb)
      | asked ha hb => exact absurd hy (no_yes hb)
      | answering ha hb => exact absurd hy (no_yes hb)
      | answered ha hb => exact absurd hy (no_yes' hb)
    · exact h
  | ui =>
    cases h with
    | idle ha hb => exact .idle ha (by rw [bClean_ui hb]; exact hb)
    | sending ha hb => exact .sending ha (bStage_ui hb)
    | asked ha hb => exact .asked ha (bStage_ui hb)
    | answering ha hb => exact .answering ha (bStage_ui hb)
    | answered ha hb => exact .answered ha (bEnd_ui hb)
  | reset => exact hs.elim
  | sendB =>
    cases h with
    | idle ha hb => cases hb with | mk => exact .idle ha .mk
    | sending ha hb =>
      cases ha with
      | mk =>
        cases hb with
        | queued => exact .asked .wait .queued
        | saved => exact .asked .wait .saved
        | key => exact .asked .wait .key
        | half => exact .asked .wait .half
    | asked ha hb =>
      cases hb with
      | queued => exact .asked ha .queued
      | saved => exact .asked ha .saved
      | key => exact .asked ha .key
      | half => exact .asked ha .half
    | answering ha hb =>
      cases hb with
      | queued => exact .answering ha .queued
      | saved => exact .answering ha .saved
      | key => exact .answering ha .key
      | half => exact .answering ha .half
    | answered ha hb =>
      cases hb with
      | stage hb =>
        cases hb with
        | queued => exact .answered ha (.stage .queued)
        | saved => exact .answered ha (.stage .saved)
        | key => exact .answered ha (.stage .key)
        | half => exact .answered ha (.stage .half)
      | got => exact .answered ha .got
      | saved => exact .answered ha .saved
      | removed => exact .answered ha .removed
      | ack => exact .answered ha .done
      | again => exact .answered ha .again
      | done => exact .answered ha .done
  | recvB =>
    cases h with
    | idle ha hb => cases hb with | mk => exact .idle ha .mk
    | sending ha hb => exact .sending ha (by rw [bStage_recv hb]; exact hb)
    | asked ha hb => exact .asked ha (by rw [bStage_recv hb]; exact hb)
    | answering ha hb => exact .answering ha (by rw [bStage_recv hb]; exact hb)
    | answered ha hb => exact .answered ha (bEnd_recv hb hs)
  | netB =>
    cases h with
    | idle ha hb => cases hb with | mk => exact .idle ha .mk
    | sending ha hb => exact .sending ha (by rw [bStage_net hb]; exact hb)
    | asked ha hb => exact .asked ha (by rw [bStage_net hb]; exact hb)
    | answering ha hb => exact .answering ha (by rw [bStage_net hb]; exact hb)
    | answered ha hb => exact .answered ha (bEnd_net hb)
  | crashB =>
    cases h with
    | idle ha hb => cases hb with | mk => exact .idle ha .mk
    | sending ha hb => exact .idle ha (sending_crash hb hs)
    | asked ha hb => exact .asked ha (bStage_crash hb hs)
    | answering ha hb => exact .answering ha (bStage_crash hb hs)
    | answered ha hb => exact .answered ha (bEnd_crash hb hs)
  | sendA =>
    cases h with
    | idle ha hb => cases ha with | mk => exact .idle .mk hb
    | sending ha hb => cases ha with | mk => exact .sending .mk hb
    | asked ha hb =>
      cases ha with
      | wait => exact .asked .wait hb
      | got => exact .asked .got hb
      | saved => exact .asked .saved hb
    | @answering a b x n m ha hb =>
      have hb' : BEnd n m { b with inbox := b.inbox ++ [(n, m)] } := by
        cases hb with
        | queued => exact .stage .queued
        | saved => exact .stage .saved
        | key => exact .stage .key
        | half => exact .stage .half
      cases ha with
      | full => exact .answering .full hb
      | queued => exact .answered .queued hb'
      | done => exact .answered .ack hb'
    | answered ha hb =>
      cases ha with
      | queued => exact .answered .queued hb
      | ack => exact .answered .done hb
      | again => exact .answered .again hb
      | done => exact .answered .done hb
  | recvA =>
    cases h with
    | idle ha hb => exact .idle (by rw [aClean_recv ha]; exact ha) hb
    | sending ha hb => exact .sending (by rw [aClean_recv ha]; exact ha) hb
    | asked ha hb => exact .asked (aAsked_recv ha) hb
    | answering ha hb => exact .answering (aAnswering_recv ha) hb
    | answered ha hb => exact .answered (aAnswered_recv ha) hb
  | netA =>
    cases h with
    | idle ha hb => exact .idle (by rw [aClean_net ha]; exact ha) hb
    | sending ha hb => exact .sending (by rw [aClean_net ha]; exact ha) hb
    | asked ha hb =>
      rcases aAsked_net ha _ with h | h
      · exact .asked h hb
      · exact .answering h hb
    | answering ha hb => exact .answering (aAnswering_net ha _) hb
    | answered ha hb => exact .answered (aAnswered_net ha _) hb
  | crashA =>
    cases h with
    | idle ha hb => cases ha with | mk => exact .idle .mk hb
    | sending ha hb => cases ha with | mk => exact .sending .mk hb
    | asked ha hb => exact .asked (aAsked_crash ha) hb
    | answering ha hb => exact absurd (aAnswering_between ha) hs
    | answered ha hb => exact .answered (aAnswered_crash ha) hb

theorem phase_runs {s t : State} (h : Runs Safe s t) (hp : Phase s) : Phase t := by
  induction h with
  | refl => exact hp
  | tail e _ hs ih => exact phase_step ih hs

theorem phase_init : Phase {} := .idle .mk .mk

theorem phase_rest {s : State} (h : Phase s) (hr : Rest s) : Again s ∨ Contacts s := by
  obtain ⟨h1, h2, h3, h4, h5, h6, h7⟩ := hr
  cases h with
  | idle ha hb => cases ha; cases hb; exact .inl ⟨rfl, rfl, rfl, rfl⟩
  | sending ha hb => cases hb <;> cases h6
  | asked ha hb => cases ha <;> cases h3
  | answering ha hb => cases ha <;> cases h3
  | @answered a b x n m ha hb =>
    cases ha with
    | queued => cases h3
    | ack => cases h3
    | again => cases h3
    | done =>
      cases hb with
      | stage hb => cases hb <;> cases h7
      | got => cases h7
      | saved => cases h7
      | removed => cases h7
      | ack => cases h7
      | again => cases h7
      | done => exact .inr ⟨rfl, rfl, _, rfl, rfl⟩

/-- Outside of the windows, whatever is killed and whatever the order of steps, when nothing is left to do the two are
contacts, or neither has a ratchet and `B` can say yes (again). -/
theorem C87_rest_partial {s : State} (h : Runs Safe {} s) (hr : Rest s) : Again s ∨ Contacts s :=
  phase_rest (phase_runs h phase_init) hr

/-- `B` has a half ratchet or a whole one. -/
def Begun (s : State) : Prop := s.b.half.isSome = true ∨ s.b.full.isSome = true

theorem begun_step {s : State} (h : Phase s) {e : Ev} (hs : Safe s e) (hb : Begun s) : Begun (step s e) := by
  cases e with
  | yes => simp only [step]; split <;> exact hb
  | ui =>
    simp only [step, stepUi]
    split
    · exact hb
    · split <;> exact hb
    · exact hb
    · exact .inl rfl
  | reset => exact hs.elim
  | sendB => simp only [step]; split <;> exact hb
  | recvB =>
    simp only [step, recvB]
    split
    · split
      · exact hb
      · split <;> exact hb
    · exact hb
  | netB =>
    cases h with
    | idle ha hc => cases hc; exact hb
    | sending ha hc => simp only [step, bStage_net hc]; exact hb
    | asked ha hc => simp only [step, bStage_net hc]; exact hb
    | answering ha hc => simp only [step, bStage_net hc]; exact hb
    | answered ha hc =>
      cases hc with
      | stage hc => simp only [step, bStage_net hc]; exact hb
      | got => exact .inr rfl
      | saved => exact .inr rfl
      | removed => exact .inr rfl
      | ack => exact hb
      | again => exact hb
      | done => exact hb
  | crashB => exact hb
  | sendA => simp only [step]; split <;> exact hb
  | recvA => exact hb
  | netA => exact hb
  | crashA => exact hb

theorem begun_runs {s t : State} (h : Runs Safe s t) (hp : Phase s) (hb : Begun s) : Begun t := by
  induction h with
  | refl => exact hb
  | tail e hr hs ih => exact begun_step (phase_runs hr hp) hs ih

theorem runs_trans {ok : State → Ev → Prop} {s t u : State} (h : Runs ok s t) (h' : Runs ok t u) : Runs ok s u := by
  induction h' with
  | refl => exact h
  | tail e _ ho ih => exact .tail e ih ho

/-- From when the half ratchet is saved, outside of the windows, they are contacts whenever nothing is left to do. -/
theorem C87_completes_partial {s t : State} (h : Runs Safe {} s) (hb : s.b.half.isSome = true) (h' : Runs Safe s t)
    (hr : Rest t) : Contacts t := by
  have hp := phase_runs h phase_init
  rcases phase_rest (phase_runs h' hp) hr with ha | hc
  · rcases begun_runs h' hp (.inl hb) with hx | hx
    · rw [ha.2.2.1] at hx; cases hx
    · rw [ha.2.1] at hx; cases hx
  · exact hc

/-! ## It comes to an end -/

/-- Something that happens of its own accord and is not idle. -/
def Moves (s : State) : Ev → Prop
  | .ui => s.b.ui ≠ .idle
  | .sendB => s.b.out ≠ []
  | .recvB => s.b.pc = .idle ∧ s.b.seen < s.b.inbox.length
  | .netB => s.b.pc ≠ .idle
  | .sendA => s.a.out ≠ []
  | .recvA => s.a.pc = .idle ∧ s.a.seen < s.a.inbox.length
  | .netA => s.a.pc ≠ .idle
  | _ => False

def uiWeight : Ui → Nat
  | .idle => 0
  | .queued _ => 3
  | .saved _ => 2
  | .key _ => 1

def pcBWeight : PcB → Nat
  | .idle => 0
  | .got _ => 4
  | .saved => 3
  | .removed => 2

def outBWeight : OutB → Nat
  | .offer _ => 13
  | .ack => 1

def pcAWeight : PcA → Nat
  | .idle => 0
  | .got _ => 11
  | .saved _ => 10
  | .full _ _ => 9
  | .queued => 2

def outAWeight : OutA → Nat
  | .kx _ _ => 6
  | .ack => 1

def bWeight (b : B) : Nat :=
  uiWeight b.ui + pcBWeight b.pc + (b.out.map outBWeight).sum + 5 * (b.inbox.length - b.seen)

def aWeight (a : A) : Nat := pcAWeight a.pc + (a.out.map outAWeight).sum + 12 * (a.inbox.length - a.seen)

/-- How many steps are left at most. -/
def weight (s : State) : Nat := aWeight s.a + bWeight s.b

theorem weight_moves {s : State} {e : Ev} (h : Moves s e) : weight (step s e) < weight s := by
  cases e with
  | yes => exact h.elim
  | reset => exact h.elim
  | crashA => exact h.elim
  | crashB => exact h.elim
  | ui =>
    have : bWeight (stepUi s.b) < bWeight s.b := by
      simp only [Moves] at h
      unfold stepUi bWeight
      cases hu : s.b.ui with
      | idle => exact absurd hu h
      | queued n => simp only []; split <;> simp [uiWeight] <;> omega
      | saved n => simp [uiWeight]
      | key n => simp [uiWeight]
    simp only [step, weight]; omega
  | sendB =>
    simp only [Moves] at h
    simp only [step]
    cases ho : s.b.out with
    | nil => exact absurd ho h
    | cons o rest =>
      cases o with
      | offer n => simp only [weight, aWeight, bWeight, ho, List.map_cons, List.sum_cons, outBWeight, List.length_append,
          List.length_singleton]; omega
      | ack => simp only [weight, bWeight, ho, List.map_cons, List.sum_cons, outBWeight, List.length_tail]; omega
  | recvB =>
    obtain ⟨hp, hl⟩ := h
    have : bWeight (recvB s.b) < bWeight s.b := by
      unfold recvB
      rw [if_pos hp, List.getElem?_eq_getElem hl]
      simp only []
      split
      · simp only [bWeight, hp, pcBWeight]; omega
      · simp only [bWeight, hp, pcBWeight, List.map_append, List.sum_append, List.map_cons, List.map_nil, List.sum_cons,
          List.sum_nil, outBWeight]; omega
    simp only [step, weight]; omega
  | netB =>
    have : bWeight (netB s.b) < bWeight s.b := by
      simp only [Moves] at h
      unfold netB
      cases hp : s.b.pc with
      | idle => exact absurd hp h
      | got m =>
        simp only []
        split
        · simp [bWeight, hp, pcBWeight, outBWeight]; omega
        · simp [bWeight, hp, pcBWeight]
      | saved => simp [bWeight, hp, pcBWeight]
      | removed => simp [bWeight, hp, pcBWeight, outBWeight]; omega
    simp only [step, weight]; omega
  | sendA =>
    simp only [Moves] at h
    simp only [step]
    cases ho : s.a.out with
    | nil => exact absurd ho h
    | cons o rest =>
      cases o with
      | kx n m => simp only [weight, aWeight, bWeight, ho, List.map_cons, List.sum_cons, outAWeight, List.length_append,
          List.length_singleton]; omega
      | ack => simp only [weight, aWeight, ho, List.map_cons, List.sum_cons, outAWeight, List.length_tail]; omega
  | recvA =>
    obtain ⟨hp, hl⟩ := h
    have : aWeight (recvA s.a) < aWeight s.a := by
      unfold recvA
      rw [if_pos hp, List.getElem?_eq_getElem hl]
      simp only []
      split
      · simp only [aWeight, hp, pcAWeight]; omega
      · simp only [aWeight, hp, pcAWeight, List.map_append, List.sum_append, List.map_cons, List.map_nil, List.sum_cons,
          List.sum_nil, outAWeight]; omega
    simp only [step, weight]; omega
  | netA =>
    have : aWeight (netA s.a s.next) < aWeight s.a := by
      simp only [Moves] at h
      unfold netA
      cases hp : s.a.pc with
      | idle => exact absurd hp h
      | got m => simp [aWeight, hp, pcAWeight]
      | saved n => simp [aWeight, hp, pcAWeight]
      | full n m => simp [aWeight, hp, pcAWeight, outAWeight]; omega
      | queued => simp [aWeight, hp, pcAWeight, outAWeight]; omega
    simp only [step, weight]; omega

/-- Steps of their own accord, `n` in all. -/
inductive Steps : State → Nat → State → Prop
  | none {s} : Steps s 0 s
  | one {s n t e} : Steps s n t → Moves t e → Steps s (n + 1) (step t e)

/-- From any state, left alone, everything comes to an end. -/
theorem C87_ends {s t : State} {n : Nat} (h : Steps s n t) : n + weight t ≤ weight s := by
  induction h with
  | none => omega
  | one _ hm ih => have := weight_moves hm; omega

/-- And outside of the windows it does not stop before: unless nothing is left to do, there is a step that is safe. -/
theorem C87_live_partial {s : State} (h : Runs Safe {} s) : Rest s ∨ ∃ e, Moves s e ∧ Safe s e := by
  have h := phase_runs h phase_init
  have stage {n : Nat} {o : List OutB} {i : List (Nat × Nat)} {b : B} (h : BStage n o i b) :
      b.ui ≠ .idle ∨ b.ui = .idle ∧ b.pc = .idle ∧ b.out = o ∧ b.inbox = i ∧ b.seen = 0 := by
    cases h with
    | queued => exact .inl (by intro h; cases h)
    | saved => exact .inl (by intro h; cases h)
    | key => exact .inl (by intro h; cases h)
    | half => exact .inr ⟨rfl, rfl, rfl, rfl, rfl⟩
  cases h with
  | idle ha hb => cases ha; cases hb; exact .inl ⟨rfl, rfl, rfl, rfl, rfl, rfl, rfl⟩
  | sending ha hb =>
    refine .inr ⟨.sendB, ?_, trivial⟩
    cases hb <;> exact List.cons_ne_nil _ _
  | asked ha hb =>
    cases ha with
    | wait => exact .inr ⟨.recvA, ⟨rfl, Nat.one_pos⟩, trivial⟩
    | got => exact .inr ⟨.netA, (by intro h; cases h), trivial⟩
    | saved => exact .inr ⟨.netA, (by intro h; cases h), trivial⟩
  | answering ha hb =>
    cases ha with
    | full => exact .inr ⟨.netA, (by intro h; cases h), trivial⟩
    | queued => exact .inr ⟨.netA, (by intro h; cases h), trivial⟩
    | done => exact .inr ⟨.sendA, List.cons_ne_nil _ _, trivial⟩
  | answered ha hb =>
    cases ha with
    | queued => exact .inr ⟨.netA, (by intro h; cases h), trivial⟩
    | ack => exact .inr ⟨.sendA, List.cons_ne_nil _ _, trivial⟩
    | again => exact .inr ⟨.recvA, ⟨rfl, Nat.one_pos⟩, trivial⟩
    | done =>
      cases hb with
      | @stage b hb =>
        rcases stage hb with h | ⟨h1, h2, h3, h4, h5⟩
        · exact .inr ⟨.ui, h, trivial⟩
        · exact .inr ⟨.recvB, ⟨h2, by simp [h4, h5]⟩, h1⟩
      | got => exact .inr ⟨.netB, (by intro h; cases h), trivial⟩
      | saved => exact .inr ⟨.netB, (by intro h; cases h), trivial⟩
      | removed => exact .inr ⟨.netB, (by intro h; cases h), trivial⟩
      | ack => exact .inr ⟨.sendB, List.cons_ne_nil _ _, trivial⟩
      | again => exact .inr ⟨.recvB, ⟨rfl, Nat.one_pos⟩, rfl⟩
      | done => exact .inl ⟨rfl, rfl, rfl, rfl, rfl, rfl, rfl⟩

/-! ## Violations -/

/-- No restriction. -/
def anyEv : State → Ev → Prop := fun _ _ => True

def exec (s : State) (es : List Ev) : State := es.foldl step s

theorem runs_any' {s0 s : State} (es : List Ev) (h0 : Runs anyEv s0 s) : Runs anyEv s0 (exec s es) := by
  induction es generalizing s with
  | nil => exact h0
  | cons e es ih => exact ih (.tail e h0 trivial)

theorem runs_any (s : State) (es : List Ev) : Runs anyEv s (exec s es) := runs_any' es .refl

/-- `A` has a ratchet, the answer is nowhere, and `B` has none. -/
structure Silent (s : State) : Prop where
  full : s.a.full.isSome = true
  known : s.a.known = true
  pcA : s.a.pc = .idle
  outA : ∀ o ∈ s.a.out, o = .ack
  inB : s.b.inbox = []
  pcB : s.b.pc = .idle
  fullB : s.b.full = none

theorem silent_step {s : State} (h : Silent s) (e : Ev) : Silent (step s e) := by
  obtain ⟨h1, h2, h3, h4, h5, h6, h7⟩ := h
  cases e with
  | yes => simp only [step]; split <;> exact ⟨h1, h2, h3, h4, h5, h6, h7⟩
  | ui =>
    simp only [step, stepUi]
    split
    · exact ⟨h1, h2, h3, h4, h5, h6, h7⟩
    · split <;> exact ⟨h1, h2, h3, h4, h5, h6, h7⟩
    · exact ⟨h1, h2, h3, h4, h5, h6, h7⟩
    · exact ⟨h1, h2, h3, h4, h5, h6, h7⟩
  | reset => simp only [step]; split <;> exact ⟨h1, h2, h3, h4, h5, h6, h7⟩
  | sendB =>
    simp only [step]
    split
    · exact ⟨h1, h2, h3, h4, h5, h6, h7⟩
    · exact ⟨h1, h2, h3, h4, h5, h6, h7⟩
    · exact ⟨h1, h2, h3, h4, by simp [h5], h6, h7⟩
  | recvB =>
    have : recvB s.b = s.b := by simp [recvB, h6, h5]
    simp only [step, this]
    exact ⟨h1, h2, h3, h4, h5, h6, h7⟩
  | netB =>
    have : netB s.b = s.b := by simp [netB, h6]
    simp only [step, this]
    exact ⟨h1, h2, h3, h4, h5, h6, h7⟩
  | crashB => exact ⟨h1, h2, h3, h4, h5, rfl, h7⟩
  | sendA =>
    simp only [step]
    split
    · exact ⟨h1, h2, h3, h4, h5, h6, h7⟩
    · next n m rest ho => exact absurd (h4 (.kx n m) (by rw [ho]; simp)) (by simp)
    · next rest ho => exact ⟨h1, h2, h3, fun o hm => h4 o (by rw [ho]; exact List.mem_cons_of_mem _ hm), h5, h6, h7⟩
  | recvA =>
    simp only [step, recvA, h3, if_true]
    split
    · exact ⟨h1, h2, h3, h4, h5, h6, h7⟩
    · rw [if_neg (by simp [A.exists_, h1, h2])]
      refine ⟨h1, h2, rfl, ?_, h5, h6, h7⟩
      intro o hm
      rcases List.mem_append.mp hm with hm | hm
      · exact h4 o hm
      · exact List.mem_singleton.mp hm
  | netA =>
    have : netA s.a s.next = s.a := by simp [netA, h3]
    simp only [step, this]
    exact ⟨h1, h2, h3, h4, h5, h6, h7⟩
  | crashA => exact ⟨h1, h2, rfl, (fun o hm => by cases hm), h5, h6, h7⟩

theorem silent_runs {s t : State} (h : Silent s) (hr : Runs anyEv s t) : t.b.full = none := by
  have : Silent t := by
    induction hr with
    | refl => exact h
    | tail e _ _ ih => exact silent_step ih e
  exact this.fullB

/-- `A` is killed after saving the ratchet and before the answer is sent. The offer is delivered again, and dropped, as
there is a ratchet. `A` has `B` in the address book; `B` never gets a ratchet, whatever `B` does, resets and further
attempts included. -/
theorem C87_answer_violated : ∃ s, Runs anyEv {} s ∧ s.a.full.isSome = true ∧ s.a.book = true ∧
    ∀ t, Runs anyEv s t → t.b.full = none :=
  ⟨exec {} [.yes, .ui, .ui, .ui, .sendB, .recvA, .netA, .netA, .crashA], runs_any _ _, by decide +kernel, by decide +kernel,
    fun _ ht => silent_runs ⟨by decide +kernel, by decide +kernel, by decide +kernel, by decide +kernel, by decide +kernel,
      by decide +kernel, by decide +kernel⟩ ht⟩

/-- Nobody is killed, but the answer arrives before the window of `B` has saved the half ratchet. It is dropped, with the
same result. -/
theorem C87_overtaken_violated : ∃ s, Runs (fun _ e => e ≠ .crashA ∧ e ≠ .crashB ∧ e ≠ .reset) {} s ∧ Rest s ∧
    s.a.full.isSome = true ∧ s.a.book = true ∧ ∀ t, Runs anyEv s t → t.b.full = none := by
  refine ⟨exec {} [.yes, .sendB, .ui, .recvA, .netA, .netA, .netA, .netA, .sendA, .sendA, .recvB, .sendB, .ui, .ui], ?_,
    ⟨by decide +kernel, by decide +kernel, by decide +kernel, by decide +kernel, by decide +kernel, by decide +kernel,
      by decide +kernel⟩, by decide +kernel, by decide +kernel, fun _ ht => silent_runs ⟨by decide +kernel, by decide +kernel,
      by decide +kernel, by decide +kernel, by decide +kernel, by decide +kernel, by decide +kernel⟩ ht⟩
  have go (es : List Ev) (he : ∀ e ∈ es, e ≠ .crashA ∧ e ≠ .crashB ∧ e ≠ .reset) {s : State}
      (h : Runs (fun _ e => e ≠ .crashA ∧ e ≠ .crashB ∧ e ≠ .reset) {} s) :
      Runs (fun _ e => e ≠ .crashA ∧ e ≠ .crashB ∧ e ≠ .reset) {} (exec s es) := by
    induction es generalizing s with
    | nil => exact h
    | cons e es ih => exact ih (fun e' he' => he e' (List.mem_cons_of_mem _ he')) (.tail e h (he e (by simp)))
  exact go _ (by decide) .refl

/-- The offer 0 is on its way to `A` or was answered, and `B` no longer has the half ratchet that goes with it. -/
structure Stale (s : State) : Prop where
  next : 0 < s.next
  half : s.b.half ≠ some 0
  ui : s.b.ui ≠ .queued 0 ∧ s.b.ui ≠ .saved 0 ∧ s.b.ui ≠ .key 0
  fullB : ∀ m, s.b.full ≠ some (0, m)
  a : (∃ m, s.a.full = some (0, m) ∧ s.a.known = true ∧ ∀ n, s.a.pc ≠ .got n ∧ s.a.pc ≠ .saved n) ∨
    s.a.full = none ∧ s.a.out = [] ∧ s.a.inbox.head? = some 0 ∧
      (s.a.pc = .idle ∧ s.a.seen = 0 ∨ s.a.pc = .got 0 ∨ s.a.pc = .saved 0 ∧ s.a.known = true)

theorem stale_step {s : State} (h : Stale s) (e : Ev) : Stale (step s e) := by
  obtain ⟨h1, h2, h3, h4, h5⟩ := h
  cases e with
  | yes =>
    simp only [step]
    split
    · refine ⟨Nat.succ_pos _, h2, ?_, h4, h5⟩
      refine ⟨?_, by simp, by simp⟩
      simp only [ne_eq, Ui.queued.injEq]; omega
    · exact ⟨h1, h2, h3, h4, h5⟩
  | ui =>
    simp only [step, stepUi]
    split
    · exact ⟨h1, h2, h3, h4, h5⟩
    · next n hu =>
      have : n ≠ 0 := by rintro rfl; exact h3.1 hu
      split
      · exact ⟨h1, h2, by simp, h4, h5⟩
      · exact ⟨h1, h2, by simpa using this, h4, h5⟩
    · next n hu =>
      have : n ≠ 0 := by rintro rfl; exact h3.2.1 hu
      exact ⟨h1, h2, by simpa using this, h4, h5⟩
    · next n hu =>
      have : n ≠ 0 := by rintro rfl; exact h3.2.2 hu
      exact ⟨h1, by simpa using this, by simp, h4, h5⟩
  | reset =>
    simp only [step]
    split
    · exact ⟨h1, by simp, h3, h4, h5⟩
    · exact ⟨h1, h2, h3, h4, h5⟩
  | sendB =>
    simp only [step]
    split
    · exact ⟨h1, h2, h3, h4, h5⟩
    · refine ⟨h1, h2, h3, h4, ?_⟩
      rcases h5 with h5 | ⟨a1, a2, a3, a4⟩
      · exact .inl h5
      · refine .inr ⟨a1, a2, ?_, a4⟩
        rcases hi : s.a.inbox with _ | ⟨x, r⟩
        · rw [hi] at a3; cases a3
        · rw [hi] at a3; simpa using a3
    · exact ⟨h1, h2, h3, h4, h5⟩
  | recvB =>
    have : (recvB s.b).half = s.b.half ∧ (recvB s.b).ui = s.b.ui ∧ (recvB s.b).full = s.b.full := by
      unfold recvB
      split
      · split
        · exact ⟨rfl, rfl, rfl⟩
        · simp only []
          split <;> exact ⟨rfl, rfl, rfl⟩
      · exact ⟨rfl, rfl, rfl⟩
    obtain ⟨e1, e2, e3⟩ := this
    exact ⟨h1, by simp only [step, e1]; exact h2, by simp only [step, e2]; exact h3, by simp only [step, e3]; exact h4, h5⟩
  | netB =>
    simp only [step, netB]
    split
    · exact ⟨h1, h2, h3, h4, h5⟩
    · split
      · exact ⟨h1, h2, h3, h4, h5⟩
      · next n hn =>
        refine ⟨h1, h2, h3, ?_, h5⟩
        intro m hm
        simp only [Option.some.injEq, Prod.mk.injEq] at hm
        rw [hm.1] at hn
        exact h2 hn
    · exact ⟨h1, by simp, h3, h4, h5⟩
    · exact ⟨h1, h2, h3, h4, h5⟩
  | crashB => exact ⟨h1, h2, ⟨(by intro h; cases h), (by intro h; cases h), (by intro h; cases h)⟩, h4, h5⟩
  | sendA =>
    simp only [step]
    split
    · exact ⟨h1, h2, h3, h4, h5⟩
    · next ho =>
      refine ⟨h1, h2, h3, h4, ?_⟩
      rcases h5 with ⟨m, a1, a2, a3⟩ | ⟨a1, a2, a3, a4⟩
      · exact .inl ⟨m, a1, a2, a3⟩
      · rw [ho] at a2; cases a2
    · next ho =>
      refine ⟨h1, h2, h3, h4, ?_⟩
      rcases h5 with ⟨m, a1, a2, a3⟩ | ⟨a1, a2, a3, a4⟩
      · exact .inl ⟨m, a1, a2, a3⟩
      · rw [ho] at a2; cases a2
  | recvA =>
    refine ⟨h1, h2, h3, h4, ?_⟩
    simp only [step, recvA]
    split
    · next hp =>
      split
      · exact h5
      · next n hn =>
        rcases h5 with ⟨m, a1, a2, a3⟩ | ⟨a1, a2, a3, a4⟩
        · rw [if_neg (by simp [A.exists_, a1, a2])]
          exact .inl ⟨m, a1, a2, a3⟩
        · have hs : s.a.seen = 0 := by
            rcases a4 with a4 | a4 | a4
            · exact a4.2
            · rw [hp] at a4; cases a4
            · rw [hp] at a4; cases a4.1
          have : n = 0 := by
            rw [hs] at hn
            rw [List.head?_eq_getElem?, hn] at a3
            simpa using a3
          subst this
          rw [if_pos (by simp [A.exists_, a1])]
          exact .inr ⟨a1, a2, a3, .inr (.inl rfl)⟩
    · exact h5
  | netA =>
    refine ⟨Nat.succ_pos _, h2, h3, h4, ?_⟩
    simp only [step, netA]
    rcases h5 with ⟨m, a1, a2, a3⟩ | ⟨a1, a2, a3, a4⟩
    · split
      · exact .inl ⟨m, a1, a2, a3⟩
      · next n hn => exact absurd hn (a3 n).1
      · next n hn => exact absurd hn (a3 n).2
      · exact .inl ⟨m, a1, a2, by simp⟩
      · exact .inl ⟨m, a1, a2, by simp⟩
    · rcases a4 with a4 | a4 | a4
      · simp only [a4.1]
        exact .inr ⟨a1, a2, a3, .inl ⟨trivial, a4.2⟩⟩
      · simp only [a4]
        exact .inr ⟨a1, a2, a3, .inr (.inr ⟨trivial, trivial⟩)⟩
      · simp only [a4.1]
        exact .inl ⟨s.next, rfl, a4.2, by simp⟩
  | crashA =>
    refine ⟨h1, h2, h3, h4, ?_⟩
    rcases h5 with ⟨m, a1, a2, a3⟩ | ⟨a1, a2, a3, a4⟩
    · exact .inl ⟨m, a1, a2, fun n => ⟨(by intro h; cases h), (by intro h; cases h)⟩⟩
    · exact .inr ⟨a1, rfl, a3, .inl ⟨rfl, rfl⟩⟩

theorem stale_runs {s t : State} (h : Stale s) (hr : Runs anyEv s t) : ¬ Contacts t := by
  have : Stale t := by
    induction hr with
    | refl => exact h
    | tail e _ _ ih => exact stale_step ih e
  rintro ⟨-, -, r, hr1, hr2⟩
  rcases this.a with ⟨m, a1, -⟩ | ⟨a1, -⟩
  · rw [a1] at hr1
    cases hr1
    exact this.fullB m hr2
  · rw [a1] at hr1; cases hr1

/-- `B` is killed after sending the offer and before saving the half ratchet. They never become contacts, whatever `B`
does. -/
theorem C87_offer_violated : ∃ s, Runs anyEv {} s ∧ ∀ t, Runs anyEv s t → ¬ Contacts t :=
  ⟨exec {} [.yes, .sendB, .ui, .ui, .crashB], runs_any _ _, fun _ ht => stale_runs ⟨by decide +kernel, by decide +kernel,
    by decide +kernel, (by intro m; simp [exec, step, stepUi, crashB, B.exists_]),
    .inr ⟨by decide +kernel, by decide +kernel, by decide +kernel, by decide +kernel⟩⟩ ht⟩

/-- In particular, when `B` tries again, both have the other in the address book and a ratchet, but these do not fit. -/
theorem C87_mismatch_violated : ∃ s, Runs anyEv {} s ∧ Rest s ∧ s.a.book = true ∧ s.b.book = true ∧
    s.a.full.isSome = true ∧ s.b.full.isSome = true ∧ s.a.full ≠ s.b.full :=
  ⟨exec {} [.yes, .sendB, .ui, .ui, .crashB, .yes, .ui, .ui, .ui, .sendB, .recvA, .netA, .netA, .netA, .netA, .recvA, .sendA,
      .sendA, .sendA, .recvB, .netB, .netB, .netB, .sendB], runs_any _ _,
    ⟨by decide +kernel, by decide +kernel, by decide +kernel, by decide +kernel, by decide +kernel, by decide +kernel,
      by decide +kernel⟩, by decide +kernel, by decide +kernel, by decide +kernel, by decide +kernel, by decide +kernel⟩

/-- `B` has a half ratchet and nothing of it is elsewhere. -/
structure Lost (s : State) : Prop where
  half : s.b.half.isSome = true
  known : s.b.known = true
  rest : Rest s
  fullA : s.a.full = none
  fullB : s.b.full = none

theorem lost_step {s : State} (h : Lost s) {e : Ev} (he : e ≠ .reset) : Lost (step s e) := by
  obtain ⟨h1, h2, ⟨r1, r2, r3, r4, r5, r6, r7⟩, h4, h5⟩ := h
  cases e with
  | yes =>
    have : s.b.exists_ = true := by simp [B.exists_, h1, h2]
    simp only [step, this, Bool.true_eq_false, and_false, if_false]
    exact ⟨h1, h2, ⟨r1, r2, r3, r4, r5, r6, r7⟩, h4, h5⟩
  | ui => simp only [step, stepUi, r4]; exact ⟨h1, h2, ⟨r1, r2, r3, r4, r5, r6, r7⟩, h4, h5⟩
  | reset => exact absurd rfl he
  | sendB => simp only [step, r6]; exact ⟨h1, h2, ⟨r1, r2, r3, r4, r5, r6, r7⟩, h4, h5⟩
  | recvB => simp only [step, recvB, r5, r7, if_true, List.getElem?_nil]; exact ⟨h1, h2, ⟨r1, r2, r3, r4, r5, r6, r7⟩, h4, h5⟩
  | netB => simp only [step, netB, r5]; exact ⟨h1, h2, ⟨r1, r2, r3, r4, r5, r6, r7⟩, h4, h5⟩
  | crashB => exact ⟨h1, h2, ⟨r1, r2, r3, rfl, rfl, rfl, r7⟩, h4, h5⟩
  | sendA => simp only [step, r2]; exact ⟨h1, h2, ⟨r1, r2, r3, r4, r5, r6, r7⟩, h4, h5⟩
  | recvA => simp only [step, recvA, r1, r3, if_true, List.getElem?_nil]; exact ⟨h1, h2, ⟨r1, r2, r3, r4, r5, r6, r7⟩, h4, h5⟩
  | netA => simp only [step, netA, r1]; exact ⟨h1, h2, ⟨r1, r2, r3, r4, r5, r6, r7⟩, h4, h5⟩
  | crashA => exact ⟨h1, h2, ⟨rfl, rfl, r3, r4, r5, r6, r7⟩, h4, h5⟩

/-- `B` is killed after saving the half ratchet and before the offer is sent. The offer is lost, and `B` is not allowed to
say yes again, until a reset (which reports an error) has removed the half ratchet. -/
theorem C87_lost_violated : ∃ s, Runs anyEv {} s ∧ (∀ t, Runs (fun _ e => e ≠ .reset) s t → ¬ Contacts t) ∧
    Contacts (exec s [.reset, .yes, .ui, .ui, .ui, .sendB, .recvA, .netA, .netA, .netA, .netA, .sendA, .recvB, .netB, .netB,
      .netB]) := by
  refine ⟨exec {} [.yes, .ui, .ui, .ui, .crashB], runs_any _ _, ?_, by decide +kernel, by decide +kernel, (1, 3), by decide +kernel⟩
  intro t ht
  have : Lost t := by
    induction ht with
    | refl => exact ⟨by decide +kernel, by decide +kernel, ⟨by decide +kernel, by decide +kernel, by decide +kernel,
        by decide +kernel, by decide +kernel, by decide +kernel, by decide +kernel⟩, by decide +kernel, by decide +kernel⟩
    | tail e _ ho ih => exact lost_step ih ho
  rintro ⟨-, -, r, hr, -⟩
  rw [this.fullA] at hr
  cases hr

/-! ## Examples -/

def safeB (s : State) : Ev → Bool
  | .crashA => match s.a.pc with
    | .full _ _ => false
    | _ => s.a.out.all (· == .ack)
  | .crashB => (s.b.ui != .idle) == s.b.out.any (· != .ack)
  | .recvB => s.b.ui == .idle
  | .reset => false
  | _ => true

theorem safe_of {s : State} {e : Ev} (h : safeB s e = true) : Safe s e := by
  cases e with
  | crashA =>
    simp only [safeB] at h
    split at h
    · cases h
    · next hp =>
      rintro (⟨n, m, hx⟩ | ⟨n, m, hx⟩)
      · exact hp n m hx
      · have := List.all_eq_true.mp h _ hx
        simp at this
  | crashB =>
    simp only [safeB, beq_iff_eq] at h
    have hu : (s.b.ui ≠ .idle) ↔ (s.b.ui != .idle) = true := by simp
    simp only [Safe]
    rw [hu, h, List.any_eq_true]
    constructor
    · rintro ⟨o, ho, hx⟩
      cases o with
      | offer n => exact ⟨n, ho⟩
      | ack => simp at hx
    · rintro ⟨n, ho⟩
      exact ⟨_, ho, by simp⟩
  | recvB => simpa [safeB, Safe] using h
  | reset => cases h
  | yes => trivial
  | ui => trivial
  | sendB => trivial
  | netB => trivial
  | sendA => trivial
  | recvA => trivial
  | netA => trivial

def safeAll : State → List Ev → Bool
  | _, [] => true
  | s, e :: es => safeB s e && safeAll (step s e) es

theorem runs_safe' {s0 s : State} (es : List Ev) (h0 : Runs Safe s0 s) (h : safeAll s es = true) : Runs Safe s0 (exec s es) := by
  induction es generalizing s with
  | nil => exact h0
  | cons e es ih =>
    simp only [safeAll, Bool.and_eq_true] at h
    exact ih (.tail e h0 (safe_of h.1)) h.2

/-- Killed many times, each of the two, and contacts in the end. -/
def hard : List Ev := [.yes, .ui, .crashB, .yes, .ui, .ui, .sendB, .recvA, .crashA, .recvA, .netA, .crashA, .recvA, .ui, .crashB,
  .netA, .netA, .netA, .sendA, .crashA, .recvB, .crashB, .recvB, .netB, .crashB, .recvB, .sendB, .recvA, .sendA]

example : Runs Safe {} (exec {} hard) ∧ Rest (exec {} hard) ∧ Contacts (exec {} hard) ∧
    (exec {} (hard.take 14)).b.half.isSome = true :=
  ⟨runs_safe' hard .refl (by decide +kernel), ⟨by decide +kernel, by decide +kernel, by decide +kernel, by decide +kernel,
    by decide +kernel, by decide +kernel, by decide +kernel⟩, ⟨by decide +kernel, by decide +kernel, (1, 4), by decide +kernel⟩,
    by decide +kernel⟩

/-- Killed before anything was sent. -/
example : Runs Safe {} (exec {} [.yes, .ui, .ui, .crashB]) ∧ Rest (exec {} [.yes, .ui, .ui, .crashB]) ∧
    Again (exec {} [.yes, .ui, .ui, .crashB]) :=
  ⟨runs_safe' _ .refl (by decide +kernel), ⟨by decide +kernel, by decide +kernel, by decide +kernel, by decide +kernel,
    by decide +kernel, by decide +kernel, by decide +kernel⟩, ⟨by decide +kernel, by decide +kernel, by decide +kernel, by decide +kernel⟩⟩

end Verif.Handshake
