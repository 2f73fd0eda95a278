import Verif.Model.Heartbeat
import Mathlib.Data.List.Induction
import Mathlib.Data.List.Infix

/-! C110: a connection that is dead is given up, and one that is alive is kept. Model: Verif.Model.Heartbeat
(/repo/zkclient/zkclient.go, msg.go, zkserver/zkserver.go). -/

namespace Verif.Heartbeat

variable {c : Times}

/-- Does the event show the client that the server is there? -/
def Incoming : Ev → Prop
  | .pong | .reply | .push => True
  | _ => False

/-- Is a message being written? -/
def busy (s : State) : Nat := if s.writer.isSome then 1 else 0

/-- Pings that were written and whose pong has not been handled. -/
def wire (s : State) : Nat := s.up.countP (·.1) + s.answered

/-- How many bytes the connection took. -/
def bytes (es : List Ev) : Nat :=
  (es.map fun e => match e with | .sent n => n | _ => 0).sum

/-- How many messages were written. -/
def written (es : List Ev) : Nat := es.count .done

theorem run_append (s : State) (a b : List Ev) : run c s (a ++ b) = (run c s a).bind fun t => run c t b := by
  induction a generalizing s with
  | nil => rfl
  | cons e a ih =>
    simp only [List.cons_append, run]
    cases step c s e with
    | none => rfl
    | some t => simp only [Option.bind_some, ih]

/-- The later of `lastTick` and the begin. -/
def limit (s : State) : Nat := max s.lastTick s.born

structure Ok (c : Times) (s : State) : Prop where
  born : s.born ≤ s.ticked
  past : s.ticked ≤ s.now
  near : s.isOpen = true → s.now ≤ s.ticked + c.every
  lim : s.isOpen = true → s.ticked ≤ limit s
  ahead : s.lastTick ≤ s.now + c.last
  asked : s.waiting = true → s.born ≤ s.pingAt ∧ s.pingAt ≤ s.now ∧ s.pingAt + c.last ≤ s.lastTick
  shut : s.isOpen = false → s.waiting = true ∧ s.lastTick < s.now
  wrote : s.born ≤ s.lastWrite ∧ s.lastWrite ≤ s.now ∧ s.lastWrite + c.last ≤ max s.lastTick (s.born + c.last)

theorem ok_start {t last free others pings : Nat} (h : last ≤ t + c.last) : Ok c (start t last free others pings) := by
  constructor <;> simp [start, limit] <;> omega

theorem ok_step {s s' : State} {e : Ev} (o : Ok c s) (h : step c s e = some s') : Ok c s' := by
  obtain ⟨o1, o2, o3, o4, o5, o6, o8, o7⟩ := o
  simp only [step] at h
  split at h
  · rename_i ho
    have o3 := o3 ho
    have o4 := o4 ho
    simp only [limit] at o4
    cases e <;> simp only [tick, take, done, arrive, pong] at h <;> (repeat' split at h) <;>
      (try simp only [reduceCtorEq, Option.some.injEq] at h) <;> subst h <;> constructor <;>
      simp only [limit] <;> intros <;> first | omega | (have := o6 ‹_›; omega) | simp_all
  · cases h

theorem ok_run {s s' : State} {es : List Ev} (o : Ok c s) (h : run c s es = some s') : Ok c s' := by
  induction es generalizing s with
  | nil => cases h; exact o
  | cons e es ih =>
    simp only [run, Option.bind_eq_some_iff] at h
    obtain ⟨t, h1, h2⟩ := h
    exact ih (ok_step o h1) h2

/-- The states that a session can come to. -/
def Reach (c : Times) (s : State) : Prop :=
  ∃ t last free others pings es, last ≤ t + c.last ∧ run c (start t last free others pings) es = some s

theorem Reach.ok {s : State} (r : Reach c s) : Ok c s := by
  obtain ⟨t, last, free, others, pings, es, h, hr⟩ := r
  exact ok_run (ok_start h) hr

/-- The two waiting times together. -/
def round (c : Times) : Nat := c.last + c.every

/-! ## A dead connection -/

/-- Nothing in progress: one more round. -/
def idle (c : Times) (s : State) : Nat := if s.waiting then 0 else round c

theorem limit_step {s s' : State} {e : Ev} (o : Ok c s) (h : step c s e = some s') (hi : ¬ Incoming e) :
    limit s' + idle c s' ≤ limit s + idle c s + (if e = .done then round c else 0) := by
  obtain ⟨o1, o2, o3, o4, o5, o6, o8, o7⟩ := o
  simp only [step] at h
  split at h
  · rename_i ho
    have o3 := o3 ho
    have o4 := o4 ho
    simp only [limit] at o4
    cases e <;> (try exact absurd trivial hi) <;> simp only [tick, take, done, arrive] at h <;> (repeat' split at h) <;>
      (try simp only [reduceCtorEq, Option.some.injEq] at h) <;> subst h <;> simp only [limit, idle, round] <;>
      simp <;> (try split) <;> first | omega | simp_all
  · cases h

theorem now_step {s s' : State} {e : Ev} (h : step c s e = some s') : s.now ≤ s'.now := by
  simp only [step] at h
  split at h
  · cases e <;> simp only [tick, take, done, arrive, pong] at h <;> (repeat' split at h) <;>
      (try simp only [reduceCtorEq, Option.some.injEq] at h) <;> subst h <;> simp
  · cases h

theorem now_run {s s' : State} {es : List Ev} (h : run c s es = some s') : s.now ≤ s'.now := by
  induction es generalizing s with
  | nil => cases h; exact Nat.le_refl _
  | cons e es ih =>
    simp only [run, Option.bind_eq_some_iff] at h
    obtain ⟨t, h1, h2⟩ := h
    exact Nat.le_trans (now_step h1) (ih h2)

theorem limit_run {s s' : State} {es : List Ev} (o : Ok c s) (h : run c s es = some s') (hi : ∀ e ∈ es, ¬ Incoming e) :
    limit s' + idle c s' ≤ limit s + idle c s + round c * written es := by
  induction es generalizing s with
  | nil => cases h; omega
  | cons e es ih =>
    simp only [run, Option.bind_eq_some_iff] at h
    obtain ⟨t, h1, h2⟩ := h
    have a := limit_step o h1 (hi e List.mem_cons_self)
    have b := ih (ok_step o h1) h2 fun x hx => hi x (List.mem_cons_of_mem _ hx)
    simp only [written, List.count_cons] at b ⊢
    by_cases he : e = .done
    · subst he
      simp only [↓reduceIte, beq_self_eq_true, Nat.mul_add, Nat.mul_one] at a ⊢
      omega
    · simp only [he, ↓reduceIte, beq_iff_eq, Nat.add_zero] at a ⊢
      omega

/-- While the session is open it is not long past the limit. -/
theorem near {s : State} (o : Ok c s) (ho : s.isOpen = true) : s.now ≤ limit s + c.every := by
  have := o.near ho
  have := o.lim ho
  omega

theorem far {s : State} (o : Ok c s) : limit s ≤ s.now + c.last := by
  have := o.born
  have := o.past
  have := o.ahead
  simp only [limit]
  omega

/-- While nothing comes from the server, the session is open for two rounds of at most 6 seconds and one more
for each message that is written. -/
theorem writes_le {s s' : State} {es : List Ev} (r : Reach c s) (h : run c s es = some s')
    (hi : ∀ e ∈ es, ¬ Incoming e) (ho : s'.isOpen = true) : s'.now ≤ s.now + (c.last + c.every) * (written es + 2) := by
  have a := limit_run r.ok h hi
  have b := near (ok_run r.ok h) ho
  have d := far r.ok
  have e : idle c s ≤ round c := by simp only [idle]; split <;> omega
  have f : (c.last + c.every) * (written es + 2) = round c * written es + round c * 2 := by rw [← Nat.mul_add]; rfl
  have g : round c = c.last + c.every := rfl
  omega

/-- What can still be written without anything coming from the server. -/
def budget (s : State) : Nat := s.free + s.pings + s.others + busy s

theorem budget_step {s s' : State} {e : Ev} (h : step c s e = some s') (hi : ¬ Incoming e) :
    budget s' + (if e = .done then 1 else 0) + (if s'.waiting then 0 else 1) ≤
      budget s + (if s.waiting then 0 else 1) := by
  simp only [step] at h
  split at h
  · cases e <;> (try exact absurd trivial hi) <;> simp only [tick, take, done, arrive] at h <;> (repeat' split at h) <;>
      (try simp only [reduceCtorEq, Option.some.injEq] at h) <;> subst h <;> simp only [budget, busy] <;>
      simp_all <;> omega
  · cases h

theorem budget_run {s s' : State} {es : List Ev} (h : run c s es = some s') (hi : ∀ e ∈ es, ¬ Incoming e) :
    budget s' + written es + (if s'.waiting then 0 else 1) ≤ budget s + (if s.waiting then 0 else 1) := by
  induction es generalizing s with
  | nil => cases h; simp [written]
  | cons e es ih =>
    simp only [run, Option.bind_eq_some_iff] at h
    obtain ⟨t, h1, h2⟩ := h
    have a := budget_step h1 (hi e List.mem_cons_self)
    have b := ih h2 fun x hx => hi x (List.mem_cons_of_mem _ hx)
    simp only [written, List.count_cons, beq_iff_eq] at b ⊢
    omega

/-- A connection over which nothing comes from the server is closed, whatever the user does: after at most 6
seconds for each message that is queued or being written, for each tag that is free, and three more times. -/
theorem dead_le {s s' : State} {es : List Ev} (r : Reach c s) (h : run c s es = some s')
    (hi : ∀ e ∈ es, ¬ Incoming e) (ho : s'.isOpen = true) :
    s'.now ≤ s.now + (c.last + c.every) * (s.free + s.pings + s.others + busy s + 3) := by
  have a := writes_le r h hi ho
  have b := budget_run h hi
  have d : written es + 2 ≤ budget s + 3 := by
    have : (if s.waiting then 0 else 1) ≤ 1 := by split <;> omega
    omega
  have e := Nat.mul_le_mul_left (c.last + c.every) d
  have f : s.free + s.pings + s.others + busy s = budget s := rfl
  rw [f]
  omega

/-! ## A message that takes long -/

theorem block_step {s s' : State} {e : Ev} (o : Ok c s) (h : step c s e = some s') (hd : e ≠ .done) :
    (limit s' + idle c s' ≤ limit s + idle c s ∧ wire s' = wire s) ∨
      (limit s' + idle c s' ≤ limit s + idle c s + 2 * round c ∧ wire s = wire s' + 1) := by
  obtain ⟨o1, o2, o3, o4, o5, o6, o8, o7⟩ := o
  simp only [step] at h
  split at h
  · rename_i ho
    have o3 := o3 ho
    have o4 := o4 ho
    simp only [limit] at o4
    cases e with
    | done => exact absurd rfl hd
    | arrive =>
      left
      simp only [arrive] at h
      split at h
      · cases h
      · rename_i p t r hu
        cases h
        refine ⟨Nat.le_refl _, ?_⟩
        simp only [wire, hu, List.countP_cons]
        cases p <;> simp <;> omega
    | pong =>
      right
      simp only [pong] at h
      split at h <;> simp only [reduceCtorEq, Option.some.injEq] at h
      subst h
      simp only [limit, idle, round, wire]
      simp
      omega
    | _ =>
      left
      simp only [tick, take] at h
      (repeat' split at h) <;> (try simp only [reduceCtorEq, Option.some.injEq] at h) <;> subst h <;>
        simp only [limit, idle, round, wire] <;> simp <;> (try split) <;> first | omega | simp_all
  · cases h

theorem block_run {s s' : State} {es : List Ev} (o : Ok c s) (h : run c s es = some s') (hd : .done ∉ es) :
    limit s' + idle c s' + 2 * round c * wire s' ≤ limit s + idle c s + 2 * round c * wire s := by
  induction es generalizing s with
  | nil => cases h; omega
  | cons e es ih =>
    simp only [run, Option.bind_eq_some_iff] at h
    obtain ⟨t, h1, h2⟩ := h
    simp only [List.mem_cons, not_or] at hd
    have b := ih (ok_step o h1) h2 hd.2
    rcases block_step o h1 (Ne.symm hd.1) with ⟨a, a'⟩ | ⟨a, a'⟩
    · rw [a'] at b; omega
    · rw [a', Nat.mul_add]; omega

/-- No message is being written for longer than 12 seconds, and 12 more for each ping whose pong is still to
come: by then the connection is closed.  The same holds while the head of the queue cannot be written. -/
theorem one_le {s s' : State} {es : List Ev} (r : Reach c s) (h : run c s es = some s') (hd : .done ∉ es)
    (ho : s'.isOpen = true) : s'.now ≤ s.now + 2 * (c.last + c.every) * (wire s + 1) := by
  have a := block_run r.ok h hd
  have b := near (ok_run r.ok h) ho
  have d := far r.ok
  have e : idle c s ≤ round c := by simp only [idle]; split <;> omega
  have f : 2 * (c.last + c.every) * (wire s + 1) = 2 * round c * wire s + 2 * round c := by rw [Nat.mul_add]; simp [round]
  have g : round c = c.last + c.every := rfl
  omega

theorem left_step {s s' : State} {e : Ev} {k : Src} {n : Nat} (h : step c s e = some s') (hd : e ≠ .done)
    (hw : s.writer = some (k, n)) : ∃ m, s'.writer = some (k, m) ∧ m + bytes [e] = n := by
  simp only [step] at h
  split at h
  · cases e with
    | done => exact absurd rfl hd
    | sent j =>
      simp only [hw] at h
      split at h <;> simp only [reduceCtorEq, Option.some.injEq] at h
      subst h
      exact ⟨n - j, rfl, by simp [bytes]; omega⟩
    | _ =>
      refine ⟨n, ?_, by simp [bytes]⟩
      simp only [tick, take, arrive, pong, hw] at h
      (repeat' split at h) <;> (try simp only [reduceCtorEq, Option.some.injEq] at h) <;> subst h <;> rfl
  · cases h

theorem left_run {s s' : State} {es : List Ev} {k : Src} {n : Nat} (h : run c s es = some s') (hd : .done ∉ es)
    (hw : s.writer = some (k, n)) : ∃ m, s'.writer = some (k, m) ∧ m + bytes es = n := by
  induction es generalizing s n with
  | nil => cases h; exact ⟨n, hw, rfl⟩
  | cons e es ih =>
    simp only [run, Option.bind_eq_some_iff] at h
    obtain ⟨t, h1, h2⟩ := h
    simp only [List.mem_cons, not_or] at hd
    obtain ⟨m, h3, h4⟩ := left_step h1 (Ne.symm hd.1) hw
    obtain ⟨m', h5, h6⟩ := ih h2 hd.2 h3
    refine ⟨m', h5, ?_⟩
    simp only [bytes, List.map_cons, List.sum_cons, List.map_nil, List.sum_nil] at h4 h6 ⊢
    omega

/-- A message that is too large for the connection is never written, in no session. -/
theorem slow {s s' : State} {es : List Ev} {k : Src} {n rate : Nat} (r : Reach c s) (hw : s.writer = some (k, n))
    (hn : rate * (2 * (c.last + c.every) * (wire s + 1)) < n) (h : run c s es = some s') (hd : .done ∉ es)
    (hr : bytes es ≤ rate * (s'.now - s.now)) : step c s' .done = none := by
  obtain ⟨m, h1, h2⟩ := left_run h hd hw
  simp only [step]
  split
  · rename_i ho
    have a := one_le r h hd ho
    have b : rate * (s'.now - s.now) ≤ rate * (2 * (c.last + c.every) * (wire s + 1)) :=
      Nat.mul_le_mul_left _ (by omega)
    simp only [done, h1]
    match m, h2 with
    | 0, h2 => omega
    | m + 1, _ => rfl
  · rfl

/-! ## Pings that are under way -/

/-- Is a ping being written? -/
def pinging (s : State) : Nat :=
  match s.writer with
  | some (.ping, _) => 1
  | _ => 0

/-- There is exactly one ping if one is in progress, and none otherwise. -/
def Clean (s : State) : Prop := s.pings + pinging s + wire s = if s.waiting then 1 else 0

theorem clean_start (t last free others : Nat) : Clean (start t last free others 0) := by
  simp [Clean, start, pinging, wire]

theorem clean_step {s s' : State} {e : Ev} (h : step c s e = some s') (hc : Clean s) : Clean s' := by
  simp only [step] at h
  split at h
  · cases e with
    | done =>
      simp only [done] at h
      split at h
      · rename_i k hw
        cases h
        simp only [Clean, pinging, wire, hw, List.countP_append, List.countP_cons, List.countP_nil] at hc ⊢
        cases k <;> simp_all <;> omega
      · cases h
    | arrive =>
      simp only [arrive] at h
      split at h
      · cases h
      · rename_i p t r hu
        cases h
        simp only [Clean, pinging, wire, hu, List.countP_cons] at hc ⊢
        cases p <;> simp_all <;> omega
    | take k n =>
      simp only [take] at h
      (repeat' split at h) <;> (try simp only [reduceCtorEq, Option.some.injEq] at h) <;> subst h <;>
        simp only [Clean, pinging, wire] at hc ⊢ <;> simp_all
      all_goals omega
    | sent n =>
      simp only at h
      split at h
      · rename_i k m hw
        split at h <;> simp only [reduceCtorEq, Option.some.injEq] at h
        subst h
        simp only [Clean, pinging, wire, hw] at hc ⊢
        cases k <;> simp_all
      · cases h
    | pong =>
      simp only [pong] at h
      split at h <;> simp only [reduceCtorEq, Option.some.injEq] at h
      subst h
      simp only [Clean, pinging, wire] at hc ⊢
      have : (if s.waiting = true then 1 else 0) ≤ 1 := by split <;> omega
      simp only [Bool.false_eq_true, ↓reduceIte]
      omega
    | _ =>
      simp only [tick] at h
      (repeat' split at h) <;> (try simp only [reduceCtorEq, Option.some.injEq] at h) <;> subst h <;>
        simp only [Clean, pinging, wire] at hc ⊢ <;> simp_all
      all_goals omega
  · cases h

theorem clean_run {s s' : State} {es : List Ev} (h : run c s es = some s') (hc : Clean s) : Clean s' := by
  induction es generalizing s with
  | nil => cases h; exact hc
  | cons e es ih =>
    simp only [run, Option.bind_eq_some_iff] at h
    obtain ⟨t, h1, h2⟩ := h
    exact ih h2 (clean_step h1 hc)

theorem Clean.le {s : State} (h : Clean s) : wire s ≤ 1 := by
  simp only [Clean] at h
  split at h <;> omega

/-! ## A connection that is alive -/

theorem waiting_step {s s' : State} {e : Ev} (h : step c s e = some s') (hw : s'.waiting = true) :
    (s.waiting = true ∧ e ≠ .pong ∧ s'.pingAt = s.pingAt) ∨ (s.waiting = false ∧ e = .tick ∧ s'.pingAt = s.now) := by
  simp only [step] at h
  split at h
  · cases e <;> simp only [tick, take, done, arrive, pong] at h <;> (repeat' split at h) <;>
      (try simp only [reduceCtorEq, Option.some.injEq] at h) <;> subst h <;> simp_all
  · cases h

theorem waiting_run {s₀ s' : State} {es : List Ev} (h0 : s₀.waiting = false) (h : run c s₀ es = some s')
    (hw : s'.waiting = true) :
    ∃ a b t, es = a ++ .tick :: b ∧ run c s₀ a = some t ∧ t.waiting = false ∧ t.now = s'.pingAt ∧ .pong ∉ b := by
  induction es using List.reverseRecOn generalizing s' with
  | nil => cases h; rw [h0] at hw; cases hw
  | append_singleton es e ih =>
    rw [run_append, Option.bind_eq_some_iff] at h
    obtain ⟨t, h1, h2⟩ := h
    simp only [run, Option.bind_eq_some_iff, Option.some.injEq, exists_eq_right] at h2
    rcases waiting_step h2 hw with ⟨k1, k2, k3⟩ | ⟨k1, k2, k3⟩
    · obtain ⟨a, b, u, j1, j2, j3, j4, j5⟩ := ih h1 k1
      refine ⟨a, b ++ [e], u, by simp [j1], j2, j3, by rw [j4, k3], ?_⟩
      simp [j5, Ne.symm k2]
    · exact ⟨es, [], t, by rw [k2], h1, k1, k3.symm, by simp⟩

/-- The client closes the connection only when a ping was scheduled more than 5 seconds ago, no pong came since,
and no message has been written for more than 5 seconds. -/
theorem kept_of {t last free others pings : Nat} {es : List Ev} {s : State} (hl : last ≤ t + c.last)
    (h : run c (start t last free others pings) es = some s) (hc : s.isOpen = false) :
    (∃ a b u, es = a ++ .tick :: b ∧ run c (start t last free others pings) a = some u ∧ u.waiting = false ∧
      u.now + c.last < s.now ∧ .pong ∉ b) ∧ s.lastWrite + c.last < s.now := by
  have o := ok_run (ok_start hl) h
  obtain ⟨w, l⟩ := o.shut hc
  have a := o.asked w
  have b := o.wrote
  constructor
  · obtain ⟨x, y, u, j1, j2, j3, j4, j5⟩ := waiting_run rfl h w
    exact ⟨x, y, u, j1, j2, j3, by omega, j5⟩
  · omega

/-! ## The deadline of the server -/

/-- What is written gets to the server within `delay`, and a ping is written within `wait` after it was scheduled. -/
structure Prompt (wait delay : Nat) (s : State) : Prop where
  arrives : ∀ m ∈ s.up, s.now ≤ m.2 + delay
  writes : s.waiting = true → 0 < s.pings + pinging s → s.now ≤ s.pingAt + wait

/-- From one message to the next no more than `g`; the last was written at `w`. -/
def Gaps (g : Nat) : Nat → List (Bool × Nat) → Nat → Prop
  | p, [], w => p = w
  | p, m :: r, w => m.2 ≤ p + g ∧ Gaps g m.2 r w

theorem gaps_append {g : Nat} {l : List (Bool × Nat)} : ∀ {p w n : Nat} {b : Bool}, Gaps g p l w → n ≤ w + g →
    Gaps g p (l ++ [(b, n)]) n := by
  induction l with
  | nil => intro p w n b h hn; cases h; exact ⟨hn, rfl⟩
  | cons m l ih => intro p w n b h hn; exact ⟨h.1, ih h.2 hn⟩

structure Srv (c : Times) (wait : Nat) (s : State) : Prop where
  ok : Ok c s
  clean : Clean s
  off : s.waiting = false → limit s ≤ s.lastWrite + c.last + round c
  on : 0 < wire s → limit s ≤ s.lastWrite + c.last
  pend : 0 < s.pings + pinging s → s.pingAt ≤ s.lastWrite + 2 * round c
  gaps : Gaps (2 * round c + wait) s.prevUp s.up s.lastWrite
  prev : s.prevUp ≤ s.srvRead
  upd : ∀ m ∈ s.up, m.2 ≤ s.now

/-- While the session is open, messages are written without long gaps. -/
theorem gap {wait delay : Nat} {s : State} (v : Srv c wait s) (p : Prompt wait delay s) (ho : s.isOpen = true) :
    s.now ≤ s.lastWrite + 2 * round c + wait := by
  have a := near v.ok ho
  have g : round c = c.last + c.every := rfl
  have cl := v.clean
  simp only [Clean] at cl
  by_cases hw : s.waiting = true
  · rw [if_pos hw] at cl
    by_cases hp : 0 < s.pings + pinging s
    · have := v.pend hp
      have := p.writes hw hp
      omega
    · have := v.on (by omega)
      omega
  · have := v.off (by simpa using hw)
    omega

theorem srv_start {wait t last free others : Nat} (h : last ≤ t + c.last) : Srv c wait (start t last free others 0) where
  ok := ok_start h
  clean := clean_start ..
  off := fun _ => by simp only [start, limit]; omega
  on := by simp [start, wire]
  pend := by simp [start, pinging]
  gaps := rfl
  prev := Nat.le_refl _
  upd := by simp [start]

theorem srv_step {wait delay : Nat} {s s' : State} {e : Ev} (v : Srv c wait s) (p : Prompt wait delay s)
    (h : step c s e = some s') : Srv c wait s' := by
  have ho : s.isOpen = true := by
    simp only [step] at h
    split at h
    · assumption
    · cases h
  have hg := gap v p ho
  have hn := near v.ok ho
  have hf := far v.ok
  have ok' := ok_step v.ok h
  have cl' := clean_step h v.clean
  have nn := now_step h
  obtain ⟨vo, vc, v1, v2, v3, v4, v5, v6⟩ := v
  have b := vo.born
  have b' := vo.past
  have bw := vo.wrote
  have g : round c = c.last + c.every := rfl
  simp only [step, ho, ↓reduceIte] at h
  cases e with
  | pass d =>
    simp only at h
    split at h <;> simp only [reduceCtorEq, Option.some.injEq] at h
    subst h
    exact ⟨ok', cl', v1, v2, v3, v4, v5, fun m hm => Nat.le_trans (v6 m hm) nn⟩
  | tick =>
    simp only at h
    split at h <;> simp only [reduceCtorEq, Option.some.injEq] at h
    by_cases hw : s.waiting = true
    · simp only [tick, hw, ↓reduceIte] at h
      split at h <;> subst h
      · exact ⟨ok', cl', fun x => absurd x (by simp), v2, v3, v4, v5, v6⟩
      · exact ⟨ok', cl', fun x => absurd x (by simp), v2, v3, v4, v5, v6⟩
    · simp only [tick, hw] at h
      simp only [Bool.not_eq_true] at hw
      have v1 := v1 hw
      simp only [Bool.false_eq_true, ↓reduceIte] at h
      split at h <;> subst h
      · refine ⟨ok', cl', fun x => absurd x (by simp), fun x => ?_, fun x => ?_, v4, v5, v6⟩
        · simp only [Clean, hw] at vc
          simp only [wire] at x vc
          simp only [Bool.false_eq_true, ↓reduceIte] at vc
          omega
        · simp only
          omega
      · exact ⟨ok', cl', fun _ => v1, v2, v3, v4, v5, v6⟩
  | take k n =>
    simp only [take] at h
    split at h
    · cases h
    all_goals
      split at h <;> simp only [reduceCtorEq, Option.some.injEq] at h
      subst h
      refine ⟨ok', cl', v1, v2, fun x => v3 ?_, v4, v5, v6⟩
      simp_all [pinging]
      try omega
  | sent n =>
    simp only at h
    split at h
    · rename_i k m hw
      split at h <;> simp only [reduceCtorEq, Option.some.injEq] at h
      subst h
      refine ⟨ok', cl', v1, v2, fun x => v3 ?_, v4, v5, v6⟩
      simp only [pinging, hw] at x ⊢
      cases k <;> simp_all
    · cases h
  | done =>
    simp only [done] at h
    split at h
    · rename_i k hw
      cases h
      refine ⟨ok', cl', fun _ => ?_, fun _ => ?_, fun x => ?_, gaps_append v4 (by omega), v5, ?_⟩
      · simp only [limit]; omega
      · simp only [limit]; omega
      · have : s.pingAt ≤ s.now + 2 * round c := by
          have := v3 (by simp only [pinging] at x ⊢; omega)
          omega
        simpa using this
      · intro m hm
        rcases List.mem_append.1 hm with h' | h'
        · exact v6 m h'
        · simp only [List.mem_singleton] at h'
          subst h'
          exact Nat.le_refl _
    · cases h
  | request =>
    simp only at h
    split at h <;> simp only [reduceCtorEq, Option.some.injEq] at h
    subst h
    exact ⟨ok', cl', v1, v2, v3, v4, v5, v6⟩
  | arrive =>
    simp only [arrive] at h
    split at h
    · cases h
    · rename_i q t r hu
      cases h
      rw [hu] at v4 v6
      refine ⟨ok', cl', v1, fun x => v2 ?_, v3, v4.2, v6 (q, t) List.mem_cons_self,
        fun m hm => v6 m (List.mem_cons_of_mem _ hm)⟩
      simp only [wire, hu, List.countP_cons] at x ⊢
      cases q <;> simp at x ⊢ <;> omega
  | pong =>
    simp only [pong] at h
    split at h <;> simp only [reduceCtorEq, Option.some.injEq] at h
    rename_i ha
    subst h
    have hw : 0 < wire s := by simp only [wire]; omega
    have := v2 hw
    refine ⟨ok', cl', fun _ => ?_, fun x => ?_, v3, v4, v5, v6⟩
    · simp only [limit]; omega
    · simp only [Clean, pinging] at cl'
      simp only [Bool.false_eq_true, ↓reduceIte] at cl'
      omega
  | reply =>
    simp only [Option.some.injEq] at h
    subst h
    exact ⟨ok', cl', v1, v2, v3, v4, v5, v6⟩
  | push =>
    simp only [Option.some.injEq] at h
    subst h
    exact ⟨ok', cl', v1, v2, v3, v4, v5, v6⟩

theorem srv_run {wait delay : Nat} {s s' : State} {es : List Ev} (v : Srv c wait s)
    (p : ∀ a b u, es = a ++ b → run c s a = some u → Prompt wait delay u) (h : run c s es = some s') : Srv c wait s' := by
  induction es generalizing s with
  | nil => cases h; exact v
  | cons e es ih =>
    simp only [run, Option.bind_eq_some_iff] at h
    obtain ⟨t, h1, h2⟩ := h
    refine ih (srv_step v (p [] _ s rfl rfl) h1) (fun a b u hab hu => p (e :: a) b u (by rw [hab]; rfl) ?_) h2
    simp only [run, h1, Option.bind_some, hu]

/-- The server does not end a session whose client is there: as long as the session is open in the client and
what is queued and written gets on in time, the deadline of the server's read is not reached.  With the constants of
the code a ping may be late by 3 seconds. -/
theorem server_of {wait delay t last free others : Nat} {es : List Ev} {s : State} (hl : last ≤ t + c.last)
    (hd : 2 * (c.last + c.every) + wait + delay ≤ c.deadline)
    (h : run c (start t last free others 0) es = some s)
    (p : ∀ a b u, es = a ++ b → run c (start t last free others 0) a = some u → Prompt wait delay u)
    (ho : s.isOpen = true) : s.now ≤ s.srvRead + c.deadline := by
  have v := srv_run (srv_start hl) p h
  have q := p es [] s (by simp) h
  have hg := gap v q ho
  have g : round c = c.last + c.every := rfl
  have hv := v.prev
  have hgaps := v.gaps
  match hu : s.up with
  | [] =>
    rw [hu] at hgaps
    have : s.prevUp = s.lastWrite := hgaps
    omega
  | m :: r =>
    rw [hu] at hgaps
    have := hgaps.1
    have := q.arrives m (by rw [hu]; exact List.mem_cons_self)
    omega

/-! ## With the times of the code -/

/-- C110: while nothing comes from the server, the session is open for two rounds of 6 seconds and one more for each
message that is written. -/
theorem C110_writes {s s' : State} {es : List Ev} (r : Reach times s) (h : run times s es = some s')
    (hi : ∀ e ∈ es, ¬ Incoming e) (ho : s'.isOpen = true) : s'.now ≤ s.now + 6000 * (written es + 2) :=
  writes_le r h hi ho

/-- C110: a connection over which nothing comes from the server is closed, whatever the user does: after at most 6
seconds for each message that is queued or being written, for each tag that is free, and three more times. -/
theorem C110_dead_partial {s s' : State} {es : List Ev} (r : Reach times s) (h : run times s es = some s')
    (hi : ∀ e ∈ es, ¬ Incoming e) (ho : s'.isOpen = true) :
    s'.now ≤ s.now + 6000 * (s.free + s.pings + s.others + busy s + 3) :=
  dead_le r h hi ho

/-- C110: no message is being written for longer than 12 seconds, and 12 more for each ping whose pong is still to
come: by then the connection is closed.  The same holds while the head of the queue cannot be written. -/
theorem C110_one {s s' : State} {es : List Ev} (r : Reach times s) (h : run times s es = some s') (hd : .done ∉ es)
    (ho : s'.isOpen = true) : s'.now ≤ s.now + 12000 * (wire s + 1) :=
  one_le r h hd ho

/-- C110: the client closes the connection only when a ping was scheduled more than 5 seconds ago, no pong came since,
and no message has been written for more than 5 seconds. -/
theorem C110_kept_partial {t last free others pings : Nat} {es : List Ev} {s : State} (hl : last ≤ t + 5000)
    (h : run times (start t last free others pings) es = some s) (hc : s.isOpen = false) :
    (∃ a b u, es = a ++ .tick :: b ∧ run times (start t last free others pings) a = some u ∧ u.waiting = false ∧
      u.now + 5000 < s.now ∧ .pong ∉ b) ∧ s.lastWrite + 5000 < s.now :=
  kept_of hl h hc

/-- C110: the server, which ends a session when no message came for 15 seconds, does not end one whose client is there:
as long as the session is open in the client and a ping is on the server at most 3 seconds after it was scheduled. -/
theorem C110_server_partial {wait delay t last free others : Nat} {es : List Ev} {s : State} (hl : last ≤ t + 5000)
    (hd : wait + delay ≤ 3000) (h : run times (start t last free others 0) es = some s)
    (p : ∀ a b u, es = a ++ b → run times (start t last free others 0) a = some u → Prompt wait delay u)
    (ho : s.isOpen = true) : s.now ≤ s.srvRead + times.deadline :=
  server_of hl (by simp only [times]; omega) h p ho

/-! ## Where the code falls short -/

/-- One second with its tick. -/
def second : List Ev := [.pass 1000, .tick]

/-- Five seconds, and a message to a contact at their end. -/
def five : List Ev := second ++ second ++ second ++ second ++ second ++ [.take .crpc 100, .sent 100, .done]

/-- The state after `n` such messages, with `m` tags left. -/
def chatty (n m : Nat) : State :=
  { start 0 5000 m 0 0 with
      now := 5000 * n, ticked := 5000 * n, lastTick := 5000 * n + 5000, lastWrite := 5000 * n,
      up := (List.range n).map fun i => (false, 5000 * (i + 1)) }

theorem chatty_step (n m : Nat) : run times (chatty n (m + 1)) five = some (chatty (n + 1) m) := by
  have e (k : Nat) : decide (k < k) = false := by simp
  simp [five, second, run, step, tick, take, done, chatty, times, start, List.range_succ, Nat.mul_add, Nat.add_assoc]

theorem chatty_run (n m : Nat) :
    run times (start 0 5000 (n + m) 0 0) (List.replicate n five).flatten = some (chatty n m) := by
  induction n generalizing m with
  | zero => simp [run, chatty, start]
  | succ n ih =>
    rw [List.replicate_succ', List.flatten_append, run_append, Nat.add_right_comm n 1 m, Nat.add_assoc n m 1, ih (m + 1)]
    simpa using chatty_step n m

/-- C110 is violated: a client that writes a message each 5 seconds does not notice that the server is gone, and does
not even send a ping, until it has no tags left.  (With 32 tags that is 160 seconds.) -/
theorem C110_busy_violated (n : Nat) : ∃ es s, run times (start 0 5000 n 0 0) es = some s ∧
    (∀ e ∈ es, ¬ Incoming e) ∧ (∀ n, Ev.take .ping n ∉ es) ∧ s.isOpen = true ∧ s.waiting = false ∧ s.now = 5000 * n := by
  refine ⟨_, chatty n 0, chatty_run n 0, fun e he => ?_, fun _ he => ?_, rfl, rfl, rfl⟩
  · simp only [List.mem_flatten, List.mem_replicate] at he
    obtain ⟨l, ⟨-, rfl⟩, he⟩ := he
    simp only [five, second, List.cons_append, List.nil_append, List.mem_cons, List.not_mem_nil, or_false] at he
    rcases he with rfl | rfl | rfl | rfl | rfl | rfl | rfl | rfl | rfl | rfl | rfl | rfl | rfl <;> exact id
  · simp only [List.mem_flatten, List.mem_replicate] at he
    obtain ⟨l, ⟨-, rfl⟩, he⟩ := he
    simp [five, second] at he

/-- C110 is violated: over a connection that takes 43 kilobytes each second a message of 1 MiB is never written, in no
session, however often it is tried: the ping waits behind it, and the client closes the connection. -/
theorem C110_slow_violated {t last free others : Nat} {pre es : List Ev} {s s' : State} {k : Src}
    (hl : last ≤ t + 5000) (hp : run times (start t last free others 0) pre = some s)
    (hw : s.writer = some (k, 1048576)) (h : run times s es = some s') (hd : .done ∉ es)
    (hr : bytes es ≤ 43 * (s'.now - s.now)) : step times s' .done = none := by
  have hc := (clean_run hp (clean_start t last free others)).le
  refine slow (rate := 43) ⟨t, last, free, others, 0, pre, hl, hp⟩ hw ?_ h hd hr
  have : wire s = 0 ∨ wire s = 1 := by omega
  simp only [times]
  rcases this with h | h <;> rw [h] <;> omega

/-- A second in which the connection takes 43 kilobytes. -/
def busySecond : List Ev := [.sent 43000, .pass 1000, .tick]

/-- C110 is violated: a connection is closed over which the last byte went this second and whose server has answered
everything that it got. -/
theorem C110_alive_violated : ∃ es s, run times (start 0 5000 1 0 0) (.take .crpc 1048576 :: es) = some s ∧
    s.isOpen = false ∧ bytes es = 43 * s.now ∧ s.up = [] ∧ wire s = 0 ∧ s.now = 12000 := by
  refine ⟨(List.replicate 12 busySecond).flatten, _, rfl, rfl, rfl, rfl, rfl, rfl⟩

/-- C110 is violated: a ping that the last session did not write is written in the next one, and its pong counts for
the ping of that session, which need not be answered. -/
theorem C110_stale_violated : ∃ es s, run times (start 0 0 2 0 1) es = some s ∧ s.isOpen = true ∧
    s.waiting = false ∧ s.pings = 1 ∧ s.writer = none ∧ s.up = [] := by
  refine ⟨second ++ [.take .ping 8, .sent 8, .done, .arrive, .pong], _, rfl, rfl, rfl, rfl, rfl, rfl⟩

/-! ## Examples -/

/-- A quiet session: a ping after a second, whose pong comes after 80 milliseconds, and the next after six more
seconds. -/
def quiet : List Ev :=
  second ++ [.take .ping 8, .sent 8, .done, .pass 40, .arrive, .pass 40, .pong, .pass 920, .tick] ++ second ++ second ++
    second ++ second ++ second ++ [.take .ping 8, .sent 8, .done]

/-- Where it is then. -/
def after : State :=
  { start 0 0 31 0 0 with
      now := 7000, ticked := 7000, lastTick := 12000, lastWrite := 7000, waiting := true, pingAt := 7000,
      up := [(true, 7000)], prevUp := 1000, srvRead := 1040 }

example : run times (start 0 0 32 0 0) quiet = some after := by decide

/-- The server answers nothing more: the connection is closed six seconds later. -/
example : ∃ s, run times after (second ++ second ++ second ++ second ++ second) = some s ∧ s.isOpen = true ∧
    (run times s second).map (·.isOpen) = some false := ⟨_, rfl, rfl, rfl⟩

theorem reach_after : Reach times after := ⟨0, 0, 32, 0, 0, quiet, by decide, by decide⟩

/-- C110_writes and C110_dead_partial for that session. -/
example {s : State} {es : List Ev} (h : run times after es = some s) (hi : ∀ e ∈ es, ¬ Incoming e)
    (ho : s.isOpen = true) : s.now ≤ 7000 + 6000 * (31 + 3) := by
  have a := C110_dead_partial reach_after h hi ho
  simp only [after, start, busy] at a
  exact a

/-- C110_one for that session: no message takes longer than 24 seconds. -/
example {s : State} {es : List Ev} (h : run times after es = some s) (hd : .done ∉ es) (ho : s.isOpen = true) :
    s.now ≤ 7000 + 24000 := by
  have a := C110_one reach_after h hd ho
  have b : wire after = 1 := rfl
  rw [b] at a
  exact a

/-- C110_kept_partial for the end of that session. -/
example {s : State} (h : run times (start 0 0 32 0 0) (quiet ++ (List.replicate 6 second).flatten) = some s) :
    s.isOpen = false ∧ s.lastWrite + 5000 < s.now := by
  have hc : s.isOpen = false := by
    have : (run times (start 0 0 32 0 0) (quiet ++ (List.replicate 6 second).flatten)).map (·.isOpen) = some false := by
      decide
    rw [h] at this
    simpa using this
  exact ⟨hc, (C110_kept_partial (by decide) h hc).2⟩

instance (w d : Nat) (s : State) : Decidable (Prompt w d s) :=
  decidable_of_iff ((∀ m ∈ s.up, s.now ≤ m.2 + d) ∧ (s.waiting = true → 0 < s.pings + pinging s → s.now ≤ s.pingAt + w))
    ⟨fun h => ⟨h.1, h.2⟩, fun h => ⟨h.1, h.2⟩⟩

/-- C110_server_partial: its hypotheses hold in that session, with a second for the writing and one for the way. -/
example : ∀ a b u, quiet = a ++ b → run times (start 0 0 32 0 0) a = some u → Prompt 1000 1000 u := by
  have h : ∀ a ∈ quiet.inits, ∀ u ∈ run times (start 0 0 32 0 0) a, Prompt 1000 1000 u := by decide
  intro a b u hab hu
  exact h a ((List.mem_inits a quiet).2 ⟨b, hab.symm⟩) u hu

theorem run_replies (c : Times) (n : Nat) : ∀ s : State, s.isOpen = true →
    run c s (List.replicate n .reply) = some { s with free := s.free + n } := by
  induction n with
  | zero => intro s _; rfl
  | succ n ih =>
    intro s h
    rw [List.replicate_succ, run]
    rw [show step c s .reply = some { s with free := s.free + 1 } by unfold step; rw [if_pos h], Option.bind_some,
      ih { s with free := s.free + 1 } h]
    simp only [Nat.add_assoc, Nat.add_comm 1 n]

theorem run_requests (c : Times) (n : Nat) : ∀ s : State, s.isOpen = true → n ≤ s.free →
    run c s (List.replicate n .request) = some { s with free := s.free - n, others := s.others + n } := by
  induction n with
  | zero => intro s _ _; rfl
  | succ n ih =>
    intro s h hn
    rw [List.replicate_succ, run]
    rw [show step c s .request = some { s with free := s.free - 1, others := s.others + 1 } by
        unfold step; rw [if_pos h]; exact if_pos (by omega),
      Option.bind_some, ih { s with free := s.free - 1, others := s.others + 1 } h (by show n ≤ s.free - 1; omega)]
    have h1 : s.free - 1 - n = s.free - (n + 1) := by omega
    have h2 : s.others + 1 + n = s.others + (n + 1) := by omega
    simp only [h1, h2]

/-- **C110** A client that waits for answers can go on when they come: as many answers as came, so many requests can be made. -/
theorem C110_replies (c : Times) (s : State) (n : Nat) (h : s.isOpen = true) :
    ∃ s', run c s (List.replicate n .reply ++ List.replicate n .request) = some s' ∧ s'.free = s.free ∧
      s'.others = s.others + n := by
  have hr : ∀ (a b : List Ev) (s : State), run c s (a ++ b) = (run c s a).bind fun s' => run c s' b := by
    intro a
    induction a with
    | nil => intro b s; rfl
    | cons e a ih =>
      intro b s
      rw [List.cons_append, run, run]
      cases step c s e with
      | none => rfl
      | some s' => exact ih b s'
  refine ⟨_, by rw [hr, run_replies c n s h, Option.bind_some, run_requests c n { s with free := s.free + n } h (Nat.le_add_left _ _)], ?_, rfl⟩
  show s.free + n - n = s.free
  omega

end Verif.Heartbeat
