import Mathlib.Data.List.GetD
import Mathlib.Tactic.ByContra
import Verif.Model.Reconnect

/-! # C91–C94: online, offline and back -/

namespace Verif.Reconnect

/-- A client that was started with this certificate of its server on record. -/
def start (cert : Nat) : State := { cert := cert }

theorem exec_cons (s : State) (e : Ev) (evs : List Ev) : exec s (e :: evs) = exec (step s e) evs := rfl

theorem exec_append (s : State) (a b : List Ev) : exec s (a ++ b) = exec (exec s a) b := List.foldl_append

theorem exec_concat (s : State) (a : List Ev) (e : Ev) : exec s (a ++ [e]) = step (exec s a) e := by
  rw [exec_append]; rfl

theorem exec_crashed {s : State} (h : s.crashed = true) (evs : List Ev) : exec s evs = s := by
  induction evs with
  | nil => rfl
  | cons e evs ih =>
    rw [exec_cons]
    have : step s e = s := if_pos h
    rw [this, ih]

/-- The cases of `goOnline`. -/
theorem goOnline_cases (s : State) (m : Meeting) :
    goOnline s m = (s, .err)
      ∨ (s.conn = .off ∧ ∃ c a, m = .met c a ∧ c ≠ s.cert ∧ goOnline s m = ({ s with provisional := some c }, .errCert))
      ∨ (s.conn = .off ∧ m = .met s.cert .refused ∧ goOnline s m = ({ s with offline := true }, .err))
      ∨ (s.conn = .off ∧ m = .met s.cert .welcome ∧ goOnline s m = ({ s with conn := .up s.cert }, .ok)) := by
  by_cases ho : s.conn.online = true
  · left
    unfold goOnline
    rw [if_pos ho]
  · have hoff : s.conn = .off := by
      cases hc : s.conn with
      | off => rfl
      | up c => rw [hc] at ho; exact absurd rfl ho
      | shut => rw [hc] at ho; exact absurd rfl ho
    unfold goOnline
    rw [if_neg ho]
    cases m with
    | nobody => exact Or.inl rfl
    | met c a =>
      by_cases hc : c = s.cert
      · subst hc
        dsimp only
        rw [if_neg (fun h => h rfl)]
        cases a with
        | broken => exact Or.inl rfl
        | refused => exact Or.inr (Or.inr (Or.inl ⟨hoff, rfl, rfl⟩))
        | welcome => exact Or.inr (Or.inr (Or.inr ⟨hoff, rfl, rfl⟩))
      · refine Or.inr (Or.inl ⟨hoff, c, a, rfl, hc, ?_⟩)
        dsimp only
        rw [if_pos hc]

theorem online_iff (c : Conn) : c.online = true ↔ c ≠ .off := by
  cases c <;> simp [Conn.online]

/-! ## C91: a client told to go offline stays offline -/

/-- A goroutine that can still go online without looking at `z.offline` again. -/
def Pc.loose : Pc → Bool
  | .dial | .armed | .fired | .trying => true
  | _ => false

/-- The user does not ask to go online again. -/
def Silent (evs : List Ev) : Prop := Ev.online ∉ evs

structure Quiet (s : State) : Prop where
  offline : s.offline = true
  conn : s.conn.isUp = false
  threads : ∀ pc ∈ s.threads, pc.loose = false

theorem quiet_put {s : State} (h : Quiet s) (i : Nat) {pc : Pc} (hp : pc.loose = false) : Quiet (s.put i pc) :=
  ⟨h.offline, h.conn, fun q hq => (List.mem_or_eq_of_mem_set hq).elim (h.threads q) (fun e => e ▸ hp)⟩

theorem loose_getD {s : State} (h : ∀ pc ∈ s.threads, pc.loose = false) (i : Nat) :
    (s.threads.getD i .gone).loose = false := by
  by_cases hi : i < s.threads.length
  · rw [List.getD_eq_getElem _ _ hi]; exact h _ (List.getElem_mem hi)
  · rw [List.getD_eq_default _ _ (Nat.le_of_not_lt hi)]; rfl

theorem quiet_step {s : State} (h : Quiet s) {e : Ev} (he : e ≠ .online) : Quiet (step s e) := by
  unfold step
  split
  · exact h
  · cases e with
    | online => exact absurd rfl he
    | run i m =>
      dsimp only
      have hl := loose_getD h.threads i
      generalize s.threads.getD i .gone = pc at hl
      cases pc with
      | gone => exact h
      | stuck => exact h
      | dial => cases hl
      | armed => cases hl
      | fired => cases hl
      | trying => cases hl
      | greet =>
        unfold advance; dsimp only; split
        · exact quiet_put h i rfl
        · exact ⟨h.offline, h.conn, h.threads⟩
      | greeting =>
        unfold advance; dsimp only; split
        · exact quiet_put h i rfl
        · exact ⟨h.offline, h.conn, h.threads⟩
      | «show» => exact quiet_put (s := { s with shown := s.provisional }) ⟨h.offline, h.conn, h.threads⟩ i rfl
      | top =>
        unfold advance; dsimp only; rw [h.offline]; exact quiet_put h i rfl
      | again => exact quiet_put h i rfl
      | dry =>
        unfold advance; dsimp only; rw [h.offline]; exact quiet_put h i rfl
    | offline => 
      dsimp only; split
      · exact ⟨rfl, rfl, h.threads⟩
      · exact ⟨h.offline, h.conn, h.threads⟩
    | accept =>
      dsimp only; split
      · exact ⟨h.offline, h.conn, h.threads⟩
      · exact h
    | timeout =>
      dsimp only; split
      · exact ⟨h.offline, rfl, h.threads⟩
      · exact h
    | drop =>
      dsimp only; split
      · refine ⟨h.offline, rfl, fun pc hpc => ?_⟩
        rcases List.mem_append.1 hpc with hpc | hpc
        · exact h.threads pc hpc
        · rw [List.mem_singleton.1 hpc]; rfl
      · exact h
    | look =>
      dsimp only; split
      · exact ⟨h.offline, h.conn, h.threads⟩
      · exact h
    | write =>
      dsimp only; split
      · split
        · exact ⟨h.offline, h.conn, h.threads⟩
        · exact ⟨h.offline, h.conn, h.threads⟩
      · exact h

theorem quiet_exec {s : State} (h : Quiet s) (evs : List Ev) (hs : Silent evs) : Quiet (exec s evs) := by
  induction evs generalizing s with
  | nil => exact h
  | cons e evs ih =>
    exact ih (quiet_step h (fun he => hs (he ▸ List.mem_cons_self))) (fun hm => hs (List.mem_cons_of_mem _ hm))

/-- Claim in full: however the client got where it is, once the user has typed `/offline` it does not talk to a
server again before the user has typed `/online`.  Refuted below. -/
def C91_full : Prop :=
  ∀ cert evs more, Silent more → (exec (start cert) (evs ++ .offline :: more)).conn.isUp = false

/-- C91, what is missing: the client must be online when `/offline` is typed, and no goroutine may be waiting to
reconnect, or be about to go online.  Then the client talks to no server before `/online` is typed. -/
theorem C91_stays_partial (s : State) (hc : s.crashed = false) (hon : s.conn.online = true)
    (hl : ∀ pc ∈ s.threads, pc.loose = false) (more : List Ev) (hm : Silent more) :
    (exec s (.offline :: more)).conn.isUp = false := by
  rw [exec_cons]
  have hq : Quiet (step s .offline) := by
    unfold step
    rw [hc, if_neg Bool.false_ne_true]
    dsimp only
    rw [if_pos hon]
    exact ⟨rfl, rfl, hl⟩
  exact (quiet_exec hq more hm).conn

/-- How a loose goroutine goes on until it is online. -/
def path (i : Nat) (m : Meeting) : Pc → List Ev
  | .armed => [.run i m, .run i m, .run i m]
  | .fired => [.run i m, .run i m]
  | .trying => [.run i m]
  | .dial => [.run i m]
  | _ => []

theorem step_run {s : State} (hc : s.crashed = false) {i : Nat} {pc : Pc} (hi : s.threads[i]? = some pc) (m : Meeting) :
    step s (.run i m) = advance s i m pc := by
  unfold step
  rw [hc, if_neg Bool.false_ne_true]
  dsimp only
  rw [List.getD_eq_getElem?_getD, hi]
  rfl

theorem put_get {s : State} {i : Nat} {pc : Pc} (hi : s.threads[i]? = some pc) (q : Pc) :
    (s.put i q).threads[i]? = some q := by
  have hlt : i < s.threads.length := (List.getElem?_eq_some_iff.1 hi).1
  change (s.threads.set i q)[i]? = some q
  rw [List.getElem?_set_self hlt]

theorem goOnline_welcome {s : State} (h : s.conn = .off) :
    goOnline s (.met s.cert .welcome) = ({ s with conn := .up s.cert }, .ok) := by
  unfold goOnline
  rw [h, if_neg (by decide)]
  dsimp only
  rw [if_neg (fun h => h rfl)]

/-- A goroutine past the check of `z.offline` goes online if the server is there. -/
theorem loose_up {s : State} (hc : s.crashed = false) (hoff : s.conn = .off) {i : Nat} {pc : Pc}
    (hi : s.threads[i]? = some pc) (hl : pc.loose = true) :
    (exec s (path i (.met s.cert .welcome) pc)).conn = .up s.cert := by
  have ht : ∀ {s' : State}, s'.crashed = false → s'.conn = .off → s'.cert = s.cert → s'.threads[i]? = some .trying →
      (step s' (.run i (.met s.cert .welcome))).conn = .up s.cert := by
    intro s' hc' ho' hcert hi'
    rw [step_run hc' hi', ← hcert]
    unfold advance
    dsimp only
    rw [goOnline_welcome ho']
    rfl
  have hf : ∀ {s' : State}, s'.crashed = false → s'.conn = .off → s'.cert = s.cert → s'.threads[i]? = some .fired →
      (exec s' [.run i (.met s.cert .welcome), .run i (.met s.cert .welcome)]).conn = .up s.cert := by
    intro s' hc' ho' hcert hi'
    rw [exec_cons, step_run hc' hi']
    have e : advance s' i (.met s.cert .welcome) .fired = s'.put i .trying := by
      unfold advance; dsimp only; rw [ho']; rfl
    rw [e]
    exact ht hc' ho' hcert (put_get hi' _)
  cases pc with
  | armed =>
    change (exec s [_, _, _]).conn = _
    rw [exec_cons, step_run hc hi]
    exact hf (s' := s.put i .fired) hc hoff rfl (put_get hi _)
  | fired => exact hf hc hoff rfl hi
  | trying => exact ht hc hoff rfl hi
  | dial =>
    change (step s (.run i (.met s.cert .welcome))).conn = _
    rw [step_run hc hi]
    unfold advance
    dsimp only
    rw [goOnline_welcome hoff]
    rfl
  | _ => cases hl

/-- C91, exactly when `/offline` holds: an online client that is told to go offline stays offline in all that may
follow if and only if no goroutine is past its last look at `z.offline`. -/
theorem C91_exact (s : State) (hc : s.crashed = false) (hon : s.conn.online = true) :
    (∀ more, Silent more → (exec s (.offline :: more)).conn.isUp = false) ↔ ∀ pc ∈ s.threads, pc.loose = false := by
  constructor
  · intro h pc hpc
    by_contra hl
    have hl : pc.loose = true := by cases hq : pc.loose with | true => rfl | false => exact absurd hq hl
    obtain ⟨i, hi⟩ := List.getElem?_of_mem hpc
    have hlt : i < s.threads.length := (List.getElem?_eq_some_iff.1 hi).1
    have h2 := h (.drop :: path i (.met s.cert .welcome) pc) (by
      intro hm
      rcases List.mem_cons.1 hm with hm | hm
      · cases hm
      · cases pc <;> simp [path] at hm)
    rw [exec_cons, exec_cons] at h2
    have e : step (step s .offline) .drop
        = { s with offline := true, told := true, conn := .off, threads := s.threads ++ [.top] } := by
      have e1 : step s .offline = { s with offline := true, told := true, conn := .shut } := by
        unfold step; rw [hc, if_neg Bool.false_ne_true]; dsimp only; rw [if_pos hon]
      rw [e1]
      unfold step
      dsimp only
      rw [hc, if_neg Bool.false_ne_true]
      rfl
    rw [e] at h2
    have h3 := loose_up
      (s := { s with offline := true, told := true, conn := .off, threads := s.threads ++ [.top] }) hc rfl
      (i := i) (pc := pc) (by
        change (s.threads ++ [Pc.top])[i]? = some pc
        rw [List.getElem?_append_left hlt]; exact hi) hl
    dsimp only at h3
    rw [h3] at h2
    cases h2
  · intro hl more hm
    exact C91_stays_partial s hc hon hl more hm

/-- The connection was lost, the client reconnected by itself, and the user types `/offline` before the timer of
that reconnection comes again: the waiting goroutine goes online. -/
theorem C91_waiting_violated : ¬ C91_full := by
  intro h
  have := h 7
    [.run 0 (.met 7 .welcome), .run 0 .nobody, .drop,
      .run 1 .nobody, .run 1 .nobody, .run 1 .nobody, .run 1 (.met 7 .welcome), .run 1 .nobody, .run 1 .nobody,
      .run 1 .nobody]
    [.drop, .run 1 .nobody, .run 1 .nobody, .run 1 (.met 7 .welcome)] (by unfold Silent; decide)
  revert this
  decide

/-- The connection was lost and the user types `/offline` while the client waits to reconnect: nothing is noted, and
the client goes online. -/
theorem C91_ignored_violated : ¬ C91_full := by
  intro h
  have := h 7 [.run 0 (.met 7 .welcome), .run 0 .nobody, .drop]
    [.run 1 .nobody, .run 1 .nobody, .run 1 .nobody, .run 1 (.met 7 .welcome)] (by unfold Silent; decide)
  revert this
  decide

/-- `/offline` while not online changes nothing the client looks at. -/
theorem C91_unheard (s : State) (hon : s.conn = .off) (hc : s.crashed = false) :
    step s .offline = { s with told := true } := by
  unfold step
  rw [hc, if_neg Bool.false_ne_true]
  dsimp only
  rw [hon]
  rfl

/-- A client on its first connection: `/offline` holds. -/
example : (exec (start 7) [.run 0 (.met 7 .welcome), .run 0 .nobody]).conn = .up 7
    ∧ ∀ more, Silent more →
      (exec (exec (start 7) [.run 0 (.met 7 .welcome), .run 0 .nobody]) (.offline :: more)).conn.isUp = false :=
  ⟨by decide, C91_stays_partial _ (by decide) (by decide) (by decide)⟩

/-- After `/online` it can be online again. -/
example : (exec (start 7) [.run 0 (.met 7 .welcome), .run 0 .nobody, .offline, .drop, .run 1 .nobody, .online,
    .run 2 (.met 7 .welcome)]).conn = .up 7 := by decide

/-! ## C92: a client that lost its server finds it again -/

/-- A goroutine that will try again. -/
def Pc.active : Pc → Bool
  | .again | .top | .armed | .fired | .trying => true
  | _ => false

/-- What the run is spared: `/offline`, a server that refuses, a server with another certificate. -/
def Ev.kind (cert : Nat) : Ev → Bool
  | .offline => false
  | .run _ (.met c a) => c = cert && a ≠ .refused
  | .accept => true
  | _ => true

structure Alive (cert : Nat) (s : State) : Prop where
  offline : s.offline = false
  cert : s.cert = cert
  provisional : s.provisional = none
  threads : s.conn = .off → ∃ (i : Nat) (pc : Pc), s.threads[i]? = some pc ∧ pc.active = true

theorem put_other {s : State} {i j : Nat} {pc q : Pc} (hij : i ≠ j) (hi : s.threads[j]? = some pc) :
    (s.put i q).threads[j]? = some pc := by
  change (s.threads.set i q)[j]? = some pc
  rw [List.getElem?_set_ne hij]; exact hi

/-- Moving goroutine `i` keeps some goroutine active, if `i` stays active or was not. -/
theorem active_put {s : State} {i : Nat} {pc q : Pc} (hi : s.threads[i]? = some pc)
    (hpq : pc.active = true → q.active = true) (h : ∃ (j : Nat) (pc : Pc), s.threads[j]? = some pc ∧ pc.active = true) :
    ∃ (j : Nat) (pc : Pc), (s.put i q).threads[j]? = some pc ∧ pc.active = true := by
  obtain ⟨j, pj, hj, ha⟩ := h
  by_cases hij : i = j
  · subst hij
    rw [hi] at hj
    cases hj
    exact ⟨i, q, put_get hi q, hpq ha⟩
  · exact ⟨j, pj, put_other hij hj, ha⟩

theorem alive_put {cert : Nat} {s : State} (h : Alive cert s) {i : Nat} {pc q : Pc} (hi : s.threads[i]? = some pc)
    (hpq : s.conn = .off → pc.active = true → q.active = true) : Alive cert (s.put i q) :=
  ⟨h.offline, h.cert, h.provisional, fun ho => active_put hi (hpq ho) (h.threads ho)⟩

theorem alive_goOnline {cert : Nat} {s : State} (h : Alive cert s) {m : Meeting}
    (hk : ∀ c a, m = .met c a → c = cert ∧ a ≠ .refused) :
    goOnline s m = (s, .err) ∨ (s.conn = .off ∧ goOnline s m = ({ s with conn := .up cert }, .ok)) := by
  rcases goOnline_cases s m with e | ⟨_, c, a, hm, hne, _⟩ | ⟨_, hm, _⟩ | ⟨ho, hm, e⟩
  · exact Or.inl e
  · exact absurd ((hk c a hm).1.trans h.cert.symm) hne
  · exact absurd rfl (hk _ _ hm).2
  · have hx := h.cert
    subst hx; exact Or.inr ⟨ho, e⟩

theorem alive_step {cert : Nat} {s : State} (h : Alive cert s) {e : Ev} (he : e.kind cert = true) :
    Alive cert (step s e) := by
  unfold step
  split
  · exact h
  · cases e with
    | online =>
      refine ⟨rfl, h.cert, h.provisional, fun ho => ?_⟩
      obtain ⟨i, pc, hi, ha⟩ := h.threads ho
      refine ⟨i, pc, ?_, ha⟩
      change (s.threads ++ [Pc.dial])[i]? = some pc
      rw [List.getElem?_append_left (List.getElem?_eq_some_iff.1 hi).1]; exact hi
    | run i m =>
      have hk : ∀ c a, m = .met c a → c = cert ∧ a ≠ .refused := by
        intro c a hm
        subst hm
        simpa [Ev.kind] using he
      dsimp only
      cases hi : s.threads[i]? with
      | none => rw [List.getD_eq_getElem?_getD, hi]; exact h
      | some pc =>
        rw [List.getD_eq_getElem?_getD, hi]
        change Alive cert (advance s i m pc)
        cases pc with
        | gone => exact h
        | stuck => exact h
        | dial =>
          unfold advance; dsimp only
          rcases alive_goOnline h hk with e | ⟨_, e⟩
          · rw [e]; exact alive_put h hi (fun _ ha => by cases ha)
          · rw [e]; exact ⟨h.offline, h.cert, h.provisional, fun ho => by cases ho⟩
        | greet =>
          unfold advance; dsimp only; split
          · exact alive_put h hi (fun _ ha => by cases ha)
          · exact ⟨h.offline, h.cert, h.provisional, h.threads⟩
        | «show» =>
          exact alive_put (s := { s with shown := s.provisional }) ⟨h.offline, h.cert, h.provisional, h.threads⟩ hi
            (fun _ ha => by cases ha)
        | top =>
          unfold advance; dsimp only; rw [h.offline]
          exact alive_put h hi (fun _ _ => rfl)
        | armed => exact alive_put h hi (fun _ _ => rfl)
        | fired =>
          refine alive_put h hi (fun ho _ => ?_)
          rw [ho]; rfl
        | trying =>
          unfold advance; dsimp only
          rcases alive_goOnline h hk with e | ⟨_, e⟩
          · rw [e]; exact alive_put h hi (fun _ _ => rfl)
          · rw [e]; exact ⟨h.offline, h.cert, h.provisional, fun ho => by cases ho⟩
        | greeting =>
          unfold advance; dsimp only; split
          · exact alive_put h hi (fun _ _ => rfl)
          · exact ⟨h.offline, h.cert, h.provisional, h.threads⟩
        | again => exact alive_put h hi (fun _ _ => rfl)
        | dry =>
          unfold advance; dsimp only; rw [h.offline]
          exact alive_put h hi (fun _ ha => by cases ha)
    | offline => cases he
    | accept =>
      dsimp only
      rw [h.provisional]
      split
      · rename_i hx; cases hx
      · exact h
    | timeout =>
      dsimp only; split
      · exact ⟨h.offline, h.cert, h.provisional, fun ho => by cases ho⟩
      · exact h
    | drop =>
      dsimp only; split
      · refine ⟨h.offline, h.cert, h.provisional, fun _ => ⟨s.threads.length, .top, ?_, rfl⟩⟩
        exact List.getElem?_concat_length
      · exact h
    | look =>
      dsimp only; split
      · exact ⟨h.offline, h.cert, h.provisional, h.threads⟩
      · exact h
    | write =>
      dsimp only; split
      · split
        · exact ⟨h.offline, h.cert, h.provisional, h.threads⟩
        · exact ⟨h.offline, h.cert, h.provisional, h.threads⟩
      · exact h

theorem alive_exec {cert : Nat} {s : State} (h : Alive cert s) (evs : List Ev) (he : ∀ e ∈ evs, e.kind cert = true) :
    Alive cert (exec s evs) := by
  induction evs generalizing s with
  | nil => exact h
  | cons e evs ih =>
    exact ih (alive_step h (he e List.mem_cons_self)) (fun x hx => he x (List.mem_cons_of_mem _ hx))

/-- How many moves a goroutine is from having tried. -/
def Pc.left : Pc → Nat
  | .again => 5
  | .top => 4
  | .armed => 3
  | .fired => 2
  | .trying => 1
  | _ => 0

/-- Moves of a time in which the server answers with its certificate and welcomes the client, no connection is lost
and the user does nothing. -/
def Ev.good (cert : Nat) : Ev → Bool
  | .run _ m => m = .met cert .welcome
  | .look | .write => true
  | _ => false

/-- How often goroutine `i` is moved. -/
def moves (i : Nat) : List Ev → Nat
  | [] => 0
  | .run j _ :: evs => (if j = i then 1 else 0) + moves i evs
  | _ :: evs => moves i evs

theorem good_offline {cert : Nat} {s : State} (hcert : s.cert = cert) (hoff : s.offline = false)
    (ho : s.conn = .off) (hc : s.crashed = false) {e : Ev} (he : e.good cert = true) {i : Nat} {pc : Pc}
    (hi : s.threads[i]? = some pc) (ha : pc.active = true) :
    (step s e).conn = .up cert ∨ (step s e).crashed = true
      ∨ ((step s e).cert = cert ∧ (step s e).offline = false ∧ (step s e).conn = .off ∧ (step s e).crashed = false ∧
          ∃ q, (step s e).threads[i]? = some q ∧ q.active = true ∧ q.left + moves i [e] ≤ pc.left) := by
  have hgo : goOnline s (.met cert .welcome) = ({ s with conn := .up cert }, .ok) := by
    subst hcert; exact goOnline_welcome ho
  have hst : step s e = match e with
    | .run i m => advance s i m (s.threads.getD i .gone)
    | .look => s
    | .write => if s.sending then { s with crashed := true } else s
    | _ => step s e := by
    unfold step
    rw [hc, if_neg Bool.false_ne_true]
    cases e <;> simp only [ho, Conn.online, Bool.false_eq_true, if_false] <;> rfl
  cases e with
  | online | offline | accept | timeout | drop => cases he
  | look => rw [hst]; exact Or.inr (Or.inr ⟨hcert, hoff, ho, hc, pc, hi, ha, Nat.le_refl _⟩)
  | write =>
    rw [hst]; dsimp only; split
    · exact Or.inr (Or.inl rfl)
    · exact Or.inr (Or.inr ⟨hcert, hoff, ho, hc, pc, hi, ha, Nat.le_refl _⟩)
  | run j m =>
    have hm : m = .met cert .welcome := by simpa [Ev.good] using he
    subst hm
    rw [hst]; dsimp only
    have stay : ∀ q, j ≠ i → Or ((s.put j q).conn = .up cert) (Or ((s.put j q).crashed = true)
        ((s.put j q).cert = cert ∧ (s.put j q).offline = false ∧ (s.put j q).conn = .off ∧ (s.put j q).crashed = false ∧
          ∃ q', (s.put j q).threads[i]? = some q' ∧ q'.active = true
            ∧ q'.left + moves i [.run j (.met cert .welcome)] ≤ pc.left)) := by
      intro q hji
      refine Or.inr (Or.inr ⟨hcert, hoff, ho, hc, pc, put_other hji hi, ha, ?_⟩)
      have : moves i [.run j (.met cert .welcome)] = 0 := by simp [moves, hji]
      rw [this]; exact Nat.le_refl _
    have same : j ≠ i → Or (s.conn = .up cert) (Or (s.crashed = true)
        (s.cert = cert ∧ s.offline = false ∧ s.conn = .off ∧ s.crashed = false ∧
          ∃ q', s.threads[i]? = some q' ∧ q'.active = true
            ∧ q'.left + moves i [.run j (.met cert .welcome)] ≤ pc.left)) := by
      intro hji
      refine Or.inr (Or.inr ⟨hcert, hoff, ho, hc, pc, hi, ha, ?_⟩)
      have : moves i [.run j (.met cert .welcome)] = 0 := by simp [moves, hji]
      rw [this]; exact Nat.le_refl _
    by_cases hji : j = i
    · subst hji
      rw [List.getD_eq_getElem?_getD, hi]
      have hmv : moves j [.run j (.met cert .welcome)] = 1 := by simp [moves]
      rw [hmv]
      change Or ((advance s j _ pc).conn = _) _
      have next : ∀ q, q.active = true → q.left + 1 ≤ pc.left → Or ((s.put j q).conn = .up cert)
          (Or ((s.put j q).crashed = true) ((s.put j q).cert = cert ∧ (s.put j q).offline = false ∧ (s.put j q).conn = .off ∧
            (s.put j q).crashed = false ∧ ∃ q', (s.put j q).threads[j]? = some q' ∧ q'.active = true
              ∧ q'.left + 1 ≤ pc.left)) :=
        fun q h1 h2 => Or.inr (Or.inr ⟨hcert, hoff, ho, hc, q, put_get hi q, h1, h2⟩)
      cases pc with
      | again => exact next .top rfl (by decide)
      | top =>
        have e : advance s j (.met cert .welcome) .top = s.put j .armed := by
          unfold advance; dsimp only; rw [hoff]; rfl
        change Or ((advance s j (.met cert .welcome) .top).conn = _) _
        simp only [Option.getD_some, e]
        exact next .armed rfl (by decide)
      | armed => exact next .fired rfl (by decide)
      | fired =>
        have e : advance s j (.met cert .welcome) .fired = s.put j .trying := by
          unfold advance; dsimp only; rw [ho]; rfl
        simp only [Option.getD_some, e]
        exact next .trying rfl (by decide)
      | trying =>
        left
        unfold advance
        dsimp only
        rw [hgo]
        rfl
      | _ => cases ha
    · generalize s.threads.getD j .gone = pj
      cases pj with
      | gone => exact same hji
      | stuck => exact same hji
      | dial => left; unfold advance; dsimp only; rw [hgo]; rfl
      | trying => left; unfold advance; dsimp only; rw [hgo]; rfl
      | greet =>
        right; left; unfold advance; dsimp only; rw [ho]; rfl
      | greeting =>
        right; left; unfold advance; dsimp only; rw [ho]; rfl
      | «show» =>
        refine Or.inr (Or.inr ⟨hcert, hoff, ho, hc, pc, put_other (s := { s with shown := s.provisional }) hji hi, ha, ?_⟩)
        have : moves i [.run j (.met cert .welcome)] = 0 := by simp [moves, hji]
        rw [this]; exact Nat.le_refl _
      | top => exact stay _ hji
      | armed => exact stay _ hji
      | fired => exact stay _ hji
      | again => exact stay _ hji
      | dry => exact stay _ hji

theorem moves_cons (i : Nat) (e : Ev) (evs : List Ev) : moves i (e :: evs) = moves i [e] + moves i evs := by
  cases e <;> simp [moves]

theorem active_left {pc : Pc} (h : pc.active = true) : 0 < pc.left := by
  cases pc <;> first | (cases h; done) | decide

theorem good_exec {cert : Nat} {s : State} (hcert : s.cert = cert) (hoff : s.offline = false)
    (ho : s.conn = .off) (hc : s.crashed = false) (evs : List Ev) (he : ∀ e ∈ evs, e.good cert = true) {i : Nat} {pc : Pc}
    (hi : s.threads[i]? = some pc) (ha : pc.active = true) (hn : pc.left ≤ moves i evs) :
    ∃ a b, evs = a ++ b ∧ ((exec s a).conn = .up cert ∨ (exec s a).crashed = true) := by
  induction evs generalizing s pc with
  | nil => exact absurd (Nat.lt_of_lt_of_le (active_left ha) hn) (Nat.lt_irrefl _)
  | cons e evs ih =>
    rcases good_offline hcert hoff ho hc (he e List.mem_cons_self) hi ha with h | h | ⟨h1, h2, h3, h4, q, h5, h6, h7⟩
    · exact ⟨[e], evs, rfl, Or.inl h⟩
    · exact ⟨[e], evs, rfl, Or.inr h⟩
    · rw [moves_cons] at hn
      obtain ⟨a, b, hab, hr⟩ := ih h1 h2 h3 h4 (fun x hx => he x (List.mem_cons_of_mem _ hx)) h5 h6 (by omega)
      exact ⟨e :: a, b, by rw [hab]; rfl, hr⟩

/-- Claim in full: whatever happened, if the user has not asked to be offline, the server neither refused the client
nor showed another certificate, and the client is not online, then in some goroutine it keeps trying: five moves of that
goroutine while the server is there bring it online.  Refuted below. -/
def C92_full : Prop :=
  ∀ cert evs, (∀ e ∈ evs, e.kind cert = true) → (exec (start cert) evs).crashed = false →
    (exec (start cert) evs).conn = .off →
    ∃ i, ∀ more, (∀ e ∈ more, e.good cert = true) → 5 ≤ moves i more →
      ∃ a b, more = a ++ b
        ∧ ((exec (exec (start cert) evs) a).conn = .up cert ∨ (exec (exec (start cert) evs) a).crashed = true)

/-- C92, what is missing: the client's first connection must have come about.  Then a client that is not online, in
whatever way it lost its connections, has a goroutine that brings it online within five moves once the server is
there, whatever the others do meanwhile. -/
theorem C92_back_partial (cert : Nat) (evs : List Ev) (he : ∀ e ∈ evs, e.kind cert = true) (s : State)
    (hs : s = exec (start cert) (.run 0 (.met cert .welcome) :: evs)) (hc : s.crashed = false) (ho : s.conn = .off) :
    ∃ i, ∀ more, (∀ e ∈ more, e.good cert = true) → 5 ≤ moves i more →
      ∃ a b, more = a ++ b ∧ ((exec s a).conn = .up cert ∨ (exec s a).crashed = true) := by
  have h0 : Alive cert (step (start cert) (.run 0 (.met cert .welcome))) := by
    have e : step (start cert) (.run 0 (.met cert .welcome)) = { start cert with conn := .up cert, threads := [.greet] } := by
      rw [step_run (s := start cert) (pc := .dial) rfl rfl]
      unfold advance
      dsimp only
      have := goOnline_welcome (s := start cert) rfl
      have hcc : (start cert).cert = cert := rfl
      rw [hcc] at this
      rw [this]
      rfl
    rw [e]
    exact ⟨rfl, rfl, rfl, fun h => by cases h⟩
  have h := alive_exec h0 evs he
  rw [← exec_cons, ← hs] at h
  obtain ⟨i, pc, hi, ha⟩ := h.threads ho
  refine ⟨i, fun more hm hn => good_exec h.cert h.offline ho hc more hm hi ha (Nat.le_trans ?_ hn)⟩
  cases pc <;> first | (cases ha; done) | decide

/-- Nobody is left to go online. -/
structure Dead (s : State) : Prop where
  conn : s.conn = .off
  threads : ∀ pc ∈ s.threads, pc = .gone ∨ pc = .stuck

theorem dead_step {s : State} (h : Dead s) {e : Ev} (he : e ≠ .online) : Dead (step s e) := by
  unfold step
  split
  · exact h
  · cases e with
    | online => exact absurd rfl he
    | run i m =>
      dsimp only
      by_cases hi : i < s.threads.length
      · rw [List.getD_eq_getElem _ _ hi]
        rcases h.threads _ (List.getElem_mem hi) with e | e <;> rw [e] <;> exact h
      · rw [List.getD_eq_default _ _ (Nat.le_of_not_lt hi)]; exact h
    | accept =>
      dsimp only; split
      · exact ⟨h.conn, h.threads⟩
      · exact h
    | offline =>
      dsimp only
      rw [if_neg (by rw [h.conn]; decide)]
      exact ⟨h.conn, h.threads⟩
    | timeout => dsimp only; rw [h.conn]; exact h
    | drop => dsimp only; rw [h.conn]; exact h
    | look => dsimp only; rw [h.conn]; exact h
    | write =>
      dsimp only; split
      · rw [if_neg (by rw [h.conn]; decide)]
        exact ⟨h.conn, h.threads⟩
      · exact h

theorem dead_exec {s : State} (h : Dead s) (evs : List Ev) (he : Silent evs) : Dead (exec s evs) := by
  induction evs generalizing s with
  | nil => exact h
  | cons e evs ih =>
    exact ih (dead_step h (fun hx => he (hx ▸ List.mem_cons_self))) (fun hx => he (List.mem_cons_of_mem _ hx))

/-- The server is not there when the client starts: the client never tries again by itself, whatever happens short of
`/online`. -/
theorem C92_start_violated (cert : Nat) (evs : List Ev) (h : Silent evs) :
    (exec (start cert) (.run 0 .nobody :: evs)).conn = .off := by
  refine (dead_exec (s := step (start cert) (.run 0 .nobody)) ⟨rfl, ?_⟩ evs h).conn
  intro pc hpc
  exact Or.inl (List.mem_singleton.1 hpc)

/-- Likewise after `/offline` and an `/online` that did not reach the server. -/
theorem C92_online_violated (cert : Nat) (evs : List Ev) (h : Silent evs) :
    (exec (start cert) ([.run 0 (.met cert .welcome), .run 0 .nobody, .offline, .drop, .run 1 .nobody, .online,
      .run 2 .nobody] ++ evs)).conn = .off := by
  rw [exec_append]
  have e : exec (start cert) [.run 0 (.met cert .welcome), .run 0 .nobody, .offline, .drop, .run 1 .nobody, .online,
      .run 2 .nobody] = { start cert with threads := [.gone, .gone, .gone] } := by
    have h1 : step (start cert) (.run 0 (.met cert .welcome)) = { start cert with conn := .up cert, threads := [.greet] } := by
      rw [step_run (s := start cert) (pc := .dial) rfl rfl]
      unfold advance
      dsimp only
      have := goOnline_welcome (s := start cert) rfl
      have hcc : (start cert).cert = cert := rfl
      rw [hcc] at this
      rw [this]
      rfl
    rw [exec_cons, h1]
    rfl
  rw [e]
  refine (dead_exec (s := { start cert with threads := [.gone, .gone, .gone] }) ⟨rfl, ?_⟩ evs h).conn
  intro pc hpc
  left
  simpa using hpc

/-- So the full claim fails. -/
theorem C92_full_violated : ¬ C92_full := by
  intro h
  obtain ⟨i, hi⟩ := h 7 [.run 0 .nobody] (by decide) (by decide) (by decide)
  obtain ⟨a, b, hab, hr⟩ := hi (List.replicate 5 (.run i (.met 7 .welcome)))
    (by intro e he; rw [(List.mem_replicate.1 he).2]; simp [Ev.good])
    (by simp [List.replicate, moves])
  have hc : ∀ l : List Ev, (∀ e ∈ l, e = .run i (.met 7 .welcome)) →
      exec ({ start 7 with threads := [.gone] }) l = { start 7 with threads := [.gone] } := by
    intro l
    induction l with
    | nil => intro _; rfl
    | cons e l ih =>
      intro hl
      rw [exec_cons, hl e List.mem_cons_self]
      have : step { start 7 with threads := [.gone] } (.run i (.met 7 .welcome)) = { start 7 with threads := [.gone] } := by
        cases i <;> rfl
      rw [this]
      exact ih (fun x hx => hl x (List.mem_cons_of_mem _ hx))
  have h1 : exec (start 7) [.run 0 .nobody] = { start 7 with threads := [.gone] } := by decide
  rw [h1, hc a (fun e he => by
    have : e ∈ List.replicate 5 (.run i (.met 7 .welcome)) := by rw [hab]; exact List.mem_append_left _ he
    exact (List.mem_replicate.1 this).2)] at hr
  revert hr
  decide

/-- A server that comes back is found. -/
example : (exec (start 7) [.run 0 (.met 7 .welcome), .run 0 .nobody, .drop, .run 1 .nobody, .run 1 .nobody, .run 1 .nobody,
    .run 1 .nobody]).conn = .off
    ∧ (exec (start 7) [.run 0 (.met 7 .welcome), .run 0 .nobody, .drop, .run 1 .nobody, .run 1 .nobody, .run 1 .nobody,
      .run 1 .nobody, .run 1 (.met 7 .welcome), .run 1 (.met 7 .welcome), .run 1 (.met 7 .welcome),
      .run 1 (.met 7 .welcome), .run 1 (.met 7 .welcome)]).conn = .up 7 := by decide

/-! ### Goroutines that wait for ever -/

/-- Goroutines that wait for a timer that is used up. -/
def State.leaked (s : State) : Nat := s.threads.count .stuck

theorem leaked_put {s : State} {i : Nat} {pc q : Pc} (hi : s.threads[i]? = some pc) (hp : pc ≠ .stuck) :
    s.leaked ≤ (s.put i q).leaked := by
  have hlt := (List.getElem?_eq_some_iff.1 hi).1
  have hget : s.threads[i] = pc := (List.getElem?_eq_some_iff.1 hi).2
  change List.count .stuck s.threads ≤ List.count .stuck (s.threads.set i q)
  rw [List.count_set hlt, hget]
  have : (pc == Pc.stuck) = false := by simpa using hp
  rw [this]
  simp

theorem goOnline_threads (s : State) (m : Meeting) : (goOnline s m).1.threads = s.threads := by
  rcases goOnline_cases s m with e | ⟨_, c, a, _, _, e⟩ | ⟨_, _, e⟩ | ⟨_, _, e⟩ <;> rw [e]

theorem leaked_step (s : State) (e : Ev) : s.leaked ≤ (step s e).leaked := by
  unfold step
  split
  · exact Nat.le_refl _
  · cases e with
    | run i m =>
      dsimp only
      cases hi : s.threads[i]? with
      | none => rw [List.getD_eq_getElem?_getD, hi]; exact Nat.le_refl _
      | some pc =>
        rw [List.getD_eq_getElem?_getD, hi]
        change s.leaked ≤ (advance s i m pc).leaked
        cases pc with
        | gone => exact Nat.le_refl _
        | stuck => exact Nat.le_refl _
        | dial =>
          unfold advance; dsimp only
          have ht := goOnline_threads s m
          rcases hg : goOnline s m with ⟨s', r⟩
          rw [hg] at ht
          dsimp only at ht
          have hi' : s'.threads[i]? = some .dial := by rw [ht]; exact hi
          have hl : s'.leaked = s.leaked := by unfold State.leaked; rw [ht]
          rw [← hl]
          cases r <;> exact leaked_put hi' (by decide)
        | trying =>
          unfold advance; dsimp only
          have ht := goOnline_threads s m
          rcases hg : goOnline s m with ⟨s', r⟩
          rw [hg] at ht
          dsimp only at ht
          have hi' : s'.threads[i]? = some .trying := by rw [ht]; exact hi
          have hl : s'.leaked = s.leaked := by unfold State.leaked; rw [ht]
          rw [← hl]
          cases r <;> exact leaked_put hi' (by decide)
        | greet =>
          unfold advance; dsimp only; split
          · exact leaked_put hi (by decide)
          · exact Nat.le_refl _
        | greeting =>
          unfold advance; dsimp only; split
          · exact leaked_put hi (by decide)
          · exact Nat.le_refl _
        | «show» => exact leaked_put (s := { s with shown := s.provisional }) hi (by decide)
        | top => exact leaked_put hi (by decide)
        | armed => exact leaked_put hi (by decide)
        | fired => exact leaked_put hi (by decide)
        | again => exact leaked_put hi (by decide)
        | dry => exact leaked_put hi (by decide)
    | online =>
      change List.count _ _ ≤ List.count _ (_ ++ _)
      rw [List.count_append]; exact Nat.le_add_right _ _
    | drop =>
      dsimp only; split
      · change List.count _ _ ≤ List.count _ (_ ++ _)
        rw [List.count_append]; exact Nat.le_add_right _ _
      · exact Nat.le_refl _
    | offline => dsimp only; split <;> exact Nat.le_refl _
    | accept => dsimp only; split <;> exact Nat.le_refl _
    | timeout => dsimp only; split <;> exact Nat.le_refl _
    | look => dsimp only; split <;> exact Nat.le_refl _
    | write =>
      dsimp only; split
      · split <;> exact Nat.le_refl _
      · exact Nat.le_refl _

theorem leaked_exec (s : State) (evs : List Ev) : s.leaked ≤ (exec s evs).leaked := by
  induction evs generalizing s with
  | nil => exact Nat.le_refl _
  | cons e evs ih => exact Nat.le_trans (leaked_step s e) (ih _)

/-- One connection lost and found again: the goroutine that found it waits for its timer once more and then for
ever. -/
def cycle (cert k : Nat) : List Ev :=
  [.drop, .run k .nobody, .run k .nobody, .run k .nobody, .run k (.met cert .welcome), .run k .nobody, .run k .nobody,
    .run k .nobody, .run k .nobody, .run k .nobody, .run k .nobody]

/-- An online client with goroutines `t`. -/
def upWith (cert : Nat) (t : List Pc) : State := { start cert with conn := .up cert, threads := t }

theorem put_last (s : State) (t : List Pc) (pc q : Pc) (h : s.threads = t ++ [pc]) :
    s.put t.length q = { s with threads := t ++ [q] } := by
  unfold State.put
  rw [h, List.set_append_right _ _ (Nat.le_refl _), Nat.sub_self]
  rfl

theorem step_last {s : State} (hc : s.crashed = false) {t : List Pc} {pc : Pc} (h : s.threads = t ++ [pc]) (m : Meeting) :
    step s (.run t.length m) = advance s t.length m pc :=
  step_run hc (by rw [h]; exact List.getElem?_concat_length) m

theorem cycle_exec (cert : Nat) (t : List Pc) : exec (upWith cert t) (cycle cert t.length) = upWith cert (t ++ [.stuck]) := by
  unfold cycle
  have hoff : ∀ pc q m, advance { start cert with threads := t ++ [pc] } t.length m pc
        = ({ start cert with threads := t ++ [pc] } : State).put t.length q →
      step { start cert with threads := t ++ [pc] } (.run t.length m) = { start cert with threads := t ++ [q] } := by
    intro pc q m h
    rw [step_last (s := { start cert with threads := t ++ [pc] }) rfl rfl m, h, put_last _ t pc q rfl]
  have hon : ∀ pc q m, advance (upWith cert (t ++ [pc])) t.length m pc = (upWith cert (t ++ [pc])).put t.length q →
      step (upWith cert (t ++ [pc])) (.run t.length m) = upWith cert (t ++ [q]) := by
    intro pc q m h
    rw [step_last (s := upWith cert (t ++ [pc])) rfl rfl m, h, put_last _ t pc q rfl]
    rfl
  have h1 : step (upWith cert t) .drop = { start cert with threads := t ++ [.top] } := rfl
  have h2 : step { start cert with threads := t ++ [.trying] } (.run t.length (.met cert .welcome))
      = upWith cert (t ++ [.greeting]) := by
    rw [step_last (s := { start cert with threads := t ++ [.trying] }) rfl rfl]
    unfold advance
    dsimp only
    have hg : goOnline { start cert with threads := t ++ [.trying] } (.met cert .welcome)
        = (upWith cert (t ++ [.trying]), .ok) := goOnline_welcome (s := { start cert with threads := t ++ [.trying] }) rfl
    rw [hg]
    dsimp only
    rw [put_last _ t .trying .greeting rfl]
    rfl
  rw [exec_cons, h1, exec_cons, hoff .top .armed .nobody rfl, exec_cons, hoff .armed .fired .nobody rfl, exec_cons,
    hoff .fired .trying .nobody rfl, exec_cons, h2, exec_cons, hon .greeting .again .nobody rfl, exec_cons,
    hon .again .top .nobody rfl, exec_cons, hon .top .armed .nobody rfl, exec_cons, hon .armed .fired .nobody rfl,
    exec_cons, hon .fired .dry .nobody rfl, exec_cons, hon .dry .stuck .nobody rfl]
  rfl

/-- C92: every connection lost and found again may leave a goroutine behind that never ends: after `n` of them there can
be `n`, and whatever happens then, there are no fewer. -/
theorem C92_leak_violated (cert n : Nat) :
    ∃ evs, (exec (start cert) evs).conn = .up cert ∧ ∀ more, n ≤ (exec (start cert) (evs ++ more)).leaked := by
  suffices h : ∃ evs t, exec (start cert) evs = upWith cert t ∧ List.count .stuck t = n by
    obtain ⟨evs, t, he, hn⟩ := h
    refine ⟨evs, by rw [he]; rfl, fun more => ?_⟩
    rw [exec_append, he]
    refine Nat.le_trans ?_ (leaked_exec _ more)
    exact Nat.le_of_eq hn.symm
  induction n with
  | zero =>
    refine ⟨[.run 0 (.met cert .welcome)], [.greet], ?_, rfl⟩
    change step (start cert) (.run 0 (.met cert .welcome)) = _
    rw [step_run (s := start cert) (pc := .dial) rfl rfl]
    unfold advance
    dsimp only
    have := goOnline_welcome (s := start cert) rfl
    have hcc : (start cert).cert = cert := rfl
    rw [hcc] at this
    rw [this]
    rfl
  | succ n ih =>
    obtain ⟨evs, t, he, hn⟩ := ih
    refine ⟨evs ++ cycle cert t.length, t ++ [.stuck], ?_, ?_⟩
    · rw [exec_append, he, cycle_exec]
    · rw [List.count_append, hn]; rfl

/-! ## C93: nothing uses a connection that is gone -/

/-- The claim in full: no execution uses `z.kx` after it was unset.  Refuted below. -/
def C93_full : Prop := ∀ cert evs, (exec (start cert) evs).crashed = false

/-- Someone has seen the client online and not used the connection yet. -/
def State.relied (s : State) : Bool :=
  s.sending || s.threads.contains .greet || s.threads.contains .greeting

/-- The connection is never lost while someone relies on it. -/
def Careful : State → List Ev → Prop
  | _, [] => True
  | s, e :: evs => (e = .drop → s.relied = false) ∧ Careful (step s e) evs

/-- Whoever relies on the connection finds it. -/
structure Held (s : State) : Prop where
  crashed : s.crashed = false
  conn : s.relied = true → s.conn.online = true

theorem relied_false {s : State} : s.relied = false ↔
    s.sending = false ∧ Pc.greet ∉ s.threads ∧ Pc.greeting ∉ s.threads := by
  unfold State.relied
  simp [and_assoc]

theorem held_of_online {s : State} (hc : s.crashed = false) (h : s.conn.online = true) : Held s := ⟨hc, fun _ => h⟩

theorem held_put {s : State} (h : Held s) (i : Nat) {q : Pc} (h1 : q ≠ .greet) (h2 : q ≠ .greeting) : Held (s.put i q) := by
  refine ⟨h.crashed, fun hr => ?_⟩
  by_contra ho
  have hrel : s.relied = false := by
    cases hx : s.relied with
    | false => rfl
    | true => exact absurd (h.conn hx) ho
  obtain ⟨r1, r2, r3⟩ := relied_false.1 hrel
  have : (s.put i q).relied = false := relied_false.2 ⟨r1,
    fun hm => (List.mem_or_eq_of_mem_set hm).elim r2 (fun e => h1 e.symm),
    fun hm => (List.mem_or_eq_of_mem_set hm).elim r3 (fun e => h2 e.symm)⟩
  rw [this] at hr; cases hr

theorem held_goOnline {s : State} (h : Held s) (m : Meeting) :
    (Held (goOnline s m).1) ∧ ((goOnline s m).2 = .ok → (goOnline s m).1.conn.online = true) := by
  rcases goOnline_cases s m with e | ⟨_, c, a, _, _, e⟩ | ⟨_, _, e⟩ | ⟨_, _, e⟩ <;> rw [e]
  · exact ⟨h, fun hx => by cases hx⟩
  · exact ⟨⟨h.crashed, h.conn⟩, fun hx => by cases hx⟩
  · exact ⟨⟨h.crashed, h.conn⟩, fun hx => by cases hx⟩
  · exact ⟨⟨h.crashed, fun _ => rfl⟩, fun _ => rfl⟩

theorem held_step {s : State} (h : Held s) {e : Ev} (he : e = .drop → s.relied = false) : Held (step s e) := by
  unfold step
  rw [if_neg (by rw [h.crashed]; exact Bool.false_ne_true)]
  cases e with
  | run i m =>
    dsimp only
    cases hi : s.threads[i]? with
    | none => rw [List.getD_eq_getElem?_getD, hi]; exact h
    | some pc =>
      rw [List.getD_eq_getElem?_getD, hi]
      have hmem : pc ∈ s.threads := List.mem_of_getElem? hi
      change Held (advance s i m pc)
      cases pc with
      | gone => exact h
      | stuck => exact h
      | dial =>
        unfold advance; dsimp only
        have hg := held_goOnline h m
        rcases hx : goOnline s m with ⟨s', r⟩
        rw [hx] at hg
        cases r with
        | ok => exact ⟨hg.1.crashed, fun _ => hg.2 rfl⟩
        | errCert => exact held_put hg.1 i (by decide) (by decide)
        | err => exact held_put hg.1 i (by decide) (by decide)
      | trying =>
        unfold advance; dsimp only
        have hg := held_goOnline h m
        rcases hx : goOnline s m with ⟨s', r⟩
        rw [hx] at hg
        cases r with
        | ok => exact ⟨hg.1.crashed, fun _ => hg.2 rfl⟩
        | errCert => exact held_put hg.1 i (by decide) (by decide)
        | err => exact held_put hg.1 i (by decide) (by decide)
      | greet =>
        have ho : s.conn.online = true := h.conn (by
          cases hx : s.relied with
          | true => rfl
          | false => exact absurd hmem (relied_false.1 hx).2.1)
        unfold advance; dsimp only; rw [if_pos ho]
        exact held_put h i (by decide) (by decide)
      | greeting =>
        have ho : s.conn.online = true := h.conn (by
          cases hx : s.relied with
          | true => rfl
          | false => exact absurd hmem (relied_false.1 hx).2.2)
        unfold advance; dsimp only; rw [if_pos ho]
        exact held_put h i (by decide) (by decide)
      | «show» => exact held_put (s := { s with shown := s.provisional }) ⟨h.crashed, h.conn⟩ i (by decide) (by decide)
      | top => unfold advance; dsimp only; split <;> exact held_put h i (by decide) (by decide)
      | armed => exact held_put h i (by decide) (by decide)
      | fired => unfold advance; dsimp only; split <;> exact held_put h i (by decide) (by decide)
      | again => exact held_put h i (by decide) (by decide)
      | dry => unfold advance; dsimp only; split <;> exact held_put h i (by decide) (by decide)
  | online =>
    refine ⟨h.crashed, fun hr => h.conn ?_⟩
    change (s.sending || (s.threads ++ [Pc.dial]).contains .greet || (s.threads ++ [Pc.dial]).contains .greeting) = true at hr
    unfold State.relied
    simpa using hr
  | drop =>
    dsimp only; split
    · refine ⟨h.crashed, fun hr => ?_⟩
      have hrel := he rfl
      have hr : (s.sending || (s.threads ++ [Pc.top]).contains .greet || (s.threads ++ [Pc.top]).contains .greeting) = true := hr
      obtain ⟨r1, r2, r3⟩ := relied_false.1 hrel
      simp [r1, r2, r3] at hr
    · exact h
  | offline =>
    dsimp only; split
    · exact held_of_online h.crashed rfl
    · exact ⟨h.crashed, h.conn⟩
  | accept =>
    dsimp only; split
    · exact ⟨h.crashed, h.conn⟩
    · exact h
  | timeout =>
    dsimp only; split
    · exact held_of_online h.crashed rfl
    · exact h
  | look =>
    dsimp only; split
    · rename_i ho; exact held_of_online h.crashed ho
    · exact h
  | write =>
    dsimp only; split
    · rename_i hsend
      have ho : s.conn.online = true := h.conn (by unfold State.relied; rw [hsend]; rfl)
      rw [if_pos ho]
      exact held_of_online h.crashed ho
    · exact h

/-- C93, what is missing: the connection must not be lost between the moment someone sees the client online and the
moment they use the connection.  Then nothing uses a connection that is gone. -/
theorem C93_held_partial (cert : Nat) (evs : List Ev) (h : Careful (start cert) evs) :
    (exec (start cert) evs).crashed = false := by
  suffices hx : ∀ (evs : List Ev) (s : State), Held s → Careful s evs → (exec s evs).crashed = false by
    refine hx evs _ ⟨rfl, fun hr => ?_⟩ h
    exact absurd hr (by simp [State.relied, start])
  intro evs
  induction evs with
  | nil => exact fun s hs _ => hs.crashed
  | cons e evs ih => exact fun s hs hc => ih _ (held_step hs hc.1) hc.2

/-- A message is being sent while the connection is lost. -/
theorem C93_send_violated : ¬ C93_full := by
  intro h
  have := h 7 [.run 0 (.met 7 .welcome), .run 0 .nobody, .look, .drop, .write]
  revert this
  decide

/-- The server closes the connection right after its welcome. -/
theorem C93_greet_violated : ¬ C93_full := by
  intro h
  have := h 7 [.run 0 (.met 7 .welcome), .drop, .run 0 .nobody]
  revert this
  decide

/-- A run in which connections come and go. -/
example : Careful (start 7) [.run 0 (.met 7 .welcome), .run 0 .nobody, .look, .timeout, .write, .drop, .look, .write] := by
  refine ⟨?_, ?_, ?_, ?_, ?_, ?_, ?_, ?_, trivial⟩ <;> decide

/-! ## C94: the certificate of the server -/

/-- A client talks only to a server that showed the certificate on record. -/
theorem pinned_step {s : State} (h : ∀ c, s.conn = .up c → c = s.cert) (e : Ev) :
    ∀ c, (step s e).conn = .up c → c = (step s e).cert := by
  unfold step
  split
  · exact h
  · cases e with
    | run i m =>
      dsimp only
      generalize s.threads.getD i .gone = pc
      have hg : ∀ c, (goOnline s m).1.conn = .up c → c = (goOnline s m).1.cert := by
        rcases goOnline_cases s m with e | ⟨_, c, a, _, _, e⟩ | ⟨_, _, e⟩ | ⟨_, _, e⟩ <;> rw [e]
        · exact h
        · exact h
        · exact h
        · intro c hc; cases hc; rfl
      cases pc with
      | dial =>
        unfold advance; dsimp only
        rcases hx : goOnline s m with ⟨s', r⟩
        rw [hx] at hg
        cases r <;> exact hg
      | trying =>
        unfold advance; dsimp only
        rcases hx : goOnline s m with ⟨s', r⟩
        rw [hx] at hg
        cases r <;> exact hg
      | greet => unfold advance; dsimp only; split <;> exact h
      | greeting => unfold advance; dsimp only; split <;> exact h
      | _ => exact h
    | online => exact h
    | offline =>
      dsimp only; split
      · intro c hc; cases hc
      · exact h
    | accept =>
      dsimp only; split
      · rename_i ho _
        intro c hc
        dsimp only at hc
        rw [hc] at ho; cases ho
      · exact h
    | timeout =>
      dsimp only; split
      · intro c hc; cases hc
      · exact h
    | drop =>
      dsimp only; split
      · intro c hc; cases hc
      · exact h
    | look => dsimp only; split <;> exact h
    | write =>
      dsimp only; split
      · split <;> exact h
      · exact h

/-- C94: a client that talks to a server talks to one that showed the certificate on record. -/
theorem C94_pinned (cert : Nat) (evs : List Ev) (c : Nat) (h : (exec (start cert) evs).conn = .up c) :
    c = (exec (start cert) evs).cert := by
  suffices hx : ∀ s : State, (∀ c, s.conn = .up c → c = s.cert) → (exec s evs).conn = .up c → c = (exec s evs).cert from
    hx _ (fun c hc => by cases hc) h
  clear h
  induction evs with
  | nil => exact fun s hs => hs c
  | cons e evs ih => exact fun s hs => ih _ (pinned_step hs e)

/-- C94: only `/acceptnewcert` changes the certificate on record, and only while the client is not online. -/
theorem C94_kept (s : State) (e : Ev) (h : (step s e).cert ≠ s.cert) :
    e = .accept ∧ s.conn = .off ∧ s.provisional = some (step s e).cert := by
  revert h
  unfold step
  split
  · exact fun h => absurd rfl h
  · cases e with
    | run i m =>
      dsimp only
      intro h
      exfalso
      apply h
      generalize s.threads.getD i .gone = pc
      have hg : (goOnline s m).1.cert = s.cert := by
        rcases goOnline_cases s m with e | ⟨_, c, a, _, _, e⟩ | ⟨_, _, e⟩ | ⟨_, _, e⟩ <;> rw [e]
      cases pc with
      | dial =>
        unfold advance; dsimp only
        rcases hx : goOnline s m with ⟨s', r⟩
        rw [hx] at hg
        cases r <;> exact hg
      | trying =>
        unfold advance; dsimp only
        rcases hx : goOnline s m with ⟨s', r⟩
        rw [hx] at hg
        cases r <;> exact hg
      | greet => unfold advance; dsimp only; split <;> rfl
      | greeting => unfold advance; dsimp only; split <;> rfl
      | _ => rfl
    | accept =>
      dsimp only
      split
      · rename_i c ho hp
        refine fun _ => ⟨rfl, ?_, hp⟩
        by_contra hne
        rw [(online_iff _).2 hne] at ho; cases ho
      · exact fun h => absurd rfl h
    | online => exact fun h => absurd rfl h
    | offline => dsimp only; split <;> exact fun h => absurd rfl h
    | timeout => dsimp only; split <;> exact fun h => absurd rfl h
    | drop => dsimp only; split <;> exact fun h => absurd rfl h
    | look => dsimp only; split <;> exact fun h => absurd rfl h
    | write =>
      dsimp only; split
      · split <;> exact fun h => absurd rfl h
      · exact fun h => absurd rfl h

/-- What waits to be accepted was printed, unless someone is about to print it. -/
def Told (s : State) : Prop := Pc.show ∉ s.threads → ∀ c, s.provisional = some c → s.shown = some c

theorem told_of {s s' : State} (h : Told s) (ht : ∀ pc ∈ s.threads, pc = .show → Pc.show ∈ s'.threads)
    (hp : s'.provisional = s.provisional) (hs : s'.shown = s.shown) : Told s' := by
  intro hn c hc
  rw [hs]
  exact h (fun hm => hn (ht _ hm rfl)) c (hp ▸ hc)

/-- Moving a goroutine that is not about to print. -/
theorem told_put {s : State} (h : Told s) {i : Nat} {pc q : Pc} (hi : s.threads[i]? = some pc) (hp : pc ≠ .show) :
    Told (s.put i q) := by
  refine told_of h (fun x hx hxs => ?_) rfl rfl
  subst hxs
  obtain ⟨j, hj⟩ := List.getElem?_of_mem hx
  have hij : i ≠ j := fun e => by
    subst e
    rw [hi] at hj
    exact hp (Option.some.inj hj)
  exact List.mem_of_getElem? (put_other (q := q) hij hj)

theorem told_go {s : State} (h : Told s) (m : Meeting) {i : Nat} {pc : Pc} (hi : s.threads[i]? = some pc) (hp : pc ≠ .show)
    (q q' : Pc) : Told (match goOnline s m with
      | (s', .ok) => s'.put i q
      | (s', .errCert) => s'.put i .show
      | (s', .err) => s'.put i q') := by
  rcases goOnline_cases s m with e | ⟨_, c, a, _, _, e⟩ | ⟨_, _, e⟩ | ⟨_, _, e⟩ <;> rw [e] <;> dsimp only
  · exact told_put h hi hp
  · intro hn
    exact absurd (List.mem_of_getElem? (put_get (s := { s with provisional := some c }) hi .show)) hn
  · exact told_put (s := { s with offline := true }) h hi hp
  · exact told_put (s := { s with conn := .up s.cert }) h hi hp

theorem told_step {s : State} (h : Told s) (e : Ev) : Told (step s e) := by
  unfold step
  split
  · exact h
  · cases e with
    | run i m =>
      dsimp only
      cases hi : s.threads[i]? with
      | none => rw [List.getD_eq_getElem?_getD, hi]; exact h
      | some pc =>
        rw [List.getD_eq_getElem?_getD, hi]
        change Told (advance s i m pc)
        cases pc with
        | gone => exact h
        | stuck => exact h
        | dial => exact told_go h m hi (by decide) .greet .gone
        | trying => exact told_go h m hi (by decide) .greeting .again
        | «show» => exact fun _ c hc => hc
        | greet =>
          unfold advance; dsimp only; split
          · exact told_put h hi (by decide)
          · exact h
        | greeting =>
          unfold advance; dsimp only; split
          · exact told_put h hi (by decide)
          · exact h
        | top => exact told_put h hi (by decide)
        | armed => exact told_put h hi (by decide)
        | fired => exact told_put h hi (by decide)
        | again => exact told_put h hi (by decide)
        | dry => exact told_put h hi (by decide)
    | online => exact told_of h (fun _ hx hs => List.mem_append_left _ (hs ▸ hx)) rfl rfl
    | offline => dsimp only; split <;> exact h
    | accept =>
      dsimp only; split
      · intro _ c hc; cases hc
      · exact h
    | timeout => dsimp only; split <;> exact h
    | drop =>
      dsimp only; split
      · exact told_of h (fun _ hx hs => List.mem_append_left _ (hs ▸ hx)) rfl rfl
      · exact h
    | look => dsimp only; split <;> exact h
    | write =>
      dsimp only; split
      · split <;> exact h
      · exact h

/-- The claim in full: the certificate that `/acceptnewcert` puts on record is the one whose fingerprint was printed
last.  Refuted below. -/
def C94_full : Prop :=
  ∀ cert evs s, s = exec (start cert) evs → (step s .accept).cert ≠ s.cert → s.shown = some (step s .accept).cert

/-- C94, what is missing: no goroutine may be about to print a fingerprint. -/
theorem C94_shown_partial (cert : Nat) (evs : List Ev) (s : State) (hs : s = exec (start cert) evs)
    (hn : Pc.show ∉ s.threads) (h : (step s .accept).cert ≠ s.cert) : s.shown = some (step s .accept).cert := by
  have ht : Told s := by
    rw [hs]
    suffices hx : ∀ s, Told s → Told (exec s evs) from hx _ (fun _ c hc => by cases hc)
    clear hs h hn
    induction evs with
    | nil => exact fun _ h => h
    | cons e evs ih => exact fun s h => ih _ (told_step h e)
  exact ht hn _ (C94_kept s .accept h).2.2

/-- Two goroutines try to reconnect; a stranger shows one certificate to the first and another to the second, and the
user accepts when only the first was printed. -/
theorem C94_shown_violated : ¬ C94_full := by
  intro h
  have := h 7 [.run 0 (.met 7 .welcome), .run 0 .nobody, .drop, .online, .run 2 (.met 7 .welcome), .run 2 .nobody, .drop,
    .run 1 .nobody, .run 1 .nobody, .run 1 .nobody, .run 3 .nobody, .run 3 .nobody, .run 3 .nobody,
    .run 1 (.met 8 .broken), .run 1 .nobody, .run 3 (.met 9 .broken)] _ rfl (by decide)
  revert this
  decide

/-- A certificate is shown and accepted, and the client talks to the server that has it. -/
example : (exec (start 7) [.run 0 (.met 8 .broken), .run 0 .nobody, .accept, .online, .run 1 (.met 8 .welcome)]).conn = .up 8
    ∧ (exec (start 7) [.run 0 (.met 8 .broken), .run 0 .nobody]).shown = some 8 := by decide

end Verif.Reconnect
