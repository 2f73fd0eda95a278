import Verif.Proofs.Contact

/-! C71: making contact. C72: messages between two clients.

Model: Verif.Model.Contact (/repo/zkclient/zkclient.go, push.go, reset.go, identity.go, msg.go, addressbook.go). -/

namespace Verif.Contact

open Verif Verif.Ratchet

/-! ## C71 -/

/-- Nothing is on its way, no lookup is awaited. -/
def Rest (s : State) : Prop := ∀ w, s.q w = [] ∧ (s.side w).pending = false

/-- Neither has heard of the other. -/
def Strangers (s : State) : Prop :=
  ∀ w, (s.side w).known = false ∧ (s.side w).inBook = false ∧ (s.side w).half = none ∧ (s.side w).full = none

/-- Each has the other in the address book and a ratchet, and whatever one writes the other is shown. -/
def Contacts (K : Bool → Nat) (s : State) : Prop :=
  ∀ w, (s.side w).known = true ∧ (s.side w).inBook = true ∧ (s.side w).half = none ∧ (s.side w).full.isSome = true ∧
    ∀ priv hn mn msg now rd,
      ((step K (step K s (.send w priv hn mn msg)) (.recv (!w) now rd)).side (!w)).shown = (s.side (!w)).shown ++ [msg]

/-- Whenever polite users are at rest, they are strangers or contacts. -/
theorem C71_agree_partial {K : Bool → Nat} {s : State} (h : Reach K s)
    (hlen : (s.side true).sent.length + (s.side false).sent.length + 2 < u32) (hr : Rest s) :
    Strangers s ∨ Contacts K s := by
  have ht : total s + 2 < u32 := hlen
  obtain ⟨hp, -⟩ := phase_reach h (by omega)
  cases hp with
  | idle hd hn w hp => exact .inl fun v => ⟨(hn v).2.2.2.1, (hn v).2.2.1, (hn v).1, (hn v).2.1⟩
  | resetting w a pa pb ra rb c L hc hr' hl hw ho hq hL hd =>
    rw [(hr _).1] at hq
    simp at hq
  | offered v pa ra bl junk hc hv ho hq hj hj' =>
    rw [(hr _).1] at hq
    simp at hq
  | answered v pa pb ra rb bl c L hc hr' hl hv ho hq' hq hL hL' hst =>
    rw [(hr _).1] at hq
    cases hq
  | talking a pa pb ra rb c hc hr' hl hs hL =>
    right
    intro w
    refine ⟨(hs w).1, (hs w).2.2.1, (hs w).2.1, by rw [(hs w).2.2.2]; rfl, ?_⟩
    intro priv hn mn msg now rd
    obtain ⟨ct, c', h1, h2, h3, h4, h5, h6⟩ := live_send (x := role a w) hr' (by omega) priv hn mn msg
    have h7 := h6 [] (by rw [← role_not, ← (hr (!w)).1]; exact hL _)
    obtain ⟨ct', msg', c'', e1, e2, -⟩ := live_recv h2 (by omega) h7 now
    simp only [Item.data.injEq] at e1
    obtain ⟨rfl, rfl⟩ := e1
    rw [h4, ← role_not] at e2
    have hs1 : step K s (.send w priv hn mn msg) = s.put w
        { s.side w with full := some (c'.st (role a w)), sent := (s.side w).sent ++ [msg] } [.data ct msg] := by
      simp only [step, cacheCRPC_live (hs w).2.2.2 h1]
    rw [hs1, step_recv (it := .data ct msg) (rest := []) (by simp [(hr (!w)).1]), put_side_self, put_side_not,
      handle_live (hs (!w)).1 (hs (!w)).2.2.2 e2]

/-- Deliveries by the server, `n` in all. -/
inductive Deliveries (K : Bool → Nat) : State → Nat → State → Prop
  | none {s} : Deliveries K s 0 s
  | one {s n t w now rd} : Deliveries K s n t → t.q w ≠ [] → Deliveries K s (n + 1) (step K t (.recv w now rd))

/-- How many messages one message can entail, itself included. -/
def weight : Item → Nat
  | .reset => 3
  | .idkx _ _ _ => 2
  | _ => 1

def weights (s : State) : Nat := ((s.q true).map weight).sum + ((s.q false).map weight).sum

theorem step1_weight (a b : Nat) (S : Side) (rd : Rand) : (((step1 a b S rd).2).map weight).sum ≤ 2 := by
  simp only [step1, fill_eq]
  split <;> simp [weight]

theorem handle_weight (a b : Nat) (S : Side) (now : Int) (rd : Rand) (it : Item) :
    (((handle a b S now rd it).2).map weight).sum < weight it := by
  have hpos : 0 < weight it := by cases it <;> simp [weight]
  unfold handle
  split
  · next h =>
    subst h
    split
    · exact Nat.lt_succ_of_le (step1_weight ..)
    · simp [weight]
  · split
    · cases it with
      | idkx pk r x =>
        simp only [step2, fill_eq]
        split
        · split <;> simp [weight]
        · simp [weight]
      | kx k x => simp [step2, weight]
      | reset => simp [step2, weight]
      | data ct m => simp [step2, weight]
    · split <;> simpa using hpos

theorem weights_put (s : State) (w : Bool) (S : Side) (o : List Item) :
    weights (s.put w S o) = weights s + (o.map weight).sum := by
  cases w <;> simp [weights, State.put, upd] <;> omega

theorem weights_pop (s : State) (w : Bool) {it : Item} {rest : List Item} (h : s.q w = it :: rest) :
    weights (pop s w rest) + weight it = weights s := by
  cases w <;> simp [weights, pop, upd, h] <;> omega

theorem weight_le (l : List Item) : (l.map weight).sum ≤ 3 * l.length := by
  induction l with
  | nil => simp
  | cons it l ih =>
    have : weight it ≤ 3 := by cases it <;> simp [weight]
    simp only [List.map_cons, List.sum_cons, List.length_cons]
    omega

theorem deliveries_weight {K : Bool → Nat} {s t : State} {n : Nat} (h : Deliveries K s n t) :
    n + weights t ≤ weights s := by
  induction h with
  | none => omega
  | @one n t w now rd _ hne ih =>
    rcases hq : t.q w with _ | ⟨it, rest⟩
    · exact absurd hq hne
    · rw [step_recv hq, weights_put]
      have h1 := weights_pop t w hq
      have h2 := handle_weight (K w) (K !w) (t.side w) now rd it
      omega

/-- Deliveries come to an end, in any state, whatever the order: the clients do not keep answering each other. -/
theorem C71_drains {K : Bool → Nat} {s t : State} {n : Nat} (h : Deliveries K s n t) :
    n ≤ 3 * ((s.q true).length + (s.q false).length) := by
  have h1 := deliveries_weight h
  have h2 := weight_le (s.q true)
  have h3 := weight_le (s.q false)
  unfold weights at h1
  omega

theorem known_step {K : Bool → Nat} {s : State} {e : Ev} {w : Bool} (hd : ∀ v, (s.side v).dels = 0)
    (h : (s.side w).known = true) : ((step K s e).side w).known = true := by
  have put {v : Bool} {S : Side} {o : List Item} {t : State} (ht : t.side = s.side)
      (hS : (s.side v).known = true → S.known = true) : ((t.put v S o).side w).known = true := by
    rcases bool_cases v w with rfl | rfl
    · rw [put_side_self]; exact hS h
    · rw [put_side_not, ht]; exact h
  have hs1 (a b : Nat) (S : Side) (rd : Rand) (hS : S.known = true) : (step1 a b S rd).1.known = true := by
    simp only [step1, fill_eq]
    split
    · exact hS
    · rfl
  cases e with
  | find v =>
    simp only [step]
    split
    · exact h
    · exact put rfl id
  | found v rd =>
    simp only [step]
    split
    · exact put rfl fun hS => hs1 _ _ { s.side v with pending := false } _ hS
    · exact h
  | send v priv hn mn msg =>
    simp only [step]
    split
    · next S it hs =>
      obtain ⟨f, ct, f', _, _, rfl, rfl⟩ := cacheCRPC_some hs
      exact put rfl id
    · exact h
  | del v priv hn mn msg =>
    simp only [step]
    split
    · split
      · next S it hs =>
        obtain ⟨f, ct, f', _, _, rfl, rfl⟩ := cacheCRPC_some hs
        exact put rfl id
      · exact h
    · exact h
  | reset v =>
    simp only [step]
    split
    · split <;> exact put rfl id
    · exact h
  | delDone v => simp only [step, hd v, if_true]; exact h
  | recv v now rd =>
    rcases hq : s.q v with _ | ⟨it, rest⟩
    · rw [step_recv_nil hq]; exact h
    · rw [step_recv hq]
      refine put rfl fun hS => ?_
      unfold handle
      repeat' split
      · exact hs1 _ _ { s.side v with half := none, full := none } _ hS
      · unfold step2; repeat' split
        all_goals first | exact hS | rfl
      · unfold step3; repeat' split
        all_goals exact hS
      · unfold open_; split <;> exact hS

theorem phase_dels {K : Bool → Nat} {s : State} (h : Phase K s) (w : Bool) : (s.side w).dels = 0 := by
  cases h with
  | idle hd hn w0 hp0 => exact hd w
  | resetting w0 a pa pb ra rb c L hc => exact (hc w).1
  | offered v pa ra bl junk hc hv => exact (hc w).1
  | answered v pa pb ra rb bl c L hc hr hl hv => exact (hc w).1
  | talking a pa pb ra rb c hc hr hl hs hL => exact (hc w).1

theorem runs_trans {K : Bool → Nat} {ok : State → Ev → Prop} {s t u : State} (h : Runs K ok s t) (h' : Runs K ok t u) :
    Runs K ok s u := by
  induction h' with
  | refl => exact h
  | tail e _ ho ih => exact .tail e ih ho

theorem known_runs {K : Bool → Nat} {s t : State} {w : Bool} (h0 : Reach K s) (h : Runs K Polite s t)
    (hk : (s.side w).known = true) : total t + 1 < u32 → (t.side w).known = true := by
  induction h with
  | refl => exact fun _ => hk
  | @tail t e hr ho ih =>
    intro hlen
    have := total_step K t e
    exact known_step (phase_dels (phase_reach (runs_trans h0 hr) (by omega)).1) (ih (by omega))

/-- Once the directory has answered, whatever else polite users do and in whatever order messages are delivered, they
are contacts when they are at rest. -/
theorem C71_find_partial {K : Bool → Nat} {s t : State} {w : Bool} {rd : Rand} (h : Reach K s)
    (hp : (s.side w).pending = true) (hr : Runs K Polite (step K s (.found w rd)) t) (ht : Rest t)
    (hlen : (t.side true).sent.length + (t.side false).sent.length + 2 < u32) : Contacts K t := by
  have h1 : Reach K (step K s (.found w rd)) := .tail _ h trivial
  have h2 : total t + 2 < u32 := hlen
  have hk : ((step K s (.found w rd)).side w).known = true := by
    simp only [step, hp, if_true, put_side_self, step1, fill_eq]
    split
    · next he => simp only [Side.exists_, Bool.and_eq_true] at he; exact he.1
    · rfl
  rcases C71_agree_partial (runs_trans h1 hr) hlen ht with hs | hs
  · have := known_runs h1 hr hk (by omega)
    rw [(hs w).1] at this
    cases this
  · exact hs

/-- The same after a reset of users who are contacts. -/
theorem C71_reset_partial {K : Bool → Nat} {s t : State} {w : Bool} (h : Reach K s) (hb : ¬ Busy s) (hc : Contacts K s)
    (hr : Runs K Polite (step K s (.reset w)) t) (ht : Rest t)
    (hlen : (t.side true).sent.length + (t.side false).sent.length + 2 < u32) :
    Contacts K t ∧ ((step K s (.reset w)).side w).full = none ∧ (step K s (.reset w)).q (!w) = s.q (!w) ++ [.reset] := by
  have h1 : Reach K (step K s (.reset w)) := .tail _ h hb
  have h2 : total t + 2 < u32 := hlen
  have hs := hc w
  have e : step K s (.reset w) = s.put w { s.side w with half := none, full := none, resets := (s.side w).resets + 1 }
      [.reset] := by
    simp only [step, hs.2.1, if_true, hs.2.2.2.1]
  refine ⟨?_, by rw [e]; simp, by rw [e]; simp⟩
  rcases C71_agree_partial (runs_trans h1 hr) hlen ht with hs' | hs'
  · have := known_runs (w := w) h1 hr (by rw [e]; simpa using hs.1) (by omega)
    rw [(hs' w).1] at this
    cases this
  · exact hs'

/-! ### Witnesses -/

/-- Two KEM key pairs. -/
def K12 : Bool → Nat := fun w => if w then 1 else 2

def exec (s : State) (es : List Ev) : State := es.foldl (step K12) s

/-- No restriction. -/
def anyEv : State → Ev → Prop := fun _ _ => True

theorem runs_any' {s0 s : State} (es : List Ev) (h0 : Runs K12 anyEv s0 s) : Runs K12 anyEv s0 (exec s es) := by
  induction es generalizing s with
  | nil => exact h0
  | cons e es ih => exact ih (.tail e h0 trivial)

theorem runs_any (s : State) (es : List Ev) : Runs K12 anyEv s (exec s es) := runs_any' es .refl

/-- Is it a message other than an encrypted one? -/
def isOther : Item → Bool
  | .data _ _ => false
  | _ => true

def busyB (s : State) : Bool :=
  [true, false].any fun w => (s.side w).pending || (s.side w).half.isSome || (s.q w).any isOther

theorem not_busy {s : State} (h : busyB s = false) : ¬ Busy s := by
  rintro ⟨w, hw⟩
  have h1 : ((s.side w).pending || (s.side w).half.isSome || (s.q w).any isOther) = false := by
    simp only [busyB, List.any_eq_false] at h
    simpa using h w (by cases w <;> simp)
  simp only [Bool.or_eq_false_iff, List.any_eq_false] at h1
  obtain ⟨⟨a, b⟩, c⟩ := h1
  rcases hw with hw | hw | ⟨it, hi, hw⟩
  · rw [a] at hw; cases hw
  · rw [b] at hw; cases hw
  · have := c it hi
    cases it with
    | data ct m => exact hw
    | idkx pk r x => exact this rfl
    | kx k x => exact this rfl
    | reset => exact this rfl

def politeB (s : State) : Ev → Bool
  | .find _ => !busyB s
  | .reset _ => !busyB s
  | .del _ _ _ _ _ => false
  | _ => true

theorem polite_of {s : State} {e : Ev} (h : politeB s e = true) : Polite s e := by
  cases e with
  | find w => exact not_busy (by simpa [politeB] using h)
  | reset w => exact not_busy (by simpa [politeB] using h)
  | del w priv hn mn msg => cases h
  | found w rd => trivial
  | send w priv hn mn msg => trivial
  | delDone w => trivial
  | recv w now rd => trivial

def politeAll : State → List Ev → Bool
  | _, [] => true
  | s, e :: es => politeB s e && politeAll (step K12 s e) es

theorem runs_polite {s0 s : State} (es : List Ev) (h0 : Runs K12 Polite s0 s) (h : politeAll s es = true) :
    Runs K12 Polite s0 (exec s es) := by
  induction es generalizing s with
  | nil => exact h0
  | cons e es ih =>
    simp only [politeAll, Bool.and_eq_true] at h
    exact ih (.tail e h0 (polite_of h.1)) h.2

theorem reach_polite (es : List Ev) (h : politeAll init es = true) : Reach K12 (exec init es) :=
  runs_polite es .refl h

/-- `true` looks `false` up, and the key exchange takes its course. -/
def meet : List Ev := [.find true, .found true ⟨11, 12, 13⟩, .recv false 0 ⟨21, 22, 23⟩, .recv true 0 ⟨31, 32, 33⟩]

/-- The theorems speak of this; and of a reset with messages of both on the way, which is carried out politely. -/
example : Reach K12 (exec init meet) ∧ Contacts K12 (exec init meet) := by
  have h := reach_polite meet (by decide +kernel)
  refine ⟨h, (C71_agree_partial h (by decide +kernel) ?_).resolve_left ?_⟩
  · intro w; cases w <;> decide +kernel
  · intro hs; exact absurd (hs true).1 (by decide +kernel)

/-- Written by both before and during a reset. -/
def chat : List Ev := meet ++ [.send true 40 41 42 [1], .send false 43 44 45 [2], .recv false 0 ⟨0, 0, 0⟩, .reset true,
  .send false 46 47 48 [3], .recv true 0 ⟨0, 0, 0⟩, .recv false 0 ⟨51, 52, 53⟩, .recv true 0 ⟨0, 0, 0⟩,
  .recv true 0 ⟨61, 62, 63⟩, .recv false 0 ⟨0, 0, 0⟩, .send false 70 71 72 [4], .recv true 0 ⟨0, 0, 0⟩]

example : Reach K12 (exec init chat) ∧ Contacts K12 (exec init chat) ∧ ((exec init chat).side false).shown = [[1]] := by
  have h := reach_polite chat (by decide +kernel)
  refine ⟨h, (C71_agree_partial h (by decide +kernel) ?_).resolve_left ?_, by decide +kernel⟩
  · intro w; cases w <;> decide +kernel
  · intro hs; exact absurd (hs true).1 (by decide +kernel)

/-- Three messages follow from one reset, as many as `C71_drains` allows. -/
example : ∃ s t, Deliveries K12 s 3 t ∧ (s.q true).length + (s.q false).length = 1 ∧ Rest t := by
  refine ⟨exec init (meet ++ [.reset true]), _, .one (w := false) (now := 0) (rd := ⟨1, 2, 3⟩)
    (.one (w := true) (now := 0) (rd := ⟨4, 5, 6⟩) (.one (w := false) (now := 0) (rd := ⟨7, 8, 9⟩) .none
      (by decide +kernel)) (by decide +kernel)) (by decide +kernel), by decide +kernel, ?_⟩
  intro w; cases w <;> decide +kernel

/-! ### Violations -/

/-- Both have a half ratchet, and neither has the other in its address book. -/
def Crossed (s : State) : Prop :=
  ∀ v, (s.side v).known = true ∧ (s.side v).half.isSome = true ∧ (s.side v).full = none ∧ (s.side v).inBook = false ∧
    (s.side v).dels = 0 ∧ ∀ it ∈ s.q v, ∃ pk r x, it = .idkx pk r x

theorem crossed_step {K : Bool → Nat} {s : State} (h : Crossed s) (e : Ev) : Crossed (step K s e) := by
  have put {w : Bool} {S : Side} {o : List Item} (h1 : S.known = true ∧ S.half.isSome = true ∧ S.full = none ∧
      S.inBook = false ∧ S.dels = 0) (h2 : ∀ it ∈ o, ∃ pk r x, it = .idkx pk r x) : Crossed (s.put w S o) := by
    intro v
    rcases bool_cases w v with rfl | rfl
    · simp only [put_side_self, put_q_self]
      exact ⟨h1.1, h1.2.1, h1.2.2.1, h1.2.2.2.1, h1.2.2.2.2, (h v).2.2.2.2.2⟩
    · simp only [put_side_not, put_q_not]
      obtain ⟨a1, a2, a3, a4, a5, a6⟩ := h (!w)
      refine ⟨a1, a2, a3, a4, a5, ?_⟩
      intro it hi
      rcases List.mem_append.mp hi with hi | hi
      · exact a6 it hi
      · exact h2 it hi
  cases e with
  | find w =>
    simp only [step]
    split
    · exact h
    · obtain ⟨a1, a2, a3, a4, a5, -⟩ := h w
      exact put ⟨a1, a2, a3, a4, a5⟩ (by simp)
  | found w rd =>
    simp only [step]
    split
    · obtain ⟨a1, a2, a3, a4, a5, -⟩ := h w
      have e1 : ({ s.side w with pending := false } : Side).exists_ = true := by simp [Side.exists_, a1, a2]
      simp only [step1, fill_eq, e1, if_true]
      exact put ⟨a1, a2, a3, a4, a5⟩ (by simp)
    · exact h
  | send w priv hn mn msg => simp only [step, cacheCRPC_none (h w).2.2.1]; exact h
  | reset w => simp only [step, (h w).2.2.2.1]; exact h
  | del w priv hn mn msg => simp only [step, (h w).2.2.2.1]; exact h
  | delDone w => simp only [step, (h w).2.2.2.2.1, if_true]; exact h
  | recv w now rd =>
    rcases hq : s.q w with _ | ⟨it, rest⟩
    · rw [step_recv_nil hq]; exact h
    · obtain ⟨a1, a2, a3, a4, a5, a6⟩ := h w
      obtain ⟨pk, r, x, rfl⟩ := a6 it (by rw [hq]; simp)
      have e1 : (s.side w).exists_ = true := by simp [Side.exists_, a1, a2]
      have e2 : handle (K w) (K !w) (s.side w) now rd (.idkx pk r x) = (s.side w, []) := by
        simp only [handle, reduceCtorEq, if_false, e1, Bool.true_eq_false, a3, step3]
      rw [step_recv hq, e2]
      intro v
      rcases bool_cases w v with rfl | rfl
      · simp only [put_side_self, put_q_self, pop_q_self]
        exact ⟨a1, a2, a3, a4, a5, fun i hi => a6 i (by rw [hq]; exact List.mem_cons_of_mem _ hi)⟩
      · simp only [put_side_not, put_q_not, pop_q_not, pop_side, List.append_nil]
        exact h (!w)

/-- Two users who look each other up at the same time never become contacts: whatever either of them does from then
on, neither gets a ratchet or an entry in the address book. -/
theorem C71_crossing_finds_violated : ∃ s, Runs K12 anyEv init s ∧ Rest s ∧
    s = exec init [.find true, .find false, .found true ⟨11, 12, 13⟩, .found false ⟨21, 22, 23⟩,
      .recv true 0 ⟨0, 0, 0⟩, .recv false 0 ⟨0, 0, 0⟩] ∧
    ∀ t, Runs K12 anyEv s t → ∀ w, (t.side w).full = none ∧ (t.side w).inBook = false := by
  refine ⟨_, runs_any _ _, ?_, rfl, ?_⟩
  · intro w; cases w <;> decide +kernel
  · intro t ht
    have : Crossed t := by
      induction ht with
      | refl =>
        intro v
        cases v <;> refine ⟨by decide +kernel, by decide +kernel, by decide +kernel, by decide +kernel,
          by decide +kernel, ?_⟩
        · intro it hi
          have : (exec init [.find true, .find false, .found true ⟨11, 12, 13⟩, .found false ⟨21, 22, 23⟩,
            .recv true 0 ⟨0, 0, 0⟩, .recv false 0 ⟨0, 0, 0⟩]).q false = [] := by decide +kernel
          rw [this] at hi; cases hi
        · intro it hi
          have : (exec init [.find true, .find false, .found true ⟨11, 12, 13⟩, .found false ⟨21, 22, 23⟩,
            .recv true 0 ⟨0, 0, 0⟩, .recv false 0 ⟨0, 0, 0⟩]).q true = [] := by decide +kernel
          rw [this] at hi; cases hi
      | tail e _ _ ih => exact crossed_step ih e
    intro w
    exact ⟨(this w).2.2.1, (this w).2.2.2.1⟩

/-- Both have the other in the address book and no ratchet, and nothing is on its way. -/
def Lost (s : State) : Prop :=
  ∀ v, (s.side v).full = none ∧ (s.side v).inBook = true ∧ (s.side v).pending = false ∧ (s.side v).dels = 0 ∧
    s.q v = []

theorem lost_step {K : Bool → Nat} {s : State} (h : Lost s) (e : Ev) : Lost (step K s e) := by
  cases e with
  | find w => simp only [step, (h w).2.1, Bool.true_or, if_true]; exact h
  | found w rd => simp only [step, (h w).2.2.1]; exact h
  | send w priv hn mn msg => simp only [step, cacheCRPC_none (h w).1]; exact h
  | del w priv hn mn msg => simp only [step, cacheCRPC_none (h w).1]; split <;> exact h
  | delDone w => simp only [step, (h w).2.2.2.1, if_true]; exact h
  | recv w now rd => rw [step_recv_nil (h w).2.2.2.2]; exact h
  | reset w =>
    simp only [step, (h w).2.1, if_true, (h w).1]
    intro v
    rcases bool_cases w v with rfl | rfl
    · simpa using (h v).2.2
    · simpa using h (!w)

/-- Two contacts who reset at the same time lose each other: whatever either does from then on, neither gets a ratchet
again; looking the other up, resetting and deleting are all refused. -/
theorem C71_crossing_resets_violated : ∃ s, Reach K12 s ∧ Contacts K12 s ∧ Rest s ∧
    ∃ s', s' = exec s [.reset true, .reset false, .recv true 0 ⟨11, 12, 13⟩, .recv false 0 ⟨21, 22, 23⟩,
      .recv true 0 ⟨0, 0, 0⟩, .recv false 0 ⟨0, 0, 0⟩] ∧
    ∀ t, Runs K12 anyEv s' t → ∀ w, (t.side w).full = none ∧ t.q w = [] := by
  have h := reach_polite meet (by decide +kernel)
  have hr : Rest (exec init meet) := by intro w; cases w <;> decide +kernel
  refine ⟨exec init meet, h, (C71_agree_partial h (by decide +kernel) hr).resolve_left ?_, hr, _, rfl, ?_⟩
  · intro hs; exact absurd (hs true).1 (by decide +kernel)
  · intro t ht
    have : Lost t := by
      induction ht with
      | refl => intro v; cases v <;> decide +kernel
      | tail e _ _ ih => exact lost_step ih e
    intro w
    exact ⟨(this w).1, (this w).2.2.2.2⟩

theorem shown_step {K : Bool → Nat} {s : State} {e : Ev} {w : Bool} (h : (s.side w).full = none) :
    ((step K s e).side w).shown = (s.side w).shown := by
  have put {v : Bool} {S : Side} {o : List Item} {t : State} (ht : t.side = s.side)
      (hS : (s.side v).full = none → S.shown = (s.side v).shown) : ((t.put v S o).side w).shown = (s.side w).shown := by
    rcases bool_cases v w with rfl | rfl
    · rw [put_side_self]; exact hS h
    · rw [put_side_not, ht]
  cases e with
  | find v =>
    simp only [step]
    split
    · rfl
    · exact put rfl fun _ => rfl
  | found v rd =>
    simp only [step]
    split
    · exact put rfl fun _ => (step1_record (K v) (K !v) { s.side v with pending := false } rd).shown
    · rfl
  | send v priv hn mn msg =>
    simp only [step]
    split
    · next S it hs =>
      obtain ⟨f, ct, f', _, _, rfl, rfl⟩ := cacheCRPC_some hs
      exact put rfl fun _ => rfl
    · rfl
  | del v priv hn mn msg =>
    simp only [step]
    split
    · split
      · next S it hs =>
        obtain ⟨f, ct, f', _, _, rfl, rfl⟩ := cacheCRPC_some hs
        exact put rfl fun _ => rfl
      · rfl
    · rfl
  | reset v =>
    simp only [step]
    split
    · split <;> exact put rfl fun _ => rfl
    · rfl
  | delDone v =>
    simp only [step]
    split
    · rfl
    · exact put rfl fun _ => rfl
  | recv v now rd =>
    rcases hq : s.q v with _ | ⟨it, rest⟩
    · rw [step_recv_nil hq]
    · rw [step_recv hq]
      exact put rfl fun hf => handle_shown_none hf

/-- `b` still has a ratchet with somebody who deleted them. -/
def Deleted (b : Bool) (s : State) : Prop :=
  ((s.side (!b)).full = none ∧ (s.side (!b)).inBook = false ∧ (s.side (!b)).dels = 0 ∧ ∀ it ∈ s.q (!b), IsData it) ∧
  ((s.side b).known = true ∧ (s.side b).full.isSome = true ∧ (s.side b).inBook = true ∧ (s.side b).dels = 0 ∧
    (s.side b).pending = false ∧ .reset ∉ s.q b)

/-- `b` neither resets nor deletes. -/
def Leaves (b : Bool) : State → Ev → Prop
  | _, .reset w => w ≠ b
  | _, .del w _ _ _ _ => w ≠ b
  | _, _ => True

theorem deleted_step {K : Bool → Nat} {b : Bool} {s : State} (h : Deleted b s) (e : Ev) (ho : Leaves b s e) :
    Deleted b (step K s e) := by
  obtain ⟨⟨a1, a2, a3, a4⟩, b1, b2, b3, b4, b5, b6⟩ := h
  have h : Deleted b s := ⟨⟨a1, a2, a3, a4⟩, b1, b2, b3, b4, b5, b6⟩
  have putA {S : Side} {o : List Item} (h1 : S.full = none ∧ S.inBook = false ∧ S.dels = 0) (h2 : Item.reset ∉ o) :
      Deleted b (s.put (!b) S o) := by
    refine ⟨by simpa using ⟨h1.1, h1.2.1, h1.2.2, a4⟩, ?_⟩
    simp only [put_side_not', put_q_not']
    refine ⟨b1, b2, b3, b4, b5, ?_⟩
    simpa using ⟨b6, h2⟩
  cases e with
  | find w =>
    simp only [step]
    split
    · exact h
    · next hc =>
      rcases bool_cases b w with rfl | rfl
      · simp [b3] at hc
      · exact putA ⟨a1, a2, a3⟩ (by simp)
  | found w rd =>
    simp only [step]
    split
    · next hc =>
      rcases bool_cases b w with rfl | rfl
      · simp [b5] at hc
      · simp only [step1, fill_eq]
        split
        · exact putA ⟨a1, a2, a3⟩ (by simp)
        · exact putA ⟨a1, a2, a3⟩ (by simp)
    · exact h
  | send w priv hn mn msg =>
    rcases bool_cases b w with rfl | rfl
    · simp only [step]
      split
      · next S it hs =>
        obtain ⟨f, ct, f', _, _, rfl, rfl⟩ := cacheCRPC_some hs
        refine ⟨?_, by simpa using ⟨b1, b3, b4, b5, b6⟩⟩
        simp only [put_side_not, put_q_not]
        refine ⟨a1, a2, a3, ?_⟩
        intro it hi
        rcases List.mem_append.mp hi with hi | hi
        · exact a4 it hi
        · exact ⟨_, _, List.mem_singleton.mp hi⟩
      · exact h
    · simp only [step, cacheCRPC_none a1]; exact h
  | reset w =>
    rcases bool_cases b w with rfl | rfl
    · exact absurd rfl ho
    · simp only [step, a2]; exact h
  | del w priv hn mn msg =>
    rcases bool_cases b w with rfl | rfl
    · exact absurd rfl ho
    · simp only [step, a2]; exact h
  | delDone w =>
    rcases bool_cases b w with rfl | rfl
    · simp only [step, b4, if_true]; exact h
    · simp only [step, a3, if_true]; exact h
  | recv w now rd =>
    rcases hq : s.q w with _ | ⟨it, rest⟩
    · rw [step_recv_nil hq]; exact h
    · rw [step_recv hq]
      rcases bool_cases b w with rfl | rfl
      · have hi : it ≠ .reset := by rintro rfl; exact b6 (by rw [hq]; simp)
        obtain ⟨f, hf⟩ := Option.isSome_iff_exists.mp b2
        have e1 : (s.side w).exists_ = true := by simp [Side.exists_, b1, b2]
        have e2 : handle (K w) (K !w) (s.side w) now rd it = (open_ (s.side w) f now it, []) := by
          simp only [handle, hi, if_false, e1, Bool.true_eq_false, hf]
        rw [e2]
        refine ⟨by simpa using ⟨a1, a2, a3, a4⟩, ?_⟩
        simp only [put_side_self, put_q_self, pop_q_self]
        have b6' : Item.reset ∉ rest := fun hm => b6 (by rw [hq]; exact List.mem_cons_of_mem _ hm)
        unfold open_
        split
        · exact ⟨b1, rfl, b3, b4, b5, b6'⟩
        · exact ⟨b1, b2, b3, b4, b5, b6'⟩
      · obtain ⟨ct, m, rfl⟩ := a4 it (by rw [hq]; simp)
        have e2 : handle (K !b) (K !!b) (s.side (!b)) now rd (.data ct m) = (s.side (!b), []) := by
          simp only [handle, reduceCtorEq, if_false, a1, step2, step3]
          split <;> rfl
        rw [e2]
        refine ⟨?_, by simpa using ⟨b1, b2, b3, b4, b5, b6⟩⟩
        simp only [put_side_self, put_q_self, pop_q_self]
        exact ⟨a1, a2, a3, fun i hi => a4 i (by rw [hq]; exact List.mem_cons_of_mem _ hi)⟩

/-- Somebody who deleted a contact cannot get them back on their own: as long as the other does not reset or delete
in turn, looking the other up has no effect, however often, and nothing the other writes arrives. -/
theorem C71_delete_violated : ∃ s, Reach K12 s ∧ Contacts K12 s ∧ Rest s ∧
    ∃ s', s' = exec s [.del true 40 41 42 [1], .delDone true, .recv false 0 ⟨0, 0, 0⟩, .find true,
      .found true ⟨11, 12, 13⟩, .recv false 0 ⟨0, 0, 0⟩] ∧
    ∀ t, Runs K12 (Leaves false) s' t → (t.side true).full = none ∧ (t.side true).inBook = false ∧
      (t.side true).shown = (s.side true).shown := by
  have h := reach_polite meet (by decide +kernel)
  have hr : Rest (exec init meet) := by intro w; cases w <;> decide +kernel
  refine ⟨exec init meet, h, (C71_agree_partial h (by decide +kernel) hr).resolve_left ?_, hr, _, rfl, ?_⟩
  · intro hs; exact absurd (hs true).1 (by decide +kernel)
  · intro t ht
    have : Deleted false t ∧ (t.side true).shown = [] := by
      induction ht with
      | refl =>
        refine ⟨⟨⟨by decide +kernel, by decide +kernel, by decide +kernel, ?_⟩, by decide +kernel⟩, by decide +kernel⟩
        intro it hi
        exact absurd hi (by
          have : (exec (exec init meet) [.del true 40 41 42 [1], .delDone true, .recv false 0 ⟨0, 0, 0⟩, .find true,
            .found true ⟨11, 12, 13⟩, .recv false 0 ⟨0, 0, 0⟩]).q true = [] := by decide +kernel
          rw [show (!false) = true from rfl, this]; simp)
      | @tail t e _ ho ih =>
        refine ⟨deleted_step ih.1 e ho, ?_⟩
        exact (shown_step (w := true) ih.1.1.1).trans ih.2
    exact ⟨this.1.1.1, this.1.1.2.1, by rw [this.2]; decide +kernel⟩

/-- A user who resets while a reset of the other is being answered is left without a ratchet, and what the other writes
is lost; the other, who notices nothing, has to reset once more. -/
theorem C71_impatient_violated : ∃ s, Reach K12 s ∧ Contacts K12 s ∧ Rest s ∧
    ∃ s', s' = exec s [.reset true, .recv false 0 ⟨11, 12, 13⟩, .reset false, .recv true 0 ⟨21, 22, 23⟩,
      .recv false 0 ⟨0, 0, 0⟩] ∧ Rest s' ∧
    (s'.side true).full.isSome = true ∧ (s'.side false).full = none ∧ (s'.side false).half = none ∧
    ∀ priv hn mn msg now rd,
      ((step K12 (step K12 s' (.send true priv hn mn msg)) (.recv false now rd)).side false).shown = (s'.side false).shown := by
  have h := reach_polite meet (by decide +kernel)
  have hr : Rest (exec init meet) := by intro w; cases w <;> decide +kernel
  refine ⟨exec init meet, h, (C71_agree_partial h (by decide +kernel) hr).resolve_left ?_, hr, _, rfl, ?_,
    by decide +kernel, by decide +kernel, by decide +kernel, ?_⟩
  · intro hs; exact absurd (hs true).1 (by decide +kernel)
  · intro w; cases w <;> decide +kernel
  · intro priv hn mn msg now rd
    have hf : ((exec (exec init meet) [.reset true, .recv false 0 ⟨11, 12, 13⟩, .reset false, .recv true 0 ⟨21, 22, 23⟩,
      .recv false 0 ⟨0, 0, 0⟩]).side false).full = none := by decide +kernel
    generalize exec (exec init meet) _ = s' at hf ⊢
    have h1 : (step K12 s' (.send true priv hn mn msg)).side false = s'.side false := by
      simp only [step]
      split
      · exact put_side_not _ true _ _
      · rfl
    rw [shown_step (by rw [h1]; exact hf), h1]

/-! ## C72 -/

/-- The plaintext recorded with every message on its way is what its ciphertext contains. -/
def Honest (s : State) : Prop :=
  ∀ v, ∀ it ∈ s.q v, ∀ ct m, it = .data ct m → ∃ hn h k n, ct = .mk hn h (.sealed k n m)

theorem encrypt_body {f f' : Ratchet} {priv hn mn : Nat} {msg : Bytes} {ct : Ct}
    (h : encrypt f priv hn mn msg = (.ok ct, f')) : ∃ hn h k n, ct = .mk hn h (.sealed k n msg) := by
  unfold encrypt at h
  repeat' split at h
  all_goals first
    | (next heq =>
        simp only [Prod.mk.injEq, Res.ok.injEq] at h
        exact ⟨_, _, _, _, h.1.symm.trans (congrArg Prod.fst heq).symm⟩)
    | simp at h

theorem openM_sealed {k k' : Key} {n n' : Nat} {m m' : Bytes} (h : openM k n (.sealed k' n' m') = some m) : m = m' := by
  simp only [openM] at h
  split at h
  · simpa using h.symm
  · cases h

theorem tryLoop_body {all : Saved} {hn : Nat} {h : HBox} {k : Key} {n : Nat} {m m' : Bytes} {l s' : Saved}
    (ht : tryLoop all hn h (.sealed k n m') l = .opened m s') : m = m' := by
  induction l with
  | nil => cases ht
  | cons e l ih =>
    simp only [tryLoop] at ht
    split at ht
    · exact ih ht
    · split at ht
      · cases ht
      · split at ht
        · cases ht
        · next ho =>
          simp only [Tried.opened.injEq] at ht
          exact ht.1 ▸ openM_sealed ho

theorem decryptNew_body {R R' : Ratchet} {now : Int} {hn : Nat} {h : HBox} {k : Key} {n : Nat} {m m' : Bytes}
    (hd : decryptNew R now hn h (.sealed k n m') = (.ok m, R')) : m = m' := by
  unfold decryptNew at hd
  repeat' split at hd
  all_goals first
    | (next ho => simp only [Prod.mk.injEq, Res.ok.injEq] at hd; exact hd.1 ▸ openM_sealed ho)
    | simp at hd

theorem decrypt_body {R R' : Ratchet} {now : Int} {hn : Nat} {h : HBox} {k : Key} {n : Nat} {m m' : Bytes}
    (hd : decrypt R now (.mk hn h (.sealed k n m')) = (.ok m, R')) : m = m' := by
  simp only [decrypt] at hd
  split at hd
  · simp at hd
  · exact decryptNew_body hd
  · next ht =>
    split at hd
    · exact decryptNew_body hd
    · simp only [Prod.mk.injEq, Res.ok.injEq] at hd
      exact hd.1 ▸ tryLoop_body ht

theorem honest_put {s : State} {w : Bool} {S : Side} {o : List Item} (h : Honest s)
    (ho : ∀ it ∈ o, ∀ ct m, it = .data ct m → ∃ hn h k n, ct = .mk hn h (.sealed k n m)) : Honest (s.put w S o) := by
  intro v
  rcases bool_cases w v with rfl | rfl
  · rw [put_q_self]; exact h v
  · rw [put_q_not]
    intro it hi
    rcases List.mem_append.mp hi with hi | hi
    · exact h _ it hi
    · exact ho it hi

theorem out_none {o : List Item} (h : o.filterMap msgOf = []) :
    ∀ it ∈ o, ∀ ct m, it = .data ct m → ∃ hn h k n, ct = .mk hn h (.sealed k n m) := by
  rintro it hi ct m rfl
  have := List.filterMap_eq_nil_iff.mp h _ hi
  simp [msgOf] at this

theorem honest_step {K : Bool → Nat} {s : State} (h : Honest s) (e : Ev) : Honest (step K s e) := by
  have hsend {v : Bool} {S S' : Side} {priv hn mn : Nat} {msg : Bytes} {it : Item}
      (hs : cacheCRPC (s.side v) priv hn mn msg = some (S, it)) : Honest (s.put v S' [it]) := by
    obtain ⟨f, ct, f', _, he, rfl, rfl⟩ := cacheCRPC_some hs
    refine honest_put h ?_
    intro it hi ct' m' hx
    rw [List.mem_singleton.mp hi] at hx
    simp only [Item.data.injEq] at hx
    obtain ⟨rfl, rfl⟩ := hx
    exact encrypt_body he
  cases e with
  | find v =>
    simp only [step]
    split
    · exact h
    · exact honest_put h (out_none rfl)
  | found v rd =>
    simp only [step]
    split
    · exact honest_put h (out_none (step1_out ..))
    · exact h
  | send v priv hn mn msg =>
    simp only [step]
    split
    · next S it hs => exact hsend hs
    · exact h
  | del v priv hn mn msg =>
    simp only [step]
    split
    · split
      · next S it hs => exact hsend hs
      · exact h
    · exact h
  | reset v =>
    simp only [step]
    split
    · split <;> exact honest_put h (out_none rfl)
    · exact h
  | delDone v =>
    simp only [step]
    split
    · exact h
    · exact honest_put h (out_none rfl)
  | recv v now rd =>
    rcases hq : s.q v with _ | ⟨it, rest⟩
    · rw [step_recv_nil hq]; exact h
    · rw [step_recv hq]
      refine honest_put ?_ (out_none (handle_out ..))
      intro x
      rcases bool_cases v x with rfl | rfl
      · rw [pop_q_self]
        exact fun i hi => h x i (by rw [hq]; exact List.mem_cons_of_mem _ hi)
      · rw [pop_q_not]; exact h _

theorem handle_shown_data {a b : Nat} {S : Side} {now : Int} {rd : Rand} {ct : Ct} {m : Bytes}
    (h : ∃ hn h k n, ct = .mk hn h (.sealed k n m)) :
    (handle a b S now rd (.data ct m)).1.shown = S.shown ∨
    (handle a b S now rd (.data ct m)).1.shown = S.shown ++ [m] := by
  rcases hf : S.full with _ | f
  · exact .inl (handle_shown_none hf)
  · simp only [handle, reduceCtorEq, if_false, hf]
    split
    · exact .inl rfl
    · simp only [open_, Item.asCt]
      split
      · next hd =>
        obtain ⟨hn, h, k, n, rfl⟩ := h
        rw [decrypt_body hd]
        exact .inr rfl
      · exact .inl rfl

/-- As `Book`, without a claim that nothing is lost. -/
def InOrder (s : State) (v : Bool) : Prop :=
  ∃ old, (s.side (!v)).sent = old ++ onTheWay s v ∧ (s.side v).shown.Sublist old

theorem inOrder_same {s t : State} {v : Bool} (h : InOrder s v) (h1 : (t.side (!v)).sent = (s.side (!v)).sent)
    (h2 : onTheWay t v = onTheWay s v) (h3 : (t.side v).shown = (s.side v).shown) : InOrder t v := by
  obtain ⟨old, a, b⟩ := h
  exact ⟨old, by rw [h1, h2, a], by rw [h3]; exact b⟩

theorem inOrder_put {s : State} {w : Bool} {S : Side} {o : List Item} (h : ∀ v, InOrder s v)
    (h1 : S.sent = (s.side w).sent) (h2 : o.filterMap msgOf = []) (h3 : S.shown = (s.side w).shown) :
    ∀ v, InOrder (s.put w S o) v := by
  intro v
  rcases bool_cases w v with rfl | rfl
  · exact inOrder_same (h _) (by simp) (by simp [onTheWay_eq]) (by simpa using h3)
  · exact inOrder_same (h _) (by simpa using h1) (by simp [onTheWay_eq, h2]) (by simp)

theorem inOrder_sent {s : State} {w : Bool} {S : Side} {ct : Ct} {m : Bytes} (h : ∀ v, InOrder s v)
    (h1 : S.sent = (s.side w).sent ++ [m]) (h3 : S.shown = (s.side w).shown) :
    ∀ v, InOrder (s.put w S [.data ct m]) v := by
  intro v
  rcases bool_cases w v with rfl | rfl
  · exact inOrder_same (h _) (by simp) (by simp [onTheWay_eq]) (by simpa using h3)
  · obtain ⟨old, a, b⟩ := h (!w)
    refine ⟨old, ?_, by simpa using b⟩
    simp only [Bool.not_not] at a
    simp [onTheWay_eq, msgOf, h1, a]

theorem inOrder_step {K : Bool → Nat} {s : State} (hh : Honest s) (h : ∀ v, InOrder s v) (e : Ev) :
    ∀ v, InOrder (step K s e) v := by
  cases e with
  | find w =>
    simp only [step]
    split
    · exact h
    · exact inOrder_put h rfl rfl rfl
  | found w rd =>
    simp only [step]
    split
    · have h1 := step1_record (K w) (K !w) { s.side w with pending := false } rd
      exact inOrder_put h h1.sent (step1_out ..) h1.shown
    · exact h
  | send w priv hn mn msg =>
    simp only [step]
    split
    · next S it hs =>
      obtain ⟨f, ct, f', _, _, rfl, rfl⟩ := cacheCRPC_some hs
      exact inOrder_sent h rfl rfl
    · exact h
  | del w priv hn mn msg =>
    simp only [step]
    split
    · split
      · next S it hs =>
        obtain ⟨f, ct, f', _, _, rfl, rfl⟩ := cacheCRPC_some hs
        exact inOrder_sent h rfl rfl
      · exact h
    · exact h
  | reset w =>
    simp only [step]
    split
    · split <;> exact inOrder_put h rfl rfl rfl
    · exact h
  | delDone w =>
    simp only [step]
    split
    · exact h
    · exact inOrder_put h rfl rfl rfl
  | recv w now rd =>
    rcases hq : s.q w with _ | ⟨it, rest⟩
    · rw [step_recv_nil hq]; exact h
    · rw [step_recv hq]
      have hs := handle_sent (K w) (K !w) (s.side w) now rd it
      have ho := handle_out (K w) (K !w) (s.side w) now rd it
      intro v
      rcases bool_cases w v with rfl | rfl
      · cases it with
        | data ct m =>
          obtain ⟨old, a, b⟩ := h v
          have a' : (s.side (!v)).sent = (old ++ [m]) ++ rest.filterMap msgOf := by
            rw [a, onTheWay_eq, hq]; simp [msgOf]
          refine ⟨old ++ [m], by simpa [onTheWay_eq] using a', ?_⟩
          rw [put_side_self]
          rcases handle_shown_data (a := K v) (b := K !v) (S := s.side v) (now := now) (rd := rd)
              (hh v _ (by rw [hq]; simp) ct m rfl) with hd | hd
          · rw [hd]; exact b.trans (List.sublist_append_left _ _)
          · rw [hd]; exact b.append (List.Sublist.refl _)
        | idkx pk r x =>
          exact inOrder_same (h _) (by simp) (by simp [onTheWay_eq, hq]; rfl) (by simpa using handle_shown_other rfl)
        | kx k x =>
          exact inOrder_same (h _) (by simp) (by simp [onTheWay_eq, hq]; rfl) (by simpa using handle_shown_other rfl)
        | reset =>
          exact inOrder_same (h _) (by simp) (by simp [onTheWay_eq, hq]; rfl) (by simpa using handle_shown_other rfl)
      · exact inOrder_same (h _) (by simp [hs.1]) (by simp [onTheWay_eq, ho]) (by simp)

/-- Whatever two users do: what one is shown is what the other wrote, in that order, each message at most once, and
never one that is still on its way. -/
theorem C72_in_order {K : Bool → Nat} {s : State} (h : Runs K anyEv init s) (v : Bool) :
    ∃ old, (s.side (!v)).sent = old ++ onTheWay s v ∧ (s.side v).shown.Sublist old := by
  suffices h : Honest s ∧ ∀ v, InOrder s v from h.2 v
  induction h with
  | refl => exact ⟨(fun v it hi => nomatch hi), fun v => ⟨[], rfl, .refl _⟩⟩
  | tail e _ _ ih => exact ⟨honest_step ih.1 e, inOrder_step ih.1 ih.2 e⟩

/-- Among polite users, one who has not reset loses nothing: everything the other wrote has been shown, in order, or is
on its way. -/
theorem C72_no_loss_partial {K : Bool → Nat} {s : State} (h : Reach K s)
    (hlen : (s.side true).sent.length + (s.side false).sent.length + 1 < u32) (v : Bool)
    (hr : (s.side v).resets = 0) : (s.side (!v)).sent = (s.side v).shown ++ onTheWay s v := by
  obtain ⟨old, a, _, c⟩ := (phase_reach h hlen).2 v
  rw [a, c hr]

/-- In the conversation with a reset above, `false` has not reset and is shown everything; `true` is not. -/
example : (((exec init chat).side false).resets = 0) ∧ ((exec init chat).side true).sent = [[1]] ∧
    ((exec init chat).side false).sent = [[2], [3], [4]] ∧ ((exec init chat).side true).shown = [[4]] := by
  decide +kernel

/-- What is on its way to a user who resets is lost, without a word to either of them, although both are polite and the
reset succeeds. -/
theorem C72_violated : ∃ s, Reach K12 s ∧ Rest s ∧ Contacts K12 s ∧ (s.side false).sent = [[1]] ∧
    (s.side true).shown = [] := by
  have h := reach_polite (meet ++ [.send false 40 41 42 [1], .reset true, .recv true 0 ⟨0, 0, 0⟩,
    .recv false 0 ⟨51, 52, 53⟩, .recv true 0 ⟨61, 62, 63⟩, .recv false 0 ⟨0, 0, 0⟩]) (by decide +kernel)
  have hr : Rest (exec init (meet ++ [.send false 40 41 42 [1], .reset true, .recv true 0 ⟨0, 0, 0⟩,
    .recv false 0 ⟨51, 52, 53⟩, .recv true 0 ⟨61, 62, 63⟩, .recv false 0 ⟨0, 0, 0⟩])) := by
    intro w; cases w <;> decide +kernel
  refine ⟨_, h, hr, (C71_agree_partial h (by decide +kernel) hr).resolve_left ?_, by decide +kernel, by decide +kernel⟩
  intro hs; exact absurd (hs true).1 (by decide +kernel)

end Verif.Contact
