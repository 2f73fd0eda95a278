import Verif.Proofs.PinContact

/-! C85: making contact with a PIN.

Model: Verif.Model.PinContact (/repo/zkclient/kxwindow.go, kxacceptwindow.go, acceptclientfingerprint.go, push.go, reset.go,
identity.go). -/

namespace Verif.PinContact

open Verif Verif.Ratchet
open Verif.Contact (Rand role role_not live_send live_recv)

/-- Nothing is on its way. -/
def Rest (s : State) : Prop := ∀ w, s.q w = []

/-- Neither has heard of the other. -/
def Strangers (s : State) : Prop :=
  ∀ w, (s.side w).known = false ∧ (s.side w).inBook = false ∧ (s.side w).half = none ∧ (s.side w).full = none

/-- Each has the other in the address book and a ratchet, and whatever one writes the other is shown. -/
def Contacts (dir : Bool) (K : Bool → Nat) (s : State) : Prop :=
  ∀ w, (s.side w).known = true ∧ (s.side w).inBook = true ∧ (s.side w).half = none ∧ (s.side w).full.isSome = true ∧
    ∀ priv hn mn msg now rd, ((step dir K (step dir K s (.send w priv hn mn msg)) (.recv (!w) now rd)).side (!w)).shown =
      (s.side (!w)).shown ++ [msg]

/-- Whenever polite users are at rest, they are strangers or contacts. -/
theorem C85_agree_partial {K : Bool → Nat} {s : State} (h : Reach K s)
    (hlen : (s.side true).sent.length + (s.side false).sent.length + 2 < u32) (hr : Rest s) :
    Strangers s ∨ Contacts false K s := by
  have ht : total s + 2 < u32 := hlen
  obtain ⟨hp, -⟩ := phase_reach h (by omega)
  cases hp with
  | idle hn => exact .inl fun v => ⟨(hn v).2.2.2.1, (hn v).2.2.1, (hn v).1, (hn v).2.1⟩
  | offered v pa ra k hv ho hq =>
    rw [hr _] at hq
    cases hq
  | answered v pa pb ra rb k c L hr' hl hv ho hq' hq =>
    rw [hr _] at hq
    cases hq
  | talking a pa pb ra rb c hr' hl hs hx hL =>
    right
    intro w
    refine ⟨(hs w).1, (hs w).2.2.1, (hs w).2.1, by rw [(hs w).2.2.2]; rfl, ?_⟩
    intro priv hn mn msg now rd
    obtain ⟨ct, c', h1, h2, h3, h4, h5, h6⟩ := live_send (x := role a w) hr' (by omega) priv hn mn msg
    have h7 := h6 [] (by
      have := hL (!w)
      rw [hr (!w)] at this
      rw [← role_not]; exact this)
    obtain ⟨ct', msg', c'', e1, e2, -⟩ := live_recv h2 (by omega) h7 now
    simp only [Contact.Item.data.injEq] at e1
    obtain ⟨rfl, rfl⟩ := e1
    rw [h4, ← role_not] at e2
    have hs1 : step false K s (.send w priv hn mn msg) = s.put w
        { s.side w with full := some (c'.st (role a w)), sent := (s.side w).sent ++ [msg] } [.data ct msg] := by
      simp only [step, cacheCRPC_live (hs w).2.2.2 h1]
    rw [hs1, step_recv (it := .data ct msg) (rest := []) (by simp [hr (!w)]), put_side_self, put_side_not,
      handle_live (hs (!w)).1 (hs (!w)).2.2.2 e2]

/-! ## Deliveries come to an end -/

/-- Deliveries by the server, `n` in all. -/
inductive Deliveries (dir : Bool) (K : Bool → Nat) : State → Nat → State → Prop
  | none {s} : Deliveries dir K s 0 s
  | one {s n t w now rd} : Deliveries dir K s n t → t.q w ≠ [] → Deliveries dir K s (n + 1) (step dir K t (.recv w now rd))

/-- How many messages one message can entail, itself included. -/
def weight : Item → Nat
  | .reset => 3
  | .idkx _ _ => 2
  | .idkxDir _ _ _ => 2
  | _ => 1

def weights (s : State) : Nat := ((s.q true).map weight).sum + ((s.q false).map weight).sum

theorem answer_weight (a b : Nat) (S : Side) (rd : Rand) (bk : Key) (x : KeyExchange) :
    (((answer a b S rd bk x).2).map weight).sum < 2 := by
  rcases answer_cases a b S rd bk x with h | ⟨f, h⟩ <;> rw [h] <;> simp [weight]

theorem handle_weight (dir : Bool) (a b : Nat) (S : Side) (now : Int) (rd : Rand) (it : Item) :
    (((handle dir a b S now rd it).2).map weight).sum < weight it := by
  have hpos : 0 < weight it := by cases it <;> simp [weight]
  unfold handle
  split
  · next h =>
    subst h
    split
    · rw [step1_eq]
      split <;> simp [weight]
    · simp [weight]
  · split
    · cases it with
      | idkx k x =>
        simp only [step2]
        split
        · exact answer_weight ..
        · simp [weight]
      | idkxDir pk r x =>
        simp only [step2]
        split
        · exact answer_weight ..
        · simp [weight]
      | kx k x => simp [step2, weight]
      | reset => simp [step2, weight]
      | data ct m => simp [step2, weight]
    · split <;> simpa using hpos

theorem weights_put (s : State) (w : Bool) (S : Side) (o : List Item) :
    weights (s.put w S o) = weights s + (o.map weight).sum := by
  cases w <;> simp [weights, State.put, upd] <;> omega

theorem weights_pop (s : State) (w : Bool) {it : Item} {rest : List Item} (h : s.q w = it :: rest) :
    weights (pop s w rest) + weight it = weights s := by
  cases w <;> simp [weights, pop, upd, h] <;> omega

theorem weight_le (l : List Item) : (l.map weight).sum ≤ 3 * l.length := by
  induction l with
  | nil => simp
  | cons it l ih =>
    have : weight it ≤ 3 := by cases it <;> simp [weight]
    simp only [List.map_cons, List.sum_cons, List.length_cons]
    omega

theorem deliveries_weight {dir : Bool} {K : Bool → Nat} {s t : State} {n : Nat} (h : Deliveries dir K s n t) :
    n + weights t ≤ weights s := by
  induction h with
  | none => omega
  | @one n t w now rd _ hne ih =>
    rcases hq : t.q w with _ | ⟨it, rest⟩
    · exact absurd hq hne
    · rw [step_recv hq, weights_put]
      have h1 := weights_pop t w hq
      have h2 := handle_weight dir (K w) (K !w) (t.side w) now rd it
      omega

/-- Deliveries come to an end, in any state, whatever the order. -/
theorem C85_drains {dir : Bool} {K : Bool → Nat} {s t : State} {n : Nat} (h : Deliveries dir K s n t) :
    n ≤ 3 * ((s.q true).length + (s.q false).length) := by
  have h1 := deliveries_weight h
  have h2 := weight_le (s.q true)
  have h3 := weight_le (s.q false)
  unfold weights at h1
  omega

/-! ## Saying yes makes contacts -/

theorem handle_known (dir : Bool) (a b : Nat) (S : Side) (now : Int) (rd : Rand) (it : Item) (h : S.known = true) :
    (handle dir a b S now rd it).1.known = true := by
  have ans (bk : Key) (x : KeyExchange) : (answer a b S rd bk x).1.known = true := by
    rcases answer_cases a b S rd bk x with h' | ⟨f, h'⟩ <;> rw [h']
    exact h
  unfold handle
  split
  · rw [step1_eq]
    split
    · exact h
    · rfl
  · split
    · cases it with
      | idkx k x => simp only [step2]; split <;> [exact ans _ _; exact h]
      | idkxDir pk r x => simp only [step2]; split <;> [exact ans _ _; exact h]
      | kx k x => exact h
      | reset => exact h
      | data ct m => exact h
    · split
      · simp only [step3]
        repeat' split
        all_goals exact h
      · simp only [open_]
        split <;> exact h

theorem known_put {s : State} {w v : Bool} {S : Side} {o : List Item} (h : (s.side v).known = true)
    (hS : (s.side w).known = true → S.known = true) : ((s.put w S o).side v).known = true := by
  rcases bool_cases w v with rfl | rfl
  · rw [put_side_self]; exact hS h
  · rw [put_side_not]; exact h

theorem known_step {dir : Bool} {K : Bool → Nat} {s : State} {e : Ev} {v : Bool} (hd : ∀ v, (s.side v).dels = 0)
    (h : (s.side v).known = true) : ((step dir K s e).side v).known = true := by
  cases e with
  | pin w k =>
    exact known_put (s := s) (w := w) (S := { s.side w with keys := (s.side w).keys ++ [.rnd k] }) (o := []) h fun h => h
  | fetch w k =>
    simp only [step]
    split
    · exact known_put h (by exact fun h => h)
    · exact h
  | yes w rd =>
    simp only [step]
    split
    · exact h
    · rw [yes_eq]
      split
      · exact known_put h (by exact fun h => h)
      · exact known_put h (by exact fun _ => rfl)
  | no w => exact known_put h (by exact fun h => h)
  | send w priv hn mn msg =>
    simp only [step]
    split
    · next S it hs =>
      obtain ⟨f, ct, f', _, _, rfl, rfl⟩ := cacheCRPC_some hs
      exact known_put h (by exact fun h => h)
    · exact h
  | reset w =>
    simp only [step]
    split
    · split <;> exact known_put h (by exact fun h => h)
    · exact h
  | del w priv hn mn msg =>
    simp only [step]
    split
    · split
      · next S it hs =>
        obtain ⟨f, ct, f', _, _, rfl, rfl⟩ := cacheCRPC_some hs
        exact known_put h (by exact fun h => h)
      · exact h
    · exact h
  | delDone w => simp only [step, hd w, if_true]; exact h
  | recv w now rd =>
    rcases hq : s.q w with _ | ⟨it, rest⟩
    · rw [step_recv_nil hq]; exact h
    · rw [step_recv hq]
      exact known_put (s := pop s w rest) h fun h => handle_known _ _ _ _ _ _ _ h

theorem runs_trans {dir : Bool} {K : Bool → Nat} {ok : State → Ev → Prop} {s t u : State} (h : Runs dir K ok s t)
    (h' : Runs dir K ok t u) : Runs dir K ok s u := by
  induction h' with
  | refl => exact h
  | tail e _ ho ih => exact .tail e ih ho

theorem known_runs {K : Bool → Nat} {s t : State} {w : Bool} (h0 : Reach K s) (h : Runs false K Polite s t)
    (hk : (s.side w).known = true) : total t + 1 < u32 → (t.side w).known = true := by
  induction h with
  | refl => exact fun _ => hk
  | @tail t e hr ho ih =>
    intro hlen
    have := total_step false K t e
    exact known_step (phase_reach (runs_trans h0 hr) (by omega)).2.2 (ih (by omega))

/-- Once one of them has said yes to the fingerprint, while no other attempt was unfinished, then whatever else polite
users do and in whatever order messages are delivered, they are contacts when they are at rest. -/
theorem C85_yes_partial {K : Bool → Nat} {s t : State} {w : Bool} {k : Nat} {rd : Rand} (h : Reach K s) (hb : ¬ Busy s)
    (ha : (s.side w).asking = some k) (hr : Runs false K Polite (step false K s (.yes w rd)) t) (ht : Rest t)
    (hlen : (t.side true).sent.length + (t.side false).sent.length + 2 < u32) : Contacts false K t := by
  have h1 : Reach K (step false K s (.yes w rd)) := .tail _ h hb
  have h2 : total t + 2 < u32 := hlen
  have hk : ((step false K s (.yes w rd)).side w).known = true := by
    simp only [step, ha, yes_eq]
    split
    · next he => simp only [Side.exists_, Bool.and_eq_true] at he; simpa using he.1
    · simp
  rcases C85_agree_partial (runs_trans h1 hr) hlen ht with hs | hs
  · have := known_runs h1 hr hk (by omega)
    rw [(hs w).1] at this
    cases this
  · exact hs

/-- A PIN that was made can be fetched and yes said to it, as long as the other is unknown: the offer is on its way and
the one who made the PIN has the key to open it. -/
theorem C85_offer {dir : Bool} {K : Bool → Nat} {s : State} {w : Bool} {k : Nat} {rd : Rand} (hk : k ∈ s.pins (!w))
    (hp : Pins s) (he : (s.side w).exists_ = false) :
    ∃ x, (step dir K (step dir K s (.fetch w k)) (.yes w rd)).q (!w) = s.q (!w) ++ [.idkx k x] ∧
      .rnd k ∈ (s.side (!w)).keys ∧ .rnd k ∈ ((step dir K (step dir K s (.fetch w k)) (.yes w rd)).side w).keys := by
  have he' : ({ s.side w with asking := some k } : Side).exists_ = false := he
  refine ⟨Contact.msgOfKX (K !w) rd.priv rd.kem, ?_, (hp (!w)).1 k hk, ?_⟩
  · simp [step, hk, he, yes_eq, he']
  · simp [step, hk, he, yes_eq, he']

/-- Never is there a window or a PIN that the other does not have the key to. -/
theorem C85_keys {dir : Bool} {K : Bool → Nat} {ok : State → Ev → Prop} {s : State} (h : Runs dir K ok init s) : Pins s := by
  induction h with
  | refl =>
    refine fun v => ⟨?_, ?_⟩
    · intro k hk; cases hk
    · intro k hk; cases hk
  | tail e _ _ ih => exact pins_step ih e

/-- What is sealed under the key of a PIN that a client neither made nor agreed to, or with another key that it does not have,
changes nothing for this client, and is not answered. -/
theorem C85_sealed (dir : Bool) (mine theirs : Nat) (S : Side) (now : Int) (rd : Rand) (x : KeyExchange) :
    (∀ k, Key.rnd k ∉ S.keys → handle dir mine theirs S now rd (.idkx k x) = (S, [])) ∧
    (∀ k, k ∉ S.keys → handle dir mine theirs S now rd (.kx k x) = (S, [])) := by
  constructor
  · intro k hk
    simp only [handle, step2, step3, open_, Item.asCt, hk]
    cases S.exists_ <;> cases S.full <;> simp
    rename_i f
    obtain ⟨R, hR⟩ := Ratchet.decrypt_junk f now 0 0 0
    rw [hR]
  · intro k hk
    simp only [handle, step2, step3, open_, Item.asCt, hk]
    cases S.exists_ <;> cases S.full <;> simp
    rename_i f
    obtain ⟨R, hR⟩ := Ratchet.decrypt_junk f now 0 0 0
    rw [hR]

/-- Somebody who made PIN 7 is sent something sealed under that of PIN 8. -/
example (x : KeyExchange) : handle false 1 2 { keys := [.rnd 7] } 0 ⟨0, 0, 0⟩ (.idkx 8 x) =
    (({ keys := [.rnd 7] } : Side), ([] : List Item)) :=
  (C85_sealed false 1 2 _ 0 ⟨0, 0, 0⟩ x).1 8 (by simp)

/-! ## Witnesses -/

/-- Two KEM key pairs. -/
def K12 : Bool → Nat := fun w => if w then 1 else 2

def exec (dir : Bool) (s : State) (es : List Ev) : State := es.foldl (step dir K12) s

/-- No restriction. -/
def anyEv : State → Ev → Prop := fun _ _ => True

theorem runs_any' {dir : Bool} {s0 s : State} (es : List Ev) (h0 : Runs dir K12 anyEv s0 s) :
    Runs dir K12 anyEv s0 (exec dir s es) := by
  induction es generalizing s with
  | nil => exact h0
  | cons e es ih => exact ih (.tail e h0 trivial)

theorem runs_any (dir : Bool) (s : State) (es : List Ev) : Runs dir K12 anyEv s (exec dir s es) := runs_any' es .refl

def isOther : Item → Bool
  | .data _ _ => false
  | _ => true

def busyB (s : State) : Bool := [true, false].any fun w => (s.side w).half.isSome || (s.q w).any isOther

theorem not_busy {s : State} (h : busyB s = false) : ¬ Busy s := by
  rintro ⟨w, hw⟩
  have h1 : ((s.side w).half.isSome || (s.q w).any isOther) = false := by
    simp only [busyB, List.any_eq_false] at h
    simpa using h w (by cases w <;> simp)
  simp only [Bool.or_eq_false_iff, List.any_eq_false] at h1
  rcases hw with hw | ⟨it, hi, hw⟩
  · rw [h1.1] at hw; cases hw
  · have := h1.2 it hi
    cases it with
    | data ct m => exact hw
    | idkx k x => exact this rfl
    | idkxDir pk r x => exact this rfl
    | kx k x => exact this rfl
    | reset => exact this rfl

def politeB (s : State) : Ev → Bool
  | .yes _ _ => !busyB s
  | .reset _ => false
  | .del _ _ _ _ _ => false
  | _ => true

theorem polite_of {s : State} {e : Ev} (h : politeB s e = true) : Polite s e := by
  cases e with
  | yes w rd => exact not_busy (by simpa [politeB] using h)
  | reset w => cases h
  | del w priv hn mn msg => cases h
  | pin w k => trivial
  | fetch w k => trivial
  | no w => trivial
  | send w priv hn mn msg => trivial
  | delDone w => trivial
  | recv w now rd => trivial

def politeAll : State → List Ev → Bool
  | _, [] => true
  | s, e :: es => politeB s e && politeAll (step false K12 s e) es

theorem runs_polite {s0 s : State} (es : List Ev) (h0 : Runs false K12 Polite s0 s) (h : politeAll s es = true) :
    Runs false K12 Polite s0 (exec false s es) := by
  induction es generalizing s with
  | nil => exact h0
  | cons e es ih =>
    simp only [politeAll, Bool.and_eq_true] at h
    exact ih (.tail e h0 (polite_of h.1)) h.2

theorem reach_polite (es : List Ev) (h : politeAll init es = true) : Reach K12 (exec false init es) :=
  runs_polite es .refl h

/-- `true` makes a PIN, `false` fetches it and says yes. -/
def meet : List Ev := [.pin true 7, .fetch false 7, .yes false ⟨0, 12, 13⟩, .recv true 0 ⟨0, 22, 23⟩, .recv false 0 ⟨0, 0, 0⟩]

/-- The theorems speak of this; and of a second window, opened before and answered after, whose offer is dropped while
messages go on. -/
def twice : List Ev := [.pin false 8, .fetch true 8] ++ meet ++ [.send false 40 41 42 [1], .yes true ⟨0, 32, 33⟩,
  .send true 43 44 45 [2], .recv false 0 ⟨0, 0, 0⟩, .recv false 0 ⟨0, 0, 0⟩, .recv true 0 ⟨0, 0, 0⟩]

theorem meet_contacts : Reach K12 (exec false init meet) ∧ Rest (exec false init meet) ∧
    Contacts false K12 (exec false init meet) := by
  have h := reach_polite meet (by decide +kernel)
  have hr : Rest (exec false init meet) := by intro w; cases w <;> decide +kernel
  refine ⟨h, hr, (C85_agree_partial h (by decide +kernel) hr).resolve_left ?_⟩
  intro hs; exact absurd (hs true).1 (by decide +kernel)

example : Reach K12 (exec false init twice) ∧ Contacts false K12 (exec false init twice) ∧
    ((exec false init twice).side true).shown = [[1]] ∧ ((exec false init twice).side false).shown = [[2]] := by
  have h := reach_polite twice (by decide +kernel)
  refine ⟨h, (C85_agree_partial h (by decide +kernel) ?_).resolve_left ?_, by decide +kernel, by decide +kernel⟩
  · intro w; cases w <;> decide +kernel
  · intro hs; exact absurd (hs true).1 (by decide +kernel)

example : ∃ s, Reach K12 s ∧ ¬ Busy s ∧ (s.side false).asking = some 7 :=
  ⟨exec false init [.pin true 7, .fetch false 7], reach_polite _ (by decide +kernel), not_busy (by decide +kernel),
    by decide +kernel⟩

/-! ## Violations -/

def AllOffers (l : List Item) : Prop := ∀ it ∈ l, ∃ k x, it = .idkx k x

theorem allOffers_append {l l' : List Item} (h : AllOffers l) (h' : AllOffers l') : AllOffers (l ++ l') := by
  intro it hi
  rcases List.mem_append.mp hi with hi | hi
  · exact h it hi
  · exact h' it hi

/-- Both have a half ratchet, and neither has the other in its address book. -/
def Crossed (s : State) : Prop :=
  ∀ v, (s.side v).known = true ∧ (s.side v).half.isSome = true ∧ (s.side v).full = none ∧ (s.side v).inBook = false ∧
    (s.side v).dels = 0 ∧ (s.side v).asking = none ∧ AllOffers (s.q v)

theorem crossed_step {dir : Bool} {K : Bool → Nat} {s : State} (h : Crossed s) (e : Ev) : Crossed (step dir K s e) := by
  have put {t : State} {w : Bool} {S : Side} (ht : Crossed t) (h1 : S.known = true ∧ S.half.isSome = true ∧ S.full = none ∧
      S.inBook = false ∧ S.dels = 0 ∧ S.asking = none) : Crossed (t.put w S []) := by
    intro v
    rcases bool_cases w v with rfl | rfl
    · rw [put_side_self, put_q_self]
      exact ⟨h1.1, h1.2.1, h1.2.2.1, h1.2.2.2.1, h1.2.2.2.2.1, h1.2.2.2.2.2, (ht v).2.2.2.2.2.2⟩
    · rw [put_side_not, put_q_not, List.append_nil]; exact ht _
  have ex (w : Bool) : (s.side w).exists_ = true := by simp [Side.exists_, h w]
  cases e with
  | pin w k =>
    obtain ⟨a1, a2, a3, a4, a5, a6, -⟩ := h w
    exact put h (w := w) (S := { s.side w with keys := (s.side w).keys ++ [.rnd k] }) ⟨a1, a2, a3, a4, a5, a6⟩
  | fetch w k => simp only [step, ex w, Bool.true_eq_false, and_false, if_false]; exact h
  | yes w rd => simp only [step, (h w).2.2.2.2.2.1]; exact h
  | no w =>
    obtain ⟨a1, a2, a3, a4, a5, a6, -⟩ := h w
    exact put h ⟨a1, a2, a3, a4, a5, rfl⟩
  | send w priv hn mn msg => simp only [step, cacheCRPC_none (h w).2.2.1]; exact h
  | reset w => simp only [step, (h w).2.2.2.1]; exact h
  | del w priv hn mn msg => simp only [step, (h w).2.2.2.1]; exact h
  | delDone w => simp only [step, (h w).2.2.2.2.1, if_true]; exact h
  | recv w now rd =>
    rcases hq : s.q w with _ | ⟨it, rest⟩
    · rw [step_recv_nil hq]; exact h
    · obtain ⟨a1, a2, a3, a4, a5, a6, a7⟩ := h w
      obtain ⟨k, x, rfl⟩ := a7 it (by rw [hq]; simp)
      have e2 : handle dir (K w) (K !w) (s.side w) now rd (.idkx k x) = (s.side w, []) := by
        simp only [handle, reduceCtorEq, if_false, ex w, Bool.true_eq_false, a3, step3]
      rw [step_recv hq, e2]
      refine put ?_ ⟨a1, a2, a3, a4, a5, a6⟩
      intro v
      rcases bool_cases w v with rfl | rfl
      · rw [pop_side, pop_q_self]
        exact ⟨a1, a2, a3, a4, a5, a6, fun i hi => a7 i (by rw [hq]; exact List.mem_cons_of_mem _ hi)⟩
      · rw [pop_side, pop_q_not]; exact h _

/-- Both make a PIN, fetch that of the other and say yes. They never become contacts, whatever either does from then
on: each takes the offer of the other for an answer and drops it, fetching is refused as the identity exists, and reset
and deletion are refused as it is not in the address book. -/
theorem C85_crossing_violated : ∃ s, Runs false K12 anyEv init s ∧ Rest s ∧
    s = exec false init [.pin true 7, .pin false 8, .fetch true 8, .fetch false 7, .yes true ⟨0, 12, 13⟩, .yes false ⟨0, 22, 23⟩,
      .recv true 0 ⟨0, 0, 0⟩, .recv false 0 ⟨0, 0, 0⟩] ∧
    ∀ t, Runs false K12 anyEv s t → ∀ w, (t.side w).full = none ∧ (t.side w).inBook = false := by
  refine ⟨_, runs_any _ _ _, ?_, rfl, ?_⟩
  · intro w; cases w <;> decide +kernel
  · intro t ht
    have : Crossed t := by
      induction ht with
      | refl =>
        have hq : ∀ v, (exec false init [.pin true 7, .pin false 8, .fetch true 8, .fetch false 7, .yes true ⟨0, 12, 13⟩,
            .yes false ⟨0, 22, 23⟩, .recv true 0 ⟨0, 0, 0⟩, .recv false 0 ⟨0, 0, 0⟩]).q v = [] := by
          intro v; cases v <;> decide +kernel
        intro v
        refine ⟨?_, ?_, ?_, ?_, ?_, ?_, by rw [hq v]; intro it hi; cases hi⟩ <;> cases v <;> decide +kernel
      | tail e _ _ ih => exact crossed_step ih e
    intro w
    exact ⟨(this w).2.2.1, (this w).2.2.2.1⟩

/-- Nobody has a ratchet, and only offers are on their way. -/
def Deaf (s : State) : Prop :=
  ∀ v, (s.side v).full = none ∧ (s.side v).inBook = false ∧ (s.side v).dels = 0 ∧ AllOffers (s.q v)

theorem deaf_step {K : Bool → Nat} {s : State} (h : Deaf s) (e : Ev) : Deaf (step true K s e) := by
  have put {t : State} {w : Bool} {S : Side} {o : List Item} (ht : Deaf t) (h1 : S.full = none ∧
      S.inBook = false ∧ S.dels = 0) (ho : AllOffers o) : Deaf (t.put w S o) := by
    intro v
    rcases bool_cases w v with rfl | rfl
    · rw [put_side_self, put_q_self]
      exact ⟨h1.1, h1.2.1, h1.2.2, (ht v).2.2.2⟩
    · rw [put_side_not, put_q_not]
      exact ⟨(ht _).1, (ht _).2.1, (ht _).2.2.1, allOffers_append (ht _).2.2.2 ho⟩
  have nil : AllOffers [] := by intro it hi; cases hi
  have same (w : Bool) := And.intro (h w).1 (And.intro (h w).2.1 (h w).2.2.1)
  cases e with
  | pin w k => exact put h (w := w) (S := { s.side w with keys := (s.side w).keys ++ [.rnd k] }) (same w) nil
  | fetch w k =>
    simp only [step]
    split
    · exact put h (same w) nil
    · exact h
  | yes w rd =>
    simp only [step]
    split
    · exact h
    · rw [yes_eq]
      have one (k : Nat) (x : KeyExchange) : AllOffers [.idkx k x] := by
        intro it hi
        exact ⟨k, x, List.mem_singleton.mp hi⟩
      split <;> exact put h (same w) (one _ _)
  | no w => exact put h (same w) nil
  | send w priv hn mn msg => simp only [step, cacheCRPC_none (h w).1]; exact h
  | reset w => simp only [step, (h w).2.1]; exact h
  | del w priv hn mn msg => simp only [step, (h w).2.1]; exact h
  | delDone w => simp only [step, (h w).2.2.1, if_true]; exact h
  | recv w now rd =>
    rcases hq : s.q w with _ | ⟨it, rest⟩
    · rw [step_recv_nil hq]; exact h
    · obtain ⟨k, x, rfl⟩ := (h w).2.2.2 it (by rw [hq]; simp)
      have e2 : handle true (K w) (K !w) (s.side w) now rd (.idkx k x) = (s.side w, []) := by
        simp only [handle, reduceCtorEq, if_false, step2, Bool.true_eq_false, false_and, (h w).1, step3]
        split <;> rfl
      rw [step_recv hq, e2]
      refine put ?_ (same w) nil
      intro v
      rcases bool_cases w v with rfl | rfl
      · rw [pop_side, pop_q_self]
        exact ⟨(h v).1, (h v).2.1, (h v).2.2.1, fun i hi => (h v).2.2.2 i (by rw [hq]; exact List.mem_cons_of_mem _ hi)⟩
      · rw [pop_side, pop_q_not]; exact h _

/-- With a server that has a directory, PINs are made, fetched and agreed to as before, but nobody ever becomes a contact
that way: what arrives from somebody unknown is taken for an offer of the directory kind. -/
theorem C85_directory_violated :
    (∀ K s, Runs true K anyEv init s → ∀ w, (s.side w).full = none ∧ (s.side w).inBook = false) ∧
    ∃ s, s = exec true init meet ∧ Rest s ∧ (s.side false).half.isSome = true := by
  refine ⟨?_, _, rfl, ?_, by decide +kernel⟩
  · intro K s h w
    have : Deaf s := by
      induction h with
      | refl => intro v; exact ⟨rfl, rfl, rfl, fun it hi => by cases hi⟩
      | tail e _ _ ih => exact deaf_step ih e
    exact ⟨(this w).1, (this w).2.1⟩
  · intro w; cases w <;> decide +kernel

/-- `true` has reset, `false` has a half ratchet; only offers to `false` are on their way. -/
def Broken (s : State) : Prop :=
  ((s.side true).full = none ∧ (s.side true).dels = 0 ∧ s.q true = []) ∧
  (s.side false).known = true ∧ (s.side false).half.isSome = true ∧ (s.side false).full = none ∧ (s.side false).dels = 0 ∧
    (s.side false).asking = none ∧ AllOffers (s.q false)

theorem broken_step {K : Bool → Nat} {s : State} (h : Broken s) (e : Ev) (he : e ≠ .reset false) :
    Broken (step false K s e) := by
  have ex : (s.side false).exists_ = true := by simp [Side.exists_, h.2]
  obtain ⟨⟨a1, a2, a3⟩, b1, b2, b3, b4, b5, b6⟩ := h
  have putT {S : Side} {o : List Item} (h1 : S.full = none ∧ S.dels = 0) (ho : AllOffers o) : Broken (s.put true S o) := by
    refine ⟨?_, ?_⟩
    · rw [put_side_self, put_q_self]; exact ⟨h1.1, h1.2, a3⟩
    · have e1 : (s.put true S o).side false = s.side false := put_side_not ..
      have e2 : (s.put true S o).q false = s.q false ++ o := put_q_not ..
      rw [e1, e2]; exact ⟨b1, b2, b3, b4, b5, allOffers_append b6 ho⟩
  have putF {S : Side} (h1 : S.known = true ∧ S.half.isSome = true ∧ S.full = none ∧ S.dels = 0 ∧ S.asking = none) :
      Broken (s.put false S []) := by
    refine ⟨?_, ?_⟩
    · have e1 : (s.put false S []).side true = s.side true := put_side_not ..
      have e2 : (s.put false S []).q true = s.q true ++ [] := put_q_not ..
      rw [e1, e2, List.append_nil]; exact ⟨a1, a2, a3⟩
    · rw [put_side_self, put_q_self]; exact ⟨h1.1, h1.2.1, h1.2.2.1, h1.2.2.2.1, h1.2.2.2.2, b6⟩
  have nil : AllOffers [] := by intro it hi; cases hi
  have same : Broken s := ⟨⟨a1, a2, a3⟩, b1, b2, b3, b4, b5, b6⟩
  cases e with
  | pin w k =>
    cases w with
    | true => exact putT (S := { s.side true with keys := (s.side true).keys ++ [.rnd k] }) ⟨a1, a2⟩ nil
    | false => exact putF (S := { s.side false with keys := (s.side false).keys ++ [.rnd k] }) ⟨b1, b2, b3, b4, b5⟩
  | fetch w k =>
    cases w with
    | true =>
      simp only [step]
      split
      · exact putT ⟨a1, a2⟩ nil
      · exact same
    | false => simp only [step, ex, Bool.true_eq_false, and_false, if_false]; exact same
  | yes w rd =>
    cases w with
    | true =>
      simp only [step]
      split
      · exact same
      · rw [yes_eq]
        have one (k : Nat) (x : KeyExchange) : AllOffers [.idkx k x] := by
          intro it hi
          exact ⟨k, x, List.mem_singleton.mp hi⟩
        split <;> exact putT ⟨a1, a2⟩ (one _ _)
    | false => simp only [step, b5]; exact same
  | no w =>
    cases w with
    | true => exact putT ⟨a1, a2⟩ nil
    | false => exact putF ⟨b1, b2, b3, b4, rfl⟩
  | send w priv hn mn msg =>
    have : (s.side w).full = none := by cases w <;> assumption
    simp only [step, cacheCRPC_none this]; exact same
  | del w priv hn mn msg =>
    have : (s.side w).full = none := by cases w <;> assumption
    simp only [step, cacheCRPC_none this]
    split <;> exact same
  | delDone w =>
    have : (s.side w).dels = 0 := by cases w <;> assumption
    simp only [step, this, if_true]; exact same
  | reset w =>
    cases w with
    | true =>
      simp only [step, a1]
      split
      · exact putT ⟨rfl, a2⟩ nil
      · exact same
    | false => exact absurd rfl he
  | recv w now rd =>
    cases w with
    | true => rw [step_recv_nil a3]; exact same
    | false =>
      rcases hq : s.q false with _ | ⟨it, rest⟩
      · rw [step_recv_nil hq]; exact same
      · obtain ⟨k, x, rfl⟩ := b6 it (by rw [hq]; simp)
        have e2 : handle false (K false) (K !false) (s.side false) now rd (.idkx k x) = (s.side false, []) := by
          simp only [handle, reduceCtorEq, if_false, ex, Bool.true_eq_false, b3, step3]
        rw [step_recv hq, e2]
        refine ⟨?_, ?_⟩
        · have e1 : ((pop s false rest).put false (s.side false) []).side true = s.side true := put_side_not ..
          have e2 : ((pop s false rest).put false (s.side false) []).q true = (pop s false rest).q true ++ [] := put_q_not ..
          have e3 : (pop s false rest).q true = s.q true := pop_q_not ..
          rw [e1, e2, e3, List.append_nil]
          exact ⟨a1, a2, a3⟩
        · rw [put_side_self, put_q_self, pop_q_self]
          exact ⟨b1, b2, b3, b4, b5, fun i hi => b6 i (by rw [hq]; exact List.mem_cons_of_mem _ hi)⟩

/-- Contacts who found each other by PIN, with a server that has no directory. One resets. The other offers a key exchange
of the directory kind, which the first cannot open. From then on neither has a ratchet, whatever they do, other than that
the second also resets (which fails with an error, but removes the half ratchet). -/
theorem C85_reset_violated : ∃ s, Reach K12 s ∧ Rest s ∧ Contacts false K12 s ∧
    ∃ s', s' = exec false s [.reset true, .recv false 0 ⟨31, 32, 33⟩, .recv true 0 ⟨0, 0, 0⟩] ∧ Rest s' ∧
    ∀ t, Runs false K12 (fun _ e => e ≠ .reset false) s' t → ∀ w, (t.side w).full = none := by
  obtain ⟨h1, h2, h3⟩ := meet_contacts
  refine ⟨_, h1, h2, h3, _, rfl, ?_, ?_⟩
  · intro w; cases w <;> decide +kernel
  · intro t ht
    have : Broken t := by
      induction ht with
      | refl =>
        have hq : (exec false (exec false init meet) [.reset true, .recv false 0 ⟨31, 32, 33⟩, .recv true 0 ⟨0, 0, 0⟩]).q false
            = [] := by decide +kernel
        refine ⟨⟨by decide +kernel, by decide +kernel, by decide +kernel⟩, by decide +kernel, by decide +kernel,
          by decide +kernel, by decide +kernel, by decide +kernel, by rw [hq]; intro it hi; cases hi⟩
      | tail e _ ho ih => exact broken_step ih e ho
    intro w
    cases w
    · exact this.2.2.2.1
    · exact this.1.1

/-- The way out: the second resets too, in vain but for the half ratchet, and they start over with a PIN. -/
example : ((exec false (exec false init meet) [.reset true, .recv false 0 ⟨31, 32, 33⟩, .recv true 0 ⟨0, 0, 0⟩,
    .reset false, .fetch false 7, .yes false ⟨0, 42, 43⟩, .recv true 0 ⟨0, 52, 53⟩, .recv false 0 ⟨0, 0, 0⟩,
    .send true 60 61 62 [9], .recv false 0 ⟨0, 0, 0⟩]).side false).shown = [[9]] := by
  decide +kernel

end Verif.PinContact
