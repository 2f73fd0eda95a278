import Verif.Model.Sessions
import Verif.Proofs.GoMap
import Mathlib.Tactic.Common

/-! # C37: one live session per account, and every live session can be found -/

namespace Verif.Sessions

open Verif

/-- The connection has gone online and not offline. -/
def Live : Pc → Prop
  | .onlined | .registered | .running | .blocked | .quitting | .leaked => True
  | _ => False

instance : DecidablePred Live := by intro p; cases p <;> simp only [Live] <;> infer_instance

/-! ## At most one session is online -/

/-- `Account.online` contains exactly the connections that have gone online and not offline. -/
def Owned (s : State) : Prop :=
  ∀ id c, s.online.get id = some c ↔ ∃ k, s.conns.get c = some k ∧ k.id = id ∧ Live k.pc

theorem get_put (s : State) (c c' : Nat) (k : Conn) :
    (s.put c k).conns.get c' = if c = c' then some k else s.conns.get c' := GoMap.get_set _ _ _ _

theorem owned_put {s : State} {c : Nat} {k k' : Conn} (h : Owned s) (hk : s.conns.get c = some k)
    (hid : k'.id = k.id) (hl : Live k'.pc ↔ Live k.pc) : Owned (s.put c k') := by
  intro id x
  show s.online.get id = some x ↔ _
  rw [h id x]
  constructor
  · rintro ⟨q, hq, h1, h2⟩
    by_cases e : c = x
    · subst e
      rw [hk] at hq; cases hq
      exact ⟨k', by rw [get_put, if_pos rfl], hid.trans h1, hl.2 h2⟩
    · exact ⟨q, by rw [get_put, if_neg e]; exact hq, h1, h2⟩
  · rintro ⟨q, hq, h1, h2⟩
    rw [get_put] at hq
    split at hq
    · next e =>
      subst e
      cases hq
      exact ⟨k, hk, hid.symm.trans h1, hl.1 h2⟩
    · exact ⟨q, hq, h1, h2⟩

theorem owned_close {s : State} {c : Nat} (h : Owned s) : Owned (s.close c) := by
  unfold State.close
  split
  · exact h
  · next k hk => exact owned_put h hk rfl Iff.rfl

/-- Only the connections and `online` matter. -/
theorem owned_congr {s s' : State} (h : Owned s) (h1 : s'.conns = s.conns) (h2 : s'.online = s.online) : Owned s' := by
  intro id c; rw [h1, h2]; exact h id c

theorem close_get (s : State) (o c : Nat) :
    (s.close o).conns.get c = if o = c then (s.conns.get c).map (fun k => { k with closed := true }) else s.conns.get c := by
  unfold State.close
  split
  · next h =>
    split
    · next e => subst e; rw [h]; rfl
    · rfl
  · next k h =>
    rw [get_put]
    split
    · next e => subst e; rw [h]; rfl
    · rfl

theorem close_online (s : State) (o : Nat) : (s.close o).online = s.online := by unfold State.close; split <;> rfl
theorem close_table (s : State) (o : Nat) : (s.close o).table = s.table := by unfold State.close; split <;> rfl

theorem at_some {s s' : State} {c : Nat} {pc : Pc} {f : Conn → State} (h : s.at c pc f = some s') :
    ∃ k, s.conns.get c = some k ∧ k.pc = pc ∧ f k = s' := by
  unfold State.at at h
  split at h
  · cases h
  · next k hk =>
    split at h
    · next hp => exact ⟨k, hk, hp, Option.some.inj h⟩
    · cases h

theorem owned_step {s s' : State} {e : Ev} (h : Owned s) (hs : step s e = some s') : Owned s' := by
  cases e with
  | connect c id =>
    simp only [step] at hs
    split at hs
    · cases hs
    · next hn =>
      simp only [Option.some.injEq] at hs; subst hs
      have hc : s.conns.get c = none := by
        rcases hx : s.conns.get c with _ | k
        · rfl
        · exact absurd (.inl (by rw [hx]; rfl)) hn
      intro id' x
      show s.online.get id' = some x ↔ _
      rw [h id' x]
      constructor
      · rintro ⟨q, hq, h1, h2⟩
        have e : c ≠ x := by rintro rfl; rw [hc] at hq; cases hq
        exact ⟨q, by rw [get_put, if_neg e]; exact hq, h1, h2⟩
      · rintro ⟨q, hq, h1, h2⟩
        rw [get_put] at hq
        split at hq
        · cases hq; exact h2.elim
        · exact ⟨q, hq, h1, h2⟩
  | goOnline c =>
    obtain ⟨k, hk, hp, hs⟩ := at_some hs
    split at hs
    · subst hs; exact owned_put h hk rfl (by simp [Live, hp])
    · next hn =>
      subst hs
      have hnone : s.online.get k.id = none := by simpa using hn
      intro id x
      show (s.online.set k.id c).get id = some x ↔ ∃ q, (s.put c { k with pc := .onlined }).conns.get x = some q ∧ _
      rw [GoMap.get_set]
      constructor
      · intro h1
        split at h1
        · next e =>
          cases h1
          exact ⟨{ k with pc := .onlined }, by rw [get_put, if_pos rfl], e, trivial⟩
        · obtain ⟨q, hq, h2, h3⟩ := (h id x).1 h1
          have e : c ≠ x := by rintro rfl; rw [hk] at hq; cases hq; rw [hp] at h3; exact h3.elim
          exact ⟨q, by rw [get_put, if_neg e]; exact hq, h2, h3⟩
      · rintro ⟨q, hq, h1, h2⟩
        rw [get_put] at hq
        split at hq
        · next e => subst e; cases hq; rw [if_pos h1]
        · have := (h id x).2 ⟨q, hq, h1, h2⟩
          rw [if_neg (by rintro rfl; rw [hnone] at this; cases this)]
          exact this
  | knock c =>
    obtain ⟨k, hk, hp, hs⟩ := at_some hs
    split at hs
    · next o ho =>
      subst hs
      have h1 : (s.close o).conns.get c = some k ∨ (s.close o).conns.get c = some { k with closed := true } := by
        rw [close_get, hk]; split
        · right; rfl
        · left; rfl
      refine owned_congr (s := (s.close o).put c { k with pc := .ended }) ?_ rfl rfl
      rcases h1 with h1 | h1
      · exact owned_put (owned_close h) h1 rfl (by simp [Live, hp])
      · exact owned_put (owned_close h) h1 rfl (by simp [Live, hp])
    · subst hs; exact owned_put h hk rfl (by simp [Live, hp])
  | register c =>
    obtain ⟨k, hk, hp, hs⟩ := at_some hs
    subst hs
    exact owned_congr (owned_put (k' := { k with pc := .registered }) h hk rfl (by simp [Live, hp])) rfl rfl
  | push c ok =>
    obtain ⟨k, hk, hp, hs⟩ := at_some hs
    split at hs <;> (subst hs; exact owned_put h hk rfl (by simp [Live, hp]))
  | request c =>
    obtain ⟨k, hk, hp, hs⟩ := at_some hs
    split at hs <;> (subst hs; exact owned_put h hk rfl (by simp [Live, hp]))
  | unblock c =>
    simp only [step] at hs
    split at hs
    · cases hs
    · next k hk =>
      split at hs
      · next hp => cases hs; exact owned_put h hk rfl (by simp [Live, hp.1])
      · cases hs
  | drain c =>
    simp only [step] at hs
    split at hs
    · cases hs
    · next k hk =>
      split at hs
      · cases hs; exact owned_put h hk rfl Iff.rfl
      · cases hs
  | writerDies c =>
    simp only [step] at hs
    split at hs
    · cases hs
    · next k hk =>
      split at hs
      · cases hs; exact owned_put h hk rfl Iff.rfl
      · cases hs
  | leave c =>
    obtain ⟨k, hk, hp, hs⟩ := at_some hs
    subst hs; exact owned_put h hk rfl (by simp [Live, hp])
  | offline c =>
    obtain ⟨k, hk, hp, hs⟩ := at_some hs
    subst hs
    have hown : s.online.get k.id = some c := (h k.id c).2 ⟨k, hk, rfl, by simp [Live, hp]⟩
    intro id x
    show (s.online.del k.id).get id = some x ↔ ∃ q, (s.put c { k with pc := .offed }).conns.get x = some q ∧ _
    rw [GoMap.get_del]
    constructor
    · intro h1
      split at h1
      · cases h1
      · next hne =>
        obtain ⟨q, hq, h2, h3⟩ := (h id x).1 h1
        have e : c ≠ x := by rintro rfl; rw [hk] at hq; cases hq; exact hne h2
        exact ⟨q, by rw [get_put, if_neg e]; exact hq, h2, h3⟩
    · rintro ⟨q, hq, h1, h2⟩
      rw [get_put] at hq
      split at hq
      · cases hq; exact h2.elim
      · next hne =>
        have := (h id x).2 ⟨q, hq, h1, h2⟩
        rw [if_neg (by rintro rfl; rw [hown] at this; cases this; exact hne rfl)]
        exact this
  | unregister c =>
    obtain ⟨k, hk, hp, hs⟩ := at_some hs
    subst hs
    exact owned_congr (owned_put (k' := { k with pc := .ended }) h hk rfl (by simp [Live, hp])) rfl rfl
  | hangup c =>
    simp only [step] at hs
    split at hs
    · cases hs
    · cases hs; exact owned_close h
  | disable id =>
    simp only [step, Option.some.injEq] at hs
    subst hs
    exact owned_congr h rfl rfl
  | kick id =>
    simp only [step] at hs
    split at hs
    · cases hs; exact owned_close h
    · cases hs; exact h
  | enable id =>
    simp only [step, Option.some.injEq] at hs
    subst hs
    exact owned_congr h rfl rfl

theorem owned_init : Owned init := by
  intro id c
  simp [init]

theorem owned_run {G : State → Ev → Prop} {s s' : State} {es : List Ev} (h : Owned s) (hr : Run G s es s') : Owned s' := by
  induction hr with
  | nil => exact h
  | cons _ hs _ ih => exact ih (owned_step h hs)

/-- **C37** At any time at most one connection is online for an account. -/
theorem C37_one_online (s : State) (hr : Reach (fun _ _ => True) s) (c c' : Nat) (k k' : Conn)
    (hc : s.conns.get c = some k) (hc' : s.conns.get c' = some k') (hid : k.id = k'.id)
    (hl : Live k.pc) (hl' : Live k'.pc) : c = c' := by
  obtain ⟨es, hr⟩ := hr
  have h := owned_run owned_init hr
  have h1 := (h k.id c).2 ⟨k, hc, rfl, hl⟩
  have h2 := (h k.id c').2 ⟨k', hc', hid.symm, hl'⟩
  rw [h1] at h2
  exact Option.some.inj h2

/-! ## The table -/

/-- No reader blocks, no `Push` fails, and nobody logs in while the previous session of the account is
between `Offline` and the deletion of its entry. -/
def Good : State → Ev → Prop
  | _, .push _ ok => ok = true
  | s, .request c => ∀ k, s.conns.get c = some k → k.queue < 32
  | s, .goOnline c => ∀ k, s.conns.get c = some k → ∀ c' k', s.conns.get c' = some k' → k'.id = k.id → k'.pc ≠ .offed
  | _, _ => True

/-- Between registration and `Offline`. -/
def Registered : Pc → Prop
  | .registered | .running | .blocked | .quitting => True
  | _ => False

structure Tab (s : State) : Prop where
  owned : Owned s
  /-- what the table contains -/
  entry : ∀ id c, s.table.get id = some c → ∃ k, s.conns.get c = some k ∧ k.id = id ∧ (Registered k.pc ∨ k.pc = .offed)
  /-- what it has to contain -/
  listed : ∀ c k, s.conns.get c = some k → Registered k.pc →
    s.table.get k.id = some c ∨ (s.table.get k.id = none ∧ k.closed = true)
  offed : ∀ c k, s.conns.get c = some k → k.pc = .offed → s.online.get k.id = none
  offUniq : ∀ c k c' k', s.conns.get c = some k → s.conns.get c' = some k' → k.pc = .offed → k'.pc = .offed →
    k.id = k'.id → c = c'
  onlined : ∀ c k, s.conns.get c = some k → k.pc = .onlined → s.table.get k.id = none
  noLeak : ∀ c k, s.conns.get c = some k → k.pc ≠ .leaked ∧ k.pc ≠ .blocked

/-- Uniqueness carries over when nobody newly goes offline. -/
theorem offUniq_of {s s' : State} (h : Tab s)
    (hg : ∀ c q, s'.conns.get c = some q → q.pc = .offed → ∃ q0, s.conns.get c = some q0 ∧ q.id = q0.id ∧ q0.pc = .offed) :
    ∀ c k c' k', s'.conns.get c = some k → s'.conns.get c' = some k' → k.pc = .offed → k'.pc = .offed →
    k.id = k'.id → c = c' := by
  intro c k c' k' h1 h2 h3 h4 h5
  obtain ⟨q, hq, hi, ho⟩ := hg c k h1 h3
  obtain ⟨q', hq', hi', ho'⟩ := hg c' k' h2 h4
  exact h.offUniq c q c' q' hq hq' ho ho' (by rw [← hi, ← hi', h5])

/-- A connection changes in a way that does not matter. -/
theorem tab_put {s : State} {c : Nat} {k k' : Conn} (h : Tab s) (hk : s.conns.get c = some k)
    (hid : k'.id = k.id) (hl : Live k'.pc ↔ Live k.pc) (hr : Registered k'.pc ↔ Registered k.pc)
    (ho : k'.pc = .offed ↔ k.pc = .offed) (hon : k'.pc = .onlined ↔ k.pc = .onlined)
    (hcl : k.closed = true → k'.closed = true) (hleak : k'.pc ≠ .leaked ∧ k'.pc ≠ .blocked) : Tab (s.put c k') := by
  have hgen : ∀ c' q, (s.put c k').conns.get c' = some q → ∃ q0, s.conns.get c' = some q0 ∧ q.id = q0.id ∧
      (Registered q.pc → Registered q0.pc) ∧ (q.pc = .offed → q0.pc = .offed) ∧ (q.pc = .onlined → q0.pc = .onlined) ∧
      (q0.closed = true → q.closed = true) := by
    intro c' q hq
    rw [get_put] at hq
    split at hq
    · next e => subst e; cases hq; exact ⟨k, hk, hid, hr.1, ho.1, hon.1, hcl⟩
    · exact ⟨q, hq, rfl, id, id, id, id⟩
  refine ⟨owned_put h.owned hk hid hl, ?_, ?_, ?_, offUniq_of h fun x q hx hq => (let ⟨q0, h1, h2, _, h4, _⟩ := hgen x q hx; ⟨q0, h1, h2, h4 hq⟩), ?_, ?_⟩
  · intro id x hx
    obtain ⟨q, hq, h1, h2⟩ := h.entry id x hx
    by_cases e : c = x
    · subst e
      rw [hk] at hq; cases hq
      exact ⟨k', by rw [get_put, if_pos rfl], hid.trans h1, h2.imp hr.2 ho.2⟩
    · exact ⟨q, by rw [get_put, if_neg e]; exact hq, h1, h2⟩
  · intro x q hx hq
    obtain ⟨q0, h1, h2, h3, _, _, h6⟩ := hgen x q hx
    rw [h2]
    exact (h.listed x q0 h1 (h3 hq)).imp_right fun ⟨a, b⟩ => ⟨a, h6 b⟩
  · intro x q hx hq
    obtain ⟨q0, h1, h2, _, h4, _⟩ := hgen x q hx
    rw [h2]; exact h.offed x q0 h1 (h4 hq)
  · intro x q hx hq
    obtain ⟨q0, h1, h2, _, _, h5, _⟩ := hgen x q hx
    rw [h2]; exact h.onlined x q0 h1 (h5 hq)
  · intro x q hx
    rw [get_put] at hx
    split at hx
    · cases hx; exact hleak
    · exact h.noLeak x q hx

theorem tab_close {s : State} {c : Nat} (h : Tab s) : Tab (s.close c) := by
  unfold State.close
  split
  · exact h
  · next k hk => exact tab_put h hk rfl Iff.rfl Iff.rfl Iff.rfl Iff.rfl (fun _ => rfl) (h.noLeak c k hk)

theorem live_of_registered {p : Pc} (h : Registered p) : Live p := by cases p <;> simp_all [Registered, Live]

theorem tab_step {s s' : State} {e : Ev} (h : Tab s) (hg : Good s e) (hs : step s e = some s') : Tab s' := by
  have hown := owned_step h.owned hs
  cases e with
  | connect c id =>
    simp only [step] at hs
    split at hs
    · cases hs
    · next hn =>
      simp only [Option.some.injEq] at hs; subst hs
      have hc : s.conns.get c = none := by
        rcases hx : s.conns.get c with _ | k
        · rfl
        · exact absurd (.inl (by rw [hx]; rfl)) hn
      refine ⟨hown, ?_, ?_, ?_, offUniq_of h (by
        intro x q hx hq
        have hx : (s.put c _).conns.get x = some q := hx
        rw [get_put] at hx
        split at hx
        · cases hx; cases hq
        · exact ⟨q, hx, rfl, hq⟩), ?_, ?_⟩
      · intro id' x hx
        obtain ⟨q, hq, h1, h2⟩ := h.entry id' x hx
        have e : c ≠ x := by rintro rfl; rw [hc] at hq; cases hq
        exact ⟨q, by rw [get_put, if_neg e]; exact hq, h1, h2⟩
      · intro x q hx hq
        rw [get_put] at hx
        split at hx
        · cases hx; exact hq.elim
        · exact h.listed x q hx hq
      · intro x q hx hq
        rw [get_put] at hx
        split at hx
        · cases hx; cases hq
        · exact h.offed x q hx hq
      · intro x q hx hq
        rw [get_put] at hx
        split at hx
        · cases hx; cases hq
        · exact h.onlined x q hx hq
      · intro x q hx
        rw [get_put] at hx
        split at hx
        · cases hx; simp
        · exact h.noLeak x q hx
  | goOnline c =>
    obtain ⟨k, hk, hp, hs⟩ := at_some hs
    split at hs
    · subst hs
      exact tab_put h hk rfl (by simp [Live, hp]) (by simp [Registered, hp]) (by simp [hp]) (by simp [hp])
        (fun h => h) (by simp)
    · next hn =>
      subst hs
      have hnone : s.online.get k.id = none := by simpa using hn
      have htab : s.table.get k.id = none := by
        rcases hx : s.table.get k.id with _ | o
        · rfl
        · obtain ⟨q, hq, h1, h2⟩ := h.entry _ _ hx
          rcases h2 with h2 | h2
          · have := (h.owned k.id o).2 ⟨q, hq, h1, live_of_registered h2⟩
            rw [hnone] at this; cases this
          · exact absurd h2 (hg k hk o q hq h1)
      refine ⟨hown, ?_, ?_, ?_, offUniq_of h (by
        intro x q hx hq
        have hx : (s.put c _).conns.get x = some q := hx
        rw [get_put] at hx
        split at hx
        · cases hx; cases hq
        · exact ⟨q, hx, rfl, hq⟩), ?_, ?_⟩
      · intro id x hx
        obtain ⟨q, hq, h1, h2⟩ := h.entry id x hx
        have e : c ≠ x := by rintro rfl; rw [hk] at hq; cases hq; rw [hp] at h2; simp [Registered] at h2
        exact ⟨q, by show (s.put c _).conns.get x = _; rw [get_put, if_neg e]; exact hq, h1, h2⟩
      · intro x q hx hq
        have hx : (s.put c { k with pc := .onlined }).conns.get x = some q := hx
        rw [get_put] at hx
        split at hx
        · cases hx; exact hq.elim
        · exact h.listed x q hx hq
      · intro x q hx hq
        have hx : (s.put c { k with pc := .onlined }).conns.get x = some q := hx
        rw [get_put] at hx
        split at hx
        · cases hx; cases hq
        · show (s.online.set k.id c).get q.id = none
          rw [GoMap.get_set, if_neg]
          · exact h.offed x q hx hq
          · intro e; exact hg k hk x q hx e.symm hq
      · intro x q hx hq
        have hx : (s.put c { k with pc := .onlined }).conns.get x = some q := hx
        rw [get_put] at hx
        split at hx
        · cases hx; exact htab
        · exact h.onlined x q hx hq
      · intro x q hx
        have hx : (s.put c { k with pc := .onlined }).conns.get x = some q := hx
        rw [get_put] at hx
        split at hx
        · cases hx; simp
        · exact h.noLeak x q hx
  | knock c =>
    obtain ⟨k, hk, hp, hs⟩ := at_some hs
    split at hs
    · next o ho =>
      subst hs
      have hc' : ∃ k1, (s.close o).conns.get c = some k1 ∧ k1.pc = .conflict ∧ k1.id = k.id := by
        rw [close_get, hk]; split
        · exact ⟨_, rfl, hp, rfl⟩
        · exact ⟨_, rfl, hp, rfl⟩
      obtain ⟨k1, hk1, hp1, hid1⟩ := hc'
      have h1 : Tab ((s.close o).put c { k with pc := .ended }) :=
        ⟨owned_put (owned_close h.owned) hk1 hid1.symm (by simp [Live, hp1]), by
          intro id x hx
          obtain ⟨q, hq, h2, h3⟩ := (tab_close (c := o) h).entry id x hx
          have e : c ≠ x := by rintro rfl; rw [hk1] at hq; cases hq; rw [hp1] at h3; simp [Registered] at h3
          exact ⟨q, by rw [get_put, if_neg e]; exact hq, h2, h3⟩, by
          intro x q hx hq
          rw [get_put] at hx
          split at hx
          · cases hx; exact hq.elim
          · exact (tab_close (c := o) h).listed x q hx hq, by
          intro x q hx hq
          rw [get_put] at hx
          split at hx
          · cases hx; cases hq
          · exact (tab_close (c := o) h).offed x q hx hq, offUniq_of (tab_close (c := o) h) (by
          intro x q hx hq
          rw [get_put] at hx
          split at hx
          · cases hx; cases hq
          · exact ⟨q, hx, rfl, hq⟩), by
          intro x q hx hq
          rw [get_put] at hx
          split at hx
          · cases hx; cases hq
          · exact (tab_close (c := o) h).onlined x q hx hq, by
          intro x q hx
          rw [get_put] at hx
          split at hx
          · cases hx; simp
          · exact (tab_close (c := o) h).noLeak x q hx⟩
      obtain ⟨k2, hk2, hid2, hreg2⟩ := h.entry _ _ ho
      refine ⟨hown, ?_, ?_, h1.offed, h1.offUniq, ?_, h1.noLeak⟩
      · intro id x hx
        have hx : (s.table.del k.id).get id = some x := hx
        rw [GoMap.get_del] at hx
        split at hx
        · cases hx
        · exact h1.entry id x (by show (s.close o).table.get id = _; rw [close_table]; exact hx)
      · intro x q hx hq
        show (s.table.del k.id).get q.id = some x ∨ (s.table.del k.id).get q.id = none ∧ _
        rw [GoMap.get_del]
        by_cases e : k.id = q.id
        · right
          rw [if_pos e]
          refine ⟨rfl, ?_⟩
          have hx' : ((s.close o).put c { k with pc := .ended }).conns.get x = some q := hx
          have h5 := h1.listed x q hx' hq
          have h6 : ((s.close o).put c { k with pc := .ended }).table.get q.id = some o := by
            show (s.close o).table.get q.id = _
            rw [close_table, ← e, ho]
          rw [h6] at h5
          rcases h5 with h5 | h5
          · cases h5
            rw [get_put] at hx'
            split at hx'
            · cases hx'; exact hq.elim
            · rw [close_get, if_pos rfl, hk2] at hx'
              cases hx'; rfl
          · cases h5.1
        · rw [if_neg e]
          have h5 := h1.listed x q hx hq
          have h6 : ((s.close o).put c { k with pc := .ended }).table.get q.id = s.table.get q.id := by
            show (s.close o).table.get q.id = _
            rw [close_table]
          rw [h6] at h5; exact h5
      · intro x q hx hq
        show (s.table.del k.id).get q.id = none
        rw [GoMap.get_del]
        split
        · rfl
        · have h5 := h1.onlined x q hx hq
          have h6 : ((s.close o).put c { k with pc := .ended }).table.get q.id = s.table.get q.id := by
            show (s.close o).table.get q.id = _
            rw [close_table]
          rw [h6] at h5; exact h5
    · subst hs
      exact tab_put h hk rfl (by simp [Live, hp]) (by simp [Registered, hp]) (by simp [hp]) (by simp [hp])
        (fun h => h) (by simp)
  | register c =>
    obtain ⟨k, hk, hp, hs⟩ := at_some hs
    subst hs
    have htab := h.onlined c k hk hp
    have hon : s.online.get k.id = some c := (h.owned k.id c).2 ⟨k, hk, rfl, by simp [Live, hp]⟩
    have hgen : ∀ x q, (s.put c { k with pc := .registered }).conns.get x = some q →
        (c = x ∧ q = { k with pc := .registered }) ∨ (c ≠ x ∧ s.conns.get x = some q) := by
      intro x q hx
      rw [get_put] at hx
      split at hx
      · next e => cases hx; exact .inl ⟨e, rfl⟩
      · next e => exact .inr ⟨e, hx⟩
    refine ⟨hown, ?_, ?_, ?_, offUniq_of h (by
        intro x q hx hq
        have hx : (s.put c _).conns.get x = some q := hx
        rw [get_put] at hx
        split at hx
        · cases hx; cases hq
        · exact ⟨q, hx, rfl, hq⟩), ?_, ?_⟩
    · intro id x hx
      have hx : (s.table.set k.id c).get id = some x := hx
      rw [GoMap.get_set] at hx
      split at hx
      · next e =>
        cases hx
        exact ⟨{ k with pc := .registered }, by show (s.put c _).conns.get c = _; rw [get_put, if_pos rfl], e, .inl trivial⟩
      · obtain ⟨q, hq, h1, h2⟩ := h.entry id x hx
        have e : c ≠ x := by rintro rfl; rw [hk] at hq; cases hq; rw [hp] at h2; simp [Registered] at h2
        exact ⟨q, by show (s.put c _).conns.get x = _; rw [get_put, if_neg e]; exact hq, h1, h2⟩
    · intro x q hx hq
      show (s.table.set k.id c).get q.id = some x ∨ (s.table.set k.id c).get q.id = none ∧ _
      rw [GoMap.get_set]
      rcases hgen x q hx with ⟨rfl, rfl⟩ | ⟨e, hx'⟩
      · left; rw [if_pos rfl]
      · have hne : k.id ≠ q.id := by
          intro e'
          have := (h.owned q.id x).2 ⟨q, hx', rfl, live_of_registered hq⟩
          rw [← e', hon] at this; cases this; exact e rfl
        rw [if_neg hne]; exact h.listed x q hx' hq
    · intro x q hx hq
      rcases hgen x q hx with ⟨rfl, rfl⟩ | ⟨e, hx'⟩
      · cases hq
      · exact h.offed x q hx' hq
    · intro x q hx hq
      show (s.table.set k.id c).get q.id = none
      rw [GoMap.get_set]
      rcases hgen x q hx with ⟨rfl, rfl⟩ | ⟨e, hx'⟩
      · cases hq
      · have hne : k.id ≠ q.id := by
          intro e'
          have := (h.owned q.id x).2 ⟨q, hx', rfl, by simp [Live, hq]⟩
          rw [← e', hon] at this; cases this; exact e rfl
        rw [if_neg hne]; exact h.onlined x q hx' hq
    · intro x q hx
      rcases hgen x q hx with ⟨rfl, rfl⟩ | ⟨e, hx'⟩
      · simp
      · exact h.noLeak x q hx'
  | push c ok =>
    obtain ⟨k, hk, hp, hs⟩ := at_some hs
    have hok : ok = true := hg
    rw [if_pos hok] at hs
    subst hs
    exact tab_put h hk rfl (by simp [Live, hp]) (by simp [Registered, hp]) (by simp [hp]) (by simp [hp])
        (fun h => h) (by simp)
  | request c =>
    obtain ⟨k, hk, hp, hs⟩ := at_some hs
    rw [if_pos (hg k hk)] at hs
    subst hs
    exact tab_put h hk rfl Iff.rfl Iff.rfl Iff.rfl Iff.rfl (fun h => h) (h.noLeak c k hk)
  | unblock c =>
    simp only [step] at hs
    split at hs
    · cases hs
    · next k hk =>
      split at hs
      · next hp => exact absurd hp.1 (h.noLeak c k hk).2
      · cases hs
  | drain c =>
    simp only [step] at hs
    split at hs
    · cases hs
    · next k hk =>
      split at hs
      · cases hs; exact tab_put h hk rfl Iff.rfl Iff.rfl Iff.rfl Iff.rfl (fun h => h) (h.noLeak c k hk)
      · cases hs
  | writerDies c =>
    simp only [step] at hs
    split at hs
    · cases hs
    · next k hk =>
      split at hs
      · cases hs; exact tab_put h hk rfl Iff.rfl Iff.rfl Iff.rfl Iff.rfl (fun h => rfl) (h.noLeak c k hk)
      · cases hs
  | leave c =>
    obtain ⟨k, hk, hp, hs⟩ := at_some hs
    subst hs
    exact tab_put h hk rfl (by simp [Live, hp]) (by simp [Registered, hp]) (by simp [hp]) (by simp [hp])
        (fun h => h) (by simp)
  | offline c =>
    obtain ⟨k, hk, hp, hs⟩ := at_some hs
    subst hs
    have hon : s.online.get k.id = some c := (h.owned k.id c).2 ⟨k, hk, rfl, by simp [Live, hp]⟩
    have hgen : ∀ x q, (s.put c { k with pc := .offed }).conns.get x = some q →
        (c = x ∧ q = { k with pc := .offed }) ∨ (c ≠ x ∧ s.conns.get x = some q) := by
      intro x q hx
      rw [get_put] at hx
      split at hx
      · next e => cases hx; exact .inl ⟨e, rfl⟩
      · next e => exact .inr ⟨e, hx⟩
    refine ⟨hown, ?_, ?_, ?_, ?_, ?_, ?_⟩
    · intro id x hx
      obtain ⟨q, hq, h1, h2⟩ := h.entry id x hx
      by_cases e : c = x
      · subst e
        rw [hk] at hq; cases hq
        exact ⟨{ k with pc := .offed }, by show (s.put c _).conns.get c = _; rw [get_put, if_pos rfl], h1, .inr rfl⟩
      · exact ⟨q, by show (s.put c _).conns.get x = _; rw [get_put, if_neg e]; exact hq, h1, h2⟩
    · intro x q hx hq
      rcases hgen x q hx with ⟨rfl, rfl⟩ | ⟨e, hx'⟩
      · exact hq.elim
      · exact h.listed x q hx' hq
    · intro x q hx hq
      show (s.online.del k.id).get q.id = none
      rw [GoMap.get_del]
      rcases hgen x q hx with ⟨rfl, rfl⟩ | ⟨e, hx'⟩
      · rw [if_pos rfl]
      · split
        · rfl
        · exact h.offed x q hx' hq
    · intro x q x' q' hx hx' hq hq' hid
      rcases hgen x q hx with ⟨rfl, rfl⟩ | ⟨e, hx1⟩ <;> rcases hgen x' q' hx' with ⟨rfl, rfl⟩ | ⟨e', hx1'⟩
      · rfl
      · have := h.offed x' q' hx1' hq'
        rw [← hid, hon] at this; cases this
      · have := h.offed x q hx1 hq
        rw [hid, hon] at this; cases this
      · exact h.offUniq x q x' q' hx1 hx1' hq hq' hid
    · intro x q hx hq
      rcases hgen x q hx with ⟨rfl, rfl⟩ | ⟨e, hx'⟩
      · cases hq
      · exact h.onlined x q hx' hq
    · intro x q hx
      rcases hgen x q hx with ⟨rfl, rfl⟩ | ⟨e, hx'⟩
      · simp
      · exact h.noLeak x q hx'
  | unregister c =>
    obtain ⟨k, hk, hp, hs⟩ := at_some hs
    subst hs
    have hoff := h.offed c k hk hp
    have hgen : ∀ x q, (s.put c { k with pc := .ended }).conns.get x = some q →
        (c = x ∧ q = { k with pc := .ended }) ∨ (c ≠ x ∧ s.conns.get x = some q) := by
      intro x q hx
      rw [get_put] at hx
      split at hx
      · next e => cases hx; exact .inl ⟨e, rfl⟩
      · next e => exact .inr ⟨e, hx⟩
    refine ⟨hown, ?_, ?_, ?_, offUniq_of h (by
        intro x q hx hq
        have hx : (s.put c _).conns.get x = some q := hx
        rw [get_put] at hx
        split at hx
        · cases hx; cases hq
        · exact ⟨q, hx, rfl, hq⟩), ?_, ?_⟩
    · intro id x hx
      have hx : (s.table.del k.id).get id = some x := hx
      rw [GoMap.get_del] at hx
      split at hx
      · cases hx
      · next hne =>
        obtain ⟨q, hq, h1, h2⟩ := h.entry id x hx
        have e : c ≠ x := by rintro rfl; rw [hk] at hq; cases hq; exact hne h1
        exact ⟨q, by show (s.put c _).conns.get x = _; rw [get_put, if_neg e]; exact hq, h1, h2⟩
    · intro x q hx hq
      show (s.table.del k.id).get q.id = some x ∨ (s.table.del k.id).get q.id = none ∧ _
      rcases hgen x q hx with ⟨rfl, rfl⟩ | ⟨e, hx'⟩
      · exact hq.elim
      · have hne : k.id ≠ q.id := by
          intro e'
          have := (h.owned q.id x).2 ⟨q, hx', rfl, live_of_registered hq⟩
          rw [← e', hoff] at this; cases this
        rw [GoMap.get_del, if_neg hne]
        exact h.listed x q hx' hq
    · intro x q hx hq
      rcases hgen x q hx with ⟨rfl, rfl⟩ | ⟨e, hx'⟩
      · cases hq
      · exact h.offed x q hx' hq
    · intro x q hx hq
      show (s.table.del k.id).get q.id = none
      rcases hgen x q hx with ⟨rfl, rfl⟩ | ⟨e, hx'⟩
      · cases hq
      · rw [GoMap.get_del]
        split
        · rfl
        · exact h.onlined x q hx' hq
    · intro x q hx
      rcases hgen x q hx with ⟨rfl, rfl⟩ | ⟨e, hx'⟩
      · simp
      · exact h.noLeak x q hx'
  | hangup c =>
    simp only [step] at hs
    split at hs
    · cases hs
    · cases hs; exact tab_close h
  | disable id =>
    simp only [step, Option.some.injEq] at hs
    subst hs
    exact ⟨hown, h.entry, h.listed, h.offed, h.offUniq, h.onlined, h.noLeak⟩
  | kick id =>
    simp only [step] at hs
    split at hs
    · cases hs; exact tab_close h
    · cases hs; exact h
  | enable id =>
    simp only [step, Option.some.injEq] at hs
    subst hs
    exact ⟨hown, h.entry, h.listed, h.offed, h.offUniq, h.onlined, h.noLeak⟩

theorem tab_init : Tab init :=
  ⟨owned_init, by simp [init], by simp [init], by simp [init], by simp [init], by simp [init], by simp [init]⟩

theorem tab_run {s s' : State} {es : List Ev} (h : Tab s) (hr : Run Good s es s') : Tab s' := by
  induction hr with
  | nil => exact h
  | cons hg hs _ ih => exact ih (tab_step h hg hs)

/-- No connection of the account is on its way in or out. -/
def Settled (s : State) (id : Id) : Prop :=
  ∀ c k, s.conns.get c = some k → k.id = id →
    k.pc = .checked ∨ k.pc = .conflict ∨ k.pc = .ended ∨ (k.pc = .running ∧ k.closed = false)

/-- **C37** If no reader blocks, no `Push` fails and nobody logs in while their old session is between
`Offline` and the deletion of its entry: whenever no connection of an account is on its way in or out, the
table has an entry for it exactly if it is online, and it is the right one. The full statement is false:
see the theorems below. -/
theorem C37_table_partial (s : State) (hr : Reach Good s) (id : Id) (hset : Settled s id) :
    s.table.get id = s.online.get id := by
  obtain ⟨es, hr⟩ := hr
  have h := tab_run tab_init hr
  rcases ho : s.online.get id with _ | c
  · rcases ht : s.table.get id with _ | c
    · rfl
    · obtain ⟨k, hk, h1, h2⟩ := h.entry id c ht
      rcases hset c k hk h1 with e | e | e | ⟨e, -⟩
      · simp [e, Registered] at h2
      · simp [e, Registered] at h2
      · simp [e, Registered] at h2
      · have := (h.owned id c).2 ⟨k, hk, h1, by simp [e, Live]⟩
        rw [ho] at this; cases this
  · obtain ⟨k, hk, h1, h2⟩ := (h.owned id c).1 ho
    rcases hset c k hk h1 with e | e | e | ⟨e, h3⟩
    · simp [e, Live] at h2
    · simp [e, Live] at h2
    · simp [e, Live] at h2
    · rcases h.listed c k hk (by simp [e, Registered]) with h4 | ⟨_, h4⟩
      · rw [← h1]; exact h4
      · rw [h3] at h4; cases h4

/-- **C37** Under the same conditions, at all times: an entry of the table is the session that is online, or
one that has just gone offline; a session in its loop that has no entry has already been disconnected. -/
theorem C37_entries_partial (s : State) (hr : Reach Good s) (id : Id) :
    (∀ c, s.table.get id = some c → ∃ k, s.conns.get c = some k ∧ k.id = id ∧
      (s.online.get id = some c ∨ (k.pc = .offed ∧ s.online.get id = none))) ∧
    (∀ c k, s.conns.get c = some k → k.id = id → k.pc = .running → s.table.get id = some c ∨ k.closed = true) := by
  obtain ⟨es, hr⟩ := hr
  have h := tab_run tab_init hr
  constructor
  · intro c hc
    obtain ⟨k, hk, h1, h2⟩ := h.entry id c hc
    refine ⟨k, hk, h1, ?_⟩
    rcases h2 with h2 | h2
    · exact .inl ((h.owned id c).2 ⟨k, hk, h1, live_of_registered h2⟩)
    · exact .inr ⟨h2, h1 ▸ h.offed c k hk h2⟩
  · intro c k hk h1 h2
    rcases h.listed c k hk (by simp [h2, Registered]) with h4 | h4
    · exact .inl (h1 ▸ h4)
    · exact .inr h4.2

/-! ## Logging in again -/

/-- Steps that a connection takes by itself on its way out. -/
def Exit (c : Nat) (e : Ev) : Prop :=
  e = .register c ∨ e = .push c true ∨ e = .leave c ∨ e = .offline c ∨ e = .unregister c

theorem step_at {s : State} {c : Nat} {pc : Pc} {f : Conn → State} {k : Conn} (hk : s.conns.get c = some k)
    (hp : k.pc = pc) : s.at c pc f = some (f k) := by
  unfold State.at; rw [hk]; simp [hp]

theorem run_cons_iff {G : State → Ev → Prop} {s s' s'' : State} {e : Ev} {es : List Ev} (hg : G s e)
    (hs : step s e = some s') (hr : Run G s' es s'') : Run G s (e :: es) s'' := .cons hg hs hr

/-- From every point of its life a connection can get out, and then nothing is left of it. -/
theorem exit_run (s : State) (c : Nat) (k : Conn) (hk : s.conns.get c = some k)
    (hp : Live k.pc ∨ k.pc = .offed) (hl : k.pc ≠ .leaked ∧ k.pc ≠ .blocked) :
    ∃ es s', Run Good s es s' ∧ (∀ e ∈ es, Exit c e) ∧ s'.conns.get c = some { s'.conns.get c |>.getD k with pc := .ended } ∧
      (∀ x, x ≠ c → s'.conns.get x = s.conns.get x) ∧
      (Live k.pc → s'.online = s.online.del k.id) ∧ (k.pc = .offed → s'.online = s.online) := by
  have unreg : ∀ (s : State) (k : Conn), s.conns.get c = some k → k.pc = .offed →
      ∃ es s', Run Good s es s' ∧ (∀ e ∈ es, Exit c e) ∧
        s'.conns.get c = some { s'.conns.get c |>.getD k with pc := .ended } ∧
        (∀ x, x ≠ c → s'.conns.get x = s.conns.get x) ∧ s'.online = s.online := by
    intro s k hk hp
    refine ⟨[.unregister c], _, .cons trivial (step_at hk hp) (.nil _), by simp [Exit], ?_, ?_, rfl⟩
    · show (s.put c _).conns.get c = some { (s.put c _).conns.get c |>.getD k with pc := .ended }
      rw [get_put, if_pos rfl]; rfl
    · intro x hx
      show (s.put c _).conns.get x = _
      rw [get_put, if_neg (Ne.symm hx)]
  have off : ∀ (s : State) (k : Conn), s.conns.get c = some k → k.pc = .quitting →
      ∃ es s', Run Good s es s' ∧ (∀ e ∈ es, Exit c e) ∧
        s'.conns.get c = some { s'.conns.get c |>.getD k with pc := .ended } ∧
        (∀ x, x ≠ c → s'.conns.get x = s.conns.get x) ∧ s'.online = s.online.del k.id := by
    intro s k hk hp
    obtain ⟨es, s', h1, h2, h3, h4, h5⟩ := unreg
      { s.put c { k with pc := .offed } with online := s.online.del k.id } { k with pc := .offed }
      (by show (s.put c _).conns.get c = _; rw [get_put, if_pos rfl]) rfl
    refine ⟨.offline c :: es, s', .cons trivial (step_at hk hp) h1, ?_, ?_, ?_, h5⟩
    · intro e he
      rcases List.mem_cons.1 he with rfl | he
      · simp [Exit]
      · exact h2 e he
    · rw [h3]; rfl
    · intro x hx
      rw [h4 x hx]
      show (s.put c _).conns.get x = _
      rw [get_put, if_neg (Ne.symm hx)]
  have lea : ∀ (s : State) (k : Conn), s.conns.get c = some k → k.pc = .running →
      ∃ es s', Run Good s es s' ∧ (∀ e ∈ es, Exit c e) ∧
        s'.conns.get c = some { s'.conns.get c |>.getD k with pc := .ended } ∧
        (∀ x, x ≠ c → s'.conns.get x = s.conns.get x) ∧ s'.online = s.online.del k.id := by
    intro s k hk hp
    obtain ⟨es, s', h1, h2, h3, h4, h5⟩ := off (s.put c { k with pc := .quitting }) { k with pc := .quitting }
      (by rw [get_put, if_pos rfl]) rfl
    refine ⟨.leave c :: es, s', .cons trivial (step_at hk hp) h1, ?_, ?_, ?_, h5⟩
    · intro e he
      rcases List.mem_cons.1 he with rfl | he
      · simp [Exit]
      · exact h2 e he
    · rw [h3]; rfl
    · intro x hx
      rw [h4 x hx, get_put, if_neg (Ne.symm hx)]
  have pus : ∀ (s : State) (k : Conn), s.conns.get c = some k → k.pc = .registered →
      ∃ es s', Run Good s es s' ∧ (∀ e ∈ es, Exit c e) ∧
        s'.conns.get c = some { s'.conns.get c |>.getD k with pc := .ended } ∧
        (∀ x, x ≠ c → s'.conns.get x = s.conns.get x) ∧ s'.online = s.online.del k.id := by
    intro s k hk hp
    obtain ⟨es, s', h1, h2, h3, h4, h5⟩ := lea (s.put c { k with pc := .running, writer := true })
      { k with pc := .running, writer := true } (by rw [get_put, if_pos rfl]) rfl
    refine ⟨.push c true :: es, s', .cons rfl (step_at hk hp) h1, ?_, ?_, ?_, h5⟩
    · intro e he
      rcases List.mem_cons.1 he with rfl | he
      · simp [Exit]
      · exact h2 e he
    · rw [h3]; rfl
    · intro x hx
      rw [h4 x hx, get_put, if_neg (Ne.symm hx)]
  have reg : ∀ (s : State) (k : Conn), s.conns.get c = some k → k.pc = .onlined →
      ∃ es s', Run Good s es s' ∧ (∀ e ∈ es, Exit c e) ∧
        s'.conns.get c = some { s'.conns.get c |>.getD k with pc := .ended } ∧
        (∀ x, x ≠ c → s'.conns.get x = s.conns.get x) ∧ s'.online = s.online.del k.id := by
    intro s k hk hp
    obtain ⟨es, s', h1, h2, h3, h4, h5⟩ := pus
      { s.put c { k with pc := .registered } with table := s.table.set k.id c } { k with pc := .registered }
      (by show (s.put c _).conns.get c = _; rw [get_put, if_pos rfl]) rfl
    refine ⟨.register c :: es, s', .cons trivial (step_at hk hp) h1, ?_, ?_, ?_, h5⟩
    · intro e he
      rcases List.mem_cons.1 he with rfl | he
      · simp [Exit]
      · exact h2 e he
    · rw [h3]; rfl
    · intro x hx
      rw [h4 x hx]
      show (s.put c _).conns.get x = _
      rw [get_put, if_neg (Ne.symm hx)]
  rcases hpc : k.pc
  · simp [hpc, Live] at hp
  · simp [hpc, Live] at hp
  · obtain ⟨es, s', h1, h2, h3, h4, h5⟩ := reg s k hk hpc
    exact ⟨es, s', h1, h2, h3, h4, fun _ => h5, by simp⟩
  · obtain ⟨es, s', h1, h2, h3, h4, h5⟩ := pus s k hk hpc
    exact ⟨es, s', h1, h2, h3, h4, fun _ => h5, by simp⟩
  · obtain ⟨es, s', h1, h2, h3, h4, h5⟩ := lea s k hk hpc
    exact ⟨es, s', h1, h2, h3, h4, fun _ => h5, by simp⟩
  · exact absurd hpc hl.2
  · obtain ⟨es, s', h1, h2, h3, h4, h5⟩ := off s k hk hpc
    exact ⟨es, s', h1, h2, h3, h4, fun _ => h5, by simp⟩
  · obtain ⟨es, s', h1, h2, h3, h4, h5⟩ := unreg s k hk hpc
    exact ⟨es, s', h1, h2, h3, h4, by simp [Live], fun _ => h5⟩
  · simp [hpc, Live] at hp
  · exact absurd hpc hl.1

theorem run_trans {G : State → Ev → Prop} {s s' s'' : State} {es es' : List Ev} (h : Run G s es s')
    (h' : Run G s' es' s'') : Run G s (es ++ es') s'' := by
  induction h with
  | nil => exact h'
  | cons h1 h2 _ ih => exact .cons h1 h2 (ih h')

/-- **C37** Under the same conditions a user can log in again: whatever state the server is in, once the old
connection has taken its own steps out, a new one goes online. -/
theorem C37_relogin_partial (s : State) (hr : Reach Good s) (c : Nat) (k : Conn)
    (hc : s.conns.get c = some k) (hp : k.pc = .checked) :
    ∃ es s', Run Good s (es ++ [.goOnline c]) s' ∧ s'.online.get k.id = some c ∧
      (∀ e ∈ es, ∃ o q, s.conns.get o = some q ∧ q.id = k.id ∧ Exit o e) := by
  obtain ⟨es0, hr⟩ := hr
  have h := tab_run tab_init hr
  have fin : ∀ s' : State, s'.conns.get c = some k → s'.online.get k.id = none →
      (∀ x q, s'.conns.get x = some q → q.id = k.id → q.pc ≠ .offed) →
      ∃ s'', Run Good s' [.goOnline c] s'' ∧ s''.online.get k.id = some c := by
    intro s' h1 h2 h3
    refine ⟨_, .cons ?_ (step_at h1 hp) (.nil _), ?_⟩
    · intro k' hk'
      rw [h1] at hk'; cases hk'
      exact h3
    · simp [h2]
  rcases ho : s.online.get k.id with _ | o
  · by_cases hx : ∃ x q, s.conns.get x = some q ∧ q.id = k.id ∧ q.pc = .offed
    · obtain ⟨x, q, h1, h2, h3⟩ := hx
      obtain ⟨es, s', r1, r2, r3, r4, _, r6⟩ := exit_run s x q h1 (.inr h3) (h.noLeak x q h1)
      have hxc : c ≠ x := by rintro rfl; rw [hc] at h1; cases h1; rw [hp] at h3; cases h3
      have hT := tab_run h r1
      obtain ⟨s'', r7, r8⟩ := fin s' (by rw [r4 c hxc, hc]) (by rw [r6 h3, ho]) (by
        intro y p hy hid hpo
        have hyx : y ≠ x := by
          rintro rfl
          rw [r3] at hy; cases hy; cases hpo
        rw [r4 y hyx] at hy
        exact hyx (h.offUniq y p x q hy h1 hpo h3 (hid.trans h2.symm)))
      exact ⟨es, s'', run_trans r1 r7, r8, fun e he => ⟨x, q, h1, h2, r2 e he⟩⟩
    · obtain ⟨s'', r7, r8⟩ := fin s hc ho fun x q h1 h2 h3 => hx ⟨x, q, h1, h2, h3⟩
      exact ⟨[], s'', r7, r8, by simp⟩
  · obtain ⟨q, h1, h2, h3⟩ := (h.owned k.id o).1 ho
    obtain ⟨es, s', r1, r2, r3, r4, r5, _⟩ := exit_run s o q h1 (.inl h3) (h.noLeak o q h1)
    have hoc : c ≠ o := by rintro rfl; rw [hc] at h1; cases h1; rw [hp] at h3; exact h3.elim
    obtain ⟨s'', r7, r8⟩ := fin s' (by rw [r4 c hoc, hc]) (by rw [r5 h3, h2, GoMap.get_del_self]) (by
      intro y p hy hid hpo
      have hyx : y ≠ o := by
        rintro rfl
        rw [r3] at hy; cases hy; cases hpo
      rw [r4 y hyx] at hy
      have := h.offed y p hy hpo
      rw [hid, ho] at this; cases this)
    exact ⟨es, s'', run_trans r1 r7, r8, fun e he => ⟨o, q, h1, h2, r2 e he⟩⟩

/-! ## What goes wrong -/

/-- Run a list of events. -/
def exec (s : State) : List Ev → Option State
  | [] => some s
  | e :: es => match step s e with | none => none | some s' => exec s' es

theorem run_of_exec {s s' : State} {es : List Ev} (h : exec s es = some s') : Run (fun _ _ => True) s es s' := by
  induction es generalizing s with
  | nil => cases h; exact .nil _
  | cons e es ih =>
    simp only [exec] at h
    split at h
    · cases h
    · next s1 h1 => exact .cons trivial h1 (ih h)

/-- Going online up to the loop. -/
def login (c : Nat) : List Ev := [.goOnline c, .register c, .push c true]

/-- A login with a new connection while the old one is between `Offline` and the deletion of its entry. -/
def raceTrace : List Ev :=
  [.connect 1 [7]] ++ login 1 ++ [.hangup 1, .leave 1, .offline 1, .connect 2 [7]] ++ login 2 ++ [.unregister 1]

/-- **C37** The full statement is false: the old session's deferred function deletes the entry of the new
session, which then runs without one. Nothing is on its way in or out, and nobody has failed. -/
theorem C37_table_violated : ∃ s, Reach (fun _ _ => True) s ∧ Settled s [7] ∧
    s.online.get [7] = some 2 ∧ s.table.get [7] = none := by
  refine ⟨⟨[(1, ⟨[7], .ended, true, true, 0⟩), (2, ⟨[7], .running, false, true, 0⟩)], [([7], 2)], [], []⟩,
    ⟨raceTrace, run_of_exec rfl⟩, ?_, rfl, rfl⟩
  intro c k hk _
  have hm := GoMap.mem_of_get hk
  simp only [List.mem_cons, Prod.mk.injEq, List.not_mem_nil, or_false] at hm
  rcases hm with ⟨-, rfl⟩ | ⟨-, rfl⟩ <;> simp

/-- After that the user can not log in again until that connection ends, not even by the forced logout:
every attempt is answered with an error and disconnects nobody. -/
theorem C37_forced_logout_violated : ∃ s s', Reach (fun _ _ => True) s ∧
    Run (fun _ _ => True) s [.connect 3 [7], .goOnline 3, .knock 3] s' ∧
    (s'.conns.get 3).map Conn.pc = some .ended ∧
    (s'.conns.get 2).map (fun k => (k.pc, k.closed)) = some (.running, false) :=
  ⟨_, _, ⟨raceTrace, run_of_exec rfl⟩, run_of_exec rfl, rfl, rfl⟩

/-- **C37** A connection whose reader waits for room gets out, and its account is free again, as soon as there is room, or
while its writer goes on: by steps of its own. -/
theorem C37_gets_out (n : Nat) (s : State) (c : Nat) (k : Conn) (hc : s.conns.get c = some k) (hp : k.pc = .blocked)
    (hn : k.queue = n) (hq : k.queue < 32 ∨ k.writer = true) :
    ∃ es s', Run (fun _ _ => True) s es s' ∧ (s'.conns.get c).map Conn.pc = some .ended ∧ s'.online.get k.id = none ∧
      ∀ e ∈ es, e = .unblock c ∨ e = .drain c ∨ e = .leave c ∨ e = .offline c ∨ e = .unregister c := by
  induction n generalizing s k with
  | zero =>
    have h1 : k.queue < 32 := by omega
    exact ⟨[.unblock c, .leave c, .offline c, .unregister c], _,
      .cons trivial (by simp only [step, hc, hp, h1, and_self, if_true]; rfl) <|
      .cons trivial (by simp only [step, State.at, State.put, GoMap.get_set_self, if_true]; rfl) <|
      .cons trivial (by simp only [step, State.at, State.put, GoMap.get_set_self, if_true]; rfl) <|
      .cons trivial (by simp only [step, State.at, State.put, GoMap.get_set_self, if_true]; rfl) (.nil _),
      by simp, by simp, by simp⟩
  | succ n ih =>
    by_cases h1 : k.queue < 32
    · exact ⟨[.unblock c, .leave c, .offline c, .unregister c], _,
        .cons trivial (by simp only [step, hc, hp, h1, and_self, if_true]; rfl) <|
        .cons trivial (by simp only [step, State.at, State.put, GoMap.get_set_self, if_true]; rfl) <|
        .cons trivial (by simp only [step, State.at, State.put, GoMap.get_set_self, if_true]; rfl) <|
        .cons trivial (by simp only [step, State.at, State.put, GoMap.get_set_self, if_true]; rfl) (.nil _),
        by simp, by simp, by simp⟩
    · have hw : k.writer = true := hq.resolve_left h1
      have h2 : step s (.drain c) = some (s.put c { k with queue := k.queue - 1 }) := by
        have h3 : 0 < k.queue := by omega
        simp [step, hc, hw, h3]
      obtain ⟨es, s', h4, h5, h6, h7⟩ := ih (s.put c { k with queue := k.queue - 1 }) { k with queue := k.queue - 1 }
        (by simp [State.put]) hp (by simp only; omega) (.inr hw)
      refine ⟨.drain c :: es, s', .cons trivial h2 h4, h5, h6, fun e he => ?_⟩
      rcases List.mem_cons.1 he with rfl | he
      · exact .inr (.inl rfl)
      · exact h7 e he

/-- A connection that can never get out. -/
def Stuck (k : Conn) : Prop := k.pc = .leaked ∨ (k.pc = .blocked ∧ 32 ≤ k.queue ∧ k.writer = false)

instance : DecidablePred Stuck := fun k => by unfold Stuck; infer_instance

/-- The other steps leave a connection alone, except that it may be closed. -/
def Frame (s s' : State) (c : Nat) : Prop :=
  ∀ k, s.conns.get c = some k → ∃ b, s'.conns.get c = some { k with closed := b }

theorem frame_refl (s : State) (c : Nat) : Frame s s c := fun k hk => ⟨k.closed, hk⟩

theorem frame_close (s : State) (o c : Nat) : Frame s (s.close o) c := by
  intro k hk
  rw [close_get, hk]
  split
  · exact ⟨true, rfl⟩
  · exact ⟨k.closed, rfl⟩

theorem frame_put {s : State} {o c : Nat} {k : Conn} (h : o ≠ c) : Frame s (s.put o k) c := by
  intro q hq
  exact ⟨q.closed, by rw [get_put, if_neg h]; exact hq⟩

/-- The connection a step belongs to. -/
def Ev.own (e : Ev) (c : Nat) : Prop :=
  match e with
  | .connect x _ | .goOnline x | .knock x | .register x | .push x _ | .request x | .unblock x | .drain x
  | .writerDies x | .leave x | .offline x | .unregister x => x = c
  | .hangup _ | .disable _ | .kick _ | .enable _ => False

theorem frame_step {s s' : State} {e : Ev} {c : Nat} (hs : step s e = some s') (ho : ¬ e.own c) : Frame s s' c := by
  cases e with
  | connect x id =>
    simp only [step] at hs
    split at hs
    · cases hs
    · cases hs; exact frame_put ho
  | goOnline x =>
    obtain ⟨k, hk, hp, hs⟩ := at_some hs
    split at hs
    · subst hs; exact frame_put ho
    · subst hs
      exact (frame_put ho : Frame s (s.put x { k with pc := .onlined }) c)
  | knock x =>
    obtain ⟨k, hk, hp, hs⟩ := at_some hs
    split at hs
    · next o _ =>
      subst hs
      intro q hq
      obtain ⟨b, hb⟩ := frame_close s o c q hq
      obtain ⟨b', hb'⟩ := (frame_put ho : Frame (s.close o) ((s.close o).put x { k with pc := .ended }) c) _ hb
      exact ⟨b', hb'⟩
    · subst hs; exact frame_put ho
  | register x =>
    obtain ⟨k, hk, hp, hs⟩ := at_some hs
    subst hs
    exact (frame_put ho : Frame s (s.put x { k with pc := .registered }) c)
  | push x ok =>
    obtain ⟨k, hk, hp, hs⟩ := at_some hs
    split at hs <;> (subst hs; exact frame_put ho)
  | request x =>
    obtain ⟨k, hk, hp, hs⟩ := at_some hs
    split at hs <;> (subst hs; exact frame_put ho)
  | unblock x =>
    simp only [step] at hs
    split at hs
    · cases hs
    · split at hs
      · cases hs; exact frame_put ho
      · cases hs
  | drain x =>
    simp only [step] at hs
    split at hs
    · cases hs
    · split at hs
      · cases hs; exact frame_put ho
      · cases hs
  | writerDies x =>
    simp only [step] at hs
    split at hs
    · cases hs
    · split at hs
      · cases hs; exact frame_put ho
      · cases hs
  | leave x =>
    obtain ⟨k, hk, hp, hs⟩ := at_some hs
    subst hs; exact frame_put ho
  | offline x =>
    obtain ⟨k, hk, hp, hs⟩ := at_some hs
    subst hs
    exact (frame_put ho : Frame s (s.put x { k with pc := .offed }) c)
  | unregister x =>
    obtain ⟨k, hk, hp, hs⟩ := at_some hs
    subst hs
    exact (frame_put ho : Frame s (s.put x { k with pc := .ended }) c)
  | hangup x =>
    simp only [step] at hs
    split at hs
    · cases hs
    · cases hs; exact frame_close s x c
  | disable id =>
    simp only [step, Option.some.injEq] at hs
    subst hs; exact frame_refl s c
  | kick id =>
    simp only [step] at hs
    split at hs
    · cases hs; exact frame_close s _ c
    · cases hs; exact frame_refl s c
  | enable id =>
    simp only [step, Option.some.injEq] at hs
    subst hs; exact frame_refl s c

theorem stuck_step {s s' : State} {e : Ev} {c : Nat} {k : Conn} (hk : s.conns.get c = some k) (hst : Stuck k)
    (hs : step s e = some s') : ∃ k', s'.conns.get c = some k' ∧ k'.id = k.id ∧ Stuck k' := by
  by_cases ho : e.own c
  · have hat : ∀ {pc : Pc} {f : Conn → State}, pc ≠ .leaked → pc ≠ .blocked → s.at c pc f = some s' → False := by
      intro pc f h1 h2 h3
      obtain ⟨q, hq, hp, _⟩ := at_some h3
      rw [hk] at hq; cases hq
      rcases hst with h | h
      · exact h1 (hp.symm.trans h)
      · exact h2 (hp.symm.trans h.1)
    cases e <;> simp only [Ev.own] at ho <;> subst ho
    case connect => simp [step, hk] at hs
    case unblock =>
      exfalso
      simp only [step, hk] at hs
      split at hs
      · next h =>
        rcases hst with h1 | h1
        · rw [h1] at h; cases h.1
        · omega
      · cases hs
    case drain =>
      simp only [step, hk] at hs
      split at hs
      · next h =>
        cases hs
        refine ⟨{ k with queue := k.queue - 1 }, by rw [get_put, if_pos rfl], rfl, ?_⟩
        rcases hst with h1 | h1
        · exact .inl h1
        · rw [h1.2.2] at h; cases h.1
      · cases hs
    case writerDies =>
      simp only [step, hk] at hs
      split at hs
      · next h =>
        cases hs
        refine ⟨{ k with writer := false, closed := true }, by rw [get_put, if_pos rfl], rfl, ?_⟩
        rcases hst with h1 | h1
        · exact .inl h1
        · rw [h1.2.2] at h; cases h
      · cases hs
    all_goals exact (hat (by simp) (by simp) hs).elim
  · obtain ⟨b, hb⟩ := frame_step hs ho k hk
    exact ⟨_, hb, rfl, hst⟩

theorem stuck_run {G : State → Ev → Prop} {s s' : State} {es : List Ev} (hr : Run G s es s') {c : Nat} {k : Conn}
    (hk : s.conns.get c = some k) (hst : Stuck k) : ∃ k', s'.conns.get c = some k' ∧ k'.id = k.id ∧ Stuck k' := by
  induction hr generalizing k with
  | nil => exact ⟨k, hk, rfl, hst⟩
  | cons _ hs _ ih =>
    obtain ⟨k1, h1, h2, h3⟩ := stuck_step hk hst hs
    obtain ⟨k2, h4, h5, h6⟩ := ih h1 h3
    exact ⟨k2, h4, h5.trans h2, h6⟩

/-- Once a connection is stuck its account stays online for ever, whatever happens. -/
theorem stuck_online {s s' : State} {es : List Ev} (h0 : Reach (fun _ _ => True) s)
    (hr : Run (fun _ _ => True) s es s') {c : Nat} {k : Conn}
    (hk : s.conns.get c = some k) (hst : Stuck k) : s'.online.get k.id = some c := by
  obtain ⟨es0, h0⟩ := h0
  obtain ⟨k', h1, h2, h3⟩ := stuck_run hr hk hst
  refine (owned_run owned_init (run_trans h0 hr) k.id c).2 ⟨k', h1, h2, ?_⟩
  rcases h3 with h | h
  · simp [h, Live]
  · simp [h.1, Live]

/-- The full statement is false: if the directory listing of a user can not be written, they are online for
ever, and no later connection ever goes online until the server is restarted. -/
theorem C37_relogin_push_violated : ∃ s, Reach (fun _ _ => True) s ∧ ∀ es s', Run (fun _ _ => True) s es s' →
    ∀ c k, s'.conns.get c = some k → k.id = [7] → Live k.pc → c = 1 := by
  have h0 : Reach (fun _ _ => True)
      ⟨[(1, ⟨[7], .leaked, false, false, 0⟩)], [([7], 1)], [([7], 1)], []⟩ :=
    ⟨[.connect 1 [7], .goOnline 1, .register 1, .push 1 false], run_of_exec rfl⟩
  refine ⟨_, h0, ?_⟩
  intro es s' hr c k hk hid hl
  have h1 := stuck_online h0 hr (c := 1) (k := ⟨[7], .leaked, false, false, 0⟩) rfl (.inl rfl)
  obtain ⟨es0, h0⟩ := h0
  have h2 := (owned_run owned_init (run_trans h0 hr) [7] c).2 ⟨k, hk, hid, hl⟩
  exact Option.some.inj (h2.symm.trans h1)

/-- The full statement is false: a client that sends 33 requests without reading the answers, and then goes
away, blocks the goroutine of its session for ever, and stays online. -/
theorem C37_relogin_blocked_violated : ∃ s, Reach (fun _ _ => True) s ∧ ∀ es s', Run (fun _ _ => True) s es s' →
    ∀ c k, s'.conns.get c = some k → k.id = [7] → Live k.pc → c = 1 := by
  have h0 : Reach (fun _ _ => True)
      ⟨[(1, ⟨[7], .blocked, true, false, 32⟩)], [([7], 1)], [([7], 1)], []⟩ :=
    ⟨[.connect 1 [7]] ++ login 1 ++ List.replicate 33 (.request 1) ++ [.hangup 1, .writerDies 1], run_of_exec rfl⟩
  refine ⟨_, h0, ?_⟩
  intro es s' hr c k hk hid hl
  have h1 := stuck_online h0 hr (c := 1) (k := ⟨[7], .blocked, true, false, 32⟩) rfl (.inr ⟨rfl, by simp, rfl⟩)
  obtain ⟨es0, h0⟩ := h0
  have h2 := (owned_run owned_init (run_trans h0 hr) [7] c).2 ⟨k, hk, hid, hl⟩
  exact Option.some.inj (h2.symm.trans h1)

/-! ## Disabled accounts -/

/-- Every session of the account has been disconnected, and none is on its way in. -/
def Out (s : State) (id : Id) : Prop :=
  id ∈ s.disabled ∧ ∀ c k, s.conns.get c = some k → k.id = id →
    k.pc ≠ .checked ∧ k.pc ≠ .onlined ∧ (Live k.pc → k.closed = true)

theorem out_put {s : State} {c : Nat} {k k' : Conn} {id : Id} (h : Out s id) (hk : s.conns.get c = some k)
    (hid : k'.id = k.id) (hpc : k.pc ≠ .checked → k.pc ≠ .onlined →
      k'.pc ≠ .checked ∧ k'.pc ≠ .onlined ∧ (Live k'.pc → Live k.pc ∧ (k.closed = true → k'.closed = true))) :
    Out (s.put c k') id := by
  refine ⟨h.1, ?_⟩
  intro x q hq hi
  rw [get_put] at hq
  split at hq
  · cases hq
    obtain ⟨h1, h2, h3⟩ := h.2 c k hk (hid.symm.trans hi)
    obtain ⟨h4, h5, h6⟩ := hpc h1 h2
    exact ⟨h4, h5, fun hl => (h6 hl).2 (h3 (h6 hl).1)⟩
  · exact h.2 x q hq hi

theorem out_close {s : State} {c : Nat} {id : Id} (h : Out s id) : Out (s.close c) id := by
  unfold State.close
  split
  · exact h
  · next k hk => exact out_put h hk rfl fun h1 h2 => ⟨h1, h2, fun h3 => ⟨h3, fun _ => rfl⟩⟩

theorem out_congr {s s' : State} {id : Id} (h : Out s id) (h1 : s'.conns = s.conns) (h2 : s'.disabled = s.disabled) :
    Out s' id := by
  unfold Out; rw [h1, h2]; exact h

theorem out_step {s s' : State} {e : Ev} {id : Id} (h : Out s id) (he : e ≠ .enable id)
    (hs : step s e = some s') : Out s' id := by
  cases e with
  | connect c i =>
    simp only [step] at hs
    split at hs
    · cases hs
    · next hn =>
      cases hs
      refine ⟨h.1, ?_⟩
      intro x q hq hi
      rw [get_put] at hq
      split at hq
      · cases hq
        exact absurd (.inr (by show i ∈ _; rw [show i = id from hi]; exact h.1)) hn
      · exact h.2 x q hq hi
  | goOnline c =>
    obtain ⟨k, hk, hp, hs⟩ := at_some hs
    split at hs
    · subst hs; exact out_put h hk rfl fun h1 _ => absurd hp h1
    · subst hs
      exact out_congr (out_put (k' := { k with pc := .onlined }) h hk rfl fun h1 _ => absurd hp h1) rfl rfl
  | knock c =>
    obtain ⟨k, hk, hp, hs⟩ := at_some hs
    split at hs
    · next o ho =>
      subst hs
      refine out_congr (s := (s.close o).put c { k with pc := .ended }) ?_ rfl rfl
      have h1 : (s.close o).conns.get c = some k ∨ (s.close o).conns.get c = some { k with closed := true } := by
        rw [close_get, hk]; split
        · right; rfl
        · left; rfl
      rcases h1 with h1 | h1
      · exact out_put (out_close h) h1 rfl fun _ _ => ⟨by simp, by simp, by simp [Live]⟩
      · exact out_put (out_close h) h1 rfl fun _ _ => ⟨by simp, by simp, by simp [Live]⟩
    · subst hs; exact out_put h hk rfl fun _ _ => ⟨by simp, by simp, by simp [Live]⟩
  | register c =>
    obtain ⟨k, hk, hp, hs⟩ := at_some hs
    subst hs
    exact out_congr (out_put (k' := { k with pc := .registered }) h hk rfl fun _ h2 => absurd hp h2) rfl rfl
  | push c ok =>
    obtain ⟨k, hk, hp, hs⟩ := at_some hs
    split at hs <;>
      (subst hs; exact out_put h hk rfl fun _ _ => ⟨by simp, by simp, fun _ => ⟨by simp [hp, Live], fun h => h⟩⟩)
  | request c =>
    obtain ⟨k, hk, hp, hs⟩ := at_some hs
    split at hs <;>
      (subst hs; exact out_put h hk rfl fun _ _ => ⟨by simp [hp], by simp [hp], fun _ => ⟨by simp [hp, Live], fun h => h⟩⟩)
  | unblock c =>
    simp only [step] at hs
    split at hs
    · cases hs
    · next k hk =>
      split at hs
      · next hp =>
        cases hs
        exact out_put h hk rfl fun _ _ => ⟨by simp, by simp, fun _ => ⟨by simp [hp.1, Live], fun h => h⟩⟩
      · cases hs
  | drain c =>
    simp only [step] at hs
    split at hs
    · cases hs
    · next k hk =>
      split at hs
      · cases hs; exact out_put h hk rfl fun h1 h2 => ⟨h1, h2, fun h3 => ⟨h3, fun h => h⟩⟩
      · cases hs
  | writerDies c =>
    simp only [step] at hs
    split at hs
    · cases hs
    · next k hk =>
      split at hs
      · cases hs; exact out_put h hk rfl fun h1 h2 => ⟨h1, h2, fun h3 => ⟨h3, fun h => rfl⟩⟩
      · cases hs
  | leave c =>
    obtain ⟨k, hk, hp, hs⟩ := at_some hs
    subst hs; exact out_put h hk rfl fun _ _ => ⟨by simp, by simp, fun _ => ⟨by simp [hp, Live], fun h => h⟩⟩
  | offline c =>
    obtain ⟨k, hk, hp, hs⟩ := at_some hs
    subst hs
    exact out_congr (out_put (k' := { k with pc := .offed }) h hk rfl fun _ _ => ⟨by simp, by simp, by simp [Live]⟩)
      rfl rfl
  | unregister c =>
    obtain ⟨k, hk, hp, hs⟩ := at_some hs
    subst hs
    exact out_congr (out_put (k' := { k with pc := .ended }) h hk rfl fun _ _ => ⟨by simp, by simp, by simp [Live]⟩)
      rfl rfl
  | hangup c =>
    simp only [step] at hs
    split at hs
    · cases hs
    · cases hs; exact out_close h
  | disable i =>
    simp only [step, Option.some.injEq] at hs
    subst hs
    exact ⟨List.mem_cons_of_mem _ h.1, h.2⟩
  | kick i =>
    simp only [step] at hs
    split at hs
    · cases hs; exact out_close h
    · cases hs; exact h
  | enable i =>
    simp only [step, Option.some.injEq] at hs
    subst hs
    refine ⟨List.mem_filter.2 ⟨h.1, ?_⟩, h.2⟩
    have : id ≠ i := by rintro rfl; exact he rfl
    simpa using this

/-- **C58** Under the conditions of `C37_table_partial`, if no connection of a disabled account is between the
check and its registration when its session is disconnected, then all of its sessions are disconnected, and
as long as the account is not enabled there is never again an open one. -/
theorem C58_disconnected_partial (s s1 s2 : State) (hr : Reach Good s) (id : Id) (hd : id ∈ s.disabled)
    (hin : ∀ c k, s.conns.get c = some k → k.id = id → k.pc ≠ .checked ∧ k.pc ≠ .onlined)
    (hk : step s (.kick id) = some s1) (es : List Ev) (hes : .enable id ∉ es)
    (hr2 : Run (fun _ _ => True) s1 es s2) :
    ∀ c k, s2.conns.get c = some k → k.id = id → Live k.pc → k.closed = true := by
  obtain ⟨es0, hr⟩ := hr
  have hT := tab_run tab_init hr
  have h1 : Out s1 id := by
    simp only [step] at hk
    split at hk
    · next o ho =>
      cases hk
      obtain ⟨ko, hko, hi, hreg⟩ := hT.entry id o ho
      refine ⟨by unfold State.close; split <;> exact hd, ?_⟩
      intro c k hc hid
      rw [close_get] at hc
      split at hc
      · next e =>
        subst e
        rw [hko] at hc; cases hc
        obtain ⟨h2, h3⟩ := hin o ko hko hid
        exact ⟨h2, h3, fun _ => rfl⟩
      · next e =>
        obtain ⟨h2, h3⟩ := hin c k hc hid
        refine ⟨h2, h3, fun hl => ?_⟩
        have hreg' : Registered k.pc := by
          have := hT.noLeak c k hc
          revert hl h3 this
          cases k.pc <;> simp [Live, Registered]
        rcases hT.listed c k hc hreg' with h4 | h4
        · rw [hid, ho] at h4; cases h4; exact absurd rfl e
        · exact h4.2
    · next ho =>
      cases hk
      refine ⟨hd, ?_⟩
      intro c k hc hid
      obtain ⟨h2, h3⟩ := hin c k hc hid
      refine ⟨h2, h3, fun hl => ?_⟩
      have hreg' : Registered k.pc := by
        have := hT.noLeak c k hc
        revert hl h3 this
        cases k.pc <;> simp [Live, Registered]
      rcases hT.listed c k hc hreg' with h4 | h4
      · rw [hid, ho] at h4; cases h4
      · exact h4.2
  have h2 : Out s2 id := by
    clear hk hin hT
    induction hr2 with
    | nil => exact h1
    | cons _ hs _ ih =>
      exact ih (fun h => hes (List.mem_cons_of_mem _ h)) (out_step h1 (fun h => hes (h ▸ List.mem_cons_self)) hs)
  exact fun c k hc hid => (h2.2 c k hc hid).2.2

/-- The full statement is false: a connection that has passed the check when the account is disabled is not
disconnected, and its session runs on. -/
theorem C58_race_violated : ∃ s, Reach (fun _ _ => True) s ∧ [7] ∈ s.disabled ∧
    s.conns.get 1 = some ⟨[7], .running, false, true, 0⟩ ∧ s.table.get [7] = some 1 :=
  ⟨_, ⟨[.connect 1 [7], .disable [7], .kick [7]] ++ login 1, run_of_exec rfl⟩, by decide, rfl, rfl⟩

/-! ## Examples -/

instance decGood (s : State) (e : Ev) : Decidable (match e with
    | .push _ ok => ok = true
    | .request c => ∀ p ∈ s.conns, p.1 = c → p.2.queue < 32
    | .goOnline _ => ∀ p ∈ s.conns, p.2.pc ≠ .offed
    | _ => True) := by
  cases e <;> simp only <;> infer_instance

/-- A sufficient condition for `Good` that can be evaluated. -/
def goodB (s : State) (e : Ev) : Bool := decide (match e with
    | .push _ ok => ok = true
    | .request c => ∀ p ∈ s.conns, p.1 = c → p.2.queue < 32
    | .goOnline _ => ∀ p ∈ s.conns, p.2.pc ≠ .offed
    | _ => True)

theorem good_of {s : State} {e : Ev} (h : goodB s e = true) : Good s e := by
  have h := of_decide_eq_true h
  cases e <;> first | exact h | trivial | skip
  · intro k _ c' k' h2 _
    exact h (c', k') (GoMap.mem_of_get h2)
  · intro k hk
    exact h (_, k) (GoMap.mem_of_get hk) rfl

def execG (s : State) : List Ev → Option State
  | [] => some s
  | e :: es => if goodB s e then (match step s e with | none => none | some s' => execG s' es) else none

theorem run_of_execG {s s' : State} {es : List Ev} (h : execG s es = some s') : Run Good s es s' := by
  induction es generalizing s with
  | nil => cases h; exact .nil _
  | cons e es ih =>
    simp only [execG] at h
    split at h
    · next hg =>
      split at h
      · cases h
      · next s1 h1 => exact .cons (good_of hg) h1 (ih h)
    · cases h

/-- A user logs in, logs in again from elsewhere, which disconnects the first session, and then a third time,
successfully; another user is online. -/
def exTrace : List Ev :=
  [.connect 0 [8]] ++ login 0 ++ [.connect 1 [7]] ++ login 1 ++ [.request 1, .drain 1, .connect 2 [7], .goOnline 2, .knock 2,
    .leave 1, .offline 1, .unregister 1, .connect 3 [7]] ++ login 3

example : ∃ s, Reach Good s ∧ Settled s [7] ∧ s.online.get [7] = some 3 ∧ s.table.get [7] = some 3 ∧
    s.table.get [8] = some 0 := by
  refine ⟨⟨[(3, ⟨[7], .running, false, true, 0⟩), (1, ⟨[7], .ended, true, true, 0⟩), (2, ⟨[7], .ended, false, false, 0⟩),
      (0, ⟨[8], .running, false, true, 0⟩)], [([7], 3), ([8], 0)], [([7], 3), ([8], 0)], []⟩,
    ⟨exTrace, run_of_execG rfl⟩, ?_, rfl, rfl, rfl⟩
  intro c k hk _
  have hm := GoMap.mem_of_get hk
  simp only [List.mem_cons, Prod.mk.injEq, List.not_mem_nil, or_false] at hm
  rcases hm with ⟨-, rfl⟩ | ⟨-, rfl⟩ | ⟨-, rfl⟩ | ⟨-, rfl⟩ <;> simp

example : ∃ s k, Reach Good s ∧ s.conns.get 2 = some k ∧ k.pc = .checked ∧ s.online.get k.id = some 1 :=
  ⟨_, _, ⟨[.connect 1 [7]] ++ login 1 ++ [.connect 2 [7]], run_of_execG rfl⟩, rfl, rfl, rfl⟩

example : ∃ s s1, Reach Good s ∧ [7] ∈ s.disabled ∧ step s (.kick [7]) = some s1 ∧
    s1.conns.get 1 = some ⟨[7], .running, true, true, 0⟩ :=
  ⟨_, _, ⟨[.connect 1 [7]] ++ login 1 ++ [.disable [7]], run_of_execG rfl⟩, by decide, rfl, rfl⟩

end Verif.Sessions
