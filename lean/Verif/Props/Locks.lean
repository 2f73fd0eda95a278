import Mathlib.Tactic.ByContra
import Verif.Model.Locks

/-! # C96, C97: nobody waits for ever for a lock -/

namespace Verif.Locks

/-- What can come about when these goroutines run. -/
def Reach (c : Cfg) (gs : List (List Op)) (s : State) : Prop := ∃ ms, exec c (start gs) ms = some s

/-- Nobody can go on. -/
def Halted (c : Cfg) (s : State) : Prop := ∀ m, step c s m = none

/-- The screen has nothing to do. -/
def State.quiet (s : State) : Prop := s.ui.prog = [] ∧ s.owner = none ∧ s.queue = []

instance (s : State) : Decidable s.quiet := inferInstanceAs (Decidable (_ ∧ _ ∧ _))

/-- Everybody is at their end. -/
def State.done (s : State) : Prop := s.quiet ∧ ∀ t ∈ s.threads, t.prog = []

/-! ## Locks are taken in order -/

/-- The locks are taken in ascending order, given back, and nobody waits for the screen with a lock that the screen may
need. -/
def ok (held : List (Nat × Bool)) : List Op → Prop
  | [] => held = []
  | .acq l :: r => (∀ h ∈ held, h.1 < l) ∧ ok ((l, true) :: held) r
  | .racq l :: r => (∀ h ∈ held, h.1 < l) ∧ ok ((l, false) :: held) r
  | .rel l :: r => ok (held.filter fun h => h.1 != l) r
  | .queue _ :: r => ok held r
  | .ask _ :: r => (∀ h ∈ held, h.1 < zkc) ∧ ok held r
  | .net :: r => ok held r

/-- For the screen: only locks from `zkc` on, and it waits for nobody. -/
def okUi (held : List (Nat × Bool)) : List Op → Prop
  | [] => held = []
  | .acq l :: r => zkc ≤ l ∧ (∀ h ∈ held, h.1 < l) ∧ okUi ((l, true) :: held) r
  | .racq l :: r => zkc ≤ l ∧ (∀ h ∈ held, h.1 < l) ∧ okUi ((l, false) :: held) r
  | .rel l :: r => okUi (held.filter fun h => h.1 != l) r
  | .queue _ :: r => okUi held r
  | .ask _ :: _ => False
  | .net :: _ => False

theorem okUi_closure (k : Closure) : okUi [] k.ops := by
  cases k with
  | focus b => cases b <;> simp [Closure.ops, okUi]
  | _ => simp [Closure.ops, okUi, zkc, log]

/-- Who is waited for. -/
def State.owners (s : State) : List Nat := s.owner.toList ++ s.queue.filterMap Prod.fst

structure Inv (s : State) : Prop where
  threads : ∀ t ∈ s.threads, ok t.held t.prog
  ui : okUi s.ui.held s.ui.prog
  asks : ∀ t ∈ s.threads, t.asked = true → ∃ k r, t.prog = .ask k :: r
  nodup : s.owners.Nodup
  owners : ∀ i, i ∈ s.owners ↔ ∃ t, s.threads[i]? = some t ∧ t.asked = true

theorem inv_start (gs : List (List Op)) (h : ∀ g ∈ gs, ok [] g) : Inv (start gs) where
  threads := by
    intro t ht
    simp only [start, List.mem_map] at ht
    obtain ⟨g, hg, rfl⟩ := ht
    exact h g hg
  ui := rfl
  asks := by
    intro t ht ha
    simp only [start, List.mem_map] at ht
    obtain ⟨g, _, rfl⟩ := ht
    cases ha
  nodup := List.nodup_nil
  owners := by
    intro i
    constructor
    · intro hi; simp [State.owners, start] at hi
    · rintro ⟨t, ht, ha⟩
      have := List.mem_of_getElem? ht
      simp only [start, List.mem_map] at this
      obtain ⟨g, _, rfl⟩ := this
      cases ha

/-- What a step does to a goroutine that keeps the rules. -/
theorem act_ok {c : Cfg} {s : State} {me : Option Nat} {t t' : Thread} {q : List (Option Nat × Closure)}
    (h : act c s me t = some (t', q)) (hok : ok t.held t.prog) :
    ok t'.held t'.prog
      ∧ ((t'.asked = t.asked ∧ (∃ k, q = [(none, k)] ∨ q = []) ∧ (t.asked = true → ∀ k r, t.prog ≠ .ask k :: r))
        ∨ (t.asked = false ∧ t'.asked = true ∧ t'.prog = t.prog ∧ ∃ k r, t.prog = .ask k :: r ∧ q = [(me, k)])) := by
  unfold act at h
  cases hp : t.prog with
  | nil => rw [hp] at h; cases h
  | cons o r =>
    rw [hp] at h hok
    cases o with
    | acq l =>
      dsimp only at h
      split at h
      · split at h
        · cases h
          exact ⟨hok.2, Or.inl ⟨rfl, ⟨.print, Or.inr rfl⟩, fun _ _ _ => by intro hh; cases hh⟩⟩
        · cases h
      · cases h
        exact ⟨hok, Or.inl ⟨rfl, ⟨.print, Or.inr rfl⟩, fun _ _ _ => by intro hh; cases hh⟩⟩
    | racq l =>
      dsimp only at h
      split at h
      · cases h
        exact ⟨hok.2, Or.inl ⟨rfl, ⟨.print, Or.inr rfl⟩, fun _ _ _ => by intro hh; cases hh⟩⟩
      · cases h
    | rel l =>
      cases h
      exact ⟨hok, Or.inl ⟨rfl, ⟨.print, Or.inr rfl⟩, fun _ _ _ => by intro hh; cases hh⟩⟩
    | queue k =>
      dsimp only at h
      split at h
      · cases h
        exact ⟨hok, Or.inl ⟨rfl, ⟨k, Or.inl rfl⟩, fun _ _ _ => by intro hh; cases hh⟩⟩
      · cases h
    | ask k =>
      dsimp only at h
      split at h
      · cases h
      · rename_i ha
        split at h
        · cases h
          exact ⟨hok, Or.inr ⟨by simpa using ha, rfl, rfl, k, r, rfl, rfl⟩⟩
        · cases h
    | net =>
      dsimp only at h
      split at h
      · cases h
        exact ⟨hok, Or.inl ⟨rfl, ⟨.print, Or.inr rfl⟩, fun _ _ _ => by intro hh; cases hh⟩⟩
      · cases h

theorem act_okUi {c : Cfg} {s : State} {t t' : Thread} {q : List (Option Nat × Closure)}
    (h : act c s none t = some (t', q)) (hok : okUi t.held t.prog) :
    okUi t'.held t'.prog ∧ ∃ k, q = [(none, k)] ∨ q = [] := by
  unfold act at h
  cases hp : t.prog with
  | nil => rw [hp] at h; cases h
  | cons o r =>
    rw [hp] at h hok
    cases o with
    | acq l =>
      dsimp only at h
      split at h
      · split at h
        · cases h; exact ⟨hok.2.2, .print, Or.inr rfl⟩
        · cases h
      · cases h; exact ⟨hok, .print, Or.inr rfl⟩
    | racq l =>
      dsimp only at h
      split at h
      · cases h; exact ⟨hok.2.2, .print, Or.inr rfl⟩
      · cases h
    | rel l => cases h; exact ⟨hok, .print, Or.inr rfl⟩
    | queue k =>
      dsimp only at h
      split at h
      · cases h; exact ⟨hok, k, Or.inl rfl⟩
      · cases h
    | ask k => exact hok.elim
    | net => exact hok.elim

theorem owners_append_none {s : State} {q : List (Option Nat × Closure)} (hq : ∃ k, q = [(none, k)] ∨ q = []) :
    s.owner.toList ++ (s.queue ++ q).filterMap Prod.fst = s.owners := by
  obtain ⟨k, rfl | rfl⟩ := hq <;> simp [State.owners]

theorem inv_step {c : Cfg} {s s' : State} (h : Inv s) {m : Move} (hs : step c s m = some s') : Inv s' := by
  cases m with
  | run i =>
    simp only [step] at hs
    cases ht : s.threads[i]? with
    | none => rw [ht] at hs; cases hs
    | some t =>
      rw [ht] at hs
      dsimp only at hs
      have hmem := List.mem_of_getElem? ht
      have hlt : i < s.threads.length := (List.getElem?_eq_some_iff.1 ht).1
      cases ha : act c s (some i) t with
      | none => rw [ha] at hs; cases hs
      | some p =>
        obtain ⟨t', q⟩ := p
        rw [ha] at hs
        cases hs
        obtain ⟨hok, hcase⟩ := act_ok ha (h.threads t hmem)
        have hthreads : ∀ u ∈ s.threads.set i t', ok u.held u.prog := by
          intro u hu
          rcases List.mem_or_eq_of_mem_set hu with hu | rfl
          · exact h.threads u hu
          · exact hok
        rcases hcase with ⟨he, hq, hna⟩ | ⟨hf, htr, hpe, k, r, hpr, hq⟩
        · have hf : t'.asked = false := by
            cases hb : t'.asked with
            | false => rfl
            | true =>
              rw [he] at hb
              obtain ⟨k, r, hk⟩ := h.asks t hmem hb
              exact absurd hk (hna hb k r)
          refine ⟨hthreads, h.ui, ?_, ?_, ?_⟩
          · intro u hu hua
            rcases List.mem_or_eq_of_mem_set hu with hu | rfl
            · exact h.asks u hu hua
            · rw [hf] at hua; cases hua
          · change (s.owner.toList ++ (s.queue ++ q).filterMap Prod.fst).Nodup
            rw [owners_append_none hq]; exact h.nodup
          · intro j
            change j ∈ s.owner.toList ++ (s.queue ++ q).filterMap Prod.fst ↔ _
            rw [owners_append_none hq, h.owners j]
            dsimp only
            by_cases hij : i = j
            · subst hij
              rw [List.getElem?_set_self hlt]
              constructor
              · rintro ⟨u, hu, hua⟩
                rw [ht] at hu; cases hu
                rw [← he, hf] at hua; cases hua
              · rintro ⟨u, hu, hua⟩
                cases hu
                rw [hf] at hua; cases hua
            · rw [List.getElem?_set_ne hij]
        · have hni : i ∉ s.owners := by
            intro hi
            obtain ⟨u, hu, hua⟩ := (h.owners i).1 hi
            rw [ht] at hu; cases hu
            rw [hf] at hua; cases hua
          have hown : s.owner.toList ++ (s.queue ++ q).filterMap Prod.fst = s.owners ++ [i] := by
            rw [hq]; simp [State.owners]
          refine ⟨hthreads, h.ui, ?_, ?_, ?_⟩
          · intro u hu hua
            rcases List.mem_or_eq_of_mem_set hu with hu | rfl
            · exact h.asks u hu hua
            · exact ⟨k, r, by rw [hpe, hpr]⟩
          · change (s.owner.toList ++ (s.queue ++ q).filterMap Prod.fst).Nodup
            rw [hown]
            refine List.nodup_append.2 ⟨h.nodup, by simp, ?_⟩
            intro a ha' b hb
            simp at hb
            subst hb
            rintro rfl
            exact hni ha'
          · intro j
            change j ∈ s.owner.toList ++ (s.queue ++ q).filterMap Prod.fst ↔ _
            rw [hown, List.mem_append, h.owners j]
            dsimp only
            by_cases hij : i = j
            · subst hij
              rw [List.getElem?_set_self hlt]
              exact ⟨fun _ => ⟨t', rfl, htr⟩, fun _ => Or.inr (by simp)⟩
            · rw [List.getElem?_set_ne hij]
              constructor
              · rintro (hj | hj)
                · exact hj
                · simp at hj; exact absurd hj.symm hij
              · exact Or.inl
  | ui =>
    simp only [step] at hs
    split at hs
    · rename_i hp ho
      split at hs
      · cases hs
      · rename_i o k q hq
        cases hs
        refine ⟨h.threads, ?_, h.asks, ?_, ?_⟩
        · have := h.ui
          rw [hp] at this
          have hh : s.ui.held = [] := this
          dsimp only
          rw [hh]
          exact okUi_closure k
        · have := h.nodup
          unfold State.owners at this ⊢
          rw [ho, hq] at this
          dsimp only
          cases o <;> simpa using this
        · intro j
          rw [← h.owners j]
          unfold State.owners
          rw [ho, hq]
          dsimp only
          cases o <;> simp
    · rename_i i hp ho
      split at hs
      · rename_i t ht
        split at hs
        · rename_i k r hpr
          split at hs
          · rename_i hasked
            cases hs
            have hmem := List.mem_of_getElem? ht
            have hlt : i < s.threads.length := (List.getElem?_eq_some_iff.1 ht).1
            have hnd := h.nodup
            unfold State.owners at hnd
            rw [ho] at hnd
            simp only [Option.toList_some, List.singleton_append, List.nodup_cons] at hnd
            refine ⟨?_, h.ui, ?_, ?_, ?_⟩
            · intro u hu
              rcases List.mem_or_eq_of_mem_set hu with hu | rfl
              · exact h.threads u hu
              · have := h.threads t hmem
                rw [hpr] at this
                exact this.2
            · intro u hu hua
              rcases List.mem_or_eq_of_mem_set hu with hu | rfl
              · exact h.asks u hu hua
              · cases hua
            · unfold State.owners
              dsimp only
              simpa using hnd.2
            · intro j
              have hj := h.owners j
              unfold State.owners at hj ⊢
              rw [ho] at hj
              dsimp only
              simp only [Option.toList_some, List.singleton_append, List.mem_cons] at hj
              simp only [Option.toList_none, List.nil_append]
              by_cases hij : i = j
              · subst hij
                rw [List.getElem?_set_self hlt]
                constructor
                · intro hx; exact absurd hx hnd.1
                · rintro ⟨u, hu, hua⟩; cases hu; cases hua
              · rw [List.getElem?_set_ne hij, ← hj]
                constructor
                · exact Or.inr
                · rintro (hx | hx)
                  · exact absurd hx.symm hij
                  · exact hx
          · cases hs
        · cases hs
      · cases hs
    · rename_i o r hp
      split at hs
      · cases hs
      · rename_i t' q ha
        cases hs
        obtain ⟨hok, hq⟩ := act_okUi ha h.ui
        refine ⟨h.threads, hok, h.asks, ?_, ?_⟩
        · change (s.owner.toList ++ (s.queue ++ q).filterMap Prod.fst).Nodup
          rw [owners_append_none hq]; exact h.nodup
        · intro j
          change j ∈ s.owner.toList ++ (s.queue ++ q).filterMap Prod.fst ↔ _
          rw [owners_append_none hq]; exact h.owners j

theorem inv_exec {c : Cfg} {s s' : State} (h : Inv s) (ms : List Move) (hs : exec c s ms = some s') : Inv s' := by
  induction ms generalizing s with
  | nil => cases hs; exact h
  | cons m ms ih =>
    change (step c s m).bind _ = _ at hs
    cases h1 : step c s m with
    | none => rw [h1] at hs; cases hs
    | some s1 => rw [h1] at hs; exact ih (inv_step h h1) hs

/-! ## When nobody can go on -/

theorem act_none {c : Cfg} {s : State} {me : Option Nat} {t : Thread} (hcap : c.cap = none) (h : act c s me t = none) {o : Op}
    {r : List Op} (hp : t.prog = o :: r) :
    (∃ l, o = .acq l ∧ s.free l = false) ∨ (∃ l, o = .racq l ∧ s.readable l = false)
      ∨ (∃ k, o = .ask k ∧ t.asked = true) ∨ (o = .net ∧ me.elim false c.srv = false) := by
  have hroom : s.room c = true := by unfold State.room; rw [hcap]
  unfold act at h
  rw [hp] at h
  cases o with
  | acq l =>
    dsimp only at h
    split at h
    · split at h
      · cases h
      · rename_i hf; exact Or.inl ⟨l, rfl, by simpa using hf⟩
    · cases h
  | racq l =>
    dsimp only at h
    split at h
    · cases h
    · rename_i hf; exact Or.inr (Or.inl ⟨l, rfl, by simpa using hf⟩)
  | rel l => cases h
  | queue k => dsimp only at h; rw [if_pos hroom] at h; cases h
  | ask k =>
    dsimp only at h
    split at h
    · rename_i ha; exact Or.inr (Or.inr (Or.inl ⟨k, rfl, ha⟩))
    · cases h
  | net =>
    dsimp only at h
    split at h
    · cases h
    · rename_i hn; exact Or.inr (Or.inr (Or.inr ⟨rfl, by simpa using hn⟩))

theorem halted_thread {c : Cfg} {s : State} (hh : Halted c s) {t : Thread} (ht : t ∈ s.threads) :
    ∃ i, s.threads[i]? = some t ∧ act c s (some i) t = none := by
  obtain ⟨i, hi⟩ := List.getElem?_of_mem ht
  refine ⟨i, hi, ?_⟩
  have := hh (.run i)
  simp only [step, hi] at this
  cases ha : act c s (some i) t with
  | none => rfl
  | some p => rw [ha] at this; cases this

theorem halted_ui {c : Cfg} {s : State} (hh : Halted c s) {o : Op} {r : List Op} (hp : s.ui.prog = o :: r) :
    act c s none s.ui = none := by
  have := hh .ui
  simp only [step, hp] at this
  cases ha : act c s none s.ui with
  | none => rfl
  | some p => rw [ha] at this; cases this

theorem not_free {s : State} {l : Nat} (h : s.free l = false) : ∃ t ∈ s.all, ∃ m, (l, m) ∈ t.held := by
  unfold State.free at h
  rw [List.all_eq_false] at h
  obtain ⟨t, ht, h⟩ := h
  rw [Bool.not_eq_true, List.all_eq_false] at h
  obtain ⟨⟨l', m⟩, hm, h⟩ := h
  have : l' = l := by simpa using h
  subst this
  exact ⟨t, ht, m, hm⟩

theorem not_readable {s : State} {l : Nat} (h : s.readable l = false) :
    (∃ t ∈ s.all, ∃ m, (l, m) ∈ t.held) ∨ ∃ t ∈ s.all, t.prog.head? = some (.acq l) := by
  unfold State.readable at h
  rw [List.all_eq_false] at h
  obtain ⟨t, ht, h⟩ := h
  simp only [Bool.not_eq_true, Bool.and_eq_false_iff, Bool.not_eq_false'] at h
  rcases h with h | h
  · left
    rw [List.all_eq_false] at h
    obtain ⟨x, hm, h⟩ := h
    have : x = (l, true) := by simpa using h
    subst this
    exact ⟨t, ht, true, hm⟩
  · right
    simp only [Bool.and_eq_true, beq_iff_eq] at h
    exact ⟨t, ht, h.2⟩

/-- Next it takes this lock. -/
def Thread.wants (t : Thread) (l : Nat) : Prop := t.prog.head? = some (.acq l) ∨ t.prog.head? = some (.racq l)

theorem wants_bound (ts : List Thread) : ∃ B, ∀ t ∈ ts, ∀ l, t.wants l → l < B := by
  induction ts with
  | nil => exact ⟨0, fun t ht => by cases ht⟩
  | cons t ts ih =>
    obtain ⟨B, hB⟩ := ih
    have : ∃ b, ∀ l, t.wants l → l < b := by
      unfold Thread.wants
      cases hh : t.prog.head? with
      | none => exact ⟨0, fun l h => by rcases h with h | h <;> cases h⟩
      | some o =>
        cases o with
        | acq l => exact ⟨l + 1, fun l' h => by rcases h with h | h <;> cases h; omega⟩
        | racq l => exact ⟨l + 1, fun l' h => by rcases h with h | h <;> cases h; omega⟩
        | _ => exact ⟨0, fun l h => by rcases h with h | h <;> cases h⟩
    obtain ⟨b, hb⟩ := this
    refine ⟨B + b, fun u hu l hl => ?_⟩
    rcases List.mem_cons.1 hu with rfl | hu
    · have := hb l hl; omega
    · have := hB u hu l hl; omega

/-- If the screen waits for no lock, it has nothing to do, and nobody waits for it. -/
theorem ui_quiet {c : Cfg} {s : State} (hcap : c.cap = none) (hi : Inv s) (hh : Halted c s)
    (hw : ∀ l, zkc ≤ l → ¬ s.ui.wants l) : s.quiet ∧ ∀ t ∈ s.threads, t.asked = false := by
  have hp : s.ui.prog = [] := by
    cases hp : s.ui.prog with
    | nil => rfl
    | cons o r =>
      exfalso
      have hok := hi.ui
      rw [hp] at hok
      rcases act_none hcap (halted_ui hh hp) hp with ⟨l, rfl, _⟩ | ⟨l, rfl, _⟩ | ⟨k, rfl, _⟩ | ⟨rfl, _⟩
      · exact hw l hok.1 (Or.inl (by rw [hp]; rfl))
      · exact hw l hok.1 (Or.inr (by rw [hp]; rfl))
      · exact hok
      · exact hok
  have hu := hh .ui
  have ho : s.owner = none := by
    cases ho : s.owner with
    | none => rfl
    | some i =>
      exfalso
      have hmem : i ∈ s.owners := by unfold State.owners; rw [ho]; simp
      obtain ⟨t, ht, ha⟩ := (hi.owners i).1 hmem
      obtain ⟨k, r, hk⟩ := hi.asks t (List.mem_of_getElem? ht) ha
      simp only [step, hp, ho, ht, hk, ha] at hu
      cases hu
  have hq : s.queue = [] := by
    cases hq : s.queue with
    | nil => rfl
    | cons x q =>
      exfalso
      simp only [step, hp, ho, hq] at hu
      cases hu
  refine ⟨⟨hp, ho, hq⟩, fun t ht => ?_⟩
  cases ha : t.asked with
  | false => rfl
  | true =>
    obtain ⟨i, hti⟩ := List.getElem?_of_mem ht
    have : i ∈ s.owners := (hi.owners i).2 ⟨t, hti, ha⟩
    unfold State.owners at this
    rw [ho, hq] at this
    simp at this

/-- Nobody waits for a lock from `k` on, if nobody who has such a lock waits for the connection. -/
theorem nowait {c : Cfg} {s : State} {k : Nat} (hcap : c.cap = none) (hi : Inv s) (hh : Halted c s)
    (hn : ∀ (i : Nat) (t : Thread), s.threads[i]? = some t → t.prog.head? = some .net → c.srv i = false →
      ∀ h ∈ t.held, h.1 < k) (l : Nat) (hk : k ≤ l)
    (t : Thread) (ht : t ∈ s.all) : ¬ t.wants l := by
  obtain ⟨B, hB⟩ := wants_bound s.all
  suffices H : ∀ n l, B - l = n → k ≤ l → ∀ t ∈ s.all, ¬ t.wants l from H _ l rfl hk t ht
  intro n
  induction n using Nat.strongRecOn with
  | ind n ih =>
    intro l hn' hk t ht hw
    have hlB := hB t ht l hw
    have up : ∀ l', l < l' → ∀ u ∈ s.all, ¬ u.wants l' := by
      intro l' hl' u hu hw'
      have := hB u hu l' hw'
      exact ih (B - l') (by omega) l' rfl (by omega) u hu hw'
    -- somebody has it
    have blocked : ∀ u ∈ s.all, u.prog.head? = some (.acq l) → ∃ v ∈ s.all, ∃ m, (l, m) ∈ v.held := by
      intro u hu hhd
      cases hp : u.prog with
      | nil => rw [hp] at hhd; cases hhd
      | cons o r =>
        rw [hp] at hhd
        cases hhd
        have : ∃ me, act c s me u = none := by
          rcases List.mem_cons.1 hu with rfl | hu
          · exact ⟨none, halted_ui hh hp⟩
          · obtain ⟨i, _, h⟩ := halted_thread hh hu; exact ⟨_, h⟩
        obtain ⟨me, ha⟩ := this
        rcases act_none hcap ha hp with ⟨l', e, hf⟩ | ⟨l', e, _⟩ | ⟨k', e, _⟩ | ⟨e, _⟩
        · cases e; exact not_free hf
        · cases e
        · cases e
        · cases e
    have holder : ∃ v ∈ s.all, ∃ m, (l, m) ∈ v.held := by
      rcases hw with hw | hw
      · exact blocked t ht hw
      · cases hp : t.prog with
        | nil => rw [hp] at hw; cases hw
        | cons o r =>
          rw [hp] at hw
          cases hw
          have : ∃ me, act c s me t = none := by
            rcases List.mem_cons.1 ht with rfl | hu
            · exact ⟨none, halted_ui hh hp⟩
            · obtain ⟨i, _, h⟩ := halted_thread hh hu; exact ⟨_, h⟩
          obtain ⟨me, ha⟩ := this
          rcases act_none hcap ha hp with ⟨l', e, _⟩ | ⟨l', e, hf⟩ | ⟨k', e, _⟩ | ⟨e, _⟩
          · cases e
          · cases e
            rcases not_readable hf with h | ⟨u, hu, hhd⟩
            · exact h
            · exact blocked u hu hhd
          · cases e
          · cases e
    obtain ⟨v, hv, m, hm⟩ := holder
    rcases List.mem_cons.1 hv with rfl | hvt
    · -- the screen
      have hok := hi.ui
      cases hp : s.ui.prog with
      | nil => rw [hp] at hok; rw [show s.ui.held = [] from hok] at hm; cases hm
      | cons o r =>
        rw [hp] at hok
        rcases act_none hcap (halted_ui hh hp) hp with ⟨l', rfl, _⟩ | ⟨l', rfl, _⟩ | ⟨k', rfl, _⟩ | ⟨rfl, _⟩
        · exact up l' (hok.2.1 _ hm) s.ui hv (Or.inl (by rw [hp]; rfl))
        · exact up l' (hok.2.1 _ hm) s.ui hv (Or.inr (by rw [hp]; rfl))
        · exact hok
        · exact hok
    · have hok := hi.threads v hvt
      obtain ⟨i, hvi, ha⟩ := halted_thread hh hvt
      cases hp : v.prog with
      | nil => rw [hp] at hok; rw [show v.held = [] from hok] at hm; cases hm
      | cons o r =>
        rw [hp] at hok
        rcases act_none hcap ha hp with ⟨l', rfl, _⟩ | ⟨l', rfl, _⟩ | ⟨k', rfl, hasked⟩ | ⟨rfl, hsrv⟩
        · exact up l' (hok.1 _ hm) v hv (Or.inl (by rw [hp]; rfl))
        · exact up l' (hok.1 _ hm) v hv (Or.inr (by rw [hp]; rfl))
        · have hlt := hok.1 _ hm
          have := (ui_quiet hcap hi hh (fun l' hl' => up l' (by simp only at hlt; omega) s.ui List.mem_cons_self)).2 v hvt
          rw [hasked] at this
          cases this
        · have := hn i v hvi (by rw [hp]; rfl) hsrv _ hm; simp only at this; omega

/-- What is left when nobody can go on. -/
theorem halted_rest {c : Cfg} {s : State} {k : Nat} (hcap : c.cap = none) (hi : Inv s) (hh : Halted c s)
    (hn : ∀ (i : Nat) (t : Thread), s.threads[i]? = some t → t.prog.head? = some .net → c.srv i = false →
      ∀ h ∈ t.held, h.1 < k) (hk : k ≤ zkc) :
    s.quiet ∧ ∀ (i : Nat) (t : Thread), s.threads[i]? = some t →
      t.prog = [] ∨ (t.prog.head? = some .net ∧ c.srv i = false) ∨ ∃ l < k, t.wants l := by
  have hno := nowait hcap hi hh hn
  obtain ⟨hq, ha⟩ := ui_quiet hcap hi hh (fun l hl => hno l (Nat.le_trans hk hl) s.ui List.mem_cons_self)
  refine ⟨hq, fun i t hti => ?_⟩
  have ht := List.mem_of_getElem? hti
  cases hp : t.prog with
  | nil => exact Or.inl rfl
  | cons o r =>
    right
    have hact : act c s (some i) t = none := by
      have := hh (.run i)
      simp only [step, hti] at this
      cases ha : act c s (some i) t with
      | none => rfl
      | some p => rw [ha] at this; cases this
    have hl : ∀ l, t.wants l → l < k := fun l hw => by
      by_contra hc
      exact hno l (by omega) t (List.mem_cons_of_mem _ ht) hw
    rcases act_none hcap hact hp with ⟨l, rfl, _⟩ | ⟨l, rfl, _⟩ | ⟨k, rfl, hasked⟩ | ⟨rfl, hs⟩
    · have hw : t.wants l := Or.inl (by rw [hp]; rfl)
      exact Or.inr ⟨l, hl l hw, hw⟩
    · have hw : t.wants l := Or.inr (by rw [hp]; rfl)
      exact Or.inr ⟨l, hl l hw, hw⟩
    · rw [ha t ht] at hasked; cases hasked
    · exact Or.inl ⟨rfl, hs⟩

/-! ## Every goroutine comes to its end -/

def Op.size : Op → Nat
  | .acq _ => 2
  | .racq _ => 1
  | .rel _ => 1
  | .queue .print => 9
  | .queue _ => 15
  | .ask .print => 10
  | .ask _ => 16
  | .net => 1

def Closure.size : Closure → Nat
  | .print => 8
  | _ => 14

def total : List Op → Nat
  | [] => 0
  | o :: r => o.size + total r

def Thread.left (t : Thread) : Nat :=
  match t.prog with
  | .acq _ :: r => (if t.wait then 1 else 2) + total r
  | .ask k :: r => (if t.asked then 1 else (Op.ask k).size) + total r
  | p => total p

def sum (f : α → Nat) : List α → Nat
  | [] => 0
  | x :: r => f x + sum f r

/-- How many steps are left at most. -/
def State.left (s : State) : Nat :=
  sum Thread.left s.threads + s.ui.left + s.owner.toList.length + sum (fun x => Closure.size x.2) s.queue

theorem sum_append (f : α → Nat) (a b : List α) : sum f (a ++ b) = sum f a + sum f b := by
  induction a with
  | nil => simp [sum]
  | cons x a ih => simp only [List.cons_append, sum, ih]; omega

theorem sum_set (f : α → Nat) (a : List α) (i : Nat) (x y : α) (h : a[i]? = some x) :
    sum f (a.set i y) + f x = sum f a + f y := by
  induction a generalizing i with
  | nil => cases h
  | cons z a ih =>
    cases i with
    | zero => cases h; simp only [List.set_cons_zero, sum]; omega
    | succ i =>
      have := ih i h
      simp only [List.set_cons_succ, sum]; omega

theorem left_le (t : Thread) : t.left ≤ total t.prog := by
  unfold Thread.left
  split
  · rename_i l r h; rw [h]; simp only [total, Op.size]; split <;> omega
  · rename_i k r h; rw [h]; simp only [total]; cases k <;> simp only [Op.size] <;> split <;> omega
  · exact Nat.le_refl _

theorem left_act {c : Cfg} {s : State} {me : Option Nat} {t t' : Thread} {q : List (Option Nat × Closure)}
    (h : act c s me t = some (t', q)) :
    t'.left + sum (fun x => Closure.size x.2) q + 1 ≤ t.left := by
  unfold act at h
  cases hp : t.prog with
  | nil => rw [hp] at h; cases h
  | cons o r =>
    rw [hp] at h
    cases o with
    | acq l =>
      dsimp only at h
      split at h
      · rename_i hwt
        split at h
        · cases h
          have := left_le { t with prog := r, held := (l, true) :: t.held, wait := false }
          have e : t.left = 1 + total r := by unfold Thread.left; rw [hp]; simp [hwt]
          simp only [sum] at this ⊢
          omega
        · cases h
      · rename_i hwt
        cases h
        have e : t.left = 2 + total r := by unfold Thread.left; rw [hp]; simp [hwt]
        rw [e]
        simp only [Thread.left, sum]; simp; omega
    | racq l =>
      dsimp only at h
      split at h
      · cases h
        have := left_le { t with prog := r, held := (l, false) :: t.held }
        have e : t.left = 1 + total r := by unfold Thread.left; rw [hp]; rfl
        simp only [sum] at this ⊢
        omega
      · cases h
    | rel l =>
      cases h
      have := left_le { t with prog := r, held := t.held.filter fun h => h.1 != l }
      have e : t.left = 1 + total r := by unfold Thread.left; rw [hp]; rfl
      simp only [sum] at this ⊢
      omega
    | queue k =>
      dsimp only at h
      split at h
      · cases h
        have := left_le { t with prog := r }
        have e : t.left = (Op.queue k).size + total r := by unfold Thread.left; rw [hp]; rfl
        simp only [sum] at this ⊢
        cases k <;> simp only [Op.size, Closure.size] at e ⊢ <;> omega
      · cases h
    | ask k =>
      dsimp only at h
      split at h
      · cases h
      · rename_i hasked
        split at h
        · cases h
          have e : t.left = (Op.ask k).size + total r := by unfold Thread.left; rw [hp]; simp [hasked]
          rw [e]
          simp only [Thread.left, sum]
          cases k <;> simp [Op.size, Closure.size] <;> omega
        · cases h
    | net =>
      dsimp only at h
      split at h
      · cases h
        have := left_le { t with prog := r }
        have e : t.left = 1 + total r := by unfold Thread.left; rw [hp]; rfl
        simp only [sum] at this ⊢
        omega
      · cases h

theorem total_closure (k : Closure) : total k.ops + 2 ≤ k.size + 0 := by
  cases k with
  | focus b => cases b <;> decide
  | _ => decide

theorem left_step {c : Cfg} {s s' : State} {m : Move} (h : step c s m = some s') : s'.left + 1 ≤ s.left := by
  cases m with
  | run i =>
    simp only [step] at h
    cases ht : s.threads[i]? with
    | none => rw [ht] at h; cases h
    | some t =>
      rw [ht] at h
      dsimp only at h
      cases ha : act c s (some i) t with
      | none => rw [ha] at h; cases h
      | some p =>
        obtain ⟨t', q⟩ := p
        rw [ha] at h
        cases h
        have h1 := left_act ha
        have h2 := sum_set Thread.left s.threads i t t' ht
        simp only [State.left, sum_append]
        omega
  | ui =>
    simp only [step] at h
    cases hp : s.ui.prog with
    | nil =>
      have hl : s.ui.left = 0 := by unfold Thread.left; rw [hp]; rfl
      cases ho : s.owner with
      | none =>
        cases hq : s.queue with
        | nil => simp [hp, ho, hq] at h
        | cons x q =>
          obtain ⟨o, k⟩ := x
          simp only [hp, ho, hq] at h
          cases h
          have h1 := left_le { s.ui with prog := k.ops }
          have h2 := total_closure k
          have h3 : o.toList.length ≤ 1 := by cases o <;> simp
          simp only [State.left, hq, ho, sum] at h1 ⊢
          omega
      | some i =>
        simp only [hp, ho] at h
        cases ht : s.threads[i]? with
        | none => rw [ht] at h; cases h
        | some t =>
          rw [ht] at h
          dsimp only at h
          cases hpt : t.prog with
          | nil => rw [hpt] at h; cases h
          | cons o r =>
            rw [hpt] at h
            cases o with
            | ask k =>
              dsimp only at h
              split at h
              · rename_i hasked
                cases h
                have h1 := left_le { t with prog := r, asked := false }
                have e : t.left = 1 + total r := by unfold Thread.left; rw [hpt]; simp [hasked]
                have h2 := sum_set Thread.left s.threads i t { t with prog := r, asked := false } ht
                simp only [State.left, ho, Option.toList, List.length_cons, List.length_nil] at h1 ⊢
                omega
              · cases h
            | _ => cases h
    | cons o r =>
      simp only [hp] at h
      cases ha : act c s none s.ui with
      | none => rw [ha] at h; cases h
      | some p =>
        obtain ⟨t', q⟩ := p
        rw [ha] at h
        cases h
        have h1 := left_act ha
        simp only [State.left, sum_append]
        omega

theorem left_exec {c : Cfg} (ms : List Move) {s s' : State} (h : exec c s ms = some s') : s'.left + ms.length ≤ s.left := by
  induction ms generalizing s with
  | nil => cases h; simp
  | cons m ms ih =>
    simp only [exec] at h
    cases hs : step c s m with
    | none => rw [hs] at h; cases h
    | some s1 =>
      rw [hs] at h
      have h1 := left_step hs
      have h2 := ih h
      simp only [List.length_cons]
      omega

/-! ## The goroutines of the client and of the server -/

theorem ok_prints (held : List (Nat × Bool)) (n : Nat) (r : List Op) (h : ok held r) : ok held (prints n ++ r) := by
  induction n with
  | zero => exact h
  | succ n ih => exact ih

theorem filter_fresh (held : List (Nat × Bool)) (l : Nat) (m : Bool) (h : ∀ x ∈ held, x.1 < l) :
    ((l, m) :: held).filter (fun x => x.1 != l) = held := by
  rw [List.filter_cons_of_neg (by simp), List.filter_eq_self]
  intro x hx
  have := h x hx
  simp only [bne_iff_ne, ne_eq]; omega

/-- A lock taken and given back at once. -/
theorem ok_around (held : List (Nat × Bool)) (l : Nat) (r : List Op) (hl : ∀ x ∈ held, x.1 < l) (h : ok held r) :
    ok held (.acq l :: .rel l :: r) ∧ ok held (.racq l :: .rel l :: r) := by
  constructor
  · refine ⟨hl, ?_⟩
    simp only [ok]
    rw [filter_fresh _ _ _ hl]; exact h
  · refine ⟨hl, ?_⟩
    simp only [ok]
    rw [filter_fresh _ _ _ hl]; exact h

theorem ok_sched (held : List (Nat × Bool)) (hl : ∀ x ∈ held, x.1 < mtx) (n : Nat) (r : List Op) (h : ok held r) :
    ok held (sched n ++ r) := by
  induction n with
  | zero => exact h
  | succ n ih => exact (ok_around held mtx _ hl ih).1

theorem ok_logs (held : List (Nat × Bool)) (hl : ∀ x ∈ held, x.1 < log) (n : Nat) (r : List Op) (h : ok held r) :
    ok held (logs n ++ r) := by
  induction n with
  | zero => exact h
  | succ n ih => exact (ok_around held log _ hl ih).1

theorem ok_members (held : List (Nat × Bool)) (hl : ∀ x ∈ held, x.1 < book) (n : Nat) (r : List Op) (h : ok held r) :
    ok held (members n ++ r) := by
  induction n with
  | zero => exact h
  | succ n ih => exact (ok_around held book _ hl (show ok held (.queue .print :: (members n ++ r)) from ih)).2

theorem ok_nets (held : List (Nat × Bool)) (n : Nat) (r : List Op) (h : ok held r) :
    ok held (List.replicate n .net ++ r) := by
  induction n with
  | zero => exact h
  | succ n ih => exact ih

theorem ok_body (b : Body) (r : List Op) (h : ok [] r) : ok [] (b.ops ++ r) := by
  cases b with
  | flood n => simpa [Body.ops, ok] using ok_prints [] n r h
  | groupConversation known new =>
    cases known with
    | false => simpa [Body.ops, ok] using h
    | true =>
      have := ok_prints [(zkc, true)] (if new then 2 else 0) (.rel zkc :: r) (by simpa [ok] using h)
      simpa [Body.ops, ok] using this
  | getConversation new =>
    have := ok_prints [(zkc, true)] (if new then 2 else 0) (.rel zkc :: r) (by simpa [ok] using h)
    simpa [Body.ops, ok] using this
  | list n =>
    have := ok_prints [(zkc, false)] n (.rel zkc :: r) (by simpa [ok] using h)
    simpa [Body.ops, ok] using this
  | listGroup n =>
    have := ok_members [(zkc, false)] (by simp [zkc, Locks.book]) n (.rel zkc :: r) (by simpa [ok] using h)
    simpa [Body.ops, ok] using this
  | goOnline n =>
    have := ok_nets [(zkc, true)] n (.rel zkc :: r) (by simpa [ok] using h)
    simpa [Body.ops, ok] using this
  | disabled n =>
    have := ok_prints [(zkc, true)] n (.rel zkc :: r) (by simpa [ok] using h)
    simpa [Body.ops, ok] using this
  | groupRead n m =>
    have := ok_sched [(zkc, false)] (by simp [zkc, mtx]) n _
      (ok_prints [(zkc, false)] m (.rel zkc :: r) (by simpa [ok] using h))
    simpa [Body.ops, ok] using this
  | groupWrite f l n m =>
    have := ok_logs [(zkc, true)] (by simp [zkc, Locks.log]) l _ (ok_sched [(zkc, true)] (by simp [zkc, mtx]) n _
      (ok_prints [(zkc, true)] m (.rel zkc :: r) (by simpa [ok] using h)))
    cases f with
    | false => simpa [Body.ops, ok] using this
    | true =>
      have h2 := (ok_around [(zkc, true)] Locks.book _ (by simp [zkc, Locks.book]) this).2
      simpa [Body.ops, ok] using h2
  | _ => simp [Body.ops, ok, prints, sched, logs, Locks.write, zkc, mtx, Locks.ratchet, Locks.tick, pending, Locks.book, Locks.log, h, List.replicate]

theorem ok_client (bs : List Body) : ok [] (client bs) := by
  induction bs with
  | nil => rfl
  | cons b bs ih => exact ok_body b _ ih

theorem ok_server (ps : List Part) : ok [] (server ps) := by
  induction ps with
  | nil => rfl
  | cons p ps ih =>
    show ok [] (p.ops ++ server ps)
    cases p <;> simp [Part.ops, ok, Locks.sessions, slog, ih]

/-! ## Who waits for the connection, and with which locks -/

/-- Whoever waits for the connection holds only such locks. -/
def calm (P : List (Nat × Bool) → Prop) (held : List (Nat × Bool)) : List Op → Prop
  | [] => True
  | .acq l :: r => calm P ((l, true) :: held) r
  | .racq l :: r => calm P ((l, false) :: held) r
  | .rel l :: r => calm P (held.filter fun h => h.1 != l) r
  | .queue _ :: r => calm P held r
  | .ask _ :: r => calm P held r
  | .net :: r => P held ∧ calm P held r

theorem calm_act {P : List (Nat × Bool) → Prop} {c : Cfg} {s : State} {me : Option Nat} {t t' : Thread}
    {q : List (Option Nat × Closure)} (h : act c s me t = some (t', q)) (hc : calm P t.held t.prog) :
    calm P t'.held t'.prog ∧ t'.prog <:+ t.prog := by
  unfold act at h
  cases hp : t.prog with
  | nil => rw [hp] at h; cases h
  | cons o r =>
    rw [hp] at h hc
    have hs : r <:+ o :: r := List.suffix_cons o r
    cases o with
    | acq l =>
      dsimp only at h
      split at h
      · split at h
        · cases h; exact ⟨hc, hs⟩
        · cases h
      · cases h; exact ⟨hc, List.suffix_refl _⟩
    | racq l =>
      dsimp only at h
      split at h
      · cases h; exact ⟨hc, hs⟩
      · cases h
    | rel l => cases h; exact ⟨hc, hs⟩
    | queue k =>
      dsimp only at h
      split at h
      · cases h; exact ⟨hc, hs⟩
      · cases h
    | ask k =>
      dsimp only at h
      split at h
      · cases h
      · split at h
        · cases h; exact ⟨hc, List.suffix_refl _⟩
        · cases h
    | net =>
      dsimp only at h
      split at h
      · cases h; exact ⟨hc.2, hs⟩
      · cases h

/-- What a goroutine has left is the end of what it does. -/
def Along (P : List (Nat × Bool) → Prop) (gs : List (List Op)) (s : State) : Prop :=
  ∀ (i : Nat) (t : Thread), s.threads[i]? = some t → calm P t.held t.prog ∧ ∃ g, gs[i]? = some g ∧ t.prog <:+ g

theorem along_step {P : List (Nat × Bool) → Prop} {gs : List (List Op)} {c : Cfg} {s s' : State} {m : Move}
    (h : step c s m = some s') (ha : Along P gs s) : Along P gs s' := by
  have key : ∀ (i : Nat) (t t' : Thread), s.threads[i]? = some t → calm P t'.held t'.prog → t'.prog <:+ t.prog →
      ∀ (j : Nat) (u : Thread), (s.threads.set i t')[j]? = some u →
        calm P u.held u.prog ∧ ∃ g, gs[j]? = some g ∧ u.prog <:+ g := by
    intro i t t' ht hc hs j u hu
    rw [List.getElem?_set] at hu
    split at hu
    · rename_i e
      subst e
      split at hu
      · cases hu
        obtain ⟨_, g, hg, hsuf⟩ := ha i t ht
        exact ⟨hc, g, hg, hs.trans hsuf⟩
      · cases hu
    · exact ha j u hu
  cases m with
  | run i =>
    simp only [step] at h
    cases ht : s.threads[i]? with
    | none => rw [ht] at h; cases h
    | some t =>
      rw [ht] at h
      dsimp only at h
      cases hact : act c s (some i) t with
      | none => rw [hact] at h; cases h
      | some p =>
        obtain ⟨t', q⟩ := p
        rw [hact] at h
        cases h
        obtain ⟨h1, h2⟩ := calm_act hact (ha i t ht).1
        exact fun j u hu => key i t t' ht h1 h2 j u hu
  | ui =>
    simp only [step] at h
    cases hp : s.ui.prog with
    | nil =>
      cases ho : s.owner with
      | none =>
        cases hq : s.queue with
        | nil => simp [hp, ho, hq] at h
        | cons x q =>
          obtain ⟨o, k⟩ := x
          simp only [hp, ho, hq] at h
          cases h
          exact ha
      | some i =>
        simp only [hp, ho] at h
        cases ht : s.threads[i]? with
        | none => rw [ht] at h; cases h
        | some t =>
          rw [ht] at h
          dsimp only at h
          cases hpt : t.prog with
          | nil => rw [hpt] at h; cases h
          | cons o r =>
            rw [hpt] at h
            cases o with
            | ask k =>
              dsimp only at h
              split at h
              · cases h
                have hc := (ha i t ht).1
                rw [hpt] at hc
                refine fun j u hu => key i t _ ht hc ?_ j u hu
                rw [hpt]
                exact List.suffix_cons _ r
              · cases h
            | _ => cases h
    | cons o r =>
      simp only [hp] at h
      cases hact : act c s none s.ui with
      | none => rw [hact] at h; cases h
      | some p =>
        obtain ⟨t', q⟩ := p
        rw [hact] at h
        cases h
        exact ha

theorem along_exec {P : List (Nat × Bool) → Prop} {gs : List (List Op)} {c : Cfg} (ms : List Move) {s s' : State}
    (h : exec c s ms = some s') (ha : Along P gs s) : Along P gs s' := by
  induction ms generalizing s with
  | nil => cases h; exact ha
  | cons m ms ih =>
    simp only [exec] at h
    cases hs : step c s m with
    | none => rw [hs] at h; cases h
    | some s1 => rw [hs] at h; exact ih h (along_step hs ha)

theorem along_start {P : List (Nat × Bool) → Prop} (gs : List (List Op)) (h : ∀ g ∈ gs, calm P [] g) : Along P gs (start gs) := by
  intro i t ht
  simp only [start, List.getElem?_map, Option.map_eq_some_iff] at ht
  obtain ⟨g, hg, rfl⟩ := ht
  exact ⟨h g (List.mem_of_getElem? hg), g, hg, List.suffix_refl _⟩

theorem calm_prints (P : List (Nat × Bool) → Prop) (held : List (Nat × Bool)) (n : Nat) (r : List Op) (h : calm P held r) :
    calm P held (prints n ++ r) := by
  induction n with
  | zero => exact h
  | succ n ih => exact ih

theorem calm_around (P : List (Nat × Bool) → Prop) (held : List (Nat × Bool)) (l : Nat) (r : List Op)
    (hl : ∀ x ∈ held, x.1 < l) (h : calm P held r) :
    calm P held (.acq l :: .rel l :: r) ∧ calm P held (.racq l :: .rel l :: r) := by
  constructor <;> (simp only [calm]; rw [filter_fresh _ _ _ hl]; exact h)

theorem calm_sched (P : List (Nat × Bool) → Prop) (held : List (Nat × Bool)) (hl : ∀ x ∈ held, x.1 < mtx) (n : Nat) (r : List Op)
    (h : calm P held r) : calm P held (sched n ++ r) := by
  induction n with
  | zero => exact h
  | succ n ih => exact (calm_around P held mtx _ hl ih).1

theorem calm_logs (P : List (Nat × Bool) → Prop) (held : List (Nat × Bool)) (hl : ∀ x ∈ held, x.1 < log) (n : Nat) (r : List Op)
    (h : calm P held r) : calm P held (logs n ++ r) := by
  induction n with
  | zero => exact h
  | succ n ih => exact (calm_around P held log _ hl ih).1

theorem calm_members (P : List (Nat × Bool) → Prop) (held : List (Nat × Bool)) (hl : ∀ x ∈ held, x.1 < book) (n : Nat)
    (r : List Op) (h : calm P held r) : calm P held (members n ++ r) := by
  induction n with
  | zero => exact h
  | succ n ih =>
    exact (calm_around P held book _ hl (show calm P held (.queue .print :: (members n ++ r)) from ih)).2

theorem calm_nets (P : List (Nat × Bool) → Prop) (held : List (Nat × Bool)) (hP : P held) (n : Nat) (r : List Op)
    (h : calm P held r) : calm P held (List.replicate n .net ++ r) := by
  induction n with
  | zero => exact h
  | succ n ih => exact ⟨hP, ih⟩

theorem calm_body {P : List (Nat × Bool) → Prop} (b : Body) (r : List Op) (h0 : P []) (h1 : P [(Locks.ratchet, true)])
    (h2 : ∀ n, b = .goOnline n → P [(zkc, true)]) (h : calm P [] r) : calm P [] (b.ops ++ r) := by
  cases b with
  | flood n => simpa [Body.ops, calm] using calm_prints P [] n r h
  | groupConversation known new =>
    cases known with
    | false => simpa [Body.ops, calm] using h
    | true =>
      have := calm_prints P [(zkc, true)] (if new then 2 else 0) (.rel zkc :: r) (by simpa [calm] using h)
      simpa [Body.ops, calm] using this
  | getConversation new =>
    have := calm_prints P [(zkc, true)] (if new then 2 else 0) (.rel zkc :: r) (by simpa [calm] using h)
    simpa [Body.ops, calm] using this
  | list n =>
    have := calm_prints P [(zkc, false)] n (.rel zkc :: r) (by simpa [calm] using h)
    simpa [Body.ops, calm] using this
  | listGroup n =>
    have := calm_members P [(zkc, false)] (by simp [zkc, Locks.book]) n (.rel zkc :: r) (by simpa [calm] using h)
    simpa [Body.ops, calm] using this
  | goOnline n =>
    have := calm_nets P [(zkc, true)] (h2 n rfl) n (.rel zkc :: r) (by simpa [calm] using h)
    simpa [Body.ops, calm] using this
  | disabled n =>
    have := calm_prints P [(zkc, true)] n (.rel zkc :: r) (by simpa [calm] using h)
    simpa [Body.ops, calm] using this
  | groupRead n m =>
    have := calm_sched P [(zkc, false)] (by simp [zkc, mtx]) n _
      (calm_prints P [(zkc, false)] m (.rel zkc :: r) (by simpa [calm] using h))
    simpa [Body.ops, calm] using this
  | groupWrite f l n m =>
    have := calm_logs P [(zkc, true)] (by simp [zkc, Locks.log]) l _ (calm_sched P [(zkc, true)] (by simp [zkc, mtx]) n _
      (calm_prints P [(zkc, true)] m (.rel zkc :: r) (by simpa [calm] using h)))
    cases f with
    | false => simpa [Body.ops, calm] using this
    | true =>
      have h2 := (calm_around P [(zkc, true)] Locks.book _ (by simp [zkc, Locks.book]) this).2
      simpa [Body.ops, calm] using h2
  | _ =>
    have h1' : P [(0, true)] := h1
    simp [Body.ops, calm, h0, h1', prints, sched, logs, Locks.write, zkc, mtx, Locks.ratchet, Locks.tick, pending, Locks.book,
      Locks.log, h, List.replicate]

theorem calm_client {P : List (Nat × Bool) → Prop} (bs : List Body) (h0 : P []) (h1 : P [(Locks.ratchet, true)])
    (h2 : ∀ n, Body.goOnline n ∈ bs → P [(zkc, true)]) : calm P [] (client bs) := by
  induction bs with
  | nil => trivial
  | cons b bs ih =>
    exact calm_body b _ h0 h1 (fun n e => h2 n (by rw [e]; exact List.mem_cons_self))
      (ih fun n hn => h2 n (List.mem_cons_of_mem _ hn))

theorem calm_server (ps : List Part) : calm (· = []) [] (server ps) := by
  induction ps with
  | nil => trivial
  | cons p ps ih =>
    show calm _ [] (p.ops ++ server ps)
    cases p <;> simp [Part.ops, calm, Locks.sessions, slog, ih]

/-! ## A lock held for writing is held by nobody else -/

def Excl (s : State) : Prop :=
  ∀ (i j : Nat) (t u : Thread) (l : Nat) (m : Bool), s.all[i]? = some t → s.all[j]? = some u → i ≠ j →
    (l, true) ∈ t.held → (l, m) ∉ u.held

theorem held_act {c : Cfg} {s : State} {me : Option Nat} {t t' : Thread} {q : List (Option Nat × Closure)}
    (h : act c s me t = some (t', q)) :
    (∀ x ∈ t'.held, x ∈ t.held) ∨ (∃ l, t'.held = (l, true) :: t.held ∧ s.free l = true)
      ∨ (∃ l, t'.held = (l, false) :: t.held ∧ s.readable l = true) := by
  unfold act at h
  cases hp : t.prog with
  | nil => rw [hp] at h; cases h
  | cons o r =>
    rw [hp] at h
    cases o with
    | acq l =>
      dsimp only at h
      split at h
      · split at h
        · rename_i hf; cases h; exact Or.inr (Or.inl ⟨l, rfl, hf⟩)
        · cases h
      · cases h; exact Or.inl fun x hx => hx
    | racq l =>
      dsimp only at h
      split at h
      · rename_i hf; cases h; exact Or.inr (Or.inr ⟨l, rfl, hf⟩)
      · cases h
    | rel l => cases h; exact Or.inl fun x hx => (List.mem_filter.1 hx).1
    | queue k =>
      dsimp only at h
      split at h
      · cases h; exact Or.inl fun x hx => hx
      · cases h
    | ask k =>
      dsimp only at h
      split at h
      · cases h
      · split at h
        · cases h; exact Or.inl fun x hx => hx
        · cases h
    | net =>
      dsimp only at h
      split at h
      · cases h; exact Or.inl fun x hx => hx
      · cases h

theorem excl_set {c : Cfg} {s s' : State} {me : Option Nat} {t t' : Thread} {q : List (Option Nat × Closure)} (i : Nat)
    (ht : s.all[i]? = some t) (h : act c s me t = some (t', q)) (he : s'.all = s.all.set i t') (hx : Excl s) : Excl s' := by
  have hfree : ∀ l, s.free l = true → ∀ u ∈ s.all, ∀ m, (l, m) ∉ u.held := by
    intro l hf u hu m hm
    unfold State.free at hf
    rw [List.all_eq_true] at hf
    have := List.all_eq_true.1 (hf u hu) _ hm
    simp at this
  have hread : ∀ l, s.readable l = true → ∀ u ∈ s.all, (l, true) ∉ u.held := by
    intro l hf u hu hm
    unfold State.readable at hf
    rw [List.all_eq_true] at hf
    have h1 := hf u hu
    rw [Bool.and_eq_true] at h1
    have := List.all_eq_true.1 h1.1 _ hm
    simp at this
  intro a b u v l m ha hb hab hu hv
  rw [he, List.getElem?_set] at ha hb
  split at ha
  · rename_i e
    subst e
    rw [if_neg hab] at hb
    split at ha
    · cases ha
      rcases held_act h with h1 | ⟨l', h1, hf⟩ | ⟨l', h1, hf⟩
      · exact hx i b t v l m ht hb hab (h1 _ hu) hv
      · rw [h1] at hu
        rcases List.mem_cons.1 hu with e | hu
        · cases e; exact hfree _ hf v (List.mem_of_getElem? hb) m hv
        · exact hx i b t v l m ht hb hab hu hv
      · rw [h1] at hu
        rcases List.mem_cons.1 hu with e | hu
        · cases e
        · exact hx i b t v l m ht hb hab hu hv
    · cases ha
  · rename_i hia
    split at hb
    · rename_i e
      subst e
      split at hb
      · cases hb
        rcases held_act h with h1 | ⟨l', h1, hf⟩ | ⟨l', h1, hf⟩
        · exact hx a i u t l m ha ht hab hu (h1 _ hv)
        · rw [h1] at hv
          rcases List.mem_cons.1 hv with e | hv
          · cases e; exact hfree _ hf u (List.mem_of_getElem? ha) _ hu
          · exact hx a i u t l m ha ht hab hu hv
        · rw [h1] at hv
          rcases List.mem_cons.1 hv with e | hv
          · cases e; exact hread _ hf u (List.mem_of_getElem? ha) hu
          · exact hx a i u t l m ha ht hab hu hv
      · cases hb
    · exact hx a b u v l m ha hb hab hu hv

theorem excl_held {s s' : State} (he : s'.all.map Thread.held = s.all.map Thread.held) (hx : Excl s) : Excl s' := by
  intro a b u v l m ha hb hab hu hv
  have h1 : ∀ (i : Nat) (t : Thread), s'.all[i]? = some t → ∃ t0, s.all[i]? = some t0 ∧ t0.held = t.held := by
    intro i t ht
    have : (s.all.map Thread.held)[i]? = some t.held := by rw [← he]; simp [ht]
    simpa using this
  obtain ⟨u0, hu0, e1⟩ := h1 a u ha
  obtain ⟨v0, hv0, e2⟩ := h1 b v hb
  exact hx a b u0 v0 l m hu0 hv0 hab (e1 ▸ hu) (e2 ▸ hv)

theorem excl_step {c : Cfg} {s s' : State} {m : Move} (h : step c s m = some s') (hx : Excl s) : Excl s' := by
  cases m with
  | run i =>
    simp only [step] at h
    cases ht : s.threads[i]? with
    | none => rw [ht] at h; cases h
    | some t =>
      rw [ht] at h
      dsimp only at h
      cases hact : act c s (some i) t with
      | none => rw [hact] at h; cases h
      | some p =>
        obtain ⟨t', q⟩ := p
        rw [hact] at h
        cases h
        exact excl_set (i + 1) (by simpa [State.all] using ht) hact (by simp [State.all]) hx
  | ui =>
    simp only [step] at h
    cases hp : s.ui.prog with
    | nil =>
      cases ho : s.owner with
      | none =>
        cases hq : s.queue with
        | nil => simp [hp, ho, hq] at h
        | cons x q =>
          obtain ⟨o, k⟩ := x
          simp only [hp, ho, hq] at h
          cases h
          exact excl_held (by simp [State.all]) hx
      | some i =>
        simp only [hp, ho] at h
        cases ht : s.threads[i]? with
        | none => rw [ht] at h; cases h
        | some t =>
          rw [ht] at h
          dsimp only at h
          cases hpt : t.prog with
          | nil => rw [hpt] at h; cases h
          | cons o r =>
            rw [hpt] at h
            cases o with
            | ask k =>
              dsimp only at h
              split at h
              · cases h
                refine excl_held ?_ hx
                have hlt : i < s.threads.length := (List.getElem?_eq_some_iff.1 ht).1
                have e : s.threads[i] = t := (List.getElem?_eq_some_iff.1 ht).2
                simp only [State.all, List.map_cons, List.map_set, List.cons.injEq, true_and]
                have : t.held = (s.threads.map Thread.held)[i]'(by simpa using hlt) := by simp [e]
                rw [this, List.set_getElem_self]
              · cases h
            | _ => cases h
    | cons o r =>
      simp only [hp] at h
      cases hact : act c s none s.ui with
      | none => rw [hact] at h; cases h
      | some p =>
        obtain ⟨t', q⟩ := p
        rw [hact] at h
        cases h
        exact excl_set 0 rfl hact rfl hx

theorem excl_exec {c : Cfg} (ms : List Move) {s s' : State} (h : exec c s ms = some s') (hx : Excl s) : Excl s' := by
  induction ms generalizing s with
  | nil => cases h; exact hx
  | cons m ms ih =>
    simp only [exec] at h
    cases hs : step c s m with
    | none => rw [hs] at h; cases h
    | some s1 => rw [hs] at h; exact ih h (excl_step hs hx)

theorem excl_start (gs : List (List Op)) : Excl (start gs) := by
  intro i j t u l m hi hj hij ht
  exfalso
  have : t.held = [] := by
    have hm := List.mem_of_getElem? hi
    rcases List.mem_cons.1 hm with rfl | hm
    · rfl
    · simp only [start, List.mem_map] at hm
      obtain ⟨g, _, rfl⟩ := hm
      rfl
  rw [this] at ht
  cases ht

theorem reach_client {c : Cfg} {gs : List (List Body)} {s : State} (h : Reach c (gs.map client) s) : Inv s := by
  obtain ⟨ms, h⟩ := h
  refine inv_exec (inv_start _ ?_) ms h
  intro g hg
  obtain ⟨bs, _, rfl⟩ := List.mem_map.1 hg
  exact ok_client bs

theorem reach_server {c : Cfg} {gs : List (List Part)} {s : State} (h : Reach c (gs.map server) s) : Inv s := by
  obtain ⟨ms, h⟩ := h
  refine inv_exec (inv_start _ ?_) ms h
  intro g hg
  obtain ⟨ps, _, rfl⟩ := List.mem_map.1 hg
  exact ok_server ps

/-! ## C96 -/

/-- Locks do what they are for, whatever runs: what one goroutine holds for writing, no other holds. -/
theorem C96_exclusive (c : Cfg) (gs : List (List Op)) (s : State) (h : Reach c gs s) (i j : Nat) (t u : Thread) (l : Nat)
    (m : Bool) (hi : s.all[i]? = some t) (hj : s.all[j]? = some u) (hij : i ≠ j) (ht : (l, true) ∈ t.held) :
    (l, m) ∉ u.held := by
  obtain ⟨ms, h⟩ := h
  exact excl_exec ms h (excl_start gs) i j t u l m hi hj hij ht

/-- Whatever the goroutines of the client do, how many there are, and in whichever order they run: as long as the server
answers, each comes to its end, and everything that was queued for the screen is done. -/
theorem C96_answers_partial (c : Cfg) (hcap : c.cap = none) (hsrv : ∀ i, c.srv i = true) (gs : List (List Body)) :
    (∃ n, ∀ ms s, exec c (start (gs.map client)) ms = some s → ms.length ≤ n)
      ∧ ∀ s, Reach c (gs.map client) s → Halted c s → s.done := by
  refine ⟨⟨(start (gs.map client)).left, fun ms s h => ?_⟩, fun s hr hh => ?_⟩
  · have := left_exec ms h; omega
  · obtain ⟨hq, ht⟩ := halted_rest (k := 0) hcap (reach_client hr) hh (fun i _ _ _ h => by rw [hsrv i] at h; cases h)
      (Nat.zero_le _)
    refine ⟨hq, fun t htm => ?_⟩
    obtain ⟨i, hi⟩ := List.getElem?_of_mem htm
    rcases ht i t hi with h | ⟨_, h⟩ | ⟨l, hl, _⟩
    · exact h
    · rw [hsrv i] at h; cases h
    · omega

/-- A server that does not answer stops only those who wait for it or need the ratchets, unless the client was about to
go online. -/
theorem C96_silent_partial (c : Cfg) (hcap : c.cap = none) (gs : List (List Body))
    (hg : ∀ bs ∈ gs, ∀ n, Body.goOnline n ∉ bs) (s : State) (hr : Reach c (gs.map client) s) (hh : Halted c s) :
    s.quiet ∧ ∀ (i : Nat) (t : Thread), s.threads[i]? = some t →
      t.prog = [] ∨ (t.prog.head? = some .net ∧ c.srv i = false) ∨ t.prog.head? = some (.acq ratchet)
        ∨ t.prog.head? = some (.racq ratchet) := by
  have hi := reach_client hr
  obtain ⟨ms, hr⟩ := hr
  have ha : Along (fun held => ∀ x ∈ held, x.1 < 1) (gs.map client) s := by
    refine along_exec ms hr (along_start _ ?_)
    intro g hgm
    obtain ⟨bs, hbs, rfl⟩ := List.mem_map.1 hgm
    exact calm_client bs (by simp) (by simp) (fun n hn => absurd hn (hg bs hbs n))
  obtain ⟨hq, ht⟩ := halted_rest (k := 1) hcap hi hh (fun i t hti hnet _ => by
    have hc := (ha i t hti).1
    cases hp : t.prog with
    | nil => rw [hp] at hnet; cases hnet
    | cons o r =>
      rw [hp] at hnet hc
      cases hnet
      exact hc.1) (by decide)
  refine ⟨hq, fun i t hti => ?_⟩
  rcases ht i t hti with h | h | ⟨l, hl, hw⟩
  · exact Or.inl h
  · exact Or.inr (Or.inl h)
  · obtain rfl : l = 0 := by omega
    rcases hw with hw | hw
    · exact Or.inr (Or.inr (Or.inl hw))
    · exact Or.inr (Or.inr (Or.inr hw))

/-- Exactly what can stop the screen: somebody who waits for a server that does not answer, and holds the lock of the
client meanwhile; only `goOnline` does. -/
theorem C96_exact (c : Cfg) (hcap : c.cap = none) (gs : List (List Body)) (s : State) (hr : Reach c (gs.map client) s)
    (hh : Halted c s) (hq : ¬ s.quiet) :
    ∃ (i : Nat) (t : Thread), s.threads[i]? = some t ∧ t.prog.head? = some .net ∧ c.srv i = false ∧ t.held = [(zkc, true)] := by
  have hi := reach_client hr
  obtain ⟨ms, hr⟩ := hr
  have ha : Along (fun held => (∀ x ∈ held, x.1 < 1) ∨ held = [(zkc, true)]) (gs.map client) s := by
    refine along_exec ms hr (along_start _ ?_)
    intro g hgm
    obtain ⟨bs, hbs, rfl⟩ := List.mem_map.1 hgm
    exact calm_client bs (by simp) (by simp) (fun n hn => Or.inr rfl)
  by_contra hno
  refine hq (halted_rest (k := 1) hcap hi hh (fun i t hti hnet hs => ?_) (by decide)).1
  have hc := (ha i t hti).1
  cases hp : t.prog with
  | nil => rw [hp] at hnet; cases hnet
  | cons o r =>
    have hnet' := hnet
    rw [hp] at hnet' hc
    cases hnet'
    rcases hc.1 with h | h
    · exact h
    · exact absurd ⟨i, t, hti, hnet, hs, h⟩ hno

theorem halted_of {c : Cfg} {s : State} (hui : step c s .ui = none) (hrun : ∀ i < s.threads.length, step c s (.run i) = none) :
    Halted c s := by
  intro m
  cases m with
  | ui => exact hui
  | run i =>
    by_cases h : i < s.threads.length
    · exact hrun i h
    · simp only [step]
      rw [List.getElem?_eq_none (by omega)]

/-- The server lets the client connect and then says nothing: nothing that is printed from then on appears, and the
client answers no key that needs its lock. -/
theorem C96_silent_violated : ∃ (c : Cfg) (gs : List (List Body)) (s : State),
    c.cap = none ∧ Reach c (gs.map client) s ∧ Halted c s ∧ ¬ s.quiet
      ∧ (∃ t, s.threads[2]? = some t ∧ t.prog.head? = some (.racq zkc)) := by
  refine ⟨⟨fun _ => false, none⟩, [[.goOnline 1], [.print], [.look]],
    ⟨[⟨[.net, .rel zkc], [(zkc, true)], false, false⟩, ⟨[], [], false, false⟩, ⟨[.racq zkc, .rel zkc], [], false, false⟩],
      ⟨Closure.print.ops, [], true, false⟩, none, []⟩, rfl,
    ⟨[.run 0, .run 0, .run 1, .ui, .ui], rfl⟩, halted_of (by decide) ?_, by decide, ⟨_, rfl, rfl⟩⟩
  intro i hi
  match i, hi with
  | 0, _ => rfl
  | 1, _ => rfl
  | 2, _ => decide

/-- While the client lists its windows. -/
def listing (n j : Nat) : State :=
  ⟨[⟨prints n ++ [.rel zkc], [(zkc, false)], false, false⟩], ⟨Closure.print.ops, [], true, false⟩, none,
    List.replicate j (none, .print)⟩

theorem exec_append {c : Cfg} (a b : List Move) {s s1 : State} (h : exec c s a = some s1) : exec c s (a ++ b) = exec c s1 b := by
  induction a generalizing s with
  | nil => cases h; rfl
  | cons m a ih =>
    simp only [exec, List.cons_append] at h ⊢
    cases hs : step c s m with
    | none => rw [hs] at h; cases h
    | some s2 => rw [hs] at h; exact ih h

theorem listing_run (K n : Nat) (m j : Nat) (h : j + m ≤ K) :
    exec ⟨fun _ => true, some K⟩ (listing (n + m) j) (List.replicate m (.run 0)) = some (listing n (j + m)) := by
  induction m generalizing j with
  | zero => rfl
  | succ m ih =>
    have h1 : step ⟨fun _ => true, some K⟩ (listing (n + (m + 1)) j) (.run 0) = some (listing (n + m) (j + 1)) := by
      have hp : prints (n + (m + 1)) = .queue .print :: prints (n + m) := rfl
      have hroom : State.room ⟨fun _ => true, some K⟩ (listing (n + (m + 1)) j) = true := by
        simp only [State.room, listing, List.length_replicate, decide_eq_true_eq]; omega
      simp only [step, listing, List.getElem?_cons_zero, act, hp, List.cons_append]
      simp only [listing, hp, List.cons_append] at hroom
      rw [if_pos hroom]
      simp [List.replicate_succ', prints]
    simp only [List.replicate_succ, exec, h1, Option.bind_some]
    rw [ih (j + 1) (by omega), show j + 1 + m = j + (m + 1) from by omega]

/-- If only so many closures can be queued, a client with more windows stops for good when it lists them: it holds its
lock while it queues the lines, and the screen needs that lock to print the first. -/
theorem C96_queue_violated (K : Nat) : ∃ (c : Cfg) (gs : List (List Body)) (s : State),
    c = ⟨fun _ => true, some (K + 1)⟩ ∧ gs = [[.list (K + 3)]] ∧ Reach c (gs.map client) s ∧ Halted c s ∧ ¬ s.quiet := by
  refine ⟨_, _, listing 1 (K + 1), rfl, rfl, ⟨[.run 0, .run 0, .ui, .ui] ++ List.replicate (K + 1) (.run 0), ?_⟩,
    halted_of (by rfl) ?_, ?_⟩
  · have h1 : exec ⟨fun _ => true, some (K + 1)⟩ (start ([[Body.list (K + 3)]].map client)) [.run 0, .run 0, .ui, .ui]
        = some (listing (K + 2) 0) := by
      simp [exec, step, start, client, Body.ops, act, State.readable, State.all, State.room, listing, prints, List.replicate_succ,
        Closure.ops]
    rw [exec_append _ _ h1, show K + 2 = 1 + (K + 1) from by omega, listing_run (K + 1) 1 (K + 1) 0 (by omega)]
    simp
  · intro i hi
    obtain rfl : i = 0 := by simp only [listing, List.length_singleton] at hi; omega
    have hroom : State.room ⟨fun _ => true, some (K + 1)⟩ (listing 1 (K + 1)) = false := by
      simp [State.room, listing]
    simp only [listing] at hroom
    simp only [step, listing, List.getElem?_cons_zero, act, prints, List.replicate, List.cons_append, List.nil_append]
    simp only [prints, List.replicate, List.cons_append, List.nil_append] at hroom
    simp [hroom]
  · intro h
    cases h.1

example : ∃ (gs : List (List Body)) (s : State), gs = [[.goOnline 2, .cache], [.getConversation true, .find], [.list 3, .groupWrite true 1 2 1]]
    ∧ Reach ⟨fun _ => true, none⟩ (gs.map client) s ∧ s.queue.length = 3 :=
  ⟨_, _, rfl, ⟨[.run 0, .run 0, .run 0, .run 0, .run 0, .run 2, .run 2, .run 1, .ui, .run 2, .run 2], rfl⟩, by decide⟩

/-- The client goes online while it opens a window and lists two; everything comes to its end. -/
example : ∃ s, Reach ⟨fun _ => true, none⟩ ([[.goOnline 1], [.getConversation true], [.list 2]].map client) s
    ∧ s = ⟨[⟨[], [], false, false⟩, ⟨[], [], false, false⟩, ⟨[], [], false, false⟩], ⟨[], [], false, false⟩, none, []⟩ :=
  ⟨_, ⟨[.run 1, .ui, .run 2, .run 0, .ui, .run 2, .run 2, .run 2, .ui, .ui, .ui, .run 1, .run 0, .ui, .ui, .run 0, .run
    0, .ui, .ui, .ui, .ui, .ui, .ui, .ui, .run 1, .run 1, .run 1, .run 1, .ui, .ui, .ui, .ui, .ui, .ui, .ui, .ui,
    .ui, .ui, .ui, .ui, .ui, .ui, .ui, .ui, .ui, .ui, .ui], by decide +kernel⟩, rfl⟩

/-- A silent server while a message is sent: the next one waits for the ratchets, and the screen goes on. -/
example : ∃ s, Reach ⟨fun _ => false, none⟩ ([[.cache], [.cache], [.print]].map client) s ∧ Halted ⟨fun _ => false, none⟩ s
    ∧ s.quiet ∧ s.threads.map (fun t => t.prog.head?) = [some .net, some (.acq ratchet), none] := by
  refine ⟨⟨[⟨[.net, .acq tick, .rel tick, .rel ratchet], [(ratchet, true)], false, false⟩,
    ⟨(client [.cache]).drop 2, [], true, false⟩, ⟨[], [], false, false⟩], ⟨[], [], false, false⟩, none, []⟩,
    ⟨[.run 0, .run 0, .run 1, .run 1, .run 0, .run 1, .run 0, .run 0, .run 0, .run 0, .run 0, .run 0, .run 2, .ui, .ui, .ui, .ui,
      .ui, .ui, .ui], by decide +kernel⟩, halted_of (by decide) ?_, by decide, by decide⟩
  intro i hi
  match i, hi with
  | 0, _ => decide
  | 1, _ => decide
  | 2, _ => decide

/-! ## C97 -/

theorem length_step {c : Cfg} {s s' : State} {m : Move} (h : step c s m = some s') : s'.threads.length = s.threads.length := by
  unfold step at h
  split at h
  · split at h
    · cases h
    · split at h
      · cases h
      · cases h; simp
  · split at h
    · split at h
      · cases h
      · cases h; rfl
    · split at h
      · split at h
        · split at h
          · cases h; simp
          · cases h
        · cases h
      · cases h
    · split at h
      · cases h
      · cases h; rfl

theorem length_exec {c : Cfg} (ms : List Move) {s s' : State} (h : exec c s ms = some s') :
    s'.threads.length = s.threads.length := by
  induction ms generalizing s with
  | nil => cases h; rfl
  | cons m ms ih =>
    simp only [exec] at h
    cases hs : step c s m with
    | none => rw [hs] at h; cases h
    | some s1 => rw [hs] at h; rw [ih h, length_step hs]

theorem net_server (ps : List Part) (h : Op.net ∈ server ps) : Part.wait ∈ ps := by
  simp only [server, List.mem_flatMap] at h
  obtain ⟨p, hp, hn⟩ := h
  cases p <;> simp [Part.ops] at hn
  exact hp

/-- Nobody waits for a client with a lock. -/
theorem C97_free (c : Cfg) (gs : List (List Part)) (s : State) (hr : Reach c (gs.map server) s) (t : Thread)
    (ht : t ∈ s.threads) (hn : t.prog.head? = some .net) : t.held = [] := by
  obtain ⟨ms, hr⟩ := hr
  have ha : Along (· = []) (gs.map server) s := by
    refine along_exec ms hr (along_start _ ?_)
    intro g hgm
    obtain ⟨ps, _, rfl⟩ := List.mem_map.1 hgm
    exact calm_server ps
  obtain ⟨i, hti⟩ := List.getElem?_of_mem ht
  have hc := (ha i t hti).1
  cases hp : t.prog with
  | nil => rw [hp] at hn; cases hn
  | cons o r =>
    rw [hp] at hn hc
    cases hn
    exact hc.1

/-- Whatever the goroutines of the server do and in whichever order they run: each whose client answers, or who waits
for no client, comes to its end, whatever the other clients do. -/
theorem C97_served (c : Cfg) (hcap : c.cap = none) (gs : List (List Part)) :
    (∃ n, ∀ ms s, exec c (start (gs.map server)) ms = some s → ms.length ≤ n)
      ∧ ∀ s, Reach c (gs.map server) s → Halted c s → ∀ (i : Nat) (ps : List Part), gs[i]? = some ps →
        (c.srv i = true ∨ Part.wait ∉ ps) → ∃ t, s.threads[i]? = some t ∧ t.prog = [] ∧ t.held = [] := by
  refine ⟨⟨(start (gs.map server)).left, fun ms s h => ?_⟩, fun s hr hh i ps hps hc => ?_⟩
  · have := left_exec ms h; omega
  · have hi := reach_server hr
    obtain ⟨_, ht⟩ := halted_rest (k := 0) hcap hi hh (fun j t hti hnet _ => by
      rw [C97_free c gs s hr t (List.mem_of_getElem? hti) hnet]
      simp) (Nat.zero_le _)
    obtain ⟨ms, hr⟩ := hr
    have ha : Along (· = []) (gs.map server) s := by
      refine along_exec ms hr (along_start _ ?_)
      intro g hgm
      obtain ⟨ps, _, rfl⟩ := List.mem_map.1 hgm
      exact calm_server ps
    have hlen : s.threads.length = gs.length := by rw [length_exec ms hr]; simp [start]
    have hlt : i < s.threads.length := by rw [hlen]; exact (List.getElem?_eq_some_iff.1 hps).1
    have hti : s.threads[i]? = some s.threads[i] := List.getElem?_eq_getElem hlt
    generalize s.threads[i] = t at hti
    refine ⟨t, hti, ?_⟩
    have hnil : t.prog = [] := by
      rcases ht i t hti with h | ⟨hnet, hs⟩ | ⟨l, hl, _⟩
      · exact h
      · exfalso
        rcases hc with hc | hc
        · rw [hc] at hs; cases hs
        · obtain ⟨g, hg, hsuf⟩ := (ha i t hti).2
          rw [List.getElem?_map, hps] at hg
          cases hg
          refine hc (net_server ps (hsuf.subset ?_))
          cases hp : t.prog with
          | nil => rw [hp] at hnet; cases hnet
          | cons o r => rw [hp] at hnet; cases hnet; exact List.mem_cons_self
      · omega
    refine ⟨hnil, ?_⟩
    have := hi.threads t (List.mem_of_getElem? hti)
    rw [hnil] at this
    exact this

/-- Of three clients only the last answers. -/
example : ∃ (c : Cfg) (gs : List (List Part)) (s : State), c = ⟨fun i => i == 2, none⟩
    ∧ gs = [[.account, .wait, .sessions], [.sessions, .wait], [.wait, .tags, .log]] ∧ Reach c (gs.map server) s ∧ Halted c s
    ∧ s.threads.map (fun t => t.prog.length) = [5, 1, 0] := by
  refine ⟨_, _, ⟨[⟨server [.wait, .sessions], [], false, false⟩, ⟨server [.wait], [], false, false⟩, ⟨[], [], false, false⟩],
    ⟨[], [], false, false⟩, none, []⟩, rfl, rfl,
    ⟨[.run 0, .run 1, .run 0, .run 1, .run 1, .run 2, .run 0, .run 1, .run 1, .run 1, .run 2, .run 2, .run 2, .run 2, .run 2, .run 2], by decide⟩,
    halted_of (by decide) ?_, by decide⟩
  intro i hi
  match i, hi with
  | 0, _ => decide
  | 1, _ => decide
  | 2, _ => decide

end Verif.Locks
