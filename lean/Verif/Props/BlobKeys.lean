import Verif.Model.BlobKeys

/-! # C84: keys of pending key exchanges are kept -/

namespace Verif.BlobKeys

open Verif

/-- A key is in the file. -/
def Has (s : State) (k : Nat) : Prop := ∃ c at_, s.file = some c ∧ c.get at_ = some k

/-- Neither goroutine is using the file. -/
def Quiet (s : State) : Prop := ∀ g, s.pc g = .idle

/-- Calls one at a time, and the client is not killed in the middle of one. -/
def Serial (s : State) : Ev → Prop
  | .call g _ => s.pc (!g) = .idle
  | .go _ _ => True
  | .crash => Quiet s

/-- Anything. -/
def Free (_ : State) : Ev → Prop
  | _ => True

theorem get_set {c : Recs} {a b k : Nat} : (c.set a k).get b = if a = b then some k else (c.del a).get b := rfl

theorem get_del_ne {c : Recs} {a b : Nat} (h : a ≠ b) : (c.del a).get b = c.get b := by
  induction c with
  | nil => rfl
  | cons p r ih =>
    obtain ⟨x, v⟩ := p
    simp only [GoMap.del]
    split
    · next hx =>
      subst hx
      rw [ih]
      simp only [GoMap.get, if_neg h]
    · simp only [GoMap.get, ih]

theorem get_set_free {c : Recs} {a b k v : Nat} (ha : c.get a = none) (h : c.get b = some v) :
    (c.set a k).get b = some v := by
  have hne : a ≠ b := by
    rintro rfl
    rw [ha] at h
    cases h
  rw [get_set, if_neg hne, get_del_ne hne, h]

theorem get_set_self {c : Recs} {a k : Nat} : (c.set a k).get a = some k := by
  rw [get_set, if_pos rfl]

@[simp] theorem put_self (s : State) (g : Bool) (p : Pc) : (s.put g p).pc g = p := by simp [State.put]
@[simp] theorem put_not (s : State) (g : Bool) (p : Pc) : (s.put g p).pc (!g) = s.pc (!g) := by
  cases g <;> simp [State.put]
@[simp] theorem put_file (s : State) (g : Bool) (p : Pc) : (s.put g p).file = s.file := rfl
@[simp] theorem put_saved (s : State) (g : Bool) (p : Pc) : (s.put g p).saved = s.saved := rfl
@[simp] theorem put_seen (s : State) (g : Bool) (p : Pc) : (s.put g p).seen = s.seen := rfl

theorem bool_or (g h : Bool) : h = g ∨ h = !g := by cases g <;> cases h <;> simp

/-- All that was saved is among the records. -/
def All (saved : List Nat) (c : Recs) : Prop := ∀ k ∈ saved, ∃ a, c.get a = some k

theorem all_set {saved : List Nat} {c : Recs} {a k : Nat} (h : All saved c) (ha : c.get a = none) :
    All (k :: saved) (c.set a k) := by
  intro x hx
  rcases List.mem_cons.mp hx with rfl | hx
  · exact ⟨a, get_set_self⟩
  · obtain ⟨b, hb⟩ := h x hx
    exact ⟨b, get_set_free ha hb⟩

theorem all_weaken {saved : List Nat} {c : Recs} {k : Nat} (h : All (k :: saved) c) : All saved c :=
  fun x hx => h x (List.mem_cons_of_mem _ hx)

/-- What holds of one goroutine while the other is idle. -/
def Local (s : State) : Pc → Prop
  | .idle => All s.saved (s.file.getD [])
  | .missing _ => s.file = none ∧ s.saved = []
  | .opened _ c _ => s.file = some c ∧ All s.saved c
  | .moved k c => All (k :: s.saved) c

theorem all_nil {saved : List Nat} (h : All saved []) : saved = [] := by
  cases saved with
  | nil => rfl
  | cons k r =>
    obtain ⟨a, ha⟩ := h k (by simp)
    cases ha

theorem local_idle {s : State} {g : Bool} (h1 : s.pc (!g) = .idle) (h2 : s.pc g = .idle)
    (h : Local s (s.pc g)) (g' : Bool) : s.pc (!g') = .idle ∧ Local s (s.pc g') := by
  rw [h2] at h
  rcases bool_or g g' with rfl | rfl
  · exact ⟨h1, by rw [h2]; exact h⟩
  · exact ⟨by simpa using h2, by rw [h1]; exact h⟩

theorem inv_step {s : State} {e : Ev} (h : ∃ g, s.pc (!g) = .idle ∧ Local s (s.pc g)) (hok : Serial s e) :
    ∃ g, (step s e).pc (!g) = .idle ∧ Local (step s e) ((step s e).pc g) := by
  obtain ⟨g, hg, hl⟩ := h
  cases e with
  | crash =>
    refine ⟨g, rfl, ?_⟩
    rw [hok g] at hl
    exact hl
  | call g' t =>
    simp only [step]
    split
    · next hi =>
      have hother : s.pc (!g') = .idle := hok
      have hl' : All s.saved (s.file.getD []) := by
        rcases bool_or g' g with rfl | rfl
        · rw [hi] at hl; exact hl
        · rw [hother] at hl; exact hl
      rcases hf : s.file with _ | c
      · refine ⟨g', by simpa using hother, ?_⟩
        rw [put_self]
        rw [hf] at hl'
        exact ⟨by simpa using hf, all_nil hl'⟩
      · refine ⟨g', by simpa using hother, ?_⟩
        rw [put_self]
        rw [hf] at hl'
        exact ⟨by simpa using hf, hl'⟩
    · exact ⟨g, hg, hl⟩
  | go g' now =>
    by_cases hi : s.pc g' = .idle
    · simp only [step, hi]
      exact ⟨g, hg, hl⟩
    · have hgg : g' = g := by
        rcases bool_or g g' with h | h
        · exact h
        · rw [h] at hi; exact absurd hg hi
      subst hgg
      simp only [step]
      rcases hp : s.pc g' with _ | t | ⟨t, c, cr⟩ | ⟨k, c⟩
      · exact absurd hp hi
      · rw [hp] at hl
        refine ⟨g', by simpa using hg, ?_⟩
        rw [put_self]
        refine ⟨rfl, ?_⟩
        intro k hk
        simp only [put_saved, hl.2] at hk
        cases hk
      · rw [hp] at hl
        cases t with
        | read =>
          refine ⟨g', by simpa using hg, ?_⟩
          rw [put_self]
          show All s.saved (s.file.getD [])
          rw [hl.1]
          exact hl.2
        | save k =>
          simp only []
          split
          · refine ⟨g', hg, ?_⟩
            rw [hp]; exact hl
          · next hn =>
            have hn : c.get (now + expiration) = none := by simpa using hn
            split
            · refine ⟨g', by simpa using hg, ?_⟩
              rw [put_self]
              exact all_set hl.2 hn
            · rw [hl.1]
              refine ⟨g', by simpa using hg, ?_⟩
              rw [put_self]
              exact all_set hl.2 hn
      · rw [hp] at hl
        refine ⟨g', by simpa using hg, ?_⟩
        rw [put_self]
        exact hl

theorem inv_runs {s : State} (h : Runs Serial init s) : ∃ g, s.pc (!g) = .idle ∧ Local s (s.pc g) := by
  induction h with
  | refl => exact ⟨true, rfl, fun k hk => by cases hk⟩
  | step _ hok ih => exact inv_step ih hok

/-- With calls one at a time, whenever no call is going on every key that was saved is in the file. -/
theorem C84_kept_partial {s : State} (h : Runs Serial init s) (hq : Quiet s) {k : Nat} (hk : k ∈ s.saved) : Has s k := by
  obtain ⟨g, -, hl⟩ := inv_runs h
  rw [hq g] at hl
  obtain ⟨a, ha⟩ := hl k hk
  rcases hf : s.file with _ | c
  · rw [hf] at ha; cases ha
  · rw [hf] at ha; exact ⟨c, a, hf, ha⟩

/-- And every key that was saved is tried when a message comes. -/
theorem C84_tried_partial {s : State} (h : Runs Serial init s) {g : Bool} {c : Recs} {cr : Bool}
    (hp : s.pc g = .opened .read c cr) {k : Nat} (hk : k ∈ s.saved) : ∃ a, c.get a = some k := by
  obtain ⟨g', hg, hl⟩ := inv_runs h
  have : g = g' := by
    rcases bool_or g' g with h | h
    · exact h
    · rw [h, hg] at hp; cases hp
  subst this
  rw [hp] at hl
  exact hl.2 k hk

/-- A call of `saveKey` on its own comes to an end with the key saved, as soon as it gets to run in a second that is
not taken; within two such steps after the file was opened. -/
theorem C84_saves {s : State} {g : Bool} {k : Nat} {c : Recs} {cr : Bool} {now now' : Nat}
    (hp : s.pc g = .opened (.save k) c cr) (hf : s.file = some c) (hn : c.get (now + expiration) = none) :
    ∃ t, (t = step s (.go g now) ∨ t = step (step s (.go g now)) (.go g now')) ∧ t.pc g = .idle ∧ Has t k ∧
      k ∈ t.saved := by
  cases cr with
  | true =>
    refine ⟨_, .inl rfl, ?_, ⟨c.set (now + expiration) k, now + expiration, ?_, get_set_self⟩, ?_⟩ <;>
      simp [step, hp, hn]
  | false =>
    have h1 : step s (.go g now) = { s with file := none }.put g (.moved k (c.set (now + expiration) k)) := by
      simp [step, hp, hn, hf]
    refine ⟨_, .inr rfl, ?_, ⟨c.set (now + expiration) k, now + expiration, ?_, get_set_self⟩, ?_⟩ <;>
      · rw [h1]
        simp [step]

/-- Events one after the other, from the start. -/
def exec (es : List Ev) : State := es.foldl step init

theorem runs_free' {s : State} (es : List Ev) (h : Runs Free init s) : Runs Free init (es.foldl step s) := by
  induction es generalizing s with
  | nil => exact h
  | cons e es ih => exact ih (.step h trivial)

theorem runs_free (es : List Ev) : Runs Free init (exec es) := runs_free' es .refl

instance (s : State) : Decidable (Quiet s) :=
  decidable_of_iff (s.pc true = .idle ∧ s.pc false = .idle)
    ⟨fun h g => match g with | true => h.1 | false => h.2, fun h => ⟨h _, h _⟩⟩

theorem not_has {s : State} {c : Recs} {k : Nat} (hf : s.file = some c) (h : ∀ p ∈ c, p.2 ≠ k) : ¬ Has s k := by
  rintro ⟨c', a, hf', ha⟩
  rw [hf] at hf'
  cases hf'
  clear hf
  induction c with
  | nil => cases ha
  | cons p r ih =>
    obtain ⟨x, v⟩ := p
    simp only [GoMap.get] at ha
    split at ha
    · cases ha; exact h (x, k) (by simp) rfl
    · exact ih (fun p hp => h p (List.mem_cons_of_mem _ hp)) ha

instance (s : State) (e : Ev) : Decidable (Serial s e) := by
  cases e <;> unfold Serial <;> infer_instance

theorem runs_serial {s : State} : ∀ {es : List Ev}, Runs Serial init s →
    (es.foldl (fun (p : Bool × State) e => (p.1 && decide (Serial p.2 e), step p.2 e)) (true, s)).1 = true →
    Runs Serial init (es.foldl step s) := by
  intro es
  induction es generalizing s with
  | nil => intro h _; exact h
  | cons e es ih =>
    intro h hd
    simp only [List.foldl_cons, Bool.true_and] at hd ⊢
    by_cases he : Serial s e
    · simp only [he, decide_true] at hd
      exact ih (.step h he) hd
    · simp only [he, decide_false] at hd
      exfalso
      have : ∀ (l : List Ev) (p : Bool × State), p.1 = false →
          (l.foldl (fun (p : Bool × State) e => (p.1 && decide (Serial p.2 e), step p.2 e)) p).1 = false := by
        intro l
        induction l with
        | nil => exact fun p hp => hp
        | cons x l ihl => exact fun p hp => ihl _ (by simp [hp])
      rw [this es _ rfl] at hd
      cases hd

/-- Two keys saved within a second of each other, the second of which has to wait, and a message that is tried with
both. -/
def orderly : List Ev := [.call true (.save 7), .go true 5, .go true 5, .call false (.save 8), .go false 5, .go false 5,
  .go false 6, .go false 6, .call false .read, .go false 6]

example : Runs Serial init (exec orderly) ∧ Quiet (exec orderly) ∧ (exec orderly).saved = [8, 7] ∧
    (exec orderly).seen = [(6, [(604806, 8), (604805, 7)])] :=
  ⟨runs_serial .refl (by decide +kernel), by decide +kernel, by decide +kernel, by decide +kernel⟩

/-- Two keys saved at the same time by the two goroutines: one of them is lost, although both calls have returned
without an error. -/
theorem C84_update_violated : ∃ s, Runs Free init s ∧ Quiet s ∧ 7 ∈ s.saved ∧ 8 ∈ s.saved ∧ ¬ Has s 7 := by
  refine ⟨exec [.call true (.save 1), .go true 1, .go true 1, .call true (.save 7), .call false (.save 8), .go true 5,
    .go true 5, .go false 6, .go false 6], runs_free _, by decide +kernel, by decide +kernel, by decide +kernel, ?_⟩
  exact not_has (c := [(604806, 8), (604801, 1)]) (by decide +kernel) (by decide +kernel)

/-- A key is saved and a message comes at the same time: the message finds the file missing and puts an empty one in the
place of the new one. All keys are lost. -/
theorem C84_emptied_violated : ∃ s, Runs Free init s ∧ Quiet s ∧ 1 ∈ s.saved ∧ 7 ∈ s.saved ∧ s.file = some [] := by
  refine ⟨exec [.call true (.save 1), .go true 1, .go true 1, .call true (.save 7), .go true 5, .call false .read,
    .go true 5, .go false 6, .go false 6], runs_free _, by decide +kernel, by decide +kernel, by decide +kernel,
    by decide +kernel⟩

/-- The same, with the file still away when the second key is to replace it: `saveKey` returns without an error and has
not saved anything. -/
theorem C84_unsaved_violated : ∃ s s', Runs Free init s ∧ s.file = none ∧ 8 ∉ s.saved ∧
    s' = step s (.go false 6) ∧ 8 ∈ s'.saved ∧ s'.file = none ∧ s'.pc false = .idle := by
  refine ⟨exec [.call true (.save 1), .go true 1, .go true 1, .call true (.save 7), .call false (.save 8), .go true 5],
    _, runs_free _, by decide +kernel, by decide +kernel, rfl, by decide +kernel, by decide +kernel, by decide +kernel⟩

/-- The client is killed between the two renames. When it next looks for keys it starts an empty file. -/
theorem C84_crash_violated : ∃ s, Runs Free init s ∧ Quiet s ∧ 1 ∈ s.saved ∧ s.file = some [] := by
  refine ⟨exec [.call true (.save 1), .go true 1, .go true 1, .call true (.save 7), .go true 5, .crash,
    .call false .read, .go false 6, .go false 6], runs_free _, by decide +kernel, by decide +kernel, by decide +kernel⟩

/-- A key is tried long after it was meant to expire. By `C84_tried_partial`, every key always is. -/
theorem C84_expiry_violated : ∃ s c, Runs Serial init s ∧ Quiet s ∧ (1000000000, c) ∈ s.seen ∧
    c.get (5 + expiration) = some 7 ∧ 5 + expiration < 1000000000 := by
  refine ⟨exec [.call true (.save 7), .go true 5, .go true 5, .call false .read, .go false 1000000000],
    [(604805, 7)], runs_serial .refl (by decide +kernel), by decide +kernel, by decide +kernel, by decide +kernel,
    by decide +kernel⟩

end Verif.BlobKeys
