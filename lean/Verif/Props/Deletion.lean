import Verif.Model.Deletion
import Verif.Props.AddressBook
import Mathlib.Data.List.Induction

/-! C109: a contact that the user deletes is gone. Model: Verif.Model.Deletion (/repo/zkclient/addressbook.go, msg.go,
zkclient.go, push.go, reset.go, identity.go). -/

namespace Verif.Deletion

open Verif AddressBook

variable {dir : Bool} {me : Bytes}

/-- Is the identity in the address book? -/
def InBook (s : State) (i : Bytes) : Prop := ∃ n p, findNick s.book n = some p ∧ p.identity = i

/-- Is there a file of the identity? -/
def OnDisk (s : State) (i : Bytes) : Prop := (s.files.get i).isSome = true ∨ i ∈ s.half ∨ i ∈ s.full

/-- Is the identity in the address book under at most one nick? -/
def Once (s : State) (i : Bytes) : Prop :=
  ∀ n₁ n₂ p₁ p₂, findNick s.book n₁ = some p₁ → findNick s.book n₂ = some p₂ → p₁.identity = i → p₂.identity = i → n₁ = n₂

/-- Is the event a key exchange with the identity? -/
def Meets (i : Bytes) : Ev → Prop
  | .offer _ p => p.identity = i
  | .idkx _ _ p => p.identity = i
  | .kx f _ => f = i
  | .resetBy f _ _ => f = i
  | _ => False

/-- Does the event end the process? -/
def Ends : Ev → Prop
  | .quit _ => True
  | .killed _ => True
  | _ => False

/-- Does the event lose what was sent on the connection? -/
def Cuts : Ev → Prop
  | .online => True
  | .offline => True
  | e => Ends e

theorem run_append (s : State) (a b : List Ev) : run dir me s (a ++ b) = run dir me (run dir me s a) b := by
  simp [run]

theorem run_snoc (s : State) (a : List Ev) (e : Ev) : run dir me s (a ++ [e]) = step dir me (run dir me s a) e := by
  simp [run]

theorem run_cons (s : State) (e : Ev) (a : List Ev) : run dir me s (e :: a) = run dir me (step dir me s e) a := rfl

/-- What is so after some events and was not before them became so with one of them. -/
theorem change (P : State → Prop) (s : State) (es : List Ev) (h0 : ¬ P s) (h : P (run dir me s es)) :
    ∃ es₁ e es₂, es = es₁ ++ e :: es₂ ∧ ¬ P (run dir me s es₁) ∧ P (step dir me (run dir me s es₁) e) := by
  induction es generalizing s with
  | nil => exact absurd h h0
  | cons e es ih =>
    rw [run_cons] at h
    by_cases hp : P (step dir me s e)
    · exact ⟨[], e, es, rfl, h0, hp⟩
    · obtain ⟨es₁, e', es₂, h1, h2, h3⟩ := ih _ hp h
      exact ⟨e :: es₁, e', es₂, by rw [h1]; rfl, h2, h3⟩

/-! ## The records say what happened -/

theorem asked_step {s : State} {e : Ev} {x : Bytes × Bytes} (h : x ∈ (step dir me s e).asked) :
    x ∈ s.asked ∨ ∃ p, e = .ab x.1 ∧ findNick s.book x.1 = some p ∧ p.identity = x.2 := by
  cases e <;> simp only [step, work, idkx, restart, State.say] at h <;> (repeat' split at h) <;>
    first
    | exact .inl h
    | (rename_i p hp
       rcases List.mem_append.mp h with h | h
       · exact .inl h
       · simp only [List.mem_singleton] at h
         subst h
         exact .inr ⟨p, rfl, hp, rfl⟩)

theorem asked_mono {s : State} {e : Ev} {x : Bytes × Bytes} (h : x ∈ s.asked) : x ∈ (step dir me s e).asked := by
  cases e <;> simp only [step, work, idkx, restart, State.say] <;> (repeat' split) <;>
    first
    | exact h
    | exact List.mem_append_left _ h

theorem told_mono {s : State} {e : Ev} {x : Bytes} (h : x ∈ s.told) : x ∈ (step dir me s e).told := by
  cases e <;> simp only [step, work, idkx, restart, State.say] <;> (repeat' split) <;>
    first
    | exact h
    | exact List.mem_append_left _ h

theorem answered_mono {s : State} {e : Ev} {x : Bytes × Bytes} (h : x ∈ s.answered) : x ∈ (step dir me s e).answered := by
  cases e <;> simp only [step, work, idkx, restart, State.say] <;> (repeat' split) <;>
    first
    | exact h
    | exact List.mem_append_left _ h

/-- What is queued, sent, answered and carried out was asked for. -/
structure Inv (me : Bytes) (s : State) : Prop where
  book : AddressBook.Reach s.book
  notMe : ∀ n p, findNick s.book n = some p → p.identity ≠ me
  files : ∀ i p, s.files.get i = some p → p.identity = i ∧ i ≠ me
  wf : GoMap.WF s.files
  queue : ∀ j ∈ s.queue, ∀ n, j.del = some n → (n, j.to_) ∈ s.asked
  flight : ∀ j ∈ s.flight, ∀ n, j.del = some n → (n, j.to_) ∈ s.asked ∧ j.to_ ∈ s.told
  calls : ∀ x ∈ s.calls, x ∈ s.asked ∧ x.2 ∈ s.told ∧ x ∈ s.answered
  removing : ∀ x ∈ s.removing, x ∈ s.asked ∧ x.2 ∈ s.told ∧ x ∈ s.answered

theorem addBook_reach {b : Book} (p : PubId) (h : AddressBook.Reach b) : AddressBook.Reach (addBook me b p) := by
  unfold addBook
  split
  · exact h
  · split
    · rename_i ha; exact .add h ha
    · exact h

/-- What `addressBookAdd` does to the identities in the book. -/
theorem addBook_find {b : Book} {p : PubId} {n : Bytes} {v : PubId} (h : findNick (addBook me b p) n = some v) :
    findNick b n = some v ∨ (v.identity = p.identity ∧ p.identity ≠ me) := by
  unfold addBook at h
  split at h
  · exact .inl h
  · rename_i hm
    split at h
    · rename_i r b' ha
      obtain ⟨nick, ch⟩ := r
      obtain ⟨h1, h2, _⟩ := C43_add b p nick ch b' ha
      by_cases hn : n = nick
      · subst hn
        rw [h1] at h
        simp only [Option.some.injEq] at h
        subst h
        exact .inr ⟨rfl, hm⟩
      · rw [h2 n hn] at h; exact .inl h
    · exact .inl h

theorem addBook_in (b : Book) (p : PubId) (hm : p.identity ≠ me) :
    ∃ n v, findNick (addBook me b p) n = some v ∧ v.identity = p.identity := by
  unfold addBook
  rw [if_neg hm]
  obtain ⟨⟨nick, ch⟩, b', ha⟩ := C43_add_terminates b p
  rw [ha]
  exact ⟨nick, _, (C43_add b p nick ch b' ha).1, rfl⟩

theorem addBook_keeps {b : Book} (p : PubId) {i : Bytes} (h : ∃ n v, findNick b n = some v ∧ v.identity = i) :
    ∃ n v, findNick (addBook me b p) n = some v ∧ v.identity = i := by
  obtain ⟨n, v, hv, hi⟩ := h
  by_cases hm : p.identity = me
  · unfold addBook
    rw [if_pos hm]
    exact ⟨n, v, hv, hi⟩
  · obtain ⟨⟨nick, ch⟩, b', ha⟩ := C43_add_terminates b p
    obtain ⟨h1, h2, h3, _⟩ := C43_add b p nick ch b' ha
    unfold addBook
    rw [if_neg hm, ha]
    by_cases hn : n = nick
    · subst hn
      exact ⟨n, _, h1, by rw [← hi]; exact (h3 v hv).symm⟩
    · exact ⟨n, v, by simpa only [h2 n hn] using hv, hi⟩

/-- What a start makes of the files. -/
theorem load_find (me : Bytes) (l : List PubId) (b : Book) {n : Bytes} {v : PubId}
    (h : findNick (l.foldl (addBook me) b) n = some v) :
    findNick b n = some v ∨ ∃ p ∈ l, v.identity = p.identity ∧ p.identity ≠ me := by
  induction l generalizing b with
  | nil => exact .inl h
  | cons a l ih =>
    rcases ih _ h with h | ⟨p, hp, h⟩
    · rcases addBook_find h with h | h
      · exact .inl h
      · exact .inr ⟨a, List.mem_cons_self, h⟩
    · exact .inr ⟨p, List.mem_cons_of_mem _ hp, h⟩

theorem load_keeps (me : Bytes) (l : List PubId) (b : Book) {i : Bytes}
    (h : ∃ n v, findNick b n = some v ∧ v.identity = i) :
    ∃ n v, findNick (l.foldl (addBook me) b) n = some v ∧ v.identity = i := by
  induction l generalizing b with
  | nil => exact h
  | cons a l ih => exact ih _ (addBook_keeps a h)

theorem load_in (me : Bytes) (l : List PubId) (b : Book) {p : PubId} (hp : p ∈ l) (hm : p.identity ≠ me) :
    ∃ n v, findNick (l.foldl (addBook me) b) n = some v ∧ v.identity = p.identity := by
  induction l generalizing b with
  | nil => cases hp
  | cons a l ih =>
    rcases List.mem_cons.mp hp with rfl | hp
    · exact load_keeps me l _ (addBook_in b p hm)
    · exact ih _ hp

theorem load_reach (me : Bytes) (l : List PubId) (b : Book) (h : AddressBook.Reach b) :
    AddressBook.Reach (l.foldl (addBook me) b) := by
  induction l generalizing b with
  | nil => exact h
  | cons a l ih => exact ih _ (addBook_reach a h)

theorem queue_step {s : State} {e : Ev} {j : Job} (h : j ∈ (step dir me s e).queue) :
    j ∈ s.queue ∨ j.del = none ∨ ∃ n, j.del = some n ∧ (n, j.to_) ∈ (step dir me s e).asked := by
  cases e with
  | ab nick =>
    simp only [step] at h ⊢
    split at h
    · exact .inl h
    · rename_i p hp
      rcases List.mem_append.mp h with h | h
      · exact .inl h
      · simp only [List.mem_singleton] at h
        subst h
        exact .inr (.inr ⟨nick, rfl, List.mem_append_right _ List.mem_cons_self⟩)
  | send i =>
    simp only [step] at h
    rcases List.mem_append.mp h with h | h
    · exact .inl h
    · simp only [List.mem_singleton] at h
      subst h
      exact .inr (.inl rfl)
  | work fails =>
    simp only [step, work, State.say] at h
    split at h
    · exact .inl h
    · rename_i j' rest hq
      have : j ∈ s.queue := by
        split at h
        · exact h
        · split at h
          · rw [hq]; exact List.mem_cons_of_mem _ h
          · split at h
            · exact h
            · rw [hq]; exact List.mem_cons_of_mem _ h
      exact .inl this
  | _ =>
    simp only [step, idkx, restart, State.say] at h
    (repeat' split at h) <;> first | exact .inl h | cases h

theorem flight_step {s : State} {e : Ev} {j : Job} (h : j ∈ (step dir me s e).flight) :
    j ∈ s.flight ∨ (j ∈ s.queue ∧ j.to_ ∈ s.full ∧ (j.del.isSome = true → j.to_ ∈ (step dir me s e).told)) := by
  cases e with
  | work fails =>
    simp only [step, work, State.say] at h ⊢
    split at h
    · exact .inl h
    · rename_i j' rest hq
      split at h
      · exact .inl h
      · rename_i ho
        split at h
        · exact .inl h
        · rename_i hf
          split at h
          · exact .inl h
          · rename_i hw
            rcases List.mem_append.mp h with h | h
            · exact .inl h
            · simp only [List.mem_singleton] at h
              subst h
              refine .inr ⟨by rw [hq]; exact List.mem_cons_self, (not_not.mp hf).1, ?_⟩
              intro hd
              rw [if_neg ho, if_neg hf, if_neg hw]
              simp [hd]
  | answer j' error =>
    simp only [step, State.say] at h
    have : j ∈ s.flight := by
      split at h
      · split at h <;> split at h <;> exact List.mem_of_mem_erase h
      · exact h
    exact .inl this
  | _ =>
    simp only [step, idkx, restart, State.say] at h
    (repeat' split at h) <;> first | exact .inl h | cases h

theorem calls_step {s : State} {e : Ev} {x : Bytes × Bytes} (h : x ∈ (step dir me s e).calls) :
    x ∈ s.calls ∨ ((⟨x.2, some x.1⟩ : Job) ∈ s.flight ∧ x ∈ (step dir me s e).answered) := by
  cases e with
  | answer j error =>
    simp only [step, State.say] at h ⊢
    by_cases hj : j ∈ s.flight
    · rw [if_pos hj] at h ⊢
      rcases hd : j.del with _ | n
      · rw [hd] at h
        left
        cases error <;> exact h
      · rw [hd] at h
        have h' : x ∈ s.calls ++ [(n, j.to_)] := by cases error <;> exact h
        rcases List.mem_append.mp h' with h' | h'
        · exact .inl h'
        · simp only [List.mem_singleton] at h'
          subst h'
          right
          refine ⟨?_, ?_⟩
          · rw [show (⟨j.to_, some n⟩ : Job) = j by rw [← hd]]; exact hj
          · simp only []
            cases error <;> exact List.mem_append_right _ List.mem_cons_self
    · rw [if_neg hj] at h
      exact .inl h
  | forget nick i order =>
    simp only [step, State.say] at h
    have : x ∈ s.calls := by
      split at h
      · split at h <;> exact List.mem_of_mem_erase h
      · exact h
    exact .inl this
  | _ =>
    simp only [step, work, idkx, restart, State.say] at h
    (repeat' split at h) <;> first | exact .inl h | cases h

theorem removing_step {s : State} {e : Ev} {x : Bytes × Bytes} (h : x ∈ (step dir me s e).removing) :
    x ∈ s.removing ∨ x ∈ s.calls := by
  cases e with
  | forget nick i order =>
    simp only [step, State.say] at h
    split at h
    · rename_i hc
      split at h
      · exact .inl h
      · rcases List.mem_append.mp h with h | h
        · exact .inl h
        · simp only [List.mem_singleton] at h
          subst h
          exact .inr hc.1
    · exact .inl h
  | remove nick i keep =>
    obtain ⟨a, b, c⟩ := keep
    simp only [step, State.say] at h
    split at h
    · exact .inl (List.mem_of_mem_erase h)
    · exact .inl h
  | _ =>
    simp only [step, work, idkx, restart, State.say] at h
    (repeat' split at h) <;> first | exact .inl h | cases h

theorem files_step {s : State} {e : Ev} {i : Bytes} {p : PubId} (h : (step dir me s e).files.get i = some p) :
    s.files.get i = some p ∨ (p.identity = i ∧ i ≠ me ∧ Meets i e) := by
  cases e with
  | offer k q =>
    simp only [step] at h
    split at h
    · exact .inl h
    · rename_i hq
      simp only [GoMap.get_set] at h
      split at h
      · rename_i he
        simp only [Option.some.injEq] at h
        subst h
        exact .inr ⟨he, fun hm => hq (.inl (he.trans hm)), he⟩
      · exact .inl h
  | idkx f k q =>
    simp only [step, idkx] at h
    split at h
    · exact .inl h
    · split at h
      · exact .inl h
      · rename_i hq
        simp only [GoMap.get_set] at h
        split at h
        · rename_i he
          simp only [Option.some.injEq] at h
          subst h
          exact .inr ⟨he, fun hm => hq (.inr (.inl (he.trans hm))), he⟩
        · exact .inl h
  | remove nick j keep =>
    obtain ⟨a, b, c⟩ := keep
    simp only [step, State.say] at h
    split at h
    · split at h
      · exact .inl h
      · rw [GoMap.get_del] at h
        split at h
        · cases h
        · exact .inl h
    · exact .inl h
  | _ =>
    simp only [step, work, restart, State.say] at h
    (repeat' split at h) <;> exact .inl h

theorem files_wf {s : State} (e : Ev) (h : GoMap.WF s.files) : GoMap.WF (step dir me s e).files := by
  cases e with
  | remove nick j keep =>
    obtain ⟨a, b, c⟩ := keep
    simp only [step, State.say]
    (repeat' split) <;> first | exact h | exact GoMap.wf_del h _
  | _ =>
    simp only [step, work, idkx, restart, State.say]
    (repeat' split) <;> first | exact h | exact GoMap.wf_set h _ _

/-- How the address book grows. -/
theorem book_step {s : State} (e : Ev) (hi : Inv me s) :
    AddressBook.Reach (step dir me s e).book ∧
    ∀ n v, findNick (step dir me s e).book n = some v →
      findNick s.book n = some v ∨
      (v.identity ≠ me ∧ (Meets v.identity e ∨ (Ends e ∧ (s.files.get v.identity).isSome = true))) := by
  have h := hi.book
  have hre : ∀ l, AddressBook.Reach (restart me s l).book ∧ ∀ n v, findNick (restart me s l).book n = some v →
      findNick s.book n = some v ∨ (v.identity ≠ me ∧ (s.files.get v.identity).isSome = true) := by
    intro l
    unfold restart
    split
    · rename_i hl
      refine ⟨load_reach me l [] .new, ?_⟩
      intro n v hv
      rcases load_find me l [] hv with hv | ⟨p, hp, h1, h2⟩
      · simp [findNick] at hv
      · have hp := hl.mem_iff.mp hp
        obtain ⟨⟨i, q⟩, hq, rfl⟩ := List.mem_map.mp hp
        have hg := GoMap.get_of_mem hi.wf hq
        have hid : q.identity = i := (hi.files i q hg).1
        right
        rw [h1]
        refine ⟨h2, ?_⟩
        rw [show (i, q).2.identity = i from hid, hg]
        rfl
    · exact ⟨h, fun n v hv => .inl hv⟩
  cases e with
  | forget nick i order =>
    simp only [step, State.say]
    split
    · rename_i hc
      split
      · exact ⟨h, fun n v hv => .inl hv⟩
      · rename_i b hb
        refine ⟨.del h hc.2 hb, ?_⟩
        intro n v hv
        obtain ⟨k, w, _, _, rfl⟩ := del_spec hb
        simp only [findNick, GoMap.get_del] at hv
        split at hv
        · cases hv
        · exact .inl hv
    · exact ⟨h, fun n v hv => .inl hv⟩
  | idkx f k p =>
    simp only [step, idkx]
    split
    · exact ⟨h, fun n v hv => .inl hv⟩
    · split
      · exact ⟨h, fun n v hv => .inl hv⟩
      · refine ⟨addBook_reach p h, ?_⟩
        intro n v hv
        rcases addBook_find hv with hv | ⟨h1, h2⟩
        · exact .inl hv
        · exact .inr ⟨by rw [h1]; exact h2, .inl h1.symm⟩
  | kx f k =>
    simp only [step]
    split
    · exact ⟨h, fun n v hv => .inl hv⟩
    · rename_i p hp
      split
      · exact ⟨h, fun n v hv => .inl hv⟩
      · refine ⟨addBook_reach p h, ?_⟩
        intro n v hv
        rcases addBook_find hv with hv | ⟨h1, h2⟩
        · exact .inl hv
        · exact .inr ⟨by rw [h1]; exact h2, .inl ((hi.files f p hp).1.symm.trans h1.symm)⟩
  | quit l =>
    simp only [step, State.say]
    split
    · obtain ⟨h1, h2⟩ := hre l
      refine ⟨h1, fun n v hv => ?_⟩
      rcases h2 n v hv with h2 | ⟨h2, h3⟩
      · exact .inl h2
      · exact .inr ⟨h2, .inr ⟨trivial, h3⟩⟩
    · exact ⟨h, fun n v hv => .inl hv⟩
  | killed l =>
    simp only [step]
    obtain ⟨h1, h2⟩ := hre l
    refine ⟨h1, fun n v hv => ?_⟩
    rcases h2 n v hv with h2 | ⟨h2, h3⟩
    · exact .inl h2
    · exact .inr ⟨h2, .inr ⟨trivial, h3⟩⟩
  | _ =>
    simp only [step, work, State.say]
    (repeat' split) <;> exact ⟨h, fun n v hv => .inl hv⟩

theorem inv_init : Inv me {} where
  book := .new
  notMe := by intro n p h; simp [findNick] at h
  files := by intro i p h; simp at h
  wf := GoMap.wf_nil
  queue := by intro j h; cases h
  flight := by intro j h; cases h
  calls := by intro j h; cases h
  removing := by intro j h; cases h

theorem inv_step {s : State} (e : Ev) (h : Inv me s) : Inv me (step dir me s e) where
  book := (book_step e h).1
  notMe := by
    intro n v hv
    rcases (book_step e h).2 n v hv with h1 | h1
    · exact h.notMe n v h1
    · exact h1.1
  files := by
    intro i p hp
    rcases files_step hp with h1 | h1
    · exact h.files i p h1
    · exact ⟨h1.1, h1.2.1⟩
  wf := files_wf e h.wf
  queue := by
    intro j hj n hn
    rcases queue_step hj with h1 | h1 | ⟨m, h1, h2⟩
    · exact asked_mono (h.queue j h1 n hn)
    · rw [h1] at hn; cases hn
    · rw [h1] at hn
      cases hn
      exact h2
  flight := by
    intro j hj n hn
    rcases flight_step hj with h1 | ⟨h1, _, h2⟩
    · exact ⟨asked_mono (h.flight j h1 n hn).1, told_mono (h.flight j h1 n hn).2⟩
    · exact ⟨asked_mono (h.queue j h1 n hn), h2 (by rw [hn]; rfl)⟩
  calls := by
    intro x hx
    rcases calls_step hx with h1 | ⟨h1, h2⟩
    · obtain ⟨a, b, c⟩ := h.calls x h1
      exact ⟨asked_mono a, told_mono b, answered_mono c⟩
    · obtain ⟨a, b⟩ := h.flight _ h1 x.1 rfl
      exact ⟨asked_mono a, told_mono b, h2⟩
  removing := by
    intro x hx
    rcases removing_step hx with h1 | h1
    · obtain ⟨a, b, c⟩ := h.removing x h1
      exact ⟨asked_mono a, told_mono b, answered_mono c⟩
    · obtain ⟨a, b, c⟩ := h.calls x h1
      exact ⟨asked_mono a, told_mono b, answered_mono c⟩

theorem inv_run {s : State} (es : List Ev) (h : Inv me s) : Inv me (run dir me s es) := by
  induction es generalizing s with
  | nil => exact h
  | cons e es ih => exact ih (inv_step e h)

theorem inv_reach {s : State} (h : Reach dir me s) : Inv me s := by
  obtain ⟨es, rfl⟩ := h
  exact inv_run es inv_init

/-- Nobody leaves the address book but by a callback or a restart. -/
theorem book_keeps {s : State} {e : Ev} {i : Bytes} (hi : Inv me s) (h : InBook s i) (h' : ¬ InBook (step dir me s e) i) :
    (∃ n order, e = .forget n i order ∧ (n, i) ∈ s.calls) ∨ (Ends e ∧ s.files.get i = none) := by
  have hre : ∀ l, ¬ InBook (restart me s l) i → s.files.get i = none := by
    intro l hl
    unfold restart at hl
    split at hl
    · rename_i hp
      rcases hg : s.files.get i with _ | p
      · rfl
      · obtain ⟨h1, h2⟩ := hi.files i p hg
        refine absurd ?_ hl
        have hm : p ∈ l := hp.mem_iff.mpr (List.mem_map.mpr ⟨_, GoMap.mem_of_get hg, rfl⟩)
        obtain ⟨n, v, h3, h4⟩ := load_in me l [] hm (by rw [h1]; exact h2)
        exact ⟨n, v, h3, h4.trans h1⟩
    · exact absurd h hl
  cases e with
  | forget nick j order =>
    left
    simp only [step, State.say] at h'
    split at h'
    · rename_i hc
      split at h'
      · exact absurd h h'
      · rename_i b hb
        obtain ⟨k, w, h1, h2, rfl⟩ := del_spec hb
        have hw := GoMap.get_of_mem (reach_wf hi.book) (hc.2.mem_iff.mp h1)
        obtain ⟨n, p, hp, hpi⟩ := h
        by_cases hk : k = n
        · subst hk
          have : w = p := by
            have := hw.symm.trans hp
            simpa using this
          subst this
          have hj : j = i := h2.symm.trans hpi
          subst hj
          exact ⟨nick, order, rfl, hc.1⟩
        · refine absurd ⟨n, p, ?_, hpi⟩ h'
          simp only [findNick, GoMap.get_del_ne _ hk]
          exact hp
    · exact absurd h h'
  | idkx f k p =>
    simp only [step, idkx] at h'
    split at h'
    · exact absurd h h'
    · split at h'
      · exact absurd h h'
      · exact absurd (addBook_keeps p h) h'
  | kx f k =>
    simp only [step] at h'
    split at h'
    · exact absurd h h'
    · rename_i p hp
      split at h'
      · exact absurd h h'
      · exact absurd (addBook_keeps p h) h'
  | quit l =>
    simp only [step, State.say] at h'
    split at h'
    · exact .inr ⟨trivial, hre l h'⟩
    · exact absurd h h'
  | killed l => exact .inr ⟨trivial, hre l h'⟩
  | _ =>
    simp only [step, work, State.say] at h'
    (repeat' split at h') <;> exact absurd h h'

/-- No identity file is removed but by a callback. -/
theorem files_keep {s : State} {e : Ev} {i : Bytes} (h : (s.files.get i).isSome = true)
    (h' : (step dir me s e).files.get i = none) : ∃ n keep, e = .remove n i keep ∧ (n, i) ∈ s.removing := by
  have h0 : s.files.get i ≠ none := by intro hn; rw [hn] at h; cases h
  cases e with
  | remove nick j keep =>
    obtain ⟨a, b, c⟩ := keep
    simp only [step, State.say] at h'
    split at h'
    · rename_i hc
      split at h'
      · exact absurd h' h0
      · rw [GoMap.get_del] at h'
        split at h'
        · rename_i hj
          subst hj
          exact ⟨nick, _, rfl, hc⟩
        · exact absurd h' h0
    · exact absurd h' h0
  | _ =>
    simp only [step, work, idkx, restart, State.say] at h'
    (repeat' split at h') <;>
      first
      | exact absurd h' h0
      | (rw [GoMap.get_set] at h'
         split at h'
         · cases h'
         · exact absurd h' h0)

/-! ## Nothing is deleted that the user did not delete -/

/-- Was the identity deleted by the user? They named it by the nick that it had, the news of it was sent, and the server
answered. -/
def Asked (dir : Bool) (me : Bytes) (es : List Ev) (n i : Bytes) : Prop :=
  ∃ es₁ es₂ es₃ p error, es = es₁ ++ [.ab n] ++ es₂ ++ [.answer ⟨i, some n⟩ error] ++ es₃ ∧
    findNick (run dir me {} es₁).book n = some p ∧ p.identity = i ∧
    i ∈ (run dir me {} (es₁ ++ [.ab n] ++ es₂)).told

theorem answered_step {s : State} {e : Ev} {x : Bytes × Bytes} (h : x ∈ (step dir me s e).answered) :
    x ∈ s.answered ∨ ((⟨x.2, some x.1⟩ : Job) ∈ s.flight ∧ ∃ error, e = .answer ⟨x.2, some x.1⟩ error) := by
  cases e with
  | answer j error =>
    simp only [step, State.say] at h
    by_cases hj : j ∈ s.flight
    · rw [if_pos hj] at h
      rcases hd : j.del with _ | n
      · rw [hd] at h
        left
        cases error <;> exact h
      · rw [hd] at h
        have h' : x ∈ s.answered ++ [(n, j.to_)] := by cases error <;> exact h
        rcases List.mem_append.mp h' with h' | h'
        · exact .inl h'
        · simp only [List.mem_singleton] at h'
          subst h'
          have he : (⟨j.to_, some n⟩ : Job) = j := by rw [← hd]
          right
          exact ⟨by rw [he]; exact hj, error, by rw [he]⟩
    · rw [if_neg hj] at h
      exact .inl h
  | _ =>
    simp only [step, work, idkx, restart, State.say] at h
    (repeat' split at h) <;> exact .inl h

theorem asked_of_answered {es : List Ev} {n i : Bytes} (h : (n, i) ∈ (run dir me {} es).answered) :
    Asked dir me es n i := by
  obtain ⟨es₁, e, es₃, rfl, h1, h2⟩ := change (fun s => (n, i) ∈ s.answered) {} es (by simp) h
  rcases answered_step h2 with h2 | ⟨h3, error, rfl⟩
  · exact absurd h2 h1
  · obtain ⟨ha, ht⟩ := (inv_run es₁ inv_init).flight ⟨i, some n⟩ h3 n rfl
    obtain ⟨es₀, e, es₂, rfl, h3, h4⟩ := change (fun s => (n, i) ∈ s.asked) {} es₁ (by simp) ha
    rcases asked_step h4 with h4 | ⟨p, rfl, h5, h6⟩
    · exact absurd h4 h3
    · exact ⟨es₀, es₂, es₃, p, error, by simp, h5, h6, by simpa using ht⟩

/-- Whoever is in the address book has an identity on disk, unless a deletion has been carried out. -/
theorem book_files (es : List Ev) (i : Bytes) (h : InBook (run dir me {} es) i) :
    ((run dir me {} es).files.get i).isSome = true ∨ ∃ n, (n, i) ∈ (run dir me {} es).answered := by
  induction es using List.reverseRecOn with
  | nil => obtain ⟨n, p, h, _⟩ := h; simp [run, findNick] at h
  | append_singleton es e ih =>
    have hi := inv_run (dir := dir) es (inv_init (me := me))
    rw [run_snoc] at h ⊢
    generalize run dir me {} es = s at *
    have key : ((s.files.get i).isSome = true ∨ ∃ n, (n, i) ∈ s.answered) →
        (((step dir me s e).files.get i).isSome = true ∨ ∃ n, (n, i) ∈ (step dir me s e).answered) := by
      rintro (h1 | ⟨n, h1⟩)
      · rcases hg : (step dir me s e).files.get i with _ | p
        · obtain ⟨n, keep, _, hr⟩ := files_keep h1 hg
          exact .inr ⟨n, answered_mono (hi.removing _ hr).2.2⟩
        · exact .inl rfl
      · exact .inr ⟨n, answered_mono h1⟩
    by_cases hb : InBook s i
    · exact key (ih hb)
    · obtain ⟨n, v, hv, rfl⟩ := h
      rcases (book_step e hi).2 n v hv with h1 | ⟨h1, h2 | h2⟩
      · exact absurd ⟨n, v, h1, rfl⟩ hb
      · cases e with
        | offer k p => exact absurd ⟨n, v, by simp only [step] at hv; split at hv <;> exact hv, rfl⟩ hb
        | idkx f k p =>
          simp only [step, idkx] at hv ⊢
          have h2 : p.identity = v.identity := h2
          split at hv
          · exact absurd ⟨n, v, hv, rfl⟩ hb
          · rename_i hx
            split at hv
            · exact absurd ⟨n, v, hv, rfl⟩ hb
            · rename_i hy
              left
              rw [if_neg hx, if_neg hy]
              simp [h2]
        | kx f k =>
          have h2 : f = v.identity := h2
          subst h2
          apply key
          left
          simp only [step] at hv
          split at hv
          · exact absurd ⟨n, v, hv, rfl⟩ hb
          · rename_i p hp
            rw [hp]; rfl
        | resetBy f k o =>
          exact absurd ⟨n, v, by simp only [step] at hv; (repeat' split at hv) <;> exact hv, rfl⟩ hb
        | _ => exact absurd h2 id
      · exact key (.inl h2.2)

/-- Whatever happens, a contact leaves the address book, and its identity leaves the disk, only because the user deleted
it: they typed a nick that it had then, it was sent the news, and the server answered that. -/
theorem C109_only (dir : Bool) (me : Bytes) (es : List Ev) (e : Ev) (i : Bytes) :
    (((run dir me {} es).files.get i).isSome = true → (step dir me (run dir me {} es) e).files.get i = none →
      ∃ n, Asked dir me es n i) ∧
    (InBook (run dir me {} es) i → ¬ InBook (step dir me (run dir me {} es) e) i → ∃ n, Asked dir me es n i) := by
  have hi := inv_run (dir := dir) es (inv_init (me := me))
  constructor
  · intro h h'
    obtain ⟨n, keep, _, hr⟩ := files_keep h h'
    exact ⟨n, asked_of_answered (hi.removing _ hr).2.2⟩
  · intro h h'
    rcases book_keeps hi h h' with ⟨n, order, _, hc⟩ | ⟨_, h1⟩
    · exact ⟨n, asked_of_answered (hi.calls _ hc).2.2⟩
    · rcases book_files es i h with h2 | ⟨n, h2⟩
      · rw [h1] at h2; cases h2
      · exact ⟨n, asked_of_answered h2⟩

/-! ## What was deleted is gone -/

/-- Without a key exchange, no ratchet appears. -/
theorem full_step {s : State} {e : Ev} {i : Bytes} (hl : i ∉ s.full) (he : ¬ Meets i e) :
    i ∉ (step dir me s e).full := by
  intro h1
  cases e with
  | idkx f k p =>
    simp only [step, idkx] at h1
    split at h1
    · exact hl h1
    · split at h1
      · exact hl h1
      · rcases List.mem_cons.mp h1 with h1 | h1
        · exact he h1.symm
        · exact hl h1
  | kx f k =>
    simp only [step] at h1
    split at h1
    · exact hl h1
    · split at h1
      · exact hl h1
      · rcases List.mem_cons.mp h1 with h1 | h1
        · exact he h1.symm
        · exact hl h1
  | remove n j keep =>
    obtain ⟨a, b, c⟩ := keep
    simp only [step, State.say] at h1
    by_cases hc : (n, j) ∈ s.removing
    · rw [if_pos hc] at h1
      cases c
      · exact hl (List.mem_filter.mp h1).1
      · exact hl h1
    · rw [if_neg hc] at h1
      exact hl h1
  | _ =>
    simp only [step, work, restart, State.say] at h1
    (repeat' split at h1) <;> first | exact hl h1 | exact hl (List.mem_filter.mp h1).1

/-- Without a key exchange, no file of an identity appears. -/
theorem disk_step {s : State} {e : Ev} {i : Bytes} (h : ¬ OnDisk s i) (he : ¬ Meets i e) :
    ¬ OnDisk (step dir me s e) i := by
  have hf : s.files.get i = none := by
    rcases hg : s.files.get i with _ | p
    · rfl
    · exact absurd (.inl (by rw [hg]; rfl)) h
  have hh : i ∉ s.half := fun hh => h (.inr (.inl hh))
  have hl : i ∉ s.full := fun hh => h (.inr (.inr hh))
  rintro (h1 | h1 | h1)
  · rcases hg : (step dir me s e).files.get i with _ | p
    · rw [hg] at h1; cases h1
    · rcases files_step hg with h2 | h2
      · rw [hf] at h2; cases h2
      · exact he h2.2.2
  · cases e with
    | offer k p =>
      simp only [step] at h1
      split at h1
      · exact hh h1
      · rcases List.mem_cons.mp h1 with h1 | h1
        · exact he h1.symm
        · exact hh h1
    | resetBy f k o =>
      have he : f ≠ i := he
      simp only [step] at h1
      split at h1
      · split at h1
        · rcases List.mem_cons.mp h1 with h1 | h1
          · exact he h1.symm
          · exact hh (List.mem_filter.mp h1).1
        · exact hh (List.mem_filter.mp h1).1
      · exact hh h1
    | remove n j keep =>
      obtain ⟨a, b, c⟩ := keep
      simp only [step, State.say] at h1
      by_cases hc : (n, j) ∈ s.removing
      · rw [if_pos hc] at h1
        cases b
        · exact hh (List.mem_filter.mp h1).1
        · exact hh h1
      · rw [if_neg hc] at h1
        exact hh h1
    | _ =>
      simp only [step, work, idkx, restart, State.say] at h1
      (repeat' split at h1) <;> first | exact hh h1 | exact hh (List.mem_filter.mp h1).1
  · exact full_step hl he h1

theorem disk_run {s : State} {es : List Ev} {i : Bytes} (h : ¬ OnDisk s i) (he : ∀ e ∈ es, ¬ Meets i e) :
    ¬ OnDisk (run dir me s es) i := by
  induction es generalizing s with
  | nil => exact h
  | cons e es ih =>
    exact ih (disk_step h (he e List.mem_cons_self)) (fun e' h' => he e' (List.mem_cons_of_mem _ h'))

/-- A message is shown only of those who have files. -/
theorem shown_step {s : State} {e : Ev} {i : Bytes} {m : Nat} (h : Notice.shown i m ∈ (step dir me s e).said) :
    Notice.shown i m ∈ s.said ∨ OnDisk s i := by
  cases e with
  | push f k =>
    simp only [step, State.say] at h
    split at h
    · rename_i hc
      rcases List.mem_append.mp h with h | h
      · exact .inl h
      · simp only [List.mem_singleton, Notice.shown.injEq] at h
        rw [h.1]
        exact .inr (.inr (.inr hc.2))
    · exact .inl h
  | remove n j keep =>
    obtain ⟨a, b, c⟩ := keep
    simp only [step, State.say] at h
    split at h
    · rcases List.mem_append.mp h with h | h
      · exact .inl h
      · simp only [List.mem_singleton] at h
        split at h <;> cases h
    · exact .inl h
  | _ =>
    simp only [step, work, idkx, restart, State.say] at h
    (repeat' split at h) <;> first | exact .inl h | (simp at h; exact .inl h)

/-- An identity that is neither in the book nor on disk stays so without a key exchange. -/
theorem book_gone_step {s : State} {e : Ev} {i : Bytes} (hi : Inv me s) (h : ¬ InBook s i) (he : ¬ Meets i e)
    (hd : Ends e → ¬ OnDisk s i) : ¬ InBook (step dir me s e) i := by
  rintro ⟨n, v, hv, rfl⟩
  rcases (book_step e hi).2 n v hv with h1 | ⟨_, h1 | ⟨h1, h2⟩⟩
  · exact h ⟨n, v, h1, rfl⟩
  · exact he h1
  · exact hd h1 (.inl h2)

theorem forget_gone {s : State} {n i : Bytes} {order : List (Bytes × PubId)} (hi : Inv me s) (ho : Once s i)
    (hc : (n, i) ∈ s.calls) (hp : order.Perm s.book) : ¬ InBook (step dir me s (.forget n i order)) i := by
  have h1 := C43_del_partial hi.book i order hp
  simp only [step, State.say]
  rw [if_pos ⟨hc, hp⟩]
  rcases hd : AddressBook.del s.book i order with _ | b
  · simp only []
    rintro ⟨k, v, hv, hvi⟩
    exact h1.1.mp hd k v hv hvi
  · simp only []
    obtain ⟨k, v, h2, h3, h4, h5, _⟩ := h1.2 b hd
    rintro ⟨k', v', hv, hvi⟩
    have hv : findNick b k' = some v' := hv
    by_cases hk : k' = k
    · subst hk; rw [h4] at hv; cases hv
    · rw [h5 k' hk] at hv
      exact hk (ho k' k v' v hv h2 hvi h3)

theorem shown_run {s : State} {es : List Ev} {i : Bytes} {m : Nat} (h : ¬ OnDisk s i) (he : ∀ e ∈ es, ¬ Meets i e)
    (hs : Notice.shown i m ∈ (run dir me s es).said) : Notice.shown i m ∈ s.said := by
  induction es generalizing s with
  | nil => exact hs
  | cons e es ih =>
    rw [run_cons] at hs
    rcases shown_step (ih (disk_step h (he e List.mem_cons_self)) (fun e' h' => he e' (List.mem_cons_of_mem _ h')) hs)
      with h1 | h1
    · exact h1
    · exact absurd h1 h

/-- What it takes for "deleted user" to be said. -/
theorem remove_says {s : State} {n i : Bytes} {keep : Bool × Bool × Bool}
    (hs : (step dir me s (.remove n i keep)).said = s.said ++ [.deleted n i]) :
    (n, i) ∈ s.removing ∧ keep = (false, false, false) := by
  obtain ⟨a, b, c⟩ := keep
  simp only [step, State.say] at hs
  by_cases hc : (n, i) ∈ s.removing
  · rw [if_pos hc] at hs
    refine ⟨hc, ?_⟩
    revert hs
    cases a <;> cases b <;> cases c <;> simp
  · rw [if_neg hc] at hs
    simp at hs

theorem remove_gone {s : State} {n i : Bytes} (h : (n, i) ∈ s.removing) :
    ¬ OnDisk (step dir me s (.remove n i (false, false, false))) i := by
  simp only [step, State.say, if_pos h]
  rintro (h1 | h1 | h1) <;> simp at h1

/-- When the client says "deleted user", no file of the contact is left; and until there is a new key exchange with it,
there will be none, none of its messages is shown, and a client that is started does not know it, whatever else
happens. -/
theorem C109_files {s : State} (hr : Reach dir me s) (n i : Bytes) (keep : Bool × Bool × Bool)
    (hs : (step dir me s (.remove n i keep)).said = s.said ++ [.deleted n i]) (es : List Ev)
    (hn : ∀ e ∈ es, ¬ Meets i e) (t : State) (ht : t = run dir me (step dir me s (.remove n i keep)) es) :
    ¬ OnDisk t i ∧ (∀ m, Notice.shown i m ∈ t.said → Notice.shown i m ∈ s.said) ∧
    ∀ l, l.Perm (t.files.map Prod.snd) → ¬ InBook (step dir me t (.killed l)) i := by
  obtain ⟨hm, rfl⟩ := remove_says hs
  have hg := remove_gone (dir := dir) (me := me) hm
  have hd := disk_run (dir := dir) (me := me) hg hn
  rw [← ht] at hd
  refine ⟨hd, ?_, ?_⟩
  · intro m h
    rw [ht] at h
    have h1 := shown_run hg hn h
    rw [hs] at h1
    simpa using h1
  · intro l hl
    simp only [step, restart, if_pos hl]
    rintro ⟨k, v, hv, rfl⟩
    rcases load_find me l [] hv with hv | ⟨p, hp, h1, _⟩
    · simp [findNick] at hv
    · obtain ⟨⟨j, q⟩, hq, rfl⟩ := List.mem_map.mp (hl.mem_iff.mp hp)
      have hi : Inv me t := by rw [ht]; exact inv_run es (inv_step _ (inv_reach hr))
      have hg := GoMap.get_of_mem hi.wf hq
      have hid : q.identity = j := (hi.files j q hg).1
      apply hd
      left
      rw [h1, show (j, q).2.identity = j from hid, hg]
      rfl

/-- A contact that is in the address book under one nick is no longer there when "deleted user" is said, if there was no
key exchange with it while it was deleted, nor is it thereafter, until there is one. Missing for the full claim: contacts
with two nicks (`C109_twice_violated`) and key exchanges in between (`C109_between_violated`). -/
theorem C109_gone_partial {s : State} (hr : Reach dir me s) (n i : Bytes) (order : List (Bytes × PubId))
    (hc : (n, i) ∈ s.calls) (hp : order.Perm s.book) (ho : Once s i)
    (es₁ : List Ev) (h₁ : ∀ e ∈ es₁, ¬ Meets i e ∧ ¬ Ends e)
    (t : State) (ht : t = run dir me (step dir me s (.forget n i order)) es₁) (keep : Bool × Bool × Bool)
    (hs : (step dir me t (.remove n i keep)).said = t.said ++ [.deleted n i])
    (es₂ : List Ev) (h₂ : ∀ e ∈ es₂, ¬ Meets i e) :
    ¬ InBook (run dir me (step dir me t (.remove n i keep)) es₂) i ∧
    ¬ OnDisk (run dir me (step dir me t (.remove n i keep)) es₂) i := by
  obtain ⟨hm, rfl⟩ := remove_says hs
  have hi := inv_reach hr
  have hb : ¬ InBook t i ∧ Inv me t := by
    have h0 := forget_gone (dir := dir) hi ho hc hp
    have h1 := inv_step (dir := dir) (.forget n i order) hi
    rw [ht]
    generalize step dir me s (.forget n i order) = u at h0 h1
    clear ht hs hm
    induction es₁ generalizing u with
    | nil => exact ⟨h0, h1⟩
    | cons e es ih =>
      have he := h₁ e List.mem_cons_self
      exact ih (fun e' h' => h₁ e' (List.mem_cons_of_mem _ h')) _
        (book_gone_step h1 h0 he.1 (fun h => absurd h he.2)) (inv_step e h1)
  have hg := remove_gone (dir := dir) (me := me) hm
  refine ⟨?_, disk_run hg h₂⟩
  have h0 : ¬ InBook (step dir me t (.remove n i (false, false, false))) i :=
    book_gone_step hb.2 hb.1 id (fun h => absurd h id)
  have h1 := inv_step (dir := dir) (.remove n i (false, false, false)) hb.2
  generalize step dir me t (.remove n i (false, false, false)) = u at h0 h1 hg
  clear hs
  induction es₂ generalizing u with
  | nil => exact h0
  | cons e es ih =>
    have he := h₂ e List.mem_cons_self
    exact ih (fun e' h' => h₂ e' (List.mem_cons_of_mem _ h')) _
      (book_gone_step h1 h0 he (fun _ => hg)) (inv_step e h1) (disk_step hg he)

/-! ## What was asked for is done -/

/-- Notices about a deletion. -/
def About (x : Bytes × Bytes) (n : Notice) : Bool :=
  n = .notDeleted x.1 x.2 || n = .notRemoved x.1 x.2 || n = .deleted x.1 x.2 || n = .undeliverable ⟨x.2, some x.1⟩

/-- How often the user was told what became of a deletion. -/
def outcomes (x : Bytes × Bytes) (s : State) : Nat := s.said.countP (About x)

/-- How often a deletion is on its way. -/
def pending (x : Bytes × Bytes) (s : State) : Nat :=
  s.queue.count ⟨x.2, some x.1⟩ + s.flight.count ⟨x.2, some x.1⟩ + s.calls.count x + s.removing.count x

theorem balance_step {s : State} {e : Ev} (x : Bytes × Bytes) (he : ¬ Cuts e) :
    pending x (step dir me s e) + outcomes x (step dir me s e) + s.asked.count x =
      pending x s + outcomes x s + (step dir me s e).asked.count x := by
  cases e with
  | ab nick =>
    simp only [step, State.say]
    split
    · simp [pending, outcomes, About]
    · rename_i p hp
      by_cases h : x = (nick, p.identity)
      · subst h
        simp [pending, outcomes]
        omega
      · have h1 : (⟨p.identity, some nick⟩ : Job) ≠ ⟨x.2, some x.1⟩ := by
          intro h2
          simp only [Job.mk.injEq, Option.some.injEq] at h2
          exact h (Prod.ext h2.2.symm h2.1.symm)
        have h2 : (nick, p.identity) ≠ x := fun h' => h h'.symm
        simp [pending, outcomes, List.count_singleton, h1, h2]
  | send i => simp [step, pending, outcomes, List.count_singleton]
  | work fails =>
    simp only [step, work, State.say]
    split
    · rfl
    · rename_i j rest hq
      have hc : s.queue.count ⟨x.2, some x.1⟩ = rest.count ⟨x.2, some x.1⟩ + [j].count ⟨x.2, some x.1⟩ := by
        rw [hq, List.count_cons, List.count_singleton]
      split
      · simp [pending, outcomes, About]
      · split
        · simp only [pending, outcomes, hc, List.countP_append, List.countP_singleton, About]
          by_cases hj : j = ⟨x.2, some x.1⟩
          · subst hj; simp; omega
          · simp [hj, List.count_singleton]
        · split
          · simp [pending, outcomes, About]
          · simp only [pending, outcomes, hc, List.count_append]
            omega
  | answer j error =>
    simp only [step, State.say]
    by_cases hj : j ∈ s.flight
    · rw [if_pos hj]
      have hf : s.flight.count ⟨x.2, some x.1⟩ = (s.flight.erase j).count ⟨x.2, some x.1⟩ +
          [j].count ⟨x.2, some x.1⟩ := by
        rw [(List.perm_cons_erase hj).count_eq, List.count_cons, List.count_singleton]
      rcases hd : j.del with _ | n
      · have hne : j ≠ ⟨x.2, some x.1⟩ := by rintro rfl; cases hd
        rw [List.count_singleton] at hf
        have hb : (j == (⟨x.2, some x.1⟩ : Job)) = false := by simpa using hne
        rw [hb] at hf
        cases error <;> simp [pending, outcomes, About] <;> simpa using hf.symm
      · have hj' : j = ⟨j.to_, some n⟩ := by rw [← hd]
        by_cases hx : x = (n, j.to_)
        · have hb : j = ⟨x.2, some x.1⟩ := by rw [hx]; exact hj'
          have hs : [j].count ⟨x.2, some x.1⟩ = 1 := by rw [hb]; simp
          rw [hs] at hf
          cases error <;> simp [pending, outcomes, About, ← hx] <;> omega
        · have hb : (j == (⟨x.2, some x.1⟩ : Job)) = false := by
            rw [beq_eq_false_iff_ne]
            intro h
            rw [h] at hd
            apply hx
            simp only [Option.some.injEq] at hd
            rw [h, ← hd]
          have h2 : (n, j.to_) ≠ x := fun h => hx h.symm
          rw [List.count_singleton, hb] at hf
          cases error <;> simp [pending, outcomes, About, List.count_singleton, h2] <;> simpa using hf.symm
    · rw [if_neg hj]
  | forget nick i order =>
    simp only [step, State.say]
    split
    · rename_i hc
      have hf : s.calls.count x = (s.calls.erase (nick, i)).count x + [(nick, i)].count x := by
        rw [(List.perm_cons_erase hc.1).count_eq, List.count_cons, List.count_singleton]
      split
      · by_cases hx : x = (nick, i)
        · subst hx
          simp [pending, outcomes, About, List.countP_singleton] at hf ⊢
          omega
        · have h2 : (nick, i) ≠ x := fun h => hx h.symm
          have h3 : About x (.notDeleted nick i) = false := by
            simp only [About, Notice.notDeleted.injEq]
            simp
            intro h4 h5
            exact hx (Prod.ext h4.symm h5.symm)
          simp [pending, outcomes, h3, List.count_singleton, h2] at hf ⊢
          omega
      · by_cases hx : x = (nick, i)
        · subst hx
          simp [pending, outcomes] at hf ⊢
          omega
        · have h2 : (nick, i) ≠ x := fun h => hx h.symm
          simp [pending, outcomes, List.count_singleton, h2] at hf ⊢
          omega
    · rfl
  | remove nick i keep =>
    obtain ⟨a, b, c⟩ := keep
    simp only [step, State.say]
    split
    · rename_i hc
      have hf : s.removing.count x = (s.removing.erase (nick, i)).count x + [(nick, i)].count x := by
        rw [(List.perm_cons_erase hc).count_eq, List.count_cons, List.count_singleton]
      by_cases hx : x = (nick, i)
      · subst hx
        have h3 : About (nick, i) (if (a || b || c) = true then .notRemoved nick i else .deleted nick i) = true := by
          split <;> simp [About]
        generalize (if (a || b || c) = true then Notice.notRemoved nick i else .deleted nick i) = nt at h3
        simp [pending, outcomes, h3] at hf ⊢
        omega
      · have h2 : (nick, i) ≠ x := fun h => hx h.symm
        have h3 : About x (if (a || b || c) = true then .notRemoved nick i else .deleted nick i) = false := by
          have : ∀ p q, (nick = p → ¬ i = q) ∨ (p, q) ≠ x := by
            intro p q
            by_cases hpq : (p, q) = x
            · left
              rintro rfl rfl
              exact h2 hpq
            · exact .inr hpq
          have h4 := (this x.1 x.2).resolve_right (by simp)
          split <;> simp [About] <;> exact h4
        generalize (if (a || b || c) = true then Notice.notRemoved nick i else .deleted nick i) = nt at h3
        simp [pending, outcomes, h3, List.count_singleton, h2] at hf ⊢
        omega
    · rfl
  | online => exact absurd trivial he
  | offline => exact absurd trivial he
  | quit l => exact absurd trivial he
  | killed l => exact absurd trivial he
  | push f m =>
    simp only [step, State.say]
    split
    · simp [pending, outcomes, About]
    · rfl
  | _ =>
    simp only [step, idkx]
    (repeat' split) <;> rfl

/-- As long as the connection and the client last, every deletion is on its way or the user has been told what became of
it, once. Missing for the full claim: what happens when the connection is lost or the client ends
(`C109_lost_violated`, `C109_quit_violated`). -/
theorem C109_fate_partial (s : State) (es : List Ev) (he : ∀ e ∈ es, ¬ Cuts e) (n i : Bytes) :
    pending (n, i) (run dir me s es) + outcomes (n, i) (run dir me s es) + s.asked.count (n, i) =
      pending (n, i) s + outcomes (n, i) s + (run dir me s es).asked.count (n, i) := by
  induction es generalizing s with
  | nil => rfl
  | cons e es ih =>
    have h1 := balance_step (dir := dir) (me := me) (s := s) (n, i) (he e List.mem_cons_self)
    have h2 := ih (step dir me s e) (fun e' h' => he e' (List.mem_cons_of_mem _ h'))
    rw [run_cons]
    omega

theorem work_pops (s : State) (q : List Job) (r : List Job) (hq : s.queue = q ++ r) (ho : s.online = true) :
    ∃ t, run dir me s (List.replicate q.length (.work false)) = t ∧ t.queue = r ∧ t.online = true ∧ t.book = s.book ∧
      t.files = s.files ∧ t.half = s.half ∧ t.full = s.full ∧ t.calls = s.calls ∧ t.removing = s.removing := by
  induction q generalizing s with
  | nil => exact ⟨s, rfl, hq, ho, rfl, rfl, rfl, rfl, rfl, rfl⟩
  | cons j q ih =>
    have hw : ∃ u, step dir me s (.work false) = u ∧ u.queue = q ++ r ∧ u.online = true ∧ u.book = s.book ∧
        u.files = s.files ∧ u.half = s.half ∧ u.full = s.full ∧ u.calls = s.calls ∧ u.removing = s.removing := by
      refine ⟨_, rfl, ?_⟩
      simp only [step, work, hq, List.cons_append, ho, State.say]
      split
      · simp_all
      · split
        · simp [ho]
        · simp [ho]
    obtain ⟨u, hu, h1, h2, h3, h4, h5, h6, h7, h8⟩ := hw
    obtain ⟨t, ht, g1, g2, g3, g4, g5, g6, g7, g8⟩ := ih u h1 h2
    refine ⟨t, ?_, g1, g2, g3.trans h3, g4.trans h4, g5.trans h5, g6.trans h6, g7.trans h7, g8.trans h8⟩
    rw [List.length_cons, List.replicate_succ, run_cons, hu, ht]

/-- If the connection lasts and the files can be removed, a contact with a ratchet that is in the address book under one
nick is told and deleted, and the user is told so, whatever the server answers, and whatever was to be sent before. Missing for
the full claim: contacts without a ratchet (`C109_ratchet_violated`) and lost connections. -/
theorem C109_done_partial {s : State} (hr : Reach dir me s) (n i : Bytes) (p : PubId) (hn : findNick s.book n = some p)
    (hp : p.identity = i) (ho : Once s i) (hon : s.online = true) (hf : i ∈ s.full)
    (hd : (s.files.get i).isSome = true) (order : List (Bytes × PubId)) (hor : order.Perm s.book) (error : Bool)
    (t : State) (ht : t = run dir me s ([.ab n] ++ List.replicate (s.queue.length + 1) (.work false) ++
      [.answer ⟨i, some n⟩ error, .forget n i order, .remove n i (false, false, false)])) :
    ¬ InBook t i ∧ ¬ OnDisk t i ∧ t.said.getLast? = some (.deleted n i) ∧ i ∈ t.told := by
  have hi := inv_reach hr
  obtain ⟨u, hu⟩ : ∃ u, u = step dir me s (.ab n) := ⟨_, rfl⟩
  have hub : u.book = s.book ∧ u.files = s.files ∧ u.half = s.half ∧ u.full = s.full ∧ u.online = s.online ∧
      u.queue = s.queue ++ [⟨i, some n⟩] := by
    rw [hu]
    simp [step, hn, hp]
  obtain ⟨b1, b2, b3, b4, b5, b6⟩ := hub
  obtain ⟨v, hv, c1, c2, c3, c4, c5, c6, _, _⟩ := work_pops (dir := dir) (me := me) u s.queue [⟨i, some n⟩] b6 (b5.trans hon)
  have hvr : Reach dir me v := by
    obtain ⟨es, rfl⟩ := hr
    exact ⟨es ++ .ab n :: _, by rw [run_append, run_cons, ← hu]; exact hv⟩
  obtain ⟨w, hw⟩ : ∃ w, w = step dir me v (.work false) := ⟨_, rfl⟩
  have hw' : (⟨i, some n⟩ : Job) ∈ w.flight ∧ i ∈ w.told ∧ w.book = s.book := by
    rw [hw]
    simp only [step, work, c1, c2]
    rw [if_neg (by simp), if_neg (by rw [c6, b4, c4, b2]; exact not_not.mpr ⟨hf, hd⟩)]
    simp [c3, b1]
  obtain ⟨d1, d2, d3⟩ := hw'
  have hwr : Reach dir me w := by
    obtain ⟨es, rfl⟩ := hvr
    exact ⟨es ++ [.work false], by rw [run_snoc]; exact hw.symm⟩
  obtain ⟨x, hx⟩ : ∃ x, x = step dir me w (.answer ⟨i, some n⟩ error) := ⟨_, rfl⟩
  have hx' : (n, i) ∈ x.calls ∧ x.book = s.book := by
    rw [hx]
    simp only [step, if_pos d1, State.say]
    cases error <;> simp [d3]
  have hxi : Inv me x := by rw [hx]; exact inv_step _ (inv_reach hwr)
  have hxo : Once x i := by unfold Once; rw [hx'.2]; exact ho
  have hg := forget_gone (dir := dir) (order := order) hxi hxo hx'.1 (by rw [hx'.2]; exact hor)
  have hin : InBook x i := ⟨n, p, by rw [hx'.2]; exact hn, hp⟩
  have hyr : (n, i) ∈ (step dir me x (.forget n i order)).removing := by
    simp only [step]
    rw [if_pos ⟨hx'.1, by rw [hx'.2]; exact hor⟩]
    split
    · rename_i hdel
      have h1 := (C43_del_partial hxi.book i order (by rw [hx'.2]; exact hor)).1.mp hdel
      exact absurd hp (h1 n p (by rw [hx'.2]; exact hn))
    · exact List.mem_append_right _ List.mem_cons_self
  obtain ⟨y, hy⟩ : ∃ y, y = step dir me x (.forget n i order) := ⟨_, rfl⟩
  rw [← hy] at hg hyr
  have hyi : Inv me y := by rw [hy]; exact inv_step _ hxi
  have htt : t = step dir me y (.remove n i (false, false, false)) := by
    have h1 : run dir me s [.ab n] = u := hu.symm
    have h2 : run dir me v [.work false] = w := hw.symm
    rw [ht, run_append, run_append, h1, List.replicate_succ', run_append, hv, h2, run_cons, ← hx, run_cons, ← hy]
    rfl
  refine ⟨?_, ?_, ?_, ?_⟩
  · rw [htt]; exact book_gone_step hyi hg id (fun h => absurd h id)
  · rw [htt]; exact remove_gone hyr
  · rw [htt]
    simp [step, State.say, hyr]
  · rw [htt, hy, hx]
    exact told_mono (told_mono (told_mono d2))

/-! ## Contacts without a ratchet -/

/-- **C109.** A contact whose ratchet is missing, and who therefore can not be deleted, comes back with a new exchange of
keys that they begin: the ratchet is there again and they are in the address book. -/
theorem C109_again {s : State} {i : Bytes} {k : Nat} {p : PubId} (hm : p.identity ≠ me) (hi : p.identity = i)
    (hh : i ∉ s.half) (hf : i ∉ s.full) (hk : dir = true ∨ k ∈ s.keys) :
    i ∈ (step dir me s (.idkx i k p)).full ∧ InBook (step dir me s (.idkx i k p)) i := by
  have he : s.exists_ i = false := by simp [State.exists_, hh, hf]
  have hc : ¬ ((dir = false ∧ k ∉ s.keys) ∨ p.identity = me ∨ s.exists_ p.identity = true) := by
    rintro (⟨h1, h2⟩ | h | h)
    · rcases hk with hk | hk
      · rw [h1] at hk; cases hk
      · exact h2 hk
    · exact hm h
    · rw [hi, he] at h; cases h
  simp only [step, idkx, he, Bool.false_eq_true, if_false, if_neg hc]
  refine ⟨by simp [hi], ?_⟩
  obtain ⟨n, v, h1, h2⟩ := addBook_in (me := me) s.book p hm
  exact ⟨n, v, h1, h2.trans hi⟩

/-! ## Where the claim fails -/

/-- A contact whose ratchet is missing, and of whom no deletion is under way. -/
structure Stuck (s : State) (i : Bytes) : Prop where
  book : InBook s i
  file : (s.files.get i).isSome = true
  full : i ∉ s.full
  flight : ∀ j ∈ s.flight, j.to_ = i → j.del = none
  calls : ∀ x ∈ s.calls, x.2 ≠ i
  removing : ∀ x ∈ s.removing, x.2 ≠ i

theorem stuck_step {s : State} {e : Ev} {i : Bytes} (hi : Inv me s) (h : Stuck s i) (he : ¬ Meets i e) :
    Stuck (step dir me s e) i where
  book := by
    by_contra hb
    rcases book_keeps hi h.book hb with ⟨n, order, _, hc⟩ | ⟨_, h1⟩
    · exact h.calls _ hc rfl
    · have := h.file
      rw [h1] at this
      cases this
  file := by
    rcases hg : (step dir me s e).files.get i with _ | p
    · obtain ⟨n, keep, _, hr⟩ := files_keep h.file hg
      exact absurd rfl (h.removing _ hr)
    · rfl
  full := full_step h.full he
  flight := by
    intro j hj hji
    rcases flight_step hj with h1 | ⟨_, h1, _⟩
    · exact h.flight j h1 hji
    · rw [hji] at h1; exact absurd h1 h.full
  calls := by
    intro x hx hxi
    rcases calls_step hx with h1 | ⟨h1, _⟩
    · exact h.calls x h1 hxi
    · have := h.flight _ h1 hxi
      cases this
  removing := by
    intro x hx hxi
    rcases removing_step hx with h1 | h1
    · exact h.removing x h1 hxi
    · exact h.calls x h1 hxi

/-- The code breaks C109: a contact without a ratchet cannot be deleted. Whatever the user does and however often they
try, it stays in the address book until there is a key exchange with it. -/
theorem C109_ratchet_violated {s : State} (hr : Reach dir me s) (i : Bytes) (h : Stuck s i) (es : List Ev)
    (he : ∀ e ∈ es, ¬ Meets i e) :
    InBook (run dir me s es) i ∧ ((run dir me s es).files.get i).isSome = true := by
  have hi := inv_reach hr
  clear hr
  induction es generalizing s with
  | nil => exact ⟨h.book, h.file⟩
  | cons e es ih =>
    exact ih (stuck_step hi h (he e List.mem_cons_self)) (fun e' h' => he e' (List.mem_cons_of_mem _ h')) (inv_step e hi)

/-- bob, in bytes -/
def bob : Bytes := [98, 111, 98]

/-- bob_ -/
def bob_ : Bytes := [98, 111, 98, 95]

/-- Somebody called bob. -/
def B : PubId := ⟨bob, [1], 0⟩

/-- Somebody else called bob. -/
def C : PubId := ⟨bob, [2], 0⟩

/-- The one of whom the client knows by the name of bob_. -/
def C_ : PubId := ⟨bob_, [2], 0⟩

/-- There are such contacts: somebody to whom the user offered a key exchange, who has not answered, and whom a start of
the client has put into the address book. Also, somebody whose ratchet the user has reset. -/
example : Stuck (run false [0] {} [.offer 1 B, .killed [B]]) [1] ∧
    Stuck (run false [0] {} [.online, .pin 1, .idkx [1] 1 B, .reset bob]) [1] := by
  constructor
  · exact ⟨⟨bob, B, by decide, rfl⟩, by decide, by decide, by decide, by decide, by decide⟩
  · exact ⟨⟨bob, B, by decide, rfl⟩, by decide, by decide, by decide, by decide, by decide⟩

/-- Two contacts, the second of which is deleted by the steps of `C109_done_partial`, after another message. -/
def two : List Ev := [.online, .pin 1, .idkx [1] 1 B, .idkx [2] 1 C, .send [1]]

example : findNick (run false [0] {} two).book bob_ = some C_ ∧
    (run false [0] {} (two ++ [.ab bob_, .work false, .work false, .answer ⟨[2], some bob_⟩ false,
      .forget bob_ [2] [(bob_, C_), (bob, B)], .remove bob_ [2] (false, false, false)])).book = [(bob, B)] ∧
    (run false [0] {} (two ++ [.ab bob_, .work false, .work false, .answer ⟨[2], some bob_⟩ false,
      .forget bob_ [2] [(bob_, C_), (bob, B)], .remove bob_ [2] (false, false, false)])).files = [([1], B)] := by
  decide

/-- A contact that is there. -/
def one : List Ev := [.online, .pin 1, .idkx [1] 1 B]

/-- The code breaks C109: the contact was told that it is deleted, and is not, and the user is not told, if the
connection is lost before the server has answered. -/
theorem C109_lost_violated : ∃ (s : State) (i : Bytes), Reach false [0] s ∧ (bob, i) ∈ s.asked ∧ i ∈ s.told ∧
    InBook s i ∧ i ∈ s.full ∧ s.online = true ∧ pending (bob, i) s = 0 ∧ outcomes (bob, i) s = 0 := by
  refine ⟨run false [0] {} (one ++ [.ab bob, .work false, .offline, .online]), [1], ⟨_, rfl⟩, ?_⟩
  refine ⟨by decide, by decide, ⟨bob, B, by decide, rfl⟩, by decide, by decide, by decide, by decide⟩

/-- The code breaks C109: the client lets the user quit while the answer is awaited, although it checks that there is
nothing left to do; the contact is there when the client is started again. -/
theorem C109_quit_violated : ∃ (s : State) (i : Bytes) (l : List PubId), Reach false [0] s ∧ (bob, i) ∈ s.asked ∧
    pending (bob, i) s = 1 ∧ InBook (step false [0] s (.quit l)) i ∧
    Notice.queueNotEmpty ∉ (step false [0] s (.quit l)).said ∧ pending (bob, i) (step false [0] s (.quit l)) = 0 ∧
    outcomes (bob, i) (step false [0] s (.quit l)) = 0 := by
  refine ⟨run false [0] {} (one ++ [.ab bob, .work false]), [1], [B], ⟨_, rfl⟩, ?_⟩
  refine ⟨by decide, by decide, ⟨bob, B, by decide, rfl⟩, by decide, by decide, by decide⟩

/-- The code breaks C109: whatever deletions are under way when the client ends are lost, those that wait to be sent and
those that wait for the answer, and nobody is told of them. -/
theorem C109_killed_violated (s : State) (l : List PubId) (hl : l.Perm (s.files.map Prod.snd)) (x : Bytes × Bytes) :
    pending x (step dir me s (.killed l)) = 0 ∧ outcomes x (step dir me s (.killed l)) = outcomes x s ∧
      (step dir me s (.killed l)).files = s.files := by
  rw [show step dir me s (.killed l) = restart me s l from rfl, restart, if_pos hl]
  exact ⟨rfl, rfl, rfl⟩

/-- Here the deletion of one waits in the queue. -/
example : pending (bob, [1]) (run false [0] {} (one ++ [.ab bob])) = 1 ∧
    [B].Perm ((run false [0] {} (one ++ [.ab bob])).files.map Prod.snd) := by
  decide

/-- A contact who was reset comes back. -/
example : [1] ∉ (run false [0] {} (one ++ [.reset bob])).full ∧ [1] ∉ (run false [0] {} (one ++ [.reset bob])).half ∧
    ((run false [0] {} (one ++ [.reset bob])).files.get [1]).isSome ∧ 1 ∈ (run false [0] {} (one ++ [.reset bob])).keys := by
  decide

/-- The code breaks C109: the address book forgets the contact before the files are removed, so that a client that is
killed in between knows it again. -/
theorem C109_crash_violated : ∃ (s : State) (i : Bytes) (l : List PubId), Reach false [0] s ∧ ¬ InBook s i ∧
    (bob, i) ∈ s.answered ∧ InBook (step false [0] s (.killed l)) i := by
  refine ⟨run false [0] {} (one ++ [.ab bob, .work false, .answer ⟨[1], some bob⟩ false, .forget bob [1] [(bob, B)]]),
    [1], [B], ⟨_, rfl⟩, ?_, by decide, ⟨bob, B, by decide, rfl⟩⟩
  rintro ⟨n, p, h, _⟩
  revert h
  have : (run false [0] {} (one ++ [.ab bob, .work false, .answer ⟨[1], some bob⟩ false,
      .forget bob [1] [(bob, B)]])).book = [] := by decide
  rw [this]
  simp [findNick]

/-- The code breaks C109 even if nobody ever changes their nick: there were two people called bob, of whom the first was
deleted; then the second resets. It is in the address book twice, so that after "deleted user: bob_" there is still
somebody called bob_: the one who was deleted. -/
theorem C109_twice_violated : ∃ (s : State) (i : Bytes) (order : List (Bytes × PubId)) (p : PubId), Reach false [0] s ∧
    order.Perm s.book ∧
    (run false [0] s [.forget bob_ i order, .remove bob_ i (false, false, false)]).said = s.said ++ [.deleted bob_ i] ∧
    findNick (run false [0] s [.forget bob_ i order, .remove bob_ i (false, false, false)]).book bob_ = some p ∧
    p.identity = i := by
  refine ⟨run false [0] {} ([.online, .pin 1, .idkx [1] 1 B, .idkx [2] 1 C,
    .ab bob, .work false, .answer ⟨[1], some bob⟩ false, .forget bob [1] [(bob, B), (bob_, C_)],
    .remove bob [1] (false, false, false), .resetBy [2] 2 true, .kx [2] 2,
    .ab bob_, .work false, .answer ⟨[2], some bob_⟩ false]), [2], [(bob, C), (bob_, C_)], C_, ⟨_, rfl⟩, ?_, ?_, ?_, rfl⟩
  · decide
  · decide
  · decide

/-- The code breaks C109: a key exchange that the contact begins while it is being deleted leaves it in the address book,
without its files. -/
theorem C109_between_violated : ∃ (s : State) (i : Bytes), Reach false [0] s ∧
    (step false [0] s (.remove bob i (false, false, false))).said = s.said ++ [.deleted bob i] ∧
    InBook (step false [0] s (.remove bob i (false, false, false))) i := by
  refine ⟨run false [0] {} (one ++ [.ab bob, .work false, .answer ⟨[1], some bob⟩ false, .forget bob [1] [(bob, B)],
    .resetBy [1] 2 true, .kx [1] 2]), [1], ⟨_, rfl⟩, by decide, ⟨bob, B, by decide, rfl⟩⟩

/-- The code breaks C109: who was deleted can come back without being asked, be it with the blob key of old or, if the
server has a directory, with any. -/
theorem C109_back_violated : ∀ dir, ∃ (s : State) (i : Bytes) (k : Nat) (p : PubId), Reach dir [0] s ∧
    Notice.deleted bob i ∈ s.said ∧ s.book = [] ∧ s.files = [] ∧ InBook (step dir [0] s (.idkx i k p)) i ∧
    Notice.shown i 7 ∈ (run dir [0] s [.idkx i k p, .push i 7]).said := by
  intro dir
  refine ⟨run dir [0] {} (one ++ [.ab bob, .work false, .answer ⟨[1], some bob⟩ false, .forget bob [1] [(bob, B)],
    .remove bob [1] (false, false, false)]), [1], 1, B, ⟨_, rfl⟩, ?_, ?_, ?_, ⟨bob, B, ?_, rfl⟩, ?_⟩ <;>
    cases dir <;> decide

/-- **C109** A nick that nobody has: the user is told, and nothing else happens. -/
theorem C109_unknown (s : State) (n : Bytes) (h : findNick s.book n = none) :
    step dir me s (.ab n) = { s with said := s.said ++ [.notFound n] } := by
  simp [step, h, State.say]

/-- **C109** From one of whom there are no files, neither a message, nor a reset, nor the end of a key exchange does
anything; and one with whom no key exchange was begun cannot end one. -/
theorem C109_stranger (s : State) (i : Bytes) (k m : Nat) (sent : Bool) :
    (s.files.get i = none → step dir me s (.push i m) = s ∧ step dir me s (.resetBy i k sent) = s ∧
      step dir me s (.kx i k) = s) ∧ (i ∉ s.half → step dir me s (.kx i k) = s) := by
  refine ⟨fun h => ⟨?_, ?_, ?_⟩, fun h => ?_⟩
  · simp [step, State.exists_, h]
  · simp [step, h]
  · simp [step, h]
  · simp only [step]
    split
    · rfl
    · rw [if_pos (.inr (.inl h))]

/-- Who was deleted is a stranger, and there is somebody with files and no half ratchet. -/
example : (run false [0] {} (one ++ [.ab bob, .work false, .answer ⟨[1], some bob⟩ false, .forget bob [1] [(bob, B)],
    .remove bob [1] (false, false, false)])).files.get [1] = none ∧ [1] ∉ (run false [0] {} one).half ∧
    (run false [0] {} one).files.get [1] = some B ∧ findNick (run false [0] {} one).book bob_ = none := by
  decide

end Verif.Deletion
