import Verif.Model.Handles

/-! # C155: files that were opened are closed -/

namespace Verif.Handles

/-- Whatever happens, everything is closed at the end, and no more than two files are open on the way. -/
def clean : Prog → List Nat → List Nat → Bool
  | .ret, o, d => o.all d.contains && decide (o.length ≤ 2)
  | .opens h ok fails, o, d => decide (o.length ≤ 2) && clean ok (h :: o) d && clean fails o d
  | .close h k, o, d => decide (o.length ≤ 2) && clean k (o.filter (· != h)) d
  | .defer h k, o, d => decide (o.length ≤ 2) && clean k o (h :: d)
  | .check ok fails, o, d => decide (o.length ≤ 2) && clean ok o d && clean fails o d

/-- Calls on which nothing is left open. -/
def Call.good : Call → Bool
  | .send large => !large
  | .chunk full => !full
  | _ => true

theorem good_clean (c : Call) (h : c.good = true) : clean c.prog [] [] = true := by
  cases c with
  | send l => cases l with
    | false => rfl
    | true => cases h
  | chunk f => cases f with
    | false => rfl
    | true => cases h
  | _ => rfl

theorem clean_le {p : Prog} {o d : List Nat} (h : clean p o d = true) : o.length ≤ 2 := by
  cases p <;> simp only [clean, Bool.and_eq_true, decide_eq_true_eq] at h
  · exact h.2
  · exact h.1.1
  · exact h.1
  · exact h.1
  · exact h.1.1

/-- Every call that is under way will close its files. -/
structure Inv (s : State) : Prop where
  left : s.left = 0
  clean : ∀ r ∈ s.running, clean r.prog r.opened r.deferred = true

theorem inv_step {s : State} (hi : Inv s) {e : Ev} (he : ∀ c, e = .start c → c.good = true) : Inv (step s e) := by
  cases e with
  | start c =>
    refine ⟨hi.left, fun r hr => ?_⟩
    rcases List.mem_append.1 hr with h | h
    · exact hi.clean r h
    · cases List.mem_singleton.1 h; exact good_clean c (he c rfl)
  | move i b =>
    simp only [step]
    cases hr : s.running[i]? with
    | none => exact hi
    | some r =>
      have hc := hi.clean r (List.mem_of_getElem? hr)
      simp only
      cases hm : r.move b with
      | inl r' =>
        refine ⟨hi.left, fun x hx => ?_⟩
        rcases List.mem_or_eq_of_mem_set hx with h | rfl
        · exact hi.clean x h
        · obtain ⟨p, o, d⟩ := r
          cases p <;> simp only [Running.move, Sum.inl.injEq, reduceCtorEq] at hm <;> subst hm <;>
            simp only [clean, Bool.and_eq_true] at hc
          · cases b
            · exact hc.2
            · exact hc.1.2
          · exact hc.2
          · exact hc.2
          · cases b
            · exact hc.2
            · exact hc.1.2
      | inr n =>
        have hn : n = 0 := by
          obtain ⟨p, o, d⟩ := r
          cases p <;> simp only [Running.move, Sum.inr.injEq, reduceCtorEq] at hm
          subst hm
          simp only [clean, Bool.and_eq_true, List.all_eq_true] at hc
          rw [List.length_eq_zero_iff, List.filter_eq_nil_iff]
          intro a ha
          simp only [hc.1 a ha, Bool.not_true, Bool.false_eq_true, not_false_eq_true]
        exact ⟨by simp only [hi.left, hn], fun x hx => hi.clean x (List.mem_of_mem_eraseIdx hx)⟩

theorem inv_run {es : List Ev} (hg : ∀ c, Ev.start c ∈ es → c.good = true) : Inv (run es) := by
  suffices h : ∀ s, Inv s → Inv (es.foldl step s) from h _ ⟨rfl, fun _ h => by cases h⟩
  induction es with
  | nil => exact fun s h => h
  | cons e es ih =>
    intro s hs
    exact ih (fun c hc => hg c (List.mem_cons_of_mem _ hc)) _
      (inv_step hs fun c hc => hg c (hc ▸ List.mem_cons_self))

theorem sum_le {l : List Running} (h : ∀ r ∈ l, r.opened.length ≤ 2) : (l.map fun r => r.opened.length).sum ≤ 2 * l.length := by
  induction l with
  | nil => exact Nat.le_refl _
  | cons r l ih =>
    have h1 := h r List.mem_cons_self
    have h2 := ih fun x hx => h x (List.mem_cons_of_mem _ hx)
    simp only [List.map_cons, List.sum_cons, List.length_cons]
    omega

/-- **C155** However many calls were made, by however many goroutines and whatever failed: the files that are open belong to calls
that are under way, two at most to each.
Partial: files that are too large to be sent, and chunks that cannot be written, are excluded (`C155_send_violated`,
`C155_chunk_violated`). -/
theorem C155_bounded_partial (es : List Ev) (hg : ∀ c, Ev.start c ∈ es → c ≠ .send true ∧ c ≠ .chunk true) :
    (run es).openFiles ≤ 2 * (run es).running.length := by
  have hi := inv_run (es := es) fun c hc => by
    have := hg c hc
    cases c with
    | send l => cases l <;> simp_all [Call.good]
    | chunk f => cases f <;> simp_all [Call.good]
    | _ => rfl
  unfold State.openFiles
  rw [hi.left, Nat.zero_add]
  exact sum_le fun r hr => clean_le (hi.clean r hr)

/-- **C155** When no call is under way, no file is open. Partial: as above. -/
theorem C155_closed_partial (es : List Ev) (hg : ∀ c, Ev.start c ∈ es → c ≠ .send true ∧ c ≠ .chunk true)
    (hr : (run es).running = []) : (run es).openFiles = 0 := by
  have := C155_bounded_partial es hg
  rw [hr] at this
  exact Nat.le_zero.1 this

/-- The moves of a call that is alone. -/
def alone (c : Call) (bs : List Bool) : List Ev := .start c :: bs.map (Ev.move 0)

theorem leaks {c : Call} {bs : List Bool} (h : ∀ k, (alone c bs).foldl step ⟨[], k⟩ = ⟨[], k + 1⟩) (n : Nat) :
    run ((List.replicate n (alone c bs)).flatten) = ⟨[], n⟩ := by
  suffices H : ∀ k, ((List.replicate n (alone c bs)).flatten).foldl step ⟨[], k⟩ = ⟨[], k + n⟩ by
    have := H 0
    rwa [Nat.zero_add] at this
  induction n with
  | zero => intro k; rfl
  | succ n ih =>
    intro k
    rw [List.replicate_succ, List.flatten_cons, List.foldl_append, h, ih, Nat.add_assoc, Nat.add_comm 1]

/-- **C155 violated**: each attempt to send a file that is too large leaves it open. -/
theorem C155_send_violated (n : Nat) :
    (run ((List.replicate n (alone (.send true) [true, true, true, true])).flatten)).running = [] ∧
    (run ((List.replicate n (alone (.send true) [true, true, true, true])).flatten)).openFiles = n := by
  rw [leaks fun k => rfl]
  exact ⟨rfl, rfl⟩

/-- **C155 violated**: each chunk that cannot be written, because the disk is full, leaves its file open. -/
theorem C155_chunk_violated (n : Nat) :
    (run ((List.replicate n (alone (.chunk true) [true, true, true, true])).flatten)).running = [] ∧
    (run ((List.replicate n (alone (.chunk true) [true, true, true, true])).flatten)).openFiles = n := by
  rw [leaks fun k => rfl]
  exact ⟨rfl, rfl⟩

/-- **C155** Every call returns, and soon: whichever way it goes it moves at most 16 times. -/
theorem C155_returns (c : Call) (bs : List Bool) (hb : 16 ≤ bs.length) : (run (alone c bs)).running = [] := by
  -- how many moves a program makes at most
  let size : Prog → Nat := fun p => Prog.rec (motive := fun _ => Nat) 1 (fun _ _ _ a b => 1 + max a b) (fun _ _ a => 1 + a)
    (fun _ _ a => 1 + a) (fun _ _ a b => 1 + max a b) p
  have key : ∀ (bs : List Bool) (p : Prog) (o d : List Nat) (k : Nat), size p ≤ bs.length →
      ((bs.map (Ev.move 0)).foldl step ⟨[⟨p, o, d⟩], k⟩).running = [] := by
    have nil : ∀ (bs : List Bool) (k : Nat), ((bs.map (Ev.move 0)).foldl step ⟨[], k⟩).running = [] := by
      intro bs
      induction bs with
      | nil => intro k; rfl
      | cons b bs ih => intro k; exact ih k
    intro bs
    induction bs with
    | nil => intro p o d k h; cases p <;> simp [size] at h <;> omega
    | cons b bs ih =>
      intro p o d k h
      cases p with
      | ret => exact nil bs _
      | opens x p q =>
        have h' : 1 + max (size p) (size q) ≤ bs.length + 1 := h
        cases b
        · exact ih q o d k (by omega)
        · exact ih p (x :: o) d k (by omega)
      | close x p =>
        have h' : 1 + size p ≤ bs.length + 1 := h
        exact ih p _ d k (by omega)
      | defer x p =>
        have h' : 1 + size p ≤ bs.length + 1 := h
        exact ih p o _ k (by omega)
      | check p q =>
        have h' : 1 + max (size p) (size q) ≤ bs.length + 1 := h
        cases b
        · exact ih q o d k (by omega)
        · exact ih p o d k (by omega)
  have hs : size c.prog ≤ 16 := by
    cases c with
    | send l => cases l <;> decide
    | chunk f => cases f <;> decide
    | _ => decide
  exact key bs c.prog [] [] 0 (by omega)

/-- Two transfers at the same time: three files are open, and none in the end. -/
example : (run [.start (.chunk false), .start .chunkNew, .move 0 true, .move 1 true, .move 1 true, .move 1 true, .move 1 true]).openFiles = 3 ∧
    (run ([.start (.chunk false), .start .chunkNew] ++ (List.replicate 13 (.move 0 true)) ++ List.replicate 13 (.move 0 false))).openFiles = 0 := by
  decide

end Verif.Handles
