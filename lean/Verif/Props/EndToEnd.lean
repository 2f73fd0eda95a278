import Verif.Model.EndToEnd

/-! # C117: what one user writes the other sees, once and in order, over connections that break -/

namespace Verif.EndToEnd

abbrev Sorted (l : List Nat) : Prop := l.Pairwise (· < ·)

/-- Of a session and its connection. -/
structure SessInv (s : State) (x : Sess) : Prop where
  ann : ∀ a ∈ x.ann, a ∈ s.arrived
  first : ∀ a ∈ x.ann, ∀ m ∈ s.store, m ∉ x.ann → a < m
  sorted : Sorted (x.down.map (·.2))
  down : ∀ q ∈ x.down, q.2 ∈ x.ann ∧ (q.2 ∉ s.taken → ∀ y ∈ s.taken, y < q.2)
  seen : s.linked = true → ∀ a ∈ x.ann, a ∈ x.down.map (·.2) ∨ a ∈ s.taken
  gone : s.linked = false → x.down = []

structure Inv (s : State) : Prop where
  sorted : Sorted (s.arrived ++ (s.awire ++ s.out))
  below : ∀ m ∈ s.arrived ++ (s.awire ++ s.out), m < s.typed
  store : s.store.Sublist s.arrived
  taken : Sorted s.taken
  takenSub : ∀ m ∈ s.taken, m ∈ s.arrived
  later : ∀ m ∈ s.store, m ∉ s.taken → ∀ y ∈ s.taken, y < m
  shown : s.shown.Sublist s.taken
  sess : ∀ x, s.sess = some x → SessInv s x
  link : s.linked = true → s.sess ≠ none

theorem sorted_snoc {l : List Nat} {m : Nat} (h : Sorted l) (hm : ∀ y ∈ l, y < m) : Sorted (l ++ [m]) :=
  List.pairwise_append.2 ⟨h, List.pairwise_singleton _ _, fun a ha b hb => by
    cases List.mem_singleton.1 hb; exact hm a ha⟩

theorem inv_cut {s : State} (h : Inv s) : Inv s.cut := by
  refine ⟨h.sorted, h.below, h.store, h.taken, h.takenSub, h.later, h.shown, ?_, fun hl => by cases hl⟩
  intro x hx
  simp only [State.cut] at hx
  split at hx
  · cases hx
  · rename_i y hy
    split at hx
    · cases hx
    · cases hx
      have := h.sess y hy
      exact ⟨this.ann, this.first, List.Pairwise.nil, (fun _ hq => by cases hq), (fun hl => by cases hl), fun _ => rfl⟩

/-- Taking the message at the head of the connection. -/
theorem inv_take {s : State} {x : Sess} {t m : Nat} {r : List (Nat × Nat)} (h : Inv s) (hx : s.sess = some x)
    (hd : x.down = (t, m) :: r) (hl : s.linked = true) :
    Sorted (s.take m).taken ∧ (∀ y ∈ (s.take m).taken, y ∈ s.arrived) ∧ m ∈ (s.take m).taken ∧
    (∀ n ∈ s.store, n ∉ (s.take m).taken → ∀ y ∈ (s.take m).taken, y < n) ∧
    (∀ q ∈ r, q.2 ∉ (s.take m).taken → ∀ y ∈ (s.take m).taken, y < q.2) ∧
    (∀ y ∈ s.taken, y ∈ (s.take m).taken) := by
  have hI := h.sess x hx
  have hmd : (t, m) ∈ x.down := by rw [hd]; exact List.mem_cons_self
  have hma := hI.down _ hmd
  have hs := hI.sorted
  rw [hd] at hs
  have hs := List.pairwise_cons.1 hs
  unfold State.take
  split
  · rename_i hm
    exact ⟨h.taken, h.takenSub, hm, h.later, fun q hq => (hI.down q (by rw [hd]; exact List.mem_cons_of_mem _ hq)).2,
      fun y hy => hy⟩
  · rename_i hm
    have hlt := hma.2 hm
    refine ⟨sorted_snoc h.taken hlt, ?_, List.mem_append_right _ (List.mem_singleton.2 rfl), ?_, ?_,
      fun y hy => List.mem_append_left _ hy⟩
    · intro y hy
      rcases List.mem_append.1 hy with hy | hy
      · exact h.takenSub y hy
      · cases List.mem_singleton.1 hy; exact hI.ann m hma.1
    · intro n hn hnt y hy
      have hnt' : n ∉ s.taken := fun hh => hnt (List.mem_append_left _ hh)
      rcases List.mem_append.1 hy with hy | hy
      · exact h.later n hn hnt' y hy
      · cases List.mem_singleton.1 hy
        by_cases ha : n ∈ x.ann
        · rcases hI.seen hl n ha with hh | hh
          · rw [hd] at hh
            rcases List.mem_cons.1 hh with rfl | hh
            · exact absurd (List.mem_append_right _ (List.mem_singleton.2 rfl)) hnt
            · exact hs.1 n hh
          · exact absurd hh hnt'
        · exact hI.first m hma.1 n hn ha
    · intro q hq hqt y hy
      have hqt' : q.2 ∉ s.taken := fun hh => hqt (List.mem_append_left _ hh)
      rcases List.mem_append.1 hy with hy | hy
      · exact (hI.down q (by rw [hd]; exact List.mem_cons_of_mem _ hq)).2 hqt' y hy
      · cases List.mem_singleton.1 hy
        exact hs.1 q.2 (List.mem_map_of_mem hq)

theorem take_fields (s : State) (m : Nat) : (s.take m).typed = s.typed ∧ (s.take m).out = s.out ∧
    (s.take m).awire = s.awire ∧ (s.take m).arrived = s.arrived ∧ (s.take m).store = s.store ∧
    (s.take m).sess = s.sess ∧ (s.take m).linked = s.linked ∧ (s.take m).queue = s.queue ∧
    (s.take m).shown = s.shown ∧ (s.take m).alinked = s.alinked := by
  unfold State.take; split <;> exact ⟨rfl, rfl, rfl, rfl, rfl, rfl, rfl, rfl, rfl, rfl⟩

theorem take_shown {s : State} {m : Nat} (h : s.shown.Sublist s.taken) :
    (if m ∈ s.taken then s.shown else s.shown ++ [m]).Sublist (s.take m).taken := by
  unfold State.take
  split
  · exact h
  · exact h.append (List.Sublist.refl _)

theorem inv_step {s s' : State} {e : Ev} (h : Inv s) (hs : step s e = some s') : Inv s' := by
  cases e with
  | type =>
    cases hs
    refine ⟨?_, ?_, h.store, h.taken, h.takenSub, h.later, h.shown, fun x hx => ?_, h.link⟩
    · show Sorted (s.arrived ++ (s.awire ++ (s.out ++ [s.typed])))
      rw [← List.append_assoc s.awire, ← List.append_assoc s.arrived]
      exact sorted_snoc h.sorted h.below
    · intro m hm
      have hm : m ∈ s.arrived ++ (s.awire ++ (s.out ++ [s.typed])) := hm
      rw [← List.append_assoc s.awire, ← List.append_assoc s.arrived] at hm
      rcases List.mem_append.1 hm with hm | hm
      · exact Nat.lt_succ_of_lt (h.below m hm)
      · cases List.mem_singleton.1 hm; exact Nat.lt_succ_self _
    · have := h.sess x hx
      exact ⟨this.ann, this.first, this.sorted, this.down, this.seen, this.gone⟩
  | aconnect =>
    simp only [step] at hs
    split at hs
    · cases hs
    · cases hs
      exact ⟨h.sorted, h.below, h.store, h.taken, h.takenSub, h.later, h.shown, (fun x hx => by
        have := h.sess x hx
        exact ⟨this.ann, this.first, this.sorted, this.down, this.seen, this.gone⟩), h.link⟩
  | abreak =>
    simp only [step] at hs
    split at hs
    · cases hs
      refine ⟨?_, ?_, h.store, h.taken, h.takenSub, h.later, h.shown, (fun x hx => by
        have := h.sess x hx
        exact ⟨this.ann, this.first, this.sorted, this.down, this.seen, this.gone⟩), h.link⟩
      · exact h.sorted.sublist ((List.Sublist.refl _).append (List.sublist_append_right _ _))
      · intro m hm
        exact h.below m (((List.Sublist.refl s.arrived).append (List.sublist_append_right s.awire s.out)).subset hm)
    · cases hs
  | aquit =>
    cases hs
    refine ⟨?_, ?_, h.store, h.taken, h.takenSub, h.later, h.shown, (fun x hx => by
      have := h.sess x hx
      exact ⟨this.ann, this.first, this.sorted, this.down, this.seen, this.gone⟩), h.link⟩
    · exact h.sorted.sublist ((List.Sublist.refl _).append (List.nil_sublist _))
    · intro m hm
      exact h.below m (((List.Sublist.refl s.arrived).append (List.nil_sublist (s.awire ++ s.out))).subset hm)
  | asend =>
    simp only [step] at hs
    split at hs
    · rename_i m r hl ho
      cases hs
      have he : s.awire ++ [m] ++ r = s.awire ++ s.out := by rw [ho]; simp
      refine ⟨?_, ?_, h.store, h.taken, h.takenSub, h.later, h.shown, (fun x hx => by
        have := h.sess x hx
        exact ⟨this.ann, this.first, this.sorted, this.down, this.seen, this.gone⟩), h.link⟩
      · show Sorted (s.arrived ++ (s.awire ++ [m] ++ r))
        rw [he]; exact h.sorted
      · show ∀ n ∈ s.arrived ++ (s.awire ++ [m] ++ r), n < s.typed
        rw [he]; exact h.below
    · cases hs
  | arrive =>
    simp only [step] at hs
    split at hs
    · rename_i m r hw
      cases hs
      have he : s.arrived ++ [m] ++ (r ++ s.out) = s.arrived ++ (s.awire ++ s.out) := by rw [hw]; simp
      have hsrt := h.sorted
      rw [hw] at hsrt
      have hlt : ∀ y ∈ s.arrived, y < m := fun y hy =>
        (List.pairwise_append.1 hsrt).2.2 y hy m List.mem_cons_self
      refine ⟨?_, ?_, h.store.append (List.Sublist.refl _), h.taken,
        fun y hy => List.mem_append_left _ (h.takenSub y hy), ?_, h.shown, ?_, h.link⟩
      · show Sorted (s.arrived ++ [m] ++ (r ++ s.out))
        rw [he]; exact h.sorted
      · show ∀ n ∈ s.arrived ++ [m] ++ (r ++ s.out), n < s.typed
        rw [he]; exact h.below
      · intro n hn hnt y hy
        rcases List.mem_append.1 hn with hn | hn
        · exact h.later n hn hnt y hy
        · cases List.mem_singleton.1 hn; exact hlt y (h.takenSub y hy)
      · intro x hx
        have := h.sess x hx
        refine ⟨fun a ha => List.mem_append_left _ (this.ann a ha), ?_, this.sorted, this.down, this.seen, this.gone⟩
        intro a ha n hn hna
        rcases List.mem_append.1 hn with hn | hn
        · exact this.first a ha n hn hna
        · cases List.mem_singleton.1 hn; exact hlt a (this.ann a ha)
    · cases hs
  | connect =>
    simp only [step] at hs
    split at hs
    · cases hs
    · split at hs
      · cases hs
        refine ⟨h.sorted, h.below, h.store, h.taken, h.takenSub, h.later, h.shown, fun x hx => ?_, fun _ hn => by cases hn⟩
        cases hx
        exact ⟨(fun _ ha => by cases ha), (fun _ ha => by cases ha), List.Pairwise.nil, (fun _ hq => by cases hq),
          (fun _ _ ha => by cases ha), fun _ => rfl⟩
      · cases hs; exact h
  | breaks =>
    simp only [step] at hs
    split at hs
    · cases hs; exact inv_cut h
    · cases hs
  | quit =>
    cases hs
    have hc := inv_cut h
    exact ⟨hc.sorted, hc.below, hc.store, hc.taken, hc.takenSub, hc.later, hc.shown, (fun x hx => by
      have := hc.sess x hx
      exact ⟨this.ann, this.first, this.sorted, this.down, this.seen, this.gone⟩), hc.link⟩
  | push =>
    simp only [step] at hs
    split at hs
    · cases hs
    · rename_i x hx
      have hI := h.sess x hx
      split at hs
      · rename_i t f m hfree hfind
        have hm := List.mem_of_find?_eq_some hfind
        have hma : m ∉ x.ann := by simpa using List.find?_some hfind
        split at hs
        · cases hs
          exact ⟨h.sorted, h.below, h.store, h.taken, h.takenSub, h.later, h.shown, (fun x hx => by cases hx),
            fun hl => by cases hl⟩
        · rename_i hcond
          have hlink : s.linked = true := by
            cases hl : s.linked with
            | true => rfl
            | false => exact absurd (Or.inr hl) hcond
          cases hs
          refine ⟨h.sorted, h.below, h.store, h.taken, h.takenSub, h.later, h.shown, fun y hy => ?_, fun _ hn => by cases hn⟩
          cases hy
          -- the oldest that was not announced
          have hold : ∀ n ∈ s.store, n ∉ x.ann → n ≠ m → m < n := by
            intro n hn hna hne
            have hst : Sorted s.store := (List.pairwise_append.1 h.sorted).1.sublist h.store
            obtain ⟨as, bs, hspl, hfst⟩ := (List.find?_eq_some_iff_append.1 hfind).2
            rw [hspl] at hn hst
            rcases List.mem_append.1 hn with hn | hn
            · have := hfst n hn
              simp [hna] at this
            · rcases List.mem_cons.1 hn with hn | hn
              · exact absurd hn hne
              · exact (List.pairwise_cons.1 (List.pairwise_append.1 hst).2.1).1 n hn
          refine ⟨?_, ?_, ?_, ?_, ?_, ?_⟩
          · intro a ha
            rcases List.mem_append.1 ha with ha | ha
            · exact hI.ann a ha
            · cases List.mem_singleton.1 ha; exact h.store.subset hm
          · intro a ha n hn hna
            have hna' : n ∉ x.ann := fun hh => hna (List.mem_append_left _ hh)
            rcases List.mem_append.1 ha with ha | ha
            · exact hI.first a ha n hn hna'
            · cases List.mem_singleton.1 ha
              exact hold n hn hna' (fun he => hna (List.mem_append_right _ (List.mem_singleton.2 he)))
          · show Sorted ((x.down ++ [(t, m)]).map (·.2))
            rw [List.map_append]
            refine sorted_snoc hI.sorted ?_
            intro y hy
            obtain ⟨q, hq, rfl⟩ := List.mem_map.1 hy
            exact hI.first _ (hI.down q hq).1 m hm hma
          · intro q hq
            rcases List.mem_append.1 hq with hq | hq
            · exact ⟨List.mem_append_left _ (hI.down q hq).1, (hI.down q hq).2⟩
            · cases List.mem_singleton.1 hq
              exact ⟨List.mem_append_right _ (List.mem_singleton.2 rfl), h.later m hm⟩
          · intro hl a ha
            show a ∈ (x.down ++ [(t, m)]).map (·.2) ∨ a ∈ s.taken
            rw [List.map_append]
            rcases List.mem_append.1 ha with ha | ha
            · rcases hI.seen hl a ha with hh | hh
              · exact .inl (List.mem_append_left _ hh)
              · exact .inr hh
            · cases List.mem_singleton.1 ha
              exact .inl (List.mem_append_right _ (List.mem_singleton.2 rfl))
          · intro hl
            have hl : s.linked = false := hl
            rw [hlink] at hl; cases hl
      · cases hs
  | recv =>
    simp only [step] at hs
    split at hs
    · rename_i x hl hx
      split at hs
      · rename_i t m r hd
        obtain ⟨h1, h2, h3, h4, h5, h6⟩ := inv_take h hx hd hl
        have hI := h.sess x hx
        cases hs
        obtain ⟨e1, e2, e3, e4, e5, e6, e7, e8, e9, e10⟩ := take_fields s m
        refine ⟨?_, ?_, ?_, h1, ?_, ?_, take_shown h.shown, ?_, fun _ hn => by cases hn⟩
        · show Sorted ((s.take m).arrived ++ ((s.take m).awire ++ (s.take m).out))
          rw [e2, e3, e4]; exact h.sorted
        · show ∀ n ∈ (s.take m).arrived ++ ((s.take m).awire ++ (s.take m).out), n < (s.take m).typed
          rw [e1, e2, e3, e4]; exact h.below
        · show (s.take m).store.Sublist (s.take m).arrived
          rw [e4, e5]; exact h.store
        · show ∀ n ∈ (s.take m).taken, n ∈ (s.take m).arrived
          rw [e4]; exact h2
        · show ∀ n ∈ (s.take m).store, _
          rw [e5]; exact h4
        · intro y hy
          cases hy
          refine ⟨?_, ?_, ?_, ?_, ?_, ?_⟩
          · show ∀ a ∈ x.ann, a ∈ (s.take m).arrived
            rw [e4]; exact hI.ann
          · show ∀ a ∈ x.ann, ∀ n ∈ (s.take m).store, _
            rw [e5]; exact hI.first
          · have := hI.sorted; rw [hd] at this; exact (List.pairwise_cons.1 this).2
          · intro q hq
            exact ⟨(hI.down q (by rw [hd]; exact List.mem_cons_of_mem _ hq)).1, h5 q hq⟩
          · intro _ a ha
            rcases hI.seen hl a ha with hh | hh
            · rw [hd] at hh
              rcases List.mem_cons.1 hh with rfl | hh
              · exact .inr h3
              · exact .inl hh
            · exact .inr (h6 a hh)
          · intro hf
            have hf : (s.take m).linked = false := hf
            rw [e7, hl] at hf; cases hf
      · cases hs
    · cases hs
  | killed =>
    simp only [step] at hs
    split at hs
    · rename_i x hl hx
      split at hs
      · rename_i t m r hd
        obtain ⟨h1, h2, h3, h4, h5, h6⟩ := inv_take h hx hd hl
        have hI := h.sess x hx
        cases hs
        obtain ⟨e1, e2, e3, e4, e5, e6, e7, e8, e9, e10⟩ := take_fields s m
        refine ⟨?_, ?_, ?_, h1, ?_, ?_, ?_, ?_, fun hl => by cases hl⟩
        · show Sorted ((s.take m).arrived ++ ((s.take m).awire ++ (s.take m).out))
          rw [e2, e3, e4]; exact h.sorted
        · show ∀ n ∈ (s.take m).arrived ++ ((s.take m).awire ++ (s.take m).out), n < (s.take m).typed
          rw [e1, e2, e3, e4]; exact h.below
        · show (s.take m).store.Sublist (s.take m).arrived
          rw [e4, e5]; exact h.store
        · show ∀ n ∈ (s.take m).taken, n ∈ (s.take m).arrived
          rw [e4]; exact h2
        · show ∀ n ∈ (s.take m).store, _
          rw [e5]; exact h4
        · show (s.take m).shown.Sublist (s.take m).taken
          rw [e9]
          refine h.shown.trans ?_
          unfold State.take
          split
          · exact List.Sublist.refl _
          · exact List.sublist_append_left _ _
        · intro y hy
          have hy : (s.take m).cut.sess = some y := hy
          simp only [State.cut, e6, hx] at hy
          split at hy
          · cases hy
          · cases hy
            refine ⟨?_, ?_, List.Pairwise.nil, (fun _ hq => by cases hq), (fun hl => by cases hl), fun _ => rfl⟩
            · show ∀ a ∈ x.ann, a ∈ (s.take m).arrived
              rw [e4]; exact hI.ann
            · show ∀ a ∈ x.ann, ∀ n ∈ (s.take m).store, _
              rw [e5]; exact hI.first
      · cases hs
    · cases hs
  | write =>
    simp only [step] at hs
    split at hs
    · rename_i x t q hl hx hq
      cases hs
      refine ⟨h.sorted, h.below, h.store, h.taken, h.takenSub, h.later, h.shown, fun y hy => ?_, fun _ hn => by cases hn⟩
      cases hy
      have := h.sess x hx
      exact ⟨this.ann, this.first, this.sorted, this.down, this.seen, this.gone⟩
    · cases hs
  | ack =>
    simp only [step] at hs
    split at hs
    · cases hs
    · rename_i x hx
      split at hs
      · rename_i t r hb hu
        cases hs
        have hsub : (match x.tagMsg t with
            | some m => s.store.filter (fun m' => decide (m' ≠ m)) | none => s.store).Sublist s.store := by
          split
          · exact List.filter_sublist
          · exact List.Sublist.refl _
        refine ⟨h.sorted, h.below, hsub.trans h.store, h.taken, h.takenSub, fun n hn => h.later n (hsub.subset hn), h.shown,
          fun y hy => ?_, fun _ hn => by cases hn⟩
        cases hy
        have := h.sess x hx
        exact ⟨this.ann, fun a ha n hn => this.first a ha n (hsub.subset hn), this.sorted, this.down, this.seen, this.gone⟩
      · cases hs
  | restart =>
    cases hs
    refine ⟨?_, ?_, h.store, h.taken, h.takenSub, h.later, h.shown, (fun x hx => by cases hx), fun hl => by cases hl⟩
    · exact h.sorted.sublist ((List.Sublist.refl _).append (List.sublist_append_right _ _))
    · intro m hm
      exact h.below m (((List.Sublist.refl s.arrived).append (List.sublist_append_right s.awire s.out)).subset hm)

theorem inv_start : Inv start :=
  ⟨List.Pairwise.nil, (fun _ h => by cases h), List.Sublist.refl _, List.Pairwise.nil, (fun _ h => by cases h),
    (fun _ h => by cases h), List.Sublist.refl _, (fun _ h => by cases h), fun h => by cases h⟩

theorem inv_run {s s' : State} {es : List Ev} (h : Inv s) (hr : run s es = some s') : Inv s' := by
  induction es generalizing s with
  | nil => cases hr; exact h
  | cons e es ih =>
    simp only [run] at hr
    cases hs : step s e with
    | none => rw [hs] at hr; cases hr
    | some s1 => rw [hs] at hr; exact ih (inv_step h hs) hr

/-! ## Once and in order -/

/-- C117.  However often connections break and clients and the server are restarted: what the recipient sees was written
by the sender, in that order, and nothing is seen twice. -/
theorem once_inv {s : State} (hI : Inv s) : Sorted s.shown ∧ ∀ m ∈ s.shown, m < s.typed :=
  ⟨hI.taken.sublist hI.shown, fun m hm => hI.below m (List.mem_append_left _ (hI.takenSub m (hI.shown.subset hm)))⟩

theorem C117_once {es : List Ev} {s : State} (h : run start es = some s) :
    Sorted s.shown ∧ ∀ m ∈ s.shown, m < s.typed := once_inv (inv_run inv_start h)

/-! ## All of them -/

/-- States that can be reached if each step is `ok`. -/
inductive Reach (ok : State → Ev → Prop) : State → Prop
  | start : Reach ok start
  | step {s s' : State} {e : Ev} : Reach ok s → ok s e → step s e = some s' → Reach ok s'

theorem Reach.inv {ok : State → Ev → Prop} {s : State} (h : Reach ok s) : Inv s := by
  induction h with
  | start => exact inv_start
  | step _ _ hs ih => exact inv_step ih hs

theorem Reach.mono {ok ok' : State → Ev → Prop} (hok : ∀ s e, ok s e → ok' s e) {s : State} (h : Reach ok s) :
    Reach ok' s := by
  induction h with
  | start => exact .start
  | step _ ho hs ih => exact ih.step (hok _ _ ho) hs

/-- The recipient has no acknowledgements left over when it connects. -/
def Clean (s : State) (e : Ev) : Prop := e = .connect → s.queue = []

/-- Of a session that began with an empty queue: each tag is in one place, and an acknowledgement is for a message that
the ratchet has taken. -/
structure Fit (s : State) (x : Sess) : Prop where
  linked : s.linked = true
  free : x.blocked = none
  once : ∀ t, (x.down.map (·.1)).count t + s.queue.count t + x.up.count t + x.free.count t ≤ 1
  all : x.down.length + s.queue.length + x.up.length + x.free.length = depth
  down : ∀ q ∈ x.down, x.tagMsg q.1 = some q.2
  acks : ∀ t, t ∈ s.queue ∨ t ∈ x.up → ∃ m, x.tagMsg t = some m ∧ m ∈ s.taken
  none : ∀ t ∈ x.free, x.tagMsg t = none
  out : ∀ m ∈ s.store, m ∈ x.ann → ∃ t, (t ∈ x.down.map (·.1) ∨ t ∈ s.queue ∨ t ∈ x.up) ∧ x.tagMsg t = some m

structure Good (s : State) : Prop where
  kept : ∀ m ∈ s.arrived, m ∈ s.store ∨ m ∈ s.taken
  fit : ∀ x, s.sess = some x → Fit s x

theorem count_range (n t : Nat) : (List.range n).count t ≤ 1 := List.nodup_iff_count.1 List.nodup_range t

theorem good_cut {s : State} (h : Good s) : s.cut.sess = none := by
  simp only [State.cut]
  split
  · rfl
  · rename_i x hx
    rw [if_pos (h.fit x hx).free]

theorem take_mem {s : State} {m y : Nat} : y ∈ (s.take m).taken ↔ y ∈ s.taken ∨ y = m := by
  unfold State.take
  split
  · rename_i hm
    exact ⟨.inl, fun h => h.elim id (fun h => h ▸ hm)⟩
  · simp

theorem good_step {s s' : State} {e : Ev} (hI : Inv s) (h : Good s) (hok : Clean s e) (hs : step s e = some s') :
    Good s' := by
  cases e with
  | type =>
    cases hs
    exact ⟨h.kept, fun x hx => by
      have := h.fit x hx
      exact ⟨this.linked, this.free, this.once, this.all, this.down, this.acks, this.none, this.out⟩⟩
  | aconnect =>
    simp only [step] at hs
    split at hs
    · cases hs
    · cases hs
      exact ⟨h.kept, fun x hx => by
        have := h.fit x hx
        exact ⟨this.linked, this.free, this.once, this.all, this.down, this.acks, this.none, this.out⟩⟩
  | abreak =>
    simp only [step] at hs
    split at hs
    · cases hs
      exact ⟨h.kept, fun x hx => by
        have := h.fit x hx
        exact ⟨this.linked, this.free, this.once, this.all, this.down, this.acks, this.none, this.out⟩⟩
    · cases hs
  | aquit =>
    cases hs
    exact ⟨h.kept, fun x hx => by
      have := h.fit x hx
      exact ⟨this.linked, this.free, this.once, this.all, this.down, this.acks, this.none, this.out⟩⟩
  | asend =>
    simp only [step] at hs
    split at hs
    · cases hs
      exact ⟨h.kept, fun x hx => by
        have := h.fit x hx
        exact ⟨this.linked, this.free, this.once, this.all, this.down, this.acks, this.none, this.out⟩⟩
    · cases hs
  | arrive =>
    simp only [step] at hs
    split at hs
    · rename_i m r hw
      cases hs
      refine ⟨?_, ?_⟩
      · intro n hn
        rcases List.mem_append.1 hn with hn | hn
        · exact (h.kept n hn).imp (List.mem_append_left _) id
        · exact .inl (List.mem_append_right _ hn)
      · intro x hx
        have := h.fit x hx
        refine ⟨this.linked, this.free, this.once, this.all, this.down, this.acks, this.none, ?_⟩
        intro n hn hna
        rcases List.mem_append.1 hn with hn | hn
        · exact this.out n hn hna
        · cases List.mem_singleton.1 hn
          have hsrt := hI.sorted
          rw [hw] at hsrt
          exact absurd ((List.pairwise_append.1 hsrt).2.2 m ((hI.sess x hx).ann m hna) m List.mem_cons_self)
            (Nat.lt_irrefl _)
    · cases hs
  | connect =>
    simp only [step] at hs
    split at hs
    · cases hs
    · split at hs
      · cases hs
        refine ⟨h.kept, fun x hx => ?_⟩
        cases hx
        have hq := hok rfl
        refine ⟨rfl, rfl, ?_, ?_, (fun _ hh => by cases hh), ?_, (fun _ _ => rfl), (fun _ _ hh => by cases hh)⟩
        · intro t
          show List.count t [] + s.queue.count t + List.count t [] + (List.range depth).count t ≤ 1
          rw [hq]
          have := count_range depth t
          simpa using this
        · show 0 + s.queue.length + 0 + (List.range depth).length = depth
          rw [hq]; simp
        · intro t ht
          rcases ht with ht | ht
          · have ht : t ∈ s.queue := ht
            rw [hq] at ht; cases ht
          · cases ht
      · cases hs; exact h
  | breaks =>
    simp only [step] at hs
    split at hs
    · cases hs; exact ⟨h.kept, fun x hx => by rw [good_cut h] at hx; cases hx⟩
    · cases hs
  | quit =>
    cases hs
    refine ⟨h.kept, fun x hx => ?_⟩
    have hx : s.cut.sess = some x := hx
    rw [good_cut h] at hx; cases hx
  | push =>
    simp only [step] at hs
    split at hs
    · cases hs
    · rename_i x hx
      have hF := h.fit x hx
      split at hs
      · rename_i t f m hfree hfind
        have hm := List.mem_of_find?_eq_some hfind
        split at hs
        · cases hs; exact ⟨h.kept, fun x hx => by cases hx⟩
        · cases hs
          have hc := hF.once t
          rw [hfree, List.count_cons_self] at hc
          have hd0 : (x.down.map (·.1)).count t = 0 := by omega
          have hq0 : s.queue.count t = 0 := by omega
          have hu0 : x.up.count t = 0 := by omega
          have hf0 : f.count t = 0 := by omega
          have hd0 := List.count_eq_zero.1 hd0
          have hq0 := List.count_eq_zero.1 hq0
          have hu0 := List.count_eq_zero.1 hu0
          have hf0 := List.count_eq_zero.1 hf0
          refine ⟨h.kept, fun y hy => ?_⟩
          cases hy
          have hbl : f ++ x.blocked.toList = f := by rw [hF.free]; exact List.append_nil f
          refine ⟨hF.linked, rfl, ?_, ?_, ?_, ?_, ?_, ?_⟩
          · intro u
            have hc := hF.once u
            rw [hfree, List.count_cons] at hc
            show ((x.down ++ [(t, m)]).map (·.1)).count u + s.queue.count u + x.up.count u +
              (f ++ x.blocked.toList).count u ≤ 1
            rw [hbl, List.map_append, List.count_append]
            simp only [List.map_cons, List.map_nil, List.count_cons, List.count_nil] at hc ⊢
            omega
          · have ha := hF.all
            rw [hfree] at ha
            show (x.down ++ [(t, m)]).length + s.queue.length + x.up.length + (f ++ x.blocked.toList).length = depth
            rw [hbl]
            simp only [List.length_append, List.length_cons, List.length_nil] at ha ⊢
            omega
          · intro q hq
            rcases List.mem_append.1 hq with hq | hq
            · show (if q.1 = t then some m else x.tagMsg q.1) = some q.2
              rw [if_neg (fun he : q.1 = t => hd0 (he ▸ List.mem_map_of_mem hq))]
              exact hF.down q hq
            · cases List.mem_singleton.1 hq
              exact if_pos rfl
          · intro u hu
            obtain ⟨n, hn, hnt⟩ := hF.acks u hu
            refine ⟨n, ?_, hnt⟩
            show (if u = t then some m else x.tagMsg u) = some n
            rw [if_neg (fun he : u = t => hu.elim (fun hh => hq0 (he ▸ hh)) (fun hh => hu0 (he ▸ hh)))]
            exact hn
          · intro u hu
            have hu : u ∈ f ++ x.blocked.toList := hu
            rw [hbl] at hu
            show (if u = t then some m else x.tagMsg u) = none
            rw [if_neg (fun he : u = t => hf0 (he ▸ hu))]
            exact hF.none u (by rw [hfree]; exact List.mem_cons_of_mem _ hu)
          · intro n hn hna
            rcases List.mem_append.1 hna with hna | hna
            · obtain ⟨u, hu, hun⟩ := hF.out n hn hna
              refine ⟨u, hu.imp (fun hh => ?_) id, ?_⟩
              · show u ∈ (x.down ++ [(t, m)]).map (·.1)
                rw [List.map_append]; exact List.mem_append_left _ hh
              · show (if u = t then some m else x.tagMsg u) = some n
                rw [if_neg]
                · exact hun
                · intro he
                  rcases hu with hh | hh | hh
                  · exact hd0 (he ▸ hh)
                  · exact hq0 (he ▸ hh)
                  · exact hu0 (he ▸ hh)
            · cases List.mem_singleton.1 hna
              refine ⟨t, .inl ?_, if_pos rfl⟩
              show t ∈ (x.down ++ [(t, m)]).map (·.1)
              simp
      · cases hs
  | recv =>
    simp only [step] at hs
    split at hs
    · rename_i x hl hx
      split at hs
      · rename_i t m r hd
        have hF := h.fit x hx
        cases hs
        obtain ⟨e1, e2, e3, e4, e5, e6, e7, e8, e9, e10⟩ := take_fields s m
        refine ⟨?_, fun y hy => ?_⟩
        · show ∀ n ∈ (s.take m).arrived, n ∈ (s.take m).store ∨ n ∈ (s.take m).taken
          rw [e4, e5]
          exact fun n hn => (h.kept n hn).imp id (fun hh => take_mem.2 (.inl hh))
        · cases hy
          refine ⟨?_, hF.free, ?_, ?_, ?_, ?_, hF.none, ?_⟩
          · show (s.take m).linked = true
            rw [e7]; exact hl
          · intro u
            have hc := hF.once u
            rw [hd] at hc
            show (r.map (·.1)).count u + (s.queue ++ [t]).count u + x.up.count u + x.free.count u ≤ 1
            simp only [List.map_cons, List.count_cons, List.count_append, List.count_nil] at hc ⊢
            omega
          · have ha := hF.all
            rw [hd] at ha
            show r.length + (s.queue ++ [t]).length + x.up.length + x.free.length = depth
            simp only [List.length_append, List.length_cons, List.length_nil] at ha ⊢
            omega
          · intro q hq
            exact hF.down q (by rw [hd]; exact List.mem_cons_of_mem _ hq)
          · intro u hu
            have hu : u ∈ s.queue ++ [t] ∨ u ∈ x.up := hu
            have old : ∀ u, u ∈ s.queue ∨ u ∈ x.up → ∃ n, x.tagMsg u = some n ∧ n ∈ (s.take m).taken := fun u hu => by
              obtain ⟨n, hn, hnt⟩ := hF.acks u hu
              exact ⟨n, hn, take_mem.2 (.inl hnt)⟩
            rcases hu with hu | hu
            · rcases List.mem_append.1 hu with hu | hu
              · exact old u (.inl hu)
              · rw [List.mem_singleton.1 hu]
                exact ⟨m, hF.down (t, m) (by rw [hd]; exact List.mem_cons_self), take_mem.2 (.inr rfl)⟩
            · exact old u (.inr hu)
          · intro n hn hna
            have hn : n ∈ (s.take m).store := hn
            rw [e5] at hn
            obtain ⟨u, hu, hun⟩ := hF.out n hn hna
            refine ⟨u, ?_, hun⟩
            rcases hu with hu | hu | hu
            · rw [hd] at hu
              rcases List.mem_cons.1 hu with rfl | hu
              · exact .inr (.inl (List.mem_append_right _ (List.mem_singleton.2 rfl)))
              · exact .inl hu
            · exact .inr (.inl (List.mem_append_left _ hu))
            · exact .inr (.inr hu)
      · cases hs
    · cases hs
  | killed =>
    simp only [step] at hs
    split at hs
    · rename_i x hl hx
      split at hs
      · rename_i t m r hd
        cases hs
        obtain ⟨e1, e2, e3, e4, e5, e6, e7, e8, e9, e10⟩ := take_fields s m
        refine ⟨?_, fun y hy => ?_⟩
        · show ∀ n ∈ (s.take m).arrived, n ∈ (s.take m).store ∨ n ∈ (s.take m).taken
          rw [e4, e5]
          exact fun n hn => (h.kept n hn).imp id (fun hh => take_mem.2 (.inl hh))
        · have hy : (s.take m).cut.sess = some y := hy
          simp only [State.cut, e6, hx] at hy
          rw [if_pos (h.fit x hx).free] at hy
          cases hy
      · cases hs
    · cases hs
  | write =>
    simp only [step] at hs
    split at hs
    · rename_i x t q hl hx hq
      have hF := h.fit x hx
      cases hs
      refine ⟨h.kept, fun y hy => ?_⟩
      cases hy
      refine ⟨hl, hF.free, ?_, ?_, hF.down, ?_, hF.none, ?_⟩
      · intro u
        have hc := hF.once u
        rw [hq] at hc
        show (x.down.map (·.1)).count u + q.count u + (x.up ++ [t]).count u + x.free.count u ≤ 1
        simp only [List.count_cons, List.count_append, List.count_nil] at hc ⊢
        omega
      · have ha := hF.all
        rw [hq] at ha
        show x.down.length + q.length + (x.up ++ [t]).length + x.free.length = depth
        simp only [List.length_append, List.length_cons, List.length_nil] at ha ⊢
        omega
      · intro u hu
        refine hF.acks u ?_
        rw [hq]
        rcases hu with hu | hu
        · exact .inl (List.mem_cons_of_mem _ hu)
        · rcases List.mem_append.1 hu with hu | hu
          · exact .inr hu
          · cases List.mem_singleton.1 hu; exact .inl List.mem_cons_self
      · intro n hn hna
        obtain ⟨u, hu, hun⟩ := hF.out n hn hna
        refine ⟨u, ?_, hun⟩
        rw [hq] at hu
        rcases hu with hu | hu | hu
        · exact .inl hu
        · rcases List.mem_cons.1 hu with rfl | hu
          · exact .inr (.inr (List.mem_append_right _ (List.mem_singleton.2 rfl)))
          · exact .inr (.inl hu)
        · exact .inr (.inr (List.mem_append_left _ hu))
    · cases hs
  | ack =>
    simp only [step] at hs
    split at hs
    · cases hs
    · rename_i x hx
      have hF := h.fit x hx
      split at hs
      · rename_i t r hb hu
        obtain ⟨m, hm, hmt⟩ := hF.acks t (.inr (by rw [hu]; exact List.mem_cons_self))
        have hall := hF.all
        rw [hu, List.length_cons] at hall
        have hlt : x.free.length < depth := by omega
        have hc := hF.once t
        rw [hu, List.count_cons_self] at hc
        have hd0 := List.count_eq_zero.1 (show (x.down.map (·.1)).count t = 0 by omega)
        have hq0 := List.count_eq_zero.1 (show s.queue.count t = 0 by omega)
        have hr0 := List.count_eq_zero.1 (show r.count t = 0 by omega)
        have hf0 := List.count_eq_zero.1 (show x.free.count t = 0 by omega)
        rw [hm] at hs
        simp only [if_pos hlt] at hs
        cases hs
        refine ⟨?_, fun y hy => ?_⟩
        · intro n hn
          rcases h.kept n hn with hh | hh
          · by_cases he : n = m
            · exact .inr (he ▸ hmt)
            · exact .inl (List.mem_filter.2 ⟨hh, by simpa using he⟩)
          · exact .inr hh
        · cases hy
          refine ⟨hF.linked, rfl, ?_, ?_, ?_, ?_, ?_, ?_⟩
          · intro u
            have hc := hF.once u
            rw [hu] at hc
            show (x.down.map (·.1)).count u + s.queue.count u + r.count u + (x.free ++ [t]).count u ≤ 1
            simp only [List.count_cons, List.count_append, List.count_nil] at hc ⊢
            omega
          · show x.down.length + s.queue.length + r.length + (x.free ++ [t]).length = depth
            simp only [List.length_append, List.length_cons, List.length_nil]
            omega
          · intro q hq
            show (if q.1 = t then none else x.tagMsg q.1) = some q.2
            rw [if_neg (fun he : q.1 = t => hd0 (he ▸ List.mem_map_of_mem hq))]
            exact hF.down q hq
          · intro u hux
            obtain ⟨n, hn, hnt⟩ := hF.acks u (hux.imp id (fun hh => by rw [hu]; exact List.mem_cons_of_mem _ hh))
            refine ⟨n, ?_, hnt⟩
            show (if u = t then none else x.tagMsg u) = some n
            rw [if_neg (fun he : u = t => hux.elim (fun hh => hq0 (he ▸ hh)) (fun hh => hr0 (he ▸ hh)))]
            exact hn
          · intro u hux
            show (if u = t then none else x.tagMsg u) = none
            split
            · rfl
            · rename_i hne
              rcases List.mem_append.1 hux with hh | hh
              · exact hF.none u hh
              · exact absurd (List.mem_singleton.1 hh) hne
          · intro n hn hna
            have hn := List.mem_filter.1 hn
            have hnm : n ≠ m := by simpa using hn.2
            obtain ⟨u, hux, hun⟩ := hF.out n hn.1 hna
            have hut : u ≠ t := fun he => by
              rw [he, hm] at hun; exact hnm (Option.some.inj hun).symm
            refine ⟨u, ?_, ?_⟩
            · rcases hux with hh | hh | hh
              · exact .inl hh
              · exact .inr (.inl hh)
              · rw [hu] at hh
                rcases List.mem_cons.1 hh with hh | hh
                · exact absurd hh hut
                · exact .inr (.inr hh)
            · show (if u = t then none else x.tagMsg u) = some n
              rw [if_neg hut]; exact hun
      · cases hs
  | restart =>
    cases hs
    exact ⟨h.kept, fun x hx => by cases hx⟩

theorem Reach.good {ok : State → Ev → Prop} (hok : ∀ s e, ok s e → Clean s e) {s : State} (h : Reach ok s) : Good s := by
  induction h with
  | start => exact ⟨(fun _ h => by cases h), fun _ h => by cases h⟩
  | step hr ho hs ih => exact good_step hr.inv ih (hok _ _ ho) hs

/-- C117.  If the recipient never connects with acknowledgements left over, everything the server has stored is still
stored or was decrypted, ... -/
theorem C117_kept_partial {s : State} (h : Reach Clean s) : ∀ m ∈ s.arrived, m ∈ s.store ∨ m ∈ s.taken :=
  (h.good (fun _ _ h => h)).kept

/-- ... and the recipient can always connect. -/
theorem C117_connects_partial {s : State} (h : Reach Clean s) (hl : s.linked = false) :
    ∃ s', step s .connect = some s' ∧ s'.linked = true := by
  have hn : s.sess = none := by
    cases hx : s.sess with
    | none => rfl
    | some x =>
      have := ((h.good (fun _ _ h => h)).fit x hx).linked
      rw [hl] at this; cases this
  exact ⟨{ s with sess := some Sess.new, linked := true }, by simp [step, hl, hn], rfl⟩

/-- What is still to be done with the messages that the server has stored. -/
def State.work (s : State) : Nat :=
  match s.sess with
  | none => 0
  | some x => 4 * (s.store.filter (fun m => decide (m ∉ x.ann))).length + 3 * x.down.length + 2 * s.queue.length +
      x.up.length

/-- The recipient and the server at work. -/
def Moves : List Ev := [.push, .recv, .write, .ack]

theorem find_none {l : List Nat} {p : Nat → Bool} (h : l.find? p = none) : l.filter p = [] := by
  rw [List.filter_eq_nil_iff]
  exact List.find?_eq_none.1 h

theorem moves_step {s : State} (hG : Good s) {x : Sess} (hx : s.sess = some x) (hst : s.store ≠ []) :
    ∃ e ∈ Moves, ∃ s', step s e = some s' ∧ s'.work < s.work ∧ s'.linked = true ∧ s'.arrived = s.arrived ∧
      s'.awire = s.awire ∧ s'.out = s.out ∧ s'.typed = s.typed ∧ (s.shown = s.taken → s'.shown = s'.taken) := by
  have hF := hG.fit x hx
  cases hd : x.down with
  | cons q r =>
    obtain ⟨t, m⟩ := q
    refine ⟨.recv, by simp [Moves], _, by simp only [step, hF.linked, hx, hd]; rfl, ?_, ?_⟩
    · obtain ⟨e1, e2, e3, e4, e5, e6, e7, e8, e9, e10⟩ := take_fields s m
      simp only [State.work, hx, hd, e5, List.length_cons, List.length_append, List.length_nil]
      omega
    · obtain ⟨e1, e2, e3, e4, e5, e6, e7, e8, e9, e10⟩ := take_fields s m
      refine ⟨by show (s.take m).linked = true; rw [e7]; exact hF.linked, e4, e3, e2, e1, fun he => ?_⟩
      show (if m ∈ s.taken then s.shown else s.shown ++ [m]) = (s.take m).taken
      unfold State.take
      split
      · exact he
      · rw [he]
  | nil =>
    cases hq : s.queue with
    | cons t q =>
      refine ⟨.write, by simp [Moves], _, by simp only [step, hF.linked, hx, hq]; rfl, ?_⟩
      refine ⟨?_, by first | rfl | exact hF.linked, rfl, rfl, rfl, rfl, id⟩
      simp only [State.work, hx, hd, hq, List.length_cons, List.length_append, List.length_nil]
      omega
    | nil =>
      cases hu : x.up with
      | cons t r =>
        obtain ⟨m, hm, _⟩ := hF.acks t (.inr (by rw [hu]; exact List.mem_cons_self))
        refine ⟨.ack, by simp [Moves], _, by simp only [step, hx, hF.free, hu, hm]; rfl, ?_⟩
        refine ⟨?_, by first | rfl | exact hF.linked, rfl, rfl, rfl, rfl, id⟩
        have hsub : ((s.store.filter (fun m' => decide (m' ≠ m))).filter (fun m => decide (m ∉ x.ann))).length ≤
            (s.store.filter (fun m => decide (m ∉ x.ann))).length :=
          List.Sublist.length_le (List.Sublist.filter _ List.filter_sublist)
        simp only [State.work, hx, hd, hq, hu, List.length_cons]
        omega
      | nil =>
        have hall := hF.all
        rw [hd, hq, hu] at hall
        cases hf : x.free with
        | nil => rw [hf] at hall; simp [depth] at hall
        | cons t f =>
          cases hfind : s.store.find? (fun m => decide (m ∉ x.ann)) with
          | none =>
            exfalso
            cases hs0 : s.store with
            | nil => exact hst hs0
            | cons m ms =>
              have hm : m ∈ s.store := by rw [hs0]; exact List.mem_cons_self
              have hma : m ∈ x.ann := by
                have := List.find?_eq_none.1 hfind m hm
                simpa using this
              obtain ⟨u, hux, _⟩ := hF.out m hm hma
              rw [hd, hq, hu] at hux
              rcases hux with hh | hh | hh <;> cases hh
          | some m =>
            have htm : x.tagMsg t = none := hF.none t (by rw [hf]; exact List.mem_cons_self)
            have hcond : ¬((x.tagMsg t).isSome = true ∨ s.linked = false) := by
              rw [htm, hF.linked]
              intro hh
              rcases hh with hh | hh <;> cases hh
            refine ⟨.push, by simp [Moves], _, by simp only [step, hx, hf, hfind, if_neg hcond]; rfl, ?_⟩
            refine ⟨?_, by first | rfl | exact hF.linked, rfl, rfl, rfl, rfl, id⟩
            have hm := List.mem_of_find?_eq_some hfind
            have hma : m ∉ x.ann := by simpa using List.find?_some hfind
            have hlen : (s.store.filter (fun n => decide (n ∉ x.ann ++ [m]))).length <
                (s.store.filter (fun n => decide (n ∉ x.ann))).length := by
              have he : s.store.filter (fun n => decide (n ∉ x.ann ++ [m])) =
                  (s.store.filter (fun n => decide (n ∉ x.ann))).filter (fun n => decide (n ≠ m)) := by
                rw [List.filter_filter]
                refine List.filter_congr (fun n _ => ?_)
                simp [and_comm]
              rw [he]
              refine List.length_filter_lt_length_iff_exists.2 ⟨m, List.mem_filter.2 ⟨hm, by simpa using hma⟩, by simp⟩
            simp only [State.work, hx, hd, hq, hu, List.length_cons, List.length_nil, List.nil_append]
            omega

/-- C117.  While the recipient is connected, and nothing else happens, everything that is stored for it is decrypted,
acknowledged, and deleted. -/
theorem C117_drains_partial {s : State} (h : Reach Clean s) (hl : s.linked = true) :
    ∃ es s', (∀ e ∈ es, e ∈ Moves) ∧ run s es = some s' ∧ s'.store = [] ∧ s'.arrived = s.arrived ∧
      (s.shown = s.taken → s'.shown = s'.taken) ∧ Reach Clean s' := by
  suffices hh : ∀ n (s : State), s.work ≤ n → Reach Clean s → s.linked = true →
      ∃ es s', (∀ e ∈ es, e ∈ Moves) ∧ run s es = some s' ∧ s'.store = [] ∧ s'.arrived = s.arrived ∧
        (s.shown = s.taken → s'.shown = s'.taken) ∧ Reach Clean s' from hh s.work s (Nat.le_refl _) h hl
  intro n
  induction n with
  | zero =>
    intro s hw h hl
    by_cases hst : s.store = []
    · exact ⟨[], s, (fun _ he => by cases he), rfl, hst, rfl, id, h⟩
    · cases hx : s.sess with
      | none => exact absurd hx (h.inv.link hl)
      | some x =>
        obtain ⟨e, he, s1, hs1, hlt, _⟩ := moves_step (h.good (fun _ _ h => h)) hx hst
        omega
  | succ n ih =>
    intro s hw h hl
    by_cases hst : s.store = []
    · exact ⟨[], s, (fun _ he => by cases he), rfl, hst, rfl, id, h⟩
    · cases hx : s.sess with
      | none => exact absurd hx (h.inv.link hl)
      | some x =>
        obtain ⟨e, he, s1, hs1, hlt, hl1, ha1, _, _, _, hsh⟩ := moves_step (h.good (fun _ _ h => h)) hx hst
        have hok : Clean s e := by
          intro hc
          subst hc
          simp [Moves] at he
        obtain ⟨es, s2, h1, h2, h3, h4, h5, h6⟩ := ih s1 (by omega) (h.step hok hs1) hl1
        refine ⟨e :: es, s2, ?_, ?_, h3, h4.trans ha1, fun hh => h5 (hsh hh), h6⟩
        · intro e' he'
          rcases List.mem_cons.1 he' with rfl | he'
          · exact he
          · exact h1 e' he'
        · simp only [run, hs1, Option.bind]; exact h2

/-- Nobody is killed or loses a connection with messages of the sender on it, the sender does not quit before all is
sent, and the recipient does not connect with acknowledgements left over. -/
def Careful (s : State) (e : Ev) : Prop :=
  Clean s e ∧ e ≠ .killed ∧ (e = .abreak → s.awire = []) ∧ (e = .restart → s.awire = []) ∧
    (e = .aquit → s.awire = [] ∧ s.out = [])

theorem careful_step {s s' : State} {e : Ev} (hok : Careful s e) (h : s.shown = s.taken ∧
    s.arrived ++ s.awire ++ s.out = List.range s.typed) (hs : step s e = some s') :
    s'.shown = s'.taken ∧ s'.arrived ++ s'.awire ++ s'.out = List.range s'.typed := by
  obtain ⟨_, hk, hb, hr, hq⟩ := hok
  obtain ⟨h1, h2⟩ := h
  cases e with
  | type =>
    cases hs
    refine ⟨h1, ?_⟩
    show s.arrived ++ s.awire ++ (s.out ++ [s.typed]) = List.range (s.typed + 1)
    rw [List.range_succ, ← h2]; simp
  | aconnect =>
    simp only [step] at hs
    split at hs <;> cases hs
    exact ⟨h1, h2⟩
  | abreak =>
    simp only [step] at hs
    split at hs <;> cases hs
    refine ⟨h1, ?_⟩
    rw [hb rfl] at h2; exact h2
  | aquit =>
    cases hs
    refine ⟨h1, ?_⟩
    rw [(hq rfl).1, (hq rfl).2] at h2; exact h2
  | asend =>
    simp only [step] at hs
    split at hs
    · rename_i m r _ ho
      cases hs
      refine ⟨h1, ?_⟩
      rw [ho] at h2
      rw [← h2]; simp
    · cases hs
  | arrive =>
    simp only [step] at hs
    split at hs
    · rename_i m r hw
      cases hs
      refine ⟨h1, ?_⟩
      rw [hw] at h2
      rw [← h2]; simp
    · cases hs
  | connect =>
    simp only [step] at hs
    split at hs
    · cases hs
    · split at hs <;> cases hs <;> exact ⟨h1, h2⟩
  | breaks =>
    simp only [step] at hs
    split at hs <;> cases hs
    exact ⟨h1, h2⟩
  | quit => cases hs; exact ⟨h1, h2⟩
  | push =>
    simp only [step] at hs
    split at hs
    · cases hs
    · split at hs
      · split at hs <;> cases hs <;> exact ⟨h1, h2⟩
      · cases hs
  | recv =>
    simp only [step] at hs
    split at hs
    · split at hs
      · rename_i t m r hd
        cases hs
        obtain ⟨e1, e2, e3, e4, e5, e6, e7, e8, e9, e10⟩ := take_fields s m
        refine ⟨?_, by show (s.take m).arrived ++ (s.take m).awire ++ (s.take m).out = List.range (s.take m).typed
                       rw [e1, e2, e3, e4]; exact h2⟩
        show (if m ∈ s.taken then s.shown else s.shown ++ [m]) = (s.take m).taken
        unfold State.take
        split
        · exact h1
        · rw [h1]
      · cases hs
    · cases hs
  | killed => exact absurd rfl hk
  | write =>
    simp only [step] at hs
    split at hs <;> cases hs
    exact ⟨h1, h2⟩
  | ack =>
    simp only [step] at hs
    split at hs
    · cases hs
    · split at hs <;> cases hs
      exact ⟨h1, h2⟩
  | restart =>
    cases hs
    refine ⟨h1, ?_⟩
    rw [hr rfl] at h2; exact h2

theorem Reach.careful {s : State} (h : Reach Careful s) :
    s.shown = s.taken ∧ s.arrived ++ s.awire ++ s.out = List.range s.typed := by
  induction h with
  | start => exact ⟨rfl, rfl⟩
  | step _ ho hs ih => exact careful_step ho ih hs

/-- Strictly increasing lists with the same members are the same. -/
theorem sorted_ext : ∀ {a b : List Nat}, Sorted a → Sorted b → (∀ x, x ∈ a ↔ x ∈ b) → a = b
  | [], [], _, _, _ => rfl
  | [], y :: _, _, _, h => by have := (h y).2 List.mem_cons_self; cases this
  | x :: _, [], _, _, h => by have := (h x).1 List.mem_cons_self; cases this
  | x :: a, y :: b, ha, hb, h => by
    have ha' := List.pairwise_cons.1 ha
    have hb' := List.pairwise_cons.1 hb
    have hxy : x = y := by
      rcases List.mem_cons.1 ((h x).1 List.mem_cons_self) with hh | hh
      · exact hh
      · rcases List.mem_cons.1 ((h y).2 List.mem_cons_self) with hh' | hh'
        · exact hh'.symm
        · have h1 := hb'.1 x hh
          have h2 := ha'.1 y hh'
          omega
    subst hxy
    rw [sorted_ext ha'.2 hb'.2]
    intro z
    constructor
    · intro hz
      rcases List.mem_cons.1 ((h z).1 (List.mem_cons_of_mem _ hz)) with hh | hh
      · have := ha'.1 z hz; omega
      · exact hh
    · intro hz
      rcases List.mem_cons.1 ((h z).2 (List.mem_cons_of_mem _ hz)) with hh | hh
      · have := hb'.1 z hz; omega
      · exact hh

/-- C117.  When all was sent and nothing is left on the server, the recipient has seen exactly what the sender wrote. -/
theorem C117_same_partial {s : State} (h : Reach Careful s) (ho : s.out = []) (hw : s.awire = []) (hst : s.store = []) :
    s.shown = List.range s.typed := by
  obtain ⟨h1, h2⟩ := h.careful
  have hG := h.good (fun _ _ h => h.1)
  obtain ⟨hs1, hs2⟩ := once_inv h.inv
  refine sorted_ext hs1 (List.pairwise_lt_range) (fun m => ⟨fun hm => List.mem_range.2 (hs2 m hm), fun hm => ?_⟩)
  rw [← h2, ho, hw, List.append_nil, List.append_nil] at hm
  rcases hG.kept m hm with hh | hh
  · rw [hst] at hh; cases hh
  · rw [h1]; exact hh

theorem run_append : ∀ (es es' : List Ev) (s s1 : State), run s es = some s1 → run s (es ++ es') = run s1 es'
  | [], es', s, s1, h => by cases h; rfl
  | e :: es, es', s, s1, h => by
    simp only [run, List.cons_append] at h ⊢
    cases hs : step s e with
    | none => rw [hs] at h; cases h
    | some s2 =>
      rw [hs] at h
      exact run_append es es' s2 s1 h

theorem send_all : ∀ (n : Nat) (s : State), s.out.length = n → s.alinked = true → Reach Careful s →
    ∃ es s', run s es = some s' ∧ Reach Careful s' ∧ s'.out = [] ∧ s'.typed = s.typed
  | 0, s, hn, _, h => ⟨[], s, rfl, h, List.length_eq_zero_iff.1 hn, rfl⟩
  | n + 1, s, hn, hl, h => by
    cases ho : s.out with
    | nil => rw [ho] at hn; cases hn
    | cons m r =>
      have hs : step s .asend = some { s with out := r, awire := s.awire ++ [m] } := by
        simp only [step, hl, ho]
      obtain ⟨es, s', h1, h2, h3, h4⟩ := send_all n { s with out := r, awire := s.awire ++ [m] }
        (by rw [ho] at hn; simpa using hn) hl
        (h.step ⟨(fun h => by cases h), (fun h => by cases h), (fun h => by cases h), (fun h => by cases h),
          (fun h => by cases h)⟩ hs)
      exact ⟨.asend :: es, s', by simp only [run, hs, Option.bind]; exact h1, h2, h3, h4⟩

theorem arrive_all : ∀ (n : Nat) (s : State), s.awire.length = n → s.out = [] → Reach Careful s →
    ∃ es s', run s es = some s' ∧ Reach Careful s' ∧ s'.out = [] ∧ s'.awire = [] ∧ s'.typed = s.typed
  | 0, s, hn, ho, h => ⟨[], s, rfl, h, ho, List.length_eq_zero_iff.1 hn, rfl⟩
  | n + 1, s, hn, ho, h => by
    cases hw : s.awire with
    | nil => rw [hw] at hn; cases hn
    | cons m r =>
      have hs : step s .arrive =
          some { s with awire := r, arrived := s.arrived ++ [m], store := s.store ++ [m] } := by
        simp only [step, hw]
      obtain ⟨es, s', h1, h2, h3, h4, h5⟩ := arrive_all n
        { s with awire := r, arrived := s.arrived ++ [m], store := s.store ++ [m] } (by rw [hw] at hn; simpa using hn) ho
        (h.step ⟨(fun h => by cases h), (fun h => by cases h), (fun h => by cases h), (fun h => by cases h),
          (fun h => by cases h)⟩ hs)
      exact ⟨.arrive :: es, s', by simp only [run, hs, Option.bind]; exact h1, h2, h3, h4, h5⟩

theorem reach_moves : ∀ (es : List Ev) (s s' : State), (∀ e ∈ es, e ∈ Moves) → run s es = some s' → Reach Careful s →
    Reach Careful s'
  | [], s, s', _, hr, h => by cases hr; exact h
  | e :: es, s, s', hm, hr, h => by
    simp only [run] at hr
    cases hs : step s e with
    | none => rw [hs] at hr; cases hr
    | some s1 =>
      rw [hs] at hr
      refine reach_moves es s1 s' (fun e he => hm e (List.mem_cons_of_mem _ he)) hr (h.step ?_ hs)
      have := hm e List.mem_cons_self
      simp only [Moves, List.mem_cons, List.not_mem_nil, or_false] at this
      rcases this with rfl | rfl | rfl | rfl <;>
        exact ⟨(fun h => by cases h), (fun h => by cases h), (fun h => by cases h), (fun h => by cases h),
          (fun h => by cases h)⟩

theorem moves_fields : ∀ (es : List Ev) (s s' : State), (∀ e ∈ es, e ∈ Moves) → run s es = some s' →
    s'.typed = s.typed ∧ s'.out = s.out ∧ s'.awire = s.awire
  | [], s, s', _, hr => by cases hr; exact ⟨rfl, rfl, rfl⟩
  | e :: es, s, s', hm, hr => by
    simp only [run] at hr
    cases hs : step s e with
    | none => rw [hs] at hr; cases hr
    | some s1 =>
      rw [hs] at hr
      obtain ⟨h1, h2, h3⟩ := moves_fields es s1 s' (fun e he => hm e (List.mem_cons_of_mem _ he)) hr
      have := hm e List.mem_cons_self
      suffices hh : s1.typed = s.typed ∧ s1.out = s.out ∧ s1.awire = s.awire from
        ⟨h1.trans hh.1, h2.trans hh.2.1, h3.trans hh.2.2⟩
      simp only [Moves, List.mem_cons, List.not_mem_nil, or_false] at this
      rcases this with rfl | rfl | rfl | rfl
      · simp only [step] at hs
        split at hs
        · cases hs
        · split at hs
          · split at hs <;> cases hs <;> exact ⟨rfl, rfl, rfl⟩
          · cases hs
      · simp only [step] at hs
        split at hs
        · split at hs
          · rename_i t m r hd
            cases hs
            obtain ⟨e1, e2, e3, _⟩ := take_fields s m
            exact ⟨e1, e2, e3⟩
          · cases hs
        · cases hs
      · simp only [step] at hs
        split at hs <;> cases hs
        exact ⟨rfl, rfl, rfl⟩
      · simp only [step] at hs
        split at hs
        · cases hs
        · split at hs <;> cases hs
          exact ⟨rfl, rfl, rfl⟩

/-- C117.  Whatever has happened, as long as it was careful: both can connect, and then the recipient sees all that was
written, in the order in which it was written. -/
theorem C117_seen_partial {s : State} (h : Reach Careful s) :
    ∃ es s', run s es = some s' ∧ s'.typed = s.typed ∧ s'.shown = List.range s.typed := by
  have other : ∀ (s : State) (e : Ev), e ≠ .killed → e ≠ .connect → e ≠ .abreak → e ≠ .restart → e ≠ .aquit → Careful s e :=
    fun s e h1 h2 h3 h4 h5 => ⟨fun h => absurd h h2, h1, fun h => absurd h h3, fun h => absurd h h4, fun h => absurd h h5⟩
  -- the sender connects
  obtain ⟨es1, s1, r1, c1, l1, t1⟩ : ∃ es s', run s es = some s' ∧ Reach Careful s' ∧ s'.alinked = true ∧
      s'.typed = s.typed := by
    cases hl : s.alinked with
    | true => exact ⟨[], s, rfl, h, hl, rfl⟩
    | false =>
      have hs : step s .aconnect = some { s with alinked := true } := by simp [step, hl]
      exact ⟨[.aconnect], _, by simp only [run, hs, Option.bind], h.step (other _ _ (by decide) (by decide) (by decide)
        (by decide) (by decide)) hs, rfl, rfl⟩
  obtain ⟨es2, s2, r2, c2, o2, t2⟩ := send_all _ s1 rfl l1 c1
  obtain ⟨es3, s3, r3, c3, o3, w3, t3⟩ := arrive_all _ s2 rfl o2 c2
  -- the recipient connects
  obtain ⟨es4, s4, r4, c4, l4, o4, w4, t4⟩ : ∃ es s', run s3 es = some s' ∧ Reach Careful s' ∧ s'.linked = true ∧
      s'.out = [] ∧ s'.awire = [] ∧ s'.typed = s3.typed := by
    cases hl : s3.linked with
    | true => exact ⟨[], s3, rfl, c3, hl, o3, w3, rfl⟩
    | false =>
      have hG := c3.good (fun _ _ h => h.1)
      have hs : step s3 .quit = some { s3.cut with queue := [] } := rfl
      have cq := c3.step (other s3 .quit (by decide) (by decide) (by decide) (by decide) (by decide)) hs
      have hs' : step { s3.cut with queue := [] } .connect =
          some { { s3.cut with queue := [] } with sess := some Sess.new, linked := true } := by
        have hc := good_cut hG
        have hl' : s3.cut.linked = false := rfl
        simp only [step, hl', hc, Bool.false_eq_true, if_false]
      refine ⟨[.quit, .connect], _, by simp only [run, hs, hs', Option.bind],
        cq.step ⟨(fun _ => rfl), (by decide), (fun h => by cases h), (fun h => by cases h), (fun h => by cases h)⟩ hs',
        rfl, o3, w3, rfl⟩
  obtain ⟨es5, s5, m5, r5, st5, _, _, _⟩ := C117_drains_partial (Reach.mono (fun _ _ h => h.1) c4) l4
  obtain ⟨f1, f2, f3⟩ := moves_fields es5 s4 s5 m5 r5
  have c5 := reach_moves es5 s4 s5 m5 r5 c4
  have ht : s5.typed = s.typed := by rw [f1, t4, t3, t2, t1]
  refine ⟨es1 ++ (es2 ++ (es3 ++ (es4 ++ es5))), s5, ?_, ht, ?_⟩
  · rw [run_append _ _ _ _ r1, run_append _ _ _ _ r2, run_append _ _ _ _ r3, run_append _ _ _ _ r4]
    exact r5
  · rw [← ht]
    exact C117_same_partial c5 (f2.trans o4) (f3.trans w4) st5

/-! ## What is lost -/

/-- The message is nowhere, or the ratchet refuses it. -/
def Lost (m : Nat) (s : State) : Prop :=
  m ∉ s.shown ∧ (m ∈ s.taken ∨
    m < s.typed ∧ m ∉ s.out ∧ m ∉ s.awire ∧ m ∉ s.store ∧ ∀ x, s.sess = some x → ∀ q ∈ x.down, q.2 ≠ m)

theorem cut_down {s : State} {x : Sess} (h : s.cut.sess = some x) : x.down = [] := by
  simp only [State.cut] at h
  split at h
  · cases h
  · split at h <;> cases h
    rfl

theorem lost_step {m : Nat} {s s' : State} {e : Ev} (h : Lost m s) (hs : step s e = some s') : Lost m s' := by
  obtain ⟨hn, h⟩ := h
  cases e with
  | type =>
    cases hs
    refine ⟨hn, h.imp id (fun ⟨h1, h2, h3, h4, h5⟩ => ⟨Nat.lt_succ_of_lt h1, ?_, h3, h4, h5⟩)⟩
    intro hh
    rcases List.mem_append.1 hh with hh | hh
    · exact h2 hh
    · have := List.mem_singleton.1 hh; omega
  | aconnect =>
    simp only [step] at hs
    split at hs <;> cases hs
    exact ⟨hn, h⟩
  | abreak =>
    simp only [step] at hs
    split at hs <;> cases hs
    exact ⟨hn, h.imp id (fun ⟨h1, h2, _, h4, h5⟩ => ⟨h1, h2, (fun h => by cases h), h4, h5⟩)⟩
  | aquit =>
    cases hs
    exact ⟨hn, h.imp id (fun ⟨h1, _, _, h4, h5⟩ => ⟨h1, (fun h => by cases h), (fun h => by cases h), h4, h5⟩)⟩
  | asend =>
    simp only [step] at hs
    split at hs
    · rename_i k r _ ho
      cases hs
      refine ⟨hn, h.imp id (fun ⟨h1, h2, h3, h4, h5⟩ => ?_)⟩
      rw [ho] at h2
      refine ⟨h1, fun hh => h2 (List.mem_cons_of_mem _ hh), fun hh => ?_, h4, h5⟩
      rcases List.mem_append.1 hh with hh | hh
      · exact h3 hh
      · exact h2 (List.mem_singleton.1 hh ▸ List.mem_cons_self)
    · cases hs
  | arrive =>
    simp only [step] at hs
    split at hs
    · rename_i k r hw
      cases hs
      refine ⟨hn, h.imp id (fun ⟨h1, h2, h3, h4, h5⟩ => ?_)⟩
      rw [hw] at h3
      refine ⟨h1, h2, fun hh => h3 (List.mem_cons_of_mem _ hh), fun hh => ?_, h5⟩
      rcases List.mem_append.1 hh with hh | hh
      · exact h4 hh
      · exact h3 (List.mem_singleton.1 hh ▸ List.mem_cons_self)
    · cases hs
  | connect =>
    simp only [step] at hs
    split at hs
    · cases hs
    · split at hs
      · cases hs
        exact ⟨hn, h.imp id (fun ⟨h1, h2, h3, h4, _⟩ => ⟨h1, h2, h3, h4, fun x hx q hq => by cases hx; cases hq⟩)⟩
      · cases hs; exact ⟨hn, h⟩
  | breaks =>
    simp only [step] at hs
    split at hs <;> cases hs
    exact ⟨hn, h.imp id (fun ⟨h1, h2, h3, h4, _⟩ => ⟨h1, h2, h3, h4, fun x hx q hq => by
      rw [cut_down hx] at hq; cases hq⟩)⟩
  | quit =>
    cases hs
    exact ⟨hn, h.imp id (fun ⟨h1, h2, h3, h4, _⟩ => ⟨h1, h2, h3, h4, fun x hx q hq => by
      rw [cut_down (s := s) hx] at hq; cases hq⟩)⟩
  | push =>
    simp only [step] at hs
    split at hs
    · cases hs
    · rename_i x hx
      split at hs
      · rename_i t f k hfree hfind
        split at hs
        · cases hs
          exact ⟨hn, h.imp id (fun ⟨h1, h2, h3, h4, _⟩ => ⟨h1, h2, h3, h4, fun x hx => by cases hx⟩)⟩
        · cases hs
          refine ⟨hn, h.imp id (fun ⟨h1, h2, h3, h4, h5⟩ => ⟨h1, h2, h3, h4, fun y hy q hq => ?_⟩)⟩
          cases hy
          rcases List.mem_append.1 hq with hq | hq
          · exact h5 x hx q hq
          · cases List.mem_singleton.1 hq
            exact fun he => h4 (he ▸ List.mem_of_find?_eq_some hfind)
      · cases hs
  | recv =>
    simp only [step] at hs
    split at hs
    · rename_i x hl hx
      split at hs
      · rename_i t k r hd
        cases hs
        obtain ⟨e1, e2, e3, e4, e5, e6, e7, e8, e9, e10⟩ := take_fields s k
        have hne : k ∉ s.taken → k ≠ m := by
          intro hk he
          rcases h with h | ⟨_, _, _, _, h5⟩
          · exact hk (he ▸ h)
          · exact h5 x hx (t, k) (by rw [hd]; exact List.mem_cons_self) he
        refine ⟨?_, ?_⟩
        · show m ∉ (if k ∈ s.taken then s.shown else s.shown ++ [k])
          split
          · exact hn
          · rename_i hk
            intro hh
            rcases List.mem_append.1 hh with hh | hh
            · exact hn hh
            · exact hne hk (List.mem_singleton.1 hh).symm
        · show m ∈ (s.take k).taken ∨ (m < (s.take k).typed ∧ m ∉ (s.take k).out ∧ m ∉ (s.take k).awire ∧
            m ∉ (s.take k).store ∧ ∀ y, some { x with down := r } = some y → ∀ q ∈ y.down, q.2 ≠ m)
          rw [e1, e2, e3, e5]
          refine h.imp (fun h => take_mem.2 (.inl h)) (fun ⟨h1, h2, h3, h4, h5⟩ => ⟨h1, h2, h3, h4, fun y hy q hq => ?_⟩)
          cases hy
          exact h5 x hx q (by rw [hd]; exact List.mem_cons_of_mem _ hq)
      · cases hs
    · cases hs
  | killed =>
    simp only [step] at hs
    split at hs
    · rename_i x hl hx
      split at hs
      · rename_i t k r hd
        cases hs
        obtain ⟨e1, e2, e3, e4, e5, e6, e7, e8, e9, e10⟩ := take_fields s k
        refine ⟨?_, ?_⟩
        · show m ∉ (s.take k).shown
          unfold State.take
          split <;> exact hn
        · show m ∈ (s.take k).taken ∨ (m < (s.take k).typed ∧ m ∉ (s.take k).out ∧ m ∉ (s.take k).awire ∧
            m ∉ (s.take k).store ∧ ∀ y, (s.take k).cut.sess = some y → ∀ q ∈ y.down, q.2 ≠ m)
          rw [e1, e2, e3, e5]
          refine h.imp (fun h => take_mem.2 (.inl h)) (fun ⟨h1, h2, h3, h4, _⟩ => ⟨h1, h2, h3, h4, fun y hy q hq => ?_⟩)
          rw [cut_down hy] at hq; cases hq
      · cases hs
    · cases hs
  | write =>
    simp only [step] at hs
    split at hs
    · rename_i x t q hl hx hq
      cases hs
      refine ⟨hn, h.imp id (fun ⟨h1, h2, h3, h4, h5⟩ => ⟨h1, h2, h3, h4, fun y hy p hp => ?_⟩)⟩
      cases hy
      exact h5 x hx p hp
    · cases hs
  | ack =>
    simp only [step] at hs
    split at hs
    · cases hs
    · rename_i x hx
      split at hs
      · cases hs
        refine ⟨hn, h.imp id (fun ⟨h1, h2, h3, h4, h5⟩ => ⟨h1, h2, h3, ?_, fun y hy p hp => ?_⟩)⟩
        · intro hh
          dsimp only at hh
          split at hh
          · exact h4 (List.mem_filter.1 hh).1
          · exact h4 hh
        · cases hy
          exact h5 x hx p hp
      · cases hs
  | restart =>
    cases hs
    exact ⟨hn, h.imp id (fun ⟨h1, h2, _, h4, _⟩ => ⟨h1, h2, (fun h => by cases h), h4, fun x hx => by cases hx⟩)⟩

theorem lost_run {m : Nat} : ∀ (es : List Ev) (s s' : State), Lost m s → run s es = some s' → m ∉ s'.shown
  | [], s, s', h, hr => by cases hr; exact h.1
  | e :: es, s, s', h, hr => by
    simp only [run] at hr
    cases hs : step s e with
    | none => rw [hs] at hr; cases hr
    | some s1 => rw [hs] at hr; exact lost_run es s1 s' (lost_step h hs) hr

/-- The sender writes a message and it arrives. -/
def one : List Ev := [.type, .asend, .arrive]

/-- A left-over acknowledgement deletes another message. -/
def stale : List Ev :=
  [.aconnect] ++ one ++ one ++ one ++
  [.connect, .push, .push, .recv, .write, .ack, .recv, .breaks, .connect, .push, .push, .write, .ack, .breaks]

def testLost (m : Nat) (s : State) : Bool :=
  decide (m ∉ s.shown) && (decide (m ∈ s.taken) || (decide (m < s.typed) && decide (m ∉ s.out) && decide (m ∉ s.awire) &&
    decide (m ∉ s.store) && s.sess.all (fun x => x.down.all (fun q => q.2 != m))))

theorem lost_of_test {m : Nat} {s : State} (h : testLost m s = true) : Lost m s := by
  simp only [testLost, Bool.and_eq_true, Bool.or_eq_true, decide_eq_true_eq] at h
  refine ⟨h.1, h.2.imp id (fun ⟨⟨⟨⟨h1, h2⟩, h3⟩, h4⟩, h5⟩ => ⟨h1, h2, h3, h4, fun x hx q hq => ?_⟩)⟩
  rw [hx] at h5
  simp only [Option.all_some, List.all_eq_true] at h5
  simpa using h5 q hq

/-- All stored messages are still there or were decrypted: not so. -/
theorem C117_lost_violated : ∃ s, run start stale = some s ∧ 2 ∈ s.arrived ∧
    ∀ es s', run s es = some s' → 2 ∉ s'.shown :=
  ⟨(run start stale).get (by decide), by simp, by decide, fun es s' h => lost_run es _ s' (lost_of_test (by decide)) h⟩

/-- Killed between saving the ratchet and showing the message. -/
theorem C117_killed_violated : ∃ s, run start ([.aconnect] ++ one ++ [.connect, .push, .killed]) = some s ∧ 0 ∈ s.arrived ∧
    0 ∈ s.store ∧ ∀ es s', run s es = some s' → 0 ∉ s'.shown :=
  ⟨(run start ([.aconnect] ++ one ++ [.connect, .push, .killed])).get (by decide), by simp, by decide, by decide,
    fun es s' h => lost_run es _ s' (lost_of_test (by decide)) h⟩

/-- The connection of the sender breaks with a message on it. -/
theorem C117_sent_violated : ∃ s, run start [.type, .aconnect, .asend, .abreak] = some s ∧ s.typed = 1 ∧
    ∀ es s', run s es = some s' → 0 ∉ s'.shown :=
  ⟨(run start [.type, .aconnect, .asend, .abreak]).get (by decide), by simp, by decide,
    fun es s' h => lost_run es _ s' (lost_of_test (by decide)) h⟩

/-- The sender quits before the message is sent. -/
theorem C117_quit_violated : ∃ s, run start [.type, .aquit] = some s ∧ s.typed = 1 ∧
    ∀ es s', run s es = some s' → 0 ∉ s'.shown :=
  ⟨(run start [.type, .aquit]).get (by decide), by simp, by decide,
    fun es s' h => lost_run es _ s' (lost_of_test (by decide)) h⟩

/-! ## Who is locked out -/

/-- The connection is gone, the reader waits, and there is nothing to announce. -/
def Stuck (s : State) : Prop :=
  s.linked = false ∧ ∃ x, s.sess = some x ∧ x.blocked ≠ none ∧ s.store.find? (fun m => decide (m ∉ x.ann)) = none

theorem stuck_step {s s' : State} {e : Ev} (h : Stuck s) (ha : e ≠ .arrive) (hr : e ≠ .restart) (hs : step s e = some s') :
    Stuck s' := by
  obtain ⟨hl, x, hx, hb, hf⟩ := h
  cases e with
  | type => cases hs; exact ⟨hl, x, hx, hb, hf⟩
  | aconnect =>
    simp only [step] at hs
    split at hs <;> cases hs
    exact ⟨hl, x, hx, hb, hf⟩
  | abreak =>
    simp only [step] at hs
    split at hs <;> cases hs
    exact ⟨hl, x, hx, hb, hf⟩
  | aquit => cases hs; exact ⟨hl, x, hx, hb, hf⟩
  | asend =>
    simp only [step] at hs
    split at hs <;> cases hs
    exact ⟨hl, x, hx, hb, hf⟩
  | arrive => exact absurd rfl ha
  | connect =>
    simp only [step, hl, hx] at hs
    cases hs
    exact ⟨hl, x, hx, hb, hf⟩
  | breaks => simp only [step, hl] at hs; cases hs
  | quit =>
    cases hs
    refine ⟨rfl, { x with down := [], up := [] }, ?_, hb, hf⟩
    show s.cut.sess = _
    simp only [State.cut, hx, if_neg hb]
  | push =>
    simp only [step, hx, hf] at hs
    split at hs
    · rename_i hh; cases hh
    · cases hs
  | recv => simp only [step, hl] at hs; cases hs
  | killed => simp only [step, hl] at hs; cases hs
  | write => simp only [step, hl] at hs; cases hs
  | ack =>
    simp only [step, hx] at hs
    split at hs
    · rename_i hn _; exact absurd hn hb
    · cases hs
  | restart => exact absurd rfl hr

theorem stuck_run : ∀ (es : List Ev) (s s' : State), Stuck s → Ev.arrive ∉ es → Ev.restart ∉ es → run s es = some s' →
    s'.linked = false
  | [], s, s', h, _, _, hr => by cases hr; exact h.1
  | e :: es, s, s', h, ha, hq, hr => by
    simp only [run] at hr
    cases hs : step s e with
    | none => rw [hs] at hr; cases hr
    | some s1 =>
      rw [hs] at hr
      exact stuck_run es s1 s' (stuck_step h (fun he => ha (he ▸ List.mem_cons_self)) (fun he => hq (he ▸ List.mem_cons_self))
        hs) (fun hh => ha (List.mem_cons_of_mem _ hh)) (fun hh => hq (List.mem_cons_of_mem _ hh)) hr

/-- The connection breaks before the acknowledgement is written.  On the next one the message comes again, and there are
two acknowledgements for it. -/
def twice : List Ev :=
  [.aconnect] ++ one ++ [.connect, .push, .recv, .breaks, .connect, .push, .write, .ack, .recv, .write, .ack, .breaks]

/-- The recipient can always connect: not so.  Until another message is stored for them or the server is restarted, they
cannot, however often they try. -/
theorem C117_lockedout_violated : ∃ s, run start twice = some s ∧
    ∀ es s', Ev.arrive ∉ es → Ev.restart ∉ es → run s es = some s' → s'.linked = false :=
  ⟨(run start twice).get (by decide), by simp, fun es s' ha hr h =>
    stuck_run es _ s' ⟨by decide, ((run start twice).get (by decide)).sess.get (by decide), by simp, by decide, by decide⟩
      ha hr h⟩

/-! ## Examples -/

/-- Not `Clean`: the second connection begins with an acknowledgement left over. -/
example : ((run start ([.aconnect] ++ one ++ [.connect, .push, .recv, .breaks])).map (·.queue)) = some [0] := by decide

/-- Two messages over three connections: the second connection of the recipient comes after they quit, and brings the
first message again, which is not shown again. -/
def good : List Ev :=
  [.aconnect] ++ one ++ [.connect, .push, .recv, .quit] ++ one ++
  [.connect, .push, .recv, .write, .ack, .breaks, .connect, .push, .recv, .write, .ack]

example : ((run start good).map fun s => (s.shown, s.store, s.arrived)) = some ([0, 1], [], [0, 1]) := by decide

/-- As `Careful`, but to be computed. -/
def carefulB (s : State) (e : Ev) : Bool :=
  (e != .connect || s.queue == []) && e != .killed && (e != .abreak || s.awire == []) && (e != .restart || s.awire == []) &&
    (e != .aquit || s.awire == [] && s.out == [])

theorem careful_of {s : State} {e : Ev} (h : carefulB s e = true) : Careful s e := by
  cases e <;> simp [carefulB] at h <;> simp [Careful, Clean, h]

def runB : State → List Ev → Option State
  | s, [] => some s
  | s, e :: es => if carefulB s e then (step s e).bind fun s' => runB s' es else none

theorem reach_runB : ∀ (es : List Ev) (s s' : State), Reach Careful s → runB s es = some s' → Reach Careful s'
  | [], s, s', h, hr => by cases hr; exact h
  | e :: es, s, s', h, hr => by
    simp only [runB] at hr
    split at hr
    · rename_i hc
      cases hs : step s e with
      | none => rw [hs] at hr; cases hr
      | some s1 => rw [hs] at hr; exact reach_runB es s1 s' (h.step (careful_of hc) hs) hr
    · cases hr

example : ∃ s, Reach Careful s ∧ s.out = [] ∧ s.awire = [] ∧ s.store = [] ∧ s.shown = [0, 1] :=
  ⟨(runB start good).get (by decide), reach_runB good start _ .start (by simp), by decide, by decide, by decide, by decide⟩

/-- Reached with care: one message waits in the queue of the sender, one was announced, and one is stored. -/
example : ∃ s, Reach Careful s ∧ s.out = [2] ∧ s.store = [0, 1] ∧ s.linked = true ∧ s.shown = [] :=
  ⟨(runB start ([.aconnect] ++ one ++ one ++ [.connect, .push, .type])).get (by decide),
    reach_runB ([.aconnect] ++ one ++ one ++ [.connect, .push, .type]) start _ .start (by simp),
    by decide, by decide, by decide, by decide⟩

end Verif.EndToEnd
