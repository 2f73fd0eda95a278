import Verif.Model.Lookup
import Mathlib.Data.List.Nodup
import Mathlib.Data.List.Basic

/-! # C111: a name that is looked up is asked for once, and its answer is acted on

The spec is in terms of the events: what an honest server answers, which names the user or an invitation named, and
when the connection was lost with a lookup unanswered. -/

namespace Verif.Lookup

/-- An honest server answers what it was asked in this session, with an identity that carries that name. -/
def honest (s : State) : Ev → Prop
  | .reply n a => n ∈ s.sent ∧ ∀ i, a = some i → i.nick = n
  | _ => True

/-- All answers of a run are those of an honest server. -/
def Honest : State → List Ev → Prop
  | _, [] => True
  | s, e :: es => honest s e ∧ ∀ s', step s e = some s' → Honest s' es

/-- The names that an event names. -/
def names : Ev → List Bytes
  | .find n _ => [n]
  | .talk n _ => [n]
  | .invited ms => ms.map (·.1)
  | _ => []

/-- The names that the user named. -/
def typed : Ev → List Bytes
  | .find n _ => [n]
  | .talk n _ => [n]
  | _ => []

theorem run_append {s : State} {a b : List Ev} :
    run s (a ++ b) = (run s a).bind fun s' => run s' b := by
  induction a generalizing s with
  | nil => rfl
  | cons e a ih =>
    simp only [List.cons_append, run]
    cases step s e with
    | none => rfl
    | some t => simp [ih]

/-! ## What `find` changes -/

theorem find_some {s s' : State} {n : Bytes} {t : Bool} (h : find s n t = some s') :
    s.online = true ∧ s.directory = true ∧ n ≠ [] ∧ n ≠ s.me ∧ n ∉ s.book ∧ n ∉ s.pending ∧ t = true ∧
    s' = { s with queue := s.queue ++ [n], pending := n :: s.pending } := by
  unfold find at h
  by_cases h1 : s.online <;> by_cases h2 : s.directory <;> by_cases h3 : n = [] <;> by_cases h4 : n = s.me <;>
    by_cases h5 : n ∈ s.book <;> by_cases h6 : n ∈ s.pending <;> by_cases h7 : t <;>
    simp_all

theorem find_none {s : State} {n : Bytes} {t : Bool} (h : find s n t = none) :
    ¬ (s.online = true ∧ s.directory = true ∧ n ≠ [] ∧ n ≠ s.me ∧ n ∉ s.book ∧ n ∉ s.pending ∧ t = true) := by
  rintro ⟨h1, h2, h3, h4, h5, h6, h7⟩
  simp [find, h1, h2, h3, h4, h5, h6, h7] at h

/-- A property that `find` keeps is kept by the three that call it. -/
theorem callers {P : State → Prop} (hf : ∀ s n t s', P s → find s n t = some s' → P s')
    (ht : ∀ s x, P s → P { s with told := x :: s.told }) (s : State) (hs : P s) :
    (∀ n t, P (cmdFind s n t)) ∧ (∀ n t, P (cmdTalk s n t)) ∧ ∀ ms, P (invited s ms) := by
  refine ⟨fun n t => ?_, fun n t => ?_, fun ms => ?_⟩
  · unfold cmdFind
    split
    · exact hf _ _ _ _ hs ‹_›
    · exact ht _ _ hs
  · unfold cmdTalk
    split
    · exact ht _ _ hs
    · split
      · exact hs
      · split
        · split
          · exact ht _ _ (hf _ _ _ _ hs ‹_›)
          · exact ht _ _ hs
        · exact ht _ _ hs
  · induction ms generalizing s with
    | nil => exact hs
    | cons m ms ih =>
      obtain ⟨n, t⟩ := m
      unfold invited
      split
      · exact ih s hs
      · apply ih
        cases hx : find s n t with
        | none => exact hs
        | some s' => exact hf _ _ _ _ hs hx

/-! ## At most one lookup of a name -/

/-- The lookups on their way are of different names, and each is awaited. -/
def Once (s : State) : Prop :=
  (s.queue ++ s.sent).Nodup ∧ ∀ n ∈ s.queue ++ s.sent, n ∈ s.pending ∧ n ≠ []

theorem once_find (s : State) (n : Bytes) (t : Bool) (s' : State) (hs : Once s) (h : find s n t = some s') :
    Once s' := by
  obtain ⟨-, -, h3, -, -, h6, -, rfl⟩ := find_some h
  obtain ⟨a, b⟩ := hs
  have hn : n ∉ s.queue ++ s.sent := fun hm => h6 (b n hm).1
  refine ⟨?_, ?_⟩
  · have : (s.queue ++ [n] ++ s.sent).Perm (n :: (s.queue ++ s.sent)) := by
      simp only [List.append_assoc, List.cons_append, List.nil_append]
      exact List.perm_middle
    exact this.nodup_iff.mpr (List.nodup_cons.mpr ⟨hn, a⟩)
  · intro m hm
    simp only [List.mem_append, List.mem_cons, List.not_mem_nil, or_false] at hm ⊢
    by_cases hmn : m = n
    · exact ⟨.inl hmn, hmn ▸ h3⟩
    · have := b m (by simp only [List.mem_append]; tauto)
      exact ⟨.inr this.1, this.2⟩

theorem once_step {s s' : State} {e : Ev} (hs : Once s) (hh : honest s e) (h : step s e = some s') : Once s' := by
  obtain ⟨c1, c2, c3⟩ := callers once_find (fun s x hs => hs) s hs
  cases e <;> simp only [step] at h
  case find n t => cases h; exact c1 n t
  case talk n t => cases h; exact c2 n t
  case invited ms => split at h <;> cases h; exact c3 ms
  case write =>
    split at h <;> try cases h
    split at h <;> cases h
    rename_i n q hq
    obtain ⟨a, b⟩ := hs
    rw [hq] at a b
    have hp : (q ++ (s.sent ++ [n])).Perm (n :: q ++ s.sent) := by
      rw [← List.append_assoc]
      exact List.perm_append_singleton n (q ++ s.sent)
    exact ⟨hp.nodup_iff.mpr a, fun m hm => b m (hp.mem_iff.mp hm)⟩
  case reply n a =>
    split at h <;> cases h
    obtain ⟨hn, -⟩ := hh
    obtain ⟨u, v⟩ := hs
    have hne : n ≠ [] := (v n (by simp [hn])).2
    obtain ⟨uq, us, ud⟩ := List.nodup_append.mp u
    have key : Once { s with sent := s.sent.erase n, pending := s.pending.filter (· ≠ n) } := by
      refine ⟨List.nodup_append.mpr ⟨uq, us.erase n, fun x hx y hy => ud x hx y (List.mem_of_mem_erase hy)⟩, ?_⟩
      intro m hm
      have hmn : m ≠ n := by
        rintro rfl
        rcases List.mem_append.mp hm with hm | hm
        · exact ud m hm m hn rfl
        · exact us.not_mem_erase hm
      have hm' : m ∈ s.queue ++ s.sent := by
        rcases List.mem_append.mp hm with hm | hm
        · exact List.mem_append_left _ hm
        · exact List.mem_append_right _ (List.mem_of_mem_erase hm)
      exact ⟨List.mem_filter.mpr ⟨(v m hm').1, by simp [hmn]⟩, (v m hm').2⟩
    cases a <;> simpa [reply, hne, Once] using key
  case lose =>
    split at h <;> cases h
    obtain ⟨u, v⟩ := hs
    refine ⟨?_, fun m hm => v m ?_⟩
    · simpa using (List.nodup_append.mp u).1
    · simp only [List.append_nil] at hm
      exact List.mem_append_left _ hm
  case connect d => split at h <;> cases h; exact hs
  case learn n => cases h; exact hs
  case forget n => cases h; exact hs
  case restart => cases h; exact ⟨by simp, by simp⟩

theorem once_run {s s' : State} {es : List Ev} (hs : Once s) (hh : Honest s es) (h : run s es = some s') :
    Once s' := by
  induction es generalizing s with
  | nil => cases h; exact hs
  | cons e es ih =>
    simp only [run, Option.bind_eq_some_iff] at h
    obtain ⟨t, ht, h⟩ := h
    exact ih (once_step hs hh.1 ht) (hh.2 t ht) h

theorem once_init (me : Bytes) (book : List Bytes) : Once (init me book) := ⟨by simp [init], by simp [init]⟩

/-- With a server that answers what it is asked, at most one lookup of a name is on its way, whatever the user, the
contacts and the connection do. -/
theorem C111_once {me : Bytes} {book : List Bytes} {es : List Ev} {s : State}
    (hh : Honest (init me book) es) (h : run (init me book) es = some s) :
    ∀ n, s.queue.count n + s.sent.count n ≤ 1 := by
  intro n
  have := (once_run (once_init me book) hh h).1
  rw [← List.count_append]
  exact List.nodup_iff_count_le_one.mp this n

/-! ## What is awaited -/

/-- The connection is lost with the lookup of `n` written and unanswered. -/
def loses (n : Bytes) (s : State) (e : Ev) : Prop := e = .lose ∧ n ∈ s.sent

/-- It never happens in the run. -/
def NeverLost (n : Bytes) : State → List Ev → Prop
  | _, [] => True
  | s, e :: es => ¬ loses n s e ∧ ∀ s', step s e = some s' → NeverLost n s' es

def Awaited (n : Bytes) (s : State) : Prop := n ∈ s.pending → n ∈ s.queue ∨ n ∈ s.sent

theorem awaited_find (n : Bytes) (s : State) (m : Bytes) (t : Bool) (s' : State) (hs : Awaited n s)
    (h : find s m t = some s') : Awaited n s' := by
  obtain ⟨-, -, -, -, -, -, -, rfl⟩ := find_some h
  intro hp
  rcases List.mem_cons.mp hp with rfl | hp
  · exact .inl (by simp)
  · rcases hs hp with h | h
    · exact .inl (by simp [h])
    · exact .inr h

theorem awaited_step {n : Bytes} {s s' : State} {e : Ev} (ho : Once s) (hs : Awaited n s) (hh : honest s e)
    (hl : ¬ loses n s e) (h : step s e = some s') : Awaited n s' := by
  obtain ⟨c1, c2, c3⟩ := callers (awaited_find n) (fun s x hs => hs) s hs
  cases e <;> simp only [step] at h
  case find n t => cases h; exact c1 n t
  case talk n t => cases h; exact c2 n t
  case invited ms => split at h <;> cases h; exact c3 ms
  case write =>
    split at h <;> try cases h
    split at h <;> cases h
    rename_i m q hq
    intro hp
    rcases hs hp with h | h
    · rw [hq] at h
      rcases List.mem_cons.mp h with rfl | h
      · exact .inr (by simp)
      · exact .inl h
    · exact .inr (by simp [h])
  case reply m a =>
    split at h <;> cases h
    have hne : m ≠ [] := (ho.2 m (by simp [hh.1])).2
    have key : Awaited n { s with sent := s.sent.erase m, pending := s.pending.filter (· ≠ m) } := by
      intro hp
      obtain ⟨hp, hnm⟩ := List.mem_filter.mp hp
      have hnm : n ≠ m := by simpa using hnm
      rcases hs hp with h | h
      · exact .inl h
      · exact .inr ((List.mem_erase_of_ne hnm).mpr h)
    cases a <;> simpa [reply, hne, Awaited] using key
  case lose =>
    split at h <;> cases h
    intro hp
    rcases hs hp with h | h
    · exact .inl h
    · exact absurd ⟨rfl, h⟩ hl
  case connect d => split at h <;> cases h; exact hs
  case learn n => cases h; exact hs
  case forget n => cases h; exact hs
  case restart => cases h; intro hp; simp at hp

theorem awaited_run {n : Bytes} {s s' : State} {es : List Ev} (ho : Once s) (hs : Awaited n s) (hh : Honest s es)
    (hl : NeverLost n s es) (h : run s es = some s') : Awaited n s' := by
  induction es generalizing s with
  | nil => cases h; exact hs
  | cons e es ih =>
    simp only [run, Option.bind_eq_some_iff] at h
    obtain ⟨t, ht, h⟩ := h
    exact ih (once_step ho hh.1 ht) (awaited_step ho hs hh.1 hl.1 ht) (hh.2 t ht) (hl.2 t ht) h

/-- `/find` of a name that is not known asks the server for it, unless a lookup of it is on its way already; provided
that no connection was lost with a lookup of it unanswered, and there is a tag. -/
theorem C111_asks_partial {me : Bytes} {book : List Bytes} {es : List Ev} {s : State} {n : Bytes}
    (hh : Honest (init me book) es) (hl : NeverLost n (init me book) es) (h : run (init me book) es = some s)
    (h1 : s.online = true) (h2 : s.directory = true) (h3 : n ≠ []) (h4 : n ≠ s.me) (h5 : n ∉ s.book)
    (h6 : n ∉ s.queue) (h7 : n ∉ s.sent) :
    ∃ s', step s (.find n true) = some s' ∧ s'.queue = s.queue ++ [n] ∧ s'.told = s.told := by
  have ha : Awaited n s := awaited_run (once_init me book) (by intro hp; simp [init] at hp) hh hl h
  have hp : n ∉ s.pending := fun hp => (ha hp).elim h6 h7
  refine ⟨{ s with queue := s.queue ++ [n], pending := n :: s.pending }, ?_, rfl, rfl⟩
  simp [step, cmdFind, find, h1, h2, h3, h4, h5, hp]

/-! ## A lost lookup -/

/-- Nobody waits for it, and nobody can ask again. -/
def Stuck (n : Bytes) (s : State) : Prop := n ∈ s.pending ∧ n ∉ s.queue ∧ n ∉ s.sent ∧ n ≠ []

theorem stuck_find (n : Bytes) (s : State) (m : Bytes) (t : Bool) (s' : State) (hs : Stuck n s)
    (h : find s m t = some s') : Stuck n s' := by
  obtain ⟨-, -, -, -, -, h6, -, rfl⟩ := find_some h
  obtain ⟨a, b, c, d⟩ := hs
  have hnm : n ≠ m := by rintro rfl; exact h6 a
  exact ⟨by simp [a], by simp [b, hnm], c, d⟩

theorem stuck_step {n : Bytes} {s s' : State} {e : Ev} (hs : Stuck n s) (hh : honest s e)
    (hr : e ≠ .restart) (h : step s e = some s') : Stuck n s' := by
  obtain ⟨c1, c2, c3⟩ := callers (stuck_find n) (fun s x hs => hs) s hs
  obtain ⟨a, b, c, d⟩ := hs
  cases e <;> simp only [step] at h
  case find n t => cases h; exact c1 n t
  case talk n t => cases h; exact c2 n t
  case invited ms => split at h <;> cases h; exact c3 ms
  case write =>
    split at h <;> try cases h
    split at h <;> cases h
    rename_i m q hq
    rw [hq] at b
    simp only [List.mem_cons, not_or] at b
    exact ⟨a, b.2, by simp [c, b.1], d⟩
  case reply m x =>
    split at h <;> cases h
    have hnm : n ≠ m := by rintro rfl; exact c hh.1
    have key : Stuck n { s with sent := s.sent.erase m,
                                pending := if m = [] then s.pending else s.pending.filter (· ≠ m) } := by
      refine ⟨?_, b, fun h => c (List.mem_of_mem_erase h), d⟩
      split
      · exact a
      · exact List.mem_filter.mpr ⟨a, by simp [hnm]⟩
    cases x <;> simpa [reply, Stuck] using key
  case lose => split at h <;> cases h; exact ⟨a, b, by simp, d⟩
  case connect x => split at h <;> cases h; exact ⟨a, b, c, d⟩
  case learn n => cases h; exact ⟨a, b, c, d⟩
  case forget n => cases h; exact ⟨a, b, c, d⟩
  case restart => exact absurd rfl hr

theorem stuck_run {n : Bytes} {s s' : State} {es : List Ev} (hs : Stuck n s) (hh : Honest s es)
    (hr : Ev.restart ∉ es) (h : run s es = some s') : Stuck n s' := by
  induction es generalizing s with
  | nil => cases h; exact hs
  | cons e es ih =>
    simp only [run, Option.bind_eq_some_iff] at h
    obtain ⟨t, ht, h⟩ := h
    simp only [List.mem_cons, not_or] at hr
    exact ih (stuck_step hs hh.1 (Ne.symm hr.1) ht) (hh.2 t ht) hr.2 h

/-- DISAGREEMENT.  When a connection is lost with the lookup of a name unanswered, that name is not asked for again
until the program is started again, whatever happens; and as long as the name is not known, who talks to it is told
that it is not in the directory. -/
theorem C111_lost_violated {me : Bytes} {book : List Bytes} {es es' : List Ev} {s s' : State} {n : Bytes}
    (hh : Honest (init me book) es) (h : run (init me book) es = some s) (hn : n ∈ s.sent)
    (hh' : Honest s (.lose :: es')) (hr : Ev.restart ∉ es') (h' : run s (.lose :: es') = some s') :
    n ∉ s'.queue ∧ n ∉ s'.sent ∧
    ∀ t, n ≠ s'.me → n ∉ s'.book → s'.directory = true →
      step s' (.talk n t) = some { s' with told := .notInDirectory n :: s'.told } := by
  have ho := once_run (once_init me book) hh h
  simp only [run, Option.bind_eq_some_iff] at h'
  obtain ⟨u, hu, h'⟩ := h'
  have hst : Stuck n u := by
    simp only [step] at hu
    split at hu <;> cases hu
    obtain ⟨a, b⟩ := ho
    have := List.nodup_append.mp a
    exact ⟨(b n (by simp [hn])).1, fun hq => this.2.2 n hq n hn rfl, by simp, (b n (by simp [hn])).2⟩
  have := stuck_run hst (hh'.2 u hu) hr h'
  obtain ⟨a, b, c, -⟩ := this
  refine ⟨b, c, fun t h4 h5 h2 => ?_⟩
  have : find s' n t = none := by
    cases hf : find s' n t with
    | none => rfl
    | some x => exact absurd a (find_some hf).2.2.2.2.2.1
  simp [step, cmdTalk, this, h4, h5, h2]

/-! ## What is queued is asked -/

def isWrite : Ev → Bool
  | .write => true
  | _ => false

theorem grows_callers (s0 : State) : ∀ s, (∃ x, s.queue = s0.queue ++ x) ∧ s.sent = s0.sent →
    (∀ n t, (∃ x, (cmdFind s n t).queue = s0.queue ++ x) ∧ (cmdFind s n t).sent = s0.sent) ∧
    (∀ n t, (∃ x, (cmdTalk s n t).queue = s0.queue ++ x) ∧ (cmdTalk s n t).sent = s0.sent) ∧
    ∀ ms, (∃ x, (invited s ms).queue = s0.queue ++ x) ∧ (invited s ms).sent = s0.sent := by
  intro s hs
  refine callers (P := fun s => (∃ x, s.queue = s0.queue ++ x) ∧ s.sent = s0.sent) ?_ ?_ s hs
  · rintro s n t s' ⟨⟨x, hx⟩, hs⟩ h
    obtain ⟨-, -, -, -, -, -, -, rfl⟩ := find_some h
    exact ⟨⟨x ++ [n], by simp [hx]⟩, hs⟩
  · exact fun s x h => h

/-- One event other than `restart` and `write` keeps the queue and adds at its end. -/
theorem queue_step {s s' : State} {e : Ev} (hr : e ≠ .restart) (h : step s e = some s') :
    ∃ x, s'.queue = s.queue.drop (if isWrite e then 1 else 0) ++ x := by
  obtain ⟨c1, c2, c3⟩ := grows_callers s s ⟨⟨[], by simp⟩, rfl⟩
  cases e <;> simp only [step] at h <;> simp only [isWrite, Bool.false_eq_true, ↓reduceIte, List.drop_zero]
  case find n t => cases h; exact (c1 n t).1
  case talk n t => cases h; exact (c2 n t).1
  case invited ms => split at h <;> cases h; exact (c3 ms).1
  case write =>
    split at h <;> try cases h
    split at h <;> cases h
    rename_i m q hq
    exact ⟨[], by simp [hq]⟩
  case reply m x => split at h <;> cases h; cases x <;> exact ⟨[], by simp [reply]⟩
  case lose => split at h <;> cases h; exact ⟨[], by simp⟩
  case connect d => split at h <;> cases h; exact ⟨[], by simp⟩
  case learn n => cases h; exact ⟨[], by simp⟩
  case forget n => cases h; exact ⟨[], by simp⟩
  case restart => exact absurd rfl hr

/-- A lookup that is queued stays queued over lost connections, and is written when those before it have been: after as
many writes as there were lookups before it, the next write writes it. -/
theorem C111_kept {s s' : State} {es : List Ev} {a b : List Bytes} {n : Bytes} (hq : s.queue = a ++ n :: b)
    (hr : Ev.restart ∉ es) (hw : es.countP isWrite ≤ a.length) (h : run s es = some s') :
    ∃ x, s'.queue = a.drop (es.countP isWrite) ++ n :: x := by
  induction es generalizing s a b with
  | nil => cases h; exact ⟨b, by simp [hq]⟩
  | cons e es ih =>
    simp only [run, Option.bind_eq_some_iff] at h
    obtain ⟨t, ht, h⟩ := h
    simp only [List.mem_cons, not_or] at hr
    obtain ⟨x, hx⟩ := queue_step (Ne.symm hr.1) ht
    rw [List.countP_cons] at hw ⊢
    by_cases hi : isWrite e = true
    · simp only [hi, ↓reduceIte] at hw hx ⊢
      cases a with
      | nil => simp at hw
      | cons m a =>
        rw [hq] at hx
        simp only [List.cons_append, List.drop_succ_cons, List.drop_zero, List.append_assoc] at hx
        simp only [List.length_cons, Nat.add_le_add_iff_right] at hw
        simpa using ih hx hr.2 hw h
    · simp only [hi, Bool.false_eq_true, ↓reduceIte, Nat.add_zero, List.drop_zero] at hw hx ⊢
      rw [hq] at hx
      simp only [List.append_assoc, List.cons_append] at hx
      exact ih hx hr.2 hw h

/-- A lookup that was written is answered, or the session is still waiting for it or has ended. -/
theorem C111_answered {s s' : State} {es : List Ev} {n : Bytes} (hn : n ∈ s.sent) (hr : Ev.restart ∉ es)
    (hl : Ev.lose ∉ es) (h : run s es = some s') : n ∈ s'.sent ∨ ∃ a, Ev.reply n a ∈ es := by
  induction es generalizing s with
  | nil => cases h; exact .inl hn
  | cons e es ih =>
    simp only [run, Option.bind_eq_some_iff] at h
    obtain ⟨t, ht, h⟩ := h
    simp only [List.mem_cons, not_or] at hr hl
    by_cases he : ∃ a, e = .reply n a
    · obtain ⟨a, rfl⟩ := he
      exact .inr ⟨a, by simp⟩
    · have ht' : n ∈ t.sent := by
        obtain ⟨c1, c2, c3⟩ := grows_callers s s ⟨⟨[], by simp⟩, rfl⟩
        cases e <;> simp only [step] at ht
        case find m x => cases ht; rw [(c1 m x).2]; exact hn
        case talk m x => cases ht; rw [(c2 m x).2]; exact hn
        case invited ms => split at ht <;> cases ht; rw [(c3 ms).2]; exact hn
        case write =>
          split at ht <;> try cases ht
          split at ht <;> cases ht
          simp [hn]
        case reply m a =>
          split at ht <;> cases ht
          have hnm : n ≠ m := by rintro rfl; exact he ⟨a, rfl⟩
          cases a <;> exact (List.mem_erase_of_ne hnm).mpr hn
        case lose => exact absurd rfl hl.1
        case connect d => split at ht <;> cases ht; exact hn
        case learn n => cases ht; exact hn
        case forget n => cases ht; exact hn
        case restart => exact absurd rfl hr.1
      rcases ih ht' hr.2 hl.2 h with h | ⟨a, h⟩
      · exact .inl h
      · exact .inr ⟨a, by simp [h]⟩

/-- An answer is acted on: an identity begins a key exchange with it, an error is shown, and afterwards the name is not
awaited. -/
theorem C111_acted {s s' : State} {n : Bytes} {a : Option Ident} (hn : n ≠ [])
    (h : step s (.reply n a) = some s') :
    n ∉ s'.pending ∧ match a with
      | some i => s'.kx = i :: s.kx ∧ s'.told = s.told
      | none => s'.kx = s.kx ∧ s'.told = .server n :: s.told := by
  simp only [step] at h
  split at h <;> cases h
  cases a <;> simp [reply, hn]

/-! ## Whom a key exchange is begun with -/

theorem from_callers (N : List Bytes) (s : State) (hs : (∀ n ∈ s.queue, n ∈ N) ∧ (∀ n ∈ s.sent, n ∈ N) ∧
    ∀ i ∈ s.kx, i.nick ∈ N) :
    (∀ n t, n ∈ N → (∀ m ∈ (cmdFind s n t).queue, m ∈ N) ∧ (∀ m ∈ (cmdFind s n t).sent, m ∈ N) ∧
      ∀ i ∈ (cmdFind s n t).kx, i.nick ∈ N) ∧
    (∀ n t, n ∈ N → (∀ m ∈ (cmdTalk s n t).queue, m ∈ N) ∧ (∀ m ∈ (cmdTalk s n t).sent, m ∈ N) ∧
      ∀ i ∈ (cmdTalk s n t).kx, i.nick ∈ N) ∧
    ∀ ms : List (Bytes × Bool), (∀ m ∈ ms, m.1 ∈ N) → (∀ m ∈ (invited s ms).queue, m ∈ N) ∧
      (∀ m ∈ (invited s ms).sent, m ∈ N) ∧ ∀ i ∈ (invited s ms).kx, i.nick ∈ N := by
  have hf : ∀ s n t s', ((∀ n ∈ s.queue, n ∈ N) ∧ (∀ n ∈ s.sent, n ∈ N) ∧ ∀ i ∈ s.kx, i.nick ∈ N) → n ∈ N →
      find s n t = some s' →
      (∀ n ∈ s'.queue, n ∈ N) ∧ (∀ n ∈ s'.sent, n ∈ N) ∧ ∀ i ∈ s'.kx, i.nick ∈ N := by
    intro s n t s' ⟨a, b, c⟩ hn h
    obtain ⟨-, -, -, -, -, -, -, rfl⟩ := find_some h
    refine ⟨?_, b, c⟩
    intro m hm
    rcases List.mem_append.mp hm with hm | hm
    · exact a m hm
    · rw [List.mem_singleton.mp hm]; exact hn
  refine ⟨fun n t hn => ?_, fun n t hn => ?_, fun ms hms => ?_⟩
  · unfold cmdFind
    split
    · exact hf _ _ _ _ hs hn ‹_›
    · exact hs
  · unfold cmdTalk
    split
    · exact hs
    · split
      · exact hs
      · split
        · split
          · rename_i s' hx
            exact hf _ _ _ s' hs hn hx
          · exact hs
        · exact hs
  · induction ms generalizing s with
    | nil => exact hs
    | cons m ms ih =>
      obtain ⟨n, t⟩ := m
      have hn : n ∈ N := hms (n, t) (by simp)
      have hms' : ∀ m ∈ ms, m.1 ∈ N := fun m hm => hms m (by simp [hm])
      unfold invited
      split
      · exact ih s hs hms'
      · refine ih _ ?_ hms'
        cases hx : find s n t with
        | none => exact hs
        | some s' => exact hf _ _ _ _ hs hn hx

theorem from_run (N : List Bytes) {s s' : State} {es : List Ev} (hN : ∀ e ∈ es, ∀ n ∈ names e, n ∈ N)
    (hs : (∀ n ∈ s.queue, n ∈ N) ∧ (∀ n ∈ s.sent, n ∈ N) ∧ ∀ i ∈ s.kx, i.nick ∈ N)
    (hh : Honest s es) (h : run s es = some s') :
    (∀ n ∈ s'.queue, n ∈ N) ∧ (∀ n ∈ s'.sent, n ∈ N) ∧ ∀ i ∈ s'.kx, i.nick ∈ N := by
  induction es generalizing s with
  | nil => cases h; exact hs
  | cons e es ih =>
    simp only [run, Option.bind_eq_some_iff] at h
    obtain ⟨t, ht, h⟩ := h
    refine ih (fun e' he' => hN e' (by simp [he'])) ?_ (hh.2 t ht) h
    replace hN := hN e (by simp)
    replace hh := hh.1
    obtain ⟨c1, c2, c3⟩ := from_callers N s hs
    cases e <;> simp only [step] at ht
    case find m x => cases ht; exact c1 m x (hN m (by simp [names]))
    case talk m x => cases ht; exact c2 m x (hN m (by simp [names]))
    case invited ms =>
      split at ht <;> cases ht
      exact c3 ms fun m hm => hN m.1 (List.mem_map_of_mem hm)
    case write =>
      split at ht <;> try cases ht
      split at ht <;> cases ht
      rename_i m q hq
      obtain ⟨a, b, c⟩ := hs
      rw [hq] at a
      refine ⟨fun n hn => a n (by simp [hn]), ?_, c⟩
      intro n hn
      rcases List.mem_append.mp hn with hn | hn
      · exact b n hn
      · rw [List.mem_singleton.mp hn]; exact a m (by simp)
    case reply m x =>
      split at ht <;> cases ht
      obtain ⟨a, b, c⟩ := hs
      have b' : ∀ n ∈ s.sent.erase m, n ∈ N := fun n hn => b n (List.mem_of_mem_erase hn)
      cases x with
      | none => exact ⟨a, b', c⟩
      | some i =>
        refine ⟨a, b', ?_⟩
        intro j hj
        rcases List.mem_cons.mp hj with rfl | hj
        · rw [hh.2 j rfl]; exact b m hh.1
        · exact c j hj
    case lose => split at ht <;> cases ht; exact ⟨hs.1, by simp, hs.2.2⟩
    case connect d => split at ht <;> cases ht; exact hs
    case learn n => cases ht; exact hs
    case forget n => cases ht; exact hs
    case restart => cases ht; exact ⟨by simp, by simp, by simp⟩

/-- With an honest server, whoever a key exchange is begun with carries a name that the user typed or that was in an
invitation. -/
theorem C111_named_partial {me : Bytes} {book : List Bytes} {es : List Ev} {s : State}
    (hh : Honest (init me book) es) (h : run (init me book) es = some s) :
    ∀ i ∈ s.kx, ∃ e ∈ es, i.nick ∈ names e := by
  intro i hi
  have := (from_run (es.flatMap names) (fun e he n hn => List.mem_flatMap.mpr ⟨e, he, hn⟩)
    ⟨by simp [init], by simp [init], by simp [init]⟩ hh h).2.2 i hi
  exact List.mem_flatMap.mp this

/-- Without invitations it is a name that the user typed. -/
theorem C111_typed_partial {me : Bytes} {book : List Bytes} {es : List Ev} {s : State}
    (hh : Honest (init me book) es) (hi : ∀ ms, Ev.invited ms ∉ es) (h : run (init me book) es = some s) :
    ∀ i ∈ s.kx, ∃ e ∈ es, i.nick ∈ typed e := by
  intro i hik
  obtain ⟨e, he, hn⟩ := C111_named_partial hh h i hik
  refine ⟨e, he, ?_⟩
  cases e <;> first | exact hn | skip
  exact absurd he (hi _)

/-- `/m` and the like say that a name is not in the directory only when a lookup of it is awaited, the session has
ended, or there was no tag: never because the directory was asked. -/
theorem C111_told_partial {s s' : State} {n : Bytes} {t : Bool} (h : step s (.talk n t) = some s')
    (h1 : s.online = true) (h3 : n ≠ []) (h6 : n ∉ s.pending) (h7 : t = true) :
    s'.told = s.told ∨ s'.told = .attempting n :: s.told ∧ n ∈ s'.queue ∨
      s'.told = .notKnown n :: s.told ∧ (n = s.me ∨ s.directory = false) := by
  simp only [step, Option.some.injEq] at h
  subst h
  unfold cmdTalk
  by_cases h4 : n = s.me
  · simp [h4]
  · by_cases h5 : n ∈ s.book
    · simp [h4, h5]
    · by_cases h2 : s.directory = true
      · have : find s n t = some { s with queue := s.queue ++ [n], pending := n :: s.pending } := by
          simp [find, h1, h2, h3, h4, h5, h6, h7]
        simp [h4, h5, h2, this]
      · simp [h4, h5, h2]

/-! ## Examples and disagreements -/

/-- Runs of the examples: this client is `[1]`. -/
def ex (es : List Ev) : Option State := run (init [1] []) es

/-- DISAGREEMENT.  The user is told that a name is not in the directory while it is being looked up, and is found. -/
theorem C111_told_violated :
    ∃ s s', ex [.connect true, .talk [2] true, .write, .talk [2] true] = some s ∧
      s.told = [.notInDirectory [2], .attempting [2]] ∧
      run s [.reply [2] (some ⟨[2], 7⟩)] = some s' ∧ s'.kx = [⟨[2], 7⟩] := by
  refine ⟨_, _, rfl, ?_, rfl, ?_⟩ <;> decide

/-- DISAGREEMENT.  A key exchange is begun with a name that the user never typed: a contact put it in an invitation,
which the user was not asked about. -/
theorem C111_typed_violated :
    ∃ s es, (∀ e ∈ es, typed e = []) ∧ Honest (init [1] []) es ∧ ex es = some s ∧ s.kx = [⟨[3], 9⟩] := by
  refine ⟨_, [.connect true, .invited [([2], false), ([3], true)], .write, .reply [3] (some ⟨[3], 9⟩)], ?_, ?_,
    rfl, ?_⟩
  · decide
  · refine ⟨trivial, fun s hs => ⟨trivial, fun s' hs' => ⟨trivial, fun s'' hs'' => ⟨?_, fun _ _ => trivial⟩⟩⟩⟩
    cases hs; cases hs'; cases hs''
    exact ⟨by decide, fun i hi => by cases hi; rfl⟩
  · decide

/-- DISAGREEMENT.  A server that answers with another identity, or unasked, makes the client begin a key exchange with
whom it likes: the name in the identity is not compared with the name that was asked for. -/
theorem C111_named_violated :
    (∃ s, ex [.connect true, .find [2] true, .write, .reply [2] (some ⟨[3], 9⟩)] = some s ∧
      s.kx = [⟨[3], 9⟩] ∧ s.told = []) ∧
    ∃ s, ex [.connect false, .reply [] (some ⟨[3], 9⟩)] = some s ∧ s.kx = [⟨[3], 9⟩] := by
  exact ⟨⟨_, rfl, by decide, by decide⟩, ⟨_, rfl, by decide⟩⟩

/-- A lookup whose connection is lost, and what the user sees in the next session; a new start helps. -/
theorem C111_stuck_violated :
    (∃ s, ex [.connect true, .find [2] true, .write, .lose, .connect true, .find [2] true, .talk [2] true] = some s ∧
      s.queue = [] ∧ s.sent = [] ∧ s.told = [.notInDirectory [2], .refused [2]]) ∧
    ∃ s, ex [.connect true, .find [2] true, .write, .lose, .restart, .connect true, .find [2] true] = some s ∧
      s.queue = [[2]] := by
  exact ⟨⟨_, rfl, by decide, by decide, by decide⟩, ⟨_, rfl, by decide⟩⟩

/-- C111_once is not empty: two names are looked up, one is written, a second lookup of it is refused. -/
example : ∃ s, ex [.connect true, .find [2] true, .find [3] true, .write, .find [2] true] = some s ∧
    s.queue = [[3]] ∧ s.sent = [[2]] ∧ s.told = [.refused [2]] := ⟨_, rfl, by decide, by decide, by decide⟩

/-- C111_asks_partial: after an answer a name can be asked for again. -/
example : ∃ s, ex [.connect true, .find [2] true, .write, .reply [2] none, .find [2] true] = some s ∧
    s.queue = [[2]] ∧ s.told = [.server [2]] := ⟨_, rfl, by decide, by decide⟩

/-- C111_kept: a lookup that was not written is written in the next session. -/
example : ∃ s, ex [.connect true, .find [2] true, .find [3] true, .write, .lose, .connect true, .write] = some s ∧
    s.sent = [[3]] := ⟨_, rfl, by decide⟩

/-- C111_answered, C111_acted, C111_named_partial, C111_typed_partial: a lookup that ends well. -/
example : ∃ s, ex [.connect true, .talk [2] true, .write, .reply [2] (some ⟨[2], 7⟩), .learn [2], .talk [2] true] =
    some s ∧ s.kx = [⟨[2], 7⟩] ∧ s.pending = [] ∧ s.told = [.attempting [2]] :=
  ⟨_, rfl, by decide, by decide, by decide⟩

/-- C111_told_partial and C111_lost_violated have instances: see C111_told_violated and C111_stuck_violated. -/
example : ∃ s, ex [.connect true, .find [2] true, .write] = some s ∧ [2] ∈ s.sent := ⟨_, rfl, by decide⟩

/-! ## The address book -/

/-- Whether a name is in the address book after what happened: the last key exchange that ended well, or the last deletion,
says so. -/
def knows (n : Bytes) : Bool → List Ev → Bool
  | b, [] => b
  | b, .learn m :: es => knows n (if m = n then true else b) es
  | b, .forget m :: es => knows n (if m = n then false else b) es
  | b, _ :: es => knows n b es

theorem book_callers (b0 : List Bytes) (s : State) (hs : s.book = b0) :
    (∀ n t, (cmdFind s n t).book = b0) ∧ (∀ n t, (cmdTalk s n t).book = b0) ∧ ∀ ms, (invited s ms).book = b0 := by
  refine callers (P := fun s => s.book = b0) ?_ (fun s x h => h) s hs
  intro s n t s' hs h
  obtain ⟨-, -, -, -, -, -, -, rfl⟩ := find_some h
  exact hs

/-- A name is in the address book if a key exchange with it ended well, or it was there at the start, and it was not deleted
since.  No other name is; looking up, talking, invitations, answers, lost connections and new starts change nothing. -/
theorem C111_book {s s' : State} {es : List Ev} (h : run s es = some s') (n : Bytes) :
    decide (n ∈ s'.book) = knows n (decide (n ∈ s.book)) es := by
  induction es generalizing s with
  | nil => cases h; rfl
  | cons e es ih =>
    unfold run at h
    cases hs : step s e with
    | none => rw [hs] at h; cases h
    | some t =>
      rw [hs] at h
      rw [ih h]
      obtain ⟨c1, c2, c3⟩ := book_callers s.book s rfl
      cases e <;> simp only [step] at hs <;> simp only [knows]
      case find m t => cases hs; rw [c1]
      case talk m t => cases hs; rw [c2]
      case invited ms => split at hs <;> cases hs; rw [c3]
      case write =>
        split at hs <;> try cases hs
        split at hs <;> cases hs
        rfl
      case reply m x => split at hs <;> cases hs; cases x <;> rfl
      case lose => split at hs <;> cases hs; rfl
      case connect d => split at hs <;> cases hs; rfl
      case learn m =>
        cases hs
        by_cases hm : m = n
        · simp [hm]
        · simp [hm, Ne.symm hm]
      case forget m =>
        cases hs
        by_cases hm : m = n
        · simp [hm]
        · simp [hm, Ne.symm hm]
      case restart => cases hs; rfl

/-- `C111_book` is not empty: of two contacts one is deleted, and then looked up again; the other is not. -/
example : ∃ s, run (init [1] [[2], [3]]) [.connect true, .forget [2], .talk [2] true, .talk [3] true] = some s ∧
    s.book = [[3]] ∧ s.queue = [[2]] := ⟨_, rfl, by decide, by decide⟩

end Verif.Lookup
