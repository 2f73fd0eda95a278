import Verif.Model.Clock
import Verif.Props.IniDB

/-! # C118: messages and backups are in the order of time -/

namespace Verif.Clock

open Verif.IniDB

/-! ## The calendar -/

/-- A date of the calendar. -/
def Date.Ok (a : Date) : Prop := 1 ≤ a.m ∧ a.m ≤ 12 ∧ 1 ≤ a.d ∧ a.d ≤ monthLen a.y a.m

/-- Earlier in the calendar. -/
def Date.lt (a b : Date) : Prop := a.y < b.y ∨ a.y = b.y ∧ (a.m < b.m ∨ a.m = b.m ∧ a.d < b.d)

theorem monthLen_bounds (y m : Nat) : 28 ≤ monthLen y m ∧ monthLen y m ≤ 31 := by
  unfold monthLen
  split
  · split <;> omega
  · split <;> omega

theorem next_ok {a : Date} (h : a.Ok) : a.next.Ok := by
  obtain ⟨h1, h2, h3, h4⟩ := h
  unfold Date.next
  split
  · exact ⟨h1, h2, by show 1 ≤ a.d + 1; omega, by show a.d + 1 ≤ monthLen a.y a.m; omega⟩
  · split
    · have := monthLen_bounds a.y (a.m + 1)
      exact ⟨by show 1 ≤ a.m + 1; omega, by show a.m + 1 ≤ 12; omega, Nat.le_refl 1, by show 1 ≤ monthLen a.y (a.m + 1); omega⟩
    · have := monthLen_bounds (a.y + 1) 1
      exact ⟨Nat.le_refl 1, by show 1 ≤ 12; omega, Nat.le_refl 1, by show 1 ≤ monthLen (a.y + 1) 1; omega⟩

theorem date_ok : ∀ n, (date n).Ok
  | 0 => ⟨by decide, by decide, by decide, by decide⟩
  | n + 1 => next_ok (date_ok n)

theorem next_lt (a : Date) : a.lt a.next := by
  unfold Date.next Date.lt
  split
  · exact .inr ⟨rfl, .inr ⟨rfl, Nat.lt_succ_self _⟩⟩
  · split
    · exact .inr ⟨rfl, .inl (Nat.lt_succ_self _)⟩
    · exact .inl (Nat.lt_succ_self _)

theorem Date.lt_trans {a b c : Date} (h1 : a.lt b) (h2 : b.lt c) : a.lt c := by
  unfold Date.lt at *
  omega

theorem date_lt {a b : Nat} (h : a < b) : (date a).lt (date b) := by
  induction b with
  | zero => omega
  | succ b ih =>
    rcases Nat.lt_or_ge a b with hh | hh
    · exact Date.lt_trans (ih hh) (next_lt _)
    · have : a = b := by omega
      subst this; exact next_lt _

/-- The calendar shows a date that exists, in its ranges. -/
theorem wall_valid {t : Nat} (h : (wall t).year < 10000) : (wall t).Valid := by
  obtain ⟨h1, h2, h3, h4⟩ := date_ok (t / 1000000000 / 60 / 60 / 24)
  have := monthLen_bounds (date (t / 1000000000 / 60 / 60 / 24)).y (date (t / 1000000000 / 60 / 60 / 24)).m
  refine ⟨h, ?_, ?_, ?_, ?_, ?_, ?_⟩
  · show (date (t / 1000000000 / 60 / 60 / 24)).m < 100; omega
  · show (date (t / 1000000000 / 60 / 60 / 24)).d < 100; omega
  · exact Nat.lt_of_lt_of_le (Nat.mod_lt _ (by decide)) (by decide)
  · exact Nat.lt_of_lt_of_le (Nat.mod_lt _ (by decide)) (by decide)
  · exact Nat.lt_of_lt_of_le (Nat.mod_lt _ (by decide)) (by decide)
  · exact Nat.mod_lt _ (by decide)

theorem div_lex (k : Nat) {a b : Nat} (h : a < b) : a / k < b / k ∨ a / k = b / k ∧ a % k < b % k := by
  have h1 := Nat.div_add_mod a k
  have h2 := Nat.div_add_mod b k
  rcases Nat.lt_or_ge (a / k) (b / k) with hh | hh
  · exact .inl hh
  · have := Nat.div_le_div_right (c := k) (Nat.le_of_lt h)
    have he : a / k = b / k := Nat.le_antisymm this hh
    rw [he] at h1
    exact .inr ⟨he, by omega⟩

/-- A later moment is shown as a later one. -/
theorem wall_before {a b : Nat} (h : a < b) : (wall a).before (wall b) := by
  unfold Stamp.before
  rcases div_lex 1000000000 h with h1 | ⟨e1, h1⟩
  · rcases div_lex 60 h1 with h2 | ⟨e2, h2⟩
    · rcases div_lex 60 h2 with h3 | ⟨e3, h3⟩
      · rcases div_lex 24 h3 with h4 | ⟨e4, h4⟩
        · have hd := date_lt h4
          unfold Date.lt at hd
          simp only [wall]
          rcases hd with hd | ⟨ey, hd | ⟨em, hd⟩⟩
          · exact .inl hd
          · exact .inr ⟨ey, .inl hd⟩
          · exact .inr ⟨ey, .inr ⟨em, .inl hd⟩⟩
        · simp only [wall, e4]
          exact .inr ⟨trivial, .inr ⟨trivial, .inr ⟨trivial, .inl h4⟩⟩⟩
      · simp only [wall, e3]
        exact .inr ⟨trivial, .inr ⟨trivial, .inr ⟨trivial, .inr ⟨trivial, .inl h3⟩⟩⟩⟩
    · simp only [wall, e2]
      exact .inr ⟨trivial, .inr ⟨trivial, .inr ⟨trivial, .inr ⟨trivial, .inr ⟨trivial, .inl h2⟩⟩⟩⟩⟩
  · simp only [wall, e1]
    exact .inr ⟨trivial, .inr ⟨trivial, .inr ⟨trivial, .inr ⟨trivial, .inr ⟨trivial, .inr ⟨trivial, h1⟩⟩⟩⟩⟩⟩

/-! ## Names -/

theorem messageName_lt {s t : Stamp} (ht : t.Valid) (h : s.before t) : leStr (messageName t) (messageName s) = false := by
  obtain ⟨h1, h2, h3, h4, h5, h6, h7⟩ := ht
  have ap := @leStr_append_lt
  have al := @leStr_append_left
  unfold messageName
  simp only [List.append_assoc]
  rcases h with h | ⟨e, h⟩
  · exact ap (by simp [digits_length]) (digits_lt h1 h) _ _
  rw [e, al]
  rcases h with h | ⟨e, h⟩
  · exact ap (by simp [digits_length]) (digits_lt h2 h) _ _
  rw [e, al]
  rcases h with h | ⟨e, h⟩
  · exact ap (by simp [digits_length]) (digits_lt h3 h) _ _
  rw [e, al]
  rcases h with h | ⟨e, h⟩
  · exact ap (by simp [digits_length]) (digits_lt h4 h) _ _
  rw [e, al]
  rcases h with h | ⟨e, h⟩
  · exact ap (by simp [digits_length]) (digits_lt h5 h) _ _
  rw [e, al]
  rcases h with h | ⟨e, h⟩
  · exact ap (by simp [digits_length]) (digits_lt h6 h) _ _
  rw [e, al, al]
  exact digits_lt h7 h

theorem leStr_refl (a : Str) : leStr a a = true := (leStr_total a a).elim id id

/-- Before the year 10000. -/
def Reading.Ok (r : Reading) : Prop := (wall r.shows).year < 10000

instance (r : Reading) : Decidable r.Ok := inferInstanceAs (Decidable (_ < _))

/-- The names of messages sort as what the clock on the wall shows, ... -/
theorem name_lt {r q : Reading} (hr : r.Ok) (hq : q.Ok) :
    leStr (messageName (wall r.shows)) (messageName (wall q.shows)) = true ↔ r.shows ≤ q.shows := by
  constructor
  · intro h
    rcases Nat.lt_or_ge q.shows r.shows with hh | hh
    · rw [messageName_lt (wall_valid hr) (wall_before hh)] at h; cases h
    · exact hh
  · intro h
    rcases Nat.lt_or_ge r.shows q.shows with hh | hh
    · rcases leStr_total (messageName (wall r.shows)) (messageName (wall q.shows)) with h' | h'
      · exact h'
      · rw [messageName_lt (wall_valid hq) (wall_before hh)] at h'; cases h'
    · rw [Nat.le_antisymm h hh]; exact leStr_refl _

/-- ... and so do those of backups. -/
theorem format_le {r q : Reading} (hr : r.Ok) (hq : q.Ok) :
    leStr (wall r.shows).format (wall q.shows).format = true ↔ r.shows ≤ q.shows := by
  constructor
  · intro h
    rcases Nat.lt_or_ge q.shows r.shows with hh | hh
    · rw [format_lt (wall_valid hr) (wall_before hh)] at h; cases h
    · exact hh
  · intro h
    rcases Nat.lt_or_ge r.shows q.shows with hh | hh
    · rcases leStr_total (wall r.shows).format (wall q.shows).format with h' | h'
      · exact h'
      · rw [format_lt (wall_valid hq) (wall_before hh)] at h'; cases h'
    · rw [Nat.le_antisymm h hh]; exact leStr_refl _

/-- C118.  Names of messages and of backups are equal, or in order, exactly as what the clock on the wall shows. -/
theorem C118_names {r q : Reading} (hr : r.Ok) (hq : q.Ok) :
    (leStr (messageName (wall r.shows)) (messageName (wall q.shows)) = true ↔ r.shows ≤ q.shows) ∧
    (leStr (wall r.shows).format (wall q.shows).format = true ↔ r.shows ≤ q.shows) ∧
    (messageName (wall r.shows) = messageName (wall q.shows) ↔ r.shows = q.shows) ∧
    ((wall r.shows).format = (wall q.shows).format ↔ r.shows = q.shows) := by
  refine ⟨name_lt hr hq, format_le hr hq, ⟨fun h => ?_, fun h => by rw [h]⟩, ⟨fun h => ?_, fun h => by rw [h]⟩⟩
  · exact Nat.le_antisymm ((name_lt hr hq).1 (by rw [h]; exact leStr_refl _))
      ((name_lt hq hr).1 (by rw [h]; exact leStr_refl _))
  · exact Nat.le_antisymm ((format_le hr hq).1 (by rw [h]; exact leStr_refl _))
      ((format_le hq hr).1 (by rw [h]; exact leStr_refl _))

/-! ## Messages -/

/-- The files are in the order of the messages, and so are their names. -/
structure Inv (s : State) : Prop where
  name : ∀ f ∈ s.files, f.name = messageName (wall f.stored.shows) ∧ f.stored.Ok
  order : s.files.Pairwise (fun f g => f.msg < g.msg ∧ f.stored.shows < g.stored.shows)
  below : ∀ f ∈ s.files, f.msg < s.next
  told : s.told.Pairwise (· < ·)
  toldBelow : ∀ m ∈ s.told, m < s.next
  after : ∀ m ∈ s.told, ∀ f ∈ s.files, f.name ∉ s.seen → m < f.msg

/-- The clock on the wall shows more than when the messages were stored that are still there. -/
def Later (s : State) (e : Ev) : Prop := ∀ r, e = .store r → r.Ok ∧ ∀ f ∈ s.files, f.stored.shows < r.shows

/-- Each step is `ok`. -/
def All (ok : State → Ev → Prop) : State → List Ev → Prop
  | _, [] => True
  | s, e :: es => ok s e ∧ All ok (step s e) es

theorem insert_first {f : File} {l : List File} (h : ∀ g ∈ l, leStr f.name g.name = true) : insert f l = f :: l := by
  cases l with
  | nil => rfl
  | cons g l => simp [insert, h g List.mem_cons_self]

theorem readDir_sorted {l : List File} (h : l.Pairwise (fun f g => leStr f.name g.name = true)) : readDir l = l := by
  induction l with
  | nil => rfl
  | cons f l ih =>
    have := List.pairwise_cons.1 h
    rw [readDir, ih this.2, insert_first this.1]

theorem inv_readDir {s : State} (h : Inv s) : readDir s.files = s.files := by
  refine readDir_sorted (h.order.imp_of_mem ?_)
  intro f g hf hg hh
  rw [(h.name f hf).1, (h.name g hg).1]
  exact (name_lt (h.name f hf).2 (h.name g hg).2).2 (Nat.le_of_lt hh.2)

theorem name_inj {s : State} (h : Inv s) {f g : File} (hf : f ∈ s.files) (hg : g ∈ s.files) (he : f.name = g.name) :
    f.msg = g.msg := by
  have hw : f.stored.shows = g.stored.shows := by
    rw [(h.name f hf).1, (h.name g hg).1] at he
    exact ((C118_names (h.name f hf).2 (h.name g hg).2).2.2.1).1 he
  by_contra hne
  have hp : s.files.Pairwise (fun f g => f.stored.shows < g.stored.shows) := h.order.imp (fun hh => hh.2)
  have hfg : f ≠ g := fun hh => hne (by rw [hh])
  have hlt : f.stored.shows < g.stored.shows ∨ g.stored.shows < f.stored.shows := by
    clear hne he hw
    have h2 := hp
    generalize s.files = l at hf hg h2
    induction l with
    | nil => cases hf
    | cons x l ih =>
      have hc := List.pairwise_cons.1 h2
      rcases List.mem_cons.1 hf with hf | hf
      · rcases List.mem_cons.1 hg with hg | hg
        · exact absurd (hf.trans hg.symm) hfg
        · exact .inl (hf ▸ hc.1 g hg)
      · rcases List.mem_cons.1 hg with hg | hg
        · exact .inr (hg ▸ hc.1 f hf)
        · exact ih hf hg hc.2
  omega

theorem inv_step {s : State} {e : Ev} (h : Inv s) (hok : Later s e) : Inv (step s e) := by
  cases e with
  | store r =>
    obtain ⟨hr, hl⟩ := hok r rfl
    show Inv (s.store r)
    unfold State.store
    simp only
    split
    · exact h
    · refine ⟨?_, ?_, ?_, h.told, fun m hm => Nat.lt_succ_of_lt (h.toldBelow m hm), ?_⟩
      · intro f hf
        rcases List.mem_append.1 hf with hf | hf
        · exact h.name f hf
        · cases List.mem_singleton.1 hf; exact ⟨rfl, hr⟩
      · refine List.pairwise_append.2 ⟨h.order, List.pairwise_singleton _ _, ?_⟩
        intro f hf g hg
        cases List.mem_singleton.1 hg
        exact ⟨h.below f hf, hl f hf⟩
      · intro f hf
        rcases List.mem_append.1 hf with hf | hf
        · exact Nat.lt_succ_of_lt (h.below f hf)
        · cases List.mem_singleton.1 hf; exact Nat.lt_succ_self _
      · intro m hm f hf hn
        rcases List.mem_append.1 hf with hf | hf
        · exact h.after m hm f hf hn
        · cases List.mem_singleton.1 hf; exact h.toldBelow m hm
  | scan =>
    show Inv s.scan
    unfold State.scan
    simp only [inv_readDir h]
    refine ⟨h.name, h.order, h.below, ?_, ?_, ?_⟩
    · refine List.pairwise_append.2 ⟨h.told, ?_, ?_⟩
      · rw [List.pairwise_map]
        exact (h.order.imp (fun hh => hh.1)).filter _
      · intro m hm n hn
        obtain ⟨f, hf, rfl⟩ := List.mem_map.1 hn
        have := List.mem_filter.1 hf
        exact h.after m hm f this.1 (by simpa using this.2)
    · intro m hm
      rcases List.mem_append.1 hm with hm | hm
      · exact h.toldBelow m hm
      · obtain ⟨f, hf, rfl⟩ := List.mem_map.1 hm
        exact h.below f (List.mem_filter.1 hf).1
    · intro m _ f hf hn
      exfalso
      refine hn (List.mem_append.2 ?_)
      by_cases hh : f.name ∈ s.seen
      · exact .inl hh
      · exact .inr (List.mem_map_of_mem (List.mem_filter.2 ⟨hf, by simpa using hh⟩))
  | ack m =>
    show Inv (s.ack m)
    refine ⟨fun f hf => h.name f (List.mem_filter.1 hf).1, h.order.filter _, fun f hf => h.below f (List.mem_filter.1 hf).1,
      h.told, h.toldBelow, ?_⟩
    intro k hk f hf hn
    have hf' := List.mem_filter.1 hf
    refine h.after k hk f hf'.1 (fun hs => hn (List.mem_filter.2 ⟨hs, ?_⟩))
    rw [Bool.not_eq_true', List.any_eq_false]
    intro g hg hh
    simp only [Bool.and_eq_true, decide_eq_true_eq] at hh
    have := name_inj h hf'.1 hg hh.2.symm
    simp [this, hh.1] at hf'
  | login =>
    exact ⟨h.name, h.order, h.below, List.Pairwise.nil, (fun _ hm => by cases hm), fun _ hm => by cases hm⟩

theorem inv_run : ∀ (es : List Ev) {s : State}, Inv s → All Later s es → Inv (run s es)
  | [], _, h, _ => h
  | _ :: es, _, h, hok => inv_run es (inv_step h hok.1) hok.2

theorem inv_start : Inv {} :=
  ⟨(fun _ h => by cases h), List.Pairwise.nil, (fun _ h => by cases h), List.Pairwise.nil, (fun _ h => by cases h),
    fun _ h => by cases h⟩

/-- C118.  If the clock on the wall of the server does not go back, each session announces messages in the order in which
they were stored. -/
theorem C118_order_partial {es : List Ev} (h : All Later {} es) : (run {} es).told.Pairwise (· < ·) :=
  (inv_run es inv_start h).told

/-- ... and a scan announces all. -/
theorem scan_all (s : State) : ∀ f ∈ s.files, f.name ∈ (step s .scan).seen := by
  intro f hf
  show f.name ∈ s.seen ++ ((readDir s.files).filter (fun f => decide (f.name ∉ s.seen))).map (·.name)
  by_cases hh : f.name ∈ s.seen
  · exact List.mem_append_left _ hh
  · refine List.mem_append_right _ (List.mem_map_of_mem (List.mem_filter.2 ⟨?_, by simpa using hh⟩))
    clear hh
    have hins : ∀ (g : File) (l : List File), f = g ∨ f ∈ l → f ∈ insert g l := by
      intro g l
      induction l with
      | nil => rintro (h | h); exact h ▸ List.mem_cons_self; cases h
      | cons x l ih =>
        intro h
        unfold insert
        split
        · rcases h with h | h
          · exact h ▸ List.mem_cons_self
          · exact List.mem_cons_of_mem _ h
        · rcases h with h | h
          · exact List.mem_cons_of_mem _ (ih (.inl h))
          · rcases List.mem_cons.1 h with h | h
            · exact h ▸ List.mem_cons_self
            · exact List.mem_cons_of_mem _ (ih (.inr h))
    have : ∀ l : List File, f ∈ l → f ∈ readDir l := by
      intro l
      induction l with
      | nil => exact fun h => h
      | cons x l ih =>
        intro h
        rcases List.mem_cons.1 h with h | h
        · exact hins _ _ (.inl h)
        · exact hins _ _ (.inr (ih h))
    exact this _ hf

/-- Days in the years before `y`, each with the leap day at its end. -/
def yearDays (y : Nat) : Nat := 365 * y + y / 4 - y / 100 + y / 400

/-- Days from the first of March of the year 0: the year is taken to begin in March, so that the leap day is its last. -/
def Date.days (a : Date) : Nat :=
  if a.m ≤ 2 then yearDays (a.y - 1) + (153 * (a.m + 9) + 2) / 5 + a.d - 1
  else yearDays a.y + (153 * (a.m - 3) + 2) / 5 + a.d - 1

theorem div_step (k y : Nat) : (y + 1) / k = y / k + if (y + 1) % k = 0 then 1 else 0 := by
  rw [Nat.succ_div]
  simp only [Nat.dvd_iff_mod_eq_zero]

theorem leap_length (n : Nat) : (if leap n then 366 else 365) + (if n % 100 = 0 then 1 else 0) =
    365 + (if n % 4 = 0 then 1 else 0) + if n % 400 = 0 then 1 else 0 := by
  have m100 : n % 100 = 0 → n % 4 = 0 := by omega
  have m400 : n % 400 = 0 → n % 100 = 0 := by omega
  unfold leap
  by_cases c : n % 400 = 0
  · simp [c, m400 c, m100 (m400 c)]
  · by_cases b : n % 100 = 0
    · simp [c, b, m100 b]
    · by_cases a : n % 4 = 0 <;> simp [a, b, c]

theorem yearDays_succ (y : Nat) : yearDays (y + 1) = yearDays y + if leap (y + 1) then 366 else 365 := by
  have hl := leap_length (y + 1)
  have hle : y / 100 ≤ y := Nat.div_le_self _ _
  unfold yearDays
  rw [div_step 4, div_step 100, div_step 400]
  have h100 : (if (y + 1) % 100 = 0 then 1 else 0) ≤ 1 := by split <;> decide
  generalize (if (y + 1) % 4 = 0 then 1 else 0) = i4 at *
  generalize (if (y + 1) % 100 = 0 then 1 else 0) = i100 at *
  generalize (if (y + 1) % 400 = 0 then 1 else 0) = i400 at *
  generalize (if leap (y + 1) then 366 else 365) = i at *
  generalize y / 4 = p at *
  generalize y / 100 = q at *
  generalize y / 400 = r at *
  omega

theorem days_next {a : Date} (h : a.Ok) (hy : 1970 ≤ a.y) : a.next.days = a.days + 1 ∧ 1970 ≤ a.next.y := by
  obtain ⟨y, m, d⟩ := a
  obtain ⟨h1, h2, h3, h4⟩ := h
  simp only at h1 h2 h3 h4 hy
  have hm : m = 1 ∨ m = 2 ∨ m = 3 ∨ m = 4 ∨ m = 5 ∨ m = 6 ∨ m = 7 ∨ m = 8 ∨ m = 9 ∨ m = 10 ∨ m = 11 ∨ m = 12 := by omega
  have key : (d < monthLen y m → Date.days ⟨y, m, d + 1⟩ = Date.days ⟨y, m, d⟩ + 1) ∧
      (d = monthLen y m → m < 12 → Date.days ⟨y, m + 1, 1⟩ = Date.days ⟨y, m, d⟩ + 1) ∧
      (d = monthLen y m → m = 12 → Date.days ⟨y + 1, 1, 1⟩ = Date.days ⟨y, m, d⟩ + 1) := by
    refine ⟨fun _ => ?_, fun hk hlt => ?_, fun hk he => ?_⟩
    · unfold Date.days
      simp only
      split <;> omega
    · rcases hm with rfl | rfl | rfl | rfl | rfl | rfl | rfl | rfl | rfl | rfl | rfl | rfl
      case inr.inl =>
        obtain ⟨z, rfl⟩ : ∃ z, y = z + 1 := ⟨y - 1, by omega⟩
        have hs := yearDays_succ z
        rw [hk]
        simp only [Date.days, monthLen, Nat.reduceAdd, Nat.reduceLeDiff, if_true, if_false, Nat.reduceSub, Nat.reduceMul,
          Nat.reduceDiv, Nat.add_sub_cancel]
        rw [hs]
        split <;> omega
      all_goals
        simp [monthLen] at hk
        subst hk
        simp only [Date.days, Nat.reduceAdd, Nat.reduceLeDiff, if_true, if_false, Nat.reduceSub, Nat.reduceMul, Nat.reduceDiv]
        try omega
    · subst he
      simp [monthLen] at hk
      subst hk
      simp only [Date.days, Nat.reduceAdd, Nat.reduceLeDiff, if_true, if_false, Nat.reduceSub, Nat.reduceMul, Nat.reduceDiv,
        Nat.add_sub_cancel]
      omega
  obtain ⟨k1, k2, k3⟩ := key
  unfold Date.next
  by_cases hd : d < monthLen y m
  · rw [if_pos hd]; exact ⟨k1 hd, hy⟩
  · rw [if_neg hd]
    by_cases h12 : m < 12
    · rw [if_pos h12]; exact ⟨k2 (by omega) h12, hy⟩
    · rw [if_neg h12]; exact ⟨k3 (by omega) (by omega), by simp only; omega⟩

/-- C118.  The calendar is the Gregorian one: each date is as many days after the first of January 1970 as it should be,
and exists. -/
theorem C118_calendar (n : Nat) : (date n).days = n + Date.days ⟨1970, 1, 1⟩ ∧ 1970 ≤ (date n).y ∧ 1 ≤ (date n).m ∧ (date n).m ≤ 12 ∧ 1 ≤ (date n).d ∧
    (date n).d ≤ 31 := by
  have : (date n).days = n + Date.days ⟨1970, 1, 1⟩ ∧ 1970 ≤ (date n).y := by
    induction n with
    | zero => exact ⟨(Nat.zero_add _).symm, Nat.le_refl _⟩
    | succ n ih =>
      obtain ⟨h1, h2⟩ := days_next (date_ok n) ih.2
      exact ⟨by show (date n).next.days = _; rw [h1, ih.1, Nat.add_right_comm], h2⟩
  obtain ⟨h1, h2, h3, h4⟩ := date_ok n
  exact ⟨this.1, this.2, h1, h2, h3, Nat.le_trans h4 (monthLen_bounds _ _).2⟩

/-- C118.  No two files have the same name: a message whose name is taken is refused, and what was there stays. -/
theorem C118_taken (es : List Ev) : ((run {} es).files.map (·.name)).Nodup ∧
    ∀ r, (∃ f ∈ (run {} es).files, f.name = messageName (wall r.shows)) → step (run {} es) (.store r) = run {} es := by
  constructor
  · suffices h : ∀ s : State, (s.files.map (·.name)).Nodup → ((run s es).files.map (·.name)).Nodup from
      h {} List.nodup_nil
    induction es with
    | nil => exact fun _ h => h
    | cons e es ih =>
      intro s h
      refine ih _ ?_
      cases e with
      | store r =>
        simp only [step, State.store]
        split
        · exact h
        · next hn =>
          rw [List.map_append, List.nodup_append]
          refine ⟨h, by simp, ?_⟩
          intro a ha b hb
          obtain ⟨f, hf, rfl⟩ := List.mem_map.1 ha
          simp only [List.map_cons, List.map_nil, List.mem_singleton] at hb
          rw [hb]
          intro he
          exact hn (List.any_eq_true.2 ⟨f, hf, by simpa using he⟩)
      | scan => exact h
      | ack m => exact (List.filter_sublist.map _).nodup h
      | login => exact h
  · rintro r ⟨f, hf, he⟩
    simp only [step, State.store]
    rw [if_pos (List.any_eq_true.2 ⟨f, hf, by simpa using he⟩)]

/-- C118.  After a login the next scan announces every message that is in the directory. -/
theorem C118_login (s : State) : ∀ f ∈ s.files, f.msg ∈ (run s [.login, .scan]).told := by
  intro f hf
  have := scan_all (step s .login) f hf
  show f.msg ∈ [] ++ ((readDir s.files).filter (fun f => decide (f.name ∉ ([] : List Str)))).map (·.msg)
  have hr : ∀ (l : List File) (g : File), (g ∈ l → g ∈ readDir l) := by
    have hins : ∀ (g x : File) (l : List File), x = g ∨ x ∈ l → x ∈ insert g l := by
      intro g x l
      induction l with
      | nil => rintro (h | h); exact h ▸ List.mem_cons_self; cases h
      | cons y l ih =>
        intro h
        unfold insert
        split
        · rcases h with h | h
          · exact h ▸ List.mem_cons_self
          · exact List.mem_cons_of_mem _ h
        · rcases h with h | h
          · exact List.mem_cons_of_mem _ (ih (.inl h))
          · rcases List.mem_cons.1 h with h | h
            · exact h ▸ List.mem_cons_self
            · exact List.mem_cons_of_mem _ (ih (.inr h))
    intro l
    induction l with
    | nil => exact fun _ h => h
    | cons x l ih =>
      intro g h
      rcases List.mem_cons.1 h with h | h
      · exact hins _ _ _ (.inl h)
      · exact hins _ _ _ (.inr (ih g h))
  rw [List.nil_append]
  exact List.mem_map_of_mem (List.mem_filter.2 ⟨hr _ _ hf, by simp⟩)

/-- The clock is right and the time zone has no summer time: the clock on the wall does not go back. -/
def Steady (zone : Int) (s : State) (e : Ev) : Prop :=
  ∀ r, e = .store r → r.Ok ∧ r.ahead = zone ∧ 0 ≤ r.utc + zone ∧ ∀ f ∈ s.files, f.stored.utc < r.utc

theorem All.inv {ok : State → Ev → Prop} {P : State → Prop} (hp : ∀ s e, P s → ok s e → P (step s e)) :
    ∀ (es : List Ev) {s : State}, P s → All ok s es → P (run s es)
  | [], _, h, _ => h
  | _ :: es, _, h, hok => All.inv hp es (hp _ _ h hok.1) hok.2

theorem All.mono {ok ok' : State → Ev → Prop} {P : State → Prop} (hp : ∀ s e, P s → ok s e → P (step s e))
    (hm : ∀ s e, P s → ok s e → ok' s e) : ∀ (es : List Ev) {s : State}, P s → All ok s es → All ok' s es
  | [], _, _, _ => trivial
  | _ :: es, _, h, hok => ⟨hm _ _ h hok.1, All.mono hp hm es (hp _ _ h hok.1) hok.2⟩

/-- C118.  With a clock that is right, in a time zone without summer time. -/
theorem C118_steady_partial {zone : Int} {es : List Ev} (h : All (Steady zone) {} es) :
    (run {} es).told.Pairwise (· < ·) := by
  refine C118_order_partial (All.mono (P := fun s => ∀ f ∈ s.files, f.stored.ahead = zone ∧ 0 ≤ f.stored.utc + zone)
    ?_ ?_ es (fun _ h => by cases h) h)
  · intro s e hs hok f hf
    cases e with
    | store r =>
      obtain ⟨_, h1, h2, _⟩ := hok r rfl
      have hf : f ∈ (s.store r).files := hf
      unfold State.store at hf
      simp only at hf
      split at hf
      · exact hs f hf
      · rcases List.mem_append.1 hf with hf | hf
        · exact hs f hf
        · cases List.mem_singleton.1 hf; exact ⟨h1, h2⟩
    | scan => exact hs f hf
    | ack m => exact hs f (List.mem_filter.1 hf).1
    | login => exact hs f hf
  · intro s e hs hok r hr
    obtain ⟨h1, h2, h3, h4⟩ := hok r hr
    refine ⟨h1, fun f hf => ?_⟩
    obtain ⟨h5, h6⟩ := hs f hf
    have := h4 f hf
    unfold Reading.shows
    rw [h2, h5]
    omega

/-- Messages are announced in the order in which they were stored: not so.  Of any two that wait for their recipient and
between which the clock on the wall went back, the later is announced first. -/
theorem C118_order_violated (r q : Reading) (hr : r.Ok) (h : q.shows < r.shows) :
    (run {} [.store r, .store q, .login, .scan]).told = [1, 0] := by
  have h1 : leStr (messageName (wall r.shows)) (messageName (wall q.shows)) = false :=
    messageName_lt (wall_valid hr) (wall_before h)
  have hne : messageName (wall r.shows) ≠ messageName (wall q.shows) := by
    intro he
    rw [he, leStr_refl] at h1; cases h1
  simp [run, step, State.store, hne, State.scan, readDir, insert, h1]

/-- So it is once a year for all that is stored within an hour of the end of summer time. -/
theorem C118_summer_violated (t u : Nat) (zone : Int) (h0 : 0 ≤ t + zone) (h1 : t < u) (h2 : u < t + 3600000000000)
    (hr : Reading.Ok ⟨t, zone + 3600000000000⟩) :
    (run {} [.store ⟨t, zone + 3600000000000⟩, .store ⟨u, zone⟩, .login, .scan]).told = [1, 0] := by
  refine C118_order_violated _ _ hr ?_
  simp only [Reading.shows]
  omega

/-! ## Backups -/

/-- The backups of versions `v`, `v + 1`, ... -/
def named : Nat → List Reading → List Backup
  | _, [] => []
  | v, r :: rs => ((wall r.shows).format, v) :: named (v + 1) rs

/-- The last `d`. -/
def keep (d : Nat) (l : List Backup) : List Backup := l.drop (l.length - d)

theorem named_length : ∀ (v : Nat) (rs : List Reading), (named v rs).length = rs.length
  | _, [] => rfl
  | v, _ :: rs => by simp [named, named_length (v + 1) rs]

theorem named_append : ∀ (v : Nat) (rs qs : List Reading), named v (rs ++ qs) = named v rs ++ named (v + rs.length) qs
  | _, [], _ => rfl
  | v, _ :: rs, qs => by
    simp only [named, List.cons_append, List.length_cons]
    rw [named_append (v + 1) rs qs]
    congr 3; omega

theorem named_mem {b : Backup} : ∀ {v : Nat} {rs : List Reading}, b ∈ named v rs → ∃ r ∈ rs, b.1 = (wall r.shows).format
  | _, [], h => by cases h
  | _, r :: _, h => by
    rcases List.mem_cons.1 h with rfl | h
    · exact ⟨r, List.mem_cons_self, rfl⟩
    · obtain ⟨q, hq, he⟩ := named_mem h
      exact ⟨q, List.mem_cons_of_mem _ hq, he⟩

theorem named_snd : ∀ (v : Nat) (rs : List Reading), (named v rs).map (·.2) = List.range' v rs.length
  | _, [] => rfl
  | v, _ :: rs => by simp [named, named_snd (v + 1) rs, List.range'_succ]

theorem insertB_first {b : Backup} {l : List Backup} (h : ∀ c ∈ l, leStr b.1 c.1 = true) : insertB b l = b :: l := by
  cases l with
  | nil => rfl
  | cons g l => simp [insertB, h g List.mem_cons_self]

theorem sortB_sorted {l : List Backup} (h : l.Pairwise (fun b c => leStr b.1 c.1 = true)) : sortB l = l := by
  induction l with
  | nil => rfl
  | cons f l ih =>
    have := List.pairwise_cons.1 h
    rw [sortB, ih this.2, insertB_first this.1]

theorem named_sorted {rs : List Reading} (hok : ∀ r ∈ rs, r.Ok) (h : rs.Pairwise (fun r q => r.shows < q.shows)) (v : Nat) :
    (named v rs).Pairwise (fun b c => leStr b.1 c.1 = true) := by
  induction rs generalizing v with
  | nil => exact List.Pairwise.nil
  | cons r rs ih =>
    have hc := List.pairwise_cons.1 h
    refine List.pairwise_cons.2 ⟨fun c hcm => ?_, ih (fun q hq => hok q (List.mem_cons_of_mem _ hq)) hc.2 _⟩
    obtain ⟨q, hq, he⟩ := named_mem hcm
    rw [he]
    exact (format_le (hok r List.mem_cons_self) (hok q (List.mem_cons_of_mem _ hq))).2 (Nat.le_of_lt (hc.1 q hq))

theorem keep_nil (d : Nat) : keep d [] = [] := List.drop_nil

theorem keep_append {d : Nat} {a b : List Backup} (h : d ≤ b.length) : keep d (a ++ b) = keep d b := by
  unfold keep
  rw [List.length_append, List.drop_append, List.drop_eq_nil_of_le (by omega), List.nil_append]
  congr 1; omega

theorem keep_keep (d : Nat) (l : List Backup) (x : Backup) : keep d (keep d l ++ [x]) = keep d (l ++ [x]) := by
  have hl : l = l.take (l.length - d) ++ keep d l := (List.take_append_drop _ _).symm
  rcases Nat.lt_or_ge l.length d with h | h
  · have : keep d l = l := by unfold keep; rw [show l.length - d = 0 by omega, List.drop_zero]
    rw [this]
  · conv_rhs => rw [hl, List.append_assoc]
    refine (keep_append ?_).symm
    simp only [keep, List.length_append, List.length_drop, List.length_singleton]
    omega

theorem keep_sublist (d : Nat) (l : List Backup) : (keep d l).Sublist l := List.drop_sublist _ _

theorem save_sorted {d v : Nat} {rs : List Reading} {r : Reading} (hok : ∀ q ∈ rs ++ [r], q.Ok)
    (h : (rs ++ [r]).Pairwise (fun r q => r.shows < q.shows)) :
    save d (keep d (named v rs)) r (v + rs.length) = keep d (named v (rs ++ [r])) := by
  have hp := named_sorted hok h v
  rw [named_append] at hp ⊢
  have hf : (keep d (named v rs)).filter (fun b => decide (b.1 ≠ (wall r.shows).format)) = keep d (named v rs) := by
    refine List.filter_eq_self.2 (fun b hb => ?_)
    obtain ⟨q, hq, he⟩ := named_mem ((keep_sublist d _).subset hb)
    have hlt := (List.pairwise_append.1 h).2.2 q hq r (List.mem_singleton.2 rfl)
    have hne := (C118_names (hok q (List.mem_append_left _ hq)) (hok r (List.mem_append_right _ (List.mem_singleton.2 rfl)))).2.2.2
    rw [he]
    simp only [ne_eq, decide_not, Bool.not_eq_true', decide_eq_false_iff_not]
    intro hh
    have := hne.1 hh
    omega
  show keep d (sortB ((keep d (named v rs)).filter (fun b => decide (b.1 ≠ (wall r.shows).format)) ++
    [((wall r.shows).format, v + rs.length)])) = _
  rw [hf, sortB_sorted]
  · exact keep_keep _ _ _
  · refine hp.sublist (List.Sublist.append (keep_sublist d _) ?_)
    exact List.Sublist.refl _

theorem saves_keep (d : Nat) : ∀ (qs rs : List Reading), (∀ r ∈ rs ++ qs, r.Ok) →
    (rs ++ qs).Pairwise (fun r q => r.shows < q.shows) →
    saves d (keep d (named 0 rs)) rs.length qs = keep d (named 0 (rs ++ qs))
  | [], rs, _, _ => by rw [List.append_nil]; rfl
  | q :: qs, rs, hok, h => by
    have e : rs ++ q :: qs = (rs ++ [q]) ++ qs := by simp
    rw [e] at hok h ⊢
    rw [← saves_keep d qs (rs ++ [q]) hok h]
    show saves d (save d (keep d (named 0 rs)) q rs.length) (rs.length + 1) qs = _
    have := save_sorted (d := d) (v := 0) (rs := rs) (r := q) (fun x hx => hok x (List.mem_append_left _ hx))
      (List.pairwise_append.1 h).1
    rw [Nat.zero_add] at this
    rw [this, List.length_append]; rfl

/-- C118.  If the clock on the wall does not go back between two saves, the newest versions are kept. -/
theorem C118_backups_partial (d : Nat) {rs : List Reading} (hok : ∀ r ∈ rs, r.Ok)
    (h : rs.Pairwise (fun r q => r.shows < q.shows)) :
    (saves d [] 0 rs).map (·.2) = (List.range rs.length).drop (rs.length - d) := by
  have e := saves_keep d rs [] hok h
  rw [named, keep_nil, List.nil_append, List.length_nil] at e
  rw [e, keep, List.map_drop, named_snd, named_length, List.range_eq_range']

theorem sortB_last {l : List Backup} (h : l.Pairwise (fun b c => leStr b.1 c.1 = true)) {x : Backup}
    (hx : ∀ b ∈ l, leStr b.1 x.1 = false) : sortB (l ++ [x]) = x :: l := by
  induction l with
  | nil => rfl
  | cons b l ih =>
    have hc := List.pairwise_cons.1 h
    rw [List.cons_append, sortB, ih hc.2 (fun c hc' => hx c (List.mem_cons_of_mem _ hc'))]
    simp only [insertB, hx b List.mem_cons_self]
    rw [insertB_first hc.1]; rfl

/-- The newest versions are kept: not so.  After the clock on the wall went back, as long as it shows less than at the
saves before, each new backup is removed at once. -/
theorem C118_backups_violated (d : Nat) {rs : List Reading} (hok : ∀ r ∈ rs, r.Ok)
    (h : rs.Pairwise (fun r q => r.shows < q.shows)) (hd : d ≤ rs.length) (q : Reading) (hq : ∀ r ∈ rs, q.shows < r.shows) :
    save d (saves d [] 0 rs) q rs.length = saves d [] 0 rs := by
  have e := saves_keep d rs [] hok h
  rw [named, keep_nil, List.nil_append, List.length_nil] at e
  rw [e]
  have hlt : ∀ b ∈ keep d (named 0 rs), leStr b.1 (wall q.shows).format = false := by
    intro b hb
    obtain ⟨r, hr, he⟩ := named_mem ((keep_sublist d _).subset hb)
    rw [he]
    exact format_lt (wall_valid (hok r hr)) (wall_before (hq r hr))
  have hf : (keep d (named 0 rs)).filter (fun b => decide (b.1 ≠ (wall q.shows).format)) = keep d (named 0 rs) := by
    refine List.filter_eq_self.2 (fun b hb => ?_)
    simp only [ne_eq, decide_not, Bool.not_eq_true', decide_eq_false_iff_not]
    intro hh
    have := hlt b hb
    rw [hh, leStr_refl] at this; cases this
  show keep d (sortB ((keep d (named 0 rs)).filter (fun b => decide (b.1 ≠ (wall q.shows).format)) ++
    [((wall q.shows).format, rs.length)])) = _
  rw [hf, sortB_last ((named_sorted hok h 0).sublist (keep_sublist d _)) hlt]
  have hlen : (keep d (named 0 rs)).length = d := by
    simp only [keep, List.length_drop, named_length]; omega
  unfold keep at hlen ⊢
  rw [List.length_cons, hlen, show d + 1 - d = 1 by omega]
  rfl

/-! ## Examples -/

/-- An hour is 3600 seconds of 1000000000 nanoseconds. -/
def hour : Nat := 3600 * 1000000000

example : wall (hour * (24 * 59 + 7) + 5) = ⟨1970, 3, 1, 7, 0, 0, 5⟩ := by decide +kernel
example : (wall (hour * (24 * 365))).year = 1971 := by decide +kernel
example : messageName (wall (hour * 25 + 42)) = "19700102010000.000000042".toList := by decide

/-- Three messages, the second stored after the first was announced; a new session has the two that are left. -/
example : (run {} [.store ⟨5, 0⟩, .scan, .store ⟨9, 0⟩, .ack 0, .store ⟨12, 0⟩, .login, .scan]).told = [1, 2] := by decide

example : All Later {} [.store ⟨5, 0⟩, .scan, .store ⟨9, 0⟩, .ack 0, .store ⟨12, 0⟩, .login, .scan] := by
  refine ⟨?_, ?_, ?_, ?_, ?_, ?_, ?_, trivial⟩ <;> intro r hr <;> cases hr <;> exact ⟨by decide, by decide⟩

/-- Summer time ends half an hour after the first message. -/
example : (run {} [.store ⟨hour * 24, hour⟩, .store ⟨hour * 24 + hour / 2, 0⟩, .login, .scan]).told = [1, 0] := by decide

example : (saves 2 [] 0 [⟨5, 0⟩, ⟨9, 0⟩, ⟨12, 0⟩]).map (·.2) = [1, 2] := by decide
example : (saves 2 [] 0 [⟨5, 7⟩, ⟨9, 7⟩, ⟨12, 0⟩, ⟨13, 0⟩]).map (·.2) = [3, 1] := by decide

/-- C118_calendar: the leap day of 2000, and the day after. -/
example : date 59 = ⟨1970, 3, 1⟩ ∧ Date.days ⟨2000, 2, 29⟩ + 1 = Date.days ⟨2000, 3, 1⟩ ∧
    Date.days ⟨2100, 2, 28⟩ + 1 = Date.days ⟨2100, 3, 1⟩ := by decide +kernel

/-- C118_taken, C118_login: two messages in the same nanosecond; a session begins after the first was announced. -/
example : (run {} [.store ⟨5, 0⟩, .store ⟨5, 0⟩, .scan, .store ⟨9, 0⟩]).files.map (·.msg) = [0, 1] ∧
    (run {} [.store ⟨5, 0⟩, .store ⟨5, 0⟩, .scan, .store ⟨9, 0⟩, .login, .scan]).told = [0, 1] := by decide

end Verif.Clock
