import Verif.Model.Listing
import Verif.Proofs.GoMap
import Mathlib.Data.List.Induction

/-! # C112: lookups and registrations are right whatever other connections do

The spec is in terms of what user.ini of each directory says at the moments of a call. -/

namespace Verif.Listing

/-- The directory has a user.ini that lists the account with that identity. -/
def lists (s : State) (n : Name) (p : Pub) : Prop :=
  ∃ u, s.dirs.get n = some (some u) ∧ u.listed = true ∧ u.ident = some p

/-- The directory has a user.ini, and an identity in it if it is listed. -/
def readable (s : State) (n : Name) : Prop :=
  ∃ u, s.dirs.get n = some (some u) ∧ (u.listed = true → u.ident.isSome = true)

/-- Something holds at every moment of a run. -/
def Always (P : State → Prop) (s : State) (es : List Ev) : Prop :=
  ∀ a b m, es = a ++ b → run s a = some m → P m

/-- Something holds at some moment of a run. -/
def Once (P : State → Prop) (s : State) (es : List Ev) : Prop :=
  ∃ a b m, es = a ++ b ∧ run s a = some m ∧ P m

theorem run_append {s : State} {a b : List Ev} :
    run s (a ++ b) = (run s a).bind fun s' => run s' b := by
  induction a generalizing s with
  | nil => rfl
  | cons e a ih =>
    simp only [List.cons_append, run]
    cases step s e with
    | none => rfl
    | some t => simp [ih]

theorem always_cons {P : State → Prop} {s s1 : State} {e : Ev} {es : List Ev} (h : Always P s (e :: es))
    (h1 : step s e = some s1) : P s ∧ Always P s1 es := by
  refine ⟨h [] (e :: es) s rfl rfl, fun a b m hab hm => h (e :: a) b m (by simp [hab]) ?_⟩
  simp [run, h1, hm]

theorem once_cons {P : State → Prop} {s s1 : State} {e : Ev} {es : List Ev} (h : Once P s1 es)
    (h1 : step s e = some s1) : Once P s (e :: es) := by
  obtain ⟨a, b, m, hab, hm, hP⟩ := h
  exact ⟨e :: a, b, m, by simp [hab], by simp [run, h1, hm], hP⟩

/-! ## What a goroutine does, and what the others do to it -/

theorem goto_self (s : State) (t : Nat) (pc : Pc) : (s.goto t pc).threads t = pc := by simp [State.goto]

theorem goto_ne (s : State) {t t' : Nat} (pc : Pc) (h : t' ≠ t) : (s.goto t pc).threads t' = s.threads t' := by
  simp [State.goto, h]

/-- Where a goroutine goes, given the disk. -/
def nextPc (s : State) : Pc → Pc
  | .idle => .idle
  | .fin r => .fin r
  | .walk _ [] reg => orElse reg .notFound
  | .walk nick (n :: rest) reg => visit (s.dirs.get n) nick rest reg
  | .stat p => if (s.dirs.get ⟨false, p.id⟩).isSome then .fin .refused else .mk p
  | .mk p => .load p
  | .load p =>
    match s.dirs.get ⟨false, p.id⟩ with
    | none => .fin .failed
    | some none => .put p.id ⟨some p, false⟩ true
    | some (some u) => .back p.id { u with ident := some p } true
  | .push id =>
    match s.dirs.get ⟨false, id⟩ with
    | some (some u) => .back id { u with listed := true } false
    | _ => .fin .failed
  | .back id u reg =>
    match s.dirs.get ⟨false, id⟩ with
    | some (some _) => .put id u reg
    | _ => .fin .failed
  | .put id _ reg =>
    match s.dirs.get ⟨false, id⟩ with
    | some _ => if reg then .cache id else .fin .pushed
    | none => .fin .failed
  | .cache id => .fin (if (s.dirs.get ⟨false, id⟩).isSome then .created else .failed)

theorem go_pc {s s' : State} {t : Nat} (h : go s t = some s') :
    s'.threads t = nextPc s (s.threads t) ∧ ∀ x, x ≠ t → s'.threads x = s.threads x := by
  unfold go at h
  split at h
  · cases h
  · cases h
  all_goals (rename_i hp; rw [hp])
  all_goals first
    | (cases h; exact ⟨by simp [nextPc, State.goto], fun x hx => goto_ne _ _ hx⟩)
    | (split at h <;> cases h <;> refine ⟨?_, fun x hx => goto_ne _ _ hx⟩ <;> rw [goto_self] <;>
        simp only [nextPc, *])

/-- Other than by its own steps a goroutine is only moved by a crash. -/
theorem step_pc {s s' : State} {e : Ev} (t : Nat) (h : step s e = some s') (hc : e ≠ .crash)
    (hi : s.threads t ≠ .idle) :
    (e = .go t ∧ s'.threads t = nextPc s (s.threads t)) ∨ s'.threads t = s.threads t := by
  cases e <;> simp only [step] at h
  case find x n o =>
    split at h <;> cases h
    rename_i hh
    have : t ≠ x := by rintro rfl; exact hi hh.1
    exact .inr (goto_ne _ _ this)
  case create x n o =>
    split at h <;> cases h
    rename_i hh
    have : t ≠ x := by rintro rfl; exact hi hh.1
    exact .inr (goto_ne _ _ this)
  case push x n =>
    split at h <;> cases h
    rename_i hh
    have : t ≠ x := by rintro rfl; exact hi hh
    exact .inr (goto_ne _ _ this)
  case go x =>
    obtain ⟨a, b⟩ := go_pc h
    by_cases hx : t = x
    · subst hx; exact .inl ⟨rfl, a⟩
    · exact .inr (b t hx)
  case disable id => split at h <;> cases h <;> exact .inr rfl
  case enable id => split at h <;> cases h <;> exact .inr rfl
  case crash => exact absurd rfl hc

/-- After `Find`. -/
def past : Pc → Bool
  | .idle => false
  | .walk _ _ _ => false
  | _ => true

/-- A result stays; what comes after `Find` finds nothing. -/
theorem past_next {s : State} {pc : Pc} (h : past pc = true) :
    past (nextPc s pc) = true ∧ (∀ r, pc = .fin r → nextPc s pc = .fin r) ∧
    ∀ p, nextPc s pc = .fin (.found p) → pc = .fin (.found p) := by
  cases pc with
  | idle => simp [past] at h
  | walk a b c => simp [past] at h
  | fin r => simp [nextPc, past]
  | stat p => simp only [nextPc]; split <;> simp [past]
  | mk p => simp [nextPc, past]
  | load p => simp only [nextPc]; split <;> simp [past]
  | push id => simp only [nextPc]; split <;> simp [past]
  | back id u r => simp only [nextPc]; split <;> simp [past]
  | put id u r =>
    simp only [nextPc]
    split
    · cases r <;> simp [past]
    · simp [past]
  | cache id => simp only [nextPc]; split <;> simp [past]

theorem past_run {s s' : State} {es : List Ev} {t : Nat} (hp : past (s.threads t) = true) (hc : Ev.crash ∉ es)
    (h : run s es = some s') :
    past (s'.threads t) = true ∧ (∀ r, s.threads t = .fin r → s'.threads t = .fin r) ∧
    ∀ p, s'.threads t = .fin (.found p) → s.threads t = .fin (.found p) := by
  induction es generalizing s with
  | nil => cases h; exact ⟨hp, fun r h => h, fun p h => h⟩
  | cons e es ih =>
    simp only [run, Option.bind_eq_some_iff] at h
    obtain ⟨m, hm, h⟩ := h
    simp only [List.mem_cons, not_or] at hc
    have hi : s.threads t ≠ .idle := by intro hi; rw [hi] at hp; simp [past] at hp
    rcases step_pc t hm (Ne.symm hc.1) hi with ⟨-, hn⟩ | hn
    · obtain ⟨a, b, c⟩ := past_next (s := s) hp
      obtain ⟨x, y, z⟩ := ih (by rw [hn]; exact a) hc.2 h
      exact ⟨x, fun r hr => y r (by rw [hn]; exact b r hr), fun p hf => c p (by rw [← hn]; exact z p hf)⟩
    · obtain ⟨x, y, z⟩ := ih (by rw [hn]; exact hp) hc.2 h
      exact ⟨x, fun r hr => y r (by rw [hn]; exact hr), fun p hf => by rw [← hn]; exact z p hf⟩

/-! ## What is found was there -/

theorem visit_cases (f : Option (Option User)) (nick : Bytes) (rest : List Name) (reg : Option Pub) :
    visit f nick rest reg = .walk nick rest reg ∨
    (visit f nick rest reg = orElse reg .failed ∧
      (f = none ∨ f = some none ∨ ∃ u, f = some (some u) ∧ u.listed = true ∧ u.ident = none)) ∨
    ∃ u q, f = some (some u) ∧ u.listed = true ∧ u.ident = some q ∧ q.nick = nick ∧
      visit f nick rest reg = match reg with | none => .fin (.found q) | some _ => .fin .refused := by
  rcases f with _ | _ | u
  · exact .inr (.inl ⟨rfl, .inl rfl⟩)
  · exact .inr (.inl ⟨rfl, .inr (.inl rfl)⟩)
  · simp only [visit]
    by_cases hl : u.listed = true
    · rw [if_pos hl]
      cases hu : u.ident with
      | none => exact .inr (.inl ⟨rfl, .inr (.inr ⟨u, rfl, hl, hu⟩)⟩)
      | some q =>
        by_cases hq : q.nick = nick
        · refine .inr (.inr ⟨u, q, rfl, hl, hu, hq, ?_⟩)
          simp only [hq, ↓reduceIte]
          cases reg <;> rfl
        · simp [hq]
    · simp [hl]

theorem sound_aux {s s' : State} {es : List Ev} {t : Nat} {nick : Bytes} {rest : List Name} {p : Pub}
    (hw : s.threads t = .walk nick rest none) (hc : Ev.crash ∉ es) (h : run s es = some s')
    (hf : s'.threads t = .fin (.found p)) : p.nick = nick ∧ Once (fun m => ∃ n, lists m n p) s es := by
  induction es generalizing s rest with
  | nil => cases h; rw [hw] at hf; cases hf
  | cons e es ih =>
    simp only [run, Option.bind_eq_some_iff] at h
    obtain ⟨m, hm, h⟩ := h
    simp only [List.mem_cons, not_or] at hc
    have again : ∀ rest', m.threads t = .walk nick rest' none →
        p.nick = nick ∧ Once (fun m => ∃ n, lists m n p) s (e :: es) := by
      intro rest' hw'
      obtain ⟨a, b⟩ := ih hw' hc.2 h
      exact ⟨a, once_cons b hm⟩
    rcases step_pc t hm (Ne.symm hc.1) (by rw [hw]; simp) with ⟨-, hn⟩ | hn
    · rw [hw] at hn
      cases rest with
      | nil =>
        simp only [nextPc, orElse] at hn
        have := (past_run (by rw [hn]; rfl) hc.2 h).2.1 _ hn
        rw [this] at hf; cases hf
      | cons n rest =>
        simp only [nextPc] at hn
        rcases visit_cases (s.dirs.get n) nick rest none with hv | ⟨hv, -⟩ | ⟨u, q, hu, hl, hid, hq, hv⟩
        · rw [hv] at hn; exact again rest hn
        · rw [hv] at hn
          have := (past_run (by rw [hn]; rfl) hc.2 h).2.1 _ hn
          rw [this] at hf; cases hf
        · rw [hv] at hn
          have := (past_run (by rw [hn]; rfl) hc.2 h).2.1 _ hn
          rw [this] at hf; cases hf
          exact ⟨hq, [], e :: es, s, rfl, rfl, n, u, hu, hl, hid⟩
    · rw [hw] at hn; exact again rest hn

/-- A lookup that finds somebody finds an account that was listed with that nick and that identity at some moment of
the lookup, whatever other connections did. -/
theorem C112_sound {s s' : State} {es : List Ev} {t : Nat} {nick : Bytes} {order : List Name} {p : Pub}
    (hc : Ev.crash ∉ es) (h : run s (.find t nick order :: es) = some s') (hf : s'.threads t = .fin (.found p)) :
    p.nick = nick ∧ Once (fun m => ∃ n, lists m n p) s (.find t nick order :: es) := by
  simp only [run, Option.bind_eq_some_iff] at h
  obtain ⟨m, hm, h⟩ := h
  have hw : m.threads t = .walk nick order none := by
    simp only [step] at hm
    split at hm <;> cases hm
    exact goto_self _ _ _
  obtain ⟨a, b⟩ := sound_aux hw hc h hf
  exact ⟨a, once_cons b hm⟩

/-! ## What is there is found -/

/-- All directories of the list can be read, and one lists the nick. -/
def Calm (order : List Name) (n0 : Name) (nick : Bytes) (m : State) : Prop :=
  (∀ n ∈ order, readable m n) ∧ ∃ p, p.nick = nick ∧ lists m n0 p

/-- How `Find` ends if the nick is listed. -/
def ended (reg : Option Pub) (nick : Bytes) (pc : Pc) : Prop :=
  match reg with
  | none => ∃ p, pc = .fin (.found p) ∧ p.nick = nick
  | some _ => pc = .fin .refused

theorem complete_aux {s s' : State} {es : List Ev} {t : Nat} {nick : Bytes} {order rest : List Name} {n0 : Name}
    {reg : Option Pub} (hw : s.threads t = .walk nick rest reg) (h0 : n0 ∈ rest) (hr : ∀ n ∈ rest, n ∈ order)
    (hc : Ev.crash ∉ es) (ha : Always (Calm order n0 nick) s es) (h : run s es = some s') :
    (∃ rest, s'.threads t = .walk nick rest reg) ∨ ended reg nick (s'.threads t) := by
  induction es generalizing s rest with
  | nil => cases h; exact .inl ⟨rest, hw⟩
  | cons e es ih =>
    simp only [run, Option.bind_eq_some_iff] at h
    obtain ⟨m, hm, h⟩ := h
    simp only [List.mem_cons, not_or] at hc
    obtain ⟨⟨hread, p0, hp0, u0, hu0, hl0, hi0⟩, ha'⟩ := always_cons ha hm
    rcases step_pc t hm (Ne.symm hc.1) (by rw [hw]; simp) with ⟨-, hn⟩ | hn
    · rw [hw] at hn
      cases rest with
      | nil => cases h0
      | cons n rest =>
        simp only [nextPc] at hn
        rcases visit_cases (s.dirs.get n) nick rest reg with hv | ⟨-, hbad⟩ | ⟨u, q, hu, hl, hid, hq, hv⟩
        · rw [hv] at hn
          have h0' : n0 ∈ rest := by
            rcases List.mem_cons.mp h0 with rfl | h0
            · exfalso
              rw [hu0] at hv
              simp only [visit, hl0, ↓reduceIte, hi0, hp0] at hv
              cases reg <;> simp at hv
            · exact h0
          exact ih hn h0' (fun x hx => hr x (by simp [hx])) hc.2 ha' h
        · exfalso
          obtain ⟨u, hu, hlu⟩ := hread n (hr n (by simp))
          rcases hbad with hb | hb | ⟨v, hb, hl, hv⟩
          · rw [hu] at hb; cases hb
          · rw [hu] at hb; cases hb
          · rw [hu] at hb; cases hb
            have := hlu hl
            rw [hv] at this; cases this
        · rw [hv] at hn
          right
          cases reg with
          | none => exact ⟨q, (past_run (by rw [hn]; rfl) hc.2 h).2.1 _ hn, hq⟩
          | some r => exact (past_run (by rw [hn]; rfl) hc.2 h).2.1 _ hn
    · rw [hw] at hn
      exact ih hn h0 hr hc.2 ha' h

/-- If during a lookup every directory that was there at its beginning can be read, and one of them is listed with the
nick, the lookup finds an identity with that nick. -/
theorem C112_found_partial {s s' : State} {es : List Ev} {t : Nat} {nick : Bytes} {order : List Name} {n0 : Name}
    (hc : Ev.crash ∉ es) (ha : Always (Calm order n0 nick) s (.find t nick order :: es))
    (h : run s (.find t nick order :: es) = some s') :
    (∃ rest, s'.threads t = .walk nick rest none) ∨ ∃ p, s'.threads t = .fin (.found p) ∧ p.nick = nick := by
  simp only [run, Option.bind_eq_some_iff] at h
  obtain ⟨m, hm, h⟩ := h
  obtain ⟨⟨-, p0, -, u0, hu0, -⟩, ha'⟩ := always_cons ha hm
  simp only [step] at hm
  split at hm <;> cases hm
  rename_i hh
  have h0 : n0 ∈ order := hh.2.1.mem_iff.mpr (List.mem_map.mpr ⟨_, GoMap.mem_of_get hu0, rfl⟩)
  exact complete_aux (reg := none) (goto_self _ _ _) h0 (fun n hn => hn) hc ha' h

/-- If during a registration every directory that was there at its beginning can be read, and one of them is listed
with the nick, the registration is refused. -/
theorem C112_taken_partial {s s' : State} {es : List Ev} {t : Nat} {p : Pub} {order : List Name} {n0 : Name}
    (hc : Ev.crash ∉ es) (ha : Always (Calm order n0 p.nick) s (.create t p order :: es))
    (h : run s (.create t p order :: es) = some s') :
    (∃ rest, s'.threads t = .walk p.nick rest (some p)) ∨ s'.threads t = .fin .refused := by
  simp only [run, Option.bind_eq_some_iff] at h
  obtain ⟨m, hm, h⟩ := h
  obtain ⟨⟨-, p0, -, u0, hu0, -⟩, ha'⟩ := always_cons ha hm
  simp only [step] at hm
  split at hm <;> cases hm
  rename_i hh
  have h0 : n0 ∈ order := hh.2.1.mem_iff.mpr (List.mem_map.mpr ⟨_, GoMap.mem_of_get hu0, rfl⟩)
  exact complete_aux (reg := some p) (goto_self _ _ _) h0 (fun n hn => hn) hc ha' h

theorem ends_aux {s s' : State} {es : List Ev} {t : Nat} {nick : Bytes} {rest : List Name} {reg : Option Pub}
    (hw : s.threads t = .walk nick rest reg) (hc : Ev.crash ∉ es) (hk : rest.length < es.count (.go t))
    (h : run s es = some s') : past (s'.threads t) = true := by
  induction es generalizing s rest with
  | nil => simp at hk
  | cons e es ih =>
    simp only [run, Option.bind_eq_some_iff] at h
    obtain ⟨m, hm, h⟩ := h
    simp only [List.mem_cons, not_or] at hc
    rcases step_pc t hm (Ne.symm hc.1) (by rw [hw]; simp) with ⟨rfl, hn⟩ | hn
    · rw [hw] at hn
      rw [List.count_cons_self] at hk
      cases rest with
      | nil =>
        exact (past_run (by rw [hn]; cases reg <;> rfl) hc.2 h).1
      | cons n rest =>
        simp only [nextPc] at hn
        rcases visit_cases (s.dirs.get n) nick rest reg with hv | ⟨hv, -⟩ | ⟨u, q, -, -, -, -, hv⟩
        · rw [hv] at hn
          exact ih hn hc.2 (by simpa using hk) h
        · rw [hv] at hn
          exact (past_run (by rw [hn]; cases reg <;> rfl) hc.2 h).1
        · rw [hv] at hn
          exact (past_run (by rw [hn]; cases reg <;> rfl) hc.2 h).1
    · by_cases hg : e = .go t
      · subst hg
        obtain ⟨a, -⟩ := go_pc (by simpa [step] using hm)
        rw [hw] at a hn
        rw [hn] at a
        cases rest with
        | nil => cases reg <;> simp [nextPc, orElse] at a
        | cons n rest =>
          simp only [nextPc] at a
          rcases visit_cases (s.dirs.get n) nick rest reg with hv | ⟨hv, -⟩ | ⟨u, q, -, -, -, -, hv⟩
          · rw [hv] at a
            injection a with _ a _
            exact absurd a (by simp)
          · rw [hv] at a; cases reg <;> simp [orElse] at a
          · rw [hv] at a; cases reg <;> simp at a
      · rw [hw] at hn
        rw [List.count_cons_of_ne (by simpa using hg)] at hk
        exact ih hn hc.2 hk h

/-- A lookup ends: it takes one step more than there are directories. -/
theorem C112_ends {s s' : State} {es : List Ev} {t : Nat} {nick : Bytes} {order : List Name} (hc : Ev.crash ∉ es)
    (hk : s.dirs.length < es.count (.go t)) (h : run s (.find t nick order :: es) = some s') :
    ∃ r, s'.threads t = .fin r := by
  simp only [run, Option.bind_eq_some_iff] at h
  obtain ⟨m, hm, h⟩ := h
  simp only [step] at hm
  split at hm <;> cases hm
  rename_i hh
  have hl : order.length = s.dirs.length := by simpa using hh.2.1.length_eq
  have hp := ends_aux (goto_self _ _ _) hc (by omega) h
  clear hk hl
  have key : ∀ {es : List Ev} {m : State} {rest : List Name}, Ev.crash ∉ es →
      (m.threads t = .walk nick rest none ∨ ∃ r, m.threads t = .fin r) → run m es = some s' →
      (∃ rest, s'.threads t = .walk nick rest none) ∨ ∃ r, s'.threads t = .fin r := by
    intro es
    induction es with
    | nil =>
      intro m rest _ hm h
      cases h
      exact hm.imp (fun h => ⟨rest, h⟩) id
    | cons e es ih =>
      intro m rest hc hm h
      simp only [run, Option.bind_eq_some_iff] at h
      obtain ⟨x, hx, h⟩ := h
      simp only [List.mem_cons, not_or] at hc
      have hni : m.threads t ≠ .idle := by
        rcases hm with hm | ⟨r, hm⟩ <;> rw [hm] <;> simp
      rcases step_pc t hx (Ne.symm hc.1) hni with ⟨-, hn⟩ | hn
      · rcases hm with hm | ⟨r, hm⟩
        · rw [hm] at hn
          cases rest with
          | nil => exact ih (rest := []) hc.2 (.inr ⟨_, hn⟩) h
          | cons n rest =>
            simp only [nextPc] at hn
            rcases visit_cases (m.dirs.get n) nick rest none with hv | ⟨hv, -⟩ | ⟨u, q, -, -, -, -, hv⟩
            · rw [hv] at hn; exact ih hc.2 (.inl hn) h
            · rw [hv] at hn; exact ih (rest := rest) hc.2 (.inr ⟨_, hn⟩) h
            · rw [hv] at hn; exact ih (rest := rest) hc.2 (.inr ⟨_, hn⟩) h
        · rw [hm] at hn; exact ih (rest := rest) hc.2 (.inr ⟨_, hn⟩) h
      · rw [← hn] at hm; exact ih hc.2 hm h
  rcases key hc (.inl (goto_self _ _ _)) h with ⟨rest, hw⟩ | hr
  · rw [hw] at hp; cases hp
  · exact hr

/-! ## No directory is spoiled -/

/-- Goroutine `t` will put a user.ini into the directory. -/
def saving (pc : Pc) (id : Bytes) : Prop :=
  (∃ p, pc = .load p ∧ p.id = id) ∨ ∃ u r, pc = .put id u r

/-- The file that a goroutine is about to write is one that can be read. -/
def goodPc : Pc → Prop
  | .back _ u _ => u.listed = true → u.ident.isSome = true
  | .put _ u _ => u.listed = true → u.ident.isSome = true
  | _ => True

/-- No crash, no account is disabled while its user.ini is being replaced, and nobody logs in before the registration
is complete. -/
def careful (s : State) : Ev → Prop
  | .crash => False
  | .disable id => s.dirs.get ⟨false, id⟩ ≠ some none
  | .go t => ∀ id u, s.threads t = .push id → s.dirs.get ⟨false, id⟩ = some (some u) → u.ident.isSome = true
  | _ => True

def Careful : State → List Ev → Prop
  | _, [] => True
  | s, e :: es => careful s e ∧ ∀ s', step s e = some s' → Careful s' es

/-- Every directory can be read, or somebody is about to put a file into it. -/
def Whole (s : State) : Prop :=
  (∀ n, s.dirs.get n = some none → n.dot = false ∧ ∃ t, saving (s.threads t) n.id) ∧
  (∀ n u, s.dirs.get n = some (some u) → u.listed = true → u.ident.isSome = true) ∧
  ∀ t, goodPc (s.threads t)

theorem whole_goto {s : State} {t : Nat} {pc : Pc} (hs : Whole s) (hp : goodPc pc)
    (ht : ∀ id, ¬ saving (s.threads t) id) : Whole (s.goto t pc) := by
  obtain ⟨a, b, c⟩ := hs
  refine ⟨fun n hn => ?_, b, fun x => ?_⟩
  · obtain ⟨hd, x, hx⟩ := a n hn
    refine ⟨hd, x, ?_⟩
    have : x ≠ t := by rintro rfl; exact ht _ hx
    rw [goto_ne _ _ this]; exact hx
  · by_cases hx : x = t
    · subst hx; rw [goto_self]; exact hp
    · rw [goto_ne _ _ hx]; exact c x

/-- A goroutine writes into a directory, or finds that there is nothing to be saved. -/
theorem whole_set {s : State} {t : Nat} {pc : Pc} {id : Bytes} {f : Option User} (hs : Whole s) (hp : goodPc pc)
    (ht : ∀ i, saving (s.threads t) i → i = id) (hf : f = none → saving pc id)
    (hg : ∀ u, f = some u → u.listed = true → u.ident.isSome = true) :
    Whole ({ s with dirs := s.dirs.set ⟨false, id⟩ f }.goto t pc) := by
  obtain ⟨a, b, c⟩ := hs
  refine ⟨fun n hn => ?_, fun n u hn => ?_, fun x => ?_⟩
  · simp only [State.goto] at hn
    rw [GoMap.get_set] at hn
    by_cases he : n = ⟨false, id⟩
    · subst he
      simp only [↓reduceIte, Option.some.injEq] at hn
      exact ⟨rfl, t, by rw [goto_self]; exact hf hn⟩
    · rw [if_neg (by simpa [eq_comm] using he)] at hn
      obtain ⟨hd, x, hx⟩ := a n hn
      refine ⟨hd, x, ?_⟩
      have : x ≠ t := by
        rintro rfl
        have := ht _ hx
        exact he (by cases n; simp_all)
      rw [goto_ne _ _ this]; exact hx
  · simp only [State.goto] at hn
    rw [GoMap.get_set] at hn
    by_cases he : n = ⟨false, id⟩
    · subst he
      simp only [↓reduceIte, Option.some.injEq] at hn
      exact hg u hn
    · rw [if_neg (by simpa [eq_comm] using he)] at hn
      exact b n u hn
  · by_cases hx : x = t
    · subst hx; rw [goto_self]; exact hp
    · rw [goto_ne _ _ hx]; exact c x

/-- A goroutine that was about to save finds a file, or no directory. -/
theorem whole_leave {s : State} {t : Nat} {pc : Pc} {id : Bytes} (hs : Whole s) (hp : goodPc pc)
    (ht : ∀ i, saving (s.threads t) i → i = id) (hf : s.dirs.get ⟨false, id⟩ ≠ some none) :
    Whole (s.goto t pc) := by
  obtain ⟨a, b, c⟩ := hs
  refine ⟨fun n hn => ?_, b, fun x => ?_⟩
  · obtain ⟨hd, x, hx⟩ := a n hn
    refine ⟨hd, x, ?_⟩
    have : x ≠ t := by
      rintro rfl
      have := ht _ hx
      exact hf (by rw [← this]; cases n; simp_all [State.goto])
    rw [goto_ne _ _ this]; exact hx
  · by_cases hx : x = t
    · subst hx; rw [goto_self]; exact hp
    · rw [goto_ne _ _ hx]; exact c x

theorem good_orElse (reg : Option Pub) (r : Res) : goodPc (orElse reg r) := by cases reg <;> trivial

theorem whole_go {s s' : State} {t : Nat} (hs : Whole s) (hc : careful s (.go t)) (h : go s t = some s') :
    Whole s' := by
  have no : ∀ pc, s.threads t = pc → (∀ id, ¬ saving pc id) → ∀ id, ¬ saving (s.threads t) id := by
    rintro pc rfl h; exact h
  unfold go at h
  split at h
  · cases h
  · cases h
  · cases h
    refine whole_goto hs (good_orElse _ _) (no _ ‹_› ?_)
    simp [saving]
  · cases h
    refine whole_goto hs ?_ (no _ ‹_› (by simp [saving]))
    rename_i nick n rest reg _
    rcases visit_cases (s.dirs.get n) nick rest reg with hv | ⟨hv, -⟩ | ⟨u, q, -, -, -, -, hv⟩
    · rw [hv]; trivial
    · rw [hv]; exact good_orElse _ _
    · rw [hv]; cases reg <;> trivial
  · cases h
    refine whole_goto hs ?_ (no _ ‹_› (by simp [saving]))
    split <;> trivial
  · rename_i p hp
    split at h <;> cases h
    · exact whole_goto hs trivial (no _ hp (by simp [saving]))
    · exact whole_set hs trivial (fun i hi => by rw [hp] at hi; simp [saving] at hi)
        (fun _ => .inl ⟨p, rfl, rfl⟩) (fun u hu => by cases hu)
  · rename_i p hp
    have hid : ∀ i, saving (s.threads t) i → i = p.id := by
      intro i hi; rw [hp] at hi
      rcases hi with ⟨q, hq, rfl⟩ | ⟨u, r, hq⟩ <;> cases hq
      rfl
    split at h <;> cases h
    · exact whole_leave hs trivial hid (by simp [*])
    · refine whole_set hs ?_ hid (fun hf => by cases hf) (fun u hu => by cases hu; simp)
      simp [goodPc]
    · refine whole_leave hs ?_ hid (by simp [*])
      simp [goodPc]
  · rename_i id hp
    split at h <;> cases h
    · refine whole_goto hs ?_ (no _ hp (by simp [saving]))
      rename_i u hu
      intro _
      exact hc id u hp hu
    · exact whole_goto hs trivial (no _ hp (by simp [saving]))
  · rename_i id u reg hp
    have hg : goodPc (s.threads t) := hs.2.2 t
    rw [hp] at hg
    split at h <;> cases h
    · refine whole_set hs hg (fun i hi => by rw [hp] at hi; simp [saving] at hi)
        (fun _ => .inr ⟨u, reg, rfl⟩) (fun u hu => by cases hu)
    · exact whole_goto hs trivial (no _ hp (by simp [saving]))
  · rename_i id u reg hp
    have hid : ∀ i, saving (s.threads t) i → i = id := by
      intro i hi; rw [hp] at hi
      rcases hi with ⟨q, hq, rfl⟩ | ⟨u, r, hq⟩ <;> cases hq
      rfl
    have hg : goodPc (s.threads t) := hs.2.2 t
    rw [hp] at hg
    split at h <;> cases h
    · refine whole_set hs ?_ hid (fun hf => by cases hf) (fun v hv => by cases hv; exact hg)
      split <;> trivial
    · exact whole_leave hs trivial hid (by simp [*])
  · rename_i id hp
    cases h
    exact whole_goto hs trivial (no _ hp (by simp [saving]))

theorem whole_step {s s' : State} {e : Ev} (hs : Whole s) (hc : careful s e) (h : step s e = some s') :
    Whole s' := by
  cases e <;> simp only [step] at h
  case find x n o =>
    split at h <;> cases h
    rename_i hh
    exact whole_goto hs trivial (by rw [hh.1]; simp [saving])
  case create x n o =>
    split at h <;> cases h
    rename_i hh
    exact whole_goto hs trivial (by rw [hh.1]; simp [saving])
  case push x n =>
    split at h <;> cases h
    rename_i hh
    exact whole_goto hs trivial (by rw [hh]; simp [saving])
  case go x => exact whole_go hs hc h
  case disable id =>
    split at h <;> cases h
    · rename_i f h1 h2
      obtain ⟨a, b, c⟩ := hs
      refine ⟨fun n hn => ?_, fun n u hn => ?_, c⟩
      · simp only [GoMap.get_set] at hn
        by_cases he : (⟨true, id⟩ : Name) = n
        · rw [if_pos he] at hn
          cases hn
          exact absurd h2 hc
        · rw [if_neg he, GoMap.get_del] at hn
          by_cases he' : (⟨false, id⟩ : Name) = n
          · simp [he'] at hn
          · rw [if_neg he'] at hn
            exact a n hn
      · simp only [GoMap.get_set] at hn
        by_cases he : (⟨true, id⟩ : Name) = n
        · rw [if_pos he] at hn
          cases hn
          exact b _ u h2
        · rw [if_neg he, GoMap.get_del] at hn
          by_cases he' : (⟨false, id⟩ : Name) = n
          · simp [he'] at hn
          · rw [if_neg he'] at hn
            exact b n u hn
    · exact hs
  case enable id =>
    split at h <;> cases h
    · rename_i f h1 h2
      obtain ⟨a, b, c⟩ := hs
      refine ⟨fun n hn => ?_, fun n u hn => ?_, c⟩
      · simp only [GoMap.get_set] at hn
        by_cases he : (⟨false, id⟩ : Name) = n
        · rw [if_pos he] at hn
          cases hn
          exact absurd (a _ h1).1 (by simp)
        · rw [if_neg he, GoMap.get_del] at hn
          by_cases he' : (⟨true, id⟩ : Name) = n
          · simp [he'] at hn
          · rw [if_neg he'] at hn
            exact a n hn
      · simp only [GoMap.get_set] at hn
        by_cases he : (⟨false, id⟩ : Name) = n
        · rw [if_pos he] at hn
          cases hn
          exact b _ u h1
        · rw [if_neg he, GoMap.get_del] at hn
          by_cases he' : (⟨true, id⟩ : Name) = n
          · simp [he'] at hn
          · rw [if_neg he'] at hn
            exact b n u hn
    · exact hs
  case crash => exact hc.elim

theorem whole_run {s s' : State} {es : List Ev} (hs : Whole s) (hc : Careful s es) (h : run s es = some s') :
    Whole s' := by
  induction es generalizing s with
  | nil => cases h; exact hs
  | cons e es ih =>
    simp only [run, Option.bind_eq_some_iff] at h
    obtain ⟨m, hm, h⟩ := h
    exact ih (whole_step hs hc.1 hm) (hc.2 m hm) h

/-- With the conditions of `careful`, every directory can be read at all times, but for those that a registration or a
login is just about to put a file into. -/
theorem C112_whole_partial {es : List Ev} {s : State} (hc : Careful {} es) (h : run {} es = some s) (n : Name)
    (hn : (s.dirs.get n).isSome = true) : readable s n ∨ n.dot = false ∧ ∃ t, saving (s.threads t) n.id := by
  have hw : Whole s := whole_run (s := {}) ⟨fun n hn => by simp [GoMap.get] at hn, fun n u hn => by simp [GoMap.get] at hn,
    fun t => (trivial : goodPc .idle)⟩ hc h
  obtain ⟨a, b, -⟩ := hw
  cases hf : s.dirs.get n with
  | none => rw [hf] at hn; cases hn
  | some f =>
    cases f with
    | none => exact .inr (a n hf)
    | some u => exact .inl ⟨u, hf, b n u hf⟩

/-! ## A directory that is spoiled -/

/-- Who walks has yet to come by the directory, and before that only by those of disabled accounts. -/
def Doomed (n : Name) (s : State) : Prop :=
  s.dirs.get n = some none ∧
  ∀ t nick rest reg, s.threads t = .walk nick rest reg →
    n ∈ rest ∧ rest.Pairwise fun a b => b.dot = true → a.dot = true

theorem go_dirs {s s' : State} {t : Nat} {n : Name} (hn : n.dot = true) (h : go s t = some s') :
    s'.dirs.get n = s.dirs.get n := by
  have key : ∀ (id : Bytes) (f : Option User), (s.dirs.set ⟨false, id⟩ f).get n = s.dirs.get n := by
    intro id f
    apply GoMap.get_set_ne
    rintro rfl
    cases hn
  unfold go at h
  split at h
  · cases h
  · cases h
  all_goals first
    | (cases h; rfl)
    | (split at h <;> cases h <;> first | rfl | exact key _ _)

theorem doomed_step {n : Name} {s s' : State} {e : Ev} (hn : n.dot = true) (hs : Doomed n s)
    (he : e ≠ .enable n.id) (h : step s e = some s') : Doomed n s' := by
  obtain ⟨a, b⟩ := hs
  have keep : ∀ t pc, (∀ nick rest reg, pc = .walk nick rest reg →
      n ∈ rest ∧ rest.Pairwise fun a b => b.dot = true → a.dot = true) → Doomed n (s.goto t pc) := by
    intro t pc hp
    refine ⟨a, fun x nick rest reg hx => ?_⟩
    by_cases hxt : x = t
    · subst hxt; rw [goto_self] at hx; exact hp _ _ _ hx
    · rw [goto_ne _ _ hxt] at hx; exact b x nick rest reg hx
  have hin : ∀ {order}, Listed s order → n ∈ order := fun hl =>
    hl.1.mem_iff.mpr (List.mem_map.mpr ⟨_, GoMap.mem_of_get a, rfl⟩)
  cases e <;> simp only [step] at h
  case find x m o =>
    split at h <;> cases h
    rename_i hh
    exact keep _ _ fun nick rest reg hw => by cases hw; exact ⟨hin hh.2, hh.2.2⟩
  case create x m o =>
    split at h <;> cases h
    rename_i hh
    exact keep _ _ fun nick rest reg hw => by cases hw; exact ⟨hin hh.2, hh.2.2⟩
  case push x m =>
    split at h <;> cases h
    exact keep _ _ fun nick rest reg hw => by cases hw
  case go x =>
    obtain ⟨hp, ho⟩ := go_pc h
    refine ⟨by rw [go_dirs hn h]; exact a, fun y nick rest reg hy => ?_⟩
    by_cases hyx : y = x
    · subst hyx
      rw [hp] at hy
      cases hpc : s.threads y with
      | walk nick' rest' reg' =>
        rw [hpc] at hy
        obtain ⟨hm, hpw⟩ := b y _ _ _ hpc
        cases rest' with
        | nil => cases hm
        | cons m r =>
          simp only [nextPc] at hy
          rcases visit_cases (s.dirs.get m) nick' r reg' with hv | ⟨hv, -⟩ | ⟨u, q, -, -, -, -, hv⟩
          · rw [hv] at hy; cases hy
            refine ⟨?_, (List.pairwise_cons.mp hpw).2⟩
            rcases List.mem_cons.mp hm with rfl | hm
            · rw [a] at hv
              simp only [visit] at hv
              cases reg <;> simp [orElse] at hv
            · exact hm
          · rw [hv] at hy; cases reg' <;> simp [orElse] at hy
          · rw [hv] at hy; cases reg' <;> simp at hy
      | idle => rw [hpc] at hy; simp [nextPc] at hy
      | fin r => rw [hpc] at hy; simp [nextPc] at hy
      | stat p => rw [hpc] at hy; simp only [nextPc] at hy; split at hy <;> cases hy
      | mk p => rw [hpc] at hy; simp [nextPc] at hy
      | load p => rw [hpc] at hy; simp only [nextPc] at hy; split at hy <;> cases hy
      | push id => rw [hpc] at hy; simp only [nextPc] at hy; split at hy <;> cases hy
      | back id u r => rw [hpc] at hy; simp only [nextPc] at hy; split at hy <;> cases hy
      | put id u r =>
        rw [hpc] at hy; simp only [nextPc] at hy
        split at hy
        · split at hy <;> cases hy
        · cases hy
      | cache id => rw [hpc] at hy; simp [nextPc] at hy
    · rw [ho y hyx] at hy; exact b y nick rest reg hy
  case disable id =>
    split at h <;> cases h
    · rename_i f h1 h2
      have hne : (⟨true, id⟩ : Name) ≠ n := by rintro rfl; rw [a] at h1; cases h1
      have hne' : (⟨false, id⟩ : Name) ≠ n := by rintro rfl; cases hn
      exact ⟨by simp [GoMap.get_set, GoMap.get_del, hne, hne', a], b⟩
    · exact ⟨a, b⟩
  case enable id =>
    split at h <;> cases h
    · rename_i f h1 h2
      have hne : (⟨true, id⟩ : Name) ≠ n := by rintro rfl; exact he rfl
      have hne' : (⟨false, id⟩ : Name) ≠ n := by rintro rfl; cases hn
      exact ⟨by simp [GoMap.get_set, GoMap.get_del, hne, hne', a], b⟩
    · exact ⟨a, b⟩
  case crash => cases h; exact ⟨a, fun t nick rest reg hw => by cases hw⟩

theorem doomed_run {n : Name} {s s' : State} {es : List Ev} (hn : n.dot = true) (hs : Doomed n s)
    (he : Ev.enable n.id ∉ es) (h : run s es = some s') : Doomed n s' := by
  induction es generalizing s with
  | nil => cases h; exact hs
  | cons e es ih =>
    simp only [run, Option.bind_eq_some_iff] at h
    obtain ⟨m, hm, h⟩ := h
    simp only [List.mem_cons, not_or] at he
    exact ih (doomed_step hn hs (Ne.symm he.1) hm) he.2 h

/-- Who reads the next directory reads that of a disabled account. -/
theorem doomed_dot {n : Name} {s : State} (hn : n.dot = true) (hs : Doomed n s) {t : Nat} {nick : Bytes}
    {rest : List Name} {reg : Option Pub} (hw : s.threads t = .walk nick rest reg) :
    ∃ m r, rest = m :: r ∧ m.dot = true := by
  obtain ⟨hm, hp⟩ := hs.2 t nick rest reg hw
  cases rest with
  | nil => cases hm
  | cons m r =>
    refine ⟨m, r, rfl, ?_⟩
    rcases List.mem_cons.mp hm with rfl | hm
    · exact hn
    · exact (List.pairwise_cons.mp hp).1 n hm hn

/-- DISAGREEMENT.  Once the directory of a disabled account has no user.ini, no lookup finds anybody whose account is
enabled, until that account is enabled again, whatever happens; not even a new start of the server helps.  (What leads
there is in `C112_spoiled_violated`.) -/
theorem C112_for_ever_violated {n : Name} {s s' : State} {es : List Ev} (hn : n.dot = true)
    (hs : s.dirs.get n = some none) (hi : ∀ t, s.threads t = .idle) (he : Ev.enable n.id ∉ es)
    (h : run s es = some s') {t : Nat} {p : Pub} (hf : s'.threads t = .fin (.found p)) :
    Once (fun m => ∃ d, d.dot = true ∧ lists m d p) s es := by
  have hd : Doomed n s := ⟨hs, fun t nick rest reg hw => by rw [hi t] at hw; cases hw⟩
  clear hs
  induction es using List.reverseRecOn generalizing s' with
  | nil => cases h; rw [hi t] at hf; cases hf
  | append_singleton es e ih =>
    rw [run_append] at h
    simp only [Option.bind_eq_some_iff, run] at h
    obtain ⟨m, hm, x, hx, hxs⟩ := h
    cases hxs
    simp only [List.mem_append, List.mem_singleton, not_or] at he
    have ext : Once (fun m => ∃ d, d.dot = true ∧ lists m d p) s es →
        Once (fun m => ∃ d, d.dot = true ∧ lists m d p) s (es ++ [e]) := by
      rintro ⟨a, b, k, rfl, hk, hP⟩
      exact ⟨a, b ++ [e], k, by simp, hk, hP⟩
    have hdm := doomed_run hn hd he.1 hm
    by_cases hc : e = .crash
    · subst hc; cases hx; cases hf
    by_cases hidle : m.threads t = .idle
    · exfalso
      cases e <;> simp only [step] at hx
      case find y k o =>
        split at hx <;> cases hx
        by_cases hy : t = y
        · subst hy; rw [goto_self] at hf; cases hf
        · rw [goto_ne _ _ hy, hidle] at hf; cases hf
      case create y k o =>
        split at hx <;> cases hx
        by_cases hy : t = y
        · subst hy; rw [goto_self] at hf; cases hf
        · rw [goto_ne _ _ hy, hidle] at hf; cases hf
      case push y k =>
        split at hx <;> cases hx
        by_cases hy : t = y
        · subst hy; rw [goto_self] at hf; cases hf
        · rw [goto_ne _ _ hy, hidle] at hf; cases hf
      case go y =>
        obtain ⟨ha, hb⟩ := go_pc hx
        by_cases hy : t = y
        · subst hy; rw [hidle] at ha; rw [ha] at hf; cases hf
        · rw [hb t hy, hidle] at hf; cases hf
      case disable id => split at hx <;> cases hx <;> (rw [hidle] at hf; cases hf)
      case enable id => split at hx <;> cases hx <;> (rw [hidle] at hf; cases hf)
      case crash => exact hc rfl
    rcases step_pc t hx hc hidle with ⟨-, hp⟩ | hp
    · by_cases hpast : past (m.threads t) = true
      · exact ext (ih he.1 hm ((past_next hpast).2.2 p (by rw [← hp]; exact hf)))
      · cases hpc : m.threads t with
        | walk nick rest reg =>
          obtain ⟨d, r, rfl, hdot⟩ := doomed_dot hn hdm hpc
          rw [hpc] at hp
          simp only [nextPc] at hp
          rcases visit_cases (m.dirs.get d) nick r reg with hv | ⟨hv, -⟩ | ⟨u, q, hu, hl, hid, -, hv⟩
          · rw [hp, hv] at hf; cases hf
          · rw [hp, hv] at hf; cases reg <;> simp [orElse] at hf
          · rw [hp, hv] at hf
            cases reg with
            | none =>
              cases hf
              exact ⟨es, [e], m, rfl, hm, d, hdot, u, hu, hl, hid⟩
            | some _ => cases hf
        | idle => exact absurd hpc hidle
        | _ => rw [hpc] at hpast; simp [past] at hpast
    · rw [hp] at hf
      exact ext (ih he.1 hm hf)

/-! ## Examples and disagreements -/

/-- The accounts of the examples: an old one, a second, and one more. -/
def pa : Pub := ⟨[1], [97], 1⟩
def pb : Pub := ⟨[2], [98], 2⟩
/-- Another identity with the nick of the second. -/
def pe : Pub := ⟨[0], [98], 3⟩

def na : Name := ⟨false, [1]⟩
def nb : Name := ⟨false, [2]⟩
def ne : Name := ⟨false, [0]⟩

/-- Two accounts that are listed. -/
def two : State := { dirs := [(na, some ⟨some pa, true⟩), (nb, some ⟨some pb, true⟩)] }

/-- It is a state that the server gets into. -/
example : ∃ s, run {} ([.create 0 pa []] ++ List.replicate 6 (.go 0) ++ [.push 1 [1]] ++ List.replicate 3 (.go 1) ++
    [.create 2 pb [na]] ++ List.replicate 7 (.go 2) ++ [.push 3 [2]] ++ List.replicate 3 (.go 3)) = some s ∧
    s.dirs.get na = two.dirs.get na ∧ s.dirs.get nb = two.dirs.get nb ∧ s.dirs.length = 2 :=
  ⟨_, rfl, by decide, by decide, by decide⟩

/-- C112_sound, C112_found_partial: a lookup while somebody registers. -/
example : ∃ s, run two [.find 0 [98] [na, nb], .go 0, .create 1 ⟨[3], [99], 3⟩ [na, nb], .go 1, .go 1, .go 1, .go 1,
    .go 0] = some s ∧ s.threads 0 = .fin (.found pb) := ⟨_, rfl, by decide⟩

/-- C112_taken_partial: a nick that is taken. -/
example : ∃ s, run two [.create 0 pe [na, nb], .go 0, .go 0] = some s ∧ s.threads 0 = .fin .refused :=
  ⟨_, rfl, by decide⟩

/-- C112_whole_partial: during a login there is no user.ini, and afterwards there is. -/
example : (∃ s, run two [.push 0 [1], .go 0, .go 0] = some s ∧ s.dirs.get na = some none ∧
      saving (s.threads 0) [1]) ∧
    ∃ s, run two [.push 0 [1], .go 0, .go 0, .go 0] = some s ∧ s.dirs.get na = some (some ⟨some pa, true⟩) :=
  ⟨⟨_, rfl, by decide, .inr ⟨_, _, rfl⟩⟩, ⟨_, rfl, by decide⟩⟩

/-- DISAGREEMENT.  A lookup of an account that is listed all the time fails because somebody else logs in, or is
disabled, at the same time. -/
theorem C112_lookup_violated :
    (∃ s, run two [.push 1 [1], .go 1, .go 1, .find 0 [98] [na, nb], .go 0, .go 1] = some s ∧
      s.threads 0 = .fin .failed ∧ s.threads 1 = .fin .pushed ∧ lists s nb pb) ∧
    ∃ s, run two [.find 0 [98] [na, nb], .disable [1], .go 0] = some s ∧ s.threads 0 = .fin .failed ∧
      lists s nb pb := by
  refine ⟨⟨_, rfl, by decide, by decide, ⟨some pb, true⟩, by decide, rfl, rfl⟩,
    ⟨_, rfl, by decide, ⟨some pb, true⟩, by decide, rfl, rfl⟩⟩

/-- DISAGREEMENT.  A nick that is listed all the time is registered for another identity while the owner of a third
account logs in; afterwards a lookup of the nick gives the other identity. -/
theorem C112_taken_violated :
    ∃ s, run two ([.push 1 [1], .go 1, .go 1, .create 0 pe [na, nb], .go 0, .go 1] ++ List.replicate 5 (.go 0) ++
      [.push 2 [0]] ++ List.replicate 3 (.go 2) ++ [.find 3 [98] [ne, na, nb], .go 3]) = some s ∧
      s.threads 0 = .fin .created ∧ lists s nb pb ∧ s.threads 3 = .fin (.found pe) := by
  exact ⟨_, rfl, by decide, ⟨⟨some pb, true⟩, by decide, rfl, rfl⟩, by decide⟩

/-- DISAGREEMENT.  Two registrations at the same time get the same nick. -/
theorem C112_both_violated :
    ∃ s, run {} ([.create 0 pb [], .create 1 pe []] ++ List.replicate 6 (.go 0) ++ List.replicate 6 (.go 1) ++
      [.push 2 [2], .go 2, .go 2, .go 2, .push 3 [0], .go 3, .go 3, .go 3]) = some s ∧
      lists s nb pb ∧ lists s ne pe := by
  exact ⟨_, rfl, ⟨⟨some pb, true⟩, by decide, rfl, rfl⟩, ⟨⟨some pe, true⟩, by decide, rfl, rfl⟩⟩

/-- DISAGREEMENT.  A directory is left without user.ini: if an account is disabled while its owner logs in, or if the
server dies then; and it is left listed without an identity, if somebody logs in while the registration is still being
written.  Nothing is going on afterwards. -/
theorem C112_spoiled_violated :
    (∃ s, run two [.push 0 [1], .go 0, .go 0, .disable [1], .go 0] = some s ∧ s.threads 0 = .fin .failed ∧
      s.dirs.get ⟨true, [1]⟩ = some none) ∧
    (∃ s, run two [.push 0 [1], .go 0, .go 0, .crash] = some s ∧ s.dirs.get na = some none) ∧
    ∃ s, run two ([.create 0 ⟨[0], [99], 3⟩ [na, nb], .go 0, .go 0, .go 0, .go 0, .go 0, .go 0, .push 1 [0], .go 1,
      .go 0, .go 0, .go 1, .go 1]) = some s ∧ s.threads 0 = .fin .created ∧ s.threads 1 = .fin .pushed ∧
      s.dirs.get ne = some (some ⟨none, true⟩) := by
  refine ⟨⟨_, rfl, by decide, by decide⟩, ⟨_, rfl, by decide⟩, ⟨_, rfl, by decide, by decide, by decide⟩⟩

/-- Then nobody is found, and every nick can be registered. -/
theorem C112_all_violated :
    ∃ s s', run two [.push 0 [1], .go 0, .go 0, .disable [1], .go 0, .crash] = some s ∧
      (∀ t, s.threads t = .idle) ∧ s.dirs.get ⟨true, [1]⟩ = some none ∧ lists s nb pb ∧
      run s ([.find 0 [98] [⟨true, [1]⟩, nb], .go 0, .create 1 pe [⟨true, [1]⟩, nb]] ++ List.replicate 6 (.go 1)) =
        some s' ∧ s'.threads 0 = .fin .failed ∧ s'.threads 1 = .fin .created := by
  exact ⟨_, _, rfl, fun t => rfl, by decide, ⟨⟨some pb, true⟩, by decide, rfl, rfl⟩, rfl, by decide, by decide⟩

end Verif.Listing
