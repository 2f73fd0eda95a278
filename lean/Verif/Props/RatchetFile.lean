import Verif.Model.RatchetFile

/-! # C116: whatever runs at the same time, no ratchet is used twice, and a reset begins anew -/

namespace Verif.RatchetFile

theorem get_self (s : State) (p : Nat) (c : Pc) : (s.put p c).procs p = some c := by simp [State.put]

theorem get_ne (s : State) {p q : Nat} (c : Pc) (h : q ≠ p) : (s.put p c).procs q = s.procs q := by simp [State.put, h]

/-- Between Lock and Unlock. -/
def locked : Pc → Bool
  | .sLoad | .sWrite _ _ | .gLoad _ | .gSave _ _ | .aSave | .fLoad _ | .fSave _ | .fRm | .tSave | .unlock _ => true
  | _ => false

/-- The ratchet that a goroutine has in memory and is about to save. -/
def holds : Pc → Option (Nat × Nat)
  | .sWrite k n | .gSave k n => some (k, n)
  | _ => none

/-- A ratchet that is newest and has not been used. -/
def Fresh (s : State) (k n : Nat) : Prop := s.installed.head? = some k ∧ ∀ m, (k, m) ∈ s.uses → m < n

structure Base (s : State) : Prop where
  excl : ∀ p c, s.procs p = some c → locked c = true → s.mutex = some p
  full : ∀ k n, s.full = some (k, n) → Fresh s k n
  held : ∀ p c k n, s.procs p = some c → holds c = some (k, n) → Fresh s k n
  half : ∀ h, s.half = some h → h < s.next ∧ (h ∈ s.installed → ∃ p, s.procs p = some .fRm)
  fin : ∀ p h, s.procs p = some (.fSave h) → h < s.next ∧ h ∉ s.installed
  bound : ∀ k ∈ s.installed, k < s.next
  used : ∀ k n, (k, n) ∈ s.uses → k ∈ s.installed
  nodup : s.uses.Nodup

theorem put_cases {s : State} {p : Nat} {c : Pc} {q : Nat} {d : Pc} (h : (s.put p c).procs q = some d) :
    (q = p ∧ d = c) ∨ (q ≠ p ∧ s.procs q = some d) := by
  by_cases hqp : q = p
  · subst hqp; rw [get_self] at h; cases h; exact .inl ⟨rfl, rfl⟩
  · rw [get_ne _ _ hqp] at h; exact .inr ⟨hqp, h⟩

theorem holds_locked {c : Pc} {r : Nat × Nat} (h : holds c = some r) : locked c = true := by
  cases c <;> first | rfl | cases h

/-- A step that installs and uses nothing: it takes or leaves the mutex, or removes files. -/
theorem base_move {s s₁ : State} {p : Nat} {c : Pc} (hI : Base s) (hp : s₁.procs = s.procs)
    (hin : s₁.installed = s.installed) (hus : s₁.uses = s.uses) (hnx : s₁.next = s.next)
    (hfu : ∀ r, s₁.full = some r → s.full = some r) (hha : ∀ h, s₁.half = some h → s.half = some h)
    (hoth : ∀ q d, q ≠ p → s.procs q = some d → locked d = true → s₁.mutex = some q)
    (hl : locked c = true → s₁.mutex = some p)
    (hh : holds c = none) (hf : ∀ h, c ≠ .fSave h)
    (hr : s.procs p ≠ some .fRm) : Base (s₁.put p c) := by
  have fr : ∀ k n, Fresh s k n → Fresh (s₁.put p c) k n := by
    intro k n h
    refine ⟨?_, ?_⟩
    · show s₁.installed.head? = _
      rw [hin]; exact h.1
    · intro m hm
      exact h.2 m (by rw [← hus]; exact hm)
  have pr : ∀ q d, (s₁.put p c).procs q = some d → (q = p ∧ d = c) ∨ (q ≠ p ∧ s.procs q = some d) := by
    intro q d h
    rw [← hp]; exact put_cases h
  refine ⟨?_, ?_, ?_, ?_, ?_, ?_, ?_, ?_⟩
  · intro q d hq hd
    rcases pr q d hq with ⟨rfl, rfl⟩ | ⟨hne, hq⟩
    · exact hl hd
    · exact hoth q d hne hq hd
  · intro k n h
    exact fr k n (hI.full k n (hfu _ h))
  · intro q d k n hq hd
    rcases pr q d hq with ⟨rfl, rfl⟩ | ⟨_, hq⟩
    · rw [hh] at hd; cases hd
    · exact fr k n (hI.held q d k n hq hd)
  · intro h hx
    obtain ⟨h1, h2⟩ := hI.half h (hha h hx)
    refine ⟨by show h < s₁.next; rw [hnx]; exact h1, fun hm => ?_⟩
    obtain ⟨q, hq⟩ := h2 (by rw [← hin]; exact hm)
    refine ⟨q, ?_⟩
    rw [get_ne _ _ (fun hqp => hr (by rw [← hqp]; exact hq)), hp]
    exact hq
  · intro q h hq
    rcases pr q _ hq with ⟨rfl, hc⟩ | ⟨_, hq⟩
    · exact absurd hc.symm (hf h)
    · have := hI.fin q h hq
      refine ⟨by show h < s₁.next; rw [hnx]; exact this.1, by show h ∉ s₁.installed; rw [hin]; exact this.2⟩
  · show ∀ k ∈ s₁.installed, k < s₁.next
    rw [hin, hnx]; exact hI.bound
  · show ∀ k n, (k, n) ∈ s₁.uses → k ∈ s₁.installed
    rw [hin, hus]; exact hI.used
  · show s₁.uses.Nodup
    rw [hus]; exact hI.nodup

/-- A step of the goroutine that has the mutex. -/
theorem base_own {s s₁ : State} {p : Nat} {c d : Pc} (hI : Base s) (hx : s.procs p = some d) (hd : locked d = true)
    (hp : s₁.procs = s.procs) (hmu : s₁.mutex = s.mutex)
    (hfu : ∀ k n, s₁.full = some (k, n) → Fresh s₁ k n) (hh : ∀ k n, holds c = some (k, n) → Fresh s₁ k n)
    (hha : ∀ h, s₁.half = some h → h < s₁.next ∧ (h ∈ s₁.installed → c = .fRm))
    (hf : ∀ h, c = .fSave h → h < s₁.next ∧ h ∉ s₁.installed)
    (hb : ∀ k ∈ s₁.installed, k < s₁.next) (hu : ∀ k n, (k, n) ∈ s₁.uses → k ∈ s₁.installed)
    (hn : s₁.uses.Nodup) : Base (s₁.put p c) := by
  have pr : ∀ q e, (s₁.put p c).procs q = some e → locked e = true → q = p ∧ e = c := by
    intro q e h he
    rcases put_cases h with h | ⟨hne, hq⟩
    · exact h
    · rw [hp] at hq
      have h1 := hI.excl q e hq he
      rw [hI.excl p d hx hd] at h1
      exact absurd (Option.some.inj h1).symm hne
  refine ⟨?_, hfu, ?_, ?_, ?_, hb, hu, hn⟩
  · intro q e hq he
    obtain ⟨rfl, rfl⟩ := pr q e hq he
    show s₁.mutex = _
    rw [hmu]; exact hI.excl q d hx hd
  · intro q e k n hq he
    obtain ⟨rfl, rfl⟩ := pr q e hq (holds_locked he)
    exact hh k n he
  · intro h hx
    refine ⟨(hha h hx).1, fun hm => ⟨p, ?_⟩⟩
    rw [get_self, (hha h hx).2 hm]
  · intro q h hq
    obtain ⟨rfl, he⟩ := pr q _ hq rfl
    exact hf h he.symm

theorem base_lock {s s' : State} {p : Nat} {c d : Pc} (hI : Base s) (hx : s.procs p = some d) (hd : locked d = false)
    (hh : holds c = none) (hf : ∀ h, c ≠ .fSave h) (h : lock s p c = some s') : Base s' := by
  unfold lock at h
  split at h
  case isFalse => cases h
  case isTrue hm =>
    cases h
    refine base_move hI rfl rfl rfl rfl (fun _ h => h) (fun _ h => h) ?_ (fun _ => rfl) hh hf ?_
    · intro q e hne hq he
      have := hI.excl q e hq he
      rw [hm] at this; cases this
    · rw [hx]; intro he; cases he; cases hd

/-- A step outside the mutex. -/
theorem base_out {s s₁ : State} {p : Nat} {c d : Pc} (hI : Base s) (hx : s.procs p = some d) (hd : locked d = false)
    (hp : s₁.procs = s.procs) (hmu : s₁.mutex = s.mutex)
    (hin : s₁.installed = s.installed) (hus : s₁.uses = s.uses) (hnx : s₁.next = s.next)
    (hfu : ∀ r, s₁.full = some r → s.full = some r) (hha : ∀ h, s₁.half = some h → s.half = some h)
    (hc : locked c = false) : Base (s₁.put p c) := by
  refine base_move hI hp hin hus hnx hfu hha ?_ ?_ ?_ ?_ ?_
  · intro q e hne hq he
    rw [hmu]; exact hI.excl q e hq he
  · rw [hc]; intro h; cases h
  · cases hh : holds c with
    | none => rfl
    | some r => rw [holds_locked hh] at hc; cases hc
  · intro h he; rw [he] at hc; cases hc
  · rw [hx]; intro he; cases he; cases hd

theorem fresh_new {s : State} {k : Nat} (hI : Base s) (hk : k ∉ s.installed) (s₁ : State)
    (hin : s₁.installed = k :: s.installed) (hus : s₁.uses = s.uses) : Fresh s₁ k 0 := by
  refine ⟨by rw [hin]; rfl, fun m hm => ?_⟩
  rw [hus] at hm
  exact absurd (hI.used k m hm) hk

theorem head_mem {l : List Nat} {k : Nat} (h : l.head? = some k) : k ∈ l := by
  cases l with
  | nil => cases h
  | cons a l => cases h; exact List.mem_cons_self

/-- Nobody is removing a half ratchet while another has the mutex. -/
theorem half_new {s : State} {p : Nat} {d : Pc} (hI : Base s) (hx : s.procs p = some d) (hd : locked d = true)
    (hne : d ≠ .fRm) {h : Nat} (hh : s.half = some h) : h < s.next ∧ h ∉ s.installed := by
  refine ⟨(hI.half h hh).1, fun hm => ?_⟩
  obtain ⟨q, hq⟩ := (hI.half h hh).2 hm
  have h1 := hI.excl q _ hq rfl
  rw [hI.excl p d hx hd] at h1
  have := Option.some.inj h1
  rw [← this, hx] at hq
  exact hne (Option.some.inj hq)

theorem base_go {s s' : State} {p : Nat} {ok : Bool} {c : Pc} (hI : Base s) (hx : s.procs p = some c)
    (h : go s p ok c = some s') : Base s' := by
  cases c with
  | sLock => exact base_lock hI hx rfl rfl (fun _ h => by cases h) h
  | gLock m => exact base_lock hI hx rfl rfl (fun _ h => by cases h) h
  | aLock => exact base_lock hI hx rfl rfl (fun _ h => by cases h) h
  | fLock m => exact base_lock hI hx rfl rfl (fun _ h => by cases h) h
  | tLock => exact base_lock hI hx rfl rfl (fun _ h => by cases h) h
  | sLoad =>
    have hn := fun h hh => half_new (h := h) hI hx rfl (fun h => by cases h) hh
    simp only [go] at h
    split at h
    case h_1 hfull =>
      cases h
      exact base_own hI hx rfl rfl rfl hI.full (fun _ _ h => by cases h)
        (fun h hh => ⟨(hn h hh).1, fun hm => absurd hm (hn h hh).2⟩) (fun _ h => by cases h) hI.bound hI.used hI.nodup
    case h_2 k n hfull =>
      cases h
      exact base_own hI hx rfl rfl rfl hI.full (fun _ _ h => by cases h; exact hI.full k n hfull)
        (fun h hh => ⟨(hn h hh).1, fun hm => absurd hm (hn h hh).2⟩) (fun _ h => by cases h) hI.bound hI.used hI.nodup
  | sWrite k n =>
    have hn := fun h hh => half_new (h := h) hI hx rfl (fun h => by cases h) hh
    have hfr := hI.held p _ k n hx rfl
    simp only [go] at h
    split at h
    · cases h
      refine base_own hI hx rfl rfl rfl ?_ (fun _ _ h => by cases h)
        (fun h hh => ⟨(hn h hh).1, fun hm => absurd hm (hn h hh).2⟩) (fun _ h => by cases h) hI.bound ?_ ?_
      · intro k' n' h
        cases h
        refine ⟨hfr.1, fun m hm => ?_⟩
        rcases List.mem_append.1 hm with hm | hm
        · exact Nat.lt_succ_of_lt (hfr.2 m hm)
        · cases List.mem_singleton.1 hm; exact Nat.lt_succ_self _
      · intro k' n' hm
        rcases List.mem_append.1 hm with hm | hm
        · exact hI.used k' n' hm
        · cases List.mem_singleton.1 hm; exact head_mem hfr.1
      · refine List.nodup_append.2 ⟨hI.nodup, List.nodup_cons.2 ⟨List.not_mem_nil, List.nodup_nil⟩, ?_⟩
        rintro ⟨k', n'⟩ h1 b h2 he
        cases List.mem_singleton.1 h2
        cases he
        exact Nat.lt_irrefl _ (hfr.2 _ h1)
    · cases h
      exact base_own hI hx rfl rfl rfl hI.full (fun _ _ h => by cases h)
        (fun h hh => ⟨(hn h hh).1, fun hm => absurd hm (hn h hh).2⟩) (fun _ h => by cases h) hI.bound hI.used hI.nodup
  | gStart m =>
    simp only [go] at h
    split at h
    · cases h; exact base_out hI hx rfl rfl rfl rfl rfl rfl (fun _ h => h) (fun _ h => h) rfl
    split at h
    · cases h
      refine base_out hI hx rfl rfl rfl rfl rfl rfl (fun _ h => h) (fun _ h => h) ?_
      split <;> rfl
    split at h
    · split at h <;>
        (cases h; exact base_out hI hx rfl rfl rfl rfl rfl rfl (fun _ h => h) (fun _ h => h) rfl)
    · cases h; exact base_out hI hx rfl rfl rfl rfl rfl rfl (fun _ h => h) (fun _ h => h) rfl
  | gLoad m =>
    have hn := fun h hh => half_new (h := h) hI hx rfl (fun h => by cases h) hh
    simp only [go] at h
    split at h
    case h_1 hfull =>
      cases h
      exact base_own hI hx rfl rfl rfl hI.full (fun _ _ h => by cases h)
        (fun h hh => ⟨(hn h hh).1, fun hm => absurd hm (hn h hh).2⟩) (fun _ h => by cases h) hI.bound hI.used hI.nodup
    case h_2 k n hfull =>
      cases h
      refine base_own hI hx rfl rfl rfl hI.full ?_
        (fun h hh => ⟨(hn h hh).1, fun hm => absurd hm (hn h hh).2⟩) ?_ hI.bound hI.used hI.nodup
      · intro k' n' h
        split at h
        · cases h; exact hI.full k n hfull
        · cases h
      · intro h he
        split at he <;> cases he
  | gSave k n =>
    have hn := fun h hh => half_new (h := h) hI hx rfl (fun h => by cases h) hh
    have hfr := hI.held p _ k n hx rfl
    cases h
    refine base_own hI hx rfl rfl rfl ?_ (fun _ _ h => by cases h)
        (fun h hh => ⟨(hn h hh).1, fun hm => absurd hm (hn h hh).2⟩) (fun _ h => by cases h) hI.bound hI.used hI.nodup
    intro k' n' h
    cases h
    exact ⟨hfr.1, fun m hm => Nat.lt_succ_of_lt (hfr.2 m hm)⟩
  | aSaveId =>
    cases h
    refine base_out hI hx rfl rfl rfl rfl rfl rfl (fun _ h => h) (fun _ h => h) ?_
    split <;> rfl
  | aSave =>
    have hn := fun h hh => half_new (h := h) hI hx rfl (fun h => by cases h) hh
    have hk : s.next ∉ s.installed := fun hm => Nat.lt_irrefl _ (hI.bound _ hm)
    cases h
    refine base_own hI hx rfl rfl rfl ?_ (fun _ _ h => by cases h) ?_ (fun _ h => by cases h) ?_ ?_ hI.nodup
    · intro k n h
      cases h
      exact fresh_new hI hk _ rfl rfl
    · intro h hh
      refine ⟨Nat.lt_succ_of_lt (hn h hh).1, fun hm => ?_⟩
      rcases List.mem_cons.1 hm with rfl | hm
      · exact absurd (hn _ hh).1 (Nat.lt_irrefl _)
      · exact absurd hm (hn h hh).2
    · intro k hm
      rcases List.mem_cons.1 hm with rfl | hm
      · exact Nat.lt_succ_self _
      · exact Nat.lt_succ_of_lt (hI.bound k hm)
    · intro k n hm
      exact List.mem_cons_of_mem _ (hI.used k n hm)
  | fLoad h' =>
    have hn := fun h hh => half_new (h := h) hI hx rfl (fun h => by cases h) hh
    cases h
    refine base_own hI hx rfl rfl rfl hI.full ?_
        (fun h hh => ⟨(hn h hh).1, fun hm => absurd hm (hn h hh).2⟩) ?_ hI.bound hI.used hI.nodup
    · intro k n h
      split at h <;> cases h
    · intro h he
      split at he
      case isTrue hh => cases he; exact hn _ hh
      case isFalse => cases he
  | fSave h' =>
    have hf := hI.fin p h' hx
    have hn := fun h hh => half_new (h := h) hI hx rfl (fun h => by cases h) hh
    cases h
    refine base_own hI hx rfl rfl rfl ?_ (fun _ _ h => by cases h) (fun h hh => ⟨(hn h hh).1, fun _ => rfl⟩)
      (fun _ h => by cases h) ?_ ?_ hI.nodup
    · intro k n h
      cases h
      exact fresh_new hI hf.2 _ rfl rfl
    · intro k hm
      rcases List.mem_cons.1 hm with rfl | hm
      · exact hf.1
      · exact hI.bound k hm
    · intro k n hm
      exact List.mem_cons_of_mem _ (hI.used k n hm)
  | fRm =>
    cases h
    exact base_own hI hx rfl rfl rfl hI.full (fun _ _ h => by cases h) (fun h hh => by cases hh)
      (fun _ h => by cases h) hI.bound hI.used hI.nodup
  | uRmHalf =>
    cases h
    exact base_out hI hx rfl rfl rfl rfl rfl rfl (fun _ h => h) (fun _ h => by cases h) rfl
  | uStat =>
    cases h
    refine base_out hI hx rfl rfl rfl rfl rfl rfl (fun _ h => h) (fun _ h => h) ?_
    split <;> rfl
  | uRm =>
    cases h
    exact base_out hI hx rfl rfl rfl rfl rfl rfl (fun _ h => by cases h) (fun _ h => h) rfl
  | tRmHalf =>
    cases h
    exact base_out hI hx rfl rfl rfl rfl rfl rfl (fun _ h => h) (fun _ h => by cases h) rfl
  | tRm =>
    cases h
    exact base_out hI hx rfl rfl rfl rfl rfl rfl (fun _ h => by cases h) (fun _ h => h) rfl
  | tSaveId =>
    cases h
    refine base_out hI hx rfl rfl rfl rfl rfl rfl (fun _ h => h) (fun _ h => h) ?_
    split <;> rfl
  | tSave =>
    cases h
    refine base_own hI hx rfl rfl rfl hI.full (fun _ _ h => by cases h) ?_
      (fun _ h => by cases h) (fun k hm => Nat.lt_succ_of_lt (hI.bound k hm)) hI.used hI.nodup
    intro h hh
    cases hh
    exact ⟨Nat.lt_succ_self _, fun hm => absurd (hI.bound _ hm) (Nat.lt_irrefl _)⟩
  | unlock r =>
    cases h
    refine base_move hI rfl rfl rfl rfl (fun _ h => h) (fun _ h => h) ?_ (fun h => by cases h) rfl
      (fun _ h => by cases h) (by rw [hx]; intro h; cases h)
    intro q e hne hq he
    have h1 := hI.excl q e hq he
    rw [hI.excl p _ hx rfl] at h1
    exact absurd (Option.some.inj h1).symm hne
  | done r => cases h

theorem base_step {s s' : State} {e : Ev} (hI : Base s) (h : step s e = some s') : Base s' := by
  cases e with
  | «begin» p c =>
    simp only [step] at h
    split at h
    case h_1 => cases h
    case h_2 hn =>
      cases h
      refine base_move hI rfl rfl rfl rfl (fun _ h => h) (fun _ h => h) (fun q d _ hq hd => hI.excl q d hq hd) ?_ ?_ ?_
        (by rw [hn]; intro h; cases h)
      · cases c <;> (intro h; cases h)
      · cases c <;> rfl
      · cases c <;> (intro _ h; cases h)
  | go p ok =>
    simp only [step] at h
    split at h
    case h_1 => cases h
    case h_2 c hc => exact base_go hI hc h

theorem base_run {s s' : State} {es : List Ev} (hI : Base s) (h : run s es = some s') : Base s' := by
  induction es generalizing s with
  | nil => cases h; exact hI
  | cons e es ih =>
    simp only [run] at h
    cases hs : step s e with
    | none => rw [hs] at h; cases h
    | some s1 => rw [hs] at h; exact ih (base_step hI hs) h

theorem base_start : Base start :=
  ⟨fun _ _ h => by (cases h), fun _ _ h => by (cases h), fun _ _ _ _ h => by (cases h), fun _ h => by (cases h),
    fun _ _ h => by (cases h), fun _ h => by (cases h), fun _ _ h => by (cases h), List.nodup_nil⟩

/-- What a step does to the full ratchet, and to what goroutines have in memory. -/
theorem go_effect {s s' : State} {p : Nat} {ok : Bool} {c : Pc} (h : go s p ok c = some s') :
    (∃ c', s'.procs = (s.put p c').procs ∧ ∀ r, holds c' = some r → s.full = some r) ∧
    (s'.uses = s.uses ∨ ∃ k n, c = .sWrite k n ∧ s'.uses = s.uses ++ [(k, n)]) ∧
    ((s'.installed = s.installed ∧ (s'.full = s.full ∨ s'.full = none ∨
        ∃ k n, holds c = some (k, n) ∧ s'.full = some (k, n + 1))) ∨
      ∃ k, (k = s.next ∨ c = .fSave k) ∧ s'.full = some (k, 0) ∧ s'.installed = k :: s.installed) := by
  have lk : ∀ {c' : Pc}, holds c' = none → lock s p c' = some s' →
      (∃ c', s'.procs = (s.put p c').procs ∧ ∀ r, holds c' = some r → s.full = some r) ∧
      s'.uses = s.uses ∧ s'.installed = s.installed ∧ s'.full = s.full := by
    intro c' hc' h
    unfold lock at h
    split at h
    · cases h; exact ⟨⟨c', rfl, fun r hr => by rw [hc'] at hr; cases hr⟩, rfl, rfl, rfl⟩
    · cases h
  cases c with
  | sLock => obtain ⟨h1, h2, h3, h4⟩ := lk rfl h; exact ⟨h1, .inl h2, .inl ⟨h3, .inl h4⟩⟩
  | gLock m => obtain ⟨h1, h2, h3, h4⟩ := lk rfl h; exact ⟨h1, .inl h2, .inl ⟨h3, .inl h4⟩⟩
  | aLock => obtain ⟨h1, h2, h3, h4⟩ := lk rfl h; exact ⟨h1, .inl h2, .inl ⟨h3, .inl h4⟩⟩
  | fLock m => obtain ⟨h1, h2, h3, h4⟩ := lk rfl h; exact ⟨h1, .inl h2, .inl ⟨h3, .inl h4⟩⟩
  | tLock => obtain ⟨h1, h2, h3, h4⟩ := lk rfl h; exact ⟨h1, .inl h2, .inl ⟨h3, .inl h4⟩⟩
  | sLoad =>
    simp only [go] at h
    split at h
    · cases h; exact ⟨⟨_, rfl, fun _ h => by cases h⟩, .inl rfl, .inl ⟨rfl, .inl rfl⟩⟩
    · rename_i hf
      cases h; exact ⟨⟨_, rfl, fun _ h => by cases h; exact hf⟩, .inl rfl, .inl ⟨rfl, .inl rfl⟩⟩
  | sWrite k n =>
    simp only [go] at h
    split at h
    · cases h
      exact ⟨⟨_, rfl, fun _ h => by cases h⟩, .inr ⟨k, n, rfl, rfl⟩, .inl ⟨rfl, .inr (.inr ⟨k, n, rfl, rfl⟩)⟩⟩
    · cases h; exact ⟨⟨_, rfl, fun _ h => by cases h⟩, .inl rfl, .inl ⟨rfl, .inl rfl⟩⟩
  | gStart m =>
    simp only [go] at h
    split at h
    · cases h; exact ⟨⟨_, rfl, fun _ h => by cases h⟩, .inl rfl, .inl ⟨rfl, .inl rfl⟩⟩
    split at h
    · cases h
      refine ⟨⟨_, rfl, fun r h => ?_⟩, .inl rfl, .inl ⟨rfl, .inl rfl⟩⟩
      split at h <;> cases h
    split at h
    · split at h <;> (cases h; exact ⟨⟨_, rfl, fun _ h => by cases h⟩, .inl rfl, .inl ⟨rfl, .inl rfl⟩⟩)
    · cases h; exact ⟨⟨_, rfl, fun _ h => by cases h⟩, .inl rfl, .inl ⟨rfl, .inl rfl⟩⟩
  | gLoad m =>
    simp only [go] at h
    split at h
    · cases h; exact ⟨⟨_, rfl, fun _ h => by cases h⟩, .inl rfl, .inl ⟨rfl, .inl rfl⟩⟩
    · rename_i hf
      cases h
      refine ⟨⟨_, rfl, fun r h => ?_⟩, .inl rfl, .inl ⟨rfl, .inl rfl⟩⟩
      split at h
      · cases h; exact hf
      · cases h
  | gSave k n =>
    cases h
    exact ⟨⟨_, rfl, fun _ h => by cases h⟩, .inl rfl, .inl ⟨rfl, .inr (.inr ⟨k, n, rfl, rfl⟩)⟩⟩
  | aSave =>
    cases h
    exact ⟨⟨_, rfl, fun _ h => by cases h⟩, .inl rfl, .inr ⟨s.next, .inl rfl, rfl, rfl⟩⟩
  | fSave h' =>
    cases h
    exact ⟨⟨_, rfl, fun _ h => by cases h⟩, .inl rfl, .inr ⟨h', .inr rfl, rfl, rfl⟩⟩
  | uRm => cases h; exact ⟨⟨_, rfl, fun _ h => by cases h⟩, .inl rfl, .inl ⟨rfl, .inr (.inl rfl)⟩⟩
  | tRm => cases h; exact ⟨⟨_, rfl, fun _ h => by cases h⟩, .inl rfl, .inl ⟨rfl, .inr (.inl rfl)⟩⟩
  | fRm => cases h; exact ⟨⟨_, rfl, fun _ h => by cases h⟩, .inl rfl, .inl ⟨rfl, .inl rfl⟩⟩
  | uRmHalf => cases h; exact ⟨⟨_, rfl, fun _ h => by cases h⟩, .inl rfl, .inl ⟨rfl, .inl rfl⟩⟩
  | tRmHalf => cases h; exact ⟨⟨_, rfl, fun _ h => by cases h⟩, .inl rfl, .inl ⟨rfl, .inl rfl⟩⟩
  | tSave => cases h; exact ⟨⟨_, rfl, fun _ h => by cases h⟩, .inl rfl, .inl ⟨rfl, .inl rfl⟩⟩
  | unlock r => cases h; exact ⟨⟨_, rfl, fun _ h => by cases h⟩, .inl rfl, .inl ⟨rfl, .inl rfl⟩⟩
  | aSaveId =>
    cases h
    refine ⟨⟨_, rfl, fun r h => ?_⟩, .inl rfl, .inl ⟨rfl, .inl rfl⟩⟩
    split at h <;> cases h
  | fLoad h' =>
    cases h
    refine ⟨⟨_, rfl, fun r h => ?_⟩, .inl rfl, .inl ⟨rfl, .inl rfl⟩⟩
    split at h <;> cases h
  | uStat =>
    cases h
    refine ⟨⟨_, rfl, fun r h => ?_⟩, .inl rfl, .inl ⟨rfl, .inl rfl⟩⟩
    split at h <;> cases h
  | tSaveId =>
    cases h
    refine ⟨⟨_, rfl, fun r h => ?_⟩, .inl rfl, .inl ⟨rfl, .inl rfl⟩⟩
    split at h <;> cases h
  | done r => cases h

/-! ## No ratchet is used twice -/

/-- C116.  Whatever is sent, received, exchanged and reset at the same time, no two messages that are written are
encrypted with the same state of a ratchet. -/
theorem C116_once_partial {es : List Ev} {s : State} (h : run start es = some s) : s.uses.Nodup :=
  (base_run base_start h).nodup

/-- C116.  A message is only ever encrypted with the ratchet of the exchange that was completed last. -/
theorem C116_newest_partial {es : List Ev} {e : Ev} {s s' : State} (h : run start es = some s)
    (he : step s e = some s') (hu : s'.uses ≠ s.uses) :
    ∃ k n, s'.uses = s.uses ++ [(k, n)] ∧ s.installed.head? = some k ∧ (k, n) ∉ s.uses := by
  have hI := base_run base_start h
  cases e with
  | «begin» p c =>
    simp only [step] at he
    split at he
    · cases he
    · cases he; exact absurd rfl hu
  | go p ok =>
    simp only [step] at he
    split at he
    · cases he
    · rename_i c hc
      rcases (go_effect he).2.1 with h1 | ⟨k, n, rfl, h1⟩
      · exact absurd h1 hu
      · have := hI.held p _ k n hc rfl
        exact ⟨k, n, h1, this.1, fun hm => Nat.lt_irrefl _ (this.2 n hm)⟩

/-! ## After a reset -/

/-- None of the exchanges `old` is in use or on disk any more. -/
structure Anew (old : List Nat) (base : List (Nat × Nat)) (s : State) : Prop where
  sub : ∀ k ∈ old, k ∈ s.installed
  full : ∀ k n, s.full = some (k, n) → k ∉ old
  held : ∀ p c k n, s.procs p = some c → holds c = some (k, n) → k ∉ old
  uses : ∃ l, s.uses = base ++ l ∧ ∀ k n, (k, n) ∈ l → k ∉ old

theorem anew_step {old : List Nat} {base : List (Nat × Nat)} {s s' : State} {e : Ev} (hI : Base s)
    (hA : Anew old base s) (h : step s e = some s') : Anew old base s' := by
  cases e with
  | «begin» p c =>
    simp only [step] at h
    split at h
    · cases h
    · cases h
      refine ⟨hA.sub, hA.full, ?_, hA.uses⟩
      intro q d k n hq hd
      rcases put_cases hq with ⟨rfl, rfl⟩ | ⟨_, hq⟩
      · cases c <;> cases hd
      · exact hA.held q d k n hq hd
  | go p ok =>
    simp only [step] at h
    split at h
    · cases h
    · rename_i c hc
      obtain ⟨⟨c', hp, hh⟩, hu, hf⟩ := go_effect h
      have held : ∀ q d k n, s'.procs q = some d → holds d = some (k, n) → k ∉ old := by
        intro q d k n hq hd
        rw [hp] at hq
        rcases put_cases hq with ⟨rfl, rfl⟩ | ⟨_, hq⟩
        · exact hA.full k n (hh _ hd)
        · exact hA.held q d k n hq hd
      have uses : ∃ l, s'.uses = base ++ l ∧ ∀ k n, (k, n) ∈ l → k ∉ old := by
        obtain ⟨l, hl, hk⟩ := hA.uses
        rcases hu with hu | ⟨k, n, rfl, hu⟩
        · exact ⟨l, by rw [hu, hl], hk⟩
        · refine ⟨l ++ [(k, n)], by rw [hu, hl, List.append_assoc], ?_⟩
          intro k' n' hm
          rcases List.mem_append.1 hm with hm | hm
          · exact hk k' n' hm
          · cases List.mem_singleton.1 hm; exact hA.held p _ k n hc rfl
      rcases hf with ⟨hin, hf⟩ | ⟨k, hk, hf, hin⟩
      · refine ⟨by rw [hin]; exact hA.sub, ?_, held, uses⟩
        intro k n hfull
        rcases hf with hf | hf | ⟨k', n', hc', hf⟩
        · rw [hf] at hfull; exact hA.full k n hfull
        · rw [hf] at hfull; cases hfull
        · rw [hf] at hfull; cases hfull; exact hA.held p c k n' hc hc'
      · refine ⟨fun k hk => by rw [hin]; exact List.mem_cons_of_mem _ (hA.sub k hk), ?_, held, uses⟩
        intro k' n hfull
        rw [hf] at hfull
        cases hfull
        intro hm
        have hm := hA.sub _ hm
        rcases hk with rfl | rfl
        · exact Nat.lt_irrefl _ (hI.bound _ hm)
        · exact (hI.fin p _ hc).2 hm

theorem anew_run {old : List Nat} {base : List (Nat × Nat)} {s s' : State} {es : List Ev} (hI : Base s)
    (hA : Anew old base s) (h : run s es = some s') : Anew old base s' := by
  induction es generalizing s with
  | nil => cases h; exact hA
  | cons e es ih =>
    simp only [run] at h
    cases hs : step s e with
    | none => rw [hs] at h; cases h
    | some s1 => rw [hs] at h; exact ih (base_step hI hs) (anew_step hI hA hs) h

/-- Nobody is between reading the ratchet and saving it. -/
def Idle (s : State) : Prop := ∀ p c, s.procs p = some c → holds c = none

/-- C116.  Once the ratchet has been removed while nobody was between reading and saving it, no exchange from before
is in the file again or encrypts anything. -/
theorem C116_anew_partial {es fs : List Ev} {s s' : State} (h : run start es = some s) (hi : Idle s)
    (hf : s.full = none) (hr : run s fs = some s') :
    (∀ k n, s'.full = some (k, n) → k ∉ s.installed) ∧
    ∃ l, s'.uses = s.uses ++ l ∧ ∀ k n, (k, n) ∈ l → k ∉ s.installed := by
  have hI := base_run base_start h
  have hA : Anew s.installed s.uses s := by
    refine ⟨fun _ h => h, (fun k n h => by rw [hf] at h; cases h), ?_,
      ⟨[], (List.append_nil _).symm, (fun _ _ h => by cases h)⟩⟩
    intro p c k n hp hc
    rw [hi p c hp] at hc; cases hc
  have := anew_run hI hA hr
  exact ⟨this.full, this.uses⟩

/-- `n` steps of `p`. -/
def steps (p n : Nat) : List Ev := List.replicate n (.go p true)

/-- C116.  With nobody else at it, an offer that comes after the ratchet has been removed begins a conversation. -/
theorem C116_offer_partial (s : State) (p : Nat) (hp : s.procs p = none) (hm : s.mutex = none) (hf : s.full = none)
    (hh : s.half = none) : ∃ s', run s (.begin p (.push .offer) :: steps p 5) = some s' ∧
      s'.procs p = some (.done .talking) ∧ s'.full = some (s.next, 0) ∧ s'.mutex = none := by
  refine ⟨_, by simp only [run, steps, List.replicate, step, hp, Option.bind, go, State.exists_, State.put, hf,
    hh, Option.isSome, Bool.or_self, Bool.not_false, if_true, reduceCtorEq, if_false, lock, hm]; rfl, ?_, ?_, ?_⟩
  · simp
  · rfl
  · rfl

/-- C116.  With nobody else at it, a message is sent with the state the file has, and the next one is saved; if the connection
fails it is kept, and the state is used again; without a ratchet the user is told that it cannot be delivered. -/
theorem C116_sent_partial (s : State) (p : Nat) (hp : s.procs p = none) (hm : s.mutex = none) :
    (∀ k n, s.full = some (k, n) → ∃ s', run s (.begin p .send :: steps p 4) = some s' ∧
      s'.procs p = some (.done .sent) ∧ s'.full = some (k, n + 1) ∧ s'.uses = s.uses ++ [(k, n)] ∧ s'.mutex = none) ∧
    (∀ k n, s.full = some (k, n) → ∃ s', run s [.begin p .send, .go p true, .go p true, .go p false, .go p true] = some s' ∧
      s'.procs p = some (.done .kept) ∧ s'.full = s.full ∧ s'.uses = s.uses ∧ s'.mutex = none) ∧
    (s.full = none → ∃ s', run s (.begin p .send :: steps p 3) = some s' ∧
      s'.procs p = some (.done .undelivered) ∧ s'.full = none ∧ s'.uses = s.uses ∧ s'.mutex = none) := by
  refine ⟨fun k n hf => ?_, fun k n hf => ?_, fun hf => ?_⟩
  · refine ⟨_, by simp only [run, steps, List.replicate, step, hp, Option.bind, go, State.put, hf, if_true, lock, hm]; rfl,
      ?_, ?_, ?_, ?_⟩ <;> simp
  · refine ⟨_, by simp only [run, step, hp, Option.bind, go, State.put, hf, if_true, Bool.false_eq_true, if_false, lock, hm]; rfl,
      ?_, ?_, ?_, ?_⟩ <;> simp [hf]
  · refine ⟨_, by simp only [run, steps, List.replicate, step, hp, Option.bind, go, State.put, hf, if_true, lock, hm]; rfl,
      ?_, ?_, ?_, ?_⟩ <;> simp [hf]

/-- C116.  With nobody else at it, a client that is told of a reset forgets both ratchets and offers a key exchange, and
the answer to it begins a conversation. -/
theorem C116_told_partial (s : State) (p q : Nat) (hpq : q ≠ p) (hp : s.procs p = none) (hq : s.procs q = none)
    (hm : s.mutex = none) : ∃ s₁ s₂, run s (.begin p (.push .reset) :: steps p 7) = some s₁ ∧
      s₁.procs p = some (.done .offered) ∧ s₁.full = none ∧ s₁.half = some s.next ∧
      run s₁ (.begin q (.push (.answer s.next)) :: steps q 6) = some s₂ ∧
      s₂.procs q = some (.done .talking) ∧ s₂.full = some (s.next, 0) ∧ s₂.half = none := by
  have h1 : ∃ s₁, run s (.begin p (.push .reset) :: steps p 7) = some s₁ ∧
      s₁.procs p = some (.done .offered) ∧ s₁.full = none ∧ s₁.half = some s.next ∧ s₁.mutex = none ∧
      s₁.procs q = none := by
    refine ⟨_, by simp only [run, steps, List.replicate, step, hp, Option.bind, go, State.exists_, State.put,
      Option.isSome, Bool.or_self, if_true, reduceCtorEq, if_false, lock, hm]; rfl, ?_, rfl, rfl, rfl, ?_⟩
    · simp
    · simp [hpq, hq]
  obtain ⟨s₁, hr, h2, h3, h4, h5, h6⟩ := h1
  have h7 : ∃ s₂, run s₁ (.begin q (.push (.answer s.next)) :: steps q 6) = some s₂ ∧
      s₂.procs q = some (.done .talking) ∧ s₂.full = some (s.next, 0) ∧ s₂.half = none := by
    refine ⟨_, by simp only [run, steps, List.replicate, step, h6, Option.bind, go, State.exists_, State.put, h3, h4,
      Option.isSome, Bool.false_or, Bool.not_true, Bool.false_eq_true, if_true, reduceCtorEq, if_false, lock, h5]; rfl,
      ?_, rfl, rfl⟩
    simp
  obtain ⟨s₂, h8, h9, h10, h11⟩ := h7
  exact ⟨s₁, s₂, hr, h2, h3, h4, h8, h9, h10, h11⟩

/-! ## What happens to a reset while a message is being sent or received -/

namespace Ex

/-- A conversation of exchange 0; goroutine 1 has read the ratchet in order to send. -/
def sending : List Ev := .begin 0 (.push .offer) :: steps 0 5 ++ .begin 1 .send :: steps 1 2

/-- The same, but the goroutine has read it in order to receive. -/
def receiving : List Ev := .begin 0 (.push .offer) :: steps 0 5 ++ .begin 1 (.push (.text 0)) :: steps 1 3

end Ex

/-- What can be seen of a state. -/
def State.seen (s : State) (l : List Nat) : Option (Nat × Nat) × Option Nat × List (Nat × Nat) × List (Option Pc) :=
  (s.full, s.half, s.uses, l.map s.procs)

/-- The user's reset removes the ratchet between the two steps of goroutine 1, which then saves it again.  The offer that
the contact makes because of the reset is handed to the old ratchet and dropped. -/
theorem C116_undone_violated :
    (run start (Ex.sending ++ (.begin 2 .reset :: steps 2 3) ++ steps 1 2 ++ (.begin 3 (.push .offer) :: steps 3 4))).map
        (State.seen · [1, 2, 3]) =
      some (some (0, 1), none, [(0, 0)], [some (.done .sent), some (.done .resetting), some (.done .dropped)]) ∧
    (run start (Ex.receiving ++ (.begin 2 .reset :: steps 2 3) ++ steps 1 2 ++
        (.begin 3 (.push .offer) :: steps 3 4))).map (State.seen · [1, 2, 3]) =
      some (some (0, 1), none, [], [some (.done .shown), some (.done .resetting), some (.done .dropped)]) := by
  constructor <;> rfl

/-- A client that is told of a reset removes the ratchet and sends its offer; a message that is being sent saves the
ratchet again, and the client does not store what it needs for the answer.  Whatever the answer, it is dropped. -/
theorem C116_unanswered_violated (h : Nat) :
    (run start (Ex.sending ++ (.begin 2 (.push .reset) :: steps 2 3) ++ steps 1 2 ++ steps 2 1 ++
        (.begin 3 (.push (.answer h)) :: steps 3 4))).map (State.seen · [1, 2, 3]) =
      some (some (0, 1), none, [(0, 0)], [some (.done .sent), some (.done .dropped), some (.done .dropped)]) := by
  rfl

/-- The contact has the ratchet of the new exchange by then (`C116_offer_partial`).  From then on what the contact
writes is dropped, however often, until one of the users resets again. -/
theorem C116_deaf_violated (s : State) (p k : Nat) (hp : s.procs p = none) (hm : s.mutex = none) (j n : Nat)
    (hf : s.full = some (j, n)) (hk : k ≠ j) :
    ∃ s', run s (.begin p (.push (.text k)) :: steps p 4) = some s' ∧
      s'.procs p = some (.done .dropped) ∧ s'.full = s.full ∧ s'.half = s.half := by
  have hne : (Push.text k = Push.text j) = False := by simp [hk]
  refine ⟨_, by simp only [run, steps, List.replicate, step, hp, Option.bind, go, State.exists_, State.put, hf,
    Option.isSome, Bool.true_or, Bool.not_true, Bool.false_eq_true, if_true, reduceCtorEq, if_false, lock, hm, hne]; rfl,
    ?_, ?_, ?_⟩
  · simp
  · exact hf.symm
  · rfl

/-! ## Instances -/

/-- Two goroutines send, one receives and waits for them; the three messages use three states. -/
example : (run start (.begin 0 (.push .offer) :: steps 0 5 ++ [.begin 1 .send, .begin 2 .send, .begin 3 (.push (.text 0))] ++
    steps 1 2 ++ steps 3 1 ++ steps 1 2 ++ steps 3 4 ++ steps 2 4)).map (State.seen · [1, 2, 3]) =
    some (some (0, 3), none, [(0, 0), (0, 2)], [some (.done .sent), some (.done .sent), some (.done .shown)]) := by rfl

/-- `C116_anew_partial` applies after a reset that nobody was in the way of; the next conversation uses exchange 1. -/
example : ∃ s, run start (.begin 0 (.push .offer) :: steps 0 5 ++ .begin 1 .send :: steps 1 4 ++
      .begin 2 (.push .reset) :: steps 2 7) = some s ∧ s.full = none ∧ s.half = some 1 ∧ s.installed = [0] ∧
    (run s (.begin 3 (.push (.answer 1)) :: steps 3 6 ++ .begin 4 .send :: steps 4 4)).map (State.seen · [3, 4]) =
      some (some (1, 1), none, [(0, 0), (1, 0)], [some (.done .talking), some (.done .sent)]) :=
  ⟨_, rfl, rfl, rfl, rfl, rfl⟩

/-- `C116_sent_partial` applies before there is a ratchet, and after. -/
example : (run start (.begin 0 .send :: steps 0 3 ++ .begin 1 (.push .offer) :: steps 1 5 ++ .begin 2 .send :: steps 2 4)).map
    (State.seen · [0, 1, 2]) =
    some (some (0, 1), none, [(0, 0)], [some (.done .undelivered), some (.done .talking), some (.done .sent)]) := by rfl

end Verif.RatchetFile
