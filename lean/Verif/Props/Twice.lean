import Verif.Model.Twice

/-! # C141: a user who has the client open twice can use one of them, and nothing is undone -/

namespace Verif.Twice

/-! ## Connections -/

theorem put_same (s : State) (c : Bool) (x : Client) : (s.put c x).cl c = x := by simp [State.put]

theorem put_other (s : State) (c : Bool) (x : Client) : (s.put c x).cl (!c) = s.cl (!c) := by simp [State.put]

theorem inTime_iff (x : Client) (t δ : Nat) :
    x.inTime t δ = true ↔ (∀ d ∈ x.loops, t ≤ d + δ) ∧ ∀ w, x.conn = .dead w → t ≤ w + δ := by
  unfold Client.inTime
  cases h : x.conn <;> simp

/-- What holds of one client at the time `now`. -/
structure Ok (δ now : Nat) (x : Client) : Prop where
  ran : x.runs = false → x.conn = .off ∧ x.loops = []
  alive : x.runs = true → x.conn = .off → x.loops ≠ []
  due : ∀ d ∈ x.loops, d ≤ now + pause ∧ now ≤ d + δ
  since : (∀ u, x.conn = .up u → u ≤ now) ∧ ∀ w, x.conn = .dead w → w ≤ now ∧ now ≤ w + δ

/-- While one is online since `u`, the other, if it runs, is about to come. -/
def Comes (δ u : Nat) (y : Client) : Prop :=
  y.runs = true → (∃ w, y.conn = .dead w ∧ w ≤ u) ∨ (y.conn = .off ∧ ∃ d ∈ y.loops, d ≤ u + δ + pause)

structure Inv (δ : Nat) (s : State) : Prop where
  ok : ∀ c, Ok δ s.now (s.cl c)
  slot : ∀ c, s.slot = some c ↔ ∃ u, (s.cl c).conn = .up u
  comes : ∀ c u, (s.cl c).conn = .up u → Comes δ u (s.cl (!c))

theorem inv_init (δ : Nat) : Inv δ init where
  ok c := ⟨fun _ => ⟨rfl, rfl⟩, fun h => (by cases h), fun d h => (by cases h), fun u h => (by cases h), fun w h => (by cases h)⟩
  slot c := ⟨fun h => (by cases h), fun ⟨u, h⟩ => (by cases h)⟩
  comes c u h := by cases h

/-- A login of a client that is not connected. -/
theorem inv_login {δ : Nat} {s : State} {c : Bool} (hc : (s.cl c).conn = .off) (hr : (s.cl c).runs = true)
    (hd : ∀ d ∈ (s.cl c).loops, d ≤ s.now + pause ∧ s.now ≤ d + δ)
    (ho : Ok δ s.now (s.cl (!c))) (hs : ∀ b, s.slot = some b ↔ ∃ u, (s.cl b).conn = .up u) : Inv δ (login s c) := by
  have hall : ∀ {P : Bool → Prop}, P c → P (!c) → ∀ b, P b := by
    intro P h1 h2 b
    cases b <;> cases c <;> first | exact h1 | exact h2
  rw [login]
  cases hsl : s.slot with
  | none =>
    have hno : ∀ u, (s.cl (!c)).conn ≠ .up u := by
      intro u hu
      have := (hs (!c)).2 ⟨u, hu⟩
      rw [hsl] at this
      cases this
    have e1 : (s.put c { s.cl c with conn := .up s.now }).cl c = { s.cl c with conn := .up s.now } := put_same ..
    have e2 : (s.put c { s.cl c with conn := .up s.now }).cl (!c) = s.cl (!c) := put_other ..
    refine ⟨hall ?_ ?_, hall ?_ ?_, hall ?_ ?_⟩
    · show Ok δ s.now ((s.put c _).cl c)
      rw [e1]
      exact ⟨fun h => absurd h (by simp [hr]), fun _ h => (by cases h), hd,
        fun u h => (by cases h; exact Nat.le_refl _), fun w h => (by cases h)⟩
    · show Ok δ s.now ((s.put c _).cl (!c))
      rw [e2]
      exact ho
    · show some c = some c ↔ ∃ u, ((s.put c _).cl c).conn = .up u
      rw [e1]
      exact ⟨fun _ => ⟨_, rfl⟩, fun _ => rfl⟩
    · show some c = some (!c) ↔ ∃ u, ((s.put c _).cl (!c)).conn = .up u
      rw [e2]
      exact ⟨fun h => (by cases c <;> cases h), fun ⟨u, h⟩ => absurd h (hno u)⟩
    · intro u hu
      change ((s.put c _).cl c).conn = .up u at hu
      show Comes δ u ((s.put c _).cl (!c))
      rw [e1] at hu
      rw [e2]
      cases hu
      intro hr'
      cases ho' : (s.cl (!c)).conn with
      | up u => exact absurd ho' (hno u)
      | dead w => exact .inl ⟨w, rfl, (ho.since.2 w ho').1⟩
      | off =>
        right
        refine ⟨rfl, ?_⟩
        obtain ⟨d, hd'⟩ := List.exists_mem_of_ne_nil _ (ho.alive hr' ho')
        exact ⟨d, hd', by have := (ho.due d hd').1; omega⟩
    · intro u hu
      change ((s.put c _).cl (!c)).conn = .up u at hu
      rw [e2] at hu
      exact absurd hu (hno u)
  | some o =>
    obtain ⟨u0, hu0⟩ := (hs o).1 hsl
    have hoc : o = !c := by
      cases o <;> cases c <;> first | rfl | (rw [hc] at hu0; cases hu0)
    subst hoc
    simp only [hu0, Conn.close]
    generalize hs' : s.put (!c) { s.cl (!c) with conn := .dead s.now } = s'
    have f1 : s'.cl (!c) = { s.cl (!c) with conn := .dead s.now } := by rw [← hs']; exact put_same ..
    have f2 : s'.cl c = s.cl c := by
      rw [← hs']
      have := put_other s (!c) { s.cl (!c) with conn := .dead s.now }
      rwa [Bool.not_not] at this
    have e1 : (s'.put c { s'.cl c with conn := .dead s.now }).cl c = { s.cl c with conn := .dead s.now } := by
      rw [put_same, f2]
    have e2 : (s'.put c { s'.cl c with conn := .dead s.now }).cl (!c) = { s.cl (!c) with conn := .dead s.now } := by
      rw [put_other, f1]
    have fn : s'.now = s.now := by rw [← hs']; rfl
    refine ⟨hall ?_ ?_, hall ?_ ?_, hall ?_ ?_⟩
    · show Ok δ s'.now ((s'.put c _).cl c)
      rw [e1, fn]
      exact ⟨fun h => absurd h (by simp [hr]), fun _ h => (by cases h), hd, fun u h => (by cases h),
        fun w h => (by cases h; omega)⟩
    · show Ok δ s'.now ((s'.put c _).cl (!c))
      rw [e2, fn]
      refine ⟨fun h => ?_, fun _ h => (by cases h), ho.due, fun u h => (by cases h), fun w h => (by cases h; omega)⟩
      have := (ho.ran h).1
      rw [hu0] at this
      cases this
    · show none = some c ↔ ∃ u, ((s'.put c _).cl c).conn = .up u
      rw [e1]
      exact ⟨fun h => (by cases h), fun ⟨u, h⟩ => (by cases h)⟩
    · show none = some (!c) ↔ ∃ u, ((s'.put c _).cl (!c)).conn = .up u
      rw [e2]
      exact ⟨fun h => (by cases h), fun ⟨u, h⟩ => (by cases h)⟩
    · intro u hu
      change ((s'.put c _).cl c).conn = .up u at hu
      rw [e1] at hu
      cases hu
    · intro u hu
      change ((s'.put c _).cl (!c)).conn = .up u at hu
      rw [e2] at hu
      cases hu

theorem inv_step {δ : Nat} {s s' : State} {e : Ev} (hi : Inv δ s) (h : step δ s e = some s') : Inv δ s' := by
  have hall : ∀ (c : Bool) {P : Bool → Prop}, P c → P (!c) → ∀ b, P b := by
    intro c P h1 h2 b
    cases b <;> cases c <;> first | exact h1 | exact h2
  cases e with
  | pass d =>
    simp only [step] at h
    split at h
    · rename_i hg
      cases h
      rw [Bool.and_eq_true, inTime_iff, inTime_iff] at hg
      have hg' : ∀ c, (∀ t ∈ (s.cl c).loops, s.now + d ≤ t + δ) ∧ ∀ w, (s.cl c).conn = .dead w → s.now + d ≤ w + δ :=
        fun c => match c with
        | false => hg.1
        | true => hg.2
      refine ⟨fun c => ?_, hi.slot, hi.comes⟩
      have := hi.ok c
      refine ⟨this.ran, this.alive, fun t ht => ⟨?_, (hg' c).1 t ht⟩, fun u hu => ?_, fun w hw => ⟨?_, (hg' c).2 w hw⟩⟩
      · have := (this.due t ht).1
        show t ≤ s.now + d + pause
        omega
      · have := this.since.1 u hu
        show u ≤ s.now + d
        omega
      · have := (this.since.2 w hw).1
        show w ≤ s.now + d
        omega
    · cases h
  | start c =>
    simp only [step] at h
    split at h
    · cases h
    · rename_i hr
      cases h
      have hr : (s.cl c).runs = false := by simpa using hr
      refine inv_login ?_ ?_ ?_ ?_ ?_
      · rw [put_same]
      · rw [put_same]
      · rw [put_same]; intro d hd; cases hd
      · rw [put_other]; exact hi.ok _
      · refine hall c ?_ ?_
        · rw [put_same]
          refine ⟨fun h => ?_, fun ⟨u, h⟩ => (by cases h)⟩
          obtain ⟨u, hu⟩ := (hi.slot c).1 h
          rw [((hi.ok c).ran hr).1] at hu
          cases hu
        · rw [put_other]; exact hi.slot (!c)
  | quit c =>
    simp only [step] at h
    cases h
    refine ⟨hall c ?_ ?_, hall c ?_ ?_, hall c ?_ ?_⟩
    · show Ok δ s.now ((s.put c _).cl c)
      rw [put_same]
      exact ⟨fun _ => ⟨rfl, rfl⟩, fun h => (by cases h), fun d h => (by cases h), fun u h => (by cases h), fun w h => (by cases h)⟩
    · show Ok δ s.now ((s.put c _).cl (!c))
      rw [put_other]
      exact hi.ok _
    · show (if s.slot = some c then none else s.slot) = some c ↔ ∃ u, ((s.put c _).cl c).conn = .up u
      rw [put_same]
      refine ⟨fun h => ?_, fun ⟨u, h⟩ => (by cases h)⟩
      split at h
      · cases h
      · exact absurd h ‹_›
    · show (if s.slot = some c then none else s.slot) = some (!c) ↔ ∃ u, ((s.put c _).cl (!c)).conn = .up u
      rw [put_other, ← hi.slot (!c)]
      split
      · rename_i h1
        rw [h1]
        exact ⟨fun h => (by cases h), fun h => (by cases c <;> cases h)⟩
      · exact Iff.rfl
    · intro u hu
      change ((s.put c _).cl c).conn = .up u at hu
      rw [put_same] at hu
      cases hu
    · intro u hu hr
      change ((s.put c _).cl (!!c)).runs = true at hr
      rw [Bool.not_not, put_same] at hr
      cases hr
  | fire c d =>
    simp only [step] at h
    split at h
    · rename_i hg
      have hrun : (s.cl c).runs = true := by
        cases hr : (s.cl c).runs with
        | true => rfl
        | false => rw [((hi.ok c).ran hr).2] at hg; cases hg.1
      split at h
      · rename_i hoff
        cases h
        refine inv_login ?_ ?_ ?_ ?_ ?_
        · rw [put_same]; exact hoff
        · rw [put_same]; exact hrun
        · rw [put_same]
          intro t ht
          rcases List.mem_append.1 ht with ht | ht
          · exact (hi.ok c).due t (List.mem_of_mem_erase ht)
          · rw [List.mem_singleton.1 ht]
            show s.now + pause ≤ s.now + pause ∧ s.now ≤ s.now + pause + δ
            omega
        · rw [put_other]; exact hi.ok _
        · refine hall c ?_ ?_
          · rw [put_same]; exact hi.slot c
          · rw [put_other]; exact hi.slot _
      · rename_i hoff
        cases h
        refine ⟨hall c ?_ ?_, hall c ?_ ?_, hall c ?_ ?_⟩
        · show Ok δ s.now ((s.put c _).cl c)
          rw [put_same]
          exact ⟨fun h => absurd h (by simp [hrun]), fun _ h => absurd h hoff,
            fun t ht => (hi.ok c).due t (List.mem_of_mem_erase ht), (hi.ok c).since⟩
        · show Ok δ s.now ((s.put c _).cl (!c))
          rw [put_other]
          exact hi.ok _
        · show s.slot = some c ↔ ∃ u, ((s.put c _).cl c).conn = .up u
          rw [put_same]; exact hi.slot c
        · show s.slot = some (!c) ↔ ∃ u, ((s.put c _).cl (!c)).conn = .up u
          rw [put_other]; exact hi.slot _
        · intro u hu
          change ((s.put c _).cl c).conn = .up u at hu
          show Comes δ u ((s.put c _).cl (!c))
          rw [put_same] at hu
          rw [put_other]
          exact hi.comes c u hu
        · intro u hu
          change ((s.put c _).cl (!c)).conn = .up u at hu
          show Comes δ u ((s.put c _).cl (!!c))
          rw [put_other] at hu
          rw [Bool.not_not, put_same]
          have hcm := hi.comes (!c) u hu
          rw [Bool.not_not] at hcm
          intro hr
          rcases hcm hr with ⟨w, h1, h2⟩ | ⟨h1, _⟩
          · exact .inl ⟨w, h1, h2⟩
          · exact absurd h1 hoff
    · cases h
  | notice c =>
    simp only [step] at h
    split at h
    · rename_i w hw
      cases h
      have hrun : (s.cl c).runs = true := by
        cases hr : (s.cl c).runs with
        | true => rfl
        | false => rw [((hi.ok c).ran hr).1] at hw; cases hw
      refine ⟨hall c ?_ ?_, hall c ?_ ?_, hall c ?_ ?_⟩
      · show Ok δ s.now ((s.put c _).cl c)
        rw [put_same]
        refine ⟨fun h => absurd h (by simp [hrun]), fun _ _ => by simp, fun t ht => ?_, fun u h => (by cases h), fun w h => (by cases h)⟩
        rcases List.mem_append.1 ht with ht | ht
        · exact (hi.ok c).due t ht
        · rw [List.mem_singleton.1 ht]
          omega
      · show Ok δ s.now ((s.put c _).cl (!c))
        rw [put_other]
        exact hi.ok _
      · show s.slot = some c ↔ ∃ u, ((s.put c _).cl c).conn = .up u
        rw [put_same, hi.slot c, hw]
        exact ⟨fun ⟨u, h⟩ => (by cases h), fun ⟨u, h⟩ => (by cases h)⟩
      · show s.slot = some (!c) ↔ ∃ u, ((s.put c _).cl (!c)).conn = .up u
        rw [put_other]; exact hi.slot _
      · intro u hu
        change ((s.put c _).cl c).conn = .up u at hu
        rw [put_same] at hu
        cases hu
      · intro u hu
        change ((s.put c _).cl (!c)).conn = .up u at hu
        show Comes δ u ((s.put c _).cl (!!c))
        rw [put_other] at hu
        rw [Bool.not_not, put_same]
        have hcm := hi.comes (!c) u hu
        rw [Bool.not_not] at hcm
        intro _
        right
        refine ⟨rfl, s.now + pause, by simp, ?_⟩
        rcases hcm hrun with ⟨w', h1, h2⟩ | ⟨h1, _⟩
        · have := ((hi.ok c).since.2 w' h1).2
          omega
        · rw [hw] at h1
          cases h1
    · cases h

theorem inv_run {δ : Nat} {s s' : State} {es : List Ev} (hi : Inv δ s) (h : Run δ s es s') : Inv δ s' := by
  induction h with
  | nil => exact hi
  | cons h1 _ ih => exact ih (inv_step hi h1)

/-- **C141** At most one of the clients is online, and it is the one whose session the server has. -/
theorem C141_one (δ : Nat) (es : List Ev) (s : State) (h : Run δ init es s) :
    (∀ c, s.slot = some c ↔ ∃ u, (s.cl c).conn = .up u) ∧
    ¬ ((∃ u, (s.cl false).conn = .up u) ∧ ∃ u, (s.cl true).conn = .up u) := by
  have hi := inv_run (inv_init δ) h
  refine ⟨hi.slot, fun ⟨h1, h2⟩ => ?_⟩
  have e1 := (hi.slot false).2 h1
  have e2 := (hi.slot true).2 h2
  rw [e1] at e2
  cases e2

/-- **C141** (violated) As long as both clients run neither stays online: who is online has been so for no longer than half a
minute and twice the time in which timers and closed connections are noticed. -/
theorem C141_short_violated (δ : Nat) (es : List Ev) (s : State) (h : Run δ init es s)
    (hr : ∀ c, (s.cl c).runs = true) (c : Bool) (u : Nat) (hu : (s.cl c).conn = .up u) : s.now ≤ u + 30000 + 2 * δ := by
  have hi := inv_run (inv_init δ) h
  have hp : pause = 30000 := rfl
  rcases hi.comes c u hu (hr _) with ⟨w, h1, h2⟩ | ⟨_, d, h1, h2⟩
  · have := ((hi.ok (!c)).since.2 w h1).2
    omega
  · have := ((hi.ok (!c)).due d h1).2
    omega

/-- Both are started, both lose their connections, and half a minute later the first of them is online. -/
example : ∃ s, Run 1000 init [.start false, .start true, .notice false, .notice true, .pass 30000, .fire false 30000,
    .pass 500] s ∧ (∀ c, (s.cl c).runs = true) ∧ (s.cl false).conn = .up 30000 ∧ s.now = 30500 := by
  refine ⟨_, .cons rfl (.cons rfl (.cons rfl (.cons rfl (.cons rfl (.cons rfl (.cons rfl (.nil _))))))), fun c => ?_, rfl, rfl⟩
  cases c <;> rfl

/-- Nothing but this client, which goes on running. -/
def Only (c : Bool) (e : Ev) : Prop := e ≠ .start (!c) ∧ e ≠ .quit c

/-- Soon online. -/
def Soon (δ t : Nat) (x : Client) : Prop :=
  (∃ u, x.conn = .up u) ∨ (∃ w, x.conn = .dead w ∧ w ≤ t) ∨ (x.conn = .off ∧ ∃ d ∈ x.loops, d ≤ t + δ + pause)

theorem only_step {δ : Nat} {s s' : State} {e : Ev} {c : Bool} (hi : Inv δ s) (h : step δ s e = some s')
    (ho : Only c e) (hr : (s.cl c).runs = true) (hn : (s.cl (!c)).runs = false) :
    (s'.cl c).runs = true ∧ (s'.cl (!c)).runs = false ∧ (∀ u, (s.cl c).conn = .up u → (s'.cl c).conn = .up u) ∧
    ∀ t, Soon δ t (s.cl c) → Soon δ t (s'.cl c) := by
  have hcase : ∀ b : Bool, b = c ∨ b = !c := by intro b; cases b <;> cases c <;> simp
  have hno := (hi.ok (!c)).ran hn
  cases e with
  | pass d =>
    simp only [step] at h
    split at h
    · cases h
      exact ⟨hr, hn, fun _ h => h, fun _ h => h⟩
    · cases h
  | start b =>
    rcases hcase b with rfl | rfl
    · simp [step, hr] at h
    · exact absurd rfl ho.1
  | quit b =>
    rcases hcase b with rfl | rfl
    · exact absurd rfl ho.2
    · simp only [step] at h
      cases h
      have e1 : (s.put (!c) ⟨false, .off, []⟩).cl c = s.cl c := by
        have := put_other s (!c) ⟨false, .off, []⟩
        rwa [Bool.not_not] at this
      have e2 := put_same s (!c) ⟨false, .off, []⟩
      refine ⟨?_, ?_, fun u hu => ?_, fun t ht => ?_⟩
      · show ((s.put (!c) _).cl c).runs = true
        rw [e1]; exact hr
      · show ((s.put (!c) _).cl (!c)).runs = false
        rw [e2]
      · show ((s.put (!c) _).cl c).conn = _
        rw [e1]; exact hu
      · show Soon δ t ((s.put (!c) _).cl c)
        rw [e1]; exact ht
  | fire b d =>
    rcases hcase b with rfl | rfl
    · simp only [step] at h
      split at h
      · split at h
        · rename_i hoff
          cases h
          have hsl : s.slot = none := by
            cases hs : s.slot with
            | none => rfl
            | some o =>
              obtain ⟨u, hu⟩ := (hi.slot o).1 hs
              rcases hcase o with rfl | rfl
              · rw [hoff] at hu; cases hu
              · rw [hno.1] at hu; cases hu
          have hlg : ∀ x : Client, login (s.put b x) b = { (s.put b x).put b { x with conn := .up s.now } with slot := some b } := by
            intro x
            have h1 : (s.put b x).slot = none := hsl
            rw [login, h1, put_same]
            rfl
          rw [hlg]
          refine ⟨?_, ?_, fun u hu => ?_, fun t _ => .inl ⟨s.now, ?_⟩⟩
          · show (((s.put b _).put b _).cl b).runs = true
            rw [put_same]; exact hr
          · show (((s.put b _).put b _).cl (!b)).runs = false
            rw [put_other, put_other]; exact hn
          · rw [hoff] at hu; cases hu
          · show (((s.put b _).put b _).cl b).conn = _
            rw [put_same]
        · rename_i hoff
          cases h
          rw [put_same, put_other]
          refine ⟨hr, hn, fun u hu => hu, fun t ht => ?_⟩
          rcases ht with h1 | h1 | ⟨h1, _⟩
          · exact .inl h1
          · exact .inr (.inl h1)
          · exact absurd h1 hoff
      · cases h
    · simp [step, hno.2] at h
  | notice b =>
    rcases hcase b with rfl | rfl
    · simp only [step] at h
      split at h
      · rename_i w hw
        cases h
        rw [put_same, put_other]
        refine ⟨hr, hn, fun u hu => (by rw [hw] at hu; cases hu), fun t ht => .inr (.inr ⟨rfl, s.now + pause, by simp, ?_⟩)⟩
        rcases ht with ⟨u, h1⟩ | ⟨w', h1, h2⟩ | ⟨h1, _⟩
        · rw [hw] at h1; cases h1
        · have := ((hi.ok b).since.2 w' h1).2
          omega
        · rw [hw] at h1; cases h1
      · cases h
    · simp [step, hno.1] at h

/-- **C141** (partial: only one of the clients runs) A client that runs alone, also if the other was left a moment ago, is
online after half a minute and twice the time in which timers and closed connections are noticed, and then it stays so. -/
theorem C141_alone_partial (δ : Nat) (es0 es : List Ev) (s s' : State) (c : Bool) (h0 : Run δ init es0 s) (h : Run δ s es s')
    (hr : (s.cl c).runs = true) (hn : (s.cl (!c)).runs = false) (ho : ∀ e ∈ es, Only c e) :
    (s.now + 30000 + 2 * δ < s'.now → ∃ u, (s'.cl c).conn = .up u) ∧
    ∀ u, (s.cl c).conn = .up u → (s'.cl c).conn = .up u := by
  have hi := inv_run (inv_init δ) h0
  have hsoon : Soon δ s.now (s.cl c) := by
    cases hc : (s.cl c).conn with
    | up u => exact .inl ⟨u, hc⟩
    | dead w => exact .inr (.inl ⟨w, hc, ((hi.ok c).since.2 w hc).1⟩)
    | off =>
      obtain ⟨d, hd⟩ := List.exists_mem_of_ne_nil _ ((hi.ok c).alive hr hc)
      exact .inr (.inr ⟨hc, d, hd, by have := ((hi.ok c).due d hd).1; omega⟩)
  have key : ∀ t, Soon δ t (s.cl c) → Inv δ s' ∧ Soon δ t (s'.cl c) ∧ ∀ u, (s.cl c).conn = .up u → (s'.cl c).conn = .up u := by
    clear hsoon h0
    induction h with
    | nil => exact fun t ht => ⟨hi, ht, fun _ h => h⟩
    | @cons s e s1 es s2 h1 _ ih =>
      intro t ht
      obtain ⟨k1, k2, k3, k4⟩ := only_step hi h1 (ho e List.mem_cons_self) hr hn
      obtain ⟨j1, j2, j3⟩ := ih k1 k2 (fun e' he => ho e' (List.mem_cons_of_mem _ he)) (inv_step hi h1) t (k4 t ht)
      exact ⟨j1, j2, fun u hu => j3 u (k3 u hu)⟩
  obtain ⟨hi', hs', hu⟩ := key _ hsoon
  refine ⟨fun hlt => ?_, hu⟩
  have hp : pause = 30000 := rfl
  rcases hs' with h1 | ⟨w, h1, h2⟩ | ⟨_, d, h1, h2⟩
  · exact h1
  · have := ((hi'.ok c).since.2 w h1).2
    omega
  · have := ((hi'.ok c).due d h1).2
    omega

/-- The other one is left, and half a minute later the first is online. -/
example : ∃ s s', Run 1000 init [.start false, .start true, .notice false, .notice true, .quit true] s ∧
    Run 1000 s [.pass 30000, .fire false 30000, .pass 5000] s' ∧ (s.cl false).runs = true ∧ (s.cl true).runs = false ∧
    (s'.cl false).conn = .up 30000 ∧ s'.slot = some false :=
  ⟨_, _, .cons rfl (.cons rfl (.cons rfl (.cons rfl (.cons rfl (.nil _))))), .cons rfl (.cons rfl (.cons rfl (.nil _))),
    rfl, rfl, rfl, rfl⟩

/-! ## More and more attempts -/

theorem run_append {δ : Nat} {s s' s'' : State} {es es' : List Ev} (h : Run δ s es s') (h' : Run δ s' es' s'') :
    Run δ s (es ++ es') s'' := by
  induction h with
  | nil => exact h'
  | cons h1 _ ih => exact .cons h1 (ih h')

/-- Two clients. -/
def two (t : Nat) (o : Option Bool) (a b : Client) (l : List (Bool × Nat × Nat)) : State :=
  ⟨t, o, fun c => if c = true then b else a, l⟩

theorem two_put_false (t : Nat) (o : Option Bool) (a b x : Client) (l : List (Bool × Nat × Nat)) :
    (two t o a b l).put false x = two t o x b l := by
  simp only [two, State.put, State.mk.injEq, true_and, and_true]
  funext c
  cases c <;> rfl

theorem two_put_true (t : Nat) (o : Option Bool) (a b x : Client) (l : List (Bool × Nat × Nat)) :
    (two t o a b l).put true x = two t o a x l := by
  simp only [two, State.put, State.mk.injEq, true_and, and_true]
  funext c
  cases c <;> rfl

/-- Both wait, with `n` timers that come now and `m` that come in half a minute. -/
def waits (t n m : Nat) : Client := ⟨true, .off, List.replicate n t ++ List.replicate m (t + pause)⟩

theorem waits_fire (t n m : Nat) : t ∈ (waits t (n + 1) m).loops ∧ t ≤ t := by
  simp [waits, List.replicate_succ]

theorem waits_erase (t n m : Nat) : (waits t (n + 1) m).loops.erase t = (waits t n m).loops := by
  simp [waits, List.replicate_succ]

theorem waits_more (t n m : Nat) (r : Bool) (x : Conn) :
    (⟨r, x, (waits t n m).loops ++ [t + pause]⟩ : Client) = ⟨r, x, (waits t n (m + 1)).loops⟩ := by
  simp [waits, List.replicate_succ']

/-- One of the clients logs in, the other one ends its session, and both have a timer more than before. -/
theorem round (δ t n m : Nat) (l : List (Bool × Nat × Nat)) :
    Run δ (two t none (waits t (n + 1) m) (waits t (n + 1) m) l) [.fire false t, .fire true t, .notice false, .notice true]
      (two t none (waits t n (m + 2)) (waits t n (m + 2)) (l ++ [(false, t, t)])) := by
  refine .cons (s' := two t (some false) ⟨true, .up t, (waits t n (m + 1)).loops⟩ (waits t (n + 1) m) l) ?_
    (.cons (s' := two t none ⟨true, .dead t, (waits t n (m + 1)).loops⟩ ⟨true, .dead t, (waits t n (m + 1)).loops⟩
      (l ++ [(false, t, t)])) ?_
    (.cons (s' := two t none (waits t n (m + 2)) ⟨true, .dead t, (waits t n (m + 1)).loops⟩ (l ++ [(false, t, t)])) ?_
    (.cons ?_ (.nil _))))
  · have hc : (two t none (waits t (n + 1) m) (waits t (n + 1) m) l).cl false = waits t (n + 1) m := rfl
    have hoff : (waits t (n + 1) m).conn = .off := rfl
    simp only [step, hc, hoff]
    rw [if_pos (by exact waits_fire t n m), if_pos trivial, waits_erase]
    show some (login ((two t none _ _ l).put false ⟨true, .off, _ ++ [t + pause]⟩) false) = _
    rw [waits_more, two_put_false]
    simp only [login, two]
    simp only [Option.some.injEq, State.put, State.mk.injEq, true_and, and_true]
    funext c
    cases c <;> rfl
  · have hc : (two t (some false) ⟨true, .up t, (waits t n (m + 1)).loops⟩ (waits t (n + 1) m) l).cl true =
        waits t (n + 1) m := rfl
    have hoff : (waits t (n + 1) m).conn = .off := rfl
    simp only [step, hc, hoff]
    rw [if_pos (by exact waits_fire t n m), if_pos trivial, waits_erase]
    show some (login ((two t (some false) _ _ l).put true ⟨true, .off, _ ++ [t + pause]⟩) true) = _
    rw [waits_more, two_put_true]
    simp only [login, two]
    simp only [Option.some.injEq, State.put, State.mk.injEq, true_and, and_true, Bool.false_eq_true, if_false, Conn.close]
    funext c
    cases c <;> rfl
  · have hc : (two t none ⟨true, .dead t, (waits t n (m + 1)).loops⟩ ⟨true, .dead t, (waits t n (m + 1)).loops⟩
        (l ++ [(false, t, t)])).cl false = ⟨true, .dead t, (waits t n (m + 1)).loops⟩ := rfl
    simp only [step, hc]
    show some ((two t none _ _ _).put false ⟨true, .off, _ ++ [t + pause]⟩) = _
    rw [waits_more, two_put_false]
    rfl
  · have hc : (two t none (waits t n (m + 2)) ⟨true, .dead t, (waits t n (m + 1)).loops⟩
        (l ++ [(false, t, t)])).cl true = ⟨true, .dead t, (waits t n (m + 1)).loops⟩ := rfl
    simp only [step, hc]
    show some ((two t none _ _ _).put true ⟨true, .off, _ ++ [t + pause]⟩) = _
    rw [waits_more, two_put_true]
    rfl

theorem rounds (δ t n m : Nat) (l : List (Bool × Nat × Nat)) :
    ∃ es l', Run δ (two t none (waits t n m) (waits t n m) l) es (two t none (waits t 0 (m + 2 * n)) (waits t 0 (m + 2 * n)) l') ∧
      l'.length = l.length + n := by
  induction n generalizing m l with
  | zero => exact ⟨[], l, .nil _, rfl⟩
  | succ n ih =>
    obtain ⟨es, l', h1, h2⟩ := ih (m + 2) (l ++ [(false, t, t)])
    refine ⟨_, l', run_append (round δ t n m l) (by rw [show m + 2 * (n + 1) = m + 2 + 2 * n by omega]; exact h1), ?_⟩
    rw [h2]
    simp
    omega

/-- **C141** (violated) The attempts become more and more: after `k` half minutes each of the clients may have `2 ^ k`
goroutines that all try to reconnect in the next half minute, and have ended as many sessions as that. -/
theorem C141_storm_violated (δ k : Nat) : ∃ es s, Run δ init es s ∧ s.now = k * 30000 ∧ s.slot = none ∧
    (∀ c, (s.cl c).runs = true ∧ (s.cl c).loops = List.replicate (2 ^ k) (s.now + 30000)) ∧ s.log.length = 2 ^ k := by
  suffices h : ∃ es l, Run δ init es (two (k * pause) none (waits (k * pause) 0 (2 ^ k)) (waits (k * pause) 0 (2 ^ k)) l) ∧
      l.length = 2 ^ k by
    obtain ⟨es, l, h1, h2⟩ := h
    refine ⟨es, _, h1, rfl, rfl, fun c => ?_, h2⟩
    cases c <;> exact ⟨rfl, rfl⟩
  induction k with
  | zero =>
    refine ⟨[.start false, .start true, .notice false, .notice true], [(false, 0, 0)], ?_, rfl⟩
    refine .cons rfl (.cons rfl (.cons rfl (.cons ?_ (.nil _))))
    simp only [step, login, State.put, two, waits, init, Conn.close]
    refine congrArg some (State.mk.injEq .. ▸ ⟨rfl, rfl, ?_, rfl⟩)
    funext c
    cases c <;> rfl
  | succ k ih =>
    obtain ⟨es, l, h1, h2⟩ := ih
    have e : ∀ m, waits (k * pause) 0 m = waits ((k + 1) * pause) m 0 := by
      intro m
      simp only [waits, List.replicate_zero, List.nil_append, List.append_nil, Nat.succ_mul]
    have hp : step δ (two (k * pause) none (waits (k * pause) 0 (2 ^ k)) (waits (k * pause) 0 (2 ^ k)) l) (.pass pause) =
        some (two ((k + 1) * pause) none (waits ((k + 1) * pause) (2 ^ k) 0) (waits ((k + 1) * pause) (2 ^ k) 0) l) := by
      have ht : (waits (k * pause) 0 (2 ^ k)).inTime (k * pause + pause) δ = true := by
        rw [inTime_iff]
        refine ⟨fun d hd => ?_, fun w hw => (by cases hw)⟩
        simp only [waits, List.replicate_zero, List.nil_append, List.mem_replicate] at hd
        omega
      simp only [step]
      rw [if_pos (by rw [Bool.and_eq_true]; exact ⟨ht, ht⟩)]
      simp only [two, e, Nat.succ_mul]
    obtain ⟨es', l', h3, h4⟩ := rounds δ ((k + 1) * pause) (2 ^ k) 0 l
    refine ⟨_, l', run_append (run_append h1 (.cons hp (.nil _))) (by
      rw [show 2 ^ (k + 1) = 0 + 2 * 2 ^ k by rw [Nat.pow_succ]; omega]
      exact h3), ?_⟩
    rw [h4, h2, Nat.pow_succ]
    omega

end Verif.Twice

/-! ## A group in one directory -/

namespace Verif.Twice.Shared

open Verif Groups

/-- The group after all changes, one after the other. -/
def after (g : GroupList) (es : List Ev) : GroupList :=
  es.foldl (fun g e => match e with
    | .change _ x => x.apply g
    | _ => g) g

/-- A client is started only if none runs, and only one that runs changes anything. -/
def InTurn : Option Bool → List Ev → Prop
  | _, [] => True
  | none, .start c :: es => InTurn (some c) es
  | some c, .quit b :: es => b = c ∧ InTurn none es
  | some c, .change b _ :: es => b = c ∧ InTurn (some c) es
  | _, _ => False

/-- **C141** (partial: the clients run in turn) Then the file has all that was done, whichever client did it. -/
theorem C141_kept_partial (g : GroupList) (es : List Ev) (h : InTurn none es) :
    (run ⟨g, fun _ => none⟩ es).file = after g es := by
  suffices hg : ∀ (es : List Ev) (s : State) (o : Option Bool), InTurn o es → (∀ c, o = some c → s.mem c = some s.file) →
      (run s es).file = after s.file es from hg es _ none h (fun c h => by cases h)
  intro es
  induction es with
  | nil => intros; rfl
  | cons e es ih =>
    intro s o h hm
    rw [run, List.foldl_cons, after, List.foldl_cons]
    cases e with
    | start c =>
      cases o with
      | none =>
        refine ih (step s (.start c)) (some c) h fun c' hc => ?_
        cases hc
        simp [step]
      | some b => exact h.elim
    | quit b =>
      cases o with
      | none => exact h.elim
      | some c => exact ih (step s (.quit b)) none h.2 fun c' hc => by cases hc
    | change b x =>
      cases o with
      | none => exact h.elim
      | some c =>
        obtain ⟨rfl, h⟩ := h
        have hb := hm b rfl
        have e1 : step s (.change b x) = ⟨x.apply s.file, fun b' => if b' = b then some (x.apply s.file) else s.mem b'⟩ := by
          simp [step, hb]
        rw [e1]
        refine ih _ (some b) h fun c' hc => ?_
        cases hc
        simp

/-- **C141** (violated) If both run in one directory, what one does the other undoes: a member that was removed with one of
them is in the group again after somebody was let in with the other, in a list that is newer than that without them. -/
theorem C141_undone_violated (g : GroupList) (c : Bool) (x y : Id) (hx : x ∈ g.members) (hg : g.gen + 2 < 2 ^ 64) :
    (run ⟨g, fun _ => none⟩ [.start c, .start (!c), .change c (.kick x)]).file.members = g.members.filter (· ≠ x) ∧
    x ∈ (run ⟨g, fun _ => none⟩ [.start c, .start (!c), .change c (.kick x), .change (!c) (.join y)]).file.members ∧
    (run ⟨g, fun _ => none⟩ [.start c, .start (!c), .change c (.kick x)]).file.gen <
      (run ⟨g, fun _ => none⟩ [.start c, .start (!c), .change c (.kick x), .change (!c) (.join y)]).file.gen := by
  have h1 : inc g.gen = g.gen + 1 := Nat.mod_eq_of_lt (by omega)
  have h2 : inc (g.gen + 1) = g.gen + 2 := Nat.mod_eq_of_lt (by omega)
  cases c <;> simp [run, step, Change.apply, h1, h2, hx]

/-- One after the other, nothing is lost. -/
example : InTurn none [.start false, .change false (.join 7), .quit false, .start true, .change true (.kick 3), .quit true] ∧
    (run ⟨⟨[103], 1, [1, 3]⟩, fun _ => none⟩ [.start false, .change false (.join 7), .quit false, .start true,
      .change true (.kick 3), .quit true]).file = ⟨[103], 4, [1, 7]⟩ := by
  refine ⟨⟨rfl, rfl, rfl, rfl, trivial⟩, by decide⟩

/-- At the same time: member 3 is back. -/
example : (run ⟨⟨[103], 1, [1, 3]⟩, fun _ => none⟩ [.start false, .start true, .change false (.kick 3),
    .change true (.join 7)]).file = ⟨[103], 3, [1, 3, 7]⟩ := by decide

end Verif.Twice.Shared

/-! ## A ratchet in one directory -/

namespace Verif.Twice.Keys

/-- **C141** (partial: only one of the clients sends) No state of a ratchet is used twice. -/
theorem C141_fresh_partial (c : Bool) (es : List Ev) (s : State) (h : Run init es s)
    (hc : ∀ e ∈ es, e = .load c ∨ e = .write c ∨ e = .save c) : s.sent.Pairwise (· < ·) := by
  suffices hg : ∀ s0 : State, Run s0 es s → (s0.sent.Pairwise (· < ·) ∧ (∀ n b, s0.held c = some (n, b) → n = s0.file) ∧
      ∀ n ∈ s0.sent, n < s0.file ∨ (s0.held c = some (n, true) ∧ n ≤ s0.file)) → s.sent.Pairwise (· < ·) from
    hg init h ⟨List.Pairwise.nil, fun n b h => (by cases h), fun n h => (by cases h)⟩
  clear h
  intro s0 h
  induction h with
  | nil => exact fun h => h.1
  | @cons s0 e s1 es s2 h1 _ ih =>
    rintro ⟨hp, hh, hs⟩
    refine ih (fun e' he => hc e' (List.mem_cons_of_mem _ he)) ?_
    rcases hc e List.mem_cons_self with rfl | rfl | rfl
    · simp only [step] at h1
      split at h1
      · rename_i hn
        cases h1
        refine ⟨hp, fun n b h => ?_, fun n hn' => ?_⟩
        · simp at h
          exact h.1.symm
        · rcases hs n hn' with h | ⟨h, _⟩
          · exact .inl h
          · rw [hn] at h; cases h
      · cases h1
    · simp only [step] at h1
      split at h1
      · rename_i n hn
        cases h1
        have hf := hh n false hn
        refine ⟨?_, fun m b h => ?_, fun m hm => ?_⟩
        · refine List.pairwise_append.2 ⟨hp, List.pairwise_singleton _ _, fun a ha b hb => ?_⟩
          rw [List.mem_singleton.1 hb, hf]
          rcases hs a ha with h | ⟨h, _⟩
          · exact h
          · rw [hn] at h; cases h
        · simp at h
          rw [← h.1, hf]
        · rcases List.mem_append.1 hm with hm | hm
          · rcases hs m hm with h | ⟨h, _⟩
            · exact .inl h
            · rw [hn] at h; cases h
          · rw [List.mem_singleton.1 hm]
            exact .inr ⟨by simp, Nat.le_of_eq hf⟩
      · cases h1
    · simp only [step] at h1
      split at h1
      · rename_i n hn
        cases h1
        have hf := hh n true hn
        refine ⟨hp, fun m b h => ?_, fun m hm => .inl ?_⟩
        · simp at h
        · rcases hs m hm with h | ⟨h, hle⟩
          · show m < n + 1
            omega
          · show m < n + 1
            omega
      · cases h1

/-- **C141** (violated) If both run in one directory and one is held up between writing a message and saving the ratchet, then
the other encrypts with the same state. -/
theorem C141_reused_violated : ∃ s, Run init [.load false, .write false, .load true, .write true, .save true, .save false] s ∧
    s.sent = [0, 0] :=
  ⟨_, .cons rfl (.cons rfl (.cons rfl (.cons rfl (.cons rfl (.cons rfl (.nil _)))))), rfl⟩

/-- One client sends three messages. -/
example : ∃ s, Run init [.load true, .write true, .save true, .load true, .write true, .save true, .load true, .write true] s ∧
    s.sent = [0, 1, 2] :=
  ⟨_, .cons rfl (.cons rfl (.cons rfl (.cons rfl (.cons rfl (.cons rfl (.cons rfl (.cons rfl (.nil _)))))))), rfl⟩

end Verif.Twice.Keys
