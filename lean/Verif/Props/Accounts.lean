import Verif.Model.Accounts
import Verif.Props.StoredMessage
import Verif.Props.Hex
import Verif.Proofs.GoMap
import Mathlib.Tactic.Common

/-! # C35, C36, C39, C42: accounts -/

namespace Verif.Accounts

open Verif Verif.Stored

/-! ## C35: disabled means disabled, enabling restores -/

/-- What a step does to the disabled accounts. -/
theorem step_disabled {s s' : State} {e : Ev} {b : Bool} (hs : step s e = some (b, s')) (id : Id)
    (he : e ≠ .enable id) (a : Acct) (ha : s.disabled.get id = some a) : s'.disabled.get id = some a := by
  cases e with
  | createCheck l p f =>
    simp only [step] at hs
    split at hs <;> (simp only [Option.some.injEq, Prod.mk.injEq] at hs; obtain ⟨_, rfl⟩ := hs; exact ha)
  | createWrite p =>
    simp only [step] at hs
    split at hs
    · simp only [Option.some.injEq, Prod.mk.injEq] at hs; obtain ⟨_, rfl⟩ := hs; exact ha
    · cases hs
  | createCrash p k =>
    simp only [step] at hs
    split at hs
    · simp only [Option.some.injEq, Prod.mk.injEq] at hs; obtain ⟨_, rfl⟩ := hs; exact ha
    · cases hs
  | push k =>
    simp only [step, push, setListed, Option.some.injEq] at hs
    split at hs
    · cases hs; exact ha
    · split at hs <;> (cases hs; exact ha)
  | pull k =>
    simp only [step, pull, setListed, Option.some.injEq] at hs
    split at hs
    · cases hs; exact ha
    · split at hs <;> (cases hs; exact ha)
  | enable k =>
    have hk : k ≠ id := by rintro rfl; exact he rfl
    simp only [step, enable, Option.some.injEq] at hs
    split at hs
    · cases hs; exact ha
    · split at hs
      · cases hs; exact ha
      · cases hs; simp only [GoMap.get_del_ne _ hk, ha]
  | disable k =>
    simp only [step, disable, Option.some.injEq] at hs
    split at hs
    · cases hs; exact ha
    · next hk =>
      split at hs
      · cases hs; exact ha
      · cases hs
        have hne : k ≠ id := by rintro rfl; rw [ha] at hk; exact hk rfl
        simp only [GoMap.get_set_ne _ _ hne, ha]
  | deliver d n m w =>
    simp only [step, deliverWrite, putFile, Option.some.injEq] at hs
    split at hs
    · cases hs; exact ha
    · split at hs
      · split at hs <;> (cases hs; exact ha)
      · cases hs; exact ha
      · split at hs <;> (cases hs; exact ha)
  | delete k n =>
    simp only [step, delete, Option.some.injEq] at hs
    split at hs
    · cases hs; exact ha
    · split at hs
      · cases hs; exact ha
      · split at hs <;> (cases hs; exact ha)

/-- A disabled account stays disabled, with its contents, until it is enabled. -/
theorem run_disabled {G : State → Ev → Prop} {s s' : State} {es : List Ev} (hr : Run G s es s') (id : Id)
    (he : .enable id ∉ es) (a : Acct) (ha : s.disabled.get id = some a) : s'.disabled.get id = some a := by
  induction hr with
  | nil => exact ha
  | cons _ hs _ ih =>
    exact ih (fun h => he (List.mem_cons_of_mem _ h))
      (step_disabled hs id (fun e => he (by rw [e]; exact List.mem_cons_self)) a ha)

theorem disable_ok {s s' : State} {id : Id} (h : disable s id = (true, s')) :
    ∃ a, s.enabled.get id = some a ∧ s'.disabled.get id = some a ∧ s'.enabled.get id = none := by
  unfold disable at h
  split at h
  · cases h
  · split at h
    · cases h
    · next a ha => cases h; exact ⟨a, ha, by simp, by simp⟩

/-- **C35**: once an account has been disabled, it is reported disabled and can not log in, whatever happens,
until it is enabled. -/
theorem C35_no_login {G : State → Ev → Prop} (s s1 s2 : State) (id : Id) (es : List Ev)
    (hd : disable s id = (true, s1)) (hr : Run G s1 es s2) (he : .enable id ∉ es) :
    s2.isDisabled id = true ∧ admit s2 id = false := by
  obtain ⟨a, _, h1, _⟩ := disable_ok hd
  have h2 := run_disabled hr id he a h1
  have h3 : s2.isDisabled id = true := by simp [State.isDisabled, h2]
  exact ⟨h3, by simp [admit, h3]⟩

/-- **C35**: whenever enabling succeeds, the account is exactly, with its messages, what it was when it was
disabled. -/
theorem C35_restored {G : State → Ev → Prop} (s s1 s2 s3 : State) (id : Id) (es : List Ev)
    (hd : disable s id = (true, s1)) (hr : Run G s1 es s2) (he : .enable id ∉ es)
    (hen : enable s2 id = (true, s3)) :
    s3.enabled.get id = s.enabled.get id ∧ s3.isDisabled id = false ∧ admit s3 id = true := by
  obtain ⟨a, h0, h1, _⟩ := disable_ok hd
  have h2 := run_disabled hr id he a h1
  unfold enable at hen
  rw [h2] at hen
  simp only at hen
  split at hen
  · cases hen
  · cases hen
    have e1 : ((s2.enabled.set id a).get id) = some a := by simp
    have e2 : (s2.disabled.del id).get id = none := by simp
    refine ⟨by rw [h0]; exact e1, ?_, ?_⟩
    · simp [State.isDisabled]
    · simp [admit, State.isDisabled, State.isEnabled]

/-- The assumption missing in the code: no account is created for an identity that is disabled. -/
def NoRecreate (s : State) : Ev → Prop
  | .createWrite pid => s.disabled.get pid.identity = none
  | .createCrash pid _ => s.disabled.get pid.identity = none
  | _ => True

/-- Not both enabled and disabled. -/
def Apart (s : State) : Prop := ∀ id, s.enabled.get id = none ∨ s.disabled.get id = none

/-- Steps other than the creation and enabling of an account do not make it appear. -/
theorem Apart.step {s s' : State} {e : Ev} {b : Bool} (h : Apart s) (hg : NoRecreate s e)
    (hs : step s e = some (b, s')) : Apart s' := by
  have write : ∀ (k : Id) (a : Acct), s.disabled.get k = none →
      Apart { s with enabled := s.enabled.set k a } := by
    intro k a hk id
    by_cases e : k = id
    · subst e; exact Or.inr hk
    · simp only [GoMap.get_set_ne _ _ e]; exact h id
  have upd : ∀ (k : Id) (a a' : Acct), s.enabled.get k = some a →
      Apart { s with enabled := s.enabled.set k a' } := by
    intro k a a' hk
    refine write k a' ?_
    rcases h k with h1 | h1
    · rw [h1] at hk; cases hk
    · exact h1
  cases e with
  | createCheck l p f =>
    simp only [Accounts.step] at hs
    split at hs <;> (simp only [Option.some.injEq, Prod.mk.injEq] at hs; obtain ⟨_, rfl⟩ := hs; exact h)
  | createWrite p =>
    simp only [Accounts.step] at hs
    split at hs
    · simp only [Option.some.injEq, Prod.mk.injEq] at hs; obtain ⟨_, rfl⟩ := hs; exact write _ _ hg
    · cases hs
  | createCrash p k =>
    simp only [Accounts.step] at hs
    split at hs
    · simp only [Option.some.injEq, Prod.mk.injEq] at hs; obtain ⟨_, rfl⟩ := hs; exact write _ _ hg
    · cases hs
  | push k =>
    simp only [Accounts.step, push, setListed, Option.some.injEq] at hs
    split at hs
    · cases hs; exact h
    · next ha =>
      split at hs
      · cases hs; exact h
      · cases hs; exact upd _ _ _ ha
  | pull k =>
    simp only [Accounts.step, pull, setListed, Option.some.injEq] at hs
    split at hs
    · cases hs; exact h
    · next ha =>
      split at hs
      · cases hs; exact h
      · cases hs; exact upd _ _ _ ha
  | enable k =>
    simp only [Accounts.step, enable, Option.some.injEq] at hs
    split at hs
    · cases hs; exact h
    · split at hs
      · cases hs; exact h
      · cases hs
        intro id
        by_cases e : k = id
        · subst e; right; simp
        · simp only [GoMap.get_set_ne _ _ e, GoMap.get_del_ne _ e]; exact h id
  | disable k =>
    simp only [Accounts.step, disable, Option.some.injEq] at hs
    split at hs
    · cases hs; exact h
    · split at hs
      · cases hs; exact h
      · cases hs
        intro id
        by_cases e : k = id
        · subst e; left; simp
        · simp only [GoMap.get_set_ne _ _ e, GoMap.get_del_ne _ e]; exact h id
  | deliver d n m w =>
    simp only [Accounts.step, deliverWrite, putFile, Option.some.injEq] at hs
    split at hs
    · cases hs; exact h
    · split at hs
      · split at hs
        · cases hs; exact h
        · next ha => cases hs; exact upd _ _ _ ha
      · cases hs; exact h
      · split at hs
        · cases hs; exact h
        · next ha => cases hs; exact upd _ _ _ ha
  | delete k n =>
    simp only [Accounts.step, delete, Option.some.injEq] at hs
    split at hs
    · cases hs; exact h
    · next ha =>
      split at hs
      · cases hs; exact h
      · split at hs
        · cases hs; exact upd _ _ _ ha
        · cases hs; exact h

theorem Apart.run {s s' : State} {es : List Ev} (h : Apart s) (hr : Run NoRecreate s es s') : Apart s' := by
  induction hr with
  | nil => exact h
  | cons hg hs _ ih => exact ih (h.step hg hs)

/-- **C35** (partial): if no account is created for a disabled identity, no account is ever both enabled and
disabled. -/
theorem C35_not_both_partial (s : State) (hr : Reach NoRecreate s) (id : Id) :
    ¬ (s.isEnabled id = true ∧ s.isDisabled id = true) := by
  obtain ⟨es, hr⟩ := hr
  have h : Apart s := Apart.run (fun _ => Or.inl rfl) hr
  rintro ⟨h1, h2⟩
  simp only [State.isEnabled, State.isDisabled] at h1 h2
  rcases h id with h3 | h3
  · rw [h3] at h1; cases h1
  · rw [h3] at h2; cases h2

/-- **C35** (partial): under the same assumption nothing can be delivered to a disabled account, and enabling
it succeeds. -/
theorem C35_no_delivery_partial (s0 s s1 s2 : State) (id : Id) (es : List Ev) (h0 : Reach NoRecreate s)
    (hd : disable s id = (true, s1)) (hr : Run NoRecreate s1 es s2) (he : .enable id ∉ es)
    (src : Id) (p : Bytes) (n : Name) (t : Int) (w : Write) :
    handleCache s0 s2 src id p n t w = (.disabled, s2) ∧ (handleProxy s0 s2 src id p n t w) = (false, s2) ∧
    (enable s2 id).1 = true := by
  obtain ⟨a, _, h1, _⟩ := disable_ok hd
  have h2 := run_disabled hr id he a h1
  obtain ⟨es0, hr0⟩ := h0
  have hA : Apart s2 := by
    refine Apart.run (Apart.step (Apart.run (fun _ => Or.inl rfl) hr0) (e := .disable id) (b := true) trivial ?_) hr
    simp only [step, hd]
  have hne : s2.enabled.get id = none := by
    rcases hA id with h3 | h3
    · exact h3
    · rw [h3] at h2; cases h2
  refine ⟨?_, ?_, ?_⟩
  · simp [handleCache, deliverWrite, hne, State.isDisabled, h2]
  · simp [handleProxy, deliverWrite, hne]
  · simp [enable, h2, hne]

/-- Identities for examples. -/
def pubA : Pub := ⟨[65], [97], [], [], List.replicate 32 1, [], []⟩
/-- Same identity, another nick. -/
def pubA' : Pub := ⟨[65], [98], [], [], List.replicate 32 1, [], []⟩
/-- Another identity with the nick of `pubA`. -/
def pubB : Pub := ⟨[66], [97], [], [], List.replicate 32 2, [], []⟩

/-- Run some events, checking each. -/
def exec (G : State → Ev → Prop) [∀ s e, Decidable (G s e)] (s : State) : List Ev → Option State
  | [] => some s
  | e :: es => if G s e then (step s e).bind fun r => exec G r.2 es else none

theorem run_of_exec {G : State → Ev → Prop} [∀ s e, Decidable (G s e)] {s s' : State} {es : List Ev}
    (h : exec G s es = some s') : Run G s es s' := by
  induction es generalizing s with
  | nil => simp only [exec, Option.some.injEq] at h; subst h; exact Run.nil _
  | cons e es ih =>
    simp only [exec] at h
    split at h
    · next hg =>
      simp only [Option.bind_eq_some_iff] at h
      obtain ⟨⟨b, s1⟩, h1, h2⟩ := h
      exact Run.cons hg h1 (ih h2)
    · cases h

/-- The listing of the users directory is what is there. -/
def Listing (s : State) : Ev → Prop
  | .createCheck listing _ force => listing.Perm s.dirs ∧ force = false
  | _ => True

instance (s : State) (e : Ev) : Decidable (Listing s e) := by cases e <;> unfold Listing <;> infer_instance
instance (s : State) (e : Ev) : Decidable (NoRecreate s e) := by cases e <;> unfold NoRecreate <;> infer_instance

/-- An account made, disabled, and made again by its owner under another nick. -/
def recreate : List Ev :=
  [.createCheck [] pubA false, .createWrite pubA, .disable pubA.identity,
   .createCheck [⟨some ⟨some pubA, false⟩, some []⟩] pubA' false, .createWrite pubA']

theorem recreate_run : Run Listing init recreate
    ⟨[(pubA.identity, ⟨some ⟨some pubA', false⟩, some []⟩)], [(pubA.identity, ⟨some ⟨some pubA, false⟩, some []⟩)], []⟩ :=
  run_of_exec (by decide)

/-- **C35 is violated**: the owner of a disabled account can create it again; it is then both enabled and
disabled, and messages are delivered to it. -/
theorem C35_recreate_violated : ∃ s, Reach Listing s ∧ s.isEnabled pubA.identity = true ∧
    s.isDisabled pubA.identity = true ∧
    (handleCache s s pubB.identity pubA.identity [7] 1 5 .ok).1 = .good :=
  ⟨_, ⟨_, recreate_run⟩, by decide, by decide, by decide⟩

/-- **C35**: an account that is both enabled and disabled can be neither enabled nor disabled, ever. -/
theorem C35_wedged {G : State → Ev → Prop} (s s' : State) (es : List Ev) (id : Id)
    (h1 : s.isEnabled id = true) (h2 : s.isDisabled id = true) (hr : Run G s es s') :
    s'.isEnabled id = true ∧ s'.isDisabled id = true ∧ enable s' id = (false, s') ∧ disable s' id = (false, s') := by
  have key : ∀ s : State, s.isEnabled id = true → s.isDisabled id = true →
      enable s id = (false, s) ∧ disable s id = (false, s) := by
    intro s h1 h2
    simp only [State.isEnabled, State.isDisabled] at h1 h2
    obtain ⟨a, ha⟩ := Option.isSome_iff_exists.1 h2
    exact ⟨by simp [enable, ha, h1], by simp [disable, h2]⟩
  induction hr with
  | nil s => exact ⟨h1, h2, key _ h1 h2⟩
  | @cons s e b s1 es s2 _ hs _ ih =>
    have h3 : s1.isDisabled id = true ∧ s1.isEnabled id = true := by
      by_cases he : e = .enable id
      · subst he
        simp only [step, (key s h1 h2).1, Option.some.injEq, Prod.mk.injEq] at hs
        obtain ⟨_, rfl⟩ := hs
        exact ⟨h2, h1⟩
      · constructor
        · obtain ⟨a, ha⟩ := Option.isSome_iff_exists.1 h2
          simp [State.isDisabled, step_disabled hs id he a ha]
        · by_cases hd : e = .disable id
          · subst hd
            simp only [step, (key s h1 h2).2, Option.some.injEq, Prod.mk.injEq] at hs
            obtain ⟨_, rfl⟩ := hs
            exact h1
          · have setk : ∀ (k : Id) (a : Acct), ((s.enabled.set k a).get id).isSome = true := by
              intro k a
              by_cases e : k = id
              · subst e; simp
              · rw [GoMap.get_set_ne _ _ e]; exact h1
            cases e with
            | createCheck l p f =>
              simp only [step] at hs
              split at hs <;>
                (simp only [Option.some.injEq, Prod.mk.injEq] at hs; obtain ⟨_, rfl⟩ := hs; exact h1)
            | createWrite p =>
              simp only [step] at hs
              split at hs
              · simp only [Option.some.injEq, Prod.mk.injEq] at hs; obtain ⟨_, rfl⟩ := hs; exact setk _ _
              · cases hs
            | createCrash p k =>
              simp only [step] at hs
              split at hs
              · simp only [Option.some.injEq, Prod.mk.injEq] at hs; obtain ⟨_, rfl⟩ := hs; exact setk _ _
              · cases hs
            | push k =>
              simp only [step, push, setListed, Option.some.injEq] at hs
              split at hs
              · cases hs; exact h1
              · split at hs
                · cases hs; exact h1
                · cases hs; exact setk _ _
            | pull k =>
              simp only [step, pull, setListed, Option.some.injEq] at hs
              split at hs
              · cases hs; exact h1
              · split at hs
                · cases hs; exact h1
                · cases hs; exact setk _ _
            | enable k =>
              simp only [step, enable, Option.some.injEq] at hs
              split at hs
              · cases hs; exact h1
              · split at hs
                · cases hs; exact h1
                · cases hs; exact setk _ _
            | disable k =>
              have hk : k ≠ id := by rintro rfl; exact hd rfl
              simp only [step, disable, Option.some.injEq] at hs
              split at hs
              · cases hs; exact h1
              · split at hs
                · cases hs; exact h1
                · cases hs
                  simp only [State.isEnabled, GoMap.get_del_ne _ hk]; exact h1
            | deliver d n m w =>
              simp only [step, deliverWrite, putFile, Option.some.injEq] at hs
              split at hs
              · cases hs; exact h1
              · split at hs
                · split at hs
                  · cases hs; exact h1
                  · cases hs; exact setk _ _
                · cases hs; exact h1
                · split at hs
                  · cases hs; exact h1
                  · cases hs; exact setk _ _
            | delete k n =>
              simp only [step, delete, Option.some.injEq] at hs
              split at hs
              · cases hs; exact h1
              · split at hs
                · cases hs; exact h1
                · split at hs
                  · cases hs; exact setk _ _
                  · cases hs; exact h1
    exact ih h3.2 h3.1

/-- Disabling and enabling an account with a message. -/
example : ∃ s s1, Reach NoRecreate s ∧ disable s pubA.identity = (true, s1) ∧
    Run NoRecreate s1 [.deliver pubA.identity 2 ⟨[], 0, [], false⟩ .ok] s1 ∧
    (enable s1 pubA.identity).1 = true ∧ (s.enabled.get pubA.identity).isSome ∧ s ≠ s1 := by
  refine ⟨⟨[(pubA.identity, ⟨some ⟨some pubA, false⟩, some [(1, marshal ⟨pubB.identity, 5, [7], false⟩)]⟩)], [], []⟩, _,
    ⟨[.createCheck [] pubA false, .createWrite pubA, .deliver pubA.identity 1 ⟨pubB.identity, 5, [7], false⟩ .ok],
      run_of_exec (by decide)⟩, rfl, run_of_exec (by decide), by decide, by decide, by decide⟩

/-! ## C36: nicknames in the directory -/

/-- The nick under which an account is listed. -/
def listedNick (a : Acct) : Option Bytes :=
  a.user.bind fun u => if u.listed then u.identity.map (·.nick) else none

/-- **C36**: if `Find` returns an identity, some account is listed with it, and it has the nick asked for. -/
theorem C36_find_sound (l : List Acct) (nick : Bytes) (p : Pub) (h : find l nick = some p) :
    p.nick = nick ∧ ∃ a ∈ l, a.user = some ⟨some p, true⟩ := by
  induction l with
  | nil => cases h
  | cons a r ih =>
    simp only [find] at h
    split at h
    · cases h
    · next u hu =>
      split at h
      · next hl =>
        split at h
        · cases h
        · next q hq =>
          split at h
          · next hn =>
            cases h
            refine ⟨hn, a, List.mem_cons_self, ?_⟩
            rw [hu, ← hq, ← hl]
          · obtain ⟨h1, b, hb, h2⟩ := ih h
            exact ⟨h1, b, List.mem_cons_of_mem _ hb, h2⟩
      · obtain ⟨h1, b, hb, h2⟩ := ih h
        exact ⟨h1, b, List.mem_cons_of_mem _ hb, h2⟩

/-- Every account is complete, as far as `Find` needs it. -/
def Readable (a : Acct) : Prop := ∃ u, a.user = some u ∧ (u.listed = true → u.identity ≠ none)

/-- **C36**: if every directory has a readable `user.ini`, `Find` finds every nick that is listed. -/
theorem C36_find_complete (l : List Acct) (nick : Bytes) (hr : ∀ a ∈ l, Readable a) (a : Acct) (ha : a ∈ l)
    (hn : listedNick a = some nick) : ∃ p, find l nick = some p := by
  induction l with
  | nil => cases ha
  | cons b r ih =>
    obtain ⟨u, hu, hi⟩ := hr b List.mem_cons_self
    simp only [find, hu]
    have ihr : a ∈ r → ∃ p, find r nick = some p := ih (fun x hx => hr x (List.mem_cons_of_mem _ hx))
    by_cases hl : u.listed = true
    · simp only [hl, if_true]
      rcases hq : u.identity with _ | q
      · exact absurd hq (hi hl)
      · simp only
        split
        · exact ⟨q, rfl⟩
        · next hne =>
          rcases List.mem_cons.1 ha with rfl | ha
          · simp [listedNick, hu, hl, hq] at hn; exact absurd hn hne
          · exact ihr ha
    · simp only [hl]
      rcases List.mem_cons.1 ha with rfl | ha
      · simp [listedNick, hu, hl] at hn
      · exact ihr ha

/-- No two listed accounts, enabled or disabled, have the same nick. -/
def UniqueNicks (s : State) : Prop := (s.dirs.filterMap listedNick).Nodup

/-- The full claim on uniqueness. -/
def C36_full : Prop := ∀ s, Reach Listing s → UniqueNicks s

/-- **C36 is violated**: two users register the same nick before either logs in for the first time; both are
then listed. -/
theorem C36_violated : ¬ C36_full := by
  intro h
  have hr : Run Listing init [.createCheck [] pubA false, .createWrite pubA,
      .createCheck [⟨some ⟨some pubA, false⟩, some []⟩] pubB false, .createWrite pubB,
      .push pubA.identity, .push pubB.identity]
      ⟨[(pubB.identity, ⟨some ⟨some pubB, true⟩, some []⟩), (pubA.identity, ⟨some ⟨some pubA, true⟩, some []⟩)], [], []⟩ :=
    run_of_exec (by decide)
  have := h _ ⟨_, hr⟩
  revert this
  unfold UniqueNicks
  decide

/-- The nick of an account, listed or not. -/
def nickOf (a : Acct) : Option Bytes := a.user.bind fun u => u.identity.map (·.nick)

theorem listed_sublist (l : List Acct) : (l.filterMap listedNick).Sublist (l.filterMap nickOf) := by
  induction l with
  | nil => exact List.Sublist.refl _
  | cons a r ih =>
    rcases h : listedNick a with _ | n
    · rw [List.filterMap_cons_none h]
      rcases h2 : nickOf a with _ | n
      · rw [List.filterMap_cons_none h2]; exact ih
      · rw [List.filterMap_cons_some h2]; exact ih.trans (List.sublist_cons_self _ _)
    · have h2 : nickOf a = some n := by
        unfold listedNick at h
        unfold nickOf
        rcases hu : a.user with _ | u
        · rw [hu] at h; cases h
        · rw [hu] at h
          simp only [Option.bind_some] at h ⊢
          split at h
          · exact h
          · cases h
      rw [List.filterMap_cons_some h, List.filterMap_cons_some h2]
      exact ih.cons₂ _

/-- Accounts are registered one after the other, everyone is listed before the next one registers, nobody is
taken off the list, and the server does not die while registering. -/
def Orderly (s : State) : Ev → Prop
  | .createCheck listing _ force =>
    listing.Perm s.dirs ∧ force = false ∧ s.creating = [] ∧ ∀ a ∈ s.dirs, (listedNick a).isSome
  | .pull _ => False
  | .createCrash _ _ => False
  | _ => True

instance (s : State) (e : Ev) : Decidable (Orderly s e) := by cases e <;> unfold Orderly <;> infer_instance

theorem perm_del {m : GoMap Id Acct} (hw : m.WF) {k : Id} {a : Acct} (h : m.get k = some a) :
    m.Perm ((k, a) :: m.del k) := by
  induction m with
  | nil => cases h
  | cons x r ih =>
    obtain ⟨k', b⟩ := x
    have hw' : GoMap.WF r := (List.nodup_cons.1 hw).2
    rw [GoMap.get_cons] at h
    split at h
    · next e =>
      subst e
      cases h
      have hd : GoMap.del ((k', a) :: r) k' = r := by
        have hnk : GoMap.get r k' = none :=
          (GoMap.not_mem_keys_iff r k').1 (List.nodup_cons.1 hw).1
        simp [GoMap.del, GoMap.del_of_not_mem hnk]
      rw [hd]
    · next e =>
      have hd : GoMap.del ((k', b) :: r) k = (k', b) :: GoMap.del r k := by
        simp [GoMap.del, e]
      rw [hd]
      exact ((ih hw' h).cons _).trans (List.Perm.swap _ _ _)

theorem del_sublist (m : GoMap Id Acct) (k : Id) : (m.del k).Sublist m := by
  induction m with
  | nil => exact List.Sublist.refl _
  | cons x r ih =>
    obtain ⟨k', v⟩ := x
    by_cases h : k' = k
    · simp only [GoMap.del, h, if_true]; exact ih.trans (List.sublist_cons_self _ _)
    · simp only [GoMap.del, h, if_false]; exact ih.cons₂ _

/-- All nicks. -/
def nicks (s : State) : List Bytes := s.dirs.filterMap nickOf

/-- Invariant of orderly histories. -/
structure Nicks (s : State) : Prop where
  wfE : s.enabled.WF
  wfD : s.disabled.WF
  nodup : (nicks s).Nodup
  pending : ∀ p ∈ s.creating, p.nick ∉ nicks s
  one : s.creating.length ≤ 1

theorem nicks_perm {s s' : State}
    (h : s'.dirs.Perm s.dirs) : (nicks s').Perm (nicks s) := h.filterMap _

theorem Nicks.of_perm {s s' : State} (h : Nicks s) (hE : s'.enabled.WF) (hD : s'.disabled.WF)
    (hp : (nicks s').Perm (nicks s)) (hc : s'.creating = s.creating) : Nicks s' :=
  ⟨hE, hD, hp.nodup_iff.2 h.nodup, by rw [hc]; exact fun p hp' hm => h.pending p hp' (hp.mem_iff.1 hm),
    by rw [hc]; exact h.one⟩

theorem Nicks.update {s : State} (h : Nicks s) {k : Id} {a a' : Acct} (ha : s.enabled.get k = some a)
    (hn : nickOf a' = nickOf a) : Nicks { s with enabled := s.enabled.set k a' } := by
  refine h.of_perm (GoMap.wf_set h.wfE _ _) h.wfD ?_ rfl
  have hp := ((perm_del h.wfE ha).map Prod.snd)
  have h2 : (nicks s).Perm ((s.disabled.map Prod.snd ++ a :: (s.enabled.del k).map Prod.snd).filterMap nickOf) :=
    (List.Perm.append_left _ hp).filterMap _
  refine List.Perm.trans ?_ h2.symm
  show ((s.disabled.map Prod.snd ++ a' :: (s.enabled.del k).map Prod.snd).filterMap nickOf).Perm _
  simp only [List.filterMap_append, List.filterMap_cons, hn]
  exact List.Perm.refl _

theorem Nicks.step {s s' : State} {e : Ev} {b : Bool} (h : Nicks s) (hg : Orderly s e)
    (hs : Accounts.step s e = some (b, s')) : Nicks s' := by
  cases e with
  | createCheck l p f =>
    simp only [Accounts.step] at hs
    obtain ⟨hl, hf, hc, hall⟩ := hg
    split at hs
    · next hok =>
      simp only [Option.some.injEq, Prod.mk.injEq] at hs; obtain ⟨_, rfl⟩ := hs
      refine ⟨h.wfE, h.wfD, h.nodup, ?_, by simp [hc]⟩
      intro q hq
      simp only [hc, List.mem_singleton] at hq
      subst hq
      intro hm
      obtain ⟨a, ha, hn⟩ := List.mem_filterMap.1 hm
      have hfind : find l q.nick = none := by
        unfold createCheck at hok
        split at hok
        · cases hok
        · next hx => simpa using hx
      have hread : ∀ x ∈ l, Readable x := by
        intro x hx
        have := hall x (hl.mem_iff.1 hx)
        unfold listedNick at this
        rcases hu : x.user with _ | u
        · rw [hu] at this; cases this
        · refine ⟨u, hu, fun hlst hid => ?_⟩
          rw [hu] at this
          simp [hlst, hid] at this
      have hln : listedNick a = some q.nick := by
        obtain ⟨n, hn'⟩ := Option.isSome_iff_exists.1 (hall a ha)
        rw [hn']
        have : nickOf a = some n := by
          unfold listedNick at hn'
          unfold nickOf
          rcases hu : a.user with _ | u
          · rw [hu] at hn'; cases hn'
          · rw [hu] at hn'
            simp only [Option.bind_some] at hn' ⊢
            split at hn'
            · exact hn'
            · cases hn'
        rw [hn] at this
        exact this.symm
      obtain ⟨p', hp'⟩ := C36_find_complete l q.nick hread a (hl.mem_iff.2 ha) hln
      rw [hfind] at hp'; cases hp'
    · simp only [Option.some.injEq, Prod.mk.injEq] at hs; obtain ⟨_, rfl⟩ := hs; exact h
  | createWrite p =>
    simp only [Accounts.step] at hs
    split at hs
    · next hp =>
      simp only [Option.some.injEq, Prod.mk.injEq] at hs; obtain ⟨_, rfl⟩ := hs
      have hcr : s.creating.erase p = [] := by
        have := h.one
        rcases hc : s.creating with _ | ⟨q, r⟩
        · rfl
        · rw [hc] at this hp
          have hr : r = [] := by cases r with
            | nil => rfl
            | cons _ _ => simp at this
          subst hr
          simp only [List.mem_singleton] at hp
          simp [hp]
      have hsub : (((s.disabled.map Prod.snd) ++ (s.enabled.del p.identity).map Prod.snd).filterMap nickOf).Sublist
          (nicks s) := by
        refine List.Sublist.filterMap _ (List.Sublist.append_left (List.Sublist.map _ (del_sublist _ _)) _)
      have hperm : (nicks { s with
          creating := s.creating.erase p
          enabled := s.enabled.set p.identity (created (s.enabled.get p.identity) p) }).Perm
          (p.nick :: ((s.disabled.map Prod.snd) ++ (s.enabled.del p.identity).map Prod.snd).filterMap nickOf) := by
        have hn : nickOf (created (s.enabled.get p.identity) p) = some p.nick := rfl
        show ((s.disabled.map Prod.snd ++
          created (s.enabled.get p.identity) p :: (s.enabled.del p.identity).map Prod.snd).filterMap nickOf).Perm _
        rw [← List.filterMap_cons_some (f := nickOf) hn]
        exact List.perm_middle.filterMap _
      refine ⟨GoMap.wf_set h.wfE _ _, h.wfD, ?_, by simp [hcr], by simp [hcr]⟩
      rw [hperm.nodup_iff, List.nodup_cons]
      exact ⟨fun hm => h.pending p hp (hsub.subset hm), h.nodup.sublist hsub⟩
    · cases hs
  | createCrash p k => exact hg.elim
  | push k =>
    simp only [Accounts.step, push, setListed, Option.some.injEq] at hs
    split at hs
    · cases hs; exact h
    · next ha =>
      split at hs
      · cases hs; exact h
      · next hu => cases hs; exact h.update ha (by simp [nickOf, hu])
  | pull k => exact hg.elim
  | enable k =>
    simp only [Accounts.step, enable, Option.some.injEq] at hs
    split at hs
    · cases hs; exact h
    · next a ha =>
      split at hs
      · cases hs; exact h
      · next hne =>
        cases hs
        refine h.of_perm (GoMap.wf_set h.wfE _ _) (GoMap.wf_del h.wfD _) (nicks_perm ?_) rfl
        have hdel : s.enabled.del k = s.enabled := GoMap.del_of_not_mem (by simpa using hne)
        show ((s.disabled.del k).map Prod.snd ++ a :: (s.enabled.del k).map Prod.snd).Perm _
        rw [hdel]
        refine List.perm_middle.trans ?_
        have := ((perm_del h.wfD ha).map Prod.snd).symm
        exact List.Perm.append_right _ this
  | disable k =>
    simp only [Accounts.step, disable, Option.some.injEq] at hs
    split at hs
    · cases hs; exact h
    · next hne =>
      split at hs
      · cases hs; exact h
      · next a ha =>
        cases hs
        refine h.of_perm (GoMap.wf_del h.wfE _) (GoMap.wf_set h.wfD _ _) (nicks_perm ?_) rfl
        have hdel : s.disabled.del k = s.disabled := GoMap.del_of_not_mem (by simpa using hne)
        show (a :: (s.disabled.del k).map Prod.snd ++ (s.enabled.del k).map Prod.snd).Perm _
        rw [hdel]
        refine List.Perm.trans ?_ (List.Perm.append_left _ ((perm_del h.wfE ha).map Prod.snd).symm)
        exact List.perm_middle.symm
  | deliver d n m w =>
    simp only [Accounts.step, deliverWrite, putFile, Option.some.injEq] at hs
    split at hs
    · cases hs; exact h
    · split at hs
      · split at hs
        · cases hs; exact h
        · next ha => cases hs; exact h.update ha rfl
      · cases hs; exact h
      · split at hs
        · cases hs; exact h
        · next ha => cases hs; exact h.update ha rfl
  | delete k n =>
    simp only [Accounts.step, delete, Option.some.injEq] at hs
    split at hs
    · cases hs; exact h
    · next ha =>
      split at hs
      · cases hs; exact h
      · split at hs
        · cases hs; exact h.update ha rfl
        · cases hs; exact h

/-- **C36** (partial): in orderly histories no two listed accounts have the same nick. -/
theorem C36_unique_partial (s : State) (hr : Reach Orderly s) : UniqueNicks s := by
  obtain ⟨es, hr⟩ := hr
  have h0 : Nicks init := ⟨GoMap.wf_nil, GoMap.wf_nil, by simp [nicks, State.dirs, init], by simp [init], by simp [init]⟩
  have key : ∀ {s s' : State} {es : List Ev}, Run Orderly s es s' → Nicks s → Nicks s' := by
    intro s s' es hr
    induction hr with
    | nil => exact id
    | cons hg hs _ ih => exact fun h => ih (h.step hg hs)
  exact (key hr h0).nodup.sublist (listed_sublist _)

/-- Registration, first login, a second user, and `Find`. -/
example : ∃ s, Reach Orderly s ∧ find s.dirs [97] = some pubA ∧ s.dirs.length = 2 := by
  refine ⟨⟨[(List.replicate 32 2, ⟨some ⟨some { pubB with nick := [99] }, true⟩, some []⟩),
    (List.replicate 32 1, ⟨some ⟨some pubA, true⟩, some []⟩)], [], []⟩,
    ⟨[.createCheck [] pubA false, .createWrite pubA, .push pubA.identity,
      .createCheck [⟨some ⟨some pubA, true⟩, some []⟩] { pubB with nick := [99] } false,
      .createWrite { pubB with nick := [99] }, .push pubB.identity],
      run_of_exec (by decide)⟩, by decide, by decide⟩

/-! ## C39: a positive acknowledgement means stored -/

/-- The file under which a message is stored. -/
def stored (s : State) (dst : Id) (n : Name) : Option Bytes :=
  ((s.enabled.get dst).bind Acct.cache).bind fun c => c.get n

/-- The full claim. -/
def C39_full : Prop :=
  ∀ (s0 s1 : State) (src dst : Id) (p : Bytes) (n : Name) (t : Int) (w : Write),
    ((handleCache s0 s1 src dst p n t w).1 = .good →
      stored (handleCache s0 s1 src dst p n t w).2 dst n = some (marshal ⟨src, t, p, false⟩)) ∧
    ((handleCache s0 s1 src dst p n t w).1 ≠ .good → (handleCache s0 s1 src dst p n t w).2 = s1)

theorem deliver_ok {s s' : State} {dst : Id} {n : Name} {m : DiskMessage} {w : Write}
    (h : deliverWrite s dst n m w = (true, s')) : stored s' dst n = some (marshal m) ∧
      ∀ d k, (d, k) ≠ (dst, n) → stored s' d k = stored s d k := by
  unfold deliverWrite at h
  split at h
  · cases h
  · next c hc =>
    rcases ha : s.enabled.get dst with _ | a
    · rw [ha] at hc; cases hc
    · rw [ha] at hc
      simp only [Option.bind_some] at hc
      split at h
      · cases h
        simp only [putFile, ha]
        constructor
        · simp [stored, hc]
        · intro d k hdk
          unfold stored
          by_cases hd : dst = d
          · subst hd
            have hk : n ≠ k := by rintro rfl; exact hdk rfl
            simp [hc, ha, GoMap.get_set_ne _ _ hk]
          · simp [GoMap.get_set_ne _ _ hd]
      · cases h
      · cases h

/-- **C39**: if the server acknowledges without error, the message is stored for the recipient, with the
authenticated sender and the payload of the request, is read back as exactly that, and no other stored
message has changed. -/
theorem C39_stored (s0 s1 : State) (src dst : Id) (p : Bytes) (n : Name) (t : Int) (w : Write)
    (h : (handleCache s0 s1 src dst p n t w).1 = .good) :
    stored (handleCache s0 s1 src dst p n t w).2 dst n = some (marshal ⟨src, t, p, false⟩) ∧
    (∀ d k, (d, k) ≠ (dst, n) → stored (handleCache s0 s1 src dst p n t w).2 d k = stored s1 d k) ∧
    (DiskMessage.Sized ⟨src, t, p, false⟩ →
      unmarshal (marshal ⟨src, t, p, false⟩) = some ⟨src, t, p, false⟩) := by
  unfold handleCache at h ⊢
  split at h
  · next hc =>
    rw [if_pos hc]
    split at h
    · next s hw => exact ⟨(deliver_ok hw).1, (deliver_ok hw).2, fun hz => C24_roundtrip _ hz⟩
    · simp only at h; split at h <;> cases h
  · simp only at h; split at h <;> cases h

/-- **C39**: the same for messages of the proxy command, which are marked as clear text. -/
theorem C39_proxy_stored (s0 s1 : State) (src dst : Id) (p : Bytes) (n : Name) (t : Int) (w : Write)
    (h : (handleProxy s0 s1 src dst p n t w).1 = true) :
    stored (handleProxy s0 s1 src dst p n t w).2 dst n = some (marshal ⟨src, t, p, true⟩) := by
  unfold handleProxy at h ⊢
  split at h
  · next hc =>
    rw [if_pos hc]
    exact (deliver_ok (w := w) (Prod.ext h rfl)).1
  · cases h

/-- **C39** (partial): if the server acknowledges with an error, nothing has changed, unless the error was
that the file could only be written in part. -/
theorem C39_unchanged_partial (s0 s1 : State) (src dst : Id) (p : Bytes) (n : Name) (t : Int) (w : Write)
    (hw : ∀ k, w ≠ .short k) (h : (handleCache s0 s1 src dst p n t w).1 ≠ .good) :
    (handleCache s0 s1 src dst p n t w).2 = s1 := by
  by_cases hc : deliverCheck s0 dst n = true
  · rcases hcc : (s1.enabled.get dst).bind Acct.cache with _ | c
    · simp [handleCache, hc, deliverWrite, hcc]
    · cases w with
      | ok => simp [handleCache, hc, deliverWrite, hcc] at h
      | fail => simp [handleCache, hc, deliverWrite, hcc]
      | short k => exact absurd rfl (hw k)
  · simp [handleCache, hc]

/-- **C39**: the error says "disabled" exactly if the recipient is disabled. -/
theorem C39_reason (s0 s1 : State) (src dst : Id) (p : Bytes) (n : Name) (t : Int) (w : Write)
    (h : (handleCache s0 s1 src dst p n t w).1 ≠ .good) :
    (handleCache s0 s1 src dst p n t w).1 = .disabled ↔ s1.isDisabled dst = true := by
  have hput : ∀ f, (putFile s1 dst n f).isDisabled dst = s1.isDisabled dst := by
    intro f; unfold putFile; split <;> rfl
  by_cases hd : s1.isDisabled dst = true
  all_goals
    by_cases hc : deliverCheck s0 dst n = true
    · rcases hcc : (s1.enabled.get dst).bind Acct.cache with _ | c
      · simp [handleCache, hc, deliverWrite, hcc, hd]
      · cases w with
        | ok => simp [handleCache, hc, deliverWrite, hcc] at h
        | fail => simp [handleCache, hc, deliverWrite, hcc, hd]
        | short k => simp [handleCache, hc, deliverWrite, hcc, hd, hput]
    · simp [handleCache, hc, hd]

/-- **C39**: whatever is asked of the accounts, a message of an account that stays enabled changes only if a message is
stored under its very name, or it is deleted. -/
theorem C39_kept {s s' : State} {e : Ev} {b : Bool} (hs : step s e = some (b, s')) (id : Id) (k : Name) (v : Bytes)
    (h : stored s id k = some v) :
    stored s' id k = some v ∨ (∃ m w, e = .deliver id k m w) ∨ e = .delete id k ∨ e = .disable id := by
  have hget : ∃ a c, s.enabled.get id = some a ∧ a.cache = some c ∧ c.get k = some v := by
    unfold stored at h
    rcases ha : s.enabled.get id with _ | a
    · rw [ha] at h; cases h
    · rw [ha] at h
      rcases hc : a.cache with _ | c
      · simp [hc] at h
      · simp only [Option.bind_some, hc] at h
        exact ⟨a, c, rfl, hc, h⟩
  obtain ⟨a, c, ha, hc, hk⟩ := hget
  have same : s'.enabled.get id = s.enabled.get id → stored s' id k = some v := by
    intro he
    unfold stored
    rw [he]
    exact h
  have put : ∀ a', s'.enabled.get id = some a' → a'.cache = some c → stored s' id k = some v := by
    intro a' he hc'
    simp [stored, he, hc', hk]
  cases e with
  | createCheck l p f =>
    simp only [step] at hs
    split at hs <;> cases hs <;> exact .inl h
  | createWrite p =>
    simp only [step] at hs
    split at hs
    · cases hs
      by_cases hp : p.identity = id
      · subst hp
        exact .inl (put _ (GoMap.get_set_self _ _ _) (by simp [created, ha, hc]))
      · exact .inl (same (GoMap.get_set_ne _ _ hp))
    · cases hs
  | createCrash p st =>
    simp only [step] at hs
    split at hs
    · cases hs
      by_cases hp : p.identity = id
      · subst hp
        refine .inl (put _ (GoMap.get_set_self _ _ _) ?_)
        unfold createdPart
        split <;> simp [ha, hc]
      · exact .inl (same (GoMap.get_set_ne _ _ hp))
    · cases hs
  | push i =>
    simp only [step, push, setListed, Option.some.injEq] at hs
    split at hs
    · cases hs; exact .inl h
    · next a' ha' =>
      split at hs
      · cases hs; exact .inl h
      · cases hs
        by_cases hp : i = id
        · subst hp
          rw [ha] at ha'
          cases ha'
          exact .inl (put _ (GoMap.get_set_self _ _ _) hc)
        · exact .inl (same (GoMap.get_set_ne _ _ hp))
  | pull i =>
    simp only [step, pull, setListed, Option.some.injEq] at hs
    split at hs
    · cases hs; exact .inl h
    · next a' ha' =>
      split at hs
      · cases hs; exact .inl h
      · cases hs
        by_cases hp : i = id
        · subst hp
          rw [ha] at ha'
          cases ha'
          exact .inl (put _ (GoMap.get_set_self _ _ _) hc)
        · exact .inl (same (GoMap.get_set_ne _ _ hp))
  | enable i =>
    simp only [step, enable, Option.some.injEq] at hs
    split at hs
    · cases hs; exact .inl h
    · split at hs
      · cases hs; exact .inl h
      · next hn =>
        cases hs
        by_cases hp : i = id
        · subst hp; rw [ha] at hn; exact absurd rfl hn
        · exact .inl (same (GoMap.get_set_ne _ _ hp))
  | disable i =>
    by_cases hp : i = id
    · subst hp; exact .inr (.inr (.inr rfl))
    · simp only [step, disable, Option.some.injEq] at hs
      split at hs
      · cases hs; exact .inl h
      · split at hs
        · cases hs; exact .inl h
        · cases hs; exact .inl (same (GoMap.get_del_ne _ hp))
  | deliver d n m w =>
    by_cases hp : d = id ∧ n = k
    · obtain ⟨rfl, rfl⟩ := hp
      exact .inr (.inl ⟨m, w, rfl⟩)
    · have hput : ∀ f, stored (putFile s d n f) id k = some v := by
        intro f
        unfold putFile
        split
        · exact h
        · next a' ha' =>
          by_cases hd : d = id
          · subst hd
            have hn : n ≠ k := fun e => hp ⟨rfl, e⟩
            rw [ha] at ha'
            cases ha'
            simp [stored, hc, GoMap.get_set_ne _ _ hn, hk]
          · unfold stored
            rw [GoMap.get_set_ne _ _ hd]
            exact h
      simp only [step, deliverWrite, Option.some.injEq] at hs
      split at hs
      · cases hs; exact .inl h
      · split at hs <;> cases hs
        · exact .inl (hput _)
        · exact .inl h
        · exact .inl (hput _)
  | delete i n =>
    by_cases hp : i = id ∧ n = k
    · obtain ⟨rfl, rfl⟩ := hp
      exact .inr (.inr (.inl rfl))
    · simp only [step, delete, Option.some.injEq] at hs
      split at hs
      · cases hs; exact .inl h
      · next a' ha' =>
        split at hs
        · cases hs; exact .inl h
        · next c' hc' =>
          split at hs
          · cases hs
            by_cases hd : i = id
            · subst hd
              have hn : n ≠ k := fun e => hp ⟨rfl, e⟩
              rw [ha] at ha'
              cases ha'
              rw [hc] at hc'
              cases hc'
              left
              simp [stored, GoMap.get_del_ne _ hn, hk]
            · exact .inl (same (GoMap.get_set_ne _ _ hd))
          · cases hs; exact .inl h

/-- **C39**: a request that nobody disturbs replaces no message, whatever name the random numbers give. -/
theorem C39_exclusive (s : State) (src dst : Id) (p : Bytes) (n : Name) (t : Int) (w : Write) (d : Id) (k : Name)
    (v : Bytes) (h : stored s d k = some v) : stored (handleCache s s src dst p n t w).2 d k = some v ∧
      stored (handleProxy s s src dst p n t w).2 d k = some v := by
  have key : ∀ m, deliverCheck s dst n = true → stored (deliverWrite s dst n m w).2 d k = some v := by
    intro m hc
    have := C39_kept (s := s) (e := .deliver dst n m w) (b := (deliverWrite s dst n m w).1)
      (s' := (deliverWrite s dst n m w).2) rfl d k v h
    rcases this with h1 | ⟨_, _, h1⟩ | h1 | h1
    · exact h1
    · cases h1
      unfold deliverCheck at hc
      unfold stored at h
      split at hc
      · next hx => rw [hx] at h; cases h
      · next hx => rw [hx] at h; simp only [Option.bind_some] at h; rw [h] at hc; cases hc
    · cases h1
    · cases h1
  constructor
  · unfold handleCache
    split
    · next hc =>
      have := key ⟨src, t, p, false⟩ hc
      split <;> next hw => rw [hw] at this; exact this
    · exact h
  · unfold handleProxy
    split
    · next hc => exact key _ hc
    · exact h

/-- A name that is taken: the message is refused and the one on file stays. -/
example : handleCache ⟨[(pubA.identity, ⟨none, some [(7, [1])]⟩)], [], []⟩
    ⟨[(pubA.identity, ⟨none, some [(7, [1])]⟩)], [], []⟩ [] pubA.identity [2] 7 0 .ok =
    (.internal, ⟨[(pubA.identity, ⟨none, some [(7, [1])]⟩)], [], []⟩) := by decide

/-- **C39 is violated**: if the disk fills up in the middle of the write, the server acknowledges with an
error but leaves the part of the message that was written; it is later announced as a message. -/
theorem C39_short_write_violated : ¬ C39_full ∧
    ∃ f, stored (handleCache ⟨[(pubA.identity, ⟨some ⟨some pubA, true⟩, some []⟩)], [], []⟩
      ⟨[(pubA.identity, ⟨some ⟨some pubA, true⟩, some []⟩)], [], []⟩ pubB.identity pubA.identity [7] 1 5 (.short 32)).2
      pubA.identity 1 = some f ∧ unmarshal f = some ⟨pubB.identity, 0, [], false⟩ := by
  constructor
  · intro h
    have := (h ⟨[(pubA.identity, ⟨some ⟨some pubA, true⟩, some []⟩)], [], []⟩
      ⟨[(pubA.identity, ⟨some ⟨some pubA, true⟩, some []⟩)], [], []⟩ pubB.identity pubA.identity [7] 1 5 (.short 32)).2
      (by decide)
    revert this
    decide
  · exact ⟨(marshal ⟨pubB.identity, 5, [7], false⟩).take 32, by decide, by decide⟩

/-- A message accepted, and one refused because the recipient is unknown. -/
example : (handleCache ⟨[(pubA.identity, ⟨some ⟨some pubA, true⟩, some []⟩)], [], []⟩
      ⟨[(pubA.identity, ⟨some ⟨some pubA, true⟩, some []⟩)], [], []⟩ pubB.identity pubA.identity [7] 1 5 .ok).1 = .good ∧
    (handleCache init init pubB.identity pubA.identity [7] 1 5 .ok).1 = .internal := by decide

/-! ## C42: administrative commands -/

/-- The full claim. -/
def C42_full : Prop := ∀ (s : State) (text : Bytes),
  (handleIdentityDisable s text).1 ≠ .panic ∧ (handleIdentityEnable s text).1 ≠ .panic

/-- **C42**: the commands crash the server for exactly those texts that are hexadecimal but not of 32 bytes. -/
theorem C42_crash_iff (s : State) (text : Bytes) :
    ((handleIdentityDisable s text).1 = .panic ↔ ∃ id, Hex.decode text = some id ∧ id.length ≠ 32) ∧
    ((handleIdentityEnable s text).1 = .panic ↔ ∃ id, Hex.decode text = some id ∧ id.length ≠ 32) := by
  unfold handleIdentityDisable handleIdentityEnable
  rcases h : Hex.decode text with _ | id
  · simp
  · simp only [Option.some.injEq, exists_eq_left']
    by_cases hl : id.length = 32 <;> simp [hl]

/-- **C42** (partial): for texts that are not hexadecimal, or name an identity, there is a reply; the first
is an error, the second does what it says. -/
theorem C42_reply_partial (s : State) (text : Bytes) :
    (Hex.decode text = none → handleIdentityDisable s text = (.ok false, s) ∧
      handleIdentityEnable s text = (.ok false, s)) ∧
    (∀ id, Hex.string2ID text = some id →
      handleIdentityDisable s text = (.ok (disable s id).1, (disable s id).2) ∧
      handleIdentityEnable s text = (.ok (enable s id).1, (enable s id).2)) := by
  constructor
  · intro h; simp [handleIdentityDisable, handleIdentityEnable, h]
  · intro id h
    unfold Hex.string2ID at h
    split at h
    · cases h
    · next d hd =>
      split at h
      · cases h
      · next hl =>
        cases h
        simp [handleIdentityDisable, handleIdentityEnable, hd, hl]

/-- **C42 is violated**: `zkserverctl userdisable 00` crashes the server. -/
theorem C42_violated : ¬ C42_full := by
  intro h
  exact (h init [48, 48]).1 (by decide)

example : (handleIdentityDisable init (Hex.encode pubA.identity)).1 = .ok false := by decide

/-! ## C58: disabling an account ends its session -/

/-- `handleSession` enters sessions under the lower case text of the identity,
/repo/zkserver/zkserver.go:341, 388. -/
def sessionKey (id : Id) : Bytes := Hex.encode id

/-- The full claim: if an administrator disables an account, its session, if there is one, is closed. -/
def C58_full : Prop :=
  ∀ (s s' : State) (sessions : GoMap Bytes Nat) (text : Bytes) (id : Id) (k : Nat) (c : Option Nat),
    Hex.string2ID text = some id → sessions.get (sessionKey id) = some k →
    socketDisable s sessions text = (.ok true, s', c) → c = some k

/-- **C58** (partial): if the identity is written in lower case. -/
theorem C58_closed_partial (s : State) (sessions : GoMap Bytes Nat) (id : Id) (k : Nat) (hid : id.length = 32)
    (hk : sessions.get (sessionKey id) = some k) :
    socketDisable s sessions (Hex.encode id) = (.ok (disable s id).1, (disable s id).2, some k) := by
  have hd : Hex.string2ID (Hex.encode id) = some id := Hex.C20_roundtrip id hid
  have := ((C42_reply_partial s (Hex.encode id)).2 id hd).1
  simp [socketDisable, this]
  exact hk

/-- **C58 is violated**: an administrator who writes the identity in upper case disables the account but
leaves its session open. -/
theorem C58_upper_case_violated : ¬ C58_full := by
  intro h
  have := h ⟨[(List.replicate 32 171, ⟨some ⟨some pubA, true⟩, some []⟩)], [], []⟩
    ⟨[], [(List.replicate 32 171, ⟨some ⟨some pubA, true⟩, some []⟩)], []⟩
    [(Hex.encode (List.replicate 32 171), 7)] ((List.replicate 32 [65, 66]).flatten) (List.replicate 32 171) 7 none
    (by decide) (by decide) (by decide)
  cases this

/-! ## C59: an interrupted registration can be repeated -/

/-- The full claim: an identity for which no `Create` ever completed can be registered with a nick nobody uses. -/
def C59_full : Prop :=
  ∀ (s : State) (es : List Ev) (pid : Pub), Run Listing init es s → (∀ p, .createWrite p ∈ es → p.identity ≠ pid.identity) →
    (∀ a ∈ s.dirs, nickOf a ≠ some pid.nick) → createCheck s s.dirs pid false = true

/-- Nothing was left behind. -/
def NoCrash : Ev → Prop
  | .createCrash _ _ => False
  | _ => True

/-- An identity that has not been registered has no directory. -/
theorem absent_run {s s' : State} {es : List Ev} {id : Id} (hr : Run (fun s e => Listing s e ∧ NoCrash e) s es s')
    (hw : ∀ p, .createWrite p ∈ es → p.identity ≠ id) (h1 : s.enabled.get id = none) (h2 : s.disabled.get id = none) :
    s'.enabled.get id = none ∧ s'.disabled.get id = none := by
  induction hr with
  | nil => exact ⟨h1, h2⟩
  | @cons s e b s1 es s2 hg hs _ ih =>
    have setk : ∀ (k : Id) (a a' : Acct), s.enabled.get k = some a → (s.enabled.set k a').get id = none := by
      intro k a a' hk
      by_cases e : k = id
      · subst e; rw [h1] at hk; cases hk
      · rw [GoMap.get_set_ne _ _ e]; exact h1
    have key : s1.enabled.get id = none ∧ s1.disabled.get id = none := by
      cases e with
      | createCheck l p f =>
        simp only [step] at hs
        split at hs <;>
          (simp only [Option.some.injEq, Prod.mk.injEq] at hs; obtain ⟨_, rfl⟩ := hs; exact ⟨h1, h2⟩)
      | createWrite p =>
        have hp := hw p List.mem_cons_self
        simp only [step] at hs
        split at hs
        · simp only [Option.some.injEq, Prod.mk.injEq] at hs; obtain ⟨_, rfl⟩ := hs
          exact ⟨by simp only [GoMap.get_set_ne _ _ hp, h1], h2⟩
        · cases hs
      | createCrash p k => exact hg.2.elim
      | push k =>
        simp only [step, push, setListed, Option.some.injEq] at hs
        split at hs
        · cases hs; exact ⟨h1, h2⟩
        · next ha =>
          split at hs
          · cases hs; exact ⟨h1, h2⟩
          · cases hs; exact ⟨setk _ _ _ ha, h2⟩
      | pull k =>
        simp only [step, pull, setListed, Option.some.injEq] at hs
        split at hs
        · cases hs; exact ⟨h1, h2⟩
        · next ha =>
          split at hs
          · cases hs; exact ⟨h1, h2⟩
          · cases hs; exact ⟨setk _ _ _ ha, h2⟩
      | enable k =>
        simp only [step, enable, Option.some.injEq] at hs
        split at hs
        · cases hs; exact ⟨h1, h2⟩
        · next ha =>
          split at hs
          · cases hs; exact ⟨h1, h2⟩
          · cases hs
            have hk : k ≠ id := by rintro rfl; rw [h2] at ha; cases ha
            exact ⟨by simp only [GoMap.get_set_ne _ _ hk, h1], by simp only [GoMap.get_del_ne _ hk, h2]⟩
      | disable k =>
        simp only [step, disable, Option.some.injEq] at hs
        split at hs
        · cases hs; exact ⟨h1, h2⟩
        · split at hs
          · cases hs; exact ⟨h1, h2⟩
          · next ha =>
            cases hs
            have hk : k ≠ id := by rintro rfl; rw [h1] at ha; cases ha
            exact ⟨by simp only [GoMap.get_del_ne _ hk, h1], by simp only [GoMap.get_set_ne _ _ hk, h2]⟩
      | deliver d n m w =>
        simp only [step, deliverWrite, putFile, Option.some.injEq] at hs
        split at hs
        · cases hs; exact ⟨h1, h2⟩
        · split at hs
          · split at hs
            · cases hs; exact ⟨h1, h2⟩
            · next ha => cases hs; exact ⟨setk _ _ _ ha, h2⟩
          · cases hs; exact ⟨h1, h2⟩
          · split at hs
            · cases hs; exact ⟨h1, h2⟩
            · next ha => cases hs; exact ⟨setk _ _ _ ha, h2⟩
      | delete k n =>
        simp only [step, delete, Option.some.injEq] at hs
        split at hs
        · cases hs; exact ⟨h1, h2⟩
        · next ha =>
          split at hs
          · cases hs; exact ⟨h1, h2⟩
          · split at hs
            · cases hs; exact ⟨setk _ _ _ ha, h2⟩
            · cases hs; exact ⟨h1, h2⟩
    exact ih (fun p hp => hw p (List.mem_cons_of_mem _ hp)) key.1 key.2

/-- **C59** (partial): if the server does not die while registering anyone. -/
theorem C59_partial (s : State) (es : List Ev) (pid : Pub) (hr : Run (fun s e => Listing s e ∧ NoCrash e) init es s)
    (hw : ∀ p, .createWrite p ∈ es → p.identity ≠ pid.identity)
    (hn : ∀ a ∈ s.dirs, nickOf a ≠ some pid.nick) : createCheck s s.dirs pid false = true := by
  have h1 := absent_run hr hw rfl rfl
  have h2 : find s.dirs pid.nick = none := by
    rcases h : find s.dirs pid.nick with _ | p
    · rfl
    · obtain ⟨e, a, ha, hu⟩ := C36_find_sound _ _ _ h
      exact absurd (by simp [nickOf, hu, e]) (hn a ha)
  simp [createCheck, h1.1, h2]

/-- **C59**: registration makes an account that can log in and be sent messages, without any yet. -/
theorem C59_usable (s s' : State) (pid : Pub) (b : Bool) (hs : step s (.createWrite pid) = some (b, s'))
    (hn : s.enabled.get pid.identity = none) (hd : s.disabled.get pid.identity = none) :
    admit s' pid.identity = true ∧ s'.enabled.get pid.identity = some ⟨some ⟨some pid, false⟩, some []⟩ := by
  simp only [step] at hs
  split at hs
  · simp only [Option.some.injEq, Prod.mk.injEq] at hs
    obtain ⟨_, rfl⟩ := hs
    constructor
    · simp [admit, State.isDisabled, State.isEnabled, hd]
    · simp [created, hn]
  · cases hs

/-- **C59 is violated**: if the server dies while registering, the user can neither register again nor receive
messages. -/
theorem C59_violated : ¬ C59_full ∧ ∃ s, Reach Listing s ∧ createCheck s s.dirs pubA false = false ∧
    (handleCache s s pubB.identity pubA.identity [7] 1 5 .ok).1 = .internal := by
  have hr : Run Listing init [.createCheck [] pubA false, .createCrash pubA 0]
      ⟨[(pubA.identity, ⟨none, none⟩)], [], []⟩ := run_of_exec (by decide)
  refine ⟨fun h => ?_, _, ⟨_, hr⟩, by decide, by decide⟩
  have := h _ _ pubA hr (by simp) (by decide)
  revert this
  decide

end Verif.Accounts
