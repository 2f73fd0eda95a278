import Verif.Model.Policy
import Verif.Props.Accounts
import Verif.Proofs.GoMap
import Mathlib.Tactic.Common

/-! # C40: account creation follows the configured policy -/

namespace Verif.Policy

open Verif

/-! ## What the property talks about -/

/-- The identity has an account, enabled or not, or one is being written. -/
def HasAccount (a : Accounts.State) (id : Accounts.Id) : Prop :=
  (a.enabled.get id).isSome ∨ (a.disabled.get id).isSome ∨ ∃ p ∈ a.creating, p.identity = id

/-- The token is on file and does not expire before `now`. -/
def Unexpired (db : DB) (token : Bytes) (now : Time) : Prop :=
  ∃ v t, db.get token = some v ∧ parseInt64 v = some t ∧ (now.sec < t ∨ (now.sec = t ∧ now.nsec = 0))

/-- Strangers only: nobody imports accounts by hand; and the clock shows a time after 1970. -/
def Strangers : State → Ev → Prop
  | _, .import .. => False
  | _, .finish _ now _ _ => 0 ≤ now.sec
  | _, _ => True

instance : DecidablePred fun p : State × Ev => Strangers p.1 p.2 := by
  rintro ⟨s, e⟩; cases e <;> simp only [Strangers] <;> infer_instance

/-- The token for which this step grants an account. -/
def grantOf : Ev → Option Bytes
  | .finish c now later _ => if (validToken c.snap c.token now later).1 then some c.token else none
  | _ => none

/-- The token which this step puts on file. -/
def addOf : Ev → Option Bytes
  | .toolSave _ token _ .ok => some token
  | _ => none

/-- 1 if the token is on file, else 0. -/
def onFile (s : State) (token : Bytes) : Nat := if ((s.file.getD []).get token).isSome then 1 else 0

/-- One user of the file at a time, and the server's saves do not fail leaving the old file. -/
def Serial : State → Ev → Prop
  | s, .request .. => s.calls = [] ∧ s.tools = []
  | s, .toolOpen => s.calls = [] ∧ s.tools = []
  | _, .finish _ _ _ sv => sv ≠ .fail
  | _, _ => True

/-! ## The clock -/

theorem parseUint64_lt {s : Bytes} {n : Nat} (h : parseUint64 s = some n) : n < 2 ^ 64 := by
  unfold parseUint64 at h
  split at h
  · cases h
  · split at h
    · cases h
    · split at h
      · cases h; assumption
      · cases h

theorem parseInt64_range {s : Bytes} {t : Int} (h : parseInt64 s = some t) : -2 ^ 63 ≤ t ∧ t < 2 ^ 63 := by
  unfold parseInt64 at h
  split at h
  all_goals
    split at h
    · cases h
    · split at h
      · cases h; omega
      · cases h

theorem bmod_wrap {x : Int} (h : -2 ^ 63 ≤ x ∧ x < 2 ^ 64) :
    Int.bmod x (2 ^ 64) = if x < 2 ^ 63 then x else x - 2 ^ 64 := by
  have e : (((2 ^ 64 : Nat) : Int)) = 18446744073709551616 := by decide
  simp only [Int.bmod, e]
  split <;> split <;> omega

/-- A time that package time does not take to be past is not past. -/
theorem not_expired {t : Int} {now : Time} (hr : -2 ^ 63 ≤ t ∧ t < 2 ^ 63) (hn : 0 ≤ now.sec)
    (h : expired t now = false) : now.sec < t ∨ (now.sec = t ∧ now.nsec = 0) := by
  unfold expired unixToInternal at h
  rw [bmod_wrap (by omega)] at h
  by_cases hx : t + 62135596800 < 2 ^ 63
  · simp [hx] at h; omega
  · simp [hx] at h; omega

/-- And conversely, for all times before the year 292277024626. -/
theorem not_expired_of {t : Int} {now : Time} (hr : 0 ≤ t ∧ t < 2 ^ 63 - unixToInternal)
    (h : now.sec < t ∨ (now.sec = t ∧ now.nsec = 0)) : expired t now = false := by
  unfold unixToInternal at hr
  unfold expired unixToInternal
  rw [bmod_wrap (by omega)]
  have hx : t + 62135596800 < 2 ^ 63 := by omega
  rw [if_pos hx]
  simp; omega

/-! ## The check of a token -/

/-- **C40** Only tokens on file and unexpired are valid. -/
theorem C40_token_valid (db : DB) (token : Bytes) (now : Time) (later : Bytes → Time) (hn : 0 ≤ now.sec)
    (h : (validToken db token now later).1 = true) : Unexpired db token now := by
  unfold validToken at h
  split at h
  · cases h
  · next v hv =>
    simp only at h
    split at h
    · cases h
    · next t ht =>
      exact ⟨v, t, hv, ht, not_expired (parseInt64_range ht) hn (by simpa using h)⟩

/-- **C40** And all of them are. -/
theorem C40_token_accepted (db : DB) (token : Bytes) (now : Time) (later : Bytes → Time) (hn : 0 ≤ now.sec)
    (v : Bytes) (t : Int) (hv : db.get token = some v) (ht : parseInt64 v = some t)
    (ht' : t < 2 ^ 63 - unixToInternal) (h : now.sec < t ∨ (now.sec = t ∧ now.nsec = 0)) :
    (validToken db token now later).1 = true := by
  have := not_expired_of (t := t) (now := now) ⟨by omega, ht'⟩ h
  simp [validToken, hv, ht, this]

theorem get_prune {db : DB} {later : Bytes → Time} {k : Bytes} (h : ((prune db later).get k).isSome) :
    (db.get k).isSome := by
  rw [← GoMap.mem_keys_iff] at h ⊢
  simp only [GoMap.keys, prune, List.mem_map, List.mem_filter] at h ⊢
  obtain ⟨a, ⟨ha, _⟩, rfl⟩ := h
  exact ⟨a, ha, rfl⟩

/-- Nothing is added to the file by checking a token. -/
theorem get_valid {db : DB} {token : Bytes} {now : Time} {later : Bytes → Time} {k : Bytes}
    (h : ((validToken db token now later).2.1.get k).isSome) : (db.get k).isSome ∧ k ≠ token := by
  unfold validToken at h
  split at h
  · next hn =>
    have := get_prune h
    refine ⟨this, ?_⟩
    rintro rfl
    rw [hn] at this; cases this
  · next v hv =>
    simp only at h
    have h' : ((prune (db.del token) later).get k).isSome := by split at h <;> exact h
    have h2 := get_prune h'
    rw [GoMap.get_del] at h2
    split at h2
    · cases h2
    · next hne => exact ⟨h2, fun e => hne e.symm⟩

theorem valid_dirty {db : DB} {token : Bytes} {now : Time} {later : Bytes → Time}
    (h : (validToken db token now later).1 = true) :
    (validToken db token now later).2.2 = true ∧ (db.get token).isSome := by
  unfold validToken at h ⊢
  split at h
  · cases h
  · next v hv =>
    simp only at h ⊢
    split at h
    · cases h
    · exact ⟨rfl, by rw [hv]; rfl⟩

/-! ## Accounts come from grants -/

theorem acct_step {a a' : Accounts.State} {e : Accounts.Ev} {b : Bool} (hc : notCheck e = true)
    (hs : Accounts.step a e = some (b, a')) (id : Accounts.Id) (h : HasAccount a' id) : HasAccount a id := by
  have keep : ∀ (k : Accounts.Id) (x y : Accounts.Acct), a.enabled.get k = some y →
      ((a.enabled.set k x).get id).isSome → (a.enabled.get id).isSome := by
    intro k x y hy hx
    rw [GoMap.get_set] at hx
    split at hx
    · next e => rw [← e, hy]; rfl
    · exact hx
  have setl : ∀ (k : Accounts.Id) (v : Bool), (Accounts.setListed a k v).2 = a' → HasAccount a id := by
    intro k v hs
    unfold Accounts.setListed at hs
    split at hs
    · subst hs; exact h
    · next x hx =>
      split at hs
      · subst hs; exact h
      · subst hs
        rcases h with h | h | h
        · exact .inl (keep _ _ _ hx h)
        · exact .inr (.inl h)
        · exact .inr (.inr h)
  cases e with
  | createCheck => cases hc
  | createWrite p =>
    simp only [Accounts.step] at hs
    split at hs
    · next hp =>
      simp only [Option.some.injEq, Prod.mk.injEq] at hs
      obtain ⟨_, rfl⟩ := hs
      rcases h with h | h | ⟨q, hq, rfl⟩
      · rw [GoMap.get_set] at h
        split at h
        · next e => exact .inr (.inr ⟨p, hp, e⟩)
        · exact .inl h
      · exact .inr (.inl h)
      · exact .inr (.inr ⟨q, List.mem_of_mem_erase hq, rfl⟩)
    · cases hs
  | createCrash p k =>
    simp only [Accounts.step] at hs
    split at hs
    · next hp =>
      simp only [Option.some.injEq, Prod.mk.injEq] at hs
      obtain ⟨_, rfl⟩ := hs
      rcases h with h | h | ⟨q, hq, rfl⟩
      · rw [GoMap.get_set] at h
        split at h
        · next e => exact .inr (.inr ⟨p, hp, e⟩)
        · exact .inl h
      · exact .inr (.inl h)
      · cases hq
    · cases hs
  | push k =>
    simp only [Accounts.step, Option.some.injEq] at hs
    exact setl k true (by rw [show Accounts.setListed a k true = (b, a') from hs])
  | pull k =>
    simp only [Accounts.step, Option.some.injEq] at hs
    exact setl k false (by rw [show Accounts.setListed a k false = (b, a') from hs])
  | enable k =>
    simp only [Accounts.step, Accounts.enable, Option.some.injEq] at hs
    split at hs
    · cases hs; exact h
    · next x hx =>
      split at hs
      · cases hs; exact h
      · cases hs
        rcases h with h | h | h
        · rw [GoMap.get_set] at h
          split at h
          · next e => exact .inr (.inl (by rw [← e, hx]; rfl))
          · exact .inl h
        · rw [GoMap.get_del] at h
          split at h
          · cases h
          · exact .inr (.inl h)
        · exact .inr (.inr h)
  | disable k =>
    simp only [Accounts.step, Accounts.disable, Option.some.injEq] at hs
    split at hs
    · cases hs; exact h
    · split at hs
      · cases hs; exact h
      · next x hx =>
        cases hs
        rcases h with h | h | h
        · rw [GoMap.get_del] at h
          split at h
          · cases h
          · exact .inl h
        · rw [GoMap.get_set] at h
          split at h
          · next e => exact .inl (by rw [← e, hx]; rfl)
          · exact .inr (.inl h)
        · exact .inr (.inr h)
  | deliver d n m w =>
    simp only [Accounts.step, Option.some.injEq] at hs
    have put : ∀ f, Accounts.putFile a d n f = a' → HasAccount a id := by
      intro f hs
      unfold Accounts.putFile at hs
      split at hs
      · subst hs; exact h
      · next x hx =>
        subst hs
        rcases h with h | h | h
        · exact .inl (keep _ _ _ hx h)
        · exact .inr (.inl h)
        · exact .inr (.inr h)
    unfold Accounts.deliverWrite at hs
    split at hs
    · cases hs; exact h
    · split at hs
      · exact put _ (congrArg Prod.snd hs)
      · cases hs; exact h
      · exact put _ (congrArg Prod.snd hs)
  | delete k n =>
    simp only [Accounts.step, Accounts.delete, Option.some.injEq] at hs
    split at hs
    · cases hs; exact h
    · next x hx =>
      split at hs
      · cases hs; exact h
      · split at hs
        · cases hs
          rcases h with h | h | h
          · exact .inl (keep _ _ _ hx h)
          · exact .inr (.inl h)
          · exact .inr (.inr h)
        · cases hs; exact h

theorem check_step {a a' : Accounts.State} {l : List Accounts.Acct} {p : Pub} {f b : Bool}
    (hs : Accounts.step a (.createCheck l p f) = some (b, a')) (id : Accounts.Id) (h : HasAccount a' id) :
    HasAccount a id ∨ p.identity = id := by
  simp only [Accounts.step] at hs
  split at hs
  · simp only [Option.some.injEq, Prod.mk.injEq] at hs
    obtain ⟨_, rfl⟩ := hs
    rcases h with h | h | ⟨q, hq, rfl⟩
    · exact .inl (.inl h)
    · exact .inl (.inr (.inl h))
    · rcases List.mem_cons.1 hq with rfl | hq
      · exact .inr rfl
      · exact .inl (.inr (.inr ⟨q, hq, rfl⟩))
  · simp only [Option.some.injEq, Prod.mk.injEq] at hs
    obtain ⟨_, rfl⟩ := hs
    exact .inl h

theorem run_snoc {policy : Bytes} {G : State → Ev → Prop} {s0 s s' : State} {es : List Ev} {e : Ev}
    (hr : Run policy G s0 es s) (hg : G s e) (hs : step policy s e = some s') :
    Run policy G s0 (es ++ [e]) s' := by
  induction hr with
  | nil => exact .cons hg hs (.nil _)
  | cons h1 h2 _ ih => exact .cons h1 h2 (ih hg hs)

/-- Induction from the front. -/
theorem run_induct {policy : Bytes} {G : State → Ev → Prop} {s0 : State} (P : List Ev → State → Prop)
    (h0 : P [] s0)
    (hs : ∀ es s e s', Run policy G s0 es s → P es s → G s e → step policy s e = some s' → P (es ++ [e]) s')
    {es : List Ev} {s : State} (hr : Run policy G s0 es s) : P es s := by
  suffices h : ∀ {s1 es1 s2}, Run policy G s1 es1 s2 → ∀ pre, Run policy G s0 pre s1 → P pre s1 → P (pre ++ es1) s2 by
    simpa using h hr [] (.nil _) h0
  intro s1 es1 s2 h
  induction h with
  | nil => intro pre _ hp; simpa using hp
  | cons h1 h2 _ ih =>
    intro pre hpre hp
    simpa using ih _ (run_snoc hpre h1 h2) (hs _ _ _ _ hpre hp h1 h2)

/-- **C40** With policy no, and with every policy other than "token" and "yes", strangers create no
account: whatever they send, the identities with an account are those that had one. -/
theorem C40_no (policy : Bytes) (ht : policy ≠ sToken) (hy : policy ≠ sYes) (s s' : State) (es : List Ev)
    (hc : s.calls = []) (ha : s.allowed = []) (hr : Run policy Strangers s es s') (id : Accounts.Id)
    (h : HasAccount s'.acc id) : HasAccount s.acc id := by
  have hv : verdict policy = .refuse := by simp [verdict, ht, hy]
  have key : s'.calls = [] ∧ s'.allowed = [] ∧ (HasAccount s'.acc id → HasAccount s.acc id) := by
    refine run_induct (s0 := s) (fun _ x => x.calls = [] ∧ x.allowed = [] ∧ (HasAccount x.acc id → HasAccount s.acc id))
      ⟨hc, ha, fun h => h⟩ ?_ hr
    rintro es x e x' - ⟨h1, h2, h3⟩ hg hs
    cases e with
    | request p t o => simp only [step, hv, Option.some.injEq] at hs; subst hs; exact ⟨h1, h2, h3⟩
    | finish c now later sv => simp [step, h1] at hs
    | toolOpen => simp only [step, Option.some.injEq] at hs; subst hs; exact ⟨h1, h2, h3⟩
    | toolSave d t e sv =>
      simp only [step] at hs
      split at hs
      · split at hs
        · cases hs
        · simp only [Option.some.injEq] at hs; subst hs; exact ⟨h1, h2, h3⟩
      · cases hs
    | create l p => simp [step, h2] at hs
    | «import» => exact hg.elim
    | acct e =>
      simp only [step] at hs
      split at hs
      · next hn =>
        split at hs
        · cases hs
        · next b acc he =>
          simp only [Option.some.injEq] at hs; subst hs
          exact ⟨h1, h2, fun h => h3 (acct_step hn he id h)⟩
      · cases hs
  exact key.2.2 h

/-- Somewhere in the history a request for this identity was granted, for a token that was on file when the
file was read, and unexpired when it was checked. -/
def Granted (s0 : State) (es : List Ev) (id : Accounts.Id) : Prop :=
  ∃ es0 es1 es2 s1 c now later sv, es = es0 ++ es1 ++ .finish c now later sv :: es2 ∧
    c.pub.identity = id ∧ Unexpired c.snap c.token now ∧
    Run sToken Strangers s0 es0 s1 ∧ s1.file = some c.snap

theorem Granted.snoc {s0 : State} {es : List Ev} {id : Accounts.Id} (h : Granted s0 es id) (e : Ev) :
    Granted s0 (es ++ [e]) id := by
  obtain ⟨es0, es1, es2, s1, c, now, later, sv, rfl, h⟩ := h
  exact ⟨es0, es1, es2 ++ [e], s1, c, now, later, sv, by simp, h⟩

/-- **C40** With policy token an account is created only for a token that was on file and unexpired: every
identity that has an account and had none was granted one. -/
theorem C40_token (s s' : State) (es : List Ev) (hc : s.calls = []) (ha : s.allowed = [])
    (hr : Run sToken Strangers s es s') (id : Accounts.Id) (h : HasAccount s'.acc id) :
    HasAccount s.acc id ∨ Granted s es id := by
  have hv : verdict sToken = .askToken := by decide
  have key : (∀ c ∈ s'.calls, ∃ es0 es1 s1, es = es0 ++ es1 ∧ Run sToken Strangers s es0 s1 ∧ s1.file = some c.snap) ∧
      (∀ p ∈ s'.allowed, Granted s es p.identity) ∧
      (HasAccount s'.acc id → HasAccount s.acc id ∨ Granted s es id) := by
    refine run_induct (s0 := s) (fun es x =>
      (∀ c ∈ x.calls, ∃ es0 es1 s1, es = es0 ++ es1 ∧ Run sToken Strangers s es0 s1 ∧ s1.file = some c.snap) ∧
      (∀ p ∈ x.allowed, Granted s es p.identity) ∧
      (HasAccount x.acc id → HasAccount s.acc id ∨ Granted s es id))
      ⟨by simp [hc], by simp [ha], .inl⟩ ?_ hr
    clear hr h hc ha
    rintro es x e x' hr ⟨h1, h2, h3⟩ hg hs
    have h1' : ∀ c ∈ x.calls, ∃ es0 es1 s1, es ++ [e] = es0 ++ es1 ∧ Run sToken Strangers s es0 s1 ∧
        s1.file = some c.snap := by
      intro c hc
      obtain ⟨es0, es1, s1, rfl, h⟩ := h1 c hc
      exact ⟨es0, es1 ++ [e], s1, by simp, h⟩
    have h2' : ∀ p ∈ x.allowed, Granted s (es ++ [e]) p.identity := fun p hp => (h2 p hp).snoc e
    have h3' : HasAccount x.acc id → HasAccount s.acc id ∨ Granted s (es ++ [e]) id :=
      fun h => (h3 h).imp_right fun h => h.snoc e
    cases e with
    | request p t o =>
      simp only [step, hv] at hs
      split at hs
      · split at hs
        · simp only [Option.some.injEq] at hs; subst hs; exact ⟨h1', h2', h3'⟩
        · next db hdb =>
          simp only [Option.some.injEq] at hs; subst hs
          refine ⟨?_, h2', h3'⟩
          intro c hc
          rcases List.mem_cons.1 hc with rfl | hc
          · exact ⟨es, _, x, rfl, hr, hdb⟩
          · exact h1' c hc
      · simp only [Option.some.injEq] at hs; subst hs; exact ⟨h1', h2', h3'⟩
    | finish c now later sv =>
      simp only [step] at hs
      split at hs
      · next hc =>
        simp only [Option.some.injEq] at hs; subst hs
        refine ⟨fun d hd => h1' d (List.mem_of_mem_erase hd), ?_, h3'⟩
        intro p hp
        simp only at hp
        split at hp
        · next hok =>
          rcases List.mem_cons.1 hp with rfl | hp
          · obtain ⟨es0, es1, s1, he, h⟩ := h1 c hc
            exact ⟨es0, es1, [], s1, c, now, later, sv, by rw [he], rfl,
              C40_token_valid _ _ _ _ hg hok, h⟩
          · exact h2' p hp
        · exact h2' p hp
      · cases hs
    | toolOpen => simp only [step, Option.some.injEq] at hs; subst hs; exact ⟨h1', h2', h3'⟩
    | toolSave d t e sv =>
      simp only [step] at hs
      split at hs
      · split at hs
        · cases hs
        · simp only [Option.some.injEq] at hs; subst hs; exact ⟨h1', h2', h3'⟩
      · cases hs
    | create l p =>
      simp only [step] at hs
      split at hs
      · next hp =>
        split at hs
        · cases hs
        · next b acc he =>
          simp only [Option.some.injEq] at hs; subst hs
          refine ⟨h1', fun q hq => h2' q (List.mem_of_mem_erase hq), fun h => ?_⟩
          rcases check_step he id h with h | rfl
          · exact h3' h
          · exact .inr (h2' p hp)
      · cases hs
    | «import» => exact hg.elim
    | acct e =>
      simp only [step] at hs
      split at hs
      · next hn =>
        split at hs
        · cases hs
        · next b acc he =>
          simp only [Option.some.injEq] at hs; subst hs
          exact ⟨h1', h2', fun h => h3' (acct_step hn he id h)⟩
      · cases hs
  exact key.2.2 h

/-- **C40** With policy yes every request reaches `Create`, and nothing else changes. -/
theorem C40_yes (s : State) (pub : Pub) (token : Bytes) (opens : Bool) :
    step sYes s (.request pub token opens) = some { s with allowed := pub :: s.allowed } := by
  have hv : verdict sYes = .allow := by decide
  simp [step, hv]

/-- A word as it is in the configuration file. -/
def spelled (w : String) : Bytes := w.toList.map fun c => UInt8.ofNat c.toNat

/-- **C40** The policies are spelled as in the documentation of the configuration file. -/
theorem C40_words : verdict (spelled "no") = .refuse ∧ verdict (spelled "token") = .askToken ∧
    verdict (spelled "yes") = .allow ∧
    ∀ w, w ≠ spelled "token" → w ≠ spelled "yes" → verdict w = .refuse := by
  refine ⟨by decide, by decide, by decide, fun w ht hy => ?_⟩
  have h1 : spelled "token" = sToken := by decide
  have h2 : spelled "yes" = sYes := by decide
  rw [h1] at ht
  rw [h2] at hy
  simp [verdict, ht, hy]

/-- **C40** Whatever token is asked for, afterwards the file has exactly the other tokens that are numbers and have not
expired. -/
theorem C40_pruned (db : DB) (token : Bytes) (now : Time) (later : Bytes → Time) (kv : Bytes × Bytes) :
    kv ∈ (validToken db token now later).2.1 ↔
      kv ∈ db.del token ∧ ∃ t, parseInt64 kv.2 = some t ∧ expired t (later kv.1) = false := by
  have hp : ∀ l : DB, kv ∈ prune l later ↔ kv ∈ l ∧ ∃ t, parseInt64 kv.2 = some t ∧ expired t (later kv.1) = false := by
    intro l
    unfold prune
    rw [List.mem_filter, stale]
    refine and_congr_right (fun _ => ?_)
    cases h : parseInt64 kv.2 with
    | none => simp
    | some t => simp
  unfold validToken
  cases hg : db.get token with
  | none =>
    have hd : db.del token = db := GoMap.del_of_not_mem hg
    simp only [hp, hd]
  | some v =>
    simp only
    split <;> exact hp _

/-! ## Each token works at most once -/

theorem onFile_le (s : State) (k : Bytes) : onFile s k ≤ 1 := by unfold onFile; split <;> omega

/-- What a user of the file sees is what is on file. -/
def Alone (s : State) : Prop :=
  (s.calls = [] ∧ s.tools = []) ∨ (∃ c, s.calls = [c] ∧ s.tools = [] ∧ s.file = some c.snap) ∨
    (∃ d, s.calls = [] ∧ s.tools = [d] ∧ s.file = some d)

theorem serial_step {policy : Bytes} {s s' : State} {e : Ev} (ha : Alone s) (hg : Serial s e)
    (hs : step policy s e = some s') (k : Bytes) :
    Alone s' ∧ (grantOf e).toList.count k + onFile s' k ≤ (addOf e).toList.count k + onFile s k := by
  cases e with
  | request p t o =>
    obtain ⟨hc, ht⟩ := hg
    simp only [step] at hs
    simp only [grantOf, addOf, Option.toList, List.count_nil, Nat.zero_add]
    split at hs
    · simp only [Option.some.injEq] at hs; subst hs; exact ⟨ha, Nat.le_refl _⟩
    · simp only [Option.some.injEq] at hs; subst hs
      exact ⟨.inl ⟨hc, ht⟩, Nat.le_refl _⟩
    · split at hs
      · split at hs
        · next hf =>
          simp only [Option.some.injEq] at hs; subst hs
          exact ⟨.inl ⟨hc, ht⟩, by simp [onFile, hf]⟩
        · next db hdb =>
          simp only [Option.some.injEq] at hs; subst hs
          exact ⟨.inr (.inl ⟨⟨p, t, db⟩, by simp [hc], ht, hdb⟩), Nat.le_refl _⟩
      · simp only [Option.some.injEq] at hs; subst hs; exact ⟨ha, Nat.le_refl _⟩
  | finish c now later sv =>
    simp only [step] at hs
    split at hs
    · next hc =>
      simp only [Option.some.injEq] at hs; subst hs
      rcases ha with ⟨h, _⟩ | ⟨c', h1, h2, h3⟩ | ⟨d, h, _⟩
      · rw [h] at hc; cases hc
      · rw [h1] at hc
        obtain rfl : c = c' := by simpa using hc
        refine ⟨.inl ⟨by simp [h1], h2⟩, ?_⟩
        simp only [addOf, Option.toList, List.count_nil, Nat.zero_add]
        by_cases hd : (validToken c.snap c.token now later).2.2 = true
        · have hof : onFile
              { s with
                calls := s.calls.erase c
                file := if (validToken c.snap c.token now later).2.2 = true then
                  saved s.file (validToken c.snap c.token now later).2.1 sv else s.file
                allowed := if (validToken c.snap c.token now later).1 = true then c.pub :: s.allowed else s.allowed } k ≤
              (if (c.snap.get k).isSome ∧ k ≠ c.token then 1 else 0) := by
            unfold onFile
            simp only [hd, if_true]
            cases sv with
            | fail => exact absurd rfl hg
            | lost => simp [saved]
            | ok =>
              show (if ((validToken c.snap c.token now later).2.1.get k).isSome = true then 1 else 0) ≤ _
              by_cases h : ((validToken c.snap c.token now later).2.1.get k).isSome = true
              · rw [if_pos h, if_pos (get_valid h)]
              · rw [if_neg h]; exact Nat.zero_le _
          have hon : onFile s k = if (c.snap.get k).isSome then 1 else 0 := by simp [onFile, h3]
          rw [hon]
          refine Nat.le_trans (Nat.add_le_add_left hof _) ?_
          simp only [grantOf]
          by_cases hv : (validToken c.snap c.token now later).1 = true
          · obtain ⟨_, hsome⟩ := valid_dirty hv
            rw [if_pos hv]
            by_cases hk : c.token = k
            · subst hk; simp [hsome]
            · have : (([c.token] : List Bytes).count k) = 0 := by simp [hk]
              simp only [Option.toList, this, Nat.zero_add]
              split
              · next h => rw [if_pos h.1]
              · exact Nat.zero_le _
          · rw [if_neg hv]
            simp only [Option.toList, List.count_nil, Nat.zero_add]
            split
            · next h => rw [if_pos h.1]
            · exact Nat.zero_le _
        · have hv : ¬ (validToken c.snap c.token now later).1 = true := fun h => hd (valid_dirty h).1
          simp only [grantOf, if_neg hv, List.count_nil, Nat.zero_add, onFile, if_neg hd]
          exact Nat.le_refl _
      · rw [h] at hc; cases hc
    · cases hs
  | toolOpen =>
    obtain ⟨hc, ht⟩ := hg
    simp only [step, Option.some.injEq] at hs; subst hs
    refine ⟨.inr (.inr ⟨_, hc, by simp [ht], rfl⟩), ?_⟩
    simp [grantOf, addOf, onFile]
  | toolSave d t e sv =>
    simp only [step] at hs
    split at hs
    · next hd =>
      split at hs
      · cases hs
      · next hn =>
        simp only [Option.some.injEq] at hs; subst hs
        rcases ha with ⟨_, h⟩ | ⟨c, _, h, _⟩ | ⟨d', h1, h2, h3⟩
        · rw [h] at hd; cases hd
        · rw [h] at hd; cases hd
        · rw [h2] at hd
          obtain rfl : d = d' := by simpa using hd
          refine ⟨.inl ⟨h1, by simp [h2]⟩, ?_⟩
          simp only [grantOf, Option.toList, List.count_nil, Nat.zero_add]
          cases sv with
          | fail => exact Nat.zero_add _ ▸ Nat.le_refl _
          | lost => simp [onFile, saved, addOf]
          | ok =>
            simp only [onFile, saved, addOf, Option.getD_some, h3, GoMap.get_set]
            by_cases hk : t = k
            · subst hk; simp [hn]
            · simp [hk]
    · cases hs
  | create l p =>
    simp only [step] at hs
    split at hs
    · split at hs
      · cases hs
      · simp only [Option.some.injEq] at hs; subst hs
        exact ⟨ha, by simp [grantOf, addOf, onFile]⟩
    · cases hs
  | «import» l p f =>
    simp only [step] at hs
    split at hs
    · cases hs
    · simp only [Option.some.injEq] at hs; subst hs
      exact ⟨ha, by simp [grantOf, addOf, onFile]⟩
  | acct e =>
    simp only [step] at hs
    split at hs
    · split at hs
      · cases hs
      · simp only [Option.some.injEq] at hs; subst hs
        exact ⟨ha, by simp [grantOf, addOf, onFile]⟩
    · cases hs

/-- **C40** If the file has one user at a time and is always saved, each token is good for at most as many
accounts as it was put on file times. The full statement, without the condition, is false: see
`C40_concurrent_violated` and `C40_save_violated`. -/
theorem C40_once_partial (policy : Bytes) (s s' : State) (es : List Ev) (hc : s.calls = []) (ht : s.tools = [])
    (hr : Run policy Serial s es s') (token : Bytes) :
    (es.filterMap grantOf).count token ≤ (es.filterMap addOf).count token + onFile s token := by
  suffices h : ∀ {s es s'}, Run policy Serial s es s' → Alone s →
      (es.filterMap grantOf).count token + onFile s' token ≤
        (es.filterMap addOf).count token + onFile s token by
    have := h hr (.inl ⟨hc, ht⟩)
    omega
  intro s es s' hr
  induction hr with
  | nil => intro _; simp
  | @cons s e s1 es s2 hg hs _ ih =>
    intro ha
    obtain ⟨ha', h1⟩ := serial_step ha hg hs token
    have h2 := ih ha'
    have hx : ∀ f : Ev → Option Bytes, ((e :: es).filterMap f).count token =
        (f e).toList.count token + (es.filterMap f).count token := by
      intro f
      cases h : f e <;> simp [h, List.count_cons, Nat.add_comm]
    rw [hx, hx]
    omega

/-! ## Examples and violations -/

def exec (policy : Bytes) (s : State) : List Ev → Option State
  | [] => some s
  | e :: es => (step policy s e).bind fun s' => exec policy s' es

theorem run_of_exec {policy : Bytes} {s s' : State} {es : List Ev} (h : exec policy s es = some s') :
    Run policy (fun _ _ => True) s es s' := by
  induction es generalizing s with
  | nil => simp only [exec, Option.some.injEq] at h; subst h; exact .nil _
  | cons e es ih =>
    simp only [exec, Option.bind_eq_some_iff] at h
    obtain ⟨s1, h1, h2⟩ := h
    exact .cons trivial h1 (ih h2)

/-- Token 42, good until 200. -/
def tok : Bytes := [52, 50]
def until200 : Bytes := [50, 48, 48]
def at100 : Time := ⟨100, 5⟩
def at300 : Time := ⟨300, 0⟩

/-- A fresh server with one token on file. -/
def start : State := ⟨Accounts.init, some [(tok, until200)], [], [], []⟩

abbrev pubA := Accounts.pubA
abbrev pubB := Accounts.pubB

def callA : Call := ⟨pubA, tok, [(tok, until200)]⟩
def callB : Call := ⟨pubB, tok, [(tok, until200)]⟩

theorem tok_valid : parseInt64 until200 = some 200 := by decide

/-- The token is good at 100, not at 300, and another one is never good. -/
example : (validToken [(tok, until200)] tok at100 fun _ => at100) = (true, [], true) := by decide
example : (validToken [(tok, until200)] tok at300 fun _ => at300) = (false, [], true) := by decide
example : (validToken [(tok, until200)] [1] at100 fun _ => at100) = (false, [(tok, until200)], false) := by decide
/-- Asking for a token removes the corrupt record of another, and keeps the good one. -/
example : (validToken [([1], [97]), (tok, until200)] [2] at100 fun _ => at100) = (false, [(tok, until200)], true) ∧
    (tok, until200) ∈ (validToken [([1], [97]), (tok, until200)] [2] at100 fun _ => at100).2.1 :=
  ⟨by decide, (C40_pruned _ _ _ _ _).mpr ⟨by decide, 200, tok_valid, by decide⟩⟩
example : verdict (spelled "maybe") = .refuse := C40_words.2.2.2 _ (by decide) (by decide)
example : Unexpired [(tok, until200)] tok at100 :=
  C40_token_valid _ _ _ (fun _ => at100) (by decide) (by decide)
/-- A negative or a corrupt time. -/
example : parseInt64 [45, 53] = some (-5) ∧ parseInt64 [45] = none ∧ parseInt64 [] = none ∧
    parseInt64 [43, 55] = some 7 ∧ parseInt64 [49, 97] = none := by decide
/-- 2^63 is no time, 2^63 - 1 is a time in the past. -/
example : parseInt64 [57,50,50,51,51,55,50,48,51,54,56,53,52,55,55,53,56,48,56] = none ∧
    parseInt64 [57,50,50,51,51,55,50,48,51,54,56,53,52,55,55,53,56,48,55] = some (2 ^ 63 - 1) ∧
    expired (2 ^ 63 - 1) at100 = true := by decide

/-- One stranger gets an account for the token, the next one does not. -/
example : ∃ s, exec sToken start [.request pubA tok true, .finish callA at100 (fun _ => at100) .ok,
      .create [] pubA, .acct (.createWrite pubA), .request pubB tok true,
      .finish ⟨pubB, tok, []⟩ at100 (fun _ => at100) .ok] = some s ∧
    (s.acc.enabled.get pubA.identity).isSome ∧ s.allowed = [] ∧ s.file = some [] :=
  ⟨_, rfl, by decide, rfl, rfl⟩
/-- Under policy no the same request achieves nothing. -/
example : step sNo start (.request pubA tok true) = some start := rfl

/-- **C40** Two connections can both use the same token: both read the file before either saves it. -/
theorem C40_concurrent_violated : ∃ es s, Run sToken (fun _ _ => True) start es s ∧
    (es.filterMap addOf).count tok + onFile start tok = 1 ∧ (es.filterMap grantOf).count tok = 2 ∧
    (s.acc.enabled.get pubA.identity).isSome ∧ (s.acc.enabled.get pubB.identity).isSome ∧
    pubA.identity ≠ pubB.identity :=
  ⟨[.request pubA tok true, .request pubB tok true,
    .finish callA at100 (fun _ => at100) .ok, .finish callB at100 (fun _ => at100) .ok,
    .create [] pubA, .create [] pubB, .acct (.createWrite pubA), .acct (.createWrite pubB)], _,
    run_of_exec rfl, by decide, by decide, by decide, by decide, by decide⟩

/-- **C40** A token stays good if the file can not be saved, as the error is only logged. -/
theorem C40_save_violated : ∃ es s, Run sToken (fun _ _ => True) start es s ∧
    (es.filterMap addOf).count tok + onFile start tok = 1 ∧ (es.filterMap grantOf).count tok = 2 ∧
    (s.acc.enabled.get pubA.identity).isSome ∧ (s.acc.enabled.get pubB.identity).isSome ∧
    pubA.identity ≠ pubB.identity :=
  ⟨[.request pubA tok true, .finish callA at100 (fun _ => at100) .fail,
    .create [] pubA, .acct (.createWrite pubA),
    .request pubB tok true, .finish callB at100 (fun _ => at100) .fail,
    .create [] pubB, .acct (.createWrite pubB)], _,
    run_of_exec rfl, by decide, by decide, by decide, by decide, by decide⟩

end Verif.Policy
