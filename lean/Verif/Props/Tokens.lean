import Verif.Model.Tokens
import Verif.Props.Policy
import Verif.Props.Rendezvous
import Verif.Props.Welcome

/-! # C107: a token that was handed out makes an account -/

namespace Verif.Tokens

open Verif Policy

/-! ## Specification -/

/-- Sixteen digits in groups of four. -/
def Printed (p : Bytes) : Prop :=
  ∃ a b c d : Bytes, p = a ++ [32] ++ b ++ [32] ++ c ++ [32] ++ d ∧
    ∀ x ∈ [a, b, c, d], x.length = 4 ∧ ∀ y ∈ x, 48 ≤ y.toNat ∧ y.toNat ≤ 57

/-- The clock of every step has not reached `t`, nobody uses the token `tok`, and the file can always be saved. -/
def Before (t : Int) (tok : Bytes) : State → Ev → Prop
  | s, .finish c now later sv =>
    Serial s (.finish c now later sv) ∧ sv = .ok ∧ c.token ≠ tok ∧ ∀ k, (later k).sec < t
  | s, .toolSave d k e sv => Serial s (.toolSave d k e sv) ∧ sv = .ok
  | s, e => Serial s e

/-! ## What is printed -/

theorem split_fours {x : Bytes} (h : x.length = 16) :
    x = x.take 4 ++ ((x.drop 4).take 4 ++ ((x.drop 8).take 4 ++ (x.drop 12).take 4)) := by
  have h3 : x.drop 12 = (x.drop 12).take 4 := (List.take_of_length_le (by simp [h])).symm
  have h2 : x.drop 8 = (x.drop 8).take 4 ++ x.drop 12 := by
    have := (List.take_append_drop 4 (x.drop 8)).symm
    rwa [List.drop_drop] at this
  have h1 : x.drop 4 = (x.drop 4).take 4 ++ x.drop 8 := by
    have := (List.take_append_drop 4 (x.drop 4)).symm
    rwa [List.drop_drop] at this
  rw [← h3, ← h2, ← h1, List.take_append_drop]

theorem filter_id {x : Bytes} (h : ∀ y ∈ x, 48 ≤ y.toNat ∧ y.toNat ≤ 57) : x.filter (· ≠ 32) = x := by
  rw [List.filter_eq_self]
  intro y hy
  have := h y hy
  simp only [decide_eq_true_eq]
  rintro rfl
  exact absurd this.1 (by decide)

theorem head_format (k n : Nat) (h0 : 0 < n) (h : n < 10 ^ k) : (Rendezvous.formatAux k n).head? ≠ some 48 := by
  induction k generalizing n with
  | zero => omega
  | succ k ih =>
    simp only [Rendezvous.formatAux]
    split
    · next h1 =>
      have : ∀ m < 10, 0 < m → UInt8.ofNat (48 + m) ≠ 48 := by decide
      simpa using this n h1 h0
    · next h1 =>
      have h2 := ih (n / 10) (by omega) (by omega)
      cases hf : Rendezvous.formatAux k (n / 10) with
      | nil =>
        cases k with
        | zero => omega
        | succ k => exact absurd hf (Rendezvous.formatAux_ne_nil k _)
      | cons c r =>
        rw [hf] at h2
        simpa using h2

theorem draw_cases {db : DB} : ∀ {rand : List Nat} {t p : Bytes}, draw db rand = some (t, p) →
    (∃ x ∈ rand, 10000000000000000 ≤ x ∧ t = Rendezvous.format (x % 10000000000000000)) ∧
    db.get t = none ∧ inFours t = some p
  | [], _, _, h => by simp [draw] at h
  | x :: r, t, p, h => by
    simp only [draw] at h
    split at h
    · obtain ⟨⟨y, h1, h2⟩, h3⟩ := draw_cases h
      exact ⟨⟨y, List.mem_cons_of_mem _ h1, h2⟩, h3⟩
    · next hx =>
      split at h
      · obtain ⟨⟨y, h1, h2⟩, h3⟩ := draw_cases h
        exact ⟨⟨y, List.mem_cons_of_mem _ h1, h2⟩, h3⟩
      · next hd =>
        split at h
        · obtain ⟨⟨y, h1, h2⟩, h3⟩ := draw_cases h
          exact ⟨⟨y, List.mem_cons_of_mem _ h1, h2⟩, h3⟩
        · next q hq =>
          simp only [Option.some.injEq, Prod.mk.injEq] at h
          obtain ⟨rfl, rfl⟩ := h
          exact ⟨⟨x, by simp, by omega, rfl⟩, by simpa using hd, hq⟩

/-- **C107** What is printed are sixteen digits in groups of four. Typed as printed or with blanks elsewhere, the
client sends the token, which was not on file before. -/
theorem C107_printed {db : DB} {rand : List Nat} {t p : Bytes} (h : draw db rand = some (t, p)) :
    Printed p ∧ typed p = t ∧ (∀ a b, typed (a ++ [32] ++ b) = typed (a ++ b)) ∧ t.length = 16 ∧ db.get t = none ∧
      t.head? ≠ some 48 := by
  obtain ⟨⟨x, -, hx, rfl⟩, hd, hq⟩ := draw_cases h
  have hdig := Rendezvous.formatAux_digits 20 (x % 10000000000000000)
  generalize ht : Rendezvous.format (x % 10000000000000000) = t at *
  have hdig : ∀ c ∈ t, 48 ≤ c.toNat ∧ c.toNat ≤ 57 := by rw [← ht]; exact hdig
  unfold inFours at hq
  split at hq
  · next hl =>
    simp only [Option.some.injEq] at hq
    have hs := split_fours hl
    have hm : ∀ {n k : Nat} {y : UInt8}, y ∈ (t.drop n).take k → y ∈ t :=
      fun h => List.mem_of_mem_drop (List.mem_of_mem_take h)
    have hty : typed p = t := by
      unfold typed
      rw [← hq]
      simp only [List.filter_append]
      have e32 : ([32] : Bytes).filter (· ≠ 32) = [] := by decide
      rw [e32, filter_id (fun y hy => hdig y (List.mem_of_mem_take hy)), filter_id (fun y hy => hdig y (hm hy)),
        filter_id (fun y hy => hdig y (hm hy)), filter_id (fun y hy => hdig y (hm hy))]
      simpa using hs.symm
    refine ⟨⟨_, _, _, _, hq.symm, ?_⟩, hty, fun a b => by simp [typed], hl, hd, ?_⟩
    · intro z hz
      simp only [List.mem_cons, List.not_mem_nil, or_false] at hz
      rcases hz with rfl | rfl | rfl | rfl
      · exact ⟨by simp [hl], fun y hy => hdig y (List.mem_of_mem_take hy)⟩
      · exact ⟨by simp [hl], fun y hy => hdig y (hm hy)⟩
      · exact ⟨by simp [hl], fun y hy => hdig y (hm hy)⟩
      · exact ⟨by simp [hl], fun y hy => hdig y (hm hy)⟩
    · by_cases h0 : x % 10000000000000000 = 0
      · rw [h0] at ht
        rw [← ht] at hl
        exact absurd hl (by decide)
      · rw [← ht]
        exact head_format 20 _ (by omega) (by omega)
  · cases hq

/-! ## How long it is good for -/

theorem expires_parse {hours : Nat} {now : Time} (hh : hours ≤ 2562047) (hn : 0 ≤ now.sec) (hn' : now.sec < 2 ^ 62)
    (hns : now.nsec < 1000000000) : parseInt64 (expires hours now) = some (now.sec + 3600 * hours) := by
  have e1 : Int.bmod (hours : Int) (2 ^ 64) = hours := by
    rw [bmod_wrap (by omega), if_pos (by omega)]
  have e2 : duration hours = hours * 3600000000000 := by
    unfold duration
    rw [e1, bmod_wrap (by omega), if_pos (by omega)]
  have e3 : later now (duration hours) = now.sec + 3600 * hours := by
    unfold later
    rw [e2]
    omega
  have e4 : expires hours now = Welcome.formatInt (now.sec + 3600 * hours) := by
    unfold expires Welcome.formatInt
    rw [e3, if_neg (by omega)]
    refine congrArg Rendezvous.format ?_
    omega
  rw [e4]
  exact Welcome.parseInt_format (by omega) (by omega)

/-- **C107, part.** For up to 2562047 hours, that is 292 years, the time on file is so many hours after the token was
made. -/
theorem C107_hours_partial {hours : Nat} {now : Time} (hh : hours ≤ 2562047) (hn : 0 ≤ now.sec)
    (hn' : now.sec < 2 ^ 62) (hns : now.nsec < 1000000000) :
    parseInt64 (expires hours now) = some (now.sec + 3600 * hours) :=
  expires_parse hh hn hn' hns

/-- **C107 is violated**: a token made for one hour more is refused as corrupt from the beginning. -/
theorem C107_hours_violated {now : Time} (hn : 0 ≤ now.sec) (hn' : now.sec < 9223371273) (hns : now.nsec < 1000000000)
    (db : DB) (tok : Bytes) (t : Time) (l : Bytes → Time) :
    (validToken (db.set tok (expires 2562048 now)) tok t l).1 = false := by
  have e2 : duration 2562048 = -9223371273709551616 := by decide
  have e3 : later now (duration 2562048) < 0 := by
    unfold later
    rw [e2]
    omega
  have e4 : -2 ^ 62 < later now (duration 2562048) := by
    unfold later
    rw [e2]
    omega
  have e5 : parseInt64 (expires 2562048 now) = none := by
    have h1 : ∃ n : Nat, expires 2562048 now = Rendezvous.format n ∧ 2 ^ 63 ≤ n ∧ n < 2 ^ 64 := by
      refine ⟨_, rfl, ?_, ?_⟩ <;> omega
    obtain ⟨n, h1, h2, h3⟩ := h1
    rw [h1]
    have hh := Welcome.format_head (n := n)
    have hp := Welcome.parseUint_format h3
    unfold parseInt64
    split
    · next r hr => exact absurd rfl (hh _ _ hr).1
    · next r hr => exact absurd rfl (hh _ _ hr).2
    · rw [hp]
      simp only
      rw [if_neg (by omega)]
  simp [validToken, e5]

/-! ## It works -/

theorem prune_get {db : DB} {l : Bytes → Time} {k v : Bytes} (hv : db.get k = some v) (h : stale v (l k) = false) :
    (prune db l).get k = some v := by
  unfold prune
  induction db with
  | nil => cases hv
  | cons a r ih =>
    rw [List.filter_cons]
    rw [GoMap.get_cons] at hv
    by_cases ha : a.1 = k
    · rw [if_pos ha] at hv
      simp only [Option.some.injEq] at hv
      have : (!stale a.2 (l a.1)) = true := by rw [ha, hv, h]; rfl
      rw [if_pos this, GoMap.get_cons, if_pos ha, hv]
    · rw [if_neg ha] at hv
      split
      · rw [GoMap.get_cons, if_neg ha]
        exact ih hv
      · exact ih hv

/-- The token stays on file. -/
structure There (tok v : Bytes) (s : State) : Prop where
  alone : Alone s
  file : ∃ db, s.file = some db ∧ db.get tok = some v

theorem there_step {policy : Bytes} {s s' : State} {e : Ev} {tok v : Bytes} {t : Int} (h : There tok v s)
    (hv : parseInt64 v = some t) (h0 : 0 ≤ t) (ht : t < 2 ^ 63 - unixToInternal) (hg : Before t tok s e)
    (hs : step policy s e = some s') : There tok v s' := by
  have hser : Serial s e := by
    cases e with
    | finish => exact hg.1
    | toolSave => exact hg.1
    | _ => exact hg
  refine ⟨(serial_step h.alone hser hs tok).1, ?_⟩
  obtain ⟨db, hf, hd⟩ := h.file
  cases e with
  | request p k o =>
    simp only [step] at hs
    split at hs
    · simp only [Option.some.injEq] at hs; subst hs; exact ⟨db, hf, hd⟩
    · simp only [Option.some.injEq] at hs; subst hs; exact ⟨db, hf, hd⟩
    · split at hs
      · rw [hf] at hs
        simp only [Option.some.injEq] at hs; subst hs; exact ⟨db, rfl, hd⟩
      · simp only [Option.some.injEq] at hs; subst hs; exact ⟨db, hf, hd⟩
  | finish c now later sv =>
    obtain ⟨-, rfl, hne, hl⟩ := hg
    simp only [step] at hs
    split at hs
    · next hc =>
      simp only [Option.some.injEq] at hs; subst hs
      have hsnap : c.snap = db := by
        rcases h.alone with ⟨hx, _⟩ | ⟨c', h1, h2, h3⟩ | ⟨d, hx, _⟩
        · rw [hx] at hc; cases hc
        · rw [h1] at hc
          obtain rfl : c = c' := by simpa using hc
          rw [hf] at h3
          exact (Option.some.inj h3).symm
        · rw [hx] at hc; cases hc
      subst hsnap
      have hst : stale v (later tok) = false := by
        unfold stale
        rw [hv]
        exact not_expired_of ⟨h0, ht⟩ (.inl (hl tok))
      have hkeep : ((validToken c.snap c.token now later).2.1).get tok = some v := by
        unfold validToken
        split
        · exact prune_get hd hst
        · simp only
          have : (prune (c.snap.del c.token) later).get tok = some v :=
            prune_get (by rw [GoMap.get_del_ne _ hne]; exact hd) hst
          split <;> exact this
      by_cases hdir : (validToken c.snap c.token now later).2.2 = true
      · refine ⟨_, ?_, hkeep⟩
        show (if (validToken c.snap c.token now later).2.2 = true then
          saved s.file (validToken c.snap c.token now later).2.1 .ok else s.file) = _
        rw [if_pos hdir]
        rfl
      · refine ⟨c.snap, ?_, hd⟩
        show (if (validToken c.snap c.token now later).2.2 = true then
          saved s.file (validToken c.snap c.token now later).2.1 .ok else s.file) = _
        rw [if_neg hdir, hf]
    · cases hs
  | toolOpen =>
    simp only [step, Option.some.injEq] at hs; subst hs
    exact ⟨db, by simp [hf], hd⟩
  | toolSave d k e sv =>
    obtain ⟨-, rfl⟩ := hg
    simp only [step] at hs
    split at hs
    · next hc =>
      split at hs
      · cases hs
      · next hn =>
        simp only [Option.some.injEq] at hs; subst hs
        have hsnap : d = db := by
          rcases h.alone with ⟨_, hx⟩ | ⟨c, _, hx, _⟩ | ⟨d', h1, h2, h3⟩
          · rw [hx] at hc; cases hc
          · rw [hx] at hc; cases hc
          · rw [h2] at hc
            obtain rfl : d = d' := by simpa using hc
            rw [hf] at h3
            exact (Option.some.inj h3).symm
        subst hsnap
        refine ⟨d.set k e, rfl, ?_⟩
        have : k ≠ tok := by
          rintro rfl
          rw [hd] at hn
          exact hn rfl
        rw [GoMap.get_set_ne _ _ this]
        exact hd
    · cases hs
  | create l p =>
    simp only [step] at hs
    split at hs
    · split at hs
      · cases hs
      · simp only [Option.some.injEq] at hs; subst hs; exact ⟨db, hf, hd⟩
    · cases hs
  | «import» l p f =>
    simp only [step] at hs
    split at hs
    · cases hs
    · simp only [Option.some.injEq] at hs; subst hs; exact ⟨db, hf, hd⟩
  | acct e =>
    simp only [step] at hs
    split at hs
    · split at hs
      · cases hs
      · simp only [Option.some.injEq] at hs; subst hs; exact ⟨db, hf, hd⟩
    · cases hs

theorem there_run {policy : Bytes} {s s' : State} {es : List Ev} {tok v : Bytes} {t : Int}
    (hr : Run policy (Before t tok) s es s') (h : There tok v s)
    (hv : parseInt64 v = some t) (h0 : 0 ≤ t) (ht : t < 2 ^ 63 - unixToInternal) : There tok v s' := by
  induction hr with
  | nil => exact h
  | cons hg hs _ ih => exact ih (there_step h hv h0 ht hg hs)

/-- **C107, part.** zkservertoken runs while nobody else uses the file. If from then on the file has one user at a time
and can be saved, whoever first types the token within the hours it was made for passes the check, and whatever the
others do in between; and the token is gone after that. The full statement, without the condition, is false: see
`C107_lost_violated`. -/
theorem C107_works_partial {s s1 s2 : State} {db : DB} {rand : List Nat} {hours : Nat} {made : Time} {t p : Bytes}
    {es0 es : List Ev} (hc : s.calls = []) (htl : s.tools = []) (hdb : s.file.getD [] = db)
    (hi : issue db rand hours made = some (t, p, es0)) (hh : hours ≤ 2562047) (hm : 0 ≤ made.sec)
    (hm' : made.sec < 2 ^ 61) (hns : made.nsec < 1000000000)
    (h0 : Run sToken (fun _ _ => True) s es0 s1)
    (h1 : Run sToken (Before (made.sec + 3600 * hours) t) s1 es s2) (hc2 : s2.calls = [])
    (pub : Pub) (q : Bytes) (hq : typed q = t) (now : Time) (hnow : now.sec < made.sec + 3600 * hours)
    (hn : 0 ≤ now.sec) (l : Bytes → Time) :
    ∃ snap s3 s4, step sToken s2 (.request pub (typed q) true) = some s3 ∧
      step sToken s3 (.finish ⟨pub, typed q, snap⟩ now l .ok) = some s4 ∧
      s4.allowed = pub :: s2.allowed ∧ onFile s4 t = 0 := by
  obtain ⟨⟨t', p'⟩, hdr, he⟩ := Option.map_eq_some_iff.1 hi
  simp only [Prod.mk.injEq] at he
  obtain ⟨rfl, rfl, rfl⟩ := he
  have hpar := C107_hours_partial hh hm (by omega) hns
  have hnone : db.get t' = none := (C107_printed hdr).2.2.2.2.1
  have hth : There t' (expires hours made) s1 := by
    cases h0 with
    | cons _ hs1 h0 =>
      cases h0 with
      | cons _ hs2 h0 =>
        cases h0
        simp only [step, Option.some.injEq] at hs1
        subst hs1
        rw [htl, hdb] at hs2
        simp only [step, List.mem_singleton, if_true, hnone, Option.isSome_none, Bool.false_eq_true, if_false,
          Option.some.injEq] at hs2
        subst hs2
        refine ⟨.inl ⟨hc, by simp⟩, _, rfl, by simp⟩
  have hth2 := there_run h1 hth hpar (by omega) (by unfold unixToInternal; omega)
  obtain ⟨db2, hf2, hd2⟩ := hth2.file
  have hty : typed q = t' := hq
  have hv : verdict sToken = .askToken := by decide
  have hval : (validToken db2 t' now l).1 = true :=
    C40_token_accepted db2 t' now l hn _ _ hd2 hpar (by unfold unixToInternal; omega) (.inl hnow)
  have hdir := (valid_dirty hval).1
  refine ⟨db2, { s2 with calls := [⟨pub, t', db2⟩] },
    { s2 with
      calls := []
      file := some (validToken db2 t' now l).2.1
      allowed := pub :: s2.allowed }, ?_, ?_, rfl, ?_⟩
  · simp [step, hv, hf2, hty, hc2]
  · simp [step, hty, hval, hdir, saved]
  · unfold onFile
    have : ((validToken db2 t' now l).2.1.get t').isSome = false := by
      by_contra hx
      rw [Bool.not_eq_false] at hx
      exact (get_valid hx).2 rfl
    simp [this]

/-! ## Where the code departs from this -/

/-- **C107 is violated**: a request of a stranger, with any token, that is under way while zkservertoken runs, takes
the new token from the file if some other token has expired. -/
theorem C107_lost_violated : ∃ (old : DB) (es : List Ev) (s : State) (t p : Bytes) (es0 : List Ev),
    issue old [11234567890123456] 24 at300 = some (t, p, es0) ∧ es0 ⊆ es ∧
    Run sToken (fun _ _ => True) ⟨Accounts.init, some old, [], [], []⟩ es s ∧ onFile s t = 0 ∧
    es.filterMap grantOf = [] := by
  refine ⟨[(tok, until200)], [.request pubA [1] true, .toolOpen,
      .toolSave [(tok, until200)] (Rendezvous.format 1234567890123456) (expires 24 at300) .ok,
      .finish ⟨pubA, [1], [(tok, until200)]⟩ at300 (fun _ => at300) .ok], _, _, _, _, rfl, ?_, run_of_exec rfl, ?_, ?_⟩
  · simp
  · decide
  · decide

/-- **C107 is violated**: the token is spent when the nick that was asked for is taken; the user has no account, and
nothing is left to get one with. -/
theorem C107_spent_violated : ∃ (a : Accounts.State) (es : List Ev) (s : State),
    Run sToken (fun _ _ => True) ⟨a, some [(tok, until200)], [], [], []⟩ es s ∧
    es.filterMap grantOf = [tok] ∧ s.acc = a ∧ s.acc.enabled.get pubB.identity = none ∧ s.acc.creating = [] ∧
    s.allowed = [] ∧ onFile s tok = 0 := by
  refine ⟨⟨[(pubA.identity, ⟨some ⟨some pubA, true⟩, some []⟩)], [], []⟩, [.request pubB tok true,
    .finish ⟨pubB, tok, [(tok, until200)]⟩ at100 (fun _ => at100) .ok,
    .create [⟨some ⟨some pubA, true⟩, some []⟩] pubB], _, run_of_exec rfl, ?_, ?_, ?_, ?_, ?_, ?_⟩ <;> decide

/-! ## Examples -/

example : draw [] [77, 20000000000000042, 11234567890123456] =
    some (Rendezvous.format 1234567890123456,
      [49, 50, 51, 52, 32, 53, 54, 55, 56, 32, 57, 48, 49, 50, 32, 51, 52, 53, 54]) := by decide
example : draw [(Rendezvous.format 1234567890123456, [])] [11234567890123456] = none := by decide
/-- A stranger tries a wrong token, and an old one is removed, before the new one is used. -/
example : ∃ t p es0 s1 s2,
    issue [(tok, until200)] [11234567890123456] 24 at300 = some (t, p, es0) ∧
    Run sToken (fun _ _ => True) start es0 s1 ∧
    Run sToken (Before 86700 t) s1 [.request pubA [1] true,
      .finish ⟨pubA, [1], [(t, expires 24 at300), (tok, until200)]⟩ at300 (fun _ => at300) .ok] s2 ∧
    s2.calls = [] ∧ s2.file = some [(t, expires 24 at300)] := by
  refine ⟨_, _, _, _, _, rfl, run_of_exec rfl, .cons ?_ rfl (.cons ⟨?_, ?_, ?_, ?_⟩ rfl (.nil _)), ?_, ?_⟩
  · exact ⟨rfl, rfl⟩
  · nofun
  · rfl
  · decide
  · intro k
    show (300 : Int) < 86700
    decide
  · rfl
  · rfl
example : expires 24 at300 = Rendezvous.format 86700 := by decide

end Verif.Tokens
