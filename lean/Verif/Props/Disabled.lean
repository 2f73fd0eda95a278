import Verif.Model.Disabled
import Verif.Proofs.GoMap
import Mathlib.Tactic.Common
import Mathlib.Data.List.Nodup

namespace Verif.Disabled

open Verif Groups

/-! ## Specification -/

/-- Whom the notices in the window with the key `key` are about, requests to kick apart. -/
def toldIn (key : Nat) (ns : List Notice) : List Id :=
  ns.filterMap fun
    | .told k false w => if k = key then some w else none
    | _ => none

/-- The conversation of the window is with `id`: it is a private one with that identity, or one of a group that has
`id` as a member. -/
def With (s : St) (id : Id) (w : Win) : Prop :=
  if w.group then ∃ ms, s.groups.get w.nick = some ms ∧ id ∈ ms else w.party = some id

/-- The user is the administrator of the group of the window. -/
def Ours (s : St) (w : Win) : Prop := w.group = true ∧ ∃ ms, s.groups.get w.nick = some (s.self :: ms)

/-- Nicks of private windows are those of the address book: a window that has the nick of `id` is that of `id`. -/
def Named (s : St) (id : Id) : Prop :=
  ∀ w ∈ s.wins, w.group = false → s.find id = some w.nick → w.party = some id

/-- Every window of a group is of a group there is. -/
def Kept (s : St) : Ev → Prop
  | .ack _ _ => ∀ w ∈ s.wins, w.group = true → (s.groups.get w.nick).isSome
  | _ => True

def Free (_ : St) (_ : Ev) : Prop := True

/-- `n` messages to `id` fail one after the other. -/
def again (id : Id) : Nat → St → Option St
  | 0, s => some s
  | n + 1, s => (step s (.ack id .disabled)).bind (again id n)

/-- The number of private windows with the nick of `id` that have not had a notice. -/
def waiting (s : St) (id : Id) : Nat :=
  (s.wins.filter fun w => !w.group && decide (s.find id = some w.nick) && decide (w.seen = 0)).length

/-! ## The loop -/

/-- A window after the loop, with whom it was told about. -/
structure Turn (id : Id) (ns : List Notice) (w w' : Win) : Prop where
  same : w'.key = w.key ∧ w'.nick = w.nick ∧ w'.group = w.group ∧ w'.party = w.party
  up : w.seen ≤ w'.seen
  first : w.seen = 0 → 0 < w'.seen → .told w.key false id ∈ ns

theorem Turn.refl (id : Id) (ns : List Notice) (w : Win) : Turn id ns w w :=
  ⟨⟨rfl, rfl, rfl, rfl⟩, Nat.le_refl _, fun h h' => by omega⟩

theorem Turn.more {id : Id} {ns ns' : List Notice} {w w' : Win} (h : Turn id ns w w') (hs : ns ⊆ ns') :
    Turn id ns' w w' := ⟨h.same, h.up, fun a b => hs (h.first a b)⟩

/-- What the loop does with one window: it ends the client, it goes on, or it is done. -/
inductive Does where
  | dies
  | goes (w : Win) (ns : List Notice)
  | done (w : Win) (ns : List Notice)

def does (s : St) (id : Id) (nick : Bytes) (w : Win) : Does :=
  if w.group then
    match s.groups.get w.nick with
    | none => .goes w [.told w.key false id]
    | some [] => .dies
    | some (a :: ms) =>
      if a = s.self then .goes w [.told w.key true id]
      else if id ∈ a :: ms then
        if w.seen > 0 then .goes { w with seen := w.seen + 1 } []
        else .goes { w with seen := w.seen + 1 } [.told w.key false id]
      else .goes w []
  else if w.nick ≠ nick then .goes w []
  else if w.seen > 0 then .goes { w with seen := w.seen + 1 } []
  else .done { w with seen := w.seen + 1 } [.told w.key false id]

theorem walk_cons (s : St) (id : Id) (nick : Bytes) (w : Win) (ws : List Win) :
    walk s id nick (w :: ws) =
      match does s id nick w with
      | .dies => none
      | .goes w' ns => (walk s id nick ws).map fun r => (w' :: r.1, ns ++ r.2)
      | .done w' ns => some (w' :: ws, ns) := by
  simp only [walk, does]
  by_cases hg : w.group = true
  · simp only [if_pos hg]
    rcases s.groups.get w.nick with _ | _ | ⟨a, ms⟩
    · rfl
    · rfl
    · simp only
      by_cases h1 : a = s.self
      · simp only [if_pos h1]
      · by_cases h2 : id ∈ a :: ms
        · by_cases h3 : w.seen > 0
          · simp only [if_neg h1, if_pos h2, if_pos h3]
          · simp only [if_neg h1, if_pos h2, if_neg h3]
        · simp only [if_neg h1, if_neg h2]
  · simp only [if_neg hg]
    by_cases h1 : w.nick ≠ nick
    · simp only [if_pos h1]
    · by_cases h3 : w.seen > 0
      · simp only [if_neg h1, if_pos h3]
      · simp only [if_neg h1, if_neg h3]

theorem does_goes {s : St} {id : Id} {nick : Bytes} {w w' : Win} {ns : List Notice}
    (h : does s id nick w = .goes w' ns ∨ does s id nick w = .done w' ns) :
    (w' = w ∨ w' = { w with seen := w.seen + 1 }) ∧
    (ns = [] ∧ (w' ≠ w → 0 < w.seen) ∨ ∃ k, ns = [.told w.key k id] ∧ (w' ≠ w → k = false)) := by
  have key : ∀ d, does s id nick w = d → (d = .goes w' ns ∨ d = .done w' ns) →
    (w' = w ∨ w' = { w with seen := w.seen + 1 }) ∧
    (ns = [] ∧ (w' ≠ w → 0 < w.seen) ∨ ∃ k, ns = [.told w.key k id] ∧ (w' ≠ w → k = false)) := by
    intro d hd
    simp only [does] at hd
    repeat' split at hd
    all_goals
      subst hd
      intro h
      rcases h with h | h <;> simp only [Does.goes.injEq, Does.done.injEq, reduceCtorEq] at h
      try obtain ⟨rfl, rfl⟩ := h
    all_goals first
      | exact ⟨.inl rfl, .inr ⟨_, rfl, fun h => absurd rfl h⟩⟩
      | exact ⟨.inr rfl, .inr ⟨_, rfl, fun _ => rfl⟩⟩
      | exact ⟨.inl rfl, .inl ⟨rfl, fun h => absurd rfl h⟩⟩
      | exact ⟨.inr rfl, .inl ⟨rfl, fun _ => by omega⟩⟩
  exact key _ rfl h

theorem turn_of_does {s : St} {id : Id} {nick : Bytes} {w w' : Win} {ns : List Notice}
    (h : does s id nick w = .goes w' ns ∨ does s id nick w = .done w' ns) : Turn id ns w w' := by
  obtain ⟨hw, hn⟩ := does_goes h
  rcases hw with rfl | rfl
  · exact Turn.refl _ _ _
  · refine ⟨⟨rfl, rfl, rfl, rfl⟩, Nat.le_succ _, fun h0 _ => ?_⟩
    have hne : ({ w with seen := w.seen + 1 } : Win) ≠ w := by
      intro he
      have := congrArg Win.seen he
      simp at this
    rcases hn with ⟨-, h⟩ | ⟨k, rfl, hk⟩
    · have := h hne
      omega
    · simp [hk hne]

theorem walk_turn {s : St} {id : Id} {nick : Bytes} : ∀ {ws ws' : List Win} {ns : List Notice},
    walk s id nick ws = some (ws', ns) → List.Forall₂ (Turn id ns) ws ws'
  | [], ws', ns, h => by
    simp only [walk, Option.some.injEq, Prod.mk.injEq] at h
    rw [← h.1]
    exact .nil
  | w :: ws, ws', ns, h => by
    rw [walk_cons] at h
    split at h
    · cases h
    · next w1 n1 hd =>
      obtain ⟨⟨r1, r2⟩, hr, he⟩ := Option.map_eq_some_iff.1 h
      simp only [Prod.mk.injEq] at he
      obtain ⟨rfl, rfl⟩ := he
      exact .cons ((turn_of_does (.inl hd)).more (by simp))
        ((walk_turn hr).imp fun _ _ t => t.more (by simp))
    · next w1 n1 hd =>
      simp only [Option.some.injEq, Prod.mk.injEq] at h
      obtain ⟨rfl, rfl⟩ := h
      exact .cons (turn_of_does (.inr hd)) (List.forall₂_same.2 fun _ _ => Turn.refl _ _ _)

/-- Every notice of the loop is about `id`, in one of the windows. -/
theorem walk_notice {s : St} {id : Id} {nick : Bytes} : ∀ {ws ws' : List Win} {ns : List Notice},
    walk s id nick ws = some (ws', ns) → ∀ n ∈ ns, ∃ w ∈ ws, ∃ k,
      n = .told w.key k id ∧ ∃ w' ns', n ∈ ns' ∧ (does s id nick w = .goes w' ns' ∨ does s id nick w = .done w' ns')
  | [], ws', ns, h => by
    simp only [walk, Option.some.injEq, Prod.mk.injEq] at h
    simp [← h.2]
  | w :: ws, ws', ns, h => by
    rw [walk_cons] at h
    split at h
    · cases h
    · next w1 n1 hd =>
      obtain ⟨⟨r1, r2⟩, hr, he⟩ := Option.map_eq_some_iff.1 h
      simp only [Prod.mk.injEq] at he
      obtain ⟨rfl, rfl⟩ := he
      intro n hn
      rcases List.mem_append.1 hn with hn | hn
      · rcases (does_goes (.inl hd)).2 with ⟨rfl, -⟩ | ⟨k, rfl, -⟩
        · cases hn
        · exact ⟨w, by simp, k, by simpa using hn, w1, _, hn, .inl hd⟩
      · obtain ⟨w0, hw, rest⟩ := walk_notice hr n hn
        exact ⟨w0, List.mem_cons_of_mem _ hw, rest⟩
    · next w1 n1 hd =>
      simp only [Option.some.injEq, Prod.mk.injEq] at h
      obtain ⟨rfl, rfl⟩ := h
      intro n hn
      rcases (does_goes (.inr hd)).2 with ⟨rfl, -⟩ | ⟨k, rfl, -⟩
      · cases hn
      · exact ⟨w, by simp, k, by simpa using hn, w1, _, hn, .inr hd⟩

theorem handle_cases {s s' : St} {id : Id} (h : handle s id = some s') :
    (s.find id = none ∧ s' = { s with said := s.said ++ [.unnamed id] }) ∨
    ∃ nick ws ns, s.find id = some nick ∧ walk s id nick s.wins = some (ws, ns) ∧
      s' = { s with wins := ws, said := s.said ++ ns } := by
  unfold handle at h
  split at h
  · next hf =>
    simp only [Option.some.injEq] at h
    exact .inl ⟨hf, h.symm⟩
  · next nick hf =>
    obtain ⟨⟨r1, r2⟩, hr, he⟩ := Option.map_eq_some_iff.1 h
    exact .inr ⟨nick, r1, r2, hf, hr, he.symm⟩

/-- **C106.** Everybody who is known has a name in the notices: the other contacts and the user. Only someone who is
neither is named by their identity. -/
theorem C106_named {s s' : St} {id : Id} (h : handle s id = some s') (hk : id = s.self ∨ (s.book.get id).isSome) :
    ∀ x, s'.said.count (.unnamed x) = s.said.count (.unnamed x) := by
  intro x
  rcases handle_cases h with ⟨hf, rfl⟩ | ⟨nick, ws, ns, -, hw, rfl⟩
  · exfalso
    unfold St.find at hf
    split at hf
    · cases hf
    · rename_i hn
      rcases hk with hk | hk
      · exact hn hk
      · rw [hf] at hk; cases hk
  · show (s.said ++ ns).count _ = _
    have h0 : ns.count (.unnamed x) = 0 := List.count_eq_zero.mpr fun hm => by
      obtain ⟨w, -, k, he, -⟩ := walk_notice hw _ hm
      cases he
    rw [List.count_append, h0, Nat.add_zero]

/-! ## Notices are about disabled accounts -/

theorem step_said {s s' : St} {e : Ev} (h : step s e = some s') :
    ∃ ns, s'.said = s.said ++ ns ∧ ∀ n ∈ ns, e = .ack n.who .disabled := by
  cases e with
  | ack dst a =>
    simp only [step] at h
    split at h
    · next ha =>
      subst ha
      rcases handle_cases h with ⟨-, rfl⟩ | ⟨nick, ws, ns, -, hw, rfl⟩
      · exact ⟨[.unnamed dst], rfl, by simp [Notice.who]⟩
      · refine ⟨ns, rfl, fun n hn => ?_⟩
        obtain ⟨w, -, k, rfl, -⟩ := walk_notice hw n hn
        rfl
    · simp only [Option.some.injEq] at h
      subst h
      exact ⟨[], by simp, by simp⟩
  | opened nick group party =>
    simp only [step, Option.some.injEq] at h
    subst h
    exact ⟨[], by simp, by simp⟩
  | closed i =>
    simp only [step, Option.some.injEq] at h
    subst h
    refine ⟨[], ?_, by simp⟩
    split <;> simp
  | world b g =>
    simp only [step, Option.some.injEq] at h
    subst h
    exact ⟨[], by simp, by simp⟩

theorem run_said {G : St → Ev → Prop} {s s' : St} {es : List Ev} (h : Run G s es s') :
    ∃ ns, s'.said = s.said ++ ns ∧ ∀ n ∈ ns, Ev.ack n.who .disabled ∈ es := by
  induction h with
  | nil => exact ⟨[], by simp, by simp⟩
  | cons _ hs _ ih =>
    obtain ⟨n1, h1, k1⟩ := step_said hs
    obtain ⟨n2, h2, k2⟩ := ih
    refine ⟨n1 ++ n2, by rw [h2, h1, List.append_assoc], fun n hn => ?_⟩
    rcases List.mem_append.1 hn with hn | hn
    · rw [k1 n hn]
      simp
    · exact List.mem_cons_of_mem _ (k2 n hn)

/-- **C106.** Whatever happens, the client says that an account is disabled only if the server answered that to a
message to it. -/
theorem C106_true {self : Id} {nick : Bytes} {es : List Ev} {s : St} (h : Run Free (init self nick) es s) :
    ∀ n ∈ s.said, Ev.ack n.who .disabled ∈ es := by
  obtain ⟨ns, h1, h2⟩ := run_said h
  intro n hn
  rw [h1] at hn
  exact h2 n (by simpa [init] using hn)

/-- **C106.** The server answers that only if the account is disabled, and does so for every message to an account
that is disabled when the message is to be stored, unless the account is enabled as well. -/
theorem C106_server (s0 s1 : Accounts.State) (src dst : Accounts.Id) (payload : Bytes) (n : Accounts.Name) (t : Int)
    (w : Accounts.Write) :
    ((Accounts.handleCache s0 s1 src dst payload n t w).1 = .disabled → s1.isDisabled dst = true) ∧
    (s1.isDisabled dst = true → s1.isEnabled dst = false →
      (Accounts.handleCache s0 s1 src dst payload n t w).1 = .disabled) := by
  unfold Accounts.handleCache
  constructor
  · intro h
    split at h
    · split at h
      · cases h
      · next s hw =>
        have hd : s.disabled = s1.disabled := by
          have : s = (Accounts.deliverWrite s1 dst n ⟨src, t, payload, false⟩ w).2 := by rw [hw]
          rw [this]
          unfold Accounts.deliverWrite Accounts.putFile
          repeat' split
          all_goals rfl
        split at h
        · next h1 => simpa [Accounts.State.isDisabled, hd] using h1
        · cases h
    · split at h
      · assumption
      · cases h
  · intro h1 h2
    have h0 : s1.enabled.get dst = none := by simpa [Accounts.State.isEnabled] using h2
    split
    · have : Accounts.deliverWrite s1 dst n ⟨src, t, payload, false⟩ w = (false, s1) := by
        unfold Accounts.deliverWrite
        simp [h0]
      rw [this]
      simp [h1]
    · simp [h1]

/-! ## The right windows -/

/-- **C106, part.** A notice appears in the window of a conversation with the disabled account, in that of a group
that is gone, or, as a request to kick it, in that of a group of which the user is the administrator, provided that
nicks of windows are those of the address book. -/
theorem C106_where_partial {s s' : St} {id : Id} (hn : Named s id) (h : handle s id = some s') :
    ∃ ns, s'.said = s.said ++ ns ∧ ∀ n ∈ ns, n = .unnamed id ∧ s.find id = none ∨
      ∃ w ∈ s.wins, (n = .told w.key false id ∧
        (With s id w ∨ (w.group = true ∧ s.groups.get w.nick = none))) ∨ (n = .told w.key true id ∧ Ours s w) := by
  rcases handle_cases h with ⟨hf, rfl⟩ | ⟨nick, ws, ns, hf, hw, rfl⟩
  · exact ⟨[.unnamed id], rfl, fun n hn => .inl ⟨by simpa using hn, hf⟩⟩
  · refine ⟨ns, rfl, fun n hm => .inr ?_⟩
    obtain ⟨w, hw, k, rfl, w', ns', hin, hd⟩ := walk_notice hw n hm
    refine ⟨w, hw, ?_⟩
    have key : ∀ d, does s id nick w = d → (d = .goes w' ns' ∨ d = .done w' ns') →
        (Notice.told w.key k id = .told w.key false id ∧
          (With s id w ∨ (w.group = true ∧ s.groups.get w.nick = none))) ∨
        (Notice.told w.key k id = .told w.key true id ∧ Ours s w) := by
      intro d hd
      simp only [does] at hd
      split at hd
      · next hg =>
        split at hd
        · next hg0 =>
          subst hd
          rintro (h | h) <;> simp only [Does.goes.injEq, reduceCtorEq] at h
          rw [← h.2] at hin
          exact .inl ⟨by simpa using hin, .inr ⟨hg, hg0⟩⟩
        · subst hd
          rintro (h | h) <;> cases h
        · next a ms hg0 =>
          split at hd
          · next ha =>
            subst hd
            rintro (h | h) <;> simp only [Does.goes.injEq, reduceCtorEq] at h
            rw [← h.2] at hin
            exact .inr ⟨by simpa using hin, hg, ms, by rw [← ha]; exact hg0⟩
          · split at hd
            · next hm =>
              have hW : With s id w := by
                unfold With
                rw [if_pos hg]
                exact ⟨_, hg0, hm⟩
              split at hd
              all_goals
                subst hd
                rintro (h | h) <;> simp only [Does.goes.injEq, reduceCtorEq] at h
                rw [← h.2] at hin
                first
                  | exact .inl ⟨by simpa using hin, .inl hW⟩
                  | cases hin
            · subst hd
              rintro (h | h) <;> simp only [Does.goes.injEq, reduceCtorEq] at h
              rw [← h.2] at hin
              cases hin
      · next hg =>
        have hg : w.group = false := by simpa using hg
        split at hd
        · subst hd
          rintro (h | h) <;> simp only [Does.goes.injEq, reduceCtorEq] at h
          rw [← h.2] at hin
          cases hin
        · next hk =>
          have hW : With s id w := by
            unfold With
            rw [if_neg (by simp [hg])]
            exact hn w hw hg (by rw [hf]; simpa using (not_not.1 hk).symm)
          split at hd
          · subst hd
            rintro (h | h) <;> simp only [Does.goes.injEq, reduceCtorEq] at h
            rw [← h.2] at hin
            cases hin
          · subst hd
            rintro (h | h) <;> simp only [Does.done.injEq, reduceCtorEq] at h
            rw [← h.2] at hin
            exact .inl ⟨by simpa using hin, .inl hW⟩
    exact key _ rfl hd

/-! ## At most once -/

theorem toldIn_append (k : Nat) (a b : List Notice) : toldIn k (a ++ b) = toldIn k a ++ toldIn k b := by
  simp [toldIn, List.filterMap_append]

theorem mem_toldIn {k : Nat} {ns : List Notice} {id : Id} : id ∈ toldIn k ns ↔ .told k false id ∈ ns := by
  simp only [toldIn, List.mem_filterMap]
  constructor
  · rintro ⟨n, hn, h⟩
    split at h
    · split at h
      · next hk =>
        simp only [Option.some.injEq] at h
        rw [← hk, ← h]
        exact hn
      · cases h
    · cases h
  · intro h
    exact ⟨_, h, by simp⟩

structure Inv (s : St) : Prop where
  nodup : (s.wins.map Win.key).Nodup
  below : ∀ w ∈ s.wins, w.key < s.fresh
  late : ∀ k, s.fresh ≤ k → toldIn k s.said = []
  seen : ∀ w ∈ s.wins, 0 < w.seen → toldIn w.key s.said ≠ []

structure Once (s : St) : Prop where
  once : ∀ k, (toldIn k s.said).length ≤ 1
  none : ∀ w ∈ s.wins, w.seen = 0 → toldIn w.key s.said = []

theorem inv_init (self : Id) (nick : Bytes) : Inv (init self nick) := by
  constructor <;> simp [init, toldIn]

theorem once_init (self : Id) (nick : Bytes) : Once (init self nick) := by
  constructor <;> simp [init, toldIn]

theorem turns_keys {id : Id} {ns : List Notice} {ws ws' : List Win} (h : List.Forall₂ (Turn id ns) ws ws') :
    ws'.map Win.key = ws.map Win.key := by
  induction h with
  | nil => rfl
  | cons t _ ih => simp [t.same.1, ih]

theorem turns_back {id : Id} {ns : List Notice} {ws ws' : List Win} (h : List.Forall₂ (Turn id ns) ws ws') :
    ∀ w' ∈ ws', ∃ w ∈ ws, Turn id ns w w' := by
  induction h with
  | nil => simp
  | cons t _ ih =>
    intro w' hw
    rcases List.mem_cons.1 hw with rfl | hw
    · exact ⟨_, by simp, t⟩
    · obtain ⟨w, h1, h2⟩ := ih w' hw
      exact ⟨w, List.mem_cons_of_mem _ h1, h2⟩

theorem turns_forth {id : Id} {ns : List Notice} {ws ws' : List Win} (h : List.Forall₂ (Turn id ns) ws ws') :
    ∀ w ∈ ws, ∃ w' ∈ ws', Turn id ns w w' := by
  induction h with
  | nil => simp
  | cons t _ ih =>
    intro w' hw
    rcases List.mem_cons.1 hw with rfl | hw
    · exact ⟨_, by simp, t⟩
    · obtain ⟨w, h1, h2⟩ := ih w' hw
      exact ⟨w, List.mem_cons_of_mem _ h1, h2⟩

theorem toldIn_other {s : St} {id : Id} {nick : Bytes} {ws ws' : List Win} {ns : List Notice}
    (h : walk s id nick ws = some (ws', ns)) {k : Nat} (hk : ∀ w ∈ ws, w.key ≠ k) : toldIn k ns = [] := by
  rw [List.eq_nil_iff_forall_not_mem]
  intro x hx
  rw [mem_toldIn] at hx
  obtain ⟨w, hw, k', he, -⟩ := walk_notice h _ hx
  simp only [Notice.told.injEq] at he
  exact hk w hw he.1.symm

theorem inv_handle {s s' : St} {id : Id} (hi : Inv s) (h : handle s id = some s') : Inv s' := by
  rcases handle_cases h with ⟨-, rfl⟩ | ⟨nick, ws, ns, hf, hw, rfl⟩
  · have h0 : ∀ k, toldIn k [Notice.unnamed id] = [] := fun k => rfl
    exact ⟨hi.nodup, hi.below, fun k hk => by rw [toldIn_append, hi.late k hk, h0]; rfl,
      fun w hw hs => by rw [toldIn_append, h0, List.append_nil]; exact hi.seen w hw hs⟩
  · have ht := walk_turn hw
    refine ⟨by rw [turns_keys ht]; exact hi.nodup, fun w' hw' => ?_, fun k hk => ?_, fun w' hw' hs => ?_⟩
    · obtain ⟨w, h1, t⟩ := turns_back ht w' hw'
      rw [t.same.1]
      exact hi.below w h1
    · rw [toldIn_append, hi.late k hk, toldIn_other hw]
      · rfl
      · intro w h1 h2
        have := hi.below w h1
        simp only at hk
        omega
    · obtain ⟨w, h1, t⟩ := turns_back ht w' hw'
      rw [t.same.1, toldIn_append]
      intro he
      obtain ⟨h2, h3⟩ := List.append_eq_nil_iff.1 he
      by_cases hz : w.seen = 0
      · have := mem_toldIn.2 (t.first hz hs)
        rw [h3] at this
        cases this
      · exact hi.seen w h1 (by omega) h2

theorem inv_step {s s' : St} {e : Ev} (hi : Inv s) (h : step s e = some s') : Inv s' := by
  cases e with
  | ack dst a =>
    simp only [step] at h
    split at h
    · exact inv_handle hi h
    · simp only [Option.some.injEq] at h
      exact h ▸ hi
  | opened nick group party =>
    simp only [step, Option.some.injEq] at h
    subst h
    refine ⟨?_, fun w hw => ?_, fun k hk => hi.late k (Nat.le_of_succ_le hk), fun w hw hs => ?_⟩
    · rw [List.map_append, List.nodup_append]
      refine ⟨hi.nodup, by simp, ?_⟩
      intro a ha b hb
      obtain ⟨w, h1, rfl⟩ := List.mem_map.1 ha
      have := hi.below w h1
      simp only [List.map_cons, List.map_nil, List.mem_singleton] at hb
      omega
    · rcases List.mem_append.1 hw with hw | hw
      · exact Nat.lt_succ_of_lt (hi.below w hw)
      · simp only [List.mem_singleton] at hw
        subst hw
        exact Nat.lt_succ_self _
    · rcases List.mem_append.1 hw with hw | hw
      · exact hi.seen w hw hs
      · simp only [List.mem_singleton] at hw
        subst hw
        cases hs
  | closed i =>
    simp only [step, Option.some.injEq] at h
    subst h
    split
    · exact hi
    · have hsub : List.Sublist (s.wins.eraseIdx i) s.wins := List.eraseIdx_sublist _ _
      exact ⟨hi.nodup.sublist (hsub.map _), fun w hw => hi.below w (hsub.subset hw), hi.late,
        fun w hw hs => hi.seen w (hsub.subset hw) hs⟩
  | world b g =>
    simp only [step, Option.some.injEq] at h
    subst h
    exact ⟨hi.nodup, hi.below, hi.late, hi.seen⟩

theorem inv_run {G : St → Ev → Prop} {s s' : St} {es : List Ev} (h : Run G s es s') (hi : Inv s) : Inv s' := by
  induction h with
  | nil => exact hi
  | cons _ hs _ ih => exact ih (inv_step hi hs)

/-- In the loop, a window of a group that exists is told at most once, and only if it was not told before. -/
theorem walk_once {s : St} {id : Id} {nick : Bytes} : ∀ {ws ws' : List Win} {ns : List Notice},
    walk s id nick ws = some (ws', ns) → (ws.map Win.key).Nodup →
    (∀ w ∈ ws, w.group = true → (s.groups.get w.nick).isSome) →
    List.Forall₂ (fun w w' => w'.key = w.key ∧ (toldIn w.key ns).length ≤ 1 ∧
      (toldIn w.key ns ≠ [] → w.seen = 0 ∧ 0 < w'.seen)) ws ws'
  | [], ws', ns, h => by
    simp only [walk, Option.some.injEq, Prod.mk.injEq] at h
    rw [← h.1]
    intros
    exact .nil
  | w :: ws, ws', ns, h => by
    intro hnd hk
    have hnd' := List.nodup_cons.1 hnd
    have hot : ∀ v ∈ ws, v.key ≠ w.key := fun v hv he => hnd'.1 (List.mem_map.2 ⟨v, hv, he⟩)
    have one : ∀ {w1 n1}, does s id nick w = .goes w1 n1 ∨ does s id nick w = .done w1 n1 →
        w1.key = w.key ∧ (toldIn w.key n1).length ≤ 1 ∧ (toldIn w.key n1 ≠ [] → w.seen = 0 ∧ 0 < w1.seen) := by
      intro w1 n1 hd
      have key : ∀ d, does s id nick w = d → (d = .goes w1 n1 ∨ d = .done w1 n1) →
          w1.key = w.key ∧ (toldIn w.key n1).length ≤ 1 ∧ (toldIn w.key n1 ≠ [] → w.seen = 0 ∧ 0 < w1.seen) := by
        intro d hd
        simp only [does] at hd
        repeat' split at hd
        all_goals
          subst hd
          intro h
          rcases h with h | h <;> simp only [Does.goes.injEq, Does.done.injEq, reduceCtorEq] at h
          try obtain ⟨rfl, rfl⟩ := h
        · next hg _ hn =>
          have := hk w (by simp) hg
          rw [hn] at this
          cases this
        · exact ⟨rfl, by simp [toldIn], fun h => absurd rfl h⟩
        · exact ⟨rfl, by simp [toldIn], fun h => absurd rfl h⟩
        · exact ⟨rfl, by simp [toldIn], fun _ => ⟨by omega, by simp⟩⟩
        · exact ⟨rfl, by simp [toldIn], fun h => absurd rfl h⟩
        · exact ⟨rfl, by simp [toldIn], fun h => absurd rfl h⟩
        · exact ⟨rfl, by simp [toldIn], fun h => absurd rfl h⟩
        · exact ⟨rfl, by simp [toldIn], fun _ => ⟨by omega, by simp⟩⟩
      exact key _ rfl hd
    have oth : ∀ {w1 n1}, does s id nick w = .goes w1 n1 ∨ does s id nick w = .done w1 n1 → ∀ v ∈ ws,
        toldIn v.key n1 = [] := by
      intro w1 n1 hd v hv
      rcases (does_goes hd).2 with ⟨rfl, -⟩ | ⟨k, rfl, -⟩
      · rfl
      · have hne := (hot v hv).symm
        cases k <;> simp [toldIn, hne]
    rw [walk_cons] at h
    split at h
    · cases h
    · next w1 n1 hd =>
      obtain ⟨⟨r1, r2⟩, hr, he⟩ := Option.map_eq_some_iff.1 h
      simp only [Prod.mk.injEq] at he
      obtain ⟨rfl, rfl⟩ := he
      have ih := walk_once hr hnd'.2 fun v hv => hk v (List.mem_cons_of_mem _ hv)
      have h0 : toldIn w.key r2 = [] := toldIn_other hr hot
      refine .cons ?_ ?_
      · rw [toldIn_append, h0, List.append_nil]
        exact one (.inl hd)
      · have key : ∀ {vs vs' : List Win}, List.Forall₂ (fun w w' => w'.key = w.key ∧ (toldIn w.key r2).length ≤ 1 ∧
            (toldIn w.key r2 ≠ [] → w.seen = 0 ∧ 0 < w'.seen)) vs vs' → vs ⊆ ws →
            List.Forall₂ (fun w w' => w'.key = w.key ∧ (toldIn w.key (n1 ++ r2)).length ≤ 1 ∧
            (toldIn w.key (n1 ++ r2) ≠ [] → w.seen = 0 ∧ 0 < w'.seen)) vs vs' := by
          intro vs vs' hf
          induction hf with
          | nil => intros; exact .nil
          | @cons a b l1 l2 hh _ ihh =>
            intro hsub
            refine .cons ?_ (ihh fun x hx => hsub (List.mem_cons_of_mem _ hx))
            rw [toldIn_append, oth (.inl hd) a (hsub (by simp)), List.nil_append]
            exact hh
        exact key ih (fun _ h => h)
    · next w1 n1 hd =>
      simp only [Option.some.injEq, Prod.mk.injEq] at h
      obtain ⟨rfl, rfl⟩ := h
      refine .cons (one (.inr hd)) (List.forall₂_same.2 fun v hv => ⟨rfl, ?_⟩)
      rw [oth (.inr hd) v hv]
      exact ⟨by simp, fun h => absurd rfl h⟩

theorem once_step {s s' : St} {e : Ev} (hi : Inv s) (ho : Once s) (hg : Kept s e) (h : step s e = some s') :
    Once s' := by
  cases e with
  | ack dst a =>
    simp only [step] at h
    split at h
    · rcases handle_cases h with ⟨-, rfl⟩ | ⟨nick, ws, ns, hf, hw, rfl⟩
      · have h0 : ∀ k, toldIn k [Notice.unnamed dst] = [] := fun k => rfl
        exact ⟨fun k => by rw [toldIn_append, h0, List.append_nil]; exact ho.once k,
          fun w hw hs => by rw [toldIn_append, h0, List.append_nil]; exact ho.none w hw hs⟩
      · have hf2 := walk_once hw hi.nodup hg
        have back : ∀ w' ∈ ws, ∃ w ∈ s.wins, Turn dst ns w w' ∧ (toldIn w.key ns).length ≤ 1 ∧
            (toldIn w.key ns ≠ [] → w.seen = 0 ∧ 0 < w'.seen) := by
          have ht := walk_turn hw
          clear hw hg h
          revert ht hf2
          generalize s.wins = vs
          intro hf2
          induction hf2 with
          | nil => simp
          | @cons a b l1 l2 hh _ ihh =>
            intro ht
            cases ht with
            | cons t ht =>
              intro w' hw'
              rcases List.mem_cons.1 hw' with rfl | hw'
              · exact ⟨a, by simp, t, hh.2⟩
              · obtain ⟨w, h1, h2⟩ := ihh ht w' hw'
                exact ⟨w, List.mem_cons_of_mem _ h1, h2⟩
        constructor
        · intro k
          rw [toldIn_append]
          by_cases hk : ∃ w ∈ s.wins, w.key = k
          · obtain ⟨w, hw1, rfl⟩ := hk
            obtain ⟨w', hw', t0⟩ := turns_forth (walk_turn hw) w hw1
            obtain ⟨w2, hw2, t, h1, h2⟩ := back w' hw'
            have hk2 : w2.key = w.key := by rw [← t.same.1, t0.same.1]
            have : w2 = w := List.inj_on_of_nodup_map hi.nodup hw2 hw1 hk2
            subst this
            by_cases hz : toldIn w2.key ns = []
            · rw [hz, List.append_nil]
              exact ho.once _
            · rw [ho.none w2 hw2 (h2 hz).1, List.nil_append]
              exact h1
          · rw [toldIn_other hw fun w h1 h2 => hk ⟨w, h1, h2⟩, List.append_nil]
            exact ho.once k
        · intro w' hw' hs
          obtain ⟨w, hw1, t, h1, h2⟩ := back w' hw'
          have hz : w.seen = 0 := by
            have := t.up
            omega
          rw [t.same.1, toldIn_append, ho.none w hw1 hz, List.nil_append]
          by_contra hne
          have := (h2 hne).2
          omega
    · simp only [Option.some.injEq] at h
      exact h ▸ ho
  | opened nick group party =>
    simp only [step, Option.some.injEq] at h
    subst h
    refine ⟨ho.once, fun w hw hs => ?_⟩
    rcases List.mem_append.1 hw with hw | hw
    · exact ho.none w hw hs
    · simp only [List.mem_singleton] at hw
      subst hw
      exact hi.late _ (Nat.le_refl _)
  | closed i =>
    simp only [step, Option.some.injEq] at h
    subst h
    split
    · exact ho
    · have hsub : List.Sublist (s.wins.eraseIdx i) s.wins := List.eraseIdx_sublist _ _
      exact ⟨ho.once, fun w hw hs => ho.none w (hsub.subset hw) hs⟩
  | world b g =>
    simp only [step, Option.some.injEq] at h
    subst h
    exact ⟨ho.once, ho.none⟩

theorem once_run {s s' : St} {es : List Ev} (h : Run Kept s es s') (hi : Inv s) (ho : Once s) : Once s' := by
  induction h with
  | nil => exact ho
  | cons hg hs _ ih => exact ih (inv_step hi hs) (once_step hi ho hg hs)

/-- **C106, part.** As long as no window is of a group that is gone, no window is told more than once. -/
theorem C106_once_partial {self : Id} {nick : Bytes} {es : List Ev} {s : St} (h : Run Kept (init self nick) es s)
    (key : Nat) : (toldIn key s.said).length ≤ 1 :=
  (once_run h (inv_init _ _) (once_init _ _)).once key

/-! ## Everybody is told -/

theorem step_ack (s : St) (id : Id) : step s (.ack id .disabled) = handle s id := by simp [step]

/-- The windows that `handleDisabledUser` finds. -/
def Found (s : St) (id : Id) (w : Win) : Prop :=
  if w.group then ∃ a ms, s.groups.get w.nick = some (a :: ms) ∧ a ≠ s.self ∧ id ∈ a :: ms
  else s.find id = some w.nick

theorem walk_all {s : St} {id : Id} {nick : Bytes} (hf : s.find id = some nick) :
    ∀ {ws ws' : List Win} {ns : List Notice}, walk s id nick ws = some (ws', ns) →
    (∀ w ∈ ws, w.group = false → w.nick = nick → 0 < w.seen) → ∀ w ∈ ws,
      (Found s id w → 0 < w.seen ∨ .told w.key false id ∈ ns) ∧ (Ours s w → .told w.key true id ∈ ns)
  | [], ws', ns, h => by simp
  | w :: ws, ws', ns, h => by
    intro hp
    rw [walk_cons] at h
    split at h
    · cases h
    · next w1 n1 hd =>
      obtain ⟨⟨r1, r2⟩, hr, he⟩ := Option.map_eq_some_iff.1 h
      simp only [Prod.mk.injEq] at he
      obtain ⟨rfl, rfl⟩ := he
      intro v hv
      rcases List.mem_cons.1 hv with rfl | hv
      · constructor
        · intro hF
          unfold Found at hF
          split at hF
          · next hg =>
            obtain ⟨a, ms, h1, h2, h3⟩ := hF
            by_cases hs : v.seen > 0
            · exact .inl hs
            · right
              simp only [does, if_pos hg, h1, if_neg h2, if_pos h3, if_neg hs, Does.goes.injEq] at hd
              rw [← hd.2]
              simp
          · next hg =>
            exact .inl (hp v (by simp) (by simpa using hg) (by rw [hf] at hF; simpa using hF.symm))
        · rintro ⟨hg, ms, h1⟩
          simp only [does, if_pos hg, h1, if_true, Does.goes.injEq] at hd
          rw [← hd.2]
          simp
      · have := walk_all hf hr (fun w hw => hp w (List.mem_cons_of_mem _ hw)) v hv
        exact ⟨fun h => (this.1 h).imp_right fun h => List.mem_append_right _ h,
          fun h => List.mem_append_right _ (this.2 h)⟩
    · next w1 n1 hd =>
      exfalso
      have key : ∀ d, does s id nick w = d → d = .done w1 n1 → False := by
        intro d hd
        simp only [does] at hd
        repeat' split at hd
        all_goals
          subst hd
          intro h
          simp only [Does.done.injEq, reduceCtorEq] at h
        next hg hk hs => exact hs (hp w (by simp) (by simpa using hg) (by simpa using hk))
      exact key _ rfl hd

/-- Windows the loop waits for. -/
def pend (nick : Bytes) (ws : List Win) : Nat :=
  (ws.filter fun w => !w.group && decide (w.nick = nick) && decide (w.seen = 0)).length

theorem walk_pend {s : St} {id : Id} {nick : Bytes} :
    ∀ {ws ws' : List Win} {ns : List Notice}, walk s id nick ws = some (ws', ns) → pend nick ws' = pend nick ws - 1
  | [], ws', ns, h => by
    simp only [walk, Option.some.injEq, Prod.mk.injEq] at h
    rw [← h.1]
    rfl
  | w :: ws, ws', ns, h => by
    rw [walk_cons] at h
    split at h
    · cases h
    · next w1 n1 hd =>
      obtain ⟨⟨r1, r2⟩, hr, he⟩ := Option.map_eq_some_iff.1 h
      simp only [Prod.mk.injEq] at he
      obtain ⟨rfl, rfl⟩ := he
      have ih := walk_pend hr
      have key : ∀ d, does s id nick w = d → d = .goes w1 n1 →
          (!w.group && decide (w.nick = nick) && decide (w.seen = 0)) = false ∧
          (!w1.group && decide (w1.nick = nick) && decide (w1.seen = 0)) = false := by
        intro d hd
        simp only [does] at hd
        repeat' split at hd
        all_goals
          subst hd
          intro h
          simp only [Does.goes.injEq, reduceCtorEq] at h
          try obtain ⟨rfl, rfl⟩ := h
        all_goals simp_all
        all_goals omega
      obtain ⟨k1, k2⟩ := key _ rfl hd
      unfold pend at ih ⊢
      rw [List.filter_cons, List.filter_cons, k1, k2]
      simpa using ih
    · next w1 n1 hd =>
      simp only [Option.some.injEq, Prod.mk.injEq] at h
      obtain ⟨rfl, rfl⟩ := h
      have key : ∀ d, does s id nick w = d → d = .done w1 n1 →
          (!w.group && decide (w.nick = nick) && decide (w.seen = 0)) = true ∧
          (!w1.group && decide (w1.nick = nick) && decide (w1.seen = 0)) = false := by
        intro d hd
        simp only [does] at hd
        repeat' split at hd
        all_goals
          subst hd
          intro h
          simp only [Does.done.injEq, reduceCtorEq] at h
          try obtain ⟨rfl, rfl⟩ := h
        all_goals simp_all
      obtain ⟨k1, k2⟩ := key _ rfl hd
      unfold pend
      rw [List.filter_cons, List.filter_cons, k1, k2]
      simp

theorem waiting_pend {s : St} {id : Id} {nick : Bytes} (hf : s.find id = some nick) :
    waiting s id = pend nick s.wins := by
  unfold waiting pend
  congr 2
  funext w
  rw [hf]
  congr 2
  simp [eq_comm]

theorem pend_zero {nick : Bytes} {ws : List Win} (h : pend nick ws = 0) :
    ∀ w ∈ ws, w.group = false → w.nick = nick → 0 < w.seen := by
  intro w hw h1 h2
  have := List.length_eq_zero_iff.1 h
  rw [List.filter_eq_nil_iff] at this
  have := this w hw
  simp [h1, h2] at this
  omega

theorem again_said {id : Id} : ∀ {n : Nat} {s s' : St}, again id n s = some s' → s.said ⊆ s'.said
  | 0, s, s', h => by
    simp only [again, Option.some.injEq] at h
    exact h ▸ fun _ h => h
  | n + 1, s, s', h => by
    simp only [again] at h
    obtain ⟨s1, h1, h2⟩ := Option.bind_eq_some_iff.1 h
    obtain ⟨ns, hs, -⟩ := step_said h1
    intro x hx
    exact again_said h2 (by rw [hs]; simp [hx])

theorem again_told {id : Id} : ∀ {n : Nat} {s s' : St}, Inv s → waiting s id < n → again id n s = some s' →
    (s.find id).isSome → ∀ w ∈ s.wins, (Found s id w → toldIn w.key s'.said ≠ []) ∧
      (Ours s w → .told w.key true id ∈ s'.said)
  | 0, s, s', _, hn, _ => by omega
  | n + 1, s, s', hi, hn, h => by
    intro hf w hw
    obtain ⟨nick, hf⟩ := Option.isSome_iff_exists.1 hf
    have h' := h
    simp only [again] at h
    obtain ⟨s1, h1, h2⟩ := Option.bind_eq_some_iff.1 h
    rw [step_ack] at h1
    have hi1 := inv_handle hi h1
    rcases handle_cases h1 with ⟨hc, -⟩ | ⟨nick', ws, ns, hc, hwk, rfl⟩
    · rw [hf] at hc
      cases hc
    · have : nick' = nick := by
        rw [hf] at hc
        exact (Option.some.inj hc).symm
      subst this
      rw [waiting_pend hf] at hn
      by_cases hz : pend nick' s.wins = 0
      · have := walk_all hf hwk (pend_zero hz) w hw
        constructor
        · intro hF
          rcases this.1 hF with hs | ht
          · have h3 := hi.seen w hw hs
            obtain ⟨x, hx⟩ := List.exists_mem_of_ne_nil _ h3
            rw [mem_toldIn] at hx
            exact List.ne_nil_of_mem (mem_toldIn.2 (again_said h' hx))
          · exact List.ne_nil_of_mem (mem_toldIn.2 (again_said h2 (List.mem_append_right _ ht)))
        · intro hO
          exact again_said h2 (by simp [this.2 hO])
      · have hp := walk_pend hwk
        obtain ⟨w', hw', t⟩ := turns_forth (walk_turn hwk) w hw
        have hf1 : St.find { s with wins := ws, said := s.said ++ ns } id = some nick' := hf
        have := again_told hi1 (by rw [waiting_pend hf1]; simp only; omega) h2 (by rw [hf1]; rfl) w' hw'
        obtain ⟨k1, k2, k3, k4⟩ := t.same
        constructor
        · intro hF
          rw [← k1]
          apply this.1
          unfold Found at hF ⊢
          rw [k3, k2]
          exact hF
        · rintro ⟨hg, ms, hO⟩
          rw [← k1]
          exact this.2 ⟨by rw [k3]; exact hg, ms, by rw [k2]; exact hO⟩

/-- **C106, part.** When one message more has failed than there are private windows with the nick of the recipient
that were not told yet, every window with that nick and every window of a group with the recipient has been told of
somebody, and in every window of a group of the user's they were asked to kick the recipient. -/
theorem C106_told_partial {self : Id} {nick : Bytes} {es : List Ev} {s s' : St} {id : Id} {n : Nat}
    (h : Run Free (init self nick) es s) (hf : (s.find id).isSome) (hn : waiting s id < n)
    (ha : again id n s = some s') :
    ∀ w ∈ s.wins, (w.group = false → s.find id = some w.nick → toldIn w.key s'.said ≠ []) ∧
      (w.group = true → With s id w → ¬ Ours s w → toldIn w.key s'.said ≠ []) ∧
      (Ours s w → .told w.key true id ∈ s'.said) := by
  intro w hw
  obtain ⟨h1, h2⟩ := again_told (inv_run h (inv_init _ _)) hn ha hf w hw
  refine ⟨fun hg hk => h1 ?_, fun hg hW hO => h1 ?_, h2⟩
  · simp [Found, hg, hk]
  · unfold With at hW
    rw [if_pos hg] at hW
    obtain ⟨ms, k1, k2⟩ := hW
    cases ms with
    | nil => cases k2
    | cons a ms =>
      unfold Found
      rw [if_pos hg]
      refine ⟨a, ms, k1, fun ha => hO ⟨hg, ms, by rw [k1, ha]⟩, k2⟩

/-- **C106, part.** If only messages to `id` ever failed, what is told is about `id`, so that every window is told of
`id`. -/
theorem C106_alone_partial {self : Id} {nick : Bytes} {es : List Ev} {s s' : St} {id : Id} {n : Nat}
    (h : Run Free (init self nick) es s) (ho : ∀ x, Ev.ack x .disabled ∈ es → x = id) (hf : (s.find id).isSome)
    (hn : waiting s id < n) (ha : again id n s = some s') :
    ∀ w ∈ s.wins, w.group = false ∧ s.find id = some w.nick ∨ w.group = true ∧ With s id w ∧ ¬ Ours s w →
      .told w.key false id ∈ s'.said := by
  intro w hw hc
  have hne : toldIn w.key s'.said ≠ [] := by
    obtain ⟨h1, h2, -⟩ := C106_told_partial h hf hn ha w hw
    rcases hc with ⟨a, b⟩ | ⟨a, b, c⟩
    · exact h1 a b
    · exact h2 a b c
  obtain ⟨x, hx⟩ := List.exists_mem_of_ne_nil _ hne
  rw [mem_toldIn] at hx
  have all : ∀ {m : Nat} {t t' : St}, again id m t = some t' → (∀ k ∈ t.said, k.who = id) → ∀ k ∈ t'.said, k.who = id := by
    intro m
    induction m with
    | zero =>
      intro t t' h
      simp only [again, Option.some.injEq] at h
      subst h
      exact fun h => h
    | succ m ih =>
      intro t t' h ht
      simp only [again] at h
      obtain ⟨t1, h1, h2⟩ := Option.bind_eq_some_iff.1 h
      refine ih h2 fun k hk => ?_
      obtain ⟨ns, hs, hh⟩ := step_said h1
      rw [hs] at hk
      rcases List.mem_append.1 hk with hk | hk
      · exact ht k hk
      · have := hh k hk
        simp only [Ev.ack.injEq] at this
        exact this.1.symm
  have := all ha (fun k hk => ho _ (C106_true h k hk)) _ hx
  simp only [Notice.who] at this
  exact this ▸ hx

/-- **C106, part.** The client does not end of it, as long as no group is without members. -/
theorem C106_safe_partial {s : St} (hg : ∀ name, s.groups.get name ≠ some []) (id : Id) : (handle s id).isSome := by
  have key : ∀ nick ws, (walk s id nick ws).isSome := by
    intro nick ws
    induction ws with
    | nil => rfl
    | cons w ws ih =>
      rw [walk_cons]
      split
      · next hd =>
        exfalso
        have key : ∀ d, does s id nick w = d → d = .dies → False := by
          intro d hd
          simp only [does] at hd
          repeat' split at hd
          all_goals
            subst hd
            intro h
            try simp only [reduceCtorEq] at h
          next hn => exact hg _ hn
        exact key _ rfl hd
      · simpa using ih
      · rfl
  unfold handle
  split
  · rfl
  · simpa using key _ _

/-! ## Where the code departs from this -/

/-- Runs a list of events. -/
def exec : St → List Ev → Option St
  | s, [] => some s
  | s, e :: es => (step s e).bind fun s' => exec s' es

theorem run_exec {s s' : St} {es : List Ev} (h : exec s es = some s') : Run Free s es s' := by
  induction es generalizing s with
  | nil =>
    simp only [exec, Option.some.injEq] at h
    exact h ▸ .nil _
  | cons e es ih =>
    simp only [exec] at h
    obtain ⟨s1, h1, h2⟩ := Option.bind_eq_some_iff.1 h
    exact .cons trivial h1 (ih h2)

/-- "al", "bo", "x", "y" -/
def al : Bytes := [97, 108]
def bo : Bytes := [98, 111]
def gx : Bytes := [120]
def gy : Bytes := [121]

/-- **C106 is violated**: when the private window comes first, the window of a group with the account is not told of
the first message that fails. -/
theorem C106_first_violated : ∃ es s, Run Free (init 1 [109]) es s ∧ ∃ s' w, handle s 2 = some s' ∧ Named s 2 ∧
    w ∈ s.wins ∧ w.group = true ∧ With s 2 w ∧ ¬ Ours s w ∧ toldIn w.key s'.said = [] := by
  let es : List Ev := [.world [(2, al)] [(gx, [3, 2, 1])], .opened al false (some 2), .opened gx true none]
  refine ⟨es, _, run_exec (s' := ((exec (init 1 [109]) es).getD (init 1 [109]))) rfl, _,
    ⟨2, gx, true, none, 0⟩, rfl, ?_, by decide, rfl, ⟨[3, 2, 1], rfl, by decide⟩, ?_, by decide⟩
  · unfold Named
    decide
  · rintro ⟨-, ms, h⟩
    simp [es, exec, step, init, GoMap.get] at h

/-- **C106 is violated**: a window that was told of one member of a group is never told of another one, whatever
happens. -/
theorem C106_second_violated : ∃ es s, Run Kept (init 1 [109]) es s ∧ ∃ w ∈ s.wins, With s 3 w ∧ ¬ Ours s w ∧
    ∀ es' s', Run Kept s es' s' → .told w.key false 3 ∉ s'.said := by
  let es : List Ev := [.world [(2, al), (3, bo)] [(gx, [4, 2, 3, 1])], .opened gx true none, .ack 2 .disabled]
  have hr : Run Kept (init 1 [109]) es ((exec (init 1 [109]) es).getD (init 1 [109])) := by
    refine .cons trivial rfl (.cons trivial rfl (.cons ?_ rfl (.nil _)))
    show ∀ w ∈ _, _
    decide
  refine ⟨es, _, hr, ⟨1, gx, true, none, 1⟩, by decide, ⟨[4, 2, 3, 1], rfl, by decide⟩, ?_, fun es' s' h' => ?_⟩
  · rintro ⟨-, ms, h⟩
    have h3 : some (1 :: ms) = some [4, 2, 3, 1] := h.symm
    simp at h3
  · have hi := inv_run hr (inv_init _ _)
    have ho := once_run hr (inv_init _ _) (once_init _ _)
    have h1 := (once_run h' hi ho).once 1
    obtain ⟨ns, hns, -⟩ := run_said h'
    rw [hns, toldIn_append] at h1
    have h2 : toldIn 1 ((exec (init 1 [109]) es).getD (init 1 [109])).said = [2] := by decide
    rw [h2, List.length_append] at h1
    have h3 : toldIn 1 ns = [] := List.length_eq_zero_iff.1 (by simp only [List.length_singleton] at h1; omega)
    intro h4
    have := mem_toldIn.2 h4
    rw [hns, toldIn_append, h2, h3] at this
    simp at this

/-- **C106 is violated**: of an account that was enabled and disabled again the user is not told. -/
theorem C106_enabled_violated : ∃ s s', Run Free (init 1 [109])
      [.world [(2, al)] [], .opened al false (some 2), .ack 2 .disabled] s ∧
    Run Free s [.ack 2 .good, .ack 2 .disabled, .ack 2 .disabled] s' ∧ s'.said = s.said ∧ With s 2 ⟨1, al, false, some 2, 1⟩ ∧
    ⟨1, al, false, some 2, 1⟩ ∈ s.wins :=
  ⟨_, _, run_exec rfl, run_exec rfl, rfl, rfl, by decide⟩

/-- **C106 is violated**: an administrator is asked to kick somebody who is not in the group. -/
theorem C106_where_violated : ∃ es s, Run Free (init 1 [109]) es s ∧ ∃ s' w, handle s 2 = some s' ∧ Named s 2 ∧
    w ∈ s.wins ∧ ¬ With s 2 w ∧ .told w.key true 2 ∈ s'.said := by
  let es : List Ev := [.world [(2, al)] [(gx, [1, 3])], .opened gx true none]
  refine ⟨es, _, run_exec (s' := ((exec (init 1 [109]) es).getD (init 1 [109]))) rfl, _,
    ⟨1, gx, true, none, 0⟩, rfl, ?_, by decide, ?_, by decide⟩
  · unfold Named
    decide
  · rintro ⟨ms, h1, h2⟩
    have : ms = [1, 3] := by
      have h3 : some ms = some [1, 3] := by rw [← h1]; rfl
      exact Option.some.inj h3
    subst this
    revert h2
    decide

/-- **C106 is violated**: two contacts go by the same nick, and the address book has renamed the second one. The
window of the second is told that the first was disabled, and is never told when it is the second. -/
theorem C106_namesake_violated : ∃ es s, Run Free (init 1 [109]) es s ∧ ∃ w ∈ s.wins, w.group = false ∧
    w.party = some 3 ∧ (∃ s', handle s 2 = some s' ∧ .told w.key false 2 ∈ s'.said) ∧
    (∃ s', handle s 3 = some s' ∧ s'.said = s.said ∧ s'.wins = s.wins) := by
  let es : List Ev := [.world [(2, al), (3, al ++ [95, 50])] [], .opened al false (some 3)]
  exact ⟨es, _, run_exec (s' := ((exec (init 1 [109]) es).getD (init 1 [109]))) rfl, ⟨1, al, false, some 3, 0⟩,
    by decide, rfl, rfl, ⟨_, rfl, by decide⟩, ⟨_, rfl, rfl, rfl⟩⟩

/-- **C106 is violated**: the window of a group that is gone is told every time, of anybody. -/
theorem C106_gone_violated (n : Nat) : ∃ s s', Run Free (init 1 [109])
      [.world [(2, al)] [(gx, [3, 1])], .opened gx true none, .world [(2, al)] []] s ∧ again 2 n s = some s' ∧
    toldIn 1 s'.said = List.replicate n 2 := by
  suffices h : ∀ (n : Nat) (ns : List Notice), ∃ s',
      again 2 n ⟨1, [109], [(2, al)], [], [⟨0, consoleText, false, some 1, 0⟩, ⟨1, gx, true, none, 0⟩], 2, ns⟩ = some s' ∧
      toldIn 1 s'.said = toldIn 1 ns ++ List.replicate n 2 by
    obtain ⟨s', h1, h2⟩ := h n []
    exact ⟨_, s', run_exec rfl, h1, by simpa [toldIn] using h2⟩
  intro n
  induction n with
  | zero => exact fun ns => ⟨_, rfl, by simp⟩
  | succ n ih =>
    intro ns
    obtain ⟨s', h1, h2⟩ := ih (ns ++ [.told 1 false 2])
    refine ⟨s', h1, ?_⟩
    rw [h2, toldIn_append, List.append_assoc, List.replicate_succ]
    rfl

/-- **C106 is violated**: the administrator of a group sends a list without members, and the client of a member ends
when a message of that member, to anybody, fails in this way. -/
theorem C106_crash_violated : ∃ (gs gs' : Groups.State),
    Groups.step id gs (.recv 3 (.list ⟨gx, 2, []⟩) Fault.none) = .ok gs' ∧
    gs.groups.get gx = some ⟨gx, 1, [3, 1]⟩ ∧
    ∃ s, Run Free (init 1 [109]) [.world [(2, al)] (gs'.groups.map fun p => (p.1, p.2.members)), .opened gx true none] s ∧
      step s (.ack 2 .disabled) = none :=
  ⟨⟨1, [109], [(gx, ⟨gx, 1, [3, 1]⟩)], [], [], [2, 3], 0, [], [], [], [], []⟩, _, rfl, rfl, _, run_exec rfl, rfl⟩

/-! ## Examples -/

/-- The private window, the window of a group with the account, and the window of a group of the user's, opened in
this order: the second failure tells all of them. -/
example : (exec (init 1 [109]) [.world [(2, al)] [(gx, [3, 2, 1]), (gy, [1, 2])], .opened al false (some 2),
    .opened gx true none, .opened gy true none, .ack 2 .disabled, .ack 2 .disabled]).map (·.said) =
    some [.told 1 false 2, .told 2 false 2, .told 3 true 2] := by decide

/-- The account is not in the address book. -/
example : (exec (init 1 [109]) [.ack 2 .disabled, .ack 3 .internal]).map (·.said) = some [.unnamed 2] := by decide

end Verif.Disabled
