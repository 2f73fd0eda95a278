import Verif.Model.AddressBook
import Verif.Proofs.GoMap
import Mathlib.Tactic.Common
import Mathlib.Data.List.Nodup
import Mathlib.Data.List.Perm.Subperm

/-! C43: the address book. Model: Verif.Model.AddressBook
(/repo/zkclient/addressbook/addressbook.go). -/

namespace Verif.AddressBook

open Verif

/-- `n` underscores. -/
def us (n : Nat) : Bytes := List.replicate n 95

/-- The loop stops at the first nick, in the sequence nick, nick_, nick__, ..., that is free or
already belongs to the same identity. -/
theorem addLoop_spec (b : Book) (fuel : Nat) : ∀ (id : PubId) (dup : Bool) (r : PubId × Bool),
    addLoop b id dup fuel = some r →
    ∃ j, r.1 = { id with nick := id.nick ++ us j } ∧ r.2 = (dup || decide (0 < j)) ∧
      (∀ v, b.get (id.nick ++ us j) = some v → v.identity = id.identity) ∧
      ∀ i < j, ∃ v, b.get (id.nick ++ us i) = some v ∧ v.identity ≠ id.identity := by
  induction fuel with
  | zero => intro id dup r h; simp [addLoop] at h
  | succ fuel ih =>
    intro id dup r h
    rw [addLoop] at h
    rcases hg : b.get id.nick with _ | i
    · rw [hg] at h
      simp only [Option.some.injEq] at h
      subst h
      refine ⟨0, by simp [us], by simp, by simp [us, hg], by intro i hi; omega⟩
    · rw [hg] at h
      simp only [] at h
      by_cases he : id.identity = i.identity
      · rw [if_pos he] at h
        simp only [Option.some.injEq] at h
        subst h
        refine ⟨0, by simp [us], by simp, ?_, by intro i hi; omega⟩
        intro v hv
        simp only [us, List.replicate_zero, List.append_nil, hg, Option.some.injEq] at hv
        rw [← hv, he]
      · rw [if_neg he] at h
        obtain ⟨j, h1, h2, h3, h4⟩ := ih _ _ _ h
        have hsh : ∀ n, id.nick ++ [95] ++ us n = id.nick ++ us (n + 1) := by
          intro n; simp [us, List.replicate_succ]
        simp only [hsh] at h1 h3 h4
        refine ⟨j + 1, h1, by simp [h2], h3, ?_⟩
        intro k hk
        cases k with
        | zero => exact ⟨i, by simpa [us] using hg, fun e => he e.symm⟩
        | succ k => exact h4 k (by omega)

theorem addLoop_none (b : Book) (fuel : Nat) : ∀ (id : PubId) (dup : Bool),
    addLoop b id dup fuel = none → ∀ i < fuel, id.nick ++ us i ∈ GoMap.keys b := by
  induction fuel with
  | zero => intro id dup _ i hi; omega
  | succ fuel ih =>
    intro id dup h i hi
    rw [addLoop] at h
    rcases hg : b.get id.nick with _ | v
    · rw [hg] at h; simp at h
    · rw [hg] at h
      simp only [] at h
      split at h
      · simp at h
      · cases i with
        | zero =>
          rw [GoMap.mem_keys_iff]
          simp [us, hg]
        | succ i =>
          have := ih _ _ h i (by omega)
          have hsh : id.nick ++ [95] ++ us i = id.nick ++ us (i + 1) := by
            simp [us, List.replicate_succ]
          simpa only [hsh] using this

/-- `Add` always returns. -/
theorem C43_add_terminates (b : Book) (id : PubId) : ∃ r b', add b id = some (r, b') := by
  rcases h : addLoop b id false (b.length + 1) with _ | r
  · exfalso
    have hk := addLoop_none b _ id false h
    have hinj : Function.Injective fun i => id.nick ++ us i := by
      intro x y hxy
      have := congrArg List.length hxy
      simpa [us] using this
    have hnd : ((List.range (b.length + 1)).map fun i => id.nick ++ us i).Nodup :=
      List.Nodup.map hinj List.nodup_range
    have hsub : ((List.range (b.length + 1)).map fun i => id.nick ++ us i) ⊆ GoMap.keys b := by
      intro x hx
      obtain ⟨i, hi, rfl⟩ := List.mem_map.mp hx
      exact hk i (by simpa using hi)
    have := (List.subperm_of_subset hnd hsub).length_le
    simp [GoMap.keys] at this
    exact absurd this (Nat.not_succ_le_self _)
  · exact ⟨(r.1.nick, r.2), GoMap.set b r.1.nick r.1, by simp [add, h]⟩

/-- What `Add` does, for any book: the identity is stored under the returned nick, with that nick;
the nick is the wanted one with the least number of underscores that avoids other identities; the
error says whether it was changed; every other entry is untouched; and an entry that was replaced
belonged to the same identity. -/
theorem C43_add (b : Book) (id : PubId) (nick : Bytes) (changed : Bool) (b' : Book)
    (h : add b id = some ((nick, changed), b')) :
    findNick b' nick = some { id with nick := nick } ∧
    (∀ k, k ≠ nick → findNick b' k = findNick b k) ∧
    (∀ v, findNick b nick = some v → v.identity = id.identity) ∧
    (changed = false ↔ nick = id.nick) ∧
    ∃ j, nick = id.nick ++ us j ∧
      ∀ i < j, ∃ v, findNick b (id.nick ++ us i) = some v ∧ v.identity ≠ id.identity := by
  rcases hl : addLoop b id false (b.length + 1) with _ | r
  · simp [add, hl] at h
  · simp only [add, hl, Option.map_some, Option.some.injEq, Prod.mk.injEq] at h
    obtain ⟨⟨rfl, rfl⟩, rfl⟩ := h
    obtain ⟨j, h1, h2, h3, h4⟩ := addLoop_spec b _ id false r hl
    refine ⟨?_, ?_, ?_, ?_, j, by rw [h1], h4⟩
    · simp only [findNick, GoMap.get_set_self]
      rw [h1]
    · intro k hk
      exact GoMap.get_set_ne b _ (Ne.symm hk)
    · intro v hv
      apply h3
      rw [h1] at hv
      exact hv
    · rw [h2, h1]
      cases j with
      | zero => simp [us]
      | succ j => simp [us]

theorem findIdentity_some {id : Bytes} {order : List (Bytes × PubId)} {v : PubId}
    (h : findIdentity id order = some v) : v.identity = id ∧ ∃ k, (k, v) ∈ order := by
  induction order with
  | nil => simp [findIdentity] at h
  | cons a order ih =>
    obtain ⟨k, w⟩ := a
    rw [findIdentity] at h
    split at h
    · rename_i hw
      simp only [Option.some.injEq] at h
      subst h
      exact ⟨hw, k, List.mem_cons_self⟩
    · obtain ⟨h1, k', h2⟩ := ih h
      exact ⟨h1, k', List.mem_cons_of_mem _ h2⟩

theorem findIdentity_none {id : Bytes} {order : List (Bytes × PubId)}
    (h : findIdentity id order = none) : ∀ k v, (k, v) ∈ order → v.identity ≠ id := by
  induction order with
  | nil => intro k v hv; simp at hv
  | cons a order ih =>
    obtain ⟨k, w⟩ := a
    rw [findIdentity] at h
    split at h
    · simp at h
    · rename_i hw
      intro k' v hv
      rcases List.mem_cons.mp hv with he | hv
      · simp only [Prod.mk.injEq] at he
        rw [he.2]; exact hw
      · exact ih h k' v hv

theorem del_spec {b : Book} {id : Bytes} {order : List (Bytes × PubId)} {b' : Book}
    (h : del b id order = some b') :
    ∃ k v, (k, v) ∈ order ∧ v.identity = id ∧ b' = GoMap.del b k := by
  induction order with
  | nil => simp [del] at h
  | cons a order ih =>
    obtain ⟨k, w⟩ := a
    rw [del] at h
    split at h
    · obtain ⟨k', v, h1, h2, h3⟩ := ih h
      exact ⟨k', v, List.mem_cons_of_mem _ h1, h2, h3⟩
    · rename_i hw
      simp only [Option.some.injEq] at h
      exact ⟨k, w, List.mem_cons_self, by simpa using hw, h.symm⟩

theorem del_none {b : Book} {id : Bytes} {order : List (Bytes × PubId)}
    (h : del b id order = none) : ∀ k v, (k, v) ∈ order → v.identity ≠ id := by
  induction order with
  | nil => intro k v hv; simp at hv
  | cons a order ih =>
    obtain ⟨k, w⟩ := a
    rw [del] at h
    split at h
    · rename_i hw
      intro k' v hv
      rcases List.mem_cons.mp hv with he | hv
      · simp only [Prod.mk.injEq] at he
        rw [he.2]; exact hw
      · exact ih h k' v hv
    · simp at h

theorem reach_wf {b : Book} (h : Reach b) : GoMap.WF b := by
  induction h with
  | new => exact GoMap.wf_nil
  | @add b id r b' _ ha ih =>
    rcases hl : addLoop b id false (b.length + 1) with _ | x
    · simp [AddressBook.add, hl] at ha
    · simp only [AddressBook.add, hl, Option.map_some, Option.some.injEq, Prod.mk.injEq] at ha
      rw [← ha.2]; exact GoMap.wf_set ih _ _
  | del _ _ hd ih =>
    obtain ⟨k, v, _, _, rfl⟩ := del_spec hd
    exact GoMap.wf_del ih _

/-- In every book that calls lead to, an entry is stored under its own nick, so the nick shown by a
record is the nick that finds it; in particular no two records show the same nick. -/
theorem C43_nick_is_key {b : Book} (h : Reach b) (k : Bytes) (v : PubId)
    (hv : findNick b k = some v) : v.nick = k := by
  induction h generalizing k v with
  | new => simp [findNick, AddressBook.new] at hv
  | @add b id r b' _ ha ih =>
    obtain ⟨nick, ch⟩ := r
    obtain ⟨h1, h2, _⟩ := C43_add b id nick ch b' ha
    by_cases hk : k = nick
    · subst hk
      rw [h1] at hv
      simp only [Option.some.injEq] at hv
      rw [← hv]
    · rw [h2 k hk] at hv
      exact ih k v hv
  | del _ _ hd ih =>
    obtain ⟨k', w, _, _, rfl⟩ := del_spec hd
    apply ih
    unfold findNick at hv ⊢
    rw [GoMap.get_del] at hv
    split at hv
    · simp at hv
    · exact hv

/-- The records listed by `All`, whatever the order, have pairwise different nicks. -/
theorem C43_nicks_distinct {b : Book} (h : Reach b) (order : List (Bytes × PubId))
    (ho : order.Perm b) : ((all order).map PubId.nick).Nodup := by
  have hw : GoMap.WF order := by
    unfold GoMap.WF GoMap.keys
    exact (ho.map _).nodup_iff.mpr (reach_wf h)
  have : (all order).map PubId.nick = GoMap.keys order := by
    unfold all GoMap.keys
    rw [List.map_map]
    apply List.map_congr_left
    rintro ⟨k, v⟩ hkv
    exact C43_nick_is_key h k v (GoMap.get_of_mem (reach_wf h) (ho.mem_iff.mp hkv))
  rw [this]; exact hw

/-- An identity just added is found by identity, in whatever order the map is walked; the result has
that identity. -/
theorem C43_find_after_add {b b' : Book} (hr : Reach b) (id : PubId) (r : Bytes × Bool)
    (h : add b id = some (r, b')) (order : List (Bytes × PubId)) (ho : order.Perm b') :
    ∃ v, findIdentity id.identity order = some v ∧ v.identity = id.identity ∧
      findNick b' v.nick = some v := by
  obtain ⟨nick, ch⟩ := r
  have hr' : Reach b' := .add hr h
  obtain ⟨h1, _⟩ := C43_add b id nick ch b' h
  rcases hf : findIdentity id.identity order with _ | v
  · have h2 := findIdentity_none hf nick _ (ho.mem_iff.mpr (GoMap.mem_of_get (show b'.get nick = _ from h1)))
    exact absurd rfl h2
  · obtain ⟨h2, k, h3⟩ := findIdentity_some hf
    have h4 := GoMap.get_of_mem (reach_wf hr') (ho.mem_iff.mp h3)
    refine ⟨v, rfl, h2, ?_⟩
    rw [C43_nick_is_key hr' k v h4]
    exact h4

/-- `FindIdentity` reports `ErrNotFound` exactly when no record has the identity. -/
theorem C43_find_complete {b : Book} (hr : Reach b) (id : Bytes) (order : List (Bytes × PubId))
    (ho : order.Perm b) :
    findIdentity id order = none ↔ ∀ k v, findNick b k = some v → v.identity ≠ id := by
  constructor
  · intro h k v hv
    exact findIdentity_none h k v (ho.mem_iff.mpr (GoMap.mem_of_get hv))
  · intro h
    rcases hf : findIdentity id order with _ | v
    · rfl
    · obtain ⟨h2, k, h3⟩ := findIdentity_some hf
      exact absurd h2 (h k v (GoMap.get_of_mem (reach_wf hr) (ho.mem_iff.mp h3)))

/-- `Del` fails exactly if nothing has the identity; otherwise it removes one record, which has the
identity, and leaves all others. If the identity was stored only once, it can no longer be found.
Missing for the full claim: identities stored under two nicks (next theorem). -/
theorem C43_del_partial {b : Book} (hr : Reach b) (id : Bytes) (order : List (Bytes × PubId))
    (ho : order.Perm b) :
    (del b id order = none ↔ ∀ k v, findNick b k = some v → v.identity ≠ id) ∧
    ∀ b', del b id order = some b' →
      ∃ k v, findNick b k = some v ∧ v.identity = id ∧ findNick b' k = none ∧
        (∀ k', k' ≠ k → findNick b' k' = findNick b k') ∧
        ((∀ k1 k2 v1 v2, findNick b k1 = some v1 → findNick b k2 = some v2 → v1.identity = id →
            v2.identity = id → k1 = k2) →
          ∀ order', order'.Perm b' → findIdentity id order' = none) := by
  constructor
  · constructor
    · intro h k v hv
      exact del_none h k v (ho.mem_iff.mpr (GoMap.mem_of_get hv))
    · intro h
      rcases hd : del b id order with _ | b'
      · rfl
      · obtain ⟨k, v, h1, h2, _⟩ := del_spec hd
        exact absurd h2 (h k v (GoMap.get_of_mem (reach_wf hr) (ho.mem_iff.mp h1)))
  · intro b' hd
    have hr' : Reach b' := .del hr ho hd
    obtain ⟨k, v, h1, h2, rfl⟩ := del_spec hd
    have hv := GoMap.get_of_mem (reach_wf hr) (ho.mem_iff.mp h1)
    refine ⟨k, v, hv, h2, GoMap.get_del_self b k, fun k' hk => GoMap.get_del_ne b (Ne.symm hk), ?_⟩
    intro hu order' ho'
    rw [C43_find_complete hr' id order' ho']
    intro k1 v1 hv1 hid
    unfold findNick at hv1
    rw [GoMap.get_del] at hv1
    split at hv1
    · simp at hv1
    · rename_i hne
      exact hne (hu k k1 v v1 hv hv1 h2 hid)

/-- The code breaks C43: an identity that was added twice with different nicks is still found after
`Del`. -/
theorem C43_del_violated :
    ∃ (b b' : Book) (id : Bytes) (order order' : List (Bytes × PubId)), Reach b ∧ order.Perm b ∧
      del b id order = some b' ∧ order'.Perm b' ∧ (findIdentity id order').isSome := by
  have h1 : Reach [([97], ⟨[97], [1], 0⟩)] := .add (id := ⟨[97], [1], 0⟩) .new rfl
  have h2 : Reach [([98], ⟨[98], [1], 0⟩), ([97], ⟨[97], [1], 0⟩)] :=
    .add (id := ⟨[98], [1], 0⟩) h1 rfl
  exact ⟨_, [([97], ⟨[97], [1], 0⟩)], [1], _, _, h2, List.Perm.refl _, rfl, List.Perm.refl _, rfl⟩

/-- `FindIdentityS` agrees with `FindIdentity` on the rendering of an identity and refuses anything
that does not denote one. -/
theorem C43_find_by_string (sid : Bytes) (order : List (Bytes × PubId)) :
    (∀ id, Hex.string2ID sid = some id →
      findIdentityS sid order =
        match findIdentity id order with
        | some v => .ok v
        | none => .err true) ∧
    (Hex.string2ID sid = none → findIdentityS sid order = .err false) := by
  unfold Hex.string2ID findIdentityS
  constructor
  · intro id h
    rcases hd : Hex.decode sid with _ | x
    · rw [hd] at h; simp at h
    · rw [hd] at h
      simp only [] at h ⊢
      split at h
      · simp at h
      · rename_i hl
        simp only [Option.some.injEq] at h
        subst h
        rw [if_neg hl]
        rcases findIdentity x order with _ | v <;> rfl
  · intro h
    rcases hd : Hex.decode sid with _ | x
    · rfl
    · rw [hd] at h
      simp only [] at h ⊢
      split at h
      · rename_i hl; rw [if_pos hl]
      · simp at h

/-- Two strangers with the same nick: the second is stored under nick_, both stay reachable. -/
example : ∃ b b', add new ⟨[97], [1], 0⟩ = some (([97], false), b) ∧
    add b ⟨[97], [2], 0⟩ = some (([97, 95], true), b') ∧
    findNick b' [97] = some ⟨[97], [1], 0⟩ ∧ findNick b' [97, 95] = some ⟨[97, 95], [2], 0⟩ :=
  ⟨_, _, rfl, rfl, rfl, rfl⟩

end Verif.AddressBook
