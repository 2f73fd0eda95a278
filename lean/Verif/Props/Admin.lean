import Verif.Proofs.Json
import Verif.Props.Accounts

/-! # C108: what the administrator sees, and what zkserverctl does -/

namespace Verif.Admin

open Verif Text Accounts

/-! ## Specification -/

/-- The account `id` went from one place to another, and nothing else happened. -/
def Moved (id : Id) (src dst src' dst' : GoMap Id Acct) : Prop :=
  (∃ x, src.get id = some x ∧ dst'.get id = some x) ∧ dst.get id = none ∧ src'.get id = none ∧
    ∀ o, o ≠ id → src'.get o = src.get o ∧ dst'.get o = dst.get o

/-- The lines of a listing: up to the first blank, and after it. -/
def shown (out : Bytes) : List (Bytes × Bytes) :=
  (go [] out).map fun l => (l.takeWhile (· ≠ 32), (l.dropWhile (· ≠ 32)).drop 1)
where
  go (acc : Bytes) : Bytes → List Bytes
    | [] => []
    | c :: r => if c = 10 then acc :: go [] r else go (acc ++ [c]) r

/-! ## Valid UTF-8 -/

theorem valid_ascii {s : Bytes} (h : ∀ c ∈ s, c < 128) : valid s = s := by
  unfold valid
  induction s with
  | nil => rfl
  | cons c s ih =>
    rw [List.length_cons, map_ascii _ _ (h c (by simp)), ih fun c hc => h c (by simp [hc])]

theorem map_other : ∀ (n : Nat) (s : Bytes), s.length ≤ n → (∃ c ∈ s, ¬ c < 128) →
    ∃ c ∈ mapRunes (fun r => r) n s, ¬ c < 128
  | 0, s, hn, ⟨c, hc, _⟩ => by cases s <;> simp at hn hc
  | n + 1, [], _, ⟨c, hc, _⟩ => by simp at hc
  | n + 1, c :: s, hn, ⟨d, hd, hd'⟩ => by
    simp only [List.length_cons] at hn
    by_cases hc : c < 128
    · rw [map_ascii n s hc]
      have : d ∈ s := by
        rcases List.mem_cons.1 hd with rfl | h
        · exact absurd hc hd'
        · exact h
      obtain ⟨e, he, he'⟩ := map_other n s (by omega) ⟨d, this, hd'⟩
      exact ⟨e, by simp [he], he'⟩
    · rcases rune_cases c s hc with hb | ⟨r, p, q, hpq, hp, hh, hr, -, -⟩
      · rw [map_bad n s hb]
        exact ⟨0xef, by rw [show encodeRune 0xfffd = [0xef, 0xbf, 0xbd] from rfl]; simp, by decide⟩
      · rw [hpq, map_rune n hp (hr q)]
        cases p with
        | nil => simp at hp
        | cons c' p =>
          simp only [List.head?_cons, Option.some.injEq] at hh
          subst hh
          exact ⟨c', by simp, hc⟩

theorem hex_ascii : ∀ c : UInt8, Hex.isHex c → c < 128 := by
  intro c h
  simp only [Hex.isHex, List.mem_cons, List.not_mem_nil, or_false] at h
  rcases h with rfl | rfl | rfl | rfl | rfl | rfl | rfl | rfl | rfl | rfl | rfl | rfl | rfl | rfl | rfl | rfl | rfl |
    rfl | rfl | rfl | rfl | rfl <;> decide

/-- What is no UTF-8 is no hexadecimal either. -/
theorem decode_valid (s : Bytes) : Hex.decode (valid s) = Hex.decode s := by
  by_cases h : ∀ c ∈ s, c < 128
  · rw [valid_ascii h]
  · simp only [not_forall] at h
    obtain ⟨c, hc, hc'⟩ := h
    have none_of : ∀ t : Bytes, (∃ c ∈ t, ¬ c < 128) → Hex.decode t = none := by
      rintro t ⟨c, hc, hc'⟩
      rcases hd : Hex.decode t with _ | b
      · rfl
      · exact absurd (hex_ascii c (((Hex.decode_some_iff t).1 (by rw [hd]; rfl)).2 c hc)) hc'
    rw [none_of s ⟨c, hc, hc'⟩]
    exact none_of _ (map_other _ s (le_refl _) ⟨c, hc, hc'⟩)

theorem valid_nil {s : Bytes} (h : valid s = []) : s = [] := by
  cases s with
  | nil => rfl
  | cons c s =>
    by_cases hc : c < 128
    · rw [valid, List.length_cons, map_ascii _ _ hc] at h
      cases h
    · obtain ⟨e, he, _⟩ := map_other _ (c :: s) (le_refl _) ⟨c, by simp, hc⟩
      unfold valid at h
      rw [h] at he
      simp at he

/-! ## What is written is read -/

theorem unquote_quoted (s rest : Bytes) (m : Nat) (hm : (escape s.length s).length < m) :
    unquote m (escape s.length s ++ 34 :: rest) = some (valid s, rest) :=
  unquote_escape rest s.length s m (le_refl _) hm

theorem value_quoted (s rest : Bytes) : value (quoted s ++ rest) = some (.str (valid s), rest) := by
  have : quoted s ++ rest = 34 :: (escape s.length s ++ 34 :: rest) := by simp [quoted]
  rw [this, value, if_pos rfl, unquote_quoted _ _ _ (by simp; omega)]
  rfl

theorem skip_quoted (s rest : Bytes) : skip (quoted s ++ rest) = quoted s ++ rest := rfl

/-- A member in front of a comma or a brace. -/
theorem members_last (n : Nat) (k v rest : Bytes) :
    members (n + 1) (quoted k ++ 58 :: (quoted v ++ 125 :: rest)) = some ([(valid k, .str (valid v))], rest) := by
  have e : quoted k ++ 58 :: (quoted v ++ 125 :: rest) =
      34 :: (escape k.length k ++ 34 :: (58 :: (quoted v ++ 125 :: rest))) := by simp [quoted]
  have e1 : skip (34 :: (escape k.length k ++ 34 :: (58 :: (quoted v ++ 125 :: rest)))) =
      34 :: (escape k.length k ++ 34 :: (58 :: (quoted v ++ 125 :: rest))) := rfl
  have e2 : skip (58 :: (quoted v ++ 125 :: rest)) = 58 :: (quoted v ++ 125 :: rest) := rfl
  have e3 : skip (125 :: rest) = 125 :: rest := rfl
  rw [e, members, e1]
  simp only
  rw [unquote_quoted _ _ _ (by simp; omega)]
  simp only [e2, skip_quoted, value_quoted, e3]

theorem members_one (n : Nat) (k rest : Bytes) :
    members (n + 1) (quoted k ++ 58 :: 49 :: 44 :: rest) =
      (members n rest).map fun r => ((valid k, .num 1) :: r.1, r.2) := by
  have e : quoted k ++ 58 :: 49 :: 44 :: rest = 34 :: (escape k.length k ++ 34 :: (58 :: 49 :: 44 :: rest)) := by
    simp [quoted]
  have e1 : skip (34 :: (escape k.length k ++ 34 :: (58 :: 49 :: 44 :: rest))) =
      34 :: (escape k.length k ++ 34 :: (58 :: 49 :: 44 :: rest)) := rfl
  have e2 : skip (58 :: 49 :: 44 :: rest) = 58 :: 49 :: 44 :: rest := rfl
  have e4 : value (skip (49 :: 44 :: rest)) = some (.num 1, 44 :: rest) := rfl
  have e3 : skip (44 :: rest) = 44 :: rest := rfl
  rw [e, members, e1]
  simp only
  rw [unquote_quoted _ _ _ (by simp; omega)]
  simp only [e2, e4, e3]

theorem object_brace {s : Bytes} {c : UInt8} {r : Bytes} (h : skip s = c :: r) (hc : c ≠ 125) :
    object (123 :: s) = members s.length s := by
  have e : skip (123 :: s) = 123 :: s := rfl
  rw [object, e]
  simp only
  rw [h]
  split
  · next h' => exact absurd (List.cons.inj h').1 hc
  · rfl

theorem object_one (k v rest : Bytes) : object (one k v ++ rest) = some ([(valid k, .str (valid v))], 10 :: rest) := by
  have e : one k v ++ rest = 123 :: (quoted k ++ 58 :: (quoted v ++ 125 :: (10 :: rest))) := by simp [one]
  rw [e, object_brace (c := 34) (r := escape k.length k ++ [34] ++ 58 :: (quoted v ++ 125 :: (10 :: rest))) rfl
    (by decide)]
  have h : (quoted k ++ 58 :: (quoted v ++ 125 :: (10 :: rest))).length =
    (escape k.length k ++ [34] ++ 58 :: (quoted v ++ 125 :: (10 :: rest))).length + 1 := by simp [quoted]
  rw [h, members_last]

theorem object_ident (cmd rest : Bytes) : object (ident cmd ++ rest) =
    some ([(valid kVersion, .num 1), (valid kCommand, .str (valid cmd))], 10 :: rest) := by
  have e : ident cmd ++ rest = 123 :: (quoted kVersion ++ 58 :: 49 :: 44 :: (quoted kCommand ++
      58 :: (quoted cmd ++ 125 :: (10 :: rest)))) := by simp [ident]
  rw [e, object_brace (c := 34) (r := escape kVersion.length kVersion ++ [34] ++ 58 :: 49 :: 44 :: (quoted kCommand ++
      58 :: (quoted cmd ++ 125 :: (10 :: rest)))) rfl (by decide)]
  have h : ∃ m, (quoted kVersion ++ 58 :: 49 :: 44 :: (quoted kCommand ++ 58 :: (quoted cmd ++ 125 :: (10 :: rest)))).length
      = m + 2 := ⟨_, by simp [quoted]; rfl⟩
  obtain ⟨m, h⟩ := h
  rw [h, members_one, members_last]
  rfl

theorem object_nl (s : Bytes) : object (10 :: s) = object s := rfl

theorem tells_reply (ok : Bool) (why : Bytes) (hw : why ≠ []) :
    tells (reply ok why) = if ok then .ok else .refused (valid why) := by
  have h := object_one kError (if ok then [] else why) []
  rw [List.append_nil] at h
  unfold tells reply
  rw [h]
  have hf : strField kError [(valid kError, .str (valid (if ok then [] else why)))] =
      some (valid (if ok then [] else why)) := rfl
  simp only [hf]
  cases ok with
  | true => rfl
  | false =>
    simp only [Bool.false_eq_true, if_false]
    rcases hv : valid why with _ | ⟨c, r⟩
    · exact absurd (valid_nil hv) hw
    · rfl

theorem serve_rest (why : Bytes) (ss : GoMap Bytes Nat) (n : Nat) (a : State) :
    serve why ss n a [10] = ⟨[], a, [], false⟩ := by
  cases n <;> rfl

theorem request_length (cmd arg : Bytes) : ∃ n, (request cmd arg).length = n + 1 := by
  refine ⟨(request cmd arg).length - 1, ?_⟩
  have : 1 ≤ (request cmd arg).length := by simp [request, ident, one]
  omega

theorem ctl_disable (why : Bytes) (hw : why ≠ []) (ss : GoMap Bytes Nat) (a : State) (arg : Bytes) :
    ctl why ss a cDisable arg =
      match socketDisable a ss (valid (trimSpace arg)) with
      | (.ok b, a', c) => (if b then .ok else .refused (valid why), ⟨reply b why, a', c.toList, false⟩)
      | (_, a', _) => (.failed, ⟨[], a', [], true⟩) := by
  obtain ⟨n, hn⟩ := request_length cDisable arg
  have h1 := object_ident cDisable (one kIdentity (trimSpace arg))
  have h2 := object_one kIdentity (trimSpace arg) []
  rw [List.append_nil] at h2
  have e1 : numField kVersion [(valid kVersion, Val.num 1), (valid kCommand, .str (valid cDisable))] = some 1 := by
    decide
  have e2 : strField kCommand [(valid kVersion, Val.num 1), (valid kCommand, .str (valid cDisable))] =
      some cDisable := by decide
  have e3 : strField kIdentity [(valid kIdentity, .str (valid (trimSpace arg)))] = some (valid (trimSpace arg)) := rfl
  unfold ctl
  rw [hn]
  simp only [serve, request, h1, e1, e2, object_nl, h2, e3]
  rcases hs : socketDisable a ss (valid (trimSpace arg)) with ⟨o, a', c⟩
  cases o with
  | ok b => simp [serve_rest, tells_reply b why hw]
  | err e => exact e.elim
  | panic => simp; rfl

theorem ctl_enable (why : Bytes) (hw : why ≠ []) (ss : GoMap Bytes Nat) (a : State) (arg : Bytes) :
    ctl why ss a cEnable arg =
      match handleIdentityEnable a (valid (trimSpace arg)) with
      | (.ok b, a') => (if b then .ok else .refused (valid why), ⟨reply b why, a', [], false⟩)
      | (_, a') => (.failed, ⟨[], a', [], true⟩) := by
  obtain ⟨n, hn⟩ := request_length cEnable arg
  have h1 := object_ident cEnable (one kIdentity (trimSpace arg))
  have h2 := object_one kIdentity (trimSpace arg) []
  rw [List.append_nil] at h2
  have e1 : numField kVersion [(valid kVersion, Val.num 1), (valid kCommand, .str (valid cEnable))] = some 1 := by
    decide
  have e2 : strField kCommand [(valid kVersion, Val.num 1), (valid kCommand, .str (valid cEnable))] =
      some cEnable := by decide
  have e3 : strField kIdentity [(valid kIdentity, .str (valid (trimSpace arg)))] = some (valid (trimSpace arg)) := rfl
  have e4 : cEnable ≠ cDisable := by decide
  unfold ctl
  rw [hn]
  simp only [serve, request, h1, e1, e2, object_nl, h2, e3, e4]
  rcases hs : handleIdentityEnable a (valid (trimSpace arg)) with ⟨o, a'⟩
  cases o with
  | ok b => simp [serve_rest, tells_reply b why hw]
  | err e => exact e.elim
  | panic => simp; rfl

/-! ## zkserverctl -/

theorem id_decode {t : Bytes} {id : Id} (h : Hex.string2ID t = some id) :
    Hex.decode t = some id ∧ id.length = 32 := by
  unfold Hex.string2ID at h
  split at h
  · cases h
  · next d hd =>
    split at h
    · cases h
    · next hl =>
      cases h
      exact ⟨hd, by omega⟩

/-- **C108** `zkserverctl userdisable`, given an identity, says OK if and only if the account was enabled and not
disabled as well; then it is disabled, unchanged, and nothing else happened. Otherwise the administrator reads an error
and nothing happened. -/
theorem C108_disable (why : Bytes) (hw : why ≠ []) (ss : GoMap Bytes Nat) (a : State) (arg : Bytes) (id : Id)
    (h : Hex.string2ID (trimSpace arg) = some id) :
    ((ctl why ss a cDisable arg).1 = .ok ∧
      Moved id a.enabled a.disabled (ctl why ss a cDisable arg).2.acc.enabled (ctl why ss a cDisable arg).2.acc.disabled ∨
    (∃ e, (ctl why ss a cDisable arg).1 = .refused e ∧ e ≠ []) ∧ (ctl why ss a cDisable arg).2.acc = a ∧
      (a.enabled.get id = none ∨ (a.disabled.get id).isSome)) ∧
    (ctl why ss a cDisable arg).2.died = false := by
  obtain ⟨hd, hl⟩ := id_decode h
  have he : handleIdentityDisable a (valid (trimSpace arg)) = (.ok (disable a id).1, (disable a id).2) := by
    simp [handleIdentityDisable, decode_valid, hd, hl]
  rw [ctl_disable why hw]
  unfold socketDisable
  rw [he]
  simp only
  have hr : ∃ e, (if False then Says.ok else Says.refused (valid why)) = .refused e ∧ e ≠ [] :=
    ⟨_, rfl, fun x => hw (valid_nil x)⟩
  by_cases h1 : (a.disabled.get id).isSome
  · have : disable a id = (false, a) := by simp [disable, h1]
    rw [this]
    exact ⟨.inr ⟨hr, rfl, .inr h1⟩, trivial⟩
  · rcases h2 : a.enabled.get id with _ | x
    · have : disable a id = (false, a) := by simp [disable, h2]
      rw [this]
      exact ⟨.inr ⟨hr, rfl, .inl rfl⟩, trivial⟩
    · have : disable a id = (true, { a with enabled := a.enabled.del id, disabled := a.disabled.set id x }) := by
        simp [disable, h1, h2]
      rw [this]
      refine ⟨.inl ⟨rfl, ⟨x, h2, GoMap.get_set_self _ _ _⟩, by simpa using h1, GoMap.get_del_self _ _, ?_⟩, trivial⟩
      intro o ho
      exact ⟨GoMap.get_del_ne _ (Ne.symm ho), GoMap.get_set_ne _ _ (Ne.symm ho)⟩

/-- **C108** The same for `zkserverctl userenable`. -/
theorem C108_enable (why : Bytes) (hw : why ≠ []) (ss : GoMap Bytes Nat) (a : State) (arg : Bytes) (id : Id)
    (h : Hex.string2ID (trimSpace arg) = some id) :
    ((ctl why ss a cEnable arg).1 = .ok ∧
      Moved id a.disabled a.enabled (ctl why ss a cEnable arg).2.acc.disabled (ctl why ss a cEnable arg).2.acc.enabled ∨
    (∃ e, (ctl why ss a cEnable arg).1 = .refused e ∧ e ≠ []) ∧ (ctl why ss a cEnable arg).2.acc = a ∧
      (a.disabled.get id = none ∨ (a.enabled.get id).isSome)) ∧
    (ctl why ss a cEnable arg).2.died = false := by
  obtain ⟨hd, hl⟩ := id_decode h
  have he : handleIdentityEnable a (valid (trimSpace arg)) = (.ok (enable a id).1, (enable a id).2) := by
    simp [handleIdentityEnable, decode_valid, hd, hl]
  rw [ctl_enable why hw, he]
  simp only
  have hr : ∃ e, (if False then Says.ok else Says.refused (valid why)) = .refused e ∧ e ≠ [] :=
    ⟨_, rfl, fun x => hw (valid_nil x)⟩
  rcases h2 : a.disabled.get id with _ | x
  · have : enable a id = (false, a) := by simp [enable, h2]
    rw [this]
    exact ⟨.inr ⟨hr, rfl, .inl rfl⟩, trivial⟩
  · by_cases h1 : (a.enabled.get id).isSome
    · have : enable a id = (false, a) := by simp [enable, h1, h2]
      rw [this]
      exact ⟨.inr ⟨hr, rfl, .inr h1⟩, trivial⟩
    · have : enable a id = (true, { a with disabled := a.disabled.del id, enabled := a.enabled.set id x }) := by
        simp [enable, h1, h2]
      rw [this]
      refine ⟨.inl ⟨rfl, ⟨x, h2, GoMap.get_set_self _ _ _⟩, by simpa using h1, GoMap.get_del_self _ _, ?_⟩, trivial⟩
      intro o ho
      exact ⟨GoMap.get_del_ne _ (Ne.symm ho), GoMap.get_set_ne _ _ (Ne.symm ho)⟩

/-- **C108** Whatever text that is not hexadecimal is given, quotes, braces, bytes that are no text: an error is
reported, and nothing happened. -/
theorem C108_nonsense (why : Bytes) (hw : why ≠ []) (ss : GoMap Bytes Nat) (a : State) (arg : Bytes)
    (h : Hex.decode (trimSpace arg) = none) :
    ctl why ss a cDisable arg =
      (.refused (valid why), ⟨reply false why, a, (ss.get (valid (trimSpace arg))).toList, false⟩) ∧
    ctl why ss a cEnable arg = (.refused (valid why), ⟨reply false why, a, [], false⟩) := by
  constructor
  · rw [ctl_disable why hw]
    simp [socketDisable, handleIdentityDisable, decode_valid, h]
  · rw [ctl_enable why hw]
    simp [handleIdentityEnable, decode_valid, h]

/-- **C108 is violated** by every text that is hexadecimal but no identity, the empty one too: the server dies. -/
theorem C108_crash_violated (why : Bytes) (hw : why ≠ []) (ss : GoMap Bytes Nat) (a : State) (arg b : Bytes)
    (h : Hex.decode (trimSpace arg) = some b) (hb : b.length ≠ 32) :
    ctl why ss a cDisable arg = (.failed, ⟨[], a, [], true⟩) ∧
    ctl why ss a cEnable arg = (.failed, ⟨[], a, [], true⟩) := by
  constructor
  · rw [ctl_disable why hw]
    simp [socketDisable, handleIdentityDisable, decode_valid, h, hb]
  · rw [ctl_enable why hw]
    simp [handleIdentityEnable, decode_valid, h, hb]

/-! ## Other programs on the socket -/

/-- A number as `encoding/json` writes it. -/
def dec (n : Nat) : Bytes := (Nat.toDigits 10 n).map fun c => UInt8.ofNat c.toNat

theorem digitChar_dec : ∀ d < 10, UInt8.ofNat (Nat.digitChar d).toNat = UInt8.ofNat (48 + d) := by decide

theorem digits_dec (n : Nat) : ∀ (acc : Nat) (r : Bytes), (∀ c ∈ r.head?, ¬ (48 ≤ c ∧ c ≤ 57)) →
    digits acc (dec n ++ r) = (acc * 10 ^ (dec n).length + n, r) ∧ ∃ c t, dec n = c :: t ∧ 48 ≤ c ∧ c ≤ 57 ∧ (c = 48 → n = 0) := by
  have stop : ∀ (acc : Nat) (r : Bytes), (∀ c ∈ r.head?, ¬ (48 ≤ c ∧ c ≤ 57)) → digits acc r = (acc, r) := by
    intro acc r h
    cases r with
    | nil => rfl
    | cons c r => rw [digits, if_neg (h c rfl)]
  have one : ∀ d < 10, ∀ (acc : Nat) (r : Bytes), digits acc (UInt8.ofNat (48 + d) :: r) = digits (acc * 10 + d) r := by
    intro d hd acc r
    have h : 48 ≤ UInt8.ofNat (48 + d) ∧ UInt8.ofNat (48 + d) ≤ 57 ∧ (UInt8.ofNat (48 + d)).toNat - 48 = d := by
      have : ∀ d < 10, 48 ≤ UInt8.ofNat (48 + d) ∧ UInt8.ofNat (48 + d) ≤ 57 ∧ (UInt8.ofNat (48 + d)).toNat - 48 = d := by decide
      exact this d hd
    rw [digits, if_pos ⟨h.1, h.2.1⟩, h.2.2]
  have all : ∀ (acc : Nat) (r : Bytes), digits acc (dec n ++ r) = digits (acc * 10 ^ (dec n).length + n) r ∧
      ∃ c t, dec n = c :: t ∧ 48 ≤ c ∧ c ≤ 57 ∧ (c = 48 → n = 0) := by
    induction n using Nat.strongRecOn with
    | _ n ih =>
      intro acc r
      by_cases hn : n < 10
      · have : dec n = [UInt8.ofNat (48 + n)] := by
          unfold dec
          rw [Nat.toDigits_of_lt_base hn]
          simp [digitChar_dec n hn]
        rw [this]
        refine ⟨by rw [List.singleton_append, one n hn, List.length_singleton, Nat.pow_one], _, [], rfl, ?_⟩
        have : ∀ d < 10, 48 ≤ UInt8.ofNat (48 + d) ∧ UInt8.ofNat (48 + d) ≤ 57 ∧ (UInt8.ofNat (48 + d) = 48 → d = 0) := by decide
        exact this n hn
      · have hd : n % 10 < 10 := Nat.mod_lt _ (by decide)
        have : dec n = dec (n / 10) ++ [UInt8.ofNat (48 + n % 10)] := by
          unfold dec
          rw [Nat.toDigits_of_base_le (by decide) (by omega)]
          simp [digitChar_dec _ hd]
        obtain ⟨h1, c, t, h2, h3, h4, h5⟩ := ih (n / 10) (by omega) acc (UInt8.ofNat (48 + n % 10) :: r)
        rw [this]
        refine ⟨?_, c, t ++ [UInt8.ofNat (48 + n % 10)], by simp [h2], h3, h4, fun hc => ?_⟩
        · rw [List.append_assoc, List.singleton_append, h1, one _ hd, List.length_append, List.length_singleton, Nat.pow_succ]
          congr 1
          rw [Nat.add_mul, Nat.mul_assoc]
          omega
        · have := h5 hc
          omega
  intro acc r h
  obtain ⟨h1, h2⟩ := all acc r
  exact ⟨by rw [h1, stop _ _ h], h2⟩

theorem value_dec (n : Nat) (r : Bytes) (h : ∀ c ∈ r.head?, ¬ (48 ≤ c ∧ c ≤ 57)) : value (dec n ++ r) = some (.num n, r) := by
  obtain ⟨h1, c, t, h2, h3, h4, h5⟩ := digits_dec n 0 r h
  rw [Nat.zero_mul, Nat.zero_add] at h1
  by_cases hn : n = 0
  · subst hn; rfl
  · have hc : c ≠ 48 := fun e => hn (h5 e)
    have hc' : 49 ≤ c := by
      have : ∀ c : UInt8, 48 ≤ c → c ≠ 48 → 49 ≤ c := by
        intro c h1 h2
        have e1 : (48 : UInt8).toNat ≤ c.toNat := h1
        have e2 : c.toNat ≠ 48 := fun e => h2 (UInt8.toNat_inj.1 e)
        have : (48 : UInt8).toNat = 48 := rfl
        show (49 : UInt8).toNat ≤ c.toNat
        have : (49 : UInt8).toNat = 49 := rfl
        omega
      exact this c h3 hc
    have hq : c ≠ 34 := by rintro rfl; exact absurd h3 (by decide)
    rw [h2] at h1 ⊢
    rw [List.cons_append] at h1 ⊢
    rw [value, if_neg hq, if_neg hc, if_pos ⟨hc', h4⟩, h1]

theorem members_num (n m : Nat) (k rest : Bytes) :
    members (n + 1) (quoted k ++ 58 :: (dec m ++ 44 :: rest)) =
      (members n rest).map fun r => ((valid k, .num m) :: r.1, r.2) := by
  have e : quoted k ++ 58 :: (dec m ++ 44 :: rest) = 34 :: (escape k.length k ++ 34 :: (58 :: (dec m ++ 44 :: rest))) := by
    simp [quoted]
  have e1 : skip (34 :: (escape k.length k ++ 34 :: (58 :: (dec m ++ 44 :: rest)))) =
      34 :: (escape k.length k ++ 34 :: (58 :: (dec m ++ 44 :: rest))) := rfl
  have e2 : skip (58 :: (dec m ++ 44 :: rest)) = 58 :: (dec m ++ 44 :: rest) := rfl
  have e4 : value (skip (dec m ++ 44 :: rest)) = some (.num m, 44 :: rest) := by
    have hv := value_dec m (44 :: rest) (by intro c hc; cases hc; decide)
    obtain ⟨-, c, t, h2, h3, h4, -⟩ := digits_dec m 0 [] (by intro c hc; cases hc)
    have : skip (dec m ++ 44 :: rest) = dec m ++ 44 :: rest := by
      rw [h2, List.cons_append, skip, List.dropWhile_cons_of_neg]
      have : ∀ x : UInt8, x < 48 → c ≠ x := by
        rintro x hx rfl
        have e1 : (48 : UInt8).toNat ≤ c.toNat := h3
        have e2 : c.toNat < (48 : UInt8).toNat := hx
        omega
      simp [this 32 (by decide), this 9 (by decide), this 10 (by decide), this 13 (by decide)]
    rw [this, hv]
  have e3 : skip (44 :: rest) = 44 :: rest := rfl
  rw [e, members, e1]
  simp only
  rw [unquote_quoted _ _ _ (by simp; omega)]
  simp only [e2, e4, e3]

theorem members_str (n : Nat) (k v rest : Bytes) :
    members (n + 1) (quoted k ++ 58 :: (quoted v ++ 44 :: rest)) =
      (members n rest).map fun r => ((valid k, .str (valid v)) :: r.1, r.2) := by
  have e : quoted k ++ 58 :: (quoted v ++ 44 :: rest) = 34 :: (escape k.length k ++ 34 :: (58 :: (quoted v ++ 44 :: rest))) := by
    simp [quoted]
  have e1 : skip (34 :: (escape k.length k ++ 34 :: (58 :: (quoted v ++ 44 :: rest)))) =
      34 :: (escape k.length k ++ 34 :: (58 :: (quoted v ++ 44 :: rest))) := rfl
  have e2 : skip (58 :: (quoted v ++ 44 :: rest)) = 58 :: (quoted v ++ 44 :: rest) := rfl
  have e3 : skip (44 :: rest) = 44 :: rest := rfl
  rw [e, members, e1]
  simp only
  rw [unquote_quoted _ _ _ (by simp; omega)]
  simp only [e2, skip_quoted, value_quoted, e3]

/-- The head of a command of another version. -/
def identV (v : Nat) (cmd : Bytes) : Bytes :=
  [123] ++ quoted kVersion ++ [58] ++ dec v ++ [44] ++ quoted kCommand ++ [58] ++ quoted cmd ++ [125, 10]

theorem object_identV (v : Nat) (cmd rest : Bytes) : object (identV v cmd ++ rest) =
    some ([(valid kVersion, .num v), (valid kCommand, .str (valid cmd))], 10 :: rest) := by
  have e : identV v cmd ++ rest = 123 :: (quoted kVersion ++ 58 :: (dec v ++ 44 :: (quoted kCommand ++
      58 :: (quoted cmd ++ 125 :: (10 :: rest))))) := by simp [identV]
  rw [e, object_brace (c := 34) (r := escape kVersion.length kVersion ++ [34] ++ 58 :: (dec v ++ 44 :: (quoted kCommand ++
      58 :: (quoted cmd ++ 125 :: (10 :: rest))))) rfl (by decide)]
  have h : ∃ m, (quoted kVersion ++ 58 :: (dec v ++ 44 :: (quoted kCommand ++ 58 :: (quoted cmd ++ 125 :: (10 :: rest))))).length
      = m + 2 := ⟨_, by simp [quoted]; rfl⟩
  obtain ⟨m, h⟩ := h
  rw [h, members_num, members_last]
  rfl

/-- **C108** A command of any other version than 1, or that is none of the two, is not carried out: whatever follows, nothing
happens and nothing is answered. -/
theorem C108_version (why : Bytes) (ss : GoMap Bytes Nat) (n : Nat) (a : State) (v : Nat) (cmd rest : Bytes)
    (h : v ≠ 1 ∨ valid cmd ≠ cDisable ∧ valid cmd ≠ cEnable) :
    serve why ss n a (identV v cmd ++ rest) = ⟨[], a, [], false⟩ := by
  cases n with
  | zero => rfl
  | succ n =>
    have e1 : numField kVersion [(valid kVersion, Val.num v), (valid kCommand, .str (valid cmd))] =
        if v < 2 ^ 64 then some v else none := rfl
    have e2 : strField kCommand [(valid kVersion, Val.num v), (valid kCommand, .str (valid cmd))] = some (valid cmd) := rfl
    rw [serve, object_identV]
    simp only [e1, e2]
    by_cases hv : v < 2 ^ 64
    · rw [if_pos hv]
      simp only
      by_cases h1 : v = 1
      · rcases h with h | h
        · exact absurd h1 h
        · rw [if_neg (by simp [h1]), if_neg h.1, if_neg h.2]
      · rw [if_pos h1]
    · rw [if_neg hv]

/-- **C108** Nor is one without a version. -/
theorem C108_unversioned (why : Bytes) (ss : GoMap Bytes Nat) (n : Nat) (a : State) (cmd rest : Bytes) :
    serve why ss n a (one kCommand cmd ++ rest) = ⟨[], a, [], false⟩ := by
  cases n with
  | zero => rfl
  | succ n =>
    have e1 : numField kVersion [(valid kCommand, .str (valid cmd))] = some 0 := rfl
    have e2 : strField kCommand [(valid kCommand, .str (valid cmd))] = some (valid cmd) := rfl
    rw [serve, object_one]
    simp only [e1, e2]
    rfl

/-- **C108** If a program gives two identities, it is the second one that the command is carried out for. -/
theorem C108_twice (b c rest : Bytes) :
    (object ([123] ++ quoted kIdentity ++ [58] ++ quoted b ++ [44] ++ quoted kIdentity ++ [58] ++ quoted c ++ [125] ++ rest)).bind
      (fun o => strField kIdentity o.1) = some (valid c) := by
  have e : [123] ++ quoted kIdentity ++ [58] ++ quoted b ++ [44] ++ quoted kIdentity ++ [58] ++ quoted c ++ [125] ++ rest =
      123 :: (quoted kIdentity ++ 58 :: (quoted b ++ 44 :: (quoted kIdentity ++ 58 :: (quoted c ++ 125 :: rest)))) := by simp
  rw [e, object_brace (c := 34) (r := escape kIdentity.length kIdentity ++ [34] ++ 58 :: (quoted b ++ 44 :: (quoted kIdentity ++
      58 :: (quoted c ++ 125 :: rest)))) rfl (by decide)]
  have h : ∃ m, (quoted kIdentity ++ 58 :: (quoted b ++ 44 :: (quoted kIdentity ++ 58 :: (quoted c ++ 125 :: rest)))).length
      = m + 2 := ⟨_, by simp [quoted]; rfl⟩
  obtain ⟨m, h⟩ := h
  rw [h, members_str, members_last]
  rfl

/-- **C108 is violated** by a command without an identity, too: the server dies. -/
theorem C108_missing_violated (why : Bytes) (ss : GoMap Bytes Nat) (n : Nat) (a : State) (rest : Bytes) :
    (serve why ss (n + 1) a (ident cDisable ++ [123, 125] ++ rest)).died = true ∧
    (serve why ss (n + 1) a (ident cEnable ++ [123, 125] ++ rest)).died = true := by
  have ho : object (10 :: ([123, 125] ++ rest)) = some ([], rest) := rfl
  have e3 : strField kIdentity [] = some [] := rfl
  have e1 : ∀ cmd, numField kVersion [(valid kVersion, Val.num 1), (valid kCommand, .str cmd)] = some 1 := fun _ => rfl
  have e2 : ∀ cmd, strField kCommand [(valid kVersion, Val.num 1), (valid kCommand, .str cmd)] = some cmd := fun _ => rfl
  have v1 : valid cDisable = cDisable := by decide
  have v2 : valid cEnable = cEnable := by decide
  have e4 : cEnable ≠ cDisable := by decide
  constructor
  · rw [List.append_assoc, serve, object_ident]
    simp only [e1, e2, v1, ho, e3]
    rfl
  · rw [List.append_assoc, serve, object_ident]
    simp only [e1, e2, v2, ho, e3, if_neg e4]
    rfl

/-- A command of version 12 is none of version 1. -/
example : dec 12 = [49, 50] ∧ (12 : Nat) ≠ 1 ∧ identV 1 cDisable = ident cDisable := by decide

/-! ## zkserverdump -/

/-- Every account can be shown. -/
def Whole (l : List (Bytes × Acct)) : Prop := ∀ e ∈ l, (e.2.user.bind User.identity).isSome

theorem go_line {l : Bytes} (h : (10 : UInt8) ∉ l) (acc r : Bytes) :
    shown.go acc (l ++ 10 :: r) = (acc ++ l) :: shown.go [] r := by
  induction l generalizing acc with
  | nil => simp [shown.go]
  | cons c l ih =>
    have hc : c ≠ 10 := by rintro rfl; simp at h
    rw [List.cons_append, shown.go, if_neg hc, ih (by simp at h; tauto)]
    simp

theorem hex_chars (id : Id) : ∀ c ∈ Hex.encode id, Hex.isHex c :=
  ((Hex.decode_some_iff _).1 (by rw [Hex.decode_encode]; rfl)).2

theorem hex_not {c : UInt8} (h : ¬ Hex.isHex c) (id : Id) : c ∉ Hex.encode id := fun x => h (hex_chars id c x)

theorem name_not {c : UInt8} (h : ¬ Hex.isHex c) (h' : c ≠ 46) (d : Bool) (id : Id) : c ∉ nameOf d id := by
  unfold nameOf
  split
  · intro x
    rcases List.mem_cons.1 x with e | x
    · exact h' e
    · exact hex_not h id x
  · exact hex_not h id

/-- **C108, part.** If every directory has an identity, and no nick contains a line break, zkserverdump comes to an
end, and what it prints shows every account, by name and nick, and nothing else. -/
theorem C108_listed_partial (s : State) (l : List (Bytes × Acct)) (hl : l.Perm (entries s)) (hw : Whole l)
    (hn : ∀ e ∈ l, ∀ p, e.2.user.bind User.identity = some p → (10 : UInt8) ∉ p.nick) :
    (dump l).2 = true ∧
    shown (dump l).1 = l.map fun e => (e.1, ((e.2.user.bind User.identity).map (·.nick)).getD []) := by
  have hnm : ∀ e ∈ l, (10 : UInt8) ∉ e.1 ∧ (32 : UInt8) ∉ e.1 := by
    intro e he
    have := hl.mem_iff.1 he
    unfold entries at this
    rcases List.mem_append.1 this with h | h
    · obtain ⟨x, -, rfl⟩ := List.mem_map.1 h
      exact ⟨name_not (c := 10) (by decide) (by decide) true x.1, name_not (c := 32) (by decide) (by decide) true x.1⟩
    · obtain ⟨x, -, rfl⟩ := List.mem_map.1 h
      exact ⟨name_not (c := 10) (by decide) (by decide) false x.1, name_not (c := 32) (by decide) (by decide) false x.1⟩
  clear hl
  induction l with
  | nil => exact ⟨rfl, rfl⟩
  | cons e l ih =>
    obtain ⟨n, a⟩ := e
    obtain ⟨i1, i2⟩ := ih (fun x hx => hw x (by simp [hx])) (fun x hx => hn x (by simp [hx]))
      (fun x hx => hnm x (by simp [hx]))
    obtain ⟨p, hp⟩ := Option.isSome_iff_exists.1 (hw (n, a) (by simp))
    obtain ⟨hn10, hn32⟩ := hnm (n, a) (by simp)
    have hnick := hn (n, a) (by simp) p hp
    simp only at hp hn10 hn32
    constructor
    · simp [dump, hp, i1]
    · have hline : (10 : UInt8) ∉ n ++ [32] ++ p.nick := by
        simp only [List.mem_append, List.mem_singleton, not_or]
        exact ⟨⟨hn10, by decide⟩, hnick⟩
      have e1 : (dump ((n, a) :: l)).1 = (n ++ [32] ++ p.nick) ++ 10 :: (dump l).1 := by
        simp [dump, hp, line]
      unfold shown at i2 ⊢
      rw [e1, go_line hline, List.nil_append, List.map_cons, List.map_cons, i2, hp]
      have t1 : (n ++ [32] ++ p.nick).takeWhile (· ≠ 32) = n := by
        rw [List.append_assoc, List.takeWhile_append_of_pos]
        · simp
        · intro c hc
          simp only [decide_eq_true_eq]
          rintro rfl
          exact hn32 hc
      have t2 : ((n ++ [32] ++ p.nick).dropWhile (· ≠ 32)).drop 1 = p.nick := by
        rw [List.append_assoc, List.dropWhile_append_of_pos]
        · simp
        · intro c hc
          simp only [decide_eq_true_eq]
          rintro rfl
          exact hn32 hc
      rw [t1, t2]
      rfl

theorem trim_hex {s : Bytes} (h : ∀ c ∈ s, Hex.isHex c ∨ c = 46) : trimSpace s = s := by
  have hs : ∀ w ∈ spaces, ∀ c ∈ w, ¬ (Hex.isHex c ∨ c = 46) ∧ w ≠ [] := by decide
  have hl : ∀ w ∈ spaces, ¬ w <+: s := by
    intro w hw hx
    cases w with
    | nil => revert hw; decide
    | cons c w => exact (hs _ hw c (by simp)).1 (h c (hx.subset (by simp)))
  have hr : ∀ w ∈ spaces, ¬ w <:+ s := by
    intro w hw hx
    cases w with
    | nil => revert hw; decide
    | cons c w => exact (hs _ hw c (by simp)).1 (h c (hx.subset (by simp)))
  unfold trimSpace
  rw [trimLeftSpace_none hl, trimRightSpace_none hr]

/-- **C108** An account shown as enabled is disabled by giving zkserverctl what was shown. -/
theorem C108_shown_enabled (why : Bytes) (hw : why ≠ []) (ss : GoMap Bytes Nat) (a : State) (id : Id)
    (hid : id.length = 32) (he : (a.enabled.get id).isSome) (hd : a.disabled.get id = none) :
    (ctl why ss a cDisable (nameOf false id)).1 = .ok ∧
      Moved id a.enabled a.disabled (ctl why ss a cDisable (nameOf false id)).2.acc.enabled
        (ctl why ss a cDisable (nameOf false id)).2.acc.disabled ∧
      (ctl why ss a cDisable (nameOf false id)).2.closed = (ss.get (nameOf false id)).toList := by
  have ht : trimSpace (nameOf false id) = Hex.encode id := trim_hex fun c hc => .inl (hex_chars id c hc)
  have hx : Hex.string2ID (trimSpace (nameOf false id)) = some id := by rw [ht]; exact Hex.C20_roundtrip id hid
  have hv : valid (Hex.encode id) = Hex.encode id := valid_ascii fun c hc => hex_ascii c (hex_chars id c hc)
  rcases (C108_disable why hw ss a _ id hx).1 with ⟨h1, h2⟩ | ⟨-, -, h3⟩
  · refine ⟨h1, h2, ?_⟩
    rw [ctl_disable why hw, ht, hv]
    unfold socketDisable handleIdentityDisable
    rw [Hex.decode_encode]
    simp [hid, nameOf]
  · rcases h3 with h3 | h3
    · rw [h3] at he; cases he
    · rw [hd] at h3; cases h3

/-- **C108 is violated**: what is shown for a disabled account is not accepted to enable it. -/
theorem C108_shown_violated (why : Bytes) (hw : why ≠ []) (ss : GoMap Bytes Nat) (a : State) (id : Id) :
    ctl why ss a cEnable (nameOf true id) = (.refused (valid why), ⟨reply false why, a, [], false⟩) := by
  refine (C108_nonsense why hw ss a _ ?_).2
  rw [trim_hex (s := nameOf true id)]
  · rcases hd : Hex.decode (nameOf true id) with _ | b
    · rfl
    · have := ((Hex.decode_some_iff (nameOf true id)).1 (by rw [hd]; rfl)).2 46 (by simp [nameOf])
      exact absurd this (by decide)
  · intro c hc
    unfold nameOf at hc
    rw [if_pos rfl] at hc
    rcases List.mem_cons.1 hc with rfl | hc
    · exact .inr rfl
    · exact .inl (hex_chars id c hc)

/-- **C108, part.** Without the leading dot it is. -/
theorem C108_shown_disabled_partial (why : Bytes) (hw : why ≠ []) (ss : GoMap Bytes Nat) (a : State) (id : Id)
    (hid : id.length = 32) (hd : (a.disabled.get id).isSome) (he : a.enabled.get id = none) :
    (ctl why ss a cEnable ((nameOf true id).drop 1)).1 = .ok ∧
      Moved id a.disabled a.enabled (ctl why ss a cEnable ((nameOf true id).drop 1)).2.acc.disabled
        (ctl why ss a cEnable ((nameOf true id).drop 1)).2.acc.enabled := by
  have ht : trimSpace ((nameOf true id).drop 1) = Hex.encode id := trim_hex fun c hc => .inl (hex_chars id c hc)
  have hx : Hex.string2ID (trimSpace ((nameOf true id).drop 1)) = some id := by rw [ht]; exact Hex.C20_roundtrip id hid
  rcases (C108_enable why hw ss a _ id hx).1 with ⟨h1, h2⟩ | ⟨-, -, h3⟩
  · exact ⟨h1, h2⟩
  · rcases h3 with h3 | h3
    · rw [h3] at hd; cases hd
    · rw [he] at h3; cases h3

/-- **C108 is violated**: the server died while an account was made; nothing of the accounts after it is shown. -/
theorem C108_hidden_violated : ∃ s l, Reach Listing s ∧ l.Perm (entries s) ∧
    (s.enabled.get pubB.identity).isSome ∧ (dump l) = ([], false) := by
  refine ⟨_, [(Hex.encode pubA.identity, ⟨none, none⟩),
      (Hex.encode pubB.identity, ⟨some ⟨some pubB, false⟩, some []⟩)],
    ⟨[.createCheck [] pubA false, .createCrash pubA 0,
      .createCheck [⟨none, none⟩] pubB false, .createWrite pubB], run_of_exec rfl⟩, List.Perm.swap _ _ _, rfl, rfl⟩

/-- An identity whose nick contains a line break and a line for `pubB`. -/
def pubL : Pub := ⟨[65], [97, 10] ++ Hex.encode pubB.identity ++ [32] ++ pubB.nick, [], [], List.replicate 32 1, [], []⟩

/-- **C108 is violated**: nicks may contain line breaks, so that one account is shown as two, one of which does not
exist. -/
theorem C108_forged_violated : ∃ s s' l l', Reach Listing s ∧ Reach Listing s' ∧ l.Perm (entries s) ∧
    l'.Perm (entries s') ∧ s.enabled.get pubB.identity = none ∧ (s'.enabled.get pubB.identity).isSome ∧
    dump l = dump l' := by
  refine ⟨_, _, [(Hex.encode pubL.identity, ⟨some ⟨some pubL, false⟩, some []⟩)],
    [(Hex.encode pubA.identity, ⟨some ⟨some pubA, false⟩, some []⟩),
      (Hex.encode pubB.identity, ⟨some ⟨some pubB, false⟩, some []⟩)],
    ⟨[.createCheck [] pubL false, .createWrite pubL], run_of_exec rfl⟩,
    ⟨[.createCheck [] pubA false, .createWrite pubA,
      .createCheck [⟨some ⟨some pubA, false⟩, some []⟩] pubB false, .createWrite pubB], run_of_exec rfl⟩,
    List.Perm.refl _, ?_, ?_, ?_, ?_⟩
  · exact List.Perm.swap _ _ _
  · decide
  · decide
  · decide

/-! ## Examples -/

/-- "a\"b" and U+2028, which HTML and scripts care about. -/
example : quoted [97, 34, 98, 0xe2, 0x80, 0xa8] = [34, 97, 92, 34, 98, 92, 117, 50, 48, 50, 56, 34] := by decide
example : (dump [(nameOf true pubA.identity, ⟨some ⟨some pubA, false⟩, none⟩)]) =
    (46 :: Hex.encode pubA.identity ++ [32, 97, 10], true) := by decide
/-- An identity with a blank before and a line break after it. -/
example : Hex.string2ID (trimSpace (32 :: Hex.encode pubA.identity ++ [10])) = some pubA.identity := by decide
/-- The administrator disables the account of `pubA`, whose session is closed. -/
example : ctl [101] [(Hex.encode pubA.identity, 7)] ⟨[(pubA.identity, ⟨none, none⟩)], [], []⟩ cDisable
    (32 :: Hex.encode pubA.identity) = (.ok, ⟨reply true [], ⟨[], [(pubA.identity, ⟨none, none⟩)], []⟩, [7], false⟩) := by
  decide +kernel

end Verif.Admin
