import Mathlib.Data.List.Induction
import Mathlib.Tactic.ByContra
import Verif.Model.Settings
import Verif.Proofs.IniDB
import Verif.Proofs.IniDBFs

/-! # C88, C89: what a configuration file says is what is done -/

namespace Verif.Settings

open Verif

/-! ## What a file says -/

/-- The name given by a line `[name]`. -/
def headerOf (l : Str) : Option Str :=
  match IniDB.classify l with
  | .header n => some n
  | _ => none

/-- The section that is open after these lines: that of the last line `[name]`, at first the one without a name. -/
def sectionAfter (ls : List Str) : Str := (ls.filterMap headerOf).getLast?.getD []

/-- These lines set `key` in the section `sect` to `v`: a line `key = v` stands there and no later line of that section
sets `key`. -/
def Says (ls : List Str) (sect key : String) (v : Str) : Prop :=
  ∃ i l, ls[i]? = some l ∧ IniDB.classify l = .assign key.toList v ∧ sectionAfter (ls.take i) = sect.toList ∧
    ∀ j l' v', i < j → ls[j]? = some l' → IniDB.classify l' = .assign key.toList v' →
      sectionAfter (ls.take j) ≠ sect.toList

/-- Every line is a blank one, a comment, `key = value` or `[name]`. -/
def Clean (ls : List Str) : Prop := ∀ l ∈ ls, IniDB.classify l ≠ .bad

/-- The lines before the first one that is none of these. -/
def upTo (ls : List Str) : List Str := ls.takeWhile fun l => decide (IniDB.classify l ≠ .bad)

/-! ## The parser finds what the file says -/

/-- The parser's state after some lines, all of them clean. -/
def after (s : Str × Tables) (l : Str) : Str × Tables :=
  match IniDB.classify l with
  | .assign k v => (s.1, IniDB.put s.2 s.1 k v)
  | .header n => (n, IniDB.touch s.2 n)
  | _ => s

theorem upTo_cons (l : Str) (ls : List Str) :
    upTo (l :: ls) = if IniDB.classify l = .bad then [] else l :: upTo ls := by
  unfold upTo
  by_cases h : IniDB.classify l = .bad
  · rw [List.takeWhile_cons_of_neg (by simp [h]), if_pos h]
  · rw [List.takeWhile_cons_of_pos (by simpa using h), if_neg h]

theorem parseUpTo_eq (ls : List Str) (cur : Str) (f : Tables) :
    (parseUpTo ls cur f).1 = ((upTo ls).foldl after (cur, f)).2 := by
  induction ls generalizing cur f with
  | nil => rfl
  | cons l ls ih =>
    rw [upTo_cons, parseUpTo]
    cases h : IniDB.classify l with
    | bad => rfl
    | skip => rw [if_neg (by simp), List.foldl_cons, after, h]; exact ih ..
    | assign k v => rw [if_neg (by simp), List.foldl_cons, after, h]; exact ih ..
    | header n => rw [if_neg (by simp), List.foldl_cons, after, h]; exact ih ..

theorem parseUpTo_clean (ls : List Str) (cur : Str) (f : Tables) :
    (parseUpTo ls cur f).2 = true ↔ Clean ls := by
  induction ls generalizing cur f with
  | nil => simp [parseUpTo, Clean]
  | cons l ls ih =>
    unfold parseUpTo
    cases h : IniDB.classify l <;> simp [h, ih, Clean]

theorem upTo_clean {ls : List Str} (h : Clean ls) : upTo ls = ls := by
  induction ls with
  | nil => rfl
  | cons l ls ih =>
    rw [upTo_cons, if_neg (h l List.mem_cons_self), ih fun m hm => h m (List.mem_cons_of_mem _ hm)]

theorem clean_upTo (ls : List Str) : Clean (upTo ls) := by
  induction ls with
  | nil => exact fun l hl => by cases hl
  | cons l ls ih =>
    rw [upTo_cons]
    split
    · exact fun l hl => by cases hl
    · rename_i h
      intro m hm
      rcases List.mem_cons.1 hm with rfl | hm
      · exact h
      · exact ih m hm

theorem parseLines_eq (ls : List Str) (cur : Str) (f : Tables) :
    IniDB.parseLines ls cur f = if (parseUpTo ls cur f).2 then some (parseUpTo ls cur f).1 else none := by
  induction ls generalizing cur f with
  | nil => rfl
  | cons l ls ih =>
    unfold IniDB.parseLines parseUpTo
    cases h : IniDB.classify l <;> simp [ih]

theorem after_section (ls : List Str) (f : Tables) : (ls.foldl after ([], f)).1 = sectionAfter ls := by
  induction ls using List.reverseRecOn with
  | nil => rfl
  | append_singleton ls l ih =>
    rw [List.foldl_append, List.foldl_cons, List.foldl_nil]
    rw [sectionAfter, List.filterMap_append]
    generalize ls.foldl after ([], f) = st at *
    unfold after
    cases h : IniDB.classify l with
    | header n => simp [headerOf, h]
    | _ =>
      rw [List.filterMap_cons_none (by simp [headerOf, h]), List.filterMap_nil, List.append_nil]
      exact ih

theorem get_after_put (f : Tables) (t k v s key : Str) :
    get (IniDB.put f t k v) s key = if t = s ∧ k = key then some v else get f s key := by
  unfold get IniDB.put
  by_cases h1 : t = s
  · subst h1
    cases ht : GoMap.get f t with
    | none =>
      simp only [GoMap.get_set_self, true_and, GoMap.get_cons, GoMap.get_nil]
    | some m => simp only [GoMap.get_set_self, true_and, GoMap.get_set]
  · cases ht : GoMap.get f t <;> simp only [GoMap.get_set_ne _ _ h1, h1, false_and, if_false]

theorem get_after_touch (f : Tables) (n s key : Str) : get (IniDB.touch f n) s key = get f s key := by
  unfold get IniDB.touch
  cases hn : GoMap.get f n with
  | some m => rfl
  | none =>
    by_cases h : n = s
    · subst h; simp only [GoMap.get_set_self, hn, GoMap.get_nil]
    · simp only [GoMap.get_set_ne _ _ h]

/-- Lines that set something else say what the lines before them say. -/
theorem says_snoc_other {ls : List Str} {l : Str} {sect key : String} {v : Str}
    (h : ∀ w, IniDB.classify l = .assign key.toList w → sectionAfter ls ≠ sect.toList) :
    Says (ls ++ [l]) sect key v ↔ Says ls sect key v := by
  constructor
  · rintro ⟨i, m, hi, hm, hs, hl⟩
    have hlt : i < ls.length := by
      by_contra hge
      have : i = ls.length := by
        have := (List.getElem?_eq_some_iff.1 hi).1
        simp at this
        omega
      subst this
      simp at hi hs
      subst hi
      exact h v hm hs
    rw [List.getElem?_append_left hlt] at hi
    rw [List.take_append_of_le_length (by omega)] at hs
    refine ⟨i, m, hi, hm, hs, fun j l' v' hj hl' hc => ?_⟩
    have hjl := (List.getElem?_eq_some_iff.1 hl').1
    have := hl j l' v' hj (by rw [List.getElem?_append_left hjl]; exact hl') hc
    rwa [List.take_append_of_le_length (by omega)] at this
  · rintro ⟨i, m, hi, hm, hs, hl⟩
    have hlt := (List.getElem?_eq_some_iff.1 hi).1
    refine ⟨i, m, by rw [List.getElem?_append_left hlt]; exact hi, hm, ?_, fun j l' v' hj hl' hc => ?_⟩
    · rw [List.take_append_of_le_length (by omega)]; exact hs
    · have hjl := (List.getElem?_eq_some_iff.1 hl').1
      simp at hjl
      by_cases hj' : j < ls.length
      · rw [List.getElem?_append_left hj'] at hl'
        rw [List.take_append_of_le_length (by omega)]
        exact hl j l' v' hj hl' hc
      · have : j = ls.length := by omega
        subst this
        simp at hl'
        subst hl'
        simpa using h v' hc

/-- The last line that sets it decides. -/
theorem says_snoc_this {ls : List Str} {l : Str} {sect key : String} {v w : Str}
    (hc : IniDB.classify l = .assign key.toList w) (hs : sectionAfter ls = sect.toList) :
    Says (ls ++ [l]) sect key v ↔ v = w := by
  constructor
  · rintro ⟨i, m, hi, hm, hsi, hl⟩
    have hlen := (List.getElem?_eq_some_iff.1 hi).1
    simp at hlen
    by_cases hlt : i < ls.length
    · have := hl ls.length l w hlt (by simp) hc
      simp at this
      exact absurd hs this
    · have : i = ls.length := by omega
      subst this
      simp at hi
      subst hi
      rw [hc] at hm
      cases hm
      rfl
  · rintro rfl
    refine ⟨ls.length, l, by simp, hc, by simpa using hs, fun j l' v' hj hl' _ => ?_⟩
    have := (List.getElem?_eq_some_iff.1 hl').1
    simp at this
    omega

theorem get_says (ls : List Str) (sect key : String) (v : Str) :
    get (ls.foldl after ([], [])).2 sect.toList key.toList = some v ↔ Says ls sect key v := by
  induction ls using List.reverseRecOn with
  | nil => simp [get, Says, GoMap.get_nil]
  | append_singleton ls l ih =>
    rw [List.foldl_append, List.foldl_cons, List.foldl_nil]
    have hsec := after_section ls []
    generalize ls.foldl after ([], []) = st at *
    unfold after
    cases h : IniDB.classify l with
    | skip => exact ih.trans (says_snoc_other (by simp [h])).symm
    | bad => exact ih.trans (says_snoc_other (by simp [h])).symm
    | header n =>
      rw [says_snoc_other (by simp [h]), ← ih]
      exact iff_of_eq (by rw [get_after_touch])
    | assign k w =>
      change get (IniDB.put st.2 st.1 k w) sect.toList key.toList = some v ↔ _
      rw [get_after_put, hsec]
      by_cases hk : sectionAfter ls = sect.toList ∧ k = key.toList
      · rw [if_pos hk, says_snoc_this (h.trans (by rw [hk.2])) hk.1]
        simp [eq_comm]
      · rw [if_neg hk, says_snoc_other, ih]
        intro w' hw hs
        rw [h] at hw
        cases hw
        exact hk ⟨hs, rfl⟩

/-- What the parser has under a key is what the clean part of the file says. -/
theorem get_upTo (ls : List Str) (sect key : String) (v : Str) :
    get (parseUpTo ls [] []).1 sect.toList key.toList = some v ↔ Says (upTo ls) sect key v := by
  rw [parseUpTo_eq]
  exact get_says ..

theorem says_unique {ls : List Str} {sect key : String} {v w : Str} (hv : Says ls sect key v)
    (hw : Says ls sect key w) : v = w := by
  have h1 := (get_says ls sect key v).2 hv
  have h2 := (get_says ls sect key w).2 hw
  rw [h1] at h2
  exact Option.some.inj h2

/-- The value of a key, with what holds when the file does not set it. -/
theorem get_cases (ls : List Str) (sect key : String) :
    (∃ v, Says (upTo ls) sect key v ∧ get (parseUpTo ls [] []).1 sect.toList key.toList = some v) ∨
      ((∀ v, ¬ Says (upTo ls) sect key v) ∧ get (parseUpTo ls [] []).1 sect.toList key.toList = none) := by
  cases h : get (parseUpTo ls [] []).1 sect.toList key.toList with
  | some v => exact Or.inl ⟨v, (get_upTo ..).1 h, rfl⟩
  | none => exact Or.inr ⟨(fun v hv => by rw [(get_upTo ..).2 hv] at h; cases h), rfl⟩

/-! ## How values are read -/

/-- `x` is what the file sets `key` to, read as `R` says, or `d` if the file does not set it. -/
def Obeyed (ls : List Str) (sect key : String) {α : Type} (d : α) (R : Str → α → Prop) (x : α) : Prop :=
  (∀ v, Says ls sect key v → R v x) ∧ ((∀ v, ¬ Says ls sect key v) → x = d)

/-- yes or no, in capitals or not -/
def IsBool (v : Str) (b : Bool) : Prop :=
  (b = true → lower v = "yes".toList) ∧ (b = false → lower v = "no".toList)

/-- a decimal number that fits in 64 bits -/
def IsSize (v : Str) (n : Nat) : Prop := ∃ w, 0 < w ∧ v = IniDB.digits w n ∧ n < 10 ^ w ∧ n < 2 ^ 64

/-- a text, taken as it is -/
def IsText (v : Str) (s : Str) : Prop := s = v

/-- one of the three policies -/
def IsPolicy (v : Str) (s : Str) : Prop := s = v ∧ v ∈ ["yes".toList, "no".toList, "token".toList]

/-- A path: `~` alone or before a slash at its beginning stands for the home directory; any other path is taken as it
is. -/
def IsPath (home : Str) (v : Str) (s : Str) : Prop :=
  (∀ r, v = '~' :: r → (r = [] ∨ r.head? = some '/') → s = home ++ r) ∧ ((∀ r, v ≠ '~' :: r) → s = v)

theorem digits_acc (a : Nat) (w n : Nat) (r : Str) (h : n < 10 ^ w) :
    digits a (IniDB.digits w n ++ r) = digits (a * 10 ^ w + n) r := by
  induction w generalizing n r a with
  | zero => simp at h; subst h; simp [IniDB.digits]
  | succ w ih =>
    rw [IniDB.digits, List.append_assoc, ih _ _ _ (by rw [Nat.div_lt_iff_lt_mul (by omega)]; rw [Nat.pow_succ] at h; omega)]
    have hd : n % 10 < 10 := Nat.mod_lt _ (by omega)
    have hc := IniDB.digit_toNat n
    rw [List.singleton_append, digits, hc, if_pos (by omega)]
    congr 1
    rw [Nat.pow_succ]
    have := Nat.div_add_mod n 10
    have h3 : 10 * (a * 10 ^ w + n / 10) + (48 + n % 10 - 48) = a * (10 ^ w * 10) + (10 * (n / 10) + n % 10) := by
      rw [Nat.mul_add, ← Nat.mul_assoc a, Nat.mul_comm (a * 10 ^ w)]
      omega
    rw [h3, this]

theorem digit_of {c : Char} (h : 48 ≤ c.toNat ∧ c.toNat ≤ 57) : IniDB.digit (c.toNat - 48) = c := by
  unfold IniDB.digit
  rw [Nat.mod_eq_of_lt (by omega)]
  have : 48 + (c.toNat - 48) = c.toNat := by omega
  rw [this, Char.ofNat_toNat]

theorem digits_some (s : Str) : ∀ n, digits 0 s = some n → s = IniDB.digits s.length n ∧ n < 10 ^ s.length := by
  have key : ∀ (s : Str) a n, digits a s = some n → ∃ m, n = a * 10 ^ s.length + m ∧ m < 10 ^ s.length ∧ 
      s = IniDB.digits s.length m := by
    intro s
    induction s using List.reverseRecOn with
    | nil => intro a n h; simp [digits] at h; subst h; exact ⟨0, by simp [IniDB.digits]⟩
    | append_singleton s c ih =>
      intro a n h
      have hpre : ∀ (s : Str) a, digits a (s ++ [c]) = (digits a s).bind fun b => digits b [c] := by
        intro s
        induction s with
        | nil => intro a; rfl
        | cons d s ih2 =>
          intro a
          rw [List.cons_append, digits, digits]
          split
          · exact ih2 _
          · rfl
      rw [hpre] at h
      cases hb : digits a s with
      | none => rw [hb] at h; cases h
      | some b =>
        rw [hb, Option.bind_some, digits, digits] at h
        split at h
        · rename_i hc
          cases h
          obtain ⟨m, rfl, hm, hs⟩ := ih _ _ hb
          refine ⟨10 * m + (c.toNat - 48), ?_, ?_, ?_⟩
          · rw [List.length_append, List.length_singleton, Nat.pow_succ]
            rw [Nat.mul_add, ← Nat.mul_assoc a, Nat.mul_comm (a * _)]
            omega
          · rw [List.length_append, List.length_singleton, Nat.pow_succ]
            omega
          · rw [List.length_append, List.length_singleton, IniDB.digits]
            have h1 : (10 * m + (c.toNat - 48)) / 10 = m := by omega
            have h2 : IniDB.digit (10 * m + (c.toNat - 48)) = c := by
              have := digit_of hc
              unfold IniDB.digit at *
              have h3 : (10 * m + (c.toNat - 48)) % 10 = (c.toNat - 48) % 10 := by omega
              rw [h3]
              exact this
            rw [h1, h2, ← hs]
        · cases h
  intro n h
  obtain ⟨m, hn, hm, hs⟩ := key s 0 n h
  rw [Nat.zero_mul, Nat.zero_add] at hn
  subst hn
  exact ⟨hs, hm⟩

theorem parseUint_iff (v : Str) (n : Nat) : parseUint v = some n ↔ IsSize v n := by
  constructor
  · intro h
    unfold parseUint at h
    split at h
    · cases h
    · rename_i hv
      cases hd : digits 0 v with
      | none => rw [hd] at h; cases h
      | some m =>
        rw [hd] at h
        simp only at h
        split at h
        · cases h
          obtain ⟨h1, h2⟩ := digits_some v n hd
          exact ⟨v.length, List.length_pos_iff.2 hv, h1, h2, by assumption⟩
        · cases h
  · rintro ⟨w, hw, rfl, h1, h2⟩
    unfold parseUint
    have := digits_acc 0 w n [] h1
    rw [List.append_nil, Nat.zero_mul, Nat.zero_add, digits] at this
    rw [if_neg, this]
    · simp [h2]
    · intro h
      have := congrArg List.length h
      rw [IniDB.digits_length] at this
      simp at this
      omega

theorem iniBool_iff (ls : List Str) (d : Bool) (sect key : String) (b : Bool) :
    iniBool (parseUpTo ls [] []).1 d sect key = .ok b ↔ Obeyed (upTo ls) sect key d IsBool b := by
  unfold iniBool
  rcases get_cases ls sect key with ⟨v, hv, hg⟩ | ⟨hn, hg⟩
  · rw [hg]
    have hyn : ("yes".toList : Str) ≠ "no".toList := by decide
    have : Obeyed (upTo ls) sect key d IsBool b ↔ IsBool v b :=
      ⟨fun h => h.1 v hv, fun h => ⟨fun w hw => says_unique hv hw ▸ h, fun hn => absurd hv (hn v)⟩⟩
    rw [this]
    unfold IsBool
    by_cases h1 : lower v = "yes".toList
    · simp only [h1, if_true]
      cases b <;> simp
    · by_cases h2 : lower v = "no".toList
      · simp only [h2, if_true]
        cases b <;> simp
      · simp only [h1, h2, if_false]
        cases b <;> simp
  · rw [hg]
    simp only
    exact ⟨fun h => by cases h; exact ⟨fun v hv => absurd hv (hn v), fun _ => rfl⟩, fun h => by rw [h.2 hn]⟩

theorem iniSize_iff (ls : List Str) (d : Nat) (key : String) (n : Nat) :
    iniSize (parseUpTo ls [] []).1 d key = .ok n ↔ Obeyed (upTo ls) "" key d IsSize n := by
  unfold iniSize
  rw [show get (parseUpTo ls [] []).1 [] key.toList =
    get (parseUpTo ls [] []).1 ("" : String).toList key.toList from rfl]
  rcases get_cases ls "" key with ⟨v, hv, hg⟩ | ⟨hn, hg⟩
  · rw [hg]
    have : Obeyed (upTo ls) "" key d IsSize n ↔ IsSize v n :=
      ⟨fun h => h.1 v hv, fun h => ⟨fun w hw => says_unique hv hw ▸ h, fun hn => absurd hv (hn v)⟩⟩
    rw [this, ← parseUint_iff]
    simp only
    cases parseUint v <;> simp
  · rw [hg]
    exact ⟨fun h => by cases h; exact ⟨fun v hv => absurd hv (hn v), fun _ => rfl⟩, fun h => by rw [h.2 hn]⟩

theorem iniPolicy_iff (ls : List Str) (d : Str) (s : Str) :
    iniPolicy (parseUpTo ls [] []).1 d = .ok s ↔ Obeyed (upTo ls) "" "createpolicy" d IsPolicy s := by
  unfold iniPolicy
  rw [show get (parseUpTo ls [] []).1 [] "createpolicy".toList =
    get (parseUpTo ls [] []).1 ("" : String).toList "createpolicy".toList from rfl]
  rcases get_cases ls "" "createpolicy" with ⟨v, hv, hg⟩ | ⟨hn, hg⟩
  · rw [hg]
    have : Obeyed (upTo ls) "" "createpolicy" d IsPolicy s ↔ IsPolicy v s :=
      ⟨fun h => h.1 v hv, fun h => ⟨fun w hw => says_unique hv hw ▸ h, fun hn => absurd hv (hn v)⟩⟩
    rw [this]
    unfold IsPolicy
    simp only [List.mem_cons, List.not_mem_nil, or_false]
    have ok : (Except.ok v : Except Bad Str) = .ok s ↔ s = v := ⟨fun h => by cases h; rfl, fun h => by rw [h]⟩
    by_cases h1 : v = "yes".toList
    · rw [if_pos h1, ok]; exact ⟨fun h => ⟨h, Or.inl h1⟩, fun h => h.1⟩
    by_cases h2 : v = "no".toList
    · rw [if_neg h1, if_pos h2, ok]; exact ⟨fun h => ⟨h, Or.inr (Or.inl h2)⟩, fun h => h.1⟩
    by_cases h3 : v = "token".toList
    · rw [if_neg h1, if_neg h2, if_pos h3, ok]; exact ⟨fun h => ⟨h, Or.inr (Or.inr h3)⟩, fun h => h.1⟩
    · rw [if_neg h1, if_neg h2, if_neg h3]
      constructor
      · intro h; cases h
      · rintro ⟨-, h | h | h⟩
        · exact absurd h h1
        · exact absurd h h2
        · exact absurd h h3
  · rw [hg]
    exact ⟨fun h => by cases h; exact ⟨fun v hv => absurd hv (hn v), fun _ => rfl⟩, fun h => by rw [h.2 hn]⟩

theorem orOld_iff (ls : List Str) (d : Str) (sect key : String) :
    Obeyed (upTo ls) sect key d IsText (orOld (parseUpTo ls [] []).1 d sect key) := by
  unfold orOld
  rcases get_cases ls sect key with ⟨v, hv, hg⟩ | ⟨hn, hg⟩
  · rw [hg]
    exact ⟨fun w hw => says_unique hv hw ▸ rfl, fun hn => absurd hv (hn v)⟩
  · rw [hg]
    exact ⟨fun v hv => absurd hv (hn v), fun _ => rfl⟩

/-! ## The server, C88 -/

theorem server_parse {home t : Str} : server home (some t) =
    if (parseUpTo (IniDB.lines t) [] []).2 then Server.new.fill home (parseUpTo (IniDB.lines t) [] []).1
    else .error .file := by
  unfold server IniDB.parse
  simp only [parseLines_eq]
  cases (parseUpTo (IniDB.lines t) [] []).2 <;> rfl

theorem bind_ok {ε α β : Type} {x : Except ε α} {f : α → Except ε β} {y : β} :
    (x >>= f) = .ok y ↔ ∃ a, x = .ok a ∧ f a = .ok y := by
  cases x with
  | error e => exact ⟨(fun h => by cases h), (fun ⟨_, h, _⟩ => by cases h)⟩
  | ok a => exact ⟨fun h => ⟨a, rfl, h⟩, fun ⟨_, h, h'⟩ => by cases h; exact h'⟩

theorem bind_error {ε α β : Type} {x : Except ε α} {f : α → Except ε β} {e : ε} :
    (x >>= f) = .error e ↔ x = .error e ∨ ∃ a, x = .ok a ∧ f a = .error e := by
  cases x with
  | error e' =>
    refine ⟨fun h => Or.inl (by cases h; rfl), fun h => ?_⟩
    rcases h with h | ⟨_, h, _⟩
    · cases h; rfl
    · cases h
  | ok a =>
    refine ⟨fun h => Or.inr ⟨a, rfl, h⟩, fun h => ?_⟩
    rcases h with h | ⟨_, h, h'⟩
    · cases h
    · cases h; exact h'

/-- Each setting of the server is what the file says, or what the manual gives as default: `path` is how a path is to
be read. -/
structure Server.Obeys (home : Str) (path : Str → Str → Prop) (ls : List Str) (s : Server) : Prop where
  root : Obeyed ls "" "root" (home ++ "/.zkserver".toList) path s.root
  users : Obeyed ls "" "users" (home ++ "/.zkserver/home".toList) path s.users
  motd : Obeyed ls "" "motd" (home ++ "/.zkserver/motd.txt".toList) path s.motd
  logFile : Obeyed ls "log" "logfile" (home ++ "/.zkserver/zkserver.log".toList) path s.logFile
  listen : Obeyed ls "" "listen" "127.0.0.1:12345".toList (fun v x => '~' ∉ v → IsText v x) s.listen
  allowIdentify : Obeyed ls "" "allowidentify" false IsBool s.allowIdentify
  createPolicy : Obeyed ls "" "createpolicy" "no".toList IsPolicy s.createPolicy
  directory : Obeyed ls "" "directory" false IsBool s.directory
  maxAttachmentSize : Obeyed ls "" "maxattachmentsize" 10485760 IsSize s.maxAttachmentSize
  maxChunkSize : Obeyed ls "" "maxchunksize" 262144 IsSize s.maxChunkSize
  debug : Obeyed ls "log" "debug" false IsBool s.debug
  trace : Obeyed ls "log" "trace" false IsBool s.trace
  timeFormat : Obeyed ls "log" "timeformat" "2006-01-02 15:04:05".toList IsText s.timeFormat
  profiler : Obeyed ls "log" "profiler" "localhost:6060".toList IsText s.profiler

theorem tilde_none (home : Str) {v : Str} (h : '~' ∉ v) : tilde home v = v := by
  induction v with
  | nil => rfl
  | cons c r ih =>
    rw [tilde, if_neg, ih]
    · exact fun hr => h (List.mem_cons_of_mem _ hr)
    · exact fun hc => h (hc ▸ List.mem_cons_self)

theorem tilde_head (home r : Str) : tilde home ('~' :: r) = home ++ r := by rw [tilde, if_pos rfl]

/-- Paths that `strings.Replace` reads as it should: the only `~` that it may see stands at the beginning. -/
def Tame (v : Str) : Prop := v.head? = some '~' ∨ '~' ∉ v

theorem tilde_path (home : Str) {v : Str} (h : Tame v) : IsPath home v (tilde home v) := by
  constructor
  · rintro r rfl _
    exact tilde_head ..
  · intro hv
    rcases h with h | h
    · cases v with
      | nil => cases h
      | cons c r => cases h; exact absurd rfl (hv r)
    · exact tilde_none home h

theorem path_obeyed (ls : List Str) (home d : Str) (sect key : String) :
    Obeyed (upTo ls) sect key (tilde home d) (fun v x => Tame v → IsPath home v x)
      (tilde home (orOld (parseUpTo ls [] []).1 d sect key)) := by
  obtain ⟨h1, h2⟩ := orOld_iff ls d sect key
  exact ⟨fun v hv ht => by rw [h1 v hv]; exact tilde_path home ht, fun hn => by rw [h2 hn]⟩

theorem fill_obeys {home : Str} {ls : List Str} {s : Server}
    (h : Server.new.fill home (parseUpTo ls [] []).1 = .ok s) :
    s.Obeys home (fun v x => Tame v → IsPath home v x) (upTo ls) ∧ s.maxMsgSize = 263168 := by
  unfold Server.fill at h
  obtain ⟨ai, hai, h⟩ := bind_ok.1 h
  obtain ⟨cp, hcp, h⟩ := bind_ok.1 h
  obtain ⟨di, hdi, h⟩ := bind_ok.1 h
  obtain ⟨as, has, h⟩ := bind_ok.1 h
  obtain ⟨cs, hcs, h⟩ := bind_ok.1 h
  obtain ⟨db, hdb, h⟩ := bind_ok.1 h
  obtain ⟨tr, htr, h⟩ := bind_ok.1 h
  cases h
  refine ⟨⟨path_obeyed ls home Server.new.root _ _, path_obeyed ls home Server.new.users _ _,
    path_obeyed ls home Server.new.motd _ _, path_obeyed ls home Server.new.logFile _ _, ?_,
    (iniBool_iff ..).1 hai, (iniPolicy_iff ..).1 hcp, (iniBool_iff ..).1 hdi, (iniSize_iff ..).1 has,
    (iniSize_iff ..).1 hcs, (iniBool_iff ..).1 hdb, (iniBool_iff ..).1 htr, orOld_iff .., orOld_iff ..⟩, rfl⟩
  obtain ⟨h1, h2⟩ := orOld_iff ls Server.new.listen "" "listen"
  refine ⟨fun v hv ht => ?_, fun hn => ?_⟩
  · change tilde home _ = v
    rw [h1 v hv]
    exact tilde_none home ht
  · change tilde home _ = _
    rw [h2 hn]
    rfl

/-- C88, part: when the server takes its configuration file, every line of it is a blank one, a comment, a setting or
the name of a section, and each setting but the size of messages is the one that the file gives last, or else the
default. Missing: the size of messages (`C88_size_violated`), and paths and addresses with a `~` elsewhere than at the
beginning (`C88_tilde_violated`). -/
theorem C88_obeyed_partial {home t : Str} {s : Server} (h : server home (some t) = .ok s) :
    Clean (IniDB.lines t) ∧ s.Obeys home (fun v x => Tame v → IsPath home v x) (IniDB.lines t) := by
  rw [server_parse] at h
  split at h
  · rename_i hc
    have hcl := (parseUpTo_clean ..).1 hc
    have := fill_obeys h
    rw [upTo_clean hcl] at this
    exact ⟨hcl, this.1⟩
  · cases h

/-- The values that are checked are all of their kind. -/
structure Server.Proper (ls : List Str) : Prop where
  bools : ∀ p ∈ [("", "allowidentify"), ("", "directory"), ("log", "debug"), ("log", "trace")],
    ∀ v, Says ls p.1 p.2 v → ∃ b, IsBool v b
  policy : ∀ v, Says ls "" "createpolicy" v → v ∈ ["yes".toList, "no".toList, "token".toList]
  sizes : ∀ k ∈ ["maxattachmentsize", "maxchunksize"], ∀ v, Says ls "" k v → ∃ n, IsSize v n

theorem bool_ok {ls : List Str} {sect key : String} (d : Bool)
    (h : ∀ v, Says (upTo ls) sect key v → ∃ b, IsBool v b) :
    ∃ b, iniBool (parseUpTo ls [] []).1 d sect key = .ok b := by
  by_cases hs : ∃ v, Says (upTo ls) sect key v
  · obtain ⟨v, hv⟩ := hs
    obtain ⟨b, hb⟩ := h v hv
    exact ⟨b, (iniBool_iff ..).2 ⟨fun w hw => says_unique hv hw ▸ hb, fun hn => absurd hv (hn v)⟩⟩
  · exact ⟨d, (iniBool_iff ..).2 ⟨fun w hw => absurd ⟨w, hw⟩ hs, fun _ => rfl⟩⟩

theorem size_ok {ls : List Str} {key : String} (d : Nat)
    (h : ∀ v, Says (upTo ls) "" key v → ∃ b, IsSize v b) :
    ∃ b, iniSize (parseUpTo ls [] []).1 d key = .ok b := by
  by_cases hs : ∃ v, Says (upTo ls) "" key v
  · obtain ⟨v, hv⟩ := hs
    obtain ⟨b, hb⟩ := h v hv
    exact ⟨b, (iniSize_iff ..).2 ⟨fun w hw => says_unique hv hw ▸ hb, fun hn => absurd hv (hn v)⟩⟩
  · exact ⟨d, (iniSize_iff ..).2 ⟨fun w hw => absurd ⟨w, hw⟩ hs, fun _ => rfl⟩⟩

theorem policy_ok {ls : List Str} (d : Str)
    (h : ∀ v, Says (upTo ls) "" "createpolicy" v → v ∈ ["yes".toList, "no".toList, "token".toList]) :
    ∃ b, iniPolicy (parseUpTo ls [] []).1 d = .ok b := by
  by_cases hs : ∃ v, Says (upTo ls) "" "createpolicy" v
  · obtain ⟨v, hv⟩ := hs
    exact ⟨v, (iniPolicy_iff ..).2 ⟨fun w hw => says_unique hv hw ▸ ⟨rfl, h v hv⟩, fun hn => absurd hv (hn v)⟩⟩
  · exact ⟨d, (iniPolicy_iff ..).2 ⟨fun w hw => absurd ⟨w, hw⟩ hs, fun _ => rfl⟩⟩

/-- C88: the server takes a configuration file exactly when each line is of one of the four kinds and each value that
is checked is of its kind. -/
theorem C88_accepted (home t : Str) :
    (∃ s, server home (some t) = .ok s) ↔ Clean (IniDB.lines t) ∧ Server.Proper (IniDB.lines t) := by
  constructor
  · rintro ⟨s, h⟩
    obtain ⟨hc, ho⟩ := C88_obeyed_partial h
    refine ⟨hc, ⟨?_, fun v hv => (ho.createPolicy.1 v hv).2, ?_⟩⟩
    · intro p hp v hv
      simp only [List.mem_cons, List.not_mem_nil, or_false] at hp
      rcases hp with rfl | rfl | rfl | rfl
      · exact ⟨_, ho.allowIdentify.1 v hv⟩
      · exact ⟨_, ho.directory.1 v hv⟩
      · exact ⟨_, ho.debug.1 v hv⟩
      · exact ⟨_, ho.trace.1 v hv⟩
    · intro k hk v hv
      simp only [List.mem_cons, List.not_mem_nil, or_false] at hk
      rcases hk with rfl | rfl
      · exact ⟨_, ho.maxAttachmentSize.1 v hv⟩
      · exact ⟨_, ho.maxChunkSize.1 v hv⟩
  · rintro ⟨hc, hp⟩
    rw [server_parse, if_pos ((parseUpTo_clean ..).2 hc)]
    rw [← upTo_clean hc] at hp
    obtain ⟨ai, hai⟩ := bool_ok Server.new.allowIdentify (hp.bools ("", "allowidentify") (by simp))
    obtain ⟨cp, hcp⟩ := policy_ok Server.new.createPolicy hp.policy
    obtain ⟨di, hdi⟩ := bool_ok Server.new.directory (hp.bools ("", "directory") (by simp))
    obtain ⟨as, has⟩ := size_ok Server.new.maxAttachmentSize (hp.sizes "maxattachmentsize" (by simp))
    obtain ⟨cs, hcs⟩ := size_ok Server.new.maxChunkSize (hp.sizes "maxchunksize" (by simp))
    obtain ⟨db, hdb⟩ := bool_ok Server.new.debug (hp.bools ("log", "debug") (by simp))
    obtain ⟨tr, htr⟩ := bool_ok Server.new.trace (hp.bools ("log", "trace") (by simp))
    unfold Server.fill
    exact ⟨_, bind_ok.2 ⟨ai, hai, bind_ok.2 ⟨cp, hcp, bind_ok.2 ⟨di, hdi, bind_ok.2 ⟨as, has, bind_ok.2 ⟨cs, hcs,
      bind_ok.2 ⟨db, hdb, bind_ok.2 ⟨tr, htr, rfl⟩⟩⟩⟩⟩⟩⟩⟩

/-- C88: a server opens up only when told to. Whatever the file, strangers may make accounts, or the server name
itself, or keep a directory, only if the file has a line that says so. -/
theorem C88_closed {home t : Str} {s : Server} (h : server home (some t) = .ok s) :
    (s.createPolicy = "no".toList ∨ Says (IniDB.lines t) "" "createpolicy" s.createPolicy) ∧
    (s.allowIdentify = false ∨ ∃ v, Says (IniDB.lines t) "" "allowidentify" v ∧ lower v = "yes".toList) ∧
    (s.directory = false ∨ ∃ v, Says (IniDB.lines t) "" "directory" v ∧ lower v = "yes".toList) := by
  obtain ⟨-, ho⟩ := C88_obeyed_partial h
  have key : ∀ {k : String} {b : Bool}, Obeyed (IniDB.lines t) "" k false IsBool b →
      b = false ∨ ∃ v, Says (IniDB.lines t) "" k v ∧ lower v = "yes".toList := by
    intro k b hb
    cases b with
    | false => exact Or.inl rfl
    | true =>
      by_cases hs : ∃ v, Says (IniDB.lines t) "" k v
      · obtain ⟨v, hv⟩ := hs
        exact Or.inr ⟨v, hv, (hb.1 v hv).1 rfl⟩
      · exact absurd (hb.2 fun v hv => hs ⟨v, hv⟩) (by decide)
  refine ⟨?_, key ho.allowIdentify, key ho.directory⟩
  by_cases hs : ∃ v, Says (IniDB.lines t) "" "createpolicy" v
  · obtain ⟨v, hv⟩ := hs
    have := (ho.createPolicy.1 v hv).1
    exact Or.inr (this ▸ hv)
  · exact Or.inl (ho.createPolicy.2 fun v hv => hs ⟨v, hv⟩)

/-- The fault that an error of the server points at is there. -/
def Server.Fault (ls : List Str) : Bad → Prop
  | .file => ¬ Clean ls
  | .bool k => ∃ sect v, Says ls sect k v ∧ ∀ b, ¬ IsBool v b
  | .policy => ∃ v, Says ls "" "createpolicy" v ∧ v ∉ ["yes".toList, "no".toList, "token".toList]
  | .size k => ∃ v, Says ls "" k v ∧ ∀ n, ¬ IsSize v n
  | _ => False

theorem bool_bad {ls : List Str} {d : Bool} {sect key : String} {e : Bad}
    (h : iniBool (parseUpTo ls [] []).1 d sect key = .error e) :
    e = .bool key ∧ ∃ v, Says (upTo ls) sect key v ∧ ∀ b, ¬ IsBool v b := by
  unfold iniBool at h
  rcases get_cases ls sect key with ⟨v, hv, hg⟩ | ⟨hn, hg⟩
  · rw [hg] at h
    simp only at h
    split at h
    · cases h
    · split at h
      · cases h
      · rename_i h1 h2
        cases h
        refine ⟨rfl, v, hv, fun b hb => ?_⟩
        cases b
        · exact h2 (hb.2 rfl)
        · exact h1 (hb.1 rfl)
  · rw [hg] at h; cases h

theorem size_bad {ls : List Str} {d : Nat} {key : String} {e : Bad}
    (h : iniSize (parseUpTo ls [] []).1 d key = .error e) :
    e = .size key ∧ ∃ v, Says (upTo ls) "" key v ∧ ∀ n, ¬ IsSize v n := by
  unfold iniSize at h
  rw [show get (parseUpTo ls [] []).1 [] key.toList =
    get (parseUpTo ls [] []).1 ("" : String).toList key.toList from rfl] at h
  rcases get_cases ls "" key with ⟨v, hv, hg⟩ | ⟨hn, hg⟩
  · rw [hg] at h
    simp only at h
    split at h
    · rename_i h1
      cases h
      exact ⟨rfl, v, hv, fun n hn => by rw [(parseUint_iff v n).2 hn] at h1; cases h1⟩
    · cases h
  · rw [hg] at h; cases h

theorem policy_bad {ls : List Str} {d : Str} {e : Bad}
    (h : iniPolicy (parseUpTo ls [] []).1 d = .error e) :
    e = .policy ∧ ∃ v, Says (upTo ls) "" "createpolicy" v ∧ v ∉ ["yes".toList, "no".toList, "token".toList] := by
  unfold iniPolicy at h
  rw [show get (parseUpTo ls [] []).1 [] "createpolicy".toList =
    get (parseUpTo ls [] []).1 ("" : String).toList "createpolicy".toList from rfl] at h
  rcases get_cases ls "" "createpolicy" with ⟨v, hv, hg⟩ | ⟨hn, hg⟩
  · rw [hg] at h
    simp only at h
    split at h
    · cases h
    · split at h
      · cases h
      · split at h
        · cases h
        · rename_i h1 h2 h3
          cases h
          refine ⟨rfl, v, hv, ?_⟩
          simp only [List.mem_cons, List.not_mem_nil, or_false]
          rintro (hh | hh | hh)
          · exact h1 hh
          · exact h2 hh
          · exact h3 hh
  · rw [hg] at h; cases h

/-- C88: when the file is refused, the error points at a fault that the file has. -/
theorem C88_reason {home t : Str} {e : Bad} (h : server home (some t) = .error e) :
    Server.Fault (IniDB.lines t) e := by
  rw [server_parse] at h
  split at h
  · rename_i hc
    have hu := upTo_clean ((parseUpTo_clean ..).1 hc)
    generalize hls : IniDB.lines t = ls at *
    have hb : ∀ {d : Bool} {sect key : String}, iniBool (parseUpTo ls [] []).1 d sect key = .error e →
        Server.Fault ls e := by
      intro d sect key hh
      obtain ⟨rfl, v, hv⟩ := bool_bad hh
      rw [hu] at hv
      exact ⟨sect, v, hv⟩
    have hs : ∀ {d : Nat} {key : String}, iniSize (parseUpTo ls [] []).1 d key = .error e →
        Server.Fault ls e := by
      intro d key hh
      obtain ⟨rfl, v, hv⟩ := size_bad hh
      rw [hu] at hv
      exact ⟨v, hv⟩
    unfold Server.fill at h
    rcases bind_error.1 h with h | ⟨_, _, h⟩
    · exact hb h
    rcases bind_error.1 h with h | ⟨_, _, h⟩
    · obtain ⟨rfl, v, hv⟩ := policy_bad h
      rw [hu] at hv
      exact ⟨v, hv⟩
    rcases bind_error.1 h with h | ⟨_, _, h⟩
    · exact hb h
    rcases bind_error.1 h with h | ⟨_, _, h⟩
    · exact hs h
    rcases bind_error.1 h with h | ⟨_, _, h⟩
    · exact hs h
    rcases bind_error.1 h with h | ⟨_, _, h⟩
    · exact hb h
    rcases bind_error.1 h with h | ⟨_, _, h⟩
    · exact hb h
    cases h
  · rename_i hc
    cases h
    exact fun hcl => hc ((parseUpTo_clean ..).2 hcl)

/-- A configuration that sets something of each kind, some of it twice. -/
def sample : Str := "root = ~/zk
createpolicy = yes
; comment
createpolicy = token
allowidentify = YES
maxchunksize = 00512
[log]
logfile=/var/log/zk.log
debug = no
[other]
debug = maybe
".toList

/-- The server takes this file, and does what it says. -/
example : (match server "/home/zk".toList (some sample) with
    | .ok s => decide (s.root = "/home/zk/zk".toList ∧ s.users = "/home/zk/.zkserver/home".toList ∧
        s.createPolicy = "token".toList ∧ s.allowIdentify = true ∧ s.maxChunkSize = 512 ∧
        s.logFile = "/var/log/zk.log".toList ∧ s.debug = false)
    | .error _ => false) = true := by decide +kernel

/-- A file with a value that is not of its kind, and one with a line of no kind. -/
example : (server "/h".toList (some "[log]\ntrace = on".toList) = .error (.bool "trace")) ∧
    (server "/h".toList (some "createpolicy = Yes".toList) = .error .policy) ∧
    (server "/h".toList (some "maxchunksize = 18446744073709551616".toList) = .error (.size "maxchunksize")) ∧
    (server "/h".toList (some "directory".toList) = .error .file) := by
  refine ⟨?_, ?_, ?_, ?_⟩ <;> rfl

theorem says_of {t : Str} {sect key : String} {v : Str}
    (h : get (parseUpTo (IniDB.lines t) [] []).1 sect.toList key.toList = some v)
    (hc : (parseUpTo (IniDB.lines t) [] []).2 = true) : Says (IniDB.lines t) sect key v := by
  have := (get_upTo ..).1 h
  rwa [upTo_clean ((parseUpTo_clean ..).1 hc)] at this

/-- C88 fails: the size of messages in the file, which the shipped zkserver.conf sets and documents, is never read. The
server takes any such line, and stays with 263168; so it also takes a size of chunks beyond it, which the same file
forbids. -/
theorem C88_size_violated :
    (∀ home t s, server home (some t) = .ok s → s.maxMsgSize = 263168) ∧
    (∃ home t s, server home (some t) = .ok s ∧ Says (IniDB.lines t) "" "maxmsgsize" "1048576".toList) ∧
    (∃ home t s, server home (some t) = .ok s ∧ Says (IniDB.lines t) "" "maxmsgsize" "lots".toList) ∧
    (∃ home t s, server home (some t) = .ok s ∧ s.maxMsgSize < s.maxChunkSize) := by
  refine ⟨?_, ?_, ?_, ?_⟩
  · intro home t s h
    rw [server_parse] at h
    split at h
    · exact (fill_obeys h).2
    · cases h
  · exact ⟨[], "maxmsgsize = 1048576".toList, _, rfl, says_of (by decide +kernel) (by decide +kernel)⟩
  · exact ⟨[], "maxmsgsize = lots".toList, _, rfl, says_of (by decide +kernel) (by decide +kernel)⟩
  · exact ⟨[], "maxchunksize = 1048576".toList, _, rfl, by decide +kernel⟩

/-- C88 fails: a `~` in the middle of a path is replaced as well. -/
theorem C88_tilde_violated :
    ∃ home t s, server home (some t) = .ok s ∧ Says (IniDB.lines t) "" "users" "/srv/zk~1/home".toList ∧
      s.users = "/srv/zk/home/zk1/home".toList ∧ ¬ IsPath home "/srv/zk~1/home".toList s.users := by
  refine ⟨"/home/zk".toList, "users = /srv/zk~1/home".toList, _, rfl,
    says_of (by decide +kernel) (by decide +kernel), by decide +kernel, fun h => ?_⟩
  have := h.2 (fun r hr => by cases hr)
  revert this
  decide +kernel

/-- C88 fails: "root directory for zkserver settings, logs etc". A file that moves just the root leaves the users, the
log and the message of the day where they were. -/
theorem C88_root_violated :
    ∃ home t s, server home (some t) = .ok s ∧ s.root = "/srv/zk".toList ∧
      s.users = "/home/zk/.zkserver/home".toList ∧ s.logFile = "/home/zk/.zkserver/zkserver.log".toList ∧
      s.motd = "/home/zk/.zkserver/motd.txt".toList :=
  ⟨"/home/zk".toList, "root = /srv/zk".toList, _, rfl, by decide +kernel, by decide +kernel, by decide +kernel,
    by decide +kernel⟩

/-! ## The client, C89 -/

/-- A path of the client: `~` alone or before a slash is the home directory; other paths that begin with `~` name
someone else's home and are refused; all others are taken as they are. -/
def IsLoc (v : Str) (x : Loc) : Prop :=
  (∀ r, v = '~' :: r → (r = [] ∨ r.head? = some '/' ∨ r.head? = some '\\') ∧ x = .home r) ∧
    ((∀ r, v ≠ '~' :: r) → x = .plain v)

theorem expand_iff (v : Str) (x : Loc) : expand v = .ok x ↔ IsLoc v x := by
  cases v with
  | nil =>
    refine ⟨fun h => ?_, fun h => ?_⟩
    · cases h; exact ⟨(fun r hr => by cases hr), fun _ => rfl⟩
    · rw [h.2 (fun r hr => by cases hr)]; rfl
  | cons c r =>
    change (if c ≠ '~' then _ else _) = _ ↔ _
    by_cases hc : c = '~'
    · subst hc
      rw [if_neg (by simp)]
      have hx : IsLoc ('~' :: r) x ↔ (r = [] ∨ r.head? = some '/' ∨ r.head? = some '\\') ∧ x = .home r :=
        ⟨fun h => h.1 r rfl, fun h => ⟨(fun r' hr => by cases hr; exact h), fun hn => absurd rfl (hn r)⟩⟩
      rw [hx]
      cases r with
      | nil => simp [eq_comm]
      | cons d r' =>
        simp only [List.head?_cons, Option.some.injEq, reduceCtorEq, false_or]
        split
        · rename_i hd; simp [hd, eq_comm]
        · rename_i hd; simp [hd]
    · rw [if_pos hc]
      refine ⟨fun h => ?_, fun h => ?_⟩
      · cases h; exact ⟨(fun r' hr => by cases hr; exact absurd rfl hc), fun _ => rfl⟩
      · rw [h.2 (fun r' hr => by cases hr; exact hc rfl)]

/-- The names of the colours in the shipped file. -/
def colorName : Color → String
  | .na => "na" | .black => "black" | .red => "red" | .green => "green" | .yellow => "yellow" | .blue => "blue"
  | .magenta => "magenta" | .cyan => "cyan" | .white => "white"

theorem textToColor_iff (v : Str) (c : Color) : textToColor v = some c ↔ lower v = (colorName c).toList := by
  unfold textToColor
  simp only
  generalize lower v = l
  constructor
  · intro h
    repeat' split at h
    all_goals first | (cases h; assumption) | (cases h)
  · intro h
    subst h
    cases c <;> decide

/-- Parts of a text between separators. -/
def joined (sep : Char) : List Str → Str
  | [] => []
  | [l] => l
  | l :: ls => l ++ sep :: joined sep ls

theorem split_ne (sep : Char) (s : Str) : split sep s ≠ [] := by
  cases s with
  | nil => simp [split]
  | cons c s =>
    rw [split]
    split
    · simp
    · split <;> simp

theorem split_joined (sep : Char) (s : Str) : joined sep (split sep s) = s ∧ ∀ l ∈ split sep s, sep ∉ l := by
  induction s with
  | nil => simp [split, joined]
  | cons c s ih =>
    rw [split]
    split
    · rename_i hc
      refine ⟨?_, ?_⟩
      · cases hs : split sep s with
        | nil => exact absurd hs (split_ne sep s)
        | cons l ls => rw [hs] at ih; rw [joined, ih.1, hc]; rfl; simp
      · intro l hl
        rcases List.mem_cons.1 hl with rfl | hl
        · simp
        · exact ih.2 l hl
    · rename_i hc
      cases hs : split sep s with
      | nil => exact absurd hs (split_ne sep s)
      | cons l ls =>
        rw [hs] at ih
        simp only
        refine ⟨?_, ?_⟩
        · cases ls with
          | nil => simp only [joined] at ih ⊢; rw [ih.1]
          | cons l' ls' => simp only [joined] at ih ⊢; rw [List.cons_append, ih.1]
        · intro m hm
          rcases List.mem_cons.1 hm with rfl | hm
          · intro h
            rcases List.mem_cons.1 h with h | h
            · exact hc h.symm
            · exact ih.2 l List.mem_cons_self h
          · exact ih.2 m (List.mem_cons_of_mem _ hm)

/-- `attrs` takes a list of bold, underline and reverse, and sets the bits that are named. -/
theorem attrs_iff (ks : List Str) (a b : Attr) :
    attrs a ks = some b ↔
      (∀ k ∈ ks, lower k = "bold".toList ∨ lower k = "underline".toList ∨ lower k = "reverse".toList) ∧
      (b.bold = true ↔ a.bold = true ∨ ∃ k ∈ ks, lower k = "bold".toList) ∧
      (b.underline = true ↔ a.underline = true ∨ ∃ k ∈ ks, lower k = "underline".toList) ∧
      (b.reverse = true ↔ a.reverse = true ∨ ∃ k ∈ ks, lower k = "reverse".toList) := by
  have d1 : ("bold".toList : Str) ≠ "underline".toList := by decide
  have d2 : ("bold".toList : Str) ≠ "reverse".toList := by decide
  have d3 : ("underline".toList : Str) ≠ "reverse".toList := by decide
  induction ks generalizing a with
  | nil =>
    rcases a with ⟨a1, a2, a3⟩
    rcases b with ⟨b1, b2, b3⟩
    simp only [attrs, Option.some.injEq, Attr.mk.injEq, List.not_mem_nil, false_and, exists_false, or_false]
    revert a1 a2 a3 b1 b2 b3
    simp only [false_imp_iff, implies_true, true_and]
    decide
  | cons k ks ih =>
    rw [attrs]
    by_cases h1 : lower k = "bold".toList
    · rw [if_pos h1]; refine (ih _).trans ?_
      simp only [List.forall_mem_cons, List.exists_mem_cons_iff, h1, d1, d2, true_or, or_true, true_and, false_or]
    by_cases h2 : lower k = "underline".toList
    · rw [if_neg h1, if_pos h2]; refine (ih _).trans ?_
      simp only [List.forall_mem_cons, List.exists_mem_cons_iff, h2, d1.symm, d3, true_or, or_true, true_and, false_or]
    by_cases h3 : lower k = "reverse".toList
    · rw [if_neg h1, if_neg h2, if_pos h3]; refine (ih _).trans ?_
      simp only [List.forall_mem_cons, List.exists_mem_cons_iff, h3, d2.symm, d3.symm, true_or, or_true, true_and, false_or]
    · rw [if_neg h1, if_neg h2, if_neg h3]
      simp only [List.forall_mem_cons, h1, h2, h3, or_self, false_and, reduceCtorEq]

theorem split_sep (sep : Char) {l : Str} (h : sep ∉ l) (s : Str) :
    split sep (l ++ sep :: s) = l :: split sep s := by
  induction l with
  | nil => rw [List.nil_append, split, if_pos rfl]
  | cons c l ih =>
    have hc : c ≠ sep := fun hc => h (by rw [hc]; exact List.mem_cons_self)
    rw [List.cons_append, split, if_neg hc,
      ih fun hl => h (List.mem_cons_of_mem _ hl)]

theorem split_one (sep : Char) {l : Str} (h : sep ∉ l) : split sep l = [l] := by
  induction l with
  | nil => rfl
  | cons c l ih =>
    have hc : c ≠ sep := fun hc => h (by rw [hc]; exact List.mem_cons_self)
    rw [split, if_neg hc, ih fun hl => h (List.mem_cons_of_mem _ hl)]

theorem split_iff (sep : Char) (s : Str) (ls : List Str) (hne : ls ≠ []) :
    split sep s = ls ↔ s = joined sep ls ∧ ∀ l ∈ ls, sep ∉ l := by
  constructor
  · rintro rfl
    exact ⟨(split_joined sep s).1.symm, (split_joined sep s).2⟩
  · rintro ⟨rfl, h⟩
    induction ls with
    | nil => exact absurd rfl hne
    | cons l ls ih =>
      cases ls with
      | nil => exact split_one sep (h l List.mem_cons_self)
      | cons l' ls =>
        rw [joined, split_sep sep (h l List.mem_cons_self),
          ih (by simp) fun m hm => h m (List.mem_cons_of_mem _ hm)]
        simp

/-- A colour: `attributes:foreground:background`, the attributes being bold, underline and reverse separated by
commas. -/
def IsInk (v : Str) (i : Ink) : Prop :=
  ∃ x y z ks, v = joined ':' [x, y, z] ∧ ':' ∉ x ∧ ':' ∉ y ∧ ':' ∉ z ∧
    lower y = (colorName i.fg).toList ∧ lower z = (colorName i.bg).toList ∧
    ks ≠ [] ∧ lower x = joined ',' ks ∧ (∀ k ∈ ks, k ∈ ["bold".toList, "underline".toList, "reverse".toList]) ∧
    (i.attr.bold = true ↔ "bold".toList ∈ ks) ∧ (i.attr.underline = true ↔ "underline".toList ∈ ks) ∧
    (i.attr.reverse = true ↔ "reverse".toList ∈ ks)

theorem lowerChar_twice (c : Char) : lowerChar (lowerChar c) = lowerChar c := by
  have h : ∀ n, n < 123 → (Char.ofNat n).toNat = n := by decide
  by_cases h1 : 65 ≤ c.toNat ∧ c.toNat ≤ 90
  · have e : lowerChar c = Char.ofNat (c.toNat + 32) := by rw [lowerChar, if_pos h1]
    have := h (c.toNat + 32) (by omega)
    rw [e, lowerChar, if_neg (by omega), if_neg (by omega), if_neg (by omega)]
  · by_cases h2 : c.toNat = 0x130
    · have e : lowerChar c = 'i' := by rw [lowerChar, if_neg h1, if_pos h2]
      rw [e]; decide
    · by_cases h3 : c.toNat = 0x212a
      · have e : lowerChar c = 'k' := by rw [lowerChar, if_neg h1, if_neg h2, if_pos h3]
        rw [e]; decide
      · have e : lowerChar c = c := by rw [lowerChar, if_neg h1, if_neg h2, if_neg h3]
        rw [e, e]

theorem mem_split {sep : Char} {s k : Str} {c : Char} (hk : k ∈ split sep s) (hc : c ∈ k) : c ∈ s := by
  induction s generalizing k with
  | nil => rw [split, List.mem_singleton] at hk; subst hk; exact hc
  | cons d s ih =>
    rw [split] at hk
    split at hk
    · rcases List.mem_cons.1 hk with rfl | hk
      · cases hc
      · exact List.mem_cons_of_mem _ (ih hk hc)
    · cases hs : split sep s with
      | nil => exact absurd hs (split_ne sep s)
      | cons l ls =>
        rw [hs] at hk
        rcases List.mem_cons.1 hk with rfl | hk
        · rcases List.mem_cons.1 hc with rfl | hc
          · exact List.mem_cons_self
          · exact List.mem_cons_of_mem _ (ih (by rw [hs]; exact List.mem_cons_self) hc)
        · exact List.mem_cons_of_mem _ (ih (by rw [hs]; exact List.mem_cons_of_mem _ hk) hc)

theorem split_lower {sep : Char} {x k : Str} (h : k ∈ split sep (lower x)) : lower k = k := by
  unfold lower
  conv_rhs => rw [← List.map_id k]
  refine List.map_congr_left fun c hc => ?_
  obtain ⟨d, _, rfl⟩ := List.mem_map.1 (mem_split h hc)
  exact lowerChar_twice d

theorem colorToAnsi_iff (ttk : Ink → Bool) (v : Str) (i : Ink) :
    colorToAnsi ttk v = some i ↔ IsInk v i ∧ ttk i = true := by
  constructor
  · intro h
    unfold colorToAnsi at h
    split at h
    · rename_i x y z hs
      split at h
      · cases h
      · rename_i a ha
        split at h
        · cases h
        · rename_i fg hfg
          split at h
          · cases h
          · rename_i bg hbg
            split at h
            · rename_i ht
              cases h
              obtain ⟨hv, hno⟩ := (split_iff ':' v [x, y, z] (by simp)).1 hs
              obtain ⟨h1, h2, h3, h4⟩ := (attrs_iff ..).1 ha
              obtain ⟨hj, hcm⟩ := split_joined ',' (lower x)
              have hl : ∀ {k w : Str}, k ∈ split ',' (lower x) → (lower k = w ↔ k = w) := by
                intro k w hk
                rw [split_lower hk]
              have hm : ∀ {w : Str}, (∃ k ∈ split ',' (lower x), lower k = w) ↔ w ∈ split ',' (lower x) := by
                intro w
                refine ⟨fun ⟨k, hk, e⟩ => (hl hk).1 e ▸ hk, fun hw => ⟨w, hw, (hl hw).2 rfl⟩⟩
              refine ⟨⟨x, y, z, split ',' (lower x), hv, hno x (by simp), hno y (by simp), hno z (by simp),
                (textToColor_iff ..).1 hfg, (textToColor_iff ..).1 hbg, split_ne ',' (lower x), hj.symm, ?_, ?_, ?_, ?_⟩, ht⟩
              · intro k hk
                have := h1 k hk
                rw [split_lower hk] at this
                simpa using this
              · rw [h2, hm]; simp
              · rw [h3, hm]; simp
              · rw [h4, hm]; simp
            · cases h
    · cases h
  · rintro ⟨⟨x, y, z, ks, rfl, hx, hy, hz, hfg, hbg, hne, hks, hw, h1, h2, h3⟩, ht⟩
    unfold colorToAnsi
    have hsp : split ':' (joined ':' [x, y, z]) = [x, y, z] := (split_iff ':' _ [x, y, z] (by simp)).2
      ⟨rfl, by simp [hx, hy, hz]⟩
    have hcomma : split ',' (lower x) = ks := (split_iff ',' _ ks hne).2 ⟨hks, fun k hk => by
      have := hw k hk
      simp only [List.mem_cons, List.not_mem_nil, or_false] at this
      rcases this with rfl | rfl | rfl <;> decide⟩
    have hfix : ∀ {k w : Str}, k ∈ ks → (lower k = w ↔ k = w) := by
      intro k w hk
      rw [split_lower (x := x) (sep := ',') (by rw [hcomma]; exact hk)]
    have hm : ∀ {w : Str}, (∃ k ∈ ks, lower k = w) ↔ w ∈ ks := by
      intro w
      refine ⟨fun ⟨k, hk, e⟩ => (hfix hk).1 e ▸ hk, fun hw => ⟨w, hw, (hfix hw).2 rfl⟩⟩
    have ha : attrs {} ks = some i.attr := by
      rw [attrs_iff, hm, hm, hm]
      refine ⟨fun k hk => ?_, ?_, ?_, ?_⟩
      · rw [(hfix hk : lower k = k ↔ k = k).2 rfl]
        simpa using hw k hk
      · simpa using h1
      · simpa using h2
      · simpa using h3
    rw [hsp]
    simp only
    rw [hcomma, ha, (textToColor_iff ..).2 hfg, (textToColor_iff ..).2 hbg]
    simp only
    rw [if_pos ht]

theorem iniColor_iff (ttk : Ink → Bool) (ls : List Str) (d : Ink) (key : String) (i : Ink) :
    iniColor ttk (parseUpTo ls [] []).1 d key = .ok i ↔
      Obeyed (upTo ls) "ui" key d (fun v i => IsInk v i ∧ ttk i = true) i := by
  unfold iniColor
  rcases get_cases ls "ui" key with ⟨v, hv, hg⟩ | ⟨hn, hg⟩
  · rw [hg]
    have : Obeyed (upTo ls) "ui" key d (fun v i => IsInk v i ∧ ttk i = true) i ↔ IsInk v i ∧ ttk i = true :=
      ⟨fun h => h.1 v hv, fun h => ⟨fun w hw => says_unique hv hw ▸ h, fun hn => absurd hv (hn v)⟩⟩
    rw [this, ← colorToAnsi_iff]
    simp only
    cases colorToAnsi ttk v <;> simp
  · rw [hg]
    exact ⟨fun h => by cases h; exact ⟨fun v hv => absurd hv (hn v), fun _ => rfl⟩, fun h => by rw [h.2 hn]⟩

theorem loc_iff (ls : List Str) (d : Str) (x : Loc) (sect key : String) (e : Loc) (he : expand d = .ok e) :
    expand (orOld (parseUpTo ls [] []).1 d sect key) = .ok x ↔ Obeyed (upTo ls) sect key e IsLoc x := by
  obtain ⟨h1, h2⟩ := orOld_iff ls d sect key
  by_cases hs : ∃ v, Says (upTo ls) sect key v
  · obtain ⟨v, hv⟩ := hs
    rw [h1 v hv, expand_iff]
    exact ⟨fun h => ⟨fun w hw => says_unique hv hw ▸ h, fun hn => absurd hv (hn v)⟩, fun h => h.1 v hv⟩
  · rw [h2 fun v hv => hs ⟨v, hv⟩, he]
    exact ⟨fun h => by cases h; exact ⟨fun v hv => absurd ⟨v, hv⟩ hs, fun _ => rfl⟩,
      fun h => by rw [h.2 fun v hv => hs ⟨v, hv⟩]⟩

/-- Each setting of the client is what the file says, or the default. -/
structure Client.Obeys (ttk : Ink → Bool) (ls : List Str) (s : Client) : Prop where
  root : Obeyed ls "" "root" (.home "/.zkclient".toList) IsLoc s.root
  tlsVerbose : Obeyed ls "" "tlsverbose" true IsBool s.tlsVerbose
  beep : Obeyed ls "" "beep" false IsBool s.beep
  separator : Obeyed ls "" "separator" false IsBool s.separator
  saveHistory : Obeyed ls "log" "savehistory" false IsBool s.saveHistory
  logFile : Obeyed ls "log" "logfile" (.home "/.zkclient/zkclient.log".toList) IsLoc s.logFile
  timeFormat : Obeyed ls "log" "timeformat" "15:04:05".toList IsText s.timeFormat
  longTimeFormat : Obeyed ls "log" "longtimeformat" "2006-01-02 15:04:05".toList IsText s.longTimeFormat
  debug : Obeyed ls "log" "debug" false IsBool s.debug
  profiler : Obeyed ls "log" "profiler" "localhost:6061".toList IsText s.profiler
  nickColor : Obeyed ls "ui" "nickcolor" ⟨{ bold := true }, .white, .na⟩ (fun v i => IsInk v i ∧ ttk i = true) s.nickColor
  gcColor : Obeyed ls "ui" "gcothercolor" ⟨{ bold := true }, .green, .na⟩ (fun v i => IsInk v i ∧ ttk i = true) s.gcColor
  pmColor : Obeyed ls "ui" "pmothercolor" ⟨{ bold := true }, .cyan, .na⟩ (fun v i => IsInk v i ∧ ttk i = true) s.pmColor

/-- `Client.fill` succeeds with `s` exactly when `s` is what the clean part of the file says. -/
theorem client_fill (ttk : Ink → Bool) (ls : List Str) (s : Client) :
    Client.fill ttk (parseUpTo ls [] []).1 = .ok s ↔ s.Obeys ttk (upTo ls) := by
  unfold Client.fill
  constructor
  · intro h
    obtain ⟨a, ha, h⟩ := bind_ok.1 h
    obtain ⟨b, hb, h⟩ := bind_ok.1 h
    obtain ⟨c, hc, h⟩ := bind_ok.1 h
    obtain ⟨d, hd, h⟩ := bind_ok.1 h
    obtain ⟨e, he, h⟩ := bind_ok.1 h
    obtain ⟨f, hf, h⟩ := bind_ok.1 h
    obtain ⟨g, hg, h⟩ := bind_ok.1 h
    obtain ⟨i, hi, h⟩ := bind_ok.1 h
    obtain ⟨j, hj, h⟩ := bind_ok.1 h
    obtain ⟨k, hk, h⟩ := bind_ok.1 h
    cases h
    exact ⟨(loc_iff _ _ _ _ _ _ rfl).1 ha, (iniBool_iff ..).1 hb, (iniBool_iff ..).1 hc, (iniBool_iff ..).1 hd,
      (iniBool_iff ..).1 he, (loc_iff _ _ _ _ _ _ rfl).1 hf, orOld_iff .., orOld_iff .., (iniBool_iff ..).1 hg,
      orOld_iff .., (iniColor_iff ..).1 hi, (iniColor_iff ..).1 hj, (iniColor_iff ..).1 hk⟩
  · intro h
    have text : ∀ {sect key : String} {d x : Str}, Obeyed (upTo ls) sect key d IsText x →
        orOld (parseUpTo ls [] []).1 d sect key = x := by
      intro sect key d x hx
      obtain ⟨h1, h2⟩ := orOld_iff ls d sect key
      by_cases hs : ∃ v, Says (upTo ls) sect key v
      · obtain ⟨v, hv⟩ := hs
        rw [h1 v hv, hx.1 v hv]
      · have hn : ∀ v, ¬ Says (upTo ls) sect key v := fun v hv => hs ⟨v, hv⟩
        rw [h2 hn, hx.2 hn]
    refine bind_ok.2 ⟨s.root, (loc_iff _ _ _ _ _ _ rfl).2 h.root, bind_ok.2 ⟨s.tlsVerbose,
      (iniBool_iff ..).2 h.tlsVerbose, bind_ok.2 ⟨s.beep, (iniBool_iff ..).2 h.beep, bind_ok.2 ⟨s.separator,
      (iniBool_iff ..).2 h.separator, bind_ok.2 ⟨s.saveHistory, (iniBool_iff ..).2 h.saveHistory,
      bind_ok.2 ⟨s.logFile, (loc_iff _ _ _ _ _ _ rfl).2 h.logFile, bind_ok.2 ⟨s.debug, (iniBool_iff ..).2 h.debug,
      bind_ok.2 ⟨s.nickColor, (iniColor_iff ..).2 h.nickColor, bind_ok.2 ⟨s.gcColor, (iniColor_iff ..).2 h.gcColor,
      bind_ok.2 ⟨s.pmColor, (iniColor_iff ..).2 h.pmColor, ?_⟩⟩⟩⟩⟩⟩⟩⟩⟩⟩
    change Except.ok _ = _
    congr 1
    have h1 := text h.timeFormat
    have h2 := text h.longTimeFormat
    have h3 := text h.profiler
    cases s
    simp only at h1 h2 h3
    simp only [Client.mk.injEq, true_and, and_true]
    exact ⟨h1, h2, h3⟩

theorem client_clean (ttk : Ink → Bool) (dflt : Bool) {t : Str} (hc : Clean (IniDB.lines t)) :
    client ttk dflt (.file (some t)) = (Client.fill ttk (parseUpTo (IniDB.lines t) [] []).1, none) := by
  have h2 := (parseUpTo_clean (IniDB.lines t) [] []).2 hc
  unfold client
  simp only
  split
  · rename_i f hf; rw [hf]
  · rename_i f hf; rw [hf] at h2; cases h2

theorem client_unclean (ttk : Ink → Bool) (dflt : Bool) {t : Str} (hc : ¬ Clean (IniDB.lines t)) :
    client ttk dflt (.file (some t)) =
      if dflt then (Client.fill ttk (parseUpTo (IniDB.lines t) [] []).1, none) else (.error .file, none) := by
  have h2 : (parseUpTo (IniDB.lines t) [] []).2 ≠ true := fun h => hc ((parseUpTo_clean ..).1 h)
  unfold client
  simp only
  split
  · rename_i f hf; rw [hf] at h2; exact absurd rfl h2
  · rename_i f hf; rw [hf]

/-- C89: a client whose configuration file has lines of the four kinds only does exactly what the file says, for
whichever name the file has: it starts just if the values are of their kinds, and then each setting is the last one
given, or the default. -/
theorem C89_obeyed (ttk : Ink → Bool) (dflt : Bool) (t : Str) (hc : Clean (IniDB.lines t)) (s : Client) :
    client ttk dflt (.file (some t)) = (.ok s, none) ↔ s.Obeys ttk (IniDB.lines t) := by
  have h3 := client_fill ttk (IniDB.lines t) s
  rw [upTo_clean hc] at h3
  rw [← h3, client_clean ttk dflt hc]
  simp

/-- C89: with a file of another name than the default one, all of this holds for every file: one that cannot be read,
or that has a line of no kind, is refused. -/
theorem C89_named (ttk : Ink → Bool) (d : Found) (s : Client) (w : Option Str) :
    client ttk false d = (.ok s, w) ↔
      w = none ∧ ∃ t, d = .file (some t) ∧ Clean (IniDB.lines t) ∧ s.Obeys ttk (IniDB.lines t) := by
  constructor
  · intro h
    rcases d with _ | _ | t
    · cases h
    · cases h
    · cases t with
      | none => cases h
      | some t =>
        by_cases hc : Clean (IniDB.lines t)
        · have hw : w = none := by
            rw [client_clean ttk false hc] at h
            exact (Prod.mk.inj h).2.symm
          subst hw
          exact ⟨rfl, t, rfl, hc, (C89_obeyed ttk false t hc s).1 h⟩
        · exfalso
          rw [client_unclean ttk false hc, if_neg (by decide)] at h
          cases h
  · rintro ⟨rfl, t, rfl, hc, ho⟩
    exact (C89_obeyed ttk false t hc s).2 ho

/-- Accept any colour. -/
def anyInk : Ink → Bool := fun _ => true

/-- C89: the first run. Without a configuration file under the default name the shipped one is written, and the client
starts with the settings that a later run reads from it. -/
theorem C89_first (ttk : Ink → Bool) :
    (client ttk true .absent).2 = some shipped ∧
    (client ttk true .absent).1 = (client ttk true (.file (some shipped))).1 := by
  have hc : Clean (IniDB.lines shipped) := (parseUpTo_clean _ [] []).1 (by decide +kernel)
  rw [client_clean ttk true hc]
  exact ⟨rfl, rfl⟩

/-- With the shipped file the settings are the defaults but for the address of the profiler and the colour of the
nick. -/
theorem C89_shipped : (match (client anyInk true (.file (some shipped))).1 with
    | .ok s => decide (s = { Client.new with
        profiler := "127.0.0.1:6061".toList, nickColor := ⟨{ bold := true }, .na, .na⟩ })
    | .error _ => false) = true := by decide +kernel

/-- Settings of several kinds; other people's homes, and words that are not colours, are refused. -/
example : (match (client anyInk false (.file (some "root = ~/z~k\nbeep=Yes\n[ui]\nnickcolor = Bold,REVERSE:red:na".toList))).1 with
    | .ok s => decide (s.root = .home "/z~k".toList ∧ s.beep = true ∧
        s.nickColor = ⟨{ bold := true, reverse := true }, .red, .na⟩)
    | .error _ => false) = true ∧
    (match (client anyInk true (.file (some "root = ~bob/zk".toList))).1 with
    | .ok _ => none
    | .error e => some e) = some .home ∧
    (match (client anyInk true (.file (some "[ui]\npmothercolor = bold:pink:na".toList))).1 with
    | .ok _ => none
    | .error e => some e) = some (.color "pmothercolor") := by
  refine ⟨?_, ?_, ?_⟩ <;> decide +kernel

/-- C89 fails: a faulty configuration file under the default name is not refused. The client starts with whatever
stands before the faulty line and with defaults for what follows: here with its data in another directory than the
file says, and without a word. A file that cannot be read counts as an empty one. -/
theorem C89_faulty_violated :
    (∃ t s, ¬ Clean (IniDB.lines t) ∧ client anyInk true (.file (some t)) = (.ok s, none) ∧
      IniDB.classify "root = /media/safe/zk".toList = .assign "root".toList "/media/safe/zk".toList ∧
      "root = /media/safe/zk".toList ∈ IniDB.lines t ∧ s.root = .home "/.zkclient".toList) ∧
    (∃ s, client anyInk true (.file none) = (.ok s, none) ∧ s = Client.new) := by
  refine ⟨⟨"beep: yes\nroot = /media/safe/zk".toList, Client.new, fun hc => ?_, ?_, by decide +kernel,
    by decide +kernel, rfl⟩, ?_⟩
  · have := (parseUpTo_clean _ [] []).2 hc
    revert this
    decide +kernel
  · rfl
  · exact ⟨Client.new, rfl, rfl⟩

/-- C89 fails: the shipped file names none, underline and bold as the attributes. `none` is refused, and the client
does not start; a colour without any attribute cannot be had at all. -/
theorem C89_none_violated :
    "# Valid atttributes are: none, underline and bold" ∈ shippedLines ∧
    (∀ ttk dflt, (client ttk dflt (.file (some "[ui]\nnickcolor = none:red:na".toList))).1 =
      .error (.color "nickcolor")) ∧
    ∀ ttk v i, colorToAnsi ttk v = some i → i.attr.bold = true ∨ i.attr.underline = true ∨ i.attr.reverse = true := by
  refine ⟨by decide +kernel, fun ttk dflt => by cases dflt <;> rfl, fun ttk v i h => ?_⟩
  obtain ⟨⟨x, y, z, ks, -, -, -, -, -, -, hne, -, hw, h1, h2, h3⟩, -⟩ := (colorToAnsi_iff ..).1 h
  cases ks with
  | nil => exact absurd rfl hne
  | cons k ks =>
    have := hw k List.mem_cons_self
    simp only [List.mem_cons, List.not_mem_nil, or_false] at this
    rcases this with rfl | rfl | rfl
    · exact Or.inl (h1.2 List.mem_cons_self)
    · exact Or.inr (Or.inl (h2.2 List.mem_cons_self))
    · exact Or.inr (Or.inr (h3.2 List.mem_cons_self))

/-- C89 fails: a client whose root is moved keeps its log under the old one. -/
theorem C89_root_violated :
    ∃ t s, client anyInk true (.file (some t)) = (.ok s, none) ∧ s.root = .plain "/media/safe/zk".toList ∧
      s.logFile = .home "/.zkclient/zkclient.log".toList :=
  ⟨"root = /media/safe/zk".toList, { Client.new with root := .plain "/media/safe/zk".toList }, rfl, rfl, rfl⟩

end Verif.Settings
