import Verif.Model.IniDB
import Verif.Proofs.GoMap
import Mathlib.Tactic.Common
import Mathlib.Data.List.Perm.Basic

/-! # Lemmas about the ini parser and writer -/

namespace Verif.IniDB

open Verif

/-! ## Trimming -/

theorem dropWhile_eq_self {p : Char → Bool} {s : Str} (h : (s.dropWhile p).length = s.length) :
    s.dropWhile p = s :=
  (List.dropWhile_suffix p).eq_of_length h

theorem trim_self {s : Str} (h : trim s = s) :
    s.dropWhile isSpace = s ∧ s.reverse.dropWhile isSpace = s.reverse := by
  have h1 : (s.dropWhile isSpace).length ≤ s.length := (List.dropWhile_suffix _).length_le
  have h2 : ((s.dropWhile isSpace).reverse.dropWhile isSpace).length ≤ (s.dropWhile isSpace).length := by
    simpa using (List.dropWhile_suffix (l := (s.dropWhile isSpace).reverse) isSpace).length_le
  have h3 : ((s.dropWhile isSpace).reverse.dropWhile isSpace).length = s.length := by
    have := congrArg List.length h; simpa [trim] using this
  have h4 : s.dropWhile isSpace = s := dropWhile_eq_self (by omega)
  refine ⟨h4, ?_⟩
  have := h
  rw [trim, h4] at this
  have h5 := congrArg List.reverse this
  simpa using h5

theorem dropWhile_append_of_head {p : Char → Bool} {s t : Str} (hs : s ≠ []) (h : s.dropWhile p = s) :
    (s ++ t).dropWhile p = s ++ t := by
  cases s with
  | nil => exact absurd rfl hs
  | cons c s =>
    rw [List.dropWhile_cons] at h
    split at h
    · have := (List.dropWhile_suffix (l := s) p).length_le
      rw [h] at this; simp at this; omega
    · next hc => simp [hc]

/-- A nonempty trimmed string followed by a nonempty string that ends well is trimmed. -/
theorem trim_append {s t : Str} (hs : s ≠ []) (ht : t ≠ []) (h1 : s.dropWhile isSpace = s)
    (h2 : t.reverse.dropWhile isSpace = t.reverse) : trim (s ++ t) = s ++ t := by
  rw [trim, dropWhile_append_of_head hs h1, List.reverse_append,
    dropWhile_append_of_head (by simpa using ht) h2]
  simp

theorem trim_space_cons (s : Str) : trim (' ' :: s) = trim s := by
  have : isSpace ' ' = true := by decide
  simp [trim, this]

theorem trim_append_space {s : Str} (h1 : s.dropWhile isSpace = s) (hs : s ≠ []) :
    trim (s ++ [' ']) = trim s := by
  have : isSpace ' ' = true := by decide
  rw [trim, dropWhile_append_of_head hs h1, List.reverse_append]
  simp [this, trim, h1]

theorem trim_nil : trim [] = [] := rfl

/-! ## Lines -/

theorem lines_ne_nil (s : Str) : lines s ≠ [] := by
  cases s with
  | nil => simp [lines]
  | cons c s =>
    rw [lines]; split
    · simp
    · split <;> simp

theorem lines_append {a : Str} (h : '\n' ∉ a) (b : Str) : lines (a ++ '\n' :: b) = a :: lines b := by
  induction a with
  | nil => simp [lines]
  | cons c a ih =>
    have hc : c ≠ '\n' := by intro e; exact h (by simp [e])
    have ha : '\n' ∉ a := by intro e; exact h (by simp [e])
    rw [List.cons_append, lines, if_neg hc, ih ha]

/-! ## Well-formed names, keys and values -/

/-- Table names that survive being written and read: no surrounding white space, no newline, no `=`. -/
def GoodName (t : Str) : Prop := trim t = t ∧ '\n' ∉ t ∧ '=' ∉ t

/-- Keys that survive being written and read. -/
def GoodKey (k : Str) : Prop :=
  k ≠ [] ∧ trim k = k ∧ '\n' ∉ k ∧ '=' ∉ k ∧ k.head? ≠ some ';' ∧ k.head? ≠ some '#'

/-- Values that survive being written and read. -/
def GoodVal (v : Str) : Prop := trim v = v ∧ '\n' ∉ v

theorem takeWhile_ne {a : Str} (h : '=' ∉ a) (b : Str) :
    (a ++ '=' :: b).takeWhile (fun x => decide (x ≠ '=')) = a := by
  induction a with
  | nil => simp
  | cons c a ih =>
    have hc : c ≠ '=' := by intro e; exact h (by simp [e])
    have ha : '=' ∉ a := by intro e; exact h (by simp [e])
    have := ih ha
    simp only [List.cons_append, List.takeWhile_cons]
    simp only [hc, ne_eq, not_false_eq_true, decide_true, if_true]
    exact congrArg _ this

theorem dropWhile_ne {a : Str} (h : '=' ∉ a) (b : Str) :
    (a ++ '=' :: b).dropWhile (fun x => decide (x ≠ '=')) = '=' :: b := by
  induction a with
  | nil => simp
  | cons c a ih =>
    have hc : c ≠ '=' := by intro e; exact h (by simp [e])
    have ha : '=' ∉ a := by intro e; exact h (by simp [e])
    have := ih ha
    simp only [List.cons_append, List.dropWhile_cons]
    simp only [hc, ne_eq, not_false_eq_true, decide_true, if_true]
    exact this

theorem classify_assign {k v : Str} (hk : GoodKey k) (hv : GoodVal v) :
    classify (k ++ [' ', '=', ' '] ++ v) = .assign k v := by
  obtain ⟨hne, htk, hnl, heq, hsc, hh⟩ := hk
  obtain ⟨htv, _⟩ := hv
  have hk1 := (trim_self htk).1
  have hsp : isSpace '=' = false := by decide
  -- the trimmed line
  have htrim : trim (k ++ [' ', '=', ' '] ++ v) = (k ++ [' ']) ++ '=' :: (if v = [] then [] else ' ' :: v) := by
    by_cases hv0 : v = []
    · subst hv0
      have e : k ++ [' ', '=', ' '] ++ [] = (k ++ [' ', '=']) ++ [' '] := by simp
      rw [e, trim_append_space _ (by simp), trim_append hne (by simp) hk1]
      · simp
      · simp [hsp]
      · exact dropWhile_append_of_head hne hk1
    · have hv2 := (trim_self htv).2
      rw [List.append_assoc, trim_append hne (by simp) hk1]
      · simp [hv0]
      · rw [List.reverse_append]
        exact dropWhile_append_of_head (by simpa using hv0) hv2
  have hka : '=' ∉ k ++ [' '] := by simp [heq]
  obtain ⟨c, k', rfl⟩ : ∃ c k', k = c :: k' := by
    cases k with
    | nil => exact absurd rfl hne
    | cons c k' => exact ⟨c, k', rfl⟩
  have hval : trim (if v = [] then [] else ' ' :: v) = v := by
    split
    · next h => rw [h]; rfl
    · rw [trim_space_cons, htv]
  have hkey : trim ((c :: k') ++ [' ']) = c :: k' := by rw [trim_append_space hk1 (by simp), htk]
  simp only [List.head?_cons, ne_eq, Option.some.injEq] at hsc hh
  rw [classify]
  simp only [htrim]
  rw [takeWhile_ne hka, dropWhile_ne hka]
  simp only [List.cons_append] at hkey ⊢
  rw [if_neg (by simp [hsc, hh])]
  simp only [hval, hkey]

theorem dropWhile_all {p : Char → Bool} {s : Str} (h : ∀ x ∈ s, p x = true) : s.dropWhile p = [] := by
  induction s with
  | nil => rfl
  | cons c s ih =>
    rw [List.dropWhile_cons, if_pos (h c (by simp))]
    exact ih (fun x hx => h x (by simp [hx]))

theorem classify_header {t : Str} (ht : GoodName t) : classify ('[' :: t ++ [']']) = .header t := by
  obtain ⟨htt, hnl, heq⟩ := ht
  have h1 : isSpace '[' = false := by decide
  have h2 : isSpace ']' = false := by decide
  have htrim : trim ('[' :: t ++ [']']) = '[' :: (t ++ [']']) := by
    have := trim_append (s := ['[']) (t := t ++ [']']) (by simp) (by simp)
      (by simp [h1]) (by simp [h2])
    simpa using this
  have hall : ∀ x ∈ '[' :: (t ++ [']']), (fun x => decide (x ≠ '=')) x = true := by
    intro x hx
    simp only [List.mem_cons, List.mem_append, List.not_mem_nil, or_false] at hx
    rcases hx with rfl | hx | rfl
    · decide
    · simp; intro e; subst e; exact heq hx
    · decide
  have htw : ('[' :: (t ++ [']'])).dropWhile (fun x => decide (x ≠ '=')) = [] := by
    exact dropWhile_all hall
  rw [classify]
  simp only [htrim]
  rw [if_neg (by decide)]
  rw [htw]
  simp [htt]

theorem classify_nil : classify [] = .skip := rfl

theorem classify_auto : classify auto = .skip := by decide

/-! ## Parsing what was written -/

/-- The lines of one written table. -/
def tableLines (t : Str × List (Str × Str)) : List Str :=
  (if t.1 ≠ [] then ['[' :: t.1 ++ [']']] else []) ++
    t.2.map (fun r => r.1 ++ [' ', '=', ' '] ++ r.2) ++ [[]]

/-- A written table is well-formed. -/
def GoodTable (t : Str × List (Str × Str)) : Prop :=
  GoodName t.1 ∧ ∀ r ∈ t.2, GoodKey r.1 ∧ GoodVal r.2

theorem lines_records {rs : List (Str × Str)} (h : ∀ r ∈ rs, GoodKey r.1 ∧ GoodVal r.2) (rest : Str) :
    lines (rs.flatMap (fun r => r.1 ++ [' ', '=', ' '] ++ r.2 ++ ['\n']) ++ rest) =
      rs.map (fun r => r.1 ++ [' ', '=', ' '] ++ r.2) ++ lines rest := by
  induction rs with
  | nil => simp
  | cons r rs ih =>
    have hr := h r (by simp)
    rw [List.flatMap_cons, List.append_assoc]
    have e : ∀ x : Str, r.1 ++ [' ', '=', ' '] ++ r.2 ++ ['\n'] ++ x =
        (r.1 ++ [' ', '=', ' '] ++ r.2) ++ '\n' :: x := by intro x; simp
    rw [e, lines_append, ih (fun x hx => h x (by simp [hx]))]
    · simp
    · simp [hr.1.2.2.1, hr.2.2]

theorem lines_table {t : Str × List (Str × Str)} (h : GoodTable t) (rest : Str) :
    lines (tableText t ++ rest) = tableLines t ++ lines rest := by
  have hrec := lines_records h.2 ('\n' :: rest)
  have hnl : lines ('\n' :: rest) = [] :: lines rest := by simp [lines]
  have hb : lines (t.2.flatMap (fun r => r.1 ++ [' ', '=', ' '] ++ r.2 ++ ['\n']) ++ ['\n'] ++ rest) =
      t.2.map (fun r => r.1 ++ [' ', '=', ' '] ++ r.2) ++ [[]] ++ lines rest := by
    rw [List.append_assoc, List.singleton_append, hrec, hnl]; simp
  by_cases ht : t.1 = []
  · simp only [tableText, tableLines, ht, ne_eq, not_true_eq_false, if_false, List.nil_append]
    exact hb
  · have e : tableText t ++ rest = ('[' :: t.1 ++ [']']) ++ '\n' ::
        (t.2.flatMap (fun r => r.1 ++ [' ', '=', ' '] ++ r.2 ++ ['\n']) ++ ['\n'] ++ rest) := by
      simp [tableText, ht]
    rw [e, lines_append (by simp [h.1.2.1]), hb]
    simp [tableLines, ht]

theorem lines_text {order : List (Str × List (Str × Str))} (h : ∀ t ∈ order, GoodTable t) :
    lines (text order) = auto :: (order.flatMap tableLines ++ [[]]) := by
  have hauto : '\n' ∉ auto := by decide
  have e : text order = auto ++ '\n' :: (order.flatMap tableText) := by simp [text]
  rw [e, lines_append hauto]
  congr 1
  induction order with
  | nil => simp [lines]
  | cons t o ih =>
    rw [List.flatMap_cons, lines_table (h t (by simp)), ih (fun x hx => h x (by simp [hx]))]
    · simp
    · simp [text]

/-- Store all records of a table. -/
def putAll (f : Tables) (t : Str) (rs : List (Str × Str)) : Tables :=
  rs.foldl (fun f r => put f t r.1 r.2) f

theorem parse_records {rs : List (Str × Str)} (h : ∀ r ∈ rs, GoodKey r.1 ∧ GoodVal r.2)
    (ls : List Str) (cur : Str) (f : Tables) :
    parseLines (rs.map (fun r => r.1 ++ [' ', '=', ' '] ++ r.2) ++ ls) cur f =
      parseLines ls cur (putAll f cur rs) := by
  induction rs generalizing f with
  | nil => rfl
  | cons r rs ih =>
    have hr := h r (by simp)
    rw [List.map_cons, List.cons_append, parseLines, classify_assign hr.1 hr.2]
    simp only
    rw [ih (fun x hx => h x (by simp [hx]))]
    rfl

/-- The section in force after a written table. -/
def curAfter (t cur : Str) : Str := if t ≠ [] then t else cur

/-- Effect of reading back one written table. -/
def readTable (f : Tables) (cur : Str) (t : Str × List (Str × Str)) : Tables :=
  putAll (if t.1 ≠ [] then touch f t.1 else f) (curAfter t.1 cur) t.2

theorem parse_table {t : Str × List (Str × Str)} (h : GoodTable t) (ls : List Str) (cur : Str)
    (f : Tables) :
    parseLines (tableLines t ++ ls) cur f = parseLines ls (curAfter t.1 cur) (readTable f cur t) := by
  have hmid : ∀ c g, parseLines (t.2.map (fun r => r.1 ++ [' ', '=', ' '] ++ r.2) ++ [[]] ++ ls) c g =
      parseLines ls c (putAll g c t.2) := by
    intro c g
    rw [List.append_assoc, parse_records h.2]
    simp [parseLines, classify_nil]
  by_cases ht : t.1 = []
  · simp only [tableLines, readTable, curAfter, ht, ne_eq, not_true_eq_false, if_false, List.nil_append]
    exact hmid cur f
  · simp only [tableLines, readTable, curAfter, ht, ne_eq, not_false_eq_true, if_true]
    rw [List.append_assoc, List.append_assoc, List.singleton_append, parseLines, classify_header h.1]
    simp only
    rw [← List.append_assoc]
    exact hmid _ _

/-- Effect of reading back all tables. -/
def readAll : List (Str × List (Str × Str)) → Str → Tables → Tables
  | [], _, f => f
  | t :: o, cur, f => readAll o (curAfter t.1 cur) (readTable f cur t)

theorem parse_tables {order : List (Str × List (Str × Str))} (h : ∀ t ∈ order, GoodTable t)
    (cur : Str) (f : Tables) :
    parseLines (order.flatMap tableLines ++ [[]]) cur f = some (readAll order cur f) := by
  induction order generalizing cur f with
  | nil => simp [parseLines, classify_nil, readAll]
  | cons t o ih =>
    rw [List.flatMap_cons, List.append_assoc, parse_table (h t (by simp)),
      ih (fun x hx => h x (by simp [hx])), readAll]

theorem parse_text {order : List (Str × List (Str × Str))} (h : ∀ t ∈ order, GoodTable t) :
    parse (text order) = some (readAll order [] []) := by
  rw [parse, lines_text h, parseLines, classify_auto]
  simp only
  exact parse_tables h [] []

/-! ## What is read, table by table -/

theorem get_touch (f : Tables) (t u : Str) :
    (touch f t).get u = if t = u then some ((f.get u).getD []) else f.get u := by
  unfold touch
  split
  · next s hs => split
                 · next h => subst h; simp [hs]
                 · rfl
  · next hs => rw [GoMap.get_set]; split
               · next h => subst h; simp [hs]
               · rfl

theorem get_put (f : Tables) (t k v u : Str) :
    (put f t k v).get u = if t = u then some (GoMap.set ((f.get t).getD []) k v) else f.get u := by
  unfold put
  split
  · next s hs => rw [GoMap.get_set]; simp [hs]
  · next hs => rw [GoMap.get_set]; simp [hs, GoMap.set, GoMap.del]

/-- A section filled record by record. -/
def fill (s : Section) (rs : List (Str × Str)) : Section := rs.foldl (fun s r => s.set r.1 r.2) s

theorem get_putAll (f : Tables) (t : Str) (rs : List (Str × Str)) (u : Str) :
    (putAll f t rs).get u =
      if t = u ∧ rs ≠ [] then some (fill ((f.get t).getD []) rs) else f.get u := by
  induction rs generalizing f with
  | nil => simp [putAll]
  | cons r rs ih =>
    show (putAll (put f t r.1 r.2) t rs).get u = _
    rw [ih, get_put, get_put]
    by_cases htu : t = u
    · subst htu
      by_cases hrs : rs = []
      · subst hrs; simp [fill]
      · simp [fill, hrs]
    · simp [htu]

theorem fill_get (s : Section) (rs : List (Str × Str)) (h : (rs.map Prod.fst).Nodup) (k : Str) :
    (fill s rs).get k = match GoMap.get rs k with | some v => some v | none => s.get k := by
  induction rs generalizing s with
  | nil => rfl
  | cons r rs ih =>
    simp only [List.map_cons, List.nodup_cons] at h
    show (fill (s.set r.1 r.2) rs).get k = _
    rw [ih _ h.2, GoMap.get_set, GoMap.get_cons]
    by_cases hk : r.1 = k
    · have : GoMap.get rs k = none := by
        rw [← GoMap.not_mem_keys_iff]; rw [← hk]; exact h.1
      simp [this, hk]
    · simp [hk]

/-- Same tables with the same records. -/
def Same (f g : Tables) : Prop :=
  ∀ t, match f.get t, g.get t with
    | none, none => True
    | some a, some b => ∀ k, a.get k = b.get k
    | _, _ => False

theorem get_readTable_self (f : Tables) (cur : Str) (t : Str × List (Str × Str)) (ht : t.1 ≠ []) :
    (readTable f cur t).get t.1 = some (fill ((f.get t.1).getD []) t.2) := by
  simp only [readTable, curAfter, ht, ne_eq, not_false_eq_true, if_true]
  rw [get_putAll, get_touch]
  by_cases hr : t.2 = []
  · simp [hr, fill]
  · simp [hr]

theorem get_readTable_other (f : Tables) (cur : Str) (t : Str × List (Str × Str)) (u : Str)
    (hu : u ≠ t.1) (hc : t.1 = [] → t.2 = [] ∨ u ≠ cur) :
    (readTable f cur t).get u = f.get u := by
  simp only [readTable, curAfter]
  by_cases ht : t.1 = []
  · simp only [ht, ne_eq, not_true_eq_false, if_false]
    rw [get_putAll]
    rcases hc ht with h | h
    · simp [h]
    · rw [if_neg]; rintro ⟨h', _⟩; exact h h'.symm
  · simp only [ht, ne_eq, not_false_eq_true, if_true]
    rw [get_putAll, if_neg (by rintro ⟨h', _⟩; exact hu h'.symm), get_touch, if_neg (Ne.symm hu)]

/-- Reading tables among which the default table is empty: every named table is read back, nothing
else changes. -/
theorem get_readAll (order : List (Str × List (Str × Str))) (cur : Str) (f : Tables)
    (hnd : (order.map Prod.fst).Nodup) (hd : ∀ t ∈ order, t.1 = [] → t.2 = []) (u : Str) :
    (readAll order cur f).get u =
      if u = [] then f.get u
      else match GoMap.get order u with
        | some rs => some (fill ((f.get u).getD []) rs)
        | none => f.get u := by
  induction order generalizing cur f with
  | nil => simp [readAll]
  | cons t o ih =>
    simp only [List.map_cons, List.nodup_cons] at hnd
    rw [readAll, ih _ _ hnd.2 (fun x hx => hd x (by simp [hx])), GoMap.get_cons]
    have hto := hd t (by simp)
    by_cases hu : u = []
    · subst hu
      simp only [if_true]
      by_cases ht : t.1 = []
      · rw [readTable]; simp [ht, hto ht, putAll]
      · exact get_readTable_other _ _ _ _ (fun h => ht h.symm) (fun h => absurd h ht)
    · simp only [hu, if_false]
      by_cases hut : t.1 = u
      · have hno : GoMap.get o u = none := by
          rw [← GoMap.not_mem_keys_iff, ← hut]; exact hnd.1
        have ht : t.1 ≠ [] := by rw [hut]; exact hu
        rw [hno]
        simp only [hut, if_true]
        rw [← hut]; exact get_readTable_self _ _ _ ht
      · rw [get_readTable_other _ _ _ _ (fun h => hut h.symm) (fun h => Or.inl (hto h))]
        simp [hut]

/-- Once a named table has been read, the default table is not written to any more. -/
theorem get_readAll_default (order : List (Str × List (Str × Str))) (cur : Str) (f : Tables)
    (hc : cur ≠ []) : (readAll order cur f).get [] = f.get [] := by
  induction order generalizing cur f with
  | nil => rfl
  | cons t o ih =>
    have hca : curAfter t.1 cur ≠ [] := by
      unfold curAfter; split
      · assumption
      · exact hc
    rw [readAll, ih _ _ hca]
    by_cases ht : t.1 = []
    · simp only [readTable, curAfter, ht, ne_eq, not_true_eq_false, if_false]
      rw [get_putAll, if_neg]; rintro ⟨h, _⟩; exact hc h
    · exact get_readTable_other _ _ _ _ (fun h => ht h.symm) (fun h => absurd h ht)

end Verif.IniDB
