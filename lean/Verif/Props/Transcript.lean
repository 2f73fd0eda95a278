import Verif.Model.Transcript
import Verif.Props.Clock
import Verif.Props.Mention
import Verif.Props.AddressBook

/-! # C130: The log of a conversation says who wrote what, and when

A reader of the log goes by its lines: time, then the nick in angle brackets, or after an asterisk, then what was said. -/

namespace Verif.Transcript

open Verif Clock IniDB

/-! ## What a reader of the log sees -/

/-- The complete lines of a file. -/
def linesFrom (acc : Bytes) : Bytes → List Bytes
  | [] => []
  | c :: r => if c = 10 then acc :: linesFrom [] r else linesFrom (acc ++ [c]) r

/-- A remark that is read in a log: the time, whether it has the form of `/me`, the nick, and the text. -/
structure Remark where
  stamp : Bytes
  me : Bool
  nick : Bytes
  text : Bytes
  deriving DecidableEq, Repr

/-- After the time: `<nick> text` or `* nick text`. -/
def readOutput (stamp : Bytes) : Bytes → Option Remark
  | 60 :: r =>
    match r.dropWhile (· != 62) with
    | 62 :: 32 :: x => some ⟨stamp, false, r.takeWhile (· != 62), x⟩
    | _ => none
  | 42 :: 32 :: r =>
    match r.dropWhile (· != 32) with
    | 32 :: x => some ⟨stamp, true, r.takeWhile (· != 32), x⟩
    | _ => none
  | _ => none

/-- The time has 19 characters and is followed by a space. -/
def readLine (l : Bytes) : Option Remark :=
  match l.drop 19 with
  | 32 :: r => readOutput (l.take 19) r
  | _ => none

def read (file : Bytes) : List Remark := (linesFrom [] file).filterMap readLine

/-! ## What was said -/

/-- Who said what, in which form, in which second; `none` is the user. -/
structure Speech where
  who : Option Bytes
  me : Bool
  text : Bytes
  second : Nat
  deriving DecidableEq, Repr

def speech : Ev → Option Speech
  | .heard id m text t => some ⟨some id, m == .me, text, t / 1000000000⟩
  | .wrote m text t => some ⟨none, m == .me, text, t / 1000000000⟩
  | _ => none

/-- The remark that is read if this was said. -/
def Speech.remark (c : Cfg) (s : Speech) : Remark :=
  ⟨long (wall (s.second * 1000000000)), s.me, (s.who.map c.nick).getD c.own, s.text⟩

/-! ## Assumptions -/

/-- A text of parts that are sequences (`true`) for the terminal, or plain. -/
abbrev Piece := Bool × Bytes

/-- `ttk.Unescape` removes the sequences that the client puts into a text without escape characters. -/
def Strips (c : Cfg) : Prop :=
  ∀ ps : List Piece, (∀ p ∈ ps, if p.1 then p.2 ∈ [c.nickC, c.pmC, c.gcC, c.markC, c.off] else (27 : UInt8) ∉ p.2) →
    c.u (ps.flatMap (·.2)) = (ps.filter (fun p => !p.1)).flatMap (·.2)

/-- Neither a line break nor an escape character. -/
def Plain (b : Bytes) : Prop := (10 : UInt8) ∉ b ∧ (27 : UInt8) ∉ b

/-- A nick without line breaks, spaces and angle brackets, other than an asterisk. -/
def Name (b : Bytes) : Prop := Plain b ∧ (32 : UInt8) ∉ b ∧ (60 : UInt8) ∉ b ∧ (62 : UInt8) ∉ b ∧ b ≠ [42]

/-- A notice that does not look like a remark. -/
def Quiet (b : Bytes) : Prop := Plain b ∧ b.head? ≠ some 60 ∧ ¬ [42, 32] <+: b

def Fine (c : Cfg) : Ev → Prop
  | .heard id _ text t => Name (c.nick id) ∧ Plain text ∧ (wall t).year < 10000
  | .wrote _ text t => Plain text ∧ (wall t).year < 10000
  | .left id reason t => Name (c.nick id) ∧ Plain reason ∧ (wall t).year < 10000
  | .told text t => Quiet text ∧ (wall t).year < 10000
  | .reopened => True

/-! ## Times -/

def longS (s : Stamp) : Str :=
  digits 4 s.year ++ ['-'] ++ digits 2 s.month ++ ['-'] ++ digits 2 s.day ++ [' '] ++ digits 2 s.hour ++ [':'] ++
    digits 2 s.min ++ [':'] ++ digits 2 s.sec

theorem long_eq (s : Stamp) : long s = Crpc.ascii (longS s) := rfl

theorem digits_mem {w n : Nat} {c : Char} (h : c ∈ digits w n) : 48 ≤ c.toNat ∧ c.toNat < 58 := by
  induction w generalizing n with
  | zero => cases h
  | succ w ih =>
    rcases List.mem_append.1 h with h | h
    · exact ih h
    · rw [List.mem_singleton.1 h, digit_toNat]
      have := Nat.mod_lt n (show 0 < 10 by decide)
      omega

theorem longS_mem {s : Stamp} {c : Char} (h : c ∈ longS s) : 32 ≤ c.toNat ∧ c.toNat < 60 := by
  unfold longS at h
  simp only [List.mem_append, List.mem_singleton] at h
  rcases h with (((((((((h | h) | h) | h) | h) | h) | h) | h) | h) | h) | h
  all_goals first
    | (have := digits_mem h; omega)
    | (subst h; decide)

theorem long_length (s : Stamp) : (long s).length = 19 := by
  simp [long_eq, longS, Crpc.ascii, digits_length]

theorem long_mem {s : Stamp} {b : UInt8} (h : b ∈ long s) : 32 ≤ b.toNat ∧ b.toNat < 60 := by
  rw [long_eq] at h
  obtain ⟨c, hc, rfl⟩ := List.mem_map.1 h
  have := longS_mem hc
  rw [UInt8.toNat_ofNat']
  rw [Nat.mod_eq_of_lt (by omega)]
  exact this

theorem long_plain (s : Stamp) : Plain (long s) := by
  constructor <;> intro h <;> have := long_mem h <;> revert this <;> decide

theorem ascii_inj {a b : List Char} (ha : ∀ c ∈ a, c.toNat < 256) (hb : ∀ c ∈ b, c.toNat < 256)
    (h : Crpc.ascii a = Crpc.ascii b) : a = b := by
  induction a generalizing b with
  | nil => cases b with
    | nil => rfl
    | cons y s => cases h
  | cons x r ih =>
    cases b with
    | nil => cases h
    | cons y s =>
      obtain ⟨h1, h2⟩ := List.cons.inj h
      have h3 := congrArg UInt8.toNat h1
      rw [UInt8.toNat_ofNat', UInt8.toNat_ofNat', Nat.mod_eq_of_lt (ha x (List.mem_cons_self ..)),
        Nat.mod_eq_of_lt (hb y (List.mem_cons_self ..))] at h3
      rw [Char.toNat_inj.1 h3, ih (fun c hc => ha c (List.mem_cons_of_mem _ hc)) (fun c hc => hb c (List.mem_cons_of_mem _ hc)) h2]

theorem longS_lt {s t : Stamp} (ht : t.Valid) (hn : s.ns = t.ns) (h : s.before t) : leStr (longS t) (longS s) = false := by
  obtain ⟨h1, h2, h3, h4, h5, h6, h7⟩ := ht
  have ap := @leStr_append_lt
  have al := @leStr_append_left
  unfold longS
  simp only [List.append_assoc]
  rcases h with h | ⟨e, h⟩
  · exact ap (by simp [digits_length]) (digits_lt h1 h) _ _
  rw [e, al, al]
  rcases h with h | ⟨e, h⟩
  · exact ap (by simp [digits_length]) (digits_lt h2 h) _ _
  rw [e, al, al]
  rcases h with h | ⟨e, h⟩
  · exact ap (by simp [digits_length]) (digits_lt h3 h) _ _
  rw [e, al, al]
  rcases h with h | ⟨e, h⟩
  · exact ap (by simp [digits_length]) (digits_lt h4 h) _ _
  rw [e, al, al]
  rcases h with h | ⟨e, h⟩
  · exact ap (by simp [digits_length]) (digits_lt h5 h) _ _
  rw [e, al, al]
  rcases h with h | ⟨_, h⟩
  · exact digits_lt h6 h
  · omega

theorem div_round (t : Nat) : t / 1000000000 * 1000000000 / 1000000000 = t / 1000000000 := Nat.mul_div_cancel _ (by decide)

/-- The time is printed to the second. -/
theorem long_round (t : Nat) : long (wall (t / 1000000000 * 1000000000)) = long (wall t) := by
  simp only [long, wall, div_round]

theorem year_round (t : Nat) : (wall (t / 1000000000 * 1000000000)).year = (wall t).year := by
  simp only [wall, div_round]

theorem ns_round (n : Nat) : (wall (n * 1000000000)).ns = 0 := by
  show n * 1000000000 % 1000000000 = 0
  exact Nat.mul_mod_left _ _

theorem long_inj {m n : Nat} (hm : (wall (m * 1000000000)).year < 10000) (hn : (wall (n * 1000000000)).year < 10000)
    (h : long (wall (m * 1000000000)) = long (wall (n * 1000000000))) : m = n := by
  have he : longS (wall (m * 1000000000)) = longS (wall (n * 1000000000)) :=
    ascii_inj (fun c hc => by have := longS_mem hc; omega) (fun c hc => by have := longS_mem hc; omega) h
  rcases Nat.lt_trichotomy m n with hh | hh | hh
  · have := longS_lt (wall_valid hn) (by rw [ns_round, ns_round])
      (wall_before (Nat.mul_lt_mul_of_pos_right hh (by decide : 0 < 1000000000)))
    rw [he, leStr_refl] at this; cases this
  · exact hh
  · have := longS_lt (wall_valid hm) (by rw [ns_round, ns_round])
      (wall_before (Nat.mul_lt_mul_of_pos_right hh (by decide : 0 < 1000000000)))
    rw [he, leStr_refl] at this; cases this

/-! ## Lines -/

theorem linesFrom_line (acc l r : Bytes) (h : (10 : UInt8) ∉ l) : linesFrom acc (l ++ [10] ++ r) = (acc ++ l) :: linesFrom [] r := by
  induction l generalizing acc with
  | nil => simp [linesFrom]
  | cons c l ih =>
    have hc : c ≠ 10 := fun e => h (by simp [e])
    have hl : (10 : UInt8) ∉ l := fun e => h (by simp [e])
    rw [List.cons_append, List.cons_append, linesFrom, if_neg hc, ih _ hl]
    simp

theorem read_line (l r : Bytes) (h : (10 : UInt8) ∉ l) :
    read (l ++ [10] ++ r) = (readLine l).toList ++ read r := by
  unfold read
  rw [linesFrom_line [] l r h, List.nil_append, List.filterMap_cons]
  cases readLine l <;> rfl

/-- Files that end with a line break. -/
def Ended (b : Bytes) : Prop := ∃ ls : List Bytes, (∀ l ∈ ls, (10 : UInt8) ∉ l) ∧ b = ls.flatMap (· ++ [10])

theorem read_append {a : Bytes} (h : Ended a) (b : Bytes) : read (a ++ b) = read a ++ read b := by
  obtain ⟨ls, hl, rfl⟩ := h
  induction ls with
  | nil => rfl
  | cons l ls ih =>
    have h1 := hl l (List.mem_cons_self ..)
    have h2 := ih (fun x hx => hl x (List.mem_cons_of_mem _ hx))
    rw [List.flatMap_cons, List.append_assoc, read_line _ _ h1, h2, read_line _ _ h1, List.append_assoc]

theorem ended_nil : Ended [] := ⟨[], by simp, rfl⟩

theorem ended_line {a l : Bytes} (ha : Ended a) (hl : (10 : UInt8) ∉ l) : Ended (a ++ (l ++ [10])) := by
  obtain ⟨ls, h1, rfl⟩ := ha
  refine ⟨ls ++ [l], ?_, by simp⟩
  intro x hx
  rcases List.mem_append.1 hx with h | h
  · exact h1 x h
  · rw [List.mem_singleton.1 h]; exact hl

theorem readLine_out (t : Nat) (out : Bytes) : readLine (long (wall t) ++ [32] ++ out) = readOutput (long (wall t)) out := by
  have hl := long_length (wall t)
  have h1 : (long (wall t) ++ [32] ++ out).drop 19 = 32 :: out := by
    rw [List.append_assoc, ← hl, List.drop_left]; rfl
  have h2 : (long (wall t) ++ [32] ++ out).take 19 = long (wall t) := by
    rw [List.append_assoc, ← hl, List.take_left]
  unfold readLine
  rw [h1, h2]
  rfl

theorem takeWhile_until {x : UInt8} {a b : Bytes} (h : x ∉ a) : (a ++ x :: b).takeWhile (· != x) = a := by
  rw [List.takeWhile_append_of_pos]
  · simp
  · intro y hy
    have : y ≠ x := fun e => h (e ▸ hy)
    simp [this]

theorem dropWhile_until {x : UInt8} {a b : Bytes} (h : x ∉ a) : (a ++ x :: b).dropWhile (· != x) = x :: b := by
  rw [List.dropWhile_append_of_pos]
  · simp
  · intro y hy
    have : y ≠ x := fun e => h (e ▸ hy)
    simp [this]

theorem read_said (stamp nick text : Bytes) (h : (62 : UInt8) ∉ nick) :
    readOutput stamp ([60] ++ nick ++ [62] ++ [32] ++ text) = some ⟨stamp, false, nick, text⟩ := by
  have : [60] ++ nick ++ [62] ++ [32] ++ text = 60 :: (nick ++ 62 :: 32 :: text) := by simp
  rw [this]
  simp only [readOutput, takeWhile_until h, dropWhile_until h]

theorem read_did (stamp nick text : Bytes) (h : (32 : UInt8) ∉ nick) :
    readOutput stamp ([42, 32] ++ nick ++ [32] ++ text) = some ⟨stamp, true, nick, text⟩ := by
  have : [42, 32] ++ nick ++ [32] ++ text = 42 :: 32 :: (nick ++ 32 :: text) := by simp
  rw [this]
  simp only [readOutput, takeWhile_until h, dropWhile_until h]

theorem read_quiet (stamp : Bytes) {b : Bytes} (h1 : b.head? ≠ some 60) (h2 : ¬ [42, 32] <+: b) : readOutput stamp b = none := by
  match b, h1, h2 with
  | [], _, _ => rfl
  | x :: r, h1, h2 =>
    have hx : x ≠ 60 := fun e => h1 (by simp [e])
    unfold readOutput
    split
    · next e => simp at e; exact absurd e.1 hx
    · next r' e =>
      exfalso
      apply h2
      rw [e]
      exact ⟨r', rfl⟩
    · rfl

/-! ## The lines of the client -/

theorem strip_line {c : Cfg} (hc : Strips c) (t : Nat) (ps : List Piece)
    (h : ∀ p ∈ ps, if p.1 then p.2 ∈ [c.nickC, c.pmC, c.gcC, c.markC, c.off] else (27 : UInt8) ∉ p.2) :
    line c t (ps.flatMap (·.2)) = long (wall t) ++ [32] ++ (ps.filter (fun p => !p.1)).flatMap (·.2) ++ [10] := by
  have := hc ((false, long (wall t) ++ [32]) :: ps) (by
    intro p hp
    rcases List.mem_cons.1 hp with rfl | hp
    · show (27 : UInt8) ∉ long (wall t) ++ [32]
      intro h'
      rcases List.mem_append.1 h' with h' | h'
      · exact (long_plain _).2 h'
      · simp at h'
    · exact h p hp)
  unfold line
  rw [List.flatMap_cons] at this
  rw [this]
  rfl

/-- What the client writes for `who` saying `text`, without colours. -/
def plainTag (nick : Bytes) (m : Mode) : Bytes := if m = .me then [42, 32] ++ nick else [60] ++ nick ++ [62]

theorem strip_tag {c : Cfg} (hc : Strips c) (t : Nat) (m : Mode) {col nick : Bytes} (hcol : col ∈ [c.nickC, c.pmC, c.gcC])
    (hn : (27 : UInt8) ∉ nick) (ps : List Piece)
    (h : ∀ p ∈ ps, if p.1 then p.2 ∈ [c.nickC, c.pmC, c.gcC, c.markC, c.off] else (27 : UInt8) ∉ p.2) :
    line c t (tag c col nick m ++ [32] ++ ps.flatMap (·.2)) =
      long (wall t) ++ [32] ++ (plainTag nick m ++ [32] ++ (ps.filter (fun p => !p.1)).flatMap (·.2)) ++ [10] := by
  have hcol' : col ∈ [c.nickC, c.pmC, c.gcC, c.markC, c.off] := by
    simp only [List.mem_cons, List.not_mem_nil, or_false] at hcol ⊢
    rcases hcol with h | h | h <;> simp [h]
  by_cases hm : m = .me
  · have := strip_line hc t ((false, [42, 32]) :: (true, col) :: (false, nick) :: (true, c.off) :: (false, [32]) :: ps) (by
      intro p hp
      simp only [List.mem_cons] at hp
      rcases hp with rfl | rfl | rfl | rfl | rfl | hp
      · simp
      · exact hcol'
      · exact hn
      · simp
      · simp
      · exact h p hp)
    simp only [tag, plainTag, if_pos hm]
    simpa using this
  · have := strip_line hc t ((false, [60]) :: (true, col) :: (false, nick) :: (true, c.off) :: (false, [62, 32]) :: ps) (by
      intro p hp
      simp only [List.mem_cons] at hp
      rcases hp with rfl | rfl | rfl | rfl | rfl | hp
      · simp
      · exact hcol'
      · exact hn
      · simp
      · simp
      · exact h p hp)
    simp only [tag, plainTag, if_neg hm]
    simpa using this

/-- What is shown is the text, with colours in it. -/
theorem shown_pieces {c : Cfg} {m : Mode} {text x : Bytes} (h : shown c m text = .ok x) (ht : (27 : UInt8) ∉ text) :
    ∃ ps : List Piece, x = ps.flatMap (·.2) ∧ text = (ps.filter (fun p => !p.1)).flatMap (·.2) ∧
      ∀ p ∈ ps, if p.1 then p.2 ∈ [c.nickC, c.pmC, c.gcC, c.markC, c.off] else (27 : UInt8) ∉ p.2 := by
  have plain : ∃ ps : List Piece, text = ps.flatMap (·.2) ∧ text = (ps.filter (fun p => !p.1)).flatMap (·.2) ∧
      ∀ p ∈ ps, if p.1 then p.2 ∈ [c.nickC, c.pmC, c.gcC, c.markC, c.off] else (27 : UInt8) ∉ p.2 :=
    ⟨[(false, text)], by simp, by simp, by simpa using ht⟩
  unfold shown at h
  by_cases hg : c.group = true
  · rw [if_pos hg] at h
    unfold Mention.colour at h
    split at h
    · cases h; exact plain
    · next k _ =>
      by_cases hm : (m == Mode.normal) = true
      · rw [if_pos hm] at h
        by_cases hk : k + c.own.length ≤ text.length
        · rw [if_pos hk] at h
          cases h
          refine ⟨[(false, text.take k), (true, c.markC), (false, (text.drop k).take c.own.length), (true, c.off),
            (false, text.drop (k + c.own.length))], by simp, ?_, ?_⟩
          · have : text = text.take k ++ ((text.drop k).take c.own.length ++ text.drop (k + c.own.length)) := by
              rw [← List.drop_drop, List.take_append_drop, List.take_append_drop]
            simpa using this
          · intro p hp
            simp only [List.mem_cons, List.not_mem_nil, or_false] at hp
            rcases hp with rfl | rfl | rfl | rfl | rfl
            · exact fun h' => ht (List.mem_of_mem_take h')
            · simp
            · exact fun h' => ht (List.mem_of_mem_drop (List.mem_of_mem_take h'))
            · simp
            · exact fun h' => ht (List.mem_of_mem_drop h')
        · rw [if_neg hk] at h; cases h
      · rw [if_neg hm] at h; cases h; exact plain
  · rw [if_neg hg] at h; cases h; exact plain

theorem plainTag_read {stamp nick text : Bytes} (m : Mode) (h : Name nick) :
    readOutput stamp (plainTag nick m ++ [32] ++ text) = some ⟨stamp, m == .me, nick, text⟩ := by
  unfold plainTag
  by_cases hm : m = .me
  · subst hm; exact read_did _ _ _ h.2.1
  · rw [if_neg hm, read_said _ _ _ h.2.2.2.1]
    have : (m == Mode.me) = false := by simpa using hm
    rw [this]

theorem plainTag_plain {nick : Bytes} (m : Mode) (h : (10 : UInt8) ∉ nick) : (10 : UInt8) ∉ plainTag nick m := by
  unfold plainTag
  split <;> simpa using h

/-! ## Notices of days -/

theorem monthName_mem {m : Nat} {x : Char} (h : x ∈ monthName m) : 65 ≤ x.toNat ∧ x.toNat < 128 := by
  have key : ∀ l ∈ ["January", "February", "March", "April", "May", "June", "July", "August", "September", "October",
      "November", "December"].map String.toList, ∀ x ∈ l, 65 ≤ x.toNat ∧ x.toNat < 128 := by decide +kernel
  unfold monthName at h
  rw [List.getD_eq_getElem?_getD] at h
  cases hk : ((["January", "February", "March", "April", "May", "June", "July", "August", "September", "October",
      "November", "December"].map String.toList)[m - 1]? : Option (List Char)) with
  | none => rw [hk] at h; cases h
  | some l =>
    rw [hk] at h
    exact key l (List.mem_of_getElem? hk) x h

theorem toDigits_mem {n : Nat} {x : Char} (h : x ∈ Nat.toDigits 10 n) : 48 ≤ x.toNat ∧ x.toNat < 58 := by
  have := Nat.isDigit_of_mem_toDigits (by decide) (by decide) h
  simp only [Char.isDigit, Bool.and_eq_true, decide_eq_true_eq] at this
  have h1 : (48 : UInt32).toNat ≤ x.val.toNat := this.1
  have h2 : x.val.toNat ≤ (57 : UInt32).toNat := this.2
  have e1 : (48 : UInt32).toNat = 48 := rfl
  have e2 : (57 : UInt32).toNat = 57 := rfl
  have : x.toNat = x.val.toNat := rfl
  omega

theorem dayText_mem {d : Nat} {x : Char} (h : x ∈ dayText d) : 32 ≤ x.toNat ∧ x.toNat < 128 := by
  simp only [dayText, List.mem_append, List.mem_singleton] at h
  rcases h with (((h | h) | h) | h) | h
  · have := toDigits_mem h; omega
  · subst h; decide
  · have := monthName_mem h; omega
  · subst h; decide
  · have := toDigits_mem h; omega

theorem ascii_plain {s : List Char} (h : ∀ x ∈ s, 32 ≤ x.toNat ∧ x.toNat < 128) : Plain (Crpc.ascii s) := by
  constructor
  all_goals
    intro hm
    obtain ⟨x, hx, he⟩ := List.mem_map.1 hm
    have hh := h x hx
    have := congrArg UInt8.toNat he
    rw [UInt8.toNat_ofNat', Nat.mod_eq_of_lt (by omega)] at this
    revert this
  · show x.toNat = 10 → False
    omega
  · show x.toNat = 27 → False
    omega

theorem notice_text {p : List Char} {x : Char} {r : List Char} (hp : p = x :: r) (hx : x = 'f' ∨ x = 'd')
    (hall : ∀ y ∈ p, 32 ≤ y.toNat ∧ y.toNat < 128) (day : Nat) : Quiet (Crpc.ascii (p ++ dayText day)) := by
  refine ⟨ascii_plain ?_, ?_, ?_⟩
  · intro y hy
    rcases List.mem_append.1 hy with h | h
    · exact hall y h
    · exact dayText_mem h
  · subst hp
    rcases hx with rfl | rfl <;> simp [Crpc.ascii]
  · subst hp
    rcases hx with rfl | rfl <;> simp [Crpc.ascii]

theorem dayNotice_quiet {last : Option Nat} {day : Nat} {n : Bytes} (h : dayNotice last day = some n) : Quiet n := by
  unfold dayNotice at h
  split at h
  · cases h
    exact notice_text (x := 'f') rfl (.inl rfl) (by decide) day
  · split at h
    · cases h
      exact notice_text (x := 'd') rfl (.inr rfl) (by decide) day
    · cases h

/-! ## The log -/

theorem plain_append {a b : Bytes} (ha : (10 : UInt8) ∉ a) (hb : (10 : UInt8) ∉ b) : (10 : UInt8) ∉ a ++ b := by
  intro h
  rcases List.mem_append.1 h with h | h
  · exact ha h
  · exact hb h

theorem out_nl (t : Nat) {out : Bytes} (h : (10 : UInt8) ∉ out) : (10 : UInt8) ∉ long (wall t) ++ [32] ++ out :=
  plain_append (plain_append (long_plain _).1 (by decide)) h

/-- A line that is written is read as it is. -/
theorem read_written {f : Bytes} (hf : Ended f) (t : Nat) {out : Bytes} (h : (10 : UInt8) ∉ out) :
    read (f ++ (long (wall t) ++ [32] ++ out ++ [10])) = read f ++ (readOutput (long (wall t)) out).toList ∧
      Ended (f ++ (long (wall t) ++ [32] ++ out ++ [10])) := by
  refine ⟨?_, ended_line hf (out_nl t h)⟩
  rw [read_append hf]
  have := read_line (long (wall t) ++ [32] ++ out) [] (out_nl t h)
  rw [List.append_nil] at this
  rw [this, readLine_out]
  show read f ++ (_ ++ []) = _
  rw [List.append_nil]

theorem quiet_line {c : Cfg} (hc : Strips c) (t : Nat) {n : Bytes} (h : (27 : UInt8) ∉ n) :
    line c t n = long (wall t) ++ [32] ++ n ++ [10] := by
  have := strip_line hc t [(false, n)] (by simpa using h)
  simpa using this

/-- The notice of a day is no remark. -/
theorem notice_written {c : Cfg} (hc : Strips c) {f : Bytes} (hf : Ended f) (last : Option Nat) (day t : Nat) :
    read (f ++ (match dayNotice last day with | some n => line c t n | none => [])) = read f ∧
      Ended (f ++ (match dayNotice last day with | some n => line c t n | none => [])) := by
  cases hd : dayNotice last day with
  | none => simp only [List.append_nil]; exact ⟨trivial, hf⟩
  | some n =>
    have hq := dayNotice_quiet hd
    simp only [quiet_line hc t hq.1.2]
    have := read_written hf t hq.1.1
    rw [read_quiet _ hq.2.1 hq.2.2] at this
    simpa using this

def Inv (c : Cfg) (es : List Ev) (s : State) : Prop :=
  Ended s.file ∧ read s.file = (es.filterMap speech).map (Speech.remark c)

theorem remark_heard (c : Cfg) (id : Bytes) (me : Bool) (text : Bytes) (t : Nat) :
    Speech.remark c ⟨some id, me, text, t / 1000000000⟩ = ⟨long (wall t), me, c.nick id, text⟩ := by
  simp only [Speech.remark, long_round]; rfl

theorem remark_wrote (c : Cfg) (me : Bool) (text : Bytes) (t : Nat) :
    Speech.remark c ⟨none, me, text, t / 1000000000⟩ = ⟨long (wall t), me, c.own, text⟩ := by
  simp only [Speech.remark, long_round]; rfl

theorem left_quiet {n reason : Bytes} (hn : Name n) (hr : Plain reason) : Quiet (n ++ leftText ++ reason) := by
  obtain ⟨hp, h32, h60, _, hne⟩ := hn
  have hl : Plain leftText := ascii_plain (by decide)
  refine ⟨⟨plain_append (plain_append hp.1 hl.1) hr.1, ?_⟩, ?_, ?_⟩
  · intro h
    rcases List.mem_append.1 h with h | h
    · rcases List.mem_append.1 h with h | h
      · exact hp.2 h
      · exact hl.2 h
    · exact hr.2 h
  · cases n with
    | nil => simp [leftText, Crpc.ascii]
    | cons x r =>
      have : x ≠ 60 := fun e => h60 (by simp [e])
      simpa using this
  · cases n with
    | nil => simp [leftText, Crpc.ascii]
    | cons x r =>
      cases r with
      | nil =>
        have : x ≠ 42 := fun e => hne (by simp [e])
        rintro ⟨y, hy⟩
        have := (List.cons.inj hy).1
        simp_all
      | cons y r =>
        have : y ≠ 32 := fun e => h32 (by simp [e])
        rintro ⟨z, hz⟩
        have := (List.cons.inj (List.cons.inj hz).2).1
        simp_all

theorem inv_step {c : Cfg} (hc : Strips c) (ho : Name c.own) {es : List Ev} {s : State} {e : Ev} (h : Inv c es s)
    (he : Fine c e) (hs : s.alive = true) (ha : (step c s e).alive = true) : Inv c (es ++ [e]) (step c s e) := by
  obtain ⟨h1, h2⟩ := h
  have hfm : ∀ x, (es ++ [x]).filterMap speech = es.filterMap speech ++ (speech x).toList := by
    intro x
    rw [List.filterMap_append]
    cases hx : speech x <;> simp [hx]
  unfold Inv
  rw [hfm, List.map_append, ← h2]
  cases e with
  | heard id m text t =>
    obtain ⟨hn, ht, hy⟩ := he
    simp only [step, if_pos hs] at ha ⊢
    cases hx : shown c m text with
    | ok x =>
      obtain ⟨ps, rfl, hps, hall⟩ := shown_pieces hx ht.2
      simp only [stamped]
      have hcol : (if c.group then c.gcC else c.pmC) ∈ [c.nickC, c.pmC, c.gcC] := by split <;> simp
      rw [strip_tag hc t m hcol hn.1.2 ps hall, ← hps]
      obtain ⟨g1, g2⟩ := notice_written hc h1 s.last (t / dayLen) t
      obtain ⟨k1, k2⟩ := read_written g2 t (out := plainTag (c.nick id) m ++ [32] ++ text)
        (plain_append (plain_append (plainTag_plain m hn.1.1) (by decide)) ht.1)
      refine ⟨k2, ?_⟩
      refine k1.trans ?_
      refine (congrArg (· ++ _) g1).trans ?_
      rw [plainTag_read m hn]
      simp only [speech, Option.toList, List.map_cons, List.map_nil, remark_heard]
    | err _ => rw [hx] at ha; cases ha
    | panic => rw [hx] at ha; cases ha
  | wrote m text t =>
    obtain ⟨ht, hy⟩ := he
    simp only [step, if_pos hs, local']
    have := strip_tag hc t m (col := c.nickC) (nick := c.own) (by simp) ho.1.2 [(false, text)] (by simpa using ht.2)
    simp only [List.flatMap_cons, List.flatMap_nil, List.append_nil, List.filter_cons, List.filter_nil, Bool.not_false,
      if_true] at this
    rw [this]
    obtain ⟨k1, k2⟩ := read_written h1 t (out := plainTag c.own m ++ [32] ++ text)
      (plain_append (plain_append (plainTag_plain m ho.1.1) (by decide)) ht.1)
    refine ⟨k2, ?_⟩
    rw [k1, plainTag_read m ho]
    simp only [speech, Option.toList, List.map_cons, List.map_nil, remark_wrote]
  | left id reason t =>
    obtain ⟨hn, hr, hy⟩ := he
    simp only [step, if_pos hs, local']
    have hq := left_quiet hn hr
    have hl : Plain leftText := ascii_plain (by decide)
    have := strip_line hc t [(true, c.pmC), (false, c.nick id), (true, c.off), (false, leftText), (false, reason)] (by
      intro p hp
      simp only [List.mem_cons, List.not_mem_nil, or_false] at hp
      rcases hp with rfl | rfl | rfl | rfl | rfl
      · simp
      · exact hn.1.2
      · simp
      · exact hl.2
      · exact hr.2)
    have e1 : line c t (c.pmC ++ c.nick id ++ c.off ++ leftText ++ reason) =
        long (wall t) ++ [32] ++ (c.nick id ++ leftText ++ reason) ++ [10] := by simpa using this
    rw [e1]
    obtain ⟨k1, k2⟩ := read_written h1 t hq.1.1
    refine ⟨k2, ?_⟩
    rw [k1, read_quiet _ hq.2.1 hq.2.2]
    rfl
  | told text t =>
    obtain ⟨hq, hy⟩ := he
    simp only [step, if_pos hs, local']
    rw [quiet_line hc t hq.1.2]
    obtain ⟨k1, k2⟩ := read_written h1 t hq.1.1
    refine ⟨k2, ?_⟩
    rw [k1, read_quiet _ hq.2.1 hq.2.2]
    rfl
  | reopened =>
    refine ⟨h1, ?_⟩
    simp [step, speech]

/-- No message ended the client. -/
def Lives (c : Cfg) : State → List Ev → Prop
  | _, [] => True
  | s, e :: es => (step c s e).alive = true ∧ Lives c (step c s e) es

theorem inv_run {c : Cfg} (hc : Strips c) (ho : Name c.own) : ∀ (es : List Ev) {ds : List Ev} {s : State}, Inv c ds s →
    s.alive = true → (∀ e ∈ es, Fine c e) → Lives c s es → Inv c (ds ++ es) (run c s es)
  | [], ds, s, h, _, _, _ => by simpa [run] using h
  | e :: es, ds, s, h, hs, hf, hl => by
    have h1 := inv_step hc ho h (hf e (List.mem_cons_self ..)) hs hl.1
    have := inv_run hc ho es h1 hl.1 (fun x hx => hf x (List.mem_cons_of_mem _ hx)) hl.2
    simpa [run] using this

/-- C130.  What is read in the log is what was said: who said it, in which form, what, and in which second, in the order of
the lines, and nothing else.  Missing: nicks and texts with line breaks, nicks with spaces or angle brackets, notices that
look like remarks (next theorems). -/
theorem C130_read_partial {c : Cfg} (hc : Strips c) (ho : Name c.own) {es : List Ev} (hf : ∀ e ∈ es, Fine c e)
    (hl : Lives c {} es) : read (run c {} es).file = (es.filterMap speech).map (Speech.remark c) := by
  have := inv_run hc ho es (ds := []) (s := {}) ⟨ended_nil, rfl⟩ rfl hf hl
  simpa using this.2

theorem map_inj_on {α β : Type} {f : α → β} : ∀ {a b : List α}, (∀ x ∈ a, ∀ y ∈ b, f x = f y → x = y) → a.map f = b.map f → a = b
  | [], [], _, _ => rfl
  | [], y :: b, _, h => by cases h
  | x :: a, [], _, h => by cases h
  | x :: a, y :: b, hi, h => by
    obtain ⟨h1, h2⟩ := List.cons.inj h
    rw [hi x (List.mem_cons_self ..) y (List.mem_cons_self ..) h1,
      map_inj_on (fun x hx y hy => hi x (List.mem_cons_of_mem _ hx) y (List.mem_cons_of_mem _ hy)) h2]

/-- Identities that speak. -/
def speakers (es : List Ev) : List Bytes := es.filterMap fun e => match e with | .heard id _ _ _ => some id | _ => none

/-- C130.  If no two have the same nick, two conversations with the same log are the same: who said what, and when.  Missing:
as before, and members with the nick of the user. -/
theorem C130_who_partial {c : Cfg} (hc : Strips c) (ho : Name c.own) {es ds : List Ev} (hf : ∀ e ∈ es ++ ds, Fine c e)
    (hl : Lives c {} es) (hl' : Lives c {} ds)
    (hn : ∀ a ∈ speakers (es ++ ds), c.nick a ≠ c.own ∧ ∀ b ∈ speakers (es ++ ds), c.nick a = c.nick b → a = b)
    (h : (run c {} es).file = (run c {} ds).file) : es.filterMap speech = ds.filterMap speech := by
  have h1 := C130_read_partial hc ho (fun e he => hf e (List.mem_append_left _ he)) hl
  have h2 := C130_read_partial hc ho (fun e he => hf e (List.mem_append_right _ he)) hl'
  rw [h, h2] at h1
  refine (map_inj_on ?_ h1.symm)
  have who : ∀ l : List Ev, (∀ e ∈ l, e ∈ es ++ ds) → ∀ s ∈ l.filterMap speech,
      (∀ a, s.who = some a → a ∈ speakers (es ++ ds)) ∧ (wall (s.second * 1000000000)).year < 10000 := by
    intro l hsub s hs
    obtain ⟨e, he, hse⟩ := List.mem_filterMap.1 hs
    have hfe := hf e (hsub e he)
    cases e with
    | heard id m text t =>
      cases hse
      refine ⟨?_, by rw [year_round]; exact hfe.2.2⟩
      intro a ha
      cases ha
      exact List.mem_filterMap.2 ⟨_, hsub _ he, rfl⟩
    | wrote m text t =>
      cases hse
      refine ⟨fun a ha => (by cases ha), by rw [year_round]; exact hfe.2⟩
    | left => cases hse
    | told => cases hse
    | reopened => cases hse
  intro x hx y hy hxy
  obtain ⟨wx, yx⟩ := who es (fun e he => List.mem_append_left _ he) x hx
  obtain ⟨wy, yy⟩ := who ds (fun e he => List.mem_append_right _ he) y hy
  obtain ⟨xw, xm, xt, xs⟩ := x
  obtain ⟨yw, ym, yt, ys⟩ := y
  simp only [Speech.remark, Remark.mk.injEq] at hxy
  obtain ⟨e1, rfl, e3, rfl⟩ := hxy
  obtain rfl := long_inj yx yy e1
  have : xw = yw := by
    cases xw with
    | none =>
      cases yw with
      | none => rfl
      | some b => exact absurd e3.symm (hn b (wy b rfl)).1
    | some a =>
      cases yw with
      | none => exact absurd e3 (hn a (wx a rfl)).1
      | some b => rw [(hn a (wx a rfl)).2 b (wy b rfl) e3]
  rw [this]

/-- C130.  Nothing that is said later changes what is in the log. -/
theorem C130_kept (c : Cfg) (s : State) (es : List Ev) : s.file <+: (run c s es).file := by
  induction es generalizing s with
  | nil => exact List.prefix_refl _
  | cons e es ih =>
    refine List.IsPrefix.trans ?_ (ih (step c s e))
    cases e with
    | heard id m text t =>
      simp only [step]
      split
      · split
        · simp only [stamped, List.append_assoc]; exact List.prefix_append _ _
        · exact List.prefix_refl _
      · exact List.prefix_refl _
    | reopened => exact List.prefix_refl _
    | _ =>
      simp only [step, local']
      split
      · exact List.prefix_append _ _
      · exact List.prefix_refl _

/-! ## Violations -/

/-- The day is told when it is not that of the message before, and only then. -/
theorem C130_day (c : Cfg) {s : State} (hs : s.alive = true) (id : Bytes) {m : Mode} {text x : Bytes} (hx : shown c m text = .ok x)
    (t : Nat) : ∃ said, (step c s (.heard id m text t)).file = s.file ++ said ++
        line c t (tag c (if c.group then c.gcC else c.pmC) (c.nick id) m ++ [32] ++ x) ∧
      (step c s (.heard id m text t)).last = some (t / dayLen) ∧
      (s.last = some (t / dayLen) → said = []) ∧
      (s.last = none → said = line c t (Crpc.ascii ("first message received on ".toList ++ dayText (t / dayLen)))) ∧
      (∀ e, s.last = some e → e ≠ t / dayLen →
        said = line c t (Crpc.ascii ("day changed to ".toList ++ dayText (t / dayLen)))) := by
  refine ⟨match dayNotice s.last (t / dayLen) with
    | some n => line c t n
    | none => [], ?_, ?_, ?_, ?_, ?_⟩
  · simp only [step, if_pos hs, hx, stamped]
    cases dayNotice s.last (t / dayLen) <;> rfl
  · simp only [step, if_pos hs, hx, stamped]
  · intro h; simp [h, dayNotice]
  · intro h; simp [h, dayNotice]
  · intro e h he; simp [h, dayNotice, Ne.symm he]

/-- The log says who wrote what: not so.  Whoever may write to the window can add any lines to the log after their own: such
as anybody's remarks, the user's too, of any time. -/
theorem C130_forged_violated {c : Cfg} (hc : Strips c) (s : State) (hs : s.alive = true) (id : Bytes)
    (hn : (27 : UInt8) ∉ c.nick id) (x : Bytes) (hx : (27 : UInt8) ∉ x) (forged : Bytes) (hf : (27 : UInt8) ∉ forged) (t : Nat)
    (hd : s.last = some (t / dayLen)) :
    (step c s (.heard id .me (x ++ [10] ++ forged) t)).file =
      (step c s (.heard id .me x t)).file ++ forged ++ [10] := by
  have key : ∀ y : Bytes, (27 : UInt8) ∉ y → (step c s (.heard id .me y t)).file =
      s.file ++ (long (wall t) ++ [32] ++ (plainTag (c.nick id) .me ++ [32] ++ y) ++ [10]) := by
    intro y hy
    have hsh : shown c .me y = .ok y := by
      unfold shown
      split
      · unfold Mention.colour
        split <;> rfl
      · rfl
    have hcol : (if c.group then c.gcC else c.pmC) ∈ [c.nickC, c.pmC, c.gcC] := by split <;> simp
    have hdn : dayNotice s.last (t / dayLen) = none := by rw [hd]; simp [dayNotice]
    have := strip_tag hc t .me hcol hn [(false, y)] (by simpa using hy)
    simp only [List.flatMap_cons, List.flatMap_nil, List.append_nil, List.filter_cons, List.filter_nil, Bool.not_false,
      if_true] at this
    simp only [step, if_pos hs, hsh, stamped, hdn, List.append_nil]
    rw [this]
  rw [key _ hx, key]
  · simp
  · intro h
    simp only [List.mem_append, List.mem_singleton] at h
    rcases h with (h | h) | h
    · exact hx h
    · exact absurd h (by decide)
    · exact hf h

/-- So any remark of another contact or of the user is forged: with the line break and the line in their own remark, the log is
as if the other had said it. -/
theorem C130_remark_violated {c : Cfg} (hc : Strips c) (s : State) (hs : s.alive = true) (id : Bytes)
    (hn : (27 : UInt8) ∉ c.nick id) (ho : (27 : UInt8) ∉ c.own) (x text : Bytes) (hx : (27 : UInt8) ∉ x)
    (ht : (27 : UInt8) ∉ text) (m : Mode) (t t' : Nat) (hd : s.last = some (t / dayLen)) :
    ∃ forged, (step c s (.heard id .me (x ++ [10] ++ forged) t)).file = (run c s [.heard id .me x t, .wrote m text t']).file := by
  refine ⟨long (wall t') ++ [32] ++ (plainTag c.own m ++ [32] ++ text), ?_⟩
  have hp : (27 : UInt8) ∉ plainTag c.own m := by unfold plainTag; split <;> simpa using ho
  rw [C130_forged_violated hc s hs id hn x hx _ _ t hd]
  · have hsh : shown c .me x = .ok x := by
      unfold shown
      split
      · unfold Mention.colour
        split <;> rfl
      · rfl
    have ha : (step c s (.heard id .me x t)).alive = true := by
      simp only [step, if_pos hs, hsh, stamped]
      exact hs
    show _ = (step c (step c s (.heard id .me x t)) (.wrote m text t')).file
    have := strip_tag hc t' m (col := c.nickC) (nick := c.own) (by simp) ho [(false, text)] (by simpa using ht)
    simp only [List.flatMap_cons, List.flatMap_nil, List.append_nil, List.filter_cons, List.filter_nil, Bool.not_false,
      if_true] at this
    generalize step c s (.heard id .me x t) = s' at ha ⊢
    simp only [step, if_pos ha, local']
    rw [this]
    simp only [List.append_assoc]
  · intro h
    simp only [List.mem_append, List.mem_singleton] at h
    rcases h with (h | h) | ((h | h) | h)
    · exact (long_plain _).2 h
    · exact absurd h (by decide)
    · exact hp h
    · exact absurd h (by decide)
    · exact ht h

theorem same_line {c : Cfg} (hc : Strips c) (s : State) {a b : Bytes} (ha : (27 : UInt8) ∉ c.nick a)
    (hb : (27 : UInt8) ∉ c.nick b) {x y : Bytes} (hx : (27 : UInt8) ∉ x) (hy : (27 : UInt8) ∉ y) (m : Mode) (t : Nat)
    (h1 : c.group = false ∨ m = .me) (he : plainTag (c.nick a) m ++ [32] ++ x = plainTag (c.nick b) m ++ [32] ++ y) :
    step c s (.heard a m x t) = step c s (.heard b m y t) := by
  have hsh : ∀ z, shown c m z = .ok z := by
    intro z
    unfold shown
    split
    · next hg =>
      rcases h1 with h1 | h1
      · rw [h1] at hg; cases hg
      · subst h1; unfold Mention.colour; split <;> rfl
    · rfl
  have hcol : (if c.group then c.gcC else c.pmC) ∈ [c.nickC, c.pmC, c.gcC] := by split <;> simp
  have h2 := strip_tag hc t m hcol ha [(false, x)] (by simpa using hx)
  have h3 := strip_tag hc t m hcol hb [(false, y)] (by simpa using hy)
  simp only [List.flatMap_cons, List.flatMap_nil, List.append_nil, List.filter_cons, List.filter_nil, Bool.not_false,
    if_true] at h2 h3
  simp only [step, hsh, stamped]
  rw [h2, h3, he]

/-- Nicks are not checked: one who calls themselves as another, with a space and more, has what they do with `/me` logged as
if the other did it. -/
theorem C130_nick_violated {c : Cfg} (hc : Strips c) (s : State) {a b : Bytes} {p : Bytes} (hb : c.nick b = c.nick a ++ [32] ++ p)
    (ha : (27 : UInt8) ∉ c.nick a) (hp : (27 : UInt8) ∉ p) (x : Bytes) (hx : (27 : UInt8) ∉ x) (t : Nat) :
    step c s (.heard b .me x t) = step c s (.heard a .me (p ++ [32] ++ x) t) := by
  refine same_line hc s ?_ ha hx ?_ .me t (.inr rfl) ?_
  · rw [hb]
    intro h
    simp only [List.mem_append, List.mem_singleton] at h
    rcases h with (h | h) | h
    · exact ha h
    · exact absurd h (by decide)
    · exact hp h
  · intro h
    simp only [List.mem_append, List.mem_singleton] at h
    rcases h with (h | h) | h
    · exact hp h
    · exact absurd h (by decide)
    · exact hx h
  · rw [hb]; simp [plainTag]

/-- The nick of the user is not in the address book, so one who has the same nick keeps it, ... -/
theorem C130_taken_violated (id : AddressBook.PubId) (b : AddressBook.Book) (h : b.get id.nick = none) :
    ∃ b', AddressBook.add b id = some ((id.nick, false), b') := by
  unfold AddressBook.add AddressBook.addLoop
  rw [h]
  exact ⟨_, rfl⟩

/-- ... and what they write is logged as if the user wrote it. -/
theorem C130_own_violated {c : Cfg} (hc : Strips c) (s : State) {a : Bytes} (ha : c.nick a = c.own) (ho : (27 : UInt8) ∉ c.own)
    (m : Mode) (h1 : c.group = false ∨ m = .me) (x : Bytes) (hx : (27 : UInt8) ∉ x) (t : Nat) (hd : s.last = some (t / dayLen)) :
    (step c s (.heard a m x t)).file = (step c s (.wrote m x t)).file := by
  by_cases hs : s.alive = true
  · have hsh : shown c m x = .ok x := by
      unfold shown
      split
      · next hg =>
        rcases h1 with h1 | h1
        · rw [h1] at hg; cases hg
        · subst h1; unfold Mention.colour; split <;> rfl
      · rfl
    have hdn : dayNotice s.last (t / dayLen) = none := by rw [hd]; simp [dayNotice]
    have hcol : (if c.group then c.gcC else c.pmC) ∈ [c.nickC, c.pmC, c.gcC] := by split <;> simp
    have h2 := strip_tag hc t m hcol (ha ▸ ho) [(false, x)] (by simpa using hx)
    have h3 := strip_tag hc t m (col := c.nickC) (by simp) ho [(false, x)] (by simpa using hx)
    simp only [List.flatMap_cons, List.flatMap_nil, List.append_nil, List.filter_cons, List.filter_nil, Bool.not_false,
      if_true] at h2 h3
    simp only [step, if_pos hs, hsh, stamped, hdn, local', List.append_nil]
    rw [h2, h3, ha]
  · simp only [step, if_neg hs]

/-- A member whose nick is that of another in angle brackets leaves: the log reads as if the other said so, with the reason
that the member gave. -/
theorem C130_left_violated {c : Cfg} (hc : Strips c) {a n : Bytes} (ha : c.nick a = [60] ++ n ++ [62]) (hn : Name n)
    {reason : Bytes} (hr : Plain reason) (t : Nat) :
    read (step c {} (.left a reason t)).file = [⟨long (wall t), false, n, leftText.drop 1 ++ reason⟩] := by
  have hl : Plain leftText := ascii_plain (by decide)
  have hna : (27 : UInt8) ∉ c.nick a := by rw [ha]; simpa using hn.1.2
  have := strip_line hc t [(true, c.pmC), (false, c.nick a), (true, c.off), (false, leftText), (false, reason)] (by
    intro p hp
    simp only [List.mem_cons, List.not_mem_nil, or_false] at hp
    rcases hp with rfl | rfl | rfl | rfl | rfl
    · simp
    · exact hna
    · simp
    · exact hl.2
    · exact hr.2)
  have e1 : line c t (c.pmC ++ c.nick a ++ c.off ++ leftText ++ reason) =
      long (wall t) ++ [32] ++ (c.nick a ++ leftText ++ reason) ++ [10] := by simpa using this
  have e2 : c.nick a ++ leftText ++ reason = [60] ++ n ++ [62] ++ [32] ++ (leftText.drop 1 ++ reason) := by
    rw [ha]
    have : leftText = [32] ++ leftText.drop 1 := by decide
    conv => lhs; rw [this]
    simp
  show read ([] ++ line c t (c.pmC ++ c.nick a ++ c.off ++ leftText ++ reason)) = _
  rw [e1]
  have hnl : (10 : UInt8) ∉ c.nick a ++ leftText ++ reason := by
    refine plain_append (plain_append ?_ hl.1) hr.1
    rw [ha]; simpa using hn.1.1
  rw [(read_written ended_nil t hnl).1, e2, read_said _ _ _ hn.2.2.2.1]
  rfl

/-! ## Instances -/

/-- Removes what begins with an escape character and ends with "m". -/
def strip : Bool → Bytes → Bytes
  | _, [] => []
  | false, x :: r => if x = 27 then strip true r else x :: strip false r
  | true, x :: r => if x = 109 then strip false r else strip true r

theorem strip_plain {a : Bytes} (h : (27 : UInt8) ∉ a) (b : Bytes) : strip false (a ++ b) = a ++ strip false b := by
  induction a with
  | nil => rfl
  | cons x r ih =>
    have hx : x ≠ 27 := fun e => h (by simp [e])
    rw [List.cons_append, strip, if_neg hx, ih (fun e => h (by simp [e])), List.cons_append]

theorem strip_in {a : Bytes} (h : (109 : UInt8) ∉ a) (b : Bytes) : strip true (a ++ 109 :: b) = strip false b := by
  induction a with
  | nil => simp [strip]
  | cons x r ih =>
    have hx : x ≠ 109 := fun e => h (by simp [e])
    rw [List.cons_append, strip, if_neg hx, ih (fun e => h (by simp [e]))]

/-- The window of alice: of a group with bob, whose identity is [1], carol, who is [2], and others with nicks that are not
checked. -/
def alice : Cfg where
  u := strip false
  up := Mention.up0
  nickC := [27, 91, 51, 109]
  pmC := [27, 91, 52, 109]
  gcC := [27, 91, 53, 109]
  markC := [27, 91, 54, 109]
  off := [27, 91, 48, 109]
  own := [97, 108, 105, 99, 101]
  nick := fun id =>
    if id = [1] then [98, 111, 98] else if id = [2] then [99, 97, 114, 111, 108] else if id = [3] then [98, 111, 98, 32, 120]
    else if id = [4] then [60, 98, 111, 98, 62] else [97, 108, 105, 99, 101]
  group := true

theorem alice_strips : Strips alice := by
  intro ps
  induction ps with
  | nil => intro _; rfl
  | cons p ps ih =>
    intro h
    have hr := ih (fun q hq => h q (List.mem_cons_of_mem _ hq))
    have hp := h p (List.mem_cons_self ..)
    obtain ⟨b, x⟩ := p
    change strip false _ = _ at hr
    show strip false _ = _
    rw [List.flatMap_cons]
    cases b with
    | false =>
      rw [strip_plain hp, hr]
      rfl
    | true =>
      have : ∃ y, x = 27 :: (y ++ [109]) ∧ (109 : UInt8) ∉ y := by
        simp only [if_true, List.mem_cons, List.not_mem_nil, or_false] at hp
        rcases hp with rfl | rfl | rfl | rfl | rfl
        · exact ⟨[91, 51], rfl, by decide⟩
        · exact ⟨[91, 52], rfl, by decide⟩
        · exact ⟨[91, 53], rfl, by decide⟩
        · exact ⟨[91, 54], rfl, by decide⟩
        · exact ⟨[91, 48], rfl, by decide⟩
      obtain ⟨y, rfl, hy⟩ := this
      rw [List.cons_append, strip, if_pos rfl, List.append_assoc]
      rw [show [109] ++ List.flatMap (fun q : Piece => q.2) ps = 109 :: List.flatMap (fun q : Piece => q.2) ps from rfl,
        strip_in hy, hr]
      rfl

/-- Bob says "hi Alice", alice "yo", carol "* waves"; bob leaves the next day, and carol says something after that. -/
def talk : List Ev :=
  [.heard [1] .normal [104, 105, 32, 65, 108, 105, 99, 101] 1000000000, .wrote .normal [121, 111] 3000000000,
    .heard [2] .me [119, 97, 118, 101, 115] 5000000000, .left [1] [98, 121, 101] (dayLen + 7),
    .heard [2] .other [111, 104] (dayLen + 8), .reopened, .told [110, 111] (dayLen + 9)]

instance (b : Bytes) : Decidable (Plain b) := inferInstanceAs (Decidable (_ ∧ _))
instance (b : Bytes) : Decidable (Name b) := inferInstanceAs (Decidable (_ ∧ _))
instance (b : Bytes) : Decidable (Quiet b) := inferInstanceAs (Decidable (_ ∧ _))
instance (c : Cfg) (e : Ev) : Decidable (Fine c e) := by cases e <;> unfold Fine <;> infer_instance

def decLives (c : Cfg) : (s : State) → (es : List Ev) → Decidable (Lives c s es)
  | _, [] => .isTrue trivial
  | s, e :: es => @instDecidableAnd _ _ _ (decLives c (step c s e) es)

instance (c : Cfg) (s : State) (es : List Ev) : Decidable (Lives c s es) := decLives c s es

example : Name alice.own ∧ (∀ e ∈ talk ++ talk.take 3, Fine alice e) ∧ Lives alice {} talk ∧
    (∀ a ∈ speakers (talk ++ talk.take 3), alice.nick a ≠ alice.own ∧
      ∀ b ∈ speakers (talk ++ talk.take 3), alice.nick a = alice.nick b → a = b) ∧
    (run alice {} talk).file = Crpc.ascii ("1970-01-01 00:00:01 first message received on 1 January 1970\n1970-01-01 00:00:01 <bob> hi Alice\n" ++
      "1970-01-01 00:00:03 <alice> yo\n1970-01-01 00:00:05 * carol waves\n1970-01-02 00:00:00 bob left group chat: bye\n" ++
      "1970-01-02 00:00:00 day changed to 2 January 1970\n1970-01-02 00:00:00 <carol> oh\n1970-01-02 00:00:00 no\n").toList ∧
    (talk.filterMap speech).map (·.who) = [some [1], none, some [2], some [2]] := by decide +kernel

/-- What `C130_forged_violated`, `C130_nick_violated`, `C130_own_violated` and `C130_left_violated` are about. -/
example : (27 : UInt8) ∉ alice.nick [1] ∧ alice.nick [3] = alice.nick [1] ++ [32] ++ [120] ∧ alice.nick [5] = alice.own ∧
    alice.nick [4] = [60] ++ alice.nick [1] ++ [62] ∧ Name (alice.nick [1]) ∧
    (run alice {} (talk.take 1)).alive = true ∧ (run alice {} (talk.take 1)).last = some (5 / dayLen) ∧
    read (run alice {} [.heard [1] .normal [120] 0, .heard [1] .me ([121, 10] ++ long (wall 5) ++ [32, 60] ++ alice.own ++ [62, 32, 122]) 0]).file =
      [⟨long (wall 0), false, [98, 111, 98], [120]⟩, ⟨long (wall 0), true, [98, 111, 98], [121]⟩,
        ⟨long (wall 5), false, alice.own, [122]⟩] := by decide +kernel

end Verif.Transcript
