import Verif.Model.Log
import Mathlib.Tactic.ByContra

/-! # C101: the log says what happened, one line each -/

namespace Verif.Log

open Verif Text

/-! ## What is expected -/

/-- A piece of a format as programs write them: text, or a verb for the next argument. -/
inductive Piece
  | lit (b : Bytes)
  | arg (verb : UInt8)
  deriving DecidableEq, Repr

def isLetter (c : UInt8) : Bool := (0x41 ≤ c && c ≤ 0x5a) || (0x61 ≤ c && c ≤ 0x7a)

def Piece.ok : Piece → Bool
  | .lit b => 0x25 ∉ b
  | .arg v => isLetter v

/-- The format. -/
def fmtOf : List Piece → Bytes
  | [] => []
  | .lit b :: r => b ++ fmtOf r
  | .arg v :: r => 0x25 :: v :: fmtOf r

/-- The text that is meant. -/
def render : List Piece → List Bytes → Bytes
  | [], _ => []
  | .lit b :: r, as => b ++ render r as
  | .arg _ :: r, a :: as => a ++ render r as
  | .arg _ :: r, [] => render r []

/-- How many arguments are asked for. -/
def slots : List Piece → Nat
  | [] => 0
  | .lit _ :: r => slots r
  | .arg _ :: r => slots r + 1

/-- What a program does. -/
inductive Act
  | register (id : Nat) (name : Bytes)
  | debug (on : Bool)
  | trace (on : Bool)
  | write (level : Level) (id : Nat) (ps : List Piece) (args : List Bytes) (now : Bytes)
  deriving DecidableEq, Repr

def Act.call : Act → Call
  | .register id name => .register id name
  | .debug on => .debug on
  | .trace on => .trace on
  | .write l id ps args now => .write l id (fmtOf ps) args now true

/-- The name of a subsystem: that of its first registration. -/
def nameOf (past : List Act) (id : Nat) : Bytes :=
  (past.findSome? fun | .register i n => if i = id then some n else none | _ => none).getD unk

/-- What was last said about debugging, or tracing. -/
def debugOn (past : List Act) : Bool := (past.reverse.findSome? fun | .debug b => some b | _ => none).getD false
def traceOn (past : List Act) : Bool := (past.reverse.findSome? fun | .trace b => some b | _ => none).getD false

/-- Whether a level is written at all. -/
def wanted (past : List Act) : Level → Bool
  | .dbg => debugOn past
  | .trace => traceOn past
  | _ => true

/-- The text of an entry. -/
def text (un : Bytes → Bytes) (l : Level) (ps : List Piece) (args : List Bytes) : Bytes :=
  if l = .log then un (render ps args) else render ps args

/-- The lines the log should have, after what has happened already. -/
def expected (un : Bytes → Bytes) (past : List Act) : List Act → List Bytes
  | [] => []
  | .write l id ps args now :: r =>
    (if wanted past l then [now ++ [0x20] ++ nameOf past id ++ tag l ++ text un l ps args] else []) ++
      expected un (past ++ [.write l id ps args now]) r
  | a :: r => expected un (past ++ [a]) r

/-- Formats fit their arguments; and there is no `%` where one is taken for a directive though it is none: in times, names
of subsystems and the texts of `Log`. -/
def Act.fits (un : Bytes → Bytes) : Act → Prop
  | .register _ name => 0x25 ∉ name
  | .write l _ ps args now =>
    (∀ p ∈ ps, p.ok) ∧ slots ps = args.length ∧ 0x25 ∉ now ∧ (l = .log → 0x25 ∉ un (render ps args))
  | _ => True

/-- The complete lines of a file. -/
def linesFrom (acc : Bytes) : Bytes → List Bytes
  | [] => []
  | c :: r => if c = 0x0a then acc :: linesFrom [] r else linesFrom (acc ++ [c]) r

def lines (b : Bytes) : List Bytes := linesFrom [] b

/-! ## Printing -/

theorem printf_lit (args : List Bytes) : ∀ (b : Bytes) (fuel : Nat) (s : Bytes) (num : Nat) (ro : Bool), 0x25 ∉ b →
    printf args (b.length + fuel) (b ++ s) num ro = b ++ printf args fuel s num ro := by
  intro b
  induction b with
  | nil => intro fuel s num ro _; simp
  | cons c r ih =>
    intro fuel s num ro h
    have hc : c ≠ 0x25 := fun e => h (by simp [e])
    have hr : (0x25 : UInt8) ∉ r := fun e => h (by simp [e])
    rw [show (c :: r).length + fuel = (r.length + fuel) + 1 by simp; omega, List.cons_append, printf, if_neg hc,
      ih fuel s num ro hr, List.cons_append]

theorem letter_facts {c : UInt8} (h : isLetter c = true) :
    isFlag c = false ∧ c ≠ 0x5b ∧ c ≠ 0x2a ∧ c ≠ 0x2e ∧ ¬ (0x30 ≤ c ∧ c ≤ 0x39) ∧ c < 0x80 ∧ c.toNat ≠ 0x25 := by
  have h' : (0x41 ≤ c.toNat ∧ c.toNat ≤ 0x5a) ∨ (0x61 ≤ c.toNat ∧ c.toNat ≤ 0x7a) := by
    simpa [isLetter, UInt8.le_iff_toNat_le] using h
  have hne : ∀ d : UInt8, isLetter d = false → c ≠ d := by
    intro d hd e
    rw [e, hd] at h
    cases h
  refine ⟨?_, hne _ (by decide), hne _ (by decide), hne _ (by decide), ?_, ?_, by omega⟩
  · simp only [isFlag, Bool.or_eq_false_iff, decide_eq_false_iff_not]
    exact ⟨⟨⟨⟨hne _ (by decide), hne _ (by decide)⟩, hne _ (by decide)⟩, hne _ (by decide)⟩, hne _ (by decide)⟩
  · rw [UInt8.le_iff_toNat_le, UInt8.le_iff_toNat_le]
    simp only [UInt8.reduceToNat]
    omega
  · rw [UInt8.lt_iff_toNat_lt]
    simp only [UInt8.reduceToNat]
    omega

theorem argNumber_other {n : Nat} {p : P} (h : p.rest.head? ≠ some 0x5b) : argNumber n p = { p with after := false } := by
  unfold argNumber
  split
  · next r e => rw [e] at h; simp at h
  · rfl

theorem directive_letter (args : List Bytes) (num : Nat) (ro : Bool) (v : UInt8) (s : Bytes) (a : Bytes)
    (hv : isLetter v = true) (ha : args[num]? = some a) :
    directive args num ro (v :: s) = ⟨s, num + 1, false, true, ro, a⟩ := by
  obtain ⟨h1, h2, h3, h4, h5, h6, h7⟩ := letter_facts hv
  have hd : (v :: s).dropWhile isFlag = v :: s := by simp [h1]
  have hp : parsenum 0 false (v :: s) = (0, false, v :: s) := by rw [parsenum, if_neg h5]
  have hw : ∀ p : P, p.rest = v :: s → p.after = false → width args.length p = p := by
    intro p e1 e2
    unfold width
    split
    · next r e => rw [e1] at e; exact absurd (List.cons.inj e).1 h3
    · rw [e1, hp]
      cases p
      simp_all
  have hpr : ∀ p : P, p.rest = v :: s → precision args.length p = p := by
    intro p e1
    unfold precision
    split
    · next r e => rw [e1] at e; exact absurd (List.cons.inj e).1 h4
    · rfl
  have ha' : ∀ p : P, p.rest = v :: s → argNumber args.length p = { p with after := false } := by
    intro p e1
    apply argNumber_other
    rw [e1]
    simpa using h2
  have hdr : decodeRune (v :: s) = (v.toNat, 1) := by simp [decodeRune, h6]
  unfold directive
  simp only [hd]
  rw [ha' _ rfl, hw _ rfl rfl, hpr _ rfl]
  simp only [Bool.false_eq_true, if_false]
  rw [ha' _ rfl]
  unfold verb
  simp only [hdr, h7, if_false, Bool.not_true, Bool.false_eq_true, ha]
  simp

theorem drop_cons_get {α : Type} {l : List α} {n : Nat} {a : α} {r : List α} (h : l.drop n = a :: r) :
    l[n]? = some a ∧ l.drop (n + 1) = r := by
  constructor
  · have := congrArg List.head? h
    simpa using this
  · have := congrArg List.tail h
    simpa using this

theorem printf_percent (args : List Bytes) (fuel : Nat) (r : Bytes) (num : Nat) (ro : Bool) :
    printf args (fuel + 1) (0x25 :: r) num ro = (directive args num ro r).out ++
      printf args fuel (directive args num ro r).rest (directive args num ro r).num (directive args num ro r).reordered := by
  rw [printf, if_pos rfl]

/-- A format prints its arguments, lets what follows be, and complains about arguments that are left. -/
theorem printf_pieces' (args : List Bytes) (s : Bytes) (hs : 0x25 ∉ s) : ∀ (ps : List Piece) (num k : Nat), (∀ p ∈ ps, p.ok) →
    slots ps ≤ (args.drop num).length →
    printf args ((fmtOf ps).length + (s.length + k)) (fmtOf ps ++ s) num false =
      render ps (args.drop num) ++ (s ++ printf args 0 [] (num + slots ps) false) := by
  intro ps
  induction ps with
  | nil =>
    intro num k _ hn
    have := printf_lit args s k [] num false hs
    simp only [List.append_nil] at this
    simp only [fmtOf, List.length_nil, Nat.zero_add, List.nil_append, render, slots, Nat.add_zero]
    rw [this, printf, printf]
  | cons p r ih =>
    intro num k hp hn
    have hr : ∀ p ∈ r, p.ok := fun q hq => hp q (List.mem_cons_of_mem _ hq)
    have h0 := hp p List.mem_cons_self
    cases p with
    | lit b =>
      have hb : (0x25 : UInt8) ∉ b := by simpa [Piece.ok] using h0
      rw [fmtOf, List.append_assoc, List.length_append, Nat.add_assoc, printf_lit args b _ _ num false hb,
        ih num k hr (by simpa [slots] using hn), render, List.append_assoc, slots]
    | arg v =>
      have hv : isLetter v = true := by simpa [Piece.ok] using h0
      cases hd : args.drop num with
      | nil => rw [hd] at hn; simp [slots] at hn
      | cons a as =>
        obtain ⟨g1, g2⟩ := drop_cons_get hd
        have hn' : slots r ≤ (args.drop (num + 1)).length := by
          rw [hd] at hn
          rw [g2]
          simpa [slots] using hn
        rw [fmtOf, List.cons_append, List.cons_append, List.length_cons, List.length_cons,
          show (fmtOf r).length + 1 + 1 + (s.length + k) = ((fmtOf r).length + (s.length + (k + 1))) + 1 by omega,
          printf_percent, directive_letter args num false v _ a hv g1]
        simp only
        rw [ih (num + 1) (k + 1) hr hn', g2, render, List.append_assoc, slots, Nat.add_right_comm num 1, Nat.add_assoc num]

/-- A format that fits its arguments prints what is meant, and lets what follows be. -/
theorem printf_pieces (args : List Bytes) (s : Bytes) (hs : 0x25 ∉ s) (ps : List Piece) (num k : Nat) (hp : ∀ p ∈ ps, p.ok)
    (hn : slots ps = (args.drop num).length) :
    printf args ((fmtOf ps).length + (s.length + k)) (fmtOf ps ++ s) num false = render ps (args.drop num) ++ s := by
  rw [printf_pieces' args s hs ps num k hp (by omega), printf]
  have : ¬ num + slots ps < args.length := by
    simp only [List.length_drop] at hn
    omega
  simp [this]

/-- What `log` writes for a format that fits. -/
theorem sprintf_entry (pre : Bytes) (ps : List Piece) (args : List Bytes) (hpre : 0x25 ∉ pre) (hp : ∀ p ∈ ps, p.ok)
    (hn : slots ps = args.length) : sprintf (pre ++ fmtOf ps ++ [0x0a]) args = pre ++ render ps args ++ [0x0a] := by
  unfold sprintf
  have h := printf_pieces args [0x0a] (by decide) ps 0 0 hp (by simpa using hn)
  have h2 := printf_lit args pre ((fmtOf ps).length + ([0x0a] : Bytes).length) (fmtOf ps ++ [0x0a]) 0 false hpre
  simp only [Nat.add_zero, List.drop_zero] at h
  rw [h] at h2
  rw [List.append_assoc, List.length_append, List.length_append, h2, List.append_assoc]

theorem sprintf_pieces (ps : List Piece) (args : List Bytes) (hp : ∀ p ∈ ps, p.ok) (hn : slots ps = args.length) :
    sprintf (fmtOf ps) args = render ps args := by
  unfold sprintf
  have h := printf_pieces args [] (by simp) ps 0 0 hp (by simpa using hn)
  simpa using h

/-! ## The file -/

/-- Lines, each with its end. -/
def join (ls : List Bytes) : Bytes := ls.flatMap (· ++ [0x0a])

/-- The state of the log after what has happened. -/
structure Inv (un : Bytes → Bytes) (past : List Act) (s : State) : Prop where
  name : ∀ id, (s.subsystems.get id).getD unk = nameOf past id
  clean : ∀ id n, s.subsystems.get id = some n → 0x25 ∉ n
  found : ∀ id, s.subsystems.get id = (past.findSome? fun | .register i n => if i = id then some n else none | _ => none)
  debug : s.debug = debugOn past
  trace : s.trace = traceOn past

theorem get_set {α β : Type} [DecidableEq α] (m : GoMap α β) (k : α) (v : β) (k' : α) (h : m.get k = none) :
    GoMap.get (m.set k v) k' = if k = k' then some v else GoMap.get m k' := by
  have hd : ∀ (m : GoMap α β), GoMap.get m k = none → GoMap.del m k = m := by
    intro m
    induction m with
    | nil => intro _; rfl
    | cons x r ih =>
      intro e
      obtain ⟨a, b⟩ := x
      by_cases hx : a = k
      · simp [GoMap.get, hx] at e
      · simp only [GoMap.get, if_neg hx] at e
        simp only [GoMap.del, if_neg hx, ih e]
  unfold GoMap.set
  rw [hd m h]
  rfl

theorem debugOn_snoc (past : List Act) (a : Act) :
    debugOn (past ++ [a]) = match a with | .debug b => b | _ => debugOn past := by
  cases a <;> simp [debugOn]

theorem traceOn_snoc (past : List Act) (a : Act) :
    traceOn (past ++ [a]) = match a with | .trace b => b | _ => traceOn past := by
  cases a <;> simp [traceOn]

theorem inv_write {un : Bytes → Bytes} {past : List Act} {s : State} (hi : Inv un past s) (l : Level) (id : Nat)
    (ps : List Piece) (args : List Bytes) (now : Bytes) (f : Bytes) :
    Inv un (past ++ [.write l id ps args now]) { s with file := f } := by
  have hf : ∀ i, ((past ++ [Act.write l id ps args now]).findSome?
      fun | .register j n => if j = i then some n else none | _ => none) =
      (past.findSome? fun | .register j n => if j = i then some n else none | _ => none) := by
    intro i
    simp [List.findSome?_append]
  exact ⟨fun i => by rw [nameOf, hf]; exact hi.name i, hi.clean, fun i => by rw [hf]; exact hi.found i,
    by rw [debugOn_snoc]; exact hi.debug, by rw [traceOn_snoc]; exact hi.trace⟩

theorem unk_clean : (0x25 : UInt8) ∉ unk := by decide
theorem tag_clean (l : Level) : (0x25 : UInt8) ∉ tag l := by cases l <;> decide

theorem log_file {un : Bytes → Bytes} {past : List Act} {s : State} (hi : Inv un past s) (l : Level) (id : Nat)
    (ps : List Piece) (args : List Bytes) (now : Bytes) (h1 : ∀ p ∈ ps, p.ok) (h2 : slots ps = args.length) (h3 : 0x25 ∉ now) :
    log s id (tag l) (fmtOf ps) args now true =
      { s with file := s.file ++ (now ++ [0x20] ++ nameOf past id ++ tag l ++ render ps args ++ [0x0a]) } := by
  unfold log
  simp only [if_true]
  rw [hi.name id, sprintf_entry _ ps args _ h1 h2]
  have hn : (0x25 : UInt8) ∉ nameOf past id := by
    rw [← hi.name id]
    cases e : GoMap.get s.subsystems id with
    | none => simpa using unk_clean
    | some n => simpa using hi.clean id n e
  have ht := tag_clean l
  simp [h3, hn, ht]

/-- One act: the file grows by what is expected. -/
theorem step_file {un : Bytes → Bytes} {past : List Act} {s : State} (hi : Inv un past s) (a : Act) (ha : a.fits un) :
    (step un s a.call).file = s.file ++ join (expected un past [a]) ∧ Inv un (past ++ [a]) (step un s a.call) := by
  cases a with
  | register id name =>
    have hf : ∀ i, ((past ++ [Act.register id name]).findSome?
        fun | .register j n => if j = i then some n else none | _ => none) =
        ((past.findSome? fun | .register j n => if j = i then some n else none | _ => none).or
          (if id = i then some name else none)) := by
      intro i
      rw [List.findSome?_append]
      by_cases e : id = i <;> simp [e]
    simp only [Act.call, step, expected, join, List.flatMap_nil, List.append_nil]
    cases e : GoMap.get s.subsystems id with
    | some n =>
      refine ⟨rfl, ?_, hi.clean, ?_, ?_, ?_⟩
      · intro i
        rw [hi.found i, nameOf, hf]
        by_cases hx : id = i
        · subst hx
          rw [← hi.found id, e]; rfl
        · simp [hx]
      · intro i
        rw [hf, ← hi.found i]
        by_cases hx : id = i
        · subst hx
          rw [e]; rfl
        · simp [hx]
      · rw [debugOn_snoc]; exact hi.debug
      · rw [traceOn_snoc]; exact hi.trace
    | none =>
      have hg := fun i => get_set s.subsystems id name i e
      have hfd : ∀ i, GoMap.get (GoMap.set s.subsystems id name) i = ((past ++ [Act.register id name]).findSome?
          fun | .register j n => if j = i then some n else none | _ => none) := by
        intro i
        rw [hg, hf, ← hi.found i]
        by_cases hx : id = i
        · subst hx
          rw [e]; simp
        · simp [hx]
      refine ⟨rfl, ?_, ?_, hfd, ?_, ?_⟩
      · intro i
        show (GoMap.get (GoMap.set s.subsystems id name) i).getD unk = _
        rw [hfd, nameOf]
      · intro i n hn
        have hn' : GoMap.get (GoMap.set s.subsystems id name) i = some n := hn
        rw [hg] at hn'
        by_cases hx : id = i
        · rw [if_pos hx] at hn'
          cases hn'
          exact ha
        · rw [if_neg hx] at hn'
          exact hi.clean i n hn'
      · rw [debugOn_snoc]; exact hi.debug
      · rw [traceOn_snoc]; exact hi.trace
  | debug on =>
    have hf : ∀ i, ((past ++ [Act.debug on]).findSome?
        fun | .register j n => if j = i then some n else none | _ => none) =
        (past.findSome? fun | .register j n => if j = i then some n else none | _ => none) := by
      intro i
      simp [List.findSome?_append]
    refine ⟨by simp [Act.call, step, expected, join], ?_, hi.clean, ?_, ?_, ?_⟩
    · intro i; rw [nameOf, hf]; exact hi.name i
    · intro i; rw [hf]; exact hi.found i
    · rw [debugOn_snoc]; rfl
    · rw [traceOn_snoc]; exact hi.trace
  | trace on =>
    have hf : ∀ i, ((past ++ [Act.trace on]).findSome?
        fun | .register j n => if j = i then some n else none | _ => none) =
        (past.findSome? fun | .register j n => if j = i then some n else none | _ => none) := by
      intro i
      simp [List.findSome?_append]
    refine ⟨by simp [Act.call, step, expected, join], ?_, hi.clean, ?_, ?_, ?_⟩
    · intro i; rw [nameOf, hf]; exact hi.name i
    · intro i; rw [hf]; exact hi.found i
    · rw [debugOn_snoc]; exact hi.debug
    · rw [traceOn_snoc]; rfl
  | write l id ps args now =>
    obtain ⟨h1, h2, h3, h4⟩ := ha
    have hk := log_file hi l id ps args now h1 h2 h3
    have hsame : Inv un (past ++ [.write l id ps args now]) s := inv_write hi l id ps args now s.file
    have hdo : ∀ t : State, t = { s with file := s.file ++ (now ++ [0x20] ++ nameOf past id ++ tag l ++ text un l ps args ++ [0x0a]) } →
        wanted past l = true → t.file = s.file ++ join (expected un past [.write l id ps args now]) ∧
        Inv un (past ++ [.write l id ps args now]) t := by
      intro t ht hw
      rw [ht]
      exact ⟨by simp [expected, hw, join], inv_write hi l id ps args now _⟩
    cases l with
    | log =>
      refine hdo _ ?_ rfl
      have hu := h4 rfl
      have hl := log_file hi .log id [.lit (un (render ps args))] [] now (by simpa [Piece.ok] using hu) rfl h3
      simp only [fmtOf, render, List.append_nil] at hl
      simp only [Act.call, step, text, if_true]
      rw [sprintf_pieces ps args h1 h2, hl]
    | info => exact hdo _ (by simpa [Act.call, step, text] using hk) rfl
    | warn => exact hdo _ (by simpa [Act.call, step, text] using hk) rfl
    | error => exact hdo _ (by simpa [Act.call, step, text] using hk) rfl
    | critical => exact hdo _ (by simpa [Act.call, step, text] using hk) rfl
    | dbg =>
      cases hd : s.debug with
      | true => exact hdo _ (by simpa [Act.call, step, text, hd] using hk) (by rw [wanted, ← hi.debug, hd])
      | false =>
        have hw : debugOn past = false := by rw [← hi.debug, hd]
        simp only [Act.call, step, hd, Bool.false_eq_true, if_false]
        exact ⟨by simp [expected, wanted, hw, join], hsame⟩
    | trace =>
      cases hd : s.trace with
      | true => exact hdo _ (by simpa [Act.call, step, text, hd] using hk) (by rw [wanted, ← hi.trace, hd])
      | false =>
        have hw : traceOn past = false := by rw [← hi.trace, hd]
        simp only [Act.call, step, hd, Bool.false_eq_true, if_false]
        exact ⟨by simp [expected, wanted, hw, join], hsame⟩

theorem expected_cons (un : Bytes → Bytes) (past : List Act) (a : Act) (r : List Act) :
    expected un past (a :: r) = expected un past [a] ++ expected un (past ++ [a]) r := by
  cases a <;> simp [expected]

theorem exec_file {un : Bytes → Bytes} : ∀ (as past : List Act) (s : State), Inv un past s → (∀ a ∈ as, a.fits un) →
    (exec un s (as.map Act.call)).file = s.file ++ join (expected un past as) := by
  intro as
  induction as with
  | nil => intro past s _ _; simp [exec, expected, join]
  | cons a r ih =>
    intro past s hi ha
    obtain ⟨h1, h2⟩ := step_file hi a (ha a List.mem_cons_self)
    have := ih (past ++ [a]) _ h2 fun b hb => ha b (List.mem_cons_of_mem _ hb)
    rw [expected_cons]
    simp only [exec, List.map_cons, List.foldl_cons] at this ⊢
    rw [this, h1]
    simp [join, List.append_assoc]

theorem inv_new (un : Bytes → Bytes) (f : Bytes) : Inv un [] (new f) :=
  ⟨fun _ => rfl, fun _ _ h => by simp [new, GoMap.get] at h, fun _ => rfl, rfl, rfl⟩

/-! ## Lines -/

theorem linesFrom_line : ∀ (l acc r : Bytes), 0x0a ∉ l → linesFrom acc (l ++ 0x0a :: r) = (acc ++ l) :: linesFrom [] r := by
  intro l
  induction l with
  | nil => intro acc r _; simp [linesFrom]
  | cons c t ih =>
    intro acc r h
    have hc : c ≠ 0x0a := fun e => h (by simp [e])
    have ht : (0x0a : UInt8) ∉ t := fun e => h (by simp [e])
    rw [List.cons_append, linesFrom, if_neg hc, ih _ _ ht]
    simp

theorem linesFrom_append : ∀ (a acc b : Bytes), linesFrom acc a <+: linesFrom acc (a ++ b) := by
  intro a
  induction a with
  | nil => intro acc b; simp [linesFrom]
  | cons c t ih =>
    intro acc b
    rw [List.cons_append, linesFrom, linesFrom]
    split
    · exact List.prefix_cons_iff.mpr (Or.inr ⟨_, rfl, ih [] b⟩)
    · exact ih _ b

theorem lines_join (ls : List Bytes) (h : ∀ l ∈ ls, 0x0a ∉ l) : lines (join ls) = ls := by
  induction ls with
  | nil => rfl
  | cons l r ih =>
    have h1 := linesFrom_line l [] (join r) (h l List.mem_cons_self)
    have h2 := ih fun x hx => h x (List.mem_cons_of_mem _ hx)
    simp only [lines, join, List.flatMap_cons, List.append_assoc, List.singleton_append] at h1 h2 ⊢
    rw [h1, h2, List.nil_append]

theorem length_linesFrom : ∀ (b acc : Bytes), (linesFrom acc b).length = b.count 0x0a := by
  intro b
  induction b with
  | nil => intro acc; rfl
  | cons c r ih =>
    intro acc
    rw [linesFrom]
    by_cases e : c = 0x0a
    · rw [if_pos e, List.length_cons, ih, e, List.count_cons_self]
    · rw [if_neg e, ih, List.count_cons_of_ne e]

theorem count_join (ls : List Bytes) : (join ls).count 0x0a = ls.length + (ls.map (List.count 0x0a)).sum := by
  induction ls with
  | nil => rfl
  | cons l r ih =>
    simp only [join, List.flatMap_cons, List.count_append, List.map_cons, List.sum_cons, List.length_cons] at ih ⊢
    rw [ih]
    simp
    omega

theorem lines_join_iff (ls : List Bytes) : lines (join ls) = ls ↔ ∀ l ∈ ls, 0x0a ∉ l := by
  refine ⟨fun h => ?_, lines_join ls⟩
  have h1 := congrArg List.length h
  rw [lines, length_linesFrom, count_join] at h1
  have h2 : (ls.map (List.count 0x0a)).sum = 0 := by omega
  intro l hl hm
  have h3 : ∀ (ls : List Bytes), (ls.map (List.count 0x0a)).sum = 0 → ∀ l ∈ ls, l.count 0x0a = 0 := by
    intro ls
    induction ls with
    | nil => intro _ l hl; cases hl
    | cons a r ih =>
      intro e l hl
      simp only [List.map_cons, List.sum_cons] at e
      rcases List.mem_cons.mp hl with rfl | hl
      · omega
      · exact ih (by omega) l hl
  have h4 := h3 ls h2 l hl
  exact absurd (List.count_pos_iff.mpr hm) (by omega)

/-! ## The properties -/

/-- C101 (part).  If no `%` gets where it is taken for a directive, and no text has a line break, then the log has exactly one line per
entry, in order, with time, subsystem, level and text. -/
theorem C101_lines_partial (un : Bytes → Bytes) (as : List Act) (ha : ∀ a ∈ as, a.fits un)
    (hl : ∀ l ∈ expected un [] as, 0x0a ∉ l) : lines (exec un (new []) (as.map Act.call)).file = expected un [] as := by
  rw [exec_file as [] (new []) (inv_new un []) ha]
  exact lines_join _ hl

/-- C101: which line breaks are needed for that: without `%`, the log can be read back if and only if no entry has a line break
in it. -/
theorem C101_exact (un : Bytes → Bytes) (as : List Act) (ha : ∀ a ∈ as, a.fits un) :
    lines (exec un (new []) (as.map Act.call)).file = expected un [] as ↔ ∀ l ∈ expected un [] as, 0x0a ∉ l := by
  rw [exec_file as [] (new []) (inv_new un []) ha]
  exact lines_join_iff _

theorem log_prefix (s : State) (id : Nat) (pre format : Bytes) (args : List Bytes) (now : Bytes) (opens : Bool) :
    s.file <+: (log s id pre format args now opens).file := by
  unfold log
  cases opens
  · exact List.prefix_refl _
  · exact List.prefix_append _ _

theorem step_prefix (un : Bytes → Bytes) (s : State) (c : Call) : s.file <+: (step un s c).file := by
  cases c with
  | register id name =>
    unfold step
    simp only
    split <;> exact List.prefix_refl _
  | debug on => exact List.prefix_refl _
  | trace on => exact List.prefix_refl _
  | write l id f as now o =>
    cases l <;> simp only [step]
    case dbg => split; exact log_prefix ..; exact List.prefix_refl _
    case trace => split; exact log_prefix ..; exact List.prefix_refl _
    all_goals exact log_prefix ..

/-- C101: whatever is written to the log, with whatever formats and arguments, the lines that were there stay. -/
theorem C101_kept (un : Bytes → Bytes) (s : State) (cs : List Call) : lines s.file <+: lines (exec un s cs).file := by
  have h : ∀ (cs : List Call) (s : State), s.file <+: (exec un s cs).file := by
    intro cs
    induction cs with
    | nil => intro s; exact List.prefix_refl _
    | cons c r ih => intro s; exact (step_prefix un s c).trans (ih (step un s c))
  obtain ⟨t, ht⟩ := h cs s
  rw [lines, lines, ← ht]
  exact linesFrom_append _ _ _

/-- C101: the lines that are in the file when the program starts stay as well. -/
theorem C101_restart (un : Bytes → Bytes) (file : Bytes) (cs : List Call) :
    lines file <+: lines (exec un (new file) cs).file :=
  C101_kept un (new file) cs

/-- C101: the level can be told from what follows the name of the subsystem, and so can the text. -/
theorem C101_level {l l' : Level} {x y : Bytes} (h : tag l ++ x = tag l' ++ y) : l = l' ∧ x = y := by
  have hlen : ∀ l, (tag l).length = 6 := by intro l; cases l <;> rfl
  have h1 := List.append_inj_left h (by rw [hlen, hlen])
  have h2 := List.append_inj_right h (by rw [hlen, hlen])
  refine ⟨?_, h2⟩
  cases l <;> cases l' <;> first | rfl | exact absurd h1 (by decide)

/-- Debugging and tracing, which write nothing unless they are on. -/
def chatty : Call → Bool
  | .write .dbg _ _ _ _ _ => true
  | .write .trace _ _ _ _ _ => true
  | _ => false

def switchesOn : Call → Bool
  | .debug b => b
  | .trace b => b
  | _ => false

/-- C101: as long as debugging and tracing are not switched on, the calls for them leave no trace. -/
theorem C101_quiet (un : Bytes → Bytes) (f : Bytes) (cs : List Call) (h : ∀ c ∈ cs, switchesOn c = false) :
    exec un (new f) cs = exec un (new f) (cs.filter fun c => !chatty c) := by
  have key : ∀ (cs : List Call) (s : State), s.debug = false → s.trace = false → (∀ c ∈ cs, switchesOn c = false) →
      exec un s cs = exec un s (cs.filter fun c => !chatty c) := by
    intro cs
    induction cs with
    | nil => intro s _ _ _; rfl
    | cons c r ih =>
      intro s h1 h2 h3
      have hr : ∀ c ∈ r, switchesOn c = false := fun x hx => h3 x (List.mem_cons_of_mem _ hx)
      have hc := h3 c List.mem_cons_self
      have hlog : ∀ id pre fm as now o, (log s id pre fm as now o).debug = false ∧ (log s id pre fm as now o).trace = false := by
        intro id pre fm as now o
        unfold log
        cases o <;> exact ⟨h1, h2⟩
      have hs : (step un s c).debug = false ∧ (step un s c).trace = false := by
        cases c with
        | register id name => unfold step; simp only; split <;> exact ⟨h1, h2⟩
        | debug on => exact ⟨hc, h2⟩
        | trace on => exact ⟨h1, hc⟩
        | write l id fm as now o =>
          cases l <;> simp only [step, h1, h2, Bool.false_eq_true, if_false]
          case dbg => trivial
          case trace => trivial
          all_goals exact hlog ..
      cases hch : chatty c with
      | false =>
        rw [List.filter_cons_of_pos (by simp [hch])]
        exact ih _ hs.1 hs.2 hr
      | true =>
        rw [List.filter_cons_of_neg (by simp [hch])]
        have he : step un s c = s := by
          cases c with
          | write l id fm as now o => cases l <;> simp_all [chatty, step]
          | _ => cases hch
        show exec un (step un s c) r = _
        rw [he]
        exact ih s h1 h2 hr
  exact key cs (new f) rfl rfl h

/-! ## What is wrong -/

/-- "invalid mode: %v: %v" -/
def psInvalid : List Piece := [.lit (invalidMode.take 14), .arg 0x76, .lit [0x3a, 0x20], .arg 0x76]
/-- "connection closed: %v" -/
def psClosed : List Piece := [.lit (connClosed.take 19), .arg 0x76]

/-- A text with every percent sign doubled. -/
def escape : Bytes → Bytes
  | [] => []
  | c :: r => if c = 0x25 then 0x25 :: 0x25 :: escape r else c :: escape r

theorem directive_percent (args : List Bytes) (num : Nat) (ro : Bool) (s : Bytes) :
    directive args num ro (0x25 :: s) = ⟨s, num, false, true, ro, [0x25]⟩ := by
  have hd : (0x25 :: s : Bytes).dropWhile isFlag = 0x25 :: s := by
    rw [List.dropWhile_cons_of_neg (by decide)]
  have hp : parsenum 0 false (0x25 :: s) = (0, false, 0x25 :: s) := by rw [parsenum, if_neg (by decide)]
  have ha : ∀ p : P, p.rest = 0x25 :: s → argNumber args.length p = { p with after := false } := by
    intro p e
    apply argNumber_other
    rw [e]
    simp
  have hdr : decodeRune (0x25 :: s) = (0x25, 1) := by simp [decodeRune]
  unfold directive
  simp only [hd]
  rw [ha _ rfl]
  have hw : width args.length ⟨0x25 :: s, num, false, true, ro, []⟩ = ⟨0x25 :: s, num, false, true, ro, []⟩ := by
    unfold width
    split
    · next r e => simp at e
    · simp [hp]
  rw [hw]
  have hpr : precision args.length ⟨0x25 :: s, num, false, true, ro, []⟩ = ⟨0x25 :: s, num, false, true, ro, []⟩ := by
    unfold precision
    split
    · next r e => simp at e
    · rfl
  rw [hpr]
  simp only [Bool.false_eq_true, if_false]
  rw [ha _ rfl]
  unfold verb
  simp only [hdr]
  simp

theorem printf_escape (s : Bytes) (hs : 0x25 ∉ s) : ∀ (t : Bytes) (k num : Nat) (ro : Bool),
    printf [] ((escape t).length + (s.length + k)) (escape t ++ s) num ro = t ++ s := by
  intro t
  induction t with
  | nil =>
    intro k num ro
    have := printf_lit [] s k [] num ro hs
    simp only [List.append_nil] at this
    simp only [escape, List.length_nil, Nat.zero_add, List.nil_append]
    rw [this, printf]
    simp
  | cons c r ih =>
    intro k num ro
    by_cases hc : c = 0x25
    · subst hc
      simp only [escape, if_true, List.length_cons, List.cons_append]
      rw [show (escape r).length + 1 + 1 + (s.length + k) = ((escape r).length + (s.length + (k + 1))) + 1 by omega,
        printf_percent, directive_percent]
      simp only
      rw [ih (k + 1)]
      rfl
    · simp only [escape, if_neg hc, List.length_cons, List.cons_append]
      rw [show (escape r).length + 1 + (s.length + k) = ((escape r).length + (s.length + k)) + 1 by omega, printf, if_neg hc,
        ih k]

/-- Where the code hands a text over as a format, the text would be written as it is if its percent signs were doubled:
what is violated below is for want of this only. -/
theorem C101_escape (un : Bytes → Bytes) (s : State) (l : Level) (id : Nat) (t now : Bytes)
    (hl : l ≠ .log ∧ l ≠ .dbg ∧ l ≠ .trace) (hn : 0x25 ∉ now) (hs : 0x25 ∉ (s.subsystems.get id).getD unk) :
    (step un s (.write l id (escape t) [] now true)).file =
      s.file ++ (now ++ [0x20] ++ (s.subsystems.get id).getD unk ++ tag l ++ t ++ [0x0a]) := by
  have hpre : (0x25 : UInt8) ∉ now ++ [0x20] ++ (s.subsystems.get id).getD unk ++ tag l := by
    have := tag_clean l
    simp [hn, hs, this]
  have key : sprintf (now ++ [0x20] ++ (s.subsystems.get id).getD unk ++ tag l ++ escape t ++ [0x0a]) [] =
      now ++ [0x20] ++ (s.subsystems.get id).getD unk ++ tag l ++ t ++ [0x0a] := by
    unfold sprintf
    generalize now ++ [0x20] ++ (s.subsystems.get id).getD unk ++ tag l = pre at hpre ⊢
    have h := printf_escape [0x0a] (by decide) t 0 0 false
    have h2 := printf_lit [] pre ((escape t).length + ([0x0a] : Bytes).length) (escape t ++ [0x0a]) 0 false hpre
    simp only [Nat.add_zero] at h
    rw [h] at h2
    rw [List.append_assoc, List.length_append, List.length_append, h2, List.append_assoc]
  obtain ⟨h1, h2, h3⟩ := hl
  cases l <;> first | exact absurd rfl h1 | exact absurd rfl h2 | exact absurd rfl h3 | skip
  all_goals
    simp only [step, log, if_true]
    rw [key]

theorem mem_linesFrom (x b : Bytes) (hx : 0x0a ∉ x) : ∀ (a acc : Bytes),
    x ∈ linesFrom acc (a ++ 0x0a :: (x ++ 0x0a :: b)) := by
  intro a
  induction a with
  | nil =>
    intro acc
    rw [List.nil_append, linesFrom, if_pos rfl, linesFrom_line x [] b hx]
    simp
  | cons c r ih =>
    intro acc
    rw [List.cons_append, linesFrom]
    split
    · exact List.mem_cons_of_mem _ (ih [])
    · exact ih _

theorem ofBe32_be32 (n : Nat) (h : n < 2 ^ 32) :
    Xdr.ofBe32 (UInt8.ofNat (n / 2 ^ 24)) (UInt8.ofNat (n / 2 ^ 16)) (UInt8.ofNat (n / 2 ^ 8)) (UInt8.ofNat n) = n := by
  simp only [Xdr.ofBe32, UInt8.toNat_ofNat']
  omega

theorem dec_enc (limit : Nat) (m : Bytes) (h : m.length < 2 ^ 31) (hl : limit ≠ 0 → m.length ≤ limit) :
    Xdr.decOpaque limit (Xdr.encOpaque m) = .got m [] := by
  have ht : Xdr.tooLong limit m.length = false := by
    by_cases e : limit = 0
    · simp [Xdr.tooLong, e]; omega
    · have := hl e
      simp [Xdr.tooLong, e]
      omega
  simp only [Xdr.encOpaque, Xdr.be32, List.cons_append, List.nil_append, Xdr.decOpaque]
  rw [ofBe32_be32 m.length (by omega), Xdr.decBody, ht]
  simp

/-- A word of ASCII letters. -/
def word (w : String) : Bytes := w.toList.map fun c => UInt8.ofNat c.toNat

/-- If somebody connects and first says one of the three words the server knows, the word is not logged; of any other word
there are exactly two entries. -/
theorem C101_stranger (limit : Nat) (addr now m : Bytes) (h : m.length < 2 ^ 31) (hl : limit ≠ 0 → m.length ≤ limit) :
    stranger limit addr now (Xdr.encOpaque m) =
      if m = word "identify" ∨ m = word "createaccount" ∨ m = word "session" then []
      else [.write .error 0 (word "invalid mode: %v: %v") [addr, m] now true,
        .write .info 0 (word "connection closed: %v") [addr] now true] := by
  have h1 : word "invalid mode: %v: %v" = invalidMode := by decide
  have h2 : word "connection closed: %v" = connClosed := by decide
  have h3 : modes = [word "identify", word "createaccount", word "session"] := by decide
  unfold stranger
  rw [dec_enc limit m h hl]
  simp [h1, h2, h3]

/-- C101 fails: anybody who can connect to the server can make it log any line they like, before they say who they are: a first word
that is no command is logged as it is, line breaks and all.  The line can look like any other, time and level included. -/
theorem C101_forged_violated (un : Bytes → Bytes) (s : State) (limit : Nat) (addr now line : Bytes)
    (hline : 0x0a ∉ line) (hlen : line.length + 2 < 2 ^ 31) (hlim : limit ≠ 0 → line.length + 2 ≤ limit)
    (hnow : 0x25 ∉ now) (hname : 0x25 ∉ (s.subsystems.get 0).getD unk) :
    ∃ bytes, line ∈ lines (exec un s (stranger limit addr now bytes)).file := by
  refine ⟨Xdr.encOpaque (0x0a :: (line ++ [0x0a])), ?_⟩
  have hm : (0x0a :: (line ++ [0x0a])) ∉ modes := by simp [modes]
  have hd := dec_enc limit (0x0a :: (line ++ [0x0a])) (by simp; omega) (by simpa using hlim)
  unfold stranger
  rw [hd]
  simp only [if_neg hm]
  have he : fmtOf psInvalid = invalidMode := by decide
  have hs : sprintf (now ++ [0x20] ++ (s.subsystems.get 0).getD unk ++ tag .error ++ invalidMode ++ [0x0a])
      [addr, 0x0a :: (line ++ [0x0a])] = now ++ [0x20] ++ (s.subsystems.get 0).getD unk ++ tag .error ++
      render psInvalid [addr, 0x0a :: (line ++ [0x0a])] ++ [0x0a] := by
    rw [← he]
    apply sprintf_entry
    · have := tag_clean .error
      simp [hnow, hname, this]
    · decide
    · rfl
  have hk := C101_kept un (step un s (.write .error 0 invalidMode [addr, 0x0a :: (line ++ [0x0a])] now true))
    [.write .info 0 connClosed [addr] now true]
  refine hk.subset ?_
  simp only [step, log, if_true, hs, render, psInvalid]
  have := mem_linesFrom line [0x0a] hline (s.file ++ (now ++ [0x20] ++ (s.subsystems.get 0).getD unk ++ tag .error ++
      (List.take 14 invalidMode ++ (addr ++ [0x3a, 0x20])))) []
  simpa [lines, List.append_assoc] using this

/-- C101 fails: a text that is handed over as format, as by `Log` and at /repo/zkclient/zkclient.go:1419, loses its end if it ends in
`%`; so does the line, and the next entry is on the same line. -/
theorem C101_percent_violated (un : Bytes → Bytes) (s : State) (l : Level) (id : Nat) (x now : Bytes)
    (hl : l = .log ∨ l = .error) (hu : un (x ++ [0x25]) = x ++ [0x25])
    (hx : 0x25 ∉ x) (hnow : 0x25 ∉ now) (hname : 0x25 ∉ (s.subsystems.get id).getD unk) :
    (step un s (if l = .log then .write .log id [0x25, 0x76] [x ++ [0x25]] now true
        else .write l id (x ++ [0x25]) [] now true)).file =
      s.file ++ (now ++ [0x20] ++ (s.subsystems.get id).getD unk ++ tag l ++ x ++ percentBang ++ [0x0a] ++ missing) := by
  have key : ∀ t : Bytes, 0x25 ∉ t → sprintf (t ++ x ++ [0x25] ++ [0x0a]) [] = t ++ x ++ percentBang ++ [0x0a] ++ missing := by
    intro t ht
    have h := printf_lit [] (t ++ x) 2 [0x25, 0x0a] 0 false (by simp [ht, hx])
    have h2 : printf [] 2 [0x25, 0x0a] 0 false = percentBang ++ [0x0a] ++ missing := by decide
    rw [h2] at h
    unfold sprintf
    simpa [List.append_assoc, Nat.add_assoc] using h
  have hv : sprintf [0x25, 0x76] [x ++ [0x25]] = x ++ [0x25] := by
    have := sprintf_pieces [.arg 0x76] [x ++ [0x25]] (by decide) rfl
    simpa [fmtOf, render] using this
  have hclean : ∀ l : Level, (0x25 : UInt8) ∉ now ++ [0x20] ++ (s.subsystems.get id).getD unk ++ tag l := by
    intro l
    have := tag_clean l
    simp [hnow, hname, this]
  rcases hl with rfl | rfl
  · simp only [if_true, step, log, hv, hu]
    have := key _ (hclean .log)
    simp only [List.append_assoc] at this ⊢
    rw [this]
  · simp only [if_neg (show ¬ Level.error = Level.log by decide), step, log, if_true]
    have := key _ (hclean .error)
    simp only [List.append_assoc] at this ⊢
    rw [this]

/-- C101 fails: the time is part of the format too.  With `%H` for `TimeFormat`, as other programs have it, the argument of an entry
is printed in place of the time, and is missing in the text. -/
theorem C101_time_violated :
    (exec (fun b => b) (new []) [.register 0 [0x5b, 0x41, 0x50, 0x50, 0x5d],
      .write .info 0 (fmtOf psClosed) [[0x61, 0x64, 0x64, 0x72]] [0x25, 0x48] true]).file =
    [0x61, 0x64, 0x64, 0x72, 0x20] ++ [0x5b, 0x41, 0x50, 0x50, 0x5d] ++ tag .info ++ connClosed.take 19 ++ percentBang ++
      [0x76] ++ missing ++ [0x0a] := by
  decide +kernel

/-- C101 fails: if there are more arguments than the format asks for, as at /repo/zkserver/zkserver.go:324 and
/repo/zkserver/pending.go:61, what is left comes after the line break, in front of the next entry. -/
theorem C101_extra_violated (un : Bytes → Bytes) (s : State) (id : Nat) (ps : List Piece) (args : List Bytes) (now : Bytes)
    (hp : ∀ p ∈ ps, p.ok) (hn : slots ps < args.length) (hnow : 0x25 ∉ now) (hname : 0x25 ∉ (s.subsystems.get id).getD unk) :
    (step un s (.write .error id (fmtOf ps) args now true)).file =
      s.file ++ (now ++ [0x20] ++ (s.subsystems.get id).getD unk ++ tag .error ++ render ps args ++ [0x0a] ++
        extra ++ extras (args.drop (slots ps)) ++ [0x29]) := by
  have hc : (0x25 : UInt8) ∉ now ++ [0x20] ++ (s.subsystems.get id).getD unk ++ tag .error := by
    have := tag_clean .error
    simp [hnow, hname, this]
  have h := printf_pieces' args [0x0a] (by decide) ps 0 0 hp (by simpa using Nat.le_of_lt hn)
  have h2 := printf_lit args _ ((fmtOf ps).length + ([0x0a] : Bytes).length) (fmtOf ps ++ [0x0a]) 0 false hc
  simp only [Nat.add_zero, List.drop_zero, Nat.zero_add] at h
  rw [h, printf] at h2
  simp only [step, log, if_true, sprintf]
  rw [List.append_assoc _ (fmtOf ps), List.length_append (as := now ++ _ ++ _ ++ _), List.length_append (as := fmtOf ps), h2]
  simp [hn, List.append_assoc]

/-! ## Examples -/

/-- A run with a registration, a second one for the same subsystem (which is refused), an entry of an unknown subsystem, and
debugging that is switched on late. -/
def demo : List Act :=
  [.register 0 [0x41], .register 0 [0x42], .write .dbg 0 psClosed [[0x78]] [0x31], .debug true,
   .write .dbg 0 psClosed [[0x78]] [0x32], .write .log 7 [.arg 0x73, .lit [0x21]] [[0x68, 0x69]] [0x33]]

example : (∀ a ∈ demo, a.fits (fun b => b)) ∧ (∀ l ∈ expected (fun b => b) [] demo, 0x0a ∉ l) ∧
    expected (fun b => b) [] demo =
      [[0x32, 0x20, 0x41] ++ tag .dbg ++ connClosed.take 19 ++ [0x78], [0x33, 0x20] ++ unk ++ tag .log ++ [0x68, 0x69, 0x21]] := by
  refine ⟨?_, by decide +kernel, by decide +kernel⟩
  intro a ha
  simp only [demo, List.mem_cons, List.not_mem_nil, or_false] at ha
  rcases ha with rfl | rfl | rfl | rfl | rfl | rfl <;> simp only [Act.fits] <;> decide +kernel

example : lines (exec (fun b => b) (new []) (demo.map Act.call)).file =
    [[0x32, 0x20, 0x41] ++ tag .dbg ++ connClosed.take 19 ++ [0x78], [0x33, 0x20] ++ unk ++ tag .log ++ [0x68, 0x69, 0x21]] := by
  decide +kernel

/-- A stranger whose first word is a line break, "x" and a line break. -/
example : lines (exec (fun b => b) (new []) (stranger 0 [0x61] [0x31] (Xdr.encOpaque [0x0a, 0x78, 0x0a]))).file =
    [[0x31, 0x20] ++ unk ++ tag .error ++ invalidMode.take 14 ++ [0x61, 0x3a, 0x20], [0x78], [],
     [0x31, 0x20] ++ unk ++ tag .info ++ connClosed.take 19 ++ [0x61]] := by
  decide +kernel

/-- Known modes are not logged. -/
example : stranger 0 [0x61] [0x31] (Xdr.encOpaque [0x73, 0x65, 0x73, 0x73, 0x69, 0x6f, 0x6e]) = [] := by decide +kernel

/-- What Go prints for formats that do not fit. -/
example : sprintf [0x25, 0x5b, 0x32, 0x5d, 0x73, 0x25, 0x5b, 0x31, 0x5d, 0x73] [[0x61], [0x62]] = [0x62, 0x61] := by decide +kernel
example : sprintf [0x25, 0x25, 0x25] [] = [0x25] ++ noVerb := by decide +kernel
example : sprintf [0x78] [[0x61], [0x62]] =
    [0x78] ++ extra ++ sString ++ [0x61, 0x2c, 0x20] ++ sString ++ [0x62, 0x29] := by decide +kernel
example : sprintf [0x25, 0x5b, 0x33, 0x5d, 0x73] [[0x61]] = percentBang ++ [0x73] ++ badIndex := by decide +kernel
example : sprintf [0x25, 0x2a, 0x73] [[0x61], [0x62]] = badWidth ++ [0x62] := by decide +kernel
example : sprintf [0x25, 0x2e, 0x2a, 0x73] [[0x61], [0x62]] = badPrec ++ [0x62] := by decide +kernel

/-- Debugging that is off. -/
example : exec (fun b => b) (new [0x61]) [.write .dbg 0 [0x62] [] [] true, .write .trace 0 [0x62] [] [] true] = new [0x61] := by
  decide +kernel

/-- The hypotheses of the forged line can be met. -/
example : ∃ bytes, ([0x78] : Bytes) ∈ lines (exec (fun b => b) (new []) (stranger 10 [0x61] [0x31] bytes)).file :=
  C101_forged_violated _ _ 10 _ _ _ (by decide) (by decide) (by decide) (by decide) (by decide)

/-- "sessionNtfn ntfy: %v %v" with three arguments. -/
example : (step (fun b => b) (new []) (.write .error 0 (fmtOf psInvalid) [[0x61], [0x62], [0x63]] [0x31] true)).file =
    [0x31, 0x20] ++ unk ++ tag .error ++ invalidMode.take 14 ++ [0x61, 0x3a, 0x20, 0x62, 0x0a] ++ extra ++ sString ++ [0x63, 0x29] := by
  decide +kernel

/-- **C101** A directive that names its argument, as texts from outside may have it when they are used as a format, prints that
argument, or says that there is none. -/
theorem C101_index (args : List Bytes) (d : UInt8) (h1 : 0x31 ≤ d) (h9 : d ≤ 0x39) :
    sprintf [0x25, 0x5b, d, 0x5d, 0x76] args = (args[d.toNat - 0x31]?).getD (percentBang ++ [0x76] ++ badIndex) := by
  have hd : d.toNat ≥ 0x31 ∧ d.toNat ≤ 0x39 := ⟨UInt8.le_iff_toNat_le.1 h1, UInt8.le_iff_toNat_le.1 h9⟩
  have hdr : decodeRune [0x76] = (0x76, 1) := by decide
  have her : encodeRune 0x76 = [0x76] := by decide
  have hne : d ≠ 0x5d := by rintro rfl; revert hd; decide
  have hi : index [0x5d] [d, 0x5d, 0x76] = some 1 := by
    simp [index, Ne.symm hne]
  have hp : parsenum 0 false [d] = (d.toNat - 0x30, true, []) := by
    rw [parsenum, if_pos ⟨by rw [UInt8.le_iff_toNat_le]; exact Nat.le_trans (by decide) hd.1, h9⟩, if_neg (by decide), parsenum]; simp
  have hv : parsenum 0 false [0x76] = (0, false, [0x76]) := by decide
  have ha : argNumber args.length ⟨[0x5b, d, 0x5d, 0x76], 0, false, true, false, []⟩ =
      if d.toNat - 0x30 ≤ args.length then ⟨[0x76], d.toNat - 0x31, true, true, true, []⟩ else ⟨[0x76], 0, true, false, true, []⟩ := by
    have : 1 ≤ d.toNat - 0x30 := by omega
    simp [argNumber, hi, hp, this]
    rfl
  have hw : ∀ n a g, width args.length ⟨[0x76], n, a, g, true, []⟩ = ⟨[0x76], n, a, g, true, []⟩ := by
    intro n a g; simp [width, hv]
  have hq : ∀ n a g, precision args.length ⟨[0x76], n, a, g, true, []⟩ = ⟨[0x76], n, a, g, true, []⟩ := by
    intro n a g; simp [precision]
  have hdir : directive args 0 false [0x5b, d, 0x5d, 0x76] =
      verb args (if d.toNat - 0x30 ≤ args.length then ⟨[0x76], d.toNat - 0x31, true, true, true, []⟩ else ⟨[0x76], 0, true, false, true, []⟩) := by
    have hf : ([0x5b, d, 0x5d, 0x76] : Bytes).dropWhile isFlag = [0x5b, d, 0x5d, 0x76] := by
      rw [List.dropWhile_cons_of_neg (by decide)]
    simp only [directive, hf, ha]
    split <;> simp [hw, hq]
  simp only [sprintf, List.length_cons, List.length_nil, printf, if_true, hdir]
  split
  · rename_i hl
    have hl' : d.toNat - 0x31 < args.length := by omega
    simp [verb, hdr, List.getElem?_eq_getElem hl', printf]
  · rename_i hl
    have hl' : args[d.toNat - 0x31]? = none := List.getElem?_eq_none (by omega)
    simp [verb, hdr, her, hl', printf]

example : sprintf [0x25, 0x5b, 0x32, 0x5d, 0x76] [[0x61], [0x62]] = [0x62] := C101_index [[0x61], [0x62]] 0x32 (by decide) (by decide)

/-- **C101** Arguments for which a format has no place are all printed. -/
theorem C101_extras (l : List Bytes) : extras l = [0x2c, 0x20].intercalate (l.map (sString ++ ·)) := by
  induction l with
  | nil => rfl
  | cons a l ih =>
    cases l with
    | nil => simp [extras, List.intercalate]
    | cons b r =>
      rw [extras, ih]
      simp [List.intercalate]

/-- **C101** A precision, or a width, in a text that is used as a format hides no argument. -/
theorem C101_width (a : Bytes) (d : UInt8) (h1 : 0x31 ≤ d) (h9 : d ≤ 0x39) :
    sprintf [0x25, 0x2e, d, 0x76] [a] = a ∧ sprintf [0x25, d, 0x76] [a] = a := by
  have hd : d.toNat ≥ 0x31 ∧ d.toNat ≤ 0x39 := ⟨UInt8.le_iff_toNat_le.1 h1, UInt8.le_iff_toNat_le.1 h9⟩
  have hdr : decodeRune [0x76] = (0x76, 1) := by decide
  have h0 : 0x30 ≤ d := by rw [UInt8.le_iff_toNat_le]; exact Nat.le_trans (by decide) hd.1
  have hp : parsenum 0 false [d, 0x76] = (d.toNat - 0x30, true, [0x76]) := by
    rw [parsenum, if_pos ⟨h0, h9⟩, if_neg (by decide), parsenum, if_neg (by decide)]; simp
  have hq : parsenum 0 false [0x2e, d, 0x76] = (0, false, [0x2e, d, 0x76]) := by rw [parsenum, if_neg (by decide)]
  have ne : ∀ c : UInt8, c.toNat < 0x31 ∨ 0x39 < c.toNat → d ≠ c := by rintro c hc rfl; omega
  have n1 := ne 0x5b (by decide)
  have n2 := ne 0x2a (by decide)
  have hf : isFlag d = false := by
    simp [isFlag, ne 0x23 (by decide), ne 0x30 (by decide), ne 0x2b (by decide), ne 0x2d (by decide), ne 0x20 (by decide)]
  have hf2 : ([0x2e, d, 0x76] : Bytes).dropWhile isFlag = [0x2e, d, 0x76] := by rw [List.dropWhile_cons_of_neg (by decide)]
  have hf3 : ([d, 0x76] : Bytes).dropWhile isFlag = [d, 0x76] := by rw [List.dropWhile_cons_of_neg (by simp [hf])]
  constructor
  · simp [sprintf, printf, directive, hf2, argNumber, width, precision, hq, hp, n1, n2, verb, hdr]
  · simp [sprintf, printf, directive, hf3, argNumber, width, precision, hp, n1, n2, verb, hdr]

example : sprintf [0x25, 0x2e, 0x33, 0x76] [[0x61]] = [0x61] := (C101_width [0x61] 0x33 (by decide) (by decide)).1

end Verif.Log
