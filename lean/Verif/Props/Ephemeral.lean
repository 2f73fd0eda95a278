import Verif.Model.Ephemeral

/-! # C115: each key exchange has an ephemeral key of its own, which is erased -/

namespace Verif.Ephemeral

theorem get_put (s : State) (p q : Nat) (x : Proc) : (s.put p x).procs q = if q = p then some x else s.procs q := rfl

theorem get_self (s : State) (p : Nat) (x : Proc) : (s.put p x).procs p = some x := by simp [get_put]

theorem get_ne (s : State) {p q : Nat} (x : Proc) (h : q ≠ p) : (s.put p x).procs q = s.procs q := by
  simp [get_put, h]

theorem run_append {s : State} {es fs : List Ev} : run s (es ++ fs) = (run s es).bind fun s' => run s' fs := by
  induction es generalizing s with
  | nil => rfl
  | cons e es ih =>
    simp only [List.cons_append, run]
    cases h : step s e with
    | none => rfl
    | some s1 => simp only [Option.bind_some, ih]

/-! ## Responders -/

/-- Who is between Lock and Unlock. -/
def locked : Pc → Bool
  | .pub | .priv | .unlock | .rpub | .rpriv | .runlock => true
  | _ => false

/-- What a call of a server knows. -/
def okPc (pub : Nat) (x : Proc) : Prop :=
  match x.pc with
  | .lock | .pub | .unlock => x.kind = .rotate ∧ x.key ≠ 0
  | .priv => x.kind = .rotate ∧ x.key ≠ 0 ∧ pub = x.key
  | .rlock | .rpub => x.kind = .respond
  | .rpriv => x.kind = .respond ∧ x.cpub = pub
  | .runlock | .use => x.kind = .respond ∧ x.cpub = x.cpriv ∧ x.cpriv ≠ 0
  | .done => x.kind = .respond → x.cpub = x.cpriv ∧ x.cpriv ≠ 0
  | _ => False

theorem okPc_pub {a b : Nat} {x : Proc} (h : okPc a x) (hl : locked x.pc = false) : okPc b x := by
  unfold okPc at h ⊢
  cases hx : x.pc <;> rw [hx] at h hl <;> first | exact h | cases hl

/-- In a server: the pair fits, but for the call that is changing it; copies fit once they are made. -/
structure Srv (s : State) : Prop where
  next : 0 < s.next
  excl : ∀ p x, s.procs p = some x → locked x.pc = true → s.mutex = some p
  fits : (s.pub = s.priv ∧ s.priv ≠ 0) ∨ ∃ p x, s.procs p = some x ∧ x.pc = .priv ∧ s.pub = x.key
  pcs : ∀ p x, s.procs p = some x → okPc s.pub x

/-- A call that takes a step, or begins. -/
theorem srv_put {s t : State} {p : Nat} {x : Proc} (hI : Srv s) (h1 : t.procs = s.procs) (hn : 0 < t.next)
    (hl : locked x.pc = true → t.mutex = some p)
    (ho : ∀ q y, q ≠ p → s.procs q = some y → locked y.pc = true → t.mutex = s.mutex ∧ t.pub = s.pub)
    (hf : (t.pub = t.priv ∧ t.priv ≠ 0) ∨ (x.pc = .priv ∧ t.pub = x.key) ∨
      ∃ q y, q ≠ p ∧ s.procs q = some y ∧ y.pc = .priv ∧ t.pub = y.key) (hx : okPc t.pub x) : Srv (t.put p x) := by
  refine ⟨hn, ?_, ?_, ?_⟩
  · intro q y hq hly
    by_cases hqp : q = p
    · subst hqp
      rw [get_self] at hq; cases hq
      exact hl hly
    · rw [get_ne _ _ hqp, h1] at hq
      change t.mutex = _
      rw [(ho q y hqp hq hly).1]
      exact hI.excl q y hq hly
  · rcases hf with hf | ⟨hf, hf'⟩ | ⟨q, y, hqp, hq, hy, hy'⟩
    · exact .inl hf
    · exact .inr ⟨p, x, get_self _ _ _, hf, hf'⟩
    · exact .inr ⟨q, y, by rw [get_ne _ _ hqp, h1]; exact hq, hy, hy'⟩
  · intro q y hq
    by_cases hqp : q = p
    · subst hqp
      rw [get_self] at hq; cases hq
      exact hx
    · rw [get_ne _ _ hqp, h1] at hq
      have := hI.pcs q y hq
      cases hly : locked y.pc with
      | false => exact okPc_pub this hly
      | true =>
        change okPc t.pub y
        rw [(ho q y hqp hq hly).2]; exact this

theorem srv_step {s s' : State} {e : Ev} (hI : Srv s) (hk : ∀ p, e ≠ .begin p .initiate) (h : step s e = some s') :
    Srv s' := by
  cases e with
  | «begin» p k =>
    simp only [step] at h
    split at h
    · cases h
    rename_i hnone
    have hf : (s.pub = s.priv ∧ s.priv ≠ 0) ∨ ∃ q y, q ≠ p ∧ s.procs q = some y ∧ y.pc = .priv ∧ s.pub = y.key := by
      rcases hI.fits with hf | ⟨q, y, hq, h9⟩
      · exact .inl hf
      · refine .inr ⟨q, y, ?_, hq, h9⟩
        rintro rfl; rw [hnone] at hq; cases hq
    have hn := hI.next
    cases k with
    | initiate => exact absurd rfl (hk p)
    | respond =>
      cases h
      exact srv_put hI rfl hn (fun h => by cases h) (fun _ _ _ _ _ => ⟨rfl, rfl⟩) (hf.imp_right .inr) rfl
    | rotate =>
      cases h
      exact srv_put hI rfl (Nat.succ_pos _) (fun h => by cases h) (fun _ _ _ _ _ => ⟨rfl, rfl⟩) (hf.imp_right .inr)
        ⟨rfl, by change s.next ≠ 0; omega⟩
  | go p ok =>
    simp only [step] at h
    split at h
    · cases h
    rename_i x hx
    have hpx := hI.pcs p x hx
    have hn := hI.next
    have hexx := hI.excl p x hx
    -- nobody else is locked while this one is
    have alone : locked x.pc = true → ∀ {P : Prop} q y, q ≠ p → s.procs q = some y → locked y.pc = true → P := by
      intro hl P q y hqp hq hly
      have h1 := hI.excl q y hq hly
      rw [hexx hl] at h1
      exact absurd (Option.some.inj h1).symm hqp
    have same : ∀ q y, q ≠ p → s.procs q = some y → locked y.pc = true → s.mutex = s.mutex ∧ s.pub = s.pub :=
      fun _ _ _ _ _ => ⟨rfl, rfl⟩
    -- the pair fits, unless another is changing it
    have others : x.pc ≠ .priv → (s.pub = s.priv ∧ s.priv ≠ 0) ∨
        ∃ q y, q ≠ p ∧ s.procs q = some y ∧ y.pc = .priv ∧ s.pub = y.key := by
      intro hne
      rcases hI.fits with hf | ⟨q, y, hq, h9, h10⟩
      · exact .inl hf
      · refine .inr ⟨q, y, ?_, hq, h9, h10⟩
        rintro rfl
        rw [hx] at hq; cases hq
        exact hne h9
    have fit : locked x.pc = true → x.pc ≠ .priv → s.pub = s.priv ∧ s.priv ≠ 0 := by
      intro hl hne
      rcases others hne with hf | ⟨q, y, hqp, hq, hy, _⟩
      · exact hf
      · exact alone hl q y hqp hq (by rw [hy]; rfl)
    unfold okPc at hpx
    unfold go at h
    cases hpc : x.pc <;> rw [hpc] at h hpx alone others fit <;> simp only at h hpx
    case lock =>
      split at h
      · rename_i hm
        cases h
        refine srv_put hI rfl hn (fun _ => rfl) (fun q y _ hq hly => ?_) ((others (by simp)).imp_right .inr) hpx
        have := hI.excl q y hq hly
        rw [hm] at this; cases this
      · cases h
    case pub =>
      cases h
      exact srv_put hI rfl hn (fun _ => hexx (by rw [hpc]; rfl)) (fun q y h1 h2 h3 => alone rfl q y h1 h2 h3)
        (.inr (.inl ⟨rfl, rfl⟩)) ⟨hpx.1, hpx.2, rfl⟩
    case priv =>
      cases h
      exact srv_put hI rfl hn (fun _ => hexx (by rw [hpc]; rfl)) same (.inl ⟨hpx.2.2, hpx.2.1⟩) ⟨hpx.1, hpx.2.1⟩
    case unlock =>
      cases h
      have hk : x.kind = .rotate := hpx.1
      rw [hk]
      exact srv_put hI rfl hn (fun h => by cases h) (fun q y h1 h2 h3 => alone rfl q y h1 h2 h3)
        (.inl (fit rfl (by simp))) (fun h => by cases h)
    case rlock =>
      split at h
      · rename_i hm
        cases h
        refine srv_put hI rfl hn (fun _ => rfl) (fun q y _ hq hly => ?_) ((others (by simp)).imp_right .inr) hpx
        have := hI.excl q y hq hly
        rw [hm] at this; cases this
      · cases h
    case rpub =>
      cases h
      exact srv_put hI rfl hn (fun _ => hexx (by rw [hpc]; rfl)) same ((others (by simp)).imp_right .inr) ⟨hpx, rfl⟩
    case rpriv =>
      cases h
      obtain ⟨f1, f2⟩ := fit rfl (by simp)
      exact srv_put hI rfl hn (fun _ => hexx (by rw [hpc]; rfl)) same (.inl ⟨f1, f2⟩)
        ⟨hpx.1, by rw [← f1]; exact hpx.2, f2⟩
    case runlock =>
      cases h
      exact srv_put hI rfl hn (fun h => by cases h) (fun q y h1 h2 h3 => alone rfl q y h1 h2 h3)
        (.inl (fit rfl (by simp))) hpx
    case use =>
      cases h
      exact srv_put hI rfl hn (fun h => by cases h) same ((others (by simp)).imp_right .inr) (fun _ => hpx.2)
    all_goals first | exact hpx.elim | cases h

theorem srv_run {s s' : State} {es : List Ev} (hI : Srv s) (hk : ∀ p, Ev.begin p .initiate ∉ es)
    (h : run s es = some s') : Srv s' := by
  induction es generalizing s with
  | nil => cases h; exact hI
  | cons e es ih =>
    simp only [run, Option.bind_eq_some_iff] at h
    obtain ⟨s1, h1, h2⟩ := h
    exact ih (srv_step hI (fun p he => hk p (by rw [he]; exact List.mem_cons_self)) h1)
      (fun p hp => hk p (List.mem_cons_of_mem _ hp)) h2

theorem srv_served : Srv served :=
  ⟨by decide, (fun p x h => by cases h), .inl ⟨rfl, by decide⟩, fun p x h => by cases h⟩

/-- In a process that only answers, a call of `Respond` that has taken its copies has a pair that fits, whatever other
calls and the rotation of the key do meanwhile; so it fails only if the connection does. -/
theorem C115_answers_partial {s : State} {es : List Ev} (hk : ∀ p, Ev.begin p .initiate ∉ es)
    (h : run served es = some s) {p : Nat} {x : Proc} (hp : s.procs p = some x) (hx : x.pc = .use) :
    x.cpub = x.cpriv ∧ x.cpriv ≠ 0 ∧
      ∀ ok, ∃ s' x', step s (.go p ok) = some s' ∧ s'.procs p = some x' ∧ x'.pc = .done ∧ x'.good = ok := by
  have := (srv_run srv_served hk h).pcs p x hp
  simp only [okPc, hx] at this
  obtain ⟨_, h1, h2⟩ := this
  refine ⟨h1, h2, fun ok => ⟨s.put p { x with pc := .done, good := ok && x.cpriv != 0 && x.cpub == x.cpriv }, _, ?_,
    get_self _ _ _, rfl, ?_⟩⟩
  · simp only [step, hp, go, hx]
  · simp [h1, h2]

/-! ## Initiators -/

/-- The call has stored its public key and has not erased it. -/
def hasPub : Pc → Bool
  | .priv | .unlock | .hello | .answer | .proof | .rest | .zeroPub => true
  | _ => false

def hasPriv : Pc → Bool
  | .unlock | .hello | .answer | .proof | .rest | .zeroPub | .zeroPriv => true
  | _ => false

/-- A process that only initiates: what is not erased will be. -/
structure Cli (s : State) : Prop where
  kinds : ∀ p x, s.procs p = some x → x.kind = .initiate
  pub : s.pub ≠ 0 → ∃ p x, s.procs p = some x ∧ hasPub x.pc = true
  priv : s.priv ≠ 0 → ∃ p x, s.procs p = some x ∧ hasPriv x.pc = true

theorem cli_put {s t : State} {p : Nat} {x : Proc} (hI : Cli s) (h1 : t.procs = s.procs) (hk : x.kind = .initiate)
    (hpub : (t.pub = s.pub ∧ ∀ y, s.procs p = some y → hasPub y.pc = true → hasPub x.pc = true) ∨
      t.pub = 0 ∨ hasPub x.pc = true)
    (hpriv : (t.priv = s.priv ∧ ∀ y, s.procs p = some y → hasPriv y.pc = true → hasPriv x.pc = true) ∨
      t.priv = 0 ∨ hasPriv x.pc = true) : Cli (t.put p x) := by
  refine ⟨?_, ?_, ?_⟩
  · intro q y hq
    by_cases hqp : q = p
    · subst hqp; rw [get_self] at hq; cases hq; exact hk
    · rw [get_ne _ _ hqp, h1] at hq; exact hI.kinds q y hq
  · intro hne
    change t.pub ≠ 0 at hne
    rcases hpub with ⟨he, hy⟩ | he | he
    · rw [he] at hne
      obtain ⟨q, y, hq, hyq⟩ := hI.pub hne
      by_cases hqp : q = p
      · subst hqp; exact ⟨q, x, get_self _ _ _, hy y hq hyq⟩
      · exact ⟨q, y, by rw [get_ne _ _ hqp, h1]; exact hq, hyq⟩
    · exact absurd he hne
    · exact ⟨p, x, get_self _ _ _, he⟩
  · intro hne
    change t.priv ≠ 0 at hne
    rcases hpriv with ⟨he, hy⟩ | he | he
    · rw [he] at hne
      obtain ⟨q, y, hq, hyq⟩ := hI.priv hne
      by_cases hqp : q = p
      · subst hqp; exact ⟨q, x, get_self _ _ _, hy y hq hyq⟩
      · exact ⟨q, y, by rw [get_ne _ _ hqp, h1]; exact hq, hyq⟩
    · exact absurd he hne
    · exact ⟨p, x, get_self _ _ _, he⟩

theorem cli_step {s s' : State} {e : Ev} (hI : Cli s) (hk : ∀ p k, e = .begin p k → k = .initiate)
    (h : step s e = some s') : Cli s' := by
  cases e with
  | «begin» p k =>
    have := hk p k rfl
    subst this
    simp only [step] at h
    split at h
    · cases h
    rename_i hnone
    cases h
    exact cli_put hI rfl rfl (.inl ⟨rfl, fun y hy => by rw [hnone] at hy; cases hy⟩)
      (.inl ⟨rfl, fun y hy => by rw [hnone] at hy; cases hy⟩)
  | go p ok =>
    simp only [step] at h
    split at h
    · cases h
    rename_i x hx
    have hkx := hI.kinds p x hx
    have pin : ∀ {c : Pc}, (hasPub x.pc = true → hasPub c = true) → ∀ y, s.procs p = some y → hasPub y.pc = true →
        hasPub c = true := by
      intro c hc y hy; rw [hx] at hy; cases hy; exact hc
    have pin' : ∀ {c : Pc}, (hasPriv x.pc = true → hasPriv c = true) → ∀ y, s.procs p = some y → hasPriv y.pc = true →
        hasPriv c = true := by
      intro c hc y hy; rw [hx] at hy; cases hy; exact hc
    unfold go at h
    cases hpc : x.pc <;> rw [hpc] at h pin pin' <;> simp only at h <;> (try rw [hkx] at h) <;> (repeat' split at h) <;>
      cases h <;>
      exact cli_put hI rfl (by first | exact hkx | rfl)
        (by first
            | exact .inl ⟨rfl, pin (fun h => by first | exact h | rfl | cases h)⟩
            | exact .inr (.inl rfl)
            | exact .inr (.inr rfl))
        (by first
            | exact .inl ⟨rfl, pin' (fun h => by first | exact h | rfl | cases h)⟩
            | exact .inr (.inl rfl)
            | exact .inr (.inr rfl))

theorem cli_run {s s' : State} {es : List Ev} (hI : Cli s) (hk : ∀ p k, Ev.begin p k ∈ es → k = .initiate)
    (h : run s es = some s') : Cli s' := by
  induction es generalizing s with
  | nil => cases h; exact hI
  | cons e es ih =>
    simp only [run, Option.bind_eq_some_iff] at h
    obtain ⟨s1, h1, h2⟩ := h
    exact ih (cli_step hI (fun p k he => hk p k (by rw [he]; exact List.mem_cons_self)) h1)
      (fun p k hp => hk p k (List.mem_cons_of_mem _ hp)) h2

/-- In a process that only initiates, any number at a time, nothing of a key is left when all calls have returned. -/
theorem C115_erased_partial {s : State} {es : List Ev} (hk : ∀ p k, Ev.begin p k ∈ es → k = .initiate)
    (h : run start es = some s) (hd : ∀ p x, s.procs p = some x → x.pc = .done) : s.pub = 0 ∧ s.priv = 0 := by
  have hI : Cli s := cli_run ⟨(fun p x h => by cases h), (fun h => absurd rfl h), fun h => absurd rfl h⟩ hk h
  constructor
  · apply Classical.byContradiction
    intro hne
    obtain ⟨p, x, hp, hx⟩ := hI.pub hne
    rw [hd p x hp] at hx; cases hx
  · apply Classical.byContradiction
    intro hne
    obtain ⟨p, x, hp, hx⟩ := hI.priv hne
    rw [hd p x hp] at hx; cases hx

/-! ## One initiator at a time -/

/-- A call of `Initiate` begins when all before have returned.  The client does so: `goOnline` holds its lock
(zkclient.go:954-986), and an account is made before that by the goroutine that handles keys (welcome.go:195,
acceptserverfingerprint.go:122). -/
def InTurn (s : State) (es : List Ev) : Prop :=
  match es with
  | [] => True
  | .begin p k :: es =>
    k = .initiate ∧ (∀ q y, s.procs q = some y → y.pc = .done) ∧ ∀ s', step s (.begin p k) = some s' → InTurn s' es
  | .go p ok :: es => ∀ s', step s (.go p ok) = some s' → InTurn s' es

/-- What a call that is alone knows. -/
def mine (s : State) (x : Proc) : Prop :=
  x.key ≠ 0 ∧ (x.sent = none ∨ x.sent = some x.key) ∧ (x.good = true → x.sent = some x.key ∧ x.opened = some x.key) ∧
  match x.pc with
  | .lock => s.mutex = none
  | .pub => True
  | .priv => s.pub = x.key
  | .unlock | .hello => s.pub = x.key ∧ s.priv = x.key
  | .answer => s.pub = x.key ∧ s.priv = x.key ∧ x.sent = some x.key
  | .proof | .rest => s.pub = x.key ∧ s.priv = x.key ∧ x.sent = some x.key ∧ x.opened = some x.key
  | .zeroPub | .zeroPriv | .done => True
  | _ => False

def hasLock : Pc → Bool
  | .pub | .priv | .unlock => true
  | _ => false

structure One (s : State) : Prop where
  next : 0 < s.next
  kinds : ∀ p x, s.procs p = some x → x.kind = .initiate
  alone : ∀ p x q y, s.procs p = some x → s.procs q = some y → x.pc ≠ .done → q ≠ p → y.pc = .done
  free : s.mutex ≠ none → ∃ p x, s.procs p = some x ∧ hasLock x.pc = true
  mine : ∀ p x, s.procs p = some x → x.key < s.next ∧ Ephemeral.mine s x
  apart : ∀ p x q y, s.procs p = some x → s.procs q = some y → x.key = y.key → p = q

theorem mine_done {s t : State} {x : Proc} (h : mine s x) (hx : x.pc = .done) : mine t x := by
  obtain ⟨h1, h2, h3, _⟩ := h
  exact ⟨h1, h2, h3, by rw [hx]; trivial⟩

/-- A step of the one call that has not returned. -/
theorem one_put {s t : State} {p : Nat} {x x' : Proc} (hI : One s) (h1 : t.procs = s.procs) (hn : t.next = s.next)
    (hx : s.procs p = some x) (hpc : x.pc ≠ .done) (hk : x'.kind = x.kind) (hkey : x'.key = x.key)
    (hfree : t.mutex ≠ none → hasLock x'.pc = true) (hm : mine t x') : One (t.put p x') := by
  have others : ∀ q y, q ≠ p → s.procs q = some y → y.pc = .done := fun q y hqp hq => hI.alone p x q y hx hq hpc hqp
  have proc : ∀ q y, (t.put p x').procs q = some y → (q = p ∧ y = x') ∨ (q ≠ p ∧ s.procs q = some y ∧ y.pc = .done) := by
    intro q y hq
    by_cases hqp : q = p
    · subst hqp; rw [get_self] at hq; cases hq; exact .inl ⟨rfl, rfl⟩
    · rw [get_ne _ _ hqp, h1] at hq; exact .inr ⟨hqp, hq, others q y hqp hq⟩
  refine ⟨by change 0 < t.next; rw [hn]; exact hI.next, ?_, ?_, fun h => ⟨p, x', get_self _ _ _, hfree h⟩, ?_, ?_⟩
  · intro q y hq
    rcases proc q y hq with ⟨_, rfl⟩ | ⟨_, hq, _⟩
    · rw [hk]; exact hI.kinds p x hx
    · exact hI.kinds q y hq
  · intro q y r z hq hr hne hrq
    rcases proc r z hr with ⟨rfl, rfl⟩ | ⟨_, _, hd⟩
    · rcases proc q y hq with ⟨rfl, _⟩ | ⟨_, _, hd⟩
      · exact absurd rfl hrq
      · exact absurd hd hne
    · exact hd
  · intro q y hq
    change y.key < t.next ∧ _
    rw [hn]
    rcases proc q y hq with ⟨_, rfl⟩ | ⟨_, hq, hd⟩
    · rw [hkey]; exact ⟨(hI.mine p x hx).1, hm⟩
    · exact ⟨(hI.mine q y hq).1, mine_done (hI.mine q y hq).2 hd⟩
  · intro q y r z hq hr he
    rcases proc q y hq with ⟨rfl, rfl⟩ | ⟨_, hq1, _⟩ <;> rcases proc r z hr with ⟨rfl, rfl⟩ | ⟨_, hr1, _⟩
    · rfl
    · rw [hkey] at he; exact hI.apart _ x _ z hx hr1 he
    · rw [hkey] at he; exact hI.apart _ y _ x hq1 hx he
    · exact hI.apart q y r z hq1 hr1 he

theorem one_begin {s s' : State} {p : Nat} (hI : One s) (hd : ∀ q y, s.procs q = some y → y.pc = .done)
    (h : step s (.begin p .initiate) = some s') : One s' := by
  simp only [step] at h
  split at h
  · cases h
  rename_i hnone
  cases h
  have hfree : s.mutex = none := by
    apply Classical.byContradiction
    intro hne
    obtain ⟨q, y, hq, hy⟩ := hI.free hne
    rw [hd q y hq] at hy; cases hy
  generalize hx : (⟨Kind.initiate, Pc.lock, s.next, none, none, false, 0, 0⟩ : Proc) = x
  have proc : ∀ q y, ({ s with next := s.next + 1 }.put p x).procs q = some y → (q = p ∧ y = x) ∨
      (q ≠ p ∧ s.procs q = some y ∧ y.pc = .done) := by
    intro q y hq
    by_cases hqp : q = p
    · subst hqp; rw [get_self] at hq; cases hq; exact .inl ⟨rfl, rfl⟩
    · rw [get_ne _ _ hqp] at hq; exact .inr ⟨hqp, hq, hd q y hq⟩
  have hn := hI.next
  refine ⟨Nat.succ_pos _, ?_, ?_, fun h => absurd hfree h, ?_, ?_⟩
  · intro q y hq
    rcases proc q y hq with ⟨_, rfl⟩ | ⟨_, hq, _⟩
    · rw [← hx]
    · exact hI.kinds q y hq
  · intro q y r z hq hr hne hrq
    rcases proc r z hr with ⟨rfl, rfl⟩ | ⟨_, _, hd⟩
    · rcases proc q y hq with ⟨rfl, _⟩ | ⟨_, _, hd⟩
      · exact absurd rfl hrq
      · exact absurd hd hne
    · exact hd
  · intro q y hq
    change y.key < s.next + 1 ∧ _
    rcases proc q y hq with ⟨_, rfl⟩ | ⟨_, hq, hd⟩
    · subst hx
      exact ⟨Nat.lt_succ_self _, by change s.next ≠ 0; omega, .inl rfl, (fun h => by cases h), hfree⟩
    · exact ⟨Nat.lt_succ_of_lt (hI.mine q y hq).1, mine_done (hI.mine q y hq).2 hd⟩
  · have fresh : ∀ q y, s.procs q = some y → y.key ≠ x.key := by
      intro q y hq he
      have := (hI.mine q y hq).1
      subst hx
      change y.key = s.next at he
      omega
    intro q y r z hq hr he
    rcases proc q y hq with ⟨rfl, rfl⟩ | ⟨_, hq1, _⟩ <;> rcases proc r z hr with ⟨rfl, rfl⟩ | ⟨_, hr1, _⟩
    · rfl
    · exact absurd he.symm (fresh _ z hr1)
    · exact absurd he (fresh _ y hq1)
    · exact hI.apart q y r z hq1 hr1 he

theorem one_go {s s' : State} {p : Nat} {ok : Bool} (hI : One s) (h : step s (.go p ok) = some s') :
    One s' ∧ ∃ x x', s.procs p = some x ∧ s'.procs p = some x' ∧ (∀ q, q ≠ p → s'.procs q = s.procs q) ∧
      (ok = true → (x.pc = .zeroPub → x.good = true) → (x.pc = .zeroPriv → x.good = true) →
        (x'.pc = .zeroPub ∨ x'.pc = .zeroPriv ∨ x'.pc = .done → x'.good = true)) := by
  simp only [step] at h
  split at h
  · cases h
  rename_i x hx
  have hk := hI.kinds p x hx
  obtain ⟨hlt, hm⟩ := hI.mine p x hx
  have hfree : s.mutex ≠ none → hasLock x.pc = true ∨ x.pc = .done := by
    intro hne
    obtain ⟨q, y, hq, hy⟩ := hI.free hne
    by_cases hqp : q = p
    · subst hqp; rw [hx] at hq; cases hq; exact .inl hy
    · by_cases hd : x.pc = .done
      · exact .inr hd
      · rw [hI.alone p x q y hx hq hd hqp] at hy; cases hy
  have put : ∀ {t : State} {x' : Proc}, t.procs = s.procs → t.next = s.next → x.pc ≠ .done → x'.kind = x.kind →
      x'.key = x.key → (t.mutex ≠ none → hasLock x'.pc = true) → mine t x' →
      (ok = true → (x.pc = .zeroPub → x.good = true) → (x.pc = .zeroPriv → x.good = true) →
        (x'.pc = .zeroPub ∨ x'.pc = .zeroPriv ∨ x'.pc = .done → x'.good = true)) →
      One (t.put p x') ∧ ∃ x1 x1', some x = some x1 ∧ (t.put p x').procs p = some x1' ∧
        (∀ q, q ≠ p → (t.put p x').procs q = s.procs q) ∧
        (ok = true → (x1.pc = .zeroPub → x1.good = true) → (x1.pc = .zeroPriv → x1.good = true) →
          (x1'.pc = .zeroPub ∨ x1'.pc = .zeroPriv ∨ x1'.pc = .done → x1'.good = true)) := by
    intro t x' h1 h2 h3 h4 h5 h6 h7 h8
    exact ⟨one_put hI h1 h2 hx h3 h4 h5 h6 h7, x, x', rfl, get_self _ _ _,
      (fun q hq => by rw [get_ne _ _ hq, h1]), h8⟩
  rw [hx]
  obtain ⟨m1, m2, m3, m4⟩ := hm
  unfold go at h
  cases hpc : x.pc <;> rw [hpc] at h m4 hfree put <;> simp only at h m4
  case lock =>
    rw [if_pos m4] at h
    cases h
    exact put rfl rfl (by simp) rfl rfl (fun _ => rfl) ⟨m1, m2, m3, trivial⟩ (fun _ _ _ h => by simp at h)
  case pub =>
    cases h
    exact put rfl rfl (by simp) rfl rfl (fun _ => rfl) ⟨m1, m2, m3, rfl⟩ (fun _ _ _ h => by simp at h)
  case priv =>
    cases h
    exact put rfl rfl (by simp) rfl rfl (fun _ => rfl) ⟨m1, m2, m3, m4, rfl⟩ (fun _ _ _ h => by simp at h)
  case unlock =>
    cases h
    rw [hk] at put ⊢
    exact put rfl rfl (by simp) rfl rfl (fun h => absurd rfl h) ⟨m1, m2, m3, m4⟩ (fun _ _ _ h => by simp at h)
  case hello =>
    have free : s.mutex = none := by
      apply Classical.byContradiction; intro hne; rcases hfree hne with h | h <;> cases h
    cases ok <;> cases h
    · exact put rfl rfl (by simp) rfl rfl (fun h => absurd free h) ⟨m1, m2, m3, trivial⟩ (fun h => by cases h)
    · exact put rfl rfl (by simp) rfl rfl (fun h => absurd free h)
        ⟨m1, .inr (by simp [m4.1]), (fun h => ⟨by simp [m4.1], (m3 h).2⟩), m4.1, m4.2, by simp [m4.1]⟩
        (fun _ _ _ h => by simp at h)
  case answer =>
    have free : s.mutex = none := by
      apply Classical.byContradiction; intro hne; rcases hfree hne with h | h <;> cases h
    obtain ⟨m5, m6, m7⟩ := m4
    cases ok
    · simp only [Bool.false_and, Bool.false_eq_true, if_false] at h
      cases h
      exact put rfl rfl (by simp) rfl rfl (fun h => absurd free h) ⟨m1, m2, m3, trivial⟩ (fun h => by cases h)
    · have : (true && s.priv != 0 && x.sent == some s.priv) = true := by simp [m6, m7, m1]
      rw [if_pos this] at h
      cases h
      exact put rfl rfl (by simp) rfl rfl (fun h => absurd free h)
        ⟨m1, m2, (fun h => ⟨m7, by simp [m6]⟩), m5, m6, m7, by simp [m6]⟩ (fun _ _ _ h => by simp at h)
  case proof =>
    have free : s.mutex = none := by
      apply Classical.byContradiction; intro hne; rcases hfree hne with h | h <;> cases h
    obtain ⟨m5, m6, m7, m8⟩ := m4
    cases ok
    · simp only [Bool.false_and, Bool.false_eq_true, if_false] at h
      cases h
      exact put rfl rfl (by simp) rfl rfl (fun h => absurd free h) ⟨m1, m2, m3, trivial⟩ (fun h => by cases h)
    · have : (true && x.sent == some s.pub) = true := by simp [m5, m7]
      rw [if_pos this] at h
      cases h
      exact put rfl rfl (by simp) rfl rfl (fun h => absurd free h) ⟨m1, m2, m3, m5, m6, m7, m8⟩
        (fun _ _ _ h => by simp at h)
  case rest =>
    have free : s.mutex = none := by
      apply Classical.byContradiction; intro hne; rcases hfree hne with h | h <;> cases h
    obtain ⟨m5, m6, m7, m8⟩ := m4
    cases h
    exact put rfl rfl (by simp) rfl rfl (fun h => absurd free h) ⟨m1, m2, (fun _ => ⟨m7, m8⟩), trivial⟩ (fun h _ _ _ => h)
  case zeroPub =>
    have free : s.mutex = none := by
      apply Classical.byContradiction; intro hne; rcases hfree hne with h | h <;> cases h
    cases h
    exact put rfl rfl (by simp) rfl rfl (fun h => absurd free h) ⟨m1, m2, m3, trivial⟩ (fun _ h _ _ => h rfl)
  case zeroPriv =>
    have free : s.mutex = none := by
      apply Classical.byContradiction; intro hne; rcases hfree hne with h | h <;> cases h
    cases h
    exact put rfl rfl (by simp) rfl rfl (fun h => absurd free h) ⟨m1, m2, m3, trivial⟩ (fun _ _ h _ => h rfl)
  case done => cases h
  all_goals exact m4.elim

theorem one_run {s s' : State} {es : List Ev} (hI : One s) (ht : InTurn s es) (h : run s es = some s') : One s' := by
  induction es generalizing s with
  | nil => cases h; exact hI
  | cons e es ih =>
    simp only [run, Option.bind_eq_some_iff] at h
    obtain ⟨s1, h1, h2⟩ := h
    cases e with
    | «begin» p k =>
      obtain ⟨hk, hd, ht⟩ := ht
      subst hk
      exact ih (one_begin hI hd h1) (ht s1 h1) h2
    | go p ok => exact ih (one_go hI h1).1 (ht s1 h1) h2

theorem one_start : One start :=
  ⟨by decide, (fun p x h => by cases h), (fun p x q y h => by cases h), (fun h => absurd rfl h),
    (fun p x h => by cases h), fun p x q y h => by cases h⟩

/-- One call at a time: what an exchange sends, and opens the answer with, is the key that was made for it, and
nobody else sends it. -/
theorem C115_own_partial {s : State} {es : List Ev} (ht : InTurn start es) (h : run start es = some s)
    {p : Nat} {x : Proc} (hp : s.procs p = some x) :
    (∀ k, x.sent = some k → k = x.key ∧ k ≠ 0) ∧ (x.good = true → x.sent = some x.key ∧ x.opened = some x.key) ∧
      ∀ q y, q ≠ p → s.procs q = some y → ∀ k, x.sent = some k → y.sent ≠ some k := by
  have hI := one_run one_start ht h
  have own : ∀ q y, s.procs q = some y → ∀ k, y.sent = some k → k = y.key ∧ k ≠ 0 := by
    intro q y hq k hk
    obtain ⟨m1, m2, _⟩ := (hI.mine q y hq).2
    rcases m2 with m2 | m2
    · rw [m2] at hk; cases hk
    · rw [m2] at hk; cases hk; exact ⟨rfl, m1⟩
  refine ⟨own p x hp, (hI.mine p x hp).2.2.2.1, fun q y hqp hq k hk hk' => ?_⟩
  have h1 := (own p x hp k hk).1
  have h2 := (own q y hq k hk').1
  exact hqp (hI.apart q y p x hq hp (by rw [← h1, ← h2]))

/-- One call at a time: an exchange fails only if the connection does. -/
theorem C115_succeeds_partial {s : State} {es : List Ev} (ht : InTurn start es) (h : run start es = some s)
    {p : Nat} {x : Proc} (hp : s.procs p = some x) (hd : x.pc = .done) (hok : Ev.go p false ∉ es) : x.good = true := by
  have gen : ∀ {es : List Ev} {t s : State}, One t → InTurn t es → run t es = some s → Ev.go p false ∉ es →
      (∀ y, t.procs p = some y → y.pc = .zeroPub ∨ y.pc = .zeroPriv ∨ y.pc = .done → y.good = true) →
      ∀ y, s.procs p = some y → y.pc = .zeroPub ∨ y.pc = .zeroPriv ∨ y.pc = .done → y.good = true := by
    intro es
    induction es with
    | nil => intro t s _ _ h _ hg; cases h; exact hg
    | cons e es ih =>
      intro t s hI ht h hno hg
      simp only [run, Option.bind_eq_some_iff] at h
      obtain ⟨s1, h1, h2⟩ := h
      have hno' : Ev.go p false ∉ es := fun h => hno (List.mem_cons_of_mem _ h)
      cases e with
      | «begin» q k =>
        obtain ⟨hk, hd, ht⟩ := ht
        subst hk
        refine ih (one_begin hI hd h1) (ht s1 h1) h2 hno' ?_
        simp only [step] at h1
        split at h1
        · cases h1
        cases h1
        intro y hy hpc
        by_cases hpq : p = q
        · subst hpq
          rw [get_self] at hy; cases hy
          simp at hpc
        · rw [get_ne _ _ hpq] at hy
          exact hg y hy hpc
      | go q ok =>
        obtain ⟨hI1, z, z', hz, hz', ho, hgood⟩ := one_go hI h1
        refine ih hI1 (ht s1 h1) h2 hno' ?_
        intro y hy hpc
        by_cases hpq : p = q
        · subst hpq
          rw [hz'] at hy; cases hy
          have : ok = true := by
            cases ok with
            | true => rfl
            | false => exact absurd List.mem_cons_self hno
          exact hgood this (fun h => hg z hz (.inl h)) (fun h => hg z hz (.inr (.inl h))) hpc
        · rw [ho p hpq] at hy
          exact hg y hy hpc
  exact gen one_start ht h hok (fun y hy => by cases hy) x hp (.inr (.inr hd))

/-! ## Instances -/

/-- Call `p` begins and stores its key. -/
def makes (p : Nat) (k : Kind) : List Ev :=
  [.begin p k, .go p true, .go p true, .go p true, .go p true]

def goes (p n : Nat) : List Ev := List.replicate n (.go p true)

example : ∃ s x, run start (makes 0 .initiate ++ goes 0 6) = some s ∧ s.procs 0 = some x ∧ x.pc = .done ∧
    x.good = true ∧ x.sent = some 1 ∧ s.pub = 0 ∧ s.priv = 0 :=
  ⟨_, _, rfl, rfl, by decide, by decide, by decide, by decide, by decide⟩

/-- The key is replaced while somebody is answered. -/
example : ∃ s x, run served ([.begin 0 .respond] ++ goes 0 2 ++ [.begin 1 .rotate] ++ goes 0 2 ++ goes 1 4) = some s ∧
    s.procs 0 = some x ∧ x.pc = .use ∧ x.cpub = 1 ∧ x.cpriv = 1 ∧ s.priv = 2 :=
  ⟨_, _, rfl, rfl, by decide, by decide, by decide, by decide⟩

example : InTurn start (makes 0 .initiate ++ goes 0 6 ++ makes 1 .initiate ++ goes 1 6) := by
  repeat'
    first
    | exact trivial
    | (refine ⟨rfl, ?_, ?_⟩)
    | (intro q y h
       rcases q with _ | q
       all_goals first | (cases h; done) | (cases h; rfl))
    | (intro s h; cases h)

/-- Two exchanges at a time: the second makes its key after the first has sent its own.  The first fails, though the
connection and the peer are good. -/
theorem C115_fails_violated : ∃ s x, run start (makes 0 .initiate ++ goes 0 1 ++ makes 1 .initiate ++ goes 0 3) = some s ∧
    s.procs 0 = some x ∧ x.pc = .done ∧ x.good = false ∧ x.sent = some 1 :=
  ⟨_, _, rfl, rfl, by decide, by decide, by decide⟩

/-- Two exchanges at a time, both with the same key, and both complete. -/
theorem C115_shared_violated : ∃ s x y, run start (makes 0 .initiate ++ makes 1 .initiate ++ goes 0 3 ++ goes 1 3 ++
      goes 0 3 ++ [.go 1 true]) = some s ∧
    s.procs 0 = some x ∧ s.procs 1 = some y ∧ x.good = true ∧ x.sent = some 2 ∧ y.opened = some 2 ∧ y.good = true :=
  ⟨_, _, _, rfl, rfl, rfl, by decide, by decide, by decide, by decide⟩

/-- The first returns and erases the key; the second sends zeros for its public key. -/
theorem C115_zeros_violated : ∃ s y, run start (makes 0 .initiate ++ makes 1 .initiate ++ goes 0 6 ++ goes 1 1) = some s ∧
    s.procs 1 = some y ∧ y.sent = some 0 := ⟨_, _, rfl, rfl, by decide⟩

/-- A process that answers and initiates: when an exchange that it began is over, those that it answers fail until the
next minute. -/
theorem C115_both_violated : ∃ s x, run served (makes 0 .initiate ++ goes 0 6 ++ [.begin 1 .respond] ++ goes 1 5) = some s ∧
    s.procs 1 = some x ∧ x.pc = .done ∧ x.good = false ∧ x.cpriv = 0 :=
  ⟨_, _, rfl, rfl, by decide, by decide, by decide⟩

theorem rotate_run {s : State} {p : Nat} (hm : s.mutex = none) (hp : s.procs p = none) :
    ∃ s', run s (makes p .rotate) = some s' ∧ s'.mutex = none ∧ s'.priv = s.next ∧ s'.next = s.next + 1 ∧
      ∀ q, q ≠ p → s'.procs q = s.procs q := by
  have h : run s (makes p .rotate) = some ⟨s.next, s.next, none, s.next + 1, fun q =>
      if q = p then some ⟨.rotate, .done, s.next, none, none, false, 0, 0⟩ else s.procs q⟩ := by
    simp [makes, run, step, hp, go, hm, State.put]
    funext q
    by_cases hq : q = p <;> simp [hq]
  exact ⟨_, h, rfl, rfl, rfl, fun q hq => by simp [hq]⟩

/-- `Respond` does not erase its copies and has no deadline: somebody who connects and is silent has the server keep
the private key of that time, however often it is replaced, and can then have it used. -/
theorem C115_kept_violated (n : Nat) : ∃ es s x, (∀ p, Ev.begin p .initiate ∉ es) ∧
    (es.filter fun e => match e with | .begin _ .rotate => true | _ => false).length = n ∧ run served es = some s ∧
    s.procs 0 = some x ∧ x.pc = .use ∧ x.cpriv = 1 ∧ (0 < n → s.priv ≠ 1) := by
  suffices h : ∃ es s x, (∀ p, Ev.begin p .initiate ∉ es) ∧
      (es.filter fun e => match e with | .begin _ .rotate => true | _ => false).length = n ∧ run served es = some s ∧
      s.procs 0 = some x ∧ x.pc = .use ∧ x.cpriv = 1 ∧ (0 < n → s.priv ≠ 1) ∧ s.mutex = none ∧ 1 < s.next ∧
      ∀ p, n < p → s.procs p = none by
    obtain ⟨es, s, x, h1, h2, h3, h4, h5, h6, h7, _⟩ := h
    exact ⟨es, s, x, h1, h2, h3, h4, h5, h6, h7⟩
  induction n with
  | zero =>
    refine ⟨.begin 0 .respond :: goes 0 4, _, _, ?_, rfl, rfl, rfl, rfl, rfl, (fun h => absurd h (by decide)), rfl,
      by decide, ?_⟩
    · intro p hp
      simp [goes, List.replicate] at hp
    · intro p hp
      have : p ≠ 0 := by omega
      simp [State.put, this, served]
  | succ n ih =>
    obtain ⟨es, s, x, h1, h2, h3, h4, h5, h6, _, h8, h9, h10⟩ := ih
    obtain ⟨s', r1, r2, r3, r4, r5⟩ := rotate_run h8 (h10 (n + 1) (by omega))
    refine ⟨es ++ makes (n + 1) .rotate, s', x, ?_, ?_, ?_, ?_, h5, h6, (fun _ => by omega), r2, by omega, ?_⟩
    · intro p hp
      rw [List.mem_append] at hp
      rcases hp with hp | hp
      · exact h1 p hp
      · simp [makes] at hp
    · rw [List.filter_append, List.length_append, h2]
      rfl
    · rw [run_append, h3]
      exact r1
    · rw [r5 0 (by omega)]
      exact h4
    · intro p hp
      rw [r5 p (by omega)]
      exact h10 p (by omega)

end Verif.Ephemeral
