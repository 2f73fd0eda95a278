import Verif.Model.Strangers
import Mathlib.Tactic.Common
import Mathlib.Data.List.Perm.Subperm

/-! # C136: strangers cannot keep users out -/

namespace Verif.Strangers

/-! ## Sessions end when nothing is heard -/

/-- How many seconds pass. -/
def ticks : List Ev → Nat
  | [] => 0
  | .tick :: es => ticks es + 1
  | _ :: es => ticks es

/-- Nothing is heard of a connection. -/
def Silent (i : Nat) (es : List Ev) : Prop := Ev.login i ∉ es ∧ Ev.message i ∉ es

theorem login_id (now i : Nat) (c : Conn) : (c.login now i).id = c.id := by
  rw [Conn.login]; split <;> rfl

theorem message_id (now i : Nat) (c : Conn) : (c.message now i).id = c.id := by
  unfold Conn.message; split
  · rfl
  · split <;> rfl

/-- What is in a list after an event was there before, or came from what waited. -/
theorem conn_step {s : Server} {e : Ev} {c : Conn} (h : c ∈ (step s e).conns) :
    c ∈ s.conns ∨ (c.stage = .pre ∧ e = .accept) ∨
      (c.stage = .session s.now ∧ (e = .login c.id ∨ e = .message c.id) ∧ ∃ d ∈ s.conns, d.id = c.id) := by
  cases e with
  | accept =>
    rw [step] at h
    split at h
    · exact .inl h
    · split at h
      · rcases List.mem_append.1 h with h | h
        · exact .inl h
        · rw [List.mem_singleton] at h
          subst h
          exact .inr (.inl ⟨rfl, rfl⟩)
      · exact .inl h
  | login i =>
    obtain ⟨d, hd, rfl⟩ := List.mem_map.1 h
    by_cases hc : d.id = i ∧ d.stage = .pre
    · rw [Conn.login, if_pos hc]
      exact .inr (.inr ⟨rfl, .inl (by rw [hc.1]), d, hd, rfl⟩)
    · rw [Conn.login, if_neg hc]
      exact .inl hd
  | message i =>
    obtain ⟨d, hd, rfl⟩ := List.mem_map.1 h
    cases hs : d.stage with
    | pre =>
      have : d.message s.now i = d := by simp only [Conn.message, hs]
      rw [this]
      exact .inl hd
    | session t =>
      by_cases hc : d.id = i
      · have : d.message s.now i = ⟨d.id, .session s.now⟩ := by simp only [Conn.message, hs, hc, if_true]
        rw [this]
        exact .inr (.inr ⟨rfl, .inr (by rw [hc]), d, hd, rfl⟩)
      · have : d.message s.now i = d := by simp only [Conn.message, hs, hc, if_false]
        rw [this]
        exact .inl hd
  | leave i => exact .inl (List.mem_filter.1 h).1
  | tick => exact .inl (List.mem_filter.1 h).1
  | openFile => rw [step] at h; split at h <;> exact .inl h
  | adminAccept =>
    rw [step] at h
    split at h
    · split at h
      · exact .inl h
      · split at h <;> exact .inl h
    · exact .inl h
  | _ => exact .inl h

theorem now_step (s : Server) (e : Ev) : (step s e).now = s.now + ticks [e] := by
  cases e <;> simp only [step, ticks] <;> (try rfl)
  · split
    · rfl
    · split <;> rfl
  · split <;> rfl
  · split
    · split
      · rfl
      · split <;> rfl
    · rfl

/-- No session is older than its deadline allows. -/
def Fresh (s : Server) : Prop := ∀ c ∈ s.conns, ∀ t, c.stage = .session t → s.now < t + 15

theorem fresh_step {s : Server} (h : Fresh s) (e : Ev) : Fresh (step s e) := by
  intro c hc t ht
  by_cases he : e = .tick
  · subst he
    have := (List.mem_filter.1 hc).2
    simp only [Conn.alive, ht, decide_eq_true_eq] at this
    exact this
  · have hn : (step s e).now = s.now := by
      rw [now_step]
      cases e <;> first | rfl | exact absurd rfl he
    rw [hn]
    rcases conn_step hc with h1 | ⟨h1, -⟩ | ⟨h1, -⟩
    · exact h c h1 t ht
    · rw [h1] at ht; cases ht
    · rw [h1] at ht
      cases ht
      omega

theorem fresh_run : ∀ {es : List Ev} {s : Server}, Fresh s → Fresh (run s es)
  | [], _, h => h
  | e :: es, _, h => fresh_run (es := es) (fresh_step h e)

theorem ticks_cons (e : Ev) (es : List Ev) : ticks (e :: es) = ticks [e] + ticks es := by
  cases e <;> simp [ticks, Nat.add_comm]

theorem now_run : ∀ (es : List Ev) (s : Server), (run s es).now = s.now + ticks es
  | [], _ => rfl
  | e :: es, s => by
    show (run (step s e) es).now = _
    rw [now_run es, now_step, ticks_cons e es]
    omega

theorem since_run (i n : Nat) : ∀ {es : List Ev} {s : Server}, Silent i es →
    (∀ c ∈ s.conns, c.id = i → ∀ t, c.stage = .session t → t ≤ n) →
    ∀ c ∈ (run s es).conns, c.id = i → ∀ t, c.stage = .session t → t ≤ n
  | [], _, _, h => h
  | e :: es, s, hs, h => by
    refine since_run i n (es := es) ⟨fun h1 => hs.1 (List.mem_cons_of_mem _ h1), fun h1 => hs.2 (List.mem_cons_of_mem _ h1)⟩ ?_
    intro c hc hi t ht
    rcases conn_step hc with h1 | ⟨h1, -⟩ | ⟨-, h1, -⟩
    · exact h c h1 hi t ht
    · rw [h1] at ht; cases ht
    · rw [hi] at h1
      rcases h1 with rfl | rfl
      · exact absurd (List.mem_cons_self ..) hs.1
      · exact absurd (List.mem_cons_self ..) hs.2

/-- **C136** A session of which nothing is heard for 15 seconds is over, whatever else happens meanwhile: its connection is
closed, so that what it needed is free. -/
theorem C136_idle (limit : Nat) (past es : List Ev) (i : Nat) (hs : Silent i es) (ht : 15 ≤ ticks es) (s : Server)
    (he : s = run (.new limit) past) : ∀ c ∈ (run s es).conns, c.id = i → c.stage = .pre := by
  have hf : Fresh s := he ▸ fresh_run (fun _ h => by simp [Server.new] at h)
  have hle : ∀ {es : List Ev} {s : Server}, (∀ c ∈ s.conns, ∀ t, c.stage = .session t → t ≤ s.now) →
      ∀ c ∈ (run s es).conns, ∀ t, c.stage = .session t → t ≤ (run s es).now := by
    intro es
    induction es with
    | nil => exact fun h => h
    | cons e es ih =>
      intro s h
      refine ih ?_
      intro c hc t h1
      rw [now_step]
      rcases conn_step hc with h2 | ⟨h2, -⟩ | ⟨h2, -⟩
      · exact Nat.le_add_right_of_le (h c h2 t h1)
      · rw [h2] at h1; cases h1
      · rw [h2] at h1; cases h1; exact Nat.le_add_right _ _
  have h0 : ∀ c ∈ s.conns, ∀ t, c.stage = .session t → t ≤ s.now :=
    he ▸ hle (fun _ h => by simp [Server.new] at h)
  intro c hc hi
  cases hst : c.stage with
  | pre => rfl
  | session t =>
    have h1 := since_run i s.now hs (fun c hc _ t ht => h0 c hc t ht) c hc hi t hst
    have h2 := fresh_run (es := es) hf c hc t hst
    rw [now_run] at h2
    omega

/-! ## Others do not -/

/-- A connection before the session stays as long as the other side neither logs in nor leaves. -/
theorem pre_step {s : Server} {e : Ev} {i : Nat} (h1 : e ≠ .login i) (h2 : e ≠ .leave i)
    (h : (⟨i, .pre⟩ : Conn) ∈ s.conns) : (⟨i, .pre⟩ : Conn) ∈ (step s e).conns := by
  cases e with
  | accept =>
    rw [step]
    split
    · exact h
    · split
      · exact List.mem_append_left _ h
      · exact h
  | login j =>
    refine List.mem_map.2 ⟨_, h, ?_⟩
    rw [Conn.login, if_neg]
    rintro ⟨h3, -⟩
    exact h1 (by rw [show i = j from h3])
  | message j => exact List.mem_map.2 ⟨_, h, rfl⟩
  | leave j =>
    refine List.mem_filter.2 ⟨h, ?_⟩
    simp only [ne_eq, decide_not, Bool.not_eq_eq_eq_not, Bool.not_true, decide_eq_false_iff_not]
    intro h3
    exact h2 (by rw [h3])
  | tick => exact List.mem_filter.2 ⟨h, rfl⟩
  | openFile => rw [step]; split <;> exact h
  | adminAccept =>
    rw [step]
    split
    · split
      · exact h
      · split <;> exact h
    · exact h
  | _ => exact h

/-- **C136** (violated) A connection that does not become a session is never given up: while the other side says nothing, or
asks the same thing for ever, it stays, for however long. -/
theorem C136_stays_violated (s : Server) (es : List Ev) (i : Nat) (h1 : Ev.login i ∉ es) (h2 : Ev.leave i ∉ es)
    (h : (⟨i, .pre⟩ : Conn) ∈ s.conns) : (⟨i, .pre⟩ : Conn) ∈ (run s es).conns := by
  induction es generalizing s with
  | nil => exact h
  | cons e es ih =>
    refine ih _ (fun h3 => h1 (List.mem_cons_of_mem _ h3)) (fun h3 => h2 (List.mem_cons_of_mem _ h3)) ?_
    exact pre_step (fun h3 => h1 (h3 ▸ List.mem_cons_self ..)) (fun h3 => h2 (h3 ▸ List.mem_cons_self ..)) h

/-- So many connections of strangers, all different, that nothing more may be open. -/
structure Full (who : List Nat) (s : Server) : Prop where
  distinct : who.Nodup
  many : s.limit ≤ who.length
  held : ∀ i ∈ who, (⟨i, .pre⟩ : Conn) ∈ s.conns

theorem full_used {who : List Nat} {s : Server} (h : Full who s) : s.limit ≤ s.used := by
  have h1 : (who.map fun i => (⟨i, .pre⟩ : Conn)).length ≤ s.conns.length := by
    refine (List.subperm_of_subset ?_ ?_).length_le
    · exact List.Pairwise.map _ (fun a b hab h1 => hab (by cases h1; rfl)) h.distinct
    · intro c hc
      obtain ⟨i, hi, rfl⟩ := List.mem_map.1 hc
      exact h.held i hi
  rw [List.length_map] at h1
  have := h.many
  unfold Server.used
  omega

theorem limit_step (s : Server) (e : Ev) : (step s e).limit = s.limit := by
  cases e <;> simp only [step]
  · split
    · rfl
    · split <;> rfl
  · split <;> rfl
  · split
    · split
      · rfl
      · split <;> rfl
    · rfl

/-- None of the strangers logs in or leaves. -/
def Keep (who : List Nat) (es : List Ev) : Prop := ∀ i ∈ who, Ev.login i ∉ es ∧ Ev.leave i ∉ es

theorem full_step {who : List Nat} {s : Server} {e : Ev} (h : Full who s) (hk : Keep who [e]) : Full who (step s e) := by
  refine ⟨h.distinct, by rw [limit_step]; exact h.many, fun i hi => ?_⟩
  have := hk i hi
  simp only [List.mem_singleton] at this
  exact pre_step (fun h1 => this.1 h1.symm) (fun h1 => this.2 h1.symm) (h.held i hi)

/-- How often a file is to be opened. -/
def opens : List Ev → Nat
  | [] => 0
  | .openFile :: es => opens es + 1
  | _ :: es => opens es

/-- Who comes. -/
def arrivals : List Ev → List Nat
  | [] => []
  | .arrive i :: es => i :: arrivals es
  | _ :: es => arrivals es

/-- What holds from then on. -/
theorem full_run {who : List Nat} : ∀ {es : List Ev} {s : Server}, Full who s → Keep who es →
    Full who (run s es) ∧ (∀ c ∈ (run s es).conns, ∃ d ∈ s.conns, d.id = c.id) ∧
      (run s es).refused = s.refused + opens es ∧ (run s es).answered = s.answered ∧
      (run s es).waiting = s.waiting ++ arrivals es
  | [], s, h, _ => ⟨h, fun c hc => ⟨c, hc, rfl⟩, rfl, rfl, (List.append_nil _).symm⟩
  | e :: es, s, h, hk => by
    have hk1 : Keep who [e] := by
      intro i hi
      have := hk i hi
      exact ⟨fun h1 => this.1 (by rw [List.mem_singleton.1 h1]; exact List.mem_cons_self ..),
        fun h1 => this.2 (by rw [List.mem_singleton.1 h1]; exact List.mem_cons_self ..)⟩
    have hk2 : Keep who es := fun i hi =>
      ⟨fun h1 => (hk i hi).1 (List.mem_cons_of_mem _ h1), fun h1 => (hk i hi).2 (List.mem_cons_of_mem _ h1)⟩
    have hn : ¬ s.used < s.limit := Nat.not_lt.2 (full_used h)
    obtain ⟨i1, i2, i3, i4, i5⟩ := full_run (es := es) (full_step h hk1) hk2
    have hc : ∀ c ∈ (step s e).conns, ∃ d ∈ s.conns, d.id = c.id := by
      intro c hc
      rcases conn_step hc with h1 | ⟨-, h1⟩ | ⟨-, -, h1⟩
      · exact ⟨c, h1, rfl⟩
      · subst h1
        rw [step] at hc
        split at hc
        · exact ⟨c, hc, rfl⟩
        · rw [if_neg hn] at hc
          exact ⟨c, hc, rfl⟩
      · exact h1
    have hr : (step s e).refused = s.refused + opens [e] ∧ (step s e).answered = s.answered ∧
        (step s e).waiting = s.waiting ++ arrivals [e] := by
      cases e with
      | accept =>
        rw [step]
        split
        · exact ⟨rfl, rfl, (List.append_nil _).symm⟩
        · rw [if_neg hn]
          exact ⟨rfl, rfl, (List.append_nil _).symm⟩
      | openFile =>
        rw [step, if_neg hn]
        exact ⟨rfl, rfl, (List.append_nil _).symm⟩
      | adminAccept =>
        simp only [step, if_neg hn]
        split
        · split
          · exact ⟨rfl, rfl, (List.append_nil _).symm⟩
          · exact ⟨rfl, rfl, (List.append_nil _).symm⟩
        · exact ⟨rfl, rfl, (List.append_nil _).symm⟩
      | arrive i => exact ⟨rfl, rfl, rfl⟩
      | _ => exact ⟨rfl, rfl, (List.append_nil _).symm⟩
    obtain ⟨j1, j2, j3⟩ := hr
    have e1 : arrivals (e :: es) = arrivals [e] ++ arrivals es := by cases e <;> rfl
    refine ⟨i1, ?_, ?_, i4.trans j2, ?_⟩
    · intro c h1
      obtain ⟨d, hd, hd'⟩ := i2 c h1
      obtain ⟨d', h3, h4⟩ := hc d hd
      exact ⟨d', h3, h4.trans hd'⟩
    · show (run (step s e) es).refused = _
      rw [i3, j1]
      cases e <;> simp only [opens] <;> omega
    · show (run (step s e) es).waiting = _
      rw [i5, j3, e1, List.append_assoc]

/-- The strangers connect, one after the other. -/
def knock : List Nat → List Ev
  | [] => []
  | i :: r => .arrive i :: .accept :: knock r

theorem knock_run : ∀ (who : List Nat) (s : Server), s.waiting = [] → s.used + who.length ≤ s.limit →
    (run s (knock who)).conns = s.conns ++ who.map (fun i => ⟨i, .pre⟩) ∧ (run s (knock who)).limit = s.limit ∧
      (run s (knock who)).waiting = [] ∧ (run s (knock who)).refused = s.refused ∧ (run s (knock who)).answered = s.answered
  | [], s, hw, _ => ⟨by simp [knock, run], rfl, hw, rfl, rfl⟩
  | i :: r, s, hw, hl => by
    have e : step (step s (.arrive i)) .accept = { s with waiting := [], conns := s.conns ++ [⟨i, .pre⟩] } := by
      have h0 : step s (.arrive i) = { s with waiting := [i] } := by simp [step, hw]
      have hu : ({ s with waiting := [i] } : Server).used < s.limit := by
        simp only [List.length_cons] at hl
        show s.used < s.limit
        omega
      rw [h0, step]
      simp only [hu, if_true]
    obtain ⟨h1, h2, h3, h4, h5⟩ := knock_run r { s with waiting := [], conns := s.conns ++ [⟨i, .pre⟩] } rfl (by
      simp only [Server.used, List.length_append, List.length_cons, List.length_nil] at hl ⊢
      omega)
    show (run (step (step s (.arrive i)) .accept) (knock r)).conns = _ ∧
      (run (step (step s (.arrive i)) .accept) (knock r)).limit = _ ∧
      (run (step (step s (.arrive i)) .accept) (knock r)).waiting = _ ∧
      (run (step (step s (.arrive i)) .accept) (knock r)).refused = _ ∧
      (run (step (step s (.arrive i)) .accept) (knock r)).answered = _
    rw [e]
    refine ⟨?_, h2, h3, h4, h5⟩
    rw [h1]
    simp

/-- **C136** (violated) Strangers, who have no account and say nothing, can stop a server: when as many connections are made as
it may have open, then, as long as these are kept, and whatever else happens, nobody else gets a connection (who comes waits
for ever), no file can be opened, so that no message is stored or delivered, and no administrator is answered. -/
theorem C136_full_violated (who : List Nat) (hd : who.Nodup) (es : List Ev) (hk : Keep who es) (s : Server)
    (hs : s = run (run (.new who.length) (knock who)) es) :
    (∀ c ∈ s.conns, c.id ∈ who) ∧ s.refused = opens es ∧ s.answered = [] ∧ s.waiting = arrivals es := by
  obtain ⟨h1, h2, h3, h4, h5⟩ := knock_run who (.new who.length) rfl (by simp [Server.used, Server.new])
  have hf : Full who (run (.new who.length) (knock who)) := by
    refine ⟨hd, by rw [h2]; exact Nat.le_refl _, fun i hi => ?_⟩
    rw [h1]
    exact List.mem_append_right _ (List.mem_map.2 ⟨i, hi, rfl⟩)
  obtain ⟨-, i2, i3, i4, i5⟩ := full_run hf hk
  subst hs
  refine ⟨fun c hc => ?_, ?_, ?_, by rw [i5, h3]; rfl⟩
  · obtain ⟨d, hd, hd'⟩ := i2 c hc
    rw [h1] at hd
    rcases List.mem_append.1 hd with hd | hd
    · simp [Server.new] at hd
    · obtain ⟨i, hi, rfl⟩ := List.mem_map.1 hd
      rw [← hd']
      exact hi
  · rw [i3, h4]
    exact Nat.zero_add _
  · rw [i4, h5]
    rfl

/-- **C136** (violated) Meanwhile the loop that accepts does not wait: each turn writes a line to the log, without end. -/
theorem C136_log_violated (s : Server) (n : Nat) (hw : s.waiting ≠ []) (hf : s.limit ≤ s.used) :
    (run s (List.replicate n .accept)).log = s.log + n := by
  induction n generalizing s with
  | zero => rfl
  | succ n ih =>
    have e : step s .accept = { s with log := s.log + 1 } := by
      rw [step]
      split
      · rename_i h; exact absurd h hw
      · rw [if_neg (Nat.not_lt.2 hf)]
    show (run (step s .accept) (List.replicate n .accept)).log = _
    rw [e]
    refine (ih { s with log := s.log + 1 } hw hf).trans ?_
    show s.log + 1 + n = _
    omega

/-- **C136** (violated) If an administrator comes just then, the control socket is dead from then on, also when all the strangers
have left: nobody is answered there any more until the server is started again. -/
theorem C136_control_violated (s : Server) (hw : s.adminWaiting ≠ []) (hf : s.limit ≤ s.used) (es : List Ev) :
    (run (step s .adminAccept) es).control = false ∧ (run (step s .adminAccept) es).answered = s.answered := by
  have key : ∀ (es : List Ev) (t : Server), t.control = false →
      (run t es).control = false ∧ (run t es).answered = t.answered := by
    intro es
    induction es with
    | nil => exact fun t h => ⟨h, rfl⟩
    | cons e es ih =>
      intro t h
      have h1 : (step t e).control = false ∧ (step t e).answered = t.answered := by
        cases e with
        | accept =>
          rw [step]
          split
          · exact ⟨h, rfl⟩
          · split <;> exact ⟨h, rfl⟩
        | openFile => rw [step]; split <;> exact ⟨h, rfl⟩
        | adminAccept => rw [step, h]; exact ⟨h, rfl⟩
        | _ => exact ⟨h, rfl⟩
      obtain ⟨i1, i2⟩ := ih (step t e) h1.1
      exact ⟨i1, i2.trans h1.2⟩
  by_cases hc : s.control = true
  · have e : step s .adminAccept = { s with control := false } := by
      rw [step, if_pos hc]
      split
      · rename_i h; exact absurd h hw
      · rw [if_neg (Nat.not_lt.2 hf)]
    rw [e]
    exact key es { s with control := false } rfl
  · have e : step s .adminAccept = s := by rw [step, if_neg hc]
    rw [e]
    exact key es s (by simpa using hc)

/-! ## While there is room -/

/-- How many connections and files are asked for. -/
def asked : List Ev → Nat
  | [] => 0
  | .arrive _ :: es => asked es + 1
  | .openFile :: es => asked es + 1
  | .adminArrive _ :: es => asked es + 1
  | _ :: es => asked es

/-- What is open and what waits is not more than was asked for, and nothing has failed. -/
structure Room (n : Nat) (s : Server) : Prop where
  room : s.used + s.waiting.length + s.adminWaiting.length ≤ n
  log : s.log = 0
  refused : s.refused = 0
  control : s.control = true

theorem room_step {n : Nat} {s : Server} {e : Ev} (h : Room n s) (hl : n + asked [e] ≤ s.limit) :
    Room (n + asked [e]) (step s e) := by
  obtain ⟨h1, h2, h3, h4⟩ := h
  unfold Server.used at h1
  cases e with
  | arrive i =>
    refine ⟨?_, h2, h3, h4⟩
    simp only [step, Server.used, List.length_append, List.length_cons, List.length_nil, asked]
    omega
  | accept =>
    rw [step]
    split
    · exact ⟨h1, h2, h3, h4⟩
    · rename_i i r hw
      simp only [asked] at hl ⊢
      rw [hw] at h1
      simp only [List.length_cons] at h1
      have : s.used < s.limit := by unfold Server.used; omega
      rw [if_pos this]
      refine ⟨?_, h2, h3, h4⟩
      simp only [Server.used, List.length_append, List.length_cons, List.length_nil]
      omega
  | request i => exact ⟨h1, h2, h3, h4⟩
  | login i =>
    refine ⟨?_, h2, h3, h4⟩
    simp only [step, Server.used, List.length_map, asked]
    omega
  | message i =>
    refine ⟨?_, h2, h3, h4⟩
    simp only [step, Server.used, List.length_map, asked]
    omega
  | leave i =>
    refine ⟨?_, h2, h3, h4⟩
    have := List.length_filter_le (fun c : Conn => decide (c.id ≠ i)) s.conns
    simp only [step, Server.used, asked]
    omega
  | tick =>
    refine ⟨?_, h2, h3, h4⟩
    have := List.length_filter_le (Conn.alive (s.now + 1)) s.conns
    simp only [step, Server.used, asked]
    omega
  | openFile =>
    simp only [asked] at hl ⊢
    have : s.used < s.limit := by unfold Server.used; omega
    rw [step, if_pos this]
    refine ⟨?_, h2, h3, h4⟩
    simp only [Server.used]
    omega
  | closeFile =>
    refine ⟨?_, h2, h3, h4⟩
    simp only [step, Server.used, asked]
    omega
  | adminArrive a =>
    refine ⟨?_, h2, h3, h4⟩
    simp only [step, Server.used, List.length_append, List.length_cons, List.length_nil, asked]
    omega
  | adminAccept =>
    rw [step, if_pos h4]
    split
    · exact ⟨h1, h2, h3, h4⟩
    · rename_i a r hw
      simp only [asked] at hl ⊢
      rw [hw] at h1
      simp only [List.length_cons] at h1
      have : s.used < s.limit := by unfold Server.used; omega
      rw [if_pos this]
      refine ⟨?_, h2, h3, h4⟩
      simp only [Server.used, List.length_append, List.length_cons, List.length_nil]
      omega
  | adminLeave a =>
    refine ⟨?_, h2, h3, h4⟩
    have := List.length_filter_le (fun x : Nat => decide (x ≠ a)) s.admins
    simp only [step, Server.used, asked]
    omega

theorem room_run : ∀ {es : List Ev} {n : Nat} {s : Server}, Room n s → n + asked es ≤ s.limit → Room (n + asked es) (run s es)
  | [], _, _, h, _ => h
  | e :: es, n, s, h, hl => by
    have e1 : asked (e :: es) = asked [e] + asked es := by cases e <;> simp [asked, Nat.add_comm]
    rw [e1] at hl ⊢
    have h1 : Room (n + asked [e]) (step s e) := room_step h (by omega)
    have := room_run (es := es) h1 (by rw [limit_step]; omega)
    rw [Nat.add_assoc] at this
    exact this

/-- **C136** (partial: while no more was asked for, in all, than may be open; see `C136_full_violated`) Nothing is refused: every
connection that comes is accepted when it is its turn, every file is opened, and administrators are answered. -/
theorem C136_room_partial (limit : Nat) (es : List Ev) (h : asked es ≤ limit) (s : Server) (hs : s = run (.new limit) es) :
    s.log = 0 ∧ s.refused = 0 ∧ s.control = true ∧
      ∀ i r, s.waiting = i :: r →
        (⟨i, .pre⟩ : Conn) ∈ (step s .accept).conns ∧ (step s .accept).waiting = r := by
  have hr : Room (0 + asked es) s := hs ▸ room_run (n := 0) (s := .new limit) ⟨Nat.le_refl _, rfl, rfl, rfl⟩ (by
    rw [Nat.zero_add]; exact h)
  have hl : s.limit = limit := by
    subst hs
    have : ∀ (es : List Ev) (s : Server), (run s es).limit = s.limit := by
      intro es
      induction es with
      | nil => exact fun _ => rfl
      | cons e es ih => exact fun s => (ih (step s e)).trans (limit_step s e)
    exact this es _
  refine ⟨hr.log, hr.refused, hr.control, fun i r hw => ?_⟩
  have h1 := hr.room
  rw [hw, List.length_cons] at h1
  have hu : s.used < s.limit := by omega
  rw [step, hw]
  simp only [hu, if_true]
  exact ⟨List.mem_append_right _ (List.mem_singleton.2 rfl), trivial⟩

/-- **C136** Who leaves makes room: whatever has happened, nothing is left of a connection that the other side has closed. -/
theorem C136_left (s : Server) (i : Nat) : (∀ c ∈ (step s (.leave i)).conns, c.id ≠ i) ∧
    (step s (.leave i)).used + (s.conns.filter fun c => c.id = i).length = s.used := by
  refine ⟨fun c hc => by simpa using (List.mem_filter.1 hc).2, ?_⟩
  have : ∀ l : List Conn, (l.filter fun c => c.id ≠ i).length + (l.filter fun c => c.id = i).length = l.length := by
    intro l
    induction l with
    | nil => rfl
    | cons c l ih =>
      by_cases h : c.id = i
      · simp [h] at ih ⊢; omega
      · simp [h] at ih ⊢; omega
  have := this s.conns
  simp only [step, Server.used]
  omega

/-! ## Examples -/

/-- Two strangers at a server that may have two connections: a user is not let in, no file is opened, and the administrator
who comes meanwhile is not answered even when the strangers are gone; then the user is let in. -/
example :
    let s := run (run (.new 2) (knock [1, 2])) [.arrive 7, .accept, .openFile, .adminArrive 9, .adminAccept]
    let t := run s [.leave 1, .leave 2, .accept, .adminAccept, .adminArrive 10, .adminAccept]
    s.conns.map (·.id) = [1, 2] ∧ s.refused = 1 ∧ s.log = 1 ∧ t.conns.map (·.id) = [7] ∧ t.answered = [] := by decide

/-- A user who says nothing for 15 seconds is out, one who does stays. -/
example :
    let s := run (.new 5) ([.arrive 1, .accept, .arrive 2, .accept, .login 1, .login 2] ++ List.replicate 10 .tick ++
      [.message 2] ++ List.replicate 5 .tick)
    s.conns = [⟨2, .session 10⟩] := by decide

/-- Whoever says nothing before the session is there after a year. -/
example : (⟨1, .pre⟩ : Conn) ∈ (run (run (.new 5) (knock [1])) (List.replicate 31536000 .tick)).conns :=
  C136_stays_violated _ _ 1 (fun h => by cases List.eq_of_mem_replicate h) (fun h => by cases List.eq_of_mem_replicate h)
    (by decide)

/-- With room all is well. -/
example : (run (.new 9) [.arrive 1, .accept, .login 1, .openFile, .closeFile, .adminArrive 2, .adminAccept]).refused = 0 :=
  (C136_room_partial 9 _ (by decide) _ rfl).2.1

/-! ## What is open -/

/-- **C136** There is never more open than the system allows: connections of strangers and users, files, and connections of
administrators together. -/
theorem C136_within (limit : Nat) (es : List Ev) :
    (run (.new limit) es).conns.length + (run (.new limit) es).files + (run (.new limit) es).admins.length ≤ limit := by
  suffices h : ∀ (es : List Ev) (s : Server), s.limit = limit → s.conns.length + s.files + s.admins.length ≤ limit →
      (run s es).conns.length + (run s es).files + (run s es).admins.length ≤ limit from
    h es _ rfl (Nat.zero_le _)
  intro es
  induction es with
  | nil => exact fun s _ h => h
  | cons e es ih =>
    intro s hl h
    refine ih (step s e) ((limit_step s e).trans hl) ?_
    have hf := fun p : Conn → Bool => List.length_filter_le p s.conns
    have hu : s.used = s.conns.length + s.files + s.admins.length := rfl
    cases e with
    | arrive i => exact h
    | accept =>
      rw [step]
      split
      · exact h
      · split
        · simp only [List.length_append, List.length_singleton]; omega
        · exact h
    | request i => exact h
    | login i => simpa [step] using h
    | message i => simpa [step] using h
    | leave i => have := hf fun c => c.id ≠ i; simp only [step]; omega
    | tick => have := hf (Conn.alive (s.now + 1)); simp only [step]; omega
    | openFile =>
      rw [step]
      split
      · simp only; omega
      · exact h
    | closeFile => simp only [step]; omega
    | adminArrive a => exact h
    | adminAccept =>
      rw [step]
      split
      · split
        · exact h
        · split
          · simp only [List.length_append, List.length_singleton]; omega
          · exact h
      · exact h
    | adminLeave a => have := List.length_filter_le (· ≠ a) s.admins; simp only [step]; omega

/-- **C136** While there is room, whoever comes is let in, a file that is to be opened is opened and counts, and an
administrator is answered. -/
theorem C136_served (s : Server) (h : s.conns.length + s.files + s.admins.length < s.limit) :
    (∀ i r, s.waiting = i :: r → step s .accept = { s with waiting := r, conns := s.conns ++ [⟨i, .pre⟩] }) ∧
    step s .openFile = { s with files := s.files + 1 } ∧
    ∀ a r, s.control = true → s.adminWaiting = a :: r →
      step s .adminAccept = { s with adminWaiting := r, admins := s.admins ++ [a], answered := s.answered ++ [a] } := by
  have hu : s.used < s.limit := h
  refine ⟨fun i r hw => ?_, ?_, fun a r hc hw => ?_⟩
  · simp only [step, hw, if_pos hu]
  · simp only [step, if_pos hu]
  · simp only [step, hc, hw, if_pos hu, if_true]

/-- **C136** What is closed makes room: a file, and the connection of an administrator. -/
theorem C136_given_back (s : Server) (a : Nat) :
    (0 < s.files → (step s .closeFile).used + 1 = s.used) ∧ a ∉ (step s (.adminLeave a)).admins ∧
    (∀ b ∈ s.admins, b ≠ a → b ∈ (step s (.adminLeave a)).admins) ∧
    (a ∈ s.admins → (step s (.adminLeave a)).used < s.used) := by
  refine ⟨fun h => ?_, ?_, ?_, fun h => ?_⟩
  · simp only [step, Server.used]; omega
  · simp [step]
  · intro b hb hn
    simp [step, hb, hn]
  · have : (s.admins.filter (· ≠ a)).length < s.admins.length :=
      List.length_filter_lt_length_iff_exists.2 ⟨a, h, by simp⟩
    simp only [step, Server.used]
    omega

end Verif.Strangers
