import Mathlib.Data.List.Induction
import Verif.Model.Startup

/-! # C90: a server keeps its identity, its certificate and its control socket -/

namespace Verif.Startup

/-- Events in which only the first process runs and no read fails. -/
def Calm (evs : List Ev) : Prop := ∀ e ∈ evs, e = .start false ∨ e = .step false ∨ e = .kill false

/-- The process is in service. -/
def Pc.isUp : Pc → Bool
  | .up _ _ => true
  | _ => false

/-- What each point of `_main` knows of the files. -/
def Knows (s : State) : Pc → Prop
  | .down => True
  | .boot => True
  | .noId => s.served = []
  | .makeId _ => s.served = []
  | .certs i => s.id = .whole i
  | .noCrt i => s.id = .whole i ∧ s.served = []
  | .makeCrt i _ => s.id = .whole i ∧ s.served = []
  | .madeCrt i m => s.id = .whole i ∧ s.crt = .whole m ∧ s.served = []
  | .makeKey i m => s.id = .whole i ∧ s.crt = .whole m ∧ s.served = []
  | .clear i => s.id = .whole i ∧ ∃ c, s.crt = .whole c ∧ s.key = .whole c
  | .cleared i => s.id = .whole i ∧ (∃ c, s.crt = .whole c ∧ s.key = .whole c) ∧ s.sock = none
  | .ctl i => s.id = .whole i ∧ (∃ c, s.crt = .whole c ∧ s.key = .whole c) ∧ s.sock = some false
  | .bind i c => s.id = .whole i ∧ s.crt = .whole c ∧ s.key = .whole c ∧ s.sock = some false
  | .up i c => s.id = .whole i ∧ s.crt = .whole c ∧ s.key = .whole c ∧ s.sock = some false

/-- What holds while one process at a time runs and no read fails. -/
structure Inv (s : State) : Prop where
  second : s.second = .down
  served : s.served ≠ [] → ∃ i c, s.id = .whole i ∧ s.crt = .whole c ∧ s.key = .whole c ∧ ∀ x ∈ s.served, x = (i, c)
  port : s.port = if s.first.isUp then some false else none
  knows : Knows s s.first

theorem pair_some {s : State} {c : Nat} (h : pair s = some c) : s.crt = .whole c ∧ s.key = .whole c := by
  unfold pair at h
  split at h
  · rename_i a b ha hb
    split at h
    · rename_i hab
      cases h
      exact ⟨ha, hab ▸ hb⟩
    · cases h
  · cases h

theorem pair_whole {s : State} {c : Nat} (h1 : s.crt = .whole c) (h2 : s.key = .whole c) : pair s = some c := by
  unfold pair
  rw [h1, h2]
  exact if_pos rfl

theorem inv_init : Inv {} := ⟨rfl, fun h => absurd rfl h, rfl, trivial⟩

theorem inv_exit {s : State} (h : Inv s) : Inv (s.exit false) := by
  refine ⟨h.second, h.served, ?_, trivial⟩
  change (if s.port = some false then none else s.port) = none
  rw [h.port]
  cases s.first.isUp <;> rfl

theorem inv_step {s : State} (h : Inv s) {e : Ev} (he : e = .start false ∨ e = .step false ∨ e = .kill false) :
    Inv (step s e) := by
  obtain ⟨h2, hs, hp, hk⟩ := h
  rcases he with rfl | rfl | rfl
  · change Inv (if s.first = .down then { s with first := .boot } else s)
    split
    · rename_i hd
      refine ⟨h2, hs, ?_, trivial⟩
      rw [hd] at hp
      exact hp
    · exact ⟨h2, hs, hp, hk⟩
  · change Inv (advance s false)
    have hpc : s.pc false = s.first := rfl
    unfold advance
    rw [hpc]
    cases hf : s.first with
    | down => exact ⟨h2, hs, hp, hk⟩
    | boot =>
      rw [hf] at hp
      dsimp only
      cases hid : s.id with
      | absent =>
        have hn : s.served = [] := by
          by_contra hne
          obtain ⟨i, c, hi, -⟩ := hs hne
          rw [hid] at hi; cases hi
        exact ⟨h2, hs, hp, hn⟩
      | torn => exact inv_exit ⟨h2, hs, by rw [hf]; exact hp, hk⟩
      | whole i => exact ⟨h2, hs, hp, hid⟩
    | noId =>
      rw [hf] at hp hk
      exact ⟨h2, fun hne => absurd hk hne, hp, hk⟩
    | noCrt i =>
      rw [hf] at hp hk
      exact ⟨h2, fun hne => absurd hk.2 hne, hp, hk⟩
    | makeId n =>
      rw [hf] at hp hk
      exact ⟨h2, fun hne => absurd hk hne, hp, rfl⟩
    | certs i =>
      rw [hf] at hp hk
      dsimp only
      cases hpr : pair s with
      | some c => exact ⟨h2, hs, hp, hk, c, pair_some hpr⟩
      | none =>
        have hn : s.served = [] := by
          by_contra hne
          obtain ⟨i, c, -, h3, h4, -⟩ := hs hne
          rw [pair_whole h3 h4] at hpr; cases hpr
        exact ⟨h2, hs, hp, hk, hn⟩
    | makeCrt i m =>
      rw [hf] at hp hk
      exact ⟨h2, fun hne => absurd hk.2 hne, hp, hk.1, rfl, hk.2⟩
    | madeCrt i m =>
      rw [hf] at hp hk
      exact ⟨h2, fun hne => absurd hk.2.2 hne, hp, hk.1, hk.2.1, hk.2.2⟩
    | makeKey i m =>
      rw [hf] at hp hk
      exact ⟨h2, fun hne => absurd hk.2.2 hne, hp, hk.1, m, hk.2.1, rfl⟩
    | clear i =>
      rw [hf] at hp hk
      exact ⟨h2, hs, hp, hk.1, hk.2, rfl⟩
    | cleared i =>
      rw [hf] at hp hk
      dsimp only
      rw [hk.2.2]
      exact ⟨h2, hs, hp, hk.1, hk.2.1, rfl⟩
    | ctl i =>
      rw [hf] at hp hk
      obtain ⟨h1, ⟨c, h3, h4⟩, h5⟩ := hk
      dsimp only
      rw [pair_whole h3 h4]
      exact ⟨h2, hs, hp, h1, h3, h4, h5⟩
    | bind i c =>
      rw [hf] at hp hk
      dsimp only
      rw [hp]
      refine ⟨h2, fun _ => ⟨i, c, hk.1, hk.2.1, hk.2.2.1, fun x hx => ?_⟩, rfl, hk⟩
      rcases List.mem_append.1 hx with hx | hx
      · obtain ⟨i', c', h3, h4, -, h6⟩ := hs (List.ne_nil_of_mem hx)
        have e1 : i = i' := by have := hk.1.symm.trans h3; cases this; rfl
        have e2 : c = c' := by have := hk.2.1.symm.trans h4; cases this; rfl
        rw [e1, e2]
        exact h6 x hx
      · exact List.mem_singleton.1 hx
    | up i c => exact ⟨h2, hs, hp, hk⟩
  · exact inv_exit ⟨h2, hs, hp, hk⟩

theorem inv_exec {evs : List Ev} {s : State} (h : Inv s) (hc : Calm evs) : Inv (exec s evs) := by
  induction evs generalizing s with
  | nil => exact h
  | cons e evs ih =>
    exact ih (inv_step h (hc e List.mem_cons_self)) fun e' he' => hc e' (List.mem_cons_of_mem _ he')

/-- C90, part: as long as one server at a time uses the directory and no read fails, wherever it is killed and however
often it is started, every server that went into service had the same identity and the same certificate. Missing:
reads that fail (`C90_read_violated`) and two servers at a time (`C90_race_violated`). -/
theorem C90_kept_partial {evs : List Ev} (hc : Calm evs) :
    ∀ x ∈ (exec {} evs).served, ∀ y ∈ (exec {} evs).served, x = y := by
  intro x hx y hy
  obtain ⟨i, c, -, -, -, h⟩ := (inv_exec inv_init hc).served (List.ne_nil_of_mem hx)
  rw [h x hx, h y hy]

/-- C90, part: likewise a server in service is the one that zkserverctl gets to. Missing: another server that is
started (`C90_control_violated`). -/
theorem C90_control_partial {evs : List Ev} (hc : Calm evs) (h : (exec {} evs).first.isUp = true) :
    (exec {} evs).reaches false := by
  have hi := inv_exec inv_init hc
  have hk := hi.knows
  refine ⟨?_, ?_⟩
  · cases hf : (exec {} evs).first <;> rw [hf] at h hk <;> first | exact hk.2.2.2 | cases h
  · change (exec {} evs).first ≠ .down
    intro hd
    rw [hd] at h
    cases h

/-- Steps that are left until the process is in service. -/
def Pc.left : Pc → Nat
  | .down => 13 | .boot => 12 | .noId => 11 | .makeId _ => 10 | .certs _ => 9 | .noCrt _ => 8 | .makeCrt _ _ => 7 | .madeCrt _ _ => 6 | .makeKey _ _ => 5
  | .clear _ => 4 | .cleared _ => 3 | .ctl _ => 2 | .bind _ _ => 1 | .up _ _ => 0

theorem left_advance {s : State} (h : Inv s) (ht : s.first = .boot → s.id ≠ .torn) (hd : s.first ≠ .down) :
    (advance s false).first ≠ .down ∧ ((advance s false).first ≠ .boot) ∧
      ((advance s false).first.left < s.first.left ∨ s.first.isUp = true) := by
  obtain ⟨h2, hs, hp, hk⟩ := h
  have hpc : s.pc false = s.first := rfl
  unfold advance
  rw [hpc]
  cases hf : s.first with
  | down => exact absurd hf hd
  | boot =>
    dsimp only
    cases hid : s.id with
    | absent => exact ⟨Pc.noConfusion, Pc.noConfusion, Or.inl (Nat.le_of_ble_eq_true rfl)⟩
    | torn => exact absurd hid (ht hf)
    | whole i => exact ⟨Pc.noConfusion, Pc.noConfusion, Or.inl (Nat.le_of_ble_eq_true rfl)⟩
  | certs i =>
    dsimp only
    cases pair s with
    | some c => exact ⟨Pc.noConfusion, Pc.noConfusion, Or.inl (Nat.le_of_ble_eq_true rfl)⟩
    | none => exact ⟨Pc.noConfusion, Pc.noConfusion, Or.inl (Nat.le_of_ble_eq_true rfl)⟩
  | cleared i =>
    rw [hf] at hk
    dsimp only
    rw [hk.2.2]
    exact ⟨Pc.noConfusion, Pc.noConfusion, Or.inl (Nat.le_of_ble_eq_true rfl)⟩
  | ctl i =>
    rw [hf] at hk
    obtain ⟨h1, ⟨c, h3, h4⟩, h5⟩ := hk
    dsimp only
    rw [pair_whole h3 h4]
    exact ⟨Pc.noConfusion, Pc.noConfusion, Or.inl (Nat.le_of_ble_eq_true rfl)⟩
  | bind i c =>
    rw [hf] at hp
    dsimp only
    rw [hp]
    exact ⟨Pc.noConfusion, Pc.noConfusion, Or.inl (Nat.le_of_ble_eq_true rfl)⟩
  | up i c => rw [hf]; exact ⟨Pc.noConfusion, Pc.noConfusion, Or.inr rfl⟩
  | _ => exact ⟨Pc.noConfusion, Pc.noConfusion, Or.inl (Nat.le_of_ble_eq_true rfl)⟩

theorem comes_up (n : Nat) {s : State} (h : Inv s) (hb : s.first ≠ .boot) (hd : s.first ≠ .down)
    (hn : s.first.left ≤ n) : (exec s (List.replicate n (.step false))).first.isUp = true := by
  induction n generalizing s with
  | zero =>
    change s.first.isUp = true
    cases hf : s.first <;> rw [hf] at hn <;> first | rfl | (exact absurd hn (Nat.not_le_of_gt (Nat.le_of_ble_eq_true rfl)))
  | succ n ih =>
    obtain ⟨h1, h2, h3⟩ := left_advance h (fun e => absurd e hb) hd
    refine ih (s := step s (.step false)) (inv_step h (Or.inr (Or.inl rfl))) h2 h1 ?_
    change (advance s false).first.left ≤ n
    rcases h3 with h3 | h3
    · omega
    · cases hf : s.first <;> rw [hf] at h3 <;> try cases h3
      have : advance s false = s := by
        unfold advance
        rw [show s.pc false = s.first from rfl, hf]
      rw [this, hf]
      exact Nat.zero_le _

/-- C90, part: likewise a server that is started and left alone comes into service, unless an earlier one was killed
within the write of its identity (`C90_torn_violated`). -/
theorem C90_starts_partial {evs : List Ev} (hc : Calm evs) (hd : (exec {} evs).first = .down)
    (ht : (exec {} evs).id ≠ .torn) :
    (exec {} (evs ++ .start false :: List.replicate 12 (.step false))).first.isUp = true := by
  have hi := inv_exec inv_init hc
  unfold exec at *
  rw [List.foldl_append]
  generalize List.foldl step {} evs = s at *
  change (exec (step s (.start false)) (.step false :: List.replicate 11 (.step false))).first.isUp = true
  have hs : step s (.start false) = { s with first := .boot } := if_pos hd
  have hi' := inv_step hi (Or.inl rfl : Ev.start false = .start false ∨ _ ∨ _)
  rw [hs] at hi' ⊢
  obtain ⟨h1, h2, h3⟩ := left_advance hi' (fun _ => ht) Pc.noConfusion
  refine comes_up 11 (s := advance { s with first := .boot } false) (inv_step hi' (Or.inr (Or.inl rfl))) h2 h1 ?_
  rcases h3 with h3 | h3
  · exact Nat.le_of_lt_succ h3
  · cases h3

/-- Start, then let it run. -/
def run (p : Bool) : List Ev := .start p :: List.replicate 12 (.step p)

/-- Three starts: one killed with the certificate but half of the key written, one that serves, and one after a
kill. All is kept. -/
example : (exec {} (.start false :: List.replicate 7 (.step false) ++ .kill false :: run false ++ .kill false ::
    run false)).served = [(0, 2), (0, 2)] := by decide +kernel

/-- C90 fails: a start in which reading the identity fails for a moment replaces the identity that clients know, and
one in which reading the certificate fails replaces the certificate; both for good. -/
theorem C90_read_violated :
    (exec {} (run false ++ [.kill false, .start false, .fail false] ++ List.replicate 12 (.step false))).served =
      [(0, 1), (2, 1)] ∧
    (exec {} (run false ++ [.kill false, .start false, .step false, .fail false] ++
      List.replicate 12 (.step false))).served = [(0, 1), (0, 2)] ∧
    (exec {} (run false ++ [.kill false, .start false, .fail false] ++ List.replicate 12 (.step false) ++
      .kill false :: run false)).served = [(0, 1), (2, 1), (2, 1)] := by
  refine ⟨?_, ?_, ?_⟩ <;> decide +kernel

/-- C90 fails: of two servers started at the same time, one begins to write a certificate while the other, which has
written its own, is about to read it again; that one ends, though nothing failed. -/
theorem C90_cut_violated :
    ∃ evs : List Ev, (∀ e ∈ evs, ∀ p, e ≠ .fail p ∧ e ≠ .kill p) ∧ (∃ i c, (exec {} evs).first = .ctl i ∧
      (exec {} evs).crt = .whole c ∧ (exec {} evs).key = .whole c) ∧
      (exec {} (evs ++ [.step true, .step false])).first = .down := by
  refine ⟨[.start false, .step false, .step false, .step false, .start true, .step true, .step true] ++
    List.replicate 7 (.step false), ?_, ⟨0, 1, by decide +kernel, by decide +kernel, by decide +kernel⟩, by decide +kernel⟩
  intro e he p
  constructor <;> (intro h; subst h; revert he; cases p <;> decide +kernel)

/-- C90 fails: two servers started at the same time in a new directory. The first goes into service with an identity
that the second overwrites; at the next start clients find another one. No read fails here. -/
theorem C90_race_violated :
    ∃ evs : List Ev, (∀ e ∈ evs, ∀ p, e ≠ .fail p) ∧ (exec {} evs).served = [(0, 1), (2, 1)] := by
  refine ⟨[.start false, .start true, .step true] ++ List.replicate 12 (.step false) ++ List.replicate 12 (.step true)
    ++ .kill false :: run false, ?_, ?_⟩
  · intro e he p h
    subst h
    revert he
    cases p <;> decide +kernel
  · decide +kernel

/-- While the identity is torn and no read fails nothing ever comes into service. -/
theorem torn_forever {evs : List Ev} (hf : ∀ e ∈ evs, ∀ p, e ≠ .fail p) {s : State} (ht : s.id = .torn)
    (h1 : s.first = .down ∨ s.first = .boot) (h2 : s.second = .down ∨ s.second = .boot) :
    (exec s evs).id = .torn ∧ (exec s evs).first.isUp = false ∧ (exec s evs).second.isUp = false := by
  induction evs generalizing s with
  | nil =>
    refine ⟨ht, ?_, ?_⟩
    · change s.first.isUp = false
      rcases h1 with h1 | h1 <;> rw [h1] <;> rfl
    · change s.second.isUp = false
      rcases h2 with h2 | h2 <;> rw [h2] <;> rfl
  | cons e evs ih =>
    have hf' : ∀ e ∈ evs, ∀ p, e ≠ .fail p := fun e' he' => hf e' (List.mem_cons_of_mem _ he')
    have key : (step s e).id = .torn ∧ ((step s e).first = .down ∨ (step s e).first = .boot) ∧
        ((step s e).second = .down ∨ (step s e).second = .boot) := by
      cases e with
      | fail p => exact absurd rfl (hf _ List.mem_cons_self p)
      | kill p => cases p <;> simp [step, State.exit, State.put, ht, h1, h2]
      | start p =>
        cases p
        · rcases h1 with h1 | h1 <;> simp [step, State.pc, State.put, ht, h1, h2]
        · rcases h2 with h2 | h2 <;> simp [step, State.pc, State.put, ht, h1, h2]
      | step p =>
        cases p
        · rcases h1 with h1 | h1 <;> simp [step, advance, State.pc, State.put, State.exit, ht, h1, h2]
        · rcases h2 with h2 | h2 <;> simp [step, advance, State.pc, State.put, State.exit, ht, h1, h2]
    exact ih hf' key.1 key.2.1 key.2.2

/-- C90 fails: a server that is killed within its very first second, while it writes its identity, never starts
again: the file is there, so that no identity is made, and cannot be read. -/
theorem C90_torn_violated :
    ∃ evs, Calm evs ∧ (exec {} evs).first = .down ∧
      ∀ evs', (∀ e ∈ evs', ∀ p, e ≠ .fail p) →
        (exec {} (evs ++ evs')).first.isUp = false ∧ (exec {} (evs ++ evs')).second.isUp = false := by
  refine ⟨[.start false, .step false, .step false, .kill false], ?_, by decide +kernel, fun evs' hf => ?_⟩
  · intro e he
    simp at he
    rcases he with rfl | rfl | rfl | rfl <;> simp
  · have := torn_forever hf (s := exec {} [.start false, .step false, .step false, .kill false])
      (by decide +kernel) (by decide +kernel) (by decide +kernel)
    unfold exec at *
    rw [List.foldl_append]
    exact this.2

theorem advance_second (s : State) : (advance s true).first = s.first ∧
    ((advance s true).sock = s.sock ∨ (advance s true).sock = none ∨ (advance s true).sock = some true) := by
  unfold advance
  cases s.pc true <;> dsimp only <;> (try split) <;>
    simp [newId, newCert, State.put, State.exit]

theorem failing_second (s : State) : (failing s true).first = s.first ∧ (failing s true).sock = s.sock := by
  unfold failing
  cases s.pc true <;> simp [State.put, State.exit]

/-- Without its socket a server in service stays without it. -/
theorem deaf_forever {evs : List Ev} (hf : ∀ e ∈ evs, e ≠ .kill false) {s : State} (hu : s.first.isUp = true)
    (hs : s.sock ≠ some false) : (exec s evs).first.isUp = true ∧ ¬ (exec s evs).reaches false := by
  induction evs generalizing s with
  | nil => exact ⟨hu, fun h => hs h.1⟩
  | cons e evs ih =>
    have hup : ∃ i c, s.first = .up i c := by
      cases hfst : s.first <;> rw [hfst] at hu <;> first | exact ⟨_, _, rfl⟩ | cases hu
    obtain ⟨i, c, hup⟩ := hup
    have key : (step s e).first = s.first ∧ (step s e).sock ≠ some false := by
      cases e with
      | start p =>
        cases p
        · change (if s.first = .down then _ else s : State).first = _ ∧ (if s.first = .down then _ else s : State).sock ≠ _
          rw [if_neg (by rw [hup]; exact Pc.noConfusion)]
          exact ⟨rfl, hs⟩
        · change (if s.second = .down then _ else s : State).first = _ ∧ (if s.second = .down then _ else s : State).sock ≠ _
          split
          · exact ⟨rfl, hs⟩
          · exact ⟨rfl, hs⟩
      | step p =>
        cases p
        · have : advance s false = s := by
            unfold advance
            rw [show s.pc false = s.first from rfl, hup]
          change (advance s false).first = _ ∧ (advance s false).sock ≠ _
          rw [this]
          exact ⟨rfl, hs⟩
        · obtain ⟨h1, h2⟩ := advance_second s
          refine ⟨h1, ?_⟩
          change (advance s true).sock ≠ _
          rcases h2 with h2 | h2 | h2 <;> rw [h2]
          · exact hs
          · simp
          · simp
      | fail p =>
        cases p
        · have : failing s false = s := by
            unfold failing
            rw [show s.pc false = s.first from rfl, hup]
          change (failing s false).first = _ ∧ (failing s false).sock ≠ _
          rw [this]
          exact ⟨rfl, hs⟩
        · obtain ⟨h1, h2⟩ := failing_second s
          exact ⟨h1, by change (failing s true).sock ≠ _; rw [h2]; exact hs⟩
      | kill p =>
        cases p
        · exact absurd rfl (hf _ List.mem_cons_self)
        · exact ⟨rfl, hs⟩
    exact ih (fun e' he' => hf e' (List.mem_cons_of_mem _ he')) (by rw [key.1]; exact hu) key.2

/-- C90 fails: to start a server a second time by mistake. It ends at once as the port is taken, but has put its socket
in the place of the other's: whatever happens after, until it is killed itself, the server in service never gets a
command of zkserverctl again. No user can be disabled. -/
theorem C90_control_violated :
    ∃ evs, (exec {} evs).first.isUp = true ∧ (exec {} evs).reaches false ∧
      (exec {} (evs ++ run true)).second = .down ∧
      ∀ evs', (∀ e ∈ evs', e ≠ .kill false) →
        (exec {} (evs ++ run true ++ evs')).first.isUp = true ∧ ¬ (exec {} (evs ++ run true ++ evs')).reaches false := by
  refine ⟨run false, by decide +kernel, by decide +kernel, by decide +kernel, fun evs' hf => ?_⟩
  have := deaf_forever hf (s := exec {} (run false ++ run true)) (by decide +kernel) (by decide +kernel)
  unfold exec at *
  rw [List.foldl_append]
  exact this

end Verif.Startup
