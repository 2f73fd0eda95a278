import Verif.Proofs.Delivery

/-! # C31 to C34: delivery of stored messages -/

namespace Verif.Delivery

open Verif Verif.Stored

/-! ## C31: kept until acknowledged -/

/-- Does the step write or remove the file `n`? -/
def touches (n : Name) : Ev → Bool
  | .commit k _ => k = n
  | .delete k => k = n
  | .torn k _ _ => k = n
  | _ => false

theorem onOnline_store (s : State) (f : Login → Login) : (s.onOnline f).store = s.store := by
  unfold State.onOnline; split <;> rfl

/-- **C31**, without any assumption: a stored file stays, unchanged, until it is deleted or written again. -/
theorem C31_kept {G : State → Ev → Prop} {s s' : State} {es : List Ev} (hr : Run G s es s') (n : Name) (f : Bytes)
    (hn : s.store.get n = some f) (ht : ∀ e ∈ es, touches n e = false) : s'.store.get n = some f := by
  induction hr with
  | nil => exact hn
  | @cons s e s1 es s2 _ hs _ ih =>
    refine ih ?_ (fun x hx => ht x (List.mem_cons_of_mem _ hx))
    have he := ht e List.mem_cons_self
    cases e with
    | begin k m =>
      simp only [step] at hs
      split at hs
      · cases hs
      · simp only [Option.some.injEq] at hs; subst hs; exact hn
    | commit k m =>
      simp only [step] at hs
      split at hs
      · simp only [Option.some.injEq] at hs; subst hs
        rw [onOnline_store]
        show (s.store.set k (marshal m)).get n = some f
        rw [GoMap.get_set_ne _ _ (by simpa [touches] using he)]; exact hn
      · cases hs
    | delete k =>
      simp only [step] at hs
      split at hs
      · simp only [Option.some.injEq] at hs; subst hs
        rw [onOnline_store]
        show (s.store.del k).get n = some f
        rw [GoMap.get_del_ne _ (by simpa [touches] using he)]; exact hn
      · cases hs
    | online =>
      simp only [step] at hs
      split at hs
      · cases hs
      · simp only [Option.some.injEq] at hs; subst hs; exact hn
    | offline =>
      simp only [step, Option.some.injEq] at hs; subst hs
      show (s.onOnline _).store.get n = some f
      rw [onOnline_store]; exact hn
    | restart => simp only [step, Option.some.injEq] at hs; subst hs; exact hn
    | torn k m x =>
      simp only [step] at hs
      split at hs
      · simp only [Option.some.injEq] at hs; subst hs
        show (s.store.set k _).get n = some f
        rw [GoMap.get_set_ne _ _ (by simpa [touches] using he)]; exact hn
      · cases hs
    | go i a =>
      simp only [step] at hs
      split at hs
      · cases hs
      · simp only [Option.map_eq_some_iff] at hs
        obtain ⟨l', _, rfl⟩ := hs
        exact hn

/-- Names are used once; this also holds if the server dies in the middle of a write. -/
structure Names (s : State) : Prop where
  storeUsed : ∀ n, (s.store.get n).isSome → n ∈ s.used
  pendUsed : ∀ x ∈ s.pend, x.1 ∈ s.used
  pendNodup : (s.pend.map Prod.fst).Nodup
  disjoint : ∀ x ∈ s.pend, s.store.get x.1 = none

theorem onOnline_fields (s : State) (f : Login → Login) :
    (s.onOnline f).pend = s.pend ∧ (s.onOnline f).used = s.used ∧ (s.onOnline f).online = s.online := by
  unfold State.onOnline; split <;> exact ⟨rfl, rfl, rfl⟩

theorem Names.step {s s' : State} {e : Ev} (h : Names s) (hf : FreshClock s e) (hs : step s e = some s') :
    Names s' := by
  have same : ∀ x : State, x.store = s.store → x.pend = s.pend → x.used = s.used → Names x := by
    intro x h1 h2 h3
    exact ⟨by rw [h1, h3]; exact h.storeUsed, by rw [h2, h3]; exact h.pendUsed, by rw [h2]; exact h.pendNodup,
      by rw [h1, h2]; exact h.disjoint⟩
  cases e with
  | begin n m =>
    simp only [Delivery.step] at hs
    split at hs
    · cases hs
    · next hn =>
      simp only [Option.some.injEq] at hs; subst hs
      simp only [FreshClock] at hf
      refine ⟨fun k hk => List.mem_cons_of_mem _ (h.storeUsed k hk), ?_, ?_, ?_⟩
      · intro x hx
        rcases List.mem_cons.1 hx with rfl | hx
        · exact List.mem_cons_self
        · exact List.mem_cons_of_mem _ (h.pendUsed x hx)
      · simp only [List.map_cons, List.nodup_cons]
        refine ⟨fun hm => ?_, h.pendNodup⟩
        obtain ⟨x, hx, e⟩ := List.mem_map.1 hm
        exact hf (e ▸ h.pendUsed x hx)
      · intro x hx
        rcases List.mem_cons.1 hx with rfl | hx
        · simpa using hn
        · exact h.disjoint x hx
  | commit n m =>
    simp only [Delivery.step] at hs
    split at hs
    · next hp =>
      simp only [Option.some.injEq] at hs; subst hs
      have hnp : ∀ x ∈ s.pend.erase (n, m), x.1 ≠ n := by
        intro x hx e
        have hx2 : x ∈ s.pend := List.mem_of_mem_erase hx
        have hxe : x = (n, m) := List.inj_on_of_nodup_map h.pendNodup hx2 hp e
        have hnd : s.pend.Nodup := List.Nodup.of_map _ h.pendNodup
        rw [hxe] at hx
        exact (hnd.mem_erase_iff.1 hx).1 rfl
      have key : Names { s with
          store := s.store.set n (marshal m), pend := s.pend.erase (n, m), delivered := (n, m) :: s.delivered } := by
        refine ⟨fun k hk => ?_, fun x hx => h.pendUsed x (List.mem_of_mem_erase hx),
          h.pendNodup.sublist (List.Sublist.map _ List.erase_sublist), fun x hx => ?_⟩
        · by_cases hkn : n = k
          · subst hkn; exact h.pendUsed _ hp
          · simp only [GoMap.get_set_ne _ _ hkn] at hk; exact h.storeUsed k hk
        · simp only [GoMap.get_set_ne _ _ (Ne.symm (hnp x hx))]
          exact h.disjoint x (List.mem_of_mem_erase hx)
      unfold State.onOnline
      split
      · exact key
      · exact ⟨key.1, key.2, key.3, key.4⟩
    · cases hs
  | delete n =>
    simp only [Delivery.step] at hs
    split at hs
    · simp only [Option.some.injEq] at hs; subst hs
      have key : Names { s with store := s.store.del n } := by
        refine ⟨fun k hk => ?_, h.pendUsed, h.pendNodup, fun x hx => ?_⟩
        · simp only [GoMap.get_del] at hk
          split at hk
          · cases hk
          · exact h.storeUsed k hk
        · simp only [GoMap.get_del]
          split
          · rfl
          · exact h.disjoint x hx
      unfold State.onOnline
      split
      · exact key
      · exact ⟨key.1, key.2, key.3, key.4⟩
    · cases hs
  | online =>
    simp only [Delivery.step] at hs
    split at hs
    · cases hs
    · simp only [Option.some.injEq] at hs; subst hs; exact same _ rfl rfl rfl
  | offline =>
    simp only [Delivery.step, Option.some.injEq] at hs; subst hs
    exact same _ (onOnline_store _ _) (onOnline_fields _ _).1 (onOnline_fields _ _).2.1
  | restart =>
    simp only [Delivery.step, Option.some.injEq] at hs; subst hs
    exact ⟨h.storeUsed, by simp, by simp, by simp⟩
  | torn n m k =>
    simp only [Delivery.step] at hs
    split at hs
    · next hp =>
      simp only [Option.some.injEq] at hs; subst hs
      refine ⟨fun j hj => ?_, by simp, by simp, by simp⟩
      by_cases hjn : n = j
      · subst hjn; exact h.pendUsed _ hp
      · simp only [GoMap.get_set_ne _ _ hjn] at hj; exact h.storeUsed j hj
    · cases hs
  | go i a =>
    simp only [Delivery.step] at hs
    split at hs
    · cases hs
    · simp only [Option.map_eq_some_iff] at hs
      obtain ⟨l', _, rfl⟩ := hs
      exact same _ rfl rfl rfl

theorem Names.run {G : State → Ev → Prop} (hG : ∀ s e, G s e → FreshClock s e) {s s' : State} {es : List Ev}
    (h : Names s) (hr : Run G s es s') : Names s' := by
  induction hr with
  | nil => exact h
  | cons hg hs _ ih => exact ih (h.step (hG _ _ hg) hs)

theorem names_init : Names init := ⟨by simp [init], by simp [init], by simp [init], by simp [init]⟩

/-- The file of a name that is not deleted does not change once it exists. -/
theorem kept_step {s s' : State} {e : Ev} (h : Names s) (hs : step s e = some s') (n : Name) (f : Bytes)
    (hn : s.store.get n = some f) (hd : e ≠ .delete n) : touches n e = false := by
  cases e with
  | commit k m =>
    simp only [step] at hs
    split at hs
    · next hp =>
      have := h.disjoint _ hp
      simp only [touches, decide_eq_false_iff_not]
      rintro rfl
      rw [hn] at this; cases this
    · cases hs
  | torn k m x =>
    simp only [step] at hs
    split at hs
    · next hp =>
      have := h.disjoint _ hp
      simp only [touches, decide_eq_false_iff_not]
      rintro rfl
      rw [hn] at this; cases this
    · cases hs
  | delete k =>
    simp only [touches, decide_eq_false_iff_not]
    rintro rfl
    exact hd rfl
  | _ => rfl

/-- The full claim. -/
def C31_full : Prop :=
  ∀ (s s1 s2 : State) (n : Name) (m : DiskMessage) (es : List Ev), Reach (fun _ _ => True) s →
    step s (.commit n m) = some s1 → Run (fun _ _ => True) s1 es s2 → .delete n ∉ es →
    s2.store.get n = some (marshal m)

/-- **C31** (partial): once `Deliver` has succeeded, the message stays stored, unchanged, through any
deliveries, deletions of other messages, logins, logouts, restarts and crashes of the server in the middle
of other deliveries, until it is deleted, provided no two calls of `Deliver` read the same time from the
clock. Missing for the full claim: calls of `Deliver` in the same nanosecond. -/
theorem C31_kept_partial (s s1 s2 : State) (n : Name) (m : DiskMessage) (es : List Ev) (hr : Reach FreshClock s)
    (hc : step s (.commit n m) = some s1) (hr2 : Run FreshClock s1 es s2) (hd : .delete n ∉ es) :
    s2.store.get n = some (marshal m) := by
  obtain ⟨es0, hr0⟩ := hr
  have hN : Names s := names_init.run (fun _ _ h => h) hr0
  have hN1 : Names s1 := hN.step (by simp [FreshClock]) hc
  have h1 : s1.store.get n = some (marshal m) := by
    simp only [step] at hc
    split at hc
    · simp only [Option.some.injEq] at hc; subst hc
      rw [onOnline_store]; exact GoMap.get_set_self _ _ _
    · cases hc
  refine C31_kept hr2 n _ h1 ?_
  clear hc hr0 hN
  induction hr2 with
  | nil => simp
  | @cons s e s' es s'' hg hs hr' ih =>
    have ht := kept_step hN1 hs n _ h1 (fun e' => hd (by simp [e']))
    intro x hx
    rcases List.mem_cons.1 hx with rfl | hx
    · exact ht
    · refine ih (fun hm => hd (List.mem_cons_of_mem _ hm)) (hN1.step hg hs) ?_ x hx
      exact C31_kept (Run.cons (G := FreshClock) hg hs (Run.nil _)) n _ h1 (by simpa using ht)

/-- Messages for examples. -/
def msgA : DiskMessage := ⟨List.replicate 32 1, 10, [65], false⟩
/-- Another one. -/
def msgB : DiskMessage := ⟨List.replicate 32 2, 11, [66], true⟩

theorem msgA_sized : msgA.Sized := by unfold DiskMessage.Sized; decide
theorem msgB_sized : msgB.Sized := by unfold DiskMessage.Sized; decide

/-- Run some events. -/
def exec (s : State) : List Ev → Option State
  | [] => some s
  | e :: es => (step s e).bind fun s' => exec s' es

theorem run_of_exec {G : State → Ev → Prop} {s s' : State} {es : List Ev} (h : exec s es = some s')
    (hG : ∀ s e, e ∈ es → G s e) : Run G s es s' := by
  induction es generalizing s with
  | nil => simp only [exec, Option.some.injEq] at h; subst h; exact Run.nil _
  | cons e es ih =>
    simp only [exec, Option.bind_eq_some_iff] at h
    obtain ⟨s1, h1, h2⟩ := h
    exact Run.cons (hG _ _ List.mem_cons_self) h1 (ih h2 fun s x hx => hG s x (List.mem_cons_of_mem _ hx))

/-- **C31 is violated**: two calls of `Deliver` in the same nanosecond both pass the check of the file name
before either writes; both succeed and the first message is lost. -/
theorem C31_same_time_violated : ¬ C31_full := by
  intro h
  have e1 : exec init [.begin 1 msgA, .begin 1 msgB] =
      some { init with pend := [(1, msgB), (1, msgA)], used := [1, 1] } := rfl
  have h1 := run_of_exec (G := fun _ _ => True) e1 (by simp)
  have h2 := h _ _ _ 1 msgA [.commit 1 msgB] ⟨_, h1⟩ rfl (Run.cons trivial rfl (Run.nil _)) (by simp)
  revert h2
  decide

instance (s : State) (e : Ev) : Decidable (FreshClock s e) := by cases e <;> unfold FreshClock <;> infer_instance
instance (e : Ev) : Decidable (NotTorn e) := by cases e <;> unfold NotTorn <;> infer_instance
instance (m : DiskMessage) : Decidable m.Sized := by unfold DiskMessage.Sized; infer_instance
instance (e : Ev) : Decidable (SizedMsg e) := by cases e <;> unfold SizedMsg <;> infer_instance
instance (s : State) (e : Ev) : Decidable (Good s e) := by unfold Good; infer_instance

/-- Run some events, checking each. -/
def execG (G : State → Ev → Prop) [∀ s e, Decidable (G s e)] (s : State) : List Ev → Option State
  | [] => some s
  | e :: es => if G s e then (step s e).bind fun s' => execG G s' es else none

theorem run_of_execG {G : State → Ev → Prop} [∀ s e, Decidable (G s e)] {s s' : State} {es : List Ev}
    (h : execG G s es = some s') : Run G s es s' := by
  induction es generalizing s with
  | nil => simp only [execG, Option.some.injEq] at h; subst h; exact Run.nil _
  | cons e es ih =>
    simp only [execG] at h
    split at h
    · next hg =>
      simp only [Option.bind_eq_some_iff] at h
      obtain ⟨s1, h1, h2⟩ := h
      exact Run.cons hg h1 (ih h2)
    · cases h

/-- One message delivered, kept through a logout, a login, another delivery, an acknowledgement of that
and a restart. -/
example : ∃ s s1 s2, Reach FreshClock s ∧ step s (.commit 1 msgA) = some s1 ∧
    Run FreshClock s1 [.online, .begin 2 msgB, .commit 2 msgB, .delete 2, .offline, .restart] s2 ∧
    s2.store.get 1 = some (marshal msgA) := by
  refine ⟨{ init with pend := [(1, msgA)], used := [1] },
    ⟨[(1, marshal msgA)], [], [], none, [1], [(1, msgA)]⟩,
    ⟨[(1, marshal msgA)], [], [], none, [2, 1], [(2, msgB), (1, msgA)]⟩,
    ⟨[.begin 1 msgA], run_of_execG (by decide)⟩, by decide, run_of_execG (by decide), rfl⟩

/-! ## C32: announced once, with the right contents, in order -/

/-- **C32** (partial): during one login no message is announced twice. Assumes that no two calls of `Deliver`
read the same time, that the server does not die in the middle of a write, and messages shorter than the
limit of the encoding. -/
theorem C32_once_partial (s : State) (hr : Reach Good s) (l : Login) (hl : l ∈ s.logins) (a b c : List Entry)
    (n : Name) (m m' : DiskMessage) : l.log ≠ a ++ .ann (.msg n m) :: (b ++ .ann (.msg n m') :: c) := by
  intro e
  have := ((inv_reach (fun _ _ h => h) hr).logins l hl).once
  rw [e, msgNames_append, List.nodup_append] at this
  have h2 := this.2.1
  have e2 : msgNames (.ann (.msg n m) :: (b ++ .ann (.msg n m') :: c)) =
      n :: (msgNames b ++ n :: msgNames c) := by
    simp [msgNames]
  rw [e2] at h2
  simp at h2

/-- **C32**: there is at most one login at a time: every goroutine except that of the login that is online has been
told to quit. -/
theorem C32_one_login {G : State → Ev → Prop} (s : State) (hr : Reach G s) (i : Nat) (l : Login)
    (hl : s.logins[i]? = some l) (hq : l.quit = false) : s.online = some i := by
  obtain ⟨es, hr⟩ := hr
  have key : ∀ {s s' : State} {e : Ev}, step s e = some s' →
      (∀ (i : Nat) (l : Login), s.logins[i]? = some l → l.quit = false → s.online = some i) →
      (∀ (i : Nat) (l : Login), s'.logins[i]? = some l → l.quit = false → s'.online = some i) := by
    intro s s' e hs ih
    have onl : ∀ (t : State) (f : Login → Login), (∀ l, (f l).quit = l.quit) → t.logins = s.logins →
        t.online = s.online → ∀ (i : Nat) (l : Login), (t.onOnline f).logins[i]? = some l → l.quit = false →
        (t.onOnline f).online = some i := by
      intro t f hf h1 h2 i l hl hq
      have ho : (t.onOnline f).online = s.online := by unfold State.onOnline; split <;> simp [h2]
      rw [ho]
      unfold State.onOnline at hl
      split at hl
      · rw [h1] at hl; exact ih i l hl hq
      · next j hj =>
        simp only [h1, List.getElem?_modify, Option.map_eq_map, Option.map_eq_some_iff] at hl
        obtain ⟨l0, hl0, hl⟩ := hl
        refine ih i l0 hl0 ?_
        split at hl
        · subst hl; rw [hf] at hq; exact hq
        · subst hl; exact hq
    cases e with
    | begin n m =>
      simp only [step] at hs
      split at hs
      · cases hs
      · cases hs; exact ih
    | commit n m =>
      simp only [step] at hs
      split at hs
      · cases hs; exact onl _ _ (fun _ => rfl) rfl rfl
      · cases hs
    | delete n =>
      simp only [step] at hs
      split at hs
      · cases hs; exact onl _ _ (fun _ => rfl) rfl rfl
      · cases hs
    | online =>
      simp only [step] at hs
      split at hs
      · cases hs
      · next hn =>
        cases hs
        intro i l hl hq
        simp only [List.getElem?_append] at hl
        split at hl
        · have := ih i l hl hq
          rw [this] at hn; simp at hn
        · next hlt =>
          rw [List.getElem?_singleton] at hl
          split at hl
          · next h0 =>
            have : i = s.logins.length := by omega
            rw [this]
          · cases hl
    | offline =>
      simp only [step] at hs
      cases hs
      intro i l hl hq
      exfalso
      unfold State.onOnline at hl
      split at hl
      · next hn => have := ih i l hl hq; rw [hn] at this; cases this
      · next j hj =>
        simp only [List.getElem?_modify, Option.map_eq_map, Option.map_eq_some_iff] at hl
        obtain ⟨l0, hl0, hl⟩ := hl
        split at hl
        · subst hl; simp at hq
        · next hne =>
          subst hl
          have := ih i _ hl0 hq
          rw [hj] at this
          exact hne (Option.some.inj this)
    | restart => simp only [step] at hs; cases hs; intro i l hl; simp at hl
    | torn n m k =>
      simp only [step] at hs
      split at hs
      · cases hs; intro i l hl; simp at hl
      · cases hs
    | go j a =>
      simp only [step] at hs
      split at hs
      · cases hs
      · next l0 hl0 =>
        simp only [Option.map_eq_some_iff] at hs
        obtain ⟨l1, h1, rfl⟩ := hs
        intro i l hl hq
        have hquit : l1.quit = l0.quit := by
          cases a <;> simp only [stepLogin] at h1
          all_goals (repeat' split at h1) <;> first | cases h1; rfl | cases h1
        by_cases hij : j = i
        · subst hij
          simp only [List.getElem?_set_self (List.getElem?_eq_some_iff.1 hl0).1, Option.some.injEq] at hl
          subst hl
          exact ih j l0 hl0 (hquit ▸ hq)
        · simp only [List.getElem?_set_ne hij] at hl
          exact ih i l hl hq
  have : ∀ {s s' : State} {es : List Ev}, Run G s es s' →
      (∀ (i : Nat) (l : Login), s.logins[i]? = some l → l.quit = false → s.online = some i) →
      (∀ (i : Nat) (l : Login), s'.logins[i]? = some l → l.quit = false → s'.online = some i) := by
    intro s s' es h
    induction h with
    | nil => exact id
    | cons _ hs _ ih2 => exact fun h => ih2 (key hs h)
  exact this hr (by intro i l hl; simp [init] at hl) i l hl hq

/-- **C32** (partial): any two announcements about the same file, errors included, have an acknowledgement of
that file between them. -/
theorem C32_between_partial (s : State) (hr : Reach Good s) (l : Login) (hl : l ∈ s.logins) (a b c : List Entry)
    (x y : Note) (e : l.log = a ++ .ann x :: (b ++ .ann y :: c)) (hxy : x.name = y.name) : .del x.name ∈ b :=
  ((inv_reach (fun _ _ h => h) hr).logins l hl).sep a x b y c e hxy

/-- **C32** (partial): every message announced is one that was delivered, under its own name, with sender,
time, payload and flag unchanged. -/
theorem C32_contents_partial (s : State) (hr : Reach Good s) (l : Login) (hl : l ∈ s.logins) (n : Name)
    (m : DiskMessage) (h : .ann (.msg n m) ∈ l.log) : (n, m) ∈ s.delivered :=
  ((inv_reach (fun _ _ h => h) hr).logins l hl).contents n m h

/-- `delivered` records exactly the successful calls of `Deliver`. -/
theorem delivered_iff {G : State → Ev → Prop} {s s' : State} {es : List Ev} (hr : Run G s es s')
    (n : Name) (m : DiskMessage) : (n, m) ∈ s'.delivered ↔ (n, m) ∈ s.delivered ∨ .commit n m ∈ es := by
  have hon : ∀ (s : State) f, (s.onOnline f).delivered = s.delivered := by
    intro s f; unfold State.onOnline; split <;> rfl
  induction hr with
  | nil => simp
  | @cons s e s1 es s2 _ hs _ ih =>
    refine ih.trans ?_
    have key : (n, m) ∈ s1.delivered ↔ (n, m) ∈ s.delivered ∨ .commit n m = e := by
      cases e with
      | commit k x =>
        simp only [step] at hs
        split at hs
        · simp only [Option.some.injEq] at hs; subst hs
          rw [hon]
          simp only [List.mem_cons, Prod.mk.injEq, Ev.commit.injEq]
          exact or_comm
        · cases hs
      | begin k x =>
        simp only [step] at hs
        split at hs
        · cases hs
        · simp only [Option.some.injEq] at hs; subst hs; simp
      | delete k =>
        simp only [step] at hs
        split at hs
        · simp only [Option.some.injEq] at hs; subst hs; rw [hon]; simp
        · cases hs
      | online =>
        simp only [step] at hs
        split at hs
        · cases hs
        · simp only [Option.some.injEq] at hs; subst hs; simp
      | offline =>
        simp only [step, Option.some.injEq] at hs; subst hs
        simp [hon]
      | restart => simp only [step, Option.some.injEq] at hs; subst hs; simp
      | torn k x j =>
        simp only [step] at hs
        split at hs
        · simp only [Option.some.injEq] at hs; subst hs; simp
        · cases hs
      | go i a =>
        simp only [step] at hs
        split at hs
        · cases hs
        · simp only [Option.map_eq_some_iff] at hs
          obtain ⟨l', _, rfl⟩ := hs
          simp
    rw [key, List.mem_cons, or_assoc]

/-- The names of the files of all announcements, in order. -/
def annNames (log : List Entry) : List Name :=
  log.filterMap fun
    | .ann x => some x.name
    | _ => none

/-- Steps that neither start a new scan of login `i` nor forget the logins. -/
def SameScan (i : Nat) : Ev → Prop
  | .go j .list => j ≠ i
  | .restart => False
  | .torn _ _ _ => False
  | _ => True

theorem readNote_name (store : GoMap Name Bytes) (n : Name) : (readNote store n).name = n := by
  unfold readNote
  split
  · rfl
  · split <;> rfl

theorem scan_login {store : GoMap Name Bytes} {l l' : Login} {a : Act} (ha : a ≠ .list)
    (hs : stepLogin store l a = some l') :
    ∃ new, annNames l'.log = annNames l.log ++ new ∧ (new ++ todo l').Sublist (todo l) := by
  cases a <;> simp only [stepLogin] at hs
  case start =>
    split at hs
    · simp only [Option.some.injEq] at hs; subst hs
      exact ⟨[], by simp, by simp [todo]⟩
    · cases hs
  case take =>
    split at hs
    · simp only [Option.some.injEq] at hs; subst hs
      exact ⟨[], by simp, by simp [todo]⟩
    · cases hs
  case leave =>
    split at hs
    · simp only [Option.some.injEq] at hs; subst hs
      exact ⟨[], by simp, by simp [todo]⟩
    · cases hs
  case list => exact absurd rfl ha
  case check =>
    split at hs
    · simp only [Option.some.injEq] at hs; subst hs
      exact ⟨[], by simp, by simp [todo]⟩
    · next n rest hc =>
      split at hs
      · simp only [Option.some.injEq] at hs; subst hs
        exact ⟨[], by simp, by simp [todo, hc]⟩
      · simp only [Option.some.injEq] at hs; subst hs
        exact ⟨[], by simp, by simp [todo, hc]⟩
    · cases hs
  case open_ =>
    split at hs
    · next n rest hc =>
      simp only [Option.some.injEq] at hs; subst hs
      exact ⟨[], by simp, by simp [todo, hc, readNote_name]⟩
    · cases hs
  case send =>
    split at hs
    · next note rest hc =>
      simp only [Option.some.injEq] at hs; subst hs
      exact ⟨[note.name], by simp [annNames], by simp [todo, hc]⟩
    · cases hs
  case drop =>
    split at hs
    · next note rest hc =>
      split at hs
      · simp only [Option.some.injEq] at hs; subst hs
        exact ⟨[], by simp, by simp [todo, hc]⟩
      · cases hs
    · cases hs

theorem onOnline_get (s : State) (f : Login → Login) (i : Nat) (l : Login) (hl : s.logins[i]? = some l) :
    (s.onOnline f).logins[i]? = some l ∨ (s.onOnline f).logins[i]? = some (f l) := by
  unfold State.onOnline
  split
  · exact Or.inl hl
  · next j hj =>
    simp only [List.getElem?_modify, hl]
    by_cases h : j = i
    · right; simp [h]
    · left; simp [h]

theorem onOnline_cases (s : State) (f : Login → Login) (i : Nat) (l : Login) (hl : s.logins[i]? = some l) (l' : Login)
    (h : (s.onOnline f).logins[i]? = some l') : l' = l ∨ l' = f l := by
  rcases onOnline_get s f i l hl with h' | h' <;> rw [h'] at h <;> simp_all

theorem scan_step {s s' : State} {e : Ev} {i : Nat} {l : Login} (hl : s.logins[i]? = some l)
    (he : SameScan i e) (hs : step s e = some s') : ∃ l', s'.logins[i]? = some l' ∧
      ∃ new, annNames l'.log = annNames l.log ++ new ∧ (new ++ todo l').Sublist (todo l) := by
  have same : ∀ x : State, x.logins[i]? = some l → ∃ l', x.logins[i]? = some l' ∧
      ∃ new, annNames l'.log = annNames l.log ++ new ∧ (new ++ todo l').Sublist (todo l) :=
    fun x hx => ⟨l, hx, [], by simp, by simp⟩
  have quiet : ∀ (x : State) (f : Login → Login), x.logins[i]? = some l →
      (∀ l, annNames (f l).log = annNames l.log ∧ todo (f l) = todo l) →
      ∃ l', (x.onOnline f).logins[i]? = some l' ∧
        ∃ new, annNames l'.log = annNames l.log ++ new ∧ (new ++ todo l').Sublist (todo l) := by
    intro x f hx hf
    rcases onOnline_get x f i l hx with h | h
    · exact ⟨_, h, [], by simp, by simp⟩
    · exact ⟨_, h, [], by simp [(hf l).1], by simp [(hf l).2]⟩
  cases e with
  | begin n m =>
    simp only [step] at hs
    split at hs
    · cases hs
    · simp only [Option.some.injEq] at hs; subst hs; exact same _ hl
  | commit n m =>
    simp only [step] at hs
    split at hs
    · simp only [Option.some.injEq] at hs; subst hs
      exact quiet _ _ hl (fun l => ⟨rfl, rfl⟩)
    · cases hs
  | delete n =>
    simp only [step] at hs
    split at hs
    · simp only [Option.some.injEq] at hs; subst hs
      exact quiet _ _ hl (fun l => ⟨by simp [annNames], rfl⟩)
    · cases hs
  | online =>
    simp only [step] at hs
    split at hs
    · cases hs
    · simp only [Option.some.injEq] at hs; subst hs
      refine same _ ?_
      have : i < s.logins.length := (List.getElem?_eq_some_iff.1 hl).1
      simp only [List.getElem?_append_left this, hl]
  | offline =>
    simp only [step, Option.some.injEq] at hs; subst hs
    exact quiet _ _ hl (fun l => ⟨rfl, rfl⟩)
  | restart => exact absurd he (by simp [SameScan])
  | torn n m k => exact absurd he (by simp [SameScan])
  | go j a =>
    simp only [step] at hs
    split at hs
    · cases hs
    · next x hx =>
      simp only [Option.map_eq_some_iff] at hs
      obtain ⟨x', h1, rfl⟩ := hs
      by_cases hij : j = i
      · subst hij
        rw [hl] at hx
        obtain rfl := Option.some.inj hx
        have hlt : j < s.logins.length := (List.getElem?_eq_some_iff.1 hl).1
        refine ⟨x', by simp [hlt], scan_login ?_ h1⟩
        rintro rfl
        exact he rfl
      · exact same _ (by simp [List.getElem?_set_ne hij, hl])

theorem scan_run {G : State → Ev → Prop} {s s' : State} {es : List Ev} {i : Nat} (hr : Run G s es s')
    (he : ∀ e ∈ es, SameScan i e) : ∀ l, s.logins[i]? = some l → ∃ l', s'.logins[i]? = some l' ∧
      ∃ new, annNames l'.log = annNames l.log ++ new ∧ (new ++ todo l').Sublist (todo l) := by
  induction hr with
  | nil => exact fun l hl => ⟨l, hl, [], by simp, by simp⟩
  | cons _ hs _ ih =>
    intro l hl
    obtain ⟨l1, h1, n1, e1, s1⟩ := scan_step hl (he _ List.mem_cons_self) hs
    obtain ⟨l2, h2, n2, e2, s2⟩ := ih (fun x hx => he x (List.mem_cons_of_mem _ hx)) l1 h1
    refine ⟨l2, h2, n1 ++ n2, by rw [e2, e1, List.append_assoc], ?_⟩
    rw [List.append_assoc]
    exact (s2.append_left n1).trans s1

/-- **C32**: from one listing of the directory to the next, files are announced in strictly ascending order
of their names, which is the order in which the messages came in, and only files of that listing. -/
theorem C32_order {G : State → Ev → Prop} (s s1 s2 : State) (i : Nat) (l1 : Login) (es : List Ev)
    (hw : s.store.WF) (hlist : step s (.go i .list) = some s1) (hl1 : s1.logins[i]? = some l1)
    (hr : Run G s1 es s2) (he : ∀ e ∈ es, SameScan i e) : ∃ l2 new, s2.logins[i]? = some l2 ∧
      annNames l2.log = annNames l1.log ++ new ∧ new.Pairwise (· < ·) ∧ ∀ n ∈ new, (s.store.get n).isSome := by
  obtain ⟨l2, h2, new, e2, hsub⟩ := scan_run hr he l1 hl1
  have ht : todo l1 = listing s.store := by
    simp only [step] at hlist
    split at hlist
    · cases hlist
    · next l hl =>
      simp only [Option.map_eq_some_iff] at hlist
      obtain ⟨l', h1, rfl⟩ := hlist
      have hlt : i < s.logins.length := (List.getElem?_eq_some_iff.1 hl).1
      simp only [List.getElem?_set_self hlt, Option.some.injEq] at hl1
      subst hl1
      simp only [stepLogin] at h1
      split at h1
      · simp only [Option.some.injEq] at h1; subst h1; rfl
      · cases h1
  have hsort : (listing s.store).Pairwise (· < ·) := by
    have h1 : (listing s.store).Pairwise (· ≤ ·) := List.pairwise_insertionSort _ _
    have h2 : (listing s.store).Pairwise (· ≠ ·) := (listing_perm s.store).nodup_iff.2 hw
    exact (h1.and h2).imp (fun h => Nat.lt_of_le_of_ne h.1 h.2)
  have hsub' : new.Sublist (listing s.store) := by
    rw [← ht]; exact (List.sublist_append_left new (todo l2)).trans hsub
  exact ⟨l2, new, h2, e2, hsort.sublist hsub', fun n hn => mem_listing.1 (hsub'.subset hn)⟩

/-- The hypothesis of `C32_order` on the directory holds always. -/
theorem store_wf {G : State → Ev → Prop} {s s' : State} {es : List Ev} (hr : Run G s es s') (hw : s.store.WF) :
    s'.store.WF := by
  induction hr with
  | nil => exact hw
  | @cons s e s1 es s2 _ hs _ ih =>
    refine ih ?_
    cases e with
    | begin n m =>
      simp only [step] at hs
      split at hs
      · cases hs
      · simp only [Option.some.injEq] at hs; subst hs; exact hw
    | commit n m =>
      simp only [step] at hs
      split at hs
      · simp only [Option.some.injEq] at hs; subst hs
        rw [onOnline_store]; exact GoMap.wf_set hw _ _
      · cases hs
    | delete n =>
      simp only [step] at hs
      split at hs
      · simp only [Option.some.injEq] at hs; subst hs
        rw [onOnline_store]; exact GoMap.wf_del hw _
      · cases hs
    | online =>
      simp only [step] at hs
      split at hs
      · cases hs
      · simp only [Option.some.injEq] at hs; subst hs; exact hw
    | offline =>
      simp only [step, Option.some.injEq] at hs; subst hs
      show (s.onOnline _).store.WF
      rw [onOnline_store]; exact hw
    | restart => simp only [step, Option.some.injEq] at hs; subst hs; exact hw
    | torn n m k =>
      simp only [step] at hs
      split at hs
      · simp only [Option.some.injEq] at hs; subst hs; exact GoMap.wf_set hw _ _
      · cases hs
    | go i a =>
      simp only [step] at hs
      split at hs
      · cases hs
      · simp only [Option.map_eq_some_iff] at hs
        obtain ⟨l', _, rfl⟩ := hs
        exact hw

/-! ## C33: nothing forgotten while online -/

/-- **C33** (partial): when the goroutine of the login that is online waits for work and none is signalled,
every stored message has been announced to that login, with its contents. Same assumptions as C32. -/
theorem C33_idle_partial (s : State) (hr : Reach Good s) (i : Nat) (l : Login) (ho : s.online = some i)
    (hl : s.logins[i]? = some l) (hi : l.pc = .idle) (hw : l.work = false) (n : Name) (f : Bytes)
    (hn : s.store.get n = some f) : ∃ m, f = marshal m ∧ .ann (.msg n m) ∈ l.log := by
  have h := inv_reach (fun _ _ h => h) hr
  obtain ⟨l', hl', hO⟩ := h.online i ho
  rw [hl] at hl'
  obtain rfl := Option.some.inj hl'
  have hL := h.logins l (List.mem_of_getElem? hl)
  have hs : n ∈ since l.log := by
    rcases hO.all n (by rw [Stored, hn]; rfl) with h1 | h1 | h1 | h1 | h1
    · exact h1
    · rw [hw] at h1; cases h1
    · rw [hi] at h1; cases h1
    · rw [hi] at h1; cases h1
    · simp [todo, hi] at h1
  obtain ⟨a, note, b, e, hname, _⟩ := mem_since.1 hs
  have hmem : .ann note ∈ l.log := by rw [e]; simp
  obtain ⟨m, hg, _, hf⟩ := h.contents n f hn
  cases note with
  | msg k m' =>
    obtain rfl : k = n := hname
    refine ⟨m, hf, ?_⟩
    rw [h.uniq k m m' hg (hL.contents k m' hmem)]
    exact hmem
  | missing k =>
    obtain rfl : k = n := hname
    have := (hL.missing k hmem).2.1
    rw [hn] at this; cases this
  | bad k => exact absurd hmem (hL.good k)

/-- **C33**: a delivery while the user is online leaves work signalled, so that the goroutine, wherever it
is, will list the directory again. -/
theorem C33_signal (s s1 : State) (n : Name) (m : DiskMessage) (i : Nat) (l : Login) (ho : s.online = some i)
    (hl : s.logins[i]? = some l) (hs : step s (.commit n m) = some s1) :
    s1.logins[i]? = some { l with work := true } := by
  simp only [step] at hs
  split at hs
  · simp only [Option.some.injEq] at hs; subst hs
    simp [State.onOnline, ho, hl]
  · cases hs

/-- How far the goroutine is from waiting for work. -/
def distance (files : Nat) (l : Login) : Nat :=
  (if l.work then 3 * files + 3 else 0) +
    match l.pc with
    | .start => 3 * files + 4
    | .idle => 0
    | .scan => 3 * files + 2
    | .loop rest => 3 * rest.length + 1
    | .opening _ rest => 3 * rest.length + 3
    | .sending _ rest => 3 * rest.length + 2
    | .done => 0

theorem distance_step {store : GoMap Name Bytes} {l l' : Login} {a : Act} (hq : l.quit = false)
    (hs : stepLogin store l a = some l') : distance store.length l' < distance store.length l ∧ l'.quit = false := by
  have hlen : (listing store).length = store.length := by
    rw [(listing_perm store).length_eq]; simp [GoMap.keys]
  cases a <;> simp only [stepLogin] at hs
  case start =>
    split at hs
    · next h => simp only [Option.some.injEq] at hs; subst hs; simp [distance, h.1, h.2, hq]
    · cases hs
  case take =>
    split at hs
    · next h => simp only [Option.some.injEq] at hs; subst hs; simp [distance, h.1, h.2, hq]
    · cases hs
  case leave =>
    split at hs
    · next h => rw [hq] at h; cases h.2
    · cases hs
  case list =>
    split at hs
    · next h => simp only [Option.some.injEq] at hs; subst hs; simp [distance, h, hq, hlen]
    · cases hs
  case check =>
    split at hs
    · next h => simp only [Option.some.injEq] at hs; subst hs; simp [distance, h, hq]
    · next n rest h =>
      split at hs
      · simp only [Option.some.injEq] at hs; subst hs
        refine ⟨?_, hq⟩
        simp only [distance, h, List.length_cons]; omega
      · simp only [Option.some.injEq] at hs; subst hs
        refine ⟨?_, hq⟩
        simp only [distance, h, List.length_cons]; omega
    · cases hs
  case open_ =>
    split at hs
    · next h => simp only [Option.some.injEq] at hs; subst hs; simp [distance, h, hq]
    · cases hs
  case send =>
    split at hs
    · next h => simp only [Option.some.injEq] at hs; subst hs; simp [distance, h, hq]
    · cases hs
  case drop =>
    split at hs
    · split at hs
      · next h => rw [hq] at h; cases h
      · cases hs
    · cases hs

/-- The goroutine of a login alone, with nothing else happening. -/
inductive Alone (store : GoMap Name Bytes) : Login → List Act → Login → Prop
  | nil (l) : Alone store l [] l
  | cons {l a l' as l''} : stepLogin store l a = some l' → Alone store l' as l'' → Alone store l (a :: as) l''

/-- **C33**: left alone, and with the session reading its notifications, the goroutine comes to a halt
after a bounded number of steps. -/
theorem C33_bounded {store : GoMap Name Bytes} {l l' : Login} {as : List Act} (hq : l.quit = false)
    (hr : Alone store l as l') : as.length ≤ distance store.length l := by
  induction hr with
  | nil => simp
  | cons hs _ ih =>
    have := distance_step hq hs
    have := ih this.2
    simp only [List.length_cons]
    omega

/-- **C33**: the only places where it can halt are waiting for work with none signalled, and the first send
on its own channel if work had been signalled before. -/
theorem C33_halts {store : GoMap Name Bytes} {l : Login} (hd : l.pc ≠ .done)
    (hstuck : ∀ a, stepLogin store l a = none) :
    (l.pc = .idle ∧ l.work = false) ∨ (l.pc = .start ∧ l.work = true) := by
  rcases hp : l.pc with _ | _ | _ | rest | ⟨n, rest⟩ | ⟨note, rest⟩ | _
  · have := hstuck .start
    simp only [stepLogin, hp, true_and] at this
    right; exact ⟨rfl, by by_contra h; simp [h] at this⟩
  · have := hstuck .take
    simp only [stepLogin, hp, true_and] at this
    left; exact ⟨rfl, by by_contra h; simp [h] at this⟩
  · have := hstuck .list
    simp [stepLogin, hp] at this
  · have := hstuck .check
    cases rest with
    | nil => simp [stepLogin, hp] at this
    | cons n r =>
      simp only [stepLogin, hp] at this
      split at this <;> cases this
  · have := hstuck .open_
    simp [stepLogin, hp] at this
  · have := hstuck .send
    simp [stepLogin, hp] at this
  · exact absurd hp hd

/-- The full claim: when the goroutine of the login that is online can not go on, everything stored has been
announced. -/
def C33_full : Prop :=
  ∀ (s : State) (i : Nat) (l : Login), Reach Good s → s.online = some i → s.logins[i]? = some l →
    (∀ a, stepLogin s.store l a = none) → ∀ n f, s.store.get n = some f → ∃ m, .ann (.msg n m) ∈ l.log

/-- **C33** (partial): the full claim, if no message was signalled before the goroutine's first step. -/
theorem C33_all_announced_partial (s : State) (i : Nat) (l : Login) (hr : Reach Good s) (ho : s.online = some i)
    (hl : s.logins[i]? = some l) (hns : l.pc = .start → l.work = false)
    (hstuck : ∀ a, stepLogin s.store l a = none) (n : Name) (f : Bytes) (hn : s.store.get n = some f) :
    ∃ m, f = marshal m ∧ .ann (.msg n m) ∈ l.log := by
  have h := inv_reach (fun _ _ h => h) hr
  obtain ⟨l', hl', hO⟩ := h.online i ho
  rw [hl] at hl'
  obtain rfl := Option.some.inj hl'
  have hL := h.logins l (List.mem_of_getElem? hl)
  have hd : l.pc ≠ .done := fun e => by have := hL.done e; rw [hO.quit] at this; cases this
  rcases C33_halts hd hstuck with ⟨h1, h2⟩ | ⟨h1, h2⟩
  · exact C33_idle_partial s hr i l ho hl h1 h2 n f hn
  · rw [hns h1] at h2; cases h2

/-- **C33 is violated**: `Deliver` fills the channel of a login whose goroutine has not yet made its own
first send; the goroutine blocks there, and the stored message is never announced. -/
theorem C33_stuck_violated : ¬ C33_full := by
  intro h
  have e : exec init [.online, .begin 1 msgA, .commit 1 msgA] =
      some ⟨[(1, marshal msgA)], [], [⟨true, false, [], .start, []⟩], some 0, [1], [(1, msgA)]⟩ := rfl
  have hr : Run Good init [.online, .begin 1 msgA, .commit 1 msgA] _ :=
    Run.cons ⟨trivial, trivial, trivial⟩ rfl (Run.cons ⟨by simp [FreshClock, init], trivial, msgA_sized⟩ rfl
      (Run.cons ⟨trivial, trivial, trivial⟩ rfl (Run.nil _)))
  obtain ⟨m, hm⟩ := h _ 0 ⟨true, false, [], .start, []⟩ ⟨_, hr⟩ rfl rfl (by intro a; cases a <;> rfl)
    1 (marshal msgA) rfl
  simp at hm

/-- **C33**: such a goroutine stays blocked, whatever else happens, until the server is restarted. -/
theorem C33_stuck_forever {G : State → Ev → Prop} {s s' : State} {es : List Ev} {i : Nat} {l : Login}
    (hr : Run G s es s') (he : ∀ e ∈ es, e ≠ .restart ∧ NotTorn e) (hl : s.logins[i]? = some l)
    (hp : l.pc = .start) (hw : l.work = true) :
    ∃ l', s'.logins[i]? = some l' ∧ l'.pc = .start ∧ l'.work = true ∧ annNames l'.log = annNames l.log := by
  induction hr generalizing l with
  | nil => exact ⟨l, hl, hp, hw, rfl⟩
  | @cons s e s1 es s2 _ hs _ ih =>
    have key : ∃ l1, s1.logins[i]? = some l1 ∧ l1.pc = .start ∧ l1.work = true ∧ annNames l1.log = annNames l.log := by
      have hnl : SameScan i e := by
        have h1 := he e List.mem_cons_self
        cases e with
        | restart => exact absurd rfl h1.1
        | torn => exact h1.2
        | go j a =>
          cases a <;> try trivial
          intro hji
          subst hji
          simp [step, hl, stepLogin, hp] at hs
        | _ => trivial
      obtain ⟨l1, h1, new, e1, hsub⟩ := scan_step hl hnl hs
      have hnew : new = [] := by
        have : todo l = [] := by simp [todo, hp]
        rw [this] at hsub
        have := List.sublist_nil.1 hsub
        exact (List.append_eq_nil_iff.1 this).1
      subst hnew
      refine ⟨l1, h1, ?_, ?_, by simpa using e1⟩
      all_goals
        cases e with
        | begin n m =>
          simp only [step] at hs
          split at hs
          · cases hs
          · simp only [Option.some.injEq] at hs; subst hs
            rw [hl] at h1; obtain rfl := Option.some.inj h1; first | exact hp | exact hw
        | commit n m =>
          simp only [step] at hs
          split at hs
          · simp only [Option.some.injEq] at hs; subst hs
            rcases onOnline_cases _ _ i l (by exact hl) l1 h1 with rfl | rfl <;> first | exact hp | exact hw | rfl
          · cases hs
        | delete n =>
          simp only [step] at hs
          split at hs
          · simp only [Option.some.injEq] at hs; subst hs
            rcases onOnline_cases _ _ i l (by exact hl) l1 h1 with rfl | rfl <;> first | exact hp | exact hw | rfl
          · cases hs
        | online =>
          simp only [step] at hs
          split at hs
          · cases hs
          · simp only [Option.some.injEq] at hs; subst hs
            have : i < s.logins.length := (List.getElem?_eq_some_iff.1 hl).1
            simp only [List.getElem?_append_left this, hl] at h1
            obtain rfl := Option.some.inj h1; first | exact hp | exact hw
        | offline =>
          simp only [step, Option.some.injEq] at hs; subst hs
          rcases onOnline_get s (fun l => { l with quit := true }) i l hl with h2 | h2 <;>
            obtain rfl := Option.some.inj (h1.symm.trans h2) <;> first | exact hp | exact hw
        | restart => exact absurd rfl (he _ List.mem_cons_self).1
        | torn n m k => exact absurd (he _ List.mem_cons_self).2 (by simp [NotTorn])
        | go j a =>
          simp only [step] at hs
          split at hs
          · cases hs
          · next x hx =>
            simp only [Option.map_eq_some_iff] at hs
            obtain ⟨x', h3, rfl⟩ := hs
            by_cases hij : j = i
            · subst hij
              rw [hl] at hx
              obtain rfl := Option.some.inj hx
              exfalso
              cases a <;> simp [stepLogin, hp, hw] at h3
            · rw [List.getElem?_set_ne hij, hl] at h1
              obtain rfl := Option.some.inj h1; first | exact hp | exact hw
    obtain ⟨l1, h1, h2, h3, h4⟩ := key
    obtain ⟨l2, g1, g2, g3, g4⟩ := ih (fun x hx => he x (List.mem_cons_of_mem _ hx)) h1 h2 h3
    exact ⟨l2, g1, g2, g3, g4.trans h4⟩

/-- **C32** (partial): after logging in again, once the goroutine waits for work, every message that was
stored at the login and has not been acknowledged since has been announced to the new login. -/
theorem C32_again_partial (s s1 s2 : State) (es : List Ev) (l : Login) (hr : Reach Good s)
    (hon : step s .online = some s1) (hr2 : Run Good s1 es s2) (ho : s2.online = some s.logins.length)
    (hl : s2.logins[s.logins.length]? = some l) (hi : l.pc = .idle) (hw : l.work = false) (n : Name) (f : Bytes)
    (hn : s.store.get n = some f) (hd : .delete n ∉ es) :
    (∃ l0, s1.logins[s.logins.length]? = some l0 ∧ l0.log = []) ∧ ∃ m, f = marshal m ∧ .ann (.msg n m) ∈ l.log := by
  have h1 : s1.store = s.store ∧ s1.logins = s.logins ++ [⟨false, false, [], .start, []⟩] := by
    simp only [step] at hon
    split at hon
    · cases hon
    · simp only [Option.some.injEq] at hon; subst hon; exact ⟨rfl, rfl⟩
  refine ⟨⟨⟨false, false, [], .start, []⟩, by rw [h1.2]; simp, rfl⟩, ?_⟩
  obtain ⟨es0, hr0⟩ := hr
  have app : ∀ {s s' s'' : State} {a b : List Ev}, Run Good s a s' → Run Good s' b s'' → Run Good s (a ++ b) s'' := by
    intro s s' s'' a b ha hb
    induction ha with
    | nil => exact hb
    | cons hg hs _ ih => exact Run.cons hg hs (ih hb)
  have hr1 : Run Good init (es0 ++ [.online]) s1 :=
    app hr0 (Run.cons ⟨trivial, trivial, trivial⟩ hon (Run.nil _))
  have hN1 : Names s1 := names_init.run (fun _ _ h => h.1) hr1
  have hs2 : s2.store.get n = some f := by
    rw [← h1.1] at hn
    clear hl ho hi hw hr0 hr1 hon h1
    induction hr2 with
    | nil => exact hn
    | @cons s e s' es s'' hg hs hr' ih =>
      refine ih ?_ (fun hm => hd (List.mem_cons_of_mem _ hm)) (hN1.step hg.1 hs)
      exact C31_kept (Run.cons (G := Good) hg hs (Run.nil _)) n _ hn
        (by simpa using kept_step hN1 hs n _ hn (fun e' => hd (by simp [e'])))
  exact C33_idle_partial s2 ⟨_, app hr1 hr2⟩ _ l ho hl hi hw n f hs2

/-! ## C34: acknowledging never breaks the session -/

/-- The login in the `online` map. -/
def onlineLogin (s : State) : Option Login := s.online.bind fun i => s.logins[i]?

/-- Acknowledgements are for files already announced to the login that is online. -/
def Acks (s : State) : Ev → Prop
  | .delete n => ∀ l ∈ onlineLogin s, n ∈ since l.log
  | _ => True

instance (s : State) (e : Ev) : Decidable (Acks s e) := by cases e <;> unfold Acks <;> infer_instance

/-- The full claim. -/
def C34_full : Prop :=
  ∀ (s : State) (i : Nat) (l : Login), Reach (fun s e => Good s e ∧ Acks s e) s → s.online = some i →
    s.logins[i]? = some l → ∀ x, .ann x ∈ l.log → ∃ n m, x = .msg n m

/-- Acknowledgements are not for files that the running scan still has to look at. -/
def Calm (s : State) : Ev → Prop
  | .delete n => ∀ l ∈ onlineLogin s, n ∉ todo l
  | _ => True

instance (s : State) (e : Ev) : Decidable (Calm s e) := by cases e <;> unfold Calm <;> infer_instance

/-- Nothing but messages has been and will be announced in this scan. -/
structure CInv (S : Name → Prop) (l : Login) : Prop where
  todo : ∀ n ∈ todo l, S n
  log : ∀ n, .ann (.missing n) ∉ l.log
  sending : ∀ n rest, l.pc ≠ .sending (.missing n) rest

theorem CInv.step {store : GoMap Name Bytes} {l l' : Login} {a : Act}
    (h : CInv (fun n => (store.get n).isSome) l) (hs : stepLogin store l a = some l') :
    CInv (fun n => (store.get n).isSome) l' := by
  cases a <;> simp only [stepLogin] at hs
  case start =>
    split at hs
    · simp only [Option.some.injEq] at hs; subst hs
      exact ⟨by simp [Delivery.todo], h.log, by simp⟩
    · cases hs
  case take =>
    split at hs
    · simp only [Option.some.injEq] at hs; subst hs
      exact ⟨by simp [Delivery.todo], h.log, by simp⟩
    · cases hs
  case leave =>
    split at hs
    · simp only [Option.some.injEq] at hs; subst hs
      exact ⟨by simp [Delivery.todo], h.log, by simp⟩
    · cases hs
  case list =>
    split at hs
    · simp only [Option.some.injEq] at hs; subst hs
      exact ⟨fun n hn => mem_listing.1 hn, h.log, by simp⟩
    · cases hs
  case check =>
    split at hs
    · simp only [Option.some.injEq] at hs; subst hs
      exact ⟨by simp [Delivery.todo], h.log, by simp⟩
    · next n rest hc =>
      have ht := h.todo
      simp only [Delivery.todo, hc] at ht
      split at hs
      · simp only [Option.some.injEq] at hs; subst hs
        exact ⟨fun k hk => ht k (List.mem_cons_of_mem _ hk), h.log, by simp⟩
      · simp only [Option.some.injEq] at hs; subst hs
        exact ⟨ht, h.log, by simp⟩
    · cases hs
  case open_ =>
    split at hs
    · next n rest hc =>
      have ht := h.todo
      simp only [Delivery.todo, hc] at ht
      simp only [Option.some.injEq] at hs; subst hs
      refine ⟨?_, h.log, ?_⟩
      · simp only [Delivery.todo, readNote_name]; exact ht
      · intro k r e
        simp only [Pc.sending.injEq] at e
        have hk : k = n := by rw [← readNote_name store n, e.1]; rfl
        have hs := ht n List.mem_cons_self
        have e1 := e.1
        unfold readNote at e1
        split at e1
        · next hnone => rw [hnone] at hs; cases hs
        · split at e1 <;> cases e1
    · cases hs
  case send =>
    split at hs
    · next note rest hc =>
      have ht := h.todo
      simp only [Delivery.todo, hc] at ht
      simp only [Option.some.injEq] at hs; subst hs
      refine ⟨fun k hk => ht k (List.mem_cons_of_mem _ hk), fun n hn => ?_, by simp⟩
      rcases List.mem_append.1 hn with hn | hn
      · exact h.log n hn
      · simp only [List.mem_singleton, Entry.ann.injEq] at hn
        exact h.sending n rest (by rw [hc, hn])
    · cases hs
  case drop =>
    split at hs
    · next note rest hc =>
      have ht := h.todo
      simp only [Delivery.todo, hc] at ht
      split at hs
      · simp only [Option.some.injEq] at hs; subst hs
        exact ⟨fun k hk => ht k (List.mem_cons_of_mem _ hk), h.log, by simp⟩
      · cases hs
    · cases hs

theorem calm_step {s s' : State} {e : Ev} (hc : Calm s e)
    (h : ∀ i, s.online = some i → ∃ l, s.logins[i]? = some l ∧ CInv (Stored s) l) (hs : step s e = some s') :
    ∀ i, s'.online = some i → ∃ l, s'.logins[i]? = some l ∧ CInv (Stored s') l := by
  cases e with
  | begin n m =>
    simp only [step] at hs
    split at hs
    · cases hs
    · simp only [Option.some.injEq] at hs; subst hs; exact h
  | commit n m =>
    simp only [step] at hs
    split at hs
    · simp only [Option.some.injEq] at hs; subst hs
      unfold Stored
      simp only [onOnline_store]
      refine onOnline_online h (fun i l _ _ hl => ⟨fun k hk => ?_, hl.log, hl.sending⟩)
      have := hl.todo k hk
      unfold Stored at this
      by_cases hnk : n = k
      · subst hnk; simp [GoMap.get_set_self]
      · simp only [GoMap.get_set_ne _ _ hnk]; exact this
    · cases hs
  | delete n =>
    simp only [step] at hs
    split at hs
    · simp only [Option.some.injEq] at hs; subst hs
      unfold Stored
      simp only [onOnline_store]
      refine onOnline_online h (fun i l hi hl0 hl => ⟨fun k hk => ?_, ?_, hl.sending⟩)
      · have hn := hc l (Option.bind_eq_some_iff.2 ⟨i, hi, hl0⟩)
        have hk' : k ∈ todo l := hk
        have := hl.todo k hk'
        unfold Stored at this
        have hnk : n ≠ k := by rintro rfl; exact hn hk'
        simp only [GoMap.get_del_ne _ hnk]; exact this
      · intro k hk
        rcases List.mem_append.1 hk with hk | hk
        · exact hl.log k hk
        · simp at hk
    · cases hs
  | online =>
    simp only [step] at hs
    split at hs
    · cases hs
    · simp only [Option.some.injEq] at hs; subst hs
      intro i hi
      simp only [Option.some.injEq] at hi
      subst hi
      exact ⟨_, by simp; rfl, by simp [todo], by simp, by simp⟩
  | offline =>
    simp only [step, Option.some.injEq] at hs; subst hs
    intro i hi; cases hi
  | restart =>
    simp only [step, Option.some.injEq] at hs; subst hs
    intro i hi; cases hi
  | torn n m k =>
    simp only [step] at hs
    split at hs
    · simp only [Option.some.injEq] at hs; subst hs
      intro i hi; cases hi
    · cases hs
  | go j a =>
    simp only [step] at hs
    split at hs
    · cases hs
    · next x hx =>
      simp only [Option.map_eq_some_iff] at hs
      obtain ⟨x', h1, rfl⟩ := hs
      intro i hi
      obtain ⟨l, hl, hC⟩ := h i hi
      by_cases hij : j = i
      · subst hij
        rw [hl] at hx
        obtain rfl := Option.some.inj hx
        have hlt : j < s.logins.length := (List.getElem?_eq_some_iff.1 hl).1
        exact ⟨x', by simp [hlt], CInv.step hC h1⟩
      · exact ⟨l, by simp [List.getElem?_set_ne hij, hl], hC⟩

/-- **C34** (partial): if no message is acknowledged while the running scan still has it on its list, only
messages are announced, never an error. Missing for the full claim: an acknowledgement of an announced
message that a later scan has listed but not yet passed. -/
theorem C34_partial (s : State) (i : Nat) (l : Login) (hr : Reach (fun s e => Good s e ∧ Calm s e) s)
    (ho : s.online = some i) (hl : s.logins[i]? = some l) (x : Note) (hx : .ann x ∈ l.log) :
    ∃ n m, x = .msg n m := by
  have hI : Inv s := inv_reach (fun _ _ h => h.1) hr
  obtain ⟨es, hr⟩ := hr
  have key : ∀ {s s' : State} {es : List Ev}, Run (fun s e => Good s e ∧ Calm s e) s es s' →
      (∀ i, s.online = some i → ∃ l, s.logins[i]? = some l ∧ CInv (Stored s) l) →
      ∀ i, s'.online = some i → ∃ l, s'.logins[i]? = some l ∧ CInv (Stored s') l := by
    intro s s' es hr
    induction hr with
    | nil => exact id
    | cons hg hs _ ih => exact fun h => ih (calm_step hg.2 h hs)
  obtain ⟨l', hl', hC⟩ := key hr (by simp [init]) i ho
  rw [hl] at hl'
  obtain rfl := Option.some.inj hl'
  cases x with
  | msg n m => exact ⟨n, m, rfl⟩
  | missing n => exact absurd hx (hC.log n)
  | bad n => exact absurd hx ((hI.logins l (List.mem_of_getElem? hl)).good n)

/-- **C34** (partial): whatever is acknowledged when, an error is only ever announced about a file that has
been deleted, so the message it was about had been acknowledged. -/
theorem C34_errors_partial (s : State) (hr : Reach Good s) (l : Login) (hl : l ∈ s.logins) (x : Note)
    (hx : .ann x ∈ l.log) : (∃ n m, x = .msg n m) ∨ ∃ n, x = .missing n ∧ n ∈ s.used ∧ s.store.get n = none := by
  have hL := (inv_reach (fun _ _ h => h) hr).logins l hl
  cases x with
  | msg n m => exact Or.inl ⟨n, m, rfl⟩
  | missing n => exact Or.inr ⟨n, rfl, (hL.missing n hx).1, (hL.missing n hx).2.1⟩
  | bad n => exact absurd hx (hL.good n)

/-- Message 1 is announced; message 2 comes in and a second scan lists both; message 1 is acknowledged before
that scan has looked at it. -/
def ackRace : List Ev :=
  [.begin 1 msgA, .commit 1 msgA, .online, .go 0 .start, .go 0 .take, .go 0 .list, .go 0 .check, .go 0 .open_,
   .go 0 .send, .begin 2 msgB, .commit 2 msgB, .go 0 .check, .go 0 .take, .go 0 .list, .delete 1, .go 0 .check,
   .go 0 .open_, .go 0 .send]

/-- The state after `ackRace`. -/
def ackRaceEnd : State :=
  ⟨[(2, marshal msgB)], [],
   [⟨false, false, [1], .loop [2], [.ann (.msg 1 msgA), .del 1, .ann (.missing 1)]⟩],
   some 0, [2, 1], [(2, msgB), (1, msgA)]⟩

theorem ackRace_run : Run (fun s e => Good s e ∧ Acks s e) init ackRace ackRaceEnd :=
  run_of_execG (by decide)

/-- **C34 is violated**: acknowledging an announced message while a later scan has it on its list makes that
scan announce an error, upon which the session is closed. -/
theorem C34_violated : ¬ C34_full := by
  intro h
  obtain ⟨n, m, e⟩ := h _ 0 _ ⟨_, ackRace_run⟩ rfl rfl (.missing 1) (by decide)
  cases e

/-- The server dies after writing 41 bytes of a message and another after writing 32. -/
theorem torn_run : ∃ s l, Reach (fun s e => FreshClock s e ∧ SizedMsg e) s ∧ onlineLogin s = some l ∧
    .ann (.bad 1) ∈ l.log ∧ .ann (.msg 2 ⟨msgB.from_, 0, [], false⟩) ∈ l.log ∧ s.delivered = [] := by
  refine ⟨⟨[(2, (marshal msgB).take 32), (1, (marshal msgA).take 41)], [],
    [⟨false, false, [2, 1], .loop [], [.ann (.bad 1), .ann (.msg 2 ⟨msgB.from_, 0, [], false⟩)]⟩],
    some 0, [2, 1], []⟩, _,
    ⟨[.begin 1 msgA, .torn 1 msgA 41, .begin 2 msgB, .torn 2 msgB 32, .online, .go 0 .start, .go 0 .take,
      .go 0 .list, .go 0 .check, .go 0 .open_, .go 0 .send, .go 0 .check, .go 0 .open_, .go 0 .send],
      run_of_execG (by decide)⟩, rfl, by decide, by decide, rfl⟩

/-- **C32 is violated**: if the server dies in the middle of storing messages, a message that was never
delivered can be announced, with fields zero that were not written. -/
theorem C32_torn_violated : ¬ ∀ s, Reach (fun s e => FreshClock s e ∧ SizedMsg e) s → ∀ l ∈ s.logins, ∀ n m,
    .ann (.msg n m) ∈ l.log → (n, m) ∈ s.delivered := by
  intro h
  obtain ⟨s, l, hr, ho, _, h2, hd⟩ := torn_run
  have hl : l ∈ s.logins := by
    simp only [onlineLogin, Option.bind_eq_some_iff] at ho
    obtain ⟨i, _, hi⟩ := ho
    exact List.mem_of_getElem? hi
  have := h s hr l hl 2 _ h2
  rw [hd] at this
  cases this

/-- Two messages stored, a login, both announced in order, the goroutine idle; then the first acknowledged. -/
example : ∃ s l, Reach (fun s e => Good s e ∧ Calm s e) s ∧ onlineLogin s = some l ∧ l.pc = .idle ∧
    l.work = false ∧ l.log = [.ann (.msg 1 msgA), .ann (.msg 2 msgB), .del 1] ∧
    s.store.get 2 = some (marshal msgB) := by
  refine ⟨⟨[(2, marshal msgB)], [],
    [⟨false, false, [2], .idle, [.ann (.msg 1 msgA), .ann (.msg 2 msgB), .del 1]⟩],
    some 0, [1, 2], [(2, msgB), (1, msgA)]⟩, _,
    ⟨[.begin 2 msgB, .begin 1 msgA, .commit 1 msgA, .commit 2 msgB, .online, .go 0 .start, .go 0 .take,
      .go 0 .list, .go 0 .check, .go 0 .open_, .go 0 .send, .go 0 .check, .go 0 .open_, .go 0 .send,
      .go 0 .check, .delete 1], run_of_execG (by decide)⟩, rfl, rfl, rfl, rfl, rfl⟩

end Verif.Delivery
