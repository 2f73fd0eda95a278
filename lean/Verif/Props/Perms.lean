import Verif.Model.Perms
import Mathlib.Data.List.Induction
import Mathlib.Data.List.Infix

/-! # C124: nobody else on the machine gets to keys, messages and received files -/

namespace Verif.Perms

/-- Strictly below the root directory. -/
def Below (R p : Path) : Prop := R <+: p ∧ p ≠ R

/-- Nobody else can use this node or pass through it. -/
def shut (n : Node) : Prop :=
  match n.kind with
  | .sock => n.perm.w = false
  | _ => n.perm = own

/-- Something on the way, strictly below the root directory, is shut. -/
def Hid (R : Path) (fs : FS) (p : Path) : Prop := ∃ q n, Below R q ∧ q <+: p ∧ fs q = some n ∧ shut n

/-- Everything below the root directory is hidden, whatever the mode of the root directory itself. -/
def Closed (R : Path) (fs : FS) : Prop := ∀ p n, Below R p → fs p = some n → Hid R fs p

/-- The root directory is there and shut. -/
def RootOk (R : Path) (fs : FS) : Prop := fs R = some ⟨.dir, own⟩ ∧ ∀ q, q <+: R → fs q ≠ none

theorem own_mask (u : Perm) : own.mask u = own := by
  cases u; rfl

theorem Hid.mono {R : Path} {fs : FS} {p r : Path} (h : Hid R fs p) (hr : p <+: r) : Hid R fs r := by
  obtain ⟨q, n, h1, h2, h3⟩ := h
  exact ⟨q, n, h1, h2.trans hr, h3⟩

theorem not_exposed_of_hid {R : Path} {fs : FS} {p : Path} (h : Hid R fs p) : ¬ Exposed fs p := by
  obtain ⟨q, n, h1, h2, h3, h4⟩ := h
  rintro ⟨m, hm, hp, hw⟩
  by_cases he : q = p
  · subst he
    rw [h3] at hm
    cases hm
    rcases n with ⟨k, b⟩
    cases k <;> simp_all [shut, own]
  · obtain ⟨b, hb, hx⟩ := hw q h2 he
    rw [h3] at hb
    cases hb
    simp_all [shut, own]

theorem prefix_dropLast {q0 p : Path} (h : q0 <+: p) (hn : q0 ≠ p) : q0 <+: p.dropLast := by
  obtain ⟨t, rfl⟩ := h
  have ht : t ≠ [] := by rintro rfl; simp at hn
  rw [List.dropLast_append_of_ne_nil ht]
  exact List.prefix_append _ _

theorem below_child {R p : Path} (h : R <+: p) (c : String) : Below R (p ++ [c]) := by
  refine ⟨h.trans (List.prefix_append _ _), fun he => ?_⟩
  have := h.length_le
  have := congrArg List.length he
  simp at this
  omega

theorem below_append {R p : Path} (h : Below R p) (t : Path) : Below R (p ++ t) := by
  refine ⟨h.1.trans (List.prefix_append _ _), fun he => h.2 ?_⟩
  have h1 := h.1.length_le
  have h2 := congrArg List.length he
  simp at h2
  exact (h.1.eq_of_length (by omega)).symm

theorem make_old {fs : FS} {p : Path} {n : Node} {r : Path} (h : fs r ≠ none) : make fs p n r = fs r := by
  unfold make
  rw [if_neg]
  rintro ⟨rfl, h1, _⟩
  exact h h1

theorem closed_make {R : Path} {fs : FS} (h : Closed R fs) (p : Path) (n : Node)
    (hn : shut n ∨ (Below R p → isDir fs p.dropLast = true → Hid R fs p.dropLast)) : Closed R (make fs p n) := by
  intro r m hr hm
  have keep : ∀ x, Hid R fs x → Hid R (make fs p n) x := by
    rintro x ⟨q, k, h1, h2, h3, h4⟩
    exact ⟨q, k, h1, h2, by rw [make_old (by rw [h3]; simp)]; exact h3, h4⟩
  unfold make at hm
  split at hm
  · rename_i hc
    obtain ⟨rfl, hc1, hc2, hc3⟩ := hc
    rcases hn with hn | hn
    · refine ⟨r, n, hr, List.prefix_rfl, ?_, hn⟩
      unfold make
      rw [if_pos ⟨rfl, hc1, hc2, hc3⟩]
    · exact (keep _ (hn hr hc3)).mono (List.dropLast_prefix r)
  · exact keep r (h r m hr hm)

theorem closed_mkdirs {R : Path} (n : Node) (hn : shut n) (p : Path) :
    ∀ (fs : FS) (d : Path), Closed R fs → Closed R (mkdirs fs n d p) := by
  induction p with
  | nil => intro fs d h; exact h
  | cons c p ih => intro fs d h; exact ih _ _ (closed_make h _ _ (.inl hn))

theorem closed_remove {R : Path} {fs : FS} (h : Closed R fs) (p : Path) :
    Closed R (fun r => if p <+: r then none else fs r) := by
  intro r m hr hm
  dsimp only at hm
  split at hm
  · cases hm
  · rename_i hp
    obtain ⟨q, k, h1, h2, h3, h4⟩ := h r m hr hm
    refine ⟨q, k, h1, h2, ?_, h4⟩
    dsimp only
    rw [if_neg (fun h' => hp (h'.trans h2))]
    exact h3

/-- Something that is moved is hidden if the place it comes to is, or if it stays in its directory. -/
theorem closed_move {R : Path} {fs : FS} (h : Closed R fs) (p q : Path) (hc : canMove fs p q)
    (hq : Hid R fs q.dropLast ∨ ∃ d a b, R <+: d ∧ p = d ++ [a] ∧ q = d ++ [b]) : Closed R (move fs p q) := by
  obtain ⟨_, hq0, _, hpq, hqp⟩ := hc
  intro r m hr hm
  by_cases hqr : q <+: r
  · rcases hq with ⟨q0, k, h1, h2, h3, h4⟩ | ⟨d, a, b, hd, rfl, rfl⟩
    · have h2' : q0 <+: q := h2.trans (List.dropLast_prefix q)
      refine ⟨q0, k, h1, h2'.trans hqr, ?_, h4⟩
      unfold move
      rw [if_neg, if_neg (fun h' => hpq (h'.trans h2'))]
      · exact h3
      · intro h'
        have e1 := h'.length_le
        have e2 := h2.length_le
        have e3 : 0 < q.length := List.length_pos_of_ne_nil hq0
        simp at e2
        omega
    · obtain ⟨t, rfl⟩ := hqr
      have hm' : fs (d ++ [a] ++ t) = some m := by
        unfold move at hm
        rw [if_pos (List.prefix_append _ _)] at hm
        rwa [List.drop_left] at hm
      obtain ⟨q0, k, h1, h2, h3, h4⟩ := h _ m (below_append (below_child hd a) t) hm'
      rcases List.prefix_or_prefix_of_prefix h2 (List.prefix_append (d ++ [a]) t) with h5 | h5
      · by_cases he : q0 = d ++ [a]
        · refine ⟨d ++ [b], k, below_child hd b, List.prefix_append _ _, ?_, h4⟩
          unfold move
          rw [if_pos List.prefix_rfl, List.drop_length, List.append_nil, ← he]
          exact h3
        · have h6 : q0 <+: d := by
            have := prefix_dropLast h5 he
            rwa [List.dropLast_concat] at this
          have h7 := h6.length_le
          refine ⟨q0, k, h1, h6.trans ((List.prefix_append d [b]).trans (List.prefix_append _ _)), ?_, h4⟩
          unfold move
          rw [if_neg, if_neg]
          · exact h3
          · intro h'; have := h'.length_le; simp at this; omega
          · intro h'; have := h'.length_le; simp at this; omega
      · obtain ⟨t0, rfl⟩ := h5
        have h6 : t0 <+: t := by rwa [List.prefix_append_right_inj] at h2
        refine ⟨d ++ [b] ++ t0, k, below_append (below_child hd b) t0, (List.prefix_append_right_inj _).2 h6, ?_, h4⟩
        unfold move
        rw [if_pos (List.prefix_append _ _), List.drop_left]
        exact h3
  · have hm' : fs r = some m ∧ ¬ p <+: r := by
      unfold move at hm
      rw [if_neg hqr] at hm
      split at hm
      · cases hm
      · exact ⟨hm, by assumption⟩
    obtain ⟨q0, k, h1, h2, h3, h4⟩ := h r m hr hm'.1
    refine ⟨q0, k, h1, h2, ?_, h4⟩
    unfold move
    rw [if_neg (fun h' => hqr (h'.trans h2)), if_neg (fun h' => hm'.2 (h'.trans h2))]
    exact h3

theorem hid_of_dir {R : Path} {fs : FS} (h : Closed R fs) {p : Path} (hb : Below R p) (hd : isDir fs p = true) :
    Hid R fs p := by
  unfold isDir at hd
  split at hd
  · exact h p _ hb (by assumption)
  · cases hd

theorem shut_own (k : Kind) : shut ⟨k, own⟩ := by cases k <;> rfl

theorem closed_db {R d : Path} (hd : R <+: d) {c : Sys} (hc : DBCall d c) (u : Perm) {fs : FS} (h : Closed R fs) :
    Closed R (exec u fs c) := by
  cases hc with
  | dir => exact closed_mkdirs _ (by rw [own_mask]; exact shut_own _) _ _ _ h
  | temp t => exact closed_make h _ _ (.inl (by rw [own_mask]; exact shut_own _))
  | rename t t' =>
    simp only [exec]
    split
    · exact closed_move h _ _ (by assumption) (.inr ⟨d, t, t', hd, rfl, rfl⟩)
    · exact h
  | prune t => exact closed_remove h _

/-- A received file is put into the directory for received files, whatever its name is. -/
def Plain (R : Path) (c : Sys) : Prop := ∀ p q, c = .renameNew p q → R ++ ["spool"] <+: q

theorem closed_client {R : Path} {c : Sys} (hc : ClientCall R c) (hp : Plain R c) (u : Perm) {fs : FS}
    (h : Closed R fs) : Closed R (exec u fs c) := by
  have mk : ∀ p, Closed R (exec u fs (.mkdirAll p own)) := fun p =>
    closed_mkdirs _ (by rw [own_mask]; exact shut_own _) _ _ _ h
  have cr : ∀ p, Closed R (exec u fs (.create p own)) := fun p =>
    closed_make h _ _ (.inl (by rw [own_mask]; exact shut_own _))
  cases hc with
  | dirs d => exact mk _
  | log p => exact cr _
  | db d c hc => exact closed_db (List.prefix_append _ _) hc u h
  | conversations d t => exact closed_remove h _
  | chat p => exact cr _
  | group n => exact cr _
  | ungroup n => exact closed_remove h _
  | idDir i => exact mk _
  | identity i t => exact cr _
  | ratchetTemp i t => exact closed_make h _ _ (.inl (by rw [own_mask]; exact shut_own _))
  | ratchet i t t' =>
    simp only [exec]
    split
    · exact closed_move h _ _ (by assumption) (.inr ⟨R ++ ["inbound", i], t, t', List.prefix_append _ _, by simp, by simp⟩)
    · exact h
  | ratchetGone i t => exact closed_remove h _
  | contactGone i => exact closed_remove h _
  | history => exact cr _
  | confDir p => exact mk _
  | conf p => exact cr _
  | spool i => exact mk _
  | announced i t =>
    refine closed_make h _ _ (.inr fun _ hd => hid_of_dir h ?_ hd)
    have e : (R ++ ["spool", i, t]).dropLast = R ++ ["spool"] ++ [i] := by
      rw [List.dropLast_append_of_ne_nil (by simp)]; simp
    rw [e]
    exact below_child (List.prefix_append _ _) i
  | received i t name =>
    have hn := hp _ _ rfl
    simp only [exec]
    split
    · rename_i hc
      refine closed_move h _ _ hc.2 (.inl ?_)
      have hne : R ++ ["spool"] ≠ clean (R ++ "spool" :: name) := by
        intro e
        exact hc.2.2.2.2.2 (e ▸ ⟨[i, t], by simp⟩)
      refine hid_of_dir h ?_ hc.2.2.2.1
      obtain ⟨x, hx⟩ := prefix_dropLast hn hne
      rw [← hx]
      exact below_append (below_child List.prefix_rfl _) _
    · exact h
  | descriptor i t => exact closed_remove h _

theorem closed_server {R : Path} {c : Sys} (hc : ServerCall R c) (u : Perm) (hu : u.w = true) {fs : FS}
    (h : Closed R fs) : Closed R (exec u fs c) := by
  have mk : ∀ p, Closed R (exec u fs (.mkdirAll p own)) := fun p =>
    closed_mkdirs _ (by rw [own_mask]; exact shut_own _) _ _ _ h
  have cr : ∀ p, Closed R (exec u fs (.create p own)) := fun p =>
    closed_make h _ _ (.inl (by rw [own_mask]; exact shut_own _))
  cases hc with
  | root => exact mk _
  | log p => exact cr _
  | keys t => exact cr _
  | users d => exact mk _
  | account d i c hc => exact closed_db (List.prefix_append _ _) hc u h
  | cache d i => exact mk _
  | deliver d i t => exact cr _
  | delivered d i t => exact closed_remove h _
  | switch d i i' =>
    simp only [exec]
    split
    · exact closed_move h _ _ (by assumption) (.inr ⟨R ++ [d], i, i', List.prefix_append _ _, by simp, by simp⟩)
    · exact h
  | db d c hc => exact closed_db (List.prefix_append _ _) hc u h
  | unsock t => exact closed_remove h _
  | sock t => exact closed_make h _ _ (.inl (by simp [shut, Perm.mask, p777, hu]))

/-- Whatever the umask and whatever the mode of the root directory: if nobody else can get to what is below the root
directory of a client, then this stays so, as long as the names of received files do not lead out of their directory. -/
theorem C124_client_partial (R : Path) (u : Perm) (fs : FS) (h : Closed R fs) (cs : List Sys)
    (hc : ∀ c ∈ cs, ClientCall R c) (hp : ∀ c ∈ cs, Plain R c) (p : Path) (hb : Below R p) :
    ¬ Exposed (run u fs cs) p := by
  have H : Closed R (run u fs cs) := by
    induction cs using List.reverseRecOn with
    | nil => exact h
    | append_singleton cs c ih =>
      have := closed_client (hc c (by simp)) (hp c (by simp)) u
        (ih (fun c h => hc c (by simp [h])) (fun c h => hp c (by simp [h])))
      simpa [run, List.foldl_append] using this
  rintro ⟨n, hn, hx⟩
  exact not_exposed_of_hid (H p n hb hn) ⟨n, hn, hx⟩

/-- The same for the server, if the umask keeps others from writing. -/
theorem C124_server_partial (R : Path) (u : Perm) (hu : u.w = true) (fs : FS) (h : Closed R fs) (cs : List Sys)
    (hc : ∀ c ∈ cs, ServerCall R c) (p : Path) (hb : Below R p) : ¬ Exposed (run u fs cs) p := by
  have H : Closed R (run u fs cs) := by
    induction cs using List.reverseRecOn with
    | nil => exact h
    | append_singleton cs c ih =>
      have := closed_server (hc c (by simp)) u hu (ih (fun c h => hc c (by simp [h])))
      simpa [run, List.foldl_append] using this
  rintro ⟨n, hn, hx⟩
  exact not_exposed_of_hid (H p n hb hn) ⟨n, hn, hx⟩

/-! ### A root directory that was made by the programs themselves -/

theorem rootOk_make {R : Path} {fs : FS} (h : RootOk R fs) (p : Path) (n : Node) : RootOk R (make fs p n) :=
  ⟨by rw [make_old (by rw [h.1]; simp)]; exact h.1, fun q hq => by rw [make_old (h.2 q hq)]; exact h.2 q hq⟩

theorem rootOk_mkdirs {R : Path} (n : Node) (p : Path) :
    ∀ (fs : FS) (d : Path), RootOk R fs → RootOk R (mkdirs fs n d p) := by
  induction p with
  | nil => intro fs d h; exact h
  | cons c p ih => intro fs d h; exact ih _ _ (rootOk_make h _ _)

theorem rootOk_remove {R : Path} {fs : FS} (h : RootOk R fs) (p : Path) (hp : ¬ p <+: R) :
    RootOk R (fun r => if p <+: r then none else fs r) :=
  ⟨by dsimp only; rw [if_neg hp]; exact h.1,
    fun q hq => by dsimp only; rw [if_neg (fun h' => hp (h'.trans hq))]; exact h.2 q hq⟩

theorem rootOk_move {R : Path} {fs : FS} (h : RootOk R fs) (p q : Path) (hp : ¬ p <+: R) (hq : ¬ q <+: R) :
    RootOk R (move fs p q) := by
  constructor
  · unfold move; rw [if_neg hq, if_neg hp]; exact h.1
  · intro r hr
    unfold move; rw [if_neg (fun h' => hq (h'.trans hr)), if_neg (fun h' => hp (h'.trans hr))]
    exact h.2 r hr

theorem not_prefix_below {R : Path} (c : String) (t : Path) : ¬ (R ++ c :: t) <+: R := by
  intro h
  have := h.length_le
  simp at this
  omega

theorem rootOk_db {R : Path} {d : String} {ds : Path} {c : Sys} (hc : DBCall (R ++ d :: ds) c) (u : Perm) {fs : FS}
    (h : RootOk R fs) : RootOk R (exec u fs c) := by
  cases hc with
  | dir => exact rootOk_mkdirs _ _ _ _ h
  | temp t => exact rootOk_make h _ _
  | rename t t' =>
    simp only [exec]
    split
    · simp only [List.append_assoc, List.cons_append]
      exact rootOk_move h _ _ (not_prefix_below _ _) (not_prefix_below _ _)
    · exact h
  | prune t =>
    simp only [exec, List.append_assoc, List.cons_append]
    exact rootOk_remove h _ (not_prefix_below _ _)

theorem rootOk_client {R : Path} {c : Sys} (hc : ClientCall R c) (u : Perm) {fs : FS} (h : RootOk R fs) :
    RootOk R (exec u fs c) := by
  cases hc with
  | dirs d => exact rootOk_mkdirs _ _ _ _ h
  | log p => exact rootOk_make h _ _
  | db d c hc => exact rootOk_db hc u h
  | conversations d t => exact rootOk_remove h _ (not_prefix_below _ _)
  | chat p => exact rootOk_make h _ _
  | group n => exact rootOk_make h _ _
  | ungroup n => exact rootOk_remove h _ (not_prefix_below _ _)
  | idDir i => exact rootOk_mkdirs _ _ _ _ h
  | identity i t => exact rootOk_make h _ _
  | ratchetTemp i t => exact rootOk_make h _ _
  | ratchet i t t' =>
    simp only [exec]
    split
    · exact rootOk_move h _ _ (not_prefix_below _ _) (not_prefix_below _ _)
    · exact h
  | ratchetGone i t => exact rootOk_remove h _ (not_prefix_below _ _)
  | contactGone i => exact rootOk_remove h _ (not_prefix_below _ _)
  | history => exact rootOk_make h _ _
  | confDir p => exact rootOk_mkdirs _ _ _ _ h
  | conf p => exact rootOk_make h _ _
  | spool i => exact rootOk_mkdirs _ _ _ _ h
  | announced i t => exact rootOk_make h _ _
  | received i t name =>
    simp only [exec]
    split
    · rename_i hc
      exact rootOk_move h _ _ (not_prefix_below _ _) (fun h' => h.2 _ h' hc.1)
    · exact h
  | descriptor i t => exact rootOk_remove h _ (not_prefix_below _ _)

theorem rootOk_server {R : Path} {c : Sys} (hc : ServerCall R c) (u : Perm) {fs : FS} (h : RootOk R fs) :
    RootOk R (exec u fs c) := by
  cases hc with
  | root => exact rootOk_mkdirs _ _ _ _ h
  | log p => exact rootOk_make h _ _
  | keys t => exact rootOk_make h _ _
  | users d => exact rootOk_mkdirs _ _ _ _ h
  | account d i c hc => exact rootOk_db hc u h
  | cache d i => exact rootOk_mkdirs _ _ _ _ h
  | deliver d i t => exact rootOk_make h _ _
  | delivered d i t => exact rootOk_remove h _ (not_prefix_below _ _)
  | switch d i i' =>
    simp only [exec]
    split
    · exact rootOk_move h _ _ (not_prefix_below _ _) (not_prefix_below _ _)
    · exact h
  | db d c hc => exact rootOk_db hc u h
  | unsock t => exact rootOk_remove h _ (not_prefix_below _ _)
  | sock t => exact rootOk_make h _ _

theorem not_exposed_of_rootOk {R : Path} {fs : FS} (h : RootOk R fs) {p : Path} (hb : Below R p) : ¬ Exposed fs p := by
  rintro ⟨n, _, _, hw⟩
  obtain ⟨m, hm, hx⟩ := hw R hb.1 (Ne.symm hb.2)
  rw [h.1] at hm
  cases hm
  cases hx

/-- If the root directory itself is shut, then nobody else ever gets to anything below it, whatever the umask, and whatever
names the senders of files choose. -/
theorem C124_root (R : Path) (u : Perm) (fs : FS) (h : RootOk R fs) (cs : List Sys)
    (hc : ∀ c ∈ cs, ClientCall R c ∨ ServerCall R c) (p : Path) (hb : Below R p) : ¬ Exposed (run u fs cs) p := by
  have H : RootOk R (run u fs cs) := by
    induction cs using List.reverseRecOn with
    | nil => exact h
    | append_singleton cs c ih =>
      have ih := ih (fun c h => hc c (by simp [h]))
      have : RootOk R (exec u (run u fs cs) c) := by
        rcases hc c (by simp) with hc | hc
        · exact rootOk_client hc u ih
        · exact rootOk_server hc u ih
      simpa [run, List.foldl_append] using this
  exact not_exposed_of_rootOk H hb

theorem mkdirs_root (n : Node) (hn : n = ⟨.dir, own⟩) (t : Path) : ∀ (rest : Path) (fs : FS) (d : Path), rest ≠ [] →
    isDir fs d = true → (∀ q, q <+: d → fs q ≠ none) → (∀ q, q <+: d ++ rest → fs q = none ∨ isDir fs q = true) →
    fs (d ++ rest) = none → RootOk (d ++ rest) (mkdirs fs n d (rest ++ t)) := by
  subst hn
  intro rest
  induction rest with
  | nil => intro fs d h; exact absurd rfl h
  | cons c rest ih =>
    intro fs d _ hd hp hq hn
    rw [List.cons_append, mkdirs]
    have hdl : (d ++ [c]).dropLast = d := List.dropLast_concat
    by_cases hr : rest = []
    · subst hr
      refine rootOk_mkdirs _ _ _ _ ⟨?_, fun q hq' => ?_⟩
      · unfold make
        rw [if_pos ⟨rfl, hn, by simp, by rw [hdl]; exact hd⟩]
      · by_cases he : q = d ++ [c]
        · subst he
          unfold make
          rw [if_pos ⟨rfl, hn, by simp, by rw [hdl]; exact hd⟩]
          simp
        · have := prefix_dropLast hq' he
          rw [hdl] at this
          rw [make_old (hp q this)]
          exact hp q this
    · have e : d ++ c :: rest = d ++ [c] ++ rest := by simp
      rw [e]
      have hnew : isDir (make fs (d ++ [c]) ⟨.dir, own⟩) (d ++ [c]) = true := by
        rcases hq (d ++ [c]) ⟨rest, by simp⟩ with h | h
        · unfold isDir make
          rw [if_pos ⟨rfl, h, by simp, by rw [hdl]; exact hd⟩]
        · have h' : fs (d ++ [c]) ≠ none := by
            intro h'; unfold isDir at h; rw [h'] at h; cases h
          unfold isDir at h ⊢
          rw [make_old h']
          exact h
      refine ih _ _ hr hnew ?_ ?_ ?_
      · intro q hq'
        by_cases he : q = d ++ [c]
        · subst he
          intro h'; unfold isDir at hnew; rw [h'] at hnew; cases hnew
        · have := prefix_dropLast hq' he
          rw [hdl] at this
          rw [make_old (hp q this)]
          exact hp q this
      · intro q hq'
        by_cases he : q = d ++ [c]
        · subst he; exact .inr hnew
        · have e2 : make fs (d ++ [c]) ⟨.dir, own⟩ q = fs q := by unfold make; rw [if_neg (fun h => he h.1)]
          unfold isDir
          rw [e2]
          have := hq q (by rw [e]; exact hq')
          unfold isDir at this
          exact this
      · have : make fs (d ++ [c]) ⟨.dir, own⟩ (d ++ [c] ++ rest) = fs (d ++ [c] ++ rest) := by
          unfold make
          rw [if_neg]
          rintro ⟨h', _⟩
          have := congrArg List.length h'
          simp at this
          exact hr this
        rw [this, ← e]
        exact hn

/-- The first directory that a client or a server makes below a root directory that is not there, or that directory itself,
makes the root directory, and shut. -/
theorem C124_fresh (R t : Path) (hR : R ≠ []) (u : Perm) (fs : FS) (h0 : isDir fs [] = true)
    (hw : ∀ q, q <+: R → fs q = none ∨ isDir fs q = true) (hn : fs R = none) :
    RootOk R (exec u fs (.mkdirAll (R ++ t) own)) := by
  have := mkdirs_root ⟨.dir, own⟩ rfl t R fs [] hR h0
    (by intro q hq
        have : q = [] := List.prefix_nil.1 hq
        subst this
        intro h'; unfold isDir at h0; rw [h'] at h0; cases h0) (by simpa using hw) (by simpa using hn)
  simpa [exec, own_mask] using this

/-! ## What goes wrong -/

namespace Wit

def R : Path := ["home", "u", ".zkclient"]

/-- The user has made the directory, with mode 0755, and the umask is the usual 022. -/
def dir755 : Node := ⟨.dir, ⟨true, false, true⟩⟩
def fs : FS := fun p => if p <+: R then some dir755 else none
def umask : Perm := ⟨false, true, false⟩

theorem closed : Closed R fs := by
  intro p n hb hp
  unfold fs at hp
  split at hp
  · rename_i h
    exact absurd (List.IsPrefix.eq_of_length_le h hb.1.length_le) hb.2
  · cases hp

def calls (name : Path) : List Sys :=
  [.mkdirAll (R ++ ["spool", "i"]) own, .create (R ++ ["spool", "i", "t"]) p666,
    .renameNew (R ++ ["spool", "i", "t"]) (clean (R ++ "spool" :: name))]

theorem calls_ok (name : Path) : ∀ c ∈ calls name, ClientCall R c := by
  intro c hc
  simp only [calls, List.mem_cons, List.not_mem_nil, or_false] at hc
  rcases hc with rfl | rfl | rfl
  · exact .spool "i"
  · exact .announced "i" "t"
  · exact .received "i" "t" name

/-- To decide whether somebody else gets there. -/
def exposed (fs : FS) (p : Path) : Bool :=
  (match fs p with
    | some ⟨.sock, m⟩ => m.w
    | some ⟨_, m⟩ => m.r || m.w
    | none => false) &&
  p.inits.all fun q => q == p || (match fs q with | some ⟨.dir, m⟩ => m.x | _ => false)

theorem exposed_iff (fs : FS) (p : Path) (h : exposed fs p = true) : Exposed fs p := by
  unfold exposed at h
  rw [Bool.and_eq_true, List.all_eq_true] at h
  obtain ⟨h1, h2⟩ := h
  have hq : ∀ q, q <+: p → q ≠ p → ∃ m, fs q = some ⟨.dir, m⟩ ∧ m.x = true := by
    intro q hq hn
    have := h2 q ((List.mem_inits q p).2 hq)
    simp [hn] at this
    split at this
    · exact ⟨_, by assumption, this⟩
    · cases this
  split at h1
  · exact ⟨_, by assumption, h1, hq⟩
  · rename_i k m hk heq
    refine ⟨⟨k, m⟩, heq, ?_, hq⟩
    cases k <;> simp_all
  · cases h1

end Wit

open Wit

/-- Nobody else reads a received file: not so.  The file is made with mode 0666; a sender who names it `../x` has it put
next to the keys, where, if others may enter the root directory, they may read it. -/
theorem C124_received_violated :
    ∃ cs, (∀ c ∈ cs, ClientCall R c) ∧ Closed R fs ∧ Below R (R ++ ["x"]) ∧ Exposed (run umask fs cs) (R ++ ["x"]) :=
  ⟨calls ["..", "x"], calls_ok _, closed, below_child List.prefix_rfl _, exposed_iff _ _ (by decide +kernel)⟩

/-- Only the owner commands the server: not so.  The socket is made with mode 0777 and nothing but the umask and the mode of
the root directory keeps others from it. -/
theorem C124_socket_violated :
    ∃ cs, (∀ c ∈ cs, ServerCall R c) ∧ Closed R fs ∧ Below R (R ++ ["s"]) ∧
      Exposed (run ⟨false, false, false⟩ fs cs) (R ++ ["s"]) := by
  refine ⟨[.listen (R ++ ["s"])], ?_, closed, below_child List.prefix_rfl _, exposed_iff _ _ (by decide +kernel)⟩
  intro c hc
  simp only [List.mem_cons, List.not_mem_nil, or_false] at hc
  subst hc
  exact .sock "s"

/-! ## Examples -/

/-- A file with a plain name is received and is there, in a directory nobody else may enter. -/
example : run umask fs (calls ["photo"]) (R ++ ["spool", "photo"]) = some ⟨.file, ⟨true, false, false⟩⟩ ∧
    run umask fs (calls ["photo"]) (R ++ ["spool"]) = some ⟨.dir, own⟩ := by decide +kernel

example : ¬ Exposed (run umask fs (calls ["photo"])) (R ++ ["spool", "photo"]) := by
  refine C124_client_partial R umask fs closed _ (calls_ok _) ?_ _ (below_append (below_child List.prefix_rfl _) ["photo"])
  intro c hc p q he
  simp only [calls, List.mem_cons, List.not_mem_nil, or_false] at hc
  rcases hc with rfl | rfl | rfl
  · cases he
  · cases he
  · cases he
    exact ⟨["photo"], by decide⟩

/-- A server that makes its own root directory. -/
example : RootOk ["home", "u", ".zkserver"] (exec ⟨false, false, false⟩ (fun p => if p <+: ["home", "u"] then some dir755 else none)
    (.mkdirAll ["home", "u", ".zkserver"] own)) :=
  C124_fresh ["home", "u", ".zkserver"] [] (by simp) _ _ (by decide)
    (fun q hq => by
      by_cases h : q <+: ["home", "u"]
      · right; simp [isDir, h, dir755]
      · left; simp [h]) (by decide)

/-- What a disabled account has is hidden as before. -/
example : ∃ cs, (∀ c ∈ cs, ServerCall R c) ∧
    run umask fs cs (R ++ ["users", "i.disabled", "cache", "m"]) = some ⟨.file, own⟩ := by
  refine ⟨[.mkdirAll (R ++ ["users", "i", "cache"]) own, .create (R ++ ["users", "i", "cache", "m"]) own,
    .rename (R ++ ["users", "i"]) (R ++ ["users", "i.disabled"])], ?_, by decide +kernel⟩
  intro c hc
  simp only [List.mem_cons, List.not_mem_nil, or_false] at hc
  rcases hc with rfl | rfl | rfl
  · exact .cache "users" "i"
  · exact .deliver "users" "i" "m"
  · exact .switch "users" "i" "i.disabled"

end Verif.Perms
