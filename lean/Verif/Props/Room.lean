import Verif.Props.Chunks

/-! # C132: what the files that contacts send take of the disk

On the model of C45 and C46, `Verif.Model.Chunks`. -/

namespace Verif.Chunks

open Verif Path

/-! ## Room -/

/-- Bytes of an entry. -/
def room : Node → Nat
  | .dir => 0
  | .file x => x.length

/-- Bytes of all files. -/
def used (fs : FS) : Nat := (fs.map fun e => room e.2).sum

/-- Bytes of a message that may have to be kept: the announcement, or the chunk. -/
def Msg.bytes : Msg → Nat
  | .new cn => cn.encode.length
  | .chunk c => c.payload.length

/-- New entries of a message: the directories of the sender, the descriptor and the unfinished file. -/
def Msg.entries (E : Env) : Msg → Nat
  | .new _ => E.base.length + 3
  | .chunk _ => 0

theorem used_cons (e : Path × Node) (fs : FS) : used (e :: fs) = room e.2 + used fs := by simp [used]

theorem used_del (fs : FS) (q : Path) : used (fs.del q) ≤ used fs := by
  induction fs with
  | nil => exact Nat.le_refl _
  | cons e fs ih =>
    obtain ⟨p, x⟩ := e
    rw [GoMap.del]
    split <;> simp only [used_cons] <;> omega

theorem used_del_get {fs : FS} {q : Path} {x : Node} (h : fs.get q = some x) : used (fs.del q) + room x ≤ used fs := by
  induction fs with
  | nil => cases h
  | cons e fs ih =>
    obtain ⟨p, y⟩ := e
    rw [GoMap.get] at h
    rw [GoMap.del]
    split at h
    · rename_i hp
      cases h
      have := used_del fs q
      rw [if_pos hp, used_cons]
      show _ + room x ≤ room x + _
      omega
    · rename_i hp
      have := ih h
      rw [if_neg hp, used_cons, used_cons]
      omega

theorem used_set (fs : FS) (q : Path) (x : Node) : used (fs.set q x) ≤ used fs + room x := by
  have := used_del fs q
  show used ((q, x) :: fs.del q) ≤ _
  rw [used_cons]
  show room x + _ ≤ _
  omega

theorem used_set_get {fs : FS} {q : Path} {x y : Node} (h : fs.get q = some x) :
    used (fs.set q y) + room x ≤ used fs + room y := by
  have := used_del_get h
  show used ((q, y) :: fs.del q) + _ ≤ _
  rw [used_cons]
  show room y + _ + _ ≤ _
  omega

theorem length_del (fs : FS) (q : Path) : (fs.del q).length ≤ fs.length := by
  induction fs with
  | nil => exact Nat.le_refl _
  | cons e fs ih =>
    obtain ⟨p, x⟩ := e
    rw [GoMap.del]
    split <;> simp only [List.length_cons] <;> omega

theorem length_del_get {fs : FS} {q : Path} {x : Node} (h : fs.get q = some x) : (fs.del q).length < fs.length := by
  induction fs with
  | nil => cases h
  | cons e fs ih =>
    obtain ⟨p, y⟩ := e
    rw [GoMap.get] at h
    rw [GoMap.del]
    split at h
    · rename_i hp
      have := length_del fs q
      rw [if_pos hp, List.length_cons]
      omega
    · rename_i hp
      have := ih h
      rw [if_neg hp, List.length_cons, List.length_cons]
      omega

theorem mkdirAll_used (cs : List Bytes) : ∀ (fs : FS) (p : Path),
    used (mkdirAll fs p cs) ≤ used fs ∧ (mkdirAll fs p cs).length ≤ fs.length + cs.length := by
  induction cs with
  | nil => intro fs p; exact ⟨Nat.le_refl _, Nat.le_refl _⟩
  | cons c cs ih =>
    intro fs p
    rw [mkdirAll]
    split
    · exact ⟨Nat.le_refl _, by omega⟩
    · have := ih fs (p ++ [c])
      exact ⟨this.1, by rw [List.length_cons]; omega⟩
    · have h := ih (fs.set (p ++ [c]) .dir) (p ++ [c])
      have h1 := used_set fs (p ++ [c]) .dir
      have h2 := length_del fs (p ++ [c])
      have h3 : (GoMap.set fs (p ++ [c]) Node.dir).length = (fs.del (p ++ [c])).length + 1 := rfl
      have h4 : room Node.dir = 0 := rfl
      rw [List.length_cons]
      omega

theorem create_used {fs fs' : FS} {p : Path} {x : Bytes} (h : create fs p x = some fs') :
    used fs' ≤ used fs + x.length ∧ fs'.length ≤ fs.length + 1 := by
  unfold create at h
  split at h
  · cases h
    have h1 := used_set fs p (.file x)
    have h2 := length_del fs p
    have h3 : (GoMap.set fs p (Node.file x)).length = (fs.del p).length + 1 := rfl
    have h4 : room (Node.file x) = x.length := rfl
    omega
  · cases h

theorem handleNew_used (E : Env) (fs : FS) (a : Digest) (cn : ChunkNew) (flt : Fault) :
    used (handleNew E fs a cn flt) ≤ used fs + cn.encode.length ∧
      (handleNew E fs a cn flt).length ≤ fs.length + (E.base.length + 3) := by
  unfold handleNew
  split
  · omega
  · have hm := mkdirAll_used (dirOf E a) fs []
    have hd : (dirOf E a).length = E.base.length + 1 := by simp [dirOf]
    dsimp only
    split
    · omega
    · rename_i fs2 h2
      have h3 := create_used h2
      have h3' : used fs2 ≤ used (mkdirAll fs [] (dirOf E a)) + cn.encode.length := by
        refine Nat.le_trans h3.1 (Nat.add_le_add_left ?_ _)
        split
        · exact List.length_take_le' _ _
        · exact Nat.le_refl _
      replace h3 := h3.2
      split
      · omega
      · omega
      · split
        · omega
        · rename_i fs3 h4
          have h5 := create_used h4
          simp only [List.length_nil] at h5
          omega

theorem finish_used {E : Env} {fs fs' : FS} {a d : Digest} {flt : Fault} (h : finish E fs a d flt = .done fs') :
    used fs' ≤ used fs ∧ fs'.length ≤ fs.length := by
  unfold finish at h
  split at h
  · cases h; omega
  split at h
  · cases h; omega
  split at h
  · cases h; omega
  split at h
  · cases h; omega
  split at h
  · cases h; omega
  split at h
  · cases h
  split at h
  · cases h; omega
  split at h
  · cases h; omega
  next q _ _ _ fs2 hr =>
  obtain ⟨z, hz, rfl⟩ := rename_some hr
  have hz' := read_eq_some.mp hz
  have h1 := used_del_get hz'
  have h2 := length_del_get hz'
  have h3 := used_set (fs.del (spoolOf E a d)) q (.file z)
  have h4 := length_del (fs.del (spoolOf E a d)) q
  have h5 : (GoMap.set (fs.del (spoolOf E a d)) q (Node.file z)).length = ((fs.del (spoolOf E a d)).del q).length + 1 := rfl
  have h6 := used_del (GoMap.set (fs.del (spoolOf E a d)) q (Node.file z)) (descOf E a)
  have h7 := length_del (GoMap.set (fs.del (spoolOf E a d)) q (Node.file z)) (descOf E a)
  cases h
  split <;> omega

theorem handleChunk_used {E : Env} {fs fs' : FS} {a : Digest} {c : Chunk} {flt : Fault}
    (h : handleChunk E fs a c flt = .done fs') : used fs' ≤ used fs + c.payload.length ∧ fs'.length ≤ fs.length := by
  unfold handleChunk at h
  split at h
  · cases h; omega
  split at h
  · cases h; omega
  next x hx =>
  have hx' := read_eq_some.mp hx
  have key : ∀ p : Bytes, p.length ≤ c.payload.length →
      used (fs.set (spoolOf E a c.digest) (.file (x ++ p))) ≤ used fs + c.payload.length ∧
      (GoMap.set fs (spoolOf E a c.digest) (Node.file (x ++ p))).length ≤ fs.length := by
    intro p hp
    have h1 := used_set_get (y := .file (x ++ p)) hx'
    have h2 := length_del_get hx'
    have h3 : (GoMap.set fs (spoolOf E a c.digest) (Node.file (x ++ p))).length =
      (fs.del (spoolOf E a c.digest)).length + 1 := rfl
    simp only [room, List.length_append] at h1
    omega
  split at h
  · cases h; omega
  split at h
  · cases h; exact key _ (List.length_take_le' _ _)
  · cases h; exact key _ (Nat.le_refl _)
  · have h1 := key c.payload (Nat.le_refl _)
    have h2 := finish_used h
    omega

/-- **C132** Whatever contacts send, in whatever order and whatever fails: the files on the disk grow by no more than what
was sent, and there are no more new entries than the announcements ask for. A chunk makes no new entry. -/
theorem C132_room {E : Env} {s s' : State} {es : List Ev} (hr : Run E s es s') :
    used s'.fs ≤ used s.fs + (es.map fun e => e.msg.bytes).sum ∧
      s'.fs.length ≤ s.fs.length + (es.map fun e => e.msg.entries E).sum := by
  induction hr with
  | nil => simp
  | @cons s e s1 es s2 hs _ ih =>
    have h1 : used s1.fs ≤ used s.fs + e.msg.bytes ∧ s1.fs.length ≤ s.fs.length + e.msg.entries E := by
      unfold step at hs
      split at hs
      · cases hs
      split at hs
      next cn hm => cases hs; rw [hm]; exact handleNew_used E s.fs e.sender cn e.fault
      next c hm =>
        rw [hm]
        split at hs
        next fs hf => cases hs; exact handleChunk_used hf
        next => cases hs; exact ⟨Nat.le_add_right _ _, Nat.le_refl _⟩
    simp only [List.map_cons, List.sum_cons]
    omega

/-! ## Unfinished files -/

/-- The chunks of a sender for this digest end before `N`, as those do that are sent for a file of `N` bytes. -/
def Within (a d : Digest) (N : Nat) (e : Ev) : Prop :=
  ∀ c, e.msg = .chunk c → e.sender = a → c.digest = d → c.offset < 2 ^ 63 ∧ c.offset + c.payload.length ≤ N

theorem spool_inj {E : Env} {a d d' : Digest} (h : spoolOf E a d = spoolOf E a d') : d = d' := by
  have := (List.append_inj' h rfl).2
  exact encode_inj (by simpa using this)

/-- An unfinished file that is not what it was is empty, or a chunk of its sender has made it longer. -/
theorem spool_step {E : Env} {l : List Ev} {s s' : State} {e : Ev} (hd : Decent l) (hi : Announced E l s.fs)
    (h : step E s e = some s') {a d : Digest} {x : Bytes} (hx : s'.fs.get (spoolOf E a d) = some (.file x)) :
    s.fs.get (spoolOf E a d) = some (.file x) ∨ x = [] ∨
      ∃ c y, e.msg = .chunk c ∧ e.sender = a ∧ c.digest = d ∧ s.fs.get (spoolOf E a d) = some (.file y) ∧
        (y.length : Int) = toInt64 c.offset ∧ x.length ≤ y.length + c.payload.length := by
  by_cases hsame : s.fs.get (spoolOf E a d) = some (.file x)
  · exact .inl hsame
  refine .inr ?_
  by_cases hown : e.sender = a
  · obtain ⟨a', m, flt⟩ := e
    dsimp only at hown
    subst hown
    cases m with
    | new cn0 =>
      rw [step_new h] at hx
      have hmk : (mkdirAll s.fs [] (dirOf E a')).get (spoolOf E a' d) ≠ some (.file x) := by
        intro hg
        rcases get_mkdirAll _ _ _ _ _ hg with h1 | h1
        · exact hsame h1
        · cases h1.1
      unfold handleNew at hx
      split at hx
      · exact absurd hx hsame
      dsimp only at hx
      split at hx
      · exact absurd hx hmk
      next fs2 hc =>
        have h2 : fs2.get (spoolOf E a' d) ≠ some (.file x) := by
          rw [create_some hc, GoMap.get_set_ne _ _ (desc_ne_spool E a' a' _)]
          exact hmk
        split at hx
        · exact absurd hx h2
        · exact absurd hx h2
        · split at hx
          · exact absurd hx h2
          next fs3 hc3 =>
            rw [create_some hc3, GoMap.get_set] at hx
            split at hx
            · cases hx; exact .inl rfl
            · exact absurd hx h2
    | chunk c =>
      unfold step at h
      split at h
      · cases h
      dsimp only at h
      split at h
      next fs' hf =>
        cases h
        unfold handleChunk at hf
        split at hf
        · cases hf; exact absurd hx hsame
        split at hf
        · cases hf; exact absurd hx hsame
        next y hy =>
        have hy' := read_eq_some.mp hy
        split at hf
        · cases hf; exact absurd hx hsame
        next hoff =>
        have hoff' : (y.length : Int) = toInt64 c.offset := Decidable.byContradiction fun hne => by
          simp_all
        have key : ∀ p : Bytes, p.length ≤ c.payload.length →
            (s.fs.set (spoolOf E a' c.digest) (.file (y ++ p))).get (spoolOf E a' d) = some (.file x) →
            ∃ c' y', Msg.chunk c = .chunk c' ∧ a' = a' ∧ c'.digest = d ∧ s.fs.get (spoolOf E a' d) = some (.file y') ∧
              (y'.length : Int) = toInt64 c'.offset ∧ x.length ≤ y'.length + c'.payload.length := by
          intro p hp hg
          rw [GoMap.get_set] at hg
          split at hg
          next he =>
            cases hg
            have hdd : c.digest = d := spool_inj he
            subst hdd
            exact ⟨c, y, rfl, rfl, rfl, hy', hoff', by rw [List.length_append]; omega⟩
          · exact absurd hg hsame
        split at hf
        · cases hf; exact .inr (key _ (List.length_take_le' _ _) hx)
        · cases hf; exact .inr (key _ (Nat.le_refl _) hx)
        · by_cases hg : (s.fs.set (spoolOf E a' c.digest) (.file (y ++ c.payload))).get (spoolOf E a' d) = some (.file x)
          · exact .inr (key _ (Nat.le_refl _) hg)
          · exfalso
            obtain ⟨b2, cn2, k, h1, h2, _, _, h5⟩ := finish_adds hf hx hg
            rw [GoMap.get_set_ne _ _ (Ne.symm (desc_ne_spool E a' a' _))] at h1
            obtain ⟨e', he', _, h7⟩ := hi a' b2 cn2 h1 h2
            rw [join_prefixed (hd e' he' cn2 h7).1] at h5
            exact not_own_place E a' _ (h5 ▸ own_spool E a' d)
      · cases h
        exact absurd hx hsame
  · exfalso
    have hq : ¬ Own E e.sender (spoolOf E a d) := fun ho => hown (own_sender ho (own_spool E a d))
    obtain ⟨b2, cn2, k, h1, h2, _, _, h5⟩ := C45_integrity h hq hx hsame
    obtain ⟨e', he', _, h7⟩ := hi e.sender b2 cn2 h1 h2
    rw [join_prefixed (hd e' he' cn2 h7).1] at h5
    exact not_own_place E a _ (h5 ▸ own_spool E a d)

theorem size_run {E : Env} {a d : Digest} {N : Nat} {s s' : State} {es : List Ev} (hr : Run E s es s') :
    ∀ {l : List Ev}, Decent (l ++ es) → Announced E l s.fs → (∀ e ∈ es, Within a d N e) →
    (∀ x, s.fs.get (spoolOf E a d) = some (.file x) → x.length ≤ N) →
    ∀ x, s'.fs.get (spoolOf E a d) = some (.file x) → x.length ≤ N := by
  induction hr with
  | nil => intro l _ _ _ h; exact h
  | @cons s e s1 es s2 h1 _ ih =>
    intro l hd hi hw h0
    have hd' : Decent (l ++ [e]) := fun e' he' => hd e' (by
        rcases List.mem_append.mp he' with h | h
        · exact List.mem_append_left _ h
        · exact List.mem_append_right _ (by rw [List.mem_singleton.mp h]; exact List.mem_cons_self ..))
    refine ih (l := l ++ [e]) (by simpa using hd) (announced_step hd' hi h1)
      (fun e' he' => hw e' (List.mem_cons_of_mem _ he')) fun x hx => ?_
    rcases spool_step (fun e' he' => hd e' (List.mem_append_left _ he')) hi h1 hx with h | rfl | ⟨c, y, hm, hs, hdd, hy, ho, hl⟩
    · exact h0 x h
    · exact Nat.zero_le _
    · obtain ⟨h2, h3⟩ := hw e (List.mem_cons_self ..) c hm hs hdd
      rw [toInt64_of_lt h2] at ho
      omega

/-- **C132** (partial: for a sender whose chunks end where the file does; nothing enforces that, see
`C132_size_violated`) If the chunks that someone sends of a file end before `N`, and the announced names are plain, then
the unfinished file never gets longer than `N`, whatever others send and whatever fails. -/
theorem C132_size_partial {E : Env} {a d : Digest} {N : Nat} {s s' : State} {es : List Ev} (hr : Run E s es s')
    (hd : Decent es) (h0 : ∀ b, read s.fs (descOf E b) = none) (h1 : s.fs.get (spoolOf E a d) = none)
    (hw : ∀ e ∈ es, Within a d N e) {x : Bytes} (hx : s'.fs.get (spoolOf E a d) = some (.file x)) : x.length ≤ N := by
  refine size_run hr (l := []) (by simpa using hd) (by
    intro a b cn hb _
    have := h0 a
    rw [read_eq_some.mpr hb] at this
    cases this) hw (fun y hy => ?_) x hx
  rw [h1] at hy
  cases hy

/-- **C132** A file that appears takes exactly what has been announced: it is as long as its announcement says. -/
theorem C132_landed {E : Env} {s s1 s2 : State} {es : List Ev} {e : Ev} (hr : Run E s es s1) (hd : Decent es)
    (h0 : ∀ a, read s.fs (descOf E a) = none) (h : step E s1 e = some s2) {q : Path} {x : Bytes}
    (hq : ¬ Own E e.sender q) (hx : s2.fs.get q = some (.file x)) (hn : s1.fs.get q ≠ some (.file x)) :
    ∃ e' ∈ es, ∃ cn, e'.sender = e.sender ∧ e'.msg = .new cn ∧ x.length = cn.size := by
  obtain ⟨e', he', cn, _, h1, h2, h3, _⟩ := C45_announced hr hd h0 h hq hx hn
  exact ⟨e', he', cn, h1, h2, h3⟩

/-! ## What is violated -/

/-- **C132** (violated) The announced size limits nothing: a contact that has announced a file of one byte can make the
unfinished file as long as they like, with chunks of any size; the receiver compares the length with the announced size
only to see whether the file is complete, and there is no limit for what is accepted. -/
theorem C132_size_violated {E : Env} {a : Digest} {fs : FS} (hr : Ready E a fs) {cn : ChunkNew} (hfit : cn.Fits)
    (hsz : cn.size = 1) (n : Nat) (hn : n < 2 ^ 60) :
    ∃ es s', Run E ⟨fs, false⟩ (evOf a (.new cn) :: es) s' ∧ (∀ e ∈ es, ∃ c, e.msg = .chunk c ∧ c.payload.length = 2) ∧
      s'.fs.get (spoolOf E a cn.digest) = some (.file (List.replicate (2 * n) 0)) := by
  suffices H : ∃ es s', Run E ⟨fs, false⟩ (evOf a (.new cn) :: es) s' ∧
      (∀ e ∈ es, ∃ c, e.msg = .chunk c ∧ c.payload.length = 2) ∧ s'.hung = false ∧
      Mid E a cn (List.replicate (2 * n) 0) s'.fs by
    obtain ⟨es, s', h1, h2, _, h3⟩ := H
    exact ⟨es, s', h1, h2, h3.spool⟩
  induction n with
  | zero =>
    refine ⟨[], ⟨handleNew E fs a cn .none, false⟩, .cons rfl (.nil _), by simp, rfl, ?_⟩
    exact handleNew_mid hr cn
  | succ n ih =>
    obtain ⟨es, ⟨fs', hung⟩, h1, h2, h3, h4⟩ := ih (by omega)
    dsimp only at h3
    subst h3
    have hc := handleChunk_mid (p := [0, 0]) h4 hfit (by rw [List.length_replicate]; omega) (by rw [hsz]; decide)
      (by rw [hsz, List.length_append, List.length_replicate]; simp)
    obtain ⟨fs2, hc1, hc2⟩ := hc
    refine ⟨es ++ [evOf a (.chunk ⟨2 * n, cn.digest, [0, 0]⟩)], ⟨fs2, false⟩, ?_, ?_, rfl, ?_⟩
    · rw [← List.cons_append]
      refine run_append.mpr ⟨_, h1, .cons ?_ (.nil _)⟩
      rw [List.length_replicate] at hc1
      show (match handleChunk E fs' a ⟨2 * n, cn.digest, [0, 0]⟩ .none with
        | .done fs => some (⟨fs, false⟩ : State) | .hang => some ⟨fs', true⟩) = _
      rw [hc1]
    · intro e he
      rcases List.mem_append.mp he with h | h
      · exact h2 e h
      · rw [List.mem_singleton.mp h]
        exact ⟨_, rfl, rfl⟩
    · rw [show 2 * (n + 1) = 2 * n + 2 from rfl, List.replicate_add]
      exact hc2

/-- The file that a message is about. -/
def Msg.about : Msg → Digest
  | .new cn => cn.digest
  | .chunk c => c.digest

theorem finish_keeps {E : Env} {fs fs' : FS} {a d d' : Digest} {flt : Fault} (h : finish E fs a d' flt = .done fs')
    (hne : d' ≠ d) {x : Bytes} (hx : fs.get (spoolOf E a d) = some (.file x)) :
    fs'.get (spoolOf E a d) = some (.file x) := by
  unfold finish at h
  split at h
  · cases h; exact hx
  split at h
  · cases h; exact hx
  split at h
  · cases h; exact hx
  split at h
  · cases h; exact hx
  split at h
  · cases h; exact hx
  split at h
  · cases h
  next q hl =>
  split at h
  · cases h; exact hx
  split at h
  · cases h; exact hx
  next fs2 hr =>
  obtain ⟨z, hz, rfl⟩ := rename_some hr
  obtain ⟨k, hq, hfree, _⟩ := landing_some hl
  have hq' : spoolOf E a d ≠ q := by
    rintro rfl
    simp [exist, hx] at hfree
  have h1 : ((fs.del (spoolOf E a d')).set q (.file z)).get (spoolOf E a d) = some (.file x) := by
    rw [GoMap.get_set_ne _ _ (Ne.symm hq'), GoMap.get_del_ne _ (fun he => hne (spool_inj he))]
    exact hx
  cases h
  split
  · exact h1
  · rw [GoMap.get_del_ne _ (desc_ne_spool E a a d)]
    exact h1

/-- **C132** (violated) What someone has begun to send is never cleaned up: the unfinished file is still there, as it was,
after whatever others send, after whatever its sender sends of other files, and whatever fails. -/
theorem C132_stays_violated {E : Env} {s s' : State} {es : List Ev} (hr : Run E s es s') {a d : Digest} {x : Bytes}
    (hx : s.fs.get (spoolOf E a d) = some (.file x)) (hes : ∀ e ∈ es, e.sender = a → e.msg.about ≠ d) :
    s'.fs.get (spoolOf E a d) = some (.file x) := by
  induction hr with
  | nil => exact hx
  | @cons s e s1 es s2 h _ ih =>
    refine ih ?_ fun e' he' => hes e' (List.mem_cons_of_mem _ he')
    by_cases hown : e.sender = a
    · have hne := hes e (List.mem_cons_self ..) hown
      obtain ⟨a', m, flt⟩ := e
      dsimp only at hown
      subst hown
      cases m with
      | new cn =>
        rw [step_new h]
        have hmk := get_mkdirAll_of_some (dirOf E a') _ [] _ _ hx
        unfold handleNew
        split
        · exact hx
        dsimp only
        split
        · exact hmk
        next fs2 hc =>
          have h2 : fs2.get (spoolOf E a' d) = some (.file x) := by
            rw [create_some hc, GoMap.get_set_ne _ _ (desc_ne_spool E a' a' _)]
            exact hmk
          split
          · exact h2
          · exact h2
          · split
            · exact h2
            next fs3 hc3 =>
              rw [create_some hc3, GoMap.get_set_ne _ _ (show spoolOf E a' cn.digest ≠ spoolOf E a' d from fun he => hne (spool_inj he))]
              exact h2
      | chunk c =>
        unfold step at h
        split at h
        · cases h
        dsimp only at h
        split at h
        next fs' hf =>
          cases h
          have key : ∀ p : Bytes, (s.fs.set (spoolOf E a' c.digest) (.file p)).get (spoolOf E a' d) = some (.file x) := by
            intro p
            rw [GoMap.get_set_ne _ _ (show spoolOf E a' c.digest ≠ spoolOf E a' d from fun he => hne (spool_inj he))]
            exact hx
          unfold handleChunk at hf
          split at hf
          · cases hf; exact hx
          split at hf
          · cases hf; exact hx
          split at hf
          · cases hf; exact hx
          split at hf
          · cases hf; exact key _
          · cases hf; exact key _
          · exact finish_keeps hf hne (key _)
        · cases h
          exact hx
    · exact (change_step h).keeps _ _ (fun ho => hown (own_sender ho (own_spool E a d))) hx

/-- **C132** (violated) A file whose digest is not the announced one is refused, and its bytes stay as well. -/
theorem C132_corrupt_violated : ∃ s', Run Wit.E Wit.init
      [evOf Wit.idA (.new ⟨1, 1, [102], [], [], Wit.dig 1⟩), evOf Wit.idA (.chunk ⟨0, Wit.dig 1, [2]⟩)] s' ∧
    s'.fs.get (spoolOf Wit.E Wit.idA (Wit.dig 1)) = some (.file [2]) ∧ s'.fs.get (Wit.E.base ++ [[102]]) = none :=
  ⟨_, run_of_exec rfl, by decide +kernel, by decide +kernel⟩

/-! Not vacuous: a file of two bytes arrives; what is on the disk then is the two bytes, and there were three new entries
(two directories, and the file). -/

example : ∃ s', Run Wit.E Wit.init ((Wit.fNew :: Wit.fMsgs).map (evOf Wit.idA)) s' ∧ used s'.fs = 2 ∧ s'.fs.length = 3 :=
  ⟨_, run_of_exec rfl, by decide +kernel, by decide +kernel⟩

/-- After the first of two chunks, the unfinished file has one byte, the chunks end before 2, and all names are plain. -/
example : ∃ s', Run Wit.E Wit.init ([Wit.fNew, .chunk ⟨0, Wit.dig 1, [1]⟩].map (evOf Wit.idA)) s' ∧
    s'.fs.get (spoolOf Wit.E Wit.idA (Wit.dig 1)) = some (.file [1]) ∧
    ∀ e ∈ [Wit.fNew, .chunk ⟨0, Wit.dig 1, [1]⟩].map (evOf Wit.idA), Within Wit.idA (Wit.dig 1) 2 e := by
  refine ⟨_, run_of_exec rfl, by decide +kernel, fun e he c hc _ _ => ?_⟩
  simp only [List.map_cons, List.map_nil, List.mem_cons, List.not_mem_nil, or_false] at he
  rcases he with rfl | rfl
  · cases hc
  · cases hc; decide

/-- An announcement of one byte, to someone who has received nothing yet. -/
example : ∃ es s', Run Wit.E Wit.init (evOf Wit.idA (.new ⟨1, 1, [102], [], [], Wit.dig 1⟩) :: es) s' ∧
    ∃ x, s'.fs.get (spoolOf Wit.E Wit.idA (Wit.dig 1)) = some (.file x) ∧ x.length = 2000000 := by
  obtain ⟨es, s', h1, _, h2⟩ := C132_size_violated (E := Wit.E) (a := Wit.idA) (fs := [])
    (cn := ⟨1, 1, [102], [], [], Wit.dig 1⟩) ⟨fun _ _ _ _ => by simp [GoMap.get], fun _ _ => by simp [GoMap.get]⟩ (by
      refine ⟨?_, ?_, ⟨?_, fun h => absurd rfl h⟩, ⟨?_, fun h => absurd rfl h⟩, ⟨?_, fun h => absurd rfl h⟩, ?_⟩
      · show 1 < 2 ^ 64; decide
      · show 1 < 2 ^ 64; decide
      · show 1 + 3 < 2 ^ 31; decide
      · show 0 + 3 < 2 ^ 31; decide
      · show 0 + 3 < 2 ^ 31; decide
      · show 32 + 3 < 2 ^ 31; decide) rfl 1000000 (by decide)
  exact ⟨es, s', h1, _, h2, List.length_replicate⟩

end Verif.Chunks
