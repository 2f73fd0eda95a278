import Verif.Model.Chunks
import Verif.Proofs.Path
import Verif.Props.Hex
import Verif.Props.Xdr
import Mathlib.Data.List.Induction

/-! Lemmas about received files. -/

namespace Verif.Chunks

open Verif Path

/-! ## The loop that looks for a free name -/

theorem landingFrom_some {fs : FS} {base : Path} {name : Bytes} : ∀ (fuel k : Nat) {q : Path},
    landingFrom fs base name fuel k = some q →
    ∃ j, k ≤ j ∧ q = join base (prefixed j name) ∧ exist fs q = false ∧
      ∀ i, k ≤ i → i < j → exist fs (join base (prefixed i name)) = true := by
  intro fuel
  induction fuel with
  | zero => intro k q h; cases h
  | succ fuel ih =>
    intro k q h
    rw [landingFrom] at h
    split at h
    next he =>
      obtain ⟨j, h1, h2, h3, h4⟩ := ih (k + 1) h
      refine ⟨j, by omega, h2, h3, fun i hi1 hi2 => ?_⟩
      by_cases hik : i = k
      · subst hik; exact he
      · exact h4 i (by omega) hi2
    next he =>
      cases h
      exact ⟨k, Nat.le_refl k, rfl, by simpa using he, fun i h1 h2 => by omega⟩

theorem landingFrom_none {fs : FS} {base : Path} {name : Bytes} : ∀ (fuel k : Nat),
    landingFrom fs base name fuel k = none →
    ∀ i, k ≤ i → i < k + fuel → exist fs (join base (prefixed i name)) = true := by
  intro fuel
  induction fuel with
  | zero => intro k h i h1 h2; omega
  | succ fuel ih =>
    intro k h i h1 h2
    rw [landingFrom] at h
    split at h
    next he =>
      by_cases hik : i = k
      · subst hik; exact he
      · exact ih (k + 1) h i (by omega) (by omega)
    · cases h

/-- The candidates after the first are all equal or all different and not the root. -/
theorem candidates (base : Path) (name : Bytes) :
    (∃ q, ∀ k, join base (prefixed (k + 1) name) = q) ∨
      ((∀ j k, join base (prefixed (j + 1) name) = join base (prefixed (k + 1) name) → j = k) ∧
        ∀ k, join base (prefixed (k + 1) name) ≠ []) := by
  obtain ⟨w, ws, hw⟩ := List.exists_cons_of_ne_nil (split_ne_nil name)
  have hj : ∀ k, join base (prefixed (k + 1) name) =
      ws.foldl push (base ++ [List.replicate (k + 1) 49 ++ w]) := by
    intro k
    unfold join prefixed
    rw [split_replicate (by decide) hw, List.foldl_cons, push_normal]
    refine ⟨by simp [List.replicate_succ], ?_, ?_⟩ <;> simp [List.replicate_succ]
  rcases foldl_push_dichotomy base ws [] with ⟨q, hq⟩ | ⟨t, ht⟩
  · left
    refine ⟨q, fun k => ?_⟩
    rw [hj]
    simpa using hq (List.replicate (k + 1) 49 ++ w)
  · right
    have hj' : ∀ k, join base (prefixed (k + 1) name) = base ++ [List.replicate (k + 1) 49 ++ w] ++ t := by
      intro k
      rw [hj, ← ht]
      simp
    constructor
    · intro j k h
      rw [hj', hj'] at h
      have h1 := List.append_cancel_right h
      have h2 := List.append_cancel_left h1
      have h3 := congrArg List.length (List.head_eq_of_cons_eq h2)
      simp at h3
      omega
    · intro k
      rw [hj']
      simp

theorem length_keys_le {fs : FS} {l : List Path} (hn : l.Nodup) (h : ∀ p ∈ l, (fs.get p).isSome) :
    l.length ≤ fs.length := by
  have hs : l ⊆ GoMap.keys fs := fun p hp => (GoMap.mem_keys_iff fs p).mpr (h p hp)
  have := (hn.subperm hs).length_le
  simpa [GoMap.keys] using this

/-- The bound on the rounds changes nothing: the loop does not end exactly if every candidate exists. -/
theorem landing_none_iff (fs : FS) (base : Path) (name : Bytes) :
    landing fs base name = none ↔ ∀ k, exist fs (join base (prefixed k name)) = true := by
  constructor
  · intro h
    have hb := landingFrom_none _ _ h
    rcases candidates base name with ⟨q, hq⟩ | ⟨hinj, hne⟩
    · intro k
      cases k with
      | zero => exact hb 0 (Nat.le_refl 0) (by omega)
      | succ k =>
        rw [hq, ← hq 0]
        exact hb 1 (by omega) (by omega)
    · exfalso
      have hl : ((List.range (fs.length + 1)).map fun k => join base (prefixed (k + 1) name)).length ≤ fs.length := by
        apply length_keys_le
        · refine List.Nodup.map_on ?_ List.nodup_range
          intro a _ b _ hab
          exact hinj a b hab
        · intro p hp
          obtain ⟨k, hk, rfl⟩ := List.mem_map.mp hp
          have := hb (k + 1) (by omega) (by have := List.mem_range.mp hk; omega)
          simpa [exist, hne k] using this
      simp at hl
      omega
  · intro h
    rcases hl : landing fs base name with _ | q
    · rfl
    · obtain ⟨j, _, h2, h3, _⟩ := landingFrom_some _ _ hl
      rw [h2, h j] at h3
      cases h3

theorem landing_some {fs : FS} {base : Path} {name : Bytes} {q : Path} (h : landing fs base name = some q) :
    ∃ k, q = join base (prefixed k name) ∧ exist fs q = false ∧
      ∀ i, i < k → exist fs (join base (prefixed i name)) = true := by
  obtain ⟨j, _, h2, h3, h4⟩ := landingFrom_some _ _ h
  exact ⟨j, h2, h3, fun i hi => h4 i (Nat.zero_le i) hi⟩

/-- A plain file name: no `/`, and not empty, `.` or `..`. -/
def Plain (name : Bytes) : Prop := (47 : UInt8) ∉ name ∧ Normal name

instance (name : Bytes) : Decidable (Plain name) := by unfold Plain; infer_instance

theorem plain_prefixed {name : Bytes} (h : Plain name) (k : Nat) : Plain (prefixed k name) := by
  cases k with
  | zero => exact h
  | succ k =>
    refine ⟨?_, ?_, ?_, ?_⟩
    · simp [prefixed, h.1]
    · simp [prefixed, List.replicate_succ]
    · simp [prefixed, List.replicate_succ]
    · simp [prefixed, List.replicate_succ]

theorem join_plain {name : Bytes} (h : Plain name) (base : Path) : join base name = base ++ [name] := by
  unfold join
  rw [split_noSlash h.1, List.foldl_cons, push_normal h.2, List.foldl_nil]

theorem join_prefixed {name : Bytes} (h : Plain name) (base : Path) (k : Nat) :
    join base (prefixed k name) = base ++ [prefixed k name] := join_plain (plain_prefixed h k) base

/-- With a plain name the loop ends. -/
theorem landing_plain {name : Bytes} (h : Plain name) (fs : FS) (base : Path) :
    ∃ k, landing fs base name = some (base ++ [prefixed k name]) ∧ fs.get (base ++ [prefixed k name]) = none := by
  rcases hl : landing fs base name with _ | q
  · exfalso
    rw [landing_none_iff] at hl
    have hlen : ((List.range (fs.length + 1)).map fun k => base ++ [prefixed k name]).length ≤ fs.length := by
      apply length_keys_le
      · refine List.Nodup.map_on ?_ List.nodup_range
        intro a _ b _ hab
        have := congrArg List.length (List.head_eq_of_cons_eq (List.append_cancel_left hab))
        simpa [prefixed] using this
      · intro p hp
        obtain ⟨k, hk, rfl⟩ := List.mem_map.mp hp
        have := hl k
        rw [join_prefixed h] at this
        simpa [exist] using this
    simp at hlen
    omega
  · obtain ⟨k, h1, h2, _⟩ := landing_some hl
    rw [join_prefixed h] at h1
    refine ⟨k, by rw [h1], ?_⟩
    rw [h1] at h2
    simpa [exist] using h2

/-! ## Paths of the senders -/

theorem encode_length (b : Bytes) : (Hex.encode b).length = 2 * b.length := by
  induction b with
  | nil => rfl
  | cons x b ih => simp [Hex.encode, ih]; omega

theorem encode_inj {a b : Digest} (h : Hex.encode a.1 = Hex.encode b.1) : a = b :=
  Subtype.ext (Hex.C20_injective _ _ h)

theorem descName_ne (d : Digest) : descName ≠ Hex.encode d.1 := by
  intro h
  have := congrArg List.length h
  rw [encode_length, d.2] at this
  revert this
  decide

theorem desc_ne_spool (E : Env) (a b d : Digest) : descOf E a ≠ spoolOf E b d := by
  intro h
  have := (List.append_inj' h rfl).2
  exact descName_ne d (by simpa using this)

/-- The files that the messages of `a` create, write to and remove. -/
def Own (E : Env) (a : Digest) (q : Path) : Prop := q = descOf E a ∨ ∃ d, q = spoolOf E a d

theorem own_dirOf {E : Env} {a : Digest} {q : Path} (h : Own E a q) : ∃ c, q = dirOf E a ++ [c] := by
  rcases h with rfl | ⟨d, rfl⟩ <;> exact ⟨_, rfl⟩

theorem own_sender {E : Env} {a b : Digest} {q : Path} (h : Own E a q) (h2 : Own E b q) : a = b := by
  obtain ⟨c, hc⟩ := own_dirOf h
  obtain ⟨c', hc'⟩ := own_dirOf h2
  rw [hc] at hc'
  have h3 := (List.append_inj' hc' rfl).1
  have h4 := (List.append_inj' h3 rfl).2
  exact encode_inj (by simpa using h4)

theorem not_own_of_length {E : Env} {a : Digest} {q : Path} (h : q.length ≤ E.base.length + 1) : ¬ Own E a q := by
  intro h1
  obtain ⟨c, rfl⟩ := own_dirOf h1
  simp [dirOf] at h

theorem not_own_place (E : Env) (a : Digest) (name : Bytes) : ¬ Own E a (E.base ++ [name]) :=
  not_own_of_length (by simp)

theorem not_own_dirOf (E : Env) (a b : Digest) : ¬ Own E a (dirOf E b) :=
  not_own_of_length (by simp [dirOf])

theorem own_not_prefix {E : Env} {a b : Digest} {q : Path} (h : Own E a q) : ¬ q <+: dirOf E b := by
  intro h1
  obtain ⟨c, rfl⟩ := own_dirOf h
  have := h1.length_le
  simp [dirOf] at this

/-! ## What a message changes -/

/-- How a file system may change through a message of `a`. -/
structure Change (E : Env) (a : Digest) (fs fs' : FS) : Prop where
  /-- everything but the files of `a` stays -/
  keeps : ∀ q x, ¬ Own E a q → fs.get q = some x → fs'.get q = some x
  /-- new directories -/
  dirs : ∀ q, fs'.get q = some .dir → fs.get q = some .dir ∨ q <+: dirOf E a ∧ q ≠ []

theorem Change.refl (E : Env) (a : Digest) (fs : FS) : Change E a fs fs :=
  ⟨fun _ _ _ h => h, fun _ h => .inl h⟩

theorem Change.trans {E : Env} {a : Digest} {f g h : FS} (h1 : Change E a f g) (h2 : Change E a g h) :
    Change E a f h :=
  ⟨fun q x hq hx => h2.keeps q x hq (h1.keeps q x hq hx),
   fun q hq => by
    rcases h2.dirs q hq with h3 | h3
    · exact h1.dirs q h3
    · exact .inr h3⟩

theorem change_mkdirAll (E : Env) (a : Digest) (fs : FS) : Change E a fs (mkdirAll fs [] (dirOf E a)) := by
  refine ⟨fun q x _ h => get_mkdirAll_of_some _ _ _ _ _ h, fun q h => ?_⟩
  rcases get_mkdirAll _ _ _ _ _ h with h | ⟨_, t, h1, h2, h3⟩
  · exact .inl h
  · rw [List.nil_append] at h3
    subst h3
    exact .inr ⟨h2, h1⟩

theorem change_set (E : Env) (a : Digest) (fs : FS) {q : Path} (h : Own E a q) (x : Bytes) :
    Change E a fs (fs.set q (.file x)) := by
  refine ⟨fun q' x' hq h' => ?_, fun q' h' => ?_⟩
  · rw [GoMap.get_set_ne _ _ (by rintro rfl; exact hq h)]
    exact h'
  · rw [GoMap.get_set] at h'
    split at h'
    · cases h'
    · exact .inl h'

theorem change_create {E : Env} {a : Digest} {fs fs' : FS} {q : Path} {x : Bytes} (h : Own E a q)
    (hc : create fs q x = some fs') : Change E a fs fs' := by
  rw [create_some hc]
  exact change_set E a fs h x

theorem own_desc (E : Env) (a : Digest) : Own E a (descOf E a) := .inl rfl
theorem own_spool (E : Env) (a d : Digest) : Own E a (spoolOf E a d) := .inr ⟨d, rfl⟩

theorem change_new (E : Env) (fs : FS) (a : Digest) (cn : ChunkNew) (flt : Fault) :
    Change E a fs (handleNew E fs a cn flt) := by
  unfold handleNew
  split
  · exact .refl E a fs
  · refine (change_mkdirAll E a fs).trans ?_
    dsimp only
    split
    · exact .refl E a _
    next fs2 hc =>
      refine (change_create (own_desc E a) hc).trans ?_
      split
      · exact .refl E a _
      · exact .refl E a _
      · split
        · exact .refl E a _
        next fs3 hc3 => exact change_create (own_spool E a _) hc3

theorem change_finish {E : Env} {fs fs' : FS} {a d : Digest} {flt : Fault}
    (h : finish E fs a d flt = .done fs') : Change E a fs fs' := by
  unfold finish at h
  split at h
  · cases h; exact .refl E a _
  split at h
  · cases h; exact .refl E a _
  split at h
  · cases h; exact .refl E a _
  split at h
  · cases h; exact .refl E a _
  split at h
  · cases h; exact .refl E a _
  split at h
  · cases h
  next q hl =>
    split at h
    · cases h; exact .refl E a _
    split at h
    · cases h; exact .refl E a _
    next fs2 hr =>
      obtain ⟨x, hx, rfl⟩ := rename_some hr
      obtain ⟨k, hq, hfree, _⟩ := landing_some hl
      have hnone : fs.get q = none := by
        rcases hg : fs.get q with _ | y
        · rfl
        · simp [exist, hg] at hfree
      have h1 : Change E a fs ((fs.del (spoolOf E a d)).set q (.file x)) := by
        refine ⟨fun q' y hq' hy => ?_, fun q' hy => ?_⟩
        · rw [GoMap.get_set_ne _ _ (by rintro rfl; rw [hnone] at hy; cases hy),
            GoMap.get_del_ne _ (by rintro rfl; exact hq' (own_spool E a d))]
          exact hy
        · rw [GoMap.get_set] at hy
          split at hy
          · cases hy
          · rw [GoMap.get_del] at hy
            split at hy
            · cases hy
            · exact .inl hy
      refine h1.trans ?_
      cases h
      split
      · exact .refl E a _
      · refine ⟨fun q' y hq' hy => ?_, fun q' hy => ?_⟩
        · rw [GoMap.get_del_ne _ (by rintro rfl; exact hq' (own_desc E a))]
          exact hy
        · rw [GoMap.get_del] at hy
          split at hy
          · cases hy
          · exact .inl hy

theorem change_chunk {E : Env} {fs fs' : FS} {a : Digest} {c : Chunk} {flt : Fault}
    (h : handleChunk E fs a c flt = .done fs') : Change E a fs fs' := by
  unfold handleChunk at h
  split at h
  · cases h; exact .refl E a _
  split at h
  · cases h; exact .refl E a _
  next x hx =>
    split at h
    · cases h; exact .refl E a _
    split at h
    · cases h; exact change_set E a fs (own_spool E a _) _
    · cases h; exact change_set E a fs (own_spool E a _) _
    · exact (change_set E a fs (own_spool E a _) _).trans (change_finish h)

theorem change_step {E : Env} {s s' : State} {e : Ev} (h : step E s e = some s') :
    Change E e.sender s.fs s'.fs := by
  unfold step at h
  split at h
  · cases h
  split at h
  · cases h; exact change_new ..
  next c =>
    split at h
    next fs hf => cases h; exact change_chunk hf
    · cases h; exact .refl E _ _

theorem run_append {E : Env} {es1 es2 : List Ev} {s s' : State} :
    Run E s (es1 ++ es2) s' ↔ ∃ t, Run E s es1 t ∧ Run E t es2 s' := by
  induction es1 generalizing s with
  | nil =>
    constructor
    · exact fun h => ⟨s, .nil s, h⟩
    · rintro ⟨t, h1, h2⟩
      cases h1
      exact h2
  | cons e es1 ih =>
    constructor
    · intro h
      cases h
      next t h1 h2 =>
        obtain ⟨u, h3, h4⟩ := ih.mp h2
        exact ⟨u, .cons h1 h3, h4⟩
    · rintro ⟨t, h1, h2⟩
      cases h1
      next u h3 h4 => exact .cons h3 (ih.mpr ⟨t, h4, h2⟩)

theorem run_keeps {E : Env} {s s' : State} {es : List Ev} (h : Run E s es s') {q : Path} {x : Node}
    (hq : ∀ e ∈ es, ¬ Own E e.sender q) (hx : s.fs.get q = some x) : s'.fs.get q = some x := by
  induction h with
  | nil => exact hx
  | cons h1 _ ih =>
    exact ih (fun e he => hq e (List.mem_cons_of_mem _ he))
      ((change_step h1).keeps q x (hq _ (List.mem_cons_self ..)) hx)

theorem run_no_dir {E : Env} {s s' : State} {es : List Ev} (h : Run E s es s') {a : Digest} {q : Path}
    (hq : Own E a q) (hx : s.fs.get q ≠ some .dir) : s'.fs.get q ≠ some .dir := by
  induction h with
  | nil => exact hx
  | cons h1 _ ih =>
    refine ih fun hd => ?_
    rcases (change_step h1).dirs q hd with h2 | h2
    · exact hx h2
    · exact own_not_prefix hq h2.1

/-! ## Decoding the descriptor -/

/-- The value fits the encoding. -/
def ChunkNew.Fits (cn : ChunkNew) : Prop := Xdr.Fits 0 Xdr.chunkNew cn.val

theorem decode_encode {cn : ChunkNew} (h : cn.Fits) : decode cn.encode = some cn := by
  have := Xdr.C23_roundtrip 0 Xdr.chunkNew cn.val h []
  rw [List.append_nil] at this
  unfold decode ChunkNew.encode
  rw [this]
  rfl

theorem beVal_lt (b : Bytes) : Xdr.beVal b < 256 ^ b.length := by
  induction b using List.reverseRecOn with
  | nil => simp [Xdr.beVal]
  | append_singleton b x ih =>
    rw [Xdr.beVal_append]
    simp only [List.length_append, List.length_singleton, Nat.pow_add, Nat.pow_one]
    have hx : Xdr.beVal [x] = x.toNat := by simp [Xdr.beVal]
    have := UInt8.toNat_lt x
    rw [hx]
    omega

theorem bind_ok {α β : Type} {r : Xdr.Res α} {f : α → Bytes → Xdr.Res β} {b : β} {rest : Bytes}
    (h : r.bind f = .ok b rest) : ∃ a r', r = .ok a r' ∧ f a r' = .ok b rest := by
  unfold Xdr.Res.bind at h
  split at h
  · exact ⟨_, _, rfl, h⟩
  · cases h
  · cases h
  · cases h

theorem readFull_length {n : Nat} {buf b rest : Bytes} (h : Xdr.readFull n buf = .ok b rest) : b.length = n := by
  unfold Xdr.readFull at h
  split at h
  next h0 => cases h; exact h0.symm
  split at h
  · cases h
  split at h
  · cases h
  next h1 =>
    cases h
    rw [List.length_take]
    omega

theorem decode_size {b : Bytes} {cn : ChunkNew} (h : decode b = some cn) : cn.size < 2 ^ 64 := by
  unfold decode at h
  split at h
  next hd =>
    cases h
    obtain ⟨v, r, h1, h2⟩ := bind_ok hd
    obtain ⟨w, r2, h3, h4⟩ := bind_ok h2
    cases h4
    obtain ⟨w3, r3, h5, h6⟩ := bind_ok (show (Xdr.readFull 8 b).bind _ = _ from h1)
    cases h6
    have hl := readFull_length h5
    have := beVal_lt w3
    rw [hl] at this
    calc _ < 256 ^ 8 := this
      _ = 2 ^ 64 := by decide
  · cases h

theorem toInt64_eq {n m : Nat} (hn : n < 2 ^ 64) (h : (m : Int) = toInt64 n) : m = n := by
  unfold toInt64 Xdr.signed at h
  split at h <;> omega

theorem toInt64_of_lt {n : Nat} (h : n < 2 ^ 63) : toInt64 n = (n : Int) := by
  unfold toInt64 Xdr.signed
  rw [if_pos (by simpa using h)]

end Verif.Chunks
