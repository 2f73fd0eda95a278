import Verif.Model.Upload
import Verif.Props.Chunks

/-! # C120: sending a file that others change -/

namespace Verif.Upload

open Verif Chunks

/-! ## What is said about runs -/

/-- What is in the file, from the beginning to the end of a run. -/
def versions (b : Bytes) : List Ev → List Bytes
  | [] => [b]
  | .change v :: es => b :: versions v es
  | _ :: es => versions b es

/-- Every byte of `x` was at its place in the file at some time. -/
def Woven (V : Bytes → Prop) (x : Bytes) : Prop := ∀ i, (h : i < x.length) → ∃ v, V v ∧ v[i]? = some x[i]

/-- Nobody changes the file. -/
def Quiet (es : List Ev) : Prop := ∀ e ∈ es, ∀ v, e ≠ .change v

/-- The chunk sizes are positive, as the client asks of every server (`C53_accepts_iff`). -/
def Positive (es : List Ev) : Prop := ∀ e ∈ es, ∀ cs k, e = .chunk cs k → 0 < cs

/-- The payloads of the chunks. -/
def payloads : List Msg → List Bytes
  | [] => []
  | .new _ :: ms => payloads ms
  | .chunk c :: ms => c.payload :: payloads ms

theorem mem_versions (b : Bytes) (es : List Ev) : b ∈ versions b es := by
  induction es with
  | nil => simp [versions]
  | cons e es ih => cases e <;> simp [versions, ih]

theorem versions_quiet {b : Bytes} {es : List Ev} (h : Quiet es) {v : Bytes} (hv : v ∈ versions b es) : v = b := by
  induction es with
  | nil => simpa [versions] using hv
  | cons e es ih =>
    have h' : Quiet es := fun e' he' => h e' (List.mem_cons_of_mem _ he')
    cases e with
    | change w => exact absurd rfl (h _ (List.mem_cons_self ..) w)
    | _ => exact ih h' hv

theorem readAt_some {b : Bytes} {pos m k : Nat} {p : Bytes} (h : readAt b pos m k = some p) :
    (m = 0 ∧ k = 0 ∧ p = []) ∨ (1 ≤ k ∧ k ≤ m ∧ pos + k ≤ b.length ∧ p = (b.drop pos).take k) := by
  unfold readAt at h
  split at h
  · split at h
    · cases h; exact .inl ⟨by assumption, by assumption, rfl⟩
    · cases h
  · split at h
    next hk => cases h; exact .inr ⟨hk.1, hk.2.1, hk.2.2, rfl⟩
    · cases h

theorem readAt_pos {b : Bytes} {pos m k : Nat} {p : Bytes} (hm : 0 < m) (h : readAt b pos m k = some p) :
    p.length = k ∧ 1 ≤ k ∧ k ≤ m ∧ pos + k ≤ b.length ∧ p = (b.drop pos).take k := by
  rcases readAt_some h with h1 | ⟨h1, h2, h3, h4⟩
  · omega
  · refine ⟨?_, h1, h2, h3, h4⟩
    rw [h4, List.length_take, List.length_drop]
    omega

theorem readAt_getElem {b : Bytes} {pos m k : Nat} {p : Bytes} (h : readAt b pos m k = some p) (i : Nat)
    (hi : i < p.length) : b[pos + i]? = some p[i] := by
  rcases readAt_some h with ⟨_, _, rfl⟩ | ⟨h1, h2, h3, h4⟩
  · cases hi
  · subst h4
    rw [List.length_take, List.length_drop] at hi
    rw [List.getElem_take, List.getElem_drop, List.getElem?_eq_getElem]

theorem Woven.append {V : Bytes → Prop} {x p b : Bytes} (h : Woven V x) (hb : V b)
    (hp : ∀ i, (hi : i < p.length) → b[x.length + i]? = some p[i]) : Woven V (x ++ p) := by
  intro i hi
  by_cases hx : i < x.length
  · obtain ⟨v, h1, h2⟩ := h i hx
    exact ⟨v, h1, by rw [List.getElem_append_left hx]; exact h2⟩
  · rw [List.length_append] at hi
    refine ⟨b, hb, ?_⟩
    have := hp (i - x.length) (by omega)
    rw [List.getElem_append_right (by omega), ← this]
    congr 1
    omega

/-! ## Whatever happens to the file -/

/-- A type that is found from 512 bytes: the beginning of what was in the file at some time, then zeros. -/
def Typed (c : Cfg) (V : Bytes → Prop) (mime : Bytes) : Prop :=
  ∃ v k block, V v ∧ 1 ≤ k ∧ k ≤ v.length ∧ mime = c.T block ∧ block.length = 512 ∧ block.take k = v.take k ∧
    ∀ x ∈ block.drop k, x = 0

/-- What a message may say, if the file held what `V` says. -/
def Fair (c : Cfg) (V : Bytes → Prop) : Msg → Prop
  | .new cn => (∃ v, V v ∧ v.length = cn.size ∧ cn.size ≤ c.att) ∧ (∃ x, Woven V x ∧ cn.digest = c.H x) ∧
      cn.filename = pathBase c.file ∧ cn.description = c.descr ∧ Typed c V cn.mime
  | .chunk k => ∀ i, (h : i < k.payload.length) → ∃ v, V v ∧ v[k.offset + i]? = some k.payload[i]

def PcFair (c : Cfg) (V : Bytes → Prop) : Pc → Prop
  | .sized n => ∃ v, V v ∧ v.length = n ∧ n ≤ c.att
  | .digest n _ mime acc => (∃ v, V v ∧ v.length = n ∧ n ≤ c.att) ∧ Woven V acc ∧ Typed c V mime
  | _ => True

structure Inv (c : Cfg) (V : Bytes → Prop) (s : State) : Prop where
  cur : V s.cur
  pc : PcFair c V s.pc
  out : ∀ m ∈ s.out, Fair c V m

theorem inv_step {c : Cfg} {V : Bytes → Prop} {s t : State} {e : Ev} (h : Inv c V s)
    (he : ∀ v, e = .change v → V v) (hs : step c s e = some t) : Inv c V t := by
  obtain ⟨h1, h2, h3⟩ := h
  cases e with
  | change v => cases hs; exact ⟨he v rfl, h2, h3⟩
  | stat =>
    simp only [step] at hs
    split at hs
    · split at hs
      · cases hs; exact ⟨h1, trivial, h3⟩
      · cases hs; exact ⟨h1, ⟨s.cur, h1, rfl, by omega⟩, h3⟩
    · cases hs
  | type cs k =>
    simp only [step] at hs
    split at hs
    next n hpc =>
      rw [hpc] at h2
      split at hs
      · split at hs
        · cases hs; exact ⟨h1, trivial, h3⟩
        · cases hs
      · split at hs
        · cases hs
        next p hp =>
          obtain ⟨e1, e2, e3, e4, e5⟩ := readAt_pos (by omega) hp
          rw [List.drop_zero] at e5
          cases hs
          refine ⟨h1, ⟨h2, fun i hi => absurd hi (by simp), s.cur, k, padded p, h1, e2, by omega, rfl, ?_, ?_, ?_⟩, h3⟩
          · rw [padded, List.length_append, List.length_replicate, e1]; omega
          · rw [padded, List.take_append_of_le_length (by omega), List.take_of_length_le (by omega), e5]
          · intro x hx
            rw [padded, ← e1, List.drop_left] at hx
            exact List.eq_of_mem_replicate hx
    · cases hs
  | hash k =>
    simp only [step] at hs
    split at hs
    next n cs mime acc hpc =>
      rw [hpc] at h2
      split at hs
      · cases hs
      next p hp => cases hs; exact ⟨h1, ⟨h2.1, h2.2.1.append h1 (readAt_getElem hp), h2.2.2⟩, h3⟩
    · cases hs
  | announce =>
    simp only [step] at hs
    split at hs
    next n cs mime acc hpc =>
      rw [hpc] at h2
      split at hs
      · cases hs
        refine ⟨h1, trivial, fun m hm => ?_⟩
        rcases List.mem_append.mp hm with hm | hm
        · exact h3 m hm
        · rw [List.mem_singleton.mp hm]
          exact ⟨h2.1, ⟨acc, h2.2.1, rfl⟩, rfl, rfl, h2.2.2⟩
      · cases hs
    · cases hs
  | chunk cs k =>
    simp only [step] at hs
    split at hs
    next d off hpc =>
      split at hs
      · cases hs; exact ⟨h1, trivial, h3⟩
      split at hs
      · cases hs
      next p hp =>
        cases hs
        refine ⟨h1, trivial, fun m hm => ?_⟩
        rcases List.mem_append.mp hm with hm | hm
        · exact h3 m hm
        · rw [List.mem_singleton.mp hm]
          exact fun i hi => ⟨s.cur, h1, readAt_getElem hp i hi⟩
    · cases hs
  | finish =>
    simp only [step] at hs
    split at hs
    · split at hs
      · cases hs; exact ⟨h1, trivial, h3⟩
      · cases hs
    · cases hs
  | fail =>
    simp only [step] at hs
    split at hs <;> cases hs <;> exact ⟨h1, trivial, h3⟩

theorem cur_step {c : Cfg} {s t : State} {e : Ev} (hs : step c s e = some t) :
    t.cur = match e with | .change v => v | _ => s.cur := by
  cases e <;> simp only [step] at hs
  case change => cases hs; rfl
  all_goals (repeat' split at hs) <;> first | (cases hs; rfl) | cases hs

theorem inv_run {c : Cfg} {V : Bytes → Prop} : ∀ {es : List Ev} {s t : State}, Inv c V s →
    (∀ v ∈ versions s.cur es, V v) → run c s es = some t → Inv c V t := by
  intro es
  induction es with
  | nil => intro s t h _ hr; cases hr; exact h
  | cons e es ih =>
    intro s t h hv hr
    rw [run] at hr
    split at hr
    · cases hr
    next u hu =>
      have hc := cur_step hu
      refine ih (inv_step h ?_ hu) ?_ hr
      · rintro v rfl
        exact hv v (by simp [versions, mem_versions])
      · intro v hvm
        apply hv
        rw [hc] at hvm
        cases e <;> simp_all [versions]

theorem inv_start (c : Cfg) (b : Bytes) {es : List Ev} {s : State} (hr : run c (start b) es = some s) :
    Inv c (· ∈ versions b es) s :=
  inv_run (s := start b) ⟨mem_versions b es, trivial, fun _ h => absurd h (by simp [start])⟩ (fun _ h => h) hr

/-- **C120** Whatever is done to the file meanwhile: the announcement has the size that the file had at some time,
which is allowed, the digest of bytes each of which was at its place in the file at some time, and the name of
the file, and a type found from the beginning of what was in the file at some time; and each byte of a chunk was at its place in the file at some time. -/
theorem C120_messages (c : Cfg) (b : Bytes) (es : List Ev) (s : State) (hr : run c (start b) es = some s)
    (m : Msg) (hm : m ∈ s.out) : Fair c (· ∈ versions b es) m :=
  (inv_start c b hr).out m hm

/-- **C120** The type is found from up to 512 bytes: what can be read are any of the first 512 bytes of the file, from the
first one on. -/
theorem C120_type {c : Cfg} {s : State} {n : Nat} (hp : s.pc = .sized n) (hc : s.cur ≠ []) (cs k : Nat) :
    (∃ t, step c s (.type cs k) = some t) ↔ 1 ≤ k ∧ k ≤ 512 ∧ k ≤ s.cur.length := by
  have h0 : ¬ atEnd s.cur 0 := fun h => hc (List.length_eq_zero_iff.mp (Nat.le_zero.mp h))
  simp only [step, hp, if_neg h0, readAt, if_neg (show ¬ (512 : Nat) = 0 by decide), Nat.zero_add]
  by_cases h : 1 ≤ k ∧ k ≤ 512 ∧ k ≤ s.cur.length
  · rw [if_pos h]; exact ⟨fun _ => h, fun _ => ⟨_, rfl⟩⟩
  · rw [if_neg h]; exact ⟨fun ⟨_, ht⟩ => (by cases ht), fun h' => absurd h' h⟩

/-- A sending: the file at the beginning, what happens, and how it is in the end. -/
structure Job where
  cfg : Cfg
  init : Bytes
  evs : List Ev
  last : State
  ok : run cfg (start init) evs = some last

/-- **C120** What is received was read: if all messages of `a` are of files that `a` sends, in whatever order they
come and whatever is lost, whatever is done to those files meanwhile, and whatever others send, then every file
that appears at the receiver by a message of `a`, and whose digest nothing else has, is of one of those sendings;
it has a length that the file had, which is allowed; every byte of it was at its place in the file while that was
sent; and it has the name of the file. If nobody changed the file, it is the file. -/
theorem C120_received {E : Env} {a : Digest} (js : List Job)
    (hcfg : ∀ j ∈ js, j.cfg.H = E.H) {r r1 r2 : Chunks.State} {evs : List Chunks.Ev} {e : Chunks.Ev}
    (hrun : Chunks.Run E r evs r1) (hd : Decent evs) (h0 : ∀ a, Path.read r.fs (descOf E a) = none)
    (hown : ∀ e ∈ evs, e.sender = a → ∃ j ∈ js, e.msg ∈ j.last.out)
    (hstep : Chunks.step E r1 e = some r2) (hs : e.sender = a) {q : Path.Path} {x : Bytes}
    (hinj : ∀ y, E.H y = E.H x → y = x)
    (hq : ¬ Own E a q) (hx : r2.fs.get q = some (.file x)) (hn : r1.fs.get q ≠ some (.file x)) :
    ∃ j ∈ js, (∃ v ∈ versions j.init j.evs, x.length = v.length) ∧ x.length ≤ j.cfg.att ∧
      Woven (· ∈ versions j.init j.evs) x ∧ (∃ k, q = E.base ++ [prefixed k (pathBase j.cfg.file)]) ∧
      (Quiet j.evs → x = j.init) := by
  obtain ⟨e', he', cn, k, h1, h2, h3, h4, h5⟩ := C45_announced hrun hd h0 hstep (by rw [hs]; exact hq) hx hn
  obtain ⟨j, hj, hm⟩ := hown e' he' (by rw [h1, hs])
  rw [h2] at hm
  obtain ⟨⟨v, hv1, hv2, hv3⟩, ⟨y, hy1, hy2⟩, hf, _⟩ := C120_messages j.cfg j.init j.evs j.last j.ok _ hm
  have hxy : y = x := hinj y (by rw [h4, hy2, hcfg j hj])
  subst hxy
  refine ⟨j, hj, ⟨v, hv1, by rw [h3, hv2]⟩, by rw [h3]; exact hv3, hy1, ⟨k, by rw [h5, hf]⟩, fun hquiet => ?_⟩
  have hv : v = j.init := versions_quiet hquiet hv1
  subst hv
  apply List.ext_getElem (by rw [h3, hv2])
  intro i hi1 hi2
  obtain ⟨w, hw1, hw2⟩ := hy1 i hi1
  rw [versions_quiet hquiet hw1, List.getElem?_eq_getElem hi2] at hw2
  exact (Option.some.inj hw2).symm

/-! ## Nobody changes the file -/

theorem chunksFrom_snoc (d : Digest) (p : Bytes) (ps : List Bytes) : ∀ off,
    chunksFrom d off (ps ++ [p]) = chunksFrom d off ps ++ [⟨off + ps.flatten.length, d, p⟩] := by
  induction ps with
  | nil => intro off; simp [chunksFrom]
  | cons q ps ih => intro off; simp [chunksFrom, ih, Nat.add_assoc]

/-- The messages of a file `b`, of which the first `off` bytes have been sent. -/
def Sent (c : Cfg) (b : Bytes) (off : Nat) (out : List Msg) : Prop :=
  b ≠ [] ∧ b.length ≤ c.att ∧ off ≤ b.length ∧ ∃ cs mime ps, (∀ p ∈ ps, p ≠ []) ∧ ps.flatten = b.take off ∧
    out = .new ⟨b.length, cs, pathBase c.file, c.descr, mime, c.H b⟩ :: (chunksFrom (c.H b) 0 ps).map .chunk

def PcPlain (c : Cfg) (b : Bytes) (out : List Msg) (told : List Told) : Pc → Prop
  | .opened => out = [] ∧ told = []
  | .sized n => out = [] ∧ told = [] ∧ n = b.length ∧ n ≤ c.att
  | .digest n _ _ acc => out = [] ∧ told = [] ∧ n = b.length ∧ n ≤ c.att ∧ b ≠ [] ∧ acc.length ≤ b.length ∧
      acc = b.take acc.length
  | .sending d off => told = [] ∧ d = c.H b ∧ Sent c b off out
  | .over => (told = [.large] ∧ out = [] ∧ c.att < b.length) ∨ (told = [.noType] ∧ out = []) ∨
      (told = [.failed] ∧ (out = [] ∨ ∃ off, Sent c b off out)) ∨ (told = [.completed] ∧ Sent c b b.length out)
  | .dead => told = [] ∧ ∃ off, Sent c b off out

structure Plainly (c : Cfg) (b : Bytes) (s : State) : Prop where
  cur : s.cur = b
  pc : PcPlain c b s.out s.told s.pc

theorem take_append_read {b p : Bytes} {off m k : Nat} (hm : 0 < m) (h : readAt b off m k = some p) :
    b.take off ++ p = b.take (off + p.length) := by
  obtain ⟨h1, h2, h3, h4, h5⟩ := readAt_pos hm h
  rw [h1, h5, List.take_add]

theorem plain_step {c : Cfg} {b : Bytes} {s t : State} {e : Ev} (h : Plainly c b s)
    (hq : ∀ v, e ≠ .change v) (hp : ∀ cs k, e = .chunk cs k → 0 < cs) (hs : step c s e = some t) :
    Plainly c b t := by
  obtain ⟨h1, h2⟩ := h
  cases e with
  | change v => exact absurd rfl (hq v)
  | stat =>
    simp only [step] at hs
    split at hs
    next hpc =>
      rw [hpc] at h2
      split at hs
      next hl =>
        cases hs
        refine ⟨h1, .inl ⟨?_, h2.1, by rw [h1] at hl; exact hl⟩⟩
        show s.told ++ _ = _
        rw [h2.2, List.nil_append]
      next hl => cases hs; exact ⟨h1, h2.1, h2.2, by rw [h1], by omega⟩
    · cases hs
  | type cs k =>
    simp only [step] at hs
    split at hs
    next n hpc =>
      rw [hpc] at h2
      obtain ⟨h2, h3, h4, h5⟩ := h2
      split at hs
      · split at hs
        · cases hs
          refine ⟨h1, .inr (.inl ⟨?_, h2⟩)⟩
          show s.told ++ _ = _
          rw [h3, List.nil_append]
        · cases hs
      next hend =>
        split at hs
        · cases hs
        · cases hs
          refine ⟨h1, h2, h3, h4, h5, ?_, by simp, by simp⟩
          rintro rfl
          exact hend (by simp [atEnd, h1])
    · cases hs
  | hash k =>
    simp only [step] at hs
    split at hs
    next n cs mime acc hpc =>
      rw [hpc] at h2
      obtain ⟨h2, h3, h4, h5, h6, h7, h8⟩ := h2
      split at hs
      · cases hs
      next p hrd =>
        cases hs
        rw [h1] at hrd
        obtain ⟨r1, r2, r3, r4, r5⟩ := readAt_pos (by decide) hrd
        refine ⟨h1, h2, h3, h4, h5, h6, by rw [List.length_append]; omega, ?_⟩
        rw [List.length_append, ← take_append_read (by decide) hrd, ← h8]
    · cases hs
  | announce =>
    simp only [step] at hs
    split at hs
    next n cs mime acc hpc =>
      rw [hpc] at h2
      obtain ⟨h2, h3, h4, h5, h6, h7, h8⟩ := h2
      split at hs
      next hend =>
        cases hs
        have hacc : acc = b := by
          rw [h1] at hend
          rw [h8, List.take_of_length_le hend]
        subst hacc
        refine ⟨h1, h3, rfl, h6, by omega, by omega, cs, mime, [], by simp, by simp, ?_⟩
        show s.out ++ _ = _
        rw [h2, h4]
        rfl
      · cases hs
    · cases hs
  | chunk cs k =>
    have hcs := hp cs k rfl
    simp only [step] at hs
    split at hs
    next d off hpc =>
      rw [hpc] at h2
      obtain ⟨h2, h3, h4, h5, h6, cs', mime, ps, h7, h8, h9⟩ := h2
      split at hs
      · cases hs; exact ⟨h1, h2, off, h4, h5, h6, cs', mime, ps, h7, h8, h9⟩
      split at hs
      · cases hs
      next p hrd =>
        cases hs
        rw [h1] at hrd
        obtain ⟨r1, r2, r3, r4, r5⟩ := readAt_pos hcs hrd
        refine ⟨h1, h2, h3, h4, h5, by omega, cs', mime, ps ++ [p], ?_, ?_, ?_⟩
        · intro q hq
          rcases List.mem_append.mp hq with hq | hq
          · exact h7 q hq
          · rw [List.mem_singleton.mp hq]
            rintro rfl
            simp at r1
            omega
        · rw [List.flatten_append, h8]
          simp only [List.flatten_cons, List.flatten_nil, List.append_nil]
          exact take_append_read hcs hrd
        · show s.out ++ _ = _
          rw [h9, chunksFrom_snoc, h8, h3]
          simp [Nat.min_eq_left h6]
    · cases hs
  | finish =>
    simp only [step] at hs
    split at hs
    next d off hpc =>
      rw [hpc] at h2
      obtain ⟨h2, h3, h4, h5, h6, h7⟩ := h2
      split at hs
      next hend =>
        cases hs
        have : off = b.length := by unfold atEnd at hend; rw [h1] at hend; omega
        subst this
        refine ⟨h1, .inr (.inr (.inr ⟨?_, h4, h5, h6, h7⟩))⟩
        show s.told ++ _ = _
        rw [h2, List.nil_append]
      · cases hs
    · cases hs
  | fail =>
    simp only [step] at hs
    split at hs
    next hpc =>
      rw [hpc] at h2
      cases hs
      refine ⟨h1, .inr (.inl ⟨?_, h2.1⟩)⟩
      show s.told ++ _ = _
      rw [h2.2, List.nil_append]
    next n hpc =>
      rw [hpc] at h2
      cases hs
      refine ⟨h1, .inr (.inl ⟨?_, h2.1⟩)⟩
      show s.told ++ _ = _
      rw [h2.2.1, List.nil_append]
    next n cs mime acc hpc =>
      rw [hpc] at h2
      cases hs
      refine ⟨h1, .inr (.inr (.inl ⟨?_, .inl h2.1⟩))⟩
      show s.told ++ _ = _
      rw [h2.2.1, List.nil_append]
    next d off hpc =>
      rw [hpc] at h2
      cases hs
      refine ⟨h1, .inr (.inr (.inl ⟨?_, .inr ⟨off, h2.2.2⟩⟩))⟩
      show s.told ++ _ = _
      rw [h2.1, List.nil_append]
    · cases hs
    · cases hs

theorem plain_run {c : Cfg} {b : Bytes} : ∀ {es : List Ev} {s t : State}, Plainly c b s → Quiet es → Positive es →
    run c s es = some t → Plainly c b t := by
  intro es
  induction es with
  | nil => intro s t h _ _ hr; cases hr; exact h
  | cons e es ih =>
    intro s t h hq hp hr
    rw [run] at hr
    split at hr
    · cases hr
    next u hu =>
      exact ih (plain_step h (hq e (List.mem_cons_self ..)) (hp e (List.mem_cons_self ..)) hu)
        (fun e' he' => hq e' (List.mem_cons_of_mem _ he')) (fun e' he' => hp e' (List.mem_cons_of_mem _ he')) hr

theorem plain_start {c : Cfg} {b : Bytes} {es : List Ev} {s : State} (hq : Quiet es) (hp : Positive es)
    (hr : run c (start b) es = some s) : Plainly c b s :=
  plain_run (s := start b) ⟨rfl, rfl, rfl⟩ hq hp hr

/-- **C120** (partial: nobody changes the file; see `C120_completed_violated`) If the user is told that the file was
sent, and the messages are then handled in order and without failures, among any messages of others, the receiver
has exactly the file, under its name with some number of `1` before it, where there was nothing before. -/
theorem C120_completed_partial {E : Env} {a : Digest} {c : Cfg} {b : Bytes} {es : List Ev} {s : State}
    (hH : c.H = E.H) (hr : run c (start b) es = some s) (hq : Quiet es) (hp : Positive es)
    (hc : .completed ∈ s.told) (hname : Plain (pathBase c.file))
    (hfit : ∀ cn, .new cn ∈ s.out → cn.Fits) (hsmall : b.length < 2 ^ 63)
    {r r' : Chunks.State} {m : Msg} {ms : List Msg} {evs : List Chunks.Ev} (hm : s.out = m :: ms)
    (hready : Ready E a r.fs) (hrun : Chunks.Run E r (evOf a m :: evs) r') (hof : Chunks.of a evs = ms.map (evOf a)) :
    ∃ k, r.fs.get (E.base ++ [prefixed k (pathBase c.file)]) = none ∧
      r'.fs.get (E.base ++ [prefixed k (pathBase c.file)]) = some (.file b) := by
  have hpl := (plain_start hq hp hr).pc
  have hsent : Sent c b b.length s.out := by
    cases hpc : s.pc <;> rw [hpc] at hpl
    case opened => rw [hpl.2] at hc; cases hc
    case sized => rw [hpl.2.1] at hc; cases hc
    case digest => rw [hpl.2.1] at hc; cases hc
    case sending => rw [hpl.1] at hc; cases hc
    case dead => rw [hpl.1] at hc; cases hc
    case over =>
      rcases hpl with h | h | h | h
      · rw [h.1] at hc; simp at hc
      · rw [h.1] at hc; simp at hc
      · rw [h.1] at hc; simp at hc
      · exact h.2
  obtain ⟨hne, hatt, _, cs, mime, ps, h7, h8, h9⟩ := hsent
  rw [hm, List.cons.injEq] at h9
  obtain ⟨rfl, rfl⟩ := h9
  have hf := hfit _ (by rw [hm]; exact List.mem_cons_self ..)
  cases hrun
  next t h1 h2 =>
  have ht := step_new h1
  have hmid := handleNew_mid hready ⟨b.length, cs, pathBase c.file, c.descr, mime, c.H b⟩
  rw [← ht] at hmid
  rw [List.take_length] at h8
  obtain ⟨k, hk1, hk2⟩ := chunks_run (data := b) hf hsmall rfl (by rw [hH]) hname h2 hmid
    (by rintro rfl; exact hne h8.symm) h7 (by rw [List.nil_append]; exact h8) (by
      rw [hof, List.map_map]; rfl)
  refine ⟨k, ?_, hk2⟩
  rcases hg : r.fs.get (E.base ++ [prefixed k (pathBase c.file)]) with _ | y
  · rfl
  · have := (change_step h1).keeps _ _ (not_own_place E _ _) hg
    change t.fs.get (E.base ++ [prefixed k (pathBase c.file)]) = none at hk1
    rw [this] at hk1
    cases hk1

theorem payloads_chunksFrom (d : Digest) (ps : List Bytes) : ∀ off,
    payloads ((chunksFrom d off ps).map Msg.chunk) = ps := by
  induction ps with
  | nil => intro _; rfl
  | cons p ps ih => intro off; simp [chunksFrom, payloads, ih]

/-- **C120** (partial: nobody changes the file; see `C120_limit_violated`) At any time what was sent is a beginning
of the file, and no more than the server allows. -/
theorem C120_limit_partial {c : Cfg} {b : Bytes} {es : List Ev} {s : State}
    (hr : run c (start b) es = some s) (hq : Quiet es) (hp : Positive es) :
    (payloads s.out).flatten <+: b ∧ (payloads s.out).flatten.length ≤ c.att := by
  have hsent : ∀ {off out}, Sent c b off out → (payloads out).flatten <+: b ∧ (payloads out).flatten.length ≤ c.att := by
    rintro off out ⟨_, h2, _, cs, mime, ps, _, h8, rfl⟩
    rw [payloads, payloads_chunksFrom, h8]
    exact ⟨List.take_prefix .., by rw [List.length_take]; omega⟩
  have hnil : (payloads []).flatten <+: b ∧ (payloads []).flatten.length ≤ c.att :=
    ⟨by simp [payloads], by simp [payloads]⟩
  have hpl := (plain_start hq hp hr).pc
  cases hpc : s.pc <;> rw [hpc] at hpl
  case opened => rw [hpl.1]; exact hnil
  case sized => rw [hpl.1]; exact hnil
  case digest => rw [hpl.1]; exact hnil
  case sending => exact hsent hpl.2.2
  case dead => exact hsent hpl.2.choose_spec
  case over =>
    rcases hpl with h | h | h | h
    · rw [h.2.1]; exact hnil
    · rw [h.2]; exact hnil
    · rcases h.2 with h | ⟨off, h⟩
      · rw [h]; exact hnil
      · exact hsent h
    · exact hsent h.2

/-! ## What the user is told -/

def PcTold (out : List Msg) (told : List Told) : Pc → Prop
  | .opened | .sized _ | .digest .. => out = [] ∧ told = []
  | .sending .. | .dead => told = []
  | .over => ((told = [.large] ∨ told = [.noType]) ∧ out = []) ∨ told = [.failed] ∨ told = [.completed]

theorem told_step {c : Cfg} {s t : State} {e : Ev} (h : PcTold s.out s.told s.pc) (hs : step c s e = some t) :
    PcTold t.out t.told t.pc := by
  cases e <;> simp only [step] at hs
  case change => cases hs; exact h
  all_goals repeat' split at hs
  all_goals first
    | (cases hs; done)
    | (cases hs; simp_all [PcTold])

/-- **C120** Whatever happens to the file, the user is told one thing at the end and nothing before; and if it is
that the file can not be sent, nothing was sent. -/
theorem C120_told {c : Cfg} {b : Bytes} {es : List Ev} {s : State} (hr : run c (start b) es = some s) :
    (s.told = [] ↔ s.pc ≠ .over) ∧ s.told.length ≤ 1 ∧
      (.large ∈ s.told ∨ .noType ∈ s.told → s.out = []) := by
  have key : ∀ {es : List Ev} {s t : State}, PcTold s.out s.told s.pc → run c s es = some t →
      PcTold t.out t.told t.pc := by
    intro es
    induction es with
    | nil => intro s t h hr; cases hr; exact h
    | cons e es ih =>
      intro s t h hr
      rw [run] at hr
      split at hr
      · cases hr
      next u hu => exact ih (told_step h hu) hr
  have h := key (s := start b) ⟨rfl, rfl⟩ hr
  cases hpc : s.pc <;> rw [hpc] at h <;> simp only [PcTold] at h
  case over =>
    rcases h with ⟨h | h, h2⟩ | h | h <;> simp [h]
    · exact h2
    · exact h2
  all_goals simp [h]

/-- **C120** The messages of a file are its announcement, once and first, and then chunks that follow one another:
each begins where those before it ended. -/
theorem C120_order {c : Cfg} {b : Bytes} {es : List Ev} {s : State} (hr : run c (start b) es = some s) :
    s.out = [] ∨ ∃ cn ps, s.out = .new cn :: (chunksFrom cn.digest 0 ps).map .chunk := by
  have hstep : ∀ {s t : State} {e : Ev},
      (s.out = [] ∧ (∀ d off, s.pc ≠ .sending d off) ∨ ∃ cn ps, s.out = .new cn :: (chunksFrom cn.digest 0 ps).map .chunk ∧
        (s.pc = .sending cn.digest ps.flatten.length ∨ s.pc = .over ∨ s.pc = .dead)) →
      step c s e = some t →
      (t.out = [] ∧ (∀ d off, t.pc ≠ .sending d off) ∨ ∃ cn ps, t.out = .new cn :: (chunksFrom cn.digest 0 ps).map .chunk ∧
        (t.pc = .sending cn.digest ps.flatten.length ∨ t.pc = .over ∨ t.pc = .dead)) := by
    intro s t e h hs
    rcases h with ⟨h1, h2⟩ | ⟨cn, ps, h1, h2⟩
    · cases e <;> simp only [step] at hs
      case change => cases hs; exact .inl ⟨h1, h2⟩
      case announce =>
        split at hs
        next n cs mime acc hpc =>
          split at hs
          · cases hs
            refine .inr ⟨⟨n, cs, pathBase c.file, c.descr, mime, c.H acc⟩, [], ?_, .inl rfl⟩
            show s.out ++ _ = _
            rw [h1]; rfl
          · cases hs
        · cases hs
      all_goals repeat' split at hs
      all_goals first
        | (cases hs; done)
        | (cases hs; exact .inl ⟨h1, by simp⟩)
    · rcases h2 with h2 | h2 | h2
      · cases e <;> simp only [step, h2] at hs
        case change => cases hs; exact .inr ⟨cn, ps, h1, .inl rfl⟩
        case chunk cs k =>
          split at hs
          · cases hs; exact .inr ⟨cn, ps, h1, .inr (.inr rfl)⟩
          split at hs
          · cases hs
          next p hp =>
            cases hs
            refine .inr ⟨cn, ps ++ [p], ?_, .inl ?_⟩
            · show s.out ++ _ = _
              rw [h1, chunksFrom_snoc]
              simp
            · simp
        case finish =>
          split at hs
          · cases hs; exact .inr ⟨cn, ps, h1, .inr (.inl rfl)⟩
          · cases hs
        case fail => cases hs; exact .inr ⟨cn, ps, h1, .inr (.inl rfl)⟩
        all_goals cases hs
      · cases e <;> simp only [step, h2] at hs
        case change => cases hs; exact .inr ⟨cn, ps, h1, .inr (.inl rfl)⟩
        all_goals cases hs
      · cases e <;> simp only [step, h2] at hs
        case change => cases hs; exact .inr ⟨cn, ps, h1, .inr (.inr rfl)⟩
        all_goals cases hs
  have key : ∀ {es : List Ev} {s t : State},
      (s.out = [] ∧ (∀ d off, s.pc ≠ .sending d off) ∨ ∃ cn ps, s.out = .new cn :: (chunksFrom cn.digest 0 ps).map .chunk ∧
        (s.pc = .sending cn.digest ps.flatten.length ∨ s.pc = .over ∨ s.pc = .dead)) → run c s es = some t →
      (t.out = [] ∨ ∃ cn ps, t.out = .new cn :: (chunksFrom cn.digest 0 ps).map .chunk) := by
    intro es
    induction es with
    | nil =>
      rintro s t (h | ⟨cn, ps, h, _⟩) hr
      · cases hr; exact .inl h.1
      · cases hr; exact .inr ⟨cn, ps, h⟩
    | cons e es ih =>
      intro s t h hr
      rw [run] at hr
      split at hr
      · cases hr
      next u hu => exact ih (hstep h hu) hr
  exact key (s := start b) (.inl ⟨rfl, by simp [start]⟩) hr

/-! ## Sending comes to its end -/

/-- How many steps are left, if nobody changes the file `b`. -/
def left (b : Bytes) : Pc → Nat
  | .opened => 2 * b.length + 4
  | .sized _ => 2 * b.length + 3
  | .digest _ _ _ acc => 2 * b.length + 2 - acc.length
  | .sending _ off => b.length + 1 - off
  | .over | .dead => 0

theorem left_step {c : Cfg} {b : Bytes} {s t : State} {e : Ev} (h : Plainly c b s)
    (hq : ∀ v, e ≠ .change v) (hp : ∀ cs k, e = .chunk cs k → 0 < cs) (hs : step c s e = some t) :
    left b t.pc < left b s.pc := by
  obtain ⟨h1, h2⟩ := h
  cases e <;> simp only [step] at hs
  case change v => exact absurd rfl (hq v)
  case hash k =>
    split at hs
    next n cs mime acc hpc =>
      rw [hpc] at h2 ⊢
      split at hs
      · cases hs
      next p hrd =>
        cases hs
        rw [h1] at hrd
        obtain ⟨r1, r2, r3, r4, r5⟩ := readAt_pos (by decide) hrd
        simp only [left, List.length_append]
        omega
    · cases hs
  case chunk cs k =>
    have hcs := hp cs k rfl
    split at hs
    next d off hpc =>
      rw [hpc] at h2 ⊢
      have hoff := h2.2.2.2.2.1
      split at hs
      · cases hs; simp only [left]; omega
      split at hs
      · cases hs
      next p hrd =>
        cases hs
        rw [h1] at hrd
        obtain ⟨r1, r2, r3, r4, r5⟩ := readAt_pos hcs hrd
        simp only [left]
        omega
    · cases hs
  case announce =>
    split at hs
    next n cs mime acc hpc =>
      rw [hpc] at h2 ⊢
      have hoff := h2.2.2.2.2.2.1
      split at hs
      · cases hs; simp only [left]; omega
      · cases hs
    · cases hs
  case finish =>
    split at hs
    next d off hpc =>
      rw [hpc] at h2 ⊢
      have hoff := h2.2.2.2.2.1
      split at hs
      · cases hs; simp only [left]; omega
      · cases hs
    · cases hs
  case fail =>
    split at hs
    next hpc => cases hs; rw [hpc]; simp only [left]; omega
    next n hpc => cases hs; rw [hpc]; simp only [left]; omega
    next n cs mime acc hpc =>
      rw [hpc] at h2 ⊢
      have hoff := h2.2.2.2.2.2.1
      cases hs; simp only [left]; omega
    next d off hpc =>
      rw [hpc] at h2 ⊢
      have hoff := h2.2.2.2.2.1
      cases hs; simp only [left]; omega
    · cases hs
    · cases hs
  all_goals repeat' split at hs
  all_goals first
    | (cases hs; done)
    | (cases hs; simp_all only [left, List.length_nil]; omega)

/-- **C120** (partial: nobody changes the file; see `C120_endless_violated`) Sending ends: there are at most twice
as many steps as bytes, and four; and as long as the user was told nothing and the program has not crashed, there
is a next step that is not a failure. -/
theorem C120_ends_partial {c : Cfg} {b : Bytes} {es : List Ev} {s : State}
    (hr : run c (start b) es = some s) (hq : Quiet es) (hp : Positive es) :
    es.length ≤ 2 * b.length + 4 ∧
      (s.told = [] → s.pc ≠ .dead → ∃ e t, step c s e = some t ∧ e ≠ .fail ∧ (∀ v, e ≠ .change v) ∧
        ∀ cs k, e = .chunk cs k → cs = 1) := by
  constructor
  · have key : ∀ {es : List Ev} {s t : State}, Plainly c b s → Quiet es → Positive es → run c s es = some t →
        es.length + left b t.pc ≤ left b s.pc := by
      intro es
      induction es with
      | nil => intro s t _ _ _ hr; cases hr; simp
      | cons e es ih =>
        intro s t h hq hp hr
        rw [run] at hr
        split at hr
        · cases hr
        next u hu =>
          have h1 := left_step h (hq e (List.mem_cons_self ..)) (hp e (List.mem_cons_self ..)) hu
          have h2 := ih (plain_step h (hq e (List.mem_cons_self ..)) (hp e (List.mem_cons_self ..)) hu)
            (fun e' he' => hq e' (List.mem_cons_of_mem _ he')) (fun e' he' => hp e' (List.mem_cons_of_mem _ he')) hr
          rw [List.length_cons]
          omega
    have := key (s := start b) ⟨rfl, rfl, rfl⟩ hq hp hr
    simp only [start, left] at this
    omega
  · intro htold hdead
    have ht := (C120_told hr).1.mp htold
    cases hpc : s.pc with
    | opened =>
      refine ⟨.stat, ?_⟩
      simp only [step, hpc]
      split <;> exact ⟨_, rfl, by simp, by simp, by simp⟩
    | sized n =>
      by_cases hend : atEnd s.cur 0
      · exact ⟨.type 1 0, _, by simp only [step, hpc, if_pos hend]; rfl, by simp, by simp, by simp⟩
      · refine ⟨.type 1 1, { s with pc := .digest n 1 (c.T (padded ((s.cur.drop 0).take 1))) [] }, ?_, by simp,
          by simp, by simp⟩
        have : 1 ≤ s.cur.length := by unfold atEnd at hend; omega
        simp only [step, hpc, if_neg hend, readAt]
        rw [if_neg (by decide), if_pos ⟨by decide, by decide, by omega⟩]
    | digest n cs mime acc =>
      by_cases hend : atEnd s.cur acc.length
      · exact ⟨.announce, _, by simp only [step, hpc, if_pos hend]; rfl, by simp, by simp, by simp⟩
      · refine ⟨.hash 1, { s with pc := .digest n cs mime (acc ++ (s.cur.drop acc.length).take 1) }, ?_, by simp, by simp,
          by simp⟩
        have : acc.length + 1 ≤ s.cur.length := by unfold atEnd at hend; omega
        simp only [step, hpc, readAt]
        rw [if_neg (by decide), if_pos ⟨by decide, by decide, by omega⟩]
    | sending d off =>
      by_cases hend : atEnd s.cur off
      · exact ⟨.finish, _, by simp only [step, hpc, if_pos hend]; rfl, by simp, by simp, by simp⟩
      · refine ⟨.chunk 1 1, ⟨s.cur, .sending d (off + ((s.cur.drop off).take 1).length),
          s.out ++ [.chunk ⟨off, d, (s.cur.drop off).take 1⟩], s.told⟩, ?_, by simp, by simp,
          by rintro cs k ⟨⟩; rfl⟩
        have : off + 1 ≤ s.cur.length := by unfold atEnd at hend; omega
        simp only [step, hpc, readAt]
        rw [if_neg (by decide), if_neg (by decide), if_pos ⟨by decide, by decide, by omega⟩]
    | over => exact absurd hpc ht
    | dead => exact absurd hpc hdead

/-- **C120** (partial: the server announces a chunk size below 2^63; see `C120_crash_violated`) Sending a file does
not crash the client. -/
theorem C120_no_crash_partial {c : Cfg} {b : Bytes} {es : List Ev} {s : State} (hr : run c (start b) es = some s)
    (h : ∀ cs k, .chunk cs k ∈ es → cs < 2 ^ 63) : s.pc ≠ .dead := by
  have hstep : ∀ {s t : State} {e : Ev}, s.pc ≠ .dead → (∀ cs k, e = .chunk cs k → cs < 2 ^ 63) →
      step c s e = some t → t.pc ≠ .dead := by
    intro s t e hd h hs
    cases e <;> simp only [step] at hs
    case change => cases hs; exact hd
    case chunk cs k =>
      have := h cs k rfl
      split at hs
      · rw [if_neg (by omega)] at hs
        split at hs
        · cases hs
        · cases hs; simp
      · cases hs
    all_goals repeat' split at hs
    all_goals first
      | (cases hs; done)
      | (cases hs; simp)
  have key : ∀ {es : List Ev} {s t : State}, s.pc ≠ .dead → (∀ cs k, .chunk cs k ∈ es → cs < 2 ^ 63) →
      run c s es = some t → t.pc ≠ .dead := by
    intro es
    induction es with
    | nil => intro s t hd _ hr; cases hr; exact hd
    | cons e es ih =>
      intro s t hd h hr
      rw [run] at hr
      split at hr
      · cases hr
      next u hu =>
        exact ih (hstep hd (fun cs k he => h cs k (by rw [he]; exact List.mem_cons_self ..)) hu)
          (fun cs k he => h cs k (List.mem_cons_of_mem _ he)) hr
  exact key (s := start b) (by simp [start]) h hr

/-! ## What is violated -/

namespace Wit

/-- Files of up to two bytes; the digest tells the contents below apart. -/
def cfg : Cfg := ⟨fun x => Chunks.Wit.dig (x.foldl (fun n c => 16 * n + c) 0), fun _ => [], 2, [102], []⟩

def Ew : Env := ⟨[[115]], cfg.H⟩

/-- The file holds 1 2, and holds 3 4 whenever its second byte is read. -/
def mixed : List Ev := [.stat, .type 1 2, .hash 1, .change [3, 4], .hash 1, .announce, .change [1, 2], .chunk 1 1,
  .change [3, 4], .chunk 1 1, .finish]

/-- The last byte is removed after the digest was computed. -/
def cut : List Ev := [.stat, .type 1 2, .hash 2, .announce, .change [1], .chunk 1 1, .finish]

/-- The sending of a file that is left alone. -/
def calm : List Ev := [.stat, .type 2 2, .hash 2, .announce, .chunk 2 2, .finish]

end Wit

open Wit

/-- A file that nobody changes, from the command to the receiver. -/
example : ∃ s, run cfg (start [1, 2]) calm = some s ∧ s.told = [.completed] ∧ Quiet calm ∧ Positive calm ∧
    ∃ r, Chunks.Run Ew ⟨[], false⟩ (s.out.map (evOf Chunks.Wit.idA)) r ∧ r.fs.get [[115], [102]] = some (.file [1, 2]) :=
  ⟨_, rfl, rfl, by
    intro e he v h
    subst h
    simp [calm] at he, by
    intro e he cs k h
    simp only [calm, List.mem_cons, List.not_mem_nil, or_false] at he
    rcases he with rfl | rfl | rfl | rfl | rfl | rfl <;> cases h
    decide, _, run_of_exec rfl, by decide +kernel⟩

/-- The instance of `C120_received`: the last chunk of that file. -/
example : ∃ (c : Cfg) (s : State) (evs : List Chunks.Ev) (e : Chunks.Ev) (r1 r2 : Chunks.State),
    run c (start [1, 2]) calm = some s ∧ s.out.map (evOf Chunks.Wit.idA) = evs ++ [e] ∧ Decent evs ∧
    Chunks.Run ⟨[[115]], c.H⟩ ⟨[], false⟩ evs r1 ∧ Chunks.step ⟨[[115]], c.H⟩ r1 e = some r2 ∧
    (∀ y, c.H y = c.H [1, 2] → y = [1, 2]) ∧ r2.fs.get [[115], [102]] = some (.file [1, 2]) ∧
    r1.fs.get [[115], [102]] = none := by
  refine ⟨⟨fun x => Chunks.Wit.dig (if x = [1, 2] then 1 else 0), fun _ => [], 2, [102], []⟩, _, [_], _, _, _, rfl, rfl,
    ?_, run_of_exec rfl, rfl, ?_, by decide +kernel, by decide +kernel⟩
  · intro e he cn hcn
    rw [List.mem_singleton.mp he] at hcn
    cases hcn
    refine ⟨by decide, ?_, ?_, ⟨?_, fun h => absurd rfl h⟩, ⟨?_, fun h => absurd rfl h⟩,
      ⟨?_, fun h => absurd rfl h⟩, ?_⟩
    · show 2 < 2 ^ 64; decide
    · show 2 < 2 ^ 64; decide
    · show 1 + 3 < 2 ^ 31; decide
    · show 0 + 3 < 2 ^ 31; decide
    · show 0 + 3 < 2 ^ 31; decide
    · show 32 + 3 < 2 ^ 31; decide
  · intro y hy
    by_cases h : y = [1, 2]
    · exact h
    · simp [h, Chunks.Wit.dig] at hy

/-- **C120, negation.** The receiver can be given a file that there never was: 1 4, of a file that held 1 2 and
3 4 by turns. -/
theorem C120_mixed_violated : ∃ s r, run cfg (start [1, 2]) mixed = some s ∧ s.told = [.completed] ∧
    Chunks.Run Ew ⟨[], false⟩ (s.out.map (evOf Chunks.Wit.idA)) r ∧ r.fs.get [[115], [102]] = some (.file [1, 4]) ∧
    [1, 4] ∉ versions [1, 2] mixed :=
  ⟨_, _, rfl, rfl, run_of_exec rfl, by decide +kernel, by decide⟩

/-- **C120, negation.** The user is told that the file was sent, all messages are handled in order and without
failures, and the receiver has no file: the file became shorter after its digest was computed. What was received
stays where it is, and the receiver is told nothing more. -/
theorem C120_completed_violated : ∃ s r, run cfg (start [1, 2]) cut = some s ∧ s.told = [.completed] ∧
    Chunks.Run Ew ⟨[], false⟩ (s.out.map (evOf Chunks.Wit.idA)) r ∧ r.hung = false ∧
    (∀ name x, r.fs.get [[115], name] ≠ some (.file x)) ∧
    r.fs.get (spoolOf Ew Chunks.Wit.idA (cfg.H [1, 2])) = some (.file [1]) := by
  have key : ∀ fs : Path.FS, (∀ e ∈ fs, e.1.length = 2 → e.2 = Path.Node.dir) →
      ∀ name x, fs.get [[115], name] ≠ some (.file x) := by
    intro fs h name x hx
    cases h _ (GoMap.mem_of_get hx) rfl
  exact ⟨_, _, rfl, rfl, run_of_exec rfl, rfl, key _ (by decide +kernel), by decide +kernel⟩

theorem run_append {c : Cfg} {s t : State} {es fs : List Ev} (h : run c s es = some t) :
    run c s (es ++ fs) = run c t fs := by
  induction es generalizing s with
  | nil => cases h; rfl
  | cons e es ih =>
    rw [List.cons_append, run]
    rw [run] at h
    split at h
    · cases h
    · exact ih h

/-- **C120, negation.** A file that grows is sent without end, however little the server allows: for every `n`
there is a run in which more than `n` bytes have been given to the server, of a file that had one byte when its
size was checked. -/
theorem C120_limit_violated (n : Nat) : ∃ es s, run cfg (start [1]) es = some s ∧ cfg.att = 2 ∧
    n < (payloads s.out).flatten.length := by
  have hp : ∀ (l : List Msg) (m : Msg), payloads (l ++ [m]) = payloads l ++ payloads [m] := by
    intro l m
    induction l with
    | nil => rfl
    | cons a l ih => cases a <;> simp [payloads, ih]
  suffices h : ∃ es s, run cfg (start [1]) es = some s ∧ s.pc = .sending (cfg.H [1]) (n + 1) ∧
      (payloads s.out).flatten.length = n + 1 by
    obtain ⟨es, s, h1, _, h3⟩ := h
    exact ⟨es, s, h1, rfl, by omega⟩
  induction n with
  | zero => exact ⟨[.stat, .type 1 1, .hash 1, .announce, .chunk 1 1], _, rfl, rfl, rfl⟩
  | succ n ih =>
    obtain ⟨es, s, h1, h2, h3⟩ := ih
    have hb : readAt (List.replicate (n + 2) 1) (n + 1) 1 1 = some [1] := by
      unfold readAt
      rw [if_neg (by decide), if_pos ⟨by decide, by decide, by simp⟩]
      simp
    refine ⟨es ++ [.change (List.replicate (n + 2) 1), .chunk 1 1],
      ⟨List.replicate (n + 2) 1, .sending (cfg.H [1]) (n + 2), s.out ++ [.chunk ⟨n + 1, cfg.H [1], [1]⟩], s.told⟩,
      ?_, rfl, ?_⟩
    · rw [run_append h1]
      simp only [run, step, h2, hb]
      rfl
    · rw [hp]
      simp [payloads, h3]

/-- **C120, negation.** Nothing need ever be sent and the user need never be told anything: a file that grows as
fast as it is read keeps the client reading. -/
theorem C120_endless_violated (n : Nat) : ∃ es s, run cfg (start [1]) es = some s ∧ n < es.length ∧
    s.told = [] ∧ s.out = [] ∧ ∀ e ∈ es, e ≠ .fail := by
  suffices h : ∃ es s mime, run cfg (start [1]) es = some s ∧ s.pc = .digest 1 1 mime (List.replicate (n + 1) 1) ∧
      n < es.length ∧ s.told = [] ∧ s.out = [] ∧ ∀ e ∈ es, e ≠ .fail by
    obtain ⟨es, s, _, h1, _, h3⟩ := h
    exact ⟨es, s, h1, h3⟩
  induction n with
  | zero => exact ⟨[.stat, .type 1 1, .hash 1], _, _, rfl, rfl, by decide, rfl, rfl, by decide⟩
  | succ n ih =>
    obtain ⟨es, s, mime, h1, h2, h3, h4, h5, h6⟩ := ih
    have hb : readAt (List.replicate (n + 2) 1) (List.replicate (n + 1) (1 : UInt8)).length 32768 1 = some [1] := by
      unfold readAt
      rw [if_neg (by decide), if_pos ⟨by decide, by decide, by simp⟩]
      simp
    refine ⟨es ++ [.change (List.replicate (n + 2) 1), .hash 1],
      ⟨List.replicate (n + 2) 1, .digest 1 1 mime (List.replicate (n + 2) 1), s.out, s.told⟩, mime, ?_, rfl, ?_, h4, h5, ?_⟩
    · rw [run_append h1]
      simp only [run, step, h2, hb]
      congr 3
      rw [show ([1] : Bytes) = List.replicate 1 1 from rfl, List.replicate_append_replicate]
    · simp; omega
    · intro e he
      rcases List.mem_append.mp he with he | he
      · exact h6 e he
      · simp only [List.mem_cons, List.not_mem_nil, or_false] at he
        rcases he with rfl | rfl <;> simp

/-- **C120, negation.** A server that announces a chunk size of 2^63 or more, which the client accepts
(`C53_accepts_iff`), crashes it as soon as the user sends a file. -/
theorem C120_crash_violated : ∃ es s, run cfg (start [1]) es = some s ∧ s.pc = .dead :=
  ⟨[.stat, .type (2 ^ 63) 1, .hash 1, .announce, .chunk (2 ^ 63) 1], _, rfl, rfl⟩

end Verif.Upload
