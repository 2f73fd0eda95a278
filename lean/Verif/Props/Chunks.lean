import Verif.Proofs.Chunks
import Verif.Props.Scheduler

/-! # C45, C46: received files -/

namespace Verif.Chunks

open Verif Path

/-! ## The whole file arrives -/

/-- No file stands in the way of the directory of the sender, no directory in the way of the sender's files. -/
def Ready (E : Env) (a : Digest) (fs : FS) : Prop :=
  (∀ q, q ≠ [] → q <+: dirOf E a → ∀ x, fs.get q ≠ some (.file x)) ∧
  ∀ q, Own E a q → fs.get q ≠ some .dir

/-- The directory of the sender exists. -/
def Dirs (E : Env) (a : Digest) (fs : FS) : Prop :=
  (∀ q, q ≠ [] → q <+: dirOf E a → fs.get q = some .dir) ∧
  ∀ q, Own E a q → fs.get q ≠ some .dir

theorem Dirs.ready {E : Env} {a : Digest} {fs : FS} (h : Dirs E a fs) : Ready E a fs :=
  ⟨fun q h1 h2 x hx => (by rw [h.1 q h1 h2] at hx; cases hx), h.2⟩

/-- In the middle of a transfer. -/
structure Mid (E : Env) (a : Digest) (cn : ChunkNew) (x : Bytes) (fs : FS) : Prop where
  dirs : Dirs E a fs
  desc : fs.get (descOf E a) = some (.file cn.encode)
  spool : fs.get (spoolOf E a cn.digest) = some (.file x)

theorem not_own_prefix {E : Env} {a b : Digest} {q : Path} (h : q <+: dirOf E b) : ¬ Own E a q :=
  not_own_of_length (by have := h.length_le; simpa [dirOf] using this)

theorem dirs_change {E : Env} {a b : Digest} {fs fs' : FS} (h : Dirs E a fs) (hc : Change E b fs fs') :
    Dirs E a fs' := by
  refine ⟨fun q h1 h2 => hc.keeps q _ (not_own_prefix h2) (h.1 q h1 h2), fun q hq hd => ?_⟩
  rcases hc.dirs q hd with h3 | h3
  · exact h.2 q hq h3
  · exact own_not_prefix hq h3.1

theorem dirs_run {E : Env} {a : Digest} {s s' : State} {es : List Ev} (hr : Run E s es s')
    (h : Dirs E a s.fs) : Dirs E a s'.fs := by
  induction hr with
  | nil => exact h
  | cons h1 _ ih => exact ih (dirs_change h (change_step h1))

theorem mid_change {E : Env} {a b : Digest} {cn : ChunkNew} {x : Bytes} {fs fs' : FS} (h : Mid E a cn x fs)
    (hab : b ≠ a) (hc : Change E b fs fs') : Mid E a cn x fs' :=
  ⟨dirs_change h.dirs hc,
   hc.keeps _ _ (fun ho => hab (own_sender ho (own_desc E a))) h.desc,
   hc.keeps _ _ (fun ho => hab (own_sender ho (own_spool E a _))) h.spool⟩

theorem isDir_dirOf {E : Env} {a : Digest} {fs : FS} (h : Dirs E a fs) : isDir fs (dirOf E a) = true := by
  simp [isDir, h.1 (dirOf E a) (by simp [dirOf]) (List.prefix_refl _)]

theorem isDir_base {E : Env} {a : Digest} {fs : FS} (h : Dirs E a fs) : isDir fs E.base = true := by
  by_cases hb : E.base = []
  · simp [isDir, hb]
  · simp [isDir, h.1 E.base hb (List.prefix_append _ _)]

theorem create_own {E : Env} {a : Digest} {fs : FS} (h : Dirs E a fs) {q : Path} (hq : Own E a q) (x : Bytes) :
    create fs q x = some (fs.set q (.file x)) := by
  unfold create
  rw [if_pos]
  obtain ⟨c, rfl⟩ := own_dirOf hq
  exact ⟨by simp, by rw [List.dropLast_concat]; exact isDir_dirOf h, h.2 _ hq⟩

theorem dirs_mkdirAll {E : Env} {a : Digest} {fs : FS} (h : Ready E a fs) :
    Dirs E a (mkdirAll fs [] (dirOf E a)) := by
  refine ⟨fun q h1 h2 => ?_, fun q hq hd => ?_⟩
  · have := mkdirAll_dir (dirOf E a) fs [] (fun t h1 h2 x => by simpa using h.1 t h1 h2 x) q h1 h2
    simpa using this
  · rcases (change_mkdirAll E a fs).dirs q hd with h3 | h3
    · exact h.2 q hq h3
    · exact own_not_prefix hq h3.1

theorem handleNew_mid {E : Env} {a : Digest} {fs : FS} (h : Ready E a fs) (cn : ChunkNew) :
    Mid E a cn [] (handleNew E fs a cn .none) := by
  have hd := dirs_mkdirAll h
  have h2 : Dirs E a ((mkdirAll fs [] (dirOf E a)).set (descOf E a) (.file cn.encode)) :=
    dirs_change hd (change_set E a _ (own_desc E a) _)
  unfold handleNew
  rw [if_neg (by decide)]
  dsimp only
  rw [create_own hd (own_desc E a)]
  dsimp only
  rw [create_own h2 (own_spool E a _)]
  dsimp only
  refine ⟨dirs_change h2 (change_set E a _ (own_spool E a _) _), ?_, GoMap.get_set_self _ _ _⟩
  rw [GoMap.get_set_ne _ _ (Ne.symm (desc_ne_spool E a a _)), GoMap.get_set_self]

/-- A chunk that is not the last. -/
theorem handleChunk_mid {E : Env} {a : Digest} {cn : ChunkNew} {x p : Bytes} {fs : FS} (h : Mid E a cn x fs)
    (hfit : cn.Fits) (hlen : x.length < 2 ^ 63) (hs : cn.size < 2 ^ 63) (hne : (x ++ p).length ≠ cn.size) :
    ∃ fs', handleChunk E fs a ⟨x.length, cn.digest, p⟩ .none = .done fs' ∧ Mid E a cn (x ++ p) fs' := by
  have hm : Mid E a cn (x ++ p) (fs.set (spoolOf E a cn.digest) (.file (x ++ p))) := by
    refine ⟨dirs_change h.dirs (change_set E a _ (own_spool E a _) _), ?_, GoMap.get_set_self _ _ _⟩
    rw [GoMap.get_set_ne _ _ (Ne.symm (desc_ne_spool E a a _))]
    exact h.desc
  refine ⟨_, ?_, hm⟩
  unfold handleChunk
  rw [if_neg (by decide), read_eq_some.mpr h.spool]
  dsimp only
  rw [toInt64_of_lt hlen, if_neg (by simp)]
  unfold finish
  rw [read_eq_some.mpr hm.desc]
  dsimp only
  rw [decode_encode hfit]
  dsimp only
  rw [read_eq_some.mpr hm.spool]
  dsimp only
  rw [toInt64_of_lt hs, if_pos (by exact_mod_cast hne)]

/-- The last chunk. -/
theorem handleChunk_last {E : Env} {a : Digest} {cn : ChunkNew} {x p : Bytes} {fs : FS} (h : Mid E a cn x fs)
    (hfit : cn.Fits) (hs : cn.size < 2 ^ 63) (heq : (x ++ p).length = cn.size)
    (hH : E.H (x ++ p) = cn.digest) (hp : Plain cn.filename) :
    ∃ k fs', handleChunk E fs a ⟨x.length, cn.digest, p⟩ .none = .done fs' ∧
      fs.get (E.base ++ [prefixed k cn.filename]) = none ∧
      fs'.get (E.base ++ [prefixed k cn.filename]) = some (.file (x ++ p)) := by
  have hm : Mid E a cn (x ++ p) (fs.set (spoolOf E a cn.digest) (.file (x ++ p))) := by
    refine ⟨dirs_change h.dirs (change_set E a _ (own_spool E a _) _), ?_, GoMap.get_set_self _ _ _⟩
    rw [GoMap.get_set_ne _ _ (Ne.symm (desc_ne_spool E a a _))]
    exact h.desc
  have hlen : x.length < 2 ^ 63 := by rw [List.length_append] at heq; omega
  obtain ⟨k, hl, hfree⟩ := landing_plain hp (fs.set (spoolOf E a cn.digest) (.file (x ++ p))) E.base
  have hsp : spoolOf E a cn.digest ≠ E.base ++ [prefixed k cn.filename] := by
    intro he
    exact not_own_place E a (prefixed k cn.filename) (he ▸ own_spool E a _)
  have hds : descOf E a ≠ E.base ++ [prefixed k cn.filename] := by
    intro he
    exact not_own_place E a (prefixed k cn.filename) (he ▸ own_desc E a)
  refine ⟨k, ((((fs.set (spoolOf E a cn.digest) (.file (x ++ p))).del (spoolOf E a cn.digest)).set
    (E.base ++ [prefixed k cn.filename]) (.file (x ++ p))).del (descOf E a)), ?_, ?_, ?_⟩
  · unfold handleChunk
    rw [if_neg (by decide), read_eq_some.mpr h.spool]
    dsimp only
    rw [toInt64_of_lt hlen, if_neg (by simp)]
    unfold finish
    rw [read_eq_some.mpr hm.desc]
    dsimp only
    rw [decode_encode hfit]
    dsimp only
    rw [read_eq_some.mpr hm.spool]
    dsimp only
    rw [toInt64_of_lt hs, if_neg (by simp [heq]), if_neg (by simp [hH]), hl]
    dsimp only
    rw [if_neg (by decide)]
    unfold rename
    rw [read_eq_some.mpr hm.spool]
    dsimp only
    rw [if_pos ⟨by simp, by rw [List.dropLast_concat]; exact isDir_base hm.dirs, by rw [hfree]; simp⟩]
    dsimp only
    rw [if_neg (by decide)]
  · rwa [GoMap.get_set_ne _ _ hsp] at hfree
  · rw [GoMap.get_del_ne _ hds, GoMap.get_set_self]

theorem step_new {E : Env} {s s' : State} {a : Digest} {cn : ChunkNew} {flt : Fault}
    (h : step E s ⟨a, .new cn, flt⟩ = some s') : s'.fs = handleNew E s.fs a cn flt := by
  unfold step at h
  split at h
  · cases h
  · cases h; rfl

theorem step_chunk {E : Env} {s s' : State} {a : Digest} {c : Chunk} {flt : Fault} {fs : FS}
    (h : step E s ⟨a, .chunk c, flt⟩ = some s') (hc : handleChunk E s.fs a c flt = .done fs) : s'.fs = fs := by
  unfold step at h
  split at h
  · cases h
  · dsimp only at h
    rw [hc] at h
    cases h
    rfl

/-- The events of `a`. -/
def of (a : Digest) (es : List Ev) : List Ev := es.filter fun e => e.sender = a

/-- A message that is handled without failures. -/
def evOf (a : Digest) (m : Msg) : Ev := ⟨a, m, .none⟩

theorem of_cons_own {a : Digest} {e : Ev} {es : List Ev} (h : e.sender = a) : of a (e :: es) = e :: of a es := by
  simp [of, h]

theorem of_cons_other {a : Digest} {e : Ev} {es : List Ev} (h : e.sender ≠ a) : of a (e :: es) = of a es := by
  simp [of, h]

theorem chunks_run {E : Env} {a : Digest} {cn : ChunkNew} {data : Bytes} (hfit : cn.Fits)
    (hs : cn.size < 2 ^ 63) (hd : data.length = cn.size) (hH : E.H data = cn.digest) (hp : Plain cn.filename)
    {es : List Ev} : ∀ {s s' : State} {x : Bytes} {ps : List Bytes}, Run E s es s' → Mid E a cn x s.fs →
    ps ≠ [] → (∀ p ∈ ps, p ≠ []) → x ++ ps.flatten = data →
    of a es = (chunksFrom cn.digest x.length ps).map (fun c => evOf a (.chunk c)) →
    ∃ k, s.fs.get (E.base ++ [prefixed k cn.filename]) = none ∧
      s'.fs.get (E.base ++ [prefixed k cn.filename]) = some (.file data) := by
  induction es with
  | nil =>
    intro s s' x ps hr hm hne hall hx hf
    cases ps with
    | nil => exact absurd rfl hne
    | cons p ps => simp [of, chunksFrom] at hf
  | cons e es ih =>
    intro s s' x ps hr hm hne hall hx hf
    cases hr
    next t h1 h2 =>
    by_cases he : e.sender = a
    · cases ps with
      | nil => exact absurd rfl hne
      | cons p ps =>
        rw [of_cons_own he, chunksFrom, List.map_cons, List.cons.injEq] at hf
        obtain ⟨rfl, hf⟩ := hf
        rw [List.flatten_cons, ← List.append_assoc] at hx
        by_cases hps : ps = []
        · subst hps
          rw [List.flatten_nil, List.append_nil] at hx
          subst hx
          obtain ⟨k, fs', hc, hfree, hg⟩ := handleChunk_last hm hfit hs hd hH hp
          refine ⟨k, hfree, ?_⟩
          have ht := step_chunk h1 hc
          refine run_keeps h2 (fun e _ => not_own_place E _ _) ?_
          rw [ht]
          exact hg
        · have hlt : (x ++ p).length < data.length := by
            rw [← hx]
            obtain ⟨p', ps', rfl⟩ := List.exists_cons_of_ne_nil hps
            have : 0 < p'.length := List.length_pos_iff.mpr (hall p' (by simp))
            simp only [List.flatten_cons, List.length_append]
            omega
          obtain ⟨fs', hc, hm'⟩ := handleChunk_mid (p := p) hm hfit
            (by rw [List.length_append] at hlt; omega) hs (by omega)
          have ht := step_chunk h1 hc
          rw [← ht] at hm'
          obtain ⟨k, hk1, hk2⟩ := ih h2 hm' hps (fun q hq => hall q (List.mem_cons_of_mem _ hq)) hx
            (by rw [List.length_append]; exact hf)
          refine ⟨k, ?_, hk2⟩
          rcases hg : s.fs.get (E.base ++ [prefixed k cn.filename]) with _ | y
          · rfl
          · rw [(change_step h1).keeps _ _ (not_own_place E _ _) hg] at hk1
            cases hk1
    · rw [of_cons_other he] at hf
      obtain ⟨k, hk1, hk2⟩ := ih h2 (mid_change hm he (change_step h1)) hne hall hx hf
      refine ⟨k, ?_, hk2⟩
      rcases hg : s.fs.get (E.base ++ [prefixed k cn.filename]) with _ | y
      · rfl
      · rw [(change_step h1).keeps _ _ (not_own_place E _ _) hg] at hk1
        cases hk1

/-- A file that somebody sends: its path there, the description, the type, the contents, and the pieces in
which it is read. -/
structure Sending where
  file : Bytes
  descr : Bytes
  mime : Bytes
  data : Bytes
  pieces : List Bytes
  deriving DecidableEq, Repr

/-- The name under which it arrives. -/
def Sending.name (f : Sending) : Bytes := pathBase f.file

/-- The messages `ms` are those of sending `f`; sizes fit the encoding, and the name is plain. -/
structure Sends (H : Bytes → Digest) (cs attachmentSize : Nat) (f : Sending) (ms : List Msg) : Prop where
  send : send H cs attachmentSize f.file f.descr f.mime f.data f.pieces = some ms
  pieces : Pieces cs f.data f.pieces
  plain : Plain f.name
  small : f.data.length < 2 ^ 63 ∧ cs < 2 ^ 64 ∧ f.name.length < 2 ^ 30 ∧ f.descr.length < 2 ^ 30 ∧
    f.mime.length < 2 ^ 30

/-- The announcement of a file. -/
def Sending.cn (H : Bytes → Digest) (cs : Nat) (f : Sending) : ChunkNew :=
  ⟨f.data.length, cs, f.name, f.descr, f.mime, H f.data⟩

theorem Sends.msgs {H : Bytes → Digest} {cs att : Nat} {f : Sending} {ms : List Msg} (h : Sends H cs att f ms) :
    f.data ≠ [] ∧ ms = .new (f.cn H cs) :: (chunksFrom (H f.data) 0 f.pieces).map .chunk := by
  have hs := h.send
  unfold Chunks.send at hs
  split at hs
  · cases hs
  split at hs
  · cases hs
  next hne =>
    cases hs
    exact ⟨hne, rfl⟩

theorem Sends.fits {H : Bytes → Digest} {cs att : Nat} {f : Sending} {ms : List Msg} (h : Sends H cs att f ms) :
    (f.cn H cs).Fits := by
  obtain ⟨h1, h2, h3, h4, h5⟩ := h.small
  refine ⟨?_, ?_, ⟨?_, fun h => absurd rfl h⟩, ⟨?_, fun h => absurd rfl h⟩, ⟨?_, fun h => absurd rfl h⟩, ?_⟩
  · show f.data.length < 2 ^ 64; omega
  · exact h2
  · show f.name.length + 3 < 2 ^ 31; omega
  · show f.descr.length + 3 < 2 ^ 31; omega
  · show f.mime.length + 3 < 2 ^ 31; omega
  · show 32 + 3 < 2 ^ 31; decide

/-- One transfer among the messages of others. -/
theorem transfer_run {E : Env} {a : Digest} {cs att : Nat} {f : Sending} {ms : List Msg}
    (h : Sends E.H cs att f ms) {s s' : State} {es : List Ev} (hready : Ready E a s.fs)
    (hr : Run E s (evOf a (.new (f.cn E.H cs)) :: es) s')
    (hf : of a es = (chunksFrom (E.H f.data) 0 f.pieces).map (fun c => evOf a (.chunk c))) :
    ∃ k, s.fs.get (E.base ++ [prefixed k f.name]) = none ∧
      s'.fs.get (E.base ++ [prefixed k f.name]) = some (.file f.data) ∧ Dirs E a s'.fs := by
  cases hr
  next t h1 h2 =>
  have ht := step_new h1
  have hm := handleNew_mid hready (f.cn E.H cs)
  rw [← ht] at hm
  have hne : f.pieces ≠ [] := by
    intro he
    have := h.pieces.1
    rw [he] at this
    exact h.msgs.1 this.symm
  obtain ⟨k, hk1, hk2⟩ := chunks_run (data := f.data) h.fits h.small.1 rfl rfl h.plain h2 hm hne
    (fun p hp => (h.pieces.2 p hp).1) (by rw [List.nil_append]; exact h.pieces.1) hf
  refine ⟨k, ?_, hk2, dirs_run h2 hm.dirs⟩
  rcases hg : s.fs.get (E.base ++ [prefixed k f.name]) with _ | y
  · rfl
  · have := (change_step h1).keeps _ _ (not_own_place E _ _) hg
    change t.fs.get (E.base ++ [prefixed k f.name]) = none at hk1
    rw [this] at hk1
    cases hk1

/-- **C45** If the announcement of a file and its chunks are handled in order, without failures, and among any
messages of others, with or without failures, then the receiver has exactly the bytes sent, in the directory
for received files, under the name of the file with some number of `1` before it, where there was nothing
before. -/
theorem C45_reassembly {E : Env} {a : Digest} {cs att : Nat} {f : Sending} {m : Msg} {ms : List Msg}
    (h : Sends E.H cs att f (m :: ms)) {s s' : State} {es : List Ev} (hready : Ready E a s.fs)
    (hr : Run E s (evOf a m :: es) s') (hf : of a es = ms.map (evOf a)) :
    ∃ k, s.fs.get (E.base ++ [prefixed k f.name]) = none ∧
      s'.fs.get (E.base ++ [prefixed k f.name]) = some (.file f.data) := by
  obtain ⟨hne, hm⟩ := h.msgs
  rw [List.cons.injEq] at hm
  obtain ⟨rfl, rfl⟩ := hm
  rw [List.map_map] at hf
  obtain ⟨k, h1, h2, _⟩ := transfer_run h hready hr hf
  exact ⟨k, h1, h2⟩

theorem pathBase_file {b : Bytes} (hb : b ≠ []) (h : (47 : UInt8) ∉ b) (k : Nat) (d : Bytes)
    (hd : d = [] ∨ d.getLast? = some 47) : pathBase (d ++ b ++ List.replicate k 47) = b := by
  have h1 : ∀ c ∈ b.reverse, (decide (c = 47)) = false := by
    intro c hc
    simp only [decide_eq_false_iff_not]
    rintro rfl
    exact h (List.mem_reverse.1 hc)
  have hq : ((d ++ b ++ List.replicate k 47).reverse.dropWhile (· = 47)).reverse = d ++ b := by
    rw [List.reverse_append, List.reverse_replicate, List.dropWhile_append_of_pos (by simp)]
    rw [List.reverse_append]
    cases hr : b.reverse with
    | nil => simp at hr; exact absurd hr hb
    | cons c r =>
      have := h1 c (by rw [hr]; simp)
      rw [List.cons_append, List.dropWhile_cons_of_neg (by simpa using this), ← List.cons_append, ← hr]
      simp
  unfold pathBase
  simp only [hq]
  rw [if_neg (by simp [hb]), if_neg (by simp [hb]), List.reverse_append, List.takeWhile_append_of_pos]
  · rcases hd with rfl | hd
    · simp
    · have : d.reverse.takeWhile (· ≠ 47) = [] := by
        cases hr : d.reverse with
        | nil => rfl
        | cons c r =>
          have : d.getLast? = some c := by rw [← List.head?_reverse, hr]; rfl
          rw [this] at hd
          cases hd
          rfl
      rw [this]
      simp
  · intro c hc
    have := h1 c hc
    simpa using this

/-- **C45**: the name announced is the last part of the path the user gave, with or without a directory before it and
slashes after it. -/
theorem C45_name (H : Bytes → Digest) (cs att : Nat) (d b descr mime data : Bytes) (ps : List Bytes) (ms : List Msg)
    (k : Nat) (hb : b ≠ []) (h : (47 : UInt8) ∉ b) (hd : d = [] ∨ d.getLast? = some 47)
    (hs : send H cs att (d ++ b ++ List.replicate k 47) descr mime data ps = some ms) :
    ∃ n r, ms = .new n :: r ∧ n.filename = b := by
  unfold send at hs
  split at hs
  · cases hs
  · split at hs
    · cases hs
    · simp only [Option.some.injEq] at hs
      subst hs
      exact ⟨_, _, rfl, pathBase_file hb h k d hd⟩

/-- `a/f/`. -/
example : pathBase ([97, 47] ++ [102] ++ List.replicate 1 47) = [102] := by decide

/-- **C45** A message of `a`, whatever it says and whatever fails, changes and removes nothing that is there
except the descriptor and the unfinished files in the directory of `a`; in particular no received file is ever
replaced. -/
theorem C45_no_replace {E : Env} {s s' : State} {es : List Ev} (hr : Run E s es s') {q : Path} {x : Node}
    (hq : ∀ e ∈ es, ¬ Own E e.sender q) (hx : s.fs.get q = some x) : s'.fs.get q = some x :=
  run_keeps hr hq hx

theorem finish_adds {E : Env} {fs fs' : FS} {a d : Digest} {flt : Fault}
    (h : finish E fs a d flt = .done fs') {q : Path} {x : Bytes} (hx : fs'.get q = some (.file x))
    (hn : fs.get q ≠ some (.file x)) :
    ∃ b cn k, fs.get (descOf E a) = some (.file b) ∧ decode b = some cn ∧ x.length = cn.size ∧
      E.H x = cn.digest ∧ q = join E.base (prefixed k cn.filename) := by
  unfold finish at h
  split at h
  · cases h; exact absurd hx hn
  next b hb =>
  split at h
  · cases h; exact absurd hx hn
  next cn hcn =>
  split at h
  · cases h; exact absurd hx hn
  next y hy =>
  split at h
  · cases h; exact absurd hx hn
  next hsz =>
  split at h
  · cases h; exact absurd hx hn
  next hH =>
  split at h
  · cases h
  next q' hl =>
  split at h
  · cases h; exact absurd hx hn
  split at h
  · cases h; exact absurd hx hn
  next fs2 hr =>
  obtain ⟨z, hz, rfl⟩ := rename_some hr
  rw [hy] at hz
  cases hz
  obtain ⟨k, hq, _, _⟩ := landing_some hl
  cases h
  have hset : GoMap.get (GoMap.set (GoMap.del fs (spoolOf E a d)) q' (.file y)) q = some (.file x) := by
    split at hx
    · exact hx
    · rw [GoMap.get_del] at hx
      split at hx
      · cases hx
      · exact hx
  rw [GoMap.get_set] at hset
  split at hset
  next he =>
    cases hset
    subst he
    refine ⟨b, cn, k, read_eq_some.mp hb, hcn, ?_, ?_, hq⟩
    · exact toInt64_eq (decode_size hcn) (by simpa using hsz)
    · simpa using hH
  · rw [GoMap.get_del] at hset
    split at hset
    · cases hset
    · exact absurd hset hn

/-- **C45** Whatever is sent and whatever fails: a file that appears anywhere but among the descriptor and the
unfinished files of the sender has the size and the digest that the descriptor of the sender states, and its
place is the stated file name with some number of `1` before it, joined to the directory for received files. -/
theorem C45_integrity {E : Env} {s s' : State} {e : Ev} (h : step E s e = some s') {q : Path} {x : Bytes}
    (hq : ¬ Own E e.sender q) (hx : s'.fs.get q = some (.file x)) (hn : s.fs.get q ≠ some (.file x)) :
    ∃ b cn k, s.fs.get (descOf E e.sender) = some (.file b) ∧ decode b = some cn ∧ x.length = cn.size ∧
      E.H x = cn.digest ∧ q = join E.base (prefixed k cn.filename) := by
  obtain ⟨a, m, flt⟩ := e
  have hset : ∀ {fs : FS} {p : Path} {y : Bytes}, Own E a p → (fs.set p (.file y)).get q = fs.get q := by
    intro fs p y ho
    exact GoMap.get_set_ne _ _ (by rintro rfl; exact hq ho)
  cases m with
  | new cn =>
    exfalso
    rw [step_new h] at hx
    have hmk : ∀ fs, fs = mkdirAll s.fs [] (dirOf E a) → fs.get q ≠ some (.file x) := by
      rintro fs rfl hg
      rcases get_mkdirAll _ _ _ _ _ hg with h1 | h1
      · exact hn h1
      · cases h1.1
    unfold handleNew at hx
    split at hx
    · exact hn hx
    dsimp only at hx
    split at hx
    · exact hmk _ rfl hx
    next fs2 hc =>
      have h2 : fs2.get q ≠ some (.file x) := by
        rw [create_some hc, hset (own_desc E a)]
        exact hmk _ rfl
      split at hx
      · exact h2 hx
      · exact h2 hx
      · split at hx
        · exact h2 hx
        next fs3 hc3 =>
          rw [create_some hc3, hset (own_spool E a _)] at hx
          exact h2 hx
  | chunk c =>
    unfold step at h
    split at h
    · cases h
    dsimp only at h
    split at h
    next fs' hf =>
      cases h
      unfold handleChunk at hf
      split at hf
      · cases hf; exact absurd hx hn
      split at hf
      · cases hf; exact absurd hx hn
      next y hy =>
      split at hf
      · cases hf; exact absurd hx hn
      split at hf
      · cases hf
        dsimp only at hx
        rw [hset (own_spool E a _)] at hx
        exact absurd hx hn
      · cases hf
        dsimp only at hx
        rw [hset (own_spool E a _)] at hx
        exact absurd hx hn
      · obtain ⟨b, cn, k, h1, h2⟩ := finish_adds hf hx (by rw [hset (own_spool E a _)]; exact hn)
        refine ⟨b, cn, k, ?_, h2⟩
        rwa [GoMap.get_set_ne _ _ (Ne.symm (desc_ne_spool E a a _))] at h1
    · cases h
      exact absurd hx hn

/-- Announcements state plain names and fit the encoding. -/
def Decent (es : List Ev) : Prop := ∀ e ∈ es, ∀ cn, e.msg = .new cn → Plain cn.filename ∧ cn.Fits

/-- Every descriptor that can be read is one of the announcements `l`. -/
def Announced (E : Env) (l : List Ev) (fs : FS) : Prop :=
  ∀ a b cn, fs.get (descOf E a) = some (.file b) → decode b = some cn →
    ∃ e ∈ l, e.sender = a ∧ e.msg = .new cn

theorem decode_take {cn cn' : ChunkNew} (h : cn.Fits) {n : Nat} (hd : decode (cn.encode.take n) = some cn') :
    cn' = cn := by
  by_cases hn : cn.encode.length ≤ n
  · rw [List.take_of_length_le hn, decode_encode h] at hd
    exact (Option.some.inj hd).symm
  · exfalso
    have hne : cn.encode.drop n ≠ [] := by
      intro he
      have := congrArg List.length he
      rw [List.length_drop] at this
      simp at this
      omega
    have := Xdr.C23_prefix_fails 0 Xdr.chunkNew cn.val h (cn.encode.take n) (cn.encode.drop n)
      (by rw [List.take_append_drop]; rfl) hne
    unfold decode at hd
    split at hd
    next hk => exact absurd hk (this _ _)
    · cases hd

theorem announced_step {E : Env} {l : List Ev} {s s' : State} {e : Ev} (hd : Decent (l ++ [e]))
    (hi : Announced E l s.fs) (h : step E s e = some s') : Announced E (l ++ [e]) s'.fs := by
  intro a b cn hb hcn
  have old : s.fs.get (descOf E a) = some (.file b) → ∃ e' ∈ l ++ [e], e'.sender = a ∧ e'.msg = .new cn := by
    intro h1
    obtain ⟨e', he', h2⟩ := hi a b cn h1 hcn
    exact ⟨e', List.mem_append_left _ he', h2⟩
  by_cases hown : e.sender = a
  · obtain ⟨a', m, flt⟩ := e
    dsimp only at hown
    subst hown
    cases m with
    | new cn0 =>
      rw [step_new h] at hb
      have hfit := (hd ⟨a', .new cn0, flt⟩ (by simp) cn0 rfl).2
      have hthis : cn = cn0 → ∃ e' ∈ l ++ [⟨a', .new cn0, flt⟩], e'.sender = a' ∧ e'.msg = .new cn := by
        rintro rfl
        exact ⟨_, List.mem_append_right _ (List.mem_singleton.mpr rfl), rfl, rfl⟩
      have hmk : (mkdirAll s.fs [] (dirOf E a')).get (descOf E a') = some (.file b) →
          s.fs.get (descOf E a') = some (.file b) := by
        intro hg
        rcases get_mkdirAll _ _ _ _ _ hg with h1 | h1
        · exact h1
        · cases h1.1
      unfold handleNew at hb
      split at hb
      · exact old hb
      dsimp only at hb
      split at hb
      · exact old (hmk hb)
      next fs2 hc =>
        have h2 : fs2.get (descOf E a') = some (.file b) → cn = cn0 := by
          rw [create_some hc, GoMap.get_set_self]
          intro hg
          cases hg
          split at hcn
          · exact decode_take hfit hcn
          · rw [decode_encode hfit] at hcn
            exact (Option.some.inj hcn).symm
        split at hb
        · exact hthis (h2 hb)
        · exact hthis (h2 hb)
        · split at hb
          · exact hthis (h2 hb)
          next fs3 hc3 =>
            rw [create_some hc3, GoMap.get_set_ne _ _ (Ne.symm (desc_ne_spool E a' a' _))] at hb
            exact hthis (h2 hb)
    | chunk c =>
      unfold step at h
      split at h
      · cases h
      dsimp only at h
      have hset : ∀ y : Bytes, (s.fs.set (spoolOf E a' c.digest) (.file y)).get (descOf E a') =
          s.fs.get (descOf E a') := fun y => GoMap.get_set_ne _ _ (Ne.symm (desc_ne_spool E a' a' _))
      split at h
      next fs' hf =>
        cases h
        unfold handleChunk at hf
        split at hf
        · cases hf; exact old hb
        split at hf
        · cases hf; exact old hb
        next y hy =>
        split at hf
        · cases hf; exact old hb
        split at hf
        · cases hf
          dsimp only at hb
          rw [hset] at hb
          exact old hb
        · cases hf
          dsimp only at hb
          rw [hset] at hb
          exact old hb
        · by_cases hsame : s.fs.get (descOf E a') = some (.file b)
          · exact old hsame
          · exfalso
            obtain ⟨b2, cn2, k, h1, h2, h3, h4, h5⟩ := finish_adds hf hb (by rw [hset]; exact hsame)
            rw [hset] at h1
            obtain ⟨e', he', h6, h7⟩ := hi a' b2 cn2 h1 h2
            have hp := (hd e' (List.mem_append_left _ he') cn2 h7).1
            rw [join_prefixed hp] at h5
            exact not_own_place E a' _ (h5 ▸ own_desc E a')
      · cases h
        exact old hb
  · by_cases hsame : s.fs.get (descOf E a) = some (.file b)
    · exact old hsame
    · exfalso
      have hq : ¬ Own E e.sender (descOf E a) := fun ho => hown (own_sender ho (own_desc E a))
      obtain ⟨b2, cn2, k, h1, h2, h3, h4, h5⟩ := C45_integrity h hq hb hsame
      obtain ⟨e', he', h6, h7⟩ := hi e.sender b2 cn2 h1 h2
      have hp := (hd e' (List.mem_append_left _ he') cn2 h7).1
      rw [join_prefixed hp] at h5
      exact not_own_place E a _ (h5 ▸ own_desc E a)

theorem announced_run {E : Env} {s s' : State} {es : List Ev} (hr : Run E s es s') : ∀ {l : List Ev},
    Decent (l ++ es) → Announced E l s.fs → Announced E (l ++ es) s'.fs := by
  induction hr with
  | nil => intro l _ hi; simpa using hi
  | @cons s e s1 es s2 h1 _ ih =>
    intro l hd hi
    have := ih (l := l ++ [e]) (by simpa using hd)
      (announced_step (fun e' he' => hd e' (by
        rcases List.mem_append.mp he' with h | h
        · exact List.mem_append_left _ h
        · exact List.mem_append_right _ (by rw [List.mem_singleton.mp h]; exact List.mem_cons_self ..))) hi h1)
    simpa using this

/-- **C45** In a run that begins without descriptors and in which all announced names are plain, whatever else
is sent and whatever fails: a file that appears outside the descriptors and the unfinished files has the size
and the digest of an announcement that its sender has made before, and lies in the directory for received files,
under the announced name with some number of `1` before it. -/
theorem C45_announced {E : Env} {s s1 s2 : State} {es : List Ev} {e : Ev} (hr : Run E s es s1)
    (hd : Decent es) (h0 : ∀ a, read s.fs (descOf E a) = none) (h : step E s1 e = some s2) {q : Path} {x : Bytes}
    (hq : ¬ Own E e.sender q) (hx : s2.fs.get q = some (.file x)) (hn : s1.fs.get q ≠ some (.file x)) :
    ∃ e' ∈ es, ∃ cn k, e'.sender = e.sender ∧ e'.msg = .new cn ∧ x.length = cn.size ∧ E.H x = cn.digest ∧
      q = E.base ++ [prefixed k cn.filename] := by
  obtain ⟨b, cn, k, h1, h2, h3, h4, h5⟩ := C45_integrity h hq hx hn
  have hi := announced_run hr (l := []) (by simpa using hd) (by
    intro a b cn hb _
    have := h0 a
    rw [read_eq_some.mpr hb] at this
    cases this)
  rw [List.nil_append] at hi
  obtain ⟨e', he', h6, h7⟩ := hi _ _ _ h1 h2
  refine ⟨e', he', cn, k, h6, h7, h3, h4, ?_⟩
  rw [h5, join_prefixed (hd e' he' cn h7).1]

/-- **C45** (partial: names that are not plain are excluded, see `C45_location_violated`) A file with a plain
name is placed in the directory for received files itself, and looking for a free name ends. -/
theorem C45_location_partial {name : Bytes} (h : Plain name) (fs : FS) (base : Path) :
    ∃ k, landing fs base name = some (base ++ [prefixed k name]) ∧ fs.get (base ++ [prefixed k name]) = none ∧
      ∀ i, i < k → (fs.get (base ++ [prefixed i name])).isSome := by
  obtain ⟨k, h1, h2⟩ := landing_plain h fs base
  obtain ⟨j, h3, h4, h5⟩ := landing_some h1
  rw [join_prefixed h] at h3
  have hkj : k = j := by
    have := congrArg List.length (List.head_eq_of_cons_eq (List.append_cancel_left h3))
    simpa [prefixed] using this
  subst hkj
  refine ⟨k, h1, h2, fun i hi => ?_⟩
  have := h5 i hi
  rw [join_prefixed h] at this
  simpa [exist] using this

/-! ## Several files -/

/-- **C46** (partial: each transfer is complete before the next one is announced; see `C46_overtaken_violated`
for what the program does) If a sender's messages are those of several files, one file after the other, among any
messages of others, then every file arrives, each at a place of its own where there was nothing before. -/
theorem C46_sequential_partial {E : Env} {a : Digest} {cs att : Nat} : ∀ {fs : List (Sending × List Msg)},
    (∀ f ∈ fs, Sends E.H cs att f.1 f.2) → ∀ {s s' : State} {es : List Ev}, Dirs E a s.fs → Run E s es s' →
    of a es = (fs.flatMap Prod.snd).map (evOf a) →
    ∃ qs : List Path, List.Forall₂ (fun (f : Sending × List Msg) q =>
      (∃ k, q = E.base ++ [prefixed k f.1.name]) ∧ s.fs.get q = none ∧ s'.fs.get q = some (.file f.1.data)) fs qs ∧
      qs.Nodup := by
  intro fs
  induction fs with
  | nil => intro _ s s' es _ _ _; exact ⟨[], .nil, List.nodup_nil⟩
  | cons f fs ih =>
    intro hall s s' es hdirs hr hf
    have hs := hall f (List.mem_cons_self ..)
    obtain ⟨hne, hm⟩ := hs.msgs
    rw [List.flatMap_cons, List.map_append] at hf
    unfold of at hf
    obtain ⟨es1, es2, rfl, hf1, hf2⟩ := List.filter_eq_append_iff.mp hf
    rw [hm, List.map_cons] at hf1
    obtain ⟨es0, es1', rfl, hf0, _, hf1'⟩ := List.filter_eq_cons_iff.mp hf1
    obtain ⟨t, hr1, hr2⟩ := run_append.mp hr
    obtain ⟨t0, hr0, hr1'⟩ := run_append.mp hr1
    rw [List.map_map] at hf1'
    obtain ⟨k, hk1, hk2, hd⟩ := transfer_run hs (dirs_run hr0 hdirs).ready hr1' hf1'
    obtain ⟨qs, hq1, hq2⟩ := ih (fun f hf => hall f (List.mem_cons_of_mem _ hf)) hd hr2 hf2
    have back : ∀ {u v : State} {es : List Ev} {name : Bytes}, Run E u es v → v.fs.get (E.base ++ [name]) = none →
        u.fs.get (E.base ++ [name]) = none := by
      intro u v es name hr hn
      rcases hg : u.fs.get (E.base ++ [name]) with _ | y
      · rfl
      · rw [run_keeps hr (fun e _ => not_own_place E _ _) hg] at hn
        cases hn
    refine ⟨(E.base ++ [prefixed k f.1.name]) :: qs, .cons ⟨⟨k, rfl⟩, back hr0 hk1,
      run_keeps hr2 (fun e _ => not_own_place E _ _) hk2⟩ ?_, List.nodup_cons.mpr ⟨?_, hq2⟩⟩
    · refine hq1.imp ?_
      rintro g q ⟨⟨j, rfl⟩, h2, h3⟩
      exact ⟨⟨j, rfl⟩, back hr1 h2, h3⟩
    · intro hmem
      obtain ⟨i, hi, he⟩ := List.getElem_of_mem hmem
      have hl := hq1.length_eq
      have := (List.forall₂_iff_get.mp hq1).2 i (by omega) hi
      have h3 := this.2.1
      simp only [List.get_eq_getElem] at h3
      rw [he, hk2] at h3
      cases h3

/-! ## What is violated -/

/-- The execution as a function. -/
def exec (E : Env) (s : State) : List Ev → Option State
  | [] => some s
  | e :: es =>
    match step E s e with
    | none => none
    | some s' => exec E s' es

theorem run_of_exec {E : Env} {s s' : State} {es : List Ev} (h : exec E s es = some s') : Run E s es s' := by
  induction es generalizing s with
  | nil => cases h; exact .nil _
  | cons e es ih =>
    rw [exec] at h
    split at h
    · cases h
    next t ht => exact .cons ht (ih h)

namespace Wit

def idA : Digest := ⟨List.replicate 32 10, rfl⟩
def idB : Digest := ⟨List.replicate 32 11, rfl⟩
def dig (n : UInt8) : Digest := ⟨List.replicate 32 n, rfl⟩

/-- Directory `/s`; a digest that tells the files below apart. -/
def E : Env := ⟨[[115]], fun x => dig (x.headD 0)⟩

def init : State := ⟨[], false⟩

/-- The file `/tmp/f` with contents 1 2 in pieces of one byte, and the file `/tmp/g` with contents 3. -/
def f : Sending := ⟨[47, 116, 109, 112, 47, 102], [], [], [1, 2], [[1], [2]]⟩
def g : Sending := ⟨[47, 116, 109, 112, 47, 103], [], [], [3], [[3]]⟩

def fNew : Msg := .new (f.cn E.H 1)
def fMsgs : List Msg := [.chunk ⟨0, dig 1, [1]⟩, .chunk ⟨1, dig 1, [2]⟩]
def gNew : Msg := .new (g.cn E.H 1)
def gMsgs : List Msg := [.chunk ⟨0, dig 3, [3]⟩]

theorem sends_f : Sends E.H 1 100 f (fNew :: fMsgs) :=
  ⟨rfl, ⟨rfl, by decide⟩, by decide, by decide⟩

theorem sends_g : Sends E.H 1 100 g (gNew :: gMsgs) :=
  ⟨rfl, ⟨rfl, by decide⟩, by decide, by decide⟩

/-- One chunk with the given announced name. -/
def one (a : Digest) (name : Bytes) : List Ev :=
  [evOf a (.new ⟨1, 1, name, [], [], dig 3⟩), evOf a (.chunk ⟨0, dig 3, [3]⟩)]

/-- `../x`, `x/..` -/
def up : Bytes := [46, 46, 47, 120]
def loop : Bytes := [120, 47, 46, 46]

end Wit

open Wit

/-- **C45** A received file can be placed outside the directory for received files: the announced name is used
as it is. Here it is `../x`. -/
theorem C45_location_violated : ∃ s', Run E Wit.init (one idA up) s' ∧ s'.fs.get [[120]] = some (.file [3]) ∧
    ¬ E.base <+: [[120]] :=
  ⟨_, run_of_exec rfl, by decide +kernel, by decide⟩

/-- **C45** A message can stop the receiver for good: with the announced name `x/..` the search for a free name
does not end, and no message of anybody is handled any more. -/
theorem C45_hang_violated : ∃ s', Run E Wit.init (one idA loop) s' ∧ ∀ e, step E s' e = none :=
  ⟨⟨_, true⟩, run_of_exec rfl, fun _ => rfl⟩

/-- **C45** A file whose name is the identity of somebody else (here of `idB`, in hexadecimal) is placed where
the directory of that sender would be; from then on their files do not arrive. -/
theorem C45_squat_violated : ∃ s', Run E Wit.init (one idA (Hex.encode idB.1) ++ (fNew :: fMsgs).map (evOf idB)) s' ∧
    ∀ q, s'.fs.get q ≠ some (.file [1, 2]) := by
  refine ⟨⟨[([[115], Hex.encode idB.1], .file [3]), ([[115], Hex.encode idA.1], .dir), ([[115]], .dir)], false⟩,
    run_of_exec (by decide +kernel), ?_⟩
  intro q hq
  have := GoMap.mem_of_get hq
  simp at this

/-- **C45** An empty file is not sent. -/
theorem C45_empty_violated (H : Bytes → Digest) (cs att : Nat) (file descr mime : Bytes) (ps : List Bytes) :
    send H cs att file descr mime [] ps = none := by
  unfold send
  split <;> rfl

/-- The instance of `C45_reassembly`: two messages of somebody else between those of `f`. -/
example : ∃ s', Run E Wit.init (evOf idA fNew :: (one idB up ++ fMsgs.map (evOf idA))) s' ∧
    s'.fs.get [[115], [102]] = some (.file [1, 2]) :=
  ⟨_, run_of_exec rfl, by decide +kernel⟩

example : Ready E idA Wit.init.fs := ⟨fun _ _ _ _ h => (by cases h), fun _ _ h => (by cases h)⟩

/-- The directories that `C46_sequential_partial` asks for are there after the first announcement. -/
example : Dirs E idA (handleNew E [] idA (f.cn E.H 1) .none) :=
  (handleNew_mid ⟨fun _ _ _ _ h => (by cases h), fun _ _ h => (by cases h)⟩ _).dirs

/-- A second file of the same name does not replace the first. -/
example : ∃ s', Run E Wit.init ((fNew :: fMsgs ++ fNew :: fMsgs).map (evOf idA)) s' ∧
    s'.fs.get [[115], [102]] = some (.file [1, 2]) ∧ s'.fs.get [[115], [49, 102]] = some (.file [1, 2]) :=
  ⟨_, run_of_exec rfl, by decide +kernel, by decide +kernel⟩

/-- **C46** Two files are sent one after the other: all messages of the first are queued before those of the
second. The scheduler writes the announcement of the second, which has high priority, before the chunks of the
first. The receiver handles them as written, without failures, and the first file does not arrive: its bytes are
nowhere but in the directory for unfinished files. -/
theorem C46_overtaken_violated : ∃ sched s', Sends E.H 1 100 f (fNew :: fMsgs) ∧ Sends E.H 1 100 g (gNew :: gMsgs) ∧
    Scheduler.Run Scheduler.Any (Scheduler.init Msg)
      ([.schedule true fNew, .schedule false (.chunk ⟨0, dig 1, [1]⟩), .schedule false (.chunk ⟨1, dig 1, [2]⟩),
        .schedule true gNew, .schedule false (.chunk ⟨0, dig 3, [3]⟩)] ++
        [.takeHi, .work, .work, .work, .work, .work, .work, .takeLo, .work, .work, .takeLo, .work, .work,
          .takeLo, .work, .work, .wake] ++
        (List.replicate 5 [Scheduler.Ev.pick, .transmit .ok, .remove]).flatten) sched ∧
    sched.queued.map Prod.snd = fNew :: fMsgs ++ gNew :: gMsgs ∧
    sched.log.map (fun l => l.2.1) = fNew :: gNew :: (fMsgs ++ gMsgs) ∧ (∀ l ∈ sched.log, l.2.2 = .ok) ∧
    Run E Wit.init ((sched.log.map fun l => l.2.1).map (evOf idA)) s' ∧
    s'.fs.get [[115], [103]] = some (.file [3]) ∧
    ∀ q, s'.fs.get q = some (.file [1, 2]) → Own E idA q := by
  refine ⟨_, ⟨[([[115], [103]], .file [3]), ([[115], Hex.encode idA.1, Hex.encode (dig 1).1], .file [1, 2]),
    ([[115], Hex.encode idA.1], .dir), ([[115]], .dir)], false⟩, sends_f, sends_g,
    Scheduler.run_of_exec rfl, rfl, rfl, by decide +kernel, run_of_exec (by decide +kernel), by decide +kernel, ?_⟩
  intro q hq
  have := GoMap.mem_of_get hq
  simp at this
  exact .inr ⟨dig 1, this⟩

end Verif.Chunks
