import Verif.Model.ImportAll
import Verif.Props.Records

/-! # C140: zkimport tells what became of each file -/

namespace Verif.ImportAll

open Verif Records

variable {base : IniDB.Str} {force : Bool}

/-- **C140** What is imported of a client is its record, field by field as it is encoded: name, nick, the two keys, the
identity, digest and signature. -/
theorem C140_identity (r : Xdr.Val clientRecord) :
    Xdr.enc clientRecord r = Xdr.enc .opaque (pubOf r).name ++ Xdr.enc .opaque (pubOf r).nick ++
      Xdr.encFixed (pubOf r).sigKey ++ Xdr.encFixed (pubOf r).key ++ Xdr.encFixed (pubOf r).identity ++
      Xdr.encFixed (pubOf r).digest ++ Xdr.encFixed (pubOf r).signature := by
  obtain ⟨a, b, c, d, e, f, g⟩ := (r : Xdr.Val Xdr.publicIdentity)
  simp only [List.append_assoc]
  rfl

/-- **C140** The program ends with an error exactly if an import failed; this is then the last file that is spoken of. Of the
files before it none failed. -/
theorem C140_status (m : Machine) (fs : List File) :
    (.failed ∉ (all base force m fs).1 ∧ (all base force m fs).2.2 = true ∧ (all base force m fs).1.length = fs.length) ∨
    ∃ l, (all base force m fs).1 = l ++ [.failed] ∧ .failed ∉ l ∧ (all base force m fs).2.2 = false ∧ l.length < fs.length := by
  induction fs generalizing m with
  | nil => exact .inl ⟨by simp [all], rfl, rfl⟩
  | cons f fs ih =>
    rw [all]
    rcases hs : one base force m f with ⟨s, m'⟩
    cases s with
    | failed => exact .inr ⟨[], rfl, by simp, rfl, by simp⟩
    | skipped =>
      simp only
      rcases ih m' with ⟨h1, h2, h3⟩ | ⟨l, h1, h2, h3, h4⟩
      · exact .inl ⟨by simp [h1], h2, by simp [h3]⟩
      · exact .inr ⟨.skipped :: l, by simp [h1], by simp [h2], h3, by simp [h4]⟩
    | imported =>
      simp only
      rcases ih m' with ⟨h1, h2, h3⟩ | ⟨l, h1, h2, h3, h4⟩
      · exact .inl ⟨by simp [h1], h2, by simp [h3]⟩
      · exact .inr ⟨.imported :: l, by simp [h1], by simp [h2], h3, by simp [h4]⟩

/-- The files that are spoken of, and nothing after them, make the difference. -/
theorem C140_later (m : Machine) (fs more : List File) (h : (all base force m fs).2.2 = false) :
    all base force m (fs ++ more) = all base force m fs := by
  induction fs generalizing m with
  | nil => simp [all] at h
  | cons f fs ih =>
    rw [all] at h
    rw [List.cons_append, all, all]
    rcases hs : one base force m f with ⟨s, m'⟩
    rw [hs] at h
    cases s with
    | failed => rfl
    | skipped => simp only at h ⊢; rw [ih m' h]
    | imported => simp only at h ⊢; rw [ih m' h]

/-- What is said of one file is true: "Imported" of the record that is in it, put where it belongs; "skipping" of what is no
record, and then nothing is changed. -/
def True_ (base : IniDB.Str) (force : Bool) (m m' : Machine) (f : File) : Said → Prop
  | .skipped => f.contents.bind readBlob = none ∧ m' = m
  | .imported =>
    (∃ r, f.contents.bind readBlob = some (.client r) ∧
      importClient m.accounts f.listing (pubOf r) force = (true, m'.accounts) ∧ m'.dir = m.dir) ∨
    ∃ r, f.contents.bind readBlob = some (.server r) ∧
      importServer base m.dir f.tmp f.tmp' f.stamp f.ord force f.yes r = (true, m'.dir) ∧ m'.accounts = m.accounts
  | .failed =>
    (∃ r, f.contents.bind readBlob = some (.client r) ∧
      importClient m.accounts f.listing (pubOf r) force = (false, m'.accounts) ∧ m'.dir = m.dir) ∨
    ∃ r, f.contents.bind readBlob = some (.server r) ∧
      importServer base m.dir f.tmp f.tmp' f.stamp f.ord force f.yes r = (false, m'.dir) ∧ m'.accounts = m.accounts

/-- **C140** What is said of each file is true. -/
theorem C140_true (m : Machine) (f : File) :
    True_ base force m (one base force m f).2 f (one base force m f).1 := by
  rw [one]
  cases hb : f.contents.bind readBlob with
  | none => exact ⟨hb, rfl⟩
  | some b =>
    cases b with
    | client r =>
      simp only
      cases ha : (importClient m.accounts f.listing (pubOf r) force).1 with
      | true => exact .inl ⟨r, hb, by rw [← ha], rfl⟩
      | false => exact .inl ⟨r, hb, by rw [← ha], rfl⟩
    | server r =>
      simp only
      cases ha : (importServer base m.dir f.tmp f.tmp' f.stamp f.ord force f.yes r).1 with
      | true => exact .inr ⟨r, hb, by rw [← ha], rfl⟩
      | false => exact .inr ⟨r, hb, by rw [← ha], rfl⟩

/-- **C140** The files are taken one after the other. -/
theorem C140_steps (m : Machine) (fs : List File) (f : File) (h : (all base force m fs).2.2 = true) :
    (all base force m (fs ++ [f])).1 = (all base force m fs).1 ++ [(one base force (all base force m fs).2.1 f).1] ∧
    (all base force m (fs ++ [f])).2.1 = (one base force (all base force m fs).2.1 f).2 := by
  induction fs generalizing m with
  | nil =>
    simp only [List.nil_append, all]
    rcases hs : one base force m f with ⟨s, m'⟩
    cases s <;> simp
  | cons g fs ih =>
    rw [all] at h
    rw [List.cons_append, all, all]
    rcases hs : one base force m g with ⟨s, m'⟩
    rw [hs] at h
    cases s with
    | failed => simp at h
    | skipped => simp only at h ⊢; exact ⟨by rw [(ih m' h).1]; rfl, (ih m' h).2⟩
    | imported => simp only at h ⊢; exact ⟨by rw [(ih m' h).1]; rfl, (ih m' h).2⟩

/-- **C140** (partial: if all files can be read; see `C140_nothing_violated`) A program that ends without an error has
imported every file. -/
theorem C140_all_partial (m : Machine) (fs : List File) (h : (all base force m fs).2.2 = true)
    (hr : ∀ f ∈ fs, (f.contents.bind readBlob).isSome) : (all base force m fs).1 = List.replicate fs.length .imported := by
  induction fs generalizing m with
  | nil => rfl
  | cons f fs ih =>
    rw [all] at h ⊢
    have ht := C140_true (base := base) (force := force) m f
    rcases hs : one base force m f with ⟨s, m'⟩
    rw [hs] at h ht
    cases s with
    | failed => simp at h
    | skipped =>
      have := hr f List.mem_cons_self
      rw [ht.1] at this
      cases this
    | imported =>
      simp only at h ⊢
      rw [ih m' h fun g hg => hr g (List.mem_cons_of_mem _ hg)]
      rfl

/-- **C140** (violated) What cannot be read is skipped, and the program ends as if nothing were wrong: also if nothing at all
was imported. -/
theorem C140_nothing_violated (m : Machine) (fs : List File) (h : ∀ f ∈ fs, f.contents.bind readBlob = none) :
    all base force m fs = (List.replicate fs.length .skipped, m, true) := by
  induction fs with
  | nil => rfl
  | cons f fs ih =>
    have h1 : one base force m f = (.skipped, m) := by rw [one, h f List.mem_cons_self]
    rw [all, h1]
    simp only [ih fun g hg => h g (List.mem_cons_of_mem _ hg)]
    rfl

/-! ## Several records -/

theorem readServer_isSome {d : IniDB.Dir} (h : (readServer base d).isSome) : (d.get base).isSome := by
  cases hd : d.get base with
  | some x => rfl
  | none =>
    have hn : IniDB.new base false 10 d [] = .error := by
      rw [IniDB.new, hd]
      rfl
    simp [readServer, hn] at h

/-- **C140** (violated) Without `-f` the record of a server is imported, and the next record on the command line, whatever it
is, fails; the rest is not looked at. -/
theorem C140_one_violated (m : Machine) (hm : m.dir.get base = none) (f : File) (hy : f.yes = true)
    (ht : TmpName base f.tmp) (ht' : TmpName base f.tmp') (ho : Orders f.ord)
    (sid : Xdr.Val Xdr.publicIdentity) (cert addr : Bytes) (dir : Bool)
    (hf : Xdr.Fits 0 serverRecord (sid, cert, addr, dir)) (ha : IniDB.GoodVal (toStr addr))
    (hc : f.contents = some (exported serverRecord (sid, cert, addr, dir)))
    (g : File) (hg : (g.contents.bind readBlob).isSome) (fs : List File) :
    ∃ m', all base false m (f :: g :: fs) = ([.imported, .failed], m', false) ∧
      readServer base m'.dir = some (toStr addr, sid, cert) := by
  obtain ⟨r, d', h1, h2, -, h3, -⟩ := C82_imported base m.dir hm f.tmp f.tmp' f.stamp ht ht' f.ord ho sid cert addr dir hf ha
  have e1 : one base false m f = (.imported, { m with dir := d' }) := by
    rw [one, hc, Option.bind_some, h1]
    simp only [hy, h2, if_true]
  have hs : (d'.get base).isSome := readServer_isSome (by rw [h3]; rfl)
  have e2 : ∃ m', one base false { m with dir := d' } g = (.failed, m') ∧ m'.dir = d' := by
    rw [one]
    cases hb : g.contents.bind readBlob with
    | none => rw [hb] at hg; cases hg
    | some b =>
      cases b with
      | client r => exact ⟨{ m with dir := d' }, by simp only [C82_import_never_violated]; rfl, rfl⟩
      | server r =>
        exact ⟨{ m with dir := d' }, by simp only [C82_asks base d' g.tmp g.tmp' g.stamp g.ord g.yes r (.inl hs)]; rfl, rfl⟩
  obtain ⟨m', e3, e4⟩ := e2
  refine ⟨m', ?_, by rw [e4, h3]⟩
  rw [all, e1]
  simp only
  rw [all, e3]

/-- **C140** (violated) With `-f` the record of each server is said to be imported, but it replaces the one before: only the
last is configured. -/
theorem C140_replaced_violated (m : Machine) (fs : List File) (f : File)
    (hs : (all base true m fs).2.2 = true) (hd : Sound base (all base true m fs).2.1.dir)
    (ht : TmpName base f.tmp) (ht' : TmpName base f.tmp') (ho : Orders f.ord)
    (sid : Xdr.Val Xdr.publicIdentity) (cert addr : Bytes) (dir : Bool)
    (hf : Xdr.Fits 0 serverRecord (sid, cert, addr, dir)) (ha : IniDB.GoodVal (toStr addr))
    (hc : f.contents = some (exported serverRecord (sid, cert, addr, dir))) :
    (all base true m (fs ++ [f])).1 = (all base true m fs).1 ++ [.imported] ∧
    readServer base (all base true m (fs ++ [f])).2.1.dir = some (toStr addr, sid, cert) ∧
    Sound base (all base true m (fs ++ [f])).2.1.dir := by
  obtain ⟨d', h2, h3, h4, -⟩ := C82_forced_partial base _ hd f.tmp f.tmp' f.stamp ht ht' f.ord ho f.yes sid cert addr dir hf ha
  obtain ⟨h5, h6⟩ := C140_steps m fs f hs
  have e1 : one base true (all base true m fs).2.1 f = (.imported, { (all base true m fs).2.1 with dir := d' }) := by
    rw [one, hc, Option.bind_some, C82_server _ hf]
    simp only [h2, if_true]
  rw [e1] at h5 h6
  exact ⟨h5, by rw [h6]; exact h4, by rw [h6]; exact h3⟩

/-! ## A file that was cut -/

theorem encode_append : ∀ (a b : Bytes), a.length % 3 = 0 → Base64.encode (a ++ b) = Base64.encode a ++ Base64.encode b
  | [], _, _ => rfl
  | [_], _, h => by simp at h
  | [_, _], _, h => by simp at h
  | x :: y :: z :: r, b, h => by
    have := encode_append r b (by simp only [List.length_cons] at h; omega)
    simp only [List.cons_append, Base64.encode, this]

/-- **C140** (violated) The record of a server of which only the beginning is there is not refused: if it is cut just after
the identity, it is taken for the record of a client with this identity. -/
theorem C140_cut_violated (sid : Xdr.Val Xdr.publicIdentity) (cert addr : Bytes) (dir : Bool)
    (hf : Xdr.Fits 0 clientRecord sid) (h3 : (Xdr.enc Xdr.publicIdentity sid).length % 3 = 0) :
    ∃ part, part <+: exported serverRecord (sid, cert, addr, dir) ∧ readBlob part = some (.client sid) := by
  refine ⟨Base64.encode (Xdr.enc Xdr.publicIdentity sid), ?_, ?_⟩
  · have e : Xdr.enc serverRecord (sid, cert, addr, dir) =
        Xdr.enc Xdr.publicIdentity sid ++ Xdr.enc (Xdr.struct [.opaque, .opaque, .bool]) (cert, addr, dir) := rfl
    have e2 : exported serverRecord (sid, cert, addr, dir) = Base64.encode (Xdr.enc Xdr.publicIdentity sid) ++
        (Base64.encode (Xdr.enc (Xdr.struct [.opaque, .opaque, .bool]) (cert, addr, dir)) ++ [10]) :=
      (congrArg (Base64.encode · ++ [10]) e).trans (by rw [encode_append _ _ h3, List.append_assoc])
    exact ⟨_, e2.symm⟩
  · have h1 := Xdr.C23_roundtrip 0 clientRecord sid hf []
    rw [List.append_nil] at h1
    have h2 : Xdr.dec 0 serverRecord (Xdr.enc clientRecord sid) = .eof := by
      change (Xdr.dec 0 clientRecord (Xdr.enc clientRecord sid)).bind _ = _
      rw [h1]
      rfl
    have h4 : Base64.decode (Base64.encode (Xdr.enc Xdr.publicIdentity sid)) = some (Xdr.enc clientRecord sid) :=
      Base64.decode_encode _
    simp only [readBlob, h4, h1, h2]

/-! ## Instances -/

namespace Wit

def file (c : Option Bytes) : File := ⟨c, true, "db7".toList, "db7".toList, [], id, []⟩
abbrev server (n : Bytes) : Xdr.Val serverRecord := (someone n, ([7] : Bytes), ([104, 58, 49] : Bytes), true)
theorem server_fits {n : Bytes} (h : n.length + 3 < 2 ^ 31) : Xdr.Fits 0 serverRecord (server n) :=
  ⟨someone_fits h, by simp [Xdr.struct, Xdr.Fits]⟩

theorem file_some (r : Xdr.Val serverRecord) (h : Xdr.Fits 0 serverRecord r) :
    ((file (some (exported serverRecord r))).contents.bind readBlob).isSome := by
  rw [file, Option.bind_some, C82_server r h]
  rfl

/-- Two servers without `-f`, and a file that cannot be opened after them. -/
example : ∃ m', all "db".toList false ⟨[], Accounts.init⟩ [file (some (exported serverRecord (server [1]))),
      file (some (exported serverRecord (server [2]))), file none] = ([.imported, .failed], m', false) ∧
    readServer "db".toList m'.dir = some (toStr [104, 58, 49], someone [1], [7]) :=
  C140_one_violated ⟨[], Accounts.init⟩ rfl (file (some (exported serverRecord (server [1])))) rfl tmpName tmpName orders_id
    (someone [1]) [7] [104, 58, 49] true
    (server_fits (n := [1]) (by decide)) goodAddr rfl (file (some (exported serverRecord (server [2]))))
    (file_some _ (server_fits (n := [2]) (by decide))) [file none]

/-- Two servers with `-f`: both are said to be imported, and the second is configured. -/
example : (all "db".toList true ⟨[], Accounts.init⟩ ([file (some (exported serverRecord (server [1])))] ++
      [file (some (exported serverRecord (server [2])))])).1 = [.imported, .imported] ∧
    readServer "db".toList (all "db".toList true ⟨[], Accounts.init⟩ ([file (some (exported serverRecord (server [1])))] ++
      [file (some (exported serverRecord (server [2])))])).2.1.dir = some (toStr [104, 58, 49], someone [2], [7]) := by
  have h0 : Sound "db".toList ([] : IniDB.Dir) := .inl rfl
  have h1 := C140_replaced_violated ⟨[], Accounts.init⟩ [] (file (some (exported serverRecord (server [1])))) rfl h0 tmpName
    tmpName orders_id (someone [1]) [7] [104, 58, 49] true (server_fits (by decide)) goodAddr rfl
  rw [List.nil_append] at h1
  have hs := C140_status (base := "db".toList) (force := true) ⟨[], Accounts.init⟩
    [file (some (exported serverRecord (server [1])))]
  have h2 : (all "db".toList true ⟨[], Accounts.init⟩ [file (some (exported serverRecord (server [1])))]).2.2 = true := by
    rcases hs with h | ⟨l, h, _⟩
    · exact h.2.1
    · rw [h1.1, all] at h
      exact absurd (List.append_inj_right' h rfl) (by simp)
  have h3 := C140_replaced_violated ⟨[], Accounts.init⟩ _ (file (some (exported serverRecord (server [2])))) h2 h1.2.2 tmpName
    tmpName orders_id (someone [2]) [7] [104, 58, 49] true (server_fits (by decide)) goodAddr rfl
  exact ⟨h3.1.trans (by rw [h1.1]; rfl), h3.2.1⟩

/-- Nothing that can be read. -/
example (m : Machine) : all "db".toList false m [file none, file (some [33])] = ([.skipped, .skipped], m, true) :=
  C140_nothing_violated m _ (by
    intro f hf
    rcases List.mem_cons.1 hf with rfl | hf
    · rfl
    · rcases List.mem_cons.1 hf with rfl | hf
      · rfl
      · cases hf)

/-- An identity after which a record can be cut. -/
example : (Xdr.enc Xdr.publicIdentity (someone [1, 2, 3, 4, 5, 6, 7, 8])).length % 3 = 0 := by
  refine (congrArg (· % 3) (Xdr.C23_size Xdr.publicIdentity _)).trans ?_
  rfl

end Wit

end Verif.ImportAll
