import Verif.Model.Records

/-! # zkimport with several files: tools/zkimport/zkimport.go 215-292

The files named on the command line are taken one after the other. What becomes of one is `Records.readBlob`,
`Records.importServer` and `Records.importClient`; here is the loop around them, what it says, and the status with which the
program ends. Left out: `-cfg` and `-v`; that both kinds are imported into the directory that `-cfg` gives. -/

namespace Verif.ImportAll

open Verif Records

/-- The directory of the client and the accounts of the server. -/
structure Machine where
  dir : IniDB.Dir
  accounts : Accounts.State

/-- A file that is named: what is in it (`none`: it cannot be opened); and what the rest of the world does when its turn comes:
the answer of the user, the names of temporary files, the order of maps, and the listing of the accounts. -/
structure File where
  contents : Option Bytes
  yes : Bool
  tmp : IniDB.Str
  tmp' : IniDB.Str
  stamp : IniDB.Str
  ord : IniDB.Tables → List (IniDB.Str × List (IniDB.Str × IniDB.Str))
  listing : List Accounts.Acct

/-- What is said of a file: "skipping", "Imported", "Import failed". -/
inductive Said where
  | skipped
  | imported
  | failed
  deriving DecidableEq, Repr

/-- The identity of a record of a client. -/
def pubOf (r : Xdr.Val clientRecord) : Accounts.Pub :=
  let r : Xdr.Val Xdr.publicIdentity := r
  let r : Bytes × Bytes × Xdr.Val (.fixed 32) × Xdr.Val (.fixed 1218) × Xdr.Val (.fixed 32) × Xdr.Val (.fixed 32) ×
    Xdr.Val (.fixed 64) := r
  ⟨r.1, r.2.1, r.2.2.1.1, r.2.2.2.1.1, r.2.2.2.2.1.1, r.2.2.2.2.2.1.1, r.2.2.2.2.2.2.1⟩

/-- One file, lines 255-288. -/
def one (base : IniDB.Str) (force : Bool) (m : Machine) (f : File) : Said × Machine :=
  match f.contents.bind readBlob with
  | none => (.skipped, m)
  | some (.client r) =>
    let a := importClient m.accounts f.listing (pubOf r) force
    (if a.1 then .imported else .failed, { m with accounts := a.2 })
  | some (.server r) =>
    let a := importServer base m.dir f.tmp f.tmp' f.stamp f.ord force f.yes r
    (if a.1 then .imported else .failed, { m with dir := a.2 })

/-- All files: what is said, what there is then, and whether the program ends with status 0. `os.Exit(1)` after the first
import that fails, lines 270 and 283. -/
def all (base : IniDB.Str) (force : Bool) (m : Machine) : List File → List Said × Machine × Bool
  | [] => ([], m, true)
  | f :: r =>
    match one base force m f with
    | (.failed, m') => ([.failed], m', false)
    | (s, m') =>
      let a := all base force m' r
      (s :: a.1, a.2)

end Verif.ImportAll
