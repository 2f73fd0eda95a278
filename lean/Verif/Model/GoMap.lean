import Verif.Model.Common

/-!
# Go maps

A Go map is modelled by an association list with at most one entry per key. The order of
the list is not observable in Go (iteration order is unspecified); where iteration order
matters the models quantify over it explicitly.
-/

namespace Verif

/-- Association list standing for `map[α]β`. -/
abbrev GoMap (α β : Type) := List (α × β)

namespace GoMap

variable {α β : Type} [DecidableEq α]

/-- `v, ok := m[k]`. -/
def get (m : GoMap α β) (k : α) : Option β :=
  match m with
  | [] => none
  | (k', v) :: r => if k' = k then some v else get r k

/-- `delete(m, k)`. -/
def del (m : GoMap α β) (k : α) : GoMap α β :=
  match m with
  | [] => []
  | (k', v) :: r => if k' = k then del r k else (k', v) :: del r k

/-- `m[k] = v`. -/
def set (m : GoMap α β) (k : α) (v : β) : GoMap α β := (k, v) :: del m k

/-- The keys, in list order. -/
def keys (m : GoMap α β) : List α := m.map Prod.fst

end GoMap

end Verif
