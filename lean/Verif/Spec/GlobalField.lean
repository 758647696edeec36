/-! # Specification: a field on the whole cube

Six square panels of `N × N` values, panel by panel, rows from south to north, columns from west to east. -/

universe u

namespace WxVerif.GlobalField

/-- `M` is an `n × m` array. -/
def IsMat {α : Type u} (n m : Nat) (M : List (List α)) : Prop :=
  M.length = n ∧ ∀ row ∈ M, row.length = m

/-- `F` holds six `N × N` panels. -/
def IsCube {α : Type u} (N : Nat) (F : List (List (List α))) : Prop :=
  F.length = 6 ∧ ∀ M ∈ F, IsMat N N M

/-- entry `(i, j)` of an array -/
def entry {α : Type u} (M : List (List α)) (i j : Nat) : Option α := M[i]?.bind (·[j]?)

end WxVerif.GlobalField
