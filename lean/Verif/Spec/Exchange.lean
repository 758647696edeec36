import Verif.Model.NdArray

/-!
# Specification: the lines of a boundary array

A boundary array holds, for each combination of its leading indices, the values at the points along the side of a tile.  `line a l pts m` reads
the `m` values along the side, in order, at leading indices `l`; `pts i` are the remaining indices of the `i`-th point along the side.
-/

namespace WxVerif.Exchange

open WxVerif.Nd

/-- the values along the side, for given leading indices -/
def line {α : Type} (a : Arr α) (l : List Nat) (pts : Nat → List Nat) (m : Nat) : List α := (List.range m).map fun i => a.get (l ++ pts i)

/-- The points along the side when the boundary is stored in the last axes `tail` in row-major order. -/
def flatPts (tail : List Nat) (i : Nat) : List Nat := unravel tail i

/-- The points along the side at the level node `a` when the last axes are the elements along the side and the `n * n` nodes of the face of an
element, the nodes of one level being consecutive. -/
def facePts (n a : Nat) (i : Nat) : List Nat := [i / n, a * n + i % n]

/-- Some of the last axes of a shape have exactly `m` entries. -/
def Spans (shape : List Nat) (m : Nat) : Prop := ∃ lead tail, shape = lead ++ tail ∧ tail ≠ [] ∧ tail.prod = m

end WxVerif.Exchange
