import Verif.Model.Topology
import Verif.Spec.Cube

/-!
# Specification: what a halo exchange on the cube must deliver

`c i` is the gnomonic coordinate of the `i`-th point along a whole panel side (`k * n` points, `n` per
tile), `itf j` the coordinate of the `j`-th tile boundary.  Nothing is assumed about the points except
that they are mirror-symmetric and that the first/last boundary are the panel edges `-1`, `1`.
-/

namespace WxVerif.Cube

open WxVerif.Topology (Side)

variable {K : Type*} [Field K]

/-- Admissible one-dimensional coordinates of a panel with `k` tiles of `n` points per side. -/
structure Coords (K : Type*) [Field K] (k n : Nat) where
  c : Nat → K
  itf : Nat → K
  /-- points are placed symmetrically about the panel centre -/
  symm : ∀ i, i < k * n → c (k * n - 1 - i) = - c i
  first : itf 0 = -1
  last : itf k = 1

/-- Gnomonic coordinates `(X, Y)` of the `i`-th point of side `s` of a tile. -/
def sideCoords {k n : Nat} (g : Coords K k n) (pl : Place) (s : Side) (i : Nat) : K × K :=
  match s with
  | .south => (g.c (pl.col * n + i), g.itf pl.row)
  | .north => (g.c (pl.col * n + i), g.itf (pl.row + 1))
  | .west  => (g.itf pl.col, g.c (pl.row * n + i))
  | .east  => (g.itf (pl.col + 1), g.c (pl.row * n + i))

/-- 3D cube point of the `i`-th point of side `s` of a tile. -/
def sidePoint {k n : Nat} (g : Coords K k n) (pl : Place) (s : Side) (i : Nat) : V3 K :=
  point pl.panel (sideCoords g pl s i).1 (sideCoords g pl s i).2

/-- Coordinate running along side `s` (what the geometry hands to the exchange as boundary
coordinate). -/
def alongSide {k n : Nat} (g : Coords K k n) (pl : Place) (s : Side) (i : Nat) : K :=
  match s with
  | .south | .north => g.c (pl.col * n + i)
  | .west | .east => g.c (pl.row * n + i)

end WxVerif.Cube
