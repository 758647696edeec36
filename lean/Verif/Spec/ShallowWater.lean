import Verif.Model.ShallowWater
import Verif.Spec.Cube

/-!
# Specification: total mass, bottom topography and depth of the shallow-water model
-/

namespace WxVerif.ShallowWater

open WxVerif.Cube WxVerif.Topology

/-- The grid's approximation of the integral over the whole sphere of a quantity given at all solution points of all tiles:
quadrature weights of the two directions times the area element. -/
noncomputable def total (g : Grid) (w : Nat → ℝ) (q : Nat → Nat → Nat → Nat → ℝ) : ℝ :=
  ∑ r ∈ Finset.range (6 * g.k ^ 2), ∑ ej ∈ Finset.range g.N, ∑ ei ∈ Finset.range g.N,
    ∑ j ∈ Finset.range g.n, ∑ i ∈ Finset.range g.n,
      w j * w i * (g.sqrtG r (g.solXY r ej ei (j * g.n + i)) * q r ej ei (j * g.n + i))

/-- The element sides next to the faces: both sides of each of the `N + 1` faces of a line of elements. -/
def AtFace (N p : Nat) (s : Bool) : Prop := if s then p ≤ N else 1 ≤ p ∧ p ≤ N + 1

/-- The topography on the element sides is one function of the point of the surface, whichever tile and side it is stored for. -/
def OneTopography (g : Grid) (t : Topography) : Prop :=
  ∃ b : V3 ℝ → ℝ, ∀ r < 6 * g.k ^ 2, ∀ e < g.N, ∀ p s, AtFace g.N p s → ∀ l < g.n,
    t.itfI r e p s l = b (point (placeOf g.k r).panel (g.itfXY1 r e p s l).1 (g.itfXY1 r e p s l).2) ∧
    t.itfJ r p e s l = b (point (placeOf g.k r).panel (g.itfXY2 r p e s l).1 (g.itfXY2 r p e s l).2)

/-- The depth extrapolated to the sides of the elements is positive. -/
def PositiveDepth (g : Grid) (t : Topography) (Q : Field) : Prop :=
  ∀ r < 6 * g.k ^ 2, ∀ e < g.N, ∀ p, 1 ≤ p → p ≤ g.N → ∀ s, ∀ l < g.n, 0 < varI g t Q r e p s l 0 ∧ 0 < varJ g t Q r p e s l 0

end WxVerif.ShallowWater
