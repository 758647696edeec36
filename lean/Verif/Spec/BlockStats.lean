import Verif.Spec.Sphere
import Verif.Spec.Decomposition
import Mathlib.MeasureTheory.Integral.IntervalIntegral.Basic

/-!
# Specification: integrals over the sphere and the energy of a column of fluid
-/

namespace WxVerif.Spec.BlockStats

open WxVerif.Cube (V3)
open WxVerif.Geom WxVerif.ShallowWater WxVerif.Topology

/-- the point of the sphere with reference coordinates `ξ₁, ξ₂` in element `(ej, ei)` of process `r` -/
noncomputable def elementPoint (g : Grid) (r ej ei : Nat) (ξ1 ξ2 : ℝ) : V3 ℝ :=
  Sphere.position (g.orient (myPanel g.size r)) g.radius (Sphere.elementCoord (g.start1 r) (g.delta1 r) ei ξ1)
    (Sphere.elementCoord (g.start2 r) (g.delta2 r) ej ξ2)

/-- `a` is the area element of the surface `P`: the length of the vector product of the two tangent vectors -/
def IsAreaElement (P : ℝ → ℝ → V3 ℝ) (ξ1 ξ2 a : ℝ) : Prop :=
  ∃ t, IsTangentBasis P ξ1 ξ2 t ∧ 0 ≤ a ∧ a ^ 2 = dot (cross (t 0) (t 1)) (cross (t 0) (t 1))

/-- `a` is the area element at every solution point of the sphere -/
def AreaElements (g : Grid) (a : Nat → Nat → Nat → Nat → ℝ) : Prop :=
  ∀ r < 6 * (g.k * g.k), ∀ ej < g.N, ∀ ei < g.N, ∀ j < g.n, ∀ i < g.n,
    IsAreaElement (elementPoint g r ej ei) (g.pts i) (g.pts j) (a r ej ei (j * g.n + i))

/-- the quadrature of `f` over the sphere: weights of the two directions times area element -/
noncomputable def quadrature (g : Grid) (w : Nat → ℝ) (a f : Nat → Nat → Nat → Nat → ℝ) : ℝ :=
  ∑ r ∈ Finset.range (6 * (g.k * g.k)), ∑ ej ∈ Finset.range g.N, ∑ ei ∈ Finset.range g.N, ∑ j ∈ Finset.range g.n, ∑ i ∈ Finset.range g.n,
    w j * w i * (a r ej ei (j * g.n + i) * f r ej ei (j * g.n + i))

/-- energy per unit area of a column of fluid of depth `h` on ground of height `b`, moving with velocity `v` -/
noncomputable def columnEnergy (gravity h b : ℝ) (v : V3 ℝ) : ℝ := h * (dot v v / 2) + ∫ z in b..(b + h), gravity * z

/-- all the solution points of the sphere -/
def AllPoints (g : Grid) (p : Nat → Nat → Nat → Nat → Prop) : Prop :=
  ∀ r < 6 * (g.k * g.k), ∀ ej < g.N, ∀ ei < g.N, ∀ c < g.n * g.n, p r ej ei c

/-- both absent, or both present and `t'` is, process by process, `t` given on whole panels -/
def HoldsGround (g : Grid) : Option Topography → Option Topography → Prop
  | none, none => True
  | some t', some t => Decomposition.HoldsTopo g t' t
  | _, _ => False

end WxVerif.Spec.BlockStats
