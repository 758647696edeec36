import Verif.Model.EulerSphere
import Verif.Spec.Cube

/-!
# Specification: totals over the atmosphere, and the floor of the 3D Euler model
-/

namespace WxVerif.EulerSphere

open WxVerif.Cube WxVerif.Topology

/-- The grid's approximation of the integral over the whole atmosphere of a quantity given at all solution points of all tiles:
quadrature weights of the three directions times the volume element. -/
noncomputable def total (g : Atm) (f : Floor) (w : Nat → ℝ) (q : Nat → Nat → Nat → Nat → Nat → ℝ) : ℝ :=
  ∑ r ∈ Finset.range (6 * g.k ^ 2), ∑ ek ∈ Finset.range g.nz, ∑ ej ∈ Finset.range g.N, ∑ ei ∈ Finset.range g.N,
    ∑ k ∈ Finset.range g.n, ∑ j ∈ Finset.range g.n, ∑ i ∈ Finset.range g.n,
      w k * w j * w i * (sqrtG g f r ek ej ei ((k * g.n + j) * g.n + i) * q r ek ej ei ((k * g.n + j) * g.n + i))

/-- The height of the floor on the element sides is one function of the point of the surface, whichever tile and side it is stored for. -/
def OneFloor (g : Atm) (f : Floor) : Prop :=
  ∃ b : V3 ℝ → ℝ, ∀ r < 6 * g.k ^ 2, ∀ e < g.N, ∀ p ≤ g.N, ∀ l < g.n,
    f.itfI r e p l = b (point (placeOf g.k r).panel (Real.tan (g.x1itf r p)) (Real.tan (g.x2 r (e * g.n + l)))) ∧
    f.itfJ r p e l = b (point (placeOf g.k r).panel (Real.tan (g.x1 r (e * g.n + l))) (Real.tan (g.x2itf r p)))

/-- At the solution points the floor is below the top of the model, and above the centre of the planet. -/
def SensibleFloor (g : Atm) (f : Floor) : Prop :=
  ∀ r < 6 * g.k ^ 2, ∀ ej < g.N, ∀ ei < g.N, ∀ c < g.n * g.n, f.z r ej ei c < g.ztop ∧ -g.radius < f.z r ej ei c

end WxVerif.EulerSphere
