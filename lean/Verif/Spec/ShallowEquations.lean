/-
Small specification for C60 and C61: the shallow-water equations on a rotating sphere in arbitrary curvilinear coordinates
and in longitude and latitude.
-/
import Mathlib.Analysis.Calculus.Deriv.Basic
import Mathlib.Analysis.SpecialFunctions.Trigonometric.Basic
import Mathlib.LinearAlgebra.Matrix.Defs
import Mathlib.Algebra.BigOperators.Fin

namespace WxVerif.Spec.ShallowEquations

/-- What has to be subtracted from minus the flux divergence in the equation of momentum `i`: the Christoffel symbols `Γ` contracted with
the whole momentum flux (transport and pressure), the Coriolis term (`rot` are the symbols with one time index), and the slope of the
bottom `dz`, raised with the contravariant metric `H`. -/
noncomputable def momentumSource (g h : ℝ) (u dz : Fin 2 → ℝ) (H : Matrix (Fin 2) (Fin 2) ℝ) (Γ : Fin 2 → Matrix (Fin 2) (Fin 2) ℝ)
    (rot : Matrix (Fin 2) (Fin 2) ℝ) (i : Fin 2) : ℝ :=
  ∑ j, ∑ k, Γ i j k * (h * u j * u k + g / 2 * h ^ 2 * H j k) + 2 * ∑ j, rot i j * (h * u j) + g * h * ∑ j, H i j * dz j

/-- `τ` is the tendency of a conserved quantity at the point `(ξ1, ξ2)` when its fluxes `F1`, `F2` (multiplied by the volume element) are
differentiated exactly: minus the divergence divided by the volume element, minus the source. -/
def ExactTendency (F1 F2 : ℝ → ℝ → ℝ) (sqrtG source ξ1 ξ2 τ : ℝ) : Prop :=
  ∃ D1 D2, HasDerivAt (fun ξ => F1 ξ ξ2) D1 ξ1 ∧ HasDerivAt (fun ξ => F2 ξ1 ξ) D2 ξ2 ∧ τ = -(D1 + D2) / sqrtG - source

/-- `ω` is the rate of change of `f` following the velocity `(u1, u2)` at a point: `u · ∇f` -/
def Advected (f : ℝ → ℝ → ℝ) (u1 u2 ξ1 ξ2 ω : ℝ) : Prop :=
  ∃ D1 D2, HasDerivAt (fun ξ => f ξ ξ2) D1 ξ1 ∧ HasDerivAt (fun ξ => f ξ1 ξ) D2 ξ2 ∧ ω = u1 * D1 + u2 * D2

/-- tendency of the zonal wind by the shallow-water equations in longitude and latitude on a sphere of radius `r` rotating with angular speed
`Ω`, over flat ground: advection, Coriolis and metric terms, gradient of the depth `h` -/
noncomputable def zonalTendency (r g Ω : ℝ) (u v h : ℝ → ℝ → ℝ) (lon lat : ℝ) : ℝ :=
  -(u lon lat * deriv (fun l => u l lat) lon / (r * Real.cos lat) + v lon lat * deriv (fun p => u lon p) lat / r)
    + (2 * Ω * Real.sin lat + u lon lat * Real.tan lat / r) * v lon lat - g * deriv (fun l => h l lat) lon / (r * Real.cos lat)

/-- tendency of the meridional wind -/
noncomputable def meridionalTendency (r g Ω : ℝ) (u v h : ℝ → ℝ → ℝ) (lon lat : ℝ) : ℝ :=
  -(u lon lat * deriv (fun l => v l lat) lon / (r * Real.cos lat) + v lon lat * deriv (fun p => v lon p) lat / r)
    - (2 * Ω * Real.sin lat + u lon lat * Real.tan lat / r) * u lon lat - g * deriv (fun p => h lon p) lat / r

/-- `δ` is the horizontal divergence of the wind `(u, v)` at a point of the sphere -/
def Divergence (r : ℝ) (u v : ℝ → ℝ → ℝ) (lon lat δ : ℝ) : Prop :=
  ∃ D1 D2, HasDerivAt (fun l => u l lat) D1 lon ∧ HasDerivAt (fun p => v lon p * Real.cos p) D2 lat ∧ δ = (D1 + D2) / (r * Real.cos lat)

end WxVerif.Spec.ShallowEquations
