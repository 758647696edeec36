import Mathlib.Analysis.SpecialFunctions.Trigonometric.Deriv
import Mathlib.Analysis.Calculus.Deriv.Prod
import Mathlib.Analysis.SpecialFunctions.Trigonometric.ArctanDeriv
import Mathlib.Data.Matrix.Mul
import Mathlib.LinearAlgebra.Matrix.Notation
import Mathlib.LinearAlgebra.Matrix.Determinant.Basic
import Verif.Spec.Cube

/-!
# Specification: differential geometry of a surface in ℝ³

Written without reference to the model of the metric classes: what it means that a pair of vectors is
the tangent basis of a parametrised surface, that a matrix is its induced metric, that symbols are the
Levi-Civita connection of a metric field, that a wind `(u, v)` is the zonal/meridional decomposition of
a tangent vector.
-/

namespace WxVerif.Geom

open WxVerif.Cube (V3)

/-- scalar product of ℝ³ -/
def dot (a b : V3 ℝ) : ℝ := a.1 * b.1 + a.2.1 * b.2.1 + a.2.2 * b.2.2

/-- vector product of ℝ³ -/
def cross (a b : V3 ℝ) : V3 ℝ :=
  (a.2.1 * b.2.2 - a.2.2 * b.2.1, a.2.2 * b.1 - a.1 * b.2.2, a.1 * b.2.1 - a.2.1 * b.1)

/-- `t 0, t 1` are the partial derivatives of the surface `P` at `(x₁, x₂)`. -/
def IsTangentBasis (P : ℝ → ℝ → V3 ℝ) (x1 x2 : ℝ) (t : Fin 2 → V3 ℝ) : Prop :=
  HasDerivAt (fun x => P x x2) (t 0) x1 ∧ HasDerivAt (fun x => P x1 x) (t 1) x2

/-- `H` is the metric induced on the surface with tangent basis `t`. -/
def IsInducedMetric (t : Fin 2 → V3 ℝ) (H : Matrix (Fin 2) (Fin 2) ℝ) : Prop :=
  ∀ i j, H i j = dot (t i) (t j)

/-- `dH c i j` is the partial derivative in direction `c` of the entry `(i,j)` of a metric field. -/
def IsMetricGradient (H : ℝ → ℝ → Matrix (Fin 2) (Fin 2) ℝ) (x1 x2 : ℝ)
    (dH : Fin 2 → Matrix (Fin 2) (Fin 2) ℝ) : Prop :=
  ∀ i j, HasDerivAt (fun x => H x x2 i j) (dH 0 i j) x1 ∧ HasDerivAt (fun x => H x1 x i j) (dH 1 i j) x2

/-- `Γ a b c` (upper index first) are the Christoffel symbols of the second kind of a metric with
value `H` and gradient `dH`: `H_{ad} Γ^d_{bc} = ½ (∂_b H_{ac} + ∂_c H_{ab} − ∂_a H_{bc})`. -/
def IsLeviCivita (H : Matrix (Fin 2) (Fin 2) ℝ) (dH : Fin 2 → Matrix (Fin 2) (Fin 2) ℝ)
    (Γ : Fin 2 → Matrix (Fin 2) (Fin 2) ℝ) : Prop :=
  ∀ a b c, ∑ d, H a d * Γ d b c = (dH b a c + dH c a b - dH a b c) / 2

/-- unit vector pointing east at longitude `lon` -/
noncomputable def eastUnit (lon : ℝ) : V3 ℝ := (-Real.sin lon, Real.cos lon, 0)

/-- unit vector pointing north at longitude `lon`, latitude `lat` -/
noncomputable def northUnit (lon lat : ℝ) : V3 ℝ :=
  (-Real.sin lat * Real.cos lon, -Real.sin lat * Real.sin lon, Real.cos lat)

/-- unit vector pointing up at longitude `lon`, latitude `lat` -/
noncomputable def upUnit (lon lat : ℝ) : V3 ℝ :=
  (Real.cos lat * Real.cos lon, Real.cos lat * Real.sin lon, Real.sin lat)

end WxVerif.Geom
