import Mathlib.Analysis.Calculus.Deriv.Basic
import Mathlib.Analysis.SpecialFunctions.Trigonometric.Basic

/-!
# Balanced states of an atmosphere

A small separate specification of the balances an initial state is expected to satisfy, for functions of latitude `φ` and
height `z` (or longitude, latitude, height).  Nothing here refers to the model of the code.  The derivatives exist: they are
not the junk value of a non-differentiable function.
-/

namespace WxVerif.Spec.Balance

open Real

/-- Hydrostatic balance of a column at height `z`: `dp/dz = -ρ g`. -/
def Hydrostatic (g : ℝ) (p ρ : ℝ → ℝ) (z : ℝ) : Prop := HasDerivAt p (-(ρ z * g)) z

/-- A zonally symmetric state with purely zonal wind `u` is a steady solution of the Euler equations at latitude `φ` and
height `z` on a planet of radius `a` rotating at `Ω`:

* meridional momentum: `ρ (u² tan φ + 2 Ω r u sin φ) + ∂p/∂φ = 0`,
* vertical momentum: `ρ g + ∂p/∂z = 0` in the shallow atmosphere, `= ρ (u²/r + 2 Ω u cos φ)` in the deep one,

where `r` is `a` in the shallow atmosphere and `a + z` in the deep one.  (The mass, zonal momentum and potential temperature
equations hold trivially, because nothing depends on longitude and the wind is zonal.) -/
def SteadyZonal (deep : Bool) (Ω g a : ℝ) (p ρ u : ℝ → ℝ → ℝ) (φ z : ℝ) : Prop :=
  ∃ pφ pz, HasDerivAt (fun s => p s z) pφ φ ∧ HasDerivAt (fun s => p φ s) pz z ∧
    ρ φ z * (u φ z ^ 2 * tan φ + 2 * Ω * (if deep then a + z else a) * u φ z * sin φ) + pφ = 0 ∧
    ρ φ z * g + pz = if deep then ρ φ z * (u φ z ^ 2 / (a + z) + 2 * Ω * u φ z * cos φ) else 0

/-- The mass flux of the wind `(u, v, w)` with the density `ρ(z)` has no divergence at a point away from the poles (shallow
atmosphere of radius `a`): `(∂(ρu)/∂λ + ∂(ρ v cos φ)/∂φ) / (a cos φ) + ∂(ρw)/∂z = 0`. -/
def MassFluxDivergenceFree (a : ℝ) (ρ : ℝ → ℝ) (u v w : ℝ → ℝ → ℝ → ℝ) (lon φ z : ℝ) : Prop :=
  ∃ dx dy dz, HasDerivAt (fun s => ρ z * u s φ z) dx lon ∧ HasDerivAt (fun s => ρ z * v lon s z * cos s) dy φ ∧
    HasDerivAt (fun s => ρ s * w lon φ s) dz z ∧ (dx + dy) / (a * cos φ) + dz = 0

end WxVerif.Spec.Balance
