import Mathlib.Analysis.Calculus.Deriv.Basic
import Mathlib.Analysis.SpecialFunctions.Trigonometric.Basic
import Mathlib.Analysis.SpecialFunctions.Exp

/-!
# Zonal jets of the shallow-water equations

A small separate specification.  Nothing here refers to the model of the code.
-/

namespace WxVerif.Spec.ZonalJet

open Real

/-- The zonal wind of Galewsky, Scott and Polvani (2004): a jet of 80 m/s between the latitudes `π/7` and `π/2 − π/7`. -/
noncomputable def jet (φ : ℝ) : ℝ :=
  if π / 7 < φ ∧ φ < π / 2 - π / 7 then
    80 / exp (-4 / ((π / 2 - π / 7) - π / 7) ^ 2) * exp (1 / ((φ - π / 7) * (φ - (π / 2 - π / 7))))
  else 0

/-- The perturbation of the depth in that paper, 120 m high and centred at longitude zero and latitude `π/4`; the longitude `lon` is between
`−π` and `π`. -/
noncomputable def bump (lon φ : ℝ) : ℝ := 120 * cos φ * exp (-(3 * lon) ^ 2) * exp (-(15 * (π / 4 - φ)) ^ 2)

/-- How fast gravity times the depth has to fall with latitude to balance the zonal wind `u`. -/
noncomputable def fall (a Ω : ℝ) (u : ℝ → ℝ) (φ : ℝ) : ℝ := (2 * a * Ω * sin φ + u φ * tan φ) * u φ

/-- A layer of depth `h` with the purely zonal wind `u`, both functions of the latitude, is a steady solution of the shallow-water equations at
latitude `φ` on a sphere of radius `a` that rotates at `Ω`: the meridional momentum equation
`(2 Ω sin φ + u tan φ / a) u + (g / a) dh/dφ = 0`.  (The other two equations hold trivially, because nothing depends on longitude and the wind is
zonal.)  The derivative exists. -/
def SteadyZonal (a Ω g : ℝ) (u h : ℝ → ℝ) (φ : ℝ) : Prop :=
  ∃ h', HasDerivAt h h' φ ∧ (2 * Ω * sin φ + u φ * tan φ / a) * u φ + g / a * h' = 0

end WxVerif.Spec.ZonalJet
