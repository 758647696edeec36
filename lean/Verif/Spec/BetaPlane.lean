import Mathlib.Analysis.Calculus.Deriv.Basic

/-!
# Linear shallow water on the equatorial beta-plane

A small separate specification: what it means for three functions of longitude, latitude and time to be an exact
solution of the shallow-water equations linearized about a layer at rest, on the equatorial beta-plane (the Coriolis
parameter is `2 Ω lat` and distances are `a dlon`, `a dlat`).  Nothing here refers to the model of the code.
-/

namespace WxVerif.Spec.BetaPlane

/-- `(u, v, φ)` (functions of longitude, latitude, time) solve, at every point and every time,

* `u_t − 2 Ω lat v + φ_lon / a = 0`,
* `v_t + 2 Ω lat u + φ_lat / a = 0`,
* `φ_t + g h₀ (u_lon + v_lat) / a = 0`,

where `a` is the radius of the planet, `Ω` its rotation rate, `g` gravity and `h₀` the depth of the layer at rest.
The derivatives exist (they are not the junk value of a non-differentiable function). -/
structure Solves (Ω g a h₀ : ℝ) (u v φ : ℝ → ℝ → ℝ → ℝ) : Prop where
  zonal : ∀ lon lat t, ∃ ut φx, HasDerivAt (fun s => u lon lat s) ut t ∧
    HasDerivAt (fun s => φ s lat t) φx lon ∧ ut - 2 * Ω * lat * v lon lat t + φx / a = 0
  meridional : ∀ lon lat t, ∃ vt φy, HasDerivAt (fun s => v lon lat s) vt t ∧
    HasDerivAt (fun s => φ lon s t) φy lat ∧ vt + 2 * Ω * lat * u lon lat t + φy / a = 0
  continuity : ∀ lon lat t, ∃ φt ux vy, HasDerivAt (fun s => φ lon lat s) φt t ∧
    HasDerivAt (fun s => u s lat t) ux lon ∧ HasDerivAt (fun s => v lon s t) vy lat ∧
    φt + g * h₀ * (ux + vy) / a = 0

end WxVerif.Spec.BetaPlane
