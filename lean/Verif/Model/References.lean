import Verif.Model.InitShallow

/-!
# Model of the other reference solutions of the block statistics

`height_vortex` (case 0), with the wind of `circular_vortex`, and `height_unsteady_zonal` (case 10), as functions of longitude
and latitude.  In the pinned code the initialisation of both cases raises afterwards (`wind2contra_2d` is not defined,
see C61); the reference solutions themselves are modelled here.
-/

namespace WxVerif.InitShallow

open Real WxVerif.Sphere

/-- `lon_center`, `lat_center` — `wx_factory/init/shallow_water_test.py` 49-50, 68-69 -/
noncomputable def vortexLon : ℝ := π - 0.8
@[inherit_doc vortexLon] noncomputable def vortexLat : ℝ := π / 4.8

/-- `V0` — `shallow_water_test.py` 71 -/
noncomputable def vortexV0 (radius : ℝ) : ℝ := 2 * π / (12 * dayInSecs) * radius

/-- `lonR` — `shallow_water_test.py` 75-80 -/
noncomputable def rotatedLon (lon lat : ℝ) : ℝ :=
  let lonR := atan2 (cos lat * sin (lon - vortexLon)) (cos lat * sin vortexLat * cos (lon - vortexLon) - cos vortexLat * sin lat)
  if lonR < 0 then lonR + 2 * π else lonR

/-- `latR` — `shallow_water_test.py` 82-84 -/
noncomputable def rotatedLat (lon lat : ℝ) : ℝ := arcsin (sin lat * sin vortexLat + cos lat * cos vortexLat * cos (lon - vortexLon))

/-- `rho` — `shallow_water_test.py` 72, 86 -/
noncomputable def vortexRho (lon lat : ℝ) : ℝ := 3 * cos (rotatedLat lon lat)

/-- `Omega` — `shallow_water_test.py` 88-97 -/
noncomputable def vortexOmega (radius lon lat : ℝ) : ℝ :=
  let rho := vortexRho lon lat
  let vt := vortexV0 radius * (3 / 2 * √3) * (1 / cosh rho) ^ 2 * tanh rho
  if |rho| > 1e-9 then vt / (radius * rho) else 0

/-- `h` of `height_vortex` — `shallow_water_test.py` 65-101, `time` is `step * dt` -/
noncomputable def heightVortex (radius lon lat time : ℝ) : ℝ :=
  1 - tanh (vortexRho lon lat / 5 * sin (rotatedLon lon lat - vortexOmega radius lon lat * time))

/-- `u`, `v` of `circular_vortex` — `shallow_water_test.py` 54-59 -/
noncomputable def windVortex (radius lon lat : ℝ) : ℝ × ℝ :=
  (radius * vortexOmega radius lon lat * (sin vortexLat * cos lat - cos vortexLat * cos (lon - vortexLon) * sin lat),
    radius * vortexOmega radius lon lat * cos vortexLat * sin (lon - vortexLon))

/-- `u`, `v` of case 1 before their conversion — `shallow_water_test.py` 29-36 -/
noncomputable def windCase1 (radius lat : ℝ) : ℝ × ℝ := (rotationU0 1 radius * cos lat, 0)

/-- the ground of case 10, as a geopotential — `shallow_water_test.py` 411, 419; divided by gravity it is the topography of the run, line 420 -/
noncomputable def ground10 (radius Ω lat : ℝ) : ℝ := 0.5 * (radius * Ω * sin lat) ^ 2 + 10

/-- `height_unsteady_zonal`: the depth, with its own copy of the ground — `shallow_water_test.py` 458-481 -/
noncomputable def depth10 (radius Ω lat : ℝ) : ℝ :=
  let u0 := 2 * π * radius / (12 * 24 * 3600)
  let h := -0.5 * (u0 * sin lat + radius * Ω * sin lat) ^ 2 + 0.5 * (radius * Ω * sin lat) ^ 2 + 133681
  let hs := 0.5 * (radius * Ω * sin lat) ^ 2 + 10
  (h - hs) / Flux.gravity

/-- `u`, `v` of case 10 — `shallow_water_test.py` 407-414 -/
noncomputable def wind10 (radius lat : ℝ) : ℝ × ℝ := (2 * π * radius / (12 * 24 * 3600) * cos lat, 0)

end WxVerif.InitShallow
