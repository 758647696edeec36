import Verif.Model.Winds
import Verif.Model.ShallowWater
import Mathlib.Algebra.Order.Floor.Semiring

/-!
# The barotropic jet (shallow-water case 8)

Model of `eval_u_prime` and of the loop of `case_galewsky` in `wx_factory/init/shallow_water_test.py`, at one grid point.  Real numbers stand
for floating-point numbers.  `none` is Python's `ZeroDivisionError`.

Not modelled: the unpacking `ni, nj = geom.lon.shape` (line 291), which raises in the pinned code because the arrays of the grid have three axes;
the model says what the loop computes at a point once it is reached.
-/

namespace WxVerif.Galewsky

open WxVerif.Sphere WxVerif.Flux
open Real

/-- `phi0` — `shallow_water_test.py` 14 -/
noncomputable def phi0 : ℝ := π / 7

/-- `phi1` — `shallow_water_test.py` 15 -/
noncomputable def phi1 : ℝ := π / 2 - phi0

/-- `eval_u_prime` — `shallow_water_test.py` 12-26.  The quotient `1.0 / (…)` of Python floats raises when the divisor is zero. -/
noncomputable def evalU (lat : ℝ) : Option ℝ :=
  if lat < phi0 then some 0
  else if lat > phi1 then some 0
  else
    let eN := exp (-4 / (phi1 - phi0) ^ 2)
    if (lat - phi0) * (lat - phi1) = 0 then none
    else some (80 / eN * exp (1 / ((lat - phi0) * (lat - phi1))))

/-- `nIntervals` — `shallow_water_test.py` 301-304.  (`int` rounds towards zero; a negative argument also ends as one interval.) -/
noncomputable def nIntervals (lat : ℝ) : Nat :=
  let n := ⌊(lat + 0.5 * π) / 0.01⌋₊
  if n < 1 then 1 else n

/-- `latX[k]` — `shallow_water_test.py` 306-309 -/
noncomputable def latX (lat : ℝ) (k : Nat) : ℝ := -0.5 * π + (lat + 0.5 * π) / nIntervals lat * k

/-- `dXeval` — `shallow_water_test.py` 315 -/
noncomputable def dXeval (lat : ℝ) (k : Nat) (m : ℝ) : ℝ :=
  0.5 * (latX lat (k + 1) + latX lat k) + m * sqrt (1 / 3) * 0.5 * (latX lat (k + 1) - latX lat k)

/-- the value added to `h_integrand` — `shallow_water_test.py` 317-321 -/
noncomputable def term (a Ω x : ℝ) : Option ℝ :=
  (evalU x).map fun dU => (2 * a * Ω * sin x + dU * tan x) * dU

/-- the two nested loops — `shallow_water_test.py` 311-321 -/
noncomputable def hIntegrand (a Ω lat : ℝ) : Option ℝ :=
  (List.range (nIntervals lat)).foldlM (fun acc k =>
    [(-1 : ℝ), 1].foldlM (fun acc m => (term a Ω (dXeval lat k m)).map (acc + ·)) acc) 0

/-- `h` before the perturbation — `shallow_water_test.py` 281, 323-325 -/
noncomputable def balancedHeight (a Ω lat : ℝ) : Option ℝ :=
  (hIntegrand a Ω lat).map fun s => 10158.18617045463179 - s * (0.5 * (latX lat 1 - latX lat 0)) / gravity

/-- the perturbation — `shallow_water_test.py` 282-285, 328-333 -/
noncomputable def perturbation (lon lat : ℝ) : ℝ :=
  120 * cos lat * exp (-((lon / (1 / 3)) ^ 2)) * exp (-(((π / 4 - lat) / (1 / 15)) ^ 2))

/-- `u` — `shallow_water_test.py` 335-343 (`v` is zero, line 294) -/
noncomputable def wind (lon lat : ℝ) : Option ℝ :=
  (evalU lat).map fun uP =>
    if |cos lon| < 1.0e-13 then uP
    else (0 * sin lat * sin lon + uP * cos lon) / cos lon

/-- `u`, `v`, `h` at one point — `shallow_water_test.py` 296-343 -/
noncomputable def fields (a Ω lon lat : ℝ) : Option (ℝ × ℝ × ℝ) :=
  (balancedHeight a Ω lat).bind fun h => (wind lon lat).map fun u => (u, 0, h + perturbation lon lat)

/-- `fields` at a point of a panel: `geom.lon`, `geom.lat` are those of `cart2sph` — `shallow_water_test.py` 296-343, `cubed_sphere_2d.py` 431-454 -/
noncomputable def pointFields (o : Orientation) (a Ω X Y : ℝ) : Option (ℝ × ℝ × ℝ) :=
  fields a Ω (pointLon o a X Y) (pointLat o a X Y)

end WxVerif.Galewsky
