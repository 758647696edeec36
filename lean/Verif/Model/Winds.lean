import Verif.Model.Sphere
import Mathlib.Analysis.SpecialFunctions.Complex.Arg

/-!
# Model of the wind conversions and of `cart2sph`
-/

namespace WxVerif.Sphere

open WxVerif.Cube (V3)
open Real

/-- `numpy.arctan2(y, x)`. -/
noncomputable def atan2 (y x : ℝ) : ℝ := Complex.arg ⟨x, y⟩

/-- `numpy.hypot`. -/
noncomputable def hypot (x y : ℝ) : ℝ := sqrt (x ^ 2 + y ^ 2)

/-- `cart2sph` — `wx_factory/geometry/sphere.py` 25-46: `(az, elev, r)`, azimuth moved to `[0, 2π]`. -/
noncomputable def cart2sph (p : V3 ℝ) : ℝ × ℝ × ℝ :=
  let hyp := hypot p.1 p.2.1
  let r := hypot hyp p.2.2
  let elev := atan2 p.2.2 hyp
  let az := atan2 p.2.1 p.1
  (if az < 0 then az + 2 * π else az, elev, r)

/-- `sph2cart` — `wx_factory/geometry/sphere.py` 5-22. -/
noncomputable def sph2cart (az elev radius : ℝ) : V3 ℝ :=
  let rc := radius * cos elev
  (rc * cos az, rc * sin az, radius * sin elev)

/-- `lon`, `lat` of a grid point — `wx_factory/geometry/cubed_sphere_2d.py` 431-454. -/
noncomputable def pointLon (o : Orientation) (r X Y : ℝ) : ℝ := (cart2sph (cart o r X Y)).1
@[inherit_doc pointLon] noncomputable def pointLat (o : Orientation) (r X Y : ℝ) : ℝ :=
  (cart2sph (cart o r X Y)).2.1

/-- `denom` before the square root — `cubed_sphere_2d.py` 594-602, 653-657. -/
noncomputable def denom2 (o : Orientation) (X Y : ℝ) : ℝ :=
  (cos o.lat + X * sin o.lat * sin o.ang - Y * sin o.lat * cos o.ang) ^ 2 + (X * cos o.ang + Y * sin o.ang) ^ 2

/-- `wind2contra` / `wind2contra_2d` at a point — `cubed_sphere_2d.py` 564-627, `cubed_sphere_3d.py` 1033-1102,
`winds.py` 11-83 (the same formulas three times).  `rad` is the radius used in the conversion
(`earth_radius`, or `earth_radius` plus the height in a deep atmosphere); `coslat` is the cosine of the
latitude of the point. -/
noncomputable def wind2contra (o : Orientation) (rad d1 d2 coslat X Y u v : ℝ) : ℝ × ℝ :=
  let lambda_dot := u / (rad * coslat)
  let phi_dot := v / rad
  let denom := sqrt (denom2 o X Y)
  let dx1dlon := cos o.lat * cos o.ang + (X * Y * cos o.lat * sin o.ang - Y * sin o.lat) / (1 + X ^ 2)
  let dx2dlon := (X * Y * cos o.lat * cos o.ang + X * sin o.lat) / (1 + Y ^ 2) + cos o.lat * sin o.ang
  let dx1dlat := -delta2 X Y * ((cos o.lat * sin o.ang + X * sin o.lat) / (1 + X ^ 2)) / denom
  let dx2dlat := delta2 X Y * ((cos o.lat * cos o.ang - Y * sin o.lat) / (1 + Y ^ 2)) / denom
  ((dx1dlon * lambda_dot + dx1dlat * phi_dot) * 2 / d1, (dx2dlon * lambda_dot + dx2dlat * phi_dot) * 2 / d2)

/-- `contra2wind` / `contra2wind_2d` at a point — `cubed_sphere_2d.py` 629-695, `cubed_sphere_3d.py` 1150-1230,
`winds.py` 133-224. -/
noncomputable def contra2wind (o : Orientation) (rad d1 d2 coslat X Y u1 u2 : ℝ) : ℝ × ℝ :=
  let c1 := u1 * d1 / 2
  let c2 := u2 * d2 / 2
  let dlondx1 := (cos o.lat * cos o.ang - Y * sin o.lat) * (1 + X ^ 2) / denom2 o X Y
  let dlondx2 := (cos o.lat * sin o.ang + X * sin o.lat) * (1 + Y ^ 2) / denom2 o X Y
  let denom := sqrt (denom2 o X Y)
  let dlatdx1 := -((X * Y * cos o.lat * cos o.ang + X * sin o.lat + (1 + Y ^ 2) * cos o.lat * sin o.ang)
    * (1 + X ^ 2)) / (delta2 X Y * denom)
  let dlatdx2 := (((1 + X ^ 2) * cos o.lat * cos o.ang + X * Y * cos o.lat * sin o.ang - Y * sin o.lat)
    * (1 + Y ^ 2)) / (delta2 X Y * denom)
  ((dlondx1 * c1 + dlondx2 * c2) * coslat * rad, (dlatdx1 * c1 + dlatdx2 * c2) * rad)

end WxVerif.Sphere
