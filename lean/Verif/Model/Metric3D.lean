import Verif.Model.Winds
import Mathlib.Analysis.SpecialFunctions.Pow.Real

/-!
# Model of the 3D terrain-following metric and of the 3D wind conversions

The model is the value at one point.  The slopes `dRdx1, dRdx2, dRdeta` are arguments (the code gets them
from the differentiation operators applied to the heights, `metric3d.py` 103-131).  The radius `R` is
`earth_radius + height` for a deep atmosphere and `earth_radius` (`A` in the code) for a shallow one: the
two branches of the code have the same text with `R` replaced by `A`, so the model has one parameter.
-/

namespace WxVerif.Sphere

open WxVerif.Cube (V3)
open Real

/-- Grid data at a point: radius used by the metric, gnomonic coordinates, slopes, element sizes. -/
structure Point3 where
  R : ℝ
  X : ℝ
  Y : ℝ
  dRdx1 : ℝ
  dRdx2 : ℝ
  dRdeta : ℝ
  dx : ℝ
  dy : ℝ
  de : ℝ

/-- `Hcov` of `compute_metric` — `wx_factory/geometry/metric3d.py` 519-545 (deep), 587-606 (shallow). -/
noncomputable def Hcov3 (p : Point3) : Matrix (Fin 3) (Fin 3) ℝ :=
  let del4 := delta2 p.X p.Y ^ 2
  let h11 := p.dx ^ 2 / 4 * (p.R ^ 2 / del4 * (1 + p.X ^ 2) ^ 2 * (1 + p.Y ^ 2) + p.dRdx1 ^ 2)
  let h12 := p.dx * p.dy / 4 * (-(p.R ^ 2) / del4 * p.X * p.Y * (1 + p.X ^ 2) * (1 + p.Y ^ 2) + p.dRdx1 * p.dRdx2)
  let h13 := p.de * p.dx / 4 * p.dRdx1 * p.dRdeta
  let h22 := p.dy ^ 2 / 4 * (p.R ^ 2 / del4 * (1 + p.X ^ 2) * (1 + p.Y ^ 2) ^ 2 + p.dRdx2 ^ 2)
  let h23 := p.de * p.dy / 4 * p.dRdx2 * p.dRdeta
  let h33 := p.de ^ 2 / 4 * p.dRdeta ^ 2
  !![h11, h12, h13; h12, h22, h23; h13, h23, h33]

/-- `Hcontra` of `compute_metric` — `metric3d.py` 547-573 (deep), 608-634 (shallow). -/
noncomputable def Hcontra3 (p : Point3) : Matrix (Fin 3) (Fin 3) ℝ :=
  let dq := delta2 p.X p.Y
  let sx := 1 + p.X ^ 2
  let sy := 1 + p.Y ^ 2
  let h11 := 4 / p.dx ^ 2 * (dq / (p.R ^ 2 * sx))
  let h12 := 4 / p.dx / p.dy * (p.X * p.Y * dq / (p.R ^ 2 * sx * sy))
  let h13 := 4 / p.dx / p.de *
    (-(p.dRdx1 * dq / (p.R ^ 2 * sx) + p.dRdx2 * dq * p.X * p.Y / (p.R ^ 2 * sx * sy)) / p.dRdeta)
  let h22 := 4 / p.dy ^ 2 * (dq / (p.R ^ 2 * sy))
  let h23 := 4 / p.dy / p.de *
    (-(p.dRdx1 * p.X * p.Y * dq / (p.R ^ 2 * sx * sy) + p.dRdx2 * dq / (p.R ^ 2 * sy)) / p.dRdeta)
  let h33 := 4 / p.de ^ 2 * (1 + p.dRdx1 ^ 2 * dq / (p.R ^ 2 * sx)
    + 2 * p.dRdx1 * p.dRdx2 * p.X * p.Y * dq / (p.R ^ 2 * sx * sy) + p.dRdx2 ^ 2 * dq / (p.R ^ 2 * sy)) / p.dRdeta ^ 2
  !![h11, h12, h13; h12, h22, h23; h13, h23, h33]

/-- `rootG` of `compute_metric` — `metric3d.py` 575-585 (deep), 636-644 (shallow). -/
noncomputable def rootG3 (p : Point3) : ℝ :=
  p.dx / 2 * (p.dy / 2) * (p.de / 2) * p.R ^ 2 * (1 + p.X ^ 2) * (1 + p.Y ^ 2) * |p.dRdeta|
    / delta2 p.X p.Y ^ (1.5 : ℝ)

/-- `metric_2d_contra_itf` — `metric3d.py` 216-220: note the sum of the two factors in the off-diagonal
denominator. -/
noncomputable def auxContra (X Y : ℝ) : Matrix (Fin 2) (Fin 2) ℝ :=
  let h12 := delta2 X Y * X * Y / ((1 + X ^ 2) + (1 + Y ^ 2))
  !![delta2 X Y / (1 + X ^ 2), h12; h12, delta2 X Y / (1 + Y ^ 2)]

/-- `metric_2d_cov_itf` — `metric3d.py` 222-225. -/
noncomputable def auxCov (X Y : ℝ) : Matrix (Fin 2) (Fin 2) ℝ :=
  let h12 := -X * Y * (1 + X ^ 2) * (1 + Y ^ 2) / delta2 X Y ^ 2
  !![(1 + X ^ 2) ^ 2 * (1 + Y ^ 2) / delta2 X Y ^ 2, h12; h12, (1 + X ^ 2) * (1 + Y ^ 2) ^ 2 / delta2 X Y ^ 2]

/-- `inv_dzdeta` — `metric3d.py` 1108. -/
noncomputable def invDzdeta (p : Point3) : ℝ := 1 / p.dRdeta * 2 / p.de

/-- `rot1` — `metric3d.py` 669. -/
noncomputable def rot1 (o : Orientation) (X Y : ℝ) : ℝ := sin o.lat - X * cos o.lat * sin o.ang + Y * cos o.lat * cos o.ang
/-- `rot2` — `metric3d.py` 670. -/
noncomputable def rot2 (o : Orientation) (X Y : ℝ) : ℝ :=
  (1 + X ^ 2) * cos o.lat * cos o.ang - Y * sin o.lat + X * Y * cos o.lat * sin o.ang
/-- `rot3` — `metric3d.py` 671. -/
noncomputable def rot3 (o : Orientation) (X Y : ℝ) : ℝ :=
  (1 + Y ^ 2) * cos o.lat * sin o.ang + X * sin o.lat + X * Y * cos o.lat * cos o.ang

/-- `Christoffel_a_0b` (row `a`, column `b`) before scaling, with the two horizontal entries that the code
writes differently left as arguments: `g102` is the factor multiplying `Ω/δ²` in `Γ¹₀₂` and `g202` in `Γ²₀₂`.
`metric3d.py` 677-727, 763-777, 796-809. -/
noncomputable def christoffelRot3With (g102 g202 : ℝ) (o : Orientation) (Ω : ℝ) (p : Point3) :
    Matrix (Fin 3) (Fin 3) ℝ :=
  let X := p.X; let Y := p.Y; let dq := delta2 X Y
  let r1 := rot1 o X Y; let r2 := rot2 o X Y; let r3 := rot3 o X Y
  let c101 := Ω * X * Y / dq * r1 + p.dRdx1 * Ω / (p.R * (1 + X ^ 2)) * r2
  let c102 := Ω * g102 / dq + p.dRdx2 * Ω / (p.R * (1 + X ^ 2)) * r2
  let c103 := p.dRdeta * Ω / (p.R * (1 + X ^ 2)) * r2
  let c201 := Ω * (1 + X ^ 2) / dq * r1 + p.dRdx1 * Ω / (p.R * (1 + Y ^ 2)) * r3
  let c202 := Ω * g202 / dq + p.dRdx2 * Ω / (p.R * (1 + Y ^ 2)) * r3
  let c203 := p.dRdeta * Ω / (p.R * (1 + Y ^ 2)) * r3
  let c301 := -(p.dRdeta⁻¹) * (p.dRdx1 * c101 + p.dRdx2 * c201
    + p.R / dq * Ω * (1 + X ^ 2) * (cos o.lat * cos o.ang - Y * sin o.lat))
  let c302 := -(p.dRdeta⁻¹) * (p.dRdx1 * c102 + p.dRdx2 * c202
    + p.R / dq * Ω * (1 + Y ^ 2) * (cos o.lat * sin o.ang + X * sin o.lat))
  let c303 := -p.dRdx1 * Ω / (p.R * (1 + X ^ 2)) * r2 - p.dRdx2 * Ω / (p.R * (1 + Y ^ 2)) * r3
  !![c101, c102, c103; c201, c202, c203; c301, c302, c303]

/-- The symbols of the code: `Γ¹₀₂` has `-Ω(-(1+Y²)/δ²)·rot1` and `Γ²₀₂` has `-ΩXY/δ²·rot2` —
`metric3d.py` 681-683, 710-712 (deep), 691-693, 723 (shallow). -/
noncomputable def christoffelRot3 (o : Orientation) (Ω : ℝ) (p : Point3) : Matrix (Fin 3) (Fin 3) ℝ :=
  christoffelRot3With (-(-(1 + p.Y ^ 2)) * rot1 o p.X p.Y) (-(p.X * p.Y) * rot2 o p.X p.Y) o Ω p

/-- Scaling of `Christoffel_a_0b` to the reference element — `metric3d.py` 835-883. -/
noncomputable def scaleRot3 (p : Point3) (g : Matrix (Fin 3) (Fin 3) ℝ) : Matrix (Fin 3) (Fin 3) ℝ :=
  let d : Fin 3 → ℝ := ![p.dx, p.dy, p.de]
  fun a b => g a b * ((2 / d a) * 1 * (d b / 2))

/-- `wind2contra` in 3D — `wx_factory/geometry/cubed_sphere_3d.py` 1104-1148, `winds.py` 86-131.  `rad` is the
radius of the 2D conversion (deep: `earth_radius + height`; shallow: `earth_radius`), the same as the
radius of the metric. -/
noncomputable def wind2contra3 (o : Orientation) (coslat : ℝ) (p : Point3) (u v w : ℝ) : ℝ × ℝ × ℝ :=
  let c := wind2contra o p.R p.dx p.dy coslat p.X p.Y u v
  let u3cov := w / invDzdeta p
  (c.1 + Hcontra3 p 0 2 * u3cov, c.2 + Hcontra3 p 1 2 * u3cov, Hcontra3 p 2 2 * u3cov)

/-- `contra2wind_3d` — `cubed_sphere_3d.py` 1232-1288, `winds.py` 227-275. -/
noncomputable def contra2wind3 (o : Orientation) (coslat : ℝ) (p : Point3) (u1 u2 u3 : ℝ) : ℝ × ℝ × ℝ :=
  let c := contra2wind o p.R p.dx p.dy coslat p.X p.Y u1 u2
  let u3cov := u1 * Hcov3 p 2 0 + u2 * Hcov3 p 2 1 + u3 * Hcov3 p 2 2
  (c.1, c.2, u3cov * invDzdeta p)

end WxVerif.Sphere
