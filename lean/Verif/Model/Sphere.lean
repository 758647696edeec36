import Verif.Spec.Sphere

/-!
# Model of the cubed-sphere geometry and of the shallow-water metric

Real numbers stand for floating point numbers (rounding is not modelled).  Array operations of the code
are pointwise; the model is the value at one point.
-/

namespace WxVerif.Sphere

open WxVerif.Cube (V3)
open Real

/-- `lon_p`, `lat_p`, `angle_p` of a panel — `wx_factory/geometry/cubed_sphere_2d.py` 217-268. -/
structure Orientation where
  lon : ℝ
  lat : ℝ
  ang : ℝ

/-- `delta2 = 1 + X² + Y²` — `cubed_sphere_2d.py` 335. -/
def delta2 (X Y : ℝ) : ℝ := 1 + X ^ 2 + Y ^ 2

/-- `delta = sqrt(delta2)` — `cubed_sphere_2d.py` 336. -/
noncomputable def delta (X Y : ℝ) : ℝ := sqrt (delta2 X Y)

/-- `to_cartesian` applied to gnomonic coordinates — `cubed_sphere_2d.py` 379-424.  The radius is the
argument `r` (`earth_radius` in 2D). -/
noncomputable def cart (o : Orientation) (r X Y : ℝ) : V3 ℝ :=
  (r / delta X Y * (cos o.lon * cos o.lat
      + X * (cos o.lon * sin o.lat * sin o.ang - sin o.lon * cos o.ang)
      - Y * (cos o.lon * sin o.lat * cos o.ang + sin o.lon * sin o.ang)),
   r / delta X Y * (sin o.lon * cos o.lat
      + X * (sin o.lon * sin o.lat * sin o.ang + cos o.lon * cos o.ang)
      - Y * (sin o.lon * sin o.lat * cos o.ang - cos o.lon * sin o.ang)),
   r / delta X Y * (sin o.lat - X * cos o.lat * sin o.ang + Y * cos o.lat * cos o.ang))

/-- A grid point as a function of the equiangular coordinates: `to_gnomonic` then `to_cartesian` —
`cubed_sphere_2d.py` 360-428. -/
noncomputable def position (o : Orientation) (r x1 x2 : ℝ) : V3 ℝ := cart o r (tan x1) (tan x2)

/-- `sqrtG` before element scaling — `wx_factory/geometry/metric2d.py` 17 (18-29 at the interfaces:
same formula). -/
noncomputable def sqrtG (r X Y : ℝ) : ℝ :=
  r ^ 2 * (1 + X ^ 2) * (1 + Y ^ 2) / (delta2 X Y * delta X Y)

/-- `H_contra` before element scaling — `metric2d.py` 40-46 (49-69 at the interfaces: same formulas). -/
noncomputable def Hcontra (r X Y : ℝ) : Matrix (Fin 2) (Fin 2) ℝ :=
  let h12 := delta2 X Y * X * Y / (r ^ 2 * (1 + X ^ 2) * (1 + Y ^ 2))
  !![delta2 X Y / (r ^ 2 * (1 + X ^ 2)), h12; h12, delta2 X Y / (r ^ 2 * (1 + Y ^ 2))]

/-- `H_cov` before element scaling — `metric2d.py` 73-78. -/
noncomputable def Hcov (r X Y : ℝ) : Matrix (Fin 2) (Fin 2) ℝ :=
  let fact := r ^ 2 / delta X Y ^ 4
  let h12 := -fact * X * Y * (1 + X ^ 2) * (1 + Y ^ 2)
  !![fact * (1 + X ^ 2) ^ 2 * (1 + Y ^ 2), h12; h12, fact * (1 + X ^ 2) * (1 + Y ^ 2) ^ 2]

/-- `gridrot` — `metric2d.py` 82-86. -/
noncomputable def gridrot (o : Orientation) (X Y : ℝ) : ℝ :=
  sin o.lat - X * cos o.lat * sin o.ang + Y * cos o.lat * cos o.ang

/-- `christoffel_a_0b` (first index `a`, second `b`) — `metric2d.py` 88-98.  Not scaled by the code. -/
noncomputable def christoffelRot (o : Orientation) (Ω X Y : ℝ) : Matrix (Fin 2) (Fin 2) ℝ :=
  !![Ω * X * Y / delta2 X Y * gridrot o X Y, -Ω * (1 + Y ^ 2) / delta2 X Y * gridrot o X Y;
     Ω * (1 + X ^ 2) / delta2 X Y * gridrot o X Y, -Ω * X * Y / delta2 X Y * gridrot o X Y]

/-- `christoffel_a_bc` (upper index first) before scaling — `metric2d.py` 100-112. -/
noncomputable def christoffel (X Y : ℝ) : Fin 2 → Matrix (Fin 2) (Fin 2) ℝ
  | 0 => !![2 * X * Y ^ 2 / delta2 X Y, -(Y + Y ^ 3) / delta2 X Y; -(Y + Y ^ 3) / delta2 X Y, 0]
  | 1 => !![0, -X * (1 + X ^ 2) / delta2 X Y; -X * (1 + X ^ 2) / delta2 X Y, 2 * X ^ 2 * Y / delta2 X Y]

/-- `coriolis_f` — `metric2d.py` 115-124. -/
noncomputable def coriolisF (o : Orientation) (Ω X Y : ℝ) : ℝ :=
  2 * Ω / delta X Y * (sin o.lat - X * cos o.lat * sin o.ang + Y * cos o.lat * cos o.ang)

/-- `sqrtG` after conversion to the reference element — `metric2d.py` 130-132. -/
noncomputable def sqrtGs (r d1 d2 X Y : ℝ) : ℝ := sqrtG r X Y * (d1 * d2 / 8)

/-- `H_cov` after conversion — `metric2d.py` 136-139. -/
noncomputable def Hcovs (r d1 d2 X Y : ℝ) : Matrix (Fin 2) (Fin 2) ℝ :=
  let h := Hcov r X Y
  !![h 0 0 * (d1 ^ 2 / 4), h 0 1 * (d1 * d2 / 4); h 1 0 * (d2 * d1 / 4), h 1 1 * (d2 ^ 2 / 4)]

/-- `H_contra` after conversion — `metric2d.py` 141-157. -/
noncomputable def Hcontras (r d1 d2 X Y : ℝ) : Matrix (Fin 2) (Fin 2) ℝ :=
  let h := Hcontra r X Y
  !![h 0 0 * (4 / d1 ^ 2), h 0 1 * (4 / (d1 * d2)); h 1 0 * (4 / (d1 * d2)), h 1 1 * (4 / d2 ^ 2)]

/-- `christoffel_a_bc` after conversion — `metric2d.py` 159-167. -/
noncomputable def christoffels (d1 d2 X Y : ℝ) : Fin 2 → Matrix (Fin 2) (Fin 2) ℝ
  | 0 => let g := christoffel X Y 0
         !![g 0 0 * (0.5 * d1), g 0 1 * (0.5 * d1); g 1 0 * (0.5 * d1), g 1 1 * (0.5 * d1)]
  | 1 => let g := christoffel X Y 1
         !![g 0 0 * (0.5 * d2), g 0 1 * (0.5 * d2); g 1 0 * (0.5 * d2), g 1 1 * (0.5 * d2)]

/-- The point with reference coordinate `ξ ∈ [-1, 1]` of the element number `e` of a tile starting at
`start`, elements of size `d`: `offsets + delta/Δcomp·(−minComp + solutionPoint)` with `minComp = -1`,
`Δcomp = 2` — `cubed_sphere_2d.py` 123-125, 177-184. -/
noncomputable def elementCoord (start d : ℝ) (e : Nat) (ξ : ℝ) : ℝ := (start + d * e) + d / 2 * (1 + ξ)

/-- The rotation part of the shallow-water forcing, per unit depth: `2 (Γᵃ₀₁ u¹ + Γᵃ₀₂ u²)` —
`wx_factory/rhs/rhs_sw.py` 224-231. -/
noncomputable def coriolisForcing (o : Orientation) (Ω X Y u1 u2 : ℝ) (a : Fin 2) : ℝ :=
  2 * (christoffelRot o Ω X Y a 0 * u1 + christoffelRot o Ω X Y a 1 * u2)

end WxVerif.Sphere
