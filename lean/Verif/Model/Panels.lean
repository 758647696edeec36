import Verif.Model.Winds

/-!
# Model of the panel orientations and of the tiles of the cubed sphere
-/

namespace WxVerif.Sphere

open Real

open Classical in
/-- `lon_p, lat_p, angle_p` of panel `p` for the grid rotation `lambda0, phi0, alpha0`; `none` is the
`ValueError` — `wx_factory/geometry/cubed_sphere_2d.py` 217-264 (the same text in `cubed_sphere_3d.py` 330-377). -/
noncomputable def panelOrientation (lambda0 phi0 alpha0 : ℝ) : Nat → Option Orientation :=
  let c1 := cos lambda0; let c2 := cos phi0; let c3 := cos alpha0
  let s1 := sin lambda0; let s2 := sin phi0; let s3 := sin alpha0
  fun panel => match panel with
  | 0 => some ⟨lambda0, phi0, alpha0⟩
  | 1 => some ⟨atan2 (s1 * s2 * s3 + c1 * c3) (c1 * s2 * s3 - s1 * c3), -arcsin (c2 * s3), atan2 s2 (c2 * c3)⟩
  | 2 => some ⟨atan2 (-s1) (-c1), -phi0, -atan2 s3 c3⟩
  | 3 => some ⟨atan2 (-s1 * s2 * s3 - c1 * c3) (-c1 * s2 * s3 + s1 * c3), arcsin (c2 * s3), -atan2 s2 (c2 * c3)⟩
  | 4 => if |phi0| < 1e-13 ∧ |alpha0| < 1e-13 then some ⟨0, π / 2, -lambda0⟩
    else some ⟨atan2 (-s1 * s2 * c3 + c1 * s3) (-c1 * s2 * c3 - s1 * s3), arcsin (c2 * c3), atan2 (c2 * s3) (-s2)⟩
  | 5 => if |phi0| < 1e-13 ∧ |alpha0| < 1e-13 then some ⟨0, -π / 2, lambda0⟩
    else some ⟨atan2 (s1 * s2 * c3 - c1 * s3) (c1 * s2 * c3 + s1 * s3), -arcsin (c2 * c3), atan2 (c2 * s3) s2⟩
  | _ => none

/-- `start_x1_tile` of the process in column (row) `c` of a panel with `lines` tiles per side —
`cubed_sphere_2d.py` 95-103. -/
noncomputable def tileStart (lines c : Nat) : ℝ := -π / 4 + c * ((π / 4 - -π / 4) / lines)

/-- `end_x1_tile`. -/
noncomputable def tileEnd (lines c : Nat) : ℝ := tileStart lines c + (π / 4 - -π / 4) / lines

/-- `delta_x1`: size of an element, `elems` elements per tile — `cubed_sphere_2d.py` 118. -/
noncomputable def elementSize (lines c elems : Nat) : ℝ := (tileEnd lines c - tileStart lines c) / elems

/-- Angle of the point with reference coordinate `ξ` of element `e` of the tile in column `c` —
`cubed_sphere_2d.py` 123-125, 177-184. -/
noncomputable def gridAngle (lines elems c e : Nat) (ξ : ℝ) : ℝ :=
  elementCoord (tileStart lines c) (elementSize lines c elems) e ξ

end WxVerif.Sphere
