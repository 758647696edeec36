import Mathlib.Analysis.SpecialFunctions.Trigonometric.Basic
import Verif.Spec.Sphere

/-!
# Specification: where the points of a 3D cubed-sphere grid are

Written without reference to the arrays of the model.
-/

namespace WxVerif.Grid3

open Real
open WxVerif.Cube (V3)

/-- Equiangular coordinate of a point of a panel, which covers `[-π/4, π/4]` and is cut into `lines` tiles of `num` elements of equal width:
element `e` of tile `pos`, reference coordinate `ξ` between `-1` and `1`. -/
noncomputable def equi (lines pos num e : Nat) (ξ : ℝ) : ℝ := -(π / 4) + ((pos : ℝ) + ((e : ℝ) + (1 + ξ) / 2) / num) * (π / 2 / lines)

/-- Vertical coordinate, from 0 at the ground to 1 at the lid, of reference coordinate `ξ` of element `e` of `num`. -/
noncomputable def level (num e : Nat) (ξ : ℝ) : ℝ := ((e : ℝ) + (1 + ξ) / 2) / num

/-- The direction, seen from the centre of the planet, of the point with equiangular coordinates `x1`, `x2` of a panel: a panel is a square that
touches the sphere at longitude `lon` and latitude `lat` and whose first axis is turned by `ang` from the east towards the south. -/
noncomputable def gaze (lon lat ang x1 x2 : ℝ) : V3 ℝ :=
  (1 / √(1 + tan x1 ^ 2 + tan x2 ^ 2)) •
    (Geom.upUnit lon lat + tan x1 • (cos ang • Geom.eastUnit lon - sin ang • Geom.northUnit lon lat) +
      tan x2 • (sin ang • Geom.eastUnit lon + cos ang • Geom.northUnit lon lat))

/-- Nine numbers describe one point above a terrain `f` of longitude and latitude: the gnomonic coordinates `g` (tangents of the equiangular
coordinates `x1`, `x2` and height), the Cartesian coordinates `c` and longitude, latitude and height `s`.  The height interpolates between the
terrain at this longitude and latitude and the lid, the three descriptions are those of one point, and it lies in the direction `dir` from the
centre of the planet. -/
def IsPlace (radius ztop : ℝ) (f : ℝ → ℝ → ℝ) (dir : V3 ℝ) (x1 x2 η : ℝ) (g c s : V3 ℝ) : Prop :=
  0 ≤ s.1 ∧ s.1 < 2 * π ∧ |s.2.1| ≤ π / 2 ∧
    s.2.2 = f s.1 s.2.1 + η * (ztop - f s.1 s.2.1) ∧
    g = (tan x1, tan x2, s.2.2) ∧
    c = (radius + s.2.2) • Geom.upUnit s.1 s.2.1 ∧
    c = (radius + s.2.2) • dir

end WxVerif.Grid3
