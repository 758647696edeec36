/-
Model of the initial states of the shallow-water model: `wx_factory/init/shallow_water_test.py` and `initialize_sw` in
`wx_factory/init/initialize.py`, at one grid point.  All formulas act on each point separately.  Modelled: solid-body rotation and cases 1, 2,
5 and 6.  Cases 0, 8, 9 and 10 raise in the pinned code (`ni, nj = geom.lat.shape` with three axes) and are not modelled here; see `Model/Galewsky.lean` for the
loop of case 8, `Model/Matsuno.lean` for the one of case 9.  Real arithmetic.
-/
import Verif.Model.Winds
import Verif.Model.ShallowWater

namespace WxVerif.InitShallow

open WxVerif.Sphere WxVerif.Flux WxVerif.ShallowWater
open Real

/-- `day_in_secs` — `wx_factory/common/definitions.py` 3 -/
noncomputable def dayInSecs : ℝ := 24 * 3600

/-- `u0` — `shallow_water_test.py` 30-33 -/
noncomputable def rotationU0 (case : Nat) (radius : ℝ) : ℝ := if case = 5 then 20 else 2 * π * radius / (12 * dayInSecs)

/-- `solid_body_rotation` — `shallow_water_test.py` 29-39 -/
noncomputable def solidBody (case : Nat) (o : Orientation) (radius d1 d2 X Y : ℝ) : ℝ × ℝ :=
  let coslat := cos (pointLat o radius X Y)
  wind2contra o radius d1 d2 coslat X Y (rotationU0 case radius * coslat) 0

/-- `ubar` — `shallow_water_test.py` 121 -/
noncomputable def ubar : ℝ := 2 * π / (12 * dayInSecs)

/-- `height_case1` as a function of longitude, latitude and time — `shallow_water_test.py` 117-139.  `lat_center` is 0.  (`numpy.arccos`
returns NaN outside `[-1, 1]`, `Real.arccos` clips; the argument is a cosine up to rounding.) -/
noncomputable def heightCase1 (lon lat time : ℝ) : ℝ :=
  let lonCenter := 3 * π / 2 + ubar * time
  let lonCenter := if lonCenter > 2 * π then lonCenter - 2 * π else lonCenter
  let radius : ℝ := 1 / 3
  let dist := arccos (sin 0 * sin lat + cos 0 * cos lat * cos (lon - lonCenter))
  0.5 * 1000 * (1 + cos (π * dist / radius)) * (if dist ≤ radius then 1 else 0)

/-- `height_case2` — `shallow_water_test.py` 155-160 -/
noncomputable def heightCase2 (radius Ω sinlat : ℝ) : ℝ :=
  let u0 := 2 * π * radius / (12 * dayInSecs)
  (29400 - (radius * Ω * u0 + 0.5 * u0 ^ 2) * sinlat ^ 2) / gravity

/-- `h_star` of case 5 — `shallow_water_test.py` 172-179 -/
noncomputable def hStar5 (radius Ω sinlat : ℝ) : ℝ :=
  let u0 : ℝ := 20
  (gravity * 5960 - (radius * Ω * u0 + 0.5 * u0 ^ 2) * sinlat ^ 2) / gravity

/-- `hsurf` of case 5 — `shallow_water_test.py` 182-203 (same formula at the interfaces, 205-208) -/
noncomputable def hsurf5 (lon lat : ℝ) : ℝ :=
  let rr := π / 9
  let r := sqrt (min (rr ^ 2) ((lon - 3 * π / 2) ^ 2 + (lat - π / 6) ^ 2))
  2000 * (1 - r / rr)

/-- wind and height of case 6, the Rossby-Haurwitz wave, at longitude `lon` and latitude `lat` — `shallow_water_test.py` 231-285 -/
noncomputable def omega6 : ℝ := 7.848e-6
@[inherit_doc omega6] noncomputable def coefA6 (Ω lat : ℝ) : ℝ :=
  omega6 / 2 * (2 * Ω + omega6) * cos lat ^ 2 + omega6 ^ 2 / 4 * cos lat ^ 8 * ((4 + 1) * cos lat ^ 2 + (2 * 4 ^ 2 - 4 - 2) - 2 * 4 ^ 2 * (cos lat ^ 2)⁻¹)
@[inherit_doc omega6] noncomputable def coefB6 (Ω lat : ℝ) : ℝ :=
  2 * (Ω + omega6) * omega6 / ((4 + 1) * (4 + 2)) * cos lat ^ 4 * ((4 ^ 2 + 2 * 4 + 2) - (4 + 1) ^ 2 * cos lat ^ 2)
@[inherit_doc omega6] noncomputable def coefC6 (lat : ℝ) : ℝ := omega6 ^ 2 / 4 * cos lat ^ 8 * ((4 + 1) * cos lat ^ 2 - (4 + 2))
@[inherit_doc omega6] noncomputable def height6 (radius Ω lon lat : ℝ) : ℝ :=
  8000 + (radius ^ 2 * coefA6 Ω lat + radius ^ 2 * coefB6 Ω lat * cos (4 * lon) + radius ^ 2 * coefC6 lat * cos (2 * 4 * lon)) / gravity
@[inherit_doc omega6] noncomputable def wind6 (radius lon lat : ℝ) : ℝ × ℝ :=
  (radius * omega6 * cos lat + radius * omega6 * cos lat ^ 3 * (4 * sin lat ^ 2 - cos lat ^ 2) * cos (4 * lon),
    -radius * omega6 * 4 * cos lat ^ 3 * sin lat * sin (4 * lon))

/-- `u1_contra`, `u2_contra`, `fluid_height` of the cases — `initialize.py` 155-172 and the functions above -/
noncomputable def caseFields (case : Nat) (o : Orientation) (radius Ω d1 d2 X Y : ℝ) : Option (ℝ × ℝ × ℝ) :=
  let lon := pointLon o radius X Y
  let lat := pointLat o radius X Y
  let u := solidBody case o radius d1 d2 X Y
  if case = 1 then some (u.1, u.2, heightCase1 lon lat 0)
  else if case = 2 then some (u.1, u.2, heightCase2 radius Ω (sin lat))
  else if case = 5 then some (u.1, u.2, hStar5 radius Ω (sin lat) - hsurf5 lon lat)
  else if case = 6 then
    let w := wind6 radius lon lat
    let u := wind2contra o radius d1 d2 (cos lat) X Y w.1 w.2
    some (u.1, u.2, height6 radius Ω lon lat)
  else none

/-- `Q` at one point — `initialize.py` 188-196: for `case_number <= 1` the velocity is stored, otherwise the momentum -/
noncomputable def initState (case : Nat) (o : Orientation) (radius Ω d1 d2 X Y : ℝ) : Option (Nat → ℝ) :=
  (caseFields case o radius Ω d1 d2 X Y).map fun f =>
    let u1 := f.1
    let u2 := f.2.1
    let h := f.2.2
    if case ≤ 1 then fun v => if v = 0 then h else if v = 1 then u1 else u2
    else fun v => if v = 0 then h else if v = 1 then h * u1 else h * u2

/-- the two fluxes of the right-hand side at a point with state `q` — `rhs_sw.py` 120-134 -/
noncomputable def fluxAt (d : Nat) (radius d1 d2 X Y : ℝ) (q : Nat → ℝ) (v : Nat) : ℝ :=
  pointwiseSW d ⟨q, sqrtGs radius d1 d2 X Y, Grid.toArr (Hcontras radius d1 d2 X Y)⟩ v

/-- height of the surface of case 5 at gnomonic coordinates `xy` of tile `r` — `shallow_water_test.py` 190-208 with the longitudes and latitudes
of `cubed_sphere_2d.py` 431-454 -/
noncomputable def surface5 (g : Grid) (r : Nat) (xy : ℝ × ℝ) : ℝ :=
  let o := g.orient (WxVerif.Topology.myPanel g.size r)
  hsurf5 (pointLon o g.radius xy.1 xy.2) (pointLat o g.radius xy.1 xy.2)

/-- `hsurf_itf_i` of case 5 — `shallow_water_test.py` 192-213: zero on the western side of the western halo and the eastern side of the eastern
halo (`west_edge`, `east_edge`, `cubed_sphere_2d.py` 167-170) -/
noncomputable def surface5I (g : Grid) (r ej p : Nat) (s : Bool) (l : Nat) : ℝ :=
  if (p = 0 ∧ s = false) ∨ (p = g.N + 1 ∧ s = true) then 0 else surface5 g r (g.itfXY1 r ej p s l)

/-- `hsurf_itf_j` of case 5 -/
noncomputable def surface5J (g : Grid) (r p ei : Nat) (s : Bool) (l : Nat) : ℝ :=
  if (p = 0 ∧ s = false) ∨ (p = g.N + 1 ∧ s = true) then 0 else surface5 g r (g.itfXY2 r p ei s l)

/-- the topography of case 5, with the slopes computed by the DFR operators — `shallow_water_test.py` 182-216, `initialize.py` 199-200 -/
noncomputable def topography5 (g : Grid) : Topography where
  h r ej ei c := surface5 g r (g.solXY r ej ei c)
  itfI := surface5I g
  itfJ := surface5J g
  dzdx1 r ej ei c := WxVerif.Dfr.df1_2d g.n g.pts (fun c => surface5 g r (g.solXY r ej ei c))
    (fun m => surface5I g r ej (ei + 1) (decide (g.n ≤ m)) (m % g.n)) c
  dzdx2 r ej ei c := WxVerif.Dfr.df2_2d g.n g.pts (fun c => surface5 g r (g.solXY r ej ei c))
    (fun m => surface5J g r (ej + 1) ei (decide (g.n ≤ m)) (m % g.n)) c

end WxVerif.InitShallow
