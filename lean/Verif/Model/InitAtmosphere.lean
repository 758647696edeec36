/-
Model of the initial states of the 3D atmosphere (`wx_factory/init/dcmip.py`) and of the vertical plane
(`initialize_cartesian2d`), point by point: the formulas are applied by NumPy to every grid point separately.  Real arithmetic instead
of floating point.  Winds are the geographic components (eastward, northward, upward); their conversion to contravariant components is
modelled in Model/Winds.
-/
import Verif.Model.Flux
import Mathlib.Analysis.SpecialFunctions.Trigonometric.Inverse
import Mathlib.Analysis.SpecialFunctions.Sqrt

open WxVerif.Flux Real

namespace WxVerif.InitAtm

/-- `rho = p / (Rd * t)` — `wx_factory/init/dcmip.py` 132, 208, 307, 532, 665, 857, 959 -/
noncomputable def rhoOf (p t : ℝ) : ℝ := p / (Rd * t)

/-- `theta = t * (p0 / p) ** (Rd / cpd)` — `dcmip.py` 215, 314, 546, 671, 851, 965 -/
noncomputable def thetaOf (p t : ℝ) : ℝ := t * (p0 / p) ^ (Rd / cpd)

/-! ## Isothermal atmosphere of the advection tests 11 and 12 -/

/-- `H = Rd * T0 / gravity` with `T0 = 300.0` — `dcmip.py` 46-47, 115-116, 176-177, 278-279, 939 -/
noncomputable def scaleHeight : ℝ := Rd * 300 / gravity

/-- `p = p0 * numpy.exp(-geom.height / H)` — `dcmip.py` 49, 120, 190, 289, 940 -/
noncomputable def isoPressure (z : ℝ) : ℝ := p0 * exp (-z / scaleHeight)

/-! ## Case 11: deformational flow -/

/-- `tau = 12.0 * 86400.0` — `dcmip.py` 42 -/
noncomputable def tau11 : ℝ := 12 * 86400
/-- `ptop = p0 * math.exp(-12000.0 / H)` — `dcmip.py` 50 -/
noncomputable def ptop : ℝ := p0 * exp (-12000 / scaleHeight)
/-- `u0 = (2.0 * math.pi * geom.earth_radius) / tau` — `dcmip.py` 43 -/
noncomputable def u0_11 (a : ℝ) : ℝ := 2 * π * a / tau11
/-- `k0 = ((10.0 * geom.earth_radius) / tau,)` (a tuple of one element, which broadcasts) — `dcmip.py` 44 -/
noncomputable def k0_11 (a : ℝ) : ℝ := 10 * a / tau11
/-- `omega0 = (23000.0 * math.pi) / tau` — `dcmip.py` 45 -/
noncomputable def omega0 : ℝ := 23000 * π / tau11
/-- `bs = 0.2` — `dcmip.py` 55 -/
noncomputable def bs : ℝ := 0.2

/-- `lonp = geom.lon - 2.0 * math.pi * time / tau` — `dcmip.py` 52 -/
noncomputable def lonp (lon t : ℝ) : ℝ := lon - 2 * π * t / tau11

/-- shape function `s` of the vertical velocity — `dcmip.py` 56-61 -/
noncomputable def shape (p : ℝ) : ℝ :=
  1 + exp ((ptop - p0) / (bs * ptop)) - exp ((p - p0) / (bs * ptop)) - exp ((ptop - p) / (bs * ptop))

/-- `ud` — `dcmip.py` 65-72 -/
noncomputable def ud (a t lon lat p : ℝ) : ℝ :=
  omega0 * a / (bs * ptop) * cos (lonp lon t) * cos lat ^ 2 * cos (2 * π * t / tau11)
    * (-exp ((p - p0) / (bs * ptop)) + exp ((ptop - p) / (bs * ptop)))

/-- zonal velocity `u` of case 11 — `dcmip.py` 74-78 -/
noncomputable def u11 (a t lon lat z : ℝ) : ℝ :=
  k0_11 a * sin (lonp lon t) * sin (lonp lon t) * sin (2 * lat) * cos (π * t / tau11) + u0_11 a * cos lat
    + ud a t lon lat (isoPressure z)

/-- meridional velocity `v` of case 11 — `dcmip.py` 82 -/
noncomputable def v11 (a t lon lat : ℝ) : ℝ := k0_11 a * sin (2 * lonp lon t) * cos lat * cos (π * t / tau11)

/-- vertical velocity `w` of case 11 — `dcmip.py` 86-93 -/
noncomputable def w11 (t lon lat z : ℝ) : ℝ :=
  -(Rd * 300 / (gravity * isoPressure z)) * omega0 * sin (lonp lon t) * cos lat * cos (2 * π * t / tau11) * shape (isoPressure z)

/-- great-circle distance without the radius, centre on the equator at longitude `lon0` — `dcmip.py` 229-237 (`phi0 = phi1 = 0.0`) -/
noncomputable def greatCircle (lon lat lon0 : ℝ) : ℝ := arccos (sin lat * sin 0 + cos lat * cos 0 * cos (lon - lon0))

/-- `d1`, `d2` (`lon0` is `5π/6` or `7π/6`, `RR = 0.5`, `ZZ = 1000.0`, `z0 = 5000.0`) — `dcmip.py` 178-184, 238-239 -/
noncomputable def bellDistance (lon lat z lon0 : ℝ) : ℝ := min 1 ((greatCircle lon lat lon0 / (1 / 2)) ^ 2 + ((z - 5000) / 1000) ^ 2)

/-- `q1`: two cosine bells — `dcmip.py` 241 -/
noncomputable def q1_11 (lon lat z : ℝ) : ℝ :=
  0.5 * (1 + cos (π * bellDistance lon lat z (5 * π / 6))) + 0.5 * (1 + cos (π * bellDistance lon lat z (7 * π / 6)))

/-- `q2` — `dcmip.py` 245 -/
noncomputable def q2_11 (lon lat z : ℝ) : ℝ := 0.9 - 0.8 * q1_11 lon lat z ^ 2

open Classical in
/-- `q3`: slotted ellipse — `dcmip.py` 250-265 -/
noncomputable def q3_11 (lon lat z : ℝ) : ℝ :=
  if z > 5000 ∧ |lat| < 0.125 then 0.1
  else if bellDistance lon lat z (5 * π / 6) ≤ 1 / 2 then 1
  else if bellDistance lon lat z (7 * π / 6) ≤ 1 / 2 then 1
  else 0.1

/-- `q4 = 1.0 - 0.3 * (q1 + q2 + q3)` — `dcmip.py` 270 -/
noncomputable def q4_11 (lon lat z : ℝ) : ℝ := 1 - 0.3 * (q1_11 lon lat z + q2_11 lon lat z + q3_11 lon lat z)

/-! ## Case 12: Hadley-like flow -/

/-- `rho0 = p0 / (Rd * t)` — `dcmip.py` 133 -/
noncomputable def rho0_12 : ℝ := p0 / (Rd * 300)

/-- zonal velocity of case 12 (`u0 = 40.0`) — `dcmip.py` 113, 137 -/
noncomputable def u12 (lat : ℝ) : ℝ := 40 * cos lat

/-- meridional velocity of case 12 (`w0 = 0.15`, `K = 5.0`, `tau = 86400.0`) — `dcmip.py` 112-117, 141-149 -/
noncomputable def v12 (a ztop t lat z : ℝ) : ℝ :=
  -(rho0_12 / rhoOf (isoPressure z) 300) * (a * 0.15 * π) / (5 * ztop) * cos lat * sin (5 * lat) * cos (π * z / ztop)
    * cos (π * t / 86400)

/-- vertical velocity of case 12 — `dcmip.py` 154-160 -/
noncomputable def w12 (ztop t lat z : ℝ) : ℝ :=
  (rho0_12 / rhoOf (isoPressure z) 300) * (0.15 / 5) * (-2 * sin (5 * lat) * sin lat + 5 * cos lat * cos (5 * lat))
    * sin (π * z / ztop) * cos (π * t / 86400)

open Classical in
/-- tracer layer of case 12 (`z1 = 2000.0`, `z2 = 5000.0`) — `dcmip.py` 280-282, 322-328 -/
noncomputable def q1_12 (z : ℝ) : ℝ :=
  if z < 5000 ∧ z > 2000 then 0.5 * (1 + cos (2 * π * (z - 0.5 * (2000 + 5000)) / (5000 - 2000))) else 0

/-! ## Case 20: an atmosphere of constant lapse rate at rest over a mountain -/

/-- temperature `T0 - gamma * z` with `T0 = 300.0`, `gamma = 0.00650` — `dcmip.py` 448-449, 526 -/
noncomputable def temp20 (z : ℝ) : ℝ := 300 - 0.0065 * z

/-- `p0 * (1.0 - gamma / T0 * z) ** exponent` (pressure, and surface pressure at the mountain height) — `dcmip.py` 459-461, 490-502 -/
noncomputable def p20 (z : ℝ) : ℝ := p0 * (1 - 0.0065 / 300 * z) ^ (gravity / (Rd * 0.0065))

/-- mountain of case 20 as a function of the angular distance `r` from its centre (`h0 = 2000.0`, `Rm = 3π/4`, `zetam = π/16`) —
`dcmip.py` 452-454, 471-479 -/
noncomputable def mountain20 (r : ℝ) : ℝ :=
  if r < 3 * π / 4 then 2000 / 2 * (1 + cos (π * r / (3 * π / 4))) * cos (π * r / (π / 16)) ^ 2 else 0

/-! ## Cases 21 and 22: flow over a Schär mountain -/

/-- `Cs` — `dcmip.py` 566-569, 715-718 -/
noncomputable def Cs (shear : Bool) : ℝ := if shear then 2.5e-4 else 0

/-- `T` (`T0 = 300.0`, `Ueq = 20.0`), also `Tref` of the damping — `dcmip.py` 632-635, 736-739 -/
noncomputable def temp21 (shear : Bool) (lat : ℝ) : ℝ := 300 * (1 - Cs shear * 20 ^ 2 / gravity * sin lat ^ 2)

/-- `p` (`Peq = 100000.0`) — `dcmip.py` 644 -/
noncomputable def p21 (shear : Bool) (lat z : ℝ) : ℝ :=
  100000 * exp (-(20 ^ 2) / (2 * Rd * 300) * sin lat ^ 2 - gravity * z / (Rd * temp21 shear lat))

/-- zonal velocity `u` — `dcmip.py` 648 -/
noncomputable def u21 (shear : Bool) (lat z : ℝ) : ℝ :=
  20 * cos lat * (2 * 300 / temp21 shear lat * Cs shear * z + temp21 shear lat / 300) ^ (0.5 : ℝ)

/-- Schär mountain as a function of the distance `r` from its centre (`h0 = 250.0`, `Dm = 5000.0`, `Dxi = 4000.0`) — `dcmip.py` 560-562,
576-593 -/
noncomputable def mountain21 (r : ℝ) : ℝ := 250 * exp (-(r ^ 2) / 5000 ^ 2) * cos (π * r / 4000) ^ 2

/-- reference zonal wind of the Rayleigh damping — `dcmip.py` 742 -/
noncomputable def uref21 (shear : Bool) (lat z : ℝ) : ℝ :=
  20 * cos lat * (2 * 300 / temp21 shear lat * Cs shear * z + temp21 shear lat / 300) ^ (0.5 : ℝ)

/-- `damping_weight` divided by the density (`Zh = 20000.0`, `tau0 = 25.0`) — `dcmip.py` 712-713, 729-733 -/
noncomputable def dampingRate (ztop z : ℝ) : ℝ :=
  if z ≤ 20000 then 0 else 1 / 25 * sin (π / 2 * (z - 20000) / (ztop - 20000)) ^ 2

/-- what the damping adds to one momentum tendency: `forcing += damping_weight * (u - uref)`, and the forcing is subtracted from the
tendency — `dcmip.py` 753-755,
`wx_factory/pde/pde_euler_cubesphere.py` 203-288 -/
noncomputable def dampingTendency (ztop z ρ u uref : ℝ) : ℝ := -(ρ * dampingRate ztop z * (u - uref))

/-! ## Case 31: gravity wave -/

/-- `bigG = gravity**2 / (N2 * cpd)`, `N = 0.01` — `dcmip.py` 783-785 -/
noncomputable def N2 : ℝ := 0.01 * 0.01
/-- see `N2` -/
noncomputable def bigG : ℝ := gravity ^ 2 / (N2 * cpd)

/-- zonal velocity of case 31 (`u0 = 20.0`) — `dcmip.py` 796 -/
noncomputable def u31 (lat : ℝ) : ℝ := 20 * cos lat

/-- surface temperature `TS` (`Teq = 300.0`) — `dcmip.py` 823-827 -/
noncomputable def TS (Ω a lat : ℝ) : ℝ :=
  bigG + (300 - bigG) * exp (-(20 * N2 / (4 * gravity ^ 2)) * (20 + 2 * Ω * a) * (cos (2 * lat) - 1))

/-- surface pressure `ps` (`Peq = 100000.0`) — `dcmip.py` 833-841 -/
noncomputable def ps31 (Ω a lat : ℝ) : ℝ :=
  100000 * exp (20 / (4 * bigG * Rd) * (20 + 2 * Ω * a) * (cos (2 * lat) - 1)) * (TS Ω a lat / 300) ^ (cpd / Rd)

/-- pressure `p` — `dcmip.py` 847 -/
noncomputable def p31 (Ω a lat z : ℝ) : ℝ :=
  ps31 Ω a lat * (bigG / TS Ω a lat * exp (-N2 * z / gravity) + 1 - bigG / TS Ω a lat) ^ (cpd / Rd)

/-- background temperature `t_mean` — `dcmip.py` 849 -/
noncomputable def t31 (Ω a lat z : ℝ) : ℝ := bigG * (1 - exp (N2 * z / gravity)) + TS Ω a lat * exp (N2 * z / gravity)

/-- `theta_pert` (`lambdac = 2π/3`, `phic = 0.0`, `d = 5000.0`, `delta_theta = 1.0`, `Lz = 20000.0`) — `dcmip.py` 867-876 -/
noncomputable def pert31 (a lon lat z : ℝ) : ℝ :=
  1 * (5000 ^ 2 / (5000 ^ 2 + (a * arccos (sin lat * sin 0 + cos lat * cos 0 * cos (lon - 2 * π / 3))) ^ 2)) * sin (2 * π * z / 20000)

/-- `theta = theta_base + theta_pert` — `dcmip.py` 851, 879 -/
noncomputable def theta31 (Ω a lon lat z : ℝ) : ℝ := thetaOf (p31 Ω a lat z) (t31 Ω a lat z) + pert31 a lon lat z

/-! ## Case 77: acoustic wave -/

/-- `r = re * arccos(cos(lat) * cos(lon))`, `re = 6371000` — `dcmip.py` 896-897, 944 -/
noncomputable def r77 (lon lat : ℝ) : ℝ := 6371000 * arccos (cos lat * cos lon)

/-- `pressure = p_mean + f * g`: `f` is a cosine hill of 100 Pa and radius `re / 3`, and `g = sin(eta_v π r / ztop)` with
`ztop = 10000` — `dcmip.py` 894-898, 940-948 -/
noncomputable def p77 (lon lat z : ℝ) : ℝ :=
  isoPressure z + (if r77 lon lat > 6371000 / 3 then 0 else 100 / 2 * (1 + cos (π * r77 lon lat / (6371000 / 3))))
    * sin (1 * π * r77 lon lat / 10000)

/-! ## Vertical plane -/

/-- potential temperature of the Gaussian bubble (`A = 0.5`, `a = 50`, `s = 100`, centre (500, 260)) — `wx_factory/init/initialize.py`
220, 246-253 -/
noncomputable def thetaBubble (bubbleTheta x z : ℝ) : ℝ :=
  let r := sqrt ((x - 500) ^ 2 + (z - 260) ^ 2)
  if r ≤ 50 then bubbleTheta + 0.5 else bubbleTheta + 0.5 * exp (-((r - 50) / 100) ^ 2)

/-- `exner = 1.0 - gravity / (cpd * θ) * geom.X3` (cases other than 0) — `initialize.py` 328 -/
noncomputable def exner (θ z : ℝ) : ℝ := 1 - gravity / (cpd * θ) * z

/-- `exner` of the mountain wave (case 0: `N_star = 0.01`, `t0 = 288`) — `initialize.py` 316-322 -/
noncomputable def exner0 (z : ℝ) : ℝ := 1 - gravity ^ 2 / (0.01 ^ 2 * cpd * 288) * (1 - exp (-(0.01 ^ 2 / gravity) * z))

/-- `θ` of the mountain wave — `initialize.py` 323 -/
noncomputable def theta0 (z : ℝ) : ℝ := 288 * exp (0.01 ^ 2 / gravity * z)

/-- `ρ = p0 / (Rd * θ) * exner ** (cvd / Rd)` — `initialize.py` 330 -/
noncomputable def rhoPlane (θ ex : ℝ) : ℝ := p0 / (Rd * θ) * ex ^ (cvd / Rd)

end WxVerif.InitAtm
