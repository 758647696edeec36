/-
Model of the statistics printed during a run of the shallow-water model: `wx_factory/output/output_cubesphere.py` 41-127 and the diagnostics it
calls, `wx_factory/output/diagnostic.py`, for the test cases that start (1, 2, 5, 6; the cases 0 and 10 raise before).  Real arithmetic; a division by
zero gives NaN or an infinity in the code and 0 here, and every theorem that divides assumes the divisor is not zero.
-/
import Verif.Model.InitShallow
import Verif.Model.Diagnostic

namespace WxVerif.BlockStats

open WxVerif.ShallowWater WxVerif.Topology WxVerif.Sphere WxVerif.Flux

/-- a quantity at the solution points: process, element row, element column, point -/
abbrev Scalar := Nat → Nat → Nat → Nat → ℝ

/-- what is used beside the state: test case, time step (`param.dt`), quadrature weights of the solution points (`glweights`) and the topography (`self.topo`) -/
structure Setup where
  caseNumber : Nat
  dt : ℝ
  w : Nat → ℝ
  topo : Option Topography

/-- `total_energy` at a point — `diagnostic.py` 38-52 -/
noncomputable def totalEnergy (Hcov : Matrix (Fin 2) (Fin 2) ℝ) (hsurf : Option ℝ) (h u1 u2 : ℝ) : ℝ :=
  let u1dual := Hcov 0 0 * u1 + Hcov 0 1 * u2
  let u2dual := Hcov 1 0 * u1 + Hcov 1 1 * u2
  let kinetic := 0.5 * h * (u1dual * u1 + u2dual * u2)
  let potential := match hsurf with
    | some hs => 0.5 * gravity * ((h + hs) ^ 2 - hs ^ 2)
    | none => 0.5 * gravity * h ^ 2
  kinetic + potential

variable (g : Grid)

/-- the covariant metric of a solution point — `metric2d.py` 71-79, 136-139 -/
noncomputable def hcov (r ej ei c : Nat) : Matrix (Fin 2) (Fin 2) ℝ :=
  Hcovs g.radius (g.delta1 r) (g.delta2 r) (g.solXY r ej ei c).1 (g.solXY r ej ei c).2

/-- the metric of one element as the vorticity uses it — `metric2d.py` 71-79, 115-117, 130-139 -/
noncomputable def elementMetric (r ej ei : Nat) : Diagnostic.Metric2 where
  Hcov a b c := Grid.toArr (hcov g r ej ei c) a b
  invSqrtG c := 1 / g.sqrtG r (g.solXY r ej ei c)
  coriolis c := coriolisF (g.orient (myPanel g.size r)) g.rotation (g.solXY r ej ei c).1 (g.solXY r ej ei c).2

/-- `local_sum` of `global_integral_2d` on process `r` — `diagnostic.py` 62-63: the product with `sqrtG` is reshaped to the points of the elements and
    multiplied by the outer product of the weights (`operators.py` 155) -/
noncomputable def localSum (w : Nat → ℝ) (f : Scalar) (r : Nat) : ℝ :=
  ∑ ej ∈ Finset.range g.N, ∑ ei ∈ Finset.range g.N, ∑ j ∈ Finset.range g.n, ∑ i ∈ Finset.range g.n,
    (f r ej ei (j * g.n + i) * g.sqrtG r (g.solXY r ej ei (j * g.n + i))) * (w j * w i)

/-- `global_integral_2d` — `diagnostic.py` 60-65: the sum over all processes (`comm.allreduce`) -/
noncomputable def globalIntegral (w : Nat → ℝ) (f : Scalar) : ℝ := ∑ r ∈ Finset.range g.size, localSum g w f r

/-- `numpy.max` on process `r` -/
noncomputable def localMax (f : Scalar) (r : Nat) : ℝ := ⨆ i : Fin g.N × Fin g.N × Fin (g.n * g.n), f r i.1 i.2.1 i.2.2

/-- `comm.allreduce(…, op=MPI.MAX)` — `output_cubesphere.py` 97-98 -/
noncomputable def globalMax (f : Scalar) : ℝ := ⨆ r : Fin g.size, localMax g f r

/-- `h` — `output_cubesphere.py` 46 -/
def depth (Q : Field) : Scalar := fun r ej ei c => Q r ej ei 0 c

/-- `energy` — `output_cubesphere.py` 57-62 -/
noncomputable def energy (s : Setup) (Q : Field) : Scalar := fun r ej ei c =>
  totalEnergy (hcov g r ej ei c) (s.topo.map fun t => t.h r ej ei c) (Q r ej ei 0 c) (Q r ej ei 1 c / Q r ej ei 0 c) (Q r ej ei 2 c / Q r ej ei 0 c)

/-- `enstrophy` — `output_cubesphere.py` 57-65 -/
noncomputable def enstrophy (Q : Field) : Scalar := fun r ej ei c =>
  Diagnostic.potentialEnstrophy g.n g.pts (elementMetric g r ej ei) (fun c => Q r ej ei 0 c) (fun c => Q r ej ei 1 c / Q r ej ei 0 c)
    (fun c => Q r ej ei 2 c / Q r ej ei 0 c) c

/-- `h_anal` — `output_cubesphere.py` 48-55, for the cases 1 and 2 -/
noncomputable def analytic (s : Setup) (step : Nat) : Scalar := fun r ej ei c =>
  let o := g.orient (myPanel g.size r)
  let xy := g.solXY r ej ei c
  if s.caseNumber = 1 then InitShallow.heightCase1 (pointLon o g.radius xy.1 xy.2) (pointLat o g.radius xy.1 xy.2) (step * s.dt)
  else InitShallow.heightCase2 g.radius g.rotation (Real.sin (pointLat o g.radius xy.1 xy.2))

/-- mass, energy and enstrophy -/
abbrev Three := ℝ × ℝ × ℝ

/-- the three integrals — `output_cubesphere.py` 73-81, 107-111 -/
noncomputable def integrals (s : Setup) (Q : Field) : Three :=
  (globalIntegral g s.w (depth Q), globalIntegral g s.w (energy g s Q), globalIntegral g s.w (enstrophy g Q))

/-- `l1`, `l2`, `linf` — `output_cubesphere.py` 90-102 -/
noncomputable def errors (s : Setup) (Q : Field) (step : Nat) : Three :=
  let ha := analytic g s step
  let diff : Scalar := fun r ej ei c => |Q r ej ei 0 c - ha r ej ei c|
  (globalIntegral g s.w diff / globalIntegral g s.w (fun r ej ei c => |ha r ej ei c|),
   Real.sqrt (globalIntegral g s.w (fun r ej ei c => (Q r ej ei 0 c - ha r ej ei c) ^ 2) / globalIntegral g s.w (fun r ej ei c => ha r ej ei c ^ 2)),
   globalMax g diff / globalMax g ha)

/-- normalized difference — `output_cubesphere.py` 113-115 -/
noncomputable def normalized (now first : ℝ) : ℝ := (now - first) / first

/-- what is printed: the integrals (first block only), the errors and the normalized differences -/
structure Report where
  initial : Option Three
  errors : Option Three
  drift : Option Three

/-- `__blockstats__` — `output_cubesphere.py` 41-127.  `first` is what `initial_mass`, `initial_energy` and `initial_enstrophy` hold. -/
noncomputable def block (s : Setup) (first : Option Three) (Q : Field) (step : Nat) : Option Three × Report :=
  let now := integrals g s Q
  let first' := if 2 ≤ s.caseNumber then some (first.getD now) else first
  (first',
    { initial := if 2 ≤ s.caseNumber ∧ first = none then some now else none
      errors := if s.caseNumber ≤ 2 then some (errors g s Q step) else none
      drift := if 2 ≤ s.caseNumber then first'.map fun f => (normalized now.1 f.1, normalized now.2.1 f.2.1, normalized now.2.2 f.2.2) else none })

/-- the reports of a run in which the statistics are printed for these states and steps (`output_manager.py` 145-149), from a new output manager -/
noncomputable def reports (s : Setup) : Option Three → List (Field × Nat) → List Report
  | _, [] => []
  | first, x :: rest => (block g s first x.1 x.2).2 :: reports s (block g s first x.1 x.2).1 rest

/-- the state after the NetCDF output of the same step (`output_manager.py` 122-149: the output is written first): the height of the surface has been
    added to the depth, in place (`output_cubesphere_netcdf.py` 314-317) -/
def afterWrite (t : Topography) (Q : Field) : Field := fun r ej ei v c => if v = 0 then Q r ej ei v c + t.h r ej ei c else Q r ej ei v c

end WxVerif.BlockStats
