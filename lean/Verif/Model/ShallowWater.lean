/-
Model of the complete shallow-water right-hand side on all tiles of the cubed sphere: `RhsShallowWater.__compute_rhs__`
(`wx_factory/rhs/rhs_sw.py` 58-240) evaluated by all processes together, with the tile geometry of
`wx_factory/geometry/cubed_sphere_2d.py`, the metric of `wx_factory/geometry/metric2d.py` and the halo exchange of
`wx_factory/process_topology.py`.

Arithmetic is over the reals (the code also runs on complex numbers).  `Q r ej ei v c` is the value, in process `r`, element row `ej`,
element column `ei`, of variable `v` (0: `h`, 1: `hu1`, 2: `hu2`) at solution point `c < n²`.  The exchange is modelled by
`Model/Topology.lean`; the vector exchange there carries a third component, which `rhs_sw.py` does not send (0 here).
-/
import Verif.Model.Topology
import Verif.Model.Sphere
import Verif.Model.Dfr
import Verif.Model.Flux

namespace WxVerif.ShallowWater

open WxVerif.Topology WxVerif.Sphere WxVerif.Dfr WxVerif.Flux
open Real (tan pi)

/-- what the right-hand side is built with: tiles per panel side, elements per tile side, solution points per element side, their reference
coordinates, planet radius, rotation speed and the orientation of each panel (`cubed_sphere_2d.py` 60-70, 217-281) -/
structure Grid where
  k : Nat
  N : Nat
  n : Nat
  pts : Nat → ℝ
  radius : ℝ
  rotation : ℝ
  orient : Nat → Orientation

/-- bottom topography: height at the solution points and on the sides of the elements, and its derivatives at the solution points
(`wx_factory/init/initialize.py` `Topo`).  `itfI r ej p s l`: element row `ej`, position `p` (0 and `N + 1` are the halo), side `s`,
node `l`; `itfJ r p ei s l`: position `p`, element column `ei`. -/
structure Topography where
  h : Nat → Nat → Nat → Nat → ℝ
  itfI : Nat → Nat → Nat → Bool → Nat → ℝ
  itfJ : Nat → Nat → Nat → Bool → Nat → ℝ
  dzdx1 : Nat → Nat → Nat → Nat → ℝ
  dzdx2 : Nat → Nat → Nat → Nat → ℝ

/-- `topo = None`: the code skips the additions and uses zero slopes (`rhs_sw.py` 78, 153, 212-214), which is the same as zero
topography over the reals -/
def Topography.none : Topography := ⟨fun _ _ _ _ => 0, fun _ _ _ _ _ => 0, fun _ _ _ _ _ => 0, fun _ _ _ _ => 0, fun _ _ _ _ => 0⟩

abbrev Field := Nat → Nat → Nat → Nat → Nat → ℝ

namespace Grid
variable (g : Grid)

/-- number of processes (`process_topology.py` 46-58) -/
def size : Nat := 6 * (g.k * g.k)

/-- `delta_x1_panel`, `delta_x2_panel` — `cubed_sphere_2d.py` 91-96 -/
noncomputable def deltaPanel : ℝ := (pi / 4 - -pi / 4) / g.k

/-- `start_x1_tile` (`col`) — `cubed_sphere_2d.py` 99 -/
noncomputable def start1 (r : Nat) : ℝ := -pi / 4 + myCol g.size r * g.deltaPanel

/-- `start_x2_tile` (`row`) — `cubed_sphere_2d.py` 102 -/
noncomputable def start2 (r : Nat) : ℝ := -pi / 4 + myRow g.size r * g.deltaPanel

/-- `delta_x1` — `cubed_sphere_2d.py` 100, 105, 118 -/
noncomputable def delta1 (r : Nat) : ℝ := ((g.start1 r + g.deltaPanel) - g.start1 r) / g.N

/-- `delta_x2` — `cubed_sphere_2d.py` 103, 106, 119 -/
noncomputable def delta2 (r : Nat) : ℝ := ((g.start2 r + g.deltaPanel) - g.start2 r) / g.N

/-- `x1`, one entry per solution point of a row of the tile — `cubed_sphere_2d.py` 177-179 -/
noncomputable def x1 (r i : Nat) : ℝ := elementCoord (g.start1 r) (g.delta1 r) (i / g.n) (g.pts (i % g.n))

/-- `x2` — `cubed_sphere_2d.py` 181-183 -/
noncomputable def x2 (r i : Nat) : ℝ := elementCoord (g.start2 r) (g.delta2 r) (i / g.n) (g.pts (i % g.n))

/-- `numpy.linspace(start, stop, num + 1)`: `start + i * (stop - start) / num` -/
noncomputable def linspace (start stop : ℝ) (num i : Nat) : ℝ := start + i * ((stop - start) / num)

/-- `x1_itf_i` — `cubed_sphere_2d.py` 186-188 -/
noncomputable def x1itf (r e : Nat) : ℝ := linspace (g.start1 r) (g.start1 r + g.deltaPanel) g.N e

/-- `x2_itf_j` — `cubed_sphere_2d.py` 192 -/
noncomputable def x2itf (r e : Nat) : ℝ := linspace (g.start2 r) (g.start2 r + g.deltaPanel) g.N e

/-- Interface number stored at position `p`, side `s`: `_to_new_itf_i`, `_to_new_itf_j` put interface `e` on the `true` side of position `e` and
on the `false` side of position `e + 1` (`cubed_sphere_2d.py` 500-560, see `Model/Layout.lean`). -/
def itfIndex (p : Nat) (s : Bool) : Nat := if s then p else p - 1

/-- gnomonic coordinates on the west/east sides of the elements of row `ej` — `cubed_sphere_2d.py` 325-330 -/
noncomputable def itfXY1 (r ej p : Nat) (s : Bool) (l : Nat) : ℝ × ℝ := (tan (g.x1itf r (itfIndex p s)), tan (g.x2 r (ej * g.n + l)))

/-- gnomonic coordinates on the south/north sides of the elements of column `ei` — `cubed_sphere_2d.py` 327-332 -/
noncomputable def itfXY2 (r p ei : Nat) (s : Bool) (l : Nat) : ℝ × ℝ := (tan (g.x1 r (ei * g.n + l)), tan (g.x2itf r (itfIndex p s)))

/-- gnomonic coordinates of a solution point — `cubed_sphere_2d.py` 310-313 -/
noncomputable def solXY (r ej ei c : Nat) : ℝ × ℝ := (tan (g.x1 r (ei * g.n + c % g.n)), tan (g.x2 r (ej * g.n + c / g.n)))

/-- `boundary_sn` (for the south and north sides) and `boundary_we` — `cubed_sphere_2d.py` 315-316 -/
noncomputable def boundary (r : Nat) : Side → List ℝ
  | .south | .north => (List.range (g.N * g.n)).map fun i => tan (g.x1 r i)
  | .west | .east => (List.range (g.N * g.n)).map fun i => tan (g.x2 r i)

/-- a 2 × 2 matrix as an array -/
def toArr (M : Matrix (Fin 2) (Fin 2) ℝ) (a b : Nat) : ℝ := M (if a = 0 then 0 else 1) (if b = 0 then 0 else 1)

/-- `sqrtG` at gnomonic coordinates `xy` of tile `r` — `metric2d.py` 17-38, 130-134 -/
noncomputable def sqrtG (r : Nat) (xy : ℝ × ℝ) : ℝ := sqrtGs g.radius (g.delta1 r) (g.delta2 r) xy.1 xy.2

/-- `H_contra` — `metric2d.py` 40-69, 141-157 -/
noncomputable def H (r : Nat) (xy : ℝ × ℝ) : Nat → Nat → ℝ := toArr (Hcontras g.radius (g.delta1 r) (g.delta2 r) xy.1 xy.2)

end Grid

variable (g : Grid) (t : Topography) (Q : Field)

/-- `Q_unpacked` before the division — `rhs_sw.py` 76-79 -/
def unpacked (r ej ei v c : Nat) : ℝ := if v = 0 then Q r ej ei v c + t.h r ej ei c else Q r ej ei v c

/-- `Q_unpacked @ extrap_x` — `rhs_sw.py` 83 (`m < 2 n`: west nodes, then east nodes) -/
noncomputable def extrapI (r ej ei v m : Nat) : ℝ :=
  vecmul (g.n * g.n) (unpacked t Q r ej ei v) (extrapX2 g.n (extrapVec g.n g.pts (-1)) (extrapVec g.n g.pts 1)) m

/-- `Q_unpacked @ extrap_y` — `rhs_sw.py` 86 -/
noncomputable def extrapJ (r ej ei v m : Nat) : ℝ :=
  vecmul (g.n * g.n) (unpacked t Q r ej ei v) (extrapY2 g.n (extrapVec g.n g.pts (-1)) (extrapVec g.n g.pts 1)) m

/-- node `l` of side `s` in an array of `2 n` interface nodes -/
def node (n : Nat) (s : Bool) (l : Nat) : Nat := if s then n + l else l

/-- values sent along side `d` — `rhs_sw.py` 99-118: first or last row (column) of elements, all nodes of the outer side -/
noncomputable def sent (r : Nat) (d : Side) (v i : Nat) : ℝ :=
  match d with
  | .south => extrapJ g t Q r 0 (i / g.n) v (node g.n false (i % g.n))
  | .north => extrapJ g t Q r (g.N - 1) (i / g.n) v (node g.n true (i % g.n))
  | .west => extrapI g t Q r (i / g.n) 0 v (node g.n false (i % g.n))
  | .east => extrapI g t Q r (i / g.n) (g.N - 1) v (node g.n true (i % g.n))

/-- `start_exchange_scalars` … `wait` for `h` — `rhs_sw.py` 112-118, 145-150 -/
noncomputable def receivedH (r : Nat) (d : Side) : Option (List ℝ) :=
  exchangeScalars g.size (fun s d' => (List.range (g.N * g.n)).map (sent g t Q s d' 0)) r d

/-- `start_exchange_vectors` … `wait` for `(hu1, hu2)` — `rhs_sw.py` 104-111, 138-143 -/
noncomputable def receivedU (r : Nat) (d : Side) : Option (List (ℝ × ℝ × ℝ)) :=
  exchangeVectors false g.size (fun s d' => (List.range (g.N * g.n)).map fun i => (sent g t Q s d' 1 i, sent g t Q s d' 2 i, 0))
    g.boundary r d

/-- value stored in the halo for variable `v` at point `i` of side `d` (0 if nothing was received) -/
noncomputable def received (r : Nat) (d : Side) (v i : Nat) : ℝ :=
  if v = 0 then ((receivedH g t Q r d).getD []).getD i 0
  else
    let u := ((receivedU g t Q r d).getD []).getD i (0, 0, 0)
    if v = 1 then u.1 else u.2.1

/-- `var_itf_i` after the exchange and the subtraction of the topography — `rhs_sw.py` 82-83, 137-155 -/
noncomputable def varI (r ej p : Nat) (s : Bool) (l v : Nat) : ℝ :=
  let full :=
    if 1 ≤ p ∧ p ≤ g.N then extrapI g t Q r ej (p - 1) v (node g.n s l)
    else if p = 0 ∧ s = true then received g t Q r .west v (ej * g.n + l)
    else if p = g.N + 1 ∧ s = false then received g t Q r .east v (ej * g.n + l)
    else 0
  if v = 0 then full - t.itfI r ej p s l else full

/-- `var_itf_j` after the exchange and the subtraction of the topography — `rhs_sw.py` 85-86, 137-155 -/
noncomputable def varJ (r p ei : Nat) (s : Bool) (l v : Nat) : ℝ :=
  let full :=
    if 1 ≤ p ∧ p ≤ g.N then extrapJ g t Q r (p - 1) ei v (node g.n s l)
    else if p = 0 ∧ s = true then received g t Q r .south v (ei * g.n + l)
    else if p = g.N + 1 ∧ s = false then received g t Q r .north v (ei * g.n + l)
    else 0
  if v = 0 then full - t.itfJ r p ei s l else full

/-- what the x1 flux formulas read on one side -/
noncomputable def sideI (r ej p : Nat) (s : Bool) (l : Nat) : SideSW :=
  ⟨varI g t Q r ej p s l, g.sqrtG r (g.itfXY1 r ej p s l), g.H r (g.itfXY1 r ej p s l)⟩

/-- what the x2 flux formulas read on one side -/
noncomputable def sideJ (r p ei : Nat) (s : Bool) (l : Nat) : SideSW :=
  ⟨varJ g t Q r p ei s l, g.sqrtG r (g.itfXY2 r p ei s l), g.H r (g.itfXY2 r p ei s l)⟩

/-- `flux_x1_itf` — `rhs_sw.py` 170-188 -/
noncomputable def fluxI (r ej p : Nat) (s : Bool) (l v : Nat) : ℝ :=
  faces g.N ausmSWI (fun p s => sideI g t Q r ej p s l) (fun _ _ _ => 0) p s v

/-- AUSM flux along x2 with the infinite case replaced by 0; used only where the depths are positive, see `ausmSWJ` -/
noncomputable def ausmJ (a b : SideSW) : (Nat → ℝ) × (Nat → ℝ) := (ausmSWJ a b).getD (fun _ => 0, fun _ => 0)

/-- `flux_x2_itf` — `rhs_sw.py` 191-207 -/
noncomputable def fluxJ (r p ei : Nat) (s : Bool) (l v : Nat) : ℝ :=
  faces g.N ausmJ (fun p s => sideJ g t Q r p ei s l) (fun _ _ _ => 0) p s v

/-- the three variables and the metric at a solution point -/
noncomputable def solSide (r ej ei c : Nat) : SideSW :=
  ⟨fun v => Q r ej ei v c, g.sqrtG r (g.solXY r ej ei c), g.H r (g.solXY r ej ei c)⟩

/-- `forcing` at one point: `q` the three variables there, `dz1`, `dz2` the slopes of the bottom — `rhs_sw.py` 93-97, 217-236 -/
noncomputable def forcingAt (o : Orientation) (Ω radius d1 d2 X Y dz1 dz2 : ℝ) (q : Nat → ℝ) (v : Nat) : ℝ :=
  let rot := christoffelRot o Ω X Y
  let Γ := christoffels d1 d2 X Y
  let H := Hcontras radius d1 d2 X Y
  let u1 := q 1 / q 0
  let u2 := q 2 / q 0
  if v = 1 then
    2 * (rot 0 0 * q 1 + rot 0 1 * q 2) + Γ 0 0 0 * q 1 * u1 + 2 * Γ 0 0 1 * q 1 * u2 + gravity * q 0 * (H 0 0 * dz1 + H 0 1 * dz2)
  else if v = 2 then
    2 * (rot 1 0 * q 1 + rot 1 1 * q 2) + 2 * Γ 1 0 1 * q 1 * u2 + Γ 1 1 1 * q 2 * u2 + gravity * q 0 * (H 1 0 * dz1 + H 1 1 * dz2)
  else 0

/-- `forcing` on all points -/
noncomputable def forcing (r ej ei v c : Nat) : ℝ :=
  forcingAt (g.orient (myPanel g.size r)) g.rotation g.radius (g.delta1 r) (g.delta2 r) (g.solXY r ej ei c).1 (g.solXY r ej ei c).2
    (t.dzdx1 r ej ei c) (t.dzdx2 r ej ei c) (fun v => Q r ej ei v c) v

/-- `rhs` — `rhs_sw.py` 120-134, 210-211, 238-240.  `metric.inv_sqrtG` is `1 / sqrtG` (`metric2d.py` 134). -/
noncomputable def rhs (r ej ei v c : Nat) : ℝ :=
  rhsSphere2d g.n g.pts (fun c => 1 / g.sqrtG r (g.solXY r ej ei c))
      (fun c => pointwiseSW 0 (solSide g Q r ej ei c) v) (fun c => pointwiseSW 1 (solSide g Q r ej ei c) v)
      (fun m => fluxI g t Q r ej (ei + 1) (decide (g.n ≤ m)) (m % g.n) v)
      (fun m => fluxJ g t Q r (ej + 1) ei (decide (g.n ≤ m)) (m % g.n) v) c
    - forcing g t Q r ej ei v c

end WxVerif.ShallowWater
