/-
Model of the complete right-hand side of the 3D Euler equations on all tiles of the cubed sphere: `RHSDirecFluxReconstruction_mpi`
(`wx_factory/rhs/rhs_dfr.py` 47-315, driven by `wx_factory/rhs/rhs.py` 73-131) with `PDEEulerCubesphere`
(`wx_factory/pde/pde_euler_cubesphere.py` 56-290), evaluated by all processes together, with the terrain-following heights of
`wx_factory/geometry/cubed_sphere_3d.py`, the metric of `wx_factory/geometry/metric3d.py` and the halo exchange of
`wx_factory/process_topology.py`.

Arithmetic is over the reals (the code also runs on complex numbers); `log` of a number that is not positive is NaN in NumPy and a real
number here.  `Q r ek ej ei v c`: process `r`, element level `ek`, row `ej`, column `ei`, variable `v` (0: ρ, 1: ρu¹, 2: ρu², 3: ρw, 4: ρθ),
solution point `c = (k n + j) n + i`.  Entry `m = a n + b` of an interface array: node `a` along the first remaining direction, `b` along the
second.  The metric is computed in the block layout and converted (`_to_new`, `_to_new_itf_*`, `Model/Layout.lean`); the model is written in
the element layout.
-/
import Verif.Model.ShallowWater
import Verif.Model.Metric3D
import Verif.Model.Christoffel3D

namespace WxVerif.EulerSphere

open WxVerif.Topology WxVerif.Sphere WxVerif.Dfr WxVerif.Flux
open WxVerif.ShallowWater (Grid node)
open WxVerif.ShallowWater.Grid (itfIndex)
open Real (tan pi)

/-- the 3D grid: the horizontal grid, number of element levels, top of the model, deep or shallow atmosphere, test case
(`cubed_sphere_3d.py` 60-118, `metric3d.py` 31, `pde_euler_cubesphere.py` 69-70) -/
structure Atm extends Grid where
  nz : Nat
  ztop : ℝ
  deep : Bool
  caseNumber : Nat

/-- height of the floor at the solution points (`z r ej ei c`, `c < n²`) and on the element sides (`itfI r ej e l`: interface `e = 0 … N` of
row `ej`, node `l`; `itfJ r e ei l`) — the arrays given to `apply_topography` (`cubed_sphere_3d.py` 441-501, `Model/Terrain.lean`) -/
structure Floor where
  z : Nat → Nat → Nat → Nat → ℝ
  itfI : Nat → Nat → Nat → Nat → ℝ
  itfJ : Nat → Nat → Nat → Nat → ℝ

abbrev Field3 := Nat → Nat → Nat → Nat → Nat → Nat → ℝ

variable (g : Atm) (f : Floor) (Q : Field3)

/-! ## Heights -/

/-- `delta_eta` — `cubed_sphere_3d.py` 138 -/
noncomputable def deltaEta : ℝ := (1 - 0) / (g.nz : ℝ)

/-- `eta` at reference coordinate `x` of element level `ek` — `cubed_sphere_3d.py` 138, 148, 238-241; see `Terrain.etaLinear` -/
noncomputable def eta (ek : Nat) (x : ℝ) : ℝ := (0 + (ek : ℝ) * ((1 - 0) / (g.nz : ℝ))) + deltaEta g / (1 - -1) * (- -1 + x)

/-- `eta_itf_k` — `cubed_sphere_3d.py` 119-120, 223, 271 -/
noncomputable def etaItf (e : Nat) : ℝ := 0 + (e : ℝ) * ((1 - 0) / (g.nz : ℝ))

/-- `z + (ztop - z) * eta` — `cubed_sphere_3d.py` 468-497; see `Terrain.stretch` -/
def stretch (z η : ℝ) : ℝ := z + (g.ztop - z) * η

/-- height of a solution point — `cubed_sphere_3d.py` 468-497 -/
noncomputable def height (r ek ej ei c : Nat) : ℝ := stretch g (f.z r ej ei (c % (g.n * g.n))) (eta g ek (g.pts (c / (g.n * g.n))))

/-- height on interface `e` of row `ej` — `cubed_sphere_3d.py` 468-497 -/
noncomputable def heightI (r ek ej e m : Nat) : ℝ := stretch g (f.itfI r ej e (m % g.n)) (eta g ek (g.pts (m / g.n)))

/-- height on interface `e` of column `ei` — `cubed_sphere_3d.py` 468-497 -/
noncomputable def heightJ (r ek e ei m : Nat) : ℝ := stretch g (f.itfJ r e ei (m % g.n)) (eta g ek (g.pts (m / g.n)))

/-- height on level interface `e` — `cubed_sphere_3d.py` 468-497 -/
noncomputable def heightK (r e ej ei m : Nat) : ℝ := stretch g (f.z r ej ei m) (etaItf g e)

/-! ## Slopes -/

/-- `dRdx1_int`, `dRdx2_int`, `dRdeta_int` (`d = 0, 1, 2`) — `metric3d.py` 106-117 -/
noncomputable def slope (d r ek ej ei c : Nat) : ℝ :=
  if d = 0 then
    df1_3d g.n g.pts (height g f r ek ej ei) (fun m => heightI g f r ek ej (if g.n * g.n ≤ m then ei + 1 else ei) (m % (g.n * g.n))) c
      * 2 / g.delta1 r
  else if d = 1 then
    df2_3d g.n g.pts (height g f r ek ej ei) (fun m => heightJ g f r ek (if g.n * g.n ≤ m then ej + 1 else ej) ei (m % (g.n * g.n))) c
      * 2 / g.delta2 r
  else
    df3_3d g.n g.pts (height g f r ek ej ei) (fun m => heightK g f r (if g.n * g.n ≤ m then ek + 1 else ek) ej ei (m % (g.n * g.n))) c
      * 2 / deltaEta g

/-- a field at the solution points of an element extrapolated to the west (`m < n²`) and east sides — `operators.py` `extrapolate_i` and
`@ extrap_x` -/
noncomputable def toI (q : Nat → ℝ) (m : Nat) : ℝ :=
  vecmul (g.n * g.n * g.n) q (extrapX3 g.n (extrapVec g.n g.pts (-1)) (extrapVec g.n g.pts 1)) m

/-- to the south and north sides -/
noncomputable def toJ (q : Nat → ℝ) (m : Nat) : ℝ :=
  vecmul (g.n * g.n * g.n) q (extrapY3 g.n (extrapVec g.n g.pts (-1)) (extrapVec g.n g.pts 1)) m

/-- to the bottom and top sides -/
noncomputable def toK (q : Nat → ℝ) (m : Nat) : ℝ :=
  vecmul (g.n * g.n * g.n) q (extrapZ3 g.n (extrapVec g.n g.pts (-1)) (extrapVec g.n g.pts 1)) m

/-- 2 × 2 matrix entry by numbers -/
def ent2 (M : Matrix (Fin 2) (Fin 2) ℝ) (a b : Nat) : ℝ := M (if a = 0 then 0 else 1) (if b = 0 then 0 else 1)

/-- `exch_itf_i` inside the tile: contravariant slopes (`comp = 0, 1`) and `dRdeta` (`comp = 2`) on side `s` of element `ei` —
`metric3d.py` 270-272, 289-290, 309-328.  (The second family of arrays computed there, `dRdx1_ex_i` etc. with a covariant exchange, is not
used for anything.) -/
noncomputable def exOwnI (comp r ek ej ei : Nat) (s : Bool) (m : Nat) : ℝ :=
  let nd := node (g.n * g.n) s m
  let xy := g.itfXY1 r ej (ei + 1) s (m % g.n)
  let M := auxContra xy.1 xy.2
  if comp = 2 then toI g (slope g f 2 r ek ej ei) nd
  else ent2 M comp 0 * toI g (slope g f 0 r ek ej ei) nd + ent2 M comp 1 * toI g (slope g f 1 r ek ej ei) nd

/-- `exch_itf_j` inside the tile — `metric3d.py` 270-272, 291, 330-349 -/
noncomputable def exOwnJ (comp r ek ej ei : Nat) (s : Bool) (m : Nat) : ℝ :=
  let nd := node (g.n * g.n) s m
  let xy := g.itfXY2 r (ej + 1) ei s (m % g.n)
  let M := auxContra xy.1 xy.2
  if comp = 2 then toJ g (slope g f 2 r ek ej ei) nd
  else ent2 M comp 0 * toJ g (slope g f 0 r ek ej ei) nd + ent2 M comp 1 * toJ g (slope g f 1 r ek ej ei) nd

/-- A line of vectors exchanged along the sides of all tiles, and the entry received — `start_exchange_vectors` … `wait`
(`process_topology.py` 322-386).  The arrays of `rhs_dfr.py` and `metric3d.py` hold one line per level node; `flip_dim` (`-1`, or `(-3, -1)`
after `reshape` to `(N, n, n)`) reverses the elements and the nodes along the side and leaves the levels, so each level is one line. -/
noncomputable def exchangedVec (data : Nat → Side → Nat → ℝ × ℝ × ℝ) (r : Nat) (d : Side) (i : Nat) : ℝ × ℝ × ℝ :=
  ((exchangeVectors false g.size (fun s d' => (List.range (g.N * g.n)).map (data s d')) g.toGrid.boundary r d).getD []).getD i (0, 0, 0)

/-- the same for scalars — `process_topology.py` 269-320 -/
noncomputable def exchangedScalar (data : Nat → Side → Nat → ℝ) (r : Nat) (d : Side) (i : Nat) : ℝ :=
  ((exchangeScalars g.size (fun s d' => (List.range (g.N * g.n)).map (data s d')) r d).getD []).getD i 0

/-- slopes sent along side `d` at level node `a` of element level `ek` — `metric3d.py` 381-398 (`_in` slices) -/
noncomputable def sentSlope (ek a : Nat) (r : Nat) (d : Side) (comp i : Nat) : ℝ :=
  match d with
  | .south => exOwnJ g f comp r ek 0 (i / g.n) false (a * g.n + i % g.n)
  | .north => exOwnJ g f comp r ek (g.N - 1) (i / g.n) true (a * g.n + i % g.n)
  | .west => exOwnI g f comp r ek (i / g.n) 0 false (a * g.n + i % g.n)
  | .east => exOwnI g f comp r ek (i / g.n) (g.N - 1) true (a * g.n + i % g.n)

/-- slopes received along side `d` — `metric3d.py` 386-403 (`_out` slices; there are always at least six processes, so the fallback of
405-414 is not modelled) -/
noncomputable def receivedSlope (ek a : Nat) (r : Nat) (d : Side) (comp i : Nat) : ℝ :=
  let u := exchangedVec g (fun s d' i => (sentSlope g f ek a s d' 0 i, sentSlope g f ek a s d' 1 i, sentSlope g f ek a s d' 2 i)) r d i
  if comp = 0 then u.1 else if comp = 1 then u.2.1 else u.2.2

/-- `exch_itf_i[comp, :, p, s, :]` after the exchange, positions `p = 0 … N + 1` -/
noncomputable def exI (comp r ek ej p : Nat) (s : Bool) (m : Nat) : ℝ :=
  if 1 ≤ p ∧ p ≤ g.N then exOwnI g f comp r ek ej (p - 1) s m
  else if p = 0 ∧ s = true then receivedSlope g f ek (m / g.n) r .west comp (ej * g.n + m % g.n)
  else if p = g.N + 1 ∧ s = false then receivedSlope g f ek (m / g.n) r .east comp (ej * g.n + m % g.n)
  else 0

/-- `exch_itf_j[comp, :, p, s, :]` after the exchange -/
noncomputable def exJ (comp r ek p ei : Nat) (s : Bool) (m : Nat) : ℝ :=
  if 1 ≤ p ∧ p ≤ g.N then exOwnJ g f comp r ek (p - 1) ei s m
  else if p = 0 ∧ s = true then receivedSlope g f ek (m / g.n) r .south comp (ei * g.n + m % g.n)
  else if p = g.N + 1 ∧ s = false then receivedSlope g f ek (m / g.n) r .north comp (ei * g.n + m % g.n)
  else 0

/-- `dRdx1_itf_i`, `dRdx2_itf_i`, `dRdeta_itf_i` (`d = 0, 1, 2`) on interface `e` — `metric3d.py` 459-471 -/
noncomputable def slopeI (d r ek ej e m : Nat) : ℝ :=
  let xy := g.itfXY1 r ej (e + 1) false (m % g.n)
  let M := auxCov xy.1 xy.2
  let av (comp : Nat) := 0.5 * exI g f comp r ek ej e true m + 0.5 * exI g f comp r ek ej (e + 1) false m
  if d = 2 then av 2 else ent2 M d 0 * av 0 + ent2 M d 1 * av 1

/-- `dRdx1_itf_j`, `dRdx2_itf_j`, `dRdeta_itf_j` — `metric3d.py` 474-486 -/
noncomputable def slopeJ (d r ek e ei m : Nat) : ℝ :=
  let xy := g.itfXY2 r (e + 1) ei false (m % g.n)
  let M := auxCov xy.1 xy.2
  let av (comp : Nat) := 0.5 * exJ g f comp r ek e ei true m + 0.5 * exJ g f comp r ek (e + 1) ei false m
  if d = 2 then av 2 else ent2 M d 0 * av 0 + ent2 M d 1 * av 1

/-- `dRdx1_itf_k`, `dRdx2_itf_k`, `dRdeta_itf_k` — `metric3d.py` 489-498 -/
noncomputable def slopeK (d r e ej ei m : Nat) : ℝ :=
  if e = 0 then toK g (slope g f d r 0 ej ei) (node (g.n * g.n) false m)
  else if e = g.nz then toK g (slope g f d r (g.nz - 1) ej ei) (node (g.n * g.n) true m)
  else 0.5 * (toK g (slope g f d r e ej ei) (node (g.n * g.n) false m) + toK g (slope g f d r (e - 1) ej ei) (node (g.n * g.n) true m))

/-! ## Metric -/

/-- radius used by the metric: `R` (deep) or `A` (shallow) — `metric3d.py` 46-71, 527-644 -/
def radiusAt (h : ℝ) : ℝ := if g.deep then h + g.radius else g.radius

/-- data of `compute_metric` at a solution point — `metric3d.py` 648 -/
noncomputable def pt (r ek ej ei c : Nat) : Point3 :=
  let xy := g.solXY r ej ei (c % (g.n * g.n))
  ⟨radiusAt g (height g f r ek ej ei c), xy.1, xy.2, slope g f 0 r ek ej ei c, slope g f 1 r ek ej ei c, slope g f 2 r ek ej ei c,
    g.delta1 r, g.delta2 r, deltaEta g⟩

/-- on interface `e` of row `ej` — `metric3d.py` 649-651 -/
noncomputable def ptI (r ek ej e m : Nat) : Point3 :=
  let xy := g.itfXY1 r ej (e + 1) false (m % g.n)
  ⟨radiusAt g (heightI g f r ek ej e m), xy.1, xy.2, slopeI g f 0 r ek ej e m, slopeI g f 1 r ek ej e m, slopeI g f 2 r ek ej e m,
    g.delta1 r, g.delta2 r, deltaEta g⟩

/-- on interface `e` of column `ei` — `metric3d.py` 652-654 -/
noncomputable def ptJ (r ek e ei m : Nat) : Point3 :=
  let xy := g.itfXY2 r (e + 1) ei false (m % g.n)
  ⟨radiusAt g (heightJ g f r ek e ei m), xy.1, xy.2, slopeJ g f 0 r ek e ei m, slopeJ g f 1 r ek e ei m, slopeJ g f 2 r ek e ei m,
    g.delta1 r, g.delta2 r, deltaEta g⟩

/-- on level interface `e` — `metric3d.py` 655-657 -/
noncomputable def ptK (r e ej ei m : Nat) : Point3 :=
  let xy := g.solXY r ej ei m
  ⟨radiusAt g (heightK g f r e ej ei m), xy.1, xy.2, slopeK g f 0 r e ej ei m, slopeK g f 1 r e ej ei m, slopeK g f 2 r e ej ei m,
    g.delta1 r, g.delta2 r, deltaEta g⟩

/-- 3 × 3 matrix entry by numbers -/
def ent3 (M : Matrix (Fin 3) (Fin 3) ℝ) (a b : Nat) : ℝ :=
  M (if a = 0 then 0 else if a = 1 then 1 else 2) (if b = 0 then 0 else if b = 1 then 1 else 2)

/-- `sqrtG_new` — `metric3d.py` 1153 -/
noncomputable def sqrtG (r ek ej ei c : Nat) : ℝ := rootG3 (pt g f r ek ej ei c)

/-- `h_contra_new` — `metric3d.py` 1142 -/
noncomputable def hc (r ek ej ei c : Nat) : Nat → Nat → ℝ := ent3 (Hcontra3 (pt g f r ek ej ei c))

/-! ## State at the element sides — `rhs_dfr.py` 49-72 -/

/-- what is extrapolated of variable `v`, and how: density and potential temperature through their logarithm -/
noncomputable def extrapolated (E : (Nat → ℝ) → Nat → ℝ) (q : Nat → Nat → ℝ) (v m : Nat) : ℝ :=
  if v = 0 ∨ v = 4 then Real.exp (E (fun c => Real.log (q v c)) m) else E (q v) m

/-- `q_itf_x1` — `rhs_dfr.py` 58, 66-67 -/
noncomputable def qI (r ek ej ei v m : Nat) : ℝ := extrapolated (toI g) (Q r ek ej ei) v m
/-- `q_itf_x2` — `rhs_dfr.py` 59, 68-69 -/
noncomputable def qJ (r ek ej ei v m : Nat) : ℝ := extrapolated (toJ g) (Q r ek ej ei) v m
/-- `q_itf_x3` — `rhs_dfr.py` 60, 70-71 -/
noncomputable def qK (r ek ej ei v m : Nat) : ℝ := extrapolated (toK g) (Q r ek ej ei) v m

/-- values sent along side `d` at level node `a` of element level `ek` — `rhs_dfr.py` 141-174 -/
noncomputable def sent (ek a : Nat) (r : Nat) (d : Side) (v i : Nat) : ℝ :=
  match d with
  | .south => qJ g Q r ek 0 (i / g.n) v (node (g.n * g.n) false (a * g.n + i % g.n))
  | .north => qJ g Q r ek (g.N - 1) (i / g.n) v (node (g.n * g.n) true (a * g.n + i % g.n))
  | .west => qI g Q r ek (i / g.n) 0 v (node (g.n * g.n) false (a * g.n + i % g.n))
  | .east => qI g Q r ek (i / g.n) (g.N - 1) v (node (g.n * g.n) true (a * g.n + i % g.n))

/-- values received along side `d`: ρ and ρθ as scalars, `(ρu¹, ρu², ρw)` as a vector — `rhs_dfr.py` 147-208; rows beyond the fifth are
never filled (zeros of 181-184) -/
noncomputable def received (ek a : Nat) (r : Nat) (d : Side) (v i : Nat) : ℝ :=
  if v = 0 ∨ v = 4 then exchangedScalar g (fun s d' i => sent g Q ek a s d' v i) r d i
  else
    let u := exchangedVec g (fun s d' i => (sent g Q ek a s d' 1 i, sent g Q ek a s d' 2 i, sent g Q ek a s d' 3 i)) r d i
    if v = 1 then u.1 else if v = 2 then u.2.1 else if v = 3 then u.2.2 else 0

/-! ## Fluxes -/

/-- `advection_only` — `pde_euler_cubesphere.py` 70 -/
def advectionOnly : Bool := decide (g.caseNumber < 13)

/-- fluxes along x1 on side `s` of element `(ek, ej, ei)` — `rhs_dfr.py` 210-302, `pde_euler_cubesphere.py` 127-175 -/
noncomputable def fluxI (r ek ej m ei : Nat) (s : Bool) : Out3 :=
  riemannHori 0 g.N (advectionOnly g) (fun p s => rootG3 (ptI g f r ek ej (itfIndex p s) m))
    (fun p s => ent3 (Hcontra3 (ptI g f r ek ej (itfIndex p s) m))) (fun _ _ => ⟨fun _ => 0, 0, 0⟩)
    (fun e s v => qI g Q r ek ej e v (node (g.n * g.n) s m))
    (fun v => received g Q ek (m / g.n) r .west v (ej * g.n + m % g.n)) (fun v => received g Q ek (m / g.n) r .east v (ej * g.n + m % g.n)) ei s

/-- fluxes along x2 — `rhs_dfr.py` 210-302, `pde_euler_cubesphere.py` 127-187 -/
noncomputable def fluxJ (r ek ei m ej : Nat) (s : Bool) : Out3 :=
  riemannHori 1 g.N (advectionOnly g) (fun p s => rootG3 (ptJ g f r ek (itfIndex p s) ei m))
    (fun p s => ent3 (Hcontra3 (ptJ g f r ek (itfIndex p s) ei m))) (fun _ _ => ⟨fun _ => 0, 0, 0⟩)
    (fun e s v => qJ g Q r ek e ei v (node (g.n * g.n) s m))
    (fun v => received g Q ek (m / g.n) r .south v (ei * g.n + m % g.n)) (fun v => received g Q ek (m / g.n) r .north v (ei * g.n + m % g.n)) ej s

/-- vertical fluxes — `rhs_dfr.py` 210-302, `pde_euler_cubesphere.py` 148-199 -/
noncomputable def fluxK (r ej ei m ek : Nat) (s : Bool) : Out3 :=
  riemannX3 g.nz (advectionOnly g) (fun p s => rootG3 (ptK g f r (itfIndex p s) ej ei m))
    (fun p s => ent3 (Hcontra3 (ptK g f r (itfIndex p s) ej ei m))) (fun _ _ => ⟨fun _ => 0, 0, 0⟩)
    (fun e s v => qK g Q r e ej ei v (node (g.n * g.n) s m)) ek s

/-- an interface array of one element from its two sides -/
noncomputable def ofSides (F : Nat → Bool → ℝ) (m : Nat) : ℝ := if m < g.n * g.n then F m false else F (m - g.n * g.n) true

/-- velocity component `d` at a solution point — `pde_euler_cubesphere.py` 89-92 -/
noncomputable def vel (d r ek ej ei c : Nat) : ℝ := Q r ek ej ei (d + 1) c / Q r ek ej ei 0 c

/-- `pressure` — `pde_euler_cubesphere.py` 105 -/
noncomputable def pres (r ek ej ei c : Nat) : ℝ := p0 * Real.exp (cpd / cvd * Real.log (Rd / p0 * Q r ek ej ei 4 c))

/-- `flux_x1`, `flux_x2`, `flux_x3` (`d = 0, 1, 2`) at the solution points — `pde_euler_cubesphere.py` 94-124 -/
noncomputable def pointFlux (d r ek ej ei v c : Nat) : ℝ :=
  let adv := sqrtG g f r ek ej ei c * vel Q d r ek ej ei c * Q r ek ej ei v c
  if 1 ≤ v ∧ v ≤ 3 then adv + sqrtG g f r ek ej ei c * hc g f r ek ej ei c d (v - 1) * pres Q r ek ej ei c else adv

/-- the corrected derivative along direction `d` of an element -/
noncomputable def dfd (d : Nat) (q itf : Nat → ℝ) (c : Nat) : ℝ :=
  if d = 0 then df1_3d g.n g.pts q itf c else if d = 1 then df2_3d g.n g.pts q itf c else df3_3d g.n g.pts q itf c

/-- the fluxes of all three directions on the sides of an element -/
noncomputable def itfOut (d r ek ej ei m : Nat) (s : Bool) : Out3 :=
  if d = 0 then fluxI g f Q r ek ej m ei s else if d = 1 then fluxJ g f Q r ek ei m ej s else fluxK g f Q r ej ei m ek s

/-- potential temperature variable on the sides of an element -/
noncomputable def itfTheta (d r ek ej ei m : Nat) (s : Bool) : ℝ :=
  (if d = 0 then qI g Q r ek ej ei 4 else if d = 1 then qJ g Q r ek ej ei 4 else qK g Q r ek ej ei 4) (node (g.n * g.n) s m)

/-- `w_df1_dx1`, `w_df2_dx2`, `w_df3_dx3`: the pressure gradient of the vertical momentum as `p ∂(√G h) + p √G h ∂(log p)` —
`rhs_dfr.py` 94-107, 116-136 -/
noncomputable def wdf (d r ek ej ei c : Nat) : ℝ :=
  let wpres : Nat → ℝ := fun c => sqrtG g f r ek ej ei c * hc g f r ek ej ei c d 2
  dfd g d (fun c => sqrtG g f r ek ej ei c * vel Q d r ek ej ei c * Q r ek ej ei 3 c) (ofSides g fun m s => (itfOut g f Q d r ek ej ei m s).wadv) c
  + dfd g d wpres (ofSides g fun m s => (itfOut g f Q d r ek ej ei m s).wpres) c * pres Q r ek ej ei c
  + dfd g d (fun c => Real.log (pres Q r ek ej ei c)) (ofSides g fun m s => Real.log (pressure3 (itfTheta g Q d r ek ej ei m s))) c
      * (pres Q r ek ej ei c * wpres c)

/-- `rhs` after `flux_divergence` — `rhs_dfr.py` 83-139 -/
noncomputable def divergence (r ek ej ei v c : Nat) : ℝ :=
  if v = 3 then -(1 / sqrtG g f r ek ej ei c) * (wdf g f Q 0 r ek ej ei c + wdf g f Q 1 r ek ej ei c + wdf g f Q 2 r ek ej ei c)
  else rhsSphere3d g.n g.pts (fun c => 1 / sqrtG g f r ek ej ei c)
    (pointFlux g f Q 0 r ek ej ei v) (pointFlux g f Q 1 r ek ej ei v) (pointFlux g f Q 2 r ek ej ei v)
    (ofSides g fun m s => (fluxI g f Q r ek ej m ei s).flux v) (ofSides g fun m s => (fluxJ g f Q r ek ei m ej s).flux v)
    (ofSides g fun m s => (fluxK g f Q r ej ei m ek s).flux v) c

/-! ## Forcing -/

/-- what the forcing needs besides the state: the 27 Christoffel symbols of `metric.christoffel` (`metric3d.py` 1111-1139), and the
reference wind and damping rate of the cases with Rayleigh damping (`wx_factory/init/dcmip.py` 720-749) -/
structure ForcingData where
  Γ : Nat → Nat → Nat → Nat → Nat → Nat → Nat → ℝ
  uref : Nat → Nat → Nat → Nat → Nat → Nat → ℝ
  rate : Nat → Nat → Nat → Nat → Nat → ℝ

/-- `compute_forcing_1` — `pde_euler_cubesphere.py` 13-25 -/
def forcing1 (r u1 u2 w p : ℝ) (c : Nat → ℝ) (h : Nat → Nat → ℝ) : ℝ :=
  2 * r * (c 0 * u1 + c 1 * u2 + c 2 * w) + c 3 * (r * u1 * u1 + h 0 0 * p) + 2 * c 4 * (r * u1 * u2 + h 0 1 * p)
    + 2 * c 5 * (r * u1 * w + h 0 2 * p) + c 6 * (r * u2 * u2 + h 1 1 * p) + 2 * c 7 * (r * u2 * w + h 1 2 * p) + c 8 * (r * w * w + h 2 2 * p)

/-- `highfilter`: the projection that removes the last Legendre mode — `wx_factory/geometry/operators.py` 77-79 -/
noncomputable def highfilter (n : Nat) (pts : Nat → ℝ) (i j : Nat) : ℝ :=
  if h : i < n ∧ j < n then ∑ k : Fin n, vander n pts ⟨i, h.1⟩ k * ((if k.val = n - 1 then 0 else 1) * (vander n pts)⁻¹ k ⟨j, h.2⟩) else 0

/-- `forcing` — `pde_euler_cubesphere.py` 203-288, `init/dcmip.py` 751-755.  Only the three momentum rows are ever written; the array is
allocated with zeros (`rhs.py` 148-150). -/
noncomputable def forcing (F : ForcingData) (r ek ej ei v c : Nat) : ℝ :=
  if 1 ≤ v ∧ v ≤ 3 then
    let ρ := Q r ek ej ei 0 c
    let metricTerms := forcing1 ρ (vel Q 0 r ek ej ei c) (vel Q 1 r ek ej ei c) (vel Q 2 r ek ej ei c) (pres Q r ek ej ei c)
      (fun b => F.Γ (v - 1) b r ek ej ei c) (hc g f r ek ej ei c)
    let gravityTerm := if v = 3 then
        invDzdeta (pt g f r ek ej ei c) * gravity * (1 / sqrtG g f r ek ej ei c) *
          vecmul (g.n * g.n * g.n) (fun c => sqrtG g f r ek ej ei c * Q r ek ej ei 0 c)
            (kron (g.n * g.n) (g.n * g.n) (tr (highfilter g.n g.pts)) eye) c
      else 0
    let damping := if g.caseNumber = 21 ∨ g.caseNumber = 22 then
        ρ * F.rate r ek ej ei c * (vel Q (v - 1) r ek ej ei c - F.uref (v - 1) r ek ej ei c) else 0
    metricTerms + gravityTerm + damping
  else 0

/-- the right-hand side — `rhs.py` 73-131, `rhs_dfr.py` 304-315: in the advection cases the tendency of all five variables is set to zero -/
noncomputable def rhs (F : ForcingData) (r ek ej ei v c : Nat) : ℝ :=
  if advectionOnly g = true ∧ v ≤ 4 then 0 else divergence g f Q r ek ej ei v c - forcing g f Q F r ek ej ei v c

/-! ## Christoffel symbols -/

/-- metric data on the lower (`s = false`) or upper side of an element in direction `d`, node `m` -/
noncomputable def facePt (d r ek ej ei : Nat) (s : Bool) (m : Nat) : Point3 :=
  if d = 0 then ptI g f r ek ej (if s then ei + 1 else ei) m else if d = 1 then ptJ g f r ek (if s then ej + 1 else ej) ei m
  else ptK g f r (if s then ek + 1 else ek) ej ei m

/-- `grad_sqrtG_metric_contra[d, a, b]`, the discrete derivative in direction `d` of `√G h^{ab}` — `metric3d.py` 923-929,
`operators.py` 635-710 (`grad`: both sides of an element read the shared interface values) -/
noncomputable def gradMetric (d a b r ek ej ei c : Nat) : ℝ :=
  dfd g d (fun c => hc g f r ek ej ei c a b * sqrtG g f r ek ej ei c)
    (ofSides g fun m s => ent3 (Hcontra3 (facePt g f d r ek ej ei s m)) a b * rootG3 (facePt g f d r ek ej ei s m)) c

/-- the spatial symbols stored in `metric.christoffel[:, 3:9]` at a point are those of a solution of the 27 × 27 system —
`metric3d.py` 918-996 (`numer_christoffel` is always true), 1111-1139 -/
def NumericSymbols (F : ForcingData) (r ek ej ei c : Nat) : Prop :=
  ∃ Γ : Fin 3 → Fin 3 → Fin 3 → ℝ,
    Christoffel3D.Solves (sqrtG g f r ek ej ei c) (Matrix.of fun a b => hc g f r ek ej ei c a b)
      (fun d => Matrix.of fun a b => gradMetric g f d a b r ek ej ei c) Γ ∧
    ∀ a : Fin 3, F.Γ a 3 r ek ej ei c = Γ a 0 0 ∧ F.Γ a 4 r ek ej ei c = Γ a 0 1 ∧ F.Γ a 5 r ek ej ei c = Γ a 0 2 ∧
      F.Γ a 6 r ek ej ei c = Γ a 1 1 ∧ F.Γ a 7 r ek ej ei c = Γ a 1 2 ∧ F.Γ a 8 r ek ej ei c = Γ a 2 2

end WxVerif.EulerSphere
