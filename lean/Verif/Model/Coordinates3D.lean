import Verif.Model.Terrain
import Verif.Model.Winds

/-!
# Model of the coordinate arrays of the 3D cubed sphere

The constructor of `CubedSphere3D` up to `coordVec_num` and `radians` (`wx_factory/geometry/cubed_sphere_3d.py` 94-335) and
`_build_physical_coordinates` (505-756).  Real numbers stand for floating point numbers; `linspace` has its exact values.
`none` is a `ValueError`.  Not modelled: `delta_block`, `delta_new` and the stored sines and cosines (functions of the arrays modelled here).
-/

namespace WxVerif.Coord3

open Real
open WxVerif.Nd WxVerif.Layout WxVerif.Terrain WxVerif.Sphere

/-- the parameters of the grid of one process: numbers of elements, points per element, number of tiles along a panel and the position of this one
— the arguments of the constructor, `cubed_sphere_3d.py` 19-31, `num_lines_per_panel`, `my_col`, `my_row` of the process topology, and the
orientation and radius computed in 338-435 (`Model/Panels.lean`) -/
structure Params where
  nx : Nat
  ny : Nat
  nz : Nat
  n : Nat
  lines : Nat
  col : Nat
  row : Nat
  xs : List ℝ
  ztop : ℝ
  radius : ℝ
  o : Orientation

/-- `PE_start_x1`, `PE_end_x1`, with `pos` `my_col` (`x2`: `my_row`) — `cubed_sphere_3d.py` 95-107 -/
noncomputable def start (lines pos : Nat) : ℝ := -π / 4 + (pos : ℝ) * ((π / 4 - -π / 4) / (lines : ℝ))
@[inherit_doc start] noncomputable def stop (lines pos : Nat) : ℝ := start lines pos + (π / 4 - -π / 4) / (lines : ℝ)

/-- `linspace(lo, hi, num + 1)` — `cubed_sphere_3d.py` 220-221 -/
noncomputable def boundaries (lo hi : ℝ) (num : Nat) : Arr ℝ := ⟨[num + 1], fun idx => lo + (idx.getD 0 0 : ℝ) * ((hi - lo) / (num : ℝ))⟩

/-- `x1`, `x2` — `cubed_sphere_3d.py` 135-136, 145-148, 225-231 -/
noncomputable def linear (lo hi : ℝ) (num n : Nat) (xs : List ℝ) : Arr ℝ :=
  let delta := (hi - lo) / (num : ℝ)
  let offsets := select [.range 0 num] (boundaries lo hi num)
  let ref : Arr ℝ := ⟨[n], fun idx => delta / (maxComp xs - minComp xs) * (-minComp xs + xs.getD (idx.getD 0 0) 0)⟩
  let a := rept n 0 offsets
  let b := tile [num] ref
  ⟨[num * n], fun idx => a.get idx + b.get idx⟩

/-- `x1`, `x2`, `x1_itf_i`, `x2_itf_j` -/
noncomputable def x1 (p : Params) : Arr ℝ := linear (start p.lines p.col) (stop p.lines p.col) p.nx p.n p.xs
@[inherit_doc x1] noncomputable def x2 (p : Params) : Arr ℝ := linear (start p.lines p.row) (stop p.lines p.row) p.ny p.n p.xs
@[inherit_doc x1] noncomputable def x1ItfI (p : Params) : Arr ℝ := boundaries (start p.lines p.col) (stop p.lines p.col) p.nx
@[inherit_doc x1] noncomputable def x2ItfJ (p : Params) : Arr ℝ := boundaries (start p.lines p.row) (stop p.lines p.row) p.ny

/-- `xp.stack((broadcast_to(a[None, None, :], e.shape), broadcast_to(b[None, :, None], e.shape), e))` — `cubed_sphere_3d.py` 301-324 -/
def coordVec (a b e : Arr ℝ) : Arr ℝ :=
  ⟨3 :: e.shape, fun idx =>
    match idx.getD 0 0 with
    | 0 => a.get [idx.getD 3 0]
    | 1 => b.get [idx.getD 2 0]
    | _ => e.get (idx.drop 1)⟩

/-- the arrays of the solution points and of the interfaces in the three directions -/
structure Four where
  sol : Arr ℝ
  itfI : Arr ℝ
  itfJ : Arr ℝ
  itfK : Arr ℝ

/-- `coordVec_num`, `coordVec_num_itf_i`, `coordVec_num_itf_j`, `coordVec_num_itf_k` — `cubed_sphere_3d.py` 254-273, 301-329 -/
noncomputable def coordNum (p : Params) : Four :=
  ⟨coordVec (x1 p) (x2 p) (eta p.nx p.ny p.nz p.n p.xs),
    coordVec (x1ItfI p) (x2 p) (etaItfI p.nx p.ny p.nz p.n p.xs),
    coordVec (x1 p) (x2ItfJ p) (etaItfJ p.nx p.ny p.nz p.n p.xs),
    coordVec (x1 p) (x2 p) (etaItfK p.nx p.ny p.nz p.n)⟩

/-- `radians`, `radians_itf_i`, `radians_itf_j`, `radians_itf_k` — `cubed_sphere_3d.py` 331-334 -/
noncomputable def radians (p : Params) (junk : List Nat → ℝ) : Option Four :=
  match toNew3 p.nx p.ny p.nz p.n (coordNum p).sol, toNewItfI3 p.nx p.ny p.nz p.n junk (coordNum p).itfI,
      toNewItfJ3 p.nx p.ny p.nz p.n (coordNum p).itfJ, toNewItfK3 p.nx p.ny p.nz p.n (coordNum p).itfK with
  | some a, some b, some c, some d => some ⟨a, b, c, d⟩
  | _, _, _, _ => none

/-- `to_gnomonic` — `cubed_sphere_3d.py` 602-607 -/
noncomputable def toGnomonic (coord z : Arr ℝ) : Arr ℝ :=
  ⟨coord.shape, fun idx =>
    match idx.getD 0 0 with
    | 0 => tan (coord.get (0 :: idx.drop 1))
    | 1 => tan (coord.get (1 :: idx.drop 1))
    | _ => z.get (idx.drop 1)⟩

/-- component of a vector -/
def comp (v : WxVerif.Cube.V3 ℝ) : Nat → ℝ
  | 0 => v.1
  | 1 => v.2.1
  | _ => v.2.2

/-- `gnomonic_to_cartesian` — `cubed_sphere_3d.py` 634-672; the formulas are those of `Sphere.cart` with the radius `earth_radius + gnom[2]` -/
noncomputable def toCartesian (p : Params) (g : Arr ℝ) : Arr ℝ :=
  ⟨g.shape, fun idx =>
    let r := idx.drop 1
    comp (cart p.o (p.radius + g.get (2 :: r)) (g.get (0 :: r)) (g.get (1 :: r))) (idx.getD 0 0)⟩

/-- `cartesian_to_polar` — `cubed_sphere_3d.py` 686-691 -/
noncomputable def toPolar (c g : Arr ℝ) : Arr ℝ :=
  ⟨c.shape, fun idx =>
    let r := idx.drop 1
    let s := cart2sph (c.get (0 :: r), c.get (1 :: r), c.get (2 :: r))
    match idx.getD 0 0 with
    | 0 => s.1
    | 1 => s.2.1
    | _ => g.get (2 :: r)⟩

/-- `xp.linalg.norm` of a whole array -/
noncomputable def norm (a : Arr ℝ) : ℝ := √(((List.range (size a.shape)).map fun q => a.get (unravel a.shape q) ^ 2).sum)

/-- `a - b` of arrays of one shape -/
def sub (a b : Arr ℝ) : Arr ℝ := ⟨a.shape, fun idx => a.get idx - b.get idx⟩

/-- `X_block`, `Y_block`: `meshgrid(tan(x2), tan(x1), indexing="ij")` — `cubed_sphere_3d.py` 553 -/
noncomputable def xBlock (p : Params) : Arr ℝ := ⟨[p.ny * p.n, p.nx * p.n], fun idx => tan ((x1 p).get [idx.getD 1 0])⟩
@[inherit_doc xBlock] noncomputable def yBlock (p : Params) : Arr ℝ := ⟨[p.ny * p.n, p.nx * p.n], fun idx => tan ((x2 p).get [idx.getD 0 0])⟩

/-- `boundary_sn_new` — `cubed_sphere_3d.py` 560, 563-565 -/
noncomputable def boundarySnNew (p : Params) : Arr ℝ :=
  reshape [p.nx, p.n, p.n] (tile [1, p.n] (reshape [p.nx, p.n] (select [.one 0, .all] (xBlock p))))
/-- `boundary_we_new` — `cubed_sphere_3d.py` 561, 566-568 -/
noncomputable def boundaryWeNew (p : Params) : Arr ℝ :=
  reshape [p.ny, p.n, p.n] (tile [1, p.n] (reshape [p.ny, p.n] (select [.all, .one 0] (yBlock p))))

/-- the coordinate arrays: gnomonic, Cartesian and polar, in the block layout and in the element layout; longitudes and latitudes of the
lowest level -/
structure Coords where
  gnomBlock : Four
  cartBlock : Four
  polarBlock : Four
  gnom : Four
  cart : Four
  polar : Four
  lon : Arr ℝ
  lat : Arr ℝ
  lonItfI : Arr ℝ
  latItfI : Arr ℝ
  lonItfJ : Arr ℝ
  latItfJ : Arr ℝ

/-- the polar coordinates with the outer edges of the interface arrays set to 0 — `cubed_sphere_3d.py` 698-708, edges 200-205 -/
noncomputable def polarNew (p : Params) (c g : Four) : Four :=
  let m := p.n ^ 2
  ⟨toPolar c.sol g.sol,
    assignConst [.one (p.nx + 1), .range m (m * 2)] 0 (assignConst [.one 0, .range 0 m] 0 (toPolar c.itfI g.itfI)),
    assignConst [.one (p.ny + 1), .all, .range m (m * 2)] 0 (assignConst [.one 0, .all, .range 0 m] 0 (toPolar c.itfJ g.itfJ)),
    assignConst [.one (p.nz + 1), .all, .all, .range m (m * 2)] 0 (assignConst [.one 0, .all, .all, .range 0 m] 0 (toPolar c.itfK g.itfK))⟩

/-- `_build_physical_coordinates` — `cubed_sphere_3d.py` 505-756: it raises when the two layouts of the gnomonic coordinates differ (618-623) -/
noncomputable def buildPhysical (p : Params) (junk : List Nat → ℝ) (h : Heights) : Option Coords :=
  match radians p junk with
  | none => none
  | some rad =>
    let num := coordNum p
    let gb : Four := ⟨toGnomonic num.sol h.x3, toGnomonic num.itfI h.x3ItfI, toGnomonic num.itfJ h.x3ItfJ, toGnomonic num.itfK h.x3ItfK⟩
    let g : Four := ⟨toGnomonic rad.sol h.x3New, toGnomonic rad.itfI h.x3ItfINew, toGnomonic rad.itfJ h.x3ItfJNew, toGnomonic rad.itfK h.x3ItfKNew⟩
    match toNew3 p.nx p.ny p.nz p.n gb.sol with
    | none => none
    | some ref =>
      if norm (sub g.sol ref) / norm gb.sol > 1e-15 then none
      else
        let cb : Four := ⟨toCartesian p gb.sol, toCartesian p gb.itfI, toCartesian p gb.itfJ, toCartesian p gb.itfK⟩
        let c : Four := ⟨toCartesian p g.sol, toCartesian p g.itfI, toCartesian p g.itfJ, toCartesian p g.itfK⟩
        let pb : Four := ⟨toPolar cb.sol gb.sol, toPolar cb.itfI gb.itfI, toPolar cb.itfJ gb.itfJ, toPolar cb.itfK gb.itfK⟩
        some ⟨gb, cb, pb, g, c, polarNew p c g,
          select [.one 0, .one 0, .all, .all] pb.sol, select [.one 1, .one 0, .all, .all] pb.sol,
          transpose [1, 0] (select [.one 0, .one 0, .all, .all] pb.itfI), transpose [1, 0] (select [.one 1, .one 0, .all, .all] pb.itfI),
          select [.one 0, .one 0, .all, .all] pb.itfJ, select [.one 1, .one 0, .all, .all] pb.itfJ⟩

/-- `apply_topography`, complete — `cubed_sphere_3d.py` 441-503 -/
noncomputable def setTerrain (p : Params) (junk : List Nat → ℝ) (t : Topo) : Option Coords :=
  match applyTopography p.nx p.ny p.nz p.n p.ztop p.xs junk t with
  | none => none
  | some h => buildPhysical p junk h

/-- the grid without terrain — `cubed_sphere_3d.py` 438 -/
noncomputable def flatGrid (p : Params) (junk : List Nat → ℝ) : Option Coords := setTerrain p junk ⟨none, none, none, none, none, none⟩

/-- `build_topo_old` — `wx_factory/init/dcmip.py` 576-584, for a terrain `f` of longitude and latitude -/
def topoBlock (f : ℝ → ℝ → ℝ) (latlon : Arr ℝ) : Arr ℝ :=
  let lat := select [.one 1, .one 0, .all, .all] latlon
  let lon := select [.one 0, .one 0, .all, .all] latlon
  ⟨lat.shape, fun idx => f (lon.get idx) (lat.get idx)⟩

/-- `build_topo` — `dcmip.py` 586-593 -/
def topoFloor (f : ℝ → ℝ → ℝ) (latlon : Arr ℝ) : Arr ℝ := ⟨latlon.shape.drop 1, fun idx => f (latlon.get (0 :: idx)) (latlon.get (1 :: idx))⟩

/-- the terrain of `dcmip_schar_waves` on a grid, for any terrain `f`: it raises when the two layouts differ — `dcmip.py` 595-617 (edges:
`cubed_sphere_3d.py` 207-210) -/
noncomputable def terrainOf (p : Params) (f : ℝ → ℝ → ℝ) (g : Coords) : Option Topo :=
  match getFloor p.nx p.ny p.nz p.n g.polar.sol, getItfIFloor p.nx p.ny p.nz p.n g.polar.itfI, getItfJFloor p.nx p.ny p.nz p.n g.polar.itfJ with
  | some a, some b, some c =>
    let z := topoFloor f a
    let zi := assignConst [.one (p.nx + 1), .range p.n (p.n * 2)] 0 (assignConst [.one 0, .range 0 p.n] 0 (topoFloor f b))
    let zj := assignConst [.one (p.ny + 1), .all, .range p.n (p.n * 2)] 0 (assignConst [.one 0, .all, .range 0 p.n] 0 (topoFloor f c))
    let zb := topoBlock f g.polarBlock.sol
    let zbi := topoBlock f g.polarBlock.itfI
    let zbj := topoBlock f g.polarBlock.itfJ
    match toNewFloor p.nx p.ny p.n zb, toNewItfIFloor p.nx p.ny p.n zbi, toNewItfJFloor p.nx p.ny p.n zbj with
    | some d, some di, some dj =>
      if norm (sub z d) > 0 ∨ norm (sub zi di) > 0 ∨ norm (sub zj dj) > 0 then none
      else some ⟨some zb, some zbi, some zbj, some z, some zi, some zj⟩
    | _, _, _ => none
  | _, _, _ => none

/-- the grid of a case with terrain `f`: built flat, then rebuilt with the terrain — `cubed_sphere_3d.py` 438, `dcmip.py` 595-620 -/
noncomputable def terrainGrid (p : Params) (junk : List Nat → ℝ) (f : ℝ → ℝ → ℝ) : Option Coords :=
  match flatGrid p junk with
  | none => none
  | some g =>
    match terrainOf p f g with
    | none => none
    | some t => setTerrain p junk t

end WxVerif.Coord3
