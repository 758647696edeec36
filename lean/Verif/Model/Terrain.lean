import Mathlib.Analysis.SpecialFunctions.Sqrt
import Verif.Model.Layout

/-!
# Model of the vertical coordinates and of the topography of the 3D cubed sphere

Coordinates are real numbers (the floating-point `linspace` is modelled by its exact values).
-/

namespace WxVerif.Terrain

open Nd Layout

/-- The points of an element with both ends — `wx_factory/geometry/geometry.py` 31-34. -/
noncomputable def extPoints (xs : List ℝ) : List ℝ := -1 :: xs ++ [1]

/-- Python's `min` of the extension points — `wx_factory/geometry/cubed_sphere_3d.py` 146. -/
noncomputable def minComp (xs : List ℝ) : ℝ := (extPoints xs).foldl min (-1)

/-- Python's `max` of the extension points — `cubed_sphere_3d.py` 147. -/
noncomputable def maxComp (xs : List ℝ) : ℝ := (extPoints xs).foldl max (-1)

/-- `linspace(0, 1, nz + 1)` — `cubed_sphere_3d.py` 119-120, 223. -/
noncomputable def etaBoundaries (nz : Nat) : Arr ℝ := ⟨[nz + 1], fun idx => 0 + (idx.getD 0 0 : ℝ) * ((1 - 0) / (nz : ℝ))⟩

/-- `eta_linear = repeat(offsets_eta, n) + tile(ref_solpts_eta, nz)` — `cubed_sphere_3d.py` 138, 148, 238-240. -/
noncomputable def etaLinear (nz n : Nat) (xs : List ℝ) : Arr ℝ :=
  let deltaEta := (1 - 0) / (nz : ℝ)
  let offsets := select [.range 0 nz] (etaBoundaries nz)
  let ref : Arr ℝ := ⟨[n], fun idx => deltaEta / (maxComp xs - minComp xs) * (-minComp xs + xs.getD (idx.getD 0 0) 0)⟩
  let a := rept n 0 offsets
  let b := tile [nz] ref
  ⟨[nz * n], fun idx => a.get idx + b.get idx⟩

/-- `eta` in the block layout — `cubed_sphere_3d.py` 241. -/
noncomputable def eta (nx ny nz n : Nat) (xs : List ℝ) : Arr ℝ :=
  reshape [nz * n, ny * n, nx * n] (rept (nx * n * (ny * n)) 0 (etaLinear nz n xs))

/-- `linear_to_full_k(eta_linear)` — `cubed_sphere_3d.py` 243-251. -/
noncomputable def etaNew (nx ny nz n : Nat) (xs : List ℝ) : Arr ℝ :=
  reshape [nz, ny, nx, n ^ 3] (rept (ny * nx) 0 (rept (n ^ 2) 1 (reshape [nz, n] (etaLinear nz n xs))))

/-- `xp.repeat(a, count)` without an axis: of the flattened array -/
def reptFlat {α : Type*} (count : Nat) (a : Arr α) : Arr α := rept count 0 (reshape [size a.shape] a)

/-- `eta_itf_i` — `cubed_sphere_3d.py` 257. -/
noncomputable def etaItfI (nx ny nz n : Nat) (xs : List ℝ) : Arr ℝ :=
  reshape [nz * n, ny * n, nx + 1] (reptFlat (nx + 1) (select [.all, .all, .one 0] (eta nx ny nz n xs)))

/-- `eta_itf_j` — `cubed_sphere_3d.py` 264. -/
noncomputable def etaItfJ (nx ny nz n : Nat) (xs : List ℝ) : Arr ℝ :=
  reshape [nz * n, ny + 1, nx * n] (reptFlat (ny + 1) (select [.all, .one 0, .all] (eta nx ny nz n xs)))

/-- `eta_itf_k` — `cubed_sphere_3d.py` 271. -/
noncomputable def etaItfK (nx ny nz n : Nat) : Arr ℝ :=
  reshape [nz + 1, ny * n, nx * n] (rept (nx * n * (ny * n)) 0 (etaBoundaries nz))

/-- The topography given to `apply_topography`: six optional arrays. -/
structure Topo where
  zbot : Option (Arr ℝ)
  zbotItfI : Option (Arr ℝ)
  zbotItfJ : Option (Arr ℝ)
  zbotNew : Option (Arr ℝ)
  zbotItfINew : Option (Arr ℝ)
  zbotItfJNew : Option (Arr ℝ)

/-- The height arrays: block layout, then element layout. -/
structure Heights where
  x3 : Arr ℝ
  x3ItfI : Arr ℝ
  x3ItfJ : Arr ℝ
  x3ItfK : Arr ℝ
  x3New : Arr ℝ
  x3ItfINew : Arr ℝ
  x3ItfJNew : Arr ℝ
  x3ItfKNew : Arr ℝ

/-- `z + (ztop - z) * eta`, elementwise -/
def stretch (ztop : ℝ) (z eta : Arr ℝ) : Arr ℝ := ⟨eta.shape, fun idx => z.get idx + (ztop - z.get idx) * eta.get idx⟩

/-- `z[newaxis, :, :] + (ztop - z[newaxis, :, :]) * eta`: the floor array is repeated along the first axis -/
def stretchBlock (ztop : ℝ) (z eta : Arr ℝ) : Arr ℝ :=
  ⟨eta.shape, fun idx => z.get (idx.drop 1) + (ztop - z.get (idx.drop 1)) * eta.get idx⟩

/-- `apply_topography` — `cubed_sphere_3d.py` 441-501, with the coordinates of the constructor (119-120, 223-277).  `junk`:
uninitialized memory of `_to_new_itf_i`.  The two element-layout arrays of a direction are `none` when a floor array has the
wrong shape.  Not modelled: the rebuilding of the other coordinates (503). -/
noncomputable def applyTopography (nx ny nz n : Nat) (ztop : ℝ) (xs : List ℝ) (junk : List Nat → ℝ) (t : Topo) : Option Heights :=
  let zero (s : List Nat) : Arr ℝ := ⟨s, fun _ => 0⟩
  let (zFloor, zFloorI, zFloorJ) := match t.zbotNew, t.zbotItfINew, t.zbotItfJNew with
    | some a, some b, some c => (a, b, c)
    | _, _, _ => (zero [ny, nx, n ^ 2], zero [ny, nx + 2, n * 2], zero [ny + 2, nx, n * 2])
  let (zbot, zbotI, zbotJ) := match t.zbot, t.zbotItfI, t.zbotItfJ with
    | some a, some b, some c => (a, b, c)
    | _, _, _ => (zero [ny * n, nx * n], zero [ny * n, nx + 1], zero [ny + 1, nx * n])
  let e := eta nx ny nz n xs
  let x3 := stretchBlock ztop zbot e
  let x3i := stretchBlock ztop zbotI (etaItfI nx ny nz n xs)
  let x3j := stretchBlock ztop zbotJ (etaItfJ nx ny nz n xs)
  let x3k := stretchBlock ztop zbot (etaItfK nx ny nz n)
  match toNewItfI3 nx ny nz n junk (etaItfI nx ny nz n xs), toNewItfJ3 nx ny nz n (etaItfJ nx ny nz n xs),
      toNewItfK3 nx ny nz n (etaItfK nx ny nz n) with
  | some etaI, some etaJ, some etaK =>
    match floorToBulk nx ny nz n false zFloor, floorIToBulk nx ny nz n zFloorI, floorJToBulk nx ny nz n zFloorJ,
        floorToBulk nx ny nz n true zFloor with
    | some b, some bi, some bj, some bk =>
      let xk := stretch ztop bk etaK
      let xk := assignConst [.one 0, .all, .all, .range 0 (n ^ 2)] 0 xk
      let xk := assignConst [.one (nz + 1), .all, .all, .range (n ^ 2) (n ^ 2 * 2)] 0 xk
      some ⟨x3, x3i, x3j, x3k, stretch ztop b (etaNew nx ny nz n xs), stretch ztop bi etaI, stretch ztop bj etaJ, xk⟩
    | _, _, _, _ => none
  | _, _, _ => none

end WxVerif.Terrain
