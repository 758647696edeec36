import Verif.Model.NdArray

/-!
# Model of the layout conversions of the three geometries

`none` is the `ValueError` on an unexpected shape.  `junk` stands for the uninitialized memory of `xp.empty`.
-/

namespace WxVerif.Layout

open Nd

variable {α : Type*} [Zero α]

/-! ## 2D cubed sphere; `nx`, `ny`: `num_elements_x1`, `num_elements_x2`; `n`: `num_solpts` -/

/-- `_to_new` — `wx_factory/geometry/cubed_sphere_2d.py` 472-494.  The result is given the shape `grid_shape`, which lists
`num_elements_x1` first (161). -/
def toNew2 (nx ny n : Nat) (a : Arr α) : Option (Arr α) :=
  let grid := [nx, ny, n * n]
  if a.shape.length = 2 ∧ a.shape = [ny * n, nx * n] then
    some (reshape grid (transpose [0, 2, 1, 3] (reshape [ny, n, nx, n] a)))
  else if (a.shape.length = 3 ∧ a.shape.drop 1 = [ny * n, nx * n]) ∨
      (a.shape.length = 4 ∧ a.shape.drop 2 = [ny * n, nx * n] ∧ a.shape.getD 1 0 = 1) then
    let m := a.shape.getD 0 0
    some (reshape (m :: grid) (transpose [0, 1, 3, 2, 4] (reshape [m, ny, n, nx, n] a)))
  else none

/-- `to_single_block` — `cubed_sphere_2d.py` 496-506. -/
def toBlock2 (nx ny n : Nat) (a : Arr α) : Option (Arr α) :=
  let k := a.shape.length - 3
  if a.shape.drop k ≠ [ny, nx, n * n] ∨ a.shape.length < 3 then none
  else
    let lead := a.shape.take k
    some (reshape (lead ++ [ny * n, nx * n]) (moveaxis [-3] [-2] (reshape (lead ++ [ny, nx, n, n]) a)))

/-- `_to_new_itf_i` — `cubed_sphere_2d.py` 516-540 (edges: 167-168).  The index arrays `arange(n)`, `arange(n, 2n)` are the
slices they enumerate. -/
def toNewItfI2 (nx ny n : Nat) (junk : List Nat → α) (a : Arr α) : Option (Arr α) :=
  let k := a.shape.length - 2
  if a.shape.drop k = [nx + 1, ny * n] then
    let lead := a.shape.take k
    let new : Arr α := ⟨lead ++ [ny, nx + 2, n * 2], junk⟩
    let tmp := transpose (List.range k ++ [1 + k, 0 + k, 2 + k]) (reshape (lead ++ [nx + 1, ny, n]) a)
    let new := assign [.range 0 (nx + 1), .range n (2 * n)] tmp new
    let new := assign [.range 1 (nx + 2), .range 0 n] tmp new
    let new := assignConst [.one (nx + 1), .range n (n * 2)] 0 new
    let new := assignConst [.one 0, .range 0 n] 0 new
    some (squeeze new)
  else none

/-- `_to_new_itf_j` — `cubed_sphere_2d.py` 542-562 (edges: 169-170). -/
def toNewItfJ2 (nx ny n : Nat) (junk : List Nat → α) (a : Arr α) : Option (Arr α) :=
  let k := a.shape.length - 2
  if a.shape.drop k = [ny + 1, nx * n] then
    let lead := a.shape.take k
    let new : Arr α := ⟨lead ++ [ny + 2, nx, n * 2], junk⟩
    let tmp := reshape (lead ++ [ny + 1, nx, n]) a
    let new := assign [.range 0 (ny + 1), .all, .range n (n * 2)] tmp new
    let new := assign [.range 1 (ny + 2), .all, .range 0 n] tmp new
    let new := assignConst [.one 0, .all, .range 0 n] 0 new
    let new := assignConst [.one (ny + 1), .all, .range n (n * 2)] 0 new
    some (squeeze new)
  else none

/-! ## 3D cubed sphere; `nz`: `num_elements_x3` -/

/-- `_to_new` — `wx_factory/geometry/cubed_sphere_3d.py` 758-774. -/
def toNew3 (nx ny nz n : Nat) (a : Arr α) : Option (Arr α) :=
  let k := a.shape.length - 3
  if a.shape.drop k ≠ [nz * n, ny * n, nx * n] then none
  else
    let lead := a.shape.take k
    some (reshape (lead ++ [nz, ny, nx, n ^ 3]) (moveaxis [-5, -3] [-3, -2] (reshape (lead ++ [nz, n, ny, n, nx, n]) a)))

/-- `to_single_block` — `cubed_sphere_3d.py` 776-792. -/
def toBlock3 (nx ny nz n : Nat) (a : Arr α) : Option (Arr α) :=
  let k := a.shape.length - 4
  if a.shape.drop k ≠ [nz, ny, nx, n ^ 3] then none
  else
    let lead := a.shape.take k
    some (reshape (lead ++ [nz * n, ny * n, nx * n]) (moveaxis [-3, -2] [-5, -3] (reshape (lead ++ [nz, ny, nx, n, n, n]) a)))

/-- `_to_new_itf_i` — `cubed_sphere_3d.py` 794-828 (edges: 200-201). -/
def toNewItfI3 (nx ny nz n : Nat) (junk : List Nat → α) (a : Arr α) : Option (Arr α) :=
  let k := a.shape.length - 3
  if a.shape.drop k ≠ [nz * n, ny * n, nx + 1] then none
  else
    let lead := a.shape.take k
    let new : Arr α := ⟨lead ++ [nz, ny, nx + 2, n ^ 2 * 2], junk⟩
    let tmp := reshape (lead ++ [nz, ny, nx + 1, n ^ 2]) (moveaxis [-4, -2] [-2, -1] (reshape (lead ++ [nz, n, ny, n, nx + 1]) a))
    let new := assign [.range 1 (nx + 2), .range 0 (n ^ 2)] tmp new
    let new := assign [.range 0 (nx + 1), .range (n ^ 2) (n ^ 2 * 2)] tmp new
    let new := assignConst [.one 0, .range 0 (n ^ 2)] 0 new
    let new := assignConst [.one (nx + 1), .range (n ^ 2) (n ^ 2 * 2)] 0 new
    some new

/-- `_to_new_itf_j` — `cubed_sphere_3d.py` 830-862 (edges: 202-203). -/
def toNewItfJ3 (nx ny nz n : Nat) (a : Arr α) : Option (Arr α) :=
  let k := a.shape.length - 3
  if a.shape.drop k ≠ [nz * n, ny + 1, nx * n] then none
  else
    let lead := a.shape.take k
    let new : Arr α := ⟨lead ++ [nz, ny + 2, nx, n ^ 2 * 2], fun _ => 0⟩
    let tmp := reshape (lead ++ [nz, ny + 1, nx, n ^ 2]) (moveaxis [-4] [-2] (reshape (lead ++ [nz, n, ny + 1, nx, n]) a))
    let new := assign [.range 1 (ny + 2), .all, .range 0 (n ^ 2)] tmp new
    let new := assign [.range 0 (ny + 1), .all, .range (n ^ 2) (n ^ 2 * 2)] tmp new
    let new := assignConst [.one 0, .all, .range 0 (n ^ 2)] 0 new
    let new := assignConst [.one (ny + 1), .all, .range (n ^ 2) (n ^ 2 * 2)] 0 new
    some new

/-- `_to_new_itf_k` — `cubed_sphere_3d.py` 864-897 (edges: 204-205). -/
def toNewItfK3 (nx ny nz n : Nat) (a : Arr α) : Option (Arr α) :=
  let k := a.shape.length - 3
  if a.shape.drop k ≠ [nz + 1, ny * n, nx * n] then none
  else
    let lead := a.shape.take k
    let new : Arr α := ⟨lead ++ [nz + 2, ny, nx, n ^ 2 * 2], fun _ => 0⟩
    let tmp := reshape (lead ++ [nz + 1, ny, nx, n ^ 2]) (swapaxes (-3) (-2) (reshape (lead ++ [nz + 1, ny, n, nx, n]) a))
    let new := assign [.range 1 (nz + 2), .all, .all, .range 0 (n ^ 2)] tmp new
    let new := assign [.range 0 (nz + 1), .all, .all, .range (n ^ 2) (n ^ 2 * 2)] tmp new
    let new := assignConst [.one 0, .all, .all, .range 0 (n ^ 2)] 0 new
    let new := assignConst [.one (nz + 1), .all, .all, .range (n ^ 2) (n ^ 2 * 2)] 0 new
    some new

/-! ## Floor arrays of the 3D cubed sphere -/

/-- `get_floor` — `cubed_sphere_3d.py` 899-907. -/
def getFloor (nx ny nz n : Nat) (a : Arr α) : Option (Arr α) :=
  let k := a.shape.length - 4
  if a.shape.drop k ≠ [nz, ny, nx, n ^ 3] then none
  else
    let lead := a.shape.take k
    some (reshape (lead ++ [ny, nx, n ^ 2])
      (select [.one 0, .all, .all, .one 0, .all, .all] (reshape (a.shape.take (a.shape.length - 1) ++ [n, n, n]) a)))

/-- `floor_to_bulk` — `cubed_sphere_3d.py` 909-921 (an array of exactly three axes: the result has no leading axes). -/
def floorToBulk (nx ny nz n : Nat) (kItf : Bool) (a : Arr α) : Option (Arr α) :=
  if a.shape ≠ [ny, nx, n ^ 2] then none
  else
    let axis1 := a.shape.length - 2
    let count := if kItf then 2 else n
    let tiles := if kItf then nz + 2 else nz
    let dest := if kItf then [nz + 2, ny, nx, n ^ 2 * 2] else [nz, ny, nx, n ^ 3]
    some (reshape dest (tile [tiles, 1, 1] (rept count axis1 a)))

/-- `get_itf_i_floor` — `cubed_sphere_3d.py` 923-931. -/
def getItfIFloor (nx ny nz n : Nat) (a : Arr α) : Option (Arr α) :=
  let k := a.shape.length - 4
  if a.shape.drop k ≠ [nz, ny, nx + 2, n ^ 2 * 2] then none
  else
    let lead := a.shape.take k
    some (reshape (lead ++ [ny, nx + 2, n * 2])
      (select [.one 0, .all, .all, .all, .one 0, .all] (reshape (a.shape.take (a.shape.length - 1) ++ [2, n, n]) a)))

/-- `floor_i_to_bulk` — `cubed_sphere_3d.py` 933-943 (three axes, as for `floorToBulk`). -/
def floorIToBulk (nx ny nz n : Nat) (a : Arr α) : Option (Arr α) :=
  if a.shape ≠ [ny, nx + 2, n * 2] then none
  else
    let axis1 := a.shape.length - 1
    some (reshape [nz, ny, nx + 2, n ^ 2 * 2] (tile [nz, 1, 1, 1] (rept n axis1 (reshape [ny, nx + 2, 2, n] a))))

/-- `get_itf_j_floor` — `cubed_sphere_3d.py` 945-953. -/
def getItfJFloor (nx ny nz n : Nat) (a : Arr α) : Option (Arr α) :=
  let k := a.shape.length - 4
  if a.shape.drop k ≠ [nz, ny + 2, nx, n ^ 2 * 2] then none
  else
    let lead := a.shape.take k
    some (reshape (lead ++ [ny + 2, nx, n * 2])
      (select [.one 0, .all, .all, .all, .one 0, .all] (reshape (a.shape.take (a.shape.length - 1) ++ [2, n, n]) a)))

/-- `floor_j_to_bulk` — `cubed_sphere_3d.py` 955-965 (three axes). -/
def floorJToBulk (nx ny nz n : Nat) (a : Arr α) : Option (Arr α) :=
  if a.shape ≠ [ny + 2, nx, n * 2] then none
  else
    let axis1 := a.shape.length - 1
    some (reshape [nz, ny + 2, nx, n ^ 2 * 2] (tile [nz, 1, 1, 1] (rept n axis1 (reshape [ny + 2, nx, 2, n] a))))

/-- `to_new_floor` — `cubed_sphere_3d.py` 967-975. -/
def toNewFloor (nx ny n : Nat) (a : Arr α) : Option (Arr α) :=
  let k := a.shape.length - 2
  if a.shape.drop k ≠ [ny * n, nx * n] then none
  else
    let lead := a.shape.take k
    some (reshape (lead ++ [ny, nx, n ^ 2]) (swapaxes (-3) (-2) (reshape (lead ++ [ny, n, nx, n]) a)))

/-- `to_new_itf_i_floor` — `cubed_sphere_3d.py` 977-995. -/
def toNewItfIFloor (nx ny n : Nat) (a : Arr α) : Option (Arr α) :=
  let k := a.shape.length - 2
  if a.shape.drop k ≠ [ny * n, nx + 1] then none
  else
    let lead := a.shape.take k
    let new : Arr α := ⟨lead ++ [ny, nx + 2, n * 2], fun _ => 0⟩
    let tmp := moveaxis [-2] [-1] (reshape (lead ++ [ny, n, nx + 1]) a)
    let new := assign [.range 1 (nx + 2), .range 0 n] tmp new
    let new := assign [.range 0 (nx + 1), .range n (n * 2)] tmp new
    some new

/-- `to_new_itf_j_floor` — `cubed_sphere_3d.py` 997-1014. -/
def toNewItfJFloor (nx ny n : Nat) (a : Arr α) : Option (Arr α) :=
  let k := a.shape.length - 2
  if a.shape.drop k ≠ [ny + 1, nx * n] then none
  else
    let lead := a.shape.take k
    let new : Arr α := ⟨lead ++ [ny + 2, nx, n * 2], fun _ => 0⟩
    let tmp := reshape (lead ++ [ny + 1, nx, n]) a
    let new := assign [.range 1 (ny + 2), .all, .range 0 n] tmp new
    let new := assign [.range 0 (ny + 1), .all, .range n (n * 2)] tmp new
    some new

/-! ## Cartesian mesh -/

/-- The element layout of the coordinates, filled element by element — `wx_factory/geometry/cartesian_2d_mesh.py` 56-69:
`X[ek, ei, :] = X_block[ek n : (ek+1) n, ei n : (ei+1) n].flatten()`. -/
def toNewCart (nx nz n : Nat) (block : Arr α) : Arr α :=
  let init : Arr α := ⟨[nz, nx, n * n], fun _ => 0⟩
  (List.range nz).foldl (fun acc ek =>
    (List.range nx).foldl (fun acc ei =>
      let sub := select [.range (ek * n) ((ek + 1) * n), .range (ei * n) ((ei + 1) * n)] block
      assign [.one ek, .one ei, .all] (reshape [n * n] sub) acc) acc) init

/-- `to_single_block` — `cartesian_2d_mesh.py` 71-84. -/
def toBlockCart (nx nz n : Nat) (a : Arr α) : Arr α :=
  let lead := a.shape.take (a.shape.length - 3)
  reshape (lead ++ [nz * n, nx * n]) (swapaxes (-2) (-3) (reshape (lead ++ [nz, nx, n, n]) a))

end WxVerif.Layout
