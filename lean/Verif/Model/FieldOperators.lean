import Verif.Model.NdArray
import Verif.Model.Dfr
import Mathlib.Algebra.BigOperators.Intervals

/-!
# Model of the operators that act on a whole tile stored as one block

`DFROperators.comma_i/j/k`, `extrapolate_i/j/k` and `grad` work on arrays with the points of all the elements of the
tile side by side (`(…, nk, nj, ni)`), of any number of leading axes.  They assign new shapes to views of their arguments,
multiply by the small matrices of one element and restore the shape.  `none` is the exception raised by an impossible
shape.  Arguments are C-contiguous arrays, as the code requires (a view of another array could also be refused), and the
optional argument `out` only says where the result is stored.

`nx, ny, nz`: `num_elements_x1`, `_x2`, `_x3`; `n`: `num_solpts`; `grid.ni = nx·n`, `grid.nj = ny·n`, `grid.nk = nz·n`
(`wx_factory/geometry/cubed_sphere_3d.py` 157-167).
-/

namespace WxVerif.Tile

open WxVerif.Nd WxVerif.Dfr

variable {K : Type*} [Field K]

/-- `view.shape = s` — NumPy, used at `wx_factory/geometry/operators.py` 316, 364, 408-410, 422, 473, 517-519, 531, 628-631 -/
def setShape {α : Type*} (s : List Nat) (a : Arr α) : Option (Arr α) := if size s = size a.shape then some (reshape s a) else none

/-- `view.shape = (-1,) + s` — NumPy, used at `operators.py` 304-305, 351, 355, 456, 460, 615, 619, 673 -/
def setRows {α : Type*} (s : List Nat) (a : Arr α) : Option (Arr α) :=
  if size s = 0 ∨ size a.shape % size s ≠ 0 then none else some (reshape (size a.shape / size s :: s) a)

/-- row of the second operand of a sum that meets row `r` of the result: a single row is repeated — NumPy broadcasting -/
def bcast {α : Type*} (b : Arr α) (r : Nat) : Nat := if b.shape.headD 0 = 1 then 0 else r

/-- product with `diff_solpt_tr` plus product with `correction_tr` — `operators.py` 309-311 -/
noncomputable def derivRows (n : Nat) (pts : Nat → K) (f b : Arr K) : Arr K :=
  ⟨f.shape, fun idx =>
    ∑ q ∈ Finset.range n, f.get [idx.getD 0 0, q] * diffSolpt n pts (idx.getD 1 0) q +
      (b.get [bcast b (idx.getD 0 0), 0] * corrWest n pts (idx.getD 1 0) +
        b.get [bcast b (idx.getD 0 0), 1] * corrEast n pts (idx.getD 1 0))⟩

/-- `comma_i` — `operators.py` 263-318 -/
noncomputable def commaI (n : Nat) (pts : Nat → K) (field border : Arr K) : Option (Arr K) := do
  let fv ← setRows [n] field
  let bv ← setRows [2] border
  if bv.shape.headD 0 = fv.shape.headD 0 ∨ bv.shape.headD 0 = 1 then
    setShape field.shape (derivRows n pts fv bv)
  else none

/-- `self.diff_solpt @ field_view + self.correction @ border_view` on stacks of matrices — `operators.py` 419, 528 -/
noncomputable def derivStack (n : Nat) (pts : Nat → K) (f b : Arr K) : Arr K :=
  ⟨f.shape, fun idx =>
    ∑ q ∈ Finset.range n, diffSolpt n pts (idx.getD 1 0) q * f.get [idx.getD 0 0, q, idx.getD 2 0] +
      (corrWest n pts (idx.getD 1 0) * b.get [idx.getD 0 0, 0, idx.getD 2 0] +
        corrEast n pts (idx.getD 1 0) * b.get [idx.getD 0 0, 1, idx.getD 2 0])⟩

/-- `comma_j` — `operators.py` 368-424 -/
noncomputable def commaJ (nx ny n : Nat) (pts : Nat → K) (field border : Arr K) : Option (Arr K) := do
  let nbvars := size field.shape / (nx * n * (ny * n))
  let fv ← setShape [nbvars * ny, n, nx * n] field
  let bv ← setShape [nbvars * ny, 2, nx * n] border
  setShape field.shape (derivStack n pts fv bv)

/-- `comma_k` — `operators.py` 477-533 -/
noncomputable def commaK (nx ny nz n : Nat) (pts : Nat → K) (field border : Arr K) : Option (Arr K) := do
  let nbvars := size field.shape / (nx * n * (ny * n) * (nz * n))
  let fv ← setShape [nbvars * nz, n, nx * n * (ny * n)] field
  let bv ← setShape [nbvars * nz, 2, nx * n * (ny * n)] border
  setShape field.shape (derivStack n pts fv bv)

/-- `border[:, 0] = field_interior_view @ self.extrap_west` and the same for the east, on `rows` rows — `operators.py` 358-359 -/
noncomputable def edgeRows (n : Nat) (pts : Nat → K) (rows : Nat) (f : Arr K) : Arr K :=
  ⟨[rows, 2], fun idx =>
    ∑ q ∈ Finset.range n, f.get [bcast f (idx.getD 0 0), q] * extrapVec n pts (if idx.getD 1 0 = 0 then -1 else 1) q⟩

/-- `extrapolate_i` — `operators.py` 320-366 -/
noncomputable def extrapolateI (nx n : Nat) (pts : Nat → K) (field : Arr K) : Option (Arr K) := do
  let nbvars := size field.shape / (nx * n)
  let fv ← setRows [n] field
  if fv.shape.headD 0 = nbvars * nx ∨ fv.shape.headD 0 = 1 then
    setShape (field.shape.take (field.shape.length - 1) ++ [nx, 2]) (edgeRows n pts (nbvars * nx) fv)
  else none

/-- `border[:, 0, :] = self.extrap_south @ field_interior_view` and the same for the north (`extrap_down`, `extrap_up`), on
`rows` rows — `operators.py` 464-465, 622-623 -/
noncomputable def edgeStack (n : Nat) (pts : Nat → K) (rows inner : Nat) (f : Arr K) : Arr K :=
  ⟨[rows, 2, inner], fun idx =>
    ∑ q ∈ Finset.range n, extrapVec n pts (if idx.getD 1 0 = 0 then -1 else 1) q * f.get [bcast f (idx.getD 0 0), q, idx.getD 2 0]⟩

/-- `extrapolate_j` — `operators.py` 426-475 -/
noncomputable def extrapolateJ (nx ny n : Nat) (pts : Nat → K) (field : Arr K) : Option (Arr K) := do
  let nbvars := size field.shape / (nx * n * (ny * n))
  let fv ← setRows [n, nx * n] field
  if fv.shape.headD 0 = nbvars * ny ∨ fv.shape.headD 0 = 1 then
    setShape (field.shape.take (field.shape.length - 2) ++ [ny, 2, nx * n]) (edgeStack n pts (nbvars * ny) (nx * n) fv)
  else none

/-- `extrapolate_k` — `operators.py` 584-632 (unlike the two others, the result has one leading axis of all the variables, and none for one variable) -/
noncomputable def extrapolateK (nx ny nz n : Nat) (pts : Nat → K) (field : Arr K) : Option (Arr K) := do
  let nbvars := size field.shape / (nx * n * (ny * n) * (nz * n))
  let fv ← setRows [n, nx * n * (ny * n)] field
  if fv.shape.headD 0 = nbvars * nz ∨ fv.shape.headD 0 = 1 then
    setShape (if nbvars > 1 then [nbvars, nz, 2, ny * n, nx * n] else [nz, 2, ny * n, nx * n])
      (edgeStack n pts (nbvars * nz) (nx * n * (ny * n)) fv)
  else none

/-- `numpy.stack((x[…, :-1, …], x[…, 1:, …]), axis=-(t+1))` where `t` axes follow the sliced one: the two sides of every
element, from the values at the interfaces — `operators.py` 690-694, `wx_factory/geometry/metric3d.py` 107-111, 742-749 -/
def pairs {α : Type*} (t : Nat) (a : Arr α) : Arr α :=
  let m := a.shape.length - (t + 1)
  ⟨a.shape.take m ++ (a.shape.getD m 0 - 1) :: 2 :: a.shape.drop (m + 1),
    fun idx => a.get (idx.take m ++ (idx.getD m 0 + idx.getD (m + 1) 0) :: idx.drop (m + 2))⟩

/-- `numpy.zeros((3, …))` filled by `output[0]`, `output[1]`, `output[2]` — `operators.py` 696-706 -/
def stack3 {α : Type*} (x y z : Arr α) : Arr α :=
  ⟨3 :: x.shape, fun idx => match idx.getD 0 0 with
    | 0 => x.get idx.tail
    | 1 => y.get idx.tail
    | _ => z.get idx.tail⟩

/-- `grad` — `operators.py` 635-710 -/
noncomputable def grad (nx ny nz n : Nat) (pts : Nat → K) (field itfI itfJ itfK : Arr K) : Option (Arr K) := do
  let d := field.shape.length
  let nk := field.shape.getD (d - 3) 0
  let nj := field.shape.getD (d - 2) 0
  let ni := field.shape.getD (d - 1) 0
  let ff ← setRows [nk, nj, ni] field
  let nvar := ff.shape.headD 0
  let nelI := itfI.shape.getLastD 0 - 1
  let nelJ := itfJ.shape.getD (itfJ.shape.length - 2) 0 - 1
  let nelK := itfK.shape.getD (itfK.shape.length - 3) 0 - 1
  let iti ← setShape [nvar, nk, nj, nelI + 1] itfI
  let itj ← setShape [nvar, nk, nelJ + 1, ni] itfJ
  let itk ← setShape [nvar, nelK + 1, nj, ni] itfK
  let gi ← commaI n pts ff (pairs 0 iti)
  let gj ← commaJ nx ny n pts ff (pairs 1 itj)
  let gk ← commaK nx ny nz n pts ff (pairs 2 itk)
  setShape (3 :: field.shape) (stack3 gi gj gk)

end WxVerif.Tile
