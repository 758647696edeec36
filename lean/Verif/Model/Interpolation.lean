import Verif.Model.Dfr
import Mathlib.LinearAlgebra.Matrix.Kronecker
import Mathlib.Analysis.SpecialFunctions.Pow.Real

/-!
# Model: interpolation between the grids of the multigrid preconditioner

`common/interpolation.py`: the points of an element, one-dimensional weights, the operators of `Interpolator` and their application to all elements.
Exact real arithmetic.  The Gauss-Legendre points and `numpy.linalg.inv` and `pinv` are parameters; exceptions are values with the name of their
class.  Printing is left out.
-/

namespace WxVerif.Interpolation

open WxVerif.Dfr Matrix
open scoped Kronecker

/-- points of the reference element: how many, and where -/
structure Points where
  count : Nat
  pos : Nat → ℝ

/-- midpoint number `k` of `n` cells, `common/interpolation.py` lines 145-146: `linspace(-1, 1, n + 1)` and the mean of neighbours -/
noncomputable def midpoint (n k : Nat) : ℝ := ((-1 + k * (2 / n)) + (-1 + ((k + 1 : Nat) : ℝ) * (2 / n))) / 2

/-- `common/interpolation.py` lines 142-143 and 147-148: the two ends of the element are added -/
def withEnds (p : Points) : Points := ⟨p.count + 2, fun k => if k = 0 then -1 else if k = p.count + 1 then 1 else p.pos (k - 1)⟩

/-- `get_basis_points`, `common/interpolation.py` lines 137-151; `gauss n` are the `n` Gauss-Legendre points -/
noncomputable def basisPoints (gauss : Nat → Nat → ℝ) (type : String) (order : Nat) (boundary : Bool) : Except String Points :=
  if type = "dg" then .ok (if boundary then withEnds ⟨order, gauss order⟩ else ⟨order, gauss order⟩)
  else if type = "fv" then .ok (if boundary then withEnds ⟨order, midpoint order⟩ else ⟨order, midpoint order⟩)
  else .error "ValueError"

open Classical in
/-- the loop of `get_linear_weights`, `common/interpolation.py` lines 63-67, from index `ix` on -/
noncomputable def interval (p : Points) (x : ℝ) (ix : Nat) : Nat :=
  if p.pos (ix + 1) < x then (if ix + 2 ≥ p.count then ix else interval p x (ix + 1)) else ix
termination_by p.count - ix

/-- `get_linear_weights`, `common/interpolation.py` lines 56-78 -/
noncomputable def linearWeights (p : Points) (x : ℝ) (j : Nat) : ℝ :=
  if p.count = 1 then (if j = 0 then 1 else 0)
  else
    let ix := interval p x 0
    let small := p.pos ix
    let large := p.pos (ix + 1)
    let alpha := 1 - (x - small) / (large - small)
    if j = ix then alpha else if j = ix + 1 then 1 - alpha else 0

/-- a matrix with its shape -/
structure Op where
  rows : Nat
  cols : Nat
  mat : Matrix (Fin rows) (Fin cols) ℝ

/-- one row of weights for each destination point, `common/interpolation.py` lines 189-190 and 209 -/
def table (weights : ℝ → Nat → ℝ) (origin dest : Points) : Op := ⟨dest.count, origin.count, fun i j => weights (dest.pos i) j⟩

/-- `lagrange_eval` at all destination points -/
noncomputable def lagrangeTable (origin dest : Points) : Op := table (lagrangeEval origin.count origin.pos) origin dest

/-- `get_linear_weights` at all destination points -/
noncomputable def linearTable (origin dest : Points) : Op := table (linearWeights origin) origin dest

/-- `numpy.kron` -/
def kron (a b : Op) : Op := ⟨a.rows * b.rows, a.cols * b.cols, (a.mat ⊗ₖ b.mat).reindex finProdFinEquiv finProdFinEquiv⟩

/-- product operator of two or three dimensions, `common/interpolation.py` lines 194-201 and 211-215 -/
def tensor (ndim : Nat) (a : Op) : Op := if ndim = 3 then kron (kron a a) a else kron a a

/-- a multiple of a matrix -/
noncomputable def scale (c : ℝ) (a : Op) : Op := ⟨a.rows, a.cols, c • a.mat⟩

/-- the functions of `numpy.linalg` that are used -/
structure Linalg where
  inv : Op → Except String Op
  pinv : Op → Except String Op

/-- the object; `velocity` is there on the cubed sphere only -/
structure Interpolator where
  ndim : Nat
  elem : Op
  back : Op
  velocity : Option (Op × Op)

/-- `remesh_operator`, `geometry/operators.py` lines 773-787: modes of the source points, the highest kept one halved, at the target points -/
noncomputable def remesh (origin dest : Points) : Op :=
  ⟨dest.count, origin.count, (Matrix.of fun i k => legendre (dest.pos i) k : Matrix (Fin dest.count) (Fin dest.count) ℝ) *
    (Matrix.of fun (i : Fin dest.count) (j : Fin origin.count) =>
      if i.1 = j.1 then (if i.1 + 1 = min origin.count dest.count then (1 / 2 : ℝ) else 1) else 0) * (vander origin.count origin.pos)⁻¹⟩

/-- the inverse operation if it was not computed directly, `common/interpolation.py` lines 224-228, and the same for velocities, lines 244-247 -/
def reverseOf (la : Linalg) (originOrder destOrder : Nat) (a : Op) : Except String Op :=
  if destOrder = originOrder then la.inv a else la.pinv a

/-- base operators, `common/interpolation.py` lines 185-228.  `l2-norm` adds a number to a list of points (line 104) and raises.  Weights with respect
to the points of a `dg` element are an array of SymPy objects, for which `numpy.linalg` raises. -/
noncomputable def baseOps (la : Linalg) (originType : String) (originOrder destOrder : Nat) (interp : String) (ndim : Nat) (origin dest : Points) :
    Except String (Op × Op) :=
  if interp = "lagrange" then .ok (tensor ndim (lagrangeTable origin dest), tensor ndim (lagrangeTable dest origin))
  else if interp = "l2-norm" then .error "TypeError"
  else if interp = "bilinear" ∨ interp = "trilinear" then
    if originType = "dg" then .error "TypeError"
    else (reverseOf la originOrder destOrder (tensor ndim (linearTable origin dest))).map fun r => (tensor ndim (linearTable origin dest), r)
  else if interp = "modal" then .ok (remesh origin dest, remesh dest origin)
  else .error "ValueError"

/-- factor of the velocities, `common/interpolation.py` lines 237-242 -/
noncomputable def velocityFactor (originType destType : String) (originOrder destOrder ndim : Nat) : ℝ :=
  if originType = "dg" ∧ destType = "fv" then (originOrder : ℝ) ^ (1 / (ndim : ℝ))
  else if destOrder < originOrder then ((destOrder : ℝ) / originOrder) ^ (1 / (ndim : ℝ))
  else 1

/-- `Interpolator.__init__`, `common/interpolation.py` lines 159-247 -/
noncomputable def create (gauss : Nat → Nat → ℝ) (la : Linalg) (originType : String) (originOrder : Nat) (destType : String) (destOrder : Nat)
    (interp gridType : String) (ndim : Nat) (boundary : Bool) : Except String Interpolator := do
  let origin ← basisPoints gauss originType originOrder boundary
  let dest ← basisPoints gauss destType destOrder boundary
  let (elem, back) ← baseOps la originType originOrder destOrder interp ndim origin dest
  if gridType = "cubed_sphere" then
    let v := scale (velocityFactor originType destType originOrder destOrder ndim) elem
    (reverseOf la originOrder destOrder v).map fun r => ⟨ndim, elem, back, some (v, r)⟩
  else .ok ⟨ndim, elem, back, none⟩

/-- a set of fields: each has a value for each element and each of its points -/
structure Fields where
  fields : Nat
  elems : Nat
  pts : Nat
  val : Nat → Nat → Nat → ℝ

/-- `reshape(num_fields, -1, n)`, row by row; NumPy raises if the size of a field is not divisible -/
def regroup (f : Fields) (n : Nat) : Except String Fields :=
  if n ∣ f.elems * f.pts then
    .ok ⟨f.fields, f.elems * f.pts / n, n, fun i e p => f.val i ((e * n + p) / f.pts) ((e * n + p) % f.pts)⟩
  else .error "ValueError"

/-- the operator for field number `i`, `common/interpolation.py` lines 234, 260-262: numbers 1 and 2 are velocities on the cubed sphere -/
def opFor (it : Interpolator) (reverse : Bool) (i : Nat) : Op :=
  match it.velocity with
  | some (v, r) => if i = 1 ∨ i = 2 then (if reverse then r else v) else (if reverse then it.back else it.elem)
  | none => if reverse then it.back else it.elem

/-- one field, `common/interpolation.py` line 287: the operator times the values of each element -/
def applyOp (o : Op) (v : Nat → Nat → ℝ) (e p : Nat) : ℝ := if h : p < o.rows then ∑ q : Fin o.cols, o.mat ⟨p, h⟩ q * v e q else 0

/-- `Interpolator.__call__`, `common/interpolation.py` lines 255-289, for real fields with three axes (complex fields raise in line 287 because the
result is an array of reals, and so do arrays with more axes).  All operators of one direction have the same shape. -/
def call (it : Interpolator) (f : Fields) (reverse : Bool) : Except String Fields :=
  if it.ndim = 2 ∨ it.ndim = 3 then
    (if reverse then regroup f (opFor it reverse 0).cols else .ok f).bind fun g =>
      if g.pts = (opFor it reverse 0).cols then
        .ok ⟨g.fields, g.elems, (opFor it reverse 0).rows, fun i e p => applyOp (opFor it reverse i) (g.val i) e p⟩
      else .error "ValueError"
  else .error "ValueError"

end WxVerif.Interpolation
