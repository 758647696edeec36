import Mathlib.Algebra.Polynomial.Derivative
import Mathlib.Algebra.Polynomial.Eval.Defs
import Mathlib.LinearAlgebra.Matrix.NonsingularInverse

/-!
# Model of the direct-flux-reconstruction operators

Arrays are functions of their indices (`Nat`), with their sizes as parameters.
-/

namespace WxVerif.Dfr

open Polynomial

variable {K : Type*} [Field K]

/-- Lagrange basis function number `i` of the points `xi 0 … xi order` as a polynomial —
`wx_factory/geometry/operators.py` `lagrange_poly` 742-746 (the SymPy expression is modelled by the polynomial it denotes). -/
noncomputable def lagrangePoly (order i : Nat) (xi : Nat → K) : K[X] :=
  (((List.range (order + 1)).eraseIdx i).map fun j => (X - C (xi j)) * C ((xi i - xi j)⁻¹)).prod

/-- Differentiation matrix of `M` points — `operators.py` `diffmat` 726-739. -/
noncomputable def diffmat (M : Nat) (points : Nat → K) (j i : Nat) : K :=
  (derivative (lagrangePoly (M - 1) i points)).eval (points j)

/-- Values of all basis functions at a point — `operators.py` `lagrange_eval` 713-723. -/
noncomputable def lagrangeEval (M : Nat) (points : Nat → K) (newPt : K) (i : Nat) : K :=
  if M = 1 then 1 else (lagrangePoly (M - 1) i points).eval newPt

/-- Legendre polynomials by their recurrence: column `k` of the Vandermonde matrix at `x` —
`operators.py` `legvander` 928-943. -/
def legendre (x : K) : Nat → K
  | 0 => 1
  | 1 => x
  | i + 2 => (legendre x (i + 1) * x * (2 * (i + 2 : Nat) - 1) - legendre x i * ((i + 2 : Nat) - 1)) / (i + 2 : Nat)

/-- Vandermonde matrix of `n` solution points — `operators.py` 56. -/
def vander (n : Nat) (pts : Nat → K) : Matrix (Fin n) (Fin n) K := Matrix.of fun i k => legendre (pts i) k

/-- Extrapolation vector to the reference coordinate `e` (`-1` or `1`): `legvander([e]) @ inv(V)` — `operators.py` 56-68.
`linalg.inv` is the exact matrix inverse. -/
noncomputable def extrap (n : Nat) (pts : Nat → K) (e : K) (i : Fin n) : K := ∑ k : Fin n, legendre e k * (vander n pts)⁻¹ k i

/-- the extrapolation vector as an array -/
noncomputable def extrapVec (n : Nat) (pts : Nat → K) (e : K) (i : Nat) : K := if h : i < n then extrap n pts e ⟨i, h⟩ else 0

/-- Extension points `-1, solution points, 1` — `wx_factory/geometry/geometry.py` 30-34. -/
def extension (n : Nat) (pts : Nat → K) (i : Nat) : K := if i = 0 then -1 else if i ≤ n then pts (i - 1) else 1

/-- Differentiation matrix of the extension points (without the optional filter) — `operators.py` 85-99. -/
noncomputable def diffExt (n : Nat) (pts : Nat → K) : Nat → Nat → K := diffmat (n + 2) (extension n pts)

/-- `diff_solpt = diff_ext[1:-1, 1:-1]` — `operators.py` 141. -/
noncomputable def diffSolpt (n : Nat) (pts : Nat → K) (i j : Nat) : K := diffExt n pts (i + 1) (j + 1)

/-- `corr_west = diff_ext[1:-1, 0]` — `operators.py` 142, 171. -/
noncomputable def corrWest (n : Nat) (pts : Nat → K) (i : Nat) : K := diffExt n pts (i + 1) 0

/-- `corr_east = diff_ext[1:-1, -1]` — `operators.py` 142, 172. -/
noncomputable def corrEast (n : Nat) (pts : Nat → K) (i : Nat) : K := diffExt n pts (i + 1) (n + 1)

/-! ## Array helpers -/

/-- `xp.kron(a, b)` where `b` has `rb` rows and `cb` columns. -/
def kron (rb cb : Nat) (a b : Nat → Nat → K) : Nat → Nat → K := fun r c => a (r / rb) (c / cb) * b (r % rb) (c % cb)

/-- `xp.identity`. -/
def eye : Nat → Nat → K := fun r c => if r = c then 1 else 0

/-- a one-dimensional array used as a one-row matrix (what `kron` does with it) -/
def row (v : Nat → K) : Nat → Nat → K := fun _ c => v c

/-- `xp.vstack((a, b))` where `a` has `ra` rows. -/
def vstack (ra : Nat) (a b : Nat → Nat → K) : Nat → Nat → K := fun r c => if r < ra then a r c else b (r - ra) c

/-- `.T` -/
def tr (a : Nat → Nat → K) : Nat → Nat → K := fun r c => a c r

/-- `f @ a` with a vector of `m` entries. -/
def vecmul (m : Nat) (f : Nat → K) (a : Nat → Nat → K) : Nat → K := fun c => ∑ r ∈ Finset.range m, f r * a r c

/-! ## Operators on the `n × n` points of a two-dimensional element — `operators.py` 186-208 -/

/-- `derivative_x` -/
noncomputable def derivativeX2 (n : Nat) (d : Nat → Nat → K) := tr (kron n n eye d)
/-- `derivative_y`, `derivative_z` -/
noncomputable def derivativeY2 (n : Nat) (d : Nat → Nat → K) := tr (kron n n d eye)
/-- `extrap_x` -/
noncomputable def extrapX2 (n : Nat) (west east : Nat → K) := tr (vstack n (kron 1 n eye (row west)) (kron 1 n eye (row east)))
/-- `extrap_y`, `extrap_z` -/
noncomputable def extrapY2 (n : Nat) (south north : Nat → K) := tr (vstack n (kron n n (row south) eye) (kron n n (row north) eye))
/-- `correction_WE` -/
noncomputable def correctionWE2 (n : Nat) (west east : Nat → K) := vstack n (kron 1 n eye (row west)) (kron 1 n eye (row east))
/-- `correction_SN`, `correction_DU` -/
noncomputable def correctionSN2 (n : Nat) (down up : Nat → K) := vstack n (kron n n (row down) eye) (kron n n (row up) eye)

/-! ## Operators on the `n × n × n` points of a three-dimensional element — `operators.py` 152-184 -/

/-- `derivative_x` -/
noncomputable def derivativeX3 (n : Nat) (d : Nat → Nat → K) := tr (kron n n eye d)
/-- `derivative_y` -/
noncomputable def derivativeY3 (n : Nat) (d : Nat → Nat → K) := tr (kron (n * n) (n * n) eye (kron n n d eye))
/-- `derivative_z` -/
noncomputable def derivativeZ3 (n : Nat) (d : Nat → Nat → K) := tr (kron (n * n) (n * n) d eye)
/-- `extrap_x` -/
noncomputable def extrapX3 (n : Nat) (west east : Nat → K) :=
  tr (vstack (n * n) (kron 1 n eye (row west)) (kron 1 n eye (row east)))
/-- `extrap_y` -/
noncomputable def extrapY3 (n : Nat) (south north : Nat → K) :=
  tr (vstack (n * n) (kron n (n * n) eye (kron n n (row south) eye)) (kron n (n * n) eye (kron n n (row north) eye)))
/-- `extrap_z` -/
noncomputable def extrapZ3 (n : Nat) (down up : Nat → K) :=
  tr (vstack (n * n) (kron (n * n) (n * n) (row down) eye) (kron (n * n) (n * n) (row up) eye))
/-- `correction_WE` -/
noncomputable def correctionWE3 (n : Nat) (west east : Nat → K) :=
  vstack (n * n) (kron 1 n eye (row west)) (kron 1 n eye (row east))
/-- `correction_SN` -/
noncomputable def correctionSN3 (n : Nat) (south north : Nat → K) :=
  vstack (n * n) (kron n (n * n) eye (kron n n (row south) eye)) (kron n (n * n) eye (kron n n (row north) eye))
/-- `correction_DU` -/
noncomputable def correctionDU3 (n : Nat) (down up : Nat → K) :=
  vstack (n * n) (kron (n * n) (n * n) (row down) eye) (kron (n * n) (n * n) (row up) eye)

/-! ## Flux divergence of one element -/

/-- Corrected derivative along x1 of one 2D element: `f_x1 @ derivative_x + f_itf_x1 @ correction_WE` —
`wx_factory/rhs/rhs_dfr.py` 32-39, `wx_factory/rhs/rhs_sw.py` 126, 211.  `itf` holds the west values then the east values. -/
noncomputable def df1_2d (n : Nat) (pts : Nat → K) (f itf : Nat → K) (c : Nat) : K :=
  vecmul (n * n) f (derivativeX2 n (diffSolpt n pts)) c + vecmul (n + n) itf (correctionWE2 n (corrWest n pts) (corrEast n pts)) c

/-- Corrected derivative along the second direction — `rhs_dfr.py` 33, 41; `rhs_sw.py` 127, 212. -/
noncomputable def df2_2d (n : Nat) (pts : Nat → K) (f itf : Nat → K) (c : Nat) : K :=
  vecmul (n * n) f (derivativeY2 n (diffSolpt n pts)) c + vecmul (n + n) itf (correctionSN2 n (corrWest n pts) (corrEast n pts)) c

/-- the three corrected derivatives of a 3D element — `rhs_dfr.py` 32-33, 89, 109-111 -/
noncomputable def df1_3d (n : Nat) (pts : Nat → K) (f itf : Nat → K) (c : Nat) : K :=
  vecmul (n * n * n) f (derivativeX3 n (diffSolpt n pts)) c +
    vecmul (n * n + n * n) itf (correctionWE3 n (corrWest n pts) (corrEast n pts)) c
noncomputable def df2_3d (n : Nat) (pts : Nat → K) (f itf : Nat → K) (c : Nat) : K :=
  vecmul (n * n * n) f (derivativeY3 n (diffSolpt n pts)) c +
    vecmul (n * n + n * n) itf (correctionSN3 n (corrWest n pts) (corrEast n pts)) c
noncomputable def df3_3d (n : Nat) (pts : Nat → K) (f itf : Nat → K) (c : Nat) : K :=
  vecmul (n * n * n) f (derivativeZ3 n (diffSolpt n pts)) c +
    vecmul (n * n + n * n) itf (correctionDU3 n (corrWest n pts) (corrEast n pts)) c

/-- Tendency of a scalar in the Cartesian model: `-2/Δx1 df1 + -2/Δx3 df3` — `rhs_dfr.py` 36-45. -/
noncomputable def rhsCartesian (n : Nat) (pts : Nat → K) (Δx1 Δx3 : K) (f1 f3 itf1 itf3 : Nat → K) (c : Nat) : K :=
  df1_2d n pts f1 itf1 c * (-2 / Δx1) + df2_2d n pts f3 itf3 c * (-2 / Δx3)

/-- Tendency of a scalar on the 2D cubed sphere: `inv_sqrtG * (-df1 - df2)` — `rhs_sw.py` 238. -/
noncomputable def rhsSphere2d (n : Nat) (pts : Nat → K) (invSqrtG : Nat → K) (f1 f2 itf1 itf2 : Nat → K) (c : Nat) : K :=
  invSqrtG c * (-df1_2d n pts f1 itf1 c - df2_2d n pts f2 itf2 c)

/-- Tendency of a scalar on the 3D cubed sphere: `-inv_sqrtG * (df1 + df2 + df3)` — `rhs_dfr.py` 138. -/
noncomputable def rhsSphere3d (n : Nat) (pts : Nat → K) (invSqrtG : Nat → K) (f1 f2 f3 itf1 itf2 itf3 : Nat → K) (c : Nat) : K :=
  -invSqrtG c * (df1_3d n pts f1 itf1 c + df2_3d n pts f2 itf2 c + df3_3d n pts f3 itf3 c)

/-! ## Symmetry check — `operators.py` `check_skewcentrosymmetry` 836-863 -/

/-- The verdict of the check on an `n × n` matrix (exact comparison of entries). -/
def checkSkewCentro [DecidableEq K] (n : Nat) (m : Nat → Nat → K) : Bool :=
  let middle := if n % 2 = 0 then n / 2 else n / 2 + 1
  (n % 2 = 0 || m (middle - 1) (middle - 1) == 0) &&
    (List.range middle).all fun i => (List.range n).all fun j => m i j == -m (n - i - 1) (n - j - 1)

end WxVerif.Dfr
