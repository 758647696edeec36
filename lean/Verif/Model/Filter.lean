/-
Model of the filters of the operators: the exponential filter applied to the 3D state after every step, the exponential filter of the
differentiation matrix, and the sponge layer.
-/
import Verif.Model.Dfr
import Mathlib.Analysis.SpecialFunctions.Exp
import Mathlib.Analysis.SpecialFunctions.Log.Basic
import Mathlib.Analysis.SpecialFunctions.Trigonometric.Basic

namespace WxVerif.Filter

open WxVerif.Dfr

/-! ## The filter of the state -/

/-- `residual_modes[k]` — `wx_factory/geometry/operators.py` 216-223.  (`order` is an integer option; negative orders are not modelled.) -/
noncomputable def residual (n : Nat) (alpha : ℝ) (order : Nat) (cutoff : ℝ) (k : Nat) : ℝ :=
  if (k : ℝ) / ((n : ℝ) - 1) > cutoff then Real.exp (-alpha * (((k : ℝ) / ((n : ℝ) - 1) - cutoff) / (1 - cutoff)) ^ order) else 1

/-- `vander @ diag(modes) @ inv(vander)` — `operators.py` 227-233, and 823 for the second filter (`linalg.inv` is the exact inverse) -/
noncomputable def modalFilter (n : Nat) (pts : Nat → ℝ) (modes : Nat → ℝ) (i j : Nat) : ℝ :=
  if h : i < n ∧ j < n then ∑ k : Fin n, vander n pts ⟨i, h.1⟩ k * modes k * (vander n pts)⁻¹ k ⟨j, h.2⟩ else 0

/-- `make_filter` — `operators.py` 210-233 -/
noncomputable def makeFilter (n : Nat) (pts : Nat → ℝ) (alpha : ℝ) (order : Nat) (cutoff : ℝ) : Nat → Nat → ℝ :=
  modalFilter n pts (residual n alpha order cutoff)

/-- `a @ b` with `m` columns in `a` -/
def matmul (m : Nat) (a b : Nat → Nat → ℝ) : Nat → Nat → ℝ := fun r c => ∑ k ∈ Finset.range m, a r k * b k c

/-- `filter_x`, `filter_y`, `filter_z` — `operators.py` 116-118 -/
noncomputable def filterX (n : Nat) (F : Nat → Nat → ℝ) : Nat → Nat → ℝ := tr (kron n n eye F)
noncomputable def filterY (n : Nat) (F : Nat → Nat → ℝ) : Nat → Nat → ℝ := tr (kron (n * n) (n * n) eye (kron n n F eye))
noncomputable def filterZ (n : Nat) (F : Nat → Nat → ℝ) : Nat → Nat → ℝ := tr (kron (n * n) (n * n) F eye)

/-- `expfilter_new` — `operators.py` 114-119 -/
noncomputable def expfilterNew (n : Nat) (F : Nat → Nat → ℝ) : Nat → Nat → ℝ :=
  matmul (n * n * n) (matmul (n * n * n) (filterX n F) (filterY n F)) (filterZ n F)

/-- `apply_filter_3d` on one variable of one element: `((sqrtG * Q) @ expfilter_new) * inv_sqrtG` — `operators.py` 257-261 -/
noncomputable def applyFilter3d (n : Nat) (F : Nat → Nat → ℝ) (sqrtG invSqrtG Q : Nat → ℝ) (c : Nat) : ℝ :=
  vecmul (n * n * n) (fun r => sqrtG r * Q r) (expfilterNew n F) c * invSqrtG c

/-- `apply_filters` without a sponge: the filter is switched off when the element has a single point — `operators.py` 101-113, 235-239 -/
noncomputable def applyFilters (n : Nat) (pts : Nat → ℝ) (expfilterApply : Bool) (alpha : ℝ) (order : Nat) (cutoff : ℝ)
    (sqrtG invSqrtG Q : Nat → ℝ) (c : Nat) : ℝ :=
  if expfilterApply ∧ ¬ n < 2 then applyFilter3d n (makeFilter n pts alpha order cutoff) sqrtG invSqrtG Q c else Q c

/-! ## The filter of the differentiation matrix -/

/-- `alpha = -log(eps)`, `eps = 2⁻⁵²` — `operators.py` 815 -/
noncomputable def logEps : ℝ := -Real.log (2⁻¹ ^ 52)

/-- Diagonal of `F` in `filter_exponential` — `operators.py` 817-820.  (`sympy.Rational(i - Nc, N - Nc)`; `Nc < N` is assumed by the users of
this definition, for `Nc = N` the code computes with an undefined number.) -/
noncomputable def sigma (N Nc s : Nat) (i : Nat) : ℝ :=
  if Nc ≤ i then Real.exp (-logEps * (((i - Nc : ℕ) : ℝ) / ((N - Nc : ℕ) : ℝ)) ^ s) else 1

/-- `filter_exponential` on the extension points — `operators.py` 90-94, 790-825 (`vandermonde` evaluates the same Legendre polynomials as
`legvander`, 760-770) -/
noncomputable def filterExponential (n : Nat) (pts : Nat → ℝ) (Nc s : Nat) : Nat → Nat → ℝ :=
  modalFilter (n + 2) (extension n pts) (sigma (n + 1) Nc s)

/-- `Nc = floor(filter_cutoff * N)` — `operators.py` 92-93 -/
noncomputable def cutoffMode (n : Nat) (cutoff : ℝ) : Nat := ⌊cutoff * ((n + 1 : ℕ) : ℝ)⌋₊

/-- `diff_ext = filter @ diff` — `operators.py` 89-95.  Simplification: entries below `1e-20` are not set to zero. -/
noncomputable def diffExtFiltered (n : Nat) (pts : Nat → ℝ) (Nc s : Nat) : Nat → Nat → ℝ :=
  matmul (n + 2) (filterExponential n pts Nc s) (diffExt n pts)

/-- The corrected derivative along a line with the filtered matrix: `diff_solpt`, `corr_west`, `corr_east` are its parts —
`operators.py` 140-142 -/
noncomputable def lineDerivFiltered (n : Nat) (pts : Nat → ℝ) (Nc s : Nat) (f : Nat → ℝ) (left right : ℝ) (i : Nat) : ℝ :=
  ∑ a ∈ Finset.range n, diffExtFiltered n pts Nc s (i + 1) (a + 1) * f a + diffExtFiltered n pts Nc s (i + 1) 0 * left
    + diffExtFiltered n pts Nc s (i + 1) (n + 1) * right

/-! ## The sponge -/

/-- Damping rate at height `z` — `operators.py` 122-138 -/
noncomputable def spongeBeta (z1 zscale tscale z : ℝ) : ℝ :=
  let zs := z1 - zscale
  if z ≥ zs then 0 + 1 / tscale * Real.sin (1 / 2 * Real.pi * (z - zs) / (z1 - zs)) ^ 2 else 0

/-- New vertical momentum — `operators.py` 252-253 -/
noncomputable def spongeUpdate (beta dt w : ℝ) : ℝ := 1 / (1 + beta * dt) * w

end WxVerif.Filter
