import Mathlib.Data.Matrix.Mul
import Mathlib.LinearAlgebra.Matrix.NonsingularInverse
import Mathlib.Data.Real.Basic

/-!
# Model of the numerically computed Christoffel symbols and of the metric forcing

At one point.  `s` is `sqrtG`, `h` is `H_contra`, `g c a b` is `grad_sqrtG_metric_contra`, the discrete
derivative in direction `c` of `sqrtG · h^{ab}`.  Indices run over `Fin 3`, as in the code (`range(3)`).
-/

namespace WxVerif.Christoffel3D

/-- Entry of the linear operator `c_lhs` in row `(a, b, c)` and column `(e, f, q)` —
`wx_factory/geometry/metric3d.py` 942-949: the three `+=`/`-=` updates of the loop over `d`. -/
def lhs (s : ℝ) (h : Matrix (Fin 3) (Fin 3) ℝ) (a b c e f q : Fin 3) : ℝ :=
  ∑ d : Fin 3,
    ((if (e, f, q) = (d, c, d) then s * h a b else 0)
      - (if (e, f, q) = (a, d, c) then s * h d b else 0)
      - (if (e, f, q) = (b, c, d) then s * h a d else 0))

/-- Right-hand side `c_rhs` — `metric3d.py` 945. -/
def rhs (g : Fin 3 → Matrix (Fin 3) (Fin 3) ℝ) (a b c : Fin 3) : ℝ := g c a b

/-- `Γ` (`space_christoffel`, index order `d, e, f`) is what the linear solver returns: a solution of the
27 × 27 system — `metric3d.py` 955-967.  The solver itself (LAPACK) is trusted to return a solution of a
regular system. -/
def Solves (s : ℝ) (h : Matrix (Fin 3) (Fin 3) ℝ) (g : Fin 3 → Matrix (Fin 3) (Fin 3) ℝ)
    (Γ : Fin 3 → Fin 3 → Fin 3 → ℝ) : Prop :=
  ∀ a b c, ∑ e, ∑ f, ∑ q, lhs s h a b c e f q * Γ e f q = rhs g a b c

/-- `compute_forcing_1` — `wx_factory/pde/pde_euler_cubesphere.py` 10-24; the same formula in
`pde/kernels/forcing.hpp` 6-24.  `c0` are the three rotation symbols; the six spatial symbols are the stored
ones (`space_christoffel[a, i, j]` with `i ≤ j`, `metric3d.py` 977-996), the metric entries likewise. -/
def forcing1 (r : ℝ) (u : Fin 3 → ℝ) (p : ℝ) (c0 : Fin 3 → ℝ) (c11 c12 c13 c22 c23 c33 h11 h12 h13 h22 h23 h33 : ℝ) : ℝ :=
  2 * r * (c0 0 * u 0 + c0 1 * u 1 + c0 2 * u 2)
    + c11 * (r * u 0 * u 0 + h11 * p)
    + 2 * c12 * (r * u 0 * u 1 + h12 * p)
    + 2 * c13 * (r * u 0 * u 2 + h13 * p)
    + c22 * (r * u 1 * u 1 + h22 * p)
    + 2 * c23 * (r * u 1 * u 2 + h23 * p)
    + c33 * (r * u 2 * u 2 + h33 * p)

/-- Forcing of the momentum equation `a` — `pde_euler_cubesphere.py` 44-53, 233-275. -/
def forcing (h : Matrix (Fin 3) (Fin 3) ℝ) (Γ0 : Matrix (Fin 3) (Fin 3) ℝ) (Γ : Fin 3 → Fin 3 → Fin 3 → ℝ)
    (r : ℝ) (u : Fin 3 → ℝ) (p : ℝ) (a : Fin 3) : ℝ :=
  forcing1 r u p (fun b => Γ0 a b) (Γ a 0 0) (Γ a 0 1) (Γ a 0 2) (Γ a 1 1) (Γ a 1 2) (Γ a 2 2)
    (h 0 0) (h 0 1) (h 0 2) (h 1 1) (h 1 2) (h 2 2)

/-- A point where fields are known together with the neighbours entering the discrete derivative:
the derivative in direction `c` is a linear functional `D c` of the field (interior values times the
differentiation matrix plus interface values times the correction matrix —
`rhs_dfr.py` 84-120, `operators.py` `comma_i/j/k`).  Momentum flux of a fluid at rest: `√g h^{ac} p` —
`pde_euler_cubesphere.py` 107-123.  Tendency of the momentum `a` without gravity —
`rhs_dfr.py` 134-139, 304-305.  The vertical momentum is differentiated in the split form
`p · D(√g h^{3c}) + p √g h^{3c} D(log p)` (`rhs_dfr.py` 115-132). -/
noncomputable def restTendency {E : Type} [AddCommGroup E] [Module ℝ E] (D : Fin 3 → E →ₗ[ℝ] ℝ)
    (sh : Fin 3 → Fin 3 → E) (logp : E) (s : ℝ) (h Γ0 : Matrix (Fin 3) (Fin 3) ℝ) (Γ : Fin 3 → Fin 3 → Fin 3 → ℝ)
    (r p : ℝ) (a : Fin 3) : ℝ :=
  (if a = 2 then
    -(1 / s) * ∑ c, (p * D c (sh a c) + p * (s * h a c) * D c logp)
  else
    -(1 / s) * ∑ c, D c (p • sh a c)) - forcing h Γ0 Γ r 0 p a

end WxVerif.Christoffel3D
