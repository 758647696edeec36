import Mathlib.Analysis.Normed.Algebra.Exponential
import Mathlib.Analysis.Normed.Operator.Mul

/-!
# Specification of the exponential solvers: the combination of `φ` functions
-/

namespace WxVerif.Spec.Krylov

variable {V : Type*} [NormedAddCommGroup V] [NormedSpace ℝ V]

/-- `φ_j(M) = Σ_i M^i / (i + j)!` -/
noncomputable def phi (j : Nat) (M : V →L[ℝ] V) : V →L[ℝ] V := ∑' i : Nat, (((i + j).factorial : ℝ)⁻¹) • M ^ i

/-- `Σ_{j ≤ p} t^j φ_j(tA) u_j`, the solution of `w' = A w + u_1 + t u_2 + … + t^{p-1}/(p-1)! u_p` from `w(0) = u_0` -/
noncomputable def phiSum (p : Nat) (A : V →L[ℝ] V) (u : Nat → V) (t : ℝ) : V :=
  ∑ j ∈ Finset.range (p + 1), t ^ j • phi j (t • A) (u j)

end WxVerif.Spec.Krylov
