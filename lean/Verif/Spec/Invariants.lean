import Mathlib.Algebra.Module.LinearMap.Defs
import Mathlib.Algebra.Module.Submodule.Ker

/-!
# Specification: linear conserved quantities

`M` is a linear quantity of the state, such as the total mass.
-/

namespace WxVerif.Spec.Invariants

variable {K V E : Type*} [Field K] [AddCommGroup V] [Module K V] [AddCommGroup E] [Module K E]

/-- the rate of change of `M` is zero for every state -/
def ConservedBy (M : V →ₗ[K] E) (rhs : V → V) : Prop := ∀ q, M (rhs q) = 0

/-- a step keeps `M` -/
def Keeps (M : V →ₗ[K] E) (step : V → V) : Prop := ∀ q, M (step q) = M q

/-- A nonlinear solver keeps `M`: if the residual of every vector with the value of the first guess contains none of `M`, the
answer has the value of the first guess. -/
def SolverKeeps (M : V →ₗ[K] E) (newton : (V → V) → V → V) : Prop :=
  ∀ F x0, (∀ x, M x = M x0 → M (F x) = 0) → M (newton F x0) = M x0

/-- The same for a linear solver with first guess. -/
def LinearKeeps (M : V →ₗ[K] E) (linear : (V → V) → V → V → V) : Prop :=
  ∀ A b x0, (∀ v, M v = 0 → M (A v) = 0) → (∀ x, M x = M x0 → M (b - A x) = 0) → M (linear A b x0) = M x0

end WxVerif.Spec.Invariants
