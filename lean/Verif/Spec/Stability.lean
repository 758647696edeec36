import Mathlib.Analysis.InnerProductSpace.Basic

/-!
# Specification: stability of time integrators

Real states with an energy (an inner product).  A right-hand side is dissipative when the difference of two solutions of
`y' = rhs y` never grows, which for the inner product is `⟪rhs x - rhs y, x - y⟫ ≤ 0`.
-/

namespace WxVerif.Stability

variable {V : Type*} [NormedAddCommGroup V] [InnerProductSpace ℝ V]

/-- two solutions of `y' = rhs y` never drift apart -/
def Dissipative (rhs : V → V) : Prop := ∀ x y, inner ℝ (rhs x - rhs y) (x - y) ≤ 0

/-- two solutions of `y' = rhs y` approach each other at least like `exp (-m t)` -/
def Damping (m : ℝ) (rhs : V → V) : Prop := ∀ x y, inner ℝ (rhs x - rhs y) (x - y) ≤ -m * ‖x - y‖ ^ 2

/-- the equations of the implicit integrators have a solution: `x = Q + c rhs x`, for every `Q` and every `c ≥ 0` -/
def Solvable (rhs : V → V) : Prop := ∀ (Q : V) (c : ℝ), 0 ≤ c → ∃ x, x = Q + c • rhs x

/-- a nonlinear solver whose answer leaves a residual of at most `tol`, when the equation has a solution -/
def AccurateNewton (tol : ℝ) (newton : (V → V) → V → V) : Prop :=
  ∀ (F : V → V) (x0 : V), (∃ x, F x = 0) → ‖F (newton F x0)‖ ≤ tol

/-- a step after which two states are never further apart than before -/
def Contractive (step : V → V) : Prop := ∀ x y, ‖step x - step y‖ ≤ ‖x - y‖

end WxVerif.Stability
