import Mathlib.Algebra.Polynomial.Eval.Defs
import Mathlib.Algebra.Polynomial.Eval.Algebra
import Mathlib.Data.Nat.Factorial.Basic
import Mathlib.Algebra.Algebra.Basic
import Mathlib.Algebra.Order.Field.Basic

/-!
# Specification: accuracy and stability notions for time integrators
-/

namespace WxVerif.Schemes

open Polynomial

/-- Linear accuracy of order `p`: on `y' = λ y` the step satisfies `D(λ dt) Q' = N(λ dt) Q` for two polynomials with
    `D(0) = 1`, and `D(z) exp(z)` and `N(z)` agree up to `z^p` (`Σ_j D_j / (m - j)!` is the coefficient of the product). -/
def AccurateOnLinear {K : Type*} [Field K] (p : Nat) (S : (K → K) → K → K → K) : Prop :=
  ∃ N D : K[X], D.coeff 0 = 1 ∧
    (∀ lam Q dt, dt ≠ 0 → D.eval (lam * dt) ≠ 0 →
      D.eval (lam * dt) * S (fun y => lam * y) Q dt = N.eval (lam * dt) * Q) ∧
    ∀ m ≤ p, ∑ j ∈ Finset.range (m + 1), D.coeff j / ((m - j).factorial : K) = N.coeff m

/-- a constant right-hand side is integrated exactly -/
def Consistent {K V : Type*} [Field K] [AddCommGroup V] [Module K V] (S : (V → V) → V → K → V) : Prop :=
  ∀ (c Q : V) (dt : K), dt ≠ 0 → S (fun _ => c) Q dt = Q + dt • c

/-- a state at which the right-hand side vanishes is not changed -/
def Steady {K V : Type*} [Zero V] (S : (V → V) → V → K → V) : Prop :=
  ∀ (rhs : V → V) (Q : V) (dt : K), rhs Q = 0 → S rhs Q dt = Q

/-- a nonlinear solver that returns a zero whenever there is one -/
def ExactNewton {V : Type*} [Zero V] (newton : (V → V) → V → V) : Prop :=
  ∀ (F : V → V) (x0 : V), (∃ x, F x = 0) → F (newton F x0) = 0

/-- a linear solver that returns a solution whenever there is one -/
def ExactLinear {V : Type*} (linear : (V → V) → V → V → V) : Prop :=
  ∀ (A : V → V) (b x0 : V), (∃ x, A x = b) → A (linear A b x0) = b

/-- a functional that does not exceed the weighted mean of its values -/
def ConvexFunctional {K V : Type*} [Field K] [LinearOrder K] [AddCommGroup V] [Module K V] (G : V → K) : Prop :=
  ∀ (a b : K) (u v : V), 0 ≤ a → 0 ≤ b → a + b = 1 → G (a • u + b • v) ≤ a * G u + b * G v

/-- the Taylor polynomial of degree two of the flow of `y' = A y` -/
def taylor2 {K R : Type*} [Field K] [Ring R] [Algebra K R] (A : R) (y : R) (h : K) : R := y + h • (A * y) + (h ^ 2 / 2) • (A * (A * y))

end WxVerif.Schemes
