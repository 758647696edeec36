import Mathlib.Analysis.Calculus.ContDiff.Defs
import Mathlib.Analysis.Calculus.Deriv.Basic

/-!
# Specification: convergence of a run to the exact solution when the time step is refined
-/

namespace WxVerif.SpecConvergence

variable {V : Type*} [NormedAddCommGroup V] [NormedSpace ℝ V]

/-- `y` solves `y' = f(y)` up to the time `T`, and `f` is `p` times continuously differentiable at each of its states -/
structure SmoothSolution (f : V → V) (y : ℝ → V) (T : ℝ) (p : Nat) : Prop where
  solves : ∀ t ∈ Set.Icc 0 T, HasDerivWithinAt y (f (y t)) (Set.Icc 0 T) t
  smooth : ∀ t ∈ Set.Icc 0 T, ContDiffAt ℝ (p : WithTop ℕ∞) f (y t)

/-- a right-hand side that depends on time, as one that acts on the pair of time and state -/
def withTime (f : ℝ → V → V) (x : ℝ × V) : ℝ × V := (1, f x.1 x.2)

/-- the time reached after `n` steps of sizes `dt 0, dt 1, …` -/
def time (dt : Nat → ℝ) (n : Nat) : ℝ := ∑ i ∈ Finset.range n, dt i

/-- every run with steps of at most `h`, constant or not, that starts from the exact initial state stays within `B` of the exact
    solution, at every step up to the time `T` -/
def RunsWithin (step : V → ℝ → V) (y : ℝ → V) (T h B : ℝ) : Prop :=
  ∀ (dt : Nat → ℝ) (Q : Nat → V), (∀ n, 0 < dt n ∧ dt n ≤ h) → Q 0 = y 0 → (∀ n, Q (n + 1) = step (Q n) (dt n)) →
    ∀ n, time dt n ≤ T → ‖Q n - y (time dt n)‖ ≤ B

/-- the runs of the scheme converge to the exact solution with order `p` -/
def Converges (step : V → ℝ → V) (y : ℝ → V) (T : ℝ) (p : Nat) : Prop :=
  ∃ C h0 : ℝ, 0 < h0 ∧ ∀ h, 0 < h → h ≤ h0 → RunsWithin step y T h (C * h ^ p)

/-- a nonlinear solver that finds the zeros in its neighbourhood: whenever there is one within `ρ` of the first guess, it returns a
    point within `ρ` of the first guess where the function is at most `tol` -/
def LocalSolver (ρ tol : ℝ) (newton : (V → V) → V → V) : Prop :=
  ∀ (F : V → V) (x0 : V), (∃ z, ‖z - x0‖ ≤ ρ ∧ F z = 0) → ‖newton F x0 - x0‖ ≤ ρ ∧ ‖F (newton F x0)‖ ≤ tol

/-- the runs of a scheme that uses a nonlinear solver converge with order `p`, up to the tolerance of the solver -/
def ConvergesWithSolver (step : ((V → V) → V → V) → V → ℝ → V) (y : ℝ → V) (T : ℝ) (p : Nat) : Prop :=
  ∃ C h0 ρ : ℝ, 0 < h0 ∧ 0 < ρ ∧ ∀ h tol, 0 < h → h ≤ h0 → 0 ≤ tol → tol ≤ h0 → ∀ newton, LocalSolver ρ tol newton →
    RunsWithin (step newton) y T h (C * (h ^ p + tol))

/-- a linear solver with the relative tolerance `tol`: whenever there is a solution within `ρ` of the first guess, it returns a point within `ρ` of
    the first guess whose residual is at most `tol` times the right-hand side -/
def RelativeSolver (ρ tol : ℝ) (linear : (V → V) → V → V → V) : Prop :=
  ∀ (A : V → V) (b x0 : V), (∃ z, ‖z - x0‖ ≤ ρ ∧ A z = b) →
    ‖linear A b x0 - x0‖ ≤ ρ ∧ ‖A (linear A b x0) - b‖ ≤ tol * ‖b‖

end WxVerif.SpecConvergence
