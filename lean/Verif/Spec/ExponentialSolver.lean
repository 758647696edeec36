import Verif.Spec.EpiConvergence
import Verif.Model.Schemes

/-!
# Specification: an exponential solver for one part of the equations
-/

namespace WxVerif.SpecExponentialSolver

open Schemes SpecEpiConvergence

variable {V : Type*} [NormedAddCommGroup V] [NormedSpace ℝ V]

/-- Products with the Jacobian of `g`, accurate to `tol` at the states within `ρ` of the exact solution: the products with two vectors of size at most `R` differ
    as the exact ones do, up to `tol` relative to the difference of the vectors. -/
structure AccurateProducts (g : V → V) (y : ℝ → V) (T ρ R tol : ℝ) (jac : V → V → V) : Prop where
  zero : ∀ Q, (∃ t ∈ Set.Icc 0 T, ‖Q - y t‖ ≤ ρ) → jac Q 0 = 0
  diff : ∀ Q, (∃ t ∈ Set.Icc 0 T, ‖Q - y t‖ ≤ ρ) → ∀ v w, ‖v‖ ≤ R → ‖w‖ ≤ R → ‖jac Q v - jac Q w - fderiv ℝ g Q (v - w)‖ ≤ tol * ‖v - w‖

/-- At the states within `ρ` of the exact solution, the exponential solver, given the products `jF` and `jI` with the Jacobians of `f` and `fI`, returns `φ_0(dt J) v0 + φ_1(dt J) v1` with the Jacobian `J` of the explicit part `f - fI`, up to `tol` absolutely or relative to its arguments. -/
def ExponentialSolver (f fI : V → V) (y : ℝ → V) (T ρ tol : ℝ) (jF jI : V → V → V) (solver : Phi V) : Prop :=
  ∀ Q, (∃ t ∈ Set.Icc 0 T, ‖Q - y t‖ ≤ ρ) → ∀ dt, 0 < dt → dt ≤ T → ∀ v0 v1,
    ‖solver (fun v => matvecStep jF Q dt v - matvecStep jI Q dt v) v0 v1 - phiSum (dt • (fderiv ℝ f Q - fderiv ℝ fI Q)) [v0, v1]‖ ≤
      tol * (1 + ‖v0‖ + ‖v1‖)

end WxVerif.SpecExponentialSolver
