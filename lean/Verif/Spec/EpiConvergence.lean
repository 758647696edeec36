import Verif.Model.Epi
import Verif.Spec.Multistep
import Verif.Spec.Convergence
import Mathlib.Analysis.Normed.Operator.BoundedLinearMaps
import Mathlib.Topology.Algebra.InfiniteSum.Basic

/-!
# Specification: convergence of the runs of an exponential propagation integrator
-/

namespace WxVerif.SpecEpiConvergence

open Epi SpecConvergence Multistep

variable {V : Type*} [NormedAddCommGroup V] [NormedSpace ℝ V]

/-- the function `φ_k(z) = Σ_j z^j / (j + k)!` of a linear operator, applied to a vector -/
noncomputable def phi (k : Nat) (A : V →L[ℝ] V) (v : V) : V := ∑' j : Nat, ((j + k).factorial : ℝ)⁻¹ • (A ^ j) v

/-- the sum `Σ_k φ_k(A) v_k` that the exponential solver stands for -/
noncomputable def phiSum (A : V →L[ℝ] V) (vec : List V) : V := ∑ k ∈ Finset.range vec.length, phi k A (vec.getD k 0)

/-- What the integrator calls: the right-hand side is `f`; the product with the Jacobian and the exponential solver are accurate to `tol`,
    absolutely or relative to their arguments, at the states within `ρ` of the exact solution; the start-up method is the exponential
    propagation method of order two with the same solver. -/
structure Accurate (f : V → V) (y : ℝ → V) (T ρ tol : ℝ) (ext : Ext ℝ V) : Prop where
  rhs : ext.rhs = f
  jac : ∀ Q, (∃ t ∈ Set.Icc 0 T, ‖Q - y t‖ ≤ ρ) → ∀ v, ‖ext.jac Q v - fderiv ℝ f Q v‖ ≤ tol * (1 + ‖v‖)
  phi : ∀ Q, (∃ t ∈ Set.Icc 0 T, ‖Q - y t‖ ≤ ρ) → ∀ dt, 0 < dt → dt ≤ T → ∀ vec,
    ‖ext.phi Q dt vec - phiSum (dt • fderiv ℝ f Q) vec‖ ≤ tol * (1 + (vec.map norm).sum)
  start : ∀ Q dt, ext.initStep Q dt = Q + dt • ext.phi Q dt [0, ext.rhs Q]

/-- two consecutive steps are equal or the integrator sees that they differ -/
def Stepwise (dts : Nat → ℝ) : Prop := ∀ n, dts n = dts (n + 1) ∨ |dts n - dts (n + 1)| > 1 / 10 ^ 10

open Classical in
/-- how many of the first `n` calls are made with fewer than `m` earlier states of the same step: the start-up calls -/
noncomputable def starts (dts : Nat → ℝ) (m n : Nat) : Nat := ((Finset.range n).filter fun j => ¬ Uninterrupted dts j m).card

end WxVerif.SpecEpiConvergence
