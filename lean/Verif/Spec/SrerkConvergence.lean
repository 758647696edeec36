import Verif.Model.Srerk
import Verif.Spec.EpiConvergence

/-!
# Specification: convergence of the runs of a stiffness-resilient exponential Runge-Kutta integrator
-/

namespace WxVerif.SpecSrerkConvergence

open SpecEpiConvergence

variable {V : Type*} [NormedAddCommGroup V] [NormedSpace ℝ V]

/-- the sum `Σ_k τ^k φ_k(τ A) v_k` that the exponential solver stands for at the node `τ` -/
noncomputable def phiAt (τ : ℝ) (A : V →L[ℝ] V) (vec : List V) : V := ∑ k ∈ Finset.range vec.length, τ ^ k • phi k (τ • A) (vec.getD k 0)

/-- What the integrator calls: the right-hand side is `f`; the product with the Jacobian and the exponential solver are accurate to `tol`,
    absolutely or relative to their arguments, at the states within `ρ` of the exact solution; the solver returns one row per node. -/
structure Accurate (f : V → V) (y : ℝ → V) (T ρ tol : ℝ) (ext : Srerk.Ext ℝ V) : Prop where
  rhs : ext.rhs = f
  jac : ∀ Q, (∃ t ∈ Set.Icc 0 T, ‖Q - y t‖ ≤ ρ) → ∀ v, ‖ext.jac Q v - fderiv ℝ f Q v‖ ≤ tol * (1 + ‖v‖)
  rows : ∀ nodes Q dt vec, (ext.phi nodes Q dt vec).length = nodes.length
  phi : ∀ Q, (∃ t ∈ Set.Icc 0 T, ‖Q - y t‖ ≤ ρ) → ∀ dt, 0 < dt → dt ≤ T → ∀ nodes : List ℝ, (∀ τ ∈ nodes, 0 < τ ∧ τ ≤ 1) → ∀ vec, ∀ i < nodes.length,
    ‖(ext.phi nodes Q dt vec).getD i 0 - phiAt (nodes.getD i 0) (dt • fderiv ℝ f Q) vec‖ ≤ tol * (1 + (vec.map norm).sum)

/-- nodes of an integrator with stages of the given sizes: distinct numbers of `(0, 1]` in each stage, and the end of the step in the last one -/
structure Nodes (sizes : List Nat) (c : List (List ℝ)) : Prop where
  sizes : c.map List.length = sizes
  distinct : ∀ nodes ∈ c, nodes.Nodup
  inside : ∀ nodes ∈ c, ∀ τ ∈ nodes, 0 < τ ∧ τ ≤ 1
  last : c.getLast? = some [1]

end WxVerif.SpecSrerkConvergence
