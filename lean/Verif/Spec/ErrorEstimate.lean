import Verif.Model.RungeKutta
import Mathlib.Algebra.BigOperators.Group.Finset.Basic
import Mathlib.Algebra.Module.BigOperators

/-!
# Specification: the two solutions of an embedded Runge-Kutta step

Written with sums over the stages; nothing of the loop of the solver is used. `integrators/explicit_runge_kutta.py`
lines 343–372.
-/

namespace WxVerif.SpecErrorEstimate

open WxVerif.RungeKutta

variable {V : Type*} [AddCommGroup V] [Module ℝ V]

/-- `K` are the derivatives of one step of size `h` from `y` at time `t`: the first one is `k0`, the others are
    taken at the nodes at the combinations of the earlier ones with the rows of the tableau, and the derivative
    number `nStages` is taken at the end of the step at the state `y'` -/
structure StageDerivatives (p : Problem V) (t h : ℝ) (y k0 y' : V) (K : Nat → V) : Prop where
  first : K 0 = k0
  stage : ∀ i, 0 < i → i < p.nStages → K i = p.f (t + p.C i * h) (y + h • ∑ j ∈ Finset.range i, p.A i j • K j)
  last : K p.nStages = p.f (t + h) y'

/-- the solution of the step with the weights `w` of the first `n` derivatives -/
noncomputable def solution (h : ℝ) (y : V) (w : Nat → ℝ) (n : Nat) (K : Nat → V) : V :=
  y + h • ∑ i ∈ Finset.range n, w i • K i

/-- the weights of the solution the step is compared with: the weights of the step less those of the error
    estimate; the derivative at the end of the step has no weight in the step -/
noncomputable def compared (p : Problem V) (i : Nat) : ℝ := (if i < p.nStages then p.B i else 0) - p.E i

end WxVerif.SpecErrorEstimate
