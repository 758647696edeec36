import Mathlib.Data.Real.Basic
import Mathlib.Algebra.BigOperators.Group.Finset.Basic

/-!
# Specification: totals of a field over the rectangular domain of the Cartesian model

`ws i` are the weights of a quadrature rule on `[-1, 1]` with `n` nodes; an element has sides `Δx1` and `Δx3`.
-/

namespace WxVerif.Spec.CartesianBudget

/-- the integral over the domain of the field with the values `f ek ei c` at solution point `c` (number `j n + i`) of the
element in row `ek` and column `ei` -/
noncomputable def total (n nx nz : Nat) (ws : Nat → ℝ) (Δx1 Δx3 : ℝ) (f : Nat → Nat → Nat → ℝ) : ℝ :=
  ∑ ek ∈ Finset.range nz, ∑ ei ∈ Finset.range nx, ∑ j ∈ Finset.range n, ∑ i ∈ Finset.range n,
    (Δx1 / 2 * ws i) * (Δx3 / 2 * ws j) * f ek ei (j * n + i)

/-- the integral along a vertical side, of the values `p ek l` at its points -/
noncomputable def sideV (n nz : Nat) (ws : Nat → ℝ) (Δx3 : ℝ) (p : Nat → Nat → ℝ) : ℝ :=
  ∑ ek ∈ Finset.range nz, ∑ l ∈ Finset.range n, (Δx3 / 2 * ws l) * p ek l

/-- the integral along a horizontal side -/
noncomputable def sideH (n nx : Nat) (ws : Nat → ℝ) (Δx1 : ℝ) (p : Nat → Nat → ℝ) : ℝ :=
  ∑ ei ∈ Finset.range nx, ∑ l ∈ Finset.range n, (Δx1 / 2 * ws l) * p ei l

end WxVerif.Spec.CartesianBudget
