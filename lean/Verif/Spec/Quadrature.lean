import Mathlib.Algebra.Polynomial.Eval.Defs
import Mathlib.Algebra.Polynomial.Degree.Defs
import Mathlib.MeasureTheory.Integral.IntervalIntegral.Basic

/-!
# Specification: quadrature rules on [-1, 1]
-/

namespace WxVerif.Quad

/-- The weighted sum of a function over the nodes. -/
noncomputable def quad (nodes weights : List ℝ) (f : ℝ → ℝ) : ℝ := (List.zipWith (fun x w => w * f x) nodes weights).sum

/-- The rule integrates every polynomial of degree at most `d` exactly over [-1, 1]. -/
def ExactTo (nodes weights : List ℝ) (d : Nat) : Prop :=
  ∀ P : Polynomial ℝ, P.natDegree ≤ d → quad nodes weights (fun x => P.eval x) = ∫ x in (-1 : ℝ)..1, P.eval x

/-- What is expected of a rule with `n` nodes. -/
structure IsGaussRule (n : Nat) (nodes weights : List ℝ) : Prop where
  nodes_length : nodes.length = n
  weights_length : weights.length = n
  increasing : nodes.Pairwise (· < ·)
  inside : ∀ x ∈ nodes, -1 < x ∧ x < 1
  mirror : nodes.reverse = nodes.map fun x => -x
  weights_mirror : weights.reverse = weights
  weights_pos : ∀ w ∈ weights, 0 < w
  exact : ExactTo nodes weights (2 * n - 1)
  sharp : ¬ExactTo nodes weights (2 * n)

end WxVerif.Quad
