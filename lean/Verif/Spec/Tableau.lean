import Verif.Spec.RootedTree
import Verif.Model.Butcher
import Mathlib.Algebra.Order.Field.Rat

/-!
# Specification: the order of the main and of the embedded method of a tableau
-/

namespace WxVerif.RungeKutta

open WxVerif.RootedTree

/-- the rational number denoted by a literal fraction -/
def val (x : Frac) : ℚ := (x.1 : ℚ) / (x.2 : ℚ)

/-- entry `i` of a list of literal fractions, zero outside -/
def at1 (l : List Frac) (i : Nat) : ℚ := val (l.getD i (0, 1))

/-- the attribute `E` of the class: the array of the class body, minus `B` on the first stages if the class body
    goes on with `E[:-1] -= B` -/
def errorWeight (m : Method) (i : Nat) : ℚ := at1 m.Ehat i - if m.subB then at1 m.B i else 0

/-- the propagated solution has order `p` (conditions up to `tol`) -/
def MainOrder (m : Method) (p : Nat) (tol : ℚ) : Prop :=
  HasOrder (fun i j => at1 (m.A.getD i []) j) (at1 m.B) m.nStages p tol

/-- The solution with the error estimate added, `y + h Σ (B + E) K`, has order `p` (conditions up to `tol`).
    The last stage is the right-hand side at the new state: its row is `B`. -/
def EmbeddedOrder (m : Method) (p : Nat) (tol : ℚ) : Prop :=
  HasOrder (fun i j => at1 ((m.A ++ [m.B]).getD i []) j) (fun i => at1 m.B i + errorWeight m i) (m.nStages + 1) p tol

/-- every node is the sum of its row -/
def RowSums (m : Method) (tol : ℚ) : Prop :=
  ∀ i < m.nStages, |∑ j ∈ Finset.range m.nStages, at1 (m.A.getD i []) j - at1 m.C i| ≤ tol

end WxVerif.RungeKutta
