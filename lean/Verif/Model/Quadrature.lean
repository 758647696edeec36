import Mathlib.Analysis.SpecialFunctions.Sqrt

/-!
# Model of the Gauss–Legendre rules
-/

namespace WxVerif.Quad

open Real

/-- What `gauss_legendre` does: return nodes and weights, raise, or ask SciPy. -/
inductive Result where
  | rule (nodes weights : List ℝ)
  | invalid
  | scipy (n : Nat)

/-- `wx_factory/geometry/quadrature.py` 11-72.  The symbolic points are modelled by the real numbers they
denote (their conversion to floating point is not modelled); orders above 5 come from SciPy and are outside the model. -/
noncomputable def gaussLegendre (n : Int) : Result :=
  if n ≤ 5 then
    if n = 1 then .rule [0] [2]
    else if n = 2 then .rule [-1 / √3, 1 / √3] [1, 1]
    else if n = 3 then .rule [-√(3 / 5), 0, √(3 / 5)] [5 / 9, 8 / 9, 5 / 9]
    else if n = 4 then
      .rule [-√(2 * √30 / 35 + 3 / 7), -√(3 / 7 - 2 * √30 / 35), √(3 / 7 - 2 * √30 / 35), √(2 * √30 / 35 + 3 / 7)]
        [(18 - √30) / 36, (18 + √30) / 36, (18 + √30) / 36, (18 - √30) / 36]
    else if n = 5 then
      .rule [-√(2 * √70 / 63 + 5 / 9), -√(5 / 9 - 2 * √70 / 63), 0, √(5 / 9 - 2 * √70 / 63), √(2 * √70 / 63 + 5 / 9)]
        [(322 - 13 * √70) / 900, (322 + 13 * √70) / 900, 128 / 225, (322 + 13 * √70) / 900, (322 - 13 * √70) / 900]
    else .invalid
  else .scipy n.toNat

end WxVerif.Quad
