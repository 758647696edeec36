import Mathlib.Analysis.Calculus.ContDiff.Basic
import Mathlib.Analysis.Complex.Basic

/-!
# Specification: a right-hand side that can be evaluated at complex states
-/

namespace WxVerif.SpecComplexVersion

open ComplexConjugate

variable {ι : Type*} [Fintype ι]

/-- `G` is `g` evaluated with complex numbers, near the states `y t`: at real states it gives the values of `g`, at conjugate states conjugate values, and it is
    three times differentiable as a function of complex variables.  Moduli, maxima and the like of complex numbers are excluded by this, see `C68`. -/
structure ComplexVersion (g : (ι → ℝ) → ι → ℝ) (G : (ι → ℂ) → ι → ℂ) (y : ℝ → ι → ℝ) (T r : ℝ) : Prop where
  pos : 0 < r
  real : ∀ Q : ι → ℝ, (∃ t ∈ Set.Icc 0 T, ‖Q - y t‖ < r) → ∀ i, G (fun j => (Q j : ℂ)) i = (g Q i : ℂ)
  symm : ∀ z : ι → ℂ, (∃ t ∈ Set.Icc 0 T, ‖z - fun j => (y t j : ℂ)‖ < r) → ∀ i, G (fun j => conj (z j)) i = conj (G z i)
  smooth : ∀ t ∈ Set.Icc 0 T, ContDiffAt ℂ 3 G (fun j => (y t j : ℂ))

end WxVerif.SpecComplexVersion
