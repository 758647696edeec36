import Mathlib.LinearAlgebra.BilinearForm.Basic
import Mathlib.Analysis.SpecialFunctions.Sqrt

/-!
# Specification of a Krylov process with full orthogonalization

Nothing here refers to the code: the Arnoldi factorization of an operator from a start vector, for a symmetric positive definite
form, is the orthonormal basis in which the operator is an upper Hessenberg matrix with positive entries below the diagonal.
-/

namespace WxVerif.Spec.Arnoldi

variable {W : Type*} [AddCommGroup W] [Module ℝ W]

/-- a symmetric positive definite bilinear form -/
structure IsInner (B : LinearMap.BilinForm ℝ W) : Prop where
  symm : ∀ x y, B x y = B y x
  pos : ∀ x, x ≠ 0 → 0 < B x x

/-- `q 0, …, q m` is orthonormal, the start vector is `‖v‖ q 0`, and `T q_j = Σ_{i ≤ j+1} h i j q_i` with `h (j+1) j > 0` for
    every `j < m` -/
structure Factorization (B : LinearMap.BilinForm ℝ W) (T : W → W) (v : W) (q : Nat → W) (h : Nat → Nat → ℝ) (m : Nat) : Prop where
  nonzero : 0 < B v v
  first : v = Real.sqrt (B v v) • q 0
  orth : ∀ i ≤ m, ∀ k ≤ m, B (q i) (q k) = if i = k then 1 else 0
  rel : ∀ j < m, T (q j) = ∑ i ∈ Finset.range (j + 2), h i j • q i
  sub : ∀ j < m, 0 < h (j + 1) j

end WxVerif.Spec.Arnoldi
