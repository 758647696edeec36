import Verif.Model.Interpolation

/-!
# Specification: interpolation between the points of two grids
-/

namespace WxVerif.Interpolation
open Matrix

/-- polynomials of degree below `n` -/
def IsPoly (n : Nat) (f : ℝ → ℝ) : Prop := ∃ c : Nat → ℝ, ∀ x, f x = ∑ a ∈ Finset.range n, c a * x ^ a

/-- polynomials of two variables, of degree below `n` in each -/
def IsPoly2 (n : Nat) (f : ℝ → ℝ → ℝ) : Prop :=
  ∃ c : Nat → Nat → ℝ, ∀ x y, f x y = ∑ a ∈ Finset.range n, ∑ b ∈ Finset.range n, c a b * x ^ a * y ^ b

/-- polynomials of three variables, of degree below `n` in each -/
def IsPoly3 (n : Nat) (f : ℝ → ℝ → ℝ → ℝ) : Prop :=
  ∃ c : Nat → Nat → Nat → ℝ, ∀ x y z, f x y z =
    ∑ a ∈ Finset.range n, ∑ b ∈ Finset.range n, ∑ d ∈ Finset.range n, c a b d * x ^ a * y ^ b * z ^ d

/-- the values of field `i` are those of the function `f e` at the points of each element `e` of a plane -/
def Samples2 (p : Points) (i : Nat) (f : Nat → ℝ → ℝ → ℝ) (F : Fields) : Prop :=
  F.pts = p.count * p.count ∧ ∀ e < F.elems, ∀ a < p.count, ∀ b < p.count, F.val i e (a * p.count + b) = f e (p.pos a) (p.pos b)

/-- the same in space -/
def Samples3 (p : Points) (i : Nat) (f : Nat → ℝ → ℝ → ℝ → ℝ) (F : Fields) : Prop :=
  F.pts = p.count * p.count * p.count ∧ ∀ e < F.elems, ∀ a < p.count, ∀ b < p.count, ∀ c < p.count,
    F.val i e ((a * p.count + b) * p.count + c) = f e (p.pos a) (p.pos b) (p.pos c)

/-- different indices, different points -/
def Distinct (p : Points) : Prop := 0 < p.count ∧ Set.InjOn p.pos (Finset.range p.count)

/-- the same shape and the same values -/
def Same (F G : Fields) : Prop :=
  F.fields = G.fields ∧ F.elems = G.elems ∧ F.pts = G.pts ∧ ∀ i < G.fields, ∀ e < G.elems, ∀ p < G.pts, F.val i e p = G.val i e p

/-- all values of field `i` are between `lo` and `hi` -/
def Within (lo hi : ℝ) (i : Nat) (F : Fields) : Prop := ∀ e < F.elems, ∀ p < F.pts, lo ≤ F.val i e p ∧ F.val i e p ≤ hi

/-- the four conditions that define the pseudo-inverse (Penrose 1955) -/
def Penrose {r c : Nat} (A : Matrix (Fin r) (Fin c) ℝ) (X : Matrix (Fin c) (Fin r) ℝ) : Prop :=
  A * X * A = A ∧ X * A * X = X ∧ (A * X)ᵀ = A * X ∧ (X * A)ᵀ = X * A

/-- the functions of `numpy.linalg` return what their documentation says, in exact arithmetic -/
def Exact (la : Linalg) : Prop :=
  (∀ (k : Nat) (A B : Matrix (Fin k) (Fin k) ℝ), B * A = 1 → la.inv ⟨k, k, A⟩ = .ok ⟨k, k, B⟩) ∧
  ∀ (r c : Nat) (A : Matrix (Fin r) (Fin c) ℝ) (X : Matrix (Fin c) (Fin r) ℝ), Penrose A X → la.pinv ⟨r, c, A⟩ = .ok ⟨c, r, X⟩

end WxVerif.Interpolation
