import Mathlib.Analysis.Calculus.Deriv.Polynomial
import Mathlib.Algebra.Polynomial.Degree.Defs

/-!
# Specification: what it means that a flux-reconstruction scheme solves the equations it is written for

A scheme with `n` solution points per element represents polynomials of degree below `n` exactly, and differentiates fluxes of degree up
to `n + 1` exactly.  On states and fluxes of that kind the tendency has to be minus the divergence of the physical flux, plus the sources.
-/

namespace WxVerif.Spec.Consistency

open Polynomial

/-- the position of reference coordinate `ξ` (between -1 and 1) of element number `e` of a row that starts at `x0` and has elements of
length `Δ` -/
noncomputable def place (x0 Δ : ℝ) (e : Nat) (ξ : ℝ) : ℝ := x0 + Δ * (e + (1 + ξ) / 2)

/-- `f` is a polynomial of degree below `m` -/
def PolyBelow (m : Nat) (f : ℝ → ℝ) : Prop := ∃ p : ℝ[X], p.degree < (m : WithBot Nat) ∧ ∀ x, f x = p.eval x

/-- `p` is a polynomial of degree at most `n + 1` in the reference coordinate of an element, with the values `inner a` at the solution
points of a line of points and the values `first` and `last` at its two ends. -/
structure OnLine (n : Nat) (pts : Nat → ℝ) (p : ℝ[X]) (inner : Nat → ℝ) (first last : ℝ) : Prop where
  degree : p.degree < ((n + 2 : Nat) : WithBot Nat)
  inner : ∀ a < n, inner a = p.eval (pts a)
  first : first = p.eval (-1)
  last : last = p.eval 1

end WxVerif.Spec.Consistency
