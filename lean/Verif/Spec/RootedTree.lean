import Mathlib.Algebra.BigOperators.Group.Finset.Basic
import Mathlib.Data.Rat.Defs
import Mathlib.Algebra.Order.Ring.Rat

/-!
# Specification: rooted trees and the order of a Runge-Kutta method (Butcher)
-/

namespace WxVerif.RootedTree

/-- Rooted trees: a single vertex, or a tree with one more branch attached to its root. -/
inductive Tree where
  | leaf : Tree
  | graft : Tree → Tree → Tree

namespace Tree

/-- number of vertices -/
def size : Tree → Nat
  | leaf => 1
  | graft t u => size t + size u

/-- product of the densities of the branches at the root -/
def branchDensity : Tree → Nat
  | leaf => 1
  | graft t u => branchDensity t * (size u * branchDensity u)

/-- the density γ(t): the number of vertices times the densities of the branches -/
def density (t : Tree) : Nat := size t * branchDensity t

end Tree

/-- elementary weight of the tree at stage `i` of the `s`-stage method with matrix `A` -/
def weight (A : Nat → Nat → Rat) (s : Nat) : Tree → Nat → Rat
  | .leaf, _ => 1
  | .graft t u, i => weight A s t i * ∑ j ∈ Finset.range s, A i j * weight A s u j

/-- The method with matrix `A` and weights `b` satisfies every order condition up to order `p`, each one up to
    the tolerance `tol` (zero: exactly).  By Butcher's theorem the exact conditions say that one step agrees with
    the Taylor expansion of the solution up to `h^p` for every smooth autonomous problem. -/
def HasOrder (A : Nat → Nat → Rat) (b : Nat → Rat) (s p : Nat) (tol : Rat) : Prop :=
  ∀ t : Tree, t.size ≤ p →
    |∑ i ∈ Finset.range s, b i * weight A s t i - 1 / (t.density : Rat)| ≤ tol

end WxVerif.RootedTree
