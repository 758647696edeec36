import Verif.Model.Assembly
import Mathlib.Algebra.BigOperators.Group.Finset.Basic
import Mathlib.Algebra.BigOperators.Ring.Finset

/-!
# Specification: the matrix of an operator, and sets of matrices that can be stored
-/

namespace WxVerif.SpecAssembly

open Assembly

variable {R : Type} [CommRing R]

/-- the operator on `size` processes with `n` values each is linear, and looks at these values only -/
structure Linear (mv : (Nat → Nat → R) → Nat → Nat → R) (size n : Nat) : Prop where
  add : ∀ Q Q' r i, mv (fun a b => Q a b + Q' a b) r i = mv Q r i + mv Q' r i
  smul : ∀ (x : R) Q r i, mv (fun a b => x * Q a b) r i = x * mv Q r i
  own : ∀ Q Q', (∀ r i, r < size → i < n → Q r i = Q' r i) → mv Q = mv Q'

/-- `M` is the matrix of the operator: for every global vector, the values of process `r` are the rows from
    `r n` on of the product of `M` with the vector, the process `c / n` holding the component `c` as its value `c % n` -/
structure IsMatrixOf (M : Mat R) (mv : (Nat → Nat → R) → Nat → Nat → R) (size n : Nat) : Prop where
  rows : M.rows = size * n
  cols : M.cols = size * n
  entries : ∀ Q r i, r < size → i < n →
    mv Q r i = ∑ c ∈ Finset.range (size * n), M.entry (r * n + i) c * Q (c / n) (c % n)

/-- `M` is the block of process `r`: it gives the values of the process when the vector is zero on the others -/
structure IsBlockOf (M : Mat R) (mv : (Nat → Nat → R) → Nat → Nat → R) (n r : Nat) : Prop where
  rows : M.rows = n
  cols : M.cols = n
  entries : ∀ Q i, i < n → (∀ r', r' ≠ r → ∀ j, Q r' j = 0) → mv Q r i = ∑ j ∈ Finset.range n, M.entry i j * Q r j

/-- the formats that can be read back -/
def Readable {A : Type} : Sparse A → Prop
  | .compressed .. => True
  | .dia .. => True
  | _ => False

/-- a set of matrices as the documentation of the functions describes it: distinct keys; a parameter and a permutation; the preconditioner
    with its permuted form, or neither; the other keys refer to entries; at least one matrix; all matrices in a readable format -/
structure Complete {A P : Type} (S : List (String × Item A P)) : Prop where
  distinct : (S.map Prod.fst).Nodup
  param : "param" ∈ S.map Prod.fst
  permutation : "permutation" ∈ S.map Prod.fst
  precond : ("precond" ∈ S.map Prod.fst) ↔ ("precond_p" ∈ S.map Prod.fst)
  precondMat : ∀ k i, (k, i) ∈ S → k = "precond" ∨ k = "precond_p" → ∃ m, i = .mat m ∧ Readable m
  entries : ∀ k i, (k, i) ∈ S → k ∉ ["param", "permutation", "precond", "precond_p"] →
    ∃ rhs rhsP m mP, i = .entry rhs rhsP m mP ∧ Readable m ∧ Readable mP
  some : ∃ k ∈ S.map Prod.fst, k ≠ "param" ∧ k ≠ "permutation"

end WxVerif.SpecAssembly
