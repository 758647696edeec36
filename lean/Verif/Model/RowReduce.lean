import Mathlib.Algebra.Field.Defs

/-!
# Model of Gaussian elimination and of the inverse built on it

Matrices are functions of two indices with their sizes as parameters; entries in any field with decidable equality
(exact arithmetic).
-/

namespace WxVerif.RowReduce

variable {K : Type*} [Field K] [DecidableEq K]

/-- Swap rows `p` and `i` — `wx_factory/geometry/operators.py` 911. -/
def swapRows (A : Nat → Nat → K) (p i : Nat) : Nat → Nat → K := fun r c => if r = p then A i c else if r = i then A p c else A r c

/-- Divide row `p` by its entry in column `j` — `operators.py` 914. -/
def divideRow (A : Nat → Nat → K) (p j : Nat) : Nat → Nat → K := fun r c => if r = p then A p c / A p j else A r c

/-- Subtract multiples of row `p` from the other rows with a non-zero entry in column `j` — `operators.py` 917-919. -/
def eliminate (A : Nat → Nat → K) (p j : Nat) : Nat → Nat → K :=
  fun r c => if r ≠ p ∧ A r j ≠ 0 then A r c - A r j * A p c else A r c

/-- First row at or below `p` with a non-zero entry in column `j` — `operators.py` 905-908. -/
def pivotRow (rows : Nat) (A : Nat → Nat → K) (p j : Nat) : Option Nat :=
  (List.range rows).find? fun i => decide (p ≤ i) && decide (A i j ≠ 0)

/-- The loop over the columns — `operators.py` 903-923. -/
def loop (rows : Nat) : List Nat → (Nat → Nat → K) → Nat → (Nat → Nat → K)
  | [], A, _ => A
  | j :: js, A, p =>
    match pivotRow rows A p j with
    | none => loop rows js A p
    | some i =>
      let A' := eliminate (divideRow (swapRows A p i) p j) p j
      if p + 1 = rows then A' else loop rows js A' (p + 1)

/-- `row_reduce(A, ncols)` for a matrix of `rows` rows — `operators.py` 894-925. -/
def rowReduce (rows ncols : Nat) (A : Nat → Nat → K) : Nat → Nat → K := loop rows (List.range ncols) A 0

/-- `inv(A)` for a matrix of `rows × cols` entries, `none` when it raises `LinAlgError` — `operators.py` 868-891. -/
def inv (rows cols : Nat) (A : Nat → Nat → K) : Option (Nat → Nat → K) :=
  if rows = cols then
    let n := rows
    let AI : Nat → Nat → K := fun r c => if c < n then A r c else if r = c - n then 1 else 0
    let R := rowReduce n n AI
    let rank := ((List.range n).filter fun r => !(List.range n).all fun c => decide (R r c = 0)).length
    if rank = n then some fun r c => R r (n + c) else none
  else none

end WxVerif.RowReduce
