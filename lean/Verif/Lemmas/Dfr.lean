import Verif.Model.Dfr
import Mathlib.LinearAlgebra.Lagrange
import Mathlib.Algebra.BigOperators.Intervals
import Mathlib.Tactic.Ring
import Mathlib.Tactic.FieldSimp
import Mathlib.Tactic.LinearCombination
import Mathlib.Tactic.Linarith

/-! # Helper lemmas for the operators -/

namespace WxVerif.Dfr

open Polynomial

variable {K : Type*} [Field K]

theorem lagrangePoly_eq_basis {order i : Nat} (hi : i ≤ order) (xi : Nat → K) :
    lagrangePoly order i xi = Lagrange.basis (Finset.range (order + 1)) xi i := by
  have hnd : (List.range (order + 1)).Nodup := List.nodup_range
  have he : (List.range (order + 1)).eraseIdx i = (List.range (order + 1)).erase i := by
    have := hnd.erase_getElem (i := i) (h := by simp; omega)
    rw [← this]; simp
  unfold lagrangePoly Lagrange.basis
  rw [he, ← List.prod_toFinset _ (hnd.erase i)]
  apply Finset.prod_congr
  · ext j
    simp [hnd.mem_erase_iff]
  · intro j _
    unfold Lagrange.basisDivisor
    ring

/-- every polynomial of degree below `M` is the combination of the basis functions with its values -/
theorem eq_sum_lagrange {M : Nat} {xi : Nat → K} (hinj : Set.InjOn xi (Finset.range M)) {p : K[X]} (hp : p.degree < M) :
    p = ∑ i ∈ Finset.range M, C (p.eval (xi i)) * lagrangePoly (M - 1) i xi := by
  have h := Lagrange.eq_interpolate hinj (f := p) (by simpa using hp)
  rw [Lagrange.interpolate_apply] at h
  conv_lhs => rw [h]
  apply Finset.sum_congr rfl
  intro i hi
  have hi' := Finset.mem_range.mp hi
  rw [lagrangePoly_eq_basis (by omega)]
  congr 2
  rw [show M - 1 + 1 = M by omega]

theorem sum_range_mul (a b : Nat) (f : Nat → K) :
    ∑ c ∈ Finset.range (a * b), f c = ∑ i ∈ Finset.range a, ∑ j ∈ Finset.range b, f (i * b + j) := by
  induction a with
  | zero => simp
  | succ a ih =>
    rw [Nat.succ_mul, Finset.sum_range_add, ih, Finset.sum_range_succ]

theorem div_of {a b q : Nat} (h : b < q) : (a * q + b) / q = a := by
  rw [Nat.mul_comm, Nat.mul_add_div (by omega), Nat.div_eq_of_lt h, Nat.add_zero]
theorem mod_of {a b q : Nat} (h : b < q) : (a * q + b) % q = b := by
  rw [Nat.mul_comm, Nat.mul_add_mod, Nat.mod_eq_of_lt h]

/-- `kron(eye, b)` acts on the last index -/
theorem kron_eye_left {s rb cb a i : Nat} (ha : a < s) (hi : i < rb) (b : Nat → Nat → K) (f : Nat → K) :
    ∑ c ∈ Finset.range (s * cb), f c * kron rb cb eye b (a * rb + i) c = ∑ j ∈ Finset.range cb, f (a * cb + j) * b i j := by
  rw [sum_range_mul, Finset.sum_eq_single a]
  · apply Finset.sum_congr rfl
    intro j hj
    have hj' := Finset.mem_range.mp hj
    simp [kron, eye, div_of hi, mod_of hi, div_of hj', mod_of hj']
  · intro a' _ hne
    apply Finset.sum_eq_zero
    intro j hj
    have hj' := Finset.mem_range.mp hj
    simp [kron, eye, div_of hi, div_of hj', Ne.symm hne]
  · intro h; exact absurd (Finset.mem_range.mpr ha) h

/-- `kron(a, eye)` acts on the first index -/
theorem kron_eye_right {s q a i : Nat} (hi : i < q) (d : Nat → Nat → K) (f : Nat → K) :
    ∑ c ∈ Finset.range (s * q), f c * kron q q d eye (a * q + i) c = ∑ j ∈ Finset.range s, f (j * q + i) * d a j := by
  rw [sum_range_mul]
  apply Finset.sum_congr rfl
  intro j _
  rw [Finset.sum_eq_single i]
  · simp [kron, eye, div_of hi, mod_of hi]
  · intro i' hi' hne
    have hj' := Finset.mem_range.mp hi'
    simp [kron, eye, mod_of hi, mod_of hj', Ne.symm hne]
  · intro h; exact absurd (Finset.mem_range.mpr hi) h

/-- the transposed versions -/
theorem kron_eye_left_tr {s rb cb a j : Nat} (ha : a < s) (hj : j < cb) (b : Nat → Nat → K) (f : Nat → K) :
    ∑ r ∈ Finset.range (s * rb), f r * kron rb cb eye b r (a * cb + j) = ∑ i ∈ Finset.range rb, f (a * rb + i) * b i j := by
  rw [sum_range_mul, Finset.sum_eq_single a]
  · apply Finset.sum_congr rfl
    intro i hi
    have hi' := Finset.mem_range.mp hi
    simp [kron, eye, div_of hi', mod_of hi', div_of hj, mod_of hj]
  · intro a' _ hne
    apply Finset.sum_eq_zero
    intro i hi
    have hi' := Finset.mem_range.mp hi
    simp [kron, eye, div_of hi', div_of hj, hne]
  · intro h; exact absurd (Finset.mem_range.mpr ha) h

theorem kron_eye_right_tr {s q a i : Nat} (hi : i < q) (d : Nat → Nat → K) (f : Nat → K) :
    ∑ r ∈ Finset.range (s * q), f r * kron q q d eye r (a * q + i) = ∑ j ∈ Finset.range s, f (j * q + i) * d j a := by
  rw [sum_range_mul]
  apply Finset.sum_congr rfl
  intro j _
  rw [Finset.sum_eq_single i]
  · simp [kron, eye, div_of hi, mod_of hi]
  · intro i' hi' hne
    have hj' := Finset.mem_range.mp hi'
    simp [kron, eye, mod_of hi, mod_of hj', hne]
  · intro h; exact absurd (Finset.mem_range.mpr hi) h

/-- a product with two stacked matrices -/
theorem vstack_sum (ra rb : Nat) (A B : Nat → Nat → K) (f : Nat → K) (c : Nat) :
    ∑ r ∈ Finset.range (ra + rb), f r * vstack ra A B r c =
      ∑ r ∈ Finset.range ra, f r * A r c + ∑ r ∈ Finset.range rb, f (ra + r) * B r c := by
  rw [Finset.sum_range_add]
  congr 1
  · apply Finset.sum_congr rfl
    intro r hr
    simp [vstack, Finset.mem_range.mp hr]
  · apply Finset.sum_congr rfl
    intro r _
    simp [vstack]

end WxVerif.Dfr
