/-
Orthogonality of the Legendre polynomials of the recurrence, over the interval and under a quadrature rule.
-/
import Verif.Props.Conservation

namespace WxVerif.Legendre

open WxVerif.Dfr WxVerif.Quad WxVerif.Props.Operators WxVerif.Props.Conservation
open Polynomial

local notation "P" => (legPoly (K := ℝ))

theorem rec3 (k : Nat) : C ((k + 2 : ℕ) : ℝ) * P (k + 2) = C (2 * ((k + 2 : ℕ) : ℝ) - 1) * (X * P (k + 1)) - C (((k + 2 : ℕ) : ℝ) - 1) * P k := by
  have h : ((k + 2 : ℕ) : ℝ) ≠ 0 := Nat.cast_ne_zero.mpr (by omega)
  rw [legPoly, ← mul_assoc, ← C_mul, mul_inv_cancel₀ h, C_1]
  ring

/-- the two derivative identities -/
theorem deriv_pair : ∀ k : Nat, X * derivative (P (k + 1)) - derivative (P k) = C ((k + 1 : ℕ) : ℝ) * P (k + 1) ∧
    derivative (P (k + 1)) - X * derivative (P k) = C ((k + 1 : ℕ) : ℝ) * P k
  | 0 => by simp [legPoly]
  | k + 1 => by
    obtain ⟨hA, hB⟩ := deriv_pair k
    have h2 : (C ((k + 2 : ℕ) : ℝ) : ℝ[X]) ≠ 0 := by rw [Ne, C_eq_zero]; exact Nat.cast_ne_zero.mpr (by omega)
    have hr := rec3 k
    have hd := congrArg derivative hr
    simp only [derivative_mul, derivative_sub, derivative_C, derivative_X, zero_mul, zero_add, one_mul] at hd
    have c1 : (C ((k + 2 : ℕ) : ℝ) : ℝ[X]) = C ((k + 1 : ℕ) : ℝ) + 1 := by rw [← C_1, ← C_add]; push_cast; ring_nf
    have c2 : (C (2 * ((k + 2 : ℕ) : ℝ) - 1) : ℝ[X]) = 2 * C ((k + 1 : ℕ) : ℝ) + 1 := by
      rw [← C_1, show (2 : ℝ[X]) = C 2 from rfl, ← C_mul, ← C_add]; push_cast; ring_nf
    have c3 : (C (((k + 2 : ℕ) : ℝ) - 1) : ℝ[X]) = C ((k + 1 : ℕ) : ℝ) := by push_cast; ring_nf
    rw [c1, c2, c3] at hd hr
    rw [c1] at h2
    have e3 : (C ((k + 1 + 1 : ℕ) : ℝ) : ℝ[X]) = C ((k + 1 : ℕ) : ℝ) + 1 := c1
    rw [e3]
    generalize (C ((k + 1 : ℕ) : ℝ) : ℝ[X]) = m at *
    have hB' : derivative (P (k + 2)) - X * derivative (P (k + 1)) = (m + 1) * P (k + 1) := by
      apply mul_left_cancel₀ h2
      linear_combination hd + m * hA
    refine ⟨?_, hB'⟩
    show X * derivative (P (k + 2)) - derivative (P (k + 1)) = (m + 1) * P (k + 2)
    linear_combination X * hB' - hr + X * hA - hB

/-- Legendre's differential equation -/
theorem legendre_ode : ∀ k : Nat, derivative ((1 - X ^ 2) * derivative (P k)) = -C ((k : ℝ) * (k + 1)) * P k
  | 0 => by simp [legPoly]
  | k + 1 => by
    obtain ⟨hA, hB⟩ := deriv_pair k
    have h1 : (1 - X ^ 2) * derivative (P (k + 1)) = C ((k + 1 : ℕ) : ℝ) * (P k - X * P (k + 1)) := by
      linear_combination hB - X * hA
    rw [h1]
    simp only [derivative_mul, derivative_sub, derivative_C, derivative_X, zero_mul, zero_add, one_mul]
    have e : (C (((k + 1 : ℕ) : ℝ) * (((k + 1 : ℕ) : ℝ) + 1)) : ℝ[X]) = C ((k + 1 : ℕ) : ℝ) * (C ((k + 1 : ℕ) : ℝ) + 1) := by
      rw [C_mul, C_add, C_1]
    rw [e]
    linear_combination -C ((k + 1 : ℕ) : ℝ) * hA

/-- different Legendre polynomials are orthogonal on the interval -/
theorem orthogonal {k m : Nat} (h : k ≠ m) : ∫ x in (-1 : ℝ)..1, (P k * P m).eval x = 0 := by
  set W : ℝ[X] := (1 - X ^ 2) * derivative (P k) * P m - (1 - X ^ 2) * derivative (P m) * P k with hW
  set c : ℝ := (m : ℝ) * (m + 1) - (k : ℝ) * (k + 1) with hc
  have hc0 : c ≠ 0 := by
    intro h0
    have : ((m : ℝ) - k) * (m + k + 1) = 0 := by rw [hc] at h0; linear_combination h0
    rcases mul_eq_zero.mp this with h' | h'
    · exact h (by exact_mod_cast (sub_eq_zero.mp h').symm)
    · have h1 : (0 : ℝ) ≤ m := Nat.cast_nonneg m
      have h2 : (0 : ℝ) ≤ k := Nat.cast_nonneg k
      linarith
  have hd : derivative W = C c * (P k * P m) := by
    have e1 := derivative_mul (f := (1 - X ^ 2) * derivative (P k)) (g := P m)
    have e2 := derivative_mul (f := (1 - X ^ 2) * derivative (P m)) (g := P k)
    rw [legendre_ode] at e1 e2
    rw [hW, derivative_sub, e1, e2, hc, C_sub]
    ring
  have hi := intervalIntegral.integral_eq_sub_of_hasDerivAt (f := fun x => W.eval x) (a := -1) (b := 1) (fun x _ => W.hasDerivAt x)
    ((derivative W).continuous.intervalIntegrable _ _)
  have hz : W.eval 1 - W.eval (-1) = 0 := by rw [hW]; simp
  rw [hz, hd] at hi
  simp only [eval_mul, eval_C] at hi ⊢
  rw [intervalIntegral.integral_const_mul] at hi
  exact (mul_eq_zero.mp hi).resolve_left hc0

theorem integral_zero {k : Nat} (h : k ≠ 0) : ∫ x in (-1 : ℝ)..1, (P k).eval x = 0 := by
  have := orthogonal h
  simpa [legPoly] using this

/-- under a Gauss rule: the sum of a Legendre polynomial of degree at most `2 n - 1` -/
theorem rule_sum {n : Nat} {xs ws : List ℝ} (h : IsGaussRule n xs ws) {k : Nat} (hk : k ≤ 2 * n - 1) :
    ∑ i ∈ Finset.range n, arr ws i * legendre (arr xs i) k = if k = 0 then 2 else 0 := by
  have hq := h.exact (P k) ((legPoly_degree (K := ℝ) k).1.trans hk)
  rw [quad_eq_sum xs ws (by rw [h.nodes_length, h.weights_length]), h.nodes_length] at hq
  simp only [legPoly_eval] at hq
  rw [hq]
  split_ifs with h0
  · subst h0; simp [legendre]; norm_num
  · have := integral_zero h0
    simpa only [legPoly_eval] using this

theorem rule_orthogonal {n : Nat} {xs ws : List ℝ} (h : IsGaussRule n xs ws) {k m : Nat} (hkm : k ≠ m) (hd : k + m ≤ 2 * n - 1) :
    ∑ i ∈ Finset.range n, arr ws i * (legendre (arr xs i) k * legendre (arr xs i) m) = 0 := by
  have hq := h.exact (P k * P m) (natDegree_mul_le.trans (by
    have := (legPoly_degree (K := ℝ) k).1
    have := (legPoly_degree (K := ℝ) m).1
    omega))
  rw [quad_eq_sum xs ws (by rw [h.nodes_length, h.weights_length]), h.nodes_length, orthogonal hkm] at hq
  simpa only [eval_mul, legPoly_eval] using hq

/-- values at the points of a rule are a combination of Legendre polynomials -/
theorem modes {n : Nat} {pts : Nat → ℝ} (hinj : Set.InjOn pts (Finset.range n)) (f : Nat → ℝ) :
    ∃ b : Nat → ℝ, ∀ i < n, f i = ∑ l ∈ Finset.range n, legendre (pts i) l * b l := by
  set p : ℝ[X] := Lagrange.interpolate (Finset.range n) pts f with hp
  have hdeg : p.degree < (n : WithBot Nat) := by
    have := Lagrange.degree_interpolate_lt f hinj
    rwa [Finset.card_range] at this
  obtain ⟨c, hc⟩ := legPoly_span n p hdeg
  refine ⟨c, fun i hi => ?_⟩
  have : p.eval (pts i) = f i := Lagrange.eval_interpolate_at_node _ hinj (Finset.mem_range.mpr hi)
  rw [← this, hc, eval_finset_sum]
  refine Finset.sum_congr rfl fun l _ => ?_
  rw [eval_mul, eval_C, legPoly_eval, mul_comm]

end WxVerif.Legendre
