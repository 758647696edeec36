import Verif.Model.Quadrature
import Verif.Spec.Quadrature
import Mathlib.Analysis.SpecialFunctions.Integrals.Basic
import Mathlib.Algebra.Polynomial.Eval.Degree
import Mathlib.Topology.Algebra.Polynomial
import Mathlib.Tactic.IntervalCases
import Mathlib.Tactic.LinearCombination

/-!
# C41: exactness of the quadrature rules
-/

namespace WxVerif.Props.Quadrature

open WxVerif.Quad
open Real

theorem quad_sum (nodes weights : List ℝ) (s : Finset ℕ) (a : ℕ → ℝ) (f : ℕ → ℝ → ℝ) :
    quad nodes weights (fun x => ∑ k ∈ s, a k * f k x) = ∑ k ∈ s, a k * quad nodes weights (f k) := by
  unfold quad
  induction nodes generalizing weights with
  | nil => simp
  | cons x xs ih =>
    cases weights with
    | nil => simp
    | cons w ws =>
      simp only [List.zipWith_cons_cons, List.sum_cons, mul_add, Finset.sum_add_distrib]
      rw [← ih ws, Finset.mul_sum]
      congr 1
      apply Finset.sum_congr rfl
      intros; ring

/-- enough to check the monomials -/
theorem exactTo_of_monomials {nodes weights : List ℝ} {d : Nat}
    (h : ∀ k ≤ d, quad nodes weights (fun x => x ^ k) = (1 - (-1) ^ (k + 1)) / (k + 1)) : ExactTo nodes weights d := by
  intro P hP
  have e : ∀ x : ℝ, P.eval x = ∑ k ∈ Finset.range (d + 1), P.coeff k * x ^ k :=
    fun x => Polynomial.eval_eq_sum_range' (by omega) x
  simp only [e]
  rw [quad_sum nodes weights _ _ (fun k x => x ^ k), intervalIntegral.integral_finset_sum]
  · apply Finset.sum_congr rfl
    intro k hk
    rw [h k (by have := Finset.mem_range.mp hk; omega), intervalIntegral.integral_const_mul, integral_pow, one_pow]
  · intro i _
    exact (Continuous.intervalIntegrable (by fun_prop) _ _)

theorem exact1 : ExactTo [0] [2] 1 := by
  apply exactTo_of_monomials
  intro k hk
  interval_cases k <;> simp [quad] <;> norm_num

theorem exact2 : ExactTo [-1 / √3, 1 / √3] [1, 1] 3 := by
  apply exactTo_of_monomials
  intro k hk
  have h : (√3 : ℝ) ^ 2 = 3 := sq_sqrt (by norm_num)
  have h0 : (√3 : ℝ) ≠ 0 := by positivity
  interval_cases k <;> simp [quad] <;> field_simp <;> norm_num

theorem exact3 : ExactTo [-√(3 / 5), 0, √(3 / 5)] [5 / 9, 8 / 9, 5 / 9] 5 := by
  apply exactTo_of_monomials
  intro k hk
  have h : (√(3 / 5) : ℝ) ^ 2 = 3 / 5 := sq_sqrt (by norm_num)
  generalize √(3 / 5 : ℝ) = a at h
  have h4 : a ^ 4 = (3 / 5) ^ 2 := by rw [← h]; ring
  interval_cases k <;> simp only [quad, List.zipWith_cons_cons, List.zipWith_nil_left, List.sum_cons, List.sum_nil]
  · norm_num
  · norm_num
  · push_cast; linear_combination (10 / 9) * h
  · push_cast; ring
  · push_cast; linear_combination (10 / 9) * h4
  · push_cast; ring

theorem exact4' {a b s : ℝ} (hs : s ^ 2 = 30) (ha : a ^ 2 = (3 / 7 : ℝ) + (2 / 35 : ℝ) * s) (hb : b ^ 2 = (3 / 7 : ℝ) - (2 / 35 : ℝ) * s)
    {u v : ℝ} (hu : u = ((1 / 2 : ℝ) - (1 / 36 : ℝ) * s)) (hv : v = ((1 / 2 : ℝ) + (1 / 36 : ℝ) * s)) : ExactTo [-a, -b, b, a] [u, v, v, u] 7 := by
  apply exactTo_of_monomials
  intro k hk
  have a4 : a ^ 4 = (69 / 245 : ℝ) + (12 / 245 : ℝ) * s := by
    linear_combination a ^ 2 * ha + ((3 / 7 : ℝ) + (2 / 35 : ℝ) * s) * ha + (4 / 1225 : ℝ) * hs
  have b4 : b ^ 4 = (69 / 245 : ℝ) - (12 / 245 : ℝ) * s := by
    linear_combination b ^ 2 * hb + ((3 / 7 : ℝ) - (2 / 35 : ℝ) * s) * hb + (4 / 1225 : ℝ) * hs
  have a6 : a ^ 6 = (351 / 1715 : ℝ) + (318 / 8575 : ℝ) * s := by
    linear_combination a ^ 2 * a4 + ((69 / 245 : ℝ) + (12 / 245 : ℝ) * s) * ha + (24 / 8575 : ℝ) * hs
  have b6 : b ^ 6 = (351 / 1715 : ℝ) - (318 / 8575 : ℝ) * s := by
    linear_combination b ^ 2 * b4 + ((69 / 245 : ℝ) - (12 / 245 : ℝ) * s) * hb + (24 / 8575 : ℝ) * hs
  interval_cases k <;> simp only [quad, List.zipWith_cons_cons, List.zipWith_nil_left, List.sum_cons, List.sum_nil, hu, hv]
  · push_cast; ring
  · push_cast; ring
  · push_cast; linear_combination 2 * ((1 / 2 : ℝ) - (1 / 36 : ℝ) * s) * ha + 2 * ((1 / 2 : ℝ) + (1 / 36 : ℝ) * s) * hb + (-2 / 315 : ℝ) * hs
  · push_cast; ring
  · push_cast; linear_combination 2 * ((1 / 2 : ℝ) - (1 / 36 : ℝ) * s) * a4 + 2 * ((1 / 2 : ℝ) + (1 / 36 : ℝ) * s) * b4 + (-4 / 735 : ℝ) * hs
  · push_cast; ring
  · push_cast; linear_combination 2 * ((1 / 2 : ℝ) - (1 / 36 : ℝ) * s) * a6 + 2 * ((1 / 2 : ℝ) + (1 / 36 : ℝ) * s) * b6 + (-106 / 25725 : ℝ) * hs
  · push_cast; ring

theorem exact5' {a b s : ℝ} (hs : s ^ 2 = 70) (ha : a ^ 2 = (5 / 9 : ℝ) + (2 / 63 : ℝ) * s) (hb : b ^ 2 = (5 / 9 : ℝ) - (2 / 63 : ℝ) * s)
    {u v : ℝ} (hu : u = ((161 / 450 : ℝ) - (13 / 900 : ℝ) * s)) (hv : v = ((161 / 450 : ℝ) + (13 / 900 : ℝ) * s)) : ExactTo [-a, -b, 0, b, a] [u, v, 128 / 225, v, u] 9 := by
  apply exactTo_of_monomials
  intro k hk
  have a4 : a ^ 4 = (215 / 567 : ℝ) + (20 / 567 : ℝ) * s := by
    linear_combination a ^ 2 * ha + ((5 / 9 : ℝ) + (2 / 63 : ℝ) * s) * ha + (4 / 3969 : ℝ) * hs
  have b4 : b ^ 4 = (215 / 567 : ℝ) - (20 / 567 : ℝ) * s := by
    linear_combination b ^ 2 * hb + ((5 / 9 : ℝ) - (2 / 63 : ℝ) * s) * hb + (4 / 3969 : ℝ) * hs
  have a6 : a ^ 6 = (1475 / 5103 : ℝ) + (1130 / 35721 : ℝ) * s := by
    linear_combination a ^ 2 * a4 + ((215 / 567 : ℝ) + (20 / 567 : ℝ) * s) * ha + (40 / 35721 : ℝ) * hs
  have b6 : b ^ 6 = (1475 / 5103 : ℝ) - (1130 / 35721 : ℝ) * s := by
    linear_combination b ^ 2 * b4 + ((215 / 567 : ℝ) - (20 / 567 : ℝ) * s) * hb + (40 / 35721 : ℝ) * hs
  have a8 : a ^ 8 = (74225 / 321489 : ℝ) + (8600 / 321489 : ℝ) * s := by
    linear_combination a ^ 2 * a6 + ((1475 / 5103 : ℝ) + (1130 / 35721 : ℝ) * s) * ha + (2260 / 2250423 : ℝ) * hs
  have b8 : b ^ 8 = (74225 / 321489 : ℝ) - (8600 / 321489 : ℝ) * s := by
    linear_combination b ^ 2 * b6 + ((1475 / 5103 : ℝ) - (1130 / 35721 : ℝ) * s) * hb + (2260 / 2250423 : ℝ) * hs
  interval_cases k <;> simp only [quad, List.zipWith_cons_cons, List.zipWith_nil_left, List.sum_cons, List.sum_nil, hu, hv]
  · push_cast; ring
  · push_cast; ring
  · push_cast; linear_combination 2 * ((161 / 450 : ℝ) - (13 / 900 : ℝ) * s) * ha + 2 * ((161 / 450 : ℝ) + (13 / 900 : ℝ) * s) * hb + (-26 / 14175 : ℝ) * hs
  · push_cast; ring
  · push_cast; linear_combination 2 * ((161 / 450 : ℝ) - (13 / 900 : ℝ) * s) * a4 + 2 * ((161 / 450 : ℝ) + (13 / 900 : ℝ) * s) * b4 + (-52 / 25515 : ℝ) * hs
  · push_cast; ring
  · push_cast; linear_combination 2 * ((161 / 450 : ℝ) - (13 / 900 : ℝ) * s) * a6 + 2 * ((161 / 450 : ℝ) + (13 / 900 : ℝ) * s) * b6 + (-2938 / 1607445 : ℝ) * hs
  · push_cast; ring
  · push_cast; linear_combination 2 * ((161 / 450 : ℝ) - (13 / 900 : ℝ) * s) * a8 + 2 * ((161 / 450 : ℝ) + (13 / 900 : ℝ) * s) * b8 + (-4472 / 2893401 : ℝ) * hs
  · push_cast; ring


theorem sqrt30 : (√30 : ℝ) ^ 2 = 30 := sq_sqrt (by norm_num)
theorem sqrt70 : (√70 : ℝ) ^ 2 = 70 := sq_sqrt (by norm_num)
theorem sqrt30_lt : (√30 : ℝ) < 6 := by rw [sqrt_lt' (by norm_num)]; norm_num
theorem sqrt70_lt : (√70 : ℝ) < 9 := by rw [sqrt_lt' (by norm_num)]; norm_num

theorem exact4 : ExactTo [-√(2 * √30 / 35 + 3 / 7), -√(3 / 7 - 2 * √30 / 35), √(3 / 7 - 2 * √30 / 35), √(2 * √30 / 35 + 3 / 7)]
    [(18 - √30) / 36, (18 + √30) / 36, (18 + √30) / 36, (18 - √30) / 36] 7 := by
  have hp := sqrt_nonneg (30 : ℝ)
  have hl := sqrt30_lt
  refine exact4' sqrt30 ?_ ?_ (by ring) (by ring)
  · rw [sq_sqrt (by linarith)]; ring
  · rw [sq_sqrt (by linarith)]; ring

theorem exact5 : ExactTo [-√(2 * √70 / 63 + 5 / 9), -√(5 / 9 - 2 * √70 / 63), 0, √(5 / 9 - 2 * √70 / 63), √(2 * √70 / 63 + 5 / 9)]
    [(322 - 13 * √70) / 900, (322 + 13 * √70) / 900, 128 / 225, (322 + 13 * √70) / 900, (322 - 13 * √70) / 900] 9 := by
  have hp := sqrt_nonneg (70 : ℝ)
  have hl := sqrt70_lt
  refine exact5' sqrt70 ?_ ?_ (by ring) (by ring)
  · rw [sq_sqrt (by linarith)]; ring
  · rw [sq_sqrt (by linarith)]; ring

/-- no rule with `n` nodes is exact to degree `2n`: the square of the nodal polynomial -/
theorem not_exact {nodes weights : List ℝ} {n : Nat} (hn : nodes.length = n) : ¬ExactTo nodes weights (2 * n) := by
  intro h
  set Q : Polynomial ℝ := (nodes.map fun x => Polynomial.X - Polynomial.C x).prod with hQ
  have hms : Q = ((nodes : Multiset ℝ).map fun x => Polynomial.X - Polynomial.C x).prod := by simp [hQ]
  have hm : Q.Monic := by rw [hms]; exact Polynomial.monic_multisetProd_X_sub_C _
  have hdeg : Q.natDegree = n := by
    rw [hms, Polynomial.natDegree_multiset_prod_X_sub_C_eq_card]; simpa using hn
  have hz : ∀ x ∈ nodes, Q.eval x = 0 := by
    intro x hx
    rw [hQ, Polynomial.eval_list_prod]
    apply List.prod_eq_zero
    simp only [List.mem_map]
    exact ⟨_, ⟨x, hx, rfl⟩, by simp⟩
  have e := h (Q ^ 2) (by rw [Polynomial.natDegree_pow, hdeg])
  have hq : ∀ (xs ws : List ℝ), (∀ x ∈ xs, Q.eval x = 0) → quad xs ws (fun x => (Q ^ 2).eval x) = 0 := by
    intro xs
    induction xs with
    | nil => intro ws _; simp [quad]
    | cons x xs ih =>
      intro ws hx
      cases ws with
      | nil => simp [quad]
      | cons w ws =>
        have h1 := ih ws (fun y hy => hx y (List.mem_cons_of_mem _ hy))
        have h2 := hx x List.mem_cons_self
        unfold quad at h1 ⊢
        simp only [List.zipWith_cons_cons, List.sum_cons]
        rw [h1, Polynomial.eval_pow, h2]; simp
  rw [hq nodes weights hz] at e
  have hpos : 0 < ∫ x in (-1 : ℝ)..1, (Q ^ 2).eval x := by
    obtain ⟨c, hc, hc0⟩ : ∃ c ∈ Set.Icc (-1 : ℝ) 1, Q.eval c ≠ 0 := by
      by_contra hcon
      push Not at hcon
      have hinf : (Set.Icc (-1 : ℝ) 1).Infinite := Set.Icc_infinite (by norm_num)
      exact hm.ne_zero (Polynomial.eq_zero_of_infinite_isRoot Q (hinf.mono fun x hx => hcon x hx))
    refine intervalIntegral.integral_pos (by norm_num) (Q ^ 2).continuousOn (fun x _ => ?_) ⟨c, hc, ?_⟩
    · rw [Polynomial.eval_pow]; positivity
    · rw [Polynomial.eval_pow]; positivity
  linarith

/-- **C41** The rules with 1 to 5 nodes: nodes strictly inside [-1, 1] in increasing order and mirror-symmetric,
positive symmetric weights, every polynomial of degree at most `2n - 1` integrated exactly, not every polynomial of degree `2n`. -/
theorem C41_rule (n : Nat) (h1 : 1 ≤ n) (h5 : n ≤ 5) :
    ∃ xs ws, gaussLegendre n = .rule xs ws ∧ IsGaussRule n xs ws := by
  have a0 := sqrt_nonneg (30 : ℝ)
  have a1 := sqrt30_lt
  have b0 := sqrt_nonneg (70 : ℝ)
  have b1 := sqrt70_lt
  have a2 : (5 : ℝ) < √30 := lt_sqrt_of_sq_lt (by norm_num)
  have b2 : (8 : ℝ) < √70 := lt_sqrt_of_sq_lt (by norm_num)
  have lt1 : ∀ {x : ℝ}, x < 1 → √x < 1 := fun {x} h => by rw [sqrt_lt' (by norm_num)]; simpa using h
  interval_cases n
  · refine ⟨[0], [2], by simp [gaussLegendre], rfl, rfl, by simp, by simp, by simp, rfl, by simp, exact1, not_exact rfl⟩
  · have h : 0 < √(3 : ℝ) := by positivity
    have h' : 1 / √(3 : ℝ) < 1 := by
      rw [div_lt_one h]; exact lt_sqrt_of_sq_lt (by norm_num)
    have h'' : 0 < 1 / √(3 : ℝ) := by positivity
    refine ⟨[-1 / √3, 1 / √3], [1, 1], by simp [gaussLegendre], rfl, rfl, ?_, ?_, ?_, rfl, by simp, exact2, not_exact rfl⟩
    · simp [neg_div]
    · simp [neg_div]; rw [← one_div]; constructor <;> [constructor; constructor] <;> linarith
    · simp [neg_div]
  · have h : 0 < √(3 / 5 : ℝ) := by positivity
    have h' : √(3 / 5 : ℝ) < 1 := lt1 (by norm_num)
    refine ⟨[-√(3 / 5), 0, √(3 / 5)], [5 / 9, 8 / 9, 5 / 9], by simp [gaussLegendre], rfl, rfl, ?_, ?_, ?_, rfl, ?_, exact3, not_exact rfl⟩
    · simp only [List.pairwise_cons, List.mem_cons, List.not_mem_nil, or_false, forall_eq_or_imp, forall_eq]
      refine ⟨⟨by linarith, by linarith⟩, by linarith, by simp⟩
    · simp only [List.mem_cons, List.not_mem_nil, or_false, forall_eq_or_imp, forall_eq]
      refine ⟨⟨by linarith, by linarith⟩, ⟨by linarith, by linarith⟩, by linarith, by linarith⟩
    · simp
    · simp only [List.mem_cons, List.not_mem_nil, or_false, forall_eq_or_imp, forall_eq]; norm_num
  · have h : 0 < √(3 / 7 - 2 * √30 / 35 : ℝ) := sqrt_pos.mpr (by linarith)
    have h2 : √(3 / 7 - 2 * √30 / 35 : ℝ) < √(2 * √30 / 35 + 3 / 7) := sqrt_lt_sqrt (by linarith) (by linarith)
    have h' : √(2 * √30 / 35 + 3 / 7 : ℝ) < 1 := lt1 (by linarith)
    refine ⟨_, _, by simp [gaussLegendre], rfl, rfl, ?_, ?_, ?_, rfl, ?_, exact4, not_exact rfl⟩
    · simp only [List.pairwise_cons, List.mem_cons, List.not_mem_nil, or_false, forall_eq_or_imp, forall_eq]
      refine ⟨⟨by linarith, by linarith, by linarith⟩, ⟨by linarith, by linarith⟩, by linarith, by simp⟩
    · simp only [List.mem_cons, List.not_mem_nil, or_false, forall_eq_or_imp, forall_eq]
      refine ⟨⟨by linarith, by linarith⟩, ⟨by linarith, by linarith⟩, ⟨by linarith, by linarith⟩, by linarith, by linarith⟩
    · simp
    · simp only [List.mem_cons, List.not_mem_nil, or_false, forall_eq_or_imp, forall_eq]
      refine ⟨by linarith, by linarith, by linarith, by linarith⟩
  · have h : 0 < √(5 / 9 - 2 * √70 / 63 : ℝ) := sqrt_pos.mpr (by linarith)
    have h2 : √(5 / 9 - 2 * √70 / 63 : ℝ) < √(2 * √70 / 63 + 5 / 9) := sqrt_lt_sqrt (by linarith) (by linarith)
    have h' : √(2 * √70 / 63 + 5 / 9 : ℝ) < 1 := lt1 (by linarith)
    refine ⟨_, _, by simp [gaussLegendre], rfl, rfl, ?_, ?_, ?_, rfl, ?_, exact5, not_exact rfl⟩
    · simp only [List.pairwise_cons, List.mem_cons, List.not_mem_nil, or_false, forall_eq_or_imp, forall_eq]
      refine ⟨⟨by linarith, by linarith, by linarith, by linarith⟩, ⟨by linarith, by linarith, by linarith⟩, ⟨by linarith, by linarith⟩, by linarith, by simp⟩
    · simp only [List.mem_cons, List.not_mem_nil, or_false, forall_eq_or_imp, forall_eq]
      refine ⟨⟨by linarith, by linarith⟩, ⟨by linarith, by linarith⟩, ⟨by linarith, by linarith⟩, ⟨by linarith, by linarith⟩, by linarith, by linarith⟩
    · simp
    · simp only [List.mem_cons, List.not_mem_nil, or_false, forall_eq_or_imp, forall_eq]
      refine ⟨by linarith, by linarith, by norm_num, by linarith, by linarith⟩

/-- **C41** Orders below 1 are refused. -/
theorem C41_invalid (n : Int) (h : n ≤ 0) : gaussLegendre n = .invalid := by
  unfold gaussLegendre
  rw [if_pos (by omega), if_neg (by omega), if_neg (by omega), if_neg (by omega), if_neg (by omega), if_neg (by omega)]

/-- a polynomial the two-node rule integrates, and the exactness is not vacuous -/
example : ∃ P : Polynomial ℝ, P.natDegree ≤ 3 ∧ P ≠ 0 := ⟨Polynomial.X ^ 3, by simp, by simp⟩

end WxVerif.Props.Quadrature
