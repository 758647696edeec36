import Mathlib.Analysis.Calculus.Taylor
import Mathlib.Analysis.Calculus.ContDiff.Basic
import Mathlib.Analysis.SpecialFunctions.Integrals.Basic
import Mathlib.Analysis.SpecialFunctions.Sqrt
import Mathlib.MeasureTheory.Integral.IntervalIntegral.FundThmCalculus
import Mathlib.Tactic.Linarith
import Mathlib.Tactic.FieldSimp
import Mathlib.Tactic.Ring

/-!
# The composite two-point Gauss rule and its error
-/

namespace WxVerif.GaussPanels

open Set MeasureTheory intervalIntegral

/-- the Taylor polynomial of degree 3 about `m` -/
noncomputable def cubic (f : ℝ → ℝ) (m x : ℝ) : ℝ :=
  f m + iteratedDeriv 1 f m * (x - m) + iteratedDeriv 2 f m / 2 * (x - m) ^ 2 + iteratedDeriv 3 f m / 6 * (x - m) ^ 3

theorem taylor_cubic {f : ℝ → ℝ} (hf : ContDiff ℝ 4 f) {m h M x : ℝ}
    (hM : ∀ y ∈ Icc (m - h) (m + h), |iteratedDeriv 4 f y| ≤ M) (hx : x ∈ Icc (m - h) (m + h)) :
    |f x - cubic f m x| ≤ M / 24 * (x - m) ^ 4 := by
  by_cases e : m = x
  · subst e
    simp [cubic]
  have hu : UniqueDiffOn ℝ (uIcc m x) := uniqueDiffOn_uIcc e
  obtain ⟨y, hy, h1⟩ := taylor_mean_remainder_lagrange_iteratedDeriv (f := f) (n := 3) e
    (by exact_mod_cast hf.contDiffOn)
  have hT : taylorWithinEval f 3 (uIcc m x) m x = cubic f m x := by
    rw [taylor_within_apply]
    have hd : ∀ k ≤ 4, iteratedDerivWithin k f (uIcc m x) m = iteratedDeriv k f m := by
      intro k hk
      apply iteratedDerivWithin_eq_iteratedDeriv hu _ left_mem_uIcc
      exact (hf.of_le (by exact_mod_cast hk)).contDiffAt
    simp only [Finset.sum_range_succ, Finset.sum_range_zero, hd 0 (by norm_num), hd 1 (by norm_num), hd 2 (by norm_num),
      hd 3 (by norm_num), iteratedDeriv_zero, smul_eq_mul, cubic, Nat.factorial]
    push_cast
    ring
  rw [hT] at h1
  have hy' : y ∈ Icc (m - h) (m + h) := by
    have h2 : m ∈ Icc (m - h) (m + h) := by
      have := hx.1; have := hx.2
      constructor <;> linarith
    exact (uIcc_subset_Icc h2 hx) (Ioo_subset_Icc_self hy)
  rw [h1]
  have h3 : ((3 + 1).factorial : ℝ) = 24 := by norm_num [Nat.factorial]
  rw [h3, abs_div, abs_mul, abs_of_nonneg (Even.pow_nonneg (by decide) _ : (0 : ℝ) ≤ (x - m) ^ (3 + 1)), abs_of_pos (by norm_num : (0 : ℝ) < 24)]
  have h4 := mul_le_mul_of_nonneg_right (hM y hy') (by positivity : (0 : ℝ) ≤ (x - m) ^ 4)
  calc _ ≤ M * (x - m) ^ 4 / 24 := by
        apply div_le_div_of_nonneg_right h4; norm_num
    _ = _ := by ring

/-- The error of the two-point Gauss rule on the interval of half width `h` about `m`. -/
theorem panel {f : ℝ → ℝ} (hf : ContDiff ℝ 4 f) {m h M : ℝ} (h0 : 0 ≤ h)
    (hM : ∀ y ∈ Icc (m - h) (m + h), |iteratedDeriv 4 f y| ≤ M) :
    |(∫ x in (m - h)..(m + h), f x) - h * (f (m - √(1 / 3) * h) + f (m + √(1 / 3) * h))| ≤ 7 / 270 * M * h ^ 5 := by
  have hc : Continuous (cubic f m) := by unfold cubic; fun_prop
  have hle : m - h ≤ m + h := by linarith
  have s2 : √(1 / 3 : ℝ) ^ 2 = 1 / 3 := Real.sq_sqrt (by norm_num)
  have s0 : 0 ≤ √(1 / 3 : ℝ) := Real.sqrt_nonneg _
  have s1 : √(1 / 3 : ℝ) ≤ 1 := Real.sqrt_le_iff.2 ⟨by norm_num, by norm_num⟩
  have sh : √(1 / 3 : ℝ) * h ≤ h := by nlinarith
  have sh0 : 0 ≤ √(1 / 3 : ℝ) * h := by positivity
  -- the cubic is integrated exactly
  have hI : (∫ x in (m - h)..(m + h), cubic f m x) = 2 * h * f m + iteratedDeriv 2 f m * h ^ 3 / 3 := by
    have hd : ∀ x ∈ uIcc (m - h) (m + h), HasDerivAt (fun x => f m * (x - m) + iteratedDeriv 1 f m / 2 * (x - m) ^ 2
        + iteratedDeriv 2 f m / 6 * (x - m) ^ 3 + iteratedDeriv 3 f m / 24 * (x - m) ^ 4) (cubic f m x) x := by
      intro x _
      have h1 : HasDerivAt (fun x : ℝ => x - m) 1 x := (hasDerivAt_id x).sub_const m
      refine ((((h1.const_mul (f m)).add ((h1.pow 2).const_mul (iteratedDeriv 1 f m / 2))).add
        ((h1.pow 3).const_mul (iteratedDeriv 2 f m / 6))).add ((h1.pow 4).const_mul (iteratedDeriv 3 f m / 24))).congr_deriv ?_
      simp only [cubic]
      push_cast
      ring
    rw [integral_eq_sub_of_hasDerivAt hd (hc.intervalIntegrable _ _)]
    ring
  have hQ : h * (cubic f m (m - √(1 / 3) * h) + cubic f m (m + √(1 / 3) * h)) = 2 * h * f m + iteratedDeriv 2 f m * h ^ 3 / 3 := by
    simp only [cubic]
    linear_combination iteratedDeriv 2 f m * h ^ 3 * s2
  -- the two remainders
  have hR : |∫ x in (m - h)..(m + h), (f x - cubic f m x)| ≤ M / 60 * h ^ 5 := by
    have h1 : ‖∫ x in (m - h)..(m + h), (f x - cubic f m x)‖ ≤ ∫ x in (m - h)..(m + h), M / 24 * (x - m) ^ 4 := by
      apply norm_integral_le_of_norm_le hle
      · filter_upwards with x hx
        rw [Real.norm_eq_abs]
        exact taylor_cubic hf hM ⟨hx.1.le, hx.2⟩
      · apply Continuous.intervalIntegrable; fun_prop
    rw [Real.norm_eq_abs] at h1
    refine h1.trans (le_of_eq ?_)
    have hd : ∀ x ∈ uIcc (m - h) (m + h), HasDerivAt (fun x => M / 120 * (x - m) ^ 5) (M / 24 * (x - m) ^ 4) x := by
      intro x _
      have h1 : HasDerivAt (fun x : ℝ => x - m) 1 x := (hasDerivAt_id x).sub_const m
      refine ((h1.pow 5).const_mul (M / 120)).congr_deriv ?_
      push_cast
      ring
    rw [integral_eq_sub_of_hasDerivAt hd (by apply Continuous.intervalIntegrable; fun_prop)]
    ring
  have r1 := taylor_cubic hf hM (x := m - √(1 / 3) * h) ⟨by linarith, by linarith⟩
  have r2 := taylor_cubic hf hM (x := m + √(1 / 3) * h) ⟨by linarith, by linarith⟩
  have e1 : (m - √(1 / 3) * h - m) ^ 4 = h ^ 4 / 9 := by
    linear_combination h ^ 4 * (√(1 / 3) ^ 2 + 1 / 3) * s2
  have e2 : (m + √(1 / 3) * h - m) ^ 4 = h ^ 4 / 9 := by
    linear_combination h ^ 4 * (√(1 / 3) ^ 2 + 1 / 3) * s2
  rw [e1] at r1
  rw [e2] at r2
  have hsplit : (∫ x in (m - h)..(m + h), (f x - cubic f m x)) = (∫ x in (m - h)..(m + h), f x) - ∫ x in (m - h)..(m + h), cubic f m x :=
    integral_sub (hf.continuous.intervalIntegrable _ _) (hc.intervalIntegrable _ _)
  rw [hsplit, hI] at hR
  generalize (∫ x in (m - h)..(m + h), f x) = I at *
  rw [abs_le] at *
  obtain ⟨a1, a2⟩ := hR
  obtain ⟨b1, b2⟩ := r1
  obtain ⟨c1, c2⟩ := r2
  have k1 := mul_le_mul_of_nonneg_left b1 h0
  have k2 := mul_le_mul_of_nonneg_left b2 h0
  have k3 := mul_le_mul_of_nonneg_left c1 h0
  have k4 := mul_le_mul_of_nonneg_left c2 h0
  constructor <;> nlinarith [hQ]

/-- The error of the composite rule with `n` panels of width `d` that start at `b`. -/
theorem composite {f : ℝ → ℝ} (hf : ContDiff ℝ 4 f) {b d M : ℝ} (n : ℕ) (d0 : 0 ≤ d)
    (hM : ∀ y ∈ Icc b (b + d * n), |iteratedDeriv 4 f y| ≤ M) :
    |(∫ x in b..(b + d * n), f x) - ∑ k ∈ Finset.range n, d / 2 * (f (b + d * k + d / 2 - √(1 / 3) * (d / 2)) + f (b + d * k + d / 2 + √(1 / 3) * (d / 2)))|
      ≤ 7 / 8640 * M * d ^ 5 * n := by
  have hs : (∫ x in b..(b + d * n), f x) = ∑ k ∈ Finset.range n, ∫ x in (b + d * k)..(b + d * (k + 1 : ℕ)), f x := by
    rw [sum_integral_adjacent_intervals (a := fun k : ℕ => b + d * k)]
    · simp
    · intro k _; exact hf.continuous.intervalIntegrable _ _
  rw [hs, ← Finset.sum_sub_distrib]
  refine (Finset.abs_sum_le_sum_abs _ _).trans ?_
  have hk : ∀ k ∈ Finset.range n, |(∫ x in (b + d * k)..(b + d * (k + 1 : ℕ)), f x)
      - d / 2 * (f (b + d * k + d / 2 - √(1 / 3) * (d / 2)) + f (b + d * k + d / 2 + √(1 / 3) * (d / 2)))| ≤ 7 / 8640 * M * d ^ 5 := by
    intro k hk
    have hkn : (k : ℝ) + 1 ≤ n := by exact_mod_cast Finset.mem_range.1 hk
    have k0 : (0 : ℝ) ≤ k := Nat.cast_nonneg k
    have e1 : b + d * k = (b + d * k + d / 2) - d / 2 := by ring
    have e2 : b + d * ((k + 1 : ℕ) : ℝ) = (b + d * k + d / 2) + d / 2 := by push_cast; ring
    have h1 := panel hf (m := b + d * k + d / 2) (h := d / 2) (M := M) (by linarith) (by
      rintro y ⟨hy1, hy2⟩
      apply hM
      constructor
      · have := mul_nonneg d0 k0; linarith
      · have := mul_le_mul_of_nonneg_left hkn d0; linarith)
    rw [← e1, ← e2] at h1
    refine h1.trans (le_of_eq ?_)
    ring
  refine (Finset.sum_le_sum hk).trans (le_of_eq ?_)
  rw [Finset.sum_const, Finset.card_range, nsmul_eq_mul]
  ring

end WxVerif.GaussPanels
