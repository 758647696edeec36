import Verif.Lemmas.Interpolation
import Mathlib.Tactic.Linarith

/-!
# Lemmas for C99: linear weights
-/

namespace WxVerif.Interpolation
open Matrix

/-- the interval that the loop finds -/
theorem interval_spec (p : Points) (x : ℝ) (ix : Nat) (h : ix + 1 < p.count) (h0 : ix = 0 ∨ p.pos ix < x) :
    interval p x ix + 1 < p.count ∧ (interval p x ix = 0 ∨ p.pos (interval p x ix) < x) ∧
      (x ≤ p.pos (interval p x ix + 1) ∨ interval p x ix + 2 = p.count) := by
  induction hk : p.count - ix generalizing ix with
  | zero => omega
  | succ k ih =>
    unfold interval
    by_cases h1 : p.pos (ix + 1) < x
    · rw [if_pos h1]
      by_cases h2 : ix + 2 ≥ p.count
      · rw [if_pos h2]
        exact ⟨h, h0, Or.inr (by omega)⟩
      · rw [if_neg h2]
        exact ih (ix + 1) (by omega) (Or.inr h1) (by omega)
    · rw [if_neg h1]
      exact ⟨h, h0, Or.inl (not_lt.mp h1)⟩

/-- increasing points -/
def Increasing (p : Points) : Prop := ∀ i j, i < j → j < p.count → p.pos i < p.pos j

theorem linear_sum {p : Points} (h2 : 2 ≤ p.count) (x : ℝ) (g : Nat → ℝ) :
    ∃ t, t = (x - p.pos (interval p x 0)) / (p.pos (interval p x 0 + 1) - p.pos (interval p x 0)) ∧
      ∑ j : Fin p.count, linearWeights p x j * g j = (1 - t) * g (interval p x 0) + t * g (interval p x 0 + 1) := by
  refine ⟨_, rfl, ?_⟩
  have hi := (interval_spec p x 0 (by omega) (Or.inl rfl)).1
  set ix := interval p x 0 with hix
  have hw : ∀ j, linearWeights p x j = if j = ix then 1 - (x - p.pos ix) / (p.pos (ix + 1) - p.pos ix)
      else if j = ix + 1 then 1 - (1 - (x - p.pos ix) / (p.pos (ix + 1) - p.pos ix)) else 0 := by
    intro j
    unfold linearWeights
    rw [if_neg (by omega)]
  rw [Fin.sum_univ_eq_sum_range (fun j => linearWeights p x j * g j) p.count]
  rw [Finset.sum_eq_add_of_mem (a := ix) (b := ix + 1) (Finset.mem_range.mpr (by omega)) (Finset.mem_range.mpr hi) (by omega)]
  · rw [hw, hw, if_pos rfl, if_neg (by omega), if_pos rfl]
    ring
  · intro c _ hc
    rw [hw, if_neg hc.1, if_neg hc.2, zero_mul]

/-- functions of first degree are reproduced, also outside the points -/
theorem linear_affine {o : Points} (h2 : 2 ≤ o.count) (hinc : Increasing o) (d : Points) (g : ℝ → ℝ) (hg : IsPoly 2 g)
    (i : Fin (linearTable o d).rows) : ∑ j : Fin (linearTable o d).cols, (linearTable o d).mat i j * g (o.pos j) = g (d.pos i) := by
  obtain ⟨c, hc⟩ := hg
  have hc' : ∀ x, g x = c 0 + c 1 * x := by intro x; rw [hc]; simp [Finset.sum_range_succ]
  obtain ⟨t, ht, hs⟩ := linear_sum h2 (d.pos i) (fun j => g (o.pos j))
  refine Eq.trans hs ?_
  have hi := (interval_spec o (d.pos i) 0 (by omega) (Or.inl rfl)).1
  have hne : o.pos (interval o (d.pos i) 0 + 1) - o.pos (interval o (d.pos i) 0) ≠ 0 := by
    have := hinc _ _ (Nat.lt_succ_self _) hi
    exact ne_of_gt (sub_pos.mpr this)
  have e : t * (o.pos (interval o (d.pos i) 0 + 1) - o.pos (interval o (d.pos i) 0)) = d.pos i - o.pos (interval o (d.pos i) 0) := by
    rw [ht, div_mul_cancel₀ _ hne]
  simp only [hc']
  linear_combination c 1 * e

/-- nonnegative rows with sum one -/
def Stochastic {r c : Nat} (A : Matrix (Fin r) (Fin c) ℝ) : Prop := (∀ i j, 0 ≤ A i j) ∧ ∀ i, ∑ j, A i j = 1

theorem stochastic_kr {r c s d : Nat} {A : Matrix (Fin r) (Fin c) ℝ} {B : Matrix (Fin s) (Fin d) ℝ} (hA : Stochastic A) (hB : Stochastic B) :
    Stochastic (kr A B) := by
  constructor
  · intro i j
    exact mul_nonneg (hA.1 _ _) (hB.1 _ _)
  · intro i
    rw [← Equiv.sum_comp finProdFinEquiv, Fintype.sum_prod_type]
    have : ∀ (x : Fin c) (y : Fin d), kr A B i (finProdFinEquiv (x, y)) = A (finProdFinEquiv.symm i).1 x * B (finProdFinEquiv.symm i).2 y := by
      intro x y
      simp [kr, Matrix.reindex_apply, Matrix.submatrix_apply, Matrix.kroneckerMap_apply]
    simp only [this, ← Finset.mul_sum, hB.2, mul_one, hA.2]

theorem stochastic_within {r c : Nat} {A : Matrix (Fin r) (Fin c) ℝ} (hA : Stochastic A) {v : Nat → Nat → ℝ} {e : Nat} {lo hi : ℝ}
    (h : ∀ q < c, lo ≤ v e q ∧ v e q ≤ hi) {p : Nat} (hp : p < r) : lo ≤ applyOp ⟨r, c, A⟩ v e p ∧ applyOp ⟨r, c, A⟩ v e p ≤ hi := by
  unfold applyOp
  rw [dif_pos hp]
  constructor
  · calc lo = ∑ q : Fin c, A ⟨p, hp⟩ q * lo := by rw [← Finset.sum_mul, hA.2, one_mul]
      _ ≤ _ := Finset.sum_le_sum fun q _ => mul_le_mul_of_nonneg_left (h q q.2).1 (hA.1 _ _)
  · calc ∑ q : Fin c, A ⟨p, hp⟩ q * v e q ≤ ∑ q : Fin c, A ⟨p, hp⟩ q * hi :=
        Finset.sum_le_sum fun q _ => mul_le_mul_of_nonneg_left (h q q.2).2 (hA.1 _ _)
      _ = hi := by rw [← Finset.sum_mul, hA.2, one_mul]

/-- the table as a matrix -/
noncomputable def lin (o d : Points) : Matrix (Fin d.count) (Fin o.count) ℝ := fun i j => linearWeights o (d.pos i) j

theorem linearTable_eq (o d : Points) : linearTable o d = ⟨d.count, o.count, lin o d⟩ := rfl

/-- between the first and the last point the weights are those of a mean -/
theorem linear_stochastic {o d : Points} (h1 : 0 < o.count) (hinc : Increasing o) (hlo : ∀ i < d.count, o.pos 0 ≤ d.pos i)
    (hhi : ∀ i < d.count, d.pos i ≤ o.pos (o.count - 1)) : Stochastic (lin o d) := by
  by_cases hone : o.count = 1
  · constructor
    · intro i j
      simp only [lin, linearWeights, hone, if_true]
      split <;> norm_num
    · intro i
      simp only [lin, linearWeights, hone, if_true]
      rw [Fin.sum_univ_eq_sum_range (fun j => if j = 0 then (1 : ℝ) else 0) o.count, hone]
      simp
  · have h2 : 2 ≤ o.count := by omega
    have key : ∀ i < d.count, 0 ≤ (d.pos i - o.pos (interval o (d.pos i) 0)) / (o.pos (interval o (d.pos i) 0 + 1) - o.pos (interval o (d.pos i) 0)) ∧
        (d.pos i - o.pos (interval o (d.pos i) 0)) / (o.pos (interval o (d.pos i) 0 + 1) - o.pos (interval o (d.pos i) 0)) ≤ 1 := by
      intro i hi
      obtain ⟨s1, s2, s3⟩ := interval_spec o (d.pos i) 0 (by omega) (Or.inl rfl)
      have hpos : 0 < o.pos (interval o (d.pos i) 0 + 1) - o.pos (interval o (d.pos i) 0) := sub_pos.mpr (hinc _ _ (Nat.lt_succ_self _) s1)
      have hl : o.pos (interval o (d.pos i) 0) ≤ d.pos i := by
        rcases s2 with e | e
        · rw [e]; exact hlo i hi
        · exact e.le
      have hh : d.pos i ≤ o.pos (interval o (d.pos i) 0 + 1) := by
        rcases s3 with e | e
        · exact e
        · have : interval o (d.pos i) 0 + 1 = o.count - 1 := by omega
          rw [this]; exact hhi i hi
      exact ⟨div_nonneg (by linarith) hpos.le, (div_le_one hpos).mpr (by linarith)⟩
    constructor
    · intro i j
      obtain ⟨k1, k2⟩ := key i i.2
      simp only [lin, linearWeights, hone, if_false]
      split_ifs
      · linarith
      · linarith
      · exact le_refl _
    · intro i
      obtain ⟨t, ht, hs⟩ := linear_sum h2 (d.pos i) (fun _ => 1)
      simp only [mul_one] at hs
      show ∑ j : Fin o.count, linearWeights o (d.pos i) j = 1
      rw [hs]; ring

/-! ## Midpoints of cells -/

theorem midpoint_eq {n : Nat} (hn : 0 < n) (k : Nat) : midpoint n k = -1 + (2 * k + 1) / n := by
  have : (n : ℝ) ≠ 0 := by exact_mod_cast hn.ne'
  unfold midpoint
  push_cast
  field_simp
  ring

theorem midpoint_lt {n : Nat} (hn : 0 < n) {i j : Nat} (h : i < j) : midpoint n i < midpoint n j := by
  rw [midpoint_eq hn, midpoint_eq hn]
  have h1 : (0 : ℝ) < n := by exact_mod_cast hn
  have h2 : (i : ℝ) < j := by exact_mod_cast h
  have : (2 * (i : ℝ) + 1) / n < (2 * j + 1) / n := div_lt_div_of_pos_right (by linarith) h1
  linarith

theorem midpoint_increasing {n : Nat} (hn : 0 < n) : Increasing ⟨n, midpoint n⟩ := fun _ _ h _ => midpoint_lt hn h

theorem midpoint_range {n m : Nat} (hm : 0 < m) (h : m ≤ n) {i : Nat} (hi : i < m) :
    midpoint n 0 ≤ midpoint m i ∧ midpoint m i ≤ midpoint n (n - 1) := by
  have hn : 0 < n := by omega
  have h1 : (0 : ℝ) < n := by exact_mod_cast hn
  have h2 : (0 : ℝ) < m := by exact_mod_cast hm
  have h3 : (m : ℝ) ≤ n := by exact_mod_cast h
  have h4 : (i : ℝ) + 1 ≤ m := by exact_mod_cast hi
  have h5 : (0 : ℝ) ≤ i := Nat.cast_nonneg _
  rw [midpoint_eq hn, midpoint_eq hm, midpoint_eq hn]
  have hinv : 1 / (n : ℝ) ≤ 1 / m := one_div_le_one_div_of_le h2 h3
  constructor
  · have : 1 / (m : ℝ) ≤ (2 * i + 1) / m := div_le_div_of_nonneg_right (by linarith) h2.le
    push_cast
    rw [mul_zero, zero_add]
    linarith
  · have e1 : (2 * ((n - 1 : Nat) : ℝ) + 1) / n = 2 - 1 / n := by
      rw [Nat.cast_sub (by omega)]
      push_cast
      field_simp
      ring
    have e2 : (2 * (i : ℝ) + 1) / m ≤ 2 - 1 / m := by
      rw [div_le_iff₀ h2, sub_mul, div_mul_cancel₀ _ h2.ne']
      linarith
    rw [e1]
    linarith

/-- halving the number of cells: the mean of two neighbours -/
theorem halving (m : Nat) (i : Fin m) (j : Fin (2 * m)) :
    lin ⟨2 * m, midpoint (2 * m)⟩ ⟨m, midpoint m⟩ i j = if j.1 / 2 = i.1 then 1 / 2 else 0 := by
  have hm : 0 < m := by have := i.2; omega
  have h1 : (0 : ℝ) < m := by exact_mod_cast hm
  have hn : 0 < 2 * m := by omega
  have key : ∀ k : Nat, midpoint m i < midpoint (2 * m) k ↔ 2 * i.1 + 1 ≤ k := by
    intro k
    rw [midpoint_eq hm, midpoint_eq hn]
    push_cast
    have e : (2 * (i.1 : ℝ) + 1) / m = (4 * i.1 + 2) / (2 * m) := by field_simp; ring
    rw [e, add_lt_add_iff_left, div_lt_div_iff_of_pos_right (by linarith)]
    constructor
    · intro h
      by_contra hk
      have : k ≤ 2 * i.1 := by omega
      have : (k : ℝ) ≤ 2 * i.1 := by exact_mod_cast this
      linarith
    · intro h
      have : (2 * (i.1 : ℝ) + 1) ≤ k := by exact_mod_cast h
      linarith
  have hne : ∀ k : Nat, midpoint (2 * m) k ≠ midpoint m i := by
    intro k
    rw [midpoint_eq hm, midpoint_eq hn]
    push_cast
    have e : (2 * (i.1 : ℝ) + 1) / m = (4 * i.1 + 2) / (2 * m) := by field_simp; ring
    rw [e]
    intro h
    have h' := add_left_cancel h
    rw [div_left_inj' (by positivity)] at h'
    have : 2 * k + 1 = 4 * i.1 + 2 := by exact_mod_cast h'
    omega
  obtain ⟨s1, s2, s3⟩ := interval_spec ⟨2 * m, midpoint (2 * m)⟩ (midpoint m i) 0 (by simp only; omega) (Or.inl rfl)
  have hix : interval ⟨2 * m, midpoint (2 * m)⟩ (midpoint m i) 0 = 2 * i.1 := by
    simp only at s1 s2 s3
    have a1 : interval ⟨2 * m, midpoint (2 * m)⟩ (midpoint m i) 0 ≤ 2 * i.1 := by
      rcases s2 with e | e
      · omega
      · by_contra hc
        have := (key (interval ⟨2 * m, midpoint (2 * m)⟩ (midpoint m i) 0)).mpr (by omega)
        linarith
    have a2 : 2 * i.1 ≤ interval ⟨2 * m, midpoint (2 * m)⟩ (midpoint m i) 0 := by
      rcases s3 with e | e
      · have := (key _).mp (lt_of_le_of_ne e (hne _).symm)
        omega
      · have := i.2
        omega
    omega
  have ht : (midpoint m i - midpoint (2 * m) (2 * i.1)) / (midpoint (2 * m) (2 * i.1 + 1) - midpoint (2 * m) (2 * i.1)) = 1 / 2 := by
    rw [midpoint_eq hm, midpoint_eq hn, midpoint_eq hn]
    push_cast
    field_simp
    ring
  show linearWeights ⟨2 * m, midpoint (2 * m)⟩ (midpoint m i) j = _
  unfold linearWeights
  rw [if_neg (by simp only; omega)]
  simp only [hix]
  rw [ht]
  by_cases c1 : j.1 = 2 * i.1
  · rw [if_pos c1, if_pos (by omega)]; norm_num
  · by_cases c2 : j.1 = 2 * i.1 + 1
    · rw [if_neg c1, if_pos c2, if_pos (by omega)]; norm_num
    · rw [if_neg c1, if_neg c2, if_neg (by omega)]

end WxVerif.Interpolation
