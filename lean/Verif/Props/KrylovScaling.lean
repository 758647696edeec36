import Verif.Model.KrylovCall
import Mathlib.Analysis.SpecialFunctions.Log.Base

/-!
# Property C57: the scaling of the vectors of the exponential solvers
-/

namespace WxVerif.Props.KrylovScaling

open WxVerif.Krylov

variable {ι : Type*} [Fintype ι]

theorem fold_ge (u : Nat → EuclideanSpace ℝ ι) (l : List Nat) :
    0 ≤ l.foldr (fun i a => max (sumNorm (u (i + 1))) a) 0 ∧
    (∀ i ∈ l, sumNorm (u (i + 1)) ≤ l.foldr (fun i a => max (sumNorm (u (i + 1))) a) 0) ∧
    (l.foldr (fun i a => max (sumNorm (u (i + 1))) a) 0 = 0 ∨
      ∃ i ∈ l, sumNorm (u (i + 1)) = l.foldr (fun i a => max (sumNorm (u (i + 1))) a) 0) := by
  induction l with
  | nil => simp
  | cons b l ih =>
    obtain ⟨h0, h1, h2⟩ := ih
    simp only [List.foldr_cons]
    refine ⟨h0.trans (le_max_right _ _), ?_, ?_⟩
    · intro i hi
      rcases List.mem_cons.1 hi with rfl | hi
      · exact le_max_left _ _
      · exact (h1 i hi).trans (le_max_right _ _)
    · rcases le_total (sumNorm (u (b + 1))) (l.foldr (fun i a => max (sumNorm (u (i + 1))) a) 0) with h | h
      · rw [max_eq_right h]
        rcases h2 with h2 | ⟨i, hi, h2⟩
        · exact .inl h2
        · exact .inr ⟨i, List.mem_cons_of_mem _ hi, h2⟩
      · rw [max_eq_left h]
        exact .inr ⟨b, List.mem_cons_self, rfl⟩

/-- the factors for a positive number bring it between one half and one -/
theorem scaled {x : ℝ} (hx : 0 < x) : 1 / 2 < (scaleOf x).1 * x ∧ (scaleOf x).1 * x ≤ 1 := by
  unfold scaleOf scale
  rw [if_pos hx]
  dsimp only
  set ex := ⌈Real.logb 2 x⌉ with hex
  have p : (0 : ℝ) < 2 ^ ex := by positivity
  have hle : x ≤ 2 ^ ex := by
    have := (Real.logb_le_iff_le_rpow (by norm_num : (1 : ℝ) < 2) hx).1 (Int.le_ceil (Real.logb 2 x))
    rwa [Real.rpow_intCast] at this
  have hlt : 2 ^ ex / 2 < x := by
    have h := (Real.lt_logb_iff_rpow_lt (by norm_num : (1 : ℝ) < 2) hx).1 (show ((ex - 1 : ℤ) : ℝ) < Real.logb 2 x by
      have := Int.ceil_lt_add_one (Real.logb 2 x)
      push_cast
      linarith)
    rw [Real.rpow_intCast, zpow_sub_one₀ (by norm_num : (2 : ℝ) ≠ 0)] at h
    rwa [div_eq_mul_inv]
  rw [zpow_neg, inv_mul_eq_div]
  constructor
  · rw [lt_div_iff₀ p]; linarith
  · rw [div_le_one p]; exact hle

/-- **C57** The vectors that multiply the functions `φ_1, …, φ_p` are scaled before the Krylov space is built, so that its size does not depend on their
magnitude: the sum of the absolute values of each scaled vector is at most one, and that of the largest is more than one half unless they are all zero.
The factor is a power of two, so that nothing is rounded, and the other factor undoes it. -/
theorem C57_scaling (p : Nat) (u : Nat → EuclideanSpace ℝ ι) :
    let sc := scaleOf (normU p u)
    (∃ e : ℤ, sc.1 = 2 ^ e) ∧ sc.1 * sc.2 = 1 ∧ (∀ k, ∑ i, |uFlip sc.1 p u k i| ≤ 1) ∧
    ((∃ j, 1 ≤ j ∧ j ≤ p ∧ u j ≠ 0) → ∃ k, 1 / 2 < ∑ i, |uFlip sc.1 p u k i|) := by
  intro sc
  obtain ⟨h0, h1, h2⟩ := fold_ge u (List.range p)
  change 0 ≤ normU p u at h0
  change ∀ i ∈ List.range p, sumNorm (u (i + 1)) ≤ normU p u at h1
  change normU p u = 0 ∨ ∃ i ∈ List.range p, sumNorm (u (i + 1)) = normU p u at h2
  have hpow : ∃ e : ℤ, sc.1 = 2 ^ e := by
    change ∃ e : ℤ, (scaleOf (normU p u)).1 = 2 ^ e
    unfold scaleOf scale
    split
    · exact ⟨_, rfl⟩
    · exact ⟨0, by simp⟩
  have hpos : 0 < sc.1 := by obtain ⟨e, he⟩ := hpow; rw [he]; positivity
  have hrow : ∀ k : Fin p, ∑ i, |uFlip sc.1 p u k i| = sc.1 * sumNorm (u (p - k)) := by
    intro k
    unfold uFlip sumNorm
    rw [Finset.mul_sum]
    refine Finset.sum_congr rfl fun i _ => ?_
    rw [PiLp.smul_apply, smul_eq_mul, abs_mul, abs_of_pos hpos]
  refine ⟨hpow, ?_, fun k => ?_, ?_⟩
  · change (scaleOf (normU p u)).1 * (scaleOf (normU p u)).2 = 1
    unfold scaleOf scale
    split
    · dsimp only
      rw [zpow_neg]
      exact inv_mul_cancel₀ (by positivity)
    · norm_num
  · rw [hrow]
    have hk := h1 (p - k - 1) (List.mem_range.2 (by omega))
    rw [show p - k.1 - 1 + 1 = p - k by omega] at hk
    rcases h0.eq_or_lt with hz | hx
    · have : sumNorm (u (p - k)) = 0 := le_antisymm (by rw [hz]; exact hk) (Finset.sum_nonneg fun _ _ => abs_nonneg _)
      rw [this, mul_zero]; exact zero_le_one
    · exact (mul_le_mul_of_nonneg_left hk hpos.le).trans (scaled hx).2
  · rintro ⟨j, hj1, hjp, hj⟩
    have hx : 0 < normU p u := by
      have hk := h1 (j - 1) (List.mem_range.2 (by omega))
      rw [show j - 1 + 1 = j by omega] at hk
      refine lt_of_lt_of_le ?_ hk
      have : ∃ i, u j i ≠ 0 := by
        by_contra hn
        push Not at hn
        exact hj (by ext i; simpa using hn i)
      obtain ⟨i, hi⟩ := this
      exact Finset.sum_pos' (fun _ _ => abs_nonneg _) ⟨i, Finset.mem_univ _, abs_pos.2 hi⟩
    rcases h2 with h2 | ⟨i, hi, h2⟩
    · exact absurd h2 hx.ne'
    · have hi' := List.mem_range.1 hi
      refine ⟨⟨p - (i + 1), by omega⟩, ?_⟩
      rw [hrow]
      dsimp only
      rw [show p - (p - (i + 1)) = i + 1 by omega, h2]
      exact (scaled hx).1

/-- two vectors, the second of them not zero -/
example : ∃ j, 1 ≤ j ∧ j ≤ 2 ∧ (fun k : Nat => if k = 2 then (!₂[3, -4] : EuclideanSpace ℝ (Fin 2)) else 0) j ≠ 0 := by
  refine ⟨2, by norm_num, le_rfl, fun h => ?_⟩
  have := congrArg (fun v : EuclideanSpace ℝ (Fin 2) => v 0) h
  simp at this

end WxVerif.Props.KrylovScaling
