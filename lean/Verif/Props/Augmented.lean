import Verif.Model.Krylov
import Verif.Spec.Krylov
import Mathlib.Tactic.Linarith
import Mathlib.Tactic.Ring
import Mathlib.Tactic.FieldSimp

/-!
# The augmented system of the exponential solvers (C32)
-/

namespace WxVerif.Props.Augmented

open WxVerif.Krylov WxVerif.Spec.Krylov

section
variable {V : Type*} [NormedAddCommGroup V] [NormedSpace ℝ V]

/-- the augmented product as a continuous linear map -/
noncomputable def augCLM {p : Nat} (A : V →L[ℝ] V) (uf : Fin p → V) : V × (Fin p → ℝ) →L[ℝ] V × (Fin p → ℝ) :=
  (A.comp (ContinuousLinearMap.fst ℝ V (Fin p → ℝ)) +
    ∑ k, ((ContinuousLinearMap.proj k).comp (ContinuousLinearMap.snd ℝ V (Fin p → ℝ))).smulRight (uf k)).prod
  (ContinuousLinearMap.pi fun k => if h : (k : Nat) + 1 < p then
    (ContinuousLinearMap.proj (⟨k + 1, h⟩ : Fin p)).comp (ContinuousLinearMap.snd ℝ V (Fin p → ℝ)) else 0)

theorem augCLM_apply {p : Nat} (A : V →L[ℝ] V) (uf : Fin p → V) (v : V × (Fin p → ℝ)) :
    augCLM A uf v = augMul A uf v := by
  refine Prod.ext ?_ ?_
  · simp [augCLM, augMul]
  · funext k
    simp only [augCLM, augMul, ContinuousLinearMap.prod_apply, ContinuousLinearMap.coe_pi']
    split_ifs <;> simp

/-- powers of the augmented product on the start vector: the tail is shifted, the head collects `A^{n-j} u_j` -/
theorem augPow (p : Nat) (hp : 1 ≤ p) (A : V →L[ℝ] V) (u : Nat → V) (nu mu : ℝ) (h : nu * mu = 1) (n : Nat) :
    ((augCLM A (uFlip nu p u) ^ n) (startVec p (u 0) mu 0)).1 =
        ∑ j ∈ Finset.range (p + 1), (if j ≤ n then (A ^ (n - j)) (u j) else 0) ∧
    ∀ k : Fin p, ((augCLM A (uFlip nu p u) ^ n) (startVec p (u 0) mu 0)).2 k =
        if (k : Nat) + n + 1 = p then mu else 0 := by
  induction n with
  | zero =>
    constructor
    · rw [Finset.sum_eq_single 0]
      · simp [startVec]
      · intro b _ hb; rw [if_neg (by omega)]
      · simp
    · intro k
      simp only [pow_zero, ContinuousLinearMap.one_apply, startVec]
      have := k.2
      split_ifs <;> first | rfl | omega | simp
  | succ n ih =>
    obtain ⟨h1, h2⟩ := ih
    have hs : (augCLM A (uFlip nu p u) ^ (n + 1)) (startVec p (u 0) mu 0) =
        augMul A (uFlip nu p u) ((augCLM A (uFlip nu p u) ^ n) (startVec p (u 0) mu 0)) := by
      rw [pow_succ', ContinuousLinearMap.mul_apply, augCLM_apply]
    rw [hs]
    constructor
    · simp only [augMul, h1, h2]
      rw [map_sum]
      have e1 : ∀ j, A (if j ≤ n then (A ^ (n - j)) (u j) else 0) = if j ≤ n then (A ^ (n + 1 - j)) (u j) else 0 := by
        intro j
        split_ifs with hj
        · rw [show n + 1 - j = (n - j) + 1 by omega, pow_succ', ContinuousLinearMap.mul_apply]
        · simp
      simp only [e1]
      have e2 : ∑ k : Fin p, (if (k : Nat) + n + 1 = p then mu else 0) • uFlip nu p u k =
          if n + 1 ≤ p then u (n + 1) else 0 := by
        by_cases hn : n + 1 ≤ p
        · rw [if_pos hn, Finset.sum_eq_single (⟨p - 1 - n, by omega⟩ : Fin p)]
          · rw [if_pos (by simp only; omega)]
            unfold uFlip
            simp only
            rw [show p - (p - 1 - n) = n + 1 by omega, smul_smul, mul_comm mu nu, h, one_smul]
          · intro b _ hb
            rw [if_neg, zero_smul]
            intro hh
            apply hb
            ext
            simp only
            omega
          · simp
        · rw [if_neg hn]
          apply Finset.sum_eq_zero
          intro k _
          rw [if_neg (by omega), zero_smul]
      rw [e2]
      have e3 : (if n + 1 ≤ p then u (n + 1) else 0) =
          ∑ j ∈ Finset.range (p + 1), if j = n + 1 then u j else 0 := by
        rw [Finset.sum_ite_eq']
        simp only [Finset.mem_range, Nat.lt_succ_iff]
      rw [e3, ← Finset.sum_add_distrib]
      apply Finset.sum_congr rfl
      intro j _
      by_cases hj : j = n + 1
      · subst hj; simp
      · by_cases hj2 : j ≤ n
        · simp [hj, hj2, show j ≤ n + 1 by omega]
        · simp [hj, hj2, show ¬ j ≤ n + 1 by omega]
    · intro k
      simp only [augMul, h2]
      by_cases hk : (k : Nat) + 1 < p
      · rw [dif_pos hk]
        simp only [show (k : Nat) + 1 + n + 1 = p ↔ (k : Nat) + (n + 1) + 1 = p by omega]
      · rw [dif_neg hk, if_neg (by have := k.2; omega)]

variable [CompleteSpace V]

/-- the exponential on a vector as a power series -/
theorem exp_apply_hasSum {E : Type*} [NormedAddCommGroup E] [NormedSpace ℝ E] [CompleteSpace E] (T : E →L[ℝ] E) (t : ℝ) (v : E) :
    HasSum (fun n : Nat => (t ^ n / (n.factorial : ℝ)) • (T ^ n) v) (NormedSpace.exp (t • T) v) := by
  have h := (NormedSpace.exp_series_hasSum_exp' (𝕂 := ℝ) (t • T)).mapL (ContinuousLinearMap.apply ℝ E v)
  simp only [ContinuousLinearMap.apply_apply, ContinuousLinearMap.smul_apply, smul_pow, smul_smul] at h
  convert h using 2 with n
  rw [div_eq_inv_mul]

theorem phi_hasSum (j : Nat) (M : V →L[ℝ] V) :
    HasSum (fun i : Nat => (((i + j).factorial : ℝ)⁻¹) • M ^ i) (phi j M) := by
  apply Summable.hasSum
  refine Summable.of_norm_bounded (NormedSpace.norm_expSeries_summable' (𝕂 := ℝ) M) ?_
  intro i
  rw [norm_smul, norm_smul]
  apply mul_le_mul_of_nonneg_right _ (norm_nonneg _)
  rw [norm_inv, norm_inv, Real.norm_natCast, Real.norm_natCast]
  apply inv_anti₀
  · exact_mod_cast Nat.factorial_pos i
  · exact_mod_cast Nat.factorial_le (by omega)

/-- the term `t^j φ_j(tA) u` as a power series in `t` -/
theorem phi_term (j : Nat) (A : V →L[ℝ] V) (t : ℝ) (x : V) :
    HasSum (fun n : Nat => (t ^ n / (n.factorial : ℝ)) • (if j ≤ n then (A ^ (n - j)) x else 0)) (t ^ j • phi j (t • A) x) := by
  have h := ((phi_hasSum j (t • A)).mapL (ContinuousLinearMap.apply ℝ V x)).const_smul (t ^ j)
  simp only [ContinuousLinearMap.apply_apply, ContinuousLinearMap.smul_apply, smul_pow, smul_smul] at h
  have hinj : Function.Injective (fun i : Nat => i + j) := fun a b hab => by simpa using hab
  rw [← hinj.hasSum_iff]
  · convert h using 2 with i
    simp only [Function.comp_apply, Nat.le_add_left, if_true, Nat.add_sub_cancel]
    congr 1
    rw [pow_add]; ring
  · intro n hn
    rw [if_neg, smul_zero]
    intro hle
    exact hn ⟨n - j, by simp only; omega⟩

/-- **C32** (first sub-step, all orders): if the exponential of the augmented product is exact, the head of its action on the
    start vector is `Σ_j t^j φ_j(tA) u_j`, for every number of vectors and every time. -/
theorem C32_first_substep (p : Nat) (hp : 1 ≤ p) (A : V →L[ℝ] V) (u : Nat → V) (nu mu : ℝ) (h : nu * mu = 1) (t : ℝ) :
    (NormedSpace.exp (t • augCLM A (uFlip nu p u)) (startVec p (u 0) mu 0)).1 = phiSum p A u t := by
  have h1 := (exp_apply_hasSum (augCLM A (uFlip nu p u)) t (startVec p (u 0) mu 0)).mapL
    (ContinuousLinearMap.fst ℝ V (Fin p → ℝ))
  simp only [ContinuousLinearMap.coe_fst', Prod.smul_fst, (augPow p hp A u nu mu h _).1] at h1
  have h2 : HasSum (fun n : Nat => ∑ j ∈ Finset.range (p + 1),
      (t ^ n / (n.factorial : ℝ)) • (if j ≤ n then (A ^ (n - j)) (u j) else 0)) (phiSum p A u t) :=
    hasSum_sum fun j _ => phi_term j A t (u j)
  simp only [← Finset.smul_sum] at h2
  exact h1.unique h2

/-- the exact tail of the augmented vector at time `t`: `t^{p-1-k}/(p-1-k)! mu` -/
theorem C32_exact_tail (p : Nat) (hp : 1 ≤ p) (A : V →L[ℝ] V) (u : Nat → V) (nu mu : ℝ) (h : nu * mu = 1) (t : ℝ) (k : Fin p) :
    (NormedSpace.exp (t • augCLM A (uFlip nu p u)) (startVec p (u 0) mu 0)).2 k =
      t ^ (p - 1 - k) / ((p - 1 - k).factorial : ℝ) * mu := by
  have h1 := (exp_apply_hasSum (augCLM A (uFlip nu p u)) t (startVec p (u 0) mu 0)).mapL
    ((ContinuousLinearMap.proj k).comp (ContinuousLinearMap.snd ℝ V (Fin p → ℝ)))
  simp only [ContinuousLinearMap.comp_apply, ContinuousLinearMap.coe_snd', Prod.smul_snd, ContinuousLinearMap.proj_apply,
    Pi.smul_apply, (augPow p hp A u nu mu h _).2, smul_eq_mul] at h1
  refine h1.unique ?_
  have := k.2
  have h2 := hasSum_ite_eq (p - 1 - (k : Nat)) (t ^ (p - 1 - (k : Nat)) / ((p - 1 - (k : Nat)).factorial : ℝ) * mu)
  convert h2 using 2 with n
  by_cases hn : n = p - 1 - k
  · subst hn; rw [if_pos (by omega), if_pos rfl]
  · rw [if_neg (by omega), if_neg hn, mul_zero]

/-- sub-steps of sizes `taus` from time `t` and value `w`, with an exact exponential and the start vectors of the code
    (`kiops.py` 152–320, `pmex.py` 133–346) -/
noncomputable def march (p : Nat) (mu : ℝ) (T : V × (Fin p → ℝ) →L[ℝ] V × (Fin p → ℝ)) : List ℝ → ℝ → V → V
  | [], _, w => w
  | tau :: rest, t, w => march p mu T rest (t + tau) (NormedSpace.exp (tau • T) (startVec p w mu t)).1

/-- one sub-step (any number of vectors): the code's march is exact -/
theorem C32_one_substep_partial (p : Nat) (hp : 1 ≤ p) (A : V →L[ℝ] V) (u : Nat → V) (ex : ℤ) (t : ℝ) :
    march p (scale ex).2 (augCLM A (uFlip (scale ex : ℝ × ℝ).1 p u)) [t] 0 (u 0) = phiSum p A u t := by
  have h : (scale ex : ℝ × ℝ).1 * (scale ex : ℝ × ℝ).2 = 1 := by
    simp only [scale]; rw [← zpow_add₀ (by norm_num)]; simp
  simp only [march]
  exact C32_first_substep p hp A u _ _ h t

theorem exp_split {E : Type*} [NormedAddCommGroup E] [NormedSpace ℝ E] [CompleteSpace E] (T : E →L[ℝ] E) (a b : ℝ) (v : E) :
    NormedSpace.exp ((a + b) • T) v = NormedSpace.exp (b • T) (NormedSpace.exp (a • T) v) := by
  letI : NormedAlgebra ℚ (E →L[ℝ] E) := NormedAlgebra.restrictScalars ℚ ℝ (E →L[ℝ] E)
  have : NormedSpace.exp ((a + b) • T) = NormedSpace.exp (b • T) * NormedSpace.exp (a • T) := by
    rw [add_comm, add_smul]
    exact NormedSpace.exp_add_of_commute (((Commute.refl T).smul_left b).smul_right a)
  rw [this, ContinuousLinearMap.mul_apply]

/-- **C32** for two vectors `u_0, u_1` (what one call for `φ_1` uses): any sequence of sub-steps gives
    `φ_0(tA) u_0 + t φ_1(tA) u_1` at the total time. -/
theorem C32_phi1_all_substeps (A : V →L[ℝ] V) (u : Nat → V) (ex : ℤ) (taus : List ℝ) :
    march 1 (scale ex).2 (augCLM A (uFlip (scale ex : ℝ × ℝ).1 1 u)) taus 0 (u 0) = phiSum 1 A u taus.sum := by
  have h : (scale ex : ℝ × ℝ).1 * (scale ex : ℝ × ℝ).2 = 1 := by
    simp only [scale]; rw [← zpow_add₀ (by norm_num)]; simp
  have key : ∀ (taus : List ℝ) (t : ℝ),
      march 1 (scale ex).2 (augCLM A (uFlip (scale ex : ℝ × ℝ).1 1 u)) taus t (phiSum 1 A u t) = phiSum 1 A u (t + taus.sum) := by
    intro taus
    induction taus with
    | nil => intro t; simp [march]
    | cons tau rest ih =>
      intro t
      rw [march]
      have hst : startVec 1 (phiSum 1 A u t) (scale ex : ℝ × ℝ).2 t =
          NormedSpace.exp (t • augCLM A (uFlip (scale ex : ℝ × ℝ).1 1 u)) (startVec 1 (u 0) (scale ex).2 0) := by
        refine Prod.ext ?_ ?_
        · rw [C32_first_substep 1 le_rfl A u _ _ h t]; rfl
        · funext k
          rw [C32_exact_tail 1 le_rfl A u _ _ h t k]
          have : (k : Nat) = 0 := by have := k.2; omega
          simp [startVec, this]
      rw [hst, ← exp_split, C32_first_substep 1 le_rfl A u _ _ h, ih, List.sum_cons, add_assoc]
  have h0 : phiSum 1 A u 0 = u 0 := by
    rw [← C32_first_substep 1 le_rfl A u _ _ h 0, zero_smul, NormedSpace.exp_zero]; rfl
  have := key taus 0
  rwa [h0, zero_add] at this

omit [CompleteSpace V] in
/-- **C32**, where it fails: with two or more added vectors, after the first sub-step the start vector of the code is never
    the state of the augmented system (except that for two vectors it is at `t = √6`): the entry before the last is
    `t³/6` instead of `t`. -/
theorem C32_restart_fails (p : Nat) (hp : 2 ≤ p) (w : V) (mu t : ℝ) (hmu : mu ≠ 0) (ht : 0 < t) (h6 : t ^ 2 ≠ 6) :
    (startVec p w mu t).2 ⟨p - 2, by omega⟩ ≠ t ^ (p - 1 - (p - 2)) / ((p - 1 - (p - 2)).factorial : ℝ) * mu := by
  simp only [startVec]
  rw [if_pos (by omega), show p - (p - 2) + 1 = 3 by omega, show p - 1 - (p - 2) = 1 by omega]
  intro hh
  have h1 := mul_right_cancel₀ hmu hh
  have e3 : ((Nat.factorial 3 : ℕ) : ℝ) = 6 := by norm_num [Nat.factorial]
  rw [e3] at h1
  simp only [pow_one, Nat.factorial_one, Nat.cast_one, div_one] at h1
  apply h6
  have h2 : t * (t ^ 2 - 6) = 0 := by
    have : t ^ 3 = 6 * t := by linarith
    linear_combination this
  rcases mul_eq_zero.1 h2 with h3 | h3
  · linarith
  · linarith

end

/-- powers of the augmented product of the scalar problem `w' = u_2 t` (`A = 0`) vanish from the third on -/
theorem quad_exp (T : ℝ × (Fin 2 → ℝ) →L[ℝ] ℝ × (Fin 2 → ℝ)) (hT : ∀ v, T v = (v.2 0, ![v.2 1, 0])) (tau : ℝ)
    (v : ℝ × (Fin 2 → ℝ)) :
    (NormedSpace.exp (tau • T) v).1 = v.1 + tau * v.2 0 + tau ^ 2 / 2 * v.2 1 := by
  have h := exp_apply_hasSum T tau v
  have h1 : (T ^ 1) v = (v.2 0, ![v.2 1, 0]) := by rw [pow_one, hT]
  have h2 : (T ^ 2) v = (v.2 1, ![0, 0]) := by rw [pow_succ', ContinuousLinearMap.mul_apply, h1, hT]; simp
  have h3 : ∀ n, (T ^ (n + 3)) v = 0 := by
    intro n
    rw [pow_add, ContinuousLinearMap.mul_apply, show (T ^ 3) v = 0 by
      rw [pow_succ', ContinuousLinearMap.mul_apply, h2, hT]
      refine Prod.ext (by simp) ?_
      funext k; fin_cases k <;> simp, map_zero]
  have h4 := hasSum_sum_of_ne_finset_zero (f := fun n : Nat => (tau ^ n / (n.factorial : ℝ)) • (T ^ n) v)
    (s := Finset.range 3) (L := .unconditional ℕ) (by
      intro n hn
      simp only [Finset.mem_range, not_lt] at hn
      obtain ⟨k, rfl⟩ := Nat.exists_eq_add_of_le hn
      rw [show 3 + k = k + 3 by omega, h3, smul_zero])
  rw [h.unique h4, Finset.sum_range_succ, Finset.sum_range_succ, Finset.sum_range_one, h1, h2]
  simp [Nat.factorial]

/-- **C32**, a wrong answer: for `w' = t` from `w(0) = 0`, two sub-steps of sizes `a` and `b` give
    `a²/2 + a³ b/6 + b²/2`, not `(a + b)²/2`. -/
theorem C32_two_substeps_fail (a b : ℝ) (ha : 0 < a) (hb : 0 < b) (h6 : a ^ 2 ≠ 6) :
    march 2 1 (augCLM (0 : ℝ →L[ℝ] ℝ) (uFlip (1 : ℝ) 2 fun j => if j = 2 then (1 : ℝ) else 0)) [a, b] 0 0 =
      a ^ 2 / 2 + a ^ 3 / 6 * b + b ^ 2 / 2 ∧
    phiSum 2 (0 : ℝ →L[ℝ] ℝ) (fun j => if j = 2 then (1 : ℝ) else 0) (a + b) = (a + b) ^ 2 / 2 ∧
    march 2 1 (augCLM (0 : ℝ →L[ℝ] ℝ) (uFlip (1 : ℝ) 2 fun j => if j = 2 then (1 : ℝ) else 0)) [a, b] 0 0 ≠
      phiSum 2 (0 : ℝ →L[ℝ] ℝ) (fun j => if j = 2 then (1 : ℝ) else 0) (a + b) := by
  have hT : ∀ v, augCLM (0 : ℝ →L[ℝ] ℝ) (uFlip (1 : ℝ) 2 fun j => if j = 2 then (1 : ℝ) else 0) v = (v.2 0, ![v.2 1, 0]) := by
    intro v
    rw [augCLM_apply]
    refine Prod.ext ?_ ?_
    · simp [augMul, uFlip]
    · funext k; fin_cases k <;> simp [augMul]
  have e3 : ((Nat.factorial 3 : ℕ) : ℝ) = 6 := by norm_num [Nat.factorial]
  have h1 : march 2 1 (augCLM (0 : ℝ →L[ℝ] ℝ) (uFlip (1 : ℝ) 2 fun j => if j = 2 then (1 : ℝ) else 0)) [a, b] 0 0 =
      a ^ 2 / 2 + a ^ 3 / 6 * b + b ^ 2 / 2 := by
    simp only [march, quad_exp _ hT]
    simp [startVec, e3]
    ring
  have h2 : phiSum 2 (0 : ℝ →L[ℝ] ℝ) (fun j => if j = 2 then (1 : ℝ) else 0) (a + b) = (a + b) ^ 2 / 2 := by
    rw [← C32_first_substep 2 (by norm_num) 0 _ 1 1 (by norm_num), quad_exp _ hT]
    simp [startVec]
  refine ⟨h1, h2, ?_⟩
  rw [h1, h2]
  intro hh
  apply h6
  have : a * b * (a ^ 2 - 6) = 0 := by linear_combination 6 * hh
  have hab : a * b ≠ 0 := (mul_pos ha hb).ne'
  have := (mul_eq_zero.1 this).resolve_left hab
  linarith

/-- **C32**: a call with a single vector (no `φ` function beyond the exponential) is refused unless the vector has one entry:
    the row of zeros that is appended has the wrong length. -/
theorem C32_single_vector_fails {K : Type*} [_root_.Field K] (n : Nat) (hn : n ≠ 1) (row : List K) :
    stack [row] n = none := by
  simp [stack, Ne.symm hn]

/-- three vectors, the scaling by two of the code, and an operator that is not the identity -/
example (t : ℝ) : (NormedSpace.exp (t • augCLM ((3 : ℝ) • ContinuousLinearMap.id ℝ ℝ) (uFlip (2 : ℝ) 3 fun j => (j : ℝ) + 1)) (startVec 3 (((0 : Nat) : ℝ) + 1) (1 / 2 : ℝ) 0)).1 =
    phiSum 3 ((3 : ℝ) • ContinuousLinearMap.id ℝ ℝ) (fun j => (j : ℝ) + 1) t :=
  C32_first_substep 3 (by norm_num) _ (fun j => (j : ℝ) + 1) 2 (1 / 2) (by norm_num) t

/-- two sub-steps of one half: the code returns 25/96 instead of 1/2 -/
example : march 2 1 (augCLM (0 : ℝ →L[ℝ] ℝ) (uFlip (1 : ℝ) 2 fun j => if j = 2 then (1 : ℝ) else 0)) [1 / 2, 1 / 2] 0 0 = 25 / 96 ∧
    phiSum 2 (0 : ℝ →L[ℝ] ℝ) (fun j => if j = 2 then (1 : ℝ) else 0) (1 / 2 + 1 / 2) = 1 / 2 := by
  obtain ⟨h1, h2, -⟩ := C32_two_substeps_fail (1 / 2) (1 / 2) (by norm_num) (by norm_num) (by norm_num)
  exact ⟨h1.trans (by norm_num), h2.trans (by norm_num)⟩

end WxVerif.Props.Augmented
