import Verif.Spec.EpiConvergence
import Verif.Lemmas.UniformTaylor
import Mathlib.Analysis.Calculus.IteratedDeriv.Defs
import Mathlib.Analysis.Calculus.MeanValue
import Mathlib.Analysis.SpecialFunctions.Exponential

/-!
# Lemmas for the convergence of the exponential propagation integrators
-/

namespace WxVerif.EpiConvergence

open Set SpecConvergence SpecEpiConvergence UniformTaylor

universe u

variable {V : Type u} [NormedAddCommGroup V] [NormedSpace ℝ V]

/-! ## The derivatives of the exact solution -/

/-- the successive derivatives of the solution, and a bound of them -/
structure Jets (y : ℝ → V) (T : ℝ) (n : Nat) (B : ℝ) (d : Nat → ℝ → V) : Prop where
  zero : ∀ t, d 0 t = y t
  step : ∀ j < n, ∀ t ∈ Icc 0 T, HasDerivWithinAt (d j) (d (j + 1) t) (Icc 0 T) t
  bound : ∀ j ≤ n, ∀ t ∈ Icc 0 T, ‖d j t‖ ≤ B

theorem contDiffOn_solution {f : V → V} {y : ℝ → V} {T : ℝ} {p : Nat} (hT : 0 < T) (hs : SmoothSolution f y T p) :
    ∀ n ≤ p + 1, ContDiffOn ℝ (n : WithTop ℕ∞) y (Icc 0 T) := by
  have uq := uniqueDiffOn_Icc hT
  intro n
  induction n with
  | zero =>
    intro _
    rw [Nat.cast_zero, contDiffOn_zero]
    exact fun t ht => (hs.solves t ht).continuousWithinAt
  | succ n ih =>
    intro hn
    rw [Nat.cast_succ, contDiffOn_succ_iff_derivWithin uq]
    refine ⟨fun t ht => (hs.solves t ht).differentiableWithinAt, fun h => absurd h (by simp), ?_⟩
    have : ContDiffOn ℝ (n : WithTop ℕ∞) (fun t => f (y t)) (Icc 0 T) := fun t ht =>
      (((hs.smooth t ht).of_le (by exact_mod_cast Nat.le_of_succ_le_succ hn)).comp_contDiffWithinAt t (ih (by omega) t ht))
    exact this.congr fun t ht => (hs.solves t ht).derivWithin (uq t ht)

theorem jets {f : V → V} {y : ℝ → V} {T : ℝ} {p : Nat} (hT : 0 < T) (hs : SmoothSolution f y T p) :
    ∃ B d, 0 ≤ B ∧ Jets y T (p + 1) B d := by
  have uq := uniqueDiffOn_Icc hT
  have hc := contDiffOn_solution hT hs (p + 1) le_rfl
  have hb : ∀ j ≤ p + 1, ∃ B : ℝ, ∀ t ∈ Icc 0 T, ‖iteratedDerivWithin j y (Icc 0 T) t‖ ≤ B := by
    intro j hj
    have := hc.continuousOn_iteratedDerivWithin (m := j) (by exact_mod_cast hj) uq
    obtain ⟨C, hC⟩ := isCompact_Icc.exists_bound_of_continuousOn this
    exact ⟨C, hC⟩
  choose! B hB using hb
  refine ⟨∑ j ∈ Finset.range (p + 2), |B j|, fun j => iteratedDerivWithin j y (Icc 0 T), Finset.sum_nonneg fun _ _ => abs_nonneg _,
    fun t => by simp, fun j hj t ht => ?_, fun j hj t ht => ?_⟩
  · have := (hc.differentiableOn_iteratedDerivWithin (m := j) (by exact_mod_cast hj) uq) t ht
    rw [iteratedDerivWithin_succ]
    exact this.hasDerivWithinAt
  · exact (hB j hj t ht).trans ((le_abs_self _).trans
      (Finset.single_le_sum (f := fun j => |B j|) (fun _ _ => abs_nonneg _) (Finset.mem_range.2 (by omega))))

/-- Taylor's theorem in both directions, for a function given with its derivatives -/
theorem taylor_both {T B : ℝ} (B0 : 0 ≤ B) : ∀ (n : Nat) (d : Nat → ℝ → V),
    (∀ j < n, ∀ t ∈ Icc 0 T, HasDerivWithinAt (d j) (d (j + 1) t) (Icc 0 T) t) → (∀ t ∈ Icc 0 T, ‖d n t‖ ≤ B) →
    ∀ t ∈ Icc 0 T, ∀ x ∈ Icc 0 T,
      ‖d 0 x - ∑ j ∈ Finset.range n, ((x - t) ^ j / (j.factorial : ℝ)) • d j t‖ ≤ B * |x - t| ^ n
  | 0, d, _, hB, t, _, x, hx => by simpa using hB x hx
  | n + 1, d, hd, hB, t, ht, X, hX => by
    have ih := taylor_both B0 n (fun j => d (j + 1)) (fun j hj => hd (j + 1) (by omega)) hB t ht
    have sub : uIcc t X ⊆ Icc 0 T := (convex_Icc 0 T).ordConnected.uIcc_subset ht hX
    have der : ∀ x ∈ uIcc t X, HasDerivWithinAt (fun x => d 0 x - ∑ j ∈ Finset.range (n + 1), ((x - t) ^ j / (j.factorial : ℝ)) • d j t)
        (d 1 x - ∑ j ∈ Finset.range n, ((x - t) ^ j / (j.factorial : ℝ)) • d (j + 1) t) (uIcc t X) x := by
      intro x hx
      refine ((hd 0 (by omega) x (sub hx)).mono sub).sub ?_
      have : ∑ j ∈ Finset.range n, ((x - t) ^ j / (j.factorial : ℝ)) • d (j + 1) t =
          ∑ j ∈ Finset.range (n + 1), ((j : ℝ) * (x - t) ^ (j - 1) * 1 / (j.factorial : ℝ)) • d j t := by
        rw [Finset.sum_range_succ']
        simp only [Nat.cast_zero, zero_mul, zero_div, zero_smul, add_zero]
        refine Finset.sum_congr rfl fun j _ => ?_
        congr 1
        rw [Nat.add_sub_cancel, Nat.factorial_succ]
        push_cast
        have h1 : (j.factorial : ℝ) ≠ 0 := by positivity
        have h2 : ((j : ℝ) + 1) ≠ 0 := by positivity
        field_simp
      rw [this]
      have hp : ∀ j ∈ Finset.range (n + 1), HasDerivWithinAt (fun x => ((x - t) ^ j / (j.factorial : ℝ)) • d j t)
          (((j : ℝ) * (x - t) ^ (j - 1) * 1 / (j.factorial : ℝ)) • d j t) (uIcc t X) x := fun j _ =>
        ((((hasDerivWithinAt_id x _).sub_const t).pow j).div_const _).smul_const _
      have := HasDerivWithinAt.fun_sum hp
      exact this
    have key := (convex_uIcc t X).norm_image_sub_le_of_norm_hasDerivWithin_le (C := B * |X - t| ^ n) der (fun x hx => ?_)
      left_mem_uIcc right_mem_uIcc
    · have z : d 0 t - ∑ j ∈ Finset.range (n + 1), ((t - t) ^ j / (j.factorial : ℝ)) • d j t = 0 := by
        rw [Finset.sum_range_succ']
        simp
      rw [z, sub_zero, Real.norm_eq_abs] at key
      calc _ ≤ _ := key
        _ = _ := by ring
    · refine (ih x (sub hx)).trans (mul_le_mul_of_nonneg_left (pow_le_pow_left₀ (abs_nonneg _) ?_ n) B0)
      exact abs_sub_left_of_mem_uIcc hx

theorem jet_one {f : V → V} {y : ℝ → V} {T B : ℝ} {p n : Nat} {d : Nat → ℝ → V} (hT : 0 < T) (hs : SmoothSolution f y T p)
    (hj : Jets y T (n + 1) B d) {t : ℝ} (ht : t ∈ Icc 0 T) : d 1 t = f (y t) := by
  have h := hj.step 0 (by omega) t ht
  rw [show d 0 = y from funext hj.zero] at h
  exact (uniqueDiffOn_Icc hT t ht).eq_deriv _ h (hs.solves t ht)

theorem jet_two {f : V → V} {y : ℝ → V} {T B : ℝ} {p n : Nat} {d : Nat → ℝ → V} (hT : 0 < T) (hp : 1 ≤ p) (hs : SmoothSolution f y T p)
    (hj : Jets y T (n + 2) B d) {t : ℝ} (ht : t ∈ Icc 0 T) : d 2 t = fderiv ℝ f (y t) (d 1 t) := by
  have h := hj.step 1 (by omega) t ht
  have hf : HasFDerivAt f (fderiv ℝ f (y t)) (y t) :=
    ((hs.smooth t ht).differentiableAt (by exact_mod_cast (by omega : p ≠ 0))).hasFDerivAt
  have c : HasDerivWithinAt (fun t => f (y t)) (fderiv ℝ f (y t) (f (y t))) (Icc 0 T) t := hf.comp_hasDerivWithinAt t (hs.solves t ht)
  have c' := c.congr (fun x hx => jet_one hT hs hj hx) (jet_one hT hs hj ht)
  rw [jet_one hT hs hj ht]
  exact (uniqueDiffOn_Icc hT t ht).eq_deriv _ h c'

/-- the coefficients of the nonlinear remainder along the exact solution -/
noncomputable def coeffs (J : V →L[ℝ] V) (d : Nat → V) (j : Nat) : V := if j = 0 then 0 else d (j + 1) - J (d j)

theorem sum_coeffs (J : V →L[ℝ] V) (d : Nat → V) (c : Nat → ℝ) (c0 : c 0 = 1) {p : Nat} (hp : 1 ≤ p) :
    ∑ j ∈ Finset.range p, c j • coeffs J d j =
      (∑ j ∈ Finset.range p, c j • d (j + 1) - J (∑ j ∈ Finset.range p, c j • d j)) - (d 1 - J (d 0)) := by
  obtain ⟨q, rfl⟩ := Nat.exists_eq_add_of_le' hp
  rw [Finset.sum_range_succ', Finset.sum_range_succ' (fun j => c j • d (j + 1)), Finset.sum_range_succ' (fun j => c j • d j)]
  simp only [coeffs, c0, Nat.add_eq_zero_iff, one_ne_zero, and_false, if_false, if_true, smul_zero, add_zero, zero_add, one_smul, map_add,
    map_sum, map_smul, smul_sub, Finset.sum_sub_distrib]
  abel

theorem remainder_expansion {f : V → V} {y : ℝ → V} {T B M : ℝ} {p : Nat} {d : Nat → ℝ → V} (hT : 0 < T) (hp : 1 ≤ p)
    (hs : SmoothSolution f y T p) (B0 : 0 ≤ B) (hj : Jets y T (p + 1) B d) {t : ℝ} (ht : t ∈ Icc 0 T) {J : V →L[ℝ] V} (hJ : ‖J‖ ≤ M)
    {x : ℝ} (hx : x ∈ Icc 0 T) :
    ‖(f (y x) - f (y t)) - J (y x - y t) - ∑ j ∈ Finset.range p, ((x - t) ^ j / (j.factorial : ℝ)) • coeffs J (fun j => d j t) j‖ ≤
      (B + M * B) * |x - t| ^ p := by
  have M0 : 0 ≤ M := (norm_nonneg _).trans hJ
  have h1 := taylor_both B0 p (fun j => d (j + 1)) (fun j hl => hj.step (j + 1) (by omega)) (hj.bound (p + 1) le_rfl) t ht x hx
  have h0 := taylor_both B0 p d (fun j hl => hj.step j (by omega)) (hj.bound p (by omega)) t ht x hx
  rw [sum_coeffs J (fun j => d j t) _ (by simp) hp]
  simp only [zero_add] at h1
  rw [jet_one hT hs hj hx] at h1
  rw [hj.zero] at h0
  have e : (f (y x) - f (y t)) - J (y x - y t) - ((∑ j ∈ Finset.range p, ((x - t) ^ j / (j.factorial : ℝ)) • d (j + 1) t -
      J (∑ j ∈ Finset.range p, ((x - t) ^ j / (j.factorial : ℝ)) • d j t)) - (d 1 t - J (d 0 t))) =
      (f (y x) - ∑ j ∈ Finset.range p, ((x - t) ^ j / (j.factorial : ℝ)) • d (j + 1) t) -
        J (y x - ∑ j ∈ Finset.range p, ((x - t) ^ j / (j.factorial : ℝ)) • d j t) := by
    rw [jet_one hT hs hj ht, hj.zero, map_sub, map_sub]
    abel
  rw [e]
  refine (norm_sub_le _ _).trans ?_
  have : ‖J (y x - ∑ j ∈ Finset.range p, ((x - t) ^ j / (j.factorial : ℝ)) • d j t)‖ ≤ M * (B * |x - t| ^ p) :=
    (J.le_opNorm _).trans (mul_le_mul hJ h0 (norm_nonneg _) M0)
  linarith

theorem coeffs_bound {J : V →L[ℝ] V} {d : Nat → V} {M B : ℝ} (hJ : ‖J‖ ≤ M) (B0 : 0 ≤ B) {j : Nat} (h1 : ‖d (j + 1)‖ ≤ B) (h0 : ‖d j‖ ≤ B) :
    ‖coeffs J d j‖ ≤ B + M * B := by
  have M0 : 0 ≤ M := (norm_nonneg _).trans hJ
  unfold coeffs
  split_ifs
  · rw [norm_zero]; positivity
  · refine (norm_sub_le _ _).trans (add_le_add h1 ((J.le_opNorm _).trans (mul_le_mul hJ h0 (norm_nonneg _) M0)))

/-- the derivatives of the solution in terms of the Jacobian and the remainder -/
theorem jet_recursion (J : V →L[ℝ] V) (d : Nat → V) (m : Nat) :
    d (m + 1) = (J ^ m) (d 1) + ∑ j ∈ Finset.range (m + 1), (J ^ (m - j)) (coeffs J d j) := by
  induction m with
  | zero => simp [coeffs]
  | succ m ih =>
    have e : d (m + 1 + 1) = J (d (m + 1)) + coeffs J d (m + 1) := by simp [coeffs]
    rw [e, Finset.sum_range_succ, Nat.sub_self, pow_zero, ← add_assoc]
    congr 1
    rw [ih, map_add, map_sum, pow_succ']
    congr 1
    refine Finset.sum_congr rfl fun j hj => ?_
    rw [Nat.succ_sub (by have := Finset.mem_range.1 hj; omega), pow_succ']
    rfl

theorem triangle (p : Nat) (g : Nat → Nat → V) :
    ∑ m ∈ Finset.range p, ∑ j ∈ Finset.range (m + 1), g (m - j) j =
      ∑ j ∈ Finset.range p, ∑ l ∈ Finset.range p, if l + j < p then g l j else 0 := by
  rw [Finset.sum_sigma', Finset.sum_sigma', ← Finset.sum_filter]
  refine Finset.sum_bij' (fun a _ => ⟨a.2, a.1 - a.2⟩) (fun a _ => ⟨a.1 + a.2, a.1⟩) ?_ ?_ ?_ ?_ ?_
  · rintro ⟨m, j⟩ h
    simp only [Finset.mem_sigma, Finset.mem_range, Finset.mem_filter] at h ⊢
    omega
  · rintro ⟨j, l⟩ h
    simp only [Finset.mem_sigma, Finset.mem_range, Finset.mem_filter] at h ⊢
    omega
  · rintro ⟨m, j⟩ h
    simp only [Finset.mem_sigma, Finset.mem_range] at h
    simp only [Sigma.mk.injEq, heq_eq_eq, and_true]
    omega
  · rintro ⟨j, l⟩ h
    simp
  · rintro ⟨m, j⟩ h
    rfl

/-! ## The functions φ and their truncations -/

/-- `φ_k(h A)` cut after `p` terms -/
noncomputable def trunc (p k : Nat) (h : ℝ) (A : V →L[ℝ] V) : V →L[ℝ] V :=
  ∑ l ∈ Finset.range p, (h ^ l / ((l + k).factorial : ℝ)) • A ^ l

theorem trunc_apply (p k : Nat) (h : ℝ) (A : V →L[ℝ] V) (v : V) :
    trunc p k h A v = ∑ l ∈ Finset.range p, (h ^ l / ((l + k).factorial : ℝ)) • (A ^ l) v := by
  simp [trunc, ContinuousLinearMap.sum_apply]

theorem pow_bound {A : V →L[ℝ] V} {K : ℝ} (hA : ‖A‖ ≤ K) (v : V) : ∀ l : Nat, ‖(A ^ l) v‖ ≤ K ^ l * ‖v‖
  | 0 => by simp
  | l + 1 => by
    rw [pow_succ', ContinuousLinearMap.mul_apply]
    refine (A.le_opNorm _).trans ?_
    have := mul_le_mul hA (pow_bound hA v l) (norm_nonneg _) ((norm_nonneg _).trans hA)
    rw [pow_succ]
    linarith

theorem pow_diff {A A' : V →L[ℝ] V} {K : ℝ} (hA : ‖A‖ + 1 ≤ K) (hA' : ‖A'‖ + 1 ≤ K) (v v' : V) :
    ∀ l : Nat, ‖(A ^ l) v - (A' ^ l) v'‖ ≤ K ^ l * (‖v - v'‖ + ‖A - A'‖ * ‖v'‖)
  | 0 => by
    simp only [pow_zero, ContinuousLinearMap.one_apply, one_mul]
    have : 0 ≤ ‖A - A'‖ * ‖v'‖ := by positivity
    linarith
  | l + 1 => by
    have K0 : 0 ≤ K := by linarith [norm_nonneg A]
    have ih := pow_diff hA hA' v v' l
    have e : (A ^ (l + 1)) v - (A' ^ (l + 1)) v' = A ((A ^ l) v - (A' ^ l) v') + (A - A') ((A' ^ l) v') := by
      rw [pow_succ', pow_succ', ContinuousLinearMap.mul_apply, ContinuousLinearMap.mul_apply, map_sub, ContinuousLinearMap.sub_apply]
      abel
    rw [e]
    set X := ‖v - v'‖ + ‖A - A'‖ * ‖v'‖
    have h1 : ‖A ((A ^ l) v - (A' ^ l) v')‖ ≤ (K - 1) * (K ^ l * X) :=
      (A.le_opNorm _).trans (mul_le_mul (by linarith) ih (norm_nonneg _) (by linarith [norm_nonneg A]))
    have h2 : ‖(A - A') ((A' ^ l) v')‖ ≤ K ^ l * X := by
      refine ((A - A').le_opNorm _).trans ?_
      have := mul_le_mul_of_nonneg_left (pow_bound (by linarith : ‖A'‖ ≤ K) v' l) (norm_nonneg (A - A'))
      have : K ^ l * (‖A - A'‖ * ‖v'‖) ≤ K ^ l * X := mul_le_mul_of_nonneg_left (by simp only [X]; linarith [norm_nonneg (v - v')]) (by positivity)
      linarith
    refine (norm_add_le _ _).trans ?_
    rw [pow_succ]
    linarith

theorem weight_le {h : ℝ} (h0 : 0 ≤ h) (h1 : h ≤ 1) (l k : Nat) : ‖h ^ l / ((l + k).factorial : ℝ)‖ ≤ 1 := by
  rw [Real.norm_of_nonneg (by positivity)]
  refine div_le_one_of_le₀ ((pow_le_one₀ h0 h1).trans ?_) (by positivity)
  exact_mod_cast Nat.factorial_pos _

theorem trunc_diff (p k : Nat) {h : ℝ} (h0 : 0 ≤ h) (h1 : h ≤ 1) {A A' : V →L[ℝ] V} {K : ℝ} (hA : ‖A‖ + 1 ≤ K) (hA' : ‖A'‖ + 1 ≤ K) (v v' : V) :
    ‖trunc p k h A v - trunc p k h A' v'‖ ≤ p * K ^ p * (‖v - v'‖ + ‖A - A'‖ * ‖v'‖) := by
  have K1 : 1 ≤ K := by linarith [norm_nonneg A]
  rw [trunc_apply, trunc_apply, ← Finset.sum_sub_distrib]
  refine (norm_sum_le _ _).trans ?_
  have : ∀ l ∈ Finset.range p, ‖(h ^ l / ((l + k).factorial : ℝ)) • (A ^ l) v - (h ^ l / ((l + k).factorial : ℝ)) • (A' ^ l) v'‖ ≤
      K ^ p * (‖v - v'‖ + ‖A - A'‖ * ‖v'‖) := by
    intro l hl
    rw [← smul_sub, norm_smul]
    refine (mul_le_mul (weight_le h0 h1 l k) (pow_diff hA hA' v v' l) (norm_nonneg _) zero_le_one).trans ?_
    rw [one_mul]
    exact mul_le_mul_of_nonneg_right (pow_le_pow_right₀ K1 (Finset.mem_range.1 hl).le) (by positivity)
  refine (Finset.sum_le_sum this).trans ?_
  rw [Finset.sum_const, Finset.card_range, nsmul_eq_mul, mul_assoc]

theorem trunc_bound (p k : Nat) {h : ℝ} (h0 : 0 ≤ h) (h1 : h ≤ 1) {A : V →L[ℝ] V} {K : ℝ} (hA : ‖A‖ + 1 ≤ K) (v : V) :
    ‖trunc p k h A v‖ ≤ p * K ^ p * ‖v‖ := by
  simpa using trunc_diff p k h0 h1 hA hA v 0

theorem phi_trunc [CompleteSpace V] (p : Nat) {K : ℝ} (K0 : 0 ≤ K) : ∃ C, 0 ≤ C ∧ ∀ (k : Nat) (h : ℝ), 0 ≤ h → h ≤ 1 → ∀ (A : V →L[ℝ] V), ‖A‖ ≤ K →
    ∀ v, ‖phi k (h • A) v - trunc p k h A v‖ ≤ C * h ^ p * ‖v‖ := by
  refine ⟨K ^ p * ∑' j : Nat, K ^ j / (j.factorial : ℝ), by positivity, fun k h h0 h1 A hA v => ?_⟩
  have sK := Real.summable_pow_div_factorial K
  have term : ∀ j : Nat, ((j + k).factorial : ℝ)⁻¹ • ((h • A) ^ j) v = (h ^ j / ((j + k).factorial : ℝ)) • (A ^ j) v := by
    intro j
    rw [smul_pow, ContinuousLinearMap.smul_apply, smul_smul]
    congr 1; ring
  have fac : ∀ j i : Nat, (1 : ℝ) / ((j + i).factorial : ℝ) ≤ 1 / (j.factorial : ℝ) := fun j i =>
    one_div_le_one_div_of_le (by positivity) (by exact_mod_cast Nat.factorial_le (by omega))
  have bd : ∀ q j : Nat, ‖(h ^ (j + q) / ((j + q + k).factorial : ℝ)) • (A ^ (j + q)) v‖ ≤ K ^ j / (j.factorial : ℝ) * (K ^ q * h ^ q * ‖v‖) := by
    intro q j
    rw [norm_smul, Real.norm_of_nonneg (by positivity)]
    have a := pow_bound hA v (j + q)
    have b := fac j (q + k)
    rw [← add_assoc] at b
    have c : h ^ (j + q) ≤ h ^ q := pow_le_pow_of_le_one h0 h1 (by omega)
    calc h ^ (j + q) / ((j + q + k).factorial : ℝ) * ‖(A ^ (j + q)) v‖
        = h ^ (j + q) * (1 / ((j + q + k).factorial : ℝ)) * ‖(A ^ (j + q)) v‖ := by ring
      _ ≤ h ^ q * (1 / (j.factorial : ℝ)) * (K ^ (j + q) * ‖v‖) := by gcongr
      _ = _ := by rw [pow_add]; ring
  have sm : Summable fun j : Nat => (h ^ j / ((j + k).factorial : ℝ)) • (A ^ j) v := by
    refine Summable.of_norm_bounded (g := fun j => K ^ j / (j.factorial : ℝ) * ‖v‖) (sK.mul_right _) fun j => ?_
    simpa using bd 0 j
  unfold phi
  rw [tsum_congr term, trunc_apply, ← sm.sum_add_tsum_nat_add p, add_sub_cancel_left]
  have := tsum_of_norm_bounded (f := fun j : Nat => (h ^ (j + p) / ((j + p + k).factorial : ℝ)) • (A ^ (j + p)) v)
    ((sK.mul_right (K ^ p * h ^ p * ‖v‖)).hasSum) (bd p)
  refine this.trans_eq ?_
  rw [tsum_mul_right]
  ring

/-! ## One step from exact states -/

/-- the weight of the `l`-th power of the Jacobian applied to the `j`-th coefficient of the remainder, for a method with the coefficients `α` -/
noncomputable def weight (α : Nat → Nat → ℝ) (N m l j : Nat) : ℝ :=
  ∑ row ∈ Finset.range N, ∑ i ∈ Finset.range m, α row i * (-((i : ℝ) + 1)) ^ j / ((j.factorial : ℝ) * ((l + row).factorial : ℝ))

/-- the vectors that the exponential solver receives, for given remainders `r` -/
noncomputable def vecs (α : Nat → Nat → ℝ) (m : Nat) (f : V) (r : Nat → V) (row : Nat) : V :=
  (if row = 1 then f else 0) + ∑ i ∈ Finset.range m, α row i • r i

theorem vecs_bound {α : Nat → Nat → ℝ} {N m : Nat} {R : ℝ} (hα : ∀ row < N, ∀ i < m, |α row i| ≤ R) {row : Nat} (hr : row < N)
    (f f' : V) (r r' : Nat → V) {a b : ℝ} (hf : ‖f - f'‖ ≤ a) (hb : ∀ i < m, ‖r i - r' i‖ ≤ b) :
    ‖vecs α m f r row - vecs α m f' r' row‖ ≤ a + m * R * b := by
  have e : vecs α m f r row - vecs α m f' r' row = (if row = 1 then f - f' else 0) + ∑ i ∈ Finset.range m, α row i • (r i - r' i) := by
    unfold vecs
    simp only [smul_sub, Finset.sum_sub_distrib]
    split_ifs <;> abel
  rw [e]
  refine (norm_add_le _ _).trans (add_le_add ?_ ?_)
  · split_ifs
    · exact hf
    · rw [norm_zero]; exact (norm_nonneg _).trans hf
  · refine (norm_sum_le _ _).trans ?_
    have : ∀ i ∈ Finset.range m, ‖α row i • (r i - r' i)‖ ≤ R * b := by
      intro i hi
      have hi := Finset.mem_range.1 hi
      rw [norm_smul, Real.norm_eq_abs]
      exact mul_le_mul (hα row hr i hi) (hb i hi) (norm_nonneg _) ((abs_nonneg _).trans (hα row hr i hi))
    refine (Finset.sum_le_sum this).trans ?_
    rw [Finset.sum_const, Finset.card_range, nsmul_eq_mul, mul_assoc]

/-- with remainders that are polynomials, the truncated functions give a polynomial of the step -/
theorem polynomial_step (α : Nat → Nat → ℝ) {N : Nat} (hN : 2 ≤ N) (m p : Nat) (h : ℝ) (J : V →L[ℝ] V) (f : V) (a : Nat → V) :
    ∑ row ∈ Finset.range N, trunc p row h J (vecs α m f (fun i => ∑ j ∈ Finset.range p, ((-((i : ℝ) + 1) * h) ^ j / (j.factorial : ℝ)) • a j) row) =
      trunc p 1 h J f + ∑ j ∈ Finset.range p, ∑ l ∈ Finset.range p, (h ^ (l + j) * weight α N m l j) • (J ^ l) (a j) := by
  unfold vecs
  simp only [map_add, Finset.sum_add_distrib]
  congr 1
  · have : ∀ row ∈ Finset.range N, trunc p row h J (if row = 1 then f else 0) = if row = 1 then trunc p 1 h J f else 0 := by
      intro row _
      split_ifs with e
      · rw [e]
      · rw [map_zero]
    rw [Finset.sum_congr rfl this, Finset.sum_ite_eq' (Finset.range N) 1, if_pos (Finset.mem_range.2 (by omega))]
  · have lhs : ∀ row, trunc p row h J (∑ i ∈ Finset.range m, α row i • ∑ j ∈ Finset.range p, ((-((i : ℝ) + 1) * h) ^ j / (j.factorial : ℝ)) • a j) =
        ∑ j ∈ Finset.range p, ∑ l ∈ Finset.range p, ∑ i ∈ Finset.range m,
          (h ^ (l + j) * (α row i * (-((i : ℝ) + 1)) ^ j / ((j.factorial : ℝ) * ((l + row).factorial : ℝ)))) • (J ^ l) (a j) := by
      intro row
      rw [map_sum]
      have : ∀ i ∈ Finset.range m, trunc p row h J (α row i • ∑ j ∈ Finset.range p, ((-((i : ℝ) + 1) * h) ^ j / (j.factorial : ℝ)) • a j) =
          ∑ j ∈ Finset.range p, ∑ l ∈ Finset.range p,
            (h ^ (l + j) * (α row i * (-((i : ℝ) + 1)) ^ j / ((j.factorial : ℝ) * ((l + row).factorial : ℝ)))) • (J ^ l) (a j) := by
        intro i _
        rw [map_smul, map_sum, Finset.smul_sum]
        refine Finset.sum_congr rfl fun j _ => ?_
        rw [map_smul, trunc_apply, Finset.smul_sum, Finset.smul_sum]
        refine Finset.sum_congr rfl fun l _ => ?_
        rw [smul_smul, smul_smul]
        congr 1
        rw [mul_pow, pow_add]
        field_simp
      rw [Finset.sum_congr rfl this, Finset.sum_comm]
      exact Finset.sum_congr rfl fun j _ => Finset.sum_comm
    simp only [lhs]
    rw [Finset.sum_comm]
    refine Finset.sum_congr rfl fun j _ => ?_
    rw [Finset.sum_comm]
    refine Finset.sum_congr rfl fun l _ => ?_
    simp only [weight, Finset.mul_sum, Finset.sum_smul]

/-- the conditions for order `p` -/
def OrderConditions (α : Nat → Nat → ℝ) (N m p : Nat) : Prop :=
  ∀ l j, 2 ≤ j → l + j < p → weight α N m l j = 1 / ((l + j + 1).factorial : ℝ)

theorem consistent {f : V → V} {y : ℝ → V} {T M : ℝ} {p : Nat} (hT : 0 < T) (hp : 1 ≤ p) (hs : SmoothSolution f y T p)
    (hM : ∀ t ∈ Icc 0 T, ‖fderiv ℝ f (y t)‖ ≤ M) (α : Nat → Nat → ℝ) {N : Nat} (hN : 2 ≤ N) (m : Nat) (oc : OrderConditions α N m p) :
    ∃ C, 0 ≤ C ∧ ∀ t h : ℝ, 0 < h → h ≤ 1 → 0 ≤ t - m * h → t + h ≤ T →
      ‖y t + h • ∑ row ∈ Finset.range N, trunc p row h (fderiv ℝ f (y t))
        (vecs α m (f (y t)) (fun i => (f (y (t - (i + 1) * h)) - f (y t)) - fderiv ℝ f (y t) (y (t - (i + 1) * h) - y t)) row) - y (t + h)‖ ≤
        C * h ^ (p + 1) := by
  obtain ⟨B, d, B0, hj⟩ := jets hT hs
  have M0 : 0 ≤ M := (norm_nonneg _).trans (hM 0 ⟨le_rfl, hT.le⟩)
  obtain ⟨R, hR⟩ : ∃ R : ℝ, ∀ row < N, ∀ i < m, |α row i| ≤ R := by
    refine ⟨∑ row ∈ Finset.range N, ∑ i ∈ Finset.range m, |α row i|, fun row hr i hi => ?_⟩
    refine (Finset.single_le_sum (f := fun i => |α row i|) (fun _ _ => abs_nonneg _) (Finset.mem_range.2 hi)).trans ?_
    exact Finset.single_le_sum (f := fun row => ∑ i ∈ Finset.range m, |α row i|) (fun _ _ => Finset.sum_nonneg fun _ _ => abs_nonneg _)
      (Finset.mem_range.2 hr)
  set R' := max R 0 with hR'
  have R0 : 0 ≤ R' := le_max_right _ _
  have hR : ∀ row < N, ∀ i < m, |α row i| ≤ R' := fun row hr i hi => (hR row hr i hi).trans (le_max_left _ _)
  set K := M + 1 with hK
  have K1 : 1 ≤ K := by linarith
  set A := B + M * B with hA
  have A0 : 0 ≤ A := by positivity
  set W := ∑ j ∈ Finset.range p, ∑ l ∈ Finset.range p, |weight α N m l j| with hW
  have W0 : 0 ≤ W := Finset.sum_nonneg fun _ _ => Finset.sum_nonneg fun _ _ => abs_nonneg _
  refine ⟨N * (p * K ^ p * (m * R' * (A * (m : ℝ) ^ p))) + W * (K ^ p * A) + B, by positivity, fun t h h0 h1 t0 tT => ?_⟩
  have mh : 0 ≤ (m : ℝ) * h := by positivity
  have ht : t ∈ Icc 0 T := ⟨by linarith, by linarith⟩
  set J := fderiv ℝ f (y t) with hJ
  have hJM : ‖J‖ ≤ M := hM t ht
  have hJK : ‖J‖ + 1 ≤ K := by linarith
  set a := coeffs J (fun j => d j t) with ha
  set r := fun i : Nat => (f (y (t - (i + 1) * h)) - f (y t)) - J (y (t - (i + 1) * h) - y t) with hr
  set r' := fun i : Nat => ∑ j ∈ Finset.range p, ((-((i : ℝ) + 1) * h) ^ j / (j.factorial : ℝ)) • a j with hr'
  have d1 : d 1 t = f (y t) := jet_one hT hs hj ht
  -- the remainders are polynomials up to order `p`
  have res : ∀ i < m, ‖r i - r' i‖ ≤ A * (m : ℝ) ^ p * h ^ p := by
    intro i hi
    have hi' : (i : ℝ) + 1 ≤ m := by exact_mod_cast hi
    have ih : ((i : ℝ) + 1) * h ≤ m * h := mul_le_mul_of_nonneg_right hi' h0.le
    have i0 : 0 ≤ ((i : ℝ) + 1) * h := by positivity
    have hx : t - ((i : ℝ) + 1) * h ∈ Icc 0 T := ⟨by linarith, by linarith⟩
    have := remainder_expansion hT hp hs B0 hj ht hJM hx
    rw [show t - ((i : ℝ) + 1) * h - t = -((i : ℝ) + 1) * h by ring] at this
    refine this.trans ?_
    rw [mul_assoc A, ← mul_pow]
    refine mul_le_mul_of_nonneg_left (pow_le_pow_left₀ (abs_nonneg _) ?_ p) A0
    rw [neg_mul, abs_neg, abs_of_nonneg i0]
    exact ih
  have e1 : ‖∑ row ∈ Finset.range N, trunc p row h J (vecs α m (f (y t)) r row) - ∑ row ∈ Finset.range N, trunc p row h J (vecs α m (f (y t)) r' row)‖ ≤
      N * (p * K ^ p * (m * R' * (A * (m : ℝ) ^ p))) * h ^ p := by
    rw [← Finset.sum_sub_distrib]
    refine (norm_sum_le _ _).trans ?_
    have : ∀ row ∈ Finset.range N, ‖trunc p row h J (vecs α m (f (y t)) r row) - trunc p row h J (vecs α m (f (y t)) r' row)‖ ≤
        p * K ^ p * (m * R' * (A * (m : ℝ) ^ p * h ^ p)) := by
      intro row hrow
      rw [← map_sub]
      refine (trunc_bound p row h0.le h1 hJK _).trans (mul_le_mul_of_nonneg_left ?_ (by positivity))
      simpa using vecs_bound hR (Finset.mem_range.1 hrow) (f (y t)) (f (y t)) r r' (by simp : _ ≤ (0 : ℝ)) res
    refine (Finset.sum_le_sum this).trans_eq ?_
    rw [Finset.sum_const, Finset.card_range, nsmul_eq_mul]
    ring
  -- the exact solution
  have ex := taylor_both B0 (p + 1) d hj.step (hj.bound (p + 1) le_rfl) t ht (t + h) ⟨by linarith [ht.1], tT⟩
  rw [add_sub_cancel_left, abs_of_pos h0, Finset.sum_range_succ', hj.zero, hj.zero] at ex
  simp only [pow_zero, Nat.factorial_zero, Nat.cast_one, div_one, one_smul] at ex
  have exsum : ∑ k ∈ Finset.range p, (h ^ (k + 1) / ((k + 1).factorial : ℝ)) • d (k + 1) t =
      h • trunc p 1 h J (f (y t)) + ∑ j ∈ Finset.range p, ∑ l ∈ Finset.range p,
        if l + j < p then (h ^ (l + j + 1) / ((l + j + 1).factorial : ℝ)) • (J ^ l) (a j) else 0 := by
    rw [← triangle p fun l j => (h ^ (l + j + 1) / ((l + j + 1).factorial : ℝ)) • (J ^ l) (a j), trunc_apply, Finset.smul_sum,
      ← Finset.sum_add_distrib]
    refine Finset.sum_congr rfl fun k _ => ?_
    rw [jet_recursion J (fun j => d j t) k, smul_add, Finset.smul_sum, d1, smul_smul]
    congr 1
    · congr 1; rw [pow_succ]; ring
    · refine Finset.sum_congr rfl fun j hj => ?_
      have : k - j + j = k := Nat.sub_add_cancel (by have := Finset.mem_range.1 hj; omega)
      rw [this]
  have num := polynomial_step α hN m p h J (f (y t)) a
  -- the two polynomials agree up to the terms of degree `p`
  have low : a 0 = 0 ∧ a 1 = 0 := by
    constructor
    · simp [ha, coeffs]
    · have := jet_two (n := p - 1) hT hp hs (by rwa [show p - 1 + 2 = p + 1 by omega]) ht
      simp [ha, coeffs, this, hJ]
  have e2 : ‖h • ∑ row ∈ Finset.range N, trunc p row h J (vecs α m (f (y t)) r' row) -
      ∑ k ∈ Finset.range p, (h ^ (k + 1) / ((k + 1).factorial : ℝ)) • d (k + 1) t‖ ≤ W * (K ^ p * A) * h ^ (p + 1) := by
    rw [num, exsum, smul_add, add_sub_add_left_eq_sub, Finset.smul_sum, ← Finset.sum_sub_distrib]
    refine (norm_sum_le _ _).trans ?_
    rw [hW, Finset.sum_mul, Finset.sum_mul]
    refine Finset.sum_le_sum fun j hjp => ?_
    rw [Finset.smul_sum, ← Finset.sum_sub_distrib, Finset.sum_mul, Finset.sum_mul]
    refine (norm_sum_le _ _).trans (Finset.sum_le_sum fun l hl => ?_)
    have pos : 0 ≤ |weight α N m l j| * (K ^ p * A) * h ^ (p + 1) := by positivity
    have jp := Finset.mem_range.1 hjp
    by_cases h2 : j < 2
    · have : a j = 0 := by
        have : j = 0 ∨ j = 1 := by omega
        rcases this with rfl | rfl
        exacts [low.1, low.2]
      rw [this]
      simpa using pos
    · by_cases hlt : l + j < p
      · rw [if_pos hlt, oc l j (by omega) hlt, smul_smul,
          show h * (h ^ (l + j) * (1 / ((l + j + 1).factorial : ℝ))) = h ^ (l + j + 1) / ((l + j + 1).factorial : ℝ) by rw [pow_succ]; ring,
          sub_self, norm_zero]
        rw [oc l j (by omega) hlt] at pos
        exact pos
      · rw [if_neg hlt, sub_zero, smul_smul, norm_smul, Real.norm_eq_abs, ← mul_assoc, ← pow_succ', abs_mul, abs_of_nonneg (by positivity : 0 ≤ h ^ (l + j + 1))]
        have q1 : h ^ (l + j + 1) ≤ h ^ (p + 1) := pow_le_pow_of_le_one h0.le h1 (by omega)
        have q2 : ‖(J ^ l) (a j)‖ ≤ K ^ p * A := by
          refine (pow_bound (hJM.trans (by linarith : M ≤ K)) _ l).trans ?_
          refine mul_le_mul (pow_le_pow_right₀ K1 (Finset.mem_range.1 hl).le) ?_ (norm_nonneg _) (by positivity)
          exact coeffs_bound hJM B0 (hj.bound (j + 1) (by omega) t ht) (hj.bound j (by omega) t ht)
        calc h ^ (l + j + 1) * |weight α N m l j| * ‖(J ^ l) (a j)‖ ≤ h ^ (p + 1) * |weight α N m l j| * (K ^ p * A) := by gcongr
          _ = _ := by ring
  set S := ∑ row ∈ Finset.range N, trunc p row h J (vecs α m (f (y t)) r row)
  set S' := ∑ row ∈ Finset.range N, trunc p row h J (vecs α m (f (y t)) r' row)
  set E := ∑ k ∈ Finset.range p, (h ^ (k + 1) / ((k + 1).factorial : ℝ)) • d (k + 1) t
  have split : y t + h • S - y (t + h) = h • (S - S') + (h • S' - E) - (y (t + h) - (E + y t)) := by
    rw [smul_sub]; abel
  rw [split]
  have n1 : ‖h • (S - S')‖ ≤ N * (p * K ^ p * (m * R' * (A * (m : ℝ) ^ p))) * h ^ (p + 1) := by
    rw [norm_smul, Real.norm_of_nonneg h0.le, pow_succ]
    have := mul_le_mul_of_nonneg_left e1 h0.le
    linarith
  refine (norm_sub_le _ _).trans ?_
  have := norm_add_le (h • (S - S')) (h • S' - E)
  rw [add_mul, add_mul]
  linarith

/-! ## One step from perturbed states -/

/-- what is known of the right-hand side and of its Jacobian near the exact solution -/
structure NearE (f : V → V) (y : ℝ → V) (T ρ K : ℝ) : Prop where
  yb : ∀ t ∈ Icc 0 T, ‖y t‖ ≤ K
  fb : ∀ t ∈ Icc 0 T, ‖f (y t)‖ ≤ K
  lip : ∀ t ∈ Icc 0 T, ∀ u, ‖u - y t‖ ≤ ρ → ‖f u - f (y t)‖ ≤ K * ‖u - y t‖
  Jb : ∀ t ∈ Icc 0 T, ∀ u, ‖u - y t‖ ≤ ρ → ‖fderiv ℝ f u‖ + 1 ≤ K
  Jlip : ∀ t ∈ Icc 0 T, ∀ u, ‖u - y t‖ ≤ ρ → ‖fderiv ℝ f u - fderiv ℝ f (y t)‖ ≤ K * ‖u - y t‖

theorem uniform_jacobian {g : V → V} {S : Set V} (hS : IsCompact S) (hg : ∀ x ∈ S, ContDiffAt ℝ 2 g x) :
    ∃ r M : ℝ, 0 < r ∧ 0 < M ∧ ∀ x ∈ S, ∀ P : V, ‖P‖ ≤ r → ‖fderiv ℝ g (x + P)‖ ≤ M ∧ ‖fderiv ℝ g (x + P) - fderiv ℝ g x‖ ≤ M * ‖P‖ := by
  have main := uniform_of_local hS (fun x M => 0 < M ∧ ∀ P : V, ‖P‖ * M < 1 → ‖fderiv ℝ g (x + P)‖ ≤ M ∧
      ‖fderiv ℝ g (x + P) - fderiv ℝ g x‖ ≤ M * ‖P‖) (by
    rintro z M M' ⟨h0, h2⟩ hM
    refine ⟨h0.trans_le hM, fun P hP => ?_⟩
    have := h2 P ((mul_le_mul_of_nonneg_left hM (norm_nonneg P)).trans_lt hP)
    exact ⟨this.1.trans hM, this.2.trans (mul_le_mul_of_nonneg_right hM (norm_nonneg _))⟩) (by
    intro x hx
    have hd : ContDiffAt ℝ 1 (fderiv ℝ g) x := (hg x hx).fderiv_right (by norm_num)
    obtain ⟨L, S, hS, hL⟩ := hd.exists_lipschitzOnWith
    obtain ⟨r1, r10, hr1⟩ := Metric.mem_nhds_iff.1 hS
    have hb : ∀ᶠ z in nhds x, ‖fderiv ℝ g z‖ < ‖fderiv ℝ g x‖ + 1 := hd.continuousAt.norm.eventually (gt_mem_nhds (by linarith))
    obtain ⟨r3, r30, hr3⟩ := Metric.eventually_nhds_iff.1 hb
    set r := min r1 r3 with hr
    have r0 : 0 < r := lt_min r10 r30
    set M := 2 / r + L + (‖fderiv ℝ g x‖ + 1) with hM
    have L0 : (0 : ℝ) ≤ L := L.2
    have n0 : 0 ≤ ‖fderiv ℝ g x‖ := norm_nonneg _
    have p0 : 0 < 2 / r := by positivity
    have M0 : 0 < M := by rw [hM]; linarith
    refine ⟨r / 2, by positivity, M, fun z hz => ⟨M0, fun P hP => ?_⟩⟩
    have h1 : ‖P‖ * (2 / r) ≤ ‖P‖ * M := mul_le_mul_of_nonneg_left (by rw [hM]; linarith) (norm_nonneg _)
    have h2 : ‖P‖ * (2 / r) < 1 := lt_of_le_of_lt h1 hP
    have h3 : ‖P‖ < r / 2 := by
      rw [mul_div_assoc', div_lt_one r0] at h2; linarith
    have near : ‖z + P - x‖ < r := by
      calc ‖z + P - x‖ = ‖(z - x) + P‖ := by congr 1; abel
        _ ≤ ‖z - x‖ + ‖P‖ := norm_add_le _ _
        _ < r := by linarith
    have zr : ‖z - x‖ < r := by linarith
    constructor
    · have := hr3 (y := z + P) (by rw [dist_eq_norm]; exact near.trans_le (min_le_right _ _))
      rw [hM]; linarith
    · have a := hL.dist_le_mul (z + P) (hr1 (by rw [Metric.mem_ball, dist_eq_norm]; exact near.trans_le (min_le_left _ _))) z
        (hr1 (by rw [Metric.mem_ball, dist_eq_norm]; exact zr.trans_le (min_le_left _ _)))
      rw [dist_eq_norm, dist_eq_norm, add_sub_cancel_left] at a
      exact a.trans (mul_le_mul_of_nonneg_right (by rw [hM]; linarith) (norm_nonneg _)))
  obtain ⟨M, hM⟩ := main
  set M' := max M 1
  have M0 : 0 < M' := lt_of_lt_of_le one_pos (le_max_right _ _)
  refine ⟨1 / (2 * M'), M', by positivity, M0, fun x hx P hP => ?_⟩
  have h0 := (hM x hx).1
  rw [le_div_iff₀ (by positivity)] at hP
  have := (hM x hx).2 P (by nlinarith [norm_nonneg P, mul_le_mul_of_nonneg_left (le_max_left M 1) (norm_nonneg P)])
  exact ⟨this.1.trans (le_max_left _ _), this.2.trans (mul_le_mul_of_nonneg_right (le_max_left _ _) (norm_nonneg _))⟩

theorem near_exists {f : V → V} {y : ℝ → V} {T : ℝ} {p : Nat} (hp : 2 ≤ p) (hs : SmoothSolution f y T p) :
    ∃ ρ K, 0 < ρ ∧ ρ ≤ 1 ∧ 1 ≤ K ∧ NearE f y T ρ K := by
  have hcont : ContinuousOn y (Icc 0 T) := fun t ht => (hs.solves t ht).continuousWithinAt
  have hK := isCompact_Icc.image_of_continuousOn hcont
  have h2 : ∀ x ∈ y '' Icc 0 T, ContDiffAt ℝ 2 f x := by
    rintro x ⟨t, ht, rfl⟩
    exact (hs.smooth t ht).of_le (by exact_mod_cast hp)
  obtain ⟨r, M, r0, M0, hJ⟩ := uniform_jacobian hK h2
  obtain ⟨r', M', r0', M0', hl, hb, -⟩ := uniform_taylor hK 1 (by exact_mod_cast h2)
  obtain ⟨Y, hY⟩ := isCompact_Icc.exists_bound_of_continuousOn hcont
  set K := M + M' + |Y| + 1 with hKd
  have y0 := abs_nonneg Y
  have mem : ∀ t ∈ Icc 0 T, y t ∈ y '' Icc 0 T := fun t ht => mem_image_of_mem y ht
  have back : ∀ t u, y t + (u - y t) = u := fun t u => by abel
  refine ⟨min (min r r') 1, K, lt_min (lt_min r0 r0') one_pos, min_le_right _ _, by linarith, ⟨?_, ?_, ?_, ?_, ?_⟩⟩
  · exact fun t ht => (hY t ht).trans (by linarith [le_abs_self Y])
  · intro t ht
    have := hb (y t) (mem t ht) 0 (by simpa using r0'.le)
    rw [add_zero] at this
    linarith
  · intro t ht u hu
    have := hl (y t) (mem t ht) (u - y t) 0 (hu.trans ((min_le_left _ _).trans (min_le_right _ _))) (by simpa using r0'.le)
    rw [back, add_zero, sub_zero] at this
    exact this.trans (mul_le_mul_of_nonneg_right (by linarith) (norm_nonneg _))
  · intro t ht u hu
    have := (hJ (y t) (mem t ht) (u - y t) (hu.trans ((min_le_left _ _).trans (min_le_left _ _)))).1
    rw [back] at this
    linarith
  · intro t ht u hu
    have := (hJ (y t) (mem t ht) (u - y t) (hu.trans ((min_le_left _ _).trans (min_le_left _ _)))).2
    rw [back] at this
    exact this.trans (mul_le_mul_of_nonneg_right (by linarith) (norm_nonneg _))

/-- the list of vectors handed to the exponential solver -/
noncomputable def vecList (α : Nat → Nat → ℝ) (N m : Nat) (f : V) (r : Nat → V) : List V := (List.range N).map (vecs α m f r)

theorem phiSum_vecList (A : V →L[ℝ] V) (α : Nat → Nat → ℝ) (N m : Nat) (f : V) (r : Nat → V) :
    phiSum A (vecList α N m f r) = ∑ row ∈ Finset.range N, phi row A (vecs α m f r row) := by
  unfold phiSum vecList
  rw [List.length_map, List.length_range]
  refine Finset.sum_congr rfl fun k hk => ?_
  congr 1
  simp [List.getD, Finset.mem_range.1 hk]

theorem sum_norm_vecList (α : Nat → Nat → ℝ) (N m : Nat) (f : V) (r : Nat → V) :
    ((vecList α N m f r).map norm).sum = ∑ row ∈ Finset.range N, ‖vecs α m f r row‖ := by
  unfold vecList
  induction N with
  | zero => simp
  | succ N ih => rw [List.range_succ, List.map_append, List.map_append, List.sum_append, ih, Finset.sum_range_succ]; simp

end WxVerif.EpiConvergence
