import Verif.Lemmas.SrerkConvergence
import Verif.Spec.SrerkConvergence
import Verif.Props.Srerk

/-!
# Lemmas for the convergence of the stiffness-resilient exponential Runge-Kutta integrators: the projections of a step
-/

namespace WxVerif.SrerkConvergence

open Set SpecConvergence SpecEpiConvergence EpiConvergence SpecSrerkConvergence
open WxVerif.Srerk
open WxVerif.Epi (alphaCoeff)

universe u

variable {V : Type u} [NormedAddCommGroup V] [NormedSpace ℝ V]

/-! ## Near the exact solution -/

/-- `NearE`, with the second-order expansion of the right-hand side and the speed of the solution -/
structure NearS (f : V → V) (y : ℝ → V) (T ρ K : ℝ) : Prop where
  near : NearE f y T ρ K
  second : ∀ t ∈ Icc 0 T, ∀ u, ‖u - y t‖ ≤ ρ → ‖f u - f (y t) - fderiv ℝ f (y t) (u - y t)‖ ≤ K * ‖u - y t‖ ^ 2
  speed : ∀ t ∈ Icc 0 T, ∀ t' ∈ Icc 0 T, ‖y t' - y t‖ ≤ K * |t' - t|

theorem nearS_exists {f : V → V} {y : ℝ → V} {T : ℝ} {p : Nat} (hp : 2 ≤ p) (hs : SmoothSolution f y T p) :
    ∃ ρ K, 0 < ρ ∧ ρ ≤ 1 ∧ 1 ≤ K ∧ NearS f y T ρ K := by
  obtain ⟨ρ, K, ρ0, ρ1, K1, n⟩ := near_exists hp hs
  have hcont : ContinuousOn y (Icc 0 T) := fun t ht => (hs.solves t ht).continuousWithinAt
  have hK := isCompact_Icc.image_of_continuousOn hcont
  have h2 : ∀ x ∈ y '' Icc 0 T, ContDiffAt ℝ 2 f x := by
    rintro x ⟨t, ht, rfl⟩
    exact (hs.smooth t ht).of_le (by exact_mod_cast hp)
  obtain ⟨r, M, r0, M0, -, -, hq, -⟩ := UniformTaylor.uniform_taylor hK 1 (by exact_mod_cast h2)
  have le1 : K ≤ max K M := le_max_left _ _
  have mρ : min ρ r ≤ ρ := min_le_left _ _
  refine ⟨min ρ r, max K M, lt_min ρ0 r0, mρ.trans ρ1, K1.trans le1, ⟨⟨fun t ht => (n.yb t ht).trans le1, fun t ht => (n.fb t ht).trans le1,
    fun t ht u hu => (n.lip t ht u (hu.trans mρ)).trans (mul_le_mul_of_nonneg_right le1 (norm_nonneg _)),
    fun t ht u hu => (n.Jb t ht u (hu.trans mρ)).trans le1,
    fun t ht u hu => (n.Jlip t ht u (hu.trans mρ)).trans (mul_le_mul_of_nonneg_right le1 (norm_nonneg _))⟩, fun t ht u hu => ?_, fun t ht t' ht' => ?_⟩⟩
  · have := hq (y t) (mem_image_of_mem y ht) (u - y t) (hu.trans (min_le_right _ _))
    have e : UniformTaylor.taylorPoly f 1 (y t) (u - y t) = f (y t) + fderiv ℝ f (y t) (u - y t) := by
      simp [UniformTaylor.taylorPoly, Finset.sum_range_succ, iteratedFDeriv_one_apply]
    rw [show y t + (u - y t) = u by abel, e, ← sub_sub] at this
    exact this.trans (mul_le_mul_of_nonneg_right (le_max_right _ _) (by positivity))
  · have := (convex_Icc (0 : ℝ) T).norm_image_sub_le_of_norm_hasDerivWithin_le (f := y) (f' := fun t => f (y t)) (C := max K M)
      (fun x hx => hs.solves x hx) (fun x hx => (n.fb x hx).trans le1) ht ht'
    rwa [Real.norm_eq_abs] at this

/-- the remainder at a stage near the exact solution: an error of the stage enters multiplied by its size and that of the step -/
theorem remainder_stage {f : V → V} {y : ℝ → V} {T ρ K tol : ℝ} (ρ1 : ρ ≤ 1) (K1 : 1 ≤ K) (n : NearS f y T ρ K) (tol0 : 0 ≤ tol)
    {t t' h ε e : ℝ} (ht : t ∈ Icc 0 T) (ht' : t' ∈ Icc 0 T) (h0 : 0 ≤ h) (hh : |t' - t| ≤ h) (hKh : K * h ≤ ρ) (hε : ε ≤ ρ) (he : e ≤ ρ) {u P j : V}
    (hu : ‖u - y t‖ ≤ ε) (hP : ‖P - y t'‖ ≤ e) (hj : ‖j - fderiv ℝ f u (P - u)‖ ≤ tol * (1 + ‖P - u‖)) :
    ‖((f P - f u) - j) - ((f (y t') - f (y t)) - fderiv ℝ f (y t) (y t' - y t))‖ ≤ (2 * K ^ 2 + 5 * K + 3) * ((h + e) * e + ε + tol) := by
  have ε0 : 0 ≤ ε := (norm_nonneg _).trans hu
  have e0 : 0 ≤ e := (norm_nonneg _).trans hP
  have K0 : 0 ≤ K := by linarith
  have yy : ‖y t' - y t‖ ≤ K * h := (n.speed t ht t' ht').trans (mul_le_mul_of_nonneg_left hh K0)
  have a1 : ‖f P - f (y t') - fderiv ℝ f (y t') (P - y t')‖ ≤ K * e ^ 2 :=
    (n.second t' ht' P (hP.trans he)).trans (mul_le_mul_of_nonneg_left (pow_le_pow_left₀ (norm_nonneg _) hP 2) K0)
  have a2 : ‖(fderiv ℝ f (y t') - fderiv ℝ f (y t)) (P - y t')‖ ≤ K * (K * h) * e :=
    (ContinuousLinearMap.le_opNorm _ _).trans (mul_le_mul ((n.near.Jlip t ht (y t') (yy.trans hKh)).trans (mul_le_mul_of_nonneg_left yy K0)) hP
      (norm_nonneg _) (by positivity))
  have a3 : ‖f u - f (y t) - fderiv ℝ f (y t) (u - y t)‖ ≤ K * ε := by
    refine (n.second t ht u (hu.trans hε)).trans (mul_le_mul_of_nonneg_left ?_ K0)
    have := pow_le_pow_left₀ (norm_nonneg _) hu 2
    nlinarith
  have b3 : ‖P - u‖ ≤ 2 * K + 2 := by
    have b2 : ‖y t' - y t‖ ≤ 2 * K := (norm_sub_le _ _).trans (by linarith [n.near.yb t ht, n.near.yb t' ht'])
    have := norm_add_le ((P - y t') - (u - y t)) (y t' - y t)
    have e1 : (P - y t') - (u - y t) + (y t' - y t) = P - u := by abel
    rw [e1] at this
    have := norm_sub_le (P - y t') (u - y t)
    linarith
  have a4 : ‖(fderiv ℝ f u - fderiv ℝ f (y t)) (P - u)‖ ≤ K * ε * (2 * K + 2) :=
    (ContinuousLinearMap.le_opNorm _ _).trans (mul_le_mul ((n.near.Jlip t ht u (hu.trans hε)).trans (mul_le_mul_of_nonneg_left hu K0)) b3
      (norm_nonneg _) (by positivity))
  have a5 : tol * (1 + ‖P - u‖) ≤ tol * (2 * K + 3) := mul_le_mul_of_nonneg_left (by linarith) tol0
  have eq1 : ((f P - f u) - j) - ((f (y t') - f (y t)) - fderiv ℝ f (y t) (y t' - y t)) =
      (f P - f (y t') - fderiv ℝ f (y t') (P - y t')) + (fderiv ℝ f (y t') - fderiv ℝ f (y t)) (P - y t') -
        (f u - f (y t) - fderiv ℝ f (y t) (u - y t)) - (fderiv ℝ f u - fderiv ℝ f (y t)) (P - u) - (j - fderiv ℝ f u (P - u)) := by
    rw [ContinuousLinearMap.sub_apply, ContinuousLinearMap.sub_apply]
    simp only [map_sub]
    abel
  rw [eq1]
  set x1 := f P - f (y t') - fderiv ℝ f (y t') (P - y t')
  set x2 := (fderiv ℝ f (y t') - fderiv ℝ f (y t)) (P - y t')
  set x3 := f u - f (y t) - fderiv ℝ f (y t) (u - y t)
  set x4 := (fderiv ℝ f u - fderiv ℝ f (y t)) (P - u)
  set x5 := j - fderiv ℝ f u (P - u)
  have n1 := norm_add_le x1 x2
  have n2 := norm_sub_le (x1 + x2) x3
  have n3 := norm_sub_le (x1 + x2 - x3) x4
  have n4 := norm_sub_le (x1 + x2 - x3 - x4) x5
  have p1 : 0 ≤ h * e := by positivity
  have p2 : 0 ≤ e ^ 2 := by positivity
  have p3 : 0 ≤ K * (h * e) := by positivity
  have p4 : 0 ≤ K ^ 2 * (h * e) := by positivity
  have p5 : 0 ≤ K * e ^ 2 := by positivity
  have p6 : 0 ≤ K ^ 2 * e ^ 2 := by positivity
  have p7 : 0 ≤ K * ε := by positivity
  have p8 : 0 ≤ K ^ 2 * tol := by positivity
  have p9 : 0 ≤ K * tol := by positivity
  nlinarith

/-! ## One row of a projection -/

/-- the rows of the vectors of a projection after the nodes `c` -/
noncomputable def rowCoeff (c : List ℝ) (row i : Nat) : ℝ := if row < 3 then 0 else ((alphaCoeff c).getD (row - 3) []).getD i 0

theorem smooth_mono {f : V → V} {y : ℝ → V} {T : ℝ} {p q : Nat} (h : q ≤ p) (hs : SmoothSolution f y T p) : SmoothSolution f y T q :=
  ⟨hs.solves, fun t ht => (hs.smooth t ht).of_le (by exact_mod_cast h)⟩

theorem alpha_moment (c : List ℝ) (hnd : c.Nodup) (hnz : ∀ x ∈ c, x ≠ 0) {k j : Nat} (hk : k < c.length) (hj : j < c.length) :
    ∑ i ∈ Finset.range c.length, ((alphaCoeff c).getD k []).getD i 0 * (c.getD i 0) ^ (j + 2) = if j = k then ((k + 2).factorial : ℝ) else 0 := by
  have h := Props.Epi.C26_alpha c hnd hnz (Polynomial.X ^ j : Polynomial ℝ)
    (lt_of_le_of_lt (Polynomial.degree_X_pow_le j) (by exact_mod_cast hj)) k hk
  simp only [Polynomial.eval_pow, Polynomial.eval_X, Polynomial.coeff_X_pow] at h
  have e2 : (if j = k then ((k + 2).factorial : ℝ) else 0) = ((k + 2).factorial : ℝ) * (if k = j then 1 else 0) := by
    by_cases e : j = k
    · simp [e]
    · simp [e, Ne.symm e]
  rw [e2, ← h]
  exact Finset.sum_congr rfl fun i _ => by rw [← pow_add, add_comm]

/-- the conditions for order `m + 2` hold for a projection after `m` nodes -/
theorem order_conditions (c : List ℝ) (hnd : c.Nodup) (hnz : ∀ x ∈ c, x ≠ 0) {τ : ℝ} (τ0 : τ ≠ 0) :
    OrderConditionsC (fun row i => τ ^ (row - 1) * rowCoeff c row i) (fun i => c.getD i 0 / τ) (c.length + 3) c.length (c.length + 2) := by
  intro l j h2 hl
  unfold weightC
  obtain ⟨j, rfl⟩ : ∃ j', j = j' + 2 := ⟨j - 2, by omega⟩
  have row : ∀ row ∈ Finset.range (c.length + 3), ∑ i ∈ Finset.range c.length,
      τ ^ (row - 1) * rowCoeff c row i * (c.getD i 0 / τ) ^ (j + 2) / (((j + 2).factorial : ℝ) * ((l + row).factorial : ℝ)) =
      if row = j + 3 then 1 / ((l + (j + 2) + 1).factorial : ℝ) else 0 := by
    intro row hrow
    have hrow := Finset.mem_range.1 hrow
    by_cases h3 : row < 3
    · rw [if_neg (by omega)]
      simp [rowCoeff, h3]
    · obtain ⟨k, rfl⟩ : ∃ k, row = k + 3 := ⟨row - 3, by omega⟩
      have am := alpha_moment c hnd hnz (k := k) (j := j) (by omega) (by omega)
      have : ∀ i ∈ Finset.range c.length, τ ^ (k + 3 - 1) * rowCoeff c (k + 3) i * (c.getD i 0 / τ) ^ (j + 2) /
          (((j + 2).factorial : ℝ) * ((l + (k + 3)).factorial : ℝ)) =
          (τ ^ (k + 2) / τ ^ (j + 2) / (((j + 2).factorial : ℝ) * ((l + (k + 3)).factorial : ℝ))) *
            (((alphaCoeff c).getD k []).getD i 0 * (c.getD i 0) ^ (j + 2)) := by
        intro i _
        simp only [rowCoeff, show ¬ (k + 3 < 3) by omega, if_false, Nat.add_sub_cancel, show k + 3 - 1 = k + 2 by omega]
        rw [div_pow]
        ring
      rw [Finset.sum_congr rfl this, ← Finset.mul_sum, am]
      by_cases e : j = k
      · subst e
        rw [if_pos rfl, if_pos rfl, show l + (j + 2) + 1 = l + (j + 3) by omega, div_self (pow_ne_zero _ τ0)]
        have : ((j + 2).factorial : ℝ) ≠ 0 := by positivity
        field_simp
      · rw [if_neg e, if_neg (by omega), mul_zero]
  rw [Finset.sum_congr rfl row, Finset.sum_ite_eq', if_pos (Finset.mem_range.2 (by omega))]

theorem stage_row [CompleteSpace V] {f : V → V} {y : ℝ → V} {T ρ K : ℝ} (hT : 0 < T) (c : List ℝ) (hnd : c.Nodup)
    (hc : ∀ x ∈ c, 0 < x ∧ x ≤ 1) (hs : SmoothSolution f y T (c.length + 2)) (ρ0 : 0 < ρ) (K1 : 1 ≤ K) (n : NearE f y T ρ K) {Bη : ℝ} (hBη : 0 ≤ Bη) {τ : ℝ} (τ0 : 0 < τ) (τ1 : τ ≤ 1) :
    ∃ C, 0 ≤ C ∧ ∀ C' ≥ C, ∀ t h δ : ℝ, 0 < h → h ≤ 1 → 0 ≤ t → t + h ≤ T → ∀ (u v : V) (r : Nat → V) (μ : ℝ), ‖u - y t‖ ≤ ρ → 0 ≤ μ → μ ≤ Bη →
      (∀ i < c.length, ‖r i - ((f (y (t + c.getD i 0 * h)) - f (y t)) - fderiv ℝ f (y t) (y (t + c.getD i 0 * h) - y t))‖ ≤ μ) →
      ‖v - ∑ row ∈ Finset.range (c.length + 3), τ ^ row • phi row (τ • h • fderiv ℝ f u) (vecs (rowCoeff c) c.length (f u) r row)‖ ≤ δ →
      ‖u + h • v - y (t + τ * h)‖ ≤ ‖u - y t‖ + h * (C' * (‖u - y t‖ + μ + h ^ (c.length + 2) + δ)) := by
  have hnz : ∀ x ∈ c, x ≠ 0 := fun x hx => (hc x hx).1.ne'
  obtain ⟨C, C0, H⟩ := perturbed_stage hT (by omega) hs ρ0 K1 n _ _ (by omega : 2 ≤ c.length + 3) c.length (order_conditions c hnd hnz τ0.ne') hBη
  refine ⟨C / τ, by positivity, fun C' hC' t h δ h0 h1 t0 tT u v r μ hu μ0 μB hr hv => ?_⟩
  have δ0 : 0 ≤ δ := (norm_nonneg _).trans hv
  have eqn : ∀ i, c.getD i 0 / τ * (τ * h) = c.getD i 0 * h := fun i => by field_simp
  have th : τ * h ≤ h := by nlinarith
  have cb : ∀ i < c.length, 0 ≤ c.getD i 0 ∧ c.getD i 0 ≤ 1 := fun i hi => by
    rw [List.getD_eq_getElem _ _ hi]
    have := hc _ (List.getElem_mem hi)
    exact ⟨this.1.le, this.2⟩
  have H' := H t (τ * h) ‖u - y t‖ (τ⁻¹ * δ) (by positivity) (by linarith) t0 (by linarith) (fun i hi => by
    rw [eqn]
    obtain ⟨a, b⟩ := cb i hi
    have : c.getD i 0 * h ≤ 1 * h := mul_le_mul_of_nonneg_right b h0.le
    have : 0 ≤ c.getD i 0 * h := by positivity
    exact ⟨by linarith, by linarith⟩) hu u (τ⁻¹ • v) r μ μ0 μB le_rfl (fun i hi => by rw [eqn]; exact hr i hi) (by
    have e : ∑ row ∈ Finset.range (c.length + 3), phi row ((τ * h) • fderiv ℝ f u)
        (vecs (fun row i => τ ^ (row - 1) * rowCoeff c row i) c.length (f u) r row) =
        τ⁻¹ • ∑ row ∈ Finset.range (c.length + 3), τ ^ row • phi row (τ • h • fderiv ℝ f u) (vecs (rowCoeff c) c.length (f u) r row) := by
      rw [Finset.smul_sum]
      refine Finset.sum_congr rfl fun row _ => ?_
      have zero : ∀ (k : Nat) (A : V →L[ℝ] V), phi k A 0 = 0 := fun k A => by simp [phi]
      have sm : ∀ (k : Nat) (A : V →L[ℝ] V) (a : ℝ) (x : V), phi k A (a • x) = a • phi k A x := fun k A a x => by
        unfold phi
        simp only [map_smul]
        rw [← tsum_const_smul'']
        congr 1; funext j
        exact smul_comm _ _ _
      rw [smul_smul τ h]
      rcases Nat.eq_zero_or_pos row with rfl | hpos
      · simp [vecs, rowCoeff, zero]
      · obtain ⟨k, rfl⟩ : ∃ k, row = k + 1 := ⟨row - 1, by omega⟩
        have : vecs (fun row i => τ ^ (row - 1) * rowCoeff c row i) c.length (f u) r (k + 1) = τ ^ k • vecs (rowCoeff c) c.length (f u) r (k + 1) := by
          unfold vecs
          rw [smul_add, Finset.smul_sum]
          congr 1
          · split_ifs with e
            · have : k = 0 := by omega
              rw [this, pow_zero, one_smul]
            · rw [smul_zero]
          · exact Finset.sum_congr rfl fun i _ => by dsimp only; rw [smul_smul, Nat.add_sub_cancel]
        rw [this, sm, smul_smul]
        congr 1
        rw [pow_succ]; field_simp
    rw [e, ← smul_sub, norm_smul, Real.norm_of_nonneg (by positivity)]
    exact mul_le_mul_of_nonneg_left hv (by positivity))
  have e2 : (τ * h) • τ⁻¹ • v = h • v := by rw [smul_smul]; congr 1; field_simp
  rw [e2] at H'
  refine H'.trans (add_le_add le_rfl ?_)
  have hp : (τ * h) ^ (c.length + 2) ≤ h ^ (c.length + 2) := pow_le_pow_left₀ (by positivity) th _
  set S := ‖u - y t‖ + μ + h ^ (c.length + 2) with hS
  have S0 : 0 ≤ S := by positivity
  calc τ * h * (C * (‖u - y t‖ + μ + (τ * h) ^ (c.length + 2) + τ⁻¹ * δ)) ≤ τ * h * (C * (S + τ⁻¹ * δ)) := by
        refine mul_le_mul_of_nonneg_left (mul_le_mul_of_nonneg_left ?_ C0) (by positivity)
        rw [hS]; linarith
    _ = h * (C * (τ * S + δ)) := by field_simp
    _ ≤ h * (C / τ * (S + δ)) := by
        refine mul_le_mul_of_nonneg_left ?_ h0.le
        have q1 : C ≤ C / τ := by rw [le_div_iff₀ τ0]; nlinarith
        refine mul_le_mul q1 ?_ (by positivity) (by positivity)
        nlinarith
    _ ≤ h * (C' * (S + δ)) := mul_le_mul_of_nonneg_left (mul_le_mul_of_nonneg_right hC' (by positivity)) h0.le

end WxVerif.SrerkConvergence
