import Verif.Lemmas.UniformTaylor
import Verif.Model.Matvec
import Mathlib.Analysis.Calculus.ContDiff.RCLike
import Mathlib.Analysis.Calculus.MeanValue
import Mathlib.Analysis.Calculus.Deriv.Star
import Mathlib.Analysis.Calculus.Deriv.Prod
import Mathlib.Analysis.Complex.RealDeriv

/-!
# Lemmas: the complex step near a curve of states
-/

namespace WxVerif.ComplexStep

open Set Complex ComplexConjugate

section general

variable {E W : Type*} [NormedAddCommGroup E] [NormedSpace ℝ E] [NormedSpace ℂ E] [NormedAddCommGroup W] [NormedSpace ℂ W]

/-- near a compact set the derivative of a twice differentiable map is Lipschitz continuous, with one constant -/
theorem lip_near {K : Set E} (hK : IsCompact K) {A : E → W} (hA : ∀ x ∈ K, ContDiffAt ℂ 2 A x) :
    ∃ r M : ℝ, 0 < r ∧ 0 < M ∧ ∀ x ∈ K, ∀ u u' : E, ‖u - x‖ ≤ r → ‖u' - x‖ ≤ r → DifferentiableAt ℂ A u ∧ ‖fderiv ℂ A u - fderiv ℂ A u'‖ ≤ M * ‖u - u'‖ := by
  have main := WxVerif.UniformTaylor.uniform_of_local hK
    (fun x M => 0 < M ∧ ∀ u u' : E, ‖u - x‖ * M < 1 → ‖u' - x‖ * M < 1 → DifferentiableAt ℂ A u ∧ ‖fderiv ℂ A u - fderiv ℂ A u'‖ ≤ M * ‖u - u'‖) (by
    rintro z M M' ⟨h0, h1⟩ hM
    refine ⟨h0.trans_le hM, fun u u' hu hu' => ?_⟩
    obtain ⟨a, b⟩ := h1 u u' ((mul_le_mul_of_nonneg_left hM (norm_nonneg _)).trans_lt hu) ((mul_le_mul_of_nonneg_left hM (norm_nonneg _)).trans_lt hu')
    exact ⟨a, b.trans (mul_le_mul_of_nonneg_right hM (norm_nonneg _))⟩) (by
    intro x hx
    have hgx := hA x hx
    have hd : ContDiffAt ℂ 1 (fderiv ℂ A) x := hgx.fderiv_right (by norm_num)
    obtain ⟨L, S, hS, hL⟩ := hd.exists_lipschitzOnWith
    obtain ⟨r1, r10, hr1⟩ := Metric.mem_nhds_iff.1 hS
    obtain ⟨r2, r20, hr2⟩ := Metric.eventually_nhds_iff.1 (hgx.eventually (by simp))
    set r := min r1 r2
    have r0 : 0 < r := lt_min r10 r20
    set M := 2 / r + L with hM
    have L0 : (0 : ℝ) ≤ L := L.2
    have p0 : 0 < 2 / r := by positivity
    have near : ∀ z u : E, ‖z - x‖ < r / 2 → ‖u - z‖ * M < 1 → ‖u - x‖ < r := by
      intro z u hz hu
      have h2 : ‖u - z‖ * (2 / r) < 1 := (mul_le_mul_of_nonneg_left (by rw [hM]; linarith) (norm_nonneg _)).trans_lt hu
      rw [mul_div_assoc', div_lt_one r0] at h2
      rw [show u - x = (u - z) + (z - x) by abel]
      exact (norm_add_le _ _).trans_lt (by linarith)
    refine ⟨r / 2, by positivity, M, fun z hz => ⟨by rw [hM]; linarith, fun u u' hu hu' => ?_⟩⟩
    have h3 := near z u hz hu
    have h4 := near z u' hz hu'
    refine ⟨(hr2 (y := u) (by rw [dist_eq_norm]; exact h3.trans_le (min_le_right _ _))).differentiableAt (by norm_num), ?_⟩
    have a := hL.dist_le_mul u (hr1 (by rw [Metric.mem_ball, dist_eq_norm]; exact h3.trans_le (min_le_left _ _))) u'
      (hr1 (by rw [Metric.mem_ball, dist_eq_norm]; exact h4.trans_le (min_le_left _ _)))
    rw [dist_eq_norm, dist_eq_norm] at a
    exact a.trans (mul_le_mul_of_nonneg_right (by rw [hM]; linarith) (norm_nonneg _)))
  obtain ⟨M, hM⟩ := main
  set M' := max M 1
  have M0 : 0 < M' := lt_of_lt_of_le one_pos (le_max_right _ _)
  have small : ∀ v : E, ‖v‖ ≤ 1 / (2 * M') → ‖v‖ * M < 1 := by
    intro v hv
    rw [le_div_iff₀ (by positivity)] at hv
    nlinarith [norm_nonneg v, mul_le_mul_of_nonneg_left (le_max_left M 1) (norm_nonneg v)]
  refine ⟨1 / (2 * M'), M', by positivity, M0, fun x hx u u' hu hu' => ?_⟩
  obtain ⟨q0, q⟩ := hM _ hx
  have := q u u' (small _ hu) (small _ hu')
  exact ⟨this.1, this.2.trans (mul_le_mul_of_nonneg_right (le_max_left _ _) (norm_nonneg _))⟩

/-- a symmetric second difference is of second order -/
theorem second_difference {A : E → W} {x q a : E} {r M : ℝ} (M0 : 0 ≤ M)
    (h : ∀ u u' : E, ‖u - x‖ ≤ r → ‖u' - x‖ ≤ r → DifferentiableAt ℂ A u ∧ ‖fderiv ℂ A u - fderiv ℂ A u'‖ ≤ M * ‖u - u'‖) (hq : ‖q - x‖ + ‖a‖ ≤ r) :
    ‖A (q + a) + A (q - a) - (2 : ℂ) • A q‖ ≤ 2 * M * ‖a‖ ^ 2 := by
  have one : ∀ b : E, ‖b‖ = ‖a‖ → ‖A (q + b) - A q - fderiv ℂ A q b‖ ≤ M * ‖a‖ * ‖a‖ := by
    intro b hb
    have near : ∀ u ∈ Metric.closedBall q ‖a‖, ‖u - x‖ ≤ r := by
      intro u hu
      rw [Metric.mem_closedBall, dist_eq_norm] at hu
      have := norm_add_le (u - q) (q - x)
      rw [sub_add_sub_cancel] at this
      linarith
    have := Convex.norm_image_sub_le_of_norm_fderiv_le' (𝕜 := ℂ) (f := A) (s := Metric.closedBall q ‖a‖) (x := q) (y := q + b) (φ := fderiv ℂ A q) (C := M * ‖a‖)
      (fun u hu => (h u u (near u hu) (near u hu)).1)
      (fun u hu => ((h u q (near u hu) (by linarith [norm_nonneg a])).2).trans (mul_le_mul_of_nonneg_left (by simpa [dist_eq_norm] using hu) M0))
      (convex_closedBall _ _) (by simp) (by simp [hb])
    simpa [hb] using this
  have e : A (q + a) + A (q - a) - (2 : ℂ) • A q = (A (q + a) - A q - fderiv ℂ A q a) + (A (q + -a) - A q - fderiv ℂ A q (-a)) := by
    rw [map_neg, two_smul, ← sub_eq_add_neg]; abel
  rw [e]
  have := norm_add_le (A (q + a) - A q - fderiv ℂ A q a) (A (q + -a) - A q - fderiv ℂ A q (-a))
  have i1 := one a rfl
  have i2 := one (-a) (norm_neg a)
  nlinarith

end general

variable {ι : Type*} [Fintype ι]

/-- a real state as a complex one -/
def lift (Q : ι → ℝ) : ι → ℂ := fun j => (Q j : ℂ)

theorem norm_lift (Q : ι → ℝ) : ‖lift Q‖ = ‖Q‖ := by
  simp [Pi.norm_def, lift]

theorem lift_sub (Q P : ι → ℝ) : lift (Q - P) = lift Q - lift P := by
  funext j; simp [lift]

/-- the derivative at a conjugate state -/
theorem fderiv_conj {G : (ι → ℂ) → ι → ℂ} {z : ι → ℂ} (hz : DifferentiableAt ℂ G z) (hz' : DifferentiableAt ℂ G (fun j => conj (z j)))
    (hc : ∀ᶠ x in nhds z, G (fun j => conj (x j)) = fun i => conj (G x i)) (w : ι → ℝ) (i : ι) :
    fderiv ℂ G (fun j => conj (z j)) (lift w) i = conj (fderiv ℂ G z (lift w) i) := by
  have line : ∀ {p : ι → ℂ}, DifferentiableAt ℂ G p → HasDerivAt (fun t : ℝ => G (p + (t : ℂ) • lift w) i) (fderiv ℂ G p (lift w) i) 0 := by
    intro p hp
    have h0 : HasDerivAt (fun t : ℂ => p + t • lift w) (lift w) 0 := by
      simpa using ((hasDerivAt_id (0 : ℂ)).smul_const (lift w)).const_add p
    have h1 : HasFDerivAt G (fderiv ℂ G p) (p + (0 : ℂ) • lift w) := by simpa using hp.hasFDerivAt
    have h2 := h1.comp_hasDerivAt (0 : ℂ) h0
    have h3 := (hasDerivAt_pi.1 h2) i
    exact HasDerivAt.comp_ofReal (z := 0) (by simpa using h3)
  have a := line hz'
  have b := (line hz).star
  refine a.unique (b.congr_of_eventuallyEq ?_)
  have cont : Filter.Tendsto (fun t : ℝ => z + (t : ℂ) • lift w) (nhds 0) (nhds z) := by
    have : Continuous fun t : ℝ => z + (t : ℂ) • lift w := by fun_prop
    simpa using this.tendsto 0
  filter_upwards [cont.eventually hc] with t ht
  have e : ((fun j => conj (z j)) + (t : ℂ) • lift w) = fun j => conj ((z + (t : ℂ) • lift w) j) := by
    funext j; simp [lift]
  rw [e, ht]
  rfl

/-- the real derivative is the real part of the complex one -/
theorem fderiv_real {G : (ι → ℂ) → ι → ℂ} {g : (ι → ℝ) → ι → ℝ} {Q : ι → ℝ} (hd : DifferentiableAt ℂ G (lift Q)) (hr : ∀ᶠ P in nhds Q, G (lift P) = lift (g P))
    (w : ι → ℝ) (i : ι) : fderiv ℝ g Q w i = (fderiv ℂ G (lift Q) (lift w) i).re := by
  let up : (ι → ℝ) →L[ℝ] (ι → ℂ) := ContinuousLinearMap.pi fun j => ofRealCLM.comp (ContinuousLinearMap.proj j)
  let down : (ι → ℂ) →L[ℝ] (ι → ℝ) := ContinuousLinearMap.pi fun j => reCLM.comp (ContinuousLinearMap.proj j)
  have hup : ∀ P : ι → ℝ, up P = lift P := fun P => rfl
  have h1 : HasFDerivAt G ((fderiv ℂ G (lift Q)).restrictScalars ℝ) (up Q) := by
    rw [hup]; exact hd.hasFDerivAt.restrictScalars ℝ
  have h2 := down.hasFDerivAt.comp Q (h1.comp Q up.hasFDerivAt)
  have h3 : HasFDerivAt g (down.comp (((fderiv ℂ G (lift Q)).restrictScalars ℝ).comp up)) Q := by
    refine h2.congr_of_eventuallyEq ?_
    filter_upwards [hr] with P hP
    funext j
    change g P j = (G (lift P) j).re
    rw [hP]
    rfl
  rw [h3.fderiv]
  rfl

/-- **accuracy of the complex step at one state** -/
theorem step_difference {G : (ι → ℂ) → ι → ℂ} {g : (ι → ℝ) → ι → ℝ} {x : ι → ℂ} {r M eps R : ℝ} (M0 : 0 ≤ M) (e0 : 0 < eps) (R0 : 0 ≤ R)
    (hG : ∀ u, ‖u - x‖ ≤ r → DifferentiableAt ℂ G u)
    (h : ∀ u u', ‖u - x‖ ≤ r → ‖u' - x‖ ≤ r → DifferentiableAt ℂ (fderiv ℂ G) u ∧ ‖fderiv ℂ (fderiv ℂ G) u - fderiv ℂ (fderiv ℂ G) u'‖ ≤ M * ‖u - u'‖)
    (hc : ∀ u, ‖u - x‖ ≤ r → ∀ᶠ z in nhds u, G (fun j => conj (z j)) = fun i => conj (G z i))
    {Q : ι → ℝ} (hr : ∀ᶠ P in nhds Q, G (lift P) = lift (g P)) (hQ : ‖lift Q - x‖ + eps * R ≤ r) {v w : ι → ℝ} (hv : ‖v‖ ≤ R) (hw : ‖w‖ ≤ R) (i : ι) :
    |Matvec.complexStep eps G Q 1 v i - Matvec.complexStep eps G Q 1 w i - fderiv ℝ g Q (v - w) i| ≤ M * (eps * R) ^ 2 * ‖v - w‖ := by
  set q := lift Q with hq
  set A := fderiv ℂ G with hA
  have εR : 0 ≤ eps * R := by positivity
  have qn : ‖q - x‖ ≤ r := by linarith
  -- states on the segment
  let ξ : ℝ → ι → ℝ := fun s => w + s • (v - w)
  have hξ : ∀ s ∈ Icc (0 : ℝ) 1, ‖ξ s‖ ≤ R := by
    intro s hs
    have e : ξ s = (1 - s) • w + s • v := by simp only [ξ]; module
    rw [e]
    refine (norm_add_le _ _).trans ?_
    rw [norm_smul, norm_smul, Real.norm_of_nonneg (by linarith [hs.2]), Real.norm_of_nonneg hs.1]
    nlinarith [hs.1, hs.2]
  let a : ℝ → ι → ℂ := fun s => ((eps : ℂ) * I) • lift (ξ s)
  have ha : ∀ s ∈ Icc (0 : ℝ) 1, ‖a s‖ ≤ eps * R := by
    intro s hs
    simp only [a]
    rw [norm_smul, norm_lift]
    simp only [norm_mul, norm_I, mul_one, norm_real, Real.norm_of_nonneg e0.le]
    exact mul_le_mul_of_nonneg_left (hξ s hs) e0.le
  have near : ∀ s ∈ Icc (0 : ℝ) 1, ‖q + a s - x‖ ≤ r ∧ ‖q - a s - x‖ ≤ r := by
    intro s hs
    have i1 := ha s hs
    constructor
    · rw [show q + a s - x = (q - x) + a s by abel]
      exact (norm_add_le _ _).trans (by linarith)
    · rw [show q - a s - x = (q - x) - a s by abel]
      exact (norm_sub_le _ _).trans (by linarith)
  -- the derivative at complex states
  have dev : ∀ s ∈ Icc (0 : ℝ) 1, |(A (q + a s) (lift (v - w)) i).re - (A q (lift (v - w)) i).re| ≤ M * (eps * R) ^ 2 * ‖v - w‖ := by
    intro s hs
    have sd := second_difference (A := A) (x := x) (q := q) (a := a s) (r := r) M0 h (by linarith [ha s hs])
    have conj1 : (fun j => conj ((q + a s) j)) = q - a s := by
      funext j
      simp [a, q, lift, ← sub_eq_add_neg]
    have c1 := fderiv_conj (hG _ (near s hs).1) (by rw [conj1]; exact hG _ (near s hs).2) (hc _ (near s hs).1) (v - w) i
    rw [conj1] at c1
    have conj2 : (fun j => conj (q j)) = q := by
      funext j; simp [q, lift]
    have c2 := fderiv_conj (hG _ qn) (by rw [conj2]; exact hG _ qn) (hc _ qn) (v - w) i
    rw [conj2] at c2
    have i1 : ‖(A (q + a s) + A (q - a s) - (2 : ℂ) • A q) (lift (v - w)) i‖ ≤ 2 * M * ‖a s‖ ^ 2 * ‖v - w‖ := by
      refine (norm_le_pi_norm _ i).trans ((ContinuousLinearMap.le_opNorm _ _).trans ?_)
      rw [norm_lift]
      exact mul_le_mul_of_nonneg_right sd (norm_nonneg _)
    have e1 : (A (q + a s) + A (q - a s) - (2 : ℂ) • A q) (lift (v - w)) i =
        ((2 * ((A (q + a s) (lift (v - w)) i).re - (A q (lift (v - w)) i).re) : ℝ) : ℂ) := by
      have r2 : A q (lift (v - w)) i = ((A q (lift (v - w)) i).re : ℂ) := (conj_eq_iff_re.1 c2.symm).symm
      have r1 : A (q + a s) (lift (v - w)) i + A (q - a s) (lift (v - w)) i = ((2 * (A (q + a s) (lift (v - w)) i).re : ℝ) : ℂ) := by
        rw [c1]; exact add_conj _
      change A (q + a s) (lift (v - w)) i + A (q - a s) (lift (v - w)) i - 2 * A q (lift (v - w)) i = _
      rw [r1]
      conv_lhs => rw [r2]
      push_cast
      ring
    rw [e1, norm_real, Real.norm_eq_abs, abs_mul, abs_two] at i1
    have i2 : ‖a s‖ ^ 2 ≤ (eps * R) ^ 2 := pow_le_pow_left₀ (norm_nonneg _) (ha s hs) 2
    have i3 : M * ‖a s‖ ^ 2 * ‖v - w‖ ≤ M * (eps * R) ^ 2 * ‖v - w‖ := mul_le_mul_of_nonneg_right (mul_le_mul_of_nonneg_left i2 M0) (norm_nonneg _)
    linarith
  -- along the segment
  let H : ℝ → ℝ := fun s => (G (q + a s) i / (eps : ℂ)).im - s * (A q (lift (v - w)) i).re
  have dH : ∀ s ∈ Icc (0 : ℝ) 1, HasDerivAt H ((A (q + a s) (lift (v - w)) i).re - (A q (lift (v - w)) i).re) s := by
    intro s hs
    have l1 : ∀ c : ℂ, ((eps : ℂ) * I) • (lift w + c • lift (v - w)) = ((eps : ℂ) * I) • lift w + c • (((eps : ℂ) * I) • lift (v - w)) := by
      intro c; module
    have h0 : HasDerivAt (fun c : ℂ => q + ((eps : ℂ) * I) • (lift w + c • lift (v - w))) (((eps : ℂ) * I) • lift (v - w)) (s : ℂ) := by
      simp only [l1]
      simpa using ((((hasDerivAt_id (s : ℂ)).smul_const (((eps : ℂ) * I) • lift (v - w))).const_add (((eps : ℂ) * I) • lift w)).const_add q)
    have as : ∀ s : ℝ, ((eps : ℂ) * I) • (lift w + (s : ℂ) • lift (v - w)) = a s := by
      intro s
      funext j
      simp [a, ξ, lift]
    have h1 : HasFDerivAt G (A (q + a s)) (q + ((eps : ℂ) * I) • (lift w + (s : ℂ) • lift (v - w))) := by
      rw [as]; exact (hG _ (near s hs).1).hasFDerivAt
    have h2 := (hasDerivAt_pi.1 (h1.comp_hasDerivAt (s : ℂ) h0)) i
    have h3 := (HasDerivAt.comp_ofReal (z := s) h2)
    have h4 := (imCLM.hasFDerivAt.comp_hasDerivAt s (h3.div_const (eps : ℂ)))
    have h5 := h4.sub ((hasDerivAt_id s).mul_const (A q (lift (v - w)) i).re)
    refine (h5.congr_deriv ?_).congr_of_eventuallyEq (Filter.Eventually.of_forall fun t => ?_)
    · have : A (q + a s) (((eps : ℂ) * I) • lift (v - w)) i / (eps : ℂ) = I * A (q + a s) (lift (v - w)) i := by
        rw [map_smul, Pi.smul_apply, smul_eq_mul]
        have : (eps : ℂ) ≠ 0 := by exact_mod_cast e0.ne'
        field_simp
      simp only [imCLM_apply, this, one_mul]
      simp
    · simp only [H, Function.comp, imCLM_apply, as]
      rfl
  have mv := norm_image_sub_le_of_norm_deriv_le_segment_01' (fun s hs => (dH s hs).hasDerivWithinAt) (fun s hs => by
    rw [Real.norm_eq_abs]; exact dev s ⟨hs.1, hs.2.le⟩)
  have step : ∀ u : ι → ℝ, Matvec.complexStep eps G Q 1 u i = (G (q + ((eps : ℂ) * I) • lift u) i / (eps : ℂ)).im := by
    intro u
    rw [Matvec.complexStep, one_mul]
    congr 3
    funext j
    simp only [q, lift, Pi.add_apply, Pi.smul_apply, smul_eq_mul]
    ring
  have w1 : a 1 = ((eps : ℂ) * I) • lift v := by
    simp only [a, ξ]; congr 1; funext j; simp [lift]
  have w0 : a 0 = ((eps : ℂ) * I) • lift w := by
    simp only [a, ξ]; congr 1; funext j; simp [lift]
  rw [step, step, fderiv_real (hG q qn) hr]
  rw [Real.norm_eq_abs] at mv
  simp only [H, w1, w0] at mv
  refine le_trans (le_of_eq ?_) mv
  congr 1
  ring

end WxVerif.ComplexStep
