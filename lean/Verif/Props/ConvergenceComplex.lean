import Verif.Props.ConvergenceRosexp
import Verif.Props.Invariants
import Verif.Lemmas.ComplexStep
import Verif.Spec.ComplexVersion

/-!
# C90, C64: the products with the Jacobian by the complex step, in the schemes that use them
-/

namespace WxVerif.Props.ConvergenceComplex

open Set Complex WxVerif.Schemes WxVerif.SpecConvergence WxVerif.SpecExponentialSolver WxVerif.SpecComplexVersion WxVerif.ComplexStep
open WxVerif.Matvec (complexStep)

variable {ι : Type} [Fintype ι]

/-- a right-hand side with a complex version is smooth -/
theorem smooth_real {g : (ι → ℝ) → ι → ℝ} {G : (ι → ℂ) → ι → ℂ} {y : ℝ → ι → ℝ} {T r : ℝ} (hG : ComplexVersion g G y T r) {t : ℝ} (ht : t ∈ Icc 0 T) :
    ContDiffAt ℝ 2 g (y t) := by
  let up : (ι → ℝ) →L[ℝ] (ι → ℂ) := ContinuousLinearMap.pi fun j => ofRealCLM.comp (ContinuousLinearMap.proj j)
  let down : (ι → ℂ) →L[ℝ] (ι → ℝ) := ContinuousLinearMap.pi fun j => reCLM.comp (ContinuousLinearMap.proj j)
  have h1 : ContDiffAt ℝ 2 G (up (y t)) := ((hG.smooth t ht).restrict_scalars ℝ).of_le (by norm_num)
  have h2 := down.contDiff.contDiffAt.comp (y t) (h1.comp (y t) up.contDiff.contDiffAt)
  refine h2.congr_of_eventuallyEq ?_
  filter_upwards [Metric.ball_mem_nhds (y t) hG.pos] with P hP
  funext j
  have := hG.real P ⟨t, ht, by simpa [dist_eq_norm] using hP⟩ j
  change g P j = (G (fun k => (P k : ℂ)) j).re
  rw [this, ofReal_re]

/-- **C90 (complex step).**  The products with the Jacobian by the complex step with increment `eps` are accurate to a multiple of `eps²`, uniformly near a curve of
states and for vectors of bounded size, if the right-hand side has a complex version. -/
theorem C90_complex_step {g : (ι → ℝ) → ι → ℝ} {G : (ι → ℂ) → ι → ℂ} {y : ℝ → ι → ℝ} {T r : ℝ} (hy : ContinuousOn y (Icc 0 T)) (hG : ComplexVersion g G y T r) :
    ∃ ρ > 0, ∀ R ≥ 0, ∃ K δ : ℝ, 0 < K ∧ 0 < δ ∧ ∀ eps, 0 < eps → eps ≤ δ → AccurateProducts g y T ρ R (K * eps ^ 2) (fun Q v => complexStep eps G Q 1 v) := by
  have hcont : ContinuousOn (fun t => lift (y t)) (Icc 0 T) := by
    refine continuousOn_pi.2 fun j => ?_
    exact continuous_ofReal.comp_continuousOn (continuousOn_pi.1 hy j)
  have hK := isCompact_Icc.image_of_continuousOn hcont
  obtain ⟨r1, M1, r10, -, h1⟩ := lip_near hK (A := G) (by
    rintro _ ⟨t, ht, rfl⟩
    exact (hG.smooth t ht).of_le (by norm_num))
  obtain ⟨r2, M, r20, M0, h2⟩ := lip_near hK (A := fderiv ℂ G) (by
    rintro _ ⟨t, ht, rfl⟩
    exact (hG.smooth t ht).fderiv_right (by norm_num))
  set s := min (min r1 r2) (r / 2) with hs
  have r0 := hG.pos
  have s0 : 0 < s := lt_min (lt_min r10 r20) (by linarith)
  have s1 : s ≤ r1 := (min_le_left _ _).trans (min_le_left _ _)
  have s2 : s ≤ r2 := (min_le_left _ _).trans (min_le_right _ _)
  have s3 : s < r := (min_le_right _ _).trans_lt (by linarith)
  refine ⟨s / 2, by linarith, fun R R0 => ⟨M * (R + 1) ^ 2, s / (2 * (R + 1)), by positivity, by positivity, fun eps e0 eδ => ⟨?_, ?_⟩⟩⟩
  · rintro Q ⟨t, ht, hQ⟩
    funext i
    have := hG.real Q ⟨t, ht, by linarith⟩ i
    simp [complexStep, this]
  · rintro Q ⟨t, ht, hQ⟩ v w hv hw
    have er : eps * R ≤ s / 2 := by
      have := (le_div_iff₀ (by positivity)).1 eδ
      nlinarith
    have hx : ‖lift Q - lift (y t)‖ ≤ s / 2 := by rw [← lift_sub, norm_lift]; exact hQ
    have mem : lift (y t) ∈ (fun t => lift (y t)) '' Icc 0 T := ⟨t, ht, rfl⟩
    have hreal : ∀ᶠ P in nhds Q, G (lift P) = lift (g P) := by
      filter_upwards [Metric.ball_mem_nhds Q (show 0 < s / 2 by linarith)] with P hP
      funext i
      refine hG.real P ⟨t, ht, ?_⟩ i
      rw [Metric.mem_ball, dist_eq_norm] at hP
      have := norm_add_le (P - Q) (Q - y t)
      rw [sub_add_sub_cancel] at this
      linarith
    have hconj : ∀ u, ‖u - lift (y t)‖ ≤ s → ∀ᶠ z in nhds u, G (fun j => (starRingEnd ℂ) (z j)) = fun i => (starRingEnd ℂ) (G z i) := by
      intro u hu
      filter_upwards [Metric.ball_mem_nhds u (show 0 < r - s by linarith)] with z hz
      funext i
      refine hG.symm z ⟨t, ht, ?_⟩ i
      rw [Metric.mem_ball, dist_eq_norm] at hz
      have := norm_add_le (z - u) (u - lift (y t))
      rw [sub_add_sub_cancel] at this
      exact lt_of_le_of_lt this (by linarith)
    refine (pi_norm_le_iff_of_nonneg (by positivity)).2 fun i => ?_
    rw [Real.norm_eq_abs]
    refine (step_difference (g := g) (x := lift (y t)) (r := s) (M := M) M0.le e0 R0 (fun u hu => (h1 _ mem u u (by linarith) (by linarith)).1)
      (fun u u' hu hu' => h2 _ mem u u' (by linarith) (by linarith)) hconj hreal (by linarith) hv hw i).trans ?_
    refine mul_le_mul_of_nonneg_right ?_ (norm_nonneg _)
    have : R ^ 2 ≤ (R + 1) ^ 2 := by nlinarith
    have := mul_le_mul_of_nonneg_left this (by positivity : 0 ≤ M * eps ^ 2)
    nlinarith

/-- **C90 (partitioned Rosenbrock–exponential scheme as it is computed).**  With the complex step for all products with Jacobians, the scheme has order two, up to the
square of the increment of the complex step and the tolerances of the solvers. -/
theorem C90_partrosexp2_complex {f fI : (ι → ℝ) → ι → ℝ} {F GI : (ι → ℂ) → ι → ℂ} {y : ℝ → ι → ℝ} {T r : ℝ} (hs : SmoothSolution f y T 2)
    (hI : ComplexVersion fI GI y T r) :
    ∃ C δ ρ : ℝ, 0 < δ ∧ 0 < ρ ∧ ∀ h hmin eps tol : ℝ, 0 < hmin → hmin ≤ h → h ≤ δ → 0 < eps → eps ≤ δ → 0 ≤ tol → tol ≤ δ * hmin →
      ∀ linear, RelativeSolver ρ tol linear →
      ∀ phi, ExponentialSolver f fI y T ρ tol (fun Q v => complexStep eps F Q 1 v) (fun Q v => complexStep eps GI Q 1 v) phi →
      ∀ (dt : Nat → ℝ) (Q : Nat → ι → ℝ), (∀ n, hmin ≤ dt n ∧ dt n ≤ h) → Q 0 = y 0 →
        (∀ n, Q (n + 1) = partrosexp2 linear phi f fI (fun Q v => complexStep eps F Q 1 v) (fun Q v => complexStep eps GI Q 1 v) (Q n) (dt n)) →
        ∀ n, time dt n ≤ T → ‖Q n - y (time dt n)‖ ≤ C * (h ^ 2 + eps ^ 2 + tol / hmin) := by
  have hcont : ContinuousOn y (Icc 0 T) := fun t ht => (hs.solves t ht).continuousWithinAt
  obtain ⟨near, near0, H1⟩ := C90_complex_step hcont hI
  obtain ⟨C, δ, ρ, R, δ0, ρ0, ρn, R0, H⟩ := Convergence.C90_partrosexp2 hs (fun t ht => smooth_real hI ht) near0
  obtain ⟨K, δ', K0, δ'0, H2⟩ := H1 R R0.le
  refine ⟨|C| * (1 + K), min (min δ δ') (min 1 (δ / K)), ρ, by positivity, ρ0, ?_⟩
  intro h hmin eps tol hm0 hmh hδ e0 eδ t0 tδ linear hlin phi hphi dt Q hdt hQ0 hQ n hn
  simp only [le_min_iff] at hδ eδ
  have small : K * eps ^ 2 ≤ δ := by
    have i1 : eps * eps ≤ eps * 1 := mul_le_mul_of_nonneg_left eδ.2.1 e0.le
    have i2 := (le_div_iff₀ K0).1 eδ.2.2
    nlinarith
  have acc := H2 eps e0 eδ.1.2
  have b := H h hmin (K * eps ^ 2) tol hm0 hmh hδ.1.1 (by positivity) small t0
    (tδ.trans (mul_le_mul_of_nonneg_right ((min_le_left _ _).trans (min_le_left _ _)) hm0.le)) linear hlin
    (fun Q v => complexStep eps F Q 1 v) (fun Q v => complexStep eps GI Q 1 v)
    ⟨fun Q ⟨t, ht, hq⟩ => acc.zero Q ⟨t, ht, hq.trans ρn⟩, fun Q ⟨t, ht, hq⟩ => acc.diff Q ⟨t, ht, hq.trans ρn⟩⟩ phi hphi dt Q hdt hQ0 hQ n hn
  refine b.trans ((mul_le_mul_of_nonneg_right (le_abs_self C) (by positivity)).trans ?_)
  rw [mul_assoc]
  refine mul_le_mul_of_nonneg_left ?_ (abs_nonneg C)
  have z1 : 0 ≤ tol / hmin := by positivity
  have z2 : 0 ≤ K * (h ^ 2 + tol / hmin) := by positivity
  nlinarith [sq_nonneg eps]

/-- **C64 (complex step).**  If the right-hand side has no net source of a linear quantity also at complex states, neither have the products with its Jacobian by the
complex step: what `C64_rosexp2` asks of the products. -/
theorem C64_complex_step {c : ι → ℝ} {G : (ι → ℂ) → ι → ℂ} (hG : ∀ z, ∑ i, (c i : ℂ) * G z i = 0) (eps : ℝ) (Q : ι → ℝ) (dt : ℝ) (v : ι → ℝ) :
    ∑ i, c i * complexStep eps G Q dt v i = 0 := by
  have h := hG (fun j => (Q j : ℂ) + I * (eps : ℂ) * (v j : ℂ))
  have h2 : ∑ i, (c i : ℂ) * (G (fun j => (Q j : ℂ) + I * (eps : ℂ) * (v j : ℂ)) i / (eps : ℂ)) = 0 := by
    simp only [← mul_div_assoc]
    rw [← Finset.sum_div, h, zero_div]
  have h3 := congrArg Complex.im h2
  rw [Complex.im_sum, zero_im] at h3
  simp only [im_ofReal_mul] at h3
  simp only [complexStep]
  calc _ = dt * ∑ i, c i * (G (fun j => (Q j : ℂ) + I * (eps : ℂ) * (v j : ℂ)) i / (eps : ℂ)).im := by
        rw [Finset.mul_sum]; exact Finset.sum_congr rfl fun i _ => by ring
    _ = 0 := by rw [h3, mul_zero]

/-- an exponential times a square -/
example : ComplexVersion (fun (Q : Unit → ℝ) _ => Real.exp (Q ()) * Q () ^ 2) (fun z _ => Complex.exp (z ()) * z () ^ 2) (fun t _ => 1 / (2 - t)) 1 3 where
  pos := by norm_num
  real := by intro Q _ i; simp
  symm := by intro z _ i; simp [Complex.exp_conj]
  smooth := by
    intro t _
    refine ContDiff.contDiffAt (contDiff_pi.2 fun _ => ?_)
    exact (Complex.contDiff_exp.comp (contDiff_apply ℂ ℂ ())).mul ((contDiff_apply ℂ ℂ ()).pow 2)

/-- the exchange between two cells -/
example (z : Bool → ℂ) : ∑ i : Bool, ((1 : ℝ) : ℂ) * (fun i => if i then z true * z false else -(z true * z false)) i = 0 := by
  simp

end WxVerif.Props.ConvergenceComplex
