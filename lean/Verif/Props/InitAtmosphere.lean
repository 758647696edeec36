import Verif.Model.InitAtmosphere
import Verif.Spec.Balance
import Mathlib.Analysis.SpecialFunctions.Trigonometric.Deriv
import Mathlib.Analysis.SpecialFunctions.Pow.Deriv
import Mathlib.Analysis.Real.Pi.Bounds

open WxVerif.Flux WxVerif.InitAtm WxVerif.Spec.Balance Real

namespace WxVerif.Props.InitAtmosphere

lemma Rd_pos : 0 < Rd := by norm_num [Rd]
lemma cpd_pos : 0 < cpd := by norm_num [cpd]
lemma cvd_pos : 0 < cvd := by norm_num [cvd, cpd, Rd]
lemma p0_pos : 0 < p0 := by norm_num [p0]
lemma g_pos : 0 < gravity := by norm_num [gravity]
lemma iso_pos (z : ℝ) : 0 < isoPressure z := mul_pos p0_pos (exp_pos _)

/-! ## The state carries the intended pressure -/

/-- The pressure the 3D model recomputes from density times potential temperature is the pressure the state was built with. -/
theorem C74_pressure {p t : ℝ} (hp : 0 < p) (ht : 0 < t) : pressure3 (rhoOf p t * thetaOf p t) = p := by
  have hR := Rd_pos; have hc := cpd_pos; have hv := cvd_pos; have h0 := p0_pos
  have hx : rhoOf p t * thetaOf p t * (Rd / p0) = (p / p0) * (p0 / p) ^ (Rd / cpd) := by
    unfold rhoOf thetaOf; field_simp
  have hl : log (rhoOf p t * thetaOf p t * (Rd / p0)) = (cvd / cpd) * log (p / p0) := by
    rw [hx, log_mul (by positivity) (by positivity), log_rpow (by positivity), log_div h0.ne' hp.ne', log_div hp.ne' h0.ne']
    have : cvd = cpd - Rd := rfl
    rw [this]; field_simp; ring
  unfold pressure3
  rw [hl, ← mul_assoc, div_mul_div_cancel₀ hv.ne', div_self hc.ne', one_mul, exp_log (by positivity)]
  field_simp

/-! ## Hydrostatic balance -/

lemma iso_hasDeriv (z : ℝ) : HasDerivAt isoPressure (-(rhoOf (isoPressure z) 300 * gravity)) z := by
  have h : HasDerivAt (fun z : ℝ => p0 * exp (-z / scaleHeight)) _ z :=
    (((hasDerivAt_id' z).neg.div_const scaleHeight).exp).const_mul p0
  refine HasDerivAt.congr_deriv h ?_
  have hR := Rd_pos; have hg := g_pos
  simp only [Pi.neg_apply, isoPressure, rhoOf, scaleHeight]
  generalize exp _ = e
  field_simp

/-- Cases 11 and 12: the isothermal atmosphere is in hydrostatic balance at every height. -/
theorem C74_isothermal (z : ℝ) : Hydrostatic gravity isoPressure (fun z => rhoOf (isoPressure z) 300) z := iso_hasDeriv z

/-- Case 20: the atmosphere of constant lapse rate is in hydrostatic balance wherever its temperature is positive. -/
theorem C74_lapse_rate {z : ℝ} (hz : 0 < temp20 z) : Hydrostatic gravity p20 (fun z => rhoOf (p20 z) (temp20 z)) z := by
  have hb : (0 : ℝ) < 1 - 0.0065 / 300 * z := by unfold temp20 at hz; linarith
  have h : HasDerivAt (fun z : ℝ => p0 * (1 - 0.0065 / 300 * z) ^ (gravity / (Rd * 0.0065))) _ z :=
    (((((hasDerivAt_id' z).const_mul (0.0065 / 300 : ℝ)).const_sub 1).rpow_const (p := gravity / (Rd * 0.0065)) (Or.inl hb.ne'))).const_mul p0
  refine HasDerivAt.congr_deriv h ?_
  have hR := Rd_pos
  have ht : temp20 z = 300 * (1 - 0.0065 / 300 * z) := by unfold temp20; ring
  simp only [rhoOf, p20]
  rw [ht, rpow_sub_one hb.ne']
  field_simp

/-- At the ground the pressure of case 20 is the surface pressure; its temperature is positive up to 46 km. -/
theorem C74_lapse_rate_domain {z : ℝ} (hz : z ≤ 46000) : 0 < temp20 z := by unfold temp20; norm_num at *; linarith

/-! ## Steady zonal flows -/

lemma Cs_nonneg (b : Bool) : 0 ≤ Cs b := by unfold Cs; split <;> norm_num

lemma temp21_pos (b : Bool) (lat : ℝ) : 0 < temp21 b lat := by
  unfold temp21
  have h1 : sin lat ^ 2 ≤ 1 := sin_sq_le_one lat
  have h0 : 0 ≤ sin lat ^ 2 := sq_nonneg _
  have hc : Cs b * 20 ^ 2 / gravity ≤ 1 / 2 := by
    unfold Cs gravity; split <;> norm_num
  have hc0 : 0 ≤ Cs b * 20 ^ 2 / gravity := by have := Cs_nonneg b; have := g_pos; positivity
  nlinarith

lemma temp21_hasDeriv (b : Bool) (lat : ℝ) :
    HasDerivAt (temp21 b) (300 * (-(Cs b * 20 ^ 2 / gravity * (2 * sin lat * cos lat)))) lat := by
  have h : HasDerivAt (fun lat : ℝ => 300 * (1 - Cs b * 20 ^ 2 / gravity * sin lat ^ 2)) _ lat :=
    ((((hasDerivAt_sin lat).pow 2).const_mul (Cs b * 20 ^ 2 / gravity)).const_sub 1).const_mul 300
  refine HasDerivAt.congr_deriv h ?_
  push_cast; ring

lemma cos_sq_tan (x : ℝ) : cos x ^ 2 * tan x = cos x * sin x := by
  rw [tan_eq_sin_div_cos]
  by_cases h : cos x = 0
  · simp [h]
  · field_simp

lemma u21_sq (b : Bool) {lat z : ℝ} (hz : 0 ≤ z) :
    u21 b lat z ^ 2 = 400 * cos lat ^ 2 * (2 * 300 / temp21 b lat * Cs b * z + temp21 b lat / 300) := by
  have hT := temp21_pos b lat
  have h0 : 0 ≤ 2 * 300 / temp21 b lat * Cs b * z + temp21 b lat / 300 := by
    have := Cs_nonneg b; positivity
  have hs : ((2 * 300 / temp21 b lat * Cs b * z + temp21 b lat / 300) ^ (0.5 : ℝ)) ^ 2
      = 2 * 300 / temp21 b lat * Cs b * z + temp21 b lat / 300 := by
    rw [← rpow_natCast, ← rpow_mul h0]; norm_num
  unfold u21
  rw [mul_pow, mul_pow, hs]; norm_num

lemma p21_lat (b : Bool) (lat z : ℝ) : HasDerivAt (fun s => p21 b s z)
    (-(p21 b lat z * (400 * (sin lat * cos lat) / Rd * (1 / 300 + 2 * 300 * Cs b * z / temp21 b lat ^ 2)))) lat := by
  have hT := temp21_pos b lat; have hR := Rd_pos; have hg := g_pos
  have h : HasDerivAt (fun s : ℝ => 100000 * exp (-(20 ^ 2) / (2 * Rd * 300) * sin s ^ 2 - gravity * z / (Rd * temp21 b s))) _ lat :=
    (((((hasDerivAt_sin lat).pow 2).const_mul (-(20 ^ 2) / (2 * Rd * 300))).sub
      ((hasDerivAt_const lat (gravity * z)).div ((temp21_hasDeriv b lat).const_mul Rd) (by positivity))).exp).const_mul 100000
  refine HasDerivAt.congr_deriv h ?_
  simp only [p21, Pi.pow_apply]
  generalize exp _ = e
  push_cast
  field_simp
  ring

lemma p21_z (b : Bool) (lat z : ℝ) : HasDerivAt (fun s => p21 b lat s) (-(rhoOf (p21 b lat z) (temp21 b lat) * gravity)) z := by
  have hT := temp21_pos b lat; have hR := Rd_pos; have hg := g_pos
  have h : HasDerivAt (fun s : ℝ => 100000 * exp (-(20 ^ 2) / (2 * Rd * 300) * sin lat ^ 2 - gravity * s / (Rd * temp21 b lat))) _ z :=
    (((((hasDerivAt_id' z).const_mul gravity).div_const (Rd * temp21 b lat)).const_sub (-(20 ^ 2) / (2 * Rd * 300) * sin lat ^ 2)).exp).const_mul 100000
  refine HasDerivAt.congr_deriv h ?_
  simp only [p21, rhoOf]
  generalize exp _ = e
  field_simp

/-- Cases 21 and 22: without the mountain, the flow of both Schär tests is a steady solution for the shallow atmosphere on the
non-rotating planet these cases use, whatever its radius, at every latitude and height. -/
theorem C74_schar_steady (b : Bool) (a lat : ℝ) {z : ℝ} (hz : 0 ≤ z) :
    SteadyZonal false 0 gravity a (p21 b) (fun s z => rhoOf (p21 b s z) (temp21 b s)) (u21 b) lat z := by
  have hT := temp21_pos b lat; have hR := Rd_pos
  refine ⟨_, _, p21_lat b lat z, p21_z b lat z, ?_, by simp⟩
  have hu : u21 b lat z ^ 2 * tan lat
      = 400 * (cos lat * sin lat) * (2 * 300 / temp21 b lat * Cs b * z + temp21 b lat / 300) := by
    rw [u21_sq b hz, ← cos_sq_tan]; ring
  simp only [Bool.false_eq_true, if_false, mul_zero, zero_mul, add_zero]
  rw [hu]
  unfold rhoOf
  field_simp
  ring

/-! ### The gravity-wave background -/

lemma bigG_pos : 0 < bigG := by norm_num [bigG, gravity, N2, cpd]
lemma N2_pos : 0 < N2 := by norm_num [N2]
lemma bigG_N2 : bigG * N2 * cpd = gravity ^ 2 := by
  have := N2_pos; have := cpd_pos; unfold bigG; field_simp

/-- exponent of the surface temperature and pressure: the derivative of `cos 2φ − 1` -/
lemma cos2_hasDeriv (lat : ℝ) : HasDerivAt (fun s : ℝ => cos (2 * s) - 1) (-(2 * sin (2 * lat))) lat := by
  have h : HasDerivAt (fun s : ℝ => cos (2 * s) - 1) _ lat := (((hasDerivAt_id' lat).const_mul 2).cos).sub_const 1
  exact h.congr_deriv (by ring)

lemma TS_hasDeriv (Ω a lat : ℝ) : HasDerivAt (TS Ω a)
    ((TS Ω a lat - bigG) * (20 * N2 / (2 * gravity ^ 2) * (20 + 2 * Ω * a) * sin (2 * lat))) lat := by
  have h : HasDerivAt (fun s : ℝ => bigG + (300 - bigG) * exp (-(20 * N2 / (4 * gravity ^ 2)) * (20 + 2 * Ω * a) * (cos (2 * s) - 1))) _ lat :=
    ((((cos2_hasDeriv lat).const_mul (-(20 * N2 / (4 * gravity ^ 2)) * (20 + 2 * Ω * a))).exp).const_mul (300 - bigG)).const_add bigG
  refine HasDerivAt.congr_deriv h ?_
  have hg := g_pos
  unfold TS
  generalize exp _ = e
  field_simp
  ring

/-- the factor between surface pressure and pressure -/
lemma column31 {Ω a lat z : ℝ} (hS : 0 < TS Ω a lat) : bigG / TS Ω a lat * exp (-N2 * z / gravity) + 1 - bigG / TS Ω a lat
    = t31 Ω a lat z / (exp (N2 * z / gravity) * TS Ω a lat) := by
  have he : exp (-N2 * z / gravity) = (exp (N2 * z / gravity))⁻¹ := by rw [← exp_neg]; congr 1; ring
  have hE := exp_pos (N2 * z / gravity)
  rw [he]; unfold t31; field_simp; ring

lemma p31_z {Ω a lat z : ℝ} (hS : 0 < TS Ω a lat) (hT : 0 < t31 Ω a lat z) :
    HasDerivAt (fun s => p31 Ω a lat s) (-(rhoOf (p31 Ω a lat z) (t31 Ω a lat z) * gravity)) z := by
  have hE := exp_pos (N2 * z / gravity); have hR := Rd_pos; have hg := g_pos; have hc := cpd_pos; have hG := bigG_pos
  have hb : 0 < bigG / TS Ω a lat * exp (-N2 * z / gravity) + 1 - bigG / TS Ω a lat := by
    rw [column31 hS]; positivity
  have h : HasDerivAt (fun s : ℝ => ps31 Ω a lat * (bigG / TS Ω a lat * exp (-N2 * s / gravity) + 1 - bigG / TS Ω a lat) ^ (cpd / Rd)) _ z :=
    ((((((((hasDerivAt_id' z).const_mul (-N2)).div_const gravity).exp).const_mul (bigG / TS Ω a lat)).add_const 1).sub_const
      (bigG / TS Ω a lat)).rpow_const (p := cpd / Rd) (Or.inl hb.ne')).const_mul (ps31 Ω a lat)
  refine HasDerivAt.congr_deriv h ?_
  have he : exp (-N2 * z / gravity) = (exp (N2 * z / gravity))⁻¹ := by rw [← exp_neg]; congr 1; ring
  rw [rpow_sub_one hb.ne']
  unfold rhoOf p31
  rw [column31 hS, he]
  generalize (t31 Ω a lat z / (exp (N2 * z / gravity) * TS Ω a lat)) ^ (cpd / Rd) = P
  have hGN := bigG_N2
  field_simp
  linear_combination (-(ps31 Ω a lat * P)) * hGN

lemma p31_lat {Ω a lat z : ℝ} (hS : 0 < TS Ω a lat) (hT : 0 < t31 Ω a lat z) :
    HasDerivAt (fun s => p31 Ω a s z)
      (-(rhoOf (p31 Ω a lat z) (t31 Ω a lat z) * (10 * (20 + 2 * Ω * a) * sin (2 * lat)))) lat := by
  have hE := exp_pos (N2 * z / gravity); have hR := Rd_pos; have hg := g_pos; have hc := cpd_pos; have hG := bigG_pos
  have hb : 0 < bigG / TS Ω a lat * exp (-N2 * z / gravity) + 1 - bigG / TS Ω a lat := by
    rw [column31 hS]; positivity
  have hs : HasDerivAt (fun s : ℝ => ps31 Ω a s) _ lat :=
    ((((cos2_hasDeriv lat).const_mul (20 / (4 * bigG * Rd) * (20 + 2 * Ω * a))).exp).const_mul 100000).mul
      (((TS_hasDeriv Ω a lat).div_const 300).rpow_const (p := cpd / Rd) (Or.inl (by positivity)))
  have hq := (hasDerivAt_const lat bigG).div (TS_hasDeriv Ω a lat) hS.ne'
  have h : HasDerivAt (fun s : ℝ => ps31 Ω a s * (bigG / TS Ω a s * exp (-N2 * z / gravity) + 1 - bigG / TS Ω a s) ^ (cpd / Rd)) _ lat :=
    hs.mul ((((hq.mul_const (exp (-N2 * z / gravity))).add_const 1).sub hq).rpow_const (p := cpd / Rd) (Or.inl hb.ne'))
  refine HasDerivAt.congr_deriv h ?_
  have he : exp (-N2 * z / gravity) = (exp (N2 * z / gravity))⁻¹ := by rw [← exp_neg]; congr 1; ring
  have hS3 : TS Ω a lat / 300 ≠ 0 := by positivity
  simp only [Pi.div_apply, Pi.mul_apply, Pi.sub_apply, Pi.add_apply]
  rw [rpow_sub_one hS3, rpow_sub_one hb.ne']
  unfold rhoOf p31 ps31
  rw [column31 hS, he]
  generalize (t31 Ω a lat z / (exp (N2 * z / gravity) * TS Ω a lat)) ^ (cpd / Rd) = P
  generalize (TS Ω a lat / 300) ^ (cpd / Rd) = P'
  generalize exp (20 / (4 * bigG * Rd) * (20 + 2 * Ω * a) * (cos (2 * lat) - 1)) = e
  have hGN : cpd = gravity ^ 2 / (bigG * N2) := by
    have := N2_pos; have := bigG_N2; field_simp; linarith
  have hN := N2_pos
  have ht : t31 Ω a lat z = bigG * (1 - exp (N2 * z / gravity)) + TS Ω a lat * exp (N2 * z / gravity) := rfl
  rw [hGN]
  generalize t31 Ω a lat z = T at *
  generalize exp (N2 * z / gravity) = E at *
  generalize TS Ω a lat = S at *
  subst ht
  field_simp
  ring

lemma TS_pos {Ω a lat z : ℝ} (hz : 0 ≤ z) (hT : 0 < t31 Ω a lat z) : 0 < TS Ω a lat := by
  have hE : 1 ≤ exp (N2 * z / gravity) := by
    rw [one_le_exp_iff]; have := N2_pos; have := g_pos; positivity
  have hG := bigG_pos
  unfold t31 at hT
  by_contra h
  push Not at h
  nlinarith

/-- Case 31: the background of the gravity wave is a steady solution for the shallow atmosphere on a planet of any radius and
rotation rate, at every latitude and height where its temperature is positive. -/
theorem C74_gravity_wave_steady {Ω a lat z : ℝ} (hz : 0 ≤ z) (hT : 0 < t31 Ω a lat z) :
    SteadyZonal false Ω gravity a (p31 Ω a) (fun s z => rhoOf (p31 Ω a s z) (t31 Ω a s z)) (fun s _ => u31 s) lat z := by
  have hS := TS_pos hz hT
  refine ⟨_, _, p31_lat hS hT, p31_z hS hT, ?_, by simp⟩
  simp only [Bool.false_eq_true, if_false]
  have hu : u31 lat ^ 2 * tan lat + 2 * Ω * a * u31 lat * sin lat = 10 * (20 + 2 * Ω * a) * sin (2 * lat) := by
    unfold u31
    rw [mul_pow, mul_assoc, cos_sq_tan, sin_two_mul]; ring
  rw [hu]; ring

/-- On the non-rotating planet of case 31 the background temperature is positive in the whole layer of 10 km, on a planet of any radius. -/
theorem C74_gravity_wave_domain (a lat : ℝ) {z : ℝ} (hz : 0 ≤ z) (hz' : z ≤ 10000) : 0 < t31 0 a lat z := by
  have hexp : ∀ x : ℝ, 0 ≤ x → x < 1 → exp x ≤ 1 / (1 - x) := by
    intro x _ hx1
    have h := add_one_le_exp (-x)
    have h1 : exp x * exp (-x) = 1 := by rw [← exp_add]; simp
    rw [le_div_iff₀ (by linarith)]
    have := exp_pos x
    nlinarith
  have hE : exp (N2 * z / gravity) ≤ 1.114 := by
    have hg := g_pos
    have hx : N2 * z / gravity ≤ 0.102 := by
      rw [div_le_iff₀ hg]; unfold N2 gravity; norm_num at *; linarith
    refine (exp_le_exp.mpr hx).trans ((hexp 0.102 (by norm_num) (by norm_num)).trans (by norm_num))
  have hE1 : 1 ≤ exp (N2 * z / gravity) := by
    rw [one_le_exp_iff]; have := N2_pos; have := g_pos; positivity
  have hF : exp (-(20 * N2 / (4 * gravity ^ 2)) * (20 + 2 * 0 * a) * (cos (2 * lat) - 1)) ≤ 1.001 := by
    have hc := neg_one_le_cos (2 * lat)
    have hx : -(20 * N2 / (4 * gravity ^ 2)) * (20 + 2 * 0 * a) * (cos (2 * lat) - 1) ≤ 0.0009 := by
      have : -(20 * N2 / (4 * gravity ^ 2)) * (20 + 2 * 0 * a) * (cos (2 * lat) - 1)
          = (400 * N2 / (4 * gravity ^ 2)) * (1 - cos (2 * lat)) := by ring
      rw [this]
      have h1 : 400 * N2 / (4 * gravity ^ 2) ≤ 0.0002 := by unfold N2 gravity; norm_num
      have h0 : 0 ≤ 400 * N2 / (4 * gravity ^ 2) := by unfold N2 gravity; norm_num
      nlinarith [cos_le_one (2 * lat)]
    exact (exp_le_exp.mpr hx).trans ((hexp 0.0009 (by norm_num) (by norm_num)).trans (by norm_num))
  have hF0 := exp_pos (-(20 * N2 / (4 * gravity ^ 2)) * (20 + 2 * 0 * a) * (cos (2 * lat) - 1))
  have hGl : 956 ≤ bigG := by unfold bigG gravity N2 cpd; norm_num
  have hGu : bigG ≤ 957 := by unfold bigG gravity N2 cpd; norm_num
  unfold t31 TS
  generalize exp (N2 * z / gravity) = E at *
  generalize exp (-(20 * N2 / (4 * gravity ^ 2)) * (20 + 2 * 0 * a) * (cos (2 * lat) - 1)) = F at *
  have h1 : F * E ≤ 1.001 * 1.114 := mul_le_mul hF hE (by linarith) (by norm_num)
  have h2 : 0 ≤ F * E := by positivity
  nlinarith

/-- The potential-temperature perturbation of case 31 lies between 0 and 1 K in the layer and vanishes at its floor and lid. -/
theorem C74_perturbation (Ω a lon lat : ℝ) {z : ℝ} (hz : 0 ≤ z) (hz' : z ≤ 10000) :
    0 ≤ theta31 Ω a lon lat z - thetaOf (p31 Ω a lat z) (t31 Ω a lat z) ∧
    theta31 Ω a lon lat z - thetaOf (p31 Ω a lat z) (t31 Ω a lat z) ≤ 1 ∧
    theta31 Ω a lon lat 0 = thetaOf (p31 Ω a lat 0) (t31 Ω a lat 0) ∧
    theta31 Ω a lon lat 10000 = thetaOf (p31 Ω a lat 10000) (t31 Ω a lat 10000) := by
  have hs0 : 0 ≤ sin (2 * π * z / 20000) := by
    apply sin_nonneg_of_nonneg_of_le_pi
    · have := pi_pos; positivity
    · rw [div_le_iff₀ (by norm_num)]; nlinarith [pi_pos]
  have hs1 := sin_le_one (2 * π * z / 20000)
  have hr : ∀ r : ℝ, 0 ≤ (5000 : ℝ) ^ 2 / (5000 ^ 2 + r ^ 2) ∧ (5000 : ℝ) ^ 2 / (5000 ^ 2 + r ^ 2) ≤ 1 := by
    intro r
    refine ⟨by positivity, ?_⟩
    rw [div_le_one (by positivity)]; nlinarith [sq_nonneg r]
  obtain ⟨h0, h1⟩ := hr (a * arccos (sin lat * sin 0 + cos lat * cos 0 * cos (lon - 2 * π / 3)))
  refine ⟨?_, ?_, ?_, ?_⟩
  · unfold theta31 pert31; rw [add_sub_cancel_left, one_mul]; exact mul_nonneg h0 hs0
  · unfold theta31 pert31; rw [add_sub_cancel_left, one_mul]; exact mul_le_one₀ h1 hs0 hs1
  · unfold theta31 pert31; simp
  · unfold theta31 pert31
    rw [show 2 * π * 10000 / 20000 = π by ring, sin_pi]; simp

/-- The point is not the latitude-circle geometry only: at the centre of the wave and half-way up, the perturbation is 1 K. -/
example (Ω a : ℝ) : theta31 Ω a (2 * π / 3) 0 5000 - thetaOf (p31 Ω a 0 5000) (t31 Ω a 0 5000) = 1 := by
  unfold theta31 pert31
  rw [show 2 * π * 5000 / 20000 = π / 2 by ring, sin_pi_div_two]; simp

/-- In the deep atmosphere (the default `depth_approx`) the same flows are not steady: wherever the wind blows, the vertical momentum
equation is left with the residual `ρ u² / (a + z)`. -/
theorem C74_schar_deep_fails (b : Bool) {a lat z : ℝ} (ha : 0 < a) (hz : 0 ≤ z) (hlat : cos lat ≠ 0) :
    ¬ SteadyZonal true 0 gravity a (p21 b) (fun s z => rhoOf (p21 b s z) (temp21 b s)) (u21 b) lat z := by
  rintro ⟨pφ, pz, -, h2, -, h4⟩
  have hpz := h2.unique (p21_z b lat z)
  have hT := temp21_pos b lat; have hR := Rd_pos; have hC := Cs_nonneg b
  have hp : 0 < p21 b lat z := by unfold p21; positivity
  have hu : 0 < u21 b lat z ^ 2 := by
    rw [u21_sq b hz]
    have : 0 < cos lat ^ 2 := by positivity
    positivity
  rw [hpz] at h4
  have : 0 < rhoOf (p21 b lat z) (temp21 b lat) * (u21 b lat z ^ 2 / (a + z)) := by unfold rhoOf; positivity
  simp at h4
  rcases h4 with h4 | h4
  · unfold rhoOf at h4; have : 0 < p21 b lat z / (Rd * temp21 b lat) := by positivity
    linarith
  · rcases h4 with h4 | h4
    · rw [h4] at hu; simp at hu
    · linarith

/-- The same for the gravity-wave background on its non-rotating planet. -/
theorem C74_gravity_wave_deep_fails {a lat z : ℝ} (ha : 0 < a) (hz : 0 ≤ z) (hT : 0 < t31 0 a lat z) (hlat : cos lat ≠ 0) :
    ¬ SteadyZonal true 0 gravity a (p31 0 a) (fun s z => rhoOf (p31 0 a s z) (t31 0 a s z)) (fun s _ => u31 s) lat z := by
  rintro ⟨pφ, pz, -, h2, -, h4⟩
  have hS := TS_pos hz hT
  have hpz := h2.unique (p31_z hS hT)
  have hR := Rd_pos; have hG := bigG_pos
  have hb : 0 < bigG / TS 0 a lat * exp (-N2 * z / gravity) + 1 - bigG / TS 0 a lat := by
    rw [column31 hS]; positivity
  have hp : 0 < p31 0 a lat z := by unfold p31 ps31; positivity
  have hu : 0 < u31 lat ^ 2 := by unfold u31; positivity
  rw [hpz] at h4
  simp at h4
  rcases h4 with h4 | h4
  · unfold rhoOf at h4; have : 0 < p31 0 a lat z / (Rd * t31 0 a lat z) := by positivity
    linarith
  · rcases h4 with h4 | h4
    · rw [h4] at hu; simp at hu
    · linarith

/-! ## Prescribed winds of the advection tests -/

/-- Case 11: at every time, on a planet of any radius, the deformational wind carries the isothermal atmosphere without divergence. -/
theorem C74_deformation_divergence_free {a lat : ℝ} (t lon z : ℝ) (ha : a ≠ 0) (hlat : cos lat ≠ 0) :
    MassFluxDivergenceFree a (fun z => rhoOf (isoPressure z) 300) (u11 a t) (fun lon lat _ => v11 a t lon lat) (w11 t) lon lat z := by
  have hR := Rd_pos; have hg := g_pos; have hp := iso_pos z
  have hb : 0 < bs * ptop := by unfold bs ptop; have := p0_pos; positivity
  have hl : HasDerivAt (fun s => lonp s t) 1 lon := by unfold lonp; exact (hasDerivAt_id' lon).sub_const _
  have hx : HasDerivAt (fun s => rhoOf (isoPressure z) 300 * u11 a t s lat z) _ lon :=
    ((((((hl.sin.const_mul (k0_11 a)).mul hl.sin).mul_const (sin (2 * lat))).mul_const (cos (π * t / tau11))).add_const (u0_11 a * cos lat)).add
      ((((hl.cos.const_mul (omega0 * a / (bs * ptop))).mul_const (cos lat ^ 2)).mul_const (cos (2 * π * t / tau11))).mul_const
        (-exp ((isoPressure z - p0) / (bs * ptop)) + exp ((ptop - isoPressure z) / (bs * ptop))))).const_mul (rhoOf (isoPressure z) 300)
  have hy : HasDerivAt (fun s => rhoOf (isoPressure z) 300 * v11 a t lon s * cos s) _ lat :=
    (((((hasDerivAt_cos lat).const_mul (k0_11 a * sin (2 * lonp lon t))).mul_const (cos (π * t / tau11))).const_mul
      (rhoOf (isoPressure z) 300))).mul (hasDerivAt_cos lat)
  have hi := iso_hasDeriv z
  have hsh : HasDerivAt (fun s => shape (isoPressure s)) _ z :=
    ((((hi.sub_const p0).div_const (bs * ptop)).exp.const_sub (1 + exp ((ptop - p0) / (bs * ptop)))).sub
      (((hi.const_sub ptop).div_const (bs * ptop)).exp))
  have hw : (fun s => rhoOf (isoPressure s) 300 * w11 t lon lat s)
      = fun s => (-(1 / gravity) * omega0 * sin (lonp lon t) * cos lat * cos (2 * π * t / tau11)) * shape (isoPressure s) := by
    funext s
    have := iso_pos s
    unfold rhoOf w11
    field_simp
  have hz := hsh.const_mul (-(1 / gravity) * omega0 * sin (lonp lon t) * cos lat * cos (2 * π * t / tau11))
  rw [← hw] at hz
  refine ⟨_, _, _, hx, hy, hz, ?_⟩
  rw [sin_two_mul lat, sin_two_mul (lonp lon t)]
  generalize exp ((isoPressure z - p0) / (bs * ptop)) = e1
  generalize exp ((ptop - isoPressure z) / (bs * ptop)) = e2
  generalize bs * ptop = B at *
  generalize rhoOf (isoPressure z) 300 = ρ
  field_simp
  ring

/-- Case 12: at every time, the Hadley-like wind carries the isothermal atmosphere without divergence. -/
theorem C74_hadley_divergence_free {a ztop lat : ℝ} (t lon z : ℝ) (ha : a ≠ 0) (hztop : ztop ≠ 0) (hlat : cos lat ≠ 0) :
    MassFluxDivergenceFree a (fun z => rhoOf (isoPressure z) 300) (fun _ lat _ => u12 lat) (fun _ lat z => v12 a ztop t lat z)
      (fun _ lat z => w12 ztop t lat z) lon lat z := by
  have hR := Rd_pos; have hg := g_pos; have h0 := p0_pos
  have hx : HasDerivAt (fun _ : ℝ => rhoOf (isoPressure z) 300 * u12 lat) 0 lon := hasDerivAt_const _ _
  have hv : (fun s => rhoOf (isoPressure z) 300 * v12 a ztop t s z * cos s)
      = fun s => (-rho0_12 * (a * 0.15 * π) / (5 * ztop) * cos (π * z / ztop) * cos (π * t / 86400)) * (cos s * sin (5 * s) * cos s) := by
    funext s
    have := iso_pos z
    unfold rhoOf v12 rhoOf
    field_simp
  have h5 : HasDerivAt (fun s : ℝ => sin (5 * s)) (cos (5 * lat) * 5) lat := by
    have h : HasDerivAt (fun s : ℝ => sin (5 * s)) _ lat := ((hasDerivAt_id' lat).const_mul 5).sin
    exact h.congr_deriv (by ring)
  have h3 : HasDerivAt (fun s : ℝ => cos s * sin (5 * s) * cos s) _ lat := ((hasDerivAt_cos lat).mul h5).mul (hasDerivAt_cos lat)
  have hy := h3.const_mul (-rho0_12 * (a * 0.15 * π) / (5 * ztop) * cos (π * z / ztop) * cos (π * t / 86400))
  rw [← hv] at hy
  have hw : (fun s => rhoOf (isoPressure s) 300 * w12 ztop t lat s)
      = fun s => (rho0_12 * (0.15 / 5) * (-2 * sin (5 * lat) * sin lat + 5 * cos lat * cos (5 * lat)) * cos (π * t / 86400)) * sin (π * s / ztop) := by
    funext s
    have := iso_pos s
    unfold rhoOf w12 rhoOf
    field_simp
  have hs : HasDerivAt (fun s : ℝ => sin (π * s / ztop)) (cos (π * z / ztop) * (π / ztop)) z := by
    have h : HasDerivAt (fun s : ℝ => sin (π * s / ztop)) _ z := (((hasDerivAt_id' z).const_mul π).div_const ztop).sin
    exact h.congr_deriv (by ring)
  have hz := hs.const_mul (rho0_12 * (0.15 / 5) * (-2 * sin (5 * lat) * sin lat + 5 * cos lat * cos (5 * lat)) * cos (π * t / 86400))
  rw [← hw] at hz
  refine ⟨_, _, _, hx, hy, hz, ?_⟩
  simp only [Pi.mul_apply]
  field_simp
  ring

/-- No wind through the floor and the lid: case 11 for the lid at 12 km, case 12 for any lid. -/
theorem C74_no_wind_through_lid (t lon lat : ℝ) {ztop : ℝ} (h : ztop ≠ 0) :
    w11 t lon lat 0 = 0 ∧ w11 t lon lat 12000 = 0 ∧ w12 ztop t lat 0 = 0 ∧ w12 ztop t lat ztop = 0 := by
  have hp0 : isoPressure 0 = p0 := by simp [isoPressure]
  have hpt : isoPressure 12000 = ptop := rfl
  refine ⟨?_, ?_, ?_, ?_⟩
  · unfold w11; rw [hp0]
    have : shape p0 = 0 := by unfold shape; rw [sub_self, zero_div, exp_zero]; ring
    rw [this, mul_zero]
  · unfold w11; rw [hpt]
    have : shape ptop = 0 := by unfold shape; rw [sub_self, zero_div, exp_zero]; ring
    rw [this, mul_zero]
  · unfold w12; simp
  · unfold w12; rw [mul_div_assoc, div_self h, mul_one, sin_pi]; simp

/-- Case 12 reverses after half its period of one day.  The meridional wind of case 11 reverses after six days in the frame that moves with
the solid-body part (longitude `lon + 2 π t / τ` at time `t`). -/
theorem C74_reversal (a ztop t lon lat z : ℝ) :
    v12 a ztop (86400 - t) lat z = -v12 a ztop t lat z ∧ w12 ztop (86400 - t) lat z = -w12 ztop t lat z ∧
      v11 a (tau11 - t) (lon + 2 * π * (tau11 - t) / tau11) lat = -v11 a t (lon + 2 * π * t / tau11) lat := by
  have hc : cos (π * (86400 - t) / 86400) = -cos (π * t / 86400) := by
    rw [show π * (86400 - t) / 86400 = π - π * t / 86400 by ring, cos_pi_sub]
  have ht : tau11 ≠ 0 := by unfold tau11; norm_num
  have hc' : cos (π * (tau11 - t) / tau11) = -cos (π * t / tau11) := by
    rw [show π * (tau11 - t) / tau11 = π - π * t / tau11 by field_simp, cos_pi_sub]
  refine ⟨?_, ?_, ?_⟩
  · unfold v12; rw [hc]; ring
  · unfold w12; rw [hc]; ring
  · unfold v11 lonp
    rw [hc', show lon + 2 * π * (tau11 - t) / tau11 - 2 * π * (tau11 - t) / tau11 = lon by ring,
      show lon + 2 * π * t / tau11 - 2 * π * t / tau11 = lon by ring]
    ring

/-! ## Tracers -/

lemma greatCircle_cos (lon lat lon0 : ℝ) : cos (greatCircle lon lat lon0) = cos lat * cos (lon - lon0) := by
  unfold greatCircle
  rw [sin_zero, cos_zero, mul_zero, zero_add, mul_one]
  have h := abs_cos_le_one lat
  have h' := abs_cos_le_one (lon - lon0)
  have : |cos lat * cos (lon - lon0)| ≤ 1 := by rw [abs_mul]; exact mul_le_one₀ h (abs_nonneg _) h'
  exact cos_arccos (neg_le_of_abs_le this) (le_of_abs_le this)

lemma greatCircle_near {lon lat lon0 : ℝ} (h : greatCircle lon lat lon0 < 1 / 2) (hlat : 0 ≤ cos lat) : cos (1 / 2) < cos (lon - lon0) := by
  have h0 : 0 ≤ greatCircle lon lat lon0 := arccos_nonneg _
  have hlt := cos_lt_cos_of_nonneg_of_le_pi h0 (by linarith [pi_gt_three]) h
  rw [greatCircle_cos] at hlt
  have hhalf : 0 < cos (1 / 2) := cos_pos_of_mem_Ioo ⟨by linarith [pi_gt_three], by linarith [pi_gt_three]⟩
  have hc1 := cos_le_one lat
  have hpos : 0 < cos (lon - lon0) := by
    by_contra hn
    push Not at hn
    nlinarith
  nlinarith

/-- the two bells do not overlap -/
lemma bells_disjoint {lon lat z : ℝ} (hlat : 0 ≤ cos lat) :
    bellDistance lon lat z (5 * π / 6) = 1 ∨ bellDistance lon lat z (7 * π / 6) = 1 := by
  by_contra hne
  push Not at hne
  have key : ∀ lon0, bellDistance lon lat z lon0 ≠ 1 → cos (1 / 2) < cos (lon - lon0) := by
    intro lon0 h
    apply greatCircle_near _ hlat
    have h0 : 0 ≤ greatCircle lon lat lon0 := arccos_nonneg _
    by_contra hge
    push Not at hge
    apply h
    unfold bellDistance
    apply min_eq_left
    have : 1 ≤ (greatCircle lon lat lon0 / (1 / 2)) ^ 2 := by
      have : 1 ≤ greatCircle lon lat lon0 / (1 / 2) := by rw [le_div_iff₀ (by norm_num)]; linarith
      nlinarith
    nlinarith [sq_nonneg ((z - 5000) / 1000)]
  have hA := key _ hne.1
  have hB := key _ hne.2
  have hd : cos ((lon - 5 * π / 6) - (lon - 7 * π / 6)) = 1 / 2 := by
    rw [show (lon - 5 * π / 6) - (lon - 7 * π / 6) = π / 3 by ring, cos_pi_div_three]
  rw [cos_sub] at hd
  have hhalf : 0 < cos (1 / 2) := cos_pos_of_mem_Ioo ⟨by linarith [pi_gt_three], by linarith [pi_gt_three]⟩
  have hcos1 : (1 : ℝ) / 2 < cos 1 := by
    rw [← cos_pi_div_three]
    exact cos_lt_cos_of_nonneg_of_le_pi (by norm_num) (by linarith [pi_pos]) (by linarith [pi_gt_three])
  have hdouble : cos 1 = 2 * cos (1 / 2) ^ 2 - 1 := by rw [← cos_two_mul]; norm_num
  set A := lon - 5 * π / 6
  set B := lon - 7 * π / 6
  have sA := sin_sq_add_cos_sq A
  have sB := sin_sq_add_cos_sq B
  have hsA : sin A ^ 2 < 1 - cos (1 / 2) ^ 2 := by nlinarith
  have hsB : sin B ^ 2 < 1 - cos (1 / 2) ^ 2 := by nlinarith
  have hs : -(1 - cos (1 / 2) ^ 2) ≤ sin A * sin B := by nlinarith [sq_nonneg (sin A + sin B)]
  have hc : cos (1 / 2) ^ 2 < cos A * cos B := by nlinarith
  nlinarith

lemma bell_range {d : ℝ} : 0 ≤ 0.5 * (1 + cos (π * d)) ∧ 0.5 * (1 + cos (π * d)) ≤ 1 := by
  have h1 := neg_one_le_cos (π * d); have h2 := cos_le_one (π * d)
  constructor <;> norm_num <;> linarith

/-- Case 11: every tracer is a mixing ratio between 0 and 1 at every latitude, the second lies in [0.1, 0.9], the slotted ellipse takes
the values 0.1 and 1 only, and three tenths of the first three plus the fourth is one everywhere. -/
theorem C74_tracers {lat : ℝ} (lon z : ℝ) (hlat : 0 ≤ cos lat) :
    (0 ≤ q1_11 lon lat z ∧ q1_11 lon lat z ≤ 1) ∧ (0.1 ≤ q2_11 lon lat z ∧ q2_11 lon lat z ≤ 0.9) ∧
    (q3_11 lon lat z = 0.1 ∨ q3_11 lon lat z = 1) ∧ (0 ≤ q4_11 lon lat z ∧ q4_11 lon lat z ≤ 1) ∧
    0.3 * (q1_11 lon lat z + q2_11 lon lat z + q3_11 lon lat z) + q4_11 lon lat z = 1 := by
  have hq1 : 0 ≤ q1_11 lon lat z ∧ q1_11 lon lat z ≤ 1 := by
    unfold q1_11
    have e1 : (0.5 : ℝ) * (1 + cos (π * 1)) = 0 := by rw [mul_one, cos_pi]; norm_num
    rcases bells_disjoint (lon := lon) (z := z) hlat with h | h
    · rw [h, e1, zero_add]; exact bell_range
    · rw [h, e1, add_zero]; exact bell_range
  have hq2 : 0.1 ≤ q2_11 lon lat z ∧ q2_11 lon lat z ≤ 0.9 := by
    unfold q2_11
    constructor <;> norm_num <;> nlinarith [hq1.1, hq1.2]
  have hq3 : q3_11 lon lat z = 0.1 ∨ q3_11 lon lat z = 1 := by
    unfold q3_11; split_ifs <;> simp
  have hr3 : 0 ≤ q3_11 lon lat z ∧ q3_11 lon lat z ≤ 1 := by rcases hq3 with h | h <;> rw [h] <;> norm_num
  refine ⟨hq1, hq2, hq3, ?_, by unfold q4_11; ring⟩
  unfold q4_11
  norm_num at *
  constructor <;> nlinarith [hq1.1, hq1.2, hq2.1, hq2.2, hr3.1, hr3.2]

/-- Case 11, the shapes: the second tracer is `0.9 - 0.8 q²` of the first; the third is 1 exactly within the two ellipsoids around the points
on the equator at 150° and 210° E and 5 km high (half axes `√2/4` radians and `√2/2` km) outside a slot, which is cut out of their upper
halves within 1/8 radian of the equator. The distance `d` is the angle between the places. -/
theorem C74_tracer_shapes (lon lat z : ℝ) :
    q2_11 lon lat z + 0.8 * (q1_11 lon lat z * q1_11 lon lat z) = 0.9 ∧
    (q3_11 lon lat z = 1 ↔ ¬(5000 < z ∧ -0.125 < lat ∧ lat < 0.125) ∧
      ∃ d lon0 : ℝ, (lon0 = 5 * π / 6 ∨ lon0 = 7 * π / 6) ∧ 0 ≤ d ∧ d ≤ π ∧ cos d = cos lat * cos (lon - lon0) ∧
        (2 * d) ^ 2 + ((z - 5000) / 1000) ^ 2 ≤ 1 / 2) := by
  have bound : ∀ x y : ℝ, -1 ≤ cos x * cos y ∧ cos x * cos y ≤ 1 := by
    intro x y
    have := abs_le.1 (show |cos x * cos y| ≤ 1 by
      rw [abs_mul]; exact mul_le_one₀ (abs_cos_le_one x) (abs_nonneg _) (abs_cos_le_one y))
    exact this
  have bell : ∀ lon0, bellDistance lon lat z lon0 ≤ 1 / 2 ↔
      ∃ d : ℝ, 0 ≤ d ∧ d ≤ π ∧ cos d = cos lat * cos (lon - lon0) ∧ (2 * d) ^ 2 + ((z - 5000) / 1000) ^ 2 ≤ 1 / 2 := by
    intro lon0
    have e : bellDistance lon lat z lon0 ≤ 1 / 2 ↔ (2 * arccos (cos lat * cos (lon - lon0))) ^ 2 + ((z - 5000) / 1000) ^ 2 ≤ 1 / 2 := by
      unfold bellDistance greatCircle
      rw [sin_zero, cos_zero, mul_zero, mul_one, zero_add, min_le_iff, show ∀ x : ℝ, x / (1 / 2) = 2 * x by intro x; ring]
      norm_num
    rw [e]
    constructor
    · intro h
      exact ⟨_, arccos_nonneg _, arccos_le_pi _, cos_arccos (bound _ _).1 (bound _ _).2, h⟩
    · rintro ⟨d, h0, h1, h2, h3⟩
      rwa [← h2, arccos_cos h0 h1]
  refine ⟨by unfold q2_11; ring, ?_⟩
  unfold q3_11
  split_ifs with h1 h2 h3
  · rw [abs_lt] at h1
    refine ⟨fun h => absurd h (by norm_num), fun h => absurd h1 h.1⟩
  · rw [abs_lt] at h1
    obtain ⟨d, h⟩ := (bell _).1 h2
    exact ⟨fun _ => ⟨h1, d, _, Or.inl rfl, h⟩, fun _ => rfl⟩
  · rw [abs_lt] at h1
    obtain ⟨d, h⟩ := (bell _).1 h3
    exact ⟨fun _ => ⟨h1, d, _, Or.inr rfl, h⟩, fun _ => rfl⟩
  · refine ⟨fun h => absurd h (by norm_num), ?_⟩
    rintro ⟨-, d, lon0, rfl | rfl, h⟩
    · exact absurd ((bell _).2 ⟨d, h⟩) h2
    · exact absurd ((bell _).2 ⟨d, h⟩) h3

/-- Case 12 at the start: the zonal wind is a solid-body rotation with 40 m/s at the equator; at the floor the meridional wind is that of the cells, without a factor of density, and towards the other hemisphere's
cells with the sign of `- sin 5 φ`; at height `z` it is larger by the ratio of the pressures. -/
theorem C74_hadley_start (a ztop lat z : ℝ) (h : ztop ≠ 0) :
    (u12 lat = u12 0 * cos lat ∧ u12 0 = 40) ∧
    v12 a ztop 0 lat 0 = -(a * 0.15 * π / (5 * ztop)) * cos lat * sin (5 * lat) ∧
    v12 a ztop 0 lat z = v12 a ztop 0 lat 0 * cos (π * z / ztop) * (isoPressure 0 / isoPressure z) ∧
    w12 ztop 0 lat (ztop / 2) = 0.03 * (-2 * sin (5 * lat) * sin lat + 5 * cos lat * cos (5 * lat)) * (isoPressure 0 / isoPressure (ztop / 2)) := by
  have hp0 : isoPressure 0 = p0 := by simp [isoPressure]
  have hr : ∀ z, rho0_12 / rhoOf (isoPressure z) 300 = isoPressure 0 / isoPressure z := by
    intro z
    unfold rho0_12 rhoOf
    rw [hp0]
    have : (0 : ℝ) < Rd := by norm_num [Rd]
    field_simp
  have h00 : isoPressure 0 / isoPressure 0 = 1 := by
    rw [hp0]; exact div_self (by norm_num [p0])
  unfold v12 w12
  rw [hr, hr, hr, h00]
  simp only [mul_zero, zero_div, cos_zero, mul_one]
  refine ⟨by simp [u12], by ring, by ring, ?_⟩
  rw [show π * (ztop / 2) / ztop = π / 2 by field_simp, sin_pi_div_two]
  ring

/-- the bells are there: at the centre of the first one the tracer is 1 -/
example : q1_11 (5 * π / 6) 0 5000 = 1 := by
  have h1 : bellDistance (5 * π / 6) 0 5000 (5 * π / 6) = 0 := by
    unfold bellDistance greatCircle; simp
  have h2 : bellDistance (5 * π / 6) 0 5000 (7 * π / 6) = 1 := by
    rcases bells_disjoint (lon := 5 * π / 6) (lat := 0) (z := 5000) (by simp) with h | h
    · rw [h1] at h; norm_num at h
    · exact h
  unfold q1_11
  rw [h1, h2, mul_zero, mul_one, cos_zero, cos_pi]; norm_num

/-- Case 12: the tracer layer is between 0 and 1, is zero outside 2–5 km, and goes to zero continuously at both bounds. -/
theorem C74_layer (z : ℝ) : (0 ≤ q1_12 z ∧ q1_12 z ≤ 1) ∧ ((z ≤ 2000 ∨ 5000 ≤ z) → q1_12 z = 0) ∧ q1_12 3500 = 1 ∧ Continuous q1_12 := by
  refine ⟨?_, ?_, ?_, ?_⟩
  · unfold q1_12
    split_ifs
    · have h1 := neg_one_le_cos (2 * π * (z - 0.5 * (2000 + 5000)) / (5000 - 2000))
      have h2 := cos_le_one (2 * π * (z - 0.5 * (2000 + 5000)) / (5000 - 2000))
      generalize cos (2 * π * (z - 0.5 * (2000 + 5000)) / (5000 - 2000)) = c at *
      norm_num
      constructor <;> linarith
    · norm_num
  · intro h
    unfold q1_12
    rw [if_neg]
    rintro ⟨h1, h2⟩
    rcases h with h | h <;> linarith
  · unfold q1_12
    norm_num
  · have hform : q1_12 = fun z => 0.5 * (1 + cos (2 * π * (min 5000 (max 2000 z) - 0.5 * (2000 + 5000)) / (5000 - 2000))) := by
      funext z
      unfold q1_12
      split_ifs with h
      · rw [max_eq_right h.2.le, min_eq_right h.1.le]
      · by_cases hz : z ≤ 2000
        · rw [max_eq_left hz, min_eq_right (by norm_num), show 2 * π * (2000 - 0.5 * (2000 + 5000)) / (5000 - 2000) = -π by norm_num; ring,
            cos_neg, cos_pi]; norm_num
        · have hz5 : 5000 ≤ z := by
            by_contra h5
            exact h ⟨not_le.mp h5, not_le.mp hz⟩
          rw [max_eq_right (by linarith), min_eq_left hz5, show 2 * π * (5000 - 0.5 * (2000 + 5000)) / (5000 - 2000) = π by norm_num; ring,
            cos_pi]; norm_num
    rw [hform]
    fun_prop

/-! ## Mountains and damping -/

/-- The mountains of cases 20, 21 and 22 are nowhere below the ground nor above their nominal peak, which they reach at the centre. -/
theorem C74_mountains (r : ℝ) : (0 ≤ mountain20 r ∧ mountain20 r ≤ 2000) ∧ (0 ≤ mountain21 r ∧ mountain21 r ≤ 250) ∧
    mountain20 0 = 2000 ∧ mountain21 0 = 250 := by
  have hsq : ∀ x : ℝ, 0 ≤ cos x ^ 2 ∧ cos x ^ 2 ≤ 1 := fun x => ⟨sq_nonneg _, cos_sq_le_one x⟩
  refine ⟨?_, ?_, ?_, ?_⟩
  · unfold mountain20
    split_ifs
    · have h1 := neg_one_le_cos (π * r / (3 * π / 4)); have h2 := cos_le_one (π * r / (3 * π / 4))
      obtain ⟨h3, h4⟩ := hsq (π * r / (π / 16))
      generalize cos (π * r / (π / 16)) ^ 2 = c at *
      generalize cos (π * r / (3 * π / 4)) = d at *
      constructor <;> nlinarith
    · norm_num
  · unfold mountain21
    obtain ⟨h3, h4⟩ := hsq (π * r / 4000)
    have h5 : exp (-(r ^ 2) / 5000 ^ 2) ≤ 1 := by
      rw [exp_le_one_iff, neg_div]; have : 0 ≤ r ^ 2 / 5000 ^ 2 := by positivity
      linarith
    have h6 := exp_pos (-(r ^ 2) / 5000 ^ 2)
    generalize cos (π * r / 4000) ^ 2 = c at *
    generalize exp (-(r ^ 2) / 5000 ^ 2) = e at *
    have : e * c ≤ 1 := mul_le_one₀ h5 h3 h4
    have h0 : 0 ≤ e * c := by positivity
    constructor <;> nlinarith
  · unfold mountain20; rw [if_pos (by have := pi_pos; positivity)]; norm_num
  · unfold mountain21; norm_num

/-- The Rayleigh damping of cases 21 and 22 acts above 20 km only, rises to 1/25 s⁻¹ at the lid, never amplifies the departure of a wind
component from the reference wind, and leaves the initial wind alone. -/
theorem C74_damping (ztop z ρ u uref : ℝ) (hρ : 0 ≤ ρ) :
    (z ≤ 20000 → dampingTendency ztop z ρ u uref = 0) ∧ (20000 < ztop → dampingRate ztop ztop = 1 / 25) ∧
    (0 ≤ dampingRate ztop z ∧ dampingRate ztop z ≤ 1 / 25) ∧ (u - uref) * dampingTendency ztop z ρ u uref ≤ 0 ∧
    ∀ b lat, dampingTendency ztop z ρ (u21 b lat z) (uref21 b lat z) = 0 := by
  have hrate : 0 ≤ dampingRate ztop z ∧ dampingRate ztop z ≤ 1 / 25 := by
    unfold dampingRate
    split_ifs
    · norm_num
    · have := sin_sq_le_one (π / 2 * (z - 20000) / (ztop - 20000))
      constructor
      · positivity
      · linarith
  refine ⟨?_, ?_, hrate, ?_, ?_⟩
  · intro h; unfold dampingTendency dampingRate; rw [if_pos h]; simp
  · intro h; unfold dampingRate; rw [if_neg (by linarith), mul_div_assoc, div_self (by linarith), mul_one, sin_pi_div_two]; norm_num
  · unfold dampingTendency
    have : 0 ≤ ρ * dampingRate ztop z * (u - uref) ^ 2 := mul_nonneg (mul_nonneg hρ hrate.1) (sq_nonneg _)
    nlinarith
  · intro b lat; unfold dampingTendency uref21 u21; simp

/-! ## Acoustic wave -/

/-- Case 77: outside the disturbed disk the state is the isothermal hydrostatic atmosphere; inside, the pressure perturbation does not
depend on height, so that it does not vanish at the floor or at the lid of the layer. -/
theorem C74_acoustic (lon lat : ℝ) : (r77 lon lat > 6371000 / 3 → ∀ z, Hydrostatic gravity (p77 lon lat) (fun z => rhoOf (p77 lon lat z) 300) z) ∧
    ∀ z z', p77 lon lat z - isoPressure z = p77 lon lat z' - isoPressure z' := by
  constructor
  · intro h z
    have : p77 lon lat = isoPressure := by funext z; unfold p77; rw [if_pos h]; simp
    rw [this]; exact iso_hasDeriv z
  · intro z z'; unfold p77; ring

/-! ## Vertical plane -/

/-- The pressure of the plane model recomputed from its state. -/
lemma planePressure {θ ex : ℝ} (hθ : 0 < θ) (hex : 0 < ex) : pressure2 (rhoPlane θ ex * θ) = p0 * ex ^ (cpd / Rd) := by
  have hR := Rd_pos; have hv := cvd_pos; have h0 := p0_pos
  unfold pressure2 rhoPlane heatCapacityRatio
  have : p0 / (Rd * θ) * ex ^ (cvd / Rd) * θ * Rd * (1 / p0) = ex ^ (cvd / Rd) := by field_simp
  rw [this, ← rpow_mul hex.le]
  congr 2; field_simp

lemma plane_balance {θ : ℝ → ℝ} {ex : ℝ → ℝ} {ex' z : ℝ} (hθ : ∀ z, 0 < θ z) (hex : ∀ᶠ s in nhds z, 0 < ex s) (h : HasDerivAt ex ex' z) :
    HasDerivAt (fun s => pressure2 (rhoPlane (θ s) (ex s) * θ s)) (rhoPlane (θ z) (ex z) * (cpd * θ z * ex')) z := by
  have hR := Rd_pos; have hv := cvd_pos; have h0 := p0_pos; have hz := hex.self_of_nhds; have hc := cpd_pos; have hθz := hθ z
  have hd : HasDerivAt (fun s => p0 * ex s ^ (cpd / Rd)) _ z := (h.rpow_const (p := cpd / Rd) (Or.inl hz.ne')).const_mul p0
  have he : (fun s => pressure2 (rhoPlane (θ s) (ex s) * θ s)) =ᶠ[nhds z] fun s => p0 * ex s ^ (cpd / Rd) := by
    filter_upwards [hex] with s hs
    exact planePressure (hθ s) hs
  refine (HasDerivAt.congr_of_eventuallyEq hd he).congr_deriv ?_
  have hx : cpd / Rd - 1 = cvd / Rd := by
    have : cvd = cpd - Rd := rfl
    rw [this]; field_simp
  unfold rhoPlane
  rw [hx]; field_simp

/-- In the vertical plane (every case but 0), the vertical pressure gradient recomputed by the model from the initial state is
`-ρ g (1 - z θ_z / θ)` for any differentiable positive profile of potential temperature: hydrostatic where `θ` does not depend on
height, and not elsewhere. -/
theorem C74_plane_gradient {θ : ℝ → ℝ} {θ' z : ℝ} (hpos : ∀ z, 0 < θ z) (hθ : HasDerivAt θ θ' z) (hex : 0 < exner (θ z) z) :
    HasDerivAt (fun s => pressure2 (rhoPlane (θ s) (exner (θ s) s) * θ s))
      (-(rhoPlane (θ z) (exner (θ z) z) * gravity * (1 - z * θ' / θ z))) z := by
  have hc := cpd_pos; have hθz := hpos z
  have hd : HasDerivAt (fun s => 1 - gravity / (cpd * θ s) * s) _ z :=
    ((((hasDerivAt_const z gravity).div (hθ.const_mul cpd) (by positivity)).mul (hasDerivAt_id' z))).const_sub 1
  have hev : ∀ᶠ s in nhds z, 0 < exner (θ s) s := hd.continuousAt.eventually (lt_mem_nhds hex)
  refine HasDerivAt.congr_deriv (plane_balance (ex := fun s => exner (θ s) s) hpos hev hd) ?_
  simp only [Pi.div_apply]
  field_simp
  ring

/-- The isentropic atmosphere of the vertical plane is hydrostatic up to the height where its Exner pressure vanishes. -/
theorem C74_plane_isentropic {θ z : ℝ} (hθ : 0 < θ) (hex : 0 < exner θ z) :
    Hydrostatic gravity (fun z => pressure2 (rhoPlane θ (exner θ z) * θ)) (fun z => rhoPlane θ (exner θ z)) z := by
  have h := C74_plane_gradient (θ := fun _ => θ) (fun _ => hθ) (hasDerivAt_const z θ) hex
  exact h.congr_deriv (by simp)

/-- The stratified atmosphere of the mountain wave (case 0) is hydrostatic wherever its Exner pressure is positive. -/
theorem C74_plane_stratified {z : ℝ} (hex : 0 < exner0 z) :
    Hydrostatic gravity (fun z => pressure2 (rhoPlane (theta0 z) (exner0 z) * theta0 z)) (fun z => rhoPlane (theta0 z) (exner0 z)) z := by
  have hc := cpd_pos; have hg := g_pos
  have hd : HasDerivAt (fun s : ℝ => 1 - gravity ^ 2 / (0.01 ^ 2 * cpd * 288) * (1 - exp (-(0.01 ^ 2 / gravity) * s))) _ z :=
    (((((hasDerivAt_id' z).const_mul (-(0.01 ^ 2 / gravity))).exp).const_sub 1).const_mul (gravity ^ 2 / (0.01 ^ 2 * cpd * 288))).const_sub 1
  have hev : ∀ᶠ s in nhds z, 0 < exner0 s := hd.continuousAt.eventually (lt_mem_nhds hex)
  refine HasDerivAt.congr_deriv (plane_balance (θ := theta0) (ex := exner0) (fun s => by unfold theta0; positivity) hev hd) ?_
  have he : exp (-(0.01 ^ 2 / gravity) * z) * exp (0.01 ^ 2 / gravity * z) = 1 := by rw [← exp_add]; ring_nf; simp
  simp only [theta0]
  generalize rhoPlane _ _ = ρ
  generalize exp (-(0.01 ^ 2 / gravity) * z) = e1 at *
  generalize exp (0.01 ^ 2 / gravity * z) = e2 at *
  have hgoal : cpd * (288 * e2) * -(gravity ^ 2 / (0.01 ^ 2 * cpd * 288) * -(e1 * (-(0.01 ^ 2 / gravity) * 1))) = -gravity * (e1 * e2) := by
    field_simp
  rw [hgoal, he]; ring

lemma bubble_core {T x z : ℝ} (hr : sqrt ((x - 500) ^ 2 + (z - 260) ^ 2) < 50) : HasDerivAt (thetaBubble T x) 0 z := by
  have hc : Continuous fun s : ℝ => sqrt ((x - 500) ^ 2 + (s - 260) ^ 2) := by fun_prop
  have hev : ∀ᶠ s in nhds z, sqrt ((x - 500) ^ 2 + (s - 260) ^ 2) < 50 := hc.continuousAt.eventually (gt_mem_nhds hr)
  refine (hasDerivAt_const z (T + 0.5)).congr_of_eventuallyEq ?_
  filter_upwards [hev] with s hs
  unfold thetaBubble
  exact if_pos hs.le

lemma bubble_halo {T x z : ℝ} (hr : 50 < sqrt ((x - 500) ^ 2 + (z - 260) ^ 2)) :
    HasDerivAt (thetaBubble T x) (0.5 * (exp (-((sqrt ((x - 500) ^ 2 + (z - 260) ^ 2) - 50) / 100) ^ 2)
      * -(2 * ((sqrt ((x - 500) ^ 2 + (z - 260) ^ 2) - 50) / 100) * ((z - 260) / sqrt ((x - 500) ^ 2 + (z - 260) ^ 2) / 100)))) z := by
  have hc : Continuous fun s : ℝ => sqrt ((x - 500) ^ 2 + (s - 260) ^ 2) := by fun_prop
  have hev : ∀ᶠ s in nhds z, 50 < sqrt ((x - 500) ^ 2 + (s - 260) ^ 2) := hc.continuousAt.eventually (lt_mem_nhds hr)
  have hne : (x - 500) ^ 2 + (z - 260) ^ 2 ≠ 0 := by
    intro h; rw [h, sqrt_zero] at hr; norm_num at hr
  have h1 : HasDerivAt (fun s : ℝ => (x - 500) ^ 2 + (s - 260) ^ 2) (2 * (z - 260)) z := by
    have h : HasDerivAt (fun s : ℝ => (x - 500) ^ 2 + (s - 260) ^ 2) _ z := (((hasDerivAt_id' z).sub_const 260).pow 2).const_add ((x - 500) ^ 2)
    exact h.congr_deriv (by simp)
  have h2 : HasDerivAt (fun s : ℝ => sqrt ((x - 500) ^ 2 + (s - 260) ^ 2)) ((z - 260) / sqrt ((x - 500) ^ 2 + (z - 260) ^ 2)) z :=
    (h1.sqrt hne).congr_deriv (by field_simp)
  have h3 : HasDerivAt (fun s : ℝ => T + 0.5 * exp (-((sqrt ((x - 500) ^ 2 + (s - 260) ^ 2) - 50) / 100) ^ 2)) _ z :=
    ((((((h2.sub_const 50).div_const 100).pow 2).neg).exp).const_mul 0.5).const_add T
  refine HasDerivAt.congr_of_eventuallyEq (h3.congr_deriv ?_) ?_
  · simp
  · filter_upwards [hev] with s hs
    unfold thetaBubble
    exact if_neg (not_le.mpr hs)

lemma bubble_pos {T : ℝ} (hT : 0 < T) (x z : ℝ) : 0 < thetaBubble T x z := by
  unfold thetaBubble; simp only; split_ifs <;> positivity

/-- The warm bubble (case 2) is hydrostatic in its core. -/
theorem C74_bubble_partial {T x z : ℝ} (hT : 0 < T) (hr : sqrt ((x - 500) ^ 2 + (z - 260) ^ 2) < 50) (hex : 0 < exner (thetaBubble T x z) z) :
    Hydrostatic gravity (fun z => pressure2 (rhoPlane (thetaBubble T x z) (exner (thetaBubble T x z) z) * thetaBubble T x z))
      (fun z => rhoPlane (thetaBubble T x z) (exner (thetaBubble T x z) z)) z := by
  have h := C74_plane_gradient (fun z => bubble_pos hT x z) (bubble_core (T := T) hr) hex
  exact h.congr_deriv (by simp)

/-- Around the core it is nowhere hydrostatic, except at the height of its centre and at the ground, although the comment in the code
announces a hydrostatic state: the Exner pressure is computed from the perturbed temperature as if it were that of the whole column. -/
theorem C74_bubble_fails {T x z : ℝ} (hT : 0 < T) (hr : 50 < sqrt ((x - 500) ^ 2 + (z - 260) ^ 2)) (hz : z ≠ 260) (hz0 : z ≠ 0)
    (hex : 0 < exner (thetaBubble T x z) z) :
    ¬ Hydrostatic gravity (fun z => pressure2 (rhoPlane (thetaBubble T x z) (exner (thetaBubble T x z) z) * thetaBubble T x z))
      (fun z => rhoPlane (thetaBubble T x z) (exner (thetaBubble T x z) z)) z := by
  intro hH
  have h := C74_plane_gradient (fun z => bubble_pos hT x z) (bubble_halo (T := T) hr) hex
  have he := hH.unique h
  have hθ := bubble_pos hT x z
  have hg := g_pos
  have hρ : 0 < rhoPlane (thetaBubble T x z) (exner (thetaBubble T x z) z) := by
    unfold rhoPlane; have := p0_pos; have := Rd_pos; positivity
  set ρ := rhoPlane (thetaBubble T x z) (exner (thetaBubble T x z) z)
  set r := sqrt ((x - 500) ^ 2 + (z - 260) ^ 2)
  have hfac : z * (0.5 * (exp (-((r - 50) / 100) ^ 2) * -(2 * ((r - 50) / 100) * ((z - 260) / r / 100)))) / thetaBubble T x z ≠ 0 := by
    have h1 : r - 50 ≠ 0 := by linarith
    have h2 : z - 260 ≠ 0 := sub_ne_zero.mpr hz
    have h3 : r ≠ 0 := by linarith
    have h4 := exp_pos (-((r - 50) / 100) ^ 2)
    apply div_ne_zero _ hθ.ne'
    apply mul_ne_zero hz0
    apply mul_ne_zero (by norm_num)
    apply mul_ne_zero h4.ne'
    apply neg_ne_zero.mpr
    positivity
  apply hfac
  have : ρ * gravity * (z * (0.5 * (exp (-((r - 50) / 100) ^ 2) * -(2 * ((r - 50) / 100) * ((z - 260) / r / 100)))) / thetaBubble T x z) = 0 := by
    linarith
  rcases mul_eq_zero.mp this with h | h
  · exact absurd h (by positivity)
  · exact h

/-- the hypotheses hold, for instance, 140 m above the centre of the bubble in an atmosphere at 303.15 K -/
example : (50 : ℝ) < sqrt ((500 - 500) ^ 2 + (400 - 260) ^ 2) ∧ 0 < exner (thetaBubble 303.15 500 400) 400 := by
  constructor
  · rw [show ((500 : ℝ) - 500) ^ 2 + (400 - 260) ^ 2 = 140 ^ 2 by norm_num, sqrt_sq (by norm_num)]; norm_num
  · have h : (303.15 : ℝ) ≤ thetaBubble 303.15 500 400 := by
      unfold thetaBubble; simp only; split_ifs
      · norm_num
      · have := exp_pos (-((sqrt ((500 - 500) ^ 2 + (400 - 260) ^ 2) - 50) / 100) ^ 2)
        linarith
    unfold exner
    have hc := cpd_pos
    have : gravity / (cpd * thetaBubble 303.15 500 400) ≤ 0.0001 := by
      rw [div_le_iff₀ (by positivity)]; unfold gravity cpd; norm_num at *; linarith
    linarith

end WxVerif.Props.InitAtmosphere
