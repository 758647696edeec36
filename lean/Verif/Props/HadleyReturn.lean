import Verif.Props.InitAtmosphere
import Mathlib.Analysis.ODE.ExistUnique
import Mathlib.Analysis.Calculus.ContDiff.RCLike
import Mathlib.Analysis.SpecialFunctions.ExpDeriv
import Mathlib.Analysis.SpecialFunctions.Trigonometric.Deriv
import Mathlib.Analysis.Calculus.MeanValue

/-!
# Property C74: the Hadley-like circulation brings the air back
-/

namespace WxVerif.Props.HadleyReturn

open WxVerif.Flux WxVerif.InitAtm WxVerif.Props.InitAtmosphere Real

/-- the wind of case 12 at the beginning, in the meridional plane, as a rate of change of latitude and height -/
noncomputable def start (a ztop : ℝ) (x : ℝ × ℝ) : ℝ × ℝ := (v12 a ztop 0 x.1 x.2 / a, w12 ztop 0 x.1 x.2)

theorem ratio (z : ℝ) : rho0_12 / rhoOf (isoPressure z) 300 = exp (z / scaleHeight) := by
  have hR := Rd_pos; have h0 := p0_pos
  unfold rho0_12 rhoOf isoPressure
  rw [show -z / scaleHeight = -(z / scaleHeight) by ring, exp_neg]
  have := exp_pos (z / scaleHeight)
  field_simp

theorem start_smooth (a ztop : ℝ) : ContDiff ℝ 1 (start a ztop) := by
  unfold start v12 w12
  simp only [ratio]
  simp only [div_eq_mul_inv]
  fun_prop

theorem field_eq (a ztop t lat z : ℝ) :
    (v12 a ztop t lat z / a, w12 ztop t lat z) = cos (π * t / 86400) • start a ztop (lat, z) := by
  unfold start v12 w12
  rw [mul_zero, zero_div, cos_zero]
  ext
  · simp only [Prod.smul_mk, smul_eq_mul]; ring
  · simp only [Prod.smul_mk, smul_eq_mul]; ring

/-- `(lon t, lat t, z t)`, for the 24 hours of the test, is the path of a parcel that moves with the wind of case 12 on a sphere of radius `a` and does
not meet a pole -/
def Parcel (a ztop : ℝ) (lon lat z : ℝ → ℝ) : Prop :=
  ∀ t ∈ Set.Icc (0 : ℝ) 86400, cos (lat t) ≠ 0 ∧ HasDerivAt lon (u12 (lat t) / (a * cos (lat t))) t ∧
    HasDerivAt lat (v12 a ztop t (lat t) (z t) / a) t ∧ HasDerivAt z (w12 ztop t (lat t) (z t)) t

/-- **C74** The circulation of case 12 brings the air back: whatever the path of a parcel was, after the 24 hours it is again at the latitude and height
at which it began, and all parcels have been carried around the axis by the same angle.  So the layer of tracer is again where it was.  In between, the
second half of the path is the first half backwards. -/
theorem C74_hadley_return {a ztop : ℝ} {lon lat z : ℝ → ℝ} (h : Parcel a ztop lon lat z) :
    lat 86400 = lat 0 ∧ z 86400 = z 0 ∧ lon 86400 = lon 0 + 40 / a * 86400 ∧ q1_12 (z 86400) = q1_12 (z 0) ∧
    ∀ t ∈ Set.Icc (0 : ℝ) 43200, lat (43200 + t) = lat (43200 - t) ∧ z (43200 + t) = z (43200 - t) := by
  set X : ℝ → ℝ × ℝ := fun t => (lat t, z t) with hX
  have hd : ∀ t ∈ Set.Icc (0 : ℝ) 86400, HasDerivAt X (cos (π * t / 86400) • start a ztop (X t)) t := by
    intro t ht
    obtain ⟨-, -, h1, h2⟩ := h t ht
    rw [hX]
    have := h1.prodMk h2
    rwa [field_eq] at this
  have hc : ContinuousOn X (Set.Icc 0 86400) := fun t ht => (hd t ht).continuousAt.continuousWithinAt
  obtain ⟨K, hK⟩ := LocallyLipschitzOn.exists_lipschitzOnWith_of_compact (isCompact_Icc.image_of_continuousOn hc)
    (start_smooth a ztop).locallyLipschitz.locallyLipschitzOn
  have hf : ∀ t ∈ Set.Icc (0 : ℝ) 43200, HasDerivAt (fun s => X (43200 + s)) (-sin (π * t / 86400) • start a ztop (X (43200 + t))) t := by
    intro t ht
    have h1 := (hd (43200 + t) ⟨by linarith [ht.1], by linarith [ht.2]⟩).scomp t ((hasDerivAt_id t).const_add 43200)
    refine h1.congr_deriv ?_
    rw [one_smul, show π * (43200 + t) / 86400 = π * t / 86400 + π / 2 by ring, cos_add_pi_div_two]
  have hg : ∀ t ∈ Set.Icc (0 : ℝ) 43200, HasDerivAt (fun s => X (43200 - s)) (-sin (π * t / 86400) • start a ztop (X (43200 - t))) t := by
    intro t ht
    have h1 := (hd (43200 - t) ⟨by linarith [ht.2], by linarith [ht.1]⟩).scomp t ((hasDerivAt_id t).const_sub 43200)
    refine h1.congr_deriv ?_
    rw [show π * (43200 - t) / 86400 = π / 2 - π * t / 86400 by ring, cos_pi_div_two_sub, neg_smul, neg_smul, one_smul]
  have sub : ∀ {t : ℝ}, t ∈ Set.Ico (0 : ℝ) 43200 → t ∈ Set.Icc (0 : ℝ) 43200 := fun ht => ⟨ht.1, ht.2.le⟩
  have key := ODE_solution_unique_of_mem_Icc_right (v := fun t x => -sin (π * t / 86400) • start a ztop x)
    (s := fun _ => X '' Set.Icc 0 86400) (K := K) (a := 0) (b := 43200)
    (fun t _ => by
      refine LipschitzOnWith.of_dist_le_mul fun x hx y hy => ?_
      rw [dist_smul₀]
      have h1 : ‖-sin (π * t / 86400)‖ ≤ 1 := by rw [norm_neg]; exact abs_sin_le_one _
      exact (mul_le_of_le_one_left dist_nonneg h1).trans (hK.dist_le_mul x hx y hy))
    (fun t ht => (hf t ht).continuousAt.continuousWithinAt) (fun t ht => (hf t (sub ht)).hasDerivWithinAt)
    (fun t ht => ⟨43200 + t, ⟨by linarith [ht.1], by linarith [ht.2]⟩, rfl⟩)
    (fun t ht => (hg t ht).continuousAt.continuousWithinAt) (fun t ht => (hg t (sub ht)).hasDerivWithinAt)
    (fun t ht => ⟨43200 - t, ⟨by linarith [ht.2], by linarith [ht.1]⟩, rfl⟩) (by simp)
  have all : ∀ t ∈ Set.Icc (0 : ℝ) 43200, lat (43200 + t) = lat (43200 - t) ∧ z (43200 + t) = z (43200 - t) :=
    fun t ht => Prod.mk.injEq .. ▸ key ht
  have e := all 43200 ⟨by norm_num, le_rfl⟩
  norm_num at e
  refine ⟨e.1, e.2, ?_, by rw [e.2], all⟩
  have hl : ∀ t ∈ Set.Icc (0 : ℝ) 86400, HasDerivAt (fun s => lon s - 40 / a * s) 0 t := by
    intro t ht
    obtain ⟨h0, h1, -, -⟩ := h t ht
    refine (h1.sub ((hasDerivAt_id t).const_mul (40 / a))).congr_deriv ?_
    unfold u12
    rw [mul_div_mul_right _ _ h0]
    ring
  have := constant_of_has_deriv_right_zero (f := fun s => lon s - 40 / a * s) (a := 0) (b := 86400)
    (fun t ht => (hl t ht).continuousAt.continuousWithinAt) (fun t ht => (hl t ⟨ht.1, ht.2.le⟩).hasDerivWithinAt) 86400 ⟨by norm_num, le_rfl⟩
  simp only [mul_zero, sub_zero] at this
  linarith

/-- a parcel on the ground at the equator stays there and goes around -/
example (a ztop : ℝ) : Parcel a ztop (fun t => 40 / a * t) (fun _ => 0) (fun _ => 0) := by
  intro t _
  refine ⟨by simp, ?_, ?_, ?_⟩
  · refine ((hasDerivAt_id t).const_mul (40 / a)).congr_deriv ?_
    simp [u12]
  · refine (hasDerivAt_const t (0 : ℝ)).congr_deriv ?_
    simp [v12]
  · refine (hasDerivAt_const t (0 : ℝ)).congr_deriv ?_
    simp [w12]

end WxVerif.Props.HadleyReturn
