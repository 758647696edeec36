import Verif.Props.InitAtmosphere

/-!
# Property C74: the strength of the deformational flow
-/

namespace WxVerif.Props.DeformationStrength

open WxVerif.Flux WxVerif.InitAtm WxVerif.Props.InitAtmosphere Real

theorem scale_pos : 0 < scaleHeight := by
  unfold scaleHeight; exact div_pos (mul_pos Rd_pos (by norm_num)) g_pos

theorem iso_le {y z : ℝ} (h : y ≤ z) : isoPressure z ≤ isoPressure y := by
  unfold isoPressure
  refine mul_le_mul_of_nonneg_left (exp_le_exp.2 ?_) p0_pos.le
  exact div_le_div_of_nonneg_right (by linarith) scale_pos.le

/-- between the ground and the lid the shape function lies between zero and one -/
theorem shape_bounds {z : ℝ} (h0 : 0 ≤ z) (h1 : z ≤ 12000) : 0 ≤ shape (isoPressure z) ∧ shape (isoPressure z) ≤ 1 := by
  have hp0 : isoPressure 0 = p0 := by simp [isoPressure]
  have hpt : isoPressure 12000 = ptop := rfl
  have a1 : isoPressure z ≤ p0 := hp0 ▸ iso_le h0
  have a2 : ptop ≤ isoPressure z := hpt ▸ iso_le h1
  have hb : 0 < bs * ptop := mul_pos (by norm_num [bs]) (hpt ▸ iso_pos _)
  have hx : exp ((isoPressure z - p0) / (bs * ptop)) ≤ 1 := exp_le_one_iff.2 (div_nonpos_of_nonpos_of_nonneg (by linarith) hb.le)
  have hy : exp ((ptop - isoPressure z) / (bs * ptop)) ≤ 1 := exp_le_one_iff.2 (div_nonpos_of_nonpos_of_nonneg (by linarith) hb.le)
  have hxy : exp ((ptop - p0) / (bs * ptop)) = exp ((isoPressure z - p0) / (bs * ptop)) * exp ((ptop - isoPressure z) / (bs * ptop)) := by
    rw [← exp_add]; congr 1; ring
  have e : shape (isoPressure z) = (1 - exp ((isoPressure z - p0) / (bs * ptop))) * (1 - exp ((ptop - isoPressure z) / (bs * ptop))) := by
    unfold shape; rw [hxy]; ring
  have px := exp_pos ((isoPressure z - p0) / (bs * ptop))
  have py := exp_pos ((ptop - isoPressure z) / (bs * ptop))
  rw [e]
  exact ⟨mul_nonneg (by linarith) (by linarith), mul_le_one₀ (by linarith) (by linarith) (by linarith)⟩

/-- **C74** (case 11) How strong the deformational flow is: the wind along the meridians never exceeds ten radii in twelve days and is as strong as that
at the beginning, on the equator at longitude 45°; at the equator, in the average of opposite longitudes, the air is carried eastward once around in
twelve days; and between the ground and the lid the vertical wind changes the pressure of the air by no more than `23000 π` Pa in twelve days. -/
theorem C74_deformation_strength {a : ℝ} (ha : 0 ≤ a) (t lon lat z : ℝ) :
    |v11 a t lon lat| ≤ 10 * a / (12 * 86400) ∧ v11 a 0 (π / 4) 0 = 10 * a / (12 * 86400) ∧
    (u11 a t lon 0 z + u11 a t (lon + π) 0 z) / 2 = 2 * π * a / (12 * 86400) ∧
    (0 ≤ z → z ≤ 12000 → |gravity * rhoOf (isoPressure z) 300 * w11 t lon lat z| ≤ 23000 * π / (12 * 86400)) := by
  have prod1 : ∀ {x y : ℝ}, |x| ≤ 1 → |y| ≤ 1 → |x * y| ≤ 1 := fun hx hy => by
    rw [abs_mul]; exact mul_le_one₀ hx (abs_nonneg _) hy
  refine ⟨?_, ?_, ?_, fun h0 h1 => ?_⟩
  · have hk : 0 ≤ k0_11 a := by unfold k0_11 tau11; positivity
    have e : v11 a t lon lat = k0_11 a * (sin (2 * lonp lon t) * cos lat * cos (π * t / tau11)) := by unfold v11; ring
    rw [e, abs_mul, abs_of_nonneg hk]
    exact mul_le_of_le_one_right hk (prod1 (prod1 (abs_sin_le_one _) (abs_cos_le_one _)) (abs_cos_le_one _))
  · unfold v11 lonp k0_11 tau11
    rw [show 2 * (π / 4 - 2 * π * 0 / (12 * 86400)) = π / 2 by ring]
    simp
  · have hl : lonp (lon + π) t = lonp lon t + π := by unfold lonp; ring
    unfold u11 ud u0_11 tau11
    rw [hl, cos_add_pi, sin_add_pi]
    simp only [mul_zero, sin_zero, cos_zero]
    ring
  · obtain ⟨s0, s1⟩ := shape_bounds h0 h1
    have hg := g_pos; have hR := Rd_pos; have hp := iso_pos z
    have e : gravity * rhoOf (isoPressure z) 300 * w11 t lon lat z =
        omega0 * -(sin (lonp lon t) * cos lat * cos (2 * π * t / tau11) * shape (isoPressure z)) := by
      unfold w11 rhoOf
      field_simp
    have ho : 0 ≤ omega0 := by unfold omega0 tau11; positivity
    rw [e, abs_mul, abs_of_nonneg ho, abs_neg]
    exact mul_le_of_le_one_right ho (prod1 (prod1 (prod1 (abs_sin_le_one _) (abs_cos_le_one _)) (abs_cos_le_one _))
      (abs_le.2 ⟨by linarith, s1⟩))

/-- in the middle of the atmosphere of a planet like the Earth -/
example : (0 : ℝ) ≤ 6371220 ∧ (0 : ℝ) ≤ 5000 ∧ (5000 : ℝ) ≤ 12000 := by norm_num

end WxVerif.Props.DeformationStrength
