import Verif.Props.References
import Mathlib.Analysis.SpecialFunctions.Trigonometric.Series

/-!
# Property C62: the strength of the circular vortex
-/

namespace WxVerif.Props.VortexSpeed

open WxVerif.InitShallow WxVerif.Sphere WxVerif.Spec.Trajectory WxVerif.Spec.ShallowEquations
open Real WxVerif.Props.References

/-- the profile `(1 - τ²) τ`, scaled to one, has its largest value at `τ = 1/√3` -/
theorem profile_le {τ : ℝ} (h0 : 0 ≤ τ) : 3 / 2 * √3 * ((1 - τ ^ 2) * τ) ≤ 1 := by
  have h3 : √3 ^ 2 = 3 := sq_sqrt (by norm_num)
  have hs : 0 < √3 := sqrt_pos.2 (by norm_num)
  have key : 1 - 3 / 2 * √3 * ((1 - τ ^ 2) * τ) = 1 / 2 * (√3 * τ - 1) ^ 2 * (√3 * τ + 2) := by
    linear_combination (-(1 / 2) * √3 * τ ^ 3) * h3
  have : 0 ≤ 1 / 2 * (√3 * τ - 1) ^ 2 * (√3 * τ + 2) := by positivity
  linarith

theorem sech_sq (ρ : ℝ) : (1 / cosh ρ) ^ 2 = 1 - tanh ρ ^ 2 := by
  have hc : cosh ρ ≠ 0 := (cosh_pos ρ).ne'
  rw [tanh_eq_sinh_div_cosh]
  field_simp
  linarith [cosh_sq ρ]

/-- the square of the speed, from the rate of rotation and the distance from the axis -/
theorem speed_sq (r lon lat : ℝ) : (windVortex r lon lat).1 ^ 2 + (windVortex r lon lat).2 ^ 2 =
    (r * vortexOmega r lon lat * (vortexRho lon lat / 3)) ^ 2 := by
  have hz : 0 ≤ 1 - vz lon lat ^ 2 := by nlinarith [vxyz lon lat, sq_nonneg (vx lon lat), sq_nonneg (vy lon lat)]
  rw [rho_eq, show (3 * √(1 - vz lon lat ^ 2)) / 3 = √(1 - vz lon lat ^ 2) by ring, mul_pow, sq_sqrt hz]
  unfold windVortex vz
  have h1 := sin_sq_add_cos_sq lat
  have h2 := sin_sq_add_cos_sq vortexLat
  have h3 := sin_sq_add_cos_sq (lon - vortexLon)
  generalize vortexOmega r lon lat = w
  dsimp only
  generalize sin lat = a at *; generalize cos lat = b at *; generalize sin vortexLat = c at *; generalize cos vortexLat = d at *
  generalize sin (lon - vortexLon) = e at *; generalize cos (lon - vortexLon) = f at *
  have : (c * b - d * f * a) ^ 2 + d ^ 2 * e ^ 2 = 1 - (a * c + b * d * f) ^ 2 := by
    linear_combination (c ^ 2 + d ^ 2 * f ^ 2) * h1 + h2 + d ^ 2 * h3
  linear_combination (r * w) ^ 2 * this

theorem rho_nonneg (lon lat : ℝ) : 0 ≤ vortexRho lon lat := by rw [rho_eq]; positivity

theorem turn_eq {r : ℝ} (hr : 0 < r) {lon lat : ℝ} (h : 1e-9 < vortexRho lon lat) :
    r * vortexOmega r lon lat * (vortexRho lon lat / 3) = 2 * π * r / (36 * 86400) *
      (3 / 2 * √3 * ((1 - tanh (vortexRho lon lat) ^ 2) * tanh (vortexRho lon lat))) := by
  have hρ : 0 < vortexRho lon lat := lt_trans (by norm_num) h
  unfold vortexOmega
  dsimp only
  rw [if_pos (by rwa [abs_of_pos hρ, gt_iff_lt]), sech_sq]
  unfold vortexV0 dayInSecs
  field_simp
  ring

/-- **C62** (wind of case 0) The wind of the circular vortex is nowhere faster than a third of a turn around the sphere in twelve days, and there is a
point at which it is as fast as that. -/
theorem C62_vortex_speed {r : ℝ} (hr : 0 < r) :
    (∀ lon lat, √((windVortex r lon lat).1 ^ 2 + (windVortex r lon lat).2 ^ 2) ≤ 2 * π * r / (36 * 86400)) ∧
    ∃ lon lat, √((windVortex r lon lat).1 ^ 2 + (windVortex r lon lat).2 ^ 2) = 2 * π * r / (36 * 86400) := by
  have hV : 0 < 2 * π * r / (36 * 86400) := by positivity
  have tn : ∀ {x : ℝ}, 0 ≤ x → 0 ≤ tanh x := fun {x} hx => by
    rw [tanh_eq_sinh_div_cosh]; exact div_nonneg (sinh_nonneg_iff.2 hx) (cosh_pos x).le
  have tl : ∀ x : ℝ, 0 ≤ 1 - tanh x ^ 2 := fun x => by rw [← sech_sq]; positivity
  constructor
  · intro lon lat
    rw [speed_sq, sqrt_sq_eq_abs]
    by_cases h : 1e-9 < vortexRho lon lat
    · have ht := tn (rho_nonneg lon lat)
      rw [turn_eq hr h, abs_of_nonneg (by have := tl (vortexRho lon lat); positivity)]
      exact mul_le_of_le_one_right hV.le (profile_le ht)
    · have : vortexOmega r lon lat = 0 := by
        unfold vortexOmega
        dsimp only
        rw [if_neg (by rw [abs_of_nonneg (rho_nonneg lon lat)]; exact h)]
      rw [this]
      simpa using hV.le
  · -- the distance at which the profile is largest
    have hcont : Continuous tanh := by
      have : tanh = fun x => sinh x / cosh x := funext tanh_eq_sinh_div_cosh
      rw [this]
      exact continuous_sinh.div continuous_cosh fun x => (cosh_pos x).ne'
    have h3 : √3 ^ 2 = 3 := sq_sqrt (by norm_num)
    have hs : 0 < √3 := sqrt_pos.2 (by norm_num)
    have hi : (1 / √3) ∈ Set.Icc (tanh 0) (tanh 1) := by
      constructor
      · rw [tanh_zero]; positivity
      · have h1 : 1 ≤ sinh 1 := self_le_sinh_iff.2 zero_le_one
        have hc := cosh_pos (1 : ℝ)
        rw [tanh_eq_sinh_div_cosh, div_le_div_iff₀ hs hc, one_mul]
        have := cosh_sq (1 : ℝ)
        have h7 : cosh (1 : ℝ) ^ 2 ≤ (sinh 1 * √3) ^ 2 := by rw [mul_pow, h3]; nlinarith
        exact (pow_le_pow_iff_left₀ hc.le (mul_nonneg (by linarith) hs.le) two_ne_zero).1 h7
    obtain ⟨ρ, hρ, hτ⟩ := intermediate_value_Icc (by norm_num) hcont.continuousOn hi
    have hsq : tanh ρ ^ 2 = 1 / 3 := by rw [hτ, div_pow, h3]; norm_num
    have hch : cosh ρ ^ 2 = 3 / 2 := by
      have h := sech_sq ρ
      have hc : 0 < cosh ρ := cosh_pos ρ
      rw [hsq, div_pow, one_pow, div_eq_iff (by positivity)] at h
      linarith
    have hbig : 1e-9 < ρ := by
      by_contra hn
      have hle : ρ ≤ 1e-9 := not_lt.1 hn
      have h1 : cosh ρ ≤ rexp (ρ ^ 2 / 2) := cosh_le_exp_half_sq ρ
      have h2 : cosh ρ ^ 2 ≤ rexp (ρ ^ 2) := by
        have : rexp (ρ ^ 2) = rexp (ρ ^ 2 / 2) ^ 2 := by rw [← Real.exp_nat_mul]; congr 1; push_cast; ring
        rw [this]
        exact pow_le_pow_left₀ (cosh_pos ρ).le h1 2
      have h4 : ρ ^ 2 ≤ 1 / 4 := by nlinarith [hρ.1]
      have h5 := Real.add_one_le_exp (-(ρ ^ 2))
      have h6 : rexp (ρ ^ 2) * rexp (-(ρ ^ 2)) = 1 := by rw [← Real.exp_add]; simp
      nlinarith [Real.exp_pos (ρ ^ 2)]
    refine ⟨vortexLon, vortexLat + arcsin (ρ / 3), ?_⟩
    have hvz : 1 - vz vortexLon (vortexLat + arcsin (ρ / 3)) ^ 2 = (ρ / 3) ^ 2 := by
      have hv : vz vortexLon (vortexLat + arcsin (ρ / 3)) = cos (arcsin (ρ / 3)) := by
        unfold vz
        rw [sub_self, cos_zero, mul_one, show cos (arcsin (ρ / 3)) = cos (vortexLat + arcsin (ρ / 3) - vortexLat) by congr 1; ring, cos_sub]
        ring
      have hsin : sin (arcsin (ρ / 3)) = ρ / 3 := sin_arcsin (by linarith [hρ.1]) (by linarith [hρ.2])
      rw [hv]
      have := sin_sq_add_cos_sq (arcsin (ρ / 3))
      rw [hsin] at this
      linarith
    have hr' : vortexRho vortexLon (vortexLat + arcsin (ρ / 3)) = ρ := by
      rw [rho_eq, hvz, sqrt_sq (by linarith [hρ.1])]
      ring
    rw [speed_sq, sqrt_sq_eq_abs, turn_eq hr (by rw [hr']; exact hbig), hr', hsq, hτ, show 3 / 2 * √3 * ((1 - 1 / 3) * (1 / √3)) = 1 by
      field_simp
      norm_num, mul_one, abs_of_pos hV]

end WxVerif.Props.VortexSpeed
