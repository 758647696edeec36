import Verif.Model.References
import Verif.Spec.Trajectory
import Verif.Spec.ShallowEquations
import Verif.Lemmas.Winds
import Mathlib.Analysis.Calculus.MeanValue
import Mathlib.Analysis.ODE.ExistUnique
import Mathlib.Analysis.SpecialFunctions.Sqrt
import Mathlib.Analysis.SpecialFunctions.Trigonometric.DerivHyp
import Mathlib.Analysis.SpecialFunctions.Trigonometric.Deriv
import Mathlib.Analysis.SpecialFunctions.Trigonometric.Inverse

/-!
# C61, C62: the reference solutions that the block statistics compare with
-/

namespace WxVerif.Props.References

open WxVerif.InitShallow WxVerif.Sphere WxVerif.Spec.Trajectory WxVerif.Spec.ShallowEquations
open Real

/-- functions without rate of change on an interval are constant -/
theorem const_of_hasDerivAt {f : ℝ → ℝ} {a b : ℝ} (h : ∀ s ∈ Set.Ioo a b, HasDerivAt f 0 s) {s t : ℝ} (hs : s ∈ Set.Ioo a b) (ht : t ∈ Set.Ioo a b) :
    f s = f t := by
  refine (convex_Ioo a b).is_const_of_fderivWithin_eq_zero (𝕜 := ℝ) (fun x hx => (h x hx).differentiableAt.differentiableWithinAt) ?_ hs ht
  intro x hx
  have := (h x hx).hasDerivWithinAt.hasFDerivWithinAt.fderivWithin (isOpen_Ioo.uniqueDiffWithinAt hx (s := Set.Ioo a b))
  rw [this]; ext; simp

/-- the bell depends on the distance between the longitude and a centre that moves with the wind -/
noncomputable def bell (lat δ : ℝ) : ℝ :=
  0.5 * 1000 * (1 + cos (π * arccos (cos lat * cos δ) / (1 / 3))) * (if arccos (cos lat * cos δ) ≤ 1 / 3 then 1 else 0)

theorem heightCase1_bell (lon lat time : ℝ) : heightCase1 lon lat time = bell lat (lon - (3 * π / 2 + ubar * time)) := by
  unfold heightCase1 bell
  have h : cos (lon - (if 3 * π / 2 + ubar * time > 2 * π then 3 * π / 2 + ubar * time - 2 * π else 3 * π / 2 + ubar * time)) =
      cos (lon - (3 * π / 2 + ubar * time)) := by
    split
    · rw [show lon - (3 * π / 2 + ubar * time - 2 * π) = lon - (3 * π / 2 + ubar * time) + 2 * π by ring, cos_add_two_pi]
    · rfl
  simp only [h, sin_zero, cos_zero, zero_mul, one_mul, zero_add]

/-- **C62** (reference of case 1) The bell that the block statistics compare with is carried by the prescribed wind, at all times: the
change of the longitude of its centre by a whole turn has no effect. -/
theorem C62_bell_carried {r : ℝ} (hr : 0 < r) : Carried r (fun _ lat => windCase1 r lat) heightCase1 := by
  intro a b lon lat hp s hs t ht
  have h1 : lat s = lat t := const_of_hasDerivAt (fun x hx => by have := (hp x hx).2.2; simpa [windCase1] using this) hs ht
  have h2 : lon s - ubar * s = lon t - ubar * t := by
    refine const_of_hasDerivAt (f := fun x => lon x - ubar * x) (fun x hx => ?_) hs ht
    obtain ⟨hc, hl, -⟩ := hp x hx
    refine (hl.sub ((hasDerivAt_id x).const_mul ubar)).congr_deriv ?_
    simp only [windCase1, rotationU0, ubar]
    rw [if_neg (by norm_num)]
    field_simp
    ring
  rw [heightCase1_bell, heightCase1_bell, h1]
  congr 1
  linarith

/-- coordinates of a point of the sphere in a frame whose third axis goes through the centre of the vortex -/
noncomputable def vx (lon lat : ℝ) : ℝ := cos lat * sin vortexLat * cos (lon - vortexLon) - cos vortexLat * sin lat
@[inherit_doc vx] noncomputable def vy (lon lat : ℝ) : ℝ := cos lat * sin (lon - vortexLon)
@[inherit_doc vx] noncomputable def vz (lon lat : ℝ) : ℝ := sin lat * sin vortexLat + cos lat * cos vortexLat * cos (lon - vortexLon)

theorem vxyz (lon lat : ℝ) : vx lon lat ^ 2 + vy lon lat ^ 2 + vz lon lat ^ 2 = 1 := by
  unfold vx vy vz
  have h1 := sin_sq_add_cos_sq lat
  have h2 := sin_sq_add_cos_sq vortexLat
  have h3 := sin_sq_add_cos_sq (lon - vortexLon)
  generalize sin lat = a at *; generalize cos lat = b at *; generalize sin vortexLat = c at *; generalize cos vortexLat = d at *
  generalize sin (lon - vortexLon) = e at *; generalize cos (lon - vortexLon) = f at *
  linear_combination h1 + (b ^ 2 * f ^ 2 + a ^ 2) * h2 + b ^ 2 * h3

theorem rho_eq (lon lat : ℝ) : vortexRho lon lat = 3 * √(1 - vz lon lat ^ 2) := by
  unfold vortexRho rotatedLat; rw [cos_arcsin]; rfl

theorem rho_norm (lon lat : ℝ) : vortexRho lon lat = 3 * ‖(⟨vx lon lat, vy lon lat⟩ : ℂ)‖ := by
  rw [rho_eq, Complex.norm_def, Complex.normSq_mk]
  congr 2
  linear_combination -(vxyz lon lat)

theorem omega_eq (r lon lat : ℝ) : vortexOmega r lon lat =
    (fun z => if |3 * √(1 - z ^ 2)| > 1e-9 then
      vortexV0 r * (3 / 2 * √3) * (1 / cosh (3 * √(1 - z ^ 2))) ^ 2 * tanh (3 * √(1 - z ^ 2)) / (r * (3 * √(1 - z ^ 2))) else 0) (vz lon lat) := by
  unfold vortexOmega; rw [rho_eq]

theorem heightVortex_eq (r lon lat t : ℝ) : heightVortex r lon lat t =
    1 - tanh (3 / 5 * (vy lon lat * cos (vortexOmega r lon lat * t) - vx lon lat * sin (vortexOmega r lon lat * t))) := by
  unfold heightVortex
  congr 2
  have hs : sin (rotatedLon lon lat) = sin (Complex.arg ⟨vx lon lat, vy lon lat⟩) ∧
      cos (rotatedLon lon lat) = cos (Complex.arg ⟨vx lon lat, vy lon lat⟩) := by
    have : rotatedLon lon lat = if Complex.arg ⟨vx lon lat, vy lon lat⟩ < 0 then Complex.arg ⟨vx lon lat, vy lon lat⟩ + 2 * π
        else Complex.arg ⟨vx lon lat, vy lon lat⟩ := rfl
    rw [this]
    split
    · exact ⟨sin_add_two_pi _, cos_add_two_pi _⟩
    · exact ⟨rfl, rfl⟩
  have h1 := Complex.norm_mul_cos_arg ⟨vx lon lat, vy lon lat⟩
  have h2 := Complex.norm_mul_sin_arg ⟨vx lon lat, vy lon lat⟩
  rw [sin_sub, hs.1, hs.2, rho_norm]
  linear_combination (3 / 5 * cos (vortexOmega r lon lat * t)) * h2 - (3 / 5 * sin (vortexOmega r lon lat * t)) * h1

/-- **C62** (reference of case 0) The height that the block statistics compare with in the test of the circular vortex is carried by the
wind that the initialisation prescribes. -/
theorem C62_vortex_carried {r : ℝ} (hr : 0 < r) : Carried r (windVortex r) (heightVortex r) := by
  intro a b lon lat hp s hs t ht
  have key : ∀ x ∈ Set.Ioo a b, HasDerivAt (fun y => vx (lon y) (lat y)) (-(vortexOmega r (lon x) (lat x)) * vy (lon x) (lat x)) x ∧
      HasDerivAt (fun y => vy (lon y) (lat y)) (vortexOmega r (lon x) (lat x) * vx (lon x) (lat x)) x ∧
      HasDerivAt (fun y => vz (lon y) (lat y)) 0 x := by
    intro x hx
    obtain ⟨hc, hl, hm⟩ := hp x hx
    have hδ : HasDerivAt (fun y => lon y - vortexLon) _ x := hl.sub_const vortexLon
    have h2 := sin_sq_add_cos_sq vortexLat
    have h1 := sin_sq_add_cos_sq (lat x)
    have h3 := sin_sq_add_cos_sq (lon x - vortexLon)
    have eu : (windVortex r (lon x) (lat x)).1 / (r * cos (lat x)) * cos (lat x) =
        vortexOmega r (lon x) (lat x) * (sin vortexLat * cos (lat x) - cos vortexLat * cos (lon x - vortexLon) * sin (lat x)) := by
      simp only [windVortex]; field_simp
    have ev : (windVortex r (lon x) (lat x)).2 / r = vortexOmega r (lon x) (lat x) * cos vortexLat * sin (lon x - vortexLon) := by
      simp only [windVortex]; field_simp
    refine ⟨?_, ?_, ?_⟩
    · refine (((hm.cos.mul_const (sin vortexLat)).mul hδ.cos).sub (hm.sin.const_mul (cos vortexLat))).congr_deriv ?_
      rw [ev]
      simp only [vy]
      linear_combination (-(sin vortexLat * sin (lon x - vortexLon))) * eu -
        vortexOmega r (lon x) (lat x) * sin (lon x - vortexLon) * cos (lat x) * h2
    · refine (hm.cos.mul hδ.sin).congr_deriv ?_
      rw [ev]
      simp only [vx]
      linear_combination cos (lon x - vortexLon) * eu - vortexOmega r (lon x) (lat x) * cos vortexLat * sin (lat x) * h3
    · refine ((hm.sin.mul_const (sin vortexLat)).add ((hm.cos.mul_const (cos vortexLat)).mul hδ.cos)).congr_deriv ?_
      rw [ev]
      linear_combination (-(cos vortexLat * sin (lon x - vortexLon))) * eu
  have hz : ∀ x ∈ Set.Ioo a b, vz (lon x) (lat x) = vz (lon s) (lat s) := fun x hx =>
    const_of_hasDerivAt (f := fun y => vz (lon y) (lat y)) (fun y hy => (key y hy).2.2) hx hs
  have hΩ : ∀ x ∈ Set.Ioo a b, vortexOmega r (lon x) (lat x) = vortexOmega r (lon s) (lat s) := fun x hx => by
    rw [omega_eq, omega_eq, hz x hx]
  have hf : ∀ x ∈ Set.Ioo a b, HasDerivAt (fun y => vy (lon y) (lat y) * cos (vortexOmega r (lon s) (lat s) * y) -
      vx (lon y) (lat y) * sin (vortexOmega r (lon s) (lat s) * y)) 0 x := by
    intro x hx
    obtain ⟨d1, d2, -⟩ := key x hx
    have hlin : HasDerivAt (fun y => vortexOmega r (lon s) (lat s) * y) (vortexOmega r (lon s) (lat s)) x := by
      simpa using (hasDerivAt_id x).const_mul (vortexOmega r (lon s) (lat s))
    refine ((d2.mul hlin.cos).sub (d1.mul hlin.sin)).congr_deriv ?_
    rw [hΩ x hx]
    ring
  have := const_of_hasDerivAt hf hs ht
  rw [heightVortex_eq, heightVortex_eq, hΩ t ht, this]

/-- **C61** (case 10) The reference depth of case 10, with its wind and its ground, is a steady solution of the shallow-water equations: the
tendencies of both components of the wind and of the depth are zero off the poles. -/
theorem C61_case10_steady (Ω : ℝ) {r : ℝ} (hr : 0 < r) (lon : ℝ) {lat : ℝ} (hc : cos lat ≠ 0) :
    let u : ℝ → ℝ → ℝ := fun _ p => (wind10 r p).1
    let v : ℝ → ℝ → ℝ := fun _ p => (wind10 r p).2
    let surface : ℝ → ℝ → ℝ := fun _ p => depth10 r Ω p + ground10 r Ω p / Flux.gravity
    zonalTendency r Flux.gravity Ω u v surface lon lat = 0 ∧ meridionalTendency r Flux.gravity Ω u v surface lon lat = 0 ∧
      Divergence r (fun l p => depth10 r Ω p * u l p) (fun l p => depth10 r Ω p * v l p) lon lat 0 := by
  intro u v surface
  have hg : Flux.gravity ≠ 0 := by unfold Flux.gravity; norm_num
  refine ⟨?_, ?_, ?_⟩
  · simp [zonalTendency, u, v, surface, wind10]
  · have hd : deriv (fun p => surface lon p) lat =
        -((2 * π * r / (12 * 24 * 3600)) ^ 2 + 2 * (2 * π * r / (12 * 24 * 3600)) * (r * Ω)) * sin lat * cos lat / Flux.gravity := by
      have e : (fun p => surface lon p) = fun p =>
          (-0.5 * ((2 * π * r / (12 * 24 * 3600) + r * Ω) ^ 2 - (r * Ω) ^ 2) * sin p ^ 2 + 133681) / Flux.gravity := by
        funext p
        simp only [surface, depth10, ground10]
        field_simp
        ring
      rw [e]
      have := ((((hasDerivAt_sin lat).pow 2).const_mul (-0.5 * ((2 * π * r / (12 * 24 * 3600) + r * Ω) ^ 2 - (r * Ω) ^ 2))).add_const 133681).div_const
        Flux.gravity
      refine this.deriv.trans ?_
      simp
      ring
    simp only [meridionalTendency, hd, tan_eq_sin_div_cos]
    simp only [u, v, wind10, deriv_const]
    field_simp
    ring
  · refine ⟨0, 0, hasDerivAt_const lon (depth10 r Ω lat * (wind10 r lat).1), ?_, by simp⟩
    simpa [v, wind10] using hasDerivAt_const lat (0 : ℝ)

/-- Non-vacuity: parcels exist; on the equator the wind of the bell carries them around, and the bell is not constant. -/
example {r : ℝ} (hr : 0 < r) : Parcel r (fun _ lat => windCase1 r lat) (-1) 1 (fun s => 3 * π / 2 + ubar * s) (fun _ => 0) ∧
    heightCase1 (3 * π / 2 + ubar * (1 / 2)) 0 (1 / 2) = 1000 := by
  constructor
  · intro s _
    refine ⟨by simp, ?_, ?_⟩
    · have := ((hasDerivAt_id s).const_mul ubar).const_add (3 * π / 2)
      refine this.congr_deriv ?_
      simp only [windCase1, rotationU0, ubar, cos_zero]
      rw [if_neg (by norm_num)]
      field_simp
    · simpa [windCase1] using hasDerivAt_const s (0 : ℝ)
  · rw [heightCase1_bell]
    norm_num [bell]

/-- Non-vacuity: through every point off the poles and away from the centre of the vortex goes a parcel of the wind of the vortex. -/
theorem vortex_parcels {r : ℝ} (hr : 0 < r) {lon0 lat0 : ℝ} (hc : cos lat0 ≠ 0) (hz : vortexRho lon0 lat0 > 1e-9) :
    ∃ ε > 0, ∃ lon lat, Parcel r (windVortex r) (-ε) ε lon lat ∧ lon 0 = lon0 ∧ lat 0 = lat0 := by
  have cz : ContDiff ℝ 1 (fun p : ℝ × ℝ => vz p.1 p.2) := by unfold vz; fun_prop
  have hz1 : 1 - vz lon0 lat0 ^ 2 ≠ 0 := by
    intro h0
    rw [rho_eq, h0, sqrt_zero] at hz
    norm_num at hz
  have cρ : ContDiffAt ℝ 1 (fun p : ℝ × ℝ => vortexRho p.1 p.2) (lon0, lat0) := by
    have : (fun p : ℝ × ℝ => vortexRho p.1 p.2) = fun p => 3 * √(1 - vz p.1 p.2 ^ 2) := by funext p; exact rho_eq _ _
    rw [this]
    exact contDiffAt_const.mul ((contDiffAt_const.sub (cz.contDiffAt.pow 2)).sqrt hz1)
  have hρ0 : vortexRho lon0 lat0 ≠ 0 := by intro h; rw [h] at hz; norm_num at hz
  have cΩ : ContDiffAt ℝ 1 (fun p : ℝ × ℝ => vortexOmega r p.1 p.2) (lon0, lat0) := by
    have : ContDiffAt ℝ 1 (fun p : ℝ × ℝ => vortexV0 r * (3 / 2 * √3) * (1 / cosh (vortexRho p.1 p.2)) ^ 2 *
        (sinh (vortexRho p.1 p.2) / cosh (vortexRho p.1 p.2)) / (r * vortexRho p.1 p.2)) (lon0, lat0) := by
      have h1 : ContDiffAt ℝ 1 (fun p : ℝ × ℝ => cosh (vortexRho p.1 p.2)) (lon0, lat0) := contDiff_cosh.contDiffAt.comp _ cρ
      have h2 : ContDiffAt ℝ 1 (fun p : ℝ × ℝ => sinh (vortexRho p.1 p.2)) (lon0, lat0) := contDiff_sinh.contDiffAt.comp _ cρ
      exact ((contDiffAt_const.mul ((contDiffAt_const.div h1 (cosh_pos _).ne').pow 2)).mul (h2.div h1 (cosh_pos _).ne')).div
        (contDiffAt_const.mul cρ) (mul_ne_zero hr.ne' hρ0)
    refine this.congr_of_eventuallyEq ?_
    filter_upwards [cρ.continuousAt.eventually (lt_mem_nhds hz)] with p hp
    simp only [vortexOmega]
    rw [if_pos (lt_of_lt_of_le hp (le_abs_self _)), tanh_eq_sinh_div_cosh]
  have cF : ContDiffAt ℝ 1 (fun p : ℝ × ℝ => ((windVortex r p.1 p.2).1 / (r * cos p.2), (windVortex r p.1 p.2).2 / r)) (lon0, lat0) := by
    unfold windVortex
    refine ContDiffAt.prodMk ?_ ?_
    · refine ((contDiffAt_const.mul cΩ).mul ?_).div ?_ (mul_ne_zero hr.ne' hc) <;> fun_prop
    · refine (((contDiffAt_const.mul cΩ).mul contDiffAt_const).mul ?_).div_const _
      fun_prop
  obtain ⟨α, h0, ε, hε, hα⟩ := cF.exists_forall_mem_closedBall_exists_eq_forall_mem_Ioo_hasDerivAt₀ 0
  have hcont : ContinuousAt (fun t => cos (α t).2) 0 :=
    (continuous_cos.comp continuous_snd).continuousAt.comp (hα 0 ⟨by linarith, by linarith⟩).continuousAt
  have hne : ∀ᶠ t in nhds 0, cos (α t).2 ≠ 0 := hcont.eventually_ne (by rw [h0]; exact hc)
  obtain ⟨ε', hε', hball⟩ := Metric.eventually_nhds_iff.1 hne
  refine ⟨min ε ε', lt_min hε hε', fun t => (α t).1, fun t => (α t).2, ?_, congrArg Prod.fst h0, congrArg Prod.snd h0⟩
  intro t ht
  have hm1 := min_le_left ε ε'
  have hm2 := min_le_right ε ε'
  have hd := hα t ⟨by linarith [ht.1], by linarith [ht.2]⟩
  refine ⟨hball (by rw [dist_zero_right, norm_eq_abs, abs_lt]; exact ⟨by linarith [ht.1], by linarith [ht.2]⟩), ?_, ?_⟩
  · exact (hasFDerivAt_fst.comp_hasDerivAt t hd)
  · exact (hasFDerivAt_snd.comp_hasDerivAt t hd)

/-- … for example at the point of the equator south of the centre -/
example : cos (0 : ℝ) ≠ 0 ∧ vortexRho vortexLon 0 > 1e-9 := by
  refine ⟨by simp, ?_⟩
  have h1 : (1 : ℝ) / 2 < sin vortexLat := by
    rw [← sin_pi_div_six]
    have := pi_pos
    refine sin_lt_sin_of_lt_of_le_pi_div_two (by linarith) ?_ ?_ <;> unfold vortexLat <;> norm_num <;> linarith
  have h2 : 1 - vz vortexLon 0 ^ 2 = sin vortexLat ^ 2 := by
    simp only [vz, sub_self, sin_zero, cos_zero]
    linear_combination -(sin_sq_add_cos_sq vortexLat)
  rw [rho_eq, h2, sqrt_sq (by linarith)]
  norm_num
  linarith

end WxVerif.Props.References
