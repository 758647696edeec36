import Verif.Model.InitShallow
import Verif.Lemmas.ShallowWater
import Verif.Spec.ShallowEquations
import Mathlib.Analysis.Calculus.Deriv.Polynomial
import Mathlib.Analysis.SpecialFunctions.Trigonometric.Deriv
import Mathlib.Tactic.LinearCombination

/-!
# Lemmas for the Rossby-Haurwitz wave (Williamson case 6)
-/

namespace WxVerif.Lemmas.RossbyHaurwitz

open WxVerif.Flux WxVerif.InitShallow WxVerif.Spec.ShallowEquations
open Real Polynomial

theorem dcos (G : ℝ[X]) (φ : ℝ) : HasDerivAt (fun φ => G.eval (cos φ)) (-sin φ * G.derivative.eval (cos φ)) φ := by
  have := (G.hasDerivAt (cos φ)).comp φ (hasDerivAt_cos φ)
  rw [mul_comm] at this
  exact this

theorem dsin (G : ℝ[X]) (φ : ℝ) :
    HasDerivAt (fun φ => sin φ * G.eval (cos φ)) (cos φ * G.eval (cos φ) - sin φ ^ 2 * G.derivative.eval (cos φ)) φ := by
  have := (hasDerivAt_sin φ).mul (dcos G φ)
  refine this.congr_deriv ?_
  ring

theorem dp (l : ℝ) : HasDerivAt (fun l => cos (4 * l)) (-4 * sin (4 * l)) l := by
  have := ((hasDerivAt_id l).const_mul 4).cos
  refine this.congr_deriv ?_
  simp; ring

theorem dq (l : ℝ) : HasDerivAt (fun l => sin (4 * l)) (4 * cos (4 * l)) l := by
  have := ((hasDerivAt_id l).const_mul 4).sin
  refine this.congr_deriv ?_
  simp; ring

theorem cos8 (l : ℝ) : cos (2 * 4 * l) = 2 * cos (4 * l) ^ 2 - 1 := by
  rw [← cos_two_mul]; ring_nf

variable (r Ω l φ : ℝ)

/-- the fields as functions of the latitude, `p` and `q` standing for the cosine and sine of four times the longitude -/
noncomputable def pu (p : ℝ) : ℝ[X] := C (r * omega6) * (X + C p * (4 * X ^ 3 - 5 * X ^ 5))
@[inherit_doc pu] noncomputable def pv (q : ℝ) : ℝ[X] := C (-4 * r * omega6 * q) * X ^ 3
@[inherit_doc pu] noncomputable def ph (p : ℝ) : ℝ[X] :=
  C 8000 + C (r ^ 2 / gravity) * (C (omega6 / 2 * (2 * Ω + omega6)) * X ^ 2 + C (omega6 ^ 2 / 4) * (5 * X ^ 10 + 26 * X ^ 8 - 32 * X ^ 6)
    + C p * C ((Ω + omega6) * omega6 / 15) * (26 * X ^ 4 - 25 * X ^ 6) + C (2 * p ^ 2 - 1) * C (omega6 ^ 2 / 4) * (5 * X ^ 10 - 6 * X ^ 8))

theorem u_eq : (wind6 r l φ).1 = (pu r (cos (4 * l))).eval (cos φ) := by
  have := sin_sq φ
  simp only [wind6, pu, this, eval_mul, eval_C, eval_add, eval_X, eval_sub, eval_pow, eval_ofNat]
  ring

theorem v_eq : (wind6 r l φ).2 = sin φ * (pv r (sin (4 * l))).eval (cos φ) := by
  simp only [wind6, pv, eval_mul, eval_C, eval_X, eval_pow]
  ring

theorem h_eq : height6 r Ω l φ = (ph r Ω (cos (4 * l))).eval (cos φ) := by
  have e : cos φ ^ 8 * (cos φ ^ 2)⁻¹ = cos φ ^ 6 := by
    by_cases h : cos φ = 0
    · simp [h]
    · field_simp
  have a : coefA6 Ω φ = omega6 / 2 * (2 * Ω + omega6) * cos φ ^ 2 + omega6 ^ 2 / 4 * (5 * cos φ ^ 10 + 26 * cos φ ^ 8 - 32 * cos φ ^ 6) := by
    rw [← e]; unfold coefA6; ring
  rw [height6, a, coefB6, coefC6, cos8]
  simp only [ph, eval_mul, eval_C, eval_add, eval_X, eval_sub, eval_pow, eval_ofNat]
  ring

theorem u_l : deriv (fun l => (wind6 r l φ).1) l = r * omega6 * (4 * cos φ ^ 3 - 5 * cos φ ^ 5) * (-4 * sin (4 * l)) := by
  have e : (fun l => (wind6 r l φ).1) = fun l => r * omega6 * cos φ + r * omega6 * (4 * cos φ ^ 3 - 5 * cos φ ^ 5) * cos (4 * l) := by
    funext l
    simp only [u_eq, pu, eval_mul, eval_C, eval_add, eval_X, eval_sub, eval_pow, eval_ofNat]; ring
  rw [e]
  exact (((dp l).const_mul _).const_add _).deriv

theorem v_l : deriv (fun l => (wind6 r l φ).2) l = -4 * r * omega6 * sin φ * cos φ ^ 3 * (4 * cos (4 * l)) := by
  have e : (fun l => (wind6 r l φ).2) = fun l => -4 * r * omega6 * sin φ * cos φ ^ 3 * sin (4 * l) := by
    funext l
    simp only [v_eq, pv, eval_mul, eval_C, eval_X, eval_pow]; ring
  rw [e]
  exact ((dq l).const_mul _).deriv

theorem h_l : deriv (fun l => height6 r Ω l φ) l = r ^ 2 / gravity * ((Ω + omega6) * omega6 / 15 * (26 * cos φ ^ 4 - 25 * cos φ ^ 6)
    + 4 * cos (4 * l) * (omega6 ^ 2 / 4 * (5 * cos φ ^ 10 - 6 * cos φ ^ 8))) * (-4 * sin (4 * l)) := by
  have e : (fun l => height6 r Ω l φ) = fun l => 8000 + r ^ 2 / gravity * (omega6 / 2 * (2 * Ω + omega6) * cos φ ^ 2
      + omega6 ^ 2 / 4 * (5 * cos φ ^ 10 + 26 * cos φ ^ 8 - 32 * cos φ ^ 6) - omega6 ^ 2 / 4 * (5 * cos φ ^ 10 - 6 * cos φ ^ 8))
      + (r ^ 2 / gravity * ((Ω + omega6) * omega6 / 15 * (26 * cos φ ^ 4 - 25 * cos φ ^ 6))) * cos (4 * l)
      + (r ^ 2 / gravity * (2 * (omega6 ^ 2 / 4 * (5 * cos φ ^ 10 - 6 * cos φ ^ 8)))) * cos (4 * l) ^ 2 := by
    funext l
    simp only [h_eq, ph, eval_mul, eval_C, eval_add, eval_X, eval_sub, eval_pow, eval_ofNat]; ring
  rw [e]
  refine (((((dp l).const_mul _).const_add _).add (((dp l).pow 2).const_mul _)).congr_deriv ?_).deriv
  push_cast
  ring

theorem u_f : deriv (fun φ => (wind6 r l φ).1) φ = -sin φ * (pu r (cos (4 * l))).derivative.eval (cos φ) := by
  simp only [u_eq]; exact (dcos _ φ).deriv

theorem v_f : deriv (fun φ => (wind6 r l φ).2) φ = cos φ * (pv r (sin (4 * l))).eval (cos φ)
    - sin φ ^ 2 * (pv r (sin (4 * l))).derivative.eval (cos φ) := by
  simp only [v_eq]; exact (dsin _ φ).deriv

theorem h_f : deriv (fun φ => height6 r Ω l φ) φ = -sin φ * (ph r Ω (cos (4 * l))).derivative.eval (cos φ) := by
  simp only [h_eq]; exact (dcos _ φ).deriv

/-- the part of the zonal tendency multiplying `sin 4λ` -/
noncomputable def E (c : ℝ) : ℝ := r * omega6 ^ 2 * (4 * c * (4 * c ^ 2 - 5 * c ^ 4) - 8 * (c ^ 3 - c ^ 5)) - 8 * Ω * omega6 * r * (c ^ 3 - c ^ 5)
  + r * 4 * ((Ω + omega6) * omega6 / 15 * (26 * c ^ 3 - 25 * c ^ 5))
/-- the part multiplying `sin 4λ cos 4λ` -/
noncomputable def F (c : ℝ) : ℝ := r * omega6 ^ 2 * (4 * (4 * c ^ 3 - 5 * c ^ 5) * (4 * c ^ 2 - 5 * c ^ 4) + 4 * (-12 * c ^ 2 + 25 * c ^ 4) * (c ^ 3 - c ^ 5)
    - 4 * (c ^ 3 - c ^ 5) * (4 * c ^ 2 - 5 * c ^ 4)) + r * 16 * (omega6 ^ 2 / 4 * (5 * c ^ 9 - 6 * c ^ 7))

/-- the meridional tendency times the cosine of the latitude, divided by the sine of the latitude -/
noncomputable def G (p q : ℝ) : ℝ[X] :=
  C (16 * r * omega6 ^ 2 * p) * (X + C p * (4 * X ^ 3 - 5 * X ^ 5)) * X ^ 3
  - C (16 * r * omega6 ^ 2 * q ^ 2) * X ^ 4 * (4 * X ^ 4 - 3 * X ^ 2)
  - C (r * omega6) * (X + C p * (4 * X ^ 3 - 5 * X ^ 5)) * (C (2 * Ω) * X + C omega6 * (X + C p * (4 * X ^ 3 - 5 * X ^ 5)))
  + C r * X * (C (omega6 / 2 * (2 * Ω + omega6)) * (2 * X) + C (omega6 ^ 2 / 4) * (50 * X ^ 9 + 208 * X ^ 7 - 192 * X ^ 5)
    + C p * C ((Ω + omega6) * omega6 / 15) * (104 * X ^ 3 - 150 * X ^ 5) + C (2 * p ^ 2 - 1) * C (omega6 ^ 2 / 4) * (50 * X ^ 9 - 48 * X ^ 7))

theorem zonal_eq (hr : r ≠ 0) (hc : cos φ ≠ 0) :
    zonalTendency r gravity Ω (fun l φ => (wind6 r l φ).1) (fun l φ => (wind6 r l φ).2) (height6 r Ω) l φ =
      E r Ω (cos φ) * sin (4 * l) + F r (cos φ) * (sin (4 * l) * cos (4 * l)) := by
  have hg := ShallowWater.gravity_pos.ne'
  have s2 := sin_sq φ
  simp only [zonalTendency, u_l, u_f, h_l, tan_eq_sin_div_cos]
  simp only [u_eq, v_eq, pu, pv, eval_mul, eval_C, eval_add, eval_X, eval_sub, eval_pow, eval_ofNat, derivative_mul, derivative_add, derivative_sub,
    derivative_C, derivative_X, derivative_X_pow, derivative_ofNat, eval_zero, eval_one, Nat.cast_ofNat]
  unfold E F
  field_simp
  generalize cos φ = c at *
  generalize sin φ = s at *
  ring_nf
  simp only [s2]
  ring

theorem meridional_eq (hr : r ≠ 0) (hc : cos φ ≠ 0) :
    meridionalTendency r gravity Ω (fun l φ => (wind6 r l φ).1) (fun l φ => (wind6 r l φ).2) (height6 r Ω) l φ * cos φ =
      sin φ * (G r Ω (cos (4 * l)) (sin (4 * l))).eval (cos φ) := by
  have hg := ShallowWater.gravity_pos.ne'
  have s2 := sin_sq φ
  simp only [meridionalTendency, v_l, v_f, h_f, tan_eq_sin_div_cos]
  simp only [u_eq, v_eq, pu, pv, ph, G, eval_mul, eval_C, eval_add, eval_X, eval_sub, eval_pow, eval_ofNat, derivative_mul, derivative_add, derivative_sub,
    derivative_C, derivative_X, derivative_X_pow, derivative_ofNat, eval_zero, eval_one, Nat.cast_ofNat]
  field_simp
  generalize cos φ = c at *
  generalize sin φ = s at *
  have s3 : s ^ 3 = s * (1 - c ^ 2) := by rw [← s2]; ring
  ring_nf
  simp only [s3, s2]
  ring

theorem balance (c p q : ℝ) (h : q ^ 2 = 1 - p ^ 2) :
    E r Ω c * (4 * p) + F r c * (4 * (p ^ 2 - q ^ 2)) + (c * (G r Ω p q).eval c - (1 - c ^ 2) * (G r Ω p q).derivative.eval c) = 0 := by
  simp only [E, F, G, eval_mul, eval_C, eval_add, eval_X, eval_sub, eval_pow, eval_ofNat, derivative_mul, derivative_add, derivative_sub,
    derivative_C, derivative_X, derivative_X_pow, derivative_ofNat, eval_zero, eval_one, Nat.cast_ofNat, h]
  ring

end WxVerif.Lemmas.RossbyHaurwitz
