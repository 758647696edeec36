import Verif.Model.Sphere
import Mathlib.Analysis.SpecialFunctions.Sqrt
import Mathlib.Tactic.Ring
import Mathlib.Tactic.FieldSimp
import Mathlib.Tactic.LinearCombination
import Mathlib.Tactic.FinCases
import Mathlib.Tactic.NormNum
import Mathlib.Tactic.Positivity
import Mathlib.Tactic.Linarith

/-! # Helper lemmas for the sphere -/

namespace WxVerif.Sphere

open WxVerif.Cube (V3)
open WxVerif.Geom
open Real

theorem delta2_pos (X Y : ℝ) : 0 < delta2 X Y := by unfold delta2; positivity
theorem delta_pos (X Y : ℝ) : 0 < delta X Y := sqrt_pos.mpr (delta2_pos X Y)
theorem delta_sq (X Y : ℝ) : delta X Y ^ 2 = delta2 X Y := sq_sqrt (delta2_pos X Y).le
theorem delta_four (X Y : ℝ) : delta X Y ^ 4 = delta2 X Y ^ 2 := by rw [← delta_sq]; ring

/-- first column of the rotation -/
noncomputable def ax0 (o : Orientation) : V3 ℝ := (cos o.lon * cos o.lat, sin o.lon * cos o.lat, sin o.lat)
/-- second column of the rotation -/
noncomputable def ax1 (o : Orientation) : V3 ℝ :=
  (cos o.lon * sin o.lat * sin o.ang - sin o.lon * cos o.ang,
   sin o.lon * sin o.lat * sin o.ang + cos o.lon * cos o.ang, -(cos o.lat * sin o.ang))
/-- third column of the rotation -/
noncomputable def ax2 (o : Orientation) : V3 ℝ :=
  (-(cos o.lon * sin o.lat * cos o.ang + sin o.lon * sin o.ang),
   -(sin o.lon * sin o.lat * cos o.ang - cos o.lon * sin o.ang), cos o.lat * cos o.ang)

/-- the vector with coordinates `(a, b, c)` in the rotated frame -/
noncomputable def frame (o : Orientation) (a b c : ℝ) : V3 ℝ := a • ax0 o + b • ax1 o + c • ax2 o

theorem dot_add_left (a b c : V3 ℝ) : dot (a + b) c = dot a c + dot b c := by simp [dot]; ring
theorem dot_add_right (a b c : V3 ℝ) : dot a (b + c) = dot a b + dot a c := by simp [dot]; ring
theorem dot_smul_left (k : ℝ) (a b : V3 ℝ) : dot (k • a) b = k * dot a b := by simp [dot]; ring
theorem dot_smul_right (k : ℝ) (a b : V3 ℝ) : dot a (k • b) = k * dot a b := by simp [dot]; ring

theorem frame_orthonormal (o : Orientation) :
    dot (ax0 o) (ax0 o) = 1 ∧ dot (ax1 o) (ax1 o) = 1 ∧ dot (ax2 o) (ax2 o) = 1 ∧
    dot (ax0 o) (ax1 o) = 0 ∧ dot (ax1 o) (ax0 o) = 0 ∧ dot (ax0 o) (ax2 o) = 0 ∧ dot (ax2 o) (ax0 o) = 0 ∧
    dot (ax1 o) (ax2 o) = 0 ∧ dot (ax2 o) (ax1 o) = 0 := by
  have h1 := sin_sq_add_cos_sq o.lon
  have h2 := sin_sq_add_cos_sq o.lat
  have h3 := sin_sq_add_cos_sq o.ang
  simp only [dot, ax0, ax1, ax2]
  generalize sin o.lon = s1 at *; generalize cos o.lon = c1 at *
  generalize sin o.lat = s2 at *; generalize cos o.lat = c2 at *
  generalize sin o.ang = s3 at *; generalize cos o.ang = c3 at *
  refine ⟨?_, ?_, ?_, ?_, ?_, ?_, ?_, ?_, ?_⟩
  · linear_combination c2 ^ 2 * h1 + h2
  · linear_combination (s2 ^ 2 * s3 ^ 2 + c3 ^ 2) * h1 + s3 ^ 2 * h2 + h3
  · linear_combination (s2 ^ 2 * c3 ^ 2 + s3 ^ 2) * h1 + c3 ^ 2 * h2 + h3
  · linear_combination c2 * s2 * s3 * h1
  · linear_combination c2 * s2 * s3 * h1
  · linear_combination -(c2 * s2 * c3) * h1
  · linear_combination -(c2 * s2 * c3) * h1
  · linear_combination (s3 * c3 - s2 ^ 2 * s3 * c3) * h1 - s3 * c3 * h2
  · linear_combination (s3 * c3 - s2 ^ 2 * s3 * c3) * h1 - s3 * c3 * h2

theorem dot_frame (o : Orientation) (a b c a' b' c' : ℝ) :
    dot (frame o a b c) (frame o a' b' c') = a * a' + b * b' + c * c' := by
  obtain ⟨h1, h2, h3, h4, h5, h6, h7, h8, h9⟩ := frame_orthonormal o
  simp only [frame, dot_add_left, dot_add_right, dot_smul_left, dot_smul_right, h1, h2, h3, h4, h5, h6, h7, h8, h9]
  ring

theorem frame_ext {a b c a' b' c' : ℝ} (o : Orientation) (ha : a = a') (hb : b = b') (hc : c = c') :
    frame o a b c = frame o a' b' c' := by subst ha hb hc; rfl

theorem cart_eq_frame (o : Orientation) (r X Y : ℝ) :
    cart o r X Y = frame o (r / delta X Y) (r / delta X Y * X) (r / delta X Y * Y) := by
  simp only [cart, frame, ax0, ax1, ax2, Prod.smul_mk, Prod.mk_add_mk, smul_eq_mul, Prod.mk.injEq]
  refine ⟨?_, ?_, ?_⟩ <;> ring

/-- a curve with differentiable frame coordinates -/
theorem frame_hasDerivAt (o : Orientation) {a b c : ℝ → ℝ} {a' b' c' x : ℝ}
    (ha : HasDerivAt a a' x) (hb : HasDerivAt b b' x) (hc : HasDerivAt c c' x) :
    HasDerivAt (fun t => frame o (a t) (b t) (c t)) (frame o a' b' c') x := by
  unfold frame
  exact ((ha.smul_const _).add (hb.smul_const _)).add (hc.smul_const _)

theorem tan_hasDerivAt {x : ℝ} (h : cos x ≠ 0) : HasDerivAt tan (1 + tan x ^ 2) x := by
  have := Real.hasDerivAt_tan h
  have e : 1 / cos x ^ 2 = 1 + tan x ^ 2 := by
    rw [Real.tan_eq_sin_div_cos]; field_simp; linarith [sin_sq_add_cos_sq x]
  rwa [e] at this

theorem delta_comm (X Y : ℝ) : delta X Y = delta Y X := by unfold delta delta2; congr 1; ring
theorem delta2_comm (X Y : ℝ) : delta2 X Y = delta2 Y X := by unfold delta2; ring

theorem delta2_hasDerivAt1 {x : ℝ} (h : cos x ≠ 0) (Y : ℝ) :
    HasDerivAt (fun t => delta2 (tan t) Y) (2 * tan x * (1 + tan x ^ 2)) x := by
  have := ((((tan_hasDerivAt h).pow 2).const_add 1).add_const (Y ^ 2))
  unfold delta2
  exact this.congr_deriv (by push_cast; ring)

theorem delta_hasDerivAt1 {x : ℝ} (h : cos x ≠ 0) (Y : ℝ) :
    HasDerivAt (fun t => delta (tan t) Y) (tan x * (1 + tan x ^ 2) / delta (tan x) Y) x := by
  have := (delta2_hasDerivAt1 h Y).sqrt (delta2_pos _ _).ne'
  unfold delta
  have h0 : 0 < sqrt (delta2 (tan x) Y) := sqrt_pos.mpr (delta2_pos _ _)
  exact this.congr_deriv (by field_simp)

theorem inv_delta_hasDerivAt1 {x : ℝ} (h : cos x ≠ 0) (r Y : ℝ) :
    HasDerivAt (fun t => r / delta (tan t) Y) (-(r * tan x * (1 + tan x ^ 2)) / delta (tan x) Y ^ 3) x := by
  have hd := (delta_pos (tan x) Y).ne'
  have := (hasDerivAt_const x r).div (delta_hasDerivAt1 h Y) hd
  exact this.congr_deriv (by field_simp; ring)

/-- `∂(r/δ · X)/∂x₁` -/
theorem coordX_hasDerivAt1 {x : ℝ} (h : cos x ≠ 0) (r Y : ℝ) :
    HasDerivAt (fun t => r / delta (tan t) Y * tan t)
      (r * (1 + tan x ^ 2) * (1 + Y ^ 2) / delta (tan x) Y ^ 3) x := by
  have hd := (delta_pos (tan x) Y).ne'
  have := (inv_delta_hasDerivAt1 h r Y).mul (tan_hasDerivAt h)
  have h2 := delta_sq (tan x) Y
  unfold delta2 at h2
  exact this.congr_deriv (by field_simp; linear_combination r * h2)

theorem coordY_hasDerivAt1 {x : ℝ} (h : cos x ≠ 0) (r Y : ℝ) :
    HasDerivAt (fun t => r / delta (tan t) Y * Y)
      (-(r * tan x * (1 + tan x ^ 2)) / delta (tan x) Y ^ 3 * Y) x :=
  (inv_delta_hasDerivAt1 h r Y).mul_const Y

/-- tangent vectors of the sphere -/
noncomputable def tang (o : Orientation) (r X Y : ℝ) : Fin 2 → V3 ℝ
  | 0 => frame o (-(r * X * (1 + X ^ 2)) / delta X Y ^ 3) (r * (1 + X ^ 2) * (1 + Y ^ 2) / delta X Y ^ 3)
          (-(r * X * (1 + X ^ 2)) / delta X Y ^ 3 * Y)
  | 1 => frame o (-(r * Y * (1 + Y ^ 2)) / delta X Y ^ 3) (-(r * Y * (1 + Y ^ 2)) / delta X Y ^ 3 * X)
          (r * (1 + Y ^ 2) * (1 + X ^ 2) / delta X Y ^ 3)

theorem isTangentBasis_tang (o : Orientation) (r : ℝ) {x1 x2 : ℝ} (h1 : cos x1 ≠ 0) (h2 : cos x2 ≠ 0) :
    IsTangentBasis (position o r) x1 x2 (tang o r (tan x1) (tan x2)) := by
  constructor
  · simp only [position, cart_eq_frame, tang]
    exact frame_hasDerivAt o (inv_delta_hasDerivAt1 h1 r _) (coordX_hasDerivAt1 h1 r _)
      (coordY_hasDerivAt1 h1 r _)
  · simp only [position, cart_eq_frame, tang, delta_comm (tan x1)]
    exact frame_hasDerivAt o (inv_delta_hasDerivAt1 h2 r _) (coordY_hasDerivAt1 h2 r _)
      (coordX_hasDerivAt1 h2 r _)

theorem isInducedMetric_tang (o : Orientation) (r X Y : ℝ) :
    IsInducedMetric (tang o r X Y) (Hcov r X Y) := by
  have hd := delta_pos X Y
  have h2 := delta_sq X Y
  unfold delta2 at h2
  have key : X ^ 2 + (1 + Y ^ 2) ^ 2 + X ^ 2 * Y ^ 2 = (1 + Y ^ 2) * delta X Y ^ 2 := by rw [h2]; ring
  have key2 : Y ^ 2 + (1 + X ^ 2) ^ 2 + X ^ 2 * Y ^ 2 = (1 + X ^ 2) * delta X Y ^ 2 := by rw [h2]; ring
  intro i j
  fin_cases i <;> fin_cases j <;>
    simp only [tang, dot_frame, Hcov, Matrix.of_apply, Matrix.cons_val', Matrix.cons_val_zero, Matrix.cons_val_one,
      Fin.zero_eta, Fin.mk_one, Matrix.cons_val_fin_one] <;> field_simp
  · linear_combination -r ^ 2 * key
  · linear_combination -r ^ 2 * h2 * X * Y
  · linear_combination -r ^ 2 * h2 * X * Y
  · linear_combination -r ^ 2 * key2 - r ^ 2 * X ^ 2 * h2

end WxVerif.Sphere
