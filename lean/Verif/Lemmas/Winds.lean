import Verif.Model.Winds
import Verif.Lemmas.Sphere

/-! # Helper lemmas for the wind conversions -/

namespace WxVerif.Sphere

open WxVerif.Cube (V3)
open WxVerif.Geom
open Real

theorem hypot_sq (x y : ℝ) : hypot x y ^ 2 = x ^ 2 + y ^ 2 := sq_sqrt (by positivity)
theorem hypot_nonneg (x y : ℝ) : 0 ≤ hypot x y := sqrt_nonneg _

theorem norm_mk (x y : ℝ) : ‖(⟨x, y⟩ : ℂ)‖ = hypot x y := by
  rw [Complex.norm_def, Complex.normSq_mk, hypot]; congr 1; ring

theorem sin_atan2 (y x : ℝ) : sin (atan2 y x) = y / hypot x y := by
  rw [atan2, Complex.sin_arg, norm_mk]

theorem cos_atan2 {y x : ℝ} (h : hypot x y ≠ 0) : cos (atan2 y x) = x / hypot x y := by
  have : (⟨x, y⟩ : ℂ) ≠ 0 := by
    intro h0; apply h; rw [← norm_mk, h0, norm_zero]
  rw [atan2, Complex.cos_arg this, norm_mk]

theorem sin_az (p : V3 ℝ) : sin (cart2sph p).1 = p.2.1 / hypot p.1 p.2.1 := by
  simp only [cart2sph]; split_ifs <;> simp [sin_atan2]

theorem cos_az {p : V3 ℝ} (h : hypot p.1 p.2.1 ≠ 0) : cos (cart2sph p).1 = p.1 / hypot p.1 p.2.1 := by
  simp only [cart2sph]; split_ifs <;> simp [cos_atan2 h]

/-- every vector is determined by its frame coordinates -/
theorem eq_frame (o : Orientation) (v : V3 ℝ) : v = frame o (dot v (ax0 o)) (dot v (ax1 o)) (dot v (ax2 o)) := by
  have h1 := sin_sq_add_cos_sq o.lon
  have h2 := sin_sq_add_cos_sq o.lat
  have h3 := sin_sq_add_cos_sq o.ang
  obtain ⟨a, b, c⟩ := v
  simp only [frame, dot, ax0, ax1, ax2, Prod.smul_mk, Prod.mk_add_mk, smul_eq_mul, Prod.mk.injEq]
  generalize sin o.lon = s1 at *; generalize cos o.lon = c1 at *
  generalize sin o.lat = s2 at *; generalize cos o.lat = c2 at *
  generalize sin o.ang = s3 at *; generalize cos o.ang = c3 at *
  refine ⟨?_, ?_, ?_⟩
  · linear_combination -a * ((c1 ^ 2 * s2 ^ 2 + s1 ^ 2) * h3 + c1 ^ 2 * h2 + h1)
      - b * (c1 * s1 * (s2 ^ 2 * h3 - h3 + h2)) + c * (c1 * c2 * s2 * h3)
  · linear_combination -b * ((s1 ^ 2 * s2 ^ 2 + c1 ^ 2) * h3 + s1 ^ 2 * h2 + h1)
      - a * (c1 * s1 * (s2 ^ 2 * h3 - h3 + h2)) + c * (s1 * c2 * s2 * h3)
  · linear_combination a * (c1 * c2 * s2 * h3) + b * (s1 * c2 * s2 * h3) - c * (c2 ^ 2 * h3 + h2)

/-- the horizontal coordinates relative to the longitude of the panel -/
noncomputable def relA (o : Orientation) (X Y : ℝ) : ℝ :=
  cos o.lat + X * sin o.lat * sin o.ang - Y * sin o.lat * cos o.ang
noncomputable def relB (o : Orientation) (X Y : ℝ) : ℝ := X * cos o.ang + Y * sin o.ang

theorem cart_rel (o : Orientation) (r X Y : ℝ) : cart o r X Y =
    (r / delta X Y * (cos o.lon * relA o X Y - sin o.lon * relB o X Y),
     r / delta X Y * (sin o.lon * relA o X Y + cos o.lon * relB o X Y), r / delta X Y * gridrot o X Y) := by
  simp only [cart, relA, relB, gridrot, Prod.mk.injEq]
  refine ⟨by ring, by ring, trivial⟩

theorem rel_sq (o : Orientation) (X Y : ℝ) : relA o X Y ^ 2 + relB o X Y ^ 2 + gridrot o X Y ^ 2 = delta2 X Y := by
  have h2 := sin_sq_add_cos_sq o.lat
  have h3 := sin_sq_add_cos_sq o.ang
  simp only [relA, relB, gridrot, delta2]
  generalize sin o.lat = s2 at *; generalize cos o.lat = c2 at *
  generalize sin o.ang = s3 at *; generalize cos o.ang = c3 at *
  linear_combination (1 + (X * s3 - Y * c3) ^ 2) * h2 + (X ^ 2 + Y ^ 2) * h3

theorem hypot_cart (o : Orientation) {r : ℝ} (hr : 0 < r) (X Y : ℝ) :
    hypot (cart o r X Y).1 (cart o r X Y).2.1 = r / delta X Y * sqrt (denom2 o X Y) := by
  have hd := delta_pos X Y
  have h1 := sin_sq_add_cos_sq o.lon
  rw [cart_rel, hypot]
  have e : (r / delta X Y * (cos o.lon * relA o X Y - sin o.lon * relB o X Y)) ^ 2
      + (r / delta X Y * (sin o.lon * relA o X Y + cos o.lon * relB o X Y)) ^ 2
      = (r / delta X Y) ^ 2 * denom2 o X Y := by
    have : denom2 o X Y = relA o X Y ^ 2 + relB o X Y ^ 2 := rfl
    rw [this]
    linear_combination (r / delta X Y) ^ 2 * (relA o X Y ^ 2 + relB o X Y ^ 2) * h1
  simp only [e]
  rw [sqrt_mul (by positivity), sqrt_sq (by positivity)]

theorem hypot_cart3 (o : Orientation) {r : ℝ} (hr : 0 < r) (X Y : ℝ) :
    hypot (hypot (cart o r X Y).1 (cart o r X Y).2.1) (cart o r X Y).2.2 = r := by
  have hd := delta_pos X Y
  have hs := delta_sq X Y
  have hr2 := rel_sq o X Y
  have : denom2 o X Y = relA o X Y ^ 2 + relB o X Y ^ 2 := rfl
  rw [hypot_cart o hr, hypot, cart_rel, mul_pow, sq_sqrt (by rw [this]; positivity), mul_pow, ← mul_add, this, hr2, ← hs]
  rw [← mul_pow, sqrt_sq (by positivity)]
  field_simp

theorem sin_pointLat (o : Orientation) {r : ℝ} (hr : 0 < r) (X Y : ℝ) :
    sin (pointLat o r X Y) = gridrot o X Y / delta X Y := by
  have hd := delta_pos X Y
  simp only [pointLat, cart2sph, sin_atan2, hypot_cart3 o hr]
  rw [cart_rel]; field_simp

theorem cos_pointLat (o : Orientation) {r : ℝ} (hr : 0 < r) (X Y : ℝ) :
    cos (pointLat o r X Y) = sqrt (denom2 o X Y) / delta X Y := by
  have hd := delta_pos X Y
  simp only [pointLat, cart2sph]
  rw [cos_atan2 (by rw [hypot_cart3 o hr]; exact hr.ne'), hypot_cart3 o hr, hypot_cart o hr]
  field_simp

theorem sin_pointLon (o : Orientation) {r : ℝ} (hr : 0 < r) (X Y : ℝ) :
    sin (pointLon o r X Y) = (sin o.lon * relA o X Y + cos o.lon * relB o X Y) / sqrt (denom2 o X Y) := by
  have hd := delta_pos X Y
  simp only [pointLon, sin_az, hypot_cart o hr]
  rw [cart_rel]; field_simp

theorem cos_pointLon (o : Orientation) {r : ℝ} (hr : 0 < r) {X Y : ℝ} (h : denom2 o X Y ≠ 0) :
    cos (pointLon o r X Y) = (cos o.lon * relA o X Y - sin o.lon * relB o X Y) / sqrt (denom2 o X Y) := by
  have hd := delta_pos X Y
  have h0 : 0 < denom2 o X Y := lt_of_le_of_ne (by unfold denom2; positivity) (Ne.symm h)
  have hs := sqrt_pos.mpr h0
  simp only [pointLon]
  rw [cos_az (by rw [hypot_cart o hr]; positivity), hypot_cart o hr, cart_rel]
  field_simp

end WxVerif.Sphere
