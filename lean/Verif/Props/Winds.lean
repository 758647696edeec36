import Verif.Lemmas.Winds
import Verif.Props.Metric2D

/-!
# C39 (two dimensions): physical and contravariant winds

The pole is where the horizontal distance to the axis vanishes (`denom2 = 0`, see `off_pole_iff`).
-/

namespace WxVerif.Props.Winds

open WxVerif.Cube (V3)
open WxVerif.Geom WxVerif.Sphere
open WxVerif.Props.Metric2D (elementPosition elementCoord_hasDerivAt)
open Real

/-- A grid point is off the poles: the distance to the rotation axis is not zero. -/
def OffPole (p : V3 ℝ) : Prop := p.1 ≠ 0 ∨ p.2.1 ≠ 0

theorem off_pole_iff (o : Orientation) {r : ℝ} (hr : 0 < r) (X Y : ℝ) :
    OffPole (cart o r X Y) ↔ denom2 o X Y ≠ 0 := by
  have hd := delta_pos X Y
  have h := hypot_cart o hr X Y
  have h0 : 0 ≤ denom2 o X Y := by unfold denom2; positivity
  constructor
  · rintro hp h1
    rw [h1, sqrt_zero, mul_zero, hypot, sqrt_eq_zero (by positivity)] at h
    rcases hp with hp | hp
    · have : 0 < (cart o r X Y).1 ^ 2 := by positivity
      nlinarith [sq_nonneg (cart o r X Y).2.1]
    · have : 0 < (cart o r X Y).2.1 ^ 2 := by positivity
      nlinarith [sq_nonneg (cart o r X Y).1]
  · intro h1
    by_contra h2
    simp only [OffPole, not_or, not_not] at h2
    rw [h2.1, h2.2, hypot] at h
    simp only [ne_eq, OfNat.ofNat_ne_zero, not_false_eq_true, zero_pow, add_zero, sqrt_zero] at h
    have : 0 < sqrt (denom2 o X Y) := sqrt_pos.mpr (lt_of_le_of_ne h0 (Ne.symm h1))
    have : 0 < r / delta X Y * sqrt (denom2 o X Y) := by positivity
    linarith

/-- frame coordinates of the vector `u E + v N` -/
theorem east_north_frame (o : Orientation) {r : ℝ} (hr : 0 < r) {X Y : ℝ} (h : denom2 o X Y ≠ 0) (u v : ℝ) :
    u • eastUnit (pointLon o r X Y) + v • northUnit (pointLon o r X Y) (pointLat o r X Y) =
      (1 / (sqrt (denom2 o X Y) * delta X Y)) • frame o
        (-u * cos o.lat * relB o X Y * delta X Y
          + v * (-(gridrot o X Y) * relA o X Y * cos o.lat + denom2 o X Y * sin o.lat))
        (u * (-(sin o.lat * sin o.ang * relB o X Y) + cos o.ang * relA o X Y) * delta X Y
          + v * (-(gridrot o X Y) * (sin o.lat * sin o.ang * relA o X Y + cos o.ang * relB o X Y)
            - denom2 o X Y * cos o.lat * sin o.ang))
        (u * (sin o.lat * cos o.ang * relB o X Y + sin o.ang * relA o X Y) * delta X Y
          + v * (-(gridrot o X Y) * (-(sin o.lat * cos o.ang * relA o X Y) + sin o.ang * relB o X Y)
            + denom2 o X Y * cos o.lat * cos o.ang)) := by
  have hd := delta_pos X Y
  have h0 : 0 < denom2 o X Y := lt_of_le_of_ne (by unfold denom2; positivity) (Ne.symm h)
  have hs := sqrt_pos.mpr h0
  have hq : sqrt (denom2 o X Y) ^ 2 = denom2 o X Y := sq_sqrt h0.le
  have h1 := sin_sq_add_cos_sq o.lon
  rw [eq_frame o (u • eastUnit (pointLon o r X Y) + v • northUnit (pointLon o r X Y) (pointLat o r X Y))]
  have sm : ∀ k a b c : ℝ, k • frame o a b c = frame o (k * a) (k * b) (k * c) := by
    intro k a b c; simp only [frame, smul_add, smul_smul]
  rw [sm]
  have key : ∀ q δ A B G D2 s1 c1 s2 c2 s3 c3 : ℝ, 0 < q → 0 < δ → q ^ 2 = D2 → s1 ^ 2 + c1 ^ 2 = 1 →
      (u * -((s1 * A + c1 * B) / q) + v * (-(G / δ) * ((c1 * A - s1 * B) / q))) * (c1 * c2) +
        (u * ((c1 * A - s1 * B) / q) + v * (-(G / δ) * ((s1 * A + c1 * B) / q))) * (s1 * c2) +
        (u * 0 + v * (q / δ)) * s2
        = 1 / (q * δ) * (-u * c2 * B * δ + v * (-G * A * c2 + D2 * s2)) ∧
      (u * -((s1 * A + c1 * B) / q) + v * (-(G / δ) * ((c1 * A - s1 * B) / q))) * (c1 * s2 * s3 - s1 * c3) +
        (u * ((c1 * A - s1 * B) / q) + v * (-(G / δ) * ((s1 * A + c1 * B) / q))) * (s1 * s2 * s3 + c1 * c3) +
        (u * 0 + v * (q / δ)) * -(c2 * s3)
        = 1 / (q * δ) * (u * (-(s2 * s3 * B) + c3 * A) * δ + v * (-G * (s2 * s3 * A + c3 * B) - D2 * c2 * s3)) ∧
      (u * -((s1 * A + c1 * B) / q) + v * (-(G / δ) * ((c1 * A - s1 * B) / q))) * -(c1 * s2 * c3 + s1 * s3) +
        (u * ((c1 * A - s1 * B) / q) + v * (-(G / δ) * ((s1 * A + c1 * B) / q))) * -(s1 * s2 * c3 - c1 * s3) +
        (u * 0 + v * (q / δ)) * (c2 * c3)
        = 1 / (q * δ) * (u * (s2 * c3 * B + s3 * A) * δ + v * (-G * (-(s2 * c3 * A) + s3 * B) + D2 * c2 * c3)) := by
    intro q δ A B G D2 s1 c1 s2 c2 s3 c3 hq hδ hD h1
    subst hD
    refine ⟨?_, ?_, ?_⟩ <;> field_simp
    · linear_combination (-(c2 * u * B * δ) - c2 * A * v * G) * h1
    · linear_combination (u * A * δ * c3 - u * B * δ * s2 * s3 - A * v * G * s2 * s3 - B * v * G * c3) * h1
    · linear_combination (u * A * δ * s3 + u * B * δ * s2 * c3 + A * v * G * s2 * c3 - B * v * G * s3) * h1
  obtain ⟨k0, k1, k2⟩ := key (sqrt (denom2 o X Y)) (delta X Y) (relA o X Y) (relB o X Y) (gridrot o X Y) (denom2 o X Y)
    (sin o.lon) (cos o.lon) (sin o.lat) (cos o.lat) (sin o.ang) (cos o.ang) hs hd hq h1
  apply frame_ext <;>
    simp only [dot, eastUnit, northUnit, ax0, ax1, ax2, Prod.fst_add, Prod.snd_add, Prod.smul_fst, Prod.smul_snd,
      smul_eq_mul, sin_pointLat o hr, cos_pointLat o hr, sin_pointLon o hr, cos_pointLon o hr h]
  · exact k0
  · exact k1
  · exact k2

/-- frame coordinates of the vector with contravariant components `a, b` -/
theorem tang_comb (o : Orientation) (r X Y a b : ℝ) :
    a • tang o r X Y 0 + b • tang o r X Y 1 = (r / delta X Y ^ 3) • frame o
      (-(X * (1 + X ^ 2) * a) - Y * (1 + Y ^ 2) * b)
      ((1 + X ^ 2) * (1 + Y ^ 2) * a - X * Y * (1 + Y ^ 2) * b)
      (-(X * Y * (1 + X ^ 2) * a) + (1 + X ^ 2) * (1 + Y ^ 2) * b) := by
  have sm : ∀ k a b c : ℝ, k • frame o a b c = frame o (k * a) (k * b) (k * c) := by
    intro k a b c; simp only [frame, smul_add, smul_smul]
  have ad : ∀ a b c a' b' c' : ℝ, frame o a b c + frame o a' b' c' = frame o (a + a') (b + b') (c + c') := by
    intro a b c a' b' c'; simp only [frame, add_smul]; abel
  simp only [tang, sm, ad]
  apply frame_ext <;> ring

/-- the algebra behind the conversions -/
theorem trig_id (o : Orientation) (X Y : ℝ) :
    let A := relA o X Y; let B := relB o X Y; let G := gridrot o X Y
    let s2 := sin o.lat; let c2 := cos o.lat; let s3 := sin o.ang; let c3 := cos o.ang
    let m1 := (1 + X ^ 2) * (c2 * c3) + X * Y * c2 * s3 - Y * s2
    let m2 := X * Y * c2 * c3 + X * s2 + (1 + Y ^ 2) * (c2 * s3)
    let n1 := -(c2 * s3 + X * s2)
    let n2 := c2 * c3 - Y * s2
    X * m1 + Y * m2 = c2 * B * delta2 X Y ∧
    X * n1 + Y * n2 = G * A * c2 - denom2 o X Y * s2 ∧
    (1 + Y ^ 2) * m1 - X * Y * m2 = delta2 X Y * (-(s2 * s3 * B) + c3 * A) ∧
    (1 + Y ^ 2) * n1 - X * Y * n2 = -G * (s2 * s3 * A + c3 * B) - denom2 o X Y * c2 * s3 ∧
    -(X * Y * m1) + (1 + X ^ 2) * m2 = delta2 X Y * (s2 * c3 * B + s3 * A) ∧
    -(X * Y * n1) + (1 + X ^ 2) * n2 = -G * (-(s2 * c3 * A) + s3 * B) + denom2 o X Y * c2 * c3 := by
  intro A B G s2 c2 s3 c3 m1 m2 n1 n2
  have h2 : s2 ^ 2 + c2 ^ 2 = 1 := sin_sq_add_cos_sq o.lat
  have h3 : s3 ^ 2 + c3 ^ 2 = 1 := sin_sq_add_cos_sq o.ang
  have hD : denom2 o X Y = delta2 X Y - G ^ 2 := by
    have := rel_sq o X Y
    have e : denom2 o X Y = relA o X Y ^ 2 + relB o X Y ^ 2 := rfl
    rw [e]; simp only [G]; linarith
  have hA : A = c2 + X * s2 * s3 - Y * s2 * c3 := rfl
  have hB : B = X * c3 + Y * s3 := rfl
  have hG : G = s2 - X * c2 * s3 + Y * c2 * c3 := rfl
  have k1 : A * c2 + G * s2 = 1 := by rw [hA, hG]; linear_combination h2
  have k2 : s2 * s3 * A + c3 * B - G * c2 * s3 = X := by
    rw [hA, hB, hG]; linear_combination (X * s3 ^ 2 - Y * s3 * c3) * h2 + X * h3
  have k3 : -(s2 * c3 * A) + s3 * B + G * c2 * c3 = Y := by
    rw [hA, hB, hG]; linear_combination (Y * c3 ^ 2 - X * s3 * c3) * h2 + Y * h3
  have hδ : delta2 X Y = 1 + X ^ 2 + Y ^ 2 := rfl
  rw [hD, hδ]
  simp only [m1, m2, n1, n2]
  refine ⟨?_, ?_, ?_, ?_, ?_, ?_⟩
  · rw [hB]; ring
  · linear_combination -G * k1 - hG
  · rw [hA, hB]; linear_combination ((1 + X ^ 2 + Y ^ 2) * Y * s2) * h3
  · linear_combination G * k2 + X * hG
  · rw [hA, hB]; linear_combination (-(1 + X ^ 2 + Y ^ 2) * X * s2) * h3
  · linear_combination G * k3 + Y * hG

/-- **C39.** Contravariant components computed from a physical wind represent that wind: the vector with
these components on the tangent basis of the element coordinates is `u · east + v · north`. -/
theorem C39_wind2contra (o : Orientation) {r : ℝ} (hr : 0 < r) (s1 s2 : ℝ) {d1 d2 : ℝ} (hd1 : d1 ≠ 0) (hd2 : d2 ≠ 0)
    (e1 e2 : Nat) {ξ1 ξ2 : ℝ}
    (h1 : cos (elementCoord s1 d1 e1 ξ1) ≠ 0) (h2 : cos (elementCoord s2 d2 e2 ξ2) ≠ 0)
    (hp : OffPole (elementPosition o r s1 s2 d1 d2 e1 e2 ξ1 ξ2))
    {t : Fin 2 → V3 ℝ} (ht : IsTangentBasis (elementPosition o r s1 s2 d1 d2 e1 e2) ξ1 ξ2 t) (u v : ℝ) :
    let X := tan (elementCoord s1 d1 e1 ξ1)
    let Y := tan (elementCoord s2 d2 e2 ξ2)
    let c := wind2contra o r d1 d2 (cos (pointLat o r X Y)) X Y u v
    c.1 • t 0 + c.2 • t 1 =
      u • eastUnit (pointLon o r X Y) + v • northUnit (pointLon o r X Y) (pointLat o r X Y) := by
  intro X Y c
  have hp' : denom2 o X Y ≠ 0 := (off_pole_iff o hr X Y).mp hp
  obtain ⟨ht1, ht2⟩ := isTangentBasis_tang o r h1 h2
  have e0 : t 0 = (d1 / 2) • tang o r X Y 0 := ht.1.unique (ht1.scomp ξ1 (elementCoord_hasDerivAt s1 d1 e1 ξ1))
  have e1 : t 1 = (d2 / 2) • tang o r X Y 1 := ht.2.unique (ht2.scomp ξ2 (elementCoord_hasDerivAt s2 d2 e2 ξ2))
  rw [e0, e1, smul_smul, smul_smul, tang_comb, east_north_frame o hr hp']
  have sm : ∀ k a b c : ℝ, k • frame o a b c = frame o (k * a) (k * b) (k * c) := by
    intro k a b c; simp only [frame, smul_add, smul_smul]
  rw [sm, sm]
  have hd := delta_pos X Y
  have h0 : 0 < denom2 o X Y := lt_of_le_of_ne (by unfold denom2; positivity) (Ne.symm hp')
  have hs := sqrt_pos.mpr h0
  have hq : sqrt (denom2 o X Y) ^ 2 = denom2 o X Y := sq_sqrt h0.le
  have hδ := delta_sq X Y
  have hX : (0:ℝ) < 1 + X ^ 2 := by positivity
  have hY : (0:ℝ) < 1 + Y ^ 2 := by positivity
  obtain ⟨i1, i2, i3, i4, i5, i6⟩ := trig_id o X Y
  have ca : (1 + X ^ 2) * (c.1 * (d1 / 2)) = ((1 + X ^ 2) * (cos o.lat * cos o.ang) + X * Y * cos o.lat * sin o.ang
      - Y * sin o.lat) * (u * delta X Y / (r * sqrt (denom2 o X Y)))
      + delta2 X Y * -(cos o.lat * sin o.ang + X * sin o.lat) * (v / r) / sqrt (denom2 o X Y) := by
    simp only [c, wind2contra, cos_pointLat o hr]; field_simp
    ring
  have cb : (1 + Y ^ 2) * (c.2 * (d2 / 2)) = (X * Y * cos o.lat * cos o.ang + X * sin o.lat
      + (1 + Y ^ 2) * (cos o.lat * sin o.ang)) * (u * delta X Y / (r * sqrt (denom2 o X Y)))
      + delta2 X Y * (cos o.lat * cos o.ang - Y * sin o.lat) * (v / r) / sqrt (denom2 o X Y) := by
    simp only [c, wind2contra, cos_pointLat o hr]; field_simp
  generalize c.1 * (d1 / 2) = a at *
  generalize c.2 * (d2 / 2) = b at *
  apply frame_ext
  · rw [show -(X * (1 + X ^ 2) * a) - Y * (1 + Y ^ 2) * b = -(X * ((1 + X ^ 2) * a)) - Y * ((1 + Y ^ 2) * b) by ring,
      ca, cb, ← hδ] at *
    field_simp
    linear_combination -u * i1 - v * delta X Y * i2
  · rw [show (1 + X ^ 2) * (1 + Y ^ 2) * a - X * Y * (1 + Y ^ 2) * b
      = (1 + Y ^ 2) * ((1 + X ^ 2) * a) - X * Y * ((1 + Y ^ 2) * b) by ring, ca, cb, ← hδ] at *
    field_simp
    linear_combination u * i3 + v * delta X Y * i4
  · rw [show -(X * Y * (1 + X ^ 2) * a) + (1 + X ^ 2) * (1 + Y ^ 2) * b
      = -(X * Y * ((1 + X ^ 2) * a)) + (1 + X ^ 2) * ((1 + Y ^ 2) * b) by ring, ca, cb, ← hδ] at *
    field_simp
    linear_combination u * i5 + v * delta X Y * i6

theorem det_id (o : Orientation) (X Y : ℝ) :
    ((1 + X ^ 2) * (cos o.lat * cos o.ang) + X * Y * cos o.lat * sin o.ang - Y * sin o.lat)
        * (cos o.lat * cos o.ang - Y * sin o.lat)
      + (X * Y * cos o.lat * cos o.ang + X * sin o.lat + (1 + Y ^ 2) * (cos o.lat * sin o.ang))
        * (cos o.lat * sin o.ang + X * sin o.lat) = denom2 o X Y := by
  have h2 := sin_sq_add_cos_sq o.lat
  have h3 := sin_sq_add_cos_sq o.ang
  unfold denom2
  generalize sin o.lat = s2 at *; generalize cos o.lat = c2 at *
  generalize sin o.ang = s3 at *; generalize cos o.ang = c3 at *
  linear_combination (c2 ^ 2 - s2 ^ 2 * (X ^ 2 + Y ^ 2)) * h3 + (X * c3 + Y * s3) ^ 2 * h2

/-- **C39.** Contravariant components of a physical wind convert back to the same wind, off the poles. -/
theorem C39_roundtrip_wind (o : Orientation) {r : ℝ} (hr : 0 < r) {d1 d2 : ℝ} (hd1 : d1 ≠ 0) (hd2 : d2 ≠ 0)
    {X Y : ℝ} (hp : OffPole (cart o r X Y)) {rad : ℝ} (hrad : rad ≠ 0) (u v : ℝ) :
    let c := wind2contra o rad d1 d2 (cos (pointLat o r X Y)) X Y u v
    contra2wind o rad d1 d2 (cos (pointLat o r X Y)) X Y c.1 c.2 = (u, v) := by
  have hp' : denom2 o X Y ≠ 0 := (off_pole_iff o hr X Y).mp hp
  have hd := delta_pos X Y
  have hd2 := delta2_pos X Y
  have h0 : 0 < denom2 o X Y := lt_of_le_of_ne (by unfold denom2; positivity) (Ne.symm hp')
  have hs := sqrt_pos.mpr h0
  have hq : sqrt (denom2 o X Y) ^ 2 = denom2 o X Y := sq_sqrt h0.le
  have hX : (0:ℝ) < 1 + X ^ 2 := by positivity
  have hY : (0:ℝ) < 1 + Y ^ 2 := by positivity
  have i := det_id o X Y
  simp only [wind2contra, contra2wind, cos_pointLat o hr, Prod.mk.injEq]
  generalize sqrt (denom2 o X Y) = q at *
  generalize denom2 o X Y = D at *
  subst hq
  constructor
  · field_simp
    linear_combination u * delta X Y * i
  · field_simp
    linear_combination v * delta2 X Y * i

/-- **C39.** Physical winds of contravariant components convert back to the same components. -/
theorem C39_roundtrip_contra (o : Orientation) {r : ℝ} (hr : 0 < r) {d1 d2 : ℝ} (hd1 : d1 ≠ 0) (hd2 : d2 ≠ 0)
    {X Y : ℝ} (hp : OffPole (cart o r X Y)) {rad : ℝ} (hrad : rad ≠ 0) (u1 u2 : ℝ) :
    let w := contra2wind o rad d1 d2 (cos (pointLat o r X Y)) X Y u1 u2
    wind2contra o rad d1 d2 (cos (pointLat o r X Y)) X Y w.1 w.2 = (u1, u2) := by
  have hp' : denom2 o X Y ≠ 0 := (off_pole_iff o hr X Y).mp hp
  have hd := delta_pos X Y
  have hdd := delta2_pos X Y
  have h0 : 0 < denom2 o X Y := lt_of_le_of_ne (by unfold denom2; positivity) (Ne.symm hp')
  have hs := sqrt_pos.mpr h0
  have hq : sqrt (denom2 o X Y) ^ 2 = denom2 o X Y := sq_sqrt h0.le
  have hX : (0:ℝ) < 1 + X ^ 2 := by positivity
  have hY : (0:ℝ) < 1 + Y ^ 2 := by positivity
  have i := det_id o X Y
  simp only [wind2contra, contra2wind, cos_pointLat o hr, Prod.mk.injEq]
  generalize sqrt (denom2 o X Y) = q at *
  generalize denom2 o X Y = D at *
  subst hq
  constructor
  · field_simp
    linear_combination u1 * d1 * (1 + X ^ 2) * i
  · field_simp
    linear_combination u2 * d2 * (1 + Y ^ 2) * i

/-- **C39.** The physical wind computed from contravariant components is the zonal/meridional
decomposition of the vector with these components on the tangent basis of the element coordinates. -/
theorem C39_contra2wind (o : Orientation) {r : ℝ} (hr : 0 < r) (s1 s2 : ℝ) {d1 d2 : ℝ} (hd1 : d1 ≠ 0) (hd2 : d2 ≠ 0)
    (e1 e2 : Nat) {ξ1 ξ2 : ℝ}
    (h1 : cos (elementCoord s1 d1 e1 ξ1) ≠ 0) (h2 : cos (elementCoord s2 d2 e2 ξ2) ≠ 0)
    (hp : OffPole (elementPosition o r s1 s2 d1 d2 e1 e2 ξ1 ξ2))
    {t : Fin 2 → V3 ℝ} (ht : IsTangentBasis (elementPosition o r s1 s2 d1 d2 e1 e2) ξ1 ξ2 t) (u1 u2 : ℝ) :
    let X := tan (elementCoord s1 d1 e1 ξ1)
    let Y := tan (elementCoord s2 d2 e2 ξ2)
    let w := contra2wind o r d1 d2 (cos (pointLat o r X Y)) X Y u1 u2
    w.1 • eastUnit (pointLon o r X Y) + w.2 • northUnit (pointLon o r X Y) (pointLat o r X Y) =
      u1 • t 0 + u2 • t 1 := by
  intro X Y w
  have a := C39_wind2contra o hr s1 s2 hd1 hd2 e1 e2 h1 h2 hp ht w.1 w.2
  have b := C39_roundtrip_contra o hr hd1 hd2 (X := X) (Y := Y) hp hr.ne' u1 u2
  simp only [X, Y, w] at a b ⊢
  rw [← a, b]

/-- The longitude and latitude of a grid point are those of its Cartesian position. -/
theorem C39_cart2sph (p : V3 ℝ) (h : OffPole p) :
    sph2cart (cart2sph p).1 (cart2sph p).2.1 (cart2sph p).2.2 = p := by
  have h1 : 0 < hypot p.1 p.2.1 := by
    unfold hypot; apply sqrt_pos.mpr
    rcases h with h | h <;> positivity
  have h2 : 0 < hypot (hypot p.1 p.2.1) p.2.2 := by
    unfold hypot at h1 ⊢; apply sqrt_pos.mpr; positivity
  have sl : sin (cart2sph p).2.1 = p.2.2 / hypot (hypot p.1 p.2.1) p.2.2 := sin_atan2 _ _
  have cl : cos (cart2sph p).2.1 = hypot p.1 p.2.1 / hypot (hypot p.1 p.2.1) p.2.2 := cos_atan2 h2.ne'
  have hr : (cart2sph p).2.2 = hypot (hypot p.1 p.2.1) p.2.2 := rfl
  simp only [sph2cart, sin_az, cos_az h1.ne', sl, cl, hr]
  obtain ⟨a, b, c⟩ := p
  simp only [Prod.mk.injEq] at *
  refine ⟨?_, ?_, ?_⟩ <;> field_simp

/-- The hypotheses of the wind theorems are met: an element of an equatorial panel, at its centre. -/
example : cos (elementCoord (-(π / 4)) (π / 2) 0 0) ≠ 0 ∧
    OffPole (elementPosition ⟨0, 0, 0⟩ 6371220 (-(π / 4)) (-(π / 4)) (π / 2) (π / 2) 0 0 0 0) := by
  have e : elementCoord (-(π / 4)) (π / 2) 0 0 = 0 := by unfold elementCoord; simp; ring
  refine ⟨by rw [e]; simp, Or.inl ?_⟩
  simp [elementPosition, e, position, cart, delta, delta2]

end WxVerif.Props.Winds
