import Verif.Model.Panels
import Verif.Lemmas.Winds
import Verif.Props.Topology
import Mathlib.Analysis.SpecialFunctions.Trigonometric.Inverse
import Mathlib.Tactic.IntervalCases
import Mathlib.Analysis.Real.Pi.Bounds
import Mathlib.Analysis.SpecialFunctions.Trigonometric.Arctan
import Mathlib.Tactic.Abel

/-!
# C48: the panels tile the sphere
-/

namespace WxVerif.Props.Panels

open WxVerif.Cube (V3 point normal eastward northward)
open WxVerif.Geom WxVerif.Sphere
open Real

/-- The rotation of the whole grid applied to a vector: its coordinates in the frame of panel 0. -/
noncomputable def rotate (o : Orientation) (v : V3 ℝ) : V3 ℝ := frame o v.1 v.2.1 v.2.2

/-- An orientation computed from a right-handed orthonormal triple by `atan2`/`arcsin` has this triple as
its frame, when the first vector is not vertical. -/
theorem orient_of_triple {n e f : V3 ℝ} (hn : n.1 ^ 2 + n.2.1 ^ 2 + n.2.2 ^ 2 = 1) (he : e.1 ^ 2 + e.2.1 ^ 2 + e.2.2 ^ 2 = 1)
    (hne : n.1 * e.1 + n.2.1 * e.2.1 + n.2.2 * e.2.2 = 0)
    (hf1 : f.1 = n.2.1 * e.2.2 - n.2.2 * e.2.1) (hf2 : f.2.1 = n.2.2 * e.1 - n.1 * e.2.2)
    (hf3 : f.2.2 = n.1 * e.2.1 - n.2.1 * e.1) (hv : n.2.2 ^ 2 ≠ 1) {o : Orientation}
    (hlon : cos o.lon = n.1 / hypot n.1 n.2.1 ∧ sin o.lon = n.2.1 / hypot n.1 n.2.1)
    (hlat : sin o.lat = n.2.2 ∧ 0 ≤ cos o.lat)
    (hang : cos o.ang = f.2.2 / hypot f.2.2 e.2.2 ∧ sin o.ang = -e.2.2 / hypot f.2.2 e.2.2) :
    ax0 o = n ∧ ax1 o = e ∧ ax2 o = f := by
  obtain ⟨a, b, c⟩ := n
  obtain ⟨e1, e2, e3⟩ := e
  obtain ⟨f1, f2, f3⟩ := f
  simp only at *
  have hab : 0 < a ^ 2 + b ^ 2 := by
    have h0 : 0 ≤ a ^ 2 + b ^ 2 := by positivity
    rcases h0.lt_or_eq with h | h
    · exact h
    · exfalso; apply hv; linarith
  have hef : f3 ^ 2 + e3 ^ 2 = a ^ 2 + b ^ 2 := by
    rw [hf3]
    linear_combination (a ^ 2 + b ^ 2) * he + (-(a * e1) - b * e2 + c * e3) * hne - e3 ^ 2 * hn
  have hq : hypot f3 e3 = hypot a b := by unfold hypot; rw [hef]
  have hq0 : 0 < hypot a b := sqrt_pos.mpr hab
  have hqs := hypot_sq a b
  have hcl : cos o.lat = hypot a b := by
    have h1 : cos o.lat ^ 2 = hypot a b ^ 2 := by
      have := sin_sq_add_cos_sq o.lat
      rw [hlat.1] at this
      rw [hqs]; linarith
    have := abs_eq_abs.mpr (sq_eq_sq_iff_eq_or_eq_neg.mp h1)
    rwa [abs_of_nonneg hlat.2, abs_of_pos hq0] at this
  rw [hq] at hang
  simp only [ax0, ax1, ax2, hlon.1, hlon.2, hlat.1, hcl, hang.1, hang.2, Prod.mk.injEq]
  generalize hypot a b = q at *
  refine ⟨⟨by field_simp, by field_simp, trivial⟩, ⟨?_, ?_, by field_simp⟩, ⟨?_, ?_, by field_simp⟩⟩
  · field_simp; rw [hqs, hf3]; linear_combination -a * hne
  · field_simp; rw [hqs, hf3]; linear_combination -b * hne
  · field_simp; rw [hqs, hf3, hf1]; linear_combination b * c * hne - b * e3 * hn
  · field_simp; rw [hqs, hf3, hf2]; linear_combination -(a * c) * hne + a * e3 * hn

/-- The grid rotations for which every panel has a well-defined orientation: no panel other than the pole
panels is centred exactly on a pole, and the pole panels are centred on a pole only through the dedicated branch. -/
def Regular (lambda0 phi0 alpha0 : ℝ) : Prop :=
  (cos phi0 * sin alpha0) ^ 2 ≠ 1 ∧
  ((phi0 = 0 ∧ alpha0 = 0) ∨
    (¬(|phi0| < 1e-13 ∧ |alpha0| < 1e-13) ∧ (cos phi0 * cos alpha0) ^ 2 ≠ 1))

theorem cos_arcsin_nonneg' (x : ℝ) : 0 ≤ cos (arcsin x) := cos_arcsin_nonneg x

theorem hypot_ne {x y z : ℝ} (h : x ^ 2 + y ^ 2 + z ^ 2 = 1) (hz : z ^ 2 ≠ 1) : hypot x y ≠ 0 := by
  intro h0
  have := hypot_sq x y
  rw [h0] at this
  apply hz
  linarith

theorem hypot_neg_left (x y : ℝ) : hypot (-x) y = hypot x y := by unfold hypot; simp
theorem hypot_neg_right (x y : ℝ) : hypot x (-y) = hypot x y := by unfold hypot; simp

/-- the base frame is right-handed -/
theorem base_cross (o : Orientation) :
    let B0 := ax0 o; let B1 := ax1 o; let B2 := ax2 o
    B2.1 = B0.2.1 * B1.2.2 - B0.2.2 * B1.2.1 ∧ B2.2.1 = B0.2.2 * B1.1 - B0.1 * B1.2.2 ∧
      B2.2.2 = B0.1 * B1.2.1 - B0.2.1 * B1.1 ∧
    B0.1 = B1.2.1 * B2.2.2 - B1.2.2 * B2.2.1 ∧ B0.2.1 = B1.2.2 * B2.1 - B1.1 * B2.2.2 ∧
      B0.2.2 = B1.1 * B2.2.1 - B1.2.1 * B2.1 ∧
    B1.1 = B2.2.1 * B0.2.2 - B2.2.2 * B0.2.1 ∧ B1.2.1 = B2.2.2 * B0.1 - B2.1 * B0.2.2 ∧
      B1.2.2 = B2.1 * B0.2.1 - B2.2.1 * B0.1 := by
  have h1 := sin_sq_add_cos_sq o.lon
  have h2 := sin_sq_add_cos_sq o.lat
  have h3 := sin_sq_add_cos_sq o.ang
  simp only [ax0, ax1, ax2]
  generalize sin o.lon = s1 at *; generalize cos o.lon = c1 at *
  generalize sin o.lat = s2 at *; generalize cos o.lat = c2 at *
  generalize sin o.ang = s3 at *; generalize cos o.ang = c3 at *
  refine ⟨?_, ?_, ?_, ?_, ?_, ?_, ?_, ?_, ?_⟩
  · linear_combination s1 * s3 * h2
  · linear_combination -c1 * s3 * h2
  · linear_combination -(c2 * c3) * h1
  · linear_combination -(c1 * c2) * h3
  · linear_combination -(s1 * c2) * h3
  · linear_combination -s2 * ((s3 ^ 2 + c3 ^ 2) * h1 + h3)
  · linear_combination s1 * c3 * h2
  · linear_combination -(c1 * c3) * h2
  · linear_combination c2 * s3 * h1

/-- the same with the angles given by `atan2` and `arcsin` -/
theorem orient_atan2 {n e f : V3 ℝ} (hn : n.1 ^ 2 + n.2.1 ^ 2 + n.2.2 ^ 2 = 1) (he : e.1 ^ 2 + e.2.1 ^ 2 + e.2.2 ^ 2 = 1)
    (hne : n.1 * e.1 + n.2.1 * e.2.1 + n.2.2 * e.2.2 = 0)
    (hf1 : f.1 = n.2.1 * e.2.2 - n.2.2 * e.2.1) (hf2 : f.2.1 = n.2.2 * e.1 - n.1 * e.2.2)
    (hf3 : f.2.2 = n.1 * e.2.1 - n.2.1 * e.1) (hv : n.2.2 ^ 2 ≠ 1) {lon lat ang : ℝ}
    (hlon : lon = atan2 n.2.1 n.1) (hlat : lat = arcsin n.2.2)
    (hang : ang = atan2 (-e.2.2) f.2.2 ∨ ang = -atan2 e.2.2 f.2.2) :
    ax0 ⟨lon, lat, ang⟩ = n ∧ ax1 ⟨lon, lat, ang⟩ = e ∧ ax2 ⟨lon, lat, ang⟩ = f := by
  have h1 := hypot_ne hn hv
  have hz : -1 ≤ n.2.2 ∧ n.2.2 ≤ 1 := by constructor <;> nlinarith [sq_nonneg n.1, sq_nonneg n.2.1]
  have hef : f.2.2 ^ 2 + e.2.2 ^ 2 = n.1 ^ 2 + n.2.1 ^ 2 := by
    rw [hf3]
    linear_combination (n.1 ^ 2 + n.2.1 ^ 2) * he + (-(n.1 * e.1) - n.2.1 * e.2.1 + n.2.2 * e.2.2) * hne - e.2.2 ^ 2 * hn
  have h2 : hypot f.2.2 e.2.2 ≠ 0 := by unfold hypot at h1 ⊢; rwa [hef]
  have h2' : hypot f.2.2 (-e.2.2) ≠ 0 := by rwa [hypot_neg_right]
  refine orient_of_triple hn he hne hf1 hf2 hf3 hv ?_ ?_ ?_
  · subst hlon; exact ⟨cos_atan2 h1, sin_atan2 _ _⟩
  · subst hlat; exact ⟨sin_arcsin hz.1 hz.2, cos_arcsin_nonneg _⟩
  · rcases hang with rfl | rfl
    · exact ⟨by rw [cos_atan2 h2', hypot_neg_right], by rw [sin_atan2, hypot_neg_right]⟩
    · exact ⟨by rw [cos_neg, cos_atan2 h2], by rw [sin_neg, sin_atan2, neg_div]⟩

/-- The frame of every panel is the rotated frame of the corresponding face of the cube. -/
theorem panel_frame (lambda0 phi0 alpha0 : ℝ) (h : Regular lambda0 phi0 alpha0) (p : Nat) (hp : p < 6) :
    ∃ o, panelOrientation lambda0 phi0 alpha0 p = some o ∧
      ax0 o = rotate ⟨lambda0, phi0, alpha0⟩ (normal p) ∧ ax1 o = rotate ⟨lambda0, phi0, alpha0⟩ (eastward p) ∧
      ax2 o = rotate ⟨lambda0, phi0, alpha0⟩ (northward p) := by
  obtain ⟨hs, hpole⟩ := h
  set B : Orientation := ⟨lambda0, phi0, alpha0⟩ with hB
  obtain ⟨x1, x2, x3, x4, x5, x6, x7, x8, x9⟩ := base_cross B
  obtain ⟨d00, d11, d22, d01, -, d02, -, d12, -⟩ := frame_orthonormal B
  simp only [dot] at d00 d11 d22 d01 d02 d12
  have r : ∀ a b c, rotate B (a, b, c) = a • ax0 B + b • ax1 B + c • ax2 B := fun _ _ _ => rfl
  interval_cases p
  · refine ⟨_, rfl, ?_, ?_, ?_⟩ <;> simp [rotate, normal, eastward, northward, frame] <;> rfl
  · simp only [normal, eastward, northward, r, one_smul, zero_smul, add_zero, zero_add, neg_one_smul]
    refine ⟨_, rfl, orient_atan2 ?_ ?_ ?_ ?_ ?_ ?_ ?_ ?_ ?_ ?_⟩
    · linear_combination d11
    · simp only [Prod.fst_neg, Prod.snd_neg]; linear_combination d00
    · simp only [Prod.fst_neg, Prod.snd_neg]; linear_combination -d01
    · simp only [Prod.fst_neg, Prod.snd_neg]; linear_combination x1
    · simp only [Prod.fst_neg, Prod.snd_neg]; linear_combination x2
    · simp only [Prod.fst_neg, Prod.snd_neg]; linear_combination x3
    · simp only [ax1, hB]; intro h; apply hs; linear_combination h
    · rfl
    · simp only [ax1, hB, arcsin_neg]
    · left; simp [ax0, ax2, hB]
  · have hh : hypot (cos alpha0) (sin alpha0) = 1 := by unfold hypot; simp
    have hh' : hypot (-cos lambda0) (-sin lambda0) = 1 := by unfold hypot; simp
    simp only [normal, eastward, northward, r, one_smul, zero_smul, add_zero, zero_add, neg_one_smul]
    refine ⟨_, rfl, ?_⟩
    simp only [ax0, ax1, ax2, cos_neg, sin_neg, sin_atan2, cos_atan2 (y := sin alpha0) (x := cos alpha0) (by rw [hh]; norm_num),
      cos_atan2 (y := -sin lambda0) (x := -cos lambda0) (by rw [hh']; norm_num), hh, hh', div_one, hB,
      Prod.neg_mk, Prod.mk.injEq]
    refine ⟨⟨?_, ?_, ?_⟩, ⟨?_, ?_, ?_⟩, ?_, ?_, ?_⟩ <;> first | trivial | ring1
  · simp only [normal, eastward, northward, r, one_smul, zero_smul, add_zero, zero_add, neg_one_smul]
    refine ⟨_, rfl, orient_atan2 ?_ ?_ ?_ ?_ ?_ ?_ ?_ ?_ ?_ ?_⟩
    · simp only [Prod.fst_neg, Prod.snd_neg]; linear_combination d11
    · linear_combination d00
    · simp only [Prod.fst_neg, Prod.snd_neg]; linear_combination -d01
    · simp only [Prod.fst_neg, Prod.snd_neg]; linear_combination x1
    · simp only [Prod.fst_neg, Prod.snd_neg]; linear_combination x2
    · simp only [Prod.fst_neg, Prod.snd_neg]; linear_combination x3
    · simp only [ax1, hB, Prod.fst_neg, Prod.snd_neg]; intro h; apply hs; linear_combination h
    · simp only [ax1, hB, Prod.fst_neg, Prod.snd_neg]; congr 1 <;> ring
    · simp only [ax1, hB, Prod.fst_neg, Prod.snd_neg, neg_neg]
    · right; simp [ax0, ax2, hB]
  · simp only [normal, eastward, northward, r, one_smul, zero_smul, add_zero, zero_add, neg_one_smul]
    rcases hpole with ⟨rfl, rfl⟩ | ⟨hn, hc⟩
    · refine ⟨⟨0, π / 2, -lambda0⟩, ?_, ?_⟩
      · simp only [panelOrientation]; rw [if_pos (by norm_num)]
      · simp [ax0, ax1, ax2, hB]
    · refine ⟨_, by simp only [panelOrientation]; rw [if_neg hn], orient_atan2 ?_ ?_ ?_ ?_ ?_ ?_ ?_ ?_ ?_ ?_⟩
      · linear_combination d22
      · linear_combination d11
      · linear_combination d12
      · simp only [Prod.fst_neg, Prod.snd_neg]; linear_combination -x4
      · simp only [Prod.fst_neg, Prod.snd_neg]; linear_combination -x5
      · simp only [Prod.fst_neg, Prod.snd_neg]; linear_combination -x6
      · simp only [ax2, hB]; intro h; apply hc; linear_combination h
      · simp only [ax2, hB]; congr 1 <;> ring
      · simp only [ax2, hB]
      · left; simp [ax0, ax1, hB]
  · simp only [normal, eastward, northward, r, one_smul, zero_smul, add_zero, zero_add, neg_one_smul]
    rcases hpole with ⟨rfl, rfl⟩ | ⟨hn, hc⟩
    · refine ⟨⟨0, -π / 2, lambda0⟩, ?_, ?_⟩
      · simp only [panelOrientation]; rw [if_pos (by norm_num)]
      · simp [ax0, ax1, ax2, hB, neg_div]
    · refine ⟨_, by simp only [panelOrientation]; rw [if_neg hn], orient_atan2 ?_ ?_ ?_ ?_ ?_ ?_ ?_ ?_ ?_ ?_⟩
      · simp only [Prod.fst_neg, Prod.snd_neg]; linear_combination d22
      · linear_combination d11
      · simp only [Prod.fst_neg, Prod.snd_neg]; linear_combination -d12
      · simp only [Prod.fst_neg, Prod.snd_neg]; linear_combination x4
      · simp only [Prod.fst_neg, Prod.snd_neg]; linear_combination x5
      · simp only [Prod.fst_neg, Prod.snd_neg]; linear_combination x6
      · simp only [ax2, hB, Prod.fst_neg, Prod.snd_neg]; intro h; apply hc; linear_combination h
      · simp only [ax2, hB, Prod.fst_neg, Prod.snd_neg]; congr 1 <;> ring
      · simp only [ax2, hB, Prod.fst_neg, Prod.snd_neg, arcsin_neg]
      · left; simp [ax0, ax1, hB]

theorem rotate_inj {B : Orientation} {v w : V3 ℝ} (h : rotate B v = rotate B w) : v = w := by
  obtain ⟨a, b, c⟩ := v
  obtain ⟨a', b', c'⟩ := w
  have k : ∀ x y z, dot (frame B a b c) (frame B x y z) = dot (frame B a' b' c') (frame B x y z) := by
    intro x y z
    have : frame B a b c = frame B a' b' c' := h
    rw [this]
  have h1 := k 1 0 0; have h2 := k 0 1 0; have h3 := k 0 0 1
  simp only [dot_frame] at h1 h2 h3
  simp only [Prod.mk.injEq]
  refine ⟨by linarith, by linarith, by linarith⟩

theorem rotate_smul (B : Orientation) (k : ℝ) (v : V3 ℝ) : rotate B (k • v) = k • rotate B v := by
  obtain ⟨a, b, c⟩ := v
  simp only [rotate, frame, Prod.smul_mk, smul_eq_mul, smul_add, smul_smul]

theorem rotate_add (B : Orientation) (v w : V3 ℝ) : rotate B (v + w) = rotate B v + rotate B w := by
  obtain ⟨a, b, c⟩ := v
  obtain ⟨a', b', c'⟩ := w
  simp only [rotate, frame, Prod.mk_add_mk, add_smul]
  abel

theorem point_eq (p : Nat) (X Y : ℝ) : point p X Y = normal p + X • eastward p + Y • northward p := by
  simp only [point, Prod.ext_iff, Prod.fst_add, Prod.snd_add, Prod.smul_fst, Prod.smul_snd, smul_eq_mul]
  exact ⟨trivial, trivial, trivial⟩

/-- **C48** Documented rotation ranges (]-π/4, π/4] for `phi0`, ]-π/2, 0] for `alpha0`, any `lambda0`) are
regular, unless both `phi0` and `alpha0` are below the code's 1e-13 threshold without being zero. -/
theorem C48_documented_ranges (lambda0 phi0 alpha0 : ℝ) (h1 : -(π / 4) < phi0) (h2 : phi0 ≤ π / 4)
    (h3 : -(π / 2) < alpha0) (h4 : alpha0 ≤ 0)
    (h5 : (phi0 = 0 ∧ alpha0 = 0) ∨ 1e-13 ≤ |phi0| ∨ 1e-13 ≤ |alpha0|) : Regular lambda0 phi0 alpha0 := by
  have hc := cos_pos_of_mem_Ioo (x := alpha0) ⟨by linarith, by linarith [pi_pos]⟩
  have e1 := sin_sq_add_cos_sq phi0
  have e2 := sin_sq_add_cos_sq alpha0
  refine ⟨?_, ?_⟩
  · intro h
    have : 0 < cos alpha0 ^ 2 := by positivity
    nlinarith [sq_nonneg (sin phi0), sq_nonneg (cos phi0), sq_nonneg (sin alpha0), mul_pow (cos phi0) (sin alpha0) 2]
  · rcases h5 with h | h
    · exact Or.inl h
    · right
      refine ⟨by rintro ⟨ha, hb⟩; rcases h with h | h <;> linarith, ?_⟩
      intro hh
      have hs1 : sin phi0 ^ 2 = 0 := by
        nlinarith [sq_nonneg (sin phi0), sq_nonneg (cos phi0), sq_nonneg (sin alpha0), mul_pow (cos phi0) (cos alpha0) 2]
      have hs2 : sin alpha0 ^ 2 = 0 := by
        nlinarith [sq_nonneg (sin phi0), sq_nonneg (cos phi0), sq_nonneg (sin alpha0), mul_pow (cos phi0) (cos alpha0) 2]
      have p0 : phi0 = 0 := (sin_eq_zero_iff_of_lt_of_lt (by linarith [pi_pos]) (by linarith [pi_pos])).mp (pow_eq_zero_iff (two_ne_zero) |>.mp hs1)
      have a0 : alpha0 = 0 := (sin_eq_zero_iff_of_lt_of_lt (by linarith [pi_pos]) (by linarith [pi_pos])).mp (pow_eq_zero_iff (two_ne_zero) |>.mp hs2)
      subst p0 a0
      rcases h with h | h <;> norm_num at h

/-- **C48** Every panel gets an orientation, and the grid point it computes is the point of the
corresponding face of the cube, turned by the requested rotation and projected on the sphere. -/
theorem C48_position (lambda0 phi0 alpha0 : ℝ) (h : Regular lambda0 phi0 alpha0) (p : Nat) (hp : p < 6) :
    ∃ o, panelOrientation lambda0 phi0 alpha0 p = some o ∧ ∀ r X Y, cart o r X Y =
      (r / sqrt (1 + X ^ 2 + Y ^ 2)) • rotate ⟨lambda0, phi0, alpha0⟩ (point p X Y) := by
  obtain ⟨o, ho, h0, h1, h2⟩ := panel_frame lambda0 phi0 alpha0 h p hp
  refine ⟨o, ho, fun r X Y => ?_⟩
  rw [cart_eq_frame, frame, h0, h1, h2, point_eq, rotate_add, rotate_add, rotate_smul, rotate_smul, smul_add, smul_add,
    smul_smul, smul_smul]
  rfl

/-- **C48** No other panel number is accepted. -/
theorem C48_invalid_panel (lambda0 phi0 alpha0 : ℝ) (p : Nat) (hp : 6 ≤ p) :
    panelOrientation lambda0 phi0 alpha0 p = none := by
  obtain ⟨q, rfl⟩ : ∃ q, p = q + 6 := ⟨p - 6, by omega⟩
  rfl

/-- **C48** Every grid point lies on the sphere of the requested radius (whatever the orientation). -/
theorem C48_on_sphere (o : Orientation) (r X Y : ℝ) : dot (cart o r X Y) (cart o r X Y) = r ^ 2 := by
  rw [cart_eq_frame, dot_frame]
  have h := delta_sq X Y
  have h0 := (delta_pos X Y).ne'
  field_simp
  rw [h]; unfold delta2; ring

theorem delta_of_point (p : Nat) (hp : p < 6) (X Y : ℝ) :
    1 + X ^ 2 + Y ^ 2 = (point p X Y).1 ^ 2 + (point p X Y).2.1 ^ 2 + (point p X Y).2.2 ^ 2 := by
  interval_cases p <;> simp [point, normal, eastward, northward] <;> ring

/-- **C48** Two panels compute the same grid point wherever their faces meet on the cube. -/
theorem C48_edges (lambda0 phi0 alpha0 : ℝ) (h : Regular lambda0 phi0 alpha0) (p q : Nat) (hp : p < 6) (hq : q < 6)
    (X Y X' Y' : ℝ) (he : point p X Y = point q X' Y') :
    ∃ o o', panelOrientation lambda0 phi0 alpha0 p = some o ∧ panelOrientation lambda0 phi0 alpha0 q = some o' ∧
      ∀ r, cart o r X Y = cart o' r X' Y' := by
  obtain ⟨o, ho, h1⟩ := C48_position lambda0 phi0 alpha0 h p hp
  obtain ⟨o', ho', h2⟩ := C48_position lambda0 phi0 alpha0 h q hq
  refine ⟨o, o', ho, ho', fun r => ?_⟩
  rw [h1, h2, delta_of_point p hp, delta_of_point q hq, he]

/-- **C48** The panels do not overlap: a point strictly inside a panel is on no other panel, and has only
one pair of coordinates. -/
theorem C48_disjoint (lambda0 phi0 alpha0 : ℝ) (h : Regular lambda0 phi0 alpha0) (p q : Nat) (hp : p < 6) (hq : q < 6)
    (o o' : Orientation) (ho : panelOrientation lambda0 phi0 alpha0 p = some o)
    (ho' : panelOrientation lambda0 phi0 alpha0 q = some o') (r X Y X' Y' : ℝ) (hr : 0 < r)
    (hX : |X| < 1) (hY : |Y| < 1) (hX' : |X'| ≤ 1) (hY' : |Y'| ≤ 1) (he : cart o r X Y = cart o' r X' Y') :
    p = q ∧ X = X' ∧ Y = Y' := by
  obtain ⟨o1, e1, h1⟩ := C48_position lambda0 phi0 alpha0 h p hp
  obtain ⟨o2, e2, h2⟩ := C48_position lambda0 phi0 alpha0 h q hq
  rw [ho] at e1; rw [ho'] at e2
  cases e1; cases e2
  rw [h1, h2, ← rotate_smul, ← rotate_smul] at he
  have hv := rotate_inj he
  have k1 : 0 < r / sqrt (1 + X ^ 2 + Y ^ 2) := by positivity
  have k2 : 0 < r / sqrt (1 + X' ^ 2 + Y' ^ 2) := by positivity
  generalize r / sqrt (1 + X ^ 2 + Y ^ 2) = a at *
  generalize r / sqrt (1 + X' ^ 2 + Y' ^ 2) = b at *
  rw [abs_lt] at hX hY
  rw [abs_le] at hX' hY'
  have aX := mul_lt_mul_of_pos_left hX.1 k1
  have aX2 := mul_lt_mul_of_pos_left hX.2 k1
  have aY := mul_lt_mul_of_pos_left hY.1 k1
  have aY2 := mul_lt_mul_of_pos_left hY.2 k1
  have bX := mul_le_mul_of_nonneg_left hX'.1 k2.le
  have bX2 := mul_le_mul_of_nonneg_left hX'.2 k2.le
  have bY := mul_le_mul_of_nonneg_left hY'.1 k2.le
  have bY2 := mul_le_mul_of_nonneg_left hY'.2 k2.le
  interval_cases p <;> interval_cases q <;>
    simp [point, normal, eastward, northward, Prod.ext_iff] at hv <;>
    first
    | (exfalso; linarith [hv.1, hv.2.1, hv.2.2])
    | (have hab : a = b := by linarith [hv.1, hv.2.1, hv.2.2]
       subst hab
       refine ⟨rfl, ?_, ?_⟩ <;> apply mul_left_cancel₀ k1.ne' <;> linarith [hv.1, hv.2.1, hv.2.2])

theorem scale_of_point {r k : ℝ} (hr : 0 < r) (hk : 0 < k) {p : Nat} (hp : p < 6) {X Y : ℝ} {v : V3 ℝ}
    (hv : v = k • point p X Y) (hn : v.1 ^ 2 + v.2.1 ^ 2 + v.2.2 ^ 2 = r ^ 2) :
    r / sqrt (1 + X ^ 2 + Y ^ 2) = k := by
  have e : r ^ 2 = (k * sqrt (1 + X ^ 2 + Y ^ 2)) ^ 2 := by
    rw [mul_pow, sq_sqrt (by positivity), delta_of_point p hp, ← hn, hv]
    simp only [Prod.smul_fst, Prod.smul_snd, smul_eq_mul]
    ring
  have e' : r = k * sqrt (1 + X ^ 2 + Y ^ 2) := (sq_eq_sq₀ hr.le (by positivity)).mp e
  rw [e']
  field_simp

theorem cube_cover (v : V3 ℝ) (hv : v ≠ 0) :
    ∃ p < 6, ∃ k X Y : ℝ, 0 < k ∧ |X| ≤ 1 ∧ |Y| ≤ 1 ∧ v = k • point p X Y := by
  obtain ⟨a, b, c⟩ := v
  have q : ∀ {x y : ℝ}, 0 < y → |x| ≤ y → |x / y| ≤ 1 := by
    intro x y hy h
    rw [abs_div, abs_of_pos hy]
    exact (div_le_one hy).mpr h
  have hne : ¬(a = 0 ∧ b = 0 ∧ c = 0) := by
    rintro ⟨rfl, rfl, rfl⟩; exact hv rfl
  by_cases h1 : |b| ≤ |a| ∧ |c| ≤ |a|
  · have ha : a ≠ 0 := by
      rintro rfl
      simp only [abs_zero] at h1
      exact hne ⟨rfl, abs_nonpos_iff.mp h1.1, abs_nonpos_iff.mp h1.2⟩
    rcases lt_or_gt_of_ne ha with h | h
    · rw [abs_of_neg h] at h1
      refine ⟨2, by norm_num, -a, -b / -a, c / -a, by linarith, q (by linarith) (by rw [abs_neg]; exact h1.1), q (by linarith) h1.2, ?_⟩
      simp only [point, normal, eastward, northward, Prod.smul_mk, smul_eq_mul, Prod.mk.injEq]
      refine ⟨?_, ?_, ?_⟩ <;> first | (field_simp; done) | (field_simp; ring1)
    · rw [abs_of_pos h] at h1
      refine ⟨0, by norm_num, a, b / a, c / a, h, q h h1.1, q h h1.2, ?_⟩
      simp only [point, normal, eastward, northward, Prod.smul_mk, smul_eq_mul, Prod.mk.injEq]
      refine ⟨?_, ?_, ?_⟩ <;> first | (field_simp; done) | (field_simp; ring1)
  by_cases h2 : |a| ≤ |b| ∧ |c| ≤ |b|
  · have hb : b ≠ 0 := by
      rintro rfl
      simp only [abs_zero] at h2
      exact hne ⟨abs_nonpos_iff.mp h2.1, rfl, abs_nonpos_iff.mp h2.2⟩
    rcases lt_or_gt_of_ne hb with h | h
    · rw [abs_of_neg h] at h2
      refine ⟨3, by norm_num, -b, a / -b, c / -b, by linarith, q (by linarith) h2.1, q (by linarith) h2.2, ?_⟩
      simp only [point, normal, eastward, northward, Prod.smul_mk, smul_eq_mul, Prod.mk.injEq]
      refine ⟨?_, ?_, ?_⟩ <;> first | (field_simp; done) | (field_simp; ring1)
    · rw [abs_of_pos h] at h2
      refine ⟨1, by norm_num, b, -a / b, c / b, h, q h (by rw [abs_neg]; exact h2.1), q h h2.2, ?_⟩
      simp only [point, normal, eastward, northward, Prod.smul_mk, smul_eq_mul, Prod.mk.injEq]
      refine ⟨?_, ?_, ?_⟩ <;> first | (field_simp; done) | (field_simp; ring1)
  have h3 : |a| ≤ |c| ∧ |b| ≤ |c| := by
    rcases le_total |a| |b| with x | x <;> rcases le_total |b| |c| with y | y <;>
      rcases le_total |a| |c| with z | z <;> simp_all <;> linarith
  · have hb : c ≠ 0 := by
      rintro rfl
      simp only [abs_zero] at h3
      exact hne ⟨abs_nonpos_iff.mp h3.1, abs_nonpos_iff.mp h3.2, rfl⟩
    rcases lt_or_gt_of_ne hb with h | h
    · rw [abs_of_neg h] at h3
      refine ⟨5, by norm_num, -c, b / -c, a / -c, by linarith, q (by linarith) h3.2, q (by linarith) h3.1, ?_⟩
      simp only [point, normal, eastward, northward, Prod.smul_mk, smul_eq_mul, Prod.mk.injEq]
      refine ⟨?_, ?_, ?_⟩ <;> first | (field_simp; done) | (field_simp; ring1)
    · rw [abs_of_pos h] at h3
      refine ⟨4, by norm_num, c, b / c, -a / c, h, q h h3.2, q h (by rw [abs_neg]; exact h3.1), ?_⟩
      simp only [point, normal, eastward, northward, Prod.smul_mk, smul_eq_mul, Prod.mk.injEq]
      refine ⟨?_, ?_, ?_⟩ <;> first | (field_simp; done) | (field_simp; ring1)

/-- **C48** The panels cover the sphere. -/
theorem C48_cover (lambda0 phi0 alpha0 : ℝ) (h : Regular lambda0 phi0 alpha0) (r : ℝ) (hr : 0 < r)
    (P : V3 ℝ) (hP : dot P P = r ^ 2) :
    ∃ p < 6, ∃ o, panelOrientation lambda0 phi0 alpha0 p = some o ∧
      ∃ X Y, |X| ≤ 1 ∧ |Y| ≤ 1 ∧ cart o r X Y = P := by
  set B : Orientation := ⟨lambda0, phi0, alpha0⟩
  have e := eq_frame B P
  set v : V3 ℝ := (dot P (ax0 B), dot P (ax1 B), dot P (ax2 B)) with hvd
  have e' : P = rotate B v := e
  have hn : v.1 ^ 2 + v.2.1 ^ 2 + v.2.2 ^ 2 = r ^ 2 := by
    rw [← hP, e']
    obtain ⟨a, b, c⟩ := v
    simp only [rotate, dot_frame]; ring
  have hv0 : v ≠ 0 := by
    intro h0
    rw [h0] at hn
    simp at hn
    have : 0 < r ^ 2 := by positivity
    exact this.ne hn
  obtain ⟨p, hp, k, X, Y, hk, hX, hY, hv⟩ := cube_cover v hv0
  obtain ⟨o, ho, hc⟩ := C48_position lambda0 phi0 alpha0 h p hp
  refine ⟨p, hp, o, ho, X, Y, hX, hY, ?_⟩
  rw [hc, scale_of_point hr hk hp hv hn, ← rotate_smul, ← hv, e']

/-! ## Tiles and elements -/

/-- position in units of one element, counted from the edge of the panel -/
theorem gridAngle_eq {lines elems : Nat} (hl : 0 < lines) (he : 0 < elems) (c e : Nat) (ξ : ℝ) :
    gridAngle lines elems c e ξ = -(π / 4) + π / 2 / (lines * elems) * (((c * elems + e : Nat) : ℝ) + (1 + ξ) / 2) := by
  have h1 : (lines : ℝ) ≠ 0 := by exact_mod_cast hl.ne'
  have h2 : (elems : ℝ) ≠ 0 := by exact_mod_cast he.ne'
  unfold gridAngle elementCoord elementSize tileEnd tileStart
  push_cast
  field_simp
  ring

/-- **C48** The tiles of a panel and their elements cover the angular range of the panel … -/
theorem C48_tiles_cover {lines elems : Nat} (hl : 0 < lines) (he : 0 < elems) (x : ℝ) (h1 : -(π / 4) ≤ x) (h2 : x ≤ π / 4) :
    ∃ c < lines, ∃ e < elems, ∃ ξ, -1 ≤ ξ ∧ ξ ≤ 1 ∧ gridAngle lines elems c e ξ = x := by
  have hl' : (0 : ℝ) < lines := by exact_mod_cast hl
  have he' : (0 : ℝ) < elems := by exact_mod_cast he
  set d : ℝ := π / 2 / (lines * elems) with hd
  have hd0 : 0 < d := by have := pi_pos; positivity
  set t : ℝ := (x + π / 4) / d with ht
  have ht0 : 0 ≤ t := div_nonneg (by linarith) hd0.le
  have htd : t * d = x + π / 4 := by rw [ht]; field_simp
  have htN : t ≤ lines * elems := by
    have : t * d ≤ (lines * elems) * d := by
      rw [htd, hd]; field_simp; linarith
    exact le_of_mul_le_mul_right this hd0
  have key : ∃ i : Nat, i < lines * elems ∧ (i : ℝ) ≤ t ∧ t ≤ i + 1 := by
    by_cases hlt : ⌊t⌋₊ < lines * elems
    · exact ⟨_, hlt, Nat.floor_le ht0, (Nat.lt_floor_add_one t).le⟩
    · have hN : 0 < lines * elems := Nat.mul_pos hl he
      refine ⟨lines * elems - 1, by omega, ?_, ?_⟩
      · have := Nat.floor_le ht0
        have h3 : ((lines * elems - 1 : Nat) : ℝ) ≤ (⌊t⌋₊ : ℝ) := by exact_mod_cast (by omega)
        linarith
      · rw [Nat.cast_sub hN]; push_cast; linarith
  obtain ⟨i, hi, hi1, hi2⟩ := key
  refine ⟨i / elems, Nat.div_lt_of_lt_mul (by rw [Nat.mul_comm]; exact hi), i % elems, Nat.mod_lt _ he, 2 * (t - i) - 1, by linarith, by linarith, ?_⟩
  rw [gridAngle_eq hl he, Nat.div_add_mod' i elems, ← hd]
  linear_combination htd

/-- **C48** … and do not overlap: an angle strictly inside an element belongs to no other element of no
other tile. -/
theorem C48_tiles_disjoint {lines elems : Nat} (hl : 0 < lines) {c c' e e' : Nat} (he : e < elems) (he' : e' < elems)
    {ξ ξ' : ℝ} (h1 : -1 < ξ) (h2 : ξ < 1) (h1' : -1 ≤ ξ') (h2' : ξ' ≤ 1)
    (h : gridAngle lines elems c e ξ = gridAngle lines elems c' e' ξ') : c = c' ∧ e = e' ∧ ξ = ξ' := by
  have h0 : 0 < elems := by omega
  rw [gridAngle_eq hl h0, gridAngle_eq hl h0] at h
  have hl' : (0 : ℝ) < lines := by exact_mod_cast hl
  have he0 : (0 : ℝ) < elems := by exact_mod_cast h0
  have hd0 : 0 < π / 2 / ((lines : ℝ) * elems) := by have := pi_pos; positivity
  have h3 := mul_left_cancel₀ hd0.ne' (add_left_cancel h)
  have hi : c * elems + e = c' * elems + e' := by
    rcases lt_trichotomy (c * elems + e) (c' * elems + e') with hh | hh | hh
    · exfalso
      have : ((c * elems + e : Nat) : ℝ) + 1 ≤ ((c' * elems + e' : Nat) : ℝ) := by exact_mod_cast hh
      linarith
    · exact hh
    · exfalso
      have : ((c' * elems + e' : Nat) : ℝ) + 1 ≤ ((c * elems + e : Nat) : ℝ) := by exact_mod_cast hh
      linarith
  rw [hi] at h3
  have hc : c = c' := by
    have := congrArg (· / elems) hi
    simpa [Nat.mul_comm _ elems, Nat.mul_add_div h0, Nat.div_eq_of_lt he, Nat.div_eq_of_lt he'] using this
  subst hc
  exact ⟨rfl, by omega, by linarith⟩

theorem gridAngle_mem {lines elems c e : Nat} (hc : c < lines) (he : e < elems) {ξ : ℝ} (h1 : -1 ≤ ξ) (h2 : ξ ≤ 1) :
    -(π / 4) ≤ gridAngle lines elems c e ξ ∧ gridAngle lines elems c e ξ ≤ π / 4 := by
  have hl' : (0 : ℝ) < lines := by exact_mod_cast (by omega)
  have he0 : (0 : ℝ) < elems := by exact_mod_cast (by omega)
  have hd0 : 0 < π / 2 / ((lines : ℝ) * elems) := by have := pi_pos; positivity
  rw [gridAngle_eq (by omega) (by omega)]
  have hN : c * elems + e + 1 ≤ lines * elems := by
    have := Nat.mul_le_mul_right elems (show c + 1 ≤ lines by omega)
    rw [Nat.add_mul] at this; omega
  have hN' : ((c * elems + e : Nat) : ℝ) + 1 ≤ lines * elems := by exact_mod_cast hN
  constructor
  · have : 0 ≤ π / 2 / ((lines : ℝ) * elems) * (((c * elems + e : Nat) : ℝ) + (1 + ξ) / 2) :=
      mul_nonneg hd0.le (by have : (0 : ℝ) ≤ ((c * elems + e : Nat) : ℝ) := Nat.cast_nonneg _; linarith)
    linarith
  · have : π / 2 / ((lines : ℝ) * elems) * (((c * elems + e : Nat) : ℝ) + (1 + ξ) / 2) ≤
        π / 2 / ((lines : ℝ) * elems) * (lines * elems) := mul_le_mul_of_nonneg_left (by linarith) hd0.le
    have h5 : π / 2 / ((lines : ℝ) * elems) * (lines * elems) = π / 2 := by field_simp
    linarith

theorem gridAngle_strict {lines elems c e : Nat} (hc : c < lines) (he : e < elems) {ξ : ℝ} (h1 : -1 < ξ) (h2 : ξ < 1) :
    -(π / 4) < gridAngle lines elems c e ξ ∧ gridAngle lines elems c e ξ < π / 4 := by
  have a := gridAngle_mem hc he (le_refl (-1)) (by norm_num)
  have b := gridAngle_mem hc he (by norm_num) (le_refl 1)
  have hl' : (0 : ℝ) < lines := by exact_mod_cast (by omega)
  have he0 : (0 : ℝ) < elems := by exact_mod_cast (by omega)
  have hd0 : 0 < π / 2 / ((lines : ℝ) * elems) := by have := pi_pos; positivity
  rw [gridAngle_eq (by omega) (by omega)] at a b ⊢
  constructor <;> nlinarith

theorem abs_tan_le {x : ℝ} (h1 : -(π / 4) ≤ x) (h2 : x ≤ π / 4) : |tan x| ≤ 1 := by
  have hp := pi_pos
  have m := strictMonoOn_tan.monotoneOn
  have a : tan (-(π / 4)) ≤ tan x := m ⟨by linarith, by linarith⟩ ⟨by linarith, by linarith⟩ h1
  have b : tan x ≤ tan (π / 4) := m ⟨by linarith, by linarith⟩ ⟨by linarith, by linarith⟩ h2
  rw [tan_neg, tan_pi_div_four] at a
  rw [tan_pi_div_four] at b
  exact abs_le.mpr ⟨a, b⟩

theorem abs_tan_lt {x : ℝ} (h1 : -(π / 4) < x) (h2 : x < π / 4) : |tan x| < 1 := by
  have hp := pi_pos
  have m := strictMonoOn_tan
  have a : tan (-(π / 4)) < tan x := m ⟨by linarith, by linarith⟩ ⟨by linarith, by linarith⟩ h1
  have b : tan x < tan (π / 4) := m ⟨by linarith, by linarith⟩ ⟨by linarith, by linarith⟩ h2
  rw [tan_neg, tan_pi_div_four] at a
  rw [tan_pi_div_four] at b
  exact abs_lt.mpr ⟨a, b⟩

/-- An element of the grid: panel, tile row and column, element row and column within the tile. -/
structure Element where
  panel : Nat
  row : Nat
  col : Nat
  e2 : Nat
  e1 : Nat

/-- The element exists in a grid with `lines × lines` tiles per panel and `elems × elems` elements per tile. -/
def Element.Valid (lines elems : Nat) (E : Element) : Prop :=
  E.panel < 6 ∧ E.row < lines ∧ E.col < lines ∧ E.e2 < elems ∧ E.e1 < elems

/-- Position computed by the process of the tile for the point with reference coordinates `ξ, η` in the element. -/
noncomputable def gridPoint (lambda0 phi0 alpha0 r : ℝ) (lines elems : Nat) (E : Element) (ξ η : ℝ) : Option (V3 ℝ) :=
  (panelOrientation lambda0 phi0 alpha0 E.panel).map fun o =>
    cart o r (tan (gridAngle lines elems E.col E.e1 ξ)) (tan (gridAngle lines elems E.row E.e2 η))

/-- **C48** The elements of all tiles of all panels cover the sphere. -/
theorem C48_grid_cover (lambda0 phi0 alpha0 : ℝ) (h : Regular lambda0 phi0 alpha0) (r : ℝ) (hr : 0 < r)
    {lines elems : Nat} (hl : 0 < lines) (he : 0 < elems) (P : V3 ℝ) (hP : dot P P = r ^ 2) :
    ∃ E : Element, E.Valid lines elems ∧ ∃ ξ η, -1 ≤ ξ ∧ ξ ≤ 1 ∧ -1 ≤ η ∧ η ≤ 1 ∧
      gridPoint lambda0 phi0 alpha0 r lines elems E ξ η = some P := by
  obtain ⟨p, hp, o, ho, X, Y, hX, hY, hc⟩ := C48_cover lambda0 phi0 alpha0 h r hr P hP
  have ar : ∀ x : ℝ, |x| ≤ 1 → -(π / 4) ≤ arctan x ∧ arctan x ≤ π / 4 := by
    intro x hx
    obtain ⟨a, b⟩ := abs_le.mp hx
    rw [← arctan_one, ← arctan_neg]
    exact ⟨arctan_strictMono.monotone a, arctan_strictMono.monotone b⟩
  obtain ⟨c, hc1, e1, he1, ξ, x1, x2, hx⟩ := C48_tiles_cover hl he _ (ar X hX).1 (ar X hX).2
  obtain ⟨rw', hr1, e2, he2, η, y1, y2, hy⟩ := C48_tiles_cover hl he _ (ar Y hY).1 (ar Y hY).2
  refine ⟨⟨p, rw', c, e2, e1⟩, ⟨hp, hr1, hc1, he2, he1⟩, ξ, η, x1, x2, y1, y2, ?_⟩
  simp only [gridPoint, ho, Option.map_some, hx, hy, tan_arctan, hc]

/-- **C48** No two elements overlap: a point strictly inside an element belongs to no other element. -/
theorem C48_grid_disjoint (lambda0 phi0 alpha0 : ℝ) (h : Regular lambda0 phi0 alpha0) (r : ℝ) (hr : 0 < r)
    {lines elems : Nat} {E E' : Element} (hE : E.Valid lines elems) (hE' : E'.Valid lines elems) {ξ η ξ' η' : ℝ}
    (h1 : -1 < ξ) (h2 : ξ < 1) (h3 : -1 < η) (h4 : η < 1) (h1' : -1 ≤ ξ') (h2' : ξ' ≤ 1) (h3' : -1 ≤ η') (h4' : η' ≤ 1)
    (he : gridPoint lambda0 phi0 alpha0 r lines elems E ξ η = gridPoint lambda0 phi0 alpha0 r lines elems E' ξ' η') :
    E = E' ∧ ξ = ξ' ∧ η = η' := by
  obtain ⟨p, rw1, c, e2, e1⟩ := E
  obtain ⟨p', rw1', c', e2', e1'⟩ := E'
  obtain ⟨v1, v2, v3, v4, v5⟩ := hE
  obtain ⟨w1, w2, w3, w4, w5⟩ := hE'
  simp only at v1 v2 v3 v4 v5 w1 w2 w3 w4 w5
  obtain ⟨o, ho, -⟩ := C48_position lambda0 phi0 alpha0 h p v1
  obtain ⟨o', ho', -⟩ := C48_position lambda0 phi0 alpha0 h p' w1
  simp only [gridPoint, ho, ho', Option.map_some, Option.some.injEq] at he
  have a1 := gridAngle_strict v3 v5 h1 h2
  have a2 := gridAngle_strict v2 v4 h3 h4
  have b1 := gridAngle_mem w3 w5 h1' h2'
  have b2 := gridAngle_mem w2 w4 h3' h4'
  obtain ⟨hpp, hX, hY⟩ := C48_disjoint lambda0 phi0 alpha0 h p p' v1 w1 o o' ho ho' r _ _ _ _ hr
    (abs_tan_lt a1.1 a1.2) (abs_tan_lt a2.1 a2.2) (abs_tan_le b1.1 b1.2) (abs_tan_le b2.1 b2.2) he
  have hpi := pi_pos
  have inj := injOn_tan
  have hX' := inj ⟨by linarith, by linarith⟩ ⟨by linarith, by linarith⟩ hX
  have hY' := inj ⟨by linarith, by linarith⟩ ⟨by linarith, by linarith⟩ hY
  obtain ⟨q1, q2, q3⟩ := C48_tiles_disjoint (by omega) v5 w5 h1 h2 h1' h2' hX'
  obtain ⟨q4, q5, q6⟩ := C48_tiles_disjoint (by omega) v4 w4 h3 h4 h3' h4' hY'
  subst hpp q1 q2 q4 q5
  exact ⟨rfl, q3, q6⟩

/-! ## Shared edges as the grid and the exchange use them -/

/-- One-dimensional gnomonic coordinates of the points of a whole panel: `lines` tiles of `elems` elements
with the `m` solution points `node`, and the tile boundaries.  The solution points are mirror-symmetric. -/
noncomputable def gridCoords (lines elems m : Nat) (node : Nat → ℝ) (hl : 0 < lines) (he : 0 < elems)
    (hsym : ∀ s, s < m → node (m - 1 - s) = -node s) : WxVerif.Cube.Coords ℝ lines (elems * m) where
  c i := tan (gridAngle lines elems (i / m / elems) (i / m % elems) (node (i % m)))
  itf j := tan (tileStart lines j)
  symm := by
    intro i hi
    have hm : 0 < m := by
      rcases Nat.eq_zero_or_pos m with h | h
      · subst h; simp at hi
      · exact h
    rw [gridAngle_eq hl he, gridAngle_eq hl he, Nat.div_add_mod', Nat.div_add_mod', ← tan_neg]
    have hlt : i / m < lines * elems := Nat.div_lt_of_lt_mul (by rw [Nat.mul_comm m, Nat.mul_assoc]; exact hi)
    have hi' := Nat.div_add_mod i m
    have hs := Nat.mod_lt i hm
    have hrepr : lines * (elems * m) - 1 - i = m * (lines * elems - 1 - i / m) + (m - 1 - i % m) := by
      have e1 : lines * (elems * m) = m * (lines * elems - 1 - i / m) + m * (i / m) + m := by
        rw [← Nat.mul_add, ← Nat.mul_add_one, ← Nat.mul_assoc, Nat.mul_comm]
        congr 1; omega
      omega
    have hw : m - 1 - i % m < m := by omega
    have hq : (lines * (elems * m) - 1 - i) / m = lines * elems - 1 - i / m := by
      rw [hrepr, Nat.mul_add_div hm, Nat.div_eq_of_lt hw, Nat.add_zero]
    have hr : (lines * (elems * m) - 1 - i) % m = m - 1 - i % m := by
      rw [hrepr, Nat.mul_add_mod, Nat.mod_eq_of_lt hw]
    have hcast : ((lines * elems - 1 - i / m : Nat) : ℝ) = lines * elems - 1 - ((i / m : Nat) : ℝ) := by
      have e1 : i / m ≤ lines * elems - 1 := by omega
      have e2 : 1 ≤ lines * elems := Nat.mul_pos hl he
      rw [Nat.cast_sub e1, Nat.cast_sub e2]; push_cast; ring
    rw [hq, hr, hsym _ hs, hcast]
    have hl' : (0 : ℝ) < lines := by exact_mod_cast hl
    have he0 : (0 : ℝ) < elems := by exact_mod_cast he
    congr 1
    push_cast
    field_simp
    ring
  first := by simp [tileStart, neg_div, tan_neg, tan_pi_div_four]
  last := by
    have hl' : (lines : ℝ) ≠ 0 := by exact_mod_cast hl.ne'
    have : tileStart lines lines = π / 4 := by unfold tileStart; field_simp; ring
    rw [this, tan_pi_div_four]

/-- tile boundaries are where the next tile starts -/
theorem C48_tile_end (lines c : Nat) : tileEnd lines c = tileStart lines (c + 1) := by
  unfold tileEnd tileStart; push_cast; ring

/-- Position computed by process `rank` for the `i`-th point of side `s` of its tile. -/
noncomputable def sidePosition (lambda0 phi0 alpha0 r : ℝ) {k n : Nat} (g : WxVerif.Cube.Coords ℝ k n) (rank : Nat)
    (s : WxVerif.Topology.Side) (i : Nat) : Option (V3 ℝ) :=
  (panelOrientation lambda0 phi0 alpha0 (WxVerif.Cube.placeOf k rank).panel).map fun o =>
    cart o r (WxVerif.Cube.sideCoords g (WxVerif.Cube.placeOf k rank) s i).1 (WxVerif.Cube.sideCoords g (WxVerif.Cube.placeOf k rank) s i).2

/-- **C48** Points on shared edges, computed from both sides, coincide for every rotation of the grid: what
a process receives through a side comes from a process for which each point of the shared side is at
the same position of the sphere. -/
theorem C48_shared_edges {α : Type*} (lambda0 phi0 alpha0 : ℝ) (h : Regular lambda0 phi0 alpha0) (r : ℝ)
    (k elems m : Nat) (hk : 0 < k) (he : 0 < elems) (node : Nat → ℝ) (hsym : ∀ s, s < m → node (m - 1 - s) = -node s)
    (data : Nat → WxVerif.Topology.Side → List α) (hlen : ∀ s d, (data s d).length = elems * m)
    (rank : Nat) (hr : rank < 6 * k ^ 2) (d : WxVerif.Topology.Side) :
    ∃ L s' d', WxVerif.Topology.exchangeScalars (6 * k ^ 2) data rank d = some L ∧ s' < 6 * k ^ 2 ∧ s' ≠ rank ∧
      ∀ i, i < elems * m → ∃ j, j < elems * m ∧ L[i]? = (data s' d')[j]? ∧ ∃ P,
        sidePosition lambda0 phi0 alpha0 r (gridCoords k elems m node hk he hsym) s' d' j = some P ∧
        sidePosition lambda0 phi0 alpha0 r (gridCoords k elems m node hk he hsym) rank d i = some P := by
  obtain ⟨L, s', d', hL, -, hs', hne, hi⟩ := WxVerif.Props.Topology.C04_scalar_exchange k (elems * m) hk
    (gridCoords k elems m node hk he hsym) data hlen rank hr d
  refine ⟨L, s', d', hL, hs', hne, fun i hin => ?_⟩
  obtain ⟨j, hj, e, hp⟩ := hi i hin
  refine ⟨j, hj, e, ?_⟩
  have hv : ∀ t, t < 6 * k ^ 2 → (WxVerif.Cube.placeOf k t).panel < 6 := by
    intro t ht
    rw [pow_two] at ht
    exact (WxVerif.Topology.placeOf_valid ht).1
  obtain ⟨o, o', ho, ho', heq⟩ := C48_edges lambda0 phi0 alpha0 h _ _ (hv s' hs') (hv rank hr) _ _ _ _ hp
  simp only [sidePosition, ho, ho', Option.map_some]
  exact ⟨_, rfl, by rw [heq r]⟩

/-! ## Rotations outside the regular ones -/

/-- **C48 (what fails)** With `phi0 = 0` and `alpha0 = -π/2`, just outside the documented range (whose
check is commented out in the code), panel 1 is centred on a pole and its orientation is undefined: the
middle of the edge between panels 0 and 1 is computed at two different places. -/
theorem C48_unchecked_range_fails : ∃ o o', panelOrientation 0 0 (-(π / 2)) 0 = some o ∧
    panelOrientation 0 0 (-(π / 2)) 1 = some o' ∧ point 0 1 0 = point 1 (-1) (0 : ℝ) ∧ cart o 1 1 0 ≠ cart o' 1 (-1) 0 := by
  refine ⟨_, _, rfl, rfl, by simp [point, normal, eastward, northward], ?_⟩
  simp only [cart_eq_frame, frame, ax0, ax1, ax2]
  intro h
  have h1 := congrArg Prod.fst h
  have hd : delta (-1) 0 = delta 1 0 := by unfold delta delta2; norm_num
  have h0 := delta_pos 1 0
  simp [atan2, hd] at h1
  rw [mul_comm (sin _), sub_self, mul_zero, neg_zero] at h1
  exact (inv_pos.mpr h0).ne' h1

/-- **C48 (what fails)** A rotation below the 1e-13 threshold but not zero is ignored by the two pole panels
and not by the others: at the middle of the edge between panels 0 and 4 the positions differ. -/
theorem C48_tiny_rotation_fails : ∃ o o', panelOrientation 0 1e-14 0 0 = some o ∧
    panelOrientation 0 1e-14 0 4 = some o' ∧ point 0 0 1 = point 4 0 (-1 : ℝ) ∧ cart o 1 0 1 ≠ cart o' 1 0 (-1) := by
  refine ⟨_, ⟨0, π / 2, -0⟩, rfl, ?_, by simp [point, normal, eastward, northward], ?_⟩
  · simp only [panelOrientation]; rw [if_pos (by norm_num [abs_of_pos])]
  · intro h
    simp only [cart_eq_frame, frame, ax0, ax1, ax2] at h
    have h1 := congrArg Prod.fst h
    have hd : delta 0 (-1) = delta 0 1 := by unfold delta delta2; norm_num
    have h0 := delta_pos 0 1
    simp [hd] at h1
    have hs : 0 < sin (1e-14 : ℝ) := sin_pos_of_pos_of_le_one (by norm_num) (by norm_num)
    have hc := cos_le_one (1e-14 : ℝ)
    have hi := inv_pos.mpr h0
    nlinarith

/-- non-trivial rotations are regular -/
example : Regular 0.3 0.2 (-0.1) := by
  refine C48_documented_ranges _ _ _ ?_ ?_ ?_ ?_ ?_
  · linarith [pi_gt_three]
  · linarith [pi_gt_three]
  · linarith [pi_gt_three]
  · norm_num
  · right; left; norm_num [abs_of_pos]

example : Regular 0.3 0 0 := C48_documented_ranges _ _ _ (by linarith [pi_gt_three]) (by linarith [pi_gt_three])
  (by linarith [pi_gt_three]) le_rfl (Or.inl ⟨rfl, rfl⟩)

/-- symmetric solution points exist -/
example : ∀ s, s < 2 → (fun s : Nat => if s = 0 then (-0.5 : ℝ) else 0.5) (2 - 1 - s) = -(fun s : Nat => if s = 0 then (-0.5 : ℝ) else 0.5) s := by
  intro s hs; interval_cases s <;> norm_num

end WxVerif.Props.Panels
