import Verif.Lemmas.Galewsky
import Mathlib.Analysis.Real.Pi.Bounds
import Mathlib.NumberTheory.Real.Irrational
import Mathlib.Data.Set.Finite.Basic
import Mathlib.Analysis.Complex.ExponentialBounds

/-!
# C102 — the barotropic jet starts in balance

Shallow-water case 8 (Galewsky, Scott and Polvani).  The zonal wind is the smooth jet of the paper, the unperturbed depth is the one that balances
it up to the error of the numerical integration, which is bounded, and the program divides by zero only at finitely many latitudes.  Two parts are
false of the program: at the edges of the jet it raises, and the perturbation is cut in half along the meridian of longitude zero.
-/

namespace WxVerif.Props.Galewsky

open WxVerif.Sphere WxVerif.Flux WxVerif.Spec.ZonalJet WxVerif.Galewsky
open Real Set

/-- **C102** The wind profile the program evaluates is, except at its two edges, the jet of the paper.  This jet is infinitely smooth, positive
exactly between its edges, never stronger than 80 m/s, and that strong exactly at latitude `π/4`. -/
theorem C102_jet_partial :
    (∀ lat, lat ≠ π / 7 → lat ≠ π / 2 - π / 7 → evalU lat = some (jet lat)) ∧
    (∀ n : ℕ, ContDiff ℝ n jet) ∧
    (∀ φ, 0 ≤ jet φ ∧ jet φ ≤ 80) ∧
    (∀ φ, 0 < jet φ ↔ π / 7 < φ ∧ φ < π / 2 - π / 7) ∧
    ∀ φ, jet φ = 80 ↔ φ = π / 4 := by
  obtain ⟨h0, h1, h2⟩ := edges
  have hE : 0 < 80 / exp (-4 / ((π / 2 - π / 7) - π / 7) ^ 2) := by positivity
  have hpos : ∀ φ, 0 < jet φ ↔ π / 7 < φ ∧ φ < π / 2 - π / 7 := by
    intro φ
    rw [inside_iff, jet_eq]
    constructor
    · intro h
      by_contra h'
      rw [expNegInvGlue.zero_of_nonpos (not_lt.1 h'), mul_zero] at h
      exact lt_irrefl _ h
    · intro h
      exact mul_pos hE (expNegInvGlue.pos_of_pos h)
  have hval : ∀ φ, π / 7 < φ ∧ φ < π / 2 - π / 7 →
      jet φ = 80 * exp (4 / ((π / 2 - π / 7) - π / 7) ^ 2 - ((φ - π / 7) * (π / 2 - π / 7 - φ))⁻¹) := by
    intro φ h
    rw [jet_eq, expNegInvGlue, if_neg (not_le.2 ((inside_iff φ).1 h)), exp_sub, neg_div, exp_neg, exp_neg]
    field_simp
  have hw : 0 < ((π / 2 - π / 7) - π / 7) ^ 2 := by
    have : 0 < (π / 2 - π / 7) - π / 7 := by linarith
    positivity
  have hexp : ∀ φ, π / 7 < φ ∧ φ < π / 2 - π / 7 →
      4 / ((π / 2 - π / 7) - π / 7) ^ 2 ≤ ((φ - π / 7) * (π / 2 - π / 7 - φ))⁻¹ := by
    intro φ h
    have hp := (inside_iff φ).1 h
    rw [div_le_iff₀ hw, inv_mul_eq_div, le_div_iff₀ hp]
    nlinarith [sq_nonneg (φ - π / 4)]
  refine ⟨?_, fun n => by exact_mod_cast jet_contDiff n, ?_, hpos, ?_⟩
  · intro lat ha hb
    rw [evalU_eq, if_neg (by tauto)]
  · intro φ
    by_cases h : π / 7 < φ ∧ φ < π / 2 - π / 7
    · refine ⟨((hpos φ).2 h).le, ?_⟩
      rw [hval φ h]
      have := exp_le_one_iff.2 (sub_nonpos.2 (hexp φ h))
      linarith
    · rw [jet_zero h]; norm_num
  · intro φ
    constructor
    · intro h
      have hin := (hpos φ).1 (by rw [h]; norm_num)
      rw [hval φ hin] at h
      have h3 : exp (4 / ((π / 2 - π / 7) - π / 7) ^ 2 - ((φ - π / 7) * (π / 2 - π / 7 - φ))⁻¹) = 1 := by linarith
      rw [exp_eq_one_iff, sub_eq_zero, div_eq_iff hw.ne', inv_mul_eq_div, eq_div_iff ((inside_iff φ).1 hin).ne'] at h3
      have : (φ - π / 4) ^ 2 = 0 := by linear_combination -1 / 4 * h3
      have := pow_eq_zero_iff (two_ne_zero) |>.1 this
      linarith
    · rintro rfl
      have hin : π / 7 < π / 4 ∧ π / 4 < π / 2 - π / 7 := by
        have := pi_pos
        constructor <;> linarith
      rw [hval _ hin]
      have : 4 / ((π / 2 - π / 7) - π / 7) ^ 2 - ((π / 4 - π / 7) * (π / 2 - π / 7 - π / 4))⁻¹ = 0 := by
        have := pi_pos.ne'
        field_simp
        norm_num
      rw [this, exp_zero, mul_one]

/-- **C102** At the edges of the jet the program raises instead. -/
theorem C102_edges_fails (a Ω lon : ℝ) :
    evalU (π / 7) = none ∧ evalU (π / 2 - π / 7) = none ∧ fields a Ω lon (π / 7) = none ∧ fields a Ω lon (π / 2 - π / 7) = none := by
  have h1 : evalU (π / 7) = none := by rw [evalU_eq, if_pos (Or.inl rfl)]
  have h2 : evalU (π / 2 - π / 7) = none := by rw [evalU_eq, if_pos (Or.inr rfl)]
  refine ⟨h1, h2, ?_, ?_⟩
  · unfold fields wind; rw [h1]; cases balancedHeight a Ω (π / 7) <;> rfl
  · unfold fields wind; rw [h2]; cases balancedHeight a Ω (π / 2 - π / 7) <;> rfl

/-- the nodes of the numerical integration -/
theorem node_eq (lat : ℝ) (k : Nat) (m : ℝ) :
    dXeval lat k m = -(π / 2) + (lat + π / 2) / nIntervals lat * (k + 1 / 2 + m * √(1 / 3) / 2) := by
  simp only [dXeval, latX]
  push_cast
  ring

theorem s_bounds : 0 < √(1 / 3 : ℝ) ∧ √(1 / 3 : ℝ) < 1 := by
  constructor
  · positivity
  · rw [sqrt_lt' (by norm_num)]; norm_num

theorem c_pos (k : Nat) {m : ℝ} (hm : m = -1 ∨ m = 1) : 0 < (k : ℝ) + 1 / 2 + m * √(1 / 3) / 2 := by
  obtain ⟨s0, s1⟩ := s_bounds
  have : (0 : ℝ) ≤ k := Nat.cast_nonneg k
  rcases hm with rfl | rfl <;> linarith

/-- when the loop does not raise, its result is the one of the composite Gauss rule -/
theorem height_some {a Ω lat h : ℝ} (hh : balancedHeight a Ω lat = some h) :
    h = 10158.18617045463179 - (∑ k ∈ Finset.range (nIntervals lat), (lat + π / 2) / nIntervals lat / 2 *
      (fall a Ω jet (-(π / 2) + (lat + π / 2) / nIntervals lat * k + (lat + π / 2) / nIntervals lat / 2 - √(1 / 3) * ((lat + π / 2) / nIntervals lat / 2))
        + fall a Ω jet (-(π / 2) + (lat + π / 2) / nIntervals lat * k + (lat + π / 2) / nIntervals lat / 2 + √(1 / 3) * ((lat + π / 2) / nIntervals lat / 2))))
      / gravity := by
  unfold balancedHeight at hh
  cases hI : hIntegrand a Ω lat with
  | none => rw [hI] at hh; simp at hh
  | some s =>
    rw [hI] at hh
    simp only [Option.map_some, Option.some.injEq] at hh
    have h1 := outer_sum (fun k m => term a Ω (dXeval lat k m)) (fun k m => fall a Ω jet (dXeval lat k m)) (fun k m y hy => term_some hy)
      _ _ _ hI
    rw [← hh, h1, zero_add, ← Finset.mul_sum]
    congr 2
    have hw : 0.5 * (latX lat 1 - latX lat 0) = (lat + π / 2) / nIntervals lat / 2 := by
      simp only [latX]; push_cast; ring
    rw [hw, mul_comm, ← List.sum_toFinset _ List.nodup_range, List.toFinset_range]
    congr 1
    apply Finset.sum_congr rfl
    intro k _
    rw [node_eq, node_eq]
    congr 2 <;> ring

/-- what a point that the program sets has -/
theorem fields_some {a Ω lon lat u v h : ℝ} (hh : fields a Ω lon lat = some (u, v, h)) :
    u = jet lat ∧ v = 0 ∧ ∃ b, balancedHeight a Ω lat = some b ∧ h = b + perturbation lon lat := by
  unfold fields at hh
  cases hb : balancedHeight a Ω lat with
  | none => rw [hb] at hh; simp at hh
  | some b =>
    rw [hb] at hh
    simp only [Option.bind_some] at hh
    cases hw : wind lon lat with
    | none => rw [hw] at hh; simp at hh
    | some w =>
      rw [hw] at hh
      simp only [Option.map_some, Option.some.injEq, Prod.mk.injEq] at hh
      obtain ⟨rfl, rfl, rfl⟩ := hh
      refine ⟨?_, rfl, b, rfl, rfl⟩
      unfold wind at hw
      rw [evalU_eq] at hw
      by_cases h1 : lat = π / 7 ∨ lat = π / 2 - π / 7
      · rw [if_pos h1] at hw; simp at hw
      · rw [if_neg h1] at hw
        simp only [Option.map_some, Option.some.injEq] at hw
        rw [← hw]
        split_ifs with h2
        · rfl
        · have h3 : cos lon ≠ 0 := by
            intro h3
            rw [h3] at h2
            apply h2
            norm_num
          rw [zero_mul, zero_mul, zero_add, mul_div_assoc, div_self h3, mul_one]

/-- **C102** There is one depth profile that starts at the south pole with the depth of the paper and that, with the jet, is a steady solution of
the shallow-water equations at every latitude.  Wherever the program sets a point, the wind is the jet, the meridional wind is zero, and the depth
without the perturbation differs from this profile by at most the error of its numerical integration: if `M` bounds the fourth derivative of the
integrated function south of the point, by `7/8640 · M (lat + π/2) (0.02)⁴ / g`. -/
theorem C102_balanced_partial {a : ℝ} (ha : a ≠ 0) (Ω : ℝ) :
    ∃ H : ℝ → ℝ, H (-(π / 2)) = 10158.18617045463179 ∧ (∀ φ, SteadyZonal a Ω gravity jet H φ) ∧
      ∀ lon lat u v h, lat ∈ Icc (-(π / 2)) (π / 2) → fields a Ω lon lat = some (u, v, h) →
        u = jet lat ∧ v = 0 ∧
        ∀ M, (∀ y ∈ Icc (-(π / 2)) lat, |iteratedDeriv 4 (fall a Ω jet) y| ≤ M) →
          |h - perturbation lon lat - H lat| ≤ 7 / 8640 * M * (lat + π / 2) * 0.02 ^ 4 / gravity := by
  have hg : (0 : ℝ) < gravity := by norm_num [gravity]
  have hF : ContDiff ℝ 4 (fall a Ω jet) := by exact_mod_cast fall_contDiff a Ω 4
  refine ⟨fun φ => 10158.18617045463179 - (∫ x in (-(π / 2))..φ, fall a Ω jet x) / gravity, ?_, ?_, ?_⟩
  · simp
  · intro φ
    have hd : HasDerivAt (fun φ => ∫ x in (-(π / 2))..φ, fall a Ω jet x) (fall a Ω jet φ) φ :=
      intervalIntegral.integral_hasDerivAt_right (hF.continuous.intervalIntegrable _ _)
        hF.continuous.stronglyMeasurable.stronglyMeasurableAtFilter hF.continuous.continuousAt
    refine ⟨-(fall a Ω jet φ / gravity), ?_, ?_⟩
    · exact ((hd.div_const gravity).const_sub _)
    · unfold fall
      field_simp
      ring
  · intro lon lat u v h hl hh
    obtain ⟨hu, hv, b, hb, rfl⟩ := fields_some hh
    refine ⟨hu, hv, ?_⟩
    intro M hM
    have hn : (0 : ℝ) < nIntervals lat := by exact_mod_cast nIntervals_pos lat
    obtain ⟨d0, d1⟩ := width_le hl.1
    have e5 : lat + 0.5 * π = lat + π / 2 := by ring
    rw [e5] at d0 d1
    have hend : -(π / 2) + (lat + π / 2) / nIntervals lat * nIntervals lat = lat := by
      rw [div_mul_cancel₀ _ hn.ne']; ring
    have hc := GaussPanels.composite hF (b := -(π / 2)) (d := (lat + π / 2) / nIntervals lat) (M := M) (nIntervals lat) d0 (by
      rw [hend]; exact hM)
    rw [hend] at hc
    rw [height_some hb]
    have hM0 : 0 ≤ M := (abs_nonneg _).trans (hM (-(π / 2)) ⟨le_rfl, hl.1⟩)
    generalize (∑ k ∈ Finset.range (nIntervals lat), _ : ℝ) = S at hc ⊢
    have e1 : 10158.18617045463179 - S / gravity + perturbation lon lat - perturbation lon lat
        - (10158.18617045463179 - (∫ x in (-(π / 2))..lat, fall a Ω jet x) / gravity)
        = ((∫ x in (-(π / 2))..lat, fall a Ω jet x) - S) / gravity := by ring
    rw [e1, abs_div, abs_of_pos hg]
    apply div_le_div_of_nonneg_right _ hg.le
    refine hc.trans ?_
    have e2 : 7 / 8640 * M * ((lat + π / 2) / nIntervals lat) ^ 5 * nIntervals lat
        = 7 / 8640 * M * (lat + π / 2) * ((lat + π / 2) / nIntervals lat) ^ 4 := by
      field_simp
    rw [e2]
    have e3 : ((lat + π / 2) / nIntervals lat) ^ 4 ≤ 0.02 ^ 4 := pow_le_pow_left₀ d0 d1 4
    apply mul_le_mul_of_nonneg_left e3
    have : 0 ≤ lat + π / 2 := by linarith [hl.1]
    positivity

/-- The bound `M` exists. -/
example (a Ω : ℝ) : ∃ M, ∀ y ∈ Icc (-(π / 2)) (π / 2), |iteratedDeriv 4 (fall a Ω jet) y| ≤ M := by
  have hF : ContDiff ℝ 4 (fall a Ω jet) := by exact_mod_cast fall_contDiff a Ω 4
  have hc : Continuous (iteratedDeriv 4 (fall a Ω jet)) := hF.continuous_iteratedDeriv 4 le_rfl
  obtain ⟨M, hM⟩ := isCompact_Icc.exists_bound_of_continuousOn (s := Icc (-(π / 2)) (π / 2)) hc.continuousOn
  exact ⟨M, fun y hy => hM y hy⟩

theorem fields_none {a Ω lon lat : ℝ} (h : fields a Ω lon lat = none) :
    (lat = π / 7 ∨ lat = π / 2 - π / 7) ∨ ∃ k < nIntervals lat, ∃ m : ℝ, (m = -1 ∨ m = 1) ∧
      (dXeval lat k m = π / 7 ∨ dXeval lat k m = π / 2 - π / 7) := by
  by_cases h1 : lat = π / 7 ∨ lat = π / 2 - π / 7
  · exact Or.inl h1
  · right
    apply integrand_none (a := a) (Ω := Ω)
    cases hI : hIntegrand a Ω lat with
    | none => rfl
    | some s =>
      exfalso
      unfold fields balancedHeight wind at h
      rw [hI, evalU_eq, if_neg h1] at h
      simp at h

/-- **C102** The program raises at finitely many latitudes only, the same at every longitude. -/
theorem C102_defined (a Ω : ℝ) : {lat | lat ∈ Icc (-(π / 2)) (π / 2) ∧ ∃ lon, fields a Ω lon lat = none}.Finite := by
  let F : (ℕ × ℕ) × (ℝ × ℝ) → ℝ := fun q => (q.2.2 + π / 2) / ((q.1.2 : ℝ) + 1 / 2 + q.2.1 * √(1 / 3) / 2) * q.1.1 - π / 2
  have hfin : (({π / 7, π / 2 - π / 7} : Set ℝ) ∪ F '' (((Iio 1000 : Set ℕ) ×ˢ (Iio 1000 : Set ℕ)) ×ˢ
      (({-1, 1} : Set ℝ) ×ˢ ({π / 7, π / 2 - π / 7} : Set ℝ)))).Finite := by
    apply Set.Finite.union (Set.toFinite _)
    apply Set.Finite.image
    exact ((Set.finite_Iio 1000).prod (Set.finite_Iio 1000)).prod ((Set.toFinite _).prod (Set.toFinite _))
  apply hfin.subset
  rintro lat ⟨hl, lon, h⟩
  rcases fields_none h with h1 | ⟨k, hk, m, hm, hx⟩
  · left; exact h1
  · right
    have hn : (0 : ℝ) < nIntervals lat := by exact_mod_cast nIntervals_pos lat
    have hN : nIntervals lat < 1000 := by
      show (if _ < 1 then 1 else _) < 1000
      split_ifs
      · norm_num
      · rw [Nat.floor_lt' (by norm_num), div_lt_iff₀ (by norm_num)]
        have := pi_lt_four
        have := hl.2
        push_cast
        linarith
    have hc := c_pos k hm
    refine ⟨((nIntervals lat, k), (m, dXeval lat k m)), ⟨⟨hN, hk.trans hN⟩, ⟨by simpa using hm, by simpa using hx⟩⟩, ?_⟩
    show (dXeval lat k m + π / 2) / ((k : ℝ) + 1 / 2 + m * √(1 / 3) / 2) * nIntervals lat - π / 2 = lat
    rw [node_eq]
    generalize (k : ℝ) + 1 / 2 + m * √(1 / 3) / 2 = c at hc
    generalize ((nIntervals lat : ℕ) : ℝ) = n at hn
    field_simp
    ring

theorem irr : Irrational (√(1 / 3 : ℝ)) := by
  have h3 : Irrational (√(3 : ℝ)) := by exact_mod_cast Nat.Prime.irrational_sqrt (p := 3) Nat.prime_three
  have : √(1 / 3 : ℝ) = √3 * ((1 / 3 : ℚ) : ℝ) := by
    rw [sqrt_eq_iff_mul_self_eq (by norm_num) (by positivity)]
    have := mul_self_sqrt (show (0 : ℝ) ≤ 3 by norm_num)
    push_cast
    linear_combination (-1 / 9 : ℝ) * this
  rw [this]
  exact h3.mul_ratCast (by norm_num)

/-- **C102** At a latitude that is a rational multiple of `π` and not an edge of the jet the program does not raise. -/
theorem C102_rational (a Ω lon : ℝ) (q : ℚ) (h1 : q ≠ 1 / 7) (h2 : q ≠ 1 / 2 - 1 / 7) : fields a Ω lon (q * π) ≠ none := by
  intro h
  have hp := pi_pos
  have ne : ∀ r s : ℚ, r ≠ s → (r : ℝ) * π ≠ s * π := fun r s hrs he => hrs (by exact_mod_cast mul_right_cancel₀ hp.ne' he)
  rcases fields_none h with h' | ⟨k, hk, m, hm, hx⟩
  · rcases h' with h' | h'
    · exact ne q (1 / 7) h1 (by rw [h']; push_cast; ring)
    · exact ne q (1 / 2 - 1 / 7) h2 (by rw [h']; push_cast; ring)
  · have hn : ((nIntervals (q * π) : ℕ) : ℝ) ≠ 0 := by exact_mod_cast (nIntervals_pos (q * π)).ne'
    obtain ⟨c, hc, hc2⟩ : ∃ c : ℚ, dXeval (q * π) k m = c * π ∧ 0 < c := by
      rcases hx with hx | hx
      · exact ⟨1 / 7, by rw [hx]; push_cast; ring, by norm_num⟩
      · exact ⟨1 / 2 - 1 / 7, by rw [hx]; push_cast; ring, by norm_num⟩
    rw [node_eq] at hc
    obtain ⟨e, he, he1⟩ : ∃ e : ℚ, m = (e : ℝ) ∧ e ≠ 0 := by
      rcases hm with rfl | rfl
      · exact ⟨-1, by norm_num, by norm_num⟩
      · exact ⟨1, by norm_num, by norm_num⟩
    generalize nIntervals (q * π) = N at hn hc
    have key : ((q : ℝ) + 1 / 2) * (k + 1 / 2 + e * √(1 / 3) / 2) = (c + 1 / 2) * N := by
      rw [he] at hc
      field_simp at hc
      apply mul_left_cancel₀ (show (2 : ℝ) ^ 3 * π ≠ 0 by positivity)
      linear_combination (2 * π) * hc
    have hq : q + 1 / 2 ≠ 0 := by
      intro hq
      have hq' : (q : ℝ) + 1 / 2 = 0 := by have := congrArg (fun x : ℚ => (x : ℝ)) hq; push_cast at this; exact this
      rw [hq', zero_mul] at key
      have : (0 : ℝ) < c := by exact_mod_cast hc2
      have h3 : (c : ℝ) + 1 / 2 ≠ 0 := by positivity
      exact (mul_ne_zero h3 hn) key.symm
    have hq' : (q : ℝ) + 1 / 2 ≠ 0 := by
      intro h0
      apply hq
      have : ((q + 1 / 2 : ℚ) : ℝ) = 0 := by push_cast; exact h0
      exact_mod_cast this
    have he' : (e : ℝ) ≠ 0 := by exact_mod_cast he1
    apply irr
    refine ⟨((c + 1 / 2) * N / (q + 1 / 2) - k - 1 / 2) * 2 / e, ?_⟩
    push_cast
    rw [← key, mul_comm, mul_div_assoc, mul_div_cancel_left₀ _ hq']
    field_simp
    ring

/-- the latitude `π/4`, where the jet is strongest -/
theorem middle (a Ω lon : ℝ) : ∃ h, fields a Ω lon (π / 4) = some (80, 0, h) := by
  have h := C102_rational a Ω lon (1 / 4) (by norm_num) (by norm_num)
  rw [show ((1 / 4 : ℚ) : ℝ) * π = π / 4 by push_cast; ring] at h
  obtain ⟨⟨u, v, h'⟩, hf⟩ := Option.ne_none_iff_exists'.1 h
  obtain ⟨hu, hv, -⟩ := fields_some hf
  refine ⟨h', ?_⟩
  rw [hf, hu, hv, (C102_jet_partial.2.2.2.2 _).2 rfl]

/-- A point at latitude `π/4`, on Earth. -/
example : ∃ h, fields 6371220 7.29212e-5 3 (π / 4) = some (80, 0, h) := middle _ _ _

/-- **C102** South of the jet the layer is at rest, and its unperturbed depth is exactly the one of the paper. -/
theorem C102_south (a Ω lon : ℝ) {lat : ℝ} (h1 : -(π / 2) ≤ lat) (h2 : lat < π / 7) :
    fields a Ω lon lat = some (0, 0, 10158.18617045463179 + perturbation lon lat) := by
  have hn : (0 : ℝ) < nIntervals lat := by exact_mod_cast nIntervals_pos lat
  obtain ⟨e0, e1, e2⟩ := edges
  obtain ⟨s0, s1⟩ := s_bounds
  have hnode : ∀ k < nIntervals lat, ∀ m : ℝ, (m = -1 ∨ m = 1) → dXeval lat k m < π / 7 := by
    intro k hk m hm
    rw [node_eq]
    have hk' : (k : ℝ) + 1 ≤ nIntervals lat := by exact_mod_cast hk
    have hc : (k : ℝ) + 1 / 2 + m * √(1 / 3) / 2 ≤ nIntervals lat := by rcases hm with rfl | rfl <;> linarith
    have h3 : (lat + π / 2) / nIntervals lat * (k + 1 / 2 + m * √(1 / 3) / 2) ≤ (lat + π / 2) / nIntervals lat * nIntervals lat :=
      mul_le_mul_of_nonneg_left hc (div_nonneg (by linarith) hn.le)
    rw [div_mul_cancel₀ _ hn.ne'] at h3
    linarith
  have hne : fields a Ω lon lat ≠ none := by
    intro h
    rcases fields_none h with h' | ⟨k, hk, m, hm, hx⟩
    · rcases h' with h' | h' <;> linarith
    · have := hnode k hk m hm
      rcases hx with hx | hx <;> linarith
  obtain ⟨⟨u, v, h'⟩, hf⟩ := Option.ne_none_iff_exists'.1 hne
  obtain ⟨rfl, rfl, b, hb, rfl⟩ := fields_some hf
  have hj : jet lat = 0 := jet_zero (by rintro ⟨p, q⟩; linarith)
  rw [hf, hj]
  have hb' := height_some hb
  rw [Finset.sum_eq_zero] at hb'
  · rw [hb']; simp
  · intro k hk
    have k1 := hnode k (Finset.mem_range.1 hk) (-1) (Or.inl rfl)
    have k2 := hnode k (Finset.mem_range.1 hk) 1 (Or.inr rfl)
    rw [node_eq] at k1 k2
    have z : ∀ x, x < π / 7 → fall a Ω jet x = 0 := by
      intro x hx
      have : jet x = 0 := jet_zero (by rintro ⟨p, q⟩; linarith)
      simp [fall, this]
    rw [z _ (by refine lt_of_eq_of_lt ?_ k1; ring), z _ (by refine lt_of_eq_of_lt ?_ k2; ring)]
    ring

/-- a point at the equator, on Earth -/
example : fields 6371220 7.29212e-5 3 0 = some (0, 0, 10158.18617045463179 + perturbation 3 0) :=
  C102_south _ _ _ (by linarith [pi_pos]) (by positivity)

/-- **C102** On the eastern half of the sphere the perturbation at a point is the bump of the paper. -/
theorem C102_perturbation_partial {r lon lat : ℝ} (hr : 0 < r) (h1 : 0 ≤ lon) (h2 : lon ≤ π) (hl : lat ∈ Ioo (-(π / 2)) (π / 2)) :
    perturbation (cart2sph (sph2cart lon lat r)).1 (cart2sph (sph2cart lon lat r)).2.1 = bump lon lat := by
  rw [sph_of_cart ⟨by linarith [pi_pos], h2⟩ hl hr, if_neg (not_lt.2 h1)]
  unfold perturbation bump
  congr 2
  · congr 2; ring
  · congr 1; ring

/-- the hypotheses are met -/
example : perturbation (cart2sph (sph2cart 1 1 6371220)).1 (cart2sph (sph2cart 1 1 6371220)).2.1 = bump 1 1 :=
  C102_perturbation_partial (by norm_num) (by norm_num) (by linarith [pi_gt_three]) ⟨by linarith [pi_pos], by linarith [pi_gt_three]⟩

/-- On the western half it is missing: it is smaller than `exp (-80)` times the bump at longitude zero. -/
theorem west {r lon lat : ℝ} (hr : 0 < r) (h1 : -π < lon) (h2 : lon < 0) (hl : lat ∈ Ioo (-(π / 2)) (π / 2)) :
    perturbation (cart2sph (sph2cart lon lat r)).1 (cart2sph (sph2cart lon lat r)).2.1 ≤ exp (-80) * bump 0 lat := by
  rw [sph_of_cart ⟨h1, by linarith [pi_pos]⟩ hl hr, if_pos h2]
  have hc : 0 < cos lat := cos_pos_of_mem_Ioo hl
  have h3 : (3 : ℝ) < lon + 2 * π := by linarith [pi_gt_three]
  have h4 : exp (-(((lon + 2 * π) / (1 / 3)) ^ 2)) ≤ exp (-80) := by
    apply exp_le_exp.2
    nlinarith
  have e1 : exp (-(((π / 4 - lat) / (1 / 15)) ^ 2)) = exp (-(15 * (π / 4 - lat)) ^ 2) := by congr 1; ring
  show 120 * cos lat * exp (-(((lon + 2 * π) / (1 / 3)) ^ 2)) * exp (-(((π / 4 - lat) / (1 / 15)) ^ 2)) ≤ _
  unfold bump
  rw [e1]
  have e2 : exp (-(3 * (0 : ℝ)) ^ 2) = 1 := by norm_num
  rw [e2]
  have := exp_pos (-(15 * (π / 4 - lat)) ^ 2)
  have h5 := mul_le_mul_of_nonneg_right h4 (show 0 ≤ 120 * cos lat * exp (-(15 * (π / 4 - lat)) ^ 2) by positivity)
  linarith

/-- **C102** The western half of the perturbation is missing, because the longitudes of the grid are between zero and `2π`: the depth the program
sets jumps along the meridian of longitude zero.  At latitude `π/4` every point slightly to the west of it, and there is one within any distance, has
a depth that is more than 80 m smaller. -/
theorem C102_perturbation_fails {r : ℝ} (hr : 0 < r) (Ω : ℝ) {ε : ℝ} (h1 : 0 < ε) (h2 : ε < π) :
    ∃ h hw : ℝ,
      fields r Ω (cart2sph (sph2cart 0 (π / 4) r)).1 (cart2sph (sph2cart 0 (π / 4) r)).2.1 = some (80, 0, h) ∧
      fields r Ω (cart2sph (sph2cart (-ε) (π / 4) r)).1 (cart2sph (sph2cart (-ε) (π / 4) r)).2.1 = some (80, 0, hw) ∧
      h - hw > 80 := by
  have hl : π / 4 ∈ Ioo (-(π / 2)) (π / 2) := ⟨by linarith [pi_pos], by linarith [pi_pos]⟩
  have e0 := C102_perturbation_partial hr le_rfl pi_pos.le hl
  have ew := west hr (lon := -ε) (by linarith) (by linarith) hl
  have c0 := sph_of_cart (θ := 0) ⟨by linarith [pi_pos], pi_pos.le⟩ hl hr
  have cw := sph_of_cart (θ := -ε) ⟨by linarith, by linarith [pi_pos]⟩ hl hr
  rw [c0] at e0 ⊢
  rw [cw] at ew ⊢
  obtain ⟨h, hh⟩ := middle r Ω (if (0 : ℝ) < 0 then 0 + 2 * π else 0)
  obtain ⟨hw, hhw⟩ := middle r Ω (if -ε < 0 then -ε + 2 * π else -ε)
  refine ⟨h, hw, hh, hhw, ?_⟩
  obtain ⟨-, -, b, hb, rfl⟩ := fields_some hh
  obtain ⟨-, -, b', hb', rfl⟩ := fields_some hhw
  have hbb : b = b' := by rw [hb] at hb'; exact Option.some.inj hb'
  subst hbb
  dsimp only at e0 ew
  rw [e0]
  have hbump : bump 0 (π / 4) = 120 * (√2 / 2) := by
    unfold bump
    rw [cos_pi_div_four]
    norm_num
  rw [hbump] at ew ⊢
  have hs : 1.414 < √2 := by
    rw [lt_sqrt (by norm_num)]; norm_num
  have hs2 : √2 < 1.415 := by
    rw [sqrt_lt' (by norm_num)]; norm_num
  have he : exp (-80) ≤ 1 / 81 := by
    rw [exp_neg, ← one_div]
    apply one_div_le_one_div_of_le (by norm_num)
    have := add_one_le_exp (80 : ℝ)
    linarith
  nlinarith

/-- **C102** On the grid: at the point of a panel that has longitude `lon` and latitude `lat`, the program gives the wind and the depth of that
longitude (counted from zero to `2π`) and latitude. -/
theorem C102_points (o : Orientation) {a : ℝ} (ha : 0 < a) (Ω X Y : ℝ) {lon lat : ℝ} (h1 : lon ∈ Ioc (-π) π) (h2 : lat ∈ Ioo (-(π / 2)) (π / 2))
    (h : cart o a X Y = sph2cart lon lat a) :
    pointFields o a Ω X Y = fields a Ω (if lon < 0 then lon + 2 * π else lon) lat := by
  unfold pointFields pointLon pointLat
  rw [h, sph_of_cart h1 h2 ha]

/-- the centre of the first panel -/
example : cart ⟨0, 0, 0⟩ 6371220 0 0 = sph2cart 0 0 6371220 := by
  simp [cart, sph2cart, delta, WxVerif.Sphere.delta2]

end WxVerif.Props.Galewsky
