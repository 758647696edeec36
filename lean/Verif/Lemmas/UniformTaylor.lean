import Mathlib.Analysis.Calculus.ContDiff.RCLike
import Mathlib.Analysis.Calculus.MeanValue
import Mathlib.Analysis.Calculus.ContDiff.Comp
import Mathlib.Analysis.Calculus.ContDiff.Operations
import Mathlib.Analysis.Calculus.Deriv.Comp
import Mathlib.Analysis.Calculus.Deriv.Pow
import Mathlib.Analysis.Calculus.Deriv.Mul
import Mathlib.Analysis.Calculus.Deriv.Add
import Mathlib.Analysis.Normed.Module.Multilinear.Basic
import Mathlib.Tactic.Module
import Mathlib.Tactic.FieldSimp

/-!
# Taylor expansions that hold uniformly along a compact set
-/

namespace WxVerif.UniformTaylor

open Set Filter Topology

variable {V : Type*} [NormedAddCommGroup V] [NormedSpace ℝ V]

/-- Taylor's formula along the unit segment, with a crude bound of the remainder -/
theorem taylor_line (q : Nat) (φ : Nat → ℝ → V) (B : ℝ) (hφ : ∀ m ≤ q, ∀ s ∈ Icc (0 : ℝ) 1, HasDerivAt (φ m) (φ (m + 1) s) s)
    (hB : ∀ s ∈ Icc (0 : ℝ) 1, ‖φ (q + 1) s‖ ≤ B) (s : ℝ) (hs : s ∈ Icc (0 : ℝ) 1) :
    ‖φ 0 s - ∑ m ∈ Finset.range (q + 1), (s ^ m / (m.factorial : ℝ)) • φ m 0‖ ≤ B := by
  have hB0 : 0 ≤ B := (norm_nonneg _).trans (hB 0 (by simp))
  have close : ∀ (g g' : ℝ → V), (∀ s ∈ Icc (0 : ℝ) 1, HasDerivAt g (g' s) s) → (∀ s ∈ Icc (0 : ℝ) 1, ‖g' s‖ ≤ B) →
      ∀ s ∈ Icc (0 : ℝ) 1, ‖g s - g 0‖ ≤ B := by
    intro g g' hg hb s hs
    have := norm_image_sub_le_of_norm_deriv_le_segment' (f := g) (f' := g') (a := 0) (b := 1) (C := B)
      (fun x hx => (hg x hx).hasDerivWithinAt) (fun x hx => hb x ⟨hx.1, hx.2.le⟩) s hs
    refine this.trans ?_
    nlinarith [hs.1, hs.2]
  induction q generalizing φ s with
  | zero =>
    have := close (φ 0) (φ 1) (hφ 0 le_rfl) hB s hs
    simpa using this
  | succ q ih =>
    have h1 := ih (fun m => φ (m + 1)) (fun m hm => hφ (m + 1) (by omega)) hB
    have := close (fun s => φ 0 s - ∑ m ∈ Finset.range (q + 1 + 1), (s ^ m / (m.factorial : ℝ)) • φ m 0)
      (fun s => φ 1 s - ∑ m ∈ Finset.range (q + 1), (s ^ m / (m.factorial : ℝ)) • φ (m + 1) 0) (by
        intro s hs
        refine (hφ 0 (by omega) s hs).sub ?_
        have hd : HasDerivAt (fun s : ℝ => ∑ m ∈ Finset.range (q + 1 + 1), (s ^ m / (m.factorial : ℝ)) • φ m 0)
            (∑ m ∈ Finset.range (q + 1 + 1), (((m : ℝ) * s ^ (m - 1)) / (m.factorial : ℝ)) • φ m 0) s :=
          HasDerivAt.fun_sum fun m _ => ((hasDerivAt_pow m s).div_const _).smul_const _
        refine hd.congr_deriv ?_
        rw [Finset.sum_range_succ']
        simp only [Nat.cast_zero, zero_mul, zero_div, zero_smul, add_zero, Nat.add_sub_cancel]
        refine Finset.sum_congr rfl fun m _ => ?_
        congr 1
        rw [Nat.factorial_succ]
        push_cast
        have : ((m : ℝ) + 1) ≠ 0 := by positivity
        field_simp) (fun s hs => h1 s hs) s hs
    have e : ∑ m ∈ Finset.range (q + 1 + 1), ((0 : ℝ) ^ m / (m.factorial : ℝ)) • φ m 0 = φ 0 0 := by
      rw [Finset.sum_range_succ']; simp
    beta_reduce at this
    rw [e] at this
    simpa using this

/-- the Taylor polynomial of degree `q` of `f` at `x`, as a function of the increment -/
noncomputable def taylorPoly (f : V → V) (q : Nat) (x P : V) : V :=
  ∑ m ∈ Finset.range (q + 1), (1 / (m.factorial : ℝ)) • iteratedFDeriv ℝ m f x (fun _ => P)

theorem local_taylor (f : V → V) (q : Nat) (x0 : V) (hf : ContDiffAt ℝ ((q + 1 : Nat) : WithTop ℕ∞) f x0) :
    ∃ r > 0, ∃ M : ℝ, ∀ x P : V, ‖x - x0‖ < r → ‖x + P - x0‖ < r → ‖f (x + P) - taylorPoly f q x P‖ ≤ M * ‖P‖ ^ (q + 1) := by
  have hev := hf.eventually (by simp)
  have hc := hf.continuousAt_iteratedFDeriv (k := q + 1) le_rfl
  have hb : ∀ᶠ x in 𝓝 x0, ‖iteratedFDeriv ℝ (q + 1) f x‖ < ‖iteratedFDeriv ℝ (q + 1) f x0‖ + 1 :=
    hc.norm.eventually (gt_mem_nhds (by linarith))
  obtain ⟨r, r0, hr⟩ := Metric.eventually_nhds_iff.1 (hev.and hb)
  refine ⟨r, r0, ‖iteratedFDeriv ℝ (q + 1) f x0‖ + 1, fun x P hx hP => ?_⟩
  have seg : ∀ s ∈ Icc (0 : ℝ) 1, dist (x + s • P) x0 < r := by
    intro s hs
    have h1 : x ∈ Metric.ball x0 r := by simpa [dist_eq_norm] using hx
    have h2 : x + P ∈ Metric.ball x0 r := by simpa [dist_eq_norm] using hP
    have := (convex_ball x0 r).add_smul_mem h1 h2 hs
    simpa using this
  have key := taylor_line q (fun m s => iteratedFDeriv ℝ m f (x + s • P) (fun _ => P)) ((‖iteratedFDeriv ℝ (q + 1) f x0‖ + 1) * ‖P‖ ^ (q + 1))
    (by
      intro m hm s hs
      have hd := ((hr (seg s hs)).1.differentiableAt_iteratedFDeriv (m := m) (by exact_mod_cast (by omega))).hasFDerivAt
      have hl : HasDerivAt (fun s : ℝ => x + s • P) P s := by
        have := ((hasDerivAt_id s).smul_const P).const_add x
        simpa using this
      have h2 := hd.comp_hasDerivAt s hl
      have h3 := (ContinuousMultilinearMap.apply ℝ (fun _ : Fin m => V) V (fun _ => P)).hasFDerivAt.comp_hasDerivAt s h2
      refine h3.congr_deriv ?_
      rw [iteratedFDeriv_succ_apply_left]
      rfl)
    (by
      intro s hs
      refine (ContinuousMultilinearMap.le_opNorm _ _).trans ?_
      simp only [Finset.prod_const, Finset.card_univ, Fintype.card_fin]
      exact mul_le_mul_of_nonneg_right (hr (seg s hs)).2.le (by positivity)) 1 (by simp)
  simpa [taylorPoly] using key

/-- a property of a point and a constant that holds near every point of a compact set with some constant, and with every larger constant,
holds on the whole set with one constant -/
theorem uniform_of_local {K : Set V} (hK : IsCompact K) (Pr : V → ℝ → Prop) (mono : ∀ z M M', Pr z M → M ≤ M' → Pr z M')
    (h : ∀ x ∈ K, ∃ r > 0, ∃ M : ℝ, ∀ z, ‖z - x‖ < r → Pr z M) : ∃ M : ℝ, ∀ x ∈ K, Pr x M := by
  refine hK.induction_on (p := fun S => ∃ M : ℝ, ∀ z ∈ S, Pr z M) ⟨0, by simp⟩ ?_ ?_ ?_
  · rintro s t hst ⟨M, hM⟩
    exact ⟨M, fun z hz => hM z (hst hz)⟩
  · rintro s t ⟨M, hM⟩ ⟨M', hM'⟩
    refine ⟨max M M', ?_⟩
    rintro z (hz | hz)
    · exact mono _ _ _ (hM z hz) (le_max_left _ _)
    · exact mono _ _ _ (hM' z hz) (le_max_right _ _)
  · intro x hx
    obtain ⟨r, r0, M, hM⟩ := h x hx
    refine ⟨Metric.ball x r, mem_nhdsWithin_of_mem_nhds (Metric.ball_mem_nhds x r0), M, fun z hz => hM z ?_⟩
    simpa [dist_eq_norm] using hz

/-- what is used of a smooth right-hand side near a compact set: on balls of one radius around its points it is Lipschitz and bounded,
its Taylor formula of degree `q` holds with one constant, and its derivatives at the points are bounded -/
theorem uniform_taylor {f : V → V} {K : Set V} (hK : IsCompact K) (q : Nat)
    (hf : ∀ x ∈ K, ContDiffAt ℝ ((q + 1 : Nat) : WithTop ℕ∞) f x) :
    ∃ r M : ℝ, 0 < r ∧ 0 < M ∧
      (∀ x ∈ K, ∀ P Q : V, ‖P‖ ≤ r → ‖Q‖ ≤ r → ‖f (x + P) - f (x + Q)‖ ≤ M * ‖P - Q‖) ∧
      (∀ x ∈ K, ∀ P : V, ‖P‖ ≤ r → ‖f (x + P)‖ ≤ M) ∧
      (∀ x ∈ K, ∀ P : V, ‖P‖ ≤ r → ‖f (x + P) - taylorPoly f q x P‖ ≤ M * ‖P‖ ^ (q + 1)) ∧
      ∀ m ≤ q, ∀ x ∈ K, ‖iteratedFDeriv ℝ m f x‖ ≤ M := by
  have main := uniform_of_local hK (fun x M => 0 < M ∧
      (∀ P Q : V, ‖P‖ * M < 1 → ‖Q‖ * M < 1 → ‖f (x + P) - f (x + Q)‖ ≤ M * ‖P - Q‖) ∧
      (∀ P : V, ‖P‖ * M < 1 → ‖f (x + P)‖ ≤ M) ∧
      (∀ P : V, ‖P‖ * M < 1 → ‖f (x + P) - taylorPoly f q x P‖ ≤ M * ‖P‖ ^ (q + 1)) ∧
      ∀ m ≤ q, ‖iteratedFDeriv ℝ m f x‖ ≤ M) (by
    rintro z M M' ⟨h0, h1, h2, h3, h4⟩ hM
    have sm : ∀ P : V, ‖P‖ * M' < 1 → ‖P‖ * M < 1 := fun P hP => (mul_le_mul_of_nonneg_left hM (norm_nonneg P)).trans_lt hP
    refine ⟨h0.trans_le hM, fun P Q hP hQ => (h1 P Q (sm P hP) (sm Q hQ)).trans (mul_le_mul_of_nonneg_right hM (norm_nonneg _)),
      fun P hP => (h2 P (sm P hP)).trans hM, fun P hP => (h3 P (sm P hP)).trans (mul_le_mul_of_nonneg_right hM (by positivity)),
      fun m hm => (h4 m hm).trans hM⟩) (by
    intro x hx
    have hfx := hf x hx
    obtain ⟨L, S, hS, hL⟩ := (hfx.of_le (m := 1) (by exact_mod_cast (by omega : 1 ≤ q + 1))).exists_lipschitzOnWith
    obtain ⟨r1, r10, hr1⟩ := Metric.mem_nhds_iff.1 hS
    obtain ⟨r2, r20, M2, hr2⟩ := local_taylor f q x hfx
    have hb : ∀ᶠ z in 𝓝 x, ‖f z‖ < ‖f x‖ + 1 := hfx.continuousAt.norm.eventually (gt_mem_nhds (by linarith))
    obtain ⟨r3, r30, hr3⟩ := Metric.eventually_nhds_iff.1 hb
    have hd : ∀ᶠ z in 𝓝 x, ∀ m ∈ Finset.range (q + 1), ‖iteratedFDeriv ℝ m f z‖ < ‖iteratedFDeriv ℝ m f x‖ + 1 := by
      rw [Filter.eventually_all_finset]
      intro m hm
      have := hfx.continuousAt_iteratedFDeriv (k := m) (by have := Finset.mem_range.1 hm; exact_mod_cast (by omega))
      exact this.norm.eventually (gt_mem_nhds (by linarith))
    obtain ⟨r4, r40, hr4⟩ := Metric.eventually_nhds_iff.1 hd
    set r := min (min r1 r2) (min r3 r4) with hr
    have r0 : 0 < r := lt_min (lt_min r10 r20) (lt_min r30 r40)
    set D := ∑ m ∈ Finset.range (q + 1), (‖iteratedFDeriv ℝ m f x‖ + 1) with hD
    set M := 2 / r + L + |M2| + (‖f x‖ + 1) + D with hM
    have D0 : 0 ≤ D := Finset.sum_nonneg fun m _ => by positivity
    have L0 : (0 : ℝ) ≤ L := L.2
    have n0 : 0 ≤ ‖f x‖ := norm_nonneg _
    have a0 : 0 ≤ |M2| := abs_nonneg _
    have p0 : 0 < 2 / r := by positivity
    have M0 : 0 < M := by rw [hM]; linarith
    have near : ∀ z P : V, ‖z - x‖ < r / 2 → ‖P‖ * M < 1 → ‖z + P - x‖ < r := by
      intro z P hz hP
      have h1 : ‖P‖ * (2 / r) ≤ ‖P‖ * M := mul_le_mul_of_nonneg_left (by rw [hM]; linarith) (norm_nonneg _)
      have h2 : ‖P‖ * (2 / r) < 1 := lt_of_le_of_lt h1 hP
      have h3 : ‖P‖ < r / 2 := by
        rw [mul_div_assoc', div_lt_one r0] at h2; linarith
      calc ‖z + P - x‖ = ‖(z - x) + P‖ := by congr 1; abel
        _ ≤ ‖z - x‖ + ‖P‖ := norm_add_le _ _
        _ < r := by linarith
    refine ⟨r / 2, by positivity, M, fun z hz => ⟨M0, ?_, ?_, ?_, ?_⟩⟩
    · intro P Q hP hQ
      have m1 := near z P hz hP
      have m2 := near z Q hz hQ
      have := hL.dist_le_mul (z + P) (hr1 (by
        rw [Metric.mem_ball, dist_eq_norm]; exact m1.trans_le ((min_le_left _ _).trans (min_le_left _ _)))) (z + Q) (hr1 (by
        rw [Metric.mem_ball, dist_eq_norm]; exact m2.trans_le ((min_le_left _ _).trans (min_le_left _ _))))
      rw [dist_eq_norm, dist_eq_norm] at this
      refine this.trans ?_
      rw [show z + P - (z + Q) = P - Q by abel]
      exact mul_le_mul_of_nonneg_right (by rw [hM]; linarith) (norm_nonneg _)
    · intro P hP
      have m1 := near z P hz hP
      have := hr3 (y := z + P) (by rw [dist_eq_norm]; exact m1.trans_le ((min_le_right _ _).trans (min_le_left _ _)))
      rw [hM]; linarith
    · intro P hP
      have m1 := near z P hz hP
      have := hr2 z P (hz.trans_le (by
        have : r ≤ r2 := (min_le_left _ _).trans (min_le_right _ _)
        linarith)) (m1.trans_le ((min_le_left _ _).trans (min_le_right _ _)))
      refine this.trans (mul_le_mul_of_nonneg_right ?_ (by positivity))
      rw [hM]; linarith [le_abs_self M2]
    · intro m hm
      have := hr4 (y := z) (by
        rw [dist_eq_norm]
        have : r ≤ r4 := (min_le_right _ _).trans (min_le_right _ _)
        linarith) m (Finset.mem_range.2 (by omega))
      have h2 : ‖iteratedFDeriv ℝ m f x‖ + 1 ≤ D := Finset.single_le_sum (f := fun m => ‖iteratedFDeriv ℝ m f x‖ + 1)
        (fun m _ => by positivity) (Finset.mem_range.2 (by omega : m < q + 1))
      rw [hM]; linarith)
  obtain ⟨M, hM⟩ := main
  set M' := max M 1
  have M0 : 0 < M' := lt_of_lt_of_le one_pos (le_max_right _ _)
  have small : ∀ x ∈ K, ∀ P : V, ‖P‖ ≤ 1 / (2 * M') → ‖P‖ * M < 1 := by
    intro x hx P hP
    have h0 := (hM x hx).1
    rw [le_div_iff₀ (by positivity)] at hP
    nlinarith [norm_nonneg P, mul_le_mul_of_nonneg_left (le_max_left M 1) (norm_nonneg P)]
  refine ⟨1 / (2 * M'), M', by positivity, M0, ?_, ?_, ?_, ?_⟩
  · intro x hx P Q hP hQ
    exact ((hM x hx).2.1 P Q (small x hx P hP) (small x hx Q hQ)).trans (mul_le_mul_of_nonneg_right (le_max_left _ _) (norm_nonneg _))
  · intro x hx P hP
    exact ((hM x hx).2.2.1 P (small x hx P hP)).trans (le_max_left _ _)
  · intro x hx P hP
    exact ((hM x hx).2.2.2.1 P (small x hx P hP)).trans (mul_le_mul_of_nonneg_right (le_max_left _ _) (by positivity))
  · intro m hm x hx
    exact ((hM x hx).2.2.2.2 m hm).trans (le_max_left _ _)

end WxVerif.UniformTaylor
