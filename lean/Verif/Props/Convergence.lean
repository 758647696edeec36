import Verif.Lemmas.Convergence
import Verif.Model.Schemes
import Verif.Props.RungeKutta
import Verif.Props.Butcher
import Mathlib.Analysis.Calculus.ContDiff.Operations
import Mathlib.Tactic.NormNum

/-!
# C90: refining the time step converges to the exact solution, with the order of the scheme
-/

namespace WxVerif.Props.Convergence

open Set BSeries SpecConvergence RootedTree Schemes

universe u

variable {V : Type u} [NormedAddCommGroup V] [NormedSpace ℝ V]

/-! ## Order conditions of the small methods -/

theorem order_one {A : Nat → Nat → ℝ} {b : Nat → ℝ} {s : Nat} (h1 : ∑ i ∈ Finset.range s, b i = 1) : OrderR A b s 1 0 := by
  intro τ hτ
  match τ, hτ with
  | .leaf, _ => simp [weightR, Tree.density, Tree.size, Tree.branchDensity, h1]
  | .graft a b, h =>
    have := size_pos a; have := size_pos b; simp only [Tree.size] at h; omega

theorem order_two {A : Nat → Nat → ℝ} {b : Nat → ℝ} {s : Nat} (h1 : ∑ i ∈ Finset.range s, b i = 1)
    (h2 : ∑ i ∈ Finset.range s, b i * ∑ j ∈ Finset.range s, A i j = 1 / 2) : OrderR A b s 2 0 := by
  intro τ hτ
  match τ, hτ with
  | .leaf, _ => simp [weightR, Tree.density, Tree.size, Tree.branchDensity, h1]
  | .graft .leaf .leaf, _ =>
    simp only [weightR, Tree.density, Tree.size, Tree.branchDensity, one_mul, mul_one, h2]
    norm_num
  | .graft (.graft a b) c, h =>
    have := size_pos a; have := size_pos b; have := size_pos c; simp only [Tree.size] at h; omega
  | .graft a (.graft b c), h =>
    have := size_pos a; have := size_pos b; have := size_pos c; simp only [Tree.size] at h; omega

theorem order_three {A : Nat → Nat → ℝ} {b : Nat → ℝ} {s : Nat} (h1 : ∑ i ∈ Finset.range s, b i = 1)
    (h2 : ∑ i ∈ Finset.range s, b i * ∑ j ∈ Finset.range s, A i j = 1 / 2)
    (h3 : ∑ i ∈ Finset.range s, b i * ((∑ j ∈ Finset.range s, A i j) * ∑ j ∈ Finset.range s, A i j) = 1 / 3)
    (h4 : ∑ i ∈ Finset.range s, b i * ∑ j ∈ Finset.range s, A i j * ∑ l ∈ Finset.range s, A j l = 1 / 6) : OrderR A b s 3 0 := by
  intro τ hτ
  match τ, hτ with
  | .leaf, _ => simp [weightR, Tree.density, Tree.size, Tree.branchDensity, h1]
  | .graft .leaf .leaf, _ =>
    simp only [weightR, Tree.density, Tree.size, Tree.branchDensity, one_mul, mul_one, h2]
    norm_num
  | .graft (.graft .leaf .leaf) .leaf, _ =>
    simp only [weightR, Tree.density, Tree.size, Tree.branchDensity, one_mul, mul_one, h3]
    norm_num
  | .graft .leaf (.graft .leaf .leaf), _ =>
    simp only [weightR, Tree.density, Tree.size, Tree.branchDensity, one_mul, mul_one, h4]
    norm_num
  | .graft (.graft (.graft a b) c) d, h =>
    have := size_pos a; have := size_pos b; have := size_pos c; have := size_pos d; simp only [Tree.size] at h; omega
  | .graft (.graft a (.graft b c)) d, h =>
    have := size_pos a; have := size_pos b; have := size_pos c; have := size_pos d; simp only [Tree.size] at h; omega
  | .graft (.graft a b) (.graft c d), h =>
    have := size_pos a; have := size_pos b; have := size_pos c; have := size_pos d; simp only [Tree.size] at h; omega
  | .graft a (.graft (.graft b c) d), h =>
    have := size_pos a; have := size_pos b; have := size_pos c; have := size_pos d; simp only [Tree.size] at h; omega
  | .graft a (.graft b (.graft c d)), h =>
    have := size_pos a; have := size_pos b; have := size_pos c; have := size_pos d; simp only [Tree.size] at h; omega

/-! ## Explicit schemes -/

/-- **C90 (Euler).**  Runs of the explicit Euler scheme converge with order one. -/
theorem C90_euler1 {f : V → V} {y : ℝ → V} {T : ℝ} (hs : SmoothSolution f y T 1) : Converges (euler1 f) y T 1 := by
  obtain ⟨C, δ, δ0, H⟩ := explicit_within le_rfl hs 1 1
  refine ⟨C, δ, δ0, fun h h0 hδ => ?_⟩
  have := H (fun _ _ => 0) (fun _ => 1) 0 h (euler1 f) (by simp) (by simp) (by simp) (order_one (by simp)) h0 (by linarith) (by
    intro t h' u _ _ _ _
    refine ⟨fun _ => f u, fun i _ => by simp [incr], by simp [euler1]⟩)
  simpa using this

/-- coefficients of the three-stage scheme -/
noncomputable def tvdA (i j : Nat) : ℝ := if i = 1 then (if j = 0 then 1 else 0) else if i = 2 then (if j = 0 then 1 / 4 else if j = 1 then 1 / 4 else 0) else 0
noncomputable def tvdB (i : Nat) : ℝ := if i = 2 then 2 / 3 else 1 / 6

/-- **C90 (TVD-RK3).**  Runs of the three-stage scheme converge with order three. -/
theorem C90_tvdrk3 {f : V → V} {y : ℝ → V} {T : ℝ} (hs : SmoothSolution f y T 3) : Converges (tvdrk3 f) y T 3 := by
  obtain ⟨C, δ, δ0, H⟩ := explicit_within (by norm_num) hs 3 1
  refine ⟨C, δ, δ0, fun h h0 hδ => ?_⟩
  have := H tvdA tvdB 0 h (tvdrk3 f)
    (by
      intro i _ j _
      unfold tvdA
      split_ifs <;> norm_num [abs_le])
    (by
      intro i _
      unfold tvdB
      split_ifs <;> norm_num [abs_le])
    (by
      intro i hi j hj hij
      unfold tvdA
      split_ifs <;> first | rfl | omega)
    (order_three (by simp [Finset.sum_range_succ, tvdB]; norm_num) (by simp [Finset.sum_range_succ, tvdA, tvdB]; norm_num)
      (by simp [Finset.sum_range_succ, tvdA, tvdB]; norm_num) (by simp [Finset.sum_range_succ, tvdA, tvdB]; norm_num)) h0 (by linarith) (by
    intro t h' u _ _ _ _
    set k0 := f u with hk0
    set k1 := f (u + h' • k0) with hk1
    set k2 := f (u + h' • ((1 / 4 : ℝ) • k0 + (1 / 4 : ℝ) • k1)) with hk2
    refine ⟨fun i => if i = 0 then k0 else if i = 1 then k1 else k2, fun i hi => ?_, ?_⟩
    · have : i = 0 ∨ i = 1 ∨ i = 2 := by omega
      rcases this with rfl | rfl | rfl <;> simp [incr, Finset.sum_range_succ, tvdA, hk0, hk1, hk2]
    · have e1 : (3 / 4 : ℝ) • u + (1 / 4 : ℝ) • (u + h' • f u) + ((1 / 4 : ℝ) * h') • f (u + h' • f u) =
          u + h' • ((1 / 4 : ℝ) • k0 + (1 / 4 : ℝ) • k1) := by
        rw [← hk0, ← hk1]; module
      simp only [tvdrk3]
      rw [e1, ← hk2]
      simp [Finset.sum_range_succ, tvdB]
      module)
  simpa using this

/-! ## Implicit schemes -/

section Implicit
variable [CompleteSpace V]

/-- **C90 (backward Euler).**  Order one, up to the tolerance of the solver. -/
theorem C90_backward_euler {f : V → V} {y : ℝ → V} {T : ℝ} (hs : SmoothSolution f y T 1) :
    ConvergesWithSolver (fun newton => backwardEuler newton f) y T 1 := by
  obtain ⟨C, δ, ρ, L, C0, δ0, near, δρ, _, H⟩ := stage_within le_rfl hs 1 1 one_pos
  have L0 := near.L0
  have ρ0 := near.ρ0
  refine ⟨C, min (δ / 2) (min (ρ / (L + 1)) (1 / (2 * (L + 1)))), ρ, lt_min (by linarith) (lt_min (by positivity) (by positivity)), ρ0, ?_⟩
  intro h tol h0 hh tol0 htol newton hn
  have a1 : h ≤ δ / 2 := hh.trans (min_le_left _ _)
  have a2 : tol ≤ δ / 2 := htol.trans (min_le_left _ _)
  have a3 : h * (L + 1) ≤ ρ := (le_div_iff₀ (by linarith)).1 (hh.trans ((min_le_right _ _).trans (min_le_left _ _)))
  have a4 : h * (2 * (L + 1)) ≤ 1 := (le_div_iff₀ (by linarith)).1 (hh.trans ((min_le_right _ _).trans (min_le_right _ _)))
  have := H (fun _ _ => 1) (fun _ => 1) 0 tol h (backwardEuler newton f) (by simp) (by simp) (order_one (by simp)) tol0 h0 (by linarith) (by
    intro t h' u t0 h'0 h'h hT hu
    have ht : t ∈ Icc 0 T := ⟨t0, by linarith⟩
    obtain ⟨z, z1, z2⟩ := implicit_exists near ht (u := u) (w := u) (by linarith) (c := h')
      (by rw [abs_of_pos h'0, sub_self, norm_zero]; nlinarith) (by rw [abs_of_pos h'0]; nlinarith)
    obtain ⟨n1, n2⟩ := hn (fun Qp => h'⁻¹ • (Qp - u) - f Qp) u ⟨z, z1, by
      beta_reduce
      rw [show z - u = h' • f z by nth_rewrite 1 [z2]; abel, smul_smul, inv_mul_cancel₀ h'0.ne', one_smul, sub_self]⟩
    have e : u + h' • h'⁻¹ • (backwardEuler newton f u h' - u) = backwardEuler newton f u h' := by
      rw [smul_smul, mul_inv_cancel₀ h'0.ne', one_smul]; abel
    refine ⟨fun _ => h'⁻¹ • (backwardEuler newton f u h' - u), fun i _ => ?_, fun i _ => ?_, ?_⟩
    · simp only [incr, Finset.sum_range_one, one_smul]
      rw [smul_smul, mul_inv_cancel₀ h'0.ne', one_smul]
      exact n1
    · simp only [incr, Finset.sum_range_one, one_smul]
      rw [e]
      exact n2
    · simp only [Finset.sum_range_one, one_smul]
      rw [e])
  simpa using this

/-- coefficients of the trapezoidal rule -/
noncomputable def cnA (i _j : Nat) : ℝ := if i = 0 then 0 else 1 / 2

/-- **C90 (Crank-Nicolson).**  Order two, up to the tolerance of the solver. -/
theorem C90_crank_nicolson {f : V → V} {y : ℝ → V} {T : ℝ} (hs : SmoothSolution f y T 2) :
    ConvergesWithSolver (fun newton => crankNicolson newton f) y T 2 := by
  obtain ⟨C, δ, ρ, L, C0, δ0, near, δρ, _, H⟩ := stage_within (by norm_num) hs 2 1 one_pos
  have L0 := near.L0
  have ρ0 := near.ρ0
  refine ⟨2 * C, min (δ / 4) (min (ρ / (L + 1)) (1 / (2 * (L + 1)))), ρ, lt_min (by linarith) (lt_min (by positivity) (by positivity)), ρ0, ?_⟩
  intro h tol h0 hh tol0 htol newton hn
  have a1 : h ≤ δ / 4 := hh.trans (min_le_left _ _)
  have a2 : tol ≤ δ / 4 := htol.trans (min_le_left _ _)
  have a3 : h * (L + 1) ≤ ρ := (le_div_iff₀ (by linarith)).1 (hh.trans ((min_le_right _ _).trans (min_le_left _ _)))
  have a4 : h * (2 * (L + 1)) ≤ 1 := (le_div_iff₀ (by linarith)).1 (hh.trans ((min_le_right _ _).trans (min_le_right _ _)))
  have := H cnA (fun _ => 1 / 2) 0 (2 * tol) h (crankNicolson newton f)
    (by
      intro i _ j _
      unfold cnA
      split_ifs <;> norm_num [abs_le])
    (by intro i _; norm_num [abs_le])
    (order_two (by norm_num [Finset.sum_range_succ]) (by norm_num [Finset.sum_range_succ, cnA])) (by linarith) h0 (by linarith) (by
    intro t h' u t0 h'0 h'h hT hu
    have ht : t ∈ Icc 0 T := ⟨t0, by linarith⟩
    have ub : ‖f u‖ ≤ L := near.bd' ht (by linarith)
    obtain ⟨z, z1, z2⟩ := implicit_exists near ht (u := u) (w := u + (h' / 2) • f u) (by linarith) (c := h' / 2)
      (by
        rw [abs_of_pos (by linarith), add_sub_cancel_left, norm_smul, Real.norm_of_nonneg (by linarith)]
        nlinarith [mul_le_mul_of_nonneg_left ub (by linarith : 0 ≤ h' / 2)])
      (by rw [abs_of_pos (by linarith)]; nlinarith)
    obtain ⟨n1, n2⟩ := hn (fun Qp => h'⁻¹ • (Qp - u) - (1 / 2 : ℝ) • (f Qp + f u)) u ⟨z, z1, by
      beta_reduce
      rw [show z - u = (h' / 2) • (f z + f u) by nth_rewrite 1 [z2]; module, smul_smul, ← sub_smul]
      rw [show h'⁻¹ * (h' / 2) - 1 / 2 = 0 by field_simp; norm_num, zero_smul]⟩
    set Qp := crankNicolson newton f u h' with hQp
    set k1 := (2 : ℝ) • h'⁻¹ • (Qp - u) - f u with hk1
    have e : h' • ((1 / 2 : ℝ) • f u + (1 / 2 : ℝ) • k1) = Qp - u := by
      rw [hk1, show h' • ((1 / 2 : ℝ) • f u + (1 / 2 : ℝ) • ((2 : ℝ) • h'⁻¹ • (Qp - u) - f u)) = (h' * h'⁻¹) • (Qp - u) by module,
        mul_inv_cancel₀ h'0.ne', one_smul]
    refine ⟨fun i => if i = 0 then f u else k1, fun i hi => ?_, fun i hi => ?_, ?_⟩
    · have : i = 0 ∨ i = 1 := by omega
      rcases this with rfl | rfl
      · simp [incr, cnA, ρ0.le]
      · simp only [incr, cnA, Finset.sum_range_succ, Finset.sum_range_zero, zero_add, if_pos, one_ne_zero, if_false]
        rw [e]
        exact n1
    · have : i = 0 ∨ i = 1 := by omega
      rcases this with rfl | rfl
      · simp [incr, cnA, tol0]
      · simp only [incr, cnA, Finset.sum_range_succ, Finset.sum_range_zero, zero_add, if_pos, one_ne_zero, if_false]
        rw [e, add_sub_cancel]
        have : k1 - f Qp = (2 : ℝ) • (h'⁻¹ • (Qp - u) - (1 / 2 : ℝ) • (f Qp + f u)) := by rw [hk1]; module
        rw [this, norm_smul, Real.norm_of_nonneg (by norm_num)]
        exact mul_le_mul_of_nonneg_left n2 (by norm_num)
    · simp only [Finset.sum_range_succ, Finset.sum_range_zero, zero_add, if_pos, one_ne_zero, if_false]
      rw [e]; abel)
  intro dt Q hdt hQ0 hQ n hn
  refine (this dt Q hdt hQ0 hQ n hn).trans ?_
  have : 0 ≤ h ^ 2 := by positivity
  nlinarith

/-- coefficients of the two-stage scheme -/
noncomputable def sdirkA (g : ℝ) (i j : Nat) : ℝ := if i = 0 then (if j = 0 then g else 0) else if j = 0 then 1 - 2 * g else g

set_option maxHeartbeats 1000000 in
/-- **C90 (SDIRK).**  Order two for every value of the parameter, up to the tolerance of the solver. -/
theorem C90_sdirk (g : ℝ) {f : V → V} {y : ℝ → V} {T : ℝ} (hs : SmoothSolution f y T 2) :
    ConvergesWithSolver (fun newton => sdirk newton g f) y T 2 := by
  obtain ⟨C, δ, ρ, L, C0, δ0, near, δρ, _, H⟩ := stage_within (by norm_num) hs 2 (1 + 2 * |g|) one_pos
  have L0 := near.L0
  have ρ0 := near.ρ0
  have g0 := abs_nonneg g
  have g1 := abs_le.1 (le_refl |g|)
  set G := (1 + 3 * |g|) * L + 1 with hG
  have G0 : 0 < G := by positivity
  refine ⟨(L + 1) * C, min (min (δ / 2) (δ / 2 / (L + 1))) (min (min (ρ / 2 / G) (1 / (2 * G))) (min (ρ / 2) 1)), ρ / 2,
    lt_min (lt_min (by linarith) (by positivity)) (lt_min (lt_min (by positivity) (by positivity)) (lt_min (by linarith) one_pos)), by linarith, ?_⟩
  intro h tol h0 hh tol0 htol newton hn
  have a1 : h ≤ δ / 2 := hh.trans ((min_le_left _ _).trans (min_le_left _ _))
  have a2 : tol * (L + 1) ≤ δ / 2 := (le_div_iff₀ (by linarith)).1 (htol.trans ((min_le_left _ _).trans (min_le_right _ _)))
  have a3 : h * G ≤ ρ / 2 := (le_div_iff₀ G0).1 (hh.trans ((min_le_right _ _).trans ((min_le_left _ _).trans (min_le_left _ _))))
  have a4 : h * (2 * G) ≤ 1 := (le_div_iff₀ (by linarith)).1 (hh.trans ((min_le_right _ _).trans ((min_le_left _ _).trans (min_le_right _ _))))
  have a5 : tol ≤ ρ / 2 := htol.trans ((min_le_right _ _).trans ((min_le_right _ _).trans (min_le_left _ _)))
  have a6 : h ≤ 1 := hh.trans ((min_le_right _ _).trans ((min_le_right _ _).trans (min_le_right _ _)))
  have gL : 0 ≤ |g| * L := by positivity
  have hGe : G = L + 3 * (|g| * L) + 1 := by rw [hG]; ring
  have := H (sdirkA g) (fun _ => 1 / 2) 0 ((L + 1) * tol) h (sdirk newton g f)
    (by
      intro i _ j _
      unfold sdirkA
      rw [abs_le]
      split_ifs <;> constructor <;> linarith [g1.1, g1.2])
    (by intro i _; rw [abs_of_pos (by norm_num)]; linarith)
    (order_two (by norm_num [Finset.sum_range_succ]) (by simp [Finset.sum_range_succ, sdirkA]; ring)) (by positivity) h0 (by linarith) (by
    intro t h' u t0 h'0 h'h hT hu
    have ht : t ∈ Icc 0 T := ⟨t0, by linarith⟩
    have near2 : Near f y T (ρ / 2) L := ⟨by linarith, L0, fun t ht P Q hP hQ => near.lip t ht P Q (by linarith) (by linarith),
      fun t ht P hP => near.bd t ht P (by linarith)⟩
    have cg : |h' * g| = h' * |g| := by rw [abs_mul, abs_of_pos h'0]
    have q1 : h' * (|g| * L) ≤ h * (|g| * L) := mul_le_mul_of_nonneg_right h'h gL
    have q2 : h' * L ≤ h * L := mul_le_mul_of_nonneg_right h'h L0
    have hLn : 0 ≤ h * L := by positivity
    have hgLn : 0 ≤ h * (|g| * L) := by positivity
    have a3' : h * L + 3 * (h * (|g| * L)) + h ≤ ρ / 2 := by rw [hGe] at a3; linarith
    have a4' : 2 * (h * L + 3 * (h * (|g| * L)) + h) ≤ 1 := by rw [hGe] at a4; linarith
    -- first stage
    obtain ⟨z, z1, z2⟩ := implicit_exists near2 ht (u := u) (w := u) (by linarith) (c := h' * g)
      (by rw [cg, sub_self, norm_zero]; linarith) (by rw [cg]; linarith)
    obtain ⟨n1, n2⟩ := hn (fun Q1 => h'⁻¹ • (Q1 - u) - g • f Q1) u ⟨z, z1, by
      beta_reduce
      rw [show z - u = (h' * g) • f z by nth_rewrite 1 [z2]; abel, smul_smul, ← mul_assoc, inv_mul_cancel₀ h'0.ne', one_mul, sub_self]⟩
    set Q1 := newton (fun Q1 => h'⁻¹ • (Q1 - u) - g • f Q1) u with hQ1
    beta_reduce at n2
    have m1 : ‖Q1 - y t‖ ≤ 2 * ρ := by
      rw [show Q1 - y t = (Q1 - u) + (u - y t) by abel]; exact (norm_add_le _ _).trans (by linarith)
    have b1 := near.bd' ht m1
    -- second stage
    have w1 : ‖(h' * (1 - 2 * g)) • f Q1‖ ≤ h * L + 2 * (h * (|g| * L)) := by
      rw [norm_smul, Real.norm_eq_abs, abs_mul, abs_of_pos h'0]
      have : |1 - 2 * g| ≤ 1 + 2 * |g| := by rw [abs_le]; constructor <;> linarith [g1.1, g1.2]
      calc h' * |1 - 2 * g| * ‖f Q1‖ ≤ h' * (1 + 2 * |g|) * L := by
            refine mul_le_mul (mul_le_mul_of_nonneg_left this h'0.le) b1 (norm_nonneg _) (by positivity)
        _ = h' * L + 2 * (h' * (|g| * L)) := by ring
        _ ≤ _ := by linarith
    obtain ⟨z', z1', z2'⟩ := implicit_exists near2 ht (u := u) (w := u + (h' * (1 - 2 * g)) • f Q1) (by linarith) (c := h' * g)
      (by rw [cg, add_sub_cancel_left]; linarith) (by rw [cg]; linarith)
    obtain ⟨n1', n2'⟩ := hn (fun Q2 => h'⁻¹ • (Q2 - u) - (1 - 2 * g) • f Q1 - g • f Q2) u ⟨z', z1', by
      beta_reduce
      rw [show z' - u = h' • ((1 - 2 * g) • f Q1 + g • f z') by nth_rewrite 1 [z2']; module, smul_smul, inv_mul_cancel₀ h'0.ne', one_smul]
      abel⟩
    set Q2 := newton (fun Q2 => h'⁻¹ • (Q2 - u) - (1 - 2 * g) • f Q1 - g • f Q2) u with hQ2
    beta_reduce at n2'
    have m2 : ‖Q2 - y t‖ ≤ 2 * ρ := by
      rw [show Q2 - y t = (Q2 - u) + (u - y t) by abel]; exact (norm_add_le _ _).trans (by linarith)
    set e1 := h'⁻¹ • (Q1 - u) - g • f Q1 with he1
    set e2 := h'⁻¹ • (Q2 - u) - (1 - 2 * g) • f Q1 - g • f Q2 with he2
    have s1 : h' • g • f Q1 = Q1 - u - h' • e1 := by
      rw [he1, smul_sub, smul_smul h' h'⁻¹, mul_inv_cancel₀ h'0.ne', one_smul]; abel
    have s2 : h' • ((1 - 2 * g) • f Q1 + g • f Q2) = Q2 - u - h' • e2 := by
      rw [he2, smul_sub, smul_sub, smul_smul h' h'⁻¹, mul_inv_cancel₀ h'0.ne', one_smul, smul_add]; abel
    have t1 : ‖h' • e1‖ ≤ tol := by
      rw [norm_smul, Real.norm_of_nonneg h'0.le]
      nlinarith [norm_nonneg e1]
    have t2 : ‖h' • e2‖ ≤ tol := by
      rw [norm_smul, Real.norm_of_nonneg h'0.le]
      nlinarith [norm_nonneg e2]
    have c1 : ‖Q1 - u - h' • e1‖ ≤ ρ := (norm_sub_le _ _).trans (by linarith)
    have c2 : ‖Q2 - u - h' • e2‖ ≤ ρ := (norm_sub_le _ _).trans (by linarith)
    have d : ∀ (Q e : V), ‖Q - y t‖ ≤ 2 * ρ → ‖Q - u - e‖ ≤ ρ → ‖e‖ ≤ tol → ‖f Q - f (u + (Q - u - e))‖ ≤ (L + 1) * tol := by
      intro Q e hQ he het
      have m : ‖u + (Q - u - e) - y t‖ ≤ 2 * ρ := by
        rw [show u + (Q - u - e) - y t = (u - y t) + (Q - u - e) by abel]
        exact (norm_add_le _ _).trans (by linarith)
      refine (near.lip' ht hQ m).trans ?_
      rw [show Q - (u + (Q - u - e)) = e by abel]
      nlinarith
    refine ⟨fun i => if i = 0 then f Q1 else f Q2, fun i hi => ?_, fun i hi => ?_, ?_⟩
    · have : i = 0 ∨ i = 1 := by omega
      rcases this with rfl | rfl
      · simp only [incr, sdirkA, Finset.sum_range_succ, Finset.sum_range_zero, zero_add, if_pos, one_ne_zero, if_false, zero_smul, add_zero]
        rw [s1]; exact c1
      · simp only [incr, sdirkA, Finset.sum_range_succ, Finset.sum_range_zero, zero_add, if_pos, one_ne_zero, if_false]
        rw [s2]; exact c2
    · have : i = 0 ∨ i = 1 := by omega
      rcases this with rfl | rfl
      · simp only [incr, sdirkA, Finset.sum_range_succ, Finset.sum_range_zero, zero_add, if_pos, one_ne_zero, if_false, zero_smul, add_zero]
        rw [s1]; exact d Q1 _ m1 c1 t1
      · simp only [incr, sdirkA, Finset.sum_range_succ, Finset.sum_range_zero, zero_add, if_pos, one_ne_zero, if_false]
        rw [s2]; exact d Q2 _ m2 c2 t2
    · simp [Finset.sum_range_succ, sdirk, ← hQ1, ← hQ2])
  intro dt Q hdt hQ0 hQ n hn
  refine (this dt Q hdt hQ0 hQ n hn).trans ?_
  have : 0 ≤ h ^ 2 := by positivity
  have : 0 ≤ C * L * h ^ 2 := by positivity
  nlinarith

end Implicit

end WxVerif.Props.Convergence
