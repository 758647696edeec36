import Verif.Model.Schemes
import Verif.Spec.Schemes
import Verif.Spec.Stability
import Verif.Props.Schemes
import Verif.Props.Srerk
import Mathlib.Analysis.InnerProductSpace.Calculus
import Mathlib.Analysis.Calculus.Deriv.MeanValue
import Mathlib.LinearAlgebra.FiniteDimensional.Basic
import Mathlib.Analysis.Complex.Norm
import Mathlib.Analysis.InnerProductSpace.PiL2
import Mathlib.Tactic.Module
import Mathlib.Tactic.Linarith
import Mathlib.Tactic.Positivity

/-!
# Stability of the time integrators (C88)

How far apart two runs of the same scheme can get, for a right-hand side that is dissipative in an inner product, for every
time step and every number of steps.
-/

namespace WxVerif.Props.Stability

open WxVerif.Schemes WxVerif.Stability

variable {V : Type*} [NormedAddCommGroup V] [InnerProductSpace ℝ V]

local notation "⟪" x ", " y "⟫" => inner ℝ x y

/-- **C88.** An affine right-hand side in a finite-dimensional space is dissipative exactly when its matrix is, and then all
    the equations of the implicit integrators have solutions. -/
theorem C88_affine_solvable [FiniteDimensional ℝ V] (A : V →ₗ[ℝ] V) (g : V) (hA : ∀ v, ⟪A v, v⟫ ≤ 0) :
    Dissipative (fun y => A y + g) ∧ Solvable (fun y => A y + g) := by
  constructor
  · intro x y
    have : A x + g - (A y + g) = A (x - y) := by rw [map_sub]; abel
    beta_reduce
    rw [this]
    exact hA _
  · intro Q c hc
    have inj : Function.Injective (LinearMap.id - c • A : V →ₗ[ℝ] V) := by
      rw [injective_iff_map_eq_zero]
      intro v hv
      have h1 : v = c • A v := by simpa [sub_eq_zero] using hv
      have h2 : ‖v‖ ^ 2 = c * ⟪A v, v⟫ := by
        rw [← real_inner_self_eq_norm_sq]
        nth_rw 1 [h1]
        rw [real_inner_smul_left]
      have h3 : ‖v‖ ^ 2 ≤ 0 := by rw [h2]; exact mul_nonpos_of_nonneg_of_nonpos hc (hA v)
      have h4 : ‖v‖ = 0 := by nlinarith [norm_nonneg v]
      simpa using h4
    have surj := LinearMap.surjective_of_injective inj
    obtain ⟨x, hx⟩ := surj (Q + c • g)
    refine ⟨x, ?_⟩
    have h1 : x - c • A x = Q + c • g := by simpa using hx
    beta_reduce
    rw [smul_add]
    calc x = (x - c • A x) + c • A x := by abel
      _ = _ := by rw [h1]; abel


theorem le_of_sq {a b : ℝ} (hb : 0 ≤ b) (h : a ^ 2 ≤ b * a) : a ≤ b := by
  by_contra hc
  push Not at hc
  nlinarith

/-- the equation that the accepted answer of the nonlinear solver satisfies, up to the residual `r` -/
theorem implicit_residual {tol : ℝ} {newton : Newton V} (hn : AccurateNewton tol newton) (F : V → V) (Q : V)
    (hex : ∃ x, F x = 0) : ∃ r, ‖r‖ ≤ tol ∧ F (newton F Q) = r := ⟨_, hn F Q hex, rfl⟩

theorem backwardEuler_eq {tol : ℝ} {newton : Newton V} (hn : AccurateNewton tol newton) {rhs : V → V}
    (hs : Solvable rhs) {dt : ℝ} (hdt : 0 < dt) (Q : V) :
    ∃ r, ‖r‖ ≤ tol ∧ backwardEuler newton rhs Q dt = Q + dt • rhs (backwardEuler newton rhs Q dt) + dt • r := by
  have hex : ∃ x, (fun Qp => dt⁻¹ • (Qp - Q) - rhs Qp) x = 0 := by
    obtain ⟨x, hx⟩ := hs Q dt hdt.le
    refine ⟨x, ?_⟩
    beta_reduce
    have : x - Q = dt • rhs x := by rw [sub_eq_iff_eq_add']; exact hx
    rw [this, smul_smul, inv_mul_cancel₀ hdt.ne', one_smul, sub_self]
  obtain ⟨r, hr, h⟩ := implicit_residual hn _ Q hex
  refine ⟨r, hr, ?_⟩
  change dt⁻¹ • (backwardEuler newton rhs Q dt - Q) - rhs (backwardEuler newton rhs Q dt) = r at h
  generalize backwardEuler newton rhs Q dt = x at h ⊢
  have h2 : dt • (dt⁻¹ • (x - Q)) = dt • (rhs x + r) := by rw [← h]; congr 1; abel
  rw [smul_smul, mul_inv_cancel₀ hdt.ne', one_smul, smul_add] at h2
  rw [add_assoc, ← h2]; abel

theorem damped_step {rhs : V → V} {m : ℝ} (hd : Damping m rhs) {dt : ℝ} (hdt : 0 < dt) (hm : 0 ≤ m)
    {x y Q R r r' : V} {tol : ℝ} (hr : ‖r‖ ≤ tol) (hr' : ‖r'‖ ≤ tol)
    (hx : x = Q + dt • rhs x + dt • r) (hy : y = R + dt • rhs y + dt • r') :
    (1 + dt * m) * ‖x - y‖ ≤ ‖Q - R‖ + 2 * dt * tol := by
  have htol : 0 ≤ tol := (norm_nonneg r).trans hr
  have e : x - y = (Q - R) + dt • (rhs x - rhs y) + dt • (r - r') := by
    nth_rw 1 [hx, hy]; module
  have e2 : ‖x - y‖ ^ 2 = ⟪Q - R, x - y⟫ + dt * ⟪rhs x - rhs y, x - y⟫ + dt * ⟪r - r', x - y⟫ := by
    rw [← real_inner_self_eq_norm_sq]
    nth_rw 1 [e]
    rw [inner_add_left, inner_add_left, real_inner_smul_left, real_inner_smul_left]
  have h1 := real_inner_le_norm (Q - R) (x - y)
  have h2 := real_inner_le_norm (r - r') (x - y)
  have h3 : ‖r - r'‖ ≤ 2 * tol := (norm_sub_le _ _).trans (by linarith)
  have h4 := hd x y
  have hn := norm_nonneg (x - y)
  have h5 : ‖r - r'‖ * ‖x - y‖ ≤ 2 * tol * ‖x - y‖ := mul_le_mul_of_nonneg_right h3 hn
  have h6 : dt * ⟪r - r', x - y⟫ ≤ dt * (2 * tol * ‖x - y‖) := mul_le_mul_of_nonneg_left (h2.trans h5) hdt.le
  have h7 : dt * ⟪rhs x - rhs y, x - y⟫ ≤ dt * (-m * ‖x - y‖ ^ 2) := mul_le_mul_of_nonneg_left h4 hdt.le
  have key : (1 + dt * m) * ‖x - y‖ ^ 2 ≤ (‖Q - R‖ + 2 * dt * tol) * ‖x - y‖ := by nlinarith
  rcases hn.eq_or_lt with h0 | h0
  · rw [← h0]
    have := norm_nonneg (Q - R)
    have : 0 ≤ 2 * dt * tol := by positivity
    nlinarith
  · have : (1 + dt * m) * ‖x - y‖ * ‖x - y‖ ≤ (‖Q - R‖ + 2 * dt * tol) * ‖x - y‖ := by nlinarith
    exact le_of_mul_le_mul_right this h0

theorem iterate_bound {f : V → V} {c : ℝ} (h : ∀ x y, ‖f x - f y‖ ≤ ‖x - y‖ + c) (n : Nat) (x y : V) :
    ‖f^[n] x - f^[n] y‖ ≤ ‖x - y‖ + n * c := by
  induction n generalizing x y with
  | zero => simp
  | succ n ih =>
    rw [Function.iterate_succ_apply, Function.iterate_succ_apply]
    refine (ih _ _).trans ?_
    have := h x y
    push_cast
    linarith

/-- **C88**, backward Euler: with a solver that leaves residuals of at most `tol`, two runs with a dissipative right-hand side,
    linear or not, are never further apart than at the start plus what the residuals add, for every step size and every number of
    steps; with exact solutions they never drift apart. -/
theorem C88_backward_euler {tol : ℝ} (newton : Newton V) (hn : AccurateNewton tol newton) (rhs : V → V)
    (hd : Dissipative rhs) (hs : Solvable rhs) (dt : ℝ) (hdt : 0 < dt) (n : Nat) (Q R : V) :
    ‖(fun q => backwardEuler newton rhs q dt)^[n] Q - (fun q => backwardEuler newton rhs q dt)^[n] R‖ ≤
      ‖Q - R‖ + 2 * (n * dt) * tol := by
  refine (iterate_bound (c := 2 * dt * tol) ?_ n Q R).trans (by linarith)
  intro x y
  obtain ⟨r, hr, hx⟩ := backwardEuler_eq hn hs hdt x
  obtain ⟨r', hr', hy⟩ := backwardEuler_eq hn hs hdt y
  have := damped_step (m := 0) (rhs := rhs) (by intro a b; simpa using hd a b) hdt le_rfl hr hr' hx hy
  simpa using this

/-- **C88**, backward Euler damps: if solutions approach each other at rate `m`, each step shrinks the distance of two runs by
    the factor `1 + m dt` at least, however large `m dt` is. -/
theorem C88_backward_euler_damping (newton : Newton V) (hn : AccurateNewton 0 newton) (rhs : V → V) (m : ℝ) (hm : 0 ≤ m)
    (hd : Damping m rhs) (hs : Solvable rhs) (dt : ℝ) (hdt : 0 < dt) (n : Nat) (Q R : V) :
    ‖(fun q => backwardEuler newton rhs q dt)^[n] Q - (fun q => backwardEuler newton rhs q dt)^[n] R‖ ≤
      ‖Q - R‖ / (1 + m * dt) ^ n := by
  have hp : 0 < 1 + m * dt := by positivity
  induction n generalizing Q R with
  | zero => simp
  | succ n ih =>
    rw [Function.iterate_succ_apply, Function.iterate_succ_apply]
    refine (ih _ _).trans ?_
    obtain ⟨r, hr, hx⟩ := backwardEuler_eq hn hs hdt Q
    obtain ⟨r', hr', hy⟩ := backwardEuler_eq hn hs hdt R
    have h1 := damped_step hd hdt hm hr hr' hx hy
    rw [mul_zero, add_zero] at h1
    rw [pow_succ, div_le_div_iff₀ (pow_pos hp n) (mul_pos (pow_pos hp n) hp)]
    have := pow_pos hp n
    nlinarith

/-- **C88**, Crank-Nicolson: the same for every affine dissipative right-hand side. -/
theorem C88_crank_nicolson [FiniteDimensional ℝ V] {tol : ℝ} (newton : Newton V) (hn : AccurateNewton tol newton)
    (A : V →ₗ[ℝ] V) (g : V) (hA : ∀ v, ⟪A v, v⟫ ≤ 0) (dt : ℝ) (hdt : 0 < dt) (n : Nat) (Q R : V) :
    ‖(fun q => crankNicolson newton (fun y => A y + g) q dt)^[n] Q -
      (fun q => crankNicolson newton (fun y => A y + g) q dt)^[n] R‖ ≤ ‖Q - R‖ + 2 * (n * dt) * tol := by
  refine (iterate_bound (c := 2 * dt * tol) ?_ n Q R).trans (by linarith)
  have hs := (C88_affine_solvable A g hA).2
  have eqn : ∀ q, ∃ r, ‖r‖ ≤ tol ∧ crankNicolson newton (fun y => A y + g) q dt =
      q + (dt / 2) • (A (crankNicolson newton (fun y => A y + g) q dt) + g + (A q + g)) + dt • r := by
    intro q
    have hex : ∃ x, (fun Qp => dt⁻¹ • (Qp - q) - (1 / 2 : ℝ) • (A Qp + g + (A q + g))) x = 0 := by
      obtain ⟨x, hx⟩ := hs (q + (dt / 2) • (A q + g)) (dt / 2) (by linarith)
      refine ⟨x, ?_⟩
      beta_reduce
      have : x - q = dt • ((1 / 2 : ℝ) • (A x + g + (A q + g))) := by
        nth_rw 1 [hx]; module
      rw [this, smul_smul, inv_mul_cancel₀ hdt.ne', one_smul, sub_self]
    obtain ⟨r, hr, h⟩ := implicit_residual hn _ q hex
    refine ⟨r, hr, ?_⟩
    change dt⁻¹ • (crankNicolson newton (fun y => A y + g) q dt - q) -
      (1 / 2 : ℝ) • (A (crankNicolson newton (fun y => A y + g) q dt) + g + (A q + g)) = r at h
    generalize crankNicolson newton (fun y => A y + g) q dt = x at h ⊢
    have h2 : dt • (dt⁻¹ • (x - q)) = dt • ((1 / 2 : ℝ) • (A x + g + (A q + g)) + r) := by rw [← h]; congr 1; abel
    rw [smul_smul, mul_inv_cancel₀ hdt.ne', one_smul] at h2
    calc x = q + (x - q) := by abel
      _ = _ := by rw [h2]; module
  intro x y
  obtain ⟨r, hr, hx⟩ := eqn x
  obtain ⟨r', hr', hy⟩ := eqn y
  generalize crankNicolson newton (fun y => A y + g) x dt = x' at hx ⊢
  generalize crankNicolson newton (fun y => A y + g) y dt = y' at hy ⊢
  set e' := x' - y' with he'
  set e := x - y with he
  have h1 : e' - e = (dt / 2) • A (e' + e) + dt • (r - r') := by
    rw [he', he, map_add, map_sub, map_sub]
    linear_combination (norm := module) hx - hy
  have h2 : ‖e'‖ ^ 2 - ‖e‖ ^ 2 = ⟪e' - e, e' + e⟫ := by
    rw [inner_sub_left, inner_add_right, inner_add_right, real_inner_self_eq_norm_sq, real_inner_self_eq_norm_sq,
      real_inner_comm e e']
    ring
  rw [h1, inner_add_left, real_inner_smul_left, real_inner_smul_left] at h2
  have h3 := hA (e' + e)
  have h4 := real_inner_le_norm (r - r') (e' + e)
  have h5 : ‖r - r'‖ ≤ 2 * tol := (norm_sub_le _ _).trans (by linarith)
  have h6 := norm_add_le e' e
  have htol : 0 ≤ tol := (norm_nonneg r).trans hr
  have h7 : ‖r - r'‖ * ‖e' + e‖ ≤ 2 * tol * (‖e'‖ + ‖e‖) := mul_le_mul h5 h6 (norm_nonneg _) (by linarith)
  have h8 : dt * ⟪r - r', e' + e⟫ ≤ dt * (2 * tol * (‖e'‖ + ‖e‖)) := mul_le_mul_of_nonneg_left (h4.trans h7) hdt.le
  have h9 : dt / 2 * ⟪A (e' + e), e' + e⟫ ≤ 0 := mul_nonpos_of_nonneg_of_nonpos (by linarith) h3
  have h10 : (‖e'‖ - ‖e‖) * (‖e'‖ + ‖e‖) ≤ 2 * dt * tol * (‖e'‖ + ‖e‖) := by nlinarith
  have n1 := norm_nonneg e'
  have n2 := norm_nonneg e
  rcases (add_nonneg n1 n2).eq_or_lt with h0 | h0
  · have : 0 ≤ 2 * dt * tol := by positivity
    linarith
  · have := le_of_mul_le_mul_right h10 h0
    linarith

/-- **C88**, SDIRK: with exact solutions two runs never drift apart, for every dissipative right-hand side, linear or not, every
    step size, and every parameter `γ ≥ 1/4`, in particular the `1 + 1/√2` of the code. -/
theorem C88_sdirk (newton : Newton V) (hn : ExactNewton newton) (g : ℝ) (hg : 1 / 4 ≤ g) (rhs : V → V)
    (hd : Dissipative rhs) (hs : Solvable rhs) (dt : ℝ) (hdt : 0 < dt) (n : Nat) (Q R : V) :
    ‖(fun q => sdirk newton g rhs q dt)^[n] Q - (fun q => sdirk newton g rhs q dt)^[n] R‖ ≤ ‖Q - R‖ := by
  refine (iterate_bound (c := 0) ?_ n Q R).trans (by simp)
  intro q p
  have sol : ∀ Q : V, ∃ Y1 Y2, Y1 = Q + (dt * g) • rhs Y1 ∧
      Y2 = Q + (dt * (1 - 2 * g)) • rhs Y1 + (dt * g) • rhs Y2 ∧
      sdirk newton g rhs Q dt = Q + (dt / 2) • (rhs Y1 + rhs Y2) := fun Q =>
    Schemes.C30_sdirk_equation newton hn g rhs Q dt hdt.ne' (hs Q (dt * g) (by positivity))
      (fun y => hs _ (dt * g) (by positivity))
  obtain ⟨Y1, Y2, hY1, hY2, hq⟩ := sol q
  obtain ⟨Z1, Z2, hZ1, hZ2, hp⟩ := sol p
  rw [hq, hp, add_zero]
  have d1 := hd Y1 Z1
  have d2 := hd Y2 Z2
  set F1 := rhs Y1 - rhs Z1 with hF1
  set F2 := rhs Y2 - rhs Z2 with hF2
  have e1 : Y1 - Z1 = (q - p) + (dt * g) • F1 := by
    nth_rw 1 [hY1, hZ1]; rw [hF1]; module
  have e2 : Y2 - Z2 = (q - p) + (dt * (1 - 2 * g)) • F1 + (dt * g) • F2 := by
    nth_rw 1 [hY2, hZ2]; rw [hF1, hF2]; module
  have e3 : q + (dt / 2) • (rhs Y1 + rhs Y2) - (p + (dt / 2) • (rhs Z1 + rhs Z2)) = (q - p) + (dt / 2) • (F1 + F2) := by
    rw [hF1, hF2]; module
  rw [e3]
  rw [e1] at d1
  rw [e2] at d2
  generalize q - p = e at d1 d2 ⊢
  have h : ‖e + (dt / 2) • (F1 + F2)‖ ^ 2 = ‖e‖ ^ 2 + dt * ⟪F1, e + (dt * g) • F1⟫ +
      dt * ⟪F2, e + (dt * (1 - 2 * g)) • F1 + (dt * g) • F2⟫ - dt ^ 2 * (g - 1 / 4) * ‖F1 - F2‖ ^ 2 := by
    simp only [← real_inner_self_eq_norm_sq, inner_add_left, inner_add_right, inner_sub_left, inner_sub_right,
      real_inner_smul_left, real_inner_smul_right]
    rw [real_inner_comm F1 e, real_inner_comm F2 e, real_inner_comm F1 F2]
    ring
  have h2 : ‖e + (dt / 2) • (F1 + F2)‖ ^ 2 ≤ ‖e‖ ^ 2 := by
    rw [h]
    have a1 := mul_nonpos_of_nonneg_of_nonpos hdt.le d1
    have a2 := mul_nonpos_of_nonneg_of_nonpos hdt.le d2
    have a3 : 0 ≤ dt ^ 2 * (g - 1 / 4) * ‖F1 - F2‖ ^ 2 :=
      mul_nonneg (mul_nonneg (sq_nonneg _) (by linarith)) (sq_nonneg _)
    linarith
  exact (sq_le_sq₀ (norm_nonneg _) (norm_nonneg _)).1 h2


theorem trapezoid_contracts (A : V →ₗ[ℝ] V) (hA : ∀ v, ⟪A v, v⟫ ≤ 0) {c : ℝ} (hc : 0 ≤ c) {e e' : V}
    (h1 : e' = e + c • (A e + A e')) : ‖e'‖ ≤ ‖e‖ := by
  have h2 : ‖e'‖ ^ 2 - ‖e‖ ^ 2 = ⟪e' - e, e' + e⟫ := by
    rw [inner_sub_left, inner_add_right, inner_add_right, real_inner_self_eq_norm_sq, real_inner_self_eq_norm_sq,
      real_inner_comm e e']
    ring
  have h3 : e' - e = c • A (e' + e) := by
    rw [map_add]
    linear_combination (norm := module) h1
  rw [h3, real_inner_smul_left] at h2
  have h4 := mul_nonpos_of_nonneg_of_nonpos hc (hA (e' + e))
  exact (sq_le_sq₀ (norm_nonneg _) (norm_nonneg _)).1 (by linarith)

/-- **C88**, Ros2: with exact linear solutions two runs of an affine dissipative problem never drift apart. -/
theorem C88_ros2 [FiniteDimensional ℝ V] (linear : Linear V) (hl : ExactLinear linear) (eps : ℝ) (he : eps ≠ 0)
    (A : V →ₗ[ℝ] V) (g : V) (hA : ∀ v, ⟪A v, v⟫ ≤ 0) (dt : ℝ) (hdt : 0 < dt) (n : Nat) (Q R : V) :
    ‖(fun q => ros2 linear eps (fun y => A y + g) q dt)^[n] Q -
      (fun q => ros2 linear eps (fun y => A y + g) q dt)^[n] R‖ ≤ ‖Q - R‖ := by
  refine (iterate_bound (c := 0) ?_ n Q R).trans (by simp)
  have hex : ∀ q : V, ∃ d, d - (dt / 2) • A d = dt • (A q + g) := by
    intro q
    obtain ⟨d, hd⟩ := (C88_affine_solvable A 0 hA).2 (dt • (A q + g)) (dt / 2) (by linarith)
    refine ⟨d, ?_⟩
    beta_reduce at hd
    rw [add_zero] at hd
    exact sub_eq_iff_eq_add.2 hd
  intro x y
  have hx := Schemes.C30_ros2 linear hl eps he A g x dt (hex x)
  have hy := Schemes.C30_ros2 linear hl eps he A g y dt (hex y)
  dsimp only at hx hy ⊢
  rw [add_zero]
  apply trapezoid_contracts A hA (c := dt / 2) (by linarith)
  rw [map_sub, map_sub]
  linear_combination (norm := module) hx - hy

/-- one step of backward Euler with the step `c` contracts -/
theorem implicit_contracts {rhs : V → V} (hd : Dissipative rhs) {c : ℝ} (hc : 0 ≤ c) {x y Q R : V}
    (hx : x = Q + c • rhs x) (hy : y = R + c • rhs y) : ‖x - y‖ ≤ ‖Q - R‖ := by
  have e2 : ‖x - y‖ ^ 2 = ⟪Q - R, x - y⟫ + c * ⟪rhs x - rhs y, x - y⟫ := by
    rw [← real_inner_self_eq_norm_sq, ← real_inner_smul_left, ← inner_add_left]
    congr 1
    linear_combination (norm := module) hx - hy
  have h1 := real_inner_le_norm (Q - R) (x - y)
  have h2 := mul_nonpos_of_nonneg_of_nonpos hc (hd x y)
  exact le_of_sq (norm_nonneg _) (by linarith)

theorem bdf2Start_contracts (newton : Newton V) (hn : ExactNewton newton) {rhs : V → V} (hd : Dissipative rhs)
    (hs : Solvable rhs) {h : ℝ} (hh : 0 < h) (n : Nat) (Q R : V) :
    ‖bdf2Start newton rhs h n Q - bdf2Start newton rhs h n R‖ ≤ ‖Q - R‖ := by
  induction n generalizing Q R with
  | zero => simp [bdf2Start]
  | succ n ih =>
    rw [bdf2Start, bdf2Start]
    refine (ih _ _).trans ?_
    have eqn : ∀ Q : V, newton (fun Qp => h⁻¹ • (Qp - Q) - (1 / 2 : ℝ) • rhs Qp) Q =
        Q + (h / 2) • rhs (newton (fun Qp => h⁻¹ • (Qp - Q) - (1 / 2 : ℝ) • rhs Qp) Q) := by
      intro Q
      have := hn (fun Qp => h⁻¹ • (Qp - Q) - (1 / 2 : ℝ) • rhs Qp) Q (by
        obtain ⟨x, hx⟩ := hs Q (h / 2) (by linarith)
        refine ⟨x, ?_⟩
        beta_reduce
        have : x - Q = h • ((1 / 2 : ℝ) • rhs x) := by nth_rw 1 [hx]; module
        rw [this, smul_smul, inv_mul_cancel₀ hh.ne', one_smul, sub_self])
      beta_reduce at this
      generalize newton (fun Qp => h⁻¹ • (Qp - Q) - (1 / 2 : ℝ) • rhs Qp) Q = x at this ⊢
      have h2 : h • (h⁻¹ • (x - Q)) = h • ((1 / 2 : ℝ) • rhs x) := by rw [sub_eq_zero.1 this]
      rw [smul_smul, mul_inv_cancel₀ hh.ne', one_smul] at h2
      linear_combination (norm := module) h2
    exact implicit_contracts hd (by linarith) (eqn Q) (eqn R)

/-- the states of a run of BDF2: the previous and the present state after `n` steps -/
noncomputable def bdf2Run (newton : Newton V) (rhs : V → V) (substeps : Nat) (dt : ℝ) (n : Nat) (Q : V) : Option V × V :=
  (fun s : Option V × V => bdf2 newton rhs substeps s.1 s.2 dt)^[n] (none, Q)

/-- the energy of two consecutive differences -/
theorem bdf2_energy {a b c f : V} {dt : ℝ} (hdt : 0 ≤ dt) (h : c = (4 / 3 : ℝ) • b - (1 / 3 : ℝ) • a + (2 / 3 * dt) • f)
    (hf : ⟪f, c⟫ ≤ 0) : ‖c‖ ^ 2 + ‖(2 : ℝ) • c - b‖ ^ 2 ≤ ‖b‖ ^ 2 + ‖(2 : ℝ) • b - a‖ ^ 2 := by
  have h1 : (2 * dt) • f = (3 : ℝ) • c - (4 : ℝ) • b + a := by
    linear_combination (norm := module) (3 : ℝ) • (-h)
  have h2 : 2 * dt * ⟪f, c⟫ = ⟪(3 : ℝ) • c - (4 : ℝ) • b + a, c⟫ := by rw [← h1, real_inner_smul_left]
  have h3 : ‖c‖ ^ 2 + ‖(2 : ℝ) • c - b‖ ^ 2 = ‖b‖ ^ 2 + ‖(2 : ℝ) • b - a‖ ^ 2 +
      2 * ⟪(3 : ℝ) • c - (4 : ℝ) • b + a, c⟫ - ‖c - (2 : ℝ) • b + a‖ ^ 2 := by
    simp only [← real_inner_self_eq_norm_sq, inner_add_left, inner_add_right, inner_sub_left, inner_sub_right,
      real_inner_smul_left, real_inner_smul_right]
    rw [real_inner_comm a b, real_inner_comm a c, real_inner_comm b c]
    ring
  have h4 := mul_nonpos_of_nonneg_of_nonpos (by linarith : 0 ≤ 2 * dt) hf
  have := sq_nonneg ‖c - (2 : ℝ) • b + a‖
  linarith

/-- **C88**, BDF2: with exact solutions the distance of two runs never exceeds `√10` times the distance at the start, for every
    dissipative right-hand side, linear or not, every step size, every number of steps and of sub-steps of the start-up. -/
theorem C88_bdf2 (newton : Newton V) (hn : ExactNewton newton) (rhs : V → V) (hd : Dissipative rhs) (hs : Solvable rhs)
    (substeps : Nat) (hsub : 0 < substeps) (dt : ℝ) (hdt : 0 < dt) (n : Nat) (Q R : V) :
    ‖(bdf2Run newton rhs substeps dt n Q).2 - (bdf2Run newton rhs substeps dt n R).2‖ ^ 2 ≤ 10 * ‖Q - R‖ ^ 2 := by
  have inv : ∀ n, ∃ P P', (bdf2Run newton rhs substeps dt (n + 1) Q).1 = some P ∧
      (bdf2Run newton rhs substeps dt (n + 1) R).1 = some P' ∧
      ‖(bdf2Run newton rhs substeps dt (n + 1) Q).2 - (bdf2Run newton rhs substeps dt (n + 1) R).2‖ ^ 2 +
        ‖(2 : ℝ) • ((bdf2Run newton rhs substeps dt (n + 1) Q).2 - (bdf2Run newton rhs substeps dt (n + 1) R).2)
          - (P - P')‖ ^ 2 ≤ 10 * ‖Q - R‖ ^ 2 := by
    intro n
    induction n with
    | zero =>
      refine ⟨Q, R, rfl, rfl, ?_⟩
      have h1 : ‖(bdf2Run newton rhs substeps dt (0 + 1) Q).2 - (bdf2Run newton rhs substeps dt (0 + 1) R).2‖ ≤ ‖Q - R‖ :=
        bdf2Start_contracts newton hn hd hs (by positivity) substeps Q R
      have h2 := norm_sub_le ((2 : ℝ) • ((bdf2Run newton rhs substeps dt (0 + 1) Q).2 -
        (bdf2Run newton rhs substeps dt (0 + 1) R).2)) (Q - R)
      rw [norm_smul, Real.norm_ofNat] at h2
      generalize (bdf2Run newton rhs substeps dt (0 + 1) Q).2 - (bdf2Run newton rhs substeps dt (0 + 1) R).2 = e at h1 h2 ⊢
      have n1 := norm_nonneg e
      have n2 := norm_nonneg ((2 : ℝ) • e - (Q - R))
      have h3 : ‖(2 : ℝ) • e - (Q - R)‖ ≤ 3 * ‖Q - R‖ := by linarith
      nlinarith
    | succ n ih =>
      obtain ⟨P, P', hP, hP', hE⟩ := ih
      have stepQ : ∀ Q, bdf2Run newton rhs substeps dt (n + 1 + 1) Q =
          bdf2 newton rhs substeps (bdf2Run newton rhs substeps dt (n + 1) Q).1
            (bdf2Run newton rhs substeps dt (n + 1) Q).2 dt := by
        intro Q
        unfold bdf2Run
        rw [Function.iterate_succ_apply']
      have sol : ∀ a b : V, ∃ x, x = (4 / 3 : ℝ) • b - (1 / 3 : ℝ) • a + (2 / 3 * dt) • rhs x := fun a b =>
        hs _ (2 / 3 * dt) (by positivity)
      rw [stepQ Q, stepQ R, hP, hP']
      generalize (bdf2Run newton rhs substeps dt (n + 1) Q).2 = B at hE ⊢
      generalize (bdf2Run newton rhs substeps dt (n + 1) R).2 = B' at hE ⊢
      obtain ⟨k1, k2⟩ := Schemes.C30_bdf2 newton hn rhs substeps P B dt hdt.ne' (sol P B)
      obtain ⟨k3, k4⟩ := Schemes.C30_bdf2 newton hn rhs substeps P' B' dt hdt.ne' (sol P' B')
      refine ⟨B, B', k1, k3, ?_⟩
      refine (bdf2_energy (a := P - P') (b := B - B') (f := rhs (bdf2 newton rhs substeps (some P) B dt).2 -
        rhs (bdf2 newton rhs substeps (some P') B' dt).2) hdt.le ?_ (hd _ _)).trans hE
      linear_combination (norm := module) k2 - k4
  cases n with
  | zero =>
    have := sq_nonneg ‖Q - R‖
    simp only [bdf2Run, Function.iterate_zero, id]
    linarith
  | succ n =>
    obtain ⟨P, P', _, _, h⟩ := inv n
    have := sq_nonneg ‖(2 : ℝ) • ((bdf2Run newton rhs substeps dt (n + 1) Q).2 -
      (bdf2Run newton rhs substeps dt (n + 1) R).2) - (P - P')‖
    linarith

/-- **C88**, IMEX2 with a constant explicit part is the implicit midpoint rule: two runs never drift apart. -/
theorem C88_imex2_partial (newton : Newton V) (hn : ExactNewton newton) (c : V) (fi : V → V) (hd : Dissipative fi)
    (hs : Solvable fi) (dt : ℝ) (hdt : 0 < dt) (n : Nat) (Q R : V) :
    ‖(fun q => imex2 newton (fun _ => c) fi q dt)^[n] Q - (fun q => imex2 newton (fun _ => c) fi q dt)^[n] R‖ ≤ ‖Q - R‖ := by
  refine (iterate_bound (c := 0) ?_ n Q R).trans (by simp)
  intro x y
  have sol : ∀ q : V, ∃ z, z = q + (dt / 2) • (c + fi z) := by
    intro q
    obtain ⟨z, hz⟩ := hs (q + (dt / 2) • c) (dt / 2) (by linarith)
    exact ⟨z, by rw [smul_add, ← add_assoc]; exact hz⟩
  obtain ⟨Y, hY, h1⟩ := Schemes.C30_imex2_equation newton hn (fun _ => c) fi x dt (sol x)
  obtain ⟨Z, hZ, h2⟩ := Schemes.C30_imex2_equation newton hn (fun _ => c) fi y dt (sol y)
  beta_reduce
  rw [h1, h2, add_zero]
  have d := hd Y Z
  beta_reduce at hY hZ
  have e1 : Y - Z = (x - y) + (dt / 2) • (fi Y - fi Z) := by linear_combination (norm := module) hY - hZ
  rw [e1] at d
  have e2 : x + dt • (c + fi Y) - (y + dt • (c + fi Z)) = (x - y) + dt • (fi Y - fi Z) := by module
  rw [e2]
  generalize x - y = e at d ⊢
  generalize fi Y - fi Z = f at d ⊢
  have h : ‖e + dt • f‖ ^ 2 = ‖e‖ ^ 2 + 2 * dt * ⟪f, e + (dt / 2) • f⟫ := by
    simp only [← real_inner_self_eq_norm_sq, inner_add_left, inner_add_right, real_inner_smul_left, real_inner_smul_right]
    rw [real_inner_comm f e]
    ring
  have := mul_nonpos_of_nonneg_of_nonpos (by linarith : 0 ≤ 2 * dt) d
  exact (sq_le_sq₀ (norm_nonneg _) (norm_nonneg _)).1 (by linarith)

/-! ## Oscillations and decay with explicit schemes -/

/-- **C88**, IMEX2 fails: an oscillation in the explicit part grows with every step size. -/
theorem C88_imex2_fails (newton : Newton ℂ) (hn : ExactNewton newton) (om dt : ℝ) (h : om * dt ≠ 0) (Q : ℂ) (hQ : Q ≠ 0) :
    ‖Q‖ < ‖imex2 newton (fun y => (om * Complex.I) * y) (fun _ => 0) Q dt‖ := by
  obtain ⟨Y, hY, h1⟩ := Schemes.C30_imex2_equation newton hn (fun y => (om * Complex.I) * y) (fun _ => 0) Q dt ⟨_, rfl⟩
  rw [h1, hY]
  have e : Q + dt • ((om * Complex.I) * (Q + (dt / 2) • ((om * Complex.I) * Q + 0)) + 0) =
      (⟨1 - (om * dt) ^ 2 / 2, om * dt⟩ : ℂ) * Q := by
    apply Complex.ext <;> simp <;> ring
  rw [e, norm_mul]
  have hq : 0 < ‖Q‖ := norm_pos_iff.2 hQ
  have h2 : 1 < ‖(⟨1 - (om * dt) ^ 2 / 2, om * dt⟩ : ℂ)‖ := by
    rw [← sq_lt_sq₀ zero_le_one (norm_nonneg _), ← Complex.normSq_eq_norm_sq, Complex.normSq_mk]
    have : 0 < (om * dt) ^ 2 := by positivity
    nlinarith
  nlinarith

/-- **C88**, explicit schemes on an oscillation of frequency `om`: with Euler1 it grows with every step size; with Tvdrk3 it does not
    grow exactly when `|om dt| ≤ √3`. -/
theorem C88_oscillation (om dt : ℝ) (Q : ℂ) (hQ : Q ≠ 0) :
    (om * dt ≠ 0 → ‖Q‖ < ‖euler1 (fun y => (om * Complex.I) * y) Q dt‖) ∧
    (‖tvdrk3 (fun y => (om * Complex.I) * y) Q dt‖ ≤ ‖Q‖ ↔ |om * dt| ≤ √3) := by
  have hq : 0 < ‖Q‖ := norm_pos_iff.2 hQ
  constructor
  · intro h
    have e : euler1 (fun y => (om * Complex.I) * y) Q dt = (⟨1, om * dt⟩ : ℂ) * Q := by
      unfold euler1
      apply Complex.ext <;> simp <;> ring
    rw [e, norm_mul]
    have h2 : 1 < ‖(⟨1, om * dt⟩ : ℂ)‖ := by
      rw [← sq_lt_sq₀ zero_le_one (norm_nonneg _), ← Complex.normSq_eq_norm_sq, Complex.normSq_mk]
      have : 0 < (om * dt) ^ 2 := by positivity
      nlinarith
    nlinarith
  · have e : tvdrk3 (fun y => (om * Complex.I) * y) Q dt =
        (⟨1 - (om * dt) ^ 2 / 2, om * dt - (om * dt) ^ 3 / 6⟩ : ℂ) * Q := by
      unfold tvdrk3
      apply Complex.ext <;> simp <;> ring
    rw [e, norm_mul]
    have h1 : ‖(⟨1 - (om * dt) ^ 2 / 2, om * dt - (om * dt) ^ 3 / 6⟩ : ℂ)‖ * ‖Q‖ ≤ ‖Q‖ ↔
        ‖(⟨1 - (om * dt) ^ 2 / 2, om * dt - (om * dt) ^ 3 / 6⟩ : ℂ)‖ ≤ 1 := by
      constructor
      · intro h; by_contra hc; push Not at hc; nlinarith
      · intro h; nlinarith
    rw [h1, ← sq_le_sq₀ (norm_nonneg _) zero_le_one, ← Complex.normSq_eq_norm_sq, Complex.normSq_mk]
    generalize om * dt = y
    have h2 : |y| ≤ √3 ↔ y ^ 2 ≤ 3 := by
      rw [← sq_le_sq₀ (abs_nonneg _) (Real.sqrt_nonneg _), sq_abs, Real.sq_sqrt (by norm_num)]
    rw [h2]
    have h3 : (1 - y ^ 2 / 2) * (1 - y ^ 2 / 2) + (y - y ^ 3 / 6) * (y - y ^ 3 / 6) =
        1 + (y ^ 2) ^ 2 * (y ^ 2 - 3) / 36 := by ring
    rw [h3]
    constructor
    · intro h
      by_contra hc
      push Not at hc
      have : 0 < (y ^ 2) ^ 2 * (y ^ 2 - 3) := mul_pos (pow_pos (by linarith) 2) (by linarith)
      linarith
    · intro h
      have : (y ^ 2) ^ 2 * (y ^ 2 - 3) ≤ 0 := mul_nonpos_of_nonneg_of_nonpos (sq_nonneg _) (by linarith)
      linarith

/-- **C88**, explicit schemes on decay at rate `a`: Euler1 does not amplify it exactly when `a dt ≤ 2`. -/
theorem C88_decay (a dt Q : ℝ) (ha : 0 ≤ a * dt) (hQ : Q ≠ 0) :
    |euler1 (fun y => -a * y) Q dt| ≤ |Q| ↔ a * dt ≤ 2 := by
  have hq : 0 < |Q| := abs_pos.2 hQ
  have e : euler1 (fun y => -a * y) Q dt = (1 - a * dt) * Q := by unfold euler1; simp only [smul_eq_mul]; ring
  rw [e, abs_mul]
  constructor
  · intro h
    have : |1 - a * dt| ≤ 1 := by by_contra hc; push Not at hc; nlinarith
    have := (abs_le.1 this).1
    linarith
  · intro h
    have : |1 - a * dt| ≤ 1 := abs_le.2 ⟨by linarith, by linarith⟩
    nlinarith

/-! ## Stiff decay -/

/-- **C88**, fast decay with the implicit schemes: SDIRK reduces a component with decay rate `a` by at least the factor
    `(1 + γ a dt) / 2`, which is as large as one wants. -/
theorem C88_sdirk_stiff (newton : Newton ℝ) (hn : ExactNewton newton) (r : ℝ) (hr : r ^ 2 = 2) (hp : 0 < r) (a dt Q : ℝ)
    (ha : 0 ≤ a) (hdt : 0 < dt) :
    |sdirk newton (1 + 1 / r) (fun y => -a * y) Q dt| ≤ 2 / (1 + (1 + 1 / r) * (a * dt)) * |Q| := by
  set g := 1 + 1 / r with hgd
  have hg : g ^ 2 - 2 * g + 1 / 2 = 0 := Schemes.C30_sdirk_parameter r hr
  have hg1 : 1 < g := by rw [hgd]; have : 0 < 1 / r := by positivity
                         linarith
  have hpos : ∀ c : ℝ, 0 ≤ c → (1 + c * a) ≠ 0 := fun c hc => by positivity
  have sol : ∀ (q c : ℝ), 0 ≤ c → ∃ x : ℝ, x = q + c • (-a * x) := by
    intro q c hc
    refine ⟨q / (1 + c * a), ?_⟩
    have := hpos c hc
    simp only [smul_eq_mul]
    field_simp
    ring
  have hgp : 0 < g := by linarith
  obtain ⟨Y1, Y2, h1, h2, h3⟩ := Schemes.C30_sdirk_equation newton hn g (fun y => -a * y) Q dt hdt.ne'
    (sol Q (dt * g) (by positivity)) (fun y => sol _ (dt * g) (by positivity))
  simp only [smul_eq_mul] at h1 h2 h3
  set x := a * dt with hx
  have hx0 : 0 ≤ x := by positivity
  have hD : 0 < 1 + g * x := by positivity
  have k1 : (1 + g * x) * Y1 = Q := by rw [hx]; linear_combination h1
  have k2 : (1 + g * x) * Y2 = Q - (1 - 2 * g) * x * Y1 := by rw [hx]; linear_combination h2
  have k3 : sdirk newton g (fun y => -a * y) Q dt = Q - x / 2 * (Y1 + Y2) := by rw [h3, hx]; ring
  have k4 : (1 + g * x) ^ 2 * sdirk newton g (fun y => -a * y) Q dt = (1 + (2 * g - 1) * x) * Q := by
    rw [k3]
    have : (1 + g * x) ^ 2 * (Y1 + Y2) = (1 + g * x) * Q + (1 + g * x) * Q - (1 - 2 * g) * x * Q := by
      linear_combination ((1 + g * x) - (1 - 2 * g) * x) * k1 + (1 + g * x) * k2
    linear_combination (-x / 2) * this + x ^ 2 * Q * hg
  have k5 : (1 + g * x) ^ 2 * |sdirk newton g (fun y => -a * y) Q dt| = (1 + (2 * g - 1) * x) * |Q| := by
    have := congrArg abs k4
    rw [abs_mul, abs_mul, abs_of_pos (pow_pos hD 2)] at this
    rw [this, abs_of_nonneg]
    have : 0 ≤ (2 * g - 1) * x := mul_nonneg (by linarith) hx0
    linarith
  rw [div_mul_eq_mul_div, le_div_iff₀ hD]
  have k6 : (1 + (2 * g - 1) * x) * |Q| ≤ (1 + g * x) * (2 * |Q|) := by
    have := abs_nonneg Q
    have : 1 + (2 * g - 1) * x ≤ (1 + g * x) * 2 := by linarith
    nlinarith
  rw [← k5] at k6
  have : (1 + g * x) * (|sdirk newton g (fun y => -a * y) Q dt| * (1 + g * x)) ≤ (1 + g * x) * (2 * |Q|) := by
    linarith [k6]
  exact le_of_mul_le_mul_left this hD

/-- **C88**, fast decay with Crank-Nicolson fails: whatever reduction `θ < 1` one asks for in a step, components that decay fast
    enough are reduced by less; they keep their size and change sign. -/
theorem C88_crank_nicolson_stiff_fails (newton : Newton ℝ) (hn : ExactNewton newton) (th : ℝ) (hth : th < 1) (dt : ℝ)
    (hdt : 0 < dt) : ∃ a0 : ℝ, ∀ a, a0 ≤ a → ∀ Q : ℝ, 0 < Q →
      crankNicolson newton (fun y => -a * y) Q dt < -(th * Q) := by
  refine ⟨(max 0 (4 * (1 + th) / (1 - th)) + 1) / dt, ?_⟩
  intro a ha Q hQ
  have hx : max 0 (4 * (1 + th) / (1 - th)) + 1 ≤ a * dt := (div_le_iff₀ hdt).1 ha
  have hm1 := le_max_left 0 (4 * (1 + th) / (1 - th))
  have hm2 := le_max_right 0 (4 * (1 + th) / (1 - th))
  set x := a * dt with hxd
  have hx0 : 1 ≤ x := by linarith
  have hx2 : 4 * (1 + th) / (1 - th) < x := by linarith
  rw [div_lt_iff₀ (by linarith)] at hx2
  have hsol : ∃ z : ℝ, z = Q + (dt / 2) • ((fun y => -a * y) Q + (fun y => -a * y) z) := by
    refine ⟨Q * (1 - x / 2) / (1 + x / 2), ?_⟩
    have : (1 + x / 2) ≠ 0 := by positivity
    simp only [smul_eq_mul]
    rw [show Q + dt / 2 * (-a * Q + -a * (Q * (1 - x / 2) / (1 + x / 2))) =
      Q - x / 2 * (Q + Q * (1 - x / 2) / (1 + x / 2)) by rw [hxd]; ring]
    field_simp
    ring
  have := (Schemes.C30_one_step newton hn (fun y => -a * y) Q dt hdt.ne').2 hsol
  simp only [smul_eq_mul] at this
  have k : (1 + x / 2) * crankNicolson newton (fun y => -a * y) Q dt = (1 - x / 2) * Q := by
    rw [hxd]; linear_combination this
  generalize crankNicolson newton (fun y => -a * y) Q dt = z at k ⊢
  have hD : 0 < 1 + x / 2 := by positivity
  by_contra hc
  push Not at hc
  have : (1 + x / 2) * (-(th * Q)) ≤ (1 - x / 2) * Q := by rw [← k]; exact mul_le_mul_of_nonneg_left hc hD.le
  have : (-(1 + x / 2) * th) ≤ 1 - x / 2 := by nlinarith
  nlinarith


/-! ## Exponential and split schemes -/

open WxVerif.Props.Srerk (flow AffineFlow)

theorem flow_contracts {J : V →ₗ[ℝ] V} {g : V} {P : ℝ → V → V} (hJ : ∀ v, ⟪J v, v⟫ ≤ 0)
    (hode : ∀ y h, HasDerivAt (fun h => flow J g P h y) (J (flow J g P h y) + g) h) {h : ℝ} (hh : 0 ≤ h) (y z : V) :
    ‖flow J g P h y - flow J g P h z‖ ≤ ‖y - z‖ := by
  set e : ℝ → V := fun h => flow J g P h y - flow J g P h z with he
  have hd : ∀ h, HasDerivAt e (J (e h)) h := by
    intro h
    refine ((hode y h).sub (hode z h)).congr_deriv ?_
    rw [he, map_sub]
    abel
  have hd2 : ∀ h, HasDerivAt (fun h => ‖e h‖ ^ 2) (2 * ⟪e h, J (e h)⟫) h := fun h => (hd h).norm_sq
  have anti : Antitone fun h => ‖e h‖ ^ 2 := by
    apply antitone_of_deriv_nonpos (fun h => (hd2 h).differentiableAt)
    intro h
    rw [(hd2 h).deriv, real_inner_comm]
    have := hJ (e h)
    linarith
  have h1 := anti hh
  have h0 : e 0 = y - z := by rw [he]; simp [Props.Srerk.flow_zero]
  beta_reduce at h1
  rw [h0] at h1
  exact (sq_le_sq₀ (norm_nonneg _) (norm_nonneg _)).1 h1

/-- **C88**, multistep exponential integrators: with exact Jacobian products and an exact exponential solver, two runs of an affine
    dissipative problem never drift apart, for every sequence of step sizes. -/
theorem C88_epi (cfg : Epi.Cfg ℝ) (wf : Props.Epi.WellFormed cfg) (ext : Epi.Ext ℝ V)
    (J : V →ₗ[ℝ] V) (g : V) (P : ℝ → V → V) (hP : AffineFlow J g P) (hJ : ∀ v, ⟪J v, v⟫ ≤ 0)
    (hode : ∀ y h, HasDerivAt (fun h => flow J g P h y) (J (flow J g P h y) + g) h)
    (hrhs : ∀ y, ext.rhs y = J y + g) (hjac : ∀ Q v, ext.jac Q v = J v)
    (hphi : ∀ Q dt f n, ext.phi Q dt ((List.range (n + 1)).map fun row => if row = 1 then f else 0) = P dt f)
    (hinit : ∀ y h, ext.initStep y h = flow J g P h y) (dts : Nat → ℝ) (hdts : ∀ n, 0 ≤ dts n) (Q R : V) (n : Nat) :
    ∃ st st' q r, Epi.run cfg ext dts Q n = some (st, q) ∧ Epi.run cfg ext dts R n = some (st', r) ∧
      ‖q - r‖ ≤ ‖Q - R‖ := by
  obtain ⟨st, h1⟩ := Props.Srerk.C56_epi_affine cfg wf ext J g P hP hrhs hjac hphi hinit dts Q n
  obtain ⟨st', h2⟩ := Props.Srerk.C56_epi_affine cfg wf ext J g P hP hrhs hjac hphi hinit dts R n
  exact ⟨st, st', _, _, h1, h2, flow_contracts hJ hode (Finset.sum_nonneg fun i _ => hdts i) Q R⟩

/-- **C88**, exponential Runge-Kutta integrators: the same for each step. -/
theorem C88_srerk (c : List (List ℝ)) (ext : WxVerif.Srerk.Ext ℝ V) (J : V →ₗ[ℝ] V) (g : V) (P : ℝ → V → V)
    (hJ : ∀ v, ⟪J v, v⟫ ≤ 0)
    (hode : ∀ y h, HasDerivAt (fun h => flow J g P h y) (J (flow J g P h y) + g) h)
    (hrhs : ∀ y, ext.rhs y = J y + g) (hjac : ∀ Q v, ext.jac Q v = J v)
    (hphi : ∀ nodes Q dt f n, ext.phi nodes Q dt ([0, f] ++ List.replicate n 0) =
      nodes.map fun t => t • P (t * dt) f)
    (hc : c.getLast? = some [1]) (Q R : V) (dt : ℝ) (hdt : 0 ≤ dt) :
    ∃ q r, WxVerif.Srerk.step c ext Q dt = some q ∧ WxVerif.Srerk.step c ext R dt = some r ∧ ‖q - r‖ ≤ ‖Q - R‖ :=
  ⟨_, _, Props.Srerk.C56_srerk_affine c ext J g P hrhs hjac hphi hc Q dt,
    Props.Srerk.C56_srerk_affine c ext J g P hrhs hjac hphi hc R dt, flow_contracts hJ hode hdt Q R⟩

/-- non-vacuity of the two: decay to `g`, whose solution is `exp (-h) y + (1 - exp (-h)) g` -/
example (g : ℝ) : ∃ (J : ℝ →ₗ[ℝ] ℝ) (P : ℝ → ℝ → ℝ), J ≠ 0 ∧ AffineFlow J g P ∧ (∀ v, ⟪J v, v⟫ ≤ 0) ∧
    ∀ y h, HasDerivAt (fun h => flow J g P h y) (J (flow J g P h y) + g) h := by
  refine ⟨-LinearMap.id, fun h f => if h = 0 then f else (1 - Real.exp (-h)) / h * f, ?_, ?_, ?_, ?_⟩
  · intro h
    have := congrArg (fun L => L 1) h
    simp at this
  all_goals
    have hf : ∀ (h y : ℝ), y + h • (if h = 0 then (-LinearMap.id : ℝ →ₗ[ℝ] ℝ) y + g else
        (1 - Real.exp (-h)) / h * ((-LinearMap.id : ℝ →ₗ[ℝ] ℝ) y + g)) = Real.exp (-h) * y + (1 - Real.exp (-h)) * g := by
      intro h y
      by_cases h0 : h = 0
      · simp [h0]
      · simp only [h0, if_false, LinearMap.neg_apply, LinearMap.id_apply, smul_eq_mul]
        field_simp
        ring
  · constructor
    intro a b y
    simp only [hf]
    rw [neg_add, Real.exp_add]
    ring
  · intro v
    simp only [LinearMap.neg_apply, LinearMap.id_apply, real_inner_eq_re_inner, RCLike.inner_apply]
    simp
    nlinarith [sq_nonneg v]
  · intro y h
    unfold flow
    simp only [hf]
    have h1 : HasDerivAt (fun h : ℝ => Real.exp (-h)) (-Real.exp (-h)) h := by
      have := (hasDerivAt_id h).neg.exp
      simpa using this
    refine ((h1.mul_const y).add ((h1.const_sub 1).mul_const g)).congr_deriv ?_
    simp only [LinearMap.neg_apply, LinearMap.id_apply]
    ring

/-- **C88**, splittings: if neither part lets two states drift apart, the split scheme does not either, for every number of steps. -/
theorem C88_splitting (s1 s2 : V → ℝ → V) (h1 : ∀ h, 0 ≤ h → Contractive fun q => s1 q h)
    (h2 : ∀ h, 0 ≤ h → Contractive fun q => s2 q h) (dt : ℝ) (hdt : 0 ≤ dt) (n : Nat) :
    (Contractive (fun q => lie s1 s2 q dt)^[n]) ∧ (Contractive (fun q => strang s1 s2 q dt)^[n]) := by
  have it : ∀ f : V → V, Contractive f → Contractive f^[n] := by
    intro f hf x y
    simpa using iterate_bound (f := f) (c := 0) (by intro a b; simpa using hf a b) n x y
  have hh : 0 ≤ dt / 2 := by linarith
  constructor
  · apply it
    intro x y
    exact (h2 dt hdt _ _).trans (h1 dt hdt x y)
  · apply it
    intro x y
    exact (h1 _ hh _ _).trans ((h2 dt hdt _ _).trans (h1 _ hh x y))

/-! ## The hypotheses are met -/

/-- non-vacuity: damping in the plane is dissipative with rate 1, is solvable, and is not the zero field -/
example : ∃ A : EuclideanSpace ℝ (Fin 2) →ₗ[ℝ] EuclideanSpace ℝ (Fin 2), A ≠ 0 ∧ (∀ v, ⟪A v, v⟫ ≤ 0) ∧
    Dissipative (fun y => A y) ∧ Solvable (fun y => A y) ∧ Damping 1 (fun y => A y) := by
  have e : ∀ v : EuclideanSpace ℝ (Fin 2), ⟪(-LinearMap.id : EuclideanSpace ℝ (Fin 2) →ₗ[ℝ] _) v, v⟫ = -‖v‖ ^ 2 := by
    intro v
    rw [LinearMap.neg_apply, inner_neg_left, LinearMap.id_apply, real_inner_self_eq_norm_sq]
  have hA : ∀ v : EuclideanSpace ℝ (Fin 2), ⟪(-LinearMap.id : EuclideanSpace ℝ (Fin 2) →ₗ[ℝ] _) v, v⟫ ≤ 0 := by
    intro v; rw [e]; nlinarith [sq_nonneg ‖v‖]
  refine ⟨-LinearMap.id, ?_, hA, ?_, ?_, ?_⟩
  · intro h
    have := congrArg (fun L => L (EuclideanSpace.single 0 (1 : ℝ)) 0) h
    simp at this
  · simpa using (C88_affine_solvable (-LinearMap.id) 0 hA).1
  · simpa using (C88_affine_solvable (-LinearMap.id) 0 hA).2
  · intro x y
    beta_reduce
    rw [← map_sub, e]
    linarith

/-- non-vacuity: a nonlinear dissipative right-hand side, the positive part with a minus sign, and a nonlinear solver within any
    tolerance -/
example : Dissipative (fun x : ℝ => -max x 0) ∧ Solvable (fun x : ℝ => -max x 0) ∧
    ∃ newton : Newton ℝ, ExactNewton newton ∧ AccurateNewton 0 newton := by
  refine ⟨?_, ?_, ?_⟩
  · intro x y
    have : ⟪-max x 0 - -max y 0, x - y⟫ = (x - y) * (max y 0 - max x 0) := by
      rw [show (-max x 0 - -max y 0) = max y 0 - max x 0 by ring]; rfl
    beta_reduce
    rw [this]
    rcases le_total x 0 with h1 | h1 <;> rcases le_total y 0 with h2 | h2 <;> simp [h1, h2] <;> nlinarith [sq_nonneg (x - y)]
  · intro Q c hc
    rcases le_total Q 0 with h | h
    · exact ⟨Q, by simp [h]⟩
    · refine ⟨Q / (1 + c), ?_⟩
      have : 0 < 1 + c := by linarith
      have h3 : 0 ≤ Q / (1 + c) := by positivity
      simp only [max_eq_left h3, smul_eq_mul]
      field_simp
      ring
  · classical
    refine ⟨fun F x0 => if h : ∃ x, F x = 0 then h.choose else x0, ?_, ?_⟩
    · intro F x0 h
      simp only [dif_pos h]
      exact h.choose_spec
    · intro F x0 h
      simp only [dif_pos h]
      rw [h.choose_spec]
      simp

end WxVerif.Props.Stability
