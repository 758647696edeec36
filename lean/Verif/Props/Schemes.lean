import Verif.Model.Schemes
import Verif.Model.RungeKutta
import Verif.Spec.Schemes
import Mathlib.Tactic.Module
import Mathlib.Tactic.Ring
import Mathlib.Tactic.FieldSimp
import Mathlib.Tactic.Linarith
import Mathlib.Tactic.LinearCombination
import Mathlib.Tactic.NormNum
import Mathlib.Tactic.IntervalCases
import Mathlib.Algebra.CharZero.Defs
import Mathlib.Algebra.Algebra.Basic
import Mathlib.Data.Fin.VecNotation
import Mathlib.LinearAlgebra.Matrix.Notation
import Mathlib.Algebra.BigOperators.Intervals

/-!
# Explicit, implicit and splitting integrators (C29, C30, C55)
-/

namespace WxVerif.Props.Schemes

open WxVerif.Schemes Polynomial

variable {K : Type*} {V : Type*} [Field K] [CharZero K] [AddCommGroup V] [Module K V]

theorem two_ne : (2 : K) ≠ 0 := two_ne_zero
theorem three_ne : (3 : K) ≠ 0 := three_ne_zero

/-! ## C29: explicit schemes -/

/-- **C29**: a steady state is not changed by forward Euler and TVDRK3. -/
theorem C29_steady : Steady (K := K) (V := V) euler1 ∧ Steady (K := K) (V := V) tvdrk3 := by
  constructor
  · intro rhs Q dt h; simp [euler1, h]
  · intro rhs Q dt h
    have h2 : (3 / 4 : K) • Q + (1 / 4 : K) • Q = Q := by
      rw [← add_smul, show (3 / 4 + 1 / 4 : K) = 1 by norm_num, one_smul]
    have h3 : (1 / 3 : K) • Q + (2 / 3 : K) • Q = Q := by
      rw [← add_smul, show (1 / 3 + 2 / 3 : K) = 1 by norm_num, one_smul]
    simp only [tvdrk3, h, smul_zero, add_zero, h2, h3]

/-- **C29**: a constant right-hand side is integrated exactly. -/
theorem C29_consistent : Consistent (K := K) (V := V) euler1 ∧ Consistent (K := K) (V := V) tvdrk3 := by
  constructor
  · intro c Q dt _; rfl
  · intro c Q dt _
    simp only [tvdrk3]
    match_scalars <;> ring

/-- **C29**: on `y' = λ y`, forward Euler multiplies by `1 + z` and TVDRK3 by `1 + z + z²/2 + z³/6`. -/
theorem C29_amplification (lam Q dt : K) :
    euler1 (fun y => lam * y) Q dt = (1 + lam * dt) * Q ∧
    tvdrk3 (fun y => lam * y) Q dt = (1 + lam * dt + (lam * dt) ^ 2 / 2 + (lam * dt) ^ 3 / 6) * Q := by
  constructor
  · simp only [euler1, smul_eq_mul]; ring
  · simp only [tvdrk3, smul_eq_mul]; field_simp; ring

/-- **C29**: hence they are accurate on linear problems to order one and three. -/
theorem C29_accuracy : AccurateOnLinear (K := K) 1 euler1 ∧ AccurateOnLinear (K := K) 3 tvdrk3 := by
  constructor
  · refine ⟨1 + X, 1, by simp, ?_, ?_⟩
    · intro lam Q dt _ _
      rw [(C29_amplification lam Q dt).1]; simp
    · intro m hm
      interval_cases m <;> simp [Finset.sum_range_succ, coeff_one, coeff_X, Nat.factorial]
  · refine ⟨1 + X + C (1 / 2) * X ^ 2 + C (1 / 6) * X ^ 3, 1, by simp, ?_, ?_⟩
    · intro lam Q dt _ _
      rw [(C29_amplification lam Q dt).2]
      simp only [eval_add, eval_one, eval_X, eval_mul, eval_C, eval_pow]; ring
    · intro m hm
      interval_cases m <;>
        simp [Finset.sum_range_succ, coeff_one, coeff_X, coeff_X_pow, Nat.factorial, coeff_C_mul] <;> norm_num

/-- **C29**, the property that names TVDRK3: every convex functional (for instance the total variation or the maximum)
    that a forward Euler step of the same size does not increase is not increased by a TVDRK3 step. -/
theorem C29_tvd [LinearOrder K] [IsStrictOrderedRing K] (G : V → K) (hG : ConvexFunctional G) (rhs : V → V) (dt : K)
    (hE : ∀ v, G (euler1 rhs v dt) ≤ G v) (Q : V) : G (tvdrk3 rhs Q dt) ≤ G Q := by
  set E : V → V := fun v => euler1 rhs v dt with hEdef
  have hQ2 : (3 / 4 : K) • Q + (1 / 4 : K) • E Q + ((1 / 4 : K) * dt) • rhs (E Q) =
      (3 / 4 : K) • Q + (1 / 4 : K) • E (E Q) := by
    simp only [hEdef, euler1]; module
  have hQ3 : tvdrk3 rhs Q dt = (1 / 3 : K) • Q +
      (2 / 3 : K) • E ((3 / 4 : K) • Q + (1 / 4 : K) • E (E Q)) := by
    rw [← hQ2]
    simp only [tvdrk3, hEdef, euler1]; module
  rw [hQ3]
  have h1 := hG (1 / 3) (2 / 3) Q (E ((3 / 4 : K) • Q + (1 / 4 : K) • E (E Q))) (by norm_num) (by norm_num)
    (by norm_num)
  have h2 := hE ((3 / 4 : K) • Q + (1 / 4 : K) • E (E Q))
  have h3 := hG (3 / 4) (1 / 4) Q (E (E Q)) (by norm_num) (by norm_num) (by norm_num)
  have h4 := hE (E Q)
  have h5 := hE Q
  linarith

/-- non-vacuity of `C29_tvd`: the absolute value and damping with a small step -/
example : ConvexFunctional (K := ℚ) (V := ℚ) (fun v => |v|) ∧
    ∀ v : ℚ, |euler1 (fun y => -y) v (1 / 2 : ℚ)| ≤ |v| := by
  constructor
  · intro a b u v ha hb _
    simp only [smul_eq_mul]
    calc |a * u + b * v| ≤ |a * u| + |b * v| := abs_add_le _ _
      _ = _ := by rw [abs_mul, abs_mul, abs_of_nonneg ha, abs_of_nonneg hb]
  · intro v
    simp only [euler1, smul_eq_mul]
    rw [show v + 1 / 2 * -v = 1 / 2 * v by ring, abs_mul]
    have := abs_nonneg v
    rw [abs_of_pos (by norm_num : (0 : ℚ) < 1 / 2)]
    linarith

section RK
open WxVerif.RungeKutta

variable {W : Type*} [AddCommGroup W] [Module ℝ W]

theorem stages_zero (p : Problem W) (t h : ℝ) (y : W) (hf : ∀ t, p.f t y = 0) (n : Nat) :
    ∀ k ∈ stages p t h y 0 n, k = 0 := by
  induction n with
  | zero => intro k hk; simpa [stages] using hk
  | succ n ih =>
    intro k hk
    simp only [stages, List.mem_append, List.mem_singleton] at hk
    rcases hk with hk | hk
    · exact ih k hk
    · have hs : ((stages p t h y 0 n).zipIdx.map fun q => p.A (n + 1) q.2 • q.1).sum = 0 := by
        apply List.sum_eq_zero
        intro x hx
        obtain ⟨q, hq, rfl⟩ := List.mem_map.1 hx
        rw [ih q.1 (List.fst_mem_of_mem_zipIdx hq), smul_zero]
      rw [hk, hs, smul_zero, add_zero, hf]

/-- **C29**, embedded Runge-Kutta methods: every step of every tableau leaves a steady state unchanged. -/
theorem C29_runge_kutta_steady (p : Problem W) (s : Solver W) (h : ℝ) (hk : s.k0 = 0) (hf : ∀ t, p.f t s.y = 0) :
    advance p s h = s.y := by
  unfold advance
  have : combineK p.B (stages p s.t h s.y s.k0 (p.nStages - 1)) = 0 := by
    unfold combineK
    apply List.sum_eq_zero
    intro x hx
    obtain ⟨q, hq, rfl⟩ := List.mem_map.1 hx
    rw [hk] at hq
    rw [stages_zero p s.t h s.y hf _ q.1 (List.fst_mem_of_mem_zipIdx hq), smul_zero]
  rw [this, smul_zero, add_zero]

end RK

/-! ## C30: implicit schemes -/

/-- **C30**: with an exact nonlinear solver, backward Euler returns a solution of `Q' = Q + dt f(Q')` and Crank-Nicolson
    of `Q' = Q + dt/2 (f(Q) + f(Q'))`, whenever one exists. -/
theorem C30_one_step (newton : Newton V) (hn : ExactNewton newton) (rhs : V → V) (Q : V) (dt : K) (hdt : dt ≠ 0) :
    ((∃ x, x = Q + dt • rhs x) →
      backwardEuler newton rhs Q dt = Q + dt • rhs (backwardEuler newton rhs Q dt)) ∧
    ((∃ x, x = Q + (dt / 2) • (rhs Q + rhs x)) →
      crankNicolson newton rhs Q dt = Q + (dt / 2) • (rhs Q + rhs (crankNicolson newton rhs Q dt))) := by
  have e1 : ∀ x, dt⁻¹ • (x - Q) - rhs x = 0 ↔ x = Q + dt • rhs x := by
    intro x
    rw [sub_eq_zero, inv_smul_eq_iff₀ hdt, sub_eq_iff_eq_add, add_comm]
  have e2 : ∀ x, dt⁻¹ • (x - Q) - (1 / 2 : K) • (rhs x + rhs Q) = 0 ↔ x = Q + (dt / 2) • (rhs Q + rhs x) := by
    intro x
    rw [sub_eq_zero, inv_smul_eq_iff₀ hdt, sub_eq_iff_eq_add, add_comm, smul_smul, add_comm (rhs x),
      show dt * (1 / 2) = dt / 2 by ring]
  constructor
  · rintro ⟨x, hx⟩
    exact (e1 _).1 (hn (fun Qp => dt⁻¹ • (Qp - Q) - rhs Qp) Q ⟨x, (e1 x).2 hx⟩)
  · rintro ⟨x, hx⟩
    exact (e2 _).1 (hn (fun Qp => dt⁻¹ • (Qp - Q) - (1 / 2 : K) • (rhs Qp + rhs Q)) Q ⟨x, (e2 x).2 hx⟩)

/-- **C30**: after the first step, BDF2 returns a solution of `Q' = 4/3 Q - 1/3 Q_prev + 2/3 dt f(Q')` and remembers `Q`. -/
theorem C30_bdf2 (newton : Newton V) (hn : ExactNewton newton) (rhs : V → V) (n : Nat) (Qp Q : V) (dt : K)
    (hdt : dt ≠ 0) (hex : ∃ x, x = (4 / 3 : K) • Q - (1 / 3 : K) • Qp + (2 / 3 * dt) • rhs x) :
    (bdf2 newton rhs n (some Qp) Q dt).1 = some Q ∧
    (bdf2 newton rhs n (some Qp) Q dt).2 = (4 / 3 : K) • Q - (1 / 3 : K) • Qp +
      (2 / 3 * dt) • rhs (bdf2 newton rhs n (some Qp) Q dt).2 := by
  have e : ∀ x, dt⁻¹ • (x - (4 / 3 : K) • Q + (1 / 3 : K) • Qp) - (2 / 3 : K) • rhs x = 0 ↔
      x = (4 / 3 : K) • Q - (1 / 3 : K) • Qp + (2 / 3 * dt) • rhs x := by
    intro x
    rw [sub_eq_zero, inv_smul_eq_iff₀ hdt, smul_smul, mul_comm dt]
    constructor
    · intro h; rw [← h]; module
    · intro h
      conv_lhs => rw [h]
      module
  obtain ⟨x, hx⟩ := hex
  exact ⟨rfl, (e _).1 (hn (fun Qn => dt⁻¹ • (Qn - (4 / 3 : K) • Q + (1 / 3 : K) • Qp) - (2 / 3 : K) • rhs Qn) Q
    ⟨x, (e x).2 hx⟩)⟩

/-- the two-step formula is of second order: it is exact for `1, t, t²` sampled at the times `-1, 0, 1` -/
theorem C30_bdf2_order (m : Nat) (hm : m ≤ 2) :
    (1 : K) ^ m = 4 / 3 * 0 ^ m - 1 / 3 * (-1) ^ m + 2 / 3 * ((m : K) * 1 ^ (m - 1)) := by
  interval_cases m <;> norm_num

/-- **C30**: the start-up step of BDF2 with one sub-step solves `Q' = Q + dt/2 f(Q')` instead of backward Euler.
    _Missing for the full property: the factor of the right-hand side (`C30_bdf2_start_fails`)._ -/
theorem C30_bdf2_start_partial (newton : Newton V) (hn : ExactNewton newton) (rhs : V → V) (Q : V) (dt : K)
    (hdt : dt ≠ 0) (hex : ∃ x, x = Q + (dt / 2) • rhs x) :
    (bdf2 newton rhs 1 none Q dt).1 = some Q ∧
    (bdf2 newton rhs 1 none Q dt).2 = Q + (dt / 2) • rhs (bdf2 newton rhs 1 none Q dt).2 := by
  have e : ∀ x, (dt / ((1 : Nat) : K))⁻¹ • (x - Q) - (1 / 2 : K) • rhs x = 0 ↔ x = Q + (dt / 2) • rhs x := by
    intro x
    rw [Nat.cast_one, div_one, sub_eq_zero, inv_smul_eq_iff₀ hdt, sub_eq_iff_eq_add, add_comm, smul_smul,
      show dt * (1 / 2) = dt / 2 by ring]
  obtain ⟨x, hx⟩ := hex
  exact ⟨rfl, (e _).1 (hn (fun Qp => (dt / ((1 : Nat) : K))⁻¹ • (Qp - Q) - (1 / 2 : K) • rhs Qp) Q
    ⟨x, (e x).2 hx⟩)⟩

/-- **C30** fails for the start-up step of BDF2: with an exact solver and any positive number of sub-steps, a constant
    right-hand side `c` advances the state by `dt/2 c` instead of `dt c`. -/
theorem C30_bdf2_start_fails (newton : Newton V) (hn : ExactNewton newton) (n : Nat) (h0 : 0 < n) (c Q : V) (dt : K)
    (hdt : dt ≠ 0) (hc : c ≠ 0) :
    (bdf2 newton (fun _ => c) n none Q dt).2 = Q + (dt / 2) • c ∧
    (bdf2 newton (fun _ => c) n none Q dt).2 ≠ Q + dt • c := by
  have hn0 : ((n : Nat) : K) ≠ 0 := by exact_mod_cast h0.ne'
  have hi : dt / (n : K) ≠ 0 := div_ne_zero hdt hn0
  have loop : ∀ m (q : V), bdf2Start newton (fun _ => c) (dt / (n : K)) m q =
      q + ((m : K) * (dt / (n : K) / 2)) • c := by
    intro m
    induction m with
    | zero => intro q; simp [bdf2Start]
    | succ m ih =>
      intro q
      have e : ∀ x : V, (dt / (n : K))⁻¹ • (x - q) - (1 / 2 : K) • c = 0 ↔ x = q + (dt / (n : K) / 2) • c := by
        intro x
        rw [sub_eq_zero, inv_smul_eq_iff₀ hi, sub_eq_iff_eq_add, add_comm, smul_smul,
          show dt / (n : K) * (1 / 2) = dt / (n : K) / 2 by ring]
      have h1 := (e _).1 (hn (fun Qp => (dt / (n : K))⁻¹ • (Qp - q) - (1 / 2 : K) • c) q
        ⟨_, (e _).2 rfl⟩)
      rw [bdf2Start, ih, h1]
      push_cast
      module
  have h1 : (bdf2 newton (fun _ => c) n none Q dt).2 = Q + (dt / 2) • c := by
    simp only [bdf2, loop]
    congr 2
    field_simp
  refine ⟨h1, ?_⟩
  rw [h1]
  intro h
  have h2 : (dt / 2) • c = dt • c := add_left_cancel h
  have h3 : (dt / 2) • c = 0 := by
    have : dt • c = (dt / 2) • c + (dt / 2) • c := by rw [← add_smul]; congr 1; ring
    rw [this] at h2
    exact (left_eq_add.1 h2)
  rcases smul_eq_zero.1 h3 with h4 | h4
  · exact hdt (by simpa using h4)
  · exact hc h4

/-- **C30**: with a linear right-hand side `f(Q) = J Q + g` and an exact linear solver, one Rosenbrock step solves
    `(I - dt/2 J)(Q' - Q) = dt f(Q)`, which for such a right-hand side is the Crank-Nicolson equation. -/
theorem C30_ros2 (linear : Linear V) (hl : ExactLinear linear) (eps : K) (he : eps ≠ 0) (J : V →ₗ[K] V) (g Q : V)
    (dt : K) (hex : ∃ d, d - (dt / 2) • J d = dt • (J Q + g)) :
    let Q' := ros2 linear eps (fun y => J y + g) Q dt
    Q' = Q + (dt / 2) • ((J Q + g) + (J Q' + g)) := by
  intro Q'
  have hA : ∀ v, matvecRat eps (fun y => J y + g) Q dt v = v - (dt / 2) • J v := by
    intro v
    have h1 : J (Q + eps • v) + g - (J Q + g) = eps • J v := by rw [map_add, map_smul]; abel
    unfold matvecRat
    rw [h1, smul_smul, smul_smul]
    congr 2
    field_simp
  obtain ⟨d, hd⟩ := hex
  have hb : matvecRat eps (fun y => J y + g) Q dt (Q + d) =
      matvecRat eps (fun y => J y + g) Q dt Q + dt • (J Q + g) := by
    rw [hA, hA, ← hd, map_add]; module
  have h2 : matvecRat eps (fun y => J y + g) Q dt Q' = _ := hl _ _ Q ⟨Q + d, hb⟩
  rw [hA, hA] at h2
  have h3 : Q' = (Q' - (dt / 2) • J Q') + (dt / 2) • J Q' := by module
  conv_lhs => rw [h3, h2]
  module

/-- **C30**: the combined exponential-implicit step: with linear parts, exact solvers and exact products by the complex step, one step solves
    `(I - dt/2 J_imp)(Q' - Q) = dt φ_1(dt (J_full - J_imp)) f(Q)`; in particular it keeps steady states when the solution
    of the linear system is unique. -/
theorem C30_rosexp2 (linear : Linear V) (hl : ExactLinear linear) (phi : Phi V) (eps : K) (he : eps ≠ 0)
    (Jf Ji : V →ₗ[K] V) (gf gi Q : V) (dt : K) {jFull jImp : V → V → V} (hf : ∀ v, jFull Q v = Jf v)
    (hi : ∀ v, jImp Q v = Ji v)
    (hex : ∃ d, d - (dt / 2) • Ji d = dt • phi (fun v => dt • (Jf v - Ji v)) 0 (Jf Q + gf)) :
    let Q' := rosexp2 linear phi eps (fun y => Jf y + gf) (fun y => Ji y + gi) jFull jImp Q dt
    (Q' - Q) - (dt / 2) • Ji (Q' - Q) = dt • phi (fun v => dt • (Jf v - Ji v)) 0 (Jf Q + gf) := by
  intro Q'
  have hA : ∀ v, matvecRat eps (fun y => Ji y + gi) Q dt v = v - (dt / 2) • Ji v := by
    intro v
    have h1 : Ji (Q + eps • v) + gi - (Ji Q + gi) = eps • Ji v := by rw [map_add, map_smul]; abel
    unfold matvecRat
    rw [h1, smul_smul, smul_smul]
    congr 2
    field_simp
  have hJ : (fun v => matvecStep jFull Q dt v - matvecStep jImp Q dt v) = fun v => dt • (Jf v - Ji v) := by
    funext v; rw [matvecStep, matvecStep, hf, hi, smul_sub]
  obtain ⟨d, hd⟩ := hex
  have hQ' : Q' = linear (matvecRat eps (fun y => Ji y + gi) Q dt)
      (matvecRat eps (fun y => Ji y + gi) Q dt Q + dt • phi (fun v => dt • (Jf v - Ji v)) 0 (Jf Q + gf)) Q := by
    change rosexp2 _ _ _ _ _ _ _ _ _ = _
    unfold rosexp2
    simp only [hJ]
  have h2 := hl (matvecRat eps (fun y => Ji y + gi) Q dt)
    (matvecRat eps (fun y => Ji y + gi) Q dt Q + dt • phi (fun v => dt • (Jf v - Ji v)) 0 (Jf Q + gf)) Q
    ⟨Q + d, by rw [hA, hA, ← hd, map_add]; module⟩
  rw [← hQ', hA, hA] at h2
  rw [map_sub]
  have : Q' - Q - (dt / 2) • (Ji Q' - Ji Q) = (Q' - (dt / 2) • Ji Q') - (Q - (dt / 2) • Ji Q) := by module
  rw [this, h2]
  abel

/-- **C30**: the partitioned variant: `(I - dt/2 J_imp)(Q' - Q) = dt (φ_0(dt J_exp) f_imp/2 + φ_1(dt J_exp) f_exp + f_imp/2)`. -/
theorem C30_partrosexp2 (linear : Linear V) (hl : ExactLinear linear) (phi : Phi V)
    (Jf Ji : V →ₗ[K] V) (gf gi Q : V) (dt : K) {jFull jImp : V → V → V} (hf : ∀ v, jFull Q v = Jf v)
    (hi : ∀ v, jImp Q v = Ji v)
    (hex : ∃ d, d - (dt / 2) • Ji d = dt • (phi (fun v => dt • (Jf v - Ji v)) ((1 / 2 : K) • (Ji Q + gi))
      (Jf Q + gf - (Ji Q + gi)) + (1 / 2 : K) • (Ji Q + gi))) :
    let Q' := partrosexp2 linear phi (fun y => Jf y + gf) (fun y => Ji y + gi) jFull jImp Q dt
    (Q' - Q) - (dt / 2) • Ji (Q' - Q) = dt • (phi (fun v => dt • (Jf v - Ji v)) ((1 / 2 : K) • (Ji Q + gi))
      (Jf Q + gf - (Ji Q + gi)) + (1 / 2 : K) • (Ji Q + gi)) := by
  intro Q'
  have hJ : (fun v => matvecStep jFull Q dt v - matvecStep jImp Q dt v) = fun v => dt • (Jf v - Ji v) := by
    funext v; rw [matvecStep, matvecStep, hf, hi, smul_sub]
  set A : V → V := fun v => v - (1 / 2 : K) • matvecStep jImp Q dt v with hAdef
  have hA : ∀ v, A v = v - (dt / 2) • Ji v := by
    intro v
    rw [hAdef]
    simp only [matvecStep, hi, smul_smul]
    congr 2
    ring
  obtain ⟨d, hd⟩ := hex
  set b := dt • (phi (fun v => dt • (Jf v - Ji v)) ((1 / 2 : K) • (Ji Q + gi))
      (Jf Q + gf - (Ji Q + gi)) + (1 / 2 : K) • (Ji Q + gi)) with hb
  have hQ' : Q' = linear A (A Q + b) Q := by
    change partrosexp2 _ _ _ _ _ _ _ _ = _
    unfold partrosexp2
    simp only [hJ]
    rfl
  have h2 := hl A (A Q + b) Q ⟨Q + d, by rw [hA, hA, ← hd, map_add]; module⟩
  rw [← hQ', hA, hA] at h2
  rw [map_sub]
  have : Q' - Q - (dt / 2) • (Ji Q' - Ji Q) = (Q' - (dt / 2) • Ji Q') - (Q - (dt / 2) • Ji Q) := by module
  rw [this, h2]
  abel

/-- the solution of a scalar linear equation given by an exact solver -/
theorem scalar_newton (newton : Newton K) (hn : ExactNewton newton) (F : K → K) (x0 a b c : K) (hc : c ≠ 0)
    (hF : ∀ x, F x = c * (a * x - b)) (ha : a ≠ 0) : a * newton F x0 = b := by
  have h := hn F x0 ⟨b / a, by rw [hF]; field_simp; ring⟩
  rw [hF] at h
  rcases mul_eq_zero.1 h with h | h
  · exact absurd h hc
  · exact sub_eq_zero.1 h

/-- **C30**: accuracy on linear problems with exact solvers: backward Euler is of order one; Crank-Nicolson, the Rosenbrock
    scheme and the diagonally implicit scheme (with `γ² - 2γ + 1/2 = 0`) are of order two. -/
theorem C30_accuracy (newton : Newton K) (hn : ExactNewton newton) (linear : Linear K) (hl : ExactLinear linear)
    (eps : K) (he : eps ≠ 0) (g : K) (hg : g ^ 2 - 2 * g + 1 / 2 = 0) :
    AccurateOnLinear 1 (backwardEuler newton) ∧ AccurateOnLinear 2 (crankNicolson newton) ∧
    AccurateOnLinear 2 (ros2 linear eps) ∧ AccurateOnLinear 2 (sdirk newton g) := by
  refine ⟨⟨1, 1 - X, by simp, ?_, ?_⟩, ⟨1 + C (1 / 2) * X, 1 - C (1 / 2) * X, by simp, ?_, ?_⟩,
    ⟨1 + C (1 / 2) * X, 1 - C (1 / 2) * X, by simp, ?_, ?_⟩,
    ⟨1 + C (1 - 2 * g) * X, (1 - C g * X) ^ 2, by simp [sq, mul_coeff_zero], ?_, ?_⟩⟩
  · intro lam Q dt hdt hD
    simp only [eval_sub, eval_one, eval_X] at hD ⊢
    rw [one_mul]
    exact scalar_newton newton hn _ Q (1 - lam * dt) Q dt⁻¹ (inv_ne_zero hdt)
      (by intro x; simp only [smul_eq_mul]; field_simp; ring) hD
  · intro m hm
    interval_cases m <;> simp [Finset.sum_range_succ, coeff_one, coeff_X, Nat.factorial]
  · intro lam Q dt hdt hD
    simp only [eval_sub, eval_add, eval_one, eval_mul, eval_C, eval_X] at hD ⊢
    exact scalar_newton newton hn _ Q (1 - 1 / 2 * (lam * dt)) ((1 + 1 / 2 * (lam * dt)) * Q) dt⁻¹ (inv_ne_zero hdt)
      (by intro x; simp only [smul_eq_mul]; field_simp; ring) hD
  · intro m hm
    interval_cases m <;> simp [Finset.sum_range_succ, coeff_one, coeff_X, Nat.factorial, coeff_C_mul] <;> norm_num
  · intro lam Q dt hdt hD
    simp only [eval_sub, eval_add, eval_one, eval_mul, eval_C, eval_X] at hD ⊢
    have hA : ∀ v, matvecRat eps (fun y => lam * y) Q dt v = (1 - 1 / 2 * (lam * dt)) * v := by
      intro v; simp only [matvecRat, smul_eq_mul]; field_simp; ring
    have h := hl (matvecRat eps (fun y => lam * y) Q dt)
      (matvecRat eps (fun y => lam * y) Q dt Q + dt • (lam * Q)) Q
      ⟨(1 + 1 / 2 * (lam * dt)) * Q / (1 - 1 / 2 * (lam * dt)), by
        rw [hA, hA, smul_eq_mul, mul_div_cancel₀ _ hD]; ring⟩
    rw [hA, hA] at h
    rw [show ros2 linear eps (fun y => lam * y) Q dt = linear (matvecRat eps (fun y => lam * y) Q dt)
      (matvecRat eps (fun y => lam * y) Q dt Q + dt • (lam * Q)) Q from rfl, hA Q, h, smul_eq_mul]
    ring
  · intro m hm
    interval_cases m <;> simp [Finset.sum_range_succ, coeff_one, coeff_X, Nat.factorial, coeff_C_mul] <;> norm_num
  · intro lam Q dt hdt hD
    simp only [eval_sub, eval_add, eval_one, eval_mul, eval_C, eval_X, eval_pow] at hD ⊢
    have hD1 : 1 - g * (lam * dt) ≠ 0 := fun h => hD (by rw [h]; ring)
    have h1 := scalar_newton newton hn (fun Q1 => dt⁻¹ • (Q1 - Q) - g • (lam * Q1)) Q (1 - g * (lam * dt)) Q dt⁻¹
      (inv_ne_zero hdt) (by intro x; simp only [smul_eq_mul]; field_simp; ring) hD1
    unfold sdirk
    simp only
    generalize newton (fun Q1 => dt⁻¹ • (Q1 - Q) - g • (lam * Q1)) Q = x1 at h1 ⊢
    have h2 := scalar_newton newton hn (fun Q2 => dt⁻¹ • (Q2 - Q) - (1 - 2 * g) • (lam * x1) - g • (lam * Q2)) Q
      (1 - g * (lam * dt)) (Q + dt * ((1 - 2 * g) * (lam * x1))) dt⁻¹
      (inv_ne_zero hdt) (by intro x; simp only [smul_eq_mul]; field_simp; ring) hD1
    generalize newton (fun Q2 => dt⁻¹ • (Q2 - Q) - (1 - 2 * g) • (lam * x1) - g • (lam * Q2)) Q = x2 at h2 ⊢
    simp only [smul_eq_mul]
    linear_combination (1 / 2 * (lam * dt) * ((1 - g * (lam * dt)) + (1 - 2 * g) * (lam * dt))) * h1 +
      (1 / 2 * (lam * dt) * (1 - g * (lam * dt))) * h2 + ((lam * dt) ^ 2 * Q) * hg
  · intro m hm
    obtain ⟨g2, hg2⟩ : ∃ g2, g2 = g ^ 2 := ⟨_, rfl⟩
    have e : ((1 - C g * X) ^ 2 : K[X]) = 1 - C (2 * g) * X + C g2 * X ^ 2 := by
      rw [hg2, C_mul, C_pow]
      have : (C 2 : K[X]) = 2 := rfl
      rw [this]; ring
    rw [e]
    interval_cases m
    · simp [Finset.sum_range_succ, coeff_one, coeff_X, coeff_X_pow, Nat.factorial, coeff_C_mul]
    · simp [Finset.sum_range_succ, coeff_one, coeff_X, coeff_X_pow, Nat.factorial, coeff_C_mul]
      ring
    · simp [Finset.sum_range_succ, coeff_one, coeff_X, coeff_X_pow, Nat.factorial, coeff_C_mul]
      rw [hg2]
      linear_combination hg

/-- **C30**: the stages of the diagonally implicit scheme: `Y₁ = Q + dt γ f(Y₁)`,
    `Y₂ = Q + dt ((1 - 2γ) f(Y₁) + γ f(Y₂))` and `Q' = Q + dt/2 (f(Y₁) + f(Y₂))`. -/
theorem C30_sdirk_equation (newton : Newton V) (hn : ExactNewton newton) (g : K) (rhs : V → V) (Q : V) (dt : K)
    (hdt : dt ≠ 0) (h1 : ∃ y, y = Q + (dt * g) • rhs y)
    (h2 : ∀ y, ∃ x, x = Q + (dt * (1 - 2 * g)) • rhs y + (dt * g) • rhs x) :
    ∃ Y1 Y2, Y1 = Q + (dt * g) • rhs Y1 ∧ Y2 = Q + (dt * (1 - 2 * g)) • rhs Y1 + (dt * g) • rhs Y2 ∧
      sdirk newton g rhs Q dt = Q + (dt / 2) • (rhs Y1 + rhs Y2) := by
  have e1 : ∀ x, dt⁻¹ • (x - Q) - g • rhs x = 0 ↔ x = Q + (dt * g) • rhs x := by
    intro x
    rw [sub_eq_zero, inv_smul_eq_iff₀ hdt, sub_eq_iff_eq_add, add_comm, smul_smul]
  have e2 : ∀ y x, dt⁻¹ • (x - Q) - (1 - 2 * g) • rhs y - g • rhs x = 0 ↔
      x = Q + (dt * (1 - 2 * g)) • rhs y + (dt * g) • rhs x := by
    intro y x
    rw [sub_sub, sub_eq_zero, inv_smul_eq_iff₀ hdt, sub_eq_iff_eq_add, add_comm, smul_add, smul_smul, smul_smul,
      add_assoc]
  obtain ⟨y, hy⟩ := h1
  refine ⟨newton (fun Q1 => dt⁻¹ • (Q1 - Q) - g • rhs Q1) Q, newton (fun Q2 => dt⁻¹ • (Q2 - Q) -
    (1 - 2 * g) • rhs (newton (fun Q1 => dt⁻¹ • (Q1 - Q) - g • rhs Q1) Q) - g • rhs Q2) Q, ?_, ?_, ?_⟩
  · exact (e1 _).1 (hn (fun Q1 => dt⁻¹ • (Q1 - Q) - g • rhs Q1) Q ⟨y, (e1 y).2 hy⟩)
  · obtain ⟨x, hx⟩ := h2 (newton (fun Q1 => dt⁻¹ • (Q1 - Q) - g • rhs Q1) Q)
    exact (e2 _ _).1 (hn (fun Q2 => dt⁻¹ • (Q2 - Q) -
      (1 - 2 * g) • rhs (newton (fun Q1 => dt⁻¹ • (Q1 - Q) - g • rhs Q1) Q) - g • rhs Q2) Q ⟨x, (e2 _ x).2 hx⟩)
  · simp only [sdirk]
    rw [← smul_add, smul_smul]
    congr 2
    ring

/-- **C30**: the chosen parameter of the diagonally implicit scheme: `γ = 1 + 1/√2` satisfies the condition. -/
theorem C30_sdirk_parameter (r : K) (hr : r ^ 2 = 2) : (1 + 1 / r) ^ 2 - 2 * (1 + 1 / r) + 1 / 2 = 0 := by
  have h0 : r ≠ 0 := by rintro rfl; norm_num at hr
  field_simp
  linear_combination -hr

/-- **C30**: the implicit-explicit scheme on `y' = λ y` with any split of `λ`: the fraction `a` is explicit and the rest
    is implicit.  It is of second order for every split. -/
theorem C30_imex2 (newton : Newton K) (hn : ExactNewton newton) (a : K) :
    AccurateOnLinear 2 (fun rhs Q dt => imex2 newton (fun y => a * rhs y) (fun y => (1 - a) * rhs y) Q dt) := by
  refine ⟨1 + C ((1 + a) / 2) * X + C (a / 2) * X ^ 2, 1 - C ((1 - a) / 2) * X, by simp, ?_, ?_⟩
  · intro lam Q dt hdt hD
    simp only [eval_sub, eval_add, eval_one, eval_mul, eval_C, eval_X, eval_pow] at hD ⊢
    have h := scalar_newton newton hn (fun v => v - (dt / 2) • ((1 - a) * (lam * v)) - (Q + (dt / 2) • (a * (lam * Q)))) Q
      (1 - (1 - a) / 2 * (lam * dt)) (Q + (dt / 2) * (a * (lam * Q))) 1 one_ne_zero
      (by intro x; simp only [smul_eq_mul]; ring) hD
    unfold imex2
    simp only
    generalize newton (fun v => v - (dt / 2) • ((1 - a) * (lam * v)) - (Q + (dt / 2) • (a * (lam * Q)))) Q = y at h ⊢
    simp only [smul_eq_mul]
    linear_combination (lam * dt) * h
  · intro m hm
    interval_cases m
    · simp [Finset.sum_range_succ, coeff_one, coeff_X, coeff_X_pow, Nat.factorial, coeff_C_mul]
    · simp [Finset.sum_range_succ, coeff_one, coeff_X, coeff_X_pow, Nat.factorial, coeff_C_mul]; ring
    · simp [Finset.sum_range_succ, coeff_one, coeff_X, coeff_X_pow, Nat.factorial, coeff_C_mul]; ring

/-- **C30**: the implicit stage of the implicit-explicit scheme and the update. -/
theorem C30_imex2_equation (newton : Newton V) (hn : ExactNewton newton) (fe fi : V → V) (Q : V) (dt : K)
    (hex : ∃ y, y = Q + (dt / 2) • (fe Q + fi y)) :
    ∃ Y, Y = Q + (dt / 2) • (fe Q + fi Y) ∧ imex2 newton fe fi Q dt = Q + dt • (fe Y + fi Y) := by
  have e : ∀ v, v - (dt / 2) • fi v - (Q + (dt / 2) • fe Q) = 0 ↔ v = Q + (dt / 2) • (fe Q + fi v) := by
    intro v
    constructor
    · intro h
      have h2 : v = (v - (dt / 2) • fi v - (Q + (dt / 2) • fe Q)) + (Q + (dt / 2) • (fe Q + fi v)) := by module
      rw [h, zero_add] at h2
      exact h2
    · intro h
      have h2 : v - (Q + (dt / 2) • (fe Q + fi v)) = 0 := sub_eq_zero.2 h
      rw [← h2]; module
  obtain ⟨y, hy⟩ := hex
  refine ⟨newton (fun v => v - (dt / 2) • fi v - (Q + (dt / 2) • fe Q)) Q, ?_, ?_⟩
  · exact (e _).1 (hn (fun v => v - (dt / 2) • fi v - (Q + (dt / 2) • fe Q)) Q ⟨y, (e y).2 hy⟩)
  · simp only [imex2]
    rw [add_comm (fi _)]

/-- non-vacuity: an exact solver exists (by choice) for every vector space, and `γ = 1 + 1/√2` is a parameter -/
example : ∃ newton : Newton V, ExactNewton newton := by
  classical
  refine ⟨fun F x0 => if h : ∃ x, F x = 0 then h.choose else x0, ?_⟩
  intro F x0 h
  simp only [dif_pos h]
  exact h.choose_spec

example : ∃ linear : Linear V, ExactLinear linear := by
  classical
  refine ⟨fun A b x0 => if h : ∃ x, A x = b then h.choose else x0, ?_⟩
  intro F b x0 h
  simp only [dif_pos h]
  exact h.choose_spec

/-- non-vacuity of the equations: on `y' = -y` with step 1 the implicit equations are solvable -/
example : (∃ x : ℚ, x = 3 + (1 : ℚ) • (fun y : ℚ => -y) x) ∧
    ∃ x : ℚ, x = (4 / 3 : ℚ) • 3 - (1 / 3 : ℚ) • 6 + (2 / 3 * 1 : ℚ) • (fun y : ℚ => -y) x :=
  ⟨⟨3 / 2, by norm_num⟩, ⟨6 / 5, by norm_num⟩⟩

/-! ## C55: operator splitting -/

/-- **C55**: the order of the two parts: Lie runs the first scheme, then the second; Strang runs half a step of the first,
    a step of the second and half a step of the first. Constant tendencies `c₁`, `c₂` add up exactly. -/
theorem C55_consistent (c1 c2 Q : V) (dt : K) :
    lie (fun y (h : K) => y + h • c1) (fun y h => y + h • c2) Q dt = Q + dt • (c1 + c2) ∧
    strang (fun y (h : K) => y + h • c1) (fun y h => y + h • c2) Q dt = Q + dt • (c1 + c2) := by
  simp only [lie, strang]
  constructor <;> module

/-- **C55**: if the two schemes are flows (`s 0 = id`, `s (a + b) = s b ∘ s a`) that commute, both splittings are the
    exact combined flow: they satisfy the flow law themselves, so any number of steps equals one long step. -/
theorem C55_commuting (s1 s2 : V → K → V) (h1 : ∀ y a b, s1 (s1 y a) b = s1 y (a + b))
    (h2 : ∀ y a b, s2 (s2 y a) b = s2 y (a + b)) (hc : ∀ y a b, s1 (s2 y b) a = s2 (s1 y a) b) (Q : V) (a b : K) :
    strang s1 s2 Q a = lie s1 s2 Q a ∧
    lie s1 s2 (lie s1 s2 Q a) b = lie s1 s2 Q (a + b) ∧
    strang s1 s2 (strang s1 s2 Q a) b = strang s1 s2 Q (a + b) := by
  have e : ∀ Q a, strang s1 s2 Q a = lie s1 s2 Q a := by
    intro Q a
    simp only [strang, lie]
    rw [hc, h1, add_halves]
  have l : lie s1 s2 (lie s1 s2 Q a) b = lie s1 s2 Q (a + b) := by
    simp only [lie]
    rw [hc, h1, h2]
  exact ⟨e Q a, l, by rw [e, e, e, l]⟩

/-- **C55**: Strang splitting is symmetric: if each part is undone by a step of the opposite sign, so is the whole step.
    (A Lie step is undone by the reverse order.) -/
theorem C55_reversible (s1 s2 : V → K → V) (h1 : ∀ y a, s1 (s1 y a) (-a) = y) (h2 : ∀ y a, s2 (s2 y a) (-a) = y)
    (Q : V) (dt : K) :
    strang s1 s2 (strang s1 s2 Q dt) (-dt) = Q ∧ lie s2 s1 (lie s1 s2 Q dt) (-dt) = Q := by
  constructor
  · simp only [strang]
    rw [neg_div, h1, h2, h1]
  · simp only [lie]
    rw [h2, h1]

/-- non-vacuity: two scalar linear flows -/
example : (∀ y a b : ℚ, (fun (y h : ℚ) => y + h * 2) ((fun (y h : ℚ) => y + h * 2) y a) b = y + (a + b) * 2) ∧
    ∀ y a b : ℚ, (y + b * 3) + a * 2 = (y + a * 2) + b * 3 := by
  constructor <;> intros <;> ring

/-- **C55**, accuracy: when each part is accurate to second order, a Strang step agrees with the second-order expansion of
    the joint flow up to `dt³`, for operators that need not commute; a Lie step differs at second order by the commutator. -/
theorem C55_order {R : Type*} [Ring R] [Algebra K R] (A B Q : R) :
    (∃ r : Fin 4 → R, ∀ dt : K, strang (taylor2 A) (taylor2 B) Q dt =
      taylor2 (A + B) Q dt + dt ^ 3 • (r 0 + dt • r 1 + dt ^ 2 • r 2 + dt ^ 3 • r 3)) ∧
    (∃ r : Fin 2 → R, ∀ dt : K, lie (taylor2 A) (taylor2 B) Q dt =
      taylor2 (A + B) Q dt + (dt ^ 2 / 2) • ((B * A - A * B) * Q) + dt ^ 3 • (r 0 + dt • r 1)) := by
  constructor
  · refine ⟨![
      (1 / 4 : K) • (A * B * B * Q) + (1 / 8 : K) • (A * A * B * Q) + (1 / 4 : K) • (B * B * A * Q) +
        (1 / 8 : K) • (B * A * A * Q) + (1 / 4 : K) • (A * B * A * Q) + (1 / 8 : K) • (A * A * A * Q),
      (1 / 16 : K) • (A * A * B * B * Q) + (1 / 16 : K) • (B * B * A * A * Q) + (1 / 16 : K) • (A * B * A * A * Q) +
        (1 / 16 : K) • (A * A * B * A * Q) + (1 / 8 : K) • (A * B * B * A * Q) + (1 / 64 : K) • (A * A * A * A * Q),
      (1 / 32 : K) • (A * B * B * A * A * Q) + (1 / 64 : K) • (A * A * B * A * A * Q) +
        (1 / 32 : K) • (A * A * B * B * A * Q),
      (1 / 128 : K) • (A * A * B * B * A * A * Q)], ?_⟩
    intro dt
    simp only [strang, taylor2, mul_add, add_mul, mul_smul_comm, smul_mul_assoc, ← mul_assoc, Matrix.cons_val_zero,
      Matrix.cons_val_one, Matrix.cons_val, smul_add, smul_smul]
    module
  · refine ⟨![(1 / 2 : K) • (B * A * A * Q) + (1 / 2 : K) • (B * B * A * Q), (1 / 4 : K) • (B * B * A * A * Q)], ?_⟩
    intro dt
    simp only [lie, taylor2, mul_add, add_mul, sub_mul, mul_smul_comm, smul_mul_assoc, ← mul_assoc,
      Matrix.cons_val_zero, Matrix.cons_val_one, smul_add, smul_smul]
    module

end WxVerif.Props.Schemes
