import Verif.Lemmas.BSeries
import Verif.Spec.Convergence
import Mathlib.Analysis.Calculus.Deriv.Shift
import Mathlib.Analysis.SpecialFunctions.Exp
import Mathlib.Topology.MetricSpace.Contracting
import Mathlib.Tactic.LinearCombination

/-!
# One step of a Runge-Kutta scheme against the exact solution
-/

namespace WxVerif.BSeries

open Set Filter Topology Asymptotics UniformTaylor RootedTree

universe u

variable {V : Type u} [NormedAddCommGroup V] [NormedSpace ℝ V]

theorem ev_iff {W : Type*} (S : Set W) (h : W → ℝ) (p : W → Prop) :
    (∀ᶠ w in 𝓟 S ⊓ comap h (𝓝[>] 0), p w) ↔ ∃ h0 > 0, ∀ w ∈ S, 0 < h w → h w < h0 → p w := by
  have hb : (𝓝[>] (0 : ℝ)).HasBasis (fun b : ℝ => 0 < b) (fun b => Ioo 0 b) := nhdsGT_basis 0
  rw [((hasBasis_principal S).inf (hb.comap h)).eventually_iff]
  constructor
  · rintro ⟨⟨_, b⟩, ⟨_, b0⟩, H⟩
    exact ⟨b, b0, fun w hw h0 h1 => H ⟨hw, h0, h1⟩⟩
  · rintro ⟨b, b0, H⟩
    exact ⟨⟨(), b⟩, ⟨trivial, b0⟩, fun w hw => H w hw.1 hw.2.1 hw.2.2⟩

theorem bigO_iff {W : Type*} {E : Type*} [NormedAddCommGroup E] (S : Set W) (h : W → ℝ) (g : W → E) (e : W → ℝ) :
    g =O[𝓟 S ⊓ comap h (𝓝[>] 0)] e ↔ ∃ C ≥ 0, ∃ h0 > 0, ∀ w ∈ S, 0 < h w → h w < h0 → ‖g w‖ ≤ C * ‖e w‖ := by
  constructor
  · intro H
    obtain ⟨C, C0, hC⟩ := H.exists_nonneg
    obtain ⟨h0, p0, hh⟩ := (ev_iff S h _).1 hC.bound
    exact ⟨C, C0, h0, p0, hh⟩
  · rintro ⟨C, _, h0, p0, hh⟩
    exact IsBigO.of_bound C ((ev_iff S h _).2 ⟨h0, p0, hh⟩)

/-- the exact solution as a kind: the slopes and increments at the fractions `θ` of the step -/
noncomputable def exactKind (f : V → V) (y : ℝ → V) (T M : ℝ) (hy : ∀ t ∈ Icc 0 T, HasDerivWithinAt y (f (y t)) (Icc 0 T) t)
    (hM : ∀ t ∈ Icc 0 T, ‖f (y t)‖ ≤ M) : Kind f y T where
  W := ULift.{u} (ℝ × ℝ × ℝ)
  S := {w | 0 ≤ w.down.1 ∧ 0 < w.down.2.1 ∧ w.down.1 + w.down.2.1 ≤ T ∧ w.down.2.2 ∈ Icc (0 : ℝ) 1}
  t := fun w => w.down.1
  h := fun w => w.down.2.1
  ε := fun _ => 0
  K := fun w => f (y (w.down.1 + w.down.2.2 * w.down.2.1))
  Z := fun w => y (w.down.1 + w.down.2.2 * w.down.2.1) - y w.down.1
  Φ := fun τ w => w.down.2.2 ^ (τ.size - 1) / (τ.branchDensity : ℝ)
  Ψ := fun τ w => w.down.2.2 ^ τ.size / (τ.density : ℝ)
  tmem := by rintro w ⟨h1, h2, h3, _⟩; exact ⟨h1, by linarith⟩
  ε0 := by intro _ _; exact le_rfl
  ε1 := by intro _ _; exact zero_le_one
  leaf := by intro w _; simp [Tree.size, Tree.branchDensity]
  graft := by
    intro w _ a b
    have e : (a.graft b).size - 1 = (a.size - 1) + b.size := by
      have := size_pos a; simp only [Tree.size]; omega
    rw [e, pow_add, Tree.branchDensity, Tree.density]
    push_cast
    rw [div_mul_div_comm]
  boundΨ := by
    intro τ
    refine ⟨1, fun w hw => ?_⟩
    obtain ⟨h1, h2, h3, h4⟩ := hw
    have d0 : 1 ≤ (τ.density : ℝ) := by
      have : 0 < τ.density := Nat.mul_pos (size_pos τ) (branch_pos τ)
      exact_mod_cast this
    rw [abs_of_nonneg (div_nonneg (pow_nonneg h4.1 _) (by linarith)), div_le_one (by linarith)]
    exact (pow_le_one₀ h4.1 h4.2).trans d0
  boundK := by
    rw [bigO_iff]
    refine ⟨|M|, abs_nonneg M, 1, one_pos, ?_⟩
    rintro w ⟨h1, h2, h3, h4⟩ _ _
    rw [norm_one, mul_one]
    refine (hM _ ⟨?_, ?_⟩).trans (le_abs_self M)
    · nlinarith [h4.1]
    · nlinarith [h4.2]
  close := by
    have : (fun w : ULift.{u} (ℝ × ℝ × ℝ) => f (y (w.down.1 + w.down.2.2 * w.down.2.1)) - f (y w.down.1 +
        (y (w.down.1 + w.down.2.2 * w.down.2.1) - y w.down.1))) = fun _ => 0 := by
      funext w; simp
    rw [this]
    exact isBigO_zero _ _
  rule := by
    intro κ _ τ F q H
    rw [bigO_iff] at H ⊢
    obtain ⟨C, C0, h0, p0, hC⟩ := H
    refine ⟨C, C0, h0, p0, ?_⟩
    rintro ⟨t, h, θ⟩ ⟨h1, h2, h3, h4⟩ _ hh
    dsimp only at h1 h2 h3 h4 hh ⊢
    set g : ℝ → V := fun θ => y (t + θ * h) - y t - ∑ a, (h ^ (τ a).size * (θ ^ (τ a).size / ((τ a).density : ℝ))) • F a t with hg
    have hd : ∀ s ∈ Icc (0 : ℝ) 1, HasDerivWithinAt g (h • (f (y (t + s * h)) -
        ∑ a, (h ^ ((τ a).size - 1) * (s ^ ((τ a).size - 1) / ((τ a).branchDensity : ℝ))) • F a t)) (Icc 0 1) s := by
      intro s hs
      have m : t + s * h ∈ Icc 0 T := ⟨by nlinarith [hs.1], by nlinarith [hs.2]⟩
      have a1 : HasDerivWithinAt (fun s : ℝ => y (t + s * h)) (h • f (y (t + s * h))) (Icc 0 1) s := by
        refine (hy _ m).scomp s (t' := Icc 0 T) (h := fun s => t + s * h) ?_ ?_
        · have := ((hasDerivAt_id s).mul_const h).const_add t
          simpa using this.hasDerivWithinAt
        · intro s' hs'
          exact ⟨by nlinarith [hs'.1], by nlinarith [hs'.2]⟩
      have a2 : HasDerivWithinAt (fun s : ℝ => ∑ a, (h ^ (τ a).size * (s ^ (τ a).size / ((τ a).density : ℝ))) • F a t)
          (∑ a, (h ^ (τ a).size * ((((τ a).size : ℝ) * s ^ ((τ a).size - 1)) / ((τ a).density : ℝ))) • F a t) (Icc 0 1) s := by
        refine HasDerivAt.hasDerivWithinAt (HasDerivAt.fun_sum fun a _ => ?_)
        exact (((hasDerivAt_pow _ s).div_const _).const_mul _).smul_const _
      refine ((a1.sub_const (y t)).sub a2).congr_deriv ?_
      rw [smul_sub, Finset.smul_sum]
      congr 1
      refine Finset.sum_congr rfl fun a _ => ?_
      rw [smul_smul]
      congr 1
      have n1 : ((τ a).size : ℝ) ≠ 0 := by exact_mod_cast (size_pos _).ne'
      have n2 : ((τ a).branchDensity : ℝ) ≠ 0 := by exact_mod_cast (branch_pos _).ne'
      have e : h ^ (τ a).size = h * h ^ ((τ a).size - 1) := by
        rw [← pow_succ', Nat.sub_add_cancel (size_pos _)]
      rw [e, Tree.density]
      push_cast
      field_simp
    have hb : ∀ s ∈ Ico (0 : ℝ) 1, ‖h • (f (y (t + s * h)) -
        ∑ a, (h ^ ((τ a).size - 1) * (s ^ ((τ a).size - 1) / ((τ a).branchDensity : ℝ))) • F a t)‖ ≤ h * (C * h ^ q) := by
      intro s hs
      have := hC ⟨t, h, s⟩ ⟨h1, h2, h3, hs.1, hs.2.le⟩ h2 hh
      dsimp only at this
      rw [norm_smul, Real.norm_of_nonneg h2.le]
      refine mul_le_mul_of_nonneg_left ?_ h2.le
      rwa [add_zero, Real.norm_of_nonneg (by positivity)] at this
    have := norm_image_sub_le_of_norm_deriv_le_segment' hd hb θ h4
    have g0 : g 0 = 0 := by
      rw [hg]
      have : ∀ a, (0 : ℝ) ^ (τ a).size = 0 := fun a => zero_pow (size_pos _).ne'
      simp [this]
    rw [g0, sub_zero, sub_zero] at this
    rw [add_zero, Real.norm_of_nonneg (by positivity)]
    refine this.trans ?_
    have : 0 ≤ h * (C * h ^ q) := by positivity
    nlinarith [h4.2, this]

/-- elementary weights of a method with real coefficients -/
noncomputable def weightR (A : Nat → Nat → ℝ) (s : Nat) : Tree → Nat → ℝ
  | .leaf, _ => 1
  | .graft t u, i => weightR A s t i * ∑ j ∈ Finset.range s, A i j * weightR A s u j

theorem weightR_bound (s : Nat) (R : ℝ) (τ : Tree) : ∃ C : ℝ, 0 ≤ C ∧ ∀ A : Nat → Nat → ℝ, (∀ i < s, ∀ j < s, |A i j| ≤ R) → ∀ i < s,
    |weightR A s τ i| ≤ C := by
  induction τ with
  | leaf => exact ⟨1, zero_le_one, fun A _ i _ => by simp [weightR]⟩
  | graft a b iha ihb =>
    obtain ⟨Ca, Ca0, ha⟩ := iha
    obtain ⟨Cb, Cb0, hb⟩ := ihb
    refine ⟨Ca * (s * (|R| * Cb)), by positivity, fun A hA i hi => ?_⟩
    rw [weightR, abs_mul]
    refine mul_le_mul (ha A hA i hi) ?_ (abs_nonneg _) Ca0
    refine (Finset.abs_sum_le_sum_abs _ _).trans ?_
    have : ∀ j ∈ Finset.range s, |A i j * weightR A s b j| ≤ |R| * Cb := by
      intro j hj
      have hj := Finset.mem_range.1 hj
      rw [abs_mul]
      exact mul_le_mul ((hA i hi j hj).trans (le_abs_self R)) (hb A hA j hj) (abs_nonneg _) (abs_nonneg _)
    refine (Finset.sum_le_sum this).trans ?_
    simp

/-- a step from the state `u` at the time `t`, with the stages `k` of the method `A` and the residual `tol` -/
structure Sit (V : Type u) where
  t : ℝ
  h : ℝ
  tol : ℝ
  u : V
  k : Nat → V
  A : Nat → Nat → ℝ
  i : Nat

/-- the increment of the stage `i` -/
noncomputable def incr (s : Nat) (A : Nat → Nat → ℝ) (h : ℝ) (k : Nat → V) (i : Nat) : V := h • ∑ j ∈ Finset.range s, A i j • k j

/-- the situations that are considered -/
def Sit.Good (f : V → V) (y : ℝ → V) (T : ℝ) (s : Nat) (R ρ : ℝ) (w : Sit V) : Prop :=
  w.t ∈ Icc 0 T ∧ 0 ≤ w.tol ∧ ‖w.u - y w.t‖ + w.tol ≤ ρ ∧ w.i < s ∧ (∀ i < s, ∀ j < s, |w.A i j| ≤ R) ∧
    (∀ i < s, ‖incr s w.A w.h w.k i‖ ≤ ρ) ∧ ∀ i < s, ‖w.k i - f (w.u + incr s w.A w.h w.k i)‖ ≤ w.tol

/-- the stages of a Runge-Kutta step as a kind -/
noncomputable def rkKind (f : V → V) (y : ℝ → V) (T : ℝ) (s : Nat) (R ρ L : ℝ) (ρ0 : 0 < ρ) (ρ1 : ρ ≤ 1) (L0 : 0 ≤ L)
    (hLip : ∀ t ∈ Icc 0 T, ∀ P Q : V, ‖P‖ ≤ 2 * ρ → ‖Q‖ ≤ 2 * ρ → ‖f (y t + P) - f (y t + Q)‖ ≤ L * ‖P - Q‖)
    (hBd : ∀ t ∈ Icc 0 T, ∀ P : V, ‖P‖ ≤ 2 * ρ → ‖f (y t + P)‖ ≤ L) : Kind f y T where
  W := Sit V
  S := {w | w.Good f y T s R ρ}
  t := Sit.t
  h := Sit.h
  ε := fun w => ‖w.u - y w.t‖ + w.tol
  K := fun w => w.k w.i
  Z := fun w => incr s w.A w.h w.k w.i
  Φ := fun τ w => weightR w.A s τ w.i
  Ψ := fun τ w => ∑ j ∈ Finset.range s, w.A w.i j * weightR w.A s τ j
  tmem := fun w hw => hw.1
  ε0 := fun w hw => add_nonneg (norm_nonneg _) hw.2.1
  ε1 := fun w hw => hw.2.2.1.trans ρ1
  leaf := fun _ _ => rfl
  graft := fun _ _ _ _ => rfl
  boundΨ := by
    intro τ
    obtain ⟨C, C0, hC⟩ := weightR_bound s R τ
    refine ⟨s * (|R| * C), fun w hw => ?_⟩
    obtain ⟨_, _, _, hi, hA, _⟩ := hw
    refine (Finset.abs_sum_le_sum_abs _ _).trans ?_
    have : ∀ j ∈ Finset.range s, |w.A w.i j * weightR w.A s τ j| ≤ |R| * C := by
      intro j hj
      have hj := Finset.mem_range.1 hj
      rw [abs_mul]
      exact mul_le_mul ((hA _ hi j hj).trans (le_abs_self R)) (hC _ hA j hj) (abs_nonneg _) (abs_nonneg _)
    refine (Finset.sum_le_sum this).trans ?_
    simp
  boundK := by
    rw [bigO_iff]
    refine ⟨L + 1, by linarith, 1, one_pos, fun w hw _ _ => ?_⟩
    obtain ⟨ht, h0, he, hi, hA, hZ, hk⟩ := hw
    rw [norm_one, mul_one]
    have n0 := norm_nonneg (w.u - y w.t)
    have a1 := hBd w.t ht (w.u - y w.t + incr s w.A w.h w.k w.i) ((norm_add_le _ _).trans (by linarith [hZ _ hi]))
    have a2 := hk _ hi
    rw [show y w.t + (w.u - y w.t + incr s w.A w.h w.k w.i) = w.u + incr s w.A w.h w.k w.i by abel] at a1
    have := norm_add_le (w.k w.i - f (w.u + incr s w.A w.h w.k w.i)) (f (w.u + incr s w.A w.h w.k w.i))
    rw [sub_add_cancel] at this
    linarith
  close := by
    rw [bigO_iff]
    refine ⟨L + 1, by linarith, 1, one_pos, fun w hw _ _ => ?_⟩
    obtain ⟨ht, h0, he, hi, hA, hZ, hk⟩ := hw
    have n0 := norm_nonneg (w.u - y w.t)
    rw [Real.norm_of_nonneg (by linarith)]
    have a1 := hLip w.t ht (w.u - y w.t + incr s w.A w.h w.k w.i) (incr s w.A w.h w.k w.i)
      ((norm_add_le _ _).trans (by linarith [hZ _ hi])) (by linarith [hZ _ hi])
    rw [show y w.t + (w.u - y w.t + incr s w.A w.h w.k w.i) = w.u + incr s w.A w.h w.k w.i by abel, add_sub_cancel_right] at a1
    have a2 := hk _ hi
    have := norm_add_le (w.k w.i - f (w.u + incr s w.A w.h w.k w.i)) (f (w.u + incr s w.A w.h w.k w.i) -
      f (y w.t + incr s w.A w.h w.k w.i))
    rw [sub_add_sub_cancel] at this
    nlinarith
  rule := by
    intro κ _ τ F q H
    rw [bigO_iff] at H ⊢
    obtain ⟨C, C0, h0, p0, hC⟩ := H
    refine ⟨s * (|R| * C), by positivity, h0, p0, ?_⟩
    intro w hw hpos hlt
    obtain ⟨ht, ht0, he, hi, hA, hZ, hk⟩ := id hw
    set E := w.h ^ q + (‖w.u - y w.t‖ + w.tol) with hE
    have E0 : 0 ≤ E := by have := norm_nonneg (w.u - y w.t); positivity
    have each : ∀ j ∈ Finset.range s, ‖w.A w.i j • (w.k j - ∑ a, (w.h ^ ((τ a).size - 1) * weightR w.A s (τ a) j) • F a w.t)‖ ≤
        |R| * (C * E) := by
      intro j hj
      have hj := Finset.mem_range.1 hj
      have := hC { w with i := j } ⟨ht, ht0, he, hj, hA, hZ, hk⟩ hpos hlt
      dsimp only at this
      rw [← hE, Real.norm_of_nonneg E0] at this
      rw [norm_smul, Real.norm_eq_abs]
      exact mul_le_mul ((hA _ hi j hj).trans (le_abs_self R)) this (norm_nonneg _) (abs_nonneg _)
    have key : incr s w.A w.h w.k w.i - ∑ a, (w.h ^ (τ a).size * ∑ j ∈ Finset.range s, w.A w.i j * weightR w.A s (τ a) j) • F a w.t =
        w.h • ∑ j ∈ Finset.range s, w.A w.i j • (w.k j - ∑ a, (w.h ^ ((τ a).size - 1) * weightR w.A s (τ a) j) • F a w.t) := by
      rw [incr, ← sub_eq_zero]
      simp only [smul_sub, Finset.sum_sub_distrib, Finset.smul_sum, Finset.mul_sum, Finset.sum_smul, smul_smul]
      rw [Finset.sum_comm (s := Finset.range s)]
      rw [sub_sub_sub_cancel_left, sub_eq_zero]
      refine Finset.sum_congr rfl fun a _ => Finset.sum_congr rfl fun j _ => ?_
      congr 1
      have e : w.h ^ (τ a).size = w.h * w.h ^ ((τ a).size - 1) := by
        rw [← pow_succ', Nat.sub_add_cancel (size_pos _)]
      rw [e]
      ring
    rw [key, norm_smul, norm_mul]
    have : ‖∑ j ∈ Finset.range s, w.A w.i j • (w.k j - ∑ a, (w.h ^ ((τ a).size - 1) * weightR w.A s (τ a) j) • F a w.t)‖ ≤
        s * (|R| * (C * E)) := by
      refine (norm_sum_le _ _).trans ((Finset.sum_le_sum each).trans ?_)
      simp
    rw [Real.norm_of_nonneg E0]
    calc ‖w.h‖ * _ ≤ ‖w.h‖ * (s * (|R| * (C * E))) := mul_le_mul_of_nonneg_left this (norm_nonneg _)
      _ = _ := by ring

/-- the order conditions of a method with real coefficients, each one up to `η` -/
def OrderR (A : Nat → Nat → ℝ) (b : Nat → ℝ) (s p : Nat) (η : ℝ) : Prop :=
  ∀ τ : Tree, τ.size ≤ p → |∑ i ∈ Finset.range s, b i * weightR A s τ i - 1 / (τ.density : ℝ)| ≤ η

/-- One step: the error grows by at most the step times the error, the order term and the tolerances.  The constants are the same for
all methods with coefficients up to `R`. -/
theorem one_step {f : V → V} {y : ℝ → V} {T : ℝ} {p : Nat} (hp : 1 ≤ p) (hs : SpecConvergence.SmoothSolution f y T p) (s : Nat) (R : ℝ) :
    ∃ C ρ L : ℝ, 0 ≤ C ∧ 0 < ρ ∧ 0 ≤ L ∧
      (∀ t ∈ Icc 0 T, ∀ P Q : V, ‖P‖ ≤ 2 * ρ → ‖Q‖ ≤ 2 * ρ → ‖f (y t + P) - f (y t + Q)‖ ≤ L * ‖P - Q‖) ∧
      (∀ t ∈ Icc 0 T, ∀ P : V, ‖P‖ ≤ 2 * ρ → ‖f (y t + P)‖ ≤ L) ∧
      ∀ (A : Nat → Nat → ℝ) (b : Nat → ℝ) (η : ℝ), (∀ i < s, ∀ j < s, |A i j| ≤ R) → (∀ i < s, |b i| ≤ R) → OrderR A b s p η →
        ∀ (t h tol : ℝ) (u : V) (k : Nat → V), 0 ≤ t → 0 < h → h ≤ ρ → t + h ≤ T → 0 ≤ tol → ‖u - y t‖ + tol ≤ ρ →
          (∀ i < s, ‖incr s A h k i‖ ≤ ρ) → (∀ i < s, ‖k i - f (u + incr s A h k i)‖ ≤ tol) →
          ‖u + h • ∑ i ∈ Finset.range s, b i • k i - y (t + h)‖ ≤ ‖u - y t‖ + h * (C * (‖u - y t‖ + (h ^ p + tol + η))) := by
  have hcont : ContinuousOn y (Icc 0 T) := fun t ht => (hs.solves t ht).continuousWithinAt
  have hK : IsCompact (y '' Icc 0 T) := isCompact_Icc.image_of_continuousOn hcont
  obtain ⟨r, L, r0, L0, hLip, hBd, _, _⟩ := uniform_taylor hK 0 (f := f) (by
    rintro x ⟨t, ht, rfl⟩
    exact (hs.smooth t ht).of_le (by exact_mod_cast hp))
  obtain ⟨κ, _, τ, F, hF, hexp⟩ := increments hK p (f := f) (by
    rintro x ⟨t, ht, rfl⟩
    exact hs.smooth t ht)
  set ρ := min (r / 2) 1 with hρ
  have ρ0 : 0 < ρ := lt_min (by linarith) one_pos
  have ρ1 : ρ ≤ 1 := min_le_right _ _
  have ρr : 2 * ρ ≤ r := by have := min_le_left (r / 2) 1; linarith
  have hLip' : ∀ t ∈ Icc 0 T, ∀ P Q : V, ‖P‖ ≤ 2 * ρ → ‖Q‖ ≤ 2 * ρ → ‖f (y t + P) - f (y t + Q)‖ ≤ L * ‖P - Q‖ :=
    fun t ht P Q hP hQ => hLip _ (mem_image_of_mem y ht) P Q (hP.trans ρr) (hQ.trans ρr)
  have hBd' : ∀ t ∈ Icc 0 T, ∀ P : V, ‖P‖ ≤ 2 * ρ → ‖f (y t + P)‖ ≤ L :=
    fun t ht P hP => hBd _ (mem_image_of_mem y ht) P (hP.trans ρr)
  obtain ⟨C1, C10, h1, h10, H1⟩ := (bigO_iff _ _ _ _).1 (hexp (exactKind f y T L hs.solves (by
    intro t ht
    have := hBd' t ht 0 (by simp; linarith)
    simpa using this))).2
  obtain ⟨C2, C20, h2, h20, H2⟩ := (bigO_iff _ _ _ _).1 (hexp (rkKind f y T s R ρ L ρ0 ρ1 L0.le hLip' hBd')).1
  choose Fb hFb using hF
  have wb := fun a => weightR_bound s R (τ a)
  choose Wb Wb0 hWb using wb
  -- the constant
  set D : ℝ := ∑ a, (s * (|R| * Wb a) + 2) * |Fb a| with hD
  have D0 : 0 ≤ D := Finset.sum_nonneg fun a _ => by have := Wb0 a; positivity
  set C := C1 + s * (|R| * C2) + D with hC
  have C0 : 0 ≤ C := by positivity
  refine ⟨C, min ρ (min (h1 / 2) (h2 / 2)), L, C0, lt_min ρ0 (lt_min (by linarith) (by linarith)), L0.le, ?_, ?_, ?_⟩
  · intro t ht P Q hP hQ
    have := min_le_left ρ (min (h1 / 2) (h2 / 2))
    exact hLip' t ht P Q (by linarith) (by linarith)
  · intro t ht P hP
    have := min_le_left ρ (min (h1 / 2) (h2 / 2))
    exact hBd' t ht P (by linarith)
  intro A b η hA hb hη t h tol u k t0 hh0 hhρ hT tol0 he hinc hk
  have hhρ' : h ≤ ρ := hhρ.trans (min_le_left _ _)
  have hh1 : h < h1 := by
    have : h ≤ h1 / 2 := hhρ.trans ((min_le_right _ _).trans (min_le_left _ _))
    linarith
  have hh2 : h < h2 := by
    have : h ≤ h2 / 2 := hhρ.trans ((min_le_right _ _).trans (min_le_right _ _))
    linarith
  have h1' : h ≤ 1 := hhρ'.trans ρ1
  have tT : t ∈ Icc 0 T := ⟨t0, by linarith⟩
  have n0 := norm_nonneg (u - y t)
  have η0 : 0 ≤ η := (abs_nonneg _).trans (hη .leaf hp)
  set E := ‖u - y t‖ + (h ^ p + tol + η) with hE
  have hp0 : 0 ≤ h ^ p := by positivity
  have E0 : 0 ≤ E := by positivity
  -- the exact increment
  have ex := H1 ⟨t, h, 1⟩ ⟨t0, hh0, hT, zero_le_one, le_rfl⟩ hh0 hh1
  dsimp only [exactKind] at ex
  rw [one_mul, add_zero, Real.norm_of_nonneg (by positivity)] at ex
  simp only [one_pow] at ex
  -- the stages
  have st : ∀ i ∈ Finset.range s, ‖b i • (k i - ∑ a, (h ^ ((τ a).size - 1) * weightR A s (τ a) i) • F a t)‖ ≤ |R| * (C2 * E) := by
    intro i hi
    have hi := Finset.mem_range.1 hi
    have := H2 ⟨t, h, tol, u, k, A, i⟩ ⟨tT, tol0, he.trans (min_le_left _ _), hi, hA, fun i hi => (hinc i hi).trans (min_le_left _ _), hk⟩ hh0 hh2
    dsimp only [rkKind] at this
    rw [Real.norm_of_nonneg (by positivity)] at this
    rw [norm_smul, Real.norm_eq_abs]
    refine mul_le_mul ((hb i hi).trans (le_abs_self R)) (this.trans ?_) (norm_nonneg _) (abs_nonneg _)
    exact mul_le_mul_of_nonneg_left (by rw [hE]; linarith) C20
  have st' : ‖∑ i ∈ Finset.range s, b i • (k i - ∑ a, (h ^ ((τ a).size - 1) * weightR A s (τ a) i) • F a t)‖ ≤ s * (|R| * (C2 * E)) := by
    refine (norm_sum_le _ _).trans ((Finset.sum_le_sum st).trans ?_)
    simp
  -- the coefficients
  have co : ∀ a ∈ (Finset.univ : Finset κ), ‖(h ^ ((τ a).size - 1) * (∑ i ∈ Finset.range s, b i * weightR A s (τ a) i -
      1 / ((τ a).density : ℝ))) • F a t‖ ≤ (s * (|R| * Wb a) + 2) * |Fb a| * E := by
    intro a _
    rw [norm_smul, norm_mul, Real.norm_of_nonneg (pow_nonneg hh0.le _), Real.norm_eq_abs]
    have hpow1 : h ^ ((τ a).size - 1) ≤ 1 := pow_le_one₀ hh0.le h1'
    have main : h ^ ((τ a).size - 1) * |∑ i ∈ Finset.range s, b i * weightR A s (τ a) i - 1 / ((τ a).density : ℝ)| ≤
        (s * (|R| * Wb a) + 2) * E := by
      have w0 := Wb0 a
      have k0 : 0 ≤ s * (|R| * Wb a) := by positivity
      rcases Nat.lt_or_ge p (τ a).size with hlt | hle
      · have d1 : |1 / ((τ a).density : ℝ)| ≤ 1 := by
          have : 1 ≤ ((τ a).density : ℝ) := by
            have : 0 < (τ a).density := Nat.mul_pos (size_pos _) (branch_pos _)
            exact_mod_cast this
          rw [abs_of_nonneg (by positivity), div_le_one (by linarith)]
          exact this
        have d2 : |∑ i ∈ Finset.range s, b i * weightR A s (τ a) i| ≤ s * (|R| * Wb a) := by
          refine (Finset.abs_sum_le_sum_abs _ _).trans ?_
          have : ∀ i ∈ Finset.range s, |b i * weightR A s (τ a) i| ≤ |R| * Wb a := by
            intro i hi
            have hi := Finset.mem_range.1 hi
            rw [abs_mul]
            exact mul_le_mul ((hb i hi).trans (le_abs_self R)) (hWb a A hA i hi) (abs_nonneg _) (abs_nonneg _)
          refine (Finset.sum_le_sum this).trans ?_
          simp
        have d3 : |∑ i ∈ Finset.range s, b i * weightR A s (τ a) i - 1 / ((τ a).density : ℝ)| ≤ s * (|R| * Wb a) + 2 := by
          refine (abs_sub _ _).trans ?_
          linarith
        have d4 : h ^ ((τ a).size - 1) ≤ E := by
          refine (pow_le_pow_of_le_one hh0.le h1' (by omega : p ≤ (τ a).size - 1)).trans ?_
          rw [hE]; linarith
        calc _ ≤ E * (s * (|R| * Wb a) + 2) := mul_le_mul d4 d3 (abs_nonneg _) E0
          _ = _ := mul_comm _ _
      · have d3 := hη (τ a) hle
        have d4 : η ≤ E := by rw [hE]; linarith
        have : h ^ ((τ a).size - 1) * |∑ i ∈ Finset.range s, b i * weightR A s (τ a) i - 1 / ((τ a).density : ℝ)| ≤ 1 * η :=
          mul_le_mul hpow1 d3 (abs_nonneg _) zero_le_one
        nlinarith
    calc _ ≤ (s * (|R| * Wb a) + 2) * E * |Fb a| := mul_le_mul main ((hFb a t tT).trans (le_abs_self _)) (norm_nonneg _)
          (by have := Wb0 a; positivity)
      _ = _ := by ring
  have co' : ‖∑ a, (h ^ ((τ a).size - 1) * (∑ i ∈ Finset.range s, b i * weightR A s (τ a) i - 1 / ((τ a).density : ℝ))) • F a t‖ ≤ D * E := by
    refine (norm_sum_le _ _).trans ((Finset.sum_le_sum co).trans ?_)
    rw [hD, Finset.sum_mul]
  have split : u + h • ∑ i ∈ Finset.range s, b i • k i - y (t + h) = (u - y t) +
      (h • (∑ i ∈ Finset.range s, b i • (k i - ∑ a, (h ^ ((τ a).size - 1) * weightR A s (τ a) i) • F a t)) +
       h • (∑ a, (h ^ ((τ a).size - 1) * (∑ i ∈ Finset.range s, b i * weightR A s (τ a) i - 1 / ((τ a).density : ℝ))) • F a t)) -
      (y (t + h) - y t - ∑ a, (h ^ (τ a).size * (1 / ((τ a).density : ℝ))) • F a t) := by
    have e1 : h • (∑ i ∈ Finset.range s, b i • (k i - ∑ a, (h ^ ((τ a).size - 1) * weightR A s (τ a) i) • F a t)) =
        h • ∑ i ∈ Finset.range s, b i • k i - ∑ a, (h ^ (τ a).size * ∑ i ∈ Finset.range s, b i * weightR A s (τ a) i) • F a t := by
      simp only [smul_sub, Finset.sum_sub_distrib, Finset.smul_sum, Finset.mul_sum, Finset.sum_smul, smul_smul]
      congr 1
      rw [Finset.sum_comm (s := Finset.range s)]
      refine Finset.sum_congr rfl fun a _ => Finset.sum_congr rfl fun j _ => ?_
      congr 1
      have e : h ^ (τ a).size = h * h ^ ((τ a).size - 1) := by
        rw [← pow_succ', Nat.sub_add_cancel (size_pos _)]
      rw [e]
      ring
    have e2 : h • (∑ a, (h ^ ((τ a).size - 1) * (∑ i ∈ Finset.range s, b i * weightR A s (τ a) i - 1 / ((τ a).density : ℝ))) • F a t) =
        ∑ a, (h ^ (τ a).size * ∑ i ∈ Finset.range s, b i * weightR A s (τ a) i) • F a t -
          ∑ a, (h ^ (τ a).size * (1 / ((τ a).density : ℝ))) • F a t := by
      rw [Finset.smul_sum, ← Finset.sum_sub_distrib]
      refine Finset.sum_congr rfl fun a _ => ?_
      rw [smul_smul, ← sub_smul]
      congr 1
      have e : h ^ (τ a).size = h * h ^ ((τ a).size - 1) := by
        rw [← pow_succ', Nat.sub_add_cancel (size_pos _)]
      rw [e]
      ring
    rw [e1, e2]
    abel
  rw [split]
  refine (norm_sub_le _ _).trans ?_
  have q1 := norm_add_le (u - y t) (h • (∑ i ∈ Finset.range s, b i • (k i - ∑ a, (h ^ ((τ a).size - 1) * weightR A s (τ a) i) • F a t)) +
       h • (∑ a, (h ^ ((τ a).size - 1) * (∑ i ∈ Finset.range s, b i * weightR A s (τ a) i - 1 / ((τ a).density : ℝ))) • F a t))
  have q2 := norm_add_le (h • (∑ i ∈ Finset.range s, b i • (k i - ∑ a, (h ^ ((τ a).size - 1) * weightR A s (τ a) i) • F a t)))
       (h • (∑ a, (h ^ ((τ a).size - 1) * (∑ i ∈ Finset.range s, b i * weightR A s (τ a) i - 1 / ((τ a).density : ℝ))) • F a t))
  rw [norm_smul, norm_smul, Real.norm_of_nonneg hh0.le] at q2
  have q3 := mul_le_mul_of_nonneg_left st' hh0.le
  have q4 := mul_le_mul_of_nonneg_left co' hh0.le
  have q5 : C1 * (h * h ^ p) ≤ h * (C1 * E) := by
    have : h ^ p ≤ E := by rw [hE]; linarith
    have := mul_le_mul_of_nonneg_left this (mul_nonneg hh0.le C10)
    linarith
  have q6 : h * (C * E) = h * (C1 * E) + h * (s * (|R| * (C2 * E))) + h * (D * E) := by rw [hC]; ring
  linarith

/-- the errors of a run whose steps satisfy the bound above stay small -/
theorem run_bound (e : Nat → ℝ) (dt : Nat → ℝ) (C E T ρ : ℝ) (C0 : 0 ≤ C) (E0 : 0 ≤ E) (hρ : T * E * Real.exp (C * T) ≤ ρ)
    (dt0 : ∀ n, 0 < dt n) (e0 : e 0 = 0)
    (hstep : ∀ n, SpecConvergence.time dt n + dt n ≤ T → e n ≤ ρ → e (n + 1) ≤ e n + dt n * (C * e n + E)) :
    ∀ n, SpecConvergence.time dt n ≤ T → e n ≤ T * E * Real.exp (C * T) := by
  have tn0 : ∀ n, 0 ≤ SpecConvergence.time dt n := fun n => Finset.sum_nonneg fun i _ => (dt0 i).le
  have ts : ∀ n, SpecConvergence.time dt (n + 1) = SpecConvergence.time dt n + dt n := fun n => Finset.sum_range_succ _ _
  have key : ∀ n, SpecConvergence.time dt n ≤ T →
      e n ≤ SpecConvergence.time dt n * E * Real.exp (C * SpecConvergence.time dt n) := by
    intro n
    induction n with
    | zero => intro _; simp [SpecConvergence.time, e0]
    | succ n ih =>
      intro hT
      rw [ts] at hT ⊢
      have d0 := dt0 n
      have t0 := tn0 n
      have hb := ih (by linarith)
      set t := SpecConvergence.time dt n with ht
      have mono : t * E * Real.exp (C * t) ≤ T * E * Real.exp (C * T) := by
        have T0 : t ≤ T := by linarith
        have := Real.exp_le_exp.2 (mul_le_mul_of_nonneg_left T0 C0)
        have a1 : t * E ≤ T * E := mul_le_mul_of_nonneg_right T0 E0
        exact mul_le_mul a1 this (Real.exp_pos _).le (mul_nonneg (by linarith) E0)
      have hs := hstep n (by linarith) (by linarith)
      have x1 : Real.exp (C * (t + dt n)) = Real.exp (C * t) * Real.exp (C * dt n) := by rw [mul_add, Real.exp_add]
      have x2 : 1 + C * dt n ≤ Real.exp (C * dt n) := by have := Real.add_one_le_exp (C * dt n); linarith
      have x3 : 1 ≤ Real.exp (C * t) := Real.one_le_exp (mul_nonneg C0 t0)
      have x4 : 1 ≤ Real.exp (C * dt n) := Real.one_le_exp (mul_nonneg C0 d0.le)
      have y1 : e n * (1 + C * dt n) ≤ t * E * Real.exp (C * t) * Real.exp (C * dt n) := by
        have p1 : 0 ≤ 1 + C * dt n := by positivity
        calc _ ≤ t * E * Real.exp (C * t) * (1 + C * dt n) := mul_le_mul_of_nonneg_right hb p1
          _ ≤ _ := mul_le_mul_of_nonneg_left x2 (by positivity)
      have y2 : dt n * E ≤ dt n * E * (Real.exp (C * t) * Real.exp (C * dt n)) := by
        have : 1 ≤ Real.exp (C * t) * Real.exp (C * dt n) := by nlinarith
        have p0 : 0 ≤ dt n * E := by positivity
        nlinarith
      rw [x1]
      calc e (n + 1) ≤ e n * (1 + C * dt n) + dt n * E := by linarith
        _ ≤ t * E * Real.exp (C * t) * Real.exp (C * dt n) + dt n * E * (Real.exp (C * t) * Real.exp (C * dt n)) := by linarith
        _ = _ := by ring
  intro n hT
  refine (key n hT).trans ?_
  have := Real.exp_le_exp.2 (mul_le_mul_of_nonneg_left hT C0)
  have a1 : SpecConvergence.time dt n * E ≤ T * E := mul_le_mul_of_nonneg_right hT E0
  exact mul_le_mul a1 this (Real.exp_pos _).le (mul_nonneg ((tn0 n).trans hT) E0)

open SpecConvergence

/-- from one step to the whole run -/
theorem runs_of_step (step : V → ℝ → V) (y : ℝ → V) (T h C E ρ : ℝ) (C0 : 0 ≤ C) (E0 : 0 ≤ E) (hρ : T * (C * E) * Real.exp (C * T) ≤ ρ)
    (H : ∀ (t h' : ℝ) (u : V), 0 ≤ t → 0 < h' → h' ≤ h → t + h' ≤ T → ‖u - y t‖ ≤ ρ →
      ‖step u h' - y (t + h')‖ ≤ ‖u - y t‖ + h' * (C * (‖u - y t‖ + E))) :
    RunsWithin step y T h (T * (C * E) * Real.exp (C * T)) := by
  intro dt Q hdt hQ0 hQ n hn
  refine run_bound (fun n => ‖Q n - y (time dt n)‖) dt C (C * E) T ρ C0 (mul_nonneg C0 E0) hρ (fun n => (hdt n).1) ?_ ?_ n hn
  · simp [time, hQ0]
  · intro n h1 h2
    have tn0 : 0 ≤ time dt n := Finset.sum_nonneg fun i _ => (hdt i).1.le
    have ts : time dt (n + 1) = time dt n + dt n := Finset.sum_range_succ _ _
    have := H (time dt n) (dt n) (Q n) tn0 (hdt n).1 (hdt n).2 h1 h2
    beta_reduce
    rw [hQ, ts, ← mul_add]
    exact this

/-- what is known near the solution -/
structure Near (f : V → V) (y : ℝ → V) (T ρ L : ℝ) : Prop where
  ρ0 : 0 < ρ
  L0 : 0 ≤ L
  lip : ∀ t ∈ Icc 0 T, ∀ P Q : V, ‖P‖ ≤ 2 * ρ → ‖Q‖ ≤ 2 * ρ → ‖f (y t + P) - f (y t + Q)‖ ≤ L * ‖P - Q‖
  bd : ∀ t ∈ Icc 0 T, ∀ P : V, ‖P‖ ≤ 2 * ρ → ‖f (y t + P)‖ ≤ L

theorem Near.lip' {f : V → V} {y : ℝ → V} {T ρ L : ℝ} (n : Near f y T ρ L) {t : ℝ} (ht : t ∈ Icc 0 T) {a b : V} (ha : ‖a - y t‖ ≤ 2 * ρ)
    (hb : ‖b - y t‖ ≤ 2 * ρ) : ‖f a - f b‖ ≤ L * ‖a - b‖ := by
  have := n.lip t ht (a - y t) (b - y t) ha hb
  simpa using this

theorem Near.bd' {f : V → V} {y : ℝ → V} {T ρ L : ℝ} (n : Near f y T ρ L) {t : ℝ} (ht : t ∈ Icc 0 T) {a : V} (ha : ‖a - y t‖ ≤ 2 * ρ) :
    ‖f a‖ ≤ L := by
  have := n.bd t ht (a - y t) ha
  simpa using this

/-- the run of a scheme whose steps are those of a Runge-Kutta method with stages up to `tol` and `c` times the error of the run -/
theorem stage_within_c {f : V → V} {y : ℝ → V} {T : ℝ} {p : Nat} (hp : 1 ≤ p) (hs : SmoothSolution f y T p) (s : Nat) (R : ℝ) {r : ℝ}
    (r0 : 0 < r) : ∃ ρ L : ℝ, Near f y T ρ L ∧ ρ ≤ r ∧ ∀ c : ℝ, 0 ≤ c → ∃ C δ : ℝ, 0 ≤ C ∧ 0 < δ ∧ δ ≤ ρ ∧
      ∀ (A : Nat → Nat → ℝ) (b : Nat → ℝ) (η tol h : ℝ) (step : V → ℝ → V), (∀ i < s, ∀ j < s, |A i j| ≤ R) → (∀ i < s, |b i| ≤ R) →
        OrderR A b s p η → 0 ≤ tol → 0 < h → h + η + tol ≤ δ →
        (∀ (t h' : ℝ) (u : V), 0 ≤ t → 0 < h' → h' ≤ h → t + h' ≤ T → ‖u - y t‖ ≤ ρ / 2 → ∃ k : Nat → V,
          (∀ i < s, ‖incr s A h' k i‖ ≤ ρ) ∧ (∀ i < s, ‖k i - f (u + incr s A h' k i)‖ ≤ tol + c * ‖u - y t‖) ∧
          step u h' = u + h' • ∑ i ∈ Finset.range s, b i • k i) →
        RunsWithin step y T h (C * (h ^ p + tol + η)) := by
  obtain ⟨C', ρ', L, C'0, ρ'0, L0, hLip', hBd', H'⟩ := one_step hp hs s R
  set ρ := min ρ' r with hρdef
  have ρ0 : 0 < ρ := lt_min ρ'0 r0
  have ρρ : ρ ≤ ρ' := min_le_left _ _
  have hLip : ∀ t ∈ Icc 0 T, ∀ P Q : V, ‖P‖ ≤ 2 * ρ → ‖Q‖ ≤ 2 * ρ → ‖f (y t + P) - f (y t + Q)‖ ≤ L * ‖P - Q‖ :=
    fun t ht P Q hP hQ => hLip' t ht P Q (by linarith) (by linarith)
  have hBd : ∀ t ∈ Icc 0 T, ∀ P : V, ‖P‖ ≤ 2 * ρ → ‖f (y t + P)‖ ≤ L := fun t ht P hP => hBd' t ht P (by linarith)
  refine ⟨ρ, L, ⟨ρ0, L0, hLip, hBd⟩, min_le_right _ _, fun c c0 => ?_⟩
  set C := C' * (1 + c) with hC
  have C0 : 0 ≤ C := by positivity
  have C'C : C' ≤ C := by rw [hC]; nlinarith
  set G := |T| * C * Real.exp (C * T) with hG
  have G0 : 0 ≤ G := by positivity
  set ρ2 := ρ / (2 * (1 + c)) with hρ2
  have ρ20 : 0 < ρ2 := by positivity
  have ρ2c : ρ2 * (2 * (1 + c)) = ρ := div_mul_cancel₀ _ (by positivity)
  have ρ2ρ : ρ2 ≤ ρ / 2 := by nlinarith
  set δ := min (min ρ 1 / 2) (ρ2 / (G + 1)) with hδ
  have δ0 : 0 < δ := lt_min (by have := lt_min ρ0 one_pos; linarith) (by positivity)
  have δρ : δ ≤ ρ / 2 := (min_le_left _ _).trans (by have := min_le_left ρ 1; linarith)
  have δ1 : δ ≤ 1 := (min_le_left _ _).trans (by have := min_le_right ρ 1; linarith)
  refine ⟨G, δ, G0, δ0, by linarith, ?_⟩
  intro A b η tol h step hA hb hη tol0 h0 hsum hstep
  have η0 : 0 ≤ η := (abs_nonneg _).trans (hη .leaf hp)
  have hh1 : h ≤ 1 := by linarith
  have hpow : h ^ p ≤ h := by
    calc h ^ p ≤ h ^ 1 := pow_le_pow_of_le_one h0.le hh1 hp
      _ = h := pow_one _
  have hp0 : 0 ≤ h ^ p := by positivity
  set E := h ^ p + tol + η with hE
  have E0 : 0 ≤ E := by positivity
  have Eδ : E ≤ δ := by rw [hE]; linarith
  have bound : |T| * (C * E) * Real.exp (C * T) ≤ ρ2 := by
    have e1 : |T| * (C * E) * Real.exp (C * T) = G * E := by rw [hG]; ring
    rw [e1]
    have e2 : E ≤ ρ2 / (G + 1) := Eδ.trans (min_le_right _ _)
    rw [le_div_iff₀ (by linarith)] at e2
    nlinarith
  have small : T * (C * E) * Real.exp (C * T) ≤ ρ2 := by
    refine le_trans ?_ bound
    have : 0 ≤ C * E := mul_nonneg C0 E0
    exact mul_le_mul_of_nonneg_right (mul_le_mul_of_nonneg_right (le_abs_self T) this) (Real.exp_pos _).le
  have := runs_of_step step y T h C E ρ2 C0 E0 small (by
    intro t h' u t0 h'0 h'h hT hu
    obtain ⟨k, k1, k2, k3⟩ := hstep t h' u t0 h'0 h'h hT (hu.trans ρ2ρ)
    have n0 := norm_nonneg (u - y t)
    rw [k3]
    refine (H' A b η hA hb hη t h' (tol + c * ‖u - y t‖) u k t0 h'0 (by linarith) hT (by positivity) ?_
      (fun i hi => (k1 i hi).trans ρρ) k2).trans ?_
    · have : (1 + c) * ‖u - y t‖ ≤ (1 + c) * ρ2 := mul_le_mul_of_nonneg_left hu (by linarith)
      nlinarith
    have q1 : h' ^ p ≤ h ^ p := pow_le_pow_left₀ h'0.le h'h p
    have q2 : C' * (‖u - y t‖ + (h' ^ p + (tol + c * ‖u - y t‖) + η)) ≤ C * (‖u - y t‖ + E) := by
      calc _ ≤ C' * ((1 + c) * (‖u - y t‖ + E)) := by
            refine mul_le_mul_of_nonneg_left ?_ C'0
            rw [hE]
            have : 0 ≤ c * (h ^ p + tol + η) := by positivity
            nlinarith
        _ = _ := by rw [hC]; ring
    have := mul_le_mul_of_nonneg_left q2 h'0.le
    linarith)
  intro dt Q hdt hQ0 hQ n hn
  refine (this dt Q hdt hQ0 hQ n hn).trans ?_
  have e1 : |T| * (C * E) * Real.exp (C * T) = G * E := by rw [hG]; ring
  rw [← e1]
  have : 0 ≤ C * E := mul_nonneg C0 E0
  exact mul_le_mul_of_nonneg_right (mul_le_mul_of_nonneg_right (le_abs_self T) this) (Real.exp_pos _).le

/-- the run of a scheme whose steps are those of a Runge-Kutta method with stages up to `tol` -/
theorem stage_within {f : V → V} {y : ℝ → V} {T : ℝ} {p : Nat} (hp : 1 ≤ p) (hs : SmoothSolution f y T p) (s : Nat) (R : ℝ) {r : ℝ}
    (r0 : 0 < r) : ∃ C δ ρ L : ℝ, 0 ≤ C ∧ 0 < δ ∧ Near f y T ρ L ∧ δ ≤ ρ ∧ ρ ≤ r ∧
      ∀ (A : Nat → Nat → ℝ) (b : Nat → ℝ) (η tol h : ℝ) (step : V → ℝ → V), (∀ i < s, ∀ j < s, |A i j| ≤ R) → (∀ i < s, |b i| ≤ R) →
        OrderR A b s p η → 0 ≤ tol → 0 < h → h + η + tol ≤ δ →
        (∀ (t h' : ℝ) (u : V), 0 ≤ t → 0 < h' → h' ≤ h → t + h' ≤ T → ‖u - y t‖ ≤ ρ / 2 → ∃ k : Nat → V,
          (∀ i < s, ‖incr s A h' k i‖ ≤ ρ) ∧ (∀ i < s, ‖k i - f (u + incr s A h' k i)‖ ≤ tol) ∧
          step u h' = u + h' • ∑ i ∈ Finset.range s, b i • k i) →
        RunsWithin step y T h (C * (h ^ p + tol + η)) := by
  obtain ⟨ρ, L, near, ρr, H⟩ := stage_within_c hp hs s R r0
  obtain ⟨C, δ, C0, δ0, δρ, H⟩ := H 0 le_rfl
  refine ⟨C, δ, ρ, L, C0, δ0, near, δρ, ρr, ?_⟩
  intro A b η tol h step hA hb hη tol0 h0 hsum hstep
  refine H A b η tol h step hA hb hη tol0 h0 hsum ?_
  simpa using hstep

/-- the stages of an explicit method do not leave the neighbourhood of the solution -/
theorem explicit_stages {f : V → V} {y : ℝ → V} {T ρ L : ℝ} (n : Near f y T ρ L) {s : Nat} {R : ℝ} {A : Nat → Nat → ℝ}
    (hA : ∀ i < s, ∀ j < s, |A i j| ≤ R) (hlow : ∀ i < s, ∀ j < s, i ≤ j → A i j = 0) {t h : ℝ} (ht : t ∈ Icc 0 T) (h0 : 0 < h)
    (hh : h * (s * (|R| * L)) ≤ ρ) {u : V} (hu : ‖u - y t‖ ≤ ρ) {k : Nat → V} (hk : ∀ i < s, k i = f (u + incr s A h k i)) :
    ∀ i < s, ‖incr s A h k i‖ ≤ ρ := by
  have both : ∀ i, i < s → ‖incr s A h k i‖ ≤ ρ ∧ ‖k i‖ ≤ L := by
    intro i
    induction i using Nat.strong_induction_on with
    | _ i ih =>
      intro hi
      have inc : ‖incr s A h k i‖ ≤ ρ := by
        rw [incr, norm_smul, Real.norm_of_nonneg h0.le]
        refine le_trans (mul_le_mul_of_nonneg_left ?_ h0.le) hh
        have each : ∀ j ∈ Finset.range s, ‖A i j • k j‖ ≤ |R| * L := by
          intro j hj
          have hj := Finset.mem_range.1 hj
          rcases Nat.lt_or_ge j i with hji | hij
          · rw [norm_smul, Real.norm_eq_abs]
            exact mul_le_mul ((hA i hi j hj).trans (le_abs_self R)) (ih j hji hj).2 (norm_nonneg _) (abs_nonneg _)
          · rw [hlow i hi j hj hij, zero_smul, norm_zero]
            exact mul_nonneg (abs_nonneg _) n.L0
        refine (norm_sum_le _ _).trans ((Finset.sum_le_sum each).trans ?_)
        simp
      refine ⟨inc, ?_⟩
      rw [hk i hi]
      refine n.bd' ht ?_
      rw [show u + incr s A h k i - y t = (u - y t) + incr s A h k i by abel]
      exact (norm_add_le _ _).trans (by linarith)
  exact fun i hi => (both i hi).1

/-- runs of explicit methods; the constants are the same for all methods with `s` stages and coefficients up to `R` -/
theorem explicit_within {f : V → V} {y : ℝ → V} {T : ℝ} {p : Nat} (hp : 1 ≤ p) (hs : SmoothSolution f y T p) (s : Nat) (R : ℝ) :
    ∃ C δ : ℝ, 0 < δ ∧ ∀ (A : Nat → Nat → ℝ) (b : Nat → ℝ) (η h : ℝ) (step : V → ℝ → V), (∀ i < s, ∀ j < s, |A i j| ≤ R) →
      (∀ i < s, |b i| ≤ R) → (∀ i < s, ∀ j < s, i ≤ j → A i j = 0) → OrderR A b s p η → 0 < h → h + η ≤ δ →
      (∀ (t h' : ℝ) (u : V), 0 ≤ t → 0 < h' → h' ≤ h → t + h' ≤ T → ∃ k : Nat → V, (∀ i < s, k i = f (u + incr s A h' k i)) ∧
        step u h' = u + h' • ∑ i ∈ Finset.range s, b i • k i) →
      RunsWithin step y T h (C * (h ^ p + η)) := by
  obtain ⟨C, δ, ρ, L, C0, δ0, near, δρ, _, H⟩ := stage_within hp hs s R one_pos
  have L0 := near.L0
  have ρ0 := near.ρ0
  set D := s * (|R| * L) with hD
  have D0 : 0 ≤ D := by positivity
  refine ⟨C, min δ (ρ / (D + 1)), lt_min δ0 (by positivity), ?_⟩
  intro A b η h step hA hb hlow hη h0 hδ hstep
  have η0 : 0 ≤ η := (abs_nonneg _).trans (hη .leaf hp)
  have := H A b η 0 h step hA hb hη le_rfl h0 (by rw [add_zero]; exact hδ.trans (min_le_left _ _)) (by
    intro t h' u t0 h'0 h'h hT hu
    obtain ⟨k, k1, k2⟩ := hstep t h' u t0 h'0 h'h hT
    refine ⟨k, explicit_stages near hA hlow ⟨t0, by linarith⟩ h'0 ?_ (by linarith) k1, fun i hi => ?_, k2⟩
    · have e : h ≤ ρ / (D + 1) := le_trans (by linarith) (hδ.trans (min_le_right _ _))
      rw [le_div_iff₀ (by linarith)] at e
      rw [← hD]
      nlinarith
    · rw [← k1 i hi]; simp)
  simpa using this

/-- an equation `z = w + c f(z)` has a solution near the solution of the differential equation when `c` is small -/
theorem implicit_exists [CompleteSpace V] {f : V → V} {y : ℝ → V} {T ρ L : ℝ} (n : Near f y T ρ L) {t : ℝ} (ht : t ∈ Icc 0 T) {u w : V}
    (hu : ‖u - y t‖ ≤ ρ) {c : ℝ} (hc : ‖w - u‖ + |c| * L ≤ ρ) (hc1 : |c| * L ≤ 1 / 2) : ∃ z, ‖z - u‖ ≤ ρ ∧ z = w + c • f z := by
  set B : Set V := Metric.closedBall u ρ with hB
  have mem : ∀ z ∈ B, ‖z - y t‖ ≤ 2 * ρ := by
    intro z hz
    have hz : ‖z - u‖ ≤ ρ := by simpa [hB, dist_eq_norm] using hz
    rw [show z - y t = (z - u) + (u - y t) by abel]
    exact (norm_add_le _ _).trans (by linarith)
  have maps : MapsTo (fun z => w + c • f z) B B := by
    intro z hz
    have h1 := n.bd' ht (mem z hz)
    rw [hB, Metric.mem_closedBall, dist_eq_norm]
    beta_reduce
    rw [show w + c • f z - u = (w - u) + c • f z by abel]
    refine (norm_add_le _ _).trans (le_trans ?_ hc)
    rw [norm_smul, Real.norm_eq_abs]
    have := mul_le_mul_of_nonneg_left h1 (abs_nonneg c)
    linarith
  have contr : ContractingWith (1 / 2) (maps.restrict (fun z => w + c • f z) B B) := by
    refine ⟨by rw [← NNReal.coe_lt_coe]; norm_num, LipschitzWith.of_dist_le_mul ?_⟩
    rintro ⟨a, ha⟩ ⟨b, hb⟩
    have h1 := n.lip' ht (mem a ha) (mem b hb)
    rw [Subtype.dist_eq, Subtype.dist_eq, dist_eq_norm, dist_eq_norm]
    simp only [MapsTo.val_restrict_apply]
    rw [show w + c • f a - (w + c • f b) = c • (f a - f b) by rw [smul_sub]; abel, norm_smul, Real.norm_eq_abs]
    have h2 := mul_le_mul_of_nonneg_left h1 (abs_nonneg c)
    have h3 := mul_le_mul_of_nonneg_right hc1 (norm_nonneg (a - b))
    push_cast
    calc _ ≤ |c| * (L * ‖a - b‖) := h2
      _ = |c| * L * ‖a - b‖ := by ring
      _ ≤ _ := h3
  have uB : u ∈ B := Metric.mem_closedBall_self n.ρ0.le
  obtain ⟨z, hz, hfix, _⟩ := contr.exists_fixedPoint' (Metric.isClosed_closedBall.isComplete) maps uB (edist_ne_top _ _)
  refine ⟨z, by simpa [hB, dist_eq_norm] using hz, hfix.symm⟩

end WxVerif.BSeries
