/-
C68 — the product of the Jacobian with a vector that the Krylov solvers use.

Along the line `t ↦ Q + t v` component `i` of the right-hand side is supposed to be a convergent power series with real coefficients
`a 0 + a 1 t + a 2 t² + …` (hypothesis `OnLine`); then `a 1` is the directional derivative of the right-hand side
(`C68_derivative`), and the theorems compare the products with `dt * a 1`.
-/
import Mathlib.Analysis.Calculus.Deriv.Basic
import Mathlib.Analysis.Calculus.Deriv.Mul
import Mathlib.Analysis.Calculus.Deriv.Abs
import Mathlib.Analysis.Calculus.Deriv.Pow
import Mathlib.Topology.Algebra.InfiniteSum.Order
import Mathlib.Topology.Algebra.InfiniteSum.NatInt
import Mathlib.Analysis.Normed.Group.InfiniteSum
import Mathlib.Analysis.Normed.Ring.InfiniteSum
import Mathlib.Analysis.SpecialFunctions.Exponential
import Verif.Model.Matvec
import Verif.Model.Schemes

namespace WxVerif.Props.Matvec

open WxVerif.Matvec WxVerif.Flux Complex

variable {ι : Type*}

/-- Component `i` of the real right-hand side `f` and of its complex version `F` are one power series with real coefficients `a` on the
disc of radius `eps` of the line through `Q` in the direction `v`; the series converges absolutely there. -/
structure OnLine (eps : ℝ) (F : (ι → ℂ) → ι → ℂ) (f : (ι → ℝ) → ι → ℝ) (Q v : ι → ℝ) (i : ι) (a : ℕ → ℝ) : Prop where
  summable : Summable fun n => |a n| * eps ^ n
  complex : ∀ z : ℂ, ‖z‖ ≤ eps → HasSum (fun n => (a n : ℂ) * z ^ n) (F (fun j => (Q j : ℂ) + z * (v j : ℂ)) i)
  real : ∀ t : ℝ, |t| ≤ eps → HasSum (fun n => a n * t ^ n) (f (fun j => Q j + t * v j) i)

theorem summable_shift {eps : ℝ} (he : 0 < eps) {a : ℕ → ℝ} (h : Summable fun n => |a n| * eps ^ n) (k : ℕ) :
    Summable fun n => |a (n + k)| * eps ^ n := by
  have h1 := (summable_nat_add_iff k).mpr h
  have h2 := h1.mul_right ((eps ^ k)⁻¹)
  refine h2.congr fun n => ?_
  have : eps ^ k ≠ 0 := pow_ne_zero _ he.ne'
  field_simp
  ring

/-- remainder after the first two terms on the real line -/
theorem real_remainder {eps : ℝ} (he : 0 < eps) {a : ℕ → ℝ} (h : Summable fun n => |a n| * eps ^ n) {t y : ℝ} (ht : |t| ≤ eps)
    (hy : HasSum (fun n => a n * t ^ n) y) : |y - a 0 - a 1 * t| ≤ t ^ 2 * ∑' n, |a (n + 2)| * eps ^ n := by
  have hs := summable_shift he h 2
  have h2 : HasSum (fun n => a (n + 2) * t ^ (n + 2)) (y - a 0 - a 1 * t) := by
    have := (hasSum_nat_add_iff' 2).mpr hy
    simpa [Finset.sum_range_succ, sub_sub] using this
  have h3 : HasSum (fun n => t ^ 2 * (|a (n + 2)| * eps ^ n)) (t ^ 2 * ∑' n, |a (n + 2)| * eps ^ n) := hs.hasSum.mul_left _
  have hb : ∀ n, ‖a (n + 2) * t ^ (n + 2)‖ ≤ t ^ 2 * (|a (n + 2)| * eps ^ n) := by
    intro n
    rw [Real.norm_eq_abs, abs_mul, abs_pow, pow_add, sq_abs]
    have : |t| ^ n ≤ eps ^ n := pow_le_pow_left₀ (abs_nonneg t) ht n
    have h5 : 0 ≤ |a (n + 2)| * t ^ 2 := by positivity
    nlinarith [mul_le_mul_of_nonneg_left this h5]
  rw [← h2.tsum_eq, ← h3.tsum_eq, ← Real.norm_eq_abs]
  exact tsum_of_norm_bounded (h3.summable.hasSum) hb

/-- **C68 (what is approximated).**  Under the hypothesis of the theorems below, `a 1` is the derivative at 0 of the right-hand side along
the line. -/
theorem C68_derivative {eps : ℝ} (he : 0 < eps) {F : (ι → ℂ) → ι → ℂ} {f : (ι → ℝ) → ι → ℝ} {Q v : ι → ℝ} {i : ι} {a : ℕ → ℝ}
    (h : OnLine eps F f Q v i a) : HasDerivAt (fun t : ℝ => f (fun j => Q j + t * v j) i) (a 1) 0 := by
  rw [hasDerivAt_iff_isLittleO_nhds_zero]
  set C := ∑' n, |a (n + 2)| * eps ^ n
  have h0 : f (fun j => Q j + 0 * v j) i = a 0 := by
    have := h.real 0 (by simpa using he.le)
    refine this.unique ?_
    have := hasSum_single (f := fun n => a n * (0 : ℝ) ^ n) 0 (by intro n hn; simp [hn])
    simpa using this
  have hO : (fun t : ℝ => f (fun j => Q j + (0 + t) * v j) i - f (fun j => Q j + 0 * v j) i - t • a 1) =O[nhds 0] fun t : ℝ => t ^ 2 := by
    refine Asymptotics.IsBigO.of_bound C ?_
    have : ∀ᶠ t : ℝ in nhds 0, |t| < eps := by
      have := Metric.ball_mem_nhds (0 : ℝ) he
      filter_upwards [this] with t ht
      simpa using ht
    filter_upwards [this] with t ht
    rw [h0, zero_add, smul_eq_mul, Real.norm_eq_abs, Real.norm_eq_abs, abs_of_nonneg (sq_nonneg t), mul_comm t, mul_comm C]
    exact real_remainder he h.summable ht.le (h.real t ht.le)
  refine hO.trans_isLittleO ?_
  have := Asymptotics.isLittleO_pow_pow (𝕜 := ℝ) (show 1 < 2 by norm_num)
  simpa using this

theorem im_pow_bound (eps : ℝ) (n : ℕ) (he : 0 ≤ eps) : |((I * (eps : ℂ)) ^ n).im| ≤ eps ^ n := by
  have := Complex.abs_im_le_norm ((I * (eps : ℂ)) ^ n)
  simpa [abs_of_nonneg he] using this

/-- **C68 (complex step).**  The complex-step product differs from `dt` times the derivative of the right-hand side in the direction of the
vector by at most `|dt| eps²` times the sum of the coefficients of order three and more. -/
theorem C68_complex_step {eps : ℝ} (he : 0 < eps) {F : (ι → ℂ) → ι → ℂ} {f : (ι → ℝ) → ι → ℝ} {Q v : ι → ℝ} {i : ι} {a : ℕ → ℝ}
    (h : OnLine eps F f Q v i a) (dt : ℝ) :
    |complexStep eps F Q dt v i - dt * deriv (fun t : ℝ => f (fun j => Q j + t * v j) i) 0|
      ≤ |dt| * eps ^ 2 * ∑' n, |a (n + 3)| * eps ^ n := by
  rw [(C68_derivative he h).deriv]
  have hc := h.complex (I * eps) (by simp [abs_of_pos he])
  have him : HasSum (fun n => a n * ((I * (eps : ℂ)) ^ n).im) (F (fun j => (Q j : ℂ) + I * eps * (v j : ℂ)) i).im := by
    have := hc.mapL Complex.imCLM
    simpa using this
  have h3 : HasSum (fun n => a (n + 3) * ((I * (eps : ℂ)) ^ (n + 3)).im) ((F (fun j => (Q j : ℂ) + I * eps * (v j : ℂ)) i).im - a 1 * eps) := by
    have := (hasSum_nat_add_iff' 3).mpr him
    have e2 : ((I * (eps : ℂ)) ^ 2).im = 0 := by
      rw [mul_pow, I_sq, ← ofReal_pow]; simp [← ofReal_pow]
    simpa [Finset.sum_range_succ, e2] using this
  have hs := summable_shift he h.summable 3
  have h4 : HasSum (fun n => eps ^ 3 * (|a (n + 3)| * eps ^ n)) (eps ^ 3 * ∑' n, |a (n + 3)| * eps ^ n) := hs.hasSum.mul_left _
  have hb : ∀ n, ‖a (n + 3) * ((I * (eps : ℂ)) ^ (n + 3)).im‖ ≤ eps ^ 3 * (|a (n + 3)| * eps ^ n) := by
    intro n
    rw [Real.norm_eq_abs, abs_mul]
    have := mul_le_mul_of_nonneg_left (im_pow_bound eps (n + 3) he.le) (abs_nonneg (a (n + 3)))
    have e : eps ^ (n + 3) = eps ^ n * eps ^ 3 := pow_add _ _ _
    rw [e] at this
    linarith [this]
  have hfin := tsum_of_norm_bounded h4 hb
  rw [h3.tsum_eq, Real.norm_eq_abs] at hfin
  have hdiv : (F (fun j => (Q j : ℂ) + I * (eps : ℂ) * (v j : ℂ)) i / (eps : ℂ)).im
      = (F (fun j => (Q j : ℂ) + I * (eps : ℂ) * (v j : ℂ)) i).im / eps := Complex.div_ofReal_im _ _
  unfold complexStep
  rw [hdiv]
  set y := (F (fun j => (Q j : ℂ) + I * (eps : ℂ) * (v j : ℂ)) i).im
  have : dt * (y / eps) - dt * a 1 = dt * ((y - a 1 * eps) / eps) := by field_simp
  rw [this, abs_mul, abs_div, abs_of_pos he, mul_assoc]
  refine mul_le_mul_of_nonneg_left ?_ (abs_nonneg dt)
  rw [div_le_iff₀ he]
  calc _ ≤ _ := hfin
    _ = _ := by ring

/-- **C68 (finite differences).**  The finite-difference product differs from it by at most `|dt| eps` times the sum of the coefficients of
order two and more. -/
theorem C68_finite_difference {eps : ℝ} (he : 0 < eps) {F : (ι → ℂ) → ι → ℂ} {f : (ι → ℝ) → ι → ℝ} {Q v : ι → ℝ} {i : ι} {a : ℕ → ℝ}
    (h : OnLine eps F f Q v i a) (dt : ℝ) :
    |finiteDiff eps f Q (f Q) dt v i - dt * deriv (fun t : ℝ => f (fun j => Q j + t * v j) i) 0|
      ≤ |dt| * eps * ∑' n, |a (n + 2)| * eps ^ n := by
  rw [(C68_derivative he h).deriv]
  have hr := real_remainder he h.summable (by rw [abs_of_pos he]) (h.real eps (by rw [abs_of_pos he]))
  have h0 : f Q i = a 0 := by
    have h1 := h.real 0 (by simpa using he.le)
    have h2 := hasSum_single (f := fun n => a n * (0 : ℝ) ^ n) 0 (by intro n hn; simp [hn])
    simpa using h1.unique h2
  unfold finiteDiff
  rw [h0]
  set y := f (fun j => Q j + eps * v j) i
  have : dt * (y - a 0) / eps - dt * a 1 = dt * ((y - a 0 - a 1 * eps) / eps) := by field_simp
  rw [this, abs_mul, abs_div, abs_of_pos he, mul_assoc]
  refine mul_le_mul_of_nonneg_left ?_ (abs_nonneg dt)
  rw [div_le_iff₀ he]
  calc _ ≤ _ := hr
    _ = _ := by ring

/-- A quadratic polynomial map with real coefficients, over any commutative ring that the reals map to. -/
def quadMap {ι : Type*} [Fintype ι] {R : Type*} [CommSemiring R] (emb : ℝ → R) (c : ι → ℝ) (L : ι → ι → ℝ) (B : ι → ι → ι → ℝ) (Q : ι → R)
    (i : ι) : R :=
  emb (c i) + ∑ j, emb (L i j) * Q j + ∑ j, ∑ k, emb (B i j k) * Q j * Q k

/-- **C68 (exactness).**  For a right-hand side with quadratic nonlinearities the complex-step product is the Jacobian product exactly, whatever
the increment; it is therefore linear in the vector. -/
theorem C68_complex_quadratic [Fintype ι] {eps : ℝ} (he : eps ≠ 0) (c : ι → ℝ) (L : ι → ι → ℝ) (B : ι → ι → ι → ℝ) (Q : ι → ℝ) (dt : ℝ)
    (v : ι → ℝ) (i : ι) :
    complexStep eps (quadMap Complex.ofReal c L B) Q dt v i
      = dt * (∑ j, L i j * v j + ∑ j, ∑ k, B i j k * (Q j * v k + v j * Q k)) := by
  unfold complexStep quadMap
  rw [Complex.div_ofReal_im]
  have e1 : (∑ j, (L i j : ℂ) * ((Q j : ℂ) + I * eps * v j)).im = eps * ∑ j, L i j * v j := by
    rw [Complex.im_sum, Finset.mul_sum]
    refine Finset.sum_congr rfl fun j _ => ?_
    simp; ring
  have e2 : (∑ j, ∑ k, (B i j k : ℂ) * ((Q j : ℂ) + I * eps * v j) * ((Q k : ℂ) + I * eps * v k)).im
      = eps * ∑ j, ∑ k, B i j k * (Q j * v k + v j * Q k) := by
    rw [Complex.im_sum, Finset.mul_sum]
    refine Finset.sum_congr rfl fun j _ => ?_
    rw [Complex.im_sum, Finset.mul_sum]
    refine Finset.sum_congr rfl fun k _ => ?_
    simp; ring
  rw [Complex.add_im, Complex.add_im, e1, e2, Complex.ofReal_im]
  field_simp
  ring

/-- The finite-difference product of the same map: it carries the second-order term, multiplied by the increment, so it is not linear in the
vector unless the quadratic part vanishes. -/
theorem C68_fd_quadratic [Fintype ι] {eps : ℝ} (he : eps ≠ 0) (c : ι → ℝ) (L : ι → ι → ℝ) (B : ι → ι → ι → ℝ) (Q : ι → ℝ) (dt : ℝ)
    (v : ι → ℝ) (i : ι) :
    finiteDiff eps (quadMap id c L B) Q (quadMap id c L B Q) dt v i
      = dt * (∑ j, L i j * v j + ∑ j, ∑ k, B i j k * (Q j * v k + v j * Q k)) + dt * eps * ∑ j, ∑ k, B i j k * v j * v k := by
  unfold finiteDiff quadMap
  have e1 : ∑ j, L i j * (Q j + eps * v j) = ∑ j, L i j * Q j + eps * ∑ j, L i j * v j := by
    rw [Finset.mul_sum, ← Finset.sum_add_distrib]
    exact Finset.sum_congr rfl fun j _ => by ring
  have e2 : ∑ j, ∑ k, B i j k * (Q j + eps * v j) * (Q k + eps * v k) = ∑ j, ∑ k, B i j k * Q j * Q k
      + eps * ∑ j, ∑ k, B i j k * (Q j * v k + v j * Q k) + eps * (eps * ∑ j, ∑ k, B i j k * v j * v k) := by
    simp only [Finset.mul_sum, ← Finset.sum_add_distrib]
    exact Finset.sum_congr rfl fun j _ => Finset.sum_congr rfl fun k _ => by ring
  simp only [id]
  rw [e1, e2]
  field_simp
  ring

/-- **C68 (which method).**  Only the exact word selects the complex step; every other value of the option, misspelt ones included, silently
selects finite differences. -/
theorem C68_method (method : String) (F : (ι → ℂ) → ι → ℂ) (f : (ι → ℝ) → ι → ℝ) (Q rhs : ι → ℝ) (dt : ℝ) (v : ι → ℝ) :
    (method = "complex" → matvecFun method F f Q rhs dt v = complexStep (2⁻¹ ^ 26) F Q dt v) ∧
    (method ≠ "complex" → matvecFun method F f Q rhs dt v = finiteDiff (Real.sqrt (2⁻¹ ^ 23)) f Q rhs dt v) := by
  constructor <;> intro h <;> simp [matvecFun, h, epsComplex, epsFd]

/-- The operator of the rational integrators is `v − ½ dt J v` for an affine right-hand side. -/
theorem C68_rational [Fintype ι] (c : ι → ℝ) (L : ι → ι → ℝ) (Q : ι → ℝ) (dt : ℝ) (v : ι → ℝ) (i : ι) :
    matvecRat (quadMap id c L fun _ _ _ => 0) Q (quadMap id c L (fun _ _ _ => 0) Q) dt v i = v i - 1 / 2 * (dt * ∑ j, L i j * v j) := by
  have he : epsFd ≠ 0 := (Real.sqrt_pos.mpr (by positivity)).ne'
  unfold matvecRat
  rw [C68_fd_quadratic he]
  norm_num

/-! ## The Rusanov flux on complex states -/

theorem cmax_ofReal (a b : ℝ) : cmax a b = ((max a b : ℝ) : ℂ) := by
  unfold cmax
  rcases lt_or_ge a b with h | h
  · simp [h, max_eq_right h.le]
  · simp [not_lt.mpr h, max_eq_left h]

theorem csqrt_ofReal {x : ℝ} (hx : 0 ≤ x) : csqrt x = (Real.sqrt x : ℂ) := by
  unfold csqrt
  rw [Real.sqrt_eq_rpow, Complex.ofReal_cpow hx]
  norm_num

/-- On real states the complex flux is the real flux: the complex-step method evaluates an extension of the same function. -/
theorem C68_real_states (adv : Bool) (l r : Side3) (i : Nat) (hl : 0 ≤ l.h 0 0 * heatCapacityRatio * l.pres / l.var 0)
    (hr : 0 ≤ r.h 0 0 * heatCapacityRatio * r.pres / r.var 0) :
    rusanovC adv (Side3C.ofReal l) (Side3C.ofReal r) i = ((rusanovHoriI adv l r).1.flux i : ℂ) := by
  have el : csqrt ((l.h 0 0 : ℂ) * heatCapacityRatio * l.pres / l.var 0) = (Real.sqrt (l.h 0 0 * heatCapacityRatio * l.pres / l.var 0) : ℂ) := by
    rw [← csqrt_ofReal hl]; push_cast; rfl
  have er : csqrt ((r.h 0 0 : ℂ) * heatCapacityRatio * r.pres / r.var 0) = (Real.sqrt (r.h 0 0 * heatCapacityRatio * r.pres / r.var 0) : ℂ) := by
    rw [← csqrt_ofReal hr]; push_cast; rfl
  unfold rusanovC rusanovHoriI Side3C.ofReal cabs
  cases adv
  · simp only [el, er, Bool.false_eq_true, if_false]
    rw [show (‖(l.vel : ℂ)‖ : ℝ) = |l.vel| by simp, show (‖(r.vel : ℂ)‖ : ℝ) = |r.vel| by simp, ← ofReal_add, ← ofReal_add, cmax_ofReal]
    by_cases h1 : i = 1 <;> by_cases h2 : i = 2 <;> by_cases h3 : i = 3 <;> simp [h1, h2, h3] <;> push_cast <;> ring
  · simp only [if_true]
    rw [show (‖(l.vel : ℂ)‖ : ℝ) = |l.vel| by simp, show (‖(r.vel : ℂ)‖ : ℝ) = |r.vel| by simp, cmax_ofReal]
    by_cases h1 : i = 1 <;> by_cases h2 : i = 2 <;> by_cases h3 : i = 3 <;> simp [h1, h2, h3] <;> push_cast <;> ring

/-- one side of a face with density `rho`, pressure `p`, normal velocity `u`, unit metric and no other field -/
noncomputable def plain (rho p u : ℝ) : Side3 := ⟨fun i => if i = 0 then rho else 0, p, u, 1, fun _ _ => 1⟩

/-- the same with a complex velocity -/
noncomputable def plainC (rho p : ℝ) (u : ℂ) : Side3C := ⟨fun i => if i = 0 then (rho : ℂ) else 0, p, u, 1, fun _ _ => 1⟩

/-- mass flux through a face as a function of the wind, the densities and the pressure being fixed, on complex and on real winds -/
noncomputable def massFluxC (rl rr p : ℝ) (u : Unit → ℂ) (_ : Unit) : ℂ := rusanovC false (plainC rl p (u ())) (plainC rr p (u ())) 0

noncomputable def massFlux (rl rr p : ℝ) (u : Unit → ℝ) (_ : Unit) : ℝ := (rusanovHoriI false (plain rl p (u ())) (plain rr p (u ()))).1.flux 0

/-- the two agree on real winds, so they are a right-hand side and its complex version -/
theorem massFlux_extends {rl rr p : ℝ} (hl : 0 < rl) (hr : 0 < rr) (hp : 0 < p) (u : Unit → ℝ) (i : Unit) :
    massFluxC rl rr p (fun j => (u j : ℂ)) i = (massFlux rl rr p u i : ℂ) := by
  have hg : 0 < heatCapacityRatio := by unfold heatCapacityRatio cvd cpd Rd; norm_num
  have := C68_real_states false (plain rl p (u ())) (plain rr p (u ())) 0 (by simp only [plain, if_true]; positivity)
    (by simp only [plain, if_true]; positivity)
  unfold massFluxC massFlux
  rw [← this]
  congr 1
  · simp only [plainC, plain, Side3C.ofReal]
    congr 1
    funext k
    split <;> simp
  · simp only [plainC, plain, Side3C.ofReal]
    congr 1
    funext k
    split <;> simp

theorem massFlux_eq (rl rr p u : ℝ) : massFlux rl rr p (fun _ => u) () = 0.5 * (u * rl + u * rr
    - (|u| + max (Real.sqrt (heatCapacityRatio * p / rl)) (Real.sqrt (heatCapacityRatio * p / rr))) * (rr - rl)) := by
  unfold massFlux rusanovHoriI plain
  simp [max_add_add_left]

theorem massFluxC_eq {rl rr p : ℝ} (hl : 0 < rl) (hr : 0 < rr) (hp : 0 < p) (u : ℂ) : massFluxC rl rr p (fun _ => u) () = 0.5 * (u * rl + u * rr
    - ((‖u‖ + max (Real.sqrt (heatCapacityRatio * p / rl)) (Real.sqrt (heatCapacityRatio * p / rr)) : ℝ) : ℂ) * (rr - rl)) := by
  have hg : 0 < heatCapacityRatio := by unfold heatCapacityRatio cvd cpd Rd; norm_num
  have el : csqrt (((1 : ℝ) : ℂ) * heatCapacityRatio * p / rl) = (Real.sqrt (heatCapacityRatio * p / rl) : ℂ) := by
    rw [← csqrt_ofReal (by positivity)]; push_cast; rw [one_mul]
  have er : csqrt (((1 : ℝ) : ℂ) * heatCapacityRatio * p / rr) = (Real.sqrt (heatCapacityRatio * p / rr) : ℂ) := by
    rw [← csqrt_ofReal (by positivity)]; push_cast; rw [one_mul]
  unfold massFluxC rusanovC plainC cabs
  simp only [Bool.false_eq_true, if_false, if_true, el, er]
  rw [← ofReal_add, ← ofReal_add, cmax_ofReal, max_add_add_left]
  simp

/-- **C68 (what the complex step loses).**  The 3D flux takes the modulus of the complex wind, which has no imaginary part: the derivative of
`|u|` in the dissipation is lost.  For every positive density on both sides, pressure, wind `u ≠ 0`, perturbation `v` and step, the
complex-step product of the mass flux exceeds the Jacobian product by `½ dt sign(u) v (ρ_r − ρ_l)`, a term that does not shrink with the
increment. -/
theorem C68_rusanov_lost {eps rl rr p u : ℝ} (he : 0 < eps) (hl : 0 < rl) (hr : 0 < rr) (hp : 0 < p) (hu : u ≠ 0) (dt v : ℝ) :
    complexStep eps (massFluxC rl rr p) (fun _ => u) dt (fun _ => v) ()
      = dt * deriv (fun t : ℝ => massFlux rl rr p (fun _ => u + t * v) ()) 0 + 1 / 2 * dt * (SignType.sign u : ℝ) * v * (rr - rl) := by
  set c := max (Real.sqrt (heatCapacityRatio * p / rl)) (Real.sqrt (heatCapacityRatio * p / rr)) with hcdef
  have hd : HasDerivAt (fun t : ℝ => massFlux rl rr p (fun _ => u + t * v) ())
      (0.5 * (v * rl + v * rr - (SignType.sign u : ℝ) * v * (rr - rl))) 0 := by
    have h1 : HasDerivAt (fun t : ℝ => u + t * v) v 0 := by
      simpa using HasDerivAt.const_add u ((hasDerivAt_id (0 : ℝ)).mul_const v)
    have h2 : HasDerivAt (fun t : ℝ => |u + t * v|) ((SignType.sign u : ℝ) * v) 0 := by
      have := HasDerivAt.comp (0 : ℝ) (hasDerivAt_abs (x := u + 0 * v) (by simpa using hu)) h1
      simpa [Function.comp_def] using this
    have h3 := (((h1.mul_const rl).add (h1.mul_const rr)).sub ((HasDerivAt.add_const c h2).mul_const (rr - rl))).const_mul (0.5 : ℝ)
    refine h3.congr_of_eventuallyEq (Filter.Eventually.of_forall fun t => ?_)
    simp only [massFlux_eq, Pi.add_apply, Pi.sub_apply, ← hcdef]
  rw [hd.deriv]
  unfold complexStep
  have hF := massFluxC_eq hl hr hp ((u : ℂ) + I * eps * v)
  rw [hF, Complex.div_ofReal_im]
  have : ((0.5 : ℂ) * (((u : ℂ) + I * eps * v) * rl + ((u : ℂ) + I * eps * v) * rr
      - ((‖(u : ℂ) + I * eps * v‖ + max (Real.sqrt (heatCapacityRatio * p / rl)) (Real.sqrt (heatCapacityRatio * p / rr)) : ℝ) : ℂ)
        * (rr - rl))).im = 0.5 * (eps * v * rl + eps * v * rr) := by
    rw [show (0.5 : ℂ) = ((0.5 : ℝ) : ℂ) by norm_num, Complex.im_ofReal_mul]
    simp
  rw [this]
  field_simp
  ring

/-- **C68 fails for the 3D model**: with wind 1, densities 1 and 2, the complex-step product of the mass flux is not the Jacobian product,
for any increment. -/
theorem C68_complex_rusanov_fails {eps : ℝ} (he : 0 < eps) :
    complexStep eps (massFluxC 1 2 1) (fun _ => 1) 1 (fun _ => 1) ()
      ≠ 1 * deriv (fun t : ℝ => massFlux 1 2 1 (fun _ => 1 + t * 1) ()) 0 := by
  rw [C68_rusanov_lost he one_pos two_pos one_pos one_ne_zero]
  norm_num

/-! ## The upwind switch of the AUSM fluxes on complex states -/

/-- **C68 (upwind switch).**  The shallow-water and Cartesian fluxes use `maximum(0, M)` and `minimum(0, M)` of the face Mach number.  On a
complex state the lexicographic comparison gives, for `M ≠ 0`, the derivative of the real function, and at `M = 0` (a state at rest) its
one-sided derivative in the direction of the perturbation. -/
theorem C68_upwind {eps : ℝ} (he : 0 < eps) (M v : ℝ) :
    HasDerivWithinAt (fun t : ℝ => max 0 (M + t * v)) ((cmax 0 ((M : ℂ) + I * eps * v)) / (eps : ℂ)).im (Set.Ici 0) 0 ∧
    HasDerivWithinAt (fun t : ℝ => min 0 (M + t * v)) ((cmin 0 ((M : ℂ) + I * eps * v)) / (eps : ℂ)).im (Set.Ici 0) 0 := by
  have hline : HasDerivAt (fun t : ℝ => M + t * v) v 0 := by
    simpa using HasDerivAt.const_add M ((hasDerivAt_id (0 : ℝ)).mul_const v)
  have hcont : Filter.Tendsto (fun t : ℝ => M + t * v) (nhds 0) (nhds M) := by
    have := hline.continuousAt.tendsto; simpa using this
  have hzero : HasDerivAt (fun _ : ℝ => (0 : ℝ)) 0 0 := hasDerivAt_const _ _
  have hre : ((M : ℂ) + I * eps * v).re = M := by simp
  have him : ((M : ℂ) + I * eps * v).im = eps * v := by simp
  have hdiv : (((M : ℂ) + I * eps * v) / (eps : ℂ)).im = v := by
    rw [Complex.div_ofReal_im, him]; field_simp
  rcases lt_trichotomy M 0 with h | h | h
  · have ev : ∀ᶠ t : ℝ in nhds 0, M + t * v < 0 := hcont.eventually (gt_mem_nhds h)
    constructor
    · have : cmax 0 ((M : ℂ) + I * eps * v) = 0 := by
        unfold cmax; rw [hre]; simp [not_lt.mpr h.le, h.ne']
      rw [this]
      simpa using (hzero.congr_of_eventuallyEq (ev.mono fun t ht => max_eq_left ht.le)).hasDerivWithinAt
    · have : cmin 0 ((M : ℂ) + I * eps * v) = (M : ℂ) + I * eps * v := by
        unfold cmin; rw [hre]; simp [h]
      rw [this, hdiv]
      exact (hline.congr_of_eventuallyEq (ev.mono fun t ht => min_eq_right ht.le)).hasDerivWithinAt
  · subst h
    rcases le_or_gt v 0 with hv | hv
    · constructor
      · have : cmax 0 (((0 : ℝ) : ℂ) + I * eps * v) = 0 := by
          unfold cmax; rw [hre, him]
          rw [if_neg]
          simp [not_lt.mpr (mul_nonpos_of_nonneg_of_nonpos he.le hv)]
        rw [this]
        have h0 : HasDerivWithinAt (fun _ : ℝ => (0 : ℝ)) 0 (Set.Ici 0) 0 := hzero.hasDerivWithinAt
        have := h0.congr (f₁ := fun t : ℝ => max 0 (0 + t * v)) (fun t ht => by
          have : 0 + t * v ≤ 0 := by nlinarith [Set.mem_Ici.mp ht]
          exact max_eq_left this) (by simp)
        simpa using this
      · have hl : (cmin 0 (((0 : ℝ) : ℂ) + I * eps * v) / (eps : ℂ)).im = v := by
          rcases hv.lt_or_eq with hv' | hv'
          · have : cmin 0 (((0 : ℝ) : ℂ) + I * eps * v) = ((0 : ℝ) : ℂ) + I * eps * v := by
              unfold cmin; rw [hre, him, if_pos]
              right
              exact ⟨by simp, by simpa using mul_neg_of_pos_of_neg he hv'⟩
            rw [this, hdiv]
          · subst hv'
            simp [cmin]
        rw [hl]
        exact hline.hasDerivWithinAt.congr (fun t ht => by
          have : 0 + t * v ≤ 0 := by nlinarith [Set.mem_Ici.mp ht]
          exact min_eq_right this) (by simp)
    · constructor
      · have : cmax 0 (((0 : ℝ) : ℂ) + I * eps * v) = ((0 : ℝ) : ℂ) + I * eps * v := by
          unfold cmax; rw [hre, him, if_pos]
          right
          exact ⟨by simp, by simpa using mul_pos he hv⟩
        rw [this, hdiv]
        exact hline.hasDerivWithinAt.congr (fun t ht => by
          have : 0 ≤ 0 + t * v := by nlinarith [Set.mem_Ici.mp ht]
          exact max_eq_right this) (by simp)
      · have : cmin 0 (((0 : ℝ) : ℂ) + I * eps * v) = 0 := by
          unfold cmin; rw [hre, him, if_neg]
          simp [not_lt.mpr (mul_nonneg he.le hv.le)]
        rw [this]
        have h0 : HasDerivWithinAt (fun _ : ℝ => (0 : ℝ)) 0 (Set.Ici 0) 0 := hzero.hasDerivWithinAt
        have := h0.congr (f₁ := fun t : ℝ => min 0 (0 + t * v)) (fun t ht => by
          have : 0 ≤ 0 + t * v := by nlinarith [Set.mem_Ici.mp ht]
          exact min_eq_left this) (by simp)
        simpa using this
  · have ev : ∀ᶠ t : ℝ in nhds 0, 0 < M + t * v := hcont.eventually (lt_mem_nhds h)
    constructor
    · have : cmax 0 ((M : ℂ) + I * eps * v) = (M : ℂ) + I * eps * v := by
        unfold cmax; rw [hre]; simp [h]
      rw [this, hdiv]
      exact (hline.congr_of_eventuallyEq (ev.mono fun t ht => max_eq_right ht.le)).hasDerivWithinAt
    · have : cmin 0 ((M : ℂ) + I * eps * v) = 0 := by
        unfold cmin; rw [hre]; simp [not_lt.mpr h.le, h.ne']
      rw [this]
      simpa using (hzero.congr_of_eventuallyEq (ev.mono fun t ht => min_eq_left ht.le)).hasDerivWithinAt

/-! ## The hypotheses are met -/

/-- A cubic right-hand side meets `OnLine` on every line. -/
example (eps : ℝ) (he : 0 < eps) (Q v : Unit → ℝ) :
    OnLine eps (fun q _ => (q ()) ^ 3) (fun q _ => (q ()) ^ 3) Q v ()
      (fun n => if n = 0 then Q () ^ 3 else if n = 1 then 3 * Q () ^ 2 * v () else if n = 2 then 3 * Q () * v () ^ 2
        else if n = 3 then v () ^ 3 else 0) where
  summable := by
    refine summable_of_ne_finset_zero (s := Finset.range 4) fun n hn => ?_
    have : 4 ≤ n := by simpa using hn
    rw [if_neg (by omega), if_neg (by omega), if_neg (by omega), if_neg (by omega)]; simp
  complex := by
    intro z _
    have := hasSum_sum_of_ne_finset_zero (L := SummationFilter.unconditional ℕ) (s := Finset.range 4) (f := fun n => (((if n = 0 then Q () ^ 3 else if n = 1 then 3 * Q () ^ 2 * v ()
      else if n = 2 then 3 * Q () * v () ^ 2 else if n = 3 then v () ^ 3 else 0 : ℝ)) : ℂ) * z ^ n) (fun n hn => by
        have : 4 ≤ n := by simpa using hn
        rw [if_neg (by omega), if_neg (by omega), if_neg (by omega), if_neg (by omega)]; simp)
    convert this using 1
    simp [Finset.sum_range_succ]
    ring
  real := by
    intro t _
    have := hasSum_sum_of_ne_finset_zero (L := SummationFilter.unconditional ℕ) (s := Finset.range 4) (f := fun n => (if n = 0 then Q () ^ 3 else if n = 1 then 3 * Q () ^ 2 * v ()
      else if n = 2 then 3 * Q () * v () ^ 2 else if n = 3 then v () ^ 3 else 0 : ℝ) * t ^ n) (fun n hn => by
        have : 4 ≤ n := by simpa using hn
        rw [if_neg (by omega), if_neg (by omega), if_neg (by omega), if_neg (by omega)]; simp)
    convert this using 1
    simp [Finset.sum_range_succ]
    ring

end WxVerif.Props.Matvec
