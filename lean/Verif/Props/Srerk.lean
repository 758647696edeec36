import Verif.Model.Srerk
import Verif.Props.Epi
import Mathlib.Algebra.Group.ForwardDiff
import Mathlib.Analysis.SpecialFunctions.Integrals.Basic
import Mathlib.Tactic.Module

/-!
# Exponential integrators on affine problems, and the stages of SRERK (C56)
-/

namespace WxVerif.Props.Srerk

open WxVerif.Srerk WxVerif.Multistep
open WxVerif.Epi (alphaCoeff)

variable {K : Type*} {V : Type*}

/-! ## Exactness on affine problems -/

section affine
variable [Field K] [AddCommGroup V] [Module K V]

/-- the flow of an affine problem `y' = J y + g` written with the exponential function: `flow h y = y + h φ_1(hJ) (J y + g)`;
    `P h` stands for `φ_1(hJ)`.  The only thing asked of it is that the flow is one. -/
structure AffineFlow (J : V →ₗ[K] V) (g : V) (P : K → V → V) : Prop where
  law : ∀ (a b : K) (y : V), (y + a • P a (J y + g)) + b • P b (J (y + a • P a (J y + g)) + g) =
    y + (a + b) • P (a + b) (J y + g)

/-- the exact solution of the affine problem after time `h` -/
def flow (J : V →ₗ[K] V) (g : V) (P : K → V → V) (h : K) (y : V) : V := y + h • P h (J y + g)

theorem flow_flow {J : V →ₗ[K] V} {g : V} {P : K → V → V} (hP : AffineFlow J g P) (a b : K) (y : V) :
    flow J g P b (flow J g P a y) = flow J g P (a + b) y := hP.law a b y

theorem flow_zero (J : V →ₗ[K] V) (g : V) (P : K → V → V) (y : V) : flow J g P 0 y = y := by simp [flow]

/-- **C56**, multistep exponential integrators: for an affine problem, with exact Jacobian products and an exponential solver
    that is exact on the vector `(0, f, 0, …, 0)`, the states of every run with every sequence of step sizes are the exact
    solution at the times `Σ dt`. -/
theorem C56_epi_affine [LinearOrder K] [CharZero K] (cfg : Epi.Cfg K) (wf : Props.Epi.WellFormed cfg) (ext : Epi.Ext K V)
    (J : V →ₗ[K] V) (g : V) (P : K → V → V) (hP : AffineFlow J g P)
    (hrhs : ∀ y, ext.rhs y = J y + g) (hjac : ∀ Q v, ext.jac Q v = J v)
    (hphi : ∀ Q dt f n, ext.phi Q dt ((List.range (n + 1)).map fun row => if row = 1 then f else 0) = P dt f)
    (hinit : ∀ y h, ext.initStep y h = flow J g P h y) (dts : Nat → K) (Q0 : V) (n : Nat) :
    ∃ st, Epi.run cfg ext dts Q0 n = some (st, flow J g P (∑ i ∈ Finset.range n, dts i) Q0) := by
  obtain ⟨q, h0, h1, h2⟩ := Props.Epi.C24_multistep cfg wf ext dts Q0
  have hq : ∀ n, q n = flow J g P (∑ i ∈ Finset.range n, dts i) Q0 := by
    intro n
    induction n with
    | zero => simp [h0, flow_zero]
    | succ n ih =>
      have step : q (n + 1) = flow J g P (dts n) (q n) := by
        by_cases hu : Uninterrupted dts n cfg.nPrev
        · rw [(h2 n).1 hu]
          have hv : Props.Epi.multistepVectors cfg ext (q n) (fun i => q (n - 1 - i)) =
              (List.range (cfg.maxPhi + 1)).map fun row => if row = 1 then ext.rhs (q n) else 0 := by
            unfold Props.Epi.multistepVectors
            apply List.map_congr_left
            intro row _
            have hr : ∀ p, Props.Epi.remainder ext (q n) p = 0 := by
              intro p
              unfold Props.Epi.remainder
              rw [hrhs, hrhs, hjac, map_sub]; abel
            simp [hr]
          rw [hv, hphi, hrhs]
          rfl
        · rw [(h2 n).2 hu]
          have hs : (cfg.substeps : K) ≠ 0 := by exact_mod_cast wf.sub.ne'
          have hf : (fun x => ext.initStep x (dts n / (cfg.substeps : K))) =
              flow J g P (dts n / (cfg.substeps : K)) := by funext x; rw [hinit]
          rw [hf]
          have it : ∀ (m : Nat) (h : K) (y : V), (flow J g P h)^[m] y = flow J g P ((m : K) * h) y := by
            intro m h
            induction m with
            | zero => intro y; simp [flow_zero]
            | succ m ihm =>
              intro y
              rw [Function.iterate_succ_apply, ihm, flow_flow hP]
              congr 1
              push_cast; ring
          rw [it]
          congr 1
          field_simp
      rw [step, ih, flow_flow hP, Finset.sum_range_succ]
  obtain ⟨st, hst⟩ := h1 n
  exact ⟨st, by rw [hst, hq]⟩

theorem matRows_zero (alpha : List (List K)) (rz : List V) (h : ∀ r ∈ rz, r = 0) :
    matRows alpha rz = alpha.map fun _ => 0 := by
  unfold matRows
  apply List.map_congr_left
  intro row _
  apply List.sum_eq_zero
  intro x hx
  obtain ⟨i, hi, rfl⟩ := List.mem_iff_getElem.1 hx
  simp only [List.getElem_zipWith]
  rw [h _ (List.getElem_mem _), smul_zero]

/-- **C56**, exponential Runge-Kutta integrators: for an affine problem, with exact Jacobian products and an exponential
    solver that is exact on `(0, f, 0, …, 0)`, one step is the exact solution, for every choice of nodes whose last
    projection is the end of the step. -/
theorem C56_srerk_affine (c : List (List K)) (ext : Ext K V) (J : V →ₗ[K] V) (g : V) (P : K → V → V)
    (hrhs : ∀ y, ext.rhs y = J y + g) (hjac : ∀ Q v, ext.jac Q v = J v)
    (hphi : ∀ nodes Q dt f n, ext.phi nodes Q dt ([0, f] ++ List.replicate n 0) =
      nodes.map fun t => t • P (t * dt) f)
    (hc : c.getLast? = some [1]) (Q : V) (dt : K) :
    step c ext Q dt = some (flow J g P dt Q) := by
  have proj : ∀ (prev : List K) (nodes : List K) (z : List V),
      project ext Q dt (ext.rhs Q) (alphaCoeff prev) nodes z = nodes.map fun t => t • P (t * dt) (ext.rhs Q) := by
    intro prev nodes z
    simp only [project]
    rw [matRows_zero]
    · rw [show [0, ext.rhs Q, 0] ++ (alphaCoeff prev).map (fun _ => (0 : V)) =
        [0, ext.rhs Q] ++ List.replicate ((alphaCoeff prev).length + 1) 0 by
          simp [List.replicate_succ, List.map_const'], hphi]
    · intro r hr
      obtain ⟨v, _, rfl⟩ := List.mem_map.1 hr
      rw [hrhs, hrhs, hjac, map_sub]; abel
  have loop : ∀ (rest : List (List K)) (prev : List K) (z : List V),
      z = prev.map (fun t => t • P (t * dt) (ext.rhs Q)) →
      projections ext Q dt (ext.rhs Q) prev rest z =
        ((prev :: rest).getLast (by simp)).map fun t => t • P (t * dt) (ext.rhs Q) := by
    intro rest
    induction rest with
    | nil => intro prev z hz; simpa [projections] using hz
    | cons nodes rest ih =>
      intro prev z _
      rw [projections, ih nodes _ (proj prev nodes z)]
      simp
  cases c with
  | nil => simp at hc
  | cons c0 rest =>
    have h0 : ext.phi c0 Q dt [0, ext.rhs Q] = c0.map fun t => t • P (t * dt) (ext.rhs Q) := by
      simpa using hphi c0 Q dt (ext.rhs Q) 0
    have hl : (c0 :: rest).getLast (by simp) = [1] := by
      rw [List.getLast?_eq_getLast_of_ne_nil (by simp)] at hc
      exact Option.some.inj hc
    unfold step
    simp only [loop rest c0 _ h0, hl, List.map_cons, List.map_nil, one_smul, one_mul, flow]
    rw [hrhs]

/-- non-vacuity: `J (a, b) = (b, 0)` is nilpotent, `φ_1(hJ) = I + hJ/2`, and this is a flow for every `g` -/
example (g : ℚ × ℚ) : ∃ J : ℚ × ℚ →ₗ[ℚ] ℚ × ℚ, J ≠ 0 ∧
    AffineFlow J g fun h v => v + (h / 2) • J v := by
  refine ⟨(LinearMap.inl ℚ ℚ ℚ).comp (LinearMap.snd ℚ ℚ ℚ), ?_, ⟨?_⟩⟩
  · intro h
    have := congrArg (fun L => (L ((0 : ℚ), (1 : ℚ))).1) h
    simp at this
  · intro a b y
    ext
    · simp; ring
    · simp; ring

end affine

/-! ## The vectors of the stages -/

section stages
variable [Field K] [AddCommGroup V] [Module K V]
open Polynomial

theorem zipWith_sum {α β M : Type*} [AddCommMonoid M] (f : α → β → M) (a0 : α) (b0 : β) (l1 : List α) :
    ∀ (l2 : List β), l1.length = l2.length →
    (List.zipWith f l1 l2).sum = ∑ i ∈ Finset.range l2.length, f (l1.getD i a0) (l2.getD i b0) := by
  induction l1 with
  | nil => intro l2 h; cases l2 <;> simp_all
  | cons a l1 ih =>
    intro l2 h
    cases l2 with
    | nil => simp at h
    | cons b l2 =>
      simp only [List.length_cons, Nat.add_right_cancel_iff] at h
      rw [List.zipWith_cons_cons, List.sum_cons, ih l2 h, List.length_cons, Finset.sum_range_succ', add_comm]
      simp

/-- **C56**: if the nonlinear remainder at the node `s` is `Σ_m s^{m+2} b_m` (with fewer terms than nodes), the rows given
    to the exponential solver from the third on are `(k+2)! b_k`, the derivatives of the remainder. -/
theorem C56_stage_vectors (c : List K) (hnd : c.Nodup) (hnz : ∀ x ∈ c, x ≠ 0) (b : Nat → V) :
    matRows (alphaCoeff c) (c.map fun s => ∑ m ∈ Finset.range c.length, s ^ (m + 2) • b m) =
      (List.range c.length).map fun k => ((k + 2).factorial : K) • b k := by
  unfold matRows
  apply List.ext_getElem
  · simp [alphaCoeff]
  intro k h1 h2
  have hk : k < c.length := by simpa using h2
  simp only [List.getElem_map, List.getElem_range]
  have hrow : (alphaCoeff c)[k]'(by simpa [alphaCoeff] using hk) = (alphaCoeff c).getD k [] := by
    rw [List.getD_eq_getElem]
  have hlen : ((alphaCoeff c).getD k []).length = c.length := by
    rw [← hrow]; simp [alphaCoeff]
  rw [hrow]
  rw [zipWith_sum _ 0 0 _ _ (by rw [hlen]; simp)]
  have hget : ∀ i ∈ Finset.range c.length,
      (c.map fun s => ∑ m ∈ Finset.range c.length, s ^ (m + 2) • b m).getD i 0 =
        ∑ m ∈ Finset.range c.length, (c.getD i 0) ^ (m + 2) • b m := by
    intro i hi
    have hi' := Finset.mem_range.1 hi
    rw [List.getD_eq_getElem _ _ (by simpa using hi'), List.getElem_map, List.getD_eq_getElem _ _ hi']
  have key : ∀ m ∈ Finset.range c.length, ∑ i ∈ Finset.range c.length,
      ((alphaCoeff c).getD k []).getD i 0 * (c.getD i 0) ^ (m + 2) = if m = k then ((k + 2).factorial : K) else 0 := by
    intro m hm
    have h := Props.Epi.C26_alpha c hnd hnz (X ^ m : K[X])
      (lt_of_le_of_lt (degree_X_pow_le m) (by exact_mod_cast Finset.mem_range.1 hm)) k hk
    simp only [eval_pow, eval_X, coeff_X_pow] at h
    have e2 : (if m = k then ((k + 2).factorial : K) else 0) = ((k + 2).factorial : K) * (if k = m then 1 else 0) := by
      by_cases e : m = k
      · simp [e]
      · simp [e, Ne.symm e]
    rw [e2, ← h]
    apply Finset.sum_congr rfl
    intro i _
    rw [← pow_add, add_comm]
  rw [List.length_map]
  calc ∑ i ∈ Finset.range c.length, ((alphaCoeff c).getD k []).getD i 0 •
        (c.map fun s => ∑ m ∈ Finset.range c.length, s ^ (m + 2) • b m).getD i 0
      = ∑ i ∈ Finset.range c.length, ∑ m ∈ Finset.range c.length,
          (((alphaCoeff c).getD k []).getD i 0 * (c.getD i 0) ^ (m + 2)) • b m := by
        apply Finset.sum_congr rfl
        intro i hi
        rw [hget i hi, Finset.smul_sum]
        simp only [smul_smul]
    _ = ∑ m ∈ Finset.range c.length, (if m = k then ((k + 2).factorial : K) else 0) • b m := by
        rw [Finset.sum_comm]
        apply Finset.sum_congr rfl
        intro m hm
        rw [← Finset.sum_smul, key m hm]
    _ = ((k + 2).factorial : K) • b k := by
        simp [ite_smul, Finset.sum_ite_eq', hk]

/-- **C56**, for every right-hand side: if the part of the right-hand side that is not linear around `Q`, taken at the stage
    increments `dt z(s)`, is `Σ_m s^{m+2} b_m`, the solver is called with `f(Q)` in row 1, nothing in row 2, and the
    derivatives `(k+2)! b_k` of the remainder from row 3 on. -/
theorem C56_remainders (ext : Ext K V) (Q : V) (dt : K) (N : V → V)
    (hN : ∀ d, ext.rhs (Q + d) = ext.rhs Q + ext.jac Q d + N d)
    (prev nodes : List K) (hnd : prev.Nodup) (hnz : ∀ x ∈ prev, x ≠ 0) (z : K → V) (b : Nat → V)
    (hz : ∀ s ∈ prev, N (dt • z s) = ∑ m ∈ Finset.range prev.length, s ^ (m + 2) • b m) :
    project ext Q dt (ext.rhs Q) (alphaCoeff prev) nodes (prev.map z) =
      ext.phi nodes Q dt ([0, ext.rhs Q, 0] ++ (List.range prev.length).map fun k => ((k + 2).factorial : K) • b k) := by
  simp only [project, List.map_map]
  rw [← C56_stage_vectors prev hnd hnz b]
  congr 3
  apply List.map_congr_left
  intro s hs
  simp only [Function.comp_apply]
  rw [hN, add_sub_cancel_left, ← hz s hs]
  abel

/-- non-vacuity: the quadratic problem `f(q) = q²` around `Q`, with stage increments `s` -/
example (Q dt : ℚ) : ∃ (N : ℚ → ℚ) (b : Nat → ℚ),
    (∀ d, (Q + d) * (Q + d) = Q * Q + 2 * Q * d + N d) ∧ b 0 = dt * dt ∧
    ∀ s ∈ ([1 / 2, 1] : List ℚ), N (dt • s) = ∑ m ∈ Finset.range ([1 / 2, 1] : List ℚ).length, s ^ (m + 2) • b m := by
  refine ⟨fun d => d * d, fun m => if m = 0 then dt * dt else 0, fun d => by ring, rfl, ?_⟩
  intro s _
  simp [Finset.sum_range_succ]
  ring

example : ([1 / 2, 1] : List ℚ).Nodup ∧ ∀ x ∈ ([1 / 2, 1] : List ℚ), x ≠ 0 := by
  constructor <;> norm_num

end stages

/-! ## The nodes -/

section nodes
open Polynomial intervalIntegral

/-- the polynomial whose roots the code takes as the nodes of a stage of size `p` -/
noncomputable def nodePoly (p : Nat) : ℝ[X] := ∑ q ∈ Finset.range (p + 1), C (Srerk.coeff p q : ℝ) * X ^ q

/-- alternating sums of a polynomial of small degree vanish -/
theorem alternating_zero (n : Nat) (P : ℝ[X]) (hP : P.natDegree < n) :
    ∑ q ∈ Finset.range (n + 1), (-1 : ℝ) ^ (n + q) * (n.choose q : ℝ) * P.eval (q : ℝ) = 0 := by
  have h := congrFun (Polynomial.fwdDiff_iter_eq_zero_of_degree_lt hP) 0
  rw [fwdDiff_iter_eq_sum_shift] at h
  rw [Pi.zero_apply] at h
  rw [← h]
  apply Finset.sum_congr rfl
  intro q hq
  have hq' : q ≤ n := by have := Finset.mem_range.1 hq; omega
  simp only [nsmul_eq_mul, mul_one, zero_add, zsmul_eq_mul]
  push_cast
  congr 2
  rw [show n + q = (n - q) + 2 * q by omega, pow_add, pow_mul]
  simp

theorem factorial_ratio (o q : Nat) :
    (((o + q + 2).factorial : ℕ) : ℝ) = ((q + 2).factorial : ℝ) * ∏ j ∈ Finset.range o, ((q : ℝ) + 3 + (j : ℝ)) := by
  induction o with
  | zero => simp
  | succ o ih =>
    rw [Finset.prod_range_succ, ← mul_assoc, ← ih, show o + 1 + q + 2 = (o + q + 2) + 1 by omega, Nat.factorial_succ]
    push_cast; ring

/-- **C56**: the nodes of a stage of size `p` are the roots of the polynomial of degree `p` that is orthogonal to all
    polynomials of smaller degree for the weight `x²` on `[0, 1]`. -/
theorem C56_nodes (p : Nat) : (nodePoly p).natDegree = p ∧
    ∀ g : ℝ[X], g.natDegree < p → ∫ x in (0 : ℝ)..1, x ^ 2 * g.eval x * (nodePoly p).eval x = 0 := by
  have hc : ∀ q ≤ p, (Srerk.coeff p q : ℝ) =
      (-1) ^ (p + q) * (p.choose q : ℝ) * (∏ j ∈ Finset.range p, ((q : ℝ) + 3 + (j : ℝ))) / (p.factorial : ℝ) := by
    intro q hq
    unfold Srerk.coeff
    rw [factorial_ratio, Nat.cast_choose ℝ hq]
    have h1 := Nat.factorial_ne_zero q
    have h2 := Nat.factorial_ne_zero (q + 2)
    have h3 := Nat.factorial_ne_zero (p - q)
    have h4 := Nat.factorial_ne_zero p
    field_simp
  have hmoment : ∀ k < p, ∑ q ∈ Finset.range (p + 1), (Srerk.coeff p q : ℝ) / ((q : ℝ) + (k : ℝ) + 3) = 0 := by
    intro k hk
    set P : ℝ[X] := ∏ j ∈ (Finset.range p).erase k, (X + C ((j : ℝ) + 3)) with hPdef
    have hdeg : P.natDegree < p := by
      rw [hPdef, natDegree_prod_of_monic _ _ (fun j _ => monic_X_add_C _)]
      simp only [natDegree_X_add_C, Finset.sum_const, smul_eq_mul, mul_one]
      rw [Finset.card_erase_of_mem (Finset.mem_range.2 hk), Finset.card_range]
      omega
    have h := alternating_zero p P hdeg
    have h2 : ∑ q ∈ Finset.range (p + 1), (Srerk.coeff p q : ℝ) / ((q : ℝ) + (k : ℝ) + 3) =
        (∑ q ∈ Finset.range (p + 1), (-1 : ℝ) ^ (p + q) * (p.choose q : ℝ) * P.eval (q : ℝ)) / (p.factorial : ℝ) := by
      rw [Finset.sum_div]
      apply Finset.sum_congr rfl
      intro q hq
      rw [hc q (by have := Finset.mem_range.1 hq; omega), ← Finset.mul_prod_erase _ _ (Finset.mem_range.2 hk)]
      have hP : P.eval (q : ℝ) = ∏ j ∈ (Finset.range p).erase k, ((q : ℝ) + 3 + (j : ℝ)) := by
        rw [hPdef, eval_prod]
        apply Finset.prod_congr rfl
        intro j _
        simp; ring
      rw [hP]
      have hpos : (q : ℝ) + (k : ℝ) + 3 ≠ 0 := by positivity
      have h4 : (p.factorial : ℝ) ≠ 0 := by exact_mod_cast Nat.factorial_ne_zero p
      field_simp
      ring
    rw [h2, h, zero_div]
  constructor
  · apply natDegree_eq_of_le_of_coeff_ne_zero
    · unfold nodePoly
      apply natDegree_sum_le_of_forall_le
      intro q hq
      exact le_trans (natDegree_C_mul_X_pow_le _ _) (by have := Finset.mem_range.1 hq; omega)
    · unfold nodePoly
      simp only [finsetSum_coeff, coeff_C_mul, coeff_X_pow]
      rw [Finset.sum_eq_single p]
      · simp only [if_true, mul_one]
        rw [hc p le_rfl]
        have : (∏ j ∈ Finset.range p, ((p : ℝ) + 3 + (j : ℝ))) ≠ 0 := by
          apply Finset.prod_ne_zero_iff.2; intro j _; positivity
        have h4 : (p.factorial : ℝ) ≠ 0 := by exact_mod_cast Nat.factorial_ne_zero p
        simp [this, h4]
      · intro q _ hq; simp [hq, Ne.symm hq]
      · intro h; simp at h
  · intro g hg
    have e : ∀ x : ℝ, x ^ 2 * g.eval x * (nodePoly p).eval x =
        ∑ k ∈ Finset.range (g.natDegree + 1), ∑ q ∈ Finset.range (p + 1),
          (g.coeff k * Srerk.coeff p q) * x ^ (q + k + 2) := by
      intro x
      rw [eval_eq_sum_range, nodePoly, eval_finset_sum, Finset.mul_sum _ _ (x ^ 2), Finset.sum_mul]
      apply Finset.sum_congr rfl
      intro k _
      rw [Finset.mul_sum]
      apply Finset.sum_congr rfl
      intro q _
      simp only [eval_mul, eval_C, eval_pow, eval_X]
      ring
    simp only [e]
    rw [integral_finset_sum]
    · apply Finset.sum_eq_zero
      intro k hk
      rw [integral_finset_sum]
      · simp only [integral_const_mul, integral_pow]
        have := hmoment k (by have := Finset.mem_range.1 hk; omega)
        have h0 : ∑ q ∈ Finset.range (p + 1), g.coeff k * (Srerk.coeff p q / ((q : ℝ) + (k : ℝ) + 3)) = 0 := by
          rw [← Finset.mul_sum, this, mul_zero]
        refine Eq.trans ?_ h0
        apply Finset.sum_congr rfl
        intro q _
        have hz : (0 : ℝ) ^ (q + k + 2 + 1) = 0 := by rw [pow_succ, mul_zero]
        rw [one_pow, hz]
        push_cast
        ring
      · intro q _
        exact Continuous.intervalIntegrable (by fun_prop) _ _
    · intro k _
      exact Continuous.intervalIntegrable (by fun_prop) _ _

/-- **C56**: the sizes of the stages for every order: orders below 3 are refused; otherwise the sizes are
    `2, 4, …` below `order - 2`, then `order - 2`, then the single node of the end of the step. -/
theorem C56_stage_sizes (order : Nat) (L : List Nat) (h : stageSizes order = some L) :
    3 ≤ order ∧ ∃ init, L = init ++ [order - 2, 1] ∧ ∀ n, n ∈ init ↔ (2 ≤ n ∧ n < order - 2 ∧ n % 2 = 0) := by
  unfold stageSizes at h
  split_ifs at h with h0
  simp only [Option.some.injEq] at h
  refine ⟨by omega, _, by rw [← h, List.append_assoc]; rfl, ?_⟩
  intro n
  rw [List.mem_range']
  constructor
  · rintro ⟨i, hi, rfl⟩
    omega
  · rintro ⟨h1, h2, h3⟩
    exact ⟨(n - 2) / 2, by omega, by omega⟩

end nodes

end WxVerif.Props.Srerk
