import Verif.Props.KrylovLowSync

/-!
# The exponential solvers with incomplete orthogonalization and with delayed re-orthogonalization (C76)
-/

namespace WxVerif.Props.KrylovLowSync

open WxVerif.Krylov.LowSync
open WxVerif.Krylov (setV)
open WxVerif.Spec.Arnoldi

section nest
variable {X : Type*} [NormedAddCommGroup X] [InnerProductSpace ℝ X]

theorem innerX : IsInner (innerₗ X) := ⟨fun x y => real_inner_comm y x, fun _ hx => real_inner_self_pos.2 hx⟩

/-- the last two rows are orthonormal -/
def Two (s : Mem X) : Prop :=
  inner ℝ (s.V s.j) (s.V s.j) = (1 : ℝ) ∧
    (0 < s.j → inner ℝ (s.V (s.j - 1)) (s.V (s.j - 1)) = (1 : ℝ) ∧ inner ℝ (s.V (s.j - 1)) (s.V s.j) = (0 : ℝ))

theorem two_orth (s : Mem X) (h2 : Two s) (i : Nat) (hi : i < s.j + 1 - (s.j + 1 - 2)) (k : Nat) (hk : k < s.j + 1 - (s.j + 1 - 2)) :
    (innerₗ X) (s.V (s.j + 1 - 2 + i)) (s.V (s.j + 1 - 2 + k)) = if i = k then 1 else 0 := by
  rw [innerₗ_apply_apply]
  rcases Nat.eq_zero_or_pos s.j with h0 | h0
  · have e1 : i = 0 := by omega
    have e2 : k = 0 := by omega
    subst e1; subst e2
    rw [if_pos rfl, show s.j + 1 - 2 + 0 = s.j by omega]; exact h2.1
  · obtain ⟨h3, h4⟩ := h2.2 h0
    have hi' : i = 0 ∨ i = 1 := by omega
    have hk' : k = 0 ∨ k = 1 := by omega
    rcases hi' with rfl | rfl <;> rcases hk' with rfl | rfl
    · rw [if_pos rfl, show s.j + 1 - 2 + 0 = s.j - 1 by omega]; exact h3
    · rw [if_neg (by omega), show s.j + 1 - 2 + 0 = s.j - 1 by omega, show s.j + 1 - 2 + 1 = s.j by omega]; exact h4
    · rw [if_neg (by omega), show s.j + 1 - 2 + 0 = s.j - 1 by omega, show s.j + 1 - 2 + 1 = s.j by omega, real_inner_comm]; exact h4
    · rw [if_pos rfl, show s.j + 1 - 2 + 1 = s.j by omega]; exact h2.1

/-- what remains of the new vector -/
noncomputable def rest (s : Mem X) (x : X) : X := x - ∑ i ∈ Finset.Ico (s.j + 1 - 2) (s.j + 1), (inner ℝ (s.V i) x : ℝ) • s.V i

theorem rest_sq (s : Mem X) (h2 : Two s) (x : X) :
    inner ℝ (rest s x) (rest s x) = inner ℝ x x - ∑ i ∈ Finset.Ico (s.j + 1 - 2) (s.j + 1), (inner ℝ (s.V i) x : ℝ) ^ 2 := by
  have := pythagoras innerX (fun i => s.V (s.j + 1 - 2 + i)) (s.j + 1 - (s.j + 1 - 2)) (two_orth s h2) x
  simp only [innerₗ_apply_apply] at this
  unfold rest
  rw [Finset.sum_Ico_eq_sum_range, Finset.sum_Ico_eq_sum_range]
  exact this

theorem rest_orth (s : Mem X) (h2 : Two s) (x : X) : inner ℝ (s.V s.j) (rest s x) = (0 : ℝ) := by
  unfold rest
  rw [inner_sub_right, inner_sum]
  rw [Finset.sum_eq_single s.j]
  · rw [inner_smul_right, h2.1, mul_one, sub_self]
  · intro i hi hne
    have := Finset.mem_Ico.1 hi
    have e : i = s.j - 1 := by omega
    have h0 : 0 < s.j := by omega
    subst e
    rw [inner_smul_right, real_inner_comm (s.V (s.j - 1)) (s.V s.j), (h2.2 h0).2, mul_zero]
  · intro hn; exact absurd (Finset.mem_Ico.2 ⟨by omega, by omega⟩) hn

theorem rest_norm (s : Mem X) (h2 : Two s) (x : X) :
    ¬ inner ℝ x x < ∑ i ∈ Finset.Ico (s.j + 1 - 2) (s.j + 1), (inner ℝ (s.V i) x : ℝ) ^ 2 ∧
    Real.sqrt (inner ℝ x x - ∑ i ∈ Finset.Ico (s.j + 1 - 2) (s.j + 1), (inner ℝ (s.V i) x : ℝ) ^ 2) = ‖rest s x‖ := by
  rw [← rest_sq s h2 x, real_inner_self_eq_norm_sq (rest s x)]
  refine ⟨?_, Real.sqrt_sq (norm_nonneg _)⟩
  have := rest_sq s h2 x
  have h3 : (0 : ℝ) ≤ inner ℝ (rest s x) (rest s x) := real_inner_self_nonneg
  push Not
  linarith

/-- the arrays of the solver in the memory of `kiops` -/
def toK (p : WxVerif.Krylov.Mem X) (s : Mem X) : WxVerif.Krylov.Mem X := { p with V := s.V, H := s.H, j := s.j, happy := s.happy }

/-- the state after a vector of `kiops`, in terms of what remains -/
theorem kiops_rest (T : X →ₗ[ℝ] X) (tol : ℝ) (p : WxVerif.Krylov.Mem X) (s : Mem X) :
    WxVerif.Krylov.kiopsStep T 2 tol (toK p s) =
      let H := fun a b => if b = s.j ∧ s.j + 1 - 2 ≤ a ∧ a < s.j + 1 then inner ℝ (s.V a) (T (s.V s.j)) else s.H a b
      if ‖rest s (T (s.V s.j))‖ < tol then toK p { s with V := setV s.V (s.j + 1) (rest s (T (s.V s.j))), H := H, j := s.j + 1, happy := true }
      else toK p { s with
        V := setV s.V (s.j + 1) (‖rest s (T (s.V s.j))‖⁻¹ • rest s (T (s.V s.j))),
        H := fun a b => if a = s.j + 1 ∧ b = s.j then ‖rest s (T (s.V s.j))‖ else H a b, j := s.j + 1 } := by
  have hr : T (s.V s.j) - ∑ i ∈ Finset.Ico (s.j + 1 - 2) (s.j + 1), (if True ∧ s.j + 1 - 2 ≤ i ∧ i < s.j + 1 then
      (inner ℝ (s.V i) (T (s.V s.j)) : ℝ) else s.H i s.j) • s.V i = rest s (T (s.V s.j)) := by
    unfold rest
    congr 1
    apply Finset.sum_congr rfl
    intro i hi
    have := Finset.mem_Ico.1 hi
    rw [if_pos ⟨trivial, this.1, this.2⟩]
  unfold WxVerif.Krylov.kiopsStep toK
  simp only
  rw [hr]

theorem two_next (s : Mem X) (h2 : Two s) (x : X) (tol : ℝ) (htol : 0 < tol) (hn : ¬ ‖rest s x‖ < tol) (s' : Mem X)
    (hV : s'.V = setV s.V (s.j + 1) (‖rest s x‖⁻¹ • rest s x)) (hj : s'.j = s.j + 1) : Two s' := by
  have hp : 0 < ‖rest s x‖ := by push Not at hn; linarith
  have e1 : s'.V s'.j = ‖rest s x‖⁻¹ • rest s x := by rw [hV, hj, setV_self]
  have e2 : s'.V (s'.j - 1) = s.V s.j := by rw [hV, hj, Nat.add_sub_cancel, setV_lt _ _ _ _ (by omega)]
  refine ⟨?_, fun _ => ⟨?_, ?_⟩⟩
  · rw [e1, inner_smul_left, inner_smul_right, real_inner_self_eq_norm_sq]
    simp only [conj_trivial]
    field_simp
  · rw [e2]; exact h2.1
  · rw [e1, e2, inner_smul_right, rest_orth s h2, mul_zero]

theorem nest_step (T : X →ₗ[ℝ] X) (tol : ℝ) (htol : 0 < tol) (p : WxVerif.Krylov.Mem X) (s : Mem X) (h2 : Two s) :
    ∃ s', nestStep (innerₗ X) (innerₗ X) T 2 tol s = some s' ∧ toK p s' = WxVerif.Krylov.kiopsStep T 2 tol (toK p s) ∧
      (s'.happy = false → Two s') ∧ s'.j = s.j + 1 ∧ s'.beta = s.beta := by
  have hr : T (s.V s.j) - ∑ i ∈ Finset.Ico (s.j + 1 - 2) (s.j + 1), (if True ∧ s.j + 1 - 2 ≤ i ∧ i < s.j + 1 then
      (inner ℝ (s.V i) (T (s.V s.j)) : ℝ) else s.H i s.j) • s.V i = rest s (T (s.V s.j)) := by
    unfold rest
    congr 1
    apply Finset.sum_congr rfl
    intro i hi
    have := Finset.mem_Ico.1 hi
    rw [if_pos ⟨trivial, this.1, this.2⟩]
  obtain ⟨n1, n2⟩ := rest_norm s h2 (T (s.V s.j))
  rw [kiops_rest]
  unfold nestStep
  simp only [innerₗ_apply_apply]
  rw [if_neg (by omega), if_neg n1, n2, hr]
  by_cases hlt : ‖rest s (T (s.V s.j))‖ < tol
  · rw [if_pos hlt, if_pos hlt]
    exact ⟨_, rfl, rfl, fun h => absurd h (by simp), rfl, rfl⟩
  · rw [if_neg hlt, if_neg hlt]
    exact ⟨_, rfl, rfl, fun _ => two_next s h2 _ tol htol hlt _ rfl rfl, rfl, rfl⟩

theorem nest_loop (T : X →ₗ[ℝ] X) (tol : ℝ) (htol : 0 < tol) (p : WxVerif.Krylov.Mem X) (m fuel : Nat) : ∀ s : Mem X,
    (s.happy = false → Two s) →
    ∃ s', loop (nestStep (innerₗ X) (innerₗ X) T 2 tol) m fuel s = some s' ∧ s'.beta = s.beta ∧
      toK p s' = WxVerif.Krylov.krylovLoop (WxVerif.Krylov.kiopsStep T 2 tol) m fuel (toK p s) := by
  induction fuel with
  | zero => intro s _; exact ⟨s, rfl, rfl, rfl⟩
  | succ n ih =>
    intro s h2
    unfold loop WxVerif.Krylov.krylovLoop
    by_cases hc : s.j < m ∧ s.happy = false
    · rw [if_pos hc, if_pos (show (toK p s).j < m ∧ (toK p s).happy = false from hc)]
      obtain ⟨s1, e1, e2, e3, e4, e5⟩ := nest_step T tol htol p s (h2 hc.2)
      obtain ⟨s2, f1, f2, f3⟩ := ih s1 e3
      exact ⟨s2, by rw [e1]; exact f1, by rw [f2, e5], by rw [f3, e2]⟩
    · rw [if_neg hc, if_neg (show ¬ ((toK p s).j < m ∧ (toK p s).happy = false) from hc)]
      exact ⟨s, rfl, rfl, rfl⟩

theorem startNormed_two (v : X) (hv : v ≠ 0) (s0 : Mem X) : Two (startNormed (innerₗ X) v s0) ∧
    Real.sqrt ((innerₗ X) v v) = ‖v‖ := by
  have hn : (0 : ℝ) < ‖v‖ := norm_pos_iff.2 hv
  have hb : Real.sqrt ((innerₗ X) v v) = ‖v‖ := by
    rw [innerₗ_apply_apply, real_inner_self_eq_norm_sq]; exact Real.sqrt_sq hn.le
  refine ⟨⟨?_, fun h => absurd h (by simp [startNormed])⟩, hb⟩
  simp only [startNormed, hb]
  rw [setV_self, inner_smul_left, inner_smul_right, real_inner_self_eq_norm_sq]
  simp only [conj_trivial]
  field_simp

/-- **C76** (`kiops_nest`): with `iop = 2`, the basis, the matrix and the update are those of `kiops` on a cleared matrix, breakdown
    included. -/
theorem C76_kiops_nest (T : X →ₗ[ℝ] X) (tol : ℝ) (htol : 0 < tol) (m : Nat) (v : X) (hv : v ≠ 0) (s0 : Mem X)
    (p : WxVerif.Krylov.Mem X) (hclear : ∀ a b, p.H a b = 0) (hV : p.V = s0.V) :
    ∃ s, nestRun (innerₗ X) (innerₗ X) T 2 tol [m] v s0 = some s ∧ s.beta = ‖v‖ ∧
      s.V = (WxVerif.Krylov.kiopsRun T 2 tol m v p).V ∧ s.H = (WxVerif.Krylov.kiopsRun T 2 tol m v p).H ∧
      s.j = (WxVerif.Krylov.kiopsRun T 2 tol m v p).j ∧ s.happy = (WxVerif.Krylov.kiopsRun T 2 tol m v p).happy ∧
      ∀ tau, update tau s = WxVerif.Krylov.kiopsUpdate tau v (WxVerif.Krylov.kiopsRun T 2 tol m v p) := by
  obtain ⟨h2, hb⟩ := startNormed_two v hv s0
  obtain ⟨s, e1, e2, e3⟩ := nest_loop T tol htol p m m (startNormed (innerₗ X) v s0) (fun _ => h2)
  have hs : toK p (startNormed (innerₗ X) v s0) = WxVerif.Krylov.begin false v p := by
    have hH : p.H = fun _ _ => 0 := by funext a b; exact hclear a b
    simp only [toK, startNormed, WxVerif.Krylov.begin, hb, hV, hH, Bool.false_eq_true, if_false]
  rw [hs] at e3
  change toK p s = WxVerif.Krylov.kiopsRun T 2 tol m v p at e3
  have hbeta : s.beta = ‖v‖ := by rw [e2]; exact hb
  refine ⟨s, e1, hbeta, by rw [← e3]; rfl, by rw [← e3]; rfl, by rw [← e3]; rfl, by rw [← e3]; rfl, fun tau => ?_⟩
  rw [← e3]
  unfold update WxVerif.Krylov.kiopsUpdate
  simp only
  rw [hbeta]
  rfl

theorem neiop_step (T : X →ₗ[ℝ] X) (tol : ℝ) (htol : 0 < tol) (p : WxVerif.Krylov.Mem X) (s : Mem X) (h2 : Two s)
    (hh : (WxVerif.Krylov.kiopsStep T 2 tol (toK p s)).happy = false) :
    ∃ s', neiopStep (innerₗ X) T 2 tol s = some s' ∧ toK p s' = WxVerif.Krylov.kiopsStep T 2 tol (toK p s) ∧
      Two s' ∧ s'.j = s.j + 1 ∧ s'.beta = s.beta := by
  obtain ⟨n1, n2⟩ := rest_norm s h2 (T (s.V s.j))
  have hn : (if 1 ≤ s.j then 2 else 1) = s.j + 1 - (s.j + 1 - 2) := by split_ifs <;> omega
  set x := T (s.V s.j) with hx
  set tmp : Nat → ℝ := fun i => if i = 0 then inner ℝ (s.V (s.j + 1 - 2 + 0)) x else
      (if 1 ≤ s.j then -(inner ℝ (s.V (s.j + 1 - 2)) (s.V s.j) : ℝ) else 0) * inner ℝ (s.V (s.j + 1 - 2 + 0)) x +
        inner ℝ (s.V (s.j + 1 - 2 + 1)) x with htmp
  have ht : ∀ i < s.j + 1 - (s.j + 1 - 2), tmp i = inner ℝ (s.V (s.j + 1 - 2 + i)) x := by
    intro i hi
    simp only [htmp]
    by_cases h0 : i = 0
    · rw [if_pos h0, h0]
    · have h1 : i = 1 := by omega
      have hj : 0 < s.j := by omega
      rw [if_neg h0, if_pos (by omega), h1, show s.j + 1 - 2 = s.j - 1 by omega, (h2.2 hj).2, neg_zero, zero_mul, zero_add]
  have hr : x - ∑ i ∈ Finset.range (s.j + 1 - (s.j + 1 - 2)), tmp i • s.V (s.j + 1 - 2 + i) = rest s x := by
    unfold rest
    rw [Finset.sum_Ico_eq_sum_range]
    congr 1
    apply Finset.sum_congr rfl
    intro i hi
    rw [ht i (Finset.mem_range.1 hi)]
  have hsq : ∑ i ∈ Finset.range (s.j + 1 - (s.j + 1 - 2)), (inner ℝ (s.V (s.j + 1 - 2 + i)) x : ℝ) ^ 2 =
      ∑ i ∈ Finset.Ico (s.j + 1 - 2) (s.j + 1), (inner ℝ (s.V i) x : ℝ) ^ 2 := by rw [Finset.sum_Ico_eq_sum_range]
  rw [kiops_rest] at hh ⊢
  simp only [← hx] at hh ⊢
  have hlt : ¬ ‖rest s x‖ < tol := by
    intro hc
    rw [if_pos hc] at hh
    exact absurd hh (by simp [toK])
  rw [if_neg hlt]
  unfold neiopStep
  simp only [innerₗ_apply_apply, ← hx]
  rw [if_neg (by omega)]
  have htmp' : (fun i => if i = 0 then (inner ℝ (s.V (s.j + 1 - 2 + 0)) x : ℝ) else
      (if 1 ≤ s.j then -(inner ℝ (s.V (s.j + 1 - 2)) (s.V s.j) : ℝ) else 0) * inner ℝ (s.V (s.j + 1 - 2 + 0)) x +
        inner ℝ (s.V (s.j + 1 - 2 + 1)) x) = tmp := rfl
  rw [hn]
  refine ⟨{ s with
    V := setV s.V (s.j + 1) (‖rest s x‖⁻¹ • rest s x),
    H := fun a b => if b = s.j ∧ s.j + 1 - 2 ≤ a ∧ a < s.j + 1 then tmp (a - (s.j + 1 - 2))
      else if a = s.j + 1 ∧ b = s.j then ‖rest s x‖ else s.H a b,
    j := s.j + 1 }, ?_, ?_, two_next s h2 x tol htol hlt _ rfl rfl, rfl, rfl⟩
  · rw [hsq, if_neg n1, n2, if_neg hlt, hr]
  · unfold toK
    simp only
    congr 1
    funext a b
    by_cases h1 : b = s.j ∧ s.j + 1 - 2 ≤ a ∧ a < s.j + 1
    · rw [if_pos h1, if_neg (by omega), if_pos h1, ht _ (by omega), show s.j + 1 - 2 + (a - (s.j + 1 - 2)) = a by omega]
    · rw [if_neg h1, if_neg h1]

theorem kloop_happy (step : WxVerif.Krylov.Mem X → WxVerif.Krylov.Mem X) (m fuel : Nat) (s : WxVerif.Krylov.Mem X) (hs : s.happy = true) :
    WxVerif.Krylov.krylovLoop step m fuel s = s := by
  cases fuel with
  | zero => rfl
  | succ n => unfold WxVerif.Krylov.krylovLoop; rw [if_neg (by rw [hs]; simp)]

theorem neiop_loop (T : X →ₗ[ℝ] X) (tol : ℝ) (htol : 0 < tol) (p : WxVerif.Krylov.Mem X) (m fuel : Nat) : ∀ s : Mem X, Two s →
    (WxVerif.Krylov.krylovLoop (WxVerif.Krylov.kiopsStep T 2 tol) m fuel (toK p s)).happy = false →
    ∃ s', loop (neiopStep (innerₗ X) T 2 tol) m fuel s = some s' ∧ s'.beta = s.beta ∧
      toK p s' = WxVerif.Krylov.krylovLoop (WxVerif.Krylov.kiopsStep T 2 tol) m fuel (toK p s) := by
  induction fuel with
  | zero => intro s _ _; exact ⟨s, rfl, rfl, rfl⟩
  | succ n ih =>
    intro s h2 hh
    unfold WxVerif.Krylov.krylovLoop at hh ⊢
    unfold loop
    by_cases hc : s.j < m ∧ s.happy = false
    · rw [if_pos (show (toK p s).j < m ∧ (toK p s).happy = false from hc)] at hh ⊢
      rw [if_pos hc]
      obtain ⟨s1, e1, e2, e3, e4, e5⟩ := neiop_step T tol htol p s h2 (by
        by_contra hne
        rw [kloop_happy _ _ _ _ (by simpa using hne)] at hh
        exact hne hh)
      rw [← e2] at hh ⊢
      obtain ⟨s2, f1, f2, f3⟩ := ih s1 e3 hh
      exact ⟨s2, by rw [e1]; exact f1, by rw [f2, e5], by rw [f3]⟩
    · rw [if_neg hc, if_neg (show ¬ ((toK p s).j < m ∧ (toK p s).happy = false) from hc)]
      exact ⟨s, rfl, rfl, rfl⟩

/-- **C76** (`icwy_neiop`): with `iop = 2` and without a breakdown, the basis, the matrix and the update are those of `kiops` on a
    cleared matrix. -/
theorem C76_icwy_neiop_partial (T : X →ₗ[ℝ] X) (tol : ℝ) (htol : 0 < tol) (m : Nat) (v : X) (hv : v ≠ 0) (s0 : Mem X)
    (p : WxVerif.Krylov.Mem X) (hclear : ∀ a b, p.H a b = 0) (hV : p.V = s0.V)
    (hh : (WxVerif.Krylov.kiopsRun T 2 tol m v p).happy = false) :
    ∃ s, neiopRun (innerₗ X) T 2 tol [m] v s0 = some s ∧ s.beta = ‖v‖ ∧
      s.V = (WxVerif.Krylov.kiopsRun T 2 tol m v p).V ∧ s.H = (WxVerif.Krylov.kiopsRun T 2 tol m v p).H ∧
      s.j = (WxVerif.Krylov.kiopsRun T 2 tol m v p).j ∧ s.happy = false ∧
      ∀ tau, update tau s = WxVerif.Krylov.kiopsUpdate tau v (WxVerif.Krylov.kiopsRun T 2 tol m v p) := by
  obtain ⟨h2, hb⟩ := startNormed_two v hv s0
  have hs : toK p (startNormed (innerₗ X) v s0) = WxVerif.Krylov.begin false v p := by
    have hH : p.H = fun _ _ => 0 := by funext a b; exact hclear a b
    simp only [toK, startNormed, WxVerif.Krylov.begin, hb, hV, hH, Bool.false_eq_true, if_false]
  obtain ⟨s, e1, e2, e3⟩ := neiop_loop T tol htol p m m (startNormed (innerₗ X) v s0) h2 (by rw [hs]; exact hh)
  rw [hs] at e3
  change toK p s = WxVerif.Krylov.kiopsRun T 2 tol m v p at e3
  have hbeta : s.beta = ‖v‖ := by rw [e2]; exact hb
  refine ⟨s, e1, hbeta, by rw [← e3]; rfl, by rw [← e3]; rfl, by rw [← e3]; rfl, by rw [← hh, ← e3]; rfl, fun tau => ?_⟩
  rw [← e3]
  unfold update WxVerif.Krylov.kiopsUpdate
  simp only
  rw [hbeta]
  rfl

end nest

section other
variable {W : Type*} [AddCommGroup W] [Module ℝ W] {B : LinearMap.BilinForm ℝ W} {T : W →ₗ[ℝ] W} {v : W}

/-- **C76**, what fails (`icwy_neiop`): at a breakdown the last column of the matrix stays empty; from an eigenvector of any
    eigenvalue the answer is the start vector itself. -/
theorem C76_icwy_neiop_breakdown_fails (hB : IsInner B) (lam : ℝ) (hv : v ≠ 0) (hT : T v = lam • v) (tol : ℝ) (htol : 0 < tol)
    (m : Nat) (hm : 0 < m) (s0 : Mem W) :
    ∃ s, neiopRun B T 2 tol [m] v s0 = some s ∧ ∀ tau, update tau s = v := by
  have hp := hB.pos v hv
  have hsq := Real.sqrt_pos.2 hp
  have hne := hsq.ne'
  obtain ⟨q0, hq0⟩ : ∃ q0 : W, q0 = (Real.sqrt (B v v))⁻¹ • v := ⟨_, rfl⟩
  have hone : B q0 q0 = 1 := by
    rw [hq0, map_smul, map_smul, LinearMap.smul_apply, smul_eq_mul, smul_eq_mul]
    field_simp
    rw [Real.sq_sqrt hp.le]
  have hTq : T q0 = lam • q0 := by rw [hq0, map_smul, hT, smul_comm]
  have hV0 : (startNormed B v s0).V 0 = q0 := by simp only [startNormed]; rw [setV_self, hq0]
  have h1 : B q0 (T q0) = lam := by rw [hTq, map_smul, hone, smul_eq_mul, mul_one]
  have h2 : B (T q0) (T q0) = lam ^ 2 := by rw [hTq, map_smul, map_smul, LinearMap.smul_apply, hone]; simp [sq]
  have e : neiopStep B T 2 tol (startNormed B v s0) = some { startNormed B v s0 with
      V := setV (startNormed B v s0).V (0 + 1) 0, j := 0 + 1, happy := true } := by
    have hj : (startNormed B v s0).j = 0 := rfl
    unfold neiopStep
    simp only [hj]
    rw [if_neg (by omega)]
    have hz : ¬ (1 ≤ 0) := by omega
    simp only [if_neg hz, Finset.sum_range_one, if_true, Nat.add_zero, hV0, h1, h2, Nat.reduceSub, Nat.zero_add, lt_irrefl, if_false,
      sub_self, Real.sqrt_zero, if_pos htol]
    rw [hTq, sub_self]
  obtain ⟨n, rfl⟩ : ∃ n, m = n + 1 := ⟨m - 1, by omega⟩
  refine ⟨{ startNormed B v s0 with V := setV (startNormed B v s0).V (0 + 1) 0, j := 0 + 1, happy := true }, ?_, ?_⟩
  · unfold neiopRun
    rw [sizes, loop, if_pos ⟨by simp [startNormed], rfl⟩, e]
    exact loop_stop _ _ _ _ (Or.inr rfl)
  · intro tau
    rw [update_col_zero tau _ (by simp) (fun a => rfl)]
    change Real.sqrt (B v v) • setV (setV s0.V 0 ((Real.sqrt (B v v))⁻¹ • v)) (0 + 1) 0 0 = v
    rw [setV_lt _ _ _ _ (by omega), setV_self, smul_smul, mul_inv_cancel₀ hne, one_smul]

theorem loop_limit (step : Mem W → Option (Mem W)) (l m : Nat) (hlm : l < m) (hnone : ∀ s, l ≤ s.j → step s = none)
    (hj : ∀ s s', step s = some s' → s'.j = s.j + 1) (fuel : Nat) : ∀ s s', s.j ≤ l → m ≤ s.j + fuel →
    loop step m fuel s = some s' → s'.happy = true ∧ s'.j ≤ l := by
  induction fuel with
  | zero => intro s s' h1 h2; omega
  | succ n ih =>
    intro s s' h1 h2 h3
    rw [loop] at h3
    by_cases hc : s.j < m ∧ s.happy = false
    · rw [if_pos hc] at h3
      rcases hst : step s with _ | s1
      · rw [hst] at h3; simp at h3
      · rw [hst] at h3
        simp only [Option.bind_some] at h3
        have e := hj s s1 hst
        have hlt : s.j < l := by
          by_contra hge
          rw [hnone s (by omega)] at hst
          exact absurd hst (by simp)
        exact ih s1 s' (by omega) (by omega) h3
    · rw [if_neg hc] at h3
      have e : s = s' := by simpa using h3
      subst e
      refine ⟨?_, h1⟩
      by_contra hne
      exact hc ⟨by omega, by simpa using hne⟩

/-- **C76**, what fails (`kiops_nest`): with any other length of the orthogonalization than 2, no third vector is computed: without
    a breakdown in the first two, the call ends in an exception. -/
theorem C76_kiops_nest_iop_fails (iop : Nat) (hiop : iop ≠ 2) (tol : ℝ) (B1 : LinearMap.BilinForm ℝ W) (m : Nat) (hm : 3 ≤ m)
    (s0 s : Mem W) (hs : nestRun B B1 T iop tol [m] v s0 = some s) : s.happy = true ∧ s.j ≤ 2 := by
  refine loop_limit (nestStep B B1 T iop tol) 2 m (by omega) ?_ ?_ m (startNormed B1 v s0) s (Nat.zero_le _) (Nat.le_add_left _ _) hs
  · intro s hj
    unfold nestStep
    simp only
    rw [if_pos (by omega)]
  · intro s s' h
    unfold nestStep at h
    simp only at h
    split_ifs at h <;> (cases h; rfl)

/-- **C76**, what fails (`icwy_neiop`): the same, and there is no second vector. -/
theorem C76_icwy_neiop_iop_fails (iop : Nat) (hiop : iop ≠ 2) (tol : ℝ) (m : Nat) (hm : 2 ≤ m)
    (s0 s : Mem W) (hs : neiopRun B T iop tol [m] v s0 = some s) : s.happy = true ∧ s.j ≤ 1 := by
  refine loop_limit (neiopStep B T iop tol) 1 m (by omega) ?_ ?_ m (startNormed B v s0) s (Nat.zero_le _) (Nat.le_add_left _ _) hs
  · intro s hj
    unfold neiopStep
    simp only
    rw [if_pos ⟨hj, hiop⟩]
  · intro s s' h
    unfold neiopStep at h
    simp only at h
    split_ifs at h <;> (cases h; rfl)

end other

/-! ## `dcgs2` -/

section dcgs2
variable {W : Type*} [AddCommGroup W] [Module ℝ W] {B : LinearMap.BilinForm ℝ W} {T : W →ₗ[ℝ] W} {v : W} {q : Nat → W}
  {h : Nat → Nat → ℝ} {m : Nat}

/-- the rows of `dcgs2` for a unit start vector -/
structure InvD (q : Nat → W) (k : Nat) (c : ℝ) (tol : ℝ) (s : Mem W) : Prop where
  j : s.j = k
  happy : s.happy = false
  normed : s.normed = false
  rows : ∀ i < k, s.V i = q i
  last : s.V k = c • q k
  pos : 0 < c
  large : 0 < k → tol ≤ c
  one : k = 0 → c = 1

theorem dcgs2_inv (hf : Factorization B T v q h m) (tol : ℝ) (hs : ∀ j < m, tol ≤ h (j + 1) j) (k : Nat) (hk : k < m) (c : ℝ) (s : Mem W)
    (hi : InvD q k c tol s) : ∃ s', dcgs2Step B T tol s = some s' ∧ InvD q (k + 1) (h (k + 1) k) tol s' := by
  have hj := hi.j
  have hc := hi.pos
  have horth : ∀ i ≤ k, ∀ l ≤ k, B (q i) (q l) = if i = l then 1 else 0 := fun i h1 l h2 => hf.orth i (by omega) l (by omega)
  have hrem : T (q k) - ∑ i ∈ Finset.range (k + 1), B (q i) (T (q k)) • q i = h (k + 1) k • q (k + 1) :=
    remainder hf k hk q (fun i => B (q i) (T (q k))) (fun _ _ => rfl) (fun i hi' => coef hf k hk i (by omega))
  rcases Nat.eq_zero_or_pos k with h0 | h0
  · subst h0
    have hV : s.V 0 = q 0 := by rw [hi.last, hi.one rfl, one_smul]
    refine ⟨_, by unfold dcgs2Step; simp only; rw [if_pos (Or.inl hj)], ?_⟩
    refine { j := by simp only [hj], happy := hi.happy, normed := rfl, rows := ?_, last := ?_, pos := hf.sub 0 hk, large := fun _ => hs 0 hk,
             one := fun h1 => absurd h1 (by omega) }
    · intro i hi'
      have : i = 0 := by omega
      subst this
      simp only [hj]
      rw [setV_lt _ _ _ _ (by omega), hV]
    · simp only [hj]
      rw [setV_self, hV, ← hrem]
      simp
  · have hVk : s.V k = c • q k := hi.last
    have hr : ∀ i < k, B (s.V i) (s.V k) = 0 := by
      intro i hi'
      rw [hi.rows i hi', hVk, map_smul, horth i (by omega) k le_rfl, if_neg (by omega), smul_zero]
    have hrk : B (s.V k) (s.V k) = c ^ 2 := by
      rw [hVk, map_smul, map_smul, LinearMap.smul_apply, horth k le_rfl k le_rfl, if_pos rfl, smul_eq_mul, smul_eq_mul]; ring
    have e1 : ∑ i ∈ Finset.range k, B (s.V i) (s.V k) ^ 2 = 0 := by
      apply Finset.sum_eq_zero
      intro i hi'
      rw [hr i (Finset.mem_range.1 hi')]; norm_num
    have e2 : ∑ i ∈ Finset.range k, B (s.V i) (s.V k) • s.V i = 0 := by
      apply Finset.sum_eq_zero
      intro i hi'
      rw [hr i (Finset.mem_range.1 hi'), zero_smul]
    have e3 : ∑ i ∈ Finset.range k, B (s.V i) (s.V k) * B (s.V i) (T (s.V k)) = 0 := by
      apply Finset.sum_eq_zero
      intro i hi'
      rw [hr i (Finset.mem_range.1 hi'), zero_mul]
    have hsq : Real.sqrt (c ^ 2) = c := Real.sqrt_sq hc.le
    have hgk : B (s.V k) (T (s.V k)) / c ^ 2 = B (q k) (T (q k)) := by
      rw [hVk, map_smul, map_smul, map_smul, LinearMap.smul_apply, smul_eq_mul, smul_eq_mul]
      field_simp
    have hgi : ∀ i < k, B (s.V i) (T (s.V k)) / c = B (q i) (T (q k)) := by
      intro i hi'
      rw [hVk, hi.rows i hi', map_smul, map_smul, smul_eq_mul]
      field_simp
    have hTv : c⁻¹ • T (s.V k) = T (q k) := by rw [hVk, map_smul, smul_smul, inv_mul_cancel₀ hc.ne', one_smul]
    have hVn : c⁻¹ • s.V k = q k := by rw [hVk, smul_smul, inv_mul_cancel₀ hc.ne', one_smul]
    have hlt : ¬ c < tol := not_lt.2 (hi.large h0)
    have hsum : ∑ i ∈ Finset.range (k + 1), (if i < k then B (s.V i) (T (s.V k)) / c else B (s.V k) (T (s.V k)) / c ^ 2) •
        setV s.V k (q k) i = ∑ i ∈ Finset.range (k + 1), B (q i) (T (q k)) • q i := by
      apply Finset.sum_congr rfl
      intro i hi'
      have := Finset.mem_range.1 hi'
      by_cases h1 : i < k
      · rw [if_pos h1, hgi i h1, setV_lt _ _ _ _ h1, hi.rows i h1]
      · have : i = k := by omega
        subst this
        rw [if_neg h1, hgk, setV_self]
    refine ⟨_, by
      unfold dcgs2Step
      simp only [hj]
      rw [if_neg (by rw [hi.normed]; simp; omega), e1, e2, e3, hrk, sub_zero, sub_zero, sub_zero, if_neg (by have := pow_pos hc 2; linarith), hsq,
        hVn, hTv, hsum, hrem], ?_⟩
    refine { j := rfl, happy := ?_, normed := ?_, rows := ?_, last := ?_, pos := hf.sub k hk, large := fun _ => hs k hk,
             one := fun h1 => absurd h1 (by omega) }
    · simp only [hlt, decide_false]
    · simp only [if_neg hlt]
    · intro i hi'
      simp only
      rw [setV_lt _ _ _ _ hi']
      rcases Nat.lt_or_ge i k with h1 | h1
      · rw [setV_lt _ _ _ _ h1, hi.rows i h1]
      · have : i = k := by omega
        subst this; rw [setV_self]
    · simp only
      rw [setV_self]

/-- **C76**, what fails (`dcgs2`): for a start vector of norm one, without a breakdown, no pass has a result, whatever the sizes: the last
    norm is computed from the product of the last row with the row before it, which is zero. -/
theorem C76_dcgs2_unit_fails (hf : Factorization B T v q h m) (hunit : B v v = 1) (tol : ℝ) (hs : ∀ j < m, tol ≤ h (j + 1) j)
    (m1 : Nat) (hm0 : 0 < m1) (hm1 : m1 ≤ m) (ms : List Nat) (s0 : Mem W) : dcgs2Run B T tol (m1 :: ms) v s0 = none := by
  have h0 : InvD q 0 1 tol (dcgs2Start B v s0) := by
    refine { j := rfl, happy := rfl, normed := rfl, rows := fun i hi => absurd hi (by omega), last := ?_, pos := one_pos,
             large := fun h => absurd h (by omega), one := fun _ => rfl }
    have := hf.first
    rw [hunit, Real.sqrt_one] at this
    rw [← this]
    simp only [dcgs2Start, start]
    rw [setV_self]
  obtain ⟨s1, e1, c, i1⟩ := loop_inv (dcgs2Step B T tol) m1 (fun l t => ∃ c, InvD q l c tol t)
    (fun l t ht => ⟨ht.choose_spec.j, ht.choose_spec.happy⟩)
    (fun l hl t ht => by
      obtain ⟨c', i'⟩ := ht
      obtain ⟨t', e, i''⟩ := dcgs2_inv hf tol hs l (by omega) c' t i'
      exact ⟨t', e, _, i''⟩) m1 0 (dcgs2Start B v s0) ⟨1, h0⟩ (Nat.zero_le _) (by omega)
  have hz : ∀ i < m1, B (s1.V i) (s1.V m1) = 0 := by
    intro i hi
    rw [i1.rows i hi, i1.last, map_smul, hf.orth i (by omega) m1 hm1, if_neg (by omega), smul_zero]
  have hpass : (loop (dcgs2Step B T tol) m1 m1 (dcgs2Start B v s0)).bind (dcgs2Finish B m1) = none := by
    rw [e1]
    simp only [Option.bind_some, dcgs2Finish, i1.happy, Bool.false_eq_true, if_false]
    rw [if_pos]
    rw [hz (m1 - 1) (by omega), Finset.sum_eq_zero]
    · simp
    · intro i hi
      rw [hz i (Finset.mem_range.1 hi)]; norm_num
  unfold dcgs2Run
  cases ms with
  | nil => rw [sizes]; exact hpass
  | cons a ms =>
    rw [sizes, hpass]
    rfl

theorem dcgs2Step_first (tol : ℝ) (s s' : Mem W) (hs : dcgs2Step B T tol s = some s') :
    (s.V 0 = v → s'.V 0 = v) ∧ s'.beta = s.beta ∧ s'.j = s.j + 1 := by
  unfold dcgs2Step at hs
  simp only at hs
  by_cases h1 : s.j = 0 ∨ s.normed = true
  · rw [if_pos h1] at hs
    cases hs
    exact ⟨fun hv => by simp only; rw [setV_lt _ _ _ _ (by omega)]; exact hv, rfl, rfl⟩
  · rw [if_neg h1] at hs
    by_cases h2 : B (s.V s.j) (s.V s.j) - ∑ x ∈ Finset.range s.j, B (s.V x) (s.V s.j) ^ 2 ≤ 0
    · rw [if_pos h2] at hs; exact absurd hs (by simp)
    · rw [if_neg h2] at hs
      cases hs
      refine ⟨fun hv => ?_, rfl, rfl⟩
      simp only
      have hj : 0 < s.j := by
        rcases Nat.eq_zero_or_pos s.j with h3 | h3
        · exact absurd (Or.inl h3) h1
        · exact h3
      rw [setV_lt _ _ _ _ (by omega), setV_lt _ _ _ _ hj]; exact hv

theorem dcgs2_pass_first (tol : ℝ) (m : Nat) (hm : 0 < m) (s s' : Mem W) (hv : s.V 0 = v)
    (h0 : 0 < s.j ∨ s.happy = false) (hs : (loop (dcgs2Step B T tol) m m s).bind (dcgs2Finish B m) = some s') :
    s'.V 0 = v ∧ s'.beta = s.beta ∧ 0 < s'.j := by
  have key : ∀ fuel (s s' : Mem W), s.V 0 = v → loop (dcgs2Step B T tol) m fuel s = some s' →
      s'.V 0 = v ∧ s'.beta = s.beta ∧ s.j ≤ s'.j ∧ (0 < fuel → s.happy = false → 0 < s'.j) := by
    intro fuel
    induction fuel with
    | zero => intro s s' h1 h2; cases h2; exact ⟨h1, rfl, le_rfl, fun h => absurd h (by omega)⟩
    | succ n ih =>
      intro s s' h1 h2
      rw [loop] at h2
      by_cases hc : s.j < m ∧ s.happy = false
      · rw [if_pos hc] at h2
        rcases hst : dcgs2Step B T tol s with _ | s1
        · rw [hst] at h2; simp at h2
        · rw [hst] at h2
          obtain ⟨a1, a2, a3⟩ := dcgs2Step_first (v := v) tol s s1 hst
          obtain ⟨b1, b2, b3, b4⟩ := ih s1 s' (a1 h1) h2
          exact ⟨b1, by rw [b2, a2], by omega, fun _ _ => by omega⟩
      · rw [if_neg hc] at h2
        have e : s = s' := by simpa using h2
        subst e
        refine ⟨h1, rfl, le_rfl, fun _ hh => ?_⟩
        by_contra hne
        exact hc ⟨by omega, hh⟩
  rcases hl : loop (dcgs2Step B T tol) m m s with _ | s1
  · rw [hl] at hs; simp at hs
  · rw [hl] at hs
    obtain ⟨b1, b2, b3, b4⟩ := key m s s1 hv hl
    have hj : 0 < s1.j := by
      rcases h0 with hh | hh
      · omega
      · exact b4 hm hh
    simp only [Option.bind_some, dcgs2Finish] at hs
    split_ifs at hs with h1 h2
    · cases hs; exact ⟨b1, b2, hj⟩
    · cases hs
      refine ⟨?_, b2, hj⟩
      simp only
      rw [setV_lt _ _ _ _ hm]; exact b1

theorem dcgs2_sizes_first (tol : ℝ) : ∀ (ms : List Nat) (s s' : Mem W), (∀ a ∈ ms, 0 < a) → ms ≠ [] → s.V 0 = v →
    (0 < s.j ∨ s.happy = false) →
    sizes (fun m s => (loop (dcgs2Step B T tol) m m s).bind (dcgs2Finish B m)) ms s = some s' →
    s'.V 0 = v ∧ s'.beta = s.beta ∧ 0 < s'.j := by
  intro ms
  induction ms with
  | nil => intro s s' _ h; exact absurd rfl h
  | cons a ms ih =>
    intro s s' hpos _ hv h0 hs
    cases ms with
    | nil => rw [sizes] at hs; exact dcgs2_pass_first tol a (hpos a (by simp)) s s' hv h0 hs
    | cons b ms =>
      rw [sizes] at hs
      rw [Option.bind_eq_some_iff] at hs
      obtain ⟨s1, e1, e2⟩ := hs
      obtain ⟨a1, a2, a3⟩ := dcgs2_pass_first tol a (hpos a (by simp)) s s1 hv h0 e1
      obtain ⟨b1, b2, b3⟩ := ih (rejected s1) s' (fun x hx => hpos x (List.mem_cons_of_mem _ hx)) (by simp) a1 (Or.inl a3) e2
      exact ⟨b1, b2.trans a2, b3⟩

end dcgs2

section limit
variable {X : Type*} [NormedAddCommGroup X] [NormedSpace ℝ X] {B : LinearMap.BilinForm ℝ X} {T : X →ₗ[ℝ] X}

attribute [local instance] Matrix.linftyOpNormedRing Matrix.linftyOpNormedAlgebra

/-- over a short time the update is the start vector -/
theorem update_limit (s : Mem X) (hj : 0 < s.j) :
    Filter.Tendsto (fun tau => update tau s) (nhds 0) (nhds (s.beta • s.V 0)) := by
  have h0 : update 0 s = s.beta • s.V 0 := by
    unfold update
    simp only [zero_smul, NormedSpace.exp_zero]
    congr 1
    rw [Finset.sum_eq_single (⟨0, hj⟩ : Fin s.j)]
    · rw [show (⟨0, hj⟩ : Fin s.j).castSucc = 0 by ext; simp, Matrix.one_apply_eq, one_smul]
    · intro b _ hb
      rw [Matrix.one_apply_ne, zero_smul]
      intro h
      apply hb
      ext
      have := congrArg Fin.val h
      simpa using this
    · simp
  have hc : Continuous fun tau => update tau s := by
    unfold update
    refine Continuous.const_smul (continuous_finset_sum _ fun k _ => Continuous.smul ?_ continuous_const) _
    have h1 : Continuous fun tau : ℝ => NormedSpace.exp (tau • expArg s) :=
      (NormedSpace.exp_continuous (𝔸 := Matrix (Fin (s.j + 1)) (Fin (s.j + 1)) ℝ)).comp (continuous_id.smul continuous_const)
    exact (Matrix.entryLinearMap ℝ ℝ k.castSucc 0).toContinuousLinearMap.continuous.comp h1
  rw [← h0]
  exact hc.tendsto 0

/-- **C76**, what fails (`dcgs2`): when there is a result, the start vector is in the basis without having been normalized; over a short
    time the answer is the start vector multiplied by its own norm. -/
theorem C76_dcgs2_scale_fails (v : X) (tol : ℝ) (ms : List Nat) (hpos : ∀ a ∈ ms, 0 < a) (hne : ms ≠ []) (s0 s : Mem X)
    (hs : dcgs2Run B T tol ms v s0 = some s) :
    Filter.Tendsto (fun tau => update tau s) (nhds 0) (nhds (Real.sqrt (B v v) • v)) := by
  obtain ⟨h1, h2, h3⟩ := dcgs2_sizes_first (v := v) tol ms (dcgs2Start B v s0) s hpos hne
    (by simp only [dcgs2Start, start]; rw [setV_self]) (Or.inr rfl) hs
  have := update_limit s h3
  rw [h1, h2] at this
  exact this

end limit

end WxVerif.Props.KrylovLowSync
