import Verif.Lemmas.Dfr
import Verif.Props.Quadrature
import Mathlib.LinearAlgebra.Matrix.ToLinearEquiv
import Mathlib.Analysis.Calculus.Deriv.Polynomial

/-!
# C42, C43: the operators are exact on polynomials and discretely conservative
-/

namespace WxVerif.Props.Operators

open WxVerif.Dfr WxVerif.Quad
open Polynomial

section exactness
variable {K : Type*} [_root_.Field K]

/-- **C42** The differentiation matrix of `M` distinct points gives the exact derivative at these points of
every polynomial of degree below `M`. -/
theorem C42_diffmat (M : Nat) (pts : Nat → K) (hinj : Set.InjOn pts (Finset.range M)) (p : K[X]) (hp : p.degree < M) (j : Nat) :
    ∑ i ∈ Finset.range M, diffmat M pts j i * p.eval (pts i) = (derivative p).eval (pts j) := by
  conv_rhs => rw [eq_sum_lagrange hinj hp]
  rw [derivative_sum, eval_finset_sum]
  apply Finset.sum_congr rfl
  intro i _
  rw [derivative_C_mul, eval_mul, eval_C, diffmat]
  ring

/-- **C42** The values of the basis functions evaluate every polynomial of degree below `M` exactly anywhere. -/
theorem C42_lagrange_eval (M : Nat) (pts : Nat → K) (hinj : Set.InjOn pts (Finset.range M)) (p : K[X]) (hp : p.degree < M) (x : K) :
    ∑ i ∈ Finset.range M, lagrangeEval M pts x i * p.eval (pts i) = p.eval x := by
  conv_rhs => rw [eq_sum_lagrange hinj hp]
  rw [eval_finset_sum]
  apply Finset.sum_congr rfl
  intro i hi
  have hi' := Finset.mem_range.mp hi
  rw [eval_mul, eval_C, lagrangeEval]
  split
  · next h1 =>
    subst h1
    have : i = 0 := by omega
    subst this
    simp [lagrangePoly]
  · ring

/-- the Legendre polynomials of the recurrence, as polynomials -/
noncomputable def legPoly : Nat → K[X]
  | 0 => 1
  | 1 => X
  | i + 2 => C (((i + 2 : Nat) : K)⁻¹) * (legPoly (i + 1) * X * C (2 * ((i + 2 : Nat) : K) - 1) - legPoly i * C (((i + 2 : Nat) : K) - 1))

theorem legPoly_eval (x : K) : ∀ k, (legPoly k).eval x = legendre x k
  | 0 => by simp [legPoly, legendre]
  | 1 => by simp [legPoly, legendre]
  | i + 2 => by
    simp only [legPoly, legendre, eval_mul, eval_sub, eval_C, eval_X, legPoly_eval x (i + 1), legPoly_eval x i]
    rw [div_eq_inv_mul]

theorem legPoly_degree [CharZero K] : ∀ k, (legPoly k : K[X]).natDegree ≤ k ∧ (legPoly k : K[X]).coeff k ≠ 0
  | 0 => by simp [legPoly]
  | 1 => by simp [legPoly]
  | i + 2 => by
    obtain ⟨h1, h2⟩ := legPoly_degree (i + 1)
    obtain ⟨h3, -⟩ := legPoly_degree i
    constructor
    · simp only [legPoly]
      refine (natDegree_C_mul_le _ _).trans ((natDegree_sub_le _ _).trans (max_le ?_ ?_))
      · refine (natDegree_mul_C_le _ _).trans (natDegree_mul_le.trans ?_)
        have := natDegree_X_le (R := K); omega
      · refine (natDegree_mul_C_le _ _).trans ?_; omega
    · have e : (legPoly (i + 2) : K[X]).coeff (i + 2) =
          ((i + 2 : Nat) : K)⁻¹ * ((legPoly (i + 1) : K[X]).coeff (i + 1) * (2 * ((i + 2 : Nat) : K) - 1)) := by
        rw [legPoly, coeff_C_mul, coeff_sub, coeff_mul_C, coeff_mul_C, coeff_mul_X,
          coeff_eq_zero_of_natDegree_lt (p := legPoly i) (by omega)]
        ring
      rw [e]
      refine mul_ne_zero (inv_ne_zero (Nat.cast_ne_zero.mpr (by omega))) (mul_ne_zero h2 ?_)
      have : (2 * ((i + 2 : Nat) : K) - 1) = ((2 * i + 3 : Nat) : K) := by push_cast; ring
      rw [this]
      exact Nat.cast_ne_zero.mpr (by omega)

/-- every polynomial of degree below `n` is a combination of the first `n` Legendre polynomials -/
theorem legPoly_span [CharZero K] : ∀ (n : Nat) (p : K[X]), p.degree < (n : WithBot Nat) → ∃ c : Nat → K, p = ∑ k ∈ Finset.range n, C (c k) * legPoly k
  | 0, p, hp => ⟨fun _ => 0, by
      simp only [Nat.cast_zero] at hp
      have : p = 0 := by
        by_contra h
        exact absurd (zero_le_degree_iff.mpr h) (not_le.mpr hp)
      simp [this]⟩
  | n + 1, p, hp => by
    obtain ⟨h1, h2⟩ := legPoly_degree (K := K) n
    set a := p.coeff n / (legPoly n : K[X]).coeff n with ha
    have hd : (p - C a * legPoly n).degree < (n : WithBot Nat) := by
      rw [degree_lt_iff_coeff_zero]
      intro m hm
      rcases Nat.eq_or_lt_of_le hm with rfl | hlt
      · rw [coeff_sub, coeff_C_mul, ha, div_mul_cancel₀ _ h2, sub_self]
      · rw [coeff_sub, coeff_C_mul, coeff_eq_zero_of_natDegree_lt (p := legPoly n) (by omega),
          coeff_eq_zero_of_degree_lt (lt_of_lt_of_le hp (by exact_mod_cast hlt))]
        ring
    obtain ⟨c, hc⟩ := legPoly_span n _ hd
    refine ⟨fun k => if k = n then a else c k, ?_⟩
    rw [Finset.sum_range_succ]
    beta_reduce
    rw [if_pos rfl]
    have : ∑ k ∈ Finset.range n, C (if k = n then a else c k) * legPoly k = ∑ k ∈ Finset.range n, C (c k) * legPoly k := by
      apply Finset.sum_congr rfl
      intro k hk
      rw [if_neg (Finset.mem_range.mp hk).ne]
    rw [this, ← hc]
    ring

theorem sum_fin_range (n : Nat) (f : Nat → K) : ∑ k : Fin n, f k = ∑ k ∈ Finset.range n, f k :=
  (Finset.sum_range f).symm

/-- the Vandermonde matrix of distinct points is invertible -/
theorem vander_isUnit [CharZero K] (n : Nat) (pts : Nat → K) (hinj : Set.InjOn pts (Finset.range n)) : IsUnit (vander n pts).det := by
  rw [isUnit_iff_ne_zero]
  intro h0
  obtain ⟨c, hc, hv⟩ := Matrix.exists_mulVec_eq_zero_iff.mpr h0
  set p : K[X] := ∑ k ∈ Finset.range n, C (if h : k < n then c ⟨k, h⟩ else 0) * legPoly k with hp
  have hev : ∀ x : K, p.eval x = ∑ k : Fin n, legendre x k * c k := by
    intro x
    rw [hp, eval_finset_sum, ← sum_fin_range n fun k => eval x (C (if h : k < n then c ⟨k, h⟩ else 0) * legPoly k)]
    apply Finset.sum_congr rfl
    intro k _
    simp [legPoly_eval, mul_comm]
  have hdeg : p.degree < (n : WithBot Nat) := by
    rw [degree_lt_iff_coeff_zero]
    intro m hm
    rw [hp, finset_sum_coeff]
    apply Finset.sum_eq_zero
    intro k hk
    have := Finset.mem_range.mp hk
    rw [coeff_C_mul, coeff_eq_zero_of_natDegree_lt, mul_zero]
    have := (legPoly_degree (K := K) k).1
    omega
  have hz : p = 0 := by
    refine Polynomial.eq_zero_of_degree_lt_of_eval_index_eq_zero (s := Finset.range n) (v := pts) hinj (by simpa using hdeg) ?_
    intro i hi
    have := congrFun hv ⟨i, Finset.mem_range.mp hi⟩
    rw [hev]
    simpa [Matrix.mulVec, dotProduct, vander] using this
  -- leading coefficients
  apply hc
  have hall : ∀ m, m ≤ n → ∀ k : Fin n, n - m ≤ k → c k = 0 := by
    intro m
    induction m with
    | zero => intro _ k hk; have := k.isLt; omega
    | succ m ih =>
      intro hm k hk
      by_cases hkk : n - m ≤ k
      · exact ih (by omega) k hkk
      · have hk1 : (k : Nat) = n - (m + 1) := by omega
        have hcf : p.coeff k = 0 := by rw [hz]; simp
        rw [hp, finset_sum_coeff, Finset.sum_eq_single (k : Nat)] at hcf
        · rw [coeff_C_mul, dif_pos k.isLt] at hcf
          exact (mul_eq_zero.mp hcf).resolve_right (legPoly_degree (K := K) k).2
        · intro b hb hne
          have hbn := Finset.mem_range.mp hb
          rw [coeff_C_mul, dif_pos hbn]
          rcases lt_or_gt_of_ne hne with h | h
          · rw [coeff_eq_zero_of_natDegree_lt (lt_of_le_of_lt (legPoly_degree (K := K) b).1 h), mul_zero]
          · rw [ih (by omega) ⟨b, hbn⟩ (by simp; omega), zero_mul]
        · intro h; exact absurd (Finset.mem_range.mpr k.isLt) h
  funext k
  exact hall n le_rfl k (by omega)

/-- **C42** The extrapolation vectors evaluate every polynomial of degree below `n` exactly at the element ends
(at any reference coordinate). -/
theorem C42_extrapolation [CharZero K] (n : Nat) (pts : Nat → K) (hinj : Set.InjOn pts (Finset.range n)) (p : K[X])
    (hp : p.degree < (n : WithBot Nat)) (e : K) : ∑ i : Fin n, extrap n pts e i * p.eval (pts i) = p.eval e := by
  obtain ⟨c, hc⟩ := legPoly_span n p hp
  have hev : ∀ x : K, p.eval x = ∑ k : Fin n, legendre x k * c k := by
    intro x
    rw [hc, eval_finset_sum, ← sum_fin_range n fun k => eval x (C (c k) * legPoly k)]
    apply Finset.sum_congr rfl
    intro k _
    simp [legPoly_eval, mul_comm]
  have hV : (fun i : Fin n => p.eval (pts i)) = (vander n pts).mulVec fun k : Fin n => c k := by
    funext i
    simp [hev, Matrix.mulVec, dotProduct, vander]
  have hsol : (vander n pts)⁻¹.mulVec (fun i : Fin n => p.eval (pts i)) = fun k : Fin n => c k := by
    rw [hV, Matrix.mulVec_mulVec, Matrix.nonsing_inv_mul _ (vander_isUnit n pts hinj), Matrix.one_mulVec]
  rw [hev e]
  unfold extrap
  simp only [Finset.sum_mul]
  rw [Finset.sum_comm]
  apply Finset.sum_congr rfl
  intro k _
  have := congrFun hsol k
  simp only [Matrix.mulVec, dotProduct] at this
  rw [← this, Finset.mul_sum]
  apply Finset.sum_congr rfl
  intros; ring

/-! ## Corrected derivative -/

theorem sum_ext_split (n : Nat) (F : Nat → K) :
    ∑ i ∈ Finset.range (n + 2), F i = F 0 + ∑ j ∈ Finset.range n, F (j + 1) + F (n + 1) := by
  rw [Finset.sum_range_succ F (n + 1), Finset.sum_range_succ' F n]; ring

theorem extension_zero (n : Nat) (pts : Nat → K) : extension n pts 0 = -1 := by simp [extension]
theorem extension_mid {n : Nat} (pts : Nat → K) {j : Nat} (h : j < n) : extension n pts (j + 1) = pts j := by
  simp [extension]; omega
theorem extension_last (n : Nat) (pts : Nat → K) : extension n pts (n + 1) = 1 := by simp [extension]

/-- **C42** The derivative with interface correction is exact at the solution points for every polynomial of
degree at most `n + 1`, when the exact values at the two ends are supplied. -/
theorem C42_corrected (n : Nat) (pts : Nat → K) (hinj : Set.InjOn (extension n pts) (Finset.range (n + 2))) (p : K[X])
    (hp : p.degree < ((n + 2 : Nat) : WithBot Nat)) (i : Nat) (hi : i < n) :
    ∑ j ∈ Finset.range n, diffSolpt n pts i j * p.eval (pts j) + corrWest n pts i * p.eval (-1) + corrEast n pts i * p.eval 1 =
      (derivative p).eval (pts i) := by
  have h := C42_diffmat (n + 2) (extension n pts) hinj p hp (i + 1)
  rw [sum_ext_split, extension_mid pts hi, extension_zero, extension_last] at h
  rw [← h]
  have : ∑ j ∈ Finset.range n, diffmat (n + 2) (extension n pts) (i + 1) (j + 1) * p.eval (extension n pts (j + 1)) =
      ∑ j ∈ Finset.range n, diffSolpt n pts i j * p.eval (pts j) := by
    apply Finset.sum_congr rfl
    intro j hj
    rw [extension_mid pts (Finset.mem_range.mp hj)]
    rfl
  rw [this]
  unfold corrWest corrEast diffExt
  ring

/-! ## Two- and three-dimensional operators act line by line -/

/-- the one-dimensional corrected derivative of values along a line -/
noncomputable def lineDeriv (n : Nat) (pts : Nat → K) (f : Nat → K) (left right : K) (i : Nat) : K :=
  ∑ a ∈ Finset.range n, diffSolpt n pts i a * f a + corrWest n pts i * left + corrEast n pts i * right

theorem df1_2d_line {n : Nat} (pts f itf : Nat → K) {j i : Nat} (hj : j < n) (hi : i < n) :
    df1_2d n pts f itf (j * n + i) = lineDeriv n pts (fun a => f (j * n + a)) (itf j) (itf (n + j)) i := by
  have w : ∀ (v g : Nat → K), ∑ r ∈ Finset.range n, g r * kron 1 n eye (row v) r (j * n + i) = g j * v i := by
    intro v g
    have := kron_eye_left_tr (s := n) (rb := 1) (cb := n) hj hi (row v) g
    simpa [row] using this
  unfold df1_2d vecmul derivativeX2 correctionWE2 tr lineDeriv
  rw [kron_eye_left hj hi, vstack_sum, w, w _ (fun r => itf (n + r))]
  simp only [mul_comm]; ring

theorem df2_2d_line {n : Nat} (pts f itf : Nat → K) {j i : Nat} (hi : i < n) :
    df2_2d n pts f itf (j * n + i) = lineDeriv n pts (fun a => f (a * n + i)) (itf i) (itf (n + i)) j := by
  have w : ∀ (v g : Nat → K), ∑ r ∈ Finset.range n, g r * kron n n (row v) eye r (j * n + i) = g i * v j := by
    intro v g
    have := kron_eye_right_tr (s := 1) (q := n) (a := j) hi (row v) g
    simpa [row] using this
  unfold df2_2d vecmul derivativeY2 correctionSN2 tr lineDeriv
  rw [kron_eye_right hi, vstack_sum, w, w _ (fun r => itf (n + r))]
  simp only [mul_comm]; ring

theorem flat {n k j i : Nat} : (k * n + j) * n + i = k * (n * n) + (j * n + i) := by ring

theorem sub_lt {n j i : Nat} (hj : j < n) (hi : i < n) : j * n + i < n * n := by
  have := Nat.mul_le_mul_right n (show j + 1 ≤ n by omega)
  rw [Nat.succ_mul] at this; omega

theorem df1_3d_line {n : Nat} (pts f itf : Nat → K) {k j i : Nat} (hk : k < n) (hj : j < n) (hi : i < n) :
    df1_3d n pts f itf ((k * n + j) * n + i) =
      lineDeriv n pts (fun a => f ((k * n + j) * n + a)) (itf (k * n + j)) (itf (n * n + (k * n + j))) i := by
  have hkj := sub_lt hk hj
  have w : ∀ (v g : Nat → K), ∑ r ∈ Finset.range (n * n), g r * kron 1 n eye (row v) r ((k * n + j) * n + i) = g (k * n + j) * v i := by
    intro v g
    have := kron_eye_left_tr (s := n * n) (rb := 1) (cb := n) hkj hi (row v) g
    simpa [row] using this
  unfold df1_3d vecmul derivativeX3 correctionWE3 tr lineDeriv
  rw [kron_eye_left hkj hi, vstack_sum, w, w _ (fun r => itf (n * n + r))]
  simp only [mul_comm]; ring

theorem df2_3d_line {n : Nat} (pts f itf : Nat → K) {k j i : Nat} (hk : k < n) (hj : j < n) (hi : i < n) :
    df2_3d n pts f itf ((k * n + j) * n + i) =
      lineDeriv n pts (fun a => f ((k * n + a) * n + i)) (itf (k * n + i)) (itf (n * n + (k * n + i))) j := by
  have hji := sub_lt hj hi
  have w : ∀ (v g : Nat → K), ∑ r ∈ Finset.range (n * n),
      g r * kron n (n * n) eye (kron n n (row v) eye) r (k * (n * n) + (j * n + i)) = g (k * n + i) * v j := by
    intro v g
    rw [kron_eye_left_tr (s := n) (rb := n) (cb := n * n) hk hji]
    have := kron_eye_right_tr (s := 1) (q := n) (a := j) hi (row v) (fun r => g (k * n + r))
    simpa [row] using this
  simp only [flat]
  unfold df2_3d vecmul derivativeY3 correctionSN3 tr lineDeriv
  rw [Nat.mul_assoc, kron_eye_left hk hji, kron_eye_right hi, vstack_sum, w, w _ (fun r => itf (n * n + r))]
  simp only [mul_comm]; ring

theorem df3_3d_line {n : Nat} (pts f itf : Nat → K) {k j i : Nat} (hj : j < n) (hi : i < n) :
    df3_3d n pts f itf ((k * n + j) * n + i) =
      lineDeriv n pts (fun a => f ((a * n + j) * n + i)) (itf (j * n + i)) (itf (n * n + (j * n + i))) k := by
  have hji := sub_lt hj hi
  have w : ∀ (v g : Nat → K), ∑ r ∈ Finset.range (n * n),
      g r * kron (n * n) (n * n) (row v) eye r (k * (n * n) + (j * n + i)) = g (j * n + i) * v k := by
    intro v g
    have := kron_eye_right_tr (s := 1) (q := n * n) (a := k) hji (row v) g
    simpa [row] using this
  simp only [flat]
  unfold df3_3d vecmul derivativeZ3 correctionDU3 tr lineDeriv
  rw [Nat.mul_assoc, kron_eye_right hji, vstack_sum, w, w _ (fun r => itf (n * n + r))]
  simp only [mul_comm]; ring

/-- **C42** Along every line of the element, the corrected derivatives of a 2D element are exact for every flux which is
a polynomial of degree at most `n + 1` along this line, with exact interface values.  Point `(i, j)` is stored at `j n + i`. -/
theorem C42_derivative_2d (n : Nat) (pts : Nat → K) (hinj : Set.InjOn (extension n pts) (Finset.range (n + 2)))
    (j i : Nat) (hj : j < n) (hi : i < n) (f itf : Nat → K) (p : K[X]) (hp : p.degree < ((n + 2 : Nat) : WithBot Nat)) :
    ((∀ a < n, f (j * n + a) = p.eval (pts a)) → itf j = p.eval (-1) → itf (n + j) = p.eval 1 →
      df1_2d n pts f itf (j * n + i) = (derivative p).eval (pts i)) ∧
    ((∀ a < n, f (a * n + i) = p.eval (pts a)) → itf i = p.eval (-1) → itf (n + i) = p.eval 1 →
      df2_2d n pts f itf (j * n + i) = (derivative p).eval (pts j)) := by
  constructor
  · intro h1 h2 h3
    rw [df1_2d_line pts f itf hj hi, lineDeriv, h2, h3, ← C42_corrected n pts hinj p hp i hi]
    congr 2
    exact Finset.sum_congr rfl fun a ha => by rw [h1 a (Finset.mem_range.mp ha)]
  · intro h1 h2 h3
    rw [df2_2d_line pts f itf hi, lineDeriv, h2, h3, ← C42_corrected n pts hinj p hp j hj]
    congr 2
    exact Finset.sum_congr rfl fun a ha => by rw [h1 a (Finset.mem_range.mp ha)]

/-- **C42** The same in a 3D element; point `(i, j, k)` is stored at `(k n + j) n + i`. -/
theorem C42_derivative_3d (n : Nat) (pts : Nat → K) (hinj : Set.InjOn (extension n pts) (Finset.range (n + 2)))
    (k j i : Nat) (hk : k < n) (hj : j < n) (hi : i < n) (f itf : Nat → K) (p : K[X]) (hp : p.degree < ((n + 2 : Nat) : WithBot Nat)) :
    ((∀ a < n, f ((k * n + j) * n + a) = p.eval (pts a)) → itf (k * n + j) = p.eval (-1) → itf (n * n + (k * n + j)) = p.eval 1 →
      df1_3d n pts f itf ((k * n + j) * n + i) = (derivative p).eval (pts i)) ∧
    ((∀ a < n, f ((k * n + a) * n + i) = p.eval (pts a)) → itf (k * n + i) = p.eval (-1) → itf (n * n + (k * n + i)) = p.eval 1 →
      df2_3d n pts f itf ((k * n + j) * n + i) = (derivative p).eval (pts j)) ∧
    ((∀ a < n, f ((a * n + j) * n + i) = p.eval (pts a)) → itf (j * n + i) = p.eval (-1) → itf (n * n + (j * n + i)) = p.eval 1 →
      df3_3d n pts f itf ((k * n + j) * n + i) = (derivative p).eval (pts k)) := by
  refine ⟨?_, ?_, ?_⟩
  · intro h1 h2 h3
    rw [df1_3d_line pts f itf hk hj hi, lineDeriv, h2, h3, ← C42_corrected n pts hinj p hp i hi]
    congr 2
    exact Finset.sum_congr rfl fun a ha => by rw [h1 a (Finset.mem_range.mp ha)]
  · intro h1 h2 h3
    rw [df2_3d_line pts f itf hk hj hi, lineDeriv, h2, h3, ← C42_corrected n pts hinj p hp j hj]
    congr 2
    exact Finset.sum_congr rfl fun a ha => by rw [h1 a (Finset.mem_range.mp ha)]
  · intro h1 h2 h3
    rw [df3_3d_line pts f itf hj hi, lineDeriv, h2, h3, ← C42_corrected n pts hinj p hp k hk]
    congr 2
    exact Finset.sum_congr rfl fun a ha => by rw [h1 a (Finset.mem_range.mp ha)]

theorem extrapVec_exact [CharZero K] {n : Nat} {pts : Nat → K} (hinj : Set.InjOn pts (Finset.range n)) {p : K[X]}
    (hp : p.degree < (n : WithBot Nat)) (e : K) {g : Nat → K} (hg : ∀ a < n, g a = p.eval (pts a)) :
    ∑ a ∈ Finset.range n, g a * extrapVec n pts e a = p.eval e := by
  rw [← C42_extrapolation n pts hinj p hp e, ← sum_fin_range n (fun a => g a * extrapVec n pts e a)]
  apply Finset.sum_congr rfl
  intro a _
  rw [extrapVec, dif_pos a.isLt, hg a a.isLt, mul_comm]

/-- **C42** The extrapolation operators of 2D elements give on each line the exact end values of every polynomial of degree
below `n`: the first `n` entries are the west (south) ends, the last `n` the east (north) ends. -/
theorem C42_extrap_2d [CharZero K] (n : Nat) (pts : Nat → K) (hinj : Set.InjOn pts (Finset.range n)) (f : Nat → K)
    (l : Nat) (hl : l < n) (p : K[X]) (hp : p.degree < (n : WithBot Nat)) :
    ((∀ a < n, f (l * n + a) = p.eval (pts a)) →
      vecmul (n * n) f (extrapX2 n (extrapVec n pts (-1)) (extrapVec n pts 1)) l = p.eval (-1) ∧
      vecmul (n * n) f (extrapX2 n (extrapVec n pts (-1)) (extrapVec n pts 1)) (n + l) = p.eval 1) ∧
    ((∀ a < n, f (a * n + l) = p.eval (pts a)) →
      vecmul (n * n) f (extrapY2 n (extrapVec n pts (-1)) (extrapVec n pts 1)) l = p.eval (-1) ∧
      vecmul (n * n) f (extrapY2 n (extrapVec n pts (-1)) (extrapVec n pts 1)) (n + l) = p.eval 1) := by
  have hx : ∀ v : Nat → K, ∑ c ∈ Finset.range (n * n), f c * kron 1 n eye (row v) l c = ∑ a ∈ Finset.range n, f (l * n + a) * v a := by
    intro v
    have := kron_eye_left (s := n) (rb := 1) (cb := n) (i := 0) hl (by omega) (row v) f
    simpa [row] using this
  have hy : ∀ v : Nat → K, ∑ c ∈ Finset.range (n * n), f c * kron n n (row v) eye l c = ∑ a ∈ Finset.range n, f (a * n + l) * v a := by
    intro v
    have := kron_eye_right (s := n) (q := n) (a := 0) hl (row v) f
    simpa [row] using this
  constructor
  · intro h
    refine ⟨?_, ?_⟩
    · simp only [vecmul, extrapX2, tr, vstack, hl, if_true]
      rw [hx, extrapVec_exact hinj hp _ h]
    · simp only [vecmul, extrapX2, tr, vstack, show ¬(n + l < n) by omega, if_false, Nat.add_sub_cancel_left]
      rw [hx, extrapVec_exact hinj hp _ h]
  · intro h
    refine ⟨?_, ?_⟩
    · simp only [vecmul, extrapY2, tr, vstack, hl, if_true]
      rw [hy, extrapVec_exact hinj hp _ h]
    · simp only [vecmul, extrapY2, tr, vstack, show ¬(n + l < n) by omega, if_false, Nat.add_sub_cancel_left]
      rw [hy, extrapVec_exact hinj hp _ h]

/-- **C42** The same for 3D elements: entry `k n + j` is the end of the line `(j, k)` along x1, entry `k n + i` that of the
line `(i, k)` along x2, entry `j n + i` that of the line `(i, j)` along x3. -/
theorem C42_extrap_3d [CharZero K] (n : Nat) (pts : Nat → K) (hinj : Set.InjOn pts (Finset.range n)) (f : Nat → K)
    (m l : Nat) (hm : m < n) (hl : l < n) (p : K[X]) (hp : p.degree < (n : WithBot Nat)) :
    ((∀ a < n, f ((m * n + l) * n + a) = p.eval (pts a)) →
      vecmul (n * n * n) f (extrapX3 n (extrapVec n pts (-1)) (extrapVec n pts 1)) (m * n + l) = p.eval (-1) ∧
      vecmul (n * n * n) f (extrapX3 n (extrapVec n pts (-1)) (extrapVec n pts 1)) (n * n + (m * n + l)) = p.eval 1) ∧
    ((∀ a < n, f ((m * n + a) * n + l) = p.eval (pts a)) →
      vecmul (n * n * n) f (extrapY3 n (extrapVec n pts (-1)) (extrapVec n pts 1)) (m * n + l) = p.eval (-1) ∧
      vecmul (n * n * n) f (extrapY3 n (extrapVec n pts (-1)) (extrapVec n pts 1)) (n * n + (m * n + l)) = p.eval 1) ∧
    ((∀ a < n, f ((a * n + m) * n + l) = p.eval (pts a)) →
      vecmul (n * n * n) f (extrapZ3 n (extrapVec n pts (-1)) (extrapVec n pts 1)) (m * n + l) = p.eval (-1) ∧
      vecmul (n * n * n) f (extrapZ3 n (extrapVec n pts (-1)) (extrapVec n pts 1)) (n * n + (m * n + l)) = p.eval 1) := by
  have hml := sub_lt hm hl
  have hx : ∀ v : Nat → K, ∑ c ∈ Finset.range (n * n * n), f c * kron 1 n eye (row v) (m * n + l) c =
      ∑ a ∈ Finset.range n, f ((m * n + l) * n + a) * v a := by
    intro v
    have := kron_eye_left (s := n * n) (rb := 1) (cb := n) (i := 0) hml (by omega) (row v) f
    simpa [row] using this
  have hy : ∀ v : Nat → K, ∑ c ∈ Finset.range (n * n * n), f c * kron n (n * n) eye (kron n n (row v) eye) (m * n + l) c =
      ∑ a ∈ Finset.range n, f ((m * n + a) * n + l) * v a := by
    intro v
    rw [Nat.mul_assoc, kron_eye_left (s := n) (rb := n) (cb := n * n) hm hl]
    have := kron_eye_right (s := n) (q := n) (a := 0) hl (row v) (fun c => f (m * (n * n) + c))
    simp only [flat]
    simpa [row] using this
  have hz : ∀ v : Nat → K, ∑ c ∈ Finset.range (n * n * n), f c * kron (n * n) (n * n) (row v) eye (m * n + l) c =
      ∑ a ∈ Finset.range n, f ((a * n + m) * n + l) * v a := by
    intro v
    have := kron_eye_right (s := n) (q := n * n) (a := 0) hml (row v) f
    simp only [flat]
    rw [Nat.mul_assoc]
    simpa [row] using this
  refine ⟨?_, ?_, ?_⟩
  · intro h
    refine ⟨?_, ?_⟩
    · simp only [vecmul, extrapX3, tr, vstack, hml, if_true]
      rw [hx, extrapVec_exact hinj hp _ h]
    · simp only [vecmul, extrapX3, tr, vstack, show ¬(n * n + (m * n + l) < n * n) by omega, if_false, Nat.add_sub_cancel_left]
      rw [hx, extrapVec_exact hinj hp _ h]
  · intro h
    refine ⟨?_, ?_⟩
    · simp only [vecmul, extrapY3, tr, vstack, hml, if_true]
      rw [hy, extrapVec_exact hinj hp _ h]
    · simp only [vecmul, extrapY3, tr, vstack, show ¬(n * n + (m * n + l) < n * n) by omega, if_false, Nat.add_sub_cancel_left]
      rw [hy, extrapVec_exact hinj hp _ h]
  · intro h
    refine ⟨?_, ?_⟩
    · simp only [vecmul, extrapZ3, tr, vstack, hml, if_true]
      rw [hz, extrapVec_exact hinj hp _ h]
    · simp only [vecmul, extrapZ3, tr, vstack, show ¬(n * n + (m * n + l) < n * n) by omega, if_false, Nat.add_sub_cancel_left]
      rw [hz, extrapVec_exact hinj hp _ h]

/-! ## Skew-centrosymmetry -/

theorem lagrangePoly_degree {M : Nat} {xi : Nat → K} (hinj : Set.InjOn xi (Finset.range M)) {i : Nat} (hi : i < M) :
    (lagrangePoly (M - 1) i xi).degree < (M : WithBot Nat) := by
  rw [lagrangePoly_eq_basis (by omega), show M - 1 + 1 = M by omega, Lagrange.degree_basis hinj (Finset.mem_range.mpr hi), Finset.card_range]
  exact_mod_cast (by omega)

theorem lagrangePoly_eval {M : Nat} {xi : Nat → K} (hinj : Set.InjOn xi (Finset.range M)) {i a : Nat} (hi : i < M) (ha : a < M) :
    (lagrangePoly (M - 1) i xi).eval (xi a) = if a = i then 1 else 0 := by
  rw [lagrangePoly_eq_basis (by omega), show M - 1 + 1 = M by omega]
  split
  · next h => subst h; exact Lagrange.eval_basis_self hinj (Finset.mem_range.mpr hi)
  · next h => exact Lagrange.eval_basis_of_ne (Ne.symm h) (Finset.mem_range.mpr ha)

/-- mirror-symmetric points give a skew-centrosymmetric differentiation matrix -/
theorem diffmat_skew {M : Nat} {pts : Nat → K} (hinj : Set.InjOn pts (Finset.range M))
    (hsym : ∀ i < M, pts (M - 1 - i) = -pts i) {j i : Nat} (hj : j < M) (hi : i < M) :
    diffmat M pts (M - 1 - j) (M - 1 - i) = -diffmat M pts j i := by
  set q : K[X] := (lagrangePoly (M - 1) i pts).comp (-X) with hq
  have hqd : q.degree < (M : WithBot Nat) := by
    have h1 := lagrangePoly_degree hinj hi
    have : q.natDegree ≤ (lagrangePoly (M - 1) i pts).natDegree := by
      rw [hq]; exact (natDegree_comp_le).trans (by simp)
    rcases eq_or_ne q 0 with h0 | h0
    · rw [h0, degree_zero]; exact WithBot.bot_lt_coe M
    · rw [degree_eq_natDegree h0]
      have h2 : (lagrangePoly (M - 1) i pts) ≠ 0 := by rintro h; rw [hq, h] at h0; simp at h0
      rw [degree_eq_natDegree h2] at h1
      have h1' : (lagrangePoly (M - 1) i pts).natDegree < M := by exact_mod_cast h1
      exact_mod_cast lt_of_le_of_lt this h1'
  have h := C42_diffmat M pts hinj q hqd (M - 1 - j)
  have hev : ∀ a < M, q.eval (pts a) = if a = M - 1 - i then 1 else 0 := by
    intro a ha
    rw [hq, eval_comp, eval_neg, eval_X, ← hsym a ha, lagrangePoly_eval hinj hi (by omega)]
    congr 1
    exact propext ⟨fun h => by omega, fun h => by omega⟩
  rw [Finset.sum_congr rfl (fun a ha => by rw [hev a (Finset.mem_range.mp ha)]), Finset.sum_eq_single (M - 1 - i)] at h
  · rw [if_pos rfl, mul_one] at h
    rw [h, hq, derivative_comp, eval_mul, eval_comp, hsym j hj]
    simp [diffmat]
  · intro b _ hne; rw [if_neg hne, mul_zero]
  · intro h; exact absurd (Finset.mem_range.mpr (by omega)) h

/-- **C42** The symmetry check accepts exactly the skew-centrosymmetric matrices: turning the matrix by half a turn negates it. -/
theorem C42_check_iff [CharZero K] [DecidableEq K] (n : Nat) (m : Nat → Nat → K) :
    checkSkewCentro n m = true ↔ ∀ i < n, ∀ j < n, m (n - 1 - i) (n - 1 - j) = -m i j := by
  have key : checkSkewCentro n m = true ↔
      ((n % 2 = 0 ∨ m ((if n % 2 = 0 then n / 2 else n / 2 + 1) - 1) ((if n % 2 = 0 then n / 2 else n / 2 + 1) - 1) = 0) ∧
        ∀ i < (if n % 2 = 0 then n / 2 else n / 2 + 1), ∀ j < n, m i j = -m (n - i - 1) (n - j - 1)) := by
    simp [checkSkewCentro, List.all_eq_true]
  rw [key]
  generalize hmid : (if n % 2 = 0 then n / 2 else n / 2 + 1) = mid
  have hm2 : (n % 2 = 0 → 2 * mid = n) ∧ (n % 2 ≠ 0 → 2 * mid = n + 1) := by
    constructor <;> intro h
    · rw [if_pos h] at hmid; omega
    · rw [if_neg h] at hmid; omega
  constructor
  · rintro ⟨-, h⟩ i hi j hj
    rcases Nat.lt_or_ge i mid with h1 | h1
    · have := h i h1 j hj
      rw [show n - 1 - i = n - i - 1 by omega, show n - 1 - j = n - j - 1 by omega, this, neg_neg]
    · have := h (n - 1 - i) (by omega) (n - 1 - j) (by omega)
      rw [this, show n - (n - 1 - i) - 1 = i by omega, show n - (n - 1 - j) - 1 = j by omega]
  · intro h
    refine ⟨?_, ?_⟩
    · by_cases h0 : n % 2 = 0
      · exact Or.inl h0
      · right
        have hm := hm2.2 h0
        have := h (mid - 1) (by omega) (mid - 1) (by omega)
        rw [show n - 1 - (mid - 1) = mid - 1 by omega] at this
        have h2 : 2 * m (mid - 1) (mid - 1) = 0 := by linear_combination this
        simpa using h2
    · intro i hi j hj
      have hi' : i < n := by
        by_cases h0 : n % 2 = 0
        · have := hm2.1 h0; omega
        · have := hm2.2 h0; omega
      have := h i hi' j hj
      rw [show n - i - 1 = n - 1 - i by omega, show n - j - 1 = n - 1 - j by omega, this, neg_neg]

/-- **C42** For mirror-symmetric solution points inside the element the symmetry check passes, so building the operators
never raises "something horribly wrong". -/
theorem C42_symmetry_check [CharZero K] [DecidableEq K] (n : Nat) (pts : Nat → K)
    (hinj : Set.InjOn (extension n pts) (Finset.range (n + 2))) (hsym : ∀ i < n, pts (n - 1 - i) = -pts i) :
    checkSkewCentro (n + 2) (diffExt n pts) = true := by
  have hs : ∀ i < n + 2, extension n pts (n + 2 - 1 - i) = -extension n pts i := by
    intro i hi
    rcases Nat.eq_zero_or_pos i with rfl | h0
    · rw [extension_zero, show n + 2 - 1 - 0 = n + 1 by omega, extension_last]; ring
    · rcases Nat.lt_or_ge i (n + 1) with h1 | h1
      · obtain ⟨j, rfl⟩ : ∃ j, i = j + 1 := ⟨i - 1, by omega⟩
        rw [extension_mid pts (by omega), show n + 2 - 1 - (j + 1) = (n - 1 - j) + 1 by omega, extension_mid pts (by omega), hsym j (by omega)]
      · have : i = n + 1 := by omega
        subst this
        rw [extension_last, show n + 2 - 1 - (n + 1) = 0 by omega, extension_zero]
  have key : ∀ j < n + 2, ∀ i < n + 2, diffExt n pts (n + 2 - 1 - j) (n + 2 - 1 - i) = -diffExt n pts j i :=
    fun j hj i hi => diffmat_skew hinj hs hj hi
  unfold checkSkewCentro
  simp only [Bool.and_eq_true, Bool.or_eq_true, decide_eq_true_eq, beq_iff_eq, List.all_eq_true, List.mem_range]
  constructor
  · by_cases h2 : (n + 2) % 2 = 0
    · exact Or.inl h2
    · right
      rw [if_neg h2]
      have hm : n + 2 - 1 - ((n + 2) / 2 + 1 - 1) = (n + 2) / 2 + 1 - 1 := by omega
      have := key ((n + 2) / 2 + 1 - 1) (by omega) ((n + 2) / 2 + 1 - 1) (by omega)
      rw [hm] at this
      exact self_eq_neg.mp this
  · intro i hi j hj
    have hi' : i < n + 2 := by split at hi <;> omega
    have := key i hi' j hj
    rw [show n + 2 - i - 1 = n + 2 - 1 - i by omega, show n + 2 - j - 1 = n + 2 - 1 - j by omega, this, neg_neg]

end exactness
/-- three symmetric points, with the two ends of the element: -1, -1/2, 0, 1/2, 1 -/
theorem three_points : Set.InjOn (extension 3 fun a => (a : ℚ) / 2 - 1 / 2) (Finset.range (3 + 2)) := by
  intro a ha b hb hab
  have ha' : a < 5 := by simpa using ha
  have hb' : b < 5 := by simpa using hb
  interval_cases a <;> interval_cases b <;> first | rfl | (norm_num [extension] at hab)

/-- a polynomial of degree four is differentiated exactly on them, and the check of the code passes -/
example : ∑ j ∈ Finset.range 3, diffSolpt 3 (fun a => (a : ℚ) / 2 - 1 / 2) 2 j * ((X ^ 4 + X : ℚ[X]).eval ((j : ℚ) / 2 - 1 / 2)) +
      corrWest 3 (fun a => (a : ℚ) / 2 - 1 / 2) 2 * (X ^ 4 + X : ℚ[X]).eval (-1) + corrEast 3 (fun a => (a : ℚ) / 2 - 1 / 2) 2 * (X ^ 4 + X : ℚ[X]).eval 1 = 3 / 2 ∧
    checkSkewCentro (3 + 2) (diffExt 3 fun a => (a : ℚ) / 2 - 1 / 2) = true := by
  refine ⟨?_, C42_symmetry_check 3 _ three_points ?_⟩
  · have hd : (X ^ 4 + X : ℚ[X]).degree < ((3 + 2 : Nat) : WithBot Nat) := by
      have : (X ^ 4 + X : ℚ[X]).degree = 4 := by compute_degree!
      rw [this]; norm_num
    refine (C42_corrected 3 (fun a => (a : ℚ) / 2 - 1 / 2) three_points (X ^ 4 + X) hd 2 (by norm_num)).trans ?_
    simp; norm_num
  · intro i hi; interval_cases i <;> norm_num

/-- every rule of the code meets them too -/
example : ∃ xs ws, gaussLegendre 5 = .rule xs ws ∧ xs.length = 5 :=
  let ⟨xs, ws, h, hq⟩ := WxVerif.Props.Quadrature.C41_rule 5 (by norm_num) (by norm_num)
  ⟨xs, ws, h, hq.nodes_length⟩

end WxVerif.Props.Operators
