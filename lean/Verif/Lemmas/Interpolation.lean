import Verif.Spec.Interpolation
import Verif.Props.Operators
import Mathlib.LinearAlgebra.Matrix.PosDef
import Mathlib.Tactic.FieldSimp

/-!
# Lemmas for C99
-/

namespace WxVerif.Interpolation
open Matrix WxVerif.Dfr Polynomial
open scoped Kronecker

/-! ## Products of operators -/

/-- index of a pair -/
theorem pair_lt {a b r s : Nat} (ha : a < r) (hb : b < s) : a * s + b < r * s :=
  calc a * s + b < a * s + s := by omega
    _ = (a + 1) * s := by ring
    _ ≤ r * s := Nat.mul_le_mul_right _ ha

theorem pair_equiv {r s : Nat} (a : Fin r) (b : Fin s) : (⟨a.1 * s + b.1, pair_lt a.2 b.2⟩ : Fin (r * s)) = finProdFinEquiv (a, b) := by
  apply Fin.ext
  simp only [finProdFinEquiv_apply_val]
  ring

theorem kron_apply (A B : Op) (a : Fin A.rows) (b : Fin B.rows) (v : Nat → Nat → ℝ) (e : Nat) :
    applyOp (kron A B) v e (a.1 * B.rows + b.1) =
      ∑ j : Fin A.cols, A.mat a j * ∑ l : Fin B.cols, B.mat b l * v e (j.1 * B.cols + l.1) := by
  have h : a.1 * B.rows + b.1 < (kron A B).rows := pair_lt a.2 b.2
  unfold applyOp
  rw [dif_pos h]
  have e1 : (⟨a.1 * B.rows + b.1, h⟩ : Fin (kron A B).rows) = (finProdFinEquiv (a, b) : Fin (A.rows * B.rows)) := pair_equiv a b
  rw [e1]
  have e2 : ∀ x : Fin A.cols × Fin B.cols, (kron A B).mat (finProdFinEquiv (a, b) : Fin (A.rows * B.rows)) (finProdFinEquiv x : Fin (A.cols * B.cols)) *
      v e ((finProdFinEquiv x : Fin (A.cols * B.cols)) : Nat) = A.mat a x.1 * (B.mat b x.2 * v e (x.1.1 * B.cols + x.2.1)) := by
    intro x
    have : (kron A B).mat (finProdFinEquiv (a, b) : Fin (A.rows * B.rows)) (finProdFinEquiv x : Fin (A.cols * B.cols)) = A.mat a x.1 * B.mat b x.2 := by
      simp [kron, Matrix.reindex_apply, Matrix.submatrix_apply, Matrix.kroneckerMap_apply]
    rw [this, finProdFinEquiv_apply_val, mul_assoc, Nat.add_comm, Nat.mul_comm]
  calc ∑ q : Fin (A.cols * B.cols), (kron A B).mat (finProdFinEquiv (a, b) : Fin (A.rows * B.rows)) q * v e q.1
      = ∑ x : Fin A.cols × Fin B.cols, A.mat a x.1 * (B.mat b x.2 * v e (x.1.1 * B.cols + x.2.1)) := by
        rw [← Equiv.sum_comp finProdFinEquiv]
        exact Finset.sum_congr rfl fun x _ => e2 x
    _ = _ := by
        rw [Fintype.sum_prod_type]
        exact Finset.sum_congr rfl fun j _ => by rw [Finset.mul_sum]

/-- if one-dimensional weights reproduce a class of functions, their product reproduces functions that are in the class in each variable -/
theorem plane_exact {E : Op} {o d : Nat → ℝ} {P : (ℝ → ℝ) → Prop}
    (hE : ∀ g, P g → ∀ i : Fin E.rows, ∑ j : Fin E.cols, E.mat i j * g (o j) = g (d i)) {f : ℝ → ℝ → ℝ} (hx : ∀ y, P fun x => f x y)
    (hy : ∀ x, P (f x)) {v : Nat → Nat → ℝ} {e : Nat} (hv : ∀ a < E.cols, ∀ b < E.cols, v e (a * E.cols + b) = f (o a) (o b))
    {a b : Nat} (ha : a < E.rows) (hb : b < E.rows) : applyOp (kron E E) v e (a * E.rows + b) = f (d a) (d b) := by
  rw [show a * E.rows + b = (⟨a, ha⟩ : Fin E.rows).1 * E.rows + (⟨b, hb⟩ : Fin E.rows).1 from rfl, kron_apply]
  rw [← hE _ (hx (d b)) ⟨a, ha⟩]
  refine Finset.sum_congr rfl fun j _ => ?_
  rw [← hE _ (hy (o j)) ⟨b, hb⟩]
  congr 1
  exact Finset.sum_congr rfl fun l _ => by rw [hv j j.2 l l.2]

theorem space_exact {E : Op} {o d : Nat → ℝ} {P : (ℝ → ℝ) → Prop}
    (hE : ∀ g, P g → ∀ i : Fin E.rows, ∑ j : Fin E.cols, E.mat i j * g (o j) = g (d i)) {f : ℝ → ℝ → ℝ → ℝ} (hx : ∀ y z, P fun x => f x y z)
    (hy : ∀ x z, P fun y => f x y z) (hz : ∀ x y, P (f x y)) {v : Nat → Nat → ℝ} {e : Nat}
    (hv : ∀ a < E.cols, ∀ b < E.cols, ∀ c < E.cols, v e ((a * E.cols + b) * E.cols + c) = f (o a) (o b) (o c))
    {a b c : Nat} (ha : a < E.rows) (hb : b < E.rows) (hc : c < E.rows) :
    applyOp (kron (kron E E) E) v e ((a * E.rows + b) * E.rows + c) = f (d a) (d b) (d c) := by
  have hab : a * E.rows + b < (kron E E).rows := pair_lt ha hb
  rw [show (a * E.rows + b) * E.rows + c = (⟨a * E.rows + b, hab⟩ : Fin (kron E E).rows).1 * E.rows + (⟨c, hc⟩ : Fin E.rows).1 from rfl, kron_apply]
  have key := plane_exact (f := fun x y => f x y (d c)) hE (fun y => hx y (d c)) (fun x => hy x (d c)) (e := 0)
    (v := fun _ t => ∑ l : Fin E.cols, E.mat ⟨c, hc⟩ l * v e (t * E.cols + l.1)) ?_ ha hb
  · rw [← key, applyOp, dif_pos hab]
  · intro a ha b hb
    show ∑ l : Fin E.cols, E.mat ⟨c, hc⟩ l * v e ((a * E.cols + b) * E.cols + l.1) = f (o a) (o b) (d c)
    rw [← hE _ (hz (o a) (o b)) ⟨c, hc⟩]
    exact Finset.sum_congr rfl fun l _ => by rw [hv a ha b hb l l.2]

/-! ## Lagrange interpolation -/

theorem lagrange_exact {o : Points} (ho : Distinct o) (d : Points) (g : ℝ → ℝ) (hg : IsPoly o.count g) (i : Fin (lagrangeTable o d).rows) :
    ∑ j : Fin (lagrangeTable o d).cols, (lagrangeTable o d).mat i j * g (o.pos j) = g (d.pos i) := by
  obtain ⟨c, hc⟩ := hg
  have hp : (∑ a ∈ Finset.range o.count, C (c a) * X ^ a : ℝ[X]).degree < o.count := by
    refine lt_of_le_of_lt (degree_sum_le _ _) ?_
    rw [Finset.sup_lt_iff (by exact_mod_cast WithBot.bot_lt_coe _)]
    intro a ha
    exact lt_of_le_of_lt (degree_C_mul_X_pow_le a (c a)) (by exact_mod_cast Finset.mem_range.mp ha)
  have ev : ∀ x, (∑ a ∈ Finset.range o.count, C (c a) * X ^ a : ℝ[X]).eval x = g x := by
    intro x
    rw [eval_finset_sum, hc]
    exact Finset.sum_congr rfl fun a _ => by simp
  have h := WxVerif.Props.Operators.C42_lagrange_eval o.count o.pos ho.2 _ hp (d.pos i)
  simp only [ev] at h
  rw [← h, ← Fin.sum_univ_eq_sum_range (fun j => lagrangeEval o.count o.pos (d.pos i) j * g (o.pos j))]
  rfl

theorem poly2_x {n : Nat} {f : ℝ → ℝ → ℝ} (h : IsPoly2 n f) (y : ℝ) : IsPoly n fun x => f x y := by
  obtain ⟨c, hc⟩ := h
  refine ⟨fun a => ∑ b ∈ Finset.range n, c a b * y ^ b, fun x => ?_⟩
  refine (hc x y).trans ?_
  refine Finset.sum_congr rfl fun a _ => ?_
  rw [Finset.sum_mul]
  exact Finset.sum_congr rfl fun b _ => by ring

theorem poly2_y {n : Nat} {f : ℝ → ℝ → ℝ} (h : IsPoly2 n f) (x : ℝ) : IsPoly n (f x) := by
  obtain ⟨c, hc⟩ := h
  refine ⟨fun b => ∑ a ∈ Finset.range n, c a b * x ^ a, fun y => ?_⟩
  rw [hc, Finset.sum_comm]
  refine Finset.sum_congr rfl fun a _ => ?_
  rw [Finset.sum_mul]

theorem poly3_xy {n : Nat} {f : ℝ → ℝ → ℝ → ℝ} (h : IsPoly3 n f) (z : ℝ) : IsPoly2 n fun x y => f x y z := by
  obtain ⟨c, hc⟩ := h
  refine ⟨fun a b => ∑ d ∈ Finset.range n, c a b d * z ^ d, fun x y => ?_⟩
  refine (hc x y z).trans ?_
  refine Finset.sum_congr rfl fun a _ => Finset.sum_congr rfl fun b _ => ?_
  rw [Finset.sum_mul, Finset.sum_mul]
  exact Finset.sum_congr rfl fun d _ => by ring

theorem poly3_z {n : Nat} {f : ℝ → ℝ → ℝ → ℝ} (h : IsPoly3 n f) (x y : ℝ) : IsPoly n (f x y) := by
  obtain ⟨c, hc⟩ := h
  refine ⟨fun d => ∑ a ∈ Finset.range n, ∑ b ∈ Finset.range n, c a b d * x ^ a * y ^ b, fun z => ?_⟩
  rw [hc]
  calc ∑ a ∈ Finset.range n, ∑ b ∈ Finset.range n, ∑ d ∈ Finset.range n, c a b d * x ^ a * y ^ b * z ^ d
      = ∑ a ∈ Finset.range n, ∑ d ∈ Finset.range n, ∑ b ∈ Finset.range n, c a b d * x ^ a * y ^ b * z ^ d :=
        Finset.sum_congr rfl fun a _ => Finset.sum_comm
    _ = ∑ d ∈ Finset.range n, ∑ a ∈ Finset.range n, ∑ b ∈ Finset.range n, c a b d * x ^ a * y ^ b * z ^ d := Finset.sum_comm
    _ = _ := Finset.sum_congr rfl fun d _ => by simp only [Finset.sum_mul]

/-- the columns of the table are polynomials of the destination point -/
theorem lagrange_poly {n : Nat} (hn : 0 < n) (pts : Nat → ℝ) {j : Nat} (hj : j < n) : IsPoly n fun x => lagrangeEval n pts x j := by
  have hd : (lagrangePoly (n - 1) j pts).natDegree < n := by
    have h1 : (lagrangePoly (n - 1) j pts).natDegree ≤ n - 1 := by
      unfold lagrangePoly
      refine (natDegree_list_prod_le _).trans ?_
      have h2 : ∀ l : List Nat, ((l.map fun k => (X - C (pts k)) * C ((pts j - pts k)⁻¹)).map natDegree).sum ≤ l.length := by
        intro l
        induction l with
        | nil => simp
        | cons k l ih =>
          simp only [List.map_cons, List.sum_cons, List.length_cons]
          have : ((X - C (pts k)) * C ((pts j - pts k)⁻¹) : ℝ[X]).natDegree ≤ 1 := by
            refine (natDegree_mul_C_le _ _).trans ?_
            simp
          omega
      refine (h2 _).trans ?_
      rw [List.length_eraseIdx]
      simp
      split <;> omega
    omega
  by_cases h1 : n = 1
  · subst h1
    exact ⟨fun _ => 1, fun x => by simp [lagrangeEval]⟩
  · refine ⟨fun a => (lagrangePoly (n - 1) j pts).coeff a, fun x => ?_⟩
    simp only [lagrangeEval, if_neg h1]
    rw [eval_eq_sum_range' hd]

theorem lagrange_self {n : Nat} (pts : Nat → ℝ) (h : Set.InjOn pts (Finset.range n)) {i j : Nat} (hi : i < n) (hj : j < n) :
    lagrangeEval n pts (pts i) j = if i = j then 1 else 0 := by
  classical
  have := WxVerif.Props.Operators.C42_lagrange_eval n pts h (Lagrange.basis (Finset.range n) pts j) ?_ (pts i)
  · rw [Finset.sum_eq_single j] at this
    · rw [Lagrange.eval_basis_self h (Finset.mem_range.mpr hj), mul_one] at this
      rw [this]
      split
      · next e => subst e; exact Lagrange.eval_basis_self h (Finset.mem_range.mpr hj)
      · next e => exact Lagrange.eval_basis_of_ne (Ne.symm e) (Finset.mem_range.mpr hi)
    · intro b hb hne
      rw [Lagrange.eval_basis_of_ne hne.symm hb, mul_zero]
    · intro hn
      exact absurd (Finset.mem_range.mpr hj) hn
  · rw [Lagrange.degree_basis h (Finset.mem_range.mpr hj), Finset.card_range]
    exact_mod_cast Nat.sub_lt (by omega) one_pos

/-- the table as a matrix -/
noncomputable def lag (o d : Points) : Matrix (Fin d.count) (Fin o.count) ℝ := fun i j => lagrangeEval o.count o.pos (d.pos i) j

theorem lagrangeTable_eq (o d : Points) : lagrangeTable o d = ⟨d.count, o.count, lag o d⟩ := rfl

/-- interpolating to at least as many points and back is the identity -/
theorem lagrange_back {o d : Points} (ho : Distinct o) (hd : Distinct d) (h : o.count ≤ d.count) :
    lag d o * lag o d = 1 := by
  ext i j
  rw [Matrix.mul_apply]
  have hp : IsPoly d.count fun x => lagrangeEval o.count o.pos x j := by
    obtain ⟨c, hc⟩ := lagrange_poly ho.1 o.pos j.2
    refine ⟨fun a => if a < o.count then c a else 0, fun x => ?_⟩
    rw [hc]
    refine Finset.sum_subset_zero_on_sdiff (Finset.range_mono h) ?_ ?_
    · intro a ha
      simp only [Finset.mem_sdiff, Finset.mem_range] at ha
      dsimp only
      rw [if_neg ha.2, zero_mul]
    · intro a ha
      dsimp only
      rw [if_pos (Finset.mem_range.mp ha)]
  have e := lagrange_exact hd o _ hp i
  rw [lagrange_self o.pos ho.2 i.2 j.2] at e
  rw [Matrix.one_apply]
  simp only [Fin.ext_iff]
  exact e

/-! ## Products as matrices -/

/-- the matrix of `kron` -/
def kr {r c s d : Nat} (A : Matrix (Fin r) (Fin c) ℝ) (B : Matrix (Fin s) (Fin d) ℝ) : Matrix (Fin (r * s)) (Fin (c * d)) ℝ :=
  (A ⊗ₖ B).reindex finProdFinEquiv finProdFinEquiv

theorem kr_mul {r c s d t u : Nat} (A : Matrix (Fin r) (Fin c) ℝ) (B : Matrix (Fin s) (Fin d) ℝ) (A' : Matrix (Fin c) (Fin t) ℝ)
    (B' : Matrix (Fin d) (Fin u) ℝ) : kr A B * kr A' B' = kr (A * A') (B * B') := by
  unfold kr
  rw [Matrix.reindex_apply, Matrix.reindex_apply, Matrix.reindex_apply, Matrix.submatrix_mul_equiv, Matrix.mul_kronecker_mul]

theorem kr_one {r s : Nat} : kr (1 : Matrix (Fin r) (Fin r) ℝ) (1 : Matrix (Fin s) (Fin s) ℝ) = 1 := by
  unfold kr
  rw [Matrix.reindex_apply, Matrix.one_kronecker_one, Matrix.submatrix_one_equiv]

theorem kr_transpose {r c s d : Nat} (A : Matrix (Fin r) (Fin c) ℝ) (B : Matrix (Fin s) (Fin d) ℝ) : (kr A B)ᵀ = kr Aᵀ Bᵀ := by
  unfold kr
  rw [Matrix.transpose_reindex, Matrix.kroneckerMap_transpose]

/-! ## Pseudo-inverses -/

theorem penrose_unique {r c : Nat} {A : Matrix (Fin r) (Fin c) ℝ} {X Y : Matrix (Fin c) (Fin r) ℝ} (hX : Penrose A X) (hY : Penrose A Y) : X = Y := by
  obtain ⟨x1, x2, x3, x4⟩ := hX
  obtain ⟨y1, y2, y3, y4⟩ := hY
  have h1 : A * X = A * Y := by
    calc A * X = (A * X)ᵀ := x3.symm
      _ = (A * Y * A * X)ᵀ := by rw [y1]
      _ = ((A * Y) * (A * X))ᵀ := by simp only [Matrix.mul_assoc]
      _ = (A * X)ᵀ * (A * Y)ᵀ := Matrix.transpose_mul _ _
      _ = (A * X) * (A * Y) := by rw [x3, y3]
      _ = A * X * A * Y := by simp only [Matrix.mul_assoc]
      _ = A * Y := by rw [x1]
  have h2 : X * A = Y * A := by
    calc X * A = (X * A)ᵀ := x4.symm
      _ = (X * (A * Y * A))ᵀ := by rw [y1]
      _ = ((X * A) * (Y * A))ᵀ := by simp only [Matrix.mul_assoc]
      _ = (Y * A)ᵀ * (X * A)ᵀ := Matrix.transpose_mul _ _
      _ = (Y * A) * (X * A) := by rw [x4, y4]
      _ = Y * (A * X * A) := by simp only [Matrix.mul_assoc]
      _ = Y * A := by rw [x1]
  calc X = X * A * X := x2.symm
    _ = Y * A * X := by rw [h2]
    _ = Y * (A * X) := Matrix.mul_assoc _ _ _
    _ = Y * (A * Y) := by rw [h1]
    _ = Y * A * Y := (Matrix.mul_assoc _ _ _).symm
    _ = Y := y2

theorem gram_unit {r c : Nat} {A : Matrix (Fin r) (Fin c) ℝ} {L : Matrix (Fin c) (Fin r) ℝ} (h : L * A = 1) : IsUnit (Aᵀ * A).det := by
  rw [← Matrix.isUnit_iff_isUnit_det]
  refine Matrix.mulVec_injective_iff_isUnit.mp ?_
  intro x y hxy
  have h0 : (Aᵀ * A) *ᵥ (x - y) = 0 := by rw [Matrix.mulVec_sub]; exact sub_eq_zero.mpr hxy
  have h1 : (A *ᵥ (x - y)) ⬝ᵥ (A *ᵥ (x - y)) = 0 := by
    rw [Matrix.dotProduct_mulVec, Matrix.vecMul_mulVec, ← Matrix.dotProduct_mulVec] 
    rw [h0, dotProduct_zero]
  have h2 : A *ᵥ (x - y) = 0 := dotProduct_self_eq_zero.mp h1
  have h3 : x - y = 0 := by
    rw [← Matrix.one_mulVec (x - y), ← h, ← Matrix.mulVec_mulVec, h2, Matrix.mulVec_zero]
  exact sub_eq_zero.mp h3

/-- more rows than columns: the pseudo-inverse is a left inverse -/
theorem penrose_left {r c : Nat} {A : Matrix (Fin r) (Fin c) ℝ} {L : Matrix (Fin c) (Fin r) ℝ} (h : L * A = 1) :
    ∃ X, Penrose A X ∧ X * A = 1 := by
  have hu := gram_unit h
  have e : (Aᵀ * A)⁻¹ * Aᵀ * A = 1 := by rw [Matrix.mul_assoc, Matrix.nonsing_inv_mul _ hu]
  refine ⟨(Aᵀ * A)⁻¹ * Aᵀ, ⟨?_, ?_, ?_, ?_⟩, e⟩
  · rw [Matrix.mul_assoc, e, Matrix.mul_one]
  · rw [e, Matrix.one_mul]
  · rw [Matrix.transpose_mul, Matrix.transpose_mul, Matrix.transpose_transpose, Matrix.transpose_nonsing_inv, Matrix.transpose_mul,
      Matrix.transpose_transpose, Matrix.mul_assoc]
  · rw [e, Matrix.transpose_one]

/-- more columns than rows: the pseudo-inverse is a right inverse -/
theorem penrose_right {r c : Nat} {A : Matrix (Fin r) (Fin c) ℝ} {R : Matrix (Fin c) (Fin r) ℝ} (h : A * R = 1) :
    ∃ X, Penrose A X ∧ A * X = 1 := by
  have h' : Rᵀ * Aᵀ = 1 := by rw [← Matrix.transpose_mul, h, Matrix.transpose_one]
  obtain ⟨X, ⟨x1, x2, x3, x4⟩, e⟩ := penrose_left h'
  have e' : A * Xᵀ = 1 := by
    have := congrArg Matrix.transpose e
    rwa [Matrix.transpose_mul, Matrix.transpose_transpose, Matrix.transpose_one] at this
  refine ⟨Xᵀ, ⟨?_, ?_, ?_, ?_⟩, e'⟩
  · rw [e', Matrix.one_mul]
  · rw [Matrix.mul_assoc, e', Matrix.mul_one]
  · rw [e', Matrix.transpose_one]
  · rw [Matrix.transpose_mul, Matrix.transpose_transpose]
    rw [Matrix.transpose_mul, Matrix.transpose_transpose] at x3
    exact x3.symm

/-! ## Calls -/

theorem applyOp_comp {r c : Nat} {A : Matrix (Fin r) (Fin c) ℝ} {B : Matrix (Fin c) (Fin r) ℝ} (h : B * A = 1) (v w : Nat → Nat → ℝ) (e : Nat)
    (hw : ∀ p < r, w e p = applyOp ⟨r, c, A⟩ v e p) {p : Nat} (hp : p < c) : applyOp ⟨c, r, B⟩ w e p = v e p := by
  unfold applyOp
  rw [dif_pos hp]
  have h1 : ∀ q : Fin r, w e q = (A *ᵥ fun k : Fin c => v e k) q := by
    intro q
    rw [hw q q.2]
    unfold applyOp
    rw [dif_pos q.2]
    rfl
  calc ∑ q : Fin r, B ⟨p, hp⟩ q * w e q = (B *ᵥ (A *ᵥ fun k : Fin c => v e k)) ⟨p, hp⟩ := by
        simp only [h1]
        rfl
    _ = v e p := by rw [Matrix.mulVec_mulVec, h, Matrix.one_mulVec]

/-- regrouping into elements of the size they have changes nothing -/
theorem regroup_self {F : Fields} (h : 0 < F.pts) : ∃ G, regroup F F.pts = .ok G ∧ Same G F := by
  refine ⟨_, if_pos (Dvd.intro_left _ rfl), rfl, Nat.mul_div_cancel _ h, rfl, ?_⟩
  intro i _ e _ p hp
  show F.val i ((e * F.pts + p) / F.pts) ((e * F.pts + p) % F.pts) = F.val i e p
  rw [Nat.mul_comm, Nat.mul_add_div h, Nat.div_eq_of_lt hp, Nat.add_zero, Nat.mul_add_mod, Nat.mod_eq_of_lt hp]

/-- there and back -/
theorem round_trip {it : Interpolator} {r c : Nat} (hr : 0 < r) (hn : it.ndim = 2 ∨ it.ndim = 3)
    (h : ∀ i, ∃ (A : Matrix (Fin r) (Fin c) ℝ) (B : Matrix (Fin c) (Fin r) ℝ), opFor it false i = ⟨r, c, A⟩ ∧ opFor it true i = ⟨c, r, B⟩ ∧ B * A = 1)
    {F : Fields} (hF : F.pts = c) : ∃ G H, call it F false = .ok G ∧ call it G true = .ok H ∧ Same H F := by
  obtain ⟨A0, B0, a0, b0, _⟩ := h 0
  have rows0 : (opFor it false 0).rows = r := by rw [a0]
  have cols0 : (opFor it false 0).cols = c := by rw [a0]
  have rows1 : (opFor it true 0).rows = c := by rw [b0]
  have cols1 : (opFor it true 0).cols = r := by rw [b0]
  have hG : call it F false = .ok ⟨F.fields, F.elems, r, fun i e p => applyOp (opFor it false i) (F.val i) e p⟩ := by
    unfold call
    rw [if_pos hn]
    simp only [Bool.false_eq_true, if_false, Except.bind, cols0, rows0, hF, if_true]
  obtain ⟨G', hG', s1, s2, s3, s4⟩ := regroup_self (F := ⟨F.fields, F.elems, r, fun i e p => applyOp (opFor it false i) (F.val i) e p⟩) hr
  refine ⟨_, ⟨G'.fields, G'.elems, c, fun i e p => applyOp (opFor it true i) (G'.val i) e p⟩, hG, ?_, ?_⟩
  · unfold call
    rw [if_pos hn]
    simp only [if_true, cols1, rows1]
    dsimp only at hG'
    rw [hG']
    simp only [Except.bind]
    rw [if_pos s3]
  · refine ⟨s1, s2, hF.symm, ?_⟩
    intro i hi e he p hp
    obtain ⟨A, B, ha, hb, hBA⟩ := h i
    show applyOp (opFor it true i) (G'.val i) e p = F.val i e p
    rw [hb]
    refine applyOp_comp hBA (F.val i) (G'.val i) e ?_ (hF ▸ hp)
    intro q hq
    have := s4 i hi e he q hq
    rw [this]
    show applyOp (opFor it false i) (F.val i) e q = _
    rw [ha]

/-- back and there: the given values are grouped into elements first -/
theorem round_trip_back {it : Interpolator} {r c : Nat} (hr : 0 < r) (hn : it.ndim = 2 ∨ it.ndim = 3)
    (h : ∀ i, ∃ (A : Matrix (Fin r) (Fin c) ℝ) (B : Matrix (Fin c) (Fin r) ℝ), opFor it false i = ⟨r, c, A⟩ ∧ opFor it true i = ⟨c, r, B⟩ ∧ A * B = 1)
    {F : Fields} (hF : F.pts = r) : ∃ G H, call it F true = .ok G ∧ call it G false = .ok H ∧ Same H F := by
  obtain ⟨A0, B0, a0, b0, _⟩ := h 0
  have rows0 : (opFor it false 0).rows = r := by rw [a0]
  have cols0 : (opFor it false 0).cols = c := by rw [a0]
  have rows1 : (opFor it true 0).rows = c := by rw [b0]
  have cols1 : (opFor it true 0).cols = r := by rw [b0]
  obtain ⟨F', hF', s1, s2, s3, s4⟩ := regroup_self (F := F) (hF ▸ hr)
  refine ⟨⟨F'.fields, F'.elems, c, fun i e p => applyOp (opFor it true i) (F'.val i) e p⟩,
    ⟨F'.fields, F'.elems, r, fun i e p => applyOp (opFor it false i) (fun e p => applyOp (opFor it true i) (F'.val i) e p) e p⟩, ?_, ?_, ?_⟩
  · unfold call
    rw [if_pos hn]
    simp only [if_true, cols1, rows1]
    rw [← hF, hF']
    simp only [Except.bind]
    rw [if_pos s3]
  · unfold call
    rw [if_pos hn]
    simp only [Bool.false_eq_true, if_false, Except.bind, cols0, rows0, if_true]
  · refine ⟨s1, s2, hF.symm, ?_⟩
    intro i hi e he p hp
    obtain ⟨A, B, ha, hb, hAB⟩ := h i
    rw [← s4 i hi e he p hp]
    show applyOp (opFor it false i) (fun e p => applyOp (opFor it true i) (F'.val i) e p) e p = F'.val i e p
    rw [ha, hb]
    exact applyOp_comp hAB (F'.val i) _ e (fun q _ => rfl) (hF ▸ hp)

/-! ## The operators of Lagrange interpolation -/

/-- the matrix of `tensor` -/
theorem tensor_form (ndim : Nat) (r c : Nat) (A : Matrix (Fin r) (Fin c) ℝ) :
    tensor ndim ⟨r, c, A⟩ = if ndim = 3 then ⟨r * r * r, c * c * c, kr (kr A A) A⟩ else ⟨r * r, c * c, kr A A⟩ := by
  unfold tensor
  split <;> rfl

/-- number of points of an element -/
def npts (ndim n : Nat) : Nat := if ndim = 3 then n * n * n else n * n

theorem tensor_mat (ndim : Nat) {r c : Nat} (A : Matrix (Fin r) (Fin c) ℝ) (B : Matrix (Fin c) (Fin r) ℝ) :
    ∃ (A' : Matrix (Fin (npts ndim r)) (Fin (npts ndim c)) ℝ) (B' : Matrix (Fin (npts ndim c)) (Fin (npts ndim r)) ℝ),
      tensor ndim ⟨r, c, A⟩ = ⟨npts ndim r, npts ndim c, A'⟩ ∧ tensor ndim ⟨c, r, B⟩ = ⟨npts ndim c, npts ndim r, B'⟩ ∧
      (B * A = 1 → B' * A' = 1) ∧ (A * B = 1 → A' * B' = 1) := by
  rw [tensor_form, tensor_form]
  by_cases h : ndim = 3
  · have e1 : ∀ n, npts ndim n = n * n * n := fun n => if_pos h
    rw [e1, e1, if_pos h, if_pos h]
    refine ⟨_, _, rfl, rfl, ?_, ?_⟩ <;> intro e <;> rw [kr_mul, kr_mul, e, kr_one, kr_one]
  · have e1 : ∀ n, npts ndim n = n * n := fun n => if_neg h
    rw [e1, e1, if_neg h, if_neg h]
    refine ⟨_, _, rfl, rfl, ?_, ?_⟩ <;> intro e <;> rw [kr_mul, e, kr_one]

/-- the reverse operator of a matrix with a left inverse -/
theorem reverse_left {la : Linalg} (hla : Exact la) {n m r c : Nat} (hnm : m = n ↔ r = c) {A : Matrix (Fin r) (Fin c) ℝ} {L : Matrix (Fin c) (Fin r) ℝ}
    (h : L * A = 1) : ∃ X : Matrix (Fin c) (Fin r) ℝ, reverseOf la n m ⟨r, c, A⟩ = .ok ⟨c, r, X⟩ ∧ X * A = 1 := by
  unfold reverseOf
  by_cases e : m = n
  · rw [if_pos e]
    obtain rfl := hnm.mp e
    exact ⟨L, hla.1 _ A L h, h⟩
  · rw [if_neg e]
    obtain ⟨X, hX, h1⟩ := penrose_left h
    exact ⟨X, hla.2 _ _ A X hX, h1⟩

/-- the reverse operator of a matrix with a right inverse -/
theorem reverse_right {la : Linalg} (hla : Exact la) {n m r c : Nat} (hnm : m = n ↔ r = c) {A : Matrix (Fin r) (Fin c) ℝ} {R : Matrix (Fin c) (Fin r) ℝ}
    (h : A * R = 1) : ∃ X : Matrix (Fin c) (Fin r) ℝ, reverseOf la n m ⟨r, c, A⟩ = .ok ⟨c, r, X⟩ ∧ A * X = 1 := by
  unfold reverseOf
  by_cases e : m = n
  · rw [if_pos e]
    obtain rfl := hnm.mp e
    exact ⟨R, hla.1 _ A R (mul_eq_one_comm.mp h), h⟩
  · rw [if_neg e]
    obtain ⟨X, hX, h1⟩ := penrose_right h
    exact ⟨X, hla.2 _ _ A X hX, h1⟩

theorem basis_count {gauss : Nat → Nat → ℝ} {type : String} {n : Nat} {b : Bool} {p : Points} (h : basisPoints gauss type n b = .ok p) :
    p.count = if b then n + 2 else n := by
  unfold basisPoints at h
  split_ifs at h <;> cases h <;> simp [withEnds, *]

theorem npts_inj {ndim r c : Nat} : npts ndim r = npts ndim c ↔ r = c := by
  constructor
  · intro h
    unfold npts at h
    split at h
    · have : r ^ 3 = c ^ 3 := by rw [pow_succ, pow_two, pow_succ, pow_two]; exact h
      exact Nat.pow_left_injective (n := 3) (by norm_num) this
    · exact Nat.mul_self_inj.mp h
  · intro h; rw [h]

theorem factor_pos {t1 t2 : String} {n m ndim : Nat} (hn : 0 < n) (hm : 0 < m) : 0 < velocityFactor t1 t2 n m ndim := by
  have h1 : (0 : ℝ) < n := by exact_mod_cast hn
  have h2 : (0 : ℝ) < m := by exact_mod_cast hm
  unfold velocityFactor
  split_ifs
  · exact Real.rpow_pos_of_pos h1 _
  · exact Real.rpow_pos_of_pos (div_pos h2 h1) _
  · exact one_pos

end WxVerif.Interpolation
