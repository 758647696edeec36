/-
C75: the filters remove only what they are meant to remove.
-/
import Verif.Model.Filter
import Verif.Lemmas.Legendre
import Verif.Props.LakeAtRest

namespace WxVerif.Props.Filter

open WxVerif.Dfr WxVerif.Quad WxVerif.Props.Operators WxVerif.Props.Conservation WxVerif.Filter WxVerif.Legendre
open Polynomial

/-! ## One line of points -/

/-- the filter multiplies every mode by its factor -/
theorem modal_apply {n : Nat} {pts : Nat → ℝ} (hinj : Set.InjOn pts (Finset.range n)) (σ b : Nat → ℝ) {i : Nat} (hi : i < n) :
    ∑ a ∈ Finset.range n, modalFilter n pts σ i a * (∑ l ∈ Finset.range n, legendre (pts a) l * b l) =
      ∑ l ∈ Finset.range n, legendre (pts i) l * (σ l * b l) := by
  have hV : (fun i : Fin n => ∑ l ∈ Finset.range n, legendre (pts i) l * b l) = (vander n pts).mulVec fun l : Fin n => b l := by
    funext i
    rw [← sum_fin_range n fun l => legendre (pts i) l * b l]
    simp [Matrix.mulVec, dotProduct, vander]
  have hsol : (vander n pts)⁻¹.mulVec (fun i : Fin n => ∑ l ∈ Finset.range n, legendre (pts i) l * b l) = fun l : Fin n => b l := by
    rw [hV, Matrix.mulVec_mulVec, Matrix.nonsing_inv_mul _ (vander_isUnit n pts hinj), Matrix.one_mulVec]
  rw [← sum_fin_range n fun a => modalFilter n pts σ i a * (∑ l ∈ Finset.range n, legendre (pts a) l * b l)]
  have e : ∀ a : Fin n, modalFilter n pts σ i a = ∑ l : Fin n, vander n pts ⟨i, hi⟩ l * σ l * (vander n pts)⁻¹ l a := by
    intro a; rw [modalFilter, dif_pos ⟨hi, a.isLt⟩]
  simp only [e, Finset.sum_mul]
  rw [Finset.sum_comm]
  rw [← sum_fin_range n fun l => legendre (pts i) l * (σ l * b l)]
  refine Finset.sum_congr rfl fun l _ => ?_
  have := congrFun hsol l
  simp only [Matrix.mulVec, dotProduct] at this
  rw [← this, Finset.mul_sum, Finset.mul_sum]
  refine Finset.sum_congr rfl fun a _ => ?_
  simp only [vander, Matrix.of_apply]
  ring

/-- the filter along one line -/
noncomputable def line (n : Nat) (F : Nat → Nat → ℝ) (f : Nat → ℝ) (i : Nat) : ℝ := ∑ a ∈ Finset.range n, F i a * f a

variable {n : Nat} {xs ws : List ℝ}

theorem inj (h : IsGaussRule n xs ws) : Set.InjOn (arr xs) (Finset.range n) := by
  intro a ha b hb hab
  have ha' : a < n := by simpa using ha
  have hb' : b < n := by simpa using hb
  have := extension_injOn h (show a + 1 ∈ _ by simpa using by omega) (show b + 1 ∈ _ by simpa using by omega)
    (by rw [extension_mid _ ha', extension_mid _ hb', hab])
  omega

theorem line_modes (h : IsGaussRule n xs ws) (σ f b : Nat → ℝ) (hb : ∀ i < n, f i = ∑ l ∈ Finset.range n, legendre (arr xs i) l * b l)
    {i : Nat} (hi : i < n) : line n (modalFilter n (arr xs) σ) f i = ∑ l ∈ Finset.range n, legendre (arr xs i) l * (σ l * b l) := by
  unfold line
  rw [Finset.sum_congr rfl fun a ha => by rw [hb a (Finset.mem_range.mp ha)], modal_apply (inj h) σ b hi]

theorem modes_sum (h : IsGaussRule n xs ws) (b : Nat → ℝ) (hn : 1 ≤ n) :
    ∑ i ∈ Finset.range n, arr ws i * ∑ l ∈ Finset.range n, legendre (arr xs i) l * b l = 2 * b 0 := by
  simp only [Finset.mul_sum]
  rw [Finset.sum_comm, Finset.sum_eq_single 0]
  · have := rule_sum h (k := 0) (by omega)
    rw [if_pos rfl] at this
    rw [← this, Finset.sum_mul]
    exact Finset.sum_congr rfl fun i _ => by ring
  · intro l hl hl0
    have := rule_sum h (k := l) (by have := Finset.mem_range.mp hl; omega)
    rw [if_neg hl0] at this
    rw [← zero_mul (b l), ← this, Finset.sum_mul]
    exact Finset.sum_congr rfl fun i _ => by ring
  · intro hh; exact absurd (Finset.mem_range.mpr (by omega)) hh

/-- along a line: the weighted sum is kept if the first mode is -/
theorem line_sum (hn : 1 ≤ n) (h : IsGaussRule n xs ws) (σ : Nat → ℝ) (h0 : σ 0 = 1) (f : Nat → ℝ) :
    ∑ i ∈ Finset.range n, arr ws i * line n (modalFilter n (arr xs) σ) f i = ∑ i ∈ Finset.range n, arr ws i * f i := by
  obtain ⟨b, hb⟩ := modes (inj h) f
  have e : ∑ i ∈ Finset.range n, arr ws i * f i = ∑ i ∈ Finset.range n, arr ws i * ∑ l ∈ Finset.range n, legendre (arr xs i) l * b l :=
    Finset.sum_congr rfl fun i hi => by rw [hb i (Finset.mem_range.mp hi)]
  rw [Finset.sum_congr rfl fun i hi => by rw [line_modes h σ f b hb (Finset.mem_range.mp hi)], e]
  rw [modes_sum h (fun l => σ l * b l) hn, modes_sum h b hn, h0, one_mul]

theorem modes_sq (h : IsGaussRule n xs ws) (b : Nat → ℝ) :
    ∑ i ∈ Finset.range n, arr ws i * (∑ l ∈ Finset.range n, legendre (arr xs i) l * b l) ^ 2 =
      ∑ l ∈ Finset.range n, (∑ i ∈ Finset.range n, arr ws i * legendre (arr xs i) l ^ 2) * b l ^ 2 := by
  have e : ∀ i, arr ws i * (∑ l ∈ Finset.range n, legendre (arr xs i) l * b l) ^ 2 =
      ∑ l ∈ Finset.range n, ∑ m ∈ Finset.range n, b l * b m * (arr ws i * (legendre (arr xs i) l * legendre (arr xs i) m)) := by
    intro i
    rw [sq, Finset.sum_mul_sum, Finset.mul_sum]
    refine Finset.sum_congr rfl fun l _ => ?_
    rw [Finset.mul_sum]
    exact Finset.sum_congr rfl fun m _ => by ring
  simp only [e]
  rw [Finset.sum_comm]
  refine Finset.sum_congr rfl fun l hl => ?_
  rw [Finset.sum_comm, Finset.sum_eq_single l]
  · rw [Finset.sum_mul]
    exact Finset.sum_congr rfl fun i _ => by ring
  · intro m hm hne
    rw [← Finset.mul_sum, rule_orthogonal h (Ne.symm hne) (by
      have := Finset.mem_range.mp hl
      have := Finset.mem_range.mp hm
      omega), mul_zero]
  · intro hh; exact absurd hl hh

theorem weight_nonneg (h : IsGaussRule n xs ws) {i : Nat} (hi : i < n) : 0 < arr ws i := by
  refine h.weights_pos _ ?_
  unfold arr
  rw [List.getD_eq_getElem _ _ (by rw [h.weights_length]; exact hi)]
  exact List.getElem_mem _

/-- along a line: the quadrature norm does not grow if no mode is amplified -/
theorem line_norm (h : IsGaussRule n xs ws) (σ : Nat → ℝ) (hσ : ∀ l < n, |σ l| ≤ 1) (f : Nat → ℝ) :
    ∑ i ∈ Finset.range n, arr ws i * line n (modalFilter n (arr xs) σ) f i ^ 2 ≤ ∑ i ∈ Finset.range n, arr ws i * f i ^ 2 := by
  obtain ⟨b, hb⟩ := modes (inj h) f
  have e : ∑ i ∈ Finset.range n, arr ws i * f i ^ 2 = ∑ i ∈ Finset.range n, arr ws i * (∑ l ∈ Finset.range n, legendre (arr xs i) l * b l) ^ 2 :=
    Finset.sum_congr rfl fun i hi => by rw [hb i (Finset.mem_range.mp hi)]
  rw [Finset.sum_congr rfl fun i hi => by rw [line_modes h σ f b hb (Finset.mem_range.mp hi)], e]
  rw [modes_sq h (fun l => σ l * b l), modes_sq h b]
  refine Finset.sum_le_sum fun l hl => ?_
  refine mul_le_mul_of_nonneg_left ?_ (Finset.sum_nonneg fun i hi => mul_nonneg (weight_nonneg h (Finset.mem_range.mp hi)).le (sq_nonneg _))
  rw [mul_pow]
  have := hσ l (Finset.mem_range.mp hl)
  have h1 : σ l ^ 2 ≤ 1 := by rw [← sq_abs]; exact pow_le_one₀ (abs_nonneg _) this
  nlinarith [sq_nonneg (b l)]

/-- along a line: a polynomial of degree `m` is kept if the first `m + 1` modes are -/
theorem line_smooth (h : IsGaussRule n xs ws) (σ : Nat → ℝ) {m : Nat} (hm : m < n) (hσ : ∀ l ≤ m, σ l = 1) (p : ℝ[X]) (hp : p.natDegree ≤ m)
    {i : Nat} (hi : i < n) : line n (modalFilter n (arr xs) σ) (fun a => p.eval (arr xs a)) i = p.eval (arr xs i) := by
  obtain ⟨c, hc⟩ := legPoly_span (m + 1) p (by
    refine lt_of_le_of_lt degree_le_natDegree ?_
    exact_mod_cast Nat.lt_succ_of_le hp)
  have hev : ∀ x, p.eval x = ∑ l ∈ Finset.range n, legendre x l * (if l ≤ m then c l else 0) := by
    intro x
    rw [hc, eval_finset_sum, ← Finset.sum_subset (Finset.range_subset_range.mpr (show m + 1 ≤ n by omega))]
    · refine Finset.sum_congr rfl fun l hl => ?_
      rw [if_pos (by have := Finset.mem_range.mp hl; omega), eval_mul, eval_C, legPoly_eval, mul_comm]
    · intro l _ hl
      rw [if_neg (by have := Finset.mem_range.not.mp hl; omega), mul_zero]
  rw [line_modes h σ _ (fun l => if l ≤ m then c l else 0) (fun a _ => hev (arr xs a)) hi, hev]
  refine Finset.sum_congr rfl fun l _ => ?_
  split_ifs with hl
  · rw [hσ l hl, one_mul]
  · ring

/-! ## The element -/

theorem vecmul_matmul (m q : Nat) (f : Nat → ℝ) (A B : Nat → Nat → ℝ) (c : Nat) :
    vecmul m f (matmul q A B) c = vecmul q (vecmul m f A) B c := by
  unfold vecmul matmul
  simp only [Finset.mul_sum, Finset.sum_mul]
  rw [Finset.sum_comm]
  refine Finset.sum_congr rfl fun k _ => Finset.sum_congr rfl fun r _ => by ring

theorem filterX_line (F : Nat → Nat → ℝ) (f : Nat → ℝ) {k j i : Nat} (hk : k < n) (hj : j < n) (hi : i < n) :
    vecmul (n * n * n) f (filterX n F) ((k * n + j) * n + i) = line n F (fun a => f ((k * n + j) * n + a)) i := by
  have hkj := sub_lt hk hj
  unfold vecmul filterX tr line
  rw [kron_eye_left hkj hi]
  exact Finset.sum_congr rfl fun a _ => mul_comm _ _

theorem filterY_line (F : Nat → Nat → ℝ) (f : Nat → ℝ) {k j i : Nat} (hk : k < n) (hj : j < n) (hi : i < n) :
    vecmul (n * n * n) f (filterY n F) ((k * n + j) * n + i) = line n F (fun a => f ((k * n + a) * n + i)) j := by
  have hji := sub_lt hj hi
  simp only [flat]
  unfold vecmul filterY tr line
  rw [Nat.mul_assoc, kron_eye_left hk hji, kron_eye_right hi]
  exact Finset.sum_congr rfl fun a _ => mul_comm _ _

theorem filterZ_line (F : Nat → Nat → ℝ) (f : Nat → ℝ) {k j i : Nat} (hj : j < n) (hi : i < n) :
    vecmul (n * n * n) f (filterZ n F) ((k * n + j) * n + i) = line n F (fun a => f ((a * n + j) * n + i)) k := by
  have hji := sub_lt hj hi
  simp only [flat]
  unfold vecmul filterZ tr line
  rw [Nat.mul_assoc, kron_eye_right hji]
  exact Finset.sum_congr rfl fun a _ => mul_comm _ _

/-- the element filter is the line filter along the three directions in turn -/
theorem element (F : Nat → Nat → ℝ) (f : Nat → ℝ) {k j i : Nat} (hk : k < n) (hj : j < n) (hi : i < n) :
    vecmul (n * n * n) f (expfilterNew n F) ((k * n + j) * n + i) =
      line n F (fun c => line n F (fun b => line n F (fun a => f ((c * n + b) * n + a)) i) j) k := by
  unfold expfilterNew
  rw [vecmul_matmul, filterZ_line _ _ hj hi]
  unfold line
  refine Finset.sum_congr rfl fun c hc => ?_
  congr 1
  beta_reduce
  rw [vecmul_matmul, filterY_line _ _ (Finset.mem_range.mp hc) hj hi]
  unfold line
  refine Finset.sum_congr rfl fun b hb => ?_
  congr 1
  beta_reduce
  rw [filterX_line _ _ (Finset.mem_range.mp hc) (Finset.mem_range.mp hb) hi]
  rfl

/-- sum over the points of an element with the weights of the quadrature -/
noncomputable def total (n : Nat) (ws : List ℝ) (f : Nat → ℝ) : ℝ :=
  ∑ k ∈ Finset.range n, ∑ j ∈ Finset.range n, ∑ i ∈ Finset.range n, arr ws k * arr ws j * arr ws i * f ((k * n + j) * n + i)

theorem total_congr {f g : Nat → ℝ} (h : ∀ k < n, ∀ j < n, ∀ i < n, f ((k * n + j) * n + i) = g ((k * n + j) * n + i)) :
    total n ws f = total n ws g :=
  Finset.sum_congr rfl fun k hk => Finset.sum_congr rfl fun j hj => Finset.sum_congr rfl fun i hi => by
    rw [h k (Finset.mem_range.mp hk) j (Finset.mem_range.mp hj) i (Finset.mem_range.mp hi)]

/-- what the filter does to the product of volume element and field -/
noncomputable def filtered (n : Nat) (F : Nat → Nat → ℝ) (f : Nat → ℝ) : Nat → ℝ := vecmul (n * n * n) f (expfilterNew n F)

theorem total_filtered (hn : 1 ≤ n) (h : IsGaussRule n xs ws) (σ : Nat → ℝ) (h0 : σ 0 = 1) (f : Nat → ℝ) :
    total n ws (filtered n (modalFilter n (arr xs) σ) f) = total n ws f := by
  set F := modalFilter n (arr xs) σ with hF
  have e : total n ws (filtered n F f) = ∑ k ∈ Finset.range n, ∑ j ∈ Finset.range n, ∑ i ∈ Finset.range n,
      arr ws k * arr ws j * arr ws i * line n F (fun c => line n F (fun b => line n F (fun a => f ((c * n + b) * n + a)) i) j) k :=
    Finset.sum_congr rfl fun k hk => Finset.sum_congr rfl fun j hj => Finset.sum_congr rfl fun i hi => by
      rw [filtered, element _ _ (Finset.mem_range.mp hk) (Finset.mem_range.mp hj) (Finset.mem_range.mp hi)]
  rw [e]
  have s1 : ∑ k ∈ Finset.range n, ∑ j ∈ Finset.range n, ∑ i ∈ Finset.range n,
      arr ws k * arr ws j * arr ws i * line n F (fun c => line n F (fun b => line n F (fun a => f ((c * n + b) * n + a)) i) j) k =
      ∑ j ∈ Finset.range n, ∑ i ∈ Finset.range n, arr ws j * arr ws i *
        ∑ k ∈ Finset.range n, arr ws k * line n F (fun b => line n F (fun a => f ((k * n + b) * n + a)) i) j := by
    rw [Finset.sum_comm]
    refine Finset.sum_congr rfl fun j _ => ?_
    rw [Finset.sum_comm]
    refine Finset.sum_congr rfl fun i _ => ?_
    rw [← line_sum hn h σ h0, Finset.mul_sum]
    exact Finset.sum_congr rfl fun k _ => by rw [← hF]; ring
  have s2 : ∑ j ∈ Finset.range n, ∑ i ∈ Finset.range n, arr ws j * arr ws i *
      ∑ k ∈ Finset.range n, arr ws k * line n F (fun b => line n F (fun a => f ((k * n + b) * n + a)) i) j =
      ∑ k ∈ Finset.range n, ∑ i ∈ Finset.range n, arr ws k * arr ws i *
        ∑ j ∈ Finset.range n, arr ws j * line n F (fun a => f ((k * n + j) * n + a)) i := by
    simp only [Finset.mul_sum]
    rw [Finset.sum_congr rfl fun j _ => Finset.sum_comm, Finset.sum_comm]
    refine Finset.sum_congr rfl fun k _ => ?_
    rw [Finset.sum_comm]
    refine Finset.sum_congr rfl fun i _ => ?_
    have := line_sum hn h σ h0 (fun b => line n F (fun a => f ((k * n + b) * n + a)) i)
    rw [← hF] at this
    rw [← Finset.mul_sum, ← this, Finset.mul_sum]
    exact Finset.sum_congr rfl fun j _ => by ring
  rw [s1, s2]
  unfold total
  refine Finset.sum_congr rfl fun k _ => ?_
  simp only [Finset.mul_sum]
  rw [Finset.sum_comm]
  refine Finset.sum_congr rfl fun j _ => ?_
  have := line_sum hn h σ h0 (fun a => f ((k * n + j) * n + a))
  rw [← hF] at this
  have e2 : ∑ i ∈ Finset.range n, arr ws k * arr ws j * arr ws i * f ((k * n + j) * n + i) =
      arr ws k * arr ws j * ∑ i ∈ Finset.range n, arr ws i * f ((k * n + j) * n + i) := by
    rw [Finset.mul_sum]; exact Finset.sum_congr rfl fun i _ => by ring
  rw [e2, ← this, Finset.mul_sum]
  exact Finset.sum_congr rfl fun i _ => by ring

theorem total_sq_filtered (h : IsGaussRule n xs ws) (σ : Nat → ℝ) (hσ : ∀ l < n, |σ l| ≤ 1) (f : Nat → ℝ) :
    total n ws (fun r => filtered n (modalFilter n (arr xs) σ) f r ^ 2) ≤ total n ws (fun r => f r ^ 2) := by
  set F := modalFilter n (arr xs) σ with hF
  have hw : ∀ i ∈ Finset.range n, 0 ≤ arr ws i := fun i hi => (weight_nonneg h (Finset.mem_range.mp hi)).le
  have e : total n ws (fun r => filtered n F f r ^ 2) = ∑ k ∈ Finset.range n, ∑ j ∈ Finset.range n, ∑ i ∈ Finset.range n,
      arr ws k * arr ws j * arr ws i * line n F (fun c => line n F (fun b => line n F (fun a => f ((c * n + b) * n + a)) i) j) k ^ 2 :=
    Finset.sum_congr rfl fun k hk => Finset.sum_congr rfl fun j hj => Finset.sum_congr rfl fun i hi => by
      unfold filtered
      beta_reduce
      rw [element _ _ (Finset.mem_range.mp hk) (Finset.mem_range.mp hj) (Finset.mem_range.mp hi)]
  rw [e]
  have s1 : ∑ k ∈ Finset.range n, ∑ j ∈ Finset.range n, ∑ i ∈ Finset.range n,
      arr ws k * arr ws j * arr ws i * line n F (fun c => line n F (fun b => line n F (fun a => f ((c * n + b) * n + a)) i) j) k ^ 2 ≤
      ∑ j ∈ Finset.range n, ∑ i ∈ Finset.range n, arr ws j * arr ws i *
        ∑ k ∈ Finset.range n, arr ws k * line n F (fun b => line n F (fun a => f ((k * n + b) * n + a)) i) j ^ 2 := by
    rw [Finset.sum_comm]
    refine Finset.sum_le_sum fun j hj => ?_
    rw [Finset.sum_comm]
    refine Finset.sum_le_sum fun i hi => ?_
    have := mul_le_mul_of_nonneg_left (line_norm h σ hσ fun c => line n F (fun b => line n F (fun a => f ((c * n + b) * n + a)) i) j)
      (mul_nonneg (hw j hj) (hw i hi))
    refine le_trans (le_of_eq ?_) this
    rw [Finset.mul_sum]
    exact Finset.sum_congr rfl fun k _ => by rw [← hF]; ring
  have s2 : ∑ j ∈ Finset.range n, ∑ i ∈ Finset.range n, arr ws j * arr ws i *
      ∑ k ∈ Finset.range n, arr ws k * line n F (fun b => line n F (fun a => f ((k * n + b) * n + a)) i) j ^ 2 ≤
      ∑ k ∈ Finset.range n, ∑ i ∈ Finset.range n, arr ws k * arr ws i *
        ∑ j ∈ Finset.range n, arr ws j * line n F (fun a => f ((k * n + j) * n + a)) i ^ 2 := by
    simp only [Finset.mul_sum]
    rw [Finset.sum_congr rfl fun j _ => Finset.sum_comm, Finset.sum_comm]
    refine Finset.sum_le_sum fun k hk => ?_
    rw [Finset.sum_comm]
    refine Finset.sum_le_sum fun i hi => ?_
    have := mul_le_mul_of_nonneg_left (line_norm h σ hσ fun b => line n F (fun a => f ((k * n + b) * n + a)) i)
      (mul_nonneg (hw k hk) (hw i hi))
    rw [← hF] at this
    rw [Finset.mul_sum, Finset.mul_sum] at this
    refine le_trans (le_of_eq ?_) this
    exact Finset.sum_congr rfl fun j _ => by ring
  refine le_trans s1 (le_trans s2 ?_)
  unfold total
  refine Finset.sum_le_sum fun k hk => ?_
  simp only [Finset.mul_sum]
  rw [Finset.sum_comm]
  refine Finset.sum_le_sum fun j hj => ?_
  have := mul_le_mul_of_nonneg_left (line_norm h σ hσ fun a => f ((k * n + j) * n + a)) (mul_nonneg (hw k hk) (hw j hj))
  rw [← hF, Finset.mul_sum, Finset.mul_sum] at this
  refine le_trans (le_of_eq ?_) (le_trans this (le_of_eq ?_))
  · exact Finset.sum_congr rfl fun i _ => by ring
  · exact Finset.sum_congr rfl fun i _ => by ring

/-! ## C75 -/

theorem residual_zero (n : Nat) (alpha : ℝ) (order : Nat) {cutoff : ℝ} (hc : 0 ≤ cutoff) : residual n alpha order cutoff 0 = 1 := by
  unfold WxVerif.Filter.residual
  rw [if_neg (by simp; exact hc)]

theorem residual_pos (n : Nat) (alpha : ℝ) (order : Nat) (cutoff : ℝ) (k : Nat) : 0 < residual n alpha order cutoff k := by
  unfold WxVerif.Filter.residual; split_ifs <;> positivity

theorem residual_le_one (n : Nat) {alpha : ℝ} (ha : 0 ≤ alpha) (order : Nat) {cutoff : ℝ} (hc : cutoff ≤ 1) (k : Nat) :
    residual n alpha order cutoff k ≤ 1 := by
  unfold WxVerif.Filter.residual
  split_ifs with h
  · rw [Real.exp_le_one_iff]
    have : 0 ≤ (((k : ℝ) / ((n : ℝ) - 1) - cutoff) / (1 - cutoff)) ^ order :=
      pow_nonneg (div_nonneg (by linarith) (by linarith)) _
    nlinarith
  · exact le_rfl

/-- the volume element and its stored inverse -/
structure Volume (n : Nat) (sqrtG invSqrtG : Nat → ℝ) : Prop where
  inverse : ∀ r < n * n * n, sqrtG r * invSqrtG r = 1

theorem point_lt {k j i : Nat} (hk : k < n) (hj : j < n) (hi : i < n) : (k * n + j) * n + i < n * n * n := by
  have := sub_lt hk hj
  have : (k * n + j + 1) * n ≤ n * n * n := Nat.mul_le_mul_right n this
  rw [Nat.succ_mul] at this
  omega

theorem weighted {sqrtG invSqrtG : Nat → ℝ} (hG : Volume n sqrtG invSqrtG) (F : Nat → Nat → ℝ) (Q : Nat → ℝ) {r : Nat} (hr : r < n * n * n) :
    sqrtG r * applyFilter3d n F sqrtG invSqrtG Q r = filtered n F (fun r => sqrtG r * Q r) r := by
  unfold applyFilter3d filtered
  rw [mul_left_comm, hG.inverse r hr, mul_one]

/-- **C75, mass.** Whatever the state, whatever the strength and the order, and whether or not the filter is on: filtering an element changes
none of the integrals of the conserved quantities over it (the cutoff must not be negative). -/
theorem C75_mass (hn : 1 ≤ n) (h : IsGaussRule n xs ws) (on : Bool) (alpha : ℝ) (order : Nat) {cutoff : ℝ} (hc : 0 ≤ cutoff)
    {sqrtG invSqrtG : Nat → ℝ} (hG : Volume n sqrtG invSqrtG) (Q : Nat → ℝ) :
    total n ws (fun r => sqrtG r * applyFilters n (arr xs) on alpha order cutoff sqrtG invSqrtG Q r) =
      total n ws (fun r => sqrtG r * Q r) := by
  unfold applyFilters
  split_ifs with hon
  · rw [← total_filtered hn h _ (residual_zero n alpha order hc) fun r => sqrtG r * Q r]
    exact total_congr fun k hk j hj i hi => weighted hG _ Q (point_lt hk hj hi)
  · rfl

/-- **C75, no growth.** With a strength that is not negative and a cutoff of at most one, the quadrature norm of the weighted field never grows:
filtering cannot make a state blow up. -/
theorem C75_norm (h : IsGaussRule n xs ws) (on : Bool) {alpha : ℝ} (ha : 0 ≤ alpha) (order : Nat) {cutoff : ℝ} (hc : cutoff ≤ 1)
    {sqrtG invSqrtG : Nat → ℝ} (hG : Volume n sqrtG invSqrtG) (Q : Nat → ℝ) :
    total n ws (fun r => (sqrtG r * applyFilters n (arr xs) on alpha order cutoff sqrtG invSqrtG Q r) ^ 2) ≤
      total n ws (fun r => (sqrtG r * Q r) ^ 2) := by
  unfold applyFilters
  split_ifs with hon
  · refine le_trans (le_of_eq ?_) (total_sq_filtered h (residual n alpha order cutoff) (fun l _ => by
      rw [abs_of_pos (residual_pos n alpha order cutoff l)]; exact residual_le_one n ha order hc l) fun r => sqrtG r * Q r)
    exact total_congr fun k hk j hj i hi => by rw [weighted hG _ Q (point_lt hk hj hi)]; rfl
  · exact le_rfl

/-- a function that is a polynomial of degree at most `m` in each of its three variables -/
def PolyIn (m : Nat) (g : ℝ → ℝ → ℝ → ℝ) : Prop :=
  (∀ y z, ∃ p : ℝ[X], p.natDegree ≤ m ∧ ∀ x, g x y z = p.eval x) ∧
  (∀ x z, ∃ p : ℝ[X], p.natDegree ≤ m ∧ ∀ y, g x y z = p.eval y) ∧
  (∀ x y, ∃ p : ℝ[X], p.natDegree ≤ m ∧ ∀ z, g x y z = p.eval z)

/-- **C75, smooth fields pass.** A weighted field whose degree in every direction is at most the cutoff times `n − 1` comes out unchanged. -/
theorem C75_smooth (h : IsGaussRule n xs ws) (on : Bool) (alpha : ℝ) (order : Nat) {cutoff : ℝ} {m : Nat} (hm : m < n)
    (hc : (m : ℝ) ≤ cutoff * ((n : ℝ) - 1)) {sqrtG invSqrtG : Nat → ℝ} (hG : Volume n sqrtG invSqrtG) (Q : Nat → ℝ) (g : ℝ → ℝ → ℝ → ℝ)
    (hg : PolyIn m g) (hQ : ∀ k < n, ∀ j < n, ∀ i < n,
      sqrtG ((k * n + j) * n + i) * Q ((k * n + j) * n + i) = g (arr xs i) (arr xs j) (arr xs k))
    {k j i : Nat} (hk : k < n) (hj : j < n) (hi : i < n) :
    applyFilters n (arr xs) on alpha order cutoff sqrtG invSqrtG Q ((k * n + j) * n + i) = Q ((k * n + j) * n + i) := by
  unfold applyFilters
  split_ifs with hon
  · have hn2 : 2 ≤ n := by have := hon.2; omega
    have hn1 : (0 : ℝ) < (n : ℝ) - 1 := by have : (2 : ℝ) ≤ n := by exact_mod_cast hn2
                                           linarith
    have hσ : ∀ l ≤ m, residual n alpha order cutoff l = 1 := by
      intro l hl
      unfold WxVerif.Filter.residual
      rw [if_neg]
      rw [not_lt, div_le_iff₀ hn1]
      have : (l : ℝ) ≤ m := by exact_mod_cast hl
      linarith
    set F := makeFilter n (arr xs) alpha order cutoff with hF
    have key : ∀ (f : ℝ → ℝ) (v : Nat → ℝ), (∃ p : ℝ[X], p.natDegree ≤ m ∧ ∀ x, f x = p.eval x) → (∀ a < n, v a = f (arr xs a)) →
        ∀ a < n, line n F v a = f (arr xs a) := by
      rintro f v ⟨p, hp, hfp⟩ hv a ha
      have e : line n F v a = line n F (fun a => p.eval (arr xs a)) a :=
        Finset.sum_congr rfl fun b hb => by rw [hv b (Finset.mem_range.mp hb), hfp]
      rw [e, hfp]
      exact line_smooth h (residual n alpha order cutoff) hm hσ p hp ha
    have hw := weighted hG F Q (point_lt hk hj hi)
    rw [filtered, element F _ hk hj hi] at hw
    rw [key (fun z => g (arr xs i) (arr xs j) z) _ (hg.2.2 _ _)
      (fun c hc => key (fun y => g (arr xs i) y (arr xs c)) _ (hg.2.1 _ _)
        (fun b hb => key (fun x => g x (arr xs b) (arr xs c)) _ (hg.1 _ _) (fun a ha => hQ c hc b hb a ha) i hi) j hj) k hk,
      ← hQ k hk j hj i hi] at hw
    have hne : sqrtG ((k * n + j) * n + i) ≠ 0 := by
      intro h0
      have := hG.inverse _ (point_lt hk hj hi)
      rw [h0, zero_mul] at this
      exact zero_ne_one this
    exact mul_left_cancel₀ hne hw
  · rfl

/-- **C75, switched off.** Without the option, or with one point per element, nothing is touched. -/
theorem C75_off (pts : Nat → ℝ) (on : Bool) (alpha : ℝ) (order : Nat) (cutoff : ℝ) (sqrtG invSqrtG Q : Nat → ℝ) (c : Nat)
    (h : on = false ∨ n ≤ 1) : applyFilters n pts on alpha order cutoff sqrtG invSqrtG Q c = Q c := by
  unfold applyFilters
  rw [if_neg]
  rintro ⟨h1, h2⟩
  rcases h with h | h
  · rw [h] at h1; exact absurd h1 (by decide)
  · omega

/-! ### The filter of the differentiation matrix -/

/-- a polynomial through the values inside and at the two ends -/
theorem through (h : IsGaussRule n xs ws) (f : Nat → ℝ) (left right : ℝ) : ∃ p : ℝ[X], p.degree < ((n + 2 : ℕ) : WithBot ℕ) ∧
    p.eval (-1) = left ∧ p.eval 1 = right ∧ ∀ a < n, f a = p.eval (arr xs a) := by
  have hinj := extension_injOn h
  set p : ℝ[X] := Lagrange.interpolate (Finset.range (n + 2)) (extension n (arr xs)) (extVals n f left right) with hp
  have hdeg : p.degree < ((n + 2 : Nat) : WithBot Nat) := by
    have := Lagrange.degree_interpolate_lt (extVals n f left right) hinj
    rwa [Finset.card_range] at this
  have hev : ∀ i < n + 2, p.eval (extension n (arr xs) i) = extVals n f left right i := by
    intro i hi
    exact Lagrange.eval_interpolate_at_node _ hinj (Finset.mem_range.mpr hi)
  refine ⟨p, hdeg, ?_, ?_, ?_⟩
  · have := hev 0 (by omega)
    rwa [extension_zero, extVals, if_pos rfl] at this
  · have := hev (n + 1) (by omega)
    rwa [extension_last, extVals, if_neg (by omega), if_neg (by omega)] at this
  · intro a ha
    have := hev (a + 1) (by omega)
    rw [extension_mid _ ha, extVals, if_neg (by omega), if_pos (by omega)] at this
    simpa using this.symm

/-- coefficients of a polynomial of degree at most `m`, padded to `m' > m` -/
theorem coefficients (p : ℝ[X]) {m M : Nat} (hp : p.natDegree ≤ m) (hM : m < M) : ∃ c : Nat → ℝ,
    (∀ x, p.eval x = ∑ l ∈ Finset.range M, legendre x l * c l) ∧ ∀ l, m < l → c l = 0 := by
  obtain ⟨c, hc⟩ := legPoly_span (m + 1) p (by
    refine lt_of_le_of_lt degree_le_natDegree ?_
    exact_mod_cast Nat.lt_succ_of_le hp)
  refine ⟨fun l => if l ≤ m then c l else 0, fun x => ?_, fun l hl => if_neg (by omega)⟩
  rw [hc, eval_finset_sum, ← Finset.sum_subset (Finset.range_subset_range.mpr (show m + 1 ≤ M by omega))]
  · refine Finset.sum_congr rfl fun l hl => ?_
    beta_reduce
    rw [if_pos (by have := Finset.mem_range.mp hl; omega), eval_mul, eval_C, legPoly_eval, mul_comm]
  · intro l _ hl
    beta_reduce
    rw [if_neg (by have := Finset.mem_range.not.mp hl; omega), mul_zero]

/-- the filtered derivative: the derivative of the polynomial through the values, mode by mode -/
theorem filtered_deriv (h : IsGaussRule n xs ws) (Nc s : Nat) (p : ℝ[X]) (hp : p.degree < ((n + 2 : ℕ) : WithBot ℕ)) (f : Nat → ℝ)
    (hf : ∀ a < n, f a = p.eval (arr xs a)) (c : Nat → ℝ)
    (hc : ∀ x, (derivative p).eval x = ∑ l ∈ Finset.range (n + 2), legendre x l * c l) {i : Nat} (hi : i < n) :
    lineDerivFiltered n (arr xs) Nc s f (p.eval (-1)) (p.eval 1) i =
      ∑ l ∈ Finset.range (n + 2), legendre (arr xs i) l * (sigma (n + 1) Nc s l * c l) := by
  have hinj := extension_injOn h
  have e : lineDerivFiltered n (arr xs) Nc s f (p.eval (-1)) (p.eval 1) i =
      ∑ a ∈ Finset.range (n + 2), diffExtFiltered n (arr xs) Nc s (i + 1) a * p.eval (extension n (arr xs) a) := by
    rw [sum_ext_split, extension_zero, extension_last, lineDerivFiltered]
    rw [Finset.sum_congr rfl fun a ha => by rw [hf a (Finset.mem_range.mp ha), ← extension_mid (arr xs) (Finset.mem_range.mp ha)]]
    ring
  rw [e]
  unfold diffExtFiltered matmul
  simp only [Finset.sum_mul]
  rw [Finset.sum_comm]
  have e2 : ∀ b, ∑ a ∈ Finset.range (n + 2), filterExponential n (arr xs) Nc s (i + 1) b * diffExt n (arr xs) b a * p.eval (extension n (arr xs) a) =
      filterExponential n (arr xs) Nc s (i + 1) b * ∑ l ∈ Finset.range (n + 2), legendre (extension n (arr xs) b) l * c l := by
    intro b
    rw [← hc, ← C42_diffmat (n + 2) (extension n (arr xs)) hinj p hp b, Finset.mul_sum]
    exact Finset.sum_congr rfl fun a _ => by rw [diffExt]; ring
  simp only [e2]
  have := modal_apply hinj (sigma (n + 1) Nc s) c (show i + 1 < n + 2 by omega)
  rw [extension_mid _ hi] at this
  exact this

theorem sigma_low (N Nc : Nat) {s : Nat} (hs : 1 ≤ s) {l : Nat} (hl : l ≤ Nc) : sigma N Nc s l = 1 := by
  unfold sigma
  split_ifs with h
  · have : l - Nc = 0 := by omega
    rw [this, Nat.cast_zero, zero_div, zero_pow (by omega), mul_zero, Real.exp_zero]
  · rfl

theorem natDegree_of {p : ℝ[X]} {m : Nat} (h : p.degree < ((m + 1 : ℕ) : WithBot ℕ)) : p.natDegree ≤ m := by
  by_cases h0 : p = 0
  · simp [h0]
  · rw [degree_eq_natDegree h0] at h
    have : p.natDegree < m + 1 := by exact_mod_cast h
    omega

/-- **C75, filtered derivatives conserve.** With the filter of the differentiation matrix, whatever the fluxes inside the element, the weighted
sum of the corrected derivative is still the difference of the two interface fluxes (for a filter of order at least one). -/
theorem C75_derivative_conserves (hn : 1 ≤ n) (h : IsGaussRule n xs ws) (Nc : Nat) {s : Nat} (hs : 1 ≤ s) (f : Nat → ℝ) (left right : ℝ) :
    ∑ i ∈ Finset.range n, arr ws i * lineDerivFiltered n (arr xs) Nc s f left right i = right - left := by
  obtain ⟨p, hp, hl, hr, hf⟩ := through h f left right
  have hd := natDegree_of hp
  obtain ⟨c, hc, hc0⟩ := coefficients (derivative p) (m := n) (M := n + 2) (by have := natDegree_derivative_le p; omega) (by omega)
  have key : ∀ b : Nat → ℝ, b (n + 1) = 0 →
      ∑ i ∈ Finset.range n, arr ws i * ∑ l ∈ Finset.range (n + 2), legendre (arr xs i) l * b l = 2 * b 0 := by
    intro b hb
    simp only [Finset.mul_sum]
    rw [Finset.sum_comm, Finset.sum_eq_single 0]
    · have := rule_sum h (k := 0) (by omega)
      rw [if_pos rfl] at this
      rw [← this, Finset.sum_mul]
      exact Finset.sum_congr rfl fun i _ => by ring
    · intro l hl hl0
      have hl' := Finset.mem_range.mp hl
      rcases Nat.lt_or_ge l (n + 1) with h1 | h1
      · have := rule_sum h (k := l) (by omega)
        rw [if_neg hl0] at this
        rw [← zero_mul (b l), ← this, Finset.sum_mul]
        exact Finset.sum_congr rfl fun i _ => by ring
      · rw [show l = n + 1 by omega, hb]; simp
    · intro hh; exact absurd (Finset.mem_range.mpr (by omega)) hh
  have hcon := C43_element hn h f left right
  rw [Finset.sum_congr rfl (g := fun i => arr ws i * ∑ l ∈ Finset.range (n + 2), legendre (arr xs i) l * c l) (fun i hi => by
    have hi' := Finset.mem_range.mp hi
    rw [← hc, ← C42_corrected n (arr xs) (extension_injOn h) p hp i hi', lineDeriv, hl, hr]
    congr 3
    exact Finset.sum_congr rfl fun a ha => by rw [hf a (Finset.mem_range.mp ha)]), key c (hc0 _ (by omega))] at hcon
  rw [← hcon, ← hl, ← hr]
  rw [Finset.sum_congr rfl fun i hi => by rw [filtered_deriv h Nc s p hp f hf c hc (Finset.mem_range.mp hi)]]
  rw [key (fun l => sigma (n + 1) Nc s l * c l) (by rw [hc0 _ (by omega), mul_zero]), sigma_low _ _ hs (by omega), one_mul]

/-- **C75, filtered derivatives of smooth fields are exact**: up to degree one above the cutoff mode. -/
theorem C75_derivative_exact (h : IsGaussRule n xs ws) (Nc : Nat) {s : Nat} (hs : 1 ≤ s) (hN : Nc ≤ n) (p : ℝ[X]) (hp : p.natDegree ≤ Nc + 1)
    {i : Nat} (hi : i < n) :
    lineDerivFiltered n (arr xs) Nc s (fun a => p.eval (arr xs a)) (p.eval (-1)) (p.eval 1) i = (derivative p).eval (arr xs i) := by
  obtain ⟨c, hc, hc0⟩ := coefficients (derivative p) (m := Nc) (M := n + 2) (by have := natDegree_derivative_le p; omega) (by omega)
  rw [filtered_deriv h Nc s p (lt_of_le_of_lt degree_le_natDegree (by exact_mod_cast (by omega))) _ (fun _ _ => rfl) c hc hi, hc]
  refine Finset.sum_congr rfl fun l _ => ?_
  rcases Nat.lt_or_ge Nc l with h1 | h1
  · rw [hc0 l h1]; ring
  · rw [sigma_low _ _ hs h1, one_mul]

theorem legendre_one : ∀ l, legendre (1 : ℝ) l = 1
  | 0 => by simp [legendre]
  | 1 => by simp [legendre]
  | l + 2 => by
    rw [legendre, legendre_one (l + 1), legendre_one l]
    have : ((l : ℝ) + 2) ≠ 0 := by positivity
    push_cast
    field_simp
    ring

/-- **C75, the configured cutoff of the differentiation filter.** With a cutoff from 0 up to, but not including, 1 and an order of at
least one, the filter leaves the mode of degree `l` as it is exactly when `l` is at most the cutoff times the highest degree, `n + 1`. -/
theorem C75_configured (h : IsGaussRule n xs ws) {cutoff : ℝ} (h0 : 0 ≤ cutoff) (h1 : cutoff < 1) {s : Nat} (hs : 1 ≤ s) {l : Nat} (hl : l ≤ n + 1) :
    (∀ i < n + 2, ∑ a ∈ Finset.range (n + 2), filterExponential n (arr xs) (cutoffMode n cutoff) s i a * legendre (extension n (arr xs) a) l =
      legendre (extension n (arr xs) i) l) ↔ (l : ℝ) ≤ cutoff * (n + 1) := by
  have hinj := extension_injOn h
  have hc : (0 : ℝ) ≤ cutoff * ((n + 1 : ℕ) : ℝ) := mul_nonneg h0 (Nat.cast_nonneg _)
  have hlt : cutoffMode n cutoff < n + 1 := by
    rw [cutoffMode, Nat.floor_lt hc]
    have : (0 : ℝ) < ((n + 1 : ℕ) : ℝ) := by exact_mod_cast Nat.succ_pos n
    nlinarith
  have happ : ∀ i < n + 2, ∑ a ∈ Finset.range (n + 2), filterExponential n (arr xs) (cutoffMode n cutoff) s i a * legendre (extension n (arr xs) a) l =
      sigma (n + 1) (cutoffMode n cutoff) s l * legendre (extension n (arr xs) i) l := by
    intro i hi
    have hsel : ∀ (g : Nat → ℝ), ∑ k ∈ Finset.range (n + 2), g k * (if k = l then (1 : ℝ) else 0) = g l := by
      intro g
      rw [Finset.sum_eq_single l (fun k _ hk => by rw [if_neg hk, mul_zero])
        (fun hh => absurd (Finset.mem_range.mpr (by omega)) hh), if_pos rfl, mul_one]
    have := modal_apply hinj (sigma (n + 1) (cutoffMode n cutoff) s) (fun k => if k = l then (1 : ℝ) else 0) hi
    simp only [hsel, ← mul_assoc] at this
    rw [filterExponential, this]
    ring
  have hmode : (l : ℝ) ≤ cutoff * (n + 1) ↔ l ≤ cutoffMode n cutoff := by
    rw [cutoffMode, Nat.le_floor_iff hc]
    push_cast
    rfl
  rw [hmode]
  constructor
  · intro hall
    by_contra hgt
    rw [not_le] at hgt
    have hlast := hall (n + 1) (by omega)
    rw [happ (n + 1) (by omega), extension_last, legendre_one, mul_one] at hlast
    have hlt1 : sigma (n + 1) (cutoffMode n cutoff) s l < 1 := by
      unfold sigma
      rw [if_pos hgt.le, Real.exp_lt_one_iff]
      have a1 : (0 : ℝ) < ((l - cutoffMode n cutoff : ℕ) : ℝ) := by exact_mod_cast Nat.sub_pos_of_lt hgt
      have a2 : (0 : ℝ) < ((n + 1 - cutoffMode n cutoff : ℕ) : ℝ) := by exact_mod_cast Nat.sub_pos_of_lt hlt
      have a3 : 0 < logEps := by
        unfold logEps
        rw [neg_pos]
        exact Real.log_neg (by positivity) (by norm_num)
      have := mul_pos a3 (pow_pos (div_pos a1 a2) s)
      linarith
    exact absurd hlast hlt1.ne
  · intro hle i hi
    rw [happ i hi, sigma_low _ _ hs hle, one_mul]

/-- the default of the tests, cutoff 1/2 with four points: modes 0, 1 and 2 are left as they are, mode 3 is not -/
example : ((2 : ℕ) : ℝ) ≤ (1 / 2 : ℝ) * ((4 : ℕ) + 1) ∧ ¬ ((3 : ℕ) : ℝ) ≤ (1 / 2 : ℝ) * ((4 : ℕ) + 1) := by norm_num

theorem legendre_neg (x : ℝ) : ∀ l, legendre (-x) l = (-1) ^ l * legendre x l
  | 0 => by simp [legendre]
  | 1 => by simp [legendre]
  | l + 2 => by
    rw [legendre, legendre, legendre_neg x (l + 1), legendre_neg x l]
    rw [pow_succ, pow_succ]
    ring

/-- a filter on mirror-symmetric points is unchanged by a half turn -/
theorem modal_centro {M : Nat} {pts : Nat → ℝ} (hinj : Set.InjOn pts (Finset.range M)) (hsym : ∀ i < M, pts (M - 1 - i) = -pts i)
    (σ : Nat → ℝ) {i j : Nat} (hi : i < M) (hj : j < M) :
    modalFilter M pts σ (M - 1 - i) (M - 1 - j) = modalFilter M pts σ i j := by
  obtain ⟨b, hb⟩ := modes hinj fun a => if a = j then (1 : ℝ) else 0
  have h1 : modalFilter M pts σ i j = ∑ l ∈ Finset.range M, legendre (pts i) l * (σ l * b l) := by
    rw [← modal_apply hinj σ b hi, Finset.sum_eq_single j]
    · have := hb j hj
      rw [if_pos rfl] at this
      rw [← this, mul_one]
    · intro a ha hne
      have := hb a (Finset.mem_range.mp ha)
      rw [if_neg hne] at this
      rw [← this, mul_zero]
    · intro hh; exact absurd (Finset.mem_range.mpr hj) hh
  have h2 : modalFilter M pts σ (M - 1 - i) (M - 1 - j) = ∑ l ∈ Finset.range M, legendre (pts (M - 1 - i)) l * (σ l * ((-1) ^ l * b l)) := by
    have hv : ∀ a < M, ∑ l ∈ Finset.range M, legendre (pts a) l * ((-1) ^ l * b l) = if M - 1 - a = j then (1 : ℝ) else 0 := by
      intro a ha
      have := hb (M - 1 - a) (by omega)
      rw [this, hsym a ha]
      refine Finset.sum_congr rfl fun l _ => ?_
      rw [legendre_neg]; ring
    rw [← modal_apply hinj σ (fun l => (-1) ^ l * b l) (show M - 1 - i < M by omega), Finset.sum_eq_single (M - 1 - j)]
    · rw [hv _ (by omega), if_pos (by omega), mul_one]
    · intro a ha hne
      have ha' := Finset.mem_range.mp ha
      rw [hv a ha', if_neg (by omega), mul_zero]
    · intro hh; exact absurd (Finset.mem_range.mpr (by omega)) hh
  rw [h1, h2]
  refine Finset.sum_congr rfl fun l _ => ?_
  rw [hsym i hi, legendre_neg]
  have : ((-1 : ℝ) ^ l) * (-1) ^ l = 1 := by rw [← mul_pow]; norm_num
  linear_combination (legendre (pts i) l * σ l * b l) * this

/-- **C75, the symmetry check accepts the filtered matrix**: switching the filter on never makes the construction of the operators fail. -/
theorem C75_symmetry_check [DecidableEq ℝ] (h : IsGaussRule n xs ws) (Nc s : Nat) : checkSkewCentro (n + 2) (diffExtFiltered n (arr xs) Nc s) = true := by
  have hinj := extension_injOn h
  have hm : ∀ i < n, arr xs (n - 1 - i) = -arr xs i := WxVerif.Props.LakeAtRest.sym_of_rule h rfl
  have hs : ∀ i < n + 2, extension n (arr xs) (n + 2 - 1 - i) = -extension n (arr xs) i := by
    intro i hi
    rcases Nat.eq_zero_or_pos i with rfl | h0
    · rw [extension_zero, show n + 2 - 1 - 0 = n + 1 by omega, extension_last]; ring
    · rcases Nat.lt_or_ge i (n + 1) with h1 | h1
      · obtain ⟨j, rfl⟩ : ∃ j, i = j + 1 := ⟨i - 1, by omega⟩
        rw [extension_mid _ (by omega), show n + 2 - 1 - (j + 1) = (n - 1 - j) + 1 by omega, extension_mid _ (by omega), hm j (by omega)]
      · rw [show i = n + 1 by omega, extension_last, show n + 2 - 1 - (n + 1) = 0 by omega, extension_zero]
  rw [C42_check_iff]
  intro i hi j hj
  unfold diffExtFiltered matmul
  rw [← Finset.sum_range_reflect, ← Finset.sum_neg_distrib]
  refine Finset.sum_congr rfl fun a ha => ?_
  have ha' := Finset.mem_range.mp ha
  unfold filterExponential diffExt
  rw [modal_centro hinj hs _ hi ha', diffmat_skew hinj hs ha' hj]
  ring

/-! ### The sponge -/

/-- **C75, sponge.** Below the layer the vertical momentum is untouched; above, it is damped: same sign, never larger, and at the top by the
factor `1 / (1 + dt / tscale)`. -/
theorem C75_sponge {z1 zscale tscale dt : ℝ} (hz : 0 < zscale) (ht : 0 < tscale) (hdt : 0 ≤ dt) (z w : ℝ) :
    (z < z1 - zscale → spongeUpdate (spongeBeta z1 zscale tscale z) dt w = w) ∧
    (∃ r : ℝ, 0 < r ∧ r ≤ 1 ∧ spongeUpdate (spongeBeta z1 zscale tscale z) dt w = r * w) ∧
    spongeUpdate (spongeBeta z1 zscale tscale z1) dt w = 1 / (1 + dt / tscale) * w := by
  have hb : 0 ≤ spongeBeta z1 zscale tscale z := by
    unfold spongeBeta
    simp only
    split_ifs
    · positivity
    · exact le_rfl
  refine ⟨fun h => ?_, ⟨1 / (1 + spongeBeta z1 zscale tscale z * dt), ?_, ?_, rfl⟩, ?_⟩
  · unfold spongeUpdate spongeBeta
    simp only
    rw [if_neg (not_le.mpr h)]; simp
  · positivity
  · rw [div_le_one (by positivity)]
    have : 0 ≤ spongeBeta z1 zscale tscale z * dt := by positivity
    linarith
  · unfold spongeUpdate spongeBeta
    simp only
    rw [if_pos (by linarith), show 1 / 2 * Real.pi * (z1 - (z1 - zscale)) / (z1 - (z1 - zscale)) = Real.pi / 2 by
      have : z1 - (z1 - zscale) = zscale := by ring
      rw [this]; field_simp, Real.sin_pi_div_two]
    congr 2
    ring

/-! ### What the filter does not keep -/

theorem line_const (h : IsGaussRule n xs ws) (σ : Nat → ℝ) (c : ℝ) {v : Nat → ℝ} (hv : ∀ a < n, v a = c) {i : Nat} (hi : i < n) :
    line n (modalFilter n (arr xs) σ) v i = σ 0 * c := by
  rw [line_modes h σ v (fun l => if l = 0 then c else 0) _ hi, Finset.sum_eq_single 0]
  · simp [legendre]
  · intro l _ hl; simp [hl]
  · intro hh; exact absurd (Finset.mem_range.mpr (by omega)) hh
  · intro a ha
    rw [hv a ha, Finset.sum_eq_single 0]
    · simp [legendre]
    · intro l _ hl; simp [hl]
    · intro hh; exact absurd (Finset.mem_range.mpr (by omega)) hh

theorem line_linear (h : IsGaussRule n xs ws) (hn : 2 ≤ n) (σ : Nat → ℝ) (c : ℝ) {v : Nat → ℝ} (hv : ∀ a < n, v a = c + arr xs a) {i : Nat} (hi : i < n) :
    line n (modalFilter n (arr xs) σ) v i = σ 0 * c + σ 1 * arr xs i := by
  have key : ∀ g : Nat → ℝ, (∀ l, 2 ≤ l → g l = 0) → ∑ l ∈ Finset.range n, g l = g 0 + g 1 := by
    intro g hg
    rw [← Finset.sum_subset (Finset.range_subset_range.mpr hn), Finset.sum_range_succ, Finset.sum_range_one]
    intro l _ hl
    exact hg l (by have := Finset.mem_range.not.mp hl; omega)
  rw [line_modes h σ v (fun l => if l = 0 then c else if l = 1 then 1 else 0) _ hi, key]
  · simp [legendre]; ring
  · intro l hl; simp [show l ≠ 0 by omega, show l ≠ 1 by omega]
  · intro a ha
    rw [hv a ha, key]
    · simp [legendre]
    · intro l hl; simp [show l ≠ 0 by omega, show l ≠ 1 by omega]

/-- **C75, the filter does not keep a uniform field.** It works on the field times the volume element, so on any element whose volume element
varies it disturbs even a constant: for every rule with at least two points, every positive strength and every order there is such an element. -/
theorem C75_uniform_fails (hn : 2 ≤ n) (h : IsGaussRule n xs ws) {alpha : ℝ} (ha : 0 < alpha) (order : Nat) :
    ∃ sqrtG invSqrtG : Nat → ℝ, Volume n sqrtG invSqrtG ∧ (∀ r < n * n * n, 0 < sqrtG r) ∧
      ∃ r < n * n * n, applyFilters n (arr xs) true alpha order 0 sqrtG invSqrtG (fun _ => 1) r ≠ 1 := by
  have hin : ∀ a < n, -1 < arr xs a ∧ arr xs a < 1 := by
    intro a ha
    refine h.inside _ ?_
    unfold arr
    rw [List.getD_eq_getElem _ _ (by rw [h.nodes_length]; exact ha)]
    exact List.getElem_mem _
  have hpos : ∀ r, 0 < 2 + arr xs (r % n) := fun r => by have := (hin (r % n) (Nat.mod_lt _ (by omega))).1; linarith
  have hG : Volume n (fun r => 2 + arr xs (r % n)) (fun r => (2 + arr xs (r % n))⁻¹) := ⟨fun r _ => mul_inv_cancel₀ (hpos r).ne'⟩
  refine ⟨_, _, hG, fun r _ => hpos r, ?_⟩
  have hx : ∃ i < n, arr xs i ≠ 0 := by
    by_contra hall
    push Not at hall
    have := inj h (show (0 : ℕ) ∈ _ by simp; omega) (show (1 : ℕ) ∈ _ by simp; omega) (by rw [hall 0 (by omega), hall 1 (by omega)])
    omega
  obtain ⟨i, hi, hxi⟩ := hx
  have hr := point_lt (n := n) (k := 0) (j := 0) (by omega) (by omega) hi
  refine ⟨_, hr, fun hone => ?_⟩
  unfold applyFilters at hone
  rw [if_pos ⟨rfl, by omega⟩] at hone
  have hw := weighted hG (makeFilter n (arr xs) alpha order 0) (fun _ => 1) hr
  set σ := WxVerif.Filter.residual n alpha order 0 with hσ
  have h0 : σ 0 = 1 := residual_zero n alpha order le_rfl
  rw [hone, filtered, element _ _ (by omega) (by omega) hi] at hw
  rw [makeFilter, ← hσ] at hw
  rw [line_const h σ (2 + σ 1 * arr xs i) (fun c _ => by
    rw [line_const h σ (2 + σ 1 * arr xs i) (fun b _ => by
      rw [line_linear h hn σ 2 (fun a ha' => by
        have em : ((c * n + b) * n + a) % n = a := by rw [Nat.mul_comm, Nat.mul_add_mod]; exact Nat.mod_eq_of_lt ha'
        simp only [em, mul_one]) hi, h0, one_mul]) (by omega), h0, one_mul]) (by omega), h0, one_mul] at hw
  · have em : ((0 * n + 0) * n + i) % n = i := by simpa using Nat.mod_eq_of_lt hi
    simp only [em, mul_one] at hw
    have h1 : σ 1 = 1 := by
      have : (σ 1 - 1) * arr xs i = 0 := by linarith
      rcases mul_eq_zero.mp this with h2 | h2
      · linarith
      · exact absurd h2 hxi
    have hn1 : (0 : ℝ) < (n : ℝ) - 1 := by
      have : (2 : ℝ) ≤ n := by exact_mod_cast hn
      linarith
    rw [hσ, WxVerif.Filter.residual, if_pos (by simp; linarith), Real.exp_eq_one_iff] at h1
    have : 0 < (((1 : ℕ) : ℝ) / ((n : ℝ) - 1) - 0) / (1 - 0) := by simp; linarith
    have := mul_pos ha (pow_pos this order)
    linarith

/-- **C75, a negative cutoff loses mass.** The configuration does not limit the cutoff; with `-1`, a positive strength and any order, even a
uniform field on a flat element loses mass. -/
theorem C75_cutoff_fails (hn : 2 ≤ n) (h : IsGaussRule n xs ws) {alpha : ℝ} (ha : 0 < alpha) (order : Nat) :
    total n ws (fun r => 1 * applyFilters n (arr xs) true alpha order (-1) (fun _ => 1) (fun _ => 1) (fun _ => 1) r) <
      total n ws (fun r => 1 * (fun _ => 1) r) := by
  set σ := WxVerif.Filter.residual n alpha order (-1) with hσ
  have hs : σ 0 < 1 := by
    rw [hσ, WxVerif.Filter.residual, if_pos (by simp), Real.exp_lt_one_iff]
    have : 0 < ((((0 : ℕ) : ℝ) / ((n : ℝ) - 1) - (-1)) / (1 - (-1))) := by norm_num
    have := mul_pos ha (pow_pos this order)
    linarith
  have hs0 : 0 < σ 0 := residual_pos n alpha order (-1) 0
  have e : total n ws (fun r => 1 * applyFilters n (arr xs) true alpha order (-1) (fun _ => 1) (fun _ => 1) (fun _ => 1) r) =
      total n ws (fun _ => σ 0 ^ 3) := by
    refine total_congr fun k hk j hj i hi => ?_
    unfold applyFilters applyFilter3d
    rw [if_pos ⟨rfl, by omega⟩, element _ _ hk hj hi, makeFilter, ← hσ]
    rw [line_const h σ (σ 0 * (σ 0 * 1)) (fun c _ => line_const h σ (σ 0 * 1) (fun b _ => line_const h σ 1 (fun a _ => by ring) hi) hj) hk]
    ring
  rw [e]
  have hsum : ∀ c : ℝ, total n ws (fun _ => c) = 8 * c := by
    intro c
    have hw := rule_sum h (k := 0) (by omega)
    simp only [legendre, mul_one, if_true] at hw
    unfold total
    simp only [← Finset.sum_mul, ← Finset.mul_sum]
    rw [hw]; ring
  simp only [mul_one]
  rw [hsum, hsum]
  have : σ 0 ^ 3 < 1 := pow_lt_one₀ hs0.le hs (by norm_num)
  linarith

/-! ### The hypotheses are met -/

/-- the four-point rule, a volume element that varies and a state that is not smooth -/
example : ∃ xs ws, WxVerif.Quad.gaussLegendre 4 = .rule xs ws ∧ IsGaussRule 4 xs ws ∧
    Volume 4 (fun r => (r : ℝ) + 1) (fun r => ((r : ℝ) + 1)⁻¹) := by
  obtain ⟨xs, ws, hr, h⟩ := WxVerif.Props.Quadrature.C41_rule 4 (by norm_num) (by norm_num)
  exact ⟨xs, ws, hr, h, ⟨fun r _ => mul_inv_cancel₀ (by positivity)⟩⟩

/-- a field of degree two in each direction -/
example : PolyIn 2 fun x y z => 1 + x ^ 2 * y - 3 * z * x := by
  refine ⟨fun y z => ⟨1 + C y * X ^ 2 - C (3 * z) * X, ?_, fun x => by simp; ring⟩, fun x z => ⟨C (1 - 3 * z * x) + C (x ^ 2) * X, ?_, fun y => by simp; ring⟩,
    fun x y => ⟨C (1 + x ^ 2 * y) - C (3 * x) * X, ?_, fun z => by simp; ring⟩⟩ <;> compute_degree <;> norm_num

end WxVerif.Props.Filter
