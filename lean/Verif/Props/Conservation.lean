import Verif.Props.Operators
import Mathlib.Data.List.GetD

/-!
# C43: the flux divergence is discretely conservative
-/

namespace WxVerif.Props.Conservation

open WxVerif.Dfr WxVerif.Quad WxVerif.Props.Operators
open Polynomial

/-- a list of nodes (weights) as an array -/
def arr (l : List ℝ) (i : Nat) : ℝ := l.getD i 0

theorem quad_eq_sum (xs ws : List ℝ) (h : xs.length = ws.length) (f : ℝ → ℝ) :
    quad xs ws f = ∑ i ∈ Finset.range xs.length, arr ws i * f (arr xs i) := by
  unfold quad arr
  induction xs generalizing ws with
  | nil => simp
  | cons x xs ih =>
    cases ws with
    | nil => simp at h
    | cons w ws =>
      simp only [List.zipWith_cons_cons, List.sum_cons, List.length_cons]
      rw [Finset.sum_range_succ', ih ws (by simpa using h)]
      simp [add_comm]

/-- the extension points of a rule are distinct -/
theorem extension_injOn {n : Nat} {xs ws : List ℝ} (h : IsGaussRule n xs ws) :
    Set.InjOn (extension n (arr xs)) (Finset.range (n + 2)) := by
  have hl := h.nodes_length
  have hmem : ∀ i < n, arr xs i ∈ xs := by
    intro i hi
    unfold arr
    rw [List.getD_eq_getElem _ _ (by omega)]
    exact List.getElem_mem _
  have hlt : ∀ i j, i < j → j < n → arr xs i < arr xs j := by
    intro i j hij hj
    unfold arr
    rw [List.getD_eq_getElem _ _ (by omega), List.getD_eq_getElem _ _ (by omega)]
    exact List.pairwise_iff_getElem.mp h.increasing i j (by omega) (by omega) hij
  have hmono : ∀ i j, i < j → j < n + 2 → extension n (arr xs) i < extension n (arr xs) j := by
    intro i j hij hj
    unfold extension
    by_cases h0 : i = 0
    · subst h0
      rw [if_pos rfl, if_neg (by omega)]
      split
      · exact (h.inside _ (hmem _ (by omega))).1
      · norm_num
    · have hin : i ≤ n := by omega
      have hj0 : j ≠ 0 := by omega
      rw [if_neg h0, if_pos hin, if_neg hj0]
      split
      · exact hlt _ _ (by omega) (by omega)
      · exact (h.inside _ (hmem _ (by omega))).2
  intro a ha b hb hab
  have ha' : a < n + 2 := by simpa using ha
  have hb' : b < n + 2 := by simpa using hb
  rcases lt_trichotomy a b with hh | hh | hh
  · exact absurd hab (hmono a b hh hb').ne
  · exact hh
  · exact absurd hab (hmono b a hh ha').ne'

/-- **C42** Every rule the code can build (`1 ≤ n ≤ 5`) meets the hypotheses of the `C42_*` theorems: distinct extension points,
distinct solution points, mirror symmetry. -/
theorem C42_code_points (n : Nat) (h1 : 1 ≤ n) (h5 : n ≤ 5) : ∃ xs ws, gaussLegendre n = .rule xs ws ∧
    Set.InjOn (extension n (arr xs)) (Finset.range (n + 2)) ∧ Set.InjOn (arr xs) (Finset.range n) ∧
    (∀ i < n, arr xs (n - 1 - i) = -arr xs i) := by
  obtain ⟨xs, ws, hr, h⟩ := WxVerif.Props.Quadrature.C41_rule n h1 h5
  refine ⟨xs, ws, hr, extension_injOn h, ?_, ?_⟩
  · intro a ha b hb hab
    have ha' : a < n := by simpa using ha
    have hb' : b < n := by simpa using hb
    have := extension_injOn h (show a + 1 ∈ _ by simpa using by omega) (show b + 1 ∈ _ by simpa using by omega)
      (by rw [extension_mid _ ha', extension_mid _ hb', hab])
    omega
  · intro i hi
    have hl := h.nodes_length
    have hm : xs.reverse[i]? = (xs.map fun x => -x)[i]? := by rw [h.mirror]
    rw [List.getElem?_reverse (by omega), List.getElem?_map, hl, List.getElem?_eq_getElem (by omega), List.getElem?_eq_getElem (by omega)] at hm
    unfold arr
    rw [List.getD_eq_getElem _ _ (by omega), List.getD_eq_getElem _ _ (by omega)]
    simpa using hm

/-- the two ends and the values at the solution points, as values at the extension points -/
def extVals (n : Nat) (f : Nat → ℝ) (left right : ℝ) (i : Nat) : ℝ := if i = 0 then left else if i ≤ n then f (i - 1) else right

/-- **C43** In one element, whatever the interior fluxes, the weighted sum of the corrected derivative is the difference of
the two interface fluxes. -/
theorem C43_element {n : Nat} (hn : 1 ≤ n) {xs ws : List ℝ} (h : IsGaussRule n xs ws) (f : Nat → ℝ) (left right : ℝ) :
    ∑ i ∈ Finset.range n, arr ws i * lineDeriv n (arr xs) f left right i = right - left := by
  have hinj := extension_injOn h
  set p : ℝ[X] := Lagrange.interpolate (Finset.range (n + 2)) (extension n (arr xs)) (extVals n f left right) with hp
  have hdeg : p.degree < ((n + 2 : Nat) : WithBot Nat) := by
    have := Lagrange.degree_interpolate_lt (extVals n f left right) hinj
    rwa [Finset.card_range] at this
  have hev : ∀ i < n + 2, p.eval (extension n (arr xs) i) = extVals n f left right i := by
    intro i hi
    exact Lagrange.eval_interpolate_at_node _ hinj (Finset.mem_range.mpr hi)
  have hl : p.eval (-1) = left := by
    have := hev 0 (by omega)
    rwa [extension_zero, extVals, if_pos rfl] at this
  have hr : p.eval 1 = right := by
    have := hev (n + 1) (by omega)
    rwa [extension_last, extVals, if_neg (by omega), if_neg (by omega)] at this
  have hm : ∀ a < n, f a = p.eval (arr xs a) := by
    intro a ha
    have := hev (a + 1) (by omega)
    rw [extension_mid _ ha, extVals, if_neg (by omega), if_pos (by omega)] at this
    simpa using this.symm
  have hline : ∀ i < n, lineDeriv n (arr xs) f left right i = (derivative p).eval (arr xs i) := by
    intro i hi
    rw [← C42_corrected n (arr xs) hinj p hdeg i hi, lineDeriv, hl, hr]
    congr 2
    exact Finset.sum_congr rfl fun a ha => by rw [hm a (Finset.mem_range.mp ha)]
  rw [Finset.sum_congr rfl fun i hi => by rw [hline i (Finset.mem_range.mp hi)]]
  have hd : (derivative p).natDegree ≤ 2 * n - 1 := by
    have h1 : p.natDegree ≤ n + 1 := by
      by_cases h0 : p = 0
      · simp [h0]
      · rw [degree_eq_natDegree h0] at hdeg
        have : p.natDegree < n + 2 := by exact_mod_cast hdeg
        omega
    have := natDegree_derivative_le p
    omega
  have hq := h.exact _ hd
  rw [quad_eq_sum xs ws (by rw [h.nodes_length, h.weights_length]), h.nodes_length] at hq
  rw [hq]
  rw [intervalIntegral.integral_eq_sub_of_hasDerivAt (f := fun x => p.eval x) (fun x _ => p.hasDerivAt x)
    ((derivative p).continuous.intervalIntegrable _ _), hl, hr]

/-- **C43** A row of elements telescopes: with single-valued interface fluxes `g 0 … g N`, only the two outer fluxes remain. -/
theorem C43_row {n : Nat} (hn : 1 ≤ n) {xs ws : List ℝ} (h : IsGaussRule n xs ws) (N : Nat) (f : Nat → Nat → ℝ) (g : Nat → ℝ) :
    ∑ e ∈ Finset.range N, ∑ i ∈ Finset.range n, arr ws i * lineDeriv n (arr xs) (f e) (g e) (g (e + 1)) i = g N - g 0 := by
  simp only [C43_element hn h]
  exact Finset.sum_range_sub g N

/-! ## Whole grids -/

/-- Weighted sum over the points of a 2D element (`quad_weights = outer(w, w)`, point `(i, j)` at `j n + i`). -/
def elemSum2 (n : Nat) (w : Nat → ℝ) (F : Nat → ℝ) : ℝ :=
  ∑ j ∈ Finset.range n, ∑ i ∈ Finset.range n, w j * w i * F (j * n + i)

/-- Weighted sum over the points of a 3D element. -/
def elemSum3 (n : Nat) (w : Nat → ℝ) (F : Nat → ℝ) : ℝ :=
  ∑ k ∈ Finset.range n, ∑ j ∈ Finset.range n, ∑ i ∈ Finset.range n, w k * w j * w i * F ((k * n + j) * n + i)

theorem elem_df1_2d {n : Nat} (hn : 1 ≤ n) {xs ws : List ℝ} (h : IsGaussRule n xs ws) (f itf : Nat → ℝ) :
    elemSum2 n (arr ws) (df1_2d n (arr xs) f itf) = ∑ j ∈ Finset.range n, arr ws j * (itf (n + j) - itf j) := by
  unfold elemSum2
  apply Finset.sum_congr rfl
  intro j hj
  rw [← C43_element hn h (fun a => f (j * n + a)) (itf j) (itf (n + j)), Finset.mul_sum]
  apply Finset.sum_congr rfl
  intro i hi
  rw [df1_2d_line _ _ _ (Finset.mem_range.mp hj) (Finset.mem_range.mp hi)]
  ring

theorem elem_df2_2d {n : Nat} (hn : 1 ≤ n) {xs ws : List ℝ} (h : IsGaussRule n xs ws) (f itf : Nat → ℝ) :
    elemSum2 n (arr ws) (df2_2d n (arr xs) f itf) = ∑ i ∈ Finset.range n, arr ws i * (itf (n + i) - itf i) := by
  unfold elemSum2
  rw [Finset.sum_comm]
  apply Finset.sum_congr rfl
  intro i hi
  rw [← C43_element hn h (fun a => f (a * n + i)) (itf i) (itf (n + i)), Finset.mul_sum]
  apply Finset.sum_congr rfl
  intro j hj
  rw [df2_2d_line _ _ _ (Finset.mem_range.mp hi)]
  ring

theorem elem_df1_3d {n : Nat} (hn : 1 ≤ n) {xs ws : List ℝ} (h : IsGaussRule n xs ws) (f itf : Nat → ℝ) :
    elemSum3 n (arr ws) (df1_3d n (arr xs) f itf) =
      ∑ k ∈ Finset.range n, ∑ j ∈ Finset.range n, arr ws k * arr ws j * (itf (n * n + (k * n + j)) - itf (k * n + j)) := by
  unfold elemSum3
  apply Finset.sum_congr rfl
  intro k hk
  apply Finset.sum_congr rfl
  intro j hj
  rw [← C43_element hn h (fun a => f ((k * n + j) * n + a)) (itf (k * n + j)) (itf (n * n + (k * n + j))), Finset.mul_sum]
  apply Finset.sum_congr rfl
  intro i hi
  rw [df1_3d_line _ _ _ (Finset.mem_range.mp hk) (Finset.mem_range.mp hj) (Finset.mem_range.mp hi)]
  ring

theorem elem_df2_3d {n : Nat} (hn : 1 ≤ n) {xs ws : List ℝ} (h : IsGaussRule n xs ws) (f itf : Nat → ℝ) :
    elemSum3 n (arr ws) (df2_3d n (arr xs) f itf) =
      ∑ k ∈ Finset.range n, ∑ i ∈ Finset.range n, arr ws k * arr ws i * (itf (n * n + (k * n + i)) - itf (k * n + i)) := by
  unfold elemSum3
  apply Finset.sum_congr rfl
  intro k hk
  rw [Finset.sum_comm]
  apply Finset.sum_congr rfl
  intro i hi
  rw [← C43_element hn h (fun a => f ((k * n + a) * n + i)) (itf (k * n + i)) (itf (n * n + (k * n + i))), Finset.mul_sum]
  apply Finset.sum_congr rfl
  intro j hj
  rw [df2_3d_line _ _ _ (Finset.mem_range.mp hk) (Finset.mem_range.mp hj) (Finset.mem_range.mp hi)]
  ring

theorem elem_df3_3d {n : Nat} (hn : 1 ≤ n) {xs ws : List ℝ} (h : IsGaussRule n xs ws) (f itf : Nat → ℝ) :
    elemSum3 n (arr ws) (df3_3d n (arr xs) f itf) =
      ∑ j ∈ Finset.range n, ∑ i ∈ Finset.range n, arr ws j * arr ws i * (itf (n * n + (j * n + i)) - itf (j * n + i)) := by
  unfold elemSum3
  rw [Finset.sum_comm]
  apply Finset.sum_congr rfl
  intro j hj
  rw [Finset.sum_comm]
  apply Finset.sum_congr rfl
  intro i hi
  rw [← C43_element hn h (fun a => f ((a * n + j) * n + i)) (itf (j * n + i)) (itf (n * n + (j * n + i))), Finset.mul_sum]
  apply Finset.sum_congr rfl
  intro k hk
  rw [df3_3d_line _ _ _ (Finset.mem_range.mp hj) (Finset.mem_range.mp hi)]
  ring

/-- telescoping of vector-valued interface data along a line of elements -/
theorem tele (m n : Nat) (v : Nat → ℝ) (itf : Nat → Nat → ℝ) (N : Nat)
    (hs : ∀ e, e + 1 < N → ∀ l < n, itf (e + 1) l = itf e (m + l)) (hN : 0 < N) :
    ∑ e ∈ Finset.range N, ∑ l ∈ Finset.range n, v l * (itf e (m + l) - itf e l) =
      ∑ l ∈ Finset.range n, v l * (itf (N - 1) (m + l) - itf 0 l) := by
  induction N with
  | zero => omega
  | succ N ih =>
    rcases Nat.eq_zero_or_pos N with rfl | h0
    · simp
    · rw [Finset.sum_range_succ, ih (fun e he => hs e (by omega)) h0, ← Finset.sum_add_distrib]
      apply Finset.sum_congr rfl
      intro l hl
      have := hs (N - 1) (by omega) l (Finset.mem_range.mp hl)
      rw [show N - 1 + 1 = N by omega] at this
      rw [this, show N + 1 - 1 = N by omega]
      ring

/-- **C43** Shallow water on one tile of `ny × nx` elements: the weighted sum of `√G · ∂h/∂t` over all points of the tile is
minus the net flux through the four sides of the tile, whatever the interior fluxes and the interface fluxes are, as long as
the two elements adjacent to an interface use the same interface flux. -/
theorem C43_budget_2d {n : Nat} (hn : 1 ≤ n) {xs ws : List ℝ} (h : IsGaussRule n xs ws) (ny nx : Nat) (hy : 0 < ny) (hx : 0 < nx)
    (sqrtG f1 f2 itf1 itf2 : Nat → Nat → Nat → ℝ) (hG : ∀ ej ei c, sqrtG ej ei c ≠ 0)
    (h1 : ∀ ej ei, ei + 1 < nx → ∀ l < n, itf1 ej (ei + 1) l = itf1 ej ei (n + l))
    (h2 : ∀ ej ei, ej + 1 < ny → ∀ l < n, itf2 (ej + 1) ei l = itf2 ej ei (n + l)) :
    ∑ ej ∈ Finset.range ny, ∑ ei ∈ Finset.range nx, elemSum2 n (arr ws) (fun c => sqrtG ej ei c *
        rhsSphere2d n (arr xs) (fun c => 1 / sqrtG ej ei c) (f1 ej ei) (f2 ej ei) (itf1 ej ei) (itf2 ej ei) c) =
      -(∑ ej ∈ Finset.range ny, ∑ l ∈ Finset.range n, arr ws l * (itf1 ej (nx - 1) (n + l) - itf1 ej 0 l))
      - ∑ ei ∈ Finset.range nx, ∑ l ∈ Finset.range n, arr ws l * (itf2 (ny - 1) ei (n + l) - itf2 0 ei l) := by
  have he : ∀ ej ei, elemSum2 n (arr ws) (fun c => sqrtG ej ei c *
        rhsSphere2d n (arr xs) (fun c => 1 / sqrtG ej ei c) (f1 ej ei) (f2 ej ei) (itf1 ej ei) (itf2 ej ei) c) =
      -(∑ l ∈ Finset.range n, arr ws l * (itf1 ej ei (n + l) - itf1 ej ei l)) - ∑ l ∈ Finset.range n, arr ws l * (itf2 ej ei (n + l) - itf2 ej ei l) := by
    intro ej ei
    rw [← elem_df1_2d hn h (f1 ej ei), ← elem_df2_2d hn h (f2 ej ei)]
    unfold elemSum2 rhsSphere2d
    rw [← Finset.sum_neg_distrib, ← Finset.sum_sub_distrib]
    apply Finset.sum_congr rfl
    intro j _
    rw [← Finset.sum_neg_distrib, ← Finset.sum_sub_distrib]
    apply Finset.sum_congr rfl
    intro i _
    have := hG ej ei (j * n + i)
    field_simp
  simp only [he, Finset.sum_sub_distrib, Finset.sum_neg_distrib]
  congr 1
  · congr 1
    apply Finset.sum_congr rfl
    intro ej _
    exact tele n n (arr ws) (itf1 ej) nx (h1 ej) hx
  · rw [Finset.sum_comm]
    apply Finset.sum_congr rfl
    intro ei _
    exact tele n n (arr ws) (fun ej => itf2 ej ei) ny (fun ej => h2 ej ei) hy

/-- **C43** The Cartesian model: `Σ w ∂q/∂t Δx1 Δx3 / 4` is minus the net flux through the sides of the domain. -/
theorem C43_budget_cartesian {n : Nat} (hn : 1 ≤ n) {xs ws : List ℝ} (h : IsGaussRule n xs ws) (nz nx : Nat) (hz : 0 < nz) (hx : 0 < nx)
    (Δx1 Δx3 : ℝ) (hΔ1 : Δx1 ≠ 0) (hΔ3 : Δx3 ≠ 0) (f1 f3 itf1 itf3 : Nat → Nat → Nat → ℝ)
    (h1 : ∀ ek ei, ei + 1 < nx → ∀ l < n, itf1 ek (ei + 1) l = itf1 ek ei (n + l))
    (h3 : ∀ ek ei, ek + 1 < nz → ∀ l < n, itf3 (ek + 1) ei l = itf3 ek ei (n + l)) :
    ∑ ek ∈ Finset.range nz, ∑ ei ∈ Finset.range nx, elemSum2 n (arr ws) (fun c => Δx1 * Δx3 / 4 *
        rhsCartesian n (arr xs) Δx1 Δx3 (f1 ek ei) (f3 ek ei) (itf1 ek ei) (itf3 ek ei) c) =
      -(Δx3 / 2 * ∑ ek ∈ Finset.range nz, ∑ l ∈ Finset.range n, arr ws l * (itf1 ek (nx - 1) (n + l) - itf1 ek 0 l))
      - Δx1 / 2 * ∑ ei ∈ Finset.range nx, ∑ l ∈ Finset.range n, arr ws l * (itf3 (nz - 1) ei (n + l) - itf3 0 ei l) := by
  have he : ∀ ek ei, elemSum2 n (arr ws) (fun c => Δx1 * Δx3 / 4 *
        rhsCartesian n (arr xs) Δx1 Δx3 (f1 ek ei) (f3 ek ei) (itf1 ek ei) (itf3 ek ei) c) =
      -(Δx3 / 2 * ∑ l ∈ Finset.range n, arr ws l * (itf1 ek ei (n + l) - itf1 ek ei l)) -
        Δx1 / 2 * ∑ l ∈ Finset.range n, arr ws l * (itf3 ek ei (n + l) - itf3 ek ei l) := by
    intro ek ei
    rw [← elem_df1_2d hn h (f1 ek ei), ← elem_df2_2d hn h (f3 ek ei)]
    unfold elemSum2 rhsCartesian
    simp only [Finset.mul_sum]
    rw [← Finset.sum_neg_distrib, ← Finset.sum_sub_distrib]
    apply Finset.sum_congr rfl
    intro j _
    rw [← Finset.sum_neg_distrib, ← Finset.sum_sub_distrib]
    apply Finset.sum_congr rfl
    intro i _
    field_simp
    ring
  simp only [he, Finset.sum_sub_distrib, Finset.sum_neg_distrib, ← Finset.mul_sum]
  congr 1
  · congr 2
    apply Finset.sum_congr rfl
    intro ek _
    exact tele n n (arr ws) (itf1 ek) nx (h1 ek) hx
  · congr 1
    rw [Finset.sum_comm]
    apply Finset.sum_congr rfl
    intro ei _
    exact tele n n (arr ws) (fun ek => itf3 ek ei) nz (fun ek => h3 ek ei) hz

/-- **C43** The 3D cubed sphere, one tile of `nz × ny × nx` elements: the weighted sum of `√G · ∂q/∂t` is minus the net flux
through the six sides. -/
theorem C43_budget_3d {n : Nat} (hn : 1 ≤ n) {xs ws : List ℝ} (h : IsGaussRule n xs ws) (nz ny nx : Nat) (hz : 0 < nz) (hy : 0 < ny) (hx : 0 < nx)
    (sqrtG f1 f2 f3 itf1 itf2 itf3 : Nat → Nat → Nat → Nat → ℝ) (hG : ∀ ek ej ei c, sqrtG ek ej ei c ≠ 0)
    (h1 : ∀ ek ej ei, ei + 1 < nx → ∀ l < n * n, itf1 ek ej (ei + 1) l = itf1 ek ej ei (n * n + l))
    (h2 : ∀ ek ej ei, ej + 1 < ny → ∀ l < n * n, itf2 ek (ej + 1) ei l = itf2 ek ej ei (n * n + l))
    (h3 : ∀ ek ej ei, ek + 1 < nz → ∀ l < n * n, itf3 (ek + 1) ej ei l = itf3 ek ej ei (n * n + l)) :
    ∑ ek ∈ Finset.range nz, ∑ ej ∈ Finset.range ny, ∑ ei ∈ Finset.range nx, elemSum3 n (arr ws) (fun c => sqrtG ek ej ei c *
        rhsSphere3d n (arr xs) (fun c => 1 / sqrtG ek ej ei c) (f1 ek ej ei) (f2 ek ej ei) (f3 ek ej ei)
          (itf1 ek ej ei) (itf2 ek ej ei) (itf3 ek ej ei) c) =
      -((∑ ek ∈ Finset.range nz, ∑ ej ∈ Finset.range ny, ∑ l ∈ Finset.range (n * n), arr ws (l / n) * arr ws (l % n) *
          (itf1 ek ej (nx - 1) (n * n + l) - itf1 ek ej 0 l))
      + (∑ ek ∈ Finset.range nz, ∑ ei ∈ Finset.range nx, ∑ l ∈ Finset.range (n * n), arr ws (l / n) * arr ws (l % n) *
          (itf2 ek (ny - 1) ei (n * n + l) - itf2 ek 0 ei l))
      + ∑ ej ∈ Finset.range ny, ∑ ei ∈ Finset.range nx, ∑ l ∈ Finset.range (n * n), arr ws (l / n) * arr ws (l % n) *
          (itf3 (nz - 1) ej ei (n * n + l) - itf3 0 ej ei l)) := by
  have fl : ∀ G : Nat → ℝ, ∑ k ∈ Finset.range n, ∑ j ∈ Finset.range n, arr ws k * arr ws j * G (k * n + j) =
      ∑ l ∈ Finset.range (n * n), arr ws (l / n) * arr ws (l % n) * G l := by
    intro G
    rw [sum_range_mul]
    apply Finset.sum_congr rfl
    intro k _
    apply Finset.sum_congr rfl
    intro j hj
    have := Finset.mem_range.mp hj
    rw [div_of this, mod_of this]
  have he : ∀ ek ej ei, elemSum3 n (arr ws) (fun c => sqrtG ek ej ei c *
        rhsSphere3d n (arr xs) (fun c => 1 / sqrtG ek ej ei c) (f1 ek ej ei) (f2 ek ej ei) (f3 ek ej ei)
          (itf1 ek ej ei) (itf2 ek ej ei) (itf3 ek ej ei) c) =
      -((∑ l ∈ Finset.range (n * n), arr ws (l / n) * arr ws (l % n) * (itf1 ek ej ei (n * n + l) - itf1 ek ej ei l)) +
        (∑ l ∈ Finset.range (n * n), arr ws (l / n) * arr ws (l % n) * (itf2 ek ej ei (n * n + l) - itf2 ek ej ei l)) +
        ∑ l ∈ Finset.range (n * n), arr ws (l / n) * arr ws (l % n) * (itf3 ek ej ei (n * n + l) - itf3 ek ej ei l)) := by
    intro ek ej ei
    rw [← fl (fun l => itf1 ek ej ei (n * n + l) - itf1 ek ej ei l), ← fl (fun l => itf2 ek ej ei (n * n + l) - itf2 ek ej ei l),
      ← fl (fun l => itf3 ek ej ei (n * n + l) - itf3 ek ej ei l),
      ← elem_df1_3d hn h (f1 ek ej ei), ← elem_df2_3d hn h (f2 ek ej ei), ← elem_df3_3d hn h (f3 ek ej ei)]
    unfold elemSum3 rhsSphere3d
    simp only [← Finset.sum_add_distrib, ← Finset.sum_neg_distrib]
    apply Finset.sum_congr rfl
    intro k _
    apply Finset.sum_congr rfl
    intro j _
    apply Finset.sum_congr rfl
    intro i _
    have := hG ek ej ei ((k * n + j) * n + i)
    field_simp
  simp only [he, Finset.sum_add_distrib, Finset.sum_neg_distrib]
  congr 1
  congr 1
  · congr 1
    · apply Finset.sum_congr rfl
      intro ek _
      apply Finset.sum_congr rfl
      intro ej _
      exact tele (n * n) (n * n) (fun l => arr ws (l / n) * arr ws (l % n)) (itf1 ek ej) nx (h1 ek ej) hx
    · apply Finset.sum_congr rfl
      intro ek _
      rw [Finset.sum_comm]
      apply Finset.sum_congr rfl
      intro ei _
      exact tele (n * n) (n * n) (fun l => arr ws (l / n) * arr ws (l % n)) (fun ej => itf2 ek ej ei) ny (fun ej => h2 ek ej ei) hy
  · rw [Finset.sum_comm]
    apply Finset.sum_congr rfl
    intro ej _
    rw [Finset.sum_comm]
    apply Finset.sum_congr rfl
    intro ei _
    exact tele (n * n) (n * n) (fun l => arr ws (l / n) * arr ws (l % n)) (fun ek => itf3 ek ej ei) nz (fun ek => h3 ek ej ei) hz

/-- the hypotheses are met by every rule of the code, e.g. three nodes -/
example : ∃ xs ws, gaussLegendre 3 = .rule xs ws ∧ IsGaussRule 3 xs ws := WxVerif.Props.Quadrature.C41_rule 3 (by norm_num) (by norm_num)

end WxVerif.Props.Conservation
