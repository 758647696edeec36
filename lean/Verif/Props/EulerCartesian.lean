import Verif.Model.EulerCartesian
import Verif.Spec.CartesianBudget
import Verif.Props.Flux
import Verif.Props.Quadrature

/-!
# C63: the Cartesian model conserves mass and potential temperature, and its momentum changes only by wall pressure and weight
-/

namespace WxVerif.Props.EulerCartesian

open WxVerif.Dfr WxVerif.Flux WxVerif.EulerCartesian WxVerif.Quad WxVerif.Props.Conservation WxVerif.Props.Operators
open WxVerif.Props.Flux WxVerif.Spec.CartesianBudget

/-- **C63** The tendency is a function of the state: whatever was computed before with the same object, the result is the same. -/
theorem C63_history (n nx nz : Nat) (hx : 0 < nx) (hz : 0 < nz) (pts : Nat → ℝ) (Δx1 Δx3 : ℝ) (past : List Arr) (q : Arr)
    (v ek ei c : Nat) (hk : ek < nz) (hi : ei < nx) :
    (call n nx nz pts Δx1 Δx3 (history n nx nz pts Δx1 Δx3 past) q).2 v ek ei c = (call n nx nz pts Δx1 Δx3 none q).2 v ek ei c := by
  have line : ∀ (dir N e : Nat) (hd : dir < 2) (he : e < N) (qi o1 o2 : Nat → Bool → State2) (side : Bool),
      cartesianLine dir N qi o1 e side = cartesianLine dir N qi o2 e side := by
    intro dir N e hd he qi o1 o2 side
    rw [cartesianLine_eq dir N (by omega) qi o1 e he side, cartesianLine_eq dir N (by omega) qi o2 e he side]
    have hd' : dir = 0 ∨ dir = 1 := by omega
    rcases hd' with rfl | rfl <;> cases side <;> simp [boundaryKernel]
  simp only [call]
  have e1 : ∀ o1 o2 : Arr, riemann1 n nx (qItf1 n pts q) o1 v ek ei = riemann1 n nx (qItf1 n pts q) o2 v ek ei := by
    intro o1 o2; funext l
    simp only [riemann1]
    rw [line 0 nx ei (by norm_num) hi]
  have e3 : ∀ o1 o2 : Arr, riemann3 n nz (qItf3 n pts q) o1 v ek ei = riemann3 n nz (qItf3 n pts q) o2 v ek ei := by
    intro o1 o2; funext l
    simp only [riemann3]
    rw [line 1 nz ek (by norm_num) hk]
  rw [e1 _ (fun _ _ _ _ => 0), e3 _ (fun _ _ _ _ => 0)]
  rfl

theorem field_comp (v : Nat) (s : State2) : field v s = comp s v := rfl

/-- the value of `ρθ` on the wall at row `ek`, point `l`: its polynomial at the end of the line of points -/
noncomputable def wallX (n : Nat) (pts : Nat → ℝ) (e : ℝ) (q : Arr) (ei ek l : Nat) : ℝ :=
  ∑ a ∈ Finset.range n, q 3 ek ei (l * n + a) * extrapVec n pts e a
/-- the same on the bottom and top walls -/
noncomputable def wallZ (n : Nat) (pts : Nat → ℝ) (e : ℝ) (q : Arr) (ek ei l : Nat) : ℝ :=
  ∑ a ∈ Finset.range n, q 3 ek ei (a * n + l) * extrapVec n pts e a

theorem qItf1_wall (n : Nat) (pts : Nat → ℝ) (q : Arr) (ek ei l : Nat) (hl : l < n) :
    qItf1 n pts q 3 ek ei l = wallX n pts (-1) q ei ek l ∧ qItf1 n pts q 3 ek ei (n + l) = wallX n pts 1 q ei ek l := by
  have hx : ∀ v : Nat → ℝ, ∑ c ∈ Finset.range (n * n), q 3 ek ei c * kron 1 n eye (row v) l c =
      ∑ a ∈ Finset.range n, q 3 ek ei (l * n + a) * v a := by
    intro v
    have := kron_eye_left (s := n) (rb := 1) (cb := n) (i := 0) hl (by omega) (row v) (q 3 ek ei)
    simpa [row] using this
  constructor
  · simp only [qItf1, vecmul, extrapX2, tr, vstack, hl, if_true, hx, wallX]
  · simp only [qItf1, vecmul, extrapX2, tr, vstack, show ¬(n + l < n) by omega, if_false, Nat.add_sub_cancel_left, hx, wallX]

theorem qItf3_wall (n : Nat) (pts : Nat → ℝ) (q : Arr) (ek ei l : Nat) (hl : l < n) :
    qItf3 n pts q 3 ek ei l = wallZ n pts (-1) q ek ei l ∧ qItf3 n pts q 3 ek ei (n + l) = wallZ n pts 1 q ek ei l := by
  have hy : ∀ v : Nat → ℝ, ∑ c ∈ Finset.range (n * n), q 3 ek ei c * kron n n (row v) eye l c =
      ∑ a ∈ Finset.range n, q 3 ek ei (a * n + l) * v a := by
    intro v
    have := kron_eye_right (s := n) (q := n) (a := 0) hl (row v) (q 3 ek ei)
    simpa [row] using this
  constructor
  · simp only [qItf3, vecmul, extrapY2, tr, vstack, hl, if_true, hy, wallZ]
  · simp only [qItf3, vecmul, extrapY2, tr, vstack, show ¬(n + l < n) by omega, if_false, Nat.add_sub_cancel_left, hy, wallZ]

/-- the budget of the flux part, for every variable -/
theorem flux_budget {n : Nat} (hn : 1 ≤ n) {xs ws : List ℝ} (hq : IsGaussRule n xs ws) (nx nz : Nat) (hx : 0 < nx) (hz : 0 < nz)
    (Δx1 Δx3 : ℝ) (h1 : Δx1 ≠ 0) (h3 : Δx3 ≠ 0) (q o1 o3 : Arr) (v : Nat) (hv : v < 4) :
    total n nx nz (arr ws) Δx1 Δx3 (fun ek ei => rhsCartesian n (arr xs) Δx1 Δx3 (pointwise 0 q v ek ei) (pointwise 1 q v ek ei)
        (riemann1 n nx (qItf1 n (arr xs) q) o1 v ek ei) (riemann3 n nz (qItf3 n (arr xs) q) o3 v ek ei)) =
      (if v = 1 then sideV n nz (arr ws) Δx3 (fun ek l => pressure2 (wallX n (arr xs) (-1) q 0 ek l)) -
          sideV n nz (arr ws) Δx3 (fun ek l => pressure2 (wallX n (arr xs) 1 q (nx - 1) ek l)) else 0) +
      (if v = 2 then sideH n nx (arr ws) Δx1 (fun ei l => pressure2 (wallZ n (arr xs) (-1) q 0 ei l)) -
          sideH n nx (arr ws) Δx1 (fun ei l => pressure2 (wallZ n (arr xs) 1 q (nz - 1) ei l)) else 0) := by
  set I1 := riemann1 n nx (qItf1 n (arr xs) q) o1 with hI1
  set I3 := riemann3 n nz (qItf3 n (arr xs) q) o3 with hI3
  have sv : ∀ l < n, (if l < n then l else l - n) = l ∧ (decide (n ≤ l)) = false ∧ (if n + l < n then n + l else n + l - n) = l ∧
      decide (n ≤ n + l) = true := by
    intro l hl
    refine ⟨if_pos hl, by simpa using hl, ?_, by simp⟩
    rw [if_neg (by omega)]; omega
  have b := C43_budget_cartesian hn hq nz nx hz hx Δx1 Δx3 h1 h3 (fun ek ei => pointwise 0 q v ek ei) (fun ek ei => pointwise 1 q v ek ei)
    (fun ek ei => I1 v ek ei) (fun ek ei => I3 v ek ei)
    (by
      intro ek ei he l hl
      obtain ⟨a1, a2, a3, a4⟩ := sv l hl
      simp only [hI1, riemann1, a1, a2, a3, a4]
      rw [C45_cartesian_single_valued 0 nx _ _ ei he])
    (by
      intro ek ei he l hl
      obtain ⟨a1, a2, a3, a4⟩ := sv l hl
      simp only [hI3, riemann3, a1, a2, a3, a4]
      rw [C45_cartesian_single_valued 1 nz _ _ ek he])
  have ht : total n nx nz (arr ws) Δx1 Δx3 (fun ek ei => rhsCartesian n (arr xs) Δx1 Δx3 (pointwise 0 q v ek ei) (pointwise 1 q v ek ei)
        (I1 v ek ei) (I3 v ek ei)) =
      ∑ ek ∈ Finset.range nz, ∑ ei ∈ Finset.range nx, elemSum2 n (arr ws) (fun c => Δx1 * Δx3 / 4 *
        rhsCartesian n (arr xs) Δx1 Δx3 (pointwise 0 q v ek ei) (pointwise 1 q v ek ei) (I1 v ek ei) (I3 v ek ei) c) := by
    unfold total elemSum2
    refine Finset.sum_congr rfl fun ek _ => Finset.sum_congr rfl fun ei _ => Finset.sum_congr rfl fun j _ => Finset.sum_congr rfl fun i _ => ?_
    ring
  rw [ht, b]
  have w1 : ∀ ek, ∀ l < n, I1 v ek (nx - 1) (n + l) - I1 v ek 0 l =
      if v = 1 then pressure2 (wallX n (arr xs) 1 q (nx - 1) ek l) - pressure2 (wallX n (arr xs) (-1) q 0 ek l) else 0 := by
    intro ek l hl
    obtain ⟨a1, a2, a3, a4⟩ := sv l hl
    simp only [hI1, riemann1, a1, a2, a3, a4, field_comp]
    rw [(C46_cartesian_walls 0 nx (by norm_num) hx _ _ v hv).1, (C46_cartesian_walls 0 nx (by norm_num) hx _ _ v hv).2]
    simp only [EulerCartesian.read, slot, Bool.false_eq_true, if_false, if_true, (qItf1_wall n (arr xs) q ek _ l hl).1, (qItf1_wall n (arr xs) q ek _ l hl).2]
    split <;> simp
  have w3 : ∀ ei, ∀ l < n, I3 v (nz - 1) ei (n + l) - I3 v 0 ei l =
      if v = 2 then pressure2 (wallZ n (arr xs) 1 q (nz - 1) ei l) - pressure2 (wallZ n (arr xs) (-1) q 0 ei l) else 0 := by
    intro ei l hl
    obtain ⟨a1, a2, a3, a4⟩ := sv l hl
    simp only [hI3, riemann3, a1, a2, a3, a4, field_comp]
    rw [(C46_cartesian_walls 1 nz (by norm_num) hz _ _ v hv).1, (C46_cartesian_walls 1 nz (by norm_num) hz _ _ v hv).2]
    simp only [EulerCartesian.read, slot, Bool.false_eq_true, if_false, if_true, (qItf3_wall n (arr xs) q _ ei l hl).1, (qItf3_wall n (arr xs) q _ ei l hl).2]
    split <;> simp
  have s1 : ∑ ek ∈ Finset.range nz, ∑ l ∈ Finset.range n, arr ws l * (I1 v ek (nx - 1) (n + l) - I1 v ek 0 l) =
      ∑ ek ∈ Finset.range nz, ∑ l ∈ Finset.range n, arr ws l *
        (if v = 1 then pressure2 (wallX n (arr xs) 1 q (nx - 1) ek l) - pressure2 (wallX n (arr xs) (-1) q 0 ek l) else 0) :=
    Finset.sum_congr rfl fun ek _ => Finset.sum_congr rfl fun l hl => by rw [w1 ek l (Finset.mem_range.mp hl)]
  have s3 : ∑ ei ∈ Finset.range nx, ∑ l ∈ Finset.range n, arr ws l * (I3 v (nz - 1) ei (n + l) - I3 v 0 ei l) =
      ∑ ei ∈ Finset.range nx, ∑ l ∈ Finset.range n, arr ws l *
        (if v = 2 then pressure2 (wallZ n (arr xs) 1 q (nz - 1) ei l) - pressure2 (wallZ n (arr xs) (-1) q 0 ei l) else 0) :=
    Finset.sum_congr rfl fun ei _ => Finset.sum_congr rfl fun l hl => by rw [w3 ei l (Finset.mem_range.mp hl)]
  rw [s1, s3]
  have hv' : v = 0 ∨ v = 1 ∨ v = 2 ∨ v = 3 := by omega
  rcases hv' with rfl | rfl | rfl | rfl <;>
    simp [sideV, sideH, mul_sub, Finset.sum_sub_distrib, Finset.mul_sum, mul_assoc]

/-- **C63** For every state, the total mass (`v = 0`) and the total of `ρθ` (`v = 3`) of the domain do not change: the tendency
has total zero.  The quadrature rule is the Gauss rule whose nodes are the solution points. -/
theorem C63_conserved {n : Nat} (hn : 1 ≤ n) {xs ws : List ℝ} (hq : IsGaussRule n xs ws) (nx nz : Nat) (hx : 0 < nx) (hz : 0 < nz)
    (Δx1 Δx3 : ℝ) (h1 : Δx1 ≠ 0) (h3 : Δx3 ≠ 0) (mem : Mem) (q : Arr) (v : Nat) (hv : v = 0 ∨ v = 3) :
    total n nx nz (arr ws) Δx1 Δx3 ((call n nx nz (arr xs) Δx1 Δx3 mem q).2 v) = 0 := by
  have b := flux_budget hn hq nx nz hx hz Δx1 Δx3 h1 h3 q (mem.getD (fun _ _ _ _ => 0, fun _ _ _ _ => 0)).1
    (mem.getD (fun _ _ _ _ => 0, fun _ _ _ _ => 0)).2 v (by omega)
  have n1 : v ≠ 1 := by omega
  have n2 : v ≠ 2 := by omega
  rw [if_neg n1, if_neg n2, add_zero] at b
  rw [← b]
  simp only [call, n2, if_false]

/-- **C63** The total horizontal momentum changes by the difference of the pressure integrals over the west and east walls. -/
theorem C63_horizontal_momentum {n : Nat} (hn : 1 ≤ n) {xs ws : List ℝ} (hq : IsGaussRule n xs ws) (nx nz : Nat) (hx : 0 < nx)
    (hz : 0 < nz) (Δx1 Δx3 : ℝ) (h1 : Δx1 ≠ 0) (h3 : Δx3 ≠ 0) (mem : Mem) (q : Arr) :
    total n nx nz (arr ws) Δx1 Δx3 ((call n nx nz (arr xs) Δx1 Δx3 mem q).2 1) =
      sideV n nz (arr ws) Δx3 (fun ek l => pressure2 (wallX n (arr xs) (-1) q 0 ek l)) -
        sideV n nz (arr ws) Δx3 (fun ek l => pressure2 (wallX n (arr xs) 1 q (nx - 1) ek l)) := by
  have b := flux_budget hn hq nx nz hx hz Δx1 Δx3 h1 h3 q (mem.getD (fun _ _ _ _ => 0, fun _ _ _ _ => 0)).1
    (mem.getD (fun _ _ _ _ => 0, fun _ _ _ _ => 0)).2 1 (by omega)
  simp only [if_true, OfNat.one_ne_ofNat, if_false, add_zero] at b
  rw [← b]
  simp only [call, OfNat.one_ne_ofNat, if_false]

/-- **C63** The total vertical momentum changes by the pressure integral over the bottom wall minus that over the top wall minus
the weight of the fluid. -/
theorem C63_vertical_momentum {n : Nat} (hn : 1 ≤ n) {xs ws : List ℝ} (hq : IsGaussRule n xs ws) (nx nz : Nat) (hx : 0 < nx)
    (hz : 0 < nz) (Δx1 Δx3 : ℝ) (h1 : Δx1 ≠ 0) (h3 : Δx3 ≠ 0) (mem : Mem) (q : Arr) :
    total n nx nz (arr ws) Δx1 Δx3 ((call n nx nz (arr xs) Δx1 Δx3 mem q).2 2) =
      sideH n nx (arr ws) Δx1 (fun ei l => pressure2 (wallZ n (arr xs) (-1) q 0 ei l)) -
        sideH n nx (arr ws) Δx1 (fun ei l => pressure2 (wallZ n (arr xs) 1 q (nz - 1) ei l)) -
        9.80616 * total n nx nz (arr ws) Δx1 Δx3 (q 0) := by
  have b := flux_budget hn hq nx nz hx hz Δx1 Δx3 h1 h3 q (mem.getD (fun _ _ _ _ => 0, fun _ _ _ _ => 0)).1
    (mem.getD (fun _ _ _ _ => 0, fun _ _ _ _ => 0)).2 2 (by omega)
  simp only [if_true, OfNat.ofNat_ne_one, if_false, zero_add] at b
  rw [← b]
  simp only [call, if_true, total, mul_sub, Finset.sum_sub_distrib, gravity, Finset.mul_sum]
  congr 1
  refine Finset.sum_congr rfl fun ek _ => Finset.sum_congr rfl fun ei _ => Finset.sum_congr rfl fun j _ => Finset.sum_congr rfl fun i _ => ?_
  ring

/-- non-vacuity: the total of a uniform density on 2 × 3 elements with one point each is its mass -/
example : total 1 3 2 (arr [2]) 10 20 (fun _ _ _ => 1.2) = 1.2 * (3 * 10) * (2 * 20) := by
  simp [total, arr]; norm_num

/-- non-vacuity: the rules of the code, with three points per side, and a state that is not uniform -/
example : ∃ xs ws, WxVerif.Quad.gaussLegendre 3 = .rule xs ws ∧
    total 3 5 4 (arr ws) 100 50 ((call 3 5 4 (arr xs) 100 50 none (fun v ek ei c => if v = 0 then 1 + ek + ei + c else 300 + c)).2 0) = 0 := by
  obtain ⟨xs, ws, h, hq⟩ := WxVerif.Props.Quadrature.C41_rule 3 (by norm_num) (by norm_num)
  exact ⟨xs, ws, h, C63_conserved (by norm_num) hq 5 4 (by norm_num) (by norm_num) 100 50 (by norm_num) (by norm_num) none _ 0 (Or.inl rfl)⟩

end WxVerif.Props.EulerCartesian
