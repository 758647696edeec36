import Verif.Lemmas.Tableau
import Verif.Model.RungeKutta

/-!
# The Runge-Kutta tableaux (C28)
-/

namespace WxVerif.Props.Butcher

open WxVerif.RungeKutta WxVerif.RootedTree WxVerif.Lemmas.Butcher

set_option maxRecDepth 100000

theorem zero_tol : ((0 : Nat) : ℚ) / ((1 : Nat) : ℚ) = 0 := by norm_num

/-- **C28**, exact tableaux: the main and the embedded method of these five tableaux satisfy all the order
    conditions of the advertised orders, with no tolerance, and every node is the sum of its row. -/
theorem C28_exact :
    ∀ m ∈ [exLRK43, exLRK32, m43, bS32, dP54],
      MainOrder m m.order 0 ∧ EmbeddedOrder m m.errOrder 0 ∧ RowSums m 0 := by
  have key : ∀ m : Method, mainOk m m.order 0 1 = true → embOk m m.errOrder 0 1 = true → rowsOk m 0 1 = true →
      MainOrder m m.order 0 ∧ EmbeddedOrder m m.errOrder 0 ∧ RowSums m 0 := by
    intro m h1 h2 h3
    have := main_sound m _ 0 1 h1
    have h5 := emb_sound m _ 0 1 h2
    have h6 := rows_sound m 0 1 h3
    rw [zero_tol] at this h5 h6
    exact ⟨this, h5, h6⟩
  simp only [List.mem_cons, List.not_mem_nil, or_false, forall_eq_or_imp, forall_eq]
  refine ⟨?_, ?_, ?_, ?_, ?_⟩ <;> apply key <;> decide +kernel

/-- **C28**, `KC3(2)`, whose coefficients are fractions of 13-digit integers: order three within `10^-20`, the embedded
    method of order two within `10^-7`. -/
theorem C28_kc32 :
    MainOrder kC32 kC32.order ((1 : Nat) / ((10 ^ 20 : Nat) : ℚ)) ∧
    EmbeddedOrder kC32 kC32.errOrder ((1 : Nat) / ((10 ^ 7 : Nat) : ℚ)) ∧
    RowSums kC32 ((1 : Nat) / ((10 ^ 12 : Nat) : ℚ)) :=
  ⟨main_sound _ _ _ _ (by decide +kernel), emb_sound _ _ _ _ (by decide +kernel), rows_sound _ _ _ (by decide +kernel)⟩

/-- **C28**, `F10(8)`, given with decimal coefficients: all conditions up to order ten, and up to order eight for the
    embedded method, within `10^-15`. -/
theorem C28_f10 :
    MainOrder f10_8 f10_8.order ((1 : Nat) / ((10 ^ 15 : Nat) : ℚ)) ∧
    EmbeddedOrder f10_8 f10_8.errOrder ((1 : Nat) / ((10 ^ 15 : Nat) : ℚ)) ∧
    RowSums f10_8 ((1 : Nat) / ((10 ^ 15 : Nat) : ℚ)) :=
  ⟨main_sound _ _ _ _ (by decide +kernel), emb_sound _ _ _ _ (by decide +kernel), rows_sound _ _ _ (by decide +kernel)⟩

/-- **C28**, `F14(12)`: the conditions up to order eight within `10^-12`.
    _Missing: the conditions of orders nine to fourteen (the number of trees is too large for the kernel)._ -/
theorem C28_f14_partial :
    MainOrder f14_12 8 ((1 : Nat) / ((10 ^ 12 : Nat) : ℚ)) ∧
    EmbeddedOrder f14_12 8 ((1 : Nat) / ((10 ^ 12 : Nat) : ℚ)) ∧
    RowSums f14_12 ((1 : Nat) / ((10 ^ 12 : Nat) : ℚ)) :=
  ⟨main_sound _ _ _ _ (by decide +kernel), emb_sound _ _ _ _ (by decide +kernel), rows_sound _ _ _ (by decide +kernel)⟩

/-- **C28**, `DP8(7)`: the propagated solution has order seven and the solution with the error estimate added has order
    eight, within `10^-14`.
    _Missing: order eight for the propagated solution, which is false (`C28_dp87_fails`)._ -/
theorem C28_dp87_partial :
    MainOrder dP87 7 ((1 : Nat) / ((10 ^ 14 : Nat) : ℚ)) ∧
    EmbeddedOrder dP87 8 ((1 : Nat) / ((10 ^ 14 : Nat) : ℚ)) ∧
    RowSums dP87 ((1 : Nat) / ((10 ^ 14 : Nat) : ℚ)) :=
  ⟨main_sound _ _ _ _ (by decide +kernel), emb_sound _ _ _ _ (by decide +kernel), rows_sound _ _ _ (by decide +kernel)⟩

/-- the tree with a root and seven leaves -/
def bush : Tree :=
  .graft (.graft (.graft (.graft (.graft (.graft (.graft .leaf .leaf) .leaf) .leaf) .leaf) .leaf) .leaf) .leaf

/-- **C28** fails for `DP8(7)`: it advertises order eight but violates the condition of the tree with a root
    and seven leaves by more than `10^-4`: the weights of the two methods are exchanged. -/
theorem C28_dp87_fails : dP87.order = 8 ∧ ¬ MainOrder dP87 dP87.order ((1 : Nat) / ((10 ^ 4 : Nat) : ℚ)) := by
  refine ⟨rfl, ?_⟩
  exact not_order_of_tree dP87.A dP87.B (lcmAll (dP87.A.flatten ++ dP87.B)) dP87.nStages 8 1 (10 ^ 4) bush
    (by decide +kernel) (by decide +kernel) (by decide) (by decide) (by decide +kernel) (by decide +kernel)
    (by decide +kernel)

/-- **C28**, validation: every shipped method but `DP5(4)` is accepted by the constructor, without a warning; `DP5(4)` is
    refused because its matrix has six rows and five columns. -/
theorem C28_validation :
    (∀ nm ∈ methods, nm.1 ≠ "DP5(4)" → validate nm.2 = .accepted []) ∧
    (∀ nm ∈ methods, nm.1 = "DP5(4)" → validate nm.2 = .shapeA) := by
  constructor <;> decide +kernel

theorem upper_spec (A : List (List Frac)) (h : upperEntry A = false) (i j : Nat) (hij : i ≤ j) :
    |at1 (A.getD i []) j| ≤ 1 / 2 ^ 52 := by
  by_cases hi : i < A.length
  · by_cases hj : j < (A[i]).length
    · have e : at1 (A.getD i []) j = val (A[i][j]) := by simp [at1, hi, hj]
      rw [e]
      unfold upperEntry at h
      rw [Bool.eq_false_iff] at h
      have h1 : ¬ (farther (A[i][j]) (0, 1) 1 (2 ^ 52) = true) := by
        intro hf
        apply h
        rw [List.any_eq_true]
        refine ⟨(A[i], i), List.mem_zipIdx_iff_getElem?.2 (by simp [hi]), ?_⟩
        rw [List.any_eq_true]
        refine ⟨(A[i][j], j), List.mem_zipIdx_iff_getElem?.2 (by simp [hj]), ?_⟩
        rw [Bool.and_eq_true]
        exact ⟨Nat.ble_eq_true_of_le hij, hf⟩
      generalize A[i][j] = x at h1
      unfold farther at h1
      rw [Nat.blt_eq] at h1
      simp only [Nat.cast_one, mul_one, zero_mul, sub_zero, one_mul, not_lt] at h1
      unfold val
      rw [abs_div, Nat.abs_cast]
      by_cases h0 : x.2 = 0
      · rw [h0]; norm_num
      · have hp : (0 : ℚ) < x.2 := by exact_mod_cast Nat.pos_of_ne_zero h0
        rw [div_le_div_iff₀ hp (by positivity)]
        have h2 : ((x.1.natAbs * 2 ^ 52 : Nat) : ℚ) ≤ ((x.2 : Nat) : ℚ) := by exact_mod_cast h1
        rw [Nat.cast_mul, Nat.cast_natAbs, Int.cast_abs] at h2
        push_cast at h2
        linarith
    · have e : at1 (A.getD i []) j = 0 := by
        simp [at1, hi, List.getD, List.getElem?_eq_none (by omega : (A[i]).length ≤ j), val]
      rw [e]; norm_num
  · have e : at1 (A.getD i []) j = 0 := by
      simp [at1, List.getD, List.getElem?_eq_none (by omega : A.length ≤ i), val]
    rw [e]; norm_num

/-- **C28**, what acceptance means, for any tableau: square matrix, matching lengths, zero (up to the rounding unit) on and
    above the diagonal, nodes between 0 and 1, positive orders -/
theorem C28_accepted (m : Method) (w : List String) (h : validate m = .accepted w) :
    m.A.length = m.nStages ∧ m.B.length = m.nStages ∧ m.C.length = m.nStages ∧ m.Ehat.length = m.nStages + 1 ∧
    (∀ i j, i ≤ j → |at1 (m.A.getD i []) j| ≤ 1 / 2 ^ 52) ∧
    (∀ c ∈ m.C, 0 ≤ c.1 ∧ c.1 ≤ (c.2 : Int)) ∧ 0 < m.order ∧ 0 < m.errOrder ∧
    (w = [] → m.errOrder < m.order) := by
  unfold validate at h
  split_ifs at h with h1 h2 h3 h4 h5 h6
  all_goals
    rw [not_not] at h1 h2 h3 h4
    simp only [shape, Prod.mk.injEq] at h1
    refine ⟨h1.1, h2, h3, h4, upper_spec _ (by simpa using h5), ?_, by omega, by omega, ?_⟩
    · intro c hc
      by_contra hcon
      apply h6
      rw [List.any_eq_true]
      refine ⟨c, hc, ?_⟩
      simp only [Bool.or_eq_true, decide_eq_true_eq]
      omega
    · intro hw
      subst hw
      first
        | omega
        | (exfalso; simp at h)

/-- the order of the elements: an accepted tableau with an empty list of warnings is not vacuous -/
example : validate bS32 = .accepted [] := by decide +kernel

end WxVerif.Props.Butcher
