import Verif.Lemmas.Butcher
import Mathlib.Algebra.Order.Field.Basic
import Mathlib.Algebra.Order.Field.Power

/-!
# Boolean tests for the tableaux and their soundness
-/

namespace WxVerif.Lemmas.Butcher

open WxVerif.RootedTree WxVerif.RungeKutta

/-- a common denominator -/
def lcmAll : List Frac → Nat
  | [] => 1
  | x :: xs => Nat.lcm x.2 (lcmAll xs)

def mainOk (m : Method) (p N D : Nat) : Bool :=
  let Den := lcmAll (m.A.flatten ++ m.B)
  Nat.beq m.A.length m.nStages && Nat.blt 0 Den && Nat.blt 0 D && m.A.all (divides Den) && divides Den m.B &&
    check (m.A.map fun r => r.map (scale Den)) (m.B.map (scale Den)) Den m.nStages p N D

theorem main_sound (m : Method) (p N D : Nat) (h : mainOk m p N D = true) :
    MainOrder m p ((N : ℚ) / D) := by
  unfold mainOk at h
  simp only [Bool.and_eq_true, Nat.beq_eq, Nat.blt_eq] at h
  obtain ⟨⟨⟨⟨⟨h1, h2⟩, h3⟩, h4⟩, h5⟩, h6⟩ := h
  exact order_of_check m.A m.B _ m.nStages p N D h1 h2.ne' h3.ne' h4 h5 h6

def addF (x y : Frac) : Frac :=
  if x.2 = y.2 then (x.1 + y.1, x.2) else (x.1 * y.2 + y.1 * x.2, x.2 * y.2)

theorem val_addF (x y : Frac) (hx : 0 < x.2) (hy : 0 < y.2) : val (addF x y) = val x + val y := by
  have hx' : (x.2 : ℚ) ≠ 0 := by exact_mod_cast hx.ne'
  have hy' : (y.2 : ℚ) ≠ 0 := by exact_mod_cast hy.ne'
  unfold addF val
  split_ifs with h
  · rw [h] at hx' ⊢
    push_cast
    rw [add_div]
  · push_cast
    field_simp

/-- weights of the embedded method -/
def embedded (m : Method) : List Frac :=
  if m.subB then m.Ehat else List.zipWith addF (m.B ++ [(0, 1)]) m.Ehat

def embOk (m : Method) (p N D : Nat) : Bool :=
  let Den := lcmAll (m.A.flatten ++ m.B ++ embedded m)
  let A := m.A ++ [m.B]
  Nat.beq m.A.length m.nStages && Nat.beq m.B.length m.nStages && Nat.beq m.Ehat.length (m.nStages + 1) &&
    Nat.blt 0 Den && Nat.blt 0 D &&
    A.all (divides Den) && divides Den (embedded m) &&
    (m.B.all fun x => Nat.blt 0 x.2) && (m.Ehat.all fun x => Nat.blt 0 x.2) &&
    check (A.map fun r => r.map (scale Den)) ((embedded m).map (scale Den)) Den (m.nStages + 1) p N D

theorem embedded_val (m : Method) (hB : m.B.length = m.nStages) (hE : m.Ehat.length = m.nStages + 1)
    (pB : ∀ x ∈ m.B, 0 < x.2) (pE : ∀ x ∈ m.Ehat, 0 < x.2) (i : Nat) (hi : i < m.nStages + 1) :
    val ((embedded m).getD i (0, 1)) = at1 m.B i + errorWeight m i := by
  unfold embedded errorWeight
  by_cases hs : m.subB = true
  · simp only [hs, ↓reduceIte]; unfold at1; ring
  · simp only [hs]
    have hi2 : i < (m.B ++ [((0 : Int), 1)]).length := by simp [hB]; omega
    have e : (List.zipWith addF (m.B ++ [((0 : Int), 1)]) m.Ehat).getD i (0, 1) =
        addF ((m.B ++ [((0 : Int), 1)])[i]) (m.Ehat[i]'(by omega)) := by
      simp [hB, hE, hi]
    have e1 : m.B.getD i (0, 1) = (m.B ++ [((0 : Int), 1)])[i] := by
      by_cases h : i < m.nStages
      · rw [List.getElem_append_left (by omega)]; simp [hB, h]
      · have : i = m.B.length := by omega
        subst this
        simp
    have e2 : m.Ehat.getD i (0, 1) = m.Ehat[i]'(by omega) := by simp [hE, hi]
    simp only [Bool.false_eq_true, ↓reduceIte, sub_zero, at1, e1, e2]
    rw [e, val_addF]
    · have := List.getElem_mem hi2
      rw [List.mem_append] at this
      rcases this with h | h
      · exact pB _ h
      · simp only [List.mem_singleton] at h; rw [h]; exact Nat.one_pos
    · exact pE _ (List.getElem_mem _)

theorem emb_sound (m : Method) (p N D : Nat) (h : embOk m p N D = true) :
    EmbeddedOrder m p ((N : ℚ) / D) := by
  unfold embOk at h
  simp only [Bool.and_eq_true, Nat.beq_eq, Nat.blt_eq, List.all_eq_true (p := fun x => Nat.blt 0 _)] at h
  obtain ⟨⟨⟨⟨⟨⟨⟨⟨⟨h1, h2⟩, h3⟩, h4⟩, h5⟩, h6⟩, h7⟩, h8⟩, h9⟩, h10⟩ := h
  have := order_of_check (m.A ++ [m.B]) (embedded m) _ (m.nStages + 1) p N D (by simp [h1]) h4.ne' h5.ne' h6 h7 h10
  exact hasOrder_congr (fun _ _ => rfl)
    (fun i hi => embedded_val m h2 h3 h8 h9 i hi) this

def rowsOk (m : Method) (N D : Nat) : Bool :=
  let Den := lcmAll (m.A.flatten ++ m.C)
  Nat.blt 0 Den && Nat.blt 0 D && m.A.all (divides Den) && divides Den m.C && Nat.beq m.A.length m.nStages &&
    (List.range m.nStages).all fun i => Nat.ble
      ((dot ((m.A.getD i []).map (scale Den)) (List.replicate m.nStages 1) - (m.C.map (scale Den)).getD i 0).natAbs * D)
      (N * Den)

theorem rows_sound (m : Method) (N D : Nat) (h : rowsOk m N D = true) : RowSums m ((N : ℚ) / D) := by
  unfold rowsOk at h
  simp only [Bool.and_eq_true, Nat.beq_eq, Nat.blt_eq] at h
  obtain ⟨⟨⟨⟨⟨h1, h2⟩, h3⟩, h4⟩, h5⟩, h6⟩ := h
  intro i hi
  rw [List.all_eq_true] at h6
  have h7 := Nat.le_of_ble_eq_true (h6 i (List.mem_range.2 hi))
  set Den := lcmAll (m.A.flatten ++ m.C)
  rw [dot_eq _ _ m.nStages (by simp)] at h7
  have hr : divides Den (m.A.getD i []) = true := by
    rw [List.all_eq_true] at h3
    have : m.A.getD i [] = m.A[i] := by simp [h5, hi]
    rw [this]; exact h3 _ (List.getElem_mem _)
  have e1 : ∑ j ∈ Finset.range m.nStages, at1 (m.A.getD i []) j =
      (((∑ j ∈ Finset.range m.nStages, ((m.A.getD i []).map (scale Den)).getD j 0 *
        (List.replicate m.nStages (1 : Int)).getD j 0 : Int)) : ℚ) / Den := by
    rw [Int.cast_sum, Finset.sum_div]
    apply Finset.sum_congr rfl
    intro j hj
    rw [at1, val_getD Den h1.ne' _ hr j]
    have hj' := Finset.mem_range.1 hj
    simp [hj']
  rw [e1, at1, val_getD Den h1.ne' _ h4 i, ← sub_div, abs_div]
  have hDen : (0 : ℚ) < Den := by exact_mod_cast h1
  have hD : (0 : ℚ) < D := by exact_mod_cast h2
  rw [abs_of_pos hDen, div_le_div_iff₀ hDen hD]
  have h8 : (((∑ j ∈ Finset.range m.nStages, ((m.A.getD i []).map (scale Den)).getD j 0 *
        (List.replicate m.nStages (1 : Int)).getD j 0 : Int) - (m.C.map (scale Den)).getD i 0).natAbs * D : ℚ) ≤
      (N * Den : ℚ) := by exact_mod_cast h7
  rw [Nat.cast_natAbs, Int.cast_abs, Int.cast_sub] at h8
  exact h8

end WxVerif.Lemmas.Butcher
