import Verif.Model.RowReduce
import Mathlib.LinearAlgebra.Matrix.NonsingularInverse
import Mathlib.LinearAlgebra.Matrix.ToLinearEquiv
import Mathlib.Tactic.LinearCombination
import Mathlib.Tactic.FieldSimp
import Mathlib.Algebra.BigOperators.Field

/-!
# C44: the row-reduction inverse inverts
-/

namespace WxVerif.Props.RowReduce

open WxVerif.RowReduce

variable {K : Type*} [Field K] [DecidableEq K]

/-- the `n × n` corner of an array, as a matrix -/
def mat (n : Nat) (A : Nat → Nat → K) : Matrix (Fin n) (Fin n) K := Matrix.of fun i j => A i j

/-- value of row `r` of an array with `m` columns on a vector -/
def rowVal (m : Nat) (A : Nat → Nat → K) (r : Nat) (x : Nat → K) : K := ∑ c ∈ Finset.range m, A r c * x c

/-- two arrays have the same solutions of the homogeneous system -/
def SameSol (rows m : Nat) (A B : Nat → Nat → K) : Prop :=
  ∀ x, (∀ r < rows, rowVal m A r x = 0) ↔ ∀ r < rows, rowVal m B r x = 0

theorem sameSol_swap (rows m : Nat) (A : Nat → Nat → K) {p i : Nat} (hp : p < rows) (hi : i < rows) :
    SameSol rows m A (swapRows A p i) := by
  intro x
  have hr : ∀ r, rowVal m (swapRows A p i) r x = if r = p then rowVal m A i x else if r = i then rowVal m A p x else rowVal m A r x := by
    intro r; unfold rowVal swapRows; split_ifs <;> rfl
  simp only [hr]
  constructor
  · intro h r h1
    split_ifs
    · exact h i hi
    · exact h p hp
    · exact h r h1
  · intro h r h1
    by_cases h2 : r = i
    · subst h2; simpa using h p hp
    · by_cases h3 : r = p
      · subst h3
        have := h i hi
        by_cases h4 : i = r
        · exact absurd h4.symm h2
        · simpa [h4] using this
      · simpa [h2, h3] using h r h1

theorem sameSol_normalize (rows m : Nat) (A : Nat → Nat → K) {p j : Nat} (h0 : A p j ≠ 0) :
    SameSol rows m A (divideRow A p j) := by
  intro x
  have hr : ∀ r, rowVal m (divideRow A p j) r x = if r = p then rowVal m A p x / A p j else rowVal m A r x := by
    intro r; unfold rowVal divideRow; split_ifs
    · rw [Finset.sum_div]; exact Finset.sum_congr rfl fun c _ => by ring
    · rfl
  simp only [hr]
  constructor
  · intro h r h1
    split_ifs with h2
    · rw [← h2, h r h1, zero_div]
    · exact h r h1
  · intro h r h1
    have := h r h1
    split_ifs at this with h2
    · subst h2
      rcases div_eq_zero_iff.mp this with h3 | h3
      · exact h3
      · exact absurd h3 h0
    · exact this

theorem sameSol_eliminate (rows m : Nat) (A : Nat → Nat → K) {p j : Nat} (hp : p < rows) :
    SameSol rows m A (eliminate A p j) := by
  intro x
  have hr : ∀ r, rowVal m (eliminate A p j) r x = if r ≠ p then rowVal m A r x - A r j * rowVal m A p x else rowVal m A r x := by
    intro r; unfold rowVal eliminate
    by_cases h : r = p
    · simp [h]
    · by_cases h2 : A r j = 0
      · simp [h2]
      · simp only [h, h2, ne_eq, not_false_eq_true, and_self, if_true]
        rw [Finset.mul_sum, ← Finset.sum_sub_distrib]
        exact Finset.sum_congr rfl fun c _ => by ring
  simp only [hr]
  constructor
  · intro h r h1
    rw [h r h1, h p hp]
    simp
  · intro h r h1
    have hp' := h p hp
    simp only [ne_eq, not_true_eq_false, if_false] at hp'
    have := h r h1
    by_cases h2 : r = p
    · rw [h2]; exact hp'
    · simpa [h2, hp'] using this

/-- invariant of the loop before column `j` with `p` pivots found -/
structure Inv (rows m : Nat) (A0 : Nat → Nat → K) (j p : Nat) (A : Nat → Nat → K) : Prop where
  le : p ≤ j
  lt : p < rows
  zero : ∀ r, p ≤ r → r < rows → ∀ c < j, A r c = 0
  ident : p = j → ∀ r < rows, ∀ c < j, A r c = if r = c then 1 else 0
  sol : SameSol rows m A0 A

/-- what the result must satisfy: same solutions, and either an identity block or a zero row in the first `n` columns -/
def Good (rows m n : Nat) (A0 A : Nat → Nat → K) : Prop :=
  SameSol rows m A0 A ∧ ((∀ r < rows, ∀ c < n, A r c = if r = c then 1 else 0) ∨ ∃ r < rows, ∀ c < n, A r c = 0)

theorem pivotRow_some {rows : Nat} {A : Nat → Nat → K} {p j i : Nat} (h : pivotRow rows A p j = some i) :
    p ≤ i ∧ i < rows ∧ A i j ≠ 0 := by
  have h1 := List.find?_some h
  have h2 := List.mem_of_find?_eq_some h
  simp at h1 h2
  exact ⟨h1.1, h2, h1.2⟩

theorem pivotRow_none {rows : Nat} {A : Nat → Nat → K} {p j : Nat} (h : pivotRow rows A p j = none) :
    ∀ r, p ≤ r → r < rows → A r j = 0 := by
  intro r h1 h2
  have := List.find?_eq_none.mp h r (List.mem_range.mpr h2)
  simpa [h1] using this

theorem step_inv {rows m : Nat} {A0 A : Nat → Nat → K} {j p i : Nat} (hI : Inv rows m A0 j p A)
    (hpiv : pivotRow rows A p j = some i) :
    let A' := eliminate (divideRow (swapRows A p i) p j) p j
    (∀ r, p + 1 ≤ r → r < rows → ∀ c < j + 1, A' r c = 0) ∧
    (p = j → ∀ r < rows, ∀ c < j + 1, A' r c = if r = c then 1 else 0) ∧ SameSol rows m A0 A' := by
  obtain ⟨hpi, hi, hne⟩ := pivotRow_some hpiv
  intro A'
  set B := swapRows A p i with hB
  set N := divideRow B p j with hN
  have hBp : ∀ c, B p c = A i c := fun c => by simp [hB, swapRows]
  have hBz : ∀ r, p ≤ r → r < rows → ∀ c < j, B r c = 0 := by
    intro r h1 h2 c hc
    simp only [hB, swapRows]
    split_ifs
    · exact hI.zero i hpi hi c hc
    · exact hI.zero p le_rfl hI.lt c hc
    · exact hI.zero r h1 h2 c hc
  have hNp : ∀ c, N p c = A i c / A i j := fun c => by simp [hN, divideRow, hBp]
  have hNr : ∀ r, r ≠ p → ∀ c, N r c = B r c := fun r h c => by simp [hN, divideRow, h]
  have hN1 : N p j = 1 := by rw [hNp, div_self hne]
  have hNpz : ∀ c < j, N p c = 0 := fun c hc => by rw [hNp, hI.zero i hpi hi c hc, zero_div]
  have hAp : ∀ c, A' p c = N p c := fun c => by simp only [A', eliminate, ne_eq, not_true_eq_false, false_and, if_false]; rfl
  have hAr : ∀ r, r ≠ p → ∀ c, A' r c = N r c - N r j * N p c := by
    intro r h c
    change eliminate N p j r c = _
    simp only [eliminate, h, ne_eq, not_false_eq_true, true_and]
    by_cases h2 : N r j = 0
    · simp [h2]
    · simp [h2]
  refine ⟨?_, ?_, ?_⟩
  · intro r h1 h2 c hc
    have hrp : r ≠ p := by omega
    rw [hAr r hrp]
    rcases Nat.lt_or_ge c j with h3 | h3
    · rw [hNr r hrp, hBz r (by omega) h2 c h3, hNpz c h3]; ring
    · obtain rfl : c = j := by omega
      rw [hN1]; ring
  · intro hpj r hr c hc
    by_cases hrp : r = p
    · subst hrp
      rw [hAp]
      rcases Nat.lt_or_ge c j with h3 | h3
      · rw [hNpz c h3, if_neg (by omega)]
      · obtain rfl : c = j := by omega
        rw [hN1, if_pos hpj]
    · rw [hAr r hrp]
      rcases Nat.lt_or_ge c j with h3 | h3
      · rw [hNpz c h3, hNr r hrp]
        have : B r c = if r = c then 1 else 0 := by
          simp only [hB, swapRows, if_neg hrp]
          split_ifs with h4 h5 h5
          · omega
          · exact hI.zero p le_rfl hI.lt c h3
          · rw [hI.ident hpj r hr c h3, if_pos h5]
          · rw [hI.ident hpj r hr c h3, if_neg h5]
        rw [this]; ring
      · obtain rfl : c = j := by omega
        rw [hN1, if_neg (by omega)]; ring
  · have hl := hI.lt
    intro x
    rw [hI.sol x, sameSol_swap rows m A hl hi x, sameSol_normalize rows m B (p := p) (j := j) (by rw [hBp]; exact hne) x]
    exact sameSol_eliminate rows m N hl x

theorem loop_good {rows m : Nat} (A0 : Nat → Nat → K) :
    ∀ (k j p : Nat) (A : Nat → Nat → K), j + k = rows → Inv rows m A0 j p A →
      Good rows m rows A0 (loop rows (List.range' j k) A p) := by
  intro k
  induction k with
  | zero =>
    intro j p A hjk hI
    refine ⟨hI.sol, Or.inr ⟨p, hI.lt, fun c hc => hI.zero p le_rfl hI.lt c (by omega)⟩⟩
  | succ k ih =>
    intro j p A hjk hI
    rw [List.range'_succ, loop]
    cases hpiv : pivotRow rows A p j with
    | none =>
      refine ih (j + 1) p A (by omega) ⟨by have := hI.le; omega, hI.lt, ?_, ?_, hI.sol⟩
      · intro r h1 h2 c hc
        rcases Nat.lt_or_ge c j with h3 | h3
        · exact hI.zero r h1 h2 c h3
        · obtain rfl : c = j := by omega
          exact pivotRow_none hpiv r h1 h2
      · intro h; have := hI.le; omega
    | some i =>
      obtain ⟨hz, hid, hs⟩ := step_inv hI hpiv
      simp only
      have hle := hI.le
      split_ifs with hb
      · refine ⟨hs, Or.inl ?_⟩
        intro r hr c hc
        exact hid (by omega) r hr c (by omega)
      · exact ih (j + 1) (p + 1) _ (by omega) ⟨by omega, by have := hI.lt; omega, hz, fun h => hid (by omega), hs⟩

theorem rowReduce_good (n m : Nat) (A : Nat → Nat → K) : Good n m n A (rowReduce n n A) := by
  rcases Nat.eq_zero_or_pos n with rfl | hn
  · exact ⟨fun x => Iff.rfl, Or.inl fun r hr => by omega⟩
  · unfold rowReduce
    rw [List.range_eq_range']
    refine loop_good A n 0 0 A (by omega) ⟨le_rfl, hn, fun _ _ _ c hc => by omega, fun _ _ _ c hc => by omega, fun x => Iff.rfl⟩

/-- `[A | I]` -/
def augment (n : Nat) (A : Nat → Nat → K) (r c : Nat) : K := if c < n then A r c else if r = c - n then 1 else 0

/-- the vector `(u, v)` -/
def pair (n : Nat) (u v : Nat → K) (c : Nat) : K := if c < n then u c else v (c - n)

theorem rowVal_pair (n : Nat) (M : Nat → Nat → K) (r : Nat) (u v : Nat → K) :
    rowVal (n + n) M r (pair n u v) = ∑ c ∈ Finset.range n, M r c * u c + ∑ c ∈ Finset.range n, M r (n + c) * v c := by
  unfold rowVal pair
  rw [Finset.sum_range_add]
  congr 1
  · exact Finset.sum_congr rfl fun c hc => by rw [if_pos (Finset.mem_range.mp hc)]
  · exact Finset.sum_congr rfl fun c hc => by rw [if_neg (by omega), show n + c - n = c by omega]

theorem rowVal_augment (n : Nat) (A : Nat → Nat → K) {r : Nat} (hr : r < n) (u v : Nat → K) :
    rowVal (n + n) (augment n A) r (pair n u v) = ∑ c ∈ Finset.range n, A r c * u c + v r := by
  rw [rowVal_pair]
  congr 1
  · exact Finset.sum_congr rfl fun c hc => by rw [augment, if_pos (Finset.mem_range.mp hc)]
  · rw [Finset.sum_eq_single r]
    · simp [augment]
    · intro c _ hc
      rw [augment, if_neg (by omega), if_neg (by omega), zero_mul]
    · intro h; exact absurd (Finset.mem_range.mpr hr) h

theorem rank_eq_iff (n : Nat) (R : Nat → Nat → K) :
    ((List.range n).filter fun r => !(List.range n).all fun c => decide (R r c = 0)).length = n ↔
      ∀ r < n, ∃ c < n, R r c ≠ 0 := by
  have h := List.length_filter_eq_length_iff (p := fun r => !(List.range n).all fun c => decide (R r c = 0)) (l := List.range n)
  rw [List.length_range] at h
  rw [h]
  simp

/-- **C44** Whatever square matrix is given: if the routine returns, it returns the two-sided inverse. -/
theorem C44_inverse (n : Nat) (A B : Nat → Nat → K) (h : inv n n A = some B) : mat n B * mat n A = 1 ∧ mat n A * mat n B = 1 := by
  simp only [inv, if_true] at h
  split_ifs at h with hrank
  rw [rank_eq_iff] at hrank
  injection h with hB
  obtain ⟨hsol, hid⟩ := rowReduce_good n (n + n) (augment n A)
  have hAug : (fun r c => if c < n then A r c else if r = c - n then (1 : K) else 0) = augment n A := rfl
  rw [hAug] at hrank hB
  have hid' : ∀ r < n, ∀ c < n, rowReduce n n (augment n A) r c = if r = c then 1 else 0 := by
    rcases hid with h1 | ⟨r, hr, h1⟩
    · exact h1
    · obtain ⟨c, hc, h2⟩ := hrank r hr
      exact absurd (h1 c hc) h2
  have hBA : mat n B * mat n A = 1 := by
    ext r k
    have hx := (hsol (pair n (fun c => if c = (k : Nat) then 1 else 0) (fun c => -A c k))).mp (by
      intro r hr
      rw [rowVal_augment n A hr]
      simp) r r.2
    rw [rowVal_pair] at hx
    have e1 : ∑ c ∈ Finset.range n, rowReduce n n (augment n A) r c * (if c = (k : Nat) then 1 else 0) = if (r : Nat) = k then 1 else 0 := by
      simp [hid' r r.2 k k.2]
    rw [e1] at hx
    rw [Matrix.mul_apply]
    simp only [mat, Matrix.of_apply]
    rw [← Fin.sum_univ_eq_sum_range (fun c => rowReduce n n (augment n A) r (n + c) * -A c k)] at hx
    rw [← hB]
    simp only [mul_neg, Finset.sum_neg_distrib] at hx
    rw [Matrix.one_apply, ← sub_eq_zero, ← neg_eq_zero]
    simp only [Fin.ext_iff]
    linear_combination hx
  exact ⟨hBA, mul_eq_one_comm.mp hBA⟩

/-- **C44** The routine raises exactly on the singular matrices (and on those that are not square). -/
theorem C44_fails_iff (rows cols : Nat) (A : Nat → Nat → K) :
    inv rows cols A = none ↔ rows ≠ cols ∨ (mat rows A).det = 0 := by
  by_cases hrc : rows = cols
  · subst hrc
    simp only [ne_eq, not_true_eq_false, false_or]
    constructor
    · intro h
      simp only [inv, if_true] at h
      split_ifs at h with hrank
      rw [rank_eq_iff] at hrank
      push Not at hrank
      obtain ⟨r, hr, hz⟩ := hrank
      obtain ⟨hsol, -⟩ := rowReduce_good rows (rows + rows) (augment rows A)
      have hdet : (mat rows (rowReduce rows rows (augment rows A))).det = 0 :=
        Matrix.det_eq_zero_of_row_eq_zero ⟨r, hr⟩ fun c => hz c c.2
      obtain ⟨v, hv, hv0⟩ := Matrix.exists_mulVec_eq_zero_iff.mpr hdet
      rw [← Matrix.exists_mulVec_eq_zero_iff]
      refine ⟨v, hv, ?_⟩
      let u : Nat → K := fun c => if hc : c < rows then v ⟨c, hc⟩ else 0
      have hu : ∀ c : Fin rows, u c = v c := fun c => by simp [u]
      have hM := (hsol (pair rows u fun _ => 0)).mpr (by
        intro r hr
        rw [rowVal_pair]
        have := congrFun hv0 ⟨r, hr⟩
        simp only [Matrix.mulVec, dotProduct, mat, Matrix.of_apply, Pi.zero_apply] at this
        rw [← Fin.sum_univ_eq_sum_range (fun c => rowReduce rows rows (augment rows A) r c * u c)]
        simp only [hu, this]
        simp)
      ext r
      have := hM r r.2
      rw [rowVal_augment rows A r.2, ← Fin.sum_univ_eq_sum_range (fun c => A r c * u c)] at this
      simp only [hu, add_zero] at this
      simpa [Matrix.mulVec, dotProduct, mat] using this
    · intro h
      cases hinv : inv rows rows A with
      | none => rfl
      | some B =>
        have := congrArg Matrix.det (C44_inverse rows A B hinv).1
        rw [Matrix.det_mul, h, mul_zero, Matrix.det_one] at this
        exact absurd this zero_ne_one
  · simp [inv, hrc]

/-- the routine succeeds on a matrix whose first pivot is zero, which needs a row swap -/
example : ∃ B, inv 2 2 (fun r c => if r = 0 then (if c = 0 then (0 : ℚ) else 1) else (if c = 0 then 2 else 3)) = some B := by
  rw [← Option.ne_none_iff_exists']
  rw [Ne, C44_fails_iff]
  simp [mat, Matrix.det_fin_two]

end WxVerif.Props.RowReduce
