import Verif.Spec.Assembly
import Mathlib.Algebra.BigOperators.Intervals
import Mathlib.Tactic.Ring
import Mathlib.Tactic.Linarith

/-!
# C94: the matrix assembled from an operator is the matrix of the operator
-/

namespace WxVerif.Props.Assembly

open WxVerif.Assembly SpecAssembly

section
variable {R : Type} [CommRing R]

/-- the global unit vector whose value `i` on process `r` is one -/
def unit (r i : Nat) : Nat → Nat → R := fun a b => if a = r ∧ b = i then 1 else 0

/-- the state after `k` columns -/
def after (mv : (Nat → Nat → R) → Nat → Nat → R) (n k : Nat) : Progress R :=
  ⟨fun _ _ => 0, fun rank c => if c < k then some (mv (unit (c / n) (c % n)) rank) else none, k⟩

theorem pass_after (mv : (Nat → Nat → R) → Nat → Nat → R) {n r i : Nat} (hi : i < n) :
    pass mv r i (after mv n (r * n + i)) = after mv n (r * n + i + 1) := by
  have hq : (fun rank => if rank = r then assign ((after mv n (r * n + i)).q rank) i 1 else (after mv n (r * n + i)).q rank) = unit r i := by
    funext a b
    unfold unit assign after
    by_cases ha : a = r <;> by_cases hb : b = i <;> simp [ha, hb]
  have hd : (r * n + i) / n = r := by
    rw [Nat.mul_comm, Nat.mul_add_div (by omega), Nat.div_eq_of_lt hi, Nat.add_zero]
  have hm : (r * n + i) % n = i := by
    rw [Nat.mul_comm, Nat.mul_add_mod, Nat.mod_eq_of_lt hi]
  unfold pass
  dsimp only
  rw [hq]
  unfold after
  congr 1
  · funext a b
    unfold assign unit
    split_ifs with h1 h2 <;> simp_all
  · funext rank c
    by_cases hc : c = r * n + i
    · subst hc
      simp [hd, hm]
    · by_cases h2 : c < r * n + i
      · simp [hc, h2, Nat.lt_succ_of_lt h2]
      · have : ¬ c < r * n + i + 1 := by omega
        simp [hc, h2, this]

theorem inner_loop (mv : (Nat → Nat → R) → Nat → Nat → R) (n r : Nat) {k : Nat} (hk : k ≤ n) :
    (List.range k).foldl (fun s i => pass mv r i s) (after mv n (r * n)) = after mv n (r * n + k) := by
  induction k with
  | zero => rfl
  | succ k ih =>
    rw [List.range_succ, List.foldl_append, ih (by omega), List.foldl_cons, List.foldl_nil, pass_after mv (by omega)]
    rfl

theorem columns_eq (mv : (Nat → Nat → R) → Nat → Nat → R) (n size : Nat) : columns mv size n = after mv n (size * n) := by
  unfold columns
  induction size with
  | zero =>
    unfold after fresh
    simp
  | succ r ih =>
    rw [List.range_succ, List.foldl_append, ih, List.foldl_cons, List.foldl_nil, inner_loop mv n r le_rfl]
    congr 1
    ring

/-- the entries of the tile of a process -/
theorem tile_entry (mv : (Nat → Nat → R) → Nat → Nat → R) {n size c : Nat} (hc : c < size * n) (rank i : Nat) :
    (tile mv size n rank).entry i c = mv (unit (c / n) (c % n)) rank i := by
  simp [tile, hstack, columns_eq, after, hc]

theorem vstack_rows (n cols : Nat) : ∀ L : List (Mat R), (∀ A ∈ L, A.rows = n ∧ A.cols = cols) →
    (vstack L).rows = L.length * n ∧ (L ≠ [] → (vstack L).cols = cols) := by
  intro L
  induction L with
  | nil => intro _; simp [vstack]
  | cons A L ih =>
    intro h
    cases L with
    | nil =>
      have := h A (by simp)
      simp [vstack, this]
    | cons B L =>
      have h1 := ih fun X hX => h X (by simp [hX])
      have h2 := h A (by simp)
      simp only [vstack, h1.1, h2.1, h2.2, List.length_cons, ne_eq, reduceCtorEq, not_false_eq_true, forall_const, and_true]
      ring

theorem vstack_entry (n : Nat) : ∀ (L : List (Mat R)), (∀ A ∈ L, A.rows = n) → ∀ r i c (hr : r < L.length), i < n →
    (vstack L).entry (r * n + i) c = (L[r]).entry i c := by
  intro L
  induction L with
  | nil => intro _ r i c hr; simp at hr
  | cons A L ih =>
    intro h r i c hr hi
    have hA := h A (by simp)
    cases L with
    | nil =>
      have : r = 0 := by simpa using hr
      subst this
      simp [vstack]
    | cons B L =>
      cases r with
      | zero => simp [vstack, hA, hi]
      | succ r =>
        have h1 : ¬ (r + 1) * n + i < A.rows := by rw [hA, Nat.succ_mul]; omega
        have h2 : (r + 1) * n + i - A.rows = r * n + i := by rw [hA, Nat.succ_mul]; omega
        simp only [vstack, h1, if_false, h2]
        rw [ih (fun X hX => h X (by simp [hX])) r i c (by simpa using hr) hi]
        rfl

/-- **C94** The columns of the assembled matrix are what the operator gives for the unit vectors, for every operator. -/
theorem C94_columns (mv : (Nat → Nat → R) → Nat → Nat → R) {size n : Nat} (h0 : 0 < size) :
    ∃ M, genGlobal mv size n 0 = some M ∧ M.rows = size * n ∧ M.cols = size * n ∧
      ∀ r i r' j, r < size → i < n → r' < size → j < n →
        M.entry (r * n + i) (r' * n + j) = mv (fun a b => if a = r' ∧ b = j then 1 else 0) r i := by
  have hL : ∀ A ∈ (List.range size).map (tile mv size n), A.rows = n ∧ A.cols = n * size := by
    intro A hA
    obtain ⟨r, -, rfl⟩ := List.mem_map.1 hA
    exact ⟨rfl, rfl⟩
  obtain ⟨v1, v2⟩ := vstack_rows n (n * size) _ hL
  refine ⟨vstack ((List.range size).map (tile mv size n)), by simp [genGlobal], by simpa using v1, ?_, ?_⟩
  · rw [v2 (by simp; omega), Nat.mul_comm]
  · intro r i r' j hr hi hr' hj
    have hc : r' * n + j < size * n := by
      calc r' * n + j < r' * n + n := by omega
        _ = (r' + 1) * n := by ring
        _ ≤ size * n := Nat.mul_le_mul_right _ hr'
    have hd : (r' * n + j) / n = r' := by
      rw [Nat.mul_comm, Nat.mul_add_div (by omega), Nat.div_eq_of_lt hj, Nat.add_zero]
    have hm : (r' * n + j) % n = j := by rw [Nat.mul_comm, Nat.mul_add_mod, Nat.mod_eq_of_lt hj]
    rw [vstack_entry n _ (fun A hA => (hL A hA).1) r i _ (by simpa using hr) hi, List.getElem_map, List.getElem_range,
      tile_entry mv hc, hd, hm]
    rfl

/-- a linear operator applied to a sum of multiples -/
theorem linear_sum {mv : (Nat → Nat → R) → Nat → Nat → R} {size n : Nat} (hl : Linear mv size n) (u : Nat → Nat → Nat → R) (x : Nat → R) (r i : Nat) :
    ∀ k, mv (fun a b => ∑ c ∈ Finset.range k, x c * u c a b) r i = ∑ c ∈ Finset.range k, x c * mv (u c) r i := by
  intro k
  induction k with
  | zero =>
    have := hl.smul 0 (fun _ _ => 0) r i
    simpa using this
  | succ k ih =>
    have := hl.add (fun a b => ∑ c ∈ Finset.range k, x c * u c a b) (fun a b => x k * u k a b) r i
    simp only [Finset.sum_range_succ]
    rw [this, ih, hl.smul]

/-- a global vector is the sum of the unit vectors with its components -/
theorem expand {size n : Nat} (Q : Nat → Nat → R) {r i : Nat} (hr : r < size) (hi : i < n) :
    ∑ c ∈ Finset.range (size * n), Q (c / n) (c % n) * (unit (c / n) (c % n) r i : R) = Q r i := by
  have hd : (r * n + i) / n = r := by
    rw [Nat.mul_comm, Nat.mul_add_div (by omega), Nat.div_eq_of_lt hi, Nat.add_zero]
  have hm : (r * n + i) % n = i := by rw [Nat.mul_comm, Nat.mul_add_mod, Nat.mod_eq_of_lt hi]
  have hc : r * n + i < size * n := by
    calc r * n + i < r * n + n := by omega
      _ = (r + 1) * n := by ring
      _ ≤ size * n := Nat.mul_le_mul_right _ hr
  rw [Finset.sum_eq_single (r * n + i)]
  · simp [unit, hd, hm]
  · intro c _ hne
    unfold unit
    rw [if_neg, mul_zero]
    rintro ⟨h1, h2⟩
    have := Nat.div_add_mod c n
    rw [← h1, ← h2, Nat.mul_comm] at this
    exact hne this.symm
  · intro h
    exact absurd (Finset.mem_range.2 hc) h

theorem linear_entries {mv : (Nat → Nat → R) → Nat → Nat → R} {size n : Nat} (hl : Linear mv size n) (Q : Nat → Nat → R) (r i : Nat) :
    mv Q r i = ∑ c ∈ Finset.range (size * n), mv (unit (c / n) (c % n)) r i * Q (c / n) (c % n) := by
  have e : mv Q = mv (fun a b => ∑ c ∈ Finset.range (size * n), Q (c / n) (c % n) * unit (c / n) (c % n) a b) :=
    hl.own _ _ fun a b ha hb => (expand Q ha hb).symm
  rw [e, linear_sum hl (fun c => unit (c / n) (c % n)) (fun c => Q (c / n) (c % n))]
  exact Finset.sum_congr rfl fun c _ => mul_comm _ _

/-- **C94** For every linear operator, number of processes and size: the matrix assembled on the first process is the
    matrix of the operator; the other processes get none. -/
theorem C94_global {mv : (Nat → Nat → R) → Nat → Nat → R} {size n : Nat} (h0 : 0 < size) (hl : Linear mv size n) :
    (∃ M, genGlobal mv size n 0 = some M ∧ IsMatrixOf M mv size n) ∧ ∀ r, 0 < r → genGlobal mv size n r = none := by
  obtain ⟨M, h1, h2, h3, h4⟩ := C94_columns mv (n := n) h0
  refine ⟨⟨M, h1, h2, h3, fun Q r i hr hi => ?_⟩, fun r hr => by simp [genGlobal, hr.ne']⟩
  rw [linear_entries hl]
  refine Finset.sum_congr rfl fun c hc => ?_
  have hc := Finset.mem_range.1 hc
  have hn : 0 < n := by omega
  have e : c = c / n * n + c % n := by rw [Nat.mul_comm]; exact (Nat.div_add_mod c n).symm
  have := h4 r i (c / n) (c % n) hr hi ((Nat.div_lt_iff_lt_mul hn).2 hc) (Nat.mod_lt _ hn)
  rw [← e] at this
  rw [this]
  rfl

/-- **C94** The local matrix of a process is its block of the matrix of the operator. -/
theorem C94_local {mv : (Nat → Nat → R) → Nat → Nat → R} {size n r : Nat} (hr : r < size) (hl : Linear mv size n) :
    IsBlockOf (genLocal mv size n r) mv n r := by
  have hc : ∀ j < n, n * r + j < size * n := fun j hj => by
    calc n * r + j < r * n + n := by rw [Nat.mul_comm]; omega
      _ = (r + 1) * n := by ring
      _ ≤ size * n := Nat.mul_le_mul_right _ hr
  refine ⟨rfl, ?_, fun Q i hi hQ => ?_⟩
  · have : n * (r + 1) = n * r + n := by ring
    simp only [genLocal, this]
    omega
  · rw [linear_entries hl]
    have split : size * n = n * r + (n + (size - r - 1) * n) := by
      obtain ⟨k, rfl⟩ : ∃ k, size = r + 1 + k := ⟨size - r - 1, by omega⟩
      have : r + 1 + k - r - 1 = k := by omega
      rw [this]; ring
    have out : ∀ c, c / n ≠ r → mv (unit (c / n) (c % n)) r i * Q (c / n) (c % n) = 0 := fun c h => by rw [hQ _ h, mul_zero]
    rw [split, Finset.sum_range_add, Finset.sum_range_add]
    have hn : 0 < n := by omega
    rw [Finset.sum_eq_zero (s := Finset.range (n * r)) fun c hc => out c (by
        have := (Nat.div_lt_iff_lt_mul hn).2 (by rw [Nat.mul_comm]; exact Finset.mem_range.1 hc); omega),
      Finset.sum_eq_zero (s := Finset.range ((size - r - 1) * n)) fun c _ => out (n * r + (n + c)) (by
        rw [show n * r + (n + c) = n * (r + 1) + c by ring, Nat.mul_add_div hn]; generalize c / n = z; omega), zero_add, add_zero]
    refine Finset.sum_congr rfl fun j hj => ?_
    have hj := Finset.mem_range.1 hj
    have hd : (n * r + j) / n = r := by rw [Nat.mul_add_div hn, Nat.div_eq_of_lt hj, Nat.add_zero]
    have hm : (n * r + j) % n = j := by rw [Nat.mul_add_mod, Nat.mod_eq_of_lt hj]
    simp only [genLocal]
    rw [tile_entry mv (hc j hj), hd, hm]

end

/-- a linear operator on three processes with two values each that couples neighbouring processes -/
def coupled (Q : Nat → Nat → Int) (r i : Nat) : Int := if r < 3 ∧ i < 2 then 2 * Q r i + 3 * Q ((r + 1) % 3) (1 - i) else 0

example : Linear coupled 3 2 := by
  refine ⟨fun Q Q' r i => ?_, fun x Q r i => ?_, fun Q Q' h => ?_⟩
  · unfold coupled; split_ifs <;> ring
  · unfold coupled; split_ifs <;> ring
  · funext r i
    unfold coupled
    split_ifs with hc
    · rw [h r i hc.1 hc.2, h ((r + 1) % 3) (1 - i) (Nat.mod_lt _ (by norm_num)) (by omega)]
    · rfl

end WxVerif.Props.Assembly
