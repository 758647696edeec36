import Verif.Model.Butcher
import Verif.Spec.Tableau
import Mathlib.Tactic.Ring
import Mathlib.Tactic.FieldSimp
import Mathlib.Tactic.Linarith
import Mathlib.Tactic.NormNum
import Mathlib.Algebra.BigOperators.Ring.Finset
import Mathlib.Algebra.BigOperators.Field
import Mathlib.Algebra.BigOperators.Intervals
import Mathlib.Algebra.Order.Ring.Abs
import Mathlib.Algebra.Order.Field.Rat
import Mathlib.Data.Int.Cast.Lemmas

/-!
# A verified checker for order conditions, in integer arithmetic

The conditions of a tableau with common denominator `Den` are multiplied by powers of `Den`; trees are
enumerated with the branches at every vertex sorted by size.
-/

namespace WxVerif.Lemmas.Butcher

open WxVerif.RungeKutta WxVerif.RootedTree

/-- scalar product -/
def dot : List Int → List Int → Int
  | a :: as, b :: bs => a * b + dot as bs
  | _, _ => 0

def mul : List Int → List Int → List Int
  | a :: as, b :: bs => a * b :: mul as bs
  | _, _ => []

/-- scaled weights of a tree, the same multiplied by the scaled matrix, size, branch density and size of the
    last branch -/
structure D where
  N : List Int
  AN : List Int
  size : Nat
  rho : Nat
  last : Nat

def combine (A : List (List Int)) (d e : D) : D :=
  let n := mul d.N e.AN
  ⟨n, A.map fun r => dot r n, d.size + e.size, d.rho * (e.size * e.rho), e.size⟩

def leafD (A : List (List Int)) (s : Nat) : D :=
  let n := List.replicate s 1
  ⟨n, A.map fun r => dot r n, 1, 1, 0⟩

/-- all pairs of a level with the levels of complementary size -/
def pairs (A : List (List Int)) : List (List D) → List (List D) → List D
  | l :: ls, r :: rs =>
    (l.flatMap fun d => (r.filter fun e => Nat.ble d.last e.size).map fun e => combine A d e) ++ pairs A ls rs
  | _, _ => []

/-- levels of sizes `n, n-1, …, 1` (largest first) -/
def levels (A : List (List Int)) (s : Nat) : Nat → List (List D)
  | 0 => []
  | n + 1 => match levels A s n with
    | [] => [[leafD A s]]
    | l :: ls => pairs A (l :: ls) (l :: ls).reverse :: l :: ls

def okD (Den : Nat) (B : List Int) (tolN tolD : Nat) (d : D) : Bool :=
  let g : Nat := d.size * d.rho
  let p : Nat := Den ^ d.size
  Nat.ble (((dot B d.N) * (g : Int) - (p : Int)).natAbs * tolD) (p * g * tolN)

def check (A : List (List Int)) (B : List Int) (Den : Nat) (s p tolN tolD : Nat) : Bool :=
  (levels A s p).all fun l => l.all fun d => okD Den B tolN tolD d

/-! ## soundness -/

theorem dot_eq (r n : List Int) (s : Nat) (h : n.length = s) :
    dot r n = ∑ j ∈ Finset.range s, r.getD j 0 * n.getD j 0 := by
  induction r generalizing n s with
  | nil => simp [dot]
  | cons a as ih =>
    cases n with
    | nil => simp at h; subst h; simp [dot]
    | cons b bs =>
      obtain ⟨s, rfl⟩ : ∃ k, s = k + 1 := ⟨bs.length, by simpa using h.symm⟩
      rw [dot, Finset.sum_range_succ', ih bs s (by simpa using h)]
      simp [add_comm]

theorem mul_length (a b : List Int) : (mul a b).length = min a.length b.length := by
  induction a generalizing b with
  | nil => simp [mul]
  | cons x xs ih =>
    cases b with
    | nil => simp [mul]
    | cons y ys => simp [mul, ih]

theorem mul_getD (a b : List Int) (i : Nat) (ha : i < a.length) (hb : i < b.length) :
    (mul a b).getD i 0 = a.getD i 0 * b.getD i 0 := by
  induction a generalizing b i with
  | nil => simp at ha
  | cons x xs ih =>
    cases b with
    | nil => simp at hb
    | cons y ys =>
      cases i with
      | zero => simp [mul]
      | succ i => simpa [mul] using ih ys i (by simpa using ha) (by simpa using hb)

/-- the data the enumeration produces for a tree -/
def dataOf (A : List (List Int)) (s : Nat) : Tree → D
  | .leaf => leafD A s
  | .graft t u => combine A (dataOf A s t) (dataOf A s u)

def lastSize : Tree → Nat
  | .leaf => 0
  | .graft _ u => u.size

theorem size_pos (t : Tree) : 0 < t.size := by
  induction t with
  | leaf => simp [Tree.size]
  | graft t u h1 h2 => simp [Tree.size]; omega

theorem dataOf_meta (A : List (List Int)) (s : Nat) (t : Tree) :
    (dataOf A s t).size = t.size ∧ (dataOf A s t).rho = t.branchDensity ∧ (dataOf A s t).last = lastSize t := by
  induction t with
  | leaf => simp [dataOf, leafD, Tree.size, Tree.branchDensity, lastSize]
  | graft t u h1 h2 =>
    simp [dataOf, combine, Tree.size, Tree.branchDensity, lastSize, h1, h2]

/-- matrix entries as rational numbers -/
def entryQ (A : List (List Int)) (Den : Nat) (i j : Nat) : ℚ := ((A.getD i []).getD j 0 : ℚ) / Den

theorem dataOf_weight (A : List (List Int)) (s : Nat) (hA : A.length = s) (Den : Nat) (hD : Den ≠ 0) (t : Tree) :
    (dataOf A s t).N.length = s ∧
    (dataOf A s t).AN = A.map (fun r => dot r (dataOf A s t).N) ∧
    ∀ i, i < s → (((dataOf A s t).N.getD i 0 : Int) : ℚ) = weight (entryQ A Den) s t i * (Den : ℚ) ^ (t.size - 1) := by
  have hD' : (Den : ℚ) ≠ 0 := by exact_mod_cast hD
  induction t with
  | leaf =>
    refine ⟨by simp [dataOf, leafD], rfl, fun i hi => ?_⟩
    simp [dataOf, leafD, weight, Tree.size, hi]
  | graft t u h1 h2 =>
    obtain ⟨l1, a1, w1⟩ := h1
    obtain ⟨l2, a2, w2⟩ := h2
    have hAN : (dataOf A s u).AN.length = s := by rw [a2]; simp [hA]
    refine ⟨?_, rfl, fun i hi => ?_⟩
    · show (mul (dataOf A s t).N (dataOf A s u).AN).length = s
      rw [mul_length, l1, hAN, min_self]
    · show (((mul (dataOf A s t).N (dataOf A s u).AN).getD i 0 : Int) : ℚ) = _
      rw [mul_getD _ _ _ (by omega) (by omega), Int.cast_mul, w1 i hi]
      have e : (dataOf A s u).AN.getD i 0 = dot (A.getD i []) (dataOf A s u).N := by
        rw [a2]; simp [hA, hi]
      rw [e, dot_eq _ _ s l2, Int.cast_sum]
      have hs : (Tree.graft t u).size - 1 = (t.size - 1) + 1 + (u.size - 1) := by
        have := size_pos t
        have := size_pos u
        simp only [Tree.size]; omega
      rw [hs, weight, pow_add, pow_add]
      have : (∑ j ∈ Finset.range s, (((A.getD i []).getD j 0 * (dataOf A s u).N.getD j 0 : Int) : ℚ)) =
          (∑ j ∈ Finset.range s, entryQ A Den i j * weight (entryQ A Den) s u j) * ((Den : ℚ) ^ (u.size - 1) * Den) := by
        rw [Finset.sum_mul]
        apply Finset.sum_congr rfl
        intro j hj
        rw [Int.cast_mul, w2 j (Finset.mem_range.1 hj)]
        unfold entryQ
        field_simp
      rw [this]
      ring

/-- branches sorted by size -/
def Sorted : Tree → Prop
  | .leaf => True
  | .graft t u => Sorted t ∧ Sorted u ∧ lastSize t ≤ u.size

theorem insert_sorted (t u : Tree) (ht : Sorted t) (hu : Sorted u) :
    ∃ r, Sorted r ∧ r.size = t.size + u.size ∧ r.branchDensity = t.branchDensity * (u.size * u.branchDensity) ∧
      (∀ A s i, weight A s r i = weight A s (.graft t u) i) ∧ lastSize r = max (lastSize t) u.size := by
  induction t with
  | leaf => exact ⟨.graft .leaf u, ⟨trivial, hu, by simp [lastSize]⟩, rfl, rfl, fun _ _ _ => rfl, by simp [lastSize]⟩
  | graft t v ih _ =>
    obtain ⟨h1, h2, h3⟩ := ht
    by_cases h : v.size ≤ u.size
    · exact ⟨.graft (.graft t v) u, ⟨⟨h1, h2, h3⟩, hu, h⟩, rfl, rfl, fun _ _ _ => rfl, by simp [lastSize, h]⟩
    · obtain ⟨r, a, b, c, d, e⟩ := ih h1
      refine ⟨.graft r v, ⟨a, h2, by rw [e]; omega⟩, ?_, ?_, ?_, ?_⟩
      · simp only [Tree.size, b]; omega
      · simp only [Tree.branchDensity, c]; ring
      · intro A s i
        simp only [weight, d]
        ring
      · simp only [lastSize]; omega

theorem exists_sorted (t : Tree) : ∃ r, Sorted r ∧ r.size = t.size ∧ r.branchDensity = t.branchDensity ∧
    ∀ A s i, weight A s r i = weight A s t i := by
  induction t with
  | leaf => exact ⟨.leaf, trivial, rfl, rfl, fun _ _ _ => rfl⟩
  | graft t u h1 h2 =>
    obtain ⟨t', a1, a2, a3, a4⟩ := h1
    obtain ⟨u', b1, b2, b3, b4⟩ := h2
    obtain ⟨r, c1, c2, c3, c4, _⟩ := insert_sorted t' u' a1 b1
    refine ⟨r, c1, by simp [Tree.size, c2, a2, b2], by simp [Tree.branchDensity, c3, a3, b3, b2], fun A s i => ?_⟩
    rw [c4]
    simp only [weight, a4, b4]

theorem mem_pairs (A : List (List Int)) (j : Nat) : ∀ (ls rs : List (List D)) (l r : List D) (d e : D),
    ls[j]? = some l → rs[j]? = some r → d ∈ l → e ∈ r → d.last ≤ e.size → combine A d e ∈ pairs A ls rs := by
  induction j with
  | zero =>
    intro ls rs l r d e h1 h2 hd he hle
    cases ls with
    | nil => simp at h1
    | cons l' ls =>
      cases rs with
      | nil => simp at h2
      | cons r' rs =>
        simp only [List.getElem?_cons_zero, Option.some.injEq] at h1 h2
        subst h1; subst h2
        rw [pairs, List.mem_append]
        left
        rw [List.mem_flatMap]
        refine ⟨d, hd, List.mem_map.2 ⟨e, List.mem_filter.2 ⟨he, ?_⟩, rfl⟩⟩
        exact Nat.ble_eq_true_of_le hle
  | succ j ih =>
    intro ls rs l r d e h1 h2 hd he hle
    cases ls with
    | nil => simp at h1
    | cons l' ls =>
      cases rs with
      | nil => simp at h2
      | cons r' rs =>
        rw [pairs, List.mem_append]
        right
        exact ih ls rs l r d e (by simpa using h1) (by simpa using h2) hd he hle

theorem levels_length (A : List (List Int)) (s n : Nat) : (levels A s n).length = n := by
  induction n with
  | zero => rfl
  | succ n ih =>
    rw [levels]
    cases h : levels A s n with
    | nil => rw [h] at ih; simp at ih ⊢; omega
    | cons l ls => rw [h] at ih; simp at ih ⊢; omega

theorem levels_succ (A : List (List Int)) (s n : Nat) (hn : 0 < n) :
    levels A s (n + 1) = pairs A (levels A s n) (levels A s n).reverse :: levels A s n := by
  rw [levels]
  have := levels_length A s n
  cases h : levels A s n with
  | nil => rw [h] at this; simp at this; omega
  | cons l ls => rfl

theorem mem_levels (A : List (List Int)) (s : Nat) (n : Nat) : ∀ t, Sorted t → t.size ≤ n →
    ∃ l, (levels A s n)[n - t.size]? = some l ∧ dataOf A s t ∈ l := by
  induction n with
  | zero => intro t _ h; have := size_pos t; omega
  | succ n ih =>
    intro t hs hle
    by_cases hn : n = 0
    · subst hn
      cases t with
      | leaf => exact ⟨[leafD A s], by simp [levels, Tree.size], by simp [dataOf]⟩
      | graft t u =>
        have := size_pos t
        have := size_pos u
        simp only [Tree.size] at hle; omega
    · rw [levels_succ A s n (by omega)]
      by_cases hk : t.size ≤ n
      · obtain ⟨l, h1, h2⟩ := ih t hs hk
        refine ⟨l, ?_, h2⟩
        rw [show n + 1 - t.size = (n - t.size) + 1 by omega, List.getElem?_cons_succ]
        exact h1
      · have hk' : t.size = n + 1 := by omega
        refine ⟨_, by rw [hk', Nat.sub_self, List.getElem?_cons_zero], ?_⟩
        cases t with
        | leaf => simp [Tree.size] at hk'; omega
        | graft t u =>
          obtain ⟨s1, s2, s3⟩ := hs
          have p1 := size_pos t
          have p2 := size_pos u
          simp only [Tree.size] at hk'
          obtain ⟨l, h1, h2⟩ := ih t s1 (by omega)
          obtain ⟨r, h3, h4⟩ := ih u s2 (by omega)
          refine mem_pairs A (n - t.size) _ _ l r _ _ h1 ?_ h2 h4 ?_
          · rw [List.getElem?_reverse (by rw [levels_length]; omega), levels_length]
            rw [show n - 1 - (n - t.size) = n - u.size by omega]
            exact h3
          · rw [(dataOf_meta A s t).2.2, (dataOf_meta A s u).1]; exact s3

theorem check_sound (A : List (List Int)) (B : List Int) (Den s p tolN tolD : Nat) (hA : A.length = s)
    (hD : Den ≠ 0) (ht : tolD ≠ 0) (h : check A B Den s p tolN tolD = true) :
    HasOrder (entryQ A Den) (fun i => ((B.getD i 0 : Int) : ℚ) / Den) s p ((tolN : ℚ) / tolD) := by
  intro t htp
  obtain ⟨r, hr, r1, r2, r3⟩ := exists_sorted t
  obtain ⟨l, hl, hm⟩ := mem_levels A s p r hr (by omega)
  unfold check at h
  rw [List.all_eq_true] at h
  have h1 := h l (List.mem_of_getElem? hl)
  rw [List.all_eq_true] at h1
  have h2 := h1 _ hm
  unfold okD at h2
  have h3 := Nat.le_of_ble_eq_true h2
  obtain ⟨m1, m2, _⟩ := dataOf_meta A s r
  obtain ⟨n1, _, n3⟩ := dataOf_weight A s hA Den hD r
  rw [m1, m2, r1, r2, dot_eq _ _ s n1] at h3
  have hD' : (Den : ℚ) ≠ 0 := by exact_mod_cast hD
  have hDpos : (0 : ℚ) < Den := by exact_mod_cast Nat.pos_of_ne_zero hD
  have hb : 0 < t.branchDensity := by
    clear h3 m1 m2 n1 n3 hm h2 h1 hl r1 r2 r3 hr htp
    induction t with
    | leaf => simp [Tree.branchDensity]
    | graft t u h1 h2 =>
      simp only [Tree.branchDensity]
      have := size_pos u
      positivity
  have hsz := size_pos t
  have hgpos : (0 : ℚ) < ((t.size * t.branchDensity : Nat) : ℚ) := by
    exact_mod_cast Nat.mul_pos hsz hb
  have htpos : (0 : ℚ) < tolD := by exact_mod_cast Nat.pos_of_ne_zero ht
  -- the sum in rational numbers
  have hsum : ((∑ j ∈ Finset.range s, B.getD j 0 * (dataOf A s r).N.getD j 0 : Int) : ℚ) =
      (∑ i ∈ Finset.range s, ((B.getD i 0 : Int) : ℚ) / Den * weight (entryQ A Den) s t i) * (Den : ℚ) ^ t.size := by
    rw [Int.cast_sum, Finset.sum_mul]
    apply Finset.sum_congr rfl
    intro i hi
    rw [Int.cast_mul, n3 i (Finset.mem_range.1 hi), r3, r1]
    have : t.size = (t.size - 1) + 1 := by omega
    rw [this, pow_succ]
    simp only [Nat.add_sub_cancel]
    field_simp
  set S : ℚ := ∑ i ∈ Finset.range s, ((B.getD i 0 : Int) : ℚ) / Den * weight (entryQ A Den) s t i with hS
  set X : Int := ∑ j ∈ Finset.range s, B.getD j 0 * (dataOf A s r).N.getD j 0 with hX
  have h4 : (((X * ((t.size * t.branchDensity : Nat) : Int) - ((Den ^ t.size : Nat) : Int)).natAbs * tolD : Nat) : ℚ) ≤
      ((Den ^ t.size * (t.size * t.branchDensity) * tolN : Nat) : ℚ) := by exact_mod_cast h3
  rw [Nat.cast_mul, Nat.cast_natAbs, Int.cast_abs, Int.cast_sub, Int.cast_mul, hsum] at h4
  push_cast at h4
  rw [show S * (Den : ℚ) ^ t.size * ((t.size : ℚ) * t.branchDensity) - (Den : ℚ) ^ t.size =
    (Den : ℚ) ^ t.size * ((t.size : ℚ) * t.branchDensity) * (S - 1 / ((t.size : ℚ) * t.branchDensity)) by
      push_cast at hgpos
      field_simp, abs_mul] at h4
  push_cast at hgpos
  have hP : (0 : ℚ) < (Den : ℚ) ^ t.size * ((t.size : ℚ) * t.branchDensity) := by positivity
  rw [abs_of_pos hP] at h4
  have h5 : |S - 1 / ((t.size : ℚ) * t.branchDensity)| * tolD ≤ tolN := by
    have : (Den : ℚ) ^ t.size * ((t.size : ℚ) * t.branchDensity) *
        (|S - 1 / ((t.size : ℚ) * t.branchDensity)| * tolD) ≤
        (Den : ℚ) ^ t.size * ((t.size : ℚ) * t.branchDensity) * tolN := by nlinarith [h4]
    exact le_of_mul_le_mul_left this hP
  unfold Tree.density
  push_cast
  rw [le_div_iff₀ htpos]
  exact h5

theorem branchDensity_pos (t : Tree) : 0 < t.branchDensity := by
  induction t with
  | leaf => simp [Tree.branchDensity]
  | graft t u h1 h2 => exact Nat.mul_pos h1 (Nat.mul_pos (size_pos u) h2)

/-- the converse for one tree: if the integer test fails the order condition is violated -/
theorem okD_of_order (A : List (List Int)) (B : List Int) (Den s tolN tolD : Nat) (hA : A.length = s)
    (hD : Den ≠ 0) (ht : tolD ≠ 0) (t : Tree)
    (h : |∑ i ∈ Finset.range s, ((B.getD i 0 : Int) : ℚ) / Den * weight (entryQ A Den) s t i -
      1 / (t.density : ℚ)| ≤ (tolN : ℚ) / tolD) : okD Den B tolN tolD (dataOf A s t) = true := by
  unfold okD
  apply Nat.ble_eq_true_of_le
  obtain ⟨m1, m2, _⟩ := dataOf_meta A s t
  obtain ⟨n1, _, n3⟩ := dataOf_weight A s hA Den hD t
  rw [m1, m2, dot_eq _ _ s n1]
  have hD' : (Den : ℚ) ≠ 0 := by exact_mod_cast hD
  have hDpos : (0 : ℚ) < Den := by exact_mod_cast Nat.pos_of_ne_zero hD
  have hb : 0 < t.branchDensity := by
    exact branchDensity_pos t
  have hsz := size_pos t
  have hgpos : (0 : ℚ) < ((t.size * t.branchDensity : Nat) : ℚ) := by
    exact_mod_cast Nat.mul_pos hsz hb
  have htpos : (0 : ℚ) < tolD := by exact_mod_cast Nat.pos_of_ne_zero ht
  have hsum : ((∑ j ∈ Finset.range s, B.getD j 0 * (dataOf A s t).N.getD j 0 : Int) : ℚ) =
      (∑ i ∈ Finset.range s, ((B.getD i 0 : Int) : ℚ) / Den * weight (entryQ A Den) s t i) * (Den : ℚ) ^ t.size := by
    rw [Int.cast_sum, Finset.sum_mul]
    apply Finset.sum_congr rfl
    intro i hi
    rw [Int.cast_mul, n3 i (Finset.mem_range.1 hi)]
    have : t.size = (t.size - 1) + 1 := by omega
    rw [this, pow_succ]
    simp only [Nat.add_sub_cancel]
    field_simp
  set S : ℚ := ∑ i ∈ Finset.range s, ((B.getD i 0 : Int) : ℚ) / Den * weight (entryQ A Den) s t i with hS
  set X : Int := ∑ j ∈ Finset.range s, B.getD j 0 * (dataOf A s t).N.getD j 0 with hX
  have goal : (((X * ((t.size * t.branchDensity : Nat) : Int) - ((Den ^ t.size : Nat) : Int)).natAbs * tolD : Nat) : ℚ) ≤
      ((Den ^ t.size * (t.size * t.branchDensity) * tolN : Nat) : ℚ) := by
    rw [Nat.cast_mul, Nat.cast_natAbs, Int.cast_abs, Int.cast_sub, Int.cast_mul, hsum]
    push_cast
    push_cast at hgpos
    rw [show S * (Den : ℚ) ^ t.size * ((t.size : ℚ) * t.branchDensity) - (Den : ℚ) ^ t.size =
      (Den : ℚ) ^ t.size * ((t.size : ℚ) * t.branchDensity) * (S - 1 / ((t.size : ℚ) * t.branchDensity)) by
        field_simp, abs_mul]
    have hP : (0 : ℚ) < (Den : ℚ) ^ t.size * ((t.size : ℚ) * t.branchDensity) := by positivity
    rw [abs_of_pos hP]
    unfold Tree.density at h
    push_cast at h
    rw [le_div_iff₀ htpos] at h
    rw [mul_assoc]
    exact mul_le_mul_of_nonneg_left h hP.le
  exact_mod_cast goal

/-! ## from fractions to integers -/

def scale (Den : Nat) (x : Frac) : Int := x.1 * ((Den / x.2 : Nat) : Int)

def divides (Den : Nat) (l : List Frac) : Bool := l.all fun x => Nat.beq (Den % x.2) 0 && Nat.blt 0 x.2

theorem val_eq (Den : Nat) (hD : Den ≠ 0) (x : Frac) (h1 : Den % x.2 = 0) (h2 : 0 < x.2) :
    val x = ((scale Den x : Int) : ℚ) / Den := by
  unfold val scale
  obtain ⟨k, hk⟩ := Nat.dvd_of_mod_eq_zero h1
  have hk0 : k ≠ 0 := by rintro rfl; simp at hk; exact hD hk
  have h2' : (x.2 : ℚ) ≠ 0 := by exact_mod_cast (by omega : x.2 ≠ 0)
  have hk' : (k : ℚ) ≠ 0 := by exact_mod_cast hk0
  rw [hk, Nat.mul_div_cancel_left _ h2]
  push_cast
  field_simp

theorem val_getD (Den : Nat) (hD : Den ≠ 0) (l : List Frac) (h : divides Den l = true) (i : Nat) :
    val (l.getD i (0, 1)) = (((l.map (scale Den)).getD i 0 : Int) : ℚ) / Den := by
  unfold divides at h
  rw [List.all_eq_true] at h
  by_cases hi : i < l.length
  · have hm := h (l[i]) (List.getElem_mem hi)
    rw [Bool.and_eq_true] at hm
    have h1 : Den % (l[i]).2 = 0 := Nat.eq_of_beq_eq_true hm.1
    have h2 : 0 < (l[i]).2 := by simpa [Nat.blt_eq] using hm.2
    have e1 : l.getD i (0, 1) = l[i] := by simp [hi]
    have e2 : (l.map (scale Den)).getD i 0 = scale Den l[i] := by simp [hi]
    rw [e1, e2, val_eq Den hD _ h1 h2]
  · have e1 : l.getD i (0, 1) = (0, 1) := by simp [List.getD, List.getElem?_eq_none (by omega : l.length ≤ i)]
    have e2 : (l.map (scale Den)).getD i 0 = 0 := by
      simp [List.getD, List.getElem?_eq_none (by omega : l.length ≤ i)]
    rw [e1, e2]
    simp [val]

theorem matrix_scaled (A : List (List Frac)) (Den : Nat) (hD : Den ≠ 0) (hdA : A.all (divides Den) = true) :
    (fun i j => val ((A.getD i []).getD j (0, 1))) = entryQ (A.map fun r => r.map (scale Den)) Den := by
  funext i j
  unfold entryQ
  have hr : divides Den (A.getD i []) = true := by
    by_cases hi : i < A.length
    · rw [List.all_eq_true] at hdA
      have : A.getD i [] = A[i] := by simp [hi]
      rw [this]; exact hdA _ (List.getElem_mem hi)
    · have : A.getD i [] = [] := by simp [List.getD, List.getElem?_eq_none (by omega : A.length ≤ i)]
      rw [this]; rfl
  rw [val_getD Den hD _ hr j]
  congr 3
  by_cases hi : i < A.length
  · simp [hi]
  · simp [List.getD, List.getElem?_eq_none (by omega : A.length ≤ i)]

theorem order_of_check (A : List (List Frac)) (B : List Frac) (Den s p tolN tolD : Nat)
    (hA : A.length = s) (hD : Den ≠ 0) (ht : tolD ≠ 0)
    (hdA : A.all (divides Den) = true) (hdB : divides Den B = true)
    (h : check (A.map fun r => r.map (scale Den)) (B.map (scale Den)) Den s p tolN tolD = true) :
    HasOrder (fun i j => val ((A.getD i []).getD j (0, 1))) (fun i => val (B.getD i (0, 1))) s p
      ((tolN : ℚ) / tolD) := by
  have := check_sound _ _ Den s p tolN tolD (by simp [hA]) hD ht h
  have e2 : (fun i => val (B.getD i (0, 1))) = fun i => ((((B.map (scale Den)).getD i 0 : Int) : ℚ) / Den) := by
    funext i
    exact val_getD Den hD B hdB i
  rw [matrix_scaled A Den hD hdA, e2]
  exact this

theorem not_order_of_tree (A : List (List Frac)) (B : List Frac) (Den s p tolN tolD : Nat) (t : Tree)
    (hA : A.length = s) (hD : Den ≠ 0) (ht : tolD ≠ 0) (hp : t.size ≤ p)
    (hdA : A.all (divides Den) = true) (hdB : divides Den B = true)
    (h : okD Den (B.map (scale Den)) tolN tolD (dataOf (A.map fun r => r.map (scale Den)) s t) = false) :
    ¬ HasOrder (fun i j => val ((A.getD i []).getD j (0, 1))) (fun i => val (B.getD i (0, 1))) s p
      ((tolN : ℚ) / tolD) := by
  intro hord
  have h1 := hord t hp
  have e2 : (fun i => val (B.getD i (0, 1))) = fun i => ((((B.map (scale Den)).getD i 0 : Int) : ℚ) / Den) := by
    funext i
    exact val_getD Den hD B hdB i
  rw [matrix_scaled A Den hD hdA, e2] at h1
  have := okD_of_order _ _ Den s tolN tolD (by simp [hA]) hD ht t h1
  rw [this] at h
  exact absurd h (by simp)

theorem hasOrder_congr {A A' : Nat → Nat → ℚ} {b b' : Nat → ℚ} {s p : Nat} {tol : ℚ}
    (hA : ∀ i j, A i j = A' i j) (hb : ∀ i < s, b i = b' i) (h : HasOrder A b s p tol) : HasOrder A' b' s p tol := by
  have : A = A' := by funext i j; exact hA i j
  subst this
  intro t ht
  have h1 := h t ht
  rw [Finset.sum_congr rfl fun i hi => by rw [hb i (Finset.mem_range.1 hi)]] at h1
  exact h1

end WxVerif.Lemmas.Butcher
