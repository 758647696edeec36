import Verif.Props.Srerk
import Verif.Spec.SrerkConvergence
import Mathlib.Topology.Algebra.Polynomial
import Mathlib.Topology.Order.IntermediateValue
import Mathlib.MeasureTheory.Integral.IntervalIntegral.Basic

/-!
# C56: the default nodes of the stiffness-resilient exponential Runge-Kutta integrators are distinct and inside the step
-/

namespace WxVerif.Props.Srerk

open Polynomial Set WxVerif.Srerk SpecSrerkConvergence

/-- a polynomial is a product of distinct factors `x - a` with `0 < a < 1`, a square, and a polynomial without zeros between 0 and 1 -/
theorem odd_part : ∀ (n : Nat) (P : ℝ[X]), P.natDegree ≤ n → P ≠ 0 → ∃ (S : Finset ℝ) (h q : ℝ[X]), (∀ a ∈ S, a ∈ Ioo (0 : ℝ) 1) ∧
    (∀ x ∈ Ioo (0 : ℝ) 1, q.eval x ≠ 0) ∧ P = (∏ a ∈ S, (X - C a)) * h ^ 2 * q := by
  classical
  intro n
  induction n with
  | zero =>
    intro P hP h0
    refine ⟨∅, 1, P, by simp, fun x _ hx => h0 ?_, by simp⟩
    rw [eq_C_of_natDegree_le_zero hP] at hx ⊢
    rw [eval_C] at hx
    rw [hx, C_0]
  | succ n ih =>
    intro P hP h0
    by_cases hr : ∃ x ∈ Ioo (0 : ℝ) 1, P.eval x = 0
    · obtain ⟨a, ha, hx⟩ := hr
      obtain ⟨P', rfl⟩ := dvd_iff_isRoot.2 hx
      have h0' : P' ≠ 0 := right_ne_zero_of_mul h0
      rw [natDegree_mul (X_sub_C_ne_zero a) h0', natDegree_X_sub_C] at hP
      obtain ⟨S, h, q, hS, hq, e⟩ := ih P' (by omega) h0'
      by_cases haS : a ∈ S
      · refine ⟨S.erase a, (X - C a) * h, q, fun b hb => hS b (Finset.mem_of_mem_erase hb), hq, ?_⟩
        rw [e, ← Finset.mul_prod_erase S _ haS]
        ring
      · refine ⟨insert a S, h, q, fun b hb => ?_, hq, ?_⟩
        · rcases Finset.mem_insert.1 hb with rfl | hb
          exacts [ha, hS b hb]
        · rw [e, Finset.prod_insert haS]
          ring
    · push Not at hr
      exact ⟨∅, 1, P, by simp, hr, by simp⟩

theorem one_sign (q : ℝ[X]) (hq : ∀ x ∈ Ioo (0 : ℝ) 1, q.eval x ≠ 0) :
    (∀ x ∈ Ioo (0 : ℝ) 1, 0 < q.eval x) ∨ ∀ x ∈ Ioo (0 : ℝ) 1, q.eval x < 0 := by
  have key : ∀ x ∈ Ioo (0 : ℝ) 1, ∀ z ∈ Ioo (0 : ℝ) 1, 0 < q.eval x → 0 < q.eval z := by
    intro x hx z hz h
    by_contra hc
    have hlt : q.eval z ≤ 0 := not_lt.1 hc
    have := intermediate_value_uIcc (f := fun x => q.eval x) (a := z) (b := x) q.continuous.continuousOn
    obtain ⟨w, hw, hw0⟩ := this (show (0 : ℝ) ∈ uIcc (q.eval z) (q.eval x) by rw [uIcc_of_le (hlt.trans h.le)]; exact ⟨hlt, h.le⟩)
    exact hq w (ordConnected_Ioo.uIcc_subset hz hx hw) hw0
  have m : (1 / 2 : ℝ) ∈ Ioo (0 : ℝ) 1 := by constructor <;> norm_num
  rcases lt_or_gt_of_ne (hq _ m) with h | h
  · right
    intro x hx
    rcases lt_or_gt_of_ne (hq x hx) with h' | h'
    · exact h'
    · exact absurd (key x hx _ m h') (not_lt.2 h.le)
  · left
    exact fun x hx => key _ m x hx h

/-- **C56** The polynomial whose roots are the default nodes of a stage of size `p` has `p` distinct real roots, all strictly between the beginning and
the end of the step: the nodes are real, distinct and inside the step, for every size. -/
theorem C56_nodes_inside (p : Nat) : (nodePoly p).roots.card = p ∧ (nodePoly p).roots.Nodup ∧ ∀ x ∈ (nodePoly p).roots, 0 < x ∧ x < 1 := by
  obtain ⟨hd, ho⟩ := C56_nodes p
  have h0 : nodePoly p ≠ 0 := by
    intro h
    have hp : p = 0 := by rw [h, natDegree_zero] at hd; exact hd.symm
    subst hp
    simp [nodePoly, Srerk.coeff] at h
  obtain ⟨S, h, q, hS, hq, e⟩ := odd_part _ (nodePoly p) le_rfl h0
  set g := ∏ a ∈ S, (X - C a) with hg
  have gd : g.natDegree = S.card := by
    rw [hg, natDegree_prod_of_monic _ _ fun a _ => monic_X_sub_C a]
    simp
  have big : p ≤ S.card := by
    by_contra hc
    have hz := ho g (by rw [gd]; omega)
    have form : ∀ x, x ^ 2 * g.eval x * (nodePoly p).eval x = (x * (g * h).eval x) ^ 2 * q.eval x := by
      intro x
      rw [e, eval_mul, eval_mul, eval_pow, eval_mul]
      ring
    simp only [form] at hz
    -- a point where nothing vanishes
    obtain ⟨x, hx, hne⟩ : ∃ x ∈ Ioo (0 : ℝ) 1, (g * h).eval x ≠ 0 := by
      by_contra hall
      push Not at hall
      have gh0 : g * h ≠ 0 := by
        intro z
        apply h0
        rw [e, show g * h ^ 2 * q = (g * h) * h * q by ring, z, zero_mul, zero_mul]
      exact gh0 (Polynomial.eq_zero_of_infinite_isRoot _ ((Ioo_infinite (by norm_num : (0 : ℝ) < 1)).mono hall))
    have sq : 0 < (x * (g * h).eval x) ^ 2 := by
      have := mul_ne_zero hx.1.ne' hne
      positivity
    have cont : ∀ s : ℝ, ContinuousOn (fun x => s * ((x * (g * h).eval x) ^ 2 * q.eval x)) (Icc 0 1) := fun s =>
      (continuous_const.mul (((continuous_id.mul (g * h).continuous).pow 2).mul q.continuous)).continuousOn
    have endpoint : ∀ s : ℝ, (∀ x ∈ Ioo (0 : ℝ) 1, 0 < s * q.eval x) → False := by
      intro s hs
      have nn : ∀ x ∈ Icc (0 : ℝ) 1, 0 ≤ s * ((x * (g * h).eval x) ^ 2 * q.eval x) := by
        have cl : IsClosed {x : ℝ | 0 ≤ s * ((x * (g * h).eval x) ^ 2 * q.eval x)} :=
          isClosed_le continuous_const (continuous_const.mul (((continuous_id.mul (g * h).continuous).pow 2).mul q.continuous))
        have sub : Ioo (0 : ℝ) 1 ⊆ {x : ℝ | 0 ≤ s * ((x * (g * h).eval x) ^ 2 * q.eval x)} := by
          intro x hx
          have := mul_nonneg (sq_nonneg (x * (g * h).eval x)) (hs x hx).le
          simp only [mem_setOf_eq]
          linarith
        have := cl.closure_subset_iff.2 sub
        rw [closure_Ioo (by norm_num)] at this
        exact this
      have pos := intervalIntegral.integral_pos (by norm_num : (0 : ℝ) < 1) (cont s) (fun x hx => nn x ⟨hx.1.le, hx.2⟩)
        ⟨x, ⟨hx.1.le, hx.2.le⟩, by have := mul_pos sq (hs x hx); linarith⟩
      rw [intervalIntegral.integral_const_mul, hz, mul_zero] at pos
      exact lt_irrefl _ pos
    rcases one_sign q hq with hp | hn
    · exact endpoint 1 fun x hx => by simpa using hp x hx
    · exact endpoint (-1) fun x hx => by linarith [hn x hx]
  -- the roots are the elements of `S`
  have hle : S.val ≤ (nodePoly p).roots := by
    have : g ∣ nodePoly p := ⟨h ^ 2 * q, by rw [e, mul_assoc]⟩
    have := roots.le_of_dvd h0 this
    rwa [hg, roots_prod_X_sub_C] at this
  have hc : (nodePoly p).roots.card ≤ S.val.card := (card_roots' _).trans (by rw [hd]; exact big)
  have heq : S.val = (nodePoly p).roots := Multiset.eq_of_le_of_card_le hle hc
  refine ⟨le_antisymm ((card_roots' _).trans hd.le) ?_, heq ▸ S.nodup, fun x hx => ?_⟩
  · rw [← heq]; exact big
  · rw [← heq] at hx
    exact hS x hx

/-- the nodes that the code computes for an order: in each stage the roots of the polynomial of that size, in any order, and the end of the step in the last -/
structure DefaultNodes (order : Nat) (c : List (List ℝ)) : Prop where
  sizes : stageSizes order = some (c.map List.length)
  roots : ∀ l ∈ c.dropLast, (l : Multiset ℝ) = (nodePoly l.length).roots
  last : c.getLast? = some [1]

/-- **C56** For every order of at least three the code's nodes exist, are distinct and lie in `(0, 1]`, in each stage as many as its size. -/
theorem C56_default_nodes (order : Nat) (h3 : 3 ≤ order) : (∃ c, DefaultNodes order c) ∧
    ∀ c, DefaultNodes order c → ∀ sizes, stageSizes order = some sizes → Nodes sizes c := by
  constructor
  · set sz := List.range' 2 ((order - 2 - 2 + 1) / 2) 2 ++ [order - 2] with hsz
    have len : ∀ n, (nodePoly n).roots.toList.length = n := fun n => by rw [Multiset.length_toList, (C56_nodes_inside n).1]
    refine ⟨sz.map (fun n => (nodePoly n).roots.toList) ++ [[1]], ?_, ?_, by simp⟩
    · rw [stageSizes, if_neg (by omega), List.map_append, List.map_map]
      have : List.length ∘ (fun n => (nodePoly n).roots.toList) = id := by funext n; exact len n
      rw [this, List.map_id, hsz]
      rfl
    · intro l hl
      rw [List.dropLast_concat] at hl
      obtain ⟨n, -, rfl⟩ := List.mem_map.1 hl
      rw [len, Multiset.coe_toList]
  · intro c hc sizes hs
    have hs' : sizes = c.map List.length := by
      have := hc.sizes.symm.trans hs
      exact (Option.some.inj this).symm
    have split : c = c.dropLast ++ [[1]] := by
      have ne : c ≠ [] := by rintro rfl; simpa using hc.last
      conv_lhs => rw [← List.dropLast_append_getLast ne]
      have := hc.last
      rw [List.getLast?_eq_getLast ne] at this
      rw [Option.some.inj this]
    have cases : ∀ l ∈ c, l ∈ c.dropLast ∨ l = [1] := by
      intro l hl
      rw [split] at hl
      simpa using hl
    refine ⟨hs'.symm, fun l hl => ?_, fun l hl τ hτ => ?_, hc.last⟩
    · rcases cases l hl with h | rfl
      · have := (C56_nodes_inside l.length).2.1
        rw [← hc.roots l h] at this
        exact Multiset.coe_nodup.1 this
      · simp
    · rcases cases l hl with h | rfl
      · have := (C56_nodes_inside l.length).2.2 τ (by rw [← hc.roots l h]; exact hτ)
        exact ⟨this.1, this.2.le⟩
      · have : τ = 1 := by simpa using hτ
        rw [this]; norm_num

/-- the sizes for order six: two nodes, four nodes, the end of the step -/
example : stageSizes 6 = some [2, 4, 1] := rfl

end WxVerif.Props.Srerk
