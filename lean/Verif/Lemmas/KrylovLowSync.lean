import Verif.Model.KrylovLowSync
import Verif.Spec.Arnoldi
import Verif.Props.Pmex
import Mathlib.Tactic.Linarith
import Mathlib.Tactic.Ring
import Mathlib.Tactic.FieldSimp

/-!
# Lemmas on the solvers with few reductions
-/

namespace WxVerif.Krylov.LowSync

open WxVerif.Krylov (setV pmexSol)
open WxVerif.Spec.Arnoldi

/-- with an orthonormal basis the corrections change nothing -/
theorem correct_init (c : Corr) (j : Nat) (r g : Nat → ℝ) (hr : ∀ k, k < j - 1 → r k = 0) :
    (correct c Mats.init j r g).1 = Mats.init ∧ ∀ i, i < j → (correct c Mats.init j r g).2 i = g i := by
  have hT : (fun a b => if 1 < j ∧ a = j - 1 ∧ b < j - 1 then -∑ k ∈ Finset.range (j - 1), r k * Mats.init.T k b
      else Mats.init.T a b) = Mats.init.T := by
    funext a b
    split_ifs with hc
    · rw [Finset.sum_eq_zero (fun k hk => by rw [hr k (Finset.mem_range.1 hk), zero_mul])]
      simp [Mats.init, show a ≠ b by omega]
    · rfl
  have hT2 : (fun a b => if 1 < j ∧ a = j - 1 ∧ b < j - 1 then -r b else Mats.init.T a b) = Mats.init.T := by
    funext a b
    split_ifs with hc
    · rw [hr b hc.2.2]; simp [Mats.init, show a ≠ b by omega]
    · rfl
  have hM : (fun a b => if 1 < j ∧ a = j - 1 ∧ b < j - 1 then r b else Mats.init.M a b) = Mats.init.M := by
    funext a b
    split_ifs with hc
    · rw [hr b hc.2.2]; simp [Mats.init, show a ≠ b by omega]
    · rfl
  have hN : (fun a b => if 1 < j ∧ b = j - 1 ∧ a < j - 1 then -r a else Mats.init.N a b) = Mats.init.N := by
    funext a b
    split_ifs with hc
    · rw [hr a hc.2.2]; simp [Mats.init]
    · rfl
  have hMi : (fun a b => if 1 < j ∧ a = j - 1 ∧ b < j - 1 then -∑ k ∈ Finset.range (j - 1), r k * Mats.init.Minv k b
      else Mats.init.Minv a b) = Mats.init.Minv := by
    funext a b
    split_ifs with hc
    · rw [Finset.sum_eq_zero (fun k hk => by rw [hr k (Finset.mem_range.1 hk), zero_mul])]
      simp [Mats.init, show a ≠ b by omega]
    · rfl
  have hsum : ∀ i, i < j → ∑ k ∈ Finset.range j, Mats.init.T i k * g k = g i := by
    intro i hi
    rw [Finset.sum_eq_single i]
    · simp [Mats.init]
    · intro k _ hk; simp [Mats.init, Ne.symm hk]
    · intro h; exact absurd (Finset.mem_range.2 hi) h
  cases c with
  | cwy =>
    simp only [correct, hT]
    refine ⟨trivial, fun i hi => ?_⟩
    have e := fun k => congrFun (congrFun hT i) k
    beta_reduce at e
    simp only [e]
    exact hsum i hi
  | icwy =>
    simp only [correct, hT2]
    refine ⟨trivial, fun i hi => ?_⟩
    have e := fun k => congrFun (congrFun hT2 i) k
    beta_reduce at e
    simp only [e]
    exact hsum i hi
  | pm =>
    simp only [correct, hM, hN, hMi]
    refine ⟨trivial, fun i _ => ?_⟩
    simp [pmexSol, Mats.init]

section
variable {W : Type*} [AddCommGroup W] [Module ℝ W] {B : LinearMap.BilinForm ℝ W} {T : W →ₗ[ℝ] W} {v : W} {q : Nat → W}
  {h : Nat → Nat → ℝ} {m : Nat}

theorem setV_lt (V : Nat → W) (i : Nat) (x : W) (k : Nat) (hk : k < i) : setV V i x k = V k := by
  simp [setV, show k ≠ i by omega]

theorem setV_self (V : Nat → W) (i : Nat) (x : W) : setV V i x i = x := by simp [setV]

/-- the coefficients of the factorization are the products -/
theorem coef (hf : Factorization B T v q h m) (k : Nat) (hk : k < m) (i : Nat) (hi : i < k + 2) : B (q i) (T (q k)) = h i k := by
  rw [hf.rel k hk, map_sum, Finset.sum_eq_single i]
  · rw [map_smul, hf.orth i (by omega) i (by omega), if_pos rfl]; simp
  · intro l hl hne
    have := Finset.mem_range.1 hl
    rw [map_smul, hf.orth i (by omega) l (by omega), if_neg (Ne.symm hne), smul_zero]
  · intro hn; exact absurd (Finset.mem_range.2 hi) hn

/-- the square of the new vector is the sum of the squares of its coefficients -/
theorem square (hf : Factorization B T v q h m) (k : Nat) (hk : k < m) :
    B (T (q k)) (T (q k)) = ∑ i ∈ Finset.range (k + 2), h i k ^ 2 := by
  conv_lhs => rw [hf.rel k hk]
  rw [← hf.rel k hk]
  conv_lhs => rw [show B (T (q k)) = B (∑ i ∈ Finset.range (k + 2), h i k • q i) from by rw [← hf.rel k hk]]
  rw [map_sum, LinearMap.sum_apply]
  apply Finset.sum_congr rfl
  intro i hi
  rw [map_smul, LinearMap.smul_apply, coef hf k hk i (Finset.mem_range.1 hi), smul_eq_mul]
  ring

/-- what remains of the new vector -/
theorem remainder (hf : Factorization B T v q h m) (k : Nat) (hk : k < m) (V : Nat → W) (t : Nat → ℝ) (hV : ∀ i < k + 1, V i = q i)
    (ht : ∀ i < k + 1, t i = h i k) : T (q k) - ∑ i ∈ Finset.range (k + 1), t i • V i = h (k + 1) k • q (k + 1) := by
  rw [hf.rel k hk, Finset.sum_range_succ _ (k + 1)]
  have : ∑ i ∈ Finset.range (k + 1), t i • V i = ∑ i ∈ Finset.range (k + 1), h i k • q i := by
    apply Finset.sum_congr rfl
    intro i hi
    rw [hV i (Finset.mem_range.1 hi), ht i (Finset.mem_range.1 hi)]
  rw [this, add_sub_cancel_left]

/-- the matrix after the delayed normalization -/
noncomputable def markH (wrap : Option Nat) (s : Mem W) (c : ℝ) : Nat → Nat → ℝ :=
  if s.normed then s.H else
    match (if s.j = 0 then wrap else some (s.j - 1)) with
    | none => s.H
    | some col => fun x y => if x = s.j ∧ y = col then c else s.H x y

/-- the projection, when the earlier rows are the basis, the last row is `c` times the basis vector, and the new row is `c` times
    the product -/
theorem lagged_eq (co : Corr) (wrap : Option Nat) (s : Mem W) (V : Nat → W) (x : W) (c : ℝ) (hc : 0 < c) (hn : s.normed = true → c = 1)
    (hm : s.mats = Mats.init) (k : Nat) (hk : s.j = k) (w : W) (horth : ∀ i ≤ k, ∀ l ≤ k, B (q i) (q l) = if i = l then 1 else 0)
    (hV : ∀ i < k, V i = q i) (hVk : V k = c • q k) (hx : x = c • w) :
    ∃ p, lagged co B wrap s V x = some p ∧ (∀ i ≤ k, p.V i = q i) ∧
      p.V (k + 1) = w - ∑ i ∈ Finset.range (k + 1), B (q i) w • q i ∧ p.mats = Mats.init ∧
      (∀ i ≤ k, p.tmp i = B (q i) w) ∧ (∀ i ≤ k, p.g i = B (q i) w) ∧ p.vv = B w w ∧ p.nrm = c ∧
      p.beta = (if k = 0 then c else s.beta) ∧ p.H = markH wrap s c := by
  subst hk
  have hnrm : Real.sqrt (B (V s.j) (V s.j)) = c := by
    rw [hVk, map_smul, map_smul, LinearMap.smul_apply, horth _ le_rfl _ le_rfl, if_pos rfl, smul_eq_mul, smul_eq_mul, mul_one]
    exact Real.sqrt_mul_self hc.le
  have ha : ∀ a : ℝ, a = (if s.normed = true then 1 else c⁻¹) → a * c = 1 := by
    intro a ha
    rw [ha]
    cases hb : s.normed with
    | true => simp [hn hb]
    | false => simp [hc.ne']
  unfold lagged
  simp only [hnrm]
  rw [if_neg (by rintro ⟨_, h0⟩; exact hc.ne' h0)]
  set a : ℝ := if s.normed = true then 1 else c⁻¹ with hadef
  have hac := ha a hadef
  have hr : ∀ i, i < s.j + 1 - 1 → a * B (V i) (V s.j) = 0 := by
    intro i hi
    rw [hV i (by omega), hVk, map_smul, horth i (by omega) _ le_rfl, if_neg (by omega), smul_zero, mul_zero]
  have hg : ∀ i, i ≤ s.j → (if i < s.j then a * B (V i) x else a * (a * B (V s.j) x)) = B (q i) w := by
    intro i hi
    rcases Nat.lt_or_ge i s.j with h1 | h1
    · rw [if_pos h1, hV i h1, hx, map_smul, smul_eq_mul, ← mul_assoc, hac, one_mul]
    · have : i = s.j := by omega
      subst this
      rw [if_neg (by omega), hVk, hx, map_smul, map_smul, LinearMap.smul_apply, smul_eq_mul, smul_eq_mul]
      linear_combination (a * c + 1) * (B (q s.j)) w * hac
  obtain ⟨c1, c2⟩ := correct_init co (s.j + 1) (fun i => a * B (V i) (V s.j))
    (fun i => if i < s.j then a * B (V i) x else a * (a * B (V s.j) x)) hr
  rw [← hm] at c1 c2
  have hax : a • x = w := by rw [hx, smul_smul, hac, one_smul]
  have hV1 : ∀ i, i ≤ s.j → setV V s.j (a • V s.j) i = q i := by
    intro i hi
    rcases Nat.lt_or_ge i s.j with h1 | h1
    · rw [setV_lt _ _ _ _ h1, hV i h1]
    · have : i = s.j := by omega
      subst this
      rw [setV_self, hVk, smul_smul, hac, one_smul]
  refine ⟨_, rfl, ?_, ?_, ?_, ?_, ?_, ?_, rfl, rfl, ?_⟩
  · intro i hi
    simp only
    rw [setV_lt _ _ _ _ (by omega), hV1 i hi]
  · simp only
    rw [setV_self, hax]
    congr 1
    apply Finset.sum_congr rfl
    intro i hi
    have hi' := Finset.mem_range.1 hi
    rw [c2 i hi', hV1 i (by omega), hg i (by omega)]
  · simp only; rw [c1, hm]
  · intro i hi; simp only; rw [c2 i (by omega)]; exact hg i hi
  · intro i hi; exact hg i hi
  · simp only
    rw [hx, map_smul, map_smul, LinearMap.smul_apply, smul_eq_mul, smul_eq_mul]
    linear_combination (a * c + 1) * (B w) w * hac
  · rfl

/-! ## The invariant of the delayed normalization -/

/-- after `k` vectors: the rows before `k` are the basis, row `k` is `c` times the basis vector, and the matrix holds the columns
    before `k`, without the last entry below the diagonal unless the row is normalized -/
structure Inv (q : Nat → W) (h : Nat → Nat → ℝ) (be : ℝ) (k : Nat) (c : ℝ) (s : Mem W) : Prop where
  j : s.j = k
  happy : s.happy = false
  mats : s.mats = Mats.init
  rows : ∀ i < k, s.V i = q i
  last : s.V k = c • q k
  pos : 0 < c
  beta : 0 < k → s.beta = be
  upper : ∀ a b, b < k → a ≤ b → s.H a b = h a b
  lower : ∀ b, b + 1 < k → s.H (b + 1) b = h (b + 1) b
  zero : ∀ a b, b < k → b + 1 < a → s.H a b = 0
  frame : ∀ a b, k ≤ b → a ≠ 0 → s.H a b = 0
  normed : s.normed = true → c = 1 ∧ 0 < k ∧ s.H k (k - 1) = h k (k - 1)
  lag : s.normed = false → 0 < k → c = h k (k - 1)
  zeroth : k = 0 → s.normed = false ∧ c = be

/-- the matrix after the normalization and the new column -/
theorem newH (be c : ℝ) (k mmax : Nat) (wrap : Option Nat) (hw : ∀ x, wrap = some x → m ≤ x) (hk : k < m) (s : Mem W)
    (hi : Inv q h be k c s) (tmp : Nat → ℝ) (ht : ∀ i ≤ k, tmp i = h i k) :
    let H := fun a b => if b = s.j ∧ a < s.j + 1 then tmp a else markH wrap s c a b
    (∀ a b, b < k + 1 → a ≤ b → H a b = h a b) ∧ (∀ b, b + 1 < k + 1 → H (b + 1) b = h (b + 1) b) ∧
    (∀ a b, b < k + 1 → b + 1 < a → H a b = 0) ∧ (∀ a b, k ≤ b → k < a → H a b = 0) ∧ (∀ a b, k + 1 ≤ b → a ≠ 0 → H a b = 0) := by
  intro H
  have hj := hi.j
  -- the marked matrix
  have mk : ∀ a b, (a ≠ k ∨ (k = 0 ∧ b < m) ∨ (0 < k ∧ b ≠ k - 1)) → markH wrap s c a b = s.H a b := by
    intro a b hab
    unfold markH
    cases hn : s.normed with
    | true => simp
    | false =>
      simp only [Bool.false_eq_true, if_false]
      by_cases h0 : s.j = 0
      · rw [if_pos h0]
        cases hwr : wrap with
        | none => rfl
        | some col =>
          have := hw col hwr
          simp only
          rw [if_neg (by omega)]
      · rw [if_neg h0]
        simp only
        rw [if_neg (by omega)]
  have mk2 : 0 < k → markH wrap s c k (k - 1) = h k (k - 1) := by
    intro hk0
    unfold markH
    cases hn : s.normed with
    | true => simp; exact (hi.normed hn).2.2
    | false =>
      simp only [Bool.false_eq_true, if_false]
      rw [if_neg (by omega)]
      simp only
      rw [if_pos (by omega)]
      exact hi.lag hn hk0
  refine ⟨?_, ?_, ?_, ?_, ?_⟩
  · intro a b hb hab
    simp only [H]
    rcases Nat.lt_or_ge b k with h1 | h1
    · rw [if_neg (by omega), mk a b (by omega), hi.upper a b h1 hab]
    · have : b = k := by omega
      subst this
      rw [if_pos (by omega), ht a hab]
  · intro b hb
    simp only [H]
    rw [if_neg (by omega)]
    rcases Nat.lt_or_ge (b + 1) k with h1 | h1
    · rw [mk _ _ (by omega), hi.lower b h1]
    · have e1 : b + 1 = k := by omega
      have e2 : b = k - 1 := by omega
      rw [e1, e2]; exact mk2 (by omega)
  · intro a b hb hab
    simp only [H]
    rcases Nat.lt_or_ge b k with h1 | h1
    · rw [if_neg (by omega), mk a b (by omega), hi.zero a b h1 hab]
    · have : b = k := by omega
      subst this
      rw [if_neg (by omega), mk a b (by omega), hi.frame a b le_rfl (by omega)]
  · intro a b hb hab
    simp only [H]
    rw [if_neg (by omega), mk a b (by omega), hi.frame a b (by omega) (by omega)]
  · intro a b hb ha
    simp only [H]
    rw [if_neg (by omega)]
    by_cases hak : a = k
    · rw [mk a b (by omega), hi.frame a b (by omega) ha]
    · rw [mk a b (by omega), hi.frame a b (by omega) ha]

theorem oneSync_inv (hf : Factorization B T v q h m) (co : Corr) (tol : ℝ) (mmax : Nat) (hmm : m ≤ mmax) (htol1 : tol ≤ 1)
    (hb : tol ≤ Real.sqrt (B v v)) (hs : ∀ j < m, tol ≤ h (j + 1) j) (k : Nat) (hk : k < m) (c : ℝ) (s : Mem W)
    (hi : Inv q h (Real.sqrt (B v v)) k c s) :
    ∃ s', oneSyncStep co B T tol mmax s = some s' ∧ Inv q h (Real.sqrt (B v v)) (k + 1) (h (k + 1) k) s' := by
  obtain ⟨p, p1, p2, p3, p4, p5, _, _, p7, p8, p9⟩ := lagged_eq (B := B) (q := q) co (some mmax) s s.V (T (s.V s.j)) c hi.pos
    (fun hn => (hi.normed hn).1) hi.mats k hi.j (T (q k)) (fun i hi' l hl => hf.orth i (by omega) l (by omega)) hi.rows hi.last
    (by rw [hi.j, hi.last, map_smul])
  have hnt : ¬ p.nrm < tol := by
    rw [p7]
    push Not
    cases hn : s.normed with
    | true => rw [(hi.normed hn).1]; exact htol1
    | false =>
      rcases Nat.eq_zero_or_pos k with h0 | h0
      · rw [(hi.zeroth h0).2]; exact hb
      · rw [hi.lag hn h0]
        have := hs (k - 1) (by omega)
        rwa [Nat.sub_add_cancel h0] at this
  have ht : ∀ i ≤ k, p.tmp i = h i k := fun i hi' => by rw [p5 i hi', coef hf k hk i (by omega)]
  obtain ⟨q1, q2, q3, q4, q5⟩ := newH (m := m) _ c k mmax (some mmax) (by intro x hx; cases hx; exact hmm) hk s hi p.tmp ht
  refine ⟨_, by unfold oneSyncStep; rw [p1]; rfl, ?_⟩
  simp only [if_neg hnt]
  refine { j := by simp only [hi.j], happy := hi.happy, mats := p4, rows := fun i hi' => p2 i (by omega), last := ?_,
           pos := hf.sub k hk, beta := fun _ => ?_, upper := ?_, lower := ?_, zero := ?_, frame := ?_,
           normed := fun hn => absurd hn (by simp), lag := fun _ _ => rfl, zeroth := fun h0 => absurd h0 (by omega) }
  · simp only
    rw [p3]
    exact remainder hf k hk q (fun i => B (q i) (T (q k))) (fun _ _ => rfl) (fun i hi' => coef hf k hk i (by omega))
  · simp only
    rw [p8]
    split_ifs with h0
    · exact (hi.zeroth h0).2
    · exact hi.beta (by omega)
  all_goals (simp only; rw [p9])
  · exact q1
  · exact q2
  · exact q3
  · exact q5

/-- the memory with the last row scaled back by the estimate -/
noncomputable def rescale (s : Mem W) : Mem W :=
  { s with V := setV s.V s.j ((if 0 < s.j ∧ s.normed = false then s.est else 1) • s.V s.j) }

theorem estSync_inv (hf : Factorization B T v q h m) (co : Corr) (tol : ℝ) (mp : Nat)
    (hs : ∀ j < m, tol ≤ h (j + 1) j) (k : Nat) (hkm : k < m) (hk : k < mp) (c : ℝ) (s : Mem W)
    (hi : Inv q h (Real.sqrt (B v v)) k c (rescale s)) :
    ∃ s', estSyncStep co B T tol mp s = some s' ∧ s'.normed = false ∧
      (k + 1 < mp → Inv q h (Real.sqrt (B v v)) (k + 1) (h (k + 1) k) (rescale s')) ∧
      (k + 1 = mp → Inv q h (Real.sqrt (B v v)) (k + 1) (h (k + 1) k) s') := by
  have hj : s.j = k := hi.j
  set e : ℝ := if 0 < s.j ∧ s.normed = false then s.est else 1 with he
  have hlast : e • s.V k = c • q k := by
    have := hi.last
    simp only [rescale] at this
    rw [hj, setV_self] at this
    rw [← this, he, hj]
  have hlast' : (setV s.V s.j (e • s.V s.j)) k = c • q k := by rw [hj, setV_self, hlast]
  have hrows : ∀ i < k, (setV s.V s.j (e • s.V s.j)) i = q i := hi.rows
  obtain ⟨p, p1, p2, p3, p4, p5, p6, p6', p7, p8, p9⟩ := lagged_eq (B := B) (q := q) co none s (setV s.V s.j (e • s.V s.j))
    (e • T (s.V s.j)) c hi.pos (fun hn => (hi.normed hn).1) hi.mats k hi.j (T (q k))
    (fun i hi' l hl => hf.orth i (by omega) l (by omega)) hrows hlast' (by rw [← map_smul, hj, hlast, map_smul])
  have ht : ∀ i ≤ k, p.tmp i = h i k := fun i hi' => by rw [p5 i hi', coef hf k hkm i (by omega)]
  obtain ⟨q1, q2, q3, q4, q5⟩ := newH (m := m) _ c k 0 none (by simp) hkm (rescale s) hi p.tmp ht
  have hH : markH none (rescale s) c = markH none s c := rfl
  have hj2 : (rescale s).j = s.j := rfl
  rw [hH, hj2] at q1 q2 q3 q4 q5
  have hnew : p.V (k + 1) = h (k + 1) k • q (k + 1) := by
    rw [p3]
    exact remainder hf k hkm q (fun i => B (q i) (T (q k))) (fun _ _ => rfl) (fun i hi' => coef hf k hkm i (by omega))
  have hbeta : p.beta = Real.sqrt (B v v) := by
    rw [p8]
    split_ifs with h0
    · exact (hi.zeroth h0).2
    · exact hi.beta (by omega)
  have hpos := hf.sub k hkm
  have hcur : (if p.vv < ∑ i ∈ Finset.range (s.j + 1), p.g i ^ 2 then Real.sqrt (B (p.V (s.j + 1)) (p.V (s.j + 1)))
      else Real.sqrt (p.vv - ∑ i ∈ Finset.range (s.j + 1), p.g i ^ 2)) = h (k + 1) k := by
    have hg : ∑ i ∈ Finset.range (s.j + 1), p.g i ^ 2 = ∑ i ∈ Finset.range (k + 1), h i k ^ 2 := by
      rw [hj]
      apply Finset.sum_congr rfl
      intro i hi'
      have := Finset.mem_range.1 hi'
      rw [p6 i (by omega), coef hf k hkm i (by omega)]
    rw [hg, p6', square hf k hkm, Finset.sum_range_succ _ (k + 1)]
    rw [if_neg (by nlinarith), add_sub_cancel_left]
    exact Real.sqrt_sq hpos.le
  by_cases hlt : k + 1 < mp
  · have hdef : estSyncStep co B T tol mp s = some { s with
        V := setV p.V (s.j + 1) ((h (k + 1) k)⁻¹ • p.V (s.j + 1)),
        H := fun a b => if b = s.j ∧ a < s.j + 1 then p.tmp a else markH none s c a b,
        mats := p.mats, beta := p.beta, j := s.j + 1, est := h (k + 1) k, normed := false } := by
      unfold estSyncStep
      simp only
      rw [← he, p1]
      simp only [Option.map_some, hcur]
      rw [if_pos (by omega), if_neg (by push Not; exact hs k hkm), p9]
    refine ⟨_, hdef, rfl, fun _ => ?_, fun h0 => absurd h0 (by omega)⟩
    refine { j := by simp only [rescale, hj], happy := hi.happy, mats := p4, rows := ?_, last := ?_,
             pos := hpos, beta := fun _ => hbeta, upper := q1, lower := q2, zero := q3, frame := q5,
             normed := fun hn => absurd hn (by simp [rescale]), lag := fun _ _ => rfl,
             zeroth := fun h0 => absurd h0 (by omega) }
    · intro i hi'
      simp only [rescale]
      rw [setV_lt _ _ _ _ (by omega), setV_lt _ _ _ _ (by omega)]
      exact p2 i (by omega)
    · simp only [rescale]
      rw [hj, setV_self, setV_self, if_pos ⟨by omega, trivial⟩, smul_smul, mul_inv_cancel₀ hpos.ne', one_smul, hnew]
  · have hdef : estSyncStep co B T tol mp s = some { s with
        V := p.V, H := fun a b => if b = s.j ∧ a < s.j + 1 then p.tmp a else markH none s c a b,
        mats := p.mats, beta := p.beta, j := s.j + 1, normed := false } := by
      unfold estSyncStep
      simp only
      rw [← he, p1]
      simp only [Option.map_some]
      rw [if_neg (by omega), p9]
    refine ⟨_, hdef, rfl, fun h0 => absurd h0 hlt, fun _ => ?_⟩
    exact { j := by simp only [hj], happy := hi.happy, mats := p4, rows := fun i hi' => p2 i (by omega), last := hnew,
            pos := hpos, beta := fun _ => hbeta, upper := q1, lower := q2, zero := q3, frame := q5,
            normed := fun hn => absurd hn (by simp), lag := fun _ _ => rfl,
            zeroth := fun h0 => absurd h0 (by omega) }

/-- a loop with an invariant reaches `l` vectors -/
theorem loop_to (step : Mem W → Option (Mem W)) (m' l : Nat) (hl : l ≤ m') (J : Nat → Mem W → Prop)
    (hJ : ∀ k s, J k s → s.j = k ∧ s.happy = false)
    (hstep : ∀ k < l, ∀ s, J k s → ∃ s', step s = some s' ∧ J (k + 1) s') (fuel : Nat) :
    ∀ k s, J k s → k ≤ l → l ≤ k + fuel → ∃ s', loop step m' fuel s = loop step m' (k + fuel - l) s' ∧ J l s' := by
  induction fuel with
  | zero =>
    intro k s h1 h2 h3
    have : k = l := by omega
    subst this
    exact ⟨s, by simp, h1⟩
  | succ n ih =>
    intro k s h1 h2 h3
    obtain ⟨hj, hh⟩ := hJ k s h1
    rcases Nat.lt_or_ge k l with hlt | hge
    · rw [loop, if_pos ⟨by omega, hh⟩]
      obtain ⟨s', e1, e2⟩ := hstep k hlt s h1
      obtain ⟨s'', e3, e4⟩ := ih (k + 1) s' e2 (by omega) (by omega)
      exact ⟨s'', by rw [e1]; simp only [Option.bind_some]; rw [e3]; congr 1; omega, e4⟩
    · have : k = l := by omega
      subst this
      exact ⟨s, by congr 1; omega, h1⟩

/-- a loop with an invariant ends with `m'` vectors -/
theorem loop_inv (step : Mem W → Option (Mem W)) (m' : Nat) (J : Nat → Mem W → Prop)
    (hJ : ∀ k s, J k s → s.j = k ∧ s.happy = false)
    (hstep : ∀ k < m', ∀ s, J k s → ∃ s', step s = some s' ∧ J (k + 1) s') (fuel : Nat) (k : Nat) (s : Mem W) (h1 : J k s)
    (h2 : k ≤ m') (h3 : m' ≤ k + fuel) : ∃ s', loop step m' fuel s = some s' ∧ J m' s' := by
  obtain ⟨s', e1, e2⟩ := loop_to step m' m' le_rfl J hJ hstep fuel k s h1 h2 h3
  refine ⟨s', ?_, e2⟩
  rw [e1]
  cases k + fuel - m' with
  | zero => rfl
  | succ n => rw [loop, if_neg (by have := (hJ _ _ e2).1; omega)]

/-- the normalization of the last row -/
theorem finish_inv (hf : Factorization B T v q h m) (k : Nat) (hk : k ≤ m) (hk0 : 0 < k) (c : ℝ) (s : Mem W)
    (hi : Inv q h (Real.sqrt (B v v)) k c s) (hn : s.normed = false) :
    ∃ s', finish B k s = some s' ∧ s'.normed = true ∧ Inv q h (Real.sqrt (B v v)) k 1 s' := by
  have hc := hi.lag hn hk0
  have hnrm : Real.sqrt (B (s.V k) (s.V k)) = c := by
    rw [hi.last, map_smul, map_smul, LinearMap.smul_apply, hf.orth k hk k hk, if_pos rfl, smul_eq_mul, smul_eq_mul, mul_one]
    exact Real.sqrt_mul_self hi.pos.le
  refine ⟨_, by unfold finish; rw [hi.happy]; simp only [Bool.false_eq_true, if_false, hnrm]; rw [if_neg hi.pos.ne'], rfl, ?_⟩
  refine { j := hi.j, happy := rfl, mats := hi.mats, rows := ?_, last := ?_, pos := one_pos, beta := hi.beta, upper := ?_,
           lower := ?_, zero := ?_, frame := ?_, normed := fun _ => ⟨rfl, hk0, ?_⟩, lag := fun h0 => absurd h0 (by simp),
           zeroth := fun h0 => absurd h0 (by omega) }
  · intro i hi'
    simp only
    rw [setV_lt _ _ _ _ hi', hi.rows i hi']
  · simp only
    rw [setV_self, hi.last, smul_smul, inv_mul_cancel₀ hi.pos.ne']
  · intro a b hb hab
    simp only
    rw [if_neg (by omega)]; exact hi.upper a b hb hab
  · intro b hb
    simp only
    rw [if_neg (by omega)]; exact hi.lower b hb
  · intro a b hb hab
    simp only
    rw [if_neg (by omega)]; exact hi.zero a b hb hab
  · intro a b hb ha
    simp only
    rw [if_neg (by omega)]; exact hi.frame a b hb ha
  · simp only
    rw [if_pos ⟨trivial, trivial⟩, hc]

theorem rejected_inv (be c : ℝ) (k : Nat) (s : Mem W) (hi : Inv q h be k c s) : Inv q h be k c (rejected s) := by
  have hj := hi.j
  refine { j := hi.j, happy := hi.happy, mats := hi.mats, rows := hi.rows, last := hi.last, pos := hi.pos, beta := hi.beta,
           upper := ?_, lower := ?_, zero := ?_, frame := ?_, normed := fun hn => ⟨(hi.normed hn).1, (hi.normed hn).2.1, ?_⟩,
           lag := hi.lag, zeroth := hi.zeroth }
  · intro a b hb hab
    simp only [rejected]
    rw [if_neg (by omega)]; exact hi.upper a b hb hab
  · intro b hb
    simp only [rejected]
    rw [if_neg (by omega)]; exact hi.lower b hb
  · intro a b hb hab
    simp only [rejected]
    rw [if_neg (by omega)]; exact hi.zero a b hb hab
  · intro a b hb ha
    simp only [rejected]
    rw [if_neg (by omega)]; exact hi.frame a b hb ha
  · have := (hi.normed hn).2
    simp only [rejected]
    rw [if_neg (by omega)]; exact this.2

theorem start_inv (hf : Factorization B T v q h m) (s : Mem W) (hm : s.mats = Mats.init) :
    Inv q h (Real.sqrt (B v v)) 0 (Real.sqrt (B v v)) (start v s) := by
  refine { j := rfl, happy := rfl, mats := hm, rows := fun i hi => absurd hi (by omega), last := ?_,
           pos := Real.sqrt_pos.2 hf.nonzero, beta := fun h0 => absurd h0 (by omega), upper := fun a b hb => absurd hb (by omega),
           lower := fun b hb => absurd hb (by omega), zero := fun a b hb => absurd hb (by omega), frame := fun _ _ _ _ => rfl,
           normed := fun hn => absurd hn (by simp [start]), lag := fun _ h0 => absurd h0 (by omega), zeroth := fun _ => ⟨rfl, rfl⟩ }
  simp only [start]
  rw [setV_self]
  exact hf.first

/-- between two passes: at the start, or with a normalized last row -/
def Ready (q : Nat → W) (h : Nat → Nat → ℝ) (be : ℝ) (k : Nat) (s : Mem W) : Prop :=
  ∃ c, Inv q h be k c s ∧ (k = 0 ∨ s.normed = true)

theorem oneSync_pass (hf : Factorization B T v q h m) (co : Corr) (tol : ℝ) (mmax : Nat) (hmm : m ≤ mmax) (htol1 : tol ≤ 1)
    (hb : tol ≤ Real.sqrt (B v v)) (hs : ∀ j < m, tol ≤ h (j + 1) j) (k m' : Nat) (hk : k < m') (hm' : m' ≤ m) (s : Mem W)
    (hr : Ready q h (Real.sqrt (B v v)) k s) :
    ∃ s', pass (fun _ => oneSyncStep co B T tol mmax) B m' s = some s' ∧ s'.normed = true ∧
      Inv q h (Real.sqrt (B v v)) m' 1 s' := by
  obtain ⟨c, hi, _⟩ := hr
  have hi0 : Inv q h (Real.sqrt (B v v)) k c { s with est := 0 } := { hi with }
  obtain ⟨s1, e1, c1, i1, n1⟩ := loop_inv (oneSyncStep co B T tol mmax) m'
    (fun l t => ∃ c, Inv q h (Real.sqrt (B v v)) l c t ∧ (l = k ∨ t.normed = false))
    (fun l t ht => ⟨ht.choose_spec.1.j, ht.choose_spec.1.happy⟩)
    (fun l hl t ht => by
      obtain ⟨c', i', _⟩ := ht
      obtain ⟨t', e, i''⟩ := oneSync_inv hf co tol mmax hmm htol1 hb hs l (by omega) c' t i'
      refine ⟨t', e, _, i'', Or.inr ?_⟩
      by_contra hne
      have hne' : t'.normed = true := by cases hx : t'.normed <;> simp_all
      unfold oneSyncStep at e
      rw [Option.map_eq_some_iff] at e
      obtain ⟨p, _, e⟩ := e
      have hh := i''.happy
      by_cases hp : p.nrm < tol
      · simp only [if_pos hp] at e; rw [← e] at hh; simp at hh
      · simp only [if_neg hp] at e; rw [← e] at hne'; simp at hne')
    m' k { s with est := 0 } ⟨c, hi0, Or.inl rfl⟩ hk.le (by omega)
  have hn : s1.normed = false := by rcases n1 with h0 | h0; omega; exact h0
  obtain ⟨s2, f1, f2, f3⟩ := finish_inv hf m' hm' (by omega) c1 s1 i1 hn
  exact ⟨s2, by unfold pass; rw [e1]; exact f1, f2, f3⟩

theorem estSync_pass (hf : Factorization B T v q h m) (co : Corr) (tol : ℝ)
    (hs : ∀ j < m, tol ≤ h (j + 1) j) (k m' : Nat) (hk : k < m') (hm' : m' ≤ m) (s : Mem W)
    (hr : Ready q h (Real.sqrt (B v v)) k s) :
    ∃ s', pass (estSyncStep co B T tol) B m' s = some s' ∧ s'.normed = true ∧
      Inv q h (Real.sqrt (B v v)) m' 1 s' := by
  obtain ⟨c, hi, hz⟩ := hr
  have hi0 : Inv q h (Real.sqrt (B v v)) k c (rescale { s with est := 0 }) := by
    have e : rescale { s with est := (0 : ℝ) } = { s with est := 0 } := by
      unfold rescale
      simp only
      rw [if_neg (by rintro ⟨h1, h2⟩; rcases hz with h3 | h3; · rw [hi.j] at h1; omega
                     · rw [h3] at h2; exact absurd h2 (by simp)), one_smul]
      congr 1
      funext x
      unfold setV
      split_ifs with hx
      · rw [hx]
      · rfl
    rw [e]
    exact { hi with }
  obtain ⟨s1, e1, _, _, i1⟩ := loop_inv (estSyncStep co B T tol m') m'
    (fun l t => (t.j = l ∧ t.happy = false) ∧ (l < m' → ∃ c, Inv q h (Real.sqrt (B v v)) l c (rescale t)) ∧
      (l = m' → t.normed = false ∧ ∃ c, Inv q h (Real.sqrt (B v v)) l c t))
    (fun l t ht => ht.1)
    (fun l hl t ht => by
      obtain ⟨_, i', _⟩ := ht
      obtain ⟨c', i'⟩ := i' hl
      obtain ⟨t', e, n', i1, i2⟩ := estSync_inv hf co tol m' hs l (by omega) hl c' t i'
      rcases Nat.lt_or_ge (l + 1) m' with h1 | h1
      · exact ⟨t', e, ⟨(i1 h1).j, (i1 h1).happy⟩, fun _ => ⟨_, i1 h1⟩, fun h2 => absurd h2 (by omega)⟩
      · have h2 : l + 1 = m' := by omega
        exact ⟨t', e, ⟨(i2 h2).j, (i2 h2).happy⟩, fun h3 => absurd h3 (by omega), fun _ => ⟨n', _, i2 h2⟩⟩)
    m' k { s with est := 0 } ⟨⟨hi.j, hi.happy⟩, fun _ => ⟨c, hi0⟩, fun h0 => absurd h0 (by omega)⟩ hk.le (by omega)
  obtain ⟨hn, c1, i1⟩ := i1 rfl
  obtain ⟨s2, f1, f2, f3⟩ := finish_inv hf m' hm' (by omega) c1 s1 i1 hn
  exact ⟨s2, by unfold pass; rw [e1]; exact f1, f2, f3⟩

/-- a succession of increasing sizes -/
theorem sizes_inv (P : Nat → Mem W → Option (Mem W)) (be : ℝ)
    (hP : ∀ k m' s, k < m' → m' ≤ m → Ready q h be k s → ∃ s', P m' s = some s' ∧ s'.normed = true ∧ Inv q h be m' 1 s') :
    ∀ (ms : List Nat) (k : Nat) (s : Mem W), (k :: ms).Pairwise (· < ·) → ms.getLast? = some m → Ready q h be k s →
      ∃ s', sizes P ms s = some s' ∧ s'.normed = true ∧ Inv q h be m 1 s' := by
  intro ms
  induction ms with
  | nil => intro k s _ h2; simp at h2
  | cons m1 ms ih =>
    intro k s h1 h2 h3
    have hlt : k < m1 := by
      rw [List.pairwise_cons] at h1
      exact h1.1 m1 (by simp)
    cases ms with
    | nil =>
      simp at h2
      subst h2
      exact hP k m1 s hlt le_rfl h3
    | cons m2 ms =>
      have h2' : (m2 :: ms).getLast? = some m := by
        rw [List.getLast?_cons_cons] at h2; exact h2
      have hmem : m ∈ m2 :: ms := List.mem_of_getLast? h2'
      have hle : m1 ≤ m := by
        rw [List.pairwise_cons, List.pairwise_cons] at h1
        exact (h1.2.1 m hmem).le
      obtain ⟨s', e1, e2, e3⟩ := hP k m1 s hlt hle h3
      have h1' : (m1 :: m2 :: ms).Pairwise (· < ·) := (List.pairwise_cons.1 h1).2
      obtain ⟨s'', f1, f2⟩ := ih m1 (rejected s') h1' h2' ⟨1, rejected_inv be 1 m1 s' e3, Or.inr e2⟩
      exact ⟨s'', by rw [sizes, e1]; exact f1, f2⟩

/-! ## Immediate normalization -/

/-- after `k` vectors: the rows up to `k` are the basis and the matrix holds the columns before `k` -/
structure InvN (q : Nat → W) (h : Nat → Nat → ℝ) (be : ℝ) (k : Nat) (s : Mem W) : Prop where
  j : s.j = k
  happy : s.happy = false
  mats : s.mats = Mats.init
  rows : ∀ i ≤ k, s.V i = q i
  beta : s.beta = be
  cols : ∀ a b, b < k → a ≤ b + 1 → s.H a b = h a b
  zero : ∀ a b, b < k → b + 1 < a → s.H a b = 0
  frame : ∀ a b, k ≤ b → s.H a b = 0

/-- Pythagoras for the projection on orthonormal rows -/
theorem pythagoras (hB : IsInner B) (V : Nat → W) (n : Nat) (ho : ∀ i < n, ∀ k < n, B (V i) (V k) = if i = k then 1 else 0) (x : W) :
    B (x - ∑ i ∈ Finset.range n, B (V i) x • V i) (x - ∑ i ∈ Finset.range n, B (V i) x • V i) =
      B x x - ∑ i ∈ Finset.range n, B (V i) x ^ 2 := by
  have e1 : B (∑ i ∈ Finset.range n, B (V i) x • V i) x = ∑ i ∈ Finset.range n, B (V i) x ^ 2 := by
    rw [map_sum, LinearMap.sum_apply]
    apply Finset.sum_congr rfl
    intro i _
    rw [map_smul, LinearMap.smul_apply, smul_eq_mul]; ring
  have e2 : B (∑ i ∈ Finset.range n, B (V i) x • V i) (∑ i ∈ Finset.range n, B (V i) x • V i) =
      ∑ i ∈ Finset.range n, B (V i) x ^ 2 := by
    conv_lhs => rw [show B (∑ i ∈ Finset.range n, B (V i) x • V i) = ∑ i ∈ Finset.range n, B (B (V i) x • V i) from map_sum B _ _]
    rw [LinearMap.sum_apply]
    apply Finset.sum_congr rfl
    intro i hi
    rw [map_smul, LinearMap.smul_apply, map_sum, Finset.sum_eq_single i]
    · rw [map_smul, ho i (Finset.mem_range.1 hi) i (Finset.mem_range.1 hi), if_pos rfl, smul_eq_mul, smul_eq_mul]; ring
    · intro l hl hne
      rw [map_smul, ho i (Finset.mem_range.1 hi) l (Finset.mem_range.1 hl), if_neg (Ne.symm hne), smul_zero]
    · intro hn; exact absurd hi hn
  have e3 : B x (∑ i ∈ Finset.range n, B (V i) x • V i) = ∑ i ∈ Finset.range n, B (V i) x ^ 2 := by rw [hB.symm, e1]
  rw [map_sub, map_sub, LinearMap.sub_apply, LinearMap.sub_apply, e1, e2, e3]
  ring

theorem inner_nonneg (hB : IsInner B) (x : W) : 0 ≤ B x x := by
  by_cases h0 : x = 0
  · rw [h0]; simp
  · exact (hB.pos x h0).le

/-- one vector, in general: the coefficients are the products, the norm is the norm of what remains -/
theorem normEst_eq (hB : IsInner B) (co : Corr) (tol : ℝ) (k : Nat) (be : ℝ) (s : Mem W)
    (horth : ∀ i ≤ k, ∀ l ≤ k, B (q i) (q l) = if i = l then 1 else 0) (hi : InvN q h be k s) (x : W)
    (hx : x = T (q k) - ∑ i ∈ Finset.range (k + 1), B (q i) (T (q k)) • q i) :
    ∃ tmp : Nat → ℝ, (∀ i ≤ k, tmp i = B (q i) (T (q k))) ∧ normEstStep co B T tol s =
      if Real.sqrt (B x x) < tol then some { s with V := setV s.V (k + 1) x, j := k + 1, happy := true }
      else some { s with
        V := setV s.V (k + 1) ((Real.sqrt (B x x))⁻¹ • x), j := k + 1,
        H := fun a b => if b = k ∧ a < k + 1 then tmp a else if a = k + 1 ∧ b = k then Real.sqrt (B x x) else s.H a b } := by
  have hj := hi.j
  have hVk : s.V k = q k := hi.rows k le_rfl
  have hr : ∀ i, i < k + 1 - 1 → B (s.V i) (s.V k) = 0 := by
    intro i hi'
    rw [hi.rows i (by omega), hVk, horth i (by omega) k le_rfl, if_neg (by omega)]
  obtain ⟨c1, c2⟩ := correct_init co (k + 1) (fun i => B (s.V i) (s.V k)) (fun i => B (s.V i) (T (s.V k))) hr
  set p := correct co Mats.init (k + 1) (fun i => B (s.V i) (s.V k)) (fun i => B (s.V i) (T (s.V k))) with hp
  have hsum : ∑ i ∈ Finset.range (k + 1), p.2 i • s.V i = ∑ i ∈ Finset.range (k + 1), B (q i) (T (q k)) • q i := by
    apply Finset.sum_congr rfl
    intro i hi'
    have := Finset.mem_range.1 hi'
    rw [c2 i this, hi.rows i (by omega), hVk]
  have hsq : ∑ i ∈ Finset.range (k + 1), B (s.V i) (T (s.V k)) ^ 2 = ∑ i ∈ Finset.range (k + 1), B (q i) (T (q k)) ^ 2 := by
    apply Finset.sum_congr rfl
    intro i hi'
    have := Finset.mem_range.1 hi'
    rw [hi.rows i (by omega), hVk]
  have hpy := pythagoras hB q (k + 1) (fun i hi' l hl => horth i (by omega) l (by omega)) (T (q k))
  rw [← hx] at hpy
  have hnn := inner_nonneg hB x
  refine ⟨p.2, fun i hi' => by rw [c2 i (by omega), hi.rows i hi', hVk], ?_⟩
  unfold normEstStep
  simp only [hj, hi.mats]
  have hlt : ¬ B (T (q k)) (T (q k)) < ∑ i ∈ Finset.range (k + 1), B (q i) (T (q k)) ^ 2 := by linarith
  rw [← hp, hsum, hsq, hVk, ← hx, c1]
  simp only [hlt, false_and, if_false, ← hpy]

theorem normEst_inv (hB : IsInner B) (hf : Factorization B T v q h m) (co : Corr) (tol : ℝ)
    (hs : ∀ j < m, tol ≤ h (j + 1) j) (k : Nat) (hk : k < m) (s : Mem W) (be : ℝ) (hi : InvN q h be k s) :
    ∃ s', normEstStep co B T tol s = some s' ∧ InvN q h be (k + 1) s' := by
  have hj := hi.j
  have hrem : T (q k) - ∑ i ∈ Finset.range (k + 1), B (q i) (T (q k)) • q i = h (k + 1) k • q (k + 1) :=
    remainder hf k hk q (fun i => B (q i) (T (q k))) (fun _ _ => rfl) (fun i hi' => coef hf k hk i (by omega))
  have hpos := hf.sub k hk
  have hnrm : Real.sqrt (B (h (k + 1) k • q (k + 1)) (h (k + 1) k • q (k + 1))) = h (k + 1) k := by
    rw [map_smul, map_smul, LinearMap.smul_apply, hf.orth _ (by omega) _ (by omega), if_pos rfl, smul_eq_mul, smul_eq_mul, mul_one]
    exact Real.sqrt_mul_self hpos.le
  obtain ⟨tmp, t1, t2⟩ := normEst_eq hB co tol k be s (fun i hi' l hl => hf.orth i (by omega) l (by omega)) hi _ hrem.symm
  rw [hnrm, if_neg (by push Not; exact hs k hk)] at t2
  refine ⟨_, t2, ?_⟩
  refine { j := rfl, happy := hi.happy, mats := hi.mats, rows := ?_, beta := hi.beta, cols := ?_, zero := ?_, frame := ?_ }
  · intro i hi'
    simp only
    rcases Nat.lt_or_ge i (k + 1) with h1 | h1
    · rw [setV_lt _ _ _ _ h1, hi.rows i (by omega)]
    · have : i = k + 1 := by omega
      subst this
      rw [setV_self, smul_smul, inv_mul_cancel₀ hpos.ne', one_smul]
  · intro a b hb hab
    simp only
    rcases Nat.lt_or_ge b k with h1 | h1
    · rw [if_neg (by omega), if_neg (by omega), hi.cols a b h1 hab]
    · have : b = k := by omega
      subst this
      rcases Nat.lt_or_ge a (b + 1) with h2 | h2
      · rw [if_pos ⟨rfl, h2⟩, t1 a (by omega), coef hf b hk a (by omega)]
      · have : a = b + 1 := by omega
        subst this
        rw [if_neg (by omega), if_pos ⟨rfl, rfl⟩]
  · intro a b hb hab
    simp only
    rw [if_neg (by omega), if_neg (by omega)]
    rcases Nat.lt_or_ge b k with h1 | h1
    · exact hi.zero a b h1 hab
    · exact hi.frame a b h1
  · intro a b hb
    simp only
    rw [if_neg (by omega), if_neg (by omega)]
    exact hi.frame a b (by omega)

theorem startNormed_inv (hf : Factorization B T v q h m) (s : Mem W) (hm : s.mats = Mats.init) :
    InvN q h (Real.sqrt (B v v)) 0 (startNormed B v s) := by
  have hp := Real.sqrt_pos.2 hf.nonzero
  refine { j := rfl, happy := rfl, mats := hm, rows := ?_, beta := rfl, cols := fun a b hb => absurd hb (by omega),
           zero := fun a b hb => absurd hb (by omega), frame := fun _ _ _ => rfl }
  intro i hi
  have : i = 0 := by omega
  subst this
  simp only [startNormed]
  rw [setV_self]
  exact (congrArg (fun y => (Real.sqrt (B v v))⁻¹ • y) hf.first).trans
    (by rw [smul_smul, inv_mul_cancel₀ hp.ne', one_smul])

theorem rejected_invN (be : ℝ) (k : Nat) (s : Mem W) (hi : InvN q h be k s) : InvN q h be k (rejected s) := by
  have hj := hi.j
  refine { j := hi.j, happy := hi.happy, mats := hi.mats, rows := hi.rows, beta := hi.beta, cols := ?_, zero := ?_, frame := ?_ }
  · intro a b hb hab
    simp only [rejected]
    rw [if_neg (by omega)]; exact hi.cols a b hb hab
  · intro a b hb hab
    simp only [rejected]
    rw [if_neg (by omega)]; exact hi.zero a b hb hab
  · intro a b hb
    simp only [rejected]
    split_ifs
    · rfl
    · exact hi.frame a b hb

theorem sizes_invN (P : Nat → Mem W → Option (Mem W)) (be : ℝ)
    (hP : ∀ k m' s, k < m' → m' ≤ m → InvN q h be k s → ∃ s', P m' s = some s' ∧ InvN q h be m' s') :
    ∀ (ms : List Nat) (k : Nat) (s : Mem W), (k :: ms).Pairwise (· < ·) → ms.getLast? = some m → InvN q h be k s →
      ∃ s', sizes P ms s = some s' ∧ InvN q h be m s' := by
  intro ms
  induction ms with
  | nil => intro k s _ h2; simp at h2
  | cons m1 ms ih =>
    intro k s h1 h2 h3
    have hlt : k < m1 := by
      rw [List.pairwise_cons] at h1
      exact h1.1 m1 (by simp)
    cases ms with
    | nil =>
      simp at h2
      subst h2
      exact hP k m1 s hlt le_rfl h3
    | cons m2 ms =>
      have h2' : (m2 :: ms).getLast? = some m := by
        rw [List.getLast?_cons_cons] at h2; exact h2
      have hmem : m ∈ m2 :: ms := List.mem_of_getLast? h2'
      have hle : m1 ≤ m := by
        rw [List.pairwise_cons, List.pairwise_cons] at h1
        exact (h1.2.1 m hmem).le
      obtain ⟨s', e1, e3⟩ := hP k m1 s hlt hle h3
      have h1' : (m1 :: m2 :: ms).Pairwise (· < ·) := (List.pairwise_cons.1 h1).2
      obtain ⟨s'', f1, f2⟩ := ih m1 (rejected s') h1' h2' (rejected_invN be m1 s' e3)
      exact ⟨s'', by rw [sizes, e1]; exact f1, f2⟩

/-! ## Breakdown of the estimated norm with delayed normalization -/

/-- the step at which the Krylov space is invariant, when it is not the last one of the pass -/
theorem estSync_breakdown (co : Corr) (tol : ℝ) (htol : 0 < tol) (mp k : Nat) (hk : k + 1 < mp) (be c : ℝ) (s : Mem W)
    (horth : ∀ i ≤ k, ∀ l ≤ k, B (q i) (q l) = if i = l then 1 else 0) (g : Nat → ℝ)
    (hinv : T (q k) = ∑ i ∈ Finset.range (k + 1), g i • q i) (hi : Inv q h be k c (rescale s)) :
    ∃ s', estSyncStep co B T tol mp s = some s' ∧ s'.happy = true ∧ s'.j = k + 1 ∧ s'.beta = be ∧ (∀ i ≤ k, s'.V i = q i) ∧
      (∀ a b, b < k → a ≤ b + 1 → s'.H a b = h a b) ∧ (∀ a ≤ k, s'.H a k = g a) ∧ (∀ a b, b ≤ k → b + 1 < a → s'.H a b = 0) := by
  have hj : s.j = k := hi.j
  set e : ℝ := if 0 < s.j ∧ s.normed = false then s.est else 1 with he
  have hlast : e • s.V k = c • q k := by
    have := hi.last
    simp only [rescale] at this
    rw [hj, setV_self] at this
    rw [← this, he, hj]
  have hlast' : (setV s.V s.j (e • s.V s.j)) k = c • q k := by rw [hj, setV_self, hlast]
  have hrows : ∀ i < k, (setV s.V s.j (e • s.V s.j)) i = q i := hi.rows
  obtain ⟨p, p1, p2, p3, p4, p5, p6, p6', p7, p8, p9⟩ := lagged_eq (B := B) (q := q) co none s (setV s.V s.j (e • s.V s.j))
    (e • T (s.V s.j)) c hi.pos (fun hn => (hi.normed hn).1) hi.mats k hi.j (T (q k)) horth hrows hlast'
    (by rw [← map_smul, hj, hlast, map_smul])
  have hg : ∀ i ≤ k, B (q i) (T (q k)) = g i := by
    intro i hi'
    rw [hinv, map_sum, Finset.sum_eq_single i]
    · rw [map_smul, horth i hi' i hi', if_pos rfl]; simp
    · intro l hl hne
      have := Finset.mem_range.1 hl
      rw [map_smul, horth i hi' l (by omega), if_neg (Ne.symm hne), smul_zero]
    · intro hn; exact absurd (Finset.mem_range.2 (by omega)) hn
  have hzero : p.V (k + 1) = 0 := by
    rw [p3]
    conv_lhs => rw [hinv]
    rw [← hinv, sub_eq_zero, hinv]
    apply Finset.sum_congr rfl
    intro i hi'
    rw [← hinv, hg i (by have := Finset.mem_range.1 hi'; omega)]
  have hvv : p.vv = ∑ i ∈ Finset.range (s.j + 1), p.g i ^ 2 := by
    rw [p6', hj]
    conv_lhs => rw [show B (T (q k)) = B (∑ i ∈ Finset.range (k + 1), g i • q i) from by rw [← hinv]]
    rw [map_sum, LinearMap.sum_apply]
    apply Finset.sum_congr rfl
    intro i hi'
    have := Finset.mem_range.1 hi'
    rw [map_smul, LinearMap.smul_apply, hg i (by omega), p6 i (by omega), hg i (by omega), smul_eq_mul]
    ring
  have ht : ∀ i ≤ k, p.tmp i = g i := fun i hi' => by rw [p5 i hi', hg i hi']
  obtain ⟨q1, q2, q3, q4, q5⟩ := newH (h := fun a b => if b = k then g a else h a b) (m := mp) be c k 0 none (by simp) (by omega)
    (rescale s)
    { hi with
      upper := fun a b hb hab => by rw [hi.upper a b hb hab, if_neg (by omega)]
      lower := fun b hb => by rw [hi.lower b hb, if_neg (by omega)]
      normed := fun hn => ⟨(hi.normed hn).1, (hi.normed hn).2.1, by
        have := (hi.normed hn).2.1
        rw [(hi.normed hn).2.2, if_neg (by omega)]⟩
      lag := fun hn h0 => by rw [hi.lag hn h0, if_neg (by omega)] }
    p.tmp (fun i hi' => by rw [ht i hi', if_pos rfl])
  have hdef : estSyncStep co B T tol mp s = some { s with
        V := p.V,
        H := fun a b => if b = s.j ∧ a < s.j + 1 then p.tmp a else markH none s c a b,
        mats := p.mats, beta := p.beta, j := s.j + 1, happy := true } := by
    unfold estSyncStep
    simp only
    rw [← he, p1]
    simp only [Option.map_some, hvv, lt_irrefl, if_false, sub_self, Real.sqrt_zero]
    rw [if_pos (by omega), if_pos htol, p9]
  have hH : markH none (rescale s) c = markH none s c := rfl
  have hj2 : (rescale s).j = s.j := rfl
  rw [hH, hj2] at q1 q2 q3 q4 q5
  refine ⟨_, hdef, rfl, by simp only [hj], ?_, p2, ?_, ?_, ?_⟩
  · simp only
    rw [p8]
    split_ifs with h0
    · exact (hi.zeroth h0).2
    · exact hi.beta (by omega)
  · intro a b hb hab
    rcases Nat.lt_or_ge a (b + 1) with h1 | h1
    · have := q1 a b (by omega) (by omega)
      simp only at this ⊢
      rw [this, if_neg (by omega)]
    · have e1 : a = b + 1 := by omega
      subst e1
      have := q2 b (by omega)
      simp only at this ⊢
      rw [this, if_neg (by omega)]
  · intro a ha
    have := q1 a k (by omega) ha
    simp only at this ⊢
    rw [this, if_pos trivial]
  · intro a b hb hab
    exact q3 a b (by omega) hab

end

end WxVerif.Krylov.LowSync
