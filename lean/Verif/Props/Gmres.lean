import Verif.Model.Gmres
import Verif.Props.Pmex
import Mathlib.Algebra.Order.Chebyshev

/-!
# FGMRES (C33)
-/

namespace WxVerif.Props.Gmres

open WxVerif.Gmres
open WxVerif.Props.Pmex (OrthoTo)

/-! ## The rotations -/

/-- **C33**: `rotg` returns a rotation (`c² + s² = 1`) that maps `(a, b)` to `(r, 0)` with `r² = a² + b²`. -/
theorem C33_rotg (a b : ℝ) :
    (rotg a b).1 ^ 2 + (rotg a b).2.1 ^ 2 = 1 ∧
    (rotg a b).1 * a + (rotg a b).2.1 * b = (rotg a b).2.2 ∧
    -(rotg a b).2.1 * a + (rotg a b).1 * b = 0 ∧
    (rotg a b).2.2 ^ 2 = a ^ 2 + b ^ 2 := by
  unfold rotg
  by_cases hb : |b| = 0
  · rw [if_pos hb]
    have : b = 0 := abs_eq_zero.1 hb
    subst this; simp
  · rw [if_neg hb]
    by_cases ha : |a| = 0
    · rw [if_pos ha]
      have : a = 0 := abs_eq_zero.1 ha
      subst this; simp
    · rw [if_neg ha]
      simp only
      have ha' : a ≠ 0 := fun h => ha (by rw [h, abs_zero])
      have hb' : b ≠ 0 := fun h => hb (by rw [h, abs_zero])
      set scl := min |a| |b| with hs
      have hscl : 0 < scl := lt_min (abs_pos.2 ha') (abs_pos.2 hb')
      set sg : ℝ := if |a| > |b| then (if 0 ≤ a then 1 else -1) else (if 0 ≤ b then 1 else -1) with hsg
      have hsg2 : sg ^ 2 = 1 := by rw [hsg]; split_ifs <;> norm_num
      set r := sg * (scl * Real.sqrt ((a / scl) ^ 2 + (b / scl) ^ 2)) with hr
      have hr2 : r ^ 2 = a ^ 2 + b ^ 2 := by
        rw [hr, mul_pow, hsg2, one_mul, mul_pow, Real.sq_sqrt (by positivity)]
        field_simp
      have hpos : 0 < a ^ 2 + b ^ 2 := by positivity
      have hr0 : r ≠ 0 := by
        intro h
        rw [h] at hr2
        norm_num at hr2
        linarith
      refine ⟨?_, ?_, ?_, hr2⟩
      · rw [div_pow, div_pow, ← add_div, hr2, div_self hpos.ne']
      · field_simp; linear_combination -hr2
      · field_simp; ring

example : rotg 0 4 = (0, 1, 4) ∧ rotg 3 0 = (1, 0, 3) := by
  constructor <;> · unfold rotg; norm_num

/-! ## The least-squares problem -/

theorem rot_sq (n j : Nat) (cs : ℝ × ℝ) (h : cs.1 ^ 2 + cs.2 ^ 2 = 1) (hj : j + 1 < n) (f : Nat → ℝ) :
    ∑ l ∈ Finset.range n, rot j cs f l ^ 2 = ∑ l ∈ Finset.range n, f l ^ 2 := by
  have e : ∀ F : Nat → ℝ, ∑ l ∈ Finset.range n, F l =
      F j + F (j + 1) + ∑ l ∈ ((Finset.range n).erase j).erase (j + 1), F l := by
    intro F
    rw [← Finset.add_sum_erase _ _ (Finset.mem_range.2 (show j < n by omega)),
      ← Finset.add_sum_erase _ F (Finset.mem_erase.2 ⟨by omega, Finset.mem_range.2 hj⟩)]
    ring
  rw [e, e (fun l => f l ^ 2)]
  congr 1
  · simp only [rot, if_true]
    rw [if_neg (by omega)]
    linear_combination (f j ^ 2 + f (j + 1) ^ 2) * h
  · apply Finset.sum_congr rfl
    intro l hl
    simp only [Finset.mem_erase] at hl
    simp [rot, hl.1, hl.2.1]

theorem rotAll_append (Q : List (ℝ × ℝ)) (cs : ℝ × ℝ) (f : Nat → ℝ) :
    rotAll (Q ++ [cs]) f = rot Q.length cs (rotAll Q f) := by
  unfold rotAll
  rw [List.zipIdx_append, List.foldl_append]
  simp

theorem rotAll_sq (n : Nat) (Q : List (ℝ × ℝ)) (h : ∀ q ∈ Q, q.1 ^ 2 + q.2 ^ 2 = 1) (hn : Q.length < n) (f : Nat → ℝ) :
    ∑ l ∈ Finset.range n, rotAll Q f l ^ 2 = ∑ l ∈ Finset.range n, f l ^ 2 := by
  induction Q using List.reverseRecOn with
  | nil => rfl
  | append_singleton Q cs ih =>
    rw [rotAll_append, rot_sq n _ cs (h cs (by simp)) (by simpa using hn)]
    exact ih (fun q hq => h q (by simp [hq])) (by simp at hn; omega)

theorem rot_lin (j : Nat) (cs : ℝ × ℝ) (n : Nat) (f : Nat → ℝ) (h : Nat → Nat → ℝ) (y : Nat → ℝ) :
    rot j cs (fun l => f l - ∑ k ∈ Finset.range n, h k l * y k) =
      fun l => rot j cs f l - ∑ k ∈ Finset.range n, rot j cs (h k) l * y k := by
  funext l
  simp only [rot]
  split_ifs
  · simp only [add_mul, Finset.sum_add_distrib, mul_assoc, ← Finset.mul_sum]; ring
  · simp only [add_mul, Finset.sum_add_distrib, mul_assoc, ← Finset.mul_sum]; ring
  · rfl

theorem rotAll_lin (Q : List (ℝ × ℝ)) (n : Nat) (f : Nat → ℝ) (h : Nat → Nat → ℝ) (y : Nat → ℝ) :
    rotAll Q (fun l => f l - ∑ k ∈ Finset.range n, h k l * y k) =
      fun l => rotAll Q f l - ∑ k ∈ Finset.range n, rotAll Q (h k) l * y k := by
  induction Q using List.reverseRecOn with
  | nil => rfl
  | append_singleton Q cs ih =>
    rw [rotAll_append, ih, rot_lin]
    simp only [rotAll_append]

/-- rotations of entries up to `Q.length` do not touch the entries after that -/
theorem rotAll_tail (Q : List (ℝ × ℝ)) (f : Nat → ℝ) (l : Nat) (hl : Q.length < l) : rotAll Q f l = f l := by
  induction Q using List.reverseRecOn with
  | nil => rfl
  | append_singleton Q cs ih =>
    simp only [List.length_append, List.length_singleton] at hl
    rw [rotAll_append]
    simp only [rot]
    rw [if_neg (by omega), if_neg (by omega), ih (by omega)]

theorem rot_zero (j : Nat) (cs : ℝ × ℝ) (f : Nat → ℝ) (h1 : f j = 0) (h2 : f (j + 1) = 0) : rot j cs f = f := by
  funext l
  simp only [rot, h1, h2]
  split_ifs with a b
  · subst a; simp [h1]
  · subst b; simp [h2]
  · rfl

/-- what holds of the small problem after `n` columns `h 0, …, h (n-1)` and right-hand side `beta e_0` -/
structure Least (beta : ℝ) (n : Nat) (h : Nat → Nat → ℝ) (t : Small) : Prop where
  rots : ∀ q ∈ t.Q, q.1 ^ 2 + q.2 ^ 2 = 1
  lenC : t.cols.length = n
  col : ∀ k < n, rotAll t.Q (h k) = t.cols.getD k fun _ => 0
  tri : ∀ k < n, ∀ l, k < l → (t.cols.getD k fun _ => 0) l = 0
  rhs : rotAll t.Q (fun l => if l = 0 then beta else 0) = t.g

theorem givens_spec (beta : ℝ) (n : Nat) (h : Nat → Nat → ℝ) (t : Small) (ht : Least beta n h t) (hQ : t.Q.length = n)
    (hess : ∀ l, n + 1 < l → h n l = 0) :
    Least beta (n + 1) h (givens n (h n) t) ∧ (givens n (h n) t).Q.length ≤ n + 1 ∧
    ((givens n (h n) t).Q.length = n + 1 ∨ (h n (n + 1) = 0 ∧ (givens n (h n) t).g (n + 1) = 0)) ∧
    (h n (n + 1) = 0 → (givens n (h n) t).g (n + 1) = 0) := by
  have hget : ∀ (c : Nat → ℝ) k, k < n + 1 → (t.cols ++ [c]).getD k (fun _ => 0) =
      if k = n then c else t.cols.getD k fun _ => 0 := by
    intro c k hk
    split_ifs with hkn
    · subst hkn
      rw [List.getD_eq_getElem?_getD, List.getElem?_append_right (by rw [ht.lenC]), ht.lenC]
      simp
    · rw [List.getD_eq_getElem?_getD, List.getElem?_append_left (by rw [ht.lenC]; omega), List.getD_eq_getElem?_getD]
  have htop : rotAll t.Q (h n) (n + 1) = h n (n + 1) := rotAll_tail _ _ _ (by omega)
  have hg0 : t.g (n + 1) = 0 := by
    rw [← ht.rhs, rotAll_tail _ _ _ (by omega), if_neg (by omega)]
  unfold givens
  simp only
  by_cases hz : rotAll t.Q (h n) (n + 1) ≠ 0
  · rw [if_pos hz]
    set x := rotAll t.Q (h n) with hx
    obtain ⟨r1, r2, r3, r4⟩ := C33_rotg (x n) (x (n + 1))
    refine ⟨⟨?_, ?_, ?_, ?_, ?_⟩, ?_, ?_, ?_⟩
    · intro q hq
      rcases List.mem_append.1 hq with h1 | h1
      · exact ht.rots q h1
      · rw [List.mem_singleton.1 h1]; exact r1
    · simp [ht.lenC]
    · intro k hk
      simp only
      rw [rotAll_append, hQ, hget _ k hk]
      split_ifs with hkn
      · subst hkn
        funext l
        simp only [rot, upd, ← hx]
        by_cases h1 : l = k + 1
        · subst h1
          rw [if_neg (by omega), if_pos rfl, if_pos rfl]; exact r3
        · rw [if_neg h1, if_neg h1]
      · rw [ht.col k (by omega)]
        apply rot_zero
        · exact ht.tri k (by omega) _ (by omega)
        · exact ht.tri k (by omega) _ (by omega)
    · intro k hk l hl
      simp only
      rw [hget _ k hk]
      split_ifs with hkn
      · subst hkn
        simp only [upd]
        by_cases h1 : l = k + 1
        · rw [if_pos h1]
        · rw [if_neg h1, if_neg (by omega), hx, rotAll_tail _ _ _ (by omega)]
          exact hess l (by omega)
      · exact ht.tri k (by omega) l hl
    · simp only
      rw [rotAll_append, hQ, ht.rhs]
    · simp [hQ]
    · left; simp [hQ]
    · intro h0
      exact absurd (htop.trans h0) hz
  · rw [if_neg hz]
    push Not at hz
    refine ⟨⟨ht.rots, by simp [ht.lenC], ?_, ?_, ht.rhs⟩, by simp [hQ], Or.inr ⟨htop.symm.trans hz, hg0⟩, fun _ => hg0⟩
    · intro k hk
      simp only
      rw [hget _ k hk]
      split_ifs with hkn
      · subst hkn; rfl
      · exact ht.col k (by omega)
    · intro k hk l hl
      simp only
      rw [hget _ k hk]
      split_ifs with hkn
      · subst hkn
        by_cases h1 : l = k + 1
        · subst h1; exact hz
        · rw [rotAll_tail _ _ _ (by omega)]
          exact hess l (by omega)
      · exact ht.tri k (by omega) l hl

/-- the sum of squares of the residual of the small problem, for every `y` -/
theorem least_sq (beta : ℝ) (n : Nat) (h : Nat → Nat → ℝ) (t : Small) (ht : Least beta (n + 1) h t) (hQ : t.Q.length ≤ n + 1)
    (y : Nat → ℝ) :
    ∑ l ∈ Finset.range (n + 2), ((if l = 0 then beta else 0) - ∑ k ∈ Finset.range (n + 1), h k l * y k) ^ 2 =
      ∑ l ∈ Finset.range (n + 1), (t.g l - ∑ k ∈ Finset.range (n + 1), (t.cols.getD k fun _ => 0) l * y k) ^ 2 +
        t.g (n + 1) ^ 2 := by
  have h1 := rotAll_sq (n + 2) t.Q ht.rots (by omega)
    (fun l => (if l = 0 then beta else 0) - ∑ k ∈ Finset.range (n + 1), h k l * y k)
  rw [← h1, rotAll_lin, ht.rhs]
  have h2 : ∀ l, ∑ k ∈ Finset.range (n + 1), rotAll t.Q (h k) l * y k =
      ∑ k ∈ Finset.range (n + 1), (t.cols.getD k fun _ => 0) l * y k := by
    intro l
    apply Finset.sum_congr rfl
    intro k hk
    rw [ht.col k (Finset.mem_range.1 hk)]
  simp only [h2]
  rw [Finset.sum_range_succ]
  congr 2
  have h3 : ∑ k ∈ Finset.range (n + 1), (t.cols.getD k fun _ => 0) (n + 1) * y k = 0 := by
    apply Finset.sum_eq_zero
    intro k hk
    rw [ht.tri k (Finset.mem_range.1 hk) _ (Finset.mem_range.1 hk), zero_mul]
  rw [h3, sub_zero]

/-! ## The lagged orthogonalization -/

section
variable {W : Type*} [NormedAddCommGroup W] [InnerProductSpace ℝ W]

theorem forward_zero (L : Nat → Nat → ℝ) (rhs : Nat → ℝ) (n : Nat) (h : ∀ i < n, rhs i = 0) : ∀ i < n, forward L rhs i = 0 := by
  intro i
  induction i using Nat.strong_induction_on with
  | _ i ih =>
    intro hi
    rw [forward, h i hi, Finset.sum_eq_zero, sub_zero]
    intro k _
    rw [ih k k.2 (by omega), mul_zero]

theorem ortho_spec (k : Nat) (hk : 0 < k) (s : Arr W) (hp : ∀ i < k, inner ℝ (s.V i) (s.V k) = (0 : ℝ)) :
    (ortho k s).2 = ‖s.V k‖ ∧ (ortho k s).1.Z = s.Z ∧
    (ortho k s).1.V = upd (upd s.V k (‖s.V k‖⁻¹ • s.V k)) (k + 1) (‖s.V k‖⁻¹ • (s.V (k + 1) -
      ∑ i ∈ Finset.range k, (inner ℝ (s.V i) (s.V (k + 1)) : ℝ) • s.V i -
      ((inner ℝ (s.V k) (s.V (k + 1)) : ℝ) / ‖s.V k‖) • ‖s.V k‖⁻¹ • s.V k)) ∧
    (∀ a < k, (ortho k s).1.R a k = s.K a (k - 1)) ∧ (ortho k s).1.R k k = ‖s.V k‖ ∧
    (∀ a < k, (ortho k s).1.K a k = (inner ℝ (s.V a) (s.V (k + 1)) : ℝ) / ‖s.V k‖) ∧
    (ortho k s).1.K k k = (inner ℝ (s.V k) (s.V (k + 1)) : ℝ) / ‖s.V k‖ / ‖s.V k‖ := by
  have hn : Real.sqrt (inner ℝ (s.V k) (s.V k) - ∑ i ∈ Finset.range k, (inner ℝ (s.V i) (s.V k) : ℝ) ^ 2) = ‖s.V k‖ := by
    rw [Finset.sum_eq_zero, sub_zero, real_inner_self_eq_norm_sq, Real.sqrt_sq (norm_nonneg _)]
    intro i hi
    rw [hp i (Finset.mem_range.1 hi), zero_pow (by norm_num)]
  have hl : (inner ℝ (s.V k) (s.V (k + 1)) : ℝ) - ∑ i ∈ Finset.range k,
      (inner ℝ (s.V i) (s.V k) : ℝ) * inner ℝ (s.V i) (s.V (k + 1)) = inner ℝ (s.V k) (s.V (k + 1)) := by
    rw [Finset.sum_eq_zero, sub_zero]
    intro i hi
    rw [hp i (Finset.mem_range.1 hi), zero_mul]
  have hq : s.V k - ∑ i ∈ Finset.range k, (inner ℝ (s.V i) (s.V k) : ℝ) • s.V i = s.V k := by
    rw [Finset.sum_eq_zero, sub_zero]
    intro i hi
    rw [hp i (Finset.mem_range.1 hi), zero_smul]
  have hf := fun L => forward_zero L (fun i => (inner ℝ (s.V i) (s.V k) : ℝ)) k hp
  have hs : ∀ (c : Nat → ℝ) (L : Nat → Nat → ℝ), ∑ x ∈ Finset.range k, c x * forward L (fun i => (inner ℝ (s.V i) (s.V k) : ℝ)) x = 0 := by
    intro c L
    apply Finset.sum_eq_zero
    intro i hi
    rw [hf L i (Finset.mem_range.1 hi), mul_zero]
  unfold ortho
  simp only [hk, ↓reduceIte, hn, hl, hq]
  refine ⟨trivial, trivial, ?_, ?_, ?_, ?_, ?_⟩
  · have e : ∀ F : Nat → ℝ, (∀ i < k, F i = inner ℝ (s.V i) (s.V (k + 1))) →
        ∑ i ∈ Finset.range k, F i • s.V i = ∑ i ∈ Finset.range k, (inner ℝ (s.V i) (s.V (k + 1)) : ℝ) • s.V i := by
      intro F hF
      apply Finset.sum_congr rfl
      intro i hi
      rw [hF i (Finset.mem_range.1 hi)]
    rw [e]
    intro i hi
    simp [hi]
  · intro a ha
    simp [ha, hf _ a ha]
  · simp
  · intro a ha
    simp only [hs, sub_zero]
    simp [ha, Nat.lt_succ_of_lt ha]
  · simp only [hs, sub_zero]
    simp

/-- what holds of the arrays before inner iteration `inn` -/
structure Lag (A : W →ₗ[ℝ] W) (inn : Nat) (s : Arr W × ℝ) : Prop where
  ortho : OrthoTo s.1.V (inn + 1)
  perp : ∀ i < inn + 1, inner ℝ (s.1.V i) (s.1.V (inn + 1)) = (0 : ℝ)
  arn : A (s.1.Z inn) = ∑ i ∈ Finset.range (inn + 1), s.1.K i inn • s.1.V i + s.1.V (inn + 1)
  vn : s.2 ≠ 0

theorem extend_spec (A : W →ₗ[ℝ] W) (M : W → W) (inn : Nat) (s : Arr W × ℝ) (h : Lag A inn s) :
    (∀ i ≤ inn, (extend A M inn s).1.1.V i = s.1.V i) ∧ (∀ i ≤ inn, (extend A M inn s).1.1.Z i = s.1.Z i) ∧
    (∀ l, inn + 1 < l → (extend A M inn s).2 l = 0) ∧
    A (s.1.Z inn) = ∑ l ∈ Finset.range (inn + 2), (extend A M inn s).2 l • (extend A M inn s).1.1.V l ∧
    ((extend A M inn s).2 (inn + 1) ≠ 0 → Lag A (inn + 1) (extend A M inn s).1) := by
  set z := M (s.1.V (inn + 1)) with hz
  set a : Arr W := { s.1 with Z := upd s.1.Z (inn + 1) z, V := upd s.1.V (inn + 2) (s.2 • A (s.2⁻¹ • z)) } with ha
  have hv : ∀ i ≤ inn + 1, a.V i = s.1.V i := by
    intro i hi
    simp only [ha, upd]
    rw [if_neg (by omega)]
  have hV2 : a.V (inn + 2) = A z := by
    simp only [ha, upd, if_true]
    rw [map_smul, smul_smul, mul_inv_cancel₀ h.vn, one_smul]
  have hpa : ∀ i < inn + 1, inner ℝ (a.V i) (a.V (inn + 1)) = (0 : ℝ) := by
    intro i hi
    rw [hv i (by omega), hv _ le_rfl, h.perp i hi]
  obtain ⟨o1, o2, o3, o4, o5, o6, o7⟩ := ortho_spec (inn + 1) (by omega) a hpa
  have he : extend A M inn s = (({ (ortho (inn + 1) a).1 with
      Z := upd (ortho (inn + 1) a).1.Z (inn + 1) ((ortho (inn + 1) a).2⁻¹ • (ortho (inn + 1) a).1.Z (inn + 1)) },
      (ortho (inn + 1) a).2), fun i => if i < inn + 2 then (ortho (inn + 1) a).1.R i (inn + 1) else 0) := rfl
  set nu := ‖a.V (inn + 1)‖ with hnu
  have hnu' : nu = ‖s.1.V (inn + 1)‖ := by rw [hnu, hv _ le_rfl]
  have eV : ∀ i ≤ inn, (extend A M inn s).1.1.V i = s.1.V i := by
    intro i hi
    rw [he]
    simp only [o3, upd]
    rw [if_neg (by omega), if_neg (by omega), hv i (by omega)]
  have eV1 : (extend A M inn s).1.1.V (inn + 1) = nu⁻¹ • s.1.V (inn + 1) := by
    rw [he]
    simp only [o3, upd]
    rw [if_neg (by omega)]
    simp only [if_true]
    rw [hv _ le_rfl]
  have eV2 : (extend A M inn s).1.1.V (inn + 2) = nu⁻¹ • (A z -
      ∑ i ∈ Finset.range (inn + 1), (inner ℝ (s.1.V i) (A z) : ℝ) • s.1.V i -
      ((inner ℝ (s.1.V (inn + 1)) (A z) : ℝ) / nu) • nu⁻¹ • s.1.V (inn + 1)) := by
    rw [he]
    simp only [o3, upd, if_true]
    rw [show inn + 1 + 1 = inn + 2 from rfl, hV2, hv _ le_rfl]
    congr 3
    apply Finset.sum_congr rfl
    intro i hi
    rw [hv i (by have := Finset.mem_range.1 hi; omega)]
  have eZ : ∀ i ≤ inn, (extend A M inn s).1.1.Z i = s.1.Z i := by
    intro i hi
    rw [he]
    simp only [o2, upd]
    rw [if_neg (by omega)]
    simp only [ha, upd]
    rw [if_neg (by omega)]
  have eZ1 : (extend A M inn s).1.1.Z (inn + 1) = nu⁻¹ • z := by
    rw [he]
    simp only [o2, o1, upd, if_true]
    congr 1
    simp only [ha, upd, if_true]
  have eH : ∀ l < inn + 1, (extend A M inn s).2 l = s.1.K l inn := by
    intro l hl
    rw [he]
    simp only
    rw [if_pos (by omega), o4 l hl]
    rfl
  have eH1 : (extend A M inn s).2 (inn + 1) = nu := by
    rw [he]
    simp only
    rw [if_pos (by omega), o5]
  refine ⟨eV, eZ, ?_, ?_, ?_⟩
  · intro l hl
    rw [he]
    simp only
    rw [if_neg (by omega)]
  · rw [h.arn, Finset.sum_range_succ _ (inn + 1), eH1, eV1]
    congr 1
    · apply Finset.sum_congr rfl
      intro i hi
      have := Finset.mem_range.1 hi
      rw [eH i this, eV i (by omega)]
    · by_cases h0 : nu = 0
      · rw [h0, zero_smul]
        rw [hnu', norm_eq_zero] at h0
        exact h0
      · rw [smul_smul, mul_inv_cancel₀ h0, one_smul]
  · rw [eH1]
    intro h0
    have hin : ∀ i < inn + 1, inner ℝ (s.1.V i) ((extend A M inn s).1.1.V (inn + 1)) = (0 : ℝ) := by
      intro i hi
      rw [eV1, inner_smul_right, h.perp i hi, mul_zero]
    have hself : inner ℝ ((extend A M inn s).1.1.V (inn + 1)) ((extend A M inn s).1.1.V (inn + 1)) = (1 : ℝ) := by
      rw [eV1, inner_smul_left, inner_smul_right, real_inner_self_eq_norm_sq, ← hnu']
      simp only [conj_trivial]
      field_simp
    have hor : OrthoTo (extend A M inn s).1.1.V (inn + 2) := by
      intro i hi k hk
      rcases Nat.lt_or_ge i (inn + 1) with h1 | h1 <;> rcases Nat.lt_or_ge k (inn + 1) with h2 | h2
      · rw [eV i (by omega), eV k (by omega)]; exact h.ortho i h1 k h2
      · have : k = inn + 1 := by omega
        subst this
        rw [eV i (by omega), if_neg (by omega)]; exact hin i h1
      · have : i = inn + 1 := by omega
        subst this
        rw [eV k (by omega), if_neg (by omega), real_inner_comm]; exact hin k h2
      · have e1 : k = inn + 1 := by omega
        have e2 : i = inn + 1 := by omega
        subst e1; subst e2
        rw [if_pos rfl]; exact hself
    have key : (extend A M inn s).1.1.V (inn + 2) = nu⁻¹ • (A z -
        ∑ i ∈ Finset.range (inn + 2), (inner ℝ ((extend A M inn s).1.1.V i) (A z) : ℝ) • (extend A M inn s).1.1.V i) := by
      rw [eV2, Finset.sum_range_succ _ (inn + 1), eV1, inner_smul_left, sub_sub]
      congr 3
      · apply Finset.sum_congr rfl
        intro i hi
        rw [eV i (by have := Finset.mem_range.1 hi; omega)]
      · congr 1
        simp only [conj_trivial]
        rw [div_eq_inv_mul]
    refine ⟨hor, ?_, ?_, ?_⟩
    · intro i hi
      rw [key, inner_smul_right, Props.Pmex.proj_ortho _ _ hor _ i hi, mul_zero]
    · rw [eZ1, map_smul, key, smul_sub]
      have : ∑ i ∈ Finset.range (inn + 1 + 1), (extend A M inn s).1.1.K i (inn + 1) • (extend A M inn s).1.1.V i =
          nu⁻¹ • ∑ i ∈ Finset.range (inn + 2),
            (inner ℝ ((extend A M inn s).1.1.V i) (A z) : ℝ) • (extend A M inn s).1.1.V i := by
        rw [Finset.smul_sum]
        apply Finset.sum_congr rfl
        intro i hi
        rw [smul_smul]
        congr 1
        have hi' := Finset.mem_range.1 hi
        rcases Nat.lt_or_ge i (inn + 1) with h1 | h1
        · rw [eV i (by omega)]
          have : (extend A M inn s).1.1.K i (inn + 1) = (ortho (inn + 1) a).1.K i (inn + 1) := rfl
          rw [this, o6 i h1, hv i (by omega), show inn + 1 + 1 = inn + 2 from rfl, hV2, div_eq_inv_mul]
        · have e1 : i = inn + 1 := by omega
          subst e1
          have : (extend A M inn s).1.1.K (inn + 1) (inn + 1) = (ortho (inn + 1) a).1.K (inn + 1) (inn + 1) := rfl
          rw [this, o7, eV1, inner_smul_left, hv _ le_rfl, show inn + 1 + 1 = inn + 2 from rfl, hV2]
          simp only [conj_trivial]
          field_simp
      rw [this]; abel
    · rw [he]
      simp only
      rw [o1]
      exact h0

/-! ## A cycle -/

theorem start_lag (A : W →ₗ[ℝ] W) (M : W → W) (r : W) (hr : r ≠ 0) :
    Lag A 0 (startCycle A M r) ∧ (startCycle A M r).1.V 0 = ‖r‖⁻¹ • r ∧ (startCycle A M r).1.Z 0 = M (‖r‖⁻¹ • r) := by
  have hn : ‖r‖ ≠ 0 := norm_ne_zero_iff.2 hr
  have h1 : inner ℝ (‖r‖⁻¹ • r) (‖r‖⁻¹ • r) = (1 : ℝ) := by
    rw [inner_smul_left, inner_smul_right, real_inner_self_eq_norm_sq]
    simp only [conj_trivial]
    field_simp
  have hnu : ‖‖r‖⁻¹ • r‖ = 1 := by
    rw [norm_smul, norm_inv, norm_norm, inv_mul_cancel₀ hn]
  have hv : (startCycle A M r).1.V 0 = ‖r‖⁻¹ • r := by
    simp only [startCycle, ortho, upd, Nat.lt_irrefl, ↓reduceIte, Finset.range_zero, Finset.sum_empty, sub_zero]
    simp [hnu]
  have hv1 : (startCycle A M r).1.V 1 = A (M (‖r‖⁻¹ • r)) - (inner ℝ (‖r‖⁻¹ • r) (A (M (‖r‖⁻¹ • r))) : ℝ) • ‖r‖⁻¹ • r := by
    simp only [startCycle, ortho, upd, Nat.lt_irrefl, ↓reduceIte, Finset.range_zero, Finset.sum_empty, sub_zero]
    simp [hnu]
  have hz : (startCycle A M r).1.Z 0 = M (‖r‖⁻¹ • r) := by
    simp [startCycle, ortho, upd]
  have hk : (startCycle A M r).1.K 0 0 = inner ℝ (‖r‖⁻¹ • r) (A (M (‖r‖⁻¹ • r))) := by
    simp only [startCycle, ortho, upd, Nat.lt_irrefl, ↓reduceIte, Finset.range_zero, Finset.sum_empty, sub_zero]
    simp [hnu]
  refine ⟨⟨?_, ?_, ?_, ?_⟩, hv, hz⟩
  · intro i hi k hk'
    have e1 : i = 0 := by omega
    have e2 : k = 0 := by omega
    subst e1; subst e2
    rw [hv, h1, if_pos rfl]
  · intro i hi
    have e1 : i = 0 := by omega
    subst e1
    rw [hv, zero_add, hv1, inner_sub_right, inner_smul_right _ _ (inner ℝ _ _ : ℝ), h1, mul_one, sub_self]
  · rw [hz, zero_add, Finset.sum_range_one, hk, hv, hv1]
    abel
  · simp [startCycle, ortho, upd, hr]

/-- what holds before inner iteration `inn`: the columns `h` are the operator on the vectors `Z` -/
structure Run (A : W →ₗ[ℝ] W) (M : W → W) (r : W) (inn : Nat) (s : Arr W × ℝ) (t : Small) (h : Nat → Nat → ℝ) : Prop where
  lag : Lag A inn s
  v0 : s.1.V 0 = ‖r‖⁻¹ • r
  rel : ∀ k < inn, A (s.1.Z k) = ∑ l ∈ Finset.range (k + 2), h k l • s.1.V l
  hess : ∀ k < inn, ∀ l, k + 1 < l → h k l = 0
  least : Least ‖r‖ inn h t
  rots : t.Q.length = inn
  prec : (∀ (c : ℝ) v, M (c • v) = c • M v) → ∀ k ≤ inn, s.1.Z k = M (s.1.V k)

/-- what holds of the result of a cycle whose last inner iteration has index `n` -/
structure Done (A : W →ₗ[ℝ] W) (M : W → W) (r : W) (n : Nat) (a : Arr W) (t : Small) (h : Nat → Nat → ℝ) : Prop where
  ortho : OrthoTo a.V (n + 2) ∨ (OrthoTo a.V (n + 1) ∧ h n (n + 1) = 0)
  v0 : a.V 0 = ‖r‖⁻¹ • r
  rel : ∀ k ≤ n, A (a.Z k) = ∑ l ∈ Finset.range (k + 2), h k l • a.V l
  hess : ∀ k ≤ n, ∀ l, k + 1 < l → h k l = 0
  least : Least ‖r‖ (n + 1) h t
  rots : t.Q.length ≤ n + 1
  prec : (∀ (c : ℝ) v, M (c • v) = c • M v) → ∀ k ≤ n, a.Z k = M (a.V k)

theorem extend_prec (A : W →ₗ[ℝ] W) (M : W → W) (hM : ∀ (c : ℝ) v, M (c • v) = c • M v) (inn : Nat) (s : Arr W × ℝ)
    (h : Lag A inn s) : (extend A M inn s).1.1.Z (inn + 1) = M ((extend A M inn s).1.1.V (inn + 1)) := by
  have hpa : ∀ i < inn + 1, inner ℝ (upd s.1.V (inn + 2) (s.2 • A (s.2⁻¹ • M (s.1.V (inn + 1)))) i)
      (upd s.1.V (inn + 2) (s.2 • A (s.2⁻¹ • M (s.1.V (inn + 1)))) (inn + 1)) = (0 : ℝ) := by
    intro i hi
    simp only [upd]
    rw [if_neg (by omega), if_neg (by omega), h.perp i hi]
  obtain ⟨o1, o2, o3, -⟩ := ortho_spec (inn + 1) (by omega)
    { s.1 with Z := upd s.1.Z (inn + 1) (M (s.1.V (inn + 1))), V := upd s.1.V (inn + 2) (s.2 • A (s.2⁻¹ • M (s.1.V (inn + 1)))) } hpa
  simp only [extend, o1, o2, o3]
  simp [upd, hM]

theorem least_congr (beta : ℝ) (n : Nat) (h h' : Nat → Nat → ℝ) (t : Small) (hh : ∀ k < n, h k = h' k) (ht : Least beta n h t) :
    Least beta n h' t :=
  ⟨ht.rots, ht.lenC, fun k hk => by rw [← hh k hk]; exact ht.col k hk, ht.tri, ht.rhs⟩

theorem loop_done (A : W →ₗ[ℝ] W) (M : W → W) (r : W) (tolRel : ℝ) (htol : 0 < tolRel) (restart : Nat) (left : Nat) :
    ∀ (inn : Nat) (s : Arr W × ℝ) (t : Small) (h : Nat → Nat → ℝ), inn + (left + 1) = restart → Run A M r inn s t h →
    ∃ n a t' h', innerLoop A M tolRel restart (left + 1) inn s t = (n, a, t') ∧ Done A M r n a t' h' ∧ n < restart ∧
      (n + 1 < restart → |t'.g (n + 1)| < tolRel) := by
  induction left with
  | zero =>
    intro inn s t h hlen hrun
    obtain ⟨e1, e2, e3, e4, e5⟩ := extend_spec A M inn s hrun.lag
    have hp := fun hM => extend_prec A M hM inn s hrun.lag
    set e := extend A M inn s with he
    set h' : Nat → Nat → ℝ := fun k => if k = inn then e.2 else h k with hh'
    have hin : h' inn = e.2 := by simp [hh']
    have hle : Least ‖r‖ inn h' t := least_congr _ _ h h' t (fun k hk => by simp [hh', show k ≠ inn by omega]) hrun.least
    obtain ⟨g1, g2, g3, g4⟩ := givens_spec ‖r‖ inn h' t hle hrun.rots (by rw [hin]; exact e3)
    rw [hin] at g1 g2 g3 g4
    have hd : Done A M r inn e.1.1 (givens inn e.2 t) h' := by
      refine ⟨?_, ?_, ?_, ?_, g1, g2, ?_⟩
      · by_cases h0 : e.2 (inn + 1) = 0
        · right
          refine ⟨?_, by rw [hin]; exact h0⟩
          intro i hi k hk
          rw [e1 i (by omega), e1 k (by omega)]
          exact hrun.lag.ortho i hi k hk
        · exact Or.inl (e5 h0).ortho
      · rw [e1 0 (by omega)]; exact hrun.v0
      · intro k hk
        rcases Nat.lt_or_ge k inn with hk' | hk'
        · rw [e2 k (by omega), hrun.rel k hk']
          apply Finset.sum_congr rfl
          intro l hl
          have := Finset.mem_range.1 hl
          rw [e1 l (by omega)]
          simp [hh', show k ≠ inn by omega]
        · have : k = inn := by omega
          subst this
          rw [e2 k le_rfl, hin]; exact e4
      · intro k hk l hl
        rcases Nat.lt_or_ge k inn with hk' | hk'
        · simp only [hh', show k ≠ inn by omega, if_false]; exact hrun.hess k hk' l hl
        · have : k = inn := by omega
          subst this
          rw [hin]; exact e3 l hl
      · intro hM k hk
        rw [e1 k hk, e2 k hk]; exact hrun.prec hM k hk
    refine ⟨inn, e.1.1, givens inn e.2 t, h', ?_, hd, by omega, by omega⟩
    rw [innerLoop]
    simp only [← he]
    rw [if_neg (by omega), innerLoop]
    simp
  | succ left ih =>
    intro inn s t h hlen hrun
    obtain ⟨e1, e2, e3, e4, e5⟩ := extend_spec A M inn s hrun.lag
    have hp := fun hM => extend_prec A M hM inn s hrun.lag
    set e := extend A M inn s with he
    set h' : Nat → Nat → ℝ := fun k => if k = inn then e.2 else h k with hh'
    have hin : h' inn = e.2 := by simp [hh']
    have hle : Least ‖r‖ inn h' t := least_congr _ _ h h' t (fun k hk => by simp [hh', show k ≠ inn by omega]) hrun.least
    obtain ⟨g1, g2, g3, g4⟩ := givens_spec ‖r‖ inn h' t hle hrun.rots (by rw [hin]; exact e3)
    rw [hin] at g1 g2 g3 g4
    have hrel : ∀ k ≤ inn, A (e.1.1.Z k) = ∑ l ∈ Finset.range (k + 2), h' k l • e.1.1.V l := by
      intro k hk
      rcases Nat.lt_or_ge k inn with hk' | hk'
      · rw [e2 k (by omega), hrun.rel k hk']
        apply Finset.sum_congr rfl
        intro l hl
        have := Finset.mem_range.1 hl
        rw [e1 l (by omega)]
        simp [hh', show k ≠ inn by omega]
      · have : k = inn := by omega
        subst this
        rw [e2 k le_rfl, hin]; exact e4
    have hhess : ∀ k ≤ inn, ∀ l, k + 1 < l → h' k l = 0 := by
      intro k hk l hl
      rcases Nat.lt_or_ge k inn with hk' | hk'
      · simp only [hh', show k ≠ inn by omega, if_false]; exact hrun.hess k hk' l hl
      · have : k = inn := by omega
        subst this
        rw [hin]; exact e3 l hl
    have hprec : (∀ (c : ℝ) v, M (c • v) = c • M v) → ∀ k ≤ inn, e.1.1.Z k = M (e.1.1.V k) := by
      intro hM k hk
      rw [e1 k hk, e2 k hk]; exact hrun.prec hM k hk
    rw [innerLoop]
    simp only [← he]
    by_cases hb : inn < restart - 1 ∧ |(givens inn e.2 t).g (inn + 1)| < tolRel
    · rw [if_pos hb]
      refine ⟨inn, e.1.1, givens inn e.2 t, h', rfl, ⟨?_, ?_, hrel, hhess, g1, g2, hprec⟩, by omega, fun _ => hb.2⟩
      · by_cases h0 : e.2 (inn + 1) = 0
        · right
          refine ⟨?_, by rw [hin]; exact h0⟩
          intro i hi k hk
          rw [e1 i (by omega), e1 k (by omega)]
          exact hrun.lag.ortho i hi k hk
        · exact Or.inl (e5 h0).ortho
      · rw [e1 0 (by omega)]; exact hrun.v0
    · rw [if_neg hb]
      have h0 : e.2 (inn + 1) ≠ 0 := by
        intro h0
        apply hb
        refine ⟨by omega, ?_⟩
        rw [g4 h0, abs_zero]; exact htol
      refine ih (inn + 1) e.1 (givens inn e.2 t) h' (by omega) ⟨e5 h0, ?_, fun k hk => hrel k (by omega),
        fun k hk => hhess k (by omega), g1, ?_, ?_⟩
      · rw [e1 0 (by omega)]; exact hrun.v0
      · rcases g3 with g | g
        · exact g
        · exact absurd g.1 h0
      · intro hM k hk
        rcases Nat.lt_or_ge k (inn + 1) with hk' | hk'
        · exact hprec hM k (by omega)
        · have : k = inn + 1 := by omega
          subst this
          exact hp hM

theorem cycle_done (A : W →ₗ[ℝ] W) (M : W → W) (r : W) (hr : r ≠ 0) (tolRel : ℝ) (htol : 0 < tolRel) (restart : Nat)
    (hre : 1 ≤ restart) :
    ∃ n a t h, cycle A M tolRel restart r = (n, a, t) ∧ Done A M r n a t h ∧ n < restart ∧
      (n + 1 < restart → |t.g (n + 1)| < tolRel) := by
  obtain ⟨m, rfl⟩ : ∃ m, restart = m + 1 := ⟨restart - 1, by omega⟩
  obtain ⟨h1, h2, h3⟩ := start_lag A M r hr
  refine loop_done A M r tolRel htol (m + 1) m 0 _ _ (fun _ _ => 0) (by omega) ⟨h1, h2, by simp, by simp, ?_, rfl, ?_⟩
  · refine ⟨by simp, rfl, by simp, by simp, rfl⟩
  · intro hM k hk
    have : k = 0 := by omega
    subst this
    rw [h3, h2]

theorem norm_comb (V : Nat → W) (n : Nat) (ho : OrthoTo V n) (c : Nat → ℝ) :
    ‖∑ l ∈ Finset.range n, c l • V l‖ ^ 2 = ∑ l ∈ Finset.range n, c l ^ 2 := by
  rw [← real_inner_self_eq_norm_sq, sum_inner]
  apply Finset.sum_congr rfl
  intro i hi
  rw [inner_sum, Finset.sum_eq_single i]
  · rw [inner_smul_left, inner_smul_right, ho i (Finset.mem_range.1 hi) i (Finset.mem_range.1 hi), if_pos rfl]
    simp only [conj_trivial]; ring
  · intro k hk hne
    rw [inner_smul_left, inner_smul_right, ho i (Finset.mem_range.1 hi) k (Finset.mem_range.1 hk), if_neg (Ne.symm hne)]
    simp
  · intro h; exact absurd hi h

theorem done_norm (A : W →ₗ[ℝ] W) (M : W → W) (r : W) (hr : r ≠ 0) (n : Nat) (a : Arr W) (t : Small) (h : Nat → Nat → ℝ)
    (hd : Done A M r n a t h) (y : Nat → ℝ) :
    ‖r - A (update (n, a, t) y)‖ ^ 2 =
      ∑ l ∈ Finset.range (n + 1), (t.g l - ∑ k ∈ Finset.range (n + 1), (t.cols.getD k fun _ => 0) l * y k) ^ 2 +
        t.g (n + 1) ^ 2 := by
  rw [← least_sq ‖r‖ n h t hd.least hd.rots y]
  have hn : ‖r‖ ≠ 0 := norm_ne_zero_iff.2 hr
  have e1 : ∀ k ≤ n, A (a.Z k) = ∑ l ∈ Finset.range (n + 2), h k l • a.V l := by
    intro k hk
    rw [hd.rel k hk]
    apply Finset.sum_subset
    · intro l hl; rw [Finset.mem_range] at *; omega
    · intro l _ hl
      rw [hd.hess k hk l (by rw [Finset.mem_range] at hl; omega), zero_smul]
  have e2 : r - A (update (n, a, t) y) = ∑ l ∈ Finset.range (n + 2),
      ((if l = 0 then ‖r‖ else 0) - ∑ k ∈ Finset.range (n + 1), h k l * y k) • a.V l := by
    simp only [sub_smul, Finset.sum_sub_distrib]
    congr 1
    · rw [Finset.sum_eq_single 0]
      · rw [if_pos rfl, hd.v0, smul_smul, mul_inv_cancel₀ hn, one_smul]
      · intro l _ hl; rw [if_neg hl, zero_smul]
      · intro h0; exact absurd (Finset.mem_range.2 (by omega)) h0
    · simp only [update, map_sum, map_smul, Finset.sum_smul]
      rw [Finset.sum_comm]
      apply Finset.sum_congr rfl
      intro k hk
      rw [e1 k (by have := Finset.mem_range.1 hk; omega), Finset.smul_sum]
      apply Finset.sum_congr rfl
      intro l _
      rw [smul_smul, mul_comm]
  rw [e2]
  rcases hd.ortho with ho | ⟨ho, h0⟩
  · exact norm_comb a.V (n + 2) ho _
  · have hz : ∑ k ∈ Finset.range (n + 1), h k (n + 1) * y k = 0 := by
      apply Finset.sum_eq_zero
      intro k hk
      have := Finset.mem_range.1 hk
      rcases Nat.lt_or_ge k n with hk' | hk'
      · rw [hd.hess k (by omega) (n + 1) (by omega), zero_mul]
      · have : k = n := by omega
        subst this
        rw [h0, zero_mul]
    rw [Finset.sum_range_succ, Finset.sum_range_succ _ (n + 1), hz, if_neg (by omega)]
    simp only [sub_self, zero_smul, add_zero]
    rw [norm_comb a.V (n + 1) ho]
    ring

/-- **C33**: a cycle of `fgmres`, for every linear operator, every preconditioner and every residual that is not zero.  If the
    triangular system is solved, the norm of the new residual is the estimate that the inner loop reports
    (`|g[inner + 1]|`), no combination of the preconditioned directions gives a smaller one, and it is at most the old one;
    the cycle has at most `restart` iterations, and if it ended early the new residual is below the tolerance. -/
theorem C33_cycle (A : W →ₗ[ℝ] W) (M : W → W) (r : W) (hr : r ≠ 0) (tolRel : ℝ) (htol : 0 < tolRel) (restart : Nat)
    (hre : 1 ≤ restart) (c : Nat × Arr W × Small) (hc : cycle A M tolRel restart r = c) (y : Nat → ℝ) (hy : Solves c.1 c.2.2 y) :
    ‖r - A (update c y)‖ = |c.2.2.g (c.1 + 1)| ∧
    (∀ y' : Nat → ℝ, ‖r - A (update c y)‖ ≤ ‖r - A (∑ k ∈ Finset.range (c.1 + 1), y' k • c.2.1.Z k)‖) ∧
    ‖r - A (update c y)‖ ≤ ‖r‖ ∧
    c.1 + 1 ≤ restart ∧ (c.1 + 1 < restart → ‖r - A (update c y)‖ < tolRel) := by
  obtain ⟨n, a, t, h, h1, hd, h3, h4⟩ := cycle_done A M r hr tolRel htol restart hre
  rw [hc] at h1
  subst h1
  have hkey := done_norm A M r hr n a t h hd
  have hsq : ‖r - A (update (n, a, t) y)‖ ^ 2 = t.g (n + 1) ^ 2 := by
    rw [hkey y, Finset.sum_eq_zero, zero_add]
    intro l hl
    have := hy l (by have := Finset.mem_range.1 hl; simp only; omega)
    simp only at this
    rw [this, sub_self, zero_pow (by norm_num)]
  have heq : ‖r - A (update (n, a, t) y)‖ = |t.g (n + 1)| := by
    rw [← abs_of_nonneg (norm_nonneg (r - A (update (n, a, t) y)))]
    exact sq_eq_sq_iff_abs_eq_abs _ _ |>.1 hsq
  have hmin : ∀ y' : Nat → ℝ, ‖r - A (update (n, a, t) y)‖ ≤ ‖r - A (update (n, a, t) y')‖ := by
    intro y'
    apply le_of_sq_le_sq _ (norm_nonneg _)
    rw [hsq, hkey y']
    have : 0 ≤ ∑ l ∈ Finset.range (n + 1),
        (t.g l - ∑ k ∈ Finset.range (n + 1), (t.cols.getD k fun _ => 0) l * y' k) ^ 2 :=
      Finset.sum_nonneg fun _ _ => sq_nonneg _
    linarith
  refine ⟨heq, hmin, ?_, by simp only; omega, ?_⟩
  · have := hmin fun _ => 0
    simpa [update] using this
  · intro hlt
    rw [heq]; exact h4 hlt

/-- `x` is a combination of the first `n` vectors -/
def Comb (V : Nat → W) (n : Nat) (x : W) : Prop := ∃ y : Nat → ℝ, x = ∑ i ∈ Finset.range n, y i • V i

theorem Comb.mono {V : Nat → W} {n m : Nat} (h : n ≤ m) {x : W} (hx : Comb V n x) : Comb V m x := by
  obtain ⟨y, rfl⟩ := hx
  refine ⟨fun i => if i < n then y i else 0, ?_⟩
  symm
  rw [← Finset.sum_subset (Finset.range_subset_range.2 h)]
  · apply Finset.sum_congr rfl
    intro i hi
    simp only [if_pos (Finset.mem_range.1 hi)]
  · intro i _ hi
    rw [Finset.mem_range] at hi
    simp only [if_neg hi, zero_smul]

theorem Comb.sum {V : Nat → W} {n : Nat} {ι : Type*} (S : Finset ι) (f : ι → W) (h : ∀ i ∈ S, Comb V n (f i)) :
    Comb V n (∑ i ∈ S, f i) := by
  classical
  induction S using Finset.induction_on with
  | empty => exact ⟨fun _ => 0, by simp⟩
  | insert i S hi ih =>
    obtain ⟨y, hy⟩ := h i (Finset.mem_insert_self _ _)
    obtain ⟨y', hy'⟩ := ih fun j hj => h j (Finset.mem_insert_of_mem hj)
    refine ⟨fun k => y k + y' k, ?_⟩
    rw [Finset.sum_insert hi, hy, hy']
    simp only [add_smul, Finset.sum_add_distrib]

theorem Comb.smul {V : Nat → W} {n : Nat} (c : ℝ) {x : W} (h : Comb V n x) : Comb V n (c • x) := by
  obtain ⟨y, rfl⟩ := h
  refine ⟨fun k => c * y k, ?_⟩
  simp only [mul_smul, Finset.smul_sum]

/-- **C33**: with a linear preconditioner `M`, no correction from the Krylov space of `A M` and the residual, of the dimension
    of the cycle, gives a smaller residual: `Σ_k a_k (A M)^k r` is as general as a right-hand side can be. -/
theorem C33_krylov_minimum (A M : W →ₗ[ℝ] W) (r : W) (hr : r ≠ 0) (tolRel : ℝ) (htol : 0 < tolRel) (restart : Nat)
    (hre : 1 ≤ restart) (c : Nat × Arr W × Small) (hc : cycle A M tolRel restart r = c) (y : Nat → ℝ) (hy : Solves c.1 c.2.2 y)
    (coef : Nat → ℝ) :
    ‖r - A (update c y)‖ ≤ ‖r - A (M (∑ k ∈ Finset.range (c.1 + 1), coef k • ((A ∘ₗ M) ^ k) r))‖ := by
  obtain ⟨-, hmin, -⟩ := C33_cycle A M r hr tolRel htol restart hre c hc y hy
  obtain ⟨n, a, t, h, h1, hd, -⟩ := cycle_done A M r hr tolRel htol restart hre
  rw [hc] at h1
  subst h1
  simp only at *
  have hz := hd.prec (fun c v => map_smul M c v)
  have hpow : ∀ k ≤ n, Comb a.V (k + 1) (((A ∘ₗ M) ^ k) r) := by
    intro k
    induction k with
    | zero =>
      intro _
      refine ⟨fun _ => ‖r‖, ?_⟩
      rw [Finset.sum_range_one, hd.v0, smul_smul, mul_inv_cancel₀ (norm_ne_zero_iff.2 hr), one_smul]
      simp
    | succ k ih =>
      intro hk
      obtain ⟨y, hy⟩ := ih (by omega)
      rw [pow_succ', Module.End.mul_apply, hy, map_sum]
      apply Comb.sum
      intro i hi
      have := Finset.mem_range.1 hi
      rw [map_smul, LinearMap.comp_apply, ← hz i (by omega), hd.rel i (by omega)]
      exact (Comb.mono (by omega) (⟨h i, rfl⟩ : Comb a.V (i + 2) _)).smul _
  have hall : Comb a.V (n + 1) (∑ k ∈ Finset.range (n + 1), coef k • ((A ∘ₗ M) ^ k) r) := by
    apply Comb.sum
    intro k hk
    have := Finset.mem_range.1 hk
    exact ((hpow k (by omega)).mono (by omega)).smul _
  obtain ⟨y', hy'⟩ := hall
  rw [hy']
  have e : M (∑ i ∈ Finset.range (n + 1), y' i • a.V i) = ∑ k ∈ Finset.range (n + 1), y' k • a.Z k := by
    rw [map_sum]
    apply Finset.sum_congr rfl
    intro i hi
    rw [map_smul, hz i (by have := Finset.mem_range.1 hi; omega)]
  rw [e]
  exact hmin y'

/-- **C33**: if the operator and the linear preconditioner are injective, the triangular system of every cycle has a solution:
    the cycle does not raise. -/
theorem C33_solvable (A M : W →ₗ[ℝ] W) (hA : Function.Injective A) (hM : Function.Injective M) (r : W) (hr : r ≠ 0)
    (tolRel : ℝ) (htol : 0 < tolRel) (restart : Nat) (hre : 1 ≤ restart) :
    ∃ y, Solves (cycle A M tolRel restart r).1 (cycle A M tolRel restart r).2.2 y := by
  obtain ⟨n, a, t, h, h1, hd, -⟩ := cycle_done A M r hr tolRel htol restart hre
  rw [h1]
  have hkey := done_norm A M r hr n a t h hd
  have hz := hd.prec (fun c v => map_smul M c v)
  have ho : OrthoTo a.V (n + 1) := by
    rcases hd.ortho with ho | ho
    · intro i hi k hk; exact ho i (by omega) k (by omega)
    · exact ho.1
  let T : (Fin (n + 1) → ℝ) →ₗ[ℝ] (Fin (n + 1) → ℝ) :=
    { toFun := fun y l => ∑ k : Fin (n + 1), (t.cols.getD k fun _ => 0) l * y k
      map_add' := by intro x y; funext l; simp [mul_add, Finset.sum_add_distrib]
      map_smul' := by intro c y; funext l; simp [Finset.mul_sum, mul_left_comm] }
  have hinj : Function.Injective T := by
    rw [← LinearMap.ker_eq_bot, LinearMap.ker_eq_bot']
    intro y hy
    set y' : Nat → ℝ := fun k => if hk : k < n + 1 then y ⟨k, hk⟩ else 0 with hy'
    have hy0 : ∀ l ∈ Finset.range (n + 1), ∑ k ∈ Finset.range (n + 1), (t.cols.getD k fun _ => 0) l * y' k = 0 := by
      intro l hl
      have h2 := congrFun hy ⟨l, Finset.mem_range.1 hl⟩
      rw [Finset.sum_range]
      refine Eq.trans ?_ h2
      apply Finset.sum_congr rfl
      intro k _
      simp only [hy', dif_pos k.2]
    have h3 : ∀ c : ℝ, ‖r - c • A (update (n, a, t) y')‖ ^ 2 = ∑ l ∈ Finset.range (n + 1), t.g l ^ 2 + t.g (n + 1) ^ 2 := by
      intro c
      have e : c • A (update (n, a, t) y') = A (update (n, a, t) fun k => c * y' k) := by
        rw [← map_smul]; simp [update, Finset.smul_sum, smul_smul]
      rw [e, hkey]
      congr 1
      apply Finset.sum_congr rfl
      intro l hl
      have : ∑ k ∈ Finset.range (n + 1), (t.cols.getD k fun _ => 0) l * (c * y' k) =
          c * ∑ k ∈ Finset.range (n + 1), (t.cols.getD k fun _ => 0) l * y' k := by
        rw [Finset.mul_sum]; apply Finset.sum_congr rfl; intro k _; ring
      rw [this, hy0 l hl, mul_zero, sub_zero]
    have h4 : A (update (n, a, t) y') = 0 := by
      have p1 := h3 1
      have p2 := h3 (-1)
      have p0 := h3 0
      rw [one_smul] at p1
      rw [neg_one_smul, sub_neg_eq_add] at p2
      rw [zero_smul, sub_zero] at p0
      have pl := parallelogram_law_with_norm ℝ r (A (update (n, a, t) y'))
      have : ‖A (update (n, a, t) y')‖ ^ 2 = 0 := by nlinarith
      exact norm_eq_zero.1 (pow_eq_zero_iff (by norm_num) |>.1 this)
    have h5 : update (n, a, t) y' = 0 := hA (by rw [h4, map_zero])
    have h6 : ∑ k ∈ Finset.range (n + 1), y' k • a.V k = 0 := by
      apply hM
      rw [map_zero, ← h5, map_sum]
      apply Finset.sum_congr rfl
      intro k hk
      rw [map_smul, hz k (by have := Finset.mem_range.1 hk; omega)]
    have h7 := norm_comb a.V (n + 1) ho y'
    rw [h6, norm_zero, zero_pow (by norm_num)] at h7
    funext k
    have h8 := (Finset.sum_eq_zero_iff_of_nonneg fun _ _ => sq_nonneg _).1 h7.symm k (Finset.mem_range.2 k.2)
    have h9 := pow_eq_zero_iff (by norm_num) |>.1 h8
    simp only [hy', dif_pos k.2] at h9
    exact h9
  obtain ⟨y, hy⟩ := LinearMap.injective_iff_surjective.1 hinj fun l => t.g l
  refine ⟨fun k => if hk : k < n + 1 then y ⟨k, hk⟩ else 0, ?_⟩
  intro l hl
  have h2 := congrFun hy ⟨l, by simp only at hl; omega⟩
  simp only
  rw [Finset.sum_range]
  refine Eq.trans ?_ h2
  apply Finset.sum_congr rfl
  intro k _
  simp only [dif_pos k.2]

/-- the hypotheses of the theorems about a cycle can be met: three times the identity in the plane, preconditioned by its half -/
example : ∃ y, Solves (cycle ((3 : ℝ) • (LinearMap.id : EuclideanSpace ℝ (Fin 2) →ₗ[ℝ] EuclideanSpace ℝ (Fin 2))) ((1 / 2 : ℝ) • (LinearMap.id : EuclideanSpace ℝ (Fin 2) →ₗ[ℝ] EuclideanSpace ℝ (Fin 2)) : _ →ₗ[ℝ] _) (1 / 10) 1 !₂[1, 2]).1
    (cycle ((3 : ℝ) • (LinearMap.id : EuclideanSpace ℝ (Fin 2) →ₗ[ℝ] EuclideanSpace ℝ (Fin 2))) ((1 / 2 : ℝ) • (LinearMap.id : EuclideanSpace ℝ (Fin 2) →ₗ[ℝ] EuclideanSpace ℝ (Fin 2)) : _ →ₗ[ℝ] _) (1 / 10) 1 !₂[1, 2]).2.2 y := by
  apply C33_solvable
  · intro x y h; simpa using h
  · intro x y h; simpa using h
  · intro h; have := congrFun (congrArg WithLp.ofLp h) 0; simp at this
  · norm_num
  · norm_num

/-! ## The whole solver -/

/-- `cyc` runs the cycle of the model with some solution of the triangular system, or raises -/
def IsCycle (A : W →ₗ[ℝ] W) (M : W → W) (tolRel : ℝ) (restart : Nat) (cyc : W → W → Option (W × Nat)) : Prop :=
  ∀ x r u n, cyc x r = some (u, n) →
    ∃ y, Solves (cycle A M tolRel restart r).1 (cycle A M tolRel restart r).2.2 y ∧ u = update (cycle A M tolRel restart r) y ∧
      n = (cycle A M tolRel restart r).1 + 1

theorem outer_spec (A : W →ₗ[ℝ] W) (b : W) (tolRel : ℝ) (cyc : W → W → Option (W × Nat)) (stag : W → W → Bool) (n : Nat) :
    ∀ (niter : Nat) (x : W) (ans : Answer W), outer A b tolRel cyc stag n niter x = some ans →
      ans.normR = ‖b - A ans.x‖ ∧
      ((ans.flag = 0 ∧ ans.normR < tolRel) ∨ (ans.flag = -1 ∧ (tolRel ≤ ans.normR ∨ ∃ u, stag u ans.x = true))) := by
  induction n with
  | zero =>
    intro niter x ans h
    simp only [outer, Option.some.injEq] at h
    subst h
    refine ⟨rfl, ?_⟩
    simp only [ge_iff_le]
    by_cases h1 : tolRel ≤ ‖b - A x‖
    · right; rw [if_pos h1]; exact ⟨rfl, Or.inl h1⟩
    · left; rw [if_neg h1]; exact ⟨rfl, not_le.1 h1⟩
  | succ n ih =>
    intro niter x ans h
    simp only [outer] at h
    split_ifs at h with h0
    cases hc : cyc x (b - A x) with
    | none => rw [hc] at h; simp at h
    | some u =>
      rw [hc] at h
      simp only [Option.bind_some] at h
      split_ifs at h with h1 h2
      · rw [Option.some.injEq] at h
        subst h
        exact ⟨rfl, Or.inr ⟨rfl, Or.inr ⟨u.1, h1⟩⟩⟩
      · rw [Option.some.injEq] at h
        subst h
        exact ⟨rfl, Or.inl ⟨rfl, h2⟩⟩
      · exact ih _ _ ans h

theorem outer_progress (A : W →ₗ[ℝ] W) (M : W → W) (b : W) (tolRel : ℝ) (htol : 0 < tolRel) (restart : Nat) (hre : 1 ≤ restart)
    (cyc : W → W → Option (W × Nat)) (hcyc : IsCycle A M tolRel restart cyc) (stag : W → W → Bool) (n : Nat) :
    ∀ (niter : Nat) (x : W) (ans : Answer W), outer A b tolRel cyc stag n niter x = some ans →
      ‖b - A ans.x‖ ≤ ‖b - A x‖ ∧ ans.niter ≤ niter + n * restart := by
  induction n with
  | zero =>
    intro niter x ans h
    simp only [outer, Option.some.injEq] at h
    subst h
    exact ⟨le_rfl, by simp⟩
  | succ n ih =>
    intro niter x ans h
    simp only [outer] at h
    split_ifs at h with h0
    cases hc : cyc x (b - A x) with
    | none => rw [hc] at h; simp at h
    | some u =>
      obtain ⟨y, hy, hu, hn⟩ := hcyc x (b - A x) u.1 u.2 hc
      obtain ⟨-, -, c3, c4, -⟩ := C33_cycle A M (b - A x) (fun h => h0 (by rw [h, norm_zero])) tolRel htol restart hre _ rfl y hy
      rw [← hu] at c3
      rw [← hn] at c4
      have e : b - A (x + u.1) = b - A x - A u.1 := by rw [map_add]; abel
      rw [← e] at c3
      rw [hc] at h
      simp only [Option.bind_some] at h
      have hmul : (n + 1) * restart = n * restart + restart := by ring
      split_ifs at h with h1 h2
      · rw [Option.some.injEq] at h
        subst h
        exact ⟨c3, by simp only; rw [hmul]; omega⟩
      · rw [Option.some.injEq] at h
        subst h
        exact ⟨c3, by simp only; rw [hmul]; omega⟩
      · obtain ⟨i1, i2⟩ := ih _ _ ans h
        exact ⟨i1.trans c3, by rw [hmul]; omega⟩

/-- **C33**: whatever the cycles return and whatever the test for stagnation says, the answer of `fgmres` is truthful: for
    `b = 0` it is the zero vector with flag 0; otherwise the returned norm is that of the true residual, flag 0 means that it
    is below `tol ‖b‖`, and flag −1 means that it is not or that the solver stagnated; no other flag is returned. -/
theorem C33_flag (A : W →ₗ[ℝ] W) (b x0 : W) (tol : ℝ) (restart len maxiter : Nat) (hegedus : Bool)
    (cyc : W → W → Option (W × Nat)) (stag : W → W → Bool) (ans : Answer W)
    (h : fgmres A b x0 tol restart len maxiter hegedus cyc stag = some ans) :
    restart < len ∧ (b = 0 → ans.x = 0 ∧ ans.flag = 0) ∧ ans.normR = ‖b - A ans.x‖ ∧
    (b ≠ 0 → (ans.flag = 0 ∧ ans.normR < tol * ‖b‖) ∨
      (ans.flag = -1 ∧ (tol * ‖b‖ ≤ ans.normR ∨ ∃ u, stag u ans.x = true))) := by
  unfold fgmres at h
  by_cases hl : len ≤ restart
  · rw [if_pos hl] at h; exact absurd h (by simp)
  · rw [if_neg hl] at h
    refine ⟨by omega, ?_⟩
    by_cases hb : ‖b‖ = 0
    · rw [if_pos hb, Option.some.injEq] at h
      have : b = 0 := norm_eq_zero.1 hb
      subst h
      subst this
      exact ⟨fun _ => ⟨rfl, rfl⟩, by simp, fun h => absurd rfl h⟩
    · rw [if_neg hb] at h
      obtain ⟨o1, o2⟩ := outer_spec A b (tol * ‖b‖) cyc stag _ _ _ ans h
      exact ⟨fun h0 => absurd (by rw [h0, norm_zero]) hb, o1, fun _ => o2⟩

/-- **C33**: with the cycles of the code, the residual of the answer is at most that of the initial guess, and at most
    `maxiter · restart` inner iterations are made. -/
theorem C33_progress (A : W →ₗ[ℝ] W) (M : W → W) (b x0 : W) (hb : b ≠ 0) (tol : ℝ) (htol : 0 < tol) (restart len maxiter : Nat)
    (hre : 1 ≤ restart) (cyc : W → W → Option (W × Nat)) (hcyc : IsCycle A M (tol * ‖b‖) restart cyc) (stag : W → W → Bool)
    (ans : Answer W) (h : fgmres A b x0 tol restart len maxiter false cyc stag = some ans) :
    ‖b - A ans.x‖ ≤ ‖b - A x0‖ ∧ ans.niter ≤ maxiter * restart := by
  have hn : ‖b‖ ≠ 0 := norm_ne_zero_iff.2 hb
  unfold fgmres at h
  by_cases hl : len ≤ restart
  · rw [if_pos hl] at h; exact absurd h (by simp)
  · rw [if_neg hl, if_neg hn] at h
    have := outer_progress A M b (tol * ‖b‖) (by positivity) restart hre cyc hcyc stag _ _ _ ans h
    simpa using this

/-- **C33**: the Hegedüs scaling gives the multiple of the initial guess with the smallest residual. -/
theorem C33_rescale (A : W →ₗ[ℝ] W) (b x0 : W) (xi : ℝ) : ‖b - A (rescale A b x0)‖ ≤ ‖b - A (xi • x0)‖ := by
  unfold rescale
  by_cases h : inner ℝ (A x0) (A x0) ≠ (0 : ℝ)
  · rw [if_pos h, map_smul, map_smul]
    set v := A x0
    set k := (inner ℝ b v : ℝ) / inner ℝ v v with hk
    apply le_of_sq_le_sq _ (norm_nonneg _)
    have e : ∀ c : ℝ, ‖b - c • v‖ ^ 2 = inner ℝ b b - 2 * c * inner ℝ b v + c ^ 2 * inner ℝ v v := by
      intro c
      rw [← real_inner_self_eq_norm_sq, inner_sub_left, inner_sub_right, inner_sub_right, inner_smul_left, inner_smul_left,
        inner_smul_right, inner_smul_right, real_inner_comm b v]
      simp only [conj_trivial]; ring
    rw [e, e]
    have hpos : 0 ≤ (inner ℝ v v : ℝ) := real_inner_self_nonneg
    have hb : (inner ℝ b v : ℝ) = k * inner ℝ v v := by rw [hk, div_mul_cancel₀ _ h]
    rw [hb]
    nlinarith [mul_nonneg hpos (sq_nonneg (xi - k))]
  · rw [if_neg h]
    push Not at h
    have : A x0 = 0 := inner_self_eq_zero.1 h
    rw [map_smul, this, smul_zero]

/-- **C33**, where the solver fails: an initial guess that already solves the system makes it raise an exception, with and
    without the scaling of the initial guess. -/
theorem C33_exact_guess_fails (A : W →ₗ[ℝ] W) (b x0 : W) (hb : b ≠ 0) (hx : A x0 = b) (tol : ℝ) (restart len maxiter : Nat)
    (hm : 1 ≤ maxiter) (hegedus : Bool) (cyc : W → W → Option (W × Nat)) (stag : W → W → Bool) :
    fgmres A b x0 tol restart len maxiter hegedus cyc stag = none := by
  have hn : ‖b‖ ≠ 0 := norm_ne_zero_iff.2 hb
  have hs : rescale A b x0 = x0 := by
    unfold rescale
    have hne : inner ℝ b b ≠ (0 : ℝ) := fun h => hb (inner_self_eq_zero.1 h)
    rw [hx, if_pos hne, div_self hne, one_smul]
  obtain ⟨m, rfl⟩ : ∃ m, maxiter = m + 1 := ⟨maxiter - 1, by omega⟩
  unfold fgmres
  by_cases hl : len ≤ restart
  · rw [if_pos hl]
  · rw [if_neg hl, if_neg hn]
    have : (if hegedus = true then rescale A b x0 else x0) = x0 := by rw [hs, ite_self]
    rw [this, outer, if_pos]
    rw [hx, sub_self, norm_zero]

/-- the hypotheses can be met: a cycle that raises always, and one that is the model's with a solution if there is one -/
example (A : W →ₗ[ℝ] W) (M : W → W) (tolRel : ℝ) (restart : Nat) :
    ∃ cyc, IsCycle A M tolRel restart cyc ∧
      ∀ x r, (∃ y, Solves (cycle A M tolRel restart r).1 (cycle A M tolRel restart r).2.2 y) → (cyc x r).isSome := by
  classical
  refine ⟨fun x r => if h : ∃ y, Solves (cycle A M tolRel restart r).1 (cycle A M tolRel restart r).2.2 y then
    some (update (cycle A M tolRel restart r) h.choose, (cycle A M tolRel restart r).1 + 1) else none, ?_, ?_⟩
  · intro x r u n h
    simp only at h
    split_ifs at h with h1
    rw [Option.some.injEq, Prod.mk.injEq] at h
    exact ⟨h1.choose, h1.choose_spec, h.1.symm, h.2.symm⟩
  · intro x r h
    simp [h]

end

end WxVerif.Props.Gmres
