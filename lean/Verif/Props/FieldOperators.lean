import Verif.Lemmas.FieldOperators
import Verif.Props.Layout
import Mathlib.Algebra.Polynomial.Eval.Degree

/-!
# C95: derivatives and extrapolations of fields stored as one block

The statements say what the operators return through polynomials: the values of a field along a line of an element, with
or without its two ends, are those of one polynomial, and every set of values is of this form.
-/

namespace WxVerif.Props.FieldOperators

open WxVerif.Nd WxVerif.Dfr WxVerif.Tile WxVerif.Layout
open Polynomial
open WxVerif.Props.Operators (lineDeriv C42_corrected C42_lagrange_eval C42_extrapolation df1_3d_line df2_3d_line df3_3d_line)
open WxVerif.Props.Layout (C40_to_new_3d C40_itf_i_3d C40_itf_j_3d C40_itf_k_3d)

variable {K : Type*} [Field K]

/-- the values `f 0, …, f (n - 1)` are those of `p` at the points -/
def Through (n : Nat) (pts : Nat → K) (p : K[X]) (f : Nat → K) : Prop := ∀ q < n, f q = p.eval (pts q)

theorem lineDeriv_poly {n : Nat} {pts : Nat → K} (hinj : Set.InjOn (extension n pts) (Finset.range (n + 2))) {p : K[X]}
    (hp : p.degree < ((n + 2 : Nat) : WithBot Nat)) {f : Nat → K} (hf : Through n pts p f) {l r : K} (hl : l = p.eval (-1)) (hr : r = p.eval 1)
    {i : Nat} (hi : i < n) : lineDeriv n pts f l r i = (derivative p).eval (pts i) := by
  rw [lineDeriv, hl, hr, ← C42_corrected n pts hinj p hp i hi]
  congr 2
  exact Finset.sum_congr rfl fun q hq => by rw [hf q (Finset.mem_range.1 hq)]

theorem lineEdge_poly [CharZero K] {n : Nat} {pts : Nat → K} (hinj : Set.InjOn pts (Finset.range n)) {p : K[X]}
    (hp : p.degree < (n : WithBot Nat)) {f : Nat → K} (hf : Through n pts p f) (side : Nat) :
    lineEdge n pts f side = p.eval (if side = 0 then -1 else 1) := by
  rw [lineEdge, ← WxVerif.Props.Operators.extrapVec_exact hinj hp (if side = 0 then -1 else 1) hf]
  exact Finset.sum_congr rfl fun q _ => mul_comm _ _

/-- **C95** The derivative of any number of fields along each direction: along the line of the element that a point lies on,
the result is the exact derivative, in the coordinate of the element, of the polynomial through the values at the points of
the element and the two given values at its ends; points of other elements and of other lines play no part. -/
theorem C95_derivatives {nx ny nz n : Nat} (hn : 0 < n) (hx : 0 < nx) (hy : 0 < ny) (hz : 0 < nz) (pts : Nat → K)
    (hinj : Set.InjOn (extension n pts) (Finset.range (n + 2))) (lead : List Nat) (a bi bj bk : Arr K)
    (ha : a.shape = lead ++ [nz * n, ny * n, nx * n]) (hbi : bi.shape = lead ++ [nz * n, ny * n, nx, 2])
    (hbj : bj.shape = lead ++ [nz * n, ny, 2, nx * n]) (hbk : bk.shape = lead ++ [nz, 2, ny * n, nx * n]) :
    ∃ di dj dk, commaI n pts a bi = some di ∧ commaJ nx ny n pts a bj = some dj ∧ commaK nx ny nz n pts a bk = some dk ∧
      di.shape = a.shape ∧ dj.shape = a.shape ∧ dk.shape = a.shape ∧
      ∀ l, Valid l lead → ∀ p : K[X], p.degree < ((n + 2 : Nat) : WithBot Nat) →
        (∀ k < nz * n, ∀ j < ny * n, ∀ e < nx, Through n pts p (fun q => a.get (l ++ [k, j, e * n + q])) →
          bi.get (l ++ [k, j, e, 0]) = p.eval (-1) → bi.get (l ++ [k, j, e, 1]) = p.eval 1 →
          ∀ i < n, di.get (l ++ [k, j, e * n + i]) = (derivative p).eval (pts i)) ∧
        (∀ k < nz * n, ∀ e < ny, ∀ i < nx * n, Through n pts p (fun q => a.get (l ++ [k, e * n + q, i])) →
          bj.get (l ++ [k, e, 0, i]) = p.eval (-1) → bj.get (l ++ [k, e, 1, i]) = p.eval 1 →
          ∀ j < n, dj.get (l ++ [k, e * n + j, i]) = (derivative p).eval (pts j)) ∧
        (∀ e < nz, ∀ j < ny * n, ∀ i < nx * n, Through n pts p (fun q => a.get (l ++ [e * n + q, j, i])) →
          bk.get (l ++ [e, 0, j, i]) = p.eval (-1) → bk.get (l ++ [e, 1, j, i]) = p.eval 1 →
          ∀ k < n, dk.get (l ++ [e * n + k, j, i]) = (derivative p).eval (pts k)) := by
  obtain ⟨di, h1, s1, g1⟩ := commaI_eq hn pts (m := nx) (s := lead ++ [nz * n, ny * n]) a bi (by rw [ha]; simp) (by rw [hbi]; simp)
  obtain ⟨dj, h2, s2, g2⟩ := commaJ_eq hn hx hy pts (s := lead ++ [nz * n]) a bj (by rw [ha]; simp) (by rw [hbj]; simp)
  obtain ⟨dk, h3, s3, g3⟩ := commaK_eq hn hx hy hz pts (s := lead) a bk ha hbk
  refine ⟨di, dj, dk, h1, h2, h3, s1, s2, s3, fun l hl p hp => ⟨?_, ?_, ?_⟩⟩
  · intro k hk j hj e he hf hw hE i hi
    have := g1 (l ++ [k, j]) (hl.append (by simp only [valid_cons, valid_nil, and_true]; exact ⟨hk, hj⟩)) e he i hi
    simp only [List.append_assoc, List.cons_append, List.nil_append] at this
    rw [this]; exact lineDeriv_poly hinj hp hf hw hE hi
  · intro k hk e he i hi hf hw hE j hj
    have := g2 (l ++ [k]) (hl.append (by simp only [valid_cons, valid_nil, and_true]; exact hk)) e he j hj i hi
    simp only [List.append_assoc, List.cons_append, List.nil_append] at this
    rw [this]; exact lineDeriv_poly hinj hp hf hw hE hj
  · intro e he j hj i hi hf hw hE k hk
    rw [g3 l hl e he k hk j hj i hi]; exact lineDeriv_poly hinj hp hf hw hE hk

/-- **C95** Extrapolation of any number of fields to the ends of the elements: the two results of an element are the values
at its ends of the polynomial through the values at its points.  Along the third direction the leading axes of several
fields become one axis, and the leading axes of a single field disappear. -/
theorem C95_extrapolations_partial [CharZero K] {nx ny nz n : Nat} (hn : 0 < n) (hx : 0 < nx) (hy : 0 < ny) (hz : 0 < nz) (pts : Nat → K)
    (hinj : Set.InjOn pts (Finset.range n)) (lead : List Nat) (h0 : 0 < size lead) (a : Arr K) (ha : a.shape = lead ++ [nz * n, ny * n, nx * n]) :
    ∃ di dj dk, extrapolateI nx n pts a = some di ∧ extrapolateJ nx ny n pts a = some dj ∧ extrapolateK nx ny nz n pts a = some dk ∧
      di.shape = lead ++ [nz * n, ny * n, nx, 2] ∧ dj.shape = lead ++ [nz * n, ny, 2, nx * n] ∧
      dk.shape = (if size lead > 1 then [size lead] else []) ++ [nz, 2, ny * n, nx * n] ∧
      ∀ l, Valid l lead → ∀ p : K[X], p.degree < (n : WithBot Nat) →
        (∀ k < nz * n, ∀ j < ny * n, ∀ e < nx, Through n pts p (fun q => a.get (l ++ [k, j, e * n + q])) →
          di.get (l ++ [k, j, e, 0]) = p.eval (-1) ∧ di.get (l ++ [k, j, e, 1]) = p.eval 1) ∧
        (∀ k < nz * n, ∀ e < ny, ∀ i < nx * n, Through n pts p (fun q => a.get (l ++ [k, e * n + q, i])) →
          dj.get (l ++ [k, e, 0, i]) = p.eval (-1) ∧ dj.get (l ++ [k, e, 1, i]) = p.eval 1) ∧
        (∀ e < nz, ∀ j < ny * n, ∀ i < nx * n, Through n pts p (fun q => a.get (l ++ [e * n + q, j, i])) →
          dk.get ((if size lead > 1 then [ravel lead l] else []) ++ [e, 0, j, i]) = p.eval (-1) ∧
          dk.get ((if size lead > 1 then [ravel lead l] else []) ++ [e, 1, j, i]) = p.eval 1) := by
  obtain ⟨di, h1, s1, g1⟩ := extrapolateI_eq hn hx pts (s := lead ++ [nz * n, ny * n]) a (by rw [ha]; simp)
  obtain ⟨dj, h2, s2, g2⟩ := extrapolateJ_eq hn hx hy pts (s := lead ++ [nz * n]) a (by rw [ha]; simp)
  obtain ⟨dk, h3, s3, g3⟩ := extrapolateK_eq hn hx hy hz pts (s := lead) a ha rfl h0
  refine ⟨di, dj, dk, h1, h2, h3, by rw [s1]; simp, by rw [s2]; simp, s3, fun l hl p hp => ⟨?_, ?_, ?_⟩⟩
  · intro k hk j hj e he hf
    have := g1 (l ++ [k, j]) (hl.append (by simp only [valid_cons, valid_nil, and_true]; exact ⟨hk, hj⟩)) e he
    simp only [List.append_assoc, List.cons_append, List.nil_append] at this
    exact ⟨by rw [this 0 (by omega)]; exact lineEdge_poly hinj hp hf 0, by rw [this 1 (by omega)]; exact lineEdge_poly hinj hp hf 1⟩
  · intro k hk e he i hi hf
    have := g2 (l ++ [k]) (hl.append (by simp only [valid_cons, valid_nil, and_true]; exact hk)) e he
    simp only [List.append_assoc, List.cons_append, List.nil_append] at this
    exact ⟨by rw [this 0 (by omega) i hi]; exact lineEdge_poly hinj hp hf 0, by rw [this 1 (by omega) i hi]; exact lineEdge_poly hinj hp hf 1⟩
  · intro e he j hj i hi hf
    have hlt := ravel_lt hl
    have hu : Valid (if size lead > 1 then [ravel lead l] else []) (if size lead > 1 then [size lead] else []) := by
      split
      · simp only [valid_cons, valid_nil, and_true]; exact hlt
      · exact valid_nil
    have hr : ravel (if size lead > 1 then [size lead] else []) (if size lead > 1 then [ravel lead l] else []) = ravel lead l := by
      split
      · simp [ravel, size_nil]
      · simp only [ravel]; omega
    have := g3 l hl _ hu hr e he
    exact ⟨by rw [this 0 (by omega) j hj i hi]; exact lineEdge_poly hinj hp hf 0,
      by rw [this 1 (by omega) j hj i hi]; exact lineEdge_poly hinj hp hf 1⟩

/-- **C95, negation** of "the result has shape `(numvars, nels_z, 2, npts_y, npts_x)`": for an array of one field the axis of
the fields is missing, so that the result cannot be handed to the derivative with the others, and for a matrix of fields its
two axes are merged. -/
theorem C95_extrapolate_k_fails {nx ny nz n : Nat} (hn : 0 < n) (hx : 0 < nx) (hy : 0 < ny) (hz : 0 < nz) (pts : Nat → K) (a : Arr K) :
    (a.shape = [1, nz * n, ny * n, nx * n] → ∃ d, extrapolateK nx ny nz n pts a = some d ∧ d.shape ≠ [1, nz, 2, ny * n, nx * n]) ∧
    (a.shape = [3, 3, nz * n, ny * n, nx * n] → ∃ d, extrapolateK nx ny nz n pts a = some d ∧ d.shape ≠ [3, 3, nz, 2, ny * n, nx * n]) := by
  constructor
  · intro ha
    obtain ⟨d, h, s, -⟩ := extrapolateK_eq hn hx hy hz pts (s := [1]) a ha rfl (by decide)
    exact ⟨d, h, by rw [s]; intro hc; have := congrArg List.length hc; simp [size] at this⟩
  · intro ha
    obtain ⟨d, h, s, -⟩ := extrapolateK_eq hn hx hy hz pts (s := [3, 3]) a ha rfl (by decide)
    exact ⟨d, h, by rw [s]; intro hc; have := congrArg List.length hc; simp [size] at this⟩

theorem pairs_shape {α : Type*} (s t : List Nat) (m : Nat) (a : Arr α) (ha : a.shape = s ++ (m + 1) :: t) :
    (pairs t.length a).shape = s ++ m :: 2 :: t := by
  have hm : a.shape.length - (t.length + 1) = s.length := by rw [ha]; simp
  simp only [pairs]
  rw [hm, ha]
  simp [List.drop_append]

theorem pairs_get {α : Type*} (s t : List Nat) (m : Nat) (a : Arr α) (ha : a.shape = s ++ (m + 1) :: t) {u : List Nat} (hu : u.length = s.length)
    (v : List Nat) (e side : Nat) : (pairs t.length a).get (u ++ e :: side :: v) = a.get (u ++ (e + side) :: v) := by
  have hm : a.shape.length - (t.length + 1) = s.length := by rw [ha]; simp
  simp only [pairs]
  rw [hm, ← hu]
  simp [List.drop_append, List.drop_eq_nil_of_le]

/-- **C95** The slopes of the height of the levels, as the metric computes them from the heights at the points and at the
interfaces (`metric3d.py` 105-115): if the height along an element of width `Δ` centred at `c` is a polynomial of the
coordinate, of degree at most `n + 1`, the computed slope is exactly its derivative at the point. -/
theorem C95_slopes {nx ny nz n : Nat} (hn : 0 < n) (hx : 0 < nx) (hy : 0 < ny) (hz : 0 < nz) (pts : Nat → ℝ)
    (hinj : Set.InjOn (extension n pts) (Finset.range (n + 2))) (a bi bj bk : Arr ℝ)
    (ha : a.shape = [nz * n, ny * n, nx * n]) (hbi : bi.shape = [nz * n, ny * n, nx + 1])
    (hbj : bj.shape = [nz * n, ny + 1, nx * n]) (hbk : bk.shape = [nz + 1, ny * n, nx * n]) :
    ∃ di dj dk, commaI n pts a (pairs 0 bi) = some di ∧ commaJ nx ny n pts a (pairs 1 bj) = some dj ∧
      commaK nx ny nz n pts a (pairs 2 bk) = some dk ∧ di.shape = a.shape ∧ dj.shape = a.shape ∧ dk.shape = a.shape ∧
      ∀ p : ℝ[X], p.degree < ((n + 2 : Nat) : WithBot Nat) → ∀ c Δ : ℝ, Δ ≠ 0 →
        (∀ k < nz * n, ∀ j < ny * n, ∀ e < nx, (∀ q < n, a.get [k, j, e * n + q] = p.eval (c + Δ / 2 * pts q)) →
          bi.get [k, j, e] = p.eval (c - Δ / 2) → bi.get [k, j, e + 1] = p.eval (c + Δ / 2) →
          ∀ i < n, di.get [k, j, e * n + i] * 2 / Δ = (derivative p).eval (c + Δ / 2 * pts i)) ∧
        (∀ k < nz * n, ∀ e < ny, ∀ i < nx * n, (∀ q < n, a.get [k, e * n + q, i] = p.eval (c + Δ / 2 * pts q)) →
          bj.get [k, e, i] = p.eval (c - Δ / 2) → bj.get [k, e + 1, i] = p.eval (c + Δ / 2) →
          ∀ j < n, dj.get [k, e * n + j, i] * 2 / Δ = (derivative p).eval (c + Δ / 2 * pts j)) ∧
        (∀ e < nz, ∀ j < ny * n, ∀ i < nx * n, (∀ q < n, a.get [e * n + q, j, i] = p.eval (c + Δ / 2 * pts q)) →
          bk.get [e, j, i] = p.eval (c - Δ / 2) → bk.get [e + 1, j, i] = p.eval (c + Δ / 2) →
          ∀ k < n, dk.get [e * n + k, j, i] * 2 / Δ = (derivative p).eval (c + Δ / 2 * pts k)) := by
  obtain ⟨di, dj, dk, h1, h2, h3, s1, s2, s3, g⟩ := C95_derivatives hn hx hy hz pts hinj [] a (pairs 0 bi) (pairs 1 bj) (pairs 2 bk) ha
    (pairs_shape [nz * n, ny * n] [] nx bi hbi) (pairs_shape [nz * n] [nx * n] ny bj hbj) (pairs_shape [] [ny * n, nx * n] nz bk hbk)
  refine ⟨di, dj, dk, h1, h2, h3, s1, s2, s3, fun p hp c Δ hΔ => ?_⟩
  have hev : ∀ x, (p.comp (C c + C (Δ / 2) * X)).eval x = p.eval (c + Δ / 2 * x) := by intro x; simp
  have hdv : ∀ x, (derivative (p.comp (C c + C (Δ / 2) * X))).eval x * 2 / Δ = (derivative p).eval (c + Δ / 2 * x) := by
    intro x
    rw [derivative_comp]
    simp only [derivative_add, derivative_C, zero_add, derivative_mul, zero_mul, derivative_X, mul_one, eval_mul, eval_C, eval_comp,
      eval_add, eval_X]
    field_simp
  have hdeg : (p.comp (C c + C (Δ / 2) * X)).degree < ((n + 2 : Nat) : WithBot Nat) := by
    rcases eq_or_ne p 0 with rfl | h0
    · rw [zero_comp]; exact hp
    refine lt_of_le_of_lt degree_le_natDegree ?_
    have h1 : (p.comp (C c + C (Δ / 2) * X)).natDegree ≤ p.natDegree := by
      refine le_trans natDegree_comp_le ?_
      have : (C c + C (Δ / 2) * X : ℝ[X]).natDegree ≤ 1 := by
        rw [add_comm]; exact natDegree_linear_le
      nlinarith [Nat.zero_le p.natDegree]
    have h2 := (natDegree_lt_iff_degree_lt h0).2 hp
    exact_mod_cast lt_of_le_of_lt h1 h2
  obtain ⟨gi, gj, gk⟩ := g [] valid_nil _ hdeg
  refine ⟨?_, ?_, ?_⟩
  · intro k hk j hj e he hf hl hr i hi
    have e1 := pairs_get [nz * n, ny * n] [] nx bi hbi (u := [k, j]) rfl [] e
    rw [← hdv, ← gi k hk j hj e he (fun q hq => by rw [hev]; exact hf q hq) (by rw [hev]; exact (e1 0).trans (hl.trans (by congr 1; ring)))
      (by rw [hev]; exact (e1 1).trans (hr.trans (by congr 1; ring))) i hi]
    rfl
  · intro k hk e he i hi hf hl hr j hj
    have e1 := pairs_get [nz * n] [nx * n] ny bj hbj (u := [k]) rfl [i] e
    rw [← hdv, ← gj k hk e he i hi (fun q hq => by rw [hev]; exact hf q hq) (by rw [hev]; exact (e1 0).trans (hl.trans (by congr 1; ring)))
      (by rw [hev]; exact (e1 1).trans (hr.trans (by congr 1; ring))) j hj]
    rfl
  · intro e he j hj i hi hf hl hr k hk
    have e1 := pairs_get [] [ny * n, nx * n] nz bk hbk (u := []) rfl [j, i] e
    rw [← hdv, ← gk e he j hj i hi (fun q hq => by rw [hev]; exact hf q hq) (by rw [hev]; exact (e1 0).trans (hl.trans (by congr 1; ring)))
      (by rw [hev]; exact (e1 1).trans (hr.trans (by congr 1; ring))) k hk]
    rfl

/-- **C95** Both storage orders give the same derivatives: converting the derivative of a block to the element order gives
what the element-order operators (`df1_3d`, `df2_3d`, `df3_3d`, as used by the metric and by the right-hand side) compute
from the converted field and the converted interface values (`metric3d.py` 105-125). -/
theorem C95_layouts {nx ny nz n : Nat} (hn : 0 < n) (hx : 0 < nx) (hy : 0 < ny) (hz : 0 < nz) (pts : Nat → K) (junk : List Nat → K)
    (lead : List Nat) (a bi bj bk : Arr K) (ha : a.shape = lead ++ [nz * n, ny * n, nx * n]) (hbi : bi.shape = lead ++ [nz * n, ny * n, nx + 1])
    (hbj : bj.shape = lead ++ [nz * n, ny + 1, nx * n]) (hbk : bk.shape = lead ++ [nz + 1, ny * n, nx * n]) :
    ∃ di dj dk Di Dj Dk A Bi Bj Bk, commaI n pts a (pairs 0 bi) = some di ∧ commaJ nx ny n pts a (pairs 1 bj) = some dj ∧
      commaK nx ny nz n pts a (pairs 2 bk) = some dk ∧
      toNew3 nx ny nz n di = some Di ∧ toNew3 nx ny nz n dj = some Dj ∧ toNew3 nx ny nz n dk = some Dk ∧
      toNew3 nx ny nz n a = some A ∧ toNewItfI3 nx ny nz n junk bi = some Bi ∧ toNewItfJ3 nx ny nz n bj = some Bj ∧
      toNewItfK3 nx ny nz n bk = some Bk ∧
      ∀ l, Valid l lead → ∀ e3 < nz, ∀ e2 < ny, ∀ e1 < nx, ∀ k < n, ∀ j < n, ∀ i < n,
        Di.get (l ++ [e3, e2, e1, (k * n + j) * n + i]) =
          df1_3d n pts (fun c => A.get (l ++ [e3, e2, e1, c])) (fun c => Bi.get (l ++ [e3, e2, e1 + 1, c])) ((k * n + j) * n + i) ∧
        Dj.get (l ++ [e3, e2, e1, (k * n + j) * n + i]) =
          df2_3d n pts (fun c => A.get (l ++ [e3, e2, e1, c])) (fun c => Bj.get (l ++ [e3, e2 + 1, e1, c])) ((k * n + j) * n + i) ∧
        Dk.get (l ++ [e3, e2, e1, (k * n + j) * n + i]) =
          df3_3d n pts (fun c => A.get (l ++ [e3, e2, e1, c])) (fun c => Bk.get (l ++ [e3 + 1, e2, e1, c])) ((k * n + j) * n + i) := by
  have ui : bi.shape = (lead ++ [nz * n, ny * n]) ++ (nx + 1) :: [] := by rw [hbi]; simp
  have uj : bj.shape = (lead ++ [nz * n]) ++ (ny + 1) :: [nx * n] := by rw [hbj]; simp
  have uk : bk.shape = lead ++ (nz + 1) :: [ny * n, nx * n] := hbk
  obtain ⟨di, h1, s1, g1⟩ := commaI_eq hn pts (m := nx) (s := lead ++ [nz * n, ny * n]) a (pairs 0 bi) (by rw [ha]; simp)
    (pairs_shape _ [] nx bi ui)
  obtain ⟨dj, h2, s2, g2⟩ := commaJ_eq hn hx hy pts (s := lead ++ [nz * n]) a (pairs 1 bj) (by rw [ha]; simp) (pairs_shape _ [nx * n] ny bj uj)
  obtain ⟨dk, h3, s3, g3⟩ := commaK_eq hn hx hy hz pts (s := lead) a (pairs 2 bk) ha (pairs_shape _ [ny * n, nx * n] nz bk uk)
  obtain ⟨Di, t1, -, q1⟩ := C40_to_new_3d nx ny nz n lead di (s1.trans ha)
  obtain ⟨Dj, t2, -, q2⟩ := C40_to_new_3d nx ny nz n lead dj (s2.trans ha)
  obtain ⟨Dk, t3, -, q3⟩ := C40_to_new_3d nx ny nz n lead dk (s3.trans ha)
  obtain ⟨A, t4, -, q4⟩ := C40_to_new_3d nx ny nz n lead a ha
  obtain ⟨Bi, t5, -, q5⟩ := C40_itf_i_3d nx ny nz n junk lead bi hbi
  obtain ⟨Bj, t6, -, q6⟩ := C40_itf_j_3d nx ny nz n lead bj hbj
  obtain ⟨Bk, t7, -, q7⟩ := C40_itf_k_3d nx ny nz n lead bk hbk
  refine ⟨di, dj, dk, Di, Dj, Dk, A, Bi, Bj, Bk, h1, h2, h3, t1, t2, t3, t4, t5, t6, t7, ?_⟩
  intro l hl e3 he3 e2 he2 e1 he1 k hk j hj i hi
  have hl' := hl.length
  refine ⟨?_, ?_, ?_⟩
  · have g := g1 (l ++ [e3 * n + k, e2 * n + j]) (hl.append (by simp only [valid_cons, valid_nil, and_true]; exact ⟨row_lt he3 hk, row_lt he2 hj⟩)) e1 he1 i hi
    have p0 := pairs_get _ [] nx bi ui (u := l ++ [e3 * n + k, e2 * n + j]) (by simp [hl']) [] e1
    have p1 := p0 1
    have p0 := p0 0
    simp only [List.append_assoc, List.cons_append, List.nil_append, List.length_nil, Nat.add_zero] at g p0 p1
    have r := q5 l hl e3 he3 e2 he2 k hk j hj
    rw [q1 l hl e3 he3 e2 he2 e1 he1 k hk j hj i hi, g, df1_3d_line pts _ _ hk hj hi, p0, p1]
    unfold lineDeriv
    rw [(r.1 e1 (by omega)).2, ← pow_two, (r.1 (e1 + 1) (by omega)).1]
    congr 2
    refine Finset.sum_congr rfl fun q hq => ?_
    beta_reduce
    rw [q4 l hl e3 he3 e2 he2 e1 he1 k hk j hj q (Finset.mem_range.1 hq)]
  · have g := g2 (l ++ [e3 * n + k]) (hl.append (by simp only [valid_cons, valid_nil, and_true]; exact row_lt he3 hk)) e2 he2 j hj (e1 * n + i) (row_lt he1 hi)
    have p0 := pairs_get _ [nx * n] ny bj uj (u := l ++ [e3 * n + k]) (by simp [hl']) [e1 * n + i] e2
    have p1 := p0 1
    have p0 := p0 0
    simp only [List.append_assoc, List.cons_append, List.nil_append, List.length_nil, List.length_cons, Nat.zero_add, Nat.add_zero] at g p0 p1
    have r := q6 l hl e3 he3 e1 he1 k hk i hi
    rw [q2 l hl e3 he3 e2 he2 e1 he1 k hk j hj i hi, g, df2_3d_line pts _ _ hk hj hi, p0, p1]
    unfold lineDeriv
    rw [(r.1 e2 (by omega)).2, ← pow_two, (r.1 (e2 + 1) (by omega)).1]
    congr 2
    refine Finset.sum_congr rfl fun q hq => ?_
    beta_reduce
    rw [q4 l hl e3 he3 e2 he2 e1 he1 k hk q (Finset.mem_range.1 hq) i hi]
  · have g := g3 l hl e3 he3 k hk (e2 * n + j) (row_lt he2 hj) (e1 * n + i) (row_lt he1 hi)
    have p0 := pairs_get _ [ny * n, nx * n] nz bk uk (u := l) hl' [e2 * n + j, e1 * n + i] e3
    have p1 := p0 1
    have p0 := p0 0
    simp only [List.length_nil, List.length_cons, Nat.zero_add, Nat.add_zero] at p0 p1
    have r := q7 l hl e2 he2 e1 he1 j hj i hi
    rw [q3 l hl e3 he3 e2 he2 e1 he1 k hk j hj i hi, g, df3_3d_line pts _ _ hj hi, p0, p1]
    unfold lineDeriv
    rw [(r.1 e3 (by omega)).2, ← pow_two, (r.1 (e3 + 1) (by omega)).1]
    congr 2
    refine Finset.sum_congr rfl fun q hq => ?_
    beta_reduce
    rw [q4 l hl e3 he3 e2 he2 e1 he1 q (Finset.mem_range.1 hq) j hj i hi]

/-- **C95** The gradient of any number of fields from one value per interface: the three components are the exact derivatives
of the polynomials through the values of the element along the three directions, whose ends are the interfaces on both sides. -/
theorem C95_gradient {nx ny nz n : Nat} (hn : 0 < n) (hx : 0 < nx) (hy : 0 < ny) (hz : 0 < nz) (pts : Nat → K)
    (hinj : Set.InjOn (extension n pts) (Finset.range (n + 2))) (lead : List Nat) (a bi bj bk : Arr K)
    (ha : a.shape = lead ++ [nz * n, ny * n, nx * n]) (hbi : bi.shape = lead ++ [nz * n, ny * n, nx + 1])
    (hbj : bj.shape = lead ++ [nz * n, ny + 1, nx * n]) (hbk : bk.shape = lead ++ [nz + 1, ny * n, nx * n]) :
    ∃ d, grad nx ny nz n pts a bi bj bk = some d ∧ d.shape = 3 :: a.shape ∧
      ∀ l, Valid l lead → ∀ p : K[X], p.degree < ((n + 2 : Nat) : WithBot Nat) →
        (∀ k < nz * n, ∀ j < ny * n, ∀ e < nx, Through n pts p (fun q => a.get (l ++ [k, j, e * n + q])) →
          bi.get (l ++ [k, j, e]) = p.eval (-1) → bi.get (l ++ [k, j, e + 1]) = p.eval 1 →
          ∀ i < n, d.get (0 :: l ++ [k, j, e * n + i]) = (derivative p).eval (pts i)) ∧
        (∀ k < nz * n, ∀ e < ny, ∀ i < nx * n, Through n pts p (fun q => a.get (l ++ [k, e * n + q, i])) →
          bj.get (l ++ [k, e, i]) = p.eval (-1) → bj.get (l ++ [k, e + 1, i]) = p.eval 1 →
          ∀ j < n, d.get (1 :: l ++ [k, e * n + j, i]) = (derivative p).eval (pts j)) ∧
        (∀ e < nz, ∀ j < ny * n, ∀ i < nx * n, Through n pts p (fun q => a.get (l ++ [e * n + q, j, i])) →
          bk.get (l ++ [e, j, i]) = p.eval (-1) → bk.get (l ++ [e + 1, j, i]) = p.eval 1 →
          ∀ k < n, d.get (2 :: l ++ [e * n + k, j, i]) = (derivative p).eval (pts k)) := by
  have flat : ∀ (x y z : Nat) (b : Arr K), b.shape = lead ++ [x, y, z] → ∀ l, Valid l lead → ∀ k < x, ∀ j < y, ∀ i < z,
      (reshape [size lead, x, y, z] b).get [ravel lead l, k, j, i] = b.get (l ++ [k, j, i]) := by
    intro x y z b hb l hl k hk j hj i hi
    apply reshape_get b hb (hl.append (by simp only [valid_cons, valid_nil, and_true]; exact ⟨hk, hj, hi⟩))
    rw [ravel_append hl.length, size_three]
    simp only [ravel, size_two, size_one, size_nil, size_three]
  have fsize : ∀ (x y z : Nat) (b : Arr K), b.shape = lead ++ [x, y, z] → size [size lead, x, y, z] = size b.shape := by
    intro x y z b hb
    rw [hb, size_append, size_cons]
  have hp : 0 < size [nz * n, ny * n, nx * n] := by rw [size_three]; positivity
  have e0 := setRows_some (a := a) hp (r := size lead) (by rw [ha, size_append])
  obtain ⟨di, dj, dk, h1, h2, h3, s1, s2, s3, g⟩ := C95_derivatives hn hx hy hz pts hinj [size lead] (reshape [size lead, nz * n, ny * n, nx * n] a)
    (pairs 0 (reshape [size lead, nz * n, ny * n, nx + 1] bi)) (pairs 1 (reshape [size lead, nz * n, ny + 1, nx * n] bj))
    (pairs 2 (reshape [size lead, nz + 1, ny * n, nx * n] bk)) rfl
    (pairs_shape [size lead, nz * n, ny * n] [] nx _ rfl) (pairs_shape [size lead, nz * n] [nx * n] ny _ rfl)
    (pairs_shape [size lead] [ny * n, nx * n] nz _ rfl)
  have hs3 : size (3 :: a.shape) = size (stack3 di dj dk).shape := by
    have : size (reshape [size lead, nz * n, ny * n, nx * n] a).shape = size a.shape := fsize _ _ _ a ha
    simp only [stack3]
    rw [s1, size_cons, size_cons, this]
  refine ⟨reshape (3 :: a.shape) (stack3 di dj dk), ?_, rfl, fun l hl p hp => ?_⟩
  · have l1 : a.shape.getD (a.shape.length - 3) 0 = nz * n := by rw [ha]; simp
    have l2 : a.shape.getD (a.shape.length - 2) 0 = ny * n := by rw [ha]; simp
    have l3 : a.shape.getD (a.shape.length - 1) 0 = nx * n := by rw [ha]; simp
    have l4 : bi.shape.getLastD 0 - 1 + 1 = nx + 1 := by rw [hbi]; simp
    have l5 : bj.shape.getD (bj.shape.length - 2) 0 - 1 + 1 = ny + 1 := by rw [hbj]; simp
    have l6 : bk.shape.getD (bk.shape.length - 3) 0 - 1 + 1 = nz + 1 := by rw [hbk]; simp
    unfold grad
    simp only [l1, l2, l3, l4, l5, l6]
    rw [e0]
    have l7 : (reshape (size lead :: [nz * n, ny * n, nx * n]) a).shape.headD 0 = size lead := rfl
    simp only [Option.bind_eq_bind, Option.bind_some, l7]
    rw [setShape_some (fsize _ _ _ bi hbi), setShape_some (fsize _ _ _ bj hbj), setShape_some (fsize _ _ _ bk hbk)]
    simp only [Option.bind_some]
    rw [h1, h2, h3]
    simp only [Option.bind_some]
    exact setShape_some hs3
  · have hlt := ravel_lt hl
    have hv : Valid [ravel lead l] [size lead] := by simp only [valid_cons, valid_nil, and_true]; exact hlt
    obtain ⟨gi, gj, gk⟩ := g [ravel lead l] hv p hp
    have out : ∀ c < 3, ∀ k < nz * n, ∀ j < ny * n, ∀ i < nx * n, (reshape (3 :: a.shape) (stack3 di dj dk)).get (c :: l ++ [k, j, i]) =
        (stack3 di dj dk).get [c, ravel lead l, k, j, i] := by
      intro c hc k hk j hj i hi
      apply reshape_get _ (s := [3, size lead, nz * n, ny * n, nx * n])
      · simp only [stack3]; rw [s1]; rfl
      · simp only [valid_cons, valid_nil, and_true]; exact ⟨hc, hlt, hk, hj, hi⟩
      · simp only [List.cons_append, ravel]
        rw [ha, ravel_append hl.length, size_append, size_cons (size lead), size_three]
        simp only [ravel, size_two, size_one, size_nil, size_three]
    refine ⟨?_, ?_, ?_⟩
    · intro k hk j hj e he hf hl' hr i hi
      have hi' := row_lt he hi
      rw [out 0 (by omega) k hk j hj _ hi']
      have p0 := pairs_get [size lead, nz * n, ny * n] [] nx (reshape [size lead, nz * n, ny * n, nx + 1] bi) rfl (u := [ravel lead l, k, j]) rfl [] e
      refine gi k hk j hj e he (fun q hq => ?_) ?_ ?_ i hi
      · exact (flat _ _ _ a ha l hl k hk j hj _ (row_lt he hq)).trans (hf q hq)
      · exact (p0 0).trans ((flat _ _ _ bi hbi l hl k hk j hj e (by omega)).trans hl')
      · exact (p0 1).trans ((flat _ _ _ bi hbi l hl k hk j hj (e + 1) (by omega)).trans hr)
    · intro k hk e he i hi hf hl' hr j hj
      have hj' := row_lt he hj
      rw [out 1 (by omega) k hk _ hj' i hi]
      have p0 := pairs_get [size lead, nz * n] [nx * n] ny (reshape [size lead, nz * n, ny + 1, nx * n] bj) rfl (u := [ravel lead l, k]) rfl [i] e
      refine gj k hk e he i hi (fun q hq => ?_) ?_ ?_ j hj
      · exact (flat _ _ _ a ha l hl k hk _ (row_lt he hq) i hi).trans (hf q hq)
      · exact (p0 0).trans ((flat _ _ _ bj hbj l hl k hk e (by omega) i hi).trans hl')
      · exact (p0 1).trans ((flat _ _ _ bj hbj l hl k hk (e + 1) (by omega) i hi).trans hr)
    · intro e he j hj i hi hf hl' hr k hk
      have hk' := row_lt he hk
      rw [out 2 (by omega) _ hk' j hj i hi]
      have p0 := pairs_get [size lead] [ny * n, nx * n] nz (reshape [size lead, nz + 1, ny * n, nx * n] bk) rfl (u := [ravel lead l]) rfl [j, i] e
      refine gk e he j hj i hi (fun q hq => ?_) ?_ ?_ k hk
      · exact (flat _ _ _ a ha l hl _ (row_lt he hq) j hj i hi).trans (hf q hq)
      · exact (p0 0).trans ((flat _ _ _ bk hbk l hl e (by omega) j hj i hi).trans hl')
      · exact (p0 1).trans ((flat _ _ _ bk hbk l hl (e + 1) (by omega) j hj i hi).trans hr)

/-- two elements per direction of two points each, three fields: the third field is the square of the coordinate of the element -/
example : ∃ di dj dk, commaI 2 (fun q => (q : ℚ) / 2) (⟨[3, 4, 4, 4], fun x => (x.getD 0 0 : ℚ) * ((x.getD 3 0 % 2 : ℕ) / 2 : ℚ) ^ 2⟩ : Arr ℚ)
      (⟨[3, 4, 4, 2, 2], fun x => (x.getD 0 0 : ℚ)⟩ : Arr ℚ) = some di ∧
    commaJ 2 2 2 (fun q => (q : ℚ) / 2) (⟨[3, 4, 4, 4], fun x => (x.getD 0 0 : ℚ) * ((x.getD 3 0 % 2 : ℕ) / 2 : ℚ) ^ 2⟩ : Arr ℚ)
      (⟨[3, 4, 2, 2, 4], fun _ => 0⟩ : Arr ℚ) = some dj ∧
    commaK 2 2 2 2 (fun q => (q : ℚ) / 2) (⟨[3, 4, 4, 4], fun x => (x.getD 0 0 : ℚ) * ((x.getD 3 0 % 2 : ℕ) / 2 : ℚ) ^ 2⟩ : Arr ℚ)
      (⟨[3, 2, 2, 4, 4], fun _ => 0⟩ : Arr ℚ) = some dk ∧ di.get [2, 3, 1, 3] = 2 := by
  have hinj : Set.InjOn (extension 2 (fun q => (q : ℚ) / 2)) (Finset.range (2 + 2)) := by
    intro x hx y hy h
    simp only [Finset.coe_range, Set.mem_Iio] at hx hy
    interval_cases x <;> interval_cases y <;> simp_all [extension] <;> norm_num at h
  obtain ⟨di, dj, dk, h1, h2, h3, -, -, -, g⟩ := C95_derivatives (nx := 2) (ny := 2) (nz := 2) (n := 2) (by omega) (by omega) (by omega) (by omega)
    (fun q => (q : ℚ) / 2) hinj [3] ⟨[3, 4, 4, 4], fun x => (x.getD 0 0 : ℚ) * ((x.getD 3 0 % 2 : ℕ) / 2 : ℚ) ^ 2⟩
    ⟨[3, 4, 4, 2, 2], fun x => (x.getD 0 0 : ℚ)⟩ ⟨[3, 4, 2, 2, 4], fun _ => 0⟩ ⟨[3, 2, 2, 4, 4], fun _ => 0⟩ rfl rfl rfl rfl
  refine ⟨di, dj, dk, h1, h2, h3, ?_⟩
  have := (g [2] (by simp [valid_cons, valid_nil]) (C 2 * X ^ 2)
    (lt_of_le_of_lt (degree_C_mul_X_pow_le 2 2) (by decide))).1 3 (by omega) 1 (by omega) 1 (by omega)
    (by intro q hq; interval_cases q <;> simp) (by simp) (by simp) 1 (by omega)
  refine this.trans ?_
  simp
  norm_num

/-- a height that grows with the first coordinate on elements of width one: the computed slope is one at every point -/
example : ∃ di, commaI 2 (fun q => (q : ℝ) / 2)
      (⟨[4, 4, 4], fun x => ((x.getD 2 0 / 2 : ℕ) : ℝ) + 1 / 2 + 1 / 2 * (((x.getD 2 0 % 2 : ℕ) : ℝ) / 2)⟩ : Arr ℝ)
      (pairs 0 ⟨[4, 4, 3], fun x => (x.getD 2 0 : ℝ)⟩) = some di ∧ ∀ k < 4, ∀ j < 4, di.get [k, j, 3] * 2 / 1 = 1 := by
  have hinj : Set.InjOn (extension 2 (fun q => (q : ℝ) / 2)) (Finset.range (2 + 2)) := by
    intro x hx y hy h
    simp only [Finset.coe_range, Set.mem_Iio] at hx hy
    interval_cases x <;> interval_cases y <;> simp_all [extension] <;> norm_num at h
  obtain ⟨di, dj, dk, h1, h2, h3, -, -, -, g⟩ := C95_slopes (nx := 2) (ny := 2) (nz := 2) (n := 2) (by omega) (by omega) (by omega) (by omega)
    (fun q => (q : ℝ) / 2) hinj
    ⟨[4, 4, 4], fun x => ((x.getD 2 0 / 2 : ℕ) : ℝ) + 1 / 2 + 1 / 2 * (((x.getD 2 0 % 2 : ℕ) : ℝ) / 2)⟩
    ⟨[4, 4, 3], fun x => (x.getD 2 0 : ℝ)⟩ ⟨[4, 3, 4], fun _ => 0⟩ ⟨[3, 4, 4], fun _ => 0⟩ rfl rfl rfl rfl
  refine ⟨di, h1, fun k hk j hj => ?_⟩
  have := (g X (by rw [degree_X]; decide) (1 + 1 / 2) 1 one_ne_zero).1 k (by omega) j (by omega) 1 (by omega)
    (by intro q hq; interval_cases q <;> simp) (by simp) (by simp; norm_num) 1 (by omega)
  refine this.trans ?_
  simp

/-- a field of shape `(2, 4, 4, 4)` meets the hypotheses of the extrapolations and of the comparison of the layouts -/
example : ∃ di, extrapolateI 2 2 (fun q => (q : ℚ) / 2) (⟨[2, 4, 4, 4], fun x => ((x.getD 3 0 % 2 : ℕ) : ℚ) / 2⟩ : Arr ℚ) = some di ∧
    di.get [1, 3, 2, 1, 0] = -1 ∧ di.get [1, 3, 2, 1, 1] = 1 := by
  have hinj : Set.InjOn (fun q : Nat => (q : ℚ) / 2) (Finset.range 2) := by
    intro x hx y hy h
    simp only [Finset.coe_range, Set.mem_Iio] at hx hy
    interval_cases x <;> interval_cases y <;> simp_all
  obtain ⟨di, dj, dk, h1, -, -, -, -, -, g⟩ := C95_extrapolations_partial (nx := 2) (ny := 2) (nz := 2) (n := 2) (by omega) (by omega) (by omega)
    (by omega) (fun q => (q : ℚ) / 2) hinj [2] (by decide) ⟨[2, 4, 4, 4], fun x => ((x.getD 3 0 % 2 : ℕ) : ℚ) / 2⟩ rfl
  refine ⟨di, h1, ?_⟩
  have := (g [1] (by simp [valid_cons, valid_nil]) X (by rw [degree_X]; decide)).1 3 (by omega) 2 (by omega) 1 (by omega)
    (by intro q hq; interval_cases q <;> simp)
  refine ⟨this.1.trans (by simp), this.2.trans (by simp)⟩

end WxVerif.Props.FieldOperators
