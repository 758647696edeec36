import Verif.Model.FieldOperators
import Verif.Lemmas.NdArray
import Verif.Props.Operators
import Mathlib.Tactic.LinearCombination

/-! # Facts about the operators on whole tiles -/

namespace WxVerif.Tile

open WxVerif.Nd WxVerif.Dfr
open WxVerif.Props.Operators (lineDeriv)

variable {K : Type*} [Field K]

theorem size_two (a b : Nat) : size [a, b] = a * b := by simp [size]
theorem size_three (a b c : Nat) : size [a, b, c] = a * (b * c) := by simp [size]
theorem size_one (a : Nat) : size [a] = a := by simp [size]

theorem setShape_some {α : Type*} {s : List Nat} {a : Arr α} (h : size s = size a.shape) : setShape s a = some (reshape s a) := by
  unfold setShape; rw [if_pos h]

theorem setRows_some {α : Type*} {s : List Nat} {a : Arr α} {r : Nat} (h0 : 0 < size s) (h : size a.shape = r * size s) :
    setRows s a = some (reshape (r :: s) a) := by
  unfold setRows
  rw [h, Nat.mul_mod_left, Nat.mul_div_cancel _ h0, if_neg (by omega)]

theorem row_lt {x y e m : Nat} (h : x < y) (he : e < m) : x * m + e < y * m := by
  calc x * m + e < x * m + m := by omega
    _ = (x + 1) * m := by ring
    _ ≤ y * m := Nat.mul_le_mul_right _ h

theorem bcast_eq {α : Type*} {b : Arr α} {r : Nat} (h : r < b.shape.headD 0) : bcast b r = r := by
  unfold bcast; split <;> omega

/-- the points of the last axis, element by element -/
theorem rows_get {α : Type*} {s u : List Nat} {R m w e q : Nat} (a : Arr α) (ha : a.shape = s ++ [m * w]) (hu : Valid u s) (he : e < m) (hq : q < w) :
    (reshape [R, w] a).get [ravel s u * m + e, q] = a.get (u ++ [e * w + q]) := by
  apply reshape_get a ha (hu.append (by simp only [valid_cons, valid_nil, and_true]; exact row_lt he hq))
  rw [ravel_append hu.length, size_one]
  simp only [ravel, size_one, size_nil]
  ring

/-- the same with one more axis of the elements in the array -/
theorem rows_get' {α : Type*} {s u : List Nat} {R m w e q : Nat} (a : Arr α) (ha : a.shape = s ++ [m, w]) (hu : Valid u s) (he : e < m) (hq : q < w) :
    (reshape [R, w] a).get [ravel s u * m + e, q] = a.get (u ++ [e, q]) := by
  apply reshape_get a ha (hu.append (by simp only [valid_cons, valid_nil, and_true]; exact ⟨he, hq⟩))
  rw [ravel_append hu.length, size_two]
  simp only [ravel, size_one, size_nil]
  ring

/-- the points of an axis followed by others, element by element -/
theorem stack_get {α : Type*} {s t u v : List Nat} {R m w e q : Nat} (a : Arr α) (ha : a.shape = s ++ (m * w) :: t) (hu : Valid u s) (hv : Valid v t)
    (he : e < m) (hq : q < w) :
    (reshape [R, w, size t] a).get [ravel s u * m + e, q, ravel t v] = a.get (u ++ (e * w + q) :: v) := by
  apply reshape_get a ha (hu.append (by simp only [valid_cons]; exact ⟨row_lt he hq, hv⟩))
  rw [ravel_append hu.length, size_cons]
  simp only [ravel, size_two, size_one, size_nil]
  ring

/-- the same with one more axis of the elements in the array -/
theorem stack_get' {α : Type*} {s t u v : List Nat} {R m w e q : Nat} (a : Arr α) (ha : a.shape = s ++ m :: w :: t) (hu : Valid u s) (hv : Valid v t)
    (he : e < m) (hq : q < w) :
    (reshape [R, w, size t] a).get [ravel s u * m + e, q, ravel t v] = a.get (u ++ e :: q :: v) := by
  apply reshape_get a ha (hu.append (by simp only [valid_cons]; exact ⟨he, hq, hv⟩))
  rw [ravel_append hu.length, size_cons, size_cons]
  simp only [ravel, size_two, size_one, size_nil, size_cons]
  ring

theorem commaI_eq {n m : Nat} (hn : 0 < n) (pts : Nat → K) {s : List Nat} (a b : Arr K) (ha : a.shape = s ++ [m * n]) (hb : b.shape = s ++ [m, 2]) :
    ∃ d, commaI n pts a b = some d ∧ d.shape = a.shape ∧ ∀ u, Valid u s → ∀ e < m, ∀ i < n,
      d.get (u ++ [e * n + i]) = lineDeriv n pts (fun q => a.get (u ++ [e * n + q])) (b.get (u ++ [e, 0])) (b.get (u ++ [e, 1])) i := by
  have hsa : size a.shape = size s * m * size [n] := by rw [ha, size_append, size_one, size_one]; ring
  have hsb : size b.shape = size s * m * size [2] := by rw [hb, size_append, size_two, size_one]; ring
  have e1 := setRows_some (a := a) (by rw [size_one]; exact hn) hsa
  have e2 := setRows_some (a := b) (by rw [size_one]; omega) hsb
  have e3 : setShape a.shape (derivRows n pts (reshape (size s * m :: [n]) a) (reshape (size s * m :: [2]) b)) = some (reshape a.shape _) :=
    setShape_some (by rw [hsa]; simp only [derivRows, reshape, size_cons])
  refine ⟨reshape a.shape (derivRows n pts (reshape (size s * m :: [n]) a) (reshape (size s * m :: [2]) b)), ?_, rfl, ?_⟩
  · unfold commaI
    rw [e1, e2]
    simp only [Option.bind_eq_bind, Option.bind_some]
    exact (if_pos (Or.inl rfl)).trans e3
  · intro u hu e he i hi
    have hr : ravel s u * m + e < size s * m := row_lt (ravel_lt hu) he
    rw [reshape_get _ (s := [size s * m, n]) (idx' := [ravel s u * m + e, i]) rfl (by simp only [valid_cons, valid_nil, and_true]; exact ⟨hr, hi⟩)
      (by rw [ha, ravel_append hu.length, size_one]; simp only [ravel, size_one, size_nil]; ring)]
    simp only [derivRows, List.getD_cons_zero, List.getD_cons_succ]
    rw [bcast_eq (by exact hr), rows_get' b hb hu he (by omega), rows_get' b hb hu he (by omega), lineDeriv, add_assoc]
    congr 1
    · refine Finset.sum_congr rfl fun q hq => ?_
      rw [rows_get a ha hu he (Finset.mem_range.1 hq), mul_comm]
    · ring

theorem derivStack_eq {n m : Nat} (pts : Nat → K) {s t : List Nat} (a b : Arr K) (ha : a.shape = s ++ (m * n) :: t)
    (hb : b.shape = s ++ m :: 2 :: t) {R : Nat} (hR : R = size s * m) :
    (do let fv ← setShape [R, n, size t] a
        let bv ← setShape [R, 2, size t] b
        setShape a.shape (derivStack n pts fv bv)) =
      some (reshape a.shape (derivStack n pts (reshape [R, n, size t] a) (reshape [R, 2, size t] b))) ∧
    ∀ u, Valid u s → ∀ v, Valid v t → ∀ e < m, ∀ i < n,
      (reshape a.shape (derivStack n pts (reshape [R, n, size t] a) (reshape [R, 2, size t] b))).get (u ++ (e * n + i) :: v) =
        lineDeriv n pts (fun q => a.get (u ++ (e * n + q) :: v)) (b.get (u ++ e :: 0 :: v)) (b.get (u ++ e :: 1 :: v)) i := by
  have hsa : size [R, n, size t] = size a.shape := by rw [ha, size_append, size_three, size_cons, hR]; ring
  have hsb : size [R, 2, size t] = size b.shape := by rw [hb, size_append, size_three, size_cons, size_cons, hR]; ring
  constructor
  · rw [setShape_some hsa, setShape_some hsb]
    simp only [Option.bind_eq_bind, Option.bind_some]
    exact setShape_some (by simp only [derivStack, reshape]; exact hsa.symm)
  · intro u hu v hv e he i hi
    have hr : ravel s u * m + e < R := by rw [hR]; exact row_lt (ravel_lt hu) he
    rw [reshape_get _ (s := [R, n, size t]) (idx' := [ravel s u * m + e, i, ravel t v]) rfl
      (by simp only [valid_cons, valid_nil, and_true]; exact ⟨hr, hi, ravel_lt hv⟩)
      (by rw [ha, ravel_append hu.length, size_cons]; simp only [ravel, size_two, size_one, size_nil]; ring)]
    simp only [derivStack, List.getD_cons_zero, List.getD_cons_succ]
    rw [stack_get' b hb hu hv he (by omega), stack_get' b hb hu hv he (by omega), lineDeriv, add_assoc]
    congr 1
    refine Finset.sum_congr rfl fun q hq => ?_
    rw [stack_get a ha hu hv he (Finset.mem_range.1 hq)]

theorem commaJ_eq {nx ny n : Nat} (hn : 0 < n) (hx : 0 < nx) (hy : 0 < ny) (pts : Nat → K) {s : List Nat} (a b : Arr K)
    (ha : a.shape = s ++ [ny * n, nx * n]) (hb : b.shape = s ++ [ny, 2, nx * n]) :
    ∃ d, commaJ nx ny n pts a b = some d ∧ d.shape = a.shape ∧ ∀ u, Valid u s → ∀ e < ny, ∀ j < n, ∀ i < nx * n,
      d.get (u ++ [e * n + j, i]) =
        lineDeriv n pts (fun q => a.get (u ++ [e * n + q, i])) (b.get (u ++ [e, 0, i])) (b.get (u ++ [e, 1, i])) j := by
  have hR : size a.shape / (nx * n * (ny * n)) * ny = size s * ny := by
    rw [ha, size_append, size_two, show size s * (ny * n * (nx * n)) = size s * (nx * n * (ny * n)) by ring, Nat.mul_div_cancel _ (by positivity)]
  obtain ⟨h1, h2⟩ := derivStack_eq pts (s := s) (t := [nx * n]) a b ha hb hR
  rw [size_one] at h1 h2
  refine ⟨_, h1, rfl, fun u hu e he j hj i hi => h2 u hu [i] (by simp only [valid_cons, valid_nil, and_true]; exact hi) e he j hj⟩

theorem commaK_eq {nx ny nz n : Nat} (hn : 0 < n) (hx : 0 < nx) (hy : 0 < ny) (hz : 0 < nz) (pts : Nat → K) {s : List Nat} (a b : Arr K)
    (ha : a.shape = s ++ [nz * n, ny * n, nx * n]) (hb : b.shape = s ++ [nz, 2, ny * n, nx * n]) :
    ∃ d, commaK nx ny nz n pts a b = some d ∧ d.shape = a.shape ∧ ∀ u, Valid u s → ∀ e < nz, ∀ k < n, ∀ j < ny * n, ∀ i < nx * n,
      d.get (u ++ [e * n + k, j, i]) =
        lineDeriv n pts (fun q => a.get (u ++ [e * n + q, j, i])) (b.get (u ++ [e, 0, j, i])) (b.get (u ++ [e, 1, j, i])) k := by
  have hR : size a.shape / (nx * n * (ny * n) * (nz * n)) * nz = size s * nz := by
    rw [ha, size_append, size_three, show size s * (nz * n * (ny * n * (nx * n))) = size s * (nx * n * (ny * n) * (nz * n)) by ring,
      Nat.mul_div_cancel _ (by positivity)]
  obtain ⟨h1, h2⟩ := derivStack_eq pts (s := s) (t := [ny * n, nx * n]) a b ha hb hR
  rw [size_two, Nat.mul_comm (ny * n)] at h1 h2
  refine ⟨_, h1, rfl, fun u hu e he k hk j hj i hi => h2 u hu [j, i] (by simp only [valid_cons, valid_nil, and_true]; exact ⟨hj, hi⟩) e he k hk⟩

/-- value at an end of the element of the polynomial through the values at its points -/
noncomputable def lineEdge (n : Nat) (pts : Nat → K) (f : Nat → K) (side : Nat) : K :=
  ∑ q ∈ Finset.range n, extrapVec n pts (if side = 0 then -1 else 1) q * f q

theorem extrapolateI_eq {n m : Nat} (hn : 0 < n) (hm : 0 < m) (pts : Nat → K) {s : List Nat} (a : Arr K) (ha : a.shape = s ++ [m * n]) :
    ∃ d, extrapolateI m n pts a = some d ∧ d.shape = s ++ [m, 2] ∧ ∀ u, Valid u s → ∀ e < m, ∀ side < 2,
      d.get (u ++ [e, side]) = lineEdge n pts (fun q => a.get (u ++ [e * n + q])) side := by
  have hsa : size a.shape = size s * m * size [n] := by rw [ha, size_append, size_one, size_one]; ring
  have e1 := setRows_some (a := a) (by rw [size_one]; exact hn) hsa
  have hR : size a.shape / (m * n) * m = size s * m := by
    rw [ha, size_append, size_one, Nat.mul_div_cancel _ (by positivity)]
  have ht : a.shape.take (a.shape.length - 1) = s := by rw [ha]; simp
  refine ⟨reshape (s ++ [m, 2]) (edgeRows n pts (size s * m) (reshape (size s * m :: [n]) a)), ?_, rfl, ?_⟩
  · unfold extrapolateI
    rw [e1]
    simp only [Option.bind_eq_bind, Option.bind_some]
    rw [hR, ht]
    refine (if_pos (Or.inl rfl)).trans (setShape_some ?_)
    exact (by simp only [edgeRows]; rw [size_append, size_two, size_two]; ring)
  · intro u hu e he side hs
    have hr : ravel s u * m + e < size s * m := row_lt (ravel_lt hu) he
    rw [reshape_get _ (s := [size s * m, 2]) (idx' := [ravel s u * m + e, side]) rfl (by simp only [valid_cons, valid_nil, and_true]; exact ⟨hr, hs⟩)
      (by rw [ravel_append hu.length, size_two]; simp only [ravel, size_one, size_nil]; ring)]
    simp only [edgeRows, List.getD_cons_zero, List.getD_cons_succ]
    rw [bcast_eq (by exact hr), lineEdge]
    refine Finset.sum_congr rfl fun q hq => ?_
    rw [rows_get a ha hu he (Finset.mem_range.1 hq), mul_comm]

theorem edgeStack_eq {n m : Nat} (hn : 0 < n) (pts : Nat → K) {s t : List Nat} (ht : 0 < size t) (a : Arr K) (ha : a.shape = s ++ (m * n) :: t) {R : Nat}
    (hR : R = size s * m) (s' : List Nat) (hs' : size s' = size s) :
    setRows [n, size t] a = some (reshape [R, n, size t] a) ∧
    setShape (s' ++ m :: 2 :: t) (edgeStack n pts R (size t) (reshape [R, n, size t] a)) =
      some (reshape (s' ++ m :: 2 :: t) (edgeStack n pts R (size t) (reshape [R, n, size t] a))) ∧
    ∀ u, Valid u s → ∀ u', Valid u' s' → ravel s' u' = ravel s u → ∀ v, Valid v t → ∀ e < m, ∀ side < 2,
      (reshape (s' ++ m :: 2 :: t) (edgeStack n pts R (size t) (reshape [R, n, size t] a))).get (u' ++ e :: side :: v) =
        lineEdge n pts (fun q => a.get (u ++ (e * n + q) :: v)) side := by
  have hsa : size a.shape = R * size [n, size t] := by rw [ha, size_append, size_cons, size_two, hR]; ring
  refine ⟨setRows_some (by rw [size_two]; positivity) hsa, ?_, ?_⟩
  · exact setShape_some (by simp only [edgeStack]; rw [size_append, size_cons, size_cons, size_three, hR, hs']; ring)
  · intro u hu u' hu' huu v hv e he side hs
    have hr : ravel s u * m + e < R := by rw [hR]; exact row_lt (ravel_lt hu) he
    rw [reshape_get _ (s := [R, 2, size t]) (idx' := [ravel s u * m + e, side, ravel t v]) rfl
      (by simp only [valid_cons, valid_nil, and_true]; exact ⟨hr, hs, ravel_lt hv⟩)
      (by rw [ravel_append hu'.length, size_cons, size_cons, huu]; simp only [ravel, size_two, size_one, size_nil, size_cons]; ring)]
    simp only [edgeStack, List.getD_cons_zero, List.getD_cons_succ]
    rw [bcast_eq (by exact hr), lineEdge]
    refine Finset.sum_congr rfl fun q hq => ?_
    rw [stack_get a ha hu hv he (Finset.mem_range.1 hq)]

theorem extrapolateJ_eq {nx ny n : Nat} (hn : 0 < n) (hx : 0 < nx) (hy : 0 < ny) (pts : Nat → K) {s : List Nat} (a : Arr K)
    (ha : a.shape = s ++ [ny * n, nx * n]) :
    ∃ d, extrapolateJ nx ny n pts a = some d ∧ d.shape = s ++ [ny, 2, nx * n] ∧ ∀ u, Valid u s → ∀ e < ny, ∀ side < 2, ∀ i < nx * n,
      d.get (u ++ [e, side, i]) = lineEdge n pts (fun q => a.get (u ++ [e * n + q, i])) side := by
  have hR : size a.shape / (nx * n * (ny * n)) * ny = size s * ny := by
    rw [ha, size_append, size_two, show size s * (ny * n * (nx * n)) = size s * (nx * n * (ny * n)) by ring, Nat.mul_div_cancel _ (by positivity)]
  have hp : 0 < nx * n := by positivity
  obtain ⟨h1, h2, h3⟩ := edgeStack_eq hn pts (s := s) (t := [nx * n]) (by rw [size_one]; exact hp) a ha hR s rfl
  rw [size_one] at h1 h2 h3
  refine ⟨_, ?_, rfl, fun u hu e he side hs i hi => h3 u hu u hu rfl [i] (by simp only [valid_cons, valid_nil, and_true]; exact hi) e he side hs⟩
  unfold extrapolateJ
  rw [h1]
  simp only [Option.bind_eq_bind, Option.bind_some]
  rw [← h2]
  refine (if_pos (Or.inl rfl)).trans ?_
  congr 2
  rw [ha]; simp

theorem extrapolateK_eq {nx ny nz n : Nat} (hn : 0 < n) (hx : 0 < nx) (hy : 0 < ny) (hz : 0 < nz) (pts : Nat → K) {s : List Nat} (a : Arr K)
    (ha : a.shape = s ++ [nz * n, ny * n, nx * n]) {s' : List Nat} (hs' : s' = if size s > 1 then [size s] else []) (h0 : 0 < size s) :
    ∃ d, extrapolateK nx ny nz n pts a = some d ∧ d.shape = s' ++ [nz, 2, ny * n, nx * n] ∧
      ∀ u, Valid u s → ∀ u', Valid u' s' → ravel s' u' = ravel s u → ∀ e < nz, ∀ side < 2, ∀ j < ny * n, ∀ i < nx * n,
      d.get (u' ++ [e, side, j, i]) = lineEdge n pts (fun q => a.get (u ++ [e * n + q, j, i])) side := by
  have hR0 : size a.shape / (nx * n * (ny * n) * (nz * n)) = size s := by
    rw [ha, size_append, size_three, show size s * (nz * n * (ny * n * (nx * n))) = size s * (nx * n * (ny * n) * (nz * n)) by ring,
      Nat.mul_div_cancel _ (by positivity)]
  have hss : size s' = size s := by
    rw [hs']; split
    · rw [size_one]
    · rw [size_nil]; omega
  have hp : 0 < ny * n * (nx * n) := by positivity
  obtain ⟨h1, h2, h3⟩ := edgeStack_eq hn pts (s := s) (t := [ny * n, nx * n]) (by rw [size_two]; exact hp) a ha rfl s' hss
  rw [size_two, Nat.mul_comm (ny * n)] at h1 h2 h3
  refine ⟨_, ?_, rfl, fun u hu u' hu' hr e he side hs j hj i hi =>
    h3 u hu u' hu' hr [j, i] (by simp only [valid_cons, valid_nil, and_true]; exact ⟨hj, hi⟩) e he side hs⟩
  unfold extrapolateK
  rw [h1]
  simp only [Option.bind_eq_bind, Option.bind_some]
  rw [hR0, ← h2]
  refine (if_pos (Or.inl rfl)).trans ?_
  congr 1
  rw [hs']; split <;> rfl

end WxVerif.Tile
