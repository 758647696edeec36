import Verif.Model.Layout
import Verif.Lemmas.NdArray

/-!
# C40: array layouts convert without loss

In the single-block layout a point is addressed by its indices along the axes; in the element layout by the indices of its
element and the number of the point in the element (x1 fastest).  `lead` are leading axes (variables), `l` an index in them.
-/

namespace WxVerif.Props.Layout

open WxVerif.Nd WxVerif.Layout

variable {α : Type*} [Zero α]

theorem cell {e E k n : Nat} (he : e < E) (hk : k < n) : e * n + k < E * n := by
  calc e * n + k < e * n + n := by omega
    _ = (e + 1) * n := by ring
    _ ≤ E * n := Nat.mul_le_mul_right _ he

/-- sizes of shapes -/
macro "size_tac" : tactic => `(tactic| (
  simp only [size, List.map_cons, List.map_nil, List.getD_cons_zero, List.getD_cons_succ, List.prod_cons, List.prod_nil]; ring))
/-- indices inside shapes -/
macro "valid_tac" : tactic => `(tactic| (simp [valid_cons, valid_nil, cell, *]))
/-- positions in the row-major order -/
macro "ravel_tac" : tactic => `(tactic| (simp [ravel, size, List.range_succ, List.idxOf_cons]; try ring))

/-- follow the four writes of an interface array -/
macro "itf_tac" : tactic => `(tactic| (
  first
    | rw [assignConst_or, assignConst_or, assign_rr, assign_rr]
    | rw [assignConst_oar, assignConst_oar, assign_rar, assign_rar]
    | rw [assignConst_oaar, assignConst_oaar, assign_raar, assign_raar]
    | rw [assign_rr, assign_rr]
    | rw [assign_rar, assign_rar]
  split_ifs <;> first | (exfalso; omega) | rfl | (exfalso; rename_i hh; exact hh.1) | (simp; done)))

/-- two arrays are the same: same shape and same elements -/
def Same (a b : Arr α) : Prop := a.shape = b.shape ∧ ∀ idx, Valid idx a.shape → a.get idx = b.get idx

/-- **C40** 3D, block to elements. -/
theorem C40_to_new_3d (nx ny nz n : Nat) (lead : List Nat) (a : Arr α) (ha : a.shape = lead ++ [nz * n, ny * n, nx * n]) :
    ∃ b, toNew3 nx ny nz n a = some b ∧ b.shape = lead ++ [nz, ny, nx, n ^ 3] ∧
      ∀ l, Valid l lead → ∀ e3 < nz, ∀ e2 < ny, ∀ e1 < nx, ∀ k < n, ∀ j < n, ∀ i < n,
        b.get (l ++ [e3, e2, e1, (k * n + j) * n + i]) = a.get (l ++ [e3 * n + k, e2 * n + j, e1 * n + i]) := by
  have hd : a.shape.drop (a.shape.length - 3) = [nz * n, ny * n, nx * n] := by rw [ha]; exact drop_lead lead [nz * n, ny * n, nx * n]
  have hta : a.shape.take (a.shape.length - 3) = lead := by rw [ha]; exact take_lead lead [nz * n, ny * n, nx * n]
  unfold toNew3
  simp only [hd, hta, ne_eq, not_true_eq_false, if_false]
  refine ⟨_, rfl, rfl, ?_⟩
  intro l hl e3 h3 e2 h2 e1 h1 k hk j hj i hi
  have hmv : moveaxis [-5, -3] [-3, -2] (reshape (lead ++ [nz, n, ny, n, nx, n]) a) =
      transpose (List.range lead.length ++ [0, 2, 4, 1, 3, 5].map (lead.length + ·)) (reshape (lead ++ [nz, n, ny, n, nx, n]) a) :=
    moveaxis_eq (α := α) 6 [5, 3] [3, 2] _ rfl (by decide) (by decide)
  rw [hmv]
  exact reshape_transpose_reshape (s := [nz, n, ny, n, nx, n]) _ a ha (mid := [e3, e2, e1, k, j, i]) hl
    (by valid_tac) (by valid_tac) (by size_tac) (by size_tac) (by ravel_tac) (by ravel_tac)

/-- **C40** 3D, elements to block. -/
theorem C40_to_block_3d (nx ny nz n : Nat) (lead : List Nat) (a : Arr α) (ha : a.shape = lead ++ [nz, ny, nx, n ^ 3]) :
    ∃ b, toBlock3 nx ny nz n a = some b ∧ b.shape = lead ++ [nz * n, ny * n, nx * n] ∧
      ∀ l, Valid l lead → ∀ e3 < nz, ∀ e2 < ny, ∀ e1 < nx, ∀ k < n, ∀ j < n, ∀ i < n,
        b.get (l ++ [e3 * n + k, e2 * n + j, e1 * n + i]) = a.get (l ++ [e3, e2, e1, (k * n + j) * n + i]) := by
  have hd : a.shape.drop (a.shape.length - 4) = [nz, ny, nx, n ^ 3] := by rw [ha]; exact drop_lead lead [nz, ny, nx, n ^ 3]
  have hta : a.shape.take (a.shape.length - 4) = lead := by rw [ha]; exact take_lead lead [nz, ny, nx, n ^ 3]
  unfold toBlock3
  simp only [hd, hta, ne_eq, not_true_eq_false, if_false]
  refine ⟨_, rfl, rfl, ?_⟩
  intro l hl e3 h3 e2 h2 e1 h1 k hk j hj i hi
  have hmv : moveaxis [-3, -2] [-5, -3] (reshape (lead ++ [nz, ny, nx, n, n, n]) a) =
      transpose (List.range lead.length ++ [0, 3, 1, 4, 2, 5].map (lead.length + ·)) (reshape (lead ++ [nz, ny, nx, n, n, n]) a) :=
    moveaxis_eq (α := α) 6 [3, 2] [5, 3] _ rfl (by decide) (by decide)
  rw [hmv]
  have hc : (k * n + j) * n + i < n ^ 3 := by
    have := cell (cell hk hj) hi
    calc _ < n * n * n := this
      _ = n ^ 3 := by ring
  exact reshape_transpose_reshape (s := [nz, ny, nx, n, n, n]) _ a ha (mid := [e3, k, e2, j, e1, i]) hl
    (by valid_tac) (by valid_tac) (by size_tac) (by size_tac) (by ravel_tac) (by ravel_tac)

/-- an index of a block is an element index and a point index -/
theorem split_index {x E n : Nat} (h : x < E * n) : ∃ e k, e < E ∧ k < n ∧ x = e * n + k := by
  have h0 : 0 < n := by
    rcases Nat.eq_zero_or_pos n with rfl | h0
    · simp at h
    · exact h0
  exact ⟨x / n, x % n, Nat.div_lt_of_lt_mul (by rwa [Nat.mul_comm]), Nat.mod_lt _ h0, by rw [Nat.mul_comm]; exact (Nat.div_add_mod x n).symm⟩

theorem valid1 {u : List Nat} {a : Nat} (h : Valid u [a]) : ∃ x, u = [x] ∧ x < a := by
  obtain ⟨x, u, hx, h', rfl⟩ := List.forall₂_cons_right_iff.mp h
  obtain rfl := List.forall₂_nil_right_iff.mp h'
  exact ⟨x, rfl, hx⟩
theorem valid2 {u : List Nat} {a b : Nat} (h : Valid u [a, b]) : ∃ x y, u = [x, y] ∧ x < a ∧ y < b := by
  obtain ⟨x, u, hx, h', rfl⟩ := List.forall₂_cons_right_iff.mp h
  obtain ⟨y, rfl, hy⟩ := valid1 h'
  exact ⟨x, y, rfl, hx, hy⟩
theorem valid3 {u : List Nat} {a b c : Nat} (h : Valid u [a, b, c]) : ∃ x y z, u = [x, y, z] ∧ x < a ∧ y < b ∧ z < c := by
  obtain ⟨x, u, hx, h', rfl⟩ := List.forall₂_cons_right_iff.mp h
  obtain ⟨y, z, rfl, hy⟩ := valid2 h'
  exact ⟨x, y, z, rfl, hx, hy⟩
theorem valid4 {u : List Nat} {a b c d : Nat} (h : Valid u [a, b, c, d]) :
    ∃ x y z w, u = [x, y, z, w] ∧ x < a ∧ y < b ∧ z < c ∧ w < d := by
  obtain ⟨x, u, hx, h', rfl⟩ := List.forall₂_cons_right_iff.mp h
  obtain ⟨y, z, w, rfl, hy⟩ := valid3 h'
  exact ⟨x, y, z, w, rfl, hx, hy⟩

/-- **C40** 3D: block → elements → block and elements → block → elements return the same array. -/
theorem C40_roundtrip_3d (nx ny nz n : Nat) (lead : List Nat) (a : Arr α) :
    (a.shape = lead ++ [nz * n, ny * n, nx * n] →
      ∃ b c, toNew3 nx ny nz n a = some b ∧ toBlock3 nx ny nz n b = some c ∧ Same c a) ∧
    (a.shape = lead ++ [nz, ny, nx, n ^ 3] →
      ∃ b c, toBlock3 nx ny nz n a = some b ∧ toNew3 nx ny nz n b = some c ∧ Same c a) := by
  constructor
  · intro ha
    obtain ⟨b, hb, hbs, hbv⟩ := C40_to_new_3d nx ny nz n lead a ha
    obtain ⟨c, hc, hcs, hcv⟩ := C40_to_block_3d nx ny nz n lead b hbs
    refine ⟨b, c, hb, hc, by rw [hcs, ha], ?_⟩
    intro idx hidx
    rw [hcs] at hidx
    obtain ⟨l, u, rfl, hl, hu⟩ := valid_split hidx
    obtain ⟨x, y, z, rfl, hx, hy, hz⟩ := valid3 hu
    obtain ⟨e3, k, h3, hk, rfl⟩ := split_index hx
    obtain ⟨e2, j, h2, hj, rfl⟩ := split_index hy
    obtain ⟨e1, i, h1, hi, rfl⟩ := split_index hz
    rw [hcv l hl e3 h3 e2 h2 e1 h1 k hk j hj i hi, hbv l hl e3 h3 e2 h2 e1 h1 k hk j hj i hi]
  · intro ha
    obtain ⟨b, hb, hbs, hbv⟩ := C40_to_block_3d nx ny nz n lead a ha
    obtain ⟨c, hc, hcs, hcv⟩ := C40_to_new_3d nx ny nz n lead b hbs
    refine ⟨b, c, hb, hc, by rw [hcs, ha], ?_⟩
    intro idx hidx
    rw [hcs] at hidx
    obtain ⟨l, u, rfl, hl, hu⟩ := valid_split hidx
    obtain ⟨e3, e2, e1, w, rfl, h3, h2, h1, hw⟩ := valid4 hu
    obtain ⟨v, i, hv, hi, rfl⟩ := split_index (E := n * n) (n := n) (x := w) (by calc w < n ^ 3 := hw
                                                                                  _ = n * n * n := by ring)
    obtain ⟨k, j, hk, hj, rfl⟩ := split_index hv
    rw [hcv l hl e3 h3 e2 h2 e1 h1 k hk j hj i hi, hbv l hl e3 h3 e2 h2 e1 h1 k hk j hj i hi]

/-! ## Interfaces of the 3D grid -/

/-- **C40** West–east interfaces: interface `f` (`0 … nx`) is the east side of the element at position `f` and the west side of
the element at position `f + 1` of the array with halo elements; the outer sides of the halo are zero. -/
theorem C40_itf_i_3d (nx ny nz n : Nat) (junk : List Nat → α) (lead : List Nat) (a : Arr α)
    (ha : a.shape = lead ++ [nz * n, ny * n, nx + 1]) :
    ∃ b, toNewItfI3 nx ny nz n junk a = some b ∧ b.shape = lead ++ [nz, ny, nx + 2, n ^ 2 * 2] ∧
      ∀ l, Valid l lead → ∀ e3 < nz, ∀ e2 < ny, ∀ k < n, ∀ j < n,
        (∀ f ≤ nx, b.get (l ++ [e3, e2, f, n ^ 2 + (k * n + j)]) = a.get (l ++ [e3 * n + k, e2 * n + j, f]) ∧
          b.get (l ++ [e3, e2, f + 1, k * n + j]) = a.get (l ++ [e3 * n + k, e2 * n + j, f])) ∧
        b.get (l ++ [e3, e2, 0, k * n + j]) = 0 ∧ b.get (l ++ [e3, e2, nx + 1, n ^ 2 + (k * n + j)]) = 0 := by
  have hd : a.shape.drop (a.shape.length - 3) = [nz * n, ny * n, nx + 1] := by rw [ha]; exact drop_lead lead [nz * n, ny * n, nx + 1]
  have hta : a.shape.take (a.shape.length - 3) = lead := by rw [ha]; exact take_lead lead [nz * n, ny * n, nx + 1]
  unfold toNewItfI3
  simp only [hd, hta, ne_eq, not_true_eq_false, if_false]
  refine ⟨_, rfl, rfl, ?_⟩
  intro l hl e3 h3 e2 h2 k hk j hj
  have hmv : moveaxis [-4, -2] [-2, -1] (reshape (lead ++ [nz, n, ny, n, nx + 1]) a) =
      transpose (List.range lead.length ++ [0, 2, 4, 1, 3].map (lead.length + ·)) (reshape (lead ++ [nz, n, ny, n, nx + 1]) a) :=
    moveaxis_eq (α := α) 5 [4, 2] [2, 1] _ rfl (by decide) (by decide)
  rw [hmv]
  have hc : k * n + j < n ^ 2 := by
    calc _ < n * n := cell hk hj
      _ = n ^ 2 := by ring
  generalize htmp : reshape (lead ++ [nz, ny, nx + 1, n ^ 2]) (transpose _ _) = tmp
  have ht : ∀ f ≤ nx, tmp.get (l ++ [e3, e2] ++ [f, k * n + j]) = a.get (l ++ [e3 * n + k, e2 * n + j, f]) := by
    intro f hf
    have hf' : f < nx + 1 := by omega
    rw [← htmp, List.append_assoc]
    exact reshape_transpose_reshape (s := [nz, n, ny, n, nx + 1]) _ a ha (mid := [e3, e2, f, k, j]) hl
      (by valid_tac) (by valid_tac) (by size_tac) (by size_tac) (by ravel_tac) (by ravel_tac)
  have hsp : ∀ x y, l ++ [e3, e2, x, y] = (l ++ [e3, e2]) ++ [x, y] := by simp
  simp only [hsp]
  refine ⟨fun f hf => ⟨?_, ?_⟩, ?_, ?_⟩
  · rw [← ht f hf]; itf_tac
  · rw [← ht f hf]; itf_tac
  · itf_tac
  · itf_tac

/-- **C40** South–north interfaces, as `C40_itf_i_3d`. -/
theorem C40_itf_j_3d (nx ny nz n : Nat) (lead : List Nat) (a : Arr α) (ha : a.shape = lead ++ [nz * n, ny + 1, nx * n]) :
    ∃ b, toNewItfJ3 nx ny nz n a = some b ∧ b.shape = lead ++ [nz, ny + 2, nx, n ^ 2 * 2] ∧
      ∀ l, Valid l lead → ∀ e3 < nz, ∀ e1 < nx, ∀ k < n, ∀ i < n,
        (∀ f ≤ ny, b.get (l ++ [e3, f, e1, n ^ 2 + (k * n + i)]) = a.get (l ++ [e3 * n + k, f, e1 * n + i]) ∧
          b.get (l ++ [e3, f + 1, e1, k * n + i]) = a.get (l ++ [e3 * n + k, f, e1 * n + i])) ∧
        b.get (l ++ [e3, 0, e1, k * n + i]) = 0 ∧ b.get (l ++ [e3, ny + 1, e1, n ^ 2 + (k * n + i)]) = 0 := by
  have hd : a.shape.drop (a.shape.length - 3) = [nz * n, ny + 1, nx * n] := by rw [ha]; exact drop_lead lead [nz * n, ny + 1, nx * n]
  have hta : a.shape.take (a.shape.length - 3) = lead := by rw [ha]; exact take_lead lead [nz * n, ny + 1, nx * n]
  unfold toNewItfJ3
  simp only [hd, hta, ne_eq, not_true_eq_false, if_false]
  refine ⟨_, rfl, rfl, ?_⟩
  intro l hl e3 h3 e1 h1 k hk i hi
  have hmv : moveaxis [-4] [-2] (reshape (lead ++ [nz, n, ny + 1, nx, n]) a) =
      transpose (List.range lead.length ++ [0, 2, 3, 1, 4].map (lead.length + ·)) (reshape (lead ++ [nz, n, ny + 1, nx, n]) a) :=
    moveaxis_eq (α := α) 5 [4] [2] _ rfl (by decide) (by decide)
  rw [hmv]
  have hc : k * n + i < n ^ 2 := by
    calc _ < n * n := cell hk hi
      _ = n ^ 2 := by ring
  generalize htmp : reshape (lead ++ [nz, ny + 1, nx, n ^ 2]) (transpose _ _) = tmp
  have ht : ∀ f ≤ ny, tmp.get (l ++ [e3] ++ [f, e1, k * n + i]) = a.get (l ++ [e3 * n + k, f, e1 * n + i]) := by
    intro f hf
    have hf' : f < ny + 1 := by omega
    rw [← htmp, List.append_assoc]
    exact reshape_transpose_reshape (s := [nz, n, ny + 1, nx, n]) _ a ha (mid := [e3, f, e1, k, i]) hl
      (by valid_tac) (by valid_tac) (by size_tac) (by size_tac) (by ravel_tac) (by ravel_tac)
  have hsp : ∀ x y z, l ++ [e3, x, y, z] = (l ++ [e3]) ++ [x, y, z] := by simp
  simp only [hsp]
  refine ⟨fun f hf => ⟨?_, ?_⟩, ?_, ?_⟩
  · rw [← ht f hf]; itf_tac
  · rw [← ht f hf]; itf_tac
  · itf_tac
  · itf_tac

/-- **C40** Bottom–top interfaces, as `C40_itf_i_3d`. -/
theorem C40_itf_k_3d (nx ny nz n : Nat) (lead : List Nat) (a : Arr α) (ha : a.shape = lead ++ [nz + 1, ny * n, nx * n]) :
    ∃ b, toNewItfK3 nx ny nz n a = some b ∧ b.shape = lead ++ [nz + 2, ny, nx, n ^ 2 * 2] ∧
      ∀ l, Valid l lead → ∀ e2 < ny, ∀ e1 < nx, ∀ j < n, ∀ i < n,
        (∀ f ≤ nz, b.get (l ++ [f, e2, e1, n ^ 2 + (j * n + i)]) = a.get (l ++ [f, e2 * n + j, e1 * n + i]) ∧
          b.get (l ++ [f + 1, e2, e1, j * n + i]) = a.get (l ++ [f, e2 * n + j, e1 * n + i])) ∧
        b.get (l ++ [0, e2, e1, j * n + i]) = 0 ∧ b.get (l ++ [nz + 1, e2, e1, n ^ 2 + (j * n + i)]) = 0 := by
  have hd : a.shape.drop (a.shape.length - 3) = [nz + 1, ny * n, nx * n] := by rw [ha]; exact drop_lead lead [nz + 1, ny * n, nx * n]
  have hta : a.shape.take (a.shape.length - 3) = lead := by rw [ha]; exact take_lead lead [nz + 1, ny * n, nx * n]
  unfold toNewItfK3
  simp only [hd, hta, ne_eq, not_true_eq_false, if_false]
  refine ⟨_, rfl, rfl, ?_⟩
  intro l hl e2 h2 e1 h1 j hj i hi
  have hmv : swapaxes (-3) (-2) (reshape (lead ++ [nz + 1, ny, n, nx, n]) a) =
      transpose (List.range lead.length ++ [0, 1, 3, 2, 4].map (lead.length + ·)) (reshape (lead ++ [nz + 1, ny, n, nx, n]) a) :=
    swapaxes_eq (α := α) 5 3 2 _ rfl (by decide) (by decide)
  rw [hmv]
  have hc : j * n + i < n ^ 2 := by
    calc _ < n * n := cell hj hi
      _ = n ^ 2 := by ring
  generalize htmp : reshape (lead ++ [nz + 1, ny, nx, n ^ 2]) (transpose _ _) = tmp
  have ht : ∀ f ≤ nz, tmp.get (l ++ [f, e2, e1, j * n + i]) = a.get (l ++ [f, e2 * n + j, e1 * n + i]) := by
    intro f hf
    have hf' : f < nz + 1 := by omega
    rw [← htmp]
    exact reshape_transpose_reshape (s := [nz + 1, ny, n, nx, n]) _ a ha (mid := [f, e2, e1, j, i]) hl
      (by valid_tac) (by valid_tac) (by size_tac) (by size_tac) (by ravel_tac) (by ravel_tac)
  refine ⟨fun f hf => ⟨?_, ?_⟩, ?_, ?_⟩
  · rw [← ht f hf]; itf_tac
  · rw [← ht f hf]; itf_tac
  · itf_tac
  · itf_tac

/-! ## 2D cubed sphere -/

/-- **C40** 2D, block to elements, one field (`h`: the tile is square, as the constructor makes it: `num_elements_x1` and
`num_elements_x2` are both `num_elements_horizontal`). -/
theorem C40_to_new_2d (nx ny n : Nat) (h : nx = ny) (a : Arr α) (ha : a.shape = [ny * n, nx * n]) :
    ∃ b, toNew2 nx ny n a = some b ∧ b.shape = [ny, nx, n * n] ∧
      ∀ e2 < ny, ∀ e1 < nx, ∀ j < n, ∀ i < n, b.get [e2, e1, j * n + i] = a.get [e2 * n + j, e1 * n + i] := by
  subst h
  unfold toNew2
  simp only [ha, List.length_cons, List.length_nil, and_self, if_true]
  refine ⟨_, rfl, rfl, ?_⟩
  intro e2 h2 e1 h1 j hj i hi
  exact reshape_transpose_reshape (lead := []) (l := []) (s := [nx, n, nx, n]) [0, 2, 1, 3] a ha (mid := [e2, e1, j, i]) valid_nil
    (by valid_tac) (by valid_tac) (by size_tac) (by size_tac) (by ravel_tac) (by ravel_tac)

/-- **C40** 2D, block to elements, several fields. -/
theorem C40_to_new_2d_fields (nx ny n m : Nat) (h : nx = ny) (a : Arr α) (ha : a.shape = [m, ny * n, nx * n]) :
    ∃ b, toNew2 nx ny n a = some b ∧ b.shape = [m, ny, nx, n * n] ∧
      ∀ v < m, ∀ e2 < ny, ∀ e1 < nx, ∀ j < n, ∀ i < n, b.get [v, e2, e1, j * n + i] = a.get [v, e2 * n + j, e1 * n + i] := by
  subst h
  unfold toNew2
  simp only [ha, List.length_cons, List.length_nil, List.drop_succ_cons, List.drop_zero, and_self, true_or, if_true]
  rw [if_neg (by simp)]
  refine ⟨_, rfl, rfl, ?_⟩
  intro v hv e2 h2 e1 h1 j hj i hi
  exact reshape_transpose_reshape (lead := [m]) (l := [v]) (s := [nx, n, nx, n]) [0, 2, 1, 3] a ha (mid := [e2, e1, j, i])
    (by valid_tac)
    (by valid_tac) (by valid_tac) (by size_tac) (by size_tac) (by ravel_tac) (by ravel_tac)

/-- On a tile that is not square the two axes of elements would be exchanged in the shape. -/
theorem C40_rectangular_fails : ∃ (a b : Arr Nat), a.shape = [1 * 1, 2 * 1] ∧ toNew2 2 1 1 a = some b ∧ b.shape ≠ [1, 2, 1 * 1] :=
  ⟨⟨[1, 2], fun _ => 0⟩, _, rfl, rfl, by decide⟩

/-- **C40** 2D, elements to block. -/
theorem C40_to_block_2d (nx ny n : Nat) (lead : List Nat) (a : Arr α) (ha : a.shape = lead ++ [ny, nx, n * n]) :
    ∃ b, toBlock2 nx ny n a = some b ∧ b.shape = lead ++ [ny * n, nx * n] ∧
      ∀ l, Valid l lead → ∀ e2 < ny, ∀ e1 < nx, ∀ j < n, ∀ i < n,
        b.get (l ++ [e2 * n + j, e1 * n + i]) = a.get (l ++ [e2, e1, j * n + i]) := by
  have hd : a.shape.drop (a.shape.length - 3) = [ny, nx, n * n] := by rw [ha]; exact drop_lead lead [ny, nx, n * n]
  have hta : a.shape.take (a.shape.length - 3) = lead := by rw [ha]; exact take_lead lead [ny, nx, n * n]
  have hl3 : ¬a.shape.length < 3 := by rw [ha]; simp
  unfold toBlock2
  simp only [hd, hta, ne_eq, not_true_eq_false, false_or, if_neg hl3]
  refine ⟨_, rfl, rfl, ?_⟩
  intro l hl e2 h2 e1 h1 j hj i hi
  have hmv : moveaxis [-3] [-2] (reshape (lead ++ [ny, nx, n, n]) a) =
      transpose (List.range lead.length ++ [0, 2, 1, 3].map (lead.length + ·)) (reshape (lead ++ [ny, nx, n, n]) a) :=
    moveaxis_eq (α := α) 4 [3] [2] _ rfl (by decide) (by decide)
  rw [hmv]
  exact reshape_transpose_reshape (s := [ny, nx, n, n]) _ a ha (mid := [e2, j, e1, i]) hl
    (by valid_tac) (by valid_tac) (by size_tac) (by size_tac) (by ravel_tac) (by ravel_tac)

/-- **C40** 2D: block → elements → block and elements → block → elements return the same array. -/
theorem C40_roundtrip_2d (ne n : Nat) (a : Arr α) :
    (a.shape = [ne * n, ne * n] → ∃ b c, toNew2 ne ne n a = some b ∧ toBlock2 ne ne n b = some c ∧ Same c a) ∧
    (a.shape = [ne, ne, n * n] → ∃ b c, toBlock2 ne ne n a = some b ∧ toNew2 ne ne n b = some c ∧ Same c a) := by
  constructor
  · intro ha
    obtain ⟨b, hb, hbs, hbv⟩ := C40_to_new_2d ne ne n rfl a ha
    obtain ⟨c, hc, hcs, hcv⟩ := C40_to_block_2d ne ne n [] b hbs
    refine ⟨b, c, hb, hc, by rw [hcs, ha]; rfl, ?_⟩
    intro idx hidx
    rw [hcs] at hidx
    obtain ⟨x, y, rfl, hx, hy⟩ := valid2 hidx
    obtain ⟨e2, j, h2, hj, rfl⟩ := split_index hx
    obtain ⟨e1, i, h1, hi, rfl⟩ := split_index hy
    rw [← hbv e2 h2 e1 h1 j hj i hi]
    exact hcv [] valid_nil e2 h2 e1 h1 j hj i hi
  · intro ha
    obtain ⟨b, hb, hbs, hbv⟩ := C40_to_block_2d ne ne n [] a ha
    obtain ⟨c, hc, hcs, hcv⟩ := C40_to_new_2d ne ne n rfl b hbs
    refine ⟨b, c, hb, hc, by rw [hcs, ha], ?_⟩
    intro idx hidx
    rw [hcs] at hidx
    obtain ⟨e2, e1, w, rfl, h2, h1, hw⟩ := valid3 hidx
    obtain ⟨j, i, hj, hi, rfl⟩ := split_index hw
    rw [hcv e2 h2 e1 h1 j hj i hi]
    exact hbv [] valid_nil e2 h2 e1 h1 j hj i hi

/-- **C40** West–east interfaces of the 2D grid, on tiles of more than one element in the other direction and with leading axes
longer than one. -/
theorem C40_itf_i_2d_partial (nx ny n : Nat) (hx : 0 < nx) (hn : 0 < n) (hy : ny ≠ 1) (junk : List Nat → α) (lead : List Nat)
    (hlead : ∀ d ∈ lead, d ≠ 1) (a : Arr α) (ha : a.shape = lead ++ [nx + 1, ny * n]) :
    ∃ b, toNewItfI2 nx ny n junk a = some b ∧ b.shape = lead ++ [ny, nx + 2, n * 2] ∧
      ∀ l, Valid l lead → ∀ e2 < ny, ∀ j < n,
        (∀ f ≤ nx, b.get (l ++ [e2, f, n + j]) = a.get (l ++ [f, e2 * n + j]) ∧ b.get (l ++ [e2, f + 1, j]) = a.get (l ++ [f, e2 * n + j])) ∧
        b.get (l ++ [e2, 0, j]) = 0 ∧ b.get (l ++ [e2, nx + 1, n + j]) = 0 := by
  have hd : a.shape.drop (a.shape.length - 2) = [nx + 1, ny * n] := by rw [ha]; exact drop_lead lead [nx + 1, ny * n]
  have hta : a.shape.take (a.shape.length - 2) = lead := by rw [ha]; exact take_lead lead [nx + 1, ny * n]
  have hlen : a.shape.length - 2 = lead.length := by rw [ha]; simp
  have hdims : ∀ d ∈ lead ++ [ny, nx + 2, n * 2], d ≠ 1 := by
    intro d hd'
    rcases List.mem_append.mp hd' with h | h
    · exact hlead d h
    · simp at h; omega
  unfold toNewItfI2
  simp only [hd, hta, if_true]
  refine ⟨_, rfl, squeeze_shape hdims, ?_⟩
  intro l hl e2 h2 j hj
  have hg : ∀ x y, (l ++ [e2, x, y]).length = (lead ++ [ny, nx + 2, n * 2]).length := by simp [hl.length]
  have hord : List.range (a.shape.length - 2) ++ [1 + (a.shape.length - 2), 0 + (a.shape.length - 2), 2 + (a.shape.length - 2)] =
      List.range lead.length ++ [1, 0, 2].map (lead.length + ·) := by
    rw [hlen]; simp [Nat.add_comm]
  rw [hord]
  generalize htmp : transpose _ (reshape (lead ++ [nx + 1, ny, n]) a) = tmp
  have ht : ∀ f ≤ nx, tmp.get (l ++ [e2] ++ [f, j]) = a.get (l ++ [f, e2 * n + j]) := by
    intro f hf
    have hf' : f < nx + 1 := by omega
    rw [← htmp, show reshape (lead ++ [nx + 1, ny, n]) a = ⟨lead ++ [nx + 1, ny, n], (reshape (lead ++ [nx + 1, ny, n]) a).get⟩ from rfl,
      List.append_assoc, transpose_get lead.length 3 _ _ rfl rfl hl.length,
      reshape_get a ha (idx' := l ++ [f, e2 * n + j]) (hl.append (by valid_tac))]
    rw [ravel_append hl.length, ravel_append hl.length]
    ravel_tac
  have hsp : ∀ x y, l ++ [e2, x, y] = (l ++ [e2]) ++ [x, y] := by simp
  refine ⟨fun f hf => ⟨?_, ?_⟩, ?_, ?_⟩
  · rw [squeeze_get hdims (hg _ _), hsp, ← ht f hf]; itf_tac
  · rw [squeeze_get hdims (hg _ _), hsp, ← ht f hf]; itf_tac
  · rw [squeeze_get hdims (hg _ _), hsp]; itf_tac
  · rw [squeeze_get hdims (hg _ _), hsp]; itf_tac

/-- **C40** South–north interfaces of the 2D grid, under the same restriction. -/
theorem C40_itf_j_2d_partial (nx ny n : Nat) (hy : 0 < ny) (hn : 0 < n) (hx : nx ≠ 1) (junk : List Nat → α) (lead : List Nat)
    (hlead : ∀ d ∈ lead, d ≠ 1) (a : Arr α) (ha : a.shape = lead ++ [ny + 1, nx * n]) :
    ∃ b, toNewItfJ2 nx ny n junk a = some b ∧ b.shape = lead ++ [ny + 2, nx, n * 2] ∧
      ∀ l, Valid l lead → ∀ e1 < nx, ∀ i < n,
        (∀ f ≤ ny, b.get (l ++ [f, e1, n + i]) = a.get (l ++ [f, e1 * n + i]) ∧ b.get (l ++ [f + 1, e1, i]) = a.get (l ++ [f, e1 * n + i])) ∧
        b.get (l ++ [0, e1, i]) = 0 ∧ b.get (l ++ [ny + 1, e1, n + i]) = 0 := by
  have hd : a.shape.drop (a.shape.length - 2) = [ny + 1, nx * n] := by rw [ha]; exact drop_lead lead [ny + 1, nx * n]
  have hta : a.shape.take (a.shape.length - 2) = lead := by rw [ha]; exact take_lead lead [ny + 1, nx * n]
  have hdims : ∀ d ∈ lead ++ [ny + 2, nx, n * 2], d ≠ 1 := by
    intro d hd'
    rcases List.mem_append.mp hd' with h | h
    · exact hlead d h
    · simp at h; omega
  unfold toNewItfJ2
  simp only [hd, hta, if_true]
  refine ⟨_, rfl, squeeze_shape hdims, ?_⟩
  intro l hl e1 h1 i hi
  have hg : ∀ x y z, (l ++ [x, y, z]).length = (lead ++ [ny + 2, nx, n * 2]).length := by simp [hl.length]
  generalize htmp : reshape (lead ++ [ny + 1, nx, n]) a = tmp
  have ht : ∀ f ≤ ny, tmp.get (l ++ [f, e1, i]) = a.get (l ++ [f, e1 * n + i]) := by
    intro f hf
    have hf' : f < ny + 1 := by omega
    rw [← htmp, reshape_get a ha (idx' := l ++ [f, e1 * n + i]) (hl.append (by valid_tac))]
    rw [ravel_append hl.length, ravel_append hl.length]
    ravel_tac
  refine ⟨fun f hf => ⟨?_, ?_⟩, ?_, ?_⟩
  · rw [squeeze_get hdims (hg _ _ _), ← ht f hf]; itf_tac
  · rw [squeeze_get hdims (hg _ _ _), ← ht f hf]; itf_tac
  · rw [squeeze_get hdims (hg _ _ _)]; itf_tac
  · rw [squeeze_get hdims (hg _ _ _)]; itf_tac

/-- On a tile of one element the interface array loses the axis of elements (`xp.squeeze`). -/
theorem C40_itf_one_element_fails (n : Nat) (hn : 0 < n) (junk : List Nat → α) (a : Arr α) (ha : a.shape = [1 + 1, 1 * n]) :
    ∃ b c, toNewItfJ2 1 1 n junk a = some b ∧ toNewItfI2 1 1 n junk a = some c ∧ b.shape = [3, n * 2] ∧ c.shape = [3, n * 2] := by
  have hd : a.shape.drop (a.shape.length - 2) = [1 + 1, 1 * n] := by rw [ha]; rfl
  have hta : a.shape.take (a.shape.length - 2) = [] := by rw [ha]; rfl
  have h2 : n * 2 ≠ 1 := by omega
  unfold toNewItfJ2 toNewItfI2
  simp only [hd, hta, if_true]
  refine ⟨_, _, rfl, rfl, ?_, ?_⟩ <;>
  · simp only [squeeze, assignConst, assign, List.nil_append]
    simp [h2]

/-! ## Floor arrays -/

theorem select_shape6 {lead : List Nat} {A B C D E F : Nat} {m : Arr α} (hm : m.shape = lead ++ [A, B, C, D, E, F]) :
    (select [.one 0, .all, .all, .all, .one 0, .all] m).shape = lead ++ [B, C, D, F] := by
  simp only [select, hm]
  rw [show ([Sl.one 0, .all, .all, .all, .one 0, .all]).length = [A, B, C, D, E, F].length from rfl, take_lead, drop_lead]
  rfl

theorem select_get6 (m : Arr α) (l : List Nat) (x y z w : Nat) :
    (select [.one 0, .all, .all, .all, .one 0, .all] m).get (l ++ [x, y, z, w]) = m.get (l ++ [0, x, y, z, 0, w]) := by
  simp only [select]
  rw [show kept [Sl.one 0, .all, .all, .all, .one 0, .all] = [x, y, z, w].length from rfl, take_lead, drop_lead]
  rfl

theorem select_shapeF {lead : List Nat} {A B C D E F : Nat} {m : Arr α} (hm : m.shape = lead ++ [A, B, C, D, E, F]) :
    (select [.one 0, .all, .all, .one 0, .all, .all] m).shape = lead ++ [B, C, E, F] := by
  simp only [select, hm]
  rw [show ([Sl.one 0, .all, .all, .one 0, .all, .all]).length = [A, B, C, D, E, F].length from rfl, take_lead, drop_lead]
  rfl

theorem select_getF (m : Arr α) (l : List Nat) (x y z w : Nat) :
    (select [.one 0, .all, .all, .one 0, .all, .all] m).get (l ++ [x, y, z, w]) = m.get (l ++ [0, x, y, 0, z, w]) := by
  simp only [select]
  rw [show kept [Sl.one 0, .all, .all, .one 0, .all, .all] = [x, y, z, w].length from rfl, take_lead, drop_lead]
  rfl

/-- **C40** The floor of a field: the lowest points of the lowest elements. -/
theorem C40_get_floor (nx ny nz n : Nat) (hz : 0 < nz) (hn : 0 < n) (lead : List Nat) (a : Arr α)
    (ha : a.shape = lead ++ [nz, ny, nx, n ^ 3]) :
    ∃ b, getFloor nx ny nz n a = some b ∧ b.shape = lead ++ [ny, nx, n ^ 2] ∧
      ∀ l, Valid l lead → ∀ e2 < ny, ∀ e1 < nx, ∀ j < n, ∀ i < n,
        b.get (l ++ [e2, e1, j * n + i]) = a.get (l ++ [0, e2, e1, (0 * n + j) * n + i]) := by
  have hd : a.shape.drop (a.shape.length - 4) = [nz, ny, nx, n ^ 3] := by rw [ha]; exact drop_lead lead [nz, ny, nx, n ^ 3]
  have hta : a.shape.take (a.shape.length - 4) = lead := by rw [ha]; exact take_lead lead [nz, ny, nx, n ^ 3]
  have ht1 : a.shape.take (a.shape.length - 1) = lead ++ [nz, ny, nx] := by
    rw [ha, show lead ++ [nz, ny, nx, n ^ 3] = (lead ++ [nz, ny, nx]) ++ [n ^ 3] by simp]
    exact take_lead _ [n ^ 3]
  unfold getFloor
  simp only [hd, hta, ht1, ne_eq, not_true_eq_false, if_false]
  refine ⟨_, rfl, rfl, ?_⟩
  intro l hl e2 h2 e1 h1 j hj i hi
  have hll := hl.length
  have hmid : (reshape (lead ++ [nz, ny, nx] ++ [n, n, n]) a).shape = lead ++ [nz, ny, nx, n, n, n] := by simp [reshape]
  rw [reshape_get _ (s := lead ++ [ny, nx, n, n]) (idx' := l ++ [e2, e1, j, i]) (select_shapeF hmid) (hl.append (by valid_tac))]
  · rw [select_getF, reshape_get a ha (idx' := l ++ [0, e2, e1, (0 * n + j) * n + i])]
    · apply hl.append
      have : (0 * n + j) * n + i < n ^ 3 := by
        calc _ < n * n * n := cell (cell hn hj) hi
          _ = n ^ 3 := by ring
      simp only [valid_cons, valid_nil, and_true]
      exact ⟨hz, h2, h1, this⟩
    · rw [List.append_assoc, ravel_append hll, ravel_append hll]
      congr 1
      · congr 1; simp only [List.cons_append, List.nil_append]; size_tac
      · ravel_tac
  · rw [ravel_append hll, ravel_append hll]
    congr 1
    · congr 1; size_tac
    · ravel_tac

/-- **C40** The floor of a west–east interface array. -/
theorem C40_get_itf_i_floor (nx ny nz n : Nat) (hz : 0 < nz) (hn : 0 < n) (lead : List Nat) (a : Arr α)
    (ha : a.shape = lead ++ [nz, ny, nx + 2, n ^ 2 * 2]) :
    ∃ b, getItfIFloor nx ny nz n a = some b ∧ b.shape = lead ++ [ny, nx + 2, n * 2] ∧
      ∀ l, Valid l lead → ∀ x < ny, ∀ y < nx + 2, ∀ side < 2, ∀ j < n,
        b.get (l ++ [x, y, side * n + j]) = a.get (l ++ [0, x, y, side * n ^ 2 + (0 * n + j)]) := by
  have hd : a.shape.drop (a.shape.length - 4) = [nz, ny, nx + 2, n ^ 2 * 2] := by rw [ha]; exact drop_lead lead [nz, ny, nx + 2, n ^ 2 * 2]
  have hta : a.shape.take (a.shape.length - 4) = lead := by rw [ha]; exact take_lead lead [nz, ny, nx + 2, n ^ 2 * 2]
  have ht1 : a.shape.take (a.shape.length - 1) = lead ++ [nz, ny, nx + 2] := by
    rw [ha, show lead ++ [nz, ny, nx + 2, n ^ 2 * 2] = (lead ++ [nz, ny, nx + 2]) ++ [n ^ 2 * 2] by simp]
    exact take_lead _ [n ^ 2 * 2]
  unfold getItfIFloor
  simp only [hd, hta, ht1, ne_eq, not_true_eq_false, if_false]
  refine ⟨_, rfl, rfl, ?_⟩
  intro l hl x hx y hy side hs j hj
  have hll := hl.length
  have hmid : (reshape (lead ++ [nz, ny, nx + 2] ++ [2, n, n]) a).shape = lead ++ [nz, ny, nx + 2, 2, n, n] := by simp [reshape]
  rw [reshape_get _ (s := lead ++ [ny, nx + 2, 2, n]) (idx' := l ++ [x, y, side, j]) (select_shape6 hmid) (hl.append (by valid_tac))]
  · rw [select_get6, reshape_get a ha (idx' := l ++ [0, x, y, side * n ^ 2 + (0 * n + j)])]
    · apply hl.append
      have : side * n ^ 2 + (0 * n + j) < n ^ 2 * 2 := by
        have h1 := cell hs (show 0 * n + j < n ^ 2 by calc _ < n * n := cell hn hj
                                                        _ = n ^ 2 := by ring)
        rw [Nat.mul_comm (n ^ 2)]; exact h1
      simp only [valid_cons, valid_nil, and_true]
      exact ⟨hz, hx, hy, this⟩
    · rw [List.append_assoc, ravel_append hll, ravel_append hll]
      congr 1
      · congr 1; simp only [List.cons_append, List.nil_append]; size_tac
      · ravel_tac
  · rw [ravel_append hll, ravel_append hll]
    congr 1
    · congr 1; size_tac
    · ravel_tac

/-- **C40** The floor of a south–north interface array. -/
theorem C40_get_itf_j_floor (nx ny nz n : Nat) (hz : 0 < nz) (hn : 0 < n) (lead : List Nat) (a : Arr α)
    (ha : a.shape = lead ++ [nz, ny + 2, nx, n ^ 2 * 2]) :
    ∃ b, getItfJFloor nx ny nz n a = some b ∧ b.shape = lead ++ [ny + 2, nx, n * 2] ∧
      ∀ l, Valid l lead → ∀ x < ny + 2, ∀ y < nx, ∀ side < 2, ∀ j < n,
        b.get (l ++ [x, y, side * n + j]) = a.get (l ++ [0, x, y, side * n ^ 2 + (0 * n + j)]) := by
  have hd : a.shape.drop (a.shape.length - 4) = [nz, ny + 2, nx, n ^ 2 * 2] := by rw [ha]; exact drop_lead lead [nz, ny + 2, nx, n ^ 2 * 2]
  have hta : a.shape.take (a.shape.length - 4) = lead := by rw [ha]; exact take_lead lead [nz, ny + 2, nx, n ^ 2 * 2]
  have ht1 : a.shape.take (a.shape.length - 1) = lead ++ [nz, ny + 2, nx] := by
    rw [ha, show lead ++ [nz, ny + 2, nx, n ^ 2 * 2] = (lead ++ [nz, ny + 2, nx]) ++ [n ^ 2 * 2] by simp]
    exact take_lead _ [n ^ 2 * 2]
  unfold getItfJFloor
  simp only [hd, hta, ht1, ne_eq, not_true_eq_false, if_false]
  refine ⟨_, rfl, rfl, ?_⟩
  intro l hl x hx y hy side hs j hj
  have hll := hl.length
  have hmid : (reshape (lead ++ [nz, ny + 2, nx] ++ [2, n, n]) a).shape = lead ++ [nz, ny + 2, nx, 2, n, n] := by simp [reshape]
  rw [reshape_get _ (s := lead ++ [ny + 2, nx, 2, n]) (idx' := l ++ [x, y, side, j]) (select_shape6 hmid) (hl.append (by valid_tac))]
  · rw [select_get6, reshape_get a ha (idx' := l ++ [0, x, y, side * n ^ 2 + (0 * n + j)])]
    · apply hl.append
      have : side * n ^ 2 + (0 * n + j) < n ^ 2 * 2 := by
        have h1 := cell hs (show 0 * n + j < n ^ 2 by calc _ < n * n := cell hn hj
                                                        _ = n ^ 2 := by ring)
        rw [Nat.mul_comm (n ^ 2)]; exact h1
      simp only [valid_cons, valid_nil, and_true]
      exact ⟨hz, hx, hy, this⟩
    · rw [List.append_assoc, ravel_append hll, ravel_append hll]
      congr 1
      · congr 1; simp only [List.cons_append, List.nil_append]; size_tac
      · ravel_tac
  · rw [ravel_append hll, ravel_append hll]
    congr 1
    · congr 1; size_tac
    · ravel_tac

/-- **C40** A west–east floor array is repeated at every height. -/
theorem C40_floor_i_to_bulk (nx ny nz n : Nat) (a : Arr α) (ha : a.shape = [ny, nx + 2, n * 2]) :
    ∃ b, floorIToBulk nx ny nz n a = some b ∧ b.shape = [nz, ny, nx + 2, n ^ 2 * 2] ∧
      ∀ e3 < nz, ∀ x < ny, ∀ y < nx + 2, ∀ side < 2, ∀ k < n, ∀ j < n,
        b.get [e3, x, y, side * n ^ 2 + (k * n + j)] = a.get [x, y, side * n + j] := by
  unfold floorIToBulk
  simp only [ha, ne_eq, not_true_eq_false, if_false]
  refine ⟨_, rfl, rfl, ?_⟩
  intro e3 h3 x hx y hy side hs k hk j hj
  have h0 : 0 < n := by omega
  rw [reshape_get _ (s := [nz * (ny), 1 * (nx + 2), 1 * (2 * n), 1 * n]) (idx' := [e3 * (ny) + x, y, side * n + k, j]) rfl]
  · have e : (tile [nz, 1, 1, 1] (rept n 2 (reshape [ny, nx + 2, 2, n] a))).get [e3 * (ny) + x, y, side * n + k, j] =
        (reshape [ny, nx + 2, 2, n] a).get [(e3 * (ny) + x) % (ny), y % (nx + 2), (side * n + k) % (2 * n) / n, j % n] := rfl
    have e1 : (e3 * (ny) + x) % (ny) = x := by rw [Nat.add_comm, Nat.add_mul_mod_self_right, Nat.mod_eq_of_lt hx]
    have e2 : (side * n + k) % (2 * n) / n = side := by
      rw [Nat.mod_eq_of_lt (cell hs hk), Nat.add_comm, Nat.add_mul_div_right _ _ h0, Nat.div_eq_of_lt hk, Nat.zero_add]
    refine Eq.trans e ?_
    rw [e1, e2, Nat.mod_eq_of_lt hy, Nat.mod_eq_of_lt hj, reshape_get a ha (idx' := [x, y, side * n + j])]
    · have := cell hs hj
      rw [Nat.mul_comm 2] at this
      simp only [valid_cons, valid_nil, and_true]
      exact ⟨hx, hy, this⟩
    · ravel_tac
  · valid_tac
  · ravel_tac

/-- **C40** A south–north floor array is repeated at every height. -/
theorem C40_floor_j_to_bulk (nx ny nz n : Nat) (a : Arr α) (ha : a.shape = [ny + 2, nx, n * 2]) :
    ∃ b, floorJToBulk nx ny nz n a = some b ∧ b.shape = [nz, ny + 2, nx, n ^ 2 * 2] ∧
      ∀ e3 < nz, ∀ x < ny + 2, ∀ y < nx, ∀ side < 2, ∀ k < n, ∀ j < n,
        b.get [e3, x, y, side * n ^ 2 + (k * n + j)] = a.get [x, y, side * n + j] := by
  unfold floorJToBulk
  simp only [ha, ne_eq, not_true_eq_false, if_false]
  refine ⟨_, rfl, rfl, ?_⟩
  intro e3 h3 x hx y hy side hs k hk j hj
  have h0 : 0 < n := by omega
  rw [reshape_get _ (s := [nz * (ny + 2), 1 * (nx), 1 * (2 * n), 1 * n]) (idx' := [e3 * (ny + 2) + x, y, side * n + k, j]) rfl]
  · have e : (tile [nz, 1, 1, 1] (rept n 2 (reshape [ny + 2, nx, 2, n] a))).get [e3 * (ny + 2) + x, y, side * n + k, j] =
        (reshape [ny + 2, nx, 2, n] a).get [(e3 * (ny + 2) + x) % (ny + 2), y % (nx), (side * n + k) % (2 * n) / n, j % n] := rfl
    have e1 : (e3 * (ny + 2) + x) % (ny + 2) = x := by rw [Nat.add_comm, Nat.add_mul_mod_self_right, Nat.mod_eq_of_lt hx]
    have e2 : (side * n + k) % (2 * n) / n = side := by
      rw [Nat.mod_eq_of_lt (cell hs hk), Nat.add_comm, Nat.add_mul_div_right _ _ h0, Nat.div_eq_of_lt hk, Nat.zero_add]
    refine Eq.trans e ?_
    rw [e1, e2, Nat.mod_eq_of_lt hy, Nat.mod_eq_of_lt hj, reshape_get a ha (idx' := [x, y, side * n + j])]
    · have := cell hs hj
      rw [Nat.mul_comm 2] at this
      simp only [valid_cons, valid_nil, and_true]
      exact ⟨hx, hy, this⟩
    · ravel_tac
  · valid_tac
  · ravel_tac

/-- **C40** A floor array is repeated at every height. -/
theorem C40_floor_to_bulk (nx ny nz n : Nat) (a : Arr α) (ha : a.shape = [ny, nx, n ^ 2]) :
    ∃ b, floorToBulk nx ny nz n false a = some b ∧ b.shape = [nz, ny, nx, n ^ 3] ∧
      ∀ e3 < nz, ∀ e2 < ny, ∀ e1 < nx, ∀ k < n, ∀ j < n, ∀ i < n,
        b.get [e3, e2, e1, (k * n + j) * n + i] = a.get [e2, e1, j * n + i] := by
  unfold floorToBulk
  simp only [ha, ne_eq, not_true_eq_false, if_false, if_true, Bool.false_eq_true]
  refine ⟨_, rfl, rfl, ?_⟩
  intro e3 h3 e2 h2 e1 h1 k hk j hj i hi
  have hc : j * n + i < n ^ 2 := by
    calc _ < n * n := cell hj hi
      _ = n ^ 2 := by ring
  rw [reshape_get _ (s := [(nz) * ny, 1 * (nx * n), 1 * n ^ 2]) (idx' := [e3 * ny + e2, e1 * n + k, j * n + i])]
  · have e : (tile [nz, 1, 1] (rept n 1 a)).get [e3 * ny + e2, e1 * n + k, j * n + i] =
        a.get (List.zipWith (· % ·) [e3 * ny + e2, e1 * n + k, j * n + i] (a.shape.modify 1 (· * n)) |>.modify 1 (· / n)) := rfl
    have e' : (List.zipWith (· % ·) [e3 * ny + e2, e1 * n + k, j * n + i] (a.shape.modify 1 (· * n)) |>.modify 1 (· / n)) =
        [(e3 * ny + e2) % ny, (e1 * n + k) % (nx * n) / n, (j * n + i) % n ^ 2] := by rw [ha]; rfl
    have h0 : 0 < n := by omega
    have q1 : (e3 * ny + e2) % ny = e2 := by rw [Nat.add_comm, Nat.add_mul_mod_self_right, Nat.mod_eq_of_lt h2]
    have q2 : (e1 * n + k) % (nx * n) / n = e1 := by
      rw [Nat.mod_eq_of_lt (cell h1 hk), Nat.add_comm, Nat.add_mul_div_right _ _ h0, Nat.div_eq_of_lt hk, Nat.zero_add]
    refine Eq.trans e ?_
    rw [e', q1, q2, Nat.mod_eq_of_lt hc]
  · simp only [tile, rept, ha]; rfl
  · valid_tac
  · ravel_tac

/-- **C40** A floor array is repeated at every bottom and top interface, including the halo. -/
theorem C40_floor_to_bulk_k (nx ny nz n : Nat) (a : Arr α) (ha : a.shape = [ny, nx, n ^ 2]) :
    ∃ b, floorToBulk nx ny nz n true a = some b ∧ b.shape = [nz + 2, ny, nx, n ^ 2 * 2] ∧
      ∀ e3 < nz + 2, ∀ e2 < ny, ∀ e1 < nx, ∀ k < 2, ∀ j < n, ∀ i < n,
        b.get [e3, e2, e1, k * n ^ 2 + (j * n + i)] = a.get [e2, e1, j * n + i] := by
  unfold floorToBulk
  simp only [ha, ne_eq, not_true_eq_false, if_false, if_true, Bool.false_eq_true]
  refine ⟨_, rfl, rfl, ?_⟩
  intro e3 h3 e2 h2 e1 h1 k hk j hj i hi
  have hc : j * n + i < n ^ 2 := by
    calc _ < n * n := cell hj hi
      _ = n ^ 2 := by ring
  rw [reshape_get _ (s := [(nz + 2) * ny, 1 * (nx * 2), 1 * n ^ 2]) (idx' := [e3 * ny + e2, e1 * 2 + k, j * n + i])]
  · have e : (tile [nz + 2, 1, 1] (rept 2 1 a)).get [e3 * ny + e2, e1 * 2 + k, j * n + i] =
        a.get (List.zipWith (· % ·) [e3 * ny + e2, e1 * 2 + k, j * n + i] (a.shape.modify 1 (· * 2)) |>.modify 1 (· / 2)) := rfl
    have e' : (List.zipWith (· % ·) [e3 * ny + e2, e1 * 2 + k, j * n + i] (a.shape.modify 1 (· * 2)) |>.modify 1 (· / 2)) =
        [(e3 * ny + e2) % ny, (e1 * 2 + k) % (nx * 2) / 2, (j * n + i) % n ^ 2] := by rw [ha]; rfl
    have h0 : 0 < 2 := by omega
    have q1 : (e3 * ny + e2) % ny = e2 := by rw [Nat.add_comm, Nat.add_mul_mod_self_right, Nat.mod_eq_of_lt h2]
    have q2 : (e1 * 2 + k) % (nx * 2) / 2 = e1 := by
      rw [Nat.mod_eq_of_lt (cell h1 hk), Nat.add_comm, Nat.add_mul_div_right _ _ h0, Nat.div_eq_of_lt hk, Nat.zero_add]
    refine Eq.trans e ?_
    rw [e', q1, q2, Nat.mod_eq_of_lt hc]
  · simp only [tile, rept, ha]; rfl
  · valid_tac
  · ravel_tac

/-- **C40** Repeating a floor array and taking the floor returns it, for the three kinds of floor arrays. -/
theorem C40_floor_roundtrip (nx ny nz n : Nat) (hz : 0 < nz) (hn : 0 < n) (a : Arr α) :
    (a.shape = [ny, nx, n ^ 2] → ∃ b c, floorToBulk nx ny nz n false a = some b ∧ getFloor nx ny nz n b = some c ∧ Same c a) ∧
    (a.shape = [ny, nx + 2, n * 2] → ∃ b c, floorIToBulk nx ny nz n a = some b ∧ getItfIFloor nx ny nz n b = some c ∧ Same c a) ∧
    (a.shape = [ny + 2, nx, n * 2] → ∃ b c, floorJToBulk nx ny nz n a = some b ∧ getItfJFloor nx ny nz n b = some c ∧ Same c a) := by
  refine ⟨?_, ?_, ?_⟩
  · intro ha
    obtain ⟨b, hb, hbs, hbv⟩ := C40_floor_to_bulk nx ny nz n a ha
    obtain ⟨c, hc, hcs, hcv⟩ := C40_get_floor nx ny nz n hz hn [] b hbs
    refine ⟨b, c, hb, hc, by rw [hcs, ha]; rfl, ?_⟩
    intro idx hidx
    rw [hcs] at hidx
    obtain ⟨e2, e1, w, rfl, h2, h1, hw⟩ := valid3 hidx
    obtain ⟨j, i, hj, hi, rfl⟩ := split_index (E := n) (n := n) (x := w) (by rwa [pow_two] at hw)
    rw [← hbv 0 hz e2 h2 e1 h1 0 hn j hj i hi]
    exact hcv [] valid_nil e2 h2 e1 h1 j hj i hi
  · intro ha
    obtain ⟨b, hb, hbs, hbv⟩ := C40_floor_i_to_bulk nx ny nz n a ha
    obtain ⟨c, hc, hcs, hcv⟩ := C40_get_itf_i_floor nx ny nz n hz hn [] b hbs
    refine ⟨b, c, hb, hc, by rw [hcs, ha]; rfl, ?_⟩
    intro idx hidx
    rw [hcs] at hidx
    obtain ⟨x, y, w, rfl, hx, hy, hw⟩ := valid3 hidx
    obtain ⟨sd, j, hs, hj, rfl⟩ := split_index (E := 2) (n := n) (x := w) (by rwa [Nat.mul_comm] at hw)
    rw [← hbv 0 hz x hx y hy sd hs 0 hn j hj]
    exact hcv [] valid_nil x hx y hy sd hs j hj
  · intro ha
    obtain ⟨b, hb, hbs, hbv⟩ := C40_floor_j_to_bulk nx ny nz n a ha
    obtain ⟨c, hc, hcs, hcv⟩ := C40_get_itf_j_floor nx ny nz n hz hn [] b hbs
    refine ⟨b, c, hb, hc, by rw [hcs, ha]; rfl, ?_⟩
    intro idx hidx
    rw [hcs] at hidx
    obtain ⟨x, y, w, rfl, hx, hy, hw⟩ := valid3 hidx
    obtain ⟨sd, j, hs, hj, rfl⟩ := split_index (E := 2) (n := n) (x := w) (by rwa [Nat.mul_comm] at hw)
    rw [← hbv 0 hz x hx y hy sd hs 0 hn j hj]
    exact hcv [] valid_nil x hx y hy sd hs j hj

/-- **C40** Floor block to floor elements. -/
theorem C40_to_new_floor (nx ny n : Nat) (lead : List Nat) (a : Arr α) (ha : a.shape = lead ++ [ny * n, nx * n]) :
    ∃ b, toNewFloor nx ny n a = some b ∧ b.shape = lead ++ [ny, nx, n ^ 2] ∧
      ∀ l, Valid l lead → ∀ e2 < ny, ∀ e1 < nx, ∀ j < n, ∀ i < n,
        b.get (l ++ [e2, e1, j * n + i]) = a.get (l ++ [e2 * n + j, e1 * n + i]) := by
  have hd : a.shape.drop (a.shape.length - 2) = [ny * n, nx * n] := by rw [ha]; exact drop_lead lead [ny * n, nx * n]
  have hta : a.shape.take (a.shape.length - 2) = lead := by rw [ha]; exact take_lead lead [ny * n, nx * n]
  unfold toNewFloor
  simp only [hd, hta, ne_eq, not_true_eq_false, if_false]
  refine ⟨_, rfl, rfl, ?_⟩
  intro l hl e2 h2 e1 h1 j hj i hi
  have hmv : swapaxes (-3) (-2) (reshape (lead ++ [ny, n, nx, n]) a) =
      transpose (List.range lead.length ++ [0, 2, 1, 3].map (lead.length + ·)) (reshape (lead ++ [ny, n, nx, n]) a) :=
    swapaxes_eq (α := α) 4 3 2 _ rfl (by decide) (by decide)
  rw [hmv]
  exact reshape_transpose_reshape (s := [ny, n, nx, n]) _ a ha (mid := [e2, e1, j, i]) hl
    (by valid_tac) (by valid_tac) (by size_tac) (by size_tac) (by ravel_tac) (by ravel_tac)

/-- **C40** Floor interfaces, west–east: both adjacent elements receive the value, the outer sides stay zero. -/
theorem C40_itf_i_floor (nx ny n : Nat) (lead : List Nat) (a : Arr α) (ha : a.shape = lead ++ [ny * n, nx + 1]) :
    ∃ b, toNewItfIFloor nx ny n a = some b ∧ b.shape = lead ++ [ny, nx + 2, n * 2] ∧
      ∀ l, Valid l lead → ∀ e2 < ny, ∀ j < n,
        (∀ f ≤ nx, b.get (l ++ [e2, f, n + j]) = a.get (l ++ [e2 * n + j, f]) ∧ b.get (l ++ [e2, f + 1, j]) = a.get (l ++ [e2 * n + j, f])) ∧
        b.get (l ++ [e2, 0, j]) = 0 ∧ b.get (l ++ [e2, nx + 1, n + j]) = 0 := by
  have hd : a.shape.drop (a.shape.length - 2) = [ny * n, nx + 1] := by rw [ha]; exact drop_lead lead [ny * n, nx + 1]
  have hta : a.shape.take (a.shape.length - 2) = lead := by rw [ha]; exact take_lead lead [ny * n, nx + 1]
  unfold toNewItfIFloor
  simp only [hd, hta, ne_eq, not_true_eq_false, if_false]
  refine ⟨_, rfl, rfl, ?_⟩
  intro l hl e2 h2 j hj
  have hmv : moveaxis [-2] [-1] (reshape (lead ++ [ny, n, nx + 1]) a) =
      transpose (List.range lead.length ++ [0, 2, 1].map (lead.length + ·)) (reshape (lead ++ [ny, n, nx + 1]) a) :=
    moveaxis_eq (α := α) 3 [2] [1] _ rfl (by decide) (by decide)
  rw [hmv]
  generalize htmp : transpose _ (reshape (lead ++ [ny, n, nx + 1]) a) = tmp
  have ht : ∀ f ≤ nx, tmp.get (l ++ [e2] ++ [f, j]) = a.get (l ++ [e2 * n + j, f]) := by
    intro f hf
    have hf' : f < nx + 1 := by omega
    rw [← htmp, show reshape (lead ++ [ny, n, nx + 1]) a = ⟨lead ++ [ny, n, nx + 1], (reshape (lead ++ [ny, n, nx + 1]) a).get⟩ from rfl,
      List.append_assoc, transpose_get lead.length 3 _ _ rfl rfl hl.length,
      reshape_get a ha (idx' := l ++ [e2 * n + j, f]) (hl.append (by valid_tac))]
    rw [ravel_append hl.length, ravel_append hl.length]
    ravel_tac
  have hsp : ∀ x y, l ++ [e2, x, y] = (l ++ [e2]) ++ [x, y] := by simp
  simp only [hsp]
  refine ⟨fun f hf => ⟨?_, ?_⟩, ?_, ?_⟩
  · rw [← ht f hf]; itf_tac
  · rw [← ht f hf]; itf_tac
  · itf_tac
  · itf_tac

/-- **C40** Floor interfaces, south–north. -/
theorem C40_itf_j_floor (nx ny n : Nat) (lead : List Nat) (a : Arr α) (ha : a.shape = lead ++ [ny + 1, nx * n]) :
    ∃ b, toNewItfJFloor nx ny n a = some b ∧ b.shape = lead ++ [ny + 2, nx, n * 2] ∧
      ∀ l, Valid l lead → ∀ e1 < nx, ∀ i < n,
        (∀ f ≤ ny, b.get (l ++ [f, e1, n + i]) = a.get (l ++ [f, e1 * n + i]) ∧ b.get (l ++ [f + 1, e1, i]) = a.get (l ++ [f, e1 * n + i])) ∧
        b.get (l ++ [0, e1, i]) = 0 ∧ b.get (l ++ [ny + 1, e1, n + i]) = 0 := by
  have hd : a.shape.drop (a.shape.length - 2) = [ny + 1, nx * n] := by rw [ha]; exact drop_lead lead [ny + 1, nx * n]
  have hta : a.shape.take (a.shape.length - 2) = lead := by rw [ha]; exact take_lead lead [ny + 1, nx * n]
  unfold toNewItfJFloor
  simp only [hd, hta, ne_eq, not_true_eq_false, if_false]
  refine ⟨_, rfl, rfl, ?_⟩
  intro l hl e1 h1 i hi
  generalize htmp : reshape (lead ++ [ny + 1, nx, n]) a = tmp
  have ht : ∀ f ≤ ny, tmp.get (l ++ [f, e1, i]) = a.get (l ++ [f, e1 * n + i]) := by
    intro f hf
    have hf' : f < ny + 1 := by omega
    rw [← htmp, reshape_get a ha (idx' := l ++ [f, e1 * n + i]) (hl.append (by valid_tac))]
    rw [ravel_append hl.length, ravel_append hl.length]
    ravel_tac
  refine ⟨fun f hf => ⟨?_, ?_⟩, ?_, ?_⟩
  · rw [← ht f hf]; itf_tac
  · rw [← ht f hf]; itf_tac
  · itf_tac
  · itf_tac

/-! ## Cartesian mesh -/

/-- storing one cell after the other: cell `k` holds what was stored there -/
theorem foldl_store {β γ : Type*} (f : β → Nat → β) (rd : β → Nat → γ) (v : Nat → γ)
    (h : ∀ b e k, rd (f b e) k = if k = e then v k else rd b k) (b : β) (m : Nat) :
    ∀ k, rd ((List.range m).foldl f b) k = if k < m then v k else rd b k := by
  induction m with
  | zero => intro k; simp
  | succ m ih =>
    intro k
    rw [List.range_succ, List.foldl_append]
    simp only [List.foldl_cons, List.foldl_nil]
    rw [h, ih]
    by_cases h1 : k = m
    · rw [if_pos h1, if_pos (by omega)]
    · rw [if_neg h1]
      by_cases h2 : k < m
      · rw [if_pos h2, if_pos (by omega)]
      · rw [if_neg h2, if_neg (by omega)]

theorem foldl_shape {β : Type} (f : Arr α → β → Arr α) (h : ∀ b e, (f b e).shape = b.shape) (es : List β) (b : Arr α) :
    (es.foldl f b).shape = b.shape := by
  induction es generalizing b with
  | nil => rfl
  | cons e es ih => rw [List.foldl_cons, ih, h]

theorem assign_ooa (p q x y w : Nat) (v a : Arr α) :
    (assign [.one p, .one q, .all] v a).get [x, y, w] = if x = p ∧ y = q then v.get [w] else a.get [x, y, w] := by
  have := assign_get [.one p, .one q, .all] v a (l := []) (t := [x, y, w]) rfl
  refine Eq.trans this ?_
  by_cases h : x = p <;> by_cases h' : y = q <;> simp [inside, h, h']

/-- **C40** Cartesian, block to elements. -/
theorem C40_to_new_cartesian (nx nz n : Nat) (block : Arr α) (hb : block.shape = [nz * n, nx * n]) :
    (toNewCart nx nz n block).shape = [nz, nx, n * n] ∧
      ∀ ek < nz, ∀ ei < nx, ∀ k < n, ∀ i < n, (toNewCart nx nz n block).get [ek, ei, k * n + i] = block.get [ek * n + k, ei * n + i] := by
  constructor
  · unfold toNewCart
    refine (foldl_shape (α := α) _ (fun b e => ?_) _ _).trans rfl
    generalize List.range nx = es
    induction es generalizing b with
    | nil => rfl
    | cons e' es ih => exact ih _
  · intro ek hek ei hei k hk i hi
    have hsub : ∀ x y, (reshape [n * n] (select [.range (x * n) ((x + 1) * n), .range (y * n) ((y + 1) * n)] block)).get [k * n + i] =
        block.get [x * n + k, y * n + i] := by
      intro x y
      rw [reshape_get _ (s := [n, n]) (idx' := [k, i])]
      · rfl
      · have e : ∀ z : Nat, (z + 1) * n - z * n = n := by
          intro z; rw [Nat.add_mul, Nat.add_sub_cancel_left, Nat.one_mul]
        have : (select [.range (x * n) ((x + 1) * n), .range (y * n) ((y + 1) * n)] block).shape =
            [(x + 1) * n - x * n, (y + 1) * n - y * n] := by
          simp [select, hb, slShape, kept]
        rw [this, e, e]
      · valid_tac
      · ravel_tac
    have hin : ∀ (e : Nat) (b : Arr α) (x y : Nat), ((List.range nx).foldl (fun acc ei =>
        assign [.one e, .one ei, .all] (reshape [n * n] (select [.range (e * n) ((e + 1) * n), .range (ei * n) ((ei + 1) * n)] block)) acc) b).get
          [x, y, k * n + i] = if y < nx then (if x = e then block.get [e * n + k, y * n + i] else b.get [x, y, k * n + i])
            else b.get [x, y, k * n + i] := by
      intro e b x y
      by_cases hx : x = e
      · rw [if_pos hx]
        refine foldl_store _ (fun (b : Arr α) y => b.get [x, y, k * n + i]) (fun y => block.get [e * n + k, y * n + i]) ?_ b nx y
        intro b e' y
        beta_reduce
        rw [assign_ooa, hsub]
        by_cases hy : y = e' <;> simp [hx, hy]
      · rw [if_neg hx, ite_self]
        generalize List.range nx = es
        induction es generalizing b with
        | nil => rfl
        | cons e' es ih => rw [List.foldl_cons, ih, assign_ooa, if_neg (fun h => hx h.1)]
    unfold toNewCart
    have := foldl_store (fun (acc : Arr α) ek =>
        (List.range nx).foldl (fun acc ei =>
          assign [.one ek, .one ei, .all] (reshape [n * n] (select [.range (ek * n) ((ek + 1) * n), .range (ei * n) ((ei + 1) * n)] block)) acc) acc)
      (fun (b : Arr α) x => b.get [x, ei, k * n + i]) (fun x => block.get [x * n + k, ei * n + i])
      (by
        intro b e x
        beta_reduce
        rw [hin, if_pos hei]
        by_cases hx : x = e <;> simp [hx]) (⟨[nz, nx, n * n], fun _ => 0⟩ : Arr α) nz ek
    rw [if_pos hek] at this
    exact this

/-- **C40** Cartesian, elements to block. -/
theorem C40_to_block_cartesian (nx nz n : Nat) (lead : List Nat) (a : Arr α) (ha : a.shape = lead ++ [nz, nx, n * n]) :
    (toBlockCart nx nz n a).shape = lead ++ [nz * n, nx * n] ∧
      ∀ l, Valid l lead → ∀ ek < nz, ∀ ei < nx, ∀ k < n, ∀ i < n,
        (toBlockCart nx nz n a).get (l ++ [ek * n + k, ei * n + i]) = a.get (l ++ [ek, ei, k * n + i]) := by
  have hd : a.shape.drop (a.shape.length - 3) = [nz, nx, n * n] := by rw [ha]; exact drop_lead lead [nz, nx, n * n]
  have hta : a.shape.take (a.shape.length - 3) = lead := by rw [ha]; exact take_lead lead [nz, nx, n * n]
  unfold toBlockCart
  simp only [hta]
  refine ⟨rfl, ?_⟩
  intro l hl ek h2 ei h1 k hk i hi
  have hmv : swapaxes (-2) (-3) (reshape (lead ++ [nz, nx, n, n]) a) =
      transpose (List.range lead.length ++ [0, 2, 1, 3].map (lead.length + ·)) (reshape (lead ++ [nz, nx, n, n]) a) :=
    swapaxes_eq (α := α) 4 2 3 _ rfl (by decide) (by decide)
  rw [hmv]
  exact reshape_transpose_reshape (s := [nz, nx, n, n]) _ a ha (mid := [ek, k, ei, i]) hl
    (by valid_tac) (by valid_tac) (by size_tac) (by size_tac) (by ravel_tac) (by ravel_tac)

/-- **C40** Cartesian: block → elements → block returns the same array. -/
theorem C40_roundtrip_cartesian (nx nz n : Nat) (a : Arr α) (ha : a.shape = [nz * n, nx * n]) :
    Same (toBlockCart nx nz n (toNewCart nx nz n a)) a := by
  obtain ⟨hbs, hbv⟩ := C40_to_new_cartesian nx nz n a ha
  obtain ⟨hcs, hcv⟩ := C40_to_block_cartesian nx nz n [] _ hbs
  refine ⟨by rw [hcs, ha]; rfl, ?_⟩
  intro idx hidx
  rw [hcs] at hidx
  obtain ⟨x, y, rfl, hx, hy⟩ := valid2 hidx
  obtain ⟨ek, k, h2, hk, rfl⟩ := split_index hx
  obtain ⟨ei, i, h1, hi, rfl⟩ := split_index hy
  rw [← hbv ek h2 ei h1 k hk i hi]
  exact hcv [] valid_nil ek h2 ei h1 k hk i hi

/-- **C40** A conversion that returns was given an array that ends with the sizes of the grid; any other shape raises. -/
theorem C40_rejects (nx ny nz n : Nat) (junk : List Nat → α) (a : Arr α) :
    ((toNew3 nx ny nz n a).isSome → [nz * n, ny * n, nx * n] <:+ a.shape) ∧
    ((toBlock3 nx ny nz n a).isSome → [nz, ny, nx, n ^ 3] <:+ a.shape) ∧
    ((toNewItfI3 nx ny nz n junk a).isSome → [nz * n, ny * n, nx + 1] <:+ a.shape) ∧
    ((toNewItfJ3 nx ny nz n a).isSome → [nz * n, ny + 1, nx * n] <:+ a.shape) ∧
    ((toNewItfK3 nx ny nz n a).isSome → [nz + 1, ny * n, nx * n] <:+ a.shape) ∧
    ((toBlock2 nx ny n a).isSome → [ny, nx, n * n] <:+ a.shape) ∧
    ((toNewItfI2 nx ny n junk a).isSome → [nx + 1, ny * n] <:+ a.shape) ∧
    ((toNewItfJ2 nx ny n junk a).isSome → [ny + 1, nx * n] <:+ a.shape) ∧
    ((getFloor nx ny nz n a).isSome → [nz, ny, nx, n ^ 3] <:+ a.shape) ∧
    ((getItfIFloor nx ny nz n a).isSome → [nz, ny, nx + 2, n ^ 2 * 2] <:+ a.shape) ∧
    ((getItfJFloor nx ny nz n a).isSome → [nz, ny + 2, nx, n ^ 2 * 2] <:+ a.shape) ∧
    ((toNewFloor nx ny n a).isSome → [ny * n, nx * n] <:+ a.shape) ∧
    ((toNewItfIFloor nx ny n a).isSome → [ny * n, nx + 1] <:+ a.shape) ∧
    ((toNewItfJFloor nx ny n a).isSome → [ny + 1, nx * n] <:+ a.shape) ∧
    ((toNew2 nx ny n a).isSome → [ny * n, nx * n] <:+ a.shape) ∧
    (∀ kItf, (floorToBulk nx ny nz n kItf a).isSome → a.shape = [ny, nx, n ^ 2]) ∧
    ((floorIToBulk nx ny nz n a).isSome → a.shape = [ny, nx + 2, n * 2]) ∧
    ((floorJToBulk nx ny nz n a).isSome → a.shape = [ny + 2, nx, n * 2]) := by
  have key : ∀ (k : Nat) (t : List Nat), a.shape.drop k = t → t <:+ a.shape := fun k t h => h ▸ List.drop_suffix k a.shape
  refine ⟨?_, ?_, ?_, ?_, ?_, ?_, ?_, ?_, ?_, ?_, ?_, ?_, ?_, ?_, ?_, ?_, ?_, ?_⟩
  · unfold toNew3
    intro h
    by_contra hn
    simp only at h
    rw [if_pos (fun e => hn (key _ _ e))] at h
    cases h
  · unfold toBlock3
    intro h
    by_contra hn
    simp only at h
    rw [if_pos (fun e => hn (key _ _ e))] at h
    cases h
  · unfold toNewItfI3
    intro h
    by_contra hn
    simp only at h
    rw [if_pos (fun e => hn (key _ _ e))] at h
    cases h
  · unfold toNewItfJ3
    intro h
    by_contra hn
    simp only at h
    rw [if_pos (fun e => hn (key _ _ e))] at h
    cases h
  · unfold toNewItfK3
    intro h
    by_contra hn
    simp only at h
    rw [if_pos (fun e => hn (key _ _ e))] at h
    cases h
  · unfold toBlock2
    intro h
    by_contra hn
    simp only at h
    rw [if_pos (Or.inl fun e => hn (key _ _ e))] at h
    cases h
  · unfold toNewItfI2
    intro h
    by_contra hn
    simp only at h
    rw [if_neg (fun e => hn (key _ _ e))] at h
    cases h
  · unfold toNewItfJ2
    intro h
    by_contra hn
    simp only at h
    rw [if_neg (fun e => hn (key _ _ e))] at h
    cases h
  · unfold getFloor
    intro h
    by_contra hn
    simp only at h
    rw [if_pos (fun e => hn (key _ _ e))] at h
    cases h
  · unfold getItfIFloor
    intro h
    by_contra hn
    simp only at h
    rw [if_pos (fun e => hn (key _ _ e))] at h
    cases h
  · unfold getItfJFloor
    intro h
    by_contra hn
    simp only at h
    rw [if_pos (fun e => hn (key _ _ e))] at h
    cases h
  · unfold toNewFloor
    intro h
    by_contra hn
    simp only at h
    rw [if_pos (fun e => hn (key _ _ e))] at h
    cases h
  · unfold toNewItfIFloor
    intro h
    by_contra hn
    simp only at h
    rw [if_pos (fun e => hn (key _ _ e))] at h
    cases h
  · unfold toNewItfJFloor
    intro h
    by_contra hn
    simp only at h
    rw [if_pos (fun e => hn (key _ _ e))] at h
    cases h
  · unfold toNew2
    intro h
    by_contra hn
    simp only at h
    rw [if_neg (fun (e : a.shape.length = 2 ∧ a.shape = [ny * n, nx * n]) => hn (key 0 _ e.2)), if_neg] at h
    · cases h
    · rintro (e | e)
      · exact hn (key _ _ e.2)
      · exact hn (key _ _ e.2.1)
  · unfold floorToBulk
    intro kItf h
    by_contra hn
    rw [if_pos hn] at h
    cases h
  · unfold floorIToBulk
    intro h
    by_contra hn
    rw [if_pos hn] at h
    cases h
  · unfold floorJToBulk
    intro h
    by_contra hn
    rw [if_pos hn] at h
    cases h

/-- the hypotheses are met: a numbered 4 × 4 × 6 block over 2 × 2 × 3 elements of order 2, converted and read back -/
example : let a : Arr Nat := ⟨[4, 4, 6], fun i => ravel [4, 4, 6] i⟩
    ∃ b, toNew3 3 2 2 2 a = some b ∧ b.shape = [2, 2, 3, 8] ∧ b.get [1, 0, 2, 3] = a.get [2, 1, 5] := by
  intro a
  obtain ⟨b, hb, hs, hv⟩ := C40_to_new_3d 3 2 2 2 [] a rfl
  exact ⟨b, hb, hs, hv [] valid_nil 1 (by decide) 0 (by decide) 2 (by decide) 0 (by decide) 1 (by decide) 1 (by decide)⟩

/-- a floor array of 3 × 2 elements, repeated and read back -/
example : let a : Arr Nat := ⟨[2, 3, 2 ^ 2], fun i => ravel [2, 3, 4] i⟩
    ∃ b c, floorToBulk 3 2 5 2 false a = some b ∧ getFloor 3 2 5 2 b = some c ∧ Same c a := by
  intro a
  exact (C40_floor_roundtrip 3 2 5 2 (by decide) (by decide) a).1 rfl

/-- a 4 × 6 Cartesian block -/
example : let a : Arr Nat := ⟨[2 * 2, 3 * 2], fun i => ravel [4, 6] i⟩
    (toNewCart 3 2 2 a).get [1, 2, 1 * 2 + 0] = 22 := by
  intro a
  exact (C40_to_new_cartesian 3 2 2 a rfl).2 1 (by decide) 2 (by decide) 1 (by decide) 0 (by decide)

end WxVerif.Props.Layout
