import Verif.Model.Terrain
import Verif.Spec.Quadrature
import Verif.Props.Layout
import Verif.Props.Conservation

/-!
# C49: terrain-following heights
-/

namespace WxVerif.Props.Terrain

open WxVerif.Nd WxVerif.Layout WxVerif.Terrain WxVerif.Quad WxVerif.Props.Layout

/-- the vertical coordinate, between 0 and 1, of point `k` of element `e`: elements of equal thickness, points placed as in the
reference element -/
noncomputable def etaOf (nz : Nat) (xs : List ℝ) (e k : Nat) : ℝ := (e + (1 + xs.getD k 0) / 2) / nz

/-- the height of a coordinate `eta` above a surface at `zs` under a lid at `ztop` -/
def height (zs ztop eta : ℝ) : ℝ := zs * (1 - eta) + ztop * eta

theorem foldl_min {l : List ℝ} {b : ℝ} (h : ∀ x ∈ l, b ≤ x) : l.foldl min b = b := by
  induction l with
  | nil => rfl
  | cons x xs ih =>
    rw [List.foldl_cons, min_eq_left (h x (by simp))]
    exact ih fun y hy => h y (by simp [hy])

theorem foldl_max_le {l : List ℝ} {b c : ℝ} (hb : b ≤ c) (h : ∀ x ∈ l, x ≤ c) : l.foldl max b ≤ c := by
  induction l generalizing b with
  | nil => exact hb
  | cons x xs ih =>
    rw [List.foldl_cons]
    exact ih (max_le hb (h x (by simp))) fun y hy => h y (by simp [hy])

theorem minComp_eq {xs : List ℝ} (h : ∀ x ∈ xs, -1 < x ∧ x < 1) : minComp xs = -1 := by
  unfold minComp extPoints
  apply foldl_min
  intro x hx
  simp only [List.cons_append, List.mem_cons, List.mem_append, List.not_mem_nil, or_false] at hx
  rcases hx with hx | hx | hx
  · rw [hx]
  · exact (h x hx).1.le
  · rw [hx]; norm_num

theorem maxComp_eq {xs : List ℝ} (h : ∀ x ∈ xs, -1 < x ∧ x < 1) : maxComp xs = 1 := by
  unfold maxComp extPoints
  rw [List.foldl_append]
  simp only [List.foldl_cons, List.foldl_nil]
  apply max_eq_right
  rw [max_self]
  exact foldl_max_le (by norm_num) fun x hx => (h x hx).2.le

variable {n : Nat} {xs ws : List ℝ}

theorem etaLinear_get (nz : Nat) (hin : ∀ x ∈ xs, -1 < x ∧ x < 1) {e k : Nat} (he : e < nz) (hk : k < n) :
    (etaLinear nz n xs).get [e * n + k] = etaOf nz xs e k := by
  have hn : 0 < n := by omega
  have hz : (nz : ℝ) ≠ 0 := by exact_mod_cast (by omega : nz ≠ 0)
  have h1 : (e * n + k) / n = e := by rw [Nat.add_comm, Nat.add_mul_div_right _ _ hn, Nat.div_eq_of_lt hk, Nat.zero_add]
  have h2 : (e * n + k) % n = k := by rw [Nat.add_comm, Nat.add_mul_mod_self_right, Nat.mod_eq_of_lt hk]
  have : (etaLinear nz n xs).get [e * n + k] = (0 + ((0 + (e * n + k) / n : Nat) : ℝ) * ((1 - 0) / (nz : ℝ))) +
      (1 - 0) / (nz : ℝ) / (maxComp xs - minComp xs) * (-minComp xs + xs.getD ((e * n + k) % n) 0) := rfl
  rw [this, h1, h2, minComp_eq hin, maxComp_eq hin, etaOf]
  push_cast
  field_simp
  ring

theorem eta_get (nx ny nz : Nat) (hin : ∀ x ∈ xs, -1 < x ∧ x < 1) {e k y x : Nat} (he : e < nz) (hk : k < n) (hy : y < ny * n)
    (hx : x < nx * n) : (eta nx ny nz n xs).get [e * n + k, y, x] = etaOf nz xs e k := by
  unfold eta
  have hc : y * (nx * n) + x < nx * n * (ny * n) := by
    calc _ < ny * n * (nx * n) := cell hy hx
      _ = _ := by ring
  have h0 : 0 < nx * n * (ny * n) := by omega
  rw [reshape_get _ (s := [nz * n * (nx * n * (ny * n))]) (idx' := [(e * n + k) * (nx * n * (ny * n)) + (y * (nx * n) + x)])]
  · rw [← etaLinear_get nz hin he hk]
    have h1 : ((e * n + k) * (nx * n * (ny * n)) + (y * (nx * n) + x)) / (nx * n * (ny * n)) = e * n + k := by
      rw [Nat.add_comm, Nat.add_mul_div_right _ _ h0, Nat.div_eq_of_lt hc, Nat.zero_add]
    have : (rept (nx * n * (ny * n)) 0 (etaLinear nz n xs)).get [(e * n + k) * (nx * n * (ny * n)) + (y * (nx * n) + x)] =
      (etaLinear nz n xs).get [((e * n + k) * (nx * n * (ny * n)) + (y * (nx * n) + x)) / (nx * n * (ny * n))] := rfl
    rw [this, h1]
  · rfl
  · have := cell (cell he hk) hc
    simpa [valid_cons, valid_nil] using this
  · simp only [ravel, size, List.prod_cons, List.prod_nil, Nat.mul_one, Nat.add_zero]; ring

theorem etaNew_get (nx ny nz : Nat) (hin : ∀ x ∈ xs, -1 < x ∧ x < 1) {e3 e2 e1 k j i : Nat} (h3 : e3 < nz) (h2 : e2 < ny) (h1 : e1 < nx)
    (hk : k < n) (hj : j < n) (hi : i < n) : (etaNew nx ny nz n xs).get [e3, e2, e1, (k * n + j) * n + i] = etaOf nz xs e3 k := by
  unfold etaNew
  have hc : e2 * nx + e1 < ny * nx := cell h2 h1
  have hd : j * n + i < n ^ 2 := by rw [pow_two]; exact cell hj hi
  rw [reshape_get _ (s := [nz * (ny * nx), n * n ^ 2]) (idx' := [e3 * (ny * nx) + (e2 * nx + e1), k * n ^ 2 + (j * n + i)])]
  · have a1 : (e3 * (ny * nx) + (e2 * nx + e1)) / (ny * nx) = e3 := by
      rw [Nat.add_comm, Nat.add_mul_div_right _ _ (by omega), Nat.div_eq_of_lt hc, Nat.zero_add]
    have a2 : (k * n ^ 2 + (j * n + i)) / n ^ 2 = k := by
      rw [Nat.add_comm, Nat.add_mul_div_right _ _ (by omega), Nat.div_eq_of_lt hd, Nat.zero_add]
    have : (rept (ny * nx) 0 (rept (n ^ 2) 1 (reshape [nz, n] (etaLinear nz n xs)))).get
        [e3 * (ny * nx) + (e2 * nx + e1), k * n ^ 2 + (j * n + i)] =
        (reshape [nz, n] (etaLinear nz n xs)).get [(e3 * (ny * nx) + (e2 * nx + e1)) / (ny * nx), (k * n ^ 2 + (j * n + i)) / n ^ 2] := rfl
    rw [this, a1, a2, reshape_get _ (s := [nz * n]) (idx' := [e3 * n + k]) rfl, etaLinear_get nz hin h3 hk]
    · valid_tac
    · ravel_tac
  · rfl
  · have b1 := cell h3 hc
    have b2 := cell hk hd
    simpa [valid_cons, valid_nil] using ⟨b1, b2⟩
  · ravel_tac

theorem reptFlat_get {α : Type*} (count : Nat) (a : Arr α) {A B x y r : Nat} (ha : a.shape = [A, B]) (hx : x < A) (hy : y < B)
    (hr : r < count) : (reptFlat count a).get [(x * B + y) * count + r] = a.get [x, y] := by
  have : (reptFlat count a).get [(x * B + y) * count + r] = (reshape [size a.shape] a).get [((x * B + y) * count + r) / count] := rfl
  rw [this, Nat.add_comm, Nat.add_mul_div_right _ _ (by omega), Nat.div_eq_of_lt hr, Nat.zero_add,
    reshape_get a ha (idx' := [x, y])]
  · valid_tac
  · ravel_tac

theorem etaItfI_get (nx ny nz : Nat) (hin : ∀ x ∈ xs, -1 < x ∧ x < 1) (hx : 0 < nx) {e k y f : Nat} (he : e < nz) (hk : k < n)
    (hy : y < ny * n) (hf : f ≤ nx) : (etaItfI nx ny nz n xs).get [e * n + k, y, f] = etaOf nz xs e k := by
  have hn : 0 < n := by omega
  have h0 : 0 < nx * n := Nat.mul_pos hx hn
  have hf' : f < nx + 1 := by omega
  have hs : (select [.all, .all, .one 0] (eta nx ny nz n xs)).shape = [nz * n, ny * n] := rfl
  unfold etaItfI
  rw [reshape_get _ (s := [nz * n * (ny * n) * (nx + 1)]) (idx' := [((e * n + k) * (ny * n) + y) * (nx + 1) + f])]
  · rw [reptFlat_get (nx + 1) _ hs (cell he hk) hy (by omega)]
    exact eta_get nx ny nz hin he hk hy h0
  · simp [reptFlat, rept, reshape, hs, size]
  · have := cell (cell (cell he hk) hy) hf'
    simpa [valid_cons, valid_nil] using this
  · ravel_tac

theorem etaItfJ_get (nx ny nz : Nat) (hin : ∀ x ∈ xs, -1 < x ∧ x < 1) (hy : 0 < ny) {e k x f : Nat} (he : e < nz) (hk : k < n)
    (hx : x < nx * n) (hf : f ≤ ny) : (etaItfJ nx ny nz n xs).get [e * n + k, f, x] = etaOf nz xs e k := by
  have hn : 0 < n := by omega
  have h0 : 0 < ny * n := Nat.mul_pos hy hn
  have hf' : f < ny + 1 := by omega
  have hs : (select [.all, .one 0, .all] (eta nx ny nz n xs)).shape = [nz * n, nx * n] := rfl
  have hc : f * (nx * n) + x < nx * n * (ny + 1) := by
    calc _ < (ny + 1) * (nx * n) := cell hf' hx
      _ = _ := by ring
  have hq : (f * (nx * n) + x) / (ny + 1) < nx * n := by
    rw [Nat.div_lt_iff_lt_mul (by omega)]; exact hc
  have hr : (f * (nx * n) + x) % (ny + 1) < ny + 1 := Nat.mod_lt _ (by omega)
  have hdm := Nat.div_add_mod (f * (nx * n) + x) (ny + 1)
  unfold etaItfJ
  rw [reshape_get _ (s := [nz * n * (nx * n) * (ny + 1)])
    (idx' := [((e * n + k) * (nx * n) + (f * (nx * n) + x) / (ny + 1)) * (ny + 1) + (f * (nx * n) + x) % (ny + 1)])]
  · rw [reptFlat_get (ny + 1) _ hs (cell he hk) hq hr]
    exact eta_get nx ny nz hin he hk h0 hq
  · simp [reptFlat, rept, reshape, hs, size]
  · have := cell (cell (cell he hk) hq) hr
    simpa [valid_cons, valid_nil] using this
  · have : ((e * n + k) * (nx * n) + (f * (nx * n) + x) / (ny + 1)) * (ny + 1) + (f * (nx * n) + x) % (ny + 1) =
        (e * n + k) * (nx * n) * (ny + 1) + ((ny + 1) * ((f * (nx * n) + x) / (ny + 1)) + (f * (nx * n) + x) % (ny + 1)) := by ring
    rw [this, hdm]
    ravel_tac

theorem etaItfK_get (nx ny nz : Nat) {f y x : Nat} (hf : f ≤ nz) (hy : y < ny * n) (hx : x < nx * n) :
    (etaItfK nx ny nz n).get [f, y, x] = f / nz := by
  unfold etaItfK
  have hc : y * (nx * n) + x < nx * n * (ny * n) := by
    calc _ < ny * n * (nx * n) := cell hy hx
      _ = _ := by ring
  have h0 : 0 < nx * n * (ny * n) := by omega
  have hf' : f < nz + 1 := by omega
  rw [reshape_get _ (s := [(nz + 1) * (nx * n * (ny * n))]) (idx' := [f * (nx * n * (ny * n)) + (y * (nx * n) + x)])]
  · have h1 : (f * (nx * n * (ny * n)) + (y * (nx * n) + x)) / (nx * n * (ny * n)) = f := by
      rw [Nat.add_comm, Nat.add_mul_div_right _ _ h0, Nat.div_eq_of_lt hc, Nat.zero_add]
    have : (rept (nx * n * (ny * n)) 0 (etaBoundaries nz)).get [f * (nx * n * (ny * n)) + (y * (nx * n) + x)] =
      0 + (((f * (nx * n * (ny * n)) + (y * (nx * n) + x)) / (nx * n * (ny * n)) : Nat) : ℝ) * ((1 - 0) / (nz : ℝ)) := rfl
    rw [this, h1]
    ring
  · rfl
  · have := cell hf' hc
    simpa [valid_cons, valid_nil] using this
  · simp only [ravel, size, List.prod_cons, List.prod_nil, Nat.mul_one, Nat.add_zero]; ring

/-! ## Heights in the element layout -/

/-- floor arrays of the three kinds, with the right shapes -/
def FloorsOk (nx ny n : Nat) (t : Topo) (zf zi zj : Arr ℝ) : Prop :=
  t.zbotNew = some zf ∧ t.zbotItfINew = some zi ∧ t.zbotItfJNew = some zj ∧
    zf.shape = [ny, nx, n ^ 2] ∧ zi.shape = [ny, nx + 2, n * 2] ∧ zj.shape = [ny + 2, nx, n * 2]

theorem height_eq (zs ztop eta : ℝ) : zs + (ztop - zs) * eta = height zs ztop eta := by unfold height; ring

/-- **C49** Every height of the element layout is that of its vertical coordinate above the surface of its column: solution
points, and both copies of every interface in the three directions. -/
theorem C49_heights (nx ny nz : Nat) (hx : 0 < nx) (hy : 0 < ny) (ztop : ℝ) (hin : ∀ x ∈ xs, -1 < x ∧ x < 1) (junk : List Nat → ℝ) (t : Topo)
    (zf zi zj : Arr ℝ) (ht : FloorsOk nx ny n t zf zi zj) :
    ∃ H, applyTopography nx ny nz n ztop xs junk t = some H ∧
      (∀ e3 < nz, ∀ e2 < ny, ∀ e1 < nx, ∀ k < n, ∀ j < n, ∀ i < n,
        H.x3New.get [e3, e2, e1, (k * n + j) * n + i] = height (zf.get [e2, e1, j * n + i]) ztop (etaOf nz xs e3 k)) ∧
      (∀ f ≤ nz, ∀ e2 < ny, ∀ e1 < nx, ∀ j < n, ∀ i < n,
        H.x3ItfKNew.get [f, e2, e1, n ^ 2 + (j * n + i)] = height (zf.get [e2, e1, j * n + i]) ztop (f / nz) ∧
        H.x3ItfKNew.get [f + 1, e2, e1, j * n + i] = height (zf.get [e2, e1, j * n + i]) ztop (f / nz)) ∧
      (∀ e3 < nz, ∀ e2 < ny, ∀ f ≤ nx, ∀ k < n, ∀ j < n,
        H.x3ItfINew.get [e3, e2, f, n ^ 2 + (k * n + j)] = height (zi.get [e2, f, n + j]) ztop (etaOf nz xs e3 k) ∧
        H.x3ItfINew.get [e3, e2, f + 1, k * n + j] = height (zi.get [e2, f + 1, j]) ztop (etaOf nz xs e3 k)) ∧
      (∀ e3 < nz, ∀ f ≤ ny, ∀ e1 < nx, ∀ k < n, ∀ i < n,
        H.x3ItfJNew.get [e3, f, e1, n ^ 2 + (k * n + i)] = height (zj.get [f, e1, n + i]) ztop (etaOf nz xs e3 k) ∧
        H.x3ItfJNew.get [e3, f + 1, e1, k * n + i] = height (zj.get [f + 1, e1, i]) ztop (etaOf nz xs e3 k)) := by
  obtain ⟨t1, t2, t3, s1, s2, s3⟩ := ht
  obtain ⟨ei, hei, -, vei⟩ := C40_itf_i_3d nx ny nz n junk [] (etaItfI nx ny nz n xs) rfl
  obtain ⟨ej, hej, -, vej⟩ := C40_itf_j_3d nx ny nz n [] (etaItfJ nx ny nz n xs) rfl
  obtain ⟨ek, hek, -, vek⟩ := C40_itf_k_3d nx ny nz n [] (etaItfK nx ny nz n) rfl
  obtain ⟨b, hb, -, vb⟩ := C40_floor_to_bulk nx ny nz n zf s1
  obtain ⟨bk, hbk, -, vbk⟩ := C40_floor_to_bulk_k nx ny nz n zf s1
  obtain ⟨bi, hbi, -, vbi⟩ := C40_floor_i_to_bulk nx ny nz n zi s2
  obtain ⟨bj, hbj, -, vbj⟩ := C40_floor_j_to_bulk nx ny nz n zj s3
  unfold applyTopography
  simp only [t1, t2, t3, hei, hej, hek, hb, hbk, hbi, hbj]
  refine ⟨_, rfl, ?_, ?_, ?_, ?_⟩
  · intro e3 h3 e2 h2 e1 h1 k hk j hj i hi
    simp only [stretch]
    rw [vb e3 h3 e2 h2 e1 h1 k hk j hj i hi, etaNew_get nx ny nz hin h3 h2 h1 hk hj hi, height_eq]
  · intro f hf e2 h2 e1 h1 j hj i hi
    have hc : j * n + i < n ^ 2 := by rw [pow_two]; exact cell hj hi
    have hval := vek [] valid_nil e2 h2 e1 h1 j hj i hi
    simp only [List.nil_append] at hval
    have hv := etaItfK_get (n := n) nx ny nz hf (cell h2 hj) (cell h1 hi)
    constructor
    · have q := assignConst_oaar (nz + 1) (n ^ 2) (n ^ 2 * 2) f e2 e1 (n ^ 2 + (j * n + i)) (0 : ℝ)
        (assignConst [.one 0, .all, .all, .range 0 (n ^ 2)] 0 (stretch ztop bk ek)) []
      rw [if_neg (by omega)] at q
      refine Eq.trans q ?_
      have q' := assignConst_oaar 0 0 (n ^ 2) f e2 e1 (n ^ 2 + (j * n + i)) (0 : ℝ) (stretch ztop bk ek) []
      rw [if_neg (by omega)] at q'
      refine Eq.trans q' ?_
      simp only [stretch, List.nil_append]
      have := vbk f (by omega) e2 h2 e1 h1 1 (by omega) j hj i hi
      rw [Nat.one_mul] at this
      rw [this, (hval.1 f hf).1, hv, height_eq]
    · have q := assignConst_oaar (nz + 1) (n ^ 2) (n ^ 2 * 2) (f + 1) e2 e1 (j * n + i) (0 : ℝ)
        (assignConst [.one 0, .all, .all, .range 0 (n ^ 2)] 0 (stretch ztop bk ek)) []
      rw [if_neg (by omega)] at q
      refine Eq.trans q ?_
      have q' := assignConst_oaar 0 0 (n ^ 2) (f + 1) e2 e1 (j * n + i) (0 : ℝ) (stretch ztop bk ek) []
      rw [if_neg (by omega)] at q'
      refine Eq.trans q' ?_
      simp only [stretch, List.nil_append]
      have := vbk (f + 1) (by omega) e2 h2 e1 h1 0 (by omega) j hj i hi
      rw [Nat.zero_mul, Nat.zero_add] at this
      rw [this, (hval.1 f hf).2, hv, height_eq]
  · intro e3 h3 e2 h2 f hf k hk j hj
    have hval := vei [] valid_nil e3 h3 e2 h2 k hk j hj
    simp only [List.nil_append] at hval
    have hv := etaItfI_get nx ny nz hin hx h3 hk (cell h2 hj) hf
    simp only [stretch]
    constructor
    · have := vbi e3 h3 e2 h2 f (by omega) 1 (by omega) k hk j hj
      simp only [Nat.one_mul] at this
      rw [this, (hval.1 f hf).1, hv, height_eq]
    · have := vbi e3 h3 e2 h2 (f + 1) (by omega) 0 (by omega) k hk j hj
      simp only [Nat.zero_mul, Nat.zero_add] at this
      rw [this, (hval.1 f hf).2, hv, height_eq]
  · intro e3 h3 f hf e1 h1 k hk i hi
    have hval := vej [] valid_nil e3 h3 e1 h1 k hk i hi
    simp only [List.nil_append] at hval
    have hv := etaItfJ_get nx ny nz hin hy h3 hk (cell h1 hi) hf
    simp only [stretch]
    constructor
    · have := vbj e3 h3 f (by omega) e1 h1 1 (by omega) k hk i hi
      simp only [Nat.one_mul] at this
      rw [this, (hval.1 f hf).1, hv, height_eq]
    · have := vbj e3 h3 (f + 1) (by omega) e1 h1 0 (by omega) k hk i hi
      simp only [Nat.zero_mul, Nat.zero_add] at this
      rw [this, (hval.1 f hf).2, hv, height_eq]

/-! ## The order of the heights -/

theorem height_strictMono {zs ztop : ℝ} (h : zs < ztop) {a b : ℝ} (hab : a < b) : height zs ztop a < height zs ztop b := by
  unfold height; nlinarith

theorem node_bounds (h : IsGaussRule n xs ws) {k : Nat} (hk : k < n) : -1 < xs.getD k 0 ∧ xs.getD k 0 < 1 := by
  have hl := h.nodes_length
  rw [List.getD_eq_getElem _ _ (by omega)]
  exact h.inside _ (List.getElem_mem _)

theorem node_lt (h : IsGaussRule n xs ws) {k k' : Nat} (hk : k < k') (hk' : k' < n) : xs.getD k 0 < xs.getD k' 0 := by
  have hl := h.nodes_length
  rw [List.getD_eq_getElem _ _ (by omega), List.getD_eq_getElem _ _ (by omega)]
  exact List.pairwise_iff_getElem.mp h.increasing k k' (by omega) (by omega) hk

theorem etaOf_between (h : IsGaussRule n xs ws) {nz e k : Nat} (he : e < nz) (hk : k < n) :
    (e : ℝ) / nz < etaOf nz xs e k ∧ etaOf nz xs e k < ((e + 1 : Nat) : ℝ) / nz := by
  have hz : (0 : ℝ) < nz := by exact_mod_cast (by omega : 0 < nz)
  obtain ⟨h1, h2⟩ := node_bounds h hk
  unfold etaOf
  rw [div_lt_div_iff_of_pos_right hz, div_lt_div_iff_of_pos_right hz]
  push_cast
  constructor <;> linarith

theorem etaOf_lt (h : IsGaussRule n xs ws) {nz e k e' k' : Nat} (he' : e' < nz) (hk : k < n) (hk' : k' < n)
    (hlt : e * n + k < e' * n + k') : etaOf nz xs e k < etaOf nz xs e' k' := by
  have hz : (0 : ℝ) < nz := by exact_mod_cast (by omega : 0 < nz)
  rcases Nat.lt_trichotomy e e' with hh | hh | hh
  · have h1 := (etaOf_between h (show e < nz by omega) hk).2
    have h2 := (etaOf_between h he' hk').1
    have h3 : ((e + 1 : Nat) : ℝ) / nz ≤ (e' : ℝ) / nz := by
      rw [div_le_div_iff_of_pos_right hz]; exact_mod_cast hh
    linarith
  · subst hh
    have := node_lt h (show k < k' by omega) hk'
    unfold etaOf
    rw [div_lt_div_iff_of_pos_right hz]
    linarith
  · exfalso
    have : (e' + 1) * n ≤ e * n := Nat.mul_le_mul_right _ hh
    have h2 : (e' + 1) * n = e' * n + n := by ring
    omega

theorem above (h : IsGaussRule n xs ws) {nz e k : Nat} (he : e < nz) (hk : k < n) {zs ztop : ℝ} (hs : zs < ztop) :
    zs < height zs ztop (etaOf nz xs e k) := by
  have hz : (0 : ℝ) < nz := by exact_mod_cast (by omega : 0 < nz)
  have h1 := (etaOf_between h he hk).1
  have h0 : (0 : ℝ) ≤ e / nz := by positivity
  calc zs = height zs ztop 0 := by simp [height]
    _ < _ := height_strictMono hs (by linarith)

theorem below (h : IsGaussRule n xs ws) {nz e k : Nat} (he : e < nz) (hk : k < n) {zs ztop : ℝ} (hs : zs < ztop) :
    height zs ztop (etaOf nz xs e k) < ztop := by
  have hz : (0 : ℝ) < nz := by exact_mod_cast (by omega : 0 < nz)
  have h1 := (etaOf_between h he hk).2
  have h0 : ((e + 1 : Nat) : ℝ) / nz ≤ 1 := by rw [div_le_one hz]; exact_mod_cast he
  calc _ < height zs ztop 1 := height_strictMono hs (by linarith)
    _ = ztop := by simp [height]

/-- **C49** In every column whose surface is below the lid: the lowest interface is at the surface, the highest at the lid,
consecutive elements share their interface, the points of an element lie strictly between its two interfaces, and the heights
increase strictly with the level, across elements. -/
theorem C49_monotone (nx ny nz : Nat) (hx : 0 < nx) (hy : 0 < ny) (hz : 0 < nz) (ztop : ℝ) (h : IsGaussRule n xs ws) (junk : List Nat → ℝ) (t : Topo)
    (zf zi zj : Arr ℝ) (ht : FloorsOk nx ny n t zf zi zj) :
    ∃ H, applyTopography nx ny nz n ztop xs junk t = some H ∧
      ∀ e2 < ny, ∀ e1 < nx, ∀ j < n, ∀ i < n, zf.get [e2, e1, j * n + i] < ztop →
        let point := fun e k => H.x3New.get [e, e2, e1, (k * n + j) * n + i]
        let bottom := fun e => H.x3ItfKNew.get [e + 1, e2, e1, j * n + i]
        let top := fun e => H.x3ItfKNew.get [e + 1, e2, e1, n ^ 2 + (j * n + i)]
        bottom 0 = zf.get [e2, e1, j * n + i] ∧ top (nz - 1) = ztop ∧ (∀ e, e + 1 < nz → top e = bottom (e + 1)) ∧
        (∀ e < nz, ∀ k < n, bottom e < point e k ∧ point e k < top e) ∧
        (∀ e < nz, ∀ e' < nz, ∀ k < n, ∀ k' < n, e * n + k < e' * n + k' → point e k < point e' k') := by
  obtain ⟨H, hH, hp, hk, -, -⟩ := C49_heights nx ny nz hx hy ztop h.inside junk t zf zi zj ht
  refine ⟨H, hH, ?_⟩
  intro e2 h2 e1 h1 j hj i hi hs
  have hz' : (nz : ℝ) ≠ 0 := by exact_mod_cast (by omega : nz ≠ 0)
  dsimp only
  refine ⟨?_, ?_, ?_, ?_, ?_⟩
  · rw [(hk 0 (by omega) e2 h2 e1 h1 j hj i hi).2]
    simp [height]
  · rw [(hk (nz - 1 + 1) (by omega) e2 h2 e1 h1 j hj i hi).1, Nat.sub_add_cancel hz, div_self hz']
    simp [height]
  · intro e he
    rw [(hk (e + 1) (by omega) e2 h2 e1 h1 j hj i hi).1, (hk (e + 1) (by omega) e2 h2 e1 h1 j hj i hi).2]
  · intro e he k hk'
    rw [hp e he e2 h2 e1 h1 k hk' j hj i hi, (hk e (by omega) e2 h2 e1 h1 j hj i hi).2,
      (hk (e + 1) (by omega) e2 h2 e1 h1 j hj i hi).1]
    exact ⟨height_strictMono hs (etaOf_between h he hk').1, height_strictMono hs (etaOf_between h he hk').2⟩
  · intro e he e' he' k hk1 k' hk2 hlt
    rw [hp e he e2 h2 e1 h1 k hk1 j hj i hi, hp e' he' e2 h2 e1 h1 k' hk2 j hj i hi]
    exact height_strictMono hs (etaOf_lt h he' hk1 hk2 hlt)

/-- **C49** The same on the vertical faces between elements: the heights on each side of a face increase strictly with the
level, and stay strictly between the surface height of the face and the lid. -/
theorem C49_faces (nx ny nz : Nat) (hx : 0 < nx) (hy : 0 < ny) (ztop : ℝ) (h : IsGaussRule n xs ws) (junk : List Nat → ℝ) (t : Topo)
    (zf zi zj : Arr ℝ) (ht : FloorsOk nx ny n t zf zi zj) :
    ∃ H, applyTopography nx ny nz n ztop xs junk t = some H ∧
      (∀ e2 < ny, ∀ f ≤ nx, ∀ j < n,
        (zi.get [e2, f, n + j] < ztop → ∀ e < nz, ∀ k < n,
          let z := fun e k => H.x3ItfINew.get [e, e2, f, n ^ 2 + (k * n + j)]
          zi.get [e2, f, n + j] < z e k ∧ z e k < ztop ∧ ∀ e' < nz, ∀ k' < n, e * n + k < e' * n + k' → z e k < z e' k') ∧
        (zi.get [e2, f + 1, j] < ztop → ∀ e < nz, ∀ k < n,
          let z := fun e k => H.x3ItfINew.get [e, e2, f + 1, k * n + j]
          zi.get [e2, f + 1, j] < z e k ∧ z e k < ztop ∧ ∀ e' < nz, ∀ k' < n, e * n + k < e' * n + k' → z e k < z e' k')) ∧
      (∀ f ≤ ny, ∀ e1 < nx, ∀ i < n,
        (zj.get [f, e1, n + i] < ztop → ∀ e < nz, ∀ k < n,
          let z := fun e k => H.x3ItfJNew.get [e, f, e1, n ^ 2 + (k * n + i)]
          zj.get [f, e1, n + i] < z e k ∧ z e k < ztop ∧ ∀ e' < nz, ∀ k' < n, e * n + k < e' * n + k' → z e k < z e' k') ∧
        (zj.get [f + 1, e1, i] < ztop → ∀ e < nz, ∀ k < n,
          let z := fun e k => H.x3ItfJNew.get [e, f + 1, e1, k * n + i]
          zj.get [f + 1, e1, i] < z e k ∧ z e k < ztop ∧ ∀ e' < nz, ∀ k' < n, e * n + k < e' * n + k' → z e k < z e' k')) := by
  obtain ⟨H, hH, -, -, hi', hj'⟩ := C49_heights nx ny nz hx hy ztop h.inside junk t zf zi zj ht
  refine ⟨H, hH, ?_, ?_⟩
  · intro e2 h2 f hf j hj
    constructor <;> intro hs e he k hk <;> dsimp only <;> refine ⟨?_, ?_, fun e' he' k' hk' hlt => ?_⟩
    · rw [(hi' e he e2 h2 f hf k hk j hj).1]; exact above h he hk hs
    · rw [(hi' e he e2 h2 f hf k hk j hj).1]; exact below h he hk hs
    · rw [(hi' e he e2 h2 f hf k hk j hj).1, (hi' e' he' e2 h2 f hf k' hk' j hj).1]; exact height_strictMono hs (etaOf_lt h he' hk hk' hlt)
    · rw [(hi' e he e2 h2 f hf k hk j hj).2]; exact above h he hk hs
    · rw [(hi' e he e2 h2 f hf k hk j hj).2]; exact below h he hk hs
    · rw [(hi' e he e2 h2 f hf k hk j hj).2, (hi' e' he' e2 h2 f hf k' hk' j hj).2]; exact height_strictMono hs (etaOf_lt h he' hk hk' hlt)
  · intro f hf e1 h1 i hi
    constructor <;> intro hs e he k hk <;> dsimp only <;> refine ⟨?_, ?_, fun e' he' k' hk' hlt => ?_⟩
    · rw [(hj' e he f hf e1 h1 k hk i hi).1]; exact above h he hk hs
    · rw [(hj' e he f hf e1 h1 k hk i hi).1]; exact below h he hk hs
    · rw [(hj' e he f hf e1 h1 k hk i hi).1, (hj' e' he' f hf e1 h1 k' hk' i hi).1]; exact height_strictMono hs (etaOf_lt h he' hk hk' hlt)
    · rw [(hj' e he f hf e1 h1 k hk i hi).2]; exact above h he hk hs
    · rw [(hj' e he f hf e1 h1 k hk i hi).2]; exact below h he hk hs
    · rw [(hj' e he f hf e1 h1 k hk i hi).2, (hj' e' he' f hf e1 h1 k' hk' i hi).2]; exact height_strictMono hs (etaOf_lt h he' hk hk' hlt)

/-! ## Both layouts -/

/-- block arrays of the three kinds -/
def BlocksOk (t : Topo) (zb zbi zbj : Arr ℝ) : Prop := t.zbot = some zb ∧ t.zbotItfI = some zbi ∧ t.zbotItfJ = some zbj

/-- **C49** The block arrays hold the same heights above the block topography. -/
theorem C49_block (nx ny nz : Nat) (hx : 0 < nx) (hy : 0 < ny) (ztop : ℝ) (hin : ∀ x ∈ xs, -1 < x ∧ x < 1) (junk : List Nat → ℝ) (t : Topo)
    (zb zbi zbj : Arr ℝ) (hb : BlocksOk t zb zbi zbj) {H : Heights} (hH : applyTopography nx ny nz n ztop xs junk t = some H) :
    (∀ e < nz, ∀ k < n, ∀ y < ny * n, ∀ x < nx * n, H.x3.get [e * n + k, y, x] = height (zb.get [y, x]) ztop (etaOf nz xs e k)) ∧
    (∀ f ≤ nz, ∀ y < ny * n, ∀ x < nx * n, H.x3ItfK.get [f, y, x] = height (zb.get [y, x]) ztop (f / nz)) ∧
    (∀ e < nz, ∀ k < n, ∀ y < ny * n, ∀ f ≤ nx, H.x3ItfI.get [e * n + k, y, f] = height (zbi.get [y, f]) ztop (etaOf nz xs e k)) ∧
    (∀ e < nz, ∀ k < n, ∀ f ≤ ny, ∀ x < nx * n, H.x3ItfJ.get [e * n + k, f, x] = height (zbj.get [f, x]) ztop (etaOf nz xs e k)) := by
  obtain ⟨t1, t2, t3⟩ := hb
  unfold applyTopography at hH
  simp only [t1, t2, t3] at hH
  split at hH
  · split at hH
    · simp only [Option.some.injEq] at hH
      rw [← hH]
      refine ⟨?_, ?_, ?_, ?_⟩
      · intro e he k hk y hy x hx
        simp only [stretchBlock, List.drop_succ_cons, List.drop_zero]
        rw [eta_get nx ny nz hin he hk hy hx, height_eq]
      · intro f hf y hy x hx
        simp only [stretchBlock, List.drop_succ_cons, List.drop_zero]
        rw [etaItfK_get nx ny nz hf hy hx, height_eq]
      · intro e he k hk y hy' f hf
        simp only [stretchBlock, List.drop_succ_cons, List.drop_zero]
        rw [etaItfI_get nx ny nz hin hx he hk hy' hf, height_eq]
      · intro e he k hk f hf x hx'
        simp only [stretchBlock, List.drop_succ_cons, List.drop_zero]
        rw [etaItfJ_get nx ny nz hin hy he hk hx' hf, height_eq]
    · cases hH
  · cases hH

/-- **C49** When the floor arrays are the element layout of the block topography, the heights of the two layouts agree. -/
theorem C49_layouts_agree (nx ny nz : Nat) (hx : 0 < nx) (hy : 0 < ny) (ztop : ℝ) (hin : ∀ x ∈ xs, -1 < x ∧ x < 1) (junk : List Nat → ℝ)
    (t : Topo) (zb zbi zbj zf zi zj : Arr ℝ) (hb : BlocksOk t zb zbi zbj) (sb : zb.shape = [ny * n, nx * n])
    (sbi : zbi.shape = [ny * n, nx + 1]) (sbj : zbj.shape = [ny + 1, nx * n]) (ht : FloorsOk nx ny n t zf zi zj)
    (hf : toNewFloor nx ny n zb = some zf) (hi : toNewItfIFloor nx ny n zbi = some zi) (hj : toNewItfJFloor nx ny n zbj = some zj) :
    ∃ H, applyTopography nx ny nz n ztop xs junk t = some H ∧
      (∀ e3 < nz, ∀ e2 < ny, ∀ e1 < nx, ∀ k < n, ∀ j < n, ∀ i < n,
        H.x3New.get [e3, e2, e1, (k * n + j) * n + i] = H.x3.get [e3 * n + k, e2 * n + j, e1 * n + i]) ∧
      (∀ f ≤ nz, ∀ e2 < ny, ∀ e1 < nx, ∀ j < n, ∀ i < n,
        H.x3ItfKNew.get [f, e2, e1, n ^ 2 + (j * n + i)] = H.x3ItfK.get [f, e2 * n + j, e1 * n + i] ∧
        H.x3ItfKNew.get [f + 1, e2, e1, j * n + i] = H.x3ItfK.get [f, e2 * n + j, e1 * n + i]) ∧
      (∀ e3 < nz, ∀ e2 < ny, ∀ f ≤ nx, ∀ k < n, ∀ j < n,
        H.x3ItfINew.get [e3, e2, f, n ^ 2 + (k * n + j)] = H.x3ItfI.get [e3 * n + k, e2 * n + j, f] ∧
        H.x3ItfINew.get [e3, e2, f + 1, k * n + j] = H.x3ItfI.get [e3 * n + k, e2 * n + j, f]) ∧
      (∀ e3 < nz, ∀ f ≤ ny, ∀ e1 < nx, ∀ k < n, ∀ i < n,
        H.x3ItfJNew.get [e3, f, e1, n ^ 2 + (k * n + i)] = H.x3ItfJ.get [e3 * n + k, f, e1 * n + i] ∧
        H.x3ItfJNew.get [e3, f + 1, e1, k * n + i] = H.x3ItfJ.get [e3 * n + k, f, e1 * n + i]) := by
  obtain ⟨H, hH, p1, p2, p3, p4⟩ := C49_heights nx ny nz hx hy ztop hin junk t zf zi zj ht
  obtain ⟨q1, q2, q3, q4⟩ := C49_block nx ny nz hx hy ztop hin junk t zb zbi zbj hb hH
  obtain ⟨zf', hf', -, vf⟩ := C40_to_new_floor nx ny n [] zb sb
  obtain ⟨zi', hi', -, vi⟩ := C40_itf_i_floor nx ny n [] zbi sbi
  obtain ⟨zj', hj', -, vj⟩ := C40_itf_j_floor nx ny n [] zbj sbj
  rw [hf] at hf'; cases hf'
  rw [hi] at hi'; cases hi'
  rw [hj] at hj'; cases hj'
  replace vf := vf [] valid_nil
  replace vi := vi [] valid_nil
  replace vj := vj [] valid_nil
  simp only [List.nil_append] at vf vi vj
  refine ⟨H, hH, ?_, ?_, ?_, ?_⟩
  · intro e3 h3 e2 h2 e1 h1 k hk j hj i hi
    rw [p1 e3 h3 e2 h2 e1 h1 k hk j hj i hi, q1 e3 h3 k hk _ (cell h2 hj) _ (cell h1 hi), vf e2 h2 e1 h1 j hj i hi]
  · intro f hf e2 h2 e1 h1 j hj i hi
    rw [(p2 f hf e2 h2 e1 h1 j hj i hi).1, (p2 f hf e2 h2 e1 h1 j hj i hi).2, q2 f hf _ (cell h2 hj) _ (cell h1 hi),
      vf e2 h2 e1 h1 j hj i hi]
    exact ⟨rfl, rfl⟩
  · intro e3 h3 e2 h2 f hf k hk j hj
    obtain ⟨w1, w2⟩ := (vi e2 h2 j hj).1 f hf
    rw [(p3 e3 h3 e2 h2 f hf k hk j hj).1, (p3 e3 h3 e2 h2 f hf k hk j hj).2, q3 e3 h3 k hk _ (cell h2 hj) f hf, w1, w2]
    exact ⟨rfl, rfl⟩
  · intro e3 h3 f hf e1 h1 k hk i hi
    obtain ⟨w1, w2⟩ := (vj e1 h1 i hi).1 f hf
    rw [(p4 e3 h3 f hf e1 h1 k hk i hi).1, (p4 e3 h3 f hf e1 h1 k hk i hi).2, q4 e3 h3 k hk f hf _ (cell h1 hi), w1, w2]
    exact ⟨rfl, rfl⟩

/-- **C49** Without (any one of) the floor arrays the element layout is that of a flat surface at height zero, whatever the block
topography is: a topography given by its block arrays only leaves the two layouts in disagreement. -/
theorem C49_missing_floor (nx ny nz : Nat) (ztop : ℝ) (junk : List Nat → ℝ) (t : Topo)
    (hm : t.zbotNew = none ∨ t.zbotItfINew = none ∨ t.zbotItfJNew = none) :
    applyTopography nx ny nz n ztop xs junk t = applyTopography nx ny nz n ztop xs junk
      { t with zbotNew := some ⟨[ny, nx, n ^ 2], fun _ => 0⟩, zbotItfINew := some ⟨[ny, nx + 2, n * 2], fun _ => 0⟩,
               zbotItfJNew := some ⟨[ny + 2, nx, n * 2], fun _ => 0⟩ } := by
  obtain ⟨a, b, c, d, e, f⟩ := t
  rcases hm with h | h | h
  · cases h; rfl
  · cases h; cases d <;> rfl
  · cases h; cases d <;> cases e <;> rfl

/-- the hypotheses are met: a hill of 2000 m under a lid at 10 km, 2 × 2 × 3 elements of order 3 -/
example : ∃ ws, IsGaussRule 3 [-√(3 / 5), 0, √(3 / 5)] ws ∧ ∃ H : Heights,
    applyTopography 2 2 3 3 10000 [-√(3 / 5), 0, √(3 / 5)] (fun _ => 0)
      ⟨none, none, none, some ⟨[2, 2, 3 ^ 2], fun idx => if idx = [0, 1, 4] then 2000 else 0⟩,
        some ⟨[2, 2 + 2, 3 * 2], fun _ => 0⟩, some ⟨[2 + 2, 2, 3 * 2], fun _ => 0⟩⟩ = some H ∧
    H.x3ItfKNew.get [1, 0, 1, 4] = 2000 := by
  obtain ⟨xs, ws, hr, h⟩ := WxVerif.Props.Quadrature.C41_rule 3 (by decide) (by decide)
  have hxs : [-√(3 / 5), 0, √(3 / 5)] = xs := by
    have : gaussLegendre ((3 : Nat) : Int) = .rule [-√(3 / 5), 0, √(3 / 5)] [5 / 9, 8 / 9, 5 / 9] := by
      simp [gaussLegendre]
    rw [this] at hr
    injection hr
  subst hxs
  refine ⟨ws, h, ?_⟩
  obtain ⟨H, hH, hv⟩ := C49_monotone 2 2 3 (by decide) (by decide) (by decide) 10000 h (fun _ => 0)
    ⟨none, none, none, some ⟨[2, 2, 3 ^ 2], fun idx => if idx = [0, 1, 4] then 2000 else 0⟩,
        some ⟨[2, 2 + 2, 3 * 2], fun _ => 0⟩, some ⟨[2 + 2, 2, 3 * 2], fun _ => 0⟩⟩ _ _ _ ⟨rfl, rfl, rfl, rfl, rfl, rfl⟩
  refine ⟨H, hH, ?_⟩
  have := (hv 0 (by decide) 1 (by decide) 1 (by decide) 1 (by decide) (by norm_num)).1
  simpa using this

end WxVerif.Props.Terrain
