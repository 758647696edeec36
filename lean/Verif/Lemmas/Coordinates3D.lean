import Verif.Model.Coordinates3D
import Verif.Spec.Grid3D
import Verif.Props.Terrain
import Verif.Props.Winds

/-! # Helper lemmas for the coordinate arrays of the 3D cubed sphere -/

namespace WxVerif.Coord3

open Real
open WxVerif.Cube (V3)
open WxVerif.Nd WxVerif.Layout WxVerif.Terrain WxVerif.Sphere WxVerif.Grid3
open WxVerif.Props.Layout WxVerif.Props.Terrain WxVerif.Props.Winds

/-! ## One-dimensional arrays -/

theorem linear_get (lo hi : ℝ) (num : Nat) {n : Nat} {xs : List ℝ} (hin : ∀ x ∈ xs, -1 < x ∧ x < 1) {e k : Nat} (he : e < num) (hk : k < n) :
    (linear lo hi num n xs).get [e * n + k] = lo + ((e : ℝ) + (1 + xs.getD k 0) / 2) * ((hi - lo) / num) := by
  have hn : 0 < n := by omega
  have hz : (num : ℝ) ≠ 0 := by exact_mod_cast (by omega : num ≠ 0)
  have h1 : (e * n + k) / n = e := by rw [Nat.add_comm, Nat.add_mul_div_right _ _ hn, Nat.div_eq_of_lt hk, Nat.zero_add]
  have h2 : (e * n + k) % n = k := by rw [Nat.add_comm, Nat.add_mul_mod_self_right, Nat.mod_eq_of_lt hk]
  have : (linear lo hi num n xs).get [e * n + k] = (lo + ((0 + (e * n + k) / n : Nat) : ℝ) * ((hi - lo) / (num : ℝ))) +
      (hi - lo) / (num : ℝ) / (maxComp xs - minComp xs) * (-minComp xs + xs.getD ((e * n + k) % n) 0) := rfl
  rw [this, h1, h2, minComp_eq hin, maxComp_eq hin]
  push_cast
  field_simp
  ring

theorem stop_sub_start (lines pos : Nat) : stop lines pos - start lines pos = π / 2 / lines := by
  unfold stop; ring

theorem equi_eq (lines pos num e : Nat) (ξ : ℝ) :
    start lines pos + ((e : ℝ) + (1 + ξ) / 2) * ((stop lines pos - start lines pos) / num) = equi lines pos num e ξ := by
  rw [stop_sub_start]; unfold start equi; ring

theorem x1_get (p : Params) (hin : ∀ x ∈ p.xs, -1 < x ∧ x < 1) {e i : Nat} (he : e < p.nx) (hi : i < p.n) :
    (x1 p).get [e * p.n + i] = equi p.lines p.col p.nx e (p.xs.getD i 0) := by
  rw [← equi_eq]; exact linear_get _ _ _ hin he hi

theorem x2_get (p : Params) (hin : ∀ x ∈ p.xs, -1 < x ∧ x < 1) {e i : Nat} (he : e < p.ny) (hi : i < p.n) :
    (x2 p).get [e * p.n + i] = equi p.lines p.row p.ny e (p.xs.getD i 0) := by
  rw [← equi_eq]; exact linear_get _ _ _ hin he hi

theorem boundary_eq (lines pos num f : Nat) :
    (boundaries (start lines pos) (stop lines pos) num).get [f] = equi lines pos num f (-1) := by
  rw [← equi_eq]
  show _ + _ * _ = _
  simp

/-! ## Norms -/

theorem unravel_valid : ∀ (shape : List Nat) (q : Nat), q < size shape → Valid (unravel shape q) shape
  | [], _, _ => valid_nil
  | s :: ss, q, h => by
    rw [size_cons] at h
    have hp : 0 < size ss := by
      rcases Nat.eq_zero_or_pos (size ss) with h0 | h0
      · rw [h0] at h; omega
      · exact h0
    refine valid_cons.mpr ⟨?_, unravel_valid ss _ (Nat.mod_lt _ hp)⟩
    rw [Nat.div_lt_iff_lt_mul hp]; exact h

theorem norm_sub_zero {a b : Arr ℝ} (h : ∀ idx, Valid idx a.shape → a.get idx = b.get idx) : norm (sub a b) = 0 := by
  have : ((List.range (size (sub a b).shape)).map fun q => (sub a b).get (unravel (sub a b).shape q) ^ 2) =
      (List.range (size (sub a b).shape)).map fun _ => (0 : ℝ) := by
    apply List.map_congr_left
    intro q hq
    have hv := unravel_valid a.shape q (List.mem_range.mp hq)
    show (a.get _ - b.get _) ^ 2 = 0
    have : (sub a b).shape = a.shape := rfl
    rw [this, h _ hv]; ring
  unfold norm
  rw [this]
  simp

/-! ## Spherical coordinates -/

theorem sph_roundtrip (q : V3 ℝ) : sph2cart (cart2sph q).1 (cart2sph q).2.1 (cart2sph q).2.2 = q := by
  by_cases h : OffPole q
  · exact C39_cart2sph q h
  · have h1 : q.1 = 0 := by by_contra h0; exact h (Or.inl h0)
    have h2 : q.2.1 = 0 := by by_contra h0; exact h (Or.inr h0)
    obtain ⟨a, b, c⟩ := q
    simp only at h1 h2
    subst h1; subst h2
    have h0 : hypot 0 0 = 0 := by simp [hypot]
    have hr : hypot 0 c = |c| := by simp [hypot, sqrt_sq_eq_abs]
    by_cases hc : c = 0
    · subst hc
      simp [sph2cart, cart2sph, h0]
    · have hn : hypot 0 c ≠ 0 := by rw [hr]; exact abs_ne_zero.mpr hc
      have e1 : cos (atan2 c 0) = 0 := by rw [cos_atan2 hn]; simp
      have e2 : sin (atan2 c 0) = c / |c| := by rw [sin_atan2, hr]
      simp only [sph2cart, cart2sph, h0, e1, e2, hr]
      simp only [mul_zero, zero_mul, Prod.mk.injEq, true_and]
      field_simp

theorem wrap_range (a : ℝ) (h1 : -π < a) (h2 : a ≤ π) : 0 ≤ (if a < 0 then a + 2 * π else a) ∧ (if a < 0 then a + 2 * π else a) < 2 * π := by
  have hp := pi_pos
  split_ifs with h <;> constructor <;> linarith

theorem az_range (q : V3 ℝ) : 0 ≤ (cart2sph q).1 ∧ (cart2sph q).1 < 2 * π :=
  wrap_range _ (Complex.neg_pi_lt_arg _) (Complex.arg_le_pi _)

theorem elev_range (q : V3 ℝ) : |(cart2sph q).2.1| ≤ π / 2 := by
  simp only [cart2sph, atan2]
  exact Complex.abs_arg_le_pi_div_two_iff.mpr (hypot_nonneg _ _)

theorem atan2_smul {r : ℝ} (hr : 0 < r) (y x : ℝ) : atan2 (r * y) (r * x) = atan2 y x := by
  unfold atan2
  rw [← Complex.arg_real_mul ⟨x, y⟩ hr]
  congr 1
  apply Complex.ext <;> simp

theorem cart_smul (o : Orientation) (r X Y : ℝ) : cart o r X Y = r • cart o 1 X Y := by
  simp only [cart, Prod.smul_mk, smul_eq_mul, Prod.mk.injEq]
  refine ⟨by ring, by ring, by ring⟩

theorem hypot_smul {r : ℝ} (hr : 0 < r) (x y : ℝ) : hypot (r * x) (r * y) = r * hypot x y := by
  unfold hypot
  rw [show (r * x) ^ 2 + (r * y) ^ 2 = r ^ 2 * (x ^ 2 + y ^ 2) by ring, sqrt_mul (by positivity), sqrt_sq hr.le]

theorem cart2sph_smul {r : ℝ} (hr : 0 < r) (q : V3 ℝ) :
    (cart2sph (r • q)).1 = (cart2sph q).1 ∧ (cart2sph (r • q)).2.1 = (cart2sph q).2.1 := by
  obtain ⟨a, b, c⟩ := q
  simp only [cart2sph, Prod.smul_mk, smul_eq_mul, hypot_smul hr, atan2_smul hr, and_self]

theorem pointLon_radius (o : Orientation) {r : ℝ} (hr : 0 < r) (X Y : ℝ) : pointLon o r X Y = pointLon o 1 X Y := by
  unfold pointLon; rw [cart_smul]; exact (cart2sph_smul hr _).1

theorem pointLat_radius (o : Orientation) {r : ℝ} (hr : 0 < r) (X Y : ℝ) : pointLat o r X Y = pointLat o 1 X Y := by
  unfold pointLat; rw [cart_smul]; exact (cart2sph_smul hr _).2

/-- a point of the grid in the direction of its longitude and latitude -/
theorem cart_upUnit (o : Orientation) {r : ℝ} (hr : 0 < r) (X Y : ℝ) :
    cart o r X Y = r • Geom.upUnit (pointLon o 1 X Y) (pointLat o 1 X Y) := by
  have h := sph_roundtrip (cart o r X Y)
  have h3 : (cart2sph (cart o r X Y)).2.2 = r := hypot_cart3 o hr X Y
  have e1 : (cart2sph (cart o r X Y)).1 = pointLon o 1 X Y := pointLon_radius o hr X Y
  have e2 : (cart2sph (cart o r X Y)).2.1 = pointLat o 1 X Y := pointLat_radius o hr X Y
  rw [e1, e2, h3] at h
  rw [← h]
  simp only [sph2cart, Geom.upUnit, Prod.smul_mk, smul_eq_mul, Prod.mk.injEq, and_true]
  exact ⟨by ring, by ring⟩

/-! ## One point -/

/-- the three numbers stored for one point -/
def triple (a : Arr ℝ) (idx : List Nat) : V3 ℝ := (a.get (0 :: idx), a.get (1 :: idx), a.get (2 :: idx))

theorem toCartesian_triple (p : Params) (g : Arr ℝ) (idx : List Nat) {X Y z : ℝ} (h : triple g idx = (X, Y, z)) :
    triple (toCartesian p g) idx = cart p.o (p.radius + z) X Y := by
  simp only [triple, Prod.mk.injEq] at h
  show (comp (cart p.o (p.radius + g.get (2 :: idx)) (g.get (0 :: idx)) (g.get (1 :: idx))) 0,
    comp (cart p.o (p.radius + g.get (2 :: idx)) (g.get (0 :: idx)) (g.get (1 :: idx))) 1,
    comp (cart p.o (p.radius + g.get (2 :: idx)) (g.get (0 :: idx)) (g.get (1 :: idx))) 2) = _
  rw [h.1, h.2.1, h.2.2]
  rfl

theorem toPolar_triple (p : Params) (g : Arr ℝ) (idx : List Nat) {X Y z : ℝ} (h : triple g idx = (X, Y, z)) (hr : 0 < p.radius + z) :
    triple (toPolar (toCartesian p g) g) idx = (pointLon p.o 1 X Y, pointLat p.o 1 X Y, z) := by
  have hc := toCartesian_triple p g idx h
  have e : triple (toPolar (toCartesian p g) g) idx = ((cart2sph (triple (toCartesian p g) idx)).1, (cart2sph (triple (toCartesian p g) idx)).2.1,
      (triple g idx).2.2) := rfl
  rw [e, hc, h]
  rw [← pointLon_radius p.o hr, ← pointLat_radius p.o hr]
  rfl

/-! ## The arrays of a grid -/

/-- what the construction of the coordinates gives above a ground with heights `s` (columns), `si` and `sj` (interfaces) -/
structure Built (p : Params) (s si sj : Nat → Nat → ℝ) (c : Coords) : Prop where
  cb : c.cartBlock = ⟨toCartesian p c.gnomBlock.sol, toCartesian p c.gnomBlock.itfI, toCartesian p c.gnomBlock.itfJ, toCartesian p c.gnomBlock.itfK⟩
  cn : c.cart = ⟨toCartesian p c.gnom.sol, toCartesian p c.gnom.itfI, toCartesian p c.gnom.itfJ, toCartesian p c.gnom.itfK⟩
  pb : c.polarBlock = ⟨toPolar c.cartBlock.sol c.gnomBlock.sol, toPolar c.cartBlock.itfI c.gnomBlock.itfI, toPolar c.cartBlock.itfJ c.gnomBlock.itfJ,
    toPolar c.cartBlock.itfK c.gnomBlock.itfK⟩
  pn : c.polar = polarNew p c.cart c.gnom
  shb : c.gnomBlock.sol.shape = [3, p.nz * p.n, p.ny * p.n, p.nx * p.n]
  shbi : c.gnomBlock.itfI.shape = [3, p.nz * p.n, p.ny * p.n, p.nx + 1]
  shbj : c.gnomBlock.itfJ.shape = [3, p.nz * p.n, p.ny + 1, p.nx * p.n]
  shn : c.gnom.sol.shape = [3, p.nz, p.ny, p.nx, p.n ^ 3]
  shni : c.gnom.itfI.shape = [3, p.nz, p.ny, p.nx + 2, p.n ^ 2 * 2]
  shnj : c.gnom.itfJ.shape = [3, p.nz, p.ny + 2, p.nx, p.n ^ 2 * 2]
  sol : ∀ e3 < p.nz, ∀ e2 < p.ny, ∀ e1 < p.nx, ∀ k < p.n, ∀ j < p.n, ∀ i < p.n,
    triple c.gnomBlock.sol [e3 * p.n + k, e2 * p.n + j, e1 * p.n + i] = (tan ((x1 p).get [e1 * p.n + i]), tan ((x2 p).get [e2 * p.n + j]),
      height (s (e2 * p.n + j) (e1 * p.n + i)) p.ztop (etaOf p.nz p.xs e3 k)) ∧
    triple c.gnom.sol [e3, e2, e1, (k * p.n + j) * p.n + i] = triple c.gnomBlock.sol [e3 * p.n + k, e2 * p.n + j, e1 * p.n + i]
  itfI : ∀ e3 < p.nz, ∀ e2 < p.ny, ∀ f ≤ p.nx, ∀ k < p.n, ∀ j < p.n,
    triple c.gnomBlock.itfI [e3 * p.n + k, e2 * p.n + j, f] = (tan ((x1ItfI p).get [f]), tan ((x2 p).get [e2 * p.n + j]),
      height (si (e2 * p.n + j) f) p.ztop (etaOf p.nz p.xs e3 k)) ∧
    triple c.gnom.itfI [e3, e2, f, p.n ^ 2 + (k * p.n + j)] = triple c.gnomBlock.itfI [e3 * p.n + k, e2 * p.n + j, f] ∧
    triple c.gnom.itfI [e3, e2, f + 1, k * p.n + j] = triple c.gnomBlock.itfI [e3 * p.n + k, e2 * p.n + j, f]
  itfJ : ∀ e3 < p.nz, ∀ f ≤ p.ny, ∀ e1 < p.nx, ∀ k < p.n, ∀ i < p.n,
    triple c.gnomBlock.itfJ [e3 * p.n + k, f, e1 * p.n + i] = (tan ((x1 p).get [e1 * p.n + i]), tan ((x2ItfJ p).get [f]),
      height (sj f (e1 * p.n + i)) p.ztop (etaOf p.nz p.xs e3 k)) ∧
    triple c.gnom.itfJ [e3, f, e1, p.n ^ 2 + (k * p.n + i)] = triple c.gnomBlock.itfJ [e3 * p.n + k, f, e1 * p.n + i] ∧
    triple c.gnom.itfJ [e3, f + 1, e1, k * p.n + i] = triple c.gnomBlock.itfJ [e3 * p.n + k, f, e1 * p.n + i]
  itfK : ∀ f ≤ p.nz, ∀ e2 < p.ny, ∀ e1 < p.nx, ∀ j < p.n, ∀ i < p.n,
    triple c.gnomBlock.itfK [f, e2 * p.n + j, e1 * p.n + i] = (tan ((x1 p).get [e1 * p.n + i]), tan ((x2 p).get [e2 * p.n + j]),
      height (s (e2 * p.n + j) (e1 * p.n + i)) p.ztop (f / p.nz)) ∧
    triple c.gnom.itfK [f, e2, e1, p.n ^ 2 + (j * p.n + i)] = triple c.gnomBlock.itfK [f, e2 * p.n + j, e1 * p.n + i] ∧
    triple c.gnom.itfK [f + 1, e2, e1, j * p.n + i] = triple c.gnomBlock.itfK [f, e2 * p.n + j, e1 * p.n + i]
  ll : c.lon = select [.one 0, .one 0, .all, .all] c.polarBlock.sol ∧ c.lat = select [.one 1, .one 0, .all, .all] c.polarBlock.sol
  lli : c.lonItfI = transpose [1, 0] (select [.one 0, .one 0, .all, .all] c.polarBlock.itfI) ∧
    c.latItfI = transpose [1, 0] (select [.one 1, .one 0, .all, .all] c.polarBlock.itfI)
  llj : c.lonItfJ = select [.one 0, .one 0, .all, .all] c.polarBlock.itfJ ∧ c.latItfJ = select [.one 1, .one 0, .all, .all] c.polarBlock.itfJ

theorem toGnomonic_triple (coord z : Arr ℝ) (idx : List Nat) :
    triple (toGnomonic coord z) idx = (tan (coord.get (0 :: idx)), tan (coord.get (1 :: idx)), z.get idx) := rfl

/-- the ground arrays of both layouts hold the heights `s`, `si`, `sj` -/
structure Floors (p : Params) (t : Topo) (s si sj : Nat → Nat → ℝ) (zb zbi zbj zf zi zj : Arr ℝ) : Prop where
  blocks : BlocksOk t zb zbi zbj
  floors : FloorsOk p.nx p.ny p.n t zf zi zj
  b : ∀ y < p.ny * p.n, ∀ x < p.nx * p.n, zb.get [y, x] = s y x
  bi : ∀ y < p.ny * p.n, ∀ f ≤ p.nx, zbi.get [y, f] = si y f
  bj : ∀ f ≤ p.ny, ∀ x < p.nx * p.n, zbj.get [f, x] = sj f x
  f : ∀ e2 < p.ny, ∀ e1 < p.nx, ∀ j < p.n, ∀ i < p.n, zf.get [e2, e1, j * p.n + i] = s (e2 * p.n + j) (e1 * p.n + i)
  fi : ∀ e2 < p.ny, ∀ f ≤ p.nx, ∀ j < p.n, zi.get [e2, f, p.n + j] = si (e2 * p.n + j) f ∧ zi.get [e2, f + 1, j] = si (e2 * p.n + j) f
  fj : ∀ f ≤ p.ny, ∀ e1 < p.nx, ∀ i < p.n, zj.get [f, e1, p.n + i] = sj f (e1 * p.n + i) ∧ zj.get [f + 1, e1, i] = sj f (e1 * p.n + i)

theorem cube_split {n q : Nat} (h : q < n ^ 3) : ∃ k < n, ∃ j < n, ∃ i < n, q = (k * n + j) * n + i := by
  have hn : 0 < n := by
    rcases Nat.eq_zero_or_pos n with h0 | h0
    · subst h0; simp at h
    · exact h0
  have h3 : n ^ 3 = n * n * n := by ring
  rw [h3] at h
  refine ⟨q / n / n, ?_, q / n % n, Nat.mod_lt _ hn, q % n, Nat.mod_lt _ hn, ?_⟩
  · rw [Nat.div_lt_iff_lt_mul hn, Nat.div_lt_iff_lt_mul hn]; exact h
  · rw [Nat.div_add_mod' (q / n) n, Nat.div_add_mod' q n]

theorem lead3 {c : Nat} (h : c < 3) : Valid [c] [3] := valid_cons.mpr ⟨h, valid_nil⟩

theorem setTerrain_built (p : Params) (hx : 0 < p.nx) (hy : 0 < p.ny) (hin : ∀ x ∈ p.xs, -1 < x ∧ x < 1) (junk : List Nat → ℝ) (t : Topo)
    (s si sj : Nat → Nat → ℝ) (zb zbi zbj zf zi zj : Arr ℝ) (h : Floors p t s si sj zb zbi zbj zf zi zj) :
    ∃ c, setTerrain p junk t = some c ∧ Built p s si sj c := by
  obtain ⟨H, hH, v1, v2, v3, v4⟩ := C49_heights p.nx p.ny p.nz hx hy p.ztop hin junk t zf zi zj h.floors
  obtain ⟨w1, w2, w3, w4⟩ := C49_block p.nx p.ny p.nz hx hy p.ztop hin junk t zb zbi zbj h.blocks hH
  obtain ⟨r0, hr0, s0, g0⟩ := C40_to_new_3d p.nx p.ny p.nz p.n [3] (coordNum p).sol rfl
  obtain ⟨r1, hr1, s1, g1⟩ := C40_itf_i_3d p.nx p.ny p.nz p.n junk [3] (coordNum p).itfI rfl
  obtain ⟨r2, hr2, s2, g2⟩ := C40_itf_j_3d p.nx p.ny p.nz p.n [3] (coordNum p).itfJ rfl
  obtain ⟨r3, hr3, s3, g3⟩ := C40_itf_k_3d p.nx p.ny p.nz p.n [3] (coordNum p).itfK rfl
  obtain ⟨ref, href, -, gr⟩ := C40_to_new_3d p.nx p.ny p.nz p.n [3] (toGnomonic (coordNum p).sol H.x3) rfl
  have hrad : radians p junk = some ⟨r0, r1, r2, r3⟩ := by unfold radians; rw [hr0, hr1, hr2, hr3]
  have hsol : ∀ e3 < p.nz, ∀ e2 < p.ny, ∀ e1 < p.nx, ∀ k < p.n, ∀ j < p.n, ∀ i < p.n,
      triple (toGnomonic (coordNum p).sol H.x3) [e3 * p.n + k, e2 * p.n + j, e1 * p.n + i] = (tan ((x1 p).get [e1 * p.n + i]),
        tan ((x2 p).get [e2 * p.n + j]), height (s (e2 * p.n + j) (e1 * p.n + i)) p.ztop (etaOf p.nz p.xs e3 k)) ∧
      triple (toGnomonic r0 H.x3New) [e3, e2, e1, (k * p.n + j) * p.n + i] =
        triple (toGnomonic (coordNum p).sol H.x3) [e3 * p.n + k, e2 * p.n + j, e1 * p.n + i] := by
    intro e3 h3 e2 h2 e1 h1 k hk j hj i hi
    have a0 := g0 [0] (lead3 (by omega)) e3 h3 e2 h2 e1 h1 k hk j hj i hi
    have a1 := g0 [1] (lead3 (by omega)) e3 h3 e2 h2 e1 h1 k hk j hj i hi
    simp only [List.cons_append, List.nil_append] at a0 a1
    rw [toGnomonic_triple, toGnomonic_triple, a0, a1, v1 e3 h3 e2 h2 e1 h1 k hk j hj i hi, h.f e2 h2 e1 h1 j hj i hi,
      w1 e3 h3 k hk _ (cell h2 hj) _ (cell h1 hi), h.b _ (cell h2 hj) _ (cell h1 hi)]
    exact ⟨rfl, rfl⟩
  have hzero : norm (sub (toGnomonic r0 H.x3New) ref) = 0 := by
    apply norm_sub_zero
    intro idx hidx
    have hsh : (toGnomonic r0 H.x3New).shape = [3] ++ [p.nz, p.ny, p.nx, p.n ^ 3] := s0
    rw [hsh] at hidx
    obtain ⟨l, u, rfl, hl, hu⟩ := valid_split hidx
    match l, u, hl, hu with
    | [c], [e3, e2, e1, q], hl, hu =>
      simp only [valid_cons] at hl hu
      obtain ⟨h3, h2, h1, hq, -⟩ := hu
      obtain ⟨k, hk, j, hj, i, hi, rfl⟩ := cube_split hq
      rw [gr [c] (lead3 hl.1) e3 h3 e2 h2 e1 h1 k hk j hj i hi]
      have e := (hsol e3 h3 e2 h2 e1 h1 k hk j hj i hi).2
      simp only [triple, Prod.mk.injEq] at e
      have hc := hl.1
      interval_cases c
      · exact e.1
      · exact e.2.1
      · exact e.2.2
    | [], _, hl, _ => exact absurd hl.length (by simp)
    | _ :: _ :: _, _, hl, _ => exact absurd hl.length (by simp)
    | [_], [], _, hu => exact absurd hu.length (by simp)
    | [_], [_], _, hu => exact absurd hu.length (by simp)
    | [_], [_, _], _, hu => exact absurd hu.length (by simp)
    | [_], [_, _, _], _, hu => exact absurd hu.length (by simp)
    | [_], _ :: _ :: _ :: _ :: _ :: _, _, hu => exact absurd hu.length (by simp)
  unfold setTerrain
  rw [hH]
  dsimp only
  unfold buildPhysical
  rw [hrad]
  dsimp only
  rw [href]
  dsimp only
  rw [hzero, zero_div, if_neg (by norm_num)]
  refine ⟨_, rfl, ⟨rfl, rfl, rfl, rfl, rfl, rfl, rfl, s0, s1, s2, hsol, ?_, ?_, ?_, ⟨rfl, rfl⟩, ⟨rfl, rfl⟩, ⟨rfl, rfl⟩⟩⟩
  · intro e3 h3 e2 h2 f hf k hk j hj
    have a0 := (g1 [0] (lead3 (by omega)) e3 h3 e2 h2 k hk j hj).1 f hf
    have a1 := (g1 [1] (lead3 (by omega)) e3 h3 e2 h2 k hk j hj).1 f hf
    simp only [List.cons_append, List.nil_append] at a0 a1
    rw [toGnomonic_triple, toGnomonic_triple, toGnomonic_triple, a0.1, a1.1, a0.2, a1.2, (v3 e3 h3 e2 h2 f hf k hk j hj).1,
      (v3 e3 h3 e2 h2 f hf k hk j hj).2, (h.fi e2 h2 f hf j hj).1, (h.fi e2 h2 f hf j hj).2,
      w3 e3 h3 k hk _ (cell h2 hj) f hf, h.bi _ (cell h2 hj) f hf]
    exact ⟨rfl, rfl, rfl⟩
  · intro e3 h3 f hf e1 h1 k hk i hi
    have a0 := (g2 [0] (lead3 (by omega)) e3 h3 e1 h1 k hk i hi).1 f hf
    have a1 := (g2 [1] (lead3 (by omega)) e3 h3 e1 h1 k hk i hi).1 f hf
    simp only [List.cons_append, List.nil_append] at a0 a1
    rw [toGnomonic_triple, toGnomonic_triple, toGnomonic_triple, a0.1, a1.1, a0.2, a1.2, (v4 e3 h3 f hf e1 h1 k hk i hi).1,
      (v4 e3 h3 f hf e1 h1 k hk i hi).2, (h.fj f hf e1 h1 i hi).1, (h.fj f hf e1 h1 i hi).2,
      w4 e3 h3 k hk f hf _ (cell h1 hi), h.bj f hf _ (cell h1 hi)]
    exact ⟨rfl, rfl, rfl⟩
  · intro f hf e2 h2 e1 h1 j hj i hi
    have a0 := (g3 [0] (lead3 (by omega)) e2 h2 e1 h1 j hj i hi).1 f hf
    have a1 := (g3 [1] (lead3 (by omega)) e2 h2 e1 h1 j hj i hi).1 f hf
    simp only [List.cons_append, List.nil_append] at a0 a1
    rw [toGnomonic_triple, toGnomonic_triple, toGnomonic_triple, a0.1, a1.1, a0.2, a1.2, (v2 f hf e2 h2 e1 h1 j hj i hi).1,
      (v2 f hf e2 h2 e1 h1 j hj i hi).2, h.f e2 h2 e1 h1 j hj i hi, w2 f hf _ (cell h2 hj) _ (cell h1 hi), h.b _ (cell h2 hj) _ (cell h1 hi)]
    exact ⟨rfl, rfl, rfl⟩

/-- terrain as a function of the gnomonic coordinates -/
noncomputable def ground (p : Params) (f : ℝ → ℝ → ℝ) (X Y : ℝ) : ℝ := f (pointLon p.o 1 X Y) (pointLat p.o 1 X Y)

theorem place_of_gnom (p : Params) (f : ℝ → ℝ → ℝ) (g s : Arr ℝ) (idx : List Nat) {x1 x2 η : ℝ}
    (h : triple g idx = (tan x1, tan x2, height (ground p f (tan x1) (tan x2)) p.ztop η))
    (hs : triple s idx = triple (toPolar (toCartesian p g) g) idx) (hr : 0 < p.radius + height (ground p f (tan x1) (tan x2)) p.ztop η) :
    IsPlace p.radius p.ztop f (position p.o 1 x1 x2) x1 x2 η (triple g idx) (triple (toCartesian p g) idx) (triple s idx) := by
  rw [hs, toPolar_triple p g idx h hr, toCartesian_triple p g idx h, h]
  refine ⟨(az_range _).1, (az_range _).2, elev_range _, ?_, rfl, cart_upUnit p.o hr _ _, cart_smul _ _ _ _⟩
  show height (ground p f (tan x1) (tan x2)) p.ztop η = _
  unfold height ground
  ring

/-! ## Polar coordinates of the arrays -/

theorem polar_itfI_inner (p : Params) (c g : Four) (a e3 e2 : Nat) {f q : Nat} :
    (f ≤ p.nx → (polarNew p c g).itfI.get [a, e3, e2, f, p.n ^ 2 + q] = (toPolar c.itfI g.itfI).get [a, e3, e2, f, p.n ^ 2 + q]) ∧
    (q < p.n ^ 2 → (polarNew p c g).itfI.get [a, e3, e2, f + 1, q] = (toPolar c.itfI g.itfI).get [a, e3, e2, f + 1, q]) := by
  constructor
  · intro hf
    refine (assignConst_or (p.nx + 1) (p.n ^ 2) (p.n ^ 2 * 2) f (p.n ^ 2 + q) (0 : ℝ) _ [a, e3, e2]).trans ?_
    rw [if_neg (by omega), assignConst_or, if_neg (by omega)]; rfl
  · intro hq
    refine (assignConst_or (p.nx + 1) (p.n ^ 2) (p.n ^ 2 * 2) (f + 1) q (0 : ℝ) _ [a, e3, e2]).trans ?_
    rw [if_neg (by omega), assignConst_or, if_neg (by omega)]; rfl

theorem polar_itfJ_inner (p : Params) (c g : Four) (a e3 e1 : Nat) {f q : Nat} :
    (f ≤ p.ny → (polarNew p c g).itfJ.get [a, e3, f, e1, p.n ^ 2 + q] = (toPolar c.itfJ g.itfJ).get [a, e3, f, e1, p.n ^ 2 + q]) ∧
    (q < p.n ^ 2 → (polarNew p c g).itfJ.get [a, e3, f + 1, e1, q] = (toPolar c.itfJ g.itfJ).get [a, e3, f + 1, e1, q]) := by
  constructor
  · intro hf
    refine (assignConst_oar (p.ny + 1) (p.n ^ 2) (p.n ^ 2 * 2) f e1 (p.n ^ 2 + q) (0 : ℝ) _ [a, e3]).trans ?_
    rw [if_neg (by omega), assignConst_oar, if_neg (by omega)]; rfl
  · intro hq
    refine (assignConst_oar (p.ny + 1) (p.n ^ 2) (p.n ^ 2 * 2) (f + 1) e1 q (0 : ℝ) _ [a, e3]).trans ?_
    rw [if_neg (by omega), assignConst_oar, if_neg (by omega)]; rfl

theorem polar_itfK_inner (p : Params) (c g : Four) (a e2 e1 : Nat) {f q : Nat} :
    (f ≤ p.nz → (polarNew p c g).itfK.get [a, f, e2, e1, p.n ^ 2 + q] = (toPolar c.itfK g.itfK).get [a, f, e2, e1, p.n ^ 2 + q]) ∧
    (q < p.n ^ 2 → (polarNew p c g).itfK.get [a, f + 1, e2, e1, q] = (toPolar c.itfK g.itfK).get [a, f + 1, e2, e1, q]) := by
  constructor
  · intro hf
    refine (assignConst_oaar (p.nz + 1) (p.n ^ 2) (p.n ^ 2 * 2) f e2 e1 (p.n ^ 2 + q) (0 : ℝ) _ [a]).trans ?_
    rw [if_neg (by omega), assignConst_oaar, if_neg (by omega)]; rfl
  · intro hq
    refine (assignConst_oaar (p.nz + 1) (p.n ^ 2) (p.n ^ 2 * 2) (f + 1) e2 e1 q (0 : ℝ) _ [a]).trans ?_
    rw [if_neg (by omega), assignConst_oaar, if_neg (by omega)]; rfl

theorem sq_cell {n k j : Nat} (hk : k < n) (hj : j < n) : k * n + j < n ^ 2 := by rw [pow_two]; exact cell hk hj

theorem triple_itfI (p : Params) (c g : Four) (e3 e2 : Nat) {f k j : Nat} (hf : f ≤ p.nx) (hk : k < p.n) (hj : j < p.n) :
    triple (polarNew p c g).itfI [e3, e2, f, p.n ^ 2 + (k * p.n + j)] = triple (toPolar c.itfI g.itfI) [e3, e2, f, p.n ^ 2 + (k * p.n + j)] ∧
    triple (polarNew p c g).itfI [e3, e2, f + 1, k * p.n + j] = triple (toPolar c.itfI g.itfI) [e3, e2, f + 1, k * p.n + j] := by
  have hq := sq_cell hk hj
  unfold triple
  simp only [(polar_itfI_inner p c g _ e3 e2).1 hf, (polar_itfI_inner p c g _ e3 e2).2 hq, and_self]

theorem triple_itfJ (p : Params) (c g : Four) (e3 e1 : Nat) {f k i : Nat} (hf : f ≤ p.ny) (hk : k < p.n) (hi : i < p.n) :
    triple (polarNew p c g).itfJ [e3, f, e1, p.n ^ 2 + (k * p.n + i)] = triple (toPolar c.itfJ g.itfJ) [e3, f, e1, p.n ^ 2 + (k * p.n + i)] ∧
    triple (polarNew p c g).itfJ [e3, f + 1, e1, k * p.n + i] = triple (toPolar c.itfJ g.itfJ) [e3, f + 1, e1, k * p.n + i] := by
  have hq := sq_cell hk hi
  unfold triple
  simp only [(polar_itfJ_inner p c g _ e3 e1).1 hf, (polar_itfJ_inner p c g _ e3 e1).2 hq, and_self]

theorem triple_itfK (p : Params) (c g : Four) (e2 e1 : Nat) {f j i : Nat} (hf : f ≤ p.nz) (hj : j < p.n) (hi : i < p.n) :
    triple (polarNew p c g).itfK [f, e2, e1, p.n ^ 2 + (j * p.n + i)] = triple (toPolar c.itfK g.itfK) [f, e2, e1, p.n ^ 2 + (j * p.n + i)] ∧
    triple (polarNew p c g).itfK [f + 1, e2, e1, j * p.n + i] = triple (toPolar c.itfK g.itfK) [f + 1, e2, e1, j * p.n + i] := by
  have hq := sq_cell hj hi
  unfold triple
  simp only [(polar_itfK_inner p c g _ e2 e1).1 hf, (polar_itfK_inner p c g _ e2 e1).2 hq, and_self]

/-! ## The flat grid -/

theorem flatGrid_built (p : Params) (hx : 0 < p.nx) (hy : 0 < p.ny) (hin : ∀ x ∈ p.xs, -1 < x ∧ x < 1) (junk : List Nat → ℝ) :
    ∃ c, flatGrid p junk = some c ∧ Built p (fun _ _ => 0) (fun _ _ => 0) (fun _ _ => 0) c := by
  let zero (s : List Nat) : Arr ℝ := ⟨s, fun _ => 0⟩
  exact setTerrain_built p hx hy hin junk
    ⟨some (zero [p.ny * p.n, p.nx * p.n]), some (zero [p.ny * p.n, p.nx + 1]), some (zero [p.ny + 1, p.nx * p.n]),
      some (zero [p.ny, p.nx, p.n ^ 2]), some (zero [p.ny, p.nx + 2, p.n * 2]), some (zero [p.ny + 2, p.nx, p.n * 2])⟩
    _ _ _ _ _ _ _ _ _ ⟨⟨rfl, rfl, rfl⟩, ⟨rfl, rfl, rfl, rfl, rfl, rfl⟩, fun _ _ _ _ => rfl, fun _ _ _ _ => rfl, fun _ _ _ _ => rfl,
      fun _ _ _ _ _ _ _ _ => rfl, fun _ _ _ _ _ _ => ⟨rfl, rfl⟩, fun _ _ _ _ _ _ => ⟨rfl, rfl⟩⟩

/-! ## The terrain on the flat grid -/

theorem getD_bounds {xs : List ℝ} (hin : ∀ x ∈ xs, -1 < x ∧ x < 1) (k : Nat) : -1 < xs.getD k 0 ∧ xs.getD k 0 < 1 := by
  rw [List.getD_eq_getElem?_getD]
  rcases h : xs[k]? with _ | x
  · norm_num
  · exact hin x (List.mem_of_getElem? h)

theorem etaOf_mem {nz : Nat} {xs : List ℝ} (hin : ∀ x ∈ xs, -1 < x ∧ x < 1) {e : Nat} (he : e < nz) (k : Nat) :
    0 ≤ etaOf nz xs e k ∧ etaOf nz xs e k ≤ 1 := by
  have hk := getD_bounds hin k
  have hz : (0 : ℝ) < nz := by exact_mod_cast (by omega : 0 < nz)
  have he' : (e : ℝ) + 1 ≤ nz := by exact_mod_cast he
  unfold etaOf
  constructor
  · apply div_nonneg _ hz.le
    have : (0 : ℝ) ≤ e := Nat.cast_nonneg e
    linarith
  · rw [div_le_one hz]; linarith

theorem height_pos {r ztop z η : ℝ} (hz : 0 < r + z) (ht : 0 < r + ztop) (h0 : 0 ≤ η) (h1 : η ≤ 1) : 0 < r + height z ztop η := by
  have : r + height z ztop η = (1 - η) * (r + z) + η * (r + ztop) := by unfold height; ring
  rw [this]
  rcases eq_or_lt_of_le h0 with h | h
  · rw [← h]; simpa using hz
  · have := mul_pos h ht
    have := mul_nonneg (by linarith : 0 ≤ 1 - η) hz.le
    linarith

variable {p : Params} {c : Coords}

theorem topoFloor_get (f : ℝ → ℝ → ℝ) (a : Arr ℝ) (idx : List Nat) {X Y z : ℝ} (h : triple a idx = (pointLon p.o 1 X Y, pointLat p.o 1 X Y, z)) :
    (topoFloor f a).get idx = ground p f X Y := by
  simp only [triple, Prod.mk.injEq] at h
  show f (a.get (0 :: idx)) (a.get (1 :: idx)) = _
  rw [h.1, h.2.1]; rfl

theorem topoBlock_get (f : ℝ → ℝ → ℝ) (a : Arr ℝ) (y x : Nat) {X Y z : ℝ} (h : triple a [0, y, x] = (pointLon p.o 1 X Y, pointLat p.o 1 X Y, z)) :
    (topoBlock f a).get [y, x] = ground p f X Y := by
  simp only [triple, Prod.mk.injEq] at h
  show f (a.get [0, 0, y, x]) (a.get [1, 0, y, x]) = _
  rw [h.1, h.2.1]; rfl

/-- heights of the ground at the columns and at the interfaces -/
noncomputable def gs (p : Params) (f : ℝ → ℝ → ℝ) (y x : Nat) : ℝ := ground p f (tan ((x1 p).get [x])) (tan ((x2 p).get [y]))
@[inherit_doc gs] noncomputable def gi (p : Params) (f : ℝ → ℝ → ℝ) (y x : Nat) : ℝ := ground p f (tan ((x1ItfI p).get [x])) (tan ((x2 p).get [y]))
@[inherit_doc gs] noncomputable def gj (p : Params) (f : ℝ → ℝ → ℝ) (y x : Nat) : ℝ := ground p f (tan ((x1 p).get [x])) (tan ((x2ItfJ p).get [y]))

theorem split_lt {n N y : Nat} (h : y < N * n) : ∃ e < N, ∃ j < n, y = e * n + j := by
  have hn : 0 < n := by
    rcases Nat.eq_zero_or_pos n with h0 | h0
    · subst h0; simp at h
    · exact h0
  exact ⟨y / n, by rw [Nat.div_lt_iff_lt_mul hn]; exact h, y % n, Nat.mod_lt _ hn, (Nat.div_add_mod' y n).symm⟩

theorem terrainOf_floors (hx : 0 < p.nx) (hy : 0 < p.ny) (hz : 0 < p.nz) (hn : 0 < p.n) (hin : ∀ x ∈ p.xs, -1 < x ∧ x < 1)
    (hr : 0 < p.radius) (ht : 0 < p.radius + p.ztop) (f : ℝ → ℝ → ℝ) (h : Built p (fun _ _ => 0) (fun _ _ => 0) (fun _ _ => 0) c) :
    ∃ t zb zbi zbj zf zi zj, terrainOf p f c = some t ∧ Floors p t (gs p f) (gi p f) (gj p f) zb zbi zbj zf zi zj := by
  have hη := etaOf_mem hin hz 0
  have hp : 0 < p.radius + height 0 p.ztop (etaOf p.nz p.xs 0 0) := height_pos (by linarith) ht hη.1 hη.2
  -- values of the polar arrays on the lowest level
  have vb : ∀ e2 < p.ny, ∀ e1 < p.nx, ∀ j < p.n, ∀ i < p.n, (topoBlock f c.polarBlock.sol).get [e2 * p.n + j, e1 * p.n + i] = gs p f (e2 * p.n + j) (e1 * p.n + i) := by
    intro e2 h2 e1 h1 j hj i hi
    have e := (h.sol 0 hz e2 h2 e1 h1 0 hn j hj i hi).1
    rw [Nat.zero_mul, Nat.zero_add] at e
    rw [h.pb, h.cb]
    exact topoBlock_get f _ _ _ (toPolar_triple p _ _ e hp)
  have vbi : ∀ e2 < p.ny, ∀ q ≤ p.nx, ∀ j < p.n, (topoBlock f c.polarBlock.itfI).get [e2 * p.n + j, q] = gi p f (e2 * p.n + j) q := by
    intro e2 h2 q hq j hj
    have e := (h.itfI 0 hz e2 h2 q hq 0 hn j hj).1
    rw [Nat.zero_mul, Nat.zero_add] at e
    rw [h.pb, h.cb]
    exact topoBlock_get f _ _ _ (toPolar_triple p _ _ e hp)
  have vbj : ∀ q ≤ p.ny, ∀ e1 < p.nx, ∀ i < p.n, (topoBlock f c.polarBlock.itfJ).get [q, e1 * p.n + i] = gj p f q (e1 * p.n + i) := by
    intro q hq e1 h1 i hi
    have e := (h.itfJ 0 hz q hq e1 h1 0 hn i hi).1
    rw [Nat.zero_mul, Nat.zero_add] at e
    rw [h.pb, h.cb]
    exact topoBlock_get f _ _ _ (toPolar_triple p _ _ e hp)
  obtain ⟨a, ha, sa, va⟩ := C40_get_floor p.nx p.ny p.nz p.n hz hn [3] c.polar.sol (by rw [h.pn, h.cn]; exact h.shn)
  obtain ⟨b, hb, sb, vbb⟩ := C40_get_itf_i_floor p.nx p.ny p.nz p.n hz hn [3] c.polar.itfI (by rw [h.pn, h.cn]; exact h.shni)
  obtain ⟨d, hd, sd, vd⟩ := C40_get_itf_j_floor p.nx p.ny p.nz p.n hz hn [3] c.polar.itfJ (by rw [h.pn, h.cn]; exact h.shnj)
  have wf : ∀ e2 < p.ny, ∀ e1 < p.nx, ∀ j < p.n, ∀ i < p.n, (topoFloor f a).get [e2, e1, j * p.n + i] = gs p f (e2 * p.n + j) (e1 * p.n + i) := by
    intro e2 h2 e1 h1 j hj i hi
    have e := h.sol 0 hz e2 h2 e1 h1 0 hn j hj i hi
    have hv : triple a [e2, e1, j * p.n + i] = triple c.polar.sol [0, e2, e1, (0 * p.n + j) * p.n + i] := by
      have w (q : Nat) (hq : q < 3) := va [q] (lead3 hq) e2 h2 e1 h1 j hj i hi
      exact Prod.ext (w 0 (by omega)) (Prod.ext (w 1 (by omega)) (w 2 (by omega)))
    refine topoFloor_get (z := height 0 p.ztop (etaOf p.nz p.xs 0 0)) f a _ (hv.trans ?_)
    rw [h.pn, h.cn]
    exact toPolar_triple p _ _ (e.2.trans e.1) hp
  have wi : ∀ e2 < p.ny, ∀ q ≤ p.nx, ∀ j < p.n, (topoFloor f b).get [e2, q, p.n + j] = gi p f (e2 * p.n + j) q ∧
      (topoFloor f b).get [e2, q + 1, j] = gi p f (e2 * p.n + j) q := by
    intro e2 h2 q hq j hj
    have e := h.itfI 0 hz e2 h2 q hq 0 hn j hj
    have hv1 : triple b [e2, q, p.n + j] = triple c.polar.itfI [0, e2, q, p.n ^ 2 + (0 * p.n + j)] := by
      have w (r : Nat) (hr : r < 3) := vbb [r] (lead3 hr) e2 h2 q (by omega) 1 (by omega) j hj
      simp only [Nat.one_mul] at w
      exact Prod.ext (w 0 (by omega)) (Prod.ext (w 1 (by omega)) (w 2 (by omega)))
    have hv0 : triple b [e2, q + 1, j] = triple c.polar.itfI [0, e2, q + 1, 0 * p.n + j] := by
      have w (r : Nat) (hr : r < 3) := vbb [r] (lead3 hr) e2 h2 (q + 1) (by omega) 0 (by omega) j hj
      simp only [Nat.zero_mul, Nat.zero_add] at w
      rw [Nat.zero_mul, Nat.zero_add]
      exact Prod.ext (w 0 (by omega)) (Prod.ext (w 1 (by omega)) (w 2 (by omega)))
    rw [h.pn] at hv1 hv0
    have t := triple_itfI p c.cart c.gnom 0 e2 hq hn hj
    constructor
    · refine topoFloor_get (z := height 0 p.ztop (etaOf p.nz p.xs 0 0)) f b _ ((hv1.trans t.1).trans ?_)
      rw [h.cn]
      exact toPolar_triple p _ _ (e.2.1.trans e.1) hp
    · refine topoFloor_get (z := height 0 p.ztop (etaOf p.nz p.xs 0 0)) f b _ ((hv0.trans t.2).trans ?_)
      rw [h.cn]
      exact toPolar_triple p _ _ (e.2.2.trans e.1) hp
  have wj : ∀ q ≤ p.ny, ∀ e1 < p.nx, ∀ i < p.n, (topoFloor f d).get [q, e1, p.n + i] = gj p f q (e1 * p.n + i) ∧
      (topoFloor f d).get [q + 1, e1, i] = gj p f q (e1 * p.n + i) := by
    intro q hq e1 h1 i hi
    have e := h.itfJ 0 hz q hq e1 h1 0 hn i hi
    have hv1 : triple d [q, e1, p.n + i] = triple c.polar.itfJ [0, q, e1, p.n ^ 2 + (0 * p.n + i)] := by
      have w (r : Nat) (hr : r < 3) := vd [r] (lead3 hr) q (by omega) e1 h1 1 (by omega) i hi
      simp only [Nat.one_mul] at w
      exact Prod.ext (w 0 (by omega)) (Prod.ext (w 1 (by omega)) (w 2 (by omega)))
    have hv0 : triple d [q + 1, e1, i] = triple c.polar.itfJ [0, q + 1, e1, 0 * p.n + i] := by
      have w (r : Nat) (hr : r < 3) := vd [r] (lead3 hr) (q + 1) (by omega) e1 h1 0 (by omega) i hi
      simp only [Nat.zero_mul, Nat.zero_add] at w
      rw [Nat.zero_mul, Nat.zero_add]
      exact Prod.ext (w 0 (by omega)) (Prod.ext (w 1 (by omega)) (w 2 (by omega)))
    rw [h.pn] at hv1 hv0
    have t := triple_itfJ p c.cart c.gnom 0 e1 hq hn hi
    constructor
    · refine topoFloor_get (z := height 0 p.ztop (etaOf p.nz p.xs 0 0)) f d _ ((hv1.trans t.1).trans ?_)
      rw [h.cn]
      exact toPolar_triple p _ _ (e.2.1.trans e.1) hp
    · refine topoFloor_get (z := height 0 p.ztop (etaOf p.nz p.xs 0 0)) f d _ ((hv0.trans t.2).trans ?_)
      rw [h.cn]
      exact toPolar_triple p _ _ (e.2.2.trans e.1) hp
  -- the arrays with cleared outer sides
  obtain ⟨zi, hzi⟩ : ∃ z, z = assignConst [.one (p.nx + 1), .range p.n (p.n * 2)] 0 (assignConst [.one 0, .range 0 p.n] 0 (topoFloor f b)) := ⟨_, rfl⟩
  obtain ⟨zj, hzj⟩ : ∃ z, z = assignConst [.one (p.ny + 1), .all, .range p.n (p.n * 2)] 0
    (assignConst [.one 0, .all, .range 0 p.n] 0 (topoFloor f d)) := ⟨_, rfl⟩
  have gzi (x q y : Nat) : zi.get [x, q, y] = if q = p.nx + 1 ∧ p.n ≤ y ∧ y < p.n * 2 then 0 else
      if q = 0 ∧ 0 ≤ y ∧ y < p.n then 0 else (topoFloor f b).get [x, q, y] := by
    rw [hzi]
    refine (assignConst_or _ _ _ _ _ _ _ [x]).trans ?_
    rw [assignConst_or]; rfl
  have gzj (q x y : Nat) : zj.get [q, x, y] = if q = p.ny + 1 ∧ p.n ≤ y ∧ y < p.n * 2 then 0 else
      if q = 0 ∧ 0 ≤ y ∧ y < p.n then 0 else (topoFloor f d).get [q, x, y] := by
    rw [hzj]
    refine (assignConst_oar _ _ _ _ _ _ _ _ []).trans ?_
    rw [assignConst_oar]; rfl
  have ui : ∀ e2 < p.ny, ∀ q ≤ p.nx, ∀ j < p.n, zi.get [e2, q, p.n + j] = gi p f (e2 * p.n + j) q ∧ zi.get [e2, q + 1, j] = gi p f (e2 * p.n + j) q := by
    intro e2 h2 q hq j hj
    have w := wi e2 h2 q hq j hj
    constructor
    · rw [gzi, if_neg (by omega), if_neg (by omega), w.1]
    · rw [gzi, if_neg (by omega), if_neg (by omega), w.2]
  have uj : ∀ q ≤ p.ny, ∀ e1 < p.nx, ∀ i < p.n, zj.get [q, e1, p.n + i] = gj p f q (e1 * p.n + i) ∧ zj.get [q + 1, e1, i] = gj p f q (e1 * p.n + i) := by
    intro q hq e1 h1 i hi
    have w := wj q hq e1 h1 i hi
    constructor
    · rw [gzj, if_neg (by omega), if_neg (by omega), w.1]
    · rw [gzj, if_neg (by omega), if_neg (by omega), w.2]
  -- shapes
  have sPb : c.polarBlock.sol.shape = [3, p.nz * p.n, p.ny * p.n, p.nx * p.n] := by rw [h.pb, h.cb]; exact h.shb
  have sPbi : c.polarBlock.itfI.shape = [3, p.nz * p.n, p.ny * p.n, p.nx + 1] := by rw [h.pb, h.cb]; exact h.shbi
  have sPbj : c.polarBlock.itfJ.shape = [3, p.nz * p.n, p.ny + 1, p.nx * p.n] := by rw [h.pb, h.cb]; exact h.shbj
  have szb : (topoBlock f c.polarBlock.sol).shape = [p.ny * p.n, p.nx * p.n] := by
    show (select _ c.polarBlock.sol).shape = _
    unfold select
    dsimp only
    rw [sPb]; rfl
  have szbi : (topoBlock f c.polarBlock.itfI).shape = [p.ny * p.n, p.nx + 1] := by
    show (select _ c.polarBlock.itfI).shape = _
    unfold select
    dsimp only
    rw [sPbi]; rfl
  have szbj : (topoBlock f c.polarBlock.itfJ).shape = [p.ny + 1, p.nx * p.n] := by
    show (select _ c.polarBlock.itfJ).shape = _
    unfold select
    dsimp only
    rw [sPbj]; rfl
  have sz : (topoFloor f a).shape = [p.ny, p.nx, p.n ^ 2] := by
    show a.shape.drop 1 = _
    rw [sa]; rfl
  have szi : zi.shape = [p.ny, p.nx + 2, p.n * 2] := by
    rw [hzi]
    show b.shape.drop 1 = _
    rw [sb]; rfl
  have szj : zj.shape = [p.ny + 2, p.nx, p.n * 2] := by
    rw [hzj]
    show d.shape.drop 1 = _
    rw [sd]; rfl
  obtain ⟨r, hr0, -, vr⟩ := C40_to_new_floor p.nx p.ny p.n [] _ szb
  obtain ⟨ri, hri, -, vri⟩ := C40_itf_i_floor p.nx p.ny p.n [] _ szbi
  obtain ⟨rj, hrj, -, vrj⟩ := C40_itf_j_floor p.nx p.ny p.n [] _ szbj
  have n0 : norm (sub (topoFloor f a) r) = 0 := by
    apply norm_sub_zero
    intro idx hidx
    rw [sz] at hidx
    match idx, hidx with
    | [e2, e1, q], hidx =>
      simp only [valid_cons] at hidx
      obtain ⟨h2, h1, hq, -⟩ := hidx
      rw [pow_two] at hq
      obtain ⟨j, hj, i, hi, rfl⟩ := split_lt hq
      rw [wf e2 h2 e1 h1 j hj i hi]
      exact ((vr [] valid_nil e2 h2 e1 h1 j hj i hi).trans (vb e2 h2 e1 h1 j hj i hi)).symm
    | [], hi => exact absurd hi.length (by simp)
    | [_], hi => exact absurd hi.length (by simp)
    | [_, _], hi => exact absurd hi.length (by simp)
    | _ :: _ :: _ :: _ :: _, hi => exact absurd hi.length (by simp)
  have n1 : norm (sub zi ri) = 0 := by
    apply norm_sub_zero
    intro idx hidx
    rw [szi] at hidx
    match idx, hidx with
    | [e2, q, y], hidx =>
      simp only [valid_cons] at hidx
      obtain ⟨h2, hq, hy2, -⟩ := hidx
      by_cases hyn : y < p.n
      · obtain ⟨v1, v2, v3⟩ := vri [] valid_nil e2 h2 y hyn
        rcases q with _ | q
        · rw [gzi, if_neg (by omega), if_pos (by omega)]; exact v2.symm
        · rw [(ui e2 h2 q (by omega) y hyn).2]
          exact ((v1 q (by omega)).2.trans (vbi e2 h2 q (by omega) y hyn)).symm
      · obtain ⟨j, rfl⟩ : ∃ j, y = p.n + j := ⟨y - p.n, by omega⟩
        have hj : j < p.n := by omega
        obtain ⟨v1, v2, v3⟩ := vri [] valid_nil e2 h2 j hj
        by_cases hqx : q ≤ p.nx
        · rw [(ui e2 h2 q hqx j hj).1]
          exact ((v1 q hqx).1.trans (vbi e2 h2 q hqx j hj)).symm
        · obtain rfl : q = p.nx + 1 := by omega
          rw [gzi, if_pos (by omega)]; exact v3.symm
    | [], hi => exact absurd hi.length (by simp)
    | [_], hi => exact absurd hi.length (by simp)
    | [_, _], hi => exact absurd hi.length (by simp)
    | _ :: _ :: _ :: _ :: _, hi => exact absurd hi.length (by simp)
  have n2 : norm (sub zj rj) = 0 := by
    apply norm_sub_zero
    intro idx hidx
    rw [szj] at hidx
    match idx, hidx with
    | [q, e1, y], hidx =>
      simp only [valid_cons] at hidx
      obtain ⟨hq, h1, hy2, -⟩ := hidx
      by_cases hyn : y < p.n
      · obtain ⟨v1, v2, v3⟩ := vrj [] valid_nil e1 h1 y hyn
        rcases q with _ | q
        · rw [gzj, if_neg (by omega), if_pos (by omega)]; exact v2.symm
        · rw [(uj q (by omega) e1 h1 y hyn).2]
          exact ((v1 q (by omega)).2.trans (vbj q (by omega) e1 h1 y hyn)).symm
      · obtain ⟨j, rfl⟩ : ∃ j, y = p.n + j := ⟨y - p.n, by omega⟩
        have hj : j < p.n := by omega
        obtain ⟨v1, v2, v3⟩ := vrj [] valid_nil e1 h1 j hj
        by_cases hqx : q ≤ p.ny
        · rw [(uj q hqx e1 h1 j hj).1]
          exact ((v1 q hqx).1.trans (vbj q hqx e1 h1 j hj)).symm
        · obtain rfl : q = p.ny + 1 := by omega
          rw [gzj, if_pos (by omega)]; exact v3.symm
    | [], hi => exact absurd hi.length (by simp)
    | [_], hi => exact absurd hi.length (by simp)
    | [_, _], hi => exact absurd hi.length (by simp)
    | _ :: _ :: _ :: _ :: _, hi => exact absurd hi.length (by simp)
  refine ⟨⟨some (topoBlock f c.polarBlock.sol), some (topoBlock f c.polarBlock.itfI), some (topoBlock f c.polarBlock.itfJ),
    some (topoFloor f a), some zi, some zj⟩, _, _, _, _, _, _, ?_, ⟨⟨rfl, rfl, rfl⟩, ⟨rfl, rfl, rfl, sz, szi, szj⟩, ?_, ?_, ?_, wf, ui, uj⟩⟩
  · unfold terrainOf
    rw [ha, hb, hd]
    dsimp only
    rw [hr0, hri, hrj]
    dsimp only
    rw [← hzi, ← hzj, n0, n1, n2, if_neg (by simp)]
  · intro y hy2 x hx2
    obtain ⟨e2, h2, j, hj, rfl⟩ := split_lt hy2
    obtain ⟨e1, h1, i, hi, rfl⟩ := split_lt hx2
    exact vb e2 h2 e1 h1 j hj i hi
  · intro y hy2 q hq
    obtain ⟨e2, h2, j, hj, rfl⟩ := split_lt hy2
    exact vbi e2 h2 q hq j hj
  · intro q hq x hx2
    obtain ⟨e1, h1, i, hi, rfl⟩ := split_lt hx2
    exact vbj q hq e1 h1 i hi

/-- The grid with a terrain is built, and both layouts hold the ground at the columns and at the interfaces. -/
theorem terrainGrid_built (hx : 0 < p.nx) (hy : 0 < p.ny) (hz : 0 < p.nz) (hn : 0 < p.n) (hin : ∀ x ∈ p.xs, -1 < x ∧ x < 1)
    (hr : 0 < p.radius) (ht : 0 < p.radius + p.ztop) (junk : List Nat → ℝ) (f : ℝ → ℝ → ℝ) :
    ∃ c, terrainGrid p junk f = some c ∧ Built p (gs p f) (gi p f) (gj p f) c := by
  obtain ⟨g, hg, hb⟩ := flatGrid_built p hx hy hin junk
  obtain ⟨t, zb, zbi, zbj, zf, zi, zj, hto, hfl⟩ := terrainOf_floors hx hy hz hn hin hr ht f hb
  obtain ⟨c, hc, hbc⟩ := setTerrain_built p hx hy hin junk t _ _ _ _ _ _ _ _ _ hfl
  refine ⟨c, ?_, hbc⟩
  unfold terrainGrid
  rw [hg]; dsimp only
  rw [hto]
  exact hc

end WxVerif.Coord3
