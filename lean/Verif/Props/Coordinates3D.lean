import Verif.Lemmas.Coordinates3D
import Verif.Model.InitAtmosphere

/-!
# C96: where the points of the 3D cubed-sphere grid are

Every coordinate array of the grid, in both layouts, describes the point it is supposed to describe: the specification is `Spec/Grid3D.lean`.
-/

namespace WxVerif.Props.Coordinates3D

open Real
open WxVerif.Cube (V3)
open WxVerif.Nd WxVerif.Layout WxVerif.Terrain WxVerif.Sphere WxVerif.Grid3 WxVerif.Coord3
open WxVerif.Props.Terrain WxVerif.Props.Winds

/-- A grid that can be built, and a terrain above the centre of the planet: positive numbers of elements and points, points inside the
elements, a lid that is not below the reference sphere. -/
structure Sensible (p : Params) (f : ℝ → ℝ → ℝ) : Prop where
  nx : 0 < p.nx
  ny : 0 < p.ny
  nz : 0 < p.nz
  n : 0 < p.n
  points : ∀ x ∈ p.xs, -1 < x ∧ x < 1
  radius : 0 < p.radius
  lid : 0 ≤ p.ztop
  ground : ∀ lon lat, -p.radius < f lon lat

/-- the arrays `g`, `c`, `s` of gnomonic, Cartesian and polar coordinates hold at index `idx` the point with coordinates `x1`, `x2`, `η` -/
def Holds (p : Params) (f : ℝ → ℝ → ℝ) (g c s : Arr ℝ) (idx : List Nat) (x1 x2 η : ℝ) : Prop :=
  IsPlace p.radius p.ztop f (gaze p.o.lon p.o.lat p.o.ang x1 x2) x1 x2 η (g.get (0 :: idx), g.get (1 :: idx), g.get (2 :: idx))
    (c.get (0 :: idx), c.get (1 :: idx), c.get (2 :: idx)) (s.get (0 :: idx), s.get (1 :: idx), s.get (2 :: idx))

theorem position_gaze (o : Orientation) (x1 x2 : ℝ) : position o 1 x1 x2 = gaze o.lon o.lat o.ang x1 x2 := by
  unfold position gaze Geom.upUnit Geom.eastUnit Geom.northUnit cart delta delta2
  simp only [Prod.smul_mk, Prod.mk_add_mk, Prod.mk_sub_mk, smul_eq_mul, Prod.mk.injEq]
  refine ⟨?_, ?_, ?_⟩ <;> ring

theorem level_eq (nz : Nat) (xs : List ℝ) (e k : Nat) : etaOf nz xs e k = level nz e (xs.getD k 0) := rfl

theorem level_itf (nz f : Nat) : (f : ℝ) / nz = level nz f (-1) := by unfold level; norm_num

variable {p : Params} {f : ℝ → ℝ → ℝ}

theorem Sensible.pos (h : Sensible p f) {X Y η : ℝ} (h0 : 0 ≤ η) (h1 : η ≤ 1) : 0 < p.radius + height (Coord3.ground p f X Y) p.ztop η := by
  have := h.ground (pointLon p.o 1 X Y) (pointLat p.o 1 X Y)
  have h2 := h.radius
  have h3 := h.lid
  exact height_pos (by unfold Coord3.ground; linarith) (by linarith) h0 h1

theorem Sensible.built (h : Sensible p f) (junk : List Nat → ℝ) : ∃ C, terrainGrid p junk f = some C ∧ Built p (gs p f) (gi p f) (gj p f) C := by
  have h2 := h.radius
  have h3 := h.lid
  exact terrainGrid_built h.nx h.ny h.nz h.n h.points h.radius (by linarith) junk f

theorem holds_of (g s : Arr ℝ) (idx : List Nat) {x1 x2 η : ℝ} (hg : triple g idx = (tan x1, tan x2, height (ground p f (tan x1) (tan x2)) p.ztop η))
    (hs : triple s idx = triple (toPolar (toCartesian p g) g) idx) (hr : 0 < p.radius + height (ground p f (tan x1) (tan x2)) p.ztop η) :
    Holds p f g (toCartesian p g) s idx x1 x2 η := by
  have := place_of_gnom p f g s idx hg hs hr
  rw [position_gaze] at this
  exact this

/-- **C96** Every solution point, in the block layout and in the element layout, is the point of its element and of its place in the element,
above the terrain at its own longitude and latitude; the gnomonic, Cartesian and polar arrays describe the same point. -/
theorem C96_points (h : Sensible p f) (junk : List Nat → ℝ) :
    ∃ C, terrainGrid p junk f = some C ∧
      ∀ e3 < p.nz, ∀ e2 < p.ny, ∀ e1 < p.nx, ∀ k < p.n, ∀ j < p.n, ∀ i < p.n,
        let x1 := equi p.lines p.col p.nx e1 (p.xs.getD i 0)
        let x2 := equi p.lines p.row p.ny e2 (p.xs.getD j 0)
        let η := level p.nz e3 (p.xs.getD k 0)
        Holds p f C.gnomBlock.sol C.cartBlock.sol C.polarBlock.sol [e3 * p.n + k, e2 * p.n + j, e1 * p.n + i] x1 x2 η ∧
        Holds p f C.gnom.sol C.cart.sol C.polar.sol [e3, e2, e1, (k * p.n + j) * p.n + i] x1 x2 η := by
  obtain ⟨C, hC, b⟩ := h.built junk
  refine ⟨C, hC, ?_⟩
  intro e3 h3 e2 h2 e1 h1 k hk j hj i hi
  have hη := etaOf_mem h.points h3 k
  have e := b.sol e3 h3 e2 h2 e1 h1 k hk j hj i hi
  unfold gs at e
  rw [x1_get p h.points h1 hi, x2_get p h.points h2 hj] at e
  refine ⟨?_, ?_⟩
  · rw [b.pb, b.cb]
    exact holds_of _ _ _ e.1 rfl (h.pos hη.1 hη.2)
  · rw [b.pn, b.cn]
    exact holds_of _ _ _ (e.2.trans e.1) rfl (h.pos hη.1 hη.2)

/-- **C96** Every west-east interface point, in the block layout and on both sides of the interface in the element layout. -/
theorem C96_west_east (h : Sensible p f) (junk : List Nat → ℝ) :
    ∃ C, terrainGrid p junk f = some C ∧
      ∀ e3 < p.nz, ∀ e2 < p.ny, ∀ q ≤ p.nx, ∀ k < p.n, ∀ j < p.n,
        let x1 := equi p.lines p.col p.nx q (-1)
        let x2 := equi p.lines p.row p.ny e2 (p.xs.getD j 0)
        let η := level p.nz e3 (p.xs.getD k 0)
        Holds p f C.gnomBlock.itfI C.cartBlock.itfI C.polarBlock.itfI [e3 * p.n + k, e2 * p.n + j, q] x1 x2 η ∧
        Holds p f C.gnom.itfI C.cart.itfI C.polar.itfI [e3, e2, q, p.n ^ 2 + (k * p.n + j)] x1 x2 η ∧
        Holds p f C.gnom.itfI C.cart.itfI C.polar.itfI [e3, e2, q + 1, k * p.n + j] x1 x2 η := by
  obtain ⟨C, hC, b⟩ := h.built junk
  refine ⟨C, hC, ?_⟩
  intro e3 h3 e2 h2 q hq k hk j hj
  have hη := etaOf_mem h.points h3 k
  have e := b.itfI e3 h3 e2 h2 q hq k hk j hj
  have t := triple_itfI p C.cart C.gnom e3 e2 hq hk hj
  unfold gi x1ItfI at e
  rw [boundary_eq, x2_get p h.points h2 hj] at e
  rw [b.cn] at t
  refine ⟨?_, ?_, ?_⟩
  · rw [b.pb, b.cb]
    exact holds_of _ _ _ e.1 rfl (h.pos hη.1 hη.2)
  · rw [b.pn, b.cn]
    exact holds_of _ _ _ (e.2.1.trans e.1) t.1 (h.pos hη.1 hη.2)
  · rw [b.pn, b.cn]
    exact holds_of _ _ _ (e.2.2.trans e.1) t.2 (h.pos hη.1 hη.2)

/-- **C96** Every south-north interface point, in the block layout and on both sides of the interface in the element layout. -/
theorem C96_south_north (h : Sensible p f) (junk : List Nat → ℝ) :
    ∃ C, terrainGrid p junk f = some C ∧
      ∀ e3 < p.nz, ∀ q ≤ p.ny, ∀ e1 < p.nx, ∀ k < p.n, ∀ i < p.n,
        let x1 := equi p.lines p.col p.nx e1 (p.xs.getD i 0)
        let x2 := equi p.lines p.row p.ny q (-1)
        let η := level p.nz e3 (p.xs.getD k 0)
        Holds p f C.gnomBlock.itfJ C.cartBlock.itfJ C.polarBlock.itfJ [e3 * p.n + k, q, e1 * p.n + i] x1 x2 η ∧
        Holds p f C.gnom.itfJ C.cart.itfJ C.polar.itfJ [e3, q, e1, p.n ^ 2 + (k * p.n + i)] x1 x2 η ∧
        Holds p f C.gnom.itfJ C.cart.itfJ C.polar.itfJ [e3, q + 1, e1, k * p.n + i] x1 x2 η := by
  obtain ⟨C, hC, b⟩ := h.built junk
  refine ⟨C, hC, ?_⟩
  intro e3 h3 q hq e1 h1 k hk i hi
  have hη := etaOf_mem h.points h3 k
  have e := b.itfJ e3 h3 q hq e1 h1 k hk i hi
  have t := triple_itfJ p C.cart C.gnom e3 e1 hq hk hi
  unfold gj x2ItfJ at e
  rw [boundary_eq, x1_get p h.points h1 hi] at e
  rw [b.cn] at t
  refine ⟨?_, ?_, ?_⟩
  · rw [b.pb, b.cb]
    exact holds_of _ _ _ e.1 rfl (h.pos hη.1 hη.2)
  · rw [b.pn, b.cn]
    exact holds_of _ _ _ (e.2.1.trans e.1) t.1 (h.pos hη.1 hη.2)
  · rw [b.pn, b.cn]
    exact holds_of _ _ _ (e.2.2.trans e.1) t.2 (h.pos hη.1 hη.2)

/-- **C96** Every vertical interface point, in the block layout and on both sides of the interface in the element layout: the lowest ones lie on
the terrain and the highest ones on the lid. -/
theorem C96_vertical (h : Sensible p f) (junk : List Nat → ℝ) :
    ∃ C, terrainGrid p junk f = some C ∧
      ∀ q ≤ p.nz, ∀ e2 < p.ny, ∀ e1 < p.nx, ∀ j < p.n, ∀ i < p.n,
        let x1 := equi p.lines p.col p.nx e1 (p.xs.getD i 0)
        let x2 := equi p.lines p.row p.ny e2 (p.xs.getD j 0)
        let η := level p.nz q (-1)
        Holds p f C.gnomBlock.itfK C.cartBlock.itfK C.polarBlock.itfK [q, e2 * p.n + j, e1 * p.n + i] x1 x2 η ∧
        Holds p f C.gnom.itfK C.cart.itfK C.polar.itfK [q, e2, e1, p.n ^ 2 + (j * p.n + i)] x1 x2 η ∧
        Holds p f C.gnom.itfK C.cart.itfK C.polar.itfK [q + 1, e2, e1, j * p.n + i] x1 x2 η := by
  obtain ⟨C, hC, b⟩ := h.built junk
  refine ⟨C, hC, ?_⟩
  intro q hq e2 h2 e1 h1 j hj i hi
  have hz : (0 : ℝ) < p.nz := by exact_mod_cast h.nz
  have hη : 0 ≤ level p.nz q (-1) ∧ level p.nz q (-1) ≤ 1 := by
    rw [← level_itf]
    exact ⟨by positivity, by rw [div_le_one hz]; exact_mod_cast hq⟩
  have e := b.itfK q hq e2 h2 e1 h1 j hj i hi
  have t := triple_itfK p C.cart C.gnom e2 e1 hq hj hi
  unfold gs at e
  rw [x1_get p h.points h1 hi, x2_get p h.points h2 hj, level_itf] at e
  rw [b.cn] at t
  refine ⟨?_, ?_, ?_⟩
  · rw [b.pb, b.cb]
    exact holds_of _ _ _ e.1 rfl (h.pos hη.1 hη.2)
  · rw [b.pn, b.cn]
    exact holds_of _ _ _ (e.2.1.trans e.1) t.1 (h.pos hη.1 hη.2)
  · rw [b.pn, b.cn]
    exact holds_of _ _ _ (e.2.2.trans e.1) t.2 (h.pos hη.1 hη.2)

/-- `lon`, `lat` are the longitude and latitude of the direction `d`, in the ranges the code uses -/
def IsLonLat (lon lat : ℝ) (d : V3 ℝ) : Prop := 0 ≤ lon ∧ lon < 2 * π ∧ |lat| ≤ π / 2 ∧ d = Geom.upUnit lon lat

theorem Holds.lonLat {g c s : Arr ℝ} {idx : List Nat} {x1 x2 η : ℝ} (hh : Holds p f g c s idx x1 x2 η) (hr : p.radius + s.get (2 :: idx) ≠ 0) :
    IsLonLat (s.get (0 :: idx)) (s.get (1 :: idx)) (gaze p.o.lon p.o.lat p.o.ang x1 x2) := by
  obtain ⟨h1, h2, h3, -, -, h6, h7⟩ := hh
  exact ⟨h1, h2, h3, smul_right_injective _ hr (h7.symm.trans h6)⟩

theorem transpose_pair (a : Arr ℝ) (h : a.shape.length = 2) (x y : Nat) : (transpose [1, 0] a).get [x, y] = a.get [y, x] := by
  unfold transpose; dsimp only; rw [h]; rfl

theorem selI {C : Coords} {s si sj : Nat → Nat → ℝ} (b : Built p s si sj C) (k : Nat) :
    (select [.one k, .one 0, .all, .all] C.polarBlock.itfI).shape.length = 2 := by
  have sh : C.polarBlock.itfI.shape = [3, p.nz * p.n, p.ny * p.n, p.nx + 1] := by rw [b.pb, b.cb]; exact b.shbi
  unfold select; dsimp only; rw [sh]; rfl

/-- **C96** The horizontal arrays `lon` and `lat` are those of the columns; the ones at west-east interfaces are transposed, with the interface
first. -/
theorem C96_longitudes (h : Sensible p f) (junk : List Nat → ℝ) :
    ∃ C, terrainGrid p junk f = some C ∧
      (∀ e2 < p.ny, ∀ e1 < p.nx, ∀ j < p.n, ∀ i < p.n,
        IsLonLat (C.lon.get [e2 * p.n + j, e1 * p.n + i]) (C.lat.get [e2 * p.n + j, e1 * p.n + i])
          (gaze p.o.lon p.o.lat p.o.ang (equi p.lines p.col p.nx e1 (p.xs.getD i 0)) (equi p.lines p.row p.ny e2 (p.xs.getD j 0)))) ∧
      (∀ e2 < p.ny, ∀ q ≤ p.nx, ∀ j < p.n,
        IsLonLat (C.lonItfI.get [q, e2 * p.n + j]) (C.latItfI.get [q, e2 * p.n + j])
          (gaze p.o.lon p.o.lat p.o.ang (equi p.lines p.col p.nx q (-1)) (equi p.lines p.row p.ny e2 (p.xs.getD j 0)))) ∧
      (∀ q ≤ p.ny, ∀ e1 < p.nx, ∀ i < p.n,
        IsLonLat (C.lonItfJ.get [q, e1 * p.n + i]) (C.latItfJ.get [q, e1 * p.n + i])
          (gaze p.o.lon p.o.lat p.o.ang (equi p.lines p.col p.nx e1 (p.xs.getD i 0)) (equi p.lines p.row p.ny q (-1)))) := by
  obtain ⟨C, hC, b⟩ := h.built junk
  obtain ⟨C1, hC1, v1⟩ := C96_points h junk
  obtain ⟨C2, hC2, v2⟩ := C96_west_east h junk
  obtain ⟨C3, hC3, v3⟩ := C96_south_north h junk
  obtain rfl : C = C1 := Option.some.inj (hC.symm.trans hC1)
  obtain rfl : C = C2 := Option.some.inj (hC.symm.trans hC2)
  obtain rfl : C = C3 := Option.some.inj (hC.symm.trans hC3)
  have hη := etaOf_mem h.points h.nz 0
  refine ⟨C, hC, ?_, ?_, ?_⟩
  · intro e2 h2 e1 h1 j hj i hi
    have v := (v1 0 h.nz e2 h2 e1 h1 0 h.n j hj i hi).1
    have e := (b.sol 0 h.nz e2 h2 e1 h1 0 h.n j hj i hi).1
    rw [Nat.zero_mul, Nat.zero_add] at v e
    rw [b.ll.1, b.ll.2]
    have hz : C.polarBlock.sol.get (2 :: [0, e2 * p.n + j, e1 * p.n + i]) = (triple C.gnomBlock.sol [0, e2 * p.n + j, e1 * p.n + i]).2.2 := by rw [b.pb]; rfl
    rw [e] at hz
    have w := Holds.lonLat v (by rw [hz]; exact (h.pos hη.1 hη.2).ne')
    exact w
  · intro e2 h2 q hq j hj
    have v := (v2 0 h.nz e2 h2 q hq 0 h.n j hj).1
    have e := (b.itfI 0 h.nz e2 h2 q hq 0 h.n j hj).1
    rw [Nat.zero_mul, Nat.zero_add] at v e
    rw [b.lli.1, b.lli.2, transpose_pair _ (selI b _), transpose_pair _ (selI b _)]
    have hz : C.polarBlock.itfI.get (2 :: [0, e2 * p.n + j, q]) = (triple C.gnomBlock.itfI [0, e2 * p.n + j, q]).2.2 := by rw [b.pb]; rfl
    rw [e] at hz
    have w := Holds.lonLat v (by rw [hz]; exact (h.pos hη.1 hη.2).ne')
    exact w
  · intro q hq e1 h1 i hi
    have v := (v3 0 h.nz q hq e1 h1 0 h.n i hi).1
    have e := (b.itfJ 0 h.nz q hq e1 h1 0 h.n i hi).1
    rw [Nat.zero_mul, Nat.zero_add] at v e
    rw [b.llj.1, b.llj.2]
    have hz : C.polarBlock.itfJ.get (2 :: [0, q, e1 * p.n + i]) = (triple C.gnomBlock.itfJ [0, q, e1 * p.n + i]).2.2 := by rw [b.pb]; rfl
    rw [e] at hz
    have w := Holds.lonLat v (by rw [hz]; exact (h.pos hη.1 hη.2).ne')
    exact w

/-- **C96** The arrays of gnomonic coordinates along the edges of the tile, used to convert winds between panels: the entry of element `e`, level
`k`, point `i` is the coordinate of point `i` of element `e`, whatever the level. -/
theorem C96_boundaries (p : Params) (hin : ∀ x ∈ p.xs, -1 < x ∧ x < 1) :
    (∀ e < p.nx, ∀ k < p.n, ∀ i < p.n, (boundarySnNew p).get [e, k, i] = tan (equi p.lines p.col p.nx e (p.xs.getD i 0))) ∧
    (∀ e < p.ny, ∀ k < p.n, ∀ j < p.n, (boundaryWeNew p).get [e, k, j] = tan (equi p.lines p.row p.ny e (p.xs.getD j 0))) := by
  have key (a : Arr ℝ) (num : Nat) (ha : a.shape = [num * p.n]) {e k i : Nat} (he : e < num) (hk : k < p.n) (hi : i < p.n) :
      (reshape [num, p.n, p.n] (tile [1, p.n] (reshape [num, p.n] a))).get [e, k, i] = a.get [e * p.n + i] := by
    have hc := sq_cell hk hi
    rw [pow_two] at hc
    rw [reshape_get (s := [1 * num, p.n * p.n]) (idx' := [e, k * p.n + i]) _ rfl
      (valid_cons.mpr ⟨by omega, valid_cons.mpr ⟨hc, valid_nil⟩⟩) (by simp [ravel, size])]
    have hm : (tile [1, p.n] (reshape [num, p.n] a)).get [e, k * p.n + i] = (reshape [num, p.n] a).get [e % num, (k * p.n + i) % p.n] := rfl
    rw [hm, Nat.mod_eq_of_lt he, Nat.add_comm, Nat.add_mul_mod_self_right, Nat.mod_eq_of_lt hi]
    exact reshape_get a ha (valid_cons.mpr ⟨Layout.cell he hi, valid_nil⟩) (by simp [ravel, size])
  constructor
  · intro e he k hk i hi
    refine (key _ p.nx rfl he hk hi).trans ?_
    rw [← x1_get p hin he hi]; rfl
  · intro e he k hk j hj
    refine (key _ p.ny rfl he hk hj).trans ?_
    rw [← x2_get p hin he hj]; rfl

theorem tiles_meet (lines pos num num' : Nat) (hn : 0 < num) : equi lines pos num num (-1) = equi lines (pos + 1) num' 0 (-1) := by
  have h1 : (num : ℝ) ≠ 0 := by exact_mod_cast hn.ne'
  unfold equi
  push_cast; rw [show ((num : ℝ) + (1 + -1) / 2) = num by ring, div_self h1]; ring

/-- **C96** Tiles meet: neighbouring tiles of one panel, with any numbers of elements, share their common edge, and the tiles of a panel cover
`[-π/4, π/4]`. -/
theorem C96_tiles_meet (lines pos num num' : Nat) (hn : 0 < num) (hl : 0 < lines) :
    equi lines pos num num (-1) = equi lines (pos + 1) num' 0 (-1) ∧ equi lines 0 num 0 (-1) = -(π / 4) ∧ equi lines (lines - 1) num num (-1) = π / 4 := by
  have h1 : (num : ℝ) ≠ 0 := by exact_mod_cast hn.ne'
  have h2 : (lines : ℝ) ≠ 0 := by exact_mod_cast hl.ne'
  unfold equi
  refine ⟨?_, ?_, ?_⟩
  · push_cast; rw [show ((num : ℝ) + (1 + -1) / 2) = num by ring, div_self h1]; ring
  · push_cast; norm_num
  · rw [Nat.cast_sub (by omega)]
    push_cast
    rw [show ((num : ℝ) + (1 + -1) / 2) = num by ring, div_self h1, show ((lines : ℝ) - 1 + 1) = lines by ring]
    field_simp
    ring

/-- the same grid at another place of the panel -/
def tileAt (p : Params) (col row : Nat) : Params := { p with col := col, row := row }

theorem toCartesian_congr {p q : Params} {g g' : Arr ℝ} {i i' : List Nat} (e : triple g i = triple g' i') (ho : p.o = q.o := by rfl)
    (hr : p.radius = q.radius := by rfl) : triple (toCartesian p g) i = triple (toCartesian q g') i' := by
  simp only [triple, Prod.mk.injEq] at e
  rw [toCartesian_triple p g i rfl, toCartesian_triple q g' i' rfl, e.1, e.2.1, e.2.2, ho, hr]

theorem toPolar_congr {p q : Params} {g g' : Arr ℝ} {i i' : List Nat} (e : triple g i = triple g' i') (ho : p.o = q.o := by rfl)
    (hr : p.radius = q.radius := by rfl) : triple (toPolar (toCartesian p g) g) i = triple (toPolar (toCartesian q g') g') i' := by
  have hc := toCartesian_congr e ho hr
  have t (c g : Arr ℝ) (i : List Nat) : triple (toPolar c g) i = ((cart2sph (triple c i)).1, (cart2sph (triple c i)).2.1, (triple g i).2.2) := rfl
  rw [t, t, hc, e]

theorem same_point {m : Nat} (hm : m < 3) {g g' c c' s s' : Arr ℝ} {i i' : List Nat} (hg : triple g i = triple g' i') (hc : triple c i = triple c' i')
    (hs : triple s i = triple s' i') : g.get (m :: i) = g'.get (m :: i') ∧ c.get (m :: i) = c'.get (m :: i') ∧ s.get (m :: i) = s'.get (m :: i') := by
  simp only [triple, Prod.mk.injEq] at hg hc hs
  interval_cases m
  · exact ⟨hg.1, hc.1, hs.1⟩
  · exact ⟨hg.2.1, hc.2.1, hs.2.1⟩
  · exact ⟨hg.2.2, hc.2.2, hs.2.2⟩

/-- **C96** The last column of interface points of a tile and the first one of its eastern neighbour are the same points: all nine numbers agree,
from whichever side each tile looks. -/
theorem C96_neighbours_east (h : Sensible p f) (junk : List Nat → ℝ) :
    ∃ C D, terrainGrid p junk f = some C ∧ terrainGrid (tileAt p (p.col + 1) p.row) junk f = some D ∧
      ∀ e3 < p.nz, ∀ e2 < p.ny, ∀ k < p.n, ∀ j < p.n, ∀ m < 3,
        C.gnom.itfI.get [m, e3, e2, p.nx + 1, k * p.n + j] = D.gnom.itfI.get [m, e3, e2, 0, p.n ^ 2 + (k * p.n + j)] ∧
        C.cart.itfI.get [m, e3, e2, p.nx + 1, k * p.n + j] = D.cart.itfI.get [m, e3, e2, 0, p.n ^ 2 + (k * p.n + j)] ∧
        C.polar.itfI.get [m, e3, e2, p.nx + 1, k * p.n + j] = D.polar.itfI.get [m, e3, e2, 0, p.n ^ 2 + (k * p.n + j)] := by
  have h' : Sensible (tileAt p (p.col + 1) p.row) f := ⟨h.nx, h.ny, h.nz, h.n, h.points, h.radius, h.lid, h.ground⟩
  obtain ⟨C, hC, b⟩ := h.built junk
  obtain ⟨D, hD, d⟩ := h'.built junk
  refine ⟨C, D, hC, hD, ?_⟩
  intro e3 h3 e2 h2 k hk j hj m hm
  have e := b.itfI e3 h3 e2 h2 p.nx le_rfl k hk j hj
  have e' := d.itfI e3 h3 e2 h2 0 (Nat.zero_le _) k hk j hj
  have t := (triple_itfI p C.cart C.gnom e3 e2 (le_refl p.nx) hk hj).2
  have t' := (triple_itfI (tileAt p (p.col + 1) p.row) D.cart D.gnom e3 e2 (Nat.zero_le _) hk hj).1
  have eg : triple C.gnom.itfI [e3, e2, p.nx + 1, k * p.n + j] = triple D.gnom.itfI [e3, e2, 0, p.n ^ 2 + (k * p.n + j)] := by
    refine (e.2.2.trans e.1).trans (Eq.trans ?_ (e'.2.1.trans e'.1).symm)
    have hx : (x1ItfI p).get [p.nx] = (x1ItfI (tileAt p (p.col + 1) p.row)).get [0] := by
      unfold x1ItfI
      rw [boundary_eq, boundary_eq]
      exact (tiles_meet p.lines p.col p.nx p.nx h.nx)
    show (_, _, height (gi p f _ _) p.ztop _) = (_, _, height (gi _ f _ _) p.ztop _)
    unfold gi
    rw [hx]
    rfl
  refine same_point hm eg (by rw [b.cn, d.cn]; exact toCartesian_congr eg) ?_
  rw [b.pn, d.pn]
  refine t.trans (Eq.trans ?_ t'.symm)
  rw [b.cn, d.cn]
  exact toPolar_congr eg

/-- **C96** The last row of interface points of a tile and the first one of its northern neighbour are the same points: all nine numbers agree,
from whichever side each tile looks. -/
theorem C96_neighbours_north (h : Sensible p f) (junk : List Nat → ℝ) :
    ∃ C D, terrainGrid p junk f = some C ∧ terrainGrid (tileAt p p.col (p.row + 1)) junk f = some D ∧
      ∀ e3 < p.nz, ∀ e1 < p.nx, ∀ k < p.n, ∀ i < p.n, ∀ m < 3,
        C.gnom.itfJ.get [m, e3, p.ny + 1, e1, k * p.n + i] = D.gnom.itfJ.get [m, e3, 0, e1, p.n ^ 2 + (k * p.n + i)] ∧
        C.cart.itfJ.get [m, e3, p.ny + 1, e1, k * p.n + i] = D.cart.itfJ.get [m, e3, 0, e1, p.n ^ 2 + (k * p.n + i)] ∧
        C.polar.itfJ.get [m, e3, p.ny + 1, e1, k * p.n + i] = D.polar.itfJ.get [m, e3, 0, e1, p.n ^ 2 + (k * p.n + i)] := by
  have h' : Sensible (tileAt p p.col (p.row + 1)) f := ⟨h.nx, h.ny, h.nz, h.n, h.points, h.radius, h.lid, h.ground⟩
  obtain ⟨C, hC, b⟩ := h.built junk
  obtain ⟨D, hD, d⟩ := h'.built junk
  refine ⟨C, D, hC, hD, ?_⟩
  intro e3 h3 e1 h1 k hk i hi m hm
  have e := b.itfJ e3 h3 p.ny le_rfl e1 h1 k hk i hi
  have e' := d.itfJ e3 h3 0 (Nat.zero_le _) e1 h1 k hk i hi
  have t := (triple_itfJ p C.cart C.gnom e3 e1 (le_refl p.ny) hk hi).2
  have t' := (triple_itfJ (tileAt p p.col (p.row + 1)) D.cart D.gnom e3 e1 (Nat.zero_le _) hk hi).1
  have eg : triple C.gnom.itfJ [e3, p.ny + 1, e1, k * p.n + i] = triple D.gnom.itfJ [e3, 0, e1, p.n ^ 2 + (k * p.n + i)] := by
    refine (e.2.2.trans e.1).trans (Eq.trans ?_ (e'.2.1.trans e'.1).symm)
    have hx : (x2ItfJ p).get [p.ny] = (x2ItfJ (tileAt p p.col (p.row + 1))).get [0] := by
      unfold x2ItfJ
      rw [boundary_eq, boundary_eq]
      exact (tiles_meet p.lines p.row p.ny p.ny h.ny)
    show (_, _, height (gj p f _ _) p.ztop _) = (_, _, height (gj _ f _ _) p.ztop _)
    unfold gj
    rw [hx]
    rfl
  refine same_point hm eg (by rw [b.cn, d.cn]; exact toCartesian_congr eg) ?_
  rw [b.pn, d.pn]
  refine t.trans (Eq.trans ?_ t'.symm)
  rw [b.cn, d.cn]
  exact toPolar_congr eg

/-- one element with one point, under a lid at 10 km -/
noncomputable def single : Params := ⟨1, 1, 1, 1, 1, 0, 0, [0], 10000, 6371220, ⟨0, 0, 0⟩⟩

theorem single_sensible {f : ℝ → ℝ → ℝ} (hf : ∀ lon lat, 0 ≤ f lon lat) : Sensible single f := by
  refine ⟨by decide, by decide, by decide, by decide, ?_, ?_, ?_, ?_⟩
  · intro x hx
    simp only [single, List.mem_singleton] at hx
    subst hx; norm_num
  · show (0 : ℝ) < 6371220; norm_num
  · show (0 : ℝ) ≤ 10000; norm_num
  · intro lon lat
    have := hf lon lat
    show -(6371220 : ℝ) < _
    linarith

/-- **C96 fails** A topography that is not flat and is given only in the block layout, as the method allows, stops the program: one element
with a plateau of 1000 m, for which the block arrays are right and the grid with all six arrays is built. -/
theorem C96_block_topography_fails :
    ∃ (p : Params) (z zi zj : Arr ℝ), Sensible p (fun _ _ => 1000) ∧ z.shape = [p.ny * p.n, p.nx * p.n] ∧ zi.shape = [p.ny * p.n, p.nx + 1] ∧
      zj.shape = [p.ny + 1, p.nx * p.n] ∧ (∀ i, z.get i = 1000) ∧ (∀ i, zi.get i = 1000) ∧ (∀ i, zj.get i = 1000) ∧
      (∀ junk, ∃ C, terrainGrid p junk (fun _ _ => 1000) = some C) ∧
      ∀ junk, setTerrain p junk ⟨some z, some zi, some zj, none, none, none⟩ = none := by
  have hS : Sensible single (fun _ _ => 1000) := single_sensible fun _ _ => by norm_num
  refine ⟨single, ⟨[1, 1], fun _ => 1000⟩, ⟨[1, 2], fun _ => 1000⟩, ⟨[2, 1], fun _ => 1000⟩, hS, rfl, rfl, rfl, fun _ => rfl, fun _ => rfl, fun _ => rfl,
    fun junk => (hS.built junk).imp fun _ h => h.1, ?_⟩
  intro junk
  let zero (s : List Nat) : Arr ℝ := ⟨s, fun _ => 0⟩
  let p := single
  show setTerrain p junk ⟨some ⟨[1, 1], fun _ => 1000⟩, some ⟨[1, 2], fun _ => 1000⟩, some ⟨[2, 1], fun _ => 1000⟩, some (zero [p.ny, p.nx, p.n ^ 2]),
    some (zero [p.ny, p.nx + 2, p.n * 2]), some (zero [p.ny + 2, p.nx, p.n * 2])⟩ = none
  generalize ht : (⟨some ⟨[1, 1], fun _ => 1000⟩, some ⟨[1, 2], fun _ => 1000⟩, some ⟨[2, 1], fun _ => 1000⟩, some (zero [p.ny, p.nx, p.n ^ 2]),
    some (zero [p.ny, p.nx + 2, p.n * 2]), some (zero [p.ny + 2, p.nx, p.n * 2])⟩ : Topo) = t
  obtain ⟨H, hH, v1, -, -, -⟩ := C49_heights p.nx p.ny p.nz hS.nx hS.ny p.ztop hS.points junk t _ _ _
    (by rw [← ht]; exact ⟨rfl, rfl, rfl, rfl, rfl, rfl⟩)
  obtain ⟨w1, -, -, -⟩ := C49_block p.nx p.ny p.nz hS.nx hS.ny p.ztop hS.points junk t _ _ _ (by rw [← ht]; exact ⟨rfl, rfl, rfl⟩) hH
  obtain ⟨r0, hr0, s0, g0⟩ := Layout.C40_to_new_3d p.nx p.ny p.nz p.n [3] (coordNum p).sol rfl
  obtain ⟨r1, hr1, s1, g1⟩ := Layout.C40_itf_i_3d p.nx p.ny p.nz p.n junk [3] (coordNum p).itfI rfl
  obtain ⟨r2, hr2, s2, g2⟩ := Layout.C40_itf_j_3d p.nx p.ny p.nz p.n [3] (coordNum p).itfJ rfl
  obtain ⟨r3, hr3, s3, g3⟩ := Layout.C40_itf_k_3d p.nx p.ny p.nz p.n [3] (coordNum p).itfK rfl
  obtain ⟨ref, href, -, gr⟩ := Layout.C40_to_new_3d p.nx p.ny p.nz p.n [3] (toGnomonic (coordNum p).sol H.x3) rfl
  have hrad : radians p junk = some ⟨r0, r1, r2, r3⟩ := by unfold radians; rw [hr0, hr1, hr2, hr3]
  have hx1 : (x1 p).get [0] = 0 := by
    have := x1_get p hS.points (e := 0) (i := 0) (by decide) (by decide)
    rw [show (0 * p.n + 0) = 0 from rfl] at this
    rw [this]
    show equi 1 0 1 0 0 = 0
    unfold equi; push_cast; ring
  have hx2 : (x2 p).get [0] = 0 := by
    have := x2_get p hS.points (e := 0) (i := 0) (by decide) (by decide)
    rw [show (0 * p.n + 0) = 0 from rfl] at this
    rw [this]
    show equi 1 0 1 0 0 = 0
    unfold equi; push_cast; ring
  have hn : H.x3New.get [0, 0, 0, 0] = 5000 := by
    have := v1 0 (by decide) 0 (by decide) 0 (by decide) 0 (by decide) 0 (by decide) 0 (by decide)
    refine this.trans ?_
    show height 0 10000 (etaOf 1 [0] 0 0) = 5000
    unfold height etaOf; norm_num
  have hb : H.x3.get [0, 0, 0] = 5500 := by
    have := w1 0 (by decide) 0 (by decide) 0 (by decide) 0 (by decide)
    refine this.trans ?_
    show height 1000 10000 (etaOf 1 [0] 0 0) = 5500
    unfold height etaOf; norm_num
  have q (m : Nat) (hm : m < 3) := g0 [m] (lead3 hm) 0 (by decide) 0 (by decide) 0 (by decide) 0 (by decide) 0 (by decide) 0 (by decide)
  have q' (m : Nat) (hm : m < 3) := gr [m] (lead3 hm) 0 (by decide) 0 (by decide) 0 (by decide) 0 (by decide) 0 (by decide) 0 (by decide)
  have tr0 : triple r0 [0, 0, 0, 0] = triple (coordNum p).sol [0, 0, 0] := Prod.ext (q 0 (by omega)) (Prod.ext (q 1 (by omega)) (q 2 (by omega)))
  have trr : triple ref [0, 0, 0, 0] = triple (toGnomonic (coordNum p).sol H.x3) [0, 0, 0] :=
    Prod.ext (q' 0 (by omega)) (Prod.ext (q' 1 (by omega)) (q' 2 (by omega)))
  have tb : triple (toGnomonic (coordNum p).sol H.x3) [0, 0, 0] = (0, 0, 5500) := by
    rw [toGnomonic_triple, hb]
    show (tan ((x1 p).get [0]), tan ((x2 p).get [0]), _) = _
    rw [hx1, hx2, tan_zero]
  have tg : triple (toGnomonic r0 H.x3New) [0, 0, 0, 0] = (0, 0, 5000) := by
    rw [toGnomonic_triple, hn]
    simp only [triple, Prod.mk.injEq] at tr0
    rw [tr0.1, tr0.2.1]
    show (tan ((x1 p).get [0]), tan ((x2 p).get [0]), _) = _
    rw [hx1, hx2, tan_zero]
  rw [tb] at trr
  simp only [triple, Prod.mk.injEq] at trr tb tg
  have nd : norm (sub (toGnomonic r0 H.x3New) ref) = 500 := by
    have hs : (toGnomonic r0 H.x3New).shape = [3, 1, 1, 1, 1] := s0
    unfold Coord3.norm
    have hsz : size (sub (toGnomonic r0 H.x3New) ref).shape = 3 := by show size (toGnomonic r0 H.x3New).shape = 3; rw [hs]; rfl
    have hu (m : Nat) (hm : m < 3) : unravel (sub (toGnomonic r0 H.x3New) ref).shape m = [m, 0, 0, 0, 0] := by
      show unravel (toGnomonic r0 H.x3New).shape m = _
      rw [hs]; interval_cases m <;> rfl
    rw [hsz]
    simp only [List.range_succ, List.range_zero, List.nil_append, List.cons_append, List.map_cons, List.map_nil, List.sum_cons, List.sum_nil]
    rw [hu 0 (by omega), hu 1 (by omega), hu 2 (by omega)]
    show √(((toGnomonic r0 H.x3New).get [0, 0, 0, 0, 0] - ref.get [0, 0, 0, 0, 0]) ^ 2 + (((toGnomonic r0 H.x3New).get [1, 0, 0, 0, 0] -
      ref.get [1, 0, 0, 0, 0]) ^ 2 + (((toGnomonic r0 H.x3New).get [2, 0, 0, 0, 0] - ref.get [2, 0, 0, 0, 0]) ^ 2 + 0))) = 500
    rw [trr.1, trr.2.1, trr.2.2, tg.1, tg.2.1, tg.2.2]
    rw [show ((0 : ℝ) - 0) ^ 2 + ((0 - 0) ^ 2 + ((5000 - 5500) ^ 2 + 0)) = 500 ^ 2 by norm_num]
    exact sqrt_sq (by norm_num)
  have nr : norm (toGnomonic (coordNum p).sol H.x3) = 5500 := by
    have hs : (toGnomonic (coordNum p).sol H.x3).shape = [3, 1, 1, 1] := rfl
    unfold Coord3.norm
    rw [hs]
    show √(((toGnomonic (coordNum p).sol H.x3).get [0, 0, 0, 0]) ^ 2 + (((toGnomonic (coordNum p).sol H.x3).get [1, 0, 0, 0]) ^ 2 +
      (((toGnomonic (coordNum p).sol H.x3).get [2, 0, 0, 0]) ^ 2 + 0))) = 5500
    rw [tb.1, tb.2.1, tb.2.2]
    rw [show (0 : ℝ) ^ 2 + (0 ^ 2 + (5500 ^ 2 + 0)) = 5500 ^ 2 by norm_num]
    exact sqrt_sq (by norm_num)
  unfold setTerrain
  rw [hH]; dsimp only
  unfold buildPhysical
  rw [hrad]; dsimp only
  rw [href]; dsimp only
  rw [nd, nr, if_pos (by norm_num)]

/-- the Schär mountain of DCMIP case 2-1, as a terrain of longitude and latitude -/
noncomputable def schar (lon lat : ℝ) : ℝ :=
  WxVerif.InitAtm.mountain21 (6371220 / 500 * arccos (sin 0 * sin lat + cos 0 * cos lat * cos (lon - π / 4)))

/-- three by two by two elements of two points, the second tile of the first row of a panel cut into 2 × 2 -/
noncomputable def sample : Params := ⟨3, 2, 2, 2, 2, 1, 0, [-0.5, 0.5], 30000, 6371220 / 500, ⟨0.3, 0.2, 0.1⟩⟩

theorem sample_sensible : Sensible sample schar := by
  refine ⟨by decide, by decide, by decide, by decide, ?_, ?_, ?_, ?_⟩
  · intro x hx
    simp only [sample, List.mem_cons, List.not_mem_nil, or_false] at hx
    rcases hx with rfl | rfl <;> norm_num
  · show (0 : ℝ) < 6371220 / 500; norm_num
  · show (0 : ℝ) ≤ 30000; norm_num
  · intro lon lat
    have : 0 ≤ schar lon lat := by unfold schar WxVerif.InitAtm.mountain21; positivity
    show -(6371220 / 500 : ℝ) < _
    linarith

example : ∃ C, terrainGrid sample (fun _ => 7) schar = some C ∧
    Holds sample schar C.gnom.sol C.cart.sol C.polar.sol [1, 1, 2, (1 * 2 + 0) * 2 + 1] (equi 2 1 3 2 0.5) (equi 2 0 2 1 (-0.5)) (level 2 1 0.5) := by
  obtain ⟨C, hC, v⟩ := C96_points sample_sensible (fun _ => 7)
  exact ⟨C, hC, (v 1 (by decide) 1 (by decide) 2 (by decide) 1 (by decide) 0 (by decide) 1 (by decide)).2⟩

end WxVerif.Props.Coordinates3D
