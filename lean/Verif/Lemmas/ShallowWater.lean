import Verif.Model.ShallowWater
import Verif.Lemmas.Topology
import Verif.Lemmas.Sphere
import Verif.Lemmas.Dfr
import Mathlib.Tactic.Linarith
import Mathlib.Tactic.FieldSimp
import Mathlib.Tactic.LinearCombination
import Mathlib.Tactic.Positivity

/-!
# Lemmas about the shallow-water right-hand side on all tiles
-/

namespace WxVerif.ShallowWater

open WxVerif.Topology WxVerif.Sphere WxVerif.Dfr WxVerif.Flux WxVerif.Cube
open Real (tan pi)

/-! ## The mass flux at a face in terms of normal momenta -/

/-- mass flux per unit length between two states given by depth and normal momentum -/
noncomputable def phi (hl vl hr vr : ℝ) : ℝ :=
  let al := Real.sqrt (gravity * hl)
  let ar := Real.sqrt (gravity * hr)
  let M := 0.25 * ((vl / (hl * al) + 1) ^ 2 - (vr / (hr * ar) - 1) ^ 2)
  max 0 M * al * hl + min 0 M * ar * hr

theorem phi_antisymm (hl vl hr vr : ℝ) : phi hr (-vr) hl (-vl) = -phi hl vl hr vr := by
  simp only [phi]
  set ml := vl / (hl * Real.sqrt (gravity * hl)) with hml
  set mr := vr / (hr * Real.sqrt (gravity * hr)) with hmr
  have e1 : -vr / (hr * Real.sqrt (gravity * hr)) = -mr := by rw [hmr, neg_div]
  have e2 : -vl / (hl * Real.sqrt (gravity * hl)) = -ml := by rw [hml, neg_div]
  rw [e1, e2]
  have e3 : (0.25 : ℝ) * ((-mr + 1) ^ 2 - (-ml - 1) ^ 2) = -(0.25 * ((ml + 1) ^ 2 - (mr - 1) ^ 2)) := by ring
  rw [e3]
  set M := (0.25 : ℝ) * ((ml + 1) ^ 2 - (mr - 1) ^ 2)
  have h1 : max 0 (-M) = -min 0 M := by rw [← neg_zero, max_neg_neg, neg_zero]
  have h2 : min 0 (-M) = -max 0 M := by rw [← neg_zero, min_neg_neg, neg_zero]
  rw [h1, h2]
  ring

theorem gravity_pos : 0 < gravity := by unfold gravity; norm_num

theorem sqrt_split {h H : ℝ} (hh : 0 < h) : Real.sqrt (gravity * h * H) = Real.sqrt (gravity * h) * Real.sqrt H :=
  Real.sqrt_mul (mul_pos gravity_pos hh).le _

theorem ausmI_mass (l r : SideSW) (hl : 0 < l.var 0) (hr : 0 < r.var 0) (hH : 0 < l.H 0 0) (e : r.H 0 0 = l.H 0 0) :
    (ausmSWI l r).1 0 = l.sqrtG * Real.sqrt (l.H 0 0) *
      phi (l.var 0) (l.var 1 / Real.sqrt (l.H 0 0)) (r.var 0) (r.var 1 / Real.sqrt (l.H 0 0)) := by
  have hc : 0 < Real.sqrt (l.H 0 0) := Real.sqrt_pos.mpr hH
  have hal : 0 < Real.sqrt (gravity * l.var 0) := Real.sqrt_pos.mpr (mul_pos gravity_pos hl)
  have har : 0 < Real.sqrt (gravity * r.var 0) := Real.sqrt_pos.mpr (mul_pos gravity_pos hr)
  have e1 : l.var 0 * (Real.sqrt (gravity * l.var 0) * Real.sqrt (l.H 0 0)) ≠ 0 := by positivity
  have e2 : r.var 0 * (Real.sqrt (gravity * r.var 0) * Real.sqrt (l.H 0 0)) ≠ 0 := by positivity
  simp only [ausmSWI, phi, e, sqrt_split hl, sqrt_split hr, e1, e2, ne_eq, not_false_eq_true, if_true, zero_ne_one, if_false,
    show (0 : Nat) ≠ 2 by decide]
  rw [show l.var 1 / Real.sqrt (l.H 0 0) / (l.var 0 * Real.sqrt (gravity * l.var 0)) =
      l.var 1 / (l.var 0 * (Real.sqrt (gravity * l.var 0) * Real.sqrt (l.H 0 0))) by field_simp,
    show r.var 1 / Real.sqrt (l.H 0 0) / (r.var 0 * Real.sqrt (gravity * r.var 0)) =
      r.var 1 / (r.var 0 * (Real.sqrt (gravity * r.var 0) * Real.sqrt (l.H 0 0))) by field_simp]
  ring

theorem ausmJ_mass (l r : SideSW) (hl : 0 < l.var 0) (hr : 0 < r.var 0) (hH : 0 < l.H 1 1) (e : r.H 1 1 = l.H 1 1) :
    (ausmJ l r).1 0 = l.sqrtG * Real.sqrt (l.H 1 1) *
      phi (l.var 0) (l.var 2 / Real.sqrt (l.H 1 1)) (r.var 0) (r.var 2 / Real.sqrt (l.H 1 1)) ∧ (ausmJ l r).2 = (ausmJ l r).1 := by
  have hc : 0 < Real.sqrt (l.H 1 1) := Real.sqrt_pos.mpr hH
  have hal : 0 < Real.sqrt (gravity * l.var 0) := Real.sqrt_pos.mpr (mul_pos gravity_pos hl)
  have har : 0 < Real.sqrt (gravity * r.var 0) := Real.sqrt_pos.mpr (mul_pos gravity_pos hr)
  have e1 : l.var 0 * (Real.sqrt (gravity * l.var 0) * Real.sqrt (l.H 1 1)) ≠ 0 := by positivity
  have e2 : r.var 0 * (Real.sqrt (gravity * r.var 0) * Real.sqrt (l.H 1 1)) ≠ 0 := by positivity
  have hml : machSWJ l = some (l.var 2 / (l.var 0 * (Real.sqrt (gravity * l.var 0) * Real.sqrt (l.H 1 1)))) := by
    simp only [machSWJ, sqrt_split hl]; rw [if_pos e1]
  have hmr : machSWJ r = some (r.var 2 / (r.var 0 * (Real.sqrt (gravity * r.var 0) * Real.sqrt (l.H 1 1)))) := by
    simp only [machSWJ, sqrt_split hr, e]; rw [if_pos e2]
  simp only [ausmJ, ausmSWJ, hml, hmr, Option.getD_some, sqrt_split hl, sqrt_split hr, e, zero_ne_one, if_false, phi,
    show (0 : Nat) ≠ 2 by decide, and_true]
  rw [show l.var 2 / Real.sqrt (l.H 1 1) / (l.var 0 * Real.sqrt (gravity * l.var 0)) =
      l.var 2 / (l.var 0 * (Real.sqrt (gravity * l.var 0) * Real.sqrt (l.H 1 1))) by field_simp,
    show r.var 2 / Real.sqrt (l.H 1 1) / (r.var 0 * Real.sqrt (gravity * r.var 0)) =
      r.var 2 / (r.var 0 * (Real.sqrt (gravity * r.var 0) * Real.sqrt (l.H 1 1))) by field_simp]
  ring

/-! ## Sides and normal components -/

/-- variable holding the momentum normal to a side -/
def normalVar : Side → Nat
  | .south | .north => 2
  | .west | .east => 1

/-- sign of the outward normal -/
def sgn : Side → ℝ
  | .south | .west => -1
  | .north | .east => 1

theorem sgn_sq (d : Side) : sgn d * sgn d = 1 := by cases d <;> norm_num [sgn]

/-- component normal to a side -/
def nrm (d : Side) (u : ℝ × ℝ) : ℝ := match d with
  | .south | .north => u.2
  | .west | .east => u.1

set_option maxHeartbeats 1000000 in
theorem convertContras_normal {p : Nat} (hp : p < 6) (s : Side) (a1 a2 x : ℝ) :
    sgn (backPanel p s) * nrm (backPanel p s) (convertContras p s a1 a2 x) = -(sgn s * nrm s (a1, a2)) := by
  rcases place_cases p hp with rfl | rfl | rfl | rfl | rfl | rfl <;> cases s <;>
    simp [backPanel, convertContras, sgn, nrm]

/-- facing side of the facing side, at panel level and on tiles -/
theorem backSide_edge {k : Nat} {pl : Place} (h : Valid k pl) (d : Side)
    (he : atPanelEdge (6 * (k * k)) (enc k pl) d = true) :
    backPanel (nbrPlace k pl d).panel (backSide k pl d) = d ∧ flips (nbrPlace k pl d).panel (backSide k pl d) = flips pl.panel d := by
  rw [atPanelEdge_enc h] at he
  obtain ⟨p, r, c⟩ := pl
  obtain ⟨hp, hr, hc⟩ := h
  simp only at hp hr hc he
  cases d <;> simp only [decide_eq_true_eq] at he <;>
    rcases place_cases p hp with rfl | rfl | rfl | rfl | rfl | rfl <;>
    simp [nbrPlace, backSide, he, flips, backPanel]

theorem backSide_interior {k : Nat} {pl : Place} (h : Valid k pl) (d : Side)
    (he : atPanelEdge (6 * (k * k)) (enc k pl) d = false) (u : ℝ × ℝ) :
    sgn d * nrm d u = -(sgn (backSide k pl d) * nrm (backSide k pl d) u) := by
  rw [atPanelEdge_enc h] at he
  obtain ⟨p, r, c⟩ := pl
  obtain ⟨hp, hr, hc⟩ := h
  simp only at hp hr hc he
  cases d <;> simp only [decide_eq_false_iff_not] at he <;> simp [backSide, he, sgn, nrm]

theorem backSide_back {k : Nat} {pl : Place} (h : Valid k pl) (d : Side) :
    backSide k (nbrPlace k pl d) (backSide k pl d) = d := by
  have hq := nbrPlace_valid h d
  apply nbrPlace_inj h
  have := nbrPlace_back hq (backSide k pl d)
  rwa [nbrPlace_back h d] at this

theorem backFlip_back {k : Nat} {pl : Place} (h : Valid k pl) (d : Side) :
    backFlip k (nbrPlace k pl d) (backSide k pl d) = backFlip k pl d := by
  have hq := nbrPlace_valid h d
  unfold backFlip
  rw [nbrPlace_back h, backSide_back h]
  unfold Topology.flip
  rw [edge_facing h d, myPanel_enc h, myPanel_enc hq]
  by_cases he : atPanelEdge (6 * (k * k)) (enc k pl) d = true
  · rw [if_pos he, if_pos he, (backSide_edge h d he).2]
  · rw [if_neg he, if_neg he]

theorem mirrored_lt (b : Bool) {n i : Nat} (h : i < n) : mirrored b n i < n := by
  unfold mirrored; split <;> omega

theorem mirrored_mirrored (b : Bool) {n i : Nat} (h : i < n) : mirrored b n (mirrored b n i) = i := by
  unfold mirrored; split <;> omega

/-- the normal component received is minus the normal component sent, both counted outwards -/
theorem convert_normal {k : Nat} {pl : Place} (h : Valid k pl) (d : Side) (a1 a2 x : ℝ) :
    sgn d * nrm d (convertContra (6 * (k * k)) (enc k (nbrPlace k pl d)) (backSide k pl d) a1 a2 x) =
      -(sgn (backSide k pl d) * nrm (backSide k pl d) (a1, a2)) := by
  have hq := nbrPlace_valid h d
  unfold convertContra
  rw [edge_facing h d, myPanel_enc hq]
  by_cases he : atPanelEdge (6 * (k * k)) (enc k pl) d = true
  · rw [if_pos he]
    have := convertContras_normal hq.1 (backSide k pl d) a1 a2 x
    rwa [(backSide_edge h d he).1] at this
  · rw [if_neg he]
    exact backSide_interior h d (by simpa using he) _

/-! ## Coordinates -/

namespace Grid
variable (g : Grid)

/-- element size, the same on all tiles -/
noncomputable def dx : ℝ := g.deltaPanel / g.N

theorem delta1_eq (r : Nat) : g.delta1 r = g.dx := by unfold delta1 dx; ring
theorem delta2_eq (r : Nat) : g.delta2 r = g.dx := by unfold delta2 dx; ring

variable {g}

theorem deltaPanel_pos (hk : 0 < g.k) : 0 < g.deltaPanel := by
  unfold deltaPanel
  have : (0 : ℝ) < g.k := by exact_mod_cast hk
  have := Real.pi_pos
  apply div_pos _ ‹_›
  linarith

theorem dx_pos (hk : 0 < g.k) (hN : 0 < g.N) : 0 < g.dx :=
  div_pos (deltaPanel_pos hk) (by exact_mod_cast hN)

theorem k_deltaPanel (hk : 0 < g.k) : (g.k : ℝ) * g.deltaPanel = pi / 2 := by
  unfold deltaPanel
  have : (g.k : ℝ) ≠ 0 := by exact_mod_cast hk.ne'
  field_simp
  ring

theorem N_dx (hN : 0 < g.N) : (g.N : ℝ) * g.dx = g.deltaPanel := by
  unfold dx
  have : (g.N : ℝ) ≠ 0 := by exact_mod_cast hN.ne'
  field_simp

/-- reversal of quotient and remainder -/
theorem rev_divmod {M n i : Nat} (hn : 0 < n) (hi : i < M * n) :
    (M * n - 1 - i) / n = M - 1 - i / n ∧ (M * n - 1 - i) % n = n - 1 - i % n ∧ i / n < M := by
  have hq : i / n < M := (Nat.div_lt_iff_lt_mul hn).mpr hi
  have hm := Nat.mod_lt i hn
  have e : M * n - 1 - i = (M - 1 - i / n) * n + (n - 1 - i % n) := by
    have h1 := Nat.div_add_mod i n
    have h2 : (M - 1 - i / n) * n = M * n - n - (i / n) * n := by rw [Nat.sub_mul, Nat.sub_mul, Nat.one_mul]
    have h3 : (i / n + 1) * n ≤ M * n := Nat.mul_le_mul_right n hq
    rw [Nat.add_mul, Nat.one_mul] at h3
    rw [h2]
    have h4 : n * (i / n) = i / n * n := Nat.mul_comm _ _
    omega
  rw [e]
  exact ⟨div_of (by omega), mod_of (by omega), hq⟩

/-- the coordinates of the grid are admissible for the exchange -/
noncomputable def coords (hk : 0 < g.k) (hN : 0 < g.N) (hn : 0 < g.n) (hsym : ∀ i < g.n, g.pts (g.n - 1 - i) = -g.pts i) :
    Coords ℝ g.k (g.N * g.n) where
  c i := tan (elementCoord (-pi / 4) g.dx (i / g.n) (g.pts (i % g.n)))
  itf j := tan (-pi / 4 + j * g.deltaPanel)
  symm i hi := by
    rw [← Nat.mul_assoc] at hi ⊢
    obtain ⟨h1, h2, h3⟩ := rev_divmod hn hi
    rw [h1, h2, hsym _ (Nat.mod_lt i hn), ← Real.tan_neg]
    congr 1
    unfold elementCoord
    have hc : ((g.k * g.N - 1 - i / g.n : Nat) : ℝ) = (g.k : ℝ) * g.N - 1 - (i / g.n : Nat) := by
      rw [Nat.cast_sub (Nat.le_sub_one_of_lt h3), Nat.cast_sub (Nat.succ_le_of_lt (Nat.lt_of_le_of_lt (Nat.zero_le _) h3))]; push_cast; ring
    rw [hc]
    have e : (g.k : ℝ) * g.N * g.dx = pi / 2 := by rw [mul_assoc, N_dx hN, k_deltaPanel hk]
    linear_combination e
  first := by
    rw [Nat.cast_zero, zero_mul, add_zero, neg_div, Real.tan_neg, Real.tan_pi_div_four]
  last := by
    rw [k_deltaPanel hk, show -pi / 4 + pi / 2 = pi / 4 by ring, Real.tan_pi_div_four]

variable (g) in
/-- gnomonic coordinates of point `i` of side `d` of tile `r`, as the flux formulas see them -/
noncomputable def sideXY (r : Nat) (d : Side) (i : Nat) : ℝ × ℝ :=
  match d with
  | .south => g.itfXY2 r 1 (i / g.n) false (i % g.n)
  | .north => g.itfXY2 r g.N (i / g.n) true (i % g.n)
  | .west => g.itfXY1 r (i / g.n) 1 false (i % g.n)
  | .east => g.itfXY1 r (i / g.n) g.N true (i % g.n)

theorem x1_eq (hN : 0 < g.N) (hn : 0 < g.n) (r i : Nat) :
    g.x1 r i = elementCoord (-pi / 4) g.dx ((myCol g.size r * (g.N * g.n) + i) / g.n) (g.pts ((myCol g.size r * (g.N * g.n) + i) % g.n)) := by
  rw [← Nat.mul_assoc, Nat.mul_comm _ g.n, Nat.mul_add_div hn, Nat.mul_add_mod]
  unfold x1 start1 elementCoord
  rw [delta1_eq, ← N_dx hN]
  push_cast
  ring

theorem x2_eq (hN : 0 < g.N) (hn : 0 < g.n) (r i : Nat) :
    g.x2 r i = elementCoord (-pi / 4) g.dx ((myRow g.size r * (g.N * g.n) + i) / g.n) (g.pts ((myRow g.size r * (g.N * g.n) + i) % g.n)) := by
  rw [← Nat.mul_assoc, Nat.mul_comm _ g.n, Nat.mul_add_div hn, Nat.mul_add_mod]
  unfold x2 start2 elementCoord
  rw [delta2_eq, ← N_dx hN]
  push_cast
  ring

theorem x1itf_eq (hN : 0 < g.N) (r e : Nat) : g.x1itf r e = g.start1 r + e * g.dx := by
  unfold x1itf linspace dx
  ring_nf

theorem x2itf_eq (hN : 0 < g.N) (r e : Nat) : g.x2itf r e = g.start2 r + e * g.dx := by
  unfold x2itf linspace dx
  ring_nf

theorem divmod_eq (g : Grid) (i : Nat) : i / g.n * g.n + i % g.n = i := by rw [Nat.mul_comm]; exact Nat.div_add_mod i g.n

theorem sideXY_eq (hk : 0 < g.k) (hN : 0 < g.N) (hn : 0 < g.n) (hsym : ∀ i < g.n, g.pts (g.n - 1 - i) = -g.pts i)
    {pl : Place} (h : Valid g.k pl) (d : Side) (i : Nat) :
    g.sideXY (enc g.k pl) d i = sideCoords (coords hk hN hn hsym) pl d i := by
  obtain ⟨_, e2, e3⟩ := my_eq (k := g.k) (enc_lt h)
  rw [placeOf_enc h] at e2 e3
  have hs : g.size = 6 * (g.k * g.k) := rfl
  have key1 : g.x1 (enc g.k pl) i = elementCoord (-pi / 4) g.dx ((pl.col * (g.N * g.n) + i) / g.n) (g.pts ((pl.col * (g.N * g.n) + i) % g.n)) := by
    rw [x1_eq hN hn, hs, e3]
  have key2 : g.x2 (enc g.k pl) i = elementCoord (-pi / 4) g.dx ((pl.row * (g.N * g.n) + i) / g.n) (g.pts ((pl.row * (g.N * g.n) + i) % g.n)) := by
    rw [x2_eq hN hn, hs, e2]
  cases d <;> simp only [sideXY, itfXY1, itfXY2, sideCoords, coords, divmod_eq, key1, key2, itfIndex, if_true, Bool.false_eq_true, if_false,
    x1itf_eq hN, x2itf_eq hN, start1, start2, hs, e2, e3, N_dx hN, Prod.mk.injEq, true_and, and_true] <;> congr 1 <;> push_cast <;> ring

theorem boundary_eq (hk : 0 < g.k) (hN : 0 < g.N) (hn : 0 < g.n) (hsym : ∀ i < g.n, g.pts (g.n - 1 - i) = -g.pts i)
    {pl : Place} (h : Valid g.k pl) (d : Side) :
    g.boundary (enc g.k pl) d = (List.range (g.N * g.n)).map (alongSide (coords hk hN hn hsym) pl d) := by
  obtain ⟨_, e2, e3⟩ := my_eq (k := g.k) (enc_lt h)
  rw [placeOf_enc h] at e2 e3
  have hs : g.size = 6 * (g.k * g.k) := rfl
  cases d <;> simp only [boundary, x1_eq hN hn, x2_eq hN hn, hs, e2, e3] <;> rfl

/-! ## The metric at the sides -/

/-- `√G √Hⁿⁿ` on a side -/
noncomputable def edgeLen (g : Grid) (r : Nat) (d : Side) (xy : ℝ × ℝ) : ℝ :=
  g.sqrtG r xy * Real.sqrt (g.H r xy (normalVar d - 1) (normalVar d - 1))

theorem H_pos (hk : 0 < g.k) (hN : 0 < g.N) (hr : g.radius ≠ 0) (r : Nat) (xy : ℝ × ℝ) (a : Nat) : 0 < g.H r xy a a := by
  have hd := dx_pos hk hN
  have h1 := delta2_pos xy.1 xy.2
  have hr2 : 0 < g.radius ^ 2 := by positivity
  unfold H toArr
  rw [delta1_eq, delta2_eq]
  by_cases ha : a = 0
  · simp only [ha, if_true, Hcontras, Hcontra]
    simp only [Matrix.of_apply, Matrix.cons_val_zero, Matrix.cons_val', Matrix.cons_val_fin_one]
    positivity
  · simp only [ha, if_false, Hcontras, Hcontra]
    simp only [Matrix.of_apply, Matrix.cons_val_one, Matrix.cons_val', Matrix.cons_val_fin_one]
    positivity

theorem sqrtG_pos (hk : 0 < g.k) (hN : 0 < g.N) (hr : g.radius ≠ 0) (r : Nat) (xy : ℝ × ℝ) : 0 < g.sqrtG r xy := by
  have hd := dx_pos hk hN
  have h1 := delta2_pos xy.1 xy.2
  have h2 := delta_pos xy.1 xy.2
  have hr2 : 0 < g.radius ^ 2 := by positivity
  unfold sqrtG sqrtGs Sphere.sqrtG
  rw [delta1_eq, delta2_eq]
  positivity

/-- on the edge of a panel the metric depends only on the coordinate along the edge, up to sign -/
theorem metric_edge (r r' : Nat) (d d' : Side) {x x' : ℝ} (hx : x ^ 2 = x' ^ 2) :
    g.H r (edgeXY d x) (normalVar d - 1) (normalVar d - 1) = g.H r' (edgeXY d' x') (normalVar d' - 1) (normalVar d' - 1) ∧
    g.sqrtG r (edgeXY d x) = g.sqrtG r' (edgeXY d' x') := by
  unfold H sqrtG toArr
  rw [delta1_eq, delta2_eq, delta1_eq, delta2_eq]
  have key : ∀ (s : Side) (y : ℝ), y ^ 2 = x' ^ 2 → 
      (Hcontras g.radius g.dx g.dx (edgeXY s y).1 (edgeXY s y).2 (if normalVar s - 1 = 0 then 0 else 1) (if normalVar s - 1 = 0 then 0 else 1)
        = (2 + x' ^ 2) / (g.radius ^ 2 * 2) * (4 / g.dx ^ 2)) ∧
      sqrtGs g.radius g.dx g.dx (edgeXY s y).1 (edgeXY s y).2 =
        g.radius ^ 2 * 2 * (1 + x' ^ 2) / ((2 + x' ^ 2) * Real.sqrt (2 + x' ^ 2)) * (g.dx * g.dx / 8) := by
    intro s y hy
    cases s <;> simp [edgeXY, normalVar, Hcontras, Hcontra, sqrtGs, Sphere.sqrtG, Sphere.delta, Sphere.delta2, hy] <;> ring_nf <;> simp
  obtain ⟨a1, a2⟩ := key d x hx
  obtain ⟨b1, b2⟩ := key d' x' rfl
  exact ⟨a1.trans b1.symm, a2.trans b2.symm⟩

end Grid

end WxVerif.ShallowWater
