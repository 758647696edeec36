import Verif.Props.Slopes

/-!
# C72 — the slopes on the sides shared by two tiles, and the records the metric is built from

Along a side shared by two tiles each tile forms the slopes from its own extrapolation and from the one it receives.  The two results are the
components, each in the coordinates of its own panel, of one and the same covector of the sphere: the terrain has one horizontal gradient on
both sides of the line, whatever the floor.
-/

namespace WxVerif.Props.SlopesEdge

open WxVerif.Topology WxVerif.Sphere WxVerif.Dfr WxVerif.Flux WxVerif.EulerSphere WxVerif.Cube
open WxVerif.ShallowWater (Grid node)
open WxVerif.Props.Slopes (trueSlope level)

variable {g : Atm} {f : Floor}

/-! ## Vectors and covectors of the sphere -/

/-- half the sum of two vectors -/
noncomputable def half (V W : V3 ℝ) : V3 ℝ := ((V.1 + W.1) / 2, (V.2.1 + W.2.1) / 2, (V.2.2 + W.2.2) / 2)

/-- the covector of the unit sphere that belongs to the tangent vector `V` (given up to a radial part) at the direction of `P` -/
noncomputable def lowered (P V : V3 ℝ) : V3 ℝ :=
  let q := P.1 ^ 2 + P.2.1 ^ 2 + P.2.2 ^ 2
  let c := (V.1 * P.1 + V.2.1 * P.2.1 + V.2.2 * P.2.2) / q
  ((V.1 - c * P.1) / q, (V.2.1 - c * P.2.1) / q, (V.2.2 - c * P.2.2) / q)

theorem represents_self (p : Nat) (X Y u1 u2 : ℝ) : ∃ V, Cube.Represents p X Y u1 u2 V :=
  ⟨(u1 * (1 + X ^ 2) * (eastward (K := ℝ) p).1 + u2 * (1 + Y ^ 2) * (northward (K := ℝ) p).1,
    u1 * (1 + X ^ 2) * (eastward (K := ℝ) p).2.1 + u2 * (1 + Y ^ 2) * (northward (K := ℝ) p).2.1,
    u1 * (1 + X ^ 2) * (eastward (K := ℝ) p).2.2 + u2 * (1 + Y ^ 2) * (northward (K := ℝ) p).2.2), 0, by simp, by simp, by simp⟩

theorem represents_half {p : Nat} {X Y u1 u2 v1 v2 : ℝ} {V W : V3 ℝ} (hV : Cube.Represents p X Y u1 u2 V) (hW : Cube.Represents p X Y v1 v2 W) :
    Cube.Represents p X Y (0.5 * (u1 + v1)) (0.5 * (u2 + v2)) (half V W) := by
  obtain ⟨c, a1, a2, a3⟩ := hV
  obtain ⟨d, b1, b2, b3⟩ := hW
  refine ⟨(c + d) / 2, ?_, ?_, ?_⟩
  · simp only [half]; linear_combination (1 / 2) * a1 + (1 / 2) * b1
  · simp only [half]; linear_combination (1 / 2) * a2 + (1 / 2) * b2
  · simp only [half]; linear_combination (1 / 2) * a3 + (1 / 2) * b3

theorem represents_lower {p : Nat} {X Y u1 u2 : ℝ} {V : V3 ℝ} (h : Cube.Represents p X Y u1 u2 V) :
    RepresentsCov p X Y (ent2 (auxCov X Y) 0 0 * u1 + ent2 (auxCov X Y) 0 1 * u2) (ent2 (auxCov X Y) 1 0 * u1 + ent2 (auxCov X Y) 1 1 * u2)
      (lowered (point p X Y) V) := by
  obtain ⟨c, a1, a2, a3⟩ := h
  have hq : (1 + X ^ 2 + Y ^ 2) ≠ 0 := by positivity
  have hV : V = (u1 * (1 + X ^ 2) * (eastward (K := ℝ) p).1 + u2 * (1 + Y ^ 2) * (northward (K := ℝ) p).1 - c * (point p X Y).1,
    u1 * (1 + X ^ 2) * (eastward (K := ℝ) p).2.1 + u2 * (1 + Y ^ 2) * (northward (K := ℝ) p).2.1 - c * (point p X Y).2.1,
    u1 * (1 + X ^ 2) * (eastward (K := ℝ) p).2.2 + u2 * (1 + Y ^ 2) * (northward (K := ℝ) p).2.2 - c * (point p X Y).2.2) := by
    ext <;> simp only <;> linarith
  subst hV
  have hn : (point (K := ℝ) p X Y).1 ^ 2 + (point (K := ℝ) p X Y).2.1 ^ 2 + (point (K := ℝ) p X Y).2.2 ^ 2 = 1 + X ^ 2 + Y ^ 2 := by
    rcases p with _ | _ | _ | _ | _ | p <;> simp only [point, normal, eastward, northward] <;> ring
  have h2 : ∀ M : Matrix (Fin 2) (Fin 2) ℝ, ent2 M 0 0 = M 0 0 ∧ ent2 M 0 1 = M 0 1 ∧ ent2 M 1 0 = M 1 0 ∧ ent2 M 1 1 = M 1 1 :=
    fun M => ⟨rfl, rfl, rfl, rfl⟩
  unfold RepresentsCov lowered
  simp only [hn, h2]
  rcases p with _ | _ | _ | _ | _ | p <;> simp only [point, normal, eastward, northward, auxCov, delta2, Matrix.of_apply, Matrix.cons_val', Matrix.cons_val_zero,
    Matrix.cons_val_one, Matrix.cons_val_fin_one] <;> refine ⟨?_, ?_, ?_⟩ <;> field_simp <;> ring

/-! ## The sides -/

theorem sidePt_slopes (hN : 0 < g.N) (hn : 0 < g.n) (ek a r : Nat) (d : Side) (i : Nat) :
    let xy := g.toGrid.sideXY r d i
    let av := fun comp => 0.5 * (sentSlope g f ek a r d comp i + receivedSlope g f ek a r d comp i)
    (sidePt g f ek a r d i).dRdx1 = ent2 (auxCov xy.1 xy.2) 0 0 * av 0 + ent2 (auxCov xy.1 xy.2) 0 1 * av 1 ∧
    (sidePt g f ek a r d i).dRdx2 = ent2 (auxCov xy.1 xy.2) 1 0 * av 0 + ent2 (auxCov xy.1 xy.2) 1 1 * av 1 := by
  intro xy av
  have hxy := sidePt_XY (g := g) (f := f) hn ek a r d i
  have hm := Nat.mod_lt i hn
  have e3 : i / g.n * g.n + i % g.n = i := Grid.divmod_eq g.toGrid i
  have a1 : ¬(1 ≤ 0 ∧ 0 ≤ g.N) := by omega
  have a2 : 1 ≤ 0 + 1 ∧ 0 + 1 ≤ g.N := by omega
  have a3 : ¬(1 ≤ g.N + 1 ∧ g.N + 1 ≤ g.N) := by omega
  have a4 : 1 ≤ g.N ∧ g.N ≤ g.N := by omega
  simp only [xy, ← hxy, av]
  cases d <;> refine ⟨?_, ?_⟩ <;>
    simp only [sidePt, ptI, ptJ, slopeI, slopeJ, exI, exJ, sentSlope, div_of hm, mod_of hm, e3, if_true, OfNat.zero_ne_ofNat, OfNat.one_ne_ofNat, if_false] <;>
    simp only [a1, a2, a3, a4, if_true, if_false, Nat.zero_add, Nat.sub_self, and_self, reduceCtorEq, and_false, Nat.add_sub_cancel] <;>
    ring

/-- The two horizontal slopes received along a side, as a pair of contravariant components. -/
theorem receivedSlope_pair (hk : 0 < g.k) (hN : 0 < g.N) (hn : 0 < g.n) (hsym : ∀ i < g.n, g.pts (g.n - 1 - i) = -g.pts i)
    (ek a : Nat) {pl : Place} (h : Valid g.k pl) (d : Side) {i : Nat} (hi : i < g.N * g.n) :
    let nb := enc g.k (nbrPlace g.k pl d)
    let there := sentSlope g f ek a nb (backSide g.k pl d)
    let i' := mirrored (backFlip g.k pl d) (g.N * g.n) i
    let c := convertContra (6 * (g.k * g.k)) nb (backSide g.k pl d) (there 0 i') (there 1 i')
      (alongSide (Grid.coords hk hN hn hsym) (nbrPlace g.k pl d) (backSide g.k pl d) i')
    receivedSlope g f ek a (enc g.k pl) d 0 i = c.1 ∧ receivedSlope g f ek a (enc g.k pl) d 1 i = c.2 := by
  have e := exchangedVec_eq hk hN hn hsym (fun s d' i => (sentSlope g f ek a s d' 0 i, sentSlope g f ek a s d' 1 i, sentSlope g f ek a s d' 2 i)) h d hi
  unfold receivedSlope
  simp only [e]
  exact ⟨rfl, rfl⟩

/-- The slopes of a side are the covariant components of half the sum of the vector it sends and of the one its neighbour sends. -/
theorem side_covector (hk : 0 < g.k) (hN : 0 < g.N) (hn : 0 < g.n) (hsym : ∀ i < g.n, g.pts (g.n - 1 - i) = -g.pts i)
    (ek a : Nat) {pl : Place} (h : Valid g.k pl) (d : Side) {i : Nat} (hi : i < g.N * g.n) {V W : V3 ℝ}
    (hV : Cube.Represents pl.panel (g.toGrid.sideXY (enc g.k pl) d i).1 (g.toGrid.sideXY (enc g.k pl) d i).2
      (sentSlope g f ek a (enc g.k pl) d 0 i) (sentSlope g f ek a (enc g.k pl) d 1 i) V)
    (hW : let q := nbrPlace g.k pl d; let s := backSide g.k pl d; let j := mirrored (backFlip g.k pl d) (g.N * g.n) i
      Cube.Represents q.panel (g.toGrid.sideXY (enc g.k q) s j).1 (g.toGrid.sideXY (enc g.k q) s j).2
        (sentSlope g f ek a (enc g.k q) s 0 j) (sentSlope g f ek a (enc g.k q) s 1 j) W) :
    RepresentsCov pl.panel (sidePt g f ek a (enc g.k pl) d i).X (sidePt g f ek a (enc g.k pl) d i).Y
      (sidePt g f ek a (enc g.k pl) d i).dRdx1 (sidePt g f ek a (enc g.k pl) d i).dRdx2
      (lowered (sidePoint (Grid.coords hk hN hn hsym) pl d i) (half V W)) := by
  have hq := nbrPlace_valid h d
  have hpos : ∀ x : ℝ, 1 + x ^ 2 ≠ 0 := fun x => by positivity
  have hxy := sidePt_XY (g := g) (f := f) hn ek a (enc g.k pl) d i
  have hX : (sidePt g f ek a (enc g.k pl) d i).X = (g.toGrid.sideXY (enc g.k pl) d i).1 := congrArg Prod.fst hxy
  have hY : (sidePt g f ek a (enc g.k pl) d i).Y = (g.toGrid.sideXY (enc g.k pl) d i).2 := congrArg Prod.snd hxy
  obtain ⟨s1, s2⟩ := sidePt_slopes (g := g) (f := f) hN hn ek a (enc g.k pl) d i
  obtain ⟨r1, r2⟩ := receivedSlope_pair (f := f) hk hN hn hsym ek a h d hi
  dsimp only at s1 s2 r1 r2 hW
  rw [Grid.sideXY_eq hk hN hn hsym hq] at hW
  have hW' := contra_facing (Grid.coords hk hN hn hsym) hpos h d hi hW
  rw [← Grid.sideXY_eq hk hN hn hsym h, ← r1, ← r2] at hW'
  have := represents_lower (represents_half hV hW')
  rw [hX, hY, s1, s2]
  unfold sidePoint
  rw [← Grid.sideXY_eq hk hN hn hsym h]
  exact this

theorem half_comm (V W : V3 ℝ) : half V W = half W V := by
  simp only [half, add_comm]

/-- **C72, shared sides.** For every floor, at every point of every side of every tile, the horizontal slopes that the tile puts in its metric and
those that the neighbour puts in its own at the same point are the components of one and the same covector of the sphere, each in the
coordinates of its own panel. -/
theorem C72_shared_side (hk : 0 < g.k) (hN : 0 < g.N) (hn : 0 < g.n) (hsym : ∀ i < g.n, g.pts (g.n - 1 - i) = -g.pts i)
    (ek a : Nat) {pl : Place} (h : Valid g.k pl) (d : Side) {i : Nat} (hi : i < g.N * g.n) :
    let here := sidePt g f ek a (enc g.k pl) d i
    let there := sidePt g f ek a (enc g.k (nbrPlace g.k pl d)) (backSide g.k pl d) (mirrored (backFlip g.k pl d) (g.N * g.n) i)
    point pl.panel here.X here.Y = point (nbrPlace g.k pl d).panel there.X there.Y ∧
    ∃ W : V3 ℝ, RepresentsCov pl.panel here.X here.Y here.dRdx1 here.dRdx2 W ∧
      RepresentsCov (nbrPlace g.k pl d).panel there.X there.Y there.dRdx1 there.dRdx2 W := by
  intro here there
  have hq := nbrPlace_valid h d
  have hj := WxVerif.ShallowWater.mirrored_lt (backFlip g.k pl d) hi
  obtain ⟨V, hV⟩ := represents_self pl.panel (g.toGrid.sideXY (enc g.k pl) d i).1 (g.toGrid.sideXY (enc g.k pl) d i).2
      (sentSlope g f ek a (enc g.k pl) d 0 i) (sentSlope g f ek a (enc g.k pl) d 1 i)
  obtain ⟨W, hW⟩ := represents_self (nbrPlace g.k pl d).panel
      (g.toGrid.sideXY (enc g.k (nbrPlace g.k pl d)) (backSide g.k pl d) (mirrored (backFlip g.k pl d) (g.N * g.n) i)).1
      (g.toGrid.sideXY (enc g.k (nbrPlace g.k pl d)) (backSide g.k pl d) (mirrored (backFlip g.k pl d) (g.N * g.n) i)).2
      (sentSlope g f ek a (enc g.k (nbrPlace g.k pl d)) (backSide g.k pl d) 0 (mirrored (backFlip g.k pl d) (g.N * g.n) i))
      (sentSlope g f ek a (enc g.k (nbrPlace g.k pl d)) (backSide g.k pl d) 1 (mirrored (backFlip g.k pl d) (g.N * g.n) i))
  have c1 := side_covector hk hN hn hsym ek a h d hi hV hW
  have c2 := side_covector (f := f) hk hN hn hsym ek a hq (backSide g.k pl d) hj (V := W) (W := V) hW (by
    simp only [nbrPlace_back h, WxVerif.ShallowWater.backSide_back h, WxVerif.ShallowWater.backFlip_back h, WxVerif.ShallowWater.mirrored_mirrored _ hi]
    exact hV)
  rw [sidePoint_facing _ h d hi, half_comm] at c2
  refine ⟨?_, _, c1, c2⟩
  have p1 := sidePt_XY (g := g) (f := f) hn ek a (enc g.k pl) d i
  have p2 := sidePt_XY (g := g) (f := f) hn ek a (enc g.k (nbrPlace g.k pl d)) (backSide g.k pl d) (mirrored (backFlip g.k pl d) (g.N * g.n) i)
  have e := sidePoint_facing (Grid.coords hk hN hn hsym) h d hi
  unfold sidePoint at e
  rw [← Grid.sideXY_eq hk hN hn hsym h, ← Grid.sideXY_eq hk hN hn hsym hq, ← p1, ← p2] at e
  exact e.symm

/-- **C72, interfaces between levels.** What the metric of an interface between levels is computed from, when the floor is a polynomial the grid
represents. -/
theorem C72_metric_level (hinj : Set.InjOn (extension g.n g.pts) (Finset.range (g.n + 2))) {r ej ei : Nat} {a : Nat → Nat → ℝ} (hn : 1 ≤ g.n)
    (hz : 0 < g.nz) (hf : Slopes.Represents g f r ej ei a) {e : Nat} (he : e ≤ g.nz) {j i : Nat} (hj : j < g.n) (hi : i < g.n) :
    ptK g f r e ej ei (j * g.n + i) =
      ⟨if g.deep then g.radius + level g a (g.pts i) (g.pts j) (etaItf g e) else g.radius,
        Real.tan (g.x1 r (ei * g.n + i)), Real.tan (g.x2 r (ej * g.n + j)),
        trueSlope g a r 0 (g.pts i) (g.pts j) (etaItf g e), trueSlope g a r 1 (g.pts i) (g.pts j) (etaItf g e),
        trueSlope g a r 2 (g.pts i) (g.pts j) (etaItf g e), g.delta1 r, g.delta2 r, 1 / g.nz⟩ := by
  unfold ptK
  rw [Slopes.C72_levels hinj hn hz hf he (by decide : 0 < 3) hj hi, Slopes.C72_levels hinj hn hz hf he (by decide : 1 < 3) hj hi,
    Slopes.C72_levels hinj hn hz hf he (by decide : 2 < 3) hj hi]
  simp only [Grid.solXY, Nat.mul_add_mod', Nat.mod_eq_of_lt hi, div_of hi, radiusAt, deltaEta, sub_zero, heightK, stretch, hf.inside j hj i hi, level]
  split_ifs <;> simp <;> ring

/-- the hypotheses hold for a tile of the six-tile grid: the east side of panel 0, first point -/
example : Valid 1 ⟨0, 0, 0⟩ ∧ 0 < Slopes.sample.N * Slopes.sample.n ∧ ∀ i < Slopes.sample.n,
    Slopes.sample.pts (Slopes.sample.n - 1 - i) = -Slopes.sample.pts i := by
  refine ⟨by simp [Valid], by simp [Slopes.sample], fun i hi => ?_⟩
  simp only [Slopes.sample] at hi ⊢
  have : i = 0 ∨ i = 1 := by omega
  rcases this with rfl | rfl <;> norm_num

end WxVerif.Props.SlopesEdge
