import Verif.Lemmas.ShallowWater
import Verif.Spec.EulerSphere
import Verif.Props.Operators
import Verif.Props.Conservation

/-!
# Lemmas about the 3D Euler right-hand side on all tiles
-/

namespace WxVerif.EulerSphere

open WxVerif.Topology WxVerif.Sphere WxVerif.Dfr WxVerif.Flux WxVerif.Cube WxVerif.Quad
open WxVerif.ShallowWater (Grid node normalVar sgn nrm convert_normal backSide_back backFlip_back backSide_edge mirrored_lt mirrored_mirrored)
open WxVerif.ShallowWater.Grid (itfIndex)
open WxVerif.Props.Conservation (arr extension_injOn)

/-! ## The flux at a face in terms of outward velocities -/

/-- signal speed of a state with normal velocity `V` -/
noncomputable def signal (adv : Bool) (h : ℝ) (q : Nat → ℝ) (V : ℝ) : ℝ :=
  if adv then |V| else |V| + Real.sqrt (h * heatCapacityRatio * pressure3 (q 4) / q 0)

/-- outward flux of variable `v` (not a momentum) between the own state `qo` with outward velocity `Vo` and the state `qh` beyond the face with
velocity `Vh` in the same direction -/
noncomputable def phi3 (adv : Bool) (G h : ℝ) (v : Nat) (qo qh : Nat → ℝ) (Vo Vh : ℝ) : ℝ :=
  0.5 * (G * Vo * qo v + G * Vh * qh v - max (signal adv h qo Vo) (signal adv h qh Vh) * G * (qh v - qo v))

theorem signal_neg (adv : Bool) (h : ℝ) (q : Nat → ℝ) (V : ℝ) : signal adv h q (-V) = signal adv h q V := by
  simp [signal, abs_neg]

theorem phi3_antisymm (adv : Bool) (G h : ℝ) (v : Nat) (qo qh : Nat → ℝ) (Vo Vh : ℝ) :
    phi3 adv G h v qh qo (-Vh) (-Vo) = -phi3 adv G h v qo qh Vo Vh := by
  simp only [phi3, signal_neg]
  rw [max_comm]
  ring

theorem line_first (d N : Nat) (hd : d < 2) (hN : 0 < N) (adv : Bool) (G : Nat → Bool → ℝ) (h : Nat → Bool → Nat → Nat → ℝ)
    (hG : G 0 true = G 1 false) (hh : h 0 true = h 1 false)
    (old : Nat → Bool → Out3) (q : Nat → Bool → Nat → ℝ) (first last : Nat → ℝ) (v : Nat) (hv : ¬(1 ≤ v ∧ v ≤ 3)) :
    -1 * (riemannHori d N adv G h old q first last 0 false).flux v =
      phi3 adv (G 1 false) (h 1 false d d) v (q 0 false) first (-1 * (q 0 false (d + 1) / q 0 false 0)) (-1 * (first (d + 1) / first 0)) := by
  have c1 : 1 ≤ 0 + 1 ∧ 0 + 1 ≤ N + 1 := by omega
  have f1 : fullHori N q first last 0 true = first := by
    simp only [fullHori, put]
    rw [if_neg (by simp), if_pos (by simp)]
  have f2 : fullHori N q first last 1 false = q 0 false := by
    simp only [fullHori, put]
    rw [if_neg (by simp; omega), if_neg (by simp), if_pos (by omega)]
  have v1 : v ≠ 1 := by omega
  have v2 : v ≠ 2 := by omega
  have v3 : v ≠ 3 := by omega
  simp only [riemannHori, faces, c1, and_self, if_true, Nat.zero_add, Nat.sub_self, f1, f2, hG, hh, phi3, signal, neg_one_mul, abs_neg]
  rcases (show d = 0 ∨ d = 1 by omega) with rfl | rfl
  · simp only [rusanov, if_true, rusanovHoriI, v1, v2, v3, if_false]
    rw [max_comm]
    ring
  · simp only [rusanov, if_true, rusanovHoriJ, v1, v2, v3, if_false, one_ne_zero]
    rw [max_comm]
    ring

theorem line_last (d N : Nat) (hd : d < 2) (hN : 0 < N) (adv : Bool) (G : Nat → Bool → ℝ) (h : Nat → Bool → Nat → Nat → ℝ)
    (hG : G N true = G (N + 1) false) (hh : h N true = h (N + 1) false)
    (old : Nat → Bool → Out3) (q : Nat → Bool → Nat → ℝ) (first last : Nat → ℝ) (v : Nat) (hv : ¬(1 ≤ v ∧ v ≤ 3)) :
    1 * (riemannHori d N adv G h old q first last (N - 1) true).flux v =
      phi3 adv (G N true) (h N true d d) v (q (N - 1) true) last (1 * (q (N - 1) true (d + 1) / q (N - 1) true 0)) (1 * (last (d + 1) / last 0)) := by
  have c1 : N - 1 + 1 = N := by omega
  have f1 : fullHori N q first last (N + 1) false = last := by
    simp only [fullHori, put]
    rw [if_pos (by simp)]
  have f2 : fullHori N q first last N true = q (N - 1) true := by
    simp only [fullHori, put]
    rw [if_neg (by simp), if_neg (by simp; omega), if_pos (by omega)]
  have v1 : v ≠ 1 := by omega
  have v2 : v ≠ 2 := by omega
  have v3 : v ≠ 3 := by omega
  simp only [riemannHori, faces, c1, le_refl, if_true, f1, f2, ← hG, ← hh, phi3, signal, one_mul]
  rcases (show d = 0 ∨ d = 1 by omega) with rfl | rfl
  · simp only [rusanov, if_true, rusanovHoriI, v1, v2, v3, if_false]
  · simp only [rusanov, if_true, rusanovHoriJ, v1, v2, v3, if_false, one_ne_zero]

/-! ## Exchange of one line -/

variable {g : Atm} {f : Floor} {Q : Field3}

theorem exchangedScalar_eq (data : Nat → Side → Nat → ℝ) {pl : Place} (h : Valid g.k pl) (d : Side) {i : Nat} (hi : i < g.N * g.n) :
    exchangedScalar g data (enc g.k pl) d i =
      data (enc g.k (nbrPlace g.k pl d)) (backSide g.k pl d) (mirrored (backFlip g.k pl d) (g.N * g.n) i) := by
  unfold exchangedScalar exchangeScalars
  rw [show g.size = 6 * (g.k * g.k) from rfl, alltoall_enc h]
  rw [Option.getD_some, List.getD_eq_getElem?_getD, getElem?_flip _ _ (by simp) hi, List.getElem?_map,
    List.getElem?_range (mirrored_lt _ hi)]
  rfl

theorem exchangedVec_eq (hk : 0 < g.k) (hN : 0 < g.N) (hn : 0 < g.n) (hsym : ∀ i < g.n, g.pts (g.n - 1 - i) = -g.pts i)
    (data : Nat → Side → Nat → ℝ × ℝ × ℝ) {pl : Place} (h : Valid g.k pl) (d : Side) {i : Nat} (hi : i < g.N * g.n) :
    let u := data (enc g.k (nbrPlace g.k pl d)) (backSide g.k pl d) (mirrored (backFlip g.k pl d) (g.N * g.n) i)
    let c := convertContra (6 * (g.k * g.k)) (enc g.k (nbrPlace g.k pl d)) (backSide g.k pl d) u.1 u.2.1
      (alongSide (Grid.coords hk hN hn hsym) (nbrPlace g.k pl d) (backSide g.k pl d) (mirrored (backFlip g.k pl d) (g.N * g.n) i))
    exchangedVec g data (enc g.k pl) d i = (c.1, c.2, u.2.2) := by
  have hq := nbrPlace_valid h d
  have hj := mirrored_lt (backFlip g.k pl d) hi
  intro u c
  unfold exchangedVec exchangeVectors
  simp only [Bool.false_eq_true, if_false]
  rw [show g.size = 6 * (g.k * g.k) from rfl, alltoall_enc h]
  rw [Option.getD_some, List.getD_eq_getElem?_getD, Grid.boundary_eq hk hN hn hsym hq]
  rw [getElem?_flip _ _ (by simp) hi]
  rw [show WxVerif.Topology.flip (6 * (g.k * g.k)) (enc g.k (nbrPlace g.k pl d)) (backSide g.k pl d) = backFlip g.k pl d from rfl]
  rw [List.getElem?_zipWith, List.getElem?_map, List.getElem?_range hj, List.getElem?_map, List.getElem?_range hj]
  rfl

theorem received_scalar (ek a : Nat) {v : Nat} (hv : v = 0 ∨ v = 4) {pl : Place} (h : Valid g.k pl) (d : Side) {i : Nat} (hi : i < g.N * g.n) :
    received g Q ek a (enc g.k pl) d v i =
      sent g Q ek a (enc g.k (nbrPlace g.k pl d)) (backSide g.k pl d) v (mirrored (backFlip g.k pl d) (g.N * g.n) i) := by
  unfold received
  rw [if_pos hv, exchangedScalar_eq _ h d hi]

theorem received_normal (hk : 0 < g.k) (hN : 0 < g.N) (hn : 0 < g.n) (hsym : ∀ i < g.n, g.pts (g.n - 1 - i) = -g.pts i)
    (ek a : Nat) {pl : Place} (h : Valid g.k pl) (d : Side) {i : Nat} (hi : i < g.N * g.n) :
    sgn d * received g Q ek a (enc g.k pl) d (normalVar d) i =
      -(sgn (backSide g.k pl d) * sent g Q ek a (enc g.k (nbrPlace g.k pl d)) (backSide g.k pl d) (normalVar (backSide g.k pl d))
        (mirrored (backFlip g.k pl d) (g.N * g.n) i)) := by
  have e := exchangedVec_eq hk hN hn hsym (fun s d' i => (sent g Q ek a s d' 1 i, sent g Q ek a s d' 2 i, sent g Q ek a s d' 3 i)) h d hi
  have hc := convert_normal h d
    (sent g Q ek a (enc g.k (nbrPlace g.k pl d)) (backSide g.k pl d) 1 (mirrored (backFlip g.k pl d) (g.N * g.n) i))
    (sent g Q ek a (enc g.k (nbrPlace g.k pl d)) (backSide g.k pl d) 2 (mirrored (backFlip g.k pl d) (g.N * g.n) i))
    (alongSide (Grid.coords hk hN hn hsym) (nbrPlace g.k pl d) (backSide g.k pl d) (mirrored (backFlip g.k pl d) (g.N * g.n) i))
  have hl : received g Q ek a (enc g.k pl) d (normalVar d) i = nrm d
      (convertContra (6 * (g.k * g.k)) (enc g.k (nbrPlace g.k pl d)) (backSide g.k pl d)
        (sent g Q ek a (enc g.k (nbrPlace g.k pl d)) (backSide g.k pl d) 1 (mirrored (backFlip g.k pl d) (g.N * g.n) i))
        (sent g Q ek a (enc g.k (nbrPlace g.k pl d)) (backSide g.k pl d) 2 (mirrored (backFlip g.k pl d) (g.N * g.n) i))
        (alongSide (Grid.coords hk hN hn hsym) (nbrPlace g.k pl d) (backSide g.k pl d) (mirrored (backFlip g.k pl d) (g.N * g.n) i))) := by
    unfold received
    simp only [e]
    cases d <;> simp [normalVar, nrm]
  rw [hl, hc]
  congr 2
  cases backSide g.k pl d <;> rfl

theorem receivedSlope_eta (hk : 0 < g.k) (hN : 0 < g.N) (hn : 0 < g.n) (hsym : ∀ i < g.n, g.pts (g.n - 1 - i) = -g.pts i)
    (ek a : Nat) {pl : Place} (h : Valid g.k pl) (d : Side) {i : Nat} (hi : i < g.N * g.n) :
    receivedSlope g f ek a (enc g.k pl) d 2 i =
      sentSlope g f ek a (enc g.k (nbrPlace g.k pl d)) (backSide g.k pl d) 2 (mirrored (backFlip g.k pl d) (g.N * g.n) i) := by
  have e := exchangedVec_eq hk hN hn hsym (fun s d' i => (sentSlope g f ek a s d' 0 i, sentSlope g f ek a s d' 1 i, sentSlope g f ek a s d' 2 i)) h d hi
  unfold receivedSlope
  simp only [e]
  rfl

/-! ## The sides of a tile -/

/-- data of the metric at point `i` of level node `a` of side `d` of tile `r` -/
noncomputable def sidePt (g : Atm) (f : Floor) (ek a r : Nat) (d : Side) (i : Nat) : Point3 :=
  match d with
  | .south => ptJ g f r ek 0 (i / g.n) (a * g.n + i % g.n)
  | .north => ptJ g f r ek g.N (i / g.n) (a * g.n + i % g.n)
  | .west => ptI g f r ek (i / g.n) 0 (a * g.n + i % g.n)
  | .east => ptI g f r ek (i / g.n) g.N (a * g.n + i % g.n)

/-- floor there -/
def sideFloor (g : Atm) (f : Floor) (r : Nat) (d : Side) (i : Nat) : ℝ :=
  match d with
  | .south => f.itfJ r 0 (i / g.n) (i % g.n)
  | .north => f.itfJ r g.N (i / g.n) (i % g.n)
  | .west => f.itfI r (i / g.n) 0 (i % g.n)
  | .east => f.itfI r (i / g.n) g.N (i % g.n)

/-- outward flux of variable `v` -/
noncomputable def outflux (g : Atm) (f : Floor) (Q : Field3) (v ek a r : Nat) (d : Side) (i : Nat) : ℝ :=
  sgn d * match d with
  | .south => (fluxJ g f Q r ek (i / g.n) (a * g.n + i % g.n) 0 false).flux v
  | .north => (fluxJ g f Q r ek (i / g.n) (a * g.n + i % g.n) (g.N - 1) true).flux v
  | .west => (fluxI g f Q r ek (i / g.n) (a * g.n + i % g.n) 0 false).flux v
  | .east => (fluxI g f Q r ek (i / g.n) (a * g.n + i % g.n) (g.N - 1) true).flux v

/-- `Hⁿⁿ` -/
noncomputable def normalH (d : Side) (p : Point3) : ℝ := ent3 (Hcontra3 p) (normalVar d - 1) (normalVar d - 1)

theorem outflux_eq (hN : 0 < g.N) (hn : 0 < g.n) {v : Nat} (hv : v = 0 ∨ v = 4) (ek a r : Nat) (d : Side) (i : Nat) :
    outflux g f Q v ek a r d i =
      phi3 (advectionOnly g) (rootG3 (sidePt g f ek a r d i)) (normalH d (sidePt g f ek a r d i)) v
        (fun v => sent g Q ek a r d v i) (fun v => received g Q ek a r d v i)
        (sgn d * (sent g Q ek a r d (normalVar d) i / sent g Q ek a r d 0 i))
        (sgn d * (received g Q ek a r d (normalVar d) i / received g Q ek a r d 0 i)) := by
  have hv' : ¬(1 ≤ v ∧ v ≤ 3) := by omega
  have hm := Nat.mod_lt i hn
  have e1 : (a * g.n + i % g.n) / g.n = a := div_of hm
  have e2 : (a * g.n + i % g.n) % g.n = i % g.n := mod_of hm
  have e3 : i / g.n * g.n + i % g.n = i := Grid.divmod_eq g.toGrid i
  cases d
  · have := line_first 1 g.N (by omega) hN (advectionOnly g) (fun p s => rootG3 (ptJ g f r ek (itfIndex p s) (i / g.n) (a * g.n + i % g.n)))
      (fun p s => ent3 (Hcontra3 (ptJ g f r ek (itfIndex p s) (i / g.n) (a * g.n + i % g.n)))) rfl rfl (fun _ _ => ⟨fun _ => 0, 0, 0⟩)
      (fun e s v => qJ g Q r ek e (i / g.n) v (node (g.n * g.n) s (a * g.n + i % g.n)))
      (fun v => received g Q ek a r .south v i) (fun v => received g Q ek a r .north v i) v hv'
    simp only [outflux, fluxJ, e1, e2, e3]
    exact this
  · have := line_last 1 g.N (by omega) hN (advectionOnly g) (fun p s => rootG3 (ptJ g f r ek (itfIndex p s) (i / g.n) (a * g.n + i % g.n)))
      (fun p s => ent3 (Hcontra3 (ptJ g f r ek (itfIndex p s) (i / g.n) (a * g.n + i % g.n)))) rfl rfl (fun _ _ => ⟨fun _ => 0, 0, 0⟩)
      (fun e s v => qJ g Q r ek e (i / g.n) v (node (g.n * g.n) s (a * g.n + i % g.n)))
      (fun v => received g Q ek a r .south v i) (fun v => received g Q ek a r .north v i) v hv'
    simp only [outflux, fluxJ, e1, e2, e3]
    exact this
  · have := line_first 0 g.N (by omega) hN (advectionOnly g) (fun p s => rootG3 (ptI g f r ek (i / g.n) (itfIndex p s) (a * g.n + i % g.n)))
      (fun p s => ent3 (Hcontra3 (ptI g f r ek (i / g.n) (itfIndex p s) (a * g.n + i % g.n)))) rfl rfl (fun _ _ => ⟨fun _ => 0, 0, 0⟩)
      (fun e s v => qI g Q r ek (i / g.n) e v (node (g.n * g.n) s (a * g.n + i % g.n)))
      (fun v => received g Q ek a r .west v i) (fun v => received g Q ek a r .east v i) v hv'
    simp only [outflux, fluxI, e1, e2, e3]
    exact this
  · have := line_last 0 g.N (by omega) hN (advectionOnly g) (fun p s => rootG3 (ptI g f r ek (i / g.n) (itfIndex p s) (a * g.n + i % g.n)))
      (fun p s => ent3 (Hcontra3 (ptI g f r ek (i / g.n) (itfIndex p s) (a * g.n + i % g.n)))) rfl rfl (fun _ _ => ⟨fun _ => 0, 0, 0⟩)
      (fun e s v => qI g Q r ek (i / g.n) e v (node (g.n * g.n) s (a * g.n + i % g.n)))
      (fun v => received g Q ek a r .west v i) (fun v => received g Q ek a r .east v i) v hv'
    simp only [outflux, fluxI, e1, e2, e3]
    exact this

/-! ## The metric at the sides -/

theorem sidePt_R (hn : 0 < g.n) (ek a r : Nat) (d : Side) (i : Nat) :
    (sidePt g f ek a r d i).R = radiusAt g (stretch g (sideFloor g f r d i) (eta g ek (g.pts a))) := by
  have hm := Nat.mod_lt i hn
  cases d <;> simp only [sidePt, ptI, ptJ, heightI, heightJ, sideFloor, div_of hm, mod_of hm]

theorem sidePt_XY (hn : 0 < g.n) (ek a r : Nat) (d : Side) (i : Nat) :
    ((sidePt g f ek a r d i).X, (sidePt g f ek a r d i).Y) = g.toGrid.sideXY r d i := by
  have hm := Nat.mod_lt i hn
  cases d <;> simp only [sidePt, ptI, ptJ, Grid.sideXY, div_of hm, mod_of hm, Grid.itfXY1, Grid.itfXY2, itfIndex, Bool.false_eq_true, if_false,
    if_true, Nat.add_sub_cancel]

theorem sidePt_eta (hN : 0 < g.N) (hn : 0 < g.n) (ek a r : Nat) (d : Side) (i : Nat) :
    (sidePt g f ek a r d i).dRdeta = 0.5 * (sentSlope g f ek a r d 2 i + receivedSlope g f ek a r d 2 i) := by
  have hm := Nat.mod_lt i hn
  have e3 : i / g.n * g.n + i % g.n = i := Grid.divmod_eq g.toGrid i
  have a1 : ¬(1 ≤ 0 ∧ 0 ≤ g.N) := by omega
  have a2 : 1 ≤ 0 + 1 ∧ 0 + 1 ≤ g.N := by omega
  have a3 : ¬(1 ≤ g.N + 1 ∧ g.N + 1 ≤ g.N) := by omega
  have a4 : 1 ≤ g.N ∧ g.N ≤ g.N := by omega
  cases d <;> simp only [sidePt, ptI, ptJ, slopeI, slopeJ, exI, exJ, sentSlope, div_of hm, mod_of hm, e3, if_true] <;>
    first
    | (rw [if_neg a1, if_pos a2, if_pos (by simp)]; simp only [Nat.zero_add, Nat.sub_self]; ring)
    | (rw [if_pos a4, if_neg a3, if_neg (by simp), if_pos (by simp)]; ring)

theorem sidePt_de (ek a r : Nat) (d : Side) (i : Nat) :
    (sidePt g f ek a r d i).dx = g.toGrid.dx ∧ (sidePt g f ek a r d i).dy = g.toGrid.dx ∧ (sidePt g f ek a r d i).de = deltaEta g := by
  cases d <;> exact ⟨Grid.delta1_eq _ _, Grid.delta2_eq _ _, rfl⟩

/-- the two factors of the metric on a side that depend on the gnomonic coordinates -/
noncomputable def edgeFactor (d : Side) (xy : ℝ × ℝ) : ℝ × ℝ :=
  ((1 + xy.1 ^ 2) * (1 + xy.2 ^ 2) / delta2 xy.1 xy.2 ^ (1.5 : ℝ),
   delta2 xy.1 xy.2 / (1 + (if normalVar d = 1 then xy.1 else xy.2) ^ 2))

theorem edgeFactor_edge (d : Side) {x x' : ℝ} (hx : x ^ 2 = x' ^ 2) :
    edgeFactor d (edgeXY d x) = (2 * (1 + x' ^ 2) / (2 + x' ^ 2) ^ (1.5 : ℝ), (2 + x' ^ 2) / 2) := by
  cases d <;> simp [edgeFactor, edgeXY, normalVar, delta2, hx] <;> ring_nf <;> simp

theorem rootG3_eq (d : Side) (p : Point3) :
    rootG3 p = p.dx / 2 * (p.dy / 2) * (p.de / 2) * p.R ^ 2 * |p.dRdeta| * (edgeFactor d (p.X, p.Y)).1 := by
  simp only [rootG3, edgeFactor]; ring

theorem normalH_eq (d : Side) (p : Point3) (hd : p.dy = p.dx) : normalH d p = 4 / p.dx ^ 2 / p.R ^ 2 * (edgeFactor d (p.X, p.Y)).2 := by
  cases d <;> simp [normalH, ent3, Hcontra3, normalVar, edgeFactor, hd] <;> field_simp

theorem edgeFactor_facing (hk : 0 < g.k) (hN : 0 < g.N) (hn : 0 < g.n) (hsym : ∀ i < g.n, g.pts (g.n - 1 - i) = -g.pts i)
    {pl : Place} (h : Valid g.k pl) (d : Side) {i : Nat} (hi : i < g.N * g.n) :
    edgeFactor (backSide g.k pl d) (g.toGrid.sideXY (enc g.k (nbrPlace g.k pl d)) (backSide g.k pl d) (mirrored (backFlip g.k pl d) (g.N * g.n) i)) =
      edgeFactor d (g.toGrid.sideXY (enc g.k pl) d i) := by
  have hq := nbrPlace_valid h d
  rw [Grid.sideXY_eq hk hN hn hsym h, Grid.sideXY_eq hk hN hn hsym hq]
  unfold backFlip WxVerif.Topology.flip
  rw [edge_facing h d, myPanel_enc hq]
  by_cases he : atPanelEdge (6 * (g.k * g.k)) (enc g.k pl) d = true
  · simp only [he, if_true]
    obtain ⟨h1, h2, h3⟩ := facing_edge (Grid.coords hk hN hn hsym) h d hi he
    rw [(backSide_edge h d he).1] at h3
    rw [h2, h3]
    rw [edgeFactor_edge _ rfl]
    symm
    apply edgeFactor_edge
    split <;> ring
  · have he' : atPanelEdge (6 * (g.k * g.k)) (enc g.k pl) d = false := by simpa using he
    simp only [he', Bool.false_eq_true, if_false, mirrored]
    obtain ⟨h1, h2⟩ := facing_interior (Grid.coords hk hN hn hsym) h d i he'
    rw [h2]
    have hnv : normalVar (backSide g.k pl d) = normalVar d := by
      rw [atPanelEdge_enc h] at he'
      obtain ⟨p, r, c⟩ := pl
      cases d <;> simp only [decide_eq_false_iff_not] at he' <;> simp [backSide, he', normalVar]
    unfold edgeFactor
    rw [hnv]

theorem floor_facing (hk : 0 < g.k) (hN : 0 < g.N) (hn : 0 < g.n) (hsym : ∀ i < g.n, g.pts (g.n - 1 - i) = -g.pts i)
    (ht : OneFloor g f) {pl : Place} (h : Valid g.k pl) (d : Side) {i : Nat} (hi : i < g.N * g.n) :
    sideFloor g f (enc g.k (nbrPlace g.k pl d)) (backSide g.k pl d) (mirrored (backFlip g.k pl d) (g.N * g.n) i) =
      sideFloor g f (enc g.k pl) d i := by
  obtain ⟨b, hb⟩ := ht
  have own : ∀ {p : Place}, Valid g.k p → ∀ (s : Side) {m : Nat}, m < g.N * g.n →
      sideFloor g f (enc g.k p) s m = b (sidePoint (Grid.coords hk hN hn hsym) p s m) := by
    intro p hp s m hm
    have hlt := enc_lt hp
    rw [← pow_two] at hlt
    have hq1 : m / g.n < g.N := (Nat.div_lt_iff_lt_mul hn).mpr hm
    have hq2 := Nat.mod_lt m hn
    unfold sidePoint
    rw [← Grid.sideXY_eq hk hN hn hsym hp]
    have hp' := placeOf_enc hp
    cases s
    · have a := (hb _ hlt _ hq1 0 (by omega) _ hq2).2
      rw [hp'] at a
      exact a
    · have a := (hb _ hlt _ hq1 g.N le_rfl _ hq2).2
      rw [hp'] at a
      exact a
    · have a := (hb _ hlt _ hq1 0 (by omega) _ hq2).1
      rw [hp'] at a
      exact a
    · have a := (hb _ hlt _ hq1 g.N le_rfl _ hq2).1
      rw [hp'] at a
      exact a
  rw [own h d hi, own (nbrPlace_valid h d) _ (mirrored_lt _ hi), sidePoint_facing _ h d hi]

/-- the two tiles facing each other agree on the metric along their common side -/
theorem metric_facing (hk : 0 < g.k) (hN : 0 < g.N) (hn : 0 < g.n) (hsym : ∀ i < g.n, g.pts (g.n - 1 - i) = -g.pts i)
    (ht : OneFloor g f) (ek a : Nat) {pl : Place} (h : Valid g.k pl) (d : Side) {i : Nat} (hi : i < g.N * g.n) :
    let q := nbrPlace g.k pl d; let s := backSide g.k pl d; let j := mirrored (backFlip g.k pl d) (g.N * g.n) i
    rootG3 (sidePt g f ek a (enc g.k q) s j) = rootG3 (sidePt g f ek a (enc g.k pl) d i) ∧
      normalH s (sidePt g f ek a (enc g.k q) s j) = normalH d (sidePt g f ek a (enc g.k pl) d i) := by
  intro q s j
  have hq := nbrPlace_valid h d
  have hj := mirrored_lt (backFlip g.k pl d) hi
  have hR : (sidePt g f ek a (enc g.k q) s j).R = (sidePt g f ek a (enc g.k pl) d i).R := by
    rw [sidePt_R hn, sidePt_R hn, floor_facing hk hN hn hsym ht h d hi]
  have hE : (sidePt g f ek a (enc g.k q) s j).dRdeta = (sidePt g f ek a (enc g.k pl) d i).dRdeta := by
    rw [sidePt_eta hN hn, sidePt_eta hN hn, receivedSlope_eta hk hN hn hsym ek a h d hi]
    have := receivedSlope_eta (f := f) hk hN hn hsym ek a hq (backSide g.k pl d) hj
    simp only [nbrPlace_back h, backSide_back h, backFlip_back h, mirrored_mirrored _ hi] at this
    rw [this, add_comm]
  have hF : edgeFactor s ((sidePt g f ek a (enc g.k q) s j).X, (sidePt g f ek a (enc g.k q) s j).Y) =
      edgeFactor d ((sidePt g f ek a (enc g.k pl) d i).X, (sidePt g f ek a (enc g.k pl) d i).Y) := by
    rw [sidePt_XY hn, sidePt_XY hn]
    exact edgeFactor_facing hk hN hn hsym h d hi
  obtain ⟨x1, x2, x3⟩ := sidePt_de (g := g) (f := f) ek a (enc g.k q) s j
  obtain ⟨y1, y2, y3⟩ := sidePt_de (g := g) (f := f) ek a (enc g.k pl) d i
  rw [rootG3_eq s, rootG3_eq d, normalH_eq _ _ (x2.trans x1.symm), normalH_eq _ _ (y2.trans y1.symm), hR, hE, hF, x1, x2, x3, y1, y2, y3]
  exact ⟨rfl, rfl⟩

/-- Across every side of every tile the fluxes that the two processes compute separately at the same point are exactly opposite. -/
theorem facing_fluxes (hk : 0 < g.k) (hN : 0 < g.N) (hn : 0 < g.n) (hsym : ∀ i < g.n, g.pts (g.n - 1 - i) = -g.pts i)
    (ht : OneFloor g f) {v : Nat} (hv : v = 0 ∨ v = 4) (ek a : Nat) {pl : Place} (h : Valid g.k pl) (d : Side) {i : Nat} (hi : i < g.N * g.n) :
    outflux g f Q v ek a (enc g.k pl) d i +
      outflux g f Q v ek a (enc g.k (nbrPlace g.k pl d)) (backSide g.k pl d) (mirrored (backFlip g.k pl d) (g.N * g.n) i) = 0 := by
  have hq := nbrPlace_valid h d
  have hj := mirrored_lt (backFlip g.k pl d) hi
  obtain ⟨m1, m2⟩ := metric_facing hk hN hn hsym ht ek a h d hi
  have ru := received_normal (Q := Q) hk hN hn hsym ek a h d hi
  have ru' := received_normal (Q := Q) hk hN hn hsym ek a hq (backSide g.k pl d) hj
  have r0 := received_scalar (Q := Q) ek a (Or.inl rfl) h d hi
  have r4 := received_scalar (Q := Q) ek a (Or.inr rfl) h d hi
  have r0' := received_scalar (Q := Q) ek a (Or.inl rfl) hq (backSide g.k pl d) hj
  have r4' := received_scalar (Q := Q) ek a (Or.inr rfl) hq (backSide g.k pl d) hj
  simp only [nbrPlace_back h, backSide_back h, backFlip_back h, mirrored_mirrored _ hi] at ru' r0' r4'
  rw [outflux_eq hN hn hv, outflux_eq hN hn hv, m1, m2]
  set q := enc g.k (nbrPlace g.k pl d)
  set s := backSide g.k pl d
  set j := mirrored (backFlip g.k pl d) (g.N * g.n) i
  set p := enc g.k pl
  rw [← mul_div_assoc, ← mul_div_assoc, ← mul_div_assoc, ← mul_div_assoc, ru, ru', r0, r0', neg_div, neg_div]
  have key := phi3_antisymm (advectionOnly g) (rootG3 (sidePt g f ek a p d i)) (normalH d (sidePt g f ek a p d i)) v
    (fun v => sent g Q ek a p d v i) (fun v => sent g Q ek a q s v j)
    (sgn d * sent g Q ek a p d (normalVar d) i / sent g Q ek a p d 0 i) (-(sgn s * sent g Q ek a q s (normalVar s) j / sent g Q ek a q s 0 j))
  rw [neg_neg] at key
  have c1 : ∀ (A B : ℝ) (qo qh qh' : Nat → ℝ) (Vo Vh : ℝ), qh 0 = qh' 0 → qh 4 = qh' 4 →
      phi3 (advectionOnly g) A B v qo qh Vo Vh = phi3 (advectionOnly g) A B v qo qh' Vo Vh := by
    intro A B qo qh qh' Vo Vh h0 h4
    have hv' : qh v = qh' v := by rcases hv with rfl | rfl <;> assumption
    simp only [phi3, signal, h0, h4, hv']
  rw [c1 _ _ _ (fun v => received g Q ek a p d v i) (fun v => sent g Q ek a q s v j) _ _ r0 r4,
    c1 _ _ _ (fun v => received g Q ek a q s v j) (fun v => sent g Q ek a p d v i) _ _ r0' r4', key]
  ring

/-! ## The slope of the levels is exact -/

theorem arr_inside {n : Nat} {xs ws : List ℝ} (h : IsGaussRule n xs ws) {i : Nat} (hi : i < n) : -1 < arr xs i ∧ arr xs i < 1 := by
  have hl := h.nodes_length
  unfold arr
  rw [List.getD_eq_getElem _ _ (by omega)]
  exact h.inside _ (List.getElem_mem _)

/-- `dRdeta` at the solution points is the height of the column, whatever the floor -/
theorem slope_eta_inj (hinj : Set.InjOn (extension g.n g.pts) (Finset.range (g.n + 2))) (hn : 1 ≤ g.n) (hz : 0 < g.nz) (r ek ej ei : Nat) {k j i : Nat}
    (hk : k < g.n) (hj : j < g.n) (hi : i < g.n) :
    slope g f 2 r ek ej ei ((k * g.n + j) * g.n + i) = g.ztop - f.z r ej ei (j * g.n + i) := by
  have hji : j * g.n + i < g.n * g.n := by nlinarith
  have hz' : (g.nz : ℝ) ≠ 0 := by exact_mod_cast hz.ne'
  have dm : ∀ a, ((a * g.n + j) * g.n + i) % (g.n * g.n) = j * g.n + i ∧ ((a * g.n + j) * g.n + i) / (g.n * g.n) = a := by
    intro a
    rw [show (a * g.n + j) * g.n + i = a * (g.n * g.n) + (j * g.n + i) by ring]
    exact ⟨mod_of hji, div_of hji⟩
  set z := f.z r ej ei (j * g.n + i) with hzdef
  let p : Polynomial ℝ := Polynomial.C (z + (g.ztop - z) * ((ek : ℝ) / g.nz + 1 / (2 * g.nz))) + Polynomial.C ((g.ztop - z) / (2 * g.nz)) * Polynomial.X
  have hpd : p.degree < ((g.n + 2 : Nat) : WithBot Nat) := by
    apply lt_of_le_of_lt (b := (1 : WithBot Nat))
    · apply (Polynomial.degree_add_le _ _).trans
      apply max_le (Polynomial.degree_C_le.trans (by decide))
      exact Polynomial.degree_C_mul_X_le _
    · exact_mod_cast (by omega : 1 < g.n + 2)
  have ev : ∀ x, p.eval x = z + (g.ztop - z) * ((ek : ℝ) / g.nz + 1 / (2 * g.nz)) + (g.ztop - z) / (2 * g.nz) * x := by
    intro x; simp [p]
  have key := (WxVerif.Props.Operators.C42_derivative_3d g.n g.pts hinj k j i hk hj hi
    (height g f r ek ej ei)
    (fun m => heightK g f r (if g.n * g.n ≤ m then ek + 1 else ek) ej ei (m % (g.n * g.n))) p hpd).2.2
    (by
      intro a ha
      simp only [height, (dm a).1, (dm a).2, stretch, eta, deltaEta, ev, ← hzdef]
      field_simp
      ring)
    (by
      beta_reduce
      rw [if_neg (by omega), Nat.mod_eq_of_lt hji, ev]
      simp only [heightK, stretch, etaItf, ← hzdef]
      field_simp
      ring)
    (by
      beta_reduce
      rw [if_pos (by omega), Nat.add_mod_left, Nat.mod_eq_of_lt hji, ev]
      simp only [heightK, stretch, etaItf, ← hzdef]
      push_cast
      field_simp
      ring)
  simp only [slope, show (2 : Nat) ≠ 0 by decide, show (2 : Nat) ≠ 1 by decide, if_false]
  rw [key]
  simp only [p, Polynomial.derivative_add, Polynomial.derivative_C, Polynomial.derivative_mul, Polynomial.derivative_X, zero_add, zero_mul,
    mul_one, Polynomial.eval_C, deltaEta]
  field_simp
  ring

theorem slope_eta (hn : 1 ≤ g.n) {xs ws : List ℝ} (h : IsGaussRule g.n xs ws) (hp : g.pts = arr xs) (hz : 0 < g.nz) (r ek ej ei : Nat) {k j i : Nat}
    (hk : k < g.n) (hj : j < g.n) (hi : i < g.n) :
    slope g f 2 r ek ej ei ((k * g.n + j) * g.n + i) = g.ztop - f.z r ej ei (j * g.n + i) :=
  slope_eta_inj (by rw [hp]; exact extension_injOn h) hn hz r ek ej ei hk hj hi

/-- the volume element is positive at every solution point -/
theorem sqrtG_pos (hk0 : 0 < g.k) (hN : 0 < g.N) (hn : 1 ≤ g.n) {xs ws : List ℝ} (h : IsGaussRule g.n xs ws) (hp : g.pts = arr xs) (hz : 0 < g.nz)
    (hR : g.radius ≠ 0) (hs : SensibleFloor g f) {r ek ej ei k j i : Nat} (hr : r < 6 * g.k ^ 2) (hek : ek < g.nz) (hej : ej < g.N) (hei : ei < g.N)
    (hk : k < g.n) (hj : j < g.n) (hi : i < g.n) : 0 < sqrtG g f r ek ej ei ((k * g.n + j) * g.n + i) := by
  have hji : j * g.n + i < g.n * g.n := by nlinarith
  obtain ⟨h1, h2⟩ := hs r hr ej hej ei hei _ hji
  have hz' : (0 : ℝ) < g.nz := by exact_mod_cast hz
  have e := slope_eta (f := f) hn h hp hz r ek ej ei hk hj hi
  have hd := Grid.dx_pos hk0 hN
  unfold sqrtG rootG3 pt
  simp only [e, Grid.delta1_eq, Grid.delta2_eq]
  have p1 : 0 < |g.ztop - f.z r ej ei (j * g.n + i)| := abs_pos.mpr (by linarith)
  have p2 : 0 < deltaEta g := by unfold deltaEta; rw [sub_zero]; positivity
  have p3 : radiusAt g (height g f r ek ej ei ((k * g.n + j) * g.n + i)) ≠ 0 := by
    unfold radiusAt
    split
    · have dm : ((k * g.n + j) * g.n + i) % (g.n * g.n) = j * g.n + i ∧ ((k * g.n + j) * g.n + i) / (g.n * g.n) = k := by
        rw [show (k * g.n + j) * g.n + i = k * (g.n * g.n) + (j * g.n + i) by ring]
        exact ⟨mod_of hji, div_of hji⟩
      have hη : 0 < eta g ek (g.pts k) := by
        rw [hp]
        have := (arr_inside h hk).1
        unfold eta
        have q1 : (0 : ℝ) ≤ (ek : ℝ) * ((1 - 0) / (g.nz : ℝ)) := by rw [sub_zero]; positivity
        have q2 : 0 < deltaEta g / (1 - -1) * (- -1 + arr xs k) := mul_pos (by rw [sub_neg_eq_add]; positivity) (by linarith)
        linarith
      have : 0 < (g.ztop - f.z r ej ei (j * g.n + i)) * eta g ek (g.pts k) := mul_pos (by linarith) hη
      simp only [height, dm.1, dm.2, stretch]
      apply ne_of_gt
      linarith
    · exact hR
  have p4 : 0 < radiusAt g (height g f r ek ej ei ((k * g.n + j) * g.n + i)) ^ 2 := by positivity
  have p5 := delta2_pos (g.solXY r ej ei (((k * g.n + j) * g.n + i) % (g.n * g.n))).1 (g.solXY r ej ei (((k * g.n + j) * g.n + i) % (g.n * g.n))).2
  have p6 := Real.rpow_pos_of_pos p5 1.5
  positivity

end WxVerif.EulerSphere
