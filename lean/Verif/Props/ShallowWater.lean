import Verif.Lemmas.ShallowWater
import Verif.Spec.ShallowWater
import Verif.Props.Conservation

/-!
# C59: the shallow-water model conserves mass over the whole sphere
-/

namespace WxVerif.Props.ShallowWater

open WxVerif.ShallowWater WxVerif.Topology WxVerif.Sphere WxVerif.Dfr WxVerif.Flux WxVerif.Cube WxVerif.Quad
open WxVerif.Props.Conservation
open Real (tan pi)

variable {g : Grid} {t : Topography} {Q : Field}

/-- topography on the own side of a tile side -/
def topoOwn (g : Grid) (t : Topography) (r : Nat) (d : Side) (i : Nat) : ℝ :=
  match d with
  | .south => t.itfJ r 1 (i / g.n) false (i % g.n)
  | .north => t.itfJ r g.N (i / g.n) true (i % g.n)
  | .west => t.itfI r (i / g.n) 1 false (i % g.n)
  | .east => t.itfI r (i / g.n) g.N true (i % g.n)

/-- topography on the halo side of a tile side -/
def topoHalo (g : Grid) (t : Topography) (r : Nat) (d : Side) (i : Nat) : ℝ :=
  match d with
  | .south => t.itfJ r 0 (i / g.n) true (i % g.n)
  | .north => t.itfJ r (g.N + 1) (i / g.n) false (i % g.n)
  | .west => t.itfI r (i / g.n) 0 true (i % g.n)
  | .east => t.itfI r (i / g.n) (g.N + 1) false (i % g.n)

/-- outward mass flux through point `i` of side `d` of tile `r` -/
noncomputable def outflux (g : Grid) (t : Topography) (Q : Field) (r : Nat) (d : Side) (i : Nat) : ℝ :=
  sgn d * match d with
  | .south => fluxJ g t Q r 1 (i / g.n) false (i % g.n) 0
  | .north => fluxJ g t Q r g.N (i / g.n) true (i % g.n) 0
  | .west => fluxI g t Q r (i / g.n) 1 false (i % g.n) 0
  | .east => fluxI g t Q r (i / g.n) g.N true (i % g.n) 0

/-- `√Hⁿⁿ` on a side -/
noncomputable def edgeC (g : Grid) (r : Nat) (d : Side) (i : Nat) : ℝ :=
  Real.sqrt (g.H r (g.sideXY r d i) (normalVar d - 1) (normalVar d - 1))

theorem outflux_eq (hk : 0 < g.k) (hN : 0 < g.N) (hn : 0 < g.n) (hR : g.radius ≠ 0) (r : Nat) (d : Side) (i : Nat)
    (ho : 0 < sent g t Q r d 0 i - topoOwn g t r d i) (hh : 0 < received g t Q r d 0 i - topoHalo g t r d i) :
    outflux g t Q r d i = g.sqrtG r (g.sideXY r d i) * edgeC g r d i *
      phi (sent g t Q r d 0 i - topoOwn g t r d i) (sgn d * sent g t Q r d (normalVar d) i / edgeC g r d i)
        (received g t Q r d 0 i - topoHalo g t r d i) (sgn d * received g t Q r d (normalVar d) i / edgeC g r d i) := by
  have hi := Grid.divmod_eq g i
  have hN1 : (1 ≤ g.N ∧ g.N ≤ g.N) := ⟨hN, le_rfl⟩
  have hN2 : ¬(1 ≤ g.N + 1 ∧ g.N + 1 ≤ g.N) := by omega
  have h01 : ¬(1 ≤ 0 ∧ 0 ≤ g.N) := by omega
  have h11 : (1 ≤ 1 ∧ 1 ≤ g.N) := ⟨le_rfl, hN⟩
  have hanti : ∀ a b c e : ℝ, -phi a b c e = phi c (-e) a (-b) := fun a b c e => (phi_antisymm a b c e).symm
  cases d
  · have e0 : varJ g t Q r 0 (i / g.n) true (i % g.n) 0 = received g t Q r .south 0 i - topoHalo g t r .south i := by
      simp only [varJ, topoHalo, h01, if_false, if_true, and_self, hi]
    have e1 : varJ g t Q r 1 (i / g.n) false (i % g.n) 0 = sent g t Q r .south 0 i - topoOwn g t r .south i := by
      simp only [varJ, topoOwn, h11, if_true, sent, Nat.sub_self]
      simp only [and_self, if_true]
    have e2 : varJ g t Q r 0 (i / g.n) true (i % g.n) 2 = received g t Q r .south 2 i := by
      simp only [varJ, h01, if_false, if_true, and_self, hi, show (2 : Nat) ≠ 0 by decide]
    have e3 : varJ g t Q r 1 (i / g.n) false (i % g.n) 2 = sent g t Q r .south 2 i := by
      simp only [varJ, h11, if_true, sent, Nat.sub_self, show (2 : Nat) ≠ 0 by decide, if_false]
      simp only [and_self, if_true]
    have := ausmJ_mass (sideJ g t Q r 0 (i / g.n) true (i % g.n)) (sideJ g t Q r 1 (i / g.n) false (i % g.n))
      (by simp only [sideJ, e0]; exact hh) (by simp only [sideJ, e1]; exact ho) (Grid.H_pos hk hN hR _ _ 1)
      (by simp only [sideJ, Grid.itfXY2, Grid.itfIndex, if_true, Bool.false_eq_true, if_false, Nat.sub_self])
    obtain ⟨hm, hm2⟩ := this
    simp only [outflux, fluxJ, faces]
    rw [if_pos ⟨le_rfl, by omega⟩, Nat.sub_self, hm2, hm]
    simp only [sideJ, e0, e1, e2, e3, sgn, normalVar, edgeC, Grid.sideXY]
    have ex : g.itfXY2 r 0 (i / g.n) true (i % g.n) = g.itfXY2 r 1 (i / g.n) false (i % g.n) := by
      simp only [Grid.itfXY2, Grid.itfIndex, if_true, Bool.false_eq_true, if_false, Nat.sub_self]
    rw [ex, neg_one_mul, neg_one_mul, neg_one_mul, neg_div, neg_div, ← hanti]
    ring
  · have e0 : varJ g t Q r (g.N + 1) (i / g.n) false (i % g.n) 0 = received g t Q r .north 0 i - topoHalo g t r .north i := by
      simp only [varJ, topoHalo, hN2, if_false, if_true, hi, Nat.add_one_ne_zero, false_and, and_true]
    have e1 : varJ g t Q r g.N (i / g.n) true (i % g.n) 0 = sent g t Q r .north 0 i - topoOwn g t r .north i := by
      simp only [varJ, topoOwn, if_true, sent]
      rw [if_pos hN1]
    have e2 : varJ g t Q r (g.N + 1) (i / g.n) false (i % g.n) 2 = received g t Q r .north 2 i := by
      simp only [varJ, hN2, if_false, if_true, hi, Nat.add_one_ne_zero, false_and, and_true, show (2 : Nat) ≠ 0 by decide]
    have e3 : varJ g t Q r g.N (i / g.n) true (i % g.n) 2 = sent g t Q r .north 2 i := by
      simp only [varJ, sent, show (2 : Nat) ≠ 0 by decide, if_false]
      rw [if_pos hN1]
    have := ausmJ_mass (sideJ g t Q r g.N (i / g.n) true (i % g.n)) (sideJ g t Q r (g.N + 1) (i / g.n) false (i % g.n))
      (by simp only [sideJ, e1]; exact ho) (by simp only [sideJ, e0]; exact hh) (Grid.H_pos hk hN hR _ _ 1)
      (by simp only [sideJ, Grid.itfXY2, Grid.itfIndex, if_true, Bool.false_eq_true, if_false, Nat.add_sub_cancel])
    obtain ⟨hm, hm2⟩ := this
    simp only [outflux, fluxJ, faces]
    rw [if_pos le_rfl, hm]
    simp only [sideJ, e0, e1, e2, e3, sgn, normalVar, edgeC, Grid.sideXY, one_mul]
  · have e0 : varI g t Q r (i / g.n) 0 true (i % g.n) 0 = received g t Q r .west 0 i - topoHalo g t r .west i := by
      simp only [varI, topoHalo, h01, if_false, if_true, and_self, hi]
    have e1 : varI g t Q r (i / g.n) 1 false (i % g.n) 0 = sent g t Q r .west 0 i - topoOwn g t r .west i := by
      simp only [varI, topoOwn, h11, if_true, sent, Nat.sub_self]
      simp only [and_self, if_true]
    have e2 : varI g t Q r (i / g.n) 0 true (i % g.n) 1 = received g t Q r .west 1 i := by
      simp only [varI, h01, if_false, if_true, and_self, hi, show (1 : Nat) ≠ 0 by decide]
    have e3 : varI g t Q r (i / g.n) 1 false (i % g.n) 1 = sent g t Q r .west 1 i := by
      simp only [varI, h11, if_true, sent, Nat.sub_self, show (1 : Nat) ≠ 0 by decide, if_false]
      simp only [and_self, if_true]
    have hm := ausmI_mass (sideI g t Q r (i / g.n) 0 true (i % g.n)) (sideI g t Q r (i / g.n) 1 false (i % g.n))
      (by simp only [sideI, e0]; exact hh) (by simp only [sideI, e1]; exact ho) (Grid.H_pos hk hN hR _ _ 0)
      (by simp only [sideI, Grid.itfXY1, Grid.itfIndex, if_true, Bool.false_eq_true, if_false, Nat.sub_self])
    have hm2 : ∀ a b : SideSW, (ausmSWI a b).2 = (ausmSWI a b).1 := fun _ _ => rfl
    simp only [outflux, fluxI, faces]
    rw [if_pos ⟨le_rfl, by omega⟩, Nat.sub_self, hm2, hm]
    simp only [sideI, e0, e1, e2, e3, sgn, normalVar, edgeC, Grid.sideXY]
    have ex : g.itfXY1 r (i / g.n) 0 true (i % g.n) = g.itfXY1 r (i / g.n) 1 false (i % g.n) := by
      simp only [Grid.itfXY1, Grid.itfIndex, if_true, Bool.false_eq_true, if_false, Nat.sub_self]
    rw [ex, neg_one_mul, neg_one_mul, neg_one_mul, neg_div, neg_div, ← hanti]
    ring
  · have e0 : varI g t Q r (i / g.n) (g.N + 1) false (i % g.n) 0 = received g t Q r .east 0 i - topoHalo g t r .east i := by
      simp only [varI, topoHalo, hN2, if_false, if_true, hi, Nat.add_one_ne_zero, false_and, and_true]
    have e1 : varI g t Q r (i / g.n) g.N true (i % g.n) 0 = sent g t Q r .east 0 i - topoOwn g t r .east i := by
      simp only [varI, topoOwn, if_true, sent]
      rw [if_pos hN1]
    have e2 : varI g t Q r (i / g.n) (g.N + 1) false (i % g.n) 1 = received g t Q r .east 1 i := by
      simp only [varI, hN2, if_false, if_true, hi, Nat.add_one_ne_zero, false_and, and_true, show (1 : Nat) ≠ 0 by decide]
    have e3 : varI g t Q r (i / g.n) g.N true (i % g.n) 1 = sent g t Q r .east 1 i := by
      simp only [varI, sent, show (1 : Nat) ≠ 0 by decide, if_false]
      rw [if_pos hN1]
    have hm := ausmI_mass (sideI g t Q r (i / g.n) g.N true (i % g.n)) (sideI g t Q r (i / g.n) (g.N + 1) false (i % g.n))
      (by simp only [sideI, e1]; exact ho) (by simp only [sideI, e0]; exact hh) (Grid.H_pos hk hN hR _ _ 0)
      (by simp only [sideI, Grid.itfXY1, Grid.itfIndex, if_true, Bool.false_eq_true, if_false, Nat.add_sub_cancel])
    simp only [outflux, fluxI, faces]
    rw [if_pos le_rfl, hm]
    simp only [sideI, e0, e1, e2, e3, sgn, normalVar, edgeC, Grid.sideXY, one_mul]

/-! ## What is received -/

theorem received_h {pl : Place} (h : Valid g.k pl) (d : Side) {i : Nat} (hi : i < g.N * g.n) :
    received g t Q (enc g.k pl) d 0 i =
      sent g t Q (enc g.k (nbrPlace g.k pl d)) (backSide g.k pl d) 0 (mirrored (backFlip g.k pl d) (g.N * g.n) i) := by
  unfold received
  rw [if_pos rfl]
  unfold receivedH exchangeScalars
  rw [show g.size = 6 * (g.k * g.k) from rfl, alltoall_enc h]
  rw [Option.getD_some, List.getD_eq_getElem?_getD, getElem?_flip _ _ (by simp) hi, List.getElem?_map,
    List.getElem?_range (mirrored_lt _ hi)]
  rfl

theorem received_u (hk : 0 < g.k) (hN : 0 < g.N) (hn : 0 < g.n) (hsym : ∀ i < g.n, g.pts (g.n - 1 - i) = -g.pts i)
    {pl : Place} (h : Valid g.k pl) (d : Side) {i : Nat} (hi : i < g.N * g.n) :
    sgn d * received g t Q (enc g.k pl) d (normalVar d) i =
      -(sgn (backSide g.k pl d) * sent g t Q (enc g.k (nbrPlace g.k pl d)) (backSide g.k pl d) (normalVar (backSide g.k pl d))
        (mirrored (backFlip g.k pl d) (g.N * g.n) i)) := by
  have hq := nbrPlace_valid h d
  have hj := mirrored_lt (backFlip g.k pl d) hi
  have e : ((receivedU g t Q (enc g.k pl) d).getD []).getD i (0, 0, 0) =
      ((convertContra (6 * (g.k * g.k)) (enc g.k (nbrPlace g.k pl d)) (backSide g.k pl d)
        (sent g t Q (enc g.k (nbrPlace g.k pl d)) (backSide g.k pl d) 1 (mirrored (backFlip g.k pl d) (g.N * g.n) i))
        (sent g t Q (enc g.k (nbrPlace g.k pl d)) (backSide g.k pl d) 2 (mirrored (backFlip g.k pl d) (g.N * g.n) i))
        (alongSide (Grid.coords hk hN hn hsym) (nbrPlace g.k pl d) (backSide g.k pl d) (mirrored (backFlip g.k pl d) (g.N * g.n) i))).1,
       (convertContra (6 * (g.k * g.k)) (enc g.k (nbrPlace g.k pl d)) (backSide g.k pl d)
        (sent g t Q (enc g.k (nbrPlace g.k pl d)) (backSide g.k pl d) 1 (mirrored (backFlip g.k pl d) (g.N * g.n) i))
        (sent g t Q (enc g.k (nbrPlace g.k pl d)) (backSide g.k pl d) 2 (mirrored (backFlip g.k pl d) (g.N * g.n) i))
        (alongSide (Grid.coords hk hN hn hsym) (nbrPlace g.k pl d) (backSide g.k pl d) (mirrored (backFlip g.k pl d) (g.N * g.n) i))).2, 0) := by
    unfold receivedU exchangeVectors
    simp only [Bool.false_eq_true, if_false]
    rw [show g.size = 6 * (g.k * g.k) from rfl, alltoall_enc h]
    rw [Option.getD_some, List.getD_eq_getElem?_getD, Grid.boundary_eq hk hN hn hsym hq]
    rw [getElem?_flip _ _ (by simp) hi]
    rw [show WxVerif.Topology.flip (6 * (g.k * g.k)) (enc g.k (nbrPlace g.k pl d)) (backSide g.k pl d) = backFlip g.k pl d from rfl]
    rw [List.getElem?_zipWith, List.getElem?_map, List.getElem?_range hj, List.getElem?_map, List.getElem?_range hj]
    rfl
  have hc := convert_normal h d
    (sent g t Q (enc g.k (nbrPlace g.k pl d)) (backSide g.k pl d) 1 (mirrored (backFlip g.k pl d) (g.N * g.n) i))
    (sent g t Q (enc g.k (nbrPlace g.k pl d)) (backSide g.k pl d) 2 (mirrored (backFlip g.k pl d) (g.N * g.n) i))
    (alongSide (Grid.coords hk hN hn hsym) (nbrPlace g.k pl d) (backSide g.k pl d) (mirrored (backFlip g.k pl d) (g.N * g.n) i))
  have hl : received g t Q (enc g.k pl) d (normalVar d) i = nrm d
      (convertContra (6 * (g.k * g.k)) (enc g.k (nbrPlace g.k pl d)) (backSide g.k pl d)
        (sent g t Q (enc g.k (nbrPlace g.k pl d)) (backSide g.k pl d) 1 (mirrored (backFlip g.k pl d) (g.N * g.n) i))
        (sent g t Q (enc g.k (nbrPlace g.k pl d)) (backSide g.k pl d) 2 (mirrored (backFlip g.k pl d) (g.N * g.n) i))
        (alongSide (Grid.coords hk hN hn hsym) (nbrPlace g.k pl d) (backSide g.k pl d) (mirrored (backFlip g.k pl d) (g.N * g.n) i))) := by
    unfold received
    simp only [e]
    cases d <;> simp [normalVar, nrm]
  rw [hl, hc]
  congr 2
  cases backSide g.k pl d <;> rfl

/-- the two tiles facing each other agree on the metric along their common side -/
theorem metric_facing (hk : 0 < g.k) (hN : 0 < g.N) (hn : 0 < g.n) (hsym : ∀ i < g.n, g.pts (g.n - 1 - i) = -g.pts i)
    {pl : Place} (h : Valid g.k pl) (d : Side) {i : Nat} (hi : i < g.N * g.n) :
    let q := nbrPlace g.k pl d; let s := backSide g.k pl d; let j := mirrored (backFlip g.k pl d) (g.N * g.n) i
    edgeC g (enc g.k q) s j = edgeC g (enc g.k pl) d i ∧
      g.sqrtG (enc g.k q) (g.sideXY (enc g.k q) s j) = g.sqrtG (enc g.k pl) (g.sideXY (enc g.k pl) d i) := by
  have hq := nbrPlace_valid h d
  simp only [edgeC, Grid.sideXY_eq hk hN hn hsym h, Grid.sideXY_eq hk hN hn hsym hq]
  unfold backFlip WxVerif.Topology.flip
  rw [edge_facing h d, myPanel_enc hq]
  by_cases he : atPanelEdge (6 * (g.k * g.k)) (enc g.k pl) d = true
  · simp only [he, if_true]
    obtain ⟨h1, h2, h3⟩ := facing_edge (Grid.coords hk hN hn hsym) h d hi he
    rw [(backSide_edge h d he).1] at h3
    rw [h2, h3]
    have := Grid.metric_edge (g := g) (enc g.k (nbrPlace g.k pl d)) (enc g.k pl) (backSide g.k pl d) d
      (x := alongSide (Grid.coords hk hN hn hsym) (nbrPlace g.k pl d) (backSide g.k pl d)
        (mirrored (flips (nbrPlace g.k pl d).panel (backSide g.k pl d)) (g.N * g.n) i))
      (x' := if flips (nbrPlace g.k pl d).panel (backSide g.k pl d) = true then
          -alongSide (Grid.coords hk hN hn hsym) (nbrPlace g.k pl d) (backSide g.k pl d)
            (mirrored (flips (nbrPlace g.k pl d).panel (backSide g.k pl d)) (g.N * g.n) i)
        else alongSide (Grid.coords hk hN hn hsym) (nbrPlace g.k pl d) (backSide g.k pl d)
            (mirrored (flips (nbrPlace g.k pl d).panel (backSide g.k pl d)) (g.N * g.n) i))
      (by split <;> ring)
    exact ⟨by rw [this.1], this.2⟩
  · have he' : atPanelEdge (6 * (g.k * g.k)) (enc g.k pl) d = false := by simpa using he
    simp only [he', Bool.false_eq_true, if_false, mirrored]
    obtain ⟨h1, h2⟩ := facing_interior (Grid.coords hk hN hn hsym) h d i he'
    rw [h2]
    have hnv : normalVar (backSide g.k pl d) = normalVar d := by
      rw [atPanelEdge_enc h] at he'
      obtain ⟨p, r, c⟩ := pl
      cases d <;> simp only [decide_eq_false_iff_not] at he' <;> simp [backSide, he', normalVar]
    rw [hnv]
    unfold Grid.H Grid.sqrtG
    simp only [Grid.delta1_eq, Grid.delta2_eq, and_self]

/-- the topography of the two tiles facing each other is the same -/
theorem topo_facing (hk : 0 < g.k) (hN : 0 < g.N) (hn : 0 < g.n) (hsym : ∀ i < g.n, g.pts (g.n - 1 - i) = -g.pts i)
    (ht : OneTopography g t) {pl : Place} (h : Valid g.k pl) (d : Side) {i : Nat} (hi : i < g.N * g.n) :
    let q := nbrPlace g.k pl d; let s := backSide g.k pl d; let j := mirrored (backFlip g.k pl d) (g.N * g.n) i
    topoHalo g t (enc g.k pl) d i = topoOwn g t (enc g.k pl) d i ∧ topoOwn g t (enc g.k q) s j = topoOwn g t (enc g.k pl) d i := by
  obtain ⟨b, hb⟩ := ht
  have own : ∀ {p : Place}, Valid g.k p → ∀ (s : Side) {m : Nat}, m < g.N * g.n →
      topoOwn g t (enc g.k p) s m = b (sidePoint (Grid.coords hk hN hn hsym) p s m) ∧
      topoHalo g t (enc g.k p) s m = b (sidePoint (Grid.coords hk hN hn hsym) p s m) := by
    intro p hp s m hm
    have hlt := enc_lt hp
    rw [← pow_two] at hlt
    have hq1 : m / g.n < g.N := (Nat.div_lt_iff_lt_mul hn).mpr hm
    have hq2 := Nat.mod_lt m hn
    unfold sidePoint
    rw [← Grid.sideXY_eq hk hN hn hsym hp]
    have hp' := placeOf_enc hp
    have f1 : AtFace g.N 1 false := by simp [AtFace]
    have f2 : AtFace g.N 0 true := by simp [AtFace]
    have f3 : AtFace g.N g.N true := by simp [AtFace]
    have f4 : AtFace g.N (g.N + 1) false := by simp [AtFace]
    cases s
    · have a := (hb _ hlt _ hq1 1 false f1 _ hq2).2
      have c := (hb _ hlt _ hq1 0 true f2 _ hq2).2
      rw [hp'] at a c
      exact ⟨a, c⟩
    · have a := (hb _ hlt _ hq1 _ true f3 _ hq2).2
      have c := (hb _ hlt _ hq1 _ false f4 _ hq2).2
      rw [hp'] at a c
      exact ⟨a, c⟩
    · have a := (hb _ hlt _ hq1 1 false f1 _ hq2).1
      have c := (hb _ hlt _ hq1 0 true f2 _ hq2).1
      rw [hp'] at a c
      exact ⟨a, c⟩
    · have a := (hb _ hlt _ hq1 _ true f3 _ hq2).1
      have c := (hb _ hlt _ hq1 _ false f4 _ hq2).1
      rw [hp'] at a c
      exact ⟨a, c⟩
  have h1 := own h d hi
  have h2 := own (nbrPlace_valid h d) (backSide g.k pl d) (mirrored_lt (backFlip g.k pl d) hi)
  refine ⟨h1.2.trans h1.1.symm, ?_⟩
  rw [h2.1, h1.1, sidePoint_facing _ h d hi]

theorem own_pos (hN : 0 < g.N) (hn : 0 < g.n) (hpos : PositiveDepth g t Q) {r : Nat} (hr : r < 6 * g.k ^ 2) (d : Side) {i : Nat}
    (hi : i < g.N * g.n) : 0 < sent g t Q r d 0 i - topoOwn g t r d i := by
  have hq1 : i / g.n < g.N := (Nat.div_lt_iff_lt_mul hn).mpr hi
  have hq2 := Nat.mod_lt i hn
  cases d
  · have := (hpos r hr _ hq1 1 le_rfl hN false _ hq2).2
    simp only [varJ, if_true] at this
    rw [if_pos ⟨le_rfl, hN⟩] at this
    exact this
  · have := (hpos r hr _ hq1 g.N hN le_rfl true _ hq2).2
    simp only [varJ, if_true] at this
    rw [if_pos ⟨hN, le_rfl⟩] at this
    exact this
  · have := (hpos r hr _ hq1 1 le_rfl hN false _ hq2).1
    simp only [varI, if_true] at this
    rw [if_pos ⟨le_rfl, hN⟩] at this
    exact this
  · have := (hpos r hr _ hq1 g.N hN le_rfl true _ hq2).1
    simp only [varI, if_true] at this
    rw [if_pos ⟨hN, le_rfl⟩] at this
    exact this

/-- Across every side of every tile — inside the panels, across all panel edges, in either orientation — what leaves one tile
enters the facing one: the mass fluxes the two processes compute separately at the same point are exactly opposite. -/
theorem facing_fluxes (hk : 0 < g.k) (hN : 0 < g.N) (hn : 0 < g.n) (hsym : ∀ i < g.n, g.pts (g.n - 1 - i) = -g.pts i)
    (hR : g.radius ≠ 0) (ht : OneTopography g t) (hpos : PositiveDepth g t Q) {pl : Place} (h : Valid g.k pl) (d : Side) {i : Nat}
    (hi : i < g.N * g.n) :
    outflux g t Q (enc g.k pl) d i +
      outflux g t Q (enc g.k (nbrPlace g.k pl d)) (backSide g.k pl d) (mirrored (backFlip g.k pl d) (g.N * g.n) i) = 0 := by
  have hq := nbrPlace_valid h d
  have hj := mirrored_lt (backFlip g.k pl d) hi
  have hlt := enc_lt h
  have hlt' := enc_lt hq
  rw [← pow_two] at hlt hlt'
  obtain ⟨t1, t2⟩ := topo_facing hk hN hn hsym ht h d hi
  obtain ⟨t3, t4⟩ := topo_facing hk hN hn hsym ht hq (backSide g.k pl d) hj
  obtain ⟨m1, m2⟩ := metric_facing hk hN hn hsym h d hi
  have rh := received_h (t := t) (Q := Q) h d hi
  have ru := received_u (t := t) (Q := Q) hk hN hn hsym h d hi
  have rh' := received_h (t := t) (Q := Q) hq (backSide g.k pl d) hj
  have ru' := received_u (t := t) (Q := Q) hk hN hn hsym hq (backSide g.k pl d) hj
  simp only [nbrPlace_back h, backSide_back h, backFlip_back h, mirrored_mirrored _ hi] at rh' ru' t4
  have p1 := own_pos hN hn hpos hlt d hi
  have p2 := own_pos hN hn hpos hlt' (backSide g.k pl d) hj
  rw [outflux_eq hk hN hn hR _ d i p1 (by rw [rh, t1, ← t2]; exact p2),
    outflux_eq hk hN hn hR _ (backSide g.k pl d) _ p2 (by rw [rh', t3, t2]; exact p1)]
  rw [m1, m2, rh, ru, rh', ru', t1, t3, t2]
  have := phi_antisymm (sent g t Q (enc g.k pl) d 0 i - topoOwn g t (enc g.k pl) d i)
    (sgn d * sent g t Q (enc g.k pl) d (normalVar d) i / edgeC g (enc g.k pl) d i)
    (sent g t Q (enc g.k (nbrPlace g.k pl d)) (backSide g.k pl d) 0 (mirrored (backFlip g.k pl d) (g.N * g.n) i) - topoOwn g t (enc g.k pl) d i)
    (-(sgn (backSide g.k pl d) * sent g t Q (enc g.k (nbrPlace g.k pl d)) (backSide g.k pl d) (normalVar (backSide g.k pl d))
        (mirrored (backFlip g.k pl d) (g.N * g.n) i)) / edgeC g (enc g.k pl) d i)
  rw [neg_div, neg_neg, ← neg_div] at this
  rw [this]
  rw [neg_div]
  ring

/-! ## The whole sphere -/

/-- all sides -/
def sides : Finset Side := {.south, .north, .west, .east}

theorem mem_sides (d : Side) : d ∈ sides := by cases d <;> simp [sides]

theorem sum_sides (f : Side → ℝ) : ∑ d ∈ sides, f d = f .south + f .north + f .west + f .east := by
  simp [sides, add_assoc]

/-- `w` along a whole tile side -/
theorem weights_mirror {n N : Nat} {w : Nat → ℝ} (hn : 0 < n) (hw : ∀ i < n, w (n - 1 - i) = w i) (b : Bool) {i : Nat} (hi : i < N * n) :
    w (mirrored b (N * n) i % n) = w (i % n) := by
  unfold mirrored
  split
  · rw [(Grid.rev_divmod hn hi).2.1, hw _ (Nat.mod_lt i hn)]
  · rfl

/-- budget of one tile -/
theorem tile_budget (hk : 0 < g.k) (hN : 0 < g.N) (hn : 1 ≤ g.n) {xs ws : List ℝ} (h : IsGaussRule g.n xs ws) (hp : g.pts = arr xs)
    (hR : g.radius ≠ 0) (r : Nat) :
    ∑ ej ∈ Finset.range g.N, ∑ ei ∈ Finset.range g.N, elemSum2 g.n (arr ws) (fun c =>
        g.sqrtG r (g.solXY r ej ei c) * rhs g t Q r ej ei 0 c) =
      -∑ d ∈ sides, ∑ i ∈ Finset.range (g.N * g.n), arr ws (i % g.n) * outflux g t Q r d i := by
  have hz : ∀ ej ei c, forcing g t Q r ej ei 0 c = 0 := by intro ej ei c; simp [forcing, forcingAt]
  have hs : ∀ (e l : Nat), l < g.n → decide (g.n ≤ l) = false ∧ l % g.n = l ∧ decide (g.n ≤ g.n + l) = true ∧ (g.n + l) % g.n = l := by
    intro e l hl
    refine ⟨by simpa using hl, Nat.mod_eq_of_lt hl, by simp, ?_⟩
    rw [Nat.add_mod_left, Nat.mod_eq_of_lt hl]
  have key := C43_budget_2d hn h g.N g.N hN hN (fun ej ei c => g.sqrtG r (g.solXY r ej ei c))
    (fun ej ei c => pointwiseSW 0 (solSide g Q r ej ei c) 0) (fun ej ei c => pointwiseSW 1 (solSide g Q r ej ei c) 0)
    (fun ej ei m => fluxI g t Q r ej (ei + 1) (decide (g.n ≤ m)) (m % g.n) 0)
    (fun ej ei m => fluxJ g t Q r (ej + 1) ei (decide (g.n ≤ m)) (m % g.n) 0)
    (fun ej ei c => (Grid.sqrtG_pos hk hN hR r _).ne')
    (by
      intro ej ei hei l hl
      obtain ⟨a, b, c, d⟩ := hs 0 l hl
      beta_reduce
      rw [a, b, c, d]
      simp only [fluxI, faces]
      rw [if_pos ⟨by omega, by omega⟩, if_pos (by omega)]
      rfl)
    (by
      intro ej ei hej l hl
      obtain ⟨a, b, c, d⟩ := hs 0 l hl
      beta_reduce
      rw [a, b, c, d]
      simp only [fluxJ, faces]
      rw [if_pos ⟨by omega, by omega⟩, if_pos (by omega)]
      have : ∀ x y : SideSW, (ausmJ x y).2 = (ausmJ x y).1 := by
        intro x y
        unfold ausmJ ausmSWJ
        rcases machSWJ x with _ | _ <;> rcases machSWJ y with _ | _ <;> rfl
      rw [this]
      rfl)
  simp only [rhs, hz, sub_zero, hp]
  beta_reduce at key
  rw [key, sum_sides]
  simp only [sum_range_mul g.N g.n]
  have ew : ∀ e : Nat, ∀ l ∈ Finset.range g.n, ∀ F : Nat → ℝ, arr ws ((e * g.n + l) % g.n) * F (e * g.n + l) = arr ws l * F (e * g.n + l) := by
    intro e l hl F; rw [mod_of (Finset.mem_range.mp hl)]
  have hN1 : g.N - 1 + 1 = g.N := by omega
  have west : ∀ e, ∀ l ∈ Finset.range g.n, outflux g t Q r .west (e * g.n + l) = -fluxI g t Q r e (0 + 1) (decide (g.n ≤ l)) (l % g.n) 0 := by
    intro e l hl
    have hl' := Finset.mem_range.mp hl
    obtain ⟨a, b, c, d⟩ := hs 0 l hl'
    simp only [outflux, sgn, div_of hl', mod_of hl', a, b]; ring
  have east : ∀ e, ∀ l ∈ Finset.range g.n, outflux g t Q r .east (e * g.n + l) =
      fluxI g t Q r e (g.N - 1 + 1) (decide (g.n ≤ g.n + l)) ((g.n + l) % g.n) 0 := by
    intro e l hl
    have hl' := Finset.mem_range.mp hl
    obtain ⟨a, b, c, d⟩ := hs 0 l hl'
    simp only [outflux, sgn, div_of hl', mod_of hl', c, d, hN1]; ring
  have south : ∀ e, ∀ l ∈ Finset.range g.n, outflux g t Q r .south (e * g.n + l) = -fluxJ g t Q r (0 + 1) e (decide (g.n ≤ l)) (l % g.n) 0 := by
    intro e l hl
    have hl' := Finset.mem_range.mp hl
    obtain ⟨a, b, c, d⟩ := hs 0 l hl'
    simp only [outflux, sgn, div_of hl', mod_of hl', a, b]; ring
  have north : ∀ e, ∀ l ∈ Finset.range g.n, outflux g t Q r .north (e * g.n + l) =
      fluxJ g t Q r (g.N - 1 + 1) e (decide (g.n ≤ g.n + l)) ((g.n + l) % g.n) 0 := by
    intro e l hl
    have hl' := Finset.mem_range.mp hl
    obtain ⟨a, b, c, d⟩ := hs 0 l hl'
    simp only [outflux, sgn, div_of hl', mod_of hl', c, d, hN1]; ring
  have comb : ∀ (A B : Nat → Nat → ℝ) (S N' : Nat → ℝ),
      (∀ e, ∀ l ∈ Finset.range g.n, S (e * g.n + l) = -A e l) → (∀ e, ∀ l ∈ Finset.range g.n, N' (e * g.n + l) = B e l) →
      ∑ e ∈ Finset.range g.N, ∑ l ∈ Finset.range g.n, arr ws l * (B e l - A e l) =
        (∑ e ∈ Finset.range g.N, ∑ l ∈ Finset.range g.n, arr ws ((e * g.n + l) % g.n) * S (e * g.n + l)) +
        ∑ e ∈ Finset.range g.N, ∑ l ∈ Finset.range g.n, arr ws ((e * g.n + l) % g.n) * N' (e * g.n + l) := by
    intro A B S N' h1 h2
    rw [← Finset.sum_add_distrib]
    apply Finset.sum_congr rfl
    intro e _
    rw [← Finset.sum_add_distrib]
    apply Finset.sum_congr rfl
    intro l hl
    rw [ew e l hl, ew e l hl, h1 e l hl, h2 e l hl]
    ring
  rw [comb _ _ _ _ west east, comb _ _ _ _ south north]
  ring

/-- **C59** For every shallow-water state with positive depth on the element sides, every number of processes `6 k²`, every number of
elements and every Gauss rule, the integral over the sphere of the depth tendency is exactly zero: the right-hand side neither creates nor
destroys mass, inside elements, between elements, between tiles or across panel edges. -/
theorem C59_mass_conserved (hk : 0 < g.k) (hN : 0 < g.N) (hn : 1 ≤ g.n) {xs ws : List ℝ} (h : IsGaussRule g.n xs ws)
    (hp : g.pts = arr xs) (hR : g.radius ≠ 0) (ht : OneTopography g t) (hpos : PositiveDepth g t Q) :
    total g (arr ws) (fun r ej ei c => rhs g t Q r ej ei 0 c) = 0 := by
  have hl := h.nodes_length
  have hlw := h.weights_length
  have hsym : ∀ i < g.n, g.pts (g.n - 1 - i) = -g.pts i := by
    intro i hi
    have hm : xs.reverse[i]? = (xs.map fun x => -x)[i]? := by rw [h.mirror]
    rw [List.getElem?_reverse (by omega), List.getElem?_map, hl, List.getElem?_eq_getElem (by omega), List.getElem?_eq_getElem (by omega)] at hm
    rw [hp]
    unfold arr
    rw [List.getD_eq_getElem _ _ (by omega), List.getD_eq_getElem _ _ (by omega)]
    simpa using hm
  have hw : ∀ i < g.n, arr ws (g.n - 1 - i) = arr ws i := by
    intro i hi
    have hm : ws.reverse[i]? = ws[i]? := by rw [h.weights_mirror]
    rw [List.getElem?_reverse (by omega), hlw, List.getElem?_eq_getElem (by omega), List.getElem?_eq_getElem (by omega)] at hm
    unfold arr
    rw [List.getD_eq_getElem _ _ (by omega), List.getD_eq_getElem _ _ (by omega)]
    simpa using hm
  have hb := fun r => tile_budget (t := t) (Q := Q) hk hN hn h hp hR r
  unfold elemSum2 at hb
  unfold total
  rw [Finset.sum_congr rfl fun r _ => hb r, Finset.sum_neg_distrib, neg_eq_zero]
  simp only [Finset.sum_sigma']
  apply Finset.sum_involution (fun (x : (_ : Nat) × (_ : Side) × Nat) _ =>
    ⟨enc g.k (nbrPlace g.k (placeOf g.k x.1) x.2.1), backSide g.k (placeOf g.k x.1) x.2.1,
      mirrored (backFlip g.k (placeOf g.k x.1) x.2.1) (g.N * g.n) x.2.2⟩)
  · rintro ⟨r, d, i⟩ hx
    simp only [Finset.mem_sigma, Finset.mem_range] at hx
    obtain ⟨hr, -, hi⟩ := hx
    rw [pow_two] at hr
    have hv := placeOf_valid hr
    have hre := enc_placeOf (k := g.k) (rank := r)
    generalize placeOf g.k r = pl at hv hre
    subst hre
    simp only
    rw [weights_mirror hn hw _ hi, ← mul_add, facing_fluxes hk hN hn hsym hR ht hpos hv d hi, mul_zero]
  · rintro ⟨r, d, i⟩ hx _ e
    simp only [Finset.mem_sigma, Finset.mem_range] at hx
    obtain ⟨hr, -, hi⟩ := hx
    rw [pow_two] at hr
    have hv := placeOf_valid hr
    have e1 := congrArg Sigma.fst e
    simp only at e1
    have := congrArg (placeOf g.k) e1
    rw [placeOf_enc (nbrPlace_valid hv d)] at this
    exact nbrPlace_ne_self hv d this
  · rintro ⟨r, d, i⟩ hx
    simp only [Finset.mem_sigma, Finset.mem_range] at hx ⊢
    obtain ⟨hr, -, hi⟩ := hx
    rw [pow_two] at hr
    have hv := placeOf_valid hr
    refine ⟨by rw [pow_two]; exact enc_lt (nbrPlace_valid hv d), mem_sides _, mirrored_lt _ hi⟩
  · rintro ⟨r, d, i⟩ hx
    simp only [Finset.mem_sigma, Finset.mem_range] at hx
    obtain ⟨hr, -, hi⟩ := hx
    rw [pow_two] at hr
    have hv := placeOf_valid hr
    have hq := nbrPlace_valid hv d
    simp only [placeOf_enc hq, nbrPlace_back hv, backSide_back hv, backFlip_back hv, mirrored_mirrored _ hi, enc_placeOf]

/-- **C59** Hence every time integrator whose result is the state plus any combination of tendencies of such states (all explicit Runge–Kutta
and multistep formulas) keeps the total mass exactly. -/
theorem C59_steps_keep_mass (hk : 0 < g.k) (hN : 0 < g.N) (hn : 1 ≤ g.n) {xs ws : List ℝ} (h : IsGaussRule g.n xs ws)
    (hp : g.pts = arr xs) (hR : g.radius ≠ 0) (ht : OneTopography g t) (m : Nat) (b : Nat → ℝ) (stage : Nat → Field)
    (hpos : ∀ s < m, PositiveDepth g t (stage s)) :
    total g (arr ws) (fun r ej ei c => Q r ej ei 0 c + ∑ s ∈ Finset.range m, b s * rhs g t (stage s) r ej ei 0 c) =
      total g (arr ws) (fun r ej ei c => Q r ej ei 0 c) := by
  induction m with
  | zero => simp
  | succ m ih =>
    rw [← ih fun s hs => hpos s (by omega)]
    have e := C59_mass_conserved hk hN hn h hp hR ht (hpos m (by omega))
    have lin : ∀ (p q : Nat → Nat → Nat → Nat → ℝ) (β : ℝ),
        total g (arr ws) (fun r ej ei c => p r ej ei c + β * q r ej ei c) = total g (arr ws) p + β * total g (arr ws) q := by
      intro p q β
      unfold total
      simp only [Finset.mul_sum, ← Finset.sum_add_distrib]
      refine Finset.sum_congr rfl fun _ _ => Finset.sum_congr rfl fun _ _ => Finset.sum_congr rfl fun _ _ =>
        Finset.sum_congr rfl fun _ _ => Finset.sum_congr rfl fun _ _ => ?_
      ring
    simp only [Finset.sum_range_succ, ← add_assoc]
    rw [lin, e, mul_zero, add_zero]

/-- the hypotheses are met by all the code's rules, any decomposition, any uniform depth and any momenta over a flat bottom -/
theorem positiveDepth_uniform (hn : 1 ≤ g.n) {xs ws : List ℝ} (h : IsGaussRule g.n xs ws) (hp : g.pts = arr xs) {H : ℝ} (hH : 0 < H)
    (hQ : ∀ r ej ei c, Q r ej ei 0 c = H) : PositiveDepth g Topography.none Q := by
  have hinj : Set.InjOn g.pts (Finset.range g.n) := by
    intro a ha b hb hab
    have ha' : a < g.n := by simpa using ha
    have hb' : b < g.n := by simpa using hb
    rw [hp] at hab
    have := extension_injOn h (show a + 1 ∈ _ by simpa using by omega) (show b + 1 ∈ _ by simpa using by omega)
      (by rw [WxVerif.Props.Operators.extension_mid _ ha', WxVerif.Props.Operators.extension_mid _ hb', hab])
    omega
  have hd : (Polynomial.C H).degree < ((g.n : Nat) : WithBot Nat) :=
    lt_of_le_of_lt Polynomial.degree_C_le (by exact_mod_cast hn)
  intro r _ e _ p hp1 hp2 s l hl
  have key : ∀ e e', (extrapI g Topography.none Q r e e' 0 l = H ∧ extrapI g Topography.none Q r e e' 0 (g.n + l) = H) ∧
      (extrapJ g Topography.none Q r e e' 0 l = H ∧ extrapJ g Topography.none Q r e e' 0 (g.n + l) = H) := by
    intro e e'
    obtain ⟨k1, k2⟩ := WxVerif.Props.Operators.C42_extrap_2d g.n g.pts hinj (unpacked Topography.none Q r e e' 0) l hl (Polynomial.C H) hd
    simp only [Polynomial.eval_C] at k1 k2
    have hu : ∀ c, unpacked Topography.none Q r e e' 0 c = H := by intro c; simp [unpacked, Topography.none, hQ]
    exact ⟨k1 fun a _ => hu _, k2 fun a _ => hu _⟩
  have hin : 1 ≤ p ∧ p ≤ g.N := ⟨hp1, hp2⟩
  simp only [varI, varJ, if_true]
  rw [if_pos hin, if_pos hin]
  rw [show ∀ a b c d e, Topography.none.itfI a b c d e = 0 from fun _ _ _ _ _ => rfl, show ∀ a b c d e, Topography.none.itfJ a b c d e = 0 from fun _ _ _ _ _ => rfl,
    sub_zero, sub_zero]
  cases s
  · simp only [node, Bool.false_eq_true, if_false]
    exact ⟨by rw [show extrapI g Topography.none Q r e (p - 1) 0 l = H from (key e (p - 1)).1.1]; exact hH,
      by rw [show extrapJ g Topography.none Q r (p - 1) e 0 l = H from (key (p - 1) e).2.1]; exact hH⟩
  · simp only [node, if_true]
    exact ⟨by rw [show extrapI g Topography.none Q r e (p - 1) 0 (g.n + l) = H from (key e (p - 1)).1.2]; exact hH,
      by rw [show extrapJ g Topography.none Q r (p - 1) e 0 (g.n + l) = H from (key (p - 1) e).2.2]; exact hH⟩

/-- 24 processes, 3 × 3 elements per tile, 4 points per element side, the earth, a uniform layer with a non-uniform momentum -/
example : ∃ (g : Grid) (xs ws : List ℝ) (Q : Field), g.k = 2 ∧ g.N = 3 ∧ g.n = 4 ∧ gaussLegendre 4 = .rule xs ws ∧ g.pts = arr xs ∧
    g.radius = 6371220 ∧ Q 5 1 1 1 7 ≠ Q 5 1 1 1 8 ∧ OneTopography g Topography.none ∧ PositiveDepth g Topography.none Q ∧
    total g (arr ws) (fun r ej ei c => rhs g Topography.none Q r ej ei 0 c) = 0 := by
  obtain ⟨xs, ws, hr, h⟩ := WxVerif.Props.Quadrature.C41_rule 4 (by omega) (by omega)
  let g : Grid := ⟨2, 3, 4, arr xs, 6371220, 7.29212e-5, fun _ => ⟨0, 0, 0⟩⟩
  let Q : Field := fun r ej ei v c => if v = 0 then 1000 else r + ej * c + ei
  have ht : OneTopography g Topography.none := ⟨fun _ => 0, fun _ _ _ _ _ _ _ _ _ => ⟨rfl, rfl⟩⟩
  have hp : PositiveDepth g Topography.none Q :=
    positiveDepth_uniform (g := g) (by simp [g]) (h := h) rfl (H := 1000) (by norm_num) (by intros; simp [Q])
  refine ⟨g, xs, ws, Q, rfl, rfl, rfl, hr, rfl, rfl, by norm_num [Q], ht, hp, ?_⟩
  exact C59_mass_conserved (g := g) (by simp [g]) (by simp [g]) (by simp [g]) h rfl (by norm_num [g]) ht hp

end WxVerif.Props.ShallowWater
