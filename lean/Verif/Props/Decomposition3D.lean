import Verif.Props.Decomposition

/-!
# The tendencies of the 3D model do not depend on how the panels are cut into tiles (C83)
-/

namespace WxVerif.Props.Decomposition3D

open WxVerif.Topology WxVerif.Cube WxVerif.Decomposition WxVerif.Spec.Decomposition WxVerif.Props.Decomposition
open WxVerif.EulerSphere WxVerif.Sphere WxVerif.Dfr WxVerif.Flux
open WxVerif.ShallowWater (Grid node)
open WxVerif.ShallowWater.Grid (itfIndex)
open WxVerif.Props.Decomposition.SW (vecmul_congr inner_side)

variable {g : Atm} {f' f : Floor} {Q W : Field3} {pl : Place}

/-! ## Heights and slopes -/

theorem z_at (hf : HoldsFloor g f' f) (h : Valid g.k pl) {ej ei c : Nat} (hj : ej < g.N) (hi : ei < g.N) (hc : c < g.n * g.n) :
    f'.z (enc g.k pl) ej ei c = f.z pl.panel (pl.row * g.N + ej) (pl.col * g.N + ei) c := by
  rw [hf.z _ (enc_lt h) _ hj _ hi _ hc, panelOf_enc h, rowOf_enc h, colOf_enc h]

theorem height_part (hn : 0 < g.n) (hf : HoldsFloor g f' f) (h : Valid g.k pl) {ek ej ei : Nat} (hj : ej < g.N) (hi : ei < g.N) (c : Nat) :
    height g f' (enc g.k pl) ek ej ei c = height (whole3 g) f pl.panel ek (pl.row * g.N + ej) (pl.col * g.N + ei) c := by
  unfold height
  rw [z_at hf h hj hi (Nat.mod_lt _ (Nat.mul_pos hn hn))]
  rfl

theorem heightI_part (hn : 0 < g.n) (hf : HoldsFloor g f' f) (h : Valid g.k pl) {ek ej e : Nat} (hj : ej < g.N) (he : e ≤ g.N) (m : Nat) :
    heightI g f' (enc g.k pl) ek ej e m = heightI (whole3 g) f pl.panel ek (pl.row * g.N + ej) (pl.col * g.N + e) m := by
  unfold heightI
  rw [hf.itfI _ (enc_lt h) _ hj _ he _ (Nat.mod_lt _ hn), panelOf_enc h, rowOf_enc h, colOf_enc h]
  rfl

theorem heightJ_part (hn : 0 < g.n) (hf : HoldsFloor g f' f) (h : Valid g.k pl) {ek e ei : Nat} (hi : ei < g.N) (he : e ≤ g.N) (m : Nat) :
    heightJ g f' (enc g.k pl) ek e ei m = heightJ (whole3 g) f pl.panel ek (pl.row * g.N + e) (pl.col * g.N + ei) m := by
  unfold heightJ
  rw [hf.itfJ _ (enc_lt h) _ hi _ he _ (Nat.mod_lt _ hn), panelOf_enc h, rowOf_enc h, colOf_enc h]
  rfl

theorem heightK_part (hf : HoldsFloor g f' f) (h : Valid g.k pl) {e ej ei m : Nat} (hj : ej < g.N) (hi : ei < g.N) (hm : m < g.n * g.n) :
    heightK g f' (enc g.k pl) e ej ei m = heightK (whole3 g) f pl.panel e (pl.row * g.N + ej) (pl.col * g.N + ei) m := by
  unfold heightK
  rw [z_at hf h hj hi hm]
  rfl

theorem slope_part (hn : 0 < g.n) (hf : HoldsFloor g f' f) (h : Valid g.k pl) {ej ei : Nat} (d ek : Nat) (hj : ej < g.N) (hi : ei < g.N) (c : Nat) :
    slope g f' d (enc g.k pl) ek ej ei c = slope (whole3 g) f d pl.panel ek (pl.row * g.N + ej) (pl.col * g.N + ei) c := by
  have e0 : height g f' (enc g.k pl) ek ej ei = height (whole3 g) f pl.panel ek (pl.row * g.N + ej) (pl.col * g.N + ei) :=
    funext fun c => height_part hn hf h hj hi c
  have e1 : (fun m => heightI g f' (enc g.k pl) ek ej (if g.n * g.n ≤ m then ei + 1 else ei) (m % (g.n * g.n))) =
      fun m => heightI (whole3 g) f pl.panel ek (pl.row * g.N + ej)
        (if g.n * g.n ≤ m then pl.col * g.N + ei + 1 else pl.col * g.N + ei) (m % (g.n * g.n)) := by
    funext m
    rw [heightI_part hn hf h hj (by split <;> omega)]
    congr 1
    split <;> rfl
  have e2 : (fun m => heightJ g f' (enc g.k pl) ek (if g.n * g.n ≤ m then ej + 1 else ej) ei (m % (g.n * g.n))) =
      fun m => heightJ (whole3 g) f pl.panel ek
        (if g.n * g.n ≤ m then pl.row * g.N + ej + 1 else pl.row * g.N + ej) (pl.col * g.N + ei) (m % (g.n * g.n)) := by
    funext m
    rw [heightJ_part hn hf h hi (by split <;> omega)]
    congr 1
    split <;> rfl
  have e3 : (fun m => heightK g f' (enc g.k pl) (if g.n * g.n ≤ m then ek + 1 else ek) ej ei (m % (g.n * g.n))) =
      fun m => heightK (whole3 g) f pl.panel (if g.n * g.n ≤ m then ek + 1 else ek) (pl.row * g.N + ej) (pl.col * g.N + ei) (m % (g.n * g.n)) :=
    funext fun m => heightK_part hf h hj hi (Nat.mod_lt _ (Nat.mul_pos hn hn))
  unfold EulerSphere.slope
  rw [e0, e1, e2, e3, delta1_part h _ pl.panel, delta2_part h _ pl.panel]
  rfl

theorem toI_congr {q q' : Nat → ℝ} (hq : ∀ c < g.n * g.n * g.n, q c = q' c) (m : Nat) : toI g q m = toI (whole3 g) q' m := vecmul_congr hq _ m
theorem toJ_congr {q q' : Nat → ℝ} (hq : ∀ c < g.n * g.n * g.n, q c = q' c) (m : Nat) : toJ g q m = toJ (whole3 g) q' m := vecmul_congr hq _ m
theorem toK_congr {q q' : Nat → ℝ} (hq : ∀ c < g.n * g.n * g.n, q c = q' c) (m : Nat) : toK g q m = toK (whole3 g) q' m := vecmul_congr hq _ m

theorem exOwnI_part (hN : 0 < g.N) (hn : 0 < g.n) (hf : HoldsFloor g f' f) (h : Valid g.k pl) {ej ei : Nat} (comp ek : Nat) (hj : ej < g.N)
    (hi : ei < g.N) (s : Bool) (m : Nat) :
    exOwnI g f' comp (enc g.k pl) ek ej ei s m = exOwnI (whole3 g) f comp pl.panel ek (pl.row * g.N + ej) (pl.col * g.N + ei) s m := by
  unfold exOwnI
  simp only
  rw [itfXY1_part hN hn h _ _ _ _ (Or.inr (by omega)), toI_congr (fun c _ => slope_part hn hf h 0 ek hj hi c),
    toI_congr (fun c _ => slope_part hn hf h 1 ek hj hi c), toI_congr (fun c _ => slope_part hn hf h 2 ek hj hi c)]
  rfl

theorem exOwnJ_part (hN : 0 < g.N) (hn : 0 < g.n) (hf : HoldsFloor g f' f) (h : Valid g.k pl) {ej ei : Nat} (comp ek : Nat) (hj : ej < g.N)
    (hi : ei < g.N) (s : Bool) (m : Nat) :
    exOwnJ g f' comp (enc g.k pl) ek ej ei s m = exOwnJ (whole3 g) f comp pl.panel ek (pl.row * g.N + ej) (pl.col * g.N + ei) s m := by
  unfold exOwnJ
  simp only
  rw [itfXY2_part hN hn h _ _ _ _ (Or.inr (by omega)), toJ_congr (fun c _ => slope_part hn hf h 0 ek hj hi c),
    toJ_congr (fun c _ => slope_part hn hf h 1 ek hj hi c), toJ_congr (fun c _ => slope_part hn hf h 2 ek hj hi c)]
  rfl

/-! ## Exchanges -/

theorem vec_edge (hN : 0 < g.N) (hn : 0 < g.n) (h : Valid g.k pl) (d : Side) (he : atPanelEdge (6 * (g.k * g.k)) (enc g.k pl) d = true)
    {data Data : Nat → Side → Nat → ℝ × ℝ × ℝ}
    (link : ∀ q, Valid g.k q → ∀ s, atPanelEdge (6 * (g.k * g.k)) (enc g.k q) s = true → ∀ j < g.N * g.n,
      data (enc g.k q) s j = Data q.panel s (off q s * (g.N * g.n) + j)) {i : Nat} (hi : i < g.N * g.n) :
    exchangedVec g data (enc g.k pl) d i = exchangedVec (whole3 g) Data pl.panel d (off pl d * (g.N * g.n) + i) := by
  have e2 := vector_edge h (M := g.N * g.n) data Data (along g.toGrid) (along (whole g.toGrid)) g.toGrid.boundary (whole g.toGrid).boundary
    (boundary_along g.toGrid) (fun r s => by rw [boundary_along, ← Nat.mul_assoc]; rfl) d he link (fun q hq s j _ => along_part hN hn hq s j) hi (0, 0, 0)
  rw [← Nat.mul_assoc g.k] at e2
  exact e2

theorem vec_inside (h : Valid g.k pl) (d : Side) (he : atPanelEdge (6 * (g.k * g.k)) (enc g.k pl) d = false)
    (data : Nat → Side → Nat → ℝ × ℝ × ℝ) {i : Nat} (hi : i < g.N * g.n) :
    exchangedVec g data (enc g.k pl) d i = data (enc g.k (nbrPlace g.k pl d)) (backSide g.k pl d) i :=
  vector_inside h data (along g.toGrid) g.toGrid.boundary (boundary_along g.toGrid) d he hi (0, 0, 0)

theorem sca_edge (h : Valid g.k pl) (d : Side) (he : atPanelEdge (6 * (g.k * g.k)) (enc g.k pl) d = true) {data Data : Nat → Side → Nat → ℝ}
    (link : ∀ q, Valid g.k q → ∀ s, atPanelEdge (6 * (g.k * g.k)) (enc g.k q) s = true → ∀ j < g.N * g.n,
      data (enc g.k q) s j = Data q.panel s (off q s * (g.N * g.n) + j)) {i : Nat} (hi : i < g.N * g.n) :
    exchangedScalar g data (enc g.k pl) d i = exchangedScalar (whole3 g) Data pl.panel d (off pl d * (g.N * g.n) + i) := by
  have e2 := scalar_edge h (M := g.N * g.n) data Data d he link hi 0
  rw [← Nat.mul_assoc g.k] at e2
  exact e2

theorem sca_inside (h : Valid g.k pl) (d : Side) (he : atPanelEdge (6 * (g.k * g.k)) (enc g.k pl) d = false)
    (data : Nat → Side → Nat → ℝ) {i : Nat} (hi : i < g.N * g.n) :
    exchangedScalar g data (enc g.k pl) d i = data (enc g.k (nbrPlace g.k pl d)) (backSide g.k pl d) i :=
  scalar_inside h data d he hi 0

/-! ## Slopes on the interfaces -/

theorem sentSlope_part (hN : 0 < g.N) (hn : 0 < g.n) (hf : HoldsFloor g f' f) (ek a comp : Nat) {q : Place} (h : Valid g.k q) (d : Side)
    (he : atPanelEdge (6 * (g.k * g.k)) (enc g.k q) d = true) {i : Nat} (hi : i < g.N * g.n) :
    sentSlope g f' ek a (enc g.k q) d comp i = sentSlope (whole3 g) f ek a q.panel d comp (off q d * (g.N * g.n) + i) := by
  rw [edge_iff h] at he
  have hq : i / g.n < g.N := (Nat.div_lt_iff_lt_mul hn).mpr hi
  have hl : g.N - 1 < g.N := by omega
  cases d <;> simp only at he <;> simp only [sentSlope, off] <;> rw [show (whole3 g).n = g.n from rfl, quot _ _ _ _ hn, rem]
  · rw [exOwnJ_part hN hn hf h comp ek hN hq, he, Nat.zero_mul]
  · rw [exOwnJ_part hN hn hf h comp ek hl hq, last_elem hN (k_pos h) he]; rfl
  · rw [exOwnI_part hN hn hf h comp ek hq hN, he, Nat.zero_mul]
  · rw [exOwnI_part hN hn hf h comp ek hq hl, last_elem hN (k_pos h) he]; rfl

theorem receivedSlope_edge (hN : 0 < g.N) (hn : 0 < g.n) (hf : HoldsFloor g f' f) (h : Valid g.k pl) (ek a : Nat) (d : Side)
    (he : atPanelEdge (6 * (g.k * g.k)) (enc g.k pl) d = true) (comp : Nat) {i : Nat} (hi : i < g.N * g.n) :
    receivedSlope g f' ek a (enc g.k pl) d comp i = receivedSlope (whole3 g) f ek a pl.panel d comp (off pl d * (g.N * g.n) + i) := by
  unfold receivedSlope
  rw [vec_edge (Data := fun s d' i => (sentSlope (whole3 g) f ek a s d' 0 i, sentSlope (whole3 g) f ek a s d' 1 i, sentSlope (whole3 g) f ek a s d' 2 i))
    hN hn h d he (fun q hq s hs j hj => by
      rw [sentSlope_part hN hn hf ek a 0 hq s hs hj, sentSlope_part hN hn hf ek a 1 hq s hs hj, sentSlope_part hN hn hf ek a 2 hq s hs hj]) hi]

theorem receivedSlope_inside (h : Valid g.k pl) (ek a : Nat) (d : Side) (he : atPanelEdge (6 * (g.k * g.k)) (enc g.k pl) d = false)
    {comp : Nat} (hc : comp ≤ 2) {i : Nat} (hi : i < g.N * g.n) (f' : Floor) :
    receivedSlope g f' ek a (enc g.k pl) d comp i = sentSlope g f' ek a (enc g.k (nbrPlace g.k pl d)) (backSide g.k pl d) comp i := by
  unfold receivedSlope
  rw [vec_inside h d he _ hi]
  obtain rfl | rfl | rfl : comp = 0 ∨ comp = 1 ∨ comp = 2 := by omega
  all_goals rfl

theorem exI_part (hN : 0 < g.N) (hn : 0 < g.n) (hf : HoldsFloor g f' f) (h : Valid g.k pl) {comp ek ej p : Nat} {s : Bool} (hcomp : comp ≤ 2)
    (hj : ej < g.N) (hp : Inner g.N p s) (m : Nat) :
    exI g f' comp (enc g.k pl) ek ej p s m = exI (whole3 g) f comp pl.panel ek (pl.row * g.N + ej) (pl.col * g.N + p) s m := by
  have hl := Nat.mod_lt m hn
  have hi := point_lt hj hl
  have hm : m / g.n * g.n + m % g.n = m := by rw [Nat.mul_comm]; exact Nat.div_add_mod m g.n
  exact line h.2.2 hN (fun b e s => exOwnI g f' comp (enc g.k ⟨pl.panel, pl.row, b⟩) ek ej e s m)
    (fun e s => exOwnI (whole3 g) f comp pl.panel ek (pl.row * g.N + ej) e s m)
    (fun b hb e he s => exOwnI_part hN hn hf (pl := ⟨pl.panel, pl.row, b⟩) ⟨h.1, h.2.1, hb⟩ comp ek hj he s m)
    (receivedSlope g f' ek (m / g.n) (enc g.k pl) .west comp (ej * g.n + m % g.n))
    (receivedSlope g f' ek (m / g.n) (enc g.k pl) .east comp (ej * g.n + m % g.n))
    (receivedSlope (whole3 g) f ek (m / g.n) pl.panel .west comp ((pl.row * g.N + ej) * g.n + m % g.n))
    (receivedSlope (whole3 g) f ek (m / g.n) pl.panel .east comp ((pl.row * g.N + ej) * g.n + m % g.n)) 0
    (fun e => by rw [receivedSlope_edge hN hn hf h _ _ .west (edge_true h .west e) _ hi, ← join]; rfl)
    (fun e => by
      have he := edge_false h .west (by simp only; omega)
      obtain ⟨a, b, c⟩ := nbr_inside h .west he
      rw [receivedSlope_inside h _ _ .west he hcomp hi, a, b]
      simp only [sentSlope, div_join _ hl, mod_join _ hl, hm])
    (fun e => by rw [receivedSlope_edge hN hn hf h _ _ .east (edge_true h .east e) _ hi, ← join]; rfl)
    (fun e => by
      have he := edge_false h .east (by simp only; omega)
      obtain ⟨a, b, c⟩ := nbr_inside h .east he
      rw [receivedSlope_inside h _ _ .east he hcomp hi, a, b]
      simp only [sentSlope, div_join _ hl, mod_join _ hl, hm]) hp

theorem exJ_part (hN : 0 < g.N) (hn : 0 < g.n) (hf : HoldsFloor g f' f) (h : Valid g.k pl) {comp ek ei p : Nat} {s : Bool} (hcomp : comp ≤ 2)
    (hj : ei < g.N) (hp : Inner g.N p s) (m : Nat) :
    exJ g f' comp (enc g.k pl) ek p ei s m = exJ (whole3 g) f comp pl.panel ek (pl.row * g.N + p) (pl.col * g.N + ei) s m := by
  have hl := Nat.mod_lt m hn
  have hi := point_lt hj hl
  have hm : m / g.n * g.n + m % g.n = m := by rw [Nat.mul_comm]; exact Nat.div_add_mod m g.n
  exact line h.2.1 hN (fun b e s => exOwnJ g f' comp (enc g.k ⟨pl.panel, b, pl.col⟩) ek e ei s m)
    (fun e s => exOwnJ (whole3 g) f comp pl.panel ek e (pl.col * g.N + ei) s m)
    (fun b hb e he s => exOwnJ_part hN hn hf (pl := ⟨pl.panel, b, pl.col⟩) ⟨h.1, hb, h.2.2⟩ comp ek he hj s m)
    (receivedSlope g f' ek (m / g.n) (enc g.k pl) .south comp (ei * g.n + m % g.n))
    (receivedSlope g f' ek (m / g.n) (enc g.k pl) .north comp (ei * g.n + m % g.n))
    (receivedSlope (whole3 g) f ek (m / g.n) pl.panel .south comp ((pl.col * g.N + ei) * g.n + m % g.n))
    (receivedSlope (whole3 g) f ek (m / g.n) pl.panel .north comp ((pl.col * g.N + ei) * g.n + m % g.n)) 0
    (fun e => by rw [receivedSlope_edge hN hn hf h _ _ .south (edge_true h .south e) _ hi, ← join]; rfl)
    (fun e => by
      have he := edge_false h .south (by simp only; omega)
      obtain ⟨a, b, c⟩ := nbr_inside h .south he
      rw [receivedSlope_inside h _ _ .south he hcomp hi, a, b]
      simp only [sentSlope, div_join _ hl, mod_join _ hl, hm])
    (fun e => by rw [receivedSlope_edge hN hn hf h _ _ .north (edge_true h .north e) _ hi, ← join]; rfl)
    (fun e => by
      have he := edge_false h .north (by simp only; omega)
      obtain ⟨a, b, c⟩ := nbr_inside h .north he
      rw [receivedSlope_inside h _ _ .north he hcomp hi, a, b]
      simp only [sentSlope, div_join _ hl, mod_join _ hl, hm]) hp

theorem inner_left {N e : Nat} (he : e ≤ N) : Inner N e true := Or.inl ⟨rfl, he⟩
theorem inner_right {N e : Nat} (he : e ≤ N) : Inner N (e + 1) false := Or.inr ⟨rfl, by omega, by omega⟩

theorem slopeI_part (hN : 0 < g.N) (hn : 0 < g.n) (hf : HoldsFloor g f' f) (h : Valid g.k pl) (d ek : Nat) {ej e : Nat} (hj : ej < g.N)
    (he : e ≤ g.N) (m : Nat) :
    slopeI g f' d (enc g.k pl) ek ej e m = slopeI (whole3 g) f d pl.panel ek (pl.row * g.N + ej) (pl.col * g.N + e) m := by
  have ex : ∀ comp ≤ 2, 0.5 * exI g f' comp (enc g.k pl) ek ej e true m + 0.5 * exI g f' comp (enc g.k pl) ek ej (e + 1) false m =
      0.5 * exI (whole3 g) f comp pl.panel ek (pl.row * g.N + ej) (pl.col * g.N + e) true m +
      0.5 * exI (whole3 g) f comp pl.panel ek (pl.row * g.N + ej) (pl.col * g.N + e + 1) false m := by
    intro comp hc
    rw [exI_part hN hn hf h hc hj (inner_left he), exI_part hN hn hf h hc hj (inner_right he)]
    rfl
  unfold slopeI
  simp only
  rw [itfXY1_part hN hn h _ _ _ _ (Or.inr (by omega)), ex 0 (by decide), ex 1 (by decide), ex 2 (by decide)]
  rfl

theorem slopeJ_part (hN : 0 < g.N) (hn : 0 < g.n) (hf : HoldsFloor g f' f) (h : Valid g.k pl) (d ek : Nat) {e ei : Nat} (hi : ei < g.N)
    (he : e ≤ g.N) (m : Nat) :
    slopeJ g f' d (enc g.k pl) ek e ei m = slopeJ (whole3 g) f d pl.panel ek (pl.row * g.N + e) (pl.col * g.N + ei) m := by
  have ex : ∀ comp ≤ 2, 0.5 * exJ g f' comp (enc g.k pl) ek e ei true m + 0.5 * exJ g f' comp (enc g.k pl) ek (e + 1) ei false m =
      0.5 * exJ (whole3 g) f comp pl.panel ek (pl.row * g.N + e) (pl.col * g.N + ei) true m +
      0.5 * exJ (whole3 g) f comp pl.panel ek (pl.row * g.N + e + 1) (pl.col * g.N + ei) false m := by
    intro comp hc
    rw [exJ_part hN hn hf h hc hi (inner_left he), exJ_part hN hn hf h hc hi (inner_right he)]
    rfl
  unfold slopeJ
  simp only
  rw [itfXY2_part hN hn h _ _ _ _ (Or.inr (by omega)), ex 0 (by decide), ex 1 (by decide), ex 2 (by decide)]
  rfl

theorem slopeK_part (hn : 0 < g.n) (hf : HoldsFloor g f' f) (h : Valid g.k pl) (d e : Nat) {ej ei : Nat} (hj : ej < g.N) (hi : ei < g.N) (m : Nat) :
    slopeK g f' d (enc g.k pl) e ej ei m = slopeK (whole3 g) f d pl.panel e (pl.row * g.N + ej) (pl.col * g.N + ei) m := by
  have ex : ∀ ek m, toK g (slope g f' d (enc g.k pl) ek ej ei) m =
      toK (whole3 g) (slope (whole3 g) f d pl.panel ek (pl.row * g.N + ej) (pl.col * g.N + ei)) m :=
    fun ek m => toK_congr (fun c _ => slope_part hn hf h d ek hj hi c) m
  unfold slopeK
  simp only [ex]
  rfl

/-! ## Metric -/

theorem pt_part (hN : 0 < g.N) (hn : 0 < g.n) (hf : HoldsFloor g f' f) (h : Valid g.k pl) (ek : Nat) {ej ei : Nat} (hj : ej < g.N) (hi : ei < g.N)
    (c : Nat) : pt g f' (enc g.k pl) ek ej ei c = pt (whole3 g) f pl.panel ek (pl.row * g.N + ej) (pl.col * g.N + ei) c := by
  unfold pt
  rw [solXY_part hN hn h, height_part hn hf h hj hi, slope_part hn hf h _ _ hj hi, slope_part hn hf h _ _ hj hi, slope_part hn hf h _ _ hj hi,
    delta1_part h _ pl.panel, delta2_part h _ pl.panel]
  rfl

theorem ptI_part (hN : 0 < g.N) (hn : 0 < g.n) (hf : HoldsFloor g f' f) (h : Valid g.k pl) (ek : Nat) {ej e : Nat} (hj : ej < g.N) (he : e ≤ g.N)
    (m : Nat) : ptI g f' (enc g.k pl) ek ej e m = ptI (whole3 g) f pl.panel ek (pl.row * g.N + ej) (pl.col * g.N + e) m := by
  unfold ptI
  rw [itfXY1_part hN hn h _ _ _ _ (Or.inr (by omega)), heightI_part hn hf h hj he, slopeI_part hN hn hf h _ _ hj he, slopeI_part hN hn hf h _ _ hj he,
    slopeI_part hN hn hf h _ _ hj he, delta1_part h _ pl.panel, delta2_part h _ pl.panel]
  rfl

theorem ptJ_part (hN : 0 < g.N) (hn : 0 < g.n) (hf : HoldsFloor g f' f) (h : Valid g.k pl) (ek : Nat) {e ei : Nat} (hi : ei < g.N) (he : e ≤ g.N)
    (m : Nat) : ptJ g f' (enc g.k pl) ek e ei m = ptJ (whole3 g) f pl.panel ek (pl.row * g.N + e) (pl.col * g.N + ei) m := by
  unfold ptJ
  rw [itfXY2_part hN hn h _ _ _ _ (Or.inr (by omega)), heightJ_part hn hf h hi he, slopeJ_part hN hn hf h _ _ hi he, slopeJ_part hN hn hf h _ _ hi he,
    slopeJ_part hN hn hf h _ _ hi he, delta1_part h _ pl.panel, delta2_part h _ pl.panel]
  rfl

theorem ptK_part (hN : 0 < g.N) (hn : 0 < g.n) (hf : HoldsFloor g f' f) (h : Valid g.k pl) (e : Nat) {ej ei m : Nat} (hj : ej < g.N) (hi : ei < g.N)
    (hm : m < g.n * g.n) : ptK g f' (enc g.k pl) e ej ei m = ptK (whole3 g) f pl.panel e (pl.row * g.N + ej) (pl.col * g.N + ei) m := by
  unfold ptK
  rw [solXY_part hN hn h, heightK_part hf h hj hi hm, slopeK_part hn hf h _ _ hj hi, slopeK_part hn hf h _ _ hj hi, slopeK_part hn hf h _ _ hj hi,
    delta1_part h _ pl.panel, delta2_part h _ pl.panel]
  rfl

theorem sqrtG_part3 (hN : 0 < g.N) (hn : 0 < g.n) (hf : HoldsFloor g f' f) (h : Valid g.k pl) (ek : Nat) {ej ei : Nat} (hj : ej < g.N) (hi : ei < g.N)
    (c : Nat) : sqrtG g f' (enc g.k pl) ek ej ei c = sqrtG (whole3 g) f pl.panel ek (pl.row * g.N + ej) (pl.col * g.N + ei) c := by
  unfold EulerSphere.sqrtG; rw [pt_part hN hn hf h ek hj hi]

theorem hc_part3 (hN : 0 < g.N) (hn : 0 < g.n) (hf : HoldsFloor g f' f) (h : Valid g.k pl) (ek : Nat) {ej ei : Nat} (hj : ej < g.N) (hi : ei < g.N)
    (c : Nat) : hc g f' (enc g.k pl) ek ej ei c = hc (whole3 g) f pl.panel ek (pl.row * g.N + ej) (pl.col * g.N + ei) c := by
  unfold hc; rw [pt_part hN hn hf h ek hj hi]

/-! ## State at the element sides -/

theorem holds3_at (hQ : Holds3 g Q W) (h : Valid g.k pl) {ek ej ei v c : Nat} (hz : ek < g.nz) (hj : ej < g.N) (hi : ei < g.N) (hv : v ≤ 4)
    (hc : c < g.n * g.n * g.n) : Q (enc g.k pl) ek ej ei v c = W pl.panel ek (pl.row * g.N + ej) (pl.col * g.N + ei) v c := by
  rw [hQ _ (enc_lt h) _ hz _ hj _ hi _ hv _ hc, panelOf_enc h, rowOf_enc h, colOf_enc h]

theorem qI_part (hQ : Holds3 g Q W) (h : Valid g.k pl) {ek ej ei v : Nat} (hz : ek < g.nz) (hj : ej < g.N) (hi : ei < g.N) (hv : v ≤ 4) (m : Nat) :
    qI g Q (enc g.k pl) ek ej ei v m = qI (whole3 g) W pl.panel ek (pl.row * g.N + ej) (pl.col * g.N + ei) v m := by
  unfold qI extrapolated
  rw [toI_congr (fun c hc => holds3_at hQ h hz hj hi hv hc), toI_congr (fun c hc => congrArg Real.log (holds3_at hQ h hz hj hi hv hc))]

theorem qJ_part (hQ : Holds3 g Q W) (h : Valid g.k pl) {ek ej ei v : Nat} (hz : ek < g.nz) (hj : ej < g.N) (hi : ei < g.N) (hv : v ≤ 4) (m : Nat) :
    qJ g Q (enc g.k pl) ek ej ei v m = qJ (whole3 g) W pl.panel ek (pl.row * g.N + ej) (pl.col * g.N + ei) v m := by
  unfold qJ extrapolated
  rw [toJ_congr (fun c hc => holds3_at hQ h hz hj hi hv hc), toJ_congr (fun c hc => congrArg Real.log (holds3_at hQ h hz hj hi hv hc))]

theorem qK_part (hQ : Holds3 g Q W) (h : Valid g.k pl) {ek ej ei v : Nat} (hz : ek < g.nz) (hj : ej < g.N) (hi : ei < g.N) (hv : v ≤ 4) (m : Nat) :
    qK g Q (enc g.k pl) ek ej ei v m = qK (whole3 g) W pl.panel ek (pl.row * g.N + ej) (pl.col * g.N + ei) v m := by
  unfold qK extrapolated
  rw [toK_congr (fun c hc => holds3_at hQ h hz hj hi hv hc), toK_congr (fun c hc => congrArg Real.log (holds3_at hQ h hz hj hi hv hc))]

theorem sent_part (hN : 0 < g.N) (hn : 0 < g.n) (hQ : Holds3 g Q W) {ek a v : Nat} (hz : ek < g.nz) (hv : v ≤ 4) {q : Place} (h : Valid g.k q) (d : Side)
    (he : atPanelEdge (6 * (g.k * g.k)) (enc g.k q) d = true) {i : Nat} (hi : i < g.N * g.n) :
    sent g Q ek a (enc g.k q) d v i = sent (whole3 g) W ek a q.panel d v (off q d * (g.N * g.n) + i) := by
  rw [edge_iff h] at he
  have hq : i / g.n < g.N := (Nat.div_lt_iff_lt_mul hn).mpr hi
  have hl : g.N - 1 < g.N := by omega
  cases d <;> simp only at he <;> simp only [sent, off] <;> rw [show (whole3 g).n = g.n from rfl, quot _ _ _ _ hn, rem]
  · rw [qJ_part hQ h hz hN hq hv, he, Nat.zero_mul]
  · rw [qJ_part hQ h hz hl hq hv, last_elem hN (k_pos h) he]; rfl
  · rw [qI_part hQ h hz hq hN hv, he, Nat.zero_mul]
  · rw [qI_part hQ h hz hq hl hv, last_elem hN (k_pos h) he]; rfl

theorem received_edge (hN : 0 < g.N) (hn : 0 < g.n) (hQ : Holds3 g Q W) (h : Valid g.k pl) {ek v : Nat} (a : Nat) (hz : ek < g.nz) (hv : v ≤ 4) (d : Side)
    (he : atPanelEdge (6 * (g.k * g.k)) (enc g.k pl) d = true) {i : Nat} (hi : i < g.N * g.n) :
    received g Q ek a (enc g.k pl) d v i = received (whole3 g) W ek a pl.panel d v (off pl d * (g.N * g.n) + i) := by
  unfold received
  rw [sca_edge (Data := fun s d' i => sent (whole3 g) W ek a s d' v i) h d he (fun q hq s hs j hj => sent_part hN hn hQ hz hv hq s hs hj) hi,
    vec_edge (Data := fun s d' i => (sent (whole3 g) W ek a s d' 1 i, sent (whole3 g) W ek a s d' 2 i, sent (whole3 g) W ek a s d' 3 i))
    hN hn h d he (fun q hq s hs j hj => by
      rw [sent_part hN hn hQ hz (by decide) hq s hs hj, sent_part hN hn hQ hz (by decide) hq s hs hj, sent_part hN hn hQ hz (by decide) hq s hs hj]) hi]

theorem received_inside (h : Valid g.k pl) (ek a : Nat) (d : Side) (he : atPanelEdge (6 * (g.k * g.k)) (enc g.k pl) d = false)
    {v : Nat} (hv : v ≤ 4) {i : Nat} (hi : i < g.N * g.n) (Q : Field3) :
    received g Q ek a (enc g.k pl) d v i = sent g Q ek a (enc g.k (nbrPlace g.k pl d)) (backSide g.k pl d) v i := by
  unfold received
  rw [vec_inside h d he _ hi, sca_inside h d he _ hi]
  obtain rfl | rfl | rfl | rfl | rfl : v = 0 ∨ v = 1 ∨ v = 2 ∨ v = 3 ∨ v = 4 := by omega
  all_goals rfl

/-! ## Fluxes -/

theorem fullHori_eq (nx : Nat) (q : Nat → Bool → Nat → ℝ) (first last : Nat → ℝ) (p : Nat) (s : Bool) (v : Nat) :
    fullHori nx q first last p s v =
      (if 1 ≤ p ∧ p ≤ nx then q (p - 1) s v else if p = 0 ∧ s = true then first v else if p = nx + 1 ∧ s = false then last v else 1) := by
  unfold fullHori put
  by_cases h1 : 1 ≤ p ∧ p ≤ nx
  · simp only [h1, and_self, if_true, show ¬ (p = nx + 1 ∧ s = false) by omega, show ¬ (p = 0 ∧ s = true) by omega, if_false]
  · by_cases h2 : p = 0 ∧ s = true
    · simp [h2]
    · by_cases h3 : p = nx + 1 ∧ s = false
      · simp [h3]
      · simp [h1, h2, h3]

/-- two descriptions of a side that the flux functions cannot tell apart -/
structure Like3 (a b : Side3) : Prop where
  var : ∀ v ≤ 4, a.var v = b.var v
  pres : a.pres = b.pres
  vel : a.vel = b.vel
  sqrtG : a.sqrtG = b.sqrtG
  h : a.h = b.h

/-- the same fluxes of the five variables and of the vertical momentum -/
structure Same (a b : Out3) : Prop where
  flux : ∀ v ≤ 4, a.flux v = b.flux v
  wadv : a.wadv = b.wadv
  wpres : a.wpres = b.wpres

theorem rusanov_like (d : Nat) (adv : Bool) {a a' b b' : Side3} (ha : Like3 a a') (hb : Like3 b b') :
    Same (rusanov d adv a b).1 (rusanov d adv a' b').1 ∧ Same (rusanov d adv a b).2 (rusanov d adv a' b').2 := by
  have h0 := ha.var 0 (by decide)
  have h3 := ha.var 3 (by decide)
  have g0 := hb.var 0 (by decide)
  have g3 := hb.var 3 (by decide)
  unfold rusanov
  split_ifs
  · simp only [rusanovHoriI, h0, h3, g0, g3, ha.pres, hb.pres, ha.vel, hb.vel, ha.sqrtG, hb.sqrtG, ha.h, hb.h]
    exact ⟨⟨fun v hv => by simp only [ha.var v hv, hb.var v hv], rfl, rfl⟩, ⟨fun v hv => by simp only [ha.var v hv, hb.var v hv], rfl, rfl⟩⟩
  · simp only [rusanovHoriJ, h0, h3, g0, g3, ha.pres, hb.pres, ha.vel, hb.vel, ha.sqrtG, hb.sqrtG, ha.h, hb.h]
    exact ⟨⟨fun v hv => by simp only [ha.var v hv, hb.var v hv], rfl, rfl⟩, ⟨fun v hv => by simp only [ha.var v hv, hb.var v hv], rfl, rfl⟩⟩
  · simp only [rusanovVert, h0, h3, g0, g3, ha.pres, hb.pres, ha.vel, hb.vel, ha.sqrtG, hb.sqrtG, ha.h, hb.h]
    exact ⟨⟨fun v hv => by simp only [ha.var v hv, hb.var v hv], rfl, rfl⟩, ⟨fun v hv => by simp only [ha.var v hv, hb.var v hv], rfl, rfl⟩⟩

theorem faces_part3 {k N a e : Nat} (ha : a < k) (he : e < N) (d : Nat) (adv : Bool)
    {itf Itf : Nat → Bool → Side3} (hi : ∀ p s, Inner N p s → Like3 (itf p s) (Itf (a * N + p) s)) (init : Nat → Bool → Out3) (s : Bool) :
    Same (faces N (rusanov d adv) itf init (e + 1) s) (faces (k * N) (rusanov d adv) Itf init (a * N + e + 1) s) := by
  have hlt := whole_lt ha he
  cases s
  · simp only [faces]
    rw [if_pos ⟨by omega, by omega⟩, if_pos ⟨by omega, by omega⟩]
    exact (rusanov_like d adv (hi e true (Or.inl ⟨rfl, by omega⟩)) (hi (e + 1) false (Or.inr ⟨rfl, by omega, by omega⟩))).2
  · simp only [faces]
    rw [if_pos (by omega), if_pos (by omega)]
    exact (rusanov_like d adv (hi (e + 1) true (Or.inl ⟨rfl, by omega⟩)) (hi (e + 1 + 1) false (Or.inr ⟨rfl, by omega, by omega⟩))).1

theorem inner_index {N p : Nat} {s : Bool} (h : Inner N p s) : itfIndex p s ≤ N := by
  unfold itfIndex
  rcases h with ⟨rfl, h⟩ | ⟨rfl, _, h⟩
  · simpa using h
  · simp only [Bool.false_eq_true, if_false]; omega

theorem fluxI_part (hN : 0 < g.N) (hn : 0 < g.n) (hf : HoldsFloor g f' f) (hQ : Holds3 g Q W) (h : Valid g.k pl) {ek ej ei : Nat} (hz : ek < g.nz)
    (hj : ej < g.N) (hi : ei < g.N) (m : Nat) (s : Bool) :
    Same (fluxI g f' Q (enc g.k pl) ek ej m ei s) (fluxI (whole3 g) f W pl.panel ek (pl.row * g.N + ej) m (pl.col * g.N + ei) s) := by
  have hl := Nat.mod_lt m hn
  have hpt := point_lt hj hl
  have hm : m / g.n * g.n + m % g.n = m := by rw [Nat.mul_comm]; exact Nat.div_add_mod m g.n
  have full : ∀ p s, Inner g.N p s → ∀ v ≤ 4,
      fullHori g.N (fun e s v => qI g Q (enc g.k pl) ek ej e v (node (g.n * g.n) s m))
        (fun v => received g Q ek (m / g.n) (enc g.k pl) .west v (ej * g.n + m % g.n))
        (fun v => received g Q ek (m / g.n) (enc g.k pl) .east v (ej * g.n + m % g.n)) p s v =
      fullHori (g.k * g.N) (fun e s v => qI (whole3 g) W pl.panel ek (pl.row * g.N + ej) e v (node (g.n * g.n) s m))
        (fun v => received (whole3 g) W ek (m / g.n) pl.panel .west v ((pl.row * g.N + ej) * g.n + m % g.n))
        (fun v => received (whole3 g) W ek (m / g.n) pl.panel .east v ((pl.row * g.N + ej) * g.n + m % g.n)) (pl.col * g.N + p) s v := by
    intro p s hp v hv
    rw [fullHori_eq, fullHori_eq]
    exact line h.2.2 hN (fun b e s => qI g Q (enc g.k ⟨pl.panel, pl.row, b⟩) ek ej e v (node (g.n * g.n) s m))
      (fun e s => qI (whole3 g) W pl.panel ek (pl.row * g.N + ej) e v (node (g.n * g.n) s m))
      (fun b hb e he s => qI_part hQ (pl := ⟨pl.panel, pl.row, b⟩) ⟨h.1, h.2.1, hb⟩ hz hj he hv _) _ _ _ _ 1
      (fun e => by rw [received_edge hN hn hQ h _ hz hv .west (edge_true h .west e) hpt, ← join]; rfl)
      (fun e => by
        have he := edge_false h .west (by simp only; omega)
        obtain ⟨a, b, c⟩ := nbr_inside h .west he
        rw [received_inside h _ _ .west he hv hpt, a, b]
        simp only [sent, div_join _ hl, mod_join _ hl, hm])
      (fun e => by rw [received_edge hN hn hQ h _ hz hv .east (edge_true h .east e) hpt, ← join]; rfl)
      (fun e => by
        have he := edge_false h .east (by simp only; omega)
        obtain ⟨a, b, c⟩ := nbr_inside h .east he
        rw [received_inside h _ _ .east he hv hpt, a, b]
        simp only [sent, div_join _ hl, mod_join _ hl, hm]) hp
  unfold fluxI riemannHori
  refine faces_part3 (N := g.N) h.2.2 hi 0 (advectionOnly g) ?_ _ s
  intro p s hp
  refine ⟨full p s hp, ?_, ?_, ?_, ?_⟩
  · exact congrArg pressure3 (full p s hp 4 (by decide))
  · exact congrArg₂ (· / ·) (full p s hp 1 (by decide)) (full p s hp 0 (by decide))
  · simp only
    rw [ptI_part hN hn hf h ek hj (inner_index hp), index_part _ _ _ _ (inner_side hp)]
  · simp only
    rw [ptI_part hN hn hf h ek hj (inner_index hp), index_part _ _ _ _ (inner_side hp)]

theorem fluxJ_part (hN : 0 < g.N) (hn : 0 < g.n) (hf : HoldsFloor g f' f) (hQ : Holds3 g Q W) (h : Valid g.k pl) {ek ej ei : Nat} (hz : ek < g.nz)
    (hj : ej < g.N) (hi : ei < g.N) (m : Nat) (s : Bool) :
    Same (fluxJ g f' Q (enc g.k pl) ek ei m ej s) (fluxJ (whole3 g) f W pl.panel ek (pl.col * g.N + ei) m (pl.row * g.N + ej) s) := by
  have hl := Nat.mod_lt m hn
  have hpt := point_lt hi hl
  have hm : m / g.n * g.n + m % g.n = m := by rw [Nat.mul_comm]; exact Nat.div_add_mod m g.n
  have full : ∀ p s, Inner g.N p s → ∀ v ≤ 4,
      fullHori g.N (fun e s v => qJ g Q (enc g.k pl) ek e ei v (node (g.n * g.n) s m))
        (fun v => received g Q ek (m / g.n) (enc g.k pl) .south v (ei * g.n + m % g.n))
        (fun v => received g Q ek (m / g.n) (enc g.k pl) .north v (ei * g.n + m % g.n)) p s v =
      fullHori (g.k * g.N) (fun e s v => qJ (whole3 g) W pl.panel ek e (pl.col * g.N + ei) v (node (g.n * g.n) s m))
        (fun v => received (whole3 g) W ek (m / g.n) pl.panel .south v ((pl.col * g.N + ei) * g.n + m % g.n))
        (fun v => received (whole3 g) W ek (m / g.n) pl.panel .north v ((pl.col * g.N + ei) * g.n + m % g.n)) (pl.row * g.N + p) s v := by
    intro p s hp v hv
    rw [fullHori_eq, fullHori_eq]
    exact line h.2.1 hN (fun b e s => qJ g Q (enc g.k ⟨pl.panel, b, pl.col⟩) ek e ei v (node (g.n * g.n) s m))
      (fun e s => qJ (whole3 g) W pl.panel ek e (pl.col * g.N + ei) v (node (g.n * g.n) s m))
      (fun b hb e he s => qJ_part hQ (pl := ⟨pl.panel, b, pl.col⟩) ⟨h.1, hb, h.2.2⟩ hz he hi hv _) _ _ _ _ 1
      (fun e => by rw [received_edge hN hn hQ h _ hz hv .south (edge_true h .south e) hpt, ← join]; rfl)
      (fun e => by
        have he := edge_false h .south (by simp only; omega)
        obtain ⟨a, b, c⟩ := nbr_inside h .south he
        rw [received_inside h _ _ .south he hv hpt, a, b]
        simp only [sent, div_join _ hl, mod_join _ hl, hm])
      (fun e => by rw [received_edge hN hn hQ h _ hz hv .north (edge_true h .north e) hpt, ← join]; rfl)
      (fun e => by
        have he := edge_false h .north (by simp only; omega)
        obtain ⟨a, b, c⟩ := nbr_inside h .north he
        rw [received_inside h _ _ .north he hv hpt, a, b]
        simp only [sent, div_join _ hl, mod_join _ hl, hm]) hp
  unfold fluxJ riemannHori
  refine faces_part3 (N := g.N) h.2.1 hj 1 (advectionOnly g) ?_ _ s
  intro p s hp
  refine ⟨full p s hp, ?_, ?_, ?_, ?_⟩
  · exact congrArg pressure3 (full p s hp 4 (by decide))
  · exact congrArg₂ (· / ·) (full p s hp 2 (by decide)) (full p s hp 0 (by decide))
  · simp only
    rw [ptJ_part hN hn hf h ek hi (inner_index hp), index_part _ _ _ _ (inner_side hp)]
  · simp only
    rw [ptJ_part hN hn hf h ek hi (inner_index hp), index_part _ _ _ _ (inner_side hp)]

theorem put_rel {α : Type*} {R : α → α → Prop} {a b : Nat → Bool → α} (h : ∀ p s, R (a p s) (b p s)) {x y : α} (hx : R x y) (i : Nat) (j : Bool) :
    ∀ p s, R (put a i j x p s) (put b i j y p s) := by
  intro p s; unfold put; split
  · exact hx
  · exact h p s

theorem fullX3_like {nz : Nat} {q q' : Nat → Bool → Nat → ℝ} (h : ∀ e < nz, ∀ s, ∀ v ≤ 4, q e s v = q' e s v) :
    ∀ p s, ∀ v ≤ 4, fullX3 nz q p s v = fullX3 nz q' p s v := by
  have h0 : ∀ p s, (fun x y : Nat → ℝ => ∀ v ≤ 4, x v = y v) ((fun p s => if 1 ≤ p ∧ p ≤ nz then q (p - 1) s else fun _ => 1 : Nat → Bool → Nat → ℝ) p s)
      ((fun p s => if 1 ≤ p ∧ p ≤ nz then q' (p - 1) s else fun _ => 1 : Nat → Bool → Nat → ℝ) p s) := by
    intro p s v hv
    beta_reduce
    split
    · exact h _ (by omega) s v hv
    · rfl
  have h1 := put_rel (R := fun x y : Nat → ℝ => ∀ v ≤ 4, x v = y v) h0 (h0 1 false) 0 true
  have h2 := put_rel (R := fun x y : Nat → ℝ => ∀ v ≤ 4, x v = y v) h1 (h1 0 true) 0 false
  have h3 := put_rel (R := fun x y : Nat → ℝ => ∀ v ≤ 4, x v = y v) h2 (h2 nz true) (nz + 1) false
  exact put_rel (R := fun x y : Nat → ℝ => ∀ v ≤ 4, x v = y v) h3 (h3 (nz + 1) false) (nz + 1) true

theorem wItf_like {nz : Nat} {q q' : Nat → Bool → Nat → ℝ} (h : ∀ p s, ∀ v ≤ 4, q p s v = q' p s v) : ∀ p s, wItf nz q p s = wItf nz q' p s := by
  have h0 : ∀ p s, (fun x y : ℝ => x = y) ((fun p s => q p s 3 / q p s 0 : Nat → Bool → ℝ) p s) ((fun p s => q' p s 3 / q' p s 0 : Nat → Bool → ℝ) p s) := by
    intro p s
    beta_reduce
    rw [h p s 3 (by decide), h p s 0 (by decide)]
  have h1 := put_rel (R := fun x y : ℝ => x = y) h0 (x := 0) (y := 0) rfl 0 false
  have h2 := put_rel (R := fun x y : ℝ => x = y) h1 (congrArg Neg.neg (h1 1 false)) 0 true
  have h3 := put_rel (R := fun x y : ℝ => x = y) h2 (x := 0) (y := 0) rfl (nz + 1) true
  exact put_rel (R := fun x y : ℝ => x = y) h3 (congrArg Neg.neg (h3 nz true)) (nz + 1) false

theorem fluxK_part (hN : 0 < g.N) (hn : 0 < g.n) (hf : HoldsFloor g f' f) (hQ : Holds3 g Q W) (h : Valid g.k pl) {ek ej ei : Nat} (hz : ek < g.nz)
    (hj : ej < g.N) (hi : ei < g.N) {m : Nat} (hm : m < g.n * g.n) (s : Bool) :
    Same (fluxK g f' Q (enc g.k pl) ej ei m ek s) (fluxK (whole3 g) f W pl.panel (pl.row * g.N + ej) (pl.col * g.N + ei) m ek s) := by
  have full := fullX3_like (nz := g.nz) (q := fun e s v => qK g Q (enc g.k pl) e ej ei v (node (g.n * g.n) s m))
    (q' := fun e s v => qK (whole3 g) W pl.panel e (pl.row * g.N + ej) (pl.col * g.N + ei) v (node (g.n * g.n) s m))
    (fun e he s v hv => qK_part hQ h he hj hi hv _)
  have := faces_part3 (k := 1) (a := 0) (N := g.nz) (e := ek) Nat.one_pos hz 2 (advectionOnly g)
    (itf := fun p s => ⟨fullX3 g.nz (fun e s v => qK g Q (enc g.k pl) e ej ei v (node (g.n * g.n) s m)) p s,
      pressure3 (fullX3 g.nz (fun e s v => qK g Q (enc g.k pl) e ej ei v (node (g.n * g.n) s m)) p s 4),
      wItf g.nz (fullX3 g.nz (fun e s v => qK g Q (enc g.k pl) e ej ei v (node (g.n * g.n) s m))) p s,
      rootG3 (ptK g f' (enc g.k pl) (itfIndex p s) ej ei m), ent3 (Hcontra3 (ptK g f' (enc g.k pl) (itfIndex p s) ej ei m))⟩)
    (Itf := fun p s => ⟨fullX3 g.nz (fun e s v => qK (whole3 g) W pl.panel e (pl.row * g.N + ej) (pl.col * g.N + ei) v (node (g.n * g.n) s m)) p s,
      pressure3 (fullX3 g.nz (fun e s v => qK (whole3 g) W pl.panel e (pl.row * g.N + ej) (pl.col * g.N + ei) v (node (g.n * g.n) s m)) p s 4),
      wItf g.nz (fullX3 g.nz (fun e s v => qK (whole3 g) W pl.panel e (pl.row * g.N + ej) (pl.col * g.N + ei) v (node (g.n * g.n) s m))) p s,
      rootG3 (ptK (whole3 g) f pl.panel (itfIndex p s) (pl.row * g.N + ej) (pl.col * g.N + ei) m),
      ent3 (Hcontra3 (ptK (whole3 g) f pl.panel (itfIndex p s) (pl.row * g.N + ej) (pl.col * g.N + ei) m))⟩)
    (fun p s _ => by
      rw [Nat.zero_mul, Nat.zero_add, ptK_part hN hn hf h _ hj hi hm]
      exact ⟨full p s, congrArg pressure3 (full p s 4 (by decide)), wItf_like full p s, rfl, rfl⟩) (fun _ _ => ⟨fun _ => 0, 0, 0⟩) s
  rw [Nat.one_mul, Nat.zero_mul, Nat.zero_add] at this
  exact this

/-! ## The right-hand side -/

theorem ofSides_congr {F F' : Nat → Bool → ℝ} (h : ∀ m < g.n * g.n, ∀ s, F m s = F' m s) :
    ∀ m < g.n * g.n + g.n * g.n, ofSides g F m = ofSides (whole3 g) F' m := by
  intro m hm
  have : (whole3 g).n = g.n := rfl
  unfold ofSides
  rw [this]
  split
  · exact h _ ‹_› _
  · exact h _ (by omega) _

theorem dfd_congr (d : Nat) {q q' itf itf' : Nat → ℝ} (hq : ∀ c < g.n * g.n * g.n, q c = q' c)
    (hi : ∀ m < g.n * g.n + g.n * g.n, itf m = itf' m) (c : Nat) : dfd g d q itf c = dfd (whole3 g) d q' itf' c := by
  unfold dfd df1_3d df2_3d df3_3d
  simp only [vecmul_congr hq, vecmul_congr hi]
  rfl

section
variable (hN : 0 < g.N) (hn : 0 < g.n) (hf : HoldsFloor g f' f) (hQ : Holds3 g Q W) (h : Valid g.k pl) {ek ej ei : Nat} (hz : ek < g.nz)
    (hj : ej < g.N) (hi : ei < g.N)
include hN hn hf hQ h hz hj hi

theorem vel_part (d : Nat) (hd : d ≤ 2) {c : Nat} (hc : c < g.n * g.n * g.n) :
    vel Q d (enc g.k pl) ek ej ei c = vel W d pl.panel ek (pl.row * g.N + ej) (pl.col * g.N + ei) c := by
  unfold vel; rw [holds3_at hQ h hz hj hi (by omega) hc, holds3_at hQ h hz hj hi (by omega) hc]

theorem pres_part {c : Nat} (hc : c < g.n * g.n * g.n) :
    pres Q (enc g.k pl) ek ej ei c = pres W pl.panel ek (pl.row * g.N + ej) (pl.col * g.N + ei) c := by
  unfold pres; rw [holds3_at hQ h hz hj hi (by omega) hc]

theorem pointFlux_part (d : Nat) (hd : d ≤ 2) {v : Nat} (hv : v ≤ 4) {c : Nat} (hc : c < g.n * g.n * g.n) :
    pointFlux g f' Q d (enc g.k pl) ek ej ei v c = pointFlux (whole3 g) f W d pl.panel ek (pl.row * g.N + ej) (pl.col * g.N + ei) v c := by
  unfold pointFlux
  rw [sqrtG_part3 hN hn hf h ek hj hi, hc_part3 hN hn hf h ek hj hi, vel_part hN hn hf hQ h hz hj hi d hd hc, pres_part hN hn hf hQ h hz hj hi hc,
    holds3_at hQ h hz hj hi hv hc]

theorem itfOut_part (d : Nat) {m : Nat} (hm : m < g.n * g.n) (s : Bool) :
    Same (itfOut g f' Q d (enc g.k pl) ek ej ei m s) (itfOut (whole3 g) f W d pl.panel ek (pl.row * g.N + ej) (pl.col * g.N + ei) m s) := by
  unfold itfOut
  split
  · exact fluxI_part hN hn hf hQ h hz hj hi m s
  split
  · exact fluxJ_part hN hn hf hQ h hz hj hi m s
  · exact fluxK_part hN hn hf hQ h hz hj hi hm s

theorem itfTheta_part (d m : Nat) (s : Bool) :
    itfTheta g Q d (enc g.k pl) ek ej ei m s = itfTheta (whole3 g) W d pl.panel ek (pl.row * g.N + ej) (pl.col * g.N + ei) m s := by
  unfold itfTheta
  split
  · exact qI_part hQ h hz hj hi (by decide) _
  split
  · exact qJ_part hQ h hz hj hi (by decide) _
  · exact qK_part hQ h hz hj hi (by decide) _

theorem wdf_part (d : Nat) (hd : d ≤ 2) {c : Nat} (hc : c < g.n * g.n * g.n) :
    wdf g f' Q d (enc g.k pl) ek ej ei c = wdf (whole3 g) f W d pl.panel ek (pl.row * g.N + ej) (pl.col * g.N + ei) c := by
  have out := fun m hm s => itfOut_part hN hn hf hQ h hz hj hi d (m := m) hm s
  unfold wdf
  refine congrArg₂ (· + ·) (congrArg₂ (· + ·) (dfd_congr d (fun c hc => ?_) (ofSides_congr fun m hm s => (out m hm s).wadv) c)
    (congrArg₂ (· * ·) (dfd_congr d (fun c _ => ?_) (ofSides_congr fun m hm s => (out m hm s).wpres) c) (pres_part hN hn hf hQ h hz hj hi hc)))
    (congrArg₂ (· * ·) (dfd_congr d (fun c hc => ?_) (ofSides_congr fun m _ s => ?_) c)
      (congrArg₂ (· * ·) (pres_part hN hn hf hQ h hz hj hi hc) ?_))
  · rw [sqrtG_part3 hN hn hf h ek hj hi, vel_part hN hn hf hQ h hz hj hi d hd hc, holds3_at hQ h hz hj hi (by decide) hc]
  · rw [sqrtG_part3 hN hn hf h ek hj hi, hc_part3 hN hn hf h ek hj hi]
  · rw [pres_part hN hn hf hQ h hz hj hi hc]
  · rw [itfTheta_part hN hn hf hQ h hz hj hi d m s]
  · beta_reduce
    rw [sqrtG_part3 hN hn hf h ek hj hi, hc_part3 hN hn hf h ek hj hi]

theorem divergence_part {v : Nat} (hv : v ≤ 4) {c : Nat} (hc : c < g.n * g.n * g.n) :
    divergence g f' Q (enc g.k pl) ek ej ei v c = divergence (whole3 g) f W pl.panel ek (pl.row * g.N + ej) (pl.col * g.N + ei) v c := by
  unfold divergence
  rw [wdf_part hN hn hf hQ h hz hj hi 0 (by decide) hc, wdf_part hN hn hf hQ h hz hj hi 1 (by decide) hc,
    wdf_part hN hn hf hQ h hz hj hi 2 (by decide) hc, sqrtG_part3 hN hn hf h ek hj hi]
  congr 1
  unfold rhsSphere3d
  beta_reduce
  rw [sqrtG_part3 hN hn hf h ek hj hi]
  have d0 := dfd_congr 0 (fun c hc => pointFlux_part hN hn hf hQ h hz hj hi 0 (by decide) hv hc)
    (ofSides_congr fun m _ s => (fluxI_part hN hn hf hQ h hz hj hi m s).flux v hv) c
  have d1 := dfd_congr 1 (fun c hc => pointFlux_part hN hn hf hQ h hz hj hi 1 (by decide) hv hc)
    (ofSides_congr fun m _ s => (fluxJ_part hN hn hf hQ h hz hj hi m s).flux v hv) c
  have d2 := dfd_congr 2 (fun c hc => pointFlux_part hN hn hf hQ h hz hj hi 2 (by decide) hv hc)
    (ofSides_congr fun m hm s => (fluxK_part hN hn hf hQ h hz hj hi hm s).flux v hv) c
  exact congrArg₂ (· * ·) rfl (congrArg₂ (· + ·) (congrArg₂ (· + ·) d0 d1) d2)

theorem forcing_part {F' F : ForcingData} (hF : HoldsForcing g F' F) (v : Nat) {c : Nat} (hc : c < g.n * g.n * g.n) :
    forcing g f' Q F' (enc g.k pl) ek ej ei v c = forcing (whole3 g) f W F pl.panel ek (pl.row * g.N + ej) (pl.col * g.N + ei) v c := by
  unfold forcing
  by_cases hv : 1 ≤ v ∧ v ≤ 3
  swap
  · rw [if_neg hv, if_neg hv]
  rw [if_pos hv, if_pos hv]
  have hΓ : ∀ b < 9, F'.Γ (v - 1) b (enc g.k pl) ek ej ei c = F.Γ (v - 1) b pl.panel ek (pl.row * g.N + ej) (pl.col * g.N + ei) c := by
    intro b hb
    rw [hF.Γ _ (by omega) _ hb _ (enc_lt h) _ hz _ hj _ hi _ hc, panelOf_enc h, rowOf_enc h, colOf_enc h]
  have hu : F'.uref (v - 1) (enc g.k pl) ek ej ei c = F.uref (v - 1) pl.panel ek (pl.row * g.N + ej) (pl.col * g.N + ei) c := by
    rw [hF.uref _ (by omega) _ (enc_lt h) _ hz _ hj _ hi _ hc, panelOf_enc h, rowOf_enc h, colOf_enc h]
  have hr : F'.rate (enc g.k pl) ek ej ei c = F.rate pl.panel ek (pl.row * g.N + ej) (pl.col * g.N + ei) c := by
    rw [hF.rate _ (enc_lt h) _ hz _ hj _ hi _ hc, panelOf_enc h, rowOf_enc h, colOf_enc h]
  simp only [forcing1]
  rw [hΓ 0 (by decide), hΓ 1 (by decide), hΓ 2 (by decide), hΓ 3 (by decide), hΓ 4 (by decide), hΓ 5 (by decide), hΓ 6 (by decide), hΓ 7 (by decide),
    hΓ 8 (by decide), hu, hr, vel_part hN hn hf hQ h hz hj hi 0 (by decide) hc, vel_part hN hn hf hQ h hz hj hi 1 (by decide) hc,
    vel_part hN hn hf hQ h hz hj hi 2 (by decide) hc, vel_part hN hn hf hQ h hz hj hi (v - 1) (by omega) hc, pres_part hN hn hf hQ h hz hj hi hc,
    hc_part3 hN hn hf h ek hj hi, pt_part hN hn hf h ek hj hi, sqrtG_part3 hN hn hf h ek hj hi, holds3_at hQ h hz hj hi (by decide) hc,
    vecmul_congr (fun c hc => by rw [sqrtG_part3 hN hn hf h ek hj hi, holds3_at hQ h hz hj hi (by decide) hc])]
  rfl

theorem rhs_part {F' F : ForcingData} (hF : HoldsForcing g F' F) {v : Nat} (hv : v ≤ 4) {c : Nat} (hc : c < g.n * g.n * g.n) :
    rhs g f' Q F' (enc g.k pl) ek ej ei v c = rhs (whole3 g) f W F pl.panel ek (pl.row * g.N + ej) (pl.col * g.N + ei) v c := by
  unfold rhs
  rw [divergence_part hN hn hf hQ h hz hj hi hv hc, forcing_part hN hn hf hQ h hz hj hi hF v hc]
  rfl

end

theorem facePt_part (hN : 0 < g.N) (hn : 0 < g.n) (hf : HoldsFloor g f' f) (h : Valid g.k pl) {d ek ej ei : Nat} (hj : ej < g.N) (hi : ei < g.N)
    {m : Nat} (hm : m < g.n * g.n) (s : Bool) :
    facePt g f' d (enc g.k pl) ek ej ei s m = facePt (whole3 g) f d pl.panel ek (pl.row * g.N + ej) (pl.col * g.N + ei) s m := by
  unfold facePt
  rw [ptI_part hN hn hf h ek hj (by split <;> omega), ptJ_part hN hn hf h ek hi (by split <;> omega), ptK_part hN hn hf h _ hj hi hm]
  cases s <;> rfl

theorem gradMetric_part (hN : 0 < g.N) (hn : 0 < g.n) (hf : HoldsFloor g f' f) (h : Valid g.k pl) (d a b ek : Nat) {ej ei : Nat} (hj : ej < g.N)
    (hi : ei < g.N) (c : Nat) :
    gradMetric g f' d a b (enc g.k pl) ek ej ei c = gradMetric (whole3 g) f d a b pl.panel ek (pl.row * g.N + ej) (pl.col * g.N + ei) c := by
  unfold gradMetric
  exact dfd_congr d (fun c _ => by rw [sqrtG_part3 hN hn hf h ek hj hi, hc_part3 hN hn hf h ek hj hi])
    (ofSides_congr fun m hm s => by rw [facePt_part hN hn hf h hj hi hm]) c

/-- **C83**, 3D Euler equations. If the processes hold the parts of a state, a floor and the forcing data given on the six panels, then the tendencies
they compute together are the parts of the tendency that six processes compute. -/
theorem C83_euler (g : Atm) {f' f : Floor} {Q W : Field3} {F' F : ForcingData} (hf : HoldsFloor g f' f) (hF : HoldsForcing g F' F) (hQ : Holds3 g Q W) :
    Holds3 g (rhs g f' Q F') (rhs (whole3 g) f W F) := by
  intro r hr ek hz ej hj ei hi v hv c hc
  have hn : 0 < g.n := Nat.pos_of_ne_zero fun h => by rw [h] at hc; exact absurd hc (by omega)
  have := rhs_part (Nat.lt_of_le_of_lt (Nat.zero_le _) hj) hn hf hQ (placeOf_valid hr) hz hj hi hF hv hc
  rw [enc_placeOf] at this
  exact this

/-- **C83**, the linear systems for the Christoffel symbols: the numbers that solve the one of a point of a tile are the ones that solve the one of the same
point on six processes. -/
theorem C83_christoffel (g : Atm) {f' f : Floor} {F' F : ForcingData} (hf : HoldsFloor g f' f) (hF : HoldsForcing g F' F) {r ek ej ei c : Nat}
    (hr : r < 6 * (g.k * g.k)) (hz : ek < g.nz) (hj : ej < g.N) (hi : ei < g.N) (hc : c < g.n * g.n * g.n) :
    NumericSymbols g f' F' r ek ej ei c ↔
      NumericSymbols (whole3 g) f F (panelOf g.toGrid r) ek (rowOf g.toGrid r ej) (colOf g.toGrid r ei) c := by
  have hn : 0 < g.n := Nat.pos_of_ne_zero fun h => by rw [h] at hc; exact absurd hc (by omega)
  have hN : 0 < g.N := Nat.lt_of_le_of_lt (Nat.zero_le _) hj
  have hp := placeOf_valid hr
  have e1 := sqrtG_part3 hN hn hf hp ek hj hi c
  have e2 := hc_part3 hN hn hf hp ek hj hi c
  have e3 := fun d a b => gradMetric_part hN hn hf hp d a b ek hj hi c
  rw [enc_placeOf] at e1 e2
  simp only [enc_placeOf] at e3
  have hΓ : ∀ (a : Fin 3) (b : Nat), b < 9 → F'.Γ a b r ek ej ei c = F.Γ a b (panelOf g.toGrid r) ek (rowOf g.toGrid r ej) (colOf g.toGrid r ei) c :=
    fun a b hb => hF.Γ a a.2 b hb r hr ek hz ej hj ei hi c hc
  unfold NumericSymbols
  simp only [e1, e2, e3, hΓ _ 3 (by decide), hΓ _ 4 (by decide), hΓ _ 5 (by decide), hΓ _ 6 (by decide), hΓ _ 7 (by decide), hΓ _ 8 (by decide)]
  rfl

/-! ## Floors given by the coordinates, time steps, two ways of cutting -/

/-- a floor whose height is a function of the panel and the position in it — `cubed_sphere_3d.py` 441-501 (the sides: the point on the `true` side) -/
noncomputable def floorOf (g : Atm) (ζ : Nat → ℝ × ℝ → ℝ) : Floor where
  z r ej ei c := ζ (myPanel g.size r) (g.toGrid.solXY r ej ei c)
  itfI r ej e l := ζ (myPanel g.size r) (g.toGrid.itfXY1 r ej e true l)
  itfJ r e ei l := ζ (myPanel g.size r) (g.toGrid.itfXY2 r e ei true l)

theorem C83_floor (g : Atm) (hn : 0 < g.n) (ζ : Nat → ℝ × ℝ → ℝ) : HoldsFloor g (floorOf g ζ) (floorOf (whole3 g) ζ) := by
  have panel : ∀ r < 6 * (g.k * g.k), myPanel g.size r = myPanel (whole3 g).size (panelOf g.toGrid r) := by
    intro r hr
    have hp := placeOf_valid hr
    have m := (tile_my (g := g.toGrid) hp).2.2
    rw [enc_placeOf] at m
    rw [m]
    exact (whole_my (g := g.toGrid) hp).2.2.symm
  refine ⟨fun r hr ej hj ei _ c _ => ?_, fun r hr ej hj e _ l _ => ?_, fun r hr ei hi e _ l _ => ?_⟩
  all_goals
    have hp := placeOf_valid hr
    have hN : 0 < g.N := Nat.lt_of_le_of_lt (Nat.zero_le _) (by assumption)
  · have := solXY_part (g := g.toGrid) hN hn hp ej ei c
    rw [enc_placeOf] at this
    simp only [floorOf, panel r hr, this]
    rfl
  · have := itfXY1_part (g := g.toGrid) hN hn hp ej e true l (Or.inl rfl)
    rw [enc_placeOf] at this
    simp only [floorOf, panel r hr, this]
    rfl
  · have := itfXY2_part (g := g.toGrid) hN hn hp e ei true l (Or.inl rfl)
    rw [enc_placeOf] at this
    simp only [floorOf, panel r hr, this]
    rfl

/-- the part of each process of a state given on the six panels -/
def cut (g : Atm) (W : Field3) : Field3 := fun r ek ej ei v c => W (panelOf g.toGrid r) ek (rowOf g.toGrid r ej) (colOf g.toGrid r ei) v c

theorem cut_holds (g : Atm) (W : Field3) : Holds3 g (cut g W) W := fun _ _ _ _ _ _ _ _ _ _ _ _ => rfl

/-- the parts of forcing data given on the six panels -/
def cutForcing (g : Atm) (F : ForcingData) : ForcingData where
  Γ a b r ek ej ei c := F.Γ a b (panelOf g.toGrid r) ek (rowOf g.toGrid r ej) (colOf g.toGrid r ei) c
  uref d r ek ej ei c := F.uref d (panelOf g.toGrid r) ek (rowOf g.toGrid r ej) (colOf g.toGrid r ei) c
  rate r ek ej ei c := F.rate (panelOf g.toGrid r) ek (rowOf g.toGrid r ej) (colOf g.toGrid r ei) c

theorem cutForcing_holds (g : Atm) (F : ForcingData) : HoldsForcing g (cutForcing g F) F :=
  ⟨fun _ _ _ _ _ _ _ _ _ _ _ _ _ _ => rfl, fun _ _ _ _ _ _ _ _ _ _ _ _ => rfl, fun _ _ _ _ _ _ _ _ _ _ => rfl⟩

theorem holds3_add {g : Atm} {A B C D : Field3} (h1 : Holds3 g A C) (h2 : Holds3 g B D) : Holds3 g (A + B) (C + D) := by
  intro r hr ek hz ej hj ei hi v hv c hc
  exact congrArg₂ (· + ·) (h1 r hr ek hz ej hj ei hi v hv c hc) (h2 r hr ek hz ej hj ei hi v hv c hc)

theorem holds3_sub {g : Atm} {A B C D : Field3} (h1 : Holds3 g A C) (h2 : Holds3 g B D) : Holds3 g (A - B) (C - D) := by
  intro r hr ek hz ej hj ei hi v hv c hc
  exact congrArg₂ (· - ·) (h1 r hr ek hz ej hj ei hi v hv c hc) (h2 r hr ek hz ej hj ei hi v hv c hc)

theorem holds3_smul {g : Atm} (a : ℝ) {A C : Field3} (h1 : Holds3 g A C) : Holds3 g (a • A) (a • C) := by
  intro r hr ek hz ej hj ei hi v hv c hc
  exact congrArg (a * ·) (h1 r hr ek hz ej hj ei hi v hv c hc)

theorem holds3_iterate {g : Atm} {S T : Field3 → Field3} (hST : ∀ Q W, Holds3 g Q W → Holds3 g (S Q) (T W)) {Q W : Field3} (h : Holds3 g Q W) (m : Nat) :
    Holds3 g (S^[m] Q) (T^[m] W) := by
  induction m with
  | zero => exact h
  | succ m ih => rw [Function.iterate_succ_apply', Function.iterate_succ_apply']; exact hST _ _ ih

/-- **C83**, time steps in 3D: any number of steps of the explicit schemes, and the Jacobian product of the other schemes. -/
theorem C83_euler_steps (g : Atm) {f' f : Floor} {Q W : Field3} {F' F : ForcingData} (hf : HoldsFloor g f' f) (hF : HoldsForcing g F' F)
    (hQ : Holds3 g Q W) (dt : ℝ) (m : Nat) :
    Holds3 g ((fun Q => Schemes.euler1 (fun Q => rhs g f' Q F') Q dt)^[m] Q) ((fun Q => Schemes.euler1 (fun Q => rhs (whole3 g) f Q F) Q dt)^[m] W) ∧
    Holds3 g ((fun Q => Schemes.tvdrk3 (fun Q => rhs g f' Q F') Q dt)^[m] Q) ((fun Q => Schemes.tvdrk3 (fun Q => rhs (whole3 g) f Q F) Q dt)^[m] W) ∧
    ∀ eps V Z, Holds3 g V Z →
      Holds3 g (Schemes.matvecFun eps (fun Q => rhs g f' Q F') Q dt V) (Schemes.matvecFun eps (fun Q => rhs (whole3 g) f Q F) W dt Z) := by
  have hr := fun {Q W} (h : Holds3 g Q W) => C83_euler g hf hF h
  refine ⟨holds3_iterate (fun Q W h => ?_) hQ m, holds3_iterate (fun Q W h => ?_) hQ m, fun eps V Z h => ?_⟩
  · exact holds3_add h (holds3_smul dt (hr h))
  · have h1 := holds3_add h (holds3_smul dt (hr h))
    have h2 := holds3_add (holds3_add (holds3_smul (3 / 4) h) (holds3_smul (1 / 4) h1)) (holds3_smul (1 / 4 * dt) (hr h1))
    exact holds3_add (holds3_add (holds3_smul (1 / 3) h) (holds3_smul (2 / 3) h2)) (holds3_smul (2 / 3 * dt) (hr h2))
  · exact holds3_smul _ (holds3_sub (hr (holds3_add hQ (holds3_smul eps h))) (hr hQ))

/-- **C83**, two numbers of processes in 3D: the same state, forcing data and floor given on the six panels, cut into tiles in two ways, have the same
values on every element after any number of Runge–Kutta steps. -/
theorem C83_euler_run (g g' : Atm) (hg : whole3 g = whole3 g') (ζ : Nat → ℝ × ℝ → ℝ) (W : Field3) (F : ForcingData) (dt : ℝ) (m : Nat)
    {r r' ek ej ej' ei ei' v c : Nat} (hr : r < 6 * (g.k * g.k)) (hj : ej < g.N) (hi : ei < g.N) (hr' : r' < 6 * (g'.k * g'.k)) (hj' : ej' < g'.N)
    (hi' : ei' < g'.N) (hz : ek < g.nz) (hv : v ≤ 4) (hc : c < g.n * g.n * g.n) (same : SameElement g.toGrid g'.toGrid r ej ei r' ej' ei') :
    (fun Q => Schemes.tvdrk3 (fun Q => rhs g (floorOf g ζ) Q (cutForcing g F)) Q dt)^[m] (cut g W) r ek ej ei v c =
    (fun Q => Schemes.tvdrk3 (fun Q => rhs g' (floorOf g' ζ) Q (cutForcing g' F)) Q dt)^[m] (cut g' W) r' ek ej' ei' v c := by
  have hn : 0 < g.n := Nat.pos_of_ne_zero fun h => by rw [h] at hc; exact absurd hc (by omega)
  have e1 : (whole3 g).n = (whole3 g').n := by rw [hg]
  change g.n = g'.n at e1
  have e2 : (whole3 g).nz = (whole3 g').nz := by rw [hg]
  change g.nz = g'.nz at e2
  have h1 := (C83_euler_steps g (C83_floor g hn ζ) (cutForcing_holds g F) (cut_holds g W) dt m).2.1
  have h2 := (C83_euler_steps g' (C83_floor g' (by rw [← e1]; exact hn) ζ) (cutForcing_holds g' F) (cut_holds g' W) dt m).2.1
  rw [← hg] at h2
  rw [h1 r hr ek hz ej hj ei hi v hv c hc, h2 r' hr' ek (by rw [← e2]; exact hz) ej' hj' ei' hi' v hv c (by rw [← e1]; exact hc), same.1, same.2.1, same.2.2]

/-- non-vacuity: six processes with 6 × 6 × 4 elements and fifty-four with 2 × 2 × 4, of one grid -/
example (g : Atm) : whole3 { g with k := 1, N := 6, nz := 4 } = whole3 { g with k := 3, N := 2, nz := 4 } ∧
    SameElement { g with k := 1, N := 6, nz := 4 : Atm }.toGrid { g with k := 3, N := 2, nz := 4 : Atm }.toGrid 2 3 5 23 1 1 :=
  ⟨rfl, by simp [SameElement, panelOf, rowOf, colOf, placeOf]⟩

end WxVerif.Props.Decomposition3D
