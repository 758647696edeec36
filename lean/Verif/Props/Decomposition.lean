import Verif.Lemmas.Decomposition
import Verif.Lemmas.ShallowWater
import Verif.Lemmas.Dfr
import Verif.Model.InitShallow
import Verif.Model.Schemes
import Mathlib.Algebra.Module.Pi
import Mathlib.Logic.Function.Iterate

/-!
# The tendencies do not depend on how the panels are cut into tiles (C83)
-/

namespace WxVerif.Props.Decomposition

open WxVerif.Topology WxVerif.Cube WxVerif.Decomposition WxVerif.Spec.Decomposition
open WxVerif.ShallowWater (Grid Field Topography mirrored_lt)
open WxVerif.ShallowWater.Grid (itfIndex)
open Real (tan pi)

variable {g : Grid}

/-! ## Geometry -/

theorem panelOf_enc {pl : Place} (h : Valid g.k pl) : panelOf g (enc g.k pl) = pl.panel := by unfold panelOf; rw [placeOf_enc h]
theorem rowOf_enc {pl : Place} (h : Valid g.k pl) (e : Nat) : rowOf g (enc g.k pl) e = pl.row * g.N + e := by unfold rowOf; rw [placeOf_enc h]
theorem colOf_enc {pl : Place} (h : Valid g.k pl) (e : Nat) : colOf g (enc g.k pl) e = pl.col * g.N + e := by unfold colOf; rw [placeOf_enc h]

theorem k_pos {k : Nat} {pl : Place} (h : Valid k pl) : 0 < k := Nat.lt_of_le_of_lt (Nat.zero_le _) h.2.1

theorem whole_dx (hk : 0 < g.k) : (whole g).dx = g.dx := by
  unfold Grid.dx Grid.deltaPanel whole
  have : (g.k : ℝ) ≠ 0 := by exact_mod_cast hk.ne'
  push_cast
  rw [div_one, div_div]

theorem whole_my {k : Nat} {pl : Place} (h : Valid k pl) :
    myCol (whole g).size pl.panel = 0 ∧ myRow (whole g).size pl.panel = 0 ∧ myPanel (whole g).size pl.panel = pl.panel := by
  have h1 := lift_valid h
  obtain ⟨a, b, c⟩ := my_eq (k := 1) (enc_lt h1)
  rw [placeOf_enc h1, enc_lift] at a b c
  exact ⟨c, b, a⟩

theorem tile_my {pl : Place} (h : Valid g.k pl) :
    myCol g.size (enc g.k pl) = pl.col ∧ myRow g.size (enc g.k pl) = pl.row ∧ myPanel g.size (enc g.k pl) = pl.panel := by
  obtain ⟨a, b, c⟩ := my_eq (k := g.k) (enc_lt h)
  rw [placeOf_enc h] at a b c
  exact ⟨c, b, a⟩

theorem delta1_part {pl : Place} (h : Valid g.k pl) (r p : Nat) : g.delta1 r = (whole g).delta1 p := by
  rw [Grid.delta1_eq, Grid.delta1_eq, whole_dx (k_pos h)]
theorem delta2_part {pl : Place} (h : Valid g.k pl) (r p : Nat) : g.delta2 r = (whole g).delta2 p := by
  rw [Grid.delta2_eq, Grid.delta2_eq, whole_dx (k_pos h)]

theorem x1_part (hN : 0 < g.N) (hn : 0 < g.n) {pl : Place} (h : Valid g.k pl) (i : Nat) :
    g.x1 (enc g.k pl) i = (whole g).x1 pl.panel (pl.col * (g.N * g.n) + i) := by
  rw [Grid.x1_eq hN hn, Grid.x1_eq (g := whole g) (Nat.mul_pos (k_pos h) hN) hn, whole_dx (k_pos h), (tile_my h).1, (whole_my h).1, Nat.zero_mul,
    Nat.zero_add]
  rfl

theorem x2_part (hN : 0 < g.N) (hn : 0 < g.n) {pl : Place} (h : Valid g.k pl) (i : Nat) :
    g.x2 (enc g.k pl) i = (whole g).x2 pl.panel (pl.row * (g.N * g.n) + i) := by
  rw [Grid.x2_eq hN hn, Grid.x2_eq (g := whole g) (Nat.mul_pos (k_pos h) hN) hn, whole_dx (k_pos h), (tile_my h).2.1, (whole_my h).2.1, Nat.zero_mul,
    Nat.zero_add]
  rfl

theorem x1itf_part (hN : 0 < g.N) {pl : Place} (h : Valid g.k pl) (e : Nat) :
    g.x1itf (enc g.k pl) e = (whole g).x1itf pl.panel (pl.col * g.N + e) := by
  rw [Grid.x1itf_eq hN, Grid.x1itf_eq (g := whole g) (Nat.mul_pos (k_pos h) hN), whole_dx (k_pos h)]
  unfold Grid.start1
  rw [(tile_my h).1, (whole_my h).1, ← Grid.N_dx hN]
  push_cast
  ring

theorem x2itf_part (hN : 0 < g.N) {pl : Place} (h : Valid g.k pl) (e : Nat) :
    g.x2itf (enc g.k pl) e = (whole g).x2itf pl.panel (pl.row * g.N + e) := by
  rw [Grid.x2itf_eq hN, Grid.x2itf_eq (g := whole g) (Nat.mul_pos (k_pos h) hN), whole_dx (k_pos h)]
  unfold Grid.start2
  rw [(tile_my h).2.1, (whole_my h).2.1, ← Grid.N_dx hN]
  push_cast
  ring

theorem index_part (a N p : Nat) (s : Bool) (hp : s = true ∨ 1 ≤ p) : a * N + itfIndex p s = itfIndex (a * N + p) s := by
  unfold itfIndex
  cases s
  · simp only [Bool.false_eq_true, if_false, false_or] at hp ⊢; omega
  · rfl

theorem join (a N e n l : Nat) : a * (N * n) + (e * n + l) = (a * N + e) * n + l := by
  rw [Nat.add_mul, Nat.mul_assoc, Nat.add_assoc]

theorem itfXY1_part (hN : 0 < g.N) (hn : 0 < g.n) {pl : Place} (h : Valid g.k pl) (ej p : Nat) (s : Bool) (l : Nat) (hp : s = true ∨ 1 ≤ p) :
    g.itfXY1 (enc g.k pl) ej p s l = (whole g).itfXY1 pl.panel (pl.row * g.N + ej) (pl.col * g.N + p) s l := by
  unfold Grid.itfXY1
  rw [x1itf_part hN h, x2_part hN hn h, index_part _ _ _ _ hp, join]
  rfl

theorem itfXY2_part (hN : 0 < g.N) (hn : 0 < g.n) {pl : Place} (h : Valid g.k pl) (p ei : Nat) (s : Bool) (l : Nat) (hp : s = true ∨ 1 ≤ p) :
    g.itfXY2 (enc g.k pl) p ei s l = (whole g).itfXY2 pl.panel (pl.row * g.N + p) (pl.col * g.N + ei) s l := by
  unfold Grid.itfXY2
  rw [x2itf_part hN h, x1_part hN hn h, index_part _ _ _ _ hp, join]
  rfl

theorem solXY_part (hN : 0 < g.N) (hn : 0 < g.n) {pl : Place} (h : Valid g.k pl) (ej ei c : Nat) :
    g.solXY (enc g.k pl) ej ei c = (whole g).solXY pl.panel (pl.row * g.N + ej) (pl.col * g.N + ei) c := by
  unfold Grid.solXY
  rw [x1_part hN hn h, x2_part hN hn h, join, join]
  rfl

theorem sqrtG_part {pl : Place} (h : Valid g.k pl) (r p : Nat) (xy : ℝ × ℝ) : g.sqrtG r xy = (whole g).sqrtG p xy := by
  unfold Grid.sqrtG
  rw [delta1_part h r p, delta2_part h r p]
  rfl

theorem H_part {pl : Place} (h : Valid g.k pl) (r p : Nat) (xy : ℝ × ℝ) : g.H r xy = (whole g).H p xy := by
  unfold Grid.H
  rw [delta1_part h r p, delta2_part h r p]
  rfl

/-- coordinate along side `d` of point `i` -/
noncomputable def along (g : Grid) (r : Nat) (d : Side) (i : Nat) : ℝ :=
  match d with
  | .south | .north => tan (g.x1 r i)
  | .west | .east => tan (g.x2 r i)

theorem boundary_along (g : Grid) (r : Nat) (s : Side) : g.boundary r s = (List.range (g.N * g.n)).map (along g r s) := by
  cases s <;> rfl

theorem along_part (hN : 0 < g.N) (hn : 0 < g.n) {pl : Place} (h : Valid g.k pl) (d : Side) (i : Nat) :
    along g (enc g.k pl) d i = along (whole g) pl.panel d (off pl d * (g.N * g.n) + i) := by
  cases d <;> simp only [along, off, x1_part hN hn h, x2_part hN hn h]

theorem quot (a N n i : Nat) (hn : 0 < n) : (a * (N * n) + i) / n = a * N + i / n := by
  rw [← Nat.mul_assoc, Nat.mul_comm _ n, Nat.mul_add_div hn]
theorem rem (a N n i : Nat) : (a * (N * n) + i) % n = i % n := by
  rw [← Nat.mul_assoc, Nat.mul_comm _ n, Nat.mul_add_mod]

/-- which tiles touch which edge of their panel -/
theorem edge_iff {k : Nat} {pl : Place} (h : Valid k pl) (d : Side) : atPanelEdge (6 * (k * k)) (enc k pl) d = true ↔
    (match d with | .south => pl.row = 0 | .north => pl.row = k - 1 | .west => pl.col = 0 | .east => pl.col = k - 1) := by
  have := h.2.1
  have := h.2.2
  rw [atPanelEdge_enc h]; cases d <;> simp only [decide_eq_true_eq] <;> omega

theorem last_elem {k N a : Nat} (hN : 0 < N) (hk : 0 < k) (ha : a = k - 1) : a * N + (N - 1) = k * N - 1 := by
  subst ha
  have : (k - 1) * N + N = k * N := by rw [← Nat.succ_mul]; congr 1; omega
  omega

/-- the neighbouring tile inside the panel -/
theorem nbr_inside {k : Nat} {pl : Place} (h : Valid k pl) (d : Side) (he : atPanelEdge (6 * (k * k)) (enc k pl) d = false) :
    (match d with
      | .south => nbrPlace k pl d = ⟨pl.panel, pl.row - 1, pl.col⟩ ∧ backSide k pl d = .north ∧ 1 ≤ pl.row
      | .north => nbrPlace k pl d = ⟨pl.panel, pl.row + 1, pl.col⟩ ∧ backSide k pl d = .south ∧ pl.row + 1 < k
      | .west => nbrPlace k pl d = ⟨pl.panel, pl.row, pl.col - 1⟩ ∧ backSide k pl d = .east ∧ 1 ≤ pl.col
      | .east => nbrPlace k pl d = ⟨pl.panel, pl.row, pl.col + 1⟩ ∧ backSide k pl d = .west ∧ pl.col + 1 < k) := by
  rw [atPanelEdge_enc h] at he
  obtain ⟨p, r, c⟩ := pl
  obtain ⟨hp, hr, hc⟩ := h
  simp only at hp hr hc he
  cases d <;> simp only [decide_eq_false_iff_not] at he <;> simp [nbrPlace, backSide, he] <;> omega

/-- positions in a panel of the positions of a tile -/
theorem pos_cases {k N a p : Nat} (ha : a < k) (h1 : 1 ≤ p) (h2 : p ≤ N) : 1 ≤ a * N + p ∧ a * N + p ≤ k * N ∧ a * N + p - 1 = a * N + (p - 1) := by
  have : (a + 1) * N ≤ k * N := Nat.mul_le_mul_right N ha
  rw [Nat.add_mul, Nat.one_mul] at this
  omega

/-- A line of elements with its two halo entries: tile number `a` of `k` on the line, and the whole line. -/
theorem line {α : Type*} {k N a : Nat} (ha : a < k) (hN : 0 < N) (own : Nat → Nat → Bool → α) (Own : Nat → Bool → α)
    (hown : ∀ b < k, ∀ e < N, ∀ s, own b e s = Own (b * N + e) s) (first last First Last z : α)
    (h0 : a = 0 → first = First) (h0' : 1 ≤ a → first = own (a - 1) (N - 1) true)
    (h1 : a = k - 1 → last = Last) (h1' : a + 1 < k → last = own (a + 1) 0 false) {p : Nat} {s : Bool} (hp : Inner N p s) :
    (if 1 ≤ p ∧ p ≤ N then own a (p - 1) s else if p = 0 ∧ s = true then first else if p = N + 1 ∧ s = false then last else z) =
    (if 1 ≤ a * N + p ∧ a * N + p ≤ k * N then Own (a * N + p - 1) s else if a * N + p = 0 ∧ s = true then First
      else if a * N + p = k * N + 1 ∧ s = false then Last else z) := by
  by_cases hin : 1 ≤ p ∧ p ≤ N
  · obtain ⟨e1, e2, e3⟩ := pos_cases (N := N) ha hin.1 hin.2
    rw [if_pos hin, if_pos ⟨e1, e2⟩, e3, hown _ ha _ (by omega)]
  · rw [if_neg hin]
    have hout : (p = 0 ∧ s = true) ∨ (p = N + 1 ∧ s = false) := by
      rcases hp with ⟨rfl, hp⟩ | ⟨rfl, hp, hp'⟩
      · exact Or.inl ⟨by omega, rfl⟩
      · exact Or.inr ⟨by omega, rfl⟩
    rcases hout with ⟨rfl, rfl⟩ | ⟨rfl, rfl⟩
    · rw [if_pos ⟨rfl, rfl⟩, Nat.add_zero]
      by_cases e : a = 0
      · rw [h0 e, e, Nat.zero_mul, if_neg (by omega), if_pos ⟨rfl, rfl⟩]
      · rw [h0' (by omega), hown _ (by omega) _ (by omega)]
        have e1 : (a - 1) * N + N = a * N := by rw [← Nat.succ_mul]; congr 1; omega
        have := pos_cases (k := k) (N := N) (a := a - 1) (by omega) hN (Nat.le_refl _)
        rw [if_pos (by omega)]
        congr 1
        omega
    · rw [if_neg (by simp), if_pos ⟨rfl, rfl⟩]
      have := Nat.mul_pos (Nat.lt_of_le_of_lt (Nat.zero_le _) ha) hN
      by_cases e : a = k - 1
      · have e1 := last_elem hN (Nat.lt_of_le_of_lt (Nat.zero_le _) ha) e
        rw [h1 e, if_neg (by omega), if_neg (by simp), if_pos ⟨by omega, rfl⟩]
      · rw [h1' (by omega), hown _ (by omega) _ hN]
        have e1 : (a + 1) * N = a * N + N := Nat.succ_mul _ _
        have := pos_cases (k := k) (N := N) (a := a + 1) (by omega) (Nat.le_refl 1) hN
        rw [if_pos (by omega)]
        congr 1

theorem point_lt {N n e l : Nat} (he : e < N) (hl : l < n) : e * n + l < N * n := whole_lt he hl

theorem div_join {n : Nat} (e : Nat) {l : Nat} (hl : l < n) : (e * n + l) / n = e := by
  rw [Nat.mul_comm, Nat.mul_add_div (by omega), Nat.div_eq_of_lt hl, Nat.add_zero]
theorem mod_join {n : Nat} (e : Nat) {l : Nat} (hl : l < n) : (e * n + l) % n = l := by
  rw [Nat.mul_comm, Nat.mul_add_mod, Nat.mod_eq_of_lt hl]

/-- how the tiles at the ends of a line of tiles know it -/
theorem edge_true {k : Nat} {pl : Place} (h : Valid k pl) (d : Side)
    (e : match d with | .south => pl.row = 0 | .north => pl.row = k - 1 | .west => pl.col = 0 | .east => pl.col = k - 1) :
    atPanelEdge (6 * (k * k)) (enc k pl) d = true := (edge_iff h d).mpr e
theorem edge_false {k : Nat} {pl : Place} (h : Valid k pl) (d : Side)
    (e : ¬ match d with | .south => pl.row = 0 | .north => pl.row = k - 1 | .west => pl.col = 0 | .east => pl.col = k - 1) :
    atPanelEdge (6 * (k * k)) (enc k pl) d = false := by
  rw [← Bool.not_eq_true]; exact fun c => e ((edge_iff h d).mp c)

/-! ## The shallow-water right-hand side -/

namespace SW
open WxVerif.ShallowWater WxVerif.Dfr WxVerif.Flux

variable {t' t : Topography} {Q W : Field}

theorem vecmul_congr {m : Nat} {f f' : Nat → ℝ} (hf : ∀ r < m, f r = f' r) (a : Nat → Nat → ℝ) (c : Nat) : vecmul m f a c = vecmul m f' a c :=
  Finset.sum_congr rfl fun r hr => by rw [hf r (Finset.mem_range.mp hr)]

theorem holds_at (hQ : Holds g Q W) {pl : Place} (h : Valid g.k pl) {ej ei v c : Nat} (hj : ej < g.N) (hi : ei < g.N) (hv : v ≤ 2)
    (hc : c < g.n * g.n) : Q (enc g.k pl) ej ei v c = W pl.panel (pl.row * g.N + ej) (pl.col * g.N + ei) v c := by
  rw [hQ _ (enc_lt h) _ hj _ hi _ hv _ hc, panelOf_enc h, rowOf_enc h, colOf_enc h]

theorem unpacked_part (ht : HoldsTopo g t' t) (hQ : Holds g Q W) {pl : Place} (h : Valid g.k pl) {ej ei v c : Nat} (hj : ej < g.N) (hi : ei < g.N)
    (hv : v ≤ 2) (hc : c < g.n * g.n) :
    unpacked t' Q (enc g.k pl) ej ei v c = unpacked t W pl.panel (pl.row * g.N + ej) (pl.col * g.N + ei) v c := by
  unfold unpacked
  rw [holds_at hQ h hj hi hv hc, ht.h _ (enc_lt h) _ hj _ hi _ hc, panelOf_enc h, rowOf_enc h, colOf_enc h]

theorem extrapI_part (ht : HoldsTopo g t' t) (hQ : Holds g Q W) {pl : Place} (h : Valid g.k pl) {ej ei v : Nat} (hj : ej < g.N) (hi : ei < g.N)
    (hv : v ≤ 2) (m : Nat) :
    extrapI g t' Q (enc g.k pl) ej ei v m = extrapI (whole g) t W pl.panel (pl.row * g.N + ej) (pl.col * g.N + ei) v m :=
  vecmul_congr (fun _ hc => unpacked_part ht hQ h hj hi hv hc) _ m

theorem extrapJ_part (ht : HoldsTopo g t' t) (hQ : Holds g Q W) {pl : Place} (h : Valid g.k pl) {ej ei v : Nat} (hj : ej < g.N) (hi : ei < g.N)
    (hv : v ≤ 2) (m : Nat) :
    extrapJ g t' Q (enc g.k pl) ej ei v m = extrapJ (whole g) t W pl.panel (pl.row * g.N + ej) (pl.col * g.N + ei) v m :=
  vecmul_congr (fun _ hc => unpacked_part ht hQ h hj hi hv hc) _ m

theorem sent_part (hN : 0 < g.N) (hn : 0 < g.n) (ht : HoldsTopo g t' t) (hQ : Holds g Q W) {pl : Place} (h : Valid g.k pl) (d : Side)
    (he : atPanelEdge (6 * (g.k * g.k)) (enc g.k pl) d = true) {v i : Nat} (hv : v ≤ 2) (hi : i < g.N * g.n) :
    sent g t' Q (enc g.k pl) d v i = sent (whole g) t W pl.panel d v (off pl d * (g.N * g.n) + i) := by
  rw [edge_iff h] at he
  have hq : i / g.n < g.N := (Nat.div_lt_iff_lt_mul hn).mpr hi
  have hl : g.N - 1 < g.N := by omega
  cases d <;> simp only at he <;> simp only [sent, extrapI_part ht hQ h hN hq hv, extrapJ_part ht hQ h hN hq hv, extrapI_part ht hQ h hq hN hv,
      extrapJ_part ht hQ h hl hq hv, extrapI_part ht hQ h hq hl hv, off] <;>
    rw [show (whole g).n = g.n from rfl, quot _ _ _ _ hn, rem]
  · rw [he, Nat.zero_mul]
  · rw [last_elem hN (k_pos h) he]; rfl
  · rw [he, Nat.zero_mul]
  · rw [last_elem hN (k_pos h) he]; rfl

theorem received_edge (hN : 0 < g.N) (hn : 0 < g.n) (ht : HoldsTopo g t' t) (hQ : Holds g Q W) {pl : Place} (h : Valid g.k pl) (d : Side)
    (he : atPanelEdge (6 * (g.k * g.k)) (enc g.k pl) d = true) (v : Nat) {i : Nat} (hi : i < g.N * g.n) :
    received g t' Q (enc g.k pl) d v i = received (whole g) t W pl.panel d v (off pl d * (g.N * g.n) + i) := by
  have e1 := scalar_edge h (M := g.N * g.n) (fun s d' => sent g t' Q s d' 0) (fun s d' => sent (whole g) t W s d' 0) d he
    (fun q hq s hs j hj => sent_part hN hn ht hQ hq s hs (Nat.zero_le _) hj) hi 0
  have e2 := vector_edge h (M := g.N * g.n) (fun s d' i => (sent g t' Q s d' 1 i, sent g t' Q s d' 2 i, (0 : ℝ)))
    (fun s d' i => (sent (whole g) t W s d' 1 i, sent (whole g) t W s d' 2 i, (0 : ℝ))) (along g) (along (whole g)) g.boundary (whole g).boundary
    (boundary_along g) (fun r s => by rw [boundary_along, ← Nat.mul_assoc]; rfl) d he
    (fun q hq s hs j hj => by rw [sent_part hN hn ht hQ hq s hs (by decide) hj, sent_part hN hn ht hQ hq s hs (by decide) hj])
    (fun q hq s j _ => along_part hN hn hq s j) hi (0, 0, 0)
  rw [← Nat.mul_assoc g.k] at e1 e2
  unfold received receivedH receivedU
  simp only
  rw [show g.size = 6 * (g.k * g.k) from rfl, show (whole g).size = 6 * (1 * 1) from rfl, show (whole g).N * (whole g).n = g.k * g.N * g.n from rfl, e1, e2]

theorem received_inside {pl : Place} (h : Valid g.k pl) (d : Side)
    (he : atPanelEdge (6 * (g.k * g.k)) (enc g.k pl) d = false) {v : Nat} (hv : v ≤ 2) {i : Nat} (hi : i < g.N * g.n) (t' : Topography) (Q : Field) :
    received g t' Q (enc g.k pl) d v i = sent g t' Q (enc g.k (nbrPlace g.k pl d)) (backSide g.k pl d) v i := by
  unfold received receivedH receivedU
  rw [show g.size = 6 * (g.k * g.k) from rfl]
  simp only
  rw [scalar_inside h (fun s d' => sent g t' Q s d' 0) d he hi 0,
    vector_inside h (fun s d' i => (sent g t' Q s d' 1 i, sent g t' Q s d' 2 i, (0 : ℝ))) (along g) g.boundary (boundary_along g) d he hi (0, 0, 0)]
  obtain rfl | rfl | rfl : v = 0 ∨ v = 1 ∨ v = 2 := by omega
  · rfl
  · rfl
  · rfl

theorem varI_part (hN : 0 < g.N) (hn : 0 < g.n) (ht : HoldsTopo g t' t) (hQ : Holds g Q W) {pl : Place} (h : Valid g.k pl) {ej p : Nat} {s : Bool}
    {l v : Nat} (hj : ej < g.N) (hp : Inner g.N p s) (hl : l < g.n) (hv : v ≤ 2) :
    varI g t' Q (enc g.k pl) ej p s l v = varI (whole g) t W pl.panel (pl.row * g.N + ej) (pl.col * g.N + p) s l v := by
  have hi := point_lt hj hl
  have full := line h.2.2 hN (fun b e s => extrapI g t' Q (enc g.k ⟨pl.panel, pl.row, b⟩) ej e v (node g.n s l))
    (fun e s => extrapI (whole g) t W pl.panel (pl.row * g.N + ej) e v (node g.n s l))
    (fun b hb e he s => extrapI_part ht hQ (pl := ⟨pl.panel, pl.row, b⟩) ⟨h.1, h.2.1, hb⟩ hj he hv _)
    (received g t' Q (enc g.k pl) .west v (ej * g.n + l)) (received g t' Q (enc g.k pl) .east v (ej * g.n + l))
    (received (whole g) t W pl.panel .west v ((pl.row * g.N + ej) * g.n + l)) (received (whole g) t W pl.panel .east v ((pl.row * g.N + ej) * g.n + l)) 0
    (fun e => by rw [received_edge hN hn ht hQ h .west (edge_true h .west e) v hi, ← join]; rfl)
    (fun e => by
      have he := edge_false h .west (by simp only; omega)
      obtain ⟨a, b, c⟩ := nbr_inside h .west he
      rw [received_inside h .west he hv hi, a, b]
      simp only [sent, div_join _ hl, mod_join _ hl])
    (fun e => by rw [received_edge hN hn ht hQ h .east (edge_true h .east e) v hi, ← join]; rfl)
    (fun e => by
      have he := edge_false h .east (by simp only; omega)
      obtain ⟨a, b, c⟩ := nbr_inside h .east he
      rw [received_inside h .east he hv hi, a, b]
      simp only [sent, div_join _ hl, mod_join _ hl]) hp
  unfold varI
  rw [show (whole g).N = g.k * g.N from rfl, show (whole g).n = g.n from rfl]
  simp only
  rw [full, ht.itfI _ (enc_lt h) _ hj _ _ hp _ hl, panelOf_enc h, rowOf_enc h, colOf_enc h]

theorem varJ_part (hN : 0 < g.N) (hn : 0 < g.n) (ht : HoldsTopo g t' t) (hQ : Holds g Q W) {pl : Place} (h : Valid g.k pl) {ei p : Nat} {s : Bool}
    {l v : Nat} (hj : ei < g.N) (hp : Inner g.N p s) (hl : l < g.n) (hv : v ≤ 2) :
    varJ g t' Q (enc g.k pl) p ei s l v = varJ (whole g) t W pl.panel (pl.row * g.N + p) (pl.col * g.N + ei) s l v := by
  have hi := point_lt hj hl
  have full := line h.2.1 hN (fun b e s => extrapJ g t' Q (enc g.k ⟨pl.panel, b, pl.col⟩) e ei v (node g.n s l))
    (fun e s => extrapJ (whole g) t W pl.panel e (pl.col * g.N + ei) v (node g.n s l))
    (fun b hb e he s => extrapJ_part ht hQ (pl := ⟨pl.panel, b, pl.col⟩) ⟨h.1, hb, h.2.2⟩ he hj hv _)
    (received g t' Q (enc g.k pl) .south v (ei * g.n + l)) (received g t' Q (enc g.k pl) .north v (ei * g.n + l))
    (received (whole g) t W pl.panel .south v ((pl.col * g.N + ei) * g.n + l)) (received (whole g) t W pl.panel .north v ((pl.col * g.N + ei) * g.n + l)) 0
    (fun e => by rw [received_edge hN hn ht hQ h .south (edge_true h .south e) v hi, ← join]; rfl)
    (fun e => by
      have he := edge_false h .south (by simp only; omega)
      obtain ⟨a, b, c⟩ := nbr_inside h .south he
      rw [received_inside h .south he hv hi, a, b]
      simp only [sent, div_join _ hl, mod_join _ hl])
    (fun e => by rw [received_edge hN hn ht hQ h .north (edge_true h .north e) v hi, ← join]; rfl)
    (fun e => by
      have he := edge_false h .north (by simp only; omega)
      obtain ⟨a, b, c⟩ := nbr_inside h .north he
      rw [received_inside h .north he hv hi, a, b]
      simp only [sent, div_join _ hl, mod_join _ hl]) hp
  unfold varJ
  rw [show (whole g).N = g.k * g.N from rfl, show (whole g).n = g.n from rfl]
  simp only
  rw [full, ht.itfJ _ (enc_lt h) _ hj _ _ hp _ hl, panelOf_enc h, rowOf_enc h, colOf_enc h]

/-- two descriptions of a side that the flux formulas cannot tell apart -/
structure Like (a b : SideSW) : Prop where
  var : ∀ v ≤ 2, a.var v = b.var v
  sqrtG : a.sqrtG = b.sqrtG
  H : a.H = b.H

theorem ausmI_like {a a' b b' : SideSW} (ha : Like a a') (hb : Like b b') {v : Nat} (hv : v ≤ 2) :
    (ausmSWI a b).1 v = (ausmSWI a' b').1 v ∧ (ausmSWI a b).2 v = (ausmSWI a' b').2 v := by
  simp only [ausmSWI, ha.var 0 (by decide), ha.var 1 (by decide), ha.var v hv, hb.var 0 (by decide), hb.var 1 (by decide), hb.var v hv, ha.sqrtG,
    hb.sqrtG, ha.H, hb.H, and_self]

theorem ausmJ_like {a a' b b' : SideSW} (ha : Like a a') (hb : Like b b') {v : Nat} (hv : v ≤ 2) :
    (ausmJ a b).1 v = (ausmJ a' b').1 v ∧ (ausmJ a b).2 v = (ausmJ a' b').2 v := by
  have m1 : machSWJ a = machSWJ a' := by simp only [machSWJ, ha.var 0 (by decide), ha.var 2 (by decide), ha.H]
  have m2 : machSWJ b = machSWJ b' := by simp only [machSWJ, hb.var 0 (by decide), hb.var 2 (by decide), hb.H]
  unfold ausmJ ausmSWJ
  rw [m1, m2]
  rcases machSWJ a' with _ | x
  · exact ⟨rfl, rfl⟩
  rcases machSWJ b' with _ | y
  · exact ⟨rfl, rfl⟩
  simp only [Option.getD_some, ha.var 0 (by decide), ha.var v hv, hb.var 0 (by decide), hb.var v hv, ha.sqrtG,
    hb.sqrtG, ha.H, hb.H, and_self]

/-- fluxes on the sides of an element of a tile and of the same element of the panel -/
theorem faces_part {k N a e : Nat} (ha : a < k) (he : e < N) {face : SideSW → SideSW → (Nat → ℝ) × (Nat → ℝ)} {v : Nat}
    (hf : ∀ {a a' b b' : SideSW}, Like a a' → Like b b' → (face a b).1 v = (face a' b').1 v ∧ (face a b).2 v = (face a' b').2 v)
    {itf Itf : Nat → Bool → SideSW} (hi : ∀ p s, Inner N p s → Like (itf p s) (Itf (a * N + p) s)) (init : Nat → Bool → Nat → ℝ) (s : Bool) :
    faces N face itf init (e + 1) s v = faces (k * N) face Itf init (a * N + e + 1) s v := by
  have hlt := whole_lt ha he
  cases s
  · simp only [faces]
    rw [if_pos ⟨by omega, by omega⟩, if_pos ⟨by omega, by omega⟩]
    exact (hf (hi e true (Or.inl ⟨rfl, by omega⟩)) (hi (e + 1) false (Or.inr ⟨rfl, by omega, by omega⟩))).2
  · simp only [faces]
    rw [if_pos (by omega), if_pos (by omega)]
    exact (hf (hi (e + 1) true (Or.inl ⟨rfl, by omega⟩)) (hi (e + 1 + 1) false (Or.inr ⟨rfl, by omega, by omega⟩))).1

theorem inner_side {N p : Nat} {s : Bool} (h : Inner N p s) : s = true ∨ 1 ≤ p := by
  rcases h with ⟨h, _⟩ | ⟨_, h, _⟩
  · exact Or.inl h
  · exact Or.inr h

theorem fluxI_part (hN : 0 < g.N) (hn : 0 < g.n) (ht : HoldsTopo g t' t) (hQ : Holds g Q W) {pl : Place} (h : Valid g.k pl) {ej ei l v : Nat}
    (s : Bool) (hj : ej < g.N) (hi : ei < g.N) (hl : l < g.n) (hv : v ≤ 2) :
    fluxI g t' Q (enc g.k pl) ej (ei + 1) s l v = fluxI (whole g) t W pl.panel (pl.row * g.N + ej) (pl.col * g.N + ei + 1) s l v := by
  refine faces_part h.2.2 hi (fun ha hb => ausmI_like ha hb hv) (fun p s hp => ⟨fun v hv => varI_part hN hn ht hQ h hj hp hl hv, ?_, ?_⟩) _ s
  · simp only [sideI]
    rw [itfXY1_part hN hn h _ _ _ _ (inner_side hp), sqrtG_part h _ pl.panel]
  · simp only [sideI]
    rw [itfXY1_part hN hn h _ _ _ _ (inner_side hp), H_part h _ pl.panel]

theorem fluxJ_part (hN : 0 < g.N) (hn : 0 < g.n) (ht : HoldsTopo g t' t) (hQ : Holds g Q W) {pl : Place} (h : Valid g.k pl) {ej ei l v : Nat}
    (s : Bool) (hj : ej < g.N) (hi : ei < g.N) (hl : l < g.n) (hv : v ≤ 2) :
    fluxJ g t' Q (enc g.k pl) (ej + 1) ei s l v = fluxJ (whole g) t W pl.panel (pl.row * g.N + ej + 1) (pl.col * g.N + ei) s l v := by
  refine faces_part h.2.1 hj (fun ha hb => ausmJ_like ha hb hv) (fun p s hp => ⟨fun v hv => varJ_part hN hn ht hQ h hi hp hl hv, ?_, ?_⟩) _ s
  · simp only [sideJ]
    rw [itfXY2_part hN hn h _ _ _ _ (inner_side hp), sqrtG_part h _ pl.panel]
  · simp only [sideJ]
    rw [itfXY2_part hN hn h _ _ _ _ (inner_side hp), H_part h _ pl.panel]

theorem pointwise_like {a b : SideSW} (h : Like a b) (d v : Nat) : pointwiseSW d a v = pointwiseSW d b v := by
  simp only [pointwiseSW, h.var 0 (by decide), h.var 1 (by decide), h.var 2 (by decide), h.sqrtG, h.H]

theorem solSide_part (hN : 0 < g.N) (hn : 0 < g.n) (hQ : Holds g Q W) {pl : Place} (h : Valid g.k pl) {ej ei c : Nat}
    (hj : ej < g.N) (hi : ei < g.N) (hc : c < g.n * g.n) :
    Like (solSide g Q (enc g.k pl) ej ei c) (solSide (whole g) W pl.panel (pl.row * g.N + ej) (pl.col * g.N + ei) c) := by
  refine ⟨fun v hv => holds_at hQ h hj hi hv hc, ?_, ?_⟩
  · simp only [solSide]
    rw [solXY_part hN hn h, sqrtG_part h _ pl.panel]
  · simp only [solSide]
    rw [solXY_part hN hn h, H_part h _ pl.panel]

theorem forcing_part (hN : 0 < g.N) (hn : 0 < g.n) (ht : HoldsTopo g t' t) (hQ : Holds g Q W) {pl : Place} (h : Valid g.k pl) {ej ei c : Nat} (v : Nat)
    (hj : ej < g.N) (hi : ei < g.N) (hc : c < g.n * g.n) :
    forcing g t' Q (enc g.k pl) ej ei v c = forcing (whole g) t W pl.panel (pl.row * g.N + ej) (pl.col * g.N + ei) v c := by
  unfold forcing
  rw [solXY_part hN hn h, delta1_part h _ pl.panel, delta2_part h _ pl.panel, (tile_my h).2.2, (whole_my h).2.2,
    ht.dzdx1 _ (enc_lt h) _ hj _ hi _ hc, ht.dzdx2 _ (enc_lt h) _ hj _ hi _ hc, panelOf_enc h, rowOf_enc h, colOf_enc h]
  simp only [forcingAt, holds_at hQ h hj hi (show 0 ≤ 2 by decide) hc, holds_at hQ h hj hi (show 1 ≤ 2 by decide) hc,
    holds_at hQ h hj hi (show 2 ≤ 2 by decide) hc]
  rfl

theorem rhs_part (hN : 0 < g.N) (hn : 0 < g.n) (ht : HoldsTopo g t' t) (hQ : Holds g Q W) {pl : Place} (h : Valid g.k pl) {ej ei v c : Nat}
    (hj : ej < g.N) (hi : ei < g.N) (hv : v ≤ 2) (hc : c < g.n * g.n) :
    rhs g t' Q (enc g.k pl) ej ei v c = rhs (whole g) t W pl.panel (pl.row * g.N + ej) (pl.col * g.N + ei) v c := by
  have hm : ∀ m, m % g.n < g.n := fun m => Nat.mod_lt m hn
  unfold rhs
  rw [forcing_part hN hn ht hQ h v hj hi hc]
  congr 1
  unfold rhsSphere2d df1_2d df2_2d
  beta_reduce
  rw [show (whole g).n = g.n from rfl, solXY_part hN hn h, sqrtG_part h _ pl.panel]
  simp only [fluxI_part hN hn ht hQ h _ hj hi (hm _) hv, fluxJ_part hN hn ht hQ h _ hj hi (hm _) hv]
  rw [vecmul_congr (fun c hc => pointwise_like (solSide_part hN hn hQ h hj hi hc) 0 v),
    vecmul_congr (fun c hc => pointwise_like (solSide_part hN hn hQ h hj hi hc) 1 v)]
  rfl

end SW

/-- **C83**, shallow water. If the processes hold the parts of a state and of a topography given on the six panels, then the tendencies they compute
together are the parts of the tendency that six processes compute. -/
theorem C83_shallow_water (g : Grid) {t' t : Topography} {Q W : Field}
    (ht : HoldsTopo g t' t) (hQ : Holds g Q W) : Holds g (ShallowWater.rhs g t' Q) (ShallowWater.rhs (whole g) t W) := by
  intro r hr ej hj ei hi v hv c hc
  have hp := placeOf_valid hr
  have hn : 0 < g.n := Nat.pos_of_ne_zero fun h => by rw [h] at hc; exact absurd hc (by omega)
  have := SW.rhs_part (Nat.lt_of_le_of_lt (Nat.zero_le _) hj) hn ht hQ hp hj hi hv hc
  rw [enc_placeOf] at this
  exact this

/-! ## What the processes start with -/

/-- **C83**, geometry: a point of a tile has the coordinates, the element size and the panel that it has on six processes; so whatever is computed from these
is the same. -/
theorem C83_coordinates (g : Grid) (hn : 0 < g.n) {r : Nat} (hr : r < 6 * (g.k * g.k)) {ej ei : Nat} (hj : ej < g.N) (c : Nat) :
    g.solXY r ej ei c = (whole g).solXY (panelOf g r) (rowOf g r ej) (colOf g r ei) c ∧
    g.delta1 r = (whole g).delta1 (panelOf g r) ∧ g.delta2 r = (whole g).delta2 (panelOf g r) ∧
    g.orient (myPanel g.size r) = (whole g).orient (myPanel (whole g).size (panelOf g r)) := by
  have hp := placeOf_valid hr
  have e := solXY_part (Nat.lt_of_le_of_lt (Nat.zero_le _) hj) hn hp ej ei c
  have m := (tile_my hp).2.2
  rw [enc_placeOf] at e m
  exact ⟨e, delta1_part hp _ _, delta2_part hp _ _, by rw [m]; exact congrArg g.orient (whole_my hp).2.2.symm⟩

/-- the initial state of a test case on all processes — `initialize.py` 188-196 -/
noncomputable def initial (g : Grid) (case : Nat) : Field := fun r ej ei v c =>
  ((InitShallow.initState case (g.orient (myPanel g.size r)) g.radius g.rotation (g.delta1 r) (g.delta2 r) (g.solXY r ej ei c).1
    (g.solXY r ej ei c).2).getD fun _ => 0) v

/-- **C83**, initial states: they are the parts of the initial state of six processes. -/
theorem C83_initial (g : Grid) (case : Nat) : Holds g (initial g case) (initial (whole g) case) := by
  intro r hr ej hj ei _ v _ c hc
  have hn : 0 < g.n := Nat.pos_of_ne_zero fun h => by rw [h] at hc; exact absurd hc (by omega)
  obtain ⟨a, b, d, e⟩ := C83_coordinates g hn hr hj (ei := ei) c
  unfold initial
  rw [a, b, d, e]
  rfl

theorem surface5_part {pl : Place} (h : Valid g.k pl) (xy : ℝ × ℝ) :
    InitShallow.surface5 g (enc g.k pl) xy = InitShallow.surface5 (whole g) pl.panel xy := by
  unfold InitShallow.surface5
  rw [(tile_my h).2.2, (whole_my h).2.2]
  rfl

theorem inner_whole {k N a p : Nat} {s : Bool} (ha : a < k) (hp : Inner N p s) : Inner (k * N) (a * N + p) s := by
  have : (a + 1) * N ≤ k * N := Nat.mul_le_mul_right N ha
  rw [Nat.add_mul, Nat.one_mul] at this
  rcases hp with ⟨a, b⟩ | ⟨a, b, c⟩
  · exact Or.inl ⟨a, by omega⟩
  · exact Or.inr ⟨a, by omega, by omega⟩

theorem inner_not {N p : Nat} {s : Bool} (hp : Inner N p s) : ¬ ((p = 0 ∧ s = false) ∨ (p = N + 1 ∧ s = true)) := by
  rintro (⟨rfl, rfl⟩ | ⟨rfl, rfl⟩) <;> rcases hp with ⟨a, b⟩ | ⟨a, b, c⟩ <;> simp at * <;> omega

theorem surface5I_part (hN : 0 < g.N) (hn : 0 < g.n) {pl : Place} (h : Valid g.k pl) (ej : Nat) {p : Nat} {s : Bool} (hp : Inner g.N p s) (l : Nat) :
    InitShallow.surface5I g (enc g.k pl) ej p s l = InitShallow.surface5I (whole g) pl.panel (pl.row * g.N + ej) (pl.col * g.N + p) s l := by
  unfold InitShallow.surface5I
  rw [if_neg (inner_not hp), if_neg (inner_not (N := (whole g).N) (inner_whole h.2.2 hp)), surface5_part h,
    itfXY1_part hN hn h _ _ _ _ (SW.inner_side hp)]

theorem surface5J_part (hN : 0 < g.N) (hn : 0 < g.n) {pl : Place} (h : Valid g.k pl) (ei : Nat) {p : Nat} {s : Bool} (hp : Inner g.N p s) (l : Nat) :
    InitShallow.surface5J g (enc g.k pl) p ei s l = InitShallow.surface5J (whole g) pl.panel (pl.row * g.N + p) (pl.col * g.N + ei) s l := by
  unfold InitShallow.surface5J
  rw [if_neg (inner_not hp), if_neg (inner_not (N := (whole g).N) (inner_whole h.2.1 hp)), surface5_part h,
    itfXY2_part hN hn h _ _ _ _ (SW.inner_side hp)]

theorem inner_mid {N e : Nat} (he : e < N) (s : Bool) : Inner N (e + 1) s := by
  cases s
  · exact Or.inr ⟨rfl, by omega, by omega⟩
  · exact Or.inl ⟨rfl, by omega⟩

/-- **C83**, topography: the mountain of case 5 with the slopes computed from it. -/
theorem C83_topography (g : Grid) (hn : 0 < g.n) : HoldsTopo g (InitShallow.topography5 g) (InitShallow.topography5 (whole g)) := by
  have sol : ∀ r < 6 * (g.k * g.k), ∀ ej < g.N, ∀ ei < g.N, ∀ c,
      InitShallow.surface5 g r (g.solXY r ej ei c) = InitShallow.surface5 (whole g) (panelOf g r) ((whole g).solXY (panelOf g r) (rowOf g r ej) (colOf g r ei) c) := by
    intro r hr ej hj ei _ c
    have := surface5_part (placeOf_valid hr) (g.solXY r ej ei c)
    rw [enc_placeOf] at this
    rw [this, (C83_coordinates g hn hr hj c).1]
    rfl
  have itI : ∀ r < 6 * (g.k * g.k), ∀ ej < g.N, ∀ p s, Inner g.N p s → ∀ l,
      InitShallow.surface5I g r ej p s l = InitShallow.surface5I (whole g) (panelOf g r) (rowOf g r ej) (colOf g r p) s l := by
    intro r hr ej hj p s hp l
    have := surface5I_part (Nat.lt_of_le_of_lt (Nat.zero_le _) hj) hn (placeOf_valid hr) ej hp l
    rwa [enc_placeOf] at this
  have itJ : ∀ r < 6 * (g.k * g.k), ∀ ei < g.N, ∀ p s, Inner g.N p s → ∀ l,
      InitShallow.surface5J g r p ei s l = InitShallow.surface5J (whole g) (panelOf g r) (rowOf g r p) (colOf g r ei) s l := by
    intro r hr ei hi p s hp l
    have := surface5J_part (Nat.lt_of_le_of_lt (Nat.zero_le _) hi) hn (placeOf_valid hr) ei hp l
    rwa [enc_placeOf] at this
  refine ⟨fun r hr ej hj ei hi c _ => sol r hr ej hj ei hi c, fun r hr ej hj p s hp l _ => itI r hr ej hj p s hp l,
    fun r hr ei hi p s hp l _ => itJ r hr ei hi p s hp l, fun r hr ej hj ei hi c _ => ?_, fun r hr ej hj ei hi c _ => ?_⟩
  · simp only [InitShallow.topography5]
    simp only [sol r hr ej hj ei hi, itI r hr ej hj _ _ (inner_mid hi _)]
    rfl
  · simp only [InitShallow.topography5]
    simp only [sol r hr ej hj ei hi, itJ r hr ei hi _ _ (inner_mid hj _)]
    rfl

/-- no topography -/
theorem C83_flat (g : Grid) : HoldsTopo g Topography.none Topography.none :=
  ⟨fun _ _ _ _ _ _ _ _ => rfl, fun _ _ _ _ _ _ _ _ _ => rfl, fun _ _ _ _ _ _ _ _ _ => rfl, fun _ _ _ _ _ _ _ _ => rfl, fun _ _ _ _ _ _ _ _ => rfl⟩

/-! ## Two ways of cutting, and time steps -/

theorem whole_same {g g' : Grid} (h : SameSphere g g') : whole g = whole g' := by
  obtain ⟨k, N, n, pts, radius, rotation, orient⟩ := g
  obtain ⟨k', N', n', pts', radius', rotation', orient'⟩ := g'
  obtain ⟨h1, h2, h3, h4, h5, h6⟩ := h
  simp only at h1 h2 h3 h4 h5 h6
  subst h2 h3 h4 h5 h6
  simp only [whole, h1]

/-- fields held by two decompositions of the same panels agree on every element -/
theorem agree {g g' : Grid} (hs : SameSphere g g') {Q Q' W : Field} (hQ : Holds g Q W) (hQ' : Holds g' Q' W) {r r' ej ej' ei ei' v c : Nat}
    (hr : r < 6 * (g.k * g.k)) (hj : ej < g.N) (hi : ei < g.N) (hr' : r' < 6 * (g'.k * g'.k)) (hj' : ej' < g'.N) (hi' : ei' < g'.N) (hv : v ≤ 2)
    (hc : c < g.n * g.n) (same : SameElement g g' r ej ei r' ej' ei') : Q r ej ei v c = Q' r' ej' ei' v c := by
  rw [hQ r hr ej hj ei hi v hv c hc, hQ' r' hr' ej' hj' ei' hi' v hv c (by rw [← hs.n]; exact hc), same.1, same.2.1, same.2.2]

theorem holds_add {A B C D : Field} (h1 : Holds g A C) (h2 : Holds g B D) : Holds g (A + B) (C + D) := by
  intro r hr ej hj ei hi v hv c hc
  exact congrArg₂ (· + ·) (h1 r hr ej hj ei hi v hv c hc) (h2 r hr ej hj ei hi v hv c hc)

theorem holds_sub {A B C D : Field} (h1 : Holds g A C) (h2 : Holds g B D) : Holds g (A - B) (C - D) := by
  intro r hr ej hj ei hi v hv c hc
  exact congrArg₂ (· - ·) (h1 r hr ej hj ei hi v hv c hc) (h2 r hr ej hj ei hi v hv c hc)

theorem holds_smul (a : ℝ) {A C : Field} (h1 : Holds g A C) : Holds g (a • A) (a • C) := by
  intro r hr ej hj ei hi v hv c hc
  exact congrArg (a * ·) (h1 r hr ej hj ei hi v hv c hc)

theorem holds_iterate {S T : Field → Field} (hST : ∀ Q W, Holds g Q W → Holds g (S Q) (T W)) {Q W : Field} (h : Holds g Q W) (m : Nat) :
    Holds g (S^[m] Q) (T^[m] W) := by
  induction m with
  | zero => exact h
  | succ m ih => rw [Function.iterate_succ_apply', Function.iterate_succ_apply']; exact hST _ _ ih

/-- **C83**, time steps: any number of steps of the explicit Euler and Runge–Kutta schemes, and the finite-difference Jacobian product of the other schemes. -/
theorem C83_steps (g : Grid) {t' t : Topography} {Q W : Field} (ht : HoldsTopo g t' t) (hQ : Holds g Q W) (dt : ℝ) (m : Nat) :
    Holds g ((fun Q => Schemes.euler1 (ShallowWater.rhs g t') Q dt)^[m] Q) ((fun Q => Schemes.euler1 (ShallowWater.rhs (whole g) t) Q dt)^[m] W) ∧
    Holds g ((fun Q => Schemes.tvdrk3 (ShallowWater.rhs g t') Q dt)^[m] Q) ((fun Q => Schemes.tvdrk3 (ShallowWater.rhs (whole g) t) Q dt)^[m] W) ∧
    ∀ eps V Z, Holds g V Z →
      Holds g (Schemes.matvecFun eps (ShallowWater.rhs g t') Q dt V) (Schemes.matvecFun eps (ShallowWater.rhs (whole g) t) W dt Z) := by
  have hr := fun {Q W} (h : Holds g Q W) => C83_shallow_water g ht h
  refine ⟨holds_iterate (fun Q W h => ?_) hQ m, holds_iterate (fun Q W h => ?_) hQ m, fun eps V Z h => ?_⟩
  · exact holds_add h (holds_smul dt (hr h))
  · have h1 := holds_add h (holds_smul dt (hr h))
    have h2 := holds_add (holds_add (holds_smul (3 / 4) h) (holds_smul (1 / 4) h1)) (holds_smul (1 / 4 * dt) (hr h1))
    exact holds_add (holds_add (holds_smul (1 / 3) h) (holds_smul (2 / 3) h2)) (holds_smul (2 / 3 * dt) (hr h2))
  · exact holds_smul _ (holds_sub (hr (holds_add hQ (holds_smul eps h))) (hr hQ))

/-- **C83**, a run: the Rossby–Haurwitz wave, the flow over the mountain and the zonal flow (`case`), with or without the mountain, any number of steps of
the Runge–Kutta scheme, on any two numbers of processes: the same values at every point of the sphere. -/
theorem C83_run (g g' : Grid) (hs : SameSphere g g') (case : Nat) (mountain : Bool) (dt : ℝ) (m : Nat) {r r' ej ej' ei ei' v c : Nat}
    (hr : r < 6 * (g.k * g.k)) (hj : ej < g.N) (hi : ei < g.N) (hr' : r' < 6 * (g'.k * g'.k)) (hj' : ej' < g'.N) (hi' : ei' < g'.N) (hv : v ≤ 2)
    (hc : c < g.n * g.n) (same : SameElement g g' r ej ei r' ej' ei') :
    (fun Q => Schemes.tvdrk3 (ShallowWater.rhs g (if mountain then InitShallow.topography5 g else Topography.none)) Q dt)^[m] (initial g case) r ej ei v c =
    (fun Q => Schemes.tvdrk3 (ShallowWater.rhs g' (if mountain then InitShallow.topography5 g' else Topography.none)) Q dt)^[m] (initial g' case)
      r' ej' ei' v c := by
  have hn : 0 < g.n := Nat.pos_of_ne_zero fun h => by rw [h] at hc; exact absurd hc (by omega)
  have topo : ∀ g : Grid, 0 < g.n → HoldsTopo g (if mountain then InitShallow.topography5 g else Topography.none)
      (if mountain then InitShallow.topography5 (whole g) else Topography.none) := by
    intro g hn
    cases mountain
    · exact C83_flat g
    · exact C83_topography g hn
  have h1 := (C83_steps g (topo g hn) (C83_initial g case) dt m).2.1
  have h2 := (C83_steps g' (topo g' (by rw [← hs.n]; exact hn)) (C83_initial g' case) dt m).2.1
  rw [← whole_same hs] at h2
  exact agree hs h1 h2 hr hj hi hr' hj' hi' hv hc same

/-- non-vacuity: six processes with 4 × 4 elements each and twenty-four with 2 × 2; the first element of the eastern neighbour of the first tile is the
third element of the first panel -/
example (pts : Nat → ℝ) (o : Nat → Sphere.Orientation) :
    SameSphere ⟨1, 4, 3, pts, 6371220, 7.292e-5, o⟩ ⟨2, 2, 3, pts, 6371220, 7.292e-5, o⟩ ∧
    SameElement ⟨1, 4, 3, pts, 6371220, 7.292e-5, o⟩ ⟨2, 2, 3, pts, 6371220, 7.292e-5, o⟩ 0 1 2 1 1 0 :=
  ⟨⟨rfl, rfl, rfl, rfl, rfl, rfl⟩, by simp [SameElement, panelOf, rowOf, colOf, placeOf]⟩

/-! ## Sums over all processes -/

/-- **C83**, global sums: a sum over all elements of all processes is the sum over the elements of the six panels. -/
theorem C83_sum (g : Grid) (φ Φ : Nat → Nat → Nat → ℝ)
    (h : ∀ r < 6 * (g.k * g.k), ∀ ej < g.N, ∀ ei < g.N, φ r ej ei = Φ (panelOf g r) (rowOf g r ej) (colOf g r ei)) :
    ∑ r ∈ Finset.range (6 * (g.k * g.k)), ∑ ej ∈ Finset.range g.N, ∑ ei ∈ Finset.range g.N, φ r ej ei =
      ∑ p ∈ Finset.range 6, ∑ R ∈ Finset.range (g.k * g.N), ∑ C ∈ Finset.range (g.k * g.N), Φ p R C := by
  rw [Dfr.sum_range_mul]
  refine Finset.sum_congr rfl fun p hp => ?_
  rw [Dfr.sum_range_mul, Dfr.sum_range_mul]
  refine Finset.sum_congr rfl fun a ha => ?_
  rw [Finset.sum_comm]
  refine Finset.sum_congr rfl fun ej hj => ?_
  rw [Dfr.sum_range_mul]
  refine Finset.sum_congr rfl fun b hb => ?_
  refine Finset.sum_congr rfl fun ei hi => ?_
  rw [Finset.mem_range] at hp ha hb hj hi
  have hv : Valid g.k ⟨p, a, b⟩ := ⟨hp, ha, hb⟩
  have e : p * (g.k * g.k) + (a * g.k + b) = enc g.k ⟨p, a, b⟩ := by simp [enc]; ring
  rw [e, h _ (enc_lt hv) _ hj _ hi, panelOf_enc hv, rowOf_enc hv, colOf_enc hv]

end WxVerif.Props.Decomposition
