import Verif.Lemmas.ShallowWater
import Verif.Lemmas.Topology
import Verif.Spec.Decomposition
import Mathlib.Tactic.Linarith
import Mathlib.Data.List.GetD

/-!
# Lemmas: exchanges between the tiles of a panel and between the panels
-/

namespace WxVerif.Decomposition

open WxVerif.Topology WxVerif.Cube
open WxVerif.ShallowWater (mirrored_lt)

/-- number, along side `d` of the panel, of the tile at `pl` -/
def off (pl : Place) : Side → Nat
  | .south | .north => pl.col
  | .west | .east => pl.row

/-- the panel of `pl` as a single tile -/
def lift (pl : Place) : Place := ⟨pl.panel, 0, 0⟩

theorem lift_valid {k : Nat} {pl : Place} (h : Valid k pl) : Valid 1 (lift pl) := ⟨h.1, Nat.one_pos, Nat.one_pos⟩

theorem enc_lift (pl : Place) : enc 1 (lift pl) = pl.panel := by simp [enc, lift]

theorem lift_edge {k : Nat} {pl : Place} (h : Valid k pl) (d : Side) : atPanelEdge (6 * (1 * 1)) (enc 1 (lift pl)) d = true := by
  rw [atPanelEdge_enc (lift_valid h)]; cases d <;> rfl

/-- across an edge of the panel: the neighbouring panel, its facing side and the order of the points do not depend on the tiles -/
theorem across {k : Nat} {pl : Place} (h : Valid k pl) (d : Side) (he : atPanelEdge (6 * (k * k)) (enc k pl) d = true) :
    nbrPlace 1 (lift pl) d = lift (nbrPlace k pl d) ∧ backSide 1 (lift pl) d = backSide k pl d ∧ backFlip 1 (lift pl) d = backFlip k pl d ∧
    off (nbrPlace k pl d) (backSide k pl d) = mirrored (backFlip k pl d) k (off pl d) := by
  have hq := nbrPlace_valid h d
  have h1 : nbrPlace 1 (lift pl) d = lift (nbrPlace k pl d) ∧ backSide 1 (lift pl) d = backSide k pl d ∧
      off (nbrPlace k pl d) (backSide k pl d) = mirrored (flips (nbrPlace k pl d).panel (backSide k pl d)) k (off pl d) := by
    rw [atPanelEdge_enc h] at he
    obtain ⟨p, r, c⟩ := pl
    obtain ⟨hp, hr, hc⟩ := h
    simp only at hp hr hc he
    cases d <;> simp only [decide_eq_true_eq] at he <;>
      rcases place_cases p hp with rfl | rfl | rfl | rfl | rfl | rfl <;>
      simp [nbrPlace, backSide, he, flips, lift, off, mirrored]
  obtain ⟨a, b, c⟩ := h1
  have e1 : backFlip k pl d = flips (nbrPlace k pl d).panel (backSide k pl d) := by
    unfold backFlip Topology.flip
    rw [edge_facing h d, he, if_pos rfl, myPanel_enc hq]
  have e2 : backFlip 1 (lift pl) d = flips (nbrPlace k pl d).panel (backSide k pl d) := by
    unfold backFlip Topology.flip
    rw [edge_facing (lift_valid h) d, lift_edge h, if_pos rfl, myPanel_enc (nbrPlace_valid (lift_valid h) d), a, b]
    rfl
  exact ⟨a, b, e2.trans e1.symm, by rw [c, e1]⟩

theorem off_lt {k : Nat} {pl : Place} (h : Valid k pl) (d : Side) : off pl d < k := by
  cases d <;> first | exact h.2.1 | exact h.2.2

/-- numbers of points along a whole panel side -/
theorem off_mirrored {k : Nat} {pl : Place} (h : Valid k pl) (d : Side) (he : atPanelEdge (6 * (k * k)) (enc k pl) d = true) {M i : Nat}
    (hi : i < M) :
    off (nbrPlace k pl d) (backSide k pl d) * M + mirrored (backFlip k pl d) M i = mirrored (backFlip k pl d) (k * M) (off pl d * M + i) := by
  rw [(across h d he).2.2.2]
  have ho := off_lt h d
  unfold mirrored
  split
  · have e : (k - 1 - off pl d) * M + (off pl d * M + M) = k * M := by
      rw [← Nat.succ_mul, ← Nat.add_mul]; congr 1; omega
    omega
  · rfl

theorem whole_lt {k M a i : Nat} (ha : a < k) (hi : i < M) : a * M + i < k * M := by
  have : (a + 1) * M ≤ k * M := Nat.mul_le_mul_right M ha
  rw [Nat.add_mul, Nat.one_mul] at this
  omega

/-- inside a panel: the tile on the other side, with the points in the same order -/
theorem inside {k : Nat} {pl : Place} (h : Valid k pl) (d : Side) (he : atPanelEdge (6 * (k * k)) (enc k pl) d = false) : backFlip k pl d = false := by
  unfold backFlip Topology.flip
  rw [edge_facing h d, he, if_neg (by simp)]

section Exchange
variable {α : Type*}

theorem scalar_at {k : Nat} {pl : Place} (h : Valid k pl) {M : Nat} (data : Nat → Side → Nat → α) (d : Side) {i : Nat} (hi : i < M) (z : α) :
    ((exchangeScalars (6 * (k * k)) (fun s d' => (List.range M).map (data s d')) (enc k pl) d).getD []).getD i z =
      data (enc k (nbrPlace k pl d)) (backSide k pl d) (mirrored (backFlip k pl d) M i) := by
  unfold exchangeScalars
  rw [alltoall_enc h, Option.getD_some, List.getD_eq_getElem?_getD, getElem?_flip _ _ (by simp) hi, List.getElem?_map,
    List.getElem?_range (mirrored_lt _ hi)]
  rfl

/-- A scalar received across an edge of the panel is what the whole panels exchange. -/
theorem scalar_edge {k : Nat} {pl : Place} (h : Valid k pl) {M : Nat} (data Data : Nat → Side → Nat → α) (d : Side)
    (he : atPanelEdge (6 * (k * k)) (enc k pl) d = true)
    (link : ∀ q, Valid k q → ∀ s, atPanelEdge (6 * (k * k)) (enc k q) s = true → ∀ j < M, data (enc k q) s j = Data q.panel s (off q s * M + j))
    {i : Nat} (hi : i < M) (z : α) :
    ((exchangeScalars (6 * (k * k)) (fun s d' => (List.range M).map (data s d')) (enc k pl) d).getD []).getD i z =
      ((exchangeScalars (6 * (1 * 1)) (fun s d' => (List.range (k * M)).map (Data s d')) pl.panel d).getD []).getD (off pl d * M + i) z := by
  rw [scalar_at h data d hi z]
  have := scalar_at (lift_valid h) Data d (whole_lt (off_lt h d) hi) z
  rw [enc_lift] at this
  rw [this, (across h d he).1, (across h d he).2.1, (across h d he).2.2.1, enc_lift, ← off_mirrored h d he hi]
  exact link _ (nbrPlace_valid h d) _ (by rw [edge_facing h d, he]) _ (mirrored_lt _ hi)

end Exchange

section Vectors
variable {K : Type*} [Field K]

theorem vector_at {k : Nat} {pl : Place} (h : Valid k pl) {M : Nat} (data : Nat → Side → Nat → K × K × K) (bd : Nat → Side → Nat → K)
    (B : Nat → Side → List K) (hB : ∀ r s, B r s = (List.range M).map (bd r s)) (d : Side) {i : Nat} (hi : i < M) (z : K × K × K) :
    let r' := enc k (nbrPlace k pl d); let s := backSide k pl d; let j := mirrored (backFlip k pl d) M i
    ((exchangeVectors false (6 * (k * k)) (fun s d' => (List.range M).map (data s d')) B (enc k pl) d).getD []).getD i z =
      ((convertContra (6 * (k * k)) r' s (data r' s j).1 (data r' s j).2.1 (bd r' s j)).1,
       (convertContra (6 * (k * k)) r' s (data r' s j).1 (data r' s j).2.1 (bd r' s j)).2, (data r' s j).2.2) := by
  intro r' s j
  have hj := mirrored_lt (backFlip k pl d) hi
  unfold exchangeVectors
  simp only [Bool.false_eq_true, if_false]
  rw [alltoall_enc h, Option.getD_some, List.getD_eq_getElem?_getD, hB, getElem?_flip _ _ (by simp) hi]
  rw [show Topology.flip (6 * (k * k)) (enc k (nbrPlace k pl d)) (backSide k pl d) = backFlip k pl d from rfl]
  rw [List.getElem?_zipWith, List.getElem?_map, List.getElem?_range hj, List.getElem?_map, List.getElem?_range hj]
  rfl

/-- A vector received across an edge of the panel is what the whole panels exchange. -/
theorem vector_edge {k : Nat} {pl : Place} (h : Valid k pl) {M : Nat} (data Data : Nat → Side → Nat → K × K × K) (bd Bd : Nat → Side → Nat → K)
    (B B' : Nat → Side → List K) (hB : ∀ r s, B r s = (List.range M).map (bd r s)) (hB' : ∀ r s, B' r s = (List.range (k * M)).map (Bd r s)) (d : Side)
    (he : atPanelEdge (6 * (k * k)) (enc k pl) d = true)
    (link : ∀ q, Valid k q → ∀ s, atPanelEdge (6 * (k * k)) (enc k q) s = true → ∀ j < M, data (enc k q) s j = Data q.panel s (off q s * M + j))
    (linkB : ∀ q, Valid k q → ∀ s, ∀ j < M, bd (enc k q) s j = Bd q.panel s (off q s * M + j))
    {i : Nat} (hi : i < M) (z : K × K × K) :
    ((exchangeVectors false (6 * (k * k)) (fun s d' => (List.range M).map (data s d')) B (enc k pl) d).getD []).getD i z =
      ((exchangeVectors false (6 * (1 * 1)) (fun s d' => (List.range (k * M)).map (Data s d')) B' pl.panel d).getD []).getD (off pl d * M + i) z := by
  rw [vector_at h data bd B hB d hi z]
  have := vector_at (lift_valid h) Data Bd B' hB' d (whole_lt (off_lt h d) hi) z
  rw [enc_lift] at this
  have hq := nbrPlace_valid h d
  have hj := mirrored_lt (backFlip k pl d) hi
  have l1 := link _ hq _ (by rw [edge_facing h d, he]) _ hj
  have l2 := linkB _ hq (backSide k pl d) _ hj
  have hc : ∀ a b x : K, convertContra (6 * (k * k)) (enc k (nbrPlace k pl d)) (backSide k pl d) a b x =
      convertContra (6 * (1 * 1)) (nbrPlace k pl d).panel (backSide k pl d) a b x := by
    intro a b x
    unfold convertContra
    rw [edge_facing h d, he, if_pos rfl, myPanel_enc hq]
    rw [← enc_lift (nbrPlace k pl d), lift_edge hq, if_pos rfl, myPanel_enc (lift_valid hq), enc_lift]
    rfl
  rw [this, (across h d he).1, (across h d he).2.1, (across h d he).2.2.1, enc_lift, ← off_mirrored h d he hi, ← l1, ← l2]
  simp only [hc]

/-- Inside a panel vectors are received as they were sent. -/
theorem vector_inside {k : Nat} {pl : Place} (h : Valid k pl) {M : Nat} (data : Nat → Side → Nat → K × K × K) (bd : Nat → Side → Nat → K)
    (B : Nat → Side → List K) (hB : ∀ r s, B r s = (List.range M).map (bd r s)) (d : Side)
    (he : atPanelEdge (6 * (k * k)) (enc k pl) d = false) {i : Nat} (hi : i < M) (z : K × K × K) :
    ((exchangeVectors false (6 * (k * k)) (fun s d' => (List.range M).map (data s d')) B (enc k pl) d).getD []).getD i z =
      data (enc k (nbrPlace k pl d)) (backSide k pl d) i := by
  rw [vector_at h data bd B hB d hi z]
  unfold convertContra
  rw [edge_facing h d, he, if_neg (by simp), inside h d he]
  rfl

theorem scalar_inside {α : Type*} {k : Nat} {pl : Place} (h : Valid k pl) {M : Nat} (data : Nat → Side → Nat → α) (d : Side)
    (he : atPanelEdge (6 * (k * k)) (enc k pl) d = false) {i : Nat} (hi : i < M) (z : α) :
    ((exchangeScalars (6 * (k * k)) (fun s d' => (List.range M).map (data s d')) (enc k pl) d).getD []).getD i z =
      data (enc k (nbrPlace k pl d)) (backSide k pl d) i := by
  rw [scalar_at h data d hi z, inside h d he]
  rfl

end Vectors

end WxVerif.Decomposition
