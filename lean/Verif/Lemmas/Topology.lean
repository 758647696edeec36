import Verif.Model.Topology
import Verif.Spec.Cube
import Verif.Spec.Halo
import Mathlib.Tactic.Ring
import Mathlib.Tactic.Linarith
import Mathlib.Tactic.FieldSimp
import Mathlib.Tactic.LinearCombination

/-! Helper lemmas for the process-topology properties. -/

namespace WxVerif.Topology

open WxVerif.Cube

theorem numPe_sq (k : Nat) : numPe (6 * (k * k)) = k * k := by
  unfold numPe; omega

theorem numLines_sq (k : Nat) : numLines (6 * (k * k)) = k := by
  unfold numLines; rw [numPe_sq]; exact Nat.sqrt_eq k

theorem checkSize_ok_iff (size : Nat) :
    checkSize size = .ok () ↔ ∃ k, 1 ≤ k ∧ size = 6 * (k * k) := by
  unfold checkSize
  constructor
  · intro h
    split at h
    · cases h
    · rename_i hc
      simp only [not_or, not_lt, not_not, ne_eq] at hc
      obtain ⟨h6, hsq, hmul⟩ := hc
      refine ⟨numLines size, ?_, ?_⟩
      · by_contra hlt
        have : numLines size = 0 := by omega
        rw [this, Nat.zero_pow (by omega)] at hsq
        omega
      · have : numLines size ^ 2 = numLines size * numLines size := by ring
        omega
  · rintro ⟨k, hk, rfl⟩
    rw [if_neg]
    rw [numPe_sq, numLines_sq]
    have : 1 ≤ k * k := Nat.mul_le_mul hk hk
    simp only [not_or, not_lt, not_not, ne_eq]
    refine ⟨by omega, by ring, by ring⟩

/-- rank of a place -/
def enc (k : Nat) (pl : Place) : Nat := pl.panel * (k * k) + pl.row * k + pl.col

/-- valid places -/
def Valid (k : Nat) (pl : Place) : Prop := pl.panel < 6 ∧ pl.row < k ∧ pl.col < k

theorem inner_lt {k r c : Nat} (hr : r < k) (hc : c < k) : r * k + c < k * k := by
  have : (r + 1) * k ≤ k * k := Nat.mul_le_mul_right k hr
  rw [Nat.add_mul, Nat.one_mul] at this
  omega

theorem enc_lt {k : Nat} {pl : Place} (h : Valid k pl) : enc k pl < 6 * (k * k) := by
  obtain ⟨hp, hr, hc⟩ := h
  have h1 := inner_lt hr hc
  have h2 : pl.panel * (k * k) ≤ 5 * (k * k) := Nat.mul_le_mul_right _ (by omega)
  unfold enc; omega

theorem placeOf_enc {k : Nat} {pl : Place} (h : Valid k pl) : placeOf k (enc k pl) = pl := by
  obtain ⟨p, r, c⟩ := pl
  obtain ⟨hp, hr, hc⟩ := h
  simp only at hp hr hc
  have h1 := inner_lt hr hc
  have hk : 0 < k := by omega
  have hkk : 0 < k * k := Nat.mul_pos hk hk
  unfold placeOf enc
  simp only [Place.mk.injEq]
  refine ⟨?_, ?_, ?_⟩
  · rw [Nat.add_assoc, Nat.mul_comm, Nat.mul_add_div hkk, Nat.div_eq_of_lt h1]; rfl
  · rw [Nat.add_assoc, Nat.mul_comm, Nat.mul_add_mod, Nat.mod_eq_of_lt h1, Nat.mul_comm,
      Nat.mul_add_div hk, Nat.div_eq_of_lt hc]; rfl
  · have : p * (k * k) + r * k + c = k * (p * k + r) + c := by ring
    rw [this, Nat.mul_add_mod, Nat.mod_eq_of_lt hc]

theorem placeOf_valid {k rank : Nat} (h : rank < 6 * (k * k)) : Valid k (placeOf k rank) := by
  have hk : 0 < k := by
    rcases Nat.eq_zero_or_pos k with h0 | h0
    · subst h0; simp at h
    · exact h0
  have hkk : 0 < k * k := Nat.mul_pos hk hk
  refine ⟨?_, ?_, ?_⟩
  · exact (Nat.div_lt_iff_lt_mul hkk).2 h
  · exact (Nat.div_lt_iff_lt_mul hk).2 (Nat.mod_lt _ hkk)
  · exact Nat.mod_lt _ hk

theorem enc_placeOf {k rank : Nat} : enc k (placeOf k rank) = rank := by
  unfold enc placeOf
  simp only
  have h1 := Nat.div_add_mod rank (k * k)
  have h2 := Nat.div_add_mod (rank % (k * k)) k
  have h3 : rank % (k * k) % k = rank % k := Nat.mod_mul_left_mod rank k k
  rw [h3] at h2
  have e1 : rank / (k * k) * (k * k) = k * k * (rank / (k * k)) := Nat.mul_comm _ _
  have e2 : rank % (k * k) / k * k = k * (rank % (k * k) / k) := Nat.mul_comm _ _
  rw [e1, e2]
  omega

theorem my_eq {k rank : Nat} (_h : rank < 6 * (k * k)) :
    myPanel (6 * (k * k)) rank = (placeOf k rank).panel ∧
    myRow (6 * (k * k)) rank = (placeOf k rank).row ∧
    myCol (6 * (k * k)) rank = (placeOf k rank).col := by
  have hin : myRankInPanel (6 * (k * k)) rank = rank % (k * k) := by
    unfold myRankInPanel myPanel
    rw [numPe_sq]
    have h1 := Nat.div_add_mod rank (k * k)
    have e1 : rank / (k * k) * (k * k) = k * k * (rank / (k * k)) := Nat.mul_comm _ _
    omega
  refine ⟨?_, ?_, ?_⟩
  · unfold myPanel placeOf; rw [numPe_sq]
  · unfold myRow; rw [hin, numLines_sq]; rfl
  · unfold myCol; rw [hin, numLines_sq]
    exact Nat.mod_mul_left_mod rank k k

theorem rankFromLocation_sq (k p : Nat) (row col : Int) :
    rankFromLocation (6 * (k * k)) p row col =
      p * ((k : Int) * k) + (if row < 0 then row + k else row) * k + (if col < 0 then col + k else col) := by
  unfold rankFromLocation
  rw [numPe_sq, numLines_sq]
  push_cast
  rfl

/-- place of the neighbour, in closed form -/
def nbrPlace (k : Nat) (pl : Place) : Side → Place
  | .south =>
    if pl.row = 0 then
      match pl.panel with
      | 0 => ⟨5, k - 1, pl.col⟩
      | 1 => ⟨5, k - 1 - pl.col, k - 1⟩
      | 2 => ⟨5, 0, k - 1 - pl.col⟩
      | 3 => ⟨5, pl.col, 0⟩
      | 4 => ⟨0, k - 1, pl.col⟩
      | _ => ⟨2, 0, k - 1 - pl.col⟩
    else ⟨pl.panel, pl.row - 1, pl.col⟩
  | .north =>
    if pl.row + 1 = k then
      match pl.panel with
      | 0 => ⟨4, 0, pl.col⟩
      | 1 => ⟨4, pl.col, k - 1⟩
      | 2 => ⟨4, k - 1, k - 1 - pl.col⟩
      | 3 => ⟨4, k - 1 - pl.col, 0⟩
      | 4 => ⟨2, k - 1, k - 1 - pl.col⟩
      | _ => ⟨0, 0, pl.col⟩
    else ⟨pl.panel, pl.row + 1, pl.col⟩
  | .west =>
    if pl.col = 0 then
      match pl.panel with
      | 0 => ⟨3, pl.row, k - 1⟩
      | 1 => ⟨0, pl.row, k - 1⟩
      | 2 => ⟨1, pl.row, k - 1⟩
      | 3 => ⟨2, pl.row, k - 1⟩
      | 4 => ⟨3, k - 1, k - 1 - pl.row⟩
      | _ => ⟨3, 0, pl.row⟩
    else ⟨pl.panel, pl.row, pl.col - 1⟩
  | .east =>
    if pl.col + 1 = k then
      match pl.panel with
      | 0 => ⟨1, pl.row, 0⟩
      | 1 => ⟨2, pl.row, 0⟩
      | 2 => ⟨3, pl.row, 0⟩
      | 3 => ⟨0, pl.row, 0⟩
      | 4 => ⟨1, k - 1, pl.row⟩
      | _ => ⟨1, 0, k - 1 - pl.row⟩
    else ⟨pl.panel, pl.row, pl.col + 1⟩

theorem nbrPlace_valid {k : Nat} {pl : Place} (h : Valid k pl) (s : Side) : Valid k (nbrPlace k pl s) := by
  obtain ⟨p, r, c⟩ := pl
  obtain ⟨hp, hr, hc⟩ := h
  simp only at hp hr hc
  cases s <;> simp only [nbrPlace] <;> split <;>
    (try (rcases p with _ | _ | _ | _ | _ | _ | p)) <;> (refine ⟨?_, ?_, ?_⟩) <;> simp only [] <;> omega

theorem place_cases (p : Nat) (hp : p < 6) : p = 0 ∨ p = 1 ∨ p = 2 ∨ p = 3 ∨ p = 4 ∨ p = 5 := by omega

/-- combine the pieces of a rank -/
theorem enc_int {k : Nat} (p : Nat) (row col : Int) (r c : Nat)
    (h1 : (if row < 0 then row + k else row) = (r : Int)) (h2 : (if col < 0 then col + k else col) = (c : Int)) :
    rankFromLocation (6 * (k * k)) p row col = (enc k ⟨p, r, c⟩ : Nat) := by
  rw [rankFromLocation_sq, h1, h2]
  unfold enc
  push_cast
  ring

theorem neighbor_enc {k : Nat} {pl : Place} (h : Valid k pl) (s : Side) :
    neighbor (6 * (k * k)) (enc k pl) s = (enc k (nbrPlace k pl s) : Nat) := by
  have hlt := enc_lt h
  obtain ⟨e1, e2, e3⟩ := my_eq (k := k) hlt
  rw [placeOf_enc h] at e1 e2 e3
  obtain ⟨p, r, c⟩ := pl
  obtain ⟨hp, hr, hc⟩ := h
  simp only at hp hr hc e1 e2 e3
  unfold neighbor atPanelEdge interiorNeighbor
  rw [e1, e2, e3, numLines_sq]
  cases s <;> simp only [nbrPlace, beq_iff_eq]
  · by_cases h0 : r = 0
    · rw [if_pos h0, if_pos h0]
      rcases place_cases p hp with rfl | rfl | rfl | rfl | rfl | rfl <;>
        (simp only [edgeCoords, allNeighbors]; apply enc_int <;> split <;> omega)
    · rw [if_neg h0, if_neg h0]; apply enc_int <;> split <;> omega
  · by_cases h0 : r + 1 = k
    · rw [if_pos (show (r : Int) = k - 1 by omega), if_pos h0]
      rcases place_cases p hp with rfl | rfl | rfl | rfl | rfl | rfl <;>
        (simp only [edgeCoords, allNeighbors]; apply enc_int <;> split <;> omega)
    · rw [if_neg (show ¬ (r : Int) = k - 1 by omega), if_neg h0]; apply enc_int <;> split <;> omega
  · by_cases h0 : c = 0
    · rw [if_pos h0, if_pos h0]
      rcases place_cases p hp with rfl | rfl | rfl | rfl | rfl | rfl <;>
        (simp only [edgeCoords, allNeighbors]; apply enc_int <;> split <;> omega)
    · rw [if_neg h0, if_neg h0]; apply enc_int <;> split <;> omega
  · by_cases h0 : c + 1 = k
    · rw [if_pos (show (c : Int) = k - 1 by omega), if_pos h0]
      rcases place_cases p hp with rfl | rfl | rfl | rfl | rfl | rfl <;>
        (simp only [edgeCoords, allNeighbors]; apply enc_int <;> split <;> omega)
    · rw [if_neg (show ¬ (c : Int) = k - 1 by omega), if_neg h0]; apply enc_int <;> split <;> omega

theorem enc_inj {k : Nat} {pl pl' : Place} (h : Valid k pl) (h' : Valid k pl') (e : enc k pl = enc k pl') :
    pl = pl' := by
  rw [← placeOf_enc h, ← placeOf_enc h', e]

/-- side of the neighbour that faces us, in closed form -/
def backSide (k : Nat) (pl : Place) : Side → Side
  | .south =>
    if pl.row = 0 then
      match pl.panel with
      | 0 => .north | 1 => .east | 2 => .south | 3 => .west | 4 => .north | _ => .south
    else .north
  | .north =>
    if pl.row + 1 = k then
      match pl.panel with
      | 0 => .south | 1 => .east | 2 => .north | 3 => .west | 4 => .north | _ => .south
    else .south
  | .west => if pl.col = 0 then
      match pl.panel with
      | 4 => .north | 5 => .south | _ => .east
    else .east
  | .east => if pl.col + 1 = k then
      match pl.panel with
      | 4 => .north | 5 => .south | _ => .west
    else .west

theorem place_ext {p r c p' r' c' : Nat} (h1 : p = p') (h2 : r = r') (h3 : c = c') :
    (⟨p, r, c⟩ : Place) = ⟨p', r', c'⟩ := by rw [h1, h2, h3]

theorem nbrPlace_back {k : Nat} {pl : Place} (h : Valid k pl) (s : Side) :
    nbrPlace k (nbrPlace k pl s) (backSide k pl s) = pl := by
  obtain ⟨p, r, c⟩ := pl
  obtain ⟨hp, hr, hc⟩ := h
  simp only at hp hr hc
  cases s
  · by_cases h0 : r = 0
    · rcases place_cases p hp with rfl | rfl | rfl | rfl | rfl | rfl <;>
        simp only [nbrPlace, backSide, if_pos h0] <;> split <;> first | omega | exact absurd trivial ‹_› | (apply place_ext <;> omega)
    · simp only [nbrPlace, backSide, if_neg h0]; split <;> first | omega | exact absurd trivial ‹_› | (apply place_ext <;> omega)
  · by_cases h0 : r + 1 = k
    · rcases place_cases p hp with rfl | rfl | rfl | rfl | rfl | rfl <;>
        simp only [nbrPlace, backSide, if_pos h0] <;> split <;> first | omega | exact absurd trivial ‹_› | (apply place_ext <;> omega)
    · simp only [nbrPlace, backSide, if_neg h0]; split <;> first | omega | exact absurd trivial ‹_› | (apply place_ext <;> omega)
  · by_cases h0 : c = 0
    · rcases place_cases p hp with rfl | rfl | rfl | rfl | rfl | rfl <;>
        simp only [nbrPlace, backSide, if_pos h0] <;> split <;> first | omega | exact absurd trivial ‹_› | (apply place_ext <;> omega)
    · simp only [nbrPlace, backSide, if_neg h0]; split <;> first | omega | exact absurd trivial ‹_› | (apply place_ext <;> omega)
  · by_cases h0 : c + 1 = k
    · rcases place_cases p hp with rfl | rfl | rfl | rfl | rfl | rfl <;>
        simp only [nbrPlace, backSide, if_pos h0] <;> split <;> first | omega | exact absurd trivial ‹_› | (apply place_ext <;> omega)
    · simp only [nbrPlace, backSide, if_neg h0]; split <;> first | omega | exact absurd trivial ‹_› | (apply place_ext <;> omega)

theorem nbrPlace_ne_self {k : Nat} {pl : Place} (h : Valid k pl) (s : Side) : nbrPlace k pl s ≠ pl := by
  obtain ⟨p, r, c⟩ := pl
  obtain ⟨hp, hr, hc⟩ := h
  simp only at hp hr hc
  rcases place_cases p hp with rfl | rfl | rfl | rfl | rfl | rfl <;>
    cases s <;> simp only [nbrPlace] <;> split <;> (intro e; injection e; omega)

set_option maxHeartbeats 1000000 in
theorem nbrPlace_inj {k : Nat} {pl : Place} (h : Valid k pl) {s s' : Side}
    (e : nbrPlace k pl s = nbrPlace k pl s') : s = s' := by
  obtain ⟨p, r, c⟩ := pl
  obtain ⟨hp, hr, hc⟩ := h
  simp only at hp hr hc
  rcases place_cases p hp with rfl | rfl | rfl | rfl | rfl | rfl <;>
    cases s <;> cases s' <;> first
      | rfl
      | (exfalso; revert e; simp only [nbrPlace]; split <;> split <;> (intro e; injection e; omega))

theorem atPanelEdge_enc {k : Nat} {pl : Place} (h : Valid k pl) (s : Side) :
    atPanelEdge (6 * (k * k)) (enc k pl) s = match s with
      | .north => decide (pl.row + 1 = k) | .south => decide (pl.row = 0)
      | .west => decide (pl.col = 0) | .east => decide (pl.col + 1 = k) := by
  have hlt := enc_lt h
  obtain ⟨e1, e2, e3⟩ := my_eq (k := k) hlt
  rw [placeOf_enc h] at e1 e2 e3
  obtain ⟨hp, hr, hc⟩ := h
  unfold atPanelEdge
  rw [e2, e3, numLines_sq]
  cases s <;> simp only [Bool.beq_eq_decide_eq, decide_eq_decide] <;> omega

theorem myPanel_enc {k : Nat} {pl : Place} (h : Valid k pl) :
    myPanel (6 * (k * k)) (enc k pl) = pl.panel := by
  obtain ⟨e1, _, _⟩ := my_eq (k := k) (enc_lt h)
  rw [e1, placeOf_enc h]

/-- `neighborAlltoall` delivers the block of the facing side -/
theorem alltoall_enc {β : Type*} {k : Nat} {pl : Place} (h : Valid k pl) (buf : Nat → Side → β) (d : Side) :
    neighborAlltoall (6 * (k * k)) buf (enc k pl) d =
      some (buf (enc k (nbrPlace k pl d)) (backSide k pl d)) := by
  have hv := nbrPlace_valid h d
  unfold neighborAlltoall
  simp only [neighbor_enc h d]
  rw [if_neg (by omega)]
  simp only [Int.toNat_natCast]
  have key : ∀ d', (neighbor (6 * (k * k)) (enc k (nbrPlace k pl d)) d' == ((enc k pl : Nat) : Int)) =
      decide (d' = backSide k pl d) := by
    intro d'
    rw [neighbor_enc hv, Bool.eq_iff_iff]
    simp only [beq_iff_eq, decide_eq_true_eq, Int.natCast_inj]
    constructor
    · intro e
      have e1 := enc_inj (nbrPlace_valid hv d') h e
      apply nbrPlace_inj hv
      rw [e1, nbrPlace_back h d]
    · rintro rfl
      rw [nbrPlace_back h d]
  simp only [key]
  cases backSide k pl d <;> rfl

/-- position in the neighbour's array of the point at position `i` of our side -/
def mirrored (b : Bool) (n i : Nat) : Nat := if b then n - 1 - i else i

section
variable {K : Type*} [Field K]

theorem c_mirror {k n : Nat} (g : Coords K k n) {a i : Nat} (ha : a < k) (hi : i < n) :
    g.c ((k - 1 - a) * n + (n - 1 - i)) = - g.c (a * n + i) := by
  have h1 : (a + 1) * n ≤ k * n := Nat.mul_le_mul_right n ha
  rw [← g.symm (a * n + i) (by rw [Nat.add_mul] at h1; omega)]
  congr 1
  have h2 : (k - 1 - a) * n = k * n - n - a * n := by
    rw [Nat.sub_mul, Nat.sub_mul, Nat.one_mul]
  rw [h2]
  rw [Nat.add_mul] at h1
  omega

theorem c_mirror' {k n : Nat} (g : Coords K k n) {a i : Nat} (ha : a < k) (hi : i < n) :
    g.c (a * n + (n - 1 - i)) = - g.c ((k - 1 - a) * n + i) := by
  have := c_mirror g (a := k - 1 - a) (i := i) (by omega) hi
  rwa [show k - 1 - (k - 1 - a) = a by omega] at this

/-- whether the facing tile reverses its data -/
def backFlip (k : Nat) (pl : Place) (d : Side) : Bool :=
  flip (6 * (k * k)) (enc k (nbrPlace k pl d)) (backSide k pl d)

/-- the facing tile is at a panel edge exactly when we are -/
theorem edge_facing {k : Nat} {pl : Place} (h : Valid k pl) (d : Side) :
    atPanelEdge (6 * (k * k)) (enc k (nbrPlace k pl d)) (backSide k pl d) =
      atPanelEdge (6 * (k * k)) (enc k pl) d := by
  rw [atPanelEdge_enc (nbrPlace_valid h d), atPanelEdge_enc h]
  obtain ⟨p, r, c⟩ := pl
  obtain ⟨hp, hr, hc⟩ := h
  simp only at hp hr hc
  cases d
  · by_cases h0 : r = 0
    · rcases place_cases p hp with rfl | rfl | rfl | rfl | rfl | rfl <;>
        simp only [nbrPlace, backSide, if_pos h0, decide_eq_decide, true_iff] <;> omega
    · simp only [nbrPlace, backSide, if_neg h0, decide_eq_decide]; omega
  · by_cases h0 : r + 1 = k
    · rcases place_cases p hp with rfl | rfl | rfl | rfl | rfl | rfl <;>
        simp only [nbrPlace, backSide, if_pos h0, decide_eq_decide, true_iff] <;> omega
    · simp only [nbrPlace, backSide, if_neg h0, decide_eq_decide]; omega
  · by_cases h0 : c = 0
    · rcases place_cases p hp with rfl | rfl | rfl | rfl | rfl | rfl <;>
        simp only [nbrPlace, backSide, if_pos h0, decide_eq_decide, true_iff] <;> omega
    · simp only [nbrPlace, backSide, if_neg h0, decide_eq_decide]; omega
  · by_cases h0 : c + 1 = k
    · rcases place_cases p hp with rfl | rfl | rfl | rfl | rfl | rfl <;>
        simp only [nbrPlace, backSide, if_pos h0, decide_eq_decide, true_iff] <;> omega
    · simp only [nbrPlace, backSide, if_neg h0, decide_eq_decide]; omega

theorem k_pred {k r : Nat} (h : r < k) : k - 1 + 1 = k := by omega

/-- Coordinates of the facing point: the same ones inside a panel, and across the panel edges the
coordinates given by the cube. -/
theorem sidePoint_facing {k n : Nat} (g : Coords K k n) {pl : Place} (h : Valid k pl) (d : Side) {i : Nat}
    (hi : i < n) :
    sidePoint g (nbrPlace k pl d) (backSide k pl d) (mirrored (backFlip k pl d) n i) = sidePoint g pl d i := by
  have hv := nbrPlace_valid h d
  unfold backFlip flip
  rw [edge_facing h d, atPanelEdge_enc h, myPanel_enc hv]
  obtain ⟨p, r, c⟩ := pl
  obtain ⟨hp, hr, hc⟩ := h
  simp only at hp hr hc
  have hk := k_pred hr
  cases d
  · by_cases h0 : r = 0
    · rcases place_cases p hp with rfl | rfl | rfl | rfl | rfl | rfl <;>
        simp [nbrPlace, backSide, h0, flips, mirrored, sidePoint, sideCoords, point, normal, eastward, northward,
          g.first, g.last, hk, c_mirror g hc hi, c_mirror' g hc hi]
    · simp [nbrPlace, backSide, h0, mirrored, sidePoint, sideCoords, show r - 1 + 1 = r by omega]
  · by_cases h0 : r + 1 = k
    · rcases place_cases p hp with rfl | rfl | rfl | rfl | rfl | rfl <;>
        simp [nbrPlace, backSide, h0, flips, mirrored, sidePoint, sideCoords, point, normal, eastward, northward,
          g.first, g.last, hk, c_mirror g hc hi, c_mirror' g hc hi]
    · simp [nbrPlace, backSide, h0, mirrored, sidePoint, sideCoords]
  · by_cases h0 : c = 0
    · rcases place_cases p hp with rfl | rfl | rfl | rfl | rfl | rfl <;>
        simp [nbrPlace, backSide, h0, flips, mirrored, sidePoint, sideCoords, point, normal, eastward, northward,
          g.first, g.last, hk, c_mirror g hr hi, c_mirror' g hr hi]
    · simp [nbrPlace, backSide, h0, mirrored, sidePoint, sideCoords, show c - 1 + 1 = c by omega]
  · by_cases h0 : c + 1 = k
    · rcases place_cases p hp with rfl | rfl | rfl | rfl | rfl | rfl <;>
        simp [nbrPlace, backSide, h0, flips, mirrored, sidePoint, sideCoords, point, normal, eastward, northward,
          g.first, g.last, hk, c_mirror g hr hi, c_mirror' g hr hi]
    · simp [nbrPlace, backSide, h0, mirrored, sidePoint, sideCoords]

/-- coordinates of a point of a panel edge -/
def edgeXY (s : Side) (x : K) : K × K :=
  match s with
  | .south => (x, -1) | .north => (x, 1) | .west => (-1, x) | .east => (1, x)

/-- facing side at panel level -/
def backPanel : Nat → Side → Side
  | 0, .south => .north | 0, .north => .south
  | 1, .south => .east | 1, .north => .east
  | 2, .south => .south | 2, .north => .north
  | 3, .south => .west | 3, .north => .west
  | 4, .south => .north | 4, .north => .north
  | _, .south => .south | _, .north => .south
  | 4, .west => .north | 5, .west => .south | _, .west => .east
  | 4, .east => .north | 5, .east => .south | _, .east => .west

set_option maxHeartbeats 4000000 in
theorem contra_edge {p : Nat} (hp : p < 6) (s : Side) {x : K} (hx : 1 + x ^ 2 ≠ 0) {u1 u2 : K} {V : V3 K}
    (h : Represents p (edgeXY s x).1 (edgeXY s x).2 u1 u2 V) :
    Represents (allNeighbors p s) (edgeXY (backPanel p s) (if flips p s then -x else x)).1
      (edgeXY (backPanel p s) (if flips p s then -x else x)).2
      (convertContras p s u1 u2 x).1 (convertContras p s u1 u2 x).2 V := by
  rcases place_cases p hp with rfl | rfl | rfl | rfl | rfl | rfl <;> cases s <;>
    obtain ⟨c, h1, h2, h3⟩ := h <;>
    simp only [edgeXY, eastward, northward, point, normal, mul_zero, mul_one, add_zero, zero_add, mul_neg] at h1 h2 h3 <;>
    [use c + 2 * u2; use c - 2 * u2; use c + 2 * u1; use c - 2 * u1;
     use c + 2 * u2; use c - 2 * u2; use c + 2 * u1; use c - 2 * u1;
     use c + 2 * u2; use c - 2 * u2; use c + 2 * u1; use c - 2 * u1;
     use c + 2 * u2; use c - 2 * u2; use c + 2 * u1; use c - 2 * u1;
     use c + 2 * u2; use c - 2 * u2; use c + 2 * u1; use c - 2 * u1;
     use c + 2 * u2; use c - 2 * u2; use c + 2 * u1; use c - 2 * u1] <;>
    simp only [edgeXY, eastward, northward, point, normal, allNeighbors, backPanel, flips, convertContras,
      if_true, if_false, Bool.false_eq_true, neg_sq, mul_zero, mul_one, add_zero, zero_add, mul_neg] <;>
    refine ⟨?_, ?_, ?_⟩ <;> (try field_simp) <;>
    first
      | linear_combination h1
      | linear_combination h2
      | linear_combination h3

set_option maxHeartbeats 4000000 in
theorem cov_edge {p : Nat} (hp : p < 6) (s : Side) (hs : ¬ (p = 2 ∧ s = .south)) {x : K} (hx : 1 + x ^ 2 ≠ 0)
    {w1 w2 : K} {W : V3 K} (h : RepresentsCov p (edgeXY s x).1 (edgeXY s x).2 w1 w2 W) :
    RepresentsCov (allNeighbors p s) (edgeXY (backPanel p s) (if flips p s then -x else x)).1
      (edgeXY (backPanel p s) (if flips p s then -x else x)).2
      (convertCovs p s w1 w2 x).1 (convertCovs p s w1 w2 x).2 W := by
  rcases place_cases p hp with rfl | rfl | rfl | rfl | rfl | rfl <;> cases s <;>
    (try exact absurd ⟨rfl, rfl⟩ hs) <;>
    obtain ⟨h1, rfl, rfl⟩ := h <;>
    simp only [edgeXY, eastward, northward, point, normal] at h1 <;>
    simp only [RepresentsCov, edgeXY, eastward, northward, point, normal, allNeighbors, backPanel, flips,
      convertCovs, if_true, if_false, Bool.false_eq_true, neg_sq] <;>
    refine ⟨?_, ?_, ?_⟩ <;> (try field_simp) <;>
    first
      | trivial
      | ring1
      | linear_combination h1
      | linear_combination (2 : K) * h1
      | linear_combination (-2 : K) * h1

/-- at a panel edge, the facing tile and coordinates are those of the panel-level tables -/
theorem facing_edge {k n : Nat} (g : Coords K k n) {pl : Place} (h : Valid k pl) (d : Side) {i : Nat} (hi : i < n)
    (he : atPanelEdge (6 * (k * k)) (enc k pl) d = true) :
    let q := nbrPlace k pl d; let s := backSide k pl d; let j := mirrored (flips q.panel s) n i
    allNeighbors q.panel s = pl.panel ∧ sideCoords g q s j = edgeXY s (alongSide g q s j) ∧
    sideCoords g pl d i = edgeXY (backPanel q.panel s)
      (if flips q.panel s then - alongSide g q s j else alongSide g q s j) := by
  rw [atPanelEdge_enc h] at he
  obtain ⟨p, r, c⟩ := pl
  obtain ⟨hp, hr, hc⟩ := h
  simp only at hp hr hc he
  have hk := k_pred hr
  cases d <;> simp only [decide_eq_true_eq] at he
  · rcases place_cases p hp with rfl | rfl | rfl | rfl | rfl | rfl <;>
        simp [nbrPlace, backSide, he, flips, mirrored, sideCoords, alongSide, edgeXY, backPanel, allNeighbors,
          g.first, g.last, hk, c_mirror g hc hi, c_mirror' g hc hi]
  · rcases place_cases p hp with rfl | rfl | rfl | rfl | rfl | rfl <;>
        simp [nbrPlace, backSide, he, flips, mirrored, sideCoords, alongSide, edgeXY, backPanel, allNeighbors,
          g.first, g.last, hk, c_mirror g hc hi, c_mirror' g hc hi]
  · rcases place_cases p hp with rfl | rfl | rfl | rfl | rfl | rfl <;>
        simp [nbrPlace, backSide, he, flips, mirrored, sideCoords, alongSide, edgeXY, backPanel, allNeighbors,
          g.first, g.last, hk, c_mirror g hr hi, c_mirror' g hr hi]
  · rcases place_cases p hp with rfl | rfl | rfl | rfl | rfl | rfl <;>
        simp [nbrPlace, backSide, he, flips, mirrored, sideCoords, alongSide, edgeXY, backPanel, allNeighbors,
          g.first, g.last, hk, c_mirror g hr hi, c_mirror' g hr hi]

theorem facing_interior {k n : Nat} (g : Coords K k n) {pl : Place} (h : Valid k pl) (d : Side) (i : Nat)
    (he : atPanelEdge (6 * (k * k)) (enc k pl) d = false) :
    (nbrPlace k pl d).panel = pl.panel ∧
    sideCoords g (nbrPlace k pl d) (backSide k pl d) i = sideCoords g pl d i := by
  rw [atPanelEdge_enc h] at he
  obtain ⟨p, r, c⟩ := pl
  obtain ⟨hp, hr, hc⟩ := h
  simp only at hp hr hc he
  cases d <;> simp only [decide_eq_false_iff_not] at he
  · simp [nbrPlace, backSide, he, sideCoords, show r - 1 + 1 = r by omega]
  · simp [nbrPlace, backSide, he, sideCoords]
  · simp [nbrPlace, backSide, he, sideCoords, show c - 1 + 1 = c by omega]
  · simp [nbrPlace, backSide, he, sideCoords]

theorem contra_facing {k n : Nat} (g : Coords K k n) (hpos : ∀ x : K, 1 + x ^ 2 ≠ 0) {pl : Place} (h : Valid k pl)
    (d : Side) {i : Nat} (hi : i < n) {u1 u2 : K} {V : V3 K} :
    let q := nbrPlace k pl d; let s := backSide k pl d; let j := mirrored (backFlip k pl d) n i
    Represents q.panel (sideCoords g q s j).1 (sideCoords g q s j).2 u1 u2 V →
    Represents pl.panel (sideCoords g pl d i).1 (sideCoords g pl d i).2
      (convertContra (6 * (k * k)) (enc k q) s u1 u2 (alongSide g q s j)).1
      (convertContra (6 * (k * k)) (enc k q) s u1 u2 (alongSide g q s j)).2 V := by
  have hv := nbrPlace_valid h d
  unfold backFlip flip convertContra
  simp only [edge_facing h d, myPanel_enc hv]
  by_cases he : atPanelEdge (6 * (k * k)) (enc k pl) d = true
  · simp only [if_pos he]
    obtain ⟨h1, h2, h3⟩ := facing_edge g h d hi he
    intro hr
    rw [h2] at hr
    have := contra_edge hv.1 _ (hpos _) hr
    rw [h1, ← h3] at this
    exact this
  · simp only [if_neg he, mirrored]
    obtain ⟨h1, h2⟩ := facing_interior g h d i (by simpa using he)
    intro hr
    rw [if_neg (by simp), h1, h2] at hr
    exact hr

theorem cov_facing {k n : Nat} (g : Coords K k n) (hpos : ∀ x : K, 1 + x ^ 2 ≠ 0) {pl : Place} (h : Valid k pl)
    (d : Side) (hd : ¬ (pl.panel = 5 ∧ pl.row = 0 ∧ d = .south)) {i : Nat} (hi : i < n) {u1 u2 : K} {V : V3 K} :
    let q := nbrPlace k pl d; let s := backSide k pl d; let j := mirrored (backFlip k pl d) n i
    RepresentsCov q.panel (sideCoords g q s j).1 (sideCoords g q s j).2 u1 u2 V →
    RepresentsCov pl.panel (sideCoords g pl d i).1 (sideCoords g pl d i).2
      (convertCov (6 * (k * k)) (enc k q) s u1 u2 (alongSide g q s j)).1
      (convertCov (6 * (k * k)) (enc k q) s u1 u2 (alongSide g q s j)).2 V := by
  have hv := nbrPlace_valid h d
  unfold backFlip flip convertCov
  simp only [edge_facing h d, myPanel_enc hv]
  by_cases he : atPanelEdge (6 * (k * k)) (enc k pl) d = true
  · simp only [if_pos he]
    obtain ⟨h1, h2, h3⟩ := facing_edge g h d hi he
    intro hr
    rw [h2] at hr
    have hs : ¬ ((nbrPlace k pl d).panel = 2 ∧ backSide k pl d = .south) := by
      rintro ⟨e1, e2⟩
      apply hd
      rw [atPanelEdge_enc h] at he
      obtain ⟨p, r, c⟩ := pl
      obtain ⟨hp, -, -⟩ := h
      simp only at hp he
      cases d <;> simp only [decide_eq_true_eq] at he <;>
        rcases place_cases p hp with rfl | rfl | rfl | rfl | rfl | rfl <;>
        simp [nbrPlace, backSide, he] at e1 e2 ⊢
    have := cov_edge hv.1 _ hs (hpos _) hr
    rw [h1, ← h3] at this
    exact this
  · simp only [if_neg he, mirrored]
    obtain ⟨h1, h2⟩ := facing_interior g h d i (by simpa using he)
    intro hr
    rw [if_neg (by simp), h1, h2] at hr
    exact hr

end

theorem getElem?_flip {α : Type*} (L : List α) (b : Bool) {n i : Nat} (hl : L.length = n) (hi : i < n) :
    (if b then L.reverse else L)[i]? = L[mirrored b n i]? := by
  cases b
  · rfl
  · simp only [if_true, mirrored]
    rw [List.getElem?_reverse (by omega), hl]

end WxVerif.Topology
