import Verif.Lemmas.StiffPdes
import Mathlib.Tactic.FieldSimp

/-!
Every operator reads the right neighbours: the values of the operators on one process, given what it has received.
-/

namespace WxVerif.StiffPdes

open WxVerif.Messages WxVerif.Spec.StiffPdes

noncomputable section

/-! ## Arrays of one process -/

theorem tile_eq (n : Nat) (u : Nat → Nat → ℝ) (Y X : Nat) :
    tile n u Y X = (List.range (n * n)).map fun k => u (Y * n + k / n) (X * n + k % n) := by
  unfold tile
  exact WxVerif.Gather.range_flatMap_block n n fun j i => u (Y * n + j) (X * n + i)

theorem cell_lt {n j i : Nat} (hj : j < n) (hi : i < n) : j * n + i < n * n := by
  calc j * n + i < j * n + n := by omega
    _ = (j + 1) * n := by rw [Nat.succ_mul]
    _ ≤ n * n := Nat.mul_le_mul_right n hj

theorem cell_div {n j i : Nat} (hi : i < n) : (j * n + i) / n = j := by
  rw [Nat.mul_comm, Nat.mul_add_div (by omega), Nat.div_eq_of_lt hi, Nat.add_zero]

theorem cell_mod {n j i : Nat} (hi : i < n) : (j * n + i) % n = i := by
  rw [Nat.mul_comm, Nat.mul_add_mod, Nat.mod_eq_of_lt hi]

theorem tile_get {n : Nat} (u : Nat → Nat → ℝ) (Y X : Nat) {j i : Nat} (hj : j < n) (hi : i < n) :
    (tile n u Y X)[j * n + i]? = some (u (Y * n + j) (X * n + i)) := by
  rw [tile_eq, List.getElem?_map, List.getElem?_range (cell_lt hj hi)]
  simp only [Option.map_some, cell_div hi, cell_mod hi]

theorem tile_length (n : Nat) (u : Nat → Nat → ℝ) (Y X : Nat) : (tile n u Y X).length = n * n := by
  rw [tile_eq, List.length_map, List.length_range]

theorem firstRow_get {n : Nat} (u : Nat → Nat → ℝ) (Y X : Nat) {i : Nat} (hi : i < n) :
    (firstRow n (tile n u Y X))[i]? = some (u (Y * n) (X * n + i)) := by
  unfold firstRow slice
  rw [List.drop_zero, List.getElem?_take_of_lt hi]
  have := tile_get u Y X (j := 0) (i := i) (by omega) hi
  simpa using this

theorem lastRow_get {n : Nat} (u : Nat → Nat → ℝ) (Y X : Nat) {i : Nat} (hi : i < n) :
    (lastRow n (tile n u Y X))[i]? = some (u (Y * n + (n - 1)) (X * n + i)) := by
  unfold lastRow slice
  have e : n * (n - 1) + i = (n - 1) * n + i := by rw [Nat.mul_comm]
  rw [List.getElem?_drop, e, List.getElem?_take_of_lt (cell_lt (by omega) hi), tile_get u Y X (by omega) hi]

theorem firstCol_get {n : Nat} (u : Nat → Nat → ℝ) (Y X : Nat) {j : Nat} (hj : j < n) :
    (firstCol n (tile n u Y X))[j]? = some (u (Y * n + j) (X * n)) := by
  unfold firstCol
  rw [List.getElem?_map, List.getElem?_range hj]
  have := tile_get u Y X (j := j) (i := 0) hj (by omega)
  rw [Nat.add_zero, Nat.add_zero, Nat.mul_comm j] at this
  simp [List.getD, this]

theorem lastCol_get {n : Nat} (u : Nat → Nat → ℝ) (Y X : Nat) {j : Nat} (hj : j < n) :
    (lastCol n (tile n u Y X))[j]? = some (u (Y * n + j) (X * n + (n - 1))) := by
  unfold lastCol
  rw [List.getElem?_map, List.getElem?_range hj]
  have := tile_get u Y X (j := j) (i := n - 1) hj (by omega)
  have e : n * (j + 1) - 1 = j * n + (n - 1) := by rw [Nat.mul_succ, Nat.mul_comm]; omega
  simp [List.getD, e, this]

theorem cells_eq {w : World} {n : Nat} (hn : w.n = n) {f : Nat → Nat → Option ℝ} {F : Nat → Nat → ℝ} {Y X : Nat}
    (h : ∀ j < n, ∀ i < n, f j i = some (F (Y * n + j) (X * n + i))) : cells w f = some (tile n F Y X) := by
  have key : ∀ l : List (Nat × Nat), (∀ c ∈ l, c.1 < n ∧ c.2 < n) →
      (l.mapM fun c => f c.1 c.2) = some (l.map fun c => F (Y * n + c.1) (X * n + c.2)) := by
    intro l
    induction l with
    | nil => intro _; rfl
    | cons c l ih =>
      intro hl
      have hc := hl c List.mem_cons_self
      rw [List.mapM_cons, h c.1 hc.1 c.2 hc.2, ih fun c' hc' => hl c' (List.mem_cons_of_mem _ hc')]
      rfl
  unfold cells
  rw [hn, key]
  · congr 1
    rw [List.map_flatMap]
    unfold tile
    refine List.flatMap_congr fun j _ => ?_
    rw [List.map_map]
    rfl
  · intro c hc
    simp only [List.mem_flatMap, List.mem_map, List.mem_range] at hc
    obtain ⟨j, hj, i, hi, rfl⟩ := hc
    exact ⟨hj, hi⟩

/-! ## Reading along a line -/

/-- the values read at a cell along one axis: position `i` of process `P` -/
structure Reads (per : Bool) (bc : Bc) (p n P i : Nat) (f : Nat → ℝ) (cur prev next lo hi : Option ℝ) : Prop where
  cur : cur = some (f (P * n + i))
  prev : 0 < i → prev = some (f (P * n + i - 1))
  next : i + 1 < n → next = some (f (P * n + i + 1))
  lo : i = 0 → 0 < P ∨ per = true → lo = some (before bc (p * n) f (P * n + i))
  hi : i + 1 = n → P + 1 < p ∨ per = true → hi = some (after bc (p * n) f (P * n + i))

theorem before_in {bc : Bc} {M : Nat} {f : Nat → ℝ} {k : Nat} (h : 0 < k) : before bc M f k = f (k - 1) := by
  unfold before; rw [if_neg (by omega)]

theorem after_in {bc : Bc} {M : Nat} {f : Nat → ℝ} {k : Nat} (h : k + 1 < M) : after bc M f k = f (k + 1) := by
  unfold after; rw [if_neg (by omega)]

/-- everything about one process -/
structure Ctx (per : Bool) (p n : Nat) (h : ℝ) (r : Nat) (w : World) : Prop where
  world : IsWorld per p n r h w
  n2 : 2 ≤ n
  r_lt : r < p * p
  p2 : per = true → 2 ≤ p

/-- the exchanged arrays are the tiles of a field -/
def fieldExch (p n k : Nat) (per : Bool) (u : Nat → Nat → ℝ) : Exch := ⟨k, per, fun r => tile n u (r / p) (r % p)⟩

theorem vert_div {p A B : Nat} (hB : B < p) : vert p A B / p = A := cell_div hB
theorem vert_mod {p A B : Nat} (hB : B < p) : vert p A B % p = B := cell_mod hB
theorem horiz_div {p A B : Nat} (hA : A < p) : horiz p A B / p = B := cell_div hA
theorem horiz_mod {p A B : Nat} (hA : A < p) : horiz p A B % p = A := cell_mod hA

theorem near_get {w : World} {p k : Nat} (hs : w.size = p * p) (hp : 2 ≤ p) (b : Buf → List ℝ) (s : Side) (i : Nat) :
    near (halo w k b) s i = (b (k, s))[i]? := by
  have : w.size > 1 := by rw [hs]; nlinarith
  unfold near halo
  rw [if_pos this]
  rfl

theorem pos_lt {p n P i : Nat} (hP : P + 1 < p) (hi : i < n) : P * n + i + 1 < p * n := by
  calc P * n + i + 1 < P * n + n + 1 := by omega
    _ = (P + 1) * n + 1 := by rw [Nat.succ_mul]
    _ ≤ (P + 1) * n + n := by omega
    _ = (P + 2) * n := by rw [Nat.succ_mul (P + 1)]
    _ ≤ p * n := Nat.mul_le_mul_right n hP

theorem pos_lt' {p n P i : Nat} (hP : P < p) (hi : i + 1 < n) : P * n + i + 1 < p * n := by
  calc P * n + i + 1 < P * n + n := by omega
    _ = (P + 1) * n := by rw [Nat.succ_mul]
    _ ≤ p * n := Nat.mul_le_mul_right n hP

theorem pos_last {p n P i : Nat} (hP : P + 1 = p) (hi : i + 1 = n) : P * n + i + 1 = p * n := by
  rw [← hP, Nat.succ_mul]; omega

theorem xReads {per : Bool} {bc : Bc} {p n : Nat} {h : ℝ} {r : Nat} {w : World} (C : Ctx per p n h r w) (hbc : per = true → bc = .periodic)
    {k : Nat} {u : Nat → Nat → ℝ} {b : Buf → List ℝ} (hb : 2 ≤ p → Received p n r (fieldExch p n k per u) b) {j i : Nat} (hj : j < n) (hi : i < n) :
    Reads per bc p n (r % p) i (fun c => u (r / p * n + j) c) (tile n u (r / p) (r % p))[j * n + i]? (tile n u (r / p) (r % p))[j * n + i - 1]?
      (tile n u (r / p) (r % p))[j * n + i + 1]? (near (halo w k b) .left j) (near (halo w k b) .right j) := by
  have hp : 0 < p := Nat.pos_of_ne_zero fun h0 => by have := C.r_lt; subst h0; omega
  have hY : r / p < p := Nat.div_lt_of_lt_mul C.r_lt
  have hX : r % p < p := Nat.mod_lt _ hp
  refine ⟨tile_get u _ _ hj hi, fun h0 => ?_, fun h1 => ?_, fun h0 hP => ?_, fun h1 hP => ?_⟩
  · rw [show j * n + i - 1 = j * n + (i - 1) by omega, tile_get u _ _ hj (by omega), show r % p * n + i - 1 = r % p * n + (i - 1) by omega]
  · rw [show j * n + i + 1 = j * n + (i + 1) by omega, tile_get u _ _ hj h1]; rfl
  · have h2 : 2 ≤ p := by
      rcases hP with hP | hP
      · omega
      · exact C.p2 hP
    rw [near_get C.world.size h2]
    subst h0
    by_cases hX0 : r % p = 0
    · have hper : per = true := by rcases hP with hP | hP; · omega
                                   · exact hP
      rw [show b (k, .left) = _ from (hb h2).leftPer hper hX0]
      simp only [fieldExch, horiz_div (show p - 1 < p by omega), horiz_mod (show p - 1 < p by omega)]
      rw [lastCol_get u _ _ hj, hbc hper, hX0]
      unfold before
      rw [if_pos (by omega)]
      simp only
      congr 2
      rw [← pos_last (show p - 1 + 1 = p by omega) (show n - 1 + 1 = n by omega)]
      rfl
    · rw [show b (k, .left) = _ from (hb h2).left (by omega)]
      simp only [fieldExch, horiz_div (show r % p - 1 < p by omega), horiz_mod (show r % p - 1 < p by omega)]
      have hn := C.n2
      have e : r % p * n = (r % p - 1) * n + n := by rw [← Nat.succ_mul]; congr 1; omega
      rw [lastCol_get u _ _ hj, before_in (by omega)]
      congr 2
      omega
  · have h2 : 2 ≤ p := by
      rcases hP with hP | hP
      · omega
      · exact C.p2 hP
    rw [near_get C.world.size h2]
    by_cases hX1 : r % p + 1 = p
    · have hper : per = true := by rcases hP with hP | hP; · omega
                                   · exact hP
      rw [show b (k, .right) = _ from (hb h2).rightPer hper hX1]
      simp only [fieldExch, horiz_div hp, horiz_mod hp]
      rw [firstCol_get u _ _ hj, hbc hper]
      unfold after
      rw [if_pos (pos_last hX1 h1)]
      simp
    · rw [show b (k, .right) = _ from (hb h2).right (by omega)]
      simp only [fieldExch, horiz_div (show r % p + 1 < p by omega), horiz_mod (show r % p + 1 < p by omega)]
      rw [firstCol_get u _ _ hj, after_in (pos_lt (by omega) hi)]
      congr 2
      rw [Nat.succ_mul]
      omega

theorem yReads {per : Bool} {bc : Bc} {p n : Nat} {h : ℝ} {r : Nat} {w : World} (C : Ctx per p n h r w) (hbc : per = true → bc = .periodic)
    {k : Nat} {u : Nat → Nat → ℝ} {b : Buf → List ℝ} (hb : 2 ≤ p → Received p n r (fieldExch p n k per u) b) {j i : Nat} (hj : j < n) (hi : i < n) :
    Reads per bc p n (r / p) j (fun c => u c (r % p * n + i)) (tile n u (r / p) (r % p))[j * n + i]? (tile n u (r / p) (r % p))[j * n + i - n]?
      (tile n u (r / p) (r % p))[j * n + i + n]? (near (halo w k b) .bottom i) (near (halo w k b) .top i) := by
  have hp : 0 < p := Nat.pos_of_ne_zero fun h0 => by have := C.r_lt; subst h0; omega
  have hY : r / p < p := Nat.div_lt_of_lt_mul C.r_lt
  have hX : r % p < p := Nat.mod_lt _ hp
  have hd0 : 0 ≤ r / p := Nat.zero_le _
  refine ⟨tile_get u _ _ hj hi, fun h0 => ?_, fun h1 => ?_, fun h0 hP => ?_, fun h1 hP => ?_⟩
  · have e : j * n = (j - 1) * n + n := by rw [← Nat.succ_mul]; congr 1; omega
    rw [show j * n + i - n = (j - 1) * n + i by omega, tile_get u _ _ (by omega) hi, show r / p * n + j - 1 = r / p * n + (j - 1) by omega]
  · rw [show j * n + i + n = (j + 1) * n + i by rw [Nat.succ_mul]; omega, tile_get u _ _ h1 hi]; rfl
  · have h2 : 2 ≤ p := by
      rcases hP with hP | hP
      · omega
      · exact C.p2 hP
    rw [near_get C.world.size h2]
    subst h0
    by_cases hX0 : r / p = 0
    · have hper : per = true := by rcases hP with hP | hP; · omega
                                   · exact hP
      rw [show b (k, .bottom) = _ from (hb h2).bottomPer hper hX0]
      simp only [fieldExch, vert_div hX, vert_mod hX]
      rw [lastRow_get u _ _ hi, hbc hper, hX0]
      unfold before
      rw [if_pos (by omega)]
      simp only
      congr 2
      rw [← pos_last (show p - 1 + 1 = p by omega) (show n - 1 + 1 = n by omega)]
      rfl
    · rw [show b (k, .bottom) = _ from (hb h2).bottom (by omega)]
      simp only [fieldExch, vert_div hX, vert_mod hX]
      have hn := C.n2
      have e : r / p * n = (r / p - 1) * n + n := by rw [← Nat.succ_mul]; congr 1; omega
      rw [lastRow_get u _ _ hi, before_in (by omega)]
      congr 2
      omega
  · have h2 : 2 ≤ p := by
      rcases hP with hP | hP
      · omega
      · exact C.p2 hP
    rw [near_get C.world.size h2]
    by_cases hX1 : r / p + 1 = p
    · have hper : per = true := by rcases hP with hP | hP; · omega
                                   · exact hP
      rw [show b (k, .top) = _ from (hb h2).topPer hper hX1]
      simp only [fieldExch, vert_div hX, vert_mod hX]
      rw [firstRow_get u _ _ hi, hbc hper]
      unfold after
      rw [if_pos (pos_last hX1 h1)]
      simp
    · rw [show b (k, .top) = _ from (hb h2).top (by omega)]
      simp only [fieldExch, vert_div hX, vert_mod hX]
      rw [firstRow_get u _ _ hi, after_in (pos_lt (by omega) hj)]
      congr 2
      rw [Nat.succ_mul]
      omega

/-! ## The pieces of the stencils -/

section Pieces

variable {per : Bool} {bc : Bc} {p n P i : Nat} {f g : Nat → ℝ} {cur prev next lo hi cur' prev' next' lo' hi' : Option ℝ}

/-- products of two fields are read from products, if nothing is extrapolated -/
theorem Reads.mul (R : Reads per bc p n P i f cur prev next lo hi) (S : Reads per bc p n P i g cur' prev' next' lo' hi') (hbc : bc ≠ .neumann) :
    Reads per bc p n P i (fun c => f c * g c) (mul cur cur') (mul prev prev') (mul next next') (mul lo lo') (mul hi hi') := by
  refine ⟨by rw [R.cur, S.cur]; rfl, fun h => by rw [R.prev h, S.prev h]; rfl, fun h => by rw [R.next h, S.next h]; rfl, fun h h' => ?_, fun h h' => ?_⟩
  · rw [R.lo h h', S.lo h h']
    simp only [StiffPdes.mul, before, Option.bind_some, Option.map_some]
    split_ifs
    · cases bc <;> simp at hbc ⊢
    · rfl
  · rw [R.hi h h', S.hi h h']
    simp only [StiffPdes.mul, after, Option.bind_some, Option.map_some]
    split_ifs
    · cases bc <;> simp at hbc ⊢
    · rfl

theorem sq_eq (a : Option ℝ) : sq a = mul a a := by
  cases a with
  | none => rfl
  | some x => simp [sq, mul, pow_two]

theorem Reads.sq (R : Reads per bc p n P i f cur prev next lo hi) (hbc : bc ≠ .neumann) :
    Reads per bc p n P i (fun c => f c ^ 2) (sq cur) (sq prev) (sq next) (sq lo) (sq hi) := by
  have h := R.mul R hbc
  simp only [sq_eq]
  have e : (fun c => f c ^ 2) = fun c => f c * f c := by funext c; rw [pow_two]
  rw [e]
  exact h

/-- the three places of a cell along one axis -/
theorem place (hn : 2 ≤ n) (hi : i < n) : (i = 0 ∧ i + 1 < n) ∨ (i ≠ 0 ∧ i = n - 1 ∧ i + 1 = n ∧ 0 < i) ∨ (i ≠ 0 ∧ i ≠ n - 1 ∧ i + 1 < n ∧ 0 < i) := by omega

theorem low (hP : P = 0) (hi : i = 0) : before bc (p * n) f (P * n + i) = match bc with
    | .dirichlet => 0 | .neumann => (4 * f 0 - f 1) / 3 | .periodic => f (p * n - 1) := by
  subst hP hi
  unfold before
  rw [if_pos (by omega)]
  cases bc <;> rfl

theorem high (hP : P + 1 = p) (hi : i + 1 = n) : after bc (p * n) f (P * n + i) = match bc with
    | .dirichlet => 0 | .neumann => (4 * f (p * n - 1) - f (p * n - 2)) / 3 | .periodic => f 0 := by
  unfold after
  rw [if_pos (pos_last hP hi)]
  cases bc <;> rfl

variable (hn : 2 ≤ n) (hP : P < p) (hin : i < n)

include hn hP hin

theorem lapD_x (R : Reads false .dirichlet p n P i f cur prev next lo hi) :
    (if i = 0 then if P = 0 then next else add next lo
      else if i = n - 1 then if P = p - 1 then prev else add prev hi else add prev next) =
      some (before .dirichlet (p * n) f (P * n + i) + after .dirichlet (p * n) f (P * n + i)) := by
  rcases place hn hin with ⟨h0, h1⟩ | ⟨h0, h1, h2, h3⟩ | ⟨h0, h1, h2, h3⟩
  · rw [if_pos h0, R.next h1, after_in (pos_lt' hP h1)]
    by_cases hP0 : P = 0
    · rw [if_pos hP0, low hP0 h0]; simp
    · rw [if_neg hP0, R.lo h0 (Or.inl (by omega))]; simp [add, add_comm]
  · rw [if_neg h0, if_pos h1, R.prev h3, before_in (by omega)]
    by_cases hP1 : P = p - 1
    · rw [if_pos hP1, high (by omega) h2]; simp
    · rw [if_neg hP1, R.hi h2 (Or.inl (by omega))]; simp [add]
  · rw [if_neg h0, if_neg h1, R.prev h3, R.next h2, before_in (by omega), after_in (pos_lt' hP h2)]; simp [add]

theorem lapD_y (R : Reads false .dirichlet p n P i f cur prev next lo hi) :
    (if i = 0 then if P = 0 then next else add lo next
      else if i = n - 1 then if P = p - 1 then prev else add hi prev else add prev next) =
      some (before .dirichlet (p * n) f (P * n + i) + after .dirichlet (p * n) f (P * n + i)) := by
  rcases place hn hin with ⟨h0, h1⟩ | ⟨h0, h1, h2, h3⟩ | ⟨h0, h1, h2, h3⟩
  · rw [if_pos h0, R.next h1, after_in (pos_lt' hP h1)]
    by_cases hP0 : P = 0
    · rw [if_pos hP0, low hP0 h0]; simp
    · rw [if_neg hP0, R.lo h0 (Or.inl (by omega))]; simp [add]
  · rw [if_neg h0, if_pos h1, R.prev h3, before_in (by omega)]
    by_cases hP1 : P = p - 1
    · rw [if_pos hP1, high (by omega) h2]; simp
    · rw [if_neg hP1, R.hi h2 (Or.inl (by omega))]; simp [add, add_comm]
  · rw [if_neg h0, if_neg h1, R.prev h3, R.next h2, before_in (by omega), after_in (pos_lt' hP h2)]; simp [add]

/-- two thirds of the inner neighbour and four thirds of the value, as the operators write it -/
def twoFour (a c : Option ℝ) : Option ℝ := add (a.map fun v => 2 / 3 * v) (c.map fun v => 4 / 3 * v)

omit hn hin hP in
theorem after_one (hP : P = 0) (hi : i = 0) (hM : 1 < p * n) : after bc (p * n) f (P * n + i) = f 1 := by
  subst hP hi
  rw [Nat.zero_mul]
  exact after_in hM

omit hn hin hP in
theorem before_one (h2 : P * n + i + 1 = p * n) (h0 : 0 < P * n + i) : before bc (p * n) f (P * n + i) = f (p * n - 2) := by
  rw [before_in h0]
  congr 1
  omega

theorem lapN_x (R : Reads false .neumann p n P i f cur prev next lo hi) :
    (if i = 0 then if P = 0 then twoFour next cur else add next lo
      else if i = n - 1 then if P = p - 1 then twoFour prev cur else add prev hi else add prev next) =
      some (before .neumann (p * n) f (P * n + i) + after .neumann (p * n) f (P * n + i)) := by
  rcases place hn hin with ⟨h0, h1⟩ | ⟨h0, h1, h2, h3⟩ | ⟨h0, h1, h2, h3⟩
  · rw [if_pos h0, R.next h1, after_in (pos_lt' hP h1)]
    by_cases hP0 : P = 0
    · rw [if_pos hP0, low hP0 h0, R.cur, hP0, h0]
      simp only [twoFour, add, Option.map_some, Option.bind_some, Option.some.injEq, Nat.zero_mul, Nat.zero_add]
      ring
    · rw [if_neg hP0, R.lo h0 (Or.inl (by omega))]; simp [add, add_comm]
  · rw [if_neg h0, if_pos h1, R.prev h3, before_in (by omega)]
    by_cases hP1 : P = p - 1
    · have hM := pos_last (show P + 1 = p by omega) h2
      rw [if_pos hP1, high (by omega) h2, R.cur, ← hM]
      simp only [twoFour, add, Option.map_some, Option.bind_some, Option.some.injEq, Nat.add_sub_cancel, show P * n + i + 1 - 2 = P * n + i - 1 by omega]
      ring
    · rw [if_neg hP1, R.hi h2 (Or.inl (by omega))]; simp [add]
  · rw [if_neg h0, if_neg h1, R.prev h3, R.next h2, before_in (by omega), after_in (pos_lt' hP h2)]; simp [add]

theorem lapN_y (R : Reads false .neumann p n P i f cur prev next lo hi) :
    (if i = 0 then if P = 0 then twoFour next cur else add lo next
      else if i = n - 1 then if P = p - 1 then twoFour prev cur else add hi prev else add prev next) =
      some (before .neumann (p * n) f (P * n + i) + after .neumann (p * n) f (P * n + i)) := by
  rcases place hn hin with ⟨h0, h1⟩ | ⟨h0, h1, h2, h3⟩ | ⟨h0, h1, h2, h3⟩
  · rw [if_pos h0, R.next h1, after_in (pos_lt' hP h1)]
    by_cases hP0 : P = 0
    · rw [if_pos hP0, low hP0 h0, R.cur, hP0, h0]
      simp only [twoFour, add, Option.map_some, Option.bind_some, Option.some.injEq, Nat.zero_mul, Nat.zero_add]
      ring
    · rw [if_neg hP0, R.lo h0 (Or.inl (by omega))]; simp [add]
  · rw [if_neg h0, if_pos h1, R.prev h3, before_in (by omega)]
    by_cases hP1 : P = p - 1
    · have hM := pos_last (show P + 1 = p by omega) h2
      rw [if_pos hP1, high (by omega) h2, R.cur, ← hM]
      simp only [twoFour, add, Option.map_some, Option.bind_some, Option.some.injEq, Nat.add_sub_cancel, show P * n + i + 1 - 2 = P * n + i - 1 by omega]
      ring
    · rw [if_neg hP1, R.hi h2 (Or.inl (by omega))]; simp [add, add_comm]
  · rw [if_neg h0, if_neg h1, R.prev h3, R.next h2, before_in (by omega), after_in (pos_lt' hP h2)]; simp [add]

theorem lapP_x (R : Reads true .periodic p n P i f cur prev next lo hi) :
    (if i = 0 then add next lo else if i = n - 1 then add prev hi else add prev next) =
      some (before .periodic (p * n) f (P * n + i) + after .periodic (p * n) f (P * n + i)) := by
  rcases place hn hin with ⟨h0, h1⟩ | ⟨h0, h1, h2, h3⟩ | ⟨h0, h1, h2, h3⟩
  · rw [if_pos h0, R.next h1, after_in (pos_lt' hP h1), R.lo h0 (Or.inr rfl)]; simp [add, add_comm]
  · rw [if_neg h0, if_pos h1, R.prev h3, before_in (by omega), R.hi h2 (Or.inr rfl)]; simp [add]
  · rw [if_neg h0, if_neg h1, R.prev h3, R.next h2, before_in (by omega), after_in (pos_lt' hP h2)]; simp [add]

theorem lapP_y (R : Reads true .periodic p n P i f cur prev next lo hi) :
    (if i = 0 then add lo next else if i = n - 1 then add hi prev else add prev next) =
      some (before .periodic (p * n) f (P * n + i) + after .periodic (p * n) f (P * n + i)) := by
  rcases place hn hin with ⟨h0, h1⟩ | ⟨h0, h1, h2, h3⟩ | ⟨h0, h1, h2, h3⟩
  · rw [if_pos h0, R.next h1, after_in (pos_lt' hP h1), R.lo h0 (Or.inr rfl)]; simp [add]
  · rw [if_neg h0, if_pos h1, R.prev h3, before_in (by omega), R.hi h2 (Or.inr rfl)]; simp [add, add_comm]
  · rw [if_neg h0, if_neg h1, R.prev h3, R.next h2, before_in (by omega), after_in (pos_lt' hP h2)]; simp [add]

theorem advD_x (R : Reads false .dirichlet p n P i f cur prev next lo hi) :
    (if i = 0 then if P = 0 then next else sub next lo
      else if i = n - 1 then if P = p - 1 then prev.map (fun v => -v) else sub hi prev else sub next prev) =
      some (central .dirichlet (p * n) f (P * n + i)) := by
  unfold central
  rcases place hn hin with ⟨h0, h1⟩ | ⟨h0, h1, h2, h3⟩ | ⟨h0, h1, h2, h3⟩
  · rw [if_pos h0, R.next h1, after_in (pos_lt' hP h1)]
    by_cases hP0 : P = 0
    · rw [if_pos hP0, low hP0 h0]; simp
    · rw [if_neg hP0, R.lo h0 (Or.inl (by omega))]; simp [sub]
  · rw [if_neg h0, if_pos h1, R.prev h3, before_in (by omega)]
    by_cases hP1 : P = p - 1
    · rw [if_pos hP1, high (by omega) h2]; simp
    · rw [if_neg hP1, R.hi h2 (Or.inl (by omega))]; simp [sub]
  · rw [if_neg h0, if_neg h1, R.prev h3, R.next h2, before_in (by omega), after_in (pos_lt' hP h2)]; simp [sub]

theorem advD_y {size : Nat} (hs : 1 < size) (R : Reads false .dirichlet p n P i f cur prev next lo hi) :
    (if i = 0 then if P = 0 then next else sub next lo
      else if i = n - 1 then if P = p - 1 ∧ size - 1 ≠ 0 then prev.map (fun v => -v) else sub hi prev else sub next prev) =
      some (central .dirichlet (p * n) f (P * n + i)) := by
  have h := advD_x hn hP hin R
  simpa only [show size - 1 ≠ 0 by omega, and_true, ne_eq, not_false_eq_true] using h

/-- four thirds of the difference to the inner neighbour, as the operators write it -/
def fourThirds (a c : Option ℝ) : Option ℝ := (sub a c).map fun v => 4 / 3 * v

theorem advN_x (R : Reads false .neumann p n P i f cur prev next lo hi) :
    (if i = 0 then if P = 0 then fourThirds next cur else sub next lo
      else if i = n - 1 then if P = p - 1 then fourThirds cur prev else sub hi prev else sub next prev) =
      some (central .neumann (p * n) f (P * n + i)) := by
  unfold central
  rcases place hn hin with ⟨h0, h1⟩ | ⟨h0, h1, h2, h3⟩ | ⟨h0, h1, h2, h3⟩
  · rw [if_pos h0, R.next h1, after_in (pos_lt' hP h1)]
    by_cases hP0 : P = 0
    · rw [if_pos hP0, low hP0 h0, R.cur, hP0, h0]
      simp only [fourThirds, sub, Option.map_some, Option.bind_some, Option.some.injEq, Nat.zero_mul, Nat.zero_add]
      ring
    · rw [if_neg hP0, R.lo h0 (Or.inl (by omega))]; simp [sub]
  · rw [if_neg h0, if_pos h1, R.prev h3, before_in (by omega)]
    by_cases hP1 : P = p - 1
    · have hM := pos_last (show P + 1 = p by omega) h2
      rw [if_pos hP1, high (by omega) h2, R.cur, ← hM]
      simp only [fourThirds, sub, Option.map_some, Option.bind_some, Option.some.injEq, Nat.add_sub_cancel, show P * n + i + 1 - 2 = P * n + i - 1 by omega]
      ring
    · rw [if_neg hP1, R.hi h2 (Or.inl (by omega))]; simp [sub]
  · rw [if_neg h0, if_neg h1, R.prev h3, R.next h2, before_in (by omega), after_in (pos_lt' hP h2)]; simp [sub]

theorem advP_x (R : Reads true .periodic p n P i f cur prev next lo hi) :
    (if i = 0 then sub next lo else if i = n - 1 then sub hi prev else sub next prev) =
      some (central .periodic (p * n) f (P * n + i)) := by
  unfold central
  rcases place hn hin with ⟨h0, h1⟩ | ⟨h0, h1, h2, h3⟩ | ⟨h0, h1, h2, h3⟩
  · rw [if_pos h0, R.next h1, after_in (pos_lt' hP h1), R.lo h0 (Or.inr rfl)]; simp [sub]
  · rw [if_neg h0, if_pos h1, R.prev h3, before_in (by omega), R.hi h2 (Or.inr rfl)]; simp [sub]
  · rw [if_neg h0, if_neg h1, R.prev h3, R.next h2, before_in (by omega), after_in (pos_lt' hP h2)]; simp [sub]

end Pieces

/-! ## The operators -/

section Operators

variable {p n : Nat} {h : ℝ} {r : Nat} {w : World} {k : Nat} {u v : Nat → Nat → ℝ} {b : Buf → List ℝ}

theorem ctx_lt {per : Bool} (C : Ctx per p n h r w) : r / p < p ∧ r % p < p := by
  have hp : 0 < p := Nat.pos_of_ne_zero fun h0 => by have := C.r_lt; subst h0; omega
  exact ⟨Nat.div_lt_of_lt_mul C.r_lt, Nat.mod_lt _ hp⟩

theorem neg_mul' (a b : Option ℝ) : mul (a.map fun v => -v) b = (mul a b).map fun v => -v := by
  cases a <;> cases b <;> simp [mul]

theorem lapDirichlet (C : Ctx false p n h r w) (hb : 2 ≤ p → Received p n r (fieldExch p n k false u) b) (ε : ℝ) :
    (laplacianDirichlet k w (tile n u (r / p) (r % p)) ε).value b =
      some (tile n (fun a c => ε * laplacian .dirichlet (p * n) h u a c) (r / p) (r % p)) := by
  obtain ⟨hY, hX⟩ := ctx_lt C
  dsimp only [laplacianDirichlet]
  refine cells_eq C.world.n fun j hj i hi => ?_
  have R := xReads (bc := .dirichlet) C (by simp) hb hj hi
  have S := yReads (bc := .dirichlet) C (by simp) hb hj hi
  simp only [C.world.n, C.world.procX, C.world.procY, C.world.procs, C.world.dx]
  rw [lapD_x C.n2 hX hi R, lapD_y C.n2 hY hj S, R.cur]
  simp only [add, Option.map_some, Option.bind_some, Option.some.injEq, laplacian, second]
  ring

theorem lapNeumann (C : Ctx false p n h r w) (hb : 2 ≤ p → Received p n r (fieldExch p n k false u) b) (ε : ℝ) :
    (laplacianNeumann k w (tile n u (r / p) (r % p)) ε).value b =
      some (tile n (fun a c => ε * laplacian .neumann (p * n) h u a c) (r / p) (r % p)) := by
  obtain ⟨hY, hX⟩ := ctx_lt C
  dsimp only [laplacianNeumann]
  refine cells_eq C.world.n fun j hj i hi => ?_
  have R := xReads (bc := .neumann) C (by simp) hb hj hi
  have S := yReads (bc := .neumann) C (by simp) hb hj hi
  have h1 := lapN_x C.n2 hX hi R
  have h2 := lapN_y C.n2 hY hj S
  simp only [twoFour] at h1 h2
  simp only [C.world.n, C.world.procX, C.world.procY, C.world.procs, C.world.dx]
  rw [h1, h2, R.cur]
  simp only [add, Option.map_some, Option.bind_some, Option.some.injEq, laplacian, second]
  ring

theorem lapPeriodic (C : Ctx true p n h r w) (hb : 2 ≤ p → Received p n r (fieldExch p n k true u) b) (ε : ℝ) :
    (laplacianPeriodic k w (tile n u (r / p) (r % p)) ε).value b =
      some (tile n (fun a c => ε * laplacian .periodic (p * n) h u a c) (r / p) (r % p)) := by
  obtain ⟨hY, hX⟩ := ctx_lt C
  dsimp only [laplacianPeriodic]
  refine cells_eq C.world.n fun j hj i hi => ?_
  have R := xReads (bc := .periodic) C (by simp) hb hj hi
  have S := yReads (bc := .periodic) C (by simp) hb hj hi
  simp only [C.world.n, C.world.dx]
  rw [lapP_x C.n2 hX hi R, lapP_y C.n2 hY hj S, R.cur]
  simp only [add, Option.map_some, Option.bind_some, Option.some.injEq, laplacian, second]
  ring

theorem lapSquared (C : Ctx true p n h r w) (hb : 2 ≤ p → Received p n r (fieldExch p n k true u) b) :
    (laplacianUsquared k w (tile n u (r / p) (r % p))).value b =
      some (tile n (fun a c => laplacian .periodic (p * n) h (fun a c => u a c ^ 2) a c) (r / p) (r % p)) := by
  obtain ⟨hY, hX⟩ := ctx_lt C
  dsimp only [laplacianUsquared]
  refine cells_eq C.world.n fun j hj i hi => ?_
  have R := xReads (bc := .periodic) C (by simp) hb hj hi
  have S := yReads (bc := .periodic) C (by simp) hb hj hi
  simp only [C.world.n, C.world.dx]
  rw [lapP_x C.n2 hX hi (R.sq (by simp)), lapP_y C.n2 hY hj (S.sq (by simp)), R.cur]
  simp only [add, Option.map_some, Option.bind_some, Option.some.injEq, laplacian, second]
  ring

theorem lapProduct (C : Ctx true p n h r w) (hb : 2 ≤ p → Received p n r (fieldExch p n k true v) b)
    (hb' : 2 ≤ p → Received p n r (fieldExch p n (k + 1) true u) b) (ε : ℝ) :
    (nonLinLapPeriodic k w (tile n v (r / p) (r % p)) (tile n u (r / p) (r % p)) ε).value b =
      some (tile n (fun a c => 2 * ε * laplacian .periodic (p * n) h (fun a c => v a c * u a c) a c) (r / p) (r % p)) := by
  obtain ⟨hY, hX⟩ := ctx_lt C
  dsimp only [nonLinLapPeriodic]
  refine cells_eq C.world.n fun j hj i hi => ?_
  have R := xReads (bc := .periodic) C (by simp) hb hj hi
  have S := yReads (bc := .periodic) C (by simp) hb hj hi
  have R' := xReads (bc := .periodic) C (by simp) hb' hj hi
  have S' := yReads (bc := .periodic) C (by simp) hb' hj hi
  simp only [C.world.n, C.world.dx]
  rw [lapP_x C.n2 hX hi (R.mul R' (by simp)), lapP_y C.n2 hY hj (S.mul S' (by simp)), R.cur, R'.cur]
  simp only [add, mul, Option.map_some, Option.bind_some, Option.some.injEq, laplacian, second]
  ring

theorem one_lt_size (hp : 2 ≤ p) (hw : IsWorld per p n r h w) : 1 < w.size := by rw [hw.size]; nlinarith

theorem advDirichlet (hp : 2 ≤ p) (C : Ctx false p n h r w) (hb : 2 ≤ p → Received p n r (fieldExch p n k false u) b) (α : ℝ) :
    (advectionDirichlet k w (tile n u (r / p) (r % p)) α).value b =
      some (tile n (fun a c => α * advection .dirichlet (p * n) h u a c) (r / p) (r % p)) := by
  obtain ⟨hY, hX⟩ := ctx_lt C
  dsimp only [advectionDirichlet]
  refine cells_eq C.world.n fun j hj i hi => ?_
  have R := xReads (bc := .dirichlet) C (by simp) hb hj hi
  have S := yReads (bc := .dirichlet) C (by simp) hb hj hi
  simp only [C.world.n, C.world.procX, C.world.procY, C.world.procs, C.world.dx]
  rw [advD_x C.n2 hX hi R, advD_y C.n2 hY hj (one_lt_size hp C.world) S]
  simp only [add, Option.map_some, Option.bind_some, advection]

theorem advSquaredDir (hp : 2 ≤ p) (C : Ctx false p n h r w) (hb : 2 ≤ p → Received p n r (fieldExch p n k false u) b) :
    (advectionUsquaredDir k w (tile n u (r / p) (r % p))).value b =
      some (tile n (fun a c => advection .dirichlet (p * n) h (fun a c => u a c ^ 2) a c / 2) (r / p) (r % p)) := by
  obtain ⟨hY, hX⟩ := ctx_lt C
  dsimp only [advectionUsquaredDir]
  refine cells_eq C.world.n fun j hj i hi => ?_
  have R := xReads (bc := .dirichlet) C (by simp) hb hj hi
  have S := yReads (bc := .dirichlet) C (by simp) hb hj hi
  simp only [C.world.n, C.world.procX, C.world.procY, C.world.procs, C.world.dx]
  rw [advD_x C.n2 hX hi (R.sq (by simp)), advD_y C.n2 hY hj (one_lt_size hp C.world) (S.sq (by simp))]
  simp only [add, Option.map_some, Option.bind_some, advection, Option.some.injEq]
  rw [div_div]
  congr 1
  ring

theorem advProductDir (hp : 2 ≤ p) (C : Ctx false p n h r w) (hb : 2 ≤ p → Received p n r (fieldExch p n k false v) b)
    (hb' : 2 ≤ p → Received p n r (fieldExch p n (k + 1) false u) b) (α : ℝ) :
    (nonLinAdvecDirichlet k w (tile n v (r / p) (r % p)) (tile n u (r / p) (r % p)) α).value b =
      some (tile n (fun a c => α * advection .dirichlet (p * n) h (fun a c => v a c * u a c) a c) (r / p) (r % p)) := by
  obtain ⟨hY, hX⟩ := ctx_lt C
  dsimp only [nonLinAdvecDirichlet]
  refine cells_eq C.world.n fun j hj i hi => ?_
  have R := xReads (bc := .dirichlet) C (by simp) hb hj hi
  have S := yReads (bc := .dirichlet) C (by simp) hb hj hi
  have R' := xReads (bc := .dirichlet) C (by simp) hb' hj hi
  have S' := yReads (bc := .dirichlet) C (by simp) hb' hj hi
  simp only [C.world.n, C.world.procX, C.world.procY, C.world.procs, C.world.dx, neg_mul']
  rw [advD_x C.n2 hX hi (R.mul R' (by simp)), advD_y C.n2 hY hj (one_lt_size hp C.world) (S.mul S' (by simp))]
  simp only [add, Option.map_some, Option.bind_some, advection]

theorem advNeumann (C : Ctx false p n h r w) (hb : 2 ≤ p → Received p n r (fieldExch p n k false u) b) (α : ℝ) :
    (advectionNeumann k w (tile n u (r / p) (r % p)) α).value b =
      some (tile n (fun a c => α * advection .neumann (p * n) h u a c) (r / p) (r % p)) := by
  obtain ⟨hY, hX⟩ := ctx_lt C
  dsimp only [advectionNeumann]
  refine cells_eq C.world.n fun j hj i hi => ?_
  have R := xReads (bc := .neumann) C (by simp) hb hj hi
  have S := yReads (bc := .neumann) C (by simp) hb hj hi
  have h1 := advN_x C.n2 hX hi R
  have h2 := advN_x C.n2 hY hj S
  simp only [fourThirds] at h1 h2
  simp only [C.world.n, C.world.procX, C.world.procY, C.world.procs, C.world.dx]
  rw [h1, h2]
  simp only [add, Option.map_some, Option.bind_some, advection]

theorem advPeriodic (C : Ctx true p n h r w) (hb : 2 ≤ p → Received p n r (fieldExch p n k true u) b) (α : ℝ) :
    (advectionPeriodic k w (tile n u (r / p) (r % p)) α).value b =
      some (tile n (fun a c => α * advection .periodic (p * n) h u a c) (r / p) (r % p)) := by
  obtain ⟨hY, hX⟩ := ctx_lt C
  dsimp only [advectionPeriodic]
  refine cells_eq C.world.n fun j hj i hi => ?_
  have R := xReads (bc := .periodic) C (by simp) hb hj hi
  have S := yReads (bc := .periodic) C (by simp) hb hj hi
  simp only [C.world.n, C.world.dx]
  rw [advP_x C.n2 hX hi R, advP_x C.n2 hY hj S]
  simp only [add, Option.map_some, Option.bind_some, advection]

theorem advSquared (C : Ctx true p n h r w) (hb : 2 ≤ p → Received p n r (fieldExch p n k true u) b) :
    (advectionUsquared k w (tile n u (r / p) (r % p))).value b =
      some (tile n (fun a c => advection .periodic (p * n) h (fun a c => u a c ^ 2) a c / 2) (r / p) (r % p)) := by
  obtain ⟨hY, hX⟩ := ctx_lt C
  dsimp only [advectionUsquared]
  refine cells_eq C.world.n fun j hj i hi => ?_
  have R := xReads (bc := .periodic) C (by simp) hb hj hi
  have S := yReads (bc := .periodic) C (by simp) hb hj hi
  simp only [C.world.n, C.world.dx]
  rw [advP_x C.n2 hX hi (R.sq (by simp)), advP_x C.n2 hY hj (S.sq (by simp))]
  simp only [add, Option.map_some, Option.bind_some, advection, Option.some.injEq]
  rw [div_div]
  congr 1
  ring

theorem advProduct (C : Ctx true p n h r w) (hb : 2 ≤ p → Received p n r (fieldExch p n k true v) b)
    (hb' : 2 ≤ p → Received p n r (fieldExch p n (k + 1) true u) b) (α : ℝ) :
    (nonLinAdvecPeriodic k w (tile n v (r / p) (r % p)) (tile n u (r / p) (r % p)) α).value b =
      some (tile n (fun a c => α * advection .periodic (p * n) h (fun a c => v a c * u a c) a c) (r / p) (r % p)) := by
  obtain ⟨hY, hX⟩ := ctx_lt C
  dsimp only [nonLinAdvecPeriodic]
  refine cells_eq C.world.n fun j hj i hi => ?_
  have R := xReads (bc := .periodic) C (by simp) hb hj hi
  have S := yReads (bc := .periodic) C (by simp) hb hj hi
  have R' := xReads (bc := .periodic) C (by simp) hb' hj hi
  have S' := yReads (bc := .periodic) C (by simp) hb' hj hi
  simp only [C.world.n, C.world.dx]
  rw [advP_x C.n2 hX hi (R.mul R' (by simp)), advP_x C.n2 hY hj (S.mul S' (by simp))]
  simp only [add, Option.map_some, Option.bind_some, advection]

end Operators

end

end WxVerif.StiffPdes
