import Verif.Model.StiffPdes
import Verif.Spec.StiffPdes
import Verif.Lemmas.Messages
import Verif.Lemmas.Gather
import Mathlib.Data.List.GetD
import Mathlib.Tactic.Ring
import Mathlib.Tactic.Linarith

/-!
The exchange of rows and columns is the projection of one sequence of messages; what the buffers contain afterwards.
-/

namespace WxVerif.StiffPdes

open WxVerif.Messages WxVerif.Spec.StiffPdes

/-! ## The worlds -/

/-- what a world of `p × p` processes contains -/
structure IsWorld (per : Bool) (p n r : Nat) (h : ℝ) (w : World) : Prop where
  size : w.size = p * p
  procs : w.procs = p
  procY : w.procY = r / p
  procX : w.procX = r % p
  n : w.n = n
  dx : w.dx = h
  bottom : w.bottom = if r / p = 0 then (if per then some (p * (p - 1) + r % p) else none) else some ((r / p - 1) * p + r % p)
  top : w.top = if r / p = p - 1 then (if per then some (r - p * (p - 1)) else none) else some ((r / p + 1) * p + r % p)
  left : w.left = if r % p = 0 then (if per then some (r + (p - 1)) else none) else some (r - 1)
  right : w.right = if r % p = p - 1 then (if per then some (r - (p - 1)) else none) else some (r + 1)

theorem sqrt_sq (p : Nat) : Nat.sqrt (p * p) = p := Nat.sqrt_eq p

theorem isWorld {per : Bool} {xL xR : ℝ} {numPoints p n r : Nat} {w : World} (hn : pointsPerAxis per numPoints = p * n) (hp : 0 < p)
    (h : initWorld per xL xR numPoints (p * p) r = some w) : IsWorld per p n r ((xR - xL) / ((numPoints : ℝ) - 1)) w := by
  unfold initWorld at h
  simp only [sqrt_sq] at h
  rw [if_neg (by rw [Nat.pow_two]; simp)] at h
  cases h
  refine ⟨rfl, rfl, rfl, rfl, ?_, rfl, rfl, rfl, rfl, rfl⟩
  simp only [hn]
  exact Nat.mul_div_cancel_left n hp

/-! ## Sequences of messages -/

def vert (p a b : Nat) : Nat := a * p + b
def horiz (p a b : Nat) : Nat := b * p + a

theorem vert_inj {p a b a' b' : Nat} (hb : b < p) (hb' : b' < p) (h : vert p a b = vert p a' b') : a = a' ∧ b = b' := by
  unfold vert at h
  have h1 : (a * p + b) / p = a := by rw [Nat.mul_comm, Nat.mul_add_div (by omega), Nat.div_eq_of_lt hb, Nat.add_zero]
  have h2 : (a' * p + b') / p = a' := by rw [Nat.mul_comm, Nat.mul_add_div (by omega), Nat.div_eq_of_lt hb', Nat.add_zero]
  have h3 : a = a' := by rw [← h1, ← h2, h]
  subst h3
  exact ⟨rfl, by omega⟩

theorem horiz_inj {p a b a' b' : Nat} (ha : a < p) (ha' : a' < p) (h : horiz p a b = horiz p a' b') : a = a' ∧ b = b' :=
  let ⟨h1, h2⟩ := vert_inj ha ha' h
  ⟨h2, h1⟩

/-- messages from line `q.1` to line `q.2` of the processes, for the pairs of a list -/
def phase (idx : Nat → Nat → Nat) (order : List (Nat × Nat)) (p tag : Nat) (data : Nat → List ℝ) (buf : Buf) : List (Msg (List ℝ) Buf) :=
  order.flatMap fun q => (List.range p).map fun b => ⟨idx q.1 b, idx q.2 b, tag, data (idx q.1 b), buf⟩

def up (p : Nat) : List (Nat × Nat) := (List.range (p - 1)).map fun y => (y + 1, y)
def down (p : Nat) : List (Nat × Nat) := (List.range (p - 1)).reverse.map fun y => (y, y + 1)

theorem flatMap_single {γ : Type} (g : Nat → List γ) (p B : Nat) (hB : B < p) (h : ∀ b < p, b ≠ B → g b = []) :
    (List.range p).flatMap g = g B := by
  induction p with
  | zero => omega
  | succ p ih =>
    rw [List.range_succ, List.flatMap_append]
    simp only [List.flatMap_cons, List.flatMap_nil, List.append_nil]
    by_cases hp : p = B
    · subst hp
      rw [flatMap_nil (fun b hb => h b (by have := List.mem_range.1 hb; omega) (by have := List.mem_range.1 hb; omega)), List.nil_append]
    · rw [ih (by omega) fun b hb hne => h b (by omega) hne, h p (by omega) hp, List.append_nil]

theorem project_append {α β : Type} (L L' : List (Msg α β)) (r : Nat) : project (L ++ L') r = project L r ++ project L' r := by
  simp [project]

theorem project_flatMap {α β γ : Type} (l : List γ) (f : γ → List (Msg α β)) (r : Nat) :
    project (l.flatMap f) r = l.flatMap fun x => project (f x) r := by
  induction l with
  | nil => rfl
  | cons x l ih => rw [List.flatMap_cons, project_append, ih, List.flatMap_cons]

theorem project_phase {idx : Nat → Nat → Nat} {order : List (Nat × Nat)} {p tag : Nat} {data : Nat → List ℝ} {buf : Buf}
    (hinj : ∀ a b a' b', a < p → b < p → a' < p → b' < p → idx a b = idx a' b' → a = a' ∧ b = b')
    (hord : ∀ q ∈ order, q.1 < p ∧ q.2 < p) {A B : Nat} (hA : A < p) (hB : B < p) :
    project (phase idx order p tag data buf) (idx A B) = order.flatMap fun q =>
      if q.1 = A then [.send (some (idx q.2 B)) tag (data (idx A B))] else if q.2 = A then [.recv (some (idx q.1 B)) tag buf] else [] := by
  unfold phase
  rw [project_flatMap]
  refine List.flatMap_congr fun q hq => ?_
  obtain ⟨h1, h2⟩ := hord q hq
  unfold project
  rw [List.flatMap_map, flatMap_single _ p B hB]
  · simp only [rem, true_and, Nat.zero_lt_two]
    by_cases e1 : q.1 = A
    · rw [if_pos (by rw [e1]), if_pos e1, e1]
    · rw [if_neg fun e => e1 (hinj _ _ _ _ h1 hB hA hB e).1, if_neg e1]
      by_cases e2 : q.2 = A
      · rw [if_pos (by rw [e2]), if_pos e2]
      · rw [if_neg fun e => e2 (hinj _ _ _ _ h2 hB hA hB e).1, if_neg e2]
  · intro b hb hne
    simp only [rem, true_and, Nat.zero_lt_two]
    rw [if_neg fun e => hne (hinj _ _ _ _ h1 hb hA hB e).2, if_neg fun e => hne (hinj _ _ _ _ h2 hb hA hB e).2]

theorem up_flat {γ : Type} (S R : Nat → List γ) (m A : Nat) :
    (((List.range m).map fun y => (y + 1, y)).flatMap fun q => if q.1 = A then S q.2 else if q.2 = A then R q.1 else []) =
      (if 0 < A ∧ A ≤ m then S (A - 1) else []) ++ (if A < m then R (A + 1) else []) := by
  induction m with
  | zero => rw [if_neg (by omega), if_neg (by omega)]; rfl
  | succ m ih =>
    rw [List.range_succ, List.map_append, List.flatMap_append, ih]
    simp only [List.map_cons, List.map_nil, List.flatMap_cons, List.flatMap_nil, List.append_nil]
    by_cases h1 : m + 1 = A
    · rw [if_neg (by omega), if_neg (by omega), if_pos h1, if_pos (by omega), if_neg (by omega), ← h1]; simp
    · by_cases h2 : m = A
      · subst h2
        rcases Nat.eq_zero_or_pos m with rfl | h3 <;> simp [*]
      · rw [if_neg h1, if_neg h2, List.append_nil]
        congr 1
        · by_cases h3 : 0 < A ∧ A ≤ m
          · rw [if_pos h3, if_pos (by omega)]
          · rw [if_neg h3, if_neg (by omega)]
        · by_cases h3 : A < m
          · rw [if_pos h3, if_pos (by omega)]
          · rw [if_neg h3, if_neg (by omega)]

theorem down_flat {γ : Type} (S R : Nat → List γ) (m A : Nat) :
    (((List.range m).reverse.map fun y => (y, y + 1)).flatMap fun q => if q.1 = A then S q.2 else if q.2 = A then R q.1 else []) =
      (if A < m then S (A + 1) else []) ++ (if 0 < A ∧ A ≤ m then R (A - 1) else []) := by
  induction m with
  | zero => rw [if_neg (by omega), if_neg (by omega)]; rfl
  | succ m ih =>
    rw [List.range_succ, List.reverse_append, List.reverse_singleton, List.singleton_append, List.map_cons, List.flatMap_cons, ih]
    simp only
    by_cases h1 : m = A
    · rw [if_pos h1, if_neg (by omega), if_pos (show A < m + 1 by omega), h1]
      by_cases h3 : 0 < A
      · rw [if_pos (by omega), if_pos (by omega)]; simp
      · rw [if_neg (by omega), if_neg (by omega)]; simp
    · by_cases h2 : m + 1 = A
      · rw [if_neg h1, if_pos h2, if_neg (by omega), if_neg (by omega), if_neg (by omega), if_pos (by omega), ← h2]; simp
      · rw [if_neg h1, if_neg h2, List.nil_append]
        congr 1
        · by_cases h3 : A < m
          · rw [if_pos h3, if_pos (by omega)]
          · rw [if_neg h3, if_neg (by omega)]
        · by_cases h3 : 0 < A ∧ A ≤ m
          · rw [if_pos h3, if_pos (by omega)]
          · rw [if_neg h3, if_neg (by omega)]

/-- one exchange: number of the buffers, periodic or not, and the arrays of the processes -/
structure Exch where
  k : Nat
  per : Bool
  V : Nat → List ℝ

noncomputable section

def firstRow (n : Nat) (v : List ℝ) : List ℝ := slice v 0 n
def lastRow (n : Nat) (v : List ℝ) : List ℝ := slice v (n * (n - 1)) (n * n)
def firstCol (n : Nat) (v : List ℝ) : List ℝ := (List.range n).map fun i => v.getD (n * i) 0
def lastCol (n : Nat) (v : List ℝ) : List ℝ := (List.range n).map fun i => v.getD (n * (i + 1) - 1) 0

/-- the messages of `getNeighData` -/
def inside (p n : Nat) (e : Exch) : List (Msg (List ℝ) Buf) :=
  phase (vert p) (up p) p 24 (fun r => firstRow n (e.V r)) (e.k, .top) ++ phase (vert p) (down p) p 25 (fun r => lastRow n (e.V r)) (e.k, .bottom) ++
  phase (horiz p) (down p) p 32 (fun r => lastCol n (e.V r)) (e.k, .left) ++ phase (horiz p) (up p) p 34 (fun r => firstCol n (e.V r)) (e.k, .right)

/-- the messages of `getExtraPeriodicData` -/
def around (p n : Nat) (e : Exch) : List (Msg (List ℝ) Buf) :=
  phase (vert p) [(0, p - 1)] p 24 (fun r => firstRow n (e.V r)) (e.k, .top) ++
  phase (vert p) [(p - 1, 0)] p 25 (fun r => lastRow n (e.V r)) (e.k, .bottom) ++
  phase (horiz p) [(p - 1, 0)] p 32 (fun r => lastCol n (e.V r)) (e.k, .left) ++
  phase (horiz p) [(0, p - 1)] p 34 (fun r => firstCol n (e.V r)) (e.k, .right)

def messages (p n : Nat) (E : List Exch) : List (Msg (List ℝ) Buf) :=
  E.flatMap fun e => inside p n e ++ if e.per then around p n e else []

/-- the calls of one process -/
def exchanges (w : World) (r : Nat) (E : List Exch) : Calls :=
  E.flatMap fun e => getNeighData w (e.V r) e.k ++ if e.per then getExtraPeriodicData w (e.V r) e.k else []

theorem up_mem {p : Nat} : ∀ q ∈ up p, q.1 < p ∧ q.2 < p := by
  intro q hq
  simp only [up, List.mem_map, List.mem_range] at hq
  obtain ⟨y, hy, rfl⟩ := hq
  exact ⟨by simp only; omega, by simp only; omega⟩

theorem down_mem {p : Nat} : ∀ q ∈ down p, q.1 < p ∧ q.2 < p := by
  intro q hq
  simp only [down, List.mem_map, List.mem_reverse, List.mem_range] at hq
  obtain ⟨y, hy, rfl⟩ := hq
  exact ⟨by simp only; omega, by simp only; omega⟩

theorem vert_inj' {p : Nat} : ∀ a b a' b', a < p → b < p → a' < p → b' < p → vert p a b = vert p a' b' → a = a' ∧ b = b' :=
  fun _ _ _ _ _ hb _ hb' h => vert_inj hb hb' h

theorem horiz_inj' {p : Nat} : ∀ a b a' b', a < p → b < p → a' < p → b' < p → horiz p a b = horiz p a' b' → a = a' ∧ b = b' :=
  fun _ _ _ _ ha _ ha' _ h => horiz_inj ha ha' h

theorem inside_project {per : Bool} {p n r : Nat} {h : ℝ} {w : World} (hw : IsWorld per p n r h w) (hr : r < p * p) (e : Exch) :
    project (inside p n e) r = getNeighData w (e.V r) e.k := by
  have hp : 0 < p := Nat.pos_of_ne_zero fun h0 => by subst h0; omega
  have hY : r / p < p := Nat.div_lt_of_lt_mul hr
  have hX : r % p < p := Nat.mod_lt _ hp
  have ev : r = vert p (r / p) (r % p) := by unfold vert; rw [Nat.mul_comm]; exact (Nat.div_add_mod r p).symm
  have eh : r = horiz p (r % p) (r / p) := by unfold horiz; rw [Nat.mul_comm]; exact (Nat.div_add_mod r p).symm
  generalize hYg : r / p = Y at *
  generalize hXg : r % p = X at *
  have P1 := project_phase (idx := vert p) (order := up p) (tag := 24) (data := fun r => firstRow n (e.V r)) (buf := (e.k, .top)) vert_inj' up_mem hY hX
  have P2 := project_phase (idx := vert p) (order := down p) (tag := 25) (data := fun r => lastRow n (e.V r)) (buf := (e.k, .bottom)) vert_inj' down_mem hY hX
  have P3 := project_phase (idx := horiz p) (order := down p) (tag := 32) (data := fun r => lastCol n (e.V r)) (buf := (e.k, .left)) horiz_inj' down_mem hX hY
  have P4 := project_phase (idx := horiz p) (order := up p) (tag := 34) (data := fun r => firstCol n (e.V r)) (buf := (e.k, .right)) horiz_inj' up_mem hX hY
  rw [← ev] at P1 P2
  rw [← eh] at P3 P4
  unfold up at P1 P4
  unfold down at P2 P3
  replace P1 := P1.trans (up_flat (fun d => [Act.send (some (vert p d X)) 24 (firstRow n (e.V r))]) (fun s => [Act.recv (some (vert p s X)) 24 (e.k, Side.top)]) (p - 1) Y)
  replace P2 := P2.trans (down_flat (fun d => [Act.send (some (vert p d X)) 25 (lastRow n (e.V r))]) (fun s => [Act.recv (some (vert p s X)) 25 (e.k, Side.bottom)]) (p - 1) Y)
  replace P3 := P3.trans (down_flat (fun d => [Act.send (some (horiz p d Y)) 32 (lastCol n (e.V r))]) (fun s => [Act.recv (some (horiz p s Y)) 32 (e.k, Side.left)]) (p - 1) X)
  replace P4 := P4.trans (up_flat (fun d => [Act.send (some (horiz p d Y)) 34 (firstCol n (e.V r))]) (fun s => [Act.recv (some (horiz p s Y)) 34 (e.k, Side.right)]) (p - 1) X)
  unfold inside getNeighData
  rw [project_append, project_append, project_append]
  unfold up down
  rw [P1, P2, P3, P4]
  simp only [sendData, receiveData, hw.procY, hw.procX, hw.procs, hw.n, hYg, hXg]
  have b1 : 0 < Y → w.bottom = some (vert p (Y - 1) X) := fun h => by rw [hw.bottom, hYg, hXg, if_neg (by omega)]; rfl
  have b2 : Y < p - 1 → w.top = some (vert p (Y + 1) X) := fun h => by rw [hw.top, hYg, hXg, if_neg (by omega)]; rfl
  have b3 : 0 < X → w.left = some (horiz p (X - 1) Y) := fun h => by
    rw [hw.left, hXg, if_neg (by omega)]; unfold horiz at *; congr 1; omega
  have b4 : X < p - 1 → w.right = some (horiz p (X + 1) Y) := fun h => by
    rw [hw.right, hXg, if_neg (by omega)]; unfold horiz at *; congr 1; omega
  have c1 : ∀ s : List (Act (List ℝ) Buf), (if 0 < Y ∧ Y ≤ p - 1 then s else []) = if Y > 0 then s else [] := fun s => by
    by_cases h : 0 < Y
    · rw [if_pos (by omega), if_pos h]
    · rw [if_neg (by omega), if_neg (by omega)]
  have c2 : ∀ s : List (Act (List ℝ) Buf), (if 0 < X ∧ X ≤ p - 1 then s else []) = if X > 0 then s else [] := fun s => by
    by_cases h : 0 < X
    · rw [if_pos (by omega), if_pos h]
    · rw [if_neg (by omega), if_neg (by omega)]
  rw [c1, c1, c2, c2]
  have l1 : lastColumn w (e.V r) = lastCol n (e.V r) := by unfold lastColumn lastCol; rw [hw.n]
  have l2 : firstColumn w (e.V r) = firstCol n (e.V r) := by unfold firstColumn firstCol; rw [hw.n]
  rw [l1, l2]
  unfold firstRow lastRow
  congr 1
  · congr 1
    · congr 1
      · congr 1
        · by_cases h : Y > 0
          · rw [if_pos h, if_pos h, b1 h]
          · rw [if_neg h, if_neg h]
        · by_cases h : Y < p - 1
          · rw [if_pos h, if_pos h, b2 h]
          · rw [if_neg h, if_neg h]
      · congr 1
        · by_cases h : Y < p - 1
          · rw [if_pos h, if_pos h, b2 h]
          · rw [if_neg h, if_neg h]
        · by_cases h : Y > 0
          · rw [if_pos h, if_pos h, b1 h]
          · rw [if_neg h, if_neg h]
    · congr 1
      · by_cases h : X < p - 1
        · rw [if_pos h, if_pos h, b4 h]
        · rw [if_neg h, if_neg h]
      · by_cases h : X > 0
        · rw [if_pos h, if_pos h, b3 h]
        · rw [if_neg h, if_neg h]
  · congr 1
    · by_cases h : X > 0
      · rw [if_pos h, if_pos h, b3 h]
      · rw [if_neg h, if_neg h]
    · by_cases h : X < p - 1
      · rw [if_pos h, if_pos h, b4 h]
      · rw [if_neg h, if_neg h]

theorem around_project {p n r : Nat} {h : ℝ} {w : World} (hp2 : 2 ≤ p) (hw : IsWorld true p n r h w) (hr : r < p * p) (e : Exch) :
    project (around p n e) r = getExtraPeriodicData w (e.V r) e.k := by
  have hY : r / p < p := Nat.div_lt_of_lt_mul hr
  have hX : r % p < p := Nat.mod_lt _ (by omega)
  have ev : r = vert p (r / p) (r % p) := by unfold vert; rw [Nat.mul_comm]; exact (Nat.div_add_mod r p).symm
  have eh : r = horiz p (r % p) (r / p) := by unfold horiz; rw [Nat.mul_comm]; exact (Nat.div_add_mod r p).symm
  generalize hYg : r / p = Y at *
  generalize hXg : r % p = X at *
  have m1 : ∀ q ∈ [(0, p - 1)], q.1 < p ∧ q.2 < p := by simp; omega
  have m2 : ∀ q ∈ [(p - 1, 0)], q.1 < p ∧ q.2 < p := by simp; omega
  have P1 := project_phase (idx := vert p) (order := [(0, p - 1)]) (tag := 24) (data := fun r => firstRow n (e.V r)) (buf := (e.k, .top)) vert_inj' m1 hY hX
  have P2 := project_phase (idx := vert p) (order := [(p - 1, 0)]) (tag := 25) (data := fun r => lastRow n (e.V r)) (buf := (e.k, .bottom)) vert_inj' m2 hY hX
  have P3 := project_phase (idx := horiz p) (order := [(p - 1, 0)]) (tag := 32) (data := fun r => lastCol n (e.V r)) (buf := (e.k, .left)) horiz_inj' m2 hX hY
  have P4 := project_phase (idx := horiz p) (order := [(0, p - 1)]) (tag := 34) (data := fun r => firstCol n (e.V r)) (buf := (e.k, .right)) horiz_inj' m1 hX hY
  rw [← ev] at P1 P2
  rw [← eh] at P3 P4
  unfold around getExtraPeriodicData
  rw [project_append, project_append, project_append, P1, P2, P3, P4]
  simp only [List.flatMap_cons, List.flatMap_nil, List.append_nil, sendPerData, receivePerData, hw.procY, hw.procX, hw.procs, hw.n, hYg, hXg]
  have b1 : Y = 0 → w.bottom = some (vert p (p - 1) X) := fun h => by
    rw [hw.bottom, hYg, hXg, if_pos h, if_pos rfl]; unfold vert; rw [Nat.mul_comm]
  have b2 : Y = p - 1 → w.top = some (vert p 0 X) := fun h => by
    rw [hw.top, hYg, if_pos h, if_pos rfl, ev, h]; unfold vert; congr 1; rw [Nat.mul_comm]; omega
  have b3 : X = 0 → w.left = some (horiz p (p - 1) Y) := fun h => by
    rw [hw.left, hXg, if_pos h, if_pos rfl, eh, h]; unfold horiz; congr 1
  have b4 : X = p - 1 → w.right = some (horiz p 0 Y) := fun h => by
    rw [hw.right, hXg, if_pos h, if_pos rfl, eh, h]; unfold horiz; congr 1; omega
  have l1 : lastColumn w (e.V r) = lastCol n (e.V r) := by unfold lastColumn lastCol; rw [hw.n]
  have l2 : firstColumn w (e.V r) = firstCol n (e.V r) := by unfold firstColumn firstCol; rw [hw.n]
  rw [l1, l2]
  unfold firstRow lastRow
  congr 1
  · congr 1
    · congr 1
      · by_cases h : Y = 0
        · rw [if_pos h.symm, if_pos h, if_neg (by omega), b1 h]; simp
        · rw [if_neg (Ne.symm h), if_neg h]
          by_cases h' : Y = p - 1
          · rw [if_pos h'.symm, if_pos h', b2 h']; simp
          · rw [if_neg (Ne.symm h'), if_neg h']; simp
      · by_cases h : Y = p - 1
        · rw [if_pos h.symm, if_pos h, if_neg (by omega), b2 h]; simp
        · rw [if_neg (Ne.symm h), if_neg h]
          by_cases h' : Y = 0
          · rw [if_pos h'.symm, if_pos h', b1 h']; simp
          · rw [if_neg (Ne.symm h'), if_neg h']; simp
    · by_cases h : X = p - 1
      · rw [if_pos h.symm, if_pos h, if_neg (by omega), b4 h]; simp
      · rw [if_neg (Ne.symm h), if_neg h]
        by_cases h' : X = 0
        · rw [if_pos h'.symm, if_pos h', b3 h']; simp
        · rw [if_neg (Ne.symm h'), if_neg h']; simp
  · by_cases h : X = 0
    · rw [if_pos h.symm, if_pos h, if_neg (by omega), b3 h]; simp
    · rw [if_neg (Ne.symm h), if_neg h]
      by_cases h' : X = p - 1
      · rw [if_pos h'.symm, if_pos h', b4 h']; simp
      · rw [if_neg (Ne.symm h'), if_neg h']; simp

theorem mem_phase {idx : Nat → Nat → Nat} {order : List (Nat × Nat)} {p tag : Nat} {data : Nat → List ℝ} {buf : Buf} {m : Msg (List ℝ) Buf} :
    m ∈ phase idx order p tag data buf ↔ ∃ q ∈ order, ∃ b < p, m = ⟨idx q.1 b, idx q.2 b, tag, data (idx q.1 b), buf⟩ := by
  simp only [phase, List.mem_flatMap, List.mem_map, List.mem_range]
  constructor
  · rintro ⟨q, hq, b, hb, rfl⟩; exact ⟨q, hq, b, hb, rfl⟩
  · rintro ⟨q, hq, b, hb, rfl⟩; exact ⟨q, hq, b, hb, rfl⟩

theorem vert_lt {p a b : Nat} (ha : a < p) (hb : b < p) : vert p a b < p * p := by
  unfold vert
  calc a * p + b < a * p + p := by omega
    _ = (a + 1) * p := by rw [Nat.succ_mul]
    _ ≤ p * p := Nat.mul_le_mul_right p ha

theorem horiz_lt {p a b : Nat} (ha : a < p) (hb : b < p) : horiz p a b < p * p := vert_lt hb ha

theorem up_iff {p : Nat} {q : Nat × Nat} : q ∈ up p ↔ q.2 + 1 < p ∧ q.1 = q.2 + 1 := by
  simp only [up, List.mem_map, List.mem_range]
  constructor
  · rintro ⟨y, hy, rfl⟩; exact ⟨by simp only; omega, rfl⟩
  · rintro ⟨h1, h2⟩; exact ⟨q.2, by omega, by rw [← h2]⟩

theorem down_iff {p : Nat} {q : Nat × Nat} : q ∈ down p ↔ q.1 + 1 < p ∧ q.2 = q.1 + 1 := by
  simp only [down, List.mem_map, List.mem_reverse, List.mem_range]
  constructor
  · rintro ⟨y, hy, rfl⟩; exact ⟨by simp only; omega, rfl⟩
  · rintro ⟨h1, h2⟩; exact ⟨q.1, by omega, by rw [← h2]⟩

/-- who sends what to whom -/
theorem mem_messages {p n : Nat} {E : List Exch} {m : Msg (List ℝ) Buf} (h : m ∈ messages p n E) : ∃ e ∈ E, ∃ A B C, A < p ∧ B < p ∧ C < p ∧
    ((m = ⟨vert p A B, vert p C B, 24, firstRow n (e.V (vert p A B)), (e.k, .top)⟩ ∧ (A = C + 1 ∨ (e.per = true ∧ A = 0 ∧ C = p - 1))) ∨
     (m = ⟨vert p A B, vert p C B, 25, lastRow n (e.V (vert p A B)), (e.k, .bottom)⟩ ∧ (C = A + 1 ∨ (e.per = true ∧ A = p - 1 ∧ C = 0))) ∨
     (m = ⟨horiz p A B, horiz p C B, 32, lastCol n (e.V (horiz p A B)), (e.k, .left)⟩ ∧ (C = A + 1 ∨ (e.per = true ∧ A = p - 1 ∧ C = 0))) ∨
     (m = ⟨horiz p A B, horiz p C B, 34, firstCol n (e.V (horiz p A B)), (e.k, .right)⟩ ∧ (A = C + 1 ∨ (e.per = true ∧ A = 0 ∧ C = p - 1)))) := by
  simp only [messages, List.mem_flatMap] at h
  obtain ⟨e, he, h⟩ := h
  refine ⟨e, he, ?_⟩
  have key : m ∈ inside p n e ∨ (e.per = true ∧ m ∈ around p n e) := by
    rcases List.mem_append.1 h with h | h
    · exact Or.inl h
    · split_ifs at h with hp
      · exact Or.inr ⟨hp, h⟩
      · simp at h
  rcases key with h | ⟨hper, h⟩
  · simp only [inside, List.mem_append, mem_phase] at h
    rcases h with ((⟨⟨A, C⟩, hq, B, hB, hm⟩ | ⟨⟨A, C⟩, hq, B, hB, hm⟩) | ⟨⟨A, C⟩, hq, B, hB, hm⟩) | ⟨⟨A, C⟩, hq, B, hB, hm⟩
    · have := up_iff.1 hq; simp only at this
      exact ⟨A, B, C, by omega, hB, by omega, Or.inl ⟨hm, Or.inl this.2⟩⟩
    · have := down_iff.1 hq; simp only at this
      exact ⟨A, B, C, by omega, hB, by omega, Or.inr (Or.inl ⟨hm, Or.inl this.2⟩)⟩
    · have := down_iff.1 hq; simp only at this
      exact ⟨A, B, C, by omega, hB, by omega, Or.inr (Or.inr (Or.inl ⟨hm, Or.inl this.2⟩))⟩
    · have := up_iff.1 hq; simp only at this
      exact ⟨A, B, C, by omega, hB, by omega, Or.inr (Or.inr (Or.inr ⟨hm, Or.inl this.2⟩))⟩
  · simp only [around, List.mem_append, mem_phase, List.mem_singleton] at h
    rcases h with ((⟨_, rfl, B, hB, hm⟩ | ⟨_, rfl, B, hB, hm⟩) | ⟨_, rfl, B, hB, hm⟩) | ⟨_, rfl, B, hB, hm⟩
    · exact ⟨0, B, p - 1, by omega, hB, by omega, Or.inl ⟨hm, Or.inr ⟨hper, rfl, rfl⟩⟩⟩
    · exact ⟨p - 1, B, 0, by omega, hB, by omega, Or.inr (Or.inl ⟨hm, Or.inr ⟨hper, rfl, rfl⟩⟩)⟩
    · exact ⟨p - 1, B, 0, by omega, hB, by omega, Or.inr (Or.inr (Or.inl ⟨hm, Or.inr ⟨hper, rfl, rfl⟩⟩))⟩
    · exact ⟨0, B, p - 1, by omega, hB, by omega, Or.inr (Or.inr (Or.inr ⟨hm, Or.inr ⟨hper, rfl, rfl⟩⟩))⟩

theorem messages_ne {p n : Nat} {E : List Exch} (hper : ∀ e ∈ E, e.per = true → 2 ≤ p) : ∀ m ∈ messages p n E, m.src ≠ m.dst := by
  intro m hm
  obtain ⟨e, he, A, B, C, hA, hB, hC, h⟩ := mem_messages hm
  have hAC : (A = C + 1 ∨ (e.per = true ∧ A = 0 ∧ C = p - 1)) ∨ (C = A + 1 ∨ (e.per = true ∧ A = p - 1 ∧ C = 0)) → A ≠ C := by
    rintro ((h | ⟨h1, h2, h3⟩) | (h | ⟨h1, h2, h3⟩))
    · omega
    · have := hper e he h1; omega
    · omega
    · have := hper e he h1; omega
  rcases h with ⟨rfl, h⟩ | ⟨rfl, h⟩ | ⟨rfl, h⟩ | ⟨rfl, h⟩
  · exact fun e' => hAC (Or.inl h) (vert_inj hB hB e').1
  · exact fun e' => hAC (Or.inr h) (vert_inj hB hB e').1
  · exact fun e' => hAC (Or.inr h) (horiz_inj hA hC e').1
  · exact fun e' => hAC (Or.inl h) (horiz_inj hA hC e').1

theorem messages_lt {p n : Nat} {E : List Exch} : ∀ m ∈ messages p n E, m.src < p * p ∧ m.dst < p * p := by
  intro m hm
  obtain ⟨e, he, A, B, C, hA, hB, hC, h⟩ := mem_messages hm
  rcases h with ⟨rfl, -⟩ | ⟨rfl, -⟩ | ⟨rfl, -⟩ | ⟨rfl, -⟩
  · exact ⟨vert_lt hA hB, vert_lt hC hB⟩
  · exact ⟨vert_lt hA hB, vert_lt hC hB⟩
  · exact ⟨horiz_lt hA hB, horiz_lt hC hB⟩
  · exact ⟨horiz_lt hA hB, horiz_lt hC hB⟩

/-- the calls of all processes -/
theorem exchanges_project {per : Bool} {p n : Nat} {h : ℝ} {W : Nat → World} (hW : ∀ r < p * p, IsWorld per p n r h (W r)) {E : List Exch}
    (hper : ∀ e ∈ E, e.per = true → 2 ≤ p ∧ per = true) :
    (fun r => if r < p * p then exchanges (W r) r E else []) = project (messages p n E) := by
  funext r
  by_cases hr : r < p * p
  · rw [if_pos hr]
    unfold messages exchanges
    rw [project_flatMap]
    refine List.flatMap_congr fun e he => ?_
    rw [project_append, inside_project (hW r hr) hr]
    congr 1
    by_cases hp : e.per = true
    · obtain ⟨h2, rfl⟩ := hper e he hp
      rw [if_pos hp, if_pos hp, around_project h2 (hW r hr) hr]
    · rw [if_neg hp, if_neg hp]; rfl
  · rw [if_neg hr]
    unfold project
    refine (flatMap_nil fun m hm => ?_).symm
    have := messages_lt m hm
    unfold rem
    rw [if_neg (by simp only; omega), if_neg (by simp only; omega)]

theorem deliver_some {buf : Nat → Buf → List ℝ} {L : List (Msg (List ℝ) Buf)} {r : Nat} {b : Buf} {D : List ℝ}
    (hD : ∀ m ∈ L, m.dst = r → m.buf = b → m.data = D) (hex : ∃ m ∈ L, m.dst = r ∧ m.buf = b) : deliverAll buf L r b = D := by
  unfold deliverAll
  generalize buf r b = a
  have key : ∀ (L : List (Msg (List ℝ) Buf)) (a : List ℝ), (∀ m ∈ L, m.dst = r → m.buf = b → m.data = D) → (a = D ∨ ∃ m ∈ L, m.dst = r ∧ m.buf = b) →
      L.foldl (fun a m => if m.dst = r ∧ m.buf = b then m.data else a) a = D := by
    intro L
    induction L with
    | nil =>
      rintro a - (h | ⟨m, hm, -⟩)
      · exact h
      · simp at hm
    | cons m L ih =>
      intro a h1 h2
      rw [List.foldl_cons]
      refine ih _ (fun m' hm' => h1 m' (List.mem_cons_of_mem _ hm')) ?_
      by_cases hm : m.dst = r ∧ m.buf = b
      · rw [if_pos hm]; exact Or.inl (h1 m List.mem_cons_self hm.1 hm.2)
      · rw [if_neg hm]
        rcases h2 with h2 | ⟨m', hm', h2⟩
        · exact Or.inl h2
        · rcases List.mem_cons.1 hm' with rfl | hm'
          · exact absurd h2 hm
          · exact Or.inr ⟨m', hm', h2⟩
  exact key L a hD (Or.inr hex)

/-- what a process has received -/
structure Received (p n r : Nat) (e : Exch) (b : Buf → List ℝ) : Prop where
  top : r / p + 1 < p → b (e.k, .top) = firstRow n (e.V (vert p (r / p + 1) (r % p)))
  topPer : e.per = true → r / p + 1 = p → b (e.k, .top) = firstRow n (e.V (vert p 0 (r % p)))
  bottom : 0 < r / p → b (e.k, .bottom) = lastRow n (e.V (vert p (r / p - 1) (r % p)))
  bottomPer : e.per = true → r / p = 0 → b (e.k, .bottom) = lastRow n (e.V (vert p (p - 1) (r % p)))
  left : 0 < r % p → b (e.k, .left) = lastCol n (e.V (horiz p (r % p - 1) (r / p)))
  leftPer : e.per = true → r % p = 0 → b (e.k, .left) = lastCol n (e.V (horiz p (p - 1) (r / p)))
  right : r % p + 1 < p → b (e.k, .right) = firstCol n (e.V (horiz p (r % p + 1) (r / p)))
  rightPer : e.per = true → r % p + 1 = p → b (e.k, .right) = firstCol n (e.V (horiz p 0 (r / p)))

theorem mem_inside {p n : Nat} {E : List Exch} {e : Exch} (he : e ∈ E) {m : Msg (List ℝ) Buf} (h : m ∈ inside p n e) : m ∈ messages p n E :=
  List.mem_flatMap.2 ⟨e, he, List.mem_append_left _ h⟩

theorem mem_around {p n : Nat} {E : List Exch} {e : Exch} (he : e ∈ E) (hp : e.per = true) {m : Msg (List ℝ) Buf} (h : m ∈ around p n e) :
    m ∈ messages p n E :=
  List.mem_flatMap.2 ⟨e, he, List.mem_append_right _ (by rw [if_pos hp]; exact h)⟩

theorem received {p n : Nat} {E : List Exch} (hk : ∀ e ∈ E, ∀ e' ∈ E, e.k = e'.k → e = e') (buf : Nat → Buf → List ℝ) {r : Nat} (hr : r < p * p)
    {e : Exch} (he : e ∈ E) : Received p n r e (deliverAll buf (messages p n E) r) := by
  have hp : 0 < p := Nat.pos_of_ne_zero fun h0 => by subst h0; omega
  have hY : r / p < p := Nat.div_lt_of_lt_mul hr
  have hX : r % p < p := Nat.mod_lt _ hp
  have ev : r = vert p (r / p) (r % p) := by unfold vert; rw [Nat.mul_comm]; exact (Nat.div_add_mod r p).symm
  have eh : r = horiz p (r % p) (r / p) := by unfold horiz; rw [Nat.mul_comm]; exact (Nat.div_add_mod r p).symm
  constructor
  all_goals first | intro h1 h2 | intro h1
  all_goals generalize r / p = Y at *
  all_goals generalize r % p = X at *
  · refine deliver_some ?_ ⟨_, mem_inside he (List.mem_append_left _ (List.mem_append_left _ (List.mem_append_left _ (mem_phase.2
      ⟨(Y + 1, Y), up_iff.2 ⟨h1, rfl⟩, X, hX, rfl⟩)))), ev.symm, rfl⟩
    intro m hm hd hb
    obtain ⟨e', he', A, B, C, hA, hB, hC, h⟩ := mem_messages hm
    rcases h with ⟨rfl, h⟩ | ⟨rfl, h⟩ | ⟨rfl, h⟩ | ⟨rfl, h⟩ <;> simp only [Prod.mk.injEq, reduceCtorEq, and_false, and_true] at hb
    obtain rfl := hk _ he' _ he hb
    obtain ⟨rfl, rfl⟩ := vert_inj hB hX (hd.trans ev)
    rcases h with rfl | ⟨-, h3, h4⟩
    · rfl
    · omega
  · refine deliver_some ?_ ⟨_, mem_around he h1 (List.mem_append_left _ (List.mem_append_left _ (List.mem_append_left _ (mem_phase.2
      ⟨(0, p - 1), List.mem_singleton.2 rfl, X, hX, rfl⟩)))), by rw [ev, show Y = p - 1 by omega], rfl⟩
    intro m hm hd hb
    obtain ⟨e', he', A, B, C, hA, hB, hC, h⟩ := mem_messages hm
    rcases h with ⟨rfl, h⟩ | ⟨rfl, h⟩ | ⟨rfl, h⟩ | ⟨rfl, h⟩ <;> simp only [Prod.mk.injEq, reduceCtorEq, and_false, and_true] at hb
    obtain rfl := hk _ he' _ he hb
    obtain ⟨rfl, rfl⟩ := vert_inj hB hX (hd.trans ev)
    rcases h with rfl | ⟨-, rfl, h4⟩
    · omega
    · rfl
  · refine deliver_some ?_ ⟨_, mem_inside he (List.mem_append_left _ (List.mem_append_left _ (List.mem_append_right _ (mem_phase.2
      ⟨(Y - 1, Y), down_iff.2 ⟨by simp only; omega, by simp only; omega⟩, X, hX, rfl⟩)))), ev.symm, rfl⟩
    intro m hm hd hb
    obtain ⟨e', he', A, B, C, hA, hB, hC, h⟩ := mem_messages hm
    rcases h with ⟨rfl, h⟩ | ⟨rfl, h⟩ | ⟨rfl, h⟩ | ⟨rfl, h⟩ <;> simp only [Prod.mk.injEq, reduceCtorEq, and_false, and_true] at hb
    obtain rfl := hk _ he' _ he hb
    obtain ⟨rfl, rfl⟩ := vert_inj hB hX (hd.trans ev)
    rcases h with rfl | ⟨-, h3, h4⟩
    · rfl
    · omega
  · refine deliver_some ?_ ⟨_, mem_around he h1 (List.mem_append_left _ (List.mem_append_left _ (List.mem_append_right _ (mem_phase.2
      ⟨(p - 1, 0), List.mem_singleton.2 rfl, X, hX, rfl⟩)))), by rw [ev, h2], rfl⟩
    intro m hm hd hb
    obtain ⟨e', he', A, B, C, hA, hB, hC, h⟩ := mem_messages hm
    rcases h with ⟨rfl, h⟩ | ⟨rfl, h⟩ | ⟨rfl, h⟩ | ⟨rfl, h⟩ <;> simp only [Prod.mk.injEq, reduceCtorEq, and_false, and_true] at hb
    obtain rfl := hk _ he' _ he hb
    obtain ⟨rfl, rfl⟩ := vert_inj hB hX (hd.trans ev)
    rcases h with h | ⟨-, rfl, h4⟩
    · omega
    · rfl
  · refine deliver_some ?_ ⟨_, mem_inside he (List.mem_append_left _ (List.mem_append_right _ (mem_phase.2
      ⟨(X - 1, X), down_iff.2 ⟨by simp only; omega, by simp only; omega⟩, Y, hY, rfl⟩))), eh.symm, rfl⟩
    intro m hm hd hb
    obtain ⟨e', he', A, B, C, hA, hB, hC, h⟩ := mem_messages hm
    rcases h with ⟨rfl, h⟩ | ⟨rfl, h⟩ | ⟨rfl, h⟩ | ⟨rfl, h⟩ <;> simp only [Prod.mk.injEq, reduceCtorEq, and_false, and_true] at hb
    obtain rfl := hk _ he' _ he hb
    obtain ⟨rfl, rfl⟩ := horiz_inj hC hX (hd.trans eh)
    rcases h with rfl | ⟨-, h3, h4⟩
    · rfl
    · omega
  · refine deliver_some ?_ ⟨_, mem_around he h1 (List.mem_append_left _ (List.mem_append_right _ (mem_phase.2
      ⟨(p - 1, 0), List.mem_singleton.2 rfl, Y, hY, rfl⟩))), by rw [eh, h2], rfl⟩
    intro m hm hd hb
    obtain ⟨e', he', A, B, C, hA, hB, hC, h⟩ := mem_messages hm
    rcases h with ⟨rfl, h⟩ | ⟨rfl, h⟩ | ⟨rfl, h⟩ | ⟨rfl, h⟩ <;> simp only [Prod.mk.injEq, reduceCtorEq, and_false, and_true] at hb
    obtain rfl := hk _ he' _ he hb
    obtain ⟨rfl, rfl⟩ := horiz_inj hC hX (hd.trans eh)
    rcases h with h | ⟨-, rfl, h4⟩
    · omega
    · rfl
  · refine deliver_some ?_ ⟨_, mem_inside he (List.mem_append_right _ (mem_phase.2
      ⟨(X + 1, X), up_iff.2 ⟨h1, rfl⟩, Y, hY, rfl⟩)), eh.symm, rfl⟩
    intro m hm hd hb
    obtain ⟨e', he', A, B, C, hA, hB, hC, h⟩ := mem_messages hm
    rcases h with ⟨rfl, h⟩ | ⟨rfl, h⟩ | ⟨rfl, h⟩ | ⟨rfl, h⟩ <;> simp only [Prod.mk.injEq, reduceCtorEq, and_false, and_true] at hb
    obtain rfl := hk _ he' _ he hb
    obtain ⟨rfl, rfl⟩ := horiz_inj hC hX (hd.trans eh)
    rcases h with rfl | ⟨-, h3, h4⟩
    · rfl
    · omega
  · refine deliver_some ?_ ⟨_, mem_around he h1 (List.mem_append_right _ (mem_phase.2
      ⟨(0, p - 1), List.mem_singleton.2 rfl, Y, hY, rfl⟩)), by rw [eh, show X = p - 1 by omega], rfl⟩
    intro m hm hd hb
    obtain ⟨e', he', A, B, C, hA, hB, hC, h⟩ := mem_messages hm
    rcases h with ⟨rfl, h⟩ | ⟨rfl, h⟩ | ⟨rfl, h⟩ | ⟨rfl, h⟩ <;> simp only [Prod.mk.injEq, reduceCtorEq, and_false, and_true] at hb
    obtain rfl := hk _ he' _ he hb
    obtain ⟨rfl, rfl⟩ := horiz_inj hC hX (hd.trans eh)
    rcases h with rfl | ⟨-, rfl, h4⟩
    · omega
    · rfl

end

end WxVerif.StiffPdes
