import Verif.Props.StiffPdes
import Verif.Model.PrintSol

/-!
C105: the solution that the stiff test problems print is the whole field, row by row, whatever the number of processes.
-/

namespace WxVerif.Props.PrintSol

open WxVerif.StiffPdes WxVerif.Spec.StiffPdes WxVerif.Props.StiffPdes

noncomputable section

theorem mem_loops {p n : Nat} {q : Nat × Nat × Nat × Nat} : q ∈ solLoops p n ↔ q.1 < p ∧ q.2.1 < n ∧ q.2.2.1 < p ∧ q.2.2.2 < n := by
  obtain ⟨j, k, el, m⟩ := q
  simp [solLoops]

/-- Assignments whose values are given by the index fill those places. -/
theorem fold_assign {p n N : Nat} {sol : List (List ℝ)} {G : Nat → ℝ} : ∀ (L : List (Nat × Nat × Nat × Nat)) (o : List ℝ),
    (∀ q ∈ L, solEntry p n sol q = some (G (indxSol p n N q)) ∧ indxSol p n N q < o.length) →
    ∃ o', L.foldlM (solAssign p n N sol) o = some o' ∧ o'.length = o.length ∧ (∀ q ∈ L, o'[indxSol p n N q]? = some (G (indxSol p n N q))) ∧
      ∀ i, (∀ q ∈ L, indxSol p n N q ≠ i) → o'[i]? = o[i]?
  | [], o, _ => ⟨o, rfl, rfl, by simp, fun _ _ => rfl⟩
  | a :: L, o, h => by
    obtain ⟨ha, hl⟩ := h a (List.mem_cons_self ..)
    obtain ⟨o', h1, h2, h3, h4⟩ := fold_assign (N := N) (G := G) L (o.set (indxSol p n N a) (G (indxSol p n N a)))
      (fun q hq => by rw [List.length_set]; exact h q (List.mem_cons_of_mem _ hq))
    refine ⟨o', ?_, by rw [h2, List.length_set], ?_, ?_⟩
    · rw [List.foldlM_cons]
      have : solAssign p n N sol o a = some (o.set (indxSol p n N a) (G (indxSol p n N a))) := by
        unfold solAssign
        rw [ha, Option.bind_some, if_pos hl]
      rw [this]
      exact h1
    · intro q hq
      rcases List.mem_cons.1 hq with rfl | hq
      · by_cases hx : ∃ q' ∈ L, indxSol p n N q' = indxSol p n N q
        · obtain ⟨q', hq', e⟩ := hx
          rw [← e]
          exact h3 q' hq'
        · rw [h4 _ (fun q' hq' e => hx ⟨q', hq', e⟩), List.getElem?_set_self hl]
      · exact h3 q hq
    · intro i hi
      rw [h4 i (fun q hq => hi q (List.mem_cons_of_mem _ hq)), List.getElem?_set_ne (hi a (List.mem_cons_self ..))]

theorem cell_lt' {p n j i : Nat} (hj : j < p) (hi : i < n) : j * n + i < p * n :=
  calc j * n + i < j * n + n := by omega
    _ = (j + 1) * n := by ring
    _ ≤ p * n := Nat.mul_le_mul_right _ hj

theorem div_mod_of {a b n : Nat} (h : b < n) : (a * n + b) / n = a ∧ (a * n + b) % n = b := by
  constructor
  · rw [Nat.add_comm, Nat.add_mul_div_right _ _ (by omega), Nat.div_eq_of_lt h, Nat.zero_add]
  · rw [Nat.add_comm, Nat.add_mul_mod_self_right, Nat.mod_eq_of_lt h]

/-- **C105** When all processes have their part of a field, the points being divided evenly, the array that `print_sol` returns on the root process has the
value of the field at the point of row `y` and column `x` at place `y N + x`, `N` being the number of points of a row, and nothing else; the file keeps its
lines and gets these values, one a line. -/
theorem C105_print_sol {per : Bool} {xL xR : ℝ} {numPoints p n : Nat} {W : Nat → World} (h : Started per xL xR numPoints p n W) (hp : 0 < p)
    (fmt : ℝ → String) (F : Nat → Nat → ℝ) (file : List String) :
    ∃ order, printSol fmt (W 0) numPoints ((List.range (p * p)).map (part p n F)) file = some (file ++ order.map (fun x => fmt x ++ " "), order) ∧
      order.length = p * n * (p * n) ∧ ∀ y < p * n, ∀ x < p * n, order[y * (p * n) + x]? = some (F y x) := by
  have h0 := h.world 0 (Nat.mul_pos hp hp)
  have hn : 0 < n := by have := h.n2; omega
  have hN : pointsPerAxis per numPoints = p * n := by
    rw [h.points]; unfold pointsPerAxis; cases per <;> simp
  have hs : Nat.sqrt (p * p) = p := Nat.sqrt_eq p
  unfold initWorld at h0
  simp only [hs] at h0
  rw [if_neg (by rw [pow_two]; simp)] at h0
  cases h0' : W 0 with
  | mk rank size periodic procs procY procX bottom top left right n' dx startX startY =>
  rw [h0', Option.some.injEq, World.mk.injEq] at h0
  obtain ⟨-, -, rfl, rfl, -, -, -, -, -, -, hn', -, -, -⟩ := h0
  rw [hN, Nat.mul_div_cancel_left _ hp] at hn'
  subst hn'
  unfold printSol
  dsimp only
  rw [hN]
  have row : ∀ q : Nat × Nat × Nat × Nat, indxSol p n (p * n) q = (q.1 * n + q.2.1) * (p * n) + (q.2.2.1 * n + q.2.2.2) := by
    intro q; unfold indxSol; ring
  have key : ∀ q ∈ solLoops p n, solEntry p n ((List.range (p * p)).map (part p n F)) q =
        some ((fun i => F (i / (p * n)) (i % (p * n))) (indxSol p n (p * n) q)) ∧
      indxSol p n (p * n) q < (List.replicate ((p * n) ^ 2) (0 : ℝ)).length := by
    intro q hq
    obtain ⟨hj, hk, hel, hm⟩ := mem_loops.1 hq
    have hx : q.2.2.1 * n + q.2.2.2 < p * n := cell_lt' hel hm
    have hy : q.1 * n + q.2.1 < p * n := cell_lt' hj hk
    obtain ⟨e1, e2⟩ := div_mod_of (a := q.1 * n + q.2.1) hx
    constructor
    · rw [row]
      dsimp only
      rw [e1, e2]
      unfold solEntry
      rw [List.getElem?_map, List.getElem?_range (cell_lt' hj hel), Option.map_some, Option.bind_some]
      obtain ⟨e3, e4⟩ := div_mod_of (a := q.1) hel
      unfold part
      rw [e3, e4, tile_get F _ _ hk hm]
    · rw [List.length_replicate, row, pow_two]
      exact cell_lt' hy hx
  obtain ⟨o, h1, h2, h3, -⟩ := fold_assign (G := fun i => F (i / (p * n)) (i % (p * n))) (solLoops p n) (List.replicate ((p * n) ^ 2) (0 : ℝ)) key
  refine ⟨o, by rw [h1]; rfl, by rw [h2, List.length_replicate, pow_two], fun y hy x hx => ?_⟩
  have hq : (y / n, y % n, x / n, x % n) ∈ solLoops p n :=
    mem_loops.2 ⟨Nat.div_lt_of_lt_mul (by rw [Nat.mul_comm]; exact hy), Nat.mod_lt _ hn, Nat.div_lt_of_lt_mul (by rw [Nat.mul_comm]; exact hx), Nat.mod_lt _ hn⟩
  have e : indxSol p n (p * n) (y / n, y % n, x / n, x % n) = y * (p * n) + x := by
    rw [row]
    dsimp only
    rw [Nat.mul_comm (y / n), Nat.div_add_mod, Nat.mul_comm (x / n), Nat.div_add_mod]
  have := h3 _ hq
  rw [e] at this
  obtain ⟨e1, e2⟩ := div_mod_of (a := y) hx
  rw [this, e1, e2]

/-- **C105** What is printed after a computation on all processes is the computed field: `op` computes `F` (C80 shows it of the operators and right-hand
sides) and the calls of all processes have come to an end.  `parts` are the values that `gather` gives to the root process, in the order of the ranks. -/
theorem C105_computed {per : Bool} {xL xR : ℝ} {numPoints p n : Nat} {W : Nat → World} (h : Started per xL xR numPoints p n W) (hp : 0 < p)
    (fmt : ℝ → String) (op : Nat → Op) (F : Nat → Nat → ℝ) (hF : Computes p n op F) (buf)
    (τ) (hτ : WxVerif.Messages.Reaches (WxVerif.Messages.start (fun r => if r < p * p then (op r).calls else []) buf) τ)
    (hfin : WxVerif.Messages.Finished τ) :
    ∃ parts order, (List.range (p * p)).mapM (fun r => (op r).value (τ.buf r)) = some parts ∧
      printSol fmt (W 0) numPoints parts [] = some (order.map (fun x => fmt x ++ " "), order) ∧
      order.length = p * n * (p * n) ∧ ∀ y < p * n, ∀ x < p * n, order[y * (p * n) + x]? = some (F y x) := by
  have hv := (hF buf).2.2 τ hτ hfin
  have e : ∀ L : List Nat, (∀ r ∈ L, r < p * p) → L.mapM (fun r => (op r).value (τ.buf r)) = some (L.map (part p n F)) := by
    intro L hL
    induction L with
    | nil => rfl
    | cons a L ih =>
      rw [List.mapM_cons, hv a (hL a (List.mem_cons_self ..)), ih fun r hr => hL r (List.mem_cons_of_mem _ hr)]
      rfl
  obtain ⟨order, h1, h2⟩ := C105_print_sol h hp fmt F []
  exact ⟨_, order, e _ fun r hr => List.mem_range.1 hr, h1, h2⟩

/-- the hypotheses hold of the Laplacian of a field on nine processes with four by four points each -/
example (u : Nat → Nat → ℝ) : ∃ W : Nat → World, Started false 0 1 14 3 4 W ∧
    Computes 3 4 (fun r => laplacianDirichlet 0 (W r) (part 3 4 u r) 2) fun a b => 2 * laplacian .dirichlet 12 (spacing 0 1 14) u a b := by
  obtain ⟨W, hW⟩ := can_start false 0 1 3 4 (by omega)
  exact ⟨W, hW, C80_laplacianDirichlet hW u 2⟩

/-- **C105** fails when the points are not divided evenly, which nothing checks: with three points a row on four processes, each process has one point, and in
the printed array every other place is zero and the two points of the second row of processes stand at the end of the first row and the begin of the second. -/
theorem C105_uneven_fails (fmt : ℝ → String) (a b c d : ℝ) : ∃ w, initWorld true 0 1 4 4 0 = some w ∧ w.n = 1 ∧
    printSol fmt w 4 [[a], [b], [c], [d]] [] = some ([a, b, c, d, 0, 0, 0, 0, 0].map (fun x => fmt x ++ " "), [a, b, c, d, 0, 0, 0, 0, 0]) := by
  have h2 : Nat.sqrt 4 = 2 := by decide +kernel
  refine ⟨_, by unfold initWorld; simp only [h2]; rfl, ?_, ?_⟩
  · rfl
  · rfl

end

end WxVerif.Props.PrintSol
