import Verif.Lemmas.StiffStencil
import Mathlib.Analysis.Calculus.Deriv.Pow
import Mathlib.Analysis.Calculus.Deriv.Mul
import Mathlib.Analysis.Calculus.Deriv.Add
import Mathlib.Tactic.Linarith
import Mathlib.Tactic.Positivity

/-!
Properties of the stiff test problems: the exchange of rows and columns never gets stuck and delivers the neighbouring rows and columns (C82), the
operators and right-hand sides on `p × p` processes are those of the whole square (C80), and the Jacobian products are the derivatives of the
right-hand sides times the step (C81).
-/

namespace WxVerif.Props.StiffPdes

open WxVerif.StiffPdes WxVerif.Messages WxVerif.Spec.StiffPdes

noncomputable section

/-- `p × p` processes, each with `n × n` points (at least two by two), that have all started with the same arguments; the points are divided
evenly. -/
structure Started (per : Bool) (xL xR : ℝ) (numPoints p n : Nat) (W : Nat → World) : Prop where
  points : numPoints = p * n + if per then 1 else 2
  n2 : 2 ≤ n
  world : ∀ r < p * p, initWorld per xL xR numPoints (p * p) r = some (W r)

/-- distance of the points -/
def spacing (xL xR : ℝ) (numPoints : Nat) : ℝ := (xR - xL) / ((numPoints : ℝ) - 1)

/-- The function `op` (called by every process, with its own arguments) computes the field `F`: whatever messages are stored or not, the calls
never get stuck and come to an end, and then the value on every process is its part of `F`. -/
def Computes (p n : Nat) (op : Nat → Op) (F : Nat → Nat → ℝ) : Prop :=
  ∀ buf, let σ := start (fun r => if r < p * p then (op r).calls else []) buf
    NeverStuck σ ∧ Ends σ ∧ ∀ τ, Reaches σ τ → Finished τ → ∀ r < p * p, (op r).value (τ.buf r) = some (tile n F (r / p) (r % p))

/-- part of the field `u` on process `r` -/
def part (p n : Nat) (u : Nat → Nat → ℝ) (r : Nat) : List ℝ := tile n u (r / p) (r % p)

/-! ## Composition of exchange and stencil -/

theorem ctx {per : Bool} {xL xR : ℝ} {numPoints p n : Nat} {W : Nat → World} (S : Started per xL xR numPoints p n W) (hp : per = true → 2 ≤ p)
    {r : Nat} (hr : r < p * p) : Ctx per p n (spacing xL xR numPoints) r (W r) := by
  have hp0 : 0 < p := Nat.pos_of_ne_zero fun h0 => by subst h0; omega
  refine ⟨isWorld ?_ hp0 (S.world r hr), S.n2, hr, hp⟩
  unfold pointsPerAxis
  rw [S.points]
  cases per <;> simp

theorem run_exchanges {per : Bool} {p n : Nat} {h : ℝ} {W : Nat → World} (hW : ∀ r < p * p, IsWorld per p n r h (W r)) {E : List Exch}
    (hE : ∀ e ∈ E, e.per = true → 2 ≤ p ∧ per = true) (hk : ∀ e ∈ E, ∀ e' ∈ E, e.k = e'.k → e = e') (buf : Nat → Buf → List ℝ) :
    let σ := start (fun r => if r < p * p then exchanges (W r) r E else []) buf
    NeverStuck σ ∧ Ends σ ∧ ∀ τ, Reaches σ τ → Finished τ → ∀ r < p * p, ∀ e ∈ E, Received p n r e (τ.buf r) := by
  intro σ
  have hne := messages_ne (n := n) fun e he h => (hE e he h).1
  have e : σ = start (project (messages p n E)) buf := by
    change start _ _ = _
    rw [exchanges_project hW hE]
  rw [e]
  refine ⟨project_neverStuck hne buf, ⟨_, fun m f h0 hs => project_bounded hne buf m f h0 hs⟩, fun τ hτ hf r hr e he => ?_⟩
  rw [project_finished hne buf hτ hf]
  exact received hk buf hr he

theorem computes {per : Bool} {p n : Nat} {h : ℝ} {W : Nat → World} (hW : ∀ r < p * p, Ctx per p n h r (W r)) (E : List Exch)
    (hE : ∀ e ∈ E, e.per = per) (hk : ∀ e ∈ E, ∀ e' ∈ E, e.k = e'.k → e = e') {op : Nat → Op} {F : Nat → Nat → ℝ}
    (hcalls : ∀ r < p * p, (op r).calls = if (W r).size > 1 then exchanges (W r) r E else [])
    (hval : ∀ r < p * p, ∀ b, (2 ≤ p → ∀ e ∈ E, Received p n r e b) → (op r).value b = some (tile n F (r / p) (r % p))) : Computes p n op F := by
  intro buf
  by_cases hp : 2 ≤ p
  · have e : (fun r => if r < p * p then (op r).calls else []) = fun r => if r < p * p then exchanges (W r) r E else [] := by
      funext r
      by_cases hr : r < p * p
      · rw [if_pos hr, if_pos hr, hcalls r hr, if_pos (one_lt_size hp (hW r hr).world)]
      · rw [if_neg hr, if_neg hr]
    have := run_exchanges (n := n) (fun r hr => (hW r hr).world) (E := E) (fun e he h => ⟨hp, by rw [← hE e he]; exact h⟩) hk buf
    simp only [e]
    exact ⟨this.1, this.2.1, fun τ hτ hf r hr => hval r hr _ fun _ => this.2.2 τ hτ hf r hr⟩
  · have hsz : ∀ r < p * p, ¬ (W r).size > 1 := fun r hr => by
      rw [(hW r hr).world.size]
      have : p = 0 ∨ p = 1 := by omega
      rcases this with rfl | rfl <;> simp
    have e : (fun r => if r < p * p then (op r).calls else []) = fun r => if r < p * p then exchanges (W r) r [] else [] := by
      funext r
      by_cases hr : r < p * p
      · rw [if_pos hr, if_pos hr, hcalls r hr, if_neg (hsz r hr)]; rfl
      · rw [if_neg hr, if_neg hr]
    have := run_exchanges (n := n) (fun r hr => (hW r hr).world) (E := []) (by simp) (by simp) buf
    simp only [e]
    exact ⟨this.1, this.2.1, fun τ hτ hf r hr => hval r hr _ fun h => absurd h hp⟩

/-! ## The exchange -/

theorem getElem?_slice {v : List ℝ} {a b i : Nat} (h : a + i < b) : (slice v a b)[i]? = v[a + i]? := by
  unfold slice
  rw [List.getElem?_drop, List.getElem?_take_of_lt h]

theorem firstRow_read (n : Nat) (v : List ℝ) {i : Nat} (hi : i < n) : (firstRow n v)[i]? = v[i]? := by
  unfold firstRow
  rw [getElem?_slice (by omega), Nat.zero_add]

theorem lastRow_read (n : Nat) (v : List ℝ) {i : Nat} (hi : i < n) : (lastRow n v)[i]? = v[(n - 1) * n + i]? := by
  unfold lastRow
  rw [getElem?_slice, Nat.mul_comm]
  rw [Nat.mul_comm]
  exact cell_lt (by omega) hi

theorem firstCol_read {n : Nat} {v : List ℝ} (hv : v.length = n * n) {j : Nat} (hj : j < n) : (firstCol n v)[j]? = v[j * n]? := by
  unfold firstCol
  have hl : j * n < v.length := by rw [hv]; exact cell_lt (i := 0) hj (by omega)
  rw [List.getElem?_map, List.getElem?_range hj, Option.map_some, Nat.mul_comm, List.getD_eq_getElem _ _ hl, List.getElem?_eq_getElem hl]

theorem lastCol_read {n : Nat} {v : List ℝ} (hv : v.length = n * n) {j : Nat} (hj : j < n) : (lastCol n v)[j]? = v[j * n + (n - 1)]? := by
  unfold lastCol
  have e : n * (j + 1) - 1 = j * n + (n - 1) := by rw [Nat.mul_succ, Nat.mul_comm]; omega
  have hl : j * n + (n - 1) < v.length := by rw [hv]; exact cell_lt hj (by omega)
  rw [List.getElem?_map, List.getElem?_range hj, Option.map_some, e, List.getD_eq_getElem _ _ hl, List.getElem?_eq_getElem hl]

/-- The buffers `b` of process `r` contain the rows and columns of the arrays `V` next to it, for the neighbours inside the square. -/
def NeighboursIn (p n : Nat) (V : Nat → List ℝ) (r : Nat) (b : Side → List ℝ) : Prop :=
  ∀ i < n,
    (r / p + 1 < p → (b .top)[i]? = (V (r + p))[i]?) ∧
    (0 < r / p → (b .bottom)[i]? = (V (r - p))[(n - 1) * n + i]?) ∧
    (0 < r % p → (b .left)[i]? = (V (r - 1))[i * n + (n - 1)]?) ∧
    (r % p + 1 < p → (b .right)[i]? = (V (r + 1))[i * n]?)

/-- the same for the neighbours on the other side of the square -/
def NeighboursAcross (p n : Nat) (V : Nat → List ℝ) (r : Nat) (b : Side → List ℝ) : Prop :=
  ∀ i < n,
    (r / p + 1 = p → (b .top)[i]? = (V (r % p))[i]?) ∧
    (r / p = 0 → (b .bottom)[i]? = (V ((p - 1) * p + r))[(n - 1) * n + i]?) ∧
    (r % p = 0 → (b .left)[i]? = (V (r + (p - 1)))[i * n + (n - 1)]?) ∧
    (r % p + 1 = p → (b .right)[i]? = (V (r - (p - 1)))[i * n]?)

theorem received_in {p n r : Nat} (hr : r < p * p) {e : Exch} (hV : ∀ r < p * p, (e.V r).length = n * n) {b : Buf → List ℝ}
    (R : Received p n r e b) : NeighboursIn p n e.V r fun s => b (e.k, s) := by
  have hp : 0 < p := Nat.pos_of_ne_zero fun h0 => by subst h0; omega
  have hY : r / p < p := Nat.div_lt_of_lt_mul hr
  have hX : r % p < p := Nat.mod_lt _ hp
  have ev : r / p * p + r % p = r := by rw [Nat.mul_comm]; exact Nat.div_add_mod r p
  intro i hi
  beta_reduce
  refine ⟨fun h => ?_, fun h => ?_, fun h => ?_, fun h => ?_⟩
  · rw [show b (e.k, .top) = _ from R.top h, firstRow_read _ _ hi, show vert p (r / p + 1) (r % p) = r + p by
      unfold vert; rw [Nat.succ_mul]; omega]
  · rw [show b (e.k, .bottom) = _ from R.bottom h, lastRow_read _ _ hi, show vert p (r / p - 1) (r % p) = r - p by
      have : r / p * p = (r / p - 1) * p + p := by rw [← Nat.succ_mul]; congr 1; omega
      unfold vert; omega]
  · have e1 : horiz p (r % p - 1) (r / p) = r - 1 := by unfold horiz; omega
    rw [show b (e.k, .left) = _ from R.left h, lastCol_read (by rw [e1]; exact hV _ (by omega)) hi, e1]
  · have e1 : horiz p (r % p + 1) (r / p) = r + 1 := by unfold horiz; omega
    rw [show b (e.k, .right) = _ from R.right h, firstCol_read (by exact hV _ (horiz_lt h hY)) hi, e1]

theorem received_across {p n r : Nat} (hr : r < p * p) {e : Exch} (he : e.per = true) (hV : ∀ r < p * p, (e.V r).length = n * n) {b : Buf → List ℝ}
    (R : Received p n r e b) : NeighboursAcross p n e.V r fun s => b (e.k, s) := by
  have hp : 0 < p := Nat.pos_of_ne_zero fun h0 => by subst h0; omega
  have hY : r / p < p := Nat.div_lt_of_lt_mul hr
  have hX : r % p < p := Nat.mod_lt _ hp
  have ev : r / p * p + r % p = r := by rw [Nat.mul_comm]; exact Nat.div_add_mod r p
  intro i hi
  beta_reduce
  refine ⟨fun h => ?_, fun h => ?_, fun h => ?_, fun h => ?_⟩
  · rw [show b (e.k, .top) = _ from R.topPer he h, firstRow_read _ _ hi, show vert p 0 (r % p) = r % p by unfold vert; omega]
  · rw [show b (e.k, .bottom) = _ from R.bottomPer he h, lastRow_read _ _ hi, show vert p (p - 1) (r % p) = (p - 1) * p + r by
      unfold vert; rw [h] at ev; omega]
  · have e1 : horiz p (p - 1) (r / p) = r + (p - 1) := by unfold horiz; omega
    rw [show b (e.k, .left) = _ from R.leftPer he h, lastCol_read (hV _ (horiz_lt (by omega) hY)) hi, e1]
  · have e1 : horiz p 0 (r / p) = r - (p - 1) := by unfold horiz; omega
    rw [show b (e.k, .right) = _ from R.rightPer he h, firstCol_read (hV _ (horiz_lt hp hY)) hi, e1]

variable {xL xR : ℝ} {numPoints p n : Nat} {W : Nat → World}

/-- **C82.** `getNeighData` on all processes, with any arrays: whether messages are stored or not, and in whatever order the processes run, the
calls never get stuck and come to an end, and every process has the rows and columns next to it. -/
theorem C82_neighbours {per : Bool} (S : Started per xL xR numPoints p n W) (k : Nat) (V : Nat → List ℝ) (hV : ∀ r < p * p, (V r).length = n * n)
    (buf : Nat → Buf → List ℝ) :
    let σ := start (fun r => if r < p * p then getNeighData (W r) (V r) k else []) buf
    NeverStuck σ ∧ Ends σ ∧ ∀ τ, Reaches σ τ → Finished τ → ∀ r < p * p, NeighboursIn p n V r fun s => τ.buf r (k, s) := by
  have h := run_exchanges (W := W) (n := n) (per := per) (p := p) (h := spacing xL xR numPoints) (fun r hr => by
    have hp0 : 0 < p := Nat.pos_of_ne_zero fun h0 => by subst h0; omega
    refine isWorld ?_ hp0 (S.world r hr)
    unfold pointsPerAxis
    rw [S.points]
    cases per <;> simp) (E := [⟨k, false, V⟩]) (by simp) (by simp) buf
  simp only [exchanges, List.flatMap_cons, List.flatMap_nil, List.append_nil, Bool.false_eq_true, if_false] at h
  exact ⟨h.1, h.2.1, fun τ hτ hf r hr => received_in (e := ⟨k, false, V⟩) hr hV (h.2.2 τ hτ hf r hr _ List.mem_cons_self)⟩

/-- **C82.** The same for `getNeighData` followed by `getExtraPeriodicData`, on at least four processes with periodic boundaries; the rows and
columns across the boundary are there too. -/
theorem C82_periodic_neighbours (hp : 2 ≤ p) (S : Started true xL xR numPoints p n W) (k : Nat) (V : Nat → List ℝ)
    (hV : ∀ r < p * p, (V r).length = n * n) (buf : Nat → Buf → List ℝ) :
    let σ := start (fun r => if r < p * p then getNeighData (W r) (V r) k ++ getExtraPeriodicData (W r) (V r) k else []) buf
    NeverStuck σ ∧ Ends σ ∧ ∀ τ, Reaches σ τ → Finished τ → ∀ r < p * p,
      NeighboursIn p n V r (fun s => τ.buf r (k, s)) ∧ NeighboursAcross p n V r fun s => τ.buf r (k, s) := by
  have h := run_exchanges (n := n) (fun r hr => (ctx S (fun _ => hp) hr).world) (E := [⟨k, true, V⟩]) (by simp [hp]) (by simp) buf
  simp only [exchanges, List.flatMap_cons, List.flatMap_nil, List.append_nil, if_true] at h
  exact ⟨h.1, h.2.1, fun τ hτ hf r hr => ⟨received_in (e := ⟨k, true, V⟩) hr hV (h.2.2 τ hτ hf r hr _ List.mem_cons_self),
    received_across (e := ⟨k, true, V⟩) hr rfl hV (h.2.2 τ hτ hf r hr _ List.mem_cons_self)⟩⟩

/-! ## The operators -/

theorem one {k : Nat} {per : Bool} {u : Nat → Nat → ℝ} : (∀ e ∈ [fieldExch p n k per u], e.per = per) ∧
    ∀ e ∈ [fieldExch p n k per u], ∀ e' ∈ [fieldExch p n k per u], e.k = e'.k → e = e' := by simp [fieldExch]

theorem two {k k' : Nat} (hk : k ≠ k') {per : Bool} {u v : Nat → Nat → ℝ} : (∀ e ∈ [fieldExch p n k per u, fieldExch p n k' per v], e.per = per) ∧
    ∀ e ∈ [fieldExch p n k per u, fieldExch p n k' per v], ∀ e' ∈ [fieldExch p n k per u, fieldExch p n k' per v], e.k = e'.k → e = e' := by
  simp [fieldExch, hk, Ne.symm hk]

theorem calls_one {k : Nat} {u : Nat → Nat → ℝ} (w : World) (r : Nat) :
    exchanges w r [fieldExch p n k false u] = getNeighData w (part p n u r) k := by simp [exchanges, fieldExch, part]

theorem calls_oneP {k : Nat} {u : Nat → Nat → ℝ} (w : World) (r : Nat) :
    exchanges w r [fieldExch p n k true u] = getNeighData w (part p n u r) k ++ getExtraPeriodicData w (part p n u r) k := by
  simp [exchanges, fieldExch, part]

theorem exchanges_append (w : World) (r : Nat) (E E' : List Exch) : exchanges w r (E ++ E') = exchanges w r E ++ exchanges w r E' := by
  simp [exchanges]

/-- **C80.** `laplacianDirichlet` is the five-point Laplacian of the whole square with zero values outside, for any number of processes. -/
theorem C80_laplacianDirichlet (S : Started false xL xR numPoints p n W) (u : Nat → Nat → ℝ) (ε : ℝ) :
    Computes p n (fun r => laplacianDirichlet 0 (W r) (part p n u r) ε)
      fun a b => ε * laplacian .dirichlet (p * n) (spacing xL xR numPoints) u a b :=
  computes (fun _ hr => ctx S (by simp) hr) [fieldExch p n 0 false u] one.1 one.2
    (fun r _ => by rw [calls_one]; rfl) fun _ hr _ hb => lapDirichlet (ctx S (by simp) hr) (fun h => hb h _ (by simp)) ε

/-- **C80.** `laplacianNeumann` is the five-point Laplacian with zero derivative at the boundary. -/
theorem C80_laplacianNeumann (S : Started false xL xR numPoints p n W) (u : Nat → Nat → ℝ) (ε : ℝ) :
    Computes p n (fun r => laplacianNeumann 0 (W r) (part p n u r) ε)
      fun a b => ε * laplacian .neumann (p * n) (spacing xL xR numPoints) u a b :=
  computes (fun _ hr => ctx S (by simp) hr) [fieldExch p n 0 false u] one.1 one.2
    (fun r _ => by rw [calls_one]; rfl) fun _ hr _ hb => lapNeumann (ctx S (by simp) hr) (fun h => hb h _ (by simp)) ε

/-- **C80.** `advectionNeumann` is the central difference with zero derivative at the boundary. -/
theorem C80_advectionNeumann (S : Started false xL xR numPoints p n W) (u : Nat → Nat → ℝ) (α : ℝ) :
    Computes p n (fun r => advectionNeumann 0 (W r) (part p n u r) α)
      fun a b => α * advection .neumann (p * n) (spacing xL xR numPoints) u a b :=
  computes (fun _ hr => ctx S (by simp) hr) [fieldExch p n 0 false u] one.1 one.2
    (fun r _ => by rw [calls_one]; rfl) fun _ hr _ hb => advNeumann (ctx S (by simp) hr) (fun h => hb h _ (by simp)) α

/-- **C80** (partial: at least four processes, see `C80_one_process_fails`) `advectionDirichlet` is the central difference with zero values
outside. -/
theorem C80_advectionDirichlet_partial (hp : 2 ≤ p) (S : Started false xL xR numPoints p n W) (u : Nat → Nat → ℝ) (α : ℝ) :
    Computes p n (fun r => advectionDirichlet 0 (W r) (part p n u r) α)
      fun a b => α * advection .dirichlet (p * n) (spacing xL xR numPoints) u a b :=
  computes (fun _ hr => ctx S (by simp) hr) [fieldExch p n 0 false u] one.1 one.2
    (fun r _ => by rw [calls_one]; rfl) fun _ hr _ hb => advDirichlet hp (ctx S (by simp) hr) (fun h => hb h _ (by simp)) α

/-- **C80** (partial: at least four processes) `advectionUsquaredDir` is half the central difference of the square of the field. -/
theorem C80_advectionUsquaredDir_partial (hp : 2 ≤ p) (S : Started false xL xR numPoints p n W) (u : Nat → Nat → ℝ) :
    Computes p n (fun r => advectionUsquaredDir 0 (W r) (part p n u r))
      fun a b => advection .dirichlet (p * n) (spacing xL xR numPoints) (fun a b => u a b ^ 2) a b / 2 :=
  computes (fun _ hr => ctx S (by simp) hr) [fieldExch p n 0 false u] one.1 one.2
    (fun r _ => by rw [calls_one]; rfl) fun _ hr _ hb => advSquaredDir hp (ctx S (by simp) hr) (fun h => hb h _ (by simp))

/-- **C80** (partial: at least four processes) `nonLinAdvecDirichlet` is the central difference of the product of the two fields. -/
theorem C80_nonLinAdvecDirichlet_partial (hp : 2 ≤ p) (S : Started false xL xR numPoints p n W) (v u : Nat → Nat → ℝ) (α : ℝ) :
    Computes p n (fun r => nonLinAdvecDirichlet 0 (W r) (part p n v r) (part p n u r) α)
      fun a b => α * advection .dirichlet (p * n) (spacing xL xR numPoints) (fun a b => v a b * u a b) a b :=
  computes (fun _ hr => ctx S (by simp) hr) [fieldExch p n 0 false v, fieldExch p n 1 false u] (two (by simp)).1 (two (by simp)).2
    (fun r _ => by rw [← List.singleton_append, exchanges_append, calls_one, calls_one]; rfl)
    fun _ hr _ hb => advProductDir hp (ctx S (by simp) hr) (fun h => hb h _ (by simp)) (fun h => hb h _ (by simp)) α

/-- **C80** (partial: at least four processes) `laplacianPeriodic` is the five-point Laplacian on the torus. -/
theorem C80_laplacianPeriodic_partial (hp : 2 ≤ p) (S : Started true xL xR numPoints p n W) (u : Nat → Nat → ℝ) (ε : ℝ) :
    Computes p n (fun r => laplacianPeriodic 0 (W r) (part p n u r) ε)
      fun a b => ε * laplacian .periodic (p * n) (spacing xL xR numPoints) u a b :=
  computes (fun _ hr => ctx S (fun _ => hp) hr) [fieldExch p n 0 true u] one.1 one.2
    (fun r _ => by rw [calls_oneP]; rfl) fun _ hr _ hb => lapPeriodic (ctx S (fun _ => hp) hr) (fun h => hb h _ (by simp)) ε

/-- **C80** (partial: at least four processes) `laplacianUsquared` is the five-point Laplacian of the square of the field on the torus. -/
theorem C80_laplacianUsquared_partial (hp : 2 ≤ p) (S : Started true xL xR numPoints p n W) (u : Nat → Nat → ℝ) :
    Computes p n (fun r => laplacianUsquared 0 (W r) (part p n u r))
      fun a b => laplacian .periodic (p * n) (spacing xL xR numPoints) (fun a b => u a b ^ 2) a b :=
  computes (fun _ hr => ctx S (fun _ => hp) hr) [fieldExch p n 0 true u] one.1 one.2
    (fun r _ => by rw [calls_oneP]; rfl) fun _ hr _ hb => lapSquared (ctx S (fun _ => hp) hr) (fun h => hb h _ (by simp))

/-- **C80** (partial: at least four processes) `nonLinLapPeriodic` is twice the five-point Laplacian of the product of the two fields. -/
theorem C80_nonLinLapPeriodic_partial (hp : 2 ≤ p) (S : Started true xL xR numPoints p n W) (v u : Nat → Nat → ℝ) (ε : ℝ) :
    Computes p n (fun r => nonLinLapPeriodic 0 (W r) (part p n v r) (part p n u r) ε)
      fun a b => 2 * ε * laplacian .periodic (p * n) (spacing xL xR numPoints) (fun a b => v a b * u a b) a b :=
  computes (fun _ hr => ctx S (fun _ => hp) hr) [fieldExch p n 0 true v, fieldExch p n 1 true u] (two (by simp)).1 (two (by simp)).2
    (fun r _ => by rw [← List.singleton_append, exchanges_append, calls_oneP, calls_oneP]; rfl)
    fun _ hr _ hb => lapProduct (ctx S (fun _ => hp) hr) (fun h => hb h _ (by simp)) (fun h => hb h _ (by simp)) ε

/-- **C80** (partial: at least four processes) `advectionPeriodic` is the central difference on the torus. -/
theorem C80_advectionPeriodic_partial (hp : 2 ≤ p) (S : Started true xL xR numPoints p n W) (u : Nat → Nat → ℝ) (α : ℝ) :
    Computes p n (fun r => advectionPeriodic 0 (W r) (part p n u r) α)
      fun a b => α * advection .periodic (p * n) (spacing xL xR numPoints) u a b :=
  computes (fun _ hr => ctx S (fun _ => hp) hr) [fieldExch p n 0 true u] one.1 one.2
    (fun r _ => by rw [calls_oneP]; rfl) fun _ hr _ hb => advPeriodic (ctx S (fun _ => hp) hr) (fun h => hb h _ (by simp)) α

/-- **C80** (partial: at least four processes) `advectionUsquared` is half the central difference of the square of the field on the torus. -/
theorem C80_advectionUsquared_partial (hp : 2 ≤ p) (S : Started true xL xR numPoints p n W) (u : Nat → Nat → ℝ) :
    Computes p n (fun r => advectionUsquared 0 (W r) (part p n u r))
      fun a b => advection .periodic (p * n) (spacing xL xR numPoints) (fun a b => u a b ^ 2) a b / 2 :=
  computes (fun _ hr => ctx S (fun _ => hp) hr) [fieldExch p n 0 true u] one.1 one.2
    (fun r _ => by rw [calls_oneP]; rfl) fun _ hr _ hb => advSquared (ctx S (fun _ => hp) hr) (fun h => hb h _ (by simp))

/-- **C80** (partial: at least four processes) `nonLinAdvecPeriodic` is the central difference of the product of the two fields on the torus. -/
theorem C80_nonLinAdvecPeriodic_partial (hp : 2 ≤ p) (S : Started true xL xR numPoints p n W) (v u : Nat → Nat → ℝ) (α : ℝ) :
    Computes p n (fun r => nonLinAdvecPeriodic 0 (W r) (part p n v r) (part p n u r) α)
      fun a b => α * advection .periodic (p * n) (spacing xL xR numPoints) (fun a b => v a b * u a b) a b :=
  computes (fun _ hr => ctx S (fun _ => hp) hr) [fieldExch p n 0 true v, fieldExch p n 1 true u] (two (by simp)).1 (two (by simp)).2
    (fun r _ => by rw [← List.singleton_append, exchanges_append, calls_oneP, calls_oneP]; rfl)
    fun _ hr _ hb => advProduct (ctx S (fun _ => hp) hr) (fun h => hb h _ (by simp)) (fun h => hb h _ (by simp)) α

/-! ## The right-hand sides -/

theorem part_zip (u v : Nat → Nat → ℝ) (f : ℝ → ℝ → ℝ) (Y X : Nat) :
    List.zipWith f (tile n u Y X) (tile n v Y X) = tile n (fun a b => f (u a b) (v a b)) Y X := by
  simp only [tile_eq, List.zipWith_map, List.zipWith_self]

theorem part_map (u : Nat → Nat → ℝ) (f : ℝ → ℝ) (Y X : Nat) : (tile n u Y X).map f = tile n (fun a b => f (u a b)) Y X := by
  simp only [tile_eq, List.map_map, Function.comp_def]

theorem calls_if {c : Prop} [Decidable c] (a b : Calls) : (if c then a else []) ++ (if c then b else []) = if c then a ++ b else [] := by
  split <;> simp

theorem allencahn_value {h : ℝ} {r : Nat} {w : World} (C : Ctx false p n h r w) (u : Nat → Nat → ℝ) (ε : ℝ) {b : Buf → List ℝ}
    (hb : 2 ≤ p → Received p n r (fieldExch p n 0 false u) b) :
    (allencahn_rhs w (tile n u (r / p) (r % p)) ε).value b = some (tile n (allenCahn (p * n) h ε u) (r / p) (r % p)) := by
  dsimp only [allencahn_rhs]
  rw [lapNeumann C hb]
  simp only [Option.bind_eq_bind, Option.bind_some, Option.pure_def, addV, subV, part_map, part_zip, Option.some.injEq]
  congr 1
  funext a b
  simp only [allenCahn]
  ring

/-- **C80.** The right-hand side of Allen–Cahn is that of the whole square, for any number of processes. -/
theorem C80_allencahn_rhs (S : Started false xL xR numPoints p n W) (u : Nat → Nat → ℝ) (ε : ℝ) :
    Computes p n (fun r => allencahn_rhs (W r) (part p n u r) ε) (allenCahn (p * n) (spacing xL xR numPoints) ε u) :=
  computes (fun _ hr => ctx S (by simp) hr) [fieldExch p n 0 false u] one.1 one.2
    (fun r _ => by rw [calls_one]; rfl) fun _ hr _ hb => allencahn_value (ctx S (by simp) hr) u ε fun h => hb h _ (by simp)

/-- **C80.** The right-hand side of the advection, diffusion and reaction equation is that of the whole square, for any number of processes. -/
theorem C80_adr_rhs (S : Started false xL xR numPoints p n W) (u : Nat → Nat → ℝ) (ε α γ : ℝ) :
    Computes p n (fun r => adr_rhs (W r) (part p n u r) ε α γ) (adr (p * n) (spacing xL xR numPoints) ε α γ u) :=
  computes (fun _ hr => ctx S (by simp) hr) [fieldExch p n 0 false u, fieldExch p n 1 false u] (two (by simp)).1 (two (by simp)).2
    (fun r _ => by rw [← List.singleton_append, exchanges_append, calls_one, calls_one, ← calls_if]; rfl) fun r hr b hb => by
    dsimp only [adr_rhs, part]
    rw [lapNeumann (ctx S (by simp) hr) (fun h => hb h _ (by simp)), advNeumann (ctx S (by simp) hr) (fun h => hb h _ (by simp))]
    simp only [Option.bind_eq_bind, Option.bind_some, Option.pure_def, addV, subV, mulV, scaleV, part_map, part_zip, Option.some.injEq]
    rfl

/-- **C80** (partial: at least four processes) The right-hand side of the porous medium equation is that of the whole square. -/
theorem C80_porous_rhs_partial (hp : 2 ≤ p) (S : Started true xL xR numPoints p n W) (u : Nat → Nat → ℝ) (α : ℝ) :
    Computes p n (fun r => porous_rhs (W r) (part p n u r) α) (porous (p * n) (spacing xL xR numPoints) α u) :=
  computes (fun _ hr => ctx S (fun _ => hp) hr) [fieldExch p n 0 true u, fieldExch p n 1 true u] (two (by simp)).1 (two (by simp)).2
    (fun r _ => by rw [← List.singleton_append, exchanges_append, calls_oneP, calls_oneP, ← calls_if]; rfl) fun r hr b hb => by
    dsimp only [porous_rhs, part]
    rw [lapSquared (ctx S (fun _ => hp) hr) (fun h => hb h _ (by simp)), advPeriodic (ctx S (fun _ => hp) hr) (fun h => hb h _ (by simp))]
    simp only [Option.bind_eq_bind, Option.bind_some, Option.pure_def, addV, part_zip, Option.some.injEq]
    rfl

/-- **C80** (partial: at least four processes) The right-hand side of Burgers' equation is that of the whole square. -/
theorem C80_burgers_rhs_partial (hp : 2 ≤ p) (S : Started false xL xR numPoints p n W) (u : Nat → Nat → ℝ) (ε α : ℝ) :
    Computes p n (fun r => burgers_rhs (W r) (part p n u r) ε α) (burgers (p * n) (spacing xL xR numPoints) ε α u) :=
  computes (fun _ hr => ctx S (by simp) hr) [fieldExch p n 0 false u, fieldExch p n 1 false u] (two (by simp)).1 (two (by simp)).2
    (fun r _ => by rw [← List.singleton_append, exchanges_append, calls_one, calls_one, ← calls_if]; rfl) fun r hr b hb => by
    dsimp only [burgers_rhs, part]
    rw [lapDirichlet (ctx S (by simp) hr) (fun h => hb h _ (by simp)), advSquaredDir hp (ctx S (by simp) hr) (fun h => hb h _ (by simp))]
    simp only [Option.bind_eq_bind, Option.bind_some, Option.pure_def, subV, scaleV, part_map, part_zip, Option.some.injEq]
    rfl

/-! ## The Jacobian products -/

theorem before_deriv {bc : Bc} {M : Nat} {F : ℝ → Nat → ℝ} {F' : Nat → ℝ} {s : ℝ} (h : ∀ c, HasDerivAt (fun s => F s c) (F' c) s) (k : Nat) :
    HasDerivAt (fun s => before bc M (F s) k) (before bc M F' k) s := by
  unfold before
  split
  · cases bc
    · exact hasDerivAt_const _ _
    · exact (((h 0).const_mul 4).sub (h 1)).div_const 3
    · exact h _
  · exact h _

theorem after_deriv {bc : Bc} {M : Nat} {F : ℝ → Nat → ℝ} {F' : Nat → ℝ} {s : ℝ} (h : ∀ c, HasDerivAt (fun s => F s c) (F' c) s) (k : Nat) :
    HasDerivAt (fun s => after bc M (F s) k) (after bc M F' k) s := by
  unfold after
  split
  · cases bc
    · exact hasDerivAt_const _ _
    · exact (((h _).const_mul 4).sub (h _)).div_const 3
    · exact h _
  · exact h _

theorem laplacian_deriv {bc : Bc} {M : Nat} {d s : ℝ} {U : ℝ → Nat → Nat → ℝ} {U' : Nat → Nat → ℝ}
    (h : ∀ a b, HasDerivAt (fun s => U s a b) (U' a b) s) (a b : Nat) :
    HasDerivAt (fun s => laplacian bc M d (U s) a b) (laplacian bc M d U' a b) s := by
  unfold laplacian second
  exact ((((before_deriv (h a) b).sub ((h a b).const_mul 2)).add (after_deriv (h a) b)).add
    (((before_deriv (F := fun s a => U s a b) (fun a => h a b) a).sub ((h a b).const_mul 2)).add
      (after_deriv (F := fun s a => U s a b) (fun a => h a b) a))).div_const _

theorem advection_deriv {bc : Bc} {M : Nat} {d s : ℝ} {U : ℝ → Nat → Nat → ℝ} {U' : Nat → Nat → ℝ}
    (h : ∀ a b, HasDerivAt (fun s => U s a b) (U' a b) s) (a b : Nat) :
    HasDerivAt (fun s => advection bc M d (U s) a b) (advection bc M d U' a b) s := by
  unfold advection central
  exact (((after_deriv (h a) b).sub (before_deriv (h a) b)).add
    ((after_deriv (F := fun s a => U s a b) (fun a => h a b) a).sub (before_deriv (F := fun s a => U s a b) (fun a => h a b) a))).div_const _

/-- the field `u + s v` -/
def along (u v : Nat → Nat → ℝ) (s : ℝ) (a b : Nat) : ℝ := u a b + s * v a b

theorem along_deriv (u v : Nat → Nat → ℝ) (a b : Nat) : HasDerivAt (fun s => along u v s a b) (v a b) 0 := by
  unfold along
  simpa using ((hasDerivAt_id (0 : ℝ)).mul_const (v a b)).const_add (u a b)

theorem along_zero (u v : Nat → Nat → ℝ) (a b : Nat) : along u v 0 a b = u a b := by simp [along]

theorem along_sq_deriv (u v : Nat → Nat → ℝ) (a b : Nat) : HasDerivAt (fun s => along u v s a b ^ 2) (2 * (v a b * u a b)) 0 := by
  have := (along_deriv u v a b).pow 2
  rw [along_zero] at this
  exact HasDerivAt.congr_deriv this (by ring)

/-- The function `op` computes the step times the derivative of `rhs` at `u` in the direction `v`, which exists. -/
def ComputesDerivative (p n : Nat) (op : Nat → Op) (rhs : (Nat → Nat → ℝ) → Nat → Nat → ℝ) (dt : ℝ) (u v : Nat → Nat → ℝ) : Prop :=
  (∀ a b, DifferentiableAt ℝ (fun s : ℝ => rhs (fun a b => u a b + s * v a b) a b) 0) ∧
  Computes p n op fun a b => dt * deriv (fun s : ℝ => rhs (fun a b => u a b + s * v a b) a b) 0

theorem computesDerivative {op : Nat → Op} {rhs : (Nat → Nat → ℝ) → Nat → Nat → ℝ} {dt : ℝ} {u v J : Nat → Nat → ℝ}
    (hJ : ∀ a b, HasDerivAt (fun s : ℝ => rhs (along u v s) a b) (J a b) 0) (h : Computes p n op fun a b => dt * J a b) :
    ComputesDerivative p n op rhs dt u v := by
  refine ⟨fun a b => (hJ a b).differentiableAt, ?_⟩
  have e : (fun a b => dt * deriv (fun s : ℝ => rhs (fun a b => u a b + s * v a b) a b) 0) = fun a b => dt * J a b := by
    funext a b
    rw [show deriv (fun s : ℝ => rhs (fun a b => u a b + s * v a b) a b) 0 = J a b from (hJ a b).deriv]
  rw [e]
  exact h

theorem lap_scale (bc : Bc) (M : Nat) (d c : ℝ) (u : Nat → Nat → ℝ) (a b : Nat) :
    laplacian bc M d (fun a b => c * u a b) a b = c * laplacian bc M d u a b := by
  unfold laplacian second before after
  cases bc <;> simp only <;> split_ifs <;> ring

theorem adv_scale (bc : Bc) (M : Nat) (d c : ℝ) (u : Nat → Nat → ℝ) (a b : Nat) :
    advection bc M d (fun a b => c * u a b) a b = c * advection bc M d u a b := by
  unfold advection central before after
  cases bc <;> simp only <;> split_ifs <;> ring

/-- **C81.** The Jacobian product of Allen–Cahn is the step times the derivative of the right-hand side. -/
theorem C81_allencahn (S : Started false xL xR numPoints p n W) (u v : Nat → Nat → ℝ) (dt ε : ℝ) :
    ComputesDerivative p n (fun r => allencahn_jtv (W r) (part p n v r) (part p n u r) dt ε)
      (allenCahn (p * n) (spacing xL xR numPoints) ε) dt u v := by
  refine computesDerivative (J := fun a b => ε * laplacian .neumann (p * n) (spacing xL xR numPoints) v a b + v a b - 3 * u a b ^ 2 * v a b)
    (fun a b => ?_) ?_
  · unfold allenCahn
    have h3 := (along_deriv u v a b).pow 3
    rw [along_zero] at h3
    exact HasDerivAt.congr_deriv ((((laplacian_deriv (along_deriv u v) a b).const_mul ε).add (along_deriv u v a b)).sub h3)
      (by push_cast; ring)
  · refine computes (fun _ hr => ctx S (by simp) hr) [fieldExch p n 0 false v] one.1 one.2 (fun r _ => by rw [calls_one]; rfl) fun r hr b hb => ?_
    dsimp only [allencahn_jtv, part]
    rw [lapNeumann (ctx S (by simp) hr) (fun h => hb h _ (by simp))]
    simp only [Option.bind_eq_bind, Option.bind_some, Option.pure_def, addV, subV, mulV, scaleV, part_map, part_zip, Option.some.injEq]
    congr 1
    funext a b
    ring

/-- **C81.** The Jacobian product of the advection, diffusion and reaction equation is the step times the derivative of the right-hand side. -/
theorem C81_adr (S : Started false xL xR numPoints p n W) (u v : Nat → Nat → ℝ) (dt ε α γ : ℝ) :
    ComputesDerivative p n (fun r => adr_jtv (W r) (part p n v r) (part p n u r) dt ε α γ)
      (adr (p * n) (spacing xL xR numPoints) ε α γ) dt u v := by
  refine computesDerivative (J := fun a b => ε * laplacian .neumann (p * n) (spacing xL xR numPoints) v a b -
    α * advection .neumann (p * n) (spacing xL xR numPoints) v a b + γ * (3 * u a b - 3 * u a b ^ 2 - 1 / 2) * v a b) (fun a b => ?_) ?_
  · unfold adr
    have h3 := (((along_deriv u v a b).const_mul γ).mul ((along_deriv u v a b).sub_const (1 / 2))).mul ((along_deriv u v a b).const_sub 1)
    exact HasDerivAt.congr_deriv ((((laplacian_deriv (along_deriv u v) a b).const_mul ε).sub
      ((advection_deriv (along_deriv u v) a b).const_mul α)).add h3) (by simp only [along_zero, Pi.mul_apply]; ring)
  · refine computes (fun _ hr => ctx S (by simp) hr) [fieldExch p n 0 false v, fieldExch p n 1 false v] (two (by simp)).1 (two (by simp)).2
      (fun r _ => by rw [← List.singleton_append, exchanges_append, calls_one, calls_one, ← calls_if]; rfl) fun r hr b hb => ?_
    dsimp only [adr_jtv, part]
    rw [lapNeumann (ctx S (by simp) hr) (fun h => hb h _ (by simp)), advNeumann (ctx S (by simp) hr) (fun h => hb h _ (by simp))]
    simp only [Option.bind_eq_bind, Option.bind_some, Option.pure_def, addV, subV, mulV, scaleV, part_map, part_zip, Option.some.injEq]

theorem three {u v w : Nat → Nat → ℝ} {per : Bool} : (∀ e ∈ [fieldExch p n 0 per u, fieldExch p n 1 per v, fieldExch p n 2 per w], e.per = per) ∧
    ∀ e ∈ [fieldExch p n 0 per u, fieldExch p n 1 per v, fieldExch p n 2 per w],
      ∀ e' ∈ [fieldExch p n 0 per u, fieldExch p n 1 per v, fieldExch p n 2 per w], e.k = e'.k → e = e' := by
  simp [fieldExch]

/-- **C81** (partial: at least four processes) The Jacobian product of the porous medium equation is the step times the derivative of the
right-hand side. -/
theorem C81_porous_partial (hp : 2 ≤ p) (S : Started true xL xR numPoints p n W) (u v : Nat → Nat → ℝ) (dt α : ℝ) :
    ComputesDerivative p n (fun r => porous_jtv (W r) (part p n v r) (part p n u r) dt α)
      (porous (p * n) (spacing xL xR numPoints) α) dt u v := by
  refine computesDerivative (J := fun a b => 2 * 1 * laplacian .periodic (p * n) (spacing xL xR numPoints) (fun a b => v a b * u a b) a b +
    α * advection .periodic (p * n) (spacing xL xR numPoints) v a b) (fun a b => ?_) ?_
  · unfold porous
    exact HasDerivAt.congr_deriv ((laplacian_deriv (along_sq_deriv u v) a b).add ((advection_deriv (along_deriv u v) a b).const_mul α))
      (by rw [lap_scale]; ring)
  · refine computes (fun _ hr => ctx S (fun _ => hp) hr) [fieldExch p n 0 true v, fieldExch p n 1 true v, fieldExch p n 2 true u] three.1 three.2
      (fun r _ => by
        rw [show ([fieldExch p n 0 true v, fieldExch p n 1 true v, fieldExch p n 2 true u] : List Exch) =
          [fieldExch p n 0 true v] ++ ([fieldExch p n 1 true v] ++ [fieldExch p n 2 true u]) from rfl, exchanges_append, exchanges_append,
          calls_oneP, calls_oneP, calls_oneP, ← calls_if]
        rfl) fun r hr b hb => ?_
    dsimp only [porous_jtv, part]
    rw [advPeriodic (ctx S (fun _ => hp) hr) (fun h => hb h _ (by simp)),
      lapProduct (ctx S (fun _ => hp) hr) (fun h => hb h _ (by simp)) (fun h => hb h _ (by simp))]
    simp only [Option.bind_eq_bind, Option.bind_some, Option.pure_def, addV, scaleV, part_map, part_zip, Option.some.injEq]

/-- **C81** (partial: at least four processes) The Jacobian product of Burgers' equation is the step times the derivative of the right-hand side. -/
theorem C81_burgers_partial (hp : 2 ≤ p) (S : Started false xL xR numPoints p n W) (u v : Nat → Nat → ℝ) (dt ε α : ℝ) :
    ComputesDerivative p n (fun r => burgers_jtv (W r) (part p n v r) (part p n u r) dt ε α)
      (burgers (p * n) (spacing xL xR numPoints) ε α) dt u v := by
  refine computesDerivative (J := fun a b => ε * laplacian .dirichlet (p * n) (spacing xL xR numPoints) v a b -
    α * advection .dirichlet (p * n) (spacing xL xR numPoints) (fun a b => v a b * u a b) a b) (fun a b => ?_) ?_
  · unfold burgers
    exact HasDerivAt.congr_deriv (((laplacian_deriv (along_deriv u v) a b).const_mul ε).sub
      (((advection_deriv (along_sq_deriv u v) a b).div_const 2).const_mul α)) (by rw [adv_scale]; ring)
  · refine computes (fun _ hr => ctx S (by simp) hr) [fieldExch p n 0 false v, fieldExch p n 1 false v, fieldExch p n 2 false u] three.1 three.2
      (fun r _ => by
        rw [show ([fieldExch p n 0 false v, fieldExch p n 1 false v, fieldExch p n 2 false u] : List Exch) =
          [fieldExch p n 0 false v] ++ ([fieldExch p n 1 false v] ++ [fieldExch p n 2 false u]) from rfl, exchanges_append, exchanges_append,
          calls_one, calls_one, calls_one, ← calls_if]
        rfl) fun r hr b hb => ?_
    dsimp only [burgers_jtv, part]
    rw [lapDirichlet (ctx S (by simp) hr) (fun h => hb h _ (by simp)),
      advProductDir hp (ctx S (by simp) hr) (fun h => hb h _ (by simp)) (fun h => hb h _ (by simp))]
    simp only [Option.bind_eq_bind, Option.bind_some, Option.pure_def, subV, scaleV, part_map, part_zip, Option.some.injEq]

/-! ## Points, and where the operators fail -/

/-- **C80.** The processes hold the points of the whole square: point `(j, i)` of the process in row `Y` and column `X` has the coordinates of
point `(Y n + j, X n + i)`; the point after the last is the right (upper) boundary. -/
theorem C80_points {per : Bool} (S : Started per xL xR numPoints p n W) {r : Nat} (hr : r < p * p) (i : Nat) :
    (W r).n = n ∧ (W r).dx = spacing xL xR numPoints ∧
    (W r).startX + i * (W r).dx = xL + ((r % p * n + i : ℕ) + if per then 0 else 1) * spacing xL xR numPoints ∧
    (W r).startY + i * (W r).dx = xL + ((r / p * n + i : ℕ) + if per then 0 else 1) * spacing xL xR numPoints ∧
    xL + ((p * n : ℕ) + if per then 0 else 1) * spacing xL xR numPoints = xR := by
  have hp0 : 0 < p := Nat.pos_of_ne_zero fun h0 => by subst h0; omega
  have hs : Nat.sqrt (p * p) = p := Nat.sqrt_eq p
  have hw := S.world r hr
  unfold initWorld at hw
  simp only [hs, pow_two, ne_eq, not_true_eq_false, if_false, Option.some.injEq] at hw
  have hn : pointsPerAxis per numPoints / p = n := by
    unfold pointsPerAxis
    rw [S.points]
    cases per <;> simp [Nat.mul_div_cancel_left n hp0]
  have hpn : 2 ≤ p * n := Nat.le_trans S.n2 (Nat.le_mul_of_pos_left n hp0)
  have hR : ((p * n : ℕ) : ℝ) ≠ 0 := by
    have : p * n ≠ 0 := by omega
    exact_mod_cast this
  have hR1 : ((p * n : ℕ) : ℝ) + 1 ≠ 0 := by
    have : p * n + 1 ≠ 0 := by omega
    exact_mod_cast this
  rw [← hw]
  refine ⟨hn, rfl, ?_, ?_, ?_⟩
  · simp only [hn, spacing]
    cases per <;> simp <;> push_cast <;> ring
  · simp only [hn, spacing]
    cases per <;> simp <;> push_cast <;> ring
  · unfold spacing
    rw [S.points]
    cases per
    · simp only [Bool.false_eq_true, if_false, Nat.cast_add, Nat.cast_ofNat]
      rw [show ((p * n : ℕ) : ℝ) + 2 - 1 = ((p * n : ℕ) : ℝ) + 1 by ring]
      field_simp
      ring
    · simp only [if_true, Nat.cast_add, Nat.cast_one, add_zero, add_sub_cancel_right]
      field_simp
      ring

/-- The number of processes is not a square: the program exits. -/
theorem C80_not_square (per : Bool) (size r : Nat) (h : ∀ p, p * p ≠ size) : initWorld per xL xR numPoints size r = none := by
  unfold initWorld
  simp only [pow_two]
  rw [if_pos (h _)]

/-- **C80 fails** when the points are not divided evenly: the last ones are left out, and the point after the last process lies inside the square,
not on its boundary, although the operators use the boundary condition there. -/
theorem C80_dropped_points_fails {per : Bool} (hx : xL < xR) (hp : 0 < p) {r : Nat} (hr : r % p = p - 1)
    (hd : ¬ p ∣ pointsPerAxis per numPoints) {w : World} (hw : initWorld per xL xR numPoints (p * p) r = some w) :
    p * w.n < pointsPerAxis per numPoints ∧ w.startX + w.n * w.dx < xR := by
  have hs : Nat.sqrt (p * p) = p := Nat.sqrt_eq p
  unfold initWorld at hw
  simp only [hs, pow_two, ne_eq, not_true_eq_false, if_false, Option.some.injEq] at hw
  have hlt : p * (pointsPerAxis per numPoints / p) < pointsPerAxis per numPoints :=
    Nat.lt_of_le_of_ne (Nat.mul_div_le _ _) fun h => hd ⟨_, h.symm⟩
  subst hw
  refine ⟨hlt, ?_⟩
  generalize hq : pointsPerAxis per numPoints / p = q at hlt
  simp only [hq, hr]
  have hp1 : ((p - 1 : ℕ) : ℝ) = (p : ℝ) - 1 := by rw [Nat.cast_sub hp]; simp
  rw [hp1]
  cases per
  · simp only [Bool.false_eq_true, if_false, pointsPerAxis] at hlt ⊢
    have hN : (p : ℝ) * q + 1 < (numPoints : ℝ) - 1 := by
      have : p * q + 2 < numPoints := by omega
      have : ((p * q + 2 : ℕ) : ℝ) < numPoints := by exact_mod_cast this
      push_cast at this
      linarith
    have h0 : (0 : ℝ) < (numPoints : ℝ) - 1 := lt_trans (by positivity) hN
    have hdx : 0 < (xR - xL) / ((numPoints : ℝ) - 1) := div_pos (by linarith) h0
    have key : (xR - xL) / ((numPoints : ℝ) - 1) * (p * q + 1) < xR - xL := by
      calc _ < (xR - xL) / ((numPoints : ℝ) - 1) * ((numPoints : ℝ) - 1) := mul_lt_mul_of_pos_left hN hdx
        _ = xR - xL := div_mul_cancel₀ _ h0.ne'
    nlinarith [key]
  · simp only [if_true, pointsPerAxis] at hlt ⊢
    have hN : (p : ℝ) * q < (numPoints : ℝ) - 1 := by
      have : p * q + 1 < numPoints := by omega
      have : ((p * q + 1 : ℕ) : ℝ) < numPoints := by exact_mod_cast this
      push_cast at this
      linarith
    have h0 : (0 : ℝ) < (numPoints : ℝ) - 1 := lt_of_le_of_lt (by positivity) hN
    have hdx : 0 < (xR - xL) / ((numPoints : ℝ) - 1) := div_pos (by linarith) h0
    have key : (xR - xL) / ((numPoints : ℝ) - 1) * (p * q) < xR - xL := by
      calc _ < (xR - xL) / ((numPoints : ℝ) - 1) * ((numPoints : ℝ) - 1) := mul_lt_mul_of_pos_left hN hdx
        _ = xR - xL := div_mul_cancel₀ _ h0.ne'
    nlinarith [key]

theorem cells_none {w : World} {f : Nat → Nat → Option ℝ} {j i : Nat} (hj : j < w.n) (hi : i < w.n) (h : f j i = none) : cells w f = none := by
  have key : ∀ l : List (Nat × Nat), (j, i) ∈ l → (l.mapM fun c => f c.1 c.2) = none := by
    intro l
    induction l with
    | nil => simp
    | cons c l ih =>
      intro hm
      rw [List.mapM_cons]
      rcases List.mem_cons.mp hm with rfl | hm
      · rw [h]; rfl
      · rw [ih hm]
        cases f c.1 c.2 <;> rfl
  exact key _ (by simp only [List.mem_flatMap, List.mem_map, List.mem_range]; exact ⟨j, hj, i, hi, rfl⟩)

theorem add_none (a : Option ℝ) : add a none = none := by cases a <;> rfl

theorem none_add (a : Option ℝ) : add none a = none := rfl

theorem sub_none (a : Option ℝ) : sub a none = none := by cases a <;> rfl

theorem none_sub (a : Option ℝ) : sub none a = none := rfl

theorem mul_none (a : Option ℝ) : mul a none = none := by cases a <;> rfl

theorem near_none (s : Side) (i : Nat) : near none s i = none := rfl

theorem none_mul (a : Option ℝ) : mul none a = none := rfl

theorem sq_none : sq none = none := rfl

theorem one_process {per : Bool} {r : Nat} {w : World} (hw : initWorld per xL xR numPoints 1 r = some w) (k : Nat) (b : Buf → List ℝ) :
    halo w k b = none ∧ w.size = 1 ∧ w.procs = 1 ∧ w.procY = r / 1 := by
  have hs : Nat.sqrt 1 = 1 := Nat.sqrt_eq 1
  unfold initWorld at hw
  simp only [hs, one_pow, ne_eq, not_true_eq_false, if_false, Option.some.injEq] at hw
  subst hw
  exact ⟨rfl, rfl, rfl, rfl⟩

/-- **C80 fails** with one process: no function with periodic boundaries, and none for the advection with zero values outside, returns; so neither
the right-hand sides nor the Jacobian products of the porous medium and Burgers' equations do. -/
theorem C80_one_process_fails {per : Bool} {w : World} (hw : initWorld per xL xR numPoints 1 0 = some w) (hn : 2 ≤ w.n) (vec u : List ℝ)
    (α ε dt : ℝ) (k : Nat) (b : Buf → List ℝ) :
    (laplacianPeriodic k w vec ε).value b = none ∧ (laplacianUsquared k w vec).value b = none ∧
    (nonLinLapPeriodic k w vec u ε).value b = none ∧ (advectionPeriodic k w vec α).value b = none ∧
    (advectionUsquared k w vec).value b = none ∧ (nonLinAdvecPeriodic k w vec u α).value b = none ∧
    (advectionDirichlet k w vec α).value b = none ∧ (advectionUsquaredDir k w vec).value b = none ∧
    (nonLinAdvecDirichlet k w vec u α).value b = none ∧
    (porous_rhs w vec α).value b = none ∧ (porous_jtv w vec u dt α).value b = none ∧
    (burgers_rhs w vec ε α).value b = none ∧ (burgers_jtv w vec u dt ε α).value b = none := by
  have H := fun k => (one_process hw k b).1
  obtain ⟨-, hsz, hpr, -⟩ := one_process hw 0 b
  have h0 : 0 < w.n := by omega
  have h1 : w.n - 1 < w.n := by omega
  have hne : w.n - 1 ≠ 0 := by omega
  have P : ∀ k, (advectionPeriodic k w vec α).value b = none := fun k => by
    dsimp only [advectionPeriodic]
    exact cells_none h0 h0 (by simp [H, near_none, add_none, none_add, sub_none])
  have D : ∀ k, (advectionUsquaredDir k w vec).value b = none := fun k => by
    dsimp only [advectionUsquaredDir]
    exact cells_none h1 h0 (by simp [H, near_none, add_none, none_sub, sq_none, hsz, hne])
  have N : ∀ k, (nonLinAdvecDirichlet k w vec u α).value b = none := fun k => by
    dsimp only [nonLinAdvecDirichlet]
    exact cells_none h1 h0 (by simp [H, near_none, add_none, none_sub, none_mul, hsz, hne])
  refine ⟨?_, ?_, ?_, P k, ?_, ?_, ?_, D k, N k, ?_, ?_, ?_, ?_⟩
  · dsimp only [laplacianPeriodic]
    exact cells_none h0 h0 (by simp [H, near_none, none_add, add_none])
  · dsimp only [laplacianUsquared]
    exact cells_none h0 h0 (by simp [H, near_none, none_add, add_none, sq_none])
  · dsimp only [nonLinLapPeriodic]
    exact cells_none h0 h0 (by simp [H, near_none, none_add, add_none, none_mul])
  · dsimp only [advectionUsquared]
    exact cells_none h0 h0 (by simp [H, near_none, add_none, none_add, sub_none, sq_none])
  · dsimp only [nonLinAdvecPeriodic]
    exact cells_none h0 h0 (by simp [H, near_none, add_none, none_add, sub_none, none_mul])
  · dsimp only [advectionDirichlet]
    exact cells_none h1 h0 (by simp [H, near_none, add_none, none_sub, hsz, hne])
  · simp [porous_rhs, P]
  · simp [porous_jtv, P]
  · simp only [burgers_rhs, D]; cases (laplacianDirichlet 0 w vec ε).value b <;> rfl
  · simp only [burgers_jtv, N]; cases (laplacianDirichlet 0 w vec ε).value b <;> rfl

/-- **C80 fails** with one point per process: no function returns. -/
theorem C80_one_point_fails {w : World} (hn : w.n = 1) (x y α ε : ℝ) (k : Nat) (b : Buf → List ℝ) :
    (laplacianDirichlet k w [x] ε).value b = none ∧ (laplacianNeumann k w [x] ε).value b = none ∧
    (laplacianPeriodic k w [x] ε).value b = none ∧ (laplacianUsquared k w [x]).value b = none ∧
    (nonLinLapPeriodic k w [x] [y] ε).value b = none ∧ (advectionDirichlet k w [x] α).value b = none ∧
    (advectionNeumann k w [x] α).value b = none ∧ (advectionPeriodic k w [x] α).value b = none ∧
    (advectionUsquaredDir k w [x]).value b = none ∧ (advectionUsquared k w [x]).value b = none ∧
    (nonLinAdvecDirichlet k w [x] [y] α).value b = none ∧ (nonLinAdvecPeriodic k w [x] [y] α).value b = none := by
  have h0 : 0 < w.n := by omega
  refine ⟨?_, ?_, ?_, ?_, ?_, ?_, ?_, ?_, ?_, ?_, ?_, ?_⟩ <;>
    dsimp only [laplacianDirichlet, laplacianNeumann, laplacianPeriodic, laplacianUsquared, nonLinLapPeriodic, advectionDirichlet, advectionNeumann,
      advectionPeriodic, advectionUsquaredDir, advectionUsquared, nonLinAdvecDirichlet, nonLinAdvecPeriodic] <;>
    exact cells_none h0 h0 (by simp [none_add, add_none, none_sub, none_mul, sq_none])

/-! ## Concrete cases -/

/-- four processes with two by two points each: 6 points per line, periodic 5 -/
example : ∃ W, Started false 0 1 6 2 2 W :=
  ⟨fun r => (initWorld false 0 1 6 (2 * 2) r).get (by unfold initWorld; rw [show Nat.sqrt (2 * 2) = 2 from Nat.sqrt_eq 2]; simp),
    ⟨rfl, Nat.le_refl 2, fun r _ => by simp⟩⟩

/-- at any size, processes can be started -/
theorem can_start (per : Bool) (xL xR : ℝ) (p n : Nat) (hn : 2 ≤ n) : ∃ W, Started per xL xR (p * n + if per then 1 else 2) p n W :=
  ⟨fun r => (initWorld per xL xR (p * n + if per then 1 else 2) (p * p) r).get (by unfold initWorld; simp [Nat.sqrt_eq, pow_two]),
    ⟨rfl, hn, fun r _ => by simp⟩⟩

/-- Burgers' equation on nine processes with ten by ten points each -/
example (u : Nat → Nat → ℝ) : ∃ W : Nat → World, Computes 3 10 (fun r => burgers_rhs (W r) (part 3 10 u r) (1 / 10) 1) (burgers 30 (spacing 0 1 32) (1 / 10) 1 u) := by
  obtain ⟨W, hW⟩ := can_start false 0 1 3 10 (by omega)
  exact ⟨W, C80_burgers_rhs_partial (by omega) hW u _ _⟩

/-- the benchmark's 10001 periodic points on 9 processes: 10000 is not a multiple of 3, so the last row and column are left out -/
example : ∃ w, initWorld true 0 1 10001 (3 * 3) 2 = some w ∧ 3 * w.n < 10000 ∧ w.startX + w.n * w.dx < 1 := by
  have : (initWorld true 0 1 10001 (3 * 3) 2).isSome := by
    unfold initWorld
    rw [show Nat.sqrt (3 * 3) = 3 from Nat.sqrt_eq 3]
    simp
  obtain ⟨w, hw⟩ := Option.isSome_iff_exists.mp this
  exact ⟨w, hw, C80_dropped_points_fails (by norm_num) (by omega) (by omega) (by unfold pointsPerAxis; decide) hw⟩

/-- one process with four by four points -/
example : ∃ w, initWorld false 0 1 6 1 0 = some w ∧ 2 ≤ w.n := by
  unfold initWorld
  rw [show Nat.sqrt 1 = 1 from Nat.sqrt_eq 1]
  exact ⟨_, by rw [if_neg (by simp)], by simp [pointsPerAxis]⟩

end

end WxVerif.Props.StiffPdes
