import Verif.Model.StepReport
import Mathlib.Algebra.BigOperators.Group.List.Basic
import Mathlib.Data.Rat.Defs
import Mathlib.Algebra.Order.Ring.Rat
import Mathlib.Tactic.NormNum
import Mathlib.Tactic.Ring

/-!
# Property C106: what the steps of an integrator report
-/

namespace WxVerif.Props.StepReport

open WxVerif.StepReport

variable {K M Q : Type} [Field K]

/-! ## Specification -/

/-- the flags that the solver of a method returned in a sequence of steps -/
def solves (f : M → Q → K → M × Q × (Nat → Int)) : M → Q → List K → List (Nat → Int)
  | _, _, [] => []
  | mem, q, dt :: dts => (f mem q dt).2.2 :: solves f (f mem q dt).1 (f mem q dt).2.1 dts

/-- a simulation starts the steps of sizes `dts` at time `t0`, each when the one before it ends -/
def starts (t0 : K) : List K → List (K × K)
  | [] => []
  | dt :: dts => (t0, dt) :: starts (t0 + dt) dts

omit [Field K] in
/-- the shape of the attributes is that of the integrator -/
def Shape : Scheme K M Q → Obj K M → Prop
  | .basic _ _, .basic _ _ => True
  | .lie s1 s2, .split o1 o2 _ => Shape s1 o1 ∧ Shape s2 o2
  | .strang s1 s2, .split o1 o2 _ => Shape s1 o1 ∧ Shape s2 o2
  | _, _ => False

omit [Field K] in
/-- no output manager anywhere -/
def Quiet : Obj K M → Prop
  | .basic _ b => b.out = false
  | .split o1 o2 b => Quiet o1 ∧ Quiet o2 ∧ b.out = false

omit [Field K] in
/-- an output manager in the integrator itself and none in its parts; no information left over -/
def Attached : Obj K M → Prop
  | .basic _ b => b.out = true ∧ b.info = none
  | .split o1 o2 b => Quiet o1 ∧ Quiet o2 ∧ b.out = true ∧ b.info = none

/-- the integrators that set the flag the simulation reads -/
def IsRos2 : Scheme K M Q → Prop
  | .basic m _ => m = .ros2Fgmres ∨ m = .ros2Gcrot
  | _ => False

/-- the integrators that put the flag of their solver into the statistics -/
def Records : Scheme K M Q → Prop
  | .basic m _ => m = .ros2Fgmres ∨ m = .rosexp2 ∨ m = .partrosexp2
  | _ => False

/-! ## Auxiliary facts -/

omit [Field K] in
theorem report_out (m : Method) (fl : Nat → Int) (b : Base K) : (report m fl b).out = b.out := by cases m <;> rfl

omit [Field K] in
theorem report_time (m : Method) (fl : Nat → Int) (b : Base K) : (report m fl b).time = b.time := by cases m <;> rfl

omit [Field K] in
theorem report_done (m : Method) (fl : Nat → Int) (b : Base K) : (report m fl b).done = b.done := by cases m <;> rfl

omit [Field K] in
theorem stored_quiet (b : Base K) (dt : K) (h : b.out = false) : stored b dt = [] := by simp [stored, h]

/-- a step of integrators without an output manager stores nothing -/
theorem step_quiet (s : Scheme K M Q) : ∀ (o : Obj K M) (q : Q) (dt : K), Shape s o → Quiet o →
    Shape s (step s o q dt).obj ∧ Quiet (step s o q dt).obj ∧ (step s o q dt).rows = [] := by
  induction s with
  | basic m f =>
    intro o q dt hs hq
    cases o with
    | basic mem b =>
      refine ⟨trivial, ?_, ?_⟩
      · show (report m _ b).out = false
        rw [report_out]; exact hq
      · show stored (report m _ b) dt = []
        exact stored_quiet _ _ (by rw [report_out]; exact hq)
    | split => exact hs.elim
  | lie s1 s2 h1 h2 =>
    intro o q dt hs hq
    cases o with
    | basic => exact hs.elim
    | split o1 o2 b =>
      obtain ⟨a1, a2, a3⟩ := h1 o1 q dt hs.1 hq.1
      obtain ⟨b1, b2, b3⟩ := h2 o2 (step s1 o1 q dt).q dt hs.2 hq.2.1
      refine ⟨⟨a1, b1⟩, ⟨a2, b2, hq.2.2⟩, ?_⟩
      show (step s1 o1 q dt).rows ++ (step s2 o2 (step s1 o1 q dt).q dt).rows ++ stored b dt = []
      rw [a3, b3, stored_quiet _ _ hq.2.2]; rfl
  | strang s1 s2 h1 h2 =>
    intro o q dt hs hq
    cases o with
    | basic => exact hs.elim
    | split o1 o2 b =>
      obtain ⟨a1, a2, a3⟩ := h1 o1 q (dt / 2) hs.1 hq.1
      obtain ⟨b1, b2, b3⟩ := h2 o2 (step s1 o1 q (dt / 2)).q dt hs.2 hq.2.1
      obtain ⟨c1, c2, c3⟩ := h1 (step s1 o1 q (dt / 2)).obj (step s2 o2 (step s1 o1 q (dt / 2)).q dt).q (dt / 2) a1 a2
      refine ⟨⟨c1, b1⟩, ⟨c2, b2, hq.2.2⟩, ?_⟩
      show (step s1 o1 q (dt / 2)).rows ++ (step s2 o2 (step s1 o1 q (dt / 2)).q dt).rows ++
        (step s1 (step s1 o1 q (dt / 2)).obj (step s2 o2 (step s1 o1 q (dt / 2)).q dt).q (dt / 2)).rows ++ stored b dt = []
      rw [a3, b3, c3, stored_quiet _ _ hq.2.2]; rfl

/-- one step of an integrator with an output manager stores one row -/
theorem step_attached (s : Scheme K M Q) (o : Obj K M) (q : Q) (dt : K) (hs : Shape s o) (ha : Attached o) :
    Shape s (step s o q dt).obj ∧ Attached (step s o q dt).obj ∧ (step s o q dt).obj.base.time = o.base.time + dt ∧
    (step s o q dt).obj.base.done = o.base.done + 1 ∧
    ∃ fl, (step s o q dt).rows = [⟨o.base.time, dt, fl⟩] ∧ (¬ Records s → fl = 0) ∧
      (¬ IsRos2 s → (step s o q dt).obj.base.failure = o.base.failure) := by
  cases s with
  | basic m f =>
    cases o with
    | split => exact hs.elim
    | basic mem b =>
      obtain ⟨h1, h2⟩ := ha
      refine ⟨trivial, ⟨by show (report m _ b).out = true; rw [report_out]; exact h1, rfl⟩,
        by show (report m _ b).time + dt = b.time + dt; rw [report_time],
        by show (report m _ b).done + 1 = b.done + 1; rw [report_done],
        ((report m (f mem q dt).2.2 b).info.getD fun _ => 0) 0, ?_, ?_, ?_⟩
      · show stored (report m (f mem q dt).2.2 b) dt = [⟨b.time, dt, ((report m (f mem q dt).2.2 b).info.getD fun _ => 0) 0⟩]
        rw [stored, report_out, h1, report_time]; rfl
      · intro hr
        cases m <;> first | (exfalso; apply hr; simp [Records]; done) | (simp [report, h2])
      · intro hr
        show (report m (f mem q dt).2.2 b).failure = b.failure
        cases m <;> first | (exfalso; apply hr; simp [IsRos2]; done) | rfl
  | lie s1 s2 =>
    cases o with
    | basic => exact hs.elim
    | split o1 o2 b =>
      obtain ⟨q1, q2, h1, h2⟩ := ha
      obtain ⟨a1, a2, a3⟩ := step_quiet s1 o1 q dt hs.1 q1
      obtain ⟨b1, b2, b3⟩ := step_quiet s2 o2 (step s1 o1 q dt).q dt hs.2 q2
      refine ⟨⟨a1, b1⟩, ⟨a2, b2, h1, rfl⟩, rfl, rfl, 0, ?_, fun _ => rfl, fun _ => rfl⟩
      show (step s1 o1 q dt).rows ++ (step s2 o2 (step s1 o1 q dt).q dt).rows ++ stored b dt = [⟨b.time, dt, 0⟩]
      rw [a3, b3, stored, h1, h2]; rfl
  | strang s1 s2 =>
    cases o with
    | basic => exact hs.elim
    | split o1 o2 b =>
      obtain ⟨q1, q2, h1, h2⟩ := ha
      obtain ⟨a1, a2, a3⟩ := step_quiet s1 o1 q (dt / 2) hs.1 q1
      obtain ⟨b1, b2, b3⟩ := step_quiet s2 o2 (step s1 o1 q (dt / 2)).q dt hs.2 q2
      obtain ⟨c1, c2, c3⟩ := step_quiet s1 (step s1 o1 q (dt / 2)).obj (step s2 o2 (step s1 o1 q (dt / 2)).q dt).q (dt / 2) a1 a2
      refine ⟨⟨c1, b1⟩, ⟨c2, b2, h1, rfl⟩, rfl, rfl, 0, ?_, fun _ => rfl, fun _ => rfl⟩
      show (step s1 o1 q (dt / 2)).rows ++ (step s2 o2 (step s1 o1 q (dt / 2)).q dt).rows ++
        (step s1 (step s1 o1 q (dt / 2)).obj (step s2 o2 (step s1 o1 q (dt / 2)).q dt).q (dt / 2)).rows ++ stored b dt = [⟨b.time, dt, 0⟩]
      rw [a3, b3, c3, stored, h1, h2]; rfl

theorem fresh_shape (mem : M) (s : Scheme K M Q) : Shape s (fresh mem s) ∧ Quiet (fresh mem s) := by
  induction s with
  | basic => exact ⟨trivial, rfl⟩
  | lie s1 s2 h1 h2 => exact ⟨⟨h1.1, h2.1⟩, h1.2, h2.2, rfl⟩
  | strang s1 s2 h1 h2 => exact ⟨⟨h1.1, h2.1⟩, h1.2, h2.2, rfl⟩

theorem attach_fresh (mem : M) (t : K) (s : Scheme K M Q) :
    Shape s (attach t (fresh mem s)) ∧ Attached (attach t (fresh mem s)) ∧ (attach t (fresh mem s)).base.time = t ∧
    (attach t (fresh mem s)).base.done = 0 ∧ (attach t (fresh mem s)).base.failure = fun _ => 0 := by
  cases s with
  | basic => exact ⟨trivial, ⟨rfl, rfl⟩, rfl, rfl, rfl⟩
  | lie s1 s2 => exact ⟨⟨(fresh_shape mem s1).1, (fresh_shape mem s2).1⟩, ⟨(fresh_shape mem s1).2, (fresh_shape mem s2).2, rfl, rfl⟩, rfl, rfl, rfl⟩
  | strang s1 s2 => exact ⟨⟨(fresh_shape mem s1).1, (fresh_shape mem s2).1⟩, ⟨(fresh_shape mem s1).2, (fresh_shape mem s2).2, rfl, rfl⟩, rfl, rfl, rfl⟩

theorem steps_attached (s : Scheme K M Q) : ∀ (dts : List K) (o : Obj K M) (q : Q), Shape s o → Attached o →
    (steps s o q dts).rows.map (fun r => (r.time, r.dt)) = starts o.base.time dts ∧
    (steps s o q dts).obj.base.time = o.base.time + dts.sum ∧ (steps s o q dts).obj.base.done = o.base.done + dts.length ∧
    (¬ Records s → ∀ r ∈ (steps s o q dts).rows, r.flag = 0) ∧
    (¬ IsRos2 s → (steps s o q dts).obj.base.failure = o.base.failure)
  | [], o, q, _, _ => ⟨rfl, by simp [steps], rfl, fun _ r hr => by simp [steps] at hr, fun _ => rfl⟩
  | dt :: dts, o, q, hs, ha => by
    obtain ⟨a1, a2, a3, a4, fl, a5, a6, a7⟩ := step_attached s o q dt hs ha
    obtain ⟨b1, b2, b3, b4, b5⟩ := steps_attached s dts (step s o q dt).obj (step s o q dt).q a1 a2
    refine ⟨?_, ?_, ?_, ?_, ?_⟩
    · show ((step s o q dt).rows ++ (steps s (step s o q dt).obj (step s o q dt).q dts).rows).map _ = _
      rw [List.map_append, b1, a5, a3]; rfl
    · show (steps s (step s o q dt).obj (step s o q dt).q dts).obj.base.time = _
      rw [b2, a3, List.sum_cons]; ring
    · show (steps s (step s o q dt).obj (step s o q dt).q dts).obj.base.done = _
      rw [b3, a4, List.length_cons]; omega
    · intro hr r hm
      have hm : r ∈ (step s o q dt).rows ++ (steps s (step s o q dt).obj (step s o q dt).q dts).rows := hm
      rcases List.mem_append.1 hm with h | h
      · rw [a5, List.mem_singleton] at h
        rw [h]; exact a6 hr
      · exact b4 hr r h
    · intro hr
      show (steps s (step s o q dt).obj (step s o q dt).q dts).obj.base.failure = _
      rw [b5 hr, a7 hr]

/-! ## C106 -/

/-- **C106 (one row per step, at the right time).** Whatever the integrator, also a splitting whose parts take their own steps, the
statistics get exactly one row for each step, with the time at which the step started and its size; the clock of the integrator and its
count of steps are those of the simulation. -/
theorem C106_rows (s : Scheme K M Q) (mem : M) (t0 : K) (q : Q) (dts : List K) :
    let r := steps s (attach t0 (fresh mem s)) q dts
    r.rows.map (fun r => (r.time, r.dt)) = starts t0 dts ∧ r.obj.base.time = t0 + dts.sum ∧ r.obj.base.done = dts.length := by
  intro r
  obtain ⟨h1, h2, h3, h4, -⟩ := attach_fresh mem t0 s
  obtain ⟨a1, a2, a3, -⟩ := steps_attached s dts _ q h1 h2
  rw [h3] at a1 a2
  rw [h4, Nat.zero_add] at a3
  exact ⟨a1, a2, a3⟩

theorem steps_basic (m : Method) (f : M → Q → K → M × Q × (Nat → Int)) : ∀ (dts : List K) (mem : M) (b : Base K) (q : Q), b.out = true →
    (m = .ros2Fgmres ∨ m = .rosexp2 ∨ m = .partrosexp2 →
      (steps (.basic m f) (.basic mem b) q dts).rows.map (fun r => r.flag) = (solves f mem q dts).map fun fl => fl 0) ∧
    (m = .ros2Fgmres ∨ m = .ros2Gcrot →
      (steps (.basic m f) (.basic mem b) q dts).obj.base.failure = (solves f mem q dts).getLastD b.failure)
  | [], _, _, _, _ => ⟨fun _ => rfl, fun _ => rfl⟩
  | dt :: dts, mem, b, q, ho => by
    obtain ⟨h1, h2⟩ := steps_basic m f dts (f mem q dt).1 (finish (report m (f mem q dt).2.2 b) dt) (f mem q dt).2.1
      (by show (report m _ b).out = true; rw [report_out]; exact ho)
    refine ⟨fun hm => ?_, fun hm => ?_⟩
    · show (stored (report m (f mem q dt).2.2 b) dt ++
        (steps (.basic m f) (.basic (f mem q dt).1 (finish (report m (f mem q dt).2.2 b) dt)) (f mem q dt).2.1 dts).rows).map _ = _
      rw [List.map_append, h1 hm, stored, report_out, ho]
      rcases hm with rfl | rfl | rfl <;> rfl
    · show (steps (.basic m f) (.basic (f mem q dt).1 (finish (report m (f mem q dt).2.2 b) dt)) (f mem q dt).2.1 dts).obj.base.failure = _
      rw [h2 hm, solves, List.getLastD_cons]
      rcases hm with rfl | rfl <;> rfl

/-- **C106 (the flag in the statistics), the part that holds.** With Ros2 and FGMRES and with the two Rosenbrock-exponential methods, the
row of each step has the flag that the linear solver returned in that step. -/
theorem C106_recorded_partial (m : Method) (hm : m = .ros2Fgmres ∨ m = .rosexp2 ∨ m = .partrosexp2)
    (f : M → Q → K → M × Q × (Nat → Int)) (mem : M) (t0 : K) (q : Q) (dts : List K) :
    (steps (.basic m f) (attach t0 (fresh mem (.basic m f))) q dts).rows.map (fun r => r.flag) = (solves f mem q dts).map fun fl => fl 0 :=
  (steps_basic m f dts mem _ q rfl).1 hm

/-- **C106 is violated in the statistics** by Ros2 with GCROT, by the methods with a Newton solver and by both splittings: whatever their
solvers return in whatever history of steps, every row says that the solver succeeded. -/
theorem C106_recorded_fails (s : Scheme K M Q) (hs : ¬ Records s) (mem : M) (t0 : K) (q : Q) (dts : List K) :
    (steps s (attach t0 (fresh mem s)) q dts).rows.length = dts.length ∧
    ∀ r ∈ (steps s (attach t0 (fresh mem s)) q dts).rows, r.flag = 0 := by
  obtain ⟨h1, h2, -⟩ := attach_fresh mem t0 s
  obtain ⟨a1, -, -, a4, -⟩ := steps_attached s dts _ q h1 h2
  refine ⟨?_, a4 hs⟩
  have hl : ∀ (l : List K) (t : K), (starts t l).length = l.length := by
    intro l
    induction l with
    | nil => intro _; rfl
    | cons d l ih => intro t; simp [starts, ih]
  simpa [hl] using congrArg List.length a1

/-- **C106 (the flag the simulation reads), the part that holds.** With Ros2 the flag is the one the linear solver returned in the last step. -/
theorem C106_reported_partial (m : Method) (hm : m = .ros2Fgmres ∨ m = .ros2Gcrot)
    (f : M → Q → K → M × Q × (Nat → Int)) (mem : M) (t0 : K) (q : Q) (dts : List K) :
    (steps (.basic m f) (attach t0 (fresh mem (.basic m f))) q dts).obj.base.failure = (solves f mem q dts).getLastD fun _ => 0 :=
  (steps_basic m f dts mem _ q rfl).2 hm

/-- **C106 is violated** by every other integrator, also by the two splittings with Ros2 as a part: after any history of steps, in which
the solvers may have failed every time and on every process, the flag the simulation reads is 0. -/
theorem C106_reported_fails (s : Scheme K M Q) (hs : ¬ IsRos2 s) (mem : M) (t0 : K) (q : Q) (dts : List K) :
    (steps s (attach t0 (fresh mem s)) q dts).obj.base.failure = fun _ => 0 := by
  obtain ⟨h1, h2, -, -, h5⟩ := attach_fresh mem t0 s
  rw [(steps_attached s dts _ q h1 h2).2.2.2.2 hs, h5]

/-- a solver that fails in every step, on every process -/
def failing : Unit → (Nat → ℚ) → ℚ → Unit × (Nat → ℚ) × (Nat → Int) := fun _ q dt => ((), fun i => q i + dt, fun _ => 1)

/-- Ros2 reports it; the Rosenbrock-exponential method only stores it; Strang splitting of the two does neither -/
example : (steps (.basic .ros2Fgmres failing) (attach 0 (fresh () (.basic .ros2Fgmres failing))) (fun _ => 0) [2, 1]).rows =
    [⟨0, 2, 1⟩, ⟨2, 1, 1⟩] := by
  simp [steps, step, fresh, attach, stored, report, finish, failing]

example : (steps (.basic .ros2Fgmres failing) (attach 0 (fresh () (.basic .ros2Fgmres failing))) (fun _ => 0) [2, 1]).obj.base.failure 3 = 1 := rfl

example : (steps (.basic .rosexp2 failing) (attach 0 (fresh () (.basic .rosexp2 failing))) (fun _ => 0) [2, 1]).obj.base.failure 3 = 0 := rfl

example : (steps (.strang (.basic .ros2Fgmres failing) (.basic .rosexp2 failing))
    (attach 0 (fresh () (.strang (.basic .ros2Fgmres failing) (.basic .rosexp2 failing)))) (fun _ => 0) [2, 1]).rows = [⟨0, 2, 0⟩, ⟨2, 1, 0⟩] := by
  simp [steps, step, fresh, attach, stored, report, finish, failing]

/-! ## The simulation -/

section
variable {K M V : Type} [Field K] [LinearOrder K]

open WxVerif.Sim

theorem no_nan (env : Env K (Obj K M) V) (Q : Nat → V) (h : ∀ p, p < env.size → env.hasNaN (Q p) = false) : nanAnywhere env Q = false := by
  rw [nanAnywhere, List.any_eq_false]
  intro p hp
  rw [h p (List.mem_range.1 hp)]
  simp

/-- **C106 (a failure ends the run), the part that holds.** A simulation with Ros2: if the linear solver fails on every process in a step
without a NaN, the simulation takes no further step. -/
theorem C106_stops_partial (env : Env K (Obj K M) V) (cfg : Config K V) (m : Method) (hm : m = .ros2Fgmres ∨ m = .ros2Gcrot)
    (f : M → (Nat → V) → K → M × (Nat → V) × (Nat → Int)) (henv : env.integ = asEnv (.basic m f)) (hp : 0 < env.size)
    (s : State K (Obj K M) V) (mem : M) (b : Base K) (hi : s.integ = .basic mem b) (ht : s.t < cfg.tEnd)
    (hfail : ∀ dt p, p < env.size → (f mem s.Q dt).2.2 p ≠ 0)
    (hnan : ∀ dt p, p < env.size → env.hasNaN (env.filters dt (f mem s.Q dt).2.1 p) = false) (fuel : Nat) :
    ∃ s', loop env cfg (fuel + 1) s = (s', some .stop) ∧ s'.steps.length = s.steps.length + 1 := by
  have hr : ∀ dt, (env.integ s.integ s.Q dt).2.2 = (f mem s.Q dt).2.2 ∧ (env.integ s.integ s.Q dt).2.1 = (f mem s.Q dt).2.1 := by
    intro dt
    rw [henv, hi]
    refine ⟨?_, rfl⟩
    show (report m (f mem s.Q dt).2.2 b).failure = _
    rcases hm with rfl | rfl <;> rfl
  have key : ∃ s', Sim.step env cfg s = (s', .stop) ∧ s'.steps.length = s.steps.length + 1 := by
    rw [Sim.step, if_pos ht]
    dsimp only
    generalize (if s.t + s.dt > cfg.tEnd then cfg.tEnd - s.t else s.dt) = dt
    generalize (if s.t + s.dt > cfg.tEnd then cfg.tEnd else s.t + s.dt) = t
    rw [(hr _).1, (hr _).2, if_neg (by rw [no_nan env _ (hnan _)]; simp)]
    rw [if_neg, if_pos]
    · exact ⟨_, rfl, by simp⟩
    · rw [List.all_eq_true]
      intro p h
      simpa using hfail _ p (List.mem_range.1 h)
    · rw [List.all_eq_true]
      intro h
      exact hfail _ 0 hp (by simpa using h 0 (List.mem_range.2 hp))
  obtain ⟨s', h1, h2⟩ := key
  refine ⟨s', ?_, h2⟩
  rw [loop, h1]

theorem loop_goes_on (env : Env K (Obj K M) V) (cfg : Config K V) (sch : Scheme K M (Nat → V)) (hs : ¬ IsRos2 sch)
    (henv : env.integ = asEnv sch)
    (hnan : ∀ o q dt p, p < env.size → env.hasNaN (env.filters dt (StepReport.step sch o q dt).q p) = false) :
    ∀ (fuel : Nat) (s : State K (Obj K M) V), Shape sch s.integ → Attached s.integ → (s.integ.base.failure = fun _ => 0) →
      (loop env cfg fuel s).2 = none ∨ ((loop env cfg fuel s).2 = some .stop ∧ cfg.tEnd ≤ (loop env cfg fuel s).1.t)
  | 0, _, _, _, _ => Or.inl rfl
  | fuel + 1, s, h1, h2, h3 => by
    by_cases ht : s.t < cfg.tEnd
    · have key : ∃ s', Sim.step env cfg s = (s', .more) ∧ Shape sch s'.integ ∧ Attached s'.integ ∧ s'.integ.base.failure = fun _ => 0 := by
        have hr : ∀ dt, env.integ s.integ s.Q dt = ((StepReport.step sch s.integ s.Q dt).obj, (StepReport.step sch s.integ s.Q dt).q, fun _ => 0) := by
          intro dt
          rw [henv]
          obtain ⟨-, -, -, -, fl, -, -, a7⟩ := step_attached sch s.integ s.Q dt h1 h2
          show (_, _, (StepReport.step sch s.integ s.Q dt).obj.base.failure) = _
          rw [a7 hs, h3]
        rw [Sim.step, if_pos ht]
        dsimp only
        obtain ⟨a1, a2, -, -, fl, -, -, a7⟩ := step_attached sch s.integ s.Q
          (if s.t + s.dt > cfg.tEnd then cfg.tEnd - s.t else s.dt) h1 h2
        revert a1 a2 a7
        generalize (if s.t + s.dt > cfg.tEnd then cfg.tEnd - s.t else s.dt) = dt
        generalize (if s.t + s.dt > cfg.tEnd then cfg.tEnd else s.t + s.dt) = t
        intro a1 a2 a7
        rw [hr]
        dsimp only
        rw [if_neg (by rw [no_nan env _ (hnan _ _ _)]; simp), if_pos (by simp)]
        exact ⟨_, rfl, a1, a2, by rw [← h3, ← a7 hs]⟩
      obtain ⟨s', k1, k2, k3, k4⟩ := key
      have := loop_goes_on env cfg sch hs henv hnan fuel s' k2 k3 k4
      rw [loop, k1]
      exact this
    · refine Or.inr ?_
      have : Sim.step env cfg s = (s, .stop) := by rw [Sim.step, if_neg ht]
      rw [loop, this]
      exact ⟨rfl, not_lt.1 ht⟩

theorem loop_clock (env : Env K (Obj K M) V) (cfg : Config K V) (sch : Scheme K M (Nat → V)) (henv : env.integ = asEnv sch) :
    ∀ (fuel : Nat) (s : State K (Obj K M) V), Shape sch s.integ → Attached s.integ → s.integ.base.time = s.t →
      s.integ.base.done = s.steps.length →
      (loop env cfg fuel s).1.integ.base.time = (loop env cfg fuel s).1.t ∧
      (loop env cfg fuel s).1.integ.base.done = (loop env cfg fuel s).1.steps.length
  | 0, _, _, _, h3, h4 => ⟨h3, h4⟩
  | fuel + 1, s, h1, h2, h3, h4 => by
    have key : Shape sch (Sim.step env cfg s).1.integ ∧ Attached (Sim.step env cfg s).1.integ ∧
        (Sim.step env cfg s).1.integ.base.time = (Sim.step env cfg s).1.t ∧
        (Sim.step env cfg s).1.integ.base.done = (Sim.step env cfg s).1.steps.length := by
      by_cases ht : s.t < cfg.tEnd
      · have hdt : s.t + (if s.t + s.dt > cfg.tEnd then cfg.tEnd - s.t else s.dt) =
            if s.t + s.dt > cfg.tEnd then cfg.tEnd else s.t + s.dt := by
          split
          · ring
          · rfl
        rw [Sim.step, if_pos ht]
        dsimp only
        rw [← hdt]
        generalize (if s.t + s.dt > cfg.tEnd then cfg.tEnd - s.t else s.dt) = dt
        obtain ⟨a1, a2, a3, a4, -⟩ := step_attached sch s.integ s.Q dt h1 h2
        rw [h3] at a3
        rw [h4] at a4
        rw [henv]
        split
        · exact ⟨a1, a2, a3, by rw [List.length_append]; exact a4⟩
        · exact ⟨a1, a2, a3, by rw [List.length_append]; exact a4⟩
      · rw [Sim.step, if_neg ht]
        exact ⟨h1, h2, h3, h4⟩
    obtain ⟨k1, k2, k3, k4⟩ := key
    rw [loop]
    revert k1 k2 k3 k4
    generalize Sim.step env cfg s = r
    obtain ⟨s', res⟩ := r
    intro k1 k2 k3 k4
    cases res
    · exact loop_clock env cfg sch henv fuel s' k1 k2 k3 k4
    all_goals exact ⟨k3, k4⟩

/-- **C106 (the clock).** Whatever the integrator and whatever happens in the steps, the clock of the integrator, whose readings are stored
in the statistics, is the time of the simulation, and its count of steps is the number of steps taken. -/
theorem C106_clock (env : Env K (Obj K M) V) (cfg : Config K V) (sch : Scheme K M (Nat → V)) (henv : env.integ = asEnv sch) (mem : M) (fuel : Nat) :
    let s := (loop env cfg fuel (init env cfg (attach (cfg.dt * (cfg.startingStep : K)) (fresh mem sch)))).1
    s.integ.base.time = s.t ∧ s.integ.base.done = s.steps.length := by
  obtain ⟨h1, h2, h3, h4, -⟩ := attach_fresh mem (cfg.dt * (cfg.startingStep : K)) sch
  exact loop_clock env cfg sch henv fuel _ h1 h2 h3 h4

/-- **C106 is violated** by a simulation with any other integrator: whatever its solvers return, without a NaN the run goes on to its end. -/
theorem C106_stops_fails (env : Env K (Obj K M) V) (cfg : Config K V) (sch : Scheme K M (Nat → V)) (hs : ¬ IsRos2 sch)
    (henv : env.integ = asEnv sch) (mem : M) (t0 : K)
    (hnan : ∀ o q dt p, p < env.size → env.hasNaN (env.filters dt (StepReport.step sch o q dt).q p) = false) (fuel : Nat) :
    let r := loop env cfg fuel (init env cfg (attach t0 (fresh mem sch)))
    r.2 = none ∨ (r.2 = some .stop ∧ cfg.tEnd ≤ r.1.t) := by
  obtain ⟨h1, h2, -, -, h5⟩ := attach_fresh mem t0 sch
  exact loop_goes_on env cfg sch hs henv hnan fuel _ h1 h2 h5

end

/-- two processes whose solvers fail in every step: the simulation with Strang splitting of Ros2 and the method above takes all its steps -/
example : ¬ IsRos2 (Scheme.strang (.basic .ros2Fgmres failing) (.basic .counted failing)) ∧
    ¬ Records (Scheme.strang (.basic .ros2Fgmres failing) (.basic .counted failing)) ∧
    (∀ q dt p, (failing () q dt).2.2 p ≠ 0) := ⟨id, id, fun _ _ _ => by simp [failing]⟩

/-- a simulation on two processes with an integrator -/
def exEnv (sch : Scheme ℚ Unit (Nat → ℚ)) : Sim.Env ℚ (Obj ℚ Unit) ℚ where
  integ := asEnv sch
  filters := fun _ Q => Q
  hasNaN := fun _ => false
  winds := fun _ Q => Q
  written := fun Q => Q
  size := 2

/-- three steps -/
def exCfg : Sim.Config ℚ ℚ :=
  { tEnd := 9 / 10, dt := 1 / 3, freqs := ⟨2, 1, 0⟩, startingStep := 0, initialQ := fun r => (r : ℚ) }

/-- every solve fails: the simulation with Ros2 takes one step, the one with the splitting takes all three -/
example : (Sim.loop (exEnv (.basic .ros2Gcrot failing)) exCfg 5
      (Sim.init (exEnv (.basic .ros2Gcrot failing)) exCfg (attach 0 (fresh () (.basic .ros2Gcrot failing))))).1.steps.length = 1 ∧
    (Sim.loop (exEnv (.strang (.basic .ros2Fgmres failing) (.basic .counted failing))) exCfg 5
      (Sim.init (exEnv (.strang (.basic .ros2Fgmres failing) (.basic .counted failing))) exCfg
        (attach 0 (fresh () (.strang (.basic .ros2Fgmres failing) (.basic .counted failing)))))).1.steps.length = 3 := by
  decide +kernel

end WxVerif.Props.StepReport
