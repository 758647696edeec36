import Verif.Model.Simulation

/-!
# What a step of an integrator reports

Sources: `wx_factory/integrators/integrator.py` (the step common to all integrators), `integrators/ros2.py`, `rosexp2.py`,
`partrosexp2.py`, `backward_euler.py`, `bdf2.py`, `crank_nicolson.py`, `epi.py`, `tvdrk3.py`, `splitting.py` (which of them set
`failure_flag` and `solver_info`), `solvers/solver_info.py`, and `simulation/simulation.py` (who reads them).
Not modelled: exceptions, the preparation of a preconditioner (a simulation never has one) and the wall-clock times.
-/

namespace WxVerif.StepReport

/-- which report a step makes; the names are those of the classes -/
inductive Method where
  /-- `Ros2` with `linear_solver = "fgmres"` -/
  | ros2Fgmres
  /-- `Ros2` with another linear solver -/
  | ros2Gcrot
  | rosexp2
  | partrosexp2
  /-- `BackwardEuler`, `Bdf2`, `CrankNicolson` -/
  | newton
  /-- `Epi`, `Tvdrk3` -/
  | counted
  /-- `Euler1`, `Imex2`, `Srerk`, `EpiStiff` -/
  | silent
deriving DecidableEq

/-- the attributes of every `Integrator` that its `step` uses (`integrator.py` 42–61): `sim_time`, `failure_flag`, the flag in
    `solver_info` (`none` is `None`), `num_completed_steps` and whether `output_manager` is set.  Flags are given on every process. -/
structure Base (K : Type*) where
  time : K
  failure : Nat → Int
  info : Option (Nat → Int)
  done : Nat
  out : Bool

/-- one row of the statistics, reduced to `simulation_time`, `dt` and `solver_flag` (`solver_stats.py` 206–240), which process 0 writes -/
structure Row (K : Type*) where
  time : K
  dt : K
  flag : Int
deriving DecidableEq

/-- what `__step__` leaves in `solver_info` and `failure_flag` when its solver returned `flag`: `ros2.py` 54, 79 (only the branch of
    FGMRES sets `solver_info`), `rosexp2.py` 63, `partrosexp2.py` 74, `backward_euler.py` 42, `bdf2.py` 40, `crank_nicolson.py` 39,
    `epi.py` 350, `tvdrk3.py` 18.  `SolverInfo(total_num_it=…)` has the flag 0 (`solver_info.py` 6). -/
def report {K : Type*} (m : Method) (flag : Nat → Int) (b : Base K) : Base K :=
  match m with
  | .ros2Fgmres => { b with info := some flag, failure := flag }
  | .ros2Gcrot => { b with failure := flag }
  | .rosexp2 => { b with info := some flag }
  | .partrosexp2 => { b with info := some flag }
  | .newton => { b with info := some fun _ => 0 }
  | .counted => { b with info := some fun _ => 0 }
  | .silent => b

/-- the rows stored by the end of `Integrator.step` (`integrator.py` 95–106) when statistics are wanted; without a `solver_info` the
    flag is the 0 of `SolverInfo()` -/
def stored {K : Type*} (b : Base K) (dt : K) : List (Row K) :=
  if b.out then [⟨b.time, dt, (b.info.getD fun _ => 0) 0⟩] else []

/-- the attributes after the end of `Integrator.step` (`integrator.py` 108–111) -/
def finish {K : Type*} [Add K] (b : Base K) (dt : K) : Base K :=
  { b with info := none, time := b.time + dt, done := b.done + 1 }

/-- an integrator as it is put together: a method whose `__step__` takes its memory, the state and the step and gives the new memory,
    the new state and the flag of its solver on every process; or one of the splittings of two integrators (`splitting.py` 5–27) -/
inductive Scheme (K M Q : Type) where
  | basic (m : Method) (f : M → Q → K → M × Q × (Nat → Int))
  | lie (s1 s2 : Scheme K M Q)
  | strang (s1 s2 : Scheme K M Q)

/-- the attributes of an integrator, with those of the integrators it is made of -/
inductive Obj (K M : Type) where
  | basic (mem : M) (b : Base K)
  | split (o1 o2 : Obj K M) (b : Base K)

/-- the attributes common to all integrators -/
def Obj.base {K M : Type} : Obj K M → Base K
  | .basic _ b => b
  | .split _ _ b => b

/-- `__init__` of `Integrator` (`integrator.py` 42–61) for an integrator and its parts: the time is `-1`, there is no output manager -/
def fresh {K M Q : Type} [One K] [Neg K] (mem : M) : Scheme K M Q → Obj K M
  | .basic _ _ => .basic mem ⟨-1, fun _ => 0, none, 0, false⟩
  | .lie s1 s2 => .split (fresh mem s1) (fresh mem s2) ⟨-1, fun _ => 0, none, 0, false⟩
  | .strang s1 s2 => .split (fresh mem s1) (fresh mem s2) ⟨-1, fun _ => 0, none, 0, false⟩

/-- `self.integrator.output_manager = self.output` and `self.integrator.sim_time = self.t` (`simulation.py` 123, 130) -/
def attach {K M : Type} (t : K) : Obj K M → Obj K M
  | .basic mem b => .basic mem { b with time := t, out := true }
  | .split o1 o2 b => .split o1 o2 { b with time := t, out := true }

/-- the result of a step: the attributes afterwards, the state and the rows of statistics stored -/
structure Res (K M Q : Type) where
  obj : Obj K M
  q : Q
  rows : List (Row K)

/-- `Integrator.step` (`integrator.py` 70–113) with `__step__` of the methods and of the splittings (`splitting.py` 11–14, 23–27);
    an object of the wrong shape does nothing -/
def step {K M Q : Type} [Add K] [Div K] [OfNat K 2] : Scheme K M Q → Obj K M → Q → K → Res K M Q
  | .basic m f, .basic mem b, q, dt =>
    let r := f mem q dt
    let b1 := report m r.2.2 b
    ⟨.basic r.1 (finish b1 dt), r.2.1, stored b1 dt⟩
  | .lie s1 s2, .split o1 o2 b, q, dt =>
    let r1 := step s1 o1 q dt
    let r2 := step s2 o2 r1.q dt
    ⟨.split r1.obj r2.obj (finish b dt), r2.q, r1.rows ++ r2.rows ++ stored b dt⟩
  | .strang s1 s2, .split o1 o2 b, q, dt =>
    let r1 := step s1 o1 q (dt / 2)
    let r2 := step s2 o2 r1.q dt
    let r3 := step s1 r1.obj r2.q (dt / 2)
    ⟨.split r3.obj r2.obj (finish b dt), r3.q, r1.rows ++ r2.rows ++ r3.rows ++ stored b dt⟩
  | _, o, q, _ => ⟨o, q, []⟩

/-- a sequence of steps -/
def steps {K M Q : Type} [Add K] [Div K] [OfNat K 2] (s : Scheme K M Q) : Obj K M → Q → List K → Res K M Q
  | o, q, [] => ⟨o, q, []⟩
  | o, q, dt :: dts =>
    let r := step s o q dt
    let r' := steps s r.obj r.q dts
    ⟨r'.obj, r'.q, r.rows ++ r'.rows⟩

/-- the integrator as `Simulation` uses it (`simulation.py` 147, 177): it steps and reads `failure_flag` -/
def asEnv {K M V : Type} [Add K] [Div K] [OfNat K 2] (s : Scheme K M (Nat → V)) (o : Obj K M) (q : Nat → V) (dt : K) :
    Obj K M × (Nat → V) × (Nat → Int) :=
  let r := step s o q dt
  (r.obj, r.q, r.obj.base.failure)

end WxVerif.StepReport
