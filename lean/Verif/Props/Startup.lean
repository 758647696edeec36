/-
C73: which configurations run, and how the others end.
-/
import Verif.Lemmas.Startup
import Verif.Props.Simulation

namespace WxVerif.Props.Startup

open WxVerif.Startup WxVerif.Spec.Supported

private theorem tiles (n size : ℕ) : (∃ m, Sim.adjustNumElements n size = some m) ↔ TilesFit n size := by
  unfold Sim.adjustNumElements Sim.allowedPeCounts TilesFit
  constructor
  · rintro ⟨m, h⟩
    split_ifs at h with hc
    simp only [List.mem_map, List.mem_filter, List.mem_range'_1, beq_iff_eq] at hc
    obtain ⟨k, ⟨⟨h1, h2⟩, h3⟩, h4⟩ := hc
    exact ⟨k, h1, Nat.dvd_of_mod_eq_zero h3, by omega, by omega⟩
  · rintro ⟨k, h1, h2, h3, h4⟩
    rw [if_pos]
    · exact ⟨_, rfl⟩
    · simp only [List.mem_map, List.mem_filter, List.mem_range'_1, beq_iff_eq]
      exact ⟨k, ⟨⟨h1, by omega⟩, Nat.mod_eq_zero_of_dvd h2⟩, by omega⟩

private theorem elements_iff (w : World) (c : Setup) :
    (∃ n, elementsPerTile w c = .ok n) ↔ (c.grid = .cubedSphere → TilesFit c.numElements w.size) := by
  rw [← tiles]
  unfold elementsPerTile
  cases c.grid
  · cases Sim.adjustNumElements c.numElements w.size <;> simp
  · simp

private theorem operators_iff (c : Setup) (g : Geom) :
    operators c g = .ok () ↔ (c.expfilterApply = true → g = .sphere3d) ∧ c.applySponge = false := by
  unfold operators
  cases g <;> cases c.expfilterApply <;> cases c.applySponge <;>
    simp [bind, Except.bind, pure, Except.pure, throw, throwThe, MonadExceptOf.throw, planeShape, unpack2]

private theorem sw_iff (n : ℕ) (c : Setup) : initializeSw n c = .ok () ↔ c.caseNumber ∈ shallowWaterCases := by
  unfold initializeSw
  simp only [sphereShape, unpack2, shallowWaterCases, List.mem_cons, List.not_mem_nil, or_false]
  generalize c.caseNumber = k
  split_ifs <;> simp_all [bind, Except.bind, pure, Except.pure, throw, throwThe, MonadExceptOf.throw]

private theorem euler_iff (c : Setup) :
    initializeEuler c = .ok () ↔ c.caseNumber ∈ eulerCases ∨ c.caseNumber = 11 ∨ c.caseNumber = 12 := by
  unfold initializeEuler
  simp only [applyTopography, topographyArity, eulerCases, List.mem_cons, List.not_mem_nil, or_false]
  generalize c.caseNumber = k
  split_ifs <;> simp_all [bind, Except.bind, pure, Except.pure, throw, throwThe, MonadExceptOf.throw]

private theorem plane_iff (c : Setup) : initializeCartesian c = .ok () ↔ c.caseNumber ∉ brokenPlaneCases := by
  unfold initializeCartesian
  simp only [brokenPlaneCases, List.mem_cons, List.not_mem_nil, or_false]
  generalize c.caseNumber = k
  split_ifs <;> simp_all [bind, Except.bind, pure, Except.pure, throw, throwThe, MonadExceptOf.throw]

private theorem output_iff (w : World) (c : Setup) (g : Geom) : createOutput w c g = .ok () ∧ firstOutput c g = .ok () ↔
    g = .plane ∨ (c.outputFormat = "netcdf" ∧ (g = .sphere3d → c.outputFreq ≤ 0 ∨ Topology.numPe w.size = 1)) ∨
      c.outputFormat = "fst" ∧ (c.outputFreq ≤ 0 ∨ g ≠ .sphere3d ∧ w.rmnAvailable = true) := by
  unfold createOutput firstOutput
  by_cases h0 : g = .plane
  · simp [h0]
  · by_cases h1 : c.outputFormat = "netcdf"
    · by_cases h3 : c.outputFreq ≤ 0 <;> by_cases h5 : g = .sphere3d <;> by_cases h6 : Topology.numPe w.size = 1 <;>
        simp [h0, h1, h3, h5, h6]
    · by_cases h2 : c.outputFormat = "fst"
      · by_cases h3 : c.outputFreq ≤ 0 <;> cases h4 : w.rmnAvailable <;> by_cases h5 : g = .sphere3d <;> simp [h0, h1, h2, h3, h4, h5]
      · simp [h0, h1, h2]

private theorem six_iff {nelem size : ℕ} (h : TilesFit nelem size) : Topology.numPe size = 1 ↔ size = 6 := by
  obtain ⟨k, hk, -, -, rfl⟩ := h
  unfold Topology.numPe
  omega

private theorem precond_iff (c : Setup) : createPreconditioner c = .ok () ↔ c.preconditioner = "none" := by
  unfold createPreconditioner
  by_cases h : c.preconditioner = "none" <;> simp [h]

private theorem config_iff (c : Setup) : checkConfig c = .ok () ↔ (c.discretization = .fv → c.numSolpts = 1) := by
  unfold checkConfig
  by_cases h : c.discretization = .fv <;> by_cases h' : c.numSolpts = 1 <;> simp [h, h']

private theorem full3d_iff (c : Setup) (h : initializeEuler c = .ok ()) :
    evaluateFull c .sphere3d = .ok () ↔ c.caseNumber ∈ eulerCases := by
  rw [euler_iff] at h
  simp only [eulerCases, List.mem_cons, List.not_mem_nil, or_false] at h ⊢
  unfold evaluateFull
  rcases h with (h | h | h | h) | h | h <;>
    simp [h, Advection.numEquations, Advection.assignable, Advection.numVar]

/-- **C73** A configuration starts and takes its first step exactly if the table of supported configurations lists it: number of
solution points, tiles, grid, equations, case number, filter, sponge, preconditioner, output format, integrator and exponential solver. -/
theorem C73_runs_iff (w : World) (c : Setup) : run w c = .ok () ↔ Supported w c := by
  have h : run w c = .ok () ↔ checkConfig c = .ok () ∧ (∃ n, elementsPerTile w c = .ok n ∧ initState n c (createGeometry c) = .ok ()) ∧
      operators c (createGeometry c) = .ok () ∧ createPreconditioner c = .ok () ∧
      (createOutput w c (createGeometry c) = .ok () ∧ firstOutput c (createGeometry c) = .ok ()) ∧
      ∃ s, createIntegrator c (createGeometry c) = .ok s ∧ firstStep c (createGeometry c) s = .ok () := by
    unfold run startUp
    simp only [bind_ok]
    constructor
    · rintro ⟨⟨g, s⟩, ⟨⟨⟩, h1, n, h2, ⟨⟩, h3, ⟨⟩, h4, ⟨⟩, h5, ⟨⟩, h6, s', h7, ⟨⟩, h10, h8⟩, h9⟩
      simp only [pure, Except.pure, Except.ok.injEq, Prod.mk.injEq] at h8
      obtain ⟨rfl, rfl⟩ := h8
      exact ⟨h1, ⟨n, h2, h4⟩, h3, h5, ⟨h6, h10⟩, s', h7, h9⟩
    · rintro ⟨h1, ⟨n, h2, h4⟩, h3, h5, ⟨h6, h10⟩, s', h7, h9⟩
      exact ⟨(_, s'), ⟨(), h1, n, h2, (), h3, (), h4, (), h5, (), h6, s', h7, (), h10, rfl⟩, h9⟩
  rw [h, integrator_iff, config_iff, operators_iff, precond_iff, output_iff]
  have hel := elements_iff w c
  unfold Supported ProblemRuns
  cases hg : c.grid <;> cases he : c.equations <;>
    simp only [createGeometry, hg, he, initState, reduceCtorEq, false_or, true_or, forall_const, false_imp_iff, iff_true] at hel ⊢
  · -- Euler on the sphere
    constructor
    · rintro ⟨h1, ⟨n, h2, h3⟩, ⟨-, h5⟩, h6, h7, h8, h9⟩
      exact ⟨h1, h6, h5, ⟨hel.mp ⟨n, h2⟩, (full3d_iff c h3).mp h9, by simpa [six_iff (hel.mp ⟨n, h2⟩)] using h7⟩, h8⟩
    · rintro ⟨h1, h6, h5, ⟨h2, h3, h7⟩, h8⟩
      have h3' : initializeEuler c = .ok () := (euler_iff c).mpr (Or.inl h3)
      obtain ⟨n, hn⟩ := hel.mpr h2
      exact ⟨h1, ⟨n, hn, h3'⟩, ⟨fun _ => trivial, h5⟩, h6, by simpa [six_iff h2] using h7, h8, (full3d_iff c h3').mpr h3⟩
  · -- shallow water on the sphere
    constructor
    · rintro ⟨h1, ⟨n, h2, h3⟩, ⟨h4, h5⟩, h6, h7, h8, h9⟩
      exact ⟨h1, h6, h5, ⟨hel.mp ⟨n, h2⟩, (sw_iff n c).mp h3, by simpa using h4, by simpa using h7⟩, h8⟩
    · rintro ⟨h1, h6, h5, ⟨h2, h3, h4, h7⟩, h8⟩
      obtain ⟨n, hn⟩ := hel.mpr h2
      exact ⟨h1, ⟨n, hn, (sw_iff n c).mpr h3⟩, ⟨by simp [h4], h5⟩, h6, by simpa using h7, h8, rfl⟩
  · -- Euler on the plane
    have hf : evaluateFull c .plane = .ok () ↔ c.discretization = .dg := by
      unfold evaluateFull
      cases c.discretization <;> simp
    constructor
    · rintro ⟨h1, ⟨n, h2, h3⟩, ⟨h4, h5⟩, h6, -, h8, h9⟩
      exact ⟨h1, h6, h5, ⟨(plane_iff c).mp h3, by simpa using h4, hf.mp h9⟩, h8⟩
    · rintro ⟨h1, h6, h5, ⟨h3, h4, h9⟩, h8⟩
      obtain ⟨n, hn⟩ := hel
      exact ⟨h1, ⟨n, hn, (plane_iff c).mpr h3⟩, ⟨by simp [h4], h5⟩, h6, trivial, h8, hf.mpr h9⟩
  · -- shallow water on the plane
    simp

private theorem integrator_err (c : Setup) (g : Geom) (e : Exc) (h : createIntegrator c g = .error e) :
    e = .valueError ∨ e = .attributeError ∧ g ≠ .plane ∧ c.timeIntegrator ∈ splitIntegrators := by
  unfold createIntegrator at h
  rw [bind_err] at h
  rcases h with h | ⟨s, h1, h2⟩
  · exact Or.inl (parse_err _ _ h)
  · have hn := (parse_iff _ _).mp h1
    by_cases hp : s.parts.all (hasPart g) = true
    · left
      by_cases ho : s.orderOk = true
      · simp [hp, ho, bind, Except.bind, pure, Except.pure] at h2
      · simpa [hp, ho, bind, Except.bind, pure, Except.pure, throw, throwThe, MonadExceptOf.throw, eq_comm] using h2
    · right
      have he : e = .attributeError := by
        simpa [hp, bind, Except.bind, pure, Except.pure, throw, throwThe, MonadExceptOf.throw, eq_comm] using h2
      refine ⟨he, ?_, ?_⟩
      · rintro rfl
        exact hp (by cases s <;> rfl)
      · cases s <;> first | exact absurd rfl hp | (simp only [Names] at hn; simp [splitIntegrators, hn])

/-- **C73** A configuration that is not supported ends with a `ValueError`, except in the cases listed by `Unexpected`. -/
theorem C73_refused_partial (w : World) (c : Setup) (h : ¬ Supported w c) :
    run w c = .error .valueError ∨ ∃ e, Unexpected c e ∧ run w c = .error e := by
  rw [← C73_runs_iff] at h
  cases hr : run w c with
  | ok u => exact absurd hr h
  | error e =>
    by_cases hv : e = .valueError
    · exact Or.inl (by rw [hv])
    refine Or.inr ⟨e, ?_, rfl⟩
    unfold run at hr
    rw [bind_err] at hr
    rcases hr with hr | ⟨⟨g, s⟩, hs, hr⟩
    · unfold startUp at hr
      simp only [bind_err] at hr
      rcases hr with hr | ⟨⟨⟩, -, hr⟩
      · unfold checkConfig at hr
        split_ifs at hr
        cases hr
        exact absurd rfl hv
      rcases hr with hr | ⟨n, -, hr⟩
      · unfold elementsPerTile at hr
        split at hr
        · split at hr
          · cases hr
          · cases hr
            exact absurd rfl hv
        · cases hr
      rcases hr with hr | ⟨⟨⟩, -, hr⟩
      · unfold operators at hr
        cases hg : c.grid <;> cases he : c.equations <;> cases hx : c.expfilterApply <;> cases ha : c.applySponge <;>
          simp [createGeometry, hg, he, hx, ha, bind, Except.bind, pure, Except.pure, throw, throwThe, MonadExceptOf.throw, planeShape,
            unpack2] at hr <;>
          subst hr <;> simp_all [Unexpected]
      rcases hr with hr | ⟨⟨⟩, -, hr⟩
      · cases hg : c.grid <;> cases he : c.equations <;> simp only [createGeometry, hg, he, initState] at hr
        · unfold initializeEuler at hr
          simp only [applyTopography, topographyArity] at hr
          split_ifs at hr <;>
            simp [bind, Except.bind, pure, Except.pure, throw, throwThe, MonadExceptOf.throw] at hr <;> subst hr <;> simp_all [Unexpected]
        · unfold initializeSw at hr
          simp only [sphereShape, unpack2] at hr
          split_ifs at hr <;>
            simp [bind, Except.bind, pure, Except.pure, throw, throwThe, MonadExceptOf.throw] at hr <;> subst hr <;> simp_all [Unexpected]
        · unfold initializeCartesian at hr
          split_ifs at hr <;>
            simp [pure, Except.pure, throw, throwThe, MonadExceptOf.throw] at hr <;> subst hr <;> simp_all [Unexpected]
        · cases hr
          exact absurd rfl hv
      rcases hr with hr | ⟨⟨⟩, -, hr⟩
      · unfold createPreconditioner at hr
        split_ifs at hr
        cases hr
        exact absurd rfl hv
      rcases hr with hr | ⟨⟨⟩, -, hr⟩
      · unfold createOutput at hr
        split_ifs at hr <;> cases hr <;> exact absurd rfl hv
      rcases hr with hr | ⟨s, -, hr⟩
      · rcases integrator_err c _ e hr with h1 | ⟨h1, h2, h3⟩
        · exact absurd h1 hv
        · subst h1
          refine Or.inr (Or.inl ⟨?_, h3⟩)
          by_contra hg
          apply h2
          cases hg' : c.grid
          · exact absurd hg' hg
          · simp [createGeometry, hg']
      rcases hr with hr | ⟨⟨⟩, -, hr⟩
      · unfold firstOutput at hr
        split_ifs at hr
        cases hr
        exact absurd rfl hv
      · cases hr
    · have hgeom : g = createGeometry c := by
        unfold startUp at hs
        simp only [bind_ok] at hs
        obtain ⟨⟨⟩, -, n, -, ⟨⟩, -, ⟨⟩, -, ⟨⟩, -, ⟨⟩, -, s', -, ⟨⟩, -, h8⟩ := hs
        simp only [pure, Except.pure, Except.ok.injEq, Prod.mk.injEq] at h8
        exact h8.1.symm
      have hfull : evaluateFull c g = .error e → Unexpected c e := by
        intro hf
        unfold evaluateFull at hf
        split at hf
        · rename_i heq
          split_ifs at hf with hd
          cases hf
          refine Or.inr (Or.inr ⟨?_, hd⟩)
          cases hg : c.grid
          · cases he : c.equations <;> simp [createGeometry, hg, he] at hgeom
          · rfl
        · split at hf
          · split_ifs at hf
            cases hf
            exact absurd rfl hv
          · cases hf
        · cases hf
      unfold firstStep at hr
      rw [bind_err] at hr
      rcases hr with hr | ⟨⟨⟩, -, hr⟩
      · cases s <;> simp only [callParts, evaluate, bind_err, bind_ok] at hr
        case partrosexp2 =>
          rcases hr with hr | ⟨⟨⟩, -, hr⟩
          · exact hfull hr
          · cases hr
            exact absurd rfl hv
        all_goals first
          | exact hfull hr
          | (cases hr; exact absurd rfl hv)
      · cases s <;> simp only [chooseSolver] at hr <;> first
          | (split_ifs at hr; cases hr; exact absurd rfl hv)
          | cases hr

private theorem started (w : World) (c : Setup) (g : Geom) (s : Scheme) (hs : startUp w c = .ok (g, s)) :
    g = createGeometry c ∧ createIntegrator c g = .ok s ∧ ∃ n, initState n c g = .ok () := by
  unfold startUp at hs
  simp only [bind_ok] at hs
  obtain ⟨⟨⟩, -, n, -, ⟨⟩, -, ⟨⟩, h4, ⟨⟩, -, ⟨⟩, -, s', h7, ⟨⟩, -, h8⟩ := hs
  simp only [pure, Except.pure, Except.ok.injEq, Prod.mk.injEq] at h8
  obtain ⟨rfl, rfl⟩ := h8
  exact ⟨rfl, h7, n, h4⟩

/-- **C73** A configuration (with one of the known exponential solvers) that was accepted by the start-up fails in its first step exactly
if `FailsLate` lists it. -/
theorem C73_late (w : World) (c : Setup) (g : Geom) (s : Scheme) (hsolver : c.exponentialSolver ∈ solvers)
    (hs : startUp w c = .ok (g, s)) : (∃ e, run w c = .error e) ↔ FailsLate c := by
  obtain ⟨hg, hi, n, hn⟩ := started w c g s hs
  have hsup : ∀ e, run w c = .error e → ¬ Supported w c := fun e he hsup => by
    rw [(C73_runs_iff w c).mpr hsup] at he
    cases he
  have hrun : run w c = firstStep c g s := by
    unfold run
    rw [hs]
    rfl
  have hname : Names c.timeIntegrator s := by
    unfold createIntegrator at hi
    rw [bind_ok] at hi
    obtain ⟨t, h1, h2⟩ := hi
    have h1 := (parse_iff _ _).mp h1
    cases hp : t.parts.all (hasPart g) <;> cases ho : t.orderOk <;>
      simp [hp, ho, bind, Except.bind, pure, Except.pure, throw, throwThe, MonadExceptOf.throw] at h2
    subst h2
    exact h1
  constructor
  · rintro ⟨e, he⟩
    rw [hrun] at he
    unfold firstStep at he
    rw [bind_err] at he
    have hfull : evaluateFull c g = .error e → FailsLate c := by
      intro hf
      cases hgr : c.grid <;> cases heq : c.equations <;>
        simp only [createGeometry, hgr, heq] at hg <;> subst hg
      · left
        refine ⟨hgr, heq, ?_⟩
        by_contra hcon
        have h1 : initializeEuler c = .ok () := by simpa [initState, heq] using hn
        have h2 := (full3d_iff c h1).mpr (by
          rcases (euler_iff c).mp h1 with h | h | h
          · exact h
          · exact absurd (Or.inl h) hcon
          · exact absurd (Or.inr h) hcon)
        rw [h2] at hf
        cases hf
      · cases hf
      · right; left
        refine ⟨hgr, Or.inl ?_⟩
        by_contra hd
        simp [evaluateFull, hd] at hf
      · right; left
        refine ⟨hgr, Or.inl ?_⟩
        by_contra hd
        simp [evaluateFull, hd] at hf
    have hsplit : c.timeIntegrator ∈ splitIntegrators → FailsLate c := by
      intro hm
      cases hgr : c.grid
      · exfalso
        have hne : g ≠ .plane := by
          rw [hg]
          cases heq : c.equations <;> simp [createGeometry, hgr, heq]
        simp only [splitIntegrators, List.mem_cons, List.not_mem_nil, or_false] at hm
        have hno : ∀ p : Part, p ≠ .full → hasPart g p = false := by
          intro p hp
          cases p <;> simp_all [hasPart]
        rcases hm with hm | hm | hm | hm <;> unfold createIntegrator at hi <;> rw [bind_ok] at hi <;> obtain ⟨t, h1, h2⟩ := hi
        · rw [(parse_iff _ .partrosexp2).mpr hm] at h1
          cases h1
          simp [Scheme.parts, hno, bind, Except.bind, throw, throwThe, MonadExceptOf.throw] at h2
        · rw [(parse_iff _ .imex2).mpr hm] at h1
          cases h1
          simp [Scheme.parts, hno, bind, Except.bind, throw, throwThe, MonadExceptOf.throw] at h2
        · rw [(parse_iff _ .strangEpiRos).mpr hm] at h1
          cases h1
          simp [Scheme.parts, hno, bind, Except.bind, throw, throwThe, MonadExceptOf.throw] at h2
        · rw [(parse_iff _ .strangRosEpi).mpr hm] at h1
          cases h1
          simp [Scheme.parts, hno, bind, Except.bind, throw, throwThe, MonadExceptOf.throw] at h2
      · exact Or.inr (Or.inl ⟨hgr, Or.inr hm⟩)
    rcases he with he | ⟨⟨⟩, -, he⟩
    · cases s <;> simp only [callParts, evaluate, Names] at he hname
      case partrosexp2 => exact hsplit (by simp [splitIntegrators, hname])
      case imex2 => exact hsplit (by simp [splitIntegrators, hname])
      case strangEpiRos => exact hsplit (by simp [splitIntegrators, hname])
      case strangRosEpi => exact hsplit (by simp [splitIntegrators, hname])
      all_goals exact hfull he
    · cases s <;> simp only [chooseSolver, Names] at he hname
      case epi n => simp [(solvers_iff _).mpr hsolver] at he
      case epiStiff n => simp [(solvers_iff _).mpr hsolver] at he
      case srerk n =>
        split_ifs at he with hh
        refine Or.inr (Or.inr ⟨⟨n, hname⟩, ?_⟩)
        by_contra hcon
        rw [not_or] at hcon
        exact hh ((srerk_iff _).mpr ⟨hsolver, hcon⟩)
      all_goals cases he
  · intro hl
    cases hr : run w c with
    | error e => exact ⟨e, rfl⟩
    | ok u =>
      exfalso
      obtain ⟨-, -, -, hp, hint⟩ := (C73_runs_iff w c).mp hr
      unfold ProblemRuns at hp
      have hns : c.timeIntegrator ∉ splitIntegrators := by
        intro hm
        have hd : ∀ x ∈ splitIntegrators, x ∉ plainIntegrators ∧ prefixed "epi" x = none ∧ prefixed "epi_stiff" x = none ∧
            prefixed "srerk" x = none := by decide +kernel
        obtain ⟨d1, d2, d3, d4⟩ := hd _ hm
        rcases hint with h | ⟨n, h, -⟩ | ⟨n, h, -⟩ | ⟨n, h, -⟩
        · exact d1 h
        · rw [← prefixed_iff, d2] at h; cases h
        · rw [← prefixed_iff, d3] at h; cases h
        · rw [← prefixed_iff, d4] at h; cases h
      rcases hl with ⟨h1, h2, h3⟩ | ⟨h1, h2⟩ | ⟨⟨n, hk⟩, h2⟩
      · simp only [h1, h2, eulerCases] at hp
        rcases h3 with h3 | h3 <;> simp [h3] at hp
      · rcases h2 with h2 | h2
        · cases he : c.equations <;> simp [h1, he, h2] at hp
        · exact hns h2
      · rcases hint with h | ⟨m, h, -⟩ | ⟨m, h, -⟩ | ⟨m, h, -, -, h3, h4⟩
        · have hd : ∀ x ∈ plainIntegrators, prefixed "srerk" x = none := by decide +kernel
          rw [← prefixed_iff, hd _ h] at hk
          cases hk
        · have := (srerk_not_epi _ _ hk).2
          rw [← prefixed_iff, this] at h
          cases h
        · have := (srerk_not_epi _ _ hk).1
          rw [← prefixed_iff, this] at h
          cases h
        · rcases h2 with h2 | h2
          · exact h3 h2
          · exact h4 h2

/-! ## The shipped configurations -/

/-- What the configuration files of the distribution have in common; fields that differ are set below. -/
def base : Setup := {
  grid := .cubedSphere, equations := .euler, discretization := .dg, caseNumber := 31, numSolpts := 2, numElements := 10,
  numElementsVertical := 8, expfilterApply := false, applySponge := false, preconditioner := "none", outputFormat := "netcdf",
  outputFreq := 1, timeIntegrator := "epi2", exponentialSolver := "pmex" }

/-- six processes, no `rmn` -/
def six : World := ⟨6, false⟩

/-- one process (configurations on the plane) -/
def one : World := ⟨1, false⟩

/-- **C73** is not vacuous: a gravity wave, a geostrophic flow with EPI4 and a bubble on the plane run. -/
example : run six base = .ok () := by decide +kernel
example : run six { base with equations := .shallowWater, caseNumber := 2, timeIntegrator := "epi4", exponentialSolver := "kiops" } = .ok () := by
  decide +kernel
example : run one { base with grid := .cartesian2d, caseNumber := 2 } = .ok () := by decide +kernel
example : ∃ g s, startUp six { base with caseNumber := 11 } = .ok (g, s) := ⟨.sphere3d, .epi 2, by decide +kernel⟩

/-- **C73** (negated) Documented test cases and shipped configurations do not start, and not always with a `ValueError`: the mountain
case 20 ends with `TypeError`, the bubbles and the density current (1, 3, 4) with `NameError`, the Schär mountain on the plane with
`AttributeError`, and the shallow-water cases 0, 8, 9 and 10 with the `ValueError` of an array shape — for every number of elements,
of processes, of solution points and every integrator, as long as nothing else was refused before. -/
theorem C73_documented_cases_fail (w : World) (c : Setup) (hconf : checkConfig c = .ok ()) (hn : ∃ n, elementsPerTile w c = .ok n)
    (hx : c.expfilterApply = false) (ha : c.applySponge = false) :
    (c.grid = .cubedSphere → c.equations = .euler → c.caseNumber = 20 → run w c = .error .typeError) ∧
      (c.grid = .cartesian2d → c.equations = .euler → c.caseNumber ∈ ([1, 3, 4] : List ℤ) → run w c = .error .nameError) ∧
      (c.grid = .cartesian2d → c.equations = .euler → c.caseNumber = 0 → run w c = .error .attributeError) ∧
      (c.grid = .cubedSphere → c.equations = .shallowWater → c.caseNumber ∈ ([0, 8, 9, 10] : List ℤ) → run w c = .error .valueError) := by
  obtain ⟨n, hn⟩ := hn
  have hop : ∀ g, operators c g = .ok () := fun g => (operators_iff c g).mpr ⟨by simp [hx], ha⟩
  have hred : ∀ e, initState n c (createGeometry c) = .error e → run w c = .error e := by
    intro e he
    unfold run
    rw [bind_err]
    left
    unfold startUp
    simp only [bind_err, bind_ok]
    exact Or.inr ⟨(), hconf, Or.inr ⟨n, hn, Or.inr ⟨(), hop _, Or.inl he⟩⟩⟩
  refine ⟨fun h1 h2 h3 => hred _ ?_, fun h1 h2 h3 => hred _ ?_, fun h1 h2 h3 => hred _ ?_, fun h1 h2 h3 => hred _ ?_⟩
  · simp [createGeometry, initState, h1, h2, initializeEuler, h3, applyTopography, topographyArity]
  · simp only [List.mem_cons, List.not_mem_nil, or_false] at h3
    rcases h3 with h3 | h3 | h3 <;>
      simp [createGeometry, initState, h1, h2, initializeCartesian, h3, throw, throwThe, MonadExceptOf.throw]
  · simp [createGeometry, initState, h1, h2, initializeCartesian, h3, throw, throwThe, MonadExceptOf.throw]
  · simp only [List.mem_cons, List.not_mem_nil, or_false] at h3
    rcases h3 with h3 | h3 | h3 | h3 <;>
      simp [createGeometry, initState, h1, h2, initializeSw, h3, sphereShape, unpack2, bind, Except.bind]

example : checkConfig base = .ok () ∧ (∃ n, elementsPerTile six base = .ok n) := ⟨by decide +kernel, 10, by decide +kernel⟩

/-- **C73** (negated) On the plane every number that is not documented is accepted as a test case. -/
theorem C73_unknown_case_fails (k : ℤ) (hk : k < 0 ∨ 4 < k) : run one { base with grid := .cartesian2d, caseNumber := k } = .ok () := by
  rw [C73_runs_iff]
  refine ⟨by simp [base], rfl, rfl, ⟨?_, rfl, rfl⟩, ?_⟩
  · simp only [brokenPlaneCases, List.mem_cons, List.not_mem_nil, or_false]
    omega
  · have h1 : prefixed "epi" "epi2" = some 2 := by decide +kernel
    have h2 : "pmex" ∈ solvers := by decide +kernel
    exact Or.inr (Or.inl ⟨2, (prefixed_iff _ _ _).mp h1, le_refl _, by norm_num, h2⟩)

/-- **C73** (negated) With the 3D equations and solution output the only number of processes that works is six: the same configuration
that runs on six processes ends with a `ValueError` on `6 k²`, for every `k ≥ 2` that divides the number of elements as required, and starts
again once the output is turned off. -/
theorem C73_more_processes_fails (k : ℕ) (hk : 2 ≤ k) (r : Bool) (c : Setup) (hg : c.grid = .cubedSphere) (he : c.equations = .euler)
    (hout : 0 < c.outputFreq) (hfit : k ∣ c.numElements ∧ 2 * k ≤ c.numElements) (hrun : run ⟨6, r⟩ c = .ok ()) :
    run ⟨6 * k ^ 2, r⟩ c = .error .valueError ∧ run ⟨6 * k ^ 2, r⟩ { c with outputFreq := 0 } = .ok () := by
  obtain ⟨h1, h2, h3, h4, h5⟩ := (C73_runs_iff _ _).mp hrun
  simp only [ProblemRuns, hg, he] at h4
  have h6 : 6 * k ^ 2 ≠ 6 := by nlinarith
  have hno : ¬ Supported ⟨6 * k ^ 2, r⟩ c := by
    rintro ⟨-, -, -, h, -⟩
    simp only [ProblemRuns, hg, he] at h
    rcases h.2.2 with ⟨-, h | h⟩ | ⟨-, h⟩
    · omega
    · exact h6 h
    · omega
  constructor
  · rcases C73_refused_partial _ _ hno with h | ⟨e, hu, hr⟩
    · exact h
    · exfalso
      have hx : ∀ e, ¬ Unexpected c e := by
        intro e hu
        have hr1 := (C73_runs_iff _ _).mp hrun
        obtain ⟨-, -, ha, hp, hi⟩ := hr1
        simp only [ProblemRuns, hg, he] at hp
        cases e <;> simp only [Unexpected, hg, he, ha] at hu
        · simp at hu
          have := hp.2.1
          simp [eulerCases, hu] at this
        · simp at hu
        · simp at hu
          have hd : ∀ x ∈ splitIntegrators, x ∉ plainIntegrators ∧ prefixed "epi" x = none ∧ prefixed "epi_stiff" x = none ∧
              prefixed "srerk" x = none := by decide +kernel
          obtain ⟨d1, d2, d3, d4⟩ := hd _ hu
          rcases hi with h | ⟨n, h, -⟩ | ⟨n, h, -⟩ | ⟨n, h, -⟩
          · exact d1 h
          · rw [← prefixed_iff, d2] at h; cases h
          · rw [← prefixed_iff, d3] at h; cases h
          · rw [← prefixed_iff, d4] at h; cases h
      exact hx e hu
  · rw [C73_runs_iff]
    refine ⟨h1, h2, h3, ?_, h5⟩
    simp only [ProblemRuns, hg, he]
    refine ⟨⟨k, by omega, hfit.1, Or.inr hfit.2, rfl⟩, h4.2.1, ?_⟩
    rcases h4.2.2 with ⟨h, -⟩ | ⟨-, h⟩
    · exact Or.inl ⟨h, Or.inl le_rfl⟩
    · omega

example : run ⟨6, false⟩ base = .ok () ∧ 2 ∣ base.numElements ∧ 2 * 2 ≤ base.numElements := by
  refine ⟨by decide +kernel, by decide, by decide⟩

/-- The shipped files, by name, with the processes they are run on — `config/*.ini` (`dcmip20` is shown with `epi_stiff3`; the file `vortex.ini`
also lacks the required `grid_type`) -/
def shipped : List (String × World × Setup) :=
  let sw : Setup := { base with equations := .shallowWater, timeIntegrator := "epi3" }
  let plane : Setup := { base with grid := .cartesian2d }
  [("case1", six, { sw with caseNumber := 1 }), ("case2", six, { sw with caseNumber := 2 }), ("case5", six, { sw with caseNumber := 5 }),
   ("case6", six, { sw with caseNumber := 6 }),
   ("dcmip21", six, { base with caseNumber := 21, expfilterApply := true, numSolpts := 3 }),
   ("dcmip21_rk3", six, { base with caseNumber := 21, expfilterApply := true, numSolpts := 5, timeIntegrator := "tvdrk3" }),
   ("dcmip31", six, { base with exponentialSolver := "kiops" }),
   ("gaussian_bubble", one, { plane with caseNumber := 2 }),
   ("cold_bubble", one, { plane with caseNumber := 3 }), ("density_current", one, { plane with caseNumber := 4 }),
   ("pill_bubble", one, { plane with caseNumber := 1 }), ("schar", one, { plane with caseNumber := 0, applySponge := true }),
   ("dcmip11", six, { base with caseNumber := 11 }), ("dcmip12", six, { base with caseNumber := 12 }),
   ("dcmip20", six, { base with caseNumber := 20, timeIntegrator := "epi_stiff3" }),
   ("dcmip31_cuda", six, { base with preconditioner := "fv-mg" }),
   ("gaussian_bubble_hybrid", one, { plane with caseNumber := 2, timeIntegrator := "hybridexp" }),
   ("galewsky", six, { sw with caseNumber := 8 }), ("matsuno", six, { sw with caseNumber := 9 }),
   ("unsteady_zonal", six, { sw with caseNumber := 10, timeIntegrator := "epi4" }), ("vortex", six, { sw with caseNumber := 0 })]

/-- **C73** (negated) Of these 21 shipped configurations 8 run; the others end with these exceptions.  (A table of the files as they
are, checked by evaluation.) -/
theorem C73_shipped_fails : shipped.map (fun x => (x.1, match run x.2.1 x.2.2 with | .ok _ => none | .error e => some e)) =
    [("case1", none), ("case2", none), ("case5", none), ("case6", none), ("dcmip21", none), ("dcmip21_rk3", none), ("dcmip31", none),
     ("gaussian_bubble", none), ("cold_bubble", some .nameError), ("density_current", some .nameError), ("pill_bubble", some .nameError),
     ("schar", some .valueError), ("dcmip11", some .valueError), ("dcmip12", some .valueError), ("dcmip20", some .typeError),
     ("dcmip31_cuda", some .valueError), ("gaussian_bubble_hybrid", some .valueError), ("galewsky", some .valueError),
     ("matsuno", some .valueError), ("unsteady_zonal", some .valueError), ("vortex", some .valueError)] := by decide +kernel

end WxVerif.Props.Startup
