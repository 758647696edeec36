import Verif.Props.ProcessCount

/-!
# Implicit and exponential runs of the 3D model do not depend on the number of processes (C84)
-/

namespace WxVerif.Props.ProcessCount3D

open WxVerif WxVerif.Topology WxVerif.Cube WxVerif.Krylov WxVerif.Gmres WxVerif.Calls WxVerif.Naturality WxVerif.Reorder
open WxVerif.Spec.Decomposition WxVerif.Spec.ProcessCount WxVerif.Props.ProcessCount WxVerif.Props.Decomposition3D
open WxVerif.EulerSphere (Atm Field3 Floor ForcingData)

variable {g g' : Atm}

/-- the place, on six processes, of a number held by a tile -/
def place (g : Atm) (i : Points3 g) : Points3 (whole3 g) :=
  have hp := placeOf_valid i.1.2
  (⟨panelOf g.toGrid i.1, by simpa [whole3, panelOf] using hp.1⟩, i.2.1,
   ⟨rowOf g.toGrid i.1 i.2.2.1, Decomposition.whole_lt hp.2.1 i.2.2.1.2⟩,
   ⟨colOf g.toGrid i.1 i.2.2.2.1, Decomposition.whole_lt hp.2.2 i.2.2.2.1.2⟩, i.2.2.2.2.1, i.2.2.2.2.2)

theorem place_injective (g : Atm) : Function.Injective (place g) := by
  rintro ⟨r, ek, ej, ei, v, c⟩ ⟨r', ek', ej', ei', v', c'⟩ h
  have h1 : panelOf g.toGrid r = panelOf g.toGrid r' := congrArg (fun i : Points3 (whole3 g) => (i.1 : Nat)) h
  have h2 : rowOf g.toGrid r ej = rowOf g.toGrid r' ej' := congrArg (fun i : Points3 (whole3 g) => (i.2.2.1 : Nat)) h
  have h3 : colOf g.toGrid r ei = colOf g.toGrid r' ei' := congrArg (fun i : Points3 (whole3 g) => (i.2.2.2.1 : Nat)) h
  have h0 : ek = ek' := congrArg (fun i : Points3 (whole3 g) => i.2.1) h
  have h4 : v = v' := congrArg (fun i : Points3 (whole3 g) => i.2.2.2.2.1) h
  have h5 : c = c' := congrArg (fun i : Points3 (whole3 g) => i.2.2.2.2.2) h
  obtain ⟨a, b, d⟩ := element_unique g.toGrid ej.2 ej'.2 ei.2 ei'.2 h1 h2 h3
  rw [Fin.ext a, Fin.ext b, Fin.ext d, h0, h4, h5]

theorem card_points (g : Atm) : Fintype.card (Points3 g) = 6 * (g.k * g.k) * (g.nz * (g.N * (g.N * (5 * (g.n * g.n * g.n))))) := by
  simp only [Points3, Fintype.card_prod, Fintype.card_fin]

noncomputable def placeEquiv (g : Atm) : Points3 g ≃ Points3 (whole3 g) :=
  Equiv.ofBijective (place g) ((Fintype.bijective_iff_injective_and_card _).2 ⟨place_injective g, by
    rw [card_points, card_points]
    simp only [whole3]
    ring⟩)

theorem samePoint_place (g : Atm) (i : Points3 g) : SamePoint3 g (whole3 g) i (placeEquiv g i) := by
  change SamePoint3 g (whole3 g) i (place g i)
  refine ⟨⟨?_, ?_, ?_⟩, rfl, rfl, rfl⟩ <;>
    simp [place, panelOf, rowOf, colOf, placeOf, whole3, Nat.mod_one]

theorem samePoint_unique {i : Points3 g} {a b : Points3 g'} (h1 : SamePoint3 g g' i a) (h2 : SamePoint3 g g' i b) : a = b := by
  obtain ⟨r, ek, ej, ei, v, c⟩ := a
  obtain ⟨r', ek', ej', ei', v', c'⟩ := b
  obtain ⟨⟨a1, a2, a3⟩, a4, a5, a6⟩ := h1
  obtain ⟨⟨b1, b2, b3⟩, b4, b5, b6⟩ := h2
  simp only at a1 a2 a3 a4 a5 a6 b1 b2 b3 b4 b5 b6
  obtain ⟨x, y, z⟩ := element_unique g'.toGrid ej.2 ej'.2 ei.2 ei'.2 (a1.symm.trans b1) (a2.symm.trans b2) (a3.symm.trans b3)
  rw [Fin.ext x, Fin.ext y, Fin.ext z, Fin.ext (a4.symm.trans b4), Fin.ext (a5.symm.trans b5), Fin.ext (a6.symm.trans b6)]

theorem exists_place (g' : Atm) (G : Atm) (h : whole3 g' = G) : ∃ e : Points3 g' ≃ Points3 G, ∀ i, SamePoint3 g' G i (e i) := by
  subst h
  exact ⟨placeEquiv g', samePoint_place g'⟩

/-- the numbers of two decompositions of one sphere correspond -/
theorem exists_points (hg : whole3 g = whole3 g') : ∃ e : Points3 g ≃ Points3 g', ∀ i, SamePoint3 g g' i (e i) := by
  obtain ⟨e1, h1⟩ := exists_place g (whole3 g) rfl
  obtain ⟨e2, h2⟩ := exists_place g' (whole3 g) hg.symm
  refine ⟨e1.trans e2.symm, fun i => ?_⟩
  have a := h1 i
  have b := h2 (e2.symm (e1 i))
  rw [e2.apply_symm_apply] at b
  exact ⟨⟨a.1.1.trans b.1.1.symm, a.1.2.1.trans b.1.2.1.symm, a.1.2.2.trans b.1.2.2.symm⟩, a.2.1.trans b.2.1.symm, a.2.2.1.trans b.2.2.1.symm,
    a.2.2.2.trans b.2.2.2.symm⟩

theorem sameState_iff {e : Points3 g ≃ Points3 g'} (he : ∀ i, SamePoint3 g g' i (e i)) (q : State3 g) (q' : State3 g') :
    SameState3 g g' q q' ↔ q' = reorder e q := by
  constructor
  · intro h
    ext i
    rw [reorder_symm]
    have := he (e.symm i)
    rw [e.apply_symm_apply] at this
    exact (h _ _ this).symm
  · rintro rfl i i' h
    rw [samePoint_unique h (he i), reorder_apply]

theorem holds_toField (G : Atm) (hG : whole3 g = G) (q : State3 g) (W : State3 G) (h : SameState3 g G q W) : Holds3 g (toField3 g q) (toField3 G W) := by
  subst hG
  intro r hr ek hz ej hj ei hi v hv c hc
  unfold toField3
  have hp := placeOf_valid hr
  have hr1 : panelOf g.toGrid r < 6 * ((whole3 g).k * (whole3 g).k) := by simpa [whole3, panelOf] using hp.1
  have hj1 : rowOf g.toGrid r ej < (whole3 g).N := Decomposition.whole_lt hp.2.1 hj
  have hi1 : colOf g.toGrid r ei < (whole3 g).N := Decomposition.whole_lt hp.2.2 hi
  have hv1 : v < 5 := by omega
  have hz1 : ek < (whole3 g).nz := hz
  have hc1 : c < (whole3 g).n * (whole3 g).n * (whole3 g).n := hc
  rw [dif_pos ⟨hr, hz, hj, hi, hv1, hc⟩, dif_pos ⟨hr1, hz1, hj1, hi1, hv1, hc1⟩]
  exact h _ _ (samePoint_place g (⟨r, hr⟩, ⟨ek, hz⟩, ⟨ej, hj⟩, ⟨ei, hi⟩, ⟨v, hv1⟩, ⟨c, hc⟩))

/-- the right-hand sides correspond -/
theorem tendency_map (hg : whole3 g = whole3 g') {e : Points3 g ≃ Points3 g'} (he : ∀ i, SamePoint3 g g' i (e i)) {f f' fl : Floor} (hf : HoldsFloor g f fl)
    (hf' : HoldsFloor g' f' fl) {F F' Fo : ForcingData} (hF : HoldsForcing g F Fo) (hF' : HoldsForcing g' F' Fo) (q : State3 g) :
    tendency3 g' f' F' (reorder e q) = reorder e (tendency3 g f F q) := by
  obtain ⟨e2, h2⟩ := exists_place g' (whole3 g) hg.symm
  have hW : SameState3 g' (whole3 g) (reorder e q) (reorder e2 (reorder e q)) := by
    intro i i' h
    rw [samePoint_unique h (h2 i), reorder_apply]
  have hW1 : SameState3 g (whole3 g) q (reorder e2 (reorder e q)) := by
    intro i i' h
    rw [← reorder_apply e q i]
    have a := he i
    exact hW _ _ ⟨⟨a.1.1.symm.trans h.1.1, a.1.2.1.symm.trans h.1.2.1, a.1.2.2.symm.trans h.1.2.2⟩, a.2.1.symm.trans h.2.1, a.2.2.1.symm.trans h.2.2.1,
      a.2.2.2.symm.trans h.2.2.2⟩
  have r1 := C83_euler g hf hF (holds_toField _ rfl _ _ hW1)
  have r2 := C83_euler g' hf' hF' (holds_toField _ hg.symm _ _ hW)
  rw [← hg] at r2
  refine (sameState_iff he (tendency3 g f F q) _).1 ?_
  rintro ⟨r, ek, ej, ei, v, c⟩ ⟨r', ek', ej', ei', v', c'⟩ ⟨h, hz, hv, hc⟩
  simp only at h hz hv hc
  change EulerSphere.rhs g f (toField3 g q) F r ek ej ei v c = EulerSphere.rhs g' f' (toField3 g' (reorder e q)) F' r' ek' ej' ei' v' c'
  rw [r1 r r.2 ek ek.2 ej ej.2 ei ei.2 v (by have := v.2; omega) c c.2,
    r2 r' r'.2 ek' ek'.2 ej' ej'.2 ei' ei'.2 v' (by have := v'.2; omega) c' c'.2, h.1, h.2.1, h.2.2, hz, hv, hc]

/-- **C84**, exponential integrators in 3D: the same states and the same decisions on any two numbers of processes. -/
theorem C84_euler_epi (hg : whole3 g = whole3 g') {f f' fl : Floor} (hf : HoldsFloor g f fl) (hf' : HoldsFloor g' f' fl) {F F' Fo : ForcingData}
    (hF : HoldsForcing g F Fo) (hF' : HoldsForcing g' F' Fo) (cfg : Epi.Cfg ℝ) (o : Expo) (control : List (List Seen) → List Seen → Option Move)
    (start : List Seen → Option Move) (dts : Nat → ℝ) (q : State3 g) (q' : State3 g') (same : SameState3 g g' q q') (n : Nat) :
    Both (fun s s' => SameState3 g g' s.1.2 s'.1.2 ∧ s.2 = s'.2)
      (epiRun cfg o control start (tendency3 g f F) dts q n) (epiRun cfg o control start (tendency3 g' f' F') dts q' n) := by
  obtain ⟨e, he⟩ := exists_points hg
  rw [(sameState_iff he q q').1 same, epiRun_map (tendency_map hg he hf hf' hF hF')]
  cases epiRun cfg o control start (tendency3 g f F) dts q n with
  | none => trivial
  | some s => exact ⟨(sameState_iff he _ _).2 rfl, rfl⟩

/-- **C84**, exponential Runge–Kutta integrators in 3D: the same states and the same decisions on any two numbers of processes. -/
theorem C84_euler_srerk (hg : whole3 g = whole3 g') {f f' fl : Floor} (hf : HoldsFloor g f fl) (hf' : HoldsFloor g' f' fl) {F F' Fo : ForcingData}
    (hF : HoldsForcing g F Fo) (hF' : HoldsForcing g' F' Fo) (c : List (List ℝ)) (o : Expo)
    (control : List ℝ → List (List Seen) → List Seen → Option Move) (dts : Nat → ℝ) (q : State3 g) (q' : State3 g') (same : SameState3 g g' q q') (n : Nat) :
    Both (fun s s' => SameState3 g g' s.1 s'.1 ∧ s.2 = s'.2)
      (srerkRun c o control (tendency3 g f F) dts q n) (srerkRun c o control (tendency3 g' f' F') dts q' n) := by
  obtain ⟨e, he⟩ := exists_points hg
  rw [(sameState_iff he q q').1 same, srerkRun_map (tendency_map hg he hf hf' hF hF')]
  cases srerkRun c o control (tendency3 g f F) dts q n with
  | none => trivial
  | some s => exact ⟨(sameState_iff he _ _).2 rfl, rfl⟩

/-- **C84**, implicit integrators in 3D: the same states on every process of any two numbers of processes whose parts are longer than a cycle of the linear
solver. -/
theorem C84_euler_implicit (hg : whole3 g = whole3 g') {f f' fl : Floor} (hf : HoldsFloor g f fl) (hf' : HoldsFloor g' f' fl) {F F' Fo : ForcingData}
    (hF : HoldsForcing g F Fo) (hF' : HoldsForcing g' F' Fo) {P P' : Type*} (p : P) (p' : P') (o : Inner)
    (len len' : Nat) (hl : o.restart < len) (hl' : o.restart < len') (stag : P → State3 g → State3 g → Prop) (stag' : P' → State3 g' → State3 g' → Prop)
    (search : Option (ℝ → Newton.Search ℝ)) (tol : Newton.Tols ℝ) (maxiter : Nat) (dt gamma : ℝ) (substeps m : Nat) (q : State3 g) (q' : State3 g')
    (same : SameState3 g g' q q') :
    let N := newton o len stag p search tol maxiter
    let N' := newton o len' stag' p' search tol maxiter
    let R := tendency3 g f F
    let R' := tendency3 g' f' F'
    SameState3 g g' ((fun q => Schemes.backwardEuler N R q dt)^[m] q) ((fun q => Schemes.backwardEuler N' R' q dt)^[m] q') ∧
    SameState3 g g' ((fun q => Schemes.crankNicolson N R q dt)^[m] q) ((fun q => Schemes.crankNicolson N' R' q dt)^[m] q') ∧
    SameState3 g g' ((fun q => Schemes.sdirk N gamma R q dt)^[m] q) ((fun q => Schemes.sdirk N' gamma R' q dt)^[m] q') ∧
    SameState3 g g' ((fun s : Option (State3 g) × State3 g => Schemes.bdf2 N R substeps s.1 s.2 dt)^[m] (none, q)).2
      ((fun s : Option (State3 g') × State3 g' => Schemes.bdf2 N' R' substeps s.1 s.2 dt)^[m] (none, q')).2 := by
  intro N N' R R'
  obtain ⟨e, he⟩ := exists_points hg
  have hr : ∀ w, R' (reorder e w) = reorder e (R w) := tendency_map hg he hf hf' hF hF'
  have hn : RelatedNewton (reorder e).toLinearMap N N' := newton_map p p' o len len' hl hl' stag stag' search tol maxiter
  have it : ∀ (S : State3 g → State3 g) (S' : State3 g' → State3 g'), (∀ q, S' (reorder e q) = reorder e (S q)) → SameState3 g g' (S^[m] q) (S'^[m] q') := by
    intro S S' h
    rw [(sameState_iff he q q').1 same, sameState_iff he]
    exact ((Function.Semiconj.iterate_right (f := reorder e) (fun q => (h q).symm) m) q).symm
  refine ⟨it _ _ fun q => ?_, it _ _ fun q => ?_, it _ _ fun q => ?_, ?_⟩
  · exact backwardEuler_map (L := (reorder e).toLinearMap) hr hn q dt
  · exact crankNicolson_map (L := (reorder e).toLinearMap) hr hn q dt
  · exact sdirk_map (L := (reorder e).toLinearMap) hr hn gamma q dt
  · rw [(sameState_iff he q q').1 same, sameState_iff he]
    have := (Function.Semiconj.iterate_right (f := fun s : Option (State3 g) × State3 g => (s.1.map (reorder e), reorder e s.2))
      (ga := fun s : Option (State3 g) × State3 g => Schemes.bdf2 N R substeps s.1 s.2 dt)
      (gb := fun s : Option (State3 g') × State3 g' => Schemes.bdf2 N' R' substeps s.1 s.2 dt)
      (fun s => (bdf2_map (L := (reorder e).toLinearMap) hr hn substeps s.1 s.2 dt).symm) m) (none, q)
    exact (congrArg Prod.snd this).symm

/-- non-vacuity: a state given on the six panels, cut for six processes with 6 × 6 × 4 elements and for fifty-four with 2 × 2 × 4, over any floor -/
example (a : Atm) (hn : 0 < a.n) (ζ : Nat → ℝ × ℝ → ℝ) (W : Field3) (Fo : ForcingData) (cfg : Epi.Cfg ℝ) (o : Expo)
    (control : List (List Seen) → List Seen → Option Move) (start : List Seen → Option Move) (dts : Nat → ℝ) (n : Nat) :
    let g : Atm := { a with k := 1, N := 6, nz := 4 }
    let g' : Atm := { a with k := 3, N := 2, nz := 4 }
    Both (fun s s' => SameState3 g g' s.1.2 s'.1.2 ∧ s.2 = s'.2)
      (epiRun cfg o control start (tendency3 g (floorOf g ζ) (cutForcing g Fo)) dts (ofField3 g (cut g W)) n)
      (epiRun cfg o control start (tendency3 g' (floorOf g' ζ) (cutForcing g' Fo)) dts (ofField3 g' (cut g' W)) n) := by
  intro g g'
  refine C84_euler_epi (g := g) (g' := g') rfl (C83_floor g hn ζ) (C83_floor g' hn ζ) (cutForcing_holds g Fo) (cutForcing_holds g' Fo) cfg o control start dts _ _ ?_ n
  rintro ⟨r, ek, ej, ei, v, c⟩ ⟨r', ek', ej', ei', v', c'⟩ ⟨h, hz, hv, hc⟩
  change W _ _ _ _ _ _ = W _ _ _ _ _ _
  simp only at h hz hv hc
  rw [h.1, h.2.1, h.2.2, hz, hv, hc]

end WxVerif.Props.ProcessCount3D
