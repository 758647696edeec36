import Verif.Props.SphereConsistency
import Verif.Props.Christoffel3D
import Verif.Props.Metric3D
import Verif.Spec.RestState

/-!
# C67: an atmosphere at rest with uniform pressure stays at rest, except for gravity
-/

namespace WxVerif.Props.RestState

open Polynomial hiding comp
open WxVerif.Dfr WxVerif.Flux WxVerif.Sphere WxVerif.Topology WxVerif.Cube WxVerif.Quad WxVerif.Spec.RestState WxVerif.Spec.Consistency
open WxVerif.Props.Operators WxVerif.Props.Flux WxVerif.Props.Conservation
open WxVerif.EulerSphere
open WxVerif.ShallowWater (node Grid mirrored_lt)
open WxVerif.ShallowWater.Grid (itfIndex)
open WxVerif.Props.SphereConsistency (inner outer onLine atEnd along dfd_exact pres_eq)

variable {g : Atm} {f : Floor} {Q : Field3} {F : ForcingData} {Θ : ℝ}

/-- variables 1 to 4 of a side at rest -/
def Rest (Θ : ℝ) (q : Nat → ℝ) : Prop := (∀ v, 1 ≤ v → v ≤ 3 → q v = 0) ∧ q 4 = Θ

theorem face_rest (d : Nat) (hd : d < 3) (adv : Bool) (l r : Side3) (hl : Rest Θ l.var) (hr : Rest Θ r.var) (vl : l.vel = 0) (vr : r.vel = 0)
    (pl : l.pres = pressure3 Θ) (pr : r.pres = pressure3 Θ) (hG : r.sqrtG = l.sqrtG) (hh : r.h = l.h) :
    let o := rusanov d adv l r
    (∀ v, 1 ≤ v → v ≤ 3 → o.1.flux v = l.sqrtG * l.h d (v - 1) * pressure3 Θ ∧ o.2.flux v = l.sqrtG * l.h d (v - 1) * pressure3 Θ) ∧
    (o.1.flux 4 = 0 ∧ o.2.flux 4 = 0) ∧ (o.1.wadv = 0 ∧ o.2.wadv = 0) ∧ (o.1.wpres = l.sqrtG * l.h d 2 ∧ o.2.wpres = l.sqrtG * l.h d 2) ∧
    (l.var 0 = r.var 0 → o.1.flux 0 = 0 ∧ o.2.flux 0 = 0) := by
  have hp := (pressure3_pos Θ).ne'
  intro o
  refine ⟨fun v h1 h2 => ?_, ?_, ?_, ?_, fun h0 => ?_⟩
  · simp only [o]
    rw [rusanov_flux2, and_self_iff, rusanov_flux d hd, hl.1 v h1 h2, hr.1 v h1 h2]
    simp only [pp, pl, pr, hG, hh, h1, h2, and_self, if_true, vl, vr]
    ring
  · simp only [o]
    rw [rusanov_flux2, and_self_iff, rusanov_flux d hd, hl.2, hr.2]
    simp only [pp, vl, vr, show ¬ (1 ≤ 4 ∧ 4 ≤ 3) by omega, if_false]
    ring
  · simp only [o]
    rw [(rusanov_wadv d hd adv l r).2, and_self_iff, (rusanov_wadv d hd adv l r).1, hl.1 3 (by omega) (by omega), hr.1 3 (by omega) (by omega)]
    ring
  · obtain ⟨a, b⟩ := rusanov_wpres d hd adv l r
    simp only [o]
    rw [a, b]
    simp only [pp, pl, pr, hG, hh]
    constructor <;> · norm_num; field_simp; ring
  · simp only [o]
    rw [rusanov_flux2, and_self_iff, rusanov_flux d hd, h0]
    simp only [pp, vl, vr, show ¬ (1 ≤ 0 ∧ 0 ≤ 3) by omega, if_false]
    ring

/-- what a face between two sides at rest gives to side `s` of an element -/
def RestOut (d : Nat) (o : Out3) (G : ℝ) (h : Nat → Nat → ℝ) (Θ : ℝ) (sameDensity : Prop) : Prop :=
  (∀ v, 1 ≤ v → v ≤ 3 → o.flux v = G * h d (v - 1) * pressure3 Θ) ∧ o.flux 4 = 0 ∧ o.wadv = 0 ∧ o.wpres = G * h d 2 ∧ (sameDensity → o.flux 0 = 0)

theorem hori_rest (d N : Nat) (hd : d < 2) (adv : Bool) (G : Nat → Bool → ℝ) (h : Nat → Bool → Nat → Nat → ℝ)
    (hG : ∀ p ≤ N, G (p + 1) false = G p true) (hh : ∀ p ≤ N, h (p + 1) false = h p true) (old : Nat → Bool → Out3)
    (q : Nat → Bool → Nat → ℝ) (first last : Nat → ℝ) (e : Nat) (he : e < N) (s : Bool) (own : Rest Θ (q e s))
    (other : Rest Θ (if s then (if e + 1 = N then last else q (e + 1) false) else (if e = 0 then first else q (e - 1) true))) :
    RestOut d (riemannHori d N adv G h old q first last e s) (G (e + 1) s) (h (e + 1) s) Θ
      (q e s 0 = (if s then (if e + 1 = N then last else q (e + 1) false) else (if e = 0 then first else q (e - 1) true)) 0) := by
  have mid : ∀ p s, 1 ≤ p → p ≤ N → fullHori N q first last p s = q (p - 1) s := by
    intro p s h1 h2
    simp only [fullHori, put]
    rw [if_neg (by omega), if_neg (by omega), if_pos ⟨h1, h2⟩]
  have hfirst : fullHori N q first last 0 true = first := by
    simp only [fullHori, put]
    rw [if_neg (by omega), if_pos (by simp)]
  have hlast : fullHori N q first last (N + 1) false = last := by simp only [fullHori, put]; simp
  let side : Nat → Bool → Side3 := fun p s =>
    ⟨fullHori N q first last p s, pressure3 (fullHori N q first last p s 4), fullHori N q first last p s (d + 1) / fullHori N q first last p s 0, G p s, h p s⟩
  cases s
  · simp only [Bool.false_eq_true, if_false] at other ⊢
    have l1 : fullHori N q first last e true = (if e = 0 then first else q (e - 1) true) := by
      split
      · next h0 => subst h0; rw [hfirst]
      · next h0 => rw [mid e true (by omega) he.le]
    have r1 : fullHori N q first last (e + 1) false = q e false := by
      rw [mid (e + 1) false (by omega) (by omega), Nat.add_sub_cancel]
    have fp := face_rest d (by omega) adv (side e true) (side (e + 1) false) (by simpa only [side, l1] using other) (by simpa only [side, r1] using own)
      (by simp only [side, l1, other.1 (d + 1) (by omega) (by omega), zero_div]) (by simp only [side, r1, own.1 (d + 1) (by omega) (by omega), zero_div])
      (by simp only [side, l1, other.2]) (by simp only [side, r1, own.2]) (hG e he.le) (hh e he.le)
    have ho : riemannHori d N adv G h old q first last e false = (rusanov d adv (side e true) (side (e + 1) false)).2 := by
      simp only [riemannHori, faces, Nat.add_sub_cancel]
      rw [if_pos (by omega)]
    rw [ho, hG e he.le, hh e he.le]
    refine ⟨fun i h1 h2 => (fp.1 i h1 h2).2, fp.2.1.2, fp.2.2.1.2, fp.2.2.2.1.2, fun h0 => (fp.2.2.2.2 ?_).2⟩
    simp only [side, l1, r1, h0]
  · simp only [if_true] at other ⊢
    have l1 : fullHori N q first last (e + 1) true = q e true := by
      rw [mid (e + 1) true (by omega) (by omega), Nat.add_sub_cancel]
    have r1 : fullHori N q first last (e + 1 + 1) false = (if e + 1 = N then last else q (e + 1) false) := by
      split
      · next h0 => rw [h0, hlast]
      · next h0 => rw [mid (e + 1 + 1) false (by omega) (by omega)]; rfl
    have fp := face_rest d (by omega) adv (side (e + 1) true) (side (e + 1 + 1) false) (by simpa only [side, l1] using own) (by simpa only [side, r1] using other)
      (by simp only [side, l1, own.1 (d + 1) (by omega) (by omega), zero_div]) (by simp only [side, r1, other.1 (d + 1) (by omega) (by omega), zero_div])
      (by simp only [side, l1, own.2]) (by simp only [side, r1, other.2]) (hG (e + 1) (by omega)) (hh (e + 1) (by omega))
    have ho : riemannHori d N adv G h old q first last e true = (rusanov d adv (side (e + 1) true) (side (e + 1 + 1) false)).1 := by
      simp only [riemannHori, faces]
      rw [if_pos (by omega)]
    rw [ho]
    refine ⟨fun i h1 h2 => (fp.1 i h1 h2).1, fp.2.1.1, fp.2.2.1.1, fp.2.2.2.1.1, fun h0 => (fp.2.2.2.2 ?_).1⟩
    simp only [side, l1, r1, h0]

theorem vert_rest (N : Nat) (adv : Bool) (G : Nat → Bool → ℝ) (h : Nat → Bool → Nat → Nat → ℝ)
    (hG : ∀ p ≤ N, G (p + 1) false = G p true) (hh : ∀ p ≤ N, h (p + 1) false = h p true) (old : Nat → Bool → Out3)
    (q : Nat → Bool → Nat → ℝ) (e : Nat) (he : e < N) (s : Bool) (own : Rest Θ (q e s))
    (other : Rest Θ (if s then (if e + 1 = N then q e true else q (e + 1) false) else (if e = 0 then q e false else q (e - 1) true))) :
    RestOut 2 (riemannX3 N adv G h old q e s) (G (e + 1) s) (h (e + 1) s) Θ
      (q e s 0 = (if s then (if e + 1 = N then q e true else q (e + 1) false) else (if e = 0 then q e false else q (e - 1) true)) 0) := by
  have hN : 0 < N := by omega
  obtain ⟨b1, b2⟩ := fullX3_bottom N hN q
  obtain ⟨t1, t2⟩ := fullX3_top N hN q
  let side : Nat → Bool → Side3 := fun p s => ⟨fullX3 N q p s, pressure3 (fullX3 N q p s 4), wItf N (fullX3 N q) p s, G p s, h p s⟩
  cases s
  · simp only [Bool.false_eq_true, if_false] at other ⊢
    have r1 : fullX3 N q (e + 1) false = q e false := by
      rw [fullX3_mid N q (e + 1) (by omega) (by omega), Nat.add_sub_cancel]
    have l1 : fullX3 N q e true = (if e = 0 then q e false else q (e - 1) true) := by
      split
      · next h0 => subst h0; rw [b1]
      · next h0 => rw [fullX3_mid N q e (by omega) he.le]
    have wr : wItf N (fullX3 N q) (e + 1) false = 0 := by rw [wItf_mid N _ (e + 1) (by omega) (by omega), r1, own.1 3 (by omega) (by omega), zero_div]
    have wl : wItf N (fullX3 N q) e true = 0 := by
      by_cases h0 : e = 0
      · subst h0
        rw [wItf_bottom N hN]
        rw [zero_add] at wr
        rw [wr, neg_zero]
      · rw [wItf_mid N _ e (by omega) he.le, l1, other.1 3 (by omega) (by omega), zero_div]
    have fp := face_rest 2 (by omega) adv (side e true) (side (e + 1) false) (by simpa only [side, l1] using other) (by simpa only [side, r1] using own)
      wl wr (by simp only [side, l1, other.2]) (by simp only [side, r1, own.2]) (hG e he.le) (hh e he.le)
    have ho : riemannX3 N adv G h old q e false = (rusanov 2 adv (side e true) (side (e + 1) false)).2 := by
      simp only [riemannX3, faces, Nat.add_sub_cancel]
      rw [if_pos (by omega)]
      rfl
    rw [ho, hG e he.le, hh e he.le]
    refine ⟨fun i h1 h2 => (fp.1 i h1 h2).2, fp.2.1.2, fp.2.2.1.2, fp.2.2.2.1.2, fun h0 => (fp.2.2.2.2 ?_).2⟩
    simp only [side, l1, r1, h0]
  · simp only [if_true] at other ⊢
    have l1 : fullX3 N q (e + 1) true = q e true := by
      rw [fullX3_mid N q (e + 1) (by omega) (by omega), Nat.add_sub_cancel]
    have r1 : fullX3 N q (e + 1 + 1) false = (if e + 1 = N then q e true else q (e + 1) false) := by
      split
      · next h0 =>
        have : N - 1 = e := by omega
        rw [h0, t2, this]
      · next h0 => rw [fullX3_mid N q (e + 1 + 1) (by omega) (by omega)]; rfl
    have wl : wItf N (fullX3 N q) (e + 1) true = 0 := by rw [wItf_mid N _ (e + 1) (by omega) (by omega), l1, own.1 3 (by omega) (by omega), zero_div]
    have wr : wItf N (fullX3 N q) (e + 1 + 1) false = 0 := by
      by_cases h0 : e + 1 = N
      · rw [h0] at wl ⊢
        rw [wItf_top N hN, wl, neg_zero]
      · rw [wItf_mid N _ (e + 1 + 1) (by omega) (by omega), r1, other.1 3 (by omega) (by omega), zero_div]
    have fp := face_rest 2 (by omega) adv (side (e + 1) true) (side (e + 1 + 1) false) (by simpa only [side, l1] using own) (by simpa only [side, r1] using other)
      wl wr (by simp only [side, l1, own.2]) (by simp only [side, r1, other.2]) (hG (e + 1) (by omega)) (hh (e + 1) (by omega))
    have ho : riemannX3 N adv G h old q e true = (rusanov 2 adv (side (e + 1) true) (side (e + 1 + 1) false)).1 := by
      simp only [riemannX3, faces]
      rw [if_pos (by omega)]
      rfl
    rw [ho]
    refine ⟨fun i h1 h2 => (fp.1 i h1 h2).1, fp.2.1.1, fp.2.2.1.1, fp.2.2.2.1.1, fun h0 => (fp.2.2.2.2 ?_).1⟩
    simp only [side, l1, r1, h0]

/-! ## Extrapolation and exchange of the state at rest -/

theorem pts_inj (hinj : Set.InjOn (extension g.n g.pts) (Finset.range (g.n + 2))) : Set.InjOn g.pts (Finset.range g.n) := by
  intro a ha b hb hab
  have ha' : a < g.n := by simpa using ha
  have hb' : b < g.n := by simpa using hb
  have := hinj (show a + 1 ∈ _ by simpa using by omega) (show b + 1 ∈ _ by simpa using by omega)
    (by rw [extension_mid _ ha', extension_mid _ hb', hab])
  omega

theorem to_const (hn : 1 ≤ g.n) (hinj : Set.InjOn g.pts (Finset.range g.n)) (q : Nat → ℝ) (a : ℝ) (hq : ∀ c < g.n * g.n * g.n, q c = a) (s : Bool) {m : Nat}
    (hm : m < g.n * g.n) : toI g q (node (g.n * g.n) s m) = a ∧ toJ g q (node (g.n * g.n) s m) = a ∧ toK g q (node (g.n * g.n) s m) = a := by
  have hm1 : m / g.n < g.n := Nat.div_lt_of_lt_mul hm
  have hm2 : m % g.n < g.n := Nat.mod_lt _ (by omega)
  have hmm : m / g.n * g.n + m % g.n = m := by rw [Nat.mul_comm]; exact Nat.div_add_mod m g.n
  have lt3 : ∀ x < g.n, ∀ y < g.n, ∀ z < g.n, (x * g.n + y) * g.n + z < g.n * g.n * g.n := by
    intro x hx y hy z hz
    have h1 : x * g.n + y < g.n * g.n := by nlinarith
    nlinarith
  obtain ⟨k1, k2, k3⟩ := C42_extrap_3d g.n g.pts hinj q (m / g.n) (m % g.n) hm1 hm2 (C a) (lt_of_le_of_lt degree_C_le (by exact_mod_cast hn))
  simp only [eval_C, hmm] at k1 k2 k3
  have a1 := k1 (fun b hb => hq _ (by have := lt3 _ hm1 _ hm2 _ hb; rwa [hmm] at this))
  have a2 := k2 (fun b hb => hq _ (lt3 _ hm1 _ hb _ hm2))
  have a3 := k3 (fun b hb => hq _ (lt3 _ hb _ hm1 _ hm2))
  cases s
  · exact ⟨a1.1, a2.1, a3.1⟩
  · exact ⟨a1.2, a2.2, a3.2⟩

theorem extrapolated_const (hn : 1 ≤ g.n) (hinj : Set.InjOn g.pts (Finset.range g.n)) (q : Nat → Nat → ℝ) (v : Nat) (a : ℝ) (ha : v = 0 ∨ v = 4 → 0 < a)
    (hq : ∀ c < g.n * g.n * g.n, q v c = a) (s : Bool) {m : Nat} (hm : m < g.n * g.n) :
    extrapolated (toI g) q v (node (g.n * g.n) s m) = a ∧ extrapolated (toJ g) q v (node (g.n * g.n) s m) = a ∧
      extrapolated (toK g) q v (node (g.n * g.n) s m) = a := by
  unfold extrapolated
  split
  · next hv =>
    obtain ⟨h1, h2, h3⟩ := to_const hn hinj (fun c => Real.log (q v c)) (Real.log a) (fun c hc => by rw [hq c hc]) s hm
    rw [h1, h2, h3, Real.exp_log (ha hv)]
    exact ⟨rfl, rfl, rfl⟩
  · exact to_const hn hinj (q v) a hq s hm

/-- a value that does not depend on the place is the same on all sides -/
theorem sides_const (hn : 1 ≤ g.n) (hinj : Set.InjOn g.pts (Finset.range g.n)) {v : Nat} {a : ℝ} (ha : v = 0 ∨ v = 4 → 0 < a)
    (hQ : ∀ r ek ej ei c, OnGrid3 g r ek ej ei c → Q r ek ej ei v c = a) {r ek ej ei : Nat} (hr : r < 6 * g.k ^ 2) (hek : ek < g.nz) (hej : ej < g.N)
    (hei : ei < g.N) (s : Bool) {m : Nat} (hm : m < g.n * g.n) :
    qI g Q r ek ej ei v (node (g.n * g.n) s m) = a ∧ qJ g Q r ek ej ei v (node (g.n * g.n) s m) = a ∧ qK g Q r ek ej ei v (node (g.n * g.n) s m) = a :=
  extrapolated_const hn hinj (Q r ek ej ei) v a ha (fun c hc => hQ r ek ej ei c ⟨hr, hek, hej, hei, hc⟩) s hm

theorem sent_const (hn : 1 ≤ g.n) (hN : 0 < g.N) (hinj : Set.InjOn g.pts (Finset.range g.n)) {v : Nat} {a : ℝ} (ha : v = 0 ∨ v = 4 → 0 < a)
    (hQ : ∀ r ek ej ei c, OnGrid3 g r ek ej ei c → Q r ek ej ei v c = a) {r ek : Nat} (hr : r < 6 * g.k ^ 2) (hek : ek < g.nz) {b : Nat} (hb : b < g.n)
    (d : Side) {i : Nat} (hi : i < g.N * g.n) : sent g Q ek b r d v i = a := by
  have h1 : i / g.n < g.N := Nat.div_lt_of_lt_mul (by rw [Nat.mul_comm]; exact hi)
  have h2 : i % g.n < g.n := Nat.mod_lt _ (by omega)
  have h3 : b * g.n + i % g.n < g.n * g.n := by nlinarith
  cases d
  · exact (sides_const hn hinj ha hQ hr hek (ej := 0) (by omega) h1 false h3).2.1
  · exact (sides_const hn hinj ha hQ hr hek (ej := g.N - 1) (by omega) h1 true h3).2.1
  · exact (sides_const hn hinj ha hQ hr hek h1 (ei := 0) (by omega) false h3).1
  · exact (sides_const hn hinj ha hQ hr hek h1 (ei := g.N - 1) (by omega) true h3).1

theorem convertContra_zero (size rank : Nat) (s : Side) (x : ℝ) : convertContra size rank s 0 0 x = (0, 0) := by
  unfold convertContra
  split
  · generalize myPanel size rank = p
    unfold convertContras
    split <;> simp
  · rfl

theorem received_const (hk : 0 < g.k) (hn : 1 ≤ g.n) (hN : 0 < g.N) (hsym : ∀ i < g.n, g.pts (g.n - 1 - i) = -g.pts i)
    (hinj : Set.InjOn g.pts (Finset.range g.n)) {v : Nat} (hv : v = 0 ∨ v = 4) {a : ℝ} (ha : 0 < a)
    (hQ : ∀ r ek ej ei c, OnGrid3 g r ek ej ei c → Q r ek ej ei v c = a) {r ek : Nat} (hr : r < 6 * g.k ^ 2) (hek : ek < g.nz) {b : Nat} (hb : b < g.n)
    (d : Side) {i : Nat} (hi : i < g.N * g.n) : received g Q ek b r d v i = a := by
  have hV := placeOf_valid (k := g.k) (rank := r) (by rw [← sq]; exact hr)
  rw [← enc_placeOf (k := g.k) (rank := r), received_scalar ek b hv hV d hi]
  refine sent_const hn hN hinj (fun _ => ha) hQ ?_ hek hb _ (mirrored_lt _ hi)
  have := enc_lt (nbrPlace_valid hV d)
  rw [sq]; exact this

theorem received_zero (hk : 0 < g.k) (hn : 1 ≤ g.n) (hN : 0 < g.N) (hsym : ∀ i < g.n, g.pts (g.n - 1 - i) = -g.pts i)
    (hinj : Set.InjOn g.pts (Finset.range g.n)) 
    (hQ : ∀ v, 1 ≤ v → v ≤ 3 → ∀ r ek ej ei c, OnGrid3 g r ek ej ei c → Q r ek ej ei v c = 0) {r ek : Nat} (hr : r < 6 * g.k ^ 2) (hek : ek < g.nz)
    {b : Nat} (hb : b < g.n) (d : Side) {i : Nat} (hi : i < g.N * g.n) {v : Nat} (h1 : 1 ≤ v) (h3 : v ≤ 3) : received g Q ek b r d v i = 0 := by
  have hV := placeOf_valid (k := g.k) (rank := r) (by rw [← sq]; exact hr)
  have hr' : enc g.k (nbrPlace g.k (placeOf g.k r) d) < 6 * g.k ^ 2 := by rw [sq]; exact enc_lt (nbrPlace_valid hV d)
  have z : ∀ v, 1 ≤ v → v ≤ 3 → sent g Q ek b (enc g.k (nbrPlace g.k (placeOf g.k r) d)) (backSide g.k (placeOf g.k r) d) v
      (mirrored (backFlip g.k (placeOf g.k r) d) (g.N * g.n) i) = 0 := fun v h1 h3 =>
    sent_const hn hN hinj (fun h => by omega) (hQ v h1 h3) hr' hek hb _ (mirrored_lt _ hi)
  have e := exchangedVec_eq hk hN (by omega) hsym (fun s d' i => (sent g Q ek b s d' 1 i, sent g Q ek b s d' 2 i, sent g Q ek b s d' 3 i)) hV d hi
  simp only [z 1 (by omega) (by omega), z 2 (by omega) (by omega), z 3 (by omega) (by omega), convertContra_zero] at e
  rw [enc_placeOf] at e
  unfold received
  rw [if_neg (by omega)]
  simp only [e]
  split_ifs <;> rfl

/-! ## Fluxes of the state at rest -/

theorem AtRest.var (hQ : AtRest g Q Θ) : ∀ v, 1 ≤ v → v ≤ 3 → ∀ r ek ej ei c, OnGrid3 g r ek ej ei c → Q r ek ej ei v c = 0 := by
  intro v h1 h3 r ek ej ei c h
  obtain ⟨q1, q2, q3, -⟩ := hQ r ek ej ei c h
  have : v = 1 ∨ v = 2 ∨ v = 3 := by omega
  rcases this with rfl | rfl | rfl <;> assumption

theorem AtRest.theta (hQ : AtRest g Q Θ) : ∀ r ek ej ei c, OnGrid3 g r ek ej ei c → Q r ek ej ei 4 c = Θ := fun r ek ej ei c h => (hQ r ek ej ei c h).2.2.2

section faces
variable (hk : 0 < g.k) (hn : 1 ≤ g.n) (hN : 0 < g.N) (hsym : ∀ i < g.n, g.pts (g.n - 1 - i) = -g.pts i) (hinj : Set.InjOn g.pts (Finset.range g.n))
  (hQ : AtRest g Q Θ) (hΘ : 0 < Θ) {r ek ej ei : Nat} (hr : r < 6 * g.k ^ 2) (hek : ek < g.nz) (hej : ej < g.N) (hei : ei < g.N) {m : Nat} (hm : m < g.n * g.n)

include hn hinj hQ hΘ hr hek hej hei hm in
theorem own_rest (s : Bool) : Rest Θ (fun v => qI g Q r ek ej ei v (node (g.n * g.n) s m)) ∧ Rest Θ (fun v => qJ g Q r ek ej ei v (node (g.n * g.n) s m)) ∧
    Rest Θ (fun v => qK g Q r ek ej ei v (node (g.n * g.n) s m)) := by
  have h1 := fun v h1 h3 => sides_const (Q := Q) hn hinj (v := v) (a := 0) (fun h => by omega) (AtRest.var hQ v h1 h3) hr hek hej hei s hm
  have h2 := sides_const (Q := Q) hn hinj (v := 4) (fun _ => hΘ) (AtRest.theta hQ) hr hek hej hei s hm
  exact ⟨⟨fun v a b => (h1 v a b).1, h2.1⟩, ⟨fun v a b => (h1 v a b).2.1, h2.2.1⟩, ⟨fun v a b => (h1 v a b).2.2, h2.2.2⟩⟩

include hk hn hN hsym hinj hQ hΘ hr hek hm in
theorem received_rest (d : Side) {e : Nat} (he : e < g.N) : Rest Θ (fun v => received g Q ek (m / g.n) r d v (e * g.n + m % g.n)) := by
  have h1 : m / g.n < g.n := Nat.div_lt_of_lt_mul hm
  have h2 : m % g.n < g.n := Nat.mod_lt _ (by omega)
  have h3 : e * g.n + m % g.n < g.N * g.n := by nlinarith
  exact ⟨fun v a b => received_zero hk hn hN hsym hinj (AtRest.var hQ) hr hek h1 d h3 a b,
    received_const hk hn hN hsym hinj (Or.inr rfl) hΘ (AtRest.theta hQ) hr hek h1 d h3⟩

include hk hn hN hsym hinj hQ hΘ hr hek hej hei hm in
/-- the interface arrays of the state at rest hold the pressure alone -/
theorem itf_rest {d : Nat} (hd : d < 3) (s : Bool) :
    RestOut d (itfOut g f Q d r ek ej ei m s) (rootG3 (facePt g f d r ek ej ei s m)) (ent3 (Hcontra3 (facePt g f d r ek ej ei s m))) Θ
      (∃ ρ, 0 < ρ ∧ UniformDensity g Q ρ) := by
  have h1 : m / g.n < g.n := Nat.div_lt_of_lt_mul hm
  have h2 : m % g.n < g.n := Nat.mod_lt _ (by omega)
  have weaken : ∀ {o G h A B}, RestOut d o G h Θ A → (B → A) → RestOut d o G h Θ B := fun a b => ⟨a.1, a.2.1, a.2.2.1, a.2.2.2.1, fun x => a.2.2.2.2 (b x)⟩
  have hd' : d = 0 ∨ d = 1 ∨ d = 2 := by omega
  rcases hd' with rfl | rfl | rfl
  · have h3 : ej * g.n + m % g.n < g.N * g.n := by nlinarith
    have e : facePt g f 0 r ek ej ei s m = ptI g f r ek ej (itfIndex (ei + 1) s) m := by cases s <;> simp [facePt, itfIndex]
    rw [e]
    refine weaken (hori_rest 0 g.N (by omega) (advectionOnly g) (fun p s => rootG3 (ptI g f r ek ej (itfIndex p s) m))
      (fun p s => ent3 (Hcontra3 (ptI g f r ek ej (itfIndex p s) m))) (fun _ _ => rfl) (fun _ _ => rfl) (fun _ _ => ⟨fun _ => 0, 0, 0⟩)
      (fun e s v => qI g Q r ek ej e v (node (g.n * g.n) s m))
      (fun v => received g Q ek (m / g.n) r .west v (ej * g.n + m % g.n)) (fun v => received g Q ek (m / g.n) r .east v (ej * g.n + m % g.n)) ei hei s
      (own_rest hn hinj hQ hΘ hr hek hej hei hm s).1 ?_) ?_
    · split_ifs
      · exact received_rest hk hn hN hsym hinj hQ hΘ hr hek hm .east hej
      · exact (own_rest hn hinj hQ hΘ hr hek hej (by omega) hm false).1
      · exact received_rest hk hn hN hsym hinj hQ hΘ hr hek hm .west hej
      · exact (own_rest hn hinj hQ hΘ hr hek hej (by omega) hm true).1
    · rintro ⟨ρ, hρ, hU⟩
      have c1 := fun s => (sides_const hn hinj (fun _ => hρ) hU hr hek hej hei s hm).1
      rw [c1]
      split_ifs
      · exact (received_const hk hn hN hsym hinj (Or.inl rfl) hρ hU hr hek h1 .east h3).symm
      · exact (sides_const hn hinj (fun _ => hρ) hU hr hek hej (by omega) false hm).1.symm
      · exact (received_const hk hn hN hsym hinj (Or.inl rfl) hρ hU hr hek h1 .west h3).symm
      · exact (sides_const hn hinj (fun _ => hρ) hU hr hek hej (by omega) true hm).1.symm
  · have h3 : ei * g.n + m % g.n < g.N * g.n := by nlinarith
    have e : facePt g f 1 r ek ej ei s m = ptJ g f r ek (itfIndex (ej + 1) s) ei m := by cases s <;> simp [facePt, itfIndex]
    rw [e]
    refine weaken (hori_rest 1 g.N (by omega) (advectionOnly g) (fun p s => rootG3 (ptJ g f r ek (itfIndex p s) ei m))
      (fun p s => ent3 (Hcontra3 (ptJ g f r ek (itfIndex p s) ei m))) (fun _ _ => rfl) (fun _ _ => rfl) (fun _ _ => ⟨fun _ => 0, 0, 0⟩)
      (fun e s v => qJ g Q r ek e ei v (node (g.n * g.n) s m))
      (fun v => received g Q ek (m / g.n) r .south v (ei * g.n + m % g.n)) (fun v => received g Q ek (m / g.n) r .north v (ei * g.n + m % g.n)) ej hej s
      (own_rest hn hinj hQ hΘ hr hek hej hei hm s).2.1 ?_) ?_
    · split_ifs
      · exact received_rest hk hn hN hsym hinj hQ hΘ hr hek hm .north hei
      · exact (own_rest hn hinj hQ hΘ hr hek (by omega) hei hm false).2.1
      · exact received_rest hk hn hN hsym hinj hQ hΘ hr hek hm .south hei
      · exact (own_rest hn hinj hQ hΘ hr hek (by omega) hei hm true).2.1
    · rintro ⟨ρ, hρ, hU⟩
      have c1 := fun s => (sides_const hn hinj (fun _ => hρ) hU hr hek hej hei s hm).2.1
      rw [c1]
      split_ifs
      · exact (received_const hk hn hN hsym hinj (Or.inl rfl) hρ hU hr hek h1 .north h3).symm
      · exact (sides_const hn hinj (fun _ => hρ) hU hr hek (by omega) hei false hm).2.1.symm
      · exact (received_const hk hn hN hsym hinj (Or.inl rfl) hρ hU hr hek h1 .south h3).symm
      · exact (sides_const hn hinj (fun _ => hρ) hU hr hek (by omega) hei true hm).2.1.symm
  · have e : facePt g f 2 r ek ej ei s m = ptK g f r (itfIndex (ek + 1) s) ej ei m := by cases s <;> simp [facePt, itfIndex]
    rw [e]
    refine weaken (vert_rest g.nz (advectionOnly g) (fun p s => rootG3 (ptK g f r (itfIndex p s) ej ei m))
      (fun p s => ent3 (Hcontra3 (ptK g f r (itfIndex p s) ej ei m))) (fun _ _ => rfl) (fun _ _ => rfl) (fun _ _ => ⟨fun _ => 0, 0, 0⟩)
      (fun e s v => qK g Q r e ej ei v (node (g.n * g.n) s m)) ek hek s (own_rest hn hinj hQ hΘ hr hek hej hei hm s).2.2 ?_) ?_
    · split_ifs
      · exact (own_rest hn hinj hQ hΘ hr hek hej hei hm true).2.2
      · exact (own_rest hn hinj hQ hΘ hr (by omega) hej hei hm false).2.2
      · exact (own_rest hn hinj hQ hΘ hr hek hej hei hm false).2.2
      · exact (own_rest hn hinj hQ hΘ hr (by omega) hej hei hm true).2.2
    · rintro ⟨ρ, hρ, hU⟩
      have c1 := fun s => (sides_const hn hinj (fun _ => hρ) hU hr hek hej hei s hm).2.2
      rw [c1]
      split_ifs
      · exact (c1 _).symm
      · exact (sides_const hn hinj (fun _ => hρ) hU hr (by omega) hej hei false hm).2.2.symm
      · exact (c1 _).symm
      · exact (sides_const hn hinj (fun _ => hρ) hU hr (by omega) hej hei true hm).2.2.symm

end faces

/-- the corrected derivative is linear and reads the points of the element only -/
theorem dfd_smul (d : Nat) (p : ℝ) {q q' : Nat → ℝ} {E E' : Nat → Bool → ℝ} (hq : ∀ c < g.n * g.n * g.n, q c = p * q' c)
    (hE : ∀ m < g.n * g.n, ∀ s, E m s = p * E' m s) (c : Nat) : dfd g d q (ofSides g E) c = p * dfd g d q' (ofSides g E') c := by
  have h1 : ∀ A : Nat → Nat → ℝ, vecmul (g.n * g.n * g.n) q A c = p * vecmul (g.n * g.n * g.n) q' A c := by
    intro A
    simp only [vecmul, Finset.mul_sum]
    exact Finset.sum_congr rfl fun a ha => by rw [hq a (Finset.mem_range.mp ha)]; ring
  have h2 : ∀ A : Nat → Nat → ℝ, vecmul (g.n * g.n + g.n * g.n) (ofSides g E) A c = p * vecmul (g.n * g.n + g.n * g.n) (ofSides g E') A c := by
    intro A
    simp only [vecmul, Finset.mul_sum]
    refine Finset.sum_congr rfl fun a ha => ?_
    have ha' := Finset.mem_range.mp ha
    have : ofSides g E a = p * ofSides g E' a := by
      unfold ofSides
      split
      · next h => exact hE a h false
      · next h => exact hE _ (by omega) true
    rw [this]; ring
  unfold dfd df1_3d df2_3d df3_3d
  rw [h1, h1, h1, h2, h2, h2]
  split_ifs <;> ring

theorem ent3_symm (p : Point3) (a b : Nat) : ent3 (Hcontra3 p) a b = ent3 (Hcontra3 p) b a := by
  unfold ent3
  split_ifs <;> simp [Hcontra3]

theorem of_ent3 (M : Matrix (Fin 3) (Fin 3) ℝ) : (Matrix.of fun a b : Fin 3 => ent3 M a b) = M := by
  ext a b
  fin_cases a <;> fin_cases b <;> simp [ent3]

theorem nondegenerate {p : Point3} (h : rootG3 p ≠ 0) : WxVerif.Props.Metric3D.NonDegenerate p := by
  refine ⟨?_, ?_, ?_, ?_, ?_⟩ <;>
  · intro h0
    apply h
    simp [rootG3, h0]

/-- the force of gravity as the model computes it: the high-frequency filter of the column is applied to `√G ρ` -/
noncomputable def weight (g : Atm) (f : Floor) (Q : Field3) (r ek ej ei k j i : Nat) : ℝ :=
  invDzdeta (pt g f r ek ej ei ((k * g.n + j) * g.n + i)) * gravity * (1 / sqrtG g f r ek ej ei ((k * g.n + j) * g.n + i)) *
    ∑ a ∈ Finset.range g.n, highfilter g.n g.pts k a * (sqrtG g f r ek ej ei ((a * g.n + j) * g.n + i) * Q r ek ej ei 0 ((a * g.n + j) * g.n + i))

theorem column_filter {k j i : Nat} (hk : k < g.n) (hj : j < g.n) (hi : i < g.n) (q : Nat → ℝ) :
    vecmul (g.n * g.n * g.n) q (kron (g.n * g.n) (g.n * g.n) (tr (highfilter g.n g.pts)) eye) ((k * g.n + j) * g.n + i) =
      ∑ a ∈ Finset.range g.n, highfilter g.n g.pts k a * q ((a * g.n + j) * g.n + i) := by
  have hji : j * g.n + i < g.n * g.n := by nlinarith
  have := kron_eye_right_tr (s := g.n) (q := g.n * g.n) (a := k) hji (tr (highfilter g.n g.pts)) q
  unfold vecmul
  rw [Nat.mul_assoc, show (k * g.n + j) * g.n + i = k * (g.n * g.n) + (j * g.n + i) by ring, this]
  refine Finset.sum_congr rfl fun a _ => ?_
  rw [show (a * g.n + j) * g.n + i = a * (g.n * g.n) + (j * g.n + i) by ring]
  simp only [tr]; ring

/-- **C67** For every grid, terrain, rotation and density field: if nothing moves and the pressure is the same everywhere, the tendencies of the
horizontal momenta and of the potential temperature are exactly zero at every point, only gravity acts on the vertical momentum, and
with a uniform density the density does not change either. -/
theorem C67_rest (hk : 0 < g.k) (hN : 0 < g.N) (hn : 1 ≤ g.n) (hz : 0 < g.nz) {xs ws : List ℝ} (h : IsGaussRule g.n xs ws) (hp : g.pts = arr xs)
    (hR : g.radius ≠ 0) (hs : SensibleFloor g f) (hcase : g.caseNumber ≠ 21 ∧ g.caseNumber ≠ 22) (hQ : AtRest g Q Θ) (hΘ : 0 < Θ)
    {r ek ej ei k j i : Nat} (hr : r < 6 * g.k ^ 2) (hek : ek < g.nz) (hej : ej < g.N) (hei : ei < g.N) (hk' : k < g.n) (hj : j < g.n) (hi : i < g.n)
    (hΓ : NumericSymbols g f F r ek ej ei ((k * g.n + j) * g.n + i)) :
    rhs g f Q F r ek ej ei 1 ((k * g.n + j) * g.n + i) = 0 ∧ rhs g f Q F r ek ej ei 2 ((k * g.n + j) * g.n + i) = 0 ∧
    rhs g f Q F r ek ej ei 4 ((k * g.n + j) * g.n + i) = 0 ∧
    (advectionOnly g = false → rhs g f Q F r ek ej ei 3 ((k * g.n + j) * g.n + i) = -weight g f Q r ek ej ei k j i) ∧
    (∀ ρ, 0 < ρ → UniformDensity g Q ρ → rhs g f Q F r ek ej ei 0 ((k * g.n + j) * g.n + i) = 0) := by
  have hext : Set.InjOn (extension g.n g.pts) (Finset.range (g.n + 2)) := by rw [hp]; exact extension_injOn h
  have hinj := pts_inj hext
  have hsym : ∀ i < g.n, g.pts (g.n - 1 - i) = -g.pts i := by
    intro i hi
    have hl := h.nodes_length
    have hm : xs.reverse[i]? = (xs.map fun x => -x)[i]? := by rw [h.mirror]
    rw [List.getElem?_reverse (by omega), List.getElem?_map, hl, List.getElem?_eq_getElem (by omega), List.getElem?_eq_getElem (by omega)] at hm
    rw [hp]
    simp only [arr, List.getD_eq_getElem?_getD, List.getElem?_eq_getElem (show g.n - 1 - i < xs.length by omega), List.getElem?_eq_getElem (show i < xs.length by omega)]
    simpa using hm
  have hsG := sqrtG_pos (f := f) hk hN hn h hp hz hR hs hr hek hej hei hk' hj hi
  set c := (k * g.n + j) * g.n + i with hcd
  have hc3 : c < g.n * g.n * g.n := by
    have : k * g.n + j < g.n * g.n := by nlinarith
    rw [hcd]; nlinarith
  have itf := fun (d : Nat) (hd : d < 3) (m : Nat) (hm : m < g.n * g.n) (s : Bool) =>
    itf_rest (f := f) hk hn hN hsym hinj hQ hΘ hr hek hej hei hm hd s
  have on : ∀ c' < g.n * g.n * g.n, OnGrid3 g r ek ej ei c' := fun c' h => ⟨hr, hek, hej, hei, h⟩
  have v0 : ∀ d < 3, ∀ c' < g.n * g.n * g.n, vel Q d r ek ej ei c' = 0 := by
    intro d hd c' h
    rw [vel, AtRest.var hQ (d + 1) (by omega) (by omega) _ _ _ _ _ (on c' h), zero_div]
  have pc : ∀ c' < g.n * g.n * g.n, pres Q r ek ej ei c' = pressure3 Θ := by
    intro c' h; rw [pres_eq, AtRest.theta hQ _ _ _ _ _ (on c' h)]
  -- flux derivatives
  have dmom : ∀ d < 3, ∀ v, 1 ≤ v → v ≤ 3 →
      dfd g d (pointFlux g f Q d r ek ej ei v) (ofSides g fun m s => (itfOut g f Q d r ek ej ei m s).flux v) c =
        pressure3 Θ * gradMetric g f d (v - 1) d r ek ej ei c := by
    intro d hd v h1 h3
    apply dfd_smul
    · intro c' h'
      simp only [pointFlux, h1, h3, and_self, if_true, v0 d hd c' h', pc c' h']
      rw [show hc g f r ek ej ei c' d (v - 1) = hc g f r ek ej ei c' (v - 1) d from ent3_symm _ _ _]
      ring
    · intro m hm s
      rw [(itf d hd m hm s).1 v h1 h3, ent3_symm _ d (v - 1)]
      ring
  have dzero : ∀ d < 3, ∀ (q : Nat → ℝ) (E : Nat → Bool → ℝ), (∀ c < g.n * g.n * g.n, q c = 0) → (∀ m < g.n * g.n, ∀ s, E m s = 0) →
      dfd g d q (ofSides g E) c = 0 := by
    intro d hd q E h1 h2
    rw [dfd_smul d 0 (q' := fun _ => 0) (E' := fun _ _ => 0) (fun c h => by rw [h1 c h]; ring) (fun m h s => by rw [h2 m h s]; ring), zero_mul]
  -- metric identity
  obtain ⟨Γ, hS, hst⟩ := hΓ
  have hHc : (Matrix.of fun a b : Fin 3 => hc g f r ek ej ei c a b) = Hcontra3 (pt g f r ek ej ei c) := of_ent3 _
  have hnd : WxVerif.Props.Metric3D.NonDegenerate (pt g f r ek ej ei c) := nondegenerate (ne_of_gt hsG)
  have hdet : IsUnit (Matrix.of fun a b : Fin 3 => hc g f r ek ej ei c a b).det := by
    rw [hHc]
    have := (WxVerif.Props.Metric3D.C36_inverse _ hnd).2
    exact (Matrix.isUnit_iff_isUnit_det _).mp (IsUnit.of_mul_eq_one _ this)
  have hhs : (Matrix.of fun a b : Fin 3 => hc g f r ek ej ei c a b).IsSymm := by
    ext a b; simp only [Matrix.transpose_apply, Matrix.of_apply]; exact ent3_symm _ _ _
  have hgs : ∀ d : Fin 3, (Matrix.of fun a b : Fin 3 => gradMetric g f d a b r ek ej ei c).IsSymm := by
    intro d; ext a b
    simp only [Matrix.transpose_apply, Matrix.of_apply]
    have := dfd_smul (g := g) d 1 (q := fun c => hc g f r ek ej ei c b a * sqrtG g f r ek ej ei c) (q' := fun c => hc g f r ek ej ei c a b * sqrtG g f r ek ej ei c)
      (E := fun m s => ent3 (Hcontra3 (facePt g f d r ek ej ei s m)) b a * rootG3 (facePt g f d r ek ej ei s m))
      (E' := fun m s => ent3 (Hcontra3 (facePt g f d r ek ej ei s m)) a b * rootG3 (facePt g f d r ek ej ei s m))
      (fun c' _ => by rw [one_mul, show hc g f r ek ej ei c' b a = hc g f r ek ej ei c' a b from ent3_symm _ _ _])
      (fun m _ s => by rw [one_mul, ent3_symm _ b a]) c
    rw [one_mul] at this
    exact this
  have div := fun a : Fin 3 => WxVerif.Props.Christoffel3D.C58_divergence (ne_of_gt hsG) hhs hdet hgs hS a
  have tf := WxVerif.Props.Christoffel3D.C58_torsion_free (ne_of_gt hsG) hhs hdet hgs hS
  -- metric forcing
  have metric : ∀ a : Fin 3, forcing1 (Q r ek ej ei 0 c) (vel Q 0 r ek ej ei c) (vel Q 1 r ek ej ei c) (vel Q 2 r ek ej ei c) (pres Q r ek ej ei c)
      (fun b => F.Γ a b r ek ej ei c) (hc g f r ek ej ei c) =
        -(1 / sqrtG g f r ek ej ei c) * (pressure3 Θ * (gradMetric g f 0 a 0 r ek ej ei c + gradMetric g f 1 a 1 r ek ej ei c + gradMetric g f 2 a 2 r ek ej ei c)) := by
    intro a
    have d := div a
    obtain ⟨s3, s4, s5, s6, s7, s8⟩ := hst a
    have e10 : hc g f r ek ej ei c 1 0 = hc g f r ek ej ei c 0 1 := ent3_symm _ _ _
    have e20 : hc g f r ek ej ei c 2 0 = hc g f r ek ej ei c 0 2 := ent3_symm _ _ _
    have e21 : hc g f r ek ej ei c 2 1 = hc g f r ek ej ei c 1 2 := ent3_symm _ _ _
    simp only [Fin.sum_univ_three, Matrix.of_apply, Fin.val_zero, Fin.val_one, Fin.val_two, e10, e20, e21, tf a 1 0, tf a 2 0, tf a 2 1] at d
    rw [d]
    simp only [forcing1, v0 0 (by omega) c hc3, v0 1 (by omega) c hc3, v0 2 (by omega) c hc3, pc c hc3, s3, s4, s5, s6, s7, s8]
    field_simp
    ring
  have fv : ∀ v, 1 ≤ v → v ≤ 3 → v ≠ 3 → rhs g f Q F r ek ej ei v c = 0 := by
    intro v h1 h3 hne
    unfold rhs
    split
    · rfl
    have hm := metric ⟨v - 1, by omega⟩
    simp only [forcing, h1, h3, and_self, if_true, hne, if_false, hcase.1, hcase.2, or_self, add_zero]
    rw [hm, divergence, if_neg hne, rhsSphere3d]
    have e0 := dmom 0 (by omega) v h1 h3
    have e1 := dmom 1 (by omega) v h1 h3
    have e2 := dmom 2 (by omega) v h1 h3
    simp only [dfd, itfOut, if_true, one_ne_zero, if_false, OfNat.ofNat_ne_zero, OfNat.ofNat_ne_one] at e0 e1 e2
    rw [e0, e1, e2]
    ring
  have scal : ∀ v, v = 0 ∨ v = 4 → (∀ d < 3, ∀ m < g.n * g.n, ∀ s, (itfOut g f Q d r ek ej ei m s).flux v = 0) → rhs g f Q F r ek ej ei v c = 0 := by
    intro v hv hz
    unfold rhs
    split
    · rfl
    have n3 : v ≠ 3 := by omega
    have n13 : ¬ (1 ≤ v ∧ v ≤ 3) := by omega
    rw [forcing, if_neg n13, divergence, if_neg n3, rhsSphere3d]
    have e := fun d hd => dzero d hd (pointFlux g f Q d r ek ej ei v) (fun m s => (itfOut g f Q d r ek ej ei m s).flux v)
      (fun c' h' => by simp only [pointFlux, n13, if_false, v0 d hd c' h']; ring) (hz d hd)
    have e0 := e 0 (by omega)
    have e1 := e 1 (by omega)
    have e2 := e 2 (by omega)
    simp only [dfd, itfOut, if_true, one_ne_zero, if_false, OfNat.ofNat_ne_zero, OfNat.ofNat_ne_one] at e0 e1 e2
    rw [e0, e1, e2]
    ring
  refine ⟨fv 1 (by omega) (by omega) (by omega), fv 2 (by omega) (by omega) (by omega),
    scal 4 (Or.inr rfl) (fun d hd m hm s => (itf d hd m hm s).2.1), fun hadv => ?_,
    fun ρ hρ hU => scal 0 (Or.inl rfl) (fun d hd m hm s => (itf d hd m hm s).2.2.2.2 ⟨ρ, hρ, hU⟩)⟩
  have hm := metric 2
  have w : ∀ d < 3, wdf g f Q d r ek ej ei c = pressure3 Θ * gradMetric g f d 2 d r ek ej ei c := by
    intro d hd
    simp only [wdf]
    rw [dzero d hd _ (fun m s => (itfOut g f Q d r ek ej ei m s).wadv) (fun c' h' => by rw [v0 d hd c' h']; ring) (fun m hm s => (itf d hd m hm s).2.2.1)]
    rw [dfd_smul d 1 (q' := fun c => hc g f r ek ej ei c 2 d * sqrtG g f r ek ej ei c)
      (E' := fun m s => ent3 (Hcontra3 (facePt g f d r ek ej ei s m)) 2 d * rootG3 (facePt g f d r ek ej ei s m))
      (fun c' _ => by rw [show hc g f r ek ej ei c' d 2 = hc g f r ek ej ei c' 2 d from ent3_symm _ _ _]; ring)
      (fun m hm s => by rw [(itf d hd m hm s).2.2.2.1, ent3_symm _ d 2]; ring)]
    have hlog : dfd g d (fun c => Real.log (pres Q r ek ej ei c)) (ofSides g fun m s => Real.log (pressure3 (itfTheta g Q d r ek ej ei m s))) c = 0 := by
      have th : ∀ m < g.n * g.n, ∀ s, itfTheta g Q d r ek ej ei m s = Θ := by
        intro m hm s
        obtain ⟨o1, o2, o3⟩ := own_rest hn hinj hQ hΘ hr hek hej hei hm s
        unfold itfTheta
        split_ifs
        · exact o1.2
        · exact o2.2
        · exact o3.2
      rw [dfd_smul d (Real.log (pressure3 Θ)) (q' := fun _ => 1) (E' := fun _ _ => 1) (fun c' h' => by rw [pc c' h', mul_one])
        (fun m hm s => by rw [th m hm s, mul_one])]
      have := dfd_exact (g := g) hext hd hk' hj hi (fun _ => 1) (fun _ _ => 1) (C 1)
        ⟨lt_of_le_of_lt degree_C_le (by exact_mod_cast (by omega : 0 < g.n + 2)), fun a _ => by simp, by simp, by simp⟩
      rw [this]; simp
    rw [hlog, pc c hc3]
    unfold gradMetric
    ring
  simp only [rhs, hadv, Bool.false_eq_true, false_and, if_false, divergence, if_true, w 0 (by omega), w 1 (by omega), w 2 (by omega), forcing,
    show (1 ≤ 3 ∧ 3 ≤ 3) by omega, and_self, hcase.1, hcase.2, or_self, add_zero]
  have hm' := hm
  simp only [Fin.val_two] at hm'
  rw [show (3 - 1 : Nat) = 2 from rfl, hm', hcd, column_filter hk' hj hi]
  unfold weight
  ring

/-! ## The weight -/

/-- what the filter does to a combination of Legendre polynomials: the last one is removed -/
theorem highfilter_apply (hinj : Set.InjOn g.pts (Finset.range g.n)) (b : Nat → ℝ) {k : Nat} (hk : k < g.n) :
    ∑ a ∈ Finset.range g.n, highfilter g.n g.pts k a * (∑ l ∈ Finset.range g.n, legendre (g.pts a) l * b l) =
      ∑ l ∈ Finset.range (g.n - 1), legendre (g.pts k) l * b l := by
  have hV : (fun i : Fin g.n => ∑ l ∈ Finset.range g.n, legendre (g.pts i) l * b l) = (vander g.n g.pts).mulVec fun l : Fin g.n => b l := by
    funext i
    rw [← sum_fin_range g.n fun l => legendre (g.pts i) l * b l]
    simp [Matrix.mulVec, dotProduct, vander]
  have hsol : (vander g.n g.pts)⁻¹.mulVec (fun i : Fin g.n => ∑ l ∈ Finset.range g.n, legendre (g.pts i) l * b l) = fun l : Fin g.n => b l := by
    rw [hV, Matrix.mulVec_mulVec, Matrix.nonsing_inv_mul _ (vander_isUnit g.n g.pts hinj), Matrix.one_mulVec]
  rw [← sum_fin_range g.n fun a => highfilter g.n g.pts k a * (∑ l ∈ Finset.range g.n, legendre (g.pts a) l * b l)]
  have e : ∀ a : Fin g.n, highfilter g.n g.pts k a = ∑ l : Fin g.n, vander g.n g.pts ⟨k, hk⟩ l * ((if l.val = g.n - 1 then 0 else 1) * (vander g.n g.pts)⁻¹ l a) := by
    intro a; rw [highfilter, dif_pos ⟨hk, a.isLt⟩]
  simp only [e, Finset.sum_mul]
  rw [Finset.sum_comm]
  have step : ∀ l : Fin g.n, ∑ a : Fin g.n, vander g.n g.pts ⟨k, hk⟩ l * ((if l.val = g.n - 1 then 0 else 1) * (vander g.n g.pts)⁻¹ l a) *
      (∑ l ∈ Finset.range g.n, legendre (g.pts a) l * b l) = (if l.val = g.n - 1 then 0 else 1) * (legendre (g.pts k) l * b l) := by
    intro l
    have := congrFun hsol l
    simp only [Matrix.mulVec, dotProduct] at this
    rw [← this, Finset.mul_sum, Finset.mul_sum]
    refine Finset.sum_congr rfl fun a _ => ?_
    simp only [vander, Matrix.of_apply]
    ring
  rw [Finset.sum_congr rfl fun l _ => step l, sum_fin_range g.n fun l => (if l = g.n - 1 then 0 else 1) * (legendre (g.pts k) l * b l)]
  obtain ⟨n', hn'⟩ : ∃ n', g.n = n' + 1 := ⟨g.n - 1, by omega⟩
  rw [hn', Nat.add_sub_cancel, Finset.sum_range_succ, if_pos rfl, zero_mul, add_zero]
  refine Finset.sum_congr rfl fun l hl => ?_
  rw [if_neg (Finset.mem_range.mp hl).ne, one_mul]

/-- **C67** Where `√G ρ` varies along the column of an element like a polynomial of degree below `n - 1`, the force of gravity is exactly `g ρ`
(times the vertical scale factor). -/
theorem C67_weight_partial (hinj : Set.InjOn g.pts (Finset.range g.n)) {r ek ej ei k j i : Nat} (hk : k < g.n)
    (hG : sqrtG g f r ek ej ei ((k * g.n + j) * g.n + i) ≠ 0) (p : ℝ[X]) (hp : p.degree < ((g.n - 1 : Nat) : WithBot Nat))
    (h : ∀ a < g.n, sqrtG g f r ek ej ei ((a * g.n + j) * g.n + i) * Q r ek ej ei 0 ((a * g.n + j) * g.n + i) = p.eval (g.pts a)) :
    weight g f Q r ek ej ei k j i = invDzdeta (pt g f r ek ej ei ((k * g.n + j) * g.n + i)) * gravity * Q r ek ej ei 0 ((k * g.n + j) * g.n + i) := by
  obtain ⟨c, hc⟩ := legPoly_span (g.n - 1) p hp
  have ev : ∀ x, p.eval x = ∑ l ∈ Finset.range (g.n - 1), legendre x l * c l := by
    intro x
    rw [hc, eval_finset_sum]
    refine Finset.sum_congr rfl fun l _ => ?_
    simp [legPoly_eval, mul_comm]
  have ev' : ∀ x, p.eval x = ∑ l ∈ Finset.range g.n, legendre x l * (if l = g.n - 1 then 0 else c l) := by
    intro x
    rw [ev]
    obtain ⟨n', hn'⟩ : ∃ n', g.n = n' + 1 := ⟨g.n - 1, by omega⟩
    rw [hn', Nat.add_sub_cancel, Finset.sum_range_succ, if_pos rfl, mul_zero, add_zero]
    refine Finset.sum_congr rfl fun l hl => ?_
    rw [if_neg (Finset.mem_range.mp hl).ne]
  have key := highfilter_apply hinj (fun l => if l = g.n - 1 then 0 else c l) hk
  unfold weight
  rw [Finset.sum_congr rfl fun a ha => by rw [h a (Finset.mem_range.mp ha), ev'], key]
  have : ∑ l ∈ Finset.range (g.n - 1), legendre (g.pts k) l * (if l = g.n - 1 then 0 else c l) = p.eval (g.pts k) := by
    rw [ev]
    refine Finset.sum_congr rfl fun l hl => ?_
    rw [if_neg (Finset.mem_range.mp hl).ne]
  rw [this, ← h k hk]
  field_simp

/-- **C67** The condition on the degree is needed: the part of `√G ρ` that varies along the column like the last Legendre polynomial of the element has
no weight at all. -/
theorem C67_weight_fails (hinj : Set.InjOn g.pts (Finset.range g.n)) {r ek ej ei k j i : Nat} (hk : k < g.n) (a : ℝ)
    (h : ∀ b < g.n, sqrtG g f r ek ej ei ((b * g.n + j) * g.n + i) * Q r ek ej ei 0 ((b * g.n + j) * g.n + i) = a * legendre (g.pts b) (g.n - 1)) :
    weight g f Q r ek ej ei k j i = 0 := by
  have key := highfilter_apply hinj (fun l => if l = g.n - 1 then a else 0) hk
  have e : ∀ b < g.n, sqrtG g f r ek ej ei ((b * g.n + j) * g.n + i) * Q r ek ej ei 0 ((b * g.n + j) * g.n + i) =
      ∑ l ∈ Finset.range g.n, legendre (g.pts b) l * (if l = g.n - 1 then a else 0) := by
    intro b hb
    rw [h b hb, Finset.sum_eq_single (g.n - 1) (fun l _ hl => by rw [if_neg hl, mul_zero]) (fun hl => absurd (Finset.mem_range.mpr (by omega)) hl), if_pos rfl, mul_comm]
  unfold weight
  rw [Finset.sum_congr rfl fun b hb => by rw [e b (Finset.mem_range.mp hb)], key, Finset.sum_eq_zero, mul_zero]
  intro l hl
  rw [if_neg (Finset.mem_range.mp hl).ne, mul_zero]

/-- **C67** In particular, with one solution point per element (the only choice that the finite-volume option accepts) there is no gravity at all:
an atmosphere at rest with uniform pressure does not fall, whatever its density. -/
theorem C67_one_point_fails (h1 : g.n = 1) (r ek ej ei : Nat) : weight g f Q r ek ej ei 0 0 0 = 0 := by
  refine C67_weight_fails ?_ (by omega) (sqrtG g f r ek ej ei 0 * Q r ek ej ei 0 0) ?_
  · rw [h1]; simp
  · intro b hb
    have : b = 0 := by omega
    subst this
    simp [h1, legendre]

/-! ## The hypotheses can be met -/

/-- the linear system for the Christoffel symbols has a solution at every point with a regular metric -/
theorem symbols_exist {s : ℝ} (hs : s ≠ 0) {h : Matrix (Fin 3) (Fin 3) ℝ} (hh : h.IsSymm) (hdet : IsUnit h.det)
    (gr : Fin 3 → Matrix (Fin 3) (Fin 3) ℝ) : ∃ Γ, Christoffel3D.Solves s h gr Γ := by
  let L : (Fin 3 → Fin 3 → Fin 3 → ℝ) →ₗ[ℝ] (Fin 3 → Fin 3 → Fin 3 → ℝ) :=
    { toFun := fun Γ a b c => ∑ e, ∑ f, ∑ q, Christoffel3D.lhs s h a b c e f q * Γ e f q
      map_add' := by
        intro x y; funext a b c
        simp only [Pi.add_apply, mul_add, Finset.sum_add_distrib]
      map_smul' := by
        intro r x; funext a b c
        simp only [Pi.smul_apply, smul_eq_mul, RingHom.id_apply, Finset.mul_sum]
        refine Finset.sum_congr rfl fun _ _ => Finset.sum_congr rfl fun _ _ => Finset.sum_congr rfl fun _ _ => ?_
        ring }
  have hin : Function.Injective L := by
    intro x y hxy
    have hx : Christoffel3D.Solves s h (fun c => Matrix.of fun a b => L x a b c) x := fun a b c => rfl
    have hy : Christoffel3D.Solves s h (fun c => Matrix.of fun a b => L x a b c) y := by rw [hxy]; exact fun a b c => rfl
    exact WxVerif.Props.Christoffel3D.C58_unique hs hh hdet hx hy
  obtain ⟨Γ, hΓ⟩ := (LinearMap.injective_iff_surjective.mp hin) (fun a b c => gr c a b)
  exact ⟨Γ, fun a b c => congrFun (congrFun (congrFun hΓ a) b) c⟩

open Classical in
/-- the forcing data that the code computes: a solution of the linear system at every point where there is one -/
noncomputable def symbolsOf (g : Atm) (f : Floor) : ForcingData where
  Γ a b r ek ej ei c :=
    if h : ∃ Γ : Fin 3 → Fin 3 → Fin 3 → ℝ, Christoffel3D.Solves (sqrtG g f r ek ej ei c) (Matrix.of fun a b : Fin 3 => hc g f r ek ej ei c a b)
        (fun d : Fin 3 => Matrix.of fun a b : Fin 3 => gradMetric g f d a b r ek ej ei c) Γ then
      let Γ := h.choose
      let a' : Fin 3 := if a = 0 then 0 else if a = 1 then 1 else 2
      if b = 3 then Γ a' 0 0 else if b = 4 then Γ a' 0 1 else if b = 5 then Γ a' 0 2 else if b = 6 then Γ a' 1 1 else if b = 7 then Γ a' 1 2
      else if b = 8 then Γ a' 2 2 else 1
    else 0
  uref _ _ _ _ _ _ := 0
  rate _ _ _ _ _ := 0

theorem symbolsOf_numeric {r ek ej ei c : Nat} (hG : sqrtG g f r ek ej ei c ≠ 0) : NumericSymbols g f (symbolsOf g f) r ek ej ei c := by
  have hHc : (Matrix.of fun a b : Fin 3 => hc g f r ek ej ei c a b) = Hcontra3 (pt g f r ek ej ei c) := of_ent3 _
  have hdet : IsUnit (Matrix.of fun a b : Fin 3 => hc g f r ek ej ei c a b).det := by
    rw [hHc]
    exact (Matrix.isUnit_iff_isUnit_det _).mp (IsUnit.of_mul_eq_one _ (WxVerif.Props.Metric3D.C36_inverse _ (nondegenerate hG)).2)
  have hhs : (Matrix.of fun a b : Fin 3 => hc g f r ek ej ei c a b).IsSymm := by
    ext a b; simp only [Matrix.transpose_apply, Matrix.of_apply]; exact ent3_symm _ _ _
  have ex := symbols_exist hG hhs hdet (fun d : Fin 3 => Matrix.of fun a b : Fin 3 => gradMetric g f d a b r ek ej ei c)
  refine ⟨ex.choose, ex.choose_spec, fun a => ?_⟩
  have ha : (if (a : Nat) = 0 then (0 : Fin 3) else if (a : Nat) = 1 then 1 else 2) = a := by fin_cases a <;> rfl
  simp only [symbolsOf, dif_pos ex, ha]
  norm_num

/-- 24 processes, 3 × 3 elements and 5 levels per tile, 4 points per element side, a deep rotating atmosphere of 30 km over a mountain range of up to 2 km,
at rest, with a density that varies from point to point -/
example : ∃ (g : Atm) (f : Floor) (Q : Field3) (xs ws : List ℝ), g.k = 2 ∧ g.N = 3 ∧ g.n = 4 ∧ g.nz = 5 ∧ g.deep = true ∧
    gaussLegendre 4 = .rule xs ws ∧ g.pts = arr xs ∧ SensibleFloor g f ∧ AtRest g Q 350 ∧ Q 7 2 1 1 0 5 ≠ Q 7 2 1 1 0 6 ∧
    rhs g f Q (symbolsOf g f) 7 2 1 1 1 ((1 * 4 + 2) * 4 + 3) = 0 := by
  obtain ⟨xs, ws, hr, h⟩ := WxVerif.Props.Quadrature.C41_rule 4 (by omega) (by omega)
  let g : Atm := ⟨⟨2, 3, 4, arr xs, 6371220, 7.29212e-5, fun _ => ⟨0, 0, 0⟩⟩, 5, 30000, true, 31⟩
  let b : V3 ℝ → ℝ := fun x => 2000 * |Real.sin (3 * x.1)|
  let Q : Field3 := fun _ ek _ _ v c => if v = 0 then 1 + ek + c else if v = 4 then 350 else 0
  have hs : SensibleFloor g (WxVerif.Props.EulerSphere.floorOf g b) := by
    intro r _ ej _ ei _ c _
    have h1 : 0 ≤ b (point (placeOf g.k r).panel (g.solXY r ej ei c).1 (g.solXY r ej ei c).2) := by positivity
    have h2 : b (point (placeOf g.k r).panel (g.solXY r ej ei c).1 (g.solXY r ej ei c).2) ≤ 2000 := by
      have := Real.abs_sin_le_one (3 * (point (placeOf g.k r).panel (g.solXY r ej ei c).1 (g.solXY r ej ei c).2).1)
      simp only [b]; linarith
    constructor
    · show b _ < (30000 : ℝ); linarith
    · show -(6371220 : ℝ) < b _; linarith
  have hQ : AtRest g Q 350 := by intro r ek ej ei c _; simp [Q]
  refine ⟨g, WxVerif.Props.EulerSphere.floorOf g b, Q, xs, ws, rfl, rfl, rfl, rfl, rfl, hr, rfl, hs, hQ, by norm_num [Q], ?_⟩
  have hG := sqrtG_pos (g := g) (f := WxVerif.Props.EulerSphere.floorOf g b) (by simp [g]) (by simp [g]) (by simp [g]) h rfl (by simp [g]) (by norm_num [g]) hs
    (r := 7) (ek := 2) (ej := 1) (ei := 1) (k := 1) (j := 2) (i := 3) (by simp [g]) (by simp [g]) (by simp [g]) (by simp [g]) (by simp [g]) (by simp [g]) (by simp [g])
  exact (C67_rest (g := g) (by simp [g]) (by simp [g]) (by simp [g]) (by simp [g]) h rfl (by norm_num [g]) hs (by simp [g]) hQ (by norm_num)
    (by simp [g]) (by simp [g]) (by simp [g]) (by simp [g]) (by simp [g]) (by simp [g]) (by simp [g]) (symbolsOf_numeric (ne_of_gt hG))).1

/-- the hypotheses of C66 for the 3D equations: an inner element of a uniform flow -/
theorem uniform_agree (hn : 1 ≤ g.n) (hinj : Set.InjOn g.pts (Finset.range g.n)) {S : Nat → ℝ} (h0 : 0 < S 0) (h4 : 0 < S 4)
    (hQ : ∀ v r ek ej ei c, Q r ek ej ei v c = S v) {r ek ej ei : Nat} (hr : r < 6 * g.k ^ 2) (h1 : 0 < ek ∧ ek + 1 < g.nz) (h2 : 0 < ej ∧ ej + 1 < g.N)
    (h3 : 0 < ei ∧ ei + 1 < g.N) {d : Nat} (hd : d < 3) (s : Bool) {m : Nat} (hm : m < g.n * g.n) :
    WxVerif.Props.SphereConsistency.Agree g Q d r ek ej ei s m S := by
  have c := fun {v ek ej ei : Nat} (hk : ek < g.nz) (hj : ej < g.N) (hi : ei < g.N) (s : Bool) =>
    sides_const (Q := Q) (v := v) hn hinj (a := S v) (fun h => by rcases h with rfl | rfl <;> assumption) (fun r ek ej ei c _ => hQ v r ek ej ei c) hr hk hj hi s hm
  have hd' : d = 0 ∨ d = 1 ∨ d = 2 := by omega
  refine ⟨fun v _ => ?_, fun v _ => ?_, fun _ h => by omega, fun _ h => by omega⟩
  · rcases hd' with rfl | rfl | rfl
    · simpa [SphereConsistency.inner] using (c (by omega) (by omega) (by omega) s).1
    · simpa [SphereConsistency.inner] using (c (by omega) (by omega) (by omega) s).2.1
    · simpa [SphereConsistency.inner] using (c (by omega) (by omega) (by omega) s).2.2
  · rcases hd' with rfl | rfl | rfl
    · cases s
      · simpa [outer, show ¬ ei = 0 by omega] using (c (ei := ei - 1) (by omega) (by omega) (by omega) true).1
      · simpa [outer, show ¬ ei + 1 = g.N by omega] using (c (ei := ei + 1) (by omega) (by omega) (by omega) false).1
    · cases s
      · simpa [outer, show ¬ ej = 0 by omega] using (c (ej := ej - 1) (by omega) (by omega) (by omega) true).2.1
      · simpa [outer, show ¬ ej + 1 = g.N by omega] using (c (ej := ej + 1) (by omega) (by omega) (by omega) false).2.1
    · cases s
      · simpa [outer, show ¬ ek = 0 by omega] using (c (ek := ek - 1) (by omega) (by omega) (by omega) true).2.2
      · simpa [outer, show ¬ ek + 1 = g.nz by omega] using (c (ek := ek + 1) (by omega) (by omega) (by omega) false).2.2

/-- a uniform flow over a mountain range meets the hypotheses of `C66_euler` and `C66_euler_vertical` -/
example : ∃ (g : Atm) (Q : Field3) (xs ws : List ℝ) (S : Nat → Bool → Nat → ℝ), g.k = 2 ∧ g.N = 3 ∧ g.n = 4 ∧ g.nz = 5 ∧ advectionOnly g = false ∧
    gaussLegendre 4 = .rule xs ws ∧ g.pts = arr xs ∧ Set.InjOn (extension g.n g.pts) (Finset.range (g.n + 2)) ∧ Q 7 2 1 1 1 5 = 3 ∧ Q 7 2 1 1 3 5 = 1 ∧
    (∀ d < 3, ∀ s, WxVerif.Props.SphereConsistency.Agree g Q d 7 2 1 1 s (atEnd g.n d 1 2 3) (S d s)) ∧
    ∀ (inner : Nat → ℝ) (first last : ℝ), ∃ p : ℝ[X], OnLine g.n g.pts p inner first last := by
  obtain ⟨xs, ws, hr, h⟩ := WxVerif.Props.Quadrature.C41_rule 4 (by omega) (by omega)
  let g : Atm := ⟨⟨2, 3, 4, arr xs, 6371220, 7.29212e-5, fun _ => ⟨0, 0, 0⟩⟩, 5, 30000, true, 31⟩
  let S : Nat → ℝ := fun v => if v = 0 then 1.2 else if v = 1 then 3 else if v = 2 then -2 else if v = 3 then 1 else 350
  have hinj : Set.InjOn (extension g.n g.pts) (Finset.range (g.n + 2)) := extension_injOn h
  refine ⟨g, fun _ _ _ _ v _ => S v, xs, ws, fun _ _ => S, rfl, rfl, rfl, rfl, by simp [advectionOnly, g], hr, rfl, hinj, by norm_num [S], by norm_num [S], ?_,
    WxVerif.Props.SphereConsistency.onLine_exists hinj⟩
  intro d hd s
  refine uniform_agree (g := g) (S := S) (by simp [g]) (pts_inj hinj) (by norm_num [S]) (by norm_num [S]) (fun _ _ _ _ _ _ => rfl) (by simp [g]) (by simp [g]) (by simp [g])
    (by simp [g]) hd s ?_
  have hd' : d = 0 ∨ d = 1 ∨ d = 2 := by omega
  rcases hd' with rfl | rfl | rfl <;> simp [atEnd, g]

end WxVerif.Props.RestState
