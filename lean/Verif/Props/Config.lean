import Verif.Model.Config
import Verif.Model.Schema
import Verif.Spec.Config
import Mathlib.Data.Rat.Floor
import Mathlib.Algebra.Order.Archimedean.Basic
import Mathlib.Tactic.Linarith
import Mathlib.Tactic.Ring
import Mathlib.Tactic.NormNum
import Mathlib.Tactic.FieldSimp
import Mathlib.Tactic.LinearCombination

/-!
# Properties C20 – C23: configuration
-/

namespace WxVerif.Props.Config

open WxVerif.Config WxVerif.ConfigSpec

/-! ## C20 -/

section
variable {α : Type*} [LinearOrder α]

/-- The generated test accepts exactly the allowed values. -/
theorem validate_iff (r : Range α) (h : r.constructible = true) (v : Value α) : r.validate v = true ↔ Allowed r v := by
  obtain ⟨mn, mx, sel⟩ := r
  unfold Range.validate Range.baseValidate Allowed
  cases sel with
  | some s =>
    cases mn <;> cases mx <;> simp [Range.constructible] at h
    cases v <;> simp [elements]
  | none =>
    cases mn <;> cases mx <;> cases v <;> simp [elements]

/-- **C20.** For every option description that can be constructed and every text (or its absence):
* absent: the default is returned if there is one, else reading fails with the named error;
* present: value `v` is returned iff the text converts to `v` and every scalar of `v` respects the declared choices and
  bounds; the named error is raised iff the conversion raises `ValueError` or the value is not allowed. -/
theorem C20_read (f : Config.Field α) (hf : f.constructible = true) :
    (∀ d, f.default = some d → f.read none = .ok d) ∧
    (f.default = none → f.read none = .error .configValue) ∧
    (∀ t v, f.read (some t) = .ok v ↔ f.convert t = .ok v ∧ Allowed f.range v) ∧
    (∀ t, f.read (some t) = .error .configValue ↔
      f.convert t = .error .valueError ∨ ∃ v, f.convert t = .ok v ∧ ¬ Allowed f.range v) := by
  unfold Field.constructible at hf
  rw [Bool.and_eq_true] at hf
  obtain ⟨hr, hd⟩ := hf
  refine ⟨?_, ?_, ?_, ?_⟩
  · intro d h
    rw [h] at hd
    simp only [Field.read, h, hd, if_true]
  · intro h
    simp only [Field.read, h]
  · intro t v
    unfold Field.read
    simp only
    cases hc : f.convert t with
    | error e => cases e <;> simp
    | ok w =>
      simp only [Except.ok.injEq]
      by_cases hw : f.range.validate w = true
      · rw [if_pos hw]
        constructor
        · intro h; injection h with h; subst h; exact ⟨rfl, (validate_iff _ hr _).1 hw⟩
        · rintro ⟨rfl, _⟩; rfl
      · rw [if_neg hw]
        constructor
        · intro h; cases h
        · rintro ⟨rfl, h⟩; exact absurd ((validate_iff _ hr _).2 h) hw
  · intro t
    unfold Field.read
    simp only
    cases hc : f.convert t with
    | error e => cases e <;> simp
    | ok w =>
      by_cases hw : f.range.validate w = true
      · simp only [if_pos hw]
        constructor
        · intro h; cases h
        · rintro (h | ⟨v, h, hv⟩)
          · cases h
          · injection h with h; subst h; exact absurd ((validate_iff _ hr _).1 hw) hv
      · simp only [if_neg hw, true_iff]
        exact Or.inr ⟨w, rfl, fun h => hw ((validate_iff _ hr _).2 h)⟩

/-- **C20, safety.** No value outside the declared range is ever returned, absent or present. -/
theorem C20_never_out_of_range (f : Config.Field α) (hf : f.constructible = true) (text : Option String) (v : Value α)
    (h : f.read text = .ok v) : Allowed f.range v := by
  obtain ⟨h1, h2, h3, _⟩ := C20_read f hf
  cases text with
  | some t => exact ((h3 t v).1 h).2
  | none =>
    cases hd : f.default with
    | none => rw [h2 hd] at h; cases h
    | some d =>
      rw [h1 d hd] at h
      injection h with h
      subst h
      unfold Field.constructible at hf
      rw [Bool.and_eq_true, hd] at hf
      exact (validate_iff _ hf.1 _).1 hf.2

/-- **C20, conversion.** A scalar option takes the converted text; a list option takes the one-element list if the
text itself converts, else the elements of the JSON text, all converted. -/
theorem C20_convert (f : Config.Field α) (t : String) (v : Value α) :
    f.convert t = .ok v ↔
      (f.isList = false ∧ ∃ a, f.conv t = .ok a ∧ v = .scalar a) ∨
      (f.isList = true ∧ ∃ a, f.conv t = .ok a ∧ v = .list [a]) ∨
      (f.isList = true ∧ f.conv t = .error .valueError ∧ ∃ l, f.jsonItems t = .ok (l.map .ok) ∧ v = .list l) := by
  have hca : ∀ (items : List (Except ConvErr α)) (l : List α), convAll items = .ok l ↔ items = l.map .ok := by
    intro items
    induction items with
    | nil =>
      intro l
      cases l <;> simp [convAll]
    | cons x xs ih =>
      intro l
      cases x with
      | error e => cases l <;> simp [convAll]
      | ok a =>
        rw [convAll]
        cases hx : convAll xs with
        | error e =>
          cases l with
          | nil => simp [Except.map]
          | cons b bs =>
            simp only [Except.map, List.map_cons, List.cons.injEq, Except.ok.injEq, reduceCtorEq, false_iff, not_and]
            intro _ h
            have := (ih bs).2 h
            rw [hx] at this
            cases this
        | ok ys =>
          have hys := (ih ys).1 hx
          cases l with
          | nil => simp [Except.map]
          | cons b bs =>
            simp only [Except.map, List.map_cons, List.cons.injEq, Except.ok.injEq]
            constructor
            · rintro ⟨rfl, rfl⟩; exact ⟨rfl, hys⟩
            · rintro ⟨rfl, h⟩
              have := (ih bs).2 h
              rw [hx] at this
              injection this with this
              exact ⟨rfl, this⟩
  unfold Field.convert
  cases hl : f.isList with
  | false =>
    cases hc : f.conv t with
    | error e => simp [Except.map]
    | ok a => simp [Except.map, eq_comm]
  | true =>
    cases hc : f.conv t with
    | ok a => simp [eq_comm]
    | error e =>
      cases e with
      | other => simp
      | valueError =>
        cases hj : f.jsonItems t with
        | error e => simp [Except.bind, Except.map]
        | ok items =>
          have hb : ((Except.ok items : Except ConvErr _).bind convAll) = convAll items := rfl
          rw [if_pos rfl]
          simp only [hb]
          constructor
          · intro h
            cases hca' : convAll items with
            | error e => rw [hca'] at h; cases h
            | ok ys =>
              rw [hca'] at h
              injection h with h
              exact Or.inr (Or.inr ⟨trivial, trivial, ys, by rw [(hca items ys).1 hca'], h.symm⟩)
          · rintro (⟨h, _⟩ | ⟨_, a, h, _⟩ | ⟨_, _, l, h, rfl⟩)
            · cases h
            · cases h
            · injection h with h
              rw [(hca items l).2 h]; rfl

end

/-- `gmres_restart`: an `int` option with default 20 and minimum 1 (config-format.json) -/
def exField : Config.Field Int where
  default := some (.scalar 20)
  isList := false
  range := ⟨some 1, none, none⟩
  conv s := if s = "30" then .ok 30 else if s = "0" then .ok 0 else .error .valueError
  jsonItems _ := .error .valueError

example : exField.constructible = true ∧ exField.read none = .ok (.scalar 20) ∧
    exField.read (some "30") = .ok (.scalar 30) ∧ exField.read (some "0") = .error .configValue ∧
    exField.read (some "many") = .error .configValue := by
  refine ⟨by decide, rfl, ?_, ?_, ?_⟩ <;> decide +kernel

/-- A list option whose text is a JSON number that the element type refuses raises an error that is not the named
one. -/
example : ({ exField with isList := true, jsonItems := fun _ => .error .other } : Config.Field Int).read (some "2.5") =
    .error .other := by
  decide +kernel

/-! ## C21 -/

section
variable {V : Type*} [DecidableEq V]

omit [DecidableEq V] in
/-- **C21, order.** Options without dependency come first, then the dependent ones, both in their original order. -/
theorem C21_sorted (fields : List (Opt V)) :
    sortFields fields = fields.filter (·.dependency.isNone) ++ fields.filter (·.dependency.isSome) := by
  have h1 : ∀ (l : List (Opt V)) (a b : List (Opt V)), l.foldl
      (fun (acc : List (Opt V) × List (Opt V)) f =>
        if f.dependency.isNone then (acc.1 ++ [f], acc.2) else (acc.1, acc.2 ++ [f])) (a, b) =
      (a ++ l.filter (·.dependency.isNone), b ++ l.filter (·.dependency.isSome)) := by
    intro l
    induction l with
    | nil => intro a b; simp
    | cons f fs ih =>
      intro a b
      rw [List.foldl_cons]
      cases hf : f.dependency with
      | none =>
        simp only [hf, Option.isNone_none, if_true]
        rw [ih]
        simp [hf]
      | some d =>
        simp only [hf, Option.isNone_some, Bool.false_eq_true, if_false]
        rw [ih]
        simp [hf]
  have h2 : ∀ (l a : List (Opt V)), l.foldl (fun acc f => acc ++ [f]) a = a ++ l := by
    intro l
    induction l with
    | nil => intro a; simp
    | cons f fs ih => intro a; rw [List.foldl_cons, ih]; simp
  unfold sortFields
  rw [h1]
  simp only [h2, List.nil_append]

/-- no option from the first dependent one on has the name of its parent (helper) -/
def Good : List (Opt V) → Prop
  | [] => True
  | f :: fs => (∀ p vs, f.dependency = some (p, vs) → ∀ g ∈ f :: fs, g.name ≠ p) ∧ Good fs

theorem getOption_attr_other {st st' : Attrs V × List (String × String)} {f : Opt V} (h : getOption st f = .ok st')
    {n : String} (hn : f.name ≠ n) : st'.1 n = st.1 n := by
  unfold getOption at h
  simp only at h
  split at h
  · cases h
  · injection h with h; rw [h]
  · split at h
    · cases h
    · injection h with h; rw [← h]; simp [Ne.symm hn]

theorem readOptions_attr_other {n : String} : ∀ {l : List (Opt V)} {st st' : Attrs V × List (String × String)},
    readOptions st l = .ok st' → (∀ f ∈ l, f.name ≠ n) → st'.1 n = st.1 n
  | [], st, st', h, _ => by simp only [readOptions, Except.ok.injEq] at h; rw [h]
  | f :: fs, st, st', h, hn => by
    rw [readOptions] at h
    split at h
    · cases h
    · rename_i st1 h1
      rw [readOptions_attr_other h fun g hg => hn g (by simp [hg]), getOption_attr_other h1 (hn f (by simp))]

open Classical in
theorem readOptions_spec : ∀ {l : List (Opt V)} {st st' : Attrs V × List (String × String)},
    readOptions st l = .ok st' → Good l →
    st'.2 = st.2 ++ (l.filter fun f => decide (Active st'.1 f)).map (fun f => (f.section_, f.name)) ∧
    (∀ f ∈ l, Active st'.1 f → ∃ v, f.read = .ok v) ∧
    (∀ f ∈ l, ∀ p vs, f.dependency = some (p, vs) → st'.1 p ≠ none) ∧
    (∀ n, (∀ f ∈ l, f.name = n → ¬ Active st'.1 f) → st'.1 n = st.1 n) ∧
    (∀ n, (∃ f ∈ l, f.name = n ∧ Active st'.1 f) →
      ∃ f ∈ l, f.name = n ∧ Active st'.1 f ∧ ∃ v, f.read = .ok v ∧ st'.1 n = some v)
  | [], st, st', h, _ => by
    simp only [readOptions, Except.ok.injEq] at h
    subst h
    simp
  | f :: fs, st, st', h, hg => by
    rw [readOptions] at h
    split at h
    · cases h
    rename_i st1 h1
    obtain ⟨ih1, ih2, ih3, ih4, ih5⟩ := readOptions_spec h hg.2
    have hpar : ∀ p vs, f.dependency = some (p, vs) → st'.1 p = st.1 p := by
      intro p vs hp
      rw [readOptions_attr_other h fun g hg' => hg.1 p vs hp g (by simp [hg']),
        getOption_attr_other h1 (hg.1 p vs hp f (by simp))]
    -- what processing f did
    have hcase : (Active st'.1 f ∧ ∃ v, f.read = .ok v ∧ st1 = (fun n => if n = f.name then some v else st.1 n, st.2 ++ [(f.section_, f.name)])) ∨
        (¬ Active st'.1 f ∧ st1 = st) := by
      unfold getOption at h1
      simp only at h1
      cases hd : f.dependency with
      | none =>
        have hact : Active st'.1 f := by intro p vs hp; rw [hd] at hp; cases hp
        rw [hd] at h1
        simp only at h1
        left
        refine ⟨hact, ?_⟩
        split at h1
        · cases h1
        · rename_i v hv; injection h1 with h1; exact ⟨v, hv, h1.symm⟩
      | some pv =>
        obtain ⟨p, vs⟩ := pv
        rw [hd] at h1
        simp only at h1
        have hp := hpar p vs hd
        cases hs : st.1 p with
        | none => rw [hs] at h1; cases h1
        | some w =>
          rw [hs] at h1 hp
          simp only at h1
          by_cases hw : w ∈ vs
          · left
            refine ⟨?_, ?_⟩
            · intro p' vs' h'
              rw [hd] at h'
              injection h' with h'
              injection h' with e1 e2
              subst e1 e2
              exact ⟨w, hp, hw⟩
            · simp only [hw, decide_true] at h1
              split at h1
              · cases h1
              · rename_i v hv; injection h1 with h1; exact ⟨v, hv, h1.symm⟩
          · right
            refine ⟨?_, ?_⟩
            · intro hact
              obtain ⟨w', h2, h3⟩ := hact p vs hd
              rw [hp] at h2
              injection h2 with h2
              subst h2
              exact hw h3
            · simp only [hw, decide_false] at h1
              injection h1 with h1
              exact h1.symm
    have hdep : ∀ p vs, f.dependency = some (p, vs) → st'.1 p ≠ none := by
      intro p vs hp
      rw [hpar p vs hp]
      intro hn
      unfold getOption at h1
      simp only [hp, hn] at h1
      cases h1
    rcases hcase with ⟨hact, v, hv, rfl⟩ | ⟨hact, rfl⟩
    · refine ⟨?_, ?_, ?_, ?_, ?_⟩
      · rw [ih1, List.filter_cons_of_pos (by simpa using hact)]
        simp
      · intro g hg' hga
        rcases List.mem_cons.1 hg' with rfl | hg'
        · exact ⟨v, hv⟩
        · exact ih2 g hg' hga
      · intro g hg'
        rcases List.mem_cons.1 hg' with rfl | hg'
        · exact hdep
        · exact ih3 g hg'
      · intro n hn
        have hne : n ≠ f.name := fun h => hn f (by simp) h.symm hact
        rw [ih4 n fun g hg' => hn g (by simp [hg'])]
        simp [hne]
      · intro n hn
        by_cases hlater : ∃ g ∈ fs, g.name = n ∧ Active st'.1 g
        · obtain ⟨g, hg', hrest⟩ := ih5 n hlater
          exact ⟨g, by simp [hg'], hrest⟩
        · obtain ⟨g, hg', hgn, hga⟩ := hn
          rcases List.mem_cons.1 hg' with rfl | hg'
          · refine ⟨g, by simp, hgn, hact, v, hv, ?_⟩
            rw [ih4 n fun x hx hxn hxa => hlater ⟨x, hx, hxn, hxa⟩]
            simp [hgn]
          · exact absurd ⟨g, hg', hgn, hga⟩ hlater
    · refine ⟨?_, ?_, ?_, ?_, ?_⟩
      · rw [ih1, List.filter_cons_of_neg (by simpa using hact)]
      · intro g hg' hga
        rcases List.mem_cons.1 hg' with rfl | hg'
        · exact absurd hga hact
        · exact ih2 g hg' hga
      · intro g hg'
        rcases List.mem_cons.1 hg' with rfl | hg'
        · exact hdep
        · exact ih3 g hg'
      · intro n hn
        exact ih4 n fun g hg' => hn g (by simp [hg'])
      · rintro n ⟨g, hg', hgn, hga⟩
        rcases List.mem_cons.1 hg' with rfl | hg'
        · exact absurd hga hact
        · obtain ⟨x, hx, hrest⟩ := ih5 n ⟨g, hg', hgn, hga⟩
          exact ⟨x, by simp [hx], hrest⟩

omit [DecidableEq V] in
theorem good_sorted (fields : List (Opt V))
    (hpar : ∀ f ∈ fields, ∀ p vs, f.dependency = some (p, vs) → ∀ g ∈ fields, g.name = p → g.dependency = none) :
    Good (sortFields fields) := by
  rw [C21_sorted]
  have hdep : ∀ (l : List (Opt V)), (∀ f ∈ l, f ∈ fields ∧ f.dependency.isSome) → Good l := by
    intro l
    induction l with
    | nil => intro _; trivial
    | cons f fs ih =>
      intro h
      refine ⟨?_, ih fun g hg => h g (by simp [hg])⟩
      intro p vs hp g hg hgn
      have := hpar f (h f (by simp)).1 p vs hp g (h g hg).1 hgn
      have h2 := (h g hg).2
      rw [this] at h2
      simp at h2
  have hind : ∀ (l r : List (Opt V)), (∀ f ∈ l, f.dependency = none) → Good r → Good (l ++ r) := by
    intro l r
    induction l with
    | nil => intro _ h; exact h
    | cons f fs ih =>
      intro h hr
      refine ⟨?_, ih (fun g hg => h g (by simp [hg])) hr⟩
      intro p vs hp
      rw [h f (by simp)] at hp
      cases hp
  apply hind
  · intro f hf
    have := (List.mem_filter.1 hf).2
    simpa using this
  · apply hdep
    intro f hf
    exact List.mem_filter.1 hf

open Classical in
/-- **C21.** Take any list of options in which the parents of dependent options do not themselves depend on anything.
When a configuration is built, then for the final attributes:
* the options recorded are exactly the active ones (no dependency, or parent's value among the listed ones);
* every active option was read without error, whatever the inactive ones would have given, and every parent exists;
* an attribute with an active option of its name has the value read by such an option;
* an attribute with no active option of its name keeps the value it had before (or stays undefined). -/
theorem C21_configure (preset : String → Option V) (fields : List (Opt V))
    (hpar : ∀ f ∈ fields, ∀ p vs, f.dependency = some (p, vs) → ∀ g ∈ fields, g.name = p → g.dependency = none)
    (attrs : String → Option V) (recorded : List (String × String))
    (h : configure preset fields = .ok (attrs, recorded)) :
    recorded = ((fields.filter (·.dependency.isNone) ++
      fields.filter (fun f => f.dependency.isSome ∧ Active attrs f)).map fun f => (f.section_, f.name)) ∧
    (∀ f ∈ fields, Active attrs f → ∃ v, f.read = .ok v) ∧
    (∀ f ∈ fields, ∀ p vs, f.dependency = some (p, vs) → attrs p ≠ none) ∧
    (∀ n, (∃ f ∈ fields, f.name = n ∧ Active attrs f) →
      ∃ f ∈ fields, f.name = n ∧ Active attrs f ∧ ∃ v, f.read = .ok v ∧ attrs n = some v) ∧
    (∀ n, (∀ f ∈ fields, f.name = n → ¬ Active attrs f) → attrs n = preset n) := by
  unfold configure at h
  obtain ⟨h1, h2, h3, h4, h5⟩ := readOptions_spec h (good_sorted fields hpar)
  have hmem : ∀ f, f ∈ sortFields fields ↔ f ∈ fields := by
    intro f
    rw [C21_sorted, List.mem_append, List.mem_filter, List.mem_filter]
    constructor
    · rintro (h | h) <;> exact h.1
    · intro hf
      cases hd : f.dependency with
      | none => exact Or.inl ⟨hf, by simp⟩
      | some _ => exact Or.inr ⟨hf, by simp⟩
  refine ⟨?_, fun f hf => h2 f ((hmem f).2 hf), fun f hf => h3 f ((hmem f).2 hf), ?_, ?_⟩
  · simp only at h1
    rw [h1, C21_sorted, List.filter_append, List.nil_append]
    have e1 : (fields.filter (·.dependency.isNone)).filter (fun f => decide (Active attrs f)) =
        fields.filter (·.dependency.isNone) := by
      rw [List.filter_eq_self]
      intro f hf
      have := (List.mem_filter.1 hf).2
      simp only [Option.isNone_iff_eq_none] at this
      simp only [decide_eq_true_eq]
      intro p vs hp
      rw [this] at hp
      cases hp
    rw [e1, List.filter_filter]
    congr 2
    apply List.filter_congr
    intro f _
    rw [Bool.decide_and, Bool.and_comm]
    simp
  · rintro n ⟨f, hf, hrest⟩
    obtain ⟨g, hg, hr⟩ := h5 n ⟨f, (hmem f).2 hf, hrest⟩
    exact ⟨g, (hmem g).1 hg, hr⟩
  · intro n hn
    exact h4 n fun f hf => hn f ((hmem f).1 hf)

end

/-- The shipped schema meets the hypothesis of `C21_configure`, for every outcome of reading the options. -/
theorem C21_shipped_schema (read : Nat → Except Err String) :
    ∀ f ∈ shippedOptions read, ∀ p vs, f.dependency = some (p, vs) →
      (∃ g ∈ shippedOptions read, g.name = p) ∧ ∀ g ∈ shippedOptions read, g.name = p → g.dependency = none := by
  have key : ∀ f ∈ shippedSchema, ∀ pv, f.2.2 = some pv →
      (∃ g ∈ shippedSchema, g.2.1 = pv.1) ∧ ∀ g ∈ shippedSchema, g.2.1 = pv.1 → g.2.2 = none := by
    have : (shippedSchema.all fun f => match f.2.2 with
        | none => true
        | some pv => (shippedSchema.any fun g => g.2.1 == pv.1) &&
            shippedSchema.all fun g => g.2.1 != pv.1 || g.2.2.isNone) = true := by decide +kernel
    intro f hf pv hpv
    have h := List.all_eq_true.1 this f hf
    rw [hpv] at h
    simp only [Bool.and_eq_true, List.any_eq_true, List.all_eq_true, beq_iff_eq, Bool.or_eq_true, bne_iff_ne] at h
    refine ⟨h.1, fun g hg hn => ?_⟩
    rcases h.2 g hg with h' | h'
    · exact absurd hn h'
    · simpa using h'
  have hmem : ∀ f ∈ shippedOptions read, ∃ g ∈ shippedSchema, g.2.1 = f.name ∧ g.2.2 = f.dependency := by
    intro f hf
    unfold shippedOptions at hf
    obtain ⟨⟨g, i⟩, hg, rfl⟩ := List.mem_map.1 hf
    exact ⟨g, List.fst_mem_of_mem_zipIdx hg, rfl, rfl⟩
  intro f hf p vs hp
  obtain ⟨g, hg, _, hgd⟩ := hmem f hf
  obtain ⟨⟨x, hx, hxn⟩, h2⟩ := key g hg (p, vs) (by rw [hgd, hp])
  refine ⟨?_, ?_⟩
  · obtain ⟨i, hi, hxi⟩ := List.getElem_of_mem hx
    refine ⟨⟨x.2.1, x.1, x.2.2, read i⟩, ?_, hxn⟩
    unfold shippedOptions
    refine List.mem_map.2 ⟨(x, i), ?_, rfl⟩
    rw [List.mem_zipIdx_iff_getElem?]
    simp [hi, hxi]
  · intro y hy hyn
    obtain ⟨z, hz, hzn, hzd⟩ := hmem y hy
    rw [← hzd]
    exact h2 z hz (by rw [hzn, hyn])

/-- An option that depends on a dependent option written after it makes the whole configuration fail: the sort does
not follow chains of dependencies. -/
theorem C21_chain_out_of_order_fails :
    ∃ fields : List (Opt String), configure (fun _ => none) fields = .error (.missingDependency "b") ∧
      configure (fun _ => none) fields.reverse ≠ .error (.missingDependency "b") :=
  ⟨[⟨"a", "S", some ("b", ["1"]), .ok "x"⟩, ⟨"b", "S", some ("c", ["1"]), .ok "1"⟩, ⟨"c", "S", none, .ok "1"⟩], rfl, by
    intro h; cases h⟩

example : (configure (fun _ => none) [⟨"order", "S", some ("apply", ["1"]), .ok "16"⟩,
    ⟨"order", "S", some ("apply", ["0"]), .ok "0"⟩, (⟨"apply", "S", none, .ok "1"⟩ : Opt String)]).toOption.map
      (fun r => (r.1 "order", r.1 "other", r.2)) = some (some "16", none, [("S", "apply"), ("S", "order")]) := by
  decide +kernel

/-! ## C22 -/

/-- **C22.** The evaluator returns `x` exactly when the expression denotes `x`; in every other case (unknown name,
unsupported operator or construct, division by zero) it raises. -/
theorem C22_eval {K : Type*} [_root_.Field K] [DecidableEq K] (pi : K) (e : Ast K) (x : K) :
    eval pi e = .ok x ↔ Denotes pi e x := by
  constructor
  · induction e generalizing x with
    | num y => intro h; simp only [eval, Except.ok.injEq] at h; subst h; exact .num y
    | otherConst => intro h; cases h
    | name n =>
      intro h
      unfold eval at h
      split at h
      · injection h with h; subst h; exact .pi n ‹_›
      · cases h
    | bin l op r ihl ihr =>
      intro h
      unfold eval applyBin at h
      cases op with
      | unsupported => cases h
      | add | sub | mult =>
        simp only at h
        split at h
        · cases h
        · split at h
          · cases h
          · injection h with h
            subst h
            first
            | exact .add (ihl _ ‹_›) (ihr _ ‹_›)
            | exact .sub (ihl _ ‹_›) (ihr _ ‹_›)
            | exact .mul (ihl _ ‹_›) (ihr _ ‹_›)
      | div =>
        simp only at h
        split at h
        · cases h
        · split at h
          · cases h
          · split at h
            · cases h
            · injection h with h
              subst h
              exact .div (ihl _ ‹_›) (ihr _ ‹_›) ‹_›
    | un op e ih =>
      intro h
      unfold eval at h
      cases op with
      | unsupported => cases h
      | usub =>
        simp only at h
        split at h
        · cases h
        · injection h with h
          subst h
          exact .neg (ih _ ‹_›)
    | other => intro h; cases h
  · intro h
    induction h with
    | num y => rfl
    | pi n hn => simp [eval, hn]
    | add _ _ ihl ihr => simp [eval, applyBin, ihl, ihr]
    | sub _ _ ihl ihr => simp [eval, applyBin, ihl, ihr]
    | mul _ _ ihl ihr => simp [eval, applyBin, ihl, ihr]
    | div _ _ hb ihl ihr => simp [eval, applyBin, ihl, ihr, hb]
    | neg _ ih => simp [eval, ih]

/-- The value of an expression is unique, and expressions with an unsupported part have none. -/
theorem C22_rejects {K : Type*} [_root_.Field K] [DecidableEq K] (pi : K) (e : Ast K) (h : ¬ ∃ x, Denotes pi e x) :
    ∃ err, eval pi e = .error err := by
  cases he : eval pi e with
  | error err => exact ⟨err, rfl⟩
  | ok x => exact absurd ⟨x, (C22_eval pi e x).1 he⟩ h

/-- `-Pi/4 + 3*2` -/
example : eval (22 / 7 : ℚ) (.bin (.bin (.un .usub (.name "Pi")) .div (.num 4)) .add (.bin (.num 3) .mult (.num 2))) =
    .ok (-(22 / 7) / 4 + 3 * 2) := by
  rw [C22_eval]
  exact .add (.div (.neg (.pi _ (by decide +kernel))) (.num _) (by norm_num)) (.mul (.num _) (.num _))

/-! ## C23 -/

section
variable {K : Type*} [_root_.Field K] [LinearOrder K] [IsStrictOrderedRing K] [FloorRing K]

/-- rounding is to a nearest integer -/
theorem pyRound_near (x : K) : |x - pyRound x| ≤ 1 / 2 := by
  unfold pyRound
  simp only
  have h1 := Int.floor_le x
  have h2 := Int.lt_floor_add_one x
  split
  · rw [abs_le]; constructor <;> linarith
  · rename_i h
    split
    · push_cast; rw [abs_le]; constructor <;> linarith
    · rename_i h'
      split
      · rw [abs_le]; constructor <;> linarith
      · push_cast; rw [abs_le]; constructor <;> linarith

theorem pyRound_int (n : Int) : pyRound (n : K) = n := by
  unfold pyRound
  simp

/-- the half-way cases go to the even neighbour -/
theorem pyRound_half (n : Int) : pyRound ((n : K) + 1 / 2) = if n % 2 = 0 then n else n + 1 := by
  have hf : ⌊(n : K) + 1 / 2⌋ = n := by
    rw [Int.floor_eq_iff]
    constructor
    · linarith [show (0 : K) < 1 / 2 by norm_num]
    · linarith [show (1 : K) / 2 < 1 by norm_num]
  unfold pyRound
  simp only [hf]
  have : (n : K) + 1 / 2 - n = 1 / 2 := by ring
  rw [this]
  simp

theorem wrapDown_spec {pi : K} (hpi : 0 < pi) (f : K) : ∃ N k : Nat, ∃ g, g = f - 2 * pi * k ∧ g < pi ∧ (-pi ≤ f → -pi ≤ g) ∧
    (-pi > f → g = f) ∧ ∀ fuel, N ≤ fuel → wrapDown pi fuel f = some g := by
  have key : ∀ (n : Nat) (f : K), f < pi + 2 * pi * n → ∃ N k : Nat, ∃ g, g = f - 2 * pi * k ∧ g < pi ∧ (-pi ≤ f → -pi ≤ g) ∧
    (-pi > f → g = f) ∧ ∀ fuel, N ≤ fuel → wrapDown pi fuel f = some g := by
    intro n
    induction n with
    | zero =>
      intro f hf
      have hlt : f < pi := by simpa using hf
      refine ⟨1, 0, f, by simp, hlt, id, fun _ => rfl, ?_⟩
      intro fuel hfuel
      obtain ⟨m, rfl⟩ : ∃ m, fuel = m + 1 := ⟨fuel - 1, by omega⟩
      rw [wrapDown, if_neg (not_le.2 hlt)]
    | succ n ih =>
      intro f hf
      by_cases hlt : f < pi
      · refine ⟨1, 0, f, by simp, hlt, id, fun _ => rfl, ?_⟩
        intro fuel hfuel
        obtain ⟨m, rfl⟩ : ∃ m, fuel = m + 1 := ⟨fuel - 1, by omega⟩
        rw [wrapDown, if_neg (not_le.2 hlt)]
      · rw [not_lt] at hlt
        obtain ⟨N, k, g, h1, h2, h3, h4, h5⟩ := ih (f - 2 * pi) (by push_cast at hf; linarith)
        refine ⟨N + 1, k + 1, g, by rw [h1]; push_cast; ring, h2, fun _ => h3 (by linarith), ?_, ?_⟩
        · intro h; linarith
        · intro fuel hfuel
          obtain ⟨m, rfl⟩ : ∃ m, fuel = m + 1 := ⟨fuel - 1, by omega⟩
          rw [wrapDown, if_pos hlt, h5 m (by omega)]
  obtain ⟨n, hn⟩ := exists_nat_gt ((f - pi) / (2 * pi))
  apply key n
  rw [div_lt_iff₀ (by linarith)] at hn
  linarith

theorem wrapUp_spec {pi : K} (hpi : 0 < pi) (f : K) (hf : f < pi) : ∃ N k : Nat, ∃ g, g = f + 2 * pi * k ∧ g < pi ∧ -pi ≤ g ∧
    ∀ fuel, N ≤ fuel → wrapUp pi fuel f = some g := by
  have key : ∀ (n : Nat) (f : K), f < pi → -pi ≤ f + 2 * pi * n → ∃ N k : Nat, ∃ g, g = f + 2 * pi * k ∧ g < pi ∧ -pi ≤ g ∧
    ∀ fuel, N ≤ fuel → wrapUp pi fuel f = some g := by
    intro n
    induction n with
    | zero =>
      intro f hf hn
      have hge : -pi ≤ f := by simpa using hn
      refine ⟨1, 0, f, by simp, hf, hge, ?_⟩
      intro fuel hfuel
      obtain ⟨m, rfl⟩ : ∃ m, fuel = m + 1 := ⟨fuel - 1, by omega⟩
      rw [wrapUp, if_neg (not_lt.2 hge)]
    | succ n ih =>
      intro f hf hn
      by_cases hge : -pi ≤ f
      · refine ⟨1, 0, f, by simp, hf, hge, ?_⟩
        intro fuel hfuel
        obtain ⟨m, rfl⟩ : ∃ m, fuel = m + 1 := ⟨fuel - 1, by omega⟩
        rw [wrapUp, if_neg (not_lt.2 hge)]
      · rw [not_le] at hge
        obtain ⟨N, k, g, h1, h2, h3, h4⟩ := ih (f + 2 * pi) (by linarith) (by push_cast at hn; linarith)
        refine ⟨N + 1, k + 1, g, by rw [h1]; push_cast; ring, h2, h3, ?_⟩
        intro fuel hfuel
        obtain ⟨m, rfl⟩ : ∃ m, fuel = m + 1 := ⟨fuel - 1, by omega⟩
        rw [wrapUp, if_pos hge, h4 m (by omega)]
  obtain ⟨n, hn⟩ := exists_nat_gt ((-pi - f) / (2 * pi))
  apply key n f hf
  rw [div_lt_iff₀ (by linarith)] at hn
  linarith

/-- what `encode` computes, for any angle: the angle shifted into `[-π, π)`, rounded (helper) -/
theorem encode_spec {pi : K} (hpi : 0 < pi) (f : K) : ∃ (N : Nat) (k : Int) (g : K), g = f + 2 * pi * k ∧ g < pi ∧ -pi ≤ g ∧
    ∀ fuel, N ≤ fuel → encode pi fuel f = some ((pyRound (g / interval pi) + 8388608) % 16777216) := by
  obtain ⟨N1, k1, g1, a1, a2, a3, a4, a5⟩ := wrapDown_spec hpi f
  obtain ⟨N2, k2, g2, b1, b2, b3, b4⟩ := wrapUp_spec hpi g1 a2
  refine ⟨max N1 N2, (k2 : Int) - k1, g2, ?_, b2, b3, ?_⟩
  · rw [b1, a1]; push_cast; ring
  · intro fuel hfuel
    unfold encode
    rw [a5 fuel (by omega), Option.bind_some, b4 fuel (by omega)]
    rfl

theorem interval_pos {pi : K} (hpi : 0 < pi) : 0 < interval pi := by
  unfold interval; positivity

theorem interval_mul {pi : K} : interval pi * 16777216 = 2 * pi := by
  unfold interval; field_simp

/-- **C23, codes.** Encoding the angle of any 24-bit code gives the code back (the loops stop at their first test). -/
theorem C23_code_round_trip (pi : K) (hpi : 0 < pi) (u : Int) (h0 : 0 ≤ u) (h1 : u < 16777216) (fuel : Nat)
    (hfuel : 1 ≤ fuel) : encode pi fuel (decode pi u) = some u := by
  have hI := interval_pos hpi
  have hI2 := interval_mul (pi := pi)
  have hu : u % 16777216 = u := Int.emod_eq_of_lt h0 h1
  have hc0 : (0 : K) ≤ u := by exact_mod_cast h0
  have hc1 : (u : K) ≤ 16777215 := by exact_mod_cast (by omega : u ≤ 16777215)
  have hd : decode pi u = ((u - 8388608 : Int) : K) * interval pi := by unfold decode; rw [hu]
  have hlt : decode pi u < pi := by
    rw [hd]; push_cast
    have : ((u : K) - 8388608) * interval pi ≤ (16777215 - 8388608) * interval pi :=
      mul_le_mul_of_nonneg_right (by linarith) hI.le
    nlinarith
  have hge : -pi ≤ decode pi u := by
    rw [hd]; push_cast
    have : (0 - 8388608) * interval pi ≤ ((u : K) - 8388608) * interval pi :=
      mul_le_mul_of_nonneg_right (by linarith) hI.le
    nlinarith
  obtain ⟨m, rfl⟩ : ∃ m, fuel = m + 1 := ⟨fuel - 1, by omega⟩
  unfold encode
  rw [wrapDown, if_neg (not_le.2 hlt), Option.bind_some, wrapUp, if_neg (not_lt.2 hge), Option.map_some]
  congr 1
  rw [hd, mul_div_assoc, div_self hI.ne', mul_one, pyRound_int]
  rw [Int.sub_add_cancel, hu]

/-- **C23, angles.** For every angle, `encode` ends with a 24-bit code, and decoding it returns an angle in `[-π, π)`
equal to the original modulo `2π` up to half an interval. -/
theorem C23_angle_round_trip (pi : K) (hpi : 0 < pi) (f : K) :
    ∃ (N : Nat) (u n : Int), (∀ fuel, N ≤ fuel → encode pi fuel f = some u) ∧ 0 ≤ u ∧ u < 16777216 ∧
      |decode pi u - (f + 2 * pi * n)| ≤ (2 * pi / 16777216) / 2 ∧ -pi ≤ decode pi u ∧ decode pi u < pi := by
  obtain ⟨N, k, g, h1, h2, h3, h4⟩ := encode_spec hpi f
  have hI := interval_pos hpi
  have hI2 := interval_mul (pi := pi)
  obtain ⟨r, hr⟩ : ∃ r, pyRound (g / interval pi) = r := ⟨_, rfl⟩
  rw [hr] at h4
  have hnear : |g - r * interval pi| ≤ interval pi / 2 := by
    have := pyRound_near (g / interval pi)
    rw [hr] at this
    have e : g - r * interval pi = (g / interval pi - r) * interval pi := by field_simp
    rw [e, abs_mul, abs_of_pos hI]
    nlinarith
  obtain ⟨q, hq⟩ : ∃ q, (r + 8388608) / 16777216 = q := ⟨_, rfl⟩
  have hu0 := Int.emod_nonneg (r + 8388608) (by norm_num : (16777216 : Int) ≠ 0)
  have hu1 := Int.emod_lt_of_pos (r + 8388608) (by norm_num : (0 : Int) < 16777216)
  have hdiv := Int.emod_add_mul_ediv (r + 8388608) 16777216
  rw [hq] at hdiv
  obtain ⟨u, hu⟩ : ∃ u, (r + 8388608) % 16777216 = u := ⟨_, rfl⟩
  rw [hu] at hu0 hu1 hdiv h4
  refine ⟨N, u, k - q, h4, hu0, hu1, ?_, ?_, ?_⟩
  · have hd : decode pi u = (r - 16777216 * q) * interval pi := by
      unfold decode
      rw [Int.emod_eq_of_lt hu0 hu1]
      have : u - 8388608 = r - 16777216 * q := by omega
      rw [this]; push_cast; ring
    have e : decode pi u - (f + 2 * pi * ((k - q : Int) : K)) = -(g - r * interval pi) := by
      rw [hd, h1]
      push_cast
      linear_combination (-(q : K)) * hI2
    rw [e, abs_neg]
    exact hnear
  · unfold decode
    rw [Int.emod_eq_of_lt hu0 hu1]
    have : ((-8388608 : Int) : K) * interval pi ≤ ((u - 8388608 : Int) : K) * interval pi :=
      mul_le_mul_of_nonneg_right (by exact_mod_cast (by omega)) hI.le
    push_cast at this ⊢
    linarith
  · unfold decode
    rw [Int.emod_eq_of_lt hu0 hu1]
    have : ((u - 8388608 : Int) : K) * interval pi < ((8388608 : Int) : K) * interval pi :=
      mul_lt_mul_of_pos_right (by exact_mod_cast (by omega)) hI
    push_cast at this ⊢
    linarith

/-- **C23, periodicity.** Adding any number of turns does not change the code. -/
theorem C23_periodic (pi : K) (hpi : 0 < pi) (f : K) (n : Int) :
    ∃ N : Nat, ∀ fuel, N ≤ fuel → encode pi fuel (f + 2 * pi * n) = encode pi fuel f := by
  obtain ⟨N1, k1, g1, a1, a2, a3, a4⟩ := encode_spec hpi f
  obtain ⟨N2, k2, g2, b1, b2, b3, b4⟩ := encode_spec hpi (f + 2 * pi * n)
  have hg : g1 = g2 := by
    have e : g1 - g2 = 2 * pi * ((k1 - n - k2 : Int) : K) := by rw [a1, b1]; push_cast; ring
    have hlt1 : 2 * pi * ((k1 - n - k2 : Int) : K) < 2 * pi * 1 := by rw [← e]; linarith
    have hlt2 : 2 * pi * (-1) < 2 * pi * ((k1 - n - k2 : Int) : K) := by rw [← e]; linarith
    have h1 := lt_of_mul_lt_mul_left hlt1 (by linarith)
    have h2 := lt_of_mul_lt_mul_left hlt2 (by linarith)
    have h1' : k1 - n - k2 < 1 := by exact_mod_cast h1
    have h2' : -1 < k1 - n - k2 := by exact_mod_cast h2
    have h0 : k1 - n - k2 = 0 := by omega
    rw [h0] at e
    simp only [Int.cast_zero, mul_zero] at e
    linarith
  refine ⟨max N1 N2, fun fuel hfuel => ?_⟩
  rw [a4 fuel (by omega), b4 fuel (by omega), hg]

/-- **C23, stored angles.** Converting to a stored angle twice is the same as once. -/
theorem C23_idempotent (pi : K) (hpi : 0 < pi) (f : K) :
    ∃ N : Nat, ∀ fuel, N ≤ fuel → ∃ u, encode pi fuel f = some u ∧ encode pi fuel (decode pi u) = some u := by
  obtain ⟨N, u, n, h1, h2, h3, _⟩ := C23_angle_round_trip pi hpi f
  refine ⟨N + 1, fun fuel hfuel => ⟨u, h1 fuel (by omega), C23_code_round_trip pi hpi u h2 h3 fuel (by omega)⟩⟩

end

/-- two turns are taken off, then nothing is added -/
example : wrapDown (22 / 7 : ℚ) 5 15 = some (15 - 4 * (22 / 7)) ∧ wrapUp (22 / 7 : ℚ) 5 (15 - 4 * (22 / 7)) =
    some (15 - 4 * (22 / 7)) := by
  norm_num [wrapDown, wrapUp]

example : encode (22 / 7 : ℚ) 1 (decode (22 / 7) 123456) = some 123456 :=
  C23_code_round_trip _ (by norm_num) _ (by norm_num) (by norm_num) 1 le_rfl

end WxVerif.Props.Config
