import Verif.Lemmas.ConfigPrint
import Verif.Props.Config
import Mathlib.Data.List.Nodup

/-!
# C103: the printed configuration
-/

namespace WxVerif.Props.ConfigPrint

open WxVerif.Config WxVerif.ConfigSpec WxVerif.ConfigPrint WxVerif.ConfigPrintSpec WxVerif.Lemmas.ConfigPrint
open WxVerif.Props.Config

/-- no two options of the same section and name can both apply: they depend on different values of the same parent -/
def Exclusive {V : Type*} (fields : List (Opt V)) : Prop :=
  fields.Pairwise fun f g => f.section_ = g.section_ → f.name = g.name →
    ∃ p vs ws, f.dependency = some (p, vs) ∧ g.dependency = some (p, ws) ∧ ∀ v ∈ vs, v ∉ ws

/-- entries of all sections that a reader finds in a text -/
def found (text : List Char) : List (List Char × List Char × List Char) :=
  (readBack text).flatMap fun s => s.2.map fun e => (s.1, e.1, e.2)

variable {V : Type} [DecidableEq V]

omit [DecidableEq V] in
theorem valueOf_eq (t : Texts V) (attrs : Attrs V) (n : String) : valueOf t attrs n = (attrs n).elim [] t.text := by
  unfold valueOf
  cases attrs n <;> rfl

open Classical in
theorem recorded_perm (preset : String → Option V) (fields : List (Opt V))
    (hpar : ∀ f ∈ fields, ∀ p vs, f.dependency = some (p, vs) → ∀ g ∈ fields, g.name = p → g.dependency = none)
    (attrs : String → Option V) (recorded : List (String × String))
    (h : configure preset fields = .ok (attrs, recorded)) :
    recorded.Perm ((fields.filter fun f => Active attrs f).map fun f => (f.section_, f.name)) := by
  rw [(C21_configure preset fields hpar attrs recorded h).1]
  apply List.Perm.map
  have e : (fields.filter fun f => Active attrs f).Perm
      ((fields.filter fun f => Active attrs f).filter (·.dependency.isNone) ++
        (fields.filter fun f => Active attrs f).filter fun f => !f.dependency.isNone) :=
    (List.filter_append_perm _ _).symm
  refine List.Perm.trans (List.Perm.of_eq ?_) e.symm
  rw [List.filter_filter, List.filter_filter]
  congr 1
  · apply List.filter_congr
    intro f _
    cases hd : f.dependency with
    | none =>
      have : Active attrs f := by intro p vs hp; rw [hd] at hp; cases hp
      simp [this]
    | some d => simp
  · apply List.filter_congr
    intro f _
    cases hd : f.dependency with
    | none => simp
    | some d => simp

open Classical in
theorem recorded_nodup (fields : List (Opt V)) (hex : Exclusive fields) (attrs : String → Option V) :
    ((fields.filter fun f => Active attrs f).map fun f => (f.section_, f.name)).Nodup := by
  rw [List.Nodup, List.pairwise_map, List.pairwise_filter]
  refine List.Pairwise.imp ?_ hex
  intro f g hfg hf hg heq
  simp only [Prod.mk.injEq] at heq
  obtain ⟨p, vs, ws, h1, h2, h3⟩ := hfg heq.1 heq.2
  simp only [decide_eq_true_eq] at hf hg
  obtain ⟨v, hv, hvs⟩ := hf p vs h1
  obtain ⟨w, hw, hws⟩ := hg p ws h2
  rw [hv] at hw
  injection hw with hw
  exact h3 v hvs (hw ▸ hws)

open Classical in
/-- **C103.** Print any configuration that could be built, from any file, with a schema whose parents depend on nothing
and whose options of equal section and name exclude each other.  A person reading the text by its bars and dashes finds
every section once, and in them the options that apply, each exactly once, in its own section and with the text of its
final value, and nothing else.  The names have no line break, bar, colon or space at the end, and the texts of the
values no line break, bar or space at the end.

Missing from the full property: the text of a number has six digits only, see `C103_digits_fails`. -/
theorem C103_shown_partial (t : Texts V) (preset : String → Option V) (fields : List (Opt V))
    (hpar : ∀ f ∈ fields, ∀ p vs, f.dependency = some (p, vs) → ∀ g ∈ fields, g.name = p → g.dependency = none)
    (hex : Exclusive fields) (attrs : String → Option V) (recorded : List (String × String))
    (h : configure preset fields = .ok (attrs, recorded))
    (hsec : ∀ f ∈ fields, '\n' ∉ f.section_.toList) (hname : ∀ f ∈ fields, CleanName f.name.toList)
    (hval : ∀ f ∈ fields, ∀ v, attrs f.name = some v → CleanValue (t.text v)) :
    ((readBack (printed t attrs recorded)).map Prod.fst).Nodup ∧
    (found (printed t attrs recorded)).Perm ((fields.filter fun f => Active attrs f).map fun f =>
      (f.section_.toList, f.name.toList, (attrs f.name).elim [] t.text)) := by
  have hrec := recorded_perm preset fields hpar attrs recorded h
  have hnd : recorded.Nodup := hrec.nodup_iff.2 (recorded_nodup fields hex attrs)
  obtain ⟨hkeys, hflat⟩ := sectionsOf_spec recorded
  have hfnd : (flat (sectionsOf recorded)).Nodup := hflat.nodup_iff.2 hnd
  have hmem : ∀ s ∈ sectionsOf recorded, ∀ o ∈ s.2, ∃ f ∈ fields, f.section_ = s.1 ∧ f.name = o := by
    intro s hs o ho
    have : (s.1, o) ∈ flat (sectionsOf recorded) :=
      List.mem_flatMap.2 ⟨s, hs, List.mem_map_of_mem ho⟩
    obtain ⟨f, hf, hfe⟩ := List.mem_map.1 (hrec.mem_iff.1 (hflat.mem_iff.1 this))
    simp only [Prod.mk.injEq] at hfe
    exact ⟨f, (List.mem_filter.1 hf).1, hfe.1, hfe.2⟩
  have hsnd : ∀ s ∈ sectionsOf recorded, s.2.Nodup := by
    intro s hs
    have := (List.nodup_flatMap.1 hfnd).1 s hs
    exact List.Nodup.of_map _ this
  have hne : ∀ s ∈ sectionsOf recorded, s.2 ≠ [] := by
    have key : ∀ (rs : List (String × String)) (d : List (String × List String)), (∀ s ∈ d, s.2 ≠ []) →
        ∀ s ∈ rs.foldl (fun d r => record d r.1 r.2) d, s.2 ≠ [] := by
      intro rs
      induction rs with
      | nil => intro d hd; exact hd
      | cons r rs ih =>
        intro d hd
        apply ih
        intro s hs
        change s ∈ record d r.1 r.2 at hs
        unfold record at hs
        split at hs
        · obtain ⟨q, hq, rfl⟩ := List.mem_map.1 hs
          split
          · simp
          · exact hd q hq
        · rw [List.mem_append] at hs
          rcases hs with hs | hs
          · exact hd s hs
          · simp only [List.mem_singleton] at hs
            subst hs
            simp
    exact key recorded [] (by simp)
  have hread := readBack_print (valueOf t attrs) (sectionsOf recorded) hsnd
    (by
      intro s hs
      obtain ⟨o, ho⟩ := List.exists_mem_of_ne_nil _ (hne s hs)
      obtain ⟨f, hf, hfs, -⟩ := hmem s hs o ho
      rw [← hfs]
      exact hsec f hf)
    (by
      intro s hs o ho
      obtain ⟨f, hf, -, rfl⟩ := hmem s hs o ho
      refine ⟨hname f hf, ?_⟩
      show CleanValue (valueOf t attrs f.name)
      unfold valueOf
      cases hv : attrs f.name with
      | none => exact ⟨by simp, by simp, rfl⟩
      | some v => exact hval f hf v hv)
  have hprint : printed t attrs recorded = printSections (valueOf t attrs) (sectionsOf recorded) := rfl
  constructor
  · rw [hprint, hread, List.map_map]
    have : (sectionsOf recorded).map (Prod.fst ∘ fun s => (s.1.toList,
        (shorts (valueOf t attrs) s.2).map (pairOf (valueOf t attrs)) ++
          (longs (valueOf t attrs) s.2).map (pairOf (valueOf t attrs)))) =
        ((sectionsOf recorded).map Prod.fst).map String.toList := by
      rw [List.map_map]
      rfl
    rw [this]
    exact List.Nodup.map (fun a b hab => String.toList_injective hab) hkeys
  · unfold found
    rw [hprint, hread, List.flatMap_map]
    have hgoal : (fields.filter fun f => Active attrs f).map (fun f =>
        (f.section_.toList, f.name.toList, (attrs f.name).elim [] t.text)) =
        ((fields.filter fun f => Active attrs f).map fun f => (f.section_, f.name)).map fun r =>
          (r.1.toList, r.2.toList, valueOf t attrs r.2) := by
      rw [List.map_map]
      apply List.map_congr_left
      intro f _
      simp only [Function.comp, valueOf_eq]
    rw [hgoal]
    refine List.Perm.trans ?_ ((hflat.trans hrec).map _)
    unfold flat
    rw [List.map_flatMap]
    apply List.Perm.flatMap_left
    intro s _
    rw [← List.map_append, List.map_map, List.map_map]
    apply List.Perm.map
    unfold shorts longs
    have := List.filter_append_perm (fun o => decide (IsShort (valueOf t attrs) o)) s.2
    simpa using this

open Classical in
/-- **C103, comparing two runs.** If two configurations (of any two schemas and files) print the same text, then the
same options apply in both, with the same texts of values. -/
theorem C103_same_text_partial (t : Texts V) (preset₁ preset₂ : String → Option V) (fields₁ fields₂ : List (Opt V))
    (hpar₁ : ∀ f ∈ fields₁, ∀ p vs, f.dependency = some (p, vs) → ∀ g ∈ fields₁, g.name = p → g.dependency = none)
    (hpar₂ : ∀ f ∈ fields₂, ∀ p vs, f.dependency = some (p, vs) → ∀ g ∈ fields₂, g.name = p → g.dependency = none)
    (hex₁ : Exclusive fields₁) (hex₂ : Exclusive fields₂) (attrs₁ attrs₂ : String → Option V)
    (recorded₁ recorded₂ : List (String × String))
    (h₁ : configure preset₁ fields₁ = .ok (attrs₁, recorded₁)) (h₂ : configure preset₂ fields₂ = .ok (attrs₂, recorded₂))
    (hsec : ∀ f ∈ fields₁ ++ fields₂, '\n' ∉ f.section_.toList)
    (hname : ∀ f ∈ fields₁ ++ fields₂, CleanName f.name.toList)
    (hval₁ : ∀ f ∈ fields₁, ∀ v, attrs₁ f.name = some v → CleanValue (t.text v))
    (hval₂ : ∀ f ∈ fields₂, ∀ v, attrs₂ f.name = some v → CleanValue (t.text v))
    (heq : printed t attrs₁ recorded₁ = printed t attrs₂ recorded₂) :
    ∀ f ∈ fields₁, Active attrs₁ f → ∃ g ∈ fields₂, Active attrs₂ g ∧ g.section_ = f.section_ ∧ g.name = f.name ∧
      (attrs₂ g.name).map t.text = (attrs₁ f.name).map t.text := by
  intro f hf ha
  have p1 := (C103_shown_partial t preset₁ fields₁ hpar₁ hex₁ attrs₁ recorded₁ h₁
    (fun f hf => hsec f (by simp [hf])) (fun f hf => hname f (by simp [hf])) hval₁).2
  have p2 := (C103_shown_partial t preset₂ fields₂ hpar₂ hex₂ attrs₂ recorded₂ h₂
    (fun f hf => hsec f (by simp [hf])) (fun f hf => hname f (by simp [hf])) hval₂).2
  rw [heq] at p1
  have hm := (p1.symm.trans p2).mem_iff.1 (List.mem_map.2 ⟨f, List.mem_filter.2 ⟨hf, by simpa using ha⟩, rfl⟩)
  obtain ⟨g, hg, hge⟩ := List.mem_map.1 hm
  rw [List.mem_filter] at hg
  simp only [Prod.mk.injEq, String.toList_inj, decide_eq_true_eq] at hg hge
  refine ⟨g, hg.1, hg.2, hge.1, hge.2.1, ?_⟩
  obtain ⟨a, _, hna, _, v, _, hav⟩ := (C21_configure preset₁ fields₁ hpar₁ attrs₁ recorded₁ h₁).2.2.2.1 f.name ⟨f, hf, rfl, ha⟩
  obtain ⟨b, _, hnb, _, w, _, hbw⟩ := (C21_configure preset₂ fields₂ hpar₂ attrs₂ recorded₂ h₂).2.2.2.1 g.name ⟨g, hg.1, rfl, hg.2⟩
  have := hge.2.2
  rw [hav, hbw] at this ⊢
  simpa using this

/-- dependencies on different values of the same parent -/
def Differ : Option (String × List String) → Option (String × List String) → Prop
  | some a, some b => a.1 = b.1 ∧ ∀ v ∈ a.2, v ∉ b.2
  | _, _ => False

instance (a b) : Decidable (Differ a b) := by
  unfold Differ
  split <;> infer_instance

/-- The schema that comes with the program meets the conditions of `C103_shown_partial` on sections, names and options
of equal name, for every outcome of reading the options. -/
theorem C103_shipped_schema (read : Nat → Except Err String) :
    Exclusive (shippedOptions read) ∧ (∀ f ∈ shippedOptions read, '\n' ∉ f.section_.toList) ∧
      ∀ f ∈ shippedOptions read, CleanName f.name.toList := by
  have k1 : shippedSchema.Pairwise fun f g => f.1 = g.1 → f.2.1 = g.2.1 →
      Differ f.2.2 g.2.2 := by decide +kernel
  have k2 : ∀ f ∈ shippedSchema, '\n' ∉ f.1.toList ∧ '\n' ∉ f.2.1.toList ∧ '|' ∉ f.2.1.toList ∧
      trimEnd ' ' f.2.1.toList = f.2.1.toList ∧ ':' ∉ f.2.1.toList := by decide +kernel
  have hmem : ∀ f ∈ shippedOptions read, ∃ g ∈ shippedSchema, g.1 = f.section_ ∧ g.2.1 = f.name := by
    intro f hf
    unfold shippedOptions at hf
    obtain ⟨⟨g, i⟩, hg, rfl⟩ := List.mem_map.1 hf
    exact ⟨g, List.fst_mem_of_mem_zipIdx hg, rfl, rfl⟩
  refine ⟨?_, ?_, ?_⟩
  · unfold Exclusive shippedOptions
    rw [List.pairwise_map]
    have k3 : (shippedSchema.zipIdx).Pairwise fun f g => f.1.1 = g.1.1 → f.1.2.1 = g.1.2.1 →
        Differ f.1.2.2 g.1.2.2 := by
      have := k1
      rw [← List.zipIdx_map_fst 0 shippedSchema, List.pairwise_map] at this
      exact this
    refine k3.imp ?_
    intro f g hfg h1 h2
    have := hfg h1 h2
    revert this
    cases hf : f.1.2.2 with
    | none => intro h; exact h.elim
    | some a =>
      cases hg : g.1.2.2 with
      | none => intro h; exact h.elim
      | some b =>
        rintro ⟨h3, h4⟩
        exact ⟨a.1, a.2, b.2, hf, by rw [h3]; exact hg, h4⟩
  · intro f hf
    obtain ⟨g, hg, h1, -⟩ := hmem f hf
    rw [← h1]
    exact (k2 g hg).1
  · intro f hf
    obtain ⟨g, hg, -, h2⟩ := hmem f hf
    rw [← h2]
    exact ⟨⟨(k2 g hg).2.1, (k2 g hg).2.2.1, (k2 g hg).2.2.2.1⟩, (k2 g hg).2.2.2.2⟩

/-- a value is a floating-point number -/
def floats : Texts ℚ := ⟨fun _ => true, sixDigits, fun _ => []⟩

/-- **C103 fails for the exact value.** Two files that give an option (such as the time step) different values can print
the same text: here `1.0000001` and `1`. -/
theorem C103_digits_fails : ∃ (a b : ℚ) (attrs₁ attrs₂ : String → Option ℚ) (recorded : List (String × String)),
    a ≠ b ∧ configure (fun _ => none) [⟨"dt", "Time_integration", none, .ok a⟩] = .ok (attrs₁, recorded) ∧
    configure (fun _ => none) [⟨"dt", "Time_integration", none, .ok b⟩] = .ok (attrs₂, recorded) ∧
    attrs₁ "dt" = some a ∧ attrs₂ "dt" = some b ∧ printed floats attrs₁ recorded = printed floats attrs₂ recorded :=
  ⟨10000001 / 10000000, 1, _, _, [("Time_integration", "dt")], by norm_num, rfl, rfl, rfl, rfl, by decide +kernel⟩

/-- values are their own text -/
def strings : Texts String := ⟨fun _ => false, fun _ => [], String.toList⟩

/-- A configuration of two sections, short and long options, and one that does not apply. -/
example : (configure (fun _ => none) [⟨"equations", "General", none, .ok "shallow water"⟩,
      ⟨"dt", "Time", none, .ok "900"⟩, ⟨"filter_order", "Space", some ("apply", ["1"]), .ok "16"⟩,
      ⟨"filter_order", "Space", some ("apply", ["0"]), .ok "0"⟩, ⟨"file", "Space", none, .ok "a-rather-long-name.nc"⟩,
      ⟨"apply", "Space", none, .ok "1"⟩, ⟨"t_end", "Time", none, .ok "86400"⟩,
      (⟨"tolerance", "Time", none, .ok "1e-7"⟩ : Opt String)]).toOption.map
    (fun r => (readBack (printed strings r.1 r.2)).map fun s =>
      (String.ofList s.1, s.2.map fun e => (String.ofList e.1, String.ofList e.2))) =
    some [("General", [("equations", "shallow water")]),
      ("Time", [("dt", "900"), ("t_end", "86400"), ("tolerance", "1e-7")]),
      ("Space", [("apply", "1"), ("filter_order", "16"), ("file", "a-rather-long-name.nc")])] := by
  decide +kernel

example : String.ofList (sixDigits (314159265 / 100000000)) = "3.14159" ∧ String.ofList (sixDigits (5 / 2)) = "2.5" := by
  decide +kernel

end WxVerif.Props.ConfigPrint
