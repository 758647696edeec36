import Verif.Props.SchemaFile
import Verif.Model.SchemaJson
import Verif.Model.Schema
import Mathlib.Data.Sum.Order
import Mathlib.Data.Rat.Floor
import Mathlib.Data.String.Basic
import Mathlib.Data.List.Induction
import Mathlib.Tactic.NormNum

/-!
# C91 — loading the description of the options: expressions, what is refused, what is ignored, and the printed description
-/

namespace WxVerif.Props.SchemaFileMore

open WxVerif.SchemaFile WxVerif.SchemaSpec WxVerif.Props.SchemaFile
open WxVerif.Config (Value Range Opt configure)
open WxVerif.ConfigSpec (Allowed Active)

variable {α : Type} [LinearOrder α] {P : Python α}

/-! ## Attributes -/

/-- the attributes of a description that are read -/
def known : List String := ["name", "section", "type", "default", "min", "max", "selectables", "dependency", "description"]

/-- **C91, other attributes are ignored**: a description with an attribute under any other name (a misspelt one, say) is read as if it were not
there. -/
theorem C91_unknown_ignored (o : Obj) (sec : String) :
    extractField P o sec = extractField P (o.filter fun e => decide (e.1 ∈ known)) sec := by
  have h : ∀ n ∈ known, lookup n (o.filter fun e => decide (e.1 ∈ known)) = lookup n o := by
    intro n hn
    unfold lookup
    rw [List.find?_filter]
    congr 2
    funext e
    by_cases he : e.1 = n
    · simp [he, hn]
    · simp [he]
  unfold extractField getSection
  simp only [getText, getTyped, getRange, getScalar, getSelectables, getDependency, getTextOpt, h "name" (by decide), h "type" (by decide),
    h "default" (by decide), h "min" (by decide), h "max" (by decide), h "selectables" (by decide), h "dependency" (by decide),
    h "description" (by decide), h "section" (by decide)]

theorem type_of {o : Obj} {sec : String} {l : Loaded α} (h : extractField P o sec = .ok l) {tj : Json} {b : Bool} {t : Ty}
    (htj : lookup "type" o = some tj) (ht : getType (P.text tj) = .ok (b, t)) : l.isList = b ∧ l.type = t := by
  obtain ⟨_, tj', _, _, _, h1, h2, _⟩ := extract_ok h
  rw [htj] at h1
  cases h1
  rw [ht] at h2
  cases h2
  exact ⟨rfl, rfl⟩

/-- **C91, expressions.** For an option whose type is a number (not a list), writing the default as an expression is the same as writing the number
it evaluates to. -/
theorem C91_expression {o : Obj} {sec s : String} {tj j : Json} {t : Ty} (htj : lookup "type" o = some tj) (ht : getType (P.text tj) = .ok (false, t))
    (htx : t.isStr = false) (hb : t ≠ .bool) (hs : P.evalExpr s = some j) (hj : ¬IsText j) :
    extractField P (("default", .str s) :: o) sec = extractField P (("default", j) :: o) sec := by
  have h : ∀ k n, "default" ≠ n → lookup n (("default", k) :: o) = lookup n o := fun k n hn => lookup_cons_ne hn _ _
  have hd : getTyped P t "default" (("default", .str s) :: o) false = getTyped P t "default" (("default", j) :: o) false := by
    unfold getTyped
    rw [lookup_cons_self, lookup_cons_self]
    simp only [hb, htx, if_false, hs, Option.bind_some, Bool.false_eq_true]
    split
    · rename_i h0; cases h0
    · rename_i h0; cases h0; exact absurd trivial hj
    · rename_i j' _ h0
      cases h0
      simp [convertTyped, Function.comp_def]
  unfold extractField getSection getText
  simp only [h _ "name" (by decide), h _ "type" (by decide), h _ "section" (by decide), htj, bind, Except.bind, ht, hd]
  simp only [getRange, getScalar, getSelectables, getDependency, getTextOpt, getTyped, h _ "min" (by decide), h _ "max" (by decide),
    h _ "selectables" (by decide), h _ "dependency" (by decide), h _ "description" (by decide)]

/-- **C91, where expressions fail.** For an option that is a list of numbers, a default written as an expression is never a list: the option that is
loaded has one bare number, which is what a configuration without the option then gets. -/
theorem C91_list_expression_fails {o : Obj} {sec s : String} {tj : Json} {t : Ty} (htj : lookup "type" o = some tj)
    (ht : getType (P.text tj) = .ok (true, t)) (htx : t.isStr = false) (hd : lookup "default" o = some (.str s)) {l : Loaded α}
    (h : extractField P o sec = .ok l) : l.isList = true ∧ ∃ a, l.default = some (.scalar a) := by
  obtain ⟨h1, h2⟩ := type_of h htj ht
  obtain ⟨_, _, _, _, _, _, _, h3, _⟩ := extract_ok h
  refine ⟨h1, ?_⟩
  rw [h1, h2] at h3
  unfold getTyped at h3
  rw [hd] at h3
  simp only [htx, Bool.false_eq_true, if_false] at h3
  split_ifs at h3
  simp only [Option.bind_eq_some_iff, Option.map_eq_some_iff] at h3
  obtain ⟨v, _, a, _, h4⟩ := h3
  exact ⟨a, h4.symm⟩

/-- **C91, truth values.** The default, the minimum or the maximum of an option that is true or false cannot be a text, its values cannot be listed,
and a list of them cannot have a default: such descriptions do not load. -/
theorem C91_bool_fails {o : Obj} {sec : String} {tj : Json} {b : Bool} (htj : lookup "type" o = some tj)
    (ht : getType (P.text tj) = .ok (b, .bool))
    (hbad : (∃ n ∈ ["default", "min", "max"], ∃ s, lookup n o = some (.str s)) ∨ lookup "selectables" o ≠ none ∨
      (b = true ∧ lookup "default" o ≠ none)) (l : Loaded α) : extractField P o sec ≠ .ok l := by
  intro h
  obtain ⟨h1, h2⟩ := type_of h htj ht
  obtain ⟨_, _, _, _, _, _, _, h3, h4, _⟩ := extract_ok h
  obtain ⟨hlo, hhi, hsel, _⟩ := getRange_ok h4
  rw [h1, h2] at h3
  rw [h2] at hlo hhi hsel
  rcases hbad with ⟨n, hn, s, hs⟩ | hs | ⟨rfl, hd⟩
  · have hno : ∀ b, getTyped P .bool n o b = none := by
      intro b; unfold getTyped; rw [hs]; simp
    simp only [List.mem_cons, List.not_mem_nil, or_false] at hn
    rcases hn with rfl | rfl | rfl
    · rw [hno] at h3; cases h3
    · unfold getScalar at hlo; rw [hno] at hlo; cases hlo
    · unfold getScalar at hhi; rw [hno] at hhi; cases hhi
  · obtain ⟨j, hj⟩ := Option.ne_none_iff_exists'.1 hs
    unfold getSelectables getTyped at hsel
    rw [hj] at hsel
    split at hsel
    · rename_i h0; cases h0
    · simp at hsel
    · simp [convertTyped] at hsel
  · obtain ⟨j, hj⟩ := Option.ne_none_iff_exists'.1 hd
    unfold getTyped at h3
    rw [hj] at h3
    split at h3
    · rename_i h0; cases h0
    · simp at h3
    · simp [convertTyped] at h3

/-- **C91, dependencies.** The values of a dependency written as a single text do not load; any other single value stands for the list of it. -/
theorem C91_dependency_values {o d : Obj} {sec : String} (hd : lookup "dependency" o = some (.obj d)) :
    ((∃ s, lookup "values" d = some (.str s)) → ∀ l : Loaded α, extractField P o sec ≠ .ok l) ∧
    (∀ v, ¬IsText v → (∀ js, v ≠ .arr js) →
      extractField P (("dependency", .obj (("values", v) :: d)) :: o) sec =
        extractField P (("dependency", .obj (("values", .arr [v]) :: d)) :: o) sec) := by
  refine ⟨fun ⟨s, hs⟩ l h => ?_, fun v hv hna => ?_⟩
  · obtain ⟨_, _, _, _, _, _, _, _, _, h5, _⟩ := extract_ok h
    unfold getDependency at h5
    rw [hd] at h5
    split at h5
    · rename_i h0; cases h0
    · rename_i h0; cases h0
    · rename_i h0
      cases h0
      simp only [toObj, Option.bind_some, hs] at h5
      split at h5
      · cases h5
      · rename_i hnt _ h0; cases h0; exact absurd rfl (hnt s)
      · cases h5
  · have h : ∀ k n, "dependency" ≠ n → lookup n (("dependency", k) :: o) = lookup n o := fun k n hn => lookup_cons_ne hn _ _
    have hdep : getDependency P (("dependency", .obj (("values", v) :: d)) :: o) =
        getDependency P (("dependency", .obj (("values", .arr [v]) :: d)) :: o) := by
      have hl : asList v = [v] := by
        cases v with
        | arr l => exact absurd rfl (hna l)
        | _ => rfl
      unfold getDependency
      simp only [lookup_cons_self, toObj, Option.bind_some]
      rw [lookup_cons_ne (by decide), lookup_cons_ne (by decide)]
      cases lookup "name" d with
      | none => rfl
      | some n =>
        cases v with
        | str s => exact absurd trivial hv
        | arr l => exact absurd rfl (hna l)
        | _ => rfl
    unfold extractField getSection getText
    simp only [h _ "name" (by decide), h _ "type" (by decide), h _ "section" (by decide), hdep]
    simp only [getRange, getScalar, getSelectables, getTextOpt, getTyped, h _ "min" (by decide), h _ "max" (by decide), h _ "default" (by decide),
      h _ "selectables" (by decide), h _ "description" (by decide)]

/-- **C91, capitals in a dependency.** The values of a dependency are kept as they are written, while the value of an option of type `str` is put in
lower case (`lower`) when it is read.  So an option that depends on such a value written with capitals is never read, whatever the configuration
file says. -/
theorem C91_dependency_capitals_fails {V : Type} [DecidableEq V] (lower : String → String) (hl : ∀ s, lower (lower s) = lower s)
    (text : String → V) (htext : Function.Injective text) (preset attrs : String → Option V) (fields : List (Opt V)) (recorded : List (String × String))
    (hpar : ∀ f ∈ fields, ∀ p vs, f.dependency = some (p, vs) → ∀ g ∈ fields, g.name = p → g.dependency = none)
    (h : configure preset fields = .ok (attrs, recorded)) {f : Opt V} (hf : f ∈ fields) {p : String} {ws : List String}
    (hdep : f.dependency = some (p, ws.map text)) (hcap : ∀ w ∈ ws, lower w ≠ w)
    (hparent : (∃ g ∈ fields, g.name = p) ∧ ∀ g ∈ fields, g.name = p → ∀ v, g.read = .ok v → ∃ t, v = text (lower t)) :
    ¬Active attrs f := by
  intro hact
  obtain ⟨v, hv, hm⟩ := hact p _ hdep
  obtain ⟨w, hw, rfl⟩ := List.mem_map.1 hm
  obtain ⟨⟨g, hg, hgn⟩, hread⟩ := hparent
  have hga : Active attrs g := by
    intro p' vs' h'
    rw [hpar f hf p _ hdep g hg hgn] at h'
    cases h'
  obtain ⟨g', hg', hgn', _, v', hv', hat⟩ := (Config.C21_configure preset fields hpar attrs recorded h).2.2.2.1 p ⟨g, hg, hgn, hga⟩
  rw [hv] at hat
  cases hat
  obtain ⟨t, ht⟩ := hread g' hg' hgn' _ hv'
  have := htext ht
  apply hcap w hw
  rw [this, hl]

/-! ## The printed description -/

/-- **C91, the printed description.** `to_string` lists every option exactly once, under its own section; each section appears once, and the options
of a section keep their order. -/
theorem C91_listing {β : Type} (sec : β → String) (fields : List β) :
    ((listing sec fields).map (·.1)).Nodup ∧
    (∀ s, s ∈ (listing sec fields).map (·.1) ↔ ∃ f ∈ fields, sec f = s) ∧
    ∀ e ∈ listing sec fields, e.2 = fields.filter fun f => sec f = e.1 := by
  unfold listing
  induction fields using List.reverseRecOn with
  | nil => simp
  | append_singleton fs f ih =>
    obtain ⟨h1, h2, h3⟩ := ih
    rw [List.foldl_append, List.foldl_cons, List.foldl_nil]
    generalize fs.foldl (addToSections sec) [] = L at h1 h2 h3
    unfold addToSections
    split_ifs with hany
    · have hmap : (L.map fun e => if e.1 = sec f then (e.1, e.2 ++ [f]) else e).map (·.1) = L.map (·.1) := by
        rw [List.map_map]
        apply List.map_congr_left
        intro e _
        simp only [Function.comp]
        split_ifs <;> rfl
      have hin : sec f ∈ L.map (·.1) := by
        simp only [List.any_eq_true, decide_eq_true_eq] at hany
        obtain ⟨e, he, hs⟩ := hany
        exact List.mem_map.2 ⟨e, he, hs⟩
      refine ⟨by rw [hmap]; exact h1, fun s => ?_, fun e he => ?_⟩
      · rw [hmap, h2]
        constructor
        · rintro ⟨g, hg, rfl⟩; exact ⟨g, by simp [hg], rfl⟩
        · rintro ⟨g, hg, rfl⟩
          simp only [List.mem_append, List.mem_singleton] at hg
          rcases hg with hg | rfl
          · exact ⟨g, hg, rfl⟩
          · exact (h2 _).1 hin
      · obtain ⟨e', he', rfl⟩ := List.mem_map.1 he
        have := h3 e' he'
        by_cases hs : e'.1 = sec f
        · simp [hs, this]
        · have hs' : ¬sec f = e'.1 := fun h => hs h.symm
          simp [hs, hs', this]
    · have hnin : sec f ∉ L.map (·.1) := by
        intro h
        obtain ⟨e, he, hs⟩ := List.mem_map.1 h
        apply hany
        simp only [List.any_eq_true, decide_eq_true_eq]
        exact ⟨e, he, hs⟩
      refine ⟨?_, fun s => ?_, fun e he => ?_⟩
      · rw [List.map_append, List.map_singleton, List.nodup_append]
        refine ⟨h1, by simp, ?_⟩
        intro a ha b hb
        simp only [List.mem_singleton] at hb
        rintro rfl
        exact hnin (hb ▸ ha)
      · rw [List.map_append, List.mem_append, h2]
        constructor
        · rintro (⟨g, hg, rfl⟩ | h)
          · exact ⟨g, by simp [hg], rfl⟩
          · simp at h; exact ⟨f, by simp, h.symm⟩
        · rintro ⟨g, hg, rfl⟩
          simp only [List.mem_append, List.mem_singleton] at hg
          rcases hg with hg | rfl
          · exact Or.inl ⟨g, hg, rfl⟩
          · right; simp
      · simp only [List.mem_append, List.mem_singleton] at he
        rcases he with he | rfl
        · have := h3 e he
          have hs : ¬sec f = e.1 := fun h => hnin (h ▸ List.mem_map.2 ⟨e, he, rfl⟩)
          simp [hs, this]
        · have : fs.filter (fun g => sec g = sec f) = [] := by
            rw [List.filter_eq_nil_iff]
            intro g hg hs
            simp only [decide_eq_true_eq] at hs
            exact hnin ((h2 _).2 ⟨g, hg, hs⟩)
          simp [this]

/-- where the columns of a line begin -/
def columns (items : List (List Char × Nat)) : Nat := (items.map (·.2)).sum

/-- **C91, the columns of the printed description.** In a line of plain text every item is written in full, followed by a space, at or after its
column; at its column exactly when all the items before it leave room; and an item that is too long pushes the next ones only as far as needed. -/
theorem C91_columns (before after : List (List Char × Nat)) (x : List Char) (w : Nat) :
    (∃ rest, makeStr false false (before ++ (x, w) :: after) = makeStr false false before ++ (x ++ ' ' :: rest)) ∧
    columns before ≤ (makeStr false false before).length ∧
    ((∀ it ∈ before, it.1.length < it.2) → (makeStr false false before).length = columns before) ∧
    (makeStr false false (before ++ [(x, w)])).length =
      max (columns before + w) ((makeStr false false before).length + x.length + 1) := by
  -- the loop carries the text and the column
  have hfold : ∀ (l : List (List Char × Nat)) (a : List Char × Nat),
      ∃ rest, (l.foldl (fun (acc : List Char × Nat) it =>
        (acc.1 ++ [] ++ (it.1 ++ [' ']) ++ List.replicate (acc.2 + it.2 - (acc.1 ++ [] ++ (it.1 ++ [' '])).length) ' ', acc.2 + it.2)) a) =
        (a.1 ++ rest, a.2 + columns l) := by
    intro l
    induction l with
    | nil => intro a; exact ⟨[], by simp [columns]⟩
    | cons it l ih =>
      intro a
      rw [List.foldl_cons]
      obtain ⟨rest, hr⟩ := ih _
      rw [hr]
      refine ⟨it.1 ++ [' '] ++ List.replicate (a.2 + it.2 - (a.1 ++ [] ++ (it.1 ++ [' '])).length) ' ' ++ rest, ?_⟩
      simp [columns, add_assoc]
  have hms : ∀ l, makeStr false false l = (l.foldl (fun (acc : List Char × Nat) it =>
        (acc.1 ++ [] ++ (it.1 ++ [' ']) ++ List.replicate (acc.2 + it.2 - (acc.1 ++ [] ++ (it.1 ++ [' '])).length) ' ', acc.2 + it.2)) ([], 0)).1 := by
    intro l
    simp [makeStr]
  have hstep : ∀ l (y : List Char) (u : Nat), makeStr false false (l ++ [(y, u)]) = makeStr false false l ++ (y ++ [' ']) ++
      List.replicate (columns l + u - ((makeStr false false l).length + y.length + 1)) ' ' := by
    intro l y u
    rw [hms, hms, List.foldl_append, List.foldl_cons, List.foldl_nil]
    obtain ⟨rest, hr⟩ := hfold l ([], 0)
    rw [hr]
    simp [add_assoc]
  refine ⟨?_, ?_, ?_, ?_⟩
  · obtain ⟨rest, hr⟩ := hfold after ((((before ++ [(x, w)]).foldl (fun (acc : List Char × Nat) it =>
        (acc.1 ++ [] ++ (it.1 ++ [' ']) ++ List.replicate (acc.2 + it.2 - (acc.1 ++ [] ++ (it.1 ++ [' '])).length) ' ', acc.2 + it.2)) ([], 0))))
    refine ⟨List.replicate (columns before + w - ((makeStr false false before).length + x.length + 1)) ' ' ++ rest, ?_⟩
    rw [show before ++ (x, w) :: after = (before ++ [(x, w)]) ++ after by simp, hms ((before ++ [(x, w)]) ++ after), List.foldl_append, hr, ← hms, hstep]
    simp
  · induction before using List.reverseRecOn with
    | nil => simp [columns]
    | append_singleton l it ih =>
      obtain ⟨y, u⟩ := it
      rw [hstep]
      simp [columns] at ih ⊢
      omega
  · induction before using List.reverseRecOn with
    | nil => intro _; simp [makeStr, columns]
    | append_singleton l it ih =>
      intro hroom
      obtain ⟨y, u⟩ := it
      have h1 := ih fun it hit => hroom it (by simp [hit])
      have h2 := hroom (y, u) (by simp)
      rw [hstep]
      simp only [List.length_append, List.length_replicate, List.length_cons, List.length_nil, h1]
      simp [columns] at h1 h2 ⊢
      omega
  · rw [hstep]
    simp only [List.length_append, List.length_replicate, List.length_cons, List.length_nil]
    omega

/-! ## The shipped file -/

/-- Python's conversions on the values that occur in the shipped file: numbers as fractions, texts as they are or in lower case.  (The rounding of
`float32` and `angle24` is left out.) -/
def plainCall : Ty → Json → Option (ℚ ⊕ₗ String)
  | .int, .int z | .float, .int z | .float32, .int z | .angle24, .int z => some (Sum.inlₗ z)
  | .int, .real q => some (Sum.inlₗ (if 0 ≤ q then (⌊q⌋ : ℚ) else (⌈q⌉ : ℚ)))
  | .float, .real q | .float32, .real q | .angle24, .real q => some (Sum.inlₗ q)
  | .bool, .bool b | .int, .bool b | .float, .bool b | .float32, .bool b | .angle24, .bool b => some (Sum.inlₗ (if b then 1 else 0))
  | .bool, .int z => some (Sum.inlₗ (if z = 0 then 0 else 1))
  | .csStr, .str s => some (Sum.inrₗ s)
  | .lcStr, .str s => some (Sum.inrₗ s.toLower)
  | _, _ => none

/-- with no expressions -/
def plain : Python (ℚ ⊕ₗ String) where
  evalExpr _ := none
  call := plainCall
  text := fun j => match j with | .str s => s | _ => ""

/-- the checks below, as a computation -/
def shippedCheck : Bool :=
  match load plain (sectioned shippedVersion shippedSections) with
  | .error _ => false
  | .ok r =>
    decide (r.1 = shippedVersion) &&
    decide (r.2.map (fun l => (l.section_, l.name, l.dependency.map (·.1))) =
      (Config.shippedSchema.filter (·.2.2.isNone) ++ Config.shippedSchema.filter (·.2.2.isSome)).map fun f => (f.1, f.2.1, f.2.2.map (·.1))) &&
    r.2.all fun l => decide (l.name ≠ "output_format") || (l.range.selectables.isNone && l.range.min.isNone && l.range.max.isNone)

theorem shipped_check : shippedCheck = true := by decide +kernel

/-- **C91, the shipped file** loads: its options are those of `shippedSchema` (used for C21), those without a dependency first.  The file lists the
values allowed for `output_format` under the name `selectable`, which is ignored, so that option accepts every value. -/
theorem C91_shipped : ∃ fields, load plain (sectioned shippedVersion shippedSections) = .ok (shippedVersion, fields) ∧
    fields.map (fun l => (l.section_, l.name, l.dependency.map (·.1))) =
      (Config.shippedSchema.filter (·.2.2.isNone) ++ Config.shippedSchema.filter (·.2.2.isSome)).map (fun f => (f.1, f.2.1, f.2.2.map (·.1))) ∧
    (∃ o, ("Output_options", o) ∈ shippedSections.flatMap (fun s => s.2.map fun f => (s.1, f)) ∧ lookup "name" o = some (.str "output_format") ∧
      lookup "selectable" o = some (.arr [.str "netcdf", .str "fst"])) ∧
    ∀ l ∈ fields, l.name = "output_format" → ∀ v, Allowed l.range v := by
  have h := shipped_check
  unfold shippedCheck at h
  split at h
  · cases h
  rename_i r hr
  obtain ⟨v, fields⟩ := r
  simp only [Bool.and_eq_true, decide_eq_true_eq] at h
  obtain ⟨⟨rfl, h2⟩, h3⟩ := h
  refine ⟨fields, hr, h2, ⟨[("name", .str "output_format"), ("type", .str "str"), ("default", .str "netcdf"),
    ("selectable", .arr [.str "netcdf", .str "fst"]), ("description", .str "Desired format to use for storing simulation results.")],
    by simp [shippedSections], by simp [lookup], by simp [lookup]⟩, ?_⟩
  intro l hl hn v a _
  have := List.all_eq_true.1 h3 l hl
  simp only [hn, ne_eq, not_true_eq_false, decide_false, Bool.false_or, Bool.and_eq_true, Option.isNone_iff_eq_none] at this
  obtain ⟨⟨t1, t2⟩, t3⟩ := this
  simp [t1, t2, t3]

/-! ## The hypotheses can be met -/

/-- with the expressions `60*3` and `2` -/
def small : Python (ℚ ⊕ₗ String) :=
  { plain with evalExpr := fun s => if s = "60*3" then some (.int 180) else if s = "2" then some (.int 2) else none }

/-- an option with a default written as an expression -/
def dtOption : Obj := [("name", .str "dt"), ("type", .str "float"), ("min", .int 0)]

example : lookup "type" dtOption = some (.str "float") ∧ getType (small.text (.str "float")) = .ok (false, .float) ∧
    small.evalExpr "60*3" = some (.int 180) ∧ ¬IsText (.int 180) ∧
    (extractField small (("default", .str "60*3") :: dtOption) "Time").toOption.map (·.default) = some (some (.scalar (Sum.inlₗ 180))) := by
  refine ⟨by simp [lookup, dtOption], by decide +kernel, by simp [small], fun h => h, ?_⟩
  decide +kernel

/-- a list of integers whose default is the expression `2` loads, with the bare number 2 -/
example : (extractField small [("name", .str "cuda_devices"), ("type", .str "list-int"), ("default", .str "2")] "System").toOption.map
    (fun l => (l.isList, l.default)) = some (true, some (.scalar (Sum.inlₗ 2))) := by
  decide +kernel

/-- written as a list it is the list -/
example : (extractField small [("name", .str "cuda_devices"), ("type", .str "list-int"), ("default", .arr [.int 2])] "System").toOption.map
    (fun l => (l.isList, l.default)) = some (true, some (.list [Sum.inlₗ 2])) := by
  decide +kernel

/-- a truth value with a text for default does not load, with the value itself it does -/
example : (extractField small [("name", .str "sponge"), ("type", .str "bool"), ("default", .str "1")] "Grid").toOption.map (·.default) = none ∧
    (extractField small [("name", .str "sponge"), ("type", .str "bool"), ("default", .bool true)] "Grid").toOption.map (·.default) =
      some (some (.scalar (Sum.inlₗ 1))) := by
  decide +kernel

/-- `CUDA` in a dependency on an option in lower case: the hypotheses of `C91_dependency_capitals_fails` for the option `cuda_devices` -/
example : (∀ w ∈ ["CUDA"], String.toLower w ≠ w) ∧
    (configure (fun _ => none) [⟨"desired_device", "System", none, .ok "CUDA".toLower⟩, (⟨"cuda_devices", "System", some ("desired_device", ["CUDA"]), .ok "[0]"⟩ : Opt String)]).toOption.map
      (·.2) = some [("System", "desired_device")] := by
  decide +kernel

example : makeStr false false [("dt".toList, 6), ("float".toList, 8)] = "dt    float   ".toList := by decide +kernel

end WxVerif.Props.SchemaFileMore
